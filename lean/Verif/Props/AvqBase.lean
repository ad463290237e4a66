import Mathlib.Data.Nat.Choose.Basic
import Mathlib.Tactic.Linarith
import Mathlib.Tactic.Ring
import Mathlib.Data.List.Perm.Basic
import Mathlib.Algebra.Order.BigOperators.Group.List
import Verif.Spec.Avq
import Verif.Model.Avq

/-! # The base codebooks of the lattice decoder -/

namespace Verif.Avq

open Res Ops
open DrcSel (at_)

theorem i32_ok {x : Int} (h : MIN_32 ≤ x ∧ x ≤ MAX_32) : i32 x = .ok x := by
  unfold i32; rw [if_pos h]

/-! ## Permutations by rank -/

/-- The entries of runs. -/
def expand (gs : List (Int × Int)) : List Int := gs.flatMap fun g => List.replicate g.2.toNat g.1

/-- The number of entries of runs. -/
def total (gs : List (Int × Int)) : Int := (gs.map (·.2)).sum

/-- The product of the factorials of the lengths of runs. -/
def weight (gs : List (Int × Int)) : Nat := (gs.map fun g => (g.2.toNat).factorial).prod

theorem total_nonneg {gs : List (Int × Int)} (h : ∀ g ∈ gs, 0 ≤ g.2) : 0 ≤ total gs := by
  unfold total
  apply List.sum_nonneg
  intro x hx
  obtain ⟨g, hg, rfl⟩ := List.mem_map.mp hx
  exact h g hg

theorem weight_pos (gs : List (Int × Int)) : 0 < weight gs := by
  unfold weight
  induction gs with
  | nil => simp
  | cons g gs ih => simpa using ⟨Nat.factorial_pos _, ih⟩

theorem pick_spec {f : Int} (hf : 0 < f) : ∀ (gs : List (Int × Int)) (t : Int), (∀ g ∈ gs, 0 ≤ g.2) → 0 ≤ t →
    t < total gs * f → total gs * f ≤ MAX_32 →
    ∃ pre v w post, gs = pre ++ (v, w) :: post ∧ 0 ≤ t - total pre * f ∧ t - total pre * f < w * f ∧
      pick f gs t = .ok (v, w, t - total pre * f, pre ++ (v, w - 1) :: post)
  | [], t, _, h0, h1, _ => by simp [total] at h1; omega
  | (v, w) :: gs, t, hg, h0, h1, h2 => by
    have hw : 0 ≤ w := hg (v, w) (by simp)
    have hgs : ∀ g ∈ gs, 0 ≤ g.2 := fun g h => hg g (by simp [h])
    have htot : total ((v, w) :: gs) = w + total gs := by simp [total]
    have hn := total_nonneg hgs
    rw [htot] at h1 h2
    have e : (w + total gs) * f = w * f + total gs * f := by ring
    rw [e] at h1 h2
    have hwf : 0 ≤ w * f := mul_nonneg hw hf.le
    have hgf : 0 ≤ total gs * f := mul_nonneg hn hf.le
    obtain ⟨X, hX⟩ : ∃ X, X = w * f := ⟨_, rfl⟩
    unfold pick
    rw [← hX] at h1 h2 hwf ⊢
    rw [i32_ok (by unfold MIN_32 MAX_32 at *; omega), ok_bind, i32_ok (by unfold MIN_32 MAX_32 at *; omega), ok_bind]
    by_cases hc : 0 ≤ t - X
    · rw [if_pos hc]
      obtain ⟨pre, v', w', post, hgs', ha, hb, hp⟩ := pick_spec hf gs (t - X) hgs hc (by omega) (by omega)
      have hpre : total ((v, w) :: pre) * f = X + total pre * f := by
        rw [hX]; simp only [total, List.map_cons, List.sum_cons]; ring
      refine ⟨(v, w) :: pre, v', w', post, by rw [hgs']; rfl, ?_, ?_, ?_⟩
      · rw [hpre]; omega
      · rw [hpre]; omega
      · rw [hp, ok_bind, hpre]
        show Res.ok _ = Res.ok _
        rw [show t - (X + total pre * f) = t - X - total pre * f by omega]
        rfl
    · rw [if_neg hc]
      refine ⟨[], v, w, gs, rfl, ?_, ?_, ?_⟩
      · simp [total]; omega
      · simp [total]; omega
      · rw [i32_ok (by unfold MIN_32 MAX_32 at *; omega), ok_bind]
        simp [total]

theorem total_step (pre post : List (Int × Int)) (v w : Int) :
    total (pre ++ (v, w - 1) :: post) = total (pre ++ (v, w) :: post) - 1 := by
  simp only [total, List.map_append, List.map_cons, List.sum_append, List.sum_cons]; ring

theorem weight_step (pre post : List (Int × Int)) (v w : Int) (hw : 0 < w) :
    ((weight (pre ++ (v, w) :: post) : Nat) : Int) = w * (weight (pre ++ (v, w - 1) :: post) : Nat) := by
  obtain ⟨k, rfl⟩ : ∃ k : Nat, w = (k : Int) + 1 := ⟨(w - 1).toNat, by omega⟩
  have e1 : ((k : Int) + 1).toNat = k + 1 := by omega
  have e2 : ((k : Int) + 1 - 1).toNat = k := by omega
  simp only [weight, List.map_append, List.map_cons, List.prod_append, List.prod_cons, e1, e2, Nat.factorial_succ]
  push_cast
  ring

theorem expand_step (pre post : List (Int × Int)) (v w : Int) (hw : 0 < w) :
    (expand (pre ++ (v, w) :: post)).Perm (v :: expand (pre ++ (v, w - 1) :: post)) := by
  obtain ⟨k, rfl⟩ : ∃ k : Nat, w = (k : Int) + 1 := ⟨(w - 1).toNat, by omega⟩
  have e1 : ((k : Int) + 1).toNat = k + 1 := by omega
  have e2 : ((k : Int) + 1 - 1).toNat = k := by omega
  simp only [expand, List.flatMap_append, List.flatMap_cons, e1, e2, List.replicate_succ, List.cons_append]
  exact List.perm_middle

/-- The factorials from `(n - 1)!` down. -/
def facs : Nat → List Int
  | 0 => []
  | n + 1 => (n.factorial : Int) :: facs n

theorem factorial_le {n : Nat} (h : n ≤ 8) : n.factorial ≤ 40320 := by
  have := Nat.factorial_le h
  have e : Nat.factorial 8 = 40320 := by decide
  omega

theorem unrank_spec : ∀ (n : Nat) (fb t : Int) (gs : List (Int × Int)), n ≤ 8 → total gs = n → (∀ g ∈ gs, 0 ≤ g.2) →
    0 < fb → fb * weight gs ≤ 40320 → 0 ≤ t → t < fb * n.factorial →
    ∃ out, unrank (facs n) fb t gs = .ok out ∧ out.Perm (expand gs)
  | 0, fb, t, gs, _, htot, hg, _, _, _, _ => by
    refine ⟨[], rfl, ?_⟩
    have hz : ∀ g ∈ gs, g.2 = 0 := by
      intro g hmem
      have h1 := hg g hmem
      have h2 : g.2 ≤ total gs := by
        unfold total
        exact List.single_le_sum (fun x hx => by obtain ⟨g', hg', rfl⟩ := List.mem_map.mp hx; exact hg g' hg') _ (List.mem_map.mpr ⟨g, hmem, rfl⟩)
      simp at htot
      omega
    have : expand gs = [] := by
      unfold expand
      rw [List.flatMap_eq_nil_iff]
      intro g hmem
      rw [hz g hmem]; rfl
    rw [this]
  | n + 1, fb, t, gs, hn, htot, hg, hfb, hb, h0, h1 => by
    have hwp : (0 : Int) < weight gs := by exact_mod_cast weight_pos gs
    have hfb' : fb ≤ 40320 := by nlinarith
    have hfac : (n.factorial : Int) ≤ 5040 := by
      have := Nat.factorial_le (show n ≤ 7 by omega)
      have e : Nat.factorial 7 = 5040 := by decide
      rw [e] at this; exact_mod_cast this
    have hfacp : (0 : Int) < n.factorial := by exact_mod_cast Nat.factorial_pos n
    have hf : 0 < fb * n.factorial := mul_pos hfb hfacp
    have hfle : fb * n.factorial ≤ 40320 * 5040 := mul_le_mul hfb' hfac hfacp.le (by norm_num)
    have e : fb * ((n + 1).factorial : Nat) = total gs * (fb * n.factorial) := by
      rw [htot, Nat.factorial_succ]; push_cast; ring
    have h8 : total gs ≤ 8 := by rw [htot]; omega
    have hbig : total gs * (fb * n.factorial) ≤ 8 * (40320 * 5040) :=
      mul_le_mul h8 hfle hf.le (by norm_num)
    rw [e] at h1
    obtain ⟨pre, v, w, post, hgs, ha, hb2, hp⟩ := pick_spec hf gs t hg h0 h1 (le_trans hbig (by unfold MAX_32; norm_num))
    have hw : 0 < w := by
      by_contra hneg
      have : w * (fb * n.factorial) ≤ 0 := mul_nonpos_of_nonpos_of_nonneg (by omega) hf.le
      omega
    have hwle : w ≤ 8 := by
      have h3 : w ≤ total gs := by
        unfold total
        exact List.single_le_sum (fun x hx => by obtain ⟨g', hg', rfl⟩ := List.mem_map.mp hx; exact hg g' hg') _
          (List.mem_map.mpr ⟨(v, w), by rw [hgs]; simp, rfl⟩)
      omega
    have hstep := weight_step pre post v w hw
    rw [← hgs] at hstep
    have htot' := total_step pre post v w
    rw [← hgs] at htot'
    obtain ⟨out, hout, hperm⟩ := unrank_spec n (fb * w) (t - total pre * (fb * n.factorial)) (pre ++ (v, w - 1) :: post) (by omega)
      (by rw [htot', htot]; push_cast; ring)
      (by
        intro g hmem
        rcases List.mem_append.mp hmem with h | h
        · exact hg g (by rw [hgs]; simp [h])
        · rcases List.mem_cons.mp h with h | h
          · subst h; simp; omega
          · exact hg g (by rw [hgs]; simp [h]))
      (mul_pos hfb hw) (by rw [mul_assoc, ← hstep]; exact hb) ha (by linarith [hb2, mul_comm w (fb * (n.factorial : Int)), mul_assoc fb w (n.factorial : Int), mul_comm w (n.factorial : Int), mul_assoc fb (n.factorial : Int) w])
    refine ⟨v :: out, ?_, ?_⟩
    · unfold facs unrank
      have hfw : fb * w ≤ 40320 * 8 := mul_le_mul hfb' hwle hw.le (by norm_num)
      have hfwp := mul_pos hfb hw
      rw [i32_ok (by unfold MIN_32 MAX_32; omega), ok_bind, hp, ok_bind]
      dsimp only
      rw [i32_ok (by unfold MIN_32 MAX_32; omega), ok_bind, hout, ok_bind]
    · rw [hgs]
      exact (List.Perm.cons v hperm).trans (expand_step pre post v w hw).symm

/-- Two targets with the same permutation differ by less than the product of the factorials of the runs. -/
theorem unrank_inj : ∀ (n : Nat) (fb t t' : Int) (gs : List (Int × Int)) (out : List Int), n ≤ 8 → total gs = n → (∀ g ∈ gs, 0 ≤ g.2) →
    (gs.map (·.1)).Nodup → 0 < fb → fb * weight gs ≤ 40320 → 0 ≤ t → t < fb * n.factorial → 0 ≤ t' → t' < fb * n.factorial →
    unrank (facs n) fb t gs = .ok out → unrank (facs n) fb t' gs = .ok out → t - t' < fb * weight gs
  | 0, fb, t, t', gs, out, _, htot, hg, _, hfb, _, h0, h1, h0', h1', _, _ => by
    have : (1 : Int) ≤ weight gs := by exact_mod_cast weight_pos gs
    have h2 : fb * 1 ≤ fb * weight gs := mul_le_mul_of_nonneg_left this hfb.le
    simp at h1 h1'
    omega
  | n + 1, fb, t, t', gs, out, hn, htot, hg, hnd, hfb, hb, h0, h1, h0', h1', hu, hu' => by
    have hwp : (0 : Int) < weight gs := by exact_mod_cast weight_pos gs
    have hfb' : fb ≤ 40320 := by nlinarith
    have hfac : (n.factorial : Int) ≤ 5040 := by
      have := Nat.factorial_le (show n ≤ 7 by omega)
      have e : Nat.factorial 7 = 5040 := by decide
      rw [e] at this; exact_mod_cast this
    have hfacp : (0 : Int) < n.factorial := by exact_mod_cast Nat.factorial_pos n
    have hf : 0 < fb * n.factorial := mul_pos hfb hfacp
    have hfle : fb * n.factorial ≤ 40320 * 5040 := mul_le_mul hfb' hfac hfacp.le (by norm_num)
    have e : fb * ((n + 1).factorial : Nat) = total gs * (fb * n.factorial) := by
      rw [htot, Nat.factorial_succ]; push_cast; ring
    have h8 : total gs ≤ 8 := by rw [htot]; omega
    have hbig : total gs * (fb * n.factorial) ≤ 8 * (40320 * 5040) :=
      mul_le_mul h8 hfle hf.le (by norm_num)
    rw [e] at h1 h1'
    have hmax : total gs * (fb * n.factorial) ≤ MAX_32 := le_trans hbig (by unfold MAX_32; norm_num)
    obtain ⟨pre, v, w, post, hgs, ha, hb2, hp⟩ := pick_spec hf gs t hg h0 h1 hmax
    obtain ⟨pre', v', w', post', hgs', ha', hb2', hp'⟩ := pick_spec hf gs t' hg h0' h1' hmax
    have hw : 0 < w := by
      by_contra hneg
      have : w * (fb * n.factorial) ≤ 0 := mul_nonpos_of_nonpos_of_nonneg (by omega) hf.le
      omega
    have hwle : w ≤ 8 := by
      have h3 : w ≤ total gs := by
        unfold total
        exact List.single_le_sum (fun x hx => by obtain ⟨g', hg', rfl⟩ := List.mem_map.mp hx; exact hg g' hg') _
          (List.mem_map.mpr ⟨(v, w), by rw [hgs]; simp, rfl⟩)
      omega
    have hw8' : w' ≤ 8 := by
      have h3 : w' ≤ total gs := by
        unfold total
        exact List.single_le_sum (fun x hx => by obtain ⟨g', hg', rfl⟩ := List.mem_map.mp hx; exact hg g' hg') _
          (List.mem_map.mpr ⟨(v', w'), by rw [hgs']; simp, rfl⟩)
      omega
    have hw' : 0 < w' := by
      by_contra hneg
      have : w' * (fb * n.factorial) ≤ 0 := mul_nonpos_of_nonpos_of_nonneg (by omega) hf.le
      omega
    unfold facs unrank at hu hu'
    rw [i32_ok (by unfold MIN_32 MAX_32; omega), ok_bind, hp, ok_bind] at hu
    rw [i32_ok (by unfold MIN_32 MAX_32; omega), ok_bind, hp', ok_bind] at hu'
    dsimp only at hu hu'
    have hfw : fb * w ≤ 40320 * 8 := mul_le_mul hfb' hwle hw.le (by norm_num)
    have hfwp := mul_pos hfb hw
    have hfw' : fb * w' ≤ 40320 * 8 := mul_le_mul hfb' hw8' hw'.le (by norm_num)
    have hfwp' := mul_pos hfb hw'
    rw [i32_ok (by unfold MIN_32 MAX_32; omega), ok_bind] at hu
    rw [i32_ok (by unfold MIN_32 MAX_32; omega), ok_bind] at hu'
    obtain ⟨rest, hr, hu⟩ := bind_eq_ok.mp hu
    obtain ⟨rest', hr', hu'⟩ := bind_eq_ok.mp hu'
    cases hu
    simp only [Res.ok.injEq, List.cons.injEq] at hu'
    obtain ⟨rfl, rfl⟩ := hu'
    -- the runs are the same
    have hpre : pre = pre' ∧ w' = w ∧ post = post' := by
      have hh : pre ++ (v', w) :: post = pre' ++ (v', w') :: post' := by rw [← hgs, ← hgs']
      rw [hgs] at hnd
      clear hr hr' hp hp' hb2 hb2' ha ha'
      have : ∀ (a b : List (Int × Int)) (x y : Int) (c d : List (Int × Int)), a ++ (v', x) :: c = b ++ (v', y) :: d →
          ((a ++ (v', x) :: c).map (·.1)).Nodup → a = b ∧ y = x ∧ c = d := by
        intro a
        induction a with
        | nil =>
          intro b x y c d h hnd
          cases b with
          | nil => simp at h; exact ⟨rfl, h.1.symm, h.2⟩
          | cons g b =>
            exfalso
            simp only [List.nil_append, List.cons_append, List.cons.injEq] at h
            obtain ⟨h1, h2⟩ := h
            rw [h2] at hnd
            simp at hnd
        | cons g a ih =>
          intro b x y c d h hnd
          cases b with
          | nil =>
            exfalso
            simp only [List.nil_append, List.cons_append, List.cons.injEq] at h
            obtain ⟨h1, h2⟩ := h
            rw [h1] at hnd
            simp at hnd
          | cons g' b =>
            simp only [List.cons_append, List.cons.injEq] at h
            obtain ⟨rfl, h2⟩ := h
            have hnd' : ((a ++ (v', x) :: c).map (·.1)).Nodup := by
              simp only [List.cons_append, List.map_cons, List.nodup_cons] at hnd
              exact hnd.2
            obtain ⟨rfl, h3, h4⟩ := ih b x y c d h2 hnd'
            exact ⟨rfl, h3, h4⟩
      exact this _ _ _ _ _ _ hh hnd
    obtain ⟨rfl, rfl, rfl⟩ := hpre
    have hstep := weight_step pre post v' w' hw
    rw [← hgs] at hstep
    have htot' := total_step pre post v' w'
    rw [← hgs] at htot'
    have hlt : ∀ x : Int, x < w' * (fb * (n.factorial : Int)) → x < fb * w' * (n.factorial : Int) := by
      intro x hx
      have : fb * w' * (n.factorial : Int) = w' * (fb * (n.factorial : Int)) := by ring
      rw [this]; exact hx
    have := unrank_inj n (fb * w') (t - total pre * (fb * n.factorial)) (t' - total pre * (fb * n.factorial))
      (pre ++ (v', w' - 1) :: post) _ (by omega) (by rw [htot', htot]; push_cast; ring)
      (by
        intro g hmem
        rcases List.mem_append.mp hmem with h | h
        · exact hg g (by rw [hgs]; simp [h])
        · rcases List.mem_cons.mp h with h | h
          · subst h; simp; omega
          · exact hg g (by rw [hgs]; simp [h]))
      (by rw [hgs] at hnd; simpa using hnd)
      (mul_pos hfb hw) (by rw [mul_assoc, ← hstep]; exact hb) ha (hlt _ hb2) ha' (hlt _ hb2') hr hr'
    rw [mul_assoc, ← hstep] at this
    omega

/-! ## Runs -/

/-- Runs, the last one first, of a list. -/
def RunsOf (s : List (Int × Int) × Int) (l : List Int) : Prop :=
  expand s.1.reverse = l ∧ s.2 = weight s.1 ∧ (∀ g ∈ s.1, 1 ≤ g.2) ∧ total s.1 = l.length

theorem runs_spec : ∀ (xs : List Int) (s : List (Int × Int) × Int) (l : List Int), s.1 ≠ [] → RunsOf s l →
    (runs xs s).1 ≠ [] ∧ RunsOf (runs xs s) (l ++ xs)
  | [], s, l, hne, hs => by
    rw [List.append_nil]
    unfold runs
    exact ⟨hne, hs⟩
  | x :: xs, ([], b), l, hne, _ => absurd rfl hne
  | x :: xs, ((v, w) :: gs, b), l, _, ⟨h1, h2, h3, h4⟩ => by
    have hw : 1 ≤ w := h3 (v, w) (by simp)
    unfold runs
    rw [show l ++ x :: xs = (l ++ [x]) ++ xs by simp]
    by_cases hx : x = v
    · rw [if_pos hx]
      refine runs_spec xs _ (l ++ [x]) (by simp) ⟨?_, ?_, ?_, ?_⟩
      · rw [← h1]
        obtain ⟨k, rfl⟩ : ∃ k : Nat, w = (k : Int) + 1 := ⟨(w - 1).toNat, by omega⟩
        simp only [expand, List.reverse_cons, List.flatMap_append, List.flatMap_cons, List.flatMap_nil, List.append_nil, List.append_assoc]
        rw [show ((k : Int) + 1 + 1).toNat = k + 1 + 1 by omega, show ((k : Int) + 1).toNat = k + 1 by omega, hx,
          List.replicate_succ' (n := k + 1)]
      · simp only at h2 ⊢
        rw [h2]
        obtain ⟨k, rfl⟩ : ∃ k : Nat, w = (k : Int) + 1 := ⟨(w - 1).toNat, by omega⟩
        simp only [weight, List.map_cons, List.prod_cons]
        rw [show ((k : Int) + 1 + 1).toNat = k + 1 + 1 by omega, show ((k : Int) + 1).toNat = k + 1 by omega,
          Nat.factorial_succ (k + 1)]
        push_cast
        ring
      · intro g hg
        rcases List.mem_cons.mp hg with h | h
        · subst h; show 1 ≤ w + 1; omega
        · exact h3 g (by simp [h])
      · simp only [total, List.map_cons, List.sum_cons, List.length_append, List.length_cons, List.length_nil] at h4 ⊢
        push_cast
        omega
    · rw [if_neg hx]
      refine runs_spec xs _ (l ++ [x]) (by simp) ⟨?_, ?_, ?_, ?_⟩
      · rw [← h1]
        simp [expand]
      · simp only at h2 ⊢
        rw [h2]
        simp [weight]
      · intro g hg
        rcases List.mem_cons.mp hg with h | h
        · subst h; show (1 : Int) ≤ 1; omega
        · exact h3 g h
      · simp only [total, List.map_cons, List.sum_cons, List.length_append, List.length_cons, List.length_nil] at h4 ⊢
        push_cast
        omega

theorem total_reverse (gs : List (Int × Int)) : total gs.reverse = total gs := by
  simp [total]

theorem weight_reverse (gs : List (Int × Int)) : weight gs.reverse = weight gs := by
  simp [weight]

/-- The runs of a list of eight entries. -/
def groups : List Int → List (Int × Int)
  | [] => []
  | x :: xs => (runs xs ([(x, 1)], 1)).1.reverse

theorem groups_spec {l : List Int} (hl : l.length = 8) : expand (groups l) = l ∧ total (groups l) = 8 ∧ (∀ g ∈ groups l, 1 ≤ g.2) ∧
    ∃ x xs, l = x :: xs ∧ groups l = (runs xs ([(x, 1)], 1)).1.reverse ∧ (runs xs ([(x, 1)], 1)).2 = weight (groups l) := by
  cases l with
  | nil => simp at hl
  | cons x xs =>
    obtain ⟨_, h1, h2, h3, h4⟩ := runs_spec xs ([(x, 1)], 1) [x] (by simp) ⟨by simp [expand], by simp [weight], by simp, by simp [total]⟩
    refine ⟨h1, ?_, ?_, x, xs, rfl, rfl, ?_⟩
    · unfold groups
      rw [total_reverse, h4]
      simp only [List.length_append, List.length_cons, List.length_nil] at hl ⊢
      omega
    · intro g hg
      exact h3 g (List.mem_reverse.mp hg)
    · unfold groups
      rw [weight_reverse]; exact h2

theorem weight_le : ∀ (gs : List (Int × Int)) (n : Nat), (∀ g ∈ gs, 0 ≤ g.2) → total gs = n → weight gs ∣ n.factorial
  | [], n, _, _ => by simp [weight]
  | (v, w) :: gs, n, h, ht => by
    have hw : 0 ≤ w := h (v, w) (by simp)
    have hg := total_nonneg (fun g hg => h g (by simp [hg]) : ∀ g ∈ gs, 0 ≤ g.2)
    obtain ⟨k, rfl⟩ : ∃ k : Nat, w = k := ⟨w.toNat, by omega⟩
    have ht' : (k : Int) + total gs = n := by rw [← ht]; simp [total]
    obtain ⟨j, hj⟩ : ∃ j : Nat, total gs = j := ⟨(total gs).toNat, by omega⟩
    have ih := weight_le gs j (fun g hg => h g (by simp [hg])) hj
    have hn : n = k + j := by omega
    have e : weight (((k : Int), (k : Int)) :: gs) = weight ((v, (k : Int)) :: gs) := by simp [weight]
    rw [← e]
    have : weight (((k : Int), (k : Int)) :: gs) = k.factorial * weight gs := by simp [weight]
    rw [this, hn]
    exact dvd_trans (Nat.mul_dvd_mul_left _ ih) (Nat.factorial_mul_factorial_dvd_factorial_add k j)

/-- The number of permutations of a list of eight entries in which equal ones are adjacent. -/
def permutations (l : List Int) : Nat := 40320 / weight (groups l)

theorem permutations_mul {l : List Int} (hl : l.length = 8) : permutations l * weight (groups l) = 40320 := by
  obtain ⟨_, h2, h3, _⟩ := groups_spec hl
  have := weight_le (groups l) 8 (fun g hg => by have := h3 g hg; omega) (by rw [h2]; rfl)
  have e : Nat.factorial 8 = 40320 := by decide
  rw [e] at this
  exact Nat.div_mul_cancel this

theorem facs_eight : facs 8 = factorials := by decide

/-- `permute` of a rank below the number of permutations. -/
theorem permute_eq {l : List Int} (hl : l.length = 8) {r : Nat} (hr : r < permutations l) :
    permute r l = (if (groups l).length = 1 then .ok l else unrank (facs 8) 1 (r * weight (groups l)) (groups l)) := by
  obtain ⟨h1, h2, h3, x, xs, rfl, hg, hw⟩ := groups_spec hl
  have hm := permutations_mul hl
  have hlt : r * weight (groups (x :: xs)) < 40320 := by
    rw [← hm]; exact Nat.mul_lt_mul_of_pos_right hr (weight_pos _)
  unfold permute
  dsimp only
  rw [← hg, hw]
  cases hc : groups (x :: xs) with
  | nil => rw [hc] at h2; simp [total] at h2
  | cons g rest =>
    obtain ⟨v, w⟩ := g
    dsimp only
    by_cases h8 : w = 8
    · rw [if_neg (by omega)]
      have hrest : rest = [] := by
        cases rest with
        | nil => rfl
        | cons g' rest' =>
          exfalso
          rw [hc] at h2 h3
          have ha := h3 g' (by simp)
          have hb := total_nonneg (fun g hg => by have := h3 g (by simp [hg]); omega : ∀ g ∈ rest', 0 ≤ g.2)
          simp only [total, List.map_cons, List.sum_cons] at h2 hb
          omega
      subst hrest
      rw [if_pos (by simp)]
      rw [hc] at h1
      rw [← h1, h8]
      simp [expand]
    · rw [if_pos h8]
      have hrest : rest ≠ [] := by
        rintro rfl
        rw [hc] at h2
        simp [total] at h2
        omega
      rw [if_neg (by cases rest with
        | nil => exact absurd rfl hrest
        | cons _ _ => simp)]
      rw [hc] at hlt
      have : MIN_32 ≤ (r : Int) * (weight ((v, w) :: rest) : Nat) ∧ (r : Int) * (weight ((v, w) :: rest) : Nat) ≤ MAX_32 := by
        have e : ((r * weight ((v, w) :: rest) : Nat) : Int) = (r : Int) * (weight ((v, w) :: rest) : Nat) := by push_cast; rfl
        rw [← e]
        unfold MIN_32 MAX_32
        omega
      rw [i32_ok this, ok_bind, facs_eight]

/-- **C154**, for the codes of a leader: a rank below the number of permutations gives a permutation. -/
theorem permute_perm {l : List Int} (hl : l.length = 8) {r : Nat} (hr : r < permutations l) :
    ∃ out, permute r l = .ok out ∧ out.Perm l := by
  obtain ⟨h1, h2, h3, _⟩ := groups_spec hl
  have hm := permutations_mul hl
  have hlt : r * weight (groups l) < 40320 := by
    rw [← hm]; exact Nat.mul_lt_mul_of_pos_right hr (weight_pos _)
  rw [permute_eq hl hr]
  by_cases hone : (groups l).length = 1
  · rw [if_pos hone]; exact ⟨l, rfl, List.Perm.refl _⟩
  · rw [if_neg hone]
    have e : Nat.factorial 8 = 40320 := by decide
    have hle : weight (groups l) ≤ 40320 := Nat.le_of_dvd (by omega) ⟨permutations l, by rw [mul_comm]; exact hm.symm⟩
    obtain ⟨out, ho, hp⟩ := unrank_spec 8 1 ((r : Int) * weight (groups l)) (groups l) (le_refl _) (by rw [h2]; rfl)
      (fun g hg => by have := h3 g hg; omega) (by norm_num) (by rw [one_mul]; exact_mod_cast hle)
      (mul_nonneg (by omega) (by omega)) (by rw [e, one_mul]; exact_mod_cast hlt)
    refine ⟨out, ho, ?_⟩
    rw [h1] at hp
    exact hp

/-- **C155**, for the codes of a leader: two ranks do not give the same permutation. -/
theorem permute_inj {l : List Int} (hl : l.length = 8) (hnd : ((groups l).map (·.1)).Nodup) {r r' : Nat} (hr : r < permutations l)
    (hr' : r' < permutations l) {out : List Int} (h : permute r l = .ok out) (h' : permute r' l = .ok out) : r = r' := by
  obtain ⟨h1, h2, h3, _⟩ := groups_spec hl
  have hm := permutations_mul hl
  have hlt : r * weight (groups l) < 40320 := by
    rw [← hm]; exact Nat.mul_lt_mul_of_pos_right hr (weight_pos _)
  have hlt' : r' * weight (groups l) < 40320 := by
    rw [← hm]; exact Nat.mul_lt_mul_of_pos_right hr' (weight_pos _)
  have hwp := weight_pos (groups l)
  rw [permute_eq hl hr] at h
  rw [permute_eq hl hr'] at h'
  by_cases hone : (groups l).length = 1
  · have : permutations l = 1 := by
      obtain ⟨g, hg⟩ := List.length_eq_one_iff.mp hone
      obtain ⟨v, w⟩ := g
      rw [hg] at h2
      have hw : w = 8 := by simpa [total] using h2
      unfold permutations
      rw [hg, hw]
      show 40320 / weight [(v, 8)] = 1
      have : weight [(v, 8)] = 40320 := by simp [weight]; decide
      rw [this]
    omega
  · rw [if_neg hone] at h h'
    have e : Nat.factorial 8 = 40320 := by decide
    have hle : weight (groups l) ≤ 40320 := Nat.le_of_dvd (by omega) ⟨permutations l, by rw [mul_comm]; exact hm.symm⟩
    have key : ∀ a b : Nat, a * weight (groups l) < 40320 → b * weight (groups l) < 40320 →
        unrank (facs 8) 1 ((a : Int) * weight (groups l)) (groups l) = .ok out →
        unrank (facs 8) 1 ((b : Int) * weight (groups l)) (groups l) = .ok out → a ≤ b := by
      intro a b ha hb hua hub
      have := unrank_inj 8 1 ((a : Int) * weight (groups l)) ((b : Int) * weight (groups l)) (groups l) out (le_refl _) (by rw [h2]; rfl)
        (fun g hg => by have := h3 g hg; omega) hnd (by norm_num) (by rw [one_mul]; exact_mod_cast hle)
        (mul_nonneg (by omega) (by omega)) (by rw [e, one_mul]; exact_mod_cast ha)
        (mul_nonneg (by omega) (by omega)) (by rw [e, one_mul]; exact_mod_cast hb) hua hub
      rw [one_mul] at this
      by_contra hc
      have h5 : b + 1 ≤ a := by omega
      have h6 : ((b : Int) + 1) * weight (groups l) ≤ (a : Int) * weight (groups l) :=
        mul_le_mul_of_nonneg_right (by exact_mod_cast h5) (by omega)
      have h7 : ((b : Int) + 1) * weight (groups l) = (b : Int) * weight (groups l) + weight (groups l) := by ring
      omega
    have hA := key r r' hlt hlt' h h'
    have hB := key r' r hlt' hlt h' h
    omega

end Verif.Avq
