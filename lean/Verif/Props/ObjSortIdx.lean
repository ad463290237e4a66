import Mathlib.Data.List.Perm.Basic
import Mathlib.Data.List.Range
import Mathlib.Tactic.Linarith
import Verif.Model.ObjSortIdx

/-!
# Sorting of loudspeakers by their index in the object renderer
-/

namespace Verif.Props.ObjSortIdx

open Verif.ObjSortIdx

/-! ## Specification -/

/-- The `n` elements from position `b` on. -/
def part (s : Buf) (b : ℕ) : ℕ → List Ele
  | 0 => []
  | n + 1 => s b :: part s (b + 1) n

/-- What sorting does to the `n` elements from position `b` on. -/
structure Sorted (io io' : Buf) (b n : ℕ) : Prop where
  perm : (part io' b n).Perm (part io b n)
  sorted : ∀ i j, i ≤ j → j < n → (io' (b + i)).index ≤ (io' (b + j)).index
  outside : ∀ x, x < b ∨ b + n ≤ x → io' x = io x

/-! ## Parts -/

theorem part_congr {s t : Buf} {b n : ℕ} (h : ∀ x, b ≤ x → x < b + n → s x = t x) : part s b n = part t b n := by
  induction n generalizing b with
  | zero => rfl
  | succ n ih =>
    simp only [part]
    rw [h b (le_refl _) (by omega), ih fun x h1 h2 => h x (by omega) (by omega)]

theorem part_add (s : Buf) (b m n : ℕ) : part s b (m + n) = part s b m ++ part s (b + m) n := by
  induction m generalizing b with
  | zero => simp [part]
  | succ m ih =>
    rw [show m + 1 + n = (m + n) + 1 by omega]
    simp only [part, List.cons_append]
    rw [ih, show b + 1 + m = b + (m + 1) by omega]

theorem part_succ (s : Buf) (b n : ℕ) : part s b (n + 1) = part s b n ++ [s (b + n)] := by
  rw [part_add]; rfl

theorem mem_part {s : Buf} {b n : ℕ} {e : Ele} : e ∈ part s b n ↔ ∃ i < n, e = s (b + i) := by
  induction n with
  | zero => simp [part]
  | succ n ih =>
    rw [part_succ, List.mem_append, ih, List.mem_singleton]
    constructor
    · rintro (⟨i, hi, rfl⟩ | rfl)
      · exact ⟨i, by omega, rfl⟩
      · exact ⟨n, by omega, rfl⟩
    · rintro ⟨i, hi, rfl⟩
      by_cases h : i = n
      · right; rw [h]
      · left; exact ⟨i, by omega, rfl⟩

/-! ## The loop -/

structure SplitInv (io sc : Buf) (b n : ℕ) (pv : ℤ) (i : ℕ) (s : Buf) (p : ℕ) : Prop where
  le : p ≤ i
  low : ∀ k < p, (s (b + k)).index < pv
  high : ∀ k < i - p, pv ≤ (s (b + (n - (i - p)) + k)).index
  perm : (part s b p ++ part s (b + (n - (i - p))) (i - p)).Perm (part io b i)
  outside : ∀ x, x < b ∨ b + n ≤ x → s x = sc x

theorem split_inv (io sc : Buf) (b n : ℕ) (pv : ℤ) (i : ℕ) (hi : i < n) :
    SplitInv io sc b n pv i (split io sc b n pv i).1 (split io sc b n pv i).2 := by
  induction i with
  | zero => exact ⟨le_refl _, fun k hk => by simp [split] at hk, fun k hk => by omega, by simp [split, part],
      fun x _ => rfl⟩
  | succ i ih =>
    obtain ⟨h1, h2, h3, h4, h5⟩ := ih (by omega)
    simp only [split]
    generalize split io sc b n pv i = r at *
    obtain ⟨s, p⟩ := r
    simp only at *
    split
    · rename_i hlt
      have e0 : i + 1 - (p + 1) = i - p := by omega
      refine ⟨by omega, fun k hk => ?_, fun k hk => ?_, ?_, fun x hx => ?_⟩
      · simp only [upd]
        split
        · exact hlt
        · exact h2 k (by omega)
      · simp only [upd]
        rw [e0] at hk ⊢
        rw [if_neg (by omega)]
        exact h3 k hk
      · simp only
        rw [e0, part_succ, part_succ]
        have c1 : part (upd s (b + p) (io (b + i))) b p = part s b p :=
          part_congr fun x _ hx => by simp only [upd]; rw [if_neg (by omega)]
        have c2 : part (upd s (b + p) (io (b + i))) (b + (n - (i - p))) (i - p) = part s (b + (n - (i - p))) (i - p) :=
          part_congr fun x hx _ => by simp only [upd]; rw [if_neg (by omega)]
        have c3 : upd s (b + p) (io (b + i)) (b + p) = io (b + i) := by simp [upd]
        rw [c1, c2, c3]
        refine List.Perm.trans ?_ (h4.append_right _)
        rw [List.append_assoc, List.append_assoc]
        exact (List.perm_append_comm).append_left _
      · simp only [upd]
        rw [if_neg (by omega)]
        exact h5 x hx
    · rename_i hge
      have e0 : i + 1 - p = (i - p) + 1 := by omega
      have e1 : b + (n - 1) - (i - p) = b + (n - (i - p + 1)) := by omega
      have e2 : b + (n - (i - p + 1)) + 1 = b + (n - (i - p)) := by omega
      refine ⟨by omega, fun k hk => ?_, fun k hk => ?_, ?_, fun x hx => ?_⟩
      · simp only [upd]
        rw [if_neg (by simp only at hk; omega)]
        exact h2 k hk
      · simp only [upd]
        rw [e0] at hk ⊢
        rw [e1]
        by_cases hk0 : k = 0
        · rw [if_pos (by omega)]; omega
        · rw [if_neg (by omega)]
          have := h3 (k - 1) (by omega)
          have e3 : b + (n - (i - p)) + (k - 1) = b + (n - (i - p + 1)) + k := by omega
          rw [e3] at this
          exact this
      · simp only
        rw [e0, part_succ io, e1]
        have c1 : part (upd s (b + (n - (i - p + 1))) (io (b + i))) b p = part s b p :=
          part_congr fun x _ hx => by simp only [upd]; rw [if_neg (by omega)]
        simp only [part]
        rw [e2]
        have c2 : part (upd s (b + (n - (i - p + 1))) (io (b + i))) (b + (n - (i - p))) (i - p) =
            part s (b + (n - (i - p))) (i - p) :=
          part_congr fun x hx _ => by simp only [upd]; rw [if_neg (by omega)]
        have c3 : upd s (b + (n - (i - p + 1))) (io (b + i)) (b + (n - (i - p + 1))) = io (b + i) := by simp [upd]
        rw [c1, c2, c3]
        refine List.Perm.trans ?_ (h4.append_right _)
        refine List.perm_middle.trans ?_
        exact (List.perm_append_singleton _ _).symm
      · simp only [upd]
        rw [if_neg (by omega)]
        exact h5 x hx

/-! ## Sorting -/

/-- C361: the elements are sorted by their index, none is lost, and nothing else is changed, neither in the
buffer nor in the scratch buffer. -/
theorem C361_sorted (f : ℕ) (io sc : Buf) (b n : ℕ) (hn : 0 < n) (hf : n ≤ f) :
    Sorted io (sort f io sc b n).1 b n ∧ ∀ x, x < b ∨ b + n ≤ x → (sort f io sc b n).2 x = sc x := by
  induction f generalizing io sc b n with
  | zero => omega
  | succ f ih =>
    obtain ⟨h1, h2, h3, h4, h5⟩ := split_inv io sc b n (io (b + (n - 1))).index (n - 1) (by omega)
    unfold sort
    simp only
    generalize split io sc b n (io (b + (n - 1))).index (n - 1) = r at *
    obtain ⟨s, p⟩ := r
    simp only at *
    rw [if_pos (show b + p = b + (n - 1) - (n - 1 - p) by omega)]
    generalize hpv : io (b + (n - 1)) = pv at *
    have e0 : n - (n - 1 - p) = p + 1 := by omega
    rw [e0] at h3 h4
    obtain ⟨s', hs'⟩ : ∃ s', s' = upd s (b + p) pv := ⟨_, rfl⟩
    rw [← hs']
    have s1 : ∀ x, x ≠ b + p → s' x = s x := fun x hx => by rw [hs']; simp only [upd]; rw [if_neg hx]
    have s2 : s' (b + p) = pv := by rw [hs']; simp [upd]
    obtain ⟨io1, hio1⟩ : ∃ io1 : Buf, io1 = fun x => if b ≤ x ∧ x < b + n then s' x else io x := ⟨_, rfl⟩
    rw [← hio1]
    have i1 : ∀ x, b ≤ x → x < b + n → io1 x = s' x := fun x a c => by rw [hio1]; exact if_pos ⟨a, c⟩
    have i2 : ∀ x, x < b ∨ b + n ≤ x → io1 x = io x := fun x hx => by rw [hio1]; exact if_neg (by omega)
    have so : ∀ x, x < b ∨ b + n ≤ x → s' x = sc x := fun x hx => by rw [s1 x (by omega)]; exact h5 x hx
    have hsplit : ∀ t : Buf, part t b n = part t b p ++ t (b + p) :: part t (b + (p + 1)) (n - (p + 1)) := by
      intro t
      have e : n = p + ((n - (p + 1)) + 1) := by omega
      conv_lhs => rw [e]
      rw [part_add]
      rfl
    -- the buffer after the split
    have hperm1 : (part io1 b n).Perm (part io b n) := by
      rw [part_congr (t := s') fun x a c => i1 x a c, hsplit s', s2]
      have c1 : part s' b p = part s b p := part_congr fun x _ hx => s1 x (by omega)
      have c2 : part s' (b + (p + 1)) (n - (p + 1)) = part s (b + (p + 1)) (n - 1 - p) := by
        rw [show n - 1 - p = n - (p + 1) by omega]
        exact part_congr fun x hx _ => s1 x (by omega)
      rw [c1, c2]
      have e : n = (n - 1) + 1 := by omega
      have e' : part io b n = part io b (n - 1) ++ [pv] := by
        conv_lhs => rw [e]
        rw [part_succ, hpv]
      rw [e']
      refine List.perm_middle.trans ?_
      exact ((List.perm_append_singleton _ _).symm).trans (h4.append_right _)
    have low1 : ∀ k < p, (io1 (b + k)).index < pv.index := fun k hk => by
      rw [i1 _ (by omega) (by omega), s1 _ (by omega)]; exact h2 k hk
    have high1 : ∀ k < n - (p + 1), pv.index ≤ (io1 (b + (p + 1) + k)).index := fun k hk => by
      rw [i1 _ (by omega) (by omega), s1 _ (by omega)]; exact h3 k (by omega)
    have mid1 : io1 (b + p) = pv := by rw [i1 _ (by omega) (by omega), s2]
    -- the first part
    obtain ⟨q, hq⟩ : ∃ q, q = if 1 < p then sort f io1 s' b p else (io1, s') := ⟨_, rfl⟩
    rw [← hq]
    have hq1 : Sorted io1 q.1 b p ∧ ∀ x, x < b ∨ b + p ≤ x → q.2 x = s' x := by
      rw [hq]
      split
      · exact ih io1 s' b p (by omega) (by omega)
      · refine ⟨⟨List.Perm.refl _, fun i j h1 h2 => ?_, fun _ _ => rfl⟩, fun _ _ => rfl⟩
        have : i = j := by omega
        rw [this]
    clear hq
    obtain ⟨⟨qp, qs, qo⟩, qsc⟩ := hq1
    -- the second part
    obtain ⟨u, hu⟩ : ∃ u, u = if 1 < n - (p + 1) then sort f q.1 q.2 (b + (p + 1)) (n - (p + 1)) else q := ⟨_, rfl⟩
    rw [← hu]
    have hu1 : Sorted q.1 u.1 (b + (p + 1)) (n - (p + 1)) ∧
        ∀ x, x < b + (p + 1) ∨ b + (p + 1) + (n - (p + 1)) ≤ x → u.2 x = q.2 x := by
      rw [hu]
      split
      · exact ih q.1 q.2 (b + (p + 1)) (n - (p + 1)) (by omega) (by omega)
      · refine ⟨⟨List.Perm.refl _, fun i j h1 h2 => ?_, fun _ _ => rfl⟩, fun _ _ => rfl⟩
        have : i = j := by omega
        rw [this]
    clear hu
    obtain ⟨⟨up, us, uo⟩, usc⟩ := hu1
    have lowU : ∀ k < p, (u.1 (b + k)).index < pv.index := by
      intro k hk
      rw [uo _ (by omega)]
      have : q.1 (b + k) ∈ part io1 b p := qp.mem_iff.mp (mem_part.mpr ⟨k, hk, rfl⟩)
      obtain ⟨j, hj, e⟩ := mem_part.mp this
      rw [e]
      exact low1 j hj
    have midU : u.1 (b + p) = pv := by rw [uo _ (by omega), qo _ (by omega), mid1]
    have highU : ∀ k < n - (p + 1), pv.index ≤ (u.1 (b + (p + 1) + k)).index := by
      intro k hk
      have : u.1 (b + (p + 1) + k) ∈ part q.1 (b + (p + 1)) (n - (p + 1)) := up.mem_iff.mp (mem_part.mpr ⟨k, hk, rfl⟩)
      obtain ⟨j, hj, e⟩ := mem_part.mp this
      rw [e, qo _ (by omega)]
      exact high1 j hj
    refine ⟨⟨?_, fun i j hij hj => ?_, fun x hx => ?_⟩, fun x hx => ?_⟩
    · refine List.Perm.trans ?_ hperm1
      rw [hsplit u.1, hsplit io1, midU, mid1]
      have c1 : part u.1 b p = part q.1 b p := part_congr fun x _ hx => uo x (by omega)
      have c2 : part q.1 (b + (p + 1)) (n - (p + 1)) = part io1 (b + (p + 1)) (n - (p + 1)) :=
        part_congr fun x hx _ => qo x (by omega)
      rw [c1]
      exact qp.append ((up.trans (by rw [c2])).cons _)
    · rcases Nat.lt_trichotomy j p with hjp | hjp | hjp
      · rw [uo _ (by omega), uo _ (by omega)]
        exact qs i j hij hjp
      · rw [hjp, midU]
        by_cases hip : i = p
        · rw [hip, midU]
        · exact (lowU i (by omega)).le
      · have hj' := highU (j - (p + 1)) (by omega)
        have ej : b + (p + 1) + (j - (p + 1)) = b + j := by omega
        rw [ej] at hj'
        rcases Nat.lt_trichotomy i p with hip | hip | hip
        · exact (lowU i hip).le.trans hj'
        · rw [hip, midU]; exact hj'
        · have := us (i - (p + 1)) (j - (p + 1)) (by omega) (by omega)
          rw [ej, show b + (p + 1) + (i - (p + 1)) = b + i by omega] at this
          exact this
    · rw [uo _ (by omega), qo _ (by omega), i2 x hx]
    · rw [usc _ (by omega), qsc _ (by omega), so x hx]

/-! ## Examples -/

/-- Three loudspeakers. -/
example : part (sort 3 (fun x => if x = 0 then ⟨30, 0⟩ else if x = 1 then ⟨10, 1⟩ else ⟨20, 2⟩) (fun _ => ⟨0, 0⟩) 0 3).1 0 3 =
    [⟨10, 1⟩, ⟨20, 2⟩, ⟨30, 0⟩] := by decide +kernel

end Verif.Props.ObjSortIdx
