import Mathlib.Tactic.Linarith
import Mathlib.Tactic.Ring
import Mathlib.Algebra.BigOperators.Group.List.Basic
import Mathlib.Algebra.Order.Field.Basic
import Verif.Spec.DrcApply
import Verif.Proofs.Sel
import Verif.Props.DrcCoeffs

/-! # The weights of the bands add up to one -/

namespace Verif.DrcApply

open DrcConfig Res
open DrcSel (at_)

theorem at_ok {α : Type} {xs : List α} {i : Nat} {x : α} : at_ xs i = .ok x ↔ xs[i]? = some x := by
  unfold at_
  cases xs[i]? with
  | none => simp
  | some y => simp

/-! ## Slopes -/

theorem crossFreq_pos {i : Nat} {f : Rat} (h : crossFreq[i]? = some f) : 0 < f := by
  have hm : f ∈ crossFreq := List.mem_of_getElem? h
  have : ∀ g ∈ crossFreq, (0 : Rat) < g := by decide +kernel
  exact this f hm

/-- Slopes are not negative, and above 0 but for the lowest subband of a band that starts higher. -/
theorem slope_nonneg {c : Curve} (hc : c.Positive) {l h : Rat} (hh : 0 < h) (k : Nat) : 0 ≤ slope c l h k := by
  unfold slope
  by_cases h1 : (k : Rat) / 512 < l
  · rw [if_pos h1]
    by_cases h2 : k = 0
    · rw [if_pos h2]
    · rw [if_neg h2]
      have hl : 0 < l := lt_of_le_of_lt (div_nonneg (Nat.cast_nonneg k) (by norm_num)) h1
      exact le_of_lt (div_pos (hc.pow l hl) (hc.tab k (Nat.pos_of_ne_zero h2)))
  · rw [if_neg h1]
    by_cases h2 : (k : Rat) / 512 < h
    · rw [if_pos h2]; norm_num
    · rw [if_neg h2]
      have hk : 0 < k := by
        rcases Nat.eq_zero_or_pos k with h0 | h0
        · subst h0; simp at h2; linarith
        · exact h0
      exact le_of_lt (div_pos (hc.tab k hk) (hc.pow h hh))

theorem slope_first {c : Curve} (hc : c.Positive) {h : Rat} (hh : 0 < h) (k : Nat) : 0 < slope c 0 h k := by
  unfold slope
  have h0 : ¬ (k : Rat) / 512 < 0 := not_lt.mpr (div_nonneg (Nat.cast_nonneg k) (by norm_num))
  rw [if_neg h0]
  by_cases h2 : (k : Rat) / 512 < h
  · rw [if_pos h2]; norm_num
  · rw [if_neg h2]
    have hk : 0 < k := by
      rcases Nat.eq_zero_or_pos k with h0 | h0
      · subst h0; simp at h2; linarith
      · exact h0
    exact div_pos (hc.tab k hk) (hc.pow h hh)

theorem softRows_gives {c : Curve} (hc : c.Positive) (ps : List Param) (n : Nat) : ∀ (t band : Nat) (l : Rat),
    Gives (softRows c ps n t band l) (fun rows => rows.length = t ∧ (∀ r ∈ rows, ∀ k, 0 ≤ r k) ∧
      (l = 0 → 0 < t → ∃ r rest, rows = r :: rest ∧ ∀ k, 0 < r k))
  | 0, _, _ => Gives.ok ⟨rfl, by simp, by simp⟩
  | t + 1, band, l => by
    unfold softRows
    refine Gives.bind (Q := fun h => 0 < h) ?_ fun h hh => ?_
    · refine Gives.ite (fun _ => Gives.ok (by norm_num)) fun _ => ?_
      refine Gives.bind (Q := fun _ => True) (fun _ _ => trivial) fun p _ => ?_
      refine Gives.ite (fun _ => Gives.ub) fun _ f hf => crossFreq_pos (at_ok.mp hf)
    refine Gives.bind (softRows_gives hc ps n t (band + 1) h) fun rest hrest => Gives.ok ⟨by simp [hrest.1], ?_, ?_⟩
    · intro r hr k
      rcases List.mem_cons.mp hr with e | e
      · rw [e]; exact slope_nonneg hc hh k
      · exact hrest.2.1 r e k
    · intro hl _
      subst hl
      exact ⟨_, _, rfl, fun k => slope_first hc hh k⟩

theorem total_nonneg {rows : List (Nat → Rat)} (h : ∀ r ∈ rows, ∀ k, 0 ≤ r k) (k : Nat) : 0 ≤ total rows k := by
  unfold total
  induction rows with
  | nil => simp
  | cons r rest ih =>
    simp only [List.map_cons, List.sum_cons]
    have := h r (by simp) k
    have := ih fun s hs => h s (by simp [hs])
    linarith

theorem sum_div (rows : List (Nat → Rat)) (k : Nat) (d : Rat) : (rows.map fun r => r k / d).sum = total rows k / d := by
  unfold total
  induction rows with
  | nil => simp
  | cons r rest ih => simp only [List.map_cons, List.sum_cons, ih]; ring

/-! ## Weights from crossover frequencies -/

/-- **C145**: the weights that are made from crossover frequencies add up to 1 in every subband and none is negative,
whatever the frequencies. -/
theorem C145_crossover {c : Curve} (hc : c.Positive) {n : Nat} (hn : 0 < n) {ps : List Param} {rows : List (Nat → Rat)}
    (h : weights c 1 n ps = .ok rows) : rows.length = n ∧ Partition rows := by
  unfold weights at h
  rw [if_neg (by simp)] at h
  obtain ⟨raw, hraw, h⟩ := bind_eq_ok.mp h
  cases h
  obtain ⟨hl, hnn, hfirst⟩ := softRows_gives hc ps n n 0 0 raw hraw
  obtain ⟨r, rest, hr, hpos⟩ := hfirst rfl hn
  have htot : ∀ k, 0 < total raw k := by
    intro k
    have : 0 ≤ total rest k := total_nonneg (fun s hs => hnn s (by rw [hr]; simp [hs])) k
    have h1 := hpos k
    rw [hr]
    unfold total at this ⊢
    simp only [List.map_cons, List.sum_cons]
    linarith
  refine ⟨by simpa using hl, fun k _ => ⟨?_, ?_⟩⟩
  · rw [List.map_map]
    have : ((fun x : Nat → Rat => x k) ∘ fun (r : Nat → Rat) k => r k / total raw k) = fun r : Nat → Rat => r k / total raw k := rfl
    rw [this, sum_div raw k (total raw k), div_self (ne_of_gt (htot k))]
  · intro s hs
    obtain ⟨t, ht, rfl⟩ := List.mem_map.mp hs
    exact div_nonneg (hnn t ht k) (le_of_lt (htot k))

/-! ## Borders of the slopes -/

theorem softRows_borders (c : Curve) (ps : List Param) (n : Nat) : ∀ (t band : Nat) (l : Rat), band + t = n →
    (if band = 0 then l = 0 else border ps band = some l) →
    Gives (softRows c ps n t band l) (fun rows : List (Nat → Rat) => ∀ (b : Nat) (r : Nat → Rat), rows[b]? = some r →
      ∃ lo hi : Rat, (if band + b = 0 then lo = 0 else border ps (band + b) = some lo) ∧
        (if band + b + 1 = n then hi = 1 / 2 else border ps (band + b + 1) = some hi) ∧ r = slope c lo hi)
  | 0, _, _, _, _ => Gives.ok (by simp)
  | t + 1, band, l, hbt, hl => by
    unfold softRows
    refine Gives.bind (Q := fun h => if band + 1 = n then h = 1 / 2 else border ps (band + 1) = some h) ?_ fun h hh => ?_
    · by_cases hn : band + 1 = n
      · rw [if_pos hn]; exact Gives.ok (by rw [if_pos hn])
      · rw [if_neg hn]
        refine Gives.bind (Q := fun p => ps[band + 1]? = some p) (fun p hp => at_ok.mp hp) fun p hp => ?_
        refine Gives.ite (fun _ => Gives.ub) fun h0 f hf => ?_
        rw [if_neg hn]
        unfold border
        rw [hp]
        simp only [Option.bind_some]
        rw [if_neg h0]
        exact at_ok.mp hf
    by_cases hn : band + 1 = n
    · have ht : t = 0 := by omega
      subst ht
      unfold softRows
      refine Gives.bind (Q := fun rest => rest = []) (Gives.ok rfl) fun rest hrest => Gives.ok ?_
      subst hrest
      intro b r hr
      cases b with
      | zero =>
        simp only [List.getElem?_cons_zero, Option.some.injEq] at hr
        exact ⟨l, h, hl, hh, hr.symm⟩
      | succ b => simp at hr
    · rw [if_neg hn] at hh
      refine Gives.bind (softRows_borders c ps n t (band + 1) h (by omega) (by rw [if_neg (by omega)]; exact hh)) fun rest hrest =>
        Gives.ok ?_
      intro b r hr
      cases b with
      | zero =>
        simp only [List.getElem?_cons_zero, Option.some.injEq] at hr
        exact ⟨l, h, hl, by rw [if_neg (by omega)]; exact hh, hr.symm⟩
      | succ b =>
        simp only [List.getElem?_cons_succ] at hr
        have := hrest b r hr
        rw [show band + 1 + b = band + (b + 1) by omega] at this
        exact this

/-- **C145**: the weights that are made from crossover frequencies are in proportion to slopes that are 1 from the border
of the band up to that of the next, and fall off on both sides. -/
theorem C145_slopes {c : Curve} (hc : c.Positive) {n : Nat} (hn : 0 < n) {ps : List Param} {rows : List (Nat → Rat)}
    (h : weights c 1 n ps = .ok rows) : ∃ T : Nat → Rat, (∀ k, 0 < T k) ∧
      ∀ (b : Nat) (r : Nat → Rat), rows[b]? = some r → ∃ lo hi : Rat,
        (if b = 0 then lo = 0 else border ps b = some lo) ∧ (if b + 1 = n then hi = 1 / 2 else border ps (b + 1) = some hi) ∧
        ∀ k : Nat, (lo ≤ (k : Rat) / 512 → (k : Rat) / 512 < hi → r k * T k = 1) ∧
          (lo ≤ (k : Rat) / 512 → hi ≤ (k : Rat) / 512 → r k * T k = c.tab k / c.pow hi) ∧
          ((k : Rat) / 512 < lo → r k * T k = if k = 0 then 0 else c.pow lo / c.tab k) := by
  unfold weights at h
  rw [if_neg (by simp)] at h
  obtain ⟨raw, hraw, h⟩ := bind_eq_ok.mp h
  cases h
  obtain ⟨_, hnn, hfirst⟩ := softRows_gives hc ps n n 0 0 raw hraw
  obtain ⟨r0, rest, hr0, hpos⟩ := hfirst rfl hn
  have htot : ∀ k, 0 < total raw k := by
    intro k
    have : 0 ≤ total rest k := total_nonneg (fun s hs => hnn s (by rw [hr0]; simp [hs])) k
    have h1 := hpos k
    rw [hr0]
    unfold total at this ⊢
    simp only [List.map_cons, List.sum_cons]
    linarith
  refine ⟨total raw, htot, fun b r hr => ?_⟩
  rw [List.getElem?_map] at hr
  obtain ⟨s, hs, rfl⟩ := Option.map_eq_some_iff.mp hr
  obtain ⟨lo, hi, hlo, hhi, rfl⟩ := softRows_borders c ps n n 0 0 (by omega) (by rw [if_pos rfl]) raw hraw b s hs
  rw [Nat.zero_add] at hlo hhi
  refine ⟨lo, hi, hlo, hhi, fun k => ?_⟩
  dsimp only
  rw [div_mul_cancel₀ _ (ne_of_gt (htot k))]
  unfold slope
  refine ⟨fun h1 h2 => ?_, fun h1 h2 => ?_, fun h1 => ?_⟩
  · rw [if_neg (not_lt.mpr h1), if_pos h2]
  · rw [if_neg (not_lt.mpr h1), if_neg (not_lt.mpr h2)]
  · rw [if_pos h1]

/-! ## Weights from subbands -/

theorem hardRows_gives (ps : List Param) (n : Nat) : ∀ (t band : Nat) (start : Int), band + t = n →
    Gives (hardRows ps n t band start) (fun rows : List (Nat → Rat) => rows.length = t ∧
      (∀ r ∈ rows, ∀ k, r k = 0 ∨ r k = 1) ∧
      (∀ b (r : Nat → Rat), rows[b]? = some r → ∀ lo hi : Int, (if b = 0 then some start else (ps[band + b]?).map (·.startBand)) = some lo →
        (if band + b + 1 = n then some 256 else (ps[band + b + 1]?).map (·.startBand)) = some hi →
        ∀ k : Nat, r k = if lo ≤ (k : Int) ∧ (k : Int) < hi then 1 else 0) ∧
      (∀ b, b + 1 < t → ∃ p, ps[band + b + 1]? = some p))
  | 0, _, _, _ => Gives.ok ⟨rfl, by simp, by simp, by simp⟩
  | t + 1, band, start, hbt => by
    unfold hardRows
    refine Gives.bind (Q := fun stop => ((if band + 1 = n then some 256 else (ps[band + 1]?).map (·.startBand)) = some (stop + 1)) ∧
      (band + 1 ≠ n → ∃ p, ps[band + 1]? = some p)) ?_ fun stop hstop => ?_
    · by_cases hn : band + 1 = n
      · rw [if_pos hn]; exact Gives.ok (by simp [hn])
      · rw [if_neg hn]
        refine Gives.bind (Q := fun p => ps[band + 1]? = some p) (fun p hp => at_ok.mp hp) fun p hp => Gives.ok ?_
        rw [if_neg hn, hp]
        simp
    refine Gives.bind (hardRows_gives ps n t (band + 1) (stop + 1) (by omega)) fun rest hrest => Gives.ok ⟨by simp [hrest.1], ?_, ?_, ?_⟩
    · intro r hr k
      rcases List.mem_cons.mp hr with e | e
      · subst e
        dsimp only
        split <;> simp
      · exact hrest.2.1 r e k
    · intro b r hr lo hi hlo hhi k
      cases b with
      | zero =>
        simp only [List.getElem?_cons_zero, Option.some.injEq] at hr
        subst hr
        simp only [if_pos] at hlo
        simp only [Option.some.injEq] at hlo
        subst hlo
        rw [Nat.add_zero, hstop.1] at hhi
        simp only [Option.some.injEq] at hhi
        subst hhi
        dsimp only
        have : (start ≤ (k : Int) ∧ (k : Int) ≤ stop) ↔ (start ≤ (k : Int) ∧ (k : Int) < stop + 1) := by omega
        simp only [this]
      | succ b =>
        simp only [List.getElem?_cons_succ] at hr
        refine hrest.2.2.1 b r hr lo hi ?_ ?_ k
        · by_cases hb : b = 0
          · subst hb
            rw [if_pos rfl]
            rw [if_neg (by omega)] at hlo
            have hne : band + 1 ≠ n := by
              have := List.getElem?_eq_some_iff.mp hr
              have hl := this.1
              rw [hrest.1] at hl
              omega
            have h1 := hstop.1
            rw [if_neg hne] at h1
            rw [Nat.zero_add, h1] at hlo
            exact hlo
          · rw [if_neg hb]
            rw [if_neg (by omega)] at hlo
            rw [show band + 1 + b = band + (b + 1) by omega]
            exact hlo
        · rw [show band + 1 + b + 1 = band + (b + 1) + 1 by omega]
          exact hhi
    · intro b hb
      cases b with
      | zero =>
        exact hstop.2 (by omega)
      | succ b =>
        obtain ⟨p, hp⟩ := hrest.2.2.2 b (by omega)
        exact ⟨p, by rw [show band + (b + 1) + 1 = band + 1 + b + 1 by omega]; exact hp⟩

theorem hardRows_total (ps : List Param) (n : Nat) : ∀ (t band : Nat) (start : Int), band + t = n → 0 < t →
    (∀ p, ps[band + 1]? = some p → band + 1 < n → start ≤ p.startBand) →
    (∀ b p q, band < b → b + 1 < n → ps[b]? = some p → ps[b + 1]? = some q → p.startBand ≤ q.startBand) →
    Gives (hardRows ps n t band start) (fun rows : List (Nat → Rat) => ∀ k < 256, total rows k = if start ≤ (k : Int) then 1 else 0)
  | 0, _, _, _, h0, _, _ => by omega
  | t + 1, band, start, hbt, _, hfirst, hmono => by
    unfold hardRows
    by_cases hn : band + 1 = n
    · rw [if_pos hn]
      have ht : t = 0 := by omega
      subst ht
      refine Gives.bind (Q := fun stop => stop = 255) (Gives.ok rfl) fun stop hstop => ?_
      subst hstop
      unfold hardRows
      refine Gives.bind (Q := fun rest => rest = []) (Gives.ok rfl) fun rest hrest => Gives.ok ?_
      subst hrest
      intro k hk
      simp only [total, List.map_cons, List.map_nil, List.sum_cons, List.sum_nil, add_zero]
      have : (start ≤ (k : Int) ∧ (k : Int) ≤ 255) ↔ start ≤ (k : Int) := by omega
      simp only [this]
    · rw [if_neg hn]
      refine Gives.bind (Q := fun stop => ∃ p, ps[band + 1]? = some p ∧ stop = p.startBand - 1) ?_ fun stop hstop => ?_
      · exact Gives.bind (Q := fun p => ps[band + 1]? = some p) (fun p hp => at_ok.mp hp) fun p hp => Gives.ok ⟨p, hp, rfl⟩
      obtain ⟨p, hp, rfl⟩ := hstop
      have hle := hfirst p hp (by omega)
      rw [show p.startBand - 1 + 1 = p.startBand by omega]
      refine Gives.bind (hardRows_total ps n t (band + 1) p.startBand (by omega) (by omega) ?_ ?_) fun rest hrest => Gives.ok ?_
      · intro q hq hlt
        exact hmono (band + 1) p q (by omega) hlt hp hq
      · intro b q r hb hlt hq hr
        exact hmono b q r (by omega) hlt hq hr
      · intro k hk
        have := hrest k hk
        unfold total at this ⊢
        simp only [List.map_cons, List.sum_cons, this]
        by_cases h1 : p.startBand ≤ (k : Int)
        · rw [if_neg (by omega), if_pos h1, if_pos (by omega)]; norm_num
        · by_cases h2 : start ≤ (k : Int)
          · rw [if_pos (by omega), if_neg h1, if_pos h2]; norm_num
          · rw [if_neg (by omega), if_neg h1, if_neg h2]; norm_num

/-- **C145**, in part: the weights that are made from start subbands add up to 1 if no band starts below the one before;
a subband then has weight 1 in its own band and 0 in the others. -/
theorem C145_subbands_partial {c : Curve} {bt n : Nat} (hbt : bt ≠ 1) (hn : 0 < n) {ps : List Param} {ss : List Nat}
    (hlen : ss.length = n) (h0 : ss[0]? = some 0) (hsorted : ∀ (b s s' : Nat), ss[b]? = some s → ss[b + 1]? = some s' → s ≤ s')
    (hss : ∀ (b : Nat) p, 0 < b → b < n → ps[b]? = some p → ∃ s : Nat, ss[b]? = some s ∧ p.startBand = (s : Int))
    {rows : List (Nat → Rat)} (h : weights c bt n ps = .ok rows) :
    rows.length = n ∧ Partition rows ∧
      ∀ (b : Nat) (r : Nat → Rat), rows[b]? = some r → ∀ k < 256, (InBand ss b k → r k = 1) ∧ (¬ InBand ss b k → r k = 0) := by
  unfold weights at h
  rw [if_pos hbt] at h
  obtain ⟨hl, h01, hrow, hex⟩ := hardRows_gives ps n n 0 0 (by omega) rows h
  have htot := hardRows_total ps n n 0 0 (by omega) hn ?_ ?_ rows h
  · refine ⟨hl, fun k hk => ⟨?_, ?_⟩, ?_⟩
    · have := htot k hk
      rw [if_pos (by omega)] at this
      exact this
    · intro r hr
      rcases h01 r hr k with e | e <;> rw [e] <;> norm_num
    · intro b r hr k hk
      have hb : b < n := by
        have := (List.getElem?_eq_some_iff.mp hr).1
        omega
      have hb' : b < ss.length := by omega
      have hlo : (if b = 0 then some (0 : Int) else (ps[0 + b]?).map (·.startBand)) = some ((ss[b] : Nat) : Int) := by
        by_cases e : b = 0
        · subst e
          rw [if_pos rfl]
          rw [List.getElem?_eq_getElem hb'] at h0
          simp only [Option.some.injEq] at h0
          simp [h0]
        · rw [if_neg e, Nat.zero_add]
          obtain ⟨p, hp⟩ := hex (b - 1) (by omega)
          rw [show 0 + (b - 1) + 1 = b by omega] at hp
          obtain ⟨s, hs, hps⟩ := hss b p (by omega) hb hp
          rw [List.getElem?_eq_getElem hb'] at hs
          simp only [Option.some.injEq] at hs
          rw [hp]
          simp [hps, hs]
      by_cases hlast : b + 1 = n
      · have := hrow b r hr _ 256 hlo (by rw [if_pos (by omega)]) k
        rw [this]
        have hin : InBand ss b k ↔ ss[b] ≤ k := by
          unfold InBand
          constructor
          · rintro ⟨⟨s, hs, hle⟩, _⟩
            rw [List.getElem?_eq_getElem hb'] at hs
            simp only [Option.some.injEq] at hs
            omega
          · intro hle
            refine ⟨⟨_, List.getElem?_eq_getElem hb', hle⟩, fun s hs => ?_⟩
            rw [List.getElem?_eq_none (by omega)] at hs
            simp at hs
        rw [hin]
        constructor
        · intro hle; rw [if_pos (by omega)]
        · intro hle; rw [if_neg (by omega)]
      · have hb2 : b + 1 < ss.length := by omega
        obtain ⟨p, hp⟩ := hex b (by omega)
        rw [Nat.zero_add] at hp
        obtain ⟨s, hs, hps⟩ := hss (b + 1) p (by omega) (by omega) hp
        rw [List.getElem?_eq_getElem hb2] at hs
        simp only [Option.some.injEq] at hs
        have := hrow b r hr _ (s : Int) hlo (by rw [if_neg (by omega), Nat.zero_add, hp]; simp [hps]) k
        rw [this]
        have hin : InBand ss b k ↔ ss[b] ≤ k ∧ k < s := by
          unfold InBand
          constructor
          · rintro ⟨⟨s', hs', hle⟩, hlt⟩
            rw [List.getElem?_eq_getElem hb'] at hs'
            simp only [Option.some.injEq] at hs'
            have := hlt s (by rw [List.getElem?_eq_getElem hb2, hs])
            omega
          · rintro ⟨hle, hlt⟩
            refine ⟨⟨_, List.getElem?_eq_getElem hb', hle⟩, fun s' hs' => ?_⟩
            rw [List.getElem?_eq_getElem hb2] at hs'
            simp only [Option.some.injEq] at hs'
            omega
        rw [hin]
        constructor
        · intro hle; rw [if_pos (by omega)]
        · intro hle; rw [if_neg (by omega)]
  · intro p hp hlt
    obtain ⟨s, _, hps⟩ := hss 1 p (by omega) hlt hp
    omega
  · intro b p q hb hlt hp hq
    obtain ⟨s, hs, hps⟩ := hss b p hb (by omega) hp
    obtain ⟨s', hs', hqs⟩ := hss (b + 1) q (by omega) hlt hq
    have := hsorted b s s' hs hs'
    omega

/-- The parameters of a band that starts at subband `s`. -/
def startAt (s : Int) : Param := ⟨0, 0, 0, s⟩

/-- **C145**, refuted for start subbands: if the third band starts at subband 50 and the second at 100, the weights of
subbands 50 to 99 add up to 2. -/
theorem C145_refuted : ∃ (c : Curve) (ps : List Param) (rows : List (Nat → Rat)), c.Positive ∧ weights c 0 3 ps = .ok rows ∧
    ∀ k, 50 ≤ k → k < 100 → (rows.map (· k)).sum = 2 := by
  refine ⟨⟨fun _ => 1, fun _ => 1⟩, [startAt 0, startAt 100, startAt 50, startAt 0], _, ⟨by simp, by simp⟩, rfl, ?_⟩
  intro k h1 h2
  simp only [List.map_cons, List.map_nil, List.sum_cons, List.sum_nil]
  rw [if_pos ⟨by omega, by simp only [startAt]; omega⟩, if_neg (by simp only [startAt]; omega), if_pos ⟨by simp only [startAt]; omega, by omega⟩]
  norm_num

/-- **C145**, with the stored borders: a coded gain set whose second band starts at subband 200 has all subbands in the
second band, since the border is stored as -56. -/
theorem C145_border_refuted : ∃ (x : DrcConfig.Coeffs) (y : GainSet) (rows : List (Nat → Rat)),
    Prog.run (readCoeffs zeroCoeffs) (borderAt 200).bits = .ok (x, []) ∧ (borderAt 200).Valid ∧ x.sets[0]? = some y ∧ y.bands = 2 ∧
    weights ⟨fun _ => 1, fun _ => 1⟩ y.bandType y.bands y.params = .ok rows ∧
    ∀ k < 256, rows.map (· k) = [0, 1] := by
  have h : (match Prog.run (readCoeffs zeroCoeffs) (borderAt 200).bits with
      | .ok (x, []) => (match x.sets[0]? with
        | some y => (match y.params[1]? with
          | some p => decide (p.startBand = -56 ∧ y.bandType = 0 ∧ y.bands = 2)
          | none => false)
        | none => false)
      | _ => false) = true := by decide +kernel
  split at h
  · rename_i x hx
    split at h
    · rename_i y hy
      split at h
      · rename_i p hp
        obtain ⟨h1, h2, h3⟩ := of_decide_eq_true h
        refine ⟨x, y, [fun k => if (0 : Int) ≤ (k : Int) ∧ (k : Int) ≤ -56 - 1 then 1 else 0,
          fun k => if (-56 - 1 + 1 : Int) ≤ (k : Int) ∧ (k : Int) ≤ 255 then 1 else 0], hx, borderAt_valid 200 (by omega), hy, h3, ?_, ?_⟩
        · unfold weights
          rw [if_pos (by omega), h3]
          simp only [hardRows, at_ok.mpr hp]
          simp only [Nat.reduceAdd, Nat.reduceEqDiff, if_false, if_true, Res.ok_bind, h1]
        · intro k hk
          simp only [List.map_cons, List.map_nil]
          rw [if_neg (by omega), if_pos (by omega)]
      · simp at h
    · simp at h
  · simp at h

/-- Three bands that start at subbands 0, 10 and 100. -/
example : ∃ rows, weights ⟨fun _ => 1, fun _ => 1⟩ 0 3 [startAt 0, startAt 10, startAt 100, startAt 0] = .ok rows ∧ Partition rows := by
  refine ⟨_, rfl, (C145_subbands_partial (c := ⟨fun _ => 1, fun _ => 1⟩) (bt := 0) (n := 3)
    (ps := [startAt 0, startAt 10, startAt 100, startAt 0]) (ss := [0, 10, 100]) (by simp) (by simp) rfl rfl ?_ ?_ rfl).2.1⟩
  · intro b s s' h1 h2
    match b with
    | 0 => cases h1; cases h2; omega
    | 1 => cases h1; cases h2; omega
    | b + 2 => simp at h2
  · intro b p h1 h2 h3
    match b with
    | 1 => simp at h3; exact ⟨10, rfl, by rw [← h3]; rfl⟩
    | 2 => simp at h3; exact ⟨100, rfl, by rw [← h3]; rfl⟩
    | b + 3 => omega

/-- Two bands with a crossover frequency. -/
example : ∃ rows, weights ⟨fun _ => 1, fun _ => 1⟩ 1 2 [⟨0, 0, 0, 0⟩, ⟨0, 0, 7, 0⟩] = .ok rows ∧ Partition rows :=
  ⟨_, rfl, (C145_crossover (c := ⟨fun _ => 1, fun _ => 1⟩) ⟨fun _ => by norm_num, fun _ => by norm_num⟩ (n := 2) (ps := [⟨0, 0, 0, 0⟩, ⟨0, 0, 7, 0⟩]) (by omega) rfl).2⟩

end Verif.DrcApply
