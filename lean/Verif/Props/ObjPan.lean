import Verif.Model.ObjRen
import Mathlib.Tactic.Ring
import Mathlib.Tactic.FieldSimp
import Mathlib.Tactic.Linarith
import Mathlib.Tactic.LinearCombination
import Mathlib.Tactic.Positivity
import Mathlib.Tactic.NormNum
import Mathlib.Tactic.FinCases
import Mathlib.Algebra.BigOperators.Ring.Finset
import Mathlib.Algebra.Order.BigOperators.Group.Finset
import Mathlib.Algebra.Order.BigOperators.Ring.Finset

/-! # C289, C290, C291: what the panner of the object renderer gives

C289: an object without spread whose direction lies in one of the loudspeaker triangles gets gains
that are not negative, have energy one, and whose weighted sum of loudspeaker directions points to the
object. C290: the gains of the loudspeakers have the energy of the gain of the object. C291: the
vertical spread and the depth do not matter. -/

namespace Verif.ObjRen

open Verif.Displace
open Finset (range)

/-! ## Specification -/

/-- The point lies in the cone over the three points. -/
def InCone (p a b c : Cart) : Prop :=
  ∃ x y z : ℝ, 0 ≤ x ∧ 0 ≤ y ∧ 0 ≤ z ∧ p.x = x * a.x + y * b.x + z * c.x ∧
    p.y = x * a.y + y * b.y + z * c.y ∧ p.z = x * a.z + y * b.z + z * c.z

/-- The triangles are not flat (seen from the listener) and their corners are loudspeakers. -/
def Solid (s : Geo) : Prop :=
  ∀ i < s.nTri, det (s.pos (s.tri i).a) (s.pos (s.tri i).b) (s.pos (s.tri i).c) ≠ 0 ∧
    (s.tri i).a < s.nAll ∧ (s.tri i).b < s.nAll ∧ (s.tri i).c < s.nAll

/-- The weighted sum of the loudspeaker positions is `k` times the point. -/
def Points (s : Geo) (ls : Nat → ℝ) (k : ℝ) (p : Cart) : Prop :=
  ∑ i ∈ range s.nAll, ls i * (s.pos i).x = k * p.x ∧
  ∑ i ∈ range s.nAll, ls i * (s.pos i).y = k * p.y ∧
  ∑ i ∈ range s.nAll, ls i * (s.pos i).z = k * p.z

/-! ## The inverse -/

theorem inv_gains {a b c : Cart} (old : Rows) (h : det a b c ≠ 0) (p : Cart) :
    let g := triGains (invMtx old a b c) p
    p.x = g 0 * a.x + g 1 * b.x + g 2 * c.x ∧ p.y = g 0 * a.y + g 1 * b.y + g 2 * c.y ∧
      p.z = g 0 * a.z + g 1 * b.z + g 2 * c.z := by
  have hd : det a b c * (1 / det a b c) = 1 := mul_one_div_cancel h
  simp only [triGains, invMtx, if_neg h, dot, Matrix.cons_val_zero, Matrix.cons_val_one,
    Matrix.cons_val]
  generalize 1 / det a b c = d at hd ⊢
  simp only [det] at hd
  exact ⟨by linear_combination (-p.x) * hd, by linear_combination (-p.y) * hd,
    by linear_combination (-p.z) * hd⟩

theorem gains_of_cone {a b c : Cart} (old : Rows) (h : det a b c ≠ 0) {p : Cart} {x y z : ℝ}
    (hx : p.x = x * a.x + y * b.x + z * c.x) (hy : p.y = x * a.y + y * b.y + z * c.y)
    (hz : p.z = x * a.z + y * b.z + z * c.z) :
    triGains (invMtx old a b c) p = ![x, y, z] := by
  have hd : det a b c * (1 / det a b c) = 1 := mul_one_div_cancel h
  simp only [triGains, invMtx, if_neg h, dot, hx, hy, hz]
  generalize 1 / det a b c = d at hd ⊢
  simp only [det] at hd
  congr 1
  · linear_combination x * hd
  · congr 1
    · linear_combination y * hd
    · congr 1
      linear_combination z * hd

/-! ## The search -/

theorem least_le (g : Fin 3 → ℝ) (j : Fin 3) : least g ≤ g j := by
  simp only [least]
  fin_cases j <;> simp <;> split_ifs <;> linarith

theorem le_least {g : Fin 3 → ℝ} {m : ℝ} (hm : m ≤ 10000000) (h : ∀ j, m ≤ g j) : m ≤ least g := by
  have h0 := h 0
  have h1 := h 1
  have h2 := h 2
  simp only [least]
  split_ifs <;> linarith

theorem below_zero {g : Fin 3 → ℝ} (h : ∀ j, 0 ≤ g j) : below g = 0 := by
  have e : ∀ j, -(1 / 100 : ℝ) ≤ g j := fun j => by linarith [h j]
  simp only [below, if_pos (e 0), if_pos (e 1), if_pos (e 2)]

theorem search_best (inv : Nat → Rows) (p : Cart) (n : Nat) :
    (∀ i < n, (search inv p n).out < below (triGains (inv i) p) ∨
      ((search inv p n).out = below (triGains (inv i) p) ∧
        least (triGains (inv i) p) ≤ (search inv p n).low)) ∧
    ((search inv p n).out = 3 ∨ ((search inv p n).win < n ∧
      (search inv p n).g = triGains (inv (search inv p n).win) p ∧
      (search inv p n).low = least (search inv p n).g)) := by
  induction n with
  | zero => exact ⟨fun i hi => absurd hi (Nat.not_lt_zero _), Or.inl rfl⟩
  | succ n ih =>
    obtain ⟨ih1, ih2⟩ := ih
    simp only [search]
    split_ifs with h
    · refine ⟨fun i hi => ?_, Or.inr ⟨Nat.lt_succ_self _, rfl, rfl⟩⟩
      rcases Nat.lt_succ_iff_lt_or_eq.mp hi with hi | rfl
      · simp only
        rcases ih1 i hi with g | ⟨g, g'⟩
        · rcases h with h | ⟨h, -⟩ <;> (left; omega)
        · rcases h with h | ⟨h, h'⟩
          · left; omega
          · rcases Nat.lt_or_ge (below (triGains (inv n) p)) (below (triGains (inv i) p)) with q | q
            · exact Or.inl q
            · right
              exact ⟨by omega, le_trans g' (le_of_lt h')⟩
      · exact Or.inr ⟨rfl, le_refl _⟩
    · refine ⟨fun i hi => ?_, ?_⟩
      · rcases Nat.lt_succ_iff_lt_or_eq.mp hi with hi | rfl
        · exact ih1 i hi
        · push Not at h
          rcases Nat.lt_or_ge (search inv p i).out (below (triGains (inv i) p)) with q | q
          · exact Or.inl q
          · exact Or.inr ⟨by omega, h.2 (by omega)⟩
      · rcases ih2 with q | ⟨q, q'⟩
        · exact Or.inl q
        · exact Or.inr ⟨Nat.lt_succ_of_lt q, q'⟩

theorem search_out (inv : Nat → Rows) (p : Cart) (n : Nat) :
    (search inv p n).out = 3 ∧ (∀ i < n, below (triGains (inv i) p) = 3) ∨ (search inv p n).out = below (search inv p n).g ∧ (search inv p n).win < n ∧
      (search inv p n).g = triGains (inv (search inv p n).win) p ∧ (search inv p n).low = least (search inv p n).g := by
  have hle : ∀ g : Fin 3 → ℝ, below g ≤ 3 := fun g => by unfold below; split_ifs <;> omega
  induction n with
  | zero => exact Or.inl ⟨rfl, fun i hi => absurd hi (Nat.not_lt_zero _)⟩
  | succ n ih =>
    simp only [search]
    split_ifs with h
    · exact Or.inr ⟨rfl, Nat.lt_succ_self _, rfl, rfl⟩
    · rcases ih with ⟨h1, h2⟩ | ⟨h1, h2, h3⟩
      · refine Or.inl ⟨h1, fun i hi => ?_⟩
        rcases Nat.lt_succ_iff_lt_or_eq.mp hi with hi | rfl
        · exact h2 i hi
        · push Not at h
          have := hle (triGains (inv i) p)
          omega
      · exact Or.inr ⟨h1, Nat.lt_succ_of_lt h2, h3⟩

/-- Specification: how many gains are clearly negative. -/
noncomputable def negatives (g : Fin 3 → ℝ) : Nat := (Finset.univ.filter fun j => g j < -(1 / 100)).card

theorem below_eq (g : Fin 3 → ℝ) : below g = negatives g := by
  unfold negatives below
  rw [Finset.card_filter, Fin.sum_univ_three]
  have e : ∀ j, (if -(1 / 100) ≤ g j then 0 else 1) = if g j < -(1 / 100) then 1 else 0 := by
    intro j
    by_cases h : g j < -(1 / 100)
    · rw [if_pos h, if_neg (not_le.2 h)]
    · rw [if_neg h, if_pos (not_lt.1 h)]
  rw [e, e, e]
  ring

theorem least_attained (g : Fin 3 → ℝ) (j : Fin 3) (h : g j ≤ 10000000) : ∃ k, least g = g k := by
  have h0 := h
  unfold least
  simp only
  by_cases a : g 2 < 10000000
  · simp only [if_pos a]
    by_cases b : g 1 < g 2
    · simp only [if_pos b]
      by_cases c : g 0 < g 1
      · exact ⟨0, by rw [if_pos c]⟩
      · exact ⟨1, by rw [if_neg c]⟩
    · simp only [if_neg b]
      by_cases c : g 0 < g 2
      · exact ⟨0, by rw [if_pos c]⟩
      · exact ⟨2, by rw [if_neg c]⟩
  · simp only [if_neg a]
    by_cases b : g 1 < 10000000
    · simp only [if_pos b]
      by_cases c : g 0 < g 1
      · exact ⟨0, by rw [if_pos c]⟩
      · exact ⟨1, by rw [if_neg c]⟩
    · simp only [if_neg b]
      by_cases c : g 0 < 10000000
      · exact ⟨0, by rw [if_pos c]⟩
      · refine ⟨j, ?_⟩
        rw [if_neg c]
        fin_cases j <;> simp at h ⊢ <;> linarith

/-- C315: the triangle for a position is one with the fewest clearly negative gains and of these one whose lowest gain is the highest. -/
theorem C315_choice (inv : Nat → Rows) (p : Cart) (n i0 : Nat) (h0 : i0 < n) (hneg : negatives (triGains (inv i0) p) < 3)
    (hb : ∀ i < n, ∃ j, triGains (inv i) p j ≤ 10000000) :
    (search inv p n).win < n ∧ (search inv p n).g = triGains (inv (search inv p n).win) p ∧
      ∀ i < n, negatives (search inv p n).g < negatives (triGains (inv i) p) ∨
        (negatives (search inv p n).g = negatives (triGains (inv i) p) ∧ ∃ j, ∀ k, triGains (inv i) p j ≤ (search inv p n).g k) := by
  rcases search_out inv p n with ⟨-, h⟩ | ⟨h1, h2, h3, h4⟩
  · have := h i0 h0
    rw [below_eq] at this
    omega
  · refine ⟨h2, h3, fun i hi => ?_⟩
    have hs := (search_best inv p n).1 i hi
    rw [h1, below_eq, below_eq] at hs
    rcases hs with hs | ⟨hs, hl⟩
    · exact Or.inl hs
    · refine Or.inr ⟨hs, ?_⟩
      obtain ⟨j, hj⟩ := hb i hi
      obtain ⟨k, hk⟩ := least_attained _ j hj
      refine ⟨k, fun q => ?_⟩
      rw [← hk]
      rw [h4] at hl
      exact le_trans hl (least_le _ q)

example : ∃ (g : Fin 3 → ℝ), negatives g < 3 ∧ ∃ j, g j ≤ 10000000 :=
  ⟨![1, 0, 0], by rw [← below_eq, below_zero (by intro j; fin_cases j <;> simp)]; norm_num, 0, by norm_num⟩

/-! ## Sums over three loudspeakers -/

theorem sum_addAt {n k : Nat} (hk : k < n) (x : ℝ) (ls f : Nat → ℝ) :
    ∑ i ∈ range n, addAt k x ls i * f i = x * f k + ∑ i ∈ range n, ls i * f i := by
  have e : ∀ i ∈ range n, addAt k x ls i * f i = (if i = k then x * f i else 0) + ls i * f i := by
    intro i _
    simp only [addAt]
    split <;> ring
  rw [Finset.sum_congr rfl e, Finset.sum_add_distrib, Finset.sum_ite_eq',
    if_pos (Finset.mem_range.mpr hk)]

theorem sum_three {n a b c : Nat} (ha : a < n) (hb : b < n) (hc : c < n) (x y z : ℝ) (f : Nat → ℝ) :
    ∑ i ∈ range n, addAt a x (addAt b y (addAt c z fun _ => 0)) i * f i
      = x * f a + y * f b + z * f c := by
  rw [sum_addAt ha, sum_addAt hb, sum_addAt hc]
  simp only [zero_mul, Finset.sum_const_zero]
  ring

theorem energy_three {n a b c : Nat} (ha : a < n) (hb : b < n) (hc : c < n) (hab : a ≠ b)
    (hac : a ≠ c) (hbc : b ≠ c) (x y z : ℝ) :
    ∑ i ∈ range n, addAt a x (addAt b y (addAt c z fun _ => 0)) i
        * addAt a x (addAt b y (addAt c z fun _ => 0)) i = x * x + y * y + z * z := by
  rw [sum_three ha hb hc]
  simp only [addAt, if_true, if_neg hab, if_neg hac, if_neg hbc, if_neg hab.symm, if_neg hac.symm,
    if_neg hbc.symm, add_zero]

theorem clip_nonneg (g : Fin 3 → ℝ) (j : Fin 3) : 0 ≤ clip g j := by
  simp only [clip]
  split_ifs <;> linarith

theorem clip_of_nonneg {g : Fin 3 → ℝ} (h : ∀ j, 0 ≤ g j) : clip g = g := by
  funext j
  have := h j
  simp only [clip]
  split_ifs <;> linarith

theorem power_sq (g : Fin 3 → ℝ) : power g * power g = g 0 * g 0 + g 1 * g 1 + g 2 * g 2 :=
  Real.mul_self_sqrt (by nlinarith [mul_self_nonneg (g 0), mul_self_nonneg (g 1), mul_self_nonneg (g 2)])

theorem det_distinct {f : Nat → Cart} {a b c : Nat} (h : det (f a) (f b) (f c) ≠ 0) :
    a ≠ b ∧ a ≠ c ∧ b ≠ c := by
  refine ⟨?_, ?_, ?_⟩ <;> rintro rfl <;> apply h <;> simp only [det] <;> ring

/-- C289: the panning law. For any loudspeaker triangles that are not flat, whatever the inverse
matrices held before, an object whose position lies in one of the triangles gets gains that are not
negative, have energy one and point to it. -/
theorem C289_law (s₀ : Geo) (h : Solid s₀) (p : Cart) (hp : p.x ≠ 0 ∨ p.y ≠ 0 ∨ p.z ≠ 0)
    (hin : ∃ i < s₀.nTri, InCone p (s₀.pos (s₀.tri i).a) (s₀.pos (s₀.tri i).b) (s₀.pos (s₀.tri i).c)) :
    let ls := source (coreInit s₀) p fun _ => 0
    (∀ i, 0 ≤ ls i) ∧ ∑ i ∈ range s₀.nAll, ls i * ls i = 1 ∧ ∃ k, 0 < k ∧ Points s₀ ls k p := by
  obtain ⟨i, hi, x, y, z, hx, hy, hz, ex, ey, ez⟩ := hin
  obtain ⟨hb1, hb2⟩ := search_best (coreInit s₀).inv p s₀.nTri
  have hinv : ∀ j < s₀.nTri, (coreInit s₀).inv j = invMtx (s₀.inv j) (s₀.pos (s₀.tri j).a)
      (s₀.pos (s₀.tri j).b) (s₀.pos (s₀.tri j).c) := fun j hj => by simp only [coreInit, if_pos hj]
  have gi : triGains ((coreInit s₀).inv i) p = ![x, y, z] := by
    rw [hinv i hi]; exact gains_of_cone _ (h i hi).1 ex ey ez
  have nn : ∀ j, 0 ≤ (![x, y, z] : Fin 3 → ℝ) j := by
    intro j; fin_cases j <;> simpa
  have hi' := hb1 i hi
  rw [gi, below_zero nn] at hi'
  rcases hi' with q | ⟨out0, low⟩
  · exact absurd q (Nat.not_lt_zero _)
  rcases hb2 with q | ⟨hw, hg, hl⟩
  · omega
  generalize hB : search (coreInit s₀).inv p s₀.nTri = B at *
  have low0 : 0 ≤ B.low := le_trans (le_least (by norm_num) nn) low
  have gn : ∀ j, 0 ≤ B.g j := fun j => by
    have := least_le B.g j
    linarith
  obtain ⟨hd, ha, hb, hc⟩ := h B.win hw
  obtain ⟨dab, dac, dbc⟩ := det_distinct hd
  have hp3 := inv_gains (s₀.inv B.win) hd p
  rw [← hinv B.win hw, ← hg] at hp3
  obtain ⟨px, py, pz⟩ := hp3
  have pw : power B.g ≠ 0 := by
    intro e
    have := power_sq B.g
    rw [e, mul_zero] at this
    have a0 := mul_self_nonneg (B.g 0)
    have a1 := mul_self_nonneg (B.g 1)
    have a2 := mul_self_nonneg (B.g 2)
    have z0 : B.g 0 = 0 := mul_self_eq_zero.mp (by linarith)
    have z1 : B.g 1 = 0 := mul_self_eq_zero.mp (by linarith)
    have z2 : B.g 2 = 0 := mul_self_eq_zero.mp (by linarith)
    rw [z0, z1, z2] at px py pz
    simp only [zero_mul, add_zero] at px py pz
    rcases hp with q | q | q <;> contradiction
  have pp : 0 < power B.g := lt_of_le_of_ne (Real.sqrt_nonneg _) (Ne.symm pw)
  have es : source (coreInit s₀) p (fun _ => 0)
      = addAt (s₀.tri B.win).a (B.g 0 / power B.g) (addAt (s₀.tri B.win).b (B.g 1 / power B.g)
        (addAt (s₀.tri B.win).c (B.g 2 / power B.g) fun _ => 0)) := by
    have e1 : search (coreInit s₀).inv p (coreInit s₀).nTri = B := hB
    simp only [source, e1, clip_of_nonneg gn, scale, if_pos pw]
    rfl
  simp only [es]
  refine ⟨fun j => ?_, ?_, 1 / power B.g, by positivity, ?_, ?_, ?_⟩
  · have q0 := div_nonneg (gn 0) pp.le
    have q1 := div_nonneg (gn 1) pp.le
    have q2 := div_nonneg (gn 2) pp.le
    simp only [addAt]
    split_ifs <;> linarith
  · rw [energy_three ha hb hc dab dac dbc]
    have := power_sq B.g
    field_simp
    linarith
  · rw [sum_three ha hb hc, px]; field_simp
  · rw [sum_three ha hb hc, py]; field_simp
  · rw [sum_three ha hb hc, pz]; field_simp

/-- A flat triangle keeps two rows of what was there before. -/
theorem C289_flat (old : Rows) (a b c : Cart) (h : det a b c = 0) :
    (invMtx old a b c).r2 = old.r2 ∧ (invMtx old a b c).r3 = old.r3 := by
  simp only [invMtx, if_pos h, and_self]

/-! ## Energy -/

theorem sqrt_sum_sq {n : Nat} (f : Nat → ℝ) :
    Real.sqrt (∑ i ∈ range n, f i * f i) * Real.sqrt (∑ i ∈ range n, f i * f i)
      = ∑ i ∈ range n, f i * f i :=
  Real.mul_self_sqrt (Finset.sum_nonneg fun i _ => mul_self_nonneg (f i))

/-- C290: whatever the geometry, the position and the spread: the gains of the loudspeakers have the
energy of the gain of the object, or all of them are zero. -/
theorem C290_energy (s : Geo) (o : Obj) (g : Nat → ℝ) (h : finalGains s o = some g) :
    ∑ i ∈ range s.nReal, g i * g i = o.gain * o.gain ∨ ∀ i < s.nReal, g i = 0 := by
  simp only [finalGains, Option.map_eq_some_iff] at h
  obtain ⟨ls, -, rfl⟩ := h
  by_cases e : gainSum s ls = 0
  · right
    intro i hi
    simp only [e, ne_eq, not_true_eq_false, if_false]
    have q := sqrt_sum_sq (n := s.nReal) (mixed s ls)
    change gainSum s ls * gainSum s ls = _ at q
    rw [e, mul_zero] at q
    have := (Finset.sum_eq_zero_iff_of_nonneg fun i _ => mul_self_nonneg (mixed s ls i)).mp q.symm i
      (Finset.mem_range.mpr hi)
    exact mul_self_eq_zero.mp this
  · left
    simp only [if_pos (show gainSum s ls ≠ 0 from e)]
    have q := sqrt_sum_sq (n := s.nReal) (mixed s ls)
    change gainSum s ls * gainSum s ls = _ at q
    calc ∑ i ∈ range s.nReal, mixed s ls i * o.gain / gainSum s ls * (mixed s ls i * o.gain / gainSum s ls)
        = ∑ i ∈ range s.nReal, mixed s ls i * mixed s ls i * (o.gain * o.gain / (gainSum s ls * gainSum s ls)) := by
          refine Finset.sum_congr rfl fun i _ => ?_
          field_simp
      _ = o.gain * o.gain := by
          rw [← Finset.sum_mul, ← q]
          field_simp

/-- The gains before the downmix of imaginary loudspeakers have energy one. -/
theorem C290_unit (s : Geo) (o : Obj) (ls : Nat → ℝ) (h : vbap s o = some ls) :
    ∑ i ∈ range s.nAll, ls i * ls i = 1 := by
  have key : ∀ f g : Nat → ℝ, normed s.nAll f = some g → ∑ i ∈ range s.nAll, g i * g i = 1 := by
    intro f g e
    simp only [normed] at e
    split at e
    · exact absurd e (by simp)
    · rename_i hl
      have e := Option.some.inj e
      subst e
      have q := sqrt_sum_sq (n := s.nAll) f
      have hz : ∑ i ∈ range s.nAll, f i * f i ≠ 0 := fun z => hl (by rw [z, Real.sqrt_zero])
      generalize Real.sqrt (∑ i ∈ range s.nAll, f i * f i) = l at q hl
      have e1 : ∀ i ∈ range s.nAll, (fun i => if i < s.nAll then f i * (1 / l) else f i) i
          * (fun i => if i < s.nAll then f i * (1 / l) else f i) i = f i * f i * (1 / (l * l)) := by
        intro i hi
        simp only [if_pos (Finset.mem_range.mp hi)]
        field_simp
      rw [Finset.sum_congr rfl e1, ← Finset.sum_mul, q, mul_one_div_cancel hz]
  simp only [vbap] at h
  split at h
  · exact key _ _ h
  · obtain ⟨f, -, e⟩ := Option.bind_eq_some_iff.mp h
    exact key _ _ e

/-- C290: an object without spread in one of the triangles has gains that are numbers. -/
theorem C290_number (s₀ : Geo) (h : Solid s₀) (o : Obj) (hw : o.width ≤ 0) (ht : o.tall ≤ 0)
    (hp : let p := cartDeg ⟨o.az, o.el, o.radius⟩; (p.x ≠ 0 ∨ p.y ≠ 0 ∨ p.z ≠ 0) ∧
      ∃ i < s₀.nTri, InCone p (s₀.pos (s₀.tri i).a) (s₀.pos (s₀.tri i).b) (s₀.pos (s₀.tri i).c)) :
    (finalGains (coreInit s₀) o).isSome := by
  have q := (C289_law s₀ h _ hp.1 hp.2).2.1
  simp only [finalGains, vbap, if_pos (show o.width ≤ 0 ∧ o.tall ≤ 0 from ⟨hw, ht⟩), normed]
  have e : (coreInit s₀).nAll = s₀.nAll := rfl
  rw [e, q, Real.sqrt_one, if_neg one_ne_zero]
  rfl

/-- C291: vertical spread and depth are ignored for an object with a horizontal spread: only whether
there is some spread matters. -/
theorem C291_height (s : Geo) (o : Obj) (t d : ℝ) (h : 0 < o.width) :
    finalGains s { o with tall := t, depth := d } = finalGains s o := by
  have n1 : ¬ (o.width ≤ 0 ∧ t ≤ 0) := fun q => absurd q.1 (not_le.mpr h)
  have n2 : ¬ (o.width ≤ 0 ∧ o.tall ≤ 0) := fun q => absurd q.1 (not_le.mpr h)
  simp only [finalGains, vbap, if_neg n1, if_neg n2]
  rfl

theorem scale_nonneg (g : Fin 3 → ℝ) (j : Fin 3) : 0 ≤ scale (clip g) j := by
  have h := clip_nonneg g j
  simp only [scale]
  split
  · exact div_nonneg h (Real.sqrt_nonneg _)
  · exact h

/-- Every source adds to the gains. -/
theorem le_source (s : Geo) (p : Cart) (ls : Nat → ℝ) (i : Nat) : ls i ≤ source s p ls i := by
  have h0 := scale_nonneg (search s.inv p s.nTri).g 0
  have h1 := scale_nonneg (search s.inv p s.nTri).g 1
  have h2 := scale_nonneg (search s.inv p s.nTri).g 2
  simp only [source, addAt]
  split_ifs <;> linarith

theorem le_sources (s : Geo) (l : List Cart) (ls : Nat → ℝ) (i : Nat) :
    ls i ≤ l.foldl (fun ls v => source s v ls) ls i := by
  induction l generalizing ls with
  | nil => exact le_refl _
  | cons v l ih => exact le_trans (le_source s v ls i) (ih _)

/-- A single loudspeaker in front. -/
def front : Geo :=
  { nReal := 1, nAll := 1, nTri := 1, tri := fun _ => ⟨0, 0, 0⟩
    inv := fun _ => ⟨⟨1, 0, 0⟩, ⟨1, 0, 0⟩, ⟨1, 0, 0⟩⟩, pos := fun _ => ⟨1, 0, 0⟩
    dmx := fun _ _ => 1, height := false }

/-- A wide and tall object in front. -/
def wide : Obj := ⟨0, 0, 1, 1, 90, 1, 0⟩

theorem wide_some : finalGains front wide ≠ none := by
  have hc : cartDeg ⟨0, 0, 1⟩ = ⟨1, 0, 0⟩ := by simp [cartDeg, polCart, rad]
  have hl : limitSpread 90 = 90 := by
    simp only [limitSpread]
    norm_num
  have ht : Real.tan (rad 90) = 0 := by
    have : rad 90 = Real.pi / 2 := by simp only [rad]; ring
    rw [this, Real.tan_pi_div_two]
  have hs : shift 90 ⟨1, 0, 0⟩ ⟨1, 0, 0⟩ = ⟨1, 0, 0⟩ := by
    simp [shift, ht]
  have hb : source front ⟨1, 0, 0⟩ (fun _ => 0) 0 = 3 / Real.sqrt 3 := by
    have q : ¬ ((1 : ℝ) < -(1 / 100)) := by norm_num
    have q0 : ¬ ((1 : ℝ) < 0) := by norm_num
    have hg : triGains ⟨⟨1, 0, 0⟩, ⟨1, 0, 0⟩, ⟨1, 0, 0⟩⟩ ⟨1, 0, 0⟩ = ![1, 1, 1] := by
      simp [triGains, dot]
    have hb : below ![1, 1, 1] = 0 := below_zero (by intro j; fin_cases j <;> simp)
    have hk : clip ![1, 1, 1] = ![1, 1, 1] := clip_of_nonneg (by intro j; fin_cases j <;> simp)
    have hp : power ![1, 1, 1] = Real.sqrt 3 := by
      simp only [power, Matrix.cons_val_zero, Matrix.cons_val_one, Matrix.cons_val]
      norm_num
    have h3 : Real.sqrt 3 ≠ 0 := by positivity
    simp only [source, front, search, hg, hb]
    simp only [Nat.zero_lt_succ, true_or, if_true, hk, scale, hp, if_pos (show Real.sqrt 3 ≠ 0 from h3),
      addAt, Matrix.cons_val_zero, Matrix.cons_val_one, Matrix.cons_val]
    ring
  have hpos : 0 < (spreadVecs false wide ⟨1, 0, 0⟩).foldl (fun ls v => source front v ls) (fun _ => 0) 0 := by
    have e : ∃ l, spreadVecs false wide ⟨1, 0, 0⟩ = ⟨1, 0, 0⟩ :: l := by
      simp only [spreadVecs, wide, mdap, List.map_cons, hl, hc, hs]
      exact ⟨_, rfl⟩
    obtain ⟨l, e⟩ := e
    rw [e, List.foldl_cons]
    refine lt_of_lt_of_le ?_ (le_sources front l _ 0)
    rw [hb]
    positivity
  have hv : ∃ g, vbap front wide = some g := by
    have n2 : ¬ (wide.width ≤ 0 ∧ wide.tall ≤ 0) := by simp [wide]
    simp only [vbap, if_neg n2]
    have hc' : cartDeg ⟨wide.az, wide.el, wide.radius⟩ = ⟨1, 0, 0⟩ := hc
    rw [hc']
    have hf : front.height = false := rfl
    rw [hf]
    generalize (spreadVecs false wide ⟨1, 0, 0⟩).foldl (fun ls v => source front v ls) (fun _ => 0) = f at hpos
    have ha : spreadAlpha 90 = 0 := by
      have : rad 90 / (Real.pi / 2) - 1 = 0 := by
        have := Real.pi_ne_zero
        simp only [rad]
        field_simp
        norm_num
      simp only [spreadAlpha, this]
      norm_num
    have hn : front.nAll = 1 := rfl
    have hw : wide.width = 90 := rfl
    have hne : Real.sqrt (f 0 * f 0) ≠ 0 := by
      rw [Real.sqrt_mul_self hpos.le]; exact hpos.ne'
    simp only [hn, hw, spreadGains, Finset.sum_range_one, if_neg hne, Option.bind_some, normed, ha,
      Nat.zero_lt_one, if_true]
    rw [if_neg]
    · exact ⟨_, rfl⟩
    · rw [Real.sqrt_mul_self hpos.le]
      have : (1 - 0) * f 0 / f 0 + 0 * (1 / Real.sqrt ((1 : ℕ) : ℝ)) = 1 := by
        field_simp
        ring
      rw [this]
      norm_num
  obtain ⟨g, hg⟩ := hv
  simp only [finalGains, hg]
  simp

/-- C291, refuted: that objects of different heights sound different. -/
theorem C291_refuted : ¬ ∀ (s : Geo) (o : Obj) (t : ℝ), 0 < o.width → 0 < o.tall → t ≠ o.tall →
    finalGains s o ≠ none → finalGains s { o with tall := t } ≠ finalGains s o := fun h =>
  h front wide 2 (by norm_num [wide]) (by norm_num [wide]) (by norm_num [wide]) wide_some
    (C291_height front wide 2 wide.depth (by norm_num [wide]))

/-! ## Examples -/

/-- Three loudspeakers on the axes. -/
def axes : Geo :=
  { nReal := 3, nAll := 3, nTri := 1, tri := fun _ => ⟨0, 1, 2⟩
    inv := fun _ => ⟨⟨0, 0, 0⟩, ⟨0, 0, 0⟩, ⟨0, 0, 0⟩⟩
    pos := fun i => if i = 0 then ⟨1, 0, 0⟩ else if i = 1 then ⟨0, 1, 0⟩ else ⟨0, 0, 1⟩
    dmx := fun i j => if i = j then 1 else 0, height := true }

/-- An object between three loudspeakers meets the hypotheses of C289. -/
example : Solid axes ∧ ∃ i < axes.nTri, InCone ⟨1, 2, 3⟩ (axes.pos (axes.tri i).a)
    (axes.pos (axes.tri i).b) (axes.pos (axes.tri i).c) := by
  refine ⟨fun i _ => ⟨?_, ?_, ?_, ?_⟩, 0, by decide, 1, 2, 3, ?_⟩
  · norm_num [axes, det]
  · norm_num [axes]
  · norm_num [axes]
  · norm_num [axes]
  · norm_num [axes]

/-- Gains that are numbers (hypothesis of C290 and C291). -/
example : ∃ g, finalGains front wide = some g := Option.ne_none_iff_exists'.mp wide_some

end Verif.ObjRen
