import Verif.Model.Acelp
import Mathlib.Algebra.Order.BigOperators.Group.List
import Mathlib.Algebra.BigOperators.Group.List.Basic
import Mathlib.Tactic.Linarith
import Mathlib.Tactic.Ring
import Mathlib.Tactic.Positivity
import Mathlib.Tactic.FieldSimp

/-! # Gains and filters: C172, C173 -/

namespace Verif.Acelp

/-! ## Gains -/

/-- **C172**: the threshold is the old one limited to a factor of 1.19 around the gain. -/
theorem threshold_eq {old g : Rat} (hg : 0 ≤ g) : threshold old g = max (g / (119 / 100)) (min old (g * (119 / 100))) := by
  have h1 : g / (119 / 100) ≤ g := by linarith
  have h2 : g ≤ g * (119 / 100) := by linarith
  unfold threshold
  by_cases h : g < old
  rotate_left
  · rw [if_pos h, min_eq_left (by linarith)]
    dsimp only
    split <;> rename_i h3
    · rw [max_eq_right (le_of_lt h3)]
    · rw [max_eq_left (by linarith)]
  · rw [if_neg (not_not.mpr h)]
    dsimp only
    split <;> rename_i h3
    · rw [min_eq_left (le_of_lt h3), max_eq_right (by linarith)]
    · rw [min_eq_right (by linarith), max_eq_right (by linarith)]

theorem energy_nonneg (x : Nat → Rat) : 0 ≤ energy x := by
  unfold energy
  refine List.sum_nonneg fun y hy => ?_
  obtain ⟨i, _, rfl⟩ := List.mem_map.mp hy
  exact mul_self_nonneg _

/-- **C172**: the measure of voicing is between -1 and 1, whatever the excitation. -/
theorem voicing_bounds (a c : Nat → Rat) (ga gc : Rat) : -1 < voicing a c ga gc ∧ voicing a c ga gc < 1 := by
  have h1 : 0 ≤ energy a * (ga * ga) := mul_nonneg (energy_nonneg a) (mul_self_nonneg ga)
  have h2 : 0 ≤ energy c * (gc * gc) := mul_nonneg (energy_nonneg c) (mul_self_nonneg gc)
  unfold voicing
  dsimp only
  generalize energy a * (ga * ga) = p at *
  generalize energy c * (gc * gc) = q at *
  have h3 : 0 < p + (q + 1 / 100) := by linarith
  constructor
  · rw [lt_div_iff₀ h3]
    linarith
  · rw [div_lt_iff₀ h3]
    linarith

/-- A negative measure. -/
example : voicing (fun _ => 0) (fun i => if i = 3 then 1 else 0) 1 2 = -400 / 401 := by decide +kernel

/-- **C172**: the measure of stability is between 0 and 1, and 1 if the frequencies stay the same. -/
theorem stability_bounds (cur prev : Nat → Rat) : 0 ≤ stability cur prev ∧ stability cur prev ≤ 1 :=
  ⟨le_max_left _ _, max_le (by norm_num) (min_le_left _ _)⟩

theorem stability_same (cur : Nat → Rat) : stability cur cur = 1 := by
  unfold stability
  have : ((List.range 16).map fun i => (cur i - cur i) * (cur i - cur i)).sum = 0 := by
    simp
  rw [this]
  norm_num

/-- **C172**: the gain that is applied differs from the gain decoded by a factor of at most 1.19, for every history. -/
theorem smooth_bounds {stab rv old g : Rat} (hs : 0 ≤ stab ∧ stab ≤ 1) (hr : -1 < rv ∧ rv < 1) (hg : 0 ≤ g) :
    g / (119 / 100) ≤ (smooth stab rv old g).1 ∧ (smooth stab rv old g).1 ≤ g * (119 / 100) ∧
      g / (119 / 100) ≤ (smooth stab rv old g).2 ∧ (smooth stab rv old g).2 ≤ g * (119 / 100) := by
  have h1 : g / (119 / 100) ≤ g := by linarith
  have h2 : g ≤ g * (119 / 100) := by linarith
  have t1 : g / (119 / 100) ≤ threshold old g := by
    rw [threshold_eq hg]
    exact le_max_left _ _
  have t2 : threshold old g ≤ g * (119 / 100) := by
    rw [threshold_eq hg]
    exact max_le (by linarith) (min_le_right _ _)
  unfold smooth
  dsimp only
  have f0 : 0 ≤ stab * (1 / 2 * (1 - rv)) := mul_nonneg hs.1 (by linarith)
  have f1 : stab * (1 / 2 * (1 - rv)) ≤ 1 := by
    calc stab * (1 / 2 * (1 - rv)) ≤ 1 * (1 / 2 * (1 - rv)) := mul_le_mul_of_nonneg_right hs.2 (by linarith)
      _ ≤ 1 := by linarith
  generalize stab * (1 / 2 * (1 - rv)) = f at *
  generalize threshold old g = t at *
  refine ⟨?_, ?_, t1, t2⟩
  · nlinarith [mul_le_mul_of_nonneg_left t1 f0, mul_le_mul_of_nonneg_left h1 (sub_nonneg.mpr f1)]
  · nlinarith [mul_le_mul_of_nonneg_left t2 f0, mul_le_mul_of_nonneg_left h2 (sub_nonneg.mpr f1)]

/-- After a loud subframe the gain 1 becomes 1.19 in stable frames without voicing. -/
example : smooth 1 (-99 / 100) 50 1 = (1 + 199 / 200 * (19 / 100), 119 / 100) := by decide +kernel

/-- **C172**: without stability the gain is as decoded. -/
theorem smooth_unstable (rv old g : Rat) : (smooth 0 rv old g).1 = g := by
  unfold smooth
  simp

/-- **C172**: nor is it changed where the last threshold equals it. -/
theorem smooth_steady {stab rv g : Rat} (hg : 0 ≤ g) : smooth stab rv g g = (g, g) := by
  have : threshold g g = g := by
    rw [threshold_eq hg, min_eq_left (by linarith), max_eq_right (by linarith)]
  unfold smooth
  dsimp only
  rw [this]
  ext
  · simp only
    ring
  · rfl

/-! ## Emphasis -/

theorem deemph_above {mem : Rat} {x : Nat → Rat} : ∀ n i, n < i → deemph mem n x i = x i := by
  intro n
  induction n with
  | zero => exact fun i hi => Function.update_of_ne (by omega) _ _
  | succ n ih =>
    intro i hi
    unfold deemph
    rw [Function.update_of_ne (by omega), ih i (by omega)]

theorem deemph_step {mem : Rat} {x : Nat → Rat} {n i : Nat} (h : i ≤ n) : deemph mem (n + 1) x i = deemph mem n x i := by
  conv_lhs => unfold deemph
  exact Function.update_of_ne (show i ≠ n + 1 by omega) _ _

theorem deemph_zero (mem : Rat) (x : Nat → Rat) : ∀ n, deemph mem n x 0 = x 0 + 68 / 100 * mem := by
  intro n
  induction n with
  | zero => exact Function.update_self ..
  | succ n ih => rw [deemph_step (by omega), ih]

theorem deemph_succ (mem : Rat) (x : Nat → Rat) : ∀ n i, i < n → deemph mem n x (i + 1) = x (i + 1) + 68 / 100 * deemph mem n x i := by
  intro n
  induction n with
  | zero => exact fun i hi => by omega
  | succ n ih =>
    intro i hi
    by_cases h : i = n
    · subst h
      have : deemph mem (i + 1) x (i + 1) = deemph mem i x (i + 1) + 68 / 100 * deemph mem i x i := by
        conv_lhs => unfold deemph
        dsimp only
        rw [Function.update_self]
      rw [this, deemph_above i (i + 1) (by omega), deemph_step (le_refl _)]
    · rw [deemph_step (by omega), deemph_step (by omega), ih i (by omega)]

/-- **C173**: the emphasis filters undo each other if they have the same history. -/
theorem deemph_preemph (mem : Rat) (x : Nat → Rat) (n : Nat) : ∀ i, deemph mem n (preemph (68 / 100) mem (n + 1) x) i = x i := by
  intro i
  induction i with
  | zero =>
    rw [deemph_zero]
    simp only [preemph, if_true]
    ring
  | succ i ih =>
    by_cases h : i < n
    · rw [deemph_succ _ _ _ _ h, ih]
      simp only [preemph, if_neg (show ¬ i + 1 = 0 by omega), if_pos (show i + 1 < n + 1 by omega), Nat.add_sub_cancel]
      ring
    · rw [deemph_above _ _ (by omega)]
      simp only [preemph, if_neg (show ¬ i + 1 = 0 by omega), if_neg (show ¬ i + 1 < n + 1 by omega)]

/-- **C173**: in the other order. -/
theorem preemph_deemph (mem : Rat) (x : Nat → Rat) (n : Nat) : ∀ i, preemph (68 / 100) mem (n + 1) (deemph mem n x) i = x i := by
  intro i
  cases i with
  | zero =>
    simp only [preemph, if_true, deemph_zero]
    ring
  | succ i =>
    by_cases h : i < n
    · simp only [preemph, if_neg (show ¬ i + 1 = 0 by omega), if_pos (show i + 1 < n + 1 by omega), Nat.add_sub_cancel, deemph_succ _ _ _ _ h]
      ring
    · simp only [preemph, if_neg (show ¬ i + 1 = 0 by omega), if_neg (show ¬ i + 1 < n + 1 by omega)]
      exact deemph_above _ _ (by omega)

/-- Three entries. -/
example : (List.range 3).map (deemph 1 2 (preemph (68 / 100) 1 3 fun i => i)) = [0, 1, 2] := by decide +kernel

/-- **C173**: filtering in two pieces, with the last entry of the first as history of the second, is filtering as a whole. -/
theorem deemph_pieces (mem : Rat) (x : Nat → Rat) (n m : Nat) :
    ∀ i ≤ m, deemph (deemph mem n x n) m (fun i => x (n + 1 + i)) i = deemph mem (n + 1 + m) x (n + 1 + i) := by
  have low : ∀ k i, i ≤ n → deemph mem (n + k) x i = deemph mem n x i := by
    intro k
    induction k with
    | zero => exact fun _ _ => rfl
    | succ k ih => exact fun i hi => by rw [← Nat.add_assoc, deemph_step (by omega), ih i hi]
  intro i
  induction i with
  | zero =>
    intro _
    rw [deemph_zero, show n + 1 + 0 = n + 1 from rfl, deemph_succ _ _ _ _ (by omega), show n + 1 + m = n + (1 + m) by omega, low _ _ (le_refl _)]
  | succ i ih =>
    intro hi
    rw [deemph_succ _ _ _ _ (by omega), ih (by omega), show n + 1 + (i + 1) = n + 1 + i + 1 by omega, deemph_succ _ _ _ _ (by omega)]

/-! ## Synthesis -/

theorem synthesis_out (a : Nat → Rat) (x : Int → Rat) : ∀ (n : Nat) (i : Int), i < 0 ∨ (n : Int) ≤ i → synthesis a n x i = x i := by
  intro n
  induction n with
  | zero => exact fun _ _ => rfl
  | succ n ih =>
    intro i hi
    unfold synthesis
    dsimp only
    rw [Function.update_of_ne (by push_cast at hi; omega), ih i (by push_cast at hi; omega)]

theorem synthesis_step (a : Nat → Rat) (x : Int → Rat) {n : Nat} {i : Int} (h : i ≠ n) : synthesis a (n + 1) x i = synthesis a n x i := by
  conv_lhs => unfold synthesis
  dsimp only
  exact Function.update_of_ne h _ _

/-- **C173**: what is synthesised has the excitation as its residual. -/
theorem residual_synthesis (a : Nat → Rat) (x : Int → Rat) : ∀ (n : Nat) (i : Int), 0 ≤ i → i < n → residual a (synthesis a n x) i = x i := by
  intro n
  induction n with
  | zero => exact fun i h0 h => by simp at h; omega
  | succ n ih =>
    intro i h0 h
    have hp : ∀ k, k ≠ (n : Int) → synthesis a (n + 1) x k = synthesis a n x k := fun k hk => synthesis_step a x hk
    have es : ((List.range 16).map fun j : Nat => a (j + 1) * synthesis a (n + 1) x (i - (j + 1))).sum =
        ((List.range 16).map fun j : Nat => a (j + 1) * synthesis a n x (i - (j + 1))).sum := by
      congr 1
      refine List.map_congr_left fun j _ => ?_
      rw [hp _ (by push_cast at h; omega)]
    by_cases hi : i = n
    · subst hi
      unfold residual
      rw [es]
      have : synthesis a (n + 1) x n = x n - ((List.range 16).map fun j : Nat => a (j + 1) * synthesis a n x ((n : Int) - (j + 1))).sum := by
        conv_lhs => unfold synthesis
        dsimp only
        rw [Function.update_self, synthesis_out a x n n (Or.inr (le_refl _))]
      rw [this]
      ring
    · have := ih i h0 (by push_cast at h; omega)
      unfold residual at this ⊢
      rw [es, hp i hi, this]

/-- **C173**: a signal is synthesised from its residual. -/
theorem synthesis_residual (a : Nat → Rat) (x : Int → Rat) : ∀ (n : Nat) (i : Int), i < (n : Int) →
    synthesis a n (fun i => if 0 ≤ i then residual a x i else x i) i = x i := by
  intro n
  induction n with
  | zero =>
    intro i hi
    show (if 0 ≤ i then _ else _) = _
    rw [if_neg (by simpa using hi)]
  | succ n ih =>
    intro i hi
    by_cases h : i = n
    · subst h
      conv_lhs => unfold synthesis
      dsimp only
      rw [Function.update_self, synthesis_out a _ n n (Or.inr (le_refl _)), if_pos (by omega)]
      have es : ((List.range 16).map fun j : Nat => a (j + 1) * synthesis a n (fun i => if 0 ≤ i then residual a x i else x i) ((n : Int) - (j + 1))).sum =
          ((List.range 16).map fun j : Nat => a (j + 1) * x ((n : Int) - (j + 1))).sum := by
        congr 1
        refine List.map_congr_left fun j _ => ?_
        rw [ih _ (by omega)]
      rw [es, residual]
      ring
    · rw [synthesis_step a _ h, ih i (by push_cast at hi; omega)]

/-- A filter of first order. -/
example : (List.range 4).map (fun i : Nat => synthesis (fun j => if j = 1 then -1 / 2 else 0) 4 (fun i => if i = 0 then 1 else 0) i) =
    [1, 1 / 2, 1 / 4, 1 / 8] := by decide +kernel

end Verif.Acelp
