import Mathlib.Algebra.BigOperators.Intervals
import Mathlib.Analysis.SpecialFunctions.Trigonometric.Basic
import Mathlib.Tactic.FieldSimp
import Mathlib.Tactic.LinearCombination
import Mathlib.Tactic.Ring
import Verif.Model.Imdct
import Verif.Props.Tdac

/-!
# The transform of a frame is the inverse of the modified cosine and sine transforms

The modulation around the Fourier transform gives the cosine transform of type four for kernel type 0
and the sine transform of type four for kernel type 3. With the folding this gives back the folded block
from its modified transform.
-/

namespace Verif.Props.Imdct

open Verif Verif.Imdct Verif.Props.Tdac Finset

/-! ## Specification -/

/-- The cosine transform of type four. -/
noncomputable def dct4 (n : ℕ) (x : Buf) (k : ℕ) : ℝ :=
  ∑ j ∈ range n, x j * Real.cos (Real.pi / n * (j + 1 / 2) * (k + 1 / 2))

/-- The sine transform of type four. -/
noncomputable def dst4 (n : ℕ) (x : Buf) (k : ℕ) : ℝ :=
  ∑ j ∈ range n, x j * Real.sin (Real.pi / n * (j + 1 / 2) * (k + 1 / 2))

/-- The modified cosine transform of a block of `2 n` windowed samples. -/
noncomputable def mdct (n : ℕ) (z : Buf) (k : ℕ) : ℝ :=
  2 * ∑ j ∈ range (2 * n), z j * Real.cos (Real.pi / n * (j + 1 / 2 + n / 2) * (k + 1 / 2))

/-- The modified sine transform of a block of `2 n` windowed samples. -/
noncomputable def mdst (n : ℕ) (z : Buf) (k : ℕ) : ℝ :=
  2 * ∑ j ∈ range (2 * n), z j * Real.sin (Real.pi / n * (j + 1 / 2 + n / 2) * (k + 1 / 2))

/-! ## Sums -/

theorem sum_pairs (f : ℕ → ℝ) (m : ℕ) :
    ∑ j ∈ range (2 * m), f j = ∑ n ∈ range m, (f (2 * n) + f (2 * m - 1 - 2 * n)) := by
  have h1 : ∑ j ∈ range (2 * m), f j = ∑ n ∈ range m, (f (2 * n) + f (2 * n + 1)) := by
    induction m with
    | zero => simp
    | succ m ih =>
      rw [show 2 * (m + 1) = 2 * m + 1 + 1 by ring, sum_range_succ, sum_range_succ, ih,
        sum_range_succ]
      ring
  rw [h1, sum_add_distrib, sum_add_distrib, ← sum_range_reflect (fun n => f (2 * n + 1))]
  congr 1
  apply sum_congr rfl
  intro n hn
  have := mem_range.mp hn
  congr 1
  omega

theorem sum_halves (f : ℕ → ℝ) (m : ℕ) :
    ∑ j ∈ range (2 * m), f j = ∑ i ∈ range m, (f i + f (m + i)) := by
  rw [two_mul, sum_range_add, sum_add_distrib]

theorem sum_mirror (f : ℕ → ℝ) (m : ℕ) :
    ∑ j ∈ range (2 * m), f j = ∑ i ∈ range m, (f i + f (2 * m - 1 - i)) := by
  rw [sum_halves, sum_add_distrib, sum_add_distrib, ← sum_range_reflect (fun i => f (m + i))]
  congr 1
  apply sum_congr rfl
  intro n hn
  have := mem_range.mp hn
  congr 1
  omega

theorem sum_middle (f : ℕ → ℝ) (m : ℕ) :
    ∑ j ∈ range (2 * m), f j = ∑ i ∈ range m, (f (m + i) + f (m - 1 - i)) := by
  rw [sum_halves, sum_add_distrib, sum_add_distrib, ← sum_range_reflect f, add_comm]

/-! ## The modulation -/

/-- The angle of the two modulations and the Fourier transform together. -/
noncomputable def phi (m n q : ℕ) : ℝ :=
  Real.pi * (n + 1 / 8) / (2 * m) + Real.pi * (q + 1 / 8) / (2 * m) + 2 * Real.pi * n * q / m

theorem phi_eq (m n q : ℕ) (hm : 0 < m) :
    phi m n q = Real.pi / ((2 * m : ℕ) : ℝ) * (((2 * n : ℕ) : ℝ) + 1 / 2) * (((2 * q : ℕ) : ℝ) + 1 / 2) := by
  have : (m : ℝ) ≠ 0 := by positivity
  unfold phi
  push_cast
  field_simp
  ring

theorem cast_back (m n : ℕ) (h : n < m) :
    ((2 * m - 1 - 2 * n : ℕ) : ℝ) = 2 * (m : ℝ) - 1 - 2 * n := by
  rw [Nat.cast_sub (by omega), Nat.cast_sub (by omega)]
  push_cast
  ring

theorem ang_eo (m n q : ℕ) (hm : 0 < m) (hn : n < m) :
    Real.pi / ((2 * m : ℕ) : ℝ) * (((2 * m - 1 - 2 * n : ℕ) : ℝ) + 1 / 2) * (((2 * q : ℕ) : ℝ) + 1 / 2) =
      Real.pi / 2 - phi m n q + q * (2 * Real.pi) := by
  have : (m : ℝ) ≠ 0 := by positivity
  rw [phi_eq m n q hm, cast_back m n hn]
  push_cast
  field_simp
  ring

theorem ang_oe (m n q : ℕ) (hm : 0 < m) (hq : q < m) :
    Real.pi / ((2 * m : ℕ) : ℝ) * (((2 * n : ℕ) : ℝ) + 1 / 2) * (((2 * m - 1 - 2 * q : ℕ) : ℝ) + 1 / 2) =
      Real.pi / 2 - phi m n q + n * (2 * Real.pi) := by
  have : (m : ℝ) ≠ 0 := by positivity
  rw [phi_eq m n q hm, cast_back m q hq]
  push_cast
  field_simp
  ring

theorem ang_oo (m n q : ℕ) (hm : 0 < m) (hn : n < m) (hq : q < m) :
    Real.pi / ((2 * m : ℕ) : ℝ) * (((2 * m - 1 - 2 * n : ℕ) : ℝ) + 1 / 2) *
        (((2 * m - 1 - 2 * q : ℕ) : ℝ) + 1 / 2) =
      phi m n q + Real.pi + ((m : ℤ) - n - q - 1 : ℤ) * (2 * Real.pi) := by
  have : (m : ℝ) ≠ 0 := by positivity
  rw [phi_eq m n q hm, cast_back m n hn, cast_back m q hq]
  push_cast
  field_simp
  ring

theorem phi_cos (m n q : ℕ) : Real.cos (phi m n q) =
    (cosT m n * cosT m q - sinT m n * sinT m q) * Real.cos (2 * Real.pi * n * q / m) -
    (sinT m n * cosT m q + cosT m n * sinT m q) * Real.sin (2 * Real.pi * n * q / m) := by
  unfold phi cosT sinT
  rw [Real.cos_add, Real.cos_add, Real.sin_add]

theorem phi_sin (m n q : ℕ) : Real.sin (phi m n q) =
    (sinT m n * cosT m q + cosT m n * sinT m q) * Real.cos (2 * Real.pi * n * q / m) +
    (cosT m n * cosT m q - sinT m n * sinT m q) * Real.sin (2 * Real.pi * n * q / m) := by
  unfold phi cosT sinT
  rw [Real.sin_add, Real.sin_add, Real.cos_add]

theorem post0_even (m q : ℕ) (hm : 0 < m) (x : Buf) :
    post0 m (ifft m (pre0 m x).1 (pre0 m x).2) (2 * q) = dct4 (2 * m) x (2 * q) := by
  have e1 : 2 * q % 2 = 0 := by omega
  have e2 : 2 * q / 2 = q := by omega
  unfold post0 dct4
  rw [if_pos e1, e2, sum_pairs]
  simp only [ifft, sum_mul]
  rw [← sum_sub_distrib, ← sum_neg_distrib]
  apply sum_congr rfl
  intro n hn
  rw [ang_eo m n q hm (mem_range.mp hn), ← phi_eq m n q hm, Real.cos_add_nat_mul_two_pi,
    Real.cos_pi_div_two_sub, phi_cos, phi_sin]
  simp only [pre0]
  ring

theorem post0_odd (m q : ℕ) (hm : 0 < m) (hq : q < m) (x : Buf) :
    post0 m (ifft m (pre0 m x).1 (pre0 m x).2) (2 * m - 1 - 2 * q) =
      dct4 (2 * m) x (2 * m - 1 - 2 * q) := by
  have e1 : ¬ (2 * m - 1 - 2 * q) % 2 = 0 := by omega
  have e2 : (2 * m - 1 - (2 * m - 1 - 2 * q)) / 2 = q := by omega
  unfold post0 dct4
  rw [if_neg e1, e2, sum_pairs]
  simp only [ifft, sum_mul]
  rw [← sum_add_distrib, ← sum_neg_distrib]
  apply sum_congr rfl
  intro n hn
  rw [ang_oe m n q hm hq, ang_oo m n q hm (mem_range.mp hn) hq, Real.cos_add_nat_mul_two_pi,
    Real.cos_pi_div_two_sub, Real.cos_add_int_mul_two_pi, Real.cos_add_pi, phi_cos, phi_sin]
  simp only [pre0]
  ring

theorem swap_even (m : ℕ) (x : Buf) (n : ℕ) : swapOdd (2 * m) x (2 * n) = x (2 * n) := by
  unfold swapOdd
  rw [if_neg (by omega)]

theorem swap_odd (m : ℕ) (h4 : m % 2 = 0) (x : Buf) (n : ℕ) (hn : n < m) :
    swapOdd (2 * m) x (2 * n + 1) = -x (2 * m - 1 - 2 * n) := by
  unfold swapOdd
  rw [if_pos (by omega)]
  congr 2
  omega

theorem post3_even (m q : ℕ) (hm : 0 < m) (h4 : m % 2 = 0) (hq : q < m) (x : Buf) :
    post3 m (ifft m (pre3 m x).1 (pre3 m x).2) (2 * q) = dst4 (2 * m) x (2 * q) := by
  have e1 : ¬ 2 * q % 2 = 1 := by omega
  have e2 : 2 * q / 2 = q := by omega
  unfold post3 dst4
  simp only
  rw [swap_even, if_pos (by omega), if_neg e1, e2, sum_pairs]
  simp only [ifft, sum_mul]
  rw [← sum_sub_distrib, ← sum_neg_distrib]
  apply sum_congr rfl
  intro n hn
  rw [ang_eo m n q hm (mem_range.mp hn), ← phi_eq m n q hm, Real.sin_add_nat_mul_two_pi,
    Real.sin_pi_div_two_sub, phi_cos, phi_sin]
  simp only [pre3, Nat.mul_comm n 2, swap_even, swap_odd m h4 x n (mem_range.mp hn)]
  ring

theorem post3_odd (m q : ℕ) (hm : 0 < m) (h4 : m % 2 = 0) (hq : q < m) (x : Buf) :
    post3 m (ifft m (pre3 m x).1 (pre3 m x).2) (2 * m - 1 - 2 * q) =
      dst4 (2 * m) x (2 * m - 1 - 2 * q) := by
  have e0 : 2 * m - 1 - 2 * q = 2 * (m - 1 - q) + 1 := by omega
  have e1 : (2 * m - 1 - 2 * (m - 1 - q)) % 2 = 1 := by omega
  have e2 : (2 * m - 1 - 2 * (m - 1 - q)) / 2 = q := by omega
  unfold post3 dst4
  simp only
  rw [e0, swap_odd m h4 _ _ (by omega), if_neg (by omega), if_pos e1, e2, ← e0, sum_pairs]
  simp only [ifft, sum_mul, neg_mul]
  rw [← sum_neg_distrib, ← sum_sub_distrib, ← sum_neg_distrib]
  apply sum_congr rfl
  intro n hn
  rw [ang_oe m n q hm hq, ang_oo m n q hm (mem_range.mp hn) hq, Real.sin_add_nat_mul_two_pi,
    Real.sin_pi_div_two_sub, Real.sin_add_int_mul_two_pi, Real.sin_add_pi, phi_cos, phi_sin]
  simp only [pre3, Nat.mul_comm n 2, swap_even, swap_odd m h4 x n (mem_range.mp hn)]
  ring

theorem index_cases (m k : ℕ) (hk : k < 2 * m) :
    (∃ q < m, k = 2 * q) ∨ (∃ q < m, k = 2 * m - 1 - 2 * q) := by
  by_cases h : k % 2 = 0
  · exact Or.inl ⟨k / 2, by omega, by omega⟩
  · exact Or.inr ⟨(2 * m - 1 - k) / 2, by omega, by omega⟩

/-- Kernel type 0: the cosine transform of type four divided by the number of values. -/
theorem C327_cosine (m : ℕ) (hm : 0 < m) (x : Buf) (k : ℕ) (hk : k < 2 * m) :
    imdct 0 (2 * (2 * m)) x k = dct4 (2 * m) x k / ((2 * m : ℕ) : ℝ) := by
  have hm' : (m : ℝ) ≠ 0 := by positivity
  have e1 : 2 * (2 * m) / 2 = 2 * m := by omega
  have e2 : 2 * m / 2 = m := by omega
  have key : imdct 0 (2 * (2 * m)) x k =
      dct4 (2 * m) (fun i => if i < 2 * m then x i * (2 / ((2 * (2 * m) : ℕ) : ℝ)) else x i) k := by
    unfold imdct fftImdct
    rw [e1, e2, if_neg (by omega), if_neg (by omega)]
    rcases index_cases m k hk with ⟨q, hq, rfl⟩ | ⟨q, hq, rfl⟩
    · exact post0_even m q hm _
    · exact post0_odd m q hm hq _
  rw [key]
  unfold dct4
  rw [div_eq_mul_inv (∑ j ∈ range (2 * m), _), sum_mul]
  apply sum_congr rfl
  intro j hj
  simp only [if_pos (mem_range.mp hj)]
  push_cast
  field_simp
  try ring

/-- Kernel type 3: the sine transform of type four, for an even number of pairs. -/
theorem C327_sine (m : ℕ) (hm : 0 < m) (h4 : m % 2 = 0) (x : Buf) (k : ℕ) (hk : k < 2 * m) :
    imdct 3 (2 * (2 * m)) x k = dst4 (2 * m) x k / ((2 * m : ℕ) : ℝ) := by
  have hm' : (m : ℝ) ≠ 0 := by positivity
  have e1 : 2 * (2 * m) / 2 = 2 * m := by omega
  have e2 : 2 * m / 2 = m := by omega
  have key : imdct 3 (2 * (2 * m)) x k =
      dst4 (2 * m) (fun i => if i < 2 * m then x i * (2 / ((2 * (2 * m) : ℕ) : ℝ)) else x i) k := by
    unfold imdct fftImdct
    rw [e1, e2, if_pos rfl]
    rcases index_cases m k hk with ⟨q, hq, rfl⟩ | ⟨q, hq, rfl⟩
    · exact post3_even m q hm h4 hq _
    · exact post3_odd m q hm h4 hq _
  rw [key]
  unfold dst4
  rw [div_eq_mul_inv (∑ j ∈ range (2 * m), _), sum_mul]
  apply sum_congr rfl
  intro j hj
  simp only [if_pos (mem_range.mp hj)]
  push_cast
  field_simp
  try ring

/-! ## Orthogonality -/

theorem sum_cos (α : ℝ) (n : ℕ) :
    2 * Real.sin (α / 2) * ∑ k ∈ range n, Real.cos (((k : ℝ) + 1 / 2) * α) = Real.sin (n * α) := by
  induction n with
  | zero => simp
  | succ n ih =>
    rw [sum_range_succ, mul_add, ih]
    have h1 : ((n + 1 : ℕ) : ℝ) * α = ((n : ℝ) + 1 / 2) * α + α / 2 := by push_cast; ring
    have h2 : (n : ℝ) * α = ((n : ℝ) + 1 / 2) * α - α / 2 := by ring
    rw [h1, h2, Real.sin_add, Real.sin_sub]
    ring

/-- Half-odd steps of a whole number of half turns add up to nothing. -/
theorem sum_zero (n : ℕ) (hn : 0 < n) (d : ℤ) (h0 : d ≠ 0) (h1 : |d| < 2 * n) :
    ∑ k ∈ range n, Real.cos (((k : ℝ) + 1 / 2) * (Real.pi * d / n)) = 0 := by
  have hn' : (n : ℝ) ≠ 0 := by positivity
  have h := sum_cos (Real.pi * d / n) n
  have e : (n : ℝ) * (Real.pi * d / n) = d * Real.pi := by field_simp
  rw [e, Real.sin_int_mul_pi] at h
  rcases mul_eq_zero.mp h with h | h
  · exfalso
    have h2 : Real.sin (Real.pi * d / n / 2) = 0 := by linarith
    obtain ⟨z, hz⟩ := Real.sin_eq_zero_iff.mp h2
    have h3 : (z : ℝ) * (2 * n) = d := by
      have hp := Real.pi_ne_zero
      field_simp at hz
      have : Real.pi * ((z : ℝ) * (2 * n)) = Real.pi * d := by linear_combination Real.pi * hz
      exact mul_left_cancel₀ hp this
    have h4 : z * (2 * (n : ℤ)) = d := by exact_mod_cast h3
    have h5 : z ≠ 0 := by rintro rfl; apply h0; rw [← h4]; ring
    have h6 : 1 ≤ |z| := Int.one_le_abs h5
    rw [← h4, abs_mul, abs_of_nonneg (by positivity : (0 : ℤ) ≤ 2 * n)] at h1
    nlinarith
  · exact h

theorem ortho (n : ℕ) (hn : 0 < n) (i j : ℕ) (hi : i < n) (hj : j < n) :
    (∑ k ∈ range n, Real.cos (Real.pi / n * (j + 1 / 2) * (k + 1 / 2)) *
      Real.cos (Real.pi / n * (k + 1 / 2) * (i + 1 / 2)) = if j = i then (n : ℝ) / 2 else 0) ∧
    (∑ k ∈ range n, Real.sin (Real.pi / n * (j + 1 / 2) * (k + 1 / 2)) *
      Real.sin (Real.pi / n * (k + 1 / 2) * (i + 1 / 2)) = if j = i then (n : ℝ) / 2 else 0) := by
  have hn' : (n : ℝ) ≠ 0 := by positivity
  have hs := sum_zero n hn ((i : ℤ) + j + 1) (by omega) (by
    rw [abs_of_nonneg (by positivity)]; omega)
  have hd : ∑ k ∈ range n, Real.cos (((k : ℝ) + 1 / 2) * (Real.pi * ((j : ℤ) - i : ℤ) / n)) =
      if j = i then (n : ℝ) else 0 := by
    by_cases h : j = i
    · subst h; simp
    · rw [if_neg h]
      refine sum_zero n hn _ (by omega) ?_
      rw [abs_lt]; omega
  have a1 : ∀ k : ℕ, Real.cos (((k : ℝ) + 1 / 2) * (Real.pi * ((i : ℤ) + j + 1 : ℤ) / n)) =
      Real.cos (Real.pi / n * (j + 1 / 2) * (k + 1 / 2)) *
        Real.cos (Real.pi / n * (k + 1 / 2) * (i + 1 / 2)) -
      Real.sin (Real.pi / n * (j + 1 / 2) * (k + 1 / 2)) *
        Real.sin (Real.pi / n * (k + 1 / 2) * (i + 1 / 2)) := by
    intro k
    rw [← Real.cos_add]
    congr 1
    push_cast
    field_simp
    ring
  have a2 : ∀ k : ℕ, Real.cos (((k : ℝ) + 1 / 2) * (Real.pi * ((j : ℤ) - i : ℤ) / n)) =
      Real.cos (Real.pi / n * (j + 1 / 2) * (k + 1 / 2)) *
        Real.cos (Real.pi / n * (k + 1 / 2) * (i + 1 / 2)) +
      Real.sin (Real.pi / n * (j + 1 / 2) * (k + 1 / 2)) *
        Real.sin (Real.pi / n * (k + 1 / 2) * (i + 1 / 2)) := by
    intro k
    rw [← Real.cos_sub]
    congr 1
    push_cast
    field_simp
    ring
  simp only [a1, sum_sub_distrib] at hs
  simp only [a2, sum_add_distrib] at hd
  split at hd
  · rename_i h
    rw [if_pos h]
    constructor <;> linarith
  · rename_i h
    rw [if_neg h]
    constructor <;> linarith

theorem dct4_twice (n : ℕ) (hn : 0 < n) (x : Buf) (i : ℕ) (hi : i < n) :
    dct4 n (dct4 n x) i = n / 2 * x i := by
  unfold dct4
  simp only [sum_mul]
  rw [sum_comm]
  have : ∀ j ∈ range n, ∑ k ∈ range n, x j * Real.cos (Real.pi / n * (j + 1 / 2) * (k + 1 / 2)) *
      Real.cos (Real.pi / n * (k + 1 / 2) * (i + 1 / 2)) =
      if j = i then (n : ℝ) / 2 * x j else 0 := by
    intro j hj
    simp only [mul_assoc (x j)]
    rw [← mul_sum, (ortho n hn i j hi (mem_range.mp hj)).1]
    split
    · ring
    · ring
  rw [sum_congr rfl this, sum_ite_eq' (range n) i, if_pos (mem_range.mpr hi)]

theorem dst4_twice (n : ℕ) (hn : 0 < n) (x : Buf) (i : ℕ) (hi : i < n) :
    dst4 n (dst4 n x) i = n / 2 * x i := by
  unfold dst4
  simp only [sum_mul]
  rw [sum_comm]
  have : ∀ j ∈ range n, ∑ k ∈ range n, x j * Real.sin (Real.pi / n * (j + 1 / 2) * (k + 1 / 2)) *
      Real.sin (Real.pi / n * (k + 1 / 2) * (i + 1 / 2)) =
      if j = i then (n : ℝ) / 2 * x j else 0 := by
    intro j hj
    simp only [mul_assoc (x j)]
    rw [← mul_sum, (ortho n hn i j hi (mem_range.mp hj)).2]
    split
    · ring
    · ring
  rw [sum_congr rfl this, sum_ite_eq' (range n) i, if_pos (mem_range.mpr hi)]

/-! ## Folding -/

theorem ang_left (m i k : ℕ) :
    Real.pi / ((2 * m : ℕ) : ℝ) * ((i : ℝ) + 1 / 2 + ((2 * m : ℕ) : ℝ) / 2) * ((k : ℝ) + 1 / 2) =
      Real.pi / ((2 * m : ℕ) : ℝ) * (((m + i : ℕ) : ℝ) + 1 / 2) * ((k : ℝ) + 1 / 2) := by
  push_cast
  ring

theorem ang_left' (m i k : ℕ) (hm : 0 < m) (hi : i < m) :
    Real.pi / ((2 * m : ℕ) : ℝ) * (((2 * m - 1 - i : ℕ) : ℝ) + 1 / 2 + ((2 * m : ℕ) : ℝ) / 2) *
        ((k : ℝ) + 1 / 2) =
      Real.pi - Real.pi / ((2 * m : ℕ) : ℝ) * (((m + i : ℕ) : ℝ) + 1 / 2) * ((k : ℝ) + 1 / 2) +
        k * (2 * Real.pi) := by
  have : (m : ℝ) ≠ 0 := by positivity
  rw [Nat.cast_sub (by omega), Nat.cast_sub (by omega)]
  push_cast
  field_simp
  ring

theorem ang_right (m i k : ℕ) (hm : 0 < m) :
    Real.pi / ((2 * m : ℕ) : ℝ) * (((2 * m + (m + i) : ℕ) : ℝ) + 1 / 2 + ((2 * m : ℕ) : ℝ) / 2) *
        ((k : ℝ) + 1 / 2) =
      Real.pi / ((2 * m : ℕ) : ℝ) * ((i : ℝ) + 1 / 2) * ((k : ℝ) + 1 / 2) + Real.pi +
        k * (2 * Real.pi) := by
  have : (m : ℝ) ≠ 0 := by positivity
  push_cast
  field_simp
  ring

theorem ang_right' (m i k : ℕ) (hm : 0 < m) (hi : i < m) :
    Real.pi / ((2 * m : ℕ) : ℝ) * (((2 * m + (m - 1 - i) : ℕ) : ℝ) + 1 / 2 + ((2 * m : ℕ) : ℝ) / 2) *
        ((k : ℝ) + 1 / 2) =
      Real.pi - Real.pi / ((2 * m : ℕ) : ℝ) * ((i : ℝ) + 1 / 2) * ((k : ℝ) + 1 / 2) +
        k * (2 * Real.pi) := by
  have : (m : ℝ) ≠ 0 := by positivity
  rw [show m - 1 - i = m - (1 + i) by omega, Nat.cast_add, Nat.cast_sub (by omega)]
  push_cast
  field_simp
  ring

theorem sum_both (n : ℕ) (l r : Buf) (g : ℕ → ℝ) :
    ∑ j ∈ range (2 * n), both n l r j * g j =
      ∑ j ∈ range n, l j * g j + ∑ j ∈ range n, r j * g (n + j) := by
  rw [two_mul, sum_range_add]
  congr 1
  · apply sum_congr rfl
    intro j hj
    unfold both
    rw [if_pos (mem_range.mp hj)]
  · apply sum_congr rfl
    intro j hj
    unfold both
    rw [if_neg (by omega), Nat.add_sub_cancel_left]

theorem mdct_fold (m : ℕ) (hm : 0 < m) (l r : Buf) (k : ℕ) :
    mdct (2 * m) (both (2 * m) l r) k = 2 * dct4 (2 * m) (fold false false (2 * m) l r) k := by
  unfold mdct dct4
  congr 1
  rw [sum_both (2 * m) l r
    (fun j => Real.cos (Real.pi / ((2 * m : ℕ) : ℝ) * (j + 1 / 2 + ((2 * m : ℕ) : ℝ) / 2) * (k + 1 / 2)))]
  rw [sum_mirror _ m, sum_middle _ m, sum_halves _ m, ← sum_add_distrib]
  apply sum_congr rfl
  intro i hi
  have hi' := mem_range.mp hi
  rw [ang_left m i k, ang_left' m i k hm hi', ang_right m i k hm, ang_right' m i k hm hi',
    Real.cos_add_nat_mul_two_pi, Real.cos_add_nat_mul_two_pi, Real.cos_add_nat_mul_two_pi,
    Real.cos_pi_sub, Real.cos_pi_sub, Real.cos_add_pi, fold_left, fold_right _ _ _ _ _ _ hi']
  simp only [sg, beq_self_eq_true, if_true, Bool.false_eq_true, if_false]
  ring

theorem mdst_fold (m : ℕ) (hm : 0 < m) (l r : Buf) (k : ℕ) :
    mdst (2 * m) (both (2 * m) l r) k = 2 * dst4 (2 * m) (fold true true (2 * m) l r) k := by
  unfold mdst dst4
  congr 1
  rw [sum_both (2 * m) l r
    (fun j => Real.sin (Real.pi / ((2 * m : ℕ) : ℝ) * (j + 1 / 2 + ((2 * m : ℕ) : ℝ) / 2) * (k + 1 / 2)))]
  rw [sum_mirror _ m, sum_middle _ m, sum_halves _ m, ← sum_add_distrib]
  apply sum_congr rfl
  intro i hi
  have hi' := mem_range.mp hi
  rw [ang_left m i k, ang_left' m i k hm hi', ang_right m i k hm, ang_right' m i k hm hi',
    Real.sin_add_nat_mul_two_pi, Real.sin_add_nat_mul_two_pi, Real.sin_add_nat_mul_two_pi,
    Real.sin_pi_sub, Real.sin_pi_sub, Real.sin_add_pi, fold_left, fold_right _ _ _ _ _ _ hi']
  simp only [sg, beq_self_eq_true, if_true]
  ring

theorem dct4_smul (n : ℕ) (c : ℝ) (x : Buf) (k : ℕ) :
    dct4 n (fun i => c * x i) k = c * dct4 n x k := by
  unfold dct4
  rw [mul_sum]
  apply sum_congr rfl
  intros
  ring

theorem dst4_smul (n : ℕ) (c : ℝ) (x : Buf) (k : ℕ) :
    dst4 n (fun i => c * x i) k = c * dst4 n x k := by
  unfold dst4
  rw [mul_sum]
  apply sum_congr rfl
  intros
  ring

/-- The transform of the decoder undoes the modified cosine transform up to the folding. -/
theorem C328_cosine (m : ℕ) (hm : 0 < m) (l r : Buf) (i : ℕ) (hi : i < 2 * m) :
    imdct 0 (2 * (2 * m)) (mdct (2 * m) (both (2 * m) l r)) i = fold false false (2 * m) l r i := by
  have hm' : (m : ℝ) ≠ 0 := by positivity
  rw [C327_cosine m hm _ i hi]
  have e : mdct (2 * m) (both (2 * m) l r) =
      fun k => 2 * dct4 (2 * m) (fold false false (2 * m) l r) k := by
    funext k; exact mdct_fold m hm l r k
  rw [e, dct4_smul, dct4_twice (2 * m) (by omega) _ i hi]
  push_cast
  field_simp

/-- The transform of kernel type 3 undoes the modified sine transform up to the folding. -/
theorem C328_sine (m : ℕ) (hm : 0 < m) (h4 : m % 2 = 0) (l r : Buf) (i : ℕ) (hi : i < 2 * m) :
    imdct 3 (2 * (2 * m)) (mdst (2 * m) (both (2 * m) l r)) i = fold true true (2 * m) l r i := by
  have hm' : (m : ℝ) ≠ 0 := by positivity
  rw [C327_sine m hm h4 _ i hi]
  have e : mdst (2 * m) (both (2 * m) l r) =
      fun k => 2 * dst4 (2 * m) (fold true true (2 * m) l r) k := by
    funext k; exact mdst_fold m hm l r k
  rw [e, dst4_smul, dst4_twice (2 * m) (by omega) _ i hi]
  push_cast
  field_simp

/-! ## From the spectrum to the signal -/

/-- The transform an encoder uses for a symmetry that does not change. -/
noncomputable def forward (c : Bool) (n : ℕ) (z : Buf) : Buf := if c then mdst n z else mdct n z

/-- The spectrum of a frame with the blocks `a` and `b`: `sp` and `sh` are the shapes. -/
noncomputable def spectrum (t : Tables) (q : Seq) (c : Bool) (sp sh : ℕ) (a b : Buf) : Buf :=
  if q = .eight then fun j =>
    forward c 128 (both 128
      (fun i => (if j / 128 = 0 then small t sp i else small t sh i) *
        both 1024 a b (448 + j / 128 * 128 + i))
      (fun i => small t sh (128 - 1 - i) * both 1024 a b (448 + (j / 128 + 1) * 128 + i))) (j % 128)
  else forward c 1024 (both 1024 (fun i => rise 448 128 (edge t sp (leftLong q)) i * a i)
    (fun i => rise 448 128 (edge t sh (rightLong q)) (1024 - 1 - i) * b i))

theorem forward_back (c : Bool) (m : ℕ) (hm : 0 < m) (h4 : m % 2 = 0) (l r : Buf) (i : ℕ)
    (hi : i < 2 * m) :
    imdct (kernel c c) (2 * (2 * m)) (forward c (2 * m) (both (2 * m) l r)) i =
      fold c c (2 * m) l r i := by
  cases c with
  | false => exact C328_cosine m hm l r i hi
  | true => exact C328_sine m hm h4 l r i hi

theorem imdct_congr (k npoints : ℕ) (x y : Buf) (h : ∀ i < npoints / 2, x i = y i)
    (h2 : ∃ m, npoints = 2 * (2 * m) ∧ 0 < m ∧ m % 2 = 0) (hk : k = 0 ∨ k = 3) (i : ℕ)
    (hi : i < npoints / 2) : imdct k npoints x i = imdct k npoints y i := by
  obtain ⟨m, rfl, hm, h4⟩ := h2
  have e1 : 2 * (2 * m) / 2 = 2 * m := by omega
  rw [e1] at h hi
  rcases hk with rfl | rfl
  · rw [C327_cosine m hm _ _ hi, C327_cosine m hm _ _ hi]
    unfold dct4
    congr 1
    exact sum_congr rfl (fun j hj => by rw [h j (mem_range.mp hj)])
  · rw [C327_sine m hm h4 _ _ hi, C327_sine m hm h4 _ _ hi]
    unfold dst4
    congr 1
    exact sum_congr rfl (fun j hj => by rw [h j (mem_range.mp hj)])

theorem transforms_eq (t : Tables) (q : Seq) (c : Bool) (sp sh : ℕ) (a b x : Buf)
    (hx : ∀ j < 1024, x j = spectrum t q c sp sh a b j) (j : ℕ) (hj : j < 1024) (w : Buf) :
    transforms 1024 q (kernel c c) x j = encoded t sp ⟨q, sh, c, c, w⟩ a b j := by
  have hk : kernel c c = 0 ∨ kernel c c = 3 := by cases c <;> simp [kernel]
  unfold transforms encoded folded
  by_cases hq : q = .eight
  · have e1 : nShort 1024 = 128 := rfl
    simp only [if_pos hq, e1]
    have hr : j % 128 < 2 * 64 := Nat.mod_lt _ (by omega)
    rw [← forward_back c 64 (by omega) rfl _ _ _ hr]
    refine imdct_congr _ _ _ _ (fun i hi => ?_) ⟨64, rfl, by omega, rfl⟩ hk _ hr
    have hi' : i < 128 := hi
    have e2 : (j / 128 * 128 + i) / 128 = j / 128 := by omega
    have e3 : (j / 128 * 128 + i) % 128 = i := by omega
    rw [hx _ (by omega)]
    unfold spectrum
    simp only [if_pos hq, e2, e3]
  · simp only [if_neg hq]
    rw [← forward_back c 512 (by omega) rfl _ _ _ hj]
    refine imdct_congr _ _ _ _ (fun i hi => ?_) ⟨512, rfl, by omega, rfl⟩ hk _ hj
    have hi' : i < 1024 := hi
    rw [hx i hi']
    unfold spectrum
    simp only [if_neg hq]

/-- From spectra to samples: the modified cosine (`c = false`) or sine transforms of the windowed blocks
of a signal that begins with a silent block are decoded to the signal, for every sequence of windows and
shapes that goes on from frame to frame. -/
theorem C329_signal (t : Tables) (ht : Windows t) (c : Bool) (x : ℕ → Buf) (hx : ∀ j, x 0 j = 0)
    (q : ℕ → Seq) (sh : ℕ → ℕ) (sp : ℕ) (hs0 : sp ≤ 1) (hs : ∀ i, sh i ≤ 1)
    (hq : ∀ i, leftLong (q (i + 1)) = rightLong (q i)) (spec : ℕ → Buf)
    (h0 : ∀ j < 1024, spec 0 j = spectrum t (q 0) c sp (sh 0) (x 0) (x 1) j)
    (hv : ∀ i, ∀ j < 1024, spec (i + 1) j =
      spectrum t (q (i + 1)) c (sh i) (sh (i + 1)) (x (i + 1)) (x (i + 2)) j) (n : ℕ) :
    ∃ os, frames t 1024 ((List.range n).map fun i =>
        ⟨q i, sh i, c, c, transforms 1024 (q i) (kernel c c) (spec i)⟩) sp (fun _ => 0) = .ok os ∧
      os.length = n ∧ ∀ i < n, ∀ j < 1024, (os.getD i 0) j = x i j := by
  refine C324_signal t ht x hx (fun i => ⟨q i, sh i, c, c, transforms 1024 (q i) (kernel c c) (spec i)⟩)
    sp hs0 hs (fun i => ?_) (fun i => ⟨rfl, hq i⟩) (fun j hj => ?_) (fun i j hj => ?_) n
  · unfold Fits
    simp only
    split <;> simp
  · exact transforms_eq t (q 0) c sp (sh 0) (x 0) (x 1) (spec 0) h0 j hj _
  · exact transforms_eq t (q (i + 1)) c (sh i) (sh (i + 1)) _ _ (spec (i + 1)) (hv i) j hj _

/-- A signal with long and short blocks. -/
example (c : Bool) (x : ℕ → Buf) (hx : ∀ j, x 0 j = 0) (n : ℕ) :
    let q : ℕ → Seq := fun i => if i = 0 then .start else .eight
    let sh : ℕ → ℕ := fun i => i % 2
    ∃ os, frames steps 1024 ((List.range n).map fun i => ⟨q i, sh i, c, c,
        transforms 1024 (q i) (kernel c c)
          (spectrum steps (q i) c (if i = 0 then 0 else sh (i - 1)) (sh i) (x i) (x (i + 1)))⟩) 0
        (fun _ => 0) = .ok os ∧
      os.length = n ∧ ∀ i < n, ∀ j < 1024, (os.getD i 0) j = x i j := by
  intro q sh
  exact C329_signal steps steps_windows c x hx q sh 0 (by omega)
    (fun i => Nat.le_of_lt_succ (Nat.mod_lt _ (by omega)))
    (fun i => by cases i <;> simp [q, leftLong, rightLong]) _ (fun j _ => rfl) (fun i j _ => rfl) n

/-- One line of the spectrum of four values. -/
example : imdct 0 (2 * (2 * 2)) (fun i => if i = 1 then 4 else 0) 2 =
    Real.cos (Real.pi / ((2 * 2 : ℕ) : ℝ) * (((1 : ℕ) : ℝ) + 1 / 2) * (((2 : ℕ) : ℝ) + 1 / 2)) := by
  rw [C327_cosine 2 (by omega) _ 2 (by omega)]
  unfold dct4
  simp

example (l r : Buf) : imdct 3 (2 * (2 * 2)) (mdst (2 * 2) (both (2 * 2) l r)) 2 = l 0 + l 3 := by
  rw [C328_sine 2 (by omega) rfl l r 2 (by omega)]
  simp [Tdac.fold, sg]

end Verif.Props.Imdct
