import Mathlib.Analysis.Real.Pi.Bounds
import Mathlib.Analysis.SpecialFunctions.Trigonometric.Bounds
import Verif.Props.Imdct

/-!
# Frames at which the symmetry changes

Kernel types 1 and 2: the modulation around the Fourier transform gives the sine and cosine transforms of
type three for 1024 values, and something else for the 128 values of a short block, since the table is
that of 1024 values. With the folding, long frames give back the signal wherever the symmetry changes.
-/

namespace Verif.Props.ImdctMixed

open Verif Verif.Imdct Verif.Props.Tdac Verif.Props.Imdct Finset

/-! ## Specification -/

/-- The cosine transform of type three, where value 0 counts once. -/
noncomputable def dct3 (n : ℕ) (x : Buf) (p : ℕ) : ℝ :=
  x 0 + ∑ j ∈ Ico 1 n, x j * Real.cos (Real.pi / n * j * (p + 1 / 2))

/-- The sine transform of type three, where the last value counts once. -/
noncomputable def dst3 (n : ℕ) (x : Buf) (p : ℕ) : ℝ :=
  x (n - 1) * (-1) ^ p + ∑ j ∈ range (n - 1), x j * Real.sin (Real.pi / n * (j + 1) * (p + 1 / 2))

/-- The modified cosine transform for a change of the symmetry from odd to even: value 0 is halved. -/
noncomputable def mdct2 (n : ℕ) (z : Buf) (k : ℕ) : ℝ :=
  (if k = 0 then 1 else 2) * ∑ j ∈ range (2 * n), z j * Real.cos (Real.pi / n * (j + 1 / 2 + n / 2) * k)

/-- The modified sine transform for a change of the symmetry from even to odd: the last value is
halved. -/
noncomputable def mdst2 (n : ℕ) (z : Buf) (k : ℕ) : ℝ :=
  (if k + 1 = n then 1 else 2) *
    ∑ j ∈ range (2 * n), z j * Real.sin (Real.pi / n * (j + 1 / 2 + n / 2) * (k + 1))

/-! ## Fourier transform of half the size -/

/-- The angle of the modulation. -/
noncomputable def theta (m n : ℕ) : ℝ := Real.pi * n / (4 * m)

/-- The real and imaginary parts of the spectrum of which `pre12` makes two halves. -/
noncomputable def vRe (m : ℕ) (y : Buf) (n : ℕ) : ℝ :=
  (y n * Real.cos (theta m n) + y (2 * m - n) * Real.sin (theta m n)) * (1 / 2)

noncomputable def vIm (m : ℕ) (y : Buf) (n : ℕ) : ℝ :=
  (y n * Real.sin (theta m n) - y (2 * m - n) * Real.cos (theta m n)) * (1 / 2)

theorem cosU_theta (m i : ℕ) (hi : 0 < i) : cosU (2 * m) (i - 1) = Real.cos (theta m i) := by
  unfold cosU theta
  rw [Nat.cast_sub hi]
  push_cast
  congr 1
  ring

theorem sinU_theta (m i : ℕ) (hi : 0 < i) : sinU (2 * m) (i - 1) = Real.sin (theta m i) := by
  unfold sinU theta
  rw [Nat.cast_sub hi]
  push_cast
  congr 1
  ring

theorem theta_back (m i : ℕ) (hm : 0 < m) (hi : i ≤ m) :
    theta m (m + i) = Real.pi / 2 - theta m (m - i) := by
  have : (m : ℝ) ≠ 0 := by positivity
  unfold theta
  rw [Nat.cast_sub hi]
  push_cast
  field_simp
  ring

theorem theta_four (m i : ℕ) (hm : 0 < m) (hi : i ≤ m) :
    theta m (4 * (m - i)) = Real.pi - theta m (4 * i) := by
  have : (m : ℝ) ≠ 0 := by positivity
  unfold theta
  push_cast [Nat.cast_sub hi]
  field_simp

theorem re1_eq (m : ℕ) (y : Buf) (i : ℕ) (hi : 0 < i) : re1 (2 * m) m y i = vRe m y i := by
  unfold re1 vRe; rw [cosU_theta m i hi, sinU_theta m i hi]

theorem im1_eq (m : ℕ) (y : Buf) (i : ℕ) (hi : 0 < i) : im1 (2 * m) m y i = vIm m y i := by
  unfold im1 vIm; rw [cosU_theta m i hi, sinU_theta m i hi]

theorem re2_eq (m : ℕ) (y : Buf) (i : ℕ) (hi : 0 < i) (h : i < m) :
    re2 (2 * m) m y i = vRe m y (m - i) := by
  unfold re2 vRe
  rw [show m + (i - 1) = m + i - 1 by omega, cosU_theta m (m + i) (by omega),
    sinU_theta m (m + i) (by omega), theta_back m i (by omega) (by omega), Real.cos_pi_div_two_sub,
    Real.sin_pi_div_two_sub, show 2 * m - (m - i) = m + i by omega]

theorem im2_eq (m : ℕ) (y : Buf) (i : ℕ) (hi : 0 < i) (h : i < m) :
    im2 (2 * m) m y i = vIm m y (m - i) := by
  unfold im2 vIm
  rw [show m + (i - 1) = m + i - 1 by omega, cosU_theta m (m + i) (by omega),
    sinU_theta m (m + i) (by omega), theta_back m i (by omega) (by omega), Real.cos_pi_div_two_sub,
    Real.sin_pi_div_two_sub, show 2 * m - (m - i) = m + i by omega]

/-- The real parts that `pre12` makes. -/
theorem pre_re (k m : ℕ) (h2 : m % 2 = 0) (x : Buf) (n : ℕ) (h0 : 0 < n) (hn : n < m) :
    let y := turned k (2 * m) x
    (pre12 (2 * m) k m x).1 n = (vRe m y n + vRe m y (m - n)) -
      (vIm m y n + vIm m y (m - n)) * Real.cos (theta m (4 * n)) -
      (vRe m y n - vRe m y (m - n)) * Real.sin (theta m (4 * n)) := by
  intro y
  simp only [pre12]
  rw [if_neg (by omega)]
  have e4 : ∀ i, 0 < i → i < m → reD (2 * m) m y i =
      (vIm m y i + vIm m y (m - i)) * Real.cos (theta m (4 * i)) +
        (vRe m y i - vRe m y (m - i)) * Real.sin (theta m (4 * i)) := by
    intro i h1 h3
    unfold reD
    rw [re1_eq m y i h1, re2_eq m y i h1 h3, im1_eq m y i h1, im2_eq m y i h1 h3,
      cosU_theta m _ (by omega), sinU_theta m _ (by omega)]
  by_cases hlt : n < m / 2
  · rw [if_pos hlt, re1_eq m y n h0, re2_eq m y n h0 hn, e4 n h0 hn]
    ring
  · rw [if_neg hlt]
    change re1 (2 * m) m y (m - n) + re2 (2 * m) m y (m - n) + reD (2 * m) m y (m - n) = _
    rw [re1_eq m y (m - n) (by omega), re2_eq m y (m - n) (by omega) (by omega),
      e4 (m - n) (by omega) (by omega), show m - (m - n) = n by omega,
      theta_four m n (by omega) (by omega), Real.cos_pi_sub, Real.sin_pi_sub]
    ring

/-- The imaginary parts that `pre12` makes. -/
theorem pre_im (k m : ℕ) (h2 : m % 2 = 0) (x : Buf) (n : ℕ) (h0 : 0 < n) (hn : n < m) :
    let y := turned k (2 * m) x
    (pre12 (2 * m) k m x).2 n = (vIm m y n - vIm m y (m - n)) +
      (vRe m y n - vRe m y (m - n)) * Real.cos (theta m (4 * n)) -
      (vIm m y n + vIm m y (m - n)) * Real.sin (theta m (4 * n)) := by
  intro y
  simp only [pre12]
  rw [if_neg (by omega)]
  have e4 : ∀ i, 0 < i → i < m → imD (2 * m) m y i =
      (vRe m y i - vRe m y (m - i)) * Real.cos (theta m (4 * i)) -
        (vIm m y i + vIm m y (m - i)) * Real.sin (theta m (4 * i)) := by
    intro i h1 h3
    unfold imD
    rw [re1_eq m y i h1, re2_eq m y i h1 h3, im1_eq m y i h1, im2_eq m y i h1 h3,
      cosU_theta m _ (by omega), sinU_theta m _ (by omega)]
  by_cases hlt : n < m / 2
  · rw [if_pos hlt, im1_eq m y n h0, im2_eq m y n h0 hn, e4 n h0 hn]
    ring
  · rw [if_neg hlt]
    by_cases heq : n = m / 2
    · rw [if_pos heq]
      change imD (2 * m) m y n = _
      rw [e4 n h0 hn, show m - n = n by omega]
      ring
    · rw [if_neg heq]
      change imD (2 * m) m y (m - n) - (im1 (2 * m) m y (m - n) - im2 (2 * m) m y (m - n)) = _
      rw [im1_eq m y (m - n) (by omega), im2_eq m y (m - n) (by omega) (by omega),
        e4 (m - n) (by omega) (by omega), show m - (m - n) = n by omega,
        theta_four m n (by omega) (by omega), Real.cos_pi_sub, Real.sin_pi_sub]
      ring

/-- The sum over the spectrum for value `j` of the sequence that the Fourier transform gives. -/
noncomputable def vSum (m : ℕ) (y : Buf) (j : ℕ) : ℝ :=
  y 0 + y m * Real.sin (Real.pi * (1 / 4)) * (-1) ^ j + ∑ i ∈ range (m - 1),
    (2 * vRe m y (i + 1) * Real.cos (2 * Real.pi * ((i + 1 : ℕ) : ℝ) * j / (2 * m)) -
      2 * vIm m y (i + 1) * Real.sin (2 * Real.pi * ((i + 1 : ℕ) : ℝ) * j / (2 * m)))

theorem sum_head (m : ℕ) (hm : 0 < m) (f : ℕ → ℝ) :
    ∑ n ∈ range m, f n = f 0 + ∑ i ∈ range (m - 1), f (i + 1) := by
  obtain ⟨h, rfl⟩ : ∃ h, m = h + 1 := ⟨m - 1, by omega⟩
  rw [sum_range_succ', Nat.add_sub_cancel, add_comm]

/-- A sum over pairs of values that mirror each other. -/
theorem sum_swap (m : ℕ) (f g h : ℕ → ℝ) (e : ∀ n, 0 < n → n < m → f n + g (m - n) = h n) :
    ∑ i ∈ range (m - 1), (f (i + 1) + g (i + 1)) = ∑ i ∈ range (m - 1), h (i + 1) := by
  rw [sum_add_distrib, ← sum_range_reflect (fun i => g (i + 1)), ← sum_add_distrib]
  apply sum_congr rfl
  intro i hi
  have := mem_range.mp hi
  rw [show m - 1 - 1 - i + 1 = m - (i + 1) by omega]
  exact e (i + 1) (by omega) (by omega)

theorem psi_back (m n k : ℕ) (hm : 0 < m) (hn : n ≤ m) :
    2 * Real.pi * ((m - n : ℕ) : ℝ) * k / m = k * (2 * Real.pi) - 2 * Real.pi * n * k / m := by
  have : (m : ℝ) ≠ 0 := by positivity
  rw [Nat.cast_sub hn]
  field_simp

theorem cos_back (a : ℝ) (k : ℕ) : Real.cos (k * (2 * Real.pi) - a) = Real.cos a := by
  rw [Real.cos_nat_mul_two_pi_sub]

theorem sin_back (a : ℝ) (k : ℕ) : Real.sin (k * (2 * Real.pi) - a) = -Real.sin a := by
  rw [Real.sin_nat_mul_two_pi_sub]

theorem fft_re (k m : ℕ) (hm : 0 < m) (h2 : m % 2 = 0) (x : Buf) (q : ℕ) :
    (ifft m (pre12 (2 * m) k m x).1 (pre12 (2 * m) k m x).2).1 q =
      vSum m (turned k (2 * m) x) (2 * q) := by
  have hm' : (m : ℝ) ≠ 0 := by positivity
  set y := turned k (2 * m) x with hy
  simp only [ifft]
  rw [sum_head m hm]
  unfold vSum
  congr 1
  · simp only [pre12, if_true, ← hy]
    rw [pow_mul]
    simp
  · let f : ℕ → ℝ := fun n =>
      vRe m y n * (Real.cos (2 * Real.pi * n * q / m) * (1 - Real.sin (theta m (4 * n))) -
        Real.cos (theta m (4 * n)) * Real.sin (2 * Real.pi * n * q / m)) +
      vIm m y n * (-Real.cos (theta m (4 * n)) * Real.cos (2 * Real.pi * n * q / m) -
        Real.sin (2 * Real.pi * n * q / m) * (1 - Real.sin (theta m (4 * n))))
    let g : ℕ → ℝ := fun n =>
      vRe m y (m - n) * (Real.cos (2 * Real.pi * n * q / m) * (1 + Real.sin (theta m (4 * n))) +
        Real.cos (theta m (4 * n)) * Real.sin (2 * Real.pi * n * q / m)) +
      vIm m y (m - n) * (-Real.cos (theta m (4 * n)) * Real.cos (2 * Real.pi * n * q / m) +
        Real.sin (2 * Real.pi * n * q / m) * (1 + Real.sin (theta m (4 * n))))
    rw [sum_congr rfl (g := fun i => f (i + 1) + g (i + 1)) (fun i hi => by
      have := mem_range.mp hi
      rw [pre_re k m h2 x (i + 1) (by omega) (by omega), pre_im k m h2 x (i + 1) (by omega) (by omega),
        ← hy]
      simp only [f, g]
      ring)]
    rw [sum_swap m f g (fun n => 2 * vRe m y n * Real.cos (2 * Real.pi * n * q / m) -
      2 * vIm m y n * Real.sin (2 * Real.pi * n * q / m)) (fun n h0 hn => by
        simp only [f, g]
        rw [show m - (m - n) = n by omega, psi_back m n q hm (by omega), cos_back, sin_back,
          theta_four m n hm (by omega), Real.cos_pi_sub, Real.sin_pi_sub]
        ring)]
    apply sum_congr rfl
    intro i _
    have e : 2 * Real.pi * ((i + 1 : ℕ) : ℝ) * ((2 * q : ℕ) : ℝ) / (2 * m) =
        2 * Real.pi * ((i + 1 : ℕ) : ℝ) * q / m := by
      push_cast
      field_simp
    rw [e]

theorem fft_im (k m : ℕ) (hm : 0 < m) (h2 : m % 2 = 0) (x : Buf) (q : ℕ) :
    (ifft m (pre12 (2 * m) k m x).1 (pre12 (2 * m) k m x).2).2 q =
      vSum m (turned k (2 * m) x) (2 * q + 1) := by
  have hm' : (m : ℝ) ≠ 0 := by positivity
  set y := turned k (2 * m) x with hy
  simp only [ifft]
  rw [sum_head m hm]
  unfold vSum
  congr 1
  · simp only [pre12, if_true, ← hy]
    rw [pow_succ, pow_mul]
    simp
    ring
  · let f : ℕ → ℝ := fun n =>
      vRe m y n * (Real.sin (2 * Real.pi * n * q / m) * (1 - Real.sin (theta m (4 * n))) +
        Real.cos (theta m (4 * n)) * Real.cos (2 * Real.pi * n * q / m)) +
      vIm m y n * (Real.cos (2 * Real.pi * n * q / m) * (1 - Real.sin (theta m (4 * n))) -
        Real.cos (theta m (4 * n)) * Real.sin (2 * Real.pi * n * q / m))
    let g : ℕ → ℝ := fun n =>
      vRe m y (m - n) * (Real.sin (2 * Real.pi * n * q / m) * (1 + Real.sin (theta m (4 * n))) -
        Real.cos (theta m (4 * n)) * Real.cos (2 * Real.pi * n * q / m)) +
      vIm m y (m - n) * (-Real.cos (2 * Real.pi * n * q / m) * (1 + Real.sin (theta m (4 * n))) -
        Real.cos (theta m (4 * n)) * Real.sin (2 * Real.pi * n * q / m))
    rw [sum_congr rfl (g := fun i => f (i + 1) + g (i + 1)) (fun i hi => by
      have := mem_range.mp hi
      rw [pre_re k m h2 x (i + 1) (by omega) (by omega), pre_im k m h2 x (i + 1) (by omega) (by omega),
        ← hy]
      simp only [f, g]
      ring)]
    rw [sum_swap m f g (fun n => 2 * vRe m y n * Real.cos (theta m (4 * n) + 2 * Real.pi * n * q / m) -
      2 * vIm m y n * Real.sin (theta m (4 * n) + 2 * Real.pi * n * q / m)) (fun n h0 hn => by
        simp only [f, g]
        rw [show m - (m - n) = n by omega, psi_back m n q hm (by omega), cos_back, sin_back,
          theta_four m n hm (by omega), Real.cos_pi_sub, Real.sin_pi_sub, Real.cos_add, Real.sin_add]
        ring)]
    apply sum_congr rfl
    intro i _
    have e : 2 * Real.pi * ((i + 1 : ℕ) : ℝ) * ((2 * q + 1 : ℕ) : ℝ) / (2 * m) =
        theta m (4 * (i + 1)) + 2 * Real.pi * ((i + 1 : ℕ) : ℝ) * q / m := by
      unfold theta
      push_cast
      field_simp
      ring
    rw [e]

/-! ## The cosine transform of type three -/

theorem sum_ends (m : ℕ) (hm : 0 < m) (f : ℕ → ℝ) :
    ∑ j ∈ Ico 1 (2 * m), f j = f m + ∑ i ∈ range (m - 1), (f (i + 1) + f (2 * m - (i + 1))) := by
  rw [sum_Ico_eq_sum_range, show 2 * m - 1 = (m - 1) + (1 + (m - 1)) by omega, sum_range_add,
    sum_range_add, sum_range_one, sum_add_distrib,
    ← sum_range_reflect (fun i => f (1 + (m - 1 + (1 + i))))]
  have e1 : ∑ i ∈ range (m - 1), f (1 + i) = ∑ i ∈ range (m - 1), f (i + 1) :=
    sum_congr rfl fun i _ => by rw [add_comm]
  have e2 : ∑ j ∈ range (m - 1), f (1 + (m - 1 + (1 + (m - 1 - 1 - j)))) =
      ∑ i ∈ range (m - 1), f (2 * m - (i + 1)) :=
    sum_congr rfl fun i hi => by
      have := mem_range.mp hi
      congr 1
      omega
  rw [e1, e2, show 1 + (m - 1 + 0) = m by omega]
  ring

/-- The sequence in the order of the cosine transform. -/
theorem vSum_eq (m : ℕ) (hm : 0 < m) (y : Buf) (j p : ℕ)
    (hp : p = 2 * j ∨ (p + 2 * j + 1 = 4 * m)) : vSum m y j = dct3 (2 * m) y p := by
  have hm' : (m : ℝ) ≠ 0 := by positivity
  have ec : ∀ n : ℕ, Real.cos (Real.pi / ((2 * m : ℕ) : ℝ) * n * (p + 1 / 2)) =
      Real.cos (theta m n + 2 * Real.pi * n * j / (2 * m)) := by
    intro n
    rcases hp with rfl | hp
    · congr 1
      unfold theta
      push_cast
      field_simp
      ring
    · have hp' : (p : ℝ) = 4 * m - 2 * j - 1 := by
        have : ((p + 2 * j + 1 : ℕ) : ℝ) = ((4 * m : ℕ) : ℝ) := by rw [hp]
        push_cast at this
        linarith
      rw [← cos_back (theta m n + 2 * Real.pi * n * j / (2 * m)) n]
      congr 1
      rw [hp']
      unfold theta
      push_cast
      field_simp
      ring
  have es : ∀ n : ℕ, n ≤ 2 * m →
      Real.cos (theta m (2 * m - n) + 2 * Real.pi * ((2 * m - n : ℕ) : ℝ) * j / (2 * m)) =
      Real.sin (theta m n + 2 * Real.pi * n * j / (2 * m)) := by
    intro n hn
    rw [← Real.cos_pi_div_two_sub, ← Real.cos_add_nat_mul_two_pi (Real.pi / 2 - _) j]
    congr 1
    unfold theta
    push_cast [Nat.cast_sub hn]
    field_simp
    ring
  unfold vSum dct3
  rw [sum_ends m hm, add_assoc]
  congr 2
  · rw [ec m, mul_assoc]
    congr 1
    have e : theta m m + 2 * Real.pi * (m : ℝ) * j / (2 * m) = Real.pi / 4 + j * Real.pi := by
      unfold theta
      field_simp
    rw [e, Real.cos_add_nat_mul_pi, Real.cos_pi_div_four, show Real.pi * (1 / 4) = Real.pi / 4 by ring,
      Real.sin_pi_div_four]
    ring
  · apply sum_congr rfl
    intro i hi
    have := mem_range.mp hi
    rw [ec, ec, es (i + 1) (by omega), Real.cos_add, Real.sin_add]
    unfold vRe vIm
    ring

theorem post_dct (m : ℕ) (hm : 0 < m) (h2 : m % 2 = 0) (k : ℕ) (x : Buf) (j : ℕ) (hj : j < 2 * m) :
    post12 k m (ifft m (pre12 (2 * m) k m x).1 (pre12 (2 * m) k m x).2) j =
      (if k = 1 then (-1) ^ j else 1) * dct3 (2 * m) (turned k (2 * m) x) j := by
  unfold post12
  simp only [fft_re k m hm h2, fft_im k m hm h2]
  have e : (if j % 4 = 0 then vSum m (turned k (2 * m) x) (2 * (j / 4))
      else if j % 4 = 1 then vSum m (turned k (2 * m) x) (2 * (m - 1 - j / 4) + 1)
      else if j % 4 = 2 then vSum m (turned k (2 * m) x) (2 * (j / 4) + 1)
      else vSum m (turned k (2 * m) x) (2 * (m - 1 - j / 4))) = dct3 (2 * m) (turned k (2 * m) x) j := by
    split
    · exact vSum_eq m hm _ _ _ (by omega)
    split
    · exact vSum_eq m hm _ _ _ (by omega)
    split
    · exact vSum_eq m hm _ _ _ (by omega)
    · exact vSum_eq m hm _ _ _ (by omega)
  rw [e]
  by_cases hk : k = 1
  · by_cases hj2 : j % 2 = 1
    · rw [if_pos ⟨hk, hj2⟩, if_pos hk, Odd.neg_one_pow (Nat.odd_iff.mpr hj2)]
      ring
    · rw [if_neg (by omega), if_pos hk, Even.neg_one_pow (Nat.even_iff.mpr (by omega))]
      ring
  · rw [if_neg (by omega), if_neg hk, one_mul]

/-! ## The whole transform -/

theorem dct3_smul (n : ℕ) (c : ℝ) (x : Buf) (p : ℕ) :
    dct3 n (fun i => c * x i) p = c * dct3 n x p := by
  unfold dct3
  rw [mul_add, mul_sum]
  congr 1
  apply sum_congr rfl
  intros
  ring

theorem dct3_congr (n : ℕ) (hn : 0 < n) (x y : Buf) (h : ∀ i < n, x i = y i) (p : ℕ) :
    dct3 n x p = dct3 n y p := by
  unfold dct3
  rw [h 0 hn]
  congr 1
  apply sum_congr rfl
  intro j hj
  rw [h j (mem_Ico.mp hj).2]

theorem imdct_dct3 (k : ℕ) (hk : k = 1 ∨ k = 2) (x : Buf) (j : ℕ) (hj : j < 1024) :
    imdct k (2 * 1024) x j =
      (if k = 1 then (-1) ^ j else 1) * dct3 1024 (turned k 1024 x) j / 1024 := by
  unfold imdct fftImdct
  rw [if_neg (by omega), if_pos hk]
  have e : 2 * 1024 / 2 / 2 = 512 := rfl
  rw [e]
  have h := post_dct 512 (by omega) rfl k
    (fun i => if i < 2 * 1024 / 2 then x i * (2 / ((2 * 1024 : ℕ) : ℝ)) else x i) j hj
  have e2 : 2 * 512 = 1024 := rfl
  rw [e2] at h
  rw [h, dct3_congr 1024 (by omega) _ (fun i => 1 / 1024 * turned k 1024 x i) (fun i hi => by
    unfold turned
    by_cases hk1 : k = 1
    · rw [if_pos ⟨hk1, hi⟩, if_pos ⟨hk1, hi⟩]
      simp only
      rw [if_pos (by omega)]
      push_cast
      ring
    · rw [if_neg (by omega), if_neg (by omega)]
      simp only
      rw [if_pos (by omega)]
      push_cast
      ring), dct3_smul]
  ring

/-- Kernel type 2: the cosine transform of type three of 1024 values. -/
theorem C330_cosine (x : Buf) (j : ℕ) (hj : j < 1024) :
    imdct 2 (2 * 1024) x j = dct3 1024 x j / 1024 := by
  rw [imdct_dct3 2 (Or.inr rfl) x j hj, if_neg (by decide), one_mul]
  rfl

theorem sin_turn (n : ℕ) (hn : 0 < n) (i p : ℕ) (hi : i ≤ n) :
    Real.sin (Real.pi / n * ((n - i : ℕ) : ℝ) * (p + 1 / 2)) =
      (-1) ^ p * Real.cos (Real.pi / n * i * (p + 1 / 2)) := by
  have hn' : (n : ℝ) ≠ 0 := by positivity
  have e : Real.pi / n * ((n - i : ℕ) : ℝ) * (p + 1 / 2) =
      (Real.pi / 2 - Real.pi / n * i * (p + 1 / 2)) + p * Real.pi := by
    rw [Nat.cast_sub hi]
    field_simp
    ring
  rw [e, Real.sin_add_nat_mul_pi, Real.sin_pi_div_two_sub]

theorem dst3_dct3 (n : ℕ) (hn : 0 < n) (x : Buf) (p : ℕ) :
    dst3 n x p = (-1) ^ p * dct3 n (turned 1 n x) p := by
  unfold dst3 dct3
  rw [mul_add, mul_sum, sum_Ico_eq_sum_range, ← sum_range_reflect]
  congr 1
  · unfold turned
    rw [if_pos ⟨rfl, hn⟩, Nat.sub_zero]
    ring
  · apply sum_congr rfl
    intro i hi
    have := mem_range.mp hi
    unfold turned
    rw [if_pos ⟨rfl, by omega⟩, show n - 1 - 1 - i = n - 1 - (1 + i) by omega]
    have e : ((n - 1 - (1 + i) : ℕ) : ℝ) + 1 = ((n - (1 + i) : ℕ) : ℝ) := by
      rw [show n - (1 + i) = n - 1 - (1 + i) + 1 by omega]
      push_cast
      ring
    rw [e, sin_turn n hn (1 + i) p (by omega)]
    ring

/-- Kernel type 1: the sine transform of type three of 1024 values. -/
theorem C330_sine (x : Buf) (j : ℕ) (hj : j < 1024) :
    imdct 1 (2 * 1024) x j = dst3 1024 x j / 1024 := by
  rw [imdct_dct3 1 (Or.inl rfl) x j hj, if_pos rfl, dst3_dct3 1024 (by omega)]

/-! ## Short blocks -/

theorem cos_big (x : ℝ) (a : ℝ) (h0 : 0 ≤ x) (h : x ≤ a) : 1 - a ^ 2 / 2 ≤ Real.cos x := by
  have := Real.one_sub_sq_div_two_le_cos (x := x)
  nlinarith

/-- The sum of what the modulation makes of a spectrum of one line. -/
theorem short_value : imdct 2 (2 * 128) (fun i => if i = 32 then 128 else 0) 0 =
    1 / 2 * (Real.cos (Real.pi / 64) + Real.sin (3 * Real.pi / 64) +
      (Real.sin (Real.pi / 64) + Real.cos (3 * Real.pi / 64)) * Real.cos (Real.pi / 16) +
      (Real.cos (Real.pi / 64) - Real.sin (3 * Real.pi / 64)) * Real.sin (Real.pi / 16)) := by
  set x : Buf := fun i => if i < 2 * 128 / 2 then (if i = 32 then 128 else 0) * (2 / ((2 * 128 : ℕ) : ℝ))
    else (if i = 32 then 128 else 0) with hx
  have hy : turned 2 (2 * 64) x = fun i => if i = 32 then 1 else 0 := by
    funext i
    unfold turned
    rw [if_neg (by omega), hx]
    simp only
    by_cases h : i = 32
    · subst h; norm_num
    · simp [h]
  have z1 : ∀ i, 0 < i → i < 32 → re1 1024 64 (fun i => if i = 32 then 1 else 0) i = 0 ∧
      re2 1024 64 (fun i => if i = 32 then 1 else 0) i = 0 ∧
      im1 1024 64 (fun i => if i = 32 then 1 else 0) i = 0 ∧
      im2 1024 64 (fun i => if i = 32 then 1 else 0) i = 0 := by
    intro i h0 h
    unfold re1 re2 im1 im2
    simp only [if_neg (show ¬ i = 32 by omega), if_neg (show ¬ 2 * 64 - i = 32 by omega),
      if_neg (show ¬ 64 - i = 32 by omega), if_neg (show ¬ 64 + i = 32 by omega)]
    simp
  have e : imdct 2 (2 * 128) (fun i => if i = 32 then 128 else 0) 0 =
      ∑ n ∈ range 64, (pre12 1024 2 64 x).1 n := by
    unfold imdct fftImdct post12 ifft
    simp only [hx]
    norm_num
  rw [e, sum_eq_single 32]
  · simp only [pre12, hy]
    norm_num [reD, re1, re2, im1, im2, cosU, sinU, -Real.cos_pi_div_sixteen, -Real.sin_pi_div_sixteen]
    rw [show Real.pi * 32 / 2048 = Real.pi / 64 by ring, show Real.pi * 96 / 2048 = 3 * Real.pi / 64 by ring,
      show Real.pi * 128 / 2048 = Real.pi / 16 by ring]
    ring
  · intro n hn hne
    have := mem_range.mp hn
    simp only [pre12, hy]
    by_cases h0 : n = 0
    · simp [h0]
    rw [if_neg h0]
    split
    · obtain ⟨a, b, c, d⟩ := z1 n (by omega) (by omega)
      unfold reD
      rw [a, b, c, d]
      ring
    · obtain ⟨a, b, c, d⟩ := z1 (64 - n) (by omega) (by omega)
      unfold reD
      rw [a, b, c, d]
      ring
  · intro h
    exact absurd (mem_range.mpr (by omega)) h

theorem dct_value : dct3 128 (fun i => if i = 32 then 128 else 0) 0 / 128 = Real.cos (Real.pi / 8) := by
  unfold dct3
  rw [sum_eq_single 32]
  · norm_num [-Real.cos_pi_div_eight]
    congr 1
    ring
  · intro j _ h
    simp [h]
  · intro h
    exact absurd (mem_Ico.mpr (by omega)) h

/-- For the 128 values of a short block the table is the wrong one: a spectrum of one line. -/
theorem short_line :
    imdct 2 (2 * 128) (fun i => if i = 32 then 128 else 0) 0 ≠
      dct3 128 (fun i => if i = 32 then 128 else 0) 0 / 128 := by
  rw [short_value, dct_value, Real.cos_pi_div_eight]
  have hp := Real.pi_lt_d2
  have hq := Real.pi_gt_three
  have c1 := cos_big (Real.pi / 64) (1 / 20) (by positivity) (by linarith)
  have c2 := cos_big (3 * Real.pi / 64) (3 / 20) (by positivity) (by linarith)
  have c3 := cos_big (Real.pi / 16) (1 / 5) (by positivity) (by linarith)
  have s1 : 0 ≤ Real.sin (Real.pi / 64) := Real.sin_nonneg_of_nonneg_of_le_pi (by positivity) (by linarith)
  have s2 : 0 ≤ Real.sin (3 * Real.pi / 64) :=
    Real.sin_nonneg_of_nonneg_of_le_pi (by positivity) (by linarith)
  have s3 : 0 ≤ Real.sin (Real.pi / 16) := Real.sin_nonneg_of_nonneg_of_le_pi (by positivity) (by linarith)
  have s4 : Real.sin (3 * Real.pi / 64) ≤ 3 / 20 :=
    (Real.sin_le (by positivity)).trans (by linarith)
  have t : 0 ≤ (Real.cos (Real.pi / 64) - Real.sin (3 * Real.pi / 64)) * Real.sin (Real.pi / 16) :=
    mul_nonneg (by linarith) s3
  have u : 96 / 100 ≤ (Real.sin (Real.pi / 64) + Real.cos (3 * Real.pi / 64)) * Real.cos (Real.pi / 16) :=
    le_trans (by norm_num) (mul_le_mul (show (98 / 100 : ℝ) ≤ _ by linarith)
      (show (98 / 100 : ℝ) ≤ _ by linarith) (by norm_num) (by linarith))
  have w : √(2 + √2) / 2 < 93 / 100 := by
    have h1 : √2 < 1415 / 1000 := by
      rw [Real.sqrt_lt' (by norm_num)]; norm_num
    have h2 : √(2 + √2) < 186 / 100 := by
      rw [Real.sqrt_lt' (by norm_num)]; linarith
    linarith
  intro h
  linarith

/-- C331, refuted: that kernel type 2 is the cosine transform of type three for short blocks, too. -/
theorem C331_refuted : ¬ ∀ (x : Buf) (j : ℕ), j < 128 →
    imdct 2 (2 * 128) x j = dct3 128 x j / 128 := fun h => short_line (h _ 0 (by omega))

/-! ## The transform undoes the modified transforms -/

theorem sum_dirichlet (α : ℝ) (n : ℕ) (hn : 0 < n) :
    2 * Real.sin (α / 2) * ∑ k ∈ Ico 1 n, Real.cos (k * α) =
      Real.sin ((n - 1 / 2) * α) - Real.sin (α / 2) := by
  obtain ⟨m, rfl⟩ : ∃ m, n = m + 1 := ⟨n - 1, by omega⟩
  rw [sum_Ico_eq_sum_range, Nat.add_sub_cancel]
  induction m with
  | zero => norm_num; rw [show 1 / 2 * α = α / 2 by ring]; ring
  | succ m ih =>
    rw [sum_range_succ, mul_add, ih (by omega)]
    have h1 : (((m + 1 + 1 : ℕ) : ℝ) - 1 / 2) * α = ((m : ℝ) + 1) * α + α / 2 := by push_cast; ring
    have h2 : (((m + 1 : ℕ) : ℝ) - 1 / 2) * α = ((m : ℝ) + 1) * α - α / 2 := by push_cast; ring
    have h3 : ((1 + m : ℕ) : ℝ) * α = ((m : ℝ) + 1) * α := by push_cast; ring
    rw [h1, h2, h3, Real.sin_add, Real.sin_sub]
    ring

theorem sum_whole (n : ℕ) (hn : 0 < n) (d : ℤ) (h0 : d ≠ 0) (h1 : |d| < 2 * n) :
    ∑ k ∈ Ico 1 n, Real.cos (k * (Real.pi * d / n)) = (-(-1) ^ d.natAbs - 1) / 2 := by
  have hn' : (n : ℝ) ≠ 0 := by positivity
  have h := sum_dirichlet (Real.pi * d / n) n hn
  have hs : Real.sin (Real.pi * d / n / 2) ≠ 0 := by
    intro h2
    obtain ⟨z, hz⟩ := Real.sin_eq_zero_iff.mp h2
    have h3 : (z : ℝ) * (2 * n) = d := by
      have hp := Real.pi_ne_zero
      field_simp at hz
      have : Real.pi * ((z : ℝ) * (2 * n)) = Real.pi * d := by linear_combination Real.pi * hz
      exact mul_left_cancel₀ hp this
    have h4 : z * (2 * (n : ℤ)) = d := by exact_mod_cast h3
    have h5 : z ≠ 0 := by rintro rfl; apply h0; rw [← h4]; ring
    have h6 : 1 ≤ |z| := Int.one_le_abs h5
    rw [← h4, abs_mul, abs_of_nonneg (by positivity : (0 : ℤ) ≤ 2 * n)] at h1
    nlinarith
  have e : ((n : ℝ) - 1 / 2) * (Real.pi * d / n) = d * Real.pi - Real.pi * d / n / 2 := by
    field_simp
  rw [e, Real.sin_sub, Real.sin_int_mul_pi, zero_mul, zero_sub, Real.cos_int_mul_pi] at h
  have h4 : ((-1 : ℝ)) ^ d = (-1) ^ d.natAbs := by
    rcases Int.even_or_odd d with q | q
    · rw [Even.neg_one_zpow q, Even.neg_one_pow (Int.natAbs_even.mpr q)]
    · rw [Odd.neg_one_zpow q, Odd.neg_one_pow (Int.natAbs_odd.mpr q)]
  rw [h4] at h
  have h5 : 2 * Real.sin (Real.pi * d / n / 2) *
      (∑ k ∈ Ico 1 n, Real.cos (k * (Real.pi * d / n)) - (-(-1) ^ d.natAbs - 1) / 2) = 0 := by
    rw [mul_sub, h]
    ring
  rcases mul_eq_zero.mp h5 with h6 | h6
  · exact absurd (by linarith) hs
  · linarith

theorem ortho3 (n : ℕ) (hn : 0 < n) (i j : ℕ) (hi : i < n) (hj : j < n) :
    1 + 2 * ∑ k ∈ Ico 1 n, Real.cos (Real.pi / n * (j + 1 / 2) * k) *
      Real.cos (Real.pi / n * k * (i + 1 / 2)) = if j = i then (n : ℝ) else 0 := by
  have hn' : (n : ℝ) ≠ 0 := by positivity
  have hs := sum_whole n hn ((i : ℤ) + j + 1) (by omega) (by
    rw [abs_of_nonneg (by positivity)]; omega)
  have a1 : ∀ k : ℕ, 2 * (Real.cos (Real.pi / n * (j + 1 / 2) * k) *
        Real.cos (Real.pi / n * k * (i + 1 / 2))) =
      Real.cos (k * (Real.pi * ((i : ℤ) + j + 1 : ℤ) / n)) +
      Real.cos (k * (Real.pi * ((j : ℤ) - i : ℤ) / n)) := by
    intro k
    have e1 : (k : ℝ) * (Real.pi * ((i : ℤ) + j + 1 : ℤ) / n) =
        Real.pi / n * (j + 1 / 2) * k + Real.pi / n * k * (i + 1 / 2) := by
      push_cast; field_simp; ring
    have e2 : (k : ℝ) * (Real.pi * ((j : ℤ) - i : ℤ) / n) =
        Real.pi / n * (j + 1 / 2) * k - Real.pi / n * k * (i + 1 / 2) := by
      push_cast; field_simp; ring
    rw [e1, e2, Real.cos_add, Real.cos_sub]
    ring
  rw [mul_sum, sum_congr rfl (fun k _ => a1 k), sum_add_distrib, hs]
  by_cases h : j = i
  · subst h
    rw [if_pos rfl]
    have e : ((j : ℤ) + j + 1).natAbs = 2 * j + 1 := by omega
    rw [e, pow_succ, pow_mul]
    simp
    rw [Nat.cast_sub hn]
    push_cast
    ring
  · rw [if_neg h, sum_whole n hn _ (by omega) (by rw [abs_lt]; omega)]
    rcases Int.even_or_odd ((j : ℤ) - i) with q | q
    · have q' : Odd ((i : ℤ) + j + 1) := by
        obtain ⟨z, hz⟩ := q
        exact ⟨i + z, by omega⟩
      rw [Even.neg_one_pow (Int.natAbs_even.mpr q), Odd.neg_one_pow (Int.natAbs_odd.mpr q')]
      ring
    · have q' : Even ((i : ℤ) + j + 1) := by
        obtain ⟨z, hz⟩ := q
        exact ⟨i + z + 1, by omega⟩
      rw [Odd.neg_one_pow (Int.natAbs_odd.mpr q), Even.neg_one_pow (Int.natAbs_even.mpr q')]
      ring

/-- The cosine transform of type two, with value 0 halved. -/
noncomputable def dct2 (n : ℕ) (u : Buf) (k : ℕ) : ℝ :=
  (if k = 0 then 1 else 2) * ∑ j ∈ range n, u j * Real.cos (Real.pi / n * (j + 1 / 2) * k)

theorem dct3_dct2 (n : ℕ) (hn : 0 < n) (u : Buf) (i : ℕ) (hi : i < n) :
    dct3 n (dct2 n u) i = n * u i := by
  unfold dct3
  have e0 : dct2 n u 0 = ∑ j ∈ range n, u j * 1 := by
    unfold dct2
    simp
  have ek : ∀ k ∈ Ico 1 n, dct2 n u k * Real.cos (Real.pi / n * k * (i + 1 / 2)) =
      ∑ j ∈ range n, u j * (2 * (Real.cos (Real.pi / n * (j + 1 / 2) * k) *
        Real.cos (Real.pi / n * k * (i + 1 / 2)))) := by
    intro k hk
    have := (mem_Ico.mp hk).1
    unfold dct2
    rw [if_neg (by omega), mul_sum, sum_mul]
    apply sum_congr rfl
    intros
    ring
  rw [e0, sum_congr rfl ek, sum_comm, ← sum_add_distrib]
  rw [sum_congr rfl (g := fun j => if j = i then (n : ℝ) * u j else 0) (fun j hj => by
    rw [← mul_sum, ← mul_sum, ← mul_add, ortho3 n hn i j hi (mem_range.mp hj)]
    split <;> ring)]
  rw [sum_ite_eq' (range n) i, if_pos (mem_range.mpr hi)]

theorem mdct2_fold (m : ℕ) (hm : 0 < m) (l r : Buf) (k : ℕ) :
    mdct2 (2 * m) (both (2 * m) l r) k = dct2 (2 * m) (fold true false (2 * m) l r) k := by
  have hm' : (m : ℝ) ≠ 0 := by positivity
  unfold mdct2 dct2
  congr 1
  rw [sum_both (2 * m) l r
    (fun j => Real.cos (Real.pi / ((2 * m : ℕ) : ℝ) * (j + 1 / 2 + ((2 * m : ℕ) : ℝ) / 2) * k))]
  rw [sum_mirror _ m, sum_middle _ m, sum_halves _ m, ← sum_add_distrib]
  apply sum_congr rfl
  intro i hi
  have hi' := mem_range.mp hi
  have a1 : Real.pi / ((2 * m : ℕ) : ℝ) * ((i : ℝ) + 1 / 2 + ((2 * m : ℕ) : ℝ) / 2) * k =
      Real.pi / ((2 * m : ℕ) : ℝ) * (((m + i : ℕ) : ℝ) + 1 / 2) * k := by push_cast; ring
  have a2 : Real.pi / ((2 * m : ℕ) : ℝ) * (((2 * m - 1 - i : ℕ) : ℝ) + 1 / 2 + ((2 * m : ℕ) : ℝ) / 2) * k =
      k * (2 * Real.pi) - Real.pi / ((2 * m : ℕ) : ℝ) * (((m + i : ℕ) : ℝ) + 1 / 2) * k := by
    rw [Nat.cast_sub (by omega), Nat.cast_sub (by omega)]
    push_cast; field_simp; ring
  have a3 : Real.pi / ((2 * m : ℕ) : ℝ) * (((2 * m + (m + i) : ℕ) : ℝ) + 1 / 2 + ((2 * m : ℕ) : ℝ) / 2) * k =
      Real.pi / ((2 * m : ℕ) : ℝ) * ((i : ℝ) + 1 / 2) * k + k * (2 * Real.pi) := by
    push_cast; field_simp; ring
  have a4 : Real.pi / ((2 * m : ℕ) : ℝ) * (((2 * m + (m - 1 - i) : ℕ) : ℝ) + 1 / 2 + ((2 * m : ℕ) : ℝ) / 2) * k =
      k * (2 * Real.pi) - Real.pi / ((2 * m : ℕ) : ℝ) * ((i : ℝ) + 1 / 2) * k := by
    rw [show m - 1 - i = m - (1 + i) by omega, Nat.cast_add, Nat.cast_sub (by omega)]
    push_cast; field_simp; ring
  rw [a1, a2, a3, a4, cos_back, cos_back, Real.cos_add_nat_mul_two_pi, fold_left,
    fold_right _ _ _ _ _ _ hi']
  simp [sg]
  ring

theorem mdst2_fold (m : ℕ) (hm : 0 < m) (l r : Buf) (k : ℕ) (hk : k < 2 * m) :
    turned 1 (2 * m) (mdst2 (2 * m) (both (2 * m) l r)) k =
      dct2 (2 * m) (fun i => (-1) ^ i * fold false true (2 * m) l r i) k := by
  have hm' : (m : ℝ) ≠ 0 := by positivity
  unfold turned
  rw [if_pos ⟨rfl, hk⟩]
  unfold mdst2 dct2
  have ek : ((2 * m - 1 - k : ℕ) : ℝ) + 1 = ((2 * m - k : ℕ) : ℝ) := by
    rw [show 2 * m - k = 2 * m - 1 - k + 1 by omega]
    push_cast
    ring
  rw [ek]
  congr 1
  · by_cases h : k = 0
    · rw [if_pos h, if_pos (by omega)]
    · rw [if_neg h, if_neg (by omega)]
  rw [sum_both (2 * m) l r (fun j => Real.sin (Real.pi / ((2 * m : ℕ) : ℝ) *
    (j + 1 / 2 + ((2 * m : ℕ) : ℝ) / 2) * ((2 * m - k : ℕ) : ℝ)))]
  rw [sum_mirror _ m, sum_middle _ m, sum_halves _ m, ← sum_add_distrib]
  apply sum_congr rfl
  intro i hi
  have hi' := mem_range.mp hi
  simp only
  generalize hK : 2 * m - k = K
  have a1 : Real.pi / ((2 * m : ℕ) : ℝ) * ((i : ℝ) + 1 / 2 + ((2 * m : ℕ) : ℝ) / 2) * K =
      Real.pi / ((2 * m : ℕ) : ℝ) * K * (((m + i : ℕ) : ℝ) + 1 / 2) := by push_cast; ring
  have a2 : Real.pi / ((2 * m : ℕ) : ℝ) * (((2 * m - 1 - i : ℕ) : ℝ) + 1 / 2 + ((2 * m : ℕ) : ℝ) / 2) * K =
      K * (2 * Real.pi) - Real.pi / ((2 * m : ℕ) : ℝ) * K * (((m + i : ℕ) : ℝ) + 1 / 2) := by
    rw [Nat.cast_sub (by omega), Nat.cast_sub (by omega)]
    push_cast; field_simp; ring
  have a3 : Real.pi / ((2 * m : ℕ) : ℝ) * (((2 * m + (m + i) : ℕ) : ℝ) + 1 / 2 + ((2 * m : ℕ) : ℝ) / 2) * K =
      Real.pi / ((2 * m : ℕ) : ℝ) * K * ((i : ℝ) + 1 / 2) + K * (2 * Real.pi) := by
    push_cast; field_simp; ring
  have a4 : Real.pi / ((2 * m : ℕ) : ℝ) * (((2 * m + (m - 1 - i) : ℕ) : ℝ) + 1 / 2 + ((2 * m : ℕ) : ℝ) / 2) * K =
      K * (2 * Real.pi) - Real.pi / ((2 * m : ℕ) : ℝ) * K * ((i : ℝ) + 1 / 2) := by
    rw [show m - 1 - i = m - (1 + i) by omega, Nat.cast_add, Nat.cast_sub (by omega)]
    push_cast; field_simp; ring
  rw [a1, a2, a3, a4, sin_back, sin_back, Real.sin_add_nat_mul_two_pi, fold_left,
    fold_right _ _ _ _ _ _ hi', ← hK, sin_turn (2 * m) (by omega) k i (by omega),
    sin_turn (2 * m) (by omega) k (m + i) (by omega)]
  have c1 : ∀ p : ℕ, Real.pi / ((2 * m : ℕ) : ℝ) * ((p : ℝ) + 1 / 2) * k =
      Real.pi / ((2 * m : ℕ) : ℝ) * k * ((p : ℝ) + 1 / 2) := by intro p; ring
  rw [c1, c1]
  simp [sg]
  ring

/-- Kernel type 2 undoes the modified cosine transform up to the folding. -/
theorem C332_cosine (l r : Buf) (i : ℕ) (hi : i < 1024) :
    imdct 2 (2 * 1024) (mdct2 1024 (both 1024 l r)) i = fold true false 1024 l r i := by
  rw [C330_cosine _ i hi]
  have e : mdct2 1024 (both 1024 l r) = dct2 1024 (fold true false 1024 l r) := by
    funext k; exact mdct2_fold 512 (by omega) l r k
  rw [e, dct3_dct2 1024 (by omega) _ i hi]
  push_cast
  ring

/-- Kernel type 1 undoes the modified sine transform up to the folding. -/
theorem C332_sine (l r : Buf) (i : ℕ) (hi : i < 1024) :
    imdct 1 (2 * 1024) (mdst2 1024 (both 1024 l r)) i = fold false true 1024 l r i := by
  rw [C330_sine _ i hi, dst3_dct3 1024 (by omega), dct3_congr 1024 (by omega) _
    (dct2 1024 (fun i => (-1) ^ i * fold false true 1024 l r i))
    (fun k hk => mdst2_fold 512 (by omega) l r k hk), dct3_dct2 1024 (by omega) _ i hi]
  have : ((-1 : ℝ) ^ i) * (-1) ^ i = 1 := by rw [← mul_pow]; norm_num
  push_cast
  linear_combination fold false true 1024 l r i * this

/-! ## From the spectrum to the signal -/

/-- The transform an encoder uses for a long frame or, without a change of symmetry, a short block. -/
noncomputable def forward' (prev cur : Bool) (n : ℕ) (z : Buf) : Buf :=
  if prev = cur then forward cur n z else if cur then mdst2 n z else mdct2 n z

/-- The spectrum of a frame with the blocks `a` and `b` and the symmetries `prev` and `cur`. -/
noncomputable def spectrum' (t : Tables) (q : Seq) (prev cur : Bool) (sp sh : ℕ) (a b : Buf) : Buf :=
  if q = .eight then Props.Imdct.spectrum t q cur sp sh a b
  else forward' prev cur 1024 (both 1024 (fun i => rise 448 128 (edge t sp (leftLong q)) i * a i)
    (fun i => rise 448 128 (edge t sh (rightLong q)) (1024 - 1 - i) * b i))

theorem imdct_congr' (k : ℕ) (hk : k ≤ 3) (x y : Buf) (h : ∀ i < 1024, x i = y i) (i : ℕ)
    (hi : i < 1024) : imdct k (2 * 1024) x i = imdct k (2 * 1024) y i := by
  by_cases h12 : k = 1 ∨ k = 2
  · rw [imdct_dct3 k h12 x i hi, imdct_dct3 k h12 y i hi, dct3_congr 1024 (by omega) _
      (turned k 1024 y) (fun j hj => by
        unfold turned
        split
        · exact h _ (by omega)
        · exact h _ hj)]
  · exact imdct_congr k (2 * 1024) x y (fun i hi => h i (by omega)) ⟨512, rfl, by omega, rfl⟩ (by omega) i (by omega)

theorem transforms_eq' (t : Tables) (q : Seq) (prev cur : Bool) (hq8 : q = .eight → prev = cur)
    (sp sh : ℕ) (a b x : Buf) (hx : ∀ j < 1024, x j = spectrum' t q prev cur sp sh a b j) (j : ℕ)
    (hj : j < 1024) (w : Buf) :
    transforms 1024 q (kernel prev cur) x j = encoded t sp ⟨q, sh, prev, cur, w⟩ a b j := by
  by_cases hpc : prev = cur
  · subst hpc
    refine transforms_eq t q prev sp sh a b x (fun j hj => ?_) j hj w
    rw [hx j hj]
    unfold spectrum' Props.Imdct.spectrum forward'
    split <;> simp
  · have hq : q ≠ .eight := fun h => hpc (hq8 h)
    unfold transforms encoded folded
    simp only [if_neg hq]
    rw [imdct_congr' _ (by cases prev <;> cases cur <;> simp [kernel]) x _ hx j hj]
    have e : spectrum' t q prev cur sp sh a b = if cur then
        mdst2 1024 (both 1024 (fun i => rise 448 128 (edge t sp (leftLong q)) i * a i)
          (fun i => rise 448 128 (edge t sh (rightLong q)) (1024 - 1 - i) * b i))
        else mdct2 1024 (both 1024 (fun i => rise 448 128 (edge t sp (leftLong q)) i * a i)
          (fun i => rise 448 128 (edge t sh (rightLong q)) (1024 - 1 - i) * b i)) := by
      unfold spectrum' forward'
      rw [if_neg hq, if_neg hpc]
    rw [e]
    cases prev <;> cases cur
    · exact absurd rfl hpc
    · exact C332_sine _ _ j hj
    · exact C332_cosine _ _ j hj
    · exact absurd rfl hpc

/-- From spectra to samples where the symmetry may change from frame to frame: the modified transforms of
the windowed blocks of a signal that begins with a silent block are decoded to the signal, when the
symmetry neither changes at eight short blocks nor changes back at a short left edge. -/
theorem C333_signal (t : Tables) (ht : Windows t) (x : ℕ → Buf) (hx : ∀ j, x 0 j = 0)
    (q : ℕ → Seq) (sh : ℕ → ℕ) (sp : ℕ) (sym : ℕ → Bool) (hs0 : sp ≤ 1) (hs : ∀ i, sh i ≤ 1)
    (hq : ∀ i, leftLong (q (i + 1)) = rightLong (q i))
    (h8 : ∀ i, q i = .eight → sym i = sym (i + 1))
    (hb : ∀ i, q i = .stop ∨ q i = .stopStart → ¬(sym i = true ∧ sym (i + 1) = false))
    (spec : ℕ → Buf)
    (h0 : ∀ j < 1024, spec 0 j = spectrum' t (q 0) (sym 0) (sym 1) sp (sh 0) (x 0) (x 1) j)
    (hv : ∀ i, ∀ j < 1024, spec (i + 1) j = spectrum' t (q (i + 1)) (sym (i + 1)) (sym (i + 2)) (sh i)
      (sh (i + 1)) (x (i + 1)) (x (i + 2)) j) (n : ℕ) :
    ∃ os, frames t 1024 ((List.range n).map fun i => ⟨q i, sh i, sym i, sym (i + 1),
        transforms 1024 (q i) (kernel (sym i) (sym (i + 1))) (spec i)⟩) sp (fun _ => 0) = .ok os ∧
      os.length = n ∧ ∀ i < n, ∀ j < 1024, (os.getD i 0) j = x i j := by
  refine C324_signal t ht x hx (fun i => ⟨q i, sh i, sym i, sym (i + 1),
      transforms 1024 (q i) (kernel (sym i) (sym (i + 1))) (spec i)⟩)
    sp hs0 hs (fun i => ?_) (fun i => ⟨rfl, hq i⟩) (fun j hj => ?_) (fun i j hj => ?_) n
  · have := h8 i
    have := hb i
    unfold Fits
    simp only
    split <;> simp_all
  · exact transforms_eq' t (q 0) _ _ (h8 0) sp (sh 0) (x 0) (x 1) (spec 0) h0 j hj _
  · exact transforms_eq' t (q (i + 1)) _ _ (h8 (i + 1)) (sh i) (sh (i + 1)) _ _ (spec (i + 1)) (hv i) j
      hj _

/-- Long frames of which the symmetry changes each time. -/
example (x : ℕ → Buf) (hx : ∀ j, x 0 j = 0) (n : ℕ) :
    let sym : ℕ → Bool := fun i => i % 2 == 1
    ∃ os, frames steps 1024 ((List.range n).map fun i => ⟨.only, 0, sym i, sym (i + 1),
        transforms 1024 .only (kernel (sym i) (sym (i + 1)))
          (spectrum' steps .only (sym i) (sym (i + 1)) 0 0 (x i) (x (i + 1)))⟩) 0 (fun _ => 0) = .ok os ∧
      os.length = n ∧ ∀ i < n, ∀ j < 1024, (os.getD i 0) j = x i j := by
  intro sym
  exact C333_signal steps steps_windows x hx (fun _ => .only) (fun _ => 0) 0 sym (by omega)
    (fun i => by omega) (fun i => rfl) (fun i h => by simp at h) (fun i h => by simp at h)
    (fun i => spectrum' steps .only (sym i) (sym (i + 1)) 0 0 (x i) (x (i + 1)))
    (fun j _ => rfl) (fun i j _ => rfl) n

example : imdct 2 (2 * 1024) (fun i => if i = 0 then 1024 else 0) 5 = 1 := by
  rw [C330_cosine _ 5 (by omega)]
  unfold dct3
  rw [sum_eq_zero (fun j hj => by
    have := (mem_Ico.mp hj).1
    simp only
    rw [if_neg (by omega), zero_mul])]
  norm_num

example : imdct 1 (2 * 1024) (fun i => if i = 1023 then 1024 else 0) 5 = -1 := by
  rw [C330_sine _ 5 (by omega)]
  unfold dst3
  rw [sum_eq_zero (fun j hj => by
    have := mem_range.mp hj
    simp only
    rw [if_neg (by omega), zero_mul])]
  norm_num

example (l r : Buf) : imdct 2 (2 * 1024) (mdct2 1024 (both 1024 l r)) 512 = l 0 + l 1023 := by
  rw [C332_cosine l r 512 (by omega)]
  simp [Tdac.fold, sg]

end Verif.Props.ImdctMixed
