import Verif.Model.Fdp

/-! # What the prediction of harmonic lines is to be

The harmonics are at the multiples of the spacing; positions are counted in 256ths of the distance of two lines, and line `i` is at
`256 * i + 128`.  A line is predicted if it is less than one and a half lines away from a harmonic. -/

namespace Verif.Spec.Fdp

/-- Line `i` is near to harmonic `n`. -/
def Near (sp i n : Nat) : Prop := 1 ≤ n ∧ |256 * (i : Int) + 128 - n * sp| < 384

/-- The two factors of harmonic `n`: they are given by the distance of its position (from the first line) to the next line; the sign of
the first changes from line to line. -/
def Factors (sp n : Nat) (a b : Int) : Prop :=
  ∃ d : Nat, ∃ m k : Int, d ≤ 128 ∧ |(n : Int) * sp - 128 - 256 * m| = d ∧ 256 * k ≤ n * sp - 128 ∧ (n : Int) * sp - 128 < 256 * (k + 1) ∧
    b = Fdp.s2Tab.getD d 0 ∧ ((Even k ∧ a = -Fdp.s1Tab.getD d 0) ∨ (¬ Even k ∧ a = Fdp.s1Tab.getD d 0))

/-- `e` is `r / 32768` rounded to the nearest integer, from the middle away from 0. -/
def Round (r e : Int) : Prop := 2 * |32768 * e - r| ≤ 32768 ∧ (2 * |32768 * e - r| = 32768 → |r| < |32768 * e|)

/-- `e` is the estimate of line `i` from its last value `p1` and the value before, `p2`. -/
def Estimate (sp i : Nat) (p1 p2 e : Int) : Prop :=
  (∃ n a b, Near sp i n ∧ Factors sp n a b ∧ Round (a * p1 + b * p2) e) ∨ ((∀ n, ¬ Near sp i n) ∧ e = 0)

/-- The scale of a scale factor in the memory. -/
def scaleOf (factor : Int) : Nat :=
  if factor < 121 then 0 else if 183 < factor then 65536 else Fdp.scfTab.getD (factor - 121).toNat 0

/-- The value of a quantised line in the memory. -/
def value (factor q : Int) : Int := q.sign * ((Fdp.expTab.getD (min q.natAbs 181) 0 * scaleOf factor + 512) / 1024 : Nat)

/-- Values of the memory are limited. -/
def limit (x : Int) : Int := if x < -31775 then -31775 else if 31775 < x then 31775 else x

/-- Line `i` is in band `b`. -/
def InBand (ends : List Nat) (b i : Nat) : Prop := (b = 0 ∨ ∃ e, ends[b - 1]? = some e ∧ e ≤ i) ∧ ∃ e, ends[b]? = some e ∧ i < e

/-- What the memory always satisfies: values are limited, and lines from the prediction bandwidth on have no memory. -/
def Mem (bw : Nat) (p : Nat → Int) : Prop := ∀ i < 172, |p i| ≤ 31775 ∧ (bw ≤ i → p i = 0)

/-- `r` is the integer nearest to the square root of `x`. -/
def NearestRoot (x r : Nat) : Prop := 4 * x < (2 * r + 1) * (2 * r + 1) ∧ (r = 0 ∨ (2 * r - 1) * (2 * r - 1) < 4 * x)

end Verif.Spec.Fdp
