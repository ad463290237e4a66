import Verif.Model.Fd
import Mathlib.Algebra.BigOperators.Group.Finset.Basic
import Mathlib.Algebra.Order.Field.Rat

/-! # What noise shaping is to do -/

namespace Verif.Spec.Tns

open Fd (Filt)

/-- The prediction polynomial of reflection coefficients: with each coefficient, the polynomial is lengthened by 0, and the coefficient times
the reversed polynomial, one place later, is added. -/
def levinson (p : List ℚ) (k : ℚ) : List ℚ := List.zipWith (fun x y => x + k * y) (p ++ [0]) (0 :: p.reverse)

/-- The polynomial for a list of reflection coefficients. -/
def poly (ks : List ℚ) : List ℚ := ks.foldl levinson [1]

/-- The value `j` lines before line `p` in the direction of the filter, 0 outside of the lines from `lo` to `hi`. -/
def tap (y : Nat → ℚ) (lo hi dir p j : Nat) : ℚ :=
  if dir = 0 then (if lo + j ≤ p then y (p - j) else 0) else (if p + j < hi then y (p + j) else 0)

/-- `x` is what an encoder that filters the lines of `y` from `lo` to `hi` makes. -/
def Residual (ks : List ℚ) (lo hi dir : Nat) (y x : Nat → ℚ) : Prop :=
  ∀ p, lo ≤ p → p < hi → x p = ∑ j ∈ Finset.range (ks.length + 1), (poly ks).getD j 0 * tap y lo hi dir p j

/-- The first line of band `b`. -/
def lineOf (ends : List Nat) (b : Nat) : Nat := if b = 0 then 0 else ends.getD (b - 1) 0

/-- The filters of a window: each ends where the one before starts. -/
def Chain : (top : Nat) → List Filt → Prop
  | _, [] => True
  | t, g :: gs => g.stop = t ∧ g.start ≤ t ∧ g.coef.length ≤ 15 ∧ Chain g.start gs

end Verif.Spec.Tns
