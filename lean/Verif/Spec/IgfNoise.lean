import Verif.Spec.IgfFill
import Mathlib.Algebra.BigOperators.Group.List.Basic

/-!
# The noise of gap filling

The generator, the number of lines that take noise and the bands that are filled together, without the loops of the model.
-/

namespace Verif.Igf

variable {α : Type} [Field α] [LinearOrder α]

/-- The generator of ISO/IEC 23008-3, 5.5.5.4.8. -/
def lcg (s : Nat) : Nat := (69069 * s + 5) % 2 ^ 32

/-- The lines from `lo` to `hi` that are empty and take noise. -/
def noiseLines (g : Gap α) (c : Nat → α) (lo hi : Nat) : Nat := ((Finset.Ico lo hi).filter fun j => c j = 0 ∧ g.noisy j = true).card

/-- The value of a line of noise for a state of the generator: bit 16 is its sign. -/
def noiseOf (s : Nat) : α := if s.testBit 16 then -2097152 else 2097152

/-- The lines of a window that take noise. -/
def noiseWindow (g : Gap α) (w : Win α) : Nat := (g.bands.map fun b => noiseLines g w.coef (g.off b) (g.off b + g.width b)).sum

end Verif.Igf
