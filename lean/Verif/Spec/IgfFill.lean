import Verif.Model.IgfFill
import Mathlib.Algebra.Order.BigOperators.Group.Finset
import Mathlib.Algebra.BigOperators.Intervals

/-! # Gap filling of one channel: energies of a band -/

namespace Verif.Igf

variable {α : Type} [Field α] [LinearOrder α]

/-- Energy of the lines `lo … hi - 1`. -/
def energy (c : Nat → α) (lo hi : Nat) : α := ∑ j ∈ Finset.Ico lo hi, c j ^ 2

/-- Energy of what is offered for the empty lines: noise of 2097152 where `noisy`, otherwise the copied line. -/
def offered (c : Nat → α) (noisy : Nat → Bool) (copied : Nat → α) (lo hi : Nat) : α :=
  ∑ j ∈ Finset.Ico lo hi, if c j = 0 then (if noisy j then 2097152 ^ 2 else copied j ^ 2) else 0

/-- The bands have at least one line each, in order. -/
def Rising (g : Gap α) : Prop := ∀ i j, g.grid.start ≤ i → i < j → j ≤ g.grid.stop → g.off i < g.off j

/-- End of a band. -/
def Gap.high (g : Gap α) (b : Nat) : Nat := g.off (min (b + g.step) g.grid.stop)

end Verif.Igf
