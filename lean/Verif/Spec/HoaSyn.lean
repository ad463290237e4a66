import Verif.Model.HoaSyn

/-!
# Channels and what they contribute

Signals with one channel only, windows that add up to 1 and the signals of combinations.
-/

namespace Verif.Hoa

variable {α : Type} [Field α]

/-- The signals with all channels silent but one (from 1 on). -/
def only (ch : Nat) (sig : Nat → Nat → α) : Nat → Nat → α := fun j n => if j + 1 = ch then sig j n else 0

/-- Scaled signals added to others. -/
def combined (a : α) (x y : Nat → Nat → α) : Nat → Nat → α := fun j n => a * x j n + y j n

/-- The windows of two frames add up to 1 at all samples; the ones of vectors up to the time of interpolation, where the new vector has arrived. -/
structure AddUp (u : Setup α) (c : Config) : Prop where
  dir : ∀ n, u.inDir n + u.outDir n = 1
  vec : ∀ n, u.inVec n + (if n < c.interpTime then u.outVec n else 0) = 1

/-- The vectors are those of the frame, in the order of their channels. -/
def VecsOf (c : Config) (s : Frame) (vs : List (Nat × (Nat → α))) : Prop :=
  vs.map Prod.fst = ((List.range c.extra).filter (fun ch => decide (s.ctype ch = 1))).map (· + 1)

end Verif.Hoa
