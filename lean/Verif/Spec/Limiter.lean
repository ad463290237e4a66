import Mathlib.Algebra.Order.Field.Rat

/-! # What a look-ahead limiter does

Signals are lists of instants, an instant is the list of its channel samples. -/

namespace Verif.LimiterSpec

/-- The largest magnitude of a list of numbers, 0 if it is empty. -/
def peak (l : List Rat) : Rat := l.foldr (fun v m => max |v| m) 0

/-- The last `n` instants of a signal preceded by silence, oldest first. -/
def lastN {α : Type} (n : Nat) (silence : α) (l : List α) : List α :=
  (List.replicate n silence ++ l).drop l.length

/-- The signal delayed by `n` instants, cut to its original length. -/
def delay {α : Type} (n : Nat) (silence : α) (l : List α) : List α :=
  (List.replicate n silence ++ l).take l.length

end Verif.LimiterSpec
