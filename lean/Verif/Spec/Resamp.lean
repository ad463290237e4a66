import Verif.Model.Resamp

/-!
# Resampled signals

What the resampler does to a signal without beginning or end, whatever the frames; what the filter of a signal with held samples is.
-/

namespace Verif.Resamp

/-- The part of the taps `k`, `k + up`, ... with their newest sample at `n`. -/
def Part (up : Nat) (X : Int → ℚ) (n : Int) (k : Nat) : ℚ := ((List.range (60 / up)).map (fun m : Nat => X (n - (59 / up : Nat) + m) * tap up (up * m + k))).sum

/-- The signal between the two filters, at its own rate: sample `s` takes taps up to its place within the group at the newest sample, and the others at the one before. -/
def Middle (up : Nat) (X : Int → ℚ) (s : Int) : ℚ :=
  ((List.range up).map (fun k : Nat => Part up X (if (k : Int) ≤ s % up then s / up else s / up - 1) k)).sum

/-- The second filter keeps every second sample. -/
def Half (Z : Int → ℚ) (i : Int) : ℚ := ((List.range 60).map (fun m : Nat => Z (2 * i - 59 + m) * tap 2 m)).sum

/-- The output of the resampler for a signal. -/
def Out (up down : Nat) (X : Int → ℚ) : Int → ℚ := if down = 2 then Half (Middle up X) else Middle up X

/-- The signal with each sample repeated `up` times. -/
def Held (up : Nat) (X : Int → ℚ) (s : Int) : ℚ := X (s / up)

/-- A signal filtered with the taps of the table; the newest sample used is `d` samples before `s`. -/
def Filter (up : Nat) (U : Int → ℚ) (d s : Int) : ℚ := ((List.range 60).map (fun i : Nat => U (s - d - 59 + i) * tap up i)).sum

/-- The state of a channel after the samples before `t` of a signal. -/
structure Follows (up down : Nat) (st : State) (X : Int → ℚ) (t : Int) : Prop where
  input : ∀ j : Nat, j < 59 / up → st.input j = X (t - (59 / up : Nat) + j)
  mem : ∀ k : Nat, k + 1 < up → st.mem k = Part up X (t - 1) (k + 1)
  middle : down = 2 → ∀ j : Nat, j < 59 → st.middle j = Middle up X (t * up - 59 + j)

end Verif.Resamp
