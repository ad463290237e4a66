import Verif.Model.Ltpf

/-!
# Filtered signals

What a long term post filter does to a signal without a beginning or an end, and how a state follows two signals.
-/

namespace Verif.Ltpf

/-- At `t` the output `Y` is the input `X` with the difference of the filters of the output around the lag and of the last inputs, weighted with `a`. -/
def Filtered (q : Par) (a : ℚ) (X Y : Int → ℚ) (t : Int) : Prop :=
  Y t = X t + a * (q.gain * ((List.range 8).map (fun k : Nat => Y (t - q.lag - 4 + k) * taps1 q.fr k)).sum -
    19 / 20 * q.gain * ((List.range 7).map (fun k : Nat => X (t - k) * taps2 q.idx k)).sum)

/-- What a frame of `len` samples at `t` does: the first half is filtered as in the frame before, the last three eighths as said in the frame, and in between the filter stays the same, is
faded in, is faded out, or has something taken off that does not depend on the samples from there on. -/
def Step (len : Nat) (old q : Par) (X Y : Int → ℚ) (t : Int) : Prop :=
  (∀ n : Nat, n < len / 2 → Filtered old 1 X Y (t + n)) ∧
  (∀ n : Nat, len / 2 + len / 8 ≤ n → n < len → Filtered q 1 X Y (t + n)) ∧
  ∀ n : Nat, n < len / 8 →
    ((q.gain = old.gain ∧ q.lag = old.lag ∧ q.fr = old.fr) → Filtered q 1 X Y (t + (len / 2 : Nat) + n)) ∧
    (old.gain = 0 → q.gain ≠ 0 → Filtered q ((n : ℚ) / (len / 8 : Nat)) X Y (t + (len / 2 : Nat) + n)) ∧
    (old.gain ≠ 0 → q.gain = 0 → Filtered old (1 - (n : ℚ) / (len / 8 : Nat)) X Y (t + (len / 2 : Nat) + n))

/-- The state has the last 6 samples of the input and the last `pm + 4` samples of the output before `t`. -/
structure Follows (pm : Int) (st : State) (X Y : Int → ℚ) (t : Int) : Prop where
  input : ∀ j : Nat, j < 6 → st.input j = X (t - 6 + j)
  output : ∀ j : Nat, (j : Int) < pm + 4 → st.output j = Y (t - (pm + 4) + j)

/-- A filter that is off, or with a lag that the samples kept allow. -/
def Fits (pm : Int) (q : Par) : Prop := q.gain = 0 ∨ (4 ≤ q.lag ∧ q.lag ≤ pm)

end Verif.Ltpf
