import Verif.Spec.LpdFrame

/-! # What excitations are coded -/

namespace Verif.Acelp

/-- The pulses on track `t`, every fourth position. -/
def count (v : Nat → Int) (t : Nat) : Nat := ((List.range 16).map fun p => (v (4 * p + t)).natAbs).sum

/-- What is left of `n` pulses on a track.  Of three or four, opposite pulses at one place may cancel each other. -/
def Left : Nat → Nat → Prop
  | 1, c => c = 1
  | 2, c => c = 2
  | 3, c => c = 1 ∨ c = 3
  | 4, c => c = 0 ∨ c = 2 ∨ c = 4
  | _, _ => False

/-- The numbers of pulses on the tracks for each mode. -/
def onTracks (c : Nat → Nat) : Nat → Prop
  | 0 => Left 1 (c 0) ∧ Left 1 (c 1) ∧ Left 1 (c 2) ∧ Left 1 (c 3)
  | 1 => Left 2 (c 0) ∧ Left 2 (c 1) ∧ Left 1 (c 2) ∧ Left 1 (c 3)
  | 2 => Left 2 (c 0) ∧ Left 2 (c 1) ∧ Left 2 (c 2) ∧ Left 2 (c 3)
  | 3 => Left 3 (c 0) ∧ Left 3 (c 1) ∧ Left 2 (c 2) ∧ Left 2 (c 3)
  | 4 => Left 3 (c 0) ∧ Left 3 (c 1) ∧ Left 3 (c 2) ∧ Left 3 (c 3)
  | 5 => Left 4 (c 0) ∧ Left 4 (c 1) ∧ Left 4 (c 2) ∧ Left 4 (c 3)
  | 6 => (c 0 = 1 ∧ c 2 = 0 ∨ c 0 = 0 ∧ c 2 = 1) ∧ (c 1 = 1 ∧ c 3 = 0 ∨ c 1 = 0 ∧ c 3 = 1)
  | 7 => c 0 = 1 ∧ c 2 = 1 ∧ (c 1 = 0 ∧ c 3 = 1 ∨ c 1 = 1 ∧ c 3 = 0)
  | _ => False

/-- Fields within the widths that are parsed. -/
def Fits (core : Nat) (cb : Nat → Nat) : Prop := ∀ i < (Lpd.pulseWidths core).length, cb i < 2 ^ (Lpd.pulseWidths core).getD i 0

end Verif.Acelp
