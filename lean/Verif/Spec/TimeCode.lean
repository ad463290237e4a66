import Mathlib.Data.Nat.Log
import Verif.Spec.Bits

/-! # The code for time differences between DRC gain values

ISO/IEC 23003-4, coding of the time difference in units of the smallest one. -/

namespace Verif.TimeCode

/-- The codeword of the difference `d` when a frame has at most `n` gain values. -/
def timeWord (n d : Nat) : List Bool :=
  if d = 1 then [false, false]
  else if d ≤ 5 then [false, true] ++ natBits 2 (d - 2)
  else if d ≤ 13 then [true, false] ++ natBits 3 (d - 6)
  else [true, true] ++ natBits (Nat.clog 2 (2 * n)) (d - 14)

end Verif.TimeCode
