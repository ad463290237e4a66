/-!
# Bits of a byte string

The independent specification used for everything that reads or writes bit
streams: a byte string is the list of its bits, most significant bit of the first
byte first, and a list of bits denotes the natural number it spells in base two.
-/

namespace Verif

/-- The eight bits of a byte, most significant first. -/
def byteBits (b : UInt8) : List Bool :=
  [b.toNat.testBit 7, b.toNat.testBit 6, b.toNat.testBit 5, b.toNat.testBit 4,
   b.toNat.testBit 3, b.toNat.testBit 2, b.toNat.testBit 1, b.toNat.testBit 0]

/-- All bits of a byte string in stream order. -/
def bitsOf : List UInt8 → List Bool
  | [] => []
  | b :: bs => byteBits b ++ bitsOf bs

/-- The number spelled by a list of bits, most significant first. -/
def bitsVal (l : List Bool) : Nat :=
  l.foldl (fun acc b => 2 * acc + b.toNat) 0

/-- The `n` low bits of `v`, most significant first. -/
def natBits : Nat → Nat → List Bool
  | 0, _ => []
  | n + 1, v => v.testBit n :: natBits n v

end Verif
