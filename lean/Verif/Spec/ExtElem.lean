import Verif.Spec.Bits

/-! # Extension payloads in an access unit

How the standard codes an extension element that is not cut into fragments: a present flag, the flag for
the default length, the length in bytes, the start and stop flags when fragments are enabled, the
bytes. -/

namespace Verif.ExtElem

/-- The coded length: 8 bits, or 255 and 16 bits counting from 253. -/
def lenBits (n : Nat) : List Bool :=
  if n < 255 then natBits 8 n else natBits 8 255 ++ natBits 16 (n - 253)

/-- A byte string that fits the decoder's buffer of 1536 bytes. -/
def Payload (bytes : List Nat) : Prop :=
  bytes ≠ [] ∧ bytes.length ≤ 1536 ∧ ∀ b ∈ bytes, b < 256

/-- An extension element with the payload `bytes`, or one that is absent. -/
def extBits (frag : Bool) : Option (List Nat) → List Bool
  | none => [false]
  | some bytes => [true, false] ++ lenBits bytes.length ++ (if frag then [true, true] else []) ++
      bytes.flatMap (natBits 8)

end Verif.ExtElem
