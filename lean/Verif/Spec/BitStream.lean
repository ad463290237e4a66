import Verif.Spec.Bits
import Verif.Model.BitBuf

/-!
# What a bit buffer denotes

A bit buffer that is in good order denotes the list of bits that remain to be read.
-/

namespace Verif.BitBuf

/-- Number of bits of the underlying bytes that lie before the read position. -/
def pos (s : BitBuf) : Int := 8 * s.ptr + 7 - s.bitPos

/-- The buffer is in good order: the bit index is that of a byte, and the bits that are
announced as available really are inside the caller's bytes. -/
structure WF (s : BitBuf) : Prop where
  ptr_nonneg : 0 ≤ s.ptr
  bit_lo : 0 ≤ s.bitPos
  bit_hi : s.bitPos ≤ 7
  cnt_nonneg : 0 ≤ s.cnt
  inside : s.pos + s.cnt ≤ 8 * s.buf.length

/-- The bits that remain to be read. -/
def rest (s : BitBuf) : List Bool :=
  ((bitsOf s.buf).drop s.pos.toNat).take s.cnt.toNat

end Verif.BitBuf
