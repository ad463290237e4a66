import Verif.Prelude

/-!
# The bit writer: `ia_core_coder_bitbuffer.c` 292-412

Simplifications: `ptr_write_next` is an offset from `ptr_bit_buf_base`; a store outside the
caller's bytes is `ub`; the fields `read_position`, `ptr_read_next`, `size` that the writer
never looks at are dropped. `num_of_bits` (a `UWORD8`) is a natural number; counts above 32
shift by a negative amount and are `ub`.
-/

namespace Verif

/-- `ia_write_bit_buf_struct`, ia_core_coder_bitbuffer.h 82-94. -/
structure WBuf where
  /-- the bytes from `ptr_bit_buf_base` to `ptr_bit_buf_end` -/
  buf : List UInt8
  /-- `ptr_write_next - ptr_bit_buf_base` -/
  ptr : Int
  /-- `write_position` -/
  pos : Int
  /-- `cnt_bits` -/
  cnt : Nat
  deriving DecidableEq, Repr

namespace WBuf

/-- `impeghd_create_write_bit_buffer` with `init = 1`, ia_core_coder_bitbuffer.c 292-310. -/
def create (buf : List UInt8) : WBuf := { buf := buf, ptr := 0, pos := 7, cnt := 0 }

/-- Read-modify-write of one byte: `*p &= ~(((1 << b) - 1) << sh)` and
`*p |= (UWORD8)(val << (32 - n) >> (32 - b) << sh)`, ia_core_coder_bitbuffer.c 347-350. -/
def mergeByte (old : Nat) (val n b sh : Nat) : Nat :=
  let mask := ((1 <<< b) - 1) <<< sh
  let cleared := old &&& (255 ^^^ (mask % 256))
  let field := (((val <<< (32 - n)) % 2 ^ 32) >>> (32 - b)) <<< sh
  cleared ||| (field % 256)

/-- The `while (num_of_bits)` loop, ia_core_coder_bitbuffer.c 343-363. A step that writes no bits would
loop for ever; it is `ub`. -/
def writeLoop (buf : List UInt8) (ptr pos : Int) (val n : Nat) : Res (List UInt8 × Int × Int) :=
  if n = 0 then .ok (buf, ptr, pos)
  else
    let b : Int := min (pos + 1) (n : Int)
    if _hb : b ≤ 0 then .ub
    else if ptr < 0 then .ub
    else
      match buf[ptr.toNat]? with
      | none => .ub
      | some old =>
        let sh := (pos + 1 - b).toNat
        let byte := UInt8.ofNat (mergeByte old.toNat val n b.toNat sh)
        let buf' := buf.set ptr.toNat byte
        let pos' := pos - b
        let n' := n - b.toNat
        if pos' < 0 then
          let ptr' := if ptr + 1 > (buf.length : Int) - 1 then 0 else ptr + 1
          writeLoop buf' ptr' (pos' + 8) val n'
        else writeLoop buf' ptr pos' val n'
termination_by n
decreasing_by all_goals omega

/-- `impeghd_write_bits_buf`, ia_core_coder_bitbuffer.c 324-369. Returns the number of bits written. -/
def write (s : WBuf) (val n : Nat) : Res (Nat × WBuf) :=
  if n > 32 then .ub
  else do
    let (buf, ptr, pos) ← writeLoop s.buf s.ptr s.pos val n
    .ok (n, { buf := buf, ptr := ptr, pos := pos, cnt := s.cnt + n })

/-- `(1 << no_bits) - 1` on an `int`; undefined from 31 bits on. -/
def escMax (b : Nat) : Res Nat := if b ≤ 30 then .ok (2 ^ b - 1) else .ub

/-- `impeghd_write_escape_value`, ia_core_coder_bitbuffer.c 385-412. -/
def writeEscape (s : WBuf) (value b1 b2 b3 : Nat) : Res (Nat × WBuf) := do
  let max1 ← escMax b1
  let esc1 := min value max1
  let (c1, s) ← s.write esc1 b1
  if esc1 = max1 then do
    let value := value - esc1
    let max2 ← escMax b2
    let esc2 := min value max2
    let (c2, s) ← s.write esc2 b2
    if esc2 = max2 then do
      let value := value - esc2
      let max3 ← escMax b3
      let esc3 := min value max3
      let (c3, s) ← s.write esc3 b3
      .ok (c1 + c2 + c3, s)
    else .ok (c1 + c2, s)
  else .ok (c1, s)

end WBuf
end Verif
