import Verif.Prelude

/-!
# The bit reader: `ia_core_coder_bitbuffer.c`

Model of `/repo/decoder/ia_core_coder_bitbuffer.c` lines 64-243 and
`/repo/decoder/ia_core_coder_common_initfuncs.c` lines 86-121.

Simplifications: the fields `size`, `max_size`, `bit_count`, `valid_bits`, ... of
`ia_bit_buf_struct` that the modelled routines do not use are dropped; `ptr_read_next` is
an offset from `ptr_bit_buf_base` and dereferencing it outside the caller's bytes is `ub`;
the narrowing store `(WORD16)bit_position` is the identity on the values that occur (0..7).
`num_of_bits` of read/show is a natural number (every caller passes a non-negative count).
-/

namespace Verif

/-- `ia_bit_buf_struct`, `/repo/decoder/ia_core_coder_bitbuffer.h` lines 40-60. -/
structure BitBuf where
  /-- the bytes of the caller's buffer, from `ptr_bit_buf_base` on -/
  buf : List UInt8
  /-- `ptr_read_next - ptr_bit_buf_base` -/
  ptr : Int
  /-- `bit_pos` -/
  bitPos : Int
  /-- `cnt_bits` -/
  cnt : Int
  deriving DecidableEq, Repr

namespace BitBuf

/-- `*p` for `p = base + i`; outside the buffer it is undefined behaviour. -/
def load (buf : List UInt8) (i : Int) : Res Nat :=
  if 0 ≤ i then
    match buf[i.toNat]? with
    | some b => .ok b.toNat
    | none => .ub
  else .ub

/-- `ia_core_coder_create_init_bit_buf`, ia_core_coder_common_initfuncs.c 116-121. -/
def create (buf : List UInt8) : BitBuf :=
  { buf := buf, ptr := 0, bitPos := 7, cnt := 8 * buf.length }

/-- `return_val <<= 8` on a `UWORD32`. -/
def shl8 (v : Nat) : Nat := (v <<< 8) % 2 ^ 32

/-- The `while (bit_position < -1)` loop, ia_core_coder_bitbuffer.c 174-182 (read), 121-128 (show),
223-231 (32 bit read). Returns the pointer, bit position and accumulated word. -/
def readLoop (buf : List UInt8) (ptr bp : Int) (rv : Nat) : Res (Int × Int × Nat) :=
  if bp < -1 then do
    let b ← load buf (ptr + 1)
    readLoop buf (ptr + 1) (bp + 8) (shl8 rv ||| b)
  else .ok (ptr, bp, rv)
termination_by (-1 - bp).toNat
decreasing_by omega

/-- `return_val << ((31 - num_of_bits) - bit_position) >> (32 - num_of_bits)`,
ia_core_coder_bitbuffer.c 192 and 137; shift counts outside 0..31 are undefined. -/
def extract (rv : Nat) (n : Nat) (bp : Int) : Res Nat :=
  let s1 : Int := (31 - (n : Int)) - bp
  let s2 : Int := 32 - (n : Int)
  if 0 ≤ s1 ∧ s1 ≤ 31 ∧ 0 ≤ s2 ∧ s2 ≤ 31 then
    .ok (((rv <<< s1.toNat) % 2 ^ 32) >>> s2.toNat)
  else .ub

/-- Common part of read and show: value and final pointer/bit position. -/
def fetch (s : BitBuf) (n : Nat) : Res (Nat × Int × Int) := do
  let b0 ← load s.buf s.ptr
  let (ptr, bp, rv) ← readLoop s.buf s.ptr (s.bitPos - n) b0
  if bp = -1 then do
    let v ← extract (shl8 rv) n (bp + 8)
    .ok (v, ptr + 1, bp + 8)
  else do
    let v ← extract rv n bp
    .ok (v, ptr, bp)

/-- `ia_core_coder_read_bits_buf`, ia_core_coder_bitbuffer.c 153-195. -/
def read (s : BitBuf) (n : Nat) : Res (Nat × BitBuf) :=
  if n = 0 then .ok (0, s)
  else if s.cnt < n ∨ s.cnt < 0 then .jump
  else do
    let (v, ptr, bp) ← fetch s n
    .ok (v, { s with ptr := ptr, bitPos := bp, cnt := s.cnt - n })

/-- `ia_core_coder_show_bits_buf`, ia_core_coder_bitbuffer.c 102-140. -/
def peek (s : BitBuf) (n : Nat) : Res Nat :=
  if n = 0 then .ok 0
  else if s.cnt < n ∨ s.cnt < 0 then .jump
  else do
    let (v, _, _) ← fetch s n
    .ok v

/-- `ia_core_coder_skip_bits_buf`, ia_core_coder_bitbuffer.c 64-89. `%` on a possibly negative count is
the truncating C remainder, `>> 3` the arithmetic shift. -/
def skip (s : BitBuf) (n : Int) : Res BitBuf :=
  if s.cnt < n ∨ s.cnt < 0 then .jump
  else
    let bp := s.bitPos - n.tmod 8
    let ptr := s.ptr + n / 8
    let cnt := s.cnt - n
    let (ptr, bp) := if bp < 0 then (ptr + 1, bp + 8) else (ptr, bp)
    if bp > 7 then .jump
    else .ok { s with ptr := ptr, bitPos := bp, cnt := cnt }

/-- `ia_core_coder_read_bits_buf_32`, ia_core_coder_bitbuffer.c 206-243: no final shift. -/
def read32 (s : BitBuf) : Res (Nat × BitBuf) :=
  if s.cnt < 32 ∨ s.cnt < 0 then .jump
  else do
    let b0 ← load s.buf s.ptr
    let (ptr, bp, rv) ← readLoop s.buf s.ptr (s.bitPos - 32) b0
    if bp = -1 then
      .ok (rv, { s with ptr := ptr + 1, bitPos := bp + 8, cnt := s.cnt - 32 })
    else
      .ok (rv, { s with ptr := ptr, bitPos := bp, cnt := s.cnt - 32 })

end BitBuf
end Verif
