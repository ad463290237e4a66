import Verif.Model.Huff

/-! # Scale factors

Model of `ia_core_coder_section_data` and `ia_core_coder_scale_factor_data` (ia_core_coder_spectrum_dec.c 87-111, 342-363 and
431-556), of `ia_core_coder_huffman_decode` (ia_core_coder_env_extr.c 64-127) and of `ia_core_coder_mpeghd_read_byte_corr1`
(ia_core_coder_bitbuffer.c 256-277).  These functions do not use the routines of the bit reader: they keep a word of 32 bits and
move it along the input themselves, so they are modelled on the bytes of the buffer.

`ptr_bit_buf_end` is the last byte of the buffer (ia_core_coder_decode_main.c 2423-2424).  Words are natural numbers below 2^32;
`read_word` is a `WORD32` in C, whose shift to the left wraps.  `factors` has room for 128 scale factors (`MAXBANDS`); the model delivers
one row for each window, of which there are 1 of at most 51 bands or 8 of at most 15. -/

namespace Verif.Scf

open Prog
open Huff (Code sclTable huffCodeword)

/-! ## The decoder of codewords -/

/-- `huffman_code_book_scl`, ia_core_coder_rom.c 111-122: the greatest length, then value and length of each codeword. -/
def book : List Nat := [
  0x0013, 0x0781, 0x0763, 0x07a4, 0x0744, 0x07c4, 0x0725, 0x07e5, 0x0706, 0x0806, 0x06e6,
  0x0826, 0x0847, 0x06c7, 0x0867, 0x06a8, 0x0888, 0x0688, 0x08a8, 0x0668, 0x08c9, 0x0649,
  0x0629, 0x08e9, 0x090a, 0x060a, 0x092a, 0x05ea, 0x094a, 0x05ca, 0x098b, 0x096b, 0x09ab,
  0x09cb, 0x05ab, 0x056b, 0x058c, 0x09ec, 0x054c, 0x052c, 0x0a0c, 0x050c, 0x0a2d, 0x04ed,
  0x0a4d, 0x04cd, 0x0a6d, 0x04ae, 0x046e, 0x0aae, 0x042e, 0x048e, 0x044e, 0x0a8e, 0x040e,
  0x0aef, 0x0b2f, 0x03cf, 0x03ef, 0x0ad0, 0x03b0, 0x0350, 0x0370, 0x0390, 0x0310, 0x0b10,
  0x0331, 0x02d1, 0x02f1, 0x0b52, 0x02b2, 0x0272, 0x0072, 0x0032, 0x0052, 0x0012, 0x0c53,
  0x0c73, 0x0c93, 0x0cb3, 0x0cd3, 0x0eb3, 0x0c33, 0x0b73, 0x0b93, 0x0bb3, 0x0bd3, 0x0bf3,
  0x0c13, 0x0d13, 0x0df3, 0x0e13, 0x0e33, 0x0e53, 0x0e73, 0x0e93, 0x0dd3, 0x0d33, 0x0d53,
  0x0d73, 0x0d93, 0x0db3, 0x0ed3, 0x00d3, 0x0113, 0x0133, 0x0153, 0x00b3, 0x0cf3, 0x0f13,
  0x0ef3, 0x0093, 0x00f3, 0x01f3, 0x0213, 0x0253, 0x0293, 0x0233, 0x0173, 0x0193, 0x01d3,
  0x01b3]

/-- `huffman_code_book_scl_index`, ia_core_coder_rom.c 125-129. -/
def index : List Nat := [
  0x00000000, 0x10100004, 0x2040000c, 0x00a0003b, 0x30d0007a, 0x412000fa, 0x516001f9,
  0x61c003f9, 0x722007f9, 0x82800ff9, 0x92d01ff8, 0xa3503ff9, 0xb400fff6, 0xc431fff0,
  0x0687ffef, 0x0707fff7, 0x0747fffb, 0x0767fffd, 0x0777fffe, 0x0787ffff, 0x0030000b,
  0x0060001b, 0x00f000f7, 0x014001f7, 0x01a003f7, 0x020007f7, 0x02600ff7, 0x02c01ff7,
  0x03303ff7, 0x03907ff7, 0x0421ffef, 0x14a3ffe8, 0x0587ffdf]

/-- An entry of a table. -/
def entry (t : List Nat) (i : Nat) : Res Nat :=
  match t[i]? with
  | some v => .ok v
  | none => .ub

/-- `ia_core_coder_cnt_leading_zeroes`, ia_core_coder_env_extr.c 64-77 (`VAL_2_POW_30` is 0x80000000): it counts ones.  The first
argument is the number of bits of the word not yet shifted out. -/
def leadingOnes : Nat → Nat → Nat
  | 0, _ => 0
  | n + 1, w => if w.testBit n then leadingOnes n w + 1 else 0

/-- The loop of ia_core_coder_env_extr.c 108-124.  Each round moves on in the table, so it ends after at most 33 rounds or leaves
the table; the first argument bounds the rounds. -/
def search (loc : Nat) : (fuel lead lenEnd : Nat) → Res (Nat × Nat)
  | 0, _, _ => .ub
  | fuel + 1, lead, lenEnd => do
    let e ← entry index lead
    let off := (e >>> 20) % 256
    let b ← entry book (off + 1)
    let length := b % 32
    let cw := e % 2 ^ 20
    if length = 0 then .ub
    else
      let loc1 := loc >>> (32 - length)
      if cw < loc1 then search loc fuel (lenEnd + (e >>> 28) % 16) (lenEnd + (e >>> 28) % 16)
      else if off < cw - loc1 then .ub
      else do
        let b ← entry book (off - (cw - loc1) + 1)
        .ok (b >>> 5, length)

/-- `ia_core_coder_huffman_decode`, ia_core_coder_env_extr.c 93-127, with the tables of the scale factors: the value and the length
of the codeword at the top of a word of 32 bits.  The mask keeps the first 19 bits. -/
def decodeWord (w : Nat) : Res (Nat × Nat) :=
  let loc := w / 2 ^ 13 * 2 ^ 13
  search loc 33 (leadingOnes 32 loc) 19

/-! ## The word moved along the input -/

/-- `read_word`, `bit_pos` and `ptr_read_next` of `ia_core_coder_section_data`. -/
structure Win where
  word : Nat
  pos : Nat
  ptr : Int
  deriving DecidableEq, Repr

/-- `ia_core_coder_mpeghd_showbits_32`, ia_core_coder_spectrum_dec.c 87-111: the word and the number of bytes read; the first argument
counts the rounds. -/
def show32 (buf : List UInt8) : (n : Nat) → (ptr cnt : Int) → (b inc : Nat) → Res (Nat × Nat)
  | 0, _, _, b, inc => .ok (b, inc)
  | n + 1, ptr, cnt, b, inc =>
    if 0 < cnt then do
      let v ← BitBuf.load buf ptr
      show32 buf n (ptr + 1) (cnt - 8) (b * 256 % 2 ^ 32 + v) (inc + 1)
    else show32 buf n ptr (cnt - 8) (b * 256 % 2 ^ 32) inc

/-- The loop of `ia_core_coder_mpeghd_read_byte_corr1`, ia_core_coder_bitbuffer.c 263-273: `n` rounds, as `bits_used` is at least `8 * n`.
The result is the word, the pointer and `bits_temp_count`. -/
def corr (buf : List UInt8) : (n : Nat) → (word : Nat) → (ptr : Int) → (extra : Nat) → Res (Nat × Int × Nat)
  | 0, word, ptr, extra => .ok (word, ptr, extra)
  | n + 1, word, ptr, extra =>
    if (buf.length : Int) - 1 < ptr then corr buf n word ptr (extra + 8)
    else do
      let v ← BitBuf.load buf ptr
      corr buf n (word * 256 % 2 ^ 32 + v) (ptr + 1) extra

/-- `ia_core_coder_mpeghd_read_byte_corr1`, ia_core_coder_bitbuffer.c 256-277. -/
def Win.corr (buf : List UInt8) (w : Win) : Res Win := do
  let (word, ptr, extra) ← Scf.corr buf (w.pos / 8) w.word w.ptr 0
  .ok ⟨word, w.pos % 8 + extra, ptr⟩

/-- One codeword, ia_core_coder_spectrum_dec.c 496-502.  A shift by 32 or more is undefined. -/
def Win.next (buf : List UInt8) (w : Win) : Res (Nat × Win) :=
  if w.pos < 32 then do
    let (i, len) ← decodeWord (w.word * 2 ^ w.pos % 2 ^ 32)
    let w ← Win.corr buf { w with pos := w.pos + len }
    .ok (i, w)
  else .ub

/-! ## Scale factors -/

/-- `IA_MPEGH_DEC_EXE_FATAL_INVALID_SF`, impeghd_error_codes.h 265. -/
def invalid : ErrCode := .other 0xFFFF9823

/-- `memset(&tbl[pos], v, n)`; outside the table it is undefined. -/
def fill {α : Type} (tbl : List α) (pos n : Nat) (v : α) : Res (List α) :=
  if pos + n ≤ tbl.length then .ok (tbl.take pos ++ List.replicate n v ++ tbl.drop (pos + n)) else .ub

/-- The loop of `ia_core_coder_scale_factor_data`, ia_core_coder_spectrum_dec.c 353-361, with `n` rounds: it ends when `win_len` rounds are
done, as `tot_sfb` is at most `win_len` times `sfb_per_sbk` (655-669). -/
def bookRows (maxSfb : Nat) : (n row : Nat) → List Nat → Res (List Nat)
  | 0, _, t => .ok t
  | n + 1, row, t => do
    let t ← fill t (16 * row) maxSfb 11
    bookRows maxSfb n (row + 1) t

/-- `ia_core_coder_scale_factor_data`, ia_core_coder_spectrum_dec.c 342-363: the codebook numbers, 11 (`ESC_HCB`) for the coded bands
and 0 (`ZERO_HCB`) for the others, 16 for each window; `wins` is `max_win_len`. -/
def codeBooks (wins maxSfb : Nat) : Res (List Nat) := bookRows maxSfb wins 0 (List.replicate 128 0)

/-- The bands of a group from band `b` on, ia_core_coder_spectrum_dec.c 470-529: `n` more, the codebook numbers of the group are at `base`.
Only the numbers 0 and 11 occur, so the cases `NOISE_HCB` and above (510-520) are left out.  `next` reads a codeword.  The sums are
of type `WORD16`.  The result is the scale factors and the new `factor`. -/
def row {σ : Type} (next : σ → Res (Nat × σ)) (books : List Nat) (base : Nat) (first : Bool) :
    (n b : Nat) → (factor : Int) → σ → Res (List Int × Int × σ)
  | 0, _, factor, s => .ok ([], factor, s)
  | n + 1, b, factor, s => do
    let cb ← entry books (base + b)
    if b = 0 ∧ first = true then
      if 255 < factor then .err invalid
      else do
        let (l, f, s) ← row next books base first n (b + 1) factor s
        .ok (factor :: l, f, s)
    else if cb = 0 then do
      let (l, f, s) ← row next books base first n (b + 1) factor s
      .ok (0 :: l, f, s)
    else do
      let (i, s) ← next s
      let x := toI16 (factor + ((i : Int) - 60))
      if 255 < x then .err invalid
      else do
        let (l, f, s) ← row next books base first n (b + 1) x s
        .ok (x :: l, f, s)

/-- The groups, ia_core_coder_spectrum_dec.c 465-541.  `ends` are the ends of the groups (`groups`); of the group that begins at window
`start` one row is read and stored for each of its windows. -/
def rows {σ : Type} (next : σ → Res (Nat × σ)) (books : List Nat) (bands wins : Nat) :
    (ends : List Nat) → (start : Nat) → (first : Bool) → (factor : Int) → σ → Res (List (List Int) × σ)
  | ends, start, first, factor, s =>
    if wins ≤ start then .ok ([], s)
    else match ends with
      | [] => .ub
      | e :: ends => do
        let (r, f, s) ← row next books (16 * start) first bands 0 factor s
        let (l, s) ← rows next books bands wins ends e false f s
        .ok (List.replicate (e - start) r ++ l, s)

/-- `ia_core_coder_section_data`, ia_core_coder_spectrum_dec.c 431-556, after `ia_core_coder_scale_factor_data` (671), on the bytes of the
buffer. -/
def sectionData (gain : Nat) (bands wins maxSfb : Nat) (ends : List Nat) (s : BitBuf) : Res (List (List Int) × BitBuf) := do
  let books ← codeBooks wins maxSfb
  let (word, inc) ← show32 s.buf 4 s.ptr s.cnt 0 0
  let (l, w) ← rows (Win.next s.buf) books bands wins ends 0 true gain ⟨word, (7 - s.bitPos).toNat, s.ptr + inc⟩
  let w ← Win.corr s.buf { w with ptr := w.ptr - inc }
  let bitPos : Int := 7 - w.pos
  .ok (l, { s with ptr := w.ptr, bitPos := bitPos, cnt := s.cnt - (8 * (w.ptr - s.ptr) + (s.bitPos - bitPos)) })

/-! ## The same, bit by bit

What `ia_core_coder_section_data` does where the codewords end within the input (`Props/Scf.lean`). -/

/-- A codeword. -/
def nextP : Prog Nat := do
  let v ← huffCodeword sclTable
  pure v.toNat

/-- `row`, bit by bit. -/
def rowP (books : List Nat) (base : Nat) (first : Bool) : (n b : Nat) → (factor : Int) → Prog (List Int × Int)
  | 0, _, factor => pure ([], factor)
  | n + 1, b, factor => do
    let cb ← lift (entry books (base + b))
    if b = 0 ∧ first = true then
      if 255 < factor then fail invalid
      else do
        let (l, f) ← rowP books base first n (b + 1) factor
        pure (factor :: l, f)
    else if cb = 0 then do
      let (l, f) ← rowP books base first n (b + 1) factor
      pure (0 :: l, f)
    else do
      let i ← nextP
      let x := toI16 (factor + ((i : Int) - 60))
      if 255 < x then fail invalid
      else do
        let (l, f) ← rowP books base first n (b + 1) x
        pure (x :: l, f)

/-- `rows`, bit by bit. -/
def rowsP (books : List Nat) (bands wins : Nat) :
    (ends : List Nat) → (start : Nat) → (first : Bool) → (factor : Int) → Prog (List (List Int))
  | ends, start, first, factor =>
    if wins ≤ start then pure []
    else match ends with
      | [] => undef
      | e :: ends => do
        let (r, f) ← rowP books (16 * start) first bands 0 factor
        let l ← rowsP books bands wins ends e false f
        pure (List.replicate (e - start) r ++ l)

/-- `sectionData`, bit by bit. -/
def sectionP (gain : Nat) (bands wins maxSfb : Nat) (ends : List Nat) : Prog (List (List Int)) := do
  let books ← lift (codeBooks wins maxSfb)
  rowsP books bands wins ends 0 true gain

end Verif.Scf
