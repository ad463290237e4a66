import Verif.Model.Loop
import Verif.Model.HuffTables

/-! # Variable-length codeword decoding

`ia_core_coder_huff_tools.c`, `impd_drc_dynamic_payload.c`, `impd_drc_extr_delta_coded_info.c` and
`impeghd_multichannel.c`. -/

namespace Verif.Huff

open Prog

/-- The loop of `ia_core_coder_huff_codeword`, ia_core_coder_huff_tools.c 128-141: the pointer is at the
head of the list, `len` bits with value `cw` have been read.  The tables used have codewords of at most
19 bits, so `code_word` never wraps; going past the end of the table is undefined. -/
def huffLoop (len cw : Nat) : List Code → Prog Int
  | [] => undef
  | e :: rest =>
    if cw = e.code then pure e.val
    else match rest with
      | [] => undef
      | e' :: rest' =>
        if e'.size < len then pure e'.val
        else do
          let b ← bits (e'.size - len)
          huffLoop e'.size (cw * 2 ^ (e'.size - len) + b) (e' :: rest')

/-- `ia_core_coder_huff_codeword`, ia_core_coder_huff_tools.c 116-143. -/
def huffCodeword : List Code → Prog Int
  | [] => undef
  | e :: rest => do
    let cw ← bits e.size
    huffLoop e.size cw (e :: rest)

/-- `for (size = 0; size < table[idx].size - num_bits_read; size++)` of `impd_drc_update_value`,
impd_drc_dynamic_payload.c 141-146.  The body increments `num_bits_read` too, so the distance `m` to the
bound shrinks by two in every round. -/
def readHalf : (m n code : Nat) → Prog (Nat × Nat)
  | 0, n, code => pure (n, code)
  | 1, n, code => do
    let b ← bits 1
    pure (n + 1, 2 * code + b)
  | m + 2, n, code => do
    let b ← bits 1
    readHalf m (n + 1) (2 * code + b)

/-- Outcome of the inner loop of `impd_drc_update_value`. -/
inductive Found where
  | value (v : Int)
  | more (tbl : List Code)
  | outside
  deriving DecidableEq, Repr

/-- `while (num_bits_read == table[idx].size)`, impd_drc_dynamic_payload.c 147-160; the list is the
table from `idx` on.  At `idx = no_entries` the condition reads past the table (the test of line 156
comes one entry too late). -/
def matchRun (n code : Nat) : List Code → Found
  | [] => .outside
  | e :: rest =>
    if n = e.size then (if code = e.code then .value e.val else matchRun n code rest)
    else .more (e :: rest)

/-- `while ((idx < no_entries) && (!code_found))` of `impd_drc_update_value`, impd_drc_dynamic_payload.c
131-165.  `fuel` counts the rounds: after 100000 the code gives up when it decodes a time (133-140);
otherwise it would go on forever, which counts as undefined here. -/
def updateLoop (updateTime : Bool) : (fuel n code : Nat) → List Code → Prog Int
  | 0, _, _, _ => if updateTime then fail .drcUnexpectedFatal else undef
  | _ + 1, _, _, [] => fail .drcUnexpected
  | fuel + 1, n, code, e :: rest => do
    let (n, code) ← readHalf (e.size - n) n code
    match matchRun n code (e :: rest) with
    | .value v => pure v
    | .outside => undef
    | .more tbl => updateLoop updateTime fuel n code tbl

/-- `impd_drc_update_value`, impd_drc_dynamic_payload.c 117-167.  When a time is decoded the search
starts at entry 1 (126-129). -/
def updateValue (table : List Code) (updateTime : Bool) : Prog Int :=
  updateLoop updateTime 100000 0 0 (if updateTime then table.drop 1 else table)

/-- `while ((1 << val) < 2 * num_gain_max_values) val++`, impd_drc_extr_delta_coded_info.c 113-116, from
`val` on for at most `fuel` rounds. -/
def timeBits (n : Nat) : (fuel val : Nat) → Nat
  | 0, val => val
  | fuel + 1, val => if 2 ^ val < 2 * n then timeBits n fuel (val + 1) else val

/-- `table[i] = e`; outside the array it is undefined. -/
def put (tbl : List Code) (i : Nat) (e : Code) : Res (List Code) :=
  if i < tbl.length then .ok (tbl.set i e) else .ub

/-- `for (n = k - 1; n >= 0; n--) table[n + off] = f n` -/
def putDown (f : Nat → Code) (off : Nat) : Nat → List Code → Res (List Code)
  | 0, tbl => .ok tbl
  | k + 1, tbl => do
    let tbl ← put tbl (k + off) (f k)
    putDown f off k tbl

/-- `impd_drc_create_delta_time_code_tbl`, impd_drc_extr_delta_coded_info.c 105-146, for the array `tbl`
of 526 entries.  Entry 0 gets size, code and value -1; it is never searched, and its size and code are
left at 0 here.  `val` is a `WORD8`; it is at most 31 for any `WORD32`. -/
def createTimeTable (tbl : List Code) (numGainMax : Nat) : Res (List Code) := do
  let val := timeBits numGainMax 31 1
  let tbl ← putDown (fun n => ⟨2 + val, 3 * 2 ^ val + n, n + 14⟩) 14 (2 * numGainMax + 1 - 14) tbl
  let tbl ← putDown (fun n => ⟨5, 0x10 + n, n + 6⟩) 6 8 tbl
  let tbl ← putDown (fun n => ⟨4, 0x4 + n, n + 2⟩) 2 4 tbl
  let tbl ← put tbl 1 ⟨2, 0, 1⟩
  put tbl 0 ⟨0, 0, -1⟩

/-- `while (delta_tmin <= lower_bound) delta_tmin = delta_tmin << 1` -/
def doubleUp (bound : Nat) : (fuel x : Nat) → Nat
  | 0, x => x
  | fuel + 1, x => if x ≤ bound then doubleUp bound fuel (2 * x) else x

/-- `impd_drc_get_delta_tmin`, impd_drc_extr_delta_coded_info.c 158-170.  `0.5f + 0.0005f * rate` is a
multiple of 0.0005 up to an error below 0.00001 and not smaller than an integer it should equal, so
truncating it is the same as in exact arithmetic. -/
def deltaTmin (rate : Nat) : Nat := doubleUp ((rate + 1000) / 2000) 31 1

/-- `N_DELTA_TIME_CODE_TABLE_ENTRIES_MAX`, impd_drc_common.h 102. -/
def timeEntries : Nat := 526

/-- `impd_drc_init_bitstream_dec`, impd_drc_init.c 156-191: the checks and the delta-time table.  The
comparison with `0.001f * sample_rate` is done in exact arithmetic. -/
def initTimeTable (tbl : List Code) (rate frame : Nat) : Res (List Code) :=
  if rate < 1000 then .err .initFatal
  else if frame < 1 ∨ frame > 1024 ∨ 1000 * frame < rate then .err .initFatal
  else if deltaTmin rate > frame then .err .initFatal
  else createTimeTable tbl (frame / deltaTmin rate)

/-- `impeghd_mc_decode_huffman`, impeghd_multichannel.c 206-251: every entry is compared with the next
`size` bits, or with what is left of the payload if that is less; the position is restored after a
mismatch.  -1 if no entry matches. -/
def mcDecode : List Code → Prog Int
  | [] => pure (-1)
  | e :: rest => do
    let a ← avail
    let n := min a.toNat e.size
    let v ← look n
    if v = e.code then do
      drop n
      pure e.val
    else mcDecode rest

end Verif.Huff
