import Verif.Model.Loop

/-!
# The decoder API: `impeghd_api.c`

Configuration handling (132-322), creation and deletion (335-444, 499-581, 1130-1143), and the part of
`ia_mpegh_dec_execute` / `ia_core_coder_dec_execute` (992-1118, 1356-1451) that decides error
codes and byte counts. The decoding proper (`ia_core_coder_dec_main`) is an arbitrary outcome.
-/

namespace Verif.Api

/-! ## Configuration -/

/-- The part of `ia_input_config` (`impeghd_memory_standards.h` 60-101) read by
`impeghd_set_config_params`. `pcmWdSz` is a `UWORD32`, `preset` a `WORD8`, the others `WORD32`. -/
structure InCfg where
  pcmWdSz : Nat := 16
  effect : Int := 0
  loudSet : Int := 0
  loud : Int := 0
  mhas : Int := 1
  cicp : Int := 0
  preset : Int := -1
  enableResamp : Int := 0
  outFs : Nat := 48000
  deriving DecidableEq, Repr

/-- The part of `ia_mpegh_dec_config_struct` (`ia_core_coder_struct_def.h` 68-108) concerned. -/
structure Cfg where
  pcmWdSz : Nat := 0
  effect : Int := 0
  loud : Int := 0
  loudIsSet : Int := 0
  drcApply : Int := 0
  loudNorm : Int := 0
  mhas : Int := 0
  cicp : Int := 0
  preset : Int := 0
  resample : Int := 0
  frameLen : Int := 0
  facUp : Int := 0
  facDown : Int := 0
  outFs : Nat := 0
  streamFs : Int := 0
  nChannels : Nat := 0
  deriving DecidableEq, Repr

/-- `impeghd_set_default_config`, impeghd_api.c 220-237, on a zeroed structure. -/
def defaultCfg : Cfg :=
  { pcmWdSz := 16, effect := 0, loud := -24, drcApply := 0, loudNorm := 0, cicp := 0, preset := -1,
    resample := 0, frameLen := 1024, facDown := 1, facUp := 1, outFs := 48000, streamFs := 48000,
    nChannels := 2 }

/-- Configuration errors `IA_MPEGH_DEC_CONFIG_NONFATAL_*`. -/
def errCicp : ErrCode := .other 10
def errPreset : ErrCode := .other 11
def errPcm : ErrCode := .other 12
def errEffect : ErrCode := .other 13
def errLoud : ErrCode := .other 14

/-- `impeghd_set_config_params`, impeghd_api.c 250-322: the configuration it leaves and the error
it returns. `x >> 2` is the arithmetic shift. -/
def setConfig (c : Cfg) (i : InCfg) : Cfg × Option ErrCode :=
  let c := if i.mhas = 1 then { c with mhas := i.mhas } else c
  if i.cicp ≠ 0 ∧ ¬ i.cicp < 20 then (c, some errCicp)
  else
    let c := if i.cicp ≠ 0 ∧ i.cicp < 20 then { c with cicp := i.cicp } else c
    if i.preset ≠ -1 ∧ ¬ i.preset < 32 then (c, some errPreset)
    else
      let c := if i.preset ≠ -1 ∧ i.preset < 32 then { c with preset := i.preset } else c
      if i.pcmWdSz ≠ 16 ∧ i.pcmWdSz ≠ 24 ∧ i.pcmWdSz ≠ 32 then
        ({ c with pcmWdSz := 16 }, some errPcm)
      else
        let c := { c with pcmWdSz := i.pcmWdSz }
        let c := if i.enableResamp ≠ 0 then { c with resample := 1, outFs := i.outFs } else c
        if i.effect ≠ 0 ∧ (i.effect > 8 ∨ i.effect < 0) then
          ({ c with effect := 0, drcApply := 1 }, some errEffect)
        else
          let c := if i.effect ≠ 0 then { c with effect := i.effect } else c
          if i.loudSet = 1 then
            let c := if i.loud ≥ 0 then { c with loudNorm := 1, drcApply := 1 } else c
            let l := -(i.loud / 4)
            if l > 0 ∨ l < -63 then ({ c with loud := 0, drcApply := 0 }, some errLoud)
            else ({ c with loud := l, loudIsSet := 1 }, none)
          else (c, none)

/-- The factors set by one `case` of the switch: required output rate, `fac_down`, `fac_up`. -/
def ratioCase (streamFs : Int) : Option (Nat × Int × Int) :=
  if streamFs = 48000 then some (48000, 1, 1)
  else if streamFs = 44100 then some (44100, 1, 1)
  else if streamFs = 32000 then some (48000, 2, 3)
  else if streamFs = 29400 then some (44100, 2, 3)
  else if streamFs = 24000 then some (48000, 1, 2)
  else if streamFs = 22050 then some (44100, 1, 2)
  else if streamFs = 16000 then some (48000, 1, 3)
  else if streamFs = 14700 then some (44100, 1, 3)
  else none

/-- `impeghd_resampler_get_sampling_ratio`, impeghd_api.c 132-208; a rate that is not listed falls
through the switch. Division by a zero `fac_down` is `ub`. -/
def samplingRatio (c : Cfg) : Res (Cfg × Option ErrCode) :=
  let c := { c with frameLen := 1024, resample := 1 }
  match ratioCase c.streamFs with
  | some (fs, down, up) =>
    if c.outFs ≠ fs then .ok (c, some .resampleRatio)
    else
      let c := { c with facDown := down, facUp := up }
      let c := if down = 1 ∧ up = 1 then { c with resample := 0 } else c
      .ok ({ c with frameLen := (1024 * c.facUp).tdiv c.facDown }, none)
  | none =>
    if c.facDown = 0 then .ub
    else .ok ({ c with frameLen := (1024 * c.facUp).tdiv c.facDown }, none)

/-! ## Creation and deletion -/

/-- What the application can observe of the memory handling. A `write` names the start of the block
it was derived from, the offset and the length. -/
inductive Ev where
  | alloc (res : Option Nat) (size align : Nat)
  | write (block off len : Nat)
  | free (addr : Nat)
  deriving DecidableEq, Repr

/-- `malloc_count`, `arr_alloc_memory[100]` of `ia_output_config`, the number of allocator calls
made and the events so far. -/
structure Out where
  count : Nat := 0
  arr : List (Option Nat) := List.replicate 100 none
  calls : Nat := 0
  ev : List Ev := []
  deriving Repr

/-- An application allocator: address (or `NULL`) returned by its `n`-th call. -/
abbrev Allocator := Nat → Option Nat

/-- `arr[malloc_count] = malloc_mpegh(size, align)`; returns the pointer stored. -/
def Out.alloc (al : Allocator) (o : Out) (size align : Nat) : Res (Out × Option Nat) :=
  if o.count < o.arr.length then
    let p := al o.calls
    .ok ({ o with arr := o.arr.set o.count p, calls := o.calls + 1,
                  ev := o.ev ++ [.alloc p size align] }, p)
  else .ub

def Out.write (o : Out) (block off len : Nat) : Out := { o with ev := o.ev ++ [.write block off len] }

/-- Sizes taken from `sizeof`: the API object, one memory table entry with its pointer, and the four
memory tables (persistent, scratch, input, output). The proofs hold for all sizes. -/
structure Sizes where
  api : Nat
  tabs : Nat
  mem : List Nat

/-- One turn of the loop of `impeghd_alloc_and_assign_mem`, 341-393: allocate, clear the block, step
to an aligned address, clear again. All alignments are 8 (407-444). -/
def memTab (al : Allocator) (o : Out) (size : Nat) : Res (Out × Option ErrCode) := do
  let (o, p) ← o.alloc al size 8
  match p with
  | none => .ok (o, some .fatalMemAlloc)
  | some a =>
    let o := o.write a 0 size
    let o := o.write a (8 - a % 8) size
    .ok ({ o with count := o.count + 1 }, none)

/-- The loop over the memory tables. -/
def memTabs (al : Allocator) : List Nat → Out → Res (Out × Option ErrCode)
  | [], o => .ok (o, none)
  | s :: ss, o => do
    let (o, e) ← memTab al o s
    match e with
    | some e => .ok (o, some e)
    | none => memTabs al ss o

/-- `ia_mpegh_dec_create`, impeghd_api.c 499-581. Returns the application's structure, the
configuration and the error code. -/
def create (al : Allocator) (sz : Sizes) (i : InCfg) (o : Out) : Res (Out × Cfg × Option ErrCode) := do
  let (o, p) ← o.alloc al sz.api 4
  match p with
  | none => .ok (o, {}, some .fatalMemAlloc)
  | some a =>
    let o := o.write a 0 sz.api
    let o := { o with count := o.count + 1 }
    let o := o.write a (4 - a % 4) sz.api
    -- the error of `impeghd_set_config_params` is stored in `err_code` ...
    let (c, _err) := setConfig defaultCfg i
    let (o, q) ← o.alloc al sz.tabs 4
    match q with
    | none => .ok (o, c, some .fatalMemAlloc)
    | some b =>
      let o := o.write b 0 sz.tabs
      let o := o.write b (4 - b % 4) sz.tabs
      let o := { o with count := o.count + 1 }
      -- ... and overwritten here
      let (o, err) ← memTabs al sz.mem o
      .ok (o, c, err)

/-- `for (idx = malloc_count - 1; idx >= 0; idx--) if (arr[idx]) free(arr[idx]);` with `k = idx+1`. -/
def deleteLoop (arr : List (Option Nat)) : Nat → Res (List Ev)
  | 0 => .ok []
  | k + 1 =>
    match arr[k]? with
    | none => .ub
    | some none => deleteLoop arr k
    | some (some a) => do
      let r ← deleteLoop arr k
      .ok (.free a :: r)

/-- `ia_mpegh_dec_delete`, impeghd_api.c 1130-1143. -/
def delete (o : Out) : Res Out := do
  let fs ← deleteLoop o.arr o.count
  .ok { o with ev := o.ev ++ fs }

/-! ## Decode calls -/

/-- What `ia_core_coder_dec_main` can do, as far as the byte counts are concerned: leave by
`longjmp`, or return with an error code (or none), having set the bit buffer up for this call
(`ia_core_coder_decode_main.c` 2419-2428) or not (the returns before that, 2406-2415), with the given bit count and
flush flag; `headerBytes` is what a flush stores in `i_bytes_consumed`.  `outBytes` is the number of
bytes written, or, with an error, what `ui_out_bytes` then holds (the code before may have stored another
count there, ia_core_coder_process.c 625, 761, ia_core_coder_decode_main.c 1530, or left the one of the last frame). -/
inductive Inner where
  | jump
  /-- not called at all: too many output channels, impeghd_api.c 1411-1412 -/
  | tooMany (outBytes : Int)
  | ret (err : Option ErrCode) (fresh : Bool) (cnt : Int) (flush : Bool) (headerBytes : Int)
      (outBytes : Int)
  deriving DecidableEq, Repr

/-- The state a decode call works on. `σ` stands for everything else in the decoder. -/
structure Dec (σ : Type) where
  initDone : Bool
  /-- `i_bytes_consumed` of the decoder state -/
  consumed : Int
  /-- `i_bytes_consumed`, `num_out_bytes` of the application's structure -/
  appConsumed : Int
  appOutBytes : Int
  /-- `dec_bit_buf.size`, `dec_bit_buf.cnt_bits` -/
  size : Int
  cnt : Int
  outBytes : Int
  rest : σ

/-- The byte count of impeghd_api.c 1419-1427 and 1435-1443. -/
def consumedBytes (size cnt : Int) : Int :=
  if size ≠ 0 ∧ cnt ≥ 0 then (size - cnt + 7) / 8 else 1

/-- `ia_core_coder_dec_execute`, impeghd_api.c 1356-1451; `n` is `ui_in_bytes`. The `rest` of the
state after the call is an arbitrary `r`. -/
def coreExecute {σ : Type} (d : Dec σ) (n : Nat) (inner : Inner) (r : σ) :
    Dec σ × Option ErrCode :=
  match inner with
  | .jump =>
    ({ d with consumed := n, outBytes := 0, rest := r }, some .insufficientInput)
  | .tooMany ob =>
    ({ d with consumed := 0, outBytes := ob, rest := r }, some .initFatal)
  | .ret err fresh cnt flush hdr ob =>
    let d := { d with consumed := 0, rest := r }
    let d := if fresh then { d with size := 8 * (n : Int), cnt := cnt } else d
    match err with
    | some e => ({ d with consumed := consumedBytes d.size d.cnt, outBytes := ob }, some e)
    | none =>
      let d := if flush then { d with consumed := hdr }
               else { d with consumed := consumedBytes d.size d.cnt }
      ({ d with outBytes := ob }, none)

/-- `ia_mpegh_dec_execute`, impeghd_api.c 992-1118, without scene displacement data and pre-roll. -/
def execute {σ : Type} (d : Dec σ) (n : Nat) (inner : Inner) (r : σ) : Dec σ × Option ErrCode :=
  if ¬ d.initDone then
    ({ d with appConsumed := 1, consumed := 1 }, some .initFatal)
  else
    let d := { d with appConsumed := 0, consumed := 0 }
    let (d, e) := coreExecute d n inner r
    let d := if e.isSome then
        (if d.consumed = 0 then { d with consumed := 1 } else d)
      else d
    ({ d with appConsumed := d.consumed, appOutBytes := d.outBytes }, e)

end Verif.Api
