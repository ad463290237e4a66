import Verif.Model.Asi
import Verif.Model.Escape

/-!
# MHAS packets: `impeghd_mhas_parse.c` 704-957 and 1210-1386

Earcon and PCM packets, packet header and the packet walk.

Simplifications: `impd_drc_mpegh3da_parse_loudness_info_set` (packet type 22) is a parameter of
the walk: any parser that consumes bits and ends in success or an error code; its output goes to
a local variable that is thrown away. The structure field `earcon_has_gain` and the float
conversion of PCM samples are dropped; the integer sample before the conversion is kept.
-/

namespace Verif.Mhas

open Prog

/-- One earcon, `ia_earcon_info` (impeghd_mhas_parse.h 315-338), one row of its arrays. A field that is
not read is 0 here; the code leaves what an earlier packet stored there. -/
structure Earcon where
  independent : Nat
  id : Nat
  type : Nat
  active : Nat
  posType : Nat
  cicp : Nat
  az : Nat
  el : Nat
  dist : Nat
  gain : Nat
  texts : List (Nat × List Nat)
  deriving DecidableEq, Repr

/-- One language of an earcon, impeghd_mhas_parse.c 943-954. -/
def earconText (idx : Nat) : Prog (Nat × List Nat) := do
  inTable idx 16
  let lang ← bits 24
  let len ← bits 8
  let txt ← forN (fun i => do inTable i 256; bits 8) len 0
  pure (lang, txt)

/-- Loop body of `impeghd_econ_config_info`, impeghd_mhas_parse.c 905-955. `langs` is `earcon_num_languages`, which
keeps its old entry when no text label is signalled. -/
def earcon (cnt : Nat) (st : List Earcon × List Nat) : Prog (List Earcon × List Nat) := do
  inTable cnt 16
  let independent ← bits 1
  let id ← bits 7
  let type ← bits 4
  let active ← bits 1
  let posType ← bits 2
  let cicp ← optBits (posType = 0) 7
  let az ← optBits (posType = 1) 8
  let el ← optBits (posType = 1) 6
  let d ← optBits (posType = 1) 9
  let dist := if posType = 0 ∨ posType = 1 then d else 177
  let hg ← bits 1
  let gain ← optBits (hg != 0) 7
  let ht ← bits 1
  let old ← getAt st.2 cnt
  let nl ← bitsOr (ht != 0) 4 old
  let langs ← setAt st.2 cnt nl
  let texts ← forN earconText nl 0
  pure (st.1 ++ [{ independent, id, type, active, posType, cicp, az, el, dist, gain, texts }],
        langs)

/-- `impeghd_econ_config_info`, impeghd_mhas_parse.c 896-957: `num_earcons > 16` is refused, but the loop runs
`num_earcons + 1` times. -/
def earcons (langs : List Nat) : Prog (List Earcon × List Nat) := do
  let n ← bits 7
  if n > 16 then fail .invalidNumEarcons
  else foldN earcon (n + 1) 0 ([], langs)

/-- `ia_pcm_data_config`, impeghd_mhas_parse.h 290-313 (fields the parser reads back). -/
structure Pcm where
  numSignals : Nat := 0
  alignFlag : Nat := 0
  rate : Nat := 0
  bitsPerSample : Nat := 0
  fixFrameSize : Nat := 0
  varFrameSize : Nat := 0
  frameSizeIdx : Nat := 0
  signalIds : List Nat := []
  loudness : Nat := 0
  hasAttGain : Nat := 0
  attGain : Nat := 0
  numInFrame : Nat := 0
  /-- `pcm_sample`, time major, before the float conversion -/
  samples : List (List Int) := []
  deriving DecidableEq, Repr

/-- `ia_pcm_frame_size_tbl`, ia_core_coder_rom.c 1286. -/
def frameSizeTbl : List Nat := [0, 768, 1024, 2048, 4096]
/-- `ia_pcm_bits_per_sample_table`, ia_core_coder_rom.c 1285. -/
def bitsPerSampleTbl : List Nat := [16, 24, 32]
/-- `ia_sampling_rate_tbl`, ia_core_coder_rom.c 1240-1242. -/
def rateTbl : List Nat :=
  [0, 0, 0, 48000, 44100, 32000, 24000, 22050, 16000, 14700, 29400, 0, 0, 0, 0, 0,
   0, 0, 0, 0, 0, 0, 0, 0, 0, 0, 0, 0, 0, 0, 0, 0]

/-- `ia_sign_extend_16`, impeghd_mhas_parse.c 704-713: `val += 0xFFFF0000` in unsigned arithmetic. -/
def signExt16 (x : Nat) : Int :=
  let val := x &&& 0xFFFF
  if x &&& 0x8000 ≠ 0 then toI32 ((val + 0xFFFF0000 : Nat) : Int) else toI32 (val : Int)

/-- `ia_sign_extend_24`, impeghd_mhas_parse.c 725-734. -/
def signExt24 (x : Nat) : Int :=
  let val := x &&& 0xFFFFFF
  if x &&& 0x800000 ≠ 0 then toI32 ((val + 0xFF000000 : Nat) : Int) else toI32 (val : Int)

/-- One step of the 32-bit sample loop, impeghd_mhas_parse.c 814-820: `pcm_sample <<= 8; pcm_sample |= temp` on
`WORD32` (the shifted value has its low byte clear, so `|` is `+`). -/
def push8 (acc : Int) (b : Nat) : Int := toI32 (acc * 256) + b

/-- Read one sample, impeghd_mhas_parse.c 797-828. -/
def sample (bps : Nat) : Prog Int :=
  if bps = 16 then do
    let x ← bits 16
    pure (signExt16 x)
  else if bps = 24 then do
    let x ← bits 24
    pure (signExt24 x)
  else if bps = 32 then
    foldN (fun _ acc => do let b ← bits 8; pure (push8 acc b)) 4 0 0
  else do
    let x ← bits bps
    pure x

/-- Frame size look-up of `impeghd_pcm_data_payload`, impeghd_mhas_parse.c 774-790: new index and frame size.
Indices 5 and 6 are *replaced* by the explicit size, which then indexes the table. -/
def frameSize (p : Pcm) : Prog (Nat × Nat) := do
  let idx := if p.frameSizeIdx = 5 then p.fixFrameSize
             else if p.frameSizeIdx = 6 then p.varFrameSize else p.frameSizeIdx
  let n ← getAt frameSizeTbl idx
  pure (idx, n)

/-- `impeghd_pcm_data_payload`, impeghd_mhas_parse.c 746-833. The error return at 753-757 leaves the loop early and is
ignored by the caller, so it is an ordinary result here. -/
def pcmData (p : Pcm) : Prog Pcm := do
  let n ← bits 7
  if n > 23 then pure { p with numInFrame := 0 }
  else do
    let ids ← forN (fun i => do inTable i 128; bits 7) (n + 1) 0
    let ag ← bitsOr (p.hasAttGain = 2) 8 p.attGain
    let vf ← bitsOr (p.frameSizeIdx = 6) 16 p.varFrameSize
    let p := { p with numInFrame := n, signalIds := ids, attGain := ag, varFrameSize := vf }
    if p.frameSizeIdx = 0 then pure p
    else do
      let (idx, fs) ← frameSize p
      let samples ← forN (fun cnt => forN (fun ch => do
        inTable ch 24
        inTable cnt 1024
        sample p.bitsPerSample) (n + 1) 0) fs 0
      pure { p with frameSizeIdx := idx, samples }

/-- `impeghd_pcm_data_config`, impeghd_mhas_parse.c 845-884. -/
def pcmConfig (p : Pcm) : Prog Pcm := do
  let ns ← bits 7
  let al ← bits 1
  let ri ← bits 5
  let r0 ← getAt rateTbl ri
  let rate ← bitsOr (ri = 0x1f) 24 r0
  let bi ← bits 3
  let p := { p with numSignals := ns, alignFlag := al, rate }
  if bi > 2 then pure p
  else do
    let bps ← getAt bitsPerSampleTbl bi
    let fi ← bits 3
    let ff ← bitsOr (fi = 5) 16 p.fixFrameSize
    let ids ← forN (fun i => do inTable i 128; bits 7) (ns + 1) 0
    let loud ← bits 8
    let ha ← bits 2
    let ag ← bitsOr (ha = 1) 8 p.attGain
    pure { p with bitsPerSample := bps, frameSizeIdx := fi, fixFrameSize := ff, signalIds := ids,
                  loudness := loud, hasAttGain := ha, attGain := ag }

/-- A packet header: type, label, payload length in bytes. -/
structure Header where
  type : Nat
  label : Nat
  len : Nat
  deriving DecidableEq, Repr

/-- Packet header, impeghd_mhas_parse.c 1220-1279. The three inline escape decoders are those of
`ia_core_coder_read_escape_value` with widths (3,8,8), (2,8,32), (11,24,24). -/
def header : Prog Header := do
  let type ← readEscape 3 8 8
  let label ← readEscape 2 8 32
  let len ← readEscape 11 24 24
  pure { type, label, len }

/-- Decoder state the packet walk works on. -/
structure St where
  scene : Asi.Scene := Asi.Scene.empty
  asiPresent : Bool := false
  eiPresent : Bool := false
  earconPresent : Bool := false
  earcons : List Earcon := []
  langs : List Nat := List.replicate 16 0
  pcm : Pcm := {}
  pcmTypePresent : Bool := false
  pcmDataPresent : Bool := false
  pcmConfigPresent : Bool := false
  /-- the local `err_code` -/
  pending : Option ErrCode := none
  deriving DecidableEq, Repr

/-- After a payload parser: skip what is left of the declared length, if anything (e.g.
impeghd_mhas_parse.c 1292-1297). -/
def skipRest (c0 : Int) (len : Nat) : Prog Unit := do
  let c1 ← avail
  when (c0 - c1 < 8 * len) (drop (8 * len - (c0 - c1)))

/-- The `switch (pkt_type)`, impeghd_mhas_parse.c 1281-1377. -/
def payload (loud : Prog (Option ErrCode)) (h : Header) (st : St) : Prog St :=
  match h.type with
  | 3 => do
    let c0 ← avail
    let scene ← Asi.parse st.scene
    skipRest c0 h.len
    pure { st with scene, asiPresent := true, pending := none }
  | 6 => do
    let b ← bits 8
    if b ≠ 0xA5 ∨ h.len ≠ 1 then fail .invalidSyncByte else pure st
  | 12 => do
    drop (8 * h.len)
    pure { st with eiPresent := true }
  | 19 => do
    let c0 ← avail
    let (es, langs) ← earcons st.langs
    skipRest c0 h.len
    pure { st with earconPresent := true, earcons := es, langs, pending := none }
  | 20 => do
    let c0 ← avail
    let pcm ← pcmConfig st.pcm
    skipRest c0 h.len
    pure { st with pcmTypePresent := true, pcm }
  | 21 => do
    let c0 ← avail
    let pcm ← pcmData st.pcm
    skipRest c0 h.len
    pure { st with pcmTypePresent := true, pcmDataPresent := true, pcmConfigPresent := true, pcm }
  | 22 => do
    let e ← loud
    pure { st with pending := e }
  | 1 => pure st
  | 2 => pure st
  | _ => do
    drop (8 * h.len)
    pure st

/-- Loop condition, impeghd_mhas_parse.c 1378-1379. -/
def continues (h : Header) (st : St) : Bool :=
  h.type != 1 && h.type != 2 && !st.pcmTypePresent

/-- One turn of the `do ... while`. -/
def turn (loud : Prog (Option ErrCode)) (st : St) : Prog (Header × St) := do
  let h ← header
  let st' ← payload loud h st
  pure (h, st')

/-- The `do ... while` loop, impeghd_mhas_parse.c 1218-1379, cut off after `fuel` turns; `stop` stands for the turns
that are cut off (C08 shows that they do not exist). -/
def walk (loud : Prog (Option ErrCode)) (stop : Prog (Header × St)) :
    (fuel : Nat) → St → Prog (Header × St)
  | 0, _ => stop
  | fuel + 1, st => do
    let (h, st') ← turn loud st
    if continues h st' then walk loud stop fuel st' else pure (h, st')

/-- `impeghd_mhas_parse`, impeghd_mhas_parse.c 1210-1386, with the number of bits left as the bound on the turns. -/
def parse (loud : Prog (Option ErrCode)) (st : St) : Prog (Header × St) := do
  let c ← avail
  walk loud undef (c.toNat + 1) { st with pcmTypePresent := false, pcmDataPresent := false,
                                          pending := none }

end Verif.Mhas
