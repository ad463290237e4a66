import Verif.Model.Escape
import Verif.Model.Loop
import Verif.Model.Speaker

/-! # The 3D audio configuration: `ia_core_coder_init_config.c`, `impeghd_oam_dec.c` 100-234

`LC_LEVEL_4` is off.  The HOA configuration, the HOA matrix and the audio scene information are
arbitrary sub-parsers (`Sub`).  Fields that are read and never looked at by modelled code are read and
dropped (IGF set-up, low-delay flags, group assignment of downmix matrices, contents of the matrices). -/

namespace Verif.Config

open Prog

/-! ## Object metadata configuration -/

/-- `ia_oam_dec_config_struct`, ia_core_coder_config.h 403-412. -/
structure Oam where
  ld : Nat
  frameLength : Nat
  ccfl : Nat
  dyn : Nat
  uniform : Nat
  screen : List Nat
  screenPresent : Nat
  deriving DecidableEq, Repr

def Oam.zero : Oam := ⟨0, 0, 0, 0, 0, List.replicate 24 0, 0⟩

/-- `impeghd_obj_md_cfg`, impeghd_oam_dec.c 100-147, for `n` objects.  The flag is the error return, which
the caller drops. -/
def oamCfg (ccfl n : Nat) (o : Oam) : Prog (Bool × Oam) := do
  let ld ← bits 1
  let core ← bits 1
  let o := { o with ld, ccfl }
  let fl ← optBits (core == 0) 6
  let len := if core ≠ 0 then ccfl else (fl + 1) * 64
  if core = 0 ∧ ¬ (len ≤ ccfl ∧ (len = 256 ∨ len = 512 ∨ len = 1024)) then pure (true, o)
  else do
    let o := { o with frameLength := len }
    let scr ← bits 1
    let o ← (if scr ≠ 0 then do
        let r ← foldN (fun i (s : List Nat × Nat) => do
          let b ← bits 1
          let t ← setAt s.1 i b
          pure (t, s.2 ||| b)) n 0 (o.screen, 0)
        pure { o with screen := r.1, screenPresent := r.2 }
      else pure o)
    let dyn ← bits 1
    let uniform ← bits 1
    pure (false, { o with dyn, uniform })

/-- `ia_enh_oam_config_struct`, ia_core_coder_config.h 414-426. -/
structure Enh where
  hasDiff : Nat
  comDiff : Nat
  hasExcl : Nat
  comExcl : Nat
  closest : Nat
  thr : Nat
  hasDiv : List Nat
  azRange : List Nat
  onlyPre : List Nat
  numDiv : Nat
  deriving DecidableEq, Repr

def Enh.zero : Enh :=
  ⟨0, 0, 0, 0, 0, 0, List.replicate 24 0, List.replicate 24 0, List.replicate 24 0, 0⟩

/-- The state of the loop over the objects: the arrays, and the numbers of objects with divergence, with a
divergence range above 0, and without divergence. -/
structure EnhLoop where
  e : Enh
  withDiv : Nat
  gt0 : Nat
  without : Nat
  deriving DecidableEq, Repr

/-- impeghd_oam_dec.c 198-220 -/
def enhObj (i : Nat) (s : EnhLoop) : Prog EnhLoop := do
  let d ← bits 1
  let hasDiv ← setAt s.e.hasDiv i d
  let s := { s with e := { s.e with hasDiv } }
  let s ← (if d ≠ 0 then do
      let r ← bits 6
      let azRange ← setAt s.e.azRange i r
      pure { s with e := { s.e with azRange }, withDiv := s.withDiv + 1, gt0 := if 0 < r then s.gt0 + 1 else s.gt0 }
    else pure { s with without := s.without + 1 })
  if s.e.comExcl = 0 then do
    let p ← bits 1
    let onlyPre ← setAt s.e.onlyPre i p
    pure { s with e := { s.e with onlyPre } }
  else pure s

/-- `impeghd_enh_obj_md_config`, impeghd_oam_dec.c 161-234. -/
def enhCfg (n : Nat) (e : Enh) : Prog Enh := do
  let hasDiff ← bits 1
  let comDiff ← bitsOr (decide (hasDiff ≠ 0)) 1 e.comDiff
  let hasExcl ← bits 1
  let comExcl ← optBits (decide (hasExcl ≠ 0)) 1
  let pre ← optBits (decide (comExcl ≠ 0)) 1
  let e := { e with hasDiff, comDiff, hasExcl, comExcl,
                    onlyPre := if comExcl ≠ 0 then List.replicate 24 pre else e.onlyPre }
  let closest ← bits 1
  let thr ← bitsOr (decide (closest ≠ 0)) 7 e.thr
  let s ← foldN enhObj n 0 ⟨{ e with closest, thr }, 0, 0, 0⟩
  if s.withDiv * 2 + n > 24 then fail .unsupportedNumObjs
  else if s.without + 3 * s.gt0 > 16 then fail .unsupportedNumObjs
  else pure { s.e with numDiv := s.withDiv }

/-! ## Elements -/

/-- Sub-parsers that are not modelled: `impeghd_fill_config`, `impeghd_hoa_matrix`, and
`impeghd_mae_asi_parse` with the number of switch groups it leaves. -/
structure Sub where
  hoa : Prog Unit
  hoaMatrix : Prog Unit
  asi : Prog Nat

/-- `ia_usac_dec_element_config_struct`, ia_core_coder_config.h 449-462, as far as it is used here, with
`ia_ext_ele_payload_type`, `usac_ext_ele_payload_len` and `usac_ext_ele_payload_buf` of the element. -/
structure Elem where
  kind : Nat
  noise : Nat
  enhNoise : Nat
  extType : Nat
  defLen : Nat
  frag : Nat
  payLen : Nat
  payload : List Nat
  deriving DecidableEq, Repr

def Elem.zero : Elem := ⟨255, 0, 0, 0, 0, 0, 0, []⟩

/-- The numbers of signals: `num_ch`, `num_audio_obj`, `num_hoa_transport_ch` (no code raises
`num_saoc_transport_ch`), and the numbers of object and channel groups. -/
structure Sig where
  ch : Nat
  obj : Nat
  hoa : Nat
  objGroups : Nat
  chGroups : Nat
  deriving DecidableEq, Repr

/-- The parts of `ia_usac_decoder_config_struct` (ia_core_coder_config.h 506-545) and
`ia_usac_config_struct` the element loop writes. -/
structure Dec where
  elems : List Elem
  numElem : Nat
  lenPresent : Nat
  chns : List Int
  preroll : Nat
  oam : Oam
  enh : Enh
  enhPresent : Nat
  deriving DecidableEq, Repr

def Dec.zero : Dec := ⟨List.replicate 50 Elem.zero, 0, 0, List.replicate 50 (-1), 0, Oam.zero, Enh.zero, 0⟩

/-- `IA_MPEGH_DEC_EXE_FATAL_DECODE_FRAME_ERROR` and the like, impeghd_error_codes.h. -/
def errFrame : ErrCode := .other 0xFFFF9816
def errExt : ErrCode := .other 0xFFFF902B
def errLc : ErrCode := .other 0xFFFF9034
def errShift : ErrCode := .other 0xFFFF9037
def errChans : ErrCode := .other 0xFFFF9001

/-- `cnt_bits = …; p; cnt_bits -= …; if (cnt_bits > len << 3) error; else skip the rest`,
ia_core_coder_init_config.c 239-254 and three more times. -/
def measured {α : Type} (len : Nat) (p : Prog α) : Prog α := do
  let a ← avail
  let x ← p
  let b ← avail
  if a - b > 8 * (len : Int) then fail errFrame
  else if a - b < 8 * (len : Int) then do
    drop (8 * (len : Int) - (a - b))
    pure x
  else pure x

/-- `impeghd_prod_metadata_config`, ia_core_coder_init_config.c 100-131; the arrays have 32 entries. -/
def prodMeta (g : Sig) : Prog Unit := do
  let d ← bits 1
  let _ ← optBits (decide (d ≠ 0)) 7
  let _ ← forN (fun i => do inTable i 32; bits 1) g.objGroups 0
  let _ ← forN (fun i => do inTable i 32; bits 1) g.chGroups 0
  pure ()

/-- The `switch` of `ia_core_coder_ext_element_config`, ia_core_coder_init_config.c 235-369, for an element
of type `ty` with `len` configuration bytes; `e` holds the header fields, `flag` says that a default
length was sent.  `num_uni_drc` and `num_aud_preroll` are local variables set to 0 on entry (204), so that
they are 1 when they are compared with 1.  The error of `impeghd_obj_md_cfg` is dropped (308). -/
def extBody (sub : Sub) (g : Sig) (idx ty len flag : Nat) (e : Elem) (d : Dec) : Prog (Elem × Dec) :=
  if ty = 14 then do
    measured len (prodMeta g)
    pure (e, d)
  else if ty = 13 then do
    let enh ← measured len (if g.obj > 24 then fail .unsupportedNumObjs else enhCfg g.obj d.enh)
    pure (e, { d with enh, enhPresent := 1 })
  else if ty = 7 then do
    measured len sub.hoa
    pure ({ e with payLen := len }, d)
  else if ty = 5 then do
    let r ← measured len (oamCfg 1024 g.obj d.oam)
    pure ({ e with payLen := len }, { d with oam := r.2 })
  else if ty = 4 ∨ ty = 9 then
    if e.frag ≠ 0 then fail errExt
    else if ty = 9 ∧ len = 0 then fail errExt
    else do
      let p ← forN (fun i => do inTable i 1536; bits 8) len 0
      pure ({ e with payLen := len, payload := p }, d)
  else if ty = 3 then
    if idx ≠ 0 ∨ e.frag ≠ 0 ∨ flag ≠ 0 ∨ len ≠ 0 then fail errExt
    else pure (e, { d with preroll := 1 })
  else if ty = 0 then
    if len ≠ 0 ∨ e.frag ≠ 0 then fail errExt else pure (e, d)
  else do
    let a ← avail
    if a / 8 < (len : Int) then fail errFrame
    else do
      drop (8 * (len : Int))
      pure (e, d)

/-- `ia_core_coder_ext_element_config`, ia_core_coder_init_config.c 194-372. -/
def extElement (sub : Sub) (g : Sig) (idx : Nat) (e : Elem) (d : Dec) : Prog (Elem × Dec) := do
  let ty ← readEscape 4 8 16
  let len ← readEscape 4 8 16
  if len ≥ 1536 then fail errFrame
  else do
    let flag ← bits 1
    let dl ← (if flag ≠ 0 then readEscape 8 16 0 else pure 0)
    let frag ← bits 1
    extBody sub g idx ty len flag
      { e with extType := ty, payLen := 0, defLen := if flag ≠ 0 then dl + 1 else 0, frag } d

/-- The double loop of `ia_core_coder_map_ele_to_channel`, ia_core_coder_init_config.c 391-400. -/
def freeChannel (chns : List Int) : Int :=
  (List.range 24).foldl (fun c _ => (chns.take 24).foldl (fun c x => if x = c then c + 1 else c) c) 0

/-- `next_idx`, ia_core_coder_init_config.c 401-408. -/
def nextIdx (chns : List Int) : Nat := ((chns.take 24).findIdx? (· < 0)).getD 0

/-- `ia_core_coder_map_ele_to_channel`, ia_core_coder_init_config.c 386-418: the map and `*index`. -/
def mapEle (chns : List Int) (shiftIdx shiftCh : Nat) : List Int × Nat :=
  let i := nextIdx chns
  (chns.set i (if shiftIdx = 0 then freeChannel chns else freeChannel chns + shiftCh + 1), i)

/-- `nbits`, ia_core_coder_init_config.c 443-475, for `t` signals. -/
def shiftBits (t : Nat) : Nat :=
  if 9 ≤ t ∧ t ≤ 16 then 4 else if 5 ≤ t ∧ t ≤ 8 then 3 else if 3 ≤ t ∧ t ≤ 4 then 2 else 1

/-- The fields of the spectral tools, ia_core_coder_init_config.c 477-503 (channel pair) and 640-665 (single
channel, without the last IGF bit). -/
def tools (igfBits : Nat) (e : Elem) : Prog Elem := do
  let tw ← bits 1
  if tw ≠ 0 then fail errLc
  else do
    let _ ← bits 1
    let noise ← bits 1
    let enhNoise ← bits 1
    when (decide (enhNoise ≠ 0)) (do
      let _ ← bits igfBits
      pure ())
    pure { e with noise, enhNoise }

/-- `ia_core_coder_cpe_config`, ia_core_coder_init_config.c 437-544, for `t` signals.  `shift_idx0` is 0
since `qce_index` must be 0. -/
def cpeConfig (t : Nat) (e : Elem) (chns : List Int) : Prog (Elem × List Int) := do
  let e ← tools 14 e
  let qce ← bits 2
  if qce ≠ 0 then fail errLc
  else do
    let m := mapEle chns 0 0
    let c0 ← getAt m.1 m.2
    if (0 : Int) > c0 then fail errShift
    else do
      let sh ← bits 1
      let sc ← optBits (decide (sh > 0)) (shiftBits t)
      let m := mapEle m.1 sh sc
      let c1 ← getAt m.1 m.2
      if (sc : Int) > c1 then fail errShift
      else do
        let _ ← bits 1
        pure (e, m.1)

/-- One turn of the element loop, ia_core_coder_init_config.c 585-674. -/
def element (sub : Sub) (g : Sig) (idx : Nat) (d : Dec) : Prog Dec := do
  let e ← getAt d.elems idx
  let kind ← bits 2
  let e := { e with kind }
  if kind = 3 then do
    let r ← extElement sub g idx e d
    let elems ← setAt r.2.elems idx r.1
    pure { r.2 with elems }
  else if kind = 2 then do
    let elems ← setAt d.elems idx { e with noise := 0 }
    pure { d with elems, chns := (mapEle d.chns 0 0).1 }
  else if kind = 1 then do
    let r ← cpeConfig (g.ch + g.obj + g.hoa) e d.chns
    let elems ← setAt d.elems idx r.1
    pure { d with elems, chns := r.2 }
  else do
    let e ← tools 13 e
    let elems ← setAt d.elems idx e
    pure { d with elems, chns := (mapEle d.chns 0 0).1 }

/-- `ia_core_coder_decoder_config`, ia_core_coder_init_config.c 557-677. -/
def decoderConfig (sub : Sub) (g : Sig) (d : Dec) : Prog Dec := do
  let n ← readEscape 4 8 16
  if n + 1 > 50 then fail errFrame
  else do
    let lp ← bits 1
    foldN (element sub g) (n + 1) 0
      { d with chns := List.replicate 50 (-1), preroll := 0, numElem := n + 1, lenPresent := lp }

/-! ## Configuration extensions -/

/-- `impeghd_sig_group_info`, ia_core_coder_init_config.c 692-701, for `n` groups: priorities and fixed
positions.  The loop runs once too often. -/
def sigGroupInfo (n : Nat) (t : List Nat × List Nat) : Prog (List Nat × List Nat) :=
  foldN (fun i (t : List Nat × List Nat) => do
    let p ← bits 3
    let a ← setAt t.1 i p
    let f ← bits 1
    let b ← setAt t.2 i f
    pure (a, b)) (n + 1) 0 t

/-- One downmix matrix, ia_core_coder_init_config.c 775-807, number `l` of its identifier: the number of
groups and the length in bits.  The matrix is stored in 256 bytes. -/
def dmxMatrix (l : Nat) : Prog (Nat × Nat) := do
  let t ← readEscape 1 4 4
  if t ≥ 16 then fail (.other 0xFFFF981C)
  else do
    inTable l 8
    let _ ← forN (fun m => do inTable m 16; bits 5) (t + 1) 0
    let len ← readEscape 8 8 12
    let _ ← forN (fun b => do inTable b 256; bits 8) (len / 8) 0
    when (decide (len % 8 ≠ 0)) (do
      inTable ((len / 8 : Nat) : Int) 256
      let _ ← bits (len % 8)
      pure ())
    pure (t + 1, len)

/-- One downmix identifier, ia_core_coder_init_config.c 755-828: identifier and layout. -/
def dmxId (i : Nat) : Prog (Nat × Nat) := do
  inTable i 6
  let id ← bits 7
  let ty ← bits 2
  if id = 0 ∨ id = 127 then fail (.other 0xFFFF9028)
  else if ty > 1 then fail (.other 0xFFFF9027)
  else do
    let layout ← bits 6
    when (decide (ty = 1)) (do
      let t ← readEscape 1 3 0
      if t + 1 > 8 then fail (.other 0xFFFF9800)
      else do
        let _ ← forN dmxMatrix (t + 1) 0
        pure ())
    if layout > 20 then fail (.other 0xFFFF9016) else pure (id, layout)

/-- `impeghd_parse_dmx_ext_config`, ia_core_coder_init_config.c 717-832: the identifiers and layouts. -/
def dmxConfig : Prog (List (Nat × Nat)) := do
  let ty ← bits 2
  if ty = 3 then fail (.other 0xFFFF9026)
  else do
    when (decide (ty = 0 ∨ ty = 2)) (do
      let passive ← bits 1
      let ph ← optBits (decide (passive = 0)) 3
      if ph ≠ 0 then fail errLc
      else do
        let _ ← bits 1
        pure ())
    if ty = 1 ∨ ty = 2 then do
      let n ← bits 5
      if n > 6 then fail (.other 0xFFFF980D) else forN dmxId n 0
    else pure []

/-- `impeghd_compatible_profile_level_set`, ia_core_coder_init_config.c 845-880: `compat_lc_lvl` and
`compat_bp_lvl`. -/
def compatSet : Prog (Nat × Nat) := do
  let n ← bits 4
  let _ ← bits 4
  foldN (fun i (s : Nat × Nat) => do
    let v ← bits 8
    inTable i 16
    pure (if 11 ≤ v ∧ v ≤ 15 then min s.1 v else s.1, if 16 ≤ v ∧ v ≤ 20 then min s.2 v else s.2))
    (n + 1) 0 (15, 20)

/-- What the configuration extensions leave. -/
structure Ext where
  compat : Option (Nat × Nat)
  hoaMatrix : Nat
  dmx : Nat
  dmxIds : List (Nat × Nat)
  loud : Option (Nat × List Nat)
  switchGroups : Nat
  asiPresent : Nat
  prio : List Nat
  fixed : List Nat
  info : Nat
  deriving DecidableEq, Repr

def Ext.zero : Ext := ⟨none, 0, 0, [], none, 0, 0, List.replicate 32 0, List.replicate 32 0, 0⟩

/-- `cnt_bits = …; p; skip what is left of the announced length, if any`,
ia_core_coder_init_config.c 942-963 and two more times. -/
def atLeast {α : Type} (len : Nat) (p : Prog α) : Prog α := do
  let a ← avail
  let x ← p
  let b ← avail
  if a - b < 8 * (len : Int) then do
    drop (8 * (len : Int) - (a - b))
    pure x
  else pure x

/-- The `switch` of the loop of `ia_core_coder_config_extension`, ia_core_coder_init_config.c 930-1059,
for `n` signal groups; `layout` is the layout index of the decoder, `lenPresent` the flag
`ele_length_present`. -/
def extension (sub : Sub) (lenPresent n layout : Nat) (j ty len : Nat) (x : Ext) : Prog Ext :=
  if ty = 7 then do
    let c ← compatSet
    pure { x with compat := some c }
  else if ty = 4 then
    if layout > 21 then fail (.other 0xFFFF9007)
    else do
      atLeast len sub.hoaMatrix
      pure { x with hoaMatrix := 1 }
  else if ty = 1 then do
    let d ← atLeast len dmxConfig
    pure { x with dmx := 1, dmxIds := d }
  else if ty = 2 then do
    let b ← forN (fun i => do inTable i 1536; bits 8) len 0
    pure { x with loud := some (j, b) }
  else if ty = 3 then
    if x.switchGroups > 0 ∧ lenPresent ≠ 1 then fail .initFatal
    else do
      let s ← atLeast len sub.asi
      pure { x with asiPresent := 1, switchGroups := s }
  else if ty = 6 then do
    let t ← sigGroupInfo n (x.prio, x.fixed)
    pure { x with prio := t.1, fixed := t.2, info := 1 }
  else if ty = 0 then do
    let _ ← forN (fun _ => do
      let b ← bits 8
      if b ≠ 0xa5 then fail (.other 0xFFFF9004) else pure b) len 0
    pure x
  else do
    let a ← avail
    if (len : Int) > a / 8 then fail errFrame
    else do
      drop (8 * (len : Int))
      pure x

/-- `ia_core_coder_config_extension`, ia_core_coder_init_config.c 896-1062. -/
def configExtension (sub : Sub) (lenPresent n layout : Nat) (x : Ext) : Prog Ext := do
  let k ← readEscape 2 4 8
  if k + 1 > 5 then fail (.other 0xFFFF900E)
  else
    foldN (fun j x => do
      let ty ← readEscape 4 8 16
      let len ← readEscape 4 8 16
      inTable j 5
      if len > 1536 then fail (.other 0xFFFF9011)
      else extension sub lenPresent n layout j ty len x) (k + 1) 0 { x with dmx := 0 }

/-! ## The configuration -/

/-- `ia_sampling_rate_tbl`, ia_core_coder_rom.c 1240-1242. -/
def rateTbl : List Nat :=
  [0, 0, 0, 48000, 44100, 32000, 24000, 22050, 16000, 14700, 29400] ++ List.replicate 21 0

/-- Sampling frequency, ia_core_coder_init_config.c 1250-1269. -/
def sampleRate : Prog Nat := do
  let idx ← bits 5
  let f ← (if idx = 31 then bits 24
    else if idx > 8 then fail (.other 0xFFFF9002)
    else getAt rateTbl idx)
  if f > 48000 ∨ f = 0 then fail (.other 0xFFFF9002) else pure f

/-- `ia_speaker_config_3d`, ia_core_coder_config.h 368-375. -/
structure Layout where
  type : Nat
  idx : Nat
  num : Nat
  spk : List Nat
  flex : List Speaker.Descr
  deriving DecidableEq, Repr

def Layout.zero : Layout := ⟨0, 0, 0, List.replicate 24 0, List.replicate 32 Speaker.Descr.zero⟩

/-- The reference layout, ia_core_coder_init_config.c 1295-1348. -/
def refLayout (r : Layout) : Prog Layout := do
  let type ← bits 2
  let r := { r with type }
  if type ≠ 0 then do
    let n ← readEscape 5 8 16
    if n + 1 > 24 then fail (.other 0xFFFF900F)
    else do
      let r := { r with num := n + 1 }
      if type = 2 then do
        let f ← Speaker.flexConfig r.flex (n + 1)
        if n + 1 > 20 then fail (.other 0xFFFF9016)
        else pure { r with flex := f.2, idx := n + 1 }
      else if type = 1 then do
        let spk ← foldN (fun i t => do
          let k ← bits 7
          let t ← setAt t i k
          if k ≥ 43 then fail (.other 0xFFFF902A) else pure t) (n + 1) 0 r.spk
        pure { r with spk }
      else pure r
  else do
    let idx ← bits 6
    if idx = 0 ∨ idx > 20 then fail (.other 0xFFFF9016) else pure { r with idx }

/-- The layout of a group of channels, ia_core_coder_init_config.c 1425-1475.  `ch` is `num_ch` so far. -/
def groupLayout (refIdx ch : Nat) (r : Layout) : Prog Layout := do
  let type ← bits 2
  let r := { r with type }
  let r ← (if type ≠ 0 then do
      let n ← readEscape 5 8 16
      if n + 1 > 24 then fail (.other 0xFFFF900F)
      else do
        let r := { r with num := n + 1 }
        if type = 2 then do
          let f ← Speaker.flexConfig r.flex (n + 1)
          pure { r with flex := f.2 }
        else if type = 1 then do
          let spk ← foldN (fun i t => do
            let k ← bits 7
            let t ← setAt t i k
            if k > 42 then fail (.other 0xFFFF902A) else pure t) (n + 1) 0 r.spk
          pure { r with spk }
        else pure r
    else do
      let idx ← bits 6
      if idx > 20 then fail (.other 0xFFFF9016) else pure { r with idx })
  let a ← getAt Speaker.numLsTbl r.idx
  if a ≠ ch then do
    let b ← getAt Speaker.numLsTbl refIdx
    if a > b then fail (.other 0xFFFF903A) else pure r
  else pure r

/-- The signal groups while they are read: `ia_signals_3d` (ia_core_coder_config.h 428-447), and the local
counters. -/
structure Groups where
  types : List Nat
  numSig : List Nat
  differs : List Nat
  layouts : List Layout
  sig : Sig
  outCh : Nat
  hoaGroups : Nat
  deriving DecidableEq, Repr

def Groups.zero : Groups :=
  ⟨List.replicate 32 0, List.replicate 32 0, List.replicate 32 0, List.replicate 32 Layout.zero, ⟨0, 0, 0, 0, 0⟩, 0, 0⟩

/-- One turn of the loop over the signal groups, ia_core_coder_init_config.c 1371-1484.
`audio_ch_layout_cntr` is the number of channel groups so far. -/
def group (refIdx i : Nat) (s : Groups) : Prog Groups := do
  let ty ← bits 3
  let types ← setAt s.types i ty
  let v ← readEscape 5 8 16
  let numSig ← setAt s.numSig i (v + 1)
  let s := { s with types, numSig }
  if ty = 3 then
    if v + 1 > 24 then fail errChans
    else pure { s with sig := { s.sig with hoa := s.sig.hoa + (v + 1) }, hoaGroups := s.hoaGroups + 1 }
  else if ty = 2 then do
    let b ← bits 1
    when (decide (b ≠ 0)) (drop 2)
    pure s
  else if ty = 1 then
    if v + 1 > 24 then fail errChans
    else pure { s with sig := { s.sig with obj := s.sig.obj + (v + 1), objGroups := s.sig.objGroups + 1 } }
  else if ty = 0 then
    if s.sig.ch + (v + 1) > 24 ∨ s.outCh + (v + 1) > 24 then fail errChans
    else do
      let ch := s.sig.ch + (v + 1)
      let k := s.sig.chGroups
      let df ← bits 1
      let differs ← setAt s.differs i df
      let s := { s with differs, outCh := s.outCh + (v + 1), sig := { s.sig with ch, chGroups := k + 1 } }
      if df = 1 then do
        let l ← getAt s.layouts k
        let l ← groupLayout refIdx ch l
        let layouts ← setAt s.layouts k l
        pure { s with layouts }
      else pure s
  else fail (.other 0xFFFF903B)

/-- The restriction for more than 16 channels, ia_core_coder_init_config.c 1541-1569, over the elements. -/
def bigCheck : List Elem → Prog Unit
  | [] => pure ()
  | e :: es =>
    if e.kind = 0 then
      if e.noise ≠ 0 ∨ e.enhNoise ≠ 0 then fail (.other 0xFFFF901C) else bigCheck es
    else if e.kind = 3 then
      if e.extType = 9 then fail (.other 0xFFFF901C) else bigCheck es
    else fail (.other 0xFFFF901C)

/-- The profile level in use and `is_base_line_profile_3b` after the compatible levels have been looked at,
ia_core_coder_init_config.c 1624-1642, for `core` decoder channels. -/
def useCompat (profile core : Nat) (compat : Option (Nat × Nat)) (b3 : Nat) : Nat × Nat :=
  match compat with
  | none => (profile, b3)
  | some (lc, bp) =>
    if bp ≤ 18 ∧ 16 ≤ bp then (bp, if core > 16 then 1 else b3)
    else if lc ≤ 13 ∧ 11 ≤ lc then (lc, 0)
    else (profile, b3)

/-- The limits of the levels, ia_core_coder_init_config.c 1644-1687. -/
def levelOk (profile core ref hoaGroups chGroups : Nat) : Option Bool :=
  if profile = 11 ∨ profile = 16 then some (core ≤ 5 ∧ ref ≤ 5)
  else if profile = 12 ∨ profile = 17 then some (core ≤ 9 ∧ ref ≤ 9)
  else if profile = 18 ∨ profile = 13 then
    some ¬ (core > 24 ∨ ref > 24 ∨ (core > 16 ∧ (hoaGroups ≠ 0 ∨ chGroups ≠ 0)) ∨
      (ref > 16 ∧ (hoaGroups ≠ 0 ∨ chGroups ≠ 0)))
  else none

/-- What the configuration leaves in the decoder. -/
structure Cfg where
  rate : Nat
  frameIdx : Nat
  delayComp : Nat
  ref : Layout
  numGroups : Nat
  groups : Groups
  dec : Dec
  ext : Ext
  fmtConv : Nat
  profile : Nat
  base3b : Nat
  deriving DecidableEq, Repr

def Cfg.zero : Cfg := ⟨0, 0, 0, Layout.zero, 0, Groups.zero, Dec.zero, Ext.zero, 0, 0, 0⟩

/-- The number of channels the core decoder has, `dec_proc_core_chans`. -/
def Groups.core (g : Groups) : Nat := g.sig.hoa + g.sig.obj + g.sig.ch

/-- `for (k = 1; …) if (group_type[k - 1] != group_type[k]) return …`,
ia_core_coder_init_config.c 1486-1493. -/
def sameTypes (types : List Nat) (n : Nat) : Prog Bool :=
  foldN (fun i ok => do
    let a ← getAt types i
    let b ← getAt types (i + 1)
    pure (ok && a == b)) (n - 1) 0 true

/-- The part after the elements, ia_core_coder_init_config.c 1571-1618: the extensions and
`format_converter_enable`.  `user` is `ui_cicp_layout_idx` of the application. -/
def extPart (sub : Sub) (user : Nat) (c : Cfg) : Prog Cfg := do
  let e ← bits 1
  if e ≠ 0 then do
    let layout := if user ≠ 0 then user else c.ref.idx
    if layout > 20 then fail (.other 0xFFFF9016)
    else do
      let x ← configExtension sub c.dec.lenPresent c.numGroups layout c.ext
      let ls ← getAt Speaker.numLsTbl layout
      let fc := if layout = c.ref.idx ∨ x.dmx = 0 ∨ x.hoaMatrix = 1 then 0 else 1
      let fc := if c.groups.outCh ≠ ls ∧ x.hoaMatrix ≠ 1 ∧ c.groups.outCh ≠ 0 ∧ layout ≠ 0 then 1 else fc
      pure { c with ext := x, fmtConv := fc }
  else pure { c with fmtConv := if c.groups.sig.chGroups > 1 then 1 else c.fmtConv }

/-- `ia_core_coder_mpegh_3da_config`, ia_core_coder_init_config.c 1230-1695; `c` is what an earlier
configuration left. -/
def config (sub : Sub) (user : Nat) (c : Cfg) : Prog Cfg := do
  let profile ← bits 8
  let rate ← sampleRate
  let frameIdx ← bits 3
  if frameIdx > 4 then fail (.other 0xFFFF9006)
  else do
    drop 1
    let delayComp ← bits 1
    let ref ← refLayout c.ref
    let n ← bits 5
    if n + 1 > 16 then fail (.other 0xFFFF901A)
    else if ref.type = 3 ∧ n + 1 ≠ 1 then fail .initFatal
    else do
      let g ← foldN (group ref.idx) (n + 1) 0 { c.groups with sig := ⟨0, 0, 0, 0, 0⟩, outCh := 0, hoaGroups := 0 }
      let same ← sameTypes g.types (n + 1)
      if n + 1 > 1 ∧ delayComp = 0 ∧ same = false then fail (.other 0xFFFF9003)
      else do
        let refCh ← (if ref.type = 0 then getAt Speaker.numLsTbl ref.idx else pure ref.num)
        let dec ← decoderConfig sub g.sig c.dec
        (if g.core > 16 ∨ refCh > 16 then bigCheck (dec.elems.take dec.numElem) else pure ())
        let c ← extPart sub user { c with
          rate, frameIdx, delayComp, ref, numGroups := n + 1, groups := g, dec,
          fmtConv := if g.sig.chGroups < 1 ∨ user = 0 then 0 else 1 }
        if profile < 11 then fail (.other 0xFFFF901B)
        else do
          let u := useCompat profile g.core c.ext.compat 0
          match levelOk u.1 g.core refCh g.hoaGroups g.sig.chGroups with
          | none => fail (.other 0xFFFF901B)
          | some false => fail errChans
          | some true =>
            pure { c with profile := u.1, base3b := if 16 ≤ u.1 ∧ u.1 ≤ 18 ∧ g.core > 16 then 0 else u.2 }

/-- `impegh_3daudio_config_dec`, ia_core_coder_headerdecode.c 87-130, without the byte count: the
configuration is cleared only when no audio scene information is present; without group information every
group has priority 7 and a fixed position. -/
def configDec (sub : Sub) (user : Nat) (c : Cfg) : Prog Cfg := do
  let c := if c.ext.asiPresent = 0 then Cfg.zero else c
  let c := { c with dec := { c.dec with elems := c.dec.elems.map fun e => { e with kind := 255 } } }
  let c ← config sub user c
  if c.ext.info = 1 then pure c
  else pure { c with ext := { c.ext with
    prio := List.replicate c.numGroups 7 ++ c.ext.prio.drop c.numGroups,
    fixed := List.replicate c.numGroups 1 ++ c.ext.fixed.drop c.numGroups } }

end Verif.Config
