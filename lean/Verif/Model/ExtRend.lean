import Verif.Model.BitWriter
import Verif.Model.EnhOam
import Verif.Model.Speaker
import Verif.Model.Pcm

/-! # The interface to an external renderer: `impeghd_ext_rend_intrfc.c`

Every writer is modelled by the list of `(value, width)` pairs it passes to `impeghd_write_bits_buf`
(`Model/BitWriter.lean`), in order.  Values are converted to `UWORD32` by the call.  Reading an array
outside its bounds is `ub`.  Floats are rationals.  The arrays `metadata_ele_id` of the audio scene are a
parameter. -/

namespace Verif.ExtRend

/-- Arguments of one call of `impeghd_write_bits_buf`. -/
abbrev Field := Nat × Nat

/-- An `int` passed as `UWORD32`, ia_core_coder_bitbuffer.c 324. -/
def word (v : Int) (n : Nat) : Field := ((v % 2 ^ 32).toNat, n)

/-- A read of an array. -/
def at_ {α : Type} (xs : List α) (i : Nat) : Res α :=
  match xs[i]? with
  | some x => .ok x
  | none => .ub

/-- `for (i = i0; k > 0; i++, k--)` with the fields of the body put behind each other. -/
def rep (f : Nat → Res (List Field)) : Nat → Nat → Res (List Field)
  | 0, _ => .ok []
  | k + 1, i => do
    let a ← f i
    let b ← rep f k (i + 1)
    .ok (a ++ b)

/-- The calls made by `impeghd_write_escape_value`, ia_core_coder_bitbuffer.c 385-412 (`WBuf.writeEscape`),
for widths up to 30 bits. -/
def escape (value b1 b2 b3 : Nat) : List Field :=
  let e1 := min value (2 ^ b1 - 1)
  (e1, b1) ::
    (if e1 = 2 ^ b1 - 1 then
      let v2 := value - e1
      let e2 := min v2 (2 ^ b2 - 1)
      (e2, b2) :: (if e2 = 2 ^ b2 - 1 then [(min (v2 - e2) (2 ^ b3 - 1), b3)] else [])
    else [])

/-! ### Configuration -/

/-- `ia_speaker_config_3d` with its `ia_flex_spk_data_str`, ia_core_coder_config.h 359-375. -/
structure Layout where
  type : Nat
  layout : Int
  num : Int
  cicpIdx : List Int
  sym : Nat
  prec : Nat
  descr : List Speaker.Descr
  deriving DecidableEq, Repr

/-- The parts of `ia_signals_3d` the writers use, ia_core_coder_config.h 428-447; lists of 32. -/
structure Signals where
  numGroups : Nat
  type : List Nat
  numSig : List Nat
  fixed : List Nat
  prio : List Nat
  chGroups : Nat
  hoaGroups : Nat
  layouts : List Layout
  deriving DecidableEq, Repr

/-- `ia_prod_meta_data_struct` as far as it is written, ia_core_coder_config.h 546-565. -/
structure ProdMeta where
  present : Int
  length : Int
  hasRef : Int
  refDist : Int
  hasObj : Int
  headphone : List Int
  dist : List Int
  deriving DecidableEq, Repr

/-- `ID_EXT_GOA_PROD_METADATA`, ia_core_coder_config.h 101 (also `ID_EXT_GCA_PROD_METADATA`,
impeghd_ele_interaction_intrfc.h 52). -/
def idGoa : Nat := 0
/-- `ID_EXT_ELE_PROD_METADATA`, ia_core_coder_config.h 99. -/
def idElement : Nat := 14

/-! ### Objects -/

/-- One sub-frame of one object, impeghd_ext_rend_intrfc.c 590-612; `i` is `obj_idx`. -/
def subFrame (c : Oam.Cfg) (s : Oam.State) (i : Nat) : Res (List Field) := do
  let h ← at_ s.hasMd i
  if h = 1 then do
    let az ← at_ s.coded.az i
    let el ← at_ s.coded.el i
    let rad ← at_ s.coded.rad i
    let gain ← at_ s.coded.gain i
    let pri ← (if c.dynPriority then do
        let p ← at_ s.coded.pri i
        .ok [word p 3]
      else .ok [])
    let sw ← at_ s.coded.sw i
    let spread ← (if c.uniformSpread then .ok [word sw 7]
      else do
        let sh ← at_ s.coded.sh i
        let sd ← at_ s.coded.sd i
        .ok [word sw 7, word sh 5, word sd 4])
    .ok ([(h, 1), word az 8, word el 6, word rad 4, word gain 7] ++ pri ++ spread)
  else .ok [(h, 1)]

/-- One exclusion sector, impeghd_ext_rend_intrfc.c 626-642; the angles are floats. -/
def sector (s : EnhOam.Sector) : Res (List Field) :=
  if s.usePre = 0 then do
    let a ← Pcm.castInt 32 s.minAz
    let b ← Pcm.castInt 32 s.maxAz
    let c ← Pcm.castInt 32 s.minEl
    let d ← Pcm.castInt 32 s.maxEl
    .ok [(s.usePre, 1), word a 7, word b 7, word c 5, word d 5]
  else .ok [(s.usePre, 1), (s.index, 4)]

/-- `impeghd_get_goa_ele_id`, impeghd_ext_rend_intrfc.c 319-330; `asi` is `metadata_ele_id` by group
when an audio scene is there, the result is a `WORD16`. -/
def elementId (asi : Option (List (List Int))) (grp obj offset : Nat) : Res Int :=
  match asi with
  | some t => do
    let g ← at_ t grp
    at_ g obj
  | none => .ok (((offset + obj : Nat) : Int).bmod 65536)

/-- The first signal group with objects and the number of signals before it,
impeghd_ext_rend_intrfc.c 565-575. -/
def firstObj (sg : Signals) : (k grp offset : Nat) → Res (Nat × Nat)
  | 0, grp, offset => .ok (grp, offset)
  | k + 1, grp, offset => do
    let t ← at_ sg.type grp
    if t = 1 then .ok (grp, offset)
    else do
      let n ← at_ sg.numSig grp
      firstObj sg k (grp + 1) (offset + n)

/-- What the writer of object metadata looks at. `range` is `divergence_az_range`. -/
structure Objects where
  ccfl : Int
  cfg : Oam.Cfg
  n : Nat
  state : Oam.State
  enh : List EnhOam.Obj
  range : List Int
  asi : Option (List (List Int))
  prod : ProdMeta

/-- The body of the loop over the objects, impeghd_ext_rend_intrfc.c 579-644. Fixed position and
priority are taken at the index of the object (615-616); kept. -/
def object (o : Objects) (sg : Signals) (grp offset frames obj : Nat) : Res (List Field) := do
  let id ← elementId o.asi grp obj offset
  let subs ← rep (fun f => subFrame o.cfg o.state (f * o.n + obj)) frames 0
  let fixed ← at_ sg.fixed obj
  let prio ← at_ sg.prio obj
  let e ← at_ o.enh obj
  let diff ← Pcm.castInt 32 e.diff
  let div ← Pcm.castInt 32 e.div
  let range ← at_ o.range obj
  let secs ← rep (fun j => do
    let s ← at_ e.sec j
    sector s) e.num 0
  .ok ([word id 9, (o.cfg.dynPriority.toNat, 1), (o.cfg.uniformSpread.toNat, 1), (frames, 6)] ++ subs ++
    [(fixed, 1), (prio, 3), word diff 7, word div 7, word range 6, (e.num, 4)] ++ secs)

/-- `impeghd_write_goa_prod_meta_data_for_ext_ren`, impeghd_ext_rend_intrfc.c 267-281. -/
def goaProd (p : ProdMeta) (n : Nat) : Res (List Field) :=
  if p.hasObj ≠ 0 then do
    let ds ← rep (fun i => do
      let d ← at_ p.dist i
      .ok [word d 9]) n 0
    .ok (word p.hasObj 1 :: ds)
  else .ok [word p.hasObj 1]

/-- The extension elements, impeghd_ext_rend_intrfc.c 645-668: the type written is
`ID_EXT_GOA_PROD_METADATA`, the data are written only `case ID_EXT_ELE_PROD_METADATA`. -/
def goaExt (p : ProdMeta) (n : Nat) : Res (List Field) :=
  if p.present ≠ 1 then .ok [(0, 3)]
  else do
    let data ← (if idGoa = idElement then goaProd p n else .ok [])
    .ok ([(1, 3), (idGoa, 3), word p.length 10] ++ data)

/-- `impeghd_write_oam_meta_data_for_ext_ren`, impeghd_ext_rend_intrfc.c 545-670. -/
def oam (o : Objects) (sg : Signals) : Res (List Field) :=
  if o.cfg.frameLength = 0 then .ub
  else do
    let frames := (o.ccfl.tdiv o.cfg.frameLength).toNat
    let (grp, offset) ← firstObj sg sg.numGroups 0 0
    let objs ← rep (object o sg grp offset frames) o.n 0
    let ext ← goaExt o.prod o.n
    .ok ([word (o.cfg.frameLength / 64) 6, (0, 2), (o.n, 9)] ++ objs ++ ext)

/-! ### Channels -/

/-- `impeghd_write_spk_description`, impeghd_ext_rend_intrfc.c 87-135. -/
def description (d : Speaker.Descr) (prec : Nat) : List Field :=
  (d.isCicp, 1) ::
    (if d.isCicp = 0 then
      (d.elClass, 2) ::
        (if d.elClass = 3 then
          word d.elIdx (if prec ≠ 0 then 7 else 5) ::
            (if Speaker.degrees d.elIdx d.elDir prec ≠ 0 then [(d.elDir, 1)] else [])
        else []) ++
        word d.azIdx (if prec ≠ 0 then 8 else 6) ::
          ((if Speaker.degrees d.azIdx d.azDir prec ≠ 0 ∧ Speaker.degrees d.azIdx d.azDir prec ≠ 180 then
              [(d.azDir, 1)] else []) ++ [(d.lfe, 1)])
    else [(d.cicp, 7)])

/-- The body of the loop of `impeghd_write_flexispk_config`, impeghd_ext_rend_intrfc.c 157-181;
`add_symetric_pair_also` stays 0, so every speaker is visited. -/
def flexOne (l : Layout) (d : Speaker.Descr) : List Field :=
  let az := if d.isCicp = 0 then Speaker.degrees d.azIdx d.azDir l.prec else 0
  description d l.prec ++ (if az ≠ 0 ∧ az ≠ 180 then [(l.sym, 1)] else [])

/-- `impeghd_write_flexispk_config`, impeghd_ext_rend_intrfc.c 150-183. -/
def flex (l : Layout) (n : Nat) : Res (List Field) := do
  let ds ← rep (fun i => do
    let d ← at_ l.descr i
    .ok (flexOne l d)) n 0
  .ok ((l.prec, 1) :: ds)

/-- `impeghd_write_speaker_config_3d`, impeghd_ext_rend_intrfc.c 197-223. The store of -1 into
`cicp_spk_layout_idx` is not seen by these writers. -/
def speakers (l : Layout) : Res (List Field) :=
  if l.type = 0 then .ok [(l.type, 2), word l.layout 6]
  else if l.type = 1 then do
    let ids ← rep (fun i => do
      let k ← at_ l.cicpIdx i
      .ok [word k 7]) l.num.toNat 0
    .ok ((l.type, 2) :: (escape ((l.num - 1) % 2 ^ 32).toNat 5 8 16 ++ ids))
  else if l.type = 2 then do
    let fs ← flex l l.num.toNat
    .ok ((l.type, 2) :: (escape ((l.num - 1) % 2 ^ 32).toNat 5 8 16 ++ fs))
  else .ok [(l.type, 2)]

/-- One downmix matrix: the assigned groups, the length in bits and the bytes
(`dmx_matrix[]`, used at impeghd_ext_rend_intrfc.c 382-416). -/
structure Mat where
  groups : List Nat
  len : Nat
  bytes : List Nat
  deriving DecidableEq, Repr

/-- One downmix: `dmx_id`, `dmx_type`, `cicp_spk_layout_idx` and the matrices. -/
structure Dmx where
  id : Nat
  type : Nat
  layout : Int
  mats : List Mat
  deriving DecidableEq, Repr

/-- `ia_usac_ext_cfg_dmx_cfg` as far as it is written. -/
structure DmxCfg where
  type : Nat
  passive : Nat
  phase : Nat
  immersive : Nat
  ids : List Dmx
  deriving DecidableEq, Repr

/-- One matrix, impeghd_ext_rend_intrfc.c 384-416. -/
def mat (m : Mat) : Res (List Field) := do
  let bs ← rep (fun i => do
    let b ← at_ m.bytes i
    .ok [(b, 8)]) (m.len / 8) 0
  let rest ← (if m.len % 8 ≠ 0 then do
      let b ← at_ m.bytes (m.len / 8)
      .ok [(b / 2 ^ (8 - m.len % 8), m.len % 8)]
    else .ok [])
  .ok (escape (((m.groups.length : Int) - 1) % 2 ^ 32).toNat 1 4 4 ++ m.groups.map (fun g => (g, 5)) ++
    escape m.len 8 8 12 ++ bs ++ rest)

/-- One downmix, written when its layout is that of the output, impeghd_ext_rend_intrfc.c 367-424. -/
def dmx (target : Int) (d : Dmx) : Res (List Field) :=
  if d.layout = target then
    if d.type = 1 then do
      let ms ← rep (fun i => do
        let m ← at_ d.mats i
        mat m) d.mats.length 0
      .ok ([(d.id, 7), (d.type, 2), word d.layout 6] ++
        escape (((d.mats.length : Int) - 1) % 2 ^ 32).toNat 1 3 0 ++ ms)
    else if d.type = 0 then .ok [(d.id, 7), (d.type, 2), word d.layout 6]
    else .ok [(d.id, 7), (d.type, 2)]
  else .ok []

/-- `impeghd_write_downmix_cfg`, impeghd_ext_rend_intrfc.c 345-427. -/
def downmix (c : DmxCfg) (target : Int) : Res (List Field) := do
  let head := (if c.type = 0 ∨ c.type = 2 then
      (c.passive, 1) :: ((if c.passive = 0 then [(c.phase, 3)] else []) ++ [(c.immersive, 1)])
    else [])
  let ids ← (if c.type = 1 ∨ c.type = 2 then do
      let ds ← rep (fun i => do
        let d ← at_ c.ids i
        dmx target d) c.ids.length 0
      .ok ((c.ids.length, 5) :: ds)
    else .ok [])
  .ok ((c.type, 2) :: (head ++ ids))

/-- `impeghd_write_gca_prod_metadata_frm_ext_ren`, impeghd_ext_rend_intrfc.c 238-252. -/
def gcaProd (p : ProdMeta) (groups : Nat) : Res (List Field) := do
  let hs ← rep (fun i => do
    let h ← at_ p.headphone i
    .ok [word h 1]) groups 0
  .ok (hs ++ word p.hasRef 1 :: (if p.hasRef ≠ 0 then [word p.refDist 7] else []))

/-- `while (group_type[idx] != 0) idx++`, impeghd_ext_rend_intrfc.c 472-475; `fuel` is at least the
number of entries. -/
def skipTo (types : List Nat) (t : Nat) : (fuel idx : Nat) → Res Nat
  | 0, _ => .ub
  | fuel + 1, idx => do
    let x ← at_ types idx
    if x = t then .ok idx else skipTo types t fuel (idx + 1)

/-- The body of the loop over the channel groups, impeghd_ext_rend_intrfc.c 468-525: the fields and the
next `idx_ch_grp`. Number of signals and layout are written before groups of other types are passed over;
kept. The element ids are those of an array that was never filled (`id_element`, 452). -/
def chGroup (sg : Signals) (dm : Option DmxCfg) (target : Int) (p : ProdMeta) (grp idx : Nat) :
    Res (List Field × Nat) := do
  let ns ← at_ sg.numSig idx
  let lay ← at_ sg.layouts idx
  let lf ← speakers lay
  let idx ← skipTo sg.type 0 (sg.type.length + 1) idx
  let n ← at_ sg.numSig idx
  let ids ← rep (fun ch => if grp < 32 ∧ ch < 32 then .ok [(0, 9)] else .ub) n 0
  let fixed ← at_ sg.fixed idx
  let prio ← at_ sg.prio idx
  let df ← (match dm with
    | some c => do
      let f ← downmix c target
      .ok ((1, 1) :: f)
    | none => .ok [(0, 1)])
  let ext ← (if p.present ≠ 1 then .ok [(0, 3)]
    else do
      let f ← gcaProd p sg.chGroups
      .ok ([(1, 3), (idGoa, 3), word p.length 10] ++ f))
  .ok (((ns, 16) :: (lf ++ ids ++ [(fixed, 1), (prio, 3), (96, 8)] ++ df ++ ext)), idx + 1)

/-- The loop over the channel groups, impeghd_ext_rend_intrfc.c 468-525. -/
def chLoop (sg : Signals) (dm : Option DmxCfg) (target : Int) (p : ProdMeta) :
    (k grp idx : Nat) → Res (List Field)
  | 0, _, _ => .ok []
  | k + 1, grp, idx => do
    let r ← chGroup sg dm target p grp idx
    let fs ← chLoop sg dm target p k (grp + 1) r.2
    .ok (r.1 ++ fs)

/-- `impeghd_write_ch_meta_data_for_ext_ren`, impeghd_ext_rend_intrfc.c 443-527. -/
def channels (sg : Signals) (dm : Option DmxCfg) (target : Int) (p : ProdMeta) : Res (List Field) := do
  let gs ← chLoop sg dm target p sg.chGroups 0 0
  .ok ([(16, 6), (0, 2), (sg.chGroups, 9)] ++ gs)

/-! ### Buffers and samples -/

/-- `*_md_payload_length`, ia_core_coder_decode_main.c 2071, 2183, 2325. -/
def payloadLength (fs : List Field) : Nat := ((fs.map Prod.snd).sum + 7) / 8

/-- The size passed to `impeghd_create_write_bit_buffer`, ia_core_coder_decode_main.c 2067-2068. -/
def bufSize : Nat := 768

/-- `MAX_24` and `MIN_24`, used at ia_core_coder_decode_main.c 2086. -/
def max24 : Int := 8388607
def min24 : Int := -8388608

/-- One sample of the PCM output for an external renderer, ia_core_coder_decode_main.c 2084-2090: three
bytes. -/
def pcm (x : Rat) : Res (List Nat) := do
  let v ← Pcm.castInt 32 (x * 256)
  let v := max (min v max24) min24
  .ok [(v % 256).toNat, (v / 256 % 256).toNat, (v / 65536 % 256).toNat]

/-- `for (channel = 0; ...)`, ia_core_coder_decode_main.c 2082-2091, for time `t`. -/
def pcmTime (rows : List (List Rat)) (t : Nat) : (k ch : Nat) → Res (List Nat)
  | 0, _ => .ok []
  | k + 1, ch => do
    let row ← at_ rows ch
    let x ← at_ row t
    let a ← pcm x
    let b ← pcmTime rows t k (ch + 1)
    .ok (a ++ b)

/-- `for (s = 0; ...)`, ia_core_coder_decode_main.c 2080-2092: `k` times from `t` on for `n` channels. -/
def pcmLoop (rows : List (List Rat)) (n : Nat) : (k t : Nat) → Res (List Nat)
  | 0, _ => .ok []
  | k + 1, t => do
    let a ← pcmTime rows t n 0
    let b ← pcmLoop rows n k (t + 1)
    .ok (a ++ b)

end Verif.ExtRend
