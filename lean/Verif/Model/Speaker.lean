import Verif.Model.Loop
import Verif.Model.Escape

/-! # Loudspeaker layouts: `impeghd_cicp_2_geometry.c`, the speaker part of
`ia_core_coder_init_config.c`

Fields that are never read (`also_add_symetric_pair`, the start and end angles of the geometry table)
are left out. -/

namespace Verif.Speaker

open Prog

/-- `ls_azimuth`, `ls_elevation`, `lfe_flag`, `screen_rel_flag` of `ia_cicp_ls_geo_str`. -/
structure Geo where
  az : Int
  el : Int
  lfe : Nat
  scr : Nat
  deriving DecidableEq, Repr

/-- `ia_cicp_ls_geo_tbls`, impeghd_cicp_2_geometry_rom.c 110-156 (43 entries). -/
def geoTbl : List Geo :=
  [⟨30, 0, 0, 0⟩,
   ⟨-30, 0, 0, 0⟩,
   ⟨0, 0, 0, 0⟩,
   ⟨0, 0, 1, 0⟩,
   ⟨110, 0, 0, 0⟩,
   ⟨-110, 0, 0, 0⟩,
   ⟨22, 0, 0, 0⟩,
   ⟨-22, 0, 0, 0⟩,
   ⟨135, 0, 0, 0⟩,
   ⟨-135, 0, 0, 0⟩,
   ⟨180, 0, 0, 0⟩,
   ⟨0, 0, 0, 0⟩,
   ⟨0, 0, 0, 0⟩,
   ⟨90, 0, 0, 0⟩,
   ⟨-90, 0, 0, 0⟩,
   ⟨60, 0, 0, 0⟩,
   ⟨-60, 0, 0, 0⟩,
   ⟨30, 35, 0, 0⟩,
   ⟨-30, 35, 0, 0⟩,
   ⟨0, 35, 0, 0⟩,
   ⟨135, 35, 0, 0⟩,
   ⟨-135, 35, 0, 0⟩,
   ⟨180, 35, 0, 0⟩,
   ⟨90, 35, 0, 0⟩,
   ⟨-90, 35, 0, 0⟩,
   ⟨0, 90, 0, 0⟩,
   ⟨45, -15, 1, 0⟩,
   ⟨45, -15, 0, 0⟩,
   ⟨-45, -15, 0, 0⟩,
   ⟨0, -15, 0, 0⟩,
   ⟨110, 35, 0, 0⟩,
   ⟨-110, 35, 0, 0⟩,
   ⟨45, 35, 0, 0⟩,
   ⟨-45, 35, 0, 0⟩,
   ⟨45, 0, 0, 0⟩,
   ⟨-45, 0, 0, 0⟩,
   ⟨-45, -15, 1, 0⟩,
   ⟨60, 0, 0, 1⟩,
   ⟨-60, 0, 0, 1⟩,
   ⟨30, 0, 0, 1⟩,
   ⟨-30, 0, 0, 1⟩,
   ⟨150, 0, 0, 0⟩,
   ⟨-150, 0, 0, 0⟩]

/-- `ia_cicp_idx_ls_set_map_tbl` with the lists it points to, impeghd_cicp_2_geometry_rom.c 158-217;
`none` is the null pointer. -/
def layoutTbl : List (Option (List Nat)) :=
  [none,
   some [2],
   some [0, 1],
   some [0, 1, 2],
   some [0, 1, 2, 10],
   some [0, 1, 2, 4, 5],
   some [0, 1, 2, 3, 4, 5],
   some [0, 1, 2, 3, 4, 5, 15, 16],
   none,
   some [0, 1, 10],
   some [0, 1, 4, 5],
   some [0, 1, 2, 3, 4, 5, 10],
   some [0, 1, 2, 3, 4, 5, 8, 9],
   some [15, 16, 2, 26, 8, 9, 0, 1, 10, 36, 13, 14, 32, 33, 19, 25, 20, 21, 23, 24, 22, 29, 27, 28],
   some [0, 1, 2, 3, 4, 5, 17, 18],
   some [0, 1, 2, 26, 8, 9, 36, 13, 14, 32, 33, 22],
   some [0, 1, 2, 3, 4, 5, 17, 18, 30, 31],
   some [0, 1, 2, 3, 4, 5, 17, 18, 19, 30, 31, 25],
   some [0, 1, 2, 3, 4, 5, 41, 42, 17, 18, 19, 30, 31, 25],
   some [0, 1, 2, 3, 8, 9, 13, 14, 17, 18, 20, 21],
   some [0, 1, 2, 3, 8, 9, 13, 14, 32, 33, 20, 21, 37, 38]]

/-- `impgehd_cicp_get_num_ls`, impeghd_cicp_2_geometry_rom.c 107-108. -/
def numLsTbl : List Nat :=
  [0, 1, 2, 3, 4, 5, 6, 8, 0, 3, 4, 7, 8, 24, 8, 12, 10, 12, 14, 12, 14]

/-- `CICP_MAX_NUM_LS`, impeghd_obj_ren_dec_defines.h 45: length of the pointer arrays. -/
def maxLs : Nat := 44
/-- `CICP2GEOMETRY_MAX_LOUDSPEAKERS`, ia_core_coder_config.h 357: descriptors and geometry entries. -/
def maxDescr : Nat := 32
/-- `MAX_NUM_SPEAKERS`, ia_core_coder_config.h 65. -/
def maxSpeakers : Nat := 24

/-- The loop of `impeghd_cicpidx_2_ls_geometry`, impeghd_cicp_2_geometry.c 91-96: `ptrs[base + ch]`
is made to point at entry `names[ch]` of the geometry table. Pointers are table indices, `none` is an
uninitialised pointer. -/
def fillPtrs (names : List Nat) (base : Nat) (num : Nat) (s : List (Option Nat) × Nat) :
    Prog (List (Option Nat) × Nat) :=
  foldN (fun ch s => do
    let idx ← getAt names ch
    let g ← getAt geoTbl idx
    let ptrs ← setAt s.1 (base + ch) (some idx)
    pure (ptrs, s.2 + g.lfe)) num 0 s

/-- What `impeghd_cicpidx_2_ls_geometry` gives back when it succeeds. -/
structure LsGeo where
  ptrs : List (Option Nat)
  num : Nat
  lfe : Nat
  names : List Nat
  deriving DecidableEq, Repr

/-- `impeghd_cicpidx_2_ls_geometry`, impeghd_cicp_2_geometry.c 76-98, with `pp_cicp_ls_geometry`
equal to `&ptrs[base]`. Every caller modelled here passes an index that is not negative. `none` is the
error return, which writes nothing. -/
def cicpToGeo (idx : Nat) (ptrs : List (Option Nat)) (base : Nat) : Prog (Option LsGeo) :=
  if idx > 20 ∨ idx = 8 ∨ idx = 0 then pure none
  else do
    let names ← getAt layoutTbl idx
    let num ← getAt numLsTbl idx
    match names with
    | none => undef
    | some names =>
      let r ← fillPtrs names base num (ptrs, 0)
      pure (some ⟨r.1, num, r.2, names⟩)

/-- `ia_flex_spk_cfg_str`, ia_core_coder_config.h 345-355. -/
structure Descr where
  isCicp : Nat
  cicp : Nat
  elClass : Nat
  elIdx : Int
  elDir : Nat
  azIdx : Int
  azDir : Nat
  lfe : Nat
  deriving DecidableEq, Repr

/-- A descriptor in memory that was cleared. -/
def Descr.zero : Descr := ⟨0, 0, 0, 0, 0, 0, 0, 0⟩

/-- `impeghd_azi_idx_degree` and `impeghd_elev_idx_degree` (the same text),
ia_core_coder_init_config.c 1788-1840. -/
def degrees (idx : Int) (dir prec : Nat) : Int :=
  let v := if prec ≠ 0 then idx else idx * 5
  if dir = 1 then -v else v

/-- The elevation part of `impeghd_spk_description`, ia_core_coder_init_config.c 1086-1114. The flag
says that the function returned an error there. -/
def elevation (d : Descr) (prec : Nat) : Prog (Bool × Descr) := do
  let ei ← bits (if prec ≠ 0 then 7 else 5)
  let d := { d with elIdx := (ei : Int) }
  if ei > (if prec ≠ 0 then 90 else 18) then pure (true, d)
  else if degrees (ei : Int) d.elDir prec ≠ 0 then do
    let dir ← bits 1
    pure (false, { d with elDir := dir, elIdx := if dir ≠ 0 then -(ei : Int) else (ei : Int) })
  else pure (false, d)

/-- The azimuth part, ia_core_coder_init_config.c 1116-1141. Whether the direction is sent is decided
with the direction the descriptor held before. -/
def azimuth (d : Descr) (prec : Nat) : Prog (Bool × Descr) := do
  let ai ← bits (if prec ≠ 0 then 8 else 6)
  let d := { d with azIdx := (ai : Int) }
  if ai > (if prec ≠ 0 then 180 else 36) then pure (true, d)
  else do
    let deg := degrees (ai : Int) d.azDir prec
    let dir ← bitsOr (decide (deg ≠ 0 ∧ deg ≠ 180)) 1 d.azDir
    let lfe ← bits 1
    pure (false, { d with azDir := dir, lfe := lfe })

/-- `impeghd_spk_description`, ia_core_coder_init_config.c 1076-1148; the flag is the error return. -/
def description (d : Descr) (prec : Nat) : Prog (Bool × Descr) := do
  let ic ← bits 1
  let d := { d with isCicp := ic }
  if ic = 0 then do
    let ec ← bits 2
    let d := { d with elClass := ec }
    let r ← (if ec = 3 then elevation d prec else pure (false, d))
    if r.1 then pure r else azimuth r.2 prec
  else do
    let idx ← bits 7
    pure (false, { d with cicp := idx })

/-- The azimuth `impeghd_flexispk_config` decides on, ia_core_coder_init_config.c 1176-1200, and the
descriptor with `az_angle_idx` replaced by degrees. -/
def settle (d : Descr) (prec : Nat) : Prog (Int × Descr) :=
  if d.isCicp = 0 then
    let az := degrees d.azIdx d.azDir prec
    pure (az, { d with azIdx := az })
  else if d.cicp < 20 ∧ d.cicp ≠ 0 ∧ d.cicp ≠ 8 then do
    let g ← getAt geoTbl d.cicp
    pure (g.az, d)
  else pure (0, d)

/-- The loop of `impeghd_flexispk_config`, ia_core_coder_init_config.c 1170-1214. The error of the
description is not looked at. `fuel` bounds the number of turns; each turn raises `i`. -/
def flexLoop (prec n : Nat) : (fuel i : Nat) → List Descr → Prog (List Descr)
  | 0, _, ds => pure ds
  | fuel + 1, i, ds =>
    if i < n then do
      let d ← getAt ds i
      let r ← description d prec
      inTable i maxLs
      let s ← settle r.2 prec
      let ds ← setAt ds i s.2
      let pair ← optBits (decide (s.1 ≠ 0 ∧ s.1 ≠ 180)) 1
      if pair ≠ 0 then do
        let ds ← setAt ds (i + 1) { s.2 with azDir := (65537 - s.2.azDir) % 65536 }
        flexLoop prec n fuel (i + 2) ds
      else flexLoop prec n fuel (i + 1) ds
    else pure ds

/-- `impeghd_flexispk_config`, ia_core_coder_init_config.c 1162-1216: the precision and the
descriptors. -/
def flexConfig (ds : List Descr) (n : Nat) : Prog (Nat × List Descr) := do
  let prec ← bits 1
  let ds ← flexLoop prec n n 0 ds
  pure (prec, ds)

/-- `ia_ch_geometry`, ia_core_coder_config.h 377-385 (`loudspeaker_type` is always "known"). -/
structure ChGeo where
  cicp : Int
  az : Int
  el : Int
  lfe : Nat
  scr : Nat
  deriving DecidableEq, Repr

/-- `ia_interface_speaker_config_3d`, ia_core_coder_config.h 387-398. -/
structure Cfg where
  type : Nat
  layout : Int
  cicpIdx : List Nat
  prec : Nat
  descr : List Descr
  numSpeakers : Int
  numCh : Int
  numLfe : Int
  geom : List ChGeo
  deriving DecidableEq, Repr

/-- Arrays of the declared sizes. -/
def Cfg.Shape (c : Cfg) : Prop :=
  c.cicpIdx.length = maxDescr ∧ c.descr.length = maxDescr ∧ c.geom.length = maxDescr

/-- A cleared configuration. -/
def Cfg.zero : Cfg :=
  ⟨0, 0, List.replicate 32 0, 0, List.replicate 32 Descr.zero, 0, 0, 0,
    List.replicate 32 ⟨0, 0, 0, 0, 0⟩⟩

/-- Reading through a pointer of the array; an uninitialised pointer is undefined. -/
def deref (ptrs : List (Option Nat)) (i : Nat) : Prog Geo := do
  let p ← getAt ptrs i
  match p with
  | none => undef
  | some k => getAt geoTbl k

/-- `impeghd_fill_ls_geom_frm_cicp_spk_idx`, ia_core_coder_init_config.c 1855-1884. -/
def fillLayout (idx : Nat) (c : Cfg) : Prog Cfg := do
  let r ← cicpToGeo idx (List.replicate maxLs none) 0
  match r with
  | none => pure c
  | some r => do
    let geom ← foldN (fun i geom => do
      let n ← getAt r.names i
      let g ← deref r.ptrs i
      setAt geom i ⟨n, g.az, g.el, g.lfe, g.scr⟩) r.num 0 c.geom
    pure { c with geom := geom, numLfe := r.lfe, numCh := r.num - r.lfe }

/-- The pointers after a call whose error is not looked at. -/
def ptrsOr (r : Option LsGeo) (ptrs : List (Option Nat)) : List (Option Nat) :=
  match r with
  | none => ptrs
  | some r => r.ptrs

/-- Layout type 2 of `impeghd_get_geom_frm_spk_cfg`, ia_core_coder_init_config.c 1915-1952. -/
def geomFlex (c : Cfg) (n : Nat) : Prog Cfg := do
  let s ← foldN (fun i (s : List (Option Nat) × Cfg) => do
    let d ← getAt s.2.descr i
    let s ← (if d.isCicp = 0 then do
        let old ← getAt s.2.geom i
        let geom ← setAt s.2.geom i ⟨-1, d.azIdx, d.elIdx, d.lfe, old.scr⟩
        pure (s.1, { s.2 with geom := geom })
      else do
        let r ← cicpToGeo d.cicp s.1 i
        let g ← deref (ptrsOr r s.1) i
        let geom ← setAt s.2.geom i ⟨d.cicp, g.az, g.el, g.lfe, g.scr⟩
        pure (ptrsOr r s.1, { s.2 with geom := geom }))
    pure (s.1, if d.lfe ≠ 0 then { s.2 with numLfe := s.2.numLfe + 1, numCh := s.2.numCh - 1 } else s.2))
    n 0 (List.replicate maxLs none, { c with numLfe := 0, numCh := c.numSpeakers })
  pure s.2

/-- Layout type 1, ia_core_coder_init_config.c 1953-1979. -/
def geomList (c : Cfg) (n : Nat) : Prog Cfg := do
  let s ← foldN (fun i (s : List (Option Nat) × Cfg) => do
    let k ← getAt s.2.cicpIdx i
    let r ← cicpToGeo k s.1 i
    let d ← getAt s.2.descr i
    let g ← deref (ptrsOr r s.1) i
    let geom ← setAt s.2.geom i ⟨d.cicp, g.az, g.el, g.lfe, g.scr⟩
    let c := { s.2 with geom := geom }
    pure (ptrsOr r s.1,
      if k = 3 ∨ k = 26 then { c with numLfe := c.numLfe + 1, numCh := c.numCh - 1 } else c))
    n 0 (List.replicate maxLs none, { c with numLfe := 0, numCh := c.numSpeakers })
  pure s.2

/-- `impeghd_speaker_config_3d`, ia_core_coder_init_config.c 1730-1774, with
`impeghd_get_geom_frm_spk_cfg`, 1899-1983. The flag is the error return. -/
def config3d (c : Cfg) : Prog (Bool × Cfg) := do
  let ty ← bits 2
  let c := { c with type := ty }
  let r ← (if ty = 0 then do
      let l ← bits 6
      let c ← fillLayout l { c with layout := l }
      pure (false, c)
    else if ty < 3 then do
      let n ← readEscape 5 8 16
      if n + 1 > maxSpeakers then pure (true, { c with numSpeakers := 0 })
      else do
        let c := { c with numSpeakers := n + 1, layout := -1 }
        if ty = 2 then do
          let r ← flexConfig c.descr (n + 1)
          let c ← geomFlex { c with prec := r.1, descr := r.2 } (n + 1)
          pure (false, c)
        else do
          let idx ← foldN (fun i idx => do
            let k ← bits 7
            setAt idx i k) (n + 1) 0 c.cicpIdx
          let c ← geomList { c with cicpIdx := idx } (n + 1)
          pure (false, c)
    else pure (false, c))
  if r.1 then pure r
  else pure (false, { r.2 with numSpeakers := r.2.numCh + r.2.numLfe })

end Verif.Speaker
