import Verif.Model.Loop

/-!
# Audio scene information: `impeghd_mhas_parse.c` 67-692 and 969-1195

Types and table sizes: `impeghd_mhas_parse.h` 62-370.

Simplifications: a parser returns the new tables; what an *error return* leaves half written is
not modelled. Array fields whose C contents beyond the signalled count are left over from an
earlier scene are modelled as the list of freshly read entries; every array store is still
guarded by the size of the array (`inTable`, `setAt`), outside of which it is `ub`.
A field that is sent only under a flag is 0 without the flag; the code leaves what an earlier scene put
there, and reads it only under the flag.
Left shifts of signed values wrap, as gcc and clang define them.
-/

namespace Verif.Asi

open Prog

/-- `ia_mae_group_def`, impeghd_mhas_parse.h 111-131 (`metadata_ele_id` as the list of entries read). -/
structure GroupDef where
  groupId : Int := 0
  allowOnOff : Nat := 0
  defaultOnOff : Nat := 0
  allowPos : Nat := 0
  minAz : Nat := 0
  maxAz : Nat := 0
  minEl : Nat := 0
  maxEl : Nat := 0
  minDist : Nat := 0
  maxDist : Nat := 0
  allowGain : Nat := 0
  minGain : Nat := 0
  maxGain : Nat := 0
  numMembers : Int := 0
  conjunct : Nat := 0
  startId : Nat := 0
  members : List Nat := []
  deriving DecidableEq, Repr

/-- `ia_mae_switch_group_def`, impeghd_mhas_parse.h 133-141. -/
structure SwitchDef where
  groupId : Int := 0
  allowOnOff : Nat := 0
  defaultOnOff : Nat := 0
  numMembers : Int := 0
  members : List Nat := []
  defaultGroup : Nat := 0
  deriving DecidableEq, Repr

/-- One condition of a preset. -/
structure Cond where
  refId : Nat := 0
  onOff : Nat := 0
  disableGain : Nat := 0
  gainFlag : Nat := 0
  gain : Nat := 0
  disablePos : Nat := 0
  posFlag : Nat := 0
  az : Nat := 0
  el : Nat := 0
  dist : Nat := 0
  deriving DecidableEq, Repr

/-- `ia_mae_group_presets_def`, impeghd_mhas_parse.h 143-158. -/
structure PresetDef where
  groupId : Int := 0
  kind : Nat := 0
  numConditions : Int := 0
  conds : List Cond := []
  deriving DecidableEq, Repr

/-- The error codes of the scene parser, `impeghd_error_codes.h`. -/
def invalidGrpId : ErrCode := .invalidGroupId
def presetFail : ErrCode := .invalidPreset
def parseFail : ErrCode := .asiParseFail

/-- Is the id of entry `grp` used by an earlier entry? The loops at 347-353, 432-439,
486-493 compare `ids[grp]` with `ids[grp-1] .. ids[0]`. -/
def dupId (ids : List Int) (grp : Nat) (id : Int) : Bool := (ids.take grp).contains id

/-- Body of the loop of `impeghd_mae_asi_group_def`, 343-405. -/
def groupDef (grp : Nat) (tbl : List GroupDef) : Prog (List GroupDef) := do
  inTable grp tbl.length
  let id ← bits 7
  let id := toI8 id
  if dupId (tbl.map GroupDef.groupId) grp id then fail invalidGrpId
  else do
    let allowOnOff ← bits 1
    let defaultOnOff ← bits 1
    let allowPos ← bits 1
    let p := allowPos != 0
    let minAz ← optBits p 7
    let maxAz ← optBits p 7
    let minEl ← optBits p 5
    let maxEl ← optBits p 5
    let minDist ← optBits p 4
    let maxDist ← optBits p 4
    let allowGain ← bits 1
    let g := allowGain != 0
    let minGain ← optBits g 6
    let maxGain ← optBits g 5
    let nm ← bits 7
    -- `(WORD8)read + 1` stored in a `WORD8`
    let numMembers := toI8 (toI8 nm + 1)
    let conjunct ← bits 1
    if conjunct != 0 then do
      let startId ← bits 7
      setAt tbl grp { groupId := id, allowOnOff, defaultOnOff, allowPos, minAz, maxAz, minEl,
                      maxEl, minDist, maxDist, allowGain, minGain, maxGain, numMembers,
                      conjunct, startId }
    else do
      let members ← forN (fun i => do inTable i 128; bits 7) numMembers.toNat 0
      setAt tbl grp { groupId := id, allowOnOff, defaultOnOff, allowPos, minAz, maxAz, minEl,
                      maxEl, minDist, maxDist, allowGain, minGain, maxGain, numMembers,
                      conjunct, members }

/-- `impeghd_mae_asi_group_def`, 339-407. -/
def groupDefs (num : Nat) (tbl : List GroupDef) : Prog (List GroupDef) :=
  foldN groupDef num 0 tbl

/-- Body of `impeghd_mae_asi_switch_group_def`, 427-458. -/
def switchDef (grp : Nat) (tbl : List SwitchDef) : Prog (List SwitchDef) := do
  inTable grp tbl.length
  let id ← bits 5
  let id := toI8 id
  if dupId (tbl.map SwitchDef.groupId) grp id then fail invalidGrpId
  else do
    let allowOnOff ← bits 1
    let defaultOnOff ← optBits (allowOnOff != 0) 1
    let nm ← bits 5
    let numMembers := toI8 (toI8 nm + 1)
    let members ← forN (fun i => do inTable i 32; bits 7) numMembers.toNat 0
    let defaultGroup ← bits 7
    setAt tbl grp { groupId := id, allowOnOff, defaultOnOff, numMembers, members, defaultGroup }

/-- `impeghd_mae_asi_switch_group_def`, 422-460. -/
def switchDefs (num : Nat) (tbl : List SwitchDef) : Prog (List SwitchDef) :=
  foldN switchDef num 0 tbl

/-- One condition, 505-554. `g` is `group_definition[grp]`, indexed with the *preset* index. -/
def presetCond (g : GroupDef) (cnt : Nat) : Prog Cond := do
  inTable cnt 16
  let refId ← bits 7
  let onOff ← bits 1
  if onOff != 0 then do
    let disableGain ← bits 1
    let gainFlag ← bits 1
    let gain ← optBits (gainFlag != 0) 8
    if g.allowGain = 0 ∧ gainFlag ≠ 0 then fail presetFail
    else do
      let disablePos ← bits 1
      let posFlag ← bits 1
      let q := posFlag != 0
      let az ← optBits q 8
      let el ← optBits q 6
      let dist ← optBits q 4
      if g.allowPos = 0 ∧ posFlag ≠ 0 then fail presetFail
      else pure { refId, onOff, disableGain, gainFlag, gain, disablePos, posFlag, az, el, dist }
  else pure { refId, onOff }

/-- Body of `impeghd_mae_asi_group_presets_def`, 481-555. -/
def presetDef (groups : List GroupDef) (grp : Nat) (tbl : List PresetDef) :
    Prog (List PresetDef) := do
  inTable grp tbl.length
  let id ← bits 5
  let id := toI8 id
  if dupId (tbl.map PresetDef.groupId) grp id then fail invalidGrpId
  else do
    let kind ← bits 5
    let nc ← bits 4
    let numConditions := toI8 (toI8 nc + 1)
    if numConditions > 16 then fail presetFail
    else do
      let g ← getAt groups grp
      let conds ← forN (presetCond g) numConditions.toNat 0
      setAt tbl grp { groupId := id, kind, numConditions, conds }

/-- `impeghd_mae_asi_group_presets_def`, 475-557. -/
def presetDefs (groups : List GroupDef) (num : Nat) (tbl : List PresetDef) :
    Prog (List PresetDef) :=
  foldN (presetDef groups) num 0 tbl

/-- One condition of the preset extension, 610-687. -/
def extCond (g : GroupDef) (idx : Nat) : Prog Unit := do
  inTable idx 16
  let sw ← bits 1
  let _ ← bits (if sw != 0 then 5 else 7)
  let onOff ← bits 1
  if onOff != 0 then do
    let dg ← bits 1
    if g.allowGain = 0 ∧ dg ≠ 1 then fail presetFail
    else do
      let gf ← bits 1
      let _ ← optBits (gf != 0) 8
      if g.allowGain = 0 ∧ gf ≠ 0 then fail presetFail
      else do
        let dp ← bits 1
        if g.allowPos = 0 ∧ dp ≠ 1 then fail presetFail
        else do
          let pf ← bits 1
          let _ ← optBits (pf != 0) 8
          let _ ← optBits (pf != 0) 6
          let _ ← optBits (pf != 0) 4
          if g.allowPos = 0 ∧ pf ≠ 0 then fail presetFail
          else pure ()
  else pure ()

/-- One downmix id of the preset extension, 602-688. -/
def extDmx (g : GroupDef) (cnt : Nat) : Prog Unit := do
  inTable cnt 32
  let _ ← bits 7
  let n ← bits 4
  let _ ← forN (extCond g) n 0
  pure ()

/-- Body of `impeghd_mae_asi_group_presets_def_ext`, 578-690. -/
def presetExt1 (groups : List GroupDef) (numConditions : Int) (grp : Nat) : Prog Unit := do
  inTable grp 8
  let hasSw ← bits 1
  when (hasSw != 0) do
    let _ ← forN (fun c => do inTable c 16; bits 1) numConditions.toNat 0
    pure ()
  let hasDmx ← bits 1
  if hasDmx != 0 then do
    let n ← bits 5
    let num := toI8 (n + 1)
    if num > 8 then fail presetFail
    else do
      let g ← getAt groups grp
      let _ ← forN (extDmx g) num.toNat 0
      pure ()
  else pure ()

/-- `impeghd_mae_asi_group_presets_def_ext`, 571-692. -/
def presetExt (groups : List GroupDef) (numPresets : Nat) (numConditions : Int) : Prog Unit := do
  let _ ← forN (presetExt1 groups numConditions) numPresets 0
  pure ()

/-- One language of a description block, 91-103: `(WORD8)read + 1` in a `WORD8`. -/
def descrLang (cnt : Nat) : Prog (Nat × Int × List Nat) := do
  inTable cnt 4
  let lang ← bits 24
  let len ← bits 8
  let len := toI8 (toI8 len + 1)
  let txt ← forN (fun i => do inTable i 256; bits 8) len.toNat 0
  pure (lang, len, txt)

/-- One description block, 78-104. -/
def descrBlock (idBits blk : Nat) : Prog (Nat × List (Nat × Int × List Nat)) := do
  inTable blk 128
  let id ← bits idBits
  let n ← bits 4
  let n := toI8 (toI8 n + 1)
  if n > 4 then fail (.other 1)
  else do
    let ls ← forN descrLang n.toNat 0
    pure (id, ls)

/-- `impeghd_mae_parse_description_data`, 67-106. -/
def description (idBits : Nat) : Prog (List (Nat × List (Nat × Int × List Nat))) := do
  let n ← bits 7
  let n := toU8 (toI8 n + 1)
  if n > 128 then fail (.other 2)
  else forN (descrBlock idBits) n.toNat 0

/-- `impeghd_mae_parse_content_data`, 119-133. -/
def content : Prog (List (Nat × Nat × Nat)) := do
  let n ← bits 7
  forN (fun blk => do
    inTable blk 128
    let id ← bits 7
    let kind ← bits 4
    let has ← bits 1
    let lang ← optBits (has != 0) 24
    pure (id, kind, lang)) (n + 1) 0

/-- `impeghd_mae_parse_composite_pair`, 146-155. -/
def composite : Prog (List (Nat × Nat)) := do
  let n ← bits 7
  forN (fun i => do
    inTable i 128
    let a ← bits 7
    let b ← bits 7
    pure (a, b)) n 0

/-- `impeghd_mae_parse_prod_screen_sz_data`, 168-179. -/
def screenSize : Prog (Nat × Nat × Nat × Nat) := do
  let h ← bits 1
  let a ← optBits (h != 0) 9
  let b ← optBits (h != 0) 9
  let c ← optBits (h != 0) 9
  pure (h, a, b, c)

/-- `impeghd_mae_parse_prod_screen_sz_data_ext`, 192-232. -/
def screenSizeExt : Prog Unit := do
  let o ← bits 1
  let _ ← optBits (o != 0) 10
  let _ ← optBits (o != 0) 10
  let n ← bits 5
  let _ ← forN (fun i => do
    inTable i 31
    let _ ← bits 5
    let ns ← bits 1
    if ns != 0 then do
      let c ← bits 1
      let _ ← optBits (c != 0) 9
      let _ ← optBits (c = 0) 10
      let _ ← optBits (c = 0) 10
      let _ ← bits 9
      let _ ← bits 9
      pure ()
    else pure ()) n 0
  pure ()

/-- `impeghd_mae_parse_loudness_comp_data`, 246-296. -/
def loudnessComp (numGroups numPresets : Nat) : Prog Unit := do
  let glp ← bits 1
  let _ ← forN (fun i => do inTable i 16; bits 8) (if glp != 0 then numGroups else 0) 0
  let dpp ← bits 1
  when (dpp != 0) do
    let _ ← forN (fun i => do inTable i 16; bits 1) numGroups 0
    let mm ← bits 1
    let _ ← optBits (mm != 0) 4
    let _ ← optBits (mm != 0) 4
    pure ()
  let _ ← forN (fun c => do
    inTable c 8
    let pp ← bits 1
    if pp != 0 then do
      let _ ← forN (fun i => do inTable i 16; bits 1) numGroups 0
      let mm ← bits 1
      let _ ← optBits (mm != 0) 4
      let _ ← optBits (mm != 0) 4
      pure ()
    else pure ()) numPresets 0
  pure ()

/-- `impeghd_mae_parse_drc_user_interface_info`, 309-325. -/
def drcUi : Prog (List (Nat × Int)) := do
  let v ← bits 2
  if v = 0 then do
    let n ← bits 3
    forN (fun c => do
      inTable c 7
      inTable (c + 1) 8
      let t ← bits 6
      let e ← bits 16
      pure (t, toI8 e)) n 0
  else pure []

/-- The scene tables, `ia_mae_audio_scene_info`, impeghd_mhas_parse.h 339-370 (the part that the parser
reads back or that the properties talk about). -/
structure Scene where
  mainStream : Nat := 0
  asiId : Nat := 0
  numGroups : Int := 0
  groups : List GroupDef
  numSwitch : Int := 0
  switches : List SwitchDef
  numPresets : Int := 0
  presets : List PresetDef
  /-- data sets seen: type and length field as stored -/
  dataSets : List (Int × Int) := []
  groupDescr : List (Nat × List (Nat × Int × List Nat)) := []
  switchDescr : List (Nat × List (Nat × Int × List Nat)) := []
  presetDescr : List (Nat × List (Nat × Int × List Nat)) := []
  contentData : List (Nat × Nat × Nat) := []
  compositePairs : List (Nat × Nat) := []
  screen : Nat × Nat × Nat × Nat := (0, 0, 0, 0)
  drcUiInfo : List (Nat × Int) := []
  idOffset : Nat := 0
  idMaxAvail : Nat := 0
  deriving DecidableEq, Repr

/-- The arrays of the structure: 16 groups, 8 switch groups, 8 presets. -/
def Scene.empty : Scene :=
  { groups := List.replicate 16 {}, switches := List.replicate 8 {},
    presets := List.replicate 8 {} }

/-- The body of the `switch` on the data type, 988-1101. `seen` are the known types counted so
far (the ten `num_...` counters). -/
def dataSetBody (sc : Scene) (seen : List Nat) (ty len : Nat) : Prog (Scene × List Nat) :=
  if ty ≤ 9 ∧ ty ∈ seen then fail parseFail
  else
    match ty with
    | 9 => do
      loudnessComp sc.numGroups.toNat sc.numPresets.toNat
      pure (sc, ty :: seen)
    | 8 => do
      let p0 ← getAt sc.presets 0
      presetExt sc.groups sc.numPresets.toNat p0.numConditions
      pure (sc, ty :: seen)
    | 7 => do
      screenSizeExt
      pure (sc, ty :: seen)
    | 6 => do
      let d ← drcUi
      pure ({ sc with drcUiInfo := d }, ty :: seen)
    | 5 => do
      let d ← description 5
      pure ({ sc with presetDescr := d }, ty :: seen)
    | 4 => do
      let d ← screenSize
      pure ({ sc with screen := d }, ty :: seen)
    | 3 => do
      let d ← composite
      pure ({ sc with compositePairs := d }, ty :: seen)
    | 2 => do
      let d ← content
      pure ({ sc with contentData := d }, ty :: seen)
    | 1 => do
      let d ← description 5
      pure ({ sc with switchDescr := d }, ty :: seen)
    | 0 => do
      let d ← description 7
      pure ({ sc with groupDescr := d }, ty :: seen)
    | _ => do
      let _ ← forN (fun _ => bits 8) len 0
      pure (sc, seen)

/-- One data set, 982-1109. The signed shift `data_len << 3` wraps. -/
def dataSet (cnt : Nat) (st : Scene × List Nat) : Prog (Scene × List Nat) := do
  inTable cnt 15
  let ty ← bits 4
  let len ← bits 16
  let len16 := toI16 len
  let c0 ← avail
  let (sc, seen) ← dataSetBody st.1 st.2 ty len
  let c1 ← avail
  when (c0 - c1 < toI32 (len16 * 8)) (drop (toI32 (len16 * 8) - (c0 - c1)))
  pure ({ sc with dataSets := sc.dataSets ++ [((ty : Int), len16)] }, seen)

/-- `impeghd_mae_asi_data_parse`, 969-1111. -/
def dataParse (sc : Scene) : Prog Scene := do
  let n ← bits 4
  let (sc, _) ← foldN dataSet n 0 ({ sc with dataSets := [] }, [])
  pure sc

/-- `impeghd_mae_asi_parse`, 1125-1195. -/
def parse (sc : Scene) : Prog Scene := do
  let main ← bits 1
  if main != 0 then do
    let idp ← bits 1
    let asiId ← bitsOr (idp != 0) 8 sc.asiId
    let ng ← bits 7
    let ng := toI8 ng
    if ng > 16 then fail (.other 3)
    else do
      let groups ← groupDefs ng.toNat sc.groups
      let ns ← bits 5
      if ns > 8 then fail (.other 4)
      else do
        let switches ← switchDefs ns sc.switches
        let np ← bits 5
        let np := toI8 np
        if np > 8 then fail (.other 5)
        else do
          let presets ← presetDefs groups np.toNat sc.presets
          let sc ← dataParse { sc with mainStream := main, asiId, numGroups := ng, groups,
                                       numSwitch := ns, switches, numPresets := np, presets }
          let mx ← bits 7
          pure { sc with idOffset := 0, idMaxAvail := mx }
  else do
    let off ← bits 7
    let mx ← bits 7
    pure { sc with mainStream := 0, idOffset := off + 1, idMaxAvail := mx }

end Verif.Asi
