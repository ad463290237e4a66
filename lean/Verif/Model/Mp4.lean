import Verif.Model.Asi

/-!
# Scene information in boxes of an MP4 file: `impeghd_mae_mp4_intrfc.c`

The boxes are handed over by the application and read by `impeghd_api.c` 711-783. The tables are those of
`ia_mae_audio_scene_info` (impeghd_mhas_parse.h 339-370); types as in `Model/Asi.lean`.

Simplifications: as in `Model/Asi.lean` array fields are the lists of entries read, and what a box that ends early leaves half
written is not modelled. Fields that are not sent keep their old value. Offsets and distances of conditions are
the bits read; they are kept in a `WORD8`.
-/

namespace Verif.Mp4

open Prog Asi

/-- Body of the loop of `impeghd_mp4_get_maeg`, impeghd_mae_mp4_intrfc.c 296-348. -/
def group (grp : Nat) (tbl : List GroupDef) : Prog (List GroupDef) := do
  let _ ← bits 1
  let id ← bits 7
  let old ← getAt tbl grp
  let _ ← bits 3
  let allowOnOff ← bits 1
  let defaultOnOff ← bits 1
  let allowPos ← bits 1
  let allowGain ← bits 1
  let lang ← bits 1
  let _ ← bits 8
  let p := allowPos != 0
  let _ ← optBits p 1
  let minAz ← bitsOr p 7 old.minAz
  let _ ← optBits p 1
  let maxAz ← bitsOr p 7 old.maxAz
  let _ ← optBits p 3
  let minEl ← bitsOr p 5 old.minEl
  let _ ← optBits p 3
  let maxEl ← bitsOr p 5 old.maxEl
  let minDist ← bitsOr p 4 old.minDist
  let maxDist ← bitsOr p 4 old.maxDist
  let g := allowGain != 0
  let _ ← optBits g 2
  let minGain ← bitsOr g 6 old.minGain
  let _ ← optBits g 3
  let maxGain ← bitsOr g 5 old.maxGain
  let _ ← optBits (lang != 0) 8
  setAt tbl grp { old with
    groupId := toI8 id, allowOnOff, defaultOnOff, allowPos, allowGain, minAz, maxAz, minEl, maxEl, minDist, maxDist,
    numMembers := 2, conjunct := 1, minGain, maxGain }

/-- `impeghd_mp4_get_maeg`, impeghd_mae_mp4_intrfc.c 284-351: the id of the scene, the number of groups and their table. -/
def maeg (tbl : List GroupDef) : Prog (Nat × Nat × List GroupDef) := do
  let asiId ← bits 8
  let _ ← bits 1
  let num ← bits 7
  let t ← foldN group num 0 tbl
  let g0 ← getAt t 0
  let t ← setAt t 0 { g0 with startId := 0 }
  let g1 ← getAt t 1
  let t ← setAt t 1 { g1 with startId := 2 }
  pure (asiId, num, t)

/-- Body of the loop of `impeghd_mp4_get_maes`, impeghd_mae_mp4_intrfc.c 249-271. -/
def switch (grp : Nat) (tbl : List SwitchDef) : Prog (List SwitchDef) := do
  let old ← getAt tbl grp
  let _ ← bits 3
  let id ← bits 5
  let _ ← bits 3
  let n ← bits 5
  let members ← forN (fun j => do
    let _ ← bits 1
    let m ← bits 7
    inTable j 32
    pure m) n 0
  let _ ← bits 1
  let defaultGroup ← bits 7
  setAt tbl grp { old with allowOnOff := 0, groupId := id, numMembers := n, members, defaultGroup }

/-- `impeghd_mp4_get_maes`, impeghd_mae_mp4_intrfc.c 240-272. -/
def maes (tbl : List SwitchDef) : Prog (Nat × List SwitchDef) := do
  let _ ← bits 1
  let num ← bits 7
  let t ← foldN switch num 0 tbl
  pure (num, t)

/-- Body of the loop over conditions of `impeghd_mp4_get_maep`, impeghd_mae_mp4_intrfc.c 188-226. -/
def cond (j : Nat) : Prog Cond := do
  let refId ← bits 7
  inTable j 16
  let onOff ← bits 1
  if onOff != 0 then do
    let _ ← bits 4
    let disableGain ← bits 1
    let gainFlag ← bits 1
    let disablePos ← bits 1
    let posFlag ← bits 1
    let gain ← optBits (gainFlag != 0) 8
    let q := posFlag != 0
    let az ← optBits q 8
    let el ← optBits q 8
    let dist ← optBits q 8
    pure { refId, onOff, disableGain, gainFlag, gain, disablePos, posFlag, az, el, dist }
  else pure { refId, onOff }

/-- Body of the loop of `impeghd_mp4_get_maep`, impeghd_mae_mp4_intrfc.c 176-227; `num_conditions` is a `WORD8`. -/
def preset (grp : Nat) (tbl : List PresetDef) : Prog (List PresetDef) := do
  let _ ← bits 3
  let id ← bits 5
  let old ← getAt tbl grp
  let _ ← bits 3
  let kind ← bits 5
  let nc ← bits 8
  let conds ← forN cond (toI8 nc).toNat 0
  setAt tbl grp { old with groupId := id, kind, numConditions := toI8 nc, conds }

/-- `impeghd_mp4_get_maep`, impeghd_mae_mp4_intrfc.c 168-228. -/
def maep (tbl : List PresetDef) : Prog (Nat × List PresetDef) := do
  let _ ← bits 1
  let num ← bits 7
  let t ← foldN preset num 0 tbl
  pure (num, t)

/-- The descriptions of groups, of switch groups and of presets: id and text. -/
structure Descr where
  groups : List (Nat × List Nat)
  switches : List (Nat × List Nat)
  presets : List (Nat × List Nat)
  deriving DecidableEq, Repr

/-- `impeghd_mp4_get_mael`, impeghd_mae_mp4_intrfc.c 52-156, for `glen`, the old
`group_desc_data.descr_data_length[j][0]`. The text of groups and of presets is
set to 0 while one bit is skipped (79-83, 138-142). The loop over the text of a switch group counts to the length of the
text of a group (109-113). -/
def mael (glen : Nat → Int) : Prog Descr := do
  let _ ← bits 4
  let _ ← bits 4
  let _ ← bits 24
  let _ ← bits 1
  let n ← bits 7
  let groups ← forN (fun j => do
    inTable j 128
    let _ ← bits 1
    let id ← bits 7
    let _ ← bits 8
    let _ ← bits 1
    pure (id, [0])) (n + 1) 0
  inTable (n + 1) 128
  let glen' : Nat → Int := fun j => if j < n + 2 then 1 else glen j
  let _ ← bits 3
  let m ← bits 5
  let switches ← forN (fun j => do
    let _ ← bits 3
    let id ← bits 5
    let _ ← bits 8
    let text ← forN (fun _ => bits 1) (glen' j).toNat 0
    pure (id, text)) (m + 1) 0
  let _ ← bits 3
  let p ← bits 5
  let presets ← forN (fun _ => do
    let id ← bits 5
    let _ ← bits 8
    let _ ← bits 1
    pure (id, [0])) (p + 1) 0
  pure { groups, switches, presets }

end Verif.Mp4
