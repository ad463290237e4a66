import Verif.Model.Asi
import Verif.Model.Speaker

/-! # User interaction data and local setup: `impeghd_ele_interaction_intrfc.c`

The signature bytes are read and dropped; nothing reads them. Rendering with binaural impulse
responses (`impeghd_read_brir_info`) is an arbitrary sub-parser. -/

namespace Verif.Interact

open Prog

/-- Element `[grp]` of the `ei_*` arrays of `ia_ele_intrctn`,
impeghd_ele_interaction_intrfc.h 156-165. -/
structure Item where
  id : Nat
  onOff : Nat
  route : Nat
  wire : Int
  chPos : Nat
  az : Nat
  el : Nat
  dist : Nat
  chGain : Nat
  gain : Nat
  deriving DecidableEq, Repr

def Item.zero : Item := ⟨0, 0, 0, 0, 0, 0, 0, 0, 0, 0⟩

/-- What the interaction parser reads of `ia_mae_audio_scene_info`: `asi_present`, the numbers of
groups and presets, and the two tables (16 and 8 elements). -/
structure Info where
  present : Bool
  numGroups : Nat
  numPresets : Nat
  groups : List Asi.GroupDef
  presets : List Asi.PresetDef

/-- `ia_ele_intrctn`, impeghd_ele_interaction_intrfc.h 140-167. -/
structure Data where
  mode : Nat
  num : Nat
  preset : Nat
  zoomAzC : Nat
  zoomAz : Nat
  zoomElC : Nat
  zoomEl : Nat
  items : List Item
  present : Nat
  deriving DecidableEq, Repr

def Data.zero : Data := ⟨0, 0, 0, 0, 0, 0, 0, List.replicate 128 Item.zero, 0⟩

/-- How many of the first `n` entries have the identifier; the loops at 313-319 and 419-426. -/
def countIds (ids : List Int) (n : Nat) (id : Nat) : Prog Nat :=
  foldN (fun i c => do
    let g ← getAt ids i
    pure (if g = (id : Int) then c + 1 else c)) n 0 0

/-- Position and gain of one group, impeghd_ele_interaction_intrfc.c 339-373. The flag is an error
return. `g` is `group_definition[grp]`, looked at only when scene information is present. -/
def change (present : Bool) (groups : List Asi.GroupDef) (grp : Nat) (it : Item) : Prog (Bool × Item) := do
  let cp ← bits 1
  let it := { it with chPos := cp }
  let bad ← (if present then do
      let g ← getAt groups grp
      pure (decide (g.allowPos = 1 ∧ cp = 0))
    else pure false)
  if bad then pure (true, it)
  else do
    let az ← bitsOr (decide (cp ≠ 0)) 8 it.az
    let el ← bitsOr (decide (cp ≠ 0)) 6 it.el
    let dist ← bitsOr (decide (cp ≠ 0)) 4 it.dist
    let cg ← bits 1
    let it := { it with az, el, dist, chGain := cg }
    let bad ← (if present then do
        let g ← getAt groups grp
        pure (decide (g.allowGain = 1 ∧ cg = 0))
      else pure false)
    if bad then pure (true, it)
    else do
      let gain ← bitsOr (decide (cg ≠ 0)) 7 it.gain
      pure (false, { it with gain })

/-- The loop of `impeghd_ei_grp_intrctvty_status`, impeghd_ele_interaction_intrfc.c 308-375.
`valid` is `valid_id`, which is not cleared between groups; the flag is the error return. -/
def status (info : Info) : (k grp valid : Nat) → List Item → Prog (Bool × List Item)
  | 0, _, _, items => pure (false, items)
  | k + 1, grp, valid, items => do
    let it ← getAt items grp
    let id ← bits 7
    let it := { it with id }
    let more ← (if info.present then
        countIds (info.groups.map Asi.GroupDef.groupId) info.numGroups id
      else pure 0)
    let valid := valid + more
    if info.present ∧ valid = 0 then do
      let items ← setAt items grp it
      pure (true, items)
    else do
      let on ← bits 1
      let route ← bits 1
      let w ← optBits (decide (route = 1)) 16
      let wire : Int := if route = 1 then ((w % 256 : Nat) : Int) else -1
      let it := { it with onOff := on, route, wire }
      let r ← (if on = 1 then change info.present info.groups grp it else pure (false, it))
      let items ← setAt items grp r.2
      if r.1 then pure (true, items)
      else status info k (grp + 1) valid items

/-- `impeghd_ele_interaction_data`, impeghd_ele_interaction_intrfc.c 391-439. The return value of
`impeghd_ei_grp_intrctvty_status` is dropped. -/
def interactionData (info : Info) (d : Data) : Prog Data := do
  let mode ← bits 1
  if info.present ∧ info.numPresets ≠ 0 ∧ mode ≠ 1 then fail .invalidInteraction
  else do
    let num ← bits 7
    if info.present ∧ num ≠ info.numGroups then fail .invalidInteraction
    else do
      let preset ← bitsOr (decide (mode ≠ 0)) 5 d.preset
      let valid ← (if mode ≠ 0 ∧ info.present then
          countIds (info.presets.map Asi.PresetDef.groupId) info.numGroups preset
        else pure 1)
      if valid = 0 then fail .invalidInteraction
      else do
        let r ← status info num 0 0 d.items
        pure { d with mode, num, preset, items := r.2, present := 1 }

/-- `impeghd_ele_interaction`, impeghd_ele_interaction_intrfc.c 475-509, with
`impeghd_lcl_zoom_area_size`, 453-461. -/
def interaction (info : Info) (d : Data) : Prog Data := do
  let len ← bits 8
  when (decide (len > 0)) (do
    let _ ← bits 8
    let _ ← forN (fun i => do inTable i 256; bits 8) len 0
    pure ())
  let d ← interactionData info d
  let zoom ← bits 1
  if zoom ≠ 0 then do
    let a ← bits 10
    let b ← bits 10
    let c ← bits 9
    let e ← bits 10
    pure { d with zoomAzC := a % 256, zoomAz := b % 256, zoomElC := c % 256, zoomEl := e % 256, present := 1 }
  else pure { d with present := 1 }

/-! ## Local setup -/

/-- One element of the loudspeaker arrays of `ia_local_setup_struct` (`MAX_NUM_CHANNELS` = 24
elements each), impeghd_ele_interaction_intrfc.h 74-78. Gains and angles are rationals. -/
structure Spk where
  known : Nat
  az : Rat
  el : Int
  dist : Nat
  gain : Rat
  deriving DecidableEq, Repr

def Spk.zero : Spk := ⟨0, 0, 0, 0, 0⟩

/-- The parts of `ia_local_setup_struct` that are read back. -/
structure Setup where
  cfg : Speaker.Cfg
  hasDist : Nat
  hasGain : Nat
  spks : List Spk
  num : Nat
  ext : Nat
  deriving DecidableEq, Repr

def Setup.zero : Setup := ⟨Speaker.Cfg.zero, 0, 0, List.replicate 24 Spk.zero, 0, 0⟩

/-- The loop of `impeghd_loud_spk_ren`, impeghd_ele_interaction_intrfc.c 123-151. The flag is the
error return for a distance of 0. -/
def spkLoop (ty hasDist hasGain : Nat) : (k i : Nat) → List Spk → Prog (Bool × List Spk)
  | 0, _, spks => pure (false, spks)
  | k + 1, i, spks => do
    let s ← (if ty ≤ 1 then do
        let known ← bits 1
        let s ← getAt spks i
        let s := { s with known }
        if known ≠ 0 then do
          let az ← bits 9
          let el ← bits 8
          pure { s with az := (az : Rat), el := (el : Int) }
        else pure s
      else if hasDist ≠ 0 ∨ hasGain ≠ 0 then getAt spks i
      else pure Spk.zero)
    let dist ← bitsOr (decide (hasDist ≠ 0)) 1 s.dist
    let s := { s with dist }
    if hasDist ≠ 0 ∧ dist = 0 then do
      let spks ← setAt spks i s
      pure (true, spks)
    else do
      let gain ← (if hasGain ≠ 0 then do
          let g ← bits 1
          pure (g : Rat)
        else pure s.gain)
      let s := { s with gain }
      let spks ← (if ty ≤ 1 ∨ hasDist ≠ 0 ∨ hasGain ≠ 0 then setAt spks i s else pure spks)
      spkLoop ty hasDist hasGain k (i + 1) spks

/-- `impeghd_loud_spk_ren`, impeghd_ele_interaction_intrfc.c 103-155; the caller drops its error. -/
def loudSpkRen (s : Setup) : Prog Setup := do
  let num ← bits 16
  let cfg ← Speaker.config3d s.cfg
  let hasDist ← bits 1
  let hasGain ← bits 1
  let _ ← bits 1
  let s := { s with cfg := cfg.2, hasDist, hasGain }
  let r ← spkLoop s.cfg.type hasDist hasGain num 0 s.spks
  if r.1 then pure { s with spks := r.2 }
  else do
    let ext ← bits 1
    pure { s with spks := r.2, ext, num }

/-- `ia_max_flt(ia_min_flt(x, hi), lo)` -/
def clampR (x lo hi : Rat) : Rat := max (min x hi) lo

/-- One turn of the loops of `impeghd_loud_spk_inv_quant`, impeghd_ele_interaction_intrfc.c 176-208. -/
def dequant (ty hasGain : Nat) (s : Spk) : Spk :=
  { s with
    gain := if hasGain ≠ 0 then clampR ((s.gain - 64) * (1 / 2)) (-32) (63 / 2) else s.gain
    az := if ty ≤ 1 ∧ s.known = 1 then clampR (s.az - 256) (-180) 180 else s.az
    el := if ty ≤ 1 ∧ s.known = 1 then max (min (s.el - 128) 90) (-90) else s.el }

/-- `impeghd_loud_spk_inv_quant`, 168-251, for the layouts 0 and 1 and for the gains (the flexible
layout writes only the arrays `azimuth` and `elevation`, which are not modelled; it is undefined for
more than 32 loudspeakers). -/
def invQuant (s : Setup) : Prog Setup := do
  when (decide (s.cfg.type = 2)) (inTable ((s.num : Int) - 1 + (if s.num = 0 then 1 else 0)) 32)
  let spks ← foldN (fun i spks => do
    if s.cfg.type ≤ 1 ∨ s.hasGain ≠ 0 then do
      let x ← getAt spks i
      setAt spks i (dequant s.cfg.type s.hasGain x)
    else pure spks) s.num 0 s.spks
  pure { s with spks }

/-- `impeghd_3da_local_setup_information`, impeghd_ele_interaction_intrfc.c 547-596. `wires` is the
array `wire_id` (128 elements); the screen size fields are read and dropped. -/
def localSetup (brir : Prog Unit) (numObj numCh : Nat) (s : Setup) (wires : List Nat) :
    Prog (Setup × List Nat) := do
  let ren ← bits 1
  let s ← (if ren = 1 then do
      brir
      pure s
    else do
      let s ← loudSpkRen s
      invQuant s)
  let n ← bits 16
  if n > numObj + numCh then fail .invalidConfig
  else do
    let wires ← foldN (fun i wires => do
      let w ← bits 16
      setAt wires i w) n 0 wires
    let scr ← bits 1
    when (decide (scr ≠ 0)) (do
      let c ← bits 1
      if c = 0 then do
        let _ ← bits 10
        let _ ← bits 10
        pure ()
      else do
        let _ ← bits 9
        pure ()
      let e ← bits 1
      when (decide (e ≠ 0)) (do
        let _ ← bits 9
        let _ ← bits 9
        pure ()))
    pure (s, wires)

end Verif.Interact
