import Verif.Model.Oam

/-! # Enhanced object metadata: `impeghd_oam_dec.c` 250-538, and the choice of the sub-frame to render

Diffuseness and divergence are rationals; the code rounds the quotient by 127 to a `FLOAT32`. -/

namespace Verif.EnhOam

open Prog

/-- One exclusion sector: element `[obj][j]` of the arrays of impeghd_oam_dec_struct_def.h 48-55. -/
structure Sector where
  usePre : Nat
  index : Nat
  minAz : Rat
  maxAz : Rat
  minEl : Rat
  maxEl : Rat
  deriving DecidableEq, Repr

/-- One object of `ia_enh_obj_md_frame_str`, impeghd_oam_dec_struct_def.h 38-67; `p*` are the `prev_*`
arrays. -/
structure Obj where
  keepDiff : Nat
  keepExcl : Nat
  keepDiv : Nat
  closest : Nat
  num : Nat
  sec : List Sector
  diff : Rat
  div : Rat
  pnum : Nat
  psec : List Sector
  pdiff : Rat
  pdiv : Rat
  deriving DecidableEq, Repr

/-- `ia_enh_oam_config_struct`, ia_core_coder_config.h 414-426. -/
structure Cfg where
  hasDiff : Bool
  comDiff : Bool
  comExcl : Bool
  hasDiv : List Nat
  onlyPre : List Nat
  deriving DecidableEq, Repr

/-- Copying one sector to or from the `prev_*` arrays; only the copy back copies
`use_predefined_sector` (impeghd_oam_dec.c 263-275 and 298-314). -/
def pushSector (c p : Sector) : Sector := { c with usePre := p.usePre }

/-- "push current frame to the old frame structure", impeghd_oam_dec.c 259-280;
`prev_use_predefined_sector` is not written. -/
def push (o : Obj) : Obj :=
  { o with pnum := o.num, psec := List.zipWith pushSector o.sec o.psec, pdiff := o.diff, pdiv := o.div }

/-- `ia_min_flt(ia_max_flt(e, lo), hi)` where `fmin` and `fmax` are functions
(impeghd_intrinsics_flt.h 48-50): `e` is evaluated once. -/
def clampFn (e : Prog Rat) (lo hi : Rat) : Prog Rat := do
  let v ← e
  let y := if v < lo then lo else v
  pure (if hi < y then hi else y)

/-- `max(e, lo)` as the macro `((e) > (lo) ? (e) : (lo))` of the Windows headers. -/
def maxMacro (e : Prog Rat) (lo : Rat) : Prog Rat := do
  let v ← e
  if lo < v then e else pure lo

/-- `min(max(e, lo), hi)` with the macros (impeghd_intrinsics_flt.h 43-47): `e` is evaluated up to
four times. -/
def clampMacro (e : Prog Rat) (lo hi : Rat) : Prog Rat := do
  let v ← maxMacro e lo
  if v < hi then maxMacro e lo else pure hi

def clamp (win : Bool) (e : Prog Rat) (lo hi : Rat) : Prog Rat :=
  if win then clampMacro e lo hi else clampFn e lo hi

/-- `3.0f * (read_bits(7) - 63.0f)`, impeghd_oam_dec.c 335-341. -/
def azimuth : Prog Rat := do
  let v ← bits 7
  pure (3 * ((v : Rat) - 63))

/-- `6.0f * (read_bits(5) - 15.0f)`, impeghd_oam_dec.c 350-356. -/
def elevation : Prog Rat := do
  let v ← bits 5
  pure (6 * ((v : Rat) - 15))

/-- The four angles of a sector, impeghd_oam_dec.c 335-363 and 496-523. -/
def angles (win : Bool) (s : Sector) : Prog Sector := do
  let a ← clamp win azimuth (-180) 180
  let b ← clamp win azimuth (-180) 180
  let c ← clamp win elevation (-90) 90
  let d ← clamp win elevation (-90) 90
  pure { s with minAz := a, maxAz := b, minEl := c, maxEl := d }

/-- The body of the loop over the sectors of an object, impeghd_oam_dec.c 319-371 and 480-532. -/
def sector (win : Bool) (onlyPre : Nat) (s : Sector) : Prog Sector :=
  if onlyPre = 1 then do
    let v ← bits 4
    pure { s with index := v }
  else do
    let u ← bits 1
    let s := { s with usePre := u }
    if u ≠ 1 then angles win s
    else do
      let v ← bits 4
      pure { s with index := v }

/-- A keep flag, impeghd_oam_dec.c 286-293 and the like. -/
def keep (indep : Bool) : Prog Nat := if indep then pure 0 else bits 1

/-- The exclusion sectors of an object, impeghd_oam_dec.c 286-372 and 442-533. -/
def excl (win indep : Bool) (onlyPre : Nat) (o : Obj) : Prog Obj := do
  let k ← keep indep
  if k ≠ 0 then do
    let sec ← foldN (fun j t => do
      let p ← getAt o.psec j
      setAt t j p) o.pnum 0 o.sec
    pure { o with keepExcl := k, num := o.pnum, sec := sec }
  else do
    let n ← bits 4
    let sec ← foldN (fun j t => do
      let c ← getAt t j
      let c ← sector win onlyPre c
      setAt t j c) n 0 o.sec
    pure { o with keepExcl := k, num := n, sec := sec }

/-- The diffuseness of an object, impeghd_oam_dec.c 377-393 and 421-437. -/
def diffuseness (indep : Bool) (o : Obj) : Prog Obj := do
  let k ← keep indep
  if k ≠ 0 then pure { o with keepDiff := k, diff := o.pdiff }
  else do
    let v ← bits 7
    pure { o with keepDiff := k, diff := (v : Rat) / 127 }

/-- The divergence of an object, impeghd_oam_dec.c 400-416. -/
def divergence (indep : Bool) (o : Obj) : Prog Obj := do
  let k ← keep indep
  if k ≠ 0 then pure { o with keepDiv := k, div := o.pdiv }
  else do
    let v ← bits 7
    pure { o with keepDiv := k, div := (v : Rat) / 127 }

/-- Change one object in place. -/
def modAt (t : List Obj) (i : Nat) (f : Obj → Prog Obj) : Prog (List Obj) := do
  let o ← getAt t i
  let o ← f o
  setAt t i o

/-- The loop body over the objects, impeghd_oam_dec.c 395-535. -/
def object (win indep : Bool) (cfg : Cfg) (i : Nat) (o : Obj) : Prog Obj := do
  let c ← bits 1
  let o := { o with closest := c }
  let hd ← getAt cfg.hasDiv i
  let o ← (if hd = 1 then divergence indep o else pure o)
  let o ← (if cfg.hasDiff ∧ ¬ cfg.comDiff then diffuseness indep o else pure o)
  if ¬ cfg.comExcl then do
    let op ← getAt cfg.onlyPre i
    excl win indep op o
  else pure o

/-- `impeghd_enh_obj_md_frame`, impeghd_oam_dec.c 250-538. -/
def frame (win indep : Bool) (cfg : Cfg) (n : Nat) (t : List Obj) : Prog (List Obj) := do
  let t ← foldN (fun i t => modAt t i fun o => pure (push o)) n 0 t
  let t ← (
    if cfg.comExcl then do
      let op ← getAt cfg.onlyPre 0
      modAt t 0 (excl win indep op)
    else pure t)
  let t ← (if cfg.hasDiff ∧ cfg.comDiff then modAt t 0 (diffuseness indep) else pure t)
  foldN (fun i t => modAt t i (object win indep cfg i)) n 0 t

/-- The sub-frame numbers with which the renderer is called, `impeghd_obj_md_dec_ren_process`,
ia_core_coder_decode_main.c 1387-1411; `present` is `sub_frame_obj_md_present` cut to the
`numIter` sub-frames of the frame, `i` the loop index, `k` the sub-frame number so far. -/
def renderSlots (numIter : Nat) : List Nat → Nat → Nat → List Nat
  | [], _, _ => []
  | p :: ps, i, k =>
    let k :=
      if p ≠ 0 then
        if numIter < k + 1 then (k + 1) % numIter else k + 1
      else if i = 0 then numIter else k
    k :: renderSlots numIter ps (i + 1) k

end Verif.EnhOam
