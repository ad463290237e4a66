import Verif.Model.Loop
import Verif.Model.Ops
import Mathlib.Data.Rat.Defs

/-! # Object metadata: `impeghd_oam_dec.c`, `impeghd_oam_dec_ld.c`

The arrays of the decoder state have 96 entries (4 sub-frames of up to 24 objects,
impeghd_oam_dec_defines.h 42-44).  Descaled values are rationals; `pow` is a parameter, so what is
proved holds whatever `pow` returns, NaN excepted. -/

namespace Verif.Oam

open Prog

/-- The part of `ia_oam_dec_config_struct` (ia_core_coder_config.h 403-412) the frame decoder uses. -/
structure Cfg where
  uniformSpread : Bool
  dynPriority : Bool
  frameLength : Int
  deriving DecidableEq, Repr

/-- The coded values of `ia_oam_dec_state_struct`, impeghd_oam_dec_struct_def.h 78-85. -/
structure Coded where
  az : List Int
  el : List Int
  rad : List Int
  gain : List Int
  sw : List Int
  sh : List Int
  sd : List Int
  pri : List Int
  deriving DecidableEq, Repr

/-- The `*_fixed` flags, impeghd_oam_dec_struct_def.h 94-99. -/
structure Fixed where
  az : Bool
  el : Bool
  rad : Bool
  gain : Bool
  sp : Bool
  pri : Bool
  deriving DecidableEq, Repr

/-- The descaled values, impeghd_oam_dec_struct_def.h 86-93. -/
structure Desc where
  az : List Rat
  el : List Rat
  rad : List Rat
  gain : List Rat
  sw : List Rat
  sh : List Rat
  sd : List Rat
  pri : List Rat
  deriving DecidableEq, Repr

/-- `ia_oam_dec_state_struct`, impeghd_oam_dec_struct_def.h 69-100. -/
structure State where
  hasMd : List Nat
  sample : List Int
  coded : Coded
  desc : Desc
  fixed : Fixed
  deriving DecidableEq, Repr

/-- The values of `pow` in `impeghd_descale_ld_obj_md`. -/
structure Libm where
  rad : Int → Rat
  gain : Int → Rat
  sd : Int → Rat

/-- A value in a `WORD32`; outside the range the arithmetic that produced it is undefined. -/
def word (x : Int) : Prog Int := lift (Ops.i32 x)

/-- `impeghd_oam_read_sign_param`, impeghd_oam_dec_ld.c 177-185. -/
def readSigned (n : Nat) : Prog Int := do
  let v ← bits n
  pure (if 2 ^ (n - 1) ≤ v then (v : Int) - 2 ^ n else v)

/-- `tbl[start + i] = v` for `i < n`. -/
def fill (tbl : List Int) (start n : Nat) (v : Int) : Prog (List Int) :=
  foldN (fun i t => setAt t (start + i) v) n 0 tbl

/-- `impeghd_ic_oam_ld_signed_param_dec`, impeghd_oam_dec_ld.c 201-235, and
`impeghd_ic_oam_ld_unsigned_param_dec`, 251-287; `rd` reads one value. -/
def param (fix : Bool) (rd : Prog Int) (tbl : List Int) (start n : Nat) : Prog (List Int) :=
  if fix then do
    let v ← rd
    fill tbl start n v
  else do
    let c ← flag
    if c then do
      let v ← rd
      fill tbl start n v
    else
      foldN (fun i t => do
        let v ← rd
        setAt t (start + i) v) n 0 tbl

/-- `ia_core_coder_read_bits_buf` assigned to a `WORD32`. -/
def readUnsigned (n : Nat) : Prog Int := do
  let v ← bits n
  pure v

/-- The differential update of one value, impeghd_oam_dec_ld.c 314-319 and the like. -/
def addDiff (tbl : List Int) (i nb : Nat) : Prog (List Int) := do
  let f ← flag
  if f then do
    let v ← readSigned nb
    let x ← getAt tbl i
    let y ← word (x + v)
    setAt tbl i y
  else pure tbl

/-- `impeghd_single_dyn_obj_md` with `flag_absolute == 0`, impeghd_oam_dec_ld.c 307-397. -/
def singleDiff (cfg : Cfg) (fx : Fixed) (i : Nat) (c : Coded) : Prog Coded := do
  let nb ← bits 3
  let nb := nb + 2
  let az ← (if fx.az then pure c.az else addDiff c.az i nb)
  let el ← (if fx.el then pure c.el else addDiff c.el i (min 7 nb))
  let rad ← (if fx.rad then pure c.rad else addDiff c.rad i (min 5 nb))
  let gain ← (if fx.gain then pure c.gain else addDiff c.gain i (min 8 nb))
  let (sw, sh, sd) ← (
    if fx.sp then do
      let sw ← setAt c.sw i 0
      let sh ← setAt c.sh i 0
      let sd ← setAt c.sd i 0
      pure (sw, sh, sd)
    else if cfg.uniformSpread then do
      let sw ← addDiff c.sw i (min 8 nb)
      pure (sw, c.sh, c.sd)
    else do
      let sw ← addDiff c.sw i (min 8 nb)
      let sh ← addDiff c.sh i (min 6 nb)
      let sd ← addDiff c.sd i (min 5 nb)
      pure (sw, sh, sd))
  let pri ← (if cfg.dynPriority then addDiff c.pri i (min 4 nb) else pure c.pri)
  pure ⟨az, el, rad, gain, sw, sh, sd, pri⟩

/-- `impeghd_single_dyn_obj_md` with `flag_absolute != 0`, impeghd_oam_dec_ld.c 398-471. The spread
depth is read with the width of the spread height, and the test of the priority flag is inverted;
both are kept. -/
def singleAbs (cfg : Cfg) (fx : Fixed) (i : Nat) (c : Coded) : Prog Coded := do
  let az ← (if fx.az then setAt c.az i 0 else do let v ← readSigned 8; setAt c.az i v)
  let el ← (if fx.el then setAt c.el i 0 else do let v ← readSigned 6; setAt c.el i v)
  let rad ← (if fx.rad then setAt c.rad i 0 else do let v ← readUnsigned 4; setAt c.rad i v)
  let gain ← (if fx.gain then setAt c.gain i 0 else do let v ← readSigned 7; setAt c.gain i v)
  let (sw, sh, sd) ← (
    if fx.sp then do
      let sw ← setAt c.sw i 0
      let sh ← setAt c.sh i 0
      let sd ← setAt c.sd i 0
      pure (sw, sh, sd)
    else if cfg.uniformSpread then do
      let v ← readUnsigned 7
      let sw ← setAt c.sw i v
      pure (sw, c.sh, c.sd)
    else do
      let v ← readUnsigned 7
      let sw ← setAt c.sw i v
      let v ← readUnsigned 5
      let sh ← setAt c.sh i v
      let v ← readUnsigned 5
      let sd ← setAt c.sd i v
      pure (sw, sh, sd))
  let pri ← (
    if cfg.dynPriority then
      if fx.pri then do
        let v ← readUnsigned 3
        setAt c.pri i v
      else setAt c.pri i 0
    else pure c.pri)
  pure ⟨az, el, rad, gain, sw, sh, sd, pri⟩

/-- Three spread values, impeghd_oam_dec_ld.c 592-600 and the like. -/
def spread3 (n : Nat) (at_ : Nat) (c : List Int × List Int × List Int) :
    Prog (List Int × List Int × List Int) := do
  let w ← readUnsigned 7
  let h ← readUnsigned 5
  let d ← readUnsigned 4
  let sw ← fill c.1 at_ n w
  let sh ← fill c.2.1 at_ n h
  let sd ← fill c.2.2 at_ n d
  pure (sw, sh, sd)

/-- `impeghd_ic_obj_md_ld_dec` for one object, impeghd_oam_dec_ld.c 493-539. -/
def intraOne (cfg : Cfg) (start : Nat) (c : Coded) : Prog (Coded × Fixed) := do
  let v ← readSigned 8
  let az ← setAt c.az start v
  let v ← readSigned 6
  let el ← setAt c.el start v
  let v ← readUnsigned 4
  let rad ← setAt c.rad start v
  let v ← readSigned 7
  let gain ← setAt c.gain start v
  let (sw, sh, sd) ← (
    if cfg.uniformSpread then do
      let v ← readUnsigned 7
      let sw ← setAt c.sw start v
      pure (sw, c.sh, c.sd)
    else spread3 1 start (c.sw, c.sh, c.sd))
  let pri ← (if cfg.dynPriority then do let v ← readUnsigned 3; setAt c.pri start v else pure c.pri)
  pure (⟨az, el, rad, gain, sw, sh, sd, pri⟩, ⟨false, false, false, false, false, false⟩)

/-- `impeghd_ic_obj_md_ld_dec` for several objects, impeghd_oam_dec_ld.c 540-660.  With a fixed
uniform spread the code fills entries from 0 on, not from `start` on (630-637); kept.
`dynamic_obj_priority_fixed` keeps its value when no priority is sent. -/
def intraMany (cfg : Cfg) (start n : Nat) (c : Coded) (fx : Fixed) : Prog (Coded × Fixed) := do
  let faz ← flag
  let az ← param faz (readSigned 8) c.az start n
  let fel ← flag
  let el ← param fel (readSigned 6) c.el start n
  let frad ← flag
  let rad ← param frad (readUnsigned 4) c.rad start n
  let fgain ← flag
  let gain ← param fgain (readSigned 7) c.gain start n
  let fsp ← flag
  let (sw, sh, sd) ← (
    if fsp then
      if cfg.uniformSpread then do
        let v ← readUnsigned 7
        let sw ← fill c.sw 0 n v
        pure (sw, c.sh, c.sd)
      else spread3 n start (c.sw, c.sh, c.sd)
    else do
      let com ← flag
      if com then
        if cfg.uniformSpread then do
          let v ← readUnsigned 7
          let sw ← fill c.sw start n v
          pure (sw, c.sh, c.sd)
        else spread3 n start (c.sw, c.sh, c.sd)
      else if cfg.uniformSpread then do
        let sw ← foldN (fun i t => do
          let v ← readUnsigned 7
          setAt t (start + i) v) n 0 c.sw
        pure (sw, c.sh, c.sd)
      else foldN (fun i t => spread3 1 (start + i) t) n 0 (c.sw, c.sh, c.sd))
  let (pri, fpri) ← (
    if cfg.dynPriority then do
      let fpri ← flag
      let pri ← param fpri (readUnsigned 3) c.pri start n
      pure (pri, fpri)
    else pure (c.pri, fx.pri))
  pure (⟨az, el, rad, gain, sw, sh, sd, pri⟩, ⟨faz, fel, frad, fgain, fsp, fpri⟩)

/-- `impeghd_ic_obj_md_ld_dec`, impeghd_oam_dec_ld.c 486-662. -/
def intra (cfg : Cfg) (start n : Nat) (c : Coded) (fx : Fixed) : Prog (Coded × Fixed) :=
  if n ≤ 1 then intraOne cfg start c else intraMany cfg start n c fx

/-- A loop over entries `a ≤ i < b` of an array. -/
def overwrite {α : Type} (tbl : List α) (a b : Nat) (f : Nat → α → α) : Prog (List α) :=
  if b ≤ tbl.length then pure (tbl.mapIdx fun i x => if a ≤ i ∧ i < b then f i x else x)
  else undef

/-- `impeghd_descale_ld_obj_md`, impeghd_oam_dec_ld.c 674-716. -/
def descale (m : Libm) (cfg : Cfg) (a b : Nat) (c : Coded) (d : Desc) : Prog Desc := do
  let pri ← overwrite d.pri a b fun i _ => (c.pri.getD i 0 : Rat)
  let sw ← overwrite d.sw a b fun i _ => (c.sw.getD i 0 : Rat) * (3 / 2)
  let (sh, sd) ← (
    if cfg.uniformSpread then pure (d.sh, d.sd) else do
      let sh ← overwrite d.sh a b fun i _ => (c.sh.getD i 0 : Rat) * 3
      let sd ← overwrite d.sd a b fun i _ => m.sd (c.sd.getD i 0) / 2 - 1 / 2
      pure (sh, sd))
  let rad ← overwrite d.rad a b fun i _ => m.rad (c.rad.getD i 0) / 2
  let el ← overwrite d.el a b fun i _ => (c.el.getD i 0 : Rat) * 3
  let az ← overwrite d.az a b fun i _ => (c.az.getD i 0 : Rat) * (3 / 2)
  let gain ← overwrite d.gain a b fun i _ => m.gain (c.gain.getD i 0)
  pure ⟨az, el, rad, gain, sw, sh, sd, pri⟩

/-- `ia_min_int(ia_max_int(x, lo), hi)`, impeghd_intrinsics_flt.h 51-52. -/
def limit (lo hi x : Rat) : Rat :=
  let y := if lo < x then x else lo
  if y < hi then y else hi

/-- `impeghd_limit_range_ld_obj_md`, impeghd_oam_dec_ld.c 71-143. It works on entries `0 .. n-1`
whatever the sub-frame; kept.  The constants 0.004f and 5.957f are taken as exact decimals. -/
def limitRange (cfg : Cfg) (n : Nat) (d : Desc) : Prog Desc := do
  let rad ← overwrite d.rad 0 n fun _ x => limit (1 / 2) 16 x
  let el ← overwrite d.el 0 n fun _ x => limit (-90) 90 x
  let az ← overwrite d.az 0 n fun _ x => limit (-180) 180 x
  let gain ← overwrite d.gain 0 n fun _ x => limit (4 / 1000) (5957 / 1000) x
  let sw ← overwrite d.sw 0 n fun _ x => limit 0 180 x
  let (sd, sh) ← (
    if cfg.uniformSpread then pure (d.sd, d.sh) else do
      let sd ← overwrite d.sd 0 n fun _ x => limit 0 (31 / 2) x
      let sh ← overwrite d.sh 0 n fun _ x => limit 0 90 x
      pure (sd, sh))
  let pri ← overwrite d.pri 0 n fun _ x => limit 0 7 x
  pure ⟨az, el, rad, gain, sw, sh, sd, pri⟩

/-- The loop over the objects of a sub-frame, impeghd_oam_dec_ld.c 742-755; the flag of every object
is stored in the entry of the first one (745); kept. -/
def dynamic (cfg : Cfg) (start n : Nat) (s : State) : Prog State := do
  let absolute ← flag
  foldN (fun j s => do
    let present ← bits 1
    let hasMd ← setAt s.hasMd start present
    let s := { s with hasMd := hasMd }
    if present ≠ 0 then do
      let c ← (if absolute then singleAbs cfg s.fixed (start + j) s.coded
        else singleDiff cfg s.fixed (start + j) s.coded)
      pure { s with coded := c }
    else pure s) n 0 s

/-- `sample[i] += frame_length`, impeghd_oam_dec_ld.c 766-767. -/
def advance (fl : Int) (n : Nat) (sample : List Int) : Prog (List Int) :=
  foldN (fun i t => do
    let x ← getAt t i
    let y ← word (x + fl)
    setAt t i y) n 0 sample

/-- `impeghd_obj_md_low_delay_dec`, impeghd_oam_dec_ld.c 729-770, for `n` objects and sub-frame
`sub + 1`. -/
def lowDelay (m : Libm) (cfg : Cfg) (n sub : Nat) (s : State) : Prog State := do
  let intraPresent ← flag
  let s ← (
    if intraPresent then do
      let (c, fx) ← intra cfg (sub * n) n s.coded s.fixed
      pure { s with coded := c, fixed := fx }
    else dynamic cfg (sub * n) n s)
  let d ← descale m cfg (sub * n) (sub * n + n) s.coded s.desc
  let d ← limitRange cfg n d
  let sample ← advance cfg.frameLength n s.sample
  pure { s with desc := d, sample := sample }

/-- The object metadata payload of a frame, ia_core_coder_decode_main.c 2005-2059, for `ccfl` output
samples; `present` is `sub_frame_obj_md_present`. Only for configurations with low-delay coding:
without it `impeghd_obj_md_dec` (impeghd_oam_dec.c 72-85) returns an error. -/
def payload (m : Libm) (cfg : Cfg) (ccfl n : Nat) (s : State) (present : List Nat) :
    Prog (State × List Nat) := do
  if cfg.frameLength ≠ 256 ∧ cfg.frameLength ≠ 512 ∧ cfg.frameLength ≠ 1024 then
    fail .unsupportedOam
  else if cfg.frameLength < ccfl then do
    let (s, present, _) ← foldN (fun j (t : State × List Nat × Nat) => do
      let p ← bits 1
      let present ← setAt t.2.1 j p
      if p ≠ 0 then do
        let s ← lowDelay m cfg n t.2.2 t.1
        pure (s, present, t.2.2 + 1)
      else pure (t.1, present, t.2.2)) (ccfl / cfg.frameLength.toNat) 0 (s, present, 0)
    pure (s, present)
  else do
    let s ← lowDelay m cfg n 0 s
    pure (s, present)

end Verif.Oam
