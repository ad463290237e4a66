import Mathlib.Algebra.Order.Ring.Rat
import Verif.Model.Escape
import Verif.Model.Huff

/-! # Multichannel coding tool

`impeghd_multichannel.c` and its caller in `ia_core_coder_process.c`. -/

namespace Verif.Mct

open Prog

/-! ## Channel pairs -/

/-- `while (index >>= 1) ++num_bits`, impeghd_multichannel.c 339-342, for at most `fuel` rounds. -/
def countBits : (fuel index numBits : Nat) → Nat
  | 0, _, n => n
  | fuel + 1, index, n => if index / 2 = 0 then n else countBits fuel (index / 2) (n + 1)

/-- Inner loop of the search for a pair, impeghd_multichannel.c 354-366: `k` rounds from `chan0` on, at pair
number `ctr`; the pair found or the next pair number. -/
def scan0 (idx chan1 : Nat) : (k chan0 ctr : Nat) → (Nat × Nat) ⊕ Nat
  | 0, _, ctr => .inr ctr
  | k + 1, chan0, ctr => if ctr = idx then .inl (chan0, chan1) else scan0 idx chan1 k (chan0 + 1) (ctr + 1)

/-- Outer loop, impeghd_multichannel.c 352-367. -/
def scan1 (idx : Nat) : (k chan1 ctr : Nat) → Option (Nat × Nat)
  | 0, _, _ => none
  | k + 1, chan1, ctr => match scan0 idx chan1 chan1 0 ctr with
    | .inl p => some p
    | .inr ctr => scan1 idx k (chan1 + 1) ctr

/-- `impeghd_mc_parse_ch_pair`, impeghd_multichannel.c 323-369, for `n` channels.  If the search finds
nothing the stored pair `old` stays.  The pointer checks of 328-331 are left out. -/
def parseChPair (old : Nat × Nat) (n : Nat) : Prog (Nat × Nat) :=
  if n * (n - 1) / 2 = 0 then fail .invalidMct
  else do
    let maxIdx := n * (n - 1) / 2 - 1
    let idx ← bits (countBits 31 maxIdx 1)
    if idx > maxIdx then fail .invalidChPair
    else pure ((scan1 idx (n - 1) 1 0).getD old)

/-! ## Parsing -/

/-- `ia_multichannel_data`, ia_core_coder_config.h 289-316, as far as `impeghd_mc_parse` uses it. -/
structure Mc where
  signalType : Nat
  prevSignalType : Nat
  numPairs : Nat
  startChannel : Nat
  numCh : Nat
  chanMap : List Nat
  longPrev : List Bool
  pairs : List (Nat × Nat)
  sfbPrev : List (List Int)
  fbPrev : List Int
  coef : List (List Int)
  numBand : List Nat
  mask : List (List Bool)
  maskFlag : List Bool
  bandwise : List Bool
  predDir : List Bool
  deltaTime : List Bool
  fill : List Bool
  deriving DecidableEq, Repr

/-- `MAX_NUM_MC_BANDS`, ia_core_coder_config.h 58. -/
def maxBands : Nat := 64
/-- `CODE_BOOK_BETA_LAV`, impeghd_multichannel.h 38. -/
def betaLav : Int := 65

/-- `default_val`, impeghd_multichannel.c 400. -/
def default (signalType : Nat) : Int := if signalType = 0 then 0 else 48

/-- Coefficient of the full band, impeghd_multichannel.c 541-558. -/
def fullCoef (signalType : Nat) (last : Int) : Prog Int :=
  if signalType = 0 then do
    let d ← Huff.mcDecode Huff.mcScf
    pure (last - d + 60)
  else do
    let d ← Huff.mcDecode Huff.mcAngle
    pure (if last + d ≥ betaLav then last + d - betaLav else last + d)

/-- Coefficient of one band, impeghd_multichannel.c 587-608. -/
def bandCoef (signalType : Nat) (last : Int) : Prog Int :=
  if signalType = 0 then do
    let d ← Huff.mcDecode Huff.mcScf
    pure (last - d + 60)
  else do
    let d ← Huff.mcDecode Huff.mcAngle
    let c := last + d
    let c := if c ≥ betaLav then c % betaLav else c
    pure (if c < 0 then 0 else c)

/-- One round of the loop of impeghd_multichannel.c 559-567: state is the row of coefficients and the row
of coefficients kept for the next frame. -/
def fullStep (mask : List Bool) (bpw : Nat) (dflt new : Int) (band : Nat) (s : List Int × List Int) :
    Prog (List Int × List Int) := do
  let coef ← setAt s.1 band new
  let m ← getAt mask band
  let prev ← (if bpw ≠ 0 then setAt s.2 (band % bpw) (if m then new else dflt) else pure s.2)
  pure (coef, prev)

/-- State of the loop over the bands of a box with a coefficient per band. -/
structure BandSt where
  last : Int
  coef : List Int
  prev : List Int
  deriving DecidableEq, Repr

/-- One round of the loop of impeghd_multichannel.c 572-623. -/
def bandStep (signalType : Nat) (mask : List Bool) (bpw : Nat) (dflt : Int) (dt : Bool) (band : Nat) (s : BandSt) :
    Prog BandSt := do
  let last ← (if bpw ≠ 0 then
      (if dt then getAt s.prev (band % bpw) else pure (if band % bpw = 0 then dflt else s.last))
    else pure s.last)
  let m ← getAt mask band
  if m then do
    let new ← bandCoef signalType last
    let coef ← setAt s.coef band new
    let prev ← (if bpw ≠ 0 then setAt s.prev (band % bpw) new else pure s.prev)
    pure ⟨new, coef, prev⟩
  else do
    let prev ← (if bpw ≠ 0 then setAt s.prev (band % bpw) dflt else pure s.prev)
    pure ⟨last, s.coef, prev⟩

/-- Coefficients of a box, impeghd_multichannel.c 537-625: rows of coefficients and of kept coefficients,
and the kept full-band coefficient. -/
def coefs (signalType : Nat) (bandwise dt : Bool) (numBand bpw : Nat) (mask : List Bool) (coef prev : List Int)
    (fb : Int) : Prog (List Int × List Int × Int) :=
  if bandwise then do
    let s ← foldN (bandStep signalType mask bpw (default signalType) dt) numBand 0 ⟨0, coef, prev⟩
    pure (s.coef, s.prev, default signalType)
  else do
    let new ← fullCoef signalType (if dt then fb else default signalType)
    let (coef, prev) ← foldN (fullStep mask bpw (default signalType) new) numBand 0 (coef, prev)
    pure (coef, prev, new)

/-- Number of bands with a mask or a coefficient, impeghd_multichannel.c 471-487. -/
def parseNumBand (sent : Bool) : Prog Nat := do
  let n ← (if sent then do
      let isShort ← flag
      let n ← bits 5
      pure (if isShort then 8 * n else n)
    else pure maxBands)
  if n > maxBands then fail (.other 0xFFFF980E) else pure n

/-- The mask of a box, impeghd_multichannel.c 489-502. -/
def parseMask (sent : Bool) (numBand : Nat) (row : List Bool) : Prog (List Bool) :=
  foldN (fun band row => do
    let b ← (if sent then flag else pure true)
    setAt row band b) numBand 0 row

/-- The body of the loop over the boxes, impeghd_multichannel.c 433-631.  `long` is
`ptr_sfb_info[]->islong`, `none` for a null pointer. -/
def boxStep (indep keepTree stereo : Bool) (long : List (Option Bool)) (box : Nat) (m : Mc) : Prog Mc := do
  let f ← (if stereo then flag else pure false)
  let fill ← setAt m.fill box f
  let old ← getAt m.pairs box
  let pair ← (if keepTree then pure old else parseChPair old m.numCh)
  let pairs ← setAt m.pairs box pair
  let ch ← getAt m.chanMap (m.startChannel + pair.1)
  let info ← getAt long ch
  match info with
  | none => fail .invalidMct
  | some isLong => do
    let lp ← getAt m.longPrev box
    let fb ← getAt m.fbPrev box
    let prev ← getAt m.sfbPrev box
    let dflt := default m.signalType
    let fb := if lp ≠ isLong then dflt else fb
    let prev := if lp ≠ isLong then List.replicate prev.length dflt else prev
    let longPrev ← setAt m.longPrev box isLong
    let mf ← flag
    let bw ← flag
    let maskFlag ← setAt m.maskFlag box mf
    let bandwise ← setAt m.bandwise box bw
    let n ← parseNumBand (bw || mf)
    let numBand ← setAt m.numBand box n
    let row ← getAt m.mask box
    let row ← parseMask mf n row
    let mask ← setAt m.mask box row
    let pd ← (if m.signalType = 0 then flag else pure false)
    let predDir ← setAt m.predDir box pd
    let dt ← (if indep then pure false else flag)
    let deltaTime ← setAt m.deltaTime box dt
    if m.prevSignalType ≠ m.signalType ∧ dt = true then fail (.other 0)
    else do
      let bpw := if isLong then n else n / 8
      let coef ← getAt m.coef box
      let (coef, prev, fb) ← coefs m.signalType bw dt n bpw row coef prev fb
      let prev ← foldN (fun band prev => setAt prev band dflt) (maxBands - bpw) bpw prev
      let coef ← setAt m.coef box coef
      let sfbPrev ← setAt m.sfbPrev box prev
      let fbPrev ← setAt m.fbPrev box fb
      pure { m with fill, pairs, longPrev, maskFlag, bandwise, numBand, mask, predDir, deltaTime, coef,
                    sfbPrev, fbPrev }

/-- `for (box = from; box < MAX_NUM_MC_BOXES; box++)` with the kept coefficients set to their default,
impeghd_multichannel.c 405-412 and 423-430. -/
def resetFrom (start : Nat) (m : Mc) : Mc :=
  { m with
    fbPrev := m.fbPrev.take start ++ (m.fbPrev.drop start).map fun _ => default m.signalType
    sfbPrev := m.sfbPrev.take start ++
      (m.sfbPrev.drop start).map fun r => List.replicate r.length (default m.signalType) }

/-- `impeghd_mc_parse`, impeghd_multichannel.c 386-639; `maxBoxes` is `MAX_NUM_MC_BOXES` (16, or 28 for
level 4).  `signal_type` is one bit, so the list of forbidden changes of 512-520 is "any change". -/
def mcParse (maxBoxes : Nat) (indep : Bool) (long : List (Option Bool)) (m : Mc) : Prog Mc := do
  let stereo ← flag
  let sig ← bits 1
  let keep ← (if indep then pure false else flag)
  let m := { m with signalType := sig }
  let m := if indep then resetFrom 0 m else m
  let n ← (if keep then pure m.numPairs else readEscape 5 8 16)
  if n > maxBoxes then fail .invalidMct
  else do
    let m := resetFrom n { m with numPairs := n }
    let m ← foldN (boxStep indep keep stereo long) n 0 m
    pure { m with
      pairs := m.pairs.take n ++ (m.pairs.drop n).map fun _ => (0, 0)
      prevSignalType := sig }

/-! ## Rotation and prediction

The arithmetic is exact: rounding of `FLOAT32` is not modelled. -/

/-- `impeghd_mc_index_to_sin_alpha`, impeghd_multichannel_rom.c 129-139, in units of 10^-6. -/
def sinTab : List Int := [
  -1000000, -998795, -995185, -989177, -980785, -970031, -956940, -941544, -923880, -903989, -881921,
  -857729, -831470, -803208, -773010, -740951, -707107, -671559, -634393, -595699, -555570, -514103,
  -471397, -427555, -382683, -336890, -290285, -242980, -195090, -146730, -98017, -49068, 0, 49068, 98017,
  146730, 195090, 242980, 290285, 336890, 382683, 427555, 471397, 514103, 555570, 595699, 634393, 671559,
  707107, 740951, 773010, 803208, 831470, 857729, 881921, 903989, 923880, 941544, 956940, 970031, 980785,
  989177, 995185, 998795, 1000000]

/-- `impeghd_mc_index_to_cos_alpha`, impeghd_multichannel_rom.c 141-150, in units of 10^-6. -/
def cosTab : List Int := [
  0, 49068, 98017, 146730, 195090, 242980, 290285, 336890, 382683, 427555, 471397, 514103, 555570, 595699,
  634393, 671559, 707107, 740951, 773010, 803208, 831470, 857729, 881921, 903989, 923880, 941544, 956940,
  970031, 980785, 989177, 995185, 998795, 1000000, 998795, 995185, 989177, 980785, 970031, 956940, 941544,
  923880, 903989, 881921, 857729, 831470, 803208, 773010, 740951, 707107, 671559, 634393, 595699, 555570,
  514103, 471397, 427555, 382683, 336890, 290285, 242980, 195090, 146730, 98017, 49068, 0]

/-- `impeghd_mc_index_to_cos_alpha[i]` -/
def cosAt (i : Int) : Res Rat :=
  if i < 0 then .ub else match cosTab[i.toNat]? with
    | some c => .ok (c / 1000000)
    | none => .ub

/-- `impeghd_mc_index_to_sin_alpha[i]` -/
def sinAt (i : Int) : Res Rat :=
  if i < 0 then .ub else match sinTab[i.toNat]? with
    | some c => .ok (c / 1000000)
    | none => .ub

/-- One sample of `impeghd_apply_mc_rotation`, impeghd_multichannel.c 781-801: downmix and residual become
the two channels. -/
def rotate (c s : Rat) (x : Rat × Rat) : Rat × Rat := (x.1 * c - x.2 * s, x.1 * s + x.2 * c)

/-- One sample of `impeghd_apply_mc_prediction`, impeghd_multichannel.c 817-838. -/
def predict (alphaQ : Int) (dir : Bool) (x : Rat × Rat) : Rat × Rat :=
  let alpha : Rat := alphaQ / 10
  (x.1 + alpha * x.1 + x.2, if dir then -x.1 + alpha * x.1 + x.2 else x.1 - alpha * x.1 - x.2)

/-- What a box does to a sample. -/
def boxFun (signalType : Nat) (dir : Bool) (q : Int) : Res (Rat × Rat → Rat × Rat) :=
  if signalType = 0 then .ok (predict q dir)
  else do
    let c ← cosAt q
    let s ← sinAt q
    pure (rotate c s)

/-- `f` on the lines `start .. stop - 1` of the two spectra. -/
def onLines {α β : Type} (f : α → β) (keep : α → β) (start stop : Nat) (x : List α) : List β :=
  x.mapIdx fun i v => if start ≤ i ∧ i < stop then f v else keep v

/-- `ptr_sfb_offset[i]` -/
def offAt (offs : List Nat) (i : Nat) : Res Nat :=
  match offs[i]? with
  | some v => .ok v
  | none => .ub

/-- Lines of the band that begins at scale factor band `k` (`sfb + 1` in the code), impeghd_multichannel.c
746-751 and 931-932. -/
def lines (offs : List Nat) (total k : Nat) : Res (Nat × Nat) := do
  let start ← (if k = 0 then .ok 0 else offAt offs (k - 1))
  let stop ← (if k + 1 < total then offAt offs (k + 1) else offAt offs k)
  pure (start, stop)

/-- The loop over the bands of `impeghd_mc_process`, impeghd_multichannel.c 927-953, over the masks and
coefficients of the bands of a window. -/
def procBands (signalType : Nat) (dir : Bool) (offs : List Nat) (total : Nat) :
    (k : Nat) → List (Bool × Int) → List (Rat × Rat) → Res (List (Rat × Rat))
  | _, [], x => .ok x
  | k, (m, q) :: rest, x => do
    let x ← (if m then do
        let (start, stop) ← lines offs total k
        if x.length < stop then .ub
        else do
          let f ← boxFun signalType dir q
          pure (onLines f (fun v => v) start stop x)
      else .ok x)
    if k + 2 ≥ total then .ok x else procBands signalType dir offs total (k + 2) rest x

/-- `impeghd_mc_process`, impeghd_multichannel.c 899-955, for one window; `x` are downmix and residual,
`bands` masks and coefficients of the window.  In full-band mode only coefficient 0 is used. -/
def mcProcess (signalType : Nat) (dir fullBand : Bool) (offs : List Nat) (total : Nat) (bands : List (Bool × Int))
    (x : List (Rat × Rat)) : Res (List (Rat × Rat)) :=
  if fullBand then
    match bands with
    | [] => .ub
    | b :: _ => do
      let f ← boxFun signalType dir b.2
      pure (x.map f)
  else procBands signalType dir offs total 0 bands x

/-- One sample of the downmix of the two channels: `impeghd_apply_mc_inverse_rotation`,
impeghd_multichannel.c 655-676, and 708-735 of `impeghd_mc_get_prev_dmx`. -/
def unbox (signalType : Nat) (dir : Bool) (q : Int) : Res (Rat × Rat → Rat) :=
  if signalType = 0 then .ok fun x => if dir then (x.1 - x.2) / 2 else (x.1 + x.2) / 2
  else do
    let c ← cosAt q
    let s ← sinAt q
    pure fun x => x.1 * c + x.2 * s

/-- Mask and coefficient of band `band`; bands past `bands_per_window` count as unmasked. -/
def bandAt (bands : List (Bool × Int)) (band : Nat) : Bool × Int := bands.getD band (false, 0)

/-- The loop over the bands of `impeghd_mc_get_prev_dmx`, impeghd_multichannel.c 740-763, for `n` more
bands; `d` is the downmix so far. -/
def dmxBands (offs : List Nat) (total : Nat) (bands : List (Bool × Int)) (x : List (Rat × Rat)) :
    (n band k : Nat) → List Rat → Res (List Rat)
  | 0, _, _, d => .ok d
  | n + 1, band, k, d =>
    if k ≥ total then .err (.other 1)
    else do
      let b := bandAt bands band
      let (start, stop) ← lines offs total k
      if x.length < stop then .ub
      else do
        let f ← unbox 1 false (if b.1 then b.2 else 32)
        let d := (d.zip x).mapIdx fun i v => if start ≤ i ∧ i < stop then f v.2 else v.1
        if k + 1 ≥ total then .ok d else dmxBands offs total bands x n (band + 1) (k + 2) d

/-- `impeghd_mc_get_prev_dmx`, impeghd_multichannel.c 698-766, for two channels with a previous spectrum;
the buffer for the downmix was cleared.  Reading `ptr_mask[band]` past the window is left out. -/
def mcPrevDmx (signalType : Nat) (dir fullBand : Bool) (offs : List Nat) (total : Nat) (bands : List (Bool × Int))
    (x : List (Rat × Rat)) : Res (List Rat) :=
  if signalType = 0 then do
    let f ← unbox 0 dir 0
    pure (x.map f)
  else if fullBand then
    match bands with
    | [] => .ub
    | b :: _ => do
      let f ← unbox signalType dir b.2
      pure (x.map f)
  else dmxBands offs total bands x maxBands 0 0 (List.replicate x.length 0)

/-! ## Spectra kept for the next frame -/

/-- A signal group with multichannel coding: `start_channel` and the channels taking part,
`channel_map[start_channel + i]`. -/
structure Group where
  start : Nat
  chans : List Nat
  deriving DecidableEq, Repr

/-- The loop of ia_core_coder_process.c 1082-1091: `mct_prev_out_spec[ch]` gets the spectrum of the channel
`channel_map[ch + start_channel]`. -/
def saveGroup {σ : Type} (spec : Nat → σ) (g : Group) (store : Nat → σ) : Nat → σ :=
  fun i => match g.chans[i]? with
    | some ch => spec ch
    | none => store i

/-- The loop over the groups, ia_core_coder_process.c 1078-1092. -/
def saveAll {σ : Type} (spec : Nat → σ) (gs : List Group) (store : Nat → σ) : Nat → σ :=
  gs.foldl (fun st g => saveGroup spec g st) store

/-- The previous spectrum of channel `i` of the group, ia_core_coder_process.c 973-974. -/
def prevOf {σ : Type} (store : Nat → σ) (g : Group) (i : Nat) : σ := store (i + g.start)

end Verif.Mct
