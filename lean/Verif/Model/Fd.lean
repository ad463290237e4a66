import Verif.Model.Scf

/-! # Windows, noise shaping in time and stereo data of frequency domain channels

Model of `ia_core_coder_win_seq_select`, `ia_core_coder_calc_grp_offset`, `ia_core_coder_read_tns_u` and
`ia_core_coder_read_tns_tcx` (ia_core_coder_spectrum_dec.c 124-326 and 376-413), of the band tables (ia_core_coder_rom.c 1327-1413,
chosen in ia_core_coder_create.c 142-151, 176-181 and 258-266), and of `ia_core_coder_ics_info`, `ia_core_coder_cplx_pred_data`,
`ia_core_coder_read_ms_mask` and the first part of `ia_core_coder_data` (ia_core_coder_ext_ch_ele.c 127-320, 749-811 and 1180-1379).

The frame length is 1024 (ia_core_coder_create.c 281).  `IA_MPEGH_DEC_…` errors that are not in the list of the model are given by
their numbers. -/

namespace Verif.Fd

open Prog
open Huff (sclTable huffCodeword)
open Scf (entry fill)

/-! ## Bands -/

/-- The ends of the bands of a long and of a short window (`ptr_sfb_1024`, `ptr_sfb_128`). -/
structure Bands where
  long : List Nat
  short : List Nat
  deriving DecidableEq, Repr

/-- ia_core_coder_rom.c 1327-1330. -/
def sfb96 : List Nat := [4, 8, 12, 16, 20, 24, 28, 32, 36, 40, 44, 48, 52, 56, 64, 72, 80, 88, 96, 108, 120, 132, 144, 156, 172, 188, 212, 240, 276,
  320, 384, 448, 512, 576, 640, 704, 768, 832, 896, 960, 1024]
/-- ia_core_coder_rom.c 1332 and 1339. -/
def sfb96s : List Nat := [4, 8, 12, 16, 20, 24, 32, 40, 48, 64, 92, 128]
/-- ia_core_coder_rom.c 1334-1337. -/
def sfb64 : List Nat := [4, 8, 12, 16, 20, 24, 28, 32, 36, 40, 44, 48, 52, 56, 64, 72, 80, 88, 100, 112, 124, 140, 156, 172, 192, 216, 240, 268, 304,
  344, 384, 424, 464, 504, 544, 584, 624, 664, 704, 744, 784, 824, 864, 904, 944, 984, 1024]
/-- ia_core_coder_rom.c 1341-1344. -/
def sfb48 : List Nat := [4, 8, 12, 16, 20, 24, 28, 32, 36, 40, 48, 56, 64, 72, 80, 88, 96, 108, 120, 132, 144, 160, 176, 196, 216, 240, 264, 292, 320,
  352, 384, 416, 448, 480, 512, 544, 576, 608, 640, 672, 704, 736, 768, 800, 832, 864, 896, 928, 1024]
/-- ia_core_coder_rom.c 1350-1351. -/
def sfb48s : List Nat := [4, 8, 12, 16, 20, 28, 36, 44, 56, 68, 80, 96, 112, 128]
/-- ia_core_coder_rom.c 1353-1356. -/
def sfb32 : List Nat := [4, 8, 12, 16, 20, 24, 28, 32, 36, 40, 48, 56, 64, 72, 80, 88, 96, 108, 120, 132, 144, 160, 176, 196, 216, 240, 264, 292, 320,
  352, 384, 416, 448, 480, 512, 544, 576, 608, 640, 672, 704, 736, 768, 800, 832, 864, 896, 928, 960, 992, 1024]
/-- ia_core_coder_rom.c 1362-1365. -/
def sfb24 : List Nat := [4, 8, 12, 16, 20, 24, 28, 32, 36, 40, 44, 52, 60, 68, 76, 84, 92, 100, 108, 116, 124, 136, 148, 160, 172, 188, 204, 220, 240,
  260, 284, 308, 336, 364, 396, 432, 468, 508, 552, 600, 652, 704, 768, 832, 896, 960, 1024]
/-- ia_core_coder_rom.c 1367-1368. -/
def sfb24s : List Nat := [4, 8, 12, 16, 20, 24, 28, 36, 44, 52, 64, 76, 92, 108, 128]
/-- ia_core_coder_rom.c 1374-1377. -/
def sfb16 : List Nat := [8, 16, 24, 32, 40, 48, 56, 64, 72, 80, 88, 100, 112, 124, 136, 148, 160, 172, 184, 196, 212, 228, 244, 260, 280, 300, 320,
  344, 368, 396, 424, 456, 492, 532, 572, 616, 664, 716, 772, 832, 896, 960, 1024]
/-- ia_core_coder_rom.c 1379-1380. -/
def sfb16s : List Nat := [4, 8, 12, 16, 20, 24, 28, 32, 40, 48, 60, 72, 88, 108, 128]
/-- ia_core_coder_rom.c 1382-1385. -/
def sfb8 : List Nat := [12, 24, 36, 48, 60, 72, 84, 96, 108, 120, 132, 144, 156, 172, 188, 204, 220, 236, 252, 268, 288, 308, 328, 348, 372, 396,
  420, 448, 476, 508, 544, 580, 620, 664, 712, 764, 820, 880, 944, 1024]
/-- ia_core_coder_rom.c 1387-1388. -/
def sfb8s : List Nat := [4, 8, 12, 16, 20, 24, 28, 36, 44, 52, 60, 72, 88, 108, 128]

/-- `ia_core_coder_samp_rate_info`, ia_core_coder_rom.c 1393-1413: the bands by the index of the sampling rate. -/
def bandTable : List Bands := [⟨sfb96, sfb96s⟩, ⟨sfb96, sfb96s⟩, ⟨sfb64, sfb96s⟩, ⟨sfb48, sfb48s⟩, ⟨sfb48, sfb48s⟩, ⟨sfb32, sfb48s⟩,
  ⟨sfb24, sfb24s⟩, ⟨sfb24, sfb24s⟩, ⟨sfb16, sfb16s⟩, ⟨sfb16, sfb16s⟩, ⟨sfb16, sfb16s⟩, ⟨sfb8, sfb8s⟩, ⟨sfb8, sfb8s⟩]

/-- ia_core_coder_create.c 258-266 with `ia_core_coder_sampling_boundaries` (ia_core_coder_rom.c 1390-1391): the index of a sampling
rate; the loop ends after 11 rounds (`SAMPLE_BOUNDARY`). -/
def rateIndex (rate : Nat) : Nat :=
  [92017, 75132, 55426, 46009, 37566, 27713, 23004, 18783, 13856, 11502, 9391].findIdx fun b => decide (b ≤ rate)

/-- The bands at a sampling rate. -/
def bandsAt (rate : Nat) : Bands := bandTable.getD (rateIndex rate) ⟨[], []⟩

/-- `sfb_per_sbk`. -/
def Bands.num (b : Bands) (long : Bool) : Nat := if long then b.long.length else b.short.length

/-- `sfb_width`, ia_core_coder_create.c 160-168 and 188-196: differences of the ends. -/
def widths : (last : Nat) → List Nat → List Nat
  | _, [] => []
  | last, e :: l => (e - last) :: widths e l

/-! ## Windows -/

/-- `ia_core_coder_win_seq_select`, ia_core_coder_spectrum_dec.c 376-413: 0 only long, 1 start, 2 eight short, 3 stop, 4 stop and start. -/
def winSeq (coded last : Nat) : Option Nat :=
  match coded with
  | 3 => some 3
  | 2 => some 2
  | 1 => if last = 1 ∨ last = 2 ∨ last = 4 then some 4 else some 1
  | 0 => some 0
  | _ => none

/-- `islong` of `pstr_usac_winmap`, ia_core_coder_create.c 275-279. -/
def isLong (seq : Nat) : Bool := decide (seq ≠ 2)

/-- The loop of ia_core_coder_ext_ch_ele.c 781-787, `n` more rounds: round `8 - n` looks at bit `n - 1` of the pattern. -/
def groupBits (grp : Nat) : (n : Nat) → List Nat
  | 0 => []
  | n + 1 => if grp.testBit n then groupBits grp n else (7 - n) :: groupBits grp n

/-- The ends of groups of short windows, ia_core_coder_ext_ch_ele.c 781-788. -/
def shortEnds (grp : Nat) : List Nat := groupBits grp 7 ++ [8]

/-- `group_len`, ia_core_coder_spectrum_dec.c 133-141.  Reading on behind the last end of a group is undefined. -/
def groupLens : (start : Nat) → (ends : List Nat) → Res (List Nat)
  | _, [] => .ub
  | start, e :: ends =>
    if e < 8 then do
      let l ← groupLens e ends
      .ok ((e - start) :: l)
    else .ok [e - start]

/-- A row of `sfb_idx_tbl`, ia_core_coder_spectrum_dec.c 147-151. -/
def offsetRow (len : Nat) : (offset : Nat) → (widths : List Nat) → List Nat
  | _, [] => []
  | offset, w :: ws => (offset + w * len) :: offsetRow len (offset + w * len) ws

/-- `sfb_idx_tbl` for short windows, ia_core_coder_spectrum_dec.c 142-152. -/
def offsets (ws : List Nat) : (offset : Nat) → (lens : List Nat) → List Nat
  | _, [] => []
  | offset, len :: lens =>
    let row := offsetRow len offset ws
    row ++ offsets ws (row.getLastD offset) lens

/-- `IA_MPEGH_DEC_INIT_FATAL_WRONG_WIN_SEQ`, `IA_MPEGH_DEC_INIT_FATAL_INVALID_MAX_SFB`, `IA_MPEGH_DEC_EXE_FATAL_INVALID_START_BAND`,
`IA_MPEGH_DEC_EXE_FATAL_NULL_PTR_SFB_INFO`, `IA_MPEGH_DEC_INIT_FATAL_COMP_PRED_NOT_SUPPORTED`,
`IA_MPEGH_DEC_EXE_FATAL_INVALID_PROFILE_CONFIG`, impeghd_error_codes.h 105-262. -/
def wrongSeq : ErrCode := .other 0xFFFF9008
def badMaxSfb : ErrCode := .other 0xFFFF9038
def badStart : ErrCode := .other 0xFFFF981B
def noInfo : ErrCode := .other 0xFFFF9804
def noComplex : ErrCode := .other 0xFFFF9032
def badProfile : ErrCode := .other 0xFFFF9820

/-- `window_sequence`, `window_shape`, `max_sfb` and `group_dis` of a channel; of the latter the ends that were written. -/
structure Ics where
  seq : Nat
  shape : Nat
  maxSfb : Nat
  ends : List Nat
  deriving DecidableEq, Repr

/-- `ia_core_coder_ics_info`, ia_core_coder_ext_ch_ele.c 749-811.  `num_sfb_128` and `num_sfb_1024` are the numbers of bands
(`sfb_per_sbk`), so that the limit of 805-808 never applies; it is kept. -/
def icsInfo (b : Bands) (last : Nat) : Prog Ics := do
  let c ← bits 2
  match winSeq c last with
  | none => fail wrongSeq
  | some seq => do
    let shape ← bits 1
    if isLong seq = false then do
      let maxSfb ← bits 4
      let grp ← bits 7
      if b.short.length < maxSfb then fail badMaxSfb
      else pure ⟨seq, shape, min maxSfb b.short.length, shortEnds grp⟩
    else do
      let maxSfb ← bits 6
      if b.long.length < maxSfb then fail badMaxSfb
      else pure ⟨seq, shape, min maxSfb b.long.length, [1]⟩

/-! ## Noise shaping in time -/

/-- `ia_tns_filter_struct`, ia_core_coder_tns_usac.h 49-58.  Without order the direction and the coefficients are those of the frame before
and are not used (ia_core_coder_tns.c 243-246); the model has 0 and none. -/
structure Filt where
  start : Nat
  stop : Nat
  dir : Nat
  coef : List Int
  deriving DecidableEq, Repr

/-- `ia_tns_info_struct`: `coef_res`, which without filters is that of the frame before and not used (0 in the model), and the filters. -/
structure TnsWin where
  res : Nat
  filt : List Filt
  deriving DecidableEq, Repr

/-- A coefficient of `n` bits, ia_core_coder_spectrum_dec.c 304-318 and 211-225: `sgn_mask` is the highest bit and `neg_mask` all bits from it on. -/
def coef (n : Nat) : Prog Int := do
  let v ← bits n
  pure (if v.testBit (n - 1) then (v : Int) - 2 ^ n else v)

/-- A filter, ia_core_coder_spectrum_dec.c 290-322 and 197-229: the numbers of bits are `start_band_bits` and `order_bits`. -/
def filt (sb ob res top : Nat) : Prog Filt := do
  let d ← bits sb
  if top ≤ d then fail badStart
  else do
    let order ← bits ob
    if order = 0 then pure ⟨top - d, top, 0, []⟩
    else do
      let dir ← bits 1
      let compress ← bits 1
      let cs ← forN (fun _ => coef (res - compress)) order 0
      pure ⟨top - d, top, dir, cs⟩

/-- The filters of a window, ia_core_coder_spectrum_dec.c 288-323 and 195-230. -/
def filts (sb ob res : Nat) : (n top : Nat) → Prog (List Filt)
  | 0, _ => pure []
  | n + 1, top => do
    let f ← filt sb ob res top
    let fs ← filts sb ob res n f.start
    pure (f :: fs)

/-- A window, ia_core_coder_spectrum_dec.c 279-323 and 186-230.  With `num_filt_bits` 2 there are at most 3 filters (`TNS_MAX_FILT`) and with
`order_bits` 4 at most 15 coefficients (`TNS_MAX_ORDER`), so the arrays are large enough. -/
def tnsWin (fb sb ob num : Nat) : Prog TnsWin := do
  let n ← bits fb
  if n = 0 then pure ⟨0, []⟩
  else do
    let r ← bits 1
    let fs ← filts sb ob (r + 3) n num
    pure ⟨r + 3, fs⟩

/-- `ia_core_coder_read_tns_u`, ia_core_coder_spectrum_dec.c 247-326, for `sfb_info` given by `islong` and its number of bands. -/
def tnsData (b : Bands) : (info : Option Bool) → Prog (List TnsWin)
  | none => fail noInfo
  | some true => forN (fun _ => tnsWin 2 6 4 (b.num true)) 1 0
  | some false => forN (fun _ => tnsWin 1 4 3 (b.num false)) 8 0

/-- `ia_core_coder_read_tns_tcx`, ia_core_coder_spectrum_dec.c 169-233. -/
def tnsTcx (num : Nat) : Prog TnsWin := tnsWin 1 4 3 num

/-! ## Stereo -/

/-- The flags of the bands, `ms_used`: those of a group are written from `pos` on. -/
def putFlags : (flags : List Nat) → (pos : Nat) → List Nat → Prog (List Nat)
  | [], _, t => pure t
  | v :: vs, pos, t => do
    let t ← setAt t pos v
    putFlags vs (pos + 1) t

/-- Groups of the mask, ia_core_coder_ext_ch_ele.c 290-299 and 303-315: `n` more, the one at hand from `pos` on.  `num` is `sfb_per_sbk` and
`maxSte` is `max_sfb_ste`, which fits `UWORD8`; if it is larger than `num` the pointer moves back. -/
def maskGroups (all : Bool) (num maxSte : Nat) : (n pos : Nat) → List Nat → Prog (List Nat)
  | 0, _, t => pure t
  | n + 1, pos, t => do
    let flags ← (if all then pure (List.replicate maxSte 1) else forN (fun _ => bits 1) maxSte 0)
    let t ← putFlags flags pos t
    let t ← putFlags (List.replicate (num - maxSte) 0) (pos + maxSte) t
    maskGroups all num maxSte n (pos + num) t

/-- Flags for pairs of bands, ia_core_coder_ext_ch_ele.c 161-167; `n` bands left. -/
def usedFlags : (n : Nat) → Prog (List Bool)
  | 0 => pure []
  | 1 => do
    let f ← flag
    pure [f]
  | n + 2 => do
    let f ← flag
    let l ← usedFlags n
    pure (f :: f :: l)

/-- A coefficient, ia_core_coder_ext_ch_ele.c 219-220 and 224-225.  The sums are unbounded in the model. -/
def alpha (last : Int) : Prog Int := do
  let v ← huffCodeword sclTable
  pure (-v + 60 + last)

/-- The coefficient of the pair of bands from `sfb` on, ia_core_coder_ext_ch_ele.c 194-231, 239 and 240: `last` is the coefficient of the band
before (of the same group), `prev` is `alpha_q_re_prev` and `alpha_q_im_prev`, of which only the entry of the first band of a pair is written. -/
def pairCoef (complex time u : Bool) (sfb : Nat) (last : Int × Int) (prev : List (Int × Int)) : Prog ((Int × Int) × List (Int × Int)) := do
  let l ← (if time then getAt prev sfb else pure last)
  let a ← (if u then do
      let re ← alpha l.1
      let im ← (if complex then alpha l.2 else pure 0)
      pure (re, im)
    else pure (0, 0))
  let prev ← setAt prev sfb a
  pure (a, prev)

/-- The coefficients of a group, ia_core_coder_ext_ch_ele.c 192-241: `used` are the flags of the bands left, from band `sfb` on. -/
def alphas (complex time : Bool) : (used : List Bool) → (sfb : Nat) → (last : Int × Int) → (prev : List (Int × Int)) →
    Prog (List (Int × Int) × List (Int × Int))
  | [], _, _, prev => pure ([], prev)
  | [u], sfb, last, prev => do
    let x ← pairCoef complex time u sfb last prev
    pure ([x.1], x.2)
  | u :: _ :: us, sfb, last, prev => do
    let x ← pairCoef complex time u sfb last prev
    let r ← alphas complex time us (sfb + 2) x.1 x.2
    pure (x.1 :: x.1 :: r.1, r.2)

/-- Groups of coefficients, ia_core_coder_ext_ch_ele.c 190-251; `clear` is `max_sfb_ste_clear`, which is at least `max_sfb_ste` and at most 136
(`SFB_NUM_MAX`). -/
def alphaGroups (complex time : Bool) (maxSte clear : Nat) : (used : List (List Bool)) → (prev : List (Int × Int)) →
    Prog (List (List (Int × Int)) × List (Int × Int))
  | [], prev => pure ([], prev)
  | u :: us, prev => do
    let r ← alphas complex time u 0 (0, 0) prev
    let prev ← lift (fill r.2 maxSte (clear - maxSte) (0, 0))
    let rs ← alphaGroups complex time maxSte clear us prev
    pure (r.1 :: rs.1, rs.2)

/-- What `ia_core_coder_cplx_pred_data` delivers: for each group the flags and coefficients of the first `max_sfb_ste` bands; the flags of the
others are 0. -/
structure Pred where
  used : List (List Bool)
  dir : Bool
  complex : Bool
  usePrev : Bool
  alpha : List (List (Int × Int))
  deriving DecidableEq, Repr

/-- `ia_core_coder_cplx_pred_data`, ia_core_coder_ext_ch_ele.c 127-254, and the new `alpha_q_*_prev`. -/
def predData (indep : Bool) (groups maxSte clear : Nat) (prev : List (Int × Int)) : Prog (Pred × List (Int × Int)) := do
  let all ← flag
  let used ← (if all then pure (List.replicate groups (List.replicate maxSte true)) else forN (fun _ => usedFlags maxSte) groups 0)
  let dir ← flag
  let complex ← flag
  let usePrev ← (if complex = true ∧ indep = false then flag else pure false)
  let time ← (if indep then pure false else flag)
  let r ← alphaGroups complex time maxSte clear used prev
  pure (⟨used, dir, complex, usePrev, r.1⟩, r.2)

/-- `ms_mask_present` and what comes with it. -/
inductive Stereo where
  | none
  | mask (ms : List Nat)
  | all (ms : List Nat)
  | pred (p : Pred)
  deriving DecidableEq, Repr

/-- `complex_coef`: prediction uses the imaginary part.  It is 0 at the start of each frame (ia_core_coder_process.c 785-1139). -/
def Stereo.complex : Stereo → Bool
  | .pred p => p.complex
  | _ => false

/-- `ia_core_coder_read_ms_mask`, ia_core_coder_ext_ch_ele.c 269-320: `ms` is `ms_used` of the channel before (128 flags), the number of groups is
that of the ends. -/
def msMask (indep : Bool) (num groups maxSte clear : Nat) (ms : List Nat) (prev : List (Int × Int)) :
    Prog (Stereo × List (Int × Int)) := do
  let m ← bits 2
  match m with
  | 3 => do
    let r ← predData indep groups maxSte clear prev
    pure (.pred r.1, r.2)
  | 2 => do
    let ms ← maskGroups true num maxSte groups 0 ms
    pure (.all ms, prev)
  | 1 => do
    let ms ← maskGroups false num maxSte groups 0 ms
    pure (.mask ms, prev)
  | _ => pure (.none, prev)

/-- What the header of a pair depends on: the bands, whether the profile is the restricted one (`is_base_line_profile_3b`),
`igf_active`, `igf_independent_tiling`, `igf_after_tns_synth`, `igf_sfb_start` for short and long windows, `igf_use_enf` of the elements
of the configuration, and the number of the element (`elem_idx`). -/
structure Cfg where
  bands : Bands
  base3b : Bool
  igf : Bool
  independent : Bool
  afterTns : Bool
  igfStart : Bool → Nat
  enf : List Bool
  elem : Nat

/-- What it depends on from before: `usac_independency_flg`, `window_sequence_last` of the left channel, `alpha_q_*_prev`, `ms_used`,
`igf_stereo_filling` of the element, and `islong` of `pstr_sfb_info[0]`, if the pair is not the first one; for the first pair
(`chan_offset` 0) the latter is that of the pair itself. -/
structure Past where
  indep : Bool
  last : Nat
  prev : List (Int × Int)
  ms : List Nat
  filling : Bool
  first : Option (Option Bool)

/-- `ltpf_data`: the index of the lag and of the gain, if present. -/
abbrev Ltpf := Option (Nat × Nat)

/-- `pitch_lag_idx` and `gain_idx`, ia_core_coder_ext_ch_ele.c 1311-1322. -/
def ltpf : Prog Ltpf := do
  let p ← flag
  if p then do
    let lag ← bits 9
    let gain ← bits 2
    pure (some (lag, gain))
  else pure none

/-- Windows of both channels of a pair, `max_sfb` of the right one, `max_sfb_ste`, stereo data and the mask of the gap filling. -/
structure Common where
  ics : Ics
  right : Nat
  maxSte : Nat
  stereo : Stereo
  igfMask : Nat
  deriving DecidableEq, Repr

/-- How noise shaping is sent: for both channels at once, or which channels have their own. -/
inductive Tns where
  | off
  | common (d : List TnsWin)
  | own (left right : Bool)
  deriving DecidableEq, Repr

/-- What the header of a pair delivers; `tns_on_lr`. -/
structure Pair where
  common : Option Common
  ltpf : Option Ltpf
  tns : Tns
  onLr : Bool
  deriving DecidableEq, Repr

/-- ia_core_coder_ext_ch_ele.c 1203-1301, with `ia_core_coder_read_igf_mask` (1294) as a parameter.  1282 looks at `igf_use_enf` of the first
element. -/
def commonWindow (c : Cfg) (s : Past) (prev : List (Int × Int)) (igfMask : Ics → Prog Nat) : Prog (Common × List (Int × Int)) := do
  let ics ← icsInfo c.bands s.last
  let same ← flag
  let right ← (if same then pure ics.maxSfb else if isLong ics.seq then bits 6 else bits 4)
  let maxSte := max ics.maxSfb right
  let num := c.bands.num (isLong ics.seq)
  let cut := c.igf && !c.independent
  let maxSte := if cut then min maxSte (c.igfStart (isLong ics.seq)) else maxSte
  let clear := if cut then min 136 (c.igfStart (isLong ics.seq)) else 136
  let right := if num < right then num else right
  let st ← msMask s.indep num ics.ends.length maxSte clear s.ms prev
  if (c.enf.headD false || s.filling) && st.1.complex then fail noComplex
  else do
    let m ← (if !c.independent && c.igf then igfMask ics else pure 0)
    pure (⟨ics, right, maxSte, st.1, m⟩, st.2)

/-- The header of a pair of frequency domain channels, ia_core_coder_ext_ch_ele.c 1183-1378.  Zeroing `alpha_q_*_prev` is 1185-1191; the new
`alpha_q_*_prev` comes with the result. -/
def pair (c : Cfg) (s : Past) (igfMask : Ics → Prog Nat) : Prog (Pair × List (Int × Int)) := do
  let tns ← flag
  let cw ← flag
  let prev := if !cw || s.indep then List.replicate 136 (0, 0) else s.prev
  let com ← (if cw then do
      let x ← commonWindow c s prev igfMask
      pure (some x.1, x.2)
    else pure (none, prev) : Prog (Option Common × List (Int × Int)))
  let cl ← flag
  let l ← (if cl then (if c.base3b then fail badProfile else do
      let l ← ltpf
      pure (some l))
    else pure none : Prog (Option Ltpf))
  if tns then do
    let ct ← (if cw then flag else pure false)
    let onLr ← (if c.igf && !c.afterTns then pure true else flag)
    if ct then do
      let info := match s.first with
        | some i => i
        | none => com.1.map fun x => isLong x.ics.seq
      let d ← tnsData c.bands info
      pure (⟨com.1, l, .common d, onLr⟩, com.2)
    else do
      let both ← flag
      if both then pure (⟨com.1, l, .own true true, onLr⟩, com.2)
      else do
        let r ← flag
        pure (⟨com.1, l, .own (!r) r, onLr⟩, com.2)
  else pure (⟨com.1, l, .off, true⟩, com.2)

end Verif.Fd
