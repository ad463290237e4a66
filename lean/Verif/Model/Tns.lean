import Verif.Model.Fd
import Mathlib.Data.Rat.Defs
import Mathlib.Algebra.Order.Field.Rat

/-! # Noise shaping in time

Model of `impeghd_tns_decode_coeff_ar_filter`, `ia_core_coder_igf_nbands` and `ia_core_coder_tns_apply` (ia_core_coder_tns.c 83-289) for
channels of the frequency domain, and of `ia_core_coder_get_noise_bw`, `ia_core_coder_tns_lpd_synth_filter`,
`ia_core_coder_tns_lpd_prepare_lp_coeffs` and `ia_core_coder_tns_dec_lpd` (ia_core_coder_tcx_fwd_alcnx.c 315-493) with the call of the last
(894-900) and the filters that are kept from frame to frame (ia_core_coder_acelp_bitparse.c 619-627).

Spectral values are rationals.  Reflection coefficients, which are sines of quantised angles, are given by an arbitrary function `sn` of
`coef_res` and the quantised value.  The lines of a window are a function of the line; `ia_core_coder_tns_apply` works on a copy of the
window, which it copies back after each filter. -/

namespace Verif.Tns

open Fd (Filt TnsWin)

/-- One round of ia_core_coder_tns.c 102-114 and ia_core_coder_tcx_fwd_alcnx.c 432-442. -/
def stepUp (k : ℚ) (m : Nat) (a : Nat → ℚ) : Nat → ℚ := fun i =>
  if i = 0 then a 0 else if i < m then a i + k * a (m - i) else if i = m then k else a i

/-- ia_core_coder_tns.c 102-114, ia_core_coder_tcx_fwd_alcnx.c 432-442, from round `m` on. -/
def stepsUp : (ks : List ℚ) → (m : Nat) → (Nat → ℚ) → Nat → ℚ
  | [], _, a => a
  | k :: ks, m, a => stepsUp ks (m + 1) (stepUp k m a)

/-- The coefficients of a filter, ia_core_coder_tns.c 92-114 and ia_core_coder_tcx_fwd_alcnx.c 418-443.  Entries that were not written are 0
in the model; they are not read. -/
def lpc (ks : List ℚ) : Nat → ℚ := stepsUp ks 1 fun i => if i = 0 then 1 else 0

/-- ia_core_coder_tns.c 124-126, ia_core_coder_tcx_fwd_alcnx.c 382-386: from entry `j` of the state on. -/
def minus (a : Nat → ℚ) : (j : Nat) → (st : List ℚ) → ℚ → ℚ
  | _, [], y => y
  | j, s :: st, y => minus a (j + 1) st (y - a (j + 1) * s)

/-- `*spec = y`. -/
def put (f : Nat → ℚ) (i : Nat) (x : ℚ) : Nat → ℚ := fun j => if j = i then x else f j

/-- ia_core_coder_tns.c 122-132, ia_core_coder_tcx_fwd_alcnx.c 380-393: `n` lines from the `k`-th on; the `k`-th is at `pos k`. -/
def ar (a : Nat → ℚ) (pos : Nat → Nat) : (n k : Nat) → (st : List ℚ) → (Nat → ℚ) → Nat → ℚ
  | 0, _, _, f => f
  | n + 1, k, st, f => ar a pos n (k + 1) (minus a 0 st (f (pos k)) :: st).dropLast (put f (pos k) (minus a 0 st (f (pos k))))

/-- The filter over the lines from `lo` to `hi`, upwards or downwards, ia_core_coder_tns.c 116-132, ia_core_coder_tcx_fwd_alcnx.c 363-394. -/
def arFilter (ks : List ℚ) (lo hi dir : Nat) (f : Nat → ℚ) : Nat → ℚ :=
  ar (lpc ks) (fun k => if dir = 0 then lo + k else hi - 1 - k) (hi - lo) 0 (List.replicate ks.length 0) f

/-- What does not change in a frame: `ptr_sfb_tbl`, which has `sfb_per_sbk` entries, the entry of `tns_max_bands_tbl_usac`, the number of
bands, and `igf_active`. -/
structure Cfg where
  sn : Nat → Int → ℚ
  ends : List Nat
  most : Nat
  nbands : Nat
  igf : Bool

/-- `IA_MPEGH_DEC_EXE_FATAL_INVALID_TNS_SFB`. -/
def badBand : ErrCode := .other 0xFFFF9803

/-- `sfb_offset`, ia_core_coder_tns.c 57. -/
def top (ends : List Nat) (b : Nat) : Res Nat :=
  if b = 0 then .ok 0 else
  match ends[b - 1]? with
  | some x => .ok x
  | none => .ub

/-- `ia_core_coder_igf_nbands`, ia_core_coder_tns.c 147-187: `start` and `stop` are `igf_sfb_start` and `igf_sfb_stop` of the grid of the window. -/
def igfBands (active after : Bool) (start stop nbands : Nat) : Nat :=
  if active then (if after then (if start < nbands then start else nbands) else (if nbands < stop then stop else nbands)) else nbands

/-- One filter, ia_core_coder_tns.c 239-282.  The arrays have 16 entries and the state 15. -/
def filter (c : Cfg) (res : Nat) (g : Filt) (f : Nat → ℚ) : Res (Nat → ℚ) :=
  if g.coef = [] then .ok f
  else do
    let s := min (min g.start c.most) c.nbands
    if c.ends.length < s then .err badBand
    else do
      let lo ← top c.ends s
      let e := if c.igf then min g.stop c.nbands else min (min g.stop c.most) c.nbands
      if c.ends.length < e then .err badBand
      else do
        let hi ← top c.ends e
        if hi ≤ lo then .ok f
        else if 15 < g.coef.length then .ub
        else .ok (arFilter (g.coef.map (c.sn res)) lo hi g.dir f)

/-- The filters of a window, ia_core_coder_tns.c 233-284. -/
def filters (c : Cfg) (res : Nat) : List Filt → (Nat → ℚ) → Res (Nat → ℚ)
  | [], f => .ok f
  | g :: gs, f => do
    let f ← filter c res g f
    filters c res gs f

/-- `ia_core_coder_tns_apply`, ia_core_coder_tns.c 227-287: the windows from window `j` on. -/
def apply (c : Cfg) : List TnsWin → (j : Nat) → (Nat → Nat → ℚ) → Res (Nat → Nat → ℚ)
  | [], _, s => .ok s
  | w :: ws, j, s => do
    let f ← filters c w.res w.filt (s j)
    apply c ws (j + 1) (fun j' => if j' = j then f else s j')

/-! ## Parts of linear prediction -/

/-- `ia_core_coder_get_noise_bw`, ia_core_coder_tcx_fwd_alcnx.c 315-341. -/
def noiseBw (ends : List Nat) (mode maxSfb len : Nat) : Res Nat :=
  if maxSfb = 0 then .ok 0
  else if ends.length < maxSfb then .ok len
  else do
    let e ← top ends maxSfb
    .ok (if len < e * (mode * 4) then len else e * (mode * 4))

/-- `ia_core_coder_tns_dec_lpd`, ia_core_coder_tcx_fwd_alcnx.c 462-493: `idx` is `sfb_idx_tbl`.  There is at most one filter; the arrays have
8 entries. -/
def lpdFilter (sn : Nat → Int → ℚ) (idx : List Nat) (w : TnsWin) (mode len count : Nat) (f : Nat → ℚ) : Res (Nat → ℚ) :=
  match w.filt with
  | [] => .ok f
  | g :: _ =>
    if 15 < g.stop ∨ g.coef = [] then .ok f
    else if 7 < g.coef.length ∨ g.start = 0 then .ub
    else do
      let s ← top idx g.start
      if min len (count * 256) ≤ s * (mode * 4) then .ok f
      else .ok (arFilter (g.coef.map (sn w.res)) (s * (mode * 4)) (min len (count * 256)) g.dir f)

/-- The filters in `str_tns_info_td` after a part, ia_core_coder_acelp_bitparse.c 619-627: part `k` has coded filters if `tns_data_present`. -/
def keep (st : Nat → TnsWin) (k : Nat) : (coded : Option TnsWin) → Nat → TnsWin
  | none => st
  | some w => fun j => if j = k then w else st j

/-- Noise shaping of part `k`, ia_core_coder_tcx_fwd_alcnx.c 894-900, and the filters that are kept: `ends` and `idx` are `ptr_sfb_tbl` and
`sfb_idx_tbl` of short windows, `mode` is 1 or 2 and the part has `512 * mode` lines with `full_band_lpd` (`len_frame_fb`), where
`len_subfrm` is 256. -/
def lpdPart (sn : Nat → Int → ℚ) (ends idx : List Nat) (mode maxSfb k : Nat) (coded : Option TnsWin) (st : Nat → TnsWin) (f : Nat → ℚ) :
    Res ((Nat → TnsWin) × (Nat → ℚ)) := do
  let len ← noiseBw ends mode maxSfb (512 * mode)
  let f ← lpdFilter sn idx (keep st k coded k) mode len (512 * mode / 256) f
  .ok (keep st k coded, f)

end Verif.Tns
