import Verif.Model.Fd
import Mathlib.Data.Rat.Defs

/-! # Stereo processing of frequency domain channels

Model of `ia_core_coder_filter_and_add`, `ia_core_coder_estimate_dmx_im`, `ia_core_coder_cplx_pred_upmixing`,
`ia_core_coder_cplx_prev_mdct_dmx` and `impeghd_ms_stereo` (ia_core_coder_ext_ch_ele.c 414-732 and 1427-1483) with the filters of
ia_core_coder_rom.c 953-1020.

Numbers are rational instead of `FLOAT32`, so rounding is not modelled, and 0.1f is 1/10.  Buffers are functions from all indices; the two
spectra of a pair are one function with values in pairs, as both are always used at the same index. -/

namespace Verif.FdMix

open Fd (Bands)

/-- A buffer after a value has been stored. -/
def upd {τ : Type} (s : Nat → τ) (i : Nat) (v : τ) : Nat → τ := fun j => if j = i then v else s j

/-- A loop over `n` bins from `idx`, each of which changes its own value. -/
def bins {τ : Type} (h : Nat → τ → τ) : (n idx : Nat) → (Nat → τ) → (Nat → τ)
  | 0, _, s => s
  | n + 1, idx, s => bins h n (idx + 1) (upd s idx (h idx (s idx)))

/-! ## Middle and side -/

/-- A bin, ia_core_coder_ext_ch_ele.c 1468-1471: the left and the right value. -/
def msBin (x : ℚ × ℚ) : ℚ × ℚ := (x.1 + x.2, x.1 - x.2)

/-- `n` bands from `band`, whose bins begin at `lo`, of the window that begins at `base`, ia_core_coder_ext_ch_ele.c 1459-1477.  `ends` is
`ptr_sfb_tbl`. -/
def msBands (mask : Nat → Nat) (ends : List Nat) (base : Nat) : (n band lo : Nat) → (Nat → ℚ × ℚ) → (Nat → ℚ × ℚ)
  | 0, _, _, s => s
  | n + 1, band, lo, s =>
    let hi := ends.getD band 0
    msBands mask ends base n (band + 1) hi (if mask band ≠ 0 then bins (fun _ => msBin) (hi - lo) (base + lo) s else s)

/-- `n` windows from window `k`, ia_core_coder_ext_ch_ele.c 1448-1480; `first_band` is 0 at 1839-1841. -/
def msWindows (mask : Nat → Nat) (ends : List Nat) (width last : Nat) : (n k : Nat) → (Nat → ℚ × ℚ) → (Nat → ℚ × ℚ)
  | 0, _, s => s
  | n + 1, k, s => msWindows mask ends width last n (k + 1) (msBands mask ends (k * width) last 0 0 s)

/-- The groups with the given ends from group `g`, which begins with window `k`, ia_core_coder_ext_ch_ele.c 1443-1482. -/
def msGroups (mask : Nat → Nat) (ends : List Nat) (width last : Nat) : (groups : List Nat) → (g k : Nat) → (Nat → ℚ × ℚ) → (Nat → ℚ × ℚ)
  | [], _, _, s => s
  | e :: groups, g, k, s =>
    msGroups mask ends width last groups (g + 1) e
      (msWindows (fun b => mask (g * ends.length + b)) ends width last (e - k) k s)

/-- `IA_MPEGH_DEC_EXE_FATAL_UNSUPPORTED_SFB_INDEX`, impeghd_error_codes.h 252. -/
def badBand : ErrCode := .other 0xFFFF981A

/-- The call at ia_core_coder_ext_ch_ele.c 1834-1841. -/
def ms (mask : List Nat) (ends : List Nat) (width maxSte : Nat) (groups : List Nat) (s : Nat → ℚ × ℚ) : Res (Nat → ℚ × ℚ) :=
  if ends.length < maxSte then .err badBand
  else .ok (msGroups (fun i => mask.getD i 0) ends width maxSte groups 0 0 s)

/-! ## The estimated imaginary part -/

/-- The sum of seven products in `ia_core_coder_filter_and_add`; `x0` is the value multiplied by `filter[6]`. -/
def taps (f : Nat → ℚ) (x0 x1 x2 x3 x4 x5 x6 : ℚ) : ℚ :=
  ((f 6 * x0 + f 5 * x1) + (f 4 * x2 + f 3 * x3)) + ((f 2 * x4 + f 1 * x5) + f 0 * x6)

/-- The loop at ia_core_coder_ext_ch_ele.c 440-454 with at most `fuel` rounds. -/
def filterLoop (x : Nat → ℚ) (len : Nat) (f : Nat → ℚ) (even : ℚ) : (fuel idx : Nat) → (Nat → ℚ) → (Nat → ℚ)
  | 0, _, out => out
  | fuel + 1, idx, out =>
    if idx + 4 < len then
      let out := upd out idx (out idx + taps f (x (idx - 3)) (x (idx - 2)) (x (idx - 1)) (x idx) (x (idx + 1)) (x (idx + 2)) (x (idx + 3)))
      let out := upd out (idx + 1)
        (out (idx + 1) + taps f (x (idx - 2)) (x (idx - 1)) (x idx) (x (idx + 1)) (x (idx + 2)) (x (idx + 3)) (x (idx + 4)) * even)
      filterLoop x len f even fuel (idx + 2) out
    else out

/-- `ia_core_coder_filter_and_add`, ia_core_coder_ext_ch_ele.c 414-477. -/
def filterAdd (x : Nat → ℚ) (len : Nat) (f : Nat → ℚ) (even : ℚ) (out : Nat → ℚ) : Nat → ℚ :=
  let out := upd out 0 (out 0 + taps f (x 2) (x 1) (x 0) (x 0) (x 1) (x 2) (x 3) * even)
  let out := upd out 1 (out 1 + taps f (x 1) (x 0) (x 0) (x 1) (x 2) (x 3) (x 4))
  let out := upd out 2 (out 2 + taps f (x 0) (x 0) (x 1) (x 2) (x 3) (x 4) (x 5) * even)
  let out := filterLoop x len f even len 3 out
  let i := len - 3
  let out := upd out i (out i + taps f (x (i - 3)) (x (i - 2)) (x (i - 1)) (x i) (x (i + 1)) (x (i + 2)) (x (i + 2)))
  let i := len - 2
  let out := upd out i (out i + taps f (x (i - 3)) (x (i - 2)) (x (i - 1)) (x i) (x (i + 1)) (x (i + 1)) (x i) * even)
  let i := len - 1
  upd out i (out i + taps f (x (i - 3)) (x (i - 2)) (x (i - 1)) (x i) (x i) (x (i - 1)) (x (i - 2)))

/-- A buffer from an index on, as a pointer. -/
def from' {τ : Type} (s : Nat → τ) (base : Nat) : Nat → τ := fun i => s (base + i)

/-- A buffer changed through a pointer into it. -/
def at' {τ : Type} (base : Nat) (h : (Nat → τ) → (Nat → τ)) (s : Nat → τ) : Nat → τ :=
  fun i => if base ≤ i then h (from' s base) (i - base) else s i

/-- The window before, if it is used, ia_core_coder_ext_ch_ele.c 533-534. -/
def addLast (last : Nat → ℚ) (width base : Nat) : Option (Nat → ℚ) → (Nat → ℚ) → (Nat → ℚ)
  | some p, im => at' base (filterAdd p width last (-1)) im
  | none, im => im

/-- The loop at ia_core_coder_ext_ch_ele.c 529-539: `n` windows from `base`; `prev` is the window before, if it is used. -/
def estimate (cur last : Nat → ℚ) (width : Nat) (dmx : Nat → ℚ) : (n base : Nat) → (prev : Option (Nat → ℚ)) → (Nat → ℚ) → (Nat → ℚ)
  | 0, _, _, im => im
  | n + 1, base, prev, im =>
    estimate cur last width dmx n (base + width) (some (from' dmx base))
      (addLast last width base prev (at' base (filterAdd (from' dmx base) width cur 1) im))

/-- Millionths. -/
def mill (l : List Int) (k : Nat) : ℚ := l.getD k 0 / 1000000

/-- `ia_core_coder_mdst_fcoeff_longshort_curr`, `..._start_curr`, `..._stop_cur` and `..._stopstart_cur`, ia_core_coder_rom.c 953-1003, in
millionths, for the shape of the window before and of the window. -/
def longCur : List (List (List Int)) :=
  [[[0, 0, 500000, 0, -500000, 0, 0], [45748, 57238, 540714, 0, -540714, -57238, -45748]],
   [[45748, -57238, 540714, 0, -540714, 57238, -45748], [91497, 0, 581427, 0, -581427, 0, -91497]]]
/-- See `longCur`. -/
def startCur : List (List (List Int)) :=
  [[[102658, 103791, 567149, 0, -567149, -103791, -102658], [104763, 105207, 567861, 0, -567861, -105207, -104763]],
   [[148406, 46553, 607863, 0, -607863, -46553, -148406], [150512, 47969, 608574, 0, -608574, -47969, -150512]]]
/-- See `longCur`. -/
def stopCur : List (List (List Int)) :=
  [[[102658, -103791, 567149, 0, -567149, 103791, -102658], [148406, -46553, 607863, 0, -607863, 46553, -148406]],
   [[104763, -105207, 567861, 0, -567861, 105207, -104763], [150512, -47969, 608574, 0, -608574, 47969, -150512]]]
/-- See `longCur`. -/
def stopStartCur : List (List (List Int)) :=
  [[[205316, 0, 634298, 0, -634298, 0, -205316], [207421, 1416, 635010, 0, -635010, -1416, -207421]],
   [[207421, -1416, 635010, 0, -635010, 1416, -207421], [209526, 0, 635722, 0, -635722, 0, -209526]]]

/-- `ia_core_coder_mdst_fcoeff_l_s_start_left_prev` and `..._stop_stopstart_left_prev`, ia_core_coder_rom.c 1005-1020, in millionths, for the
shape of the window before. -/
def longPrev : List (List Int) :=
  [[0, 106103, 250000, 318310, 250000, 106103, 0], [59509, 123714, 186579, 213077, 186579, 123714, 59509]]
/-- See `longPrev`. -/
def stopPrev : List (List Int) :=
  [[38498, 39212, 39645, 39790, 39645, 39212, 38498], [26142, 26413, 26577, 26631, 26577, 26413, 26142]]

/-- The filters for a window sequence (as in `Fd.winSeq`), the shape of the window before and that of the window, ia_core_coder_ext_ch_ele.c
504-527. -/
def filters (seq prevShape shape : Nat) : List Int × List Int :=
  let cur := fun (t : List (List (List Int))) => (t.getD prevShape []).getD shape []
  match seq with
  | 1 => (cur startCur, longPrev.getD prevShape [])
  | 4 => (cur stopStartCur, stopPrev.getD prevShape [])
  | 3 => (cur stopCur, stopPrev.getD prevShape [])
  | 0 => (cur longCur, longPrev.getD prevShape [])
  | 2 => (cur longCur, longPrev.getD prevShape [])
  | _ => (cur stopStartCur, stopPrev.getD prevShape [])

/-! ## Prediction -/

/-- The bands of widths `ws` from band `sfb`, ia_core_coder_ext_ch_ele.c 595-611, 622-638 and 661-680, with the next index.  What the code tests
once for a band is tested for each bin here. -/
def walkBands {τ : Type} (h : Nat → Nat → τ → τ) : (ws : List Nat) → (sfb idx : Nat) → (Nat → τ) → Nat × (Nat → τ)
  | [], _, idx, s => (idx, s)
  | w :: ws, sfb, idx, s => walkBands h ws (sfb + 1) (idx + w) (bins (h sfb) w idx s)

/-- `n` windows, ia_core_coder_ext_ch_ele.c 593-612, 620-639 and 659-681. -/
def walkWindows {τ : Type} (h : Nat → Nat → τ → τ) (ws : List Nat) : (n idx : Nat) → (Nat → τ) → Nat × (Nat → τ)
  | 0, idx, s => (idx, s)
  | n + 1, idx, s =>
    let r := walkBands h ws 0 idx s
    walkWindows h ws n r.1 r.2

/-- The groups with the given numbers of windows from group `g`, ia_core_coder_ext_ch_ele.c 591-613, 618-640 and 657-682. -/
def walk {τ : Type} (h : Nat → Nat → Nat → τ → τ) (ws : List Nat) : (lens : List Nat) → (g idx : Nat) → (Nat → τ) → Nat → τ
  | [], _, _, s => s
  | n :: lens, g, idx, s =>
    let r := walkWindows (h g) ws n idx s
    walk h ws lens (g + 1) r.1 r.2

/-- `factor`, ia_core_coder_ext_ch_ele.c 567 and 585-586. -/
def factor (dir : Bool) : ℚ := if dir then -1 else 1

/-- A bin of the downmix, ia_core_coder_ext_ch_ele.c 597-610. -/
def dmxBin (dir : Bool) (used : Nat → Nat → Nat) (x : Nat → ℚ × ℚ) (g sfb i : Nat) (_ : ℚ) : ℚ :=
  if used g sfb ≠ 1 then 1 / 2 * ((x i).1 + factor dir * (x i).2) else (x i).1

/-- A bin predicted from the real part, ia_core_coder_ext_ch_ele.c 624-637. -/
def realBin (dir : Bool) (used : Nat → Nat → Nat) (re : Nat → Nat → Int) (start stop : Nat) (g sfb _i : Nat) (x : ℚ × ℚ) : ℚ × ℚ :=
  if used g sfb ≠ 0 ∧ start ≤ sfb ∧ sfb < stop then
    let mix := x.2 - re g sfb * (1 / 10) * x.1
    (x.1 + mix, factor dir * (x.1 - mix))
  else x

/-- A bin predicted from both parts, ia_core_coder_ext_ch_ele.c 663-679. -/
def complexBin (dir : Bool) (used : Nat → Nat → Nat) (re im : Nat → Nat → Int) (dmxIm : Nat → ℚ) (g sfb i : Nat) (x : ℚ × ℚ) : ℚ × ℚ :=
  if used g sfb = 0 then x
  else
    let mix := x.2 - re g sfb * (1 / 10) * x.1 - im g sfb * (1 / 10) * dmxIm i
    (x.1 + mix, factor dir * (x.1 - mix))

/-- What upmixing uses of the pair: `pred_dir`, `complex_coef`, `cplx_pred_used`, `alpha_q_re`, `alpha_q_im` by group and band, the number of
windows in each group, the widths of the bands, `bins_per_sbk`, the two filters, and `dmx_re_prev` if it is used. -/
structure Up where
  dir : Bool
  complex : Bool
  used : Nat → Nat → Nat
  re : Nat → Nat → Int
  im : Nat → Nat → Int
  lens : List Nat
  ws : List Nat
  width : Nat
  cur : Nat → ℚ
  last : Nat → ℚ
  prev : Option (Nat → ℚ)

/-- `ia_core_coder_cplx_pred_upmixing`, ia_core_coder_ext_ch_ele.c 561-686; `scratch` is `dmx_real` before.  `max_win_len` is the number of all
windows.  `dmx_imag` is set to zero (615) below 1024; its values beyond are not used. -/
def upmix (u : Up) (start stop : Nat) (scratch : Nat → ℚ) (x : Nat → ℚ × ℚ) : Nat → ℚ × ℚ :=
  let dmx := walk (dmxBin u.dir u.used x) u.ws u.lens 0 0 scratch
  if u.complex = false then walk (realBin u.dir u.used u.re start stop) u.ws u.lens 0 0 x
  else
    let im := estimate u.cur u.last u.width dmx u.lens.sum 0 u.prev fun _ => 0
    walk (complexBin u.dir u.used u.re u.im im) u.ws u.lens 0 0 x

/-- `ia_core_coder_cplx_prev_mdct_dmx`, ia_core_coder_ext_ch_ele.c 703-732, for spectra of `len` bins: the downmix of the last window. -/
def prevDmx (len width : Nat) (dir zeros : Bool) (x : Nat → ℚ × ℚ) (out : Nat → ℚ) : Nat → ℚ :=
  fun i => if i < width then
      (if zeros then 0 else 1 / 2 * ((x (i + (len - width))).1 + (if dir then -1 else 1) * (x (i + (len - width))).2))
    else out i

end Verif.FdMix
