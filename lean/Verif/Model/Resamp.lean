import Verif.Prelude
import Mathlib.Algebra.Order.Field.Rat

/-! # Resampler

Model of impeghd_resampler.c 93-202, the only function of the resampler, of its tables impeghd_resampler_rom.c 46-79, and of the last stage of a frame, ia_core_coder_decode_main.c 1496-1549
and 2857-2895: resampling, loudness normalisation and the choice of the samples that are put out.

Samples and taps are rationals; sums are exact, so that their order does not matter.  Frames are functions of the sample; the first `len` values are used. -/

namespace Verif.Resamp

/-- `impeghd_resampler_filter`, impeghd_resampler_rom.c 46-57, times 10^8. -/
def table2 : List Int :=
  [66318, 59298, -79957, -80299, 114910, 121690, -174850, -187580, 263900, 282830, -387020, -413480,
    550690, 587730, -764150, -817570, 1041800, 1122200, -1408200, -1535200, 1908800, 2122200, -2639500, -3030400,
    3837400, 4671300, -6286900, -8778800, 14968000, 44865000, 44865000, 14968000, -8778800, -6286900, 4671300, 3837400,
    -3030400, -2639500, 2122200, 1908800, -1535200, -1408200, 1122200, 1041800, -817570, -764150, 587730, 550690,
    -413480, -387020, 282830, 263900, -187580, -174850, 121690, 114910, -80299, -79957, 59298, 66318]

/-- `impeghd_resampler_filter_3`, impeghd_resampler_rom.c 59-79, times 10^18. -/
def table3 : List Int :=
  [-497022232279335, -918613596216878, -444825902452182, 705250981587193, 1507003154450660, 809458182295440,
    -1297855437412780, -2851784604640260, -1551562801487590, 2369465640445030, 5170242297949120, 2798717042299660,
    -4045381161799530, -8769783124462510, -4741311433276140, 6529287419529970, 14175859565913720, 7719877178828370,
    -10228429313241900, -22486521477261310, -12483028773284100, 16144304458611500, 36581982746501500, 21164205045535500,
    -27537627326261400, -67168265258057400, -43283279232924400, 63561605701345100, 211300236308269000, 317767795951496000,
    317767795951496000, 211300236308269000, 63561605701345100, -43283279232924400, -67168265258057400, -27537627326261400,
    21164205045535600, 36581982746501500, 16144304458611500, -12483028773284100, -22486521477261310, -10228429313241900,
    7719877178828380, 14175859565913720, 6529287419529980, -4741311433276140, -8769783124462510, -4045381161799530,
    2798717042299660, 5170242297949120, 2369465640445030, -1551562801487590, -2851784604640260, -1297855437412790,
    809458182295442, 1507003154450660, 705250981587192, -444825902452182, -918613596216878, -497022232279335]

/-- The table for a factor: impeghd_resampler.c 100-109. -/
def tap (up i : Nat) : ℚ := if up = 3 then (table3.getD i 0 : Int) / 1000000000000000000 else (table2.getD i 0 : Int) / 100000000

/-- What is kept of a channel: impeghd_resampler.h 46-55. -/
structure State where
  /-- `delay_samples_upsamp` -/
  input : Nat → ℚ
  /-- `poly_filt_mem` -/
  mem : Nat → ℚ
  /-- `delay_samples` -/
  middle : Nat → ℚ

/-- Cleared memory, impeghd_api.c 1177. -/
def State.zero : State := ⟨fun _ => 0, fun _ => 0, fun _ => 0⟩

/-- A frame with `n` samples kept before it. -/
def behind (n : Nat) (kept f : Nat → ℚ) : Int → ℚ := fun i => if 0 ≤ i then f i.toNat else kept (i + n).toNat

/-- `poly_filt_outputs[k]` in round `n`: impeghd_resampler.c 117-141. -/
def branch (up : Nat) (x : Int → ℚ) (n : Int) (k : Nat) : ℚ := ((List.range (60 / up)).map (fun m : Nat => x (n - (59 / up : Nat) + m) * tap up (up * m + k))).sum

/-- Output `j` of a round: impeghd_resampler.c 143-155. -/
def group (up : Nat) (mem now : Nat → ℚ) (j : Nat) : ℚ :=
  ((List.range (up - 1 - j)).map (fun i => mem (j + i))).sum + ((List.range (j + 1)).map now).sum

/-- `poly_filt_mem` after a round: impeghd_resampler.c 156-159. -/
def memAfter (up : Nat) (mem now : Nat → ℚ) : Nat → ℚ := fun k => if k + 1 < up then now (k + 1) else mem k

/-- `poly_filt_mem` before round `n`. -/
def memAt (up : Nat) (x : Int → ℚ) (mem : Nat → ℚ) : Nat → Nat → ℚ
  | 0 => mem
  | n + 1 => memAfter up (memAt up x mem n) (branch up x n)

/-- The signal after the first filter: impeghd_resampler.c 115-160. -/
def upper (up : Nat) (st : State) (f : Nat → ℚ) : Nat → ℚ := fun s =>
  let x := behind (59 / up) st.input f
  group up (memAt up x st.mem (s / up)) (branch up x (s / up : Nat)) (s % up)

/-- The second filter, for a factor of 2: impeghd_resampler.c 173-194. -/
def lower (z : Int → ℚ) (i : Nat) : ℚ := ((List.range 60).map (fun m : Nat => z (2 * i - 59 + m) * tap 2 m)).sum

/-- `impeghd_resample`, impeghd_resampler.c 93-202: a frame of `len` samples.  The copies 163-164 and 197-198 are of the last samples of the frame; they are within it if it is long enough. -/
def process (up down len : Nat) (st : State) (f : Nat → ℚ) : (Nat → ℚ) × State :=
  let z := upper up st f
  (if down = 2 then lower (behind 59 st.middle z) else z,
    ⟨fun j => f (len - 59 / up + j), memAt up (behind (59 / up) st.input f) st.mem len, if down = 2 then fun j => z (len * up - 59 + j) else st.middle⟩)

/-- A sequence of frames. -/
def play (up down len : Nat) : State → List (Nat → ℚ) → List (Nat → ℚ)
  | _, [] => []
  | st, f :: l => (process up down len st f).1 :: play up down len (process up down len st f).2 l

/-! ## The last stage of a frame -/

/-- `time_sample_vector`, ia_core_coder_main.h 124: 24 rows of 1024 samples, one behind the other. -/
abbrev Rows := Nat → ℚ

/-- `ptr_audio_buff[i][j]` times the gain, ia_core_coder_decode_main.c 1537-1543: sample `j` of channel `i` is at `1024 i + j`; outside the array the result is undefined. -/
def gainAt (g : ℚ) (i j : Nat) (v : Rows) : Res Rows := if 1024 * i + j < 24 * 1024 then .ok (fun a => if a = 1024 * i + j then v a * g else v a) else .ub

/-- The first `n` samples of channel `i`. -/
def gainRow (g : ℚ) (i : Nat) : Nat → Rows → Res Rows
  | 0, v => .ok v
  | n + 1, v => (gainRow g i n v).bind (gainAt g i n)

/-- The first `k` channels. -/
def gainAll (g : ℚ) (len : Nat) : Nat → Rows → Res Rows
  | 0, v => .ok v
  | k + 1, v => (gainAll g len k v).bind (gainRow g k len)

/-- Loudness normalisation and the choice of the output without resampling, with a limiter that changes nothing: ia_core_coder_decode_main.c 1511-1543, 2885-2890.  `g` is the gain, with 1 for
0 dB (1533).  The result is sample `j` of channel `i`. -/
def plainStage (g : ℚ) (nch : Nat) (v : Rows) : Res (Nat → Nat → ℚ) := (gainAll g 1024 nch v).bind (fun w => .ok (fun i j => w (1024 * i + j)))

/-- The same with resampling, ia_core_coder_decode_main.c 1511-1543, 2873-2882, with the states of the channels. -/
def resampStage (up down : Nat) (g : ℚ) (nch : Nat) (st : Nat → State) (v : Rows) : Res ((Nat → Nat → ℚ) × (Nat → State)) :=
  let out := fun i => process up down 1024 (st i) (fun j => v (1024 * i + j))
  if g = 1 then .ok (fun i => (out i).1, fun i => (out i).2)
  else (gainAll g (1024 * up / down) nch v).bind (fun _ => .ok (fun i => (out i).1, fun i => (out i).2))

end Verif.Resamp
