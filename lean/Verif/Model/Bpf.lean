import Verif.Prelude
import Mathlib.Analysis.Real.Sqrt
import Mathlib.Algebra.BigOperators.Group.Finset.Basic

/-!
# The bass post filter

`ia_core_coder_bass_post_filter` (`/repo/decoder/ia_core_coder_lpc.c` 277-419) and its use in frames of
the frequency domain, `ia_core_coder_lpd_bpf` (1358-1462).

Simplifications: real numbers for single precision. The signals are functions of the index relative to
`synth_sig` and `synth_loc`, which can be negative; whether an index is inside of the buffers is not
checked. The coefficients `h` of the low pass filter are arbitrary. The pitch lags are not negative. What
is written before an error is not modelled.
-/

namespace Verif.Bpf

open Verif

/-- A signal, as a function of the index relative to a pointer. -/
abbrev Sig := ℤ → ℝ

/-- `MAX_PITCH`, ia_core_coder_cnst.h 104-105 with 82-98. -/
def maxPitch : ℕ := 411

/-- `fac * FILTER_DELAY + fac - 1`, ia_core_coder_lpc.c 303 with ia_core_coder_cnst.h 88. -/
def taps (fac : ℕ) : ℕ := fac * 12 + fac - 1

/-- The number of values in `bpf_prev`, ia_core_coder_lpc.c 387. -/
def hist (fac : ℕ) : ℕ := taps fac + fac * 64

/-- `norm_corr`, ia_core_coder_lpc.c 325-338. -/
noncomputable def corr (s : Sig) (num lag : ℕ) : ℝ :=
  let x : ℕ → ℝ := fun i => s ((num : ℤ) - 96 + i)
  let y : ℕ → ℝ := fun i => s ((num : ℤ) - (lag / 2 : ℕ) - 96 + i)
  (1 / 100 + ∑ i ∈ Finset.range 160, x i * y i) /
    Real.sqrt ((1 / 100 + ∑ i ∈ Finset.range 160, x i * x i) *
      (1 / 100 + ∑ i ∈ Finset.range 160, y i * y i))

open Classical in
/-- The lag in use, ia_core_coder_lpc.c 340-341. -/
noncomputable def lagOf (s : Sig) (num lag : ℕ) : ℕ := if 95 / 100 < corr s num lag then lag / 2 else lag

/-- `lg`, ia_core_coder_lpc.c 343-345. -/
def lgOf (lenFr : ℕ) (len2 : ℤ) (p num : ℕ) : ℕ := (min 64 (max 0 ((lenFr : ℤ) + len2 - p - num))).toNat

/-- The gain between 0 and 1, ia_core_coder_lpc.c 322-323. -/
noncomputable def clip (g : ℝ) : ℝ := max 0 (min 1 g)

/-- The gain bounded by the ratio of the energies, ia_core_coder_lpc.c 349-362. -/
noncomputable def limited (s : Sig) (num p lg : ℕ) (g : ℝ) : ℝ :=
  if lg > 0 then
    min (Real.sqrt ((1 / 100 + ∑ i ∈ Finset.range lg, s (i + num) * s (i + num)) /
      (1 / 100 + ∑ i ∈ Finset.range lg, s (i + num + p) * s (i + num + p)))) g
  else g

open Classical in
/-- What is written to `noise_loc2`, ia_core_coder_lpc.c 347-385: `s` is `synth_sig`, `sl` is
`synth_loc`. -/
noncomputable def noise (fac : ℕ) (s sl : Sig) (num p lg : ℕ) (g : ℝ) (i : ℕ) : ℝ :=
  if 0 < g then
    let alpha := 1 / 2 * limited s num p lg g
    if i < fac * lg then
      alpha * (sl ((i : ℤ) + fac * num) - 1 / 2 * sl ((i : ℤ) + fac * num - fac * p) -
        1 / 2 * sl ((i : ℤ) + fac * num + fac * p))
    else alpha * (sl ((i : ℤ) + fac * num) - sl ((i : ℤ) + fac * num - fac * p))
  else 0

/-- `bpf_prev`, `noise_buf` and `synth_out`. -/
structure St where
  prev : ℕ → ℝ
  buf : ℕ → ℝ
  out : ℕ → ℝ

/-- The low pass filter at entry `q` of `noise_buf`, ia_core_coder_lpc.c 393-398. -/
noncomputable def fir (d : ℕ) (h b : ℕ → ℝ) (q : ℕ) : ℝ :=
  h 0 * b q + ∑ j ∈ Finset.range d, h (j + 1) * (b (q - (j + 1)) + b (q + (j + 1)))

/-- One round of the loop over the subframes, ia_core_coder_lpc.c 316-400. -/
noncomputable def step (fac : ℕ) (h : ℕ → ℝ) (s sl : Sig) (lenFr : ℕ) (len2 : ℤ) (pitch : ℕ → ℕ)
    (gain : ℕ → ℝ) (m : ℕ) (st : St) : Res St :=
  let num := 64 * m
  if (maxPitch : ℤ) < (pitch m / 2 : ℕ) + 96 - num then .err (.other 0xFFFF980A)
  else
    let p := lagOf s num (pitch m)
    let lg := lgOf lenFr len2 p num
    let nz := noise fac s sl num p lg (clip (gain m))
    let b : ℕ → ℝ := fun i =>
      if i < hist fac then st.prev i else if i < hist fac + fac * 64 then nz (i - hist fac) else st.buf i
    .ok ⟨fun i => if i < hist fac then b (fac * 64 + i) else st.prev i, b, fun k =>
      if fac * num ≤ k ∧ k < fac * num + fac * 64 then
        st.out k - fir (taps fac) h b (taps fac + (k - fac * num))
      else st.out k⟩

/-- The loop over the subframes, ia_core_coder_lpc.c 315-401. -/
noncomputable def steps (fac : ℕ) (h : ℕ → ℝ) (s sl : Sig) (lenFr : ℕ) (len2 : ℤ) (pitch : ℕ → ℕ)
    (gain : ℕ → ℝ) : ℕ → St → Res St
  | 0, st => .ok st
  | m + 1, st => (steps fac h s sl lenFr len2 pitch gain m st).bind
      (step fac h s sl lenFr len2 pitch gain m)

/-- The filter of the look-ahead at entry `q` of `noise_buf`, ia_core_coder_lpc.c 406-414: the sum is
multiplied by `fac` inside of the loop. -/
noncomputable def ahead (fac : ℕ) (h b : ℕ → ℝ) (q : ℕ) : ℕ → ℝ
  | 0 => h 0 * b q
  | j + 1 => (ahead fac h b q j + h (j + 1) * (b (q - (j + 1)) + b (q + (j + 1)))) * fac

/-- `ia_core_coder_bass_post_filter`, ia_core_coder_lpc.c 277-419, with `LTPF_MAX_DELAY` 3
(ia_core_coder_cnst.h 191): `bpf_prev` and `synth_out` afterwards; `old` is `synth_out` before. -/
noncomputable def filter (two : Bool) (h : ℕ → ℝ) (s fb : Sig) (pitch : ℕ → ℕ) (gain : ℕ → ℝ)
    (lenFr : ℕ) (len2 : ℤ) (prev old : ℕ → ℝ) : Res ((ℕ → ℝ) × (ℕ → ℝ)) :=
  let fac := if two then 2 else 1
  let sl := if two then fb else s
  let out : ℕ → ℝ := fun k =>
    if k < fac * lenFr then sl ((k : ℤ) - fac * 64)
    else if lenFr % 64 ≠ 0 ∧ k < fac * lenFr + fac * (64 - lenFr % 64) then 0
    else old k
  (steps fac h s sl lenFr len2 pitch gain ((lenFr + 63) / 64) ⟨prev, fun _ => 0, out⟩).bind fun st =>
    .ok (st.prev, fun k =>
      if fac * lenFr ≤ k ∧ k < fac * lenFr + 3 then
        sl ((k : ℤ) - fac * 64) -
          ahead fac h st.buf (taps fac + (k + fac * 64 - fac * lenFr)) (taps fac)
      else st.out k)

/-! ## Frames of the frequency domain after a frame of the time domain -/

/-- The test of the pitch lag of subframe `i`, ia_core_coder_lpc.c 1366-1375. -/
def badLag (i p : ℤ) : Prop :=
  i * 64 + 411 < p ∨ i * 64 + 411 - p ≥ 1883 ∨ i * 64 + 64 > 1024 ∨ i * 64 + 64 - p > 1024

/-- The gain of subframe `i`, `ia_core_coder_lpd_bpf_calc_pitch_gain`, ia_core_coder_lpc.c 1377-1390. -/
noncomputable def gainOf (s : Sig) (i p : ℕ) : ℝ :=
  (∑ k ∈ Finset.range 64, s (i * 64 + k) * s (i * 64 - p + k)) /
    (1 / 1000000 + ∑ k ∈ Finset.range 64, s (i * 64 - p + k) * s (i * 64 - p + k))

/-- `synth`, ia_core_coder_lpc.c 1425-1427 and 1451: `row` is `out_buffer`, of which 1536 samples are
copied. -/
noncomputable def synthOf (row synthPrev : ℕ → ℝ) : Sig := fun k =>
  if -64 ≤ k then row (k + 64).toNat else synthPrev (k + 411).toNat

/-- `pitch`, ia_core_coder_lpc.c 1429 and 1433-1449. `acelp` says that `mode_prev` is 0. -/
def lags (short acelp : Bool) (pitchPrev : ℕ → ℕ) : ℕ → ℕ := fun i =>
  if i < 7 then pitchPrev i
  else if acelp ∧ (i = 7 ∨ (short = false ∧ i = 8)) then pitchPrev 6
  else 64

/-- `pitch_gain`, ia_core_coder_lpc.c 1430-1432 and 1437-1449. -/
noncomputable def gains (short acelp : Bool) (gainPrev : ℕ → ℝ) : ℕ → ℝ := fun i =>
  if i < 7 then gainPrev i
  else if acelp ∧ (i = 7 ∨ (short = false ∧ i = 8)) then gainPrev 6
  else 0

open Classical in
/-- `pitch_gain` after `ia_core_coder_lpd_bpf_calc_pitch_gain`, ia_core_coder_lpc.c 1363-1392. -/
noncomputable def calcGains (s : Sig) (pitch : ℕ → ℕ) (gain : ℕ → ℝ) : ℕ → ℝ := fun i =>
  if i < 9 ∧ 0 < gain i then gainOf s i (pitch i) else gain i

open Classical in
/-- `ia_core_coder_lpd_bpf`, ia_core_coder_lpc.c 1358-1462, for frames of 1024 samples (`lpd_sbf_len` 8,
ia_core_coder_create.c 281-290). `mem` is the array `time_sample_vector` of 24 channels
(ia_core_coder_main.h 124), `ch` the channel to which `out_buffer` points. `synthPrev`, `pitchPrev`,
`gainPrev` and `prev` are members of `st`. The result is `bpf_prev` and the samples from `out_buffer`
on. -/
noncomputable def lpdBpf (short acelp : Bool) (h : ℕ → ℝ) (ch : ℕ) (mem synthPrev : ℕ → ℝ)
    (pitchPrev : ℕ → ℕ) (gainPrev prev : ℕ → ℝ) : Res ((ℕ → ℝ) × (ℕ → ℝ)) :=
  if 24 * 1024 < ch * 1024 + 1536 then .ub
  else if ∃ i : ℕ, i < 9 ∧ badLag i (lags short acelp pitchPrev i) then .err (.other 0xFFFF980C)
  else
    let row : ℕ → ℝ := fun k => mem (ch * 1024 + k)
    let s := synthOf row synthPrev
    filter false h s s (lags short acelp pitchPrev)
      (calcGains s (lags short acelp pitchPrev) (gains short acelp gainPrev)) 704 256 prev row

end Verif.Bpf
