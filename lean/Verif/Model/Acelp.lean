import Verif.Prelude
import Mathlib.Algebra.Order.Field.Rat
import Mathlib.Tactic.NormNum

/-! # Excitation of linear prediction parts

Model of ia_core_coder_acelp_decode.c 101-438 (pulses) and 490-517 (adaptive part), of what is computed from the fields of a
part in 694-749 (pitch lags), 795-812 (voicing) and 840-861 (gains), of the filters of
ia_core_coder_acelp_tools.c 78-255, and of the stability factor, ia_core_coder_lpc.c 1098-1107.
Numbers are exact.  Not modelled: the decoding of gains and pitch sharpening (77-85, 440-476), the low pass filter of the adaptive
part (761-772), the aliasing cancellation (603-686), the bandwidth extension, and the order in which the
pieces are put together, except where said. -/

namespace Verif.Acelp

/-! ## Pulses -/

/-- The vector of 64 numbers.  Indices are checked where it is written. -/
abbrev Vec := Nat → Int

/-- Adds or subtracts 1 at `m`. -/
def pulse (m : Nat) (neg : Bool) (v : Vec) : Res Vec :=
  if m < 64 then .ok fun i => if i = m then (if neg then v i - 1 else v i + 1) else v i else .ub

/-- `ia_core_coder_acelp_decode_1sp_per_track`, ia_core_coder_acelp_decode.c 101-113. -/
def one (idx M off track : Nat) (v : Vec) : Res Vec :=
  let pos := idx % 2 ^ M + off
  pulse (4 * pos + track) (idx / 2 ^ M % 2 = 1) v

/-- `ia_core_coder_acelp_decode_2sp_per_track`, ia_core_coder_acelp_decode.c 129-170. -/
def two (idx M off track : Nat) (v : Vec) : Res Vec :=
  let p := idx / 2 ^ M % 2 ^ M + off
  let q := idx % 2 ^ M + off
  let neg : Bool := idx / 2 ^ (2 * M) % 2 = 1
  if p ≤ q then pulse (4 * p + track) neg v >>= pulse (4 * q + track) neg
  else pulse (4 * p + track) neg v >>= pulse (4 * q + track) !neg

/-- `ia_core_coder_acelp_decode_3sp_per_track`, ia_core_coder_acelp_decode.c 186-203. -/
def three (idx M off track : Nat) (v : Vec) : Res Vec :=
  let j := if idx / 2 ^ (2 * M - 1) % 2 = 1 then off + 2 ^ (M - 1) else off
  two (idx % 2 ^ (2 * M - 1)) (M - 1) j track v >>= one (idx / 2 ^ (2 * M) % 2 ^ (M + 1)) M off track

/-- `ia_core_coder_d_acelp_decode_4sp_per_track_section`, ia_core_coder_acelp_decode.c 218-234. -/
def half (idx off track : Nat) (v : Vec) : Res Vec :=
  let j := if idx / 32 % 2 = 1 then off + 4 else off
  two (idx % 32) 2 j track v >>= two (idx / 64 % 128) 3 off track

/-- `ia_core_coder_acelp_decode_4sp_per_track`, ia_core_coder_acelp_decode.c 248-282. -/
def four (idx track : Nat) (v : Vec) : Res Vec :=
  match idx / 2 ^ 14 % 4 with
  | 0 => half idx (if idx / 2 ^ 13 % 2 = 1 then 8 else 0) track v
  | 1 => one (idx / 2 ^ 10) 3 0 track v >>= three idx 3 8 track
  | 2 => two (idx / 2 ^ 7) 3 0 track v >>= two idx 3 8 track
  | _ => three (idx / 2 ^ 4) 3 0 track v >>= one idx 3 8 track

/-- `ia_core_coder_d_acelp_decode_1p_n1` with 4 bits and no offset, and `ia_core_coder_d_acelp_add_pulse` for one pulse,
ia_core_coder_acelp_decode.c 297-337. -/
def single (idx track : Nat) (v : Vec) : Res Vec :=
  let pos := idx % 16 + if idx / 16 % 2 = 1 then 16 else 0
  pulse (4 * (pos % 16) + track) (pos / 16 % 2 = 1) v

/-- `ia_core_coder_acelp_decode_pulses_per_track`, ia_core_coder_acelp_decode.c 351-438, for `code_bits` of `core`
(`num_codebits_table`, 560); `cb` are the fields, of which there are 8. -/
def pulses (core : Nat) (cb : Nat → Nat) : Res Vec :=
  let z : Vec := fun _ => 0
  match core with
  | 6 => single (cb 1) (2 * cb 0) z >>= single (cb 3) (2 * cb 2 + 1)
  | 7 =>
    let skip := if cb 0 = 0 then 1 else 3
    let step (t n : Nat) (v : Vec) : Res Vec := if t ≠ skip then single (cb n) t v else .ok v
    step 0 1 z >>= step 1 2 >>= step 2 (if 1 ≠ skip then 3 else 2) >>= step 3 3
  | 0 => one (cb 0) 4 0 0 z >>= one (cb 1) 4 0 1 >>= one (cb 2) 4 0 2 >>= one (cb 3) 4 0 3
  | 1 => two (cb 0) 4 0 0 z >>= two (cb 1) 4 0 1 >>= one (cb 2) 4 0 2 >>= one (cb 3) 4 0 3
  | 2 => two (cb 0) 4 0 0 z >>= two (cb 1) 4 0 1 >>= two (cb 2) 4 0 2 >>= two (cb 3) 4 0 3
  | 3 => three (cb 0) 4 0 0 z >>= three (cb 1) 4 0 1 >>= two (cb 2) 4 0 2 >>= two (cb 3) 4 0 3
  | 4 => three (cb 0) 4 0 0 z >>= three (cb 1) 4 0 1 >>= three (cb 2) 4 0 2 >>= three (cb 3) 4 0 3
  | 5 => four (cb 0 * 2 ^ 14 + cb 4) 0 z >>= four (cb 1 * 2 ^ 14 + cb 5) 1 >>= four (cb 2 * 2 ^ 14 + cb 6) 2 >>=
      four (cb 3 * 2 ^ 14 + cb 7) 3
  | _ => .ub

/-! ## Pitch -/

/-- `fscale` for a sampling rate of up to 48000, ia_core_coder_create.c 436-440 and 450-451, and the check in
ia_core_coder_ext_ch_ele.c 861-864. -/
def scale (full : Bool) (rate : Nat) : Res Nat :=
  let f := if full then rate * 512 / 1024 else rate * 1024 / 1024
  if f > 32000 then .err (.other 0xFFFF9819) else .ok f

/-- `pitch_min`, `pitch_fr2`, `pitch_fr1` and `pitch_max`. -/
structure Range where
  low : Int
  fr2 : Int
  fr1 : Int
  high : Int
  deriving DecidableEq, Repr

/-- ia_core_coder_acelp_decode.c 694-698, for a sampling rate that is not negative. -/
def range (fscale : Nat) : Range :=
  let i : Int := ((fscale * 34 + 6400) / 12800 : Nat) - 34
  { low := 34 + i, fr2 := 128 - i, fr1 := 160, high := 231 + 6 * i }

/-- The lag, its fraction and `pitch_lag_min`. -/
structure Pitch where
  lag : Int
  frac : Int
  base : Int
  deriving DecidableEq, Repr

/-- Subframes 0 and 2, ia_core_coder_acelp_decode.c 719-748. -/
def lagFull (R : Range) (index : Int) : Pitch :=
  let (lag, frac) :=
    if index < (R.fr2 - R.low) * 4 then
      let lag := R.low + index / 4
      (lag, index - (lag - R.low) * 4)
    else if index < (R.fr2 - R.low) * 4 + (R.fr1 - R.fr2) * 2 then
      let index := index - (R.fr2 - R.low) * 4
      let lag := R.fr2 + index / 2
      (lag, (index - (lag - R.fr2) * 2) * 2)
    else (index + R.fr1 - (R.fr2 - R.low) * 4 - (R.fr1 - R.fr2) * 2, 0)
  let base := if lag - 8 < R.low then R.low else lag - 8
  { lag := lag, frac := frac, base := if base + 15 > R.high then R.high - 15 else base }

/-- Subframes 1 and 3, ia_core_coder_acelp_decode.c 714-715. -/
def lagNear (base index : Int) : Pitch :=
  let lag := base + index / 4
  { lag := lag, frac := index - (lag - base) * 4, base := base }

/-- The lags of a part, ia_core_coder_acelp_decode.c 703-749, from its four fields.  The length of a part is 256
(ia_core_coder_create.c 442 and 456 with 416-417). -/
def lags (R : Range) (acb : Nat → Nat) : List Pitch :=
  let a := lagFull R (acb 0)
  let b := lagNear a.base (acb 1)
  let c := lagFull R (acb 2)
  [a, b, c, lagNear c.base (acb 3)]

/-- The excitation buffer, which has 1456 entries (ia_core_coder_main.h 183). -/
abbrev Buf := Nat → Rat

/-- A read of the buffer. -/
def Buf.get (x : Buf) (i : Int) : Res Rat := if 0 ≤ i ∧ i < 1456 then .ok (x i.toNat) else .ub

/-- The inner loop of `ia_core_coder_cb_exc_calc`, ia_core_coder_acelp_decode.c 505-513, from the position `x1` on; `h` is
`ia_core_coder_interpol_filt`, which has 65 entries (ia_core_coder_avq_rom.c 645). -/
def taps (h : Nat → Rat) (x : Buf) (x1 frac : Int) : Nat → Res Rat
  | 0 => .ok 0
  | j + 1 => do
    let s ← taps h x x1 frac j
    let a ← x.get (x1 - j)
    let b ← x.get (x1 + 1 + j)
    if 0 ≤ frac ∧ frac ≤ 4 ∧ frac + 4 * j < 65 ∧ 4 - frac + 4 * j < 65 then
      .ok (s + a * h (frac.toNat + 4 * j) + b * h ((4 - frac).toNat + 4 * j))
    else .ub

/-- `ia_core_coder_cb_exc_calc`, ia_core_coder_acelp_decode.c 490-517: the first `n` of its 65 rounds, for a current
excitation that starts at `pos`. -/
def adaptive (h : Nat → Rat) (pos : Nat) (lag frac : Int) : Nat → Buf → Res Buf
  | 0, x => .ok x
  | n + 1, x => do
    let x ← adaptive h pos lag frac n x
    let (f, start) := if -frac < 0 then (4 - frac, (pos : Int) - lag - 1) else (-frac, (pos : Int) - lag)
    let s ← taps h x (start + n) f 16
    if pos + n < 1456 then .ok (Function.update x (pos + n) s) else .ub

/-- Where the excitation of subframe `sfr` of part `k` starts in the buffer, ia_core_coder_acelp_decode.c 586 and 759: the
history takes 411 + 17 entries. -/
def place (k sfr : Nat) : Nat := 256 * k + 411 + 17 + 64 * sfr

/-! ## Gains -/

/-- The sum of squares of 64 numbers, ia_core_coder_acelp_decode.c 795-800 and 804-808. -/
def energy (x : Nat → Rat) : Rat := ((List.range 64).map fun i => x i * x i).sum

/-- `r_v`, ia_core_coder_acelp_decode.c 795-812, from the adaptive and the fixed vector and their gains. -/
def voicing (a c : Nat → Rat) (ga gc : Rat) : Rat :=
  let p := energy a * (ga * ga)
  let q := energy c * (gc * gc)
  (p - q) / (p + (q + 1 / 100))

/-- The new `gain_threshold`, ia_core_coder_acelp_decode.c 842-859. -/
def threshold (old g : Rat) : Rat :=
  if ¬ g < old then
    let g0 := g / (119 / 100)
    if g0 < old then old else g0
  else
    let g0 := g * (119 / 100)
    if old < g0 then old else g0

/-- `stability_factor`, ia_core_coder_lpc.c 1098-1107. -/
def stability (cur prev : Nat → Rat) : Rat :=
  let d := ((List.range 16).map fun i => (cur i - prev i) * (cur i - prev i)).sum
  max 0 (min 1 (5 / 4 - d / 400000))

/-- `gain_smooth`, ia_core_coder_acelp_decode.c 840-861; the second part is the new threshold. -/
def smooth (stab rv old g : Rat) : Rat × Rat :=
  let f := stab * (1 / 2 * (1 - rv))
  let g0 := threshold old g
  (f * g0 + (1 - f) * g, g0)

/-! ## Filters -/

/-- `ia_core_coder_preemphsis_tool`, ia_core_coder_acelp_tools.c 78-87, on the first `n` of the entries. -/
def preemph (mu mem : Rat) (n : Nat) (x : Nat → Rat) : Nat → Rat := fun i =>
  if i = 0 then x 0 - mu * mem else if i < n then x i - mu * x (i - 1) else x i

/-- `ia_core_coder_deemphsis_tool`, ia_core_coder_acelp_tools.c 101-110: rounds up to `n`. -/
def deemph (mem : Rat) : Nat → (Nat → Rat) → Nat → Rat
  | 0, x => Function.update x 0 (x 0 + 68 / 100 * mem)
  | n + 1, x =>
    let y := deemph mem n x
    Function.update y (n + 1) (y (n + 1) + 68 / 100 * y n)

/-- `ia_core_coder_residual_tool`, ia_core_coder_acelp_tools.c 234-255, one round of the outer loop: the residual of entry `i` of
a signal with a history. -/
def residual (a : Nat → Rat) (x : Int → Rat) (i : Int) : Rat :=
  x i + ((List.range 16).map fun j => a (j + 1) * x (i - (j + 1))).sum

/-- `ia_core_coder_synthesis_tool1`, ia_core_coder_acelp_tools.c 200-218, the first `n` rounds; `ia_core_coder_synthesis_tool`,
162-187, computes the same with the history in `mem`. -/
def synthesis (a : Nat → Rat) : Nat → (Int → Rat) → Int → Rat
  | 0, x => x
  | n + 1, x =>
    let y := synthesis a n x
    Function.update y (n : Int) (y n - ((List.range 16).map fun j => a (j + 1) * y ((n : Int) - (j + 1))).sum)

end Verif.Acelp
