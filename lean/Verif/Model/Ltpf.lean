import Mathlib.Algebra.Order.Field.Rat
import Mathlib.Data.Rat.Floor

/-! # Long term post filter

Model of ia_core_coder_ltpf.c 75-513: the parameters of the filter, the filter, the prediction for changes of the lag and the processing of a frame.

Samples and gains are rationals.  All buffers of a frame are in one piece of scratch memory (409-433): the input with the last 6 samples of the frame before, the output with the samples
before, the response to the state (`zir`) and a buffer for it.  `y` is this memory from the start of the output of the frame on, with negative places before it; the places before the
samples kept are those of the input, the ones behind the output are those of the response.  Input and output do not overlap, so that the input is a function of its own.  The two tables of
taps are ia_core_coder_rom.c 1247-1258. -/

namespace Verif.Ltpf

/-- `pitch_min` for a sampling rate: `ia_core_coder_ltpf_init`, ia_core_coder_ltpf.c 363-364.  The value before rounding is exact where it is halfway between two integers, and otherwise
further from that than the error of the code's numbers. -/
def lagMin (rate : Nat) : Int := ((17 * (rate : Int) + 6400) / 12800) * 2

/-- `pitch_max`, ia_core_coder_ltpf.c 367. -/
def lagMax (p : Int) : Int := 54 + 6 * p

/-- The data of a frame: `data_present`, `pitch_lag_idx`, `gain_idx`. -/
structure Data where
  present : Bool
  lagIdx : Nat
  gainIdx : Nat

/-- The parameters of the filter. -/
structure Par where
  lag : Int
  fr : Nat
  gain : ℚ
  idx : Nat

/-- Lag and fraction of a code: ia_core_coder_ltpf.c 82-104 with ia_core_coder_ltpf.c 365-368. -/
def lagOf (p : Int) (code : Nat) : Int × Nat :=
  let fr2 := 324 - p
  if (code : Int) < (fr2 - p) * 2 then (p + (code / 2 : Nat), code - (code / 2) * 2)
  else if (code : Int) < (fr2 - p) * 2 + (320 - fr2) * 1 then (fr2 + code - (fr2 - p) * 2, 0)
  else ((code - (fr2 - p) * 2 - (320 - fr2)) * 2 + 320, 0)

/-- `ia_core_coder_ltpf_dec_params`, ia_core_coder_ltpf.c 75-115. -/
def parOf (p : Int) (d : Data) : Par :=
  if d.present then ⟨(lagOf p d.lagIdx).1, (lagOf p d.lagIdx).2, (d.gainIdx + 1) / 16, d.gainIdx⟩ else ⟨0, 0, 0, d.gainIdx⟩

/-- `ia_ltpf_filter_coef1`, ia_core_coder_rom.c 1247-1250. -/
def taps1 (fr k : Nat) : ℚ :=
  ((if fr = 0 then [0, 304386, 1162701, 2195613, 2674597, 2195613, 1162701, 304386] else [76226, 676508, 1700032, 2547232, 2547232, 1700032, 676508, 76226] : List Int).getD k 0 : Int) / 10000000

/-- `ia_ltpf_filter_coef2`, ia_core_coder_rom.c 1251-1258. -/
def taps2 (idx k : Nat) : ℚ :=
  ((([[27150189, 44286013, 23027992, 5759155, -172290, -45168, -5891], [27581838, 44682277, 22783915, 5410054, -353758, -92331, -11995],
    [28044685, 45103979, 22519192, 5037740, -545541, -141719, -18336], [28543320, 45554676, 22230634, 4638935, -749011, -193612, -24943]] : List (List Int)).getD idx []).getD k 0 : Int) / 100000000

/-- The output around the lag: ia_core_coder_ltpf.c 160-165, 299-304. -/
def old (y : Int → ℚ) (q : Par) (t : Int) : ℚ := ((List.range 8).map (fun k : Nat => y (t - q.lag + k - 4) * taps1 q.fr k)).sum

/-- The last inputs: ia_core_coder_ltpf.c 167-171, 306-311. -/
def new (x : Int → ℚ) (q : Par) (t : Int) : ℚ := ((List.range 7).map (fun k : Nat => x (t - k) * taps2 q.idx k)).sum

/-- The modes of the filter: as it is, with the response to the state removed, faded in and faded out. -/
inductive Mode where
  | plain
  | minus (zir : Nat → ℚ)
  | fadeIn
  | fadeOut

/-- One sample, ia_core_coder_ltpf.c 147-195, `n` samples after the start of a part of `len` samples at `base`. -/
def sample (x : Int → ℚ) (q : Par) (m : Mode) (len : Nat) (base : Int) (n : Nat) (y : Int → ℚ) : ℚ :=
  let t := base + n
  let s := q.gain * old y q t - 19 / 20 * (q.gain * new x q t)
  match m with
  | .plain => x t + s
  | .minus z => x t + s - z n
  | .fadeIn => x t + (n : ℚ) / len * s
  | .fadeOut => x t + (1 - (n : ℚ) / len) * s

/-- `a[i] = v`. -/
def put (y : Int → ℚ) (i : Int) (v : ℚ) : Int → ℚ := fun j => if j = i then v else y j

/-- `ia_core_coder_ltpf_filter`, ia_core_coder_ltpf.c 134-200, for the first `n` samples of a part. -/
def part (x : Int → ℚ) (q : Par) (m : Mode) (len : Nat) (base : Int) : Nat → (Int → ℚ) → Int → ℚ
  | 0, y => y
  | n + 1, y =>
    let y' := part x q m len base n y
    put y' (base + n) (if q.gain = 0 then x (base + n) else sample x q m len base n y')

/-! ## Changes of the lag -/

/-- Autocorrelations of the last `len` outputs before `base`: ia_core_coder_ltpf.c 219-229. -/
def corr (y : Int → ℚ) (base : Int) (len i : Nat) : ℚ := ((List.range (len - i)).map (fun j : Nat => y (base - len + j) * y (base - len + j + i))).sum

/-- With a floor and white noise: ia_core_coder_ltpf.c 231-232. -/
def floored (r : Nat → ℚ) : Nat → ℚ := fun i => if i = 0 then max (r 0) 100 * (10001 / 10000) else r i

/-- State of the recursion: coefficients, energy of the residual, whether it has stopped. -/
structure Lev where
  a : Nat → ℚ
  sigma : ℚ
  stopped : Bool

/-- ia_core_coder_ltpf.c 235-238. -/
def levStart (r : Nat → ℚ) : Lev := ⟨fun i => if i = 0 then 1 else if i = 1 then -(r 1) / r 0 else 0, r 0 + r 1 * (-(r 1) / r 0), false⟩

/-- Round `i` of ia_core_coder_ltpf.c 239-261; the loop over pairs `j`, `i - j` with `j` up to `i / 2` is written per entry. -/
def levStep (r : Nat → ℚ) (i : Nat) (s : Lev) : Lev :=
  if s.stopped then s
  else
    let k := -((List.range i).map (fun j => r (i - j) * s.a j)).sum / s.sigma
    let sigma := s.sigma * (1 - k * k)
    if sigma ≤ 1 / 1000000000 then ⟨fun j => if i ≤ j then 0 else s.a j, sigma, true⟩
    else ⟨fun j => if j = 0 then s.a 0 else if j < i then s.a j + k * s.a (i - j) else if j = i then k else s.a j, sigma, false⟩

/-- Rounds 2 to `n + 1`. -/
def levRun (r : Nat → ℚ) : Nat → Lev
  | 0 => levStart r
  | n + 1 => levStep r (n + 2) (levRun r n)

/-- `ia_core_coder_ltpf_get_lpc`, ia_core_coder_ltpf.c 213-264. -/
def lpc (y : Int → ℚ) (base : Int) (len : Nat) : Nat → ℚ := (levRun (floored (corr y base len)) 23).a

/-- What the old output lacks to be one of the new filter: ia_core_coder_ltpf.c 299-315, for the sample at `t`. -/
def lack (x y : Int → ℚ) (q : Par) (t : Int) : ℚ := x t - 19 / 20 * (q.gain * new x q t) - (y t - q.gain * old y q t)

/-- The buffer of ia_core_coder_ltpf.c 297-325: samples of the order of the filter before `base`, then the response of the prediction filter. -/
def ring (a b : Nat → ℚ) : Nat → Nat → ℚ
  | 0 => b
  | n + 1 => fun j => if j = 24 + n then -((List.range 24).map (fun k => a (k + 1) * ring a b n (23 + n - k))).sum else ring a b n j

/-- `ia_core_coder_ltpf_get_zir`, ia_core_coder_ltpf.c 285-339; `len` samples of which the second half is faded out. -/
def zir (x y : Int → ℚ) (base : Int) (len : Nat) (a : Nat → ℚ) (q : Par) : Nat → ℚ := fun n =>
  let b := ring a (fun j => if j < 24 then lack x y q (base + j - 24) else 0) len (24 + n)
  if n < len / 2 then b else b * (1 - ((n - len / 2 : Nat) : ℚ) / (len / 2 : Nat))

/-! ## Frames -/

/-- What is kept: ia_core_coder_main.h 38-61. -/
structure State where
  par : Par
  input : Nat → ℚ
  output : Nat → ℚ

/-- The state after `ia_core_coder_ltpf_init`, ia_core_coder_ltpf.c 374-377, in cleared memory. -/
def State.zero : State := ⟨⟨0, 0, 0, 0⟩, fun _ => 0, fun _ => 0⟩

/-- The input with the samples before it: ia_core_coder_ltpf.c 416-422. -/
def inputOf (st : State) (f : Nat → ℚ) : Int → ℚ := fun i => if 0 ≤ i then f i.toNat else if -6 ≤ i then st.input (i + 6).toNat else 0

/-- The output before the frame is filtered: ia_core_coder_ltpf.c 410-430. -/
def outputOf (pm : Int) (len : Nat) (st : State) (x : Int → ℚ) : Int → ℚ := fun i =>
  if 0 ≤ i then 0 else if -(pm + 4) ≤ i then st.output (i + (pm + 4)).toNat else x (len + pm + 4 + i)

/-- Two parameters are the same to the filter: ia_core_coder_ltpf.c 443-444. -/
def same (q r : Par) : Bool := decide (q.gain = r.gain) && decide (q.lag = r.lag) && decide (q.fr = r.fr)

/-- Parameters and mode of the transition and the memory it starts from: ia_core_coder_ltpf.c 443-487.  `y` is the memory after the first half; the response is also stored behind the output. -/
def change (x : Int → ℚ) (len : Nat) (old q : Par) (y : Int → ℚ) : Par × Mode × (Int → ℚ) :=
  if same q old then (q, .plain, y)
  else if old.gain = 0 then (q, .fadeIn, y)
  else if q.gain = 0 then (old, .fadeOut, y)
  else
    let base : Int := (len / 2 : Nat)
    let z := zir x y base (len / 8) (lpc y base (len / 4)) q
    (q, .minus z, fun i => if (len : Int) ≤ i ∧ i < len + (len / 8 : Nat) then z (i - len).toNat else y i)

/-- The three parts of a frame: ia_core_coder_ltpf.c 437-498. -/
def parts (x : Int → ℚ) (len : Nat) (old q : Par) (y : Int → ℚ) : Int → ℚ :=
  let y1 := part x old .plain (len / 2) 0 (len / 2) y
  let c := change x len old q y1
  let y2 := part x c.1 c.2.1 (len / 8) (len / 2 : Nat) (len / 8) c.2.2
  part x q .plain (len - len / 2 - len / 8) (len / 2 + len / 8 : Nat) (len - len / 2 - len / 8) y2

/-- `ia_core_coder_usac_ltpf_process`, ia_core_coder_ltpf.c 395-513: the output of a frame of `len` samples and what is kept. -/
def process (p : Int) (len : Nat) (st : State) (d : Data) (f : Nat → ℚ) : (Nat → ℚ) × State :=
  let pm := lagMax p
  let x := inputOf st f
  let q := parOf p d
  let y := parts x len st.par q (outputOf pm len st x)
  (fun n => y n, ⟨q, fun j => x (len + j - 6), fun j => y (len - (pm + 4) + j)⟩)

/-- A sequence of frames: the outputs, and what is kept. -/
def play (p : Int) (len : Nat) : State → List (Data × (Nat → ℚ)) → List (Nat → ℚ) × State
  | st, [] => ([], st)
  | st, f :: l =>
    let r := process p len st f.1 f.2
    let rs := play p len r.2 l
    (r.1 :: rs.1, rs.2)

end Verif.Ltpf
