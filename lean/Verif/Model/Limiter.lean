import Mathlib.Data.Rat.Defs
import Mathlib.Algebra.Order.Field.Rat

/-! # The peak limiter: `impeghd_peak_limiter.c`

Numbers are rationals; every arithmetic operation of the code is followed by `rnd`, a parameter, for
the rounding to `FLOAT32`.  NaN and infinities are not modelled. -/

namespace Verif.Limiter

/-- Constants of the limiter, `ia_peak_limiter_struct` (impeghd_peak_limiter_struct_def.h 38-58) and
the literals 0.1f and 1.11111111f (impeghd_peak_limiter.c 251-253). -/
structure Par where
  rnd : Rat → Rat
  attack : Nat
  att : Rat
  rel : Rat
  thr : Rat
  tenth : Rat
  ninth : Rat
  on : Bool

/-- The state kept from sample to sample.  `delayed` holds one list of channel samples per instant
(in the code they are interleaved in one array). -/
structure State where
  maxBuf : List Rat
  maxIdx : Nat
  cir : Nat
  delayed : List (List Rat)
  didx : Nat
  gm : Rat
  pre : Rat
  deriving DecidableEq, Repr

/-- `fmax`, `fmin`. -/
def fmax (a b : Rat) : Rat := if a < b then b else a
def fmin (a b : Rat) : Rat := if b < a then b else a

/-- `fabs` -/
def fabs (a : Rat) : Rat := if a < 0 then -a else a

/-- The largest magnitude of the channels, impeghd_peak_limiter.c 215-219. -/
def level (x : List Rat) : Rat := x.foldl (fun t v => fmax t (fabs v)) 0

/-- The search for the first largest entry, impeghd_peak_limiter.c 223-228; `n` entries from `j` on. -/
def scan (buf : List Rat) : (n j idx : Nat) → Nat
  | 0, _, idx => idx
  | n + 1, j, idx =>
    scan buf n (j + 1) (if buf.getD idx 0 < buf.getD j 0 then j else idx)

/-- `max_idx` after `buf[cir] = tmp`, impeghd_peak_limiter.c 221-233. -/
def nextMax (p : Par) (buf : List Rat) (maxIdx cir : Nat) (tmp : Rat) : Nat :=
  if maxIdx = cir then scan buf p.attack 1 0
  else if buf.getD maxIdx 0 ≤ tmp then cir
  else maxIdx

/-- `gain_modified` and `pre_smoothed_gain`, impeghd_peak_limiter.c 241-270. -/
def smooth (p : Par) (maximum gm pre : Rat) : Rat × Rat :=
  let gain := if maximum ≤ p.thr then 1 else p.rnd (p.thr / maximum)
  let gm := if gain < pre then fmin gm (p.rnd (p.rnd (gain - p.rnd (p.tenth * pre)) * p.ninth)) else gain
  let pre :=
    if pre ≤ gm then p.rnd (gm + p.rnd (p.rel * p.rnd (pre - gm)))
    else fmax (p.rnd (gm + p.rnd (p.att * p.rnd (pre - gm)))) gain
  (gm, pre)

/-- The gain applied to one sample and the limit, impeghd_peak_limiter.c 116-122. -/
def applyGain (p : Par) (gain x : Rat) : Rat :=
  let t := p.rnd (x * gain)
  if p.thr < t then p.thr else if t < -p.thr then -p.thr else t

/-- The index after `i` in a circular buffer of `n` entries, impeghd_peak_limiter.c 127-129, 235-237. -/
def next (i n : Nat) : Nat := if n ≤ i + 1 then 0 else i + 1

/-- The level the limiter uses at this sample (`maximum`), impeghd_peak_limiter.c 215-239, with the
new buffer, index of the maximum and write position. -/
def track (p : Par) (s : State) (x : List Rat) : List Rat × Nat × Nat × Rat :=
  let tmp := level x
  let buf := s.maxBuf.set s.cir tmp
  let idx := nextMax p buf s.maxIdx s.cir tmp
  (buf, idx, next s.cir (p.attack + 1), buf.getD idx 0)

/-- One iteration of the loop of `impeghd_peak_limiter_process`, impeghd_peak_limiter.c 213-276, for
the channel samples `x` of one instant.  Gives the new state and the output. -/
def step (p : Par) (s : State) (x : List Rat) : State × List Rat :=
  let (buf, idx, cir, maximum) := track p s x
  let (gm, pre) := smooth p maximum s.gm s.pre
  let out := (s.delayed.getD s.didx []).map (applyGain p pre)
  ({ maxBuf := buf, maxIdx := idx, cir := cir, delayed := s.delayed.set s.didx x,
     didx := next s.didx p.attack, gm := gm, pre := pre }, out)

/-- `impeghd_cpy_delay_samples`, impeghd_peak_limiter.c 66-88, for one instant. -/
def bypass (p : Par) (s : State) (x : List Rat) : State × List Rat :=
  ({ s with delayed := s.delayed.set s.didx x, didx := next s.didx p.attack }, s.delayed.getD s.didx [])

/-- Run a step function over a list. -/
def runSteps (f : State → List Rat → State × List Rat) : State → List (List Rat) → State × List (List Rat)
  | s, [] => (s, [])
  | s, x :: xs =>
    let (s, y) := f s x
    let (s, ys) := runSteps f s xs
    (s, y :: ys)

/-- `impeghd_peak_limiter_process`, impeghd_peak_limiter.c 190-284, for a frame. `min_gain` is only
stored and is left out. -/
def process (p : Par) (s : State) (frame : List (List Rat)) : State × List (List Rat) :=
  if ¬ p.on ∧ 1 ≤ s.pre then runSteps (bypass p) s frame else runSteps (step p) s frame

/-- The state after `impeghd_peak_limiter_init` on a cleared structure (impeghd_api.c 1168), for `ch`
channels, impeghd_peak_limiter.c 146-177; the limiter is always on (165). -/
def init (p : Par) (ch : Nat) : State :=
  { maxBuf := List.replicate (p.attack + 1) 0, maxIdx := 0, cir := 0,
    delayed := List.replicate p.attack (List.replicate ch 0), didx := 0, gm := 1, pre := 1 }

end Verif.Limiter
