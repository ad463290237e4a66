import Verif.Model.Fd
import Verif.Model.Ops
import Mathlib.Data.Rat.Defs
import Mathlib.Algebra.Order.Field.Rat

/-! # Inverse quantisation, noise filling and scale factors of frequency domain channels

Model of `ia_core_coder_apply_scale_factor`, `ia_core_coder_randomsign_fix`, `impeghd_esc_iquant` and `ia_core_coder_apply_scfs_and_nf`
(ia_core_coder_arith_dec.c 518-795), for channels without intelligent gap filling (`igf_active` 0) and without stereo filling
(`igf_stereo_filling` 0, with which `ia_core_coder_igf_stereofilling` does nothing).

Spectra and scale factors are given by window and line or band: line `i` of window `w` is entry `w * bins_per_sbk + i` of the arrays, and
all bands end at `bins_per_sbk` or before.  Spectral values are rationals; `pow(2, x / 4)`, the power 4/3 (from a table below 1024) and the
table of noise levels `ia_core_coder_pow_14_3` are arbitrary functions `pw`, `iq` and `nl`.  The noise level has 8 bits, so that
its upper part is an index into the 8 entries of that table.  `scale_factors`, which is only used for stereo filling, is not modelled. -/

namespace Verif.InvQuant

open Ops (i32)

/-- What does not change in a frame: the functions, `ptr_sfb_tbl`, `islong`, `noise_filling`, `noise_level`, `max_sfb`, `max_noise_sfb`. -/
structure Cfg where
  pw : Int → ℚ
  iq : Nat → ℚ
  nl : Nat → ℚ
  ends : List Nat
  long : Bool
  noise : Bool
  level : Nat
  maxSfb : Nat
  maxNoise : Nat

/-- `ia_core_coder_randomsign_fix`, ia_core_coder_arith_dec.c 552-565. -/
def randomSign (seed : Nat) : ℚ × Nat :=
  let s := (seed * 69069 + 5) % 4294967296
  (if s.testBit 16 then -1 else 1, s)

/-- `impeghd_esc_iquant`, one line, ia_core_coder_arith_dec.c 596-626. -/
def line (c : Cfg) (withNoise : Bool) (q : Int) (seed : Nat) : Res (ℚ × Nat) :=
  if withNoise = true ∧ q = 0 then .ok ((if c.noise then c.nl (c.level / 32) else 0) * (randomSign seed).1, (randomSign seed).2)
  else do
    let a ← (if q < 0 then i32 (-q) else .ok q)
    let a := if 8192 ≤ a then 8191 else a
    .ok ((if q < 0 then -1 else 1) * c.iq a.toNat, seed)

/-- `coef[w][i] = x`. -/
def put (f : Nat → Nat → ℚ) (w i : Nat) (x : ℚ) : Nat → Nat → ℚ := fun w' i' => if w' = w ∧ i' = i then x else f w' i'

/-- `impeghd_esc_iquant`, ia_core_coder_arith_dec.c 594-627: `n` lines from line `i` of window `w`. -/
def iquant (c : Cfg) (withNoise : Bool) (q : Nat → Nat → Int) (w : Nat) : (n i : Nat) → Nat × (Nat → Nat → ℚ) → Res (Nat × (Nat → Nat → ℚ))
  | 0, _, s => .ok s
  | n + 1, i, s => do
    let r ← line c withNoise (q w i) s.1
    iquant c withNoise q w n (i + 1) (r.2, put s.2 w i r.1)

/-- ia_core_coder_arith_dec.c 728-758: `n` windows from window `w`. -/
def windows (c : Cfg) (withNoise : Bool) (q : Nat → Nat → Int) (lo hi : Nat) : (n w : Nat) → Nat × (Nat → Nat → ℚ) →
    Res (Nat × (Nat → Nat → ℚ))
  | 0, _, s => .ok s
  | n + 1, w, s => do
    let s ← iquant c withNoise q w (hi - lo) lo s
    windows c withNoise q lo hi n (w + 1) s

/-- `band_quantized_to_zero`, ia_core_coder_arith_dec.c 708-726 (the loops only stop early): all lines of the band are 0 in the `len` windows
from window `w`. -/
def zeroBand (q : Nat → Nat → Int) (lo hi w len : Nat) : Bool :=
  (List.range len).all fun k => (List.range (hi - lo)).all fun i => decide (q (w + k) (lo + i) = 0)

/-- `ia_core_coder_apply_scale_factor`, ia_core_coder_arith_dec.c 518-540, for the `len` windows from window `w`. -/
def applyScale (fac : ℚ) (lo hi w len : Nat) (f : Nat → Nat → ℚ) : Nat → Nat → ℚ :=
  fun w' i => if w ≤ w' ∧ w' < w + len ∧ lo ≤ i ∧ i < hi then f w' i * fac else f w' i

/-- An entry of `ptr_sfb_tbl`. -/
def bandEnd (ends : List Nat) (b : Nat) : Res Nat :=
  match ends[b]? with
  | some x => .ok x
  | none => .ub

/-- `noise_filling_start_offset`, ia_core_coder_arith_dec.c 690-691 at frame length 1024. -/
def startOffset (long : Bool) : Nat := if long then 160 else 20

/-- The loop over the bands of a group, ia_core_coder_arith_dec.c 702-785: `n` bands from band `b`; the group has the `len` windows from
window `w`.  `SF_OFFSET` is 100. -/
def bands (c : Cfg) (factors : Nat → Nat → Int) (q : Nat → Nat → Int) (w len : Nat) : (n b : Nat) → Nat × (Nat → Nat → ℚ) →
    Res (Nat × (Nat → Nat → ℚ))
  | 0, _, s => .ok s
  | n + 1, b, s => do
    let lo ← (if b = 0 then .ok 0 else bandEnd c.ends (b - 1))
    let hi ← bandEnd c.ends b
    let zero := zeroBand q lo hi w len
    let withNoise := c.noise && decide (startOffset c.long ≤ lo) && decide (b < c.maxNoise)
    let fac := factors w b - 100 + (if c.noise && zero then (c.level : Int) % 32 - 16 else 0)
    let s ← windows c withNoise q lo hi len w s
    bands c factors q w len n (b + 1) (s.1, applyScale (c.pw fac) lo hi w len s.2)

/-- `ia_core_coder_apply_scfs_and_nf`, ia_core_coder_arith_dec.c 699-792: the groups, from window `w` on. -/
def groups (c : Cfg) (factors : Nat → Nat → Int) (q : Nat → Nat → Int) : (lens : List Nat) → (w : Nat) → Nat × (Nat → Nat → ℚ) →
    Res (Nat × (Nat → Nat → ℚ))
  | [], _, s => .ok s
  | len :: lens, w, s => do
    let s ← bands c factors q w len c.maxSfb 0 s
    groups c factors q lens (w + len) s

end Verif.InvQuant
