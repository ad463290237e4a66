import Verif.Model.Arith
import Verif.Model.Fd
import Verif.Model.Scf
import Verif.Model.Lpd

/-!
# The data of a frequency domain channel

`ia_core_coder_fd_channel_stream` (ia_core_coder_spectrum_dec.c 579-832) with the context mapping and the loop over windows of
`ia_core_coder_arith_dec.c` (89-121, 984-1015 and 1054-1075).

Simplifications: the bits are a list; scale factors are read bit by bit (`Scf.sectionP`, C175); gap filling data are a parameter; what is done
with the numbers (ia_core_coder_arith_dec.c 1017-1035) is in `Model/InvQuant.lean` and `Model/Fdp.lean`; the downmix of the frame before
(ia_core_coder_spectrum_dec.c 783-793) is not modelled.
-/

namespace Verif.FdStream

open Prog
open Fd (Bands Ics TnsWin isLong)

/-! ## Contexts -/

def get (t : List Int) (i : Nat) : Res Int :=
  match t[i]? with
  | some v => .ok v
  | none => .ub

def put (t : List Int) (i : Nat) (v : Int) : Res (List Int) := if i < t.length then .ok (t.set i v) else .ub

/-- The loop of `ia_core_coder_arith_map_context`, ia_core_coder_arith_dec.c 107-112, for one of the two arrays: `src` is its copy.  The quotient
`ratio` is a power of two, as all sizes are, so that the product in single precision is exact. -/
def mapLoop (src : List Int) (pres prev : Nat) : (n i : Nat) → List Int → Res (List Int)
  | 0, _, t => .ok t
  | n + 1, i, t => do
    let v ← get src (2 + i * prev / pres)
    let t ← put t (2 + i) v
    mapLoop src pres prev n (i + 1) t

/-- `ia_core_coder_arith_map_context`, ia_core_coder_arith_dec.c 89-121: the new `c_prev` and `c`.  The copies in the scratch buffer have the entries
from 2 up to `prev_n / 2 + 4`. -/
def mapContext (pres prev : Nat) (reset : Bool) (cPrev c : List Int) : Res (List Int × List Int) :=
  if reset then .ok (List.replicate 516 0, List.replicate 516 0)
  else if c.length < prev / 2 + 4 ∨ cPrev.length < prev / 2 + 4 then .ub
  else do
    let c' ← mapLoop c pres prev (pres / 2) 0 c
    let p' ← mapLoop cPrev pres prev (pres / 2) 0 cPrev
    let v ← get c (prev / 2 + 3)
    let c' ← put c' (pres / 2 + 3) v
    let v ← get cPrev (prev / 2 + 2)
    let p' ← put p' (pres / 2 + 2) v
    .ok (p', c')

/-- The arrays `c_prev` and `c` of a channel and `arith_prev_n`. -/
structure Ctx where
  cPrev : List Int
  c : List Int
  size : Nat
  deriving DecidableEq, Repr

/-- The loop over windows of `ia_core_coder_ac_spectral_data`, ia_core_coder_arith_dec.c 999-1014, with `k` windows to go; the lines of each window are
`arith_pres_n` entries of the zeroed `x_ac_dec`.  1009-1013 sets lines to 0 that are 0. -/
def windows (fuel n presN : Nat) : (k : Nat) → (cPrev c : List Int) → List Bool → Res ((List Int × List Int × List (List Int)) × List Bool)
  | 0, cPrev, c, l => .ok ((cPrev, c, []), l)
  | k + 1, cPrev, c, l => do
    let x ← Arith.level2 fuel n presN cPrev c (List.replicate (2 * presN) 0) l
    let y ← windows fuel n presN k x.1.1 x.1.2.1 x.2
    .ok ((y.1.1, y.1.2.1, x.1.2.2 :: y.1.2.2), y.2)

/-- `c_pres[i + 2] = 1`, ia_core_coder_arith_dec.c 992-995. -/
def setOnes : (n i : Nat) → List Int → Res (List Int)
  | 0, _, t => .ok t
  | n + 1, i, t => do
    let t ← put t (i + 2) 1
    setOnes n (i + 1) t

/-- The decoding part of `ia_core_coder_ac_spectral_data`, ia_core_coder_arith_dec.c 984-1015: `pres` is `arith_pres_n`, `top` is
`max_spec_coefficients`, `wins` is `max_win_len`. -/
def spectral (fuel pres top wins : Nat) (reset : Bool) (s : Ctx) (l : List Bool) : Res ((Ctx × List (List Int)) × List Bool) := do
  let m ← mapContext pres s.size reset s.cPrev s.c
  if top = 0 then do
    let c ← setOnes (pres / 2) 0 m.2
    .ok ((⟨m.1, c, pres⟩, List.replicate wins (List.replicate pres 0)), l)
  else do
    let x ← windows fuel (top / 2) (pres / 2) wins m.1 m.2 l
    .ok ((⟨x.1.1, x.1.2.1, pres⟩, x.1.2.2), x.2)

/-- `ia_core_coder_arith_data`, ia_core_coder_arith_dec.c 1054-1075: `size` is `tcx_size`. -/
def tcxSpectral (fuel size : Nat) (reset : Bool) (s : Ctx) (l : List Bool) : Res ((Ctx × List Int) × List Bool) := do
  let m ← mapContext size s.size reset s.cPrev s.c
  let x ← Arith.level2 fuel (size / 2) (size / 2) m.1 m.2 (List.replicate size 0) l
  .ok ((⟨x.1.1, x.1.2.1, size⟩, x.1.2.2), x.2)

/-! ## Channels -/

/-- What the data of a channel depend on: the bands, `is_base_line_profile_3b`, `usac_independency_flg`, `noise_filling`, whether the input fills
the largest input so far (`size == max_size`), the number in the pair (`ch`), the windows if they are common, whether `common_ltpf`,
`tns_data_present` (2: sent for both channels), the window sequence before, `curr_aliasing_symmetry` before, and whether `igf_active`. -/
structure Env where
  bands : Bands
  base3b : Bool
  indep : Bool
  filling : Bool
  full : Bool
  second : Bool
  common : Option Ics
  commonLtpf : Bool
  tns : Nat
  last : Nat
  symmetry : Nat
  igf : Bool

/-- What comes before the spectrum; `ltpf` is `none` if it is common. -/
structure Head (ι : Type) where
  gain : Nat
  noise : Nat
  stereoFilling : Bool
  ics : Ics
  ltpf : Option Fd.Ltpf
  fdp : Option Nat
  prevAlias : Nat
  currAlias : Nat
  factors : List (List Int)
  gap : Option ι
  tns : Option (List TnsWin)
  reset : Bool

def frameError : ErrCode := .other 0xFFFF9816

/-- `noise_level` and `igf_stereo_filling`, ia_core_coder_spectrum_dec.c 619-653. -/
def noiseOf (second common : Bool) (seq level : Nat) : Nat × Bool :=
  if common && second then
    if 0 < level ∧ level < 32 then (level * 8, true) else (level, false)
  else if (0 < level ∧ level < 32) ∧ (seq = 4 ∨ seq = 1) then (level * 8, false) else (level, false)

/-- ia_core_coder_spectrum_dec.c 688-702 (`ltpf_data`) with the check of the profile. -/
def ltpf (base3b : Bool) : Prog Fd.Ltpf := do
  let p ← flag
  if p then
    if base3b then fail Fd.badProfile
    else do
      let lag ← bits 9
      let gain ← bits 2
      pure (some (lag, gain))
  else pure none

/-- ia_core_coder_spectrum_dec.c 703-713. -/
def fdp (base3b : Bool) : Prog (Option Nat) := do
  let p ← flag
  if p then
    if base3b then fail Fd.badProfile
    else do
      let s ← bits 8
      pure (some s)
  else pure none

/-- The windows, ia_core_coder_spectrum_dec.c 621 and 641-646. -/
def icsOf (e : Env) : Prog Ics :=
  match e.common with
  | some i => pure i
  | none => Fd.icsInfo e.bands e.last

/-- ia_core_coder_spectrum_dec.c 608-771.  In the check of 673-677 `ptr_read_next > ptr_bit_buf_end - 3` if at most 24 bits are left. -/
def head {ι : Type} (gap : Ics → Prog ι) (e : Env) : Prog (Head ι) := do
  let gain ← bits 8
  let level ← (if e.filling then bits 8 else pure 0)
  let ics ← icsOf e
  let noise := noiseOf e.second e.common.isSome ics.seq level
  let left ← avail
  if left ≤ 24 ∧ e.full = true then fail frameError
  else do
    let lt ← (if e.commonLtpf then pure none else do
      let x ← ltpf e.base3b
      pure (some x))
    let fd ← (if isLong ics.seq && !e.indep then fdp e.base3b else pure none)
    let pa ← (if e.indep then bits 1 else pure e.symmetry)
    let ca ← bits 1
    let f ← Scf.sectionP gain (e.bands.num (isLong ics.seq)) (if isLong ics.seq then 1 else 8) ics.maxSfb ics.ends
    let g ← (if e.igf then do
        let x ← gap ics
        pure (some x)
      else pure none)
    let t ← (if e.tns = 1 then do
        let x ← Fd.tnsData e.bands (some (isLong ics.seq))
        pure (some x)
      else pure none)
    let r ← (if e.indep then pure true else flag)
    pure ⟨gain, noise.1, noise.2, ics, lt, fd, pa, ca, f, g, t, r⟩

/-- `max_spec_coefficients`, ia_core_coder_spectrum_dec.c 679-686; the table of long windows is the table of band ends. -/
def topLine (b : Bands) (ics : Ics) : Res Nat :=
  if ics.maxSfb = 0 then .ok 0
  else if isLong ics.seq then
    match b.long[ics.maxSfb - 1]? with
    | some v => .ok v
    | none => .ub
  else do
    let lens ← Fd.groupLens 0 ics.ends
    match (Fd.offsets (Fd.widths 0 b.short) 0 lens)[ics.maxSfb - 1]?, lens.head? with
    | some v, some n => if n = 0 then .ub else .ok (v / n)
    | _, _ => .ub

/-- Aliasing cancellation, ia_core_coder_spectrum_dec.c 812-829, with `ccfl` 1024; `fac_data` has 129 entries. -/
def fac (long : Bool) : Prog (Option (Nat × List Int)) := do
  let p ← flag
  if p then do
    let g ← bits 7
    let x ← Lpd.cancel (if long then 128 else 64) 1 129
    pure (some (g, x))
  else pure none

/-- What a channel delivers: the data before the spectrum, the numbers of each window, and the data after it. -/
structure Channel (ι : Type) where
  head : Head ι
  lines : List (List Int)
  fac : Option (Nat × List Int)

/-- `ia_core_coder_fd_channel_stream`, ia_core_coder_spectrum_dec.c 579-832. -/
def channel {ι : Type} (fuel : Nat) (gap : Ics → Prog ι) (e : Env) (s : Ctx) (l : List Bool) : Res ((Channel ι × Ctx) × List Bool) := do
  let h ← run (head gap e) l
  let top ← topLine e.bands h.1.ics
  let x ← spectral fuel (if isLong h.1.ics.seq then 1024 else 128) top (if isLong h.1.ics.seq then 1 else 8) h.1.reset s h.2
  let f ← run (fac (isLong h.1.ics.seq)) x.2
  .ok ((⟨h.1, x.1.2, f.1⟩, x.1.1), f.2)

end Verif.FdStream
