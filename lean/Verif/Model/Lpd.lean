import Verif.Model.Avq
import Verif.Model.Loop

/-! # Linear prediction domain frames

Model of ia_core_coder_acelp_bitparse.c 89-857, the parser of a frame of the linear prediction domain, of
ia_core_coder_lpc_dec.c 67-312, which computes line spectral frequencies from what was parsed, and of the choice of the
frequencies for each part of the frame in ia_core_coder_lpc.c 1046-1132.

`full` is `full_band_lpd`; `num_frame` is 2 with it and 4 without (ia_core_coder_create.c 436-460), `len_subfrm` is 256,
`num_subfrm` is 4 and `len_frame` is 512 or 1024.  Of a transform coded part the noise level, the gain, the pitch filter
and the frequency domain predictor are modelled; the gap filling, noise shaping and spectral data that follow (593-634)
are a program given as a parameter, and so is `ia_core_coder_tbe_data` (493).  Of what the parser stores in arrays of fixed
size the model keeps a list, which must not become longer than the array. -/

namespace Verif.Lpd

open Prog
open DrcSel (at_)
open Avq (upTo)

/-! ## Codebook numbers -/

/-- The loops of ia_core_coder_acelp_bitparse.c 163-166, 187-190, 205-208 and 394-397.  The first argument bounds the number of
rounds. -/
def ones : Nat → Nat → Prog Nat
  | 0, k => pure k
  | n + 1, k => do
    let b ← bits 1
    if b = 1 then ones n (k + 1) else pure k

/-- Ones up to a zero.  There cannot be more of them than bits, so the bound is never met. -/
def unary : Prog Nat := do
  let c ← avail
  ones (c.toNat + 1) 0

/-- ia_core_coder_acelp_bitparse.c 163-170 and 393-401. -/
def plain : Prog Nat := do
  let k ← unary
  pure (if 0 < k then k + 1 else k)

/-- ia_core_coder_acelp_bitparse.c 184-195. -/
def extendA (q : Nat) : Prog Nat :=
  if 4 < q then do
    let k ← unary
    pure (if 0 < k then k + 4 else k)
  else pure q

/-- ia_core_coder_acelp_bitparse.c 202-225. -/
def extendB (q : Nat) : Prog Nat :=
  if 4 < q then do
    let k ← unary
    pure (match k with
      | 0 => 5
      | 1 => 6
      | 2 => 0
      | k => k + 4)
  else pure q

/-- `ia_core_coder_qn_data`, ia_core_coder_acelp_bitparse.c 154-231; the numbers are 0 before the call (252). -/
def numbers (nk : Nat) (full : Bool) : Prog (Nat × Nat) :=
  if nk = 1 then do
    let a ← plain
    let b ← plain
    pure (a, b)
  else if nk = 0 ∨ nk = 2 ∨ nk = 3 then do
    let a ← bits 2
    let b ← bits 2
    if nk = 2 ∧ full = false then do
      let a ← extendA (2 + a)
      let b ← extendA (2 + b)
      pure (a, b)
    else do
      let a ← extendB (2 + a)
      let b ← extendB (2 + b)
      pure (a, b)
  else pure (0, 0)

/-- `nk`, ia_core_coder_acelp_bitparse.c 263-272 and 403-409. -/
def extra (q : Nat) : Nat := if 4 < q then (q - 3) / 2 else 0

/-- `n`, ia_core_coder_acelp_bitparse.c 263-272 and 403-409. -/
def units (q : Nat) : Nat := if 4 < q then q - extra q * 2 else q

/-! ## Filter indices -/

/-- A store behind the entries of `lpc_first_approx_idx`, which has 110 (ia_core_coder_acelp_info.h 56). -/
def put (out : List Int) (x : Nat) : Prog (List Int) :=
  if out.length < 110 then pure (out ++ [(x : Int)]) else undef

/-- `n` fields of `w` bits. -/
def several : Nat → Nat → List Int → Prog (List Int)
  | 0, _, out => pure out
  | n + 1, w, out => do
    let v ← bits w
    let out ← put out v
    several n w out

/-- ia_core_coder_acelp_bitparse.c 261-281. -/
def indices (q : Nat) (out : List Int) : Prog (List Int) :=
  if 0 < q then do
    let out ← several 1 (4 * units q) out
    several 8 (extra q) out
  else pure out

/-- `ia_core_coder_code_book_indices`, ia_core_coder_acelp_bitparse.c 247-284. -/
def codes (nk : Nat) (full : Bool) (out : List Int) : Prog (List Int) := do
  let (a, b) ← numbers nk full
  let out ← put out a
  let out ← put out b
  let out ← indices a out
  indices b out

/-- `ia_core_coder_get_mode_lpc`, ia_core_coder_acelp_bitparse.c 89-139: the mode and the new `nk_mode`. -/
def mode (set nk : Nat) : Prog (Nat × Nat) :=
  match set with
  | 0 | 2 => do
    let m ← bits 1
    pure (m, if m = 1 then 3 else nk)
  | 1 => do
    let a ← bits 1
    if a = 0 then pure (2, 2)
    else do
      let b ← bits 1
      if b = 0 then pure (0, 0) else pure (1, 1)
  | 3 => do
    let a ← bits 1
    if a = 0 then pure (1, 1)
    else do
      let b ← bits 1
      if b = 0 then pure (0, 0)
      else do
        let c ← bits 1
        pure (if c = 0 then 2 else 3, 2)
  | _ => pure (0, nk)

/-- One filter after the first, ia_core_coder_acelp_bitparse.c 314-323, 327-336, 341-354 and 358-367. -/
def filter (set : Nat) (full : Bool) (s : Nat × List Int) : Prog (Nat × List Int) := do
  let (m, nk) ← mode set s.1
  let out ← put s.2 m
  let out ← (if m = 0 then several 1 8 out else pure out)
  let out ← (if set = 1 ∧ m = 1 then pure out else codes nk full out)
  pure (nk, out)

/-- `ia_core_coder_lpc_data`, ia_core_coder_acelp_bitparse.c 302-370. -/
def filters (first full : Bool) (mod : Nat → Nat) : Prog (List Int) := do
  let out ← several 1 8 []
  let out ← codes 0 false out
  let s := (0, out)
  let s ← (if first then filter 0 false s else pure s)
  let s ← (if !full ∧ mod 0 < 3 then filter 2 false s else pure s)
  let s ← (if mod 0 < 2 then filter 1 full s else pure s)
  let s ← (if !full ∧ mod 2 < 2 then filter 3 false s else pure s)
  pure s.2

/-! ## Aliasing cancellation -/

/-- One round of the loop of `ia_core_coder_fac_decoding`, ia_core_coder_acelp_bitparse.c 393-419. -/
def block : Prog (List Int) := do
  let q ← plain
  let c ← bits (4 * units q)
  let kv ← forN (fun _ => bits (extra q)) 8 0
  lift (Avq.decode q c (kv.map Int.ofNat))

/-- `ia_core_coder_fac_decoding`, ia_core_coder_acelp_bitparse.c 385-422: `length` numbers stored from `pos` on in an array of
`cap` entries. -/
def cancel (length pos cap : Nat) : Prog (List Int) := do
  let bs ← forN (fun i => do
    let b ← block
    if pos + 8 * i + b.length ≤ cap then pure b else undef) (length / 8) 0
  pure bs.flatten

/-! ## Excitation -/

/-- `ia_core_coder_num_bits_acelp_coding`, ia_core_coder_rom.c 3430-3432. -/
def pulseBits : List (List Nat) :=
  [[5, 5, 5, 5], [9, 9, 5, 5], [9, 9, 9, 9], [13, 13, 9, 9], [13, 13, 13, 13], [16, 16, 16, 16], [1, 5, 1, 5],
    [1, 5, 5, 5]]

/-- The fields of a subframe: `acb_index`, `ltp_filtering_flag`, `icb_index` and `gains`. -/
structure Sub where
  pitch : Nat
  filtered : Nat
  pulses : List Nat
  gain : Nat
  deriving DecidableEq, Repr

/-- One round of the loop of ia_core_coder_acelp_bitparse.c 452-488; `kk` is checked against the 16 entries of the arrays. -/
def subframe (core k sfr : Nat) : Prog Sub := do
  let p ← bits (if sfr = 2 ∨ sfr = 0 then 9 else 6)
  let f ← bits 1
  let row ← lift (at_ pulseBits core)
  let ps ← (if core ≠ 5 then forN (fun i => bits (row.getD i 0)) 4 0
    else do
      let as ← forN (fun _ => bits 2) 4 0
      let bs ← forN (fun _ => bits 14) 4 0
      pure (as ++ bs))
  let g ← bits 7
  if k * 4 + sfr < 16 then pure { pitch := p, filtered := f, pulses := ps, gain := g } else undef

/-- What is parsed of an algebraic code excited part: `mean_energy`, the subframes and the bandwidth extension. -/
structure Acelp (τ : Type) where
  energy : Nat
  subs : List Sub
  ext : Option τ

/-- `ia_core_coder_acelp_decoding`, ia_core_coder_acelp_bitparse.c 439-496, with the program `tbe` for
`ia_core_coder_tbe_data`. -/
def acelp {τ : Type} (tbe : Nat → Prog τ) (full : Bool) (core k : Nat) : Prog (Acelp τ) := do
  let e ← bits 2
  let ss ← forN (fun sfr => subframe core k sfr) 4 0
  let x ← (if full then do
      let t ← tbe (if k = 0 then 0 else 1)
      pure (some t)
    else pure none)
  pure { energy := e, subs := ss, ext := x }

/-- What is parsed of a transform coded part: `noise_factor`, `global_gain`, `tcx_lg`, the indices of the pitch filter and
`fdp_spacing_index` if present, and the rest. -/
structure Tcx (ρ : Type) where
  noise : Nat
  gain : Nat
  lines : Nat
  pitch : Option (Nat × Nat)
  spacing : Option Nat
  rest : ρ

/-- What does not change within a frame: `full_band_lpd`, `noise_filling_config`, `usac_independency_flg` and
`is_base_line_profile_3b`. -/
structure Config where
  full : Bool
  noiseFilling : Bool
  independent : Bool
  baseline : Bool

/-- `tcx_lg[k]`, ia_core_coder_acelp_bitparse.c 536-549, for modes 1 to 3. -/
def lines (full : Bool) (m : Nat) : Nat :=
  (match m with
    | 1 => 256
    | 2 => 2 * 256
    | 3 => 4 * 256
    | _ => 0) * (if full then 2 else 1)

/-- `ia_core_coder_tcx_coding`, ia_core_coder_acelp_bitparse.c 516-637, with the program `rest` for 593-634.  It is given the
number of the part, its mode, whether it is the first transform coded part, and where in `x_tcx_invquant` its lines are to be
stored. -/
def tcx {ρ : Type} (rest : Nat → Nat → Bool → Nat → Prog ρ) (c : Config) (k m : Nat) (first : Bool) (pos : Nat) : Prog (Tcx ρ) := do
  let noise ← (if c.noiseFilling then bits 3 else pure 8)
  let gain ← bits 7
  let long : Bool := (m = 3 ∧ !c.full) ∨ (m = 2 ∧ c.full)
  let pitch ← (if long then do
      let p ← bits 1
      if p = 1 then
        if c.baseline then fail (.other 0xFFFF9820)
        else do
          let lag ← bits 9
          let g ← bits 2
          pure (some (lag, g))
      else pure none
    else pure none)
  let spacing ← (if long ∧ !c.independent then do
      let p ← bits 1
      if p = 1 then
        if c.baseline then fail (.other 0xFFFF9820)
        else do
          let s ← bits 8
          pure (some s)
      else pure none
    else pure none)
  let r ← rest k m first pos
  if pos + lines c.full m ≤ 1024 then
    pure { noise := noise, gain := gain, lines := lines c.full m, pitch := pitch, spacing := spacing, rest := r }
  else undef

/-! ## The frame -/

/-- A part of the frame: where it starts, its mode, the numbers for the aliasing cancellation if they are sent, and its
excitation with the position of its lines. -/
structure Part (τ ρ : Type) where
  start : Nat
  mode : Nat
  fac : Option (List Int)
  data : Acelp τ ⊕ (Nat × Tcx ρ)

/-- The loop of ia_core_coder_acelp_bitparse.c 772-824.  The first argument bounds the rounds; `last` is `last_lpd_mode`, `pos`
the position of `ptr_quant` and `first` is `first_tcx_flag`; `send` is `core_mode_last == 1 && fac_data_present == 1`. -/
def parts {τ ρ : Type} (tbe : Nat → Prog τ) (rest : Nat → Nat → Bool → Nat → Prog ρ) (c : Config) (core : Nat) (mod : Nat → Nat)
    (send : Bool) : Nat → Nat → Int → Nat → Bool → Prog (List (Part τ ρ))
  | 0, _, _, _, _ => undef
  | n + 1, k, last, pos, first =>
    if k < (if c.full then 2 else 4) then do
      let fac ← (if (if k ≠ 0 then (0 < last ∧ mod k = 0) ∨ (last = 0 ∧ 0 < mod k) else send = true) then do
          let x ← cancel (256 / 2) (k * 128) 512
          pure (some x)
        else pure none)
      if mod k ≠ 0 then do
        let t ← tcx rest c k (mod k) first pos
        let cnt := 2 ^ (mod k - 1)
        if k + cnt ≤ 16 then do
          let ps ← parts tbe rest c core mod send n (k + cnt) (mod k) (pos + t.lines) false
          pure ({ start := k, mode := mod k, fac := fac, data := .inr (pos, t) } :: ps)
        else undef
      else do
        let a ← acelp tbe c.full core k
        let ps ← parts tbe rest c core mod send n (k + 1) 0 pos first
        pure ({ start := k, mode := 0, fac := fac, data := .inl a } :: ps)
    else pure []

/-- The modes of the parts, ia_core_coder_acelp_bitparse.c 691-704 and 716-752; `old` is `mod` before. -/
def modes (full : Bool) (m : Nat) (old : Nat → Nat) : Option (Nat → Nat) :=
  let bit := fun i => m / 2 ^ i % 2
  if full then
    if 4 < m then none
    else if m = 4 then some fun i => if i < 2 then 2 else old i
    else some fun i => if i < 2 then bit i else old i
  else if 25 < m then none
  else if m = 25 then some fun _ => 3
  else if m = 24 then some fun _ => 2
  else if 20 ≤ m then some fun i => if i < 2 then bit i else 2
  else if 16 ≤ m then some fun i => if i < 2 then 2 else bit (i - 2)
  else some bit

/-- What the parser delivers: `tns_data_present`, `window_shape` and `max_sfb` of full band frames, `acelp_core_mode`, `mod`,
`bpf_control_info`, `core_mode_last`, the parts, the filter indices, `short_fac_flag` and `fd_fac`. -/
structure Frame (τ ρ : Type) where
  tns : Nat
  shape : Nat
  maxSfb : Nat
  core : Nat
  mod : Nat → Nat
  bpf : Nat
  lastCore : Nat
  parts : List (Part τ ρ)
  filters : List Int
  short : Nat
  fdFac : Option (Nat × List Int)

/-- `ia_core_coder_lpd_channel_stream`, ia_core_coder_acelp_bitparse.c 654-857.  `old` is `mod` before, `last` is `mode_prev`,
`eight` says that the last window sequence was that of eight short windows, and `maxSfb` is `max_sfb` before, which only full
band frames change.  For programs `rest` the flags are in the frame data: `tns` is passed to it with `max_sfb`. -/
def stream {τ ρ : Type} (tbe : Nat → Prog τ) (rest : Nat → Nat → Nat → Nat → Bool → Nat → Prog ρ) (c : Config) (old : Nat → Nat)
    (last : Int) (eight : Bool) (shape maxSfb : Nat) : Prog (Frame τ ρ) := do
  let tns ← (if c.full then bits 1 else pure 0)
  let (shape, maxSfb) ← (if c.full then
      if tns = 1 ∨ c.noiseFilling then do
        let w ← bits 1
        let s ← bits 4
        pure (w, s)
      else pure (0, 0)
    else pure (shape, maxSfb))
  let core ← bits 3
  let m ← bits (if c.full then 3 else 5)
  match modes c.full m old with
  | none => fail (.other 0xFFFF901E)
  | some mod => do
    let bpf ← (if c.full then pure 1 else bits 1)
    let lastCore ← bits 1
    let present ← bits 1
    if 0 < mod 0 ∧ lastCore = 0 ∧ present ≠ 0 then fail (.other 0xFFFF9022)
    else do
      let ps ← parts tbe (rest tns maxSfb) c core mod (lastCore = 1 ∧ present = 1) 5 0 last 0 true
      let fs ← filters (lastCore = 0) c.full mod
      let (short, fd) ← (if lastCore = 0 ∧ present = 1 then do
          let short ← bits 1
          if short ≠ (if eight then 1 else 0) then fail (.other 0xFFFF9023)
          else do
            let len := if c.full then 512 else 1024
            let g ← bits 7
            let x ← cancel (if short = 1 then len / 16 else len / 8) 1 129
            pure (short, some (g, x))
        else pure (0, none))
      pure { tns := tns, shape := shape, maxSfb := maxSfb, core := core, mod := mod, bpf := bpf, lastCore := lastCore,
             parts := ps, filters := fs, short := short, fdFac := fd }

/-! ## Line spectral frequencies -/

/-- One round of the loop of `ia_core_coder_decoding_avq_tool`, ia_core_coder_lpc_dec.c 86-104: eight numbers and the new
position. -/
def tool1 (l : List Int) (i pos : Nat) : Res (List Int × Nat) := do
  let q ← at_ l i
  if q ≤ 0 then do
    let x ← Avq.decode q 0 (List.replicate 8 0)
    .ok (x, pos)
  else do
    let c ← at_ l pos
    let kv ← upTo (fun j => at_ l (pos + 1 + j)) 8
    let x ← Avq.decode q c.toNat kv
    .ok (x, pos + 9)

/-- `ia_core_coder_decoding_avq_tool`, ia_core_coder_lpc_dec.c 80-107. -/
def tool (l : List Int) : Res (List Int × Nat) := do
  let (a, pos) ← tool1 l 0 2
  let (b, pos) ← tool1 l 1 pos
  .ok (a ++ b, pos)

/-- The loops of ia_core_coder_lpc_dec.c 136-142 and 181-188: each number is at least 50 above the one before.  `none` is not a
number; `fmax` (impeghd_intrinsics_flt.h 49) then takes the other argument. -/
def separate : List (Option Rat) → Rat → List Rat
  | [], _ => []
  | x :: xs, low =>
    let y := match x with
      | none => low
      | some x => max x low
    y :: separate xs (y + 50)

/-- `ia_core_coder_dico_lsf_abs_8b_flt` (ia_core_coder_rom.c 2839) and `ia_core_coder_weight_table_avq`
(ia_core_coder_avq_rom.c 670), tables of 256 rows of 16 numbers. -/
structure Tables where
  start : Nat → Nat → Rat
  weight : Nat → Nat → Rat

/-- `ia_core_coder_avq_first_approx_abs`, ia_core_coder_lpc_dec.c 120-145. -/
def absolute (T : Tables) (l : List Int) : Res (List Rat × Nat) := do
  let i ← at_ l 0
  if 0 ≤ i ∧ i < 256 then do
    let (v, pos) ← tool (l.drop 1)
    let xs := (List.range 16).map fun j => some (T.start i.toNat j + T.weight i.toNat j * (v.getD j 0 : Int))
    .ok (separate xs 50, 1 + pos)
  else .ub

/-- `d`, ia_core_coder_lpc_dec.c 167-172. -/
def gap (x : List Rat) (i : Nat) : Rat :=
  if i = 0 then x.getD 0 0 else if i = 16 then 6400 - x.getD 15 0 else x.getD i 0 - x.getD (i - 1) 0

/-- `ia_core_coder_avq_first_approx_rel`, ia_core_coder_lpc_dec.c 158-191, for the factor `f` of the mode; `root` is the square
root, which is no number below 0.  `f / (400 / r)` is written `f * r / 400`, which is the same even for a root of 0, where
the quotient in brackets is infinite. -/
def relative (root : Rat → Rat) (x : List Rat) (l : List Int) (f : Rat) : Res (List Rat × Nat) := do
  let (v, pos) ← tool l
  let xs := (List.range 16).map fun i =>
    let p := gap x i * gap x (i + 1)
    if p < 0 then none else some (x.getD i 0 + f * root p / 400 * (v.getD i 0 : Int))
  .ok (separate xs 50, pos)

/-- `0.5 * (a + b)`, ia_core_coder_lpc_dec.c 266-267 and 302-303. -/
def average (a b : List Rat) : List Rat := (List.range 16).map fun i => 1 / 2 * (a.getD i 0 + b.getD i 0)

/-- The five rows of `lsf`, the position of `lpc_index` and `pos`. -/
structure Rows where
  row : Nat → List Rat
  idx : Nat
  pos : Nat

/-- A new row; `idx` is advanced by the new `pos`. -/
def Rows.put (s : Rows) (i : Nat) (x : List Rat × Nat) : Rows :=
  { row := Function.update s.row i x.1, idx := s.idx + x.2, pos := x.2 }

/-- Filter 0, ia_core_coder_lpc_dec.c 225-238, relative to row `n`.  Modes other than those the parser delivers leave the row and
skip as many entries as before; the same holds for filters 2 and 1. -/
def dequant0 (root : Rat → Rat) (T : Tables) (l : List Int) (n : Nat) (s : Rows) : Res Rows := do
  let m ← at_ l s.idx
  let s := { s with idx := s.idx + 1 }
  if m = 1 then do
    let x ← relative root (s.row n) (l.drop s.idx) 63
    .ok (s.put 0 x)
  else if m = 0 then do
    let x ← absolute T (l.drop s.idx)
    .ok (s.put 0 x)
  else .ok { s with idx := s.idx + s.pos }

/-- Filter 2, ia_core_coder_lpc_dec.c 243-256. -/
def dequant2 (root : Rat → Rat) (T : Tables) (l : List Int) (s : Rows) : Res Rows := do
  let m ← at_ l s.idx
  let s := { s with idx := s.idx + 1 }
  if m = 1 then do
    let x ← relative root (s.row 4) (l.drop s.idx) 63
    .ok (s.put 2 x)
  else if m = 0 then do
    let x ← absolute T (l.drop s.idx)
    .ok (s.put 2 x)
  else .ok { s with idx := s.idx + s.pos }

/-- Filter 1, ia_core_coder_lpc_dec.c 261-282. -/
def dequant1 (root : Rat → Rat) (T : Tables) (l : List Int) (s : Rows) : Res Rows := do
  let m ← at_ l s.idx
  let s := { s with idx := s.idx + 1 }
  if m = 1 then .ok { s with row := Function.update s.row 1 (average (s.row 0) (s.row 2)) }
  else if m = 2 then do
    let x ← relative root (s.row 2) (l.drop s.idx) 64
    .ok (s.put 1 x)
  else if m = 0 then do
    let x ← absolute T (l.drop s.idx)
    .ok (s.put 1 x)
  else .ok { s with idx := s.idx + s.pos }

/-- Filter 3, ia_core_coder_lpc_dec.c 287-310.  Where the entries end does not matter any more. -/
def dequant3 (root : Rat → Rat) (T : Tables) (l : List Int) (s : Rows) : Res Rows := do
  let m ← at_ l s.idx
  let s := { s with idx := s.idx + 1 }
  if m = 3 then do
    let x ← relative root (s.row 4) (l.drop s.idx) 64
    .ok (s.put 3 x)
  else if m = 2 then do
    let x ← relative root (s.row 2) (l.drop s.idx) 64
    .ok (s.put 3 x)
  else if m = 1 then do
    let x ← relative root (average (s.row 2) (s.row 4)) (l.drop s.idx) 65
    .ok (s.put 3 x)
  else if m = 0 then do
    let x ← absolute T (l.drop s.idx)
    .ok (s.put 3 x)
  else .ok s

/-- `ia_core_coder_alg_vec_dequant`, ia_core_coder_lpc_dec.c 210-312. -/
def dequant (root : Rat → Rat) (T : Tables) (l : List Int) (first full : Bool) (mod : Nat → Nat) (row : Nat → List Rat) :
    Res (Nat → List Rat) := do
  let n := if full then 2 else 4
  let x ← absolute T l
  let s : Rows := Rows.put { row := row, idx := 0, pos := 0 } n x
  let s ← (if first then dequant0 root T l n s else Res.ok s)
  let s ← (if mod 0 < 3 ∧ !full then dequant2 root T l s else Res.ok s)
  let s ← (if mod 0 < 2 then dequant1 root T l s else Res.ok s)
  let s ← (if mod 2 < 2 ∧ !full then dequant3 root T l s else Res.ok s)
  .ok s.row

/-- The loop of ia_core_coder_lpc.c 1073-1132: for each part where it starts, its mode, and the rows before and after it,
`lsf_prev` and `lsf_curr`. -/
def schedule (full : Bool) (mod : Nat → Nat) (row : Nat → List Rat) : Nat → Nat → List Rat → Res (List (Nat × Nat × List Rat × List Rat))
  | 0, _, _ => .ub
  | n + 1, k, prev =>
    if k < (if full then 2 else 4) then do
      let m := mod k
      let j := if m = 0 ∨ m = 1 then k + 1 else if m = 2 then k + 2 else k + 4
      if j ≤ 4 then do
        let rest ← schedule full mod row n (if m = 0 then k + 1 else k + 2 ^ (m - 1)) (row j)
        .ok ((k, m, prev, row j) :: rest)
      else .ub
    else .ok []

/-- ia_core_coder_lpc.c 1046-1132: the frequencies of all parts, from `lsf_prev`.  `scratch` are the rows before, which are
left from earlier calls. -/
def frequencies (root : Rat → Rat) (T : Tables) (l : List Int) (first full : Bool) (mod : Nat → Nat) (scratch : Nat → List Rat)
    (prev : List Rat) : Res (List (Nat × Nat × List Rat × List Rat)) := do
  let row ← dequant root T l first full mod (if first then scratch else Function.update scratch 0 prev)
  schedule full mod row 5 0 (if first then row 0 else prev)

end Verif.Lpd
