import Verif.Model.Loop
import Verif.Model.Escape
import Verif.Model.Speaker
import Mathlib.Algebra.Order.Field.Rat

/-! # Downmix matrices sent in the stream: `impeghd_dmx_mtx.c`

Gains are rationals in dB, exact: the code computes them in single precision, in which they are whole multiples of 1/8 of small numbers.  -256 stands for no gain at all.
The matrix `dmx_mtx` is a function of the input and the output channel; in the code it is one array with rows of `num_out_ch` elements.  Powers of ten and the curves of the
equalisers (`impeghd_peak_filter`, 454-483) are parameters.  Most of the structures are in scratch memory that nobody clears: what is read before it is written is a parameter. -/

namespace Verif.Dmx

open Prog

/-- `IA_DMX_MTX_GAIN_ZERO`, impeghd_dmx_mtx_data.h 40. -/
def silent : ℚ := -256

/-- `impeghd_read_range`, impeghd_dmx_mtx.c 80-101. -/
def readRange (size : Nat) : Prog Nat := do
  let n := Nat.log2 size
  let unused := 2 ^ (n + 1) - size
  let v ← bits n
  if unused ≤ v then do
    let t ← bits 1
    pure (2 * v - unused + t)
  else pure v

/-! ## Gains -/

/-- What is left in the scratch memory: loudspeakers (`inp_spk_conf`), gains (`gain_tab`) and the numbers behind `eq_map`. -/
structure Stale where
  spk : Nat → Speaker.Geo
  tab : Nat → ℚ
  map : Nat → Int

/-- The four loops over whole numbers of dB, impeghd_dmx_mtx.c 503-531, for gains from `-lo` to `hi`. -/
def wholeGains (lo hi : Nat) : List ℚ :=
  ((List.range (lo / 3 + 1)).map fun k => -((3 * k : Nat) : ℚ)) ++ ((List.range (hi / 3)).map fun k => ((3 * (k + 1) : Nat) : ℚ)) ++
    (((List.range (lo + 1)).filter fun k => decide (k % 3 ≠ 0)).map fun k : Nat => -(k : ℚ)) ++
    (((List.range (hi + 1)).filter fun k => decide (k % 3 ≠ 0)).map fun k : Nat => (k : ℚ))

/-- One round of the loop impeghd_dmx_mtx.c 533-556: the odd multiples of 1 / 2 ^ `prc`, downwards and upwards. -/
def fineGains (lo hi prc : Nat) : List ℚ :=
  (((List.range (lo * 2 ^ prc + 1)).filter fun k => decide (k % 2 = 1)).map fun k : Nat => -((k : ℚ) / 2 ^ prc)) ++
    (((List.range (hi * 2 ^ prc + 1)).filter fun k => decide (k % 2 = 1)).map fun k : Nat => (k : ℚ) / 2 ^ prc)

/-- The table made by `impeghd_generate_gain_table`, impeghd_dmx_mtx.c 492-568; for a precision of 3 it is not made (498-501). -/
def gainTable (lo hi prec : Nat) : List ℚ :=
  if 2 < prec then [] else wholeGains lo hi ++ (List.range prec).flatMap (fun p => fineGains lo hi (p + 1)) ++ [silent]

/-- `ia_dmx_mtx_gain_coder_t`, impeghd_dmx_mtx_data.h 50-61, without the history, which is not used; `min_gain` is `-lo`. -/
structure Coder where
  lo : Nat
  hi : Nat
  prec : Nat
  raw : Bool
  lg : Nat
  tab : List ℚ

/-- The zeros before a one, at most `n`: impeghd_dmx_mtx.c 130-135. -/
def zeros : Nat → Prog Nat
  | 0 => pure 0
  | n + 1 => do
    let b ← bits 1
    if b ≠ 0 then pure 0
    else do
      let k ← zeros n
      pure (k + 1)

/-- `gain_tab[i]`: the array has 274 elements. -/
def tabGet (st : Stale) (tab : List ℚ) (i : Nat) : Prog ℚ :=
  if i < tab.length then pure (tab.getD i 0) else if i < 274 then pure (st.tab i) else undef

/-- `impeghd_decode_gain`, impeghd_dmx_mtx.c 113-148. -/
def decodeGain (st : Stale) (c : Coder) : Prog ℚ := do
  let g ← (if c.raw then do
      let i ← readRange ((c.lo + c.hi) * 2 ^ c.prec + 2)
      pure ((c.hi : ℚ) - (i : ℚ) / 2 ^ c.prec)
    else do
      let head ← zeros ((c.tab.length - 1) / 2 ^ c.lg)
      let rest ← bits c.lg
      tabGet st c.tab (head * 2 ^ c.lg + rest))
  pure (if g < -(c.lo : ℚ) then silent else g)

/-! ## Pairs of loudspeakers -/

/-- `pair_type` and `symmetric_pair`. -/
inductive Kind where
  | centre
  | single
  | pair (other : Nat)
  deriving DecidableEq

/-- An element of the compact configuration: `original_position`, type and `is_lfe`. -/
structure Entry where
  pos : Nat
  kind : Kind
  lfe : Nat
  deriving DecidableEq

/-- The middle: impeghd_dmx_mtx.c 223. -/
def middle (s : Speaker.Geo) : Bool := decide (s.az = 0) || decide (s.az = 180) || decide (s.az = -180)

/-- Two loudspeakers are a pair: impeghd_dmx_mtx.c 238-240. -/
def mirrored (a b : Speaker.Geo) : Bool := decide (a.lfe = b.lfe) && decide (a.el = b.el) && decide (a.az = -b.az)

/-- Loudspeaker `i`. -/
def spkAt (conf : List Speaker.Geo) (i : Nat) : Speaker.Geo := conf.getD i ⟨0, 0, 0, 0⟩

/-- The first loudspeaker behind `i` that is not used and makes a pair with it: impeghd_dmx_mtx.c 233-264. -/
def partner (conf : List Speaker.Geo) (used : List Nat) (i : Nat) : Option Nat :=
  (List.range conf.length).find? fun j => decide (i < j) && !(used.contains j) && mirrored (spkAt conf i) (spkAt conf j)

/-- The loop impeghd_dmx_mtx.c 218-276. -/
def compactLoop (conf : List Speaker.Geo) : (n i : Nat) → List Nat → List Entry
  | 0, _, _ => []
  | n + 1, i, used =>
    if used.contains i then compactLoop conf n (i + 1) used
    else if middle (spkAt conf i) then ⟨i, .centre, (spkAt conf i).lfe⟩ :: compactLoop conf n (i + 1) (i :: used)
    else match partner conf used i with
      | some j => (if 0 < (spkAt conf i).az then ⟨i, .pair j, (spkAt conf i).lfe⟩ else ⟨j, .pair i, (spkAt conf j).lfe⟩) ::
          compactLoop conf n (i + 1) (j :: i :: used)
      | none => ⟨i, .single, (spkAt conf i).lfe⟩ :: compactLoop conf n (i + 1) (i :: used)

/-- `impeghd_convert_to_compact_config`, impeghd_dmx_mtx.c 201-278. -/
def compact (conf : List Speaker.Geo) : List Entry := compactLoop conf conf.length 0 []

/-! ## The places of gains -/

/-- Ones before a zero, at most `n`: impeghd_dmx_mtx.c 305-312. -/
def ones : Nat → Prog Nat
  | 0 => pure 0
  | n + 1 => do
    let b ← bits 1
    if b = 0 then pure 0
    else do
      let k ← ones n
      pure (k + 1)

/-- The rounds of impeghd_dmx_mtx.c 301-322; `m` is the array up to `mtx_idx`, it has room for 576 elements. -/
def flatLoop (cnt lg : Nat) : Nat → List Nat → Prog (List Nat)
  | 0, m => pure m
  | fuel + 1, m => do
    let head ← ones (cnt / 2 ^ lg)
    let rest ← bits lg
    let val := head * 2 ^ lg + rest
    if 576 < m.length + val then undef
    else
      let m := m ++ List.replicate val 0
      let m := if m.length < cnt then m ++ [1] else m
      if m.length < cnt then flatLoop cnt lg fuel m else pure m

/-- `impeghd_decode_flat_compact_mtx`, impeghd_dmx_mtx.c 292-323; every round but the last adds an element. -/
def flat (cnt : Nat) : Prog (List Nat) := do
  let lg ← bits (if 256 ≤ cnt then 4 else 3)
  flatLoop cnt lg (cnt + 1) []

/-- `a[i][j] = v`. -/
def put {β : Type} (a : Nat → Nat → β) (i j : Nat) (v : β) : Nat → Nat → β := fun x y => if x = i ∧ y = j then v else a x y

/-- What is common to the parts of a matrix: `cicp_in_idx` and `cicp_out_idx` and the compact configurations. -/
structure Sides where
  inIdx : Int
  outIdx : Int
  ins : List Entry
  outs : List Entry

/-- Entry `i` of a compact configuration. -/
def entryAt (l : List Entry) (i : Nat) : Entry := l.getD i ⟨0, .centre, 0⟩

/-- The places coded with one bit each: impeghd_dmx_mtx.c 718-735. -/
def rawPlaces (s : Sides) (lfeOnly : Nat) : Prog (Nat → Nat → Nat) :=
  foldN (fun i m => foldN (fun j m => do
    let b ← (if lfeOnly = 0 ∨ (entryAt s.ins i).lfe = (entryAt s.outs j).lfe then bits 1 else pure 0)
    pure (put m i j b)) s.outs.length 0 m) s.ins.length 0 (fun _ _ => 0)

/-- `num_in_lfe_compact` and `num_out_lfe_compact`, impeghd_dmx_mtx.c 743-753. -/
def lfes (l : List Entry) : Nat := (l.filter fun e => decide (e.lfe = 1)).length

/-- `total_cnt`, impeghd_dmx_mtx.c 741-759. -/
def total (s : Sides) (lfeOnly : Nat) : Nat :=
  if lfeOnly ≠ 0 then (s.ins.length - lfes s.ins) * (s.outs.length - lfes s.outs) else s.ins.length * s.outs.length

/-- One place of impeghd_dmx_mtx.c 779-799, with `cnt`; `is_lfe` is 0 or 1. -/
def runPlace (s : Sides) (lfeOnly : Nat) (l : List Nat) (i j : Nat) (r : (Nat → Nat → Nat) × Nat) : Prog ((Nat → Nat → Nat) × Nat) :=
  let a := (entryAt s.ins i).lfe
  let b := (entryAt s.outs j).lfe
  if lfeOnly ≠ 0 ∧ a ≠ 0 ∧ b ≠ 0 then do
    let v ← bits 1
    pure (put r.1 i j v, r.2)
  else if lfeOnly ≠ 0 ∧ a ≠ b then pure (put r.1 i j 0, r.2)
  else pure (put r.1 i j (l.getD r.2 0), r.2 + 1)

/-- The places coded by runs: impeghd_dmx_mtx.c 736-805.  `impeghd_find_comp_tmplt` (161-188) changes only its own copy of the pointer to a template, so that the one of the
caller stays null (768-771). -/
def runPlaces (s : Sides) (lfeOnly : Nat) : Prog (Nat → Nat → Nat) := do
  let template ← bits 1
  if template ≠ 0 then
    if s.inIdx = -1 ∨ s.outIdx = -1 then fail (.other 0xFFFF9403) else fail (.other 0xFFFF9407)
  else do
    let l ← flat (total s lfeOnly)
    let r ← foldN (fun i r => foldN (fun j r => runPlace s lfeOnly l i j r) s.outs.length 0 r) s.ins.length 0 (fun _ _ => 0, 0)
    if r.2 ≠ total s lfeOnly then fail (.other 0xFFFF9408) else pure r.1

/-! ## The gains of the matrix -/

/-- The flags of the compact outputs: `is_seperable`, `is_symmetric`. -/
structure Flags where
  sep : List Nat
  sym : List Nat

/-- impeghd_dmx_mtx.c 678-698: only pairs have a flag. -/
def sepFlags (outs : List Entry) : Prog (List Nat) := do
  let all ← bits 1
  forN (fun j => match (entryAt outs j).kind with
    | .pair _ => if all = 0 then bits 1 else pure 1
    | _ => pure 0) outs.length 0

/-- impeghd_dmx_mtx.c 700-714. -/
def symFlags (outs : List Entry) : Prog (List Nat) := do
  let all ← bits 1
  forN (fun _ => if all = 0 then bits 1 else pure 1) outs.length 0

/-- One compact element, impeghd_dmx_mtx.c 831-930, from its place, its flags and `full_assym_inp`.  Gains that the code copies from the matrix are those just read, as the two
loudspeakers of a pair are different (C275). -/
def cell (gain : Prog ℚ) (full : Bool) (sep sym bit : Nat) (a b : Entry) (d : Nat → Nat → ℚ) : Prog (Nat → Nat → ℚ) :=
  match a.kind, b.kind with
  | .pair a2, .pair b2 =>
    let d := put (put (put (put d a.pos b.pos silent) a.pos b2 silent) a2 b.pos silent) a2 b2 silent
    if bit = 0 then pure d
    else do
      let g ← gain
      let d := put d a.pos b.pos g
      if sep ≠ 0 ∧ sym ≠ 0 then pure (put d a2 b2 g)
      else if sep = 0 ∧ sym ≠ 0 then do
        let h ← gain
        pure (put (put (put d a.pos b2 h) a2 b.pos h) a2 b2 g)
      else if sep ≠ 0 ∧ sym = 0 then do
        let h ← gain
        pure (put d a2 b2 h)
      else do
        let h ← gain
        let k ← gain
        let m ← gain
        pure (put (put (put d a.pos b2 h) a2 b.pos k) a2 b2 m)
  | .pair a2, _ =>
    let d := put (put d a.pos b.pos silent) a2 b.pos silent
    if bit = 0 then pure d
    else do
      let g ← gain
      let d := put d a.pos b.pos g
      if sym ≠ 0 then pure (put d a2 b.pos g)
      else do
        let h ← gain
        pure (put d a2 b.pos h)
  | k, .pair b2 =>
    let d := put (put d a.pos b.pos silent) a.pos b2 silent
    if bit = 0 then pure d
    else do
      let g ← gain
      let d := put d a.pos b.pos g
      if sym ≠ 0 ∧ ¬ (k = .single ∧ full = true) then pure (put d a.pos b2 g)
      else do
        let h ← gain
        pure (put d a.pos b2 h)
  | _, _ =>
    let d := put d a.pos b.pos silent
    if bit = 0 then pure d
    else do
      let g ← gain
      pure (put d a.pos b.pos g)

/-- The loop over the compact elements, impeghd_dmx_mtx.c 824-933. -/
def cells (gain : Prog ℚ) (full : Bool) (f : Flags) (s : Sides) (m : Nat → Nat → Nat) (d : Nat → Nat → ℚ) : Prog (Nat → Nat → ℚ) :=
  foldN (fun i d => foldN (fun j d => cell gain full (f.sep.getD j 0) (f.sym.getD j 0) (m i j) (entryAt s.ins i) (entryAt s.outs j) d) s.outs.length 0 d) s.ins.length 0 d

/-! ## Equalisers -/

/-- `ia_eq_pk_filt`, impeghd_dmx_mtx_data.h 63-68. -/
structure Filter where
  freq : Nat
  q : ℚ
  gain : ℚ
  deriving DecidableEq

/-- `ia_eq_params`. -/
structure Eq where
  filters : List Filter
  gain : ℚ
  deriving DecidableEq

/-- `ia_eq_precisions` and `ia_eq_min_ranges`, impeghd_format_conv_rom.c 378-381. -/
def eqStep (prec : Nat) : ℚ := ([1, 1 / 2, 1 / 4, 1 / 10] : List ℚ).getD prec 0
def eqMin (ext prec : Nat) : ℚ := if ext = 0 then ([-8, -8, -8, -32 / 5] : List ℚ).getD prec 0 else ([-16, -16, -16, -64 / 5] : List ℚ).getD prec 0

/-- What the filters of an equaliser hand on: power of ten and the two digits of the last frequency, and the largest digits. -/
structure Last where
  p10 : Nat
  ld2 : Nat
  top : Nat

/-- The quality factor: impeghd_dmx_mtx.c 397-409. -/
def quality : Prog ℚ := do
  let i ← bits 5
  if i ≤ 19 then pure (1 / 20 * ((i : ℚ) + 1))
  else do
    let e ← bits 3
    pure (1 + 1 / 10 * (((i - 20) * 8 + e + 1 : Nat) : ℚ))

/-- One filter, impeghd_dmx_mtx.c 369-416. -/
def filter (prec ext : Nat) (r : Last) : Prog (Filter × Last) := do
  let p ← readRange (4 - r.p10)
  let p := p + r.p10
  let ld := if r.p10 < p then 10 else r.ld2
  let top := if p = 3 then 24 else r.top
  let d ← readRange (1 + top - ld)
  let d := d + ld
  let q ← quality
  let g ← bits (4 + ext + prec)
  pure (⟨d * 10 ^ p, q, eqMin ext prec + eqStep prec * g⟩, ⟨p, d, top⟩)

/-- The filters of an equaliser: impeghd_dmx_mtx.c 369-416. -/
def filters (prec ext : Nat) : Nat → Last → Prog (List Filter)
  | 0, _ => pure []
  | n + 1, r => do
    let (f, r) ← filter prec ext r
    let fs ← filters prec ext n r
    pure (f :: fs)

/-- One equaliser: impeghd_dmx_mtx.c 355-423. -/
def oneEq (prec ext : Nat) : Prog Eq := do
  let n ← readEscape 2 4 0
  let fs ← filters prec ext (n + 1) ⟨0, 10, 99⟩
  let g ← bits (4 + ext + min (prec + 1) 3)
  pure ⟨fs, eqMin ext (min (prec + 1) 3) + eqStep (min (prec + 1) 3) * g⟩

/-- `ia_eq_config`: the equalisers and `eq_map`. -/
structure EqConf where
  eqs : List Eq
  map : List Nat

/-- `impeghd_decode_eq_config`, impeghd_dmx_mtx.c 338-440.  The lists are in scratch memory, whose end is not modelled. -/
def eqConf (nIn : Nat) : Prog EqConf := do
  let n ← readEscape 3 5 0
  let prec ← bits 2
  let ext ← bits 1
  let eqs ← forN (fun _ => oneEq prec ext) (n + 1) 0
  let map ← forN (fun _ => do
    let b ← bits 1
    if b = 1 then do
      let v ← readRange (n + 1)
      pure (v + 1)
    else pure 0) nIn 0
  pure ⟨eqs, map⟩

/-! ## The matrix -/

/-- `spk_layout`: type 0 with an index, type 1 with a list, type 2 with loudspeakers anywhere, or 3. -/
inductive Layout where
  | index (i : Nat)
  | list (l : List Nat)
  | free
  | other

/-- The loudspeakers of a list of indices of the table. -/
def places (l : List Nat) : Res (List Speaker.Geo) :=
  if l.all (fun i => decide (i < Speaker.geoTbl.length)) then .ok (l.map fun i => Speaker.geoTbl.getD i ⟨0, 0, 0, 0⟩) else .ub

/-- The loudspeakers of an index of a layout; there are 21 of them. -/
def layoutList (i : Nat) : List Nat := ((Speaker.layoutTbl.getD i none).getD [])

/-- `inp_spk_conf`, impeghd_dmx_mtx.c 613-644, `n` entries: those behind the layout are what was there.  The array has 24 elements. -/
def inputs (st : Stale) (lay : Layout) (n : Nat) : Res (List Speaker.Geo) := do
  let l ← (match lay with
    | .index i => if i < 21 then places (layoutList i) else .ub
    | .list l => places l
    | .free => .ok []
    | .other => .err (.other 0xFFFF9406))
  if 24 < l.length ∨ 24 < n then .ub else .ok ((List.range n).map fun i => if i < l.length then l.getD i ⟨0, 0, 0, 0⟩ else st.spk i)

/-- `ia_dmx_mtx_params`, impeghd_dmx_mtx_data.h 99-108; the number of outputs is that of the layout (decode_main.c 757). -/
structure Params where
  nIn : Nat
  outIdx : Nat
  inIdx : Int
  layout : Layout

/-- What is decoded: the gains, and the equalisers. -/
structure Out where
  gains : Nat → Nat → ℚ
  eq : Option EqConf

/-- The checks of the equalisers, impeghd_dmx_mtx.c 958-972: the numbers looked at are as many as there are equalisers, those behind `eq_map` are what was there. -/
def eqCheck (st : Stale) (e : EqConf) : Res Unit :=
  if 12 < e.eqs.length then .err (.other 0xFFFF9409)
  else if (List.range e.eqs.length).any (fun i => decide ((e.eqs.length : Int) < if i < e.map.length then ((e.map.getD i 0 : Nat) : Int) else st.map i)) then .err (.other 0xFFFF940A)
  else .ok ()

/-- The gain coder: impeghd_dmx_mtx.c 808-822; the result of making the table is not looked at. -/
def coder (lo hi prec : Nat) : Prog Coder := do
  let raw ← bits 1
  if raw ≠ 0 then pure ⟨lo, hi, prec, true, 0, []⟩
  else do
    let lg ← bits 3
    if 274 < (gainTable lo hi prec).length then undef else pure ⟨lo, hi, prec, false, lg, gainTable lo hi prec⟩

/-- `impeghd_decode_downmix_matrix`, impeghd_dmx_mtx.c 583-938 and 956-972: the gains in dB and the equalisers.  `d` is the matrix before. -/
def decode (st : Stale) (p : Params) (d : Nat → Nat → ℚ) : Prog Out := do
  let ic ← Prog.lift (inputs st p.layout p.nIn)
  let oc ← Prog.lift (places (layoutList p.outIdx))
  let present ← bits 1
  let eq ← (if present = 1 then do
      let e ← eqConf p.nIn
      pure (some e)
    else pure none)
  let prec ← bits 2
  let hi ← readEscape 3 4 0
  let lo ← readEscape 4 5 0
  let s : Sides := ⟨p.inIdx, p.outIdx, compact ic, compact oc⟩
  let sep ← sepFlags s.outs
  let sym ← symFlags s.outs
  let lfeOnly ← bits 1
  let rawPl ← bits 1
  let m ← (if rawPl = 1 then rawPlaces s lfeOnly else runPlaces s lfeOnly)
  let full ← bits 1
  let c ← coder (lo + 1) hi prec
  let d ← cells (decodeGain st c) (decide (full ≠ 0)) ⟨sep, sym⟩ s m d
  if 2 < prec then fail (.other 0xFFFF9404)
  else match eq with
    | none => pure ⟨d, none⟩
    | some e => do
      Prog.lift (eqCheck st e)
      pure ⟨d, some e⟩

/-- `ia_erb_freq_idx_256_58`, impeghd_format_conv_rom.c 383-386. -/
def erbTbl : List Nat :=
  [1, 2, 3, 4, 5, 6, 7, 8, 9, 10, 11, 12, 13, 14, 15, 16, 17, 18, 19, 20, 21, 22, 23, 24, 25, 26, 27, 28, 29, 30, 31, 32, 33, 36, 39, 43, 47, 51, 55, 60,
    65, 70, 77, 84, 91, 98, 106, 115, 125, 136, 148, 160, 174, 189, 205, 222, 241, 257]

/-- `downmix_mat_freq`, impeghd_dmx_mtx.c 940-954 and 974-1035, for powers `amp` of ten and curves `curve` of the filters of an equaliser at a band of the table; bands that are not
written keep `old`. -/
def bandMatrix {α : Type} [Field α] (amp : ℚ → α) (curve : Eq → Nat → α) (o : Out) (old : Nat → Nat → Nat → α) : Nat → Nat → Nat → α := fun band i j =>
  let a := if o.gains i j ≠ silent then amp (o.gains i j) else 0
  match o.eq with
  | none => if band < 257 then a else old band i j
  | some e =>
    if 0 < e.map.getD i 0 then
      match (List.range 58).find? (fun k => decide (band < erbTbl.getD k 0)) with
      | some k => curve (e.eqs.getD (e.map.getD i 0 - 1) ⟨[], 0⟩) k * a
      | none => old band i j
    else if band < 257 then a else old band i j

/-- One of the downmixes of the configuration: its layout and its first matrix. -/
structure Sent where
  layout : Int
  bits : List Bool

/-- The loop over the downmixes, ia_core_coder_decode_main.c 766-789: matrices for the layout are decoded one after the other, the error code is not looked at.  Before the first the
matrix is cleared (764); when an error comes `downmix_mat_freq` has not been written, and the gains are all written again by the next matrix that is used (C276). -/
def install {α : Type} [Field α] (amp : ℚ → α) (curve : Eq → Nat → α) (st : Stale) (p : Params) : List Sent → (Nat → Nat → Nat → α) → Res (Nat → Nat → Nat → α)
  | [], old => .ok old
  | x :: l, old =>
    if (p.outIdx : Int) = x.layout ∧ x.bits ≠ [] then
      match (decode st p (fun _ _ => 0)).run x.bits with
      | .ok (o, _) => install amp curve st p l (bandMatrix amp curve o old)
      | .err _ => install amp curve st p l old
      | .jump => .jump
      | .ub => .ub
    else install amp curve st p l old

end Verif.Dmx
