import Verif.Model.IgfTables
import Verif.Model.Arith
import Verif.Model.Fd

/-!
# Gap filling of frequency domain channels

`/repo/decoder/ia_core_coder_igf_dec.c`: the set up of the ranges and tiles, the levels and the data of tiles in the
stream, the lines copied into the gap and the gains of a channel coded alone.

The grids are numbered like `igf_win_type`: 0 long windows, 1 eight short windows, 2 and 3 the parts of a linear
prediction frame of 512 and of 1024 lines.  Not modelled: stereo filling, the temporal envelope filter (`igf_tnf`), the pair
of channels (`igf_calc_stereo`, `igf_apply_stereo`), and the copy of the spectrum into `igf_input_spec`.
-/

namespace Verif.Igf

open Prog
open Arith (w32 firstSymbol)

/-! ## Set up -/

/-- `ia_usac_igf_grid_config_struct`, ia_core_coder_igf_data_struct.h 41-48. -/
structure Grid where
  start : Nat
  stop : Nat
  tiles : Nat
  least : Nat
  deriving DecidableEq, Repr

/-- What the configuration says, ia_core_coder_config.h 148-149 and the flags of ia_core_coder_igf_dec.c 2192-2196: the indices of the first
and the last band, higher resolution, whitening, envelope filter. -/
structure Config where
  startIndex : Nat
  stopIndex : Nat
  highRes : Bool
  whitening : Bool
  tnf : Bool
  deriving DecidableEq, Repr

/-- `ia_core_coder_igf_get_igf_min`, ia_core_coder_igf_dec.c 585-604, with the cast of 2255-2256 into a byte
(`UWORD8 igf_min`).  A sampling rate of 1 divides by 0. -/
def least (grid ccfl rate : Nat) : Res Nat :=
  let bl := if grid = 2 then ccfl / 2 else if grid = 1 then ccfl / 8 else ccfl
  if rate / 2 = 0 then .ub
  else
    let m := bl * 1125 / (rate / 2)
    .ok ((m + m % 2) % 256)

/-- ia_core_coder_igf_dec.c 2207-2208: the first band of a long window. -/
def startLong (n startIndex : Nat) : Int := min (11 + (startIndex : Int)) (n - 5)

/-- ia_core_coder_igf_dec.c 2210-2223: the band behind the last of a long window. -/
def stopLong (n : Nat) (start : Int) (stopIndex : Nat) : Int :=
  if stopIndex = 15 then n
  else min (n : Int) (max (start + (((n : Int) - (start + 1)) * (stopIndex + 2)) / 16) (start + 1))

/-- The search in ia_core_coder_igf_dec.c 2227-2246: one more than the first short band whose end reaches `x`, -1 if there is none. -/
def shortBand (short : List Nat) (x : Nat) : Int :=
  let k := short.findIdx fun e => decide (x ≤ e)
  if k < short.length then k + 1 else -1

/-- `swb_offset[j]`, ia_core_coder_igf_dec.c 85-99 (and `ptr_sfb_tbl - 1`, 2259-2264): entry 0 is never set. -/
def offset (tbl : List Nat) (shift j : Nat) : Res Nat :=
  match j with
  | 0 => .ub
  | j + 1 => match tbl[j]? with
    | none => .ub
    | some e => .ok (e * 2 ^ shift)

/-- The loop of ia_core_coder_igf_dec.c 784-788. -/
def advance (off : Nat → Res Nat) (lim : Int) : (fuel j : Nat) → Res Nat
  | 0, _ => .ub
  | fuel + 1, j => do
    let v ← off j
    if (v : Int) < lim then advance off lim fuel (j + 1) else .ok j

/-- ia_core_coder_igf_dec.c 790-801: the end of tile `i` in bands, at lower resolution an even number of bands from the start. -/
def align (high : Bool) (i start stop mem j : Nat) : Nat :=
  if high then j
  else if i = 3 then stop
  else if ((j : Int) - start) % 2 = 1 ∧ (1 : Int) < (j : Int) - mem then j - 1
  else j

/-- The loop of ia_core_coder_igf_dec.c 782-811, `n` more tiles. -/
def tileLoop (off : Nat → Res Nat) (high : Bool) (start stop quarter : Nat) (fin : Int) : (n : Nat) → (mem : Nat) → (sbs : Int) → Res (List Int)
  | 0, _, _ => .ok []
  | n + 1, mem, sbs => do
    let j ← advance off (min (sbs + quarter) fin) 64 1
    let j := align high (3 - n) start stop mem j
    let e ← off j
    let t := max 2 (min ((e : Int) - sbs) (fin - sbs))
    if sbs + t = fin then .ok [t]
    else do
      let l ← tileLoop off high start stop quarter fin n (if high then mem else j) (sbs + t)
      .ok (t :: l)

/-- `ia_core_coder_igf_get_num_tiles`, ia_core_coder_igf_dec.c 760-822: the widths of the tiles; their number is the length of the list. -/
def tileWidths (g : Grid) (high : Bool) (off : Nat → Res Nat) : Res (List Int) := do
  let bgn ← off g.start
  let fin ← off g.stop
  let range := max 8 ((fin : Int) - bgn)
  if g.least < bgn ∧ bgn < fin then tileLoop off high g.start g.stop (range.toNat / 4) fin 4 g.start bgn
  else .ok []

/-- The set up of the grid of long windows, ia_core_coder_igf_dec.c 2207-2223, 2248-2249 and 2253-2261. -/
def setupLong (b : Fd.Bands) (c : Config) (ccfl rate : Nat) : Res Grid := do
  let s := startLong b.long.length c.startIndex
  let e := stopLong b.long.length s c.stopIndex
  let m ← least 0 ccfl rate
  let g : Grid := ⟨s.toNat, e.toNat, 0, m⟩
  let t ← tileWidths g c.highRes (offset b.long 0)
  .ok { g with tiles := t.length }

/-- The set up of the grid of short windows, ia_core_coder_igf_dec.c 2225-2246, 2250-2251, 2253-2257 and 2262-2264. -/
def setupShort (b : Fd.Bands) (c : Config) (ccfl rate : Nat) : Res Grid := do
  let s := startLong b.long.length c.startIndex
  let e := stopLong b.long.length s c.stopIndex
  let so ← offset b.long 0 s.toNat
  let eo ← offset b.long 0 e.toNat
  let m ← least 1 ccfl rate
  let g : Grid := ⟨((shortBand b.short (so / 8)) % 256).toNat, ((shortBand b.short (eo / 8)) % 256).toNat, 0, m⟩
  let t ← tileWidths g c.highRes (offset b.short 0)
  .ok { g with tiles := t.length }

/-- `ia_core_coder_igf_init`, ia_core_coder_igf_dec.c 2171-2278: the four grids; grids 2 and 3 are those of short windows with their own
smallest lines (2266-2272).  The resets of 2274-2276 are in `Memory.init`. -/
def setup (b : Fd.Bands) (c : Config) (ccfl rate : Nat) : Res (List Grid) := do
  let g0 ← setupLong b c ccfl rate
  let g1 ← setupShort b c ccfl rate
  let m2 ← least 2 ccfl rate
  let m3 ← least 3 ccfl rate
  .ok [g0, g1, { g1 with least := m2 }, { g1 with least := m3 }]

/-! ## Source lines -/

/-- `ia_core_coder_igf_get_tile_idx`, ia_core_coder_igf_dec.c 726-741. -/
def tileIdx (tb : Int) : (sum : Int) → (tiles : List Int) → Nat
  | _, [] => 0
  | sum, t :: l => if tb < sum + t then 0 else tileIdx tb (sum + t) l + 1

/-- The loop of ia_core_coder_igf_dec.c 851-863: the distance of the source; `sel` are the tile numbers.  The float expression is exact
up to the cast, which rounds towards 0. -/
def distance (bgn tb : Int) : (sbs : Int) → (tiles : List Int) → (sel : List Nat) → Int
  | sbs, t :: ts, s :: ss =>
    if sbs ≤ tb ∧ tb < sbs + t then
      let d := ((5 - (s : Int)) * t + 2 * (sbs - bgn)).tdiv 2
      d + d.tmod 2
    else distance bgn tb (sbs + t) ts ss
  | _, _, _ => 0

/-- `ia_core_coder_igf_get_sb`, ia_core_coder_igf_dec.c 839-871. -/
def source (least bgn tb : Int) (tiles : List Int) (sel : List Nat) : Int :=
  if 0 < bgn - least then
    let sb := tb - distance bgn tb bgn tiles sel
    if sb < least then least + tb.tmod (bgn - least) else sb
  else tb

/-- The lines of the input read by `ia_core_coder_igf_apply_whitening` for one tile, ia_core_coder_igf_dec.c 935-941 and 978-983: those around each
line from `least` to 4 below `bgn`, and the last three. -/
def whiteningReads (least bgn : Int) : List Int :=
  ((List.range (bgn - 3 - least).toNat).flatMap fun (k : Nat) => (List.range 7).map fun (j : Nat) => least + (k : Int) - 3 + (j : Int)) ++
    (List.range (bgn - max least (bgn - 3)).toNat).map fun (k : Nat) => max least (bgn - 3) + (k : Int)

/-! ## Coded levels -/

/-- `ia_core_coder_igf_quant_ctx`, ia_core_coder_igf_dec.c 112-126, with `CTX_OFFSET`. -/
def ctx (d : Int) : Nat := (3 + (if 3 < d then 3 else if d < -3 then -3 else d)).toNat

/-- The state while levels are decoded: the registers of the arithmetic decoder and the bit count. -/
structure Coder where
  st : Arith.St
  bc : Int
  deriving DecidableEq, Repr

/-- One symbol: with `INVALID_BIT_COUNT` (-1) the value keeps what was there, ia_core_coder_igf_dec.c 151-152 and 182-183. -/
def symbol (tbl : List Nat) (old : Int) (c : Coder) : Prog (Int × Coder) := do
  let r ← Arith.decode tbl tbl.length c.st c.bc
  match r with
  | none => pure (old, { c with bc := -1 })
  | some (v, s, bc) => pure ((v : Int), ⟨s, bc⟩)

/-- The loop of `ia_core_coder_igf_arith_decode_bits`, ia_core_coder_igf_dec.c 149-154. -/
def bitsLoop : (n : Nat) → (old acc : Int) → Coder → Prog (Int × Coder)
  | 0, _, acc, c => pure (acc, c)
  | n + 1, old, acc, c => do
    let r ← symbol cfBit old c
    bitsLoop n r.1 (acc + r.1 * 2 ^ n) r.2

/-- `ia_core_coder_igf_arith_decode_bits`, ia_core_coder_igf_dec.c 142-156. -/
def arithBits (n : Nat) (c : Coder) : Prog (Int × Coder) := bitsLoop n 0 0 c

/-- `ia_core_coder_igf_arith_decode_residual`, ia_core_coder_igf_dec.c 173-212, with `MIN_ENC_SEPARATE` -12, `MAX_ENC_SEPARATE` 12. -/
def residual (tbl : List Nat) (off : Int) (c : Coder) : Prog (Int × Coder) := do
  let r ← symbol tbl 0 c
  if r.1 ≠ 26 ∧ r.1 ≠ 0 then pure (r.1 - 1 - 12 - off, r.2)
  else do
    let e ← arithBits 4 r.2
    let x ← (if e.1 = 15 then do
        let f ← arithBits 7 e.2
        pure (15 + f.1, f.2)
      else pure e)
    if r.1 = 0 then pure (-13 - x.1 - off, x.2) else pure (13 + x.1 - off, x.2)

/-- The table, its offset and the prediction of value `k` of a row, ia_core_coder_igf_dec.c 254-307: `t` is the time index, `prev` the row before
(from the first band), `prevD` the first value of the row before that, `cur` the values of this row decoded so far (every `inc`-th band),
`inc` the step.  `none` for the first value of the first row, which is coded directly. -/
def model (t : Nat) (prev : Nat → Int) (prevD : Int) (inc : Nat) (cur : List Int) : Option (List Nat × Int × Int) :=
  let k := cur.length
  let c1 := cur.getD (k - 1) 0
  if t = 0 then
    if k = 1 then some (se01, 2, c1)
    else if k = 0 then none
    else
      let x := ctx (c1 - cur.getD (k - 2) 0)
      some (se02.getD x [], off02.getD x 0, c1)
  else if k = 0 then
    if t ≠ 1 then
      let x := ctx (prev 0 - prevD)
      some (se20.getD x [], off20.getD x 0, prev 0)
    else some (se10, -4, prev 0)
  else
    let p := prev (k * inc)
    let q := prev ((k - 1) * inc)
    let x := ctx (c1 - q)
    let y := ctx (p - q)
    some ((se11.getD x []).getD y [], (off11.getD x []).getD y 0, p + c1 - q)

/-- The loop of `ia_core_coder_igf_arith_decode`, ia_core_coder_igf_dec.c 252-315, `n` more coded values; the copies into the bands between
(308-314) are made by `spread`.  Overflow is checked for the value, not for the terms of its prediction. -/
def rowLoop (t : Nat) (prev : Nat → Int) (prevD : Int) (inc : Nat) : (n : Nat) → (cur : List Int) → Coder → Prog (List Int × Coder)
  | 0, cur, c => pure (cur, c)
  | n + 1, cur, c => do
    let r ← (match model t prev prevD inc cur with
      | none => arithBits 7 c
      | some (tbl, off, pred) => do
        let r ← residual tbl off c
        let v ← w32 (pred + r.1)
        pure (v, r.2))
    rowLoop t prev prevD inc n (cur ++ [r.1]) r.2

/-- ia_core_coder_igf_dec.c 308-314: each coded value stands for `inc` bands, the last one for what is left of `len`. -/
def spread (inc len : Nat) (cur : List Int) : List Int := (List.range len).map fun i => cur.getD (i / inc) 0

/-- `ia_usac_igf_envelope_struct` (what is kept of it) and `prev_win_type`, ia_core_coder_igf_data_struct.h 72-86. -/
structure Levels where
  time : Nat
  prevD : Int
  prev : Nat → Int
  winType : Nat

/-- ia_core_coder_igf_dec.c 247-250: the step. -/
def step (c : Config) (winType : Nat) : Nat := if winType = 0 ∧ c.highRes = false then 2 else 1

/-- One round of the loop in ia_core_coder_igf_dec.c 1979-1997 without the multiplication and the power (see `level`). -/
def oneWindow (inc start len : Nat) (m : Levels) (c : Coder) : Prog (List Int × Levels × Coder) := do
  let r ← rowLoop m.time (fun i => m.prev (start + i)) m.prevD inc ((len + inc - 1) / inc) [] c
  let row := spread inc len r.1
  pure (row, { m with
    time := m.time + 1
    prevD := m.prev start
    prev := fun i => if start ≤ i ∧ i < start + len then row.getD (i - start) 0 else m.prev i }, r.2)

/-- The loop of ia_core_coder_igf_dec.c 1979-1997. -/
def windows (inc start len : Nat) : (n : Nat) → Levels → Coder → Prog (List (List Int) × Levels × Coder)
  | 0, m, c => pure ([], m, c)
  | n + 1, m, c => do
    let r ← oneWindow inc start len m c
    let s ← windows inc start len n r.2.1 r.2.2
    pure (r.1 :: s.1, s.2)

/-- ia_core_coder_igf_dec.c 1945-1959: forget the levels of frames before. -/
def Levels.reset (m : Levels) (all : Bool) (indep : Bool) (winType : Nat) : Levels :=
  if all ∨ indep ∨ winType ≠ m.winType then { m with time := 0, prevD := 0, prev := fun _ => 0 } else m

/-- The exponent of a level, ia_core_coder_igf_dec.c 1940-1943, 1970-1977 and 1991-1994: the level is 2 to the power of a quarter of it. -/
def exponent (c : Config) (winType : Nat) (q : Int) : Int :=
  q * (if c.highRes ∨ 1 < winType then 1 else 2) - (if 1 < winType then 40 else 0)

/-- The part of `ia_core_coder_get_igf_levels` that decodes from a copy of the buffer, ia_core_coder_igf_dec.c 1967-1997. -/
def coded (inc start len n : Nat) (m : Levels) : Prog (List (List Int) × Levels × Coder) := do
  let s ← firstSymbol
  windows inc start len n m ⟨s, 16⟩

/-- ia_core_coder_igf_dec.c 2004-2028: the levels must not be all 0 and the range must not be empty or start at or below the smallest line;
`low` is `flag_swb_offset`. -/
def checkLevels (start stop : Nat) (low : Bool) (rows : List (List Int)) : Bool :=
  !(decide (start = stop) || rows.all (fun r => r.all fun q => decide (q = 0)) || low)

/-- What follows the decoding, ia_core_coder_igf_dec.c 2001-2030, with the error of the callers (ia_core_coder_spectrum_dec.c 736-739). -/
def accept (g : Grid) (o winType : Nat) (r : List (List Int) × Levels × Coder) : Res (Option (List (List Int)) × Levels) :=
  if checkLevels g.start g.stop (decide (o ≤ g.least)) r.1 then .ok (some r.1, { r.2.1 with winType := winType })
  else .err (.other 0xFFFF9021)

/-- The shift of ia_core_coder_igf_dec.c 89-93. -/
def shiftOf (winType : Nat) : Nat := if winType = 2 ∨ winType = 3 then winType else 0

/-- `ia_core_coder_get_igf_levels`, ia_core_coder_igf_dec.c 1901-2031, on the list of remaining bits: the levels are decoded from a copy of the
buffer, then the bits counted, less 14, are skipped (1967 and 1998).  `tbl` are the band ends of `pstr_usac_winmap[igf_win_type]` (1921 and 1932),
see `tableOf`.  The result is `none` for `igf_all_zero`. -/
def levels (c : Config) (g : Grid) (tbl : List Nat) (winType groups : Nat) (indep : Bool) (m : Levels) (l : List Bool) :
    Res ((Option (List (List Int)) × Levels) × List Bool) := do
  let z ← run (bits 1) l
  let o ← offset tbl (shiftOf winType) g.start
  let m := m.reset (decide (z.1 = 1)) indep winType
  if z.1 = 1 then .ok ((none, { m with winType := winType }), z.2)
  else do
    let r ← run (coded (step c winType) g.start (g.stop - g.start) groups m) z.2
    let b ← run (drop (r.1.2.2.bc - 14)) z.2
    let x ← accept g o winType r.1
    .ok (x, b.2)

/-- The same with the pointers. -/
def levelsC (c : Config) (g : Grid) (tbl : List Nat) (winType groups : Nat) (indep : Bool) (m : Levels) (s : BitBuf) :
    Res ((Option (List (List Int)) × Levels) × BitBuf) := do
  let z ← runC (bits 1) s
  let o ← offset tbl (shiftOf winType) g.start
  let m := m.reset (decide (z.1 = 1)) indep winType
  if z.1 = 1 then .ok ((none, { m with winType := winType }), z.2)
  else do
    let r ← runC (coded (step c winType) g.start (g.stop - g.start) groups m) z.2
    let b ← runC (drop (r.1.2.2.bc - 14)) z.2
    let x ← accept g o winType r.1
    .ok (x, b.2)

/-- The band ends in `pstr_usac_winmap[igf_win_type]`, ia_core_coder_igf_dec.c 1921 with ia_core_coder_create.c 275-279: the index is a window
sequence (0 long, 1 long start, 2 eight short, 3 long stop), the argument a type of gap filling. -/
def tableOf (b : Fd.Bands) (winType : Nat) : List Nat := if winType = 2 then b.short else b.long

/-! ## Data of tiles -/

/-- `ia_usac_igf_mem_struct` and the data of the frame, ia_core_coder_igf_data_struct.h 63-77. -/
structure Memory where
  prevTiles : List Nat
  prevWhite : List Nat
  tiles : List Nat
  white : List Nat
  isTnf : Nat
  deriving DecidableEq, Repr

/-- `ia_core_coder_igf_reset_data`, ia_core_coder_igf_dec.c 668-691. -/
def Memory.init : Memory := ⟨[3, 3, 3, 3], [0, 0, 0, 0], [3, 3, 3, 3], [0, 0, 0, 0], 0⟩

/-- `ia_core_coder_igf_decode_whitening_level`, ia_core_coder_igf_dec.c 618-639. -/
def whiteLevel : Prog Nat := do
  let a ← bits 1
  if a = 1 then do
    let b ← bits 1
    if b = 1 then pure 2 else pure 1
  else pure 0

/-- The loops of ia_core_coder_igf_dec.c 2076-2080 and 2122-2126. -/
def repeatP {α : Type} (p : Prog α) : (n : Nat) → Prog (List α)
  | 0 => pure []
  | n + 1 => do
    let a ← p
    let l ← repeatP p n
    pure (a :: l)

/-- ia_core_coder_igf_dec.c 2115-2135: the levels of whitening of `n` tiles.  The first is read even if there are no tiles; with
one tile or none, entry 0 is the one read. -/
def whiteLevels (n : Nat) : Prog (List Nat) := do
  let a ← whiteLevel
  let d ← bits 1
  if d = 1 then do
    let l ← repeatP whiteLevel (n - 1)
    pure (a :: l ++ List.replicate (4 - (1 + (n - 1))) 0)
  else pure (a :: List.replicate (n - 1) a ++ List.replicate (4 - (1 + (n - 1))) 0)

/-- `ia_core_coder_get_igf_data`, ia_core_coder_igf_dec.c 2048-2153. -/
def data (c : Config) (n winType : Nat) (indep : Bool) (m : Memory) : Prog Memory := do
  let usePrev ← (if indep then pure 0 else bits 1)
  let tiles ← (if usePrev = 0 then repeatP (bits 2) n else pure (m.prevTiles.take n))
  let tiles := tiles ++ List.replicate (4 - n) 3
  let white ← (if c.whitening ∧ winType ≠ 1 then do
      let usePrev ← (if indep then pure 0 else bits 1)
      if usePrev = 0 then whiteLevels n
      else pure (m.prevWhite.take n ++ List.replicate (4 - n) 0)
    else pure [0, 0, 0, 0])
  let tnf ← (if c.tnf ∧ winType ≠ 1 then bits 1 else pure m.isTnf)
  pure ⟨tiles, white, tiles, white, tnf⟩

end Verif.Igf
