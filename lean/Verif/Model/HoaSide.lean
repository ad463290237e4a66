import Verif.Model.Hoa
import Mathlib.Algebra.Order.Field.Basic
import Mathlib.Algebra.BigOperators.Group.Finset.Basic

/-!
# Side information of frames of higher order ambisonics

What `impeghd_hoa_spatial_decode_frame_side_info` makes of a parsed frame, the gain of the transported channels and the channels that
the coefficients of the ambience are taken from.  Single precision is replaced by exact numbers of an ordered field.
-/

namespace Verif.Hoa

/-- `impeghd_hoa_get_exponents`, impeghd_hoa_spatial_decoder.c 240-248. -/
def exponent (coded : Nat) : Int := if coded = 1 then 0 else if coded = 2 then -1 else (coded : Int) - 2

/-- What is kept of the prediction of directional signals.  The matrices have a column for every coefficient and a row for every signal; they are
functions of the row and the column.  impeghd_hoa_frame_params.h 46, 59, 60. -/
structure Preds where
  kind : Nat → Nat
  ids : Nat → Nat → Nat
  facts : Nat → Nat → Nat

/-- The rows of one coefficient: impeghd_hoa_spatial_decoder.c 308-320.  `a` counts the signals and `b` the gains used before. -/
def predRows (s : Frame) (d : Nat) : (n row : Nat) → (p : Preds) → (a b : Nat) → Preds × Nat × Nat
  | 0, _, p, a, b => (p, a, b)
  | n + 1, row, p, a, b =>
    if s.predIds a ≠ 0 then
      predRows s d n (row + 1) { p with ids := upd2 p.ids row d (s.predIds a), facts := upd2 p.facts row d (s.gains b) } (a + 1) (b + 1)
    else predRows s d n (row + 1) { p with ids := upd2 p.ids row d (s.predIds a) } (a + 1) b

/-- All coefficients: impeghd_hoa_spatial_decoder.c 296-322. -/
def predColumns (c : Config) (s : Frame) : (n d : Nat) → (p : Preds) → (a b : Nat) → Preds
  | 0, _, p, _, _ => p
  | n + 1, d, p, a, b =>
    if s.active d = 0 then predColumns c s n (d + 1) { p with kind := upd p.kind d 0 } a b
    else
      let r := predRows s d c.predSigs 0 { p with kind := upd p.kind d 1 } a b
      predColumns c s n (d + 1) r.1 r.2.1 r.2.2

/-- impeghd_hoa_spatial_decoder.c 289-328. -/
def sidePreds (c : Config) (s : Frame) (p : Preds) : Preds :=
  if s.predOn ≠ 0 then predColumns c s c.coeffs 0 p 0 0 else { p with kind := fun d => if d < c.coeffs then 0 else p.kind d }

section Values

variable {α : Type} [Field α]

/-- The codebooks of vectors, as functions of the place in the array: impeghd_hoa_spatial_decoder_struct.h 94-96, the inverse mode matrix of the
order (impeghd_hoa_spatial_decoder.c 207) and the 256 rows of 8 weights (impeghd_hoa_rom.c 10016). -/
structure Books (α : Type) where
  grid : Nat → α
  cicp : Nat → α
  circle : Nat → α
  inv : Nat → α
  weight : Nat → α

/-- The number of elements of the inverse mode matrix of an order: impeghd_hoa_rom.c 10311-10676. -/
def invSize (order : Nat) : Nat := [1, 16, 81, 256, 800, 1296, 2401].getD order 0

/-- vec_start: impeghd_hoa_spatial_decoder.c 161-169. -/
def Config.start (c : Config) : Nat := if 0 < c.vecKind then c.minCoeffs else 0

/-- num_vec_elems: impeghd_hoa_spatial_decoder.c 171. -/
def Config.elems (c : Config) : Nat := c.coeffs - c.start

/-- The array of a codebook and the place where it starts, impeghd_hoa_spatial_decoder.c 376-429; the reserved ones stay with the grid, from
vec_start on. -/
def bookArray (c : Config) (b : Books α) (k : Nat) : (Nat → α) × Nat :=
  if k = 7 then (b.inv, 0) else if k = 3 then (b.circle, 0) else if k = 1 ∨ k = 2 then (b.cicp, 0) else if k = 0 then (b.grid, 0)
  else (b.grid, c.start)

/-- The elements of the array of a codebook. -/
def bookSize (c : Config) (k : Nat) : Nat :=
  if k = 7 then invSize c.order else if k = 3 then 64 * 49 else if k = 1 ∨ k = 2 then 34 * 49 else 900 * 49

/-- mat_offset: impeghd_hoa_spatial_decoder.c 373 and 386. -/
def bookStride (c : Config) (k : Nat) : Nat := if k = 7 then c.coeffs else 49

/-- Element `n` of a codebook, undefined outside of it. -/
def bookGet (c : Config) (b : Books α) (k : Nat) (n : Int) : Res α :=
  let a := bookArray c b k
  if 0 ≤ n + a.2 ∧ n + a.2 < (bookSize c k : Int) then .ok (a.1 (n + a.2).toNat) else .ub

/-- A loop over the elements of a vector. -/
def mapR {β : Type} (f : Nat → Res β) : (n i : Nat) → Res (List β)
  | 0, _ => .ok []
  | n + 1, i => do
    let a ← f i
    let l ← mapR f n (i + 1)
    pure (a :: l)

/-- `2 * sgn - 1` -/
def sign (g : Nat) : α := 2 * (g : α) - 1

/-- A vector of one entry of a codebook: impeghd_hoa_spatial_decoder.c 381 and 476-485. -/
def vqOne (c : Config) (b : Books α) (s : Frame) (ch : Nat) : Res (List α) :=
  mapR (fun e => do
    let v ← bookGet c b (s.book ch) ((bookStride c (s.book ch) : Int) * ((s.vvec 0 : Int) - 1) + (e : Int) + (c.start : Int))
    pure (v * sign (s.sgn ch 0))) c.elems 0

/-- The weight of entry `i` of the sum: impeghd_hoa_spatial_decoder.c 437-448. -/
def vqWeight (b : Books α) (s : Frame) (ch i : Nat) : α :=
  b.weight (s.weight ch * 8 + (if 8 ≤ i then i % 2 + 6 else i)) * sign (s.sgn ch i)

/-- The weighted sum of entries: impeghd_hoa_spatial_decoder.c 433-460. -/
def vqSum (c : Config) (b : Books α) (s : Frame) (ch : Nat) : (n i : Nat) → List α → Res (List α)
  | 0, _, acc => .ok acc
  | n + 1, i, acc => do
    let v : Int := ((s.vvec i : Int) - 1) * (bookStride c (s.book ch) : Int)
    if v < 0 ∨ (bookSize c (s.book ch) : Int) < v + ((c.coeffs : Int) - 1) then .err (.other 0xFFFF9200)
    else do
      let row ← mapR (fun e => bookGet c b (s.book ch) (v + (e : Int))) c.coeffs 0
      vqSum c b s ch n (i + 1) (List.zipWith (fun x y => x + y * vqWeight b s ch i) acc row)

/-- A vector of several entries: impeghd_hoa_spatial_decoder.c 432-474; `root` is the square root. -/
def vqMany (root : α → α) (c : Config) (b : Books α) (s : Frame) (ch : Nat) : Res (List α) := do
  let v ← vqSum c b s ch (s.num ch) 0 (List.replicate c.coeffs 0)
  let norm : α := if s.book ch = 2 then 1 else ((c.order : α) + 1) / root ((v.map (fun x => x * x)).sum)
  pure ((v.drop c.start).map (fun x => x * norm))

/-- The elements not sent are 0 with vectors of kind 1: impeghd_hoa_spatial_decoder.c 486-495. -/
def vqMask (c : Config) (s : Frame) (ch : Nat) (v : List α) : List α :=
  if c.vecKind = 1 then v.mapIdx (fun e x => if s.addInfo ch e = 0 then 0 else x) else v

/-- A vector of 8 bit words before it is scaled: impeghd_hoa_spatial_decoder.c 515-518. -/
def wordVector (c : Config) (s : Frame) (ch : Nat) : List α := (List.range c.elems).map (fun e => (s.word8 ch e : α) / 128 - 1)

/-- The nominator of an element coded with a Huffman table, without prediction: impeghd_hoa_spatial_decoder.c 534-544. -/
def huffNominator (s : Frame) (ch e : Nat) : α :=
  if s.huff ch e = 0 then 0
  else 2 ^ (16 - s.nbits ch) * (sign (s.sgn ch e) * (2 ^ (s.huff ch e - 1) + (s.addVal ch e : α)))

/-- Nominators kept of the frame before: old_nominators with their channels (from 1 on, none for -1). -/
structure Noms (α : Type) where
  index : Nat → Option Nat
  sig : Nat → Nat → α

/-- The first entry of the 16 for a channel: impeghd_hoa_spatial_decoder.c 547-552. -/
def Noms.find (o : Noms α) (ch1 : Nat) : Option Nat := (List.range 16).find? (fun i => decide (o.index i = some ch1))

/-- The nominators of a vector with Huffman coded elements: impeghd_hoa_spatial_decoder.c 532-559. -/
def huffVector (c : Config) (o : Noms α) (s : Frame) (ch : Nat) : List α :=
  (List.range c.elems).map (fun e =>
    huffNominator s ch e +
      (if s.pFlag ch ≠ 0 ∧ s.mask ch e ≠ 0 then (match o.find (ch + 1) with | some i => o.sig i e | none => 0) else 0))

/-- The decoded vector of a channel and its new nominators: impeghd_hoa_spatial_decoder.c 362-564.  `floor` is used by the nominators of codebook
vectors only.  The vector is that of the frame: elements of 8 bits and Huffman coded ones are scaled by the order plus 1. -/
def sideVector (root floor : α → α) (c : Config) (b : Books α) (o : Noms α) (s : Frame) (ch : Nat) : Res (List α × List α) :=
  if s.nbits ch = 4 then do
    let v ← (if s.num ch ≠ 1 then vqMany root c b s ch else vqOne c b s ch)
    let v := vqMask c s ch v
    pure (v, v.map (fun x => 2 * floor (2 ^ 14 / ((c.order : α) + 1) * x + 1 / 2)))
  else if s.nbits ch = 5 then
    .ok ((wordVector c s ch).map (fun x => ((c.order : α) + 1) * x), (wordVector c s ch).map (fun x => x * 2 ^ 15))
  else if 5 < s.nbits ch then
    .ok ((huffVector c o s ch).map (fun x => ((c.order : α) + 1) * (x / 2 ^ 15)), huffVector c o s ch)
  else .ok (List.replicate c.elems 0, List.replicate c.elems 0)

/-- The vectors of a frame (with their channels) and the new nominators: impeghd_hoa_spatial_decoder.c 356-368, 565-568.  The index of the
nominators is written at the number of the vector, the values at the channel. -/
def sideVectors (root floor : α → α) (c : Config) (b : Books α) (o : Noms α) (s : Frame) :
    (n ch : Nat) → (vs : List (Nat × List α)) → (new : Noms α) → Res (List (Nat × List α) × Noms α)
  | 0, _, vs, new => .ok (vs, new)
  | n + 1, ch, vs, new =>
    if s.ctype ch = 1 then
      if 16 ≤ ch then .ub
      else do
        let (v, w) ← sideVector root floor c b o s ch
        sideVectors root floor c b o s n (ch + 1) (vs ++ [(ch + 1, v)])
          ⟨upd new.index vs.length (some (ch + 1)), upd new.sig ch (fun e => w.getD e 0)⟩
    else sideVectors root floor c b o s n (ch + 1) vs new

/-- What becomes of the kept nominators: impeghd_hoa_spatial_decoder.c 612-621. -/
def keepNoms (c : Config) (o new : Noms α) : Noms α :=
  ⟨fun i => if i < 16 then new.index i else o.index i,
   fun i e => if i < 16 ∧ new.index i ≠ none ∧ e < c.elems then new.sig i e else o.sig i e⟩

/-- All vectors of a frame from the nominators kept before: impeghd_hoa_spatial_decoder.c 329-339, 356-568, 612-621. -/
def vectorsOf (root floor : α → α) (c : Config) (b : Books α) (o : Noms α) (s : Frame) : Res (List (Nat × List α) × Noms α) := do
  let (vs, new) ← sideVectors root floor c b o s c.extra 0 [] ⟨fun _ => none, fun _ _ => 0⟩
  pure (vs, keepNoms c o new)

/-! ## Gains of the transported channels -/

/-- The gains of one channel over a frame of `len` samples and the gain kept: `impeghd_hoa_inv_dyn_correction_process`,
impeghd_hoa_inverse_dyn_correction.c 86-135.  `table` is
`ia_hoa_inv_dyn_win_pow_table` with rows from 0 on, `win` the window function; powers of 2 are taken from tables of 64 values
(`impeghd_hoa_pow_2`, impeghd_hoa_common_functions.c 239-250). -/
def gains (table : Nat → Nat → α) (win : Nat → α) (len : Nat) (e : Int) (exception : Bool) (last : α) : Res ((Nat → α) × α) :=
  if e = 0 then .ok (fun _ => 1 / last, last)
  else if exception then
    if e.natAbs < 64 then .ok (fun _ => 2 ^ e * (1 / last), 2 ^ (-e) * last) else .ub
  else if 6 < e.natAbs then .ok (fun i => win i ^ e * (1 / last), last * win (len - 1) ^ e)
  else
    let row := (min (if e < 0 then (e.natAbs : Int) + 5 else e - 1) 6).toNat
    .ok (fun i => 1 / last * table row i, last / table row (len - 1))

/-- The gain that a channel starts a frame with, from the one kept: part of `impeghd_hoa_spatial_process`, impeghd_hoa_spatial_decoder.c 681-688. -/
def startGain (s : Frame) (ch : Nat) (last : α) : Res α :=
  if s.indep then (if (s.prevExp ch).natAbs < 64 then .ok (2 ^ s.prevExp ch) else .ub) else .ok last

end Values

/-! ## Coefficients of the ambience -/

/-- The assignment of coefficients (from 1 on, 0 for none) to the transported channels: impeghd_hoa_spatial_decoder.c 331-351 and 569-598. -/
def assign (c : Config) (s : Frame) (old : Nat → Nat) : Nat → Nat := fun ch =>
  if c.extra ≤ ch then (if ch < c.transport then ch - c.extra + 1 else old ch)
  else if s.ctype ch = 2 then (if s.trans ch ≠ 1 ∧ s.indep = false then old ch else s.ambIdx ch)
  else 0

/-- A channel for a coefficient with index 0 is an error: impeghd_hoa_spatial_decoder.c 571-573. -/
def assignOk (c : Config) (s : Frame) : Bool := (List.range c.extra).all (fun ch => decide (s.ctype ch = 2 → 1 ≤ s.ambIdx ch))

/-- The channels that the coefficients are taken from, none for -1: part of `impeghd_hoa_spatial_process`,
impeghd_hoa_spatial_decoder.c 690-699.  The array has 49 elements. -/
def reassign (a : Nat → Nat) : (n ch : Nat) → (Nat → Option Nat) → Res (Nat → Option Nat)
  | 0, _, f => .ok f
  | n + 1, ch, f =>
    if a ch = 0 then reassign a n (ch + 1) f
    else if 49 < a ch then .ub
    else reassign a n (ch + 1) (upd f (a ch - 1) (some ch))

/-- One pass of the sort: impeghd_hoa_spatial_decoder.c 111-123.  Entries that are -1 are none; a coefficient equal to the smallest so far is
struck out. -/
def pass : (src : List (Option Nat)) → (done : List (Option Nat)) → (best : Option (Nat × Nat)) → List (Option Nat) × Option (Nat × Nat)
  | [], done, best => (done.reverse, best)
  | none :: l, done, best => pass l (none :: done) best
  | some x :: l, done, best =>
    match best with
    | none => pass l (some x :: done) (some (done.length, x))
    | some (j, y) =>
      if x < y then pass l (some x :: done) (some (done.length, x))
      else if y = x then pass l (none :: done) (some (j, y))
      else pass l (some x :: done) (some (j, y))

/-- The rounds of the sort: impeghd_hoa_spatial_decoder.c 108-129. -/
def sortLoop : (n : Nat) → List (Option Nat) → List Nat
  | 0, _ => []
  | n + 1, src =>
    match pass src [] none with
    | (_, none) => []
    | (src', some (j, y)) => y :: sortLoop n (src'.set j none)

/-- `impeghd_hoa_spatial_sort_array_ascending`, impeghd_hoa_spatial_decoder.c 88-135, for a set of fewer coefficients than the array holds, all
below 0xFFFF: the entries of the result up to the first -1. -/
def sortSet (l : List Nat) : List Nat := sortLoop l.length (l.map some)

/-- The coefficients of channels in a given transition state in the order of the channels: impeghd_hoa_spatial_decoder.c 574-597. -/
def inState (c : Config) (s : Frame) (t : Nat) : List Nat :=
  ((List.range c.extra).filter (fun ch => decide (s.ctype ch = 2 ∧ s.trans ch = t))).map s.ambIdx

/-! ## Signals of the predominant sounds -/

/-- The directions of a frame with their channels (from 1 on): impeghd_hoa_spatial_decoder.c 600-607. -/
def directions (c : Config) (s : Frame) : List (Nat × Nat) :=
  ((List.range c.extra).filter (fun ch => decide (s.ctype ch = 0))).map (fun ch => (s.dirId ch, ch + 1))

/-- The set of the channels of predominant sounds: part of `impeghd_hoa_pre_dom_sound_syn_process`, impeghd_hoa_pre_dom_sound_syn.c 81-92.  The channels of vectors are written from index 0
on again. -/
def soundSet (dirs vecs : List Nat) : Nat → Nat := fun i =>
  if i < vecs.length then vecs.getD i 0 else dirs.getD i 0

end Verif.Hoa
