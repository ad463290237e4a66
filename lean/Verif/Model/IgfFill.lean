import Verif.Model.Igf
import Mathlib.Algebra.Order.Field.Basic

/-!
# Gap filling of one channel

The spectrum of each window of a group and its copies are functions of the line; single precision is replaced by exact numbers of an ordered
field with a square root.  The windows are kept apart: the code holds them one after the other in one buffer.  Whitening of the copies, which comes
first, is not modelled here: the copies are those after it.  The spectrum kept for the envelope filter (1339-1343, 1392-1400) is not modelled.
-/

namespace Verif.Igf

variable {α : Type} [Field α] [LinearOrder α]

/-- What gap filling of a window type uses: the bands, the least line, the widths and numbers of the tiles, the levels of whitening and the coded
levels of the groups; the arguments of ia_core_coder_igf_dec.c 1083-1088 and 1321-1327. -/
structure Gap (α : Type) where
  winType : Nat
  grid : Grid
  highRes : Bool
  whitening : Bool
  off : Nat → Nat
  tiles : List Int
  sel : List Nat
  white : List Nat
  level : Nat → Nat → α

/-- One window: its lines and the copies, by tile and line (`ptr_coef` and `ptr_igf_input_spec`, ia_core_coder_igf_dec.c 2528-2529). -/
structure Win (α : Type) where
  coef : Nat → α
  copy : Nat → Int → α

/-- `ia_core_coder_igf_get_random_sign`, ia_core_coder_igf_dec.c 882-895. -/
def sign (seed : Nat) : α × Nat :=
  let s := (seed * 69069 + 5) % 4294967296
  (if 0 < s &&& 65536 then -1 else 1, s)

/-- ia_core_coder_igf_dec.c 1102-1105 and 1347-1350. -/
def Gap.step (g : Gap α) : Nat := if g.highRes ∨ 1 ≤ g.winType then 1 else 2

/-- The bands visited by the loops of ia_core_coder_igf_dec.c 1107 and 1352. -/
def Gap.bands (g : Gap α) : List Nat :=
  (List.range ((g.grid.stop - g.grid.start + g.step - 1) / g.step)).map fun k => g.grid.start + g.step * k

/-- ia_core_coder_igf_dec.c 1109-1110 and 1354-1355. -/
def Gap.width (g : Gap α) (b : Nat) : Nat := g.off (min (b + g.step) g.grid.stop) - g.off b

/-- ia_core_coder_igf_dec.c 1129-1130 and 1375-1376: the tile of a line. -/
def Gap.tile (g : Gap α) (j : Nat) : Nat := tileIdx (j : Int) (g.off g.grid.start : Int) g.tiles

/-- ia_core_coder_igf_dec.c 1129-1133 and 1375-1379: the copied line. -/
def Gap.copied (g : Gap α) (w : Win α) (j : Nat) : α :=
  w.copy (g.tile j) (source (g.grid.least : Int) (g.off g.grid.start : Int) (j : Int) g.tiles g.sel)

/-- ia_core_coder_igf_dec.c 1135-1136 and 1385-1386. -/
def Gap.noisy (g : Gap α) (j : Nat) : Bool := decide (g.winType ≠ 1) && g.whitening && decide (g.white.getD (g.tile j) 0 = 2)

/-- ia_core_coder_igf_dec.c 1129-1140 and 1375-1390: the value for an empty line and the next seed. -/
def Gap.value (g : Gap α) (w : Win α) (j seed : Nat) : α × Nat :=
  if g.noisy j then
    let r : α × Nat := sign seed
    (r.1 * 2097152, r.2)
  else (g.copied w j, seed)

/-- ia_core_coder_igf_dec.c 1113-1117. -/
def codedSum (w : Win α) : (n : Nat) → (j : Nat) → α → α
  | 0, _, e => e
  | n + 1, j, e => codedSum w n (j + 1) (e + w.coef j * w.coef j)

/-- ia_core_coder_igf_dec.c 1125-1143. -/
def filledSum (g : Gap α) (w : Win α) : (n : Nat) → (j : Nat) → α × Nat → α × Nat
  | 0, _, s => s
  | n + 1, j, s =>
    filledSum g w n (j + 1) (if w.coef j = 0 then
      let r := g.value w j s.2
      (s.1 + r.1 * r.1, r.2)
    else s)

/-- `igf_sn_float` and `igf_pn_float` by band, and the seed (ia_core_coder_igf_dec.c 1002-1015, 2508). -/
structure Sums (α : Type) where
  sn : Nat → α
  pn : Nat → α
  seed : Nat

/-- The body of the loop of `ia_core_coder_igf_calc_mono`, ia_core_coder_igf_dec.c 1109-1144. -/
def calcBand (g : Gap α) (w : Win α) (s : Sums α) (b : Nat) : Sums α :=
  let r := filledSum g w (g.width b) (g.off b) (0, s.seed)
  ⟨fun x => if x = b then s.sn x + codedSum w (g.width b) (g.off b) 0 else s.sn x, fun x => if x = b then s.pn x + r.1 else s.pn x, r.2⟩

/-- `ia_core_coder_igf_calc_mono`, ia_core_coder_igf_dec.c 1083-1146. -/
def calcMono (g : Gap α) (s : Sums α) (w : Win α) : Sums α := g.bands.foldl (calcBand g w) s

/-- `ia_core_coder_igf_norm`, ia_core_coder_igf_dec.c 1002-1015, for the bands it visits. -/
def norm (g : Gap α) (n : Nat) (s : Sums α) : Sums α :=
  ⟨fun x => if g.grid.start ≤ x ∧ x < g.grid.stop then s.sn x / (n : α) else s.sn x,
    fun x => if g.grid.start ≤ x ∧ x < g.grid.stop then s.pn x / (n : α) else s.pn x, s.seed⟩

/-- ia_core_coder_igf_dec.c 1056-1059. -/
def scaleLines (f : α) : (n : Nat) → (j : Nat) → (Nat → α) → Nat → α
  | 0, _, c => c
  | n + 1, j, c => scaleLines f n (j + 1) (fun x => if x = j then c j * f else c x)

/-- `ia_core_coder_igf_rescale`, ia_core_coder_igf_dec.c 1031-1062. -/
def rescale (g : Gap α) (grp : Nat) (c : Nat → α) : Nat → α :=
  if 1 < g.winType then g.bands.foldl (fun c b => scaleLines (g.level grp b) (g.width b) (g.off b) c) c else c

/-- ia_core_coder_igf_dec.c 1357-1369: the gain of a band. -/
def gain (root : α → α) (g : Gap α) (grp : Nat) (s : Sums α) (b : Nat) : α :=
  let mn := g.level grp b * g.level grp b * (g.width b : α) - s.sn b
  if 0 < mn ∧ 0 < s.pn b then min (root (mn / s.pn b)) 10 else 0

/-- ia_core_coder_igf_dec.c 1373-1406. -/
def fillLines (g : Gap α) (w : Win α) (gn : α) : (n : Nat) → (j : Nat) → (Nat → α) × Nat → (Nat → α) × Nat
  | 0, _, s => s
  | n + 1, j, s =>
    fillLines g w gn n (j + 1) (if s.1 j = 0 then
      let r := g.value w j s.2
      (fun x => if x = j then gn * r.1 else s.1 x, r.2)
    else s)

/-- `ia_core_coder_igf_apply_mono`, ia_core_coder_igf_dec.c 1321-1408. -/
def applyMono (root : α → α) (g : Gap α) (grp : Nat) (s : Sums α) (w : Win α) (seed : Nat) : (Nat → α) × Nat :=
  g.bands.foldl (fun c b => fillLines g w (gain root g grp s b) (g.width b) (g.off b) c) (rescale g grp w.coef, seed)

/-- ia_core_coder_igf_dec.c 2536-2543. -/
def applyAll (root : α → α) (g : Gap α) (grp : Nat) (s : Sums α) : List (Win α) → Nat → List (Nat → α) × Nat
  | [], seed => ([], seed)
  | w :: ws, seed =>
    let r := applyMono root g grp s w seed
    let q := applyAll root g grp s ws r.2
    (r.1 :: q.1, q.2)

/-- One group, ia_core_coder_igf_dec.c 2522-2543: the windows and the two seeds. -/
def group (root : α → α) (g : Gap α) (grp : Nat) (ws : List (Win α)) (seeds : Nat × Nat) : List (Nat → α) × (Nat × Nat) :=
  let s := ws.foldl (calcMono g) ⟨fun _ => 0, fun _ => 0, seeds.1⟩
  let r := applyAll root g grp (norm g ws.length s) ws seeds.2
  (r.1, (s.seed, r.2))

/-- The loop over groups, ia_core_coder_igf_dec.c 2520-2544. -/
def groups (root : α → α) (g : Gap α) : (grp : Nat) → List (List (Win α)) → Nat × Nat → List (List (Nat → α)) × (Nat × Nat)
  | _, [], seeds => ([], seeds)
  | grp, ws :: l, seeds =>
    let r := group root g grp ws seeds
    let q := groups root g (grp + 1) l r.2
    (r.1 :: q.1, q.2)

/-- `ia_core_coder_igf_mono`, ia_core_coder_igf_dec.c 2479-2547, after whitening: the spectra and the seed kept. -/
def mono (root : α → α) (g : Gap α) (allZero : Bool) (l : List (List (Win α))) (seed : Nat) : List (List (Nat → α)) × Nat :=
  if allZero then (l.map fun ws => ws.map Win.coef, seed)
  else
    let r := groups root g 0 l (seed, seed)
    (r.1, r.2.1)

end Verif.Igf
