import Verif.Model.Fd
import Verif.Model.IgfTables
import Verif.Spec.Bits

/-!
# Gap filling: what the lines, tiles and coded levels should be
-/

namespace Verif.Igf

/-- The ends of bands counted from 1, as a function: increasing multiples of 4. -/
structure Ends (f : Nat → Nat) (n : Nat) : Prop where
  up : ∀ i j, 1 ≤ i → i < j → j ≤ n → f i < f j
  four : ∀ j, 1 ≤ j → j ≤ n → f j % 4 = 0

/-- The tiles `l` cut the lines of the bands `start` to `stop` at ends of bands into one to four pieces. -/
def Cuts (f : Nat → Nat) (start stop : Nat) (l : List Int) : Prop :=
  1 ≤ l.length ∧ l.length ≤ 4 ∧ (∀ t ∈ l, 4 ≤ t) ∧
  (∀ k, k ≤ l.length → ∃ j, start ≤ j ∧ j ≤ stop ∧ (f start : Int) + (l.take k).sum = f j) ∧
  (f start : Int) + l.sum = f stop

/-- The smallest line copied: the first even line at or above 1125 Hz, rounded down to a whole line first; `len` lines
cover half the sampling rate. -/
def leastLine (len rate : Nat) : Nat := 2 * ((len * 1125 / (rate / 2) + 1) / 2)

/-- The number of lines of a window of each type. -/
def lineCount (winType : Nat) : Nat := if winType = 1 then 128 else if winType = 2 then 512 else 1024

/-! ## Coded levels

The levels of a channel form a matrix: `x t f` is level `f` of window `t`, counted from the last reset.  Each is coded as a list of
symbols, each with its frequency table. -/

/-- A number of `n` bits, one symbol for each, the highest first. -/
def rawBits : (n v : Nat) → List (List Nat × Nat)
  | 0, _ => []
  | n + 1, v => (cfBit, v / 2 ^ n % 2) :: rawBits n v

/-- A difference: 25 values around 0 have their own symbols, the rest an escape with the amount in 4 or 11 bits. -/
def residualCode (tbl : List Nat) (r : Int) : List (List Nat × Nat) :=
  if r.natAbs ≤ 12 then [(tbl, (r + 13).toNat)]
  else (tbl, if r < 0 then 0 else 26) ::
    (if r.natAbs < 28 then rawBits 4 (r.natAbs - 13) else rawBits 4 15 ++ rawBits 7 (r.natAbs - 28))

/-- The context of a difference: limited to ±3, counted from 0. -/
def near (d : Int) : Nat := (max (-3) (min 3 d) + 3).toNat

/-- The table and the difference coded for a level other than the first. -/
def differenceOf (x : Nat → Nat → Int) : (t f : Nat) → List Nat × Int
  | 0, 0 => ([], 0)
  | 0, 1 => (se01, x 0 1 - x 0 0 + 2)
  | 0, f + 2 =>
    let c := near (x 0 (f + 1) - x 0 f)
    (se02.getD c [], x 0 (f + 2) - x 0 (f + 1) + off02.getD c 0)
  | 1, 0 => (se10, x 1 0 - x 0 0 - 4)
  | t + 2, 0 =>
    let c := near (x (t + 1) 0 - x t 0)
    (se20.getD c [], x (t + 2) 0 - x (t + 1) 0 + off20.getD c 0)
  | t + 1, f + 1 =>
    let a := near (x (t + 1) f - x t f)
    let b := near (x t (f + 1) - x t f)
    ((se11.getD a []).getD b [], x (t + 1) (f + 1) - (x t (f + 1) + x (t + 1) f - x t f) + (off11.getD a []).getD b 0)

/-- The symbols of a level. -/
def levelCode (x : Nat → Nat → Int) (t f : Nat) : List (List Nat × Nat) :=
  if t = 0 ∧ f = 0 then rawBits 7 (x 0 0).toNat
  else residualCode (differenceOf x t f).1 (differenceOf x t f).2

/-- A level that has a code. -/
def Codable (x : Nat → Nat → Int) (t f : Nat) : Prop :=
  (x t f).natAbs < 2 ^ 30 ∧ if t = 0 ∧ f = 0 then 0 ≤ x 0 0 ∧ x 0 0 < 128 else (differenceOf x t f).2.natAbs < 28 + 128

/-- The symbols of `n` levels of window `t` from level `f`. -/
def rowCode (x : Nat → Nat → Int) (t : Nat) : (n f : Nat) → List (List Nat × Nat)
  | 0, _ => []
  | n + 1, f => levelCode x t f ++ rowCode x t n (f + 1)

/-- The symbols of `w` windows of `n` levels from window `t`. -/
def frameCode (x : Nat → Nat → Int) (n : Nat) : (w t : Nat) → List (List Nat × Nat)
  | 0, _ => []
  | w + 1, t => rowCode x t n 0 ++ frameCode x n w (t + 1)

/-- The levels of window `t` by band: each coded level stands for `inc` bands. -/
def bandLevels (x : Nat → Nat → Int) (inc len t : Nat) : List Int := (List.range len).map fun i => x t (i / inc)

/-! ## Data of tiles -/

/-- Numbers of `n` tiles: a flag (not in a frame that can be decoded alone) says that those of the frame before are kept; otherwise 2 bits each.
Tiles that are not there have the number 3. -/
def TileCode (n : Nat) (indep : Bool) (old tiles : List Nat) (b : List Bool) : Prop :=
  (indep = false ∧ tiles = old.take n ++ List.replicate (4 - n) 3 ∧ b = [true]) ∨
  ∃ ts : List Nat, ts.length = n ∧ (∀ t ∈ ts, t < 4) ∧ tiles = ts ++ List.replicate (4 - n) 3 ∧
    b = (if indep then [] else [false]) ++ ts.flatMap (natBits 2)

/-- A level of whitening: 0, 10, 11. -/
def whiteBits (w : Nat) : List Bool := if w = 0 then [false] else if w = 1 then [true, false] else [true, true]

/-- Levels of whitening of `n` tiles: kept, or the first one and a flag, with which the others follow and without which they are the same.
Tiles that are not there have the level 0. -/
def WhiteCode (n : Nat) (indep : Bool) (old white : List Nat) (b : List Bool) : Prop :=
  (indep = false ∧ white = old.take n ++ List.replicate (4 - n) 0 ∧ b = [true]) ∨
  (∃ w, w ≤ 2 ∧ white = List.replicate n w ++ List.replicate (4 - n) 0 ∧ b = (if indep then [] else [false]) ++ whiteBits w ++ [false]) ∨
  ∃ ws : List Nat, ws.length = n ∧ (∀ w ∈ ws, w ≤ 2) ∧ white = ws ++ List.replicate (4 - n) 0 ∧
    b = (if indep then [] else [false]) ++ whiteBits (ws.getD 0 0) ++ [true] ++ (ws.drop 1).flatMap whiteBits

end Verif.Igf
