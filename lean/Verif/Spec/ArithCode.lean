/-!
# Arithmetic coding, as published

The integer arithmetic coder of Witten, Neal and Cleary with 16-bit registers and 14-bit
cumulative frequencies in descending order, written as an *encoder*; nothing here refers to the
decoder's code.
-/

namespace Verif.ArithCode

/-- A frequency table: at least two symbols, cumulative frequencies strictly decreasing from
below `2 ^ 14` down to 0. -/
structure FreqTable (tbl : List Nat) : Prop where
  two : 2 ≤ tbl.length
  dec : ∀ i, i + 1 < tbl.length → tbl.getD (i + 1) 0 < tbl.getD i 0
  first : tbl.getD 0 0 < 16384
  last : tbl.getD (tbl.length - 1) 0 = 0

/-- Encoder registers; `pending` counts the straddle bits not yet written. -/
structure Enc where
  low : Int
  high : Int
  pending : Nat
  deriving DecidableEq, Repr

/-- The encoder's initial state. -/
def Enc.start : Enc := ⟨0, 65535, 0⟩

/-- Write a bit and the pending opposite bits. -/
def emit (b : Bool) (pending : Nat) : List Bool := b :: List.replicate pending (!b)

/-- Narrow the interval to that of a symbol. -/
def narrow (tbl : List Nat) (e : Enc) (sym : Nat) : Enc :=
  let range := e.high - e.low + 1
  { e with
    low := e.low + range * (tbl.getD sym 0 : Nat) / 16384
    high := if sym = 0 then e.high else e.low + range * (tbl.getD (sym - 1) 0 : Nat) / 16384 - 1 }

/-- Renormalise: write the bits that are settled (at most 16 of them). -/
def renormalise : Nat → Enc → List Bool × Enc
  | 0, e => ([], e)
  | k + 1, e =>
    if e.high < 32768 then
      let r := renormalise k ⟨2 * e.low, 2 * e.high + 1, 0⟩
      (emit false e.pending ++ r.1, r.2)
    else if 32768 ≤ e.low then
      let r := renormalise k ⟨2 * (e.low - 32768), 2 * (e.high - 32768) + 1, 0⟩
      (emit true e.pending ++ r.1, r.2)
    else if 16384 ≤ e.low ∧ e.high < 49152 then
      renormalise k ⟨2 * (e.low - 16384), 2 * (e.high - 16384) + 1, e.pending + 1⟩
    else ([], e)

/-- Finish: two more bits select a quarter inside the interval. -/
def flush (e : Enc) : List Bool :=
  if e.low < 16384 then emit false (e.pending + 1) else emit true (e.pending + 1)

/-- Encode a sequence of (table, symbol) pairs. -/
def encode (e : Enc) : List (List Nat × Nat) → List Bool
  | [] => flush e
  | (tbl, sym) :: rest =>
    let r := renormalise 16 (narrow tbl e sym)
    r.1 ++ encode r.2 rest

/-- Linear search of a sorted list of thresholds: the position of the first one that is not
smaller than `c` (the length of the list if there is none). -/
def firstGE (c : Nat) : List Nat → Nat
  | [] => 0
  | h :: t => if c ≤ h then 0 else firstGE c t + 1

end Verif.ArithCode
