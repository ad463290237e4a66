import Verif.Model.Prog

/-! # C loops and tables in parser programs -/

namespace Verif

/-- Conversion to `WORD8` (two's complement, as gcc and clang define it). -/
def toI8 (x : Int) : Int := (x + 128) % 256 - 128
/-- Conversion to `WORD16`. -/
def toI16 (x : Int) : Int := (x + 32768) % 65536 - 32768
/-- Conversion to `WORD32`. -/
def toI32 (x : Int) : Int := (x + 2147483648) % 4294967296 - 2147483648
/-- Conversion to `UWORD8`. -/
def toU8 (x : Int) : Int := x % 256

namespace Prog

/-- `for (i = i0; i < i0 + k; i++)` with a loop state. -/
def foldN {σ : Type} (f : Nat → σ → Prog σ) : (k i : Nat) → σ → Prog σ
  | 0, _, s => pure s
  | k + 1, i, s => do
    let s' ← f i s
    foldN f k (i + 1) s'

/-- `for (i = i0; i < i0 + k; i++)` filling an array from index `i0` on. -/
def forN {α : Type} (f : Nat → Prog α) : (k i : Nat) → Prog (List α)
  | 0, _ => pure []
  | k + 1, i => do
    let a ← f i
    let as ← forN f k (i + 1)
    pure (a :: as)

/-- Access to element `i` of an array with `cap` elements; outside it is undefined. -/
def inTable (i : Int) (cap : Nat) : Prog Unit :=
  if 0 ≤ i ∧ i < cap then pure () else undef

/-- `tbl[i] = v` -/
def setAt {α : Type} (tbl : List α) (i : Nat) (v : α) : Prog (List α) :=
  if i < tbl.length then pure (tbl.set i v) else undef

/-- `tbl[i]` -/
def getAt {α : Type} (tbl : List α) (i : Nat) : Prog α :=
  match tbl[i]? with
  | some v => pure v
  | none => undef

/-- `if (flag) field = read(n)`: the field is 0 when it is not sent. -/
def optBits (c : Bool) (n : Nat) : Prog Nat := if c then bits n else pure 0

/-- `if (flag) field = read(n)`: the field keeps the value `old` when it is not sent. -/
def bitsOr (c : Bool) (n old : Nat) : Prog Nat := if c then bits n else pure old

/-- `if (c) p` -/
def when (c : Bool) (p : Prog Unit) : Prog Unit := if c then p else pure ()

end Prog
end Verif
