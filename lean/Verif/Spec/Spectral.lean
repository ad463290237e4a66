/-!
# The coding of spectra, as published

The context-adaptive coding of quantised spectra of ISO/IEC 23003-3, clause 7.4, written as an
*encoder*: a spectrum becomes a list of (frequency table, symbol) pairs for an arithmetic coder,
followed by one sign bit per coefficient that is not 0.  The tables are a parameter; nothing here
refers to the decoder's code.
-/

namespace Verif.Spectral

/-- The tables of the standard: the table of the most significant bits for a context, and the
three tables of the lower bits. -/
structure Tables where
  msb : Nat → List Nat
  lsb : Nat → List Nat

/-- The number of lower bit planes of a pair: the least one that leaves both values below 4. -/
def planes (a b : Nat) : Nat := max (Nat.log2 a) (Nat.log2 b) - 1

/-- What a pair contributes to the contexts of its neighbours. -/
def weight (a b : Nat) : Nat := min (a + b + 1) 15

/-- The running context of the pair after those with weights `cur`; `prev` are the weights of the
window before and `c` is the running context of the last pair. -/
def running (prev cur : List Nat) (c : Nat) : Nat :=
  (c / 16 + prev.getD (cur.length + 1) 0 * 4096) / 16 * 16 + cur.getD (cur.length - 1) 0

/-- The context used: it has an extra mark when the last three pairs are small. -/
def used (cur : List Nat) (c : Nat) : Nat :=
  if 3 < cur.length ∧ cur.getD (cur.length - 1) 0 + cur.getD (cur.length - 2) 0 +
      cur.getD (cur.length - 3) 0 < 5 then c + 65536 else c

/-- The table for the most significant bits after `lev` escapes. -/
def msbAt (T : Tables) (ctx lev : Nat) : List Nat := T.msb (ctx + min lev 7 * 131072)

/-- `k` escapes, beginning at escape number `lev`. -/
def escapes (T : Tables) (ctx : Nat) : (lev k : Nat) → List (List Nat × Nat)
  | _, 0 => []
  | lev, k + 1 => (msbAt T ctx lev, 16) :: escapes T ctx (lev + 1) k

/-- The `k` lowest bit planes, the highest of them first; the table depends on which values have
been 0 so far. -/
def lower (T : Tables) (a b : Nat) : (k : Nat) → List (List Nat × Nat)
  | 0 => []
  | k + 1 =>
    (T.lsb (if a / 2 ^ (k + 1) = 0 then 1 else if b / 2 ^ (k + 1) = 0 then 0 else 2),
      a / 2 ^ k % 2 + 2 * (b / 2 ^ k % 2)) :: lower T a b k

/-- The symbols of a pair. -/
def pair (T : Tables) (ctx a b : Nat) : List (List Nat × Nat) :=
  escapes T ctx 0 (planes a b) ++
    (msbAt T ctx (planes a b), a / 2 ^ planes a b + 4 * (b / 2 ^ planes a b)) ::
      lower T a b (planes a b)

/-- The mark after the last pair: an escape and a pair of zeros. -/
def stop (T : Tables) (ctx : Nat) : List (List Nat × Nat) :=
  [(msbAt T ctx 0, 16), (msbAt T ctx 1, 0)]

/-- The symbols of the pairs that follow those with weights `cur`, out of `n`; the stop mark
replaces the pairs that are left out. -/
def symbols (T : Tables) (n : Nat) (prev : List Nat) :
    List (Nat × Nat) → (cur : List Nat) → (c : Nat) → List (List Nat × Nat)
  | [], cur, c => if cur.length < n then stop T (used cur (running prev cur c)) else []
  | (a, b) :: ps, cur, c =>
    pair T (used cur (running prev cur c)) a b ++
      symbols T n prev ps (cur ++ [weight a b]) (running prev cur c)

/-- The symbols of a spectrum given as pairs of magnitudes; the rest of the `n` pairs is 0. -/
def spectrum (T : Tables) (n : Nat) (prev : List Nat) (ps : List (Nat × Nat)) :
    List (List Nat × Nat) :=
  symbols T n prev ps [] (prev.getD 0 0 * 4096)

/-- The sign bits: 1 for a positive coefficient, 0 for a negative one. -/
def signBits : List Int → List Bool
  | [] => []
  | v :: vs => if v = 0 then signBits vs else decide (0 < v) :: signBits vs

/-- The coefficients of pairs in order. -/
def flat {α : Type} : List (α × α) → List α
  | [] => []
  | (a, b) :: ps => a :: b :: flat ps

end Verif.Spectral
