import Mathlib.Data.Rat.Defs
import Mathlib.Algebra.Order.Ring.Rat
import Verif.Spec.Avq
import Verif.Spec.Bits

/-! # Linear prediction domain frames: what is coded and what it stands for -/

namespace Verif.Lpd

open Avq (IsCode extension baseNumber)

/-! ## Codebook numbers -/

/-- `k` ones and a zero. -/
def unaryBits (k : Nat) : List Bool := List.replicate k true ++ [false]

/-- The three ways to code codebook numbers: in unary, or with two bits for the numbers 2, 3 and 4 and an extension for the
others, which is either like the unary code or gives the shortest extensions to 5 and 6. -/
inductive Kind where
  | unary
  | zeroFirst
  | fiveFirst
  deriving DecidableEq, Repr

/-- The first two bits of a codebook number with extension. -/
def headBits (q : Nat) : List Bool := natBits 2 (if 2 ≤ q ∧ q ≤ 4 then q - 2 else 3)

/-- The number of ones of a codebook number. -/
def count : Kind → Nat → Nat
  | .unary, q => q - 1
  | .zeroFirst, q => q - 4
  | .fiveFirst, q => if q = 5 then 0 else if q = 6 then 1 else if q = 0 then 2 else q - 4

/-- The extension of a codebook number. -/
def tailBits (kind : Kind) (q : Nat) : List Bool := if 2 ≤ q ∧ q ≤ 4 then [] else unaryBits (count kind q)

/-- Two codebook numbers. -/
def numberBits : Kind → Nat → Nat → List Bool
  | .unary, a, b => unaryBits (count .unary a) ++ unaryBits (count .unary b)
  | kind, a, b => headBits a ++ headBits b ++ tailBits kind a ++ tailBits kind b

/-! ## Points -/

/-- A codebook number, an index and eight Voronoi indices. -/
structure Code where
  q : Nat
  index : Nat
  voronoi : List Nat
  deriving DecidableEq, Repr

/-- The indices of the code are in range, the number is not 1, and no field has more than 24 bits. -/
def Code.Valid (c : Code) : Prop := IsCode c.q c.index (c.voronoi.map Int.ofNat) ∧ c.q ≠ 1 ∧ c.q ≤ 52

/-- The indices of a code. -/
def Code.bits (c : Code) : List Bool :=
  natBits (4 * baseNumber c.q) c.index ++ c.voronoi.flatMap (natBits (extension c.q))

/-! ## Filters -/

/-- A filter: how it is coded, the row of the tables, and the codes of its vector. -/
structure Coded where
  mode : Nat
  first : Nat
  a : Code
  b : Code
  deriving DecidableEq, Repr

/-- The bits for the mode of a filter. -/
def modeBits : Nat → Nat → List Bool
  | 0, m | 2, m => [m == 1]
  | 1, m => if m = 2 then [false] else [true, m == 1]
  | 3, m => if m = 1 then [false] else if m = 0 then [true, false] else [true, true, m == 3]
  | _, _ => []

/-- The number of modes of a filter. -/
def modeCount : Nat → Nat
  | 0 | 2 => 2
  | 1 => 3
  | 3 => 4
  | _ => 1

/-- How the codebook numbers of a filter are coded. -/
def kind (full : Bool) : Nat → Nat → Kind
  | 1, 2 => if full then .fiveFirst else .zeroFirst
  | 3, 1 => .unary
  | 3, 2 | 3, 3 => .zeroFirst
  | _, _ => .fiveFirst

/-- Filter 1 of mode 1 is the average of its neighbours and has no vector. -/
def hasVector (set mode : Nat) : Bool := !(set == 1 && mode == 1)

/-- What a coded filter must satisfy. -/
structure Coded.Valid (set : Nat) (f : Coded) : Prop where
  mode : f.mode < modeCount set
  first : f.first < 256
  a : f.a.Valid
  b : f.b.Valid

/-- The bits of a filter. -/
def Coded.bits (full : Bool) (set : Nat) (f : Coded) : List Bool :=
  modeBits set f.mode ++ (if f.mode = 0 then natBits 8 f.first else []) ++
    (if hasVector set f.mode then numberBits (kind full set f.mode) f.a.q f.b.q ++ f.a.bits ++ f.b.bits else [])

/-- Which filters are sent: the last, the one before the frame if it is the first, the middle one unless the frame is one part
or a full band frame, and those in the middle of a half which has two parts. -/
def sent (first full : Bool) (mod : Nat → Nat) : Nat → Bool
  | 4 => true
  | 0 => first
  | 2 => !full && decide (mod 0 < 3)
  | 1 => decide (mod 0 < 2)
  | 3 => !full && decide (mod 2 < 2)
  | _ => false

/-- The bits of all filters. -/
def filterBits (first full : Bool) (mod : Nat → Nat) (fs : Nat → Coded) : List Bool :=
  [4, 0, 2, 1, 3].flatMap fun i => if sent first full mod i then (fs i).bits full i else []

/-- The entries stored for a code. -/
def Code.words (c : Code) : List Int := if c.q = 0 then [] else (c.index : Int) :: c.voronoi.map Int.ofNat

/-- The entries stored for a vector. -/
def vecWords (a b : Code) : List Int := [(a.q : Int), (b.q : Int)] ++ a.words ++ b.words

/-- The entries stored for a filter. -/
def Coded.words (set : Nat) (f : Coded) : List Int :=
  (if set = 4 then [] else [(f.mode : Int)]) ++ (if f.mode = 0 then [(f.first : Int)] else []) ++
    (if hasVector set f.mode then vecWords f.a f.b else [])

/-! ## Line spectral frequencies -/

/-- Sixteen frequencies, the first at least 50 and each at least 50 above the one before. -/
def Separated (y : List Rat) : Prop :=
  y.length = 16 ∧ 50 ≤ y.getD 0 0 ∧ ∀ i < 15, y.getD i 0 + 50 ≤ y.getD (i + 1) 0

/-- `y` are the least separated frequencies that are not below `t`, where `t` asks for anything. -/
def Least (t : Nat → Option Rat) (y : List Rat) : Prop :=
  let above := fun z : List Rat => ∀ i < 16, ∀ x, t i = some x → x ≤ z.getD i 0
  Separated y ∧ above y ∧ ∀ z, Separated z → above z → ∀ i < 16, y.getD i 0 ≤ z.getD i 0

/-- The distance of frequency `i` from the one before, with 0 before the first and 6400 after the last. -/
def distance (x : List Rat) (i : Nat) : Rat :=
  (if i = 16 then 6400 else x.getD i 0) - (if i = 0 then 0 else x.getD (i - 1) 0)

/-- Frequencies `x` moved by the vector `v`, each in proportion to the geometric mean of its two distances. -/
def moved (root : Rat → Rat) (f : Rat) (x : List Rat) (v : List Int) (i : Nat) : Option Rat :=
  let p := distance x i * distance x (i + 1)
  if 0 ≤ p then some (x.getD i 0 + f / 400 * root p * (v.getD i 0 : Int)) else none

/-- The mean of two rows. -/
def Mean (a b y : List Rat) : Prop := y.length = 16 ∧ ∀ i < 16, 2 * y.getD i 0 = a.getD i 0 + b.getD i 0

/-- Row `set` of `row` is what filter `f` with the vector `v` stands for; `start` and `weight` are the tables, and `last` is the
number of the row of the last filter. -/
def Stands (root : Rat → Rat) (start weight : Nat → Nat → Rat) (last : Nat) (row : Nat → List Rat) (f : Coded) (v : List Int) :
    Nat → Prop
  | 4 => Least (fun i => some (start f.first i + weight f.first i * (v.getD i 0 : Int))) (row last)
  | 0 =>
    if f.mode = 0 then Least (fun i => some (start f.first i + weight f.first i * (v.getD i 0 : Int))) (row 0)
    else Least (moved root 63 (row last) v) (row 0)
  | 2 =>
    if f.mode = 0 then Least (fun i => some (start f.first i + weight f.first i * (v.getD i 0 : Int))) (row 2)
    else Least (moved root 63 (row last) v) (row 2)
  | 1 =>
    if f.mode = 0 then Least (fun i => some (start f.first i + weight f.first i * (v.getD i 0 : Int))) (row 1)
    else if f.mode = 1 then Mean (row 0) (row 2) (row 1)
    else Least (moved root 64 (row 2) v) (row 1)
  | 3 =>
    if f.mode = 0 then Least (fun i => some (start f.first i + weight f.first i * (v.getD i 0 : Int))) (row 3)
    else if f.mode = 1 then ∃ m, Mean (row 2) (row last) m ∧ Least (moved root 65 m v) (row 3)
    else if f.mode = 2 then Least (moved root 64 (row 2) v) (row 3)
    else Least (moved root 64 (row last) v) (row 3)
  | _ => True

/-! ## Parts of a frame -/

/-- A half of a frame: two parts, of which each is transform coded or not, or one transform coded part. -/
inductive Half where
  | two (a b : Bool)
  | one
  deriving DecidableEq, Repr

/-- A frame: a full band frame is a half, others are two halves or one transform coded part. -/
inductive Division where
  | full (h : Half)
  | halves (h h' : Half)
  | whole
  deriving DecidableEq, Repr

/-- Whether it is a full band frame. -/
def Division.isFull : Division → Bool
  | .full _ => true
  | _ => false

/-- The modes of the parts of a half. -/
def Half.modes : Half → List Nat
  | .two a b => [a.toNat, b.toNat]
  | .one => [2]

/-- The modes of the parts. -/
def Division.modes : Division → List Nat
  | .full h => h.modes
  | .halves h h' => h.modes ++ h'.modes
  | .whole => [3]

/-- The number of quarters of a part. -/
def span (mode : Nat) : Nat := if mode = 3 then 4 else if mode = 2 then 2 else 1

/-- Where the parts start, and their modes. -/
def pieces : Nat → List Nat → List (Nat × Nat)
  | _, [] => []
  | k, m :: ms => (k, m) :: pieces (k + span m) ms

/-- The quarters of the frame have the modes of the parts which contain them. -/
def Agrees (mod : Nat → Nat) (d : Division) : Prop :=
  ∀ p ∈ pieces 0 d.modes, ∀ k, p.1 ≤ k → k < p.1 + span p.2 → mod k = p.2

/-- The parts with the rows at their starts and ends; row `k` is that at the end of quarter `k`. -/
def follow (row : Nat → List Rat) (ps : List (Nat × Nat)) : List (Nat × Nat × List Rat × List Rat) :=
  ps.map fun p => (p.1, p.2, row p.1, row (p.1 + span p.2))

/-- The number of a half of two parts. -/
def Half.number : Half → Nat
  | .two a b => a.toNat + 2 * b.toNat
  | .one => 4

/-- The number by which a division is coded. -/
def Division.number : Division → Nat
  | .full h => h.number
  | .halves (.two a b) (.two c d) => a.toNat + 2 * b.toNat + 4 * c.toNat + 8 * d.toNat
  | .halves .one (.two c d) => 16 + c.toNat + 2 * d.toNat
  | .halves (.two a b) .one => 20 + a.toNat + 2 * b.toNat
  | .halves .one .one => 24
  | .whole => 25

end Verif.Lpd
