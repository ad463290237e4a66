import Verif.Spec.Hoa

/-!
# How the channels of a frame of higher order ambisonics are coded

What a frame says about its channels (ISO/IEC 23008-3, 12.3) as bits.  A frame that depends on the one before leaves out what it can take over.  Only the
records of the model are used.
-/

namespace Verif.Hoa

/-- How the vector of a channel is coded: the number of bits of its elements, codebook and number of entries, or prediction and choice of tables. -/
structure VecHead where
  nbits : Nat
  book : Nat
  num : Nat
  pred : Nat
  sub : Nat

/-- What a channel is used for. -/
inductive Use where
  | direction (id : Nat)
  /-- whether the vector is new, for vectors without sent coefficients -/
  | vector (fresh : Nat) (head : VecHead)
  /-- the state, 0 for sent, 1 for fading in and 2 for fading out, and the coefficient, from 1 on -/
  | ambience (state coeff : Nat)
  | empty

/-- The number of a use in the bits. -/
def Use.kind : Use → Nat
  | .direction _ => 0
  | .vector .. => 1
  | .ambience .. => 2
  | .empty => 3

/-- The gain of a channel: the exponent of the frame before, the coded change and the flag of an exception. -/
structure GainHead where
  prevExp : Int
  coded : Nat
  exc : Nat

/-- What is known about a channel from before. -/
structure Past where
  /-- what the channel was used for in the frame before -/
  kind : Nat
  state : Nat
  coeff : Nat
  fresh : Nat
  /-- what was stored last -/
  head : VecHead
  /-- what was used in the frame before -/
  before : VecHead

/-- The bits behind the number of bits of the elements of a vector. -/
def HeadCode (c : Config) (indep : Bool) (old v : VecHead) (b : List Bool) : Prop :=
  if v.nbits = 4 then
    v.book < 8 ∧ 1 ≤ v.num ∧ v.num ≤ 2 ^ c.vqBits ∧ v.pred = old.pred ∧ v.sub = old.sub ∧ b = natBits 3 v.book ++ natBits c.vqBits (v.num - 1)
  else if v.nbits = 5 then v.book = old.book ∧ v.num = old.num ∧ v.pred = old.pred ∧ v.sub = old.sub ∧ b = []
  else v.book = old.book ∧ v.num = old.num ∧ v.sub < 2 ∧
    if indep then v.pred = 0 ∧ b = natBits 1 v.sub else v.pred < 2 ∧ b = natBits 1 v.pred ++ natBits 1 v.sub

/-- A vector. -/
def VectorCode (c : Config) (indep : Bool) (p : Past) (fresh : Nat) (v : VecHead) (b : List Bool) : Prop :=
  if indep then
    ∃ r, 4 ≤ v.nbits ∧ v.nbits < 16 ∧ HeadCode c true p.head v r ∧
      if c.vecKind = 1 then fresh < 2 ∧ b = natBits 1 fresh ++ natBits 4 v.nbits ++ r else fresh = p.fresh ∧ b = natBits 4 v.nbits ++ r
  else
    fresh = (if c.vecKind = 1 ∧ p.kind ≠ 1 then 1 else p.fresh) ∧
      ((v = p.before ∧ b = [false, false]) ∨ ∃ r, 4 ≤ v.nbits ∧ v.nbits < 16 ∧ HeadCode c false p.head v r ∧ b = natBits 4 v.nbits ++ r)

/-- A coefficient of the ambience; `n` of them can be sent, from the one behind the smallest ambience on.  Frames that depend on the one before say whether the
state changes: what was sent or faded in is faded out, and behind that a new one is faded in. -/
def AmbienceCode (c : Config) (indep : Bool) (p : Past) (state coeff : Nat) (b : List Bool) : Prop :=
  let n := c.max1 ^ 2 - c.amb1 ^ 2
  if indep then
    state < 3 ∧ c.amb1 ^ 2 < coeff ∧ coeff ≤ c.amb1 ^ 2 + n ∧ b = natBits 2 state ++ natBits (Nat.clog 2 n) (coeff - 1 - c.amb1 ^ 2)
  else
    (state = 0 ∧ coeff = p.coeff ∧ b = [false]) ∨ (p.state ≤ 1 ∧ state = 2 ∧ coeff = p.coeff ∧ b = [true]) ∨
      (2 ≤ p.state ∧ state = 1 ∧ c.amb1 ^ 2 < coeff ∧ coeff ≤ c.amb1 ^ 2 + 2 ^ Nat.clog 2 n ∧
        b = true :: natBits (Nat.clog 2 n) (coeff - 1 - c.amb1 ^ 2))

/-- The use of a channel. -/
def UseCode (c : Config) (indep : Bool) (p : Past) : Use → List Bool → Prop
  | .direction id, b => id ≤ 900 ∧ b = natBits 10 id
  | .vector fresh v, b => VectorCode c indep p fresh v b
  | .ambience t k, b => AmbienceCode c indep p t k b
  | .empty, b => b = []

/-- The gain of a channel, whose change is coded by zeros up to a one. -/
def GainCode (c : Config) (indep : Bool) (g : GainHead) (b : List Bool) : Prop :=
  ∃ r, 1 ≤ g.coded ∧ g.exc < 2 ∧ b = r ++ List.replicate (g.coded - 1) false ++ [true] ++ natBits 1 g.exc ∧
    if indep then ∃ e : Nat, e < 2 ^ c.expBits ∧ g.prevExp = (e : Int) - c.expBias ∧ r = natBits c.expBits e else g.prevExp = 0 ∧ r = []

/-- A coded channel: its use, its gain and the bits of both. -/
structure Chan where
  use : Use
  gain : GainHead
  useBits : List Bool
  gainBits : List Bool

/-- The bits of a channel. -/
def Chan.code (x : Chan) : List Bool := natBits 2 x.use.kind ++ x.useBits ++ x.gainBits

/-- The channels from `i` on whose use is of a kind, numbered from 1 on. -/
def ofKind (kind : Nat) (x : Nat → Chan) (i n : Nat) : List Nat := ((List.range' i n).filter fun j => (x j).use.kind = kind).map (· + 1)

end Verif.Hoa
