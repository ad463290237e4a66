import Verif.Spec.Bits

/-! # Coding of object metadata

How object metadata are written to a bit stream, as an encoder sees it. -/

namespace Verif.ObjMd

/-- A signed number of `n` bits in two's complement. -/
def twos (n : Nat) (v : Int) : List Bool := natBits n (v % 2 ^ n).toNat

/-- A number that can be written with `n` bits, signed and unsigned. -/
def FitsS (n : Nat) (v : Int) : Prop := -2 ^ (n - 1) ≤ v ∧ v < 2 ^ (n - 1)
def FitsU (n : Nat) (v : Int) : Prop := 0 ≤ v ∧ v < 2 ^ n

/-- The coded values of one object. -/
structure Vals where
  az : Int
  el : Int
  rad : Int
  gain : Int
  sw : Int
  sh : Int
  sd : Int
  pri : Int
  deriving DecidableEq

/-- The values are in the range of the code. -/
structure Vals.Fits (v : Vals) : Prop where
  az : FitsS 8 v.az
  el : FitsS 6 v.el
  rad : FitsU 4 v.rad
  gain : FitsS 7 v.gain
  sw : FitsU 7 v.sw
  sh : FitsU 5 v.sh
  sd : FitsU 4 v.sd
  pri : FitsU 3 v.pri

/-- The values of an object, written absolutely. -/
def absolute (uniform dynPriority : Bool) (v : Vals) : List Bool :=
  twos 8 v.az ++ (twos 6 v.el ++ (twos 4 v.rad ++ (twos 7 v.gain ++ (twos 7 v.sw ++
    ((if uniform then [] else twos 5 v.sh ++ twos 4 v.sd) ++
      (if dynPriority then twos 3 v.pri else []))))))

/-- The ways to write one parameter of several objects: the same for all and for all following
dynamic data, the same for all, one by one. -/
inductive Way (α : Type) where
  | fixed (v : α)
  | common (v : α)
  | each (vs : List α)

namespace Way
variable {α : Type}

def vals (n : Nat) : Way α → List α
  | fixed v => List.replicate n v
  | common v => List.replicate n v
  | each vs => vs

def isFixed : Way α → Bool
  | fixed _ => true
  | _ => false

/-- The bits after the flag that says whether the parameter is fixed. -/
def rest (enc : α → List Bool) : Way α → List Bool
  | fixed v => enc v
  | common v => true :: enc v
  | each vs => false :: vs.flatMap enc

/-- Everything written is in range and there is a value for each of `n` objects. -/
def Ok (P : α → Prop) (n : Nat) : Way α → Prop
  | fixed v => P v
  | common v => P v
  | each vs => vs.length = n ∧ ∀ v ∈ vs, P v

end Way

/-- `vals` written over `tbl` from index `start` on. -/
def writeAt {α : Type} (tbl : List α) (start : Nat) (vals : List α) : List α :=
  tbl.take start ++ vals ++ tbl.drop (start + vals.length)

/-- A difference, written with `nb` bits, or nothing. -/
def diffBits (nb : Nat) : Option Int → List Bool
  | none => [false]
  | some d => true :: twos nb d

end Verif.ObjMd
