import Mathlib.Algebra.Order.Ring.Rat
import Verif.Spec.Bits

/-! # Loudness information as it is published (ISO/IEC 23003-4 and 23008-3) -/

namespace Verif.Spec.Loud

/-- A measurement: the method, the code of its value, the measurement system and the reliability. -/
structure Meas where
  meth : Nat
  code : Nat
  system : Nat
  reliability : Nat

/-- Bits of the code of a value. -/
def width (meth : Nat) : Nat := if meth = 7 then 5 else if meth = 8 then 2 else 8

/-- The value of a code: loudness in steps of 1/4 dB from -57.75 on, a loudness range with three step sizes,
a mixing level from 80 on, a room type, a short-term loudness in steps of 1/2 from -116 on. -/
def value (meth code : Nat) : Rat :=
  if meth = 6 then
    if code ≤ 128 then code / 4 else if code ≤ 204 then 32 + (code - 128 : Rat) / 2 else 70 + (code - 204 : Rat)
  else if meth = 7 then 80 + code
  else if meth = 8 then code
  else if meth = 9 then (code - 232 : Rat) / 2
  else (code - 231 : Rat) / 4

/-- The measurement is one the standard defines. -/
def Meas.Valid (m : Meas) : Prop := m.meth ≤ 9 ∧ m.code < 2 ^ width m.meth ∧ m.system ≤ 11 ∧ m.reliability < 4

/-- The bits of a measurement. -/
def Meas.bits (m : Meas) : List Bool :=
  natBits 4 m.meth ++ natBits (width m.meth) m.code ++ natBits 4 m.system ++ natBits 2 m.reliability

/-- A loudness information without its kind. -/
structure Info where
  setId : Nat
  dmxId : Nat
  sample : Option Nat
  truePeak : Option (Nat × Nat × Nat)
  meas : List Meas

/-- What an information is about. -/
inductive Kind where
  | whole
  | group (id : Nat)
  | groupInPreset (id : Nat)
  | preset (id : Nat)

/-- The bits of a peak level. -/
def sampleBits : Option Nat → List Bool
  | none => [false]
  | some v => true :: natBits 12 v

/-- The bits of a true peak level: the code of the level, the measurement system and the reliability. -/
def trueBits : Option (Nat × Nat × Nat) → List Bool
  | none => [false]
  | some (v, s, r) => true :: (natBits 12 v ++ natBits 4 s ++ natBits 2 r)

/-- The bits of an information. -/
def Info.bits (i : Info) : List Bool :=
  natBits 6 i.setId ++ natBits 7 i.dmxId ++ sampleBits i.sample ++ trueBits i.truePeak ++
    natBits 4 i.meas.length ++ i.meas.flatMap Meas.bits

/-- The fields of the information fit. -/
def Info.Valid (i : Info) : Prop :=
  i.setId < 64 ∧ i.dmxId < 128 ∧ (∀ v ∈ i.sample, v < 4096) ∧
    (∀ x ∈ i.truePeak, x.1 < 4096 ∧ x.2.1 < 16 ∧ x.2.2 < 4) ∧ i.meas.length < 16 ∧ ∀ m ∈ i.meas, m.Valid

/-- The number of a kind. -/
def Kind.num : Kind → Nat
  | whole => 0
  | group _ => 1
  | groupInPreset _ => 2
  | preset _ => 3

/-- The bits of a kind. -/
def Kind.bits : Kind → List Bool
  | whole => natBits 2 0
  | group g => natBits 2 1 ++ natBits 7 g
  | groupInPreset g => natBits 2 2 ++ natBits 7 g
  | preset p => natBits 2 3 ++ natBits 5 p

/-- The identifier of a kind fits. -/
def Kind.Valid : Kind → Prop
  | whole => True
  | group g => g < 128
  | groupInPreset g => g < 128
  | preset p => p < 32

/-- The level of a peak code in dB; there is none for code 0. -/
def level (v : Nat) : Option Rat := if v = 0 then none else some (20 - v / 32)

/-- An extension: its type, how many bits more than 4 its size takes, and its data. -/
structure Ext where
  type : Nat
  width : Nat
  data : List Bool

/-- The extension has a type other than that which ends the list, and its size can be coded. -/
def Ext.Valid (e : Ext) : Prop := 1 ≤ e.type ∧ e.type < 16 ∧ e.width < 16 ∧ 1 ≤ e.data.length ∧ e.data.length ≤ 2 ^ (e.width + 4)

/-- The bits of at most one extension and what ends the list. -/
def extBits : Option Ext → List Bool
  | none => [false]
  | some e => true :: (natBits 4 e.type ++ natBits 4 e.width ++ natBits (e.width + 4) (e.data.length - 1) ++ e.data ++ natBits 4 0)

/-- The bits of a loudness information set: the entries of the programme and, if there are, those of the
album and an extension. -/
def setBits (xs : List (Kind × Info)) (album : Option (List Info)) (ext : Option Ext) : List Bool :=
  natBits 6 xs.length ++ xs.flatMap (fun x => x.1.bits ++ x.2.bits) ++
    (match album with
      | none => [false]
      | some ys => true :: (natBits 6 ys.length ++ ys.flatMap Info.bits)) ++ extBits ext

end Verif.Spec.Loud
