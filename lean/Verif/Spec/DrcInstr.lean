import Mathlib.Algebra.Order.Ring.Rat
import Verif.Model.Prog

/-! # The code of DRC instructions

Written from the syntax of `drcInstructionsUniDrc()` (ISO/IEC 23003-4) as the low complexity profile of MPEG-H
restricts it, together with what MPEG-H puts in front of it. -/

namespace Verif.Spec.Drc

/-- What an instruction is for. -/
inductive Target where
  | whole
  | group (id : Nat)
  | preset (id : Nat)

def Target.bits : Target → List Bool
  | whole => [false]
  | preset p => true :: true :: natBits 5 p
  | group g => true :: false :: natBits 7 g

def Target.Valid : Target → Prop
  | whole => True
  | preset p => p < 32
  | group g => g < 128

/-- With which other set an instruction is used. -/
inductive Use where
  | alone (never : Bool)
  | after (id : Nat)

/-- The part of an instruction before the channels.  `more` are the downmix identifiers after the first one,
`peak` the code of the limiter's target, `range` the codes of the target loudness (upper and lower end). -/
structure Head where
  setId : Nat
  loc : Nat
  dmx : Nat
  more : Option (List Nat)
  effect : Nat
  peak : Option Nat
  range : Option (Nat × Option Nat)
  use : Use

/-- The effect types that duck. -/
def ducks (effect : Nat) : Bool := effect.testBit 10 || effect.testBit 11

/-- An optional field: a flag, and the field if the flag is set. -/
def opt {α : Type} (f : α → List Bool) : Option α → List Bool
  | none => [false]
  | some a => true :: f a

def Head.bits (h : Head) : List Bool :=
  natBits 6 h.setId ++ natBits 4 h.loc ++ natBits 7 h.dmx ++
    opt (fun xs => natBits 3 xs.length ++ xs.flatMap (natBits 7)) h.more ++ natBits 16 h.effect ++
    (if ducks h.effect then [] else opt (natBits 8) h.peak) ++
    opt (fun r : Nat × Option Nat => natBits 6 r.1 ++ opt (natBits 6) r.2) h.range ++
    (match h.use with
      | .alone never => [false, never]
      | .after id => true :: natBits 6 id)

structure Head.Valid (h : Head) : Prop where
  setId : h.setId < 32
  loc : h.loc < 16
  dmx : h.dmx < 128
  more : ∀ xs ∈ h.more, xs.length < 8 ∧ ∀ x ∈ xs, x < 128
  effect : h.effect < 2 ^ 16
  peak : ∀ v ∈ h.peak, v < 256
  range : ∀ r ∈ h.range, r.1 < 64 ∧ ∀ v ∈ r.2, v < 64
  use : match h.use with
    | .alone _ => True
    | .after id => id < 64 ∧ h.dmx ≠ 0

/-- The downmix identifiers. -/
def Head.ids (h : Head) : List Nat := h.dmx :: h.more.getD []

/-- Channels in a row with the same gain set (0: none), and how many more of them there are than one. -/
structure Run where
  set : Nat
  more : Option Nat

def Run.bits (r : Run) : List Bool := natBits 6 r.set ++ opt (natBits 5) r.more
def Run.Valid (r : Run) : Prop := r.set ≤ 24 ∧ ∀ n ∈ r.more, n < 32

/-- How many channels a flag and a repetition count stand for. -/
def spread (more : Option Nat) : Nat := match more with
  | none => 1
  | some n => n + 2

/-- The gain set of every channel, -1 for none. -/
def indices (rs : List Run) : List Int := rs.flatMap fun r => List.replicate (spread r.more) (r.set - 1 : Int)

/-- A change of a gain curve: factors for attenuation and amplification in 1/8, and an offset in 1/4 dB. -/
structure Mod where
  scale : Option (Nat × Nat)
  shift : Option (Bool × Nat)

def Mod.bits (m : Mod) : List Bool :=
  opt (fun s : Nat × Nat => natBits 4 s.1 ++ natBits 4 s.2) m.scale ++ opt (fun o : Bool × Nat => o.1 :: natBits 5 o.2) m.shift
def Mod.Valid (m : Mod) : Prop := (∀ s ∈ m.scale, s.1 < 16 ∧ s.2 < 16) ∧ ∀ o ∈ m.shift, o.2 < 32

def Mod.attenuation (m : Mod) : Rat := match m.scale with
  | none => 1
  | some s => s.1 / 8
def Mod.amplification (m : Mod) : Rat := match m.scale with
  | none => 1
  | some s => s.2 / 8
def Mod.offset (m : Mod) : Rat := match m.shift with
  | none => 0
  | some (neg, v) => if neg then -((v + 1) / 4) else (v + 1) / 4

/-- Channels in a row that are ducked in the same way: the factor is 1 changed by a number of 1/8. -/
structure DuckRun where
  set : Nat
  change : Option (Bool × Nat)
  more : Option Nat

def DuckRun.bits (r : DuckRun) : List Bool :=
  natBits 6 r.set ++ opt (fun o : Bool × Nat => o.1 :: natBits 3 o.2) r.change ++ opt (natBits 5) r.more
def DuckRun.Valid (r : DuckRun) : Prop := r.set ≤ 24 ∧ (∀ o ∈ r.change, o.2 < 8) ∧ ∀ n ∈ r.more, n < 32

def DuckRun.factor (r : DuckRun) : Rat := match r.change with
  | none => 1
  | some (neg, v) => if neg then 1 - (v + 1) / 8 else 1 + (v + 1) / 8

/-- Gain set and factor of every channel. -/
def ducked (rs : List DuckRun) : List (Int × Rat) :=
  rs.flatMap fun r => List.replicate (spread r.more) ((r.set - 1 : Int), r.factor)

end Verif.Spec.Drc
