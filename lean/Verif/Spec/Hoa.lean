import Verif.Spec.Bits
import Verif.Model.Hoa
import Mathlib.Data.Nat.Log

/-!
# What codes of higher order ambisonics say

The configuration of ISO/IEC 23008-3, 12.3, as bits; the number of bits of a field that takes `n` values is the smallest `w` with `2 ^ w ≥ n`
(`Nat.clog 2 n`).  Only the records of the model are used.
-/

namespace Verif.Hoa

/-- The code of a value of 3 bits with 5 more from 7 on. -/
def EscCode (v : Nat) (b : List Bool) : Prop :=
  (v < 7 ∧ b = natBits 3 v) ∨ (7 ≤ v ∧ v < 39 ∧ b = natBits 3 7 ++ natBits 5 (v - 7))

/-- The interpolation times that can be coded. -/
def codedTimes : List Nat := [0, 64, 128, 256, 384, 512, 768, 1024]

/-- The limits of the fields of a configuration with the number of channels and the frame length it is used for. -/
structure ConfigRange (t len : Nat) (c : Config) : Prop where
  core : len = 1024
  transport : c.transport = t
  order : c.order ≤ 6
  screen : c.screen < 2
  nfc : c.nfc = [] ∨ (c.nfc.length = 4 ∧ ∀ x ∈ c.nfc, x < 256)
  amb : c.amb1 * c.amb1 ≤ t
  ambOrder : c.amb1 ≤ c.order + 1
  single : c.single < 2
  time : c.interpTime ∈ codedTimes
  method : c.method < 2
  kind : c.vecKind < 3
  maxExp : c.maxExp < 8
  frame : c.frameInd < 3
  maxFull : c.amb1 = c.order + 1 → c.max1 = c.order + 1
  maxCoded : c.amb1 < c.order + 1 → c.amb1 ≤ c.max1 ∧ c.max1 < c.amb1 + 2 ^ Nat.clog 2 (c.order + 2 - c.amb1)
  vq : c.vqBits < 2 ^ Nat.clog 2 (Nat.clog 2 ((c.order + 1) ^ 2 + 1))
  sigs : 1 ≤ c.predSigs ∧ c.predSigs ≤ 4
  gain : 1 ≤ c.gainBits ∧ c.gainBits ≤ 16

/-- The bits of a configuration; `o` and `a` are the codes of the two orders. -/
def configBits (c : Config) (o a : List Bool) : List Bool :=
  o ++ natBits 1 c.screen ++ (if c.nfc = [] then [false] else true :: c.nfc.flatMap (natBits 8)) ++ a ++ natBits 1 c.single ++
    natBits 3 (codedTimes.idxOf c.interpTime) ++ natBits 1 c.method ++ natBits 2 c.vecKind ++ natBits 3 c.maxExp ++ natBits 2 c.frameInd ++
    (if c.amb1 < c.order + 1 then natBits (Nat.clog 2 (c.order + 2 - c.amb1)) (c.max1 - c.amb1) else []) ++
    natBits (Nat.clog 2 (Nat.clog 2 ((c.order + 1) ^ 2 + 1))) c.vqBits ++ (if c.amb1 = 2 then [false] else []) ++
    natBits 2 (c.predSigs - 1) ++ natBits 4 (c.gainBits - 1) ++ [false, false, false, false]

/-- Bits that are the code of a configuration. -/
def ConfigCode (transport core : Nat) (c : Config) (b : List Bool) : Prop :=
  ConfigRange transport core c ∧ ∃ o a, EscCode c.order o ∧ EscCode c.amb1 a ∧ b = configBits c o a

/-- The code word of a symbol in a table: the bits of the word of its first entry. -/
def wordOf (table : List (Nat × Nat × Nat)) (v : Nat) : Option (List Bool) :=
  (table.find? (fun e => decide (e.1 = v))).map (fun e => natBits e.2.1 e.2.2)

end Verif.Hoa
