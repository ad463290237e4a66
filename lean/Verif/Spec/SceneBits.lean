import Verif.Spec.Scene
import Verif.Proofs.Fields

/-!
# The bit syntax of scene elements (ISO/IEC 23008-3 clause 15)

How an encoder writes group, switch group and preset definitions.
-/

namespace Verif.Asi

/-- A group definition with every field in its range, optional fields zero when not sent. -/
structure GroupDef.Codable (g : GroupDef) : Prop where
  id : 0 ≤ g.groupId ∧ g.groupId < 128
  flags : g.allowOnOff < 2 ∧ g.defaultOnOff < 2 ∧ g.allowPos < 2 ∧ g.allowGain < 2 ∧ g.conjunct < 2
  pos : if g.allowPos = 1 then g.minAz < 128 ∧ g.maxAz < 128 ∧ g.minEl < 32 ∧ g.maxEl < 32 ∧
          g.minDist < 16 ∧ g.maxDist < 16
        else g.minAz = 0 ∧ g.maxAz = 0 ∧ g.minEl = 0 ∧ g.maxEl = 0 ∧ g.minDist = 0 ∧ g.maxDist = 0
  gain : if g.allowGain = 1 then g.minGain < 64 ∧ g.maxGain < 32
         else g.minGain = 0 ∧ g.maxGain = 0
  mem : if g.conjunct = 1 then g.startId < 128 ∧ g.members = []
        else g.startId = 0 ∧ g.numMembers = g.members.length ∧ ∀ m ∈ g.members, m < 128

/-- `mae_GroupDefinition()`: bits of a group with `k` members. -/
def GroupDef.bits (g : GroupDef) (k : Nat) : List Bool :=
  natBits 7 g.groupId.toNat ++ (natBits 1 g.allowOnOff ++ (natBits 1 g.defaultOnOff ++
  (natBits 1 g.allowPos ++ (optN (g.allowPos != 0) 7 g.minAz ++ (optN (g.allowPos != 0) 7 g.maxAz ++
  (optN (g.allowPos != 0) 5 g.minEl ++ (optN (g.allowPos != 0) 5 g.maxEl ++
  (optN (g.allowPos != 0) 4 g.minDist ++ (optN (g.allowPos != 0) 4 g.maxDist ++
  (natBits 1 g.allowGain ++ (optN (g.allowGain != 0) 6 g.minGain ++
  (optN (g.allowGain != 0) 5 g.maxGain ++ (natBits 7 (k - 1) ++ (natBits 1 g.conjunct ++
  (if g.conjunct != 0 then natBits 7 g.startId
   else g.members.flatMap (natBits 7))))))))))))))))

/-- A switch group definition with every field in range. -/
structure SwitchDef.Codable (g : SwitchDef) : Prop where
  id : 0 ≤ g.groupId ∧ g.groupId < 32
  flags : g.allowOnOff < 2 ∧ g.defaultOnOff < 2
  dflt : g.allowOnOff = 0 → g.defaultOnOff = 0
  num : g.numMembers = g.members.length ∧ 1 ≤ g.members.length ∧ g.members.length ≤ 32
  mem : ∀ m ∈ g.members, m < 128
  dgrp : g.defaultGroup < 128

/-- `mae_SwitchGroupDefinition()`. -/
def SwitchDef.bits (g : SwitchDef) : List Bool :=
  natBits 5 g.groupId.toNat ++ (natBits 1 g.allowOnOff ++
  (optN (g.allowOnOff != 0) 1 g.defaultOnOff ++ (natBits 5 (g.members.length - 1) ++
  (g.members.flatMap (natBits 7) ++ natBits 7 g.defaultGroup))))

/-- A preset condition with every field in range. -/
structure Cond.Codable (c : Cond) : Prop where
  ref : c.refId < 128
  on : c.onOff < 2
  off : c.onOff = 0 → c = { refId := c.refId, onOff := 0 }
  flags : c.disableGain < 2 ∧ c.gainFlag < 2 ∧ c.disablePos < 2 ∧ c.posFlag < 2
  gain : if c.gainFlag = 1 then c.gain < 256 else c.gain = 0
  pos : if c.posFlag = 1 then c.az < 256 ∧ c.el < 64 ∧ c.dist < 16
        else c.az = 0 ∧ c.el = 0 ∧ c.dist = 0

/-- One condition of `mae_GroupPresetDefinition()`. -/
def Cond.bits (c : Cond) : List Bool :=
  natBits 7 c.refId ++ (natBits 1 c.onOff ++
  (if c.onOff != 0 then
    natBits 1 c.disableGain ++ (natBits 1 c.gainFlag ++ (optN (c.gainFlag != 0) 8 c.gain ++
    (natBits 1 c.disablePos ++ (natBits 1 c.posFlag ++ (optN (c.posFlag != 0) 8 c.az ++
    (optN (c.posFlag != 0) 6 c.el ++ optN (c.posFlag != 0) 4 c.dist))))))
   else []))

/-- A preset definition with every field in range. -/
structure PresetDef.Codable (p : PresetDef) : Prop where
  id : 0 ≤ p.groupId ∧ p.groupId < 32
  kind : p.kind < 32
  num : p.numConditions = p.conds.length ∧ 1 ≤ p.conds.length ∧ p.conds.length ≤ 16
  conds : ∀ c ∈ p.conds, c.Codable

/-- `mae_GroupPresetDefinition()`. -/
def PresetDef.bits (p : PresetDef) : List Bool :=
  natBits 5 p.groupId.toNat ++ (natBits 5 p.kind ++ (natBits 4 (p.conds.length - 1) ++
    p.conds.flatMap Cond.bits))

end Verif.Asi
