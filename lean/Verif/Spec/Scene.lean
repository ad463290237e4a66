import Verif.Model.Asi

/-! # What a well-formed audio scene is -/

namespace Verif.Asi

/-- The scene tables have their C sizes and every count stays inside its table
(`impeghd_mhas_parse.h` 73-101). -/
structure Scene.InBounds (sc : Scene) : Prop where
  groups_size : sc.groups.length = 16
  switches_size : sc.switches.length = 8
  presets_size : sc.presets.length = 8
  num_groups : 0 ≤ sc.numGroups ∧ sc.numGroups ≤ 16
  num_switch : 0 ≤ sc.numSwitch ∧ sc.numSwitch ≤ 8
  num_presets : 0 ≤ sc.numPresets ∧ sc.numPresets ≤ 8
  group_members : ∀ g ∈ sc.groups, g.numMembers ≤ 128 ∧ g.members.length ≤ 128
  switch_members : ∀ g ∈ sc.switches, g.numMembers ≤ 32 ∧ g.members.length ≤ 32
  preset_conditions : ∀ p ∈ sc.presets, 0 ≤ p.numConditions ∧ p.numConditions ≤ 16 ∧
    p.conds.length ≤ 16

/-- The first `n` entries of a table have different ids. -/
def UniqueIds {α : Type} (id : α → Int) (tbl : List α) (n : Nat) : Prop :=
  ∀ i j a b, i < n → j < n → tbl[i]? = some a → tbl[j]? = some b → id a = id b → i = j

/-- Groups, switch groups and presets of the scene have unique ids. -/
structure Scene.Unique (sc : Scene) : Prop where
  groups : UniqueIds GroupDef.groupId sc.groups sc.numGroups.toNat
  switches : UniqueIds SwitchDef.groupId sc.switches sc.numSwitch.toNat
  presets : UniqueIds PresetDef.groupId sc.presets sc.numPresets.toNat

end Verif.Asi
