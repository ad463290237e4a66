import Verif.Spec.Scene
import Verif.Proofs.Safe

/-! Helper lemmas for the scene parser. -/

namespace Verif.Asi

open Prog

/-- One step of a safety proof. -/
macro "safe_step" : tactic => `(tactic| first
  | with_reducible exact Safe.fail
  | with_reducible refine Safe.bind (Safe.bits (by decide)) fun _ _ => ?_
  | with_reducible refine Safe.bind (Safe.optBits (by decide)) fun _ _ => ?_
  | with_reducible refine Safe.bind (Safe.inTable (by omega) (by omega)) fun _ _ => ?_
  | with_reducible refine Safe.bind Safe.avail fun _ _ => ?_
  | with_reducible refine Safe.ite (fun _ => ?_) (fun _ => ?_))

/-- Bits inside a guarded table access. -/
theorem safe_cell (i : Int) (cap n : Nat) (h0 : 0 ≤ i) (h : i < cap) (hn : n ≤ 24) :
    Safe (do inTable i cap; bits n) (fun v => v < 2 ^ n) :=
  Safe.bind (Safe.inTable h0 h) fun _ _ => Safe.bits hn

theorem dupId_unique {α : Type} (id : α → Int) (tbl : List α) (grp : Nat) (a : α)
    (hu : UniqueIds id tbl grp) (hd : ¬ dupId (tbl.map id) grp (id a) = true) :
    UniqueIds id (tbl.set grp a) (grp + 1) := by
  have hnot : ∀ k b, k < grp → tbl[k]? = some b → id b ≠ id a := by
    intro k b hk hb he
    apply hd
    unfold dupId
    rw [List.contains_iff_mem, List.mem_take_iff_getElem]
    have hkl : k < tbl.length := by
      rw [List.getElem?_eq_some_iff] at hb; exact hb.1
    refine ⟨k, by simp; omega, ?_⟩
    rw [List.getElem?_eq_some_iff] at hb
    simp [hb.2, he]
  intro i j x y hi hj hx hy hxy
  rw [List.getElem?_set] at hx hy
  by_cases hi' : grp = i
  · by_cases hj' : grp = j
    · omega
    · rw [if_pos hi'] at hx
      rw [if_neg hj'] at hy
      split at hx
      · simp at hx
        exact absurd (by rw [← hxy, ← hx]) (hnot j y (by omega) hy)
      · simp at hx
  · rw [if_neg hi'] at hx
    by_cases hj' : grp = j
    · rw [if_pos hj'] at hy
      split at hy
      · simp at hy
        exact absurd (by rw [hxy, ← hy]) (hnot i x (by omega) hx)
      · simp at hy
    · rw [if_neg hj'] at hy
      exact hu i j x y (by omega) (by omega) hx hy hxy

theorem forall_set {α : Type} {P : α → Prop} {l : List α} {i : Nat} {a : α}
    (h : ∀ x ∈ l, P x) (ha : P a) : ∀ x ∈ l.set i a, P x := by
  intro x hx
  rcases List.mem_or_eq_of_mem_set hx with hx | rfl
  · exact h x hx
  · exact ha

/-- Invariant of the group table while group `n` is next. -/
structure GroupsOk (n : Nat) (tbl : List GroupDef) : Prop where
  size : tbl.length = 16
  members : ∀ g ∈ tbl, g.numMembers ≤ 128 ∧ g.members.length ≤ 128
  unique : UniqueIds GroupDef.groupId tbl n

theorem groupDef_safe (grp : Nat) (tbl : List GroupDef) (h : GroupsOk grp tbl) (hg : grp < 16) :
    Safe (groupDef grp tbl) (GroupsOk (grp + 1)) := by
  obtain ⟨h1, h2, h3⟩ := h
  unfold groupDef
  refine Safe.bind (Safe.inTable (by omega) (by omega)) fun _ _ => ?_
  refine Safe.bind (Safe.bits (by decide)) fun id hid => ?_
  refine Safe.ite (fun _ => Safe.fail) (fun hdup => ?_)
  iterate 12 safe_step
  refine Safe.bind (Safe.bits (by decide)) fun nm hnm => ?_
  refine Safe.bind (Safe.bits (by decide)) fun _ _ => ?_
  have hmem : toI8 (toI8 nm + 1) ≤ 128 ∧ (toI8 (toI8 nm + 1)).toNat ≤ 128 := by
    unfold toI8; omega
  refine Safe.ite (fun _ => ?_) (fun _ => ?_)
  · safe_step
    refine (Safe.setAt (by omega)).mono fun t ht => ?_
    subst ht
    refine ⟨by simp [h1], forall_set h2 ?_, ?_⟩
    · exact ⟨hmem.1, by simp⟩
    · exact dupId_unique _ _ _ _ h3 hdup
  · refine Safe.bind (Safe.forN _ _ (P := fun _ => True)
      fun j _ hj => (safe_cell _ _ _ (by omega) (by omega) (by decide)).mono fun _ _ => trivial)
      fun ms hms => ?_
    refine (Safe.setAt (by omega)).mono fun t ht => ?_
    subst ht
    refine ⟨by simp [h1], forall_set h2 ?_, ?_⟩
    · exact ⟨hmem.1, by have := hms.1; simp only; omega⟩
    · exact dupId_unique _ _ _ _ h3 hdup

theorem groupDefs_safe (n : Nat) (tbl : List GroupDef) (h : GroupsOk 0 tbl) (hn : n ≤ 16) :
    Safe (groupDefs n tbl) (GroupsOk n) := by
  have := Safe.foldN (f := groupDef) GroupsOk n 0 tbl h
    fun j t _ hj ht => groupDef_safe j t ht (by omega)
  rwa [Nat.zero_add] at this

structure SwitchesOk (n : Nat) (tbl : List SwitchDef) : Prop where
  size : tbl.length = 8
  members : ∀ g ∈ tbl, g.numMembers ≤ 32 ∧ g.members.length ≤ 32
  unique : UniqueIds SwitchDef.groupId tbl n

theorem switchDef_safe (grp : Nat) (tbl : List SwitchDef) (h : SwitchesOk grp tbl) (hg : grp < 8) :
    Safe (switchDef grp tbl) (SwitchesOk (grp + 1)) := by
  obtain ⟨h1, h2, h3⟩ := h
  unfold switchDef
  refine Safe.bind (Safe.inTable (by omega) (by omega)) fun _ _ => ?_
  refine Safe.bind (Safe.bits (by decide)) fun id hid => ?_
  refine Safe.ite (fun _ => Safe.fail) (fun hdup => ?_)
  iterate 2 safe_step
  refine Safe.bind (Safe.bits (by decide)) fun nm hnm => ?_
  have hmem : toI8 (toI8 nm + 1) ≤ 32 ∧ (toI8 (toI8 nm + 1)).toNat ≤ 32 := by
    unfold toI8; omega
  refine Safe.bind (Safe.forN _ _ (P := fun _ => True)
      fun j _ hj => (safe_cell _ _ _ (by omega) (by omega) (by decide)).mono fun _ _ => trivial)
      fun ms hms => ?_
  safe_step
  refine (Safe.setAt (by omega)).mono fun t ht => ?_
  subst ht
  refine ⟨by simp [h1], forall_set h2 ?_, ?_⟩
  · exact ⟨hmem.1, by have := hms.1; simp only; omega⟩
  · exact dupId_unique _ _ _ _ h3 hdup

theorem switchDefs_safe (n : Nat) (tbl : List SwitchDef) (h : SwitchesOk 0 tbl) (hn : n ≤ 8) :
    Safe (switchDefs n tbl) (SwitchesOk n) := by
  have := Safe.foldN (f := switchDef) SwitchesOk n 0 tbl h
    fun j t _ hj ht => switchDef_safe j t ht (by omega)
  rwa [Nat.zero_add] at this

structure PresetsOk (n : Nat) (tbl : List PresetDef) : Prop where
  size : tbl.length = 8
  conds : ∀ p ∈ tbl, 0 ≤ p.numConditions ∧ p.numConditions ≤ 16 ∧ p.conds.length ≤ 16
  unique : UniqueIds PresetDef.groupId tbl n

theorem presetCond_safe (g : GroupDef) (cnt : Nat) (h : cnt < 16) :
    Safe (presetCond g cnt) (fun _ => True) := by
  unfold presetCond
  repeat safe_step
  all_goals exact Safe.pure trivial

theorem presetDef_safe (groups : List GroupDef) (hgs : groups.length = 16) (grp : Nat)
    (tbl : List PresetDef) (h : PresetsOk grp tbl) (hg : grp < 8) :
    Safe (presetDef groups grp tbl) (PresetsOk (grp + 1)) := by
  obtain ⟨h1, h2, h3⟩ := h
  unfold presetDef
  refine Safe.bind (Safe.inTable (by omega) (by omega)) fun _ _ => ?_
  refine Safe.bind (Safe.bits (by decide)) fun id hid => ?_
  refine Safe.ite (fun _ => Safe.fail) (fun hdup => ?_)
  safe_step
  refine Safe.bind (Safe.bits (by decide)) fun nc hnc => ?_
  have hmem : 0 ≤ toI8 (toI8 nc + 1) ∧ toI8 (toI8 nc + 1) ≤ 16 := by
    unfold toI8; omega
  refine Safe.ite (fun _ => Safe.fail) (fun hle => ?_)
  refine Safe.bind (Safe.getAt (by omega)) fun g _ => ?_
  refine Safe.bind (Safe.forN _ _ (P := fun _ => True)
      fun j _ hj => presetCond_safe g j (by omega)) fun cs hcs => ?_
  refine (Safe.setAt (by omega)).mono fun t ht => ?_
  subst ht
  refine ⟨by simp [h1], forall_set h2 ?_, ?_⟩
  · exact ⟨hmem.1, hmem.2, by have := hcs.1; simp only; omega⟩
  · exact dupId_unique _ _ _ _ h3 hdup

theorem presetDefs_safe (groups : List GroupDef) (hgs : groups.length = 16) (n : Nat)
    (tbl : List PresetDef) (h : PresetsOk 0 tbl) (hn : n ≤ 8) :
    Safe (presetDefs groups n tbl) (PresetsOk n) := by
  have := Safe.foldN (f := presetDef groups) PresetsOk n 0 tbl h
    fun j t _ hj ht => presetDef_safe groups hgs j t ht (by omega)
  rwa [Nat.zero_add] at this

theorem extCond_safe (g : GroupDef) (cnt : Nat) (h : cnt < 16) :
    Safe (extCond g cnt) (fun _ => True) := by
  unfold extCond
  safe_step
  safe_step
  refine Safe.bind (Safe.bits (by split <;> decide)) fun _ _ => ?_
  repeat safe_step
  all_goals exact Safe.pure trivial

theorem extDmx_safe (g : GroupDef) (cnt : Nat) (h : cnt < 32) :
    Safe (extDmx g cnt) (fun _ => True) := by
  unfold extDmx
  safe_step
  safe_step
  refine Safe.bind (Safe.bits (by decide)) fun n hn => ?_
  refine Safe.bind (Safe.forN _ _ (P := fun _ => True)
    fun j _ hj => extCond_safe g j (by omega)) fun _ _ => ?_
  exact Safe.pure trivial

theorem presetExt1_safe (groups : List GroupDef) (hgs : groups.length = 16) (nc : Int)
    (hnc : nc ≤ 16) (grp : Nat) (hg : grp < 8) :
    Safe (presetExt1 groups nc grp) (fun _ => True) := by
  unfold presetExt1
  safe_step
  safe_step
  refine Safe.bind (Safe.when fun _ => ?_) fun _ _ => ?_
  · refine Safe.bind (Safe.forN _ _ (P := fun _ => True)
      fun j _ hj => (safe_cell _ _ _ (by omega) (by omega) (by decide)).mono fun _ _ => trivial)
      fun _ _ => Safe.pure trivial
  · safe_step
    refine Safe.ite (fun _ => ?_) (fun _ => Safe.pure trivial)
    refine Safe.bind (Safe.bits (by decide)) fun n hn => ?_
    refine Safe.ite (fun _ => Safe.fail) (fun hle => ?_)
    refine Safe.bind (Safe.getAt (by omega)) fun g _ => ?_
    refine Safe.bind (Safe.forN _ _ (P := fun _ => True)
      fun j _ hj => extDmx_safe g j (by omega)) fun _ _ => ?_
    exact Safe.pure trivial

theorem presetExt_safe (groups : List GroupDef) (hgs : groups.length = 16) (np : Nat)
    (hnp : np ≤ 8) (nc : Int) (hnc : nc ≤ 16) :
    Safe (presetExt groups np nc) (fun _ => True) := by
  unfold presetExt
  refine Safe.bind (Safe.forN _ _ (P := fun _ => True)
    fun j _ hj => presetExt1_safe groups hgs nc hnc j (by omega)) fun _ _ => ?_
  exact Safe.pure trivial

theorem description_safe (idBits : Nat) (h : idBits ≤ 24) :
    Safe (description idBits) (fun _ => True) := by
  unfold description
  refine Safe.bind (Safe.bits (by decide)) fun n hn => ?_
  refine Safe.ite (fun _ => Safe.fail) (fun hle => ?_)
  refine (Safe.forN _ _ (P := fun _ => True) fun j _ hj => ?_).mono fun _ _ => trivial
  unfold descrBlock
  safe_step
  refine Safe.bind (Safe.bits h) fun _ _ => ?_
  refine Safe.bind (Safe.bits (by decide)) fun m hm => ?_
  refine Safe.ite (fun _ => Safe.fail) (fun hle => ?_)
  refine Safe.bind (Safe.forN _ _ (P := fun _ => True) fun k _ hk => ?_) fun _ _ =>
    Safe.pure trivial
  unfold descrLang
  safe_step
  safe_step
  refine Safe.bind (Safe.bits (by decide)) fun len hlen => ?_
  have : (toI8 (toI8 len + 1)).toNat ≤ 256 := by unfold toI8; omega
  refine Safe.bind (Safe.forN _ _ (P := fun _ => True)
    fun q _ hq => (safe_cell _ _ _ (by omega) (by omega) (by decide)).mono fun _ _ => trivial)
    fun _ _ => Safe.pure trivial

theorem content_safe : Safe content (fun _ => True) := by
  unfold content
  refine Safe.bind (Safe.bits (by decide)) fun n hn => ?_
  refine (Safe.forN _ _ (P := fun _ => True) fun j _ hj => ?_).mono fun _ _ => trivial
  repeat safe_step
  exact Safe.pure trivial

theorem composite_safe : Safe composite (fun _ => True) := by
  unfold composite
  refine Safe.bind (Safe.bits (by decide)) fun n hn => ?_
  refine (Safe.forN _ _ (P := fun _ => True) fun j _ hj => ?_).mono fun _ _ => trivial
  repeat safe_step
  exact Safe.pure trivial

theorem screenSize_safe : Safe screenSize (fun _ => True) := by
  unfold screenSize
  repeat safe_step
  exact Safe.pure trivial

theorem screenSizeExt_safe : Safe screenSizeExt (fun _ => True) := by
  unfold screenSizeExt
  safe_step
  safe_step
  safe_step
  refine Safe.bind (Safe.bits (by decide)) fun n hn => ?_
  refine Safe.bind (Safe.forN _ _ (P := fun _ => True) fun j _ hj => ?_) fun _ _ =>
    Safe.pure trivial
  safe_step
  safe_step
  safe_step
  refine Safe.ite (fun _ => ?_) (fun _ => Safe.pure trivial)
  iterate 6 safe_step
  exact Safe.pure trivial

theorem loudnessComp_safe (ng np : Nat) (hg : ng ≤ 16) (hp : np ≤ 8) :
    Safe (loudnessComp ng np) (fun _ => True) := by
  have cell : ∀ (k n : Nat), k ≤ 16 → n ≤ 24 →
      Safe (forN (fun i => do inTable i 16; bits n) k 0) (fun _ => True) := by
    intro k n hk hn
    exact (Safe.forN _ _ (P := fun _ => True)
      fun j _ hj => (safe_cell _ _ _ (by omega) (by omega) hn).mono fun _ _ => trivial).mono
      fun _ _ => trivial
  unfold loudnessComp
  safe_step
  refine Safe.bind (cell _ _ (by split <;> omega) (by decide)) fun _ _ => ?_
  safe_step
  refine Safe.bind (Safe.when fun _ => ?_) fun _ _ => ?_
  · refine Safe.bind (cell _ _ (by omega) (by decide)) fun _ _ => ?_
    repeat safe_step
    exact Safe.pure trivial
  · refine Safe.bind (Safe.forN _ _ (P := fun _ => True) fun j _ hj => ?_) fun _ _ =>
      Safe.pure trivial
    safe_step
    safe_step
    refine Safe.ite (fun _ => ?_) (fun _ => Safe.pure trivial)
    refine Safe.bind (cell _ _ (by omega) (by decide)) fun _ _ => ?_
    repeat safe_step
    exact Safe.pure trivial

theorem drcUi_safe : Safe drcUi (fun _ => True) := by
  unfold drcUi
  safe_step
  refine Safe.ite (fun _ => ?_) (fun _ => Safe.pure trivial)
  refine Safe.bind (Safe.bits (by decide)) fun n hn => ?_
  refine (Safe.forN _ _ (P := fun _ => True) fun j _ hj => ?_).mono fun _ _ => trivial
  repeat safe_step
  exact Safe.pure trivial

/-- Scene invariant used by the data set loop. -/
structure SceneOk (sc : Scene) : Prop where
  bounds : sc.InBounds
  unique : sc.Unique

theorem dataSetBody_safe (sc : Scene) (hs : SceneOk sc) (seen : List Nat) (ty len : Nat) :
    Safe (dataSetBody sc seen ty len) (fun r => SceneOk r.1) := by
  have hb := hs.bounds
  have u : ∀ sc' : Scene, sc'.groups = sc.groups → sc'.switches = sc.switches →
      sc'.presets = sc.presets → sc'.numGroups = sc.numGroups → sc'.numSwitch = sc.numSwitch →
      sc'.numPresets = sc.numPresets → SceneOk sc' := by
    intro sc' e1 e2 e3 e4 e5 e6
    obtain ⟨⟨a1, a2, a3, a4, a5, a6, a7, a8, a9⟩, ⟨b1, b2, b3⟩⟩ := hs
    refine ⟨⟨?_, ?_, ?_, ?_, ?_, ?_, ?_, ?_, ?_⟩, ⟨?_, ?_, ?_⟩⟩ <;>
      simp only [e1, e2, e3, e4, e5, e6] <;> assumption
  unfold dataSetBody
  refine Safe.ite (fun _ => Safe.fail) (fun _ => ?_)
  have := hb.num_groups
  have := hb.num_presets
  split
  · exact Safe.bind (loudnessComp_safe _ _ (by omega) (by omega)) fun _ _ => Safe.pure hs
  · have h3 := hb.presets_size
    refine Safe.bind (Safe.getAt (by omega)) fun p0 hp0 => ?_
    have hmem : p0 ∈ sc.presets := List.mem_of_getElem? hp0
    have := hb.preset_conditions p0 hmem
    exact Safe.bind (presetExt_safe _ hb.groups_size _ (by omega) _ (by omega)) fun _ _ =>
      Safe.pure hs
  · exact Safe.bind screenSizeExt_safe fun _ _ => Safe.pure hs
  · exact Safe.bind drcUi_safe fun _ _ => Safe.pure (u _ rfl rfl rfl rfl rfl rfl)
  · exact Safe.bind (description_safe 5 (by decide)) fun _ _ =>
      Safe.pure (u _ rfl rfl rfl rfl rfl rfl)
  · exact Safe.bind screenSize_safe fun _ _ => Safe.pure (u _ rfl rfl rfl rfl rfl rfl)
  · exact Safe.bind composite_safe fun _ _ => Safe.pure (u _ rfl rfl rfl rfl rfl rfl)
  · exact Safe.bind content_safe fun _ _ => Safe.pure (u _ rfl rfl rfl rfl rfl rfl)
  · exact Safe.bind (description_safe 5 (by decide)) fun _ _ =>
      Safe.pure (u _ rfl rfl rfl rfl rfl rfl)
  · exact Safe.bind (description_safe 7 (by decide)) fun _ _ =>
      Safe.pure (u _ rfl rfl rfl rfl rfl rfl)
  · exact Safe.bind (Safe.forN _ _ (P := fun _ => True)
      fun j _ hj => (Safe.bits (by decide)).mono fun _ _ => trivial) fun _ _ => Safe.pure hs

theorem dataSet_safe (cnt : Nat) (hc : cnt < 15) (st : Scene × List Nat) (hs : SceneOk st.1) :
    Safe (dataSet cnt st) (fun r => SceneOk r.1) := by
  unfold dataSet
  safe_step
  safe_step
  safe_step
  safe_step
  refine Safe.bind (dataSetBody_safe st.1 hs _ _ _) fun r hr => ?_
  safe_step
  refine Safe.bind (Safe.when fun h => Safe.drop (by simp at h; omega)) fun _ _ => ?_
  obtain ⟨⟨a1, a2, a3, a4, a5, a6, a7, a8, a9⟩, ⟨b1, b2, b3⟩⟩ := hr
  exact Safe.pure ⟨⟨a1, a2, a3, a4, a5, a6, a7, a8, a9⟩, ⟨b1, b2, b3⟩⟩

theorem dataParse_safe (sc : Scene) (hs : SceneOk sc) : Safe (dataParse sc) SceneOk := by
  unfold dataParse
  refine Safe.bind (Safe.bits (by decide)) fun n hn => ?_
  have h0 : SceneOk { sc with dataSets := [] } := by
    obtain ⟨⟨a1, a2, a3, a4, a5, a6, a7, a8, a9⟩, ⟨b1, b2, b3⟩⟩ := hs
    exact ⟨⟨a1, a2, a3, a4, a5, a6, a7, a8, a9⟩, ⟨b1, b2, b3⟩⟩
  refine Safe.bind (Safe.foldN (fun _ (r : Scene × List Nat) => SceneOk r.1) n 0 _ h0
    fun j t _ hj ht => dataSet_safe j (by omega) t ht) fun r hr => ?_
  exact Safe.pure hr

theorem parse_safe (sc : Scene) (hs : SceneOk sc) : Safe (parse sc) SceneOk := by
  obtain ⟨⟨a1, a2, a3, a4, a5, a6, a7, a8, a9⟩, ⟨b1, b2, b3⟩⟩ := hs
  have un0 : ∀ {α : Type} (f : α → Int) (t : List α), UniqueIds f t 0 := by
    intro α f t i j x y hi
    omega
  unfold parse
  refine Safe.bind (Safe.bits (by decide)) fun main _ => ?_
  refine Safe.ite (fun _ => ?_) (fun _ => ?_)
  · refine Safe.bind (Safe.bits (by decide)) fun idp _ => ?_
    refine Safe.bind (Safe.bitsOr (by decide)) fun asiId _ => ?_
    refine Safe.bind (Safe.bits (by decide)) fun ng hng => ?_
    refine Safe.ite (fun _ => Safe.fail) (fun h16 => ?_)
    have hng' : 0 ≤ toI8 ng := by unfold toI8; omega
    refine Safe.bind (groupDefs_safe _ _ ⟨a1, a7, un0 _ _⟩ (by omega)) fun groups hg => ?_
    refine Safe.bind (Safe.bits (by decide)) fun ns hns => ?_
    refine Safe.ite (fun _ => Safe.fail) (fun h8 => ?_)
    refine Safe.bind (switchDefs_safe _ _ ⟨a2, a8, un0 _ _⟩ (by omega)) fun switches hsw => ?_
    refine Safe.bind (Safe.bits (by decide)) fun np hnp => ?_
    refine Safe.ite (fun _ => Safe.fail) (fun h8' => ?_)
    have hnp' : 0 ≤ toI8 np := by unfold toI8; omega
    refine Safe.bind (presetDefs_safe _ hg.size _ _ ⟨a3, a9, un0 _ _⟩ (by omega))
      fun presets hp => ?_
    refine Safe.bind (dataParse_safe _ ?_) fun sc' hsc' => ?_
    · exact ⟨⟨hg.size, hsw.size, hp.size, ⟨hng', by simp only; omega⟩, ⟨by simp, by simp; omega⟩,
        ⟨hnp', by simp only; omega⟩, hg.members, hsw.members, hp.conds⟩,
        ⟨hg.unique, by simpa using hsw.unique, hp.unique⟩⟩
    · refine Safe.bind (Safe.bits (by decide)) fun mx _ => ?_
      obtain ⟨⟨a1, a2, a3, a4, a5, a6, a7, a8, a9⟩, ⟨b1, b2, b3⟩⟩ := hsc'
      exact Safe.pure ⟨⟨a1, a2, a3, a4, a5, a6, a7, a8, a9⟩, ⟨b1, b2, b3⟩⟩
  · safe_step
    safe_step
    exact Safe.pure ⟨⟨a1, a2, a3, a4, a5, a6, a7, a8, a9⟩, ⟨b1, b2, b3⟩⟩

end Verif.Asi
