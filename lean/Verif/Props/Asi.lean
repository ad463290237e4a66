import Verif.Spec.SceneBits
import Verif.Proofs.Asi

/-!
# C12-C16: audio scene information
-/

namespace Verif.Asi

open Prog

theorem empty_inBounds : Scene.empty.InBounds := by
  constructor <;> simp [Scene.empty]

theorem empty_unique : Scene.empty.Unique := by
  constructor <;> intro i j a b hi <;> simp [Scene.empty] at hi

/-- C12: for every input bytes and read position, parsing scene information into tables in good
order has no undefined behaviour (every store into a table is inside it), and an accepted scene
is again in good order: at most 16 groups, 8 switch groups, 8 presets, every member and condition
count within its table. -/
theorem C12_tables (s : BitBuf) (hs : s.WF) (sc : Scene) (hb : sc.InBounds) (hu : sc.Unique) :
    (parse sc).runC s ≠ .ub ∧
      ∀ sc' s', (parse sc).runC s = .ok (sc', s') → sc'.InBounds := by
  have h := (parse_safe sc ⟨hb, hu⟩).runC s hs
  exact ⟨h.1, fun sc' s' e => (h.2 sc' s' e).1.bounds⟩

/-- C13: an accepted scene has unique group ids, switch group ids and preset ids. -/
theorem C13_unique (s : BitBuf) (hs : s.WF) (sc : Scene) (hb : sc.InBounds) (hu : sc.Unique)
    (sc' : Scene) (s' : BitBuf) (h : (parse sc).runC s = .ok (sc', s')) : sc'.Unique :=
  (((parse_safe sc ⟨hb, hu⟩).runC s hs).2 sc' s' h).1.unique

/-- A scene with two groups that share an id is refused with the group-id error: the concrete
counterpart of C13. -/
example : run (parse Scene.empty)
    (natBits 1 1 ++ natBits 1 0 ++ natBits 7 2 ++
      (GroupDef.bits { groupId := 5, conjunct := 1, startId := 3 } 2) ++
      (GroupDef.bits { groupId := 5, conjunct := 1, startId := 9 } 1) ++ natBits 20 0) =
    .err invalidGrpId := by decide +kernel

/-- A well-formed scene with two groups, a switch group and a preset is accepted. -/
example : (run (parse Scene.empty)
    (natBits 1 1 ++ natBits 1 0 ++ natBits 7 2 ++
      (GroupDef.bits { groupId := 5, conjunct := 1, startId := 3 } 2) ++
      (GroupDef.bits { groupId := 6, members := [7, 9], numMembers := 2 } 2) ++ natBits 5 1 ++
      SwitchDef.bits { groupId := 1, members := [5, 6], defaultGroup := 5 } ++ natBits 5 1 ++
      PresetDef.bits { groupId := 1, conds := [{ refId := 5, onOff := 1 }] } ++ natBits 4 0 ++
      natBits 7 100)).map
        (fun x => (x.1.numGroups, x.1.numSwitch, x.1.numPresets, x.1.groups.take 2)) =
    .ok (2, 1, 1, [{ groupId := 5, conjunct := 1, startId := 3, numMembers := 2 },
                   { groupId := 6, members := [7, 9], numMembers := 2 }]) := by
  decide +kernel

/-! ### C14 -/

/-- Every signalled member is kept and the whole list is consumed: the full claim, for `k`
members. -/
def GroupKept (k : Nat) : Prop :=
  ∀ (g : GroupDef) (grp : Nat) (tbl : List GroupDef) (l : List Bool), g.Codable →
    g.numMembers = k → grp < tbl.length →
    (∀ i h, i < grp → tbl[i]? = some h → h.groupId ≠ g.groupId) →
    run (groupDef grp tbl) (g.bits k ++ l) = .ok (tbl.set grp g, l)

/-- Everything up to the member list, for any count. -/
theorem groupDef_run (g : GroupDef) (grp k : Nat) (tbl : List GroupDef) (l : List Bool)
    (hc : g.Codable) (h1 : 1 ≤ k) (h2 : k ≤ 128) (hlen : grp < tbl.length)
    (hid : ∀ i h, i < grp → tbl[i]? = some h → h.groupId ≠ g.groupId) :
    run (groupDef grp tbl) (g.bits k ++ l) =
      if g.conjunct = 1 then
        .ok (tbl.set grp { g with numMembers := toI8 (toI8 ((k - 1 : Nat) : Int) + 1) }, l)
      else run (do
        let members ← forN (fun i => do inTable i 128; bits 7)
          (toI8 (toI8 ((k - 1 : Nat) : Int) + 1)).toNat 0
        setAt tbl grp { g with numMembers := toI8 (toI8 ((k - 1 : Nat) : Int) + 1), members })
        (g.members.flatMap (natBits 7) ++ l) := by
  obtain ⟨c1, ⟨f1, f2, f3, f4, f5⟩, c3, c4, c5⟩ := hc
  have hd : ¬ dupId (tbl.map GroupDef.groupId) grp g.groupId = true := by
    unfold dupId
    rw [List.contains_iff_mem, List.mem_take_iff_getElem]
    rintro ⟨i, hi, he⟩
    simp at hi he
    exact hid i _ (by omega) (List.getElem?_eq_getElem (by omega)) he
  have e7 : toI8 ((g.groupId.toNat : Nat) : Int) = g.groupId := by unfold toI8; omega
  have b1 : (if (g.allowPos != 0) = true then g.minAz else 0) = g.minAz ∧
      (if (g.allowPos != 0) = true then g.maxAz else 0) = g.maxAz ∧
      (if (g.allowPos != 0) = true then g.minEl else 0) = g.minEl ∧
      (if (g.allowPos != 0) = true then g.maxEl else 0) = g.maxEl ∧
      (if (g.allowPos != 0) = true then g.minDist else 0) = g.minDist ∧
      (if (g.allowPos != 0) = true then g.maxDist else 0) = g.maxDist := by
    by_cases h : g.allowPos = 1
    · simp [h]
    · have : g.allowPos = 0 := by omega
      simp [this] at c3 ⊢; omega
  have b2 : (if (g.allowGain != 0) = true then g.minGain else 0) = g.minGain ∧
      (if (g.allowGain != 0) = true then g.maxGain else 0) = g.maxGain := by
    by_cases h : g.allowGain = 1
    · simp [h]
    · have : g.allowGain = 0 := by omega
      simp [this] at c4 ⊢; omega
  have r1 : g.minAz < 2 ^ 7 ∧ g.maxAz < 2 ^ 7 ∧ g.minEl < 2 ^ 5 ∧ g.maxEl < 2 ^ 5 ∧
      g.minDist < 2 ^ 4 ∧ g.maxDist < 2 ^ 4 := by split at c3 <;> omega
  have r2 : g.minGain < 2 ^ 6 ∧ g.maxGain < 2 ^ 5 := by split at c4 <;> omega
  unfold groupDef GroupDef.bits
  simp only [List.append_assoc]
  rw [run_inTable_bind _ _ _ _ (by omega), run_bits_bind _ _ _ _ (by decide) (by omega)]
  simp only [e7]
  rw [run_ite_neg _ _ _ hd]
  rw [run_bits_bind _ _ _ _ (by decide) (by omega), run_bits_bind _ _ _ _ (by decide) (by omega),
    run_bits_bind _ _ _ _ (by decide) (by omega)]
  try simp only
  rw [run_optBits_bind _ _ _ _ _ (by decide) (by omega),
    run_optBits_bind _ _ _ _ _ (by decide) (by omega),
    run_optBits_bind _ _ _ _ _ (by decide) (by omega),
    run_optBits_bind _ _ _ _ _ (by decide) (by omega),
    run_optBits_bind _ _ _ _ _ (by decide) (by omega),
    run_optBits_bind _ _ _ _ _ (by decide) (by omega),
    run_bits_bind _ _ _ _ (by decide) (by omega)]
  try simp only
  rw [run_optBits_bind _ _ _ _ _ (by decide) (by omega),
    run_optBits_bind _ _ _ _ _ (by decide) (by omega),
    run_bits_bind _ _ _ _ (by decide) (by omega)]
  simp only [b1, b2]
  rw [run_bits_bind _ _ _ _ (by decide) (by omega)]
  by_cases hcj : g.conjunct = 1
  · have hcj' : (g.conjunct != 0) = true := by simp [hcj]
    rw [if_pos hcj] at c5
    rw [run_ite_pos _ _ _ hcj', if_pos hcj', run_bits_bind _ _ _ _ (by decide) (by omega),
      run_setAt _ _ _ _ hlen, if_pos hcj]
    obtain ⟨_, hm⟩ := c5
    cases g
    simp_all
  · have hcj0 : g.conjunct = 0 := by omega
    have hcj' : ¬ (g.conjunct != 0) = true := by simp [hcj0]
    rw [if_neg hcj] at c5
    rw [run_ite_neg _ _ _ hcj', if_neg hcj', if_neg hcj]
    cases g
    simp_all

/-- C14 for 1 to 127 members; missing: 128, where it is false (`C14_refuted`). -/
theorem C14_partial (k : Nat) (h1 : 1 ≤ k) (h2 : k ≤ 127) : GroupKept k := by
  intro g grp tbl l hc hk hlen hid
  have em : toI8 (toI8 ((k - 1 : Nat) : Int) + 1) = g.numMembers := by unfold toI8; omega
  rw [groupDef_run g grp k tbl l hc h1 (by omega) hlen hid, em]
  have c5 := hc.mem
  split
  · rfl
  · rename_i hcj
    rw [if_neg hcj] at c5
    rw [run_forN_bind _ (natBits 7) g.members 0 _ _ (by omega), run_setAt _ _ _ _ hlen]
    intro j a ha l'
    have hj : j < g.members.length := (List.getElem?_eq_some_iff.mp ha).1
    rw [run_inTable_bind _ _ _ _ (by omega), run_bits_append _ _ (by decide),
      Nat.mod_eq_of_lt (c5.2.2 a (List.mem_of_getElem? ha))]

/-- C14 is false for 128 members: whenever a group lists 128 members, the count wraps to -128 in
its 8-bit field, no member is kept, and the member list is left in the stream. -/
theorem C14_refuted : ¬ GroupKept 128 ∧
    ∀ (g : GroupDef) (grp : Nat) (tbl : List GroupDef) (l : List Bool), g.Codable →
      g.conjunct = 0 → g.numMembers = 128 → grp < tbl.length →
      (∀ i h, i < grp → tbl[i]? = some h → h.groupId ≠ g.groupId) →
      run (groupDef grp tbl) (g.bits 128 ++ l) =
        .ok (tbl.set grp { g with numMembers := -128, members := [] },
          g.members.flatMap (natBits 7) ++ l) := by
  have key : ∀ (g : GroupDef) (grp : Nat) (tbl : List GroupDef) (l : List Bool), g.Codable →
      g.conjunct = 0 → g.numMembers = 128 → grp < tbl.length →
      (∀ i h, i < grp → tbl[i]? = some h → h.groupId ≠ g.groupId) →
      run (groupDef grp tbl) (g.bits 128 ++ l) =
        .ok (tbl.set grp { g with numMembers := -128, members := [] },
          g.members.flatMap (natBits 7) ++ l) := by
    intro g grp tbl l hc hcj _ hlen hid
    have em : toI8 (toI8 ((128 - 1 : Nat) : Int) + 1) = -128 := by decide
    rw [groupDef_run g grp 128 tbl l hc (by decide) (by decide) hlen hid, em,
      if_neg (by omega)]
    show run (setAt _ _ _) _ = _
    rw [run_setAt _ _ _ _ hlen]
  refine ⟨?_, key⟩
  intro h
  have hc : GroupDef.Codable { members := List.replicate 128 0, numMembers := 128 } := by
    constructor <;> simp
  have e := key _ 0 (List.replicate 16 {}) [] hc rfl rfl (by simp) (by omega)
  rw [h _ 0 (List.replicate 16 {}) [] hc rfl (by simp) (by omega)] at e
  injection e with e
  have e2 := congrArg Prod.snd e
  have := congrArg List.length e2
  simp at this

/-- A group with three listed members and position interactivity meets the hypotheses. -/
example : GroupDef.Codable
    { groupId := 9, allowPos := 1, maxAz := 100, members := [4, 100, 127], numMembers := 3 } := by constructor <;> simp

/-! ### Switch groups and presets are read back as coded (C51, C52) -/

/-- C51: a switch group definition is read back exactly as coded, for every number of members
1..32. -/
theorem C51_switch_round_trip (g : SwitchDef) (grp : Nat) (tbl : List SwitchDef) (l : List Bool)
    (hc : g.Codable) (hlen : grp < tbl.length)
    (hid : ∀ i h, i < grp → tbl[i]? = some h → h.groupId ≠ g.groupId) :
    run (switchDef grp tbl) (g.bits ++ l) = .ok (tbl.set grp g, l) := by
  obtain ⟨c1, ⟨f1, f2⟩, c3, ⟨c4, c5, c6⟩, c7, c8⟩ := hc
  have hd : ¬ dupId (tbl.map SwitchDef.groupId) grp g.groupId = true := by
    unfold dupId
    rw [List.contains_iff_mem, List.mem_take_iff_getElem]
    rintro ⟨i, hi, he⟩
    simp at hi he
    exact hid i _ (by omega) (List.getElem?_eq_getElem (by omega)) he
  have e7 : toI8 ((g.groupId.toNat : Nat) : Int) = g.groupId := by unfold toI8; omega
  have em : toI8 (toI8 ((g.members.length - 1 : Nat) : Int) + 1) = g.members.length := by
    unfold toI8; omega
  have b1 : (if (g.allowOnOff != 0) = true then g.defaultOnOff else 0) = g.defaultOnOff := by
    by_cases h : g.allowOnOff = 0
    · simp [h, c3 h]
    · simp [h]
  unfold switchDef SwitchDef.bits
  simp only [List.append_assoc]
  rw [run_inTable_bind _ _ _ _ (by omega), run_bits_bind _ _ _ _ (by decide) (by omega)]
  simp only [e7]
  rw [run_ite_neg _ _ _ hd, run_bits_bind _ _ _ _ (by decide) (by omega),
    run_optBits_bind _ _ _ _ _ (by decide) (by omega),
    run_bits_bind _ _ _ _ (by decide) (by omega)]
  simp only [em, b1]
  rw [run_forN_bind _ (natBits 7) g.members 0 _ _ (by omega),
    run_bits_bind _ _ _ _ (by decide) (by omega), run_setAt _ _ _ _ hlen]
  · cases g
    simp_all
  · intro j a ha l'
    have hj : j < g.members.length := (List.getElem?_eq_some_iff.mp ha).1
    rw [run_inTable_bind _ _ _ _ (by omega), run_bits_append _ _ (by decide),
      Nat.mod_eq_of_lt (c7 a (List.mem_of_getElem? ha))]

example : SwitchDef.Codable
    { groupId := 31, members := List.range 32, numMembers := 32, defaultGroup := 99 } := by
  constructor <;> simp <;> omega

theorem presetCond_run (g : GroupDef) (cnt : Nat) (hcnt : cnt < 16) (c : Cond) (hc : c.Codable)
    (hg : c.gainFlag = 1 → g.allowGain ≠ 0) (hp : c.posFlag = 1 → g.allowPos ≠ 0)
    (l : List Bool) : run (presetCond g cnt) (c.bits ++ l) = .ok (c, l) := by
  obtain ⟨c1, c2, c3, ⟨f1, f2, f3, f4⟩, c5, c6⟩ := hc
  unfold presetCond Cond.bits
  simp only [List.append_assoc]
  rw [run_inTable_bind _ _ _ _ (by omega), run_bits_bind _ _ _ _ (by decide) (by omega),
    run_bits_bind _ _ _ _ (by decide) (by omega)]
  by_cases hon : c.onOff = 0
  · have : ¬ (c.onOff != 0) = true := by simp [hon]
    rw [run_ite_neg _ _ _ this, if_neg this, c3 hon]
    rfl
  · have : (c.onOff != 0) = true := by simp [hon]
    rw [run_ite_pos _ _ _ this, if_pos this]
    have b1 : (if (c.gainFlag != 0) = true then c.gain else 0) = c.gain := by
      by_cases h : c.gainFlag = 1
      · simp [h]
      · have h0 : c.gainFlag = 0 := by omega
        simp [h0] at c5 ⊢; omega
    have b2 : (if (c.posFlag != 0) = true then c.az else 0) = c.az ∧
        (if (c.posFlag != 0) = true then c.el else 0) = c.el ∧
        (if (c.posFlag != 0) = true then c.dist else 0) = c.dist := by
      by_cases h : c.posFlag = 1
      · simp [h]
      · have h0 : c.posFlag = 0 := by omega
        simp [h0] at c6 ⊢; omega
    have r1 : c.gain < 2 ^ 8 := by split at c5 <;> omega
    have r2 : c.az < 2 ^ 8 ∧ c.el < 2 ^ 6 ∧ c.dist < 2 ^ 4 := by split at c6 <;> omega
    simp only [List.append_assoc]
    rw [run_bits_bind _ _ _ _ (by decide) (by omega), run_bits_bind _ _ _ _ (by decide) (by omega),
      run_optBits_bind _ _ _ _ _ (by decide) (by omega)]
    rw [run_ite_neg _ _ _ (by rintro ⟨ha, hb⟩; exact hg (by omega) ha)]
    rw [run_bits_bind _ _ _ _ (by decide) (by omega), run_bits_bind _ _ _ _ (by decide) (by omega)]
    try simp only
    rw [run_optBits_bind _ _ _ _ _ (by decide) (by omega),
      run_optBits_bind _ _ _ _ _ (by decide) (by omega),
      run_optBits_bind _ _ _ _ _ (by decide) (by omega)]
    rw [run_ite_neg _ _ _ (by rintro ⟨ha, hb⟩; exact hp (by omega) ha)]
    simp only [b1, b2]
    rfl

/-- The decoder applies the interactivity rule to this group: the entry of the group table at the
*preset's* position. -/
def gate (groups : List GroupDef) (grp : Nat) : Option GroupDef := groups[grp]?

/-- C52, the part that holds: a preset is read back exactly as coded when the group at the
preset's own table position permits its gain and position changes. Missing: that the permission
checked is the one of the referenced group, which is false (`C52_refuted`). -/
theorem C52_preset_round_trip_partial (groups : List GroupDef) (g : GroupDef) (p : PresetDef)
    (grp : Nat) (tbl : List PresetDef) (l : List Bool) (hc : p.Codable) (hlen : grp < tbl.length)
    (hid : ∀ i h, i < grp → tbl[i]? = some h → h.groupId ≠ p.groupId)
    (hg : gate groups grp = some g)
    (hok : ∀ c ∈ p.conds, (c.gainFlag = 1 → g.allowGain ≠ 0) ∧ (c.posFlag = 1 → g.allowPos ≠ 0)) :
    run (presetDef groups grp tbl) (p.bits ++ l) = .ok (tbl.set grp p, l) := by
  obtain ⟨c1, c2, ⟨c4, c5, c6⟩, c7⟩ := hc
  have hd : ¬ dupId (tbl.map PresetDef.groupId) grp p.groupId = true := by
    unfold dupId
    rw [List.contains_iff_mem, List.mem_take_iff_getElem]
    rintro ⟨i, hi, he⟩
    simp at hi he
    exact hid i _ (by omega) (List.getElem?_eq_getElem (by omega)) he
  have e7 : toI8 ((p.groupId.toNat : Nat) : Int) = p.groupId := by unfold toI8; omega
  have em : toI8 (toI8 ((p.conds.length - 1 : Nat) : Int) + 1) = p.conds.length := by
    unfold toI8; omega
  unfold presetDef PresetDef.bits
  simp only [List.append_assoc]
  rw [run_inTable_bind _ _ _ _ (by omega), run_bits_bind _ _ _ _ (by decide) (by omega)]
  simp only [e7]
  rw [run_ite_neg _ _ _ hd, run_bits_bind _ _ _ _ (by decide) (by omega),
    run_bits_bind _ _ _ _ (by decide) (by omega)]
  simp only [em]
  rw [run_ite_neg _ _ _ (by omega), run_getAt_bind _ _ g _ _ hg,
    run_forN_bind _ Cond.bits p.conds 0 _ _ (by omega), run_setAt _ _ _ _ hlen]
  · cases p
    simp_all
  · intro j c hcj l'
    have hj : j < p.conds.length := (List.getElem?_eq_some_iff.mp hcj).1
    have hm := List.mem_of_getElem? hcj
    exact presetCond_run g _ (by omega) c (c7 c hm) (hok c hm).1 (hok c hm).2 l'

/-- C52 is false: group 7 (second table entry) permits gain changes and the preset changes its
gain, but the preset is refused because the *first* group does not permit gain changes; with the
roles swapped a forbidden gain change is accepted. -/
theorem C52_refuted :
    let groups : List GroupDef := [{ groupId := 3 }, { groupId := 7, allowGain := 1 }]
    let c : Cond := { refId := 7, onOff := 1, gainFlag := 1, gain := 20 }
    let d : Cond := { refId := 3, onOff := 1, gainFlag := 1, gain := 20 }
    run (presetDef groups 0 (List.replicate 8 {})) (PresetDef.bits { conds := [c] }) =
        .err presetFail ∧
      ∃ t, run (presetDef groups.reverse 0 (List.replicate 8 {}))
        (PresetDef.bits { conds := [d] }) = .ok (t, []) := by
  refine ⟨by decide +kernel, _, rfl⟩

example : PresetDef.Codable
  { groupId := 4, kind := 2, numConditions := 2,
    conds := [{ refId := 7, onOff := 1, gainFlag := 1, gain := 20 }, { refId := 3 }] } := by
  constructor <;> simp
  constructor
  · constructor <;> simp
  · constructor <;> simp

/-! ### C15: a data set of a known type occurs at most once -/

/-- The known data set types among those recorded so far. -/
def knownTypes (sc : Scene) : List Int := (sc.dataSets.map Prod.fst).filter (fun t => t ≤ 9)

/-- What the counters of the data set loop know: exactly the known types recorded so far. -/
def Tracks (st : Scene × List Nat) : Prop :=
  (knownTypes st.1).Nodup ∧ ∀ t : Nat, t ≤ 9 → (t ∈ st.2 ↔ (t : Int) ∈ knownTypes st.1)

theorem run_bind_ok {α β : Type} {p : Prog α} {f : α → Prog β} {l l' : List Bool} {b : β} :
    run (p >>= f) l = .ok (b, l') ↔ ∃ a l1, run p l = .ok (a, l1) ∧ run (f a) l1 = .ok (b, l') := by
  rw [run_bind, Res.bind_eq_ok]
  constructor
  · rintro ⟨⟨a, l1⟩, h1, h2⟩; exact ⟨a, l1, h1, h2⟩
  · rintro ⟨a, l1, h1, h2⟩; exact ⟨(a, l1), h1, h2⟩

/-- The body records a known type once and leaves the list of recorded sets alone. -/
theorem dataSetBody_seen {sc : Scene} {seen : List Nat} {ty len : Nat} {l l' : List Bool}
    {r : Scene × List Nat} (h : run (dataSetBody sc seen ty len) l = .ok (r, l')) :
    r.1.dataSets = sc.dataSets ∧
      if ty ≤ 9 then ty ∉ seen ∧ r.2 = ty :: seen else r.2 = seen := by
  unfold dataSetBody at h
  split at h
  · simp at h
  · rename_i hns
    split at h
    all_goals
      simp only [run_bind_ok, run_pure, Res.ok.injEq, Prod.mk.injEq] at h
    rotate_left 10
    · obtain ⟨_, _, _, rfl, _⟩ := h
      have h9 : ¬ ty ≤ 9 := by
        intro hle
        have : ty = 0 ∨ ty = 1 ∨ ty = 2 ∨ ty = 3 ∨ ty = 4 ∨ ty = 5 ∨ ty = 6 ∨ ty = 7 ∨ ty = 8 ∨
          ty = 9 := by omega
        rcases this with h | h | h | h | h | h | h | h | h | h <;> simp_all
      simp [h9]
    rotate_left 1
    · obtain ⟨_, _, _, _, _, _, rfl, _⟩ := h
      simpa using hns
    all_goals
      obtain ⟨_, _, _, rfl, _⟩ := h
      simpa using hns

theorem dataSet_ok {cnt : Nat} {st r : Scene × List Nat} {l l' : List Bool}
    (h : run (dataSet cnt st) l = .ok (r, l')) :
    ∃ (ty : Nat) (len : Int) (body : Scene × List Nat) (l1 l2 : List Bool),
      run (dataSetBody st.1 st.2 ty (len % 65536).toNat) l1 = .ok (body, l2) ∧
      r = ({ body.1 with dataSets := body.1.dataSets ++ [((ty : Int), len)] }, body.2) := by
  unfold dataSet at h
  simp only [run_bind_ok] at h
  obtain ⟨_, _, _, ty, _, h1, len, _, h2, c0, l1, _, b, l2, h4, c1, _, _, _, _, _, h5⟩ := h
  simp only [run_pure, Res.ok.injEq, Prod.mk.injEq] at h5
  have hl : len < 65536 := by
    have := (Safe.bits (n := 16) (by decide) _).2 _ _ h2
    simpa using this
  refine ⟨ty, toI16 len, b, l1, l2, ?_, h5.1.symm⟩
  have : (toI16 (len : Int) % 65536).toNat = len := by unfold toI16; omega
  rw [this]
  exact h4

theorem dataSet_tracks {cnt : Nat} {st r : Scene × List Nat} {l l' : List Bool}
    (ht : Tracks st) (h : run (dataSet cnt st) l = .ok (r, l')) : Tracks r := by
  obtain ⟨ty, len, b, l1, l2, hb, rfl⟩ := dataSet_ok h
  obtain ⟨hds, hseen⟩ := dataSetBody_seen hb
  obtain ⟨hn, ht⟩ := ht
  have hk : knownTypes { b.1 with dataSets := b.1.dataSets ++ [((ty : Int), len)] } =
      knownTypes st.1 ++ if ty ≤ 9 then [(ty : Int)] else [] := by
    unfold knownTypes
    rw [hds]
    by_cases h9 : ty ≤ 9
    · have : (ty : Int) ≤ 9 := by omega
      simp [h9, this]
    · have : ¬ (ty : Int) ≤ 9 := by omega
      simp [h9, this]
  unfold Tracks
  rw [hk]
  split at hseen
  · rename_i h9
    rw [if_pos h9]
    refine ⟨?_, ?_⟩
    · rw [List.nodup_append]
      refine ⟨hn, by simp, ?_⟩
      intro x hx y hy hxy
      simp at hy
      subst hy; subst hxy
      exact hseen.1 ((ht ty h9).2 hx)
    · intro t ht9
      rw [hseen.2]
      simp only [List.mem_cons, List.mem_append, List.not_mem_nil, or_false]
      rw [ht t ht9]
      constructor
      · rintro (rfl | h)
        · right; rfl
        · left; exact h
      · rintro (h | h)
        · right; exact h
        · left; omega
  · rename_i h9
    rw [if_neg h9, List.append_nil, hseen]
    exact ⟨hn, ht⟩

theorem dataSets_track (k i : Nat) (st : Scene × List Nat) (l : List Bool)
    (ht : Tracks st) (r : Scene × List Nat) (l' : List Bool)
    (h : run (foldN dataSet k i st) l = .ok (r, l')) : Tracks r := by
  induction k generalizing i st l with
  | zero =>
    simp [foldN] at h
    rw [← h.1]; exact ht
  | succ k ih =>
    simp only [foldN, run_bind_ok] at h
    obtain ⟨s, l1, h1, h2⟩ := h
    exact ih (i + 1) s l1 (dataSet_tracks ht h1) h2

theorem tracks_init (sc : Scene) : Tracks ({ sc with dataSets := [] }, []) := by
  constructor
  · simp [knownTypes]
  · intro t _; simp [knownTypes]

theorem run_foldN_add {σ : Type} (f : Nat → σ → Prog σ) (k m i : Nat) (s : σ) (l : List Bool) :
    run (foldN f (k + m) i s) l =
      (run (foldN f k i s) l >>= fun x => run (foldN f m (i + k) x.1) x.2) := by
  induction k generalizing i s l with
  | zero => simp [foldN]
  | succ k ih =>
    rw [show k + 1 + m = (k + m) + 1 by omega]
    simp only [foldN, run_bind, Res.bind_assoc']
    congr 1
    funext x
    rw [ih (i + 1), show i + 1 + k = i + (k + 1) by omega]

/-- C15, accepted scenes: no known data set type is recorded twice. -/
theorem C15_accepted (sc sc' : Scene) (l l' : List Bool)
    (h : run (dataParse sc) l = .ok (sc', l')) : (knownTypes sc').Nodup := by
  unfold dataParse at h
  simp only [run_bind_ok, run_pure, Res.ok.injEq, Prod.mk.injEq] at h
  obtain ⟨n, l1, _, r, l2, h2, rfl, _⟩ := h
  exact (dataSets_track n 0 _ _ (tracks_init sc) _ _ h2).1

/-- C15, repeats: when the first `k` data sets are read and the next one has a known type that
already occurred, the scene is rejected with the scene parse error, whatever the length and
contents are and however many sets were announced. -/
theorem C15_repeat_rejected (sc : Scene) (n k : Nat) (hn : n < 16) (hk : k < n)
    (l : List Bool) (st : Scene × List Nat) (ty len : Nat) (hty : ty ≤ 9) (hlen : len < 65536)
    (rest : List Bool)
    (hpre : run (foldN dataSet k 0 ({ sc with dataSets := [] }, [])) l =
      .ok (st, natBits 4 ty ++ (natBits 16 len ++ rest)))
    (hrep : (ty : Int) ∈ st.1.dataSets.map Prod.fst) :
    run (dataParse sc) (natBits 4 n ++ l) = .err .asiParseFail := by
  have ht := dataSets_track k 0 _ _ (tracks_init sc) _ _ hpre
  have hseen : ty ∈ st.2 := by
    rw [ht.2 ty hty]
    unfold knownTypes
    rw [List.mem_filter]
    exact ⟨hrep, by simp; omega⟩
  unfold dataParse
  rw [run_bits_bind _ _ _ _ (by decide) (by omega), run_bind,
    show n = k + ((n - k - 1) + 1) by omega, run_foldN_add, hpre]
  simp only [Res.ok_bind, foldN]
  rw [run_bind]
  have : run (dataSet (0 + k) st) (natBits 4 ty ++ (natBits 16 len ++ rest)) =
      .err .asiParseFail := by
    unfold dataSet
    rw [run_inTable_bind _ _ _ _ (by omega), run_bits_bind _ _ _ _ (by decide) (by omega),
      run_bits_bind _ _ _ _ (by decide) (by omega), run_bind]
    simp only [run_avail, Res.ok_bind]
    rw [run_bind]
    unfold dataSetBody
    rw [run_ite_pos _ _ _ ⟨hty, hseen⟩]
    rfl
  rw [this]
  rfl

/-- Two screen size data sets, the second with different length and contents, are rejected. -/
example : run (dataParse Scene.empty) (natBits 4 2 ++ (natBits 4 4 ++ natBits 16 1 ++ natBits 8 0 ++
    natBits 4 4 ++ natBits 16 4 ++ natBits 24 0xffffff ++ natBits 8 0)) = .err .asiParseFail := by
  decide +kernel

/-! ### C16: unknown data sets -/

theorem run_bytes (L i : Nat) (payload l : List Bool) (h : payload.length = 8 * L) :
    ∃ vs, run (forN (fun _ => bits 8) L i) (payload ++ l) = .ok (vs, l) := by
  induction L generalizing i payload with
  | zero =>
    have : payload = [] := List.length_eq_zero_iff.mp (by omega)
    subst this
    exact ⟨[], rfl⟩
  | succ L ih =>
    have hd : (payload.drop 8).length = 8 * L := by simp; omega
    obtain ⟨vs, e⟩ := ih (i + 1) (payload.drop 8) hd
    refine ⟨bitsVal (payload.take 8) :: vs, ?_⟩
    simp only [forN]
    rw [run_bind, run_bits, if_neg (by simp; omega), if_neg (by decide)]
    simp only [Res.ok_bind]
    rw [List.take_append_of_le_length (by omega), List.drop_append_of_le_length (by omega),
      run_bind, e]
    rfl

/-- C16: a data set of unknown type (10..15) and length `L` bytes, `0 ≤ L < 65536`, changes no
table, only its header is recorded, and parsing goes on right after its `8 L` payload bits. -/
theorem C16_unknown_skipped (cnt : Nat) (hcnt : cnt < 15) (sc : Scene) (seen : List Nat)
    (ty L : Nat) (hty : 10 ≤ ty ∧ ty ≤ 15) (hL : L < 65536) (payload rest : List Bool)
    (hp : payload.length = 8 * L) :
    run (dataSet cnt (sc, seen)) (natBits 4 ty ++ (natBits 16 L ++ (payload ++ rest))) =
      .ok (({ sc with dataSets := sc.dataSets ++ [((ty : Int), toI16 L)] }, seen), rest) := by
  obtain ⟨vs, e⟩ := run_bytes L 0 payload rest hp
  have hbody : run (dataSetBody sc seen ty L) (payload ++ rest) = .ok ((sc, seen), rest) := by
    unfold dataSetBody
    rw [run_ite_neg _ _ _ (by omega)]
    split
    all_goals first
      | omega
      | (rw [run_bind, e]; rfl)
  unfold dataSet
  rw [run_inTable_bind _ _ _ _ (by omega), run_bits_bind _ _ _ _ (by decide) (by omega),
    run_bits_bind _ _ _ _ (by decide) (by omega), run_bind]
  simp only [run_avail, Res.ok_bind]
  rw [run_bind, hbody]
  simp only [Res.ok_bind, run_bind, run_avail]
  have : ¬ ((payload ++ rest).length : Int) - (rest.length : Int) < toI32 (toI16 (L : Int) * 8) := by
    rw [List.length_append, hp]
    unfold toI32 toI16; omega
  unfold Prog.when
  rw [if_neg (by simpa using this)]
  rfl

/-- A 40000-byte unknown data set meets the hypotheses. -/
example : ∃ payload : List Bool, payload.length = 8 * 40000 :=
  ⟨List.replicate _ true, List.length_replicate ..⟩

/-! ### C53: known data sets and their declared length -/

/-- C53, the part that holds: a known data set whose contents fit into its declared length
`L < 32768` bytes occupies exactly `8 L` bits, and a shorter one is padded over.
Missing: `L ≥ 32768` and contents longer than declared, where it is false (`C53_refuted`). -/
theorem C53_declared_length_partial (cnt : Nat) (hcnt : cnt < 15) (st r : Scene × List Nat)
    (ty L : Nat) (hty : ty < 16) (hL : L < 32768) (l l' : List Bool)
    (hbody : run (dataSetBody st.1 st.2 ty L) l = .ok (r, l'))
    (hfit : l.length - l'.length ≤ 8 * L) (hlong : 8 * L ≤ l.length) :
    run (dataSet cnt st) (natBits 4 ty ++ (natBits 16 L ++ l)) =
      .ok (({ r.1 with dataSets := r.1.dataSets ++ [((ty : Int), (L : Int))] }, r.2),
        l.drop (8 * L)) := by
  obtain ⟨m, hm, rfl⟩ := run_suffix _ _ hbody
  unfold dataSet
  rw [run_inTable_bind _ _ _ _ (by omega), run_bits_bind _ _ _ _ (by decide) (by omega),
    run_bits_bind _ _ _ _ (by decide) (by omega), run_bind]
  simp only [run_avail, Res.ok_bind]
  rw [run_bind, hbody]
  simp only [Res.ok_bind, run_bind, run_avail]
  have e1 : toI16 (L : Int) = L := by unfold toI16; omega
  have e2 : toI32 ((L : Int) * 8) = 8 * L := by unfold toI32; omega
  rw [e1, e2]
  rw [List.length_drop] at hfit ⊢
  unfold Prog.when
  by_cases hc : (l.length : Int) - ((l.length - m : Nat) : Int) < 8 * L
  · rw [if_pos (by simpa using hc)]
    rw [run_drop, if_neg (by omega), if_neg (by rw [List.length_drop]; omega)]
    have em : m + (8 * (L : Int) - ((l.length : Int) - ((l.length - m : Nat) : Int))).toNat =
      8 * L := by omega
    simp only [Res.ok_bind, run_pure, List.drop_drop, em]
  · rw [if_neg (by simpa using hc)]
    have em : m = 8 * L := by omega
    simp only [Res.ok_bind, run_pure, em]

/-- C53 is false: a screen size data set (one bit of contents) that declares `L ≥ 32768` bytes
is left after one bit, and one that declares 0 bytes still takes one bit. -/
theorem C53_refuted (L : Nat) (hL : (32768 ≤ L ∧ L < 65536) ∨ L = 0) (l : List Bool) :
    ∃ r, run (dataSet 0 (Scene.empty, [])) (natBits 4 4 ++ (natBits 16 L ++ (false :: l))) =
      .ok (r, l) := by
  unfold dataSet
  rw [run_inTable_bind _ _ _ _ (by omega), run_bits_bind _ _ _ _ (by decide) (by omega),
    run_bits_bind _ _ _ _ (by decide) (by omega), run_bind]
  simp only [run_avail, Res.ok_bind]
  rw [run_bind]
  have : run (dataSetBody Scene.empty [] 4 L) (false :: l) =
      .ok (({ Scene.empty with screen := (0, 0, 0, 0) }, [4]), l) := by
    unfold dataSetBody
    rw [run_ite_neg _ _ _ (by simp)]
    simp only [screenSize, run_bind]
    have : run (bits 1) (false :: l) = .ok (0, l) := by
      rw [run_bits, if_neg (by simp), if_neg (by decide)]
      rfl
    rw [this]
    rfl
  rw [this]
  simp only [Res.ok_bind, run_bind, run_avail]
  unfold Prog.when
  rw [if_neg (by simp; unfold toI32 toI16; omega)]
  exact ⟨_, rfl⟩

end Verif.Asi
