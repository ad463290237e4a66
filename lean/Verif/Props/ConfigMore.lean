import Verif.Props.ConfigSafe
import Verif.Props.ConfigDmx
import Verif.Props.ConfigMap
import Verif.Proofs.Fields
import Verif.Props.DrcParse

/-! # C124: default priorities.  C125: compatible levels.  C126: format conversion.  C127: layouts of groups -/

namespace Verif.Config

open Prog

/-! ## C93: accepted downmix identifiers -/

theorem dmxId_post (i : Nat) : Post 0 (dmxId i) (fun d => 1 ≤ d.1 ∧ d.1 ≤ 126 ∧ d.2 ≤ 20) := by
  unfold dmxId
  refine Post.bind Post.triv fun _ _ => Post.bind (Safe.bits (n := 7) (by decide)).post fun id hid => ?_
  refine Post.bind Post.triv fun ty _ => ?_
  refine Post.ite (fun _ => Post.fail) fun h => Post.ite (fun _ => Post.fail) fun _ => ?_
  refine Post.bind Post.triv fun layout _ => Post.bind Post.triv fun _ _ => ?_
  refine Post.ite (fun _ => Post.fail) fun hl => Post.pure ?_
  norm_num at hid
  dsimp only
  omega

theorem forN_post {α : Type} {f : Nat → Prog α} {P : α → Prop} (k i : Nat) (h : ∀ j, Post 0 (f j) P) :
    Post 0 (forN f k i) (fun l => l.length = k ∧ ∀ x ∈ l, P x) := by
  induction k generalizing i with
  | zero => exact Post.pure ⟨rfl, by simp⟩
  | succ k ih =>
    unfold Prog.forN
    refine Post.bind (h i) fun a ha => Post.bind (ih (i + 1)) fun as has => Post.pure ⟨by simp [has.1], ?_⟩
    intro x hx
    rcases List.mem_cons.mp hx with rfl | hx
    · exact ha
    · exact has.2 x hx

/-- **C93.** Every accepted downmix configuration has at most 6 downmixes, with identifiers from 1 to 126 and
layouts within the tables. -/
theorem C93_accepted (l l' : List Bool) (ds : List (Nat × Nat)) (h : run dmxConfig l = .ok (ds, l')) :
    ds.length ≤ 6 ∧ ∀ d ∈ ds, 1 ≤ d.1 ∧ d.1 ≤ 126 ∧ d.2 ≤ 20 := by
  have hp : Post 0 dmxConfig (fun ds => ds.length ≤ 6 ∧ ∀ d ∈ ds, 1 ≤ d.1 ∧ d.1 ≤ 126 ∧ d.2 ≤ 20) := by
    unfold dmxConfig
    refine Post.bind Post.triv fun ty _ => Post.ite (fun _ => Post.fail) fun _ => ?_
    refine Post.bind Post.triv fun _ _ => Post.ite (fun _ => ?_) fun _ => Post.pure ⟨by simp, by simp⟩
    refine Post.bind Post.triv fun n _ => Post.ite (fun _ => Post.fail) fun hn => ?_
    exact (forN_post n 0 dmxId_post).mono fun ds hd => ⟨by omega, hd.2⟩
  exact hp l ds l' h (Nat.zero_le _)

example : ∃ ds l', run dmxConfig (encDmx [⟨3, 6, none⟩] ++ [true]) = .ok (ds, l') ∧ ds ≠ [] :=
  ⟨[(3, 6)], [true], by decide +kernel, by simp⟩

/-! ## C124: priorities of groups without group information -/

/-- The claim C124: two configurations read one after the other; where a new decoder finds no group information
in the second, its groups have priority 7 and fixed positions. -/
def DefaultPriority : Prop :=
  ∀ (sub : Sub) (user : Nat) (l1 r1 l2 r2 r3 : List Bool) (c1 c2 c3 : Cfg), run (configDec sub user Cfg.zero) l1 = .ok (c1, r1) →
    run (configDec sub user c1) l2 = .ok (c2, r2) → run (configDec sub user Cfg.zero) l2 = .ok (c3, r3) → c3.ext.info = 0 →
    ∀ i < c2.numGroups, c2.ext.prio[i]? = some 7 ∧ c2.ext.fixed[i]? = some 1

/-- Two objects, with audio scene information and group information: priority 3, no fixed position. -/
def sceneInfo : List Bool :=
  front 11 ++ objects 2 ++ oneElement sce ++
    (natBits 1 1 ++ natBits 2 1 ++ (natBits 4 6 ++ natBits 4 1 ++ (natBits 4 6 ++ natBits 4 6)) ++ (natBits 4 3 ++ natBits 4 0))

/-- **C124, refuted.** After a configuration with audio scene and group information a configuration without them
keeps the priorities of the old one. -/
theorem C124_refuted : ¬ DefaultPriority := by
  intro H
  have h : (run (configDec noSub 0 Cfg.zero) sceneInfo).map
      (fun r => (run (configDec noSub 0 r.1) plain).map (fun r => (r.1.numGroups, r.1.ext.prio.take 1))) = .ok (.ok (1, [3])) := by
    decide +kernel
  obtain ⟨c1, r1, h1, hc⟩ := of_map
    (f := fun c => (run (configDec noSub 0 c) plain).map (fun r => (r.1.numGroups, r.1.ext.prio.take 1))) h
  obtain ⟨c2, r2, h2, hc2⟩ := of_map (f := fun c : Cfg => (c.numGroups, c.ext.prio.take 1)) hc
  have h' : (run (configDec noSub 0 Cfg.zero) plain).map (fun r => (fun c : Cfg => c.ext.info) r.1) = .ok 0 := by decide +kernel
  obtain ⟨c3, r3, h3, hc3⟩ := of_map (f := fun c : Cfg => c.ext.info) h'
  have := (H noSub 0 _ _ _ _ _ _ _ _ h1 h2 h3 hc3 0 (by rw [(Prod.mk.inj hc2).1]; decide)).1
  have hp := (Prod.mk.inj hc2).2
  rw [← List.getElem?_take_of_lt (i := 0) (j := 1) (by decide), hp] at this
  simp at this

/-- **C124, the part that holds.** Whenever the flag for group information is clear after a configuration, all its
groups have priority 7 and fixed positions.  Missing: configurations without group information after which the
flag is still set. -/
theorem C124_default_partial (sub : Sub) (user : Nat) (c c' : Cfg) (l l' : List Bool)
    (h : run (configDec sub user c) l = .ok (c', l')) (hi : c'.ext.info ≠ 1) (i : Nat) (hn : i < c'.numGroups) :
    c'.ext.prio[i]? = some 7 ∧ c'.ext.fixed[i]? = some 1 := by
  unfold configDec at h
  dsimp only at h
  rw [run_bind] at h
  obtain ⟨⟨x, l1⟩, _, h2⟩ := Res.bind_eq_ok.mp h
  dsimp only at h2
  split at h2
  · rename_i hx
    simp only [run_pure, Res.ok.injEq, Prod.mk.injEq] at h2
    rw [← h2.1] at hi
    exact absurd hx hi
  · simp only [run_pure, Res.ok.injEq, Prod.mk.injEq] at h2
    rw [← h2.1] at hn ⊢
    dsimp only at hn ⊢
    refine ⟨?_, ?_⟩
    · rw [List.getElem?_append_left (by simpa using hn)]
      simp [hn]
    · rw [List.getElem?_append_left (by simpa using hn)]
      simp [hn]

example : ∃ c' l', run (configDec noSub 0 Cfg.zero) plain = .ok (c', l') ∧ c'.ext.info ≠ 1 ∧ 0 < c'.numGroups := by
  have h' : (run (configDec noSub 0 Cfg.zero) plain).map (fun r => (fun c : Cfg => (c.ext.info, c.numGroups)) r.1) = .ok (0, 1) := by
    decide +kernel
  obtain ⟨c3, r3, h3, hc3⟩ := of_map (f := fun c : Cfg => (c.ext.info, c.numGroups)) h'
  obtain ⟨h1, h2⟩ := Prod.mk.inj hc3
  exact ⟨c3, r3, h3, by omega, by omega⟩

/-! ## C125: of the compatible levels the least counts -/

/-- `m` is the least of `top` and the values from `lo` to `top` in a list. -/
def LeastLevel (lo top : Nat) (vs : List Nat) (m : Nat) : Prop :=
  (m = top ∨ m ∈ vs ∧ lo ≤ m ∧ m ≤ top) ∧ m ≤ top ∧ ∀ v ∈ vs, lo ≤ v → v ≤ top → m ≤ v

theorem leastLevel_nil (lo top : Nat) : LeastLevel lo top [] top := ⟨Or.inl rfl, Nat.le_refl _, by simp⟩

theorem leastLevel_snoc {lo top : Nat} {vs : List Nat} {m : Nat} (h : LeastLevel lo top vs m) (v : Nat) :
    LeastLevel lo top (vs ++ [v]) (if lo ≤ v ∧ v ≤ top then min m v else m) := by
  obtain ⟨h1, h2, h3⟩ := h
  split
  · rename_i hv
    refine ⟨?_, by omega, fun w hw a b => ?_⟩
    · rcases Nat.le_total m v with hm | hm
      · rw [Nat.min_eq_left hm]
        rcases h1 with h1 | ⟨h1, h4⟩
        · exact Or.inl h1
        · exact Or.inr ⟨by simp [h1], h4⟩
      · rw [Nat.min_eq_right hm]
        exact Or.inr ⟨by simp, hv⟩
    · rcases List.mem_append.mp hw with hw | hw
      · have := h3 w hw a b
        omega
      · simp only [List.mem_singleton] at hw
        omega
  · rename_i hv
    refine ⟨?_, h2, fun w hw a b => ?_⟩
    · rcases h1 with h1 | ⟨h1, h4⟩
      · exact Or.inl h1
      · exact Or.inr ⟨by simp [h1], h4⟩
    · rcases List.mem_append.mp hw with hw | hw
      · exact h3 w hw a b
      · simp only [List.mem_singleton] at hw
        subst hw
        exact absurd ⟨a, b⟩ hv

/-- **C125.** A list of compatible levels is read to its end and gives the least level of the low complexity
profile and the least level of the baseline profile it names, level 5 where it names none. -/
theorem C125_least (vs : List Nat) (h0 : vs ≠ []) (h1 : vs.length ≤ 16) (hv : ∀ v ∈ vs, v < 256) (r : Nat) (hr : r < 16)
    (l : List Bool) :
    ∃ lc bp, run compatSet (natBits 4 (vs.length - 1) ++ (natBits 4 r ++ (vs.flatMap (natBits 8) ++ l))) = .ok ((lc, bp), l) ∧
      LeastLevel 11 15 vs lc ∧ LeastLevel 16 20 vs bp := by
  have hpos : 0 < vs.length := List.length_pos_iff.mpr h0
  obtain ⟨s, hs, hi⟩ := DrcGain.run_foldN_items (fun i (s : Nat × Nat) => do
    let v ← bits 8
    inTable i 16
    pure (if 11 ≤ v ∧ v ≤ 15 then min s.1 v else s.1, if 16 ≤ v ∧ v ≤ 20 then min s.2 v else s.2)) (natBits 8) 0 vs
    (fun pre s => LeastLevel 11 15 pre s.1 ∧ LeastLevel 16 20 pre s.2) (by
      rintro pre v post s hall ⟨i1, i2⟩
      refine ⟨(if 11 ≤ v ∧ v ≤ 15 then min s.1 v else s.1, if 16 ≤ v ∧ v ≤ 20 then min s.2 v else s.2), fun l => ?_,
        leastLevel_snoc i1 v, leastLevel_snoc i2 v⟩
      have hl : pre.length < vs.length := by rw [hall]; simp
      rw [run_bits_bind 8 v _ _ (by decide) (hv v (by rw [hall]; simp)), run_inTable_bind _ _ _ _ ⟨by omega, by omega⟩]
      rfl) vs [] (15, 20) (by simp) ⟨leastLevel_nil _ _, leastLevel_nil _ _⟩
  refine ⟨s.1, s.2, ?_, hi⟩
  unfold compatSet
  rw [run_bits_bind 4 _ _ _ (by decide) (by omega), run_bits_bind 4 r _ _ (by decide) hr,
    show vs.length - 1 + 1 = vs.length by omega]
  exact hs l

example : ∃ lc bp, run compatSet (natBits 4 2 ++ (natBits 4 0 ++ ([13, 12, 17].flatMap (natBits 8) ++ [true]))) = .ok ((lc, bp), [true]) ∧
    lc = 12 ∧ bp = 17 := ⟨12, 17, by decide +kernel, rfl, rfl⟩

/-! ## C126: format conversion -/

/-- The layout channels are played with. -/
def playLayout (user : Nat) (c : Cfg) : Nat := if user ≠ 0 then user else c.ref.idx

/-- The claim C126, for configurations with channels and without a matrix for HOA: with another number of
loudspeakers than channels the format converter is on, and with the reference layout and as many loudspeakers as
channels it is off. -/
def Converts : Prop :=
  ∀ (sub : Sub) (user : Nat) (l l' : List Bool) (c : Cfg) (ls : Nat), run (configDec sub user Cfg.zero) l = .ok (c, l') →
    0 < c.groups.sig.ch → c.ext.hoaMatrix ≠ 1 → Speaker.numLsTbl[playLayout user c]? = some ls →
    (ls ≠ c.groups.sig.ch → c.fmtConv = 1) ∧ (playLayout user c = c.ref.idx → ls = c.groups.sig.ch → c.fmtConv = 0)

/-- Two channels for a reference layout of 5 loudspeakers, no extensions. -/
def fewChannels : List Bool :=
  natBits 8 11 ++ natBits 5 3 ++ natBits 3 1 ++ natBits 2 0 ++ natBits 2 0 ++ natBits 6 5 ++ channels 2 ++
    oneElement (shifted 1 0) ++ natBits 1 0

/-- **C126, refuted.** Without configuration extensions the converter is off though two channels are to be played
with 5 loudspeakers, and on though the application asks for the reference layout of the two channels. -/
theorem C126_refuted : ¬ Converts ∧
    (∃ l c l', run (configDec noSub 0 Cfg.zero) l = .ok (c, l') ∧ c.groups.sig.ch = 2 ∧ c.ref.idx = 5 ∧ c.fmtConv = 0) ∧
    ∃ l c l', run (configDec noSub 2 Cfg.zero) l = .ok (c, l') ∧ c.groups.sig.ch = 2 ∧ c.ref.idx = 2 ∧ c.fmtConv = 1 := by
  have h1 : (run (configDec noSub 0 Cfg.zero) fewChannels).map
      (fun r => (fun c : Cfg => (c.groups.sig.ch, c.ref.idx, c.fmtConv, c.ext.hoaMatrix)) r.1) = .ok (2, 5, 0, 0) := by decide +kernel
  have h2 : (run (configDec noSub 2 Cfg.zero) stereo).map
      (fun r => (fun c : Cfg => (c.groups.sig.ch, c.ref.idx, c.fmtConv)) r.1) = .ok (2, 2, 1) := by decide +kernel
  obtain ⟨c1, l1, r1, e1⟩ := of_map (f := fun c : Cfg => (c.groups.sig.ch, c.ref.idx, c.fmtConv, c.ext.hoaMatrix)) h1
  obtain ⟨c2, l2, r2, e2⟩ := of_map (f := fun c : Cfg => (c.groups.sig.ch, c.ref.idx, c.fmtConv)) h2
  simp only [Prod.mk.injEq] at e1 e2
  refine ⟨fun H => ?_, ⟨_, c1, l1, r1, e1.1, e1.2.1, e1.2.2.1⟩, ⟨_, c2, l2, r2, e2⟩⟩
  have := (H noSub 0 _ l1 c1 5 r1 (by omega) (by omega) (by simp [playLayout, e1.2.1, Speaker.numLsTbl])).1 (by omega)
  omega

/-- **C126, the part that holds.** In a configuration with extensions the converter is on exactly if there is no
matrix for HOA and either there is a downmix for a layout other than the reference layout or the number of
loudspeakers is not that of the channels.  Missing: configurations without extensions. -/
theorem C126_extensions_partial (sub : Sub) (user : Nat) (c c' : Cfg) (l l' : List Bool)
    (h : run (extPart sub user c) (natBits 1 1 ++ l) = .ok (c', l')) :
    ∃ ls, Speaker.numLsTbl[playLayout user c]? = some ls ∧ (c'.fmtConv = 0 ∨ c'.fmtConv = 1) ∧
      (c'.fmtConv = 1 ↔ c'.ext.hoaMatrix ≠ 1 ∧ (playLayout user c ≠ c.ref.idx ∧ c'.ext.dmx ≠ 0 ∨
        c.groups.outCh ≠ 0 ∧ playLayout user c ≠ 0 ∧ c.groups.outCh ≠ ls)) := by
  unfold extPart at h
  rw [run_bits_bind 1 1 _ _ (by decide) (by decide)] at h
  rw [if_pos (by decide)] at h
  change run (if playLayout user c > 20 then _ else _) l = _ at h
  split at h
  · simp at h
  rw [run_bind] at h
  obtain ⟨⟨x, l1⟩, _, h2⟩ := Res.bind_eq_ok.mp h
  dsimp only at h2
  rw [run_bind] at h2
  obtain ⟨⟨ls, l2⟩, h3, h4⟩ := Res.bind_eq_ok.mp h2
  dsimp only at h4
  simp only [run_pure, Res.ok.injEq, Prod.mk.injEq] at h4
  have hls := (Post.getAt (k := 0)) _ _ _ h3 (Nat.zero_le _)
  refine ⟨ls, hls, ?_⟩
  rw [← h4.1]
  dsimp only
  change ((if c.groups.outCh ≠ ls ∧ x.hoaMatrix ≠ 1 ∧ c.groups.outCh ≠ 0 ∧ playLayout user c ≠ 0 then 1
      else if playLayout user c = c.ref.idx ∨ x.dmx = 0 ∨ x.hoaMatrix = 1 then 0 else 1) = 0 ∨
    (if c.groups.outCh ≠ ls ∧ x.hoaMatrix ≠ 1 ∧ c.groups.outCh ≠ 0 ∧ playLayout user c ≠ 0 then 1
      else if playLayout user c = c.ref.idx ∨ x.dmx = 0 ∨ x.hoaMatrix = 1 then 0 else 1) = 1) ∧
    ((if c.groups.outCh ≠ ls ∧ x.hoaMatrix ≠ 1 ∧ c.groups.outCh ≠ 0 ∧ playLayout user c ≠ 0 then 1
      else if playLayout user c = c.ref.idx ∨ x.dmx = 0 ∨ x.hoaMatrix = 1 then 0 else 1) = 1 ↔ _)
  split
  · rename_i hc
    exact ⟨Or.inr rfl, fun _ => ⟨hc.2.1, Or.inr ⟨hc.2.2.1, hc.2.2.2, hc.1⟩⟩, fun _ => rfl⟩
  · rename_i hc
    split
    · rename_i hd
      refine ⟨Or.inl rfl, fun e => absurd e (by decide), fun ⟨e1, e2⟩ => ?_⟩
      rcases e2 with ⟨e2, e3⟩ | ⟨e2, e3, e4⟩
      · rcases hd with hd | hd | hd
        · exact absurd hd e2
        · exact absurd hd e3
        · exact absurd hd e1
      · exact absurd ⟨e4, e1, e2, e3⟩ hc
    · rename_i hd
      simp only [not_or] at hd
      exact ⟨Or.inr rfl, fun _ => ⟨hd.2.2, Or.inl ⟨hd.1, hd.2.1⟩⟩, fun _ => rfl⟩

example : ∃ c' l', run (extPart noSub 6 { Cfg.zero with ref := { Layout.zero with idx := 2 }, groups := { Groups.zero with outCh := 6 } })
    (natBits 1 1 ++ (natBits 2 0 ++ (natBits 4 1 ++ (natBits 4 1 ++ (natBits 2 1 ++ (natBits 5 0 ++ natBits 1 0)))))) = .ok (c', l') ∧
    c'.fmtConv = 1 := by
  have h : (run (extPart noSub 6 { Cfg.zero with ref := { Layout.zero with idx := 2 }, groups := { Groups.zero with outCh := 6 } })
    (natBits 1 1 ++ (natBits 2 0 ++ (natBits 4 1 ++ (natBits 4 1 ++ (natBits 2 1 ++ (natBits 5 0 ++ natBits 1 0))))))).map
      (fun r => (fun c : Cfg => c.fmtConv) r.1) = .ok 1 := by decide +kernel
  obtain ⟨c, l, h1, h2⟩ := of_map (f := fun c : Cfg => c.fmtConv) h
  exact ⟨c, l, h1, h2⟩

/-! ## C127: layouts of groups of channels -/

/-- The claim C127, for a group of `v + 1` channels with a layout of its own after `s`: it is refused only if its
layout has neither as many loudspeakers as the group has channels nor at most as many as the reference layout. -/
def GroupLayouts : Prop :=
  ∀ (refIdx i v idx a b : Nat) (s : Groups) (l : List Bool), i < 16 → s.types.length = 32 → s.numSig.length = 32 →
    s.differs.length = 32 → s.layouts.length = 32 → s.sig.chGroups < 32 → v < 31 → s.sig.ch + (v + 1) ≤ 24 →
    s.outCh + (v + 1) ≤ 24 → Speaker.numLsTbl[idx]? = some a → Speaker.numLsTbl[refIdx]? = some b → (a = v + 1 ∨ a ≤ b) →
    ∃ r, run (group refIdx i s) (natBits 3 0 ++ (natBits 5 v ++ (natBits 1 1 ++ (natBits 2 0 ++ (natBits 6 idx ++ l))))) = .ok (r, l)

/-- **C127, refuted.** After a group of two channels a group of 6 channels with a layout of 6 loudspeakers is refused
when the reference layout has two: all channels are counted. -/
theorem C127_refuted : ¬ GroupLayouts := by
  intro H
  obtain ⟨r, hr⟩ := H 2 1 5 6 6 2 { Groups.zero with sig := ⟨2, 0, 0, 0, 1⟩, outCh := 2 } [] (by decide) (by decide) (by decide)
    (by decide) (by decide) (by decide) (by decide) (by decide) (by decide) (by decide) (by decide) (by decide)
  have h : run (group 2 1 { Groups.zero with sig := ⟨2, 0, 0, 0, 1⟩, outCh := 2 })
      (natBits 3 0 ++ (natBits 5 5 ++ (natBits 1 1 ++ (natBits 2 0 ++ (natBits 6 6 ++ []))))) = .err (.other 0xFFFF903A) := by
    decide +kernel
  rw [h] at hr
  cases hr

/-- **C127, the part that holds.** A numbered layout of its own is accepted for a group exactly if it has as many
loudspeakers as there are channels in all groups so far, or at most as many as the reference layout.  For the first
group these are its own channels. -/
theorem C127_layout_partial (refIdx ch idx a b : Nat) (r : Layout) (l : List Bool)
    (ha : Speaker.numLsTbl[idx]? = some a) (hb : Speaker.numLsTbl[refIdx]? = some b) :
    run (groupLayout refIdx ch r) (natBits 2 0 ++ (natBits 6 idx ++ l)) =
      if a = ch ∨ a ≤ b then .ok ({ r with type := 0, idx }, l) else .err (.other 0xFFFF903A) := by
  have hi : idx < 21 := by
    have := (List.getElem?_eq_some_iff.mp ha).1
    simpa [Speaker.numLsTbl] using this
  unfold groupLayout
  rw [run_bits_bind 2 0 _ _ (by decide) (by decide)]
  dsimp only
  rw [if_neg (by decide), run_bind, run_bits_bind 6 idx _ _ (by decide) (by omega), if_neg (by omega), run_pure, Res.ok_bind]
  dsimp only
  rw [run_getAt_bind _ _ _ _ _ ha]
  by_cases hc : a = ch
  · rw [if_neg (by simpa using hc), if_pos (Or.inl hc), run_pure]
  · rw [if_pos hc, run_getAt_bind _ _ _ _ _ hb]
    by_cases hab : a ≤ b
    · rw [if_neg (by omega), if_pos (Or.inr hab), run_pure]
    · rw [if_pos (by omega), if_neg (by omega), run_fail]

example : ∃ a b, Speaker.numLsTbl[6]? = some a ∧ Speaker.numLsTbl[13]? = some b ∧ a ≤ b := ⟨6, 24, by decide, by decide, by decide⟩

end Verif.Config
