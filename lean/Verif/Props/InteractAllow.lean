import Verif.Props.Interact

/-! # Interaction a scene asks for, loudspeaker distances and wire outputs -/

namespace Verif.Interact

open Prog

/-! ## C102: groups that must be given a position or a gain -/

/-- The group with the identifier wants a position / a gain and the request has one. -/
def Served (g : Asi.GroupDef) (it : Item) : Prop :=
  it.onOff = 1 → (g.allowPos = 1 → it.chPos = 1) ∧ (g.allowGain = 1 → it.chGain = 1)

/-- The claim C102: in interaction data that are accepted, every group that is switched on and allows
position (gain) interactivity comes with a position (gain). -/
def AlwaysServed : Prop :=
  ∀ info : Info, info.Ok → info.present = true → ∀ d : Data, d.items.length = 128 → ∀ l d' l',
    run (interaction info d) l = .ok (d', l') → ∀ i < d'.num, ∀ it ∈ d'.items[i]?,
      ∀ g ∈ info.groups, g.groupId = (it.id : Int) → Served g it

/-- One group, identifier 1, that allows position interactivity. -/
def movable : Info :=
  { scene [1] with groups := { groupId := 1, allowPos := 1 } :: List.replicate 15 {} }

/-- Two groups, the second of which allows position interactivity. -/
def secondMovable : Info :=
  { scene [1, 2] with groups := { groupId := 1 } :: { groupId := 2, allowPos := 1 } :: List.replicate 14 {} }

theorem served_refute (info : Info) (ho : info.Ok) (hp : info.present = true) (g : Asi.GroupDef)
    (hg : g ∈ info.groups) (ha : g.allowPos = 1) (l : List Bool) (id : Nat) (hid : g.groupId = (id : Int)) (k : Nat)
    (hk : 0 < k)
    (h : (run (interaction info Data.zero) l).map (fun r => (r.1.num, (r.1.items[0]?).map
      fun it => (it.id, it.onOff, it.chPos))) = .ok (k, some (id, 1, 0))) : ¬ AlwaysServed := by
  intro H
  cases hr : run (interaction info Data.zero) l with
  | ok x =>
    obtain ⟨d', l'⟩ := x
    rw [hr] at h
    simp only [Res.map, Res.ok.injEq, Prod.mk.injEq, Option.map_eq_some_iff] at h
    obtain ⟨h1, it, h2, h3, h4, h5⟩ := h
    have := (H info ho hp Data.zero rfl l d' l' hr 0 (by omega) it h2 g hg (by rw [hid, h3])) h4
    have := this.1 ha
    omega
  | jump => rw [hr] at h; simp [Res.map] at h
  | err c => rw [hr] at h; simp [Res.map] at h
  | ub => rw [hr] at h; simp [Res.map] at h

/-- **C102, refuted.** The error is dropped by the caller: data without the position are accepted. -/
theorem C102_refuted : ¬ AlwaysServed :=
  served_refute movable ⟨rfl, rfl, by decide⟩ rfl { groupId := 1, allowPos := 1 } (by decide) rfl
    (natBits 8 0 ++ natBits 1 0 ++ natBits 7 1 ++ natBits 7 1 ++ natBits 1 1 ++ natBits 1 0 ++ natBits 1 0 ++
      natBits 1 0) 1 rfl 1 (by decide) (by decide +kernel)

/-- The permissions are those of the group at the same place in the scene, not of the group with the
identifier that was sent: with the groups in another order no error is raised even inside. -/
theorem C102_order_refuted : ¬ AlwaysServed ∧
    (run (status secondMovable 2 0 0 Data.zero.items) ((natBits 7 2 ++ natBits 1 1 ++ natBits 1 0 ++ natBits 1 0 ++
      natBits 1 0) ++ (natBits 7 1 ++ natBits 2 0))).map (fun r => r.1.1) = .ok false := by
  refine ⟨served_refute secondMovable ⟨rfl, rfl, by decide⟩ rfl { groupId := 2, allowPos := 1 } (by decide) rfl
    (natBits 8 0 ++ natBits 1 0 ++ natBits 7 2 ++ (natBits 7 2 ++ natBits 1 1 ++ natBits 1 0 ++ natBits 1 0 ++
      natBits 1 0) ++ (natBits 7 1 ++ natBits 2 0) ++ natBits 1 0) 2 rfl 2 (by decide) (by decide +kernel),
    by decide +kernel⟩

theorem change_served (groups : List Asi.GroupDef) (grp : Nat) (it : Item) :
    Post 0 (change true groups grp it) (fun r => (r.2.onOff = it.onOff ∧ ∃ g, groups[grp]? = some g ∧
      (r.1 = false ↔ (g.allowPos = 1 → r.2.chPos = 1) ∧ (g.allowGain = 1 → r.2.chGain = 1))) ∨
      r.1 = true ∧ ∃ g, groups[grp]? = some g ∧ g.allowPos = 1 ∧ r.2.chPos = 0) := by
  unfold change
  refine Post.bind (Safe.post (Safe.bits (by decide))) fun cp hcp => ?_
  simp only [if_true]
  refine Post.bind (R := fun b => ∃ g, groups[grp]? = some g ∧ b = decide (g.allowPos = 1 ∧ cp = 0)) ?_ fun b hb => ?_
  · exact Post.bind Post.getAt fun g hg => Post.pure ⟨g, hg, rfl⟩
  obtain ⟨g, hg, hb⟩ := hb
  refine Post.ite (fun hbad => Post.pure ?_) (fun hgood => ?_)
  · rw [hb] at hbad
    have := of_decide_eq_true hbad
    exact Or.inr ⟨rfl, g, hg, this.1, this.2⟩
  · rw [hb] at hgood
    have hgood := of_decide_eq_false (Bool.eq_false_iff.mpr hgood)
    refine Post.bind Post.triv fun az _ => ?_
    refine Post.bind Post.triv fun el _ => ?_
    refine Post.bind Post.triv fun dist _ => ?_
    refine Post.bind (Safe.post (Safe.bits (by decide))) fun cg hcg => ?_
    refine Post.bind (R := fun b => b = decide (g.allowGain = 1 ∧ cg = 0)) ?_ fun b2 hb2 => ?_
    · refine Post.bind Post.getAt fun g' hg' => Post.pure ?_
      rw [hg] at hg'
      rw [Option.some.inj hg']
    refine Post.ite (fun hbad => Post.pure ?_) (fun hgood2 => ?_)
    · rw [hb2] at hbad
      have hbad := of_decide_eq_true hbad
      refine Or.inl ⟨rfl, g, hg, ?_⟩
      simp only [Bool.true_eq_false, false_iff, not_and]
      intro _ h
      have := h hbad.1
      omega
    · rw [hb2] at hgood2
      have hgood2 := of_decide_eq_false (Bool.eq_false_iff.mpr hgood2)
      refine Post.bind Post.triv fun gain _ => Post.pure (Or.inl ⟨rfl, g, hg, ?_⟩)
      simp only [true_iff]
      exact ⟨fun h => by omega, fun h => by omega⟩

theorem status_served (info : Info) (hp : info.present = true) : ∀ k grp valid items,
    Post 0 (status info k grp valid items) (fun r => r.1 = false → (∀ j < grp, r.2[j]? = items[j]?) ∧
      ∀ j, grp ≤ j → j < grp + k → ∃ it, r.2[j]? = some it ∧
        (it.onOff = 1 → ∃ g, info.groups[j]? = some g ∧ Served g it)) := by
  intro k
  induction k with
  | zero =>
    intro grp valid items
    exact Post.pure fun _ => ⟨fun _ _ => rfl, fun j h1 h2 => absurd h2 (by omega)⟩
  | succ k ih =>
    intro grp valid items
    unfold status
    refine Post.bind Post.triv fun it _ => ?_
    refine Post.bind Post.triv fun id _ => ?_
    refine Post.bind Post.triv fun more _ => ?_
    refine Post.ite (fun _ => ?_) (fun _ => ?_)
    · exact Post.bind Post.triv fun t _ => Post.pure fun h => by simp at h
    · refine Post.bind Post.triv fun on _ => ?_
      refine Post.bind Post.triv fun route _ => ?_
      refine Post.bind Post.triv fun w _ => ?_
      refine Post.bind (R := fun r : Bool × Item => r.1 = false → r.2.onOff = 1 →
        ∃ g, info.groups[grp]? = some g ∧ Served g r.2) ?_ fun r hr => ?_
      · refine Post.ite (fun h1 => ?_) (fun h1 => Post.pure fun _ h => absurd h h1)
        rw [hp]
        refine (change_served info.groups grp _).mono fun r hr h0 h1 => ?_
        rcases hr with ⟨_, g, hg, hiff⟩ | ⟨h, _⟩
        · exact ⟨g, hg, fun _ => hiff.mp h0⟩
        · rw [h] at h0; simp at h0
      · refine Post.bind Post.setAt fun t ht => ?_
        refine Post.ite (fun _ => Post.pure fun h => by simp at h) (fun hr1 => ?_)
        have hr1 : r.1 = false := Bool.eq_false_iff.mpr hr1
        refine (ih (grp + 1) _ t).mono fun q hq h => ?_
        obtain ⟨h1, h2⟩ := hq h
        rw [ht.1] at h1
        refine ⟨fun j hj => ?_, fun j h3 h4 => ?_⟩
        · rw [h1 j (by omega), List.getElem?_set_ne (by omega)]
        · by_cases hij : j = grp
          · subst hij
            exact ⟨_, by rw [h1 j (by omega), List.getElem?_set_self ht.2], hr hr1⟩
          · exact h2 j (by omega) (by omega)

/-- **C102, partial.** When the group parser raises no error, each request for a group that is switched
on has what the group at the same place in the scene wants. Missing: the caller drops the error, and
the place is not the identifier. -/
theorem C102_partial (info : Info) (hp : info.present = true) (k : Nat) (items : List Item) (l : List Bool)
    (items' : List Item) (l' : List Bool) (h : run (status info k 0 0 items) l = .ok ((false, items'), l')) :
    ∀ j < k, ∃ it, items'[j]? = some it ∧ (it.onOff = 1 → ∃ g, info.groups[j]? = some g ∧ Served g it) :=
  fun j hj => (status_served info hp k 0 0 items l _ l' h (Nat.zero_le _) rfl).2 j (Nat.zero_le _) (by omega)

/-- A group without what the scene wants raises the error. -/
theorem C102_refused_partial (groups : List Asi.GroupDef) (grp : Nat) (g : Asi.GroupDef) (hg : groups[grp]? = some g)
    (it : Item) (l : List Bool) : g.allowPos = 1 →
    run (change true groups grp it) (natBits 1 0 ++ l) = .ok ((true, { it with chPos := 0 }), l) := by
  intro ha
  unfold change
  rw [run_bits_bind 1 0 _ _ (by decide) (by decide)]
  simp only [if_true]
  rw [run_bind, run_getAt_bind _ _ g _ _ hg]
  simp only [ha, and_self, decide_true, run_pure, Res.ok_bind, if_true]

example : movable.present = true ∧ movable.groups[0]? = some { groupId := 1, allowPos := 1 } ∧
    (run (status movable 1 0 0 Data.zero.items) (natBits 7 1 ++ natBits 1 1 ++ natBits 1 0 ++ natBits 1 1 ++
      natBits 8 40 ++ natBits 6 3 ++ natBits 4 2 ++ natBits 1 0)).map (fun r => (r.1.1, (r.1.2[0]?).map Item.az)) =
      .ok (false, some 40) := by decide +kernel

/-! ## C80, C81: distances and wire outputs -/

/-- **C81.** When loudspeaker distances are sent, the setup is taken over only if none of them is 0. -/
theorem C81_distance (ty hd hg : Nat) (hdn : hd ≠ 0) (k : Nat) (spks : List Spk) (l : List Bool)
    (spks' : List Spk) (l' : List Bool) (h : run (spkLoop ty hd hg k 0 spks) l = .ok ((false, spks'), l')) :
    ∀ j < k, ∃ x, spks'[j]? = some x ∧ x.dist ≠ 0 := by
  have key : ∀ k i spks, Post 0 (spkLoop ty hd hg k i spks) (fun r => r.1 = false → (∀ j < i, r.2[j]? = spks[j]?) ∧
      ∀ j, i ≤ j → j < i + k → ∃ x, r.2[j]? = some x ∧ x.dist ≠ 0) := by
    intro k
    induction k with
    | zero =>
      intro i spks
      exact Post.pure fun _ => ⟨fun _ _ => rfl, fun j h1 h2 => absurd h2 (by omega)⟩
    | succ k ih =>
      intro i spks
      unfold spkLoop
      refine Post.bind Post.triv fun s _ => ?_
      refine Post.bind Post.triv fun dist _ => ?_
      refine Post.ite (fun _ => ?_) (fun hdist => ?_)
      · exact Post.bind Post.triv fun t _ => Post.pure fun h => by simp at h
      · have hdist : dist ≠ 0 := fun h => hdist ⟨hdn, h⟩
        refine Post.bind Post.triv fun gain _ => ?_
        have hcond : ty ≤ 1 ∨ hd ≠ 0 ∨ hg ≠ 0 := Or.inr (Or.inl hdn)
        simp only [if_pos hcond]
        refine Post.bind Post.setAt fun t ht => ?_
        refine (ih (i + 1) t).mono fun r hr h => ?_
        obtain ⟨h1, h2⟩ := hr h
        rw [ht.1] at h1
        refine ⟨fun j hj => ?_, fun j h3 h4 => ?_⟩
        · rw [h1 j (by omega), List.getElem?_set_ne (by omega)]
        · by_cases hij : j = i
          · subst hij
            exact ⟨_, by rw [h1 j (by omega), List.getElem?_set_self ht.2], hdist⟩
          · exact h2 j (by omega) (by omega)
  exact fun j hj => (key k 0 spks l _ l' h (Nat.zero_le _) rfl).2 j (Nat.zero_le _) (by omega)

/-- A distance of 0 for the first loudspeaker is an error. -/
theorem C81_distance_zero (hg k : Nat) (s : Spk) (spks : List Spk) (l : List Bool) :
    run (spkLoop 2 1 hg (k + 1) 0 (s :: spks)) (natBits 1 0 ++ l) =
      .ok ((true, { s with dist := 0 } :: spks), l) := by
  unfold spkLoop
  simp only [show ¬ (2 : Nat) ≤ 1 by decide, if_false, ne_eq, Nat.one_ne_zero, not_false_eq_true, true_or, if_true,
    decide_true, true_and]
  rw [run_getAt_bind _ _ s _ _ rfl, run_bitsOr_true_bind 1 0 _ _ _ (by decide) (by decide)]
  simp only [if_true]
  rfl

example : (run (spkLoop 2 1 0 2 0 [Spk.zero, Spk.zero]) (natBits 1 1 ++ natBits 1 1)).map
    (fun r => (r.1.1, r.1.2.map Spk.dist)) = .ok (false, [1, 1]) := by decide +kernel

theorem run_wires : ∀ (ws wires : List Nat) (pre : List Nat), (∀ w ∈ ws, w < 65536) → ws.length ≤ wires.length →
    ∀ l, run (foldN (fun i wires => do
      let w ← bits 16
      setAt wires i w) ws.length pre.length (pre ++ wires)) (ws.flatMap (natBits 16) ++ l) =
        .ok (pre ++ (ws ++ wires.drop ws.length), l) := by
  intro ws
  induction ws with
  | nil => intro wires pre _ _ l; rfl
  | cons w ws ih =>
    intro wires pre hw hl l
    obtain ⟨x, xs, rfl⟩ : ∃ x xs, wires = x :: xs := by
      cases wires with
      | nil => simp at hl
      | cons x xs => exact ⟨x, xs, rfl⟩
    simp only [List.length_cons, List.flatMap_cons, List.append_assoc, List.drop_succ_cons]
    rw [foldN, run_bind, run_bits_bind 16 w _ _ (by decide) (hw w (by simp)),
      run_setAt _ _ _ _ (by simp), Res.ok_bind]
    have := ih xs (pre ++ [w]) (fun v hv => hw v (by simp [hv])) (by simpa using hl) l
    simpa using this

/-- **C80, partial.** The wire outputs of a local setup with binaural rendering: a number above that of
the objects and channels is refused, any other list is stored as sent, provided it fits the array. -/
theorem C80_wires_partial (brir : Prog Unit) (hb : ∀ l, run brir l = .ok ((), l)) (numObj numCh : Nat) (s : Setup)
    (wires ws : List Nat) (hw : ∀ w ∈ ws, w < 65536) (hn : ws.length < 65536) (l : List Bool) :
    (numObj + numCh < ws.length →
      run (localSetup brir numObj numCh s wires) (natBits 1 1 ++ (natBits 16 ws.length ++ l)) = .err .invalidConfig) ∧
    (ws.length ≤ numObj + numCh → ws.length ≤ wires.length →
      run (localSetup brir numObj numCh s wires)
        (natBits 1 1 ++ (natBits 16 ws.length ++ (ws.flatMap (natBits 16) ++ (natBits 1 0 ++ l)))) =
        .ok ((s, ws ++ wires.drop ws.length), l)) := by
  constructor
  · intro h
    unfold localSetup
    rw [run_bits_bind 1 1 _ _ (by decide) (by decide)]
    simp only [if_true]
    rw [run_bind, run_bind, hb, Res.ok_bind, run_pure, Res.ok_bind,
      run_bits_bind 16 _ _ _ (by decide) hn, if_pos h]
    rfl
  · intro h hl
    unfold localSetup
    rw [run_bits_bind 1 1 _ _ (by decide) (by decide)]
    simp only [if_true]
    rw [run_bind, run_bind, hb, Res.ok_bind, run_pure, Res.ok_bind,
      run_bits_bind 16 _ _ _ (by decide) hn, if_neg (by omega), run_bind]
    have := run_wires ws wires [] hw hl (natBits 1 0 ++ l)
    simp only [List.length_nil, List.nil_append] at this
    rw [this, Res.ok_bind, run_bits_bind 1 0 _ _ (by decide) (by decide)]
    rfl

example : (∀ l, run (pure () : Prog Unit) l = .ok ((), l)) ∧ (∀ w ∈ [3, 70], w < 65536) ∧ [3, 70].length ≤ 1 + 2 ∧
    1 + 0 < [3, 70].length := by simp

end Verif.Interact
