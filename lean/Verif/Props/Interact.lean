import Verif.Model.Interact
import Verif.Props.Speaker
import Verif.Proofs.Fields
import Verif.Proofs.Post

/-! # User interaction data and local setup -/

namespace Verif.Interact

open Prog

/-- Tables of the declared sizes; the scene parser accepts at most 16 groups. -/
structure Info.Ok (info : Info) : Prop where
  groups : info.groups.length = 16
  presets : info.presets.length = 8
  num : info.numGroups ≤ 16

/-- A scene with groups `ids`, and presets with the same identifiers. -/
def scene (ids : List Nat) : Info where
  present := true
  numGroups := ids.length
  numPresets := 0
  groups := ids.map (fun i => { groupId := (i : Int) }) ++ List.replicate (16 - ids.length) {}
  presets := (ids.take 8).map (fun i => { groupId := (i : Int) }) ++ List.replicate (8 - ids.length) {}

/-! ## C47: groups that exist -/

/-- The identifier is one of a group of the scene. -/
def Known (info : Info) (id : Nat) : Prop :=
  ∃ g < info.numGroups, ∃ d, info.groups[g]? = some d ∧ d.groupId = (id : Int)

/-- The claim C47. -/
def OnlyKnownGroups : Prop :=
  ∀ info : Info, info.Ok → info.present = true → ∀ d : Data, d.items.length = 128 → ∀ l d' l',
    run (interaction info d) l = .ok (d', l') → ∀ i < d'.num, ∀ it ∈ d'.items[i]?, Known info it.id

theorem scene_ok (ids : List Nat) (h : ids.length ≤ 8) : (scene ids).Ok :=
  ⟨by simp [scene]; omega, by simp [scene]; omega, by simp [scene]; omega⟩

/-- The payload: no signature, mode 0, two groups, identifier 9 for the first. -/
def badGroup : List Bool :=
  natBits 8 0 ++ natBits 1 0 ++ natBits 7 2 ++ natBits 7 9 ++ natBits 1 0

/-- A payload whose second identifier is wrong. -/
def badSecond : List Bool :=
  natBits 8 0 ++ natBits 1 0 ++ natBits 7 2 ++ (natBits 7 1 ++ natBits 2 0) ++ (natBits 7 9 ++ natBits 2 0) ++ natBits 1 0

theorem refute (l : List Bool) (i : Nat) (h : (run (interaction (scene [1, 2]) Data.zero) l).map
      (fun r => (r.1.num, (r.1.items[i]?).map Item.id, r.1.present)) = .ok (2, some 9, 1)) (hi : i < 2) :
    ¬ OnlyKnownGroups := by
  intro H
  cases hr : run (interaction (scene [1, 2]) Data.zero) l with
  | ok x =>
    obtain ⟨d', l'⟩ := x
    rw [hr] at h
    simp only [Res.map, Res.ok.injEq, Prod.mk.injEq, Option.map_eq_some_iff] at h
    obtain ⟨e1, ⟨it, e2, e3⟩, _⟩ := h
    obtain ⟨g, hg, d, hd, hid⟩ := H _ (scene_ok [1, 2] (by decide)) rfl Data.zero rfl _ _ _ hr i (by omega) it e2
    rw [e3] at hid
    have : g < 2 := hg
    have hall : ∀ g < 2, ∀ d ∈ (scene [1, 2]).groups[g]?, d.groupId ≠ 9 := by decide +kernel
    exact hall g this d hd hid
  | jump => rw [hr] at h; simp [Res.map] at h
  | err c => rw [hr] at h; simp [Res.map] at h
  | ub => rw [hr] at h; simp [Res.map] at h

/-- **C47, refuted.** Interaction data for group 9 of a scene with the groups 1 and 2 are accepted: the
error of the inner function is dropped. -/
theorem C47_refuted : ¬ OnlyKnownGroups := refute badGroup 0 (by decide +kernel) (by decide)

/-- A second reason: the count of matches is not cleared between groups, so after one good identifier
the inner function itself accepts any other one. -/
theorem C47_second_refuted : ¬ OnlyKnownGroups := refute badSecond 1 (by decide +kernel) (by decide)

theorem C47_second_no_error :
    (run (status (scene [1, 2]) 2 0 0 Data.zero.items) ((natBits 7 1 ++ natBits 2 0) ++ (natBits 7 9 ++ natBits 2 0))).map
      (fun r => r.1.1) = .ok false := by decide +kernel

/-- The value `countIds` returns is positive only if the identifier occurs. -/
theorem countIds_post (ids : List Int) (id n : Nat) (l : List Bool) (c : Nat) (l' : List Bool)
    (h : run (countIds ids n id) l = .ok (c, l')) (hc : c ≠ 0) : ∃ g < n, ids[g]? = some (id : Int) := by
  unfold countIds at h
  have key : ∀ k i s l c l', run (foldN (fun i c => do
      let g ← getAt ids i
      pure (if g = (id : Int) then c + 1 else c)) k i s) l = .ok (c, l') → c ≠ 0 →
      s ≠ 0 ∨ ∃ g < i + k, ids[g]? = some (id : Int) := by
    intro k
    induction k with
    | zero =>
      intro i s l c l' h hc
      simp only [foldN, run_pure, Res.ok.injEq, Prod.mk.injEq] at h
      exact Or.inl (by rw [h.1]; exact hc)
    | succ k ih =>
      intro i s l c l' h hc
      unfold foldN at h
      rw [run_bind, run_bind] at h
      unfold getAt at h
      cases hg : ids[i]? with
      | none => rw [hg] at h; exact absurd h (by simp [run_undef])
      | some g =>
        rw [hg] at h
        simp only [run_pure, Res.ok_bind] at h
        rcases ih (i + 1) _ _ _ _ h hc with h1 | ⟨j, hj, hj2⟩
        · by_cases he : g = (id : Int)
          · exact Or.inr ⟨i, by omega, by rw [hg, he]⟩
          · rw [if_neg he] at h1; exact Or.inl h1
        · exact Or.inr ⟨j, by omega, hj2⟩
  rcases key n 0 0 l c l' h hc with h1 | ⟨g, hg, hg2⟩
  · exact absurd rfl h1
  · exact ⟨g, by omega, hg2⟩

/-- Entries before the current group are not touched any more. -/
theorem status_keeps (info : Info) : ∀ k grp valid items l r l',
    run (status info k grp valid items) l = .ok (r, l') → ∀ j < grp, r.2[j]? = items[j]? := by
  intro k
  induction k with
  | zero =>
    intro grp valid items l r l' h j _
    simp only [status, run_pure, Res.ok.injEq, Prod.mk.injEq] at h
    rw [← h.1]
  | succ k ih =>
    intro grp valid items l r l' h j hj
    unfold status at h
    have hset : ∀ (v : Item) (t : List Item) l1 l2, run (setAt items grp v) l1 = .ok (t, l2) → t[j]? = items[j]? := by
      intro v t l1 l2 ht
      unfold setAt at ht
      split at ht
      · simp only [run_pure, Res.ok.injEq, Prod.mk.injEq] at ht
        rw [← ht.1, List.getElem?_set_ne (by omega)]
      · simp at ht
    simp only [run_bind, Res.bind_eq_ok] at h
    obtain ⟨a1, _, a2, _, a3, _, h⟩ := h
    split at h
    · simp only [run_bind, Res.bind_eq_ok] at h
      obtain ⟨t, ht, h⟩ := h
      simp only [run_pure, Res.ok.injEq, Prod.mk.injEq] at h
      rw [← h.1]
      exact hset _ _ _ _ ht
    · simp only [run_bind, Res.bind_eq_ok] at h
      obtain ⟨b1, _, b2, _, b3, _, b4, _, t, ht, h⟩ := h
      have ht' := hset _ _ _ _ ht
      split at h
      · simp only [run_pure, Res.ok.injEq, Prod.mk.injEq] at h
        rw [← h.1]
        exact ht'
      · rw [ih _ _ _ _ _ _ h j (by omega)]
        exact ht'

theorem change_id (present : Bool) (groups : List Asi.GroupDef) (grp : Nat) (it : Item) (l : List Bool)
    (r : Bool × Item) (l' : List Bool) (h : run (change present groups grp it) l = .ok (r, l')) :
    r.2.id = it.id := by
  unfold change at h
  simp only [run_bind, Res.bind_eq_ok] at h
  obtain ⟨a1, _, a2, _, h⟩ := h
  split at h
  · simp only [run_pure, Res.ok.injEq, Prod.mk.injEq] at h
    rw [← h.1]
  · simp only [run_bind, Res.bind_eq_ok] at h
    obtain ⟨b1, _, b2, _, b3, _, b4, _, b5, _, h⟩ := h
    split at h
    · simp only [run_pure, Res.ok.injEq, Prod.mk.injEq] at h
      rw [← h.1]
    · simp only [run_bind, Res.bind_eq_ok] at h
      obtain ⟨c1, _, h⟩ := h
      simp only [run_pure, Res.ok.injEq, Prod.mk.injEq] at h
      rw [← h.1]

/-- **C47, partial.** When the inner function reports no error, the first identifier is one of a group
of the scene. Missing: the other identifiers, and the caller, which drops the error. -/
theorem C47_first_partial (info : Info) (hp : info.present = true) (k : Nat) (items : List Item) (l : List Bool)
    (items' : List Item) (l' : List Bool) (h : run (status info (k + 1) 0 0 items) l = .ok ((false, items'), l')) :
    ∃ it, items'[0]? = some it ∧ Known info it.id := by
  unfold status at h
  simp only [run_bind, Res.bind_eq_ok, hp, if_true, true_and, Nat.zero_add] at h
  obtain ⟨⟨a1, l1⟩, h1, ⟨a2, l2⟩, _, ⟨a3, l3⟩, h3, h⟩ := h
  split at h
  · simp only [run_bind, Res.bind_eq_ok] at h
    obtain ⟨t, ht, h⟩ := h
    simp at h
  · rename_i hv
    obtain ⟨g, hg, hg2⟩ := countIds_post _ _ _ _ _ _ h3 hv
    simp only [run_bind, Res.bind_eq_ok] at h
    obtain ⟨b1, _, b2, _, b3, _, ⟨b4, l4⟩, h4, ⟨t, l5⟩, ht, h⟩ := h
    have hid : b4.2.id = a2 := by
      split at h4
      · exact change_id _ _ _ _ _ _ _ h4
      · simp only [run_pure, Res.ok.injEq, Prod.mk.injEq] at h4
        rw [← h4.1]
    have ht0 : t[0]? = some b4.2 := by
      unfold setAt at ht
      split at ht
      · simp only [run_pure, Res.ok.injEq, Prod.mk.injEq] at ht
        rw [← ht.1, List.getElem?_set_self (by assumption)]
      · simp at ht
    have hk : Known info a2 := by
      rw [List.getElem?_map] at hg2
      cases hgd : info.groups[g]? with
      | none => rw [hgd] at hg2; simp at hg2
      | some d =>
        rw [hgd] at hg2
        exact ⟨g, hg, d, hgd, by simpa using hg2⟩
    split at h
    · simp at h
    · have := status_keeps info _ _ _ _ _ _ _ h 0 (by omega)
      exact ⟨b4.2, by rw [this]; exact ht0, by rw [hid]; exact hk⟩

example : (run (status (scene [1, 2]) 2 0 0 Data.zero.items)
    ((natBits 7 2 ++ natBits 2 0) ++ (natBits 7 1 ++ natBits 2 0))).map (fun r => (r.1.1, (r.1.2.take 2).map Item.id)) =
    .ok (false, [2, 1]) := by decide +kernel

/-! ## C78: array bounds -/

/-- The claim C78. -/
def StaysInside : Prop :=
  ∀ info : Info, info.Ok → ∀ d : Data, d.items.length = 128 → ∀ l, run (interaction info d) l ≠ .ub

/-- **C78, refuted.** With nine groups in the scene, interaction data that choose a preset compare
nine entries of the table of eight presets. -/
theorem C78_refuted : ¬ StaysInside := by
  intro h
  refine h (scene [1, 2, 3, 4, 5, 6, 7, 8, 9]) ⟨rfl, rfl, by decide⟩ Data.zero rfl
    (natBits 8 0 ++ natBits 1 1 ++ natBits 7 9 ++ natBits 5 1) ?_
  decide +kernel

theorem countIds_safe (ids : List Int) (n id : Nat) (h : n ≤ ids.length) :
    Safe (countIds ids n id) (fun _ => True) := by
  unfold countIds
  refine (Safe.foldN (fun _ _ => True) n 0 0 trivial ?_).mono fun _ _ => trivial
  intro j t _ hj _
  refine Safe.bind (Safe.getAt (by omega)) fun g _ => ?_
  exact Safe.pure trivial

theorem change_safe (present : Bool) (groups : List Asi.GroupDef) (grp : Nat) (it : Item)
    (h : present = true → grp < groups.length) : Safe (change present groups grp it) (fun _ => True) := by
  unfold change
  refine Safe.bind (Safe.bits (by decide)) fun cp _ => ?_
  refine Safe.bind (R := fun _ => True) (Safe.ite (fun hp => Safe.bind (Safe.getAt (h hp)) fun _ _ => Safe.pure trivial)
    (fun _ => Safe.pure trivial)) fun bad _ => ?_
  refine Safe.ite (fun _ => Safe.pure trivial) (fun _ => ?_)
  refine Safe.bind (Safe.bitsOr (by decide)) fun az _ => ?_
  refine Safe.bind (Safe.bitsOr (by decide)) fun el _ => ?_
  refine Safe.bind (Safe.bitsOr (by decide)) fun dist _ => ?_
  refine Safe.bind (Safe.bits (by decide)) fun cg _ => ?_
  refine Safe.bind (R := fun _ => True) (Safe.ite (fun hp => Safe.bind (Safe.getAt (h hp)) fun _ _ => Safe.pure trivial)
    (fun _ => Safe.pure trivial)) fun bad _ => ?_
  refine Safe.ite (fun _ => Safe.pure trivial) (fun _ => ?_)
  refine Safe.bind (Safe.bitsOr (by decide)) fun gain _ => ?_
  exact Safe.pure trivial

theorem status_safe (info : Info) (hi : info.Ok) : ∀ k grp valid items, items.length = 128 → grp + k ≤ 128 →
    (info.present = true → grp + k ≤ info.numGroups) →
    Safe (status info k grp valid items) (fun r => r.2.length = 128) := by
  intro k
  have hg := hi.groups
  have hn := hi.num
  induction k with
  | zero => intro grp valid items hl _ _; exact Safe.pure hl
  | succ k ih =>
    intro grp valid items hl hk hp
    unfold status
    refine Safe.bind (Safe.getAt (by omega)) fun it _ => ?_
    refine Safe.bind (Safe.bits (by decide)) fun id _ => ?_
    refine Safe.bind (R := fun _ => True) (Safe.ite (fun _ => countIds_safe _ _ _ (by rw [List.length_map]; omega))
      (fun _ => Safe.pure trivial)) fun more _ => ?_
    refine Safe.ite (fun _ => ?_) (fun _ => ?_)
    · refine Safe.bind (Safe.setAt (by omega)) fun t ht => Safe.pure ?_
      rw [ht, List.length_set, hl]
    · refine Safe.bind (Safe.bits (by decide)) fun on _ => ?_
      refine Safe.bind (Safe.bits (by decide)) fun route _ => ?_
      refine Safe.bind (Safe.optBits (by decide)) fun w _ => ?_
      refine Safe.bind (R := fun _ => True) (Safe.ite (fun _ => change_safe _ _ _ _ fun h => ?_)
        (fun _ => Safe.pure trivial)) fun r _ => ?_
      · have := hp h; omega
      · refine Safe.bind (Safe.setAt (by omega)) fun t ht => ?_
        have htl : t.length = 128 := by rw [ht, List.length_set, hl]
        refine Safe.ite (fun _ => Safe.pure htl) (fun _ => ?_)
        exact ih _ _ _ htl (by omega) (fun h => by have := hp h; omega)

/-- **C78, partial.** With at most eight groups in the scene (or no scene) every payload stays inside
the arrays. Missing: scenes with nine to sixteen groups. -/
theorem C78_inside_partial (info : Info) (hi : info.Ok) (h8 : info.present = true → info.numGroups ≤ 8)
    (d : Data) (hd : d.items.length = 128) :
    Safe (interaction info d) (fun d' => d'.items.length = 128) := by
  have hp := hi.presets
  unfold interaction
  refine Safe.bind (Safe.bits (by decide)) fun len hlen => ?_
  refine Safe.bind (Safe.when fun _ => ?_) fun _ _ => ?_
  · refine Safe.bind (Safe.bits (by decide)) fun _ _ => ?_
    refine Safe.bind (Safe.forN (P := fun _ => True) len 0 fun j _ hj => ?_) fun _ _ => Safe.pure trivial
    refine Safe.bind (Safe.inTable (by omega) (by omega)) fun _ _ => ?_
    exact (Safe.bits (by decide)).mono fun _ _ => trivial
  · refine Safe.bind (R := fun d' : Data => d'.items.length = 128) ?_ fun d' hd' => ?_
    · unfold interactionData
      refine Safe.bind (Safe.bits (by decide)) fun mode _ => ?_
      refine Safe.ite (fun _ => Safe.fail) (fun _ => ?_)
      refine Safe.bind (Safe.bits (by decide)) fun num hnum => ?_
      refine Safe.ite (fun _ => Safe.fail) (fun hnn => ?_)
      refine Safe.bind (Safe.bitsOr (by decide)) fun preset _ => ?_
      refine Safe.bind (R := fun _ => True) (Safe.ite (fun hm => ?_) (fun _ => Safe.pure trivial)) fun valid _ => ?_
      · have := h8 hm.2
        exact countIds_safe _ _ _ (by rw [List.length_map]; omega)
      · refine Safe.ite (fun _ => Safe.fail) (fun _ => ?_)
        refine Safe.bind (status_safe info hi num 0 0 d.items hd (by omega) fun hpr => ?_) fun r hr => Safe.pure hr
        have : num = info.numGroups := by
          by_contra hne
          exact hnn ⟨hpr, hne⟩
        omega
    · refine Safe.bind (Safe.bits (by decide)) fun zoom _ => ?_
      refine Safe.ite (fun _ => ?_) (fun _ => Safe.pure hd')
      refine Safe.bind (Safe.bits (by decide)) fun a _ => ?_
      refine Safe.bind (Safe.bits (by decide)) fun b _ => ?_
      refine Safe.bind (Safe.bits (by decide)) fun c _ => ?_
      refine Safe.bind (Safe.bits (by decide)) fun e _ => ?_
      exact Safe.pure hd'

example : (scene [1, 2]).Ok ∧ ((scene [1, 2]).present = true → (scene [1, 2]).numGroups ≤ 8) :=
  ⟨scene_ok _ (by decide), fun _ => by decide⟩

/-! ## C79: values as coded -/

/-- What a user asks for one group; `none` is "leave as it was". -/
structure Req where
  id : Nat
  on : Bool
  wire : Option Nat
  pos : Option (Nat × Nat × Nat)
  gain : Option Nat

/-- The fields fit their fields of the bit stream, the WIRE identifier even 8 bits. -/
structure Req.Ok (r : Req) : Prop where
  id : r.id < 128
  wire : ∀ w ∈ r.wire, w < 256
  pos : ∀ p ∈ r.pos, p.1 < 256 ∧ p.2.1 < 64 ∧ p.2.2 < 16
  gain : ∀ g ∈ r.gain, g < 128

def b1 (b : Bool) : Nat := if b then 1 else 0

def Req.wireBits (r : Req) : List Bool :=
  match r.wire with | none => natBits 1 0 | some w => natBits 1 1 ++ natBits 16 w

def Req.posBits (r : Req) : List Bool :=
  match r.pos with
  | none => natBits 1 0
  | some (a, e, d) => natBits 1 1 ++ natBits 8 a ++ natBits 6 e ++ natBits 4 d

def Req.gainBits (r : Req) : List Bool :=
  match r.gain with | none => natBits 1 0 | some g => natBits 1 1 ++ natBits 7 g

/-- `ei_GroupInteractivityStatus` as the standard writes it. -/
def Req.enc (r : Req) : List Bool :=
  natBits 7 r.id ++ (natBits 1 (b1 r.on) ++ (r.wireBits ++ (if r.on then r.posBits ++ r.gainBits else [])))

/-- What the array element holds afterwards. -/
def Req.app (r : Req) (it : Item) : Item where
  id := r.id
  onOff := b1 r.on
  route := b1 r.wire.isSome
  wire := match r.wire with | none => -1 | some w => (w : Int)
  chPos := if r.on then b1 r.pos.isSome else it.chPos
  az := if r.on then (r.pos.map (·.1)).getD it.az else it.az
  el := if r.on then (r.pos.map (·.2.1)).getD it.el else it.el
  dist := if r.on then (r.pos.map (·.2.2)).getD it.dist else it.dist
  chGain := if r.on then b1 r.gain.isSome else it.chGain
  gain := if r.on then r.gain.getD it.gain else it.gain

theorem run_bitsOr_true_bind {β : Type} (n v old : Nat) (f : Nat → Prog β) (l : List Bool) (h : n ≤ 24)
    (hv : v < 2 ^ n) : run (bitsOr true n old >>= f) (natBits n v ++ l) = run (f v) l :=
  run_bits_bind n v f l h hv

theorem run_bitsOr_false_bind {β : Type} (n old : Nat) (f : Nat → Prog β) (l : List Bool) :
    run (bitsOr false n old >>= f) l = run (f old) l := rfl

theorem run_gain (it : Item) (r : Req) (hr : r.Ok) (l : List Bool) : run (do
      let cg ← bits 1
      let it : Item := { it with chGain := cg }
      let gain ← bitsOr (decide (cg ≠ 0)) 7 it.gain
      pure (false, { it with gain })) (r.gainBits ++ l) =
      .ok ((false, { it with chGain := b1 r.gain.isSome, gain := r.gain.getD it.gain }), l) := by
  unfold Req.gainBits
  cases hg : r.gain with
  | none =>
    simp only
    rw [run_bits_bind 1 0 _ _ (by decide) (by decide)]
    rfl
  | some g =>
    simp only [List.append_assoc]
    rw [run_bits_bind 1 1 _ _ (by decide) (by decide)]
    exact run_bitsOr_true_bind 7 g _ _ _ (by decide) (hr.gain g hg)

theorem run_change (groups : List Asi.GroupDef) (grp : Nat) (it : Item) (r : Req) (hr : r.Ok) (l : List Bool) :
    run (change false groups grp it) (r.posBits ++ (r.gainBits ++ l)) =
    .ok ((false, { it with
      chPos := b1 r.pos.isSome
      az := (r.pos.map (·.1)).getD it.az
      el := (r.pos.map (·.2.1)).getD it.el
      dist := (r.pos.map (·.2.2)).getD it.dist
      chGain := b1 r.gain.isSome
      gain := r.gain.getD it.gain }), l) := by
  unfold change Req.posBits
  simp only [Bool.false_eq_true, if_false]
  cases hp : r.pos with
  | none =>
    simp only
    rw [run_bits_bind 1 0 _ _ (by decide) (by decide)]
    exact run_gain { it with chPos := 0 } r hr l
  | some p =>
    obtain ⟨a, e, d⟩ := p
    obtain ⟨ha, he, hd⟩ := hr.pos _ hp
    simp only [List.append_assoc]
    rw [run_bits_bind 1 1 _ _ (by decide) (by decide)]
    show run (bitsOr true 8 it.az >>= _) _ = _
    rw [run_bitsOr_true_bind 8 a _ _ _ (by decide) ha]
    show run (bitsOr true 6 it.el >>= _) _ = _
    rw [run_bitsOr_true_bind 6 e _ _ _ (by decide) he]
    show run (bitsOr true 4 it.dist >>= _) _ = _
    rw [run_bitsOr_true_bind 4 d _ _ _ (by decide) hd]
    exact run_gain { it with chPos := 1, az := a, el := e, dist := d } r hr l

theorem run_change_if (groups : List Asi.GroupDef) (grp : Nat) (it : Item) (r : Req) (hr : r.Ok) (l : List Bool) :
    run (if b1 r.on = 1 then change false groups grp it else pure (false, it))
      ((if r.on then r.posBits ++ r.gainBits else []) ++ l) =
    .ok ((false, { it with
      chPos := if r.on then b1 r.pos.isSome else it.chPos
      az := if r.on then (r.pos.map (·.1)).getD it.az else it.az
      el := if r.on then (r.pos.map (·.2.1)).getD it.el else it.el
      dist := if r.on then (r.pos.map (·.2.2)).getD it.dist else it.dist
      chGain := if r.on then b1 r.gain.isSome else it.chGain
      gain := if r.on then r.gain.getD it.gain else it.gain }), l) := by
  cases hon : r.on with
  | false => rfl
  | true =>
    simp only [if_true, List.append_assoc]
    exact run_change groups grp it r hr l

theorem run_status (info : Info) (hp : info.present = false) (reqs : List Req) : (∀ r ∈ reqs, r.Ok) →
    ∀ (pre rest : List Item) (valid : Nat) (l : List Bool), reqs.length ≤ rest.length →
    run (status info reqs.length pre.length valid (pre ++ rest)) (reqs.flatMap Req.enc ++ l) =
      .ok ((false, pre ++ List.zipWith Req.app reqs rest ++ rest.drop reqs.length), l) := by
  induction reqs with
  | nil => intro _ pre rest valid l _; simp [status]
  | cons r rs ih =>
    intro hok pre rest valid l hl
    obtain ⟨it, rest, rfl⟩ : ∃ it t, rest = it :: t := by
      cases rest with
      | nil => simp at hl
      | cons a t => exact ⟨a, t, rfl⟩
    have hr := hok r (List.mem_cons_self ..)
    have hset : ∀ v : Item, (pre ++ it :: rest).set pre.length v = (pre ++ [v]) ++ rest := by
      intro v; simp
    have hrec : ∀ valid, run (status info rs.length (pre.length + 1) valid ((pre ++ [r.app it]) ++ rest))
        (rs.flatMap Req.enc ++ l) = .ok ((false, pre ++ List.zipWith Req.app (r :: rs) (it :: rest) ++
          (it :: rest).drop (r :: rs).length), l) := by
      intro valid
      have := ih (fun x hx => hok x (List.mem_cons_of_mem _ hx)) (pre ++ [r.app it]) rest valid l
        (by simpa using hl)
      rw [List.length_append] at this
      simp only [List.length_singleton] at this
      rw [this]
      simp
    show run (status info (rs.length + 1) pre.length valid (pre ++ it :: rest)) _ = _
    unfold status
    rw [run_getAt_bind _ _ it _ _ (by simp)]
    rw [List.flatMap_cons, show r.enc = natBits 7 r.id ++ (natBits 1 (b1 r.on) ++ (r.wireBits ++
      (if r.on then r.posBits ++ r.gainBits else []))) from rfl]
    generalize hfl : rs.flatMap Req.enc = tl at hrec ⊢
    rw [List.append_assoc, List.append_assoc, List.append_assoc, List.append_assoc, run_bits_bind 7 r.id _ _ (by decide) hr.id]
    simp only [hp, Bool.false_eq_true, if_false, false_and]
    show run (bits 1 >>= _) _ = _
    rw [run_bits_bind 1 (b1 r.on) _ _ (by decide) (by unfold b1; split <;> decide)]
    have hwire : ∀ (f : Nat → Nat → Prog (Bool × List Item)) (m : List Bool),
        run (do let route ← bits 1; let w ← optBits (decide (route = 1)) 16; f route w) (r.wireBits ++ m) =
        run (f (b1 r.wire.isSome) (r.wire.getD 0)) m := by
      intro f m
      unfold Req.wireBits
      cases hw : r.wire with
      | none => rw [run_bits_bind 1 0 _ _ (by decide) (by decide)]; rfl
      | some w =>
        have := hr.wire w hw
        simp only [List.append_assoc]
        rw [run_bits_bind 1 1 _ _ (by decide) (by decide)]
        show run (bits 16 >>= _) _ = _
        rw [run_bits_bind 16 w _ _ (by decide) (by omega)]
        rfl
    have happ : (if b1 r.wire.isSome = 1 then ((r.wire.getD 0 % 256 : Nat) : Int) else -1) =
        (match r.wire with | none => -1 | some w => (w : Int)) := by
      cases hw : r.wire with
      | none => rfl
      | some w =>
        have := hr.wire w hw
        simp only [Option.isSome_some, Option.getD_some, b1, if_true]
        rw [Nat.mod_eq_of_lt this]
    refine (hwire (fun route w => _) _).trans ?_
    rw [run_bind, run_change_if _ _ _ r hr, Res.ok_bind]
    simp only
    rw [run_bind, run_setAt _ _ _ _ (by simp), Res.ok_bind, hset]
    rw [if_neg (by decide), happ]
    exact hrec _

def zoomBits (zoom : Option (Nat × Nat × Nat × Nat)) : List Bool :=
  match zoom with
  | none => natBits 1 0
  | some (a, b, c, e) => natBits 1 1 ++ natBits 10 a ++ natBits 10 b ++ natBits 9 c ++ natBits 10 e

/-- A whole payload: no signature, optional preset, the requests, optional zoom area. -/
def payload (preset : Option Nat) (reqs : List Req) (zoom : Option (Nat × Nat × Nat × Nat)) : List Bool :=
  natBits 8 0 ++ natBits 1 (b1 preset.isSome) ++ natBits 7 reqs.length ++
  (match preset with | none => [] | some p => natBits 5 p) ++ reqs.flatMap Req.enc ++ zoomBits zoom

/-- The claim C79: without scene information a payload with zoom area leaves exactly its values. -/
def KeepsZoom : Prop :=
  ∀ a b c e, a < 1024 → b < 1024 → c < 512 → e < 1024 → ∀ l d', run (interaction ⟨false, 0, 0, [], []⟩ Data.zero)
    (payload none [] (some (a, b, c, e)) ++ l) = .ok (d', l) → (d'.zoomAzC, d'.zoomAz, d'.zoomElC, d'.zoomEl) = (a, b, c, e)

def KeepsWire : Prop :=
  ∀ w < 65536, ∀ l d', run (interaction ⟨false, 0, 0, [], []⟩ Data.zero)
    (payload none [⟨1, false, some w, none, none⟩] none ++ l) = .ok (d', l) → ∃ it ∈ d'.items[0]?, it.wire = (w : Int)

/-- **C79, refuted.** The zoom area is cut to 8 bits a field. -/
theorem C79_zoom_refuted : ¬ KeepsZoom := by
  intro h
  have key : (run (interaction ⟨false, 0, 0, [], []⟩ Data.zero) (payload none [] (some (512, 0, 0, 0)) ++ [])).map
      (fun r => (r.1.zoomAzC, r.2)) = .ok (0, []) := by decide +kernel
  cases hr : run (interaction ⟨false, 0, 0, [], []⟩ Data.zero) (payload none [] (some (512, 0, 0, 0)) ++ []) with
  | ok x =>
    obtain ⟨d', l'⟩ := x
    rw [hr] at key
    simp only [Res.map, Res.ok.injEq, Prod.mk.injEq] at key
    obtain ⟨e1, rfl⟩ := key
    have := h 512 0 0 0 (by decide) (by decide) (by decide) (by decide) [] d' hr
    simp only [Prod.mk.injEq] at this
    omega
  | jump => rw [hr] at key; simp [Res.map] at key
  | err c => rw [hr] at key; simp [Res.map] at key
  | ub => rw [hr] at key; simp [Res.map] at key

/-- **C79, refuted.** A WIRE identifier is cut to 8 bits: 300 becomes 44. -/
theorem C79_wire_refuted : ¬ KeepsWire := by
  intro h
  have key : (run (interaction ⟨false, 0, 0, [], []⟩ Data.zero)
      (payload none [⟨1, false, some 300, none, none⟩] none ++ [])).map
      (fun r => ((r.1.items[0]?).map Item.wire, r.2)) = .ok (some 44, []) := by decide +kernel
  cases hr : run (interaction ⟨false, 0, 0, [], []⟩ Data.zero)
      (payload none [⟨1, false, some 300, none, none⟩] none ++ []) with
  | ok x =>
    obtain ⟨d', l'⟩ := x
    rw [hr] at key
    simp only [Res.map, Res.ok.injEq, Prod.mk.injEq, Option.map_eq_some_iff] at key
    obtain ⟨⟨it, e1, e2⟩, rfl⟩ := key
    obtain ⟨it', e3, e4⟩ := h 300 (by decide) [] d' hr
    rw [Option.mem_def, e1, Option.some.injEq] at e3
    subst e3
    rw [e2] at e4
    exact absurd e4 (by decide)
  | jump => rw [hr] at key; simp [Res.map] at key
  | err c => rw [hr] at key; simp [Res.map] at key
  | ub => rw [hr] at key; simp [Res.map] at key

theorem run_zoom (d : Data) (zoom : Option (Nat × Nat × Nat × Nat))
    (hz : ∀ z ∈ zoom, z.1 < 256 ∧ z.2.1 < 256 ∧ z.2.2.1 < 256 ∧ z.2.2.2 < 256) (l : List Bool) : run (do
      let zoom ← bits 1
      if zoom ≠ 0 then do
        let a ← bits 10
        let b ← bits 10
        let c ← bits 9
        let e ← bits 10
        pure { d with zoomAzC := a % 256, zoomAz := b % 256, zoomElC := c % 256, zoomEl := e % 256, present := 1 }
      else pure { d with present := 1 } : Prog Data) (zoomBits zoom ++ l) =
      .ok ({ d with
        zoomAzC := (zoom.map (·.1)).getD d.zoomAzC
        zoomAz := (zoom.map (·.2.1)).getD d.zoomAz
        zoomElC := (zoom.map (·.2.2.1)).getD d.zoomElC
        zoomEl := (zoom.map (·.2.2.2)).getD d.zoomEl
        present := 1 }, l) := by
  unfold zoomBits
  cases zoom with
  | none =>
    simp only
    rw [run_bits_bind 1 0 _ _ (by decide) (by decide)]
    rfl
  | some z =>
    obtain ⟨a, b, c, e⟩ := z
    obtain ⟨h1, h2, h3, h4⟩ := hz _ rfl
    simp only at h1 h2 h3 h4
    simp only [List.append_assoc]
    rw [run_bits_bind 1 1 _ _ (by decide) (by decide), if_pos (by decide),
      run_bits_bind 10 a _ _ (by decide) (by omega), run_bits_bind 10 b _ _ (by decide) (by omega),
      run_bits_bind 9 c _ _ (by decide) (by omega), run_bits_bind 10 e _ _ (by decide) (by omega), run_pure]
    simp [Nat.mod_eq_of_lt h1, Nat.mod_eq_of_lt h2, Nat.mod_eq_of_lt h3, Nat.mod_eq_of_lt h4]

/-- **C79, partial.** Without scene information, payloads whose values fit 8 bits are kept exactly as
coded: one array element per request, all others unchanged. Missing: larger values, which are cut,
and signatures. -/
theorem C79_kept_partial (info : Info) (hp : info.present = false) (d : Data) (hd : d.items.length = 128)
    (preset : Option Nat) (hpre : ∀ p ∈ preset, p < 32) (reqs : List Req) (hr : ∀ r ∈ reqs, r.Ok)
    (hn : reqs.length < 128) (zoom : Option (Nat × Nat × Nat × Nat))
    (hz : ∀ z ∈ zoom, z.1 < 256 ∧ z.2.1 < 256 ∧ z.2.2.1 < 256 ∧ z.2.2.2 < 256) (l : List Bool) :
    run (interaction info d) (payload preset reqs zoom ++ l) = .ok
      ({ mode := b1 preset.isSome
         num := reqs.length
         preset := preset.getD d.preset
         zoomAzC := (zoom.map (·.1)).getD d.zoomAzC
         zoomAz := (zoom.map (·.2.1)).getD d.zoomAz
         zoomElC := (zoom.map (·.2.2.1)).getD d.zoomElC
         zoomEl := (zoom.map (·.2.2.2)).getD d.zoomEl
         items := List.zipWith Req.app reqs d.items ++ d.items.drop reqs.length
         present := 1 }, l) := by
  have hstat := run_status info hp reqs hr [] d.items 0
  simp only [List.length_nil, List.nil_append] at hstat
  unfold payload interaction
  simp only [List.append_assoc]
  rw [run_bits_bind 8 0 _ _ (by decide) (by decide)]
  show run (interactionData info d >>= _) _ = _
  unfold interactionData
  simp only [hp, Bool.false_eq_true, false_and, and_false, if_false]
  cases hpp : preset with
  | none =>
    simp only [List.nil_append]
    rw [run_bind, run_bits_bind 1 _ _ _ (by decide) (by decide),
      run_bits_bind 7 reqs.length _ _ (by decide) hn]
    show (run (status info reqs.length 0 0 d.items >>= _) _ >>= _) = _
    rw [run_bind, hstat _ (by omega), Res.ok_bind, run_pure, Res.ok_bind]
    exact run_zoom _ _ hz _
  | some p =>
    rw [run_bind, run_bits_bind 1 _ _ _ (by decide) (show b1 (some p).isSome < 2 ^ 1 from Nat.one_lt_two),
      run_bits_bind 7 reqs.length _ _ (by decide) hn]
    show (run (bitsOr true 5 d.preset >>= _) _ >>= _) = _
    rw [run_bitsOr_true_bind 5 p _ _ _ (by decide) (hpre p hpp)]
    show (run (status info reqs.length 0 0 d.items >>= _) _ >>= _) = _
    rw [run_bind, hstat _ (by omega), Res.ok_bind, run_pure, Res.ok_bind]
    exact run_zoom _ _ hz _

example : (∀ r ∈ [Req.mk 3 true (some 17) (some (10, 20, 3)) none], r.Ok) ∧ Data.zero.items.length = 128 :=
  ⟨by
    intro r hr
    rw [List.mem_singleton] at hr
    subst hr
    exact ⟨by decide, by decide, by decide, by decide⟩, rfl⟩

/-! ## C80: the loudspeaker arrays -/

/-- The loudspeaker part of a local setup. -/
def speakers (s : Setup) : Prog Setup := do
  let s ← loudSpkRen s
  invQuant s

/-- The claim C80. -/
def SpeakersInside : Prop := ∀ s : Setup, s.spks.length = 24 → s.num ≤ 24 → s.cfg.Shape → ∀ n < 65536, ∀ l,
  run (speakers s) (natBits 16 n ++ l) = .ub → run (Speaker.config3d s.cfg) l = .ub

/-- **C80, refuted.** The number of loudspeakers is a 16-bit field that is not compared with the size
of the arrays: a setup with 25 loudspeakers writes past them. -/
theorem C80_refuted : ¬ SpeakersInside := by
  intro h
  have key := h Setup.zero rfl (by decide) Speaker.shape_zero 25 (by decide)
    (natBits 2 0 ++ natBits 6 2 ++ List.replicate 60 false) (by decide +kernel)
  exact absurd key (by decide +kernel)

def DistIn (s : Setup) : Prop := s.spks.length = 24 ∧ s.num ≤ 24

theorem spkLoop_safe (ty hd hg : Nat) : ∀ k i spks, i + k ≤ 24 → spks.length = 24 →
    Safe (spkLoop ty hd hg k i spks) (fun r => r.2.length = 24) := by
  intro k
  induction k with
  | zero => intro i spks _ hl; exact Safe.pure hl
  | succ k ih =>
    intro i spks hk hl
    unfold spkLoop
    refine Safe.bind (R := fun _ => True) ?_ fun s _ => ?_
    · refine Safe.ite (fun _ => ?_) fun _ => Safe.ite (fun _ => (Safe.getAt (by omega)).mono fun _ _ => trivial)
        (fun _ => Safe.pure trivial)
      refine Safe.bind (Safe.bits (by decide)) fun known _ => ?_
      refine Safe.bind (Safe.getAt (by omega)) fun s _ => ?_
      refine Safe.ite (fun _ => ?_) (fun _ => Safe.pure trivial)
      refine Safe.bind (Safe.bits (by decide)) fun az _ => ?_
      exact Safe.bind (Safe.bits (by decide)) fun el _ => Safe.pure trivial
    refine Safe.bind (Safe.bitsOr (by decide)) fun dist _ => ?_
    refine Safe.ite (fun _ => ?_) (fun _ => ?_)
    · exact Safe.bind (Safe.setAt (by omega)) fun t ht => Safe.pure (by rw [ht, List.length_set, hl])
    · refine Safe.bind (R := fun _ => True) (Safe.ite (fun _ => Safe.bind (Safe.bits (by decide)) fun _ _ =>
        Safe.pure trivial) (fun _ => Safe.pure trivial)) fun gain _ => ?_
      refine Safe.bind (R := fun t : List Spk => t.length = 24) (Safe.ite (fun _ => (Safe.setAt (by omega)).mono
        fun t ht => by rw [ht, List.length_set, hl]) (fun _ => Safe.pure hl)) fun t ht => ?_
      exact ih _ _ (by omega) ht

/-- Dequantised values are in the range the standard gives. -/
structure Spk.InRange (ty hasGain : Nat) (s : Spk) : Prop where
  gain : hasGain ≠ 0 → -32 ≤ s.gain ∧ s.gain ≤ 63 / 2
  az : ty ≤ 1 → s.known = 1 → -180 ≤ s.az ∧ s.az ≤ 180
  el : ty ≤ 1 → s.known = 1 → -90 ≤ s.el ∧ s.el ≤ 90

theorem clampR_mem (x lo hi : Rat) (h : lo ≤ hi) : lo ≤ clampR x lo hi ∧ clampR x lo hi ≤ hi := by
  unfold clampR
  exact ⟨le_max_right _ _, max_le (min_le_right _ _) h⟩

theorem dequant_inRange (ty hasGain : Nat) (s : Spk) : (dequant ty hasGain s).InRange ty hasGain := by
  refine ⟨fun h => ?_, fun h k => ?_, fun h k => ?_⟩
  · simp only [dequant, if_pos h]
    exact clampR_mem _ _ _ (by norm_num)
  · have k' : s.known = 1 := k
    simp only [dequant, h, k', and_self, if_true]
    exact clampR_mem _ _ _ (by norm_num)
  · have k' : s.known = 1 := k
    simp only [dequant, h, k', and_self, if_true]
    omega

theorem invQuant_safe (s : Setup) (hl : s.spks.length = 24) (hn : s.num ≤ 24) :
    Safe (invQuant s) (fun s' => s'.spks.length = 24 ∧ s'.num = s.num ∧ s'.hasGain = s.hasGain ∧ s'.cfg = s.cfg ∧
      (s.cfg.type ≤ 1 ∨ s.hasGain ≠ 0 → ∀ i < s.num, ∃ x, s'.spks[i]? = some x ∧ x.InRange s.cfg.type s.hasGain ∧
        ∀ y ∈ s.spks[i]?, x = dequant s.cfg.type s.hasGain y)) := by
  unfold invQuant
  refine Safe.bind (Safe.when fun _ => ?_) fun _ _ => ?_
  · split
    · exact Safe.inTable (by omega) (by omega)
    · exact Safe.inTable (by omega) (by omega)
  refine Safe.bind (Safe.foldN (fun j t => t.length = 24 ∧
      (∀ i, j ≤ i → t[i]? = s.spks[i]?) ∧ (s.cfg.type ≤ 1 ∨ s.hasGain ≠ 0 → ∀ i < j, ∃ x, t[i]? = some x ∧
        x.InRange s.cfg.type s.hasGain ∧ ∀ y ∈ s.spks[i]?, x = dequant s.cfg.type s.hasGain y)) s.num 0 s.spks
      ⟨hl, fun _ _ => rfl, fun _ i hi => absurd hi (by omega)⟩ ?_) ?_
  · intro j t _ hj ⟨ht, hsame, hin⟩
    refine Safe.ite (fun hc => ?_) (fun hc => ?_)
    · refine Safe.bind (Safe.getAt (by omega)) fun x hx => ?_
      refine (Safe.setAt (by omega)).mono fun t' ht' => ?_
      rw [ht']
      refine ⟨by rw [List.length_set, ht], fun i hi => ?_, fun _ i hi => ?_⟩
      · rw [List.getElem?_set_ne (by omega)]; exact hsame i (by omega)
      · by_cases hij : i = j
        · subst hij
          refine ⟨dequant s.cfg.type s.hasGain x, by rw [List.getElem?_set_self (by omega)], dequant_inRange .., ?_⟩
          intro y hy
          rw [Option.mem_def, ← hsame i (le_refl _), hx, Option.some.injEq] at hy
          rw [hy]
        · rw [List.getElem?_set_ne (by omega)]
          exact hin hc i (by omega)
    · exact Safe.pure ⟨ht, fun i hi => hsame i (by omega), fun h => absurd h hc⟩
  · intro t ⟨ht, _, hin⟩
    refine Safe.pure ⟨ht, rfl, rfl, rfl, fun h i hi => hin h i (by omega)⟩

/-- **C80, partial.** With at most 24 loudspeakers the loudspeaker part of the local setup stays in
its arrays; the only undefined behaviour left is that of the speaker configuration (C73). Missing:
more than 24 loudspeakers. -/
theorem C80_inside_partial (s : Setup) (hs : s.spks.length = 24) (hsn : s.num ≤ 24) (n : Nat) (hn : n ≤ 24) (l : List Bool)
    (h : run (speakers s) (natBits 16 n ++ l) = .ub) : run (Speaker.config3d s.cfg) l = .ub := by
  by_contra hc
  unfold speakers loudSpkRen at h
  rw [run_bind, run_bits_bind 16 n _ _ (by decide) (by omega), run_bind] at h
  cases hr : run (Speaker.config3d s.cfg) l with
  | ok x =>
    obtain ⟨⟨e, cfg⟩, l1⟩ := x
    rw [hr, Res.ok_bind, ← run_bind] at h
    refine absurd h ((Safe.bind (R := fun s : Setup => s.spks.length = 24 ∧ s.num ≤ 24) (Q := fun _ => True) ?_ ?_) l1).1
    · refine Safe.bind (Safe.bits (by decide)) fun hd _ => ?_
      refine Safe.bind (Safe.bits (by decide)) fun hg _ => ?_
      refine Safe.bind (Safe.bits (by decide)) fun _ _ => ?_
      refine Safe.bind (spkLoop_safe _ _ _ _ _ _ (by omega) hs) fun r hr => ?_
      refine Safe.ite (fun _ => Safe.pure ⟨hr, hsn⟩) (fun _ => ?_)
      exact Safe.bind (Safe.bits (by decide)) fun ext _ => Safe.pure ⟨hr, hn⟩
    · intro s' ⟨h1, h2⟩
      exact (invQuant_safe s' h1 h2).mono fun _ _ => trivial
  | jump => rw [hr] at h; simp at h
  | err c => rw [hr] at h; simp at h
  | ub => exact hc hr

example : ((run (speakers Setup.zero) (natBits 16 2 ++ (natBits 2 0 ++ natBits 6 2 ++ natBits 3 2 ++
    (natBits 1 1 ++ natBits 9 300 ++ natBits 8 100 ++ natBits 1 1) ++ (natBits 1 0 ++ natBits 1 0) ++ natBits 1 0))).map
    fun r => (r.1.num, (r.1.spks.take 2).map fun x => (x.az, x.el, x.gain), r.2)) =
    .ok (2, [(44, -28, -63/2), (0, 0, -32)], []) := by decide +kernel

/-! ## C81: ranges and gains -/

/-- **C81.** After dequantisation every calibration gain lies in -32 … 31.5 dB, and every known
loudspeaker has an azimuth in ±180° and an elevation in ±90°, whatever was stored before. -/
theorem C81_ranges (s : Setup) (hl : s.spks.length = 24) (hn : s.num ≤ 24) (l : List Bool) (s' : Setup) (l' : List Bool)
    (h : run (invQuant s) l = .ok (s', l')) (hc : s.cfg.type ≤ 1 ∨ s.hasGain ≠ 0) :
    ∀ i < s.num, ∃ x, s'.spks[i]? = some x ∧ x.InRange s.cfg.type s.hasGain := by
  intro i hi
  obtain ⟨x, h1, h2, _⟩ := (((invQuant_safe s hl hn) l).2 s' l' h).2.2.2.2 hc i hi
  exact ⟨x, h1, h2⟩

example : Setup.zero.spks.length = 24 ∧ Setup.zero.num ≤ 24 ∧ (Setup.zero.cfg.type ≤ 1 ∨ Setup.zero.hasGain ≠ 0) := by
  decide +kernel

/-- The claim: every calibration gain that the standard knows (steps of half a dB from -32 to 31.5)
can be sent. -/
def EveryGain : Prop :=
  ∀ m < 128, ∃ l s' l', run (speakers Setup.zero) l = .ok (s', l') ∧ s'.hasGain ≠ 0 ∧
    ∃ i < s'.num, ∃ x ∈ s'.spks[i]?, x.gain = ((m : Rat) - 64) / 2

/-- The coded gains are 0 or 1: the field is read with one bit. -/
theorem spkLoop_gain (ty hd hg : Nat) (hgn : hg ≠ 0) : ∀ k i spks,
    Post 0 (spkLoop ty hd hg k i spks) (fun r => r.1 = false → (∀ j < i, r.2[j]? = spks[j]?) ∧
      ∀ j, i ≤ j → j < i + k → ∃ x, r.2[j]? = some x ∧ (x.gain = 0 ∨ x.gain = 1)) := by
  intro k
  induction k with
  | zero =>
    intro i spks
    exact Post.pure fun _ => ⟨fun _ _ => rfl, fun j h1 h2 => absurd h2 (by omega)⟩
  | succ k ih =>
    intro i spks
    unfold spkLoop
    refine Post.bind Post.triv fun s _ => ?_
    refine Post.bind Post.triv fun dist _ => ?_
    refine Post.ite (fun _ => ?_) (fun _ => ?_)
    · exact Post.bind Post.triv fun t _ => Post.pure fun h => by simp at h
    · rw [if_pos hgn]
      refine Post.bind (R := fun g : Rat => g = 0 ∨ g = 1) ?_ fun gain hgain => ?_
      · refine Post.bind (Safe.post (Safe.bits (by decide))) fun g hg1 => Post.pure ?_
        have : g = 0 ∨ g = 1 := by omega
        rcases this with rfl | rfl
        · left; norm_num
        · right; norm_num
      · have hcond : ty ≤ 1 ∨ hd ≠ 0 ∨ hg ≠ 0 := Or.inr (Or.inr hgn)
        simp only [if_pos hcond]
        refine Post.bind Post.setAt fun t ht => ?_
        refine (ih (i + 1) t).mono fun r hr h => ?_
        obtain ⟨h1, h2⟩ := hr h
        rw [ht.1] at h1
        refine ⟨fun j hj => ?_, fun j h3 h4 => ?_⟩
        · rw [h1 j (by omega), List.getElem?_set_ne (by omega)]
        · by_cases hij : j = i
          · subst hij
            exact ⟨_, by rw [h1 j (by omega), List.getElem?_set_self ht.2], hgain⟩
          · exact h2 j (by omega) (by omega)

theorem invQuant_post (s : Setup) : Post 0 (invQuant s) (fun s' => s'.num = s.num ∧ s'.hasGain = s.hasGain ∧
      (s.hasGain ≠ 0 → ∀ i < s.num, ∃ x y, s'.spks[i]? = some x ∧ s.spks[i]? = some y ∧
        x = dequant s.cfg.type s.hasGain y)) := by
  unfold invQuant
  refine Post.bind Post.triv fun _ _ => ?_
  refine Post.bind (Post.foldN (fun j t => (∀ i, j ≤ i → t[i]? = s.spks[i]?) ∧ (s.hasGain ≠ 0 → ∀ i < j, ∃ x y,
      t[i]? = some x ∧ s.spks[i]? = some y ∧ x = dequant s.cfg.type s.hasGain y)) s.num 0 s.spks
      ⟨fun _ _ => rfl, fun _ i hi => absurd hi (by omega)⟩ ?_) ?_
  · intro j t _ hj ⟨hsame, hin⟩
    refine Post.ite (fun hc => ?_) (fun hc => ?_)
    · refine Post.bind Post.getAt fun x hx => ?_
      refine Post.setAt.mono fun t' ht' => ?_
      rw [ht'.1]
      refine ⟨fun i hi => ?_, fun hg i hi => ?_⟩
      · rw [List.getElem?_set_ne (by omega)]; exact hsame i (by omega)
      · by_cases hij : i = j
        · subst hij
          exact ⟨_, x, by rw [List.getElem?_set_self ht'.2], by rw [← hsame i (le_refl _), hx], rfl⟩
        · rw [List.getElem?_set_ne (by omega)]
          exact hin hg i (by omega)
    · exact Post.pure ⟨fun i hi => hsame i (by omega), fun h => absurd (Or.inr h) hc⟩
  · intro t ⟨_, hin⟩
    exact Post.pure ⟨rfl, rfl, fun h i hi => hin h i (by omega)⟩

/-- A local setup that is read from scratch has only the gains -32 dB and -31.5 dB. -/
theorem speakers_gain : Post 0 (speakers Setup.zero) (fun s' => s'.hasGain ≠ 0 → ∀ i < s'.num, ∀ x ∈ s'.spks[i]?,
    x.gain = -32 ∨ x.gain = -63 / 2) := by
  unfold speakers
  refine Post.bind (R := fun s : Setup => s.hasGain ≠ 0 → ∀ i < s.num, ∀ x ∈ s.spks[i]?, x.gain = 0 ∨ x.gain = 1) ?_ ?_
  · unfold loudSpkRen
    refine Post.bind Post.triv fun n _ => ?_
    refine Post.bind Post.triv fun cfg _ => ?_
    refine Post.bind Post.triv fun hd _ => ?_
    refine Post.bind Post.triv fun hg _ => ?_
    refine Post.bind Post.triv fun _ _ => ?_
    by_cases hgn : hg = 0
    · refine Post.bind Post.triv fun r _ => ?_
      refine Post.ite (fun _ => Post.pure fun h => absurd hgn h) (fun _ => ?_)
      exact Post.bind Post.triv fun ext _ => Post.pure fun h => absurd hgn h
    · refine Post.bind (spkLoop_gain _ hd hg hgn _ _ _) fun r hr => ?_
      refine Post.ite (fun _ => Post.pure fun h i hi => absurd hi (Nat.not_lt_zero i)) (fun hr1 => ?_)
      refine Post.bind Post.triv fun ext _ => Post.pure fun h i hi x hx => ?_
      obtain ⟨y, h1, h2⟩ := (hr (by simpa using hr1)).2 i (Nat.zero_le i) (by simpa using hi)
      have hx' : r.2[i]? = some x := hx
      rw [h1, Option.some.injEq] at hx'
      rw [← hx']
      exact h2
  · intro s hs
    refine (invQuant_post s).mono fun s' ⟨h1, h2, h3⟩ hg i hi x hx => ?_
    rw [h2] at hg
    rw [h1] at hi
    obtain ⟨x', y, e1, e2, e3⟩ := h3 hg i hi
    rw [Option.mem_def, e1, Option.some.injEq] at hx
    subst hx
    rw [e3]
    simp only [dequant, if_pos hg]
    rcases hs hg i hi y e2 with h | h
    · left; rw [h]; decide +kernel
    · right; rw [h]; decide +kernel

/-- **C81, refuted.** The calibration gain is read with one bit instead of seven, so for instance 0 dB
cannot be sent. -/
theorem C81_gain_refuted : ¬ EveryGain := by
  intro h
  obtain ⟨l, s', l', hr, hg, i, hi, x, hx, hv⟩ := h 64 (by decide)
  rcases speakers_gain l s' l' hr (Nat.zero_le _) hg i hi x hx with e | e
  · rw [e] at hv; exact absurd hv (by decide +kernel)
  · rw [e] at hv; exact absurd hv (by decide +kernel)

end Verif.Interact
