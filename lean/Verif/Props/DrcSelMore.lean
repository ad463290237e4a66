import Verif.Props.DrcSelBad
import Verif.Props.DrcSelSafe

/-! # Groups and arrays that are not cleared -/

namespace Verif.DrcSel

open DrcConfig Res
open DrcLoud hiding errUnexpected

/-! ## Groups and presets of the active sets -/

theorem preSelect_kind {p : Request} (hon : p.drcOn = true) (c : Config) (infos : List Info) (slots : List Peak) :
    Gives (preSelect p c infos slots) (fun s => ∀ y ∈ s.cands, ∃ o, s.instrs[y.instr]? = some o ∧
      (o.kind = 0 ∨ o.kind = 3 ∨ (o.kind = 2 ∧ o.group ∈ p.groups))) := by
  unfold preSelect
  refine Gives.bind (Q := fun _ => True) (fun _ _ => trivial) fun s _ => ?_
  rw [if_pos hon]
  refine Gives.bind (Q := fun _ => True) (fun _ _ => trivial) fun n _ => ?_
  refine Gives.bind (Q := fun _ => True) (fun _ _ => trivial) fun r _ => ?_
  refine Gives.bind (Q := fun ys => ∀ y ∈ ys, ∃ o, s.instrs[y.instr]? = some o ∧
      (o.kind = 0 ∨ o.kind = 3 ∨ (o.kind = 2 ∧ o.group ∈ p.groups))) ?_ fun ys hys => Gives.ok hys
  refine Gives.ite (fun _ => copied fun k _ xs hxs => ?_) fun _ => copied fun k _ xs hxs => ?_
  · unfold noGroupStep
    refine Gives.bind (gives_at _ _) fun x hx => ?_
    refine Gives.bind (gives_at _ _) fun o ho => ?_
    refine Gives.ite (fun h => gives_push (snoc_all hxs ⟨o, ho, ?_⟩)) fun _ => Gives.ok hxs
    rcases h with h | h
    · exact Or.inl h
    · exact Or.inr (Or.inl h)
  · unfold groupStep
    refine Gives.bind (gives_at _ _) fun x hx => ?_
    refine Gives.bind (gives_at _ _) fun o ho => ?_
    refine Gives.ite (fun h => gives_push (snoc_all hxs ⟨o, ho, Or.inl h⟩)) fun _ => ?_
    refine Gives.ite (fun h2 => ?_) fun _ => Gives.ok hxs
    refine gives_each (I := fun xs : List Cand => ∀ y ∈ xs, ∃ o, s.instrs[y.instr]? = some o ∧
      (o.kind = 0 ∨ o.kind = 3 ∨ (o.kind = 2 ∧ o.group ∈ p.groups))) (fun g hg xs hxs => ?_) hxs
    exact Gives.ite (fun h => gives_push (snoc_all hxs ⟨o, ho, Or.inr (Or.inr ⟨h2, by rw [h]; exact hg⟩)⟩)) fun _ => Gives.ok hxs

theorem selectSet_pre (p : Request) (c : Config) (infos : List Info) (slots : List Peak) :
    Gives (selectSet p c infos slots) (fun r => preSelect p c infos slots = .ok r.1) := by
  unfold selectSet
  refine Gives.bind (Q := fun s => preSelect p c infos slots = .ok s) (fun _ h => h) fun s hs => ?_
  cases s.cands with
  | nil => exact Gives.err
  | cons x xs =>
    dsimp only
    refine Gives.ite (fun _ => Gives.err) fun _ => Gives.ite (fun _ => ?_) fun _ => Gives.ok hs
    refine Gives.bind (Q := fun _ => True) (fun _ _ => trivial) fun ys _ => ?_
    refine Gives.ite (fun _ => Gives.err) fun _ => ?_
    exact Gives.bind (Q := fun _ => True) (fun _ _ => trivial) fun y _ => Gives.ok hs

/-- With DRC on every active set is for the groups and presets requested, or one that another set depends on, if
all sets for presets are for requested ones. -/
theorem request_partial {p : Request} {c : Config} {infos : List Info} {slots : List Peak} {out : Output} (hon : p.drcOn = true)
    (hm : Moderate p c infos) (hg : ∀ g ∈ p.presets, 0 ≤ g.2) (hc : c.instrCount ≤ c.plus)
    (hpre : ∀ o ∈ c.instrs, o.kind = 3 → ∃ n, (o.preset, n) ∈ p.presets) (h : select p c infos slots = .ok out) :
    ∀ e ∈ out.sets, ∃ u ∈ c.instrs, u.setId = e.1 ∧ (ForRequest p u ∨ ∃ t ∈ c.instrs, t.depends = 1 ∧ (t.dependsOn : Int) = u.setId) := by
  obtain ⟨c', s, x, o, so, sel, dep, fade, duck, S⟩ := select_gives p c infos slots out h
  have hn := noteDmx_gives p c c' S.noted
  obtain ⟨_, _, hx⟩ := selectSet_gives (hm.noted S.noted) hg slots _ S.set
  have hkind := preSelect_kind hon c' infos slots _ (selectSet_pre p c' infos slots _ S.set) x hx
  intro e he
  obtain ⟨i, t, hi, ht, htpos, he1, _⟩ := S.mem he
  obtain ⟨u, hu, _, heff, hku, hgr, hpr, _, _, _, _, hid⟩ := S.from ht
  have hum := List.mem_of_getElem? hu
  have hue : u.setId = e.1 := by omega
  have req : ForRequest p t → ForRequest p u := by
    intro h
    unfold ForRequest at h ⊢
    rwa [hku, hgr, hpr] at h
  have atTake : ∀ (k : Nat) (t' : Instr), (s.instrs.take c'.instrCount)[k]? = some t' → s.instrs[k]? = some t' := by
    intro k t' hk
    rw [List.getElem?_take] at hk
    split at hk
    · exact hk
    · cases hk
  rcases hi with h1 | ⟨_, h1⟩ | h1 | rfl
  · refine ⟨u, hum, hue, Or.inl (req ?_)⟩
    rcases getDucking_spec p (s.instrs.take c'.instrCount) 0 none with ⟨h2, _⟩ | ⟨k, t', h2, h3, h4⟩
    · rw [S.ducking, h1] at h2; cases h2
    · rw [S.ducking, h1] at h2
      have : i = k := by simpa using h2
      subst this
      rw [atTake _ _ h3] at ht
      cases ht
      exact h4.2.2
  · refine ⟨u, hum, hue, Or.inl (req ?_)⟩
    rcases getFading_gives p _ 0 none fade S.fading with ⟨h2, _⟩ | ⟨k, t', h2, h3, h4⟩
    · rw [h1] at h2; cases h2
    · rw [h1] at h2
      have : i = k := by simpa using h2
      subst this
      rw [atTake _ _ h3] at ht
      cases ht
      exact h4.2.2
  · rcases getDependent_gives c' s.instrs so dep S.dependent with ⟨h2, _⟩ | ⟨j, h2, h3, h4⟩
    · rw [h1] at h2; cases h2
    · rw [h1] at h2
      cases h2
      obtain ⟨_, t', ht', hid', _⟩ := firstWith_gives c' s.instrs so.dependsOn _ h4
      rw [ht] at ht'
      cases ht'
      obtain ⟨v, hv, _, _, _, _, _, _, _, hvd, hvo, _⟩ := S.from S.selected
      exact ⟨u, hum, hue, Or.inr ⟨v, List.mem_of_getElem? hv, by omega, by omega⟩⟩
  · -- the selected set has the identifier of the candidate's
    obtain ⟨_, t', ht', hid', _⟩ := firstWith_gives c' s.instrs o.setId _ S.first
    rw [ht] at ht'
    cases ht'
    obtain ⟨w, hw, _, _, hkw, hgw, hpw, _, _, _, _, hidw⟩ := S.from S.instr
    refine ⟨w, List.mem_of_getElem? hw, by omega, Or.inl ?_⟩
    obtain ⟨o', ho', hk⟩ := hkind
    rw [S.instr] at ho'
    cases ho'
    rw [hkw, hgw] at hk
    refine ⟨fun h2 => ?_, fun h3 => hpre w (List.mem_of_getElem? hw) h3⟩
    rcases hk with h | h | h
    · omega
    · omega
    · exact h.2

/-- A set for a requested group is active and one for another group is not. -/
example : select { aRequest with groups := [4] } (aConfig [{ aSet 1 1 0 with kind := 2, group := 3 },
    { aSet 2 1 0 with kind := 2, group := 4 }]) [] noSlots = .ok ⟨[(2, 0)], 0, 0, 1000, 0⟩ := by decide +kernel

/-! ## Arrays that are not cleared -/

/-- Both give a value, and the values are related, or neither does. -/
def Rel {α : Type} (R : α → α → Prop) : Res α → Res α → Prop
  | .ok a, .ok b => R a b
  | .err c, .err d => c = d
  | .ub, .ub => True
  | .jump, .jump => True
  | _, _ => False

theorem Rel.bind {α β : Type} {R : α → α → Prop} {T : β → β → Prop} {r r' : Res α} {f f' : α → Res β} (h : Rel R r r')
    (hf : ∀ a b, R a b → Rel T (f a) (f' b)) : Rel T (r >>= f) (r' >>= f') := by
  cases r <;> cases r' <;> try exact h.elim
  · exact hf _ _ h
  · trivial
  · exact h
  · trivial

theorem Rel.refl {α : Type} {R : α → α → Prop} (r : Res α) (h : ∀ a, r = .ok a → R a a) : Rel R r r := by
  cases r
  · exact h _ rfl
  · trivial
  · rfl
  · trivial

theorem Rel.ite {α : Type} {R : α → α → Prop} {c : Prop} [Decidable c] {r r' s s' : Res α} (h1 : c → Rel R r r') (h2 : ¬ c → Rel R s s') :
    Rel R (if c then r else s) (if c then r' else s') := by
  by_cases hc : c
  · rw [if_pos hc, if_pos hc]; exact h1 hc
  · rw [if_neg hc, if_neg hc]; exact h2 hc

theorem Rel.each {α σ : Type} {R : σ → σ → Prop} {f f' : α → σ → Res σ} : ∀ {xs : List α}, (∀ x ∈ xs, ∀ s t, R s t → Rel R (f x s) (f' x t)) →
    ∀ {s t : σ}, R s t → Rel R (each f xs s) (each f' xs t)
  | [], _, _, _, hs => hs
  | x :: xs, h, s, t, hs => by
    unfold DrcSel.each
    exact Rel.bind (h x (by simp) s t hs) fun a b hab => Rel.each (fun y hy => h y (by simp [hy])) hab

theorem Rel.eq {α : Type} {r r' : Res α} (h : Rel Eq r r') : r = r' := by
  cases r <;> cases r' <;> try exact h.elim
  · rw [show _ = _ from h]
  · rfl
  · rw [show _ = _ from h]
  · rfl

theorem Rel.eq_of_ok {α : Type} {R : α → α → Prop} {r r' : Res α} (h : Rel R r r') {P : α → Prop} (g : Gives r P) :
    Rel (fun a b => R a b ∧ P a) r r' := by
  cases r <;> cases r' <;> try exact h.elim
  · exact ⟨h, g _ rfl⟩
  · trivial
  · exact h
  · trivial

/-- The entries written are the same. -/
def SamePeaks (s t : Peaks) : Prop :=
  s.cnt = t.cnt ∧ s.found = t.found ∧ s.slots.length = t.slots.length ∧ ∀ j < max s.cnt 1, s.slots[j]? = t.slots[j]?

theorem same_write {s t : Peaks} (h : SamePeaks s t) (pk : Peak) {k : Nat} (hk : k ≤ s.cnt + 1) (b : Bool) :
    SamePeaks ⟨s.slots.set s.cnt pk, k, b⟩ ⟨t.slots.set t.cnt pk, k, b⟩ := by
  refine ⟨rfl, rfl, by simpa using h.2.2.1, fun j hj => ?_⟩
  dsimp only at hj ⊢
  rw [← h.1, List.getElem?_set, List.getElem?_set]
  split
  · rw [h.2.2.1]
  · exact h.2.2.2 j (by omega)

theorem same_note (o : Instr) (l : Info) (level : Rat) (explicit : Int) {s t : Peaks} (h : SamePeaks s t) :
    Rel SamePeaks (notePeak o l level explicit s) (notePeak o l level explicit t) := by
  unfold notePeak
  rw [← h.2.2.1, show t.cnt = s.cnt from h.1.symm]
  by_cases hc : s.cnt < s.slots.length
  · rw [if_pos hc, if_pos hc]
    refine Rel.ite (fun _ => ?_) fun _ => ?_
    · have := same_write h ⟨0, level, explicit⟩ (k := s.cnt + 1) (by omega) true
      rw [← h.1] at this
      exact this
    · have := same_write h ⟨0, level, explicit⟩ (k := s.cnt) (by omega) s.found
      rw [← h.1] at this
      rw [h.2.1] at this ⊢
      exact this
  · rw [if_neg hc, if_neg hc]
    trivial

theorem same_info (o : Instr) (which : Info → Bool) (explicit : Int) (infos : List Info) {s t : Peaks} (h : SamePeaks s t) :
    Rel SamePeaks (each (infoPeak o which explicit) infos s) (each (infoPeak o which explicit) infos t) := by
  refine Rel.each (fun l _ s t h => ?_) h
  unfold infoPeak
  refine Rel.ite (fun _ => ?_) fun _ => h
  refine Rel.bind (Rel.ite (fun _ => same_note o l _ _ h) fun _ => h) fun s t h => ?_
  rw [← h.2.1]
  exact Rel.ite (fun _ => same_note o l _ _ h) fun _ => h

theorem same_limit (eq : Int) (level : Rat) (explicit : Int) {s t : Peaks} (h : SamePeaks s t) :
    Rel SamePeaks (limitPeak eq level explicit s) (limitPeak eq level explicit t) := by
  unfold limitPeak
  rw [← h.2.2.1, show t.cnt = s.cnt from h.1.symm]
  refine Rel.ite (fun _ => ?_) fun _ => trivial
  have := same_write h ⟨eq, level, explicit⟩ (k := s.cnt + 1) (by omega) true
  rw [← h.1] at this
  exact this

theorem same_limits {α : Type} {c : α → Prop} [DecidablePred c] {eq explicit : Int} {level : α → Rat} {xs : List α} {s t : Peaks}
    (h : SamePeaks s t) : Rel SamePeaks (each (fun d s => if c d then limitPeak eq (level d) explicit s else .ok s) xs s)
      (each (fun d s => if c d then limitPeak eq (level d) explicit s else .ok s) xs t) :=
  Rel.each (fun d _ s t h => Rel.ite (c := c d) (r := limitPeak eq (level d) explicit s) (r' := limitPeak eq (level d) explicit t) (s := .ok s)
    (s' := .ok t) (fun _ => same_limit _ _ _ h) fun _ => h) h

theorem same_unless {f g : Peaks → Res Peaks} {s t : Peaks} (h : SamePeaks s t) (hf : ∀ s t, SamePeaks s t → Rel SamePeaks (f s) (g t)) :
    Rel SamePeaks (unlessFound f s) (unlessFound g t) := by
  unfold unlessFound
  rw [← h.2.1]
  exact Rel.ite (fun _ => h) fun _ => hf s t h

theorem same_levels (instrs : List Instr) (infos : List Info) (o : Instr) (dmx : Int) {u v : List Peak} (h : u.length = v.length) :
    Rel (fun r q => r.1 = q.1 ∧ r.2.length = q.2.length ∧ r.2.take r.1 = q.2.take r.1)
      (peakLevels instrs infos o dmx u) (peakLevels instrs infos o dmx v) := by
  have start : SamePeaks ⟨u.set 0 ⟨0, 0, 0⟩, 0, false⟩ ⟨v.set 0 ⟨0, 0, 0⟩, 0, false⟩ := by
    refine ⟨rfl, rfl, by simpa using h, fun j hj => ?_⟩
    dsimp only at hj ⊢
    have : j = 0 := by omega
    subst this
    rw [List.getElem?_set, List.getElem?_set, h]
    simp
  unfold peakLevels
  refine Rel.bind (same_info o _ _ infos start) fun s t h => ?_
  refine Rel.bind (same_unless h fun s t h => same_info o _ _ infos h) fun s t h => ?_
  refine Rel.bind (same_unless h fun s t h => same_limits h) fun s t h => ?_
  refine Rel.bind (same_unless h fun s t h => same_limits h) fun s t h => ?_
  refine Rel.bind (R := SamePeaks) ?_ fun s t h => ?_
  · refine Rel.ite (fun _ => h) fun _ => ?_
    refine Rel.bind (same_unless h fun s t h => same_info o _ _ infos h) fun s t h => ?_
    refine Rel.bind (same_unless h fun s t h => same_info o _ _ infos h) fun s t h => ?_
    exact same_unless h fun s t h => same_limits h
  · refine ⟨by dsimp only; rw [h.1], h.2.2.1, ?_⟩
    dsimp only
    apply List.ext_getElem?
    intro j
    rw [List.getElem?_take, List.getElem?_take]
    by_cases hj : j < (if s.cnt = 0 then 1 else s.cnt)
    · rw [if_pos hj, if_pos hj]
      refine h.2.2.2 j ?_
      split at hj <;> omega
    · rw [if_neg hj, if_neg hj]

/-- All but the arrays is the same. -/
def SamePre (s t : Pre) : Prop := s.instrs = t.instrs ∧ s.cands = t.cands ∧ s.gain = t.gain ∧ s.slots.length = t.slots.length

theorem place_zero {n : Nat} {xs : List Peak} (hn : 1 ≤ n) (h : ∀ j < n, ∀ pk, xs[j]? = some pk → pk.eq = 0) : peakPlace n xs = 0 := by
  unfold peakPlace
  cases xs with
  | nil => simp
  | cons a as =>
    have ha := h 0 (by omega) a rfl
    obtain ⟨m, rfl⟩ := Nat.exists_eq_succ_of_ne_zero (show n ≠ 0 by omega)
    rw [List.take_succ_cons, List.findIdx_cons]
    simp [ha]

theorem same_step {p : Request} (hd : p.dmx = 0) {c : Config} {infos : List Info} (i : Nat) {s t : Pre} (h : SamePre s t) :
    Rel SamePre (preStep p c infos i s) (preStep p c infos i t) := by
  obtain ⟨h1, h2, h3, h4⟩ := h
  unfold preStep
  rw [← h1]
  refine Rel.bind (R := Eq) (Rel.refl _ fun _ _ => rfl) fun o o' ho => ?_
  subst ho
  have levels : ∀ o : Instr, Rel (fun r q => (r.1 = q.1 ∧ r.2.length = q.2.length ∧ r.2.take r.1 = q.2.take r.1) ∧
      (1 ≤ r.1 ∧ ∀ j < r.1, ∀ pk, r.2[j]? = some pk → pk.eq = 0))
      (peakLevels ((s.instrs.set i o).take c.plus) infos o p.dmx s.slots) (peakLevels ((s.instrs.set i o).take c.plus) infos o p.dmx t.slots) := by
    intro o
    refine Rel.eq_of_ok (same_levels _ infos o p.dmx h4) ?_
    exact (peakLevels_gives (fun _ => True) trivial (fun _ _ _ _ => ⟨fun _ => trivial, fun _ => trivial⟩) (fun _ => trivial)
      (fun _ _ _ => trivial)).mono fun r hr => ⟨hr.2.1, fun j hj pk hpk => (hr.2.2 j hj pk hpk).2 hd⟩
  have first : ∀ {r q : Nat × List Peak}, ((r.1 = q.1 ∧ r.2.length = q.2.length ∧ r.2.take r.1 = q.2.take r.1) ∧
      (1 ≤ r.1 ∧ ∀ j < r.1, ∀ pk, r.2[j]? = some pk → pk.eq = 0)) → peakPlace r.1 r.2 = 0 ∧ peakPlace q.1 q.2 = 0 ∧ at_ r.2 0 = at_ q.2 0 := by
    intro r q hrq
    have h0 := place_zero hrq.2.1 hrq.2.2
    refine ⟨h0, ?_, ?_⟩
    · unfold peakPlace at h0 ⊢
      rw [← hrq.1.1, ← hrq.1.2.2]
      exact h0
    · have := congrArg (fun xs : List Peak => xs[0]?) hrq.1.2.2
      have h1 := hrq.2.1
      simp only [List.getElem?_take] at this
      rw [if_pos (by omega)] at this
      unfold at_
      rw [this, if_pos (by omega)]
  refine Rel.ite (fun _ => ⟨h1, h2, h3, h4⟩) fun _ => Rel.ite (fun _ => ?_) fun _ => ?_
  · refine Rel.ite (fun _ => ?_) fun _ => ⟨h1, h2, h3, h4⟩
    refine Rel.bind (R := Eq) (Rel.refl _ fun _ _ => rfl) fun g g' hg => ?_
    subst hg
    refine Rel.bind (levels g.1) fun r q hrq => ?_
    obtain ⟨f1, f2, f3⟩ := first hrq
    have step : ∀ y x, offCand i r.1 r.2 y x = offCand i q.1 q.2 y x := by
      intro y x
      unfold offCand
      rw [f1, f2, f3, hrq.1.1]
    rw [← h2, ← h3]
    have hfun : offCand i r.1 r.2 = offCand i q.1 q.2 := funext fun y => funext fun x => step y x
    dsimp only
    rw [hfun]
    refine Rel.bind (R := Eq) (Rel.refl _ fun _ _ => rfl) fun a b hab => ?_
    subst hab
    exact ⟨rfl, rfl, rfl, hrq.1.2.1⟩
  · refine Rel.ite (fun _ => ?_) fun _ => ⟨h1, h2, h3, h4⟩
    refine Rel.bind (R := Eq) (Rel.refl _ fun _ _ => rfl) fun b b' hb => ?_
    subst hb
    refine Rel.ite (fun _ => ?_) fun _ => ⟨h1, h2, h3, h4⟩
    refine Rel.bind (R := Eq) (Rel.refl _ fun _ _ => rfl) fun g g' hg => ?_
    subst hg
    refine Rel.bind (levels g.1) fun r q hrq => ?_
    obtain ⟨f1, f2, f3⟩ := first hrq
    have hfun : onCand p g.1 i r.1 r.2 = onCand p g.1 i q.1 q.2 := by
      funext y x
      unfold onCand
      dsimp only
      rw [f1, f2, f3, hrq.1.1]
    rw [← h2, ← h3]
    dsimp only
    rw [hfun]
    refine Rel.bind (R := Eq) (Rel.refl _ fun _ _ => rfl) fun a b hab => ?_
    subst hab
    exact ⟨rfl, rfl, rfl, hrq.1.2.1⟩

/-- For the base layout the outcome does not depend on what the arrays held before. -/
theorem cleared_partial {p : Request} (hd : p.dmx = 0) (c : Config) (infos : List Info) {u v : List Peak} (h : u.length = v.length) :
    select p c infos u = select p c infos v := by
  have pre : ∀ c : Config, Rel SamePre (preSelect p c infos u) (preSelect p c infos v) := by
    intro c
    unfold preSelect
    refine Rel.bind (Rel.each (fun i _ s t h => same_step hd i h) ⟨rfl, rfl, rfl, h⟩) fun s t hst => ?_
    obtain ⟨h1, h2, h3, h4⟩ := hst
    refine Rel.ite (fun _ => ?_) fun _ => ⟨h1, h2, h3, h4⟩
    rw [← h1, ← h2]
    refine Rel.bind (R := Eq) (Rel.refl _ fun _ _ => rfl) fun n n' hn => ?_
    subst hn
    refine Rel.bind (R := Eq) (Rel.refl _ fun _ _ => rfl) fun r r' hr => ?_
    subst hr
    refine Rel.bind (R := Eq) (Rel.refl _ fun _ _ => rfl) fun y y' hy => ?_
    subst hy
    exact ⟨rfl, rfl, h3, h4⟩
  refine Rel.eq ?_
  unfold select
  refine Rel.bind (R := Eq) (Rel.refl _ fun _ _ => rfl) fun c c' hc => ?_
  subst hc
  refine Rel.bind (R := fun r q : Pre × Cand => SamePre r.1 q.1 ∧ r.2 = q.2) ?_ fun r q hrq => ?_
  · unfold selectSet
    refine Rel.bind (pre c) fun s t hst => ?_
    obtain ⟨h1, h2, h3, h4⟩ := hst
    rw [← h1, ← h2]
    cases s.cands with
    | nil => rfl
    | cons x xs =>
      dsimp only
      refine Rel.ite (fun _ => rfl) fun _ => Rel.ite (fun _ => ?_) fun _ => ⟨⟨h1, h2, h3, h4⟩, rfl⟩
      refine Rel.bind (R := Eq) (Rel.refl _ fun _ _ => rfl) fun y y' hy => ?_
      subst hy
      refine Rel.ite (fun _ => rfl) fun _ => ?_
      refine Rel.bind (R := Eq) (Rel.refl _ fun _ _ => rfl) fun y y' hy => ?_
      subst hy
      exact ⟨⟨h1, h2, h3, h4⟩, rfl⟩
  · obtain ⟨⟨h1, h2, h3, h4⟩, h5⟩ := hrq
    obtain ⟨s, x⟩ := r
    obtain ⟨t, y⟩ := q
    dsimp only at h1 h2 h3 h4 h5 ⊢
    subst h5
    rw [← h1, ← h3]
    exact Rel.refl _ fun _ _ => rfl

/-! ## Cases -/

/-- Two sets with loudness information for each. -/
def twoSets : Config := aConfig [aSet 1 1 0, aSet 2 2 0]

/-- Loudness for set 1 with anchor loudness beside, and for any set. -/
def someInfos : List Info :=
  [{ anInfo 0 1 (-20) with count := 2, measures := [⟨2, -25, 2, 3⟩, ⟨1, -20, 4, 3⟩] }, anInfo 0 63 (-30)]

theorem some_moderate : Moderate normOn twoSets someInfos :=
  ⟨by decide +kernel, by decide +kernel, by decide +kernel, by decide +kernel, by decide +kernel, by decide +kernel⟩

theorem some_plain : Plain normOn someInfos := ⟨by decide, by decide, by decide, by decide, by decide⟩

/-- `loudness_control_partial` -/
example : loudnessControl normOn someInfos (aSet 1 1 0) = .ok (aSet 1 1 0, [(-4, -20)]) ∧ Levelled normOn someInfos (aSet 1 1 0) [(-4, -20)] := by
  have h : loudnessControl normOn someInfos (aSet 1 1 0) = .ok (aSet 1 1 0, [(-4, -20)]) := by decide +kernel
  exact ⟨h, (loudness_control_partial rfl some_plain (fun h => by cases h) h).2⟩

theorem some_selected : select normOn twoSets someInfos noSlots = .ok ⟨[(1, 0)], -4, -4, -24, 6⟩ := by decide +kernel

/-- `normalised_partial` -/
example : Normalised normOn twoSets someInfos ⟨[(1, 0)], -4, -4, -24, 6⟩ :=
  normalised_partial rfl some_moderate some_plain (fun h => by cases h) some_selected

/-- `applied_partial` -/
example := applied_partial some_moderate (by decide) some_selected

/-- `bounds_partial` -/
example : Tame normOn twoSets someInfos noSlots :=
  ⟨by decide, by unfold Systems; decide, rfl, by decide, by decide, by decide, by decide, by
    intro cf h
    simp [twoSets, aConfig, lastAt] at h⟩

/-- `cleared_partial` -/
example : normOn.dmx = 0 ∧ select normOn twoSets someInfos noSlots = select normOn twoSets someInfos (List.replicate 16 ⟨3, -7, 1⟩) :=
  ⟨rfl, cleared_partial rfl _ _ rfl⟩

/-- `active_sets_partial` -/
example := active_sets_partial (show twoSets.instrCount ≤ twoSets.plus by decide) some_selected

/-- `final_partial`: of two sets within the peak limit, neither with other effects than general compression, the one
with the higher peak level is chosen. -/
example : ∃ y, finalSelect normOn twoSets twoSets.instrs [⟨0, 0, -3, 1000, false, true⟩, ⟨1, 0, -2, 1000, false, true⟩] = .ok y ∧ y.instr = 1 ∧
    (∀ o ∈ twoSets.instrs, (o.dmxIds.take o.dmxCount).Nodup) ∧ (∀ o ∈ twoSets.instrs, o.kind = 3 → o.preset = 7) :=
  ⟨⟨1, 0, -2, 1000, false, true⟩, by decide +kernel, rfl, by decide, by decide⟩

/-- `effect_honoured`: the second effect asked for is the first that a candidate has. -/
example : matchEffects twoSets twoSets.instrs { normOn with effects := [6, 2, 1] } [⟨0, 0, -3, 1000, false, true⟩, ⟨1, 0, -2, 1000, false, true⟩]
    = .ok [⟨1, 0, -2, 1000, false, true⟩] := by decide +kernel

theorem plain_request {p : Request} {o : Instr} (h : o.kind = 0) : ForRequest p o := ⟨fun h2 => by omega, fun h3 => by omega⟩

/-- `ducking_before_fading`: with both only the ducking set is active. -/
example : select aRequest (aConfig [aSet 1 1 0, aSet 2 0x200 127, aSet 3 0x400 0]) [] noSlots = .ok ⟨[(3, 0), (1, 0)], 0, 0, 1000, 0⟩ ∧
    IsFade aRequest (aSet 2 0x200 127) ∧ IsDuck aRequest (aSet 3 0x400 0) :=
  ⟨by decide +kernel, ⟨by decide, by decide, plain_request rfl⟩, ⟨Or.inl (by decide), by decide, plain_request rfl⟩⟩

/-- `drc_off_partial`: with DRC off only the fading set is active. -/
example : select { aRequest with drcOn := false } (aConfig [aSet 1 1 0, aSet 2 0x200 127]) [] noSlots = .ok ⟨[(2, 0)], 0, 0, 1000, 0⟩ := by
  decide +kernel

end Verif.DrcSel
