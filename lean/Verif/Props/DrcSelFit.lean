import Verif.Props.DrcSelMore
import Mathlib.Data.List.Nodup

/-! # Which sets can be selected -/

namespace Verif.DrcSel

open DrcConfig Res
open DrcLoud hiding errUnexpected

/-! ## Where peak levels come from -/

theorem isMatch_iff {o : Instr} {l : Info} : isMatch o l = true ↔ SamePart o l := by
  unfold isMatch SamePart
  simp only [Bool.or_eq_true, Bool.and_eq_true, beq_iff_eq]
  constructor
  · rintro ((⟨⟨h1, h2⟩, h3⟩ | ⟨⟨h1, h2⟩, h3⟩) | ⟨h1, h2⟩)
    · exact Or.inr (Or.inr ⟨h1, h2, h3⟩)
    · exact Or.inr (Or.inl ⟨h1, h2, h3⟩)
    · exact Or.inl ⟨h1, h2⟩
  · rintro (⟨h1, h2⟩ | ⟨h1, h2, h3⟩ | ⟨h1, h2, h3⟩)
    · exact Or.inr ⟨h1, h2⟩
    · exact Or.inl (Or.inr ⟨⟨h1, h2⟩, h3⟩)
    · exact Or.inl (Or.inl ⟨⟨h1, h2⟩, h3⟩)

theorem peakLevels_source (K L : Rat → Int → Prop) {instrs : List Instr} {infos : List Info} {o : Instr} {dmx : Int} {slots : List Peak}
    (h0 : L 0 0) (hi : ∀ l ∈ infos, ∀ e : Int, (((l.dmxId : Int) = dmx ∧ e = 1) ∨ (l.dmxId = 0 ∧ e = 0)) →
      ((l.setId : Int) = max o.setId 0 ∨ l.setId = 63) →
      (l.truePresent = true → L l.truePeak e ∧ (SamePart o l → K l.truePeak e)) ∧
      (l.samplePresent = true → L l.sample e ∧ (SamePart o l → K l.sample e)))
    (ho : o.peakPresent ≠ 0 → K o.peak 1)
    (ht : dmx ≠ 0 → ∀ t ∈ instrs, t.setId = max o.setId 0 → t.peakPresent ≠ 0 → K t.peak 0) :
    Gives (peakLevels instrs infos o dmx slots) (fun r => 1 ≤ r.1 ∧
      ((∀ j < r.1, ∀ pk, r.2[j]? = some pk → K pk.level pk.explicit) ∨ (r.1 = 1 ∧ ∀ pk, r.2[0]? = some pk → L pk.level pk.explicit)) ∧
      (dmx = 0 → ∀ j < r.1, ∀ pk, r.2[j]? = some pk → pk.eq = 0)) := by
  let I : Peaks → Prop := fun s => (∀ j < s.cnt, ∀ pk, s.slots[j]? = some pk → K pk.level pk.explicit ∧ (dmx = 0 → pk.eq = 0)) ∧
      (s.cnt = 0 → ∀ pk, s.slots[0]? = some pk → L pk.level pk.explicit ∧ (dmx = 0 → pk.eq = 0))
  have keep : ∀ (s : Peaks) (eq : Int) (level : Rat) (explicit : Int), I s → K level explicit → (dmx = 0 → eq = 0) → s.cnt < s.slots.length →
      ∀ b, I ⟨s.slots.set s.cnt ⟨eq, level, explicit⟩, s.cnt + 1, b⟩ := by
    intro s eq level explicit hs hl he hc b
    refine ⟨?_, fun h => absurd h (by simp)⟩
    intro j hj pk hpk
    dsimp only at hj hpk
    by_cases e : j = s.cnt
    · subst e
      rw [List.getElem?_set_self hc] at hpk
      cases hpk
      exact ⟨hl, he⟩
    · rw [List.getElem?_set_ne (by omega)] at hpk
      exact hs.1 j (by omega) pk hpk
  have drop : ∀ (s : Peaks) (level : Rat) (explicit : Int), I s → L level explicit → s.cnt < s.slots.length →
      I { s with slots := s.slots.set s.cnt ⟨0, level, explicit⟩ } := by
    intro s level explicit hs hl hc
    refine ⟨?_, ?_⟩
    · intro j hj pk hpk
      dsimp only at hj hpk
      rw [List.getElem?_set_ne (by omega)] at hpk
      exact hs.1 j hj pk hpk
    · intro h pk hpk
      dsimp only at h hpk
      rw [h] at hpk hc
      rw [List.getElem?_set_self hc] at hpk
      cases hpk
      exact ⟨hl, fun _ => rfl⟩
  have note : ∀ (l : Info) (level : Rat) (explicit : Int) (s : Peaks), I s → L level explicit ∧ (SamePart o l → K level explicit) →
      Gives (notePeak o l level explicit s) I := by
    intro l level explicit s hs hl
    unfold notePeak
    by_cases hc : s.cnt < s.slots.length
    · rw [if_pos hc]
      refine Gives.bind (Gives.ok (Q := fun x => x = _) rfl) fun x hx => ?_
      subst hx
      exact Gives.ite (fun h => Gives.ok (keep s 0 level explicit hs (hl.2 (isMatch_iff.mp h)) (fun _ => rfl) hc _)) fun _ =>
        Gives.ok (drop s level explicit hs hl.1 hc)
    · rw [if_neg hc]
      exact Gives.bind (Q := fun _ => False) Gives.ub fun _ h => h.elim
  have info : ∀ (which : Info → Bool) (explicit : Int) (s : Peaks), (∀ l, which l = true → (((l.dmxId : Int) = dmx ∧ explicit = 1) ∨ (l.dmxId = 0 ∧ explicit = 0)) ∧
      ((l.setId : Int) = max o.setId 0 ∨ l.setId = 63)) → I s → Gives (each (infoPeak o which explicit) infos s) I := by
    intro which explicit s hwhich hs
    refine gives_each (fun l hl s hs => ?_) hs
    unfold infoPeak
    refine Gives.ite (fun hw => ?_) fun _ => Gives.ok hs
    have hi := hi l hl explicit (hwhich l hw).1 (hwhich l hw).2
    refine Gives.bind (Gives.ite (fun h => note l _ _ s hs (hi.1 h)) fun _ => Gives.ok hs) fun s hs => ?_
    refine Gives.ite (fun h => note l _ _ s hs (hi.2 ?_)) fun _ => Gives.ok hs
    simp only [Bool.and_eq_true] at h
    exact h.2
  have limit : ∀ (eq : Int) (level : Rat) (explicit : Int) (s : Peaks), I s → K level explicit → (dmx = 0 → eq = 0) →
      Gives (limitPeak eq level explicit s) I := by
    intro eq level explicit s hs hl he
    unfold limitPeak
    exact Gives.ite (fun hc => Gives.ok (keep s eq level explicit hs hl he hc _)) fun _ => Gives.ub
  have unl : ∀ (f : Peaks → Res Peaks) (s : Peaks), I s → (∀ s, I s → Gives (f s) I) → Gives (unlessFound f s) I := by
    intro f s hs hf
    unfold unlessFound
    exact Gives.ite (fun _ => Gives.ok hs) fun _ => hf s hs
  unfold peakLevels
  have start : I ⟨slots.set 0 ⟨0, 0, 0⟩, 0, false⟩ := by
    refine ⟨fun j hj => absurd hj (by simp), fun _ pk hpk => ?_⟩
    dsimp only at hpk
    rw [List.getElem?_set] at hpk
    split at hpk
    · split at hpk
      · cases hpk; exact ⟨h0, fun _ => rfl⟩
      · cases hpk
    · contradiction
  have hlook : lookedUp o = max o.setId 0 := by unfold lookedUp; split <;> omega
  refine Gives.bind (info _ _ _ (fun l h => ?_) start) fun s hs => ?_
  · simp only [Bool.and_eq_true, beq_iff_eq] at h
    exact ⟨Or.inl ⟨h.1.symm, rfl⟩, Or.inl (by omega)⟩
  refine Gives.bind (unl _ s hs fun s hs => info _ _ _ (fun l h => ?_) hs) fun s hs => ?_
  · simp only [Bool.and_eq_true, beq_iff_eq, anyDrc] at h
    exact ⟨Or.inl ⟨h.2.symm, rfl⟩, Or.inr (by omega)⟩
  refine Gives.bind (unl _ s hs fun s hs => gives_each (fun d _ s hs => Gives.ite (fun h => ?_) fun _ => Gives.ok hs) hs) fun s hs => ?_
  · refine limit _ _ _ s hs (ho ?_) (fun _ => rfl)
    simp only [Bool.and_eq_true] at h
    simpa using h.2
  refine Gives.bind (unl _ s hs fun s hs => gives_each (fun d _ s hs => Gives.ite (fun h => ?_) fun _ => Gives.ok hs) hs) fun s hs => ?_
  · refine limit _ _ _ s hs (ho ?_) (fun _ => rfl)
    simp only [Bool.and_eq_true] at h
    simpa using h.2
  refine Gives.bind (Q := I) ?_ fun s hs => Gives.ok ?_
  · refine Gives.ite (fun _ => Gives.ok hs) fun hd => ?_
    refine Gives.bind (unl _ s hs fun s hs => info _ _ _ (fun l h => ?_) hs) fun s hs => ?_
    · simp only [Bool.and_eq_true, beq_iff_eq] at h
      exact ⟨Or.inr ⟨by omega, rfl⟩, Or.inl (by omega)⟩
    refine Gives.bind (unl _ s hs fun s hs => info _ _ _ (fun l h => ?_) hs) fun s hs => ?_
    · simp only [Bool.and_eq_true, beq_iff_eq, anyDrc] at h
      exact ⟨Or.inr ⟨by omega, rfl⟩, Or.inr (by omega)⟩
    refine unl _ s hs fun s hs => gives_each (fun t htm s hs => Gives.ite (fun h => ?_) fun _ => Gives.ok hs) hs
    simp only [Bool.and_eq_true, beq_iff_eq] at h
    exact limit _ _ _ s hs (ht hd t htm (by omega) (by simpa using h.2)) (fun h => absurd h hd)
  · dsimp only
    by_cases hc : s.cnt = 0
    · rw [if_pos hc]
      refine ⟨by omega, Or.inr ⟨rfl, fun pk hpk => (hs.2 hc pk hpk).1⟩, fun hd j hj pk hpk => ?_⟩
      have : j = 0 := by omega
      subst this
      exact (hs.2 hc pk hpk).2 hd
    · rw [if_neg hc]
      exact ⟨by omega, Or.inl fun j hj pk hpk => (hs.1 j hj pk hpk).1, fun hd j hj pk hpk => (hs.1 j hj pk hpk).2 hd⟩

/-- Every peak level is a limiter target, or a peak of loudness information for the downmix or the base layout, for
the set or all sets and for the same group or preset; or there is one only, which is 0 or such a peak for any group
or preset. Only what is for the downmix itself is marked as explicit. -/
theorem peak_partial {instrs : List Instr} {infos : List Info} {o : Instr} {dmx : Int} {slots : List Peak} {r : Nat × List Peak}
    (h : peakLevels instrs infos o dmx slots = .ok r) : 1 ≤ r.1 ∧
      ((∀ j < r.1, ∀ pk, r.2[j]? = some pk → Limited instrs o dmx pk ∨ ∃ l ∈ infos, SamePart o l ∧ PeakOf o dmx l pk) ∨
       (r.1 = 1 ∧ ∀ pk, r.2[0]? = some pk → (pk.level = 0 ∧ pk.explicit = 0) ∨ ∃ l ∈ infos, PeakOf o dmx l pk)) := by
  have := peakLevels_source (fun v e => Limited instrs o dmx ⟨0, v, e⟩ ∨ ∃ l ∈ infos, SamePart o l ∧ PeakOf o dmx l ⟨0, v, e⟩)
    (fun v e => (v = 0 ∧ e = 0) ∨ ∃ l ∈ infos, PeakOf o dmx l ⟨0, v, e⟩) (instrs := instrs) (infos := infos) (o := o)
    (dmx := dmx) (slots := slots) (Or.inl ⟨rfl, rfl⟩)
    (fun l hl e h1 h2 => ⟨fun h => ⟨Or.inr ⟨l, hl, h1, h2, Or.inl ⟨h, rfl⟩⟩, fun hm => Or.inr ⟨l, hl, hm, h1, h2, Or.inl ⟨h, rfl⟩⟩⟩,
      fun h => ⟨Or.inr ⟨l, hl, h1, h2, Or.inr ⟨h, rfl⟩⟩, fun hm => Or.inr ⟨l, hl, hm, h1, h2, Or.inr ⟨h, rfl⟩⟩⟩⟩)
    (fun h => Or.inl (Or.inl ⟨h, rfl, rfl⟩)) (fun hd t ht h1 h2 => Or.inl (Or.inr ⟨hd, t, ht, h1, h2, rfl, rfl⟩)) r h
  exact ⟨this.1, this.2.1⟩

/-- A peak of loudness information for the downmix, the set and the group. -/
example : ∃ r, peakLevels [aSet 1 1 0] [{ anInfo 0 1 (-24) with samplePresent := true, sample := 3 }] (aSet 1 1 0) 0 noSlots = .ok r ∧
    r.1 = 1 ∧ r.2[0]? = some ⟨0, 3, 1⟩ := ⟨_, rfl, by decide +kernel, by decide +kernel⟩

/-! ## Candidates -/

theorem fewBands_gives (sets : List GainSet) (n : Nat) (gs : List Int) :
    Gives (fewBands sets n gs) (fun b => b = true → FewBands sets n gs) := by
  unfold fewBands
  refine (gives_eachAll (I := fun pre b => b = true → ∀ j ∈ pre, ∃ g : Nat, gs[j]? = some (g : Int) ∧ ∃ s, sets[g]? = some s ∧ s.bands ≤ 4)
    (fun pre j post he b hb => ?_) (by simp)).mono fun b hb h j hj => hb h j (List.mem_range.mpr hj)
  refine Gives.bind (gives_at _ _) fun g hg => ?_
  refine Gives.ite (fun _ => Gives.ub) fun hpos => ?_
  refine Gives.bind (gives_at _ _) fun s hs => Gives.ok fun h => ?_
  simp only [Bool.and_eq_true, decide_eq_true_eq] at h
  intro k hk
  rcases List.mem_append.mp hk with hk | hk
  · exact hb h.1 k hk
  · rw [List.mem_singleton.mp hk]
    exact ⟨g.toNat, by rw [hg]; congr 1; omega, s, hs, h.2⟩

/-- The set an instruction depends on has a positive identifier and is not changed. -/
theorem find_kept {c : Config} {is : List Instr} (hk : Kept c is) {id n : Nat} (hpos : 0 < id) {t : Instr}
    (h : (is.take n).find? (fun t => (id : Int) == t.setId) = some t) : t ∈ c.instrs.take n ∧ t.setId = id := by
  have hid : (id : Int) = t.setId := by simpa using List.find?_some h
  obtain ⟨i, hi⟩ := List.mem_iff_getElem?.mp (List.mem_of_find?_eq_some h)
  rw [List.getElem?_take] at hi
  split at hi
  · rename_i hlt
    obtain ⟨u, hu, h1⟩ := hk.2 i t hi
    rcases h1 with rfl | ⟨_, rfl⟩
    · exact ⟨List.mem_of_getElem? (i := i) (by rw [List.getElem?_take, if_pos hlt]; exact hu), hid.symm⟩
    · dsimp only at hid; omega
  · cases hi

theorem permitted_gives {c : Config} {is : List Instr} (hk : Kept c is) (cf : Option Coeffs) (o : Instr) :
    Gives (permitted c cf is o) (fun b => b = true → (∀ x, cf = some x → FewBands x.sets o.groups o.groupSet) ∧
      (0 < o.dependsOn → ∃ t ∈ c.instrs.take c.instrCount, t.setId = o.dependsOn ∧
        ∀ x, cf = some x → FewBands x.sets o.groups t.groupSet)) := by
  unfold permitted
  refine Gives.bind (Q := fun a => a = true → 0 < o.dependsOn → ∃ t ∈ c.instrs.take c.instrCount, t.setId = o.dependsOn ∧
        ∀ x, cf = some x → FewBands x.sets o.groups t.groupSet) ?_ fun a ha => ?_
  · refine Gives.ite (fun hpos => ?_) fun h => Gives.ok fun _ h' => absurd h' h
    cases hf : (is.take c.instrCount).find? (fun t => (o.dependsOn : Int) == t.setId) with
    | none => exact Gives.err
    | some t =>
      obtain ⟨h1, h2⟩ := find_kept hk hpos hf
      dsimp only
      cases cf with
      | none => exact Gives.ok fun _ _ => ⟨t, h1, h2, fun x hx => by cases hx⟩
      | some y => exact (fewBands_gives _ _ _).mono fun b hb h _ => ⟨t, h1, h2, fun x hx => by cases hx; exact hb h⟩
  · refine Gives.bind (Q := fun b => b = true → ∀ x, cf = some x → FewBands x.sets o.groups o.groupSet) ?_ fun b hb => Gives.ok fun h => ?_
    · cases cf with
      | none => exact Gives.ok fun _ x hx => by cases hx
      | some y => exact (fewBands_gives _ _ _).mono fun b hb h x hx => by cases hx; exact hb h
    · simp only [Bool.and_eq_true] at h
      exact ⟨hb h.2, ha h.1⟩

theorem eligible_iff {o : Instr} : eligible o = true ↔ (o.effect ≠ 0 ∨ o.setId < 0) ∧
    ((o.depends = 0 ∧ o.noIndep = 0) ∨ o.depends = 1) ∧ o.effect ≠ 0x200 ∧ o.effect ≠ 0x400 ∧ o.effect ≠ 0x800 := by
  unfold eligible
  simp [and_assoc]

theorem meets_iff {p : Request} {o : Instr} : meetsTarget p o = true ↔ InRange p o := by
  unfold meetsTarget InRange
  cases p.normOn <;> simp [and_comm]

theorem forDmx_gives {p : Request} {o : Instr} (h : forDmx o p.dmx = true) : ForDownmix p o := by
  unfold forDmx at h
  obtain ⟨d, hd, h⟩ := List.any_eq_true.mp h
  refine ⟨d, hd, ?_⟩
  simp only [Bool.or_eq_true, Bool.and_eq_true, beq_iff_eq, decide_eq_true_eq, anyDmx] at h
  rcases h with (h | h) | h
  · exact Or.inr (Or.inr h)
  · exact Or.inl h
  · exact Or.inr (Or.inl h)

/-- What holds of a candidate and its instruction with DRC on. -/
def Suits (p : Request) (c : Config) (infos : List Info) (x : Cand) : Prop :=
  ∃ u, c.instrs[x.instr]? = some u ∧ ForDownmix p u ∧ Fits p c u ∧ (x.target = true ↔ InRange p u) ∧
    (p.dmx = 0 → u.targetPresent ≠ 0 → InRange p u ∨ HasPeak p infos u)

theorem preStep_suits {p : Request} (hon : p.drcOn = true) {c : Config} {infos : List Info} {i : Nat} {s : Pre} (hk : Kept c s.instrs)
    (hs : ∀ x ∈ s.cands, Suits p c infos x) :
    Gives (preStep p c infos i s) (fun t => ∀ x ∈ t.cands, Suits p c infos x) := by
  unfold preStep
  refine Gives.bind (gives_at _ _) fun o ho => ?_
  refine Gives.ite (fun _ => Gives.ok hs) fun hdmx => ?_
  rw [hon, if_neg (by simp)]
  refine Gives.ite (fun helig => ?_) fun _ => Gives.ok hs
  refine Gives.bind (permitted_gives hk _ o) fun b hb => ?_
  refine Gives.ite (fun hbt => ?_) fun _ => Gives.ok hs
  refine Gives.bind (control_gives p infos o) fun r hr => ?_
  obtain ⟨u, hu, hou⟩ := hk.2 i o ho
  have hru : r.1 = u ∨ (u.setId < 0 ∧ r.1 = { u with setId := 0 }) := by
    rcases hr.1 with h1 | ⟨h1, h2⟩ <;> rcases hou with h3 | ⟨h3, h4⟩
    · exact Or.inl (h1.trans h3)
    · exact Or.inr ⟨h3, h1.trans h4⟩
    · subst h3; exact Or.inr ⟨h1, h2⟩
    · rw [h4] at h1; dsimp only at h1; omega
  have hdm : ForDownmix p u := by
    have := forDmx_gives (p := p) (o := o) (by simpa using hdmx)
    rcases hou with rfl | ⟨h3, rfl⟩
    · exact this
    · obtain ⟨d, hd, h⟩ := this
      exact ⟨d, hd, by rcases h with h | h | h; exacts [Or.inl h, Or.inr (Or.inl h), absurd h.2 (by simp)]⟩
  have hfit : Fits p c u := by
    have he := eligible_iff.mp helig
    have hp := hb hbt
    rcases hou with rfl | ⟨h3, rfl⟩
    · exact ⟨he.1, he.2.2, he.2.1.symm, hp.1, hp.2⟩
    · exact ⟨Or.inr h3, he.2.2, he.2.1.symm, hp.1, hp.2⟩
  have hrange : InRange p r.1 ↔ InRange p u := by rcases hru with h | ⟨_, h⟩ <;> rw [h]; exact Iff.rfl
  refine Gives.bind (peakLevels_source (fun _ e => e = 1 → HasPeak p infos u) (fun _ e => e = 1 → HasPeak p infos u) (by simp)
    (fun l hl e h1 h2 => ?_) (fun h _ => ?_) (fun hd t ht h1 h2 h3 => absurd h3 (by simp))) fun q hq => ?_
  · have hset : max r.1.setId 0 = max u.setId 0 := by
      rcases hru with h | ⟨h3, h⟩ <;> rw [h]; dsimp only; omega
    rw [hset] at h2
    refine ⟨fun h => ⟨fun he => ?_, fun _ he => ?_⟩, fun h => ⟨fun he => ?_, fun _ he => ?_⟩⟩ <;>
      exact Or.inr ⟨l, hl, by omega, h2, by simp [h]⟩
  · rcases hru with h' | ⟨_, h'⟩ <;> rw [h'] at h <;> exact Or.inl h
  · refine Gives.bind (gives_each (I := fun t : List Cand × Rat => ∀ x ∈ t.1, Suits p c infos x) (fun g _ t htt => ?_) hs) fun t htt => Gives.ok htt
    unfold onCand
    refine Gives.ite (fun _ => Gives.err) fun _ => ?_
    dsimp only
    refine Gives.bind (gives_at _ _) fun pk hpk => ?_
    refine Gives.ite (fun hc => Gives.ok (snoc_all htt ⟨u, hu, hdm, hfit, meets_iff.trans hrange, fun hd htp => ?_⟩)) fun _ => Gives.ok htt
    rcases hc with hc | hc | hc
    · exact Or.inl (hrange.mp (meets_iff.mp hc))
    · right
      have hplace : peakPlace q.1 q.2 = 0 := by
        by_cases hne : 0 < q.2.length
        · exact place_zero hq.1 fun j hj pk hpk => hq.2.2 hd j hj pk hpk
        · have : q.2 = [] := List.length_eq_zero_iff.mp (by omega)
          rw [this] at hpk; simp at hpk
      rw [hplace] at hpk
      rcases hq.2.1 with h | ⟨_, h⟩
      · exact h 0 (by omega) pk hpk hc
      · exact h pk hpk hc
    · refine absurd ?_ htp
      rcases hru with h | ⟨_, h⟩ <;> rw [h] at hc <;> exact hc

theorem preSelect_suits {p : Request} (hon : p.drcOn = true) (c : Config) (infos : List Info) (slots : List Peak) :
    Gives (preSelect p c infos slots) (fun s => ∀ x ∈ s.cands, Suits p c infos x) := by
  unfold preSelect
  refine Gives.bind (gives_each (I := fun s : Pre => Kept c s.instrs ∧ ∀ x ∈ s.cands, Suits p c infos x)
    (fun i _ s hs r hr => ⟨preStep_kept p c infos i hs.1 r hr, preStep_suits hon hs.1 hs.2 r hr⟩) ⟨Kept.refl c, by simp⟩) fun s hs => ?_
  refine Gives.ite (fun _ => ?_) fun _ => Gives.ok hs.2
  refine Gives.bind (Q := fun _ => True) (fun _ _ => trivial) fun n _ => ?_
  refine Gives.bind (Q := fun _ => True) (fun _ _ => trivial) fun r _ => ?_
  refine Gives.bind (Q := fun ys => ∀ y ∈ ys, Suits p c infos y) ?_ fun ys hys => Gives.ok hys
  refine Gives.ite (fun _ => copied fun k _ xs hxs => ?_) fun _ => copied fun k _ xs hxs => ?_
  · unfold noGroupStep
    refine Gives.bind (gives_at _ _) fun x hx => ?_
    refine Gives.bind (gives_at _ _) fun o _ => ?_
    exact Gives.ite (fun _ => gives_push (snoc_all hxs (hs.2 x (List.mem_of_getElem? hx)))) fun _ => Gives.ok hxs
  · unfold groupStep
    refine Gives.bind (gives_at _ _) fun x hx => ?_
    refine Gives.bind (gives_at _ _) fun o _ => ?_
    have hx := hs.2 x (List.mem_of_getElem? hx)
    refine Gives.ite (fun _ => gives_push (snoc_all hxs hx)) fun _ => ?_
    refine Gives.ite (fun _ => ?_) fun _ => Gives.ok hxs
    exact gives_each (I := fun xs => ∀ x ∈ xs, Suits p c infos x)
      (fun g _ xs hxs => Gives.ite (fun _ => gives_push (snoc_all hxs hx)) fun _ => Gives.ok hxs) hxs

/-- A set that depends on another depends on one that is there and depends on none. -/
def OneLevel (c : Config) (instrs : List Instr) (o : Instr) : Prop :=
  o.depends = 1 → 0 < c.instrCount → ∃ t, (instrs.take c.instrCount).find? (fun t => t.setId == (o.dependsOn : Int)) = some t ∧ t.depends ≠ 1

theorem fewest_level (c : Config) (instrs : List Instr) (xs : List (Cand × Instr)) :
    Gives (each (fewestStep c instrs) xs ([], 100)) (fun s => ∀ x ∈ s.1, OneLevel c instrs x.2) := by
  refine gives_each (I := fun s : List (Cand × Instr) × Nat => ∀ x ∈ s.1, OneLevel c instrs x.2) (fun x _ s hs => ?_) (by simp)
  unfold fewestStep
  refine Gives.bind (Q := fun _ => OneLevel c instrs x.2) ?_ fun n hx => Gives.ok ?_
  · unfold effectCount OneLevel
    refine Gives.ite (fun h => Gives.ok fun h' => absurd h' h) fun h => ?_
    refine Gives.ite (fun h => ?_) fun h => Gives.ok fun _ h' => absurd h' h
    refine Gives.bind (Q := fun t => (instrs.take c.instrCount).find? (fun t => t.setId == (x.2.dependsOn : Int)) = some t ∧ t.depends ≠ 1) ?_
      fun t ht => Gives.ok fun _ _ => ⟨t, ht⟩
    unfold dependent
    cases hf : (instrs.take c.instrCount).find? (fun t => t.setId == (x.2.dependsOn : Int)) with
    | none => exact Gives.err
    | some t => exact Gives.ite (fun _ => Gives.err) fun h => Gives.ok ⟨rfl, h⟩
  · split
    · dsimp only
      split
      · intro y hy; rw [List.mem_singleton.mp hy]; exact hx
      · exact snoc_all hs hx
    · exact hs

/-- A candidate within the peak limit depends on one set at most. -/
theorem finalSelect_level {p : Request} {c : Config} {instrs : List Instr} {cands : List Cand} (hne : cands ≠ [])
    (hg : ∀ g ∈ p.presets, 0 ≤ g.2) (hp : ∀ x ∈ cands, -1000 ≤ x.peak ∧ x.peak ≤ 10000) (hu : ∀ o ∈ instrs, o.upper ≤ 100) :
    Gives (finalSelect p c instrs cands) (fun y => y.peak ≤ 0 → ∃ o, instrs[y.instr]? = some o ∧ OneLevel c instrs o) := by
  unfold finalSelect
  refine Gives.bind (looked_gives instrs cands) fun all ⟨h1, h2⟩ => ?_
  have hall : all ≠ [] := by
    intro e
    rw [e] at h1
    exact hne h1.symm
  have hmem : ∀ x ∈ all, x.1 ∈ cands := fun x hx => by rw [← h1]; exact List.mem_map_of_mem hx
  have hfold := foldl_least (v := fun y : Cand × Instr => y.1.peak) (start := 10000) (xs := all) fun x hx => (hp x.1 (hmem x hx)).2
  rcases hfold with ⟨h, _⟩ | ⟨hl, z, hz, hzv⟩
  · exact absurd h hall
  dsimp only
  refine Gives.bind (Q := fun xs => xs ≠ [] ∧ ∀ x ∈ xs, x ∈ all ∧ (x.1.peak ≤ 0 → OneLevel c instrs x.2)) ?_ fun xs hxs => ?_
  · refine Gives.ite (fun hlev => ?_) fun hlev => Gives.ok ?_
    · have hz' := hz
      rw [hl] at hz'
      have hzm := mem_least.mp hz'
      have hf : all.filter (·.1.peak ≤ 0) ≠ [] := nil_iff.mpr ⟨z, List.mem_filter.mpr ⟨hzm.1, by rw [← hzv] at hlev; simpa using hlev⟩⟩
      have hgr := byGroup_mem hg (P := fun x => x ∈ all ∧ x.1.peak ≤ 0) (xs := all.filter (·.1.peak ≤ 0)) (fun x hx => by
        have := List.mem_filter.mp hx
        exact ⟨this.1, by simpa using this.2⟩) hf
      refine Gives.bind (byDmx_mem hgr.2 hgr.1) fun xs hxs => ?_
      refine Gives.bind (Q := fun s => s.1 ≠ [] ∧ ∀ x ∈ s.1, (x ∈ all ∧ x.1.peak ≤ 0) ∧ OneLevel c instrs x.2)
        (fun s h => ⟨(fewest_mem hxs.2 hxs.1 s h).1, fun x hx => ⟨(fewest_mem hxs.2 hxs.1 s h).2 x hx, fewest_level c instrs xs s h x hx⟩⟩) fun s hs => ?_
      refine Gives.bind (byTarget_mem hs.2 hs.1 fun x hx => hu x.2 (List.mem_of_getElem? (h2 x (hs.2 x hx).1.1))) fun ys hys => Gives.ok ?_
      rw [highest_eq (fun x hx => ⟨(hys.2 x hx).1.2, (hp x.1 (hmem x (hys.2 x hx).1.1)).1⟩) hys.1]
      exact ⟨least_ne_nil hys.1, fun x hx => ⟨(hys.2 x (mem_least.mp hx).1).1.1, fun _ => (hys.2 x (mem_least.mp hx).1).2⟩⟩
    · rw [hl]
      refine ⟨least_ne_nil hall, fun x hx => ⟨(mem_least.mp hx).1, fun h => absurd ?_ hlev⟩⟩
      rw [hl] at hz
      rw [← hzv]
      exact le_trans ((mem_least.mp hz).2 x (mem_least.mp hx).1) h
  · intro y hy hy0
    obtain ⟨x, hx, rfl⟩ := last_mem hxs.1 y hy
    exact ⟨x.2, h2 x (hxs.2 x hx).1, (hxs.2 x hx).2 hy0⟩

theorem selectSet_level {p : Request} (hon : p.drcOn = true) {c : Config} {infos : List Info} (hm : Moderate p c infos)
    (hg : ∀ g ∈ p.presets, 0 ≤ g.2) (slots : List Peak) :
    Gives (selectSet p c infos slots) (fun r => r.2.peak ≤ 0 → ∃ o, r.1.instrs[r.2.instr]? = some o ∧ OneLevel c r.1.instrs o) := by
  unfold selectSet
  refine Gives.bind (preSelect_gives hm slots) fun s hs => ?_
  cases hc : s.cands with
  | nil => exact Gives.err
  | cons x xs =>
    dsimp only
    refine Gives.ite (fun _ => Gives.err) fun _ => ?_
    rw [if_pos hon, ← hc]
    refine Gives.bind (matchEffects_mem c s.instrs p (by simp [hc])) fun ys ⟨hne, hys⟩ => ?_
    refine Gives.ite (fun _ => Gives.err) fun _ => ?_
    exact Gives.bind (finalSelect_level hne hg (fun y hy => ⟨(hs.cands y (hys y hy)).low, (hs.cands y (hys y hy)).high⟩)
      (hs.kept.all (P := fun t => t.upper ≤ 100) hm.uppers fun u hu => hu)) fun y hy => Gives.ok hy

/-! ## The selected set -/

theorem noteDmx_coeffs (p : Request) (c : Config) : Gives (noteDmx p c) (fun c' => c'.coeffs = c.coeffs ∧ c'.coeffCount = c.coeffCount) := by
  unfold noteDmx
  refine Gives.ite (fun _ => Gives.ub) fun _ => ?_
  exact Gives.bind (gives_at _ _) fun o _ => Gives.ok ⟨rfl, rfl⟩

theorem Fits.noted {p : Request} {c c' : Config} (hc : noteDmx p c = .ok c') {i : Nat} {u' : Instr} (hu' : c'.instrs[i]? = some u')
    (h : Fits p c' u') : ∃ u, c.instrs[i]? = some u ∧ u.setId = u'.setId ∧ (i + 1 ≠ c.plus → u = u') ∧ u.targetPresent = u'.targetPresent ∧
      (InRange p u' ↔ InRange p u) ∧ (∀ infos, HasPeak p infos u' ↔ HasPeak p infos u) ∧ Fits p c u := by
  have hn := noteDmx_gives p c c' hc
  have hco := noteDmx_coeffs p c c' hc
  obtain ⟨u, hu, hrel⟩ := hn.2.2.2.2 i u' hu'
  have other : ∀ (P : Int → List Int → Prop) (n : Nat), (∃ t ∈ c'.instrs.take n, P t.setId t.groupSet) → ∃ t ∈ c.instrs.take n, P t.setId t.groupSet := by
    rintro P n ⟨t, ht, hP⟩
    obtain ⟨j, hj⟩ := List.mem_iff_getElem?.mp ht
    rw [List.getElem?_take] at hj
    split at hj
    · rename_i hlt
      obtain ⟨v, hv, hr⟩ := hn.2.2.2.2 j t hj
      refine ⟨v, List.mem_of_getElem? (i := j) (by rw [List.getElem?_take, if_pos hlt]; exact hv), ?_⟩
      rcases hr with ⟨_, rfl⟩ | ⟨_, ids, rfl⟩ <;> exact hP
    · cases hj
  have hfit : ∀ v : Instr, Fits p c' v → Fits p c v := by
    intro v hv
    refine ⟨hv.effect, hv.special, hv.alone, fun cf h => hv.bands cf (by rw [hco.1, hco.2]; exact h), fun h => ?_⟩
    have := hv.other h
    rw [hco.1, hco.2, hn.2.1] at this
    obtain ⟨t, ht, h1, h2⟩ := other (fun id gs => id = (v.dependsOn : Int) ∧ ∀ cf, lastAt (c.coeffs.take c.coeffCount) 1 = some cf →
      FewBands cf.sets v.groups gs) c.instrCount this
    exact ⟨t, ht, h1, h2⟩
  rcases hrel with ⟨hne, rfl⟩ | ⟨he, ids, rfl⟩
  · exact ⟨u', hu, rfl, fun _ => rfl, rfl, Iff.rfl, fun _ => Iff.rfl, hfit _ h⟩
  · refine ⟨u, hu, rfl, fun h => absurd he h, rfl, Iff.rfl, fun _ => Iff.rfl, ?_⟩
    have := hfit _ h
    exact ⟨this.effect, this.special, this.alone, this.bands, this.other⟩

/-- With DRC on the set that is selected is for the downmix, compresses, may be used, and neither it nor, in the groups
it has itself, the set it depends on has gains for more than four bands; for the base layout, if it has a range of
target loudness, the target is in it or there is an explicit peak level. The set is active unless it stands for no DRC.
If the output is within the peak limit the set it depends on is there and depends on no other. -/
theorem fits_partial {p : Request} {c : Config} {infos : List Info} {slots : List Peak} {out : Output} (hon : p.drcOn = true)
    (hm : Moderate p c infos) (hg : ∀ g ∈ p.presets, 0 ≤ g.2) (h : select p c infos slots = .ok out) :
    ∃ i u, c.instrs[i]? = some u ∧ (0 < u.setId → ∃ d, (u.setId, d) ∈ out.sets) ∧ (i + 1 ≠ c.plus → ForDownmix p u) ∧ Fits p c u ∧
      (p.dmx = 0 → u.targetPresent ≠ 0 → InRange p u ∨ HasPeak p infos u) ∧
      (out.peak ≤ 0 → u.depends = 1 → 0 < c.instrCount → 0 < u.dependsOn →
        ∃ t ∈ c.instrs.take c.instrCount, t.setId = u.dependsOn ∧ t.depends ≠ 1) := by
  obtain ⟨c', s, x, o, so, sel, dep, fade, duck, S⟩ := select_gives p c infos slots out h
  have hm' := hm.noted S.noted
  have hn := noteDmx_gives p c c' S.noted
  obtain ⟨hpre, _, hx⟩ := selectSet_gives hm' hg slots _ S.set
  obtain ⟨u', hu', hdm, hfit, _, htar⟩ := preSelect_suits hon c' infos slots _ (selectSet_pre p c' infos slots _ S.set) x hx
  obtain ⟨u, hu, hid, hsame, htp, hr, hpk, hfit'⟩ := hfit.noted S.noted hu'
  have hlev := selectSet_level hon hm' hg slots _ S.set
  refine ⟨x.instr, u, hu, fun hpos => ?_, fun hi => by rw [hsame hi]; exact hdm, hfit', fun hd ht => ?_, fun hp hd hcnt hpos => ?_⟩
  · obtain ⟨w, hw, hrel'⟩ := hpre.kept.2 _ o S.instr
    rw [hu'] at hw
    cases hw
    have hoid : o.setId = u.setId := by
      rcases hrel' with rfl | ⟨hneg, _⟩
      · exact hid.symm
      · omega
    obtain ⟨_, t, ht, hid, _⟩ := firstWith_gives c' s.instrs o.setId sel S.first
    rw [S.selected] at ht
    cases ht
    refine ⟨if so.applyDmx = 1 then so.dmxIds.headD 0 else 0, ?_⟩
    rw [S.sets]
    refine List.mem_filterMap.mpr ⟨(false, some sel), by simp, ?_⟩
    simp [entry, S.selected, hid, hoid, hpos]
  · rw [← hr, ← hpk]
    exact htar hd (by rw [← htp]; exact ht)
  · rw [S.peak] at hp
    obtain ⟨o', ho', hone⟩ := hlev hp
    dsimp only at ho' hone
    rw [S.instr] at ho'
    cases ho'
    obtain ⟨v, hv, _, _, _, _, _, _, _, hvd, hvo, _⟩ := S.from S.instr
    rw [hu] at hv
    cases hv
    obtain ⟨t, ht, htd⟩ := hone (by omega) (by rw [hn.2.1]; exact hcnt)
    have hti : t.setId = (o.dependsOn : Int) := by simpa using List.find?_some ht
    obtain ⟨j, hj⟩ := List.mem_iff_getElem?.mp (List.mem_of_find?_eq_some ht)
    rw [List.getElem?_take, hn.2.1] at hj
    split at hj
    · rename_i hlt
      obtain ⟨w, hw, _, _, _, _, _, _, _, hwd, _, hwid⟩ := S.from hj
      refine ⟨w, List.mem_of_getElem? (i := j) (by rw [List.getElem?_take, if_pos hlt]; exact hw), by omega, by omega⟩
    · cases hj

/-- With DRC on the set that the selected set depends on is active and, if the output is within the peak limit, depends on
no other. -/
theorem chain_partial {p : Request} {c : Config} {infos : List Info} {slots : List Peak} {out : Output} (hon : p.drcOn = true)
    (hm : Moderate p c infos) (hg : ∀ g ∈ p.presets, 0 ≤ g.2) (hid : (c.instrs.map (·.setId)).Nodup) (hc : 0 < c.instrCount)
    (h : select p c infos slots = .ok out) :
    ∃ u ∈ c.instrs, (0 < u.setId → ∃ d, (u.setId, d) ∈ out.sets) ∧ Fits p c u ∧
      (0 < u.setId → u.depends = 1 → 0 < u.dependsOn → (∃ d, ((u.dependsOn : Int), d) ∈ out.sets) ∧
        ∃ t ∈ c.instrs, t.setId = u.dependsOn ∧ (out.peak ≤ 0 → t.depends ≠ 1)) := by
  obtain ⟨c', s, x, o, so, sel, dep, fade, duck, S⟩ := select_gives p c infos slots out h
  have hm' := hm.noted S.noted
  have hn := noteDmx_gives p c c' S.noted
  obtain ⟨hpre, _, hx⟩ := selectSet_gives hm' hg slots _ S.set
  obtain ⟨u', hu', hdm, hfit, _, htar⟩ := preSelect_suits hon c' infos slots _ (selectSet_pre p c' infos slots _ S.set) x hx
  obtain ⟨u, hu, huid, hsame, htp, hr, hpk, hfit'⟩ := hfit.noted S.noted hu'
  have hlev := selectSet_level hon hm' hg slots _ S.set
  obtain ⟨v, hv, _, _, _, _, _, _, _, hvd, hvo, hvid⟩ := S.from S.instr
  rw [hu] at hv
  cases hv
  obtain ⟨_, t, ht, htid, _⟩ := firstWith_gives c' s.instrs o.setId sel S.first
  rw [S.selected] at ht
  cases ht
  have act : ∀ {i : Nat} {t : Instr}, ((false, some i) : Bool × Option Nat) ∈ [(true, duck), (false, if duck.isSome then none else fade), (false, dep), (false, some sel)] →
      s.instrs[i]? = some t → 0 < t.setId → ∃ d, (t.setId, d) ∈ out.sets := by
    intro i t hi ht hpos
    refine ⟨if t.applyDmx = 1 then t.dmxIds.headD 0 else 0, ?_⟩
    rw [S.sets]
    refine List.mem_filterMap.mpr ⟨(false, some i), hi, ?_⟩
    simp [entry, ht, hpos]
  refine ⟨u, List.mem_of_getElem? hu, fun hpos => ?_, hfit', fun hpos hd hdo => ?_⟩
  · have := act (i := sel) (by simp) S.selected (by omega)
    rwa [show so.setId = u.setId by omega] at this
  · -- the selected set is the candidate's, identifiers being distinct
    have hsel : sel = x.instr := by
      obtain ⟨w, hw, _, _, _, _, _, _, _, _, _, hwid⟩ := S.from S.selected
      have e : u.setId = w.setId := by omega
      by_contra hne
      have h1 := (List.getElem?_eq_some_iff.mp hu)
      have h2 := (List.getElem?_eq_some_iff.mp hw)
      obtain ⟨l1, e1⟩ := h1
      obtain ⟨l2, e2⟩ := h2
      have := (List.Nodup.getElem_inj_iff hid (i := sel) (j := x.instr) (hi := by simpa using l2) (hj := by simpa using l1)).mp
        (by rw [List.getElem_map, List.getElem_map, e1, e2, e])
      exact hne this
    have hso : so = o := by
      have := S.selected
      rw [hsel, S.instr] at this
      cases this
      rfl
    subst hso
    rcases getDependent_gives c' s.instrs so dep S.dependent with ⟨_, h2⟩ | ⟨j, h2, _, h3⟩
    · exact absurd (by omega) h2
    · obtain ⟨hj, t, ht, htid', _⟩ := firstWith_gives c' s.instrs so.dependsOn j h3
      obtain ⟨w, hw, _, _, _, _, _, _, _, hwd, _, hwid⟩ := S.from ht
      refine ⟨?_, w, List.mem_of_getElem? hw, by omega, fun hp => ?_⟩
      · have := act (i := j) (by simp [h2]) ht (by omega)
        rwa [htid', hvo] at this
      · rw [S.peak] at hp
        obtain ⟨o', ho', hone⟩ := hlev hp
        dsimp only at ho' hone
        rw [S.instr] at ho'
        cases ho'
        obtain ⟨t', ht', htd⟩ := hone (by omega) (by rw [hn.2.1]; exact hc)
        have hti : t'.setId = (so.dependsOn : Int) := by simpa using List.find?_some ht'
        obtain ⟨k, hk⟩ := List.mem_iff_getElem?.mp (List.mem_of_find?_eq_some ht')
        rw [List.getElem?_take] at hk
        split at hk
        · obtain ⟨w', hw', _, _, _, _, _, _, _, hwd', _, hwid'⟩ := S.from hk
          obtain ⟨l1, e1⟩ := List.getElem?_eq_some_iff.mp hw
          obtain ⟨l2, e2⟩ := List.getElem?_eq_some_iff.mp hw'
          have := (List.Nodup.getElem_inj_iff hid (i := j) (j := k) (hi := by simpa using l1) (hj := by simpa using l2)).mp
            (by rw [List.getElem_map, List.getElem_map, e1, e2]; omega)
          subst this
          rw [hw] at hw'
          cases hw'
          omega
        · cases hk

/-- A set with the one it depends on. -/
example : select aRequest (aConfig [{ aSet 1 1 0 with depends := 1, dependsOn := 2 }, { aSet 2 1 0 with noIndep := 1 }]) [] noSlots
    = .ok ⟨[(2, 0), (1, 0)], 0, 0, 1000, 0⟩ := by decide +kernel

/-- Two of the sets `twoSets` fit; the one with the effect asked for is active. -/
example := fits_partial (p := normOn) rfl some_moderate (by decide) some_selected

/-- Gains for one and for six bands. -/
def bandCoeffs : Coeffs := ⟨1, 2, [⟨0, 0, 0, 0, 0, 0, 1, 0, []⟩, ⟨0, 0, 0, 0, 0, 0, 6, 0, []⟩]⟩

/-- A set for one channel group that depends on a set for two, the second with six bands. -/
def deepConfig : Config :=
  { aConfig [{ aSet 1 1 0 with depends := 1, dependsOn := 2, groups := 1, groupSet := [0] },
      { aSet 2 1 0 with noIndep := 1, groups := 2, groupSet := [0, 1] }] with coeffCount := 1, coeffs := [bandCoeffs] }

/-- An active set may have gains for more than four bands. -/
theorem bands_refuted : ¬ ∀ (p : Request) (c : Config) (infos : List Info) (slots : List Peak) (out : Output) (cf : Coeffs), p.drcOn = true →
    lastAt (c.coeffs.take c.coeffCount) 1 = some cf → (c.instrs.map (·.setId)).Nodup → select p c infos slots = .ok out →
    ∀ e ∈ out.sets, ∀ u ∈ c.instrs, u.setId = e.1 → FewBands cf.sets u.groups u.groupSet := by
  intro hall
  have h := hall aRequest deepConfig [] noSlots ⟨[(2, 0), (1, 0)], 0, 0, 1000, 0⟩ bandCoeffs rfl (by decide) (by decide) (by decide +kernel)
    (2, 0) (by simp) { aSet 2 1 0 with noIndep := 1, groups := 2, groupSet := [0, 1] } (by decide) rfl
  obtain ⟨g, hg, gs, hgs, hb⟩ := h 1 (by decide)
  have : (1 : Int) = (g : Int) := by simpa using hg
  have : g = 1 := by omega
  subst this
  have : (⟨0, 0, 0, 0, 0, 0, 6, 0, []⟩ : GainSet) = gs := by simpa [bandCoeffs] using hgs
  rw [← this] at hb
  exact absurd hb (by decide)

/-- A set that depends on a set that depends on a third. -/
def chain : Config :=
  aConfig [{ aSet 1 0x100 0 with depends := 1, dependsOn := 2 }, { aSet 2 1 0 with depends := 1, dependsOn := 3 }, { aSet 3 1 0 with noIndep := 1 }]

/-- A set may be active although the one it depends on is not: the output exceeds the peak limit and no effect is
asked for. -/
theorem chain_refuted : ¬ ∀ (p : Request) (c : Config) (infos : List Info) (slots : List Peak) (out : Output), p.drcOn = true →
    (c.instrs.map (·.setId)).Nodup → select p c infos slots = .ok out →
    ∀ e ∈ out.sets, ∀ u ∈ c.instrs, u.setId = e.1 → u.depends = 1 → ∃ d, ((u.dependsOn : Int), d) ∈ out.sets := by
  intro hall
  obtain ⟨d, hd⟩ := hall { aRequest with effects := [0], desired := 1 } chain
    [{ anInfo 0 63 (-24) with samplePresent := true, sample := 3 }] noSlots
    ⟨[(2, 0), (1, 0)], 0, 3, 1000, 0⟩ rfl (by decide) (by decide +kernel) (2, 0) (by simp)
    { aSet 2 1 0 with depends := 1, dependsOn := 3 } (by decide) rfl rfl
  simp at hd

/-- Within the peak limit such a configuration is rejected. -/
example : select { aRequest with effects := [0], desired := 1 } chain [] noSlots = .err errUnexpected := by decide +kernel

end Verif.DrcSel
