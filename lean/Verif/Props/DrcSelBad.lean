import Verif.Props.DrcSel

/-! # Where the selection of DRC sets goes wrong

Configurations, loudness information and requests that the reader of the configuration and the decoder can
give, for which the selection does not do what it is to do, and cases that the theorems about it apply to. -/

namespace Verif.DrcSel

open DrcConfig Res
open DrcLoud hiding errUnexpected

/-- A set with an identifier, an effect and a downmix. -/
def aSet (id : Int) (effect : Nat) (dmx : Int) : Instr :=
  { setId := id, loc := 1, applyDmx := 0, dmxCount := 1, dmxIds := [dmx, 0, 0, 0, 0, 0, 0, 0], depends := 0, dependsOn := 0,
    noIndep := 0, effect := effect, gainIdx := [], mods := [], duck := [], peakPresent := 0, peak := 0, targetPresent := 0,
    upper := 0, lowerPresent := 0, lower := 0, kind := 0, group := -1, preset := -1, groups := 0, groupSet := [], bandCount := [],
    interp := [], timeMin := [], align := [], groupDuck := [], chGroup := [], elements := 0 }

/-- A configuration with sets and the two that stand for no DRC. -/
def aConfig (os : List Instr) : Config :=
  { dwnCount := 0, coeffCount := 0, instrCount := os.length, plus := os.length + 2, channels := 2, coeffs := [],
    instrs := os ++ [aSet (-1) 0 0, aSet (-2) 0 (-1)] }

/-- Program loudness for a downmix and a set. -/
def anInfo (dmx set : Nat) (v : Rat) : Info :=
  { setId := set, dmxId := dmx, samplePresent := false, sample := 0, truePresent := false, truePeak := 0, trueSystem := 0,
    trueReliability := 0, count := 1, measures := [⟨1, v, 2, 3⟩], kind := 0, group := -1, preset := -1 }

/-- A request with DRC and without normalisation. -/
def aRequest : Request :=
  { drcOn := true, normOn := false, target := -24, dmx := 0, effects := [1, 6, 2, 3, 4, 5], desired := 1, groups := [],
    presets := [], prefer := -1 }

/-- Cleared arrays. -/
def noSlots : List Peak := List.replicate 16 ⟨0, 0, 0⟩

theorem measured_one {dmx set : Nat} {v w : Rat} {l : Info} (hl : l.measures.take l.count = [⟨1, v, 2, 3⟩]) (h : Measured l w) :
    w = v := by
  obtain ⟨pre, m, post, e, hv, _⟩ := h
  rw [hl] at e
  have hm : m ∈ [(⟨1, v, 2, 3⟩ : Measure)] := by rw [e]; simp
  rw [List.mem_singleton] at hm
  rw [← hv, hm]

/-! ## Group 0 with DRC off -/

/-- Loudness of two groups. -/
def twoGroups : List Info := [{ anInfo 0 0 (-20) with kind := 2, group := 0 }, { anInfo 0 0 (-10) with kind := 2, group := 1 }]

/-- A request for two groups with normalisation and without DRC. -/
def groupsOff : Request := { aRequest with drcOn := false, normOn := true, groups := [0, 1] }

theorem twoGroups_plain : Plain groupsOff twoGroups :=
  ⟨by decide, by decide, by decide, by decide, by decide⟩

theorem serves_two {l : Info} (hl : l ∈ twoGroups) : Serves groupsOff twoGroups (0, 0) l := by
  refine ⟨hl, ?_, ?_, ?_, ?_⟩
  all_goals
    simp only [twoGroups, List.mem_cons, List.not_mem_nil, or_false] at hl
    rcases hl with rfl | rfl
  · rfl
  · rfl
  · rfl
  · rfl
  · exact ⟨_, List.mem_singleton.mpr rfl, Or.inl rfl⟩
  · exact ⟨_, List.mem_singleton.mpr rfl, Or.inl rfl⟩
  · exact Or.inr (Or.inl ⟨rfl, by decide⟩)
  · exact Or.inr (Or.inl ⟨rfl, by decide⟩)

theorem preferred_two {o : Instr} {a : Int × Int} {l : Info} (h : Preferred groupsOff twoGroups o a l) :
    ¬ Measured l (-20) := by
  intro hm
  have hl := h.1.1
  have ha : a = (0, 0) := by
    have h1 := h.1.2.1
    have h2 := h.1.2.2.1
    simp only [twoGroups, List.mem_cons, List.not_mem_nil, or_false] at hl
    rcases hl with rfl | rfl <;> exact Prod.ext h1.symm h2.symm
  subst ha
  have hone : l.group = 0 := by
    simp only [twoGroups, List.mem_cons, List.not_mem_nil, or_false] at hl
    rcases hl with rfl | rfl
    · rfl
    · have := measured_one (dmx := 0) (set := 0) (v := -10) rfl hm
      exact absurd this (by decide +kernel)
  have hkind : l.kind = 2 := by
    simp only [twoGroups, List.mem_cons, List.not_mem_nil, or_false] at hl
    rcases hl with rfl | rfl <;> rfl
  have := (h.2.2 hkind).2 (fun ⟨l', _, _, ho⟩ => by cases ho.1) { anInfo 0 0 (-10) with kind := 2, group := 1 }
    (serves_two (by simp [twoGroups])) rfl
  rw [hone] at this
  exact absurd this (by decide)

/-- With DRC off and group 0 requested, the loudness of group 0 is taken although that of a larger group is
preferred. -/
theorem loudness_control_refuted : ¬ ∀ (p : Request) (infos : List Info) (o o' : Instr) (gs : List (Rat × Rat)), p.normOn = true →
    Plain p infos → loudnessControl p infos o = .ok (o', gs) → Levelled p infos o gs := by
  intro hall
  have h := hall groupsOff twoGroups (aSet (-1) 0 0) (aSet 0 0 0) [(-4, -20)] rfl twoGroups_plain (by decide +kernel)
  rcases h with ⟨h, _⟩ | ⟨pre, a, post, ls, _, _, hne, _, hls, hlen, hgs⟩
  · exact absurd h (by decide +kernel)
  · cases ls with
    | nil => exact hne rfl
    | cons l ls =>
      exact preferred_two ((hls l).mp (by simp)) (hgs 0 l (-4, -20) rfl rfl).1

theorem twoGroups_moderate : Moderate groupsOff (aConfig []) twoGroups :=
  ⟨by decide +kernel, by decide +kernel, by decide +kernel, by decide +kernel, by decide +kernel, by decide +kernel⟩

/-- The loudness of the output need not be the target for the preferred loudness information. -/
theorem normalised_refuted : ¬ ∀ (p : Request) (c : Config) (infos : List Info) (slots : List Peak) (out : Output), p.normOn = true →
    Moderate p c infos → Plain p infos → select p c infos slots = .ok out → Normalised p c infos out := by
  intro hall
  have h := hall groupsOff (aConfig []) twoGroups noSlots ⟨[], -4, -4, -24, -4⟩ rfl twoGroups_moderate twoGroups_plain (by decide +kernel)
  obtain ⟨u, _, _, ⟨_, h, _⟩ | ⟨_, pre, a, post, l, _, _, hp, hm⟩⟩ := h
  · exact absurd h (by decide +kernel)
  · refine preferred_two hp ?_
    have e : groupsOff.target - (⟨[], -4, -4, -24, -4⟩ : Output).gain = -20 := by decide +kernel
    rw [e] at hm
    exact hm

/-! ## The gain applied -/

/-- A request with DRC and normalisation. -/
def normOn : Request := { aRequest with normOn := true }

/-- The gain applied to the output need not be the gain of the selected set: that of the last candidate is. -/
theorem applied_refuted : ¬ ∀ (p : Request) (c : Config) (infos : List Info) (slots : List Peak) (out : Output),
    Moderate p c infos → Plain p infos → NoZero p → select p c infos slots = .ok out → out.applied = out.gain := by
  intro hall
  have h := hall normOn (aConfig [aSet 1 1 0]) [anInfo 0 1 (-20), anInfo 0 0 (-30)] noSlots ⟨[(1, 0)], -4, -4, -24, 6⟩
    ⟨by decide +kernel, by decide +kernel, by decide +kernel, by decide +kernel, by decide +kernel, by decide +kernel⟩
    ⟨by decide, by decide, by decide, by decide, by decide⟩ (fun h => by cases h) (by decide +kernel)
  exact absurd h (by decide +kernel)

/-! ## Bounds -/

/-- Seventeen entries of loudness information for the same downmix and set are written to an array of sixteen. -/
theorem entries_unbounded : select { aRequest with normOn := true } (aConfig []) (List.replicate 17 (anInfo 0 0 (-20))) noSlots = .ub := by
  decide +kernel

/-- The selection need not stay inside its tables. -/
theorem bounds_refuted : ¬ ∀ (p : Request) (os : List Instr) (infos : List Info) (slots : List Peak), infos.length ≤ infoMax →
    (∀ l ∈ infos, ∀ m ∈ l.measures.take l.count, m.system < 12) → slots.length = 16 → select p (aConfig os) infos slots ≠ .ub := fun h =>
  h _ [] _ noSlots (by decide) (by decide +kernel) rfl entries_unbounded

/-! ## Arrays that are not cleared -/

/-- A set with a limiter target and a target loudness that is not met. -/
def limited : Instr := { aSet 1 1 0 with peakPresent := 1, peak := -2, targetPresent := 1, upper := -30, lower := -40 }

/-- The active sets depend on what the arrays held before. -/
theorem cleared_refuted : ¬ ∀ (p : Request) (c : Config) (infos : List Info) (s t : List Peak), s.length = 16 → t.length = 16 →
    select p c infos s = select p c infos t := by
  intro hall
  have h := hall { aRequest with normOn := true, dmx := 5 } (aConfig [limited]) [] (List.replicate 16 ⟨0, 0, 0⟩) (List.replicate 16 ⟨0, 0, 1⟩) rfl rfl
  exact absurd h (by decide +kernel)

/-! ## The peak limit -/

/-- Sample peaks for three sets. -/
def threePeaks : List Info := [{ anInfo 0 1 (-24) with samplePresent := true, sample := 3 },
  { anInfo 0 2 (-24) with samplePresent := true, sample := 3 }, { anInfo 0 3 (-24) with samplePresent := true, sample := -1 }]

/-- A set that exceeds the peak limit may be selected although a set with the same effect, for the same group and
downmix, does not. -/
theorem limit_refuted : ¬ ∀ (p : Request) (os : List Instr) (o : Instr) (infos : List Info) (slots : List Peak) (a b : Output),
    p.drcOn = true → (∀ t ∈ os, t.effect = o.effect) → select p (aConfig [o]) infos slots = .ok a → a.sets = [(o.setId, 0)] → a.peak ≤ 0 →
    select p (aConfig (os ++ [o])) infos slots = .ok b → b.peak ≤ 0 := by
  intro hall
  have h := hall aRequest [aSet 1 1 0, aSet 2 1 0] (aSet 3 1 0) threePeaks noSlots ⟨[(3, 0)], 0, -1, 1000, 0⟩ ⟨[(2, 0)], 0, 3, 1000, 0⟩
    rfl (by decide) (by decide +kernel) rfl (by decide +kernel) (by decide +kernel)
  exact absurd h (by decide +kernel)

/-! ## Active sets -/

/-- A set may be active twice: a fading set with another effect is also a candidate. -/
theorem twice_refuted : ¬ ∀ (p : Request) (c : Config) (infos : List Info) (slots : List Peak) (out : Output), c.instrCount ≤ c.plus →
    (c.instrs.map (·.setId)).Nodup → select p c infos slots = .ok out → (out.sets.map (·.1)).Nodup := by
  intro hall
  have h := hall aRequest (aConfig [aSet 1 0x201 127]) [] noSlots ⟨[(1, 0), (1, 0)], 0, 0, 1000, 0⟩ (by decide) (by decide) (by decide +kernel)
  exact absurd h (by decide)

/-- With DRC off a set of the stream that neither fades nor ducks may be active: the set that a set with identifier
0 depends on. -/
theorem drc_off_refuted : ¬ ∀ (p : Request) (c : Config) (infos : List Info) (slots : List Peak) (out : Output), p.drcOn = false →
    select p c infos slots = .ok out → ∀ e ∈ out.sets, ∃ u ∈ c.instrs.take c.instrCount, u.setId = e.1 ∧ (IsFade p u ∨ IsDuck p u) := by
  intro hall
  obtain ⟨u, hu, hid, h⟩ := hall { aRequest with drcOn := false, normOn := true } (aConfig [{ aSet 0 1 0 with depends := 1, dependsOn := 4 }, aSet 4 1 0]) []
    noSlots ⟨[(4, 0)], 0, 0, 1000, 0⟩ rfl (by decide +kernel) (4, 0) (by simp)
  have : u = { aSet 0 1 0 with depends := 1, dependsOn := 4 } ∨ u = aSet 4 1 0 := by
    simpa [aConfig] using hu
  rcases this with rfl | rfl
  · rcases h with h | h
    · exact absurd h.1 (by decide)
    · rcases h.1 with h | h <;> exact absurd h (by decide)
  · rcases h with h | h
    · exact absurd h.1 (by decide)
    · rcases h.1 with h | h <;> exact absurd h (by decide)

/-! ## Groups and presets -/

instance (p : Request) (l : Info) : Decidable (Applies p l) := by
  unfold Applies
  have : (∃ n, (l.preset, n) ∈ p.presets) ↔ l.preset ∈ p.presets.map Prod.fst := by simp
  exact @instDecidableOr _ _ _ (@instDecidableOr _ _ _ (@instDecidableAnd _ _ _ (decidable_of_iff _ this.symm)))

/-- The peak level of the output may be that of a group that is not requested. -/
theorem peak_refuted : ¬ ∀ (p : Request) (c : Config) (infos : List Info) (slots : List Peak) (a b : Output),
    select p c infos slots = .ok a → select p c (infos.filter (Applies p ·)) slots = .ok b → a.peak = b.peak := by
  intro hall
  have h := hall aRequest (aConfig []) [{ anInfo 0 0 (-24) with samplePresent := true, sample := -10, kind := 2, group := 5 }] noSlots
    ⟨[], 0, -10, 1000, 0⟩ ⟨[], 0, 0, 1000, 0⟩ (by decide +kernel) (by decide +kernel)
  exact absurd h (by decide +kernel)

/-- A set for a preset that is not requested may be active. -/
theorem request_refuted : ¬ ∀ (p : Request) (c : Config) (infos : List Info) (slots : List Peak) (out : Output), Plain p infos →
    select p c infos slots = .ok out → ∀ e ∈ out.sets, ∃ u ∈ c.instrs, u.setId = e.1 ∧ ForRequest p u := by
  intro hall
  obtain ⟨u, hu, hid, h⟩ := hall { aRequest with presets := [(7, 1)] } (aConfig [{ aSet 1 1 0 with kind := 3, preset := 9 },
    { aSet 2 2 0 with kind := 3, preset := 7 }]) [] noSlots ⟨[(1, 0)], 0, 0, 1000, 0⟩
    ⟨by decide, by decide, by decide, by decide, by decide⟩ (by decide +kernel) (1, 0) (by simp)
  have : u = { aSet 1 1 0 with kind := 3, preset := 9 } := by
    simp only [aConfig, List.cons_append, List.nil_append, List.mem_cons, List.not_mem_nil, or_false] at hu
    rcases hu with rfl | rfl | rfl | rfl
    · rfl
    · exact absurd hid (by decide)
    · exact absurd hid (by decide)
    · exact absurd hid (by decide)
  subst this
  obtain ⟨n, hn⟩ := h.2 rfl
  simp at hn

end Verif.DrcSel
