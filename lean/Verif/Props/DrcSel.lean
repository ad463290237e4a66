import Verif.Props.DrcSelFinal

/-! # The active DRC sets -/

namespace Verif.DrcSel

open DrcConfig Res
open DrcLoud hiding errUnexpected

/-- The entry of `sel_drc_set_ids` and `sel_downmix_ids` for an instruction. -/
def entry (instrs : List Instr) (x : Bool × Option Nat) : Option (Int × Int) :=
  match x.2 with
  | none => none
  | some i => match instrs[i]? with
    | none => none
    | some o => if 0 < o.setId then some (o.setId, if x.1 && (o.effect.testBit 10 || o.effect.testBit 11) then 0
        else if o.applyDmx = 1 then o.dmxIds.headD 0 else 0) else none

theorem active_gives (instrs : List Instr) (xs : List (Bool × Option Nat)) :
    Gives (each (activeStep instrs) xs []) (fun s => s = xs.filterMap (entry instrs)) := by
  refine gives_eachAll (I := fun pre s => s = pre.filterMap (entry instrs)) ?_ rfl
  intro pre x post _ s hs
  subst hs
  rw [List.filterMap_append]
  unfold activeStep
  cases hx : x.2 with
  | none => exact Gives.ok (by simp [entry, hx])
  | some i =>
    refine Gives.bind (gives_at _ _) fun o ho => ?_
    refine Gives.ite (fun hp => gives_push ?_) fun hp => Gives.ok ?_
    · simp [entry, hx, ho, hp]
    · simp [entry, hx, ho, hp]

theorem wanted_iff {p : Request} {o : Instr} : wanted p o = true ↔ ForRequest p o := by
  unfold wanted ForRequest
  split
  · rename_i h
    simp [h, List.contains_iff_mem]
  · split
    · rename_i h3
      simp [h3, List.contains_iff_mem]
    · rename_i h2 h3
      simp [h2, h3]

theorem getFading_gives (p : Request) : ∀ (os : List Instr) (n : Nat) (r : Option Nat), Gives (getFading p os n r) (fun q =>
    (q = r ∧ ∀ o ∈ os, ¬ IsFade p o) ∨ ∃ k o, q = some (n + k) ∧ os[k]? = some o ∧ IsFade p o)
  | [], _, _ => Gives.ok (Or.inl ⟨rfl, by simp⟩)
  | o :: os, n, r => by
    unfold getFading
    have shift : ∀ r', Gives (getFading p os (n + 1) r') (fun q => (q = r' ∧ ∀ o ∈ os, ¬ IsFade p o) ∨
        ∃ k o', q = some (n + k) ∧ (o :: os)[k]? = some o' ∧ IsFade p o') := fun r' =>
      (getFading_gives p os (n + 1) r').mono fun q hq => by
        rcases hq with h | ⟨k, o', h1, h2, h3⟩
        · exact Or.inl h
        · exact Or.inr ⟨k + 1, o', by rw [h1]; congr 1; omega, by simpa using h2, h3⟩
    refine Gives.ite (fun hb => Gives.ite (fun hd => ?_) fun _ => Gives.err) fun hb => ?_
    · refine (shift _).mono fun q hq => ?_
      rcases hq with ⟨h1, h2⟩ | h
      · by_cases hw : wanted p o = true
        · rw [if_pos hw] at h1
          exact Or.inr ⟨0, o, by simpa using h1, rfl, hb, hd, wanted_iff.mp hw⟩
        · rw [if_neg hw] at h1
          refine Or.inl ⟨h1, fun o' ho' => ?_⟩
          rcases List.mem_cons.mp ho' with rfl | ho'
          · exact fun h => hw (wanted_iff.mpr h.2.2)
          · exact h2 o' ho'
      · exact Or.inr h
    · refine (shift _).mono fun q hq => ?_
      rcases hq with ⟨h1, h2⟩ | h
      · refine Or.inl ⟨h1, fun o' ho' => ?_⟩
        rcases List.mem_cons.mp ho' with rfl | ho'
        · exact fun h => hb h.1
        · exact h2 o' ho'
      · exact Or.inr h

theorem getDucking_spec (p : Request) : ∀ (os : List Instr) (n : Nat) (r : Option Nat),
    (getDucking p os n r = r ∧ ∀ o ∈ os, ¬ IsDuck p o) ∨ ∃ k o, getDucking p os n r = some (n + k) ∧ os[k]? = some o ∧ IsDuck p o
  | [], _, _ => Or.inl ⟨rfl, by simp⟩
  | o :: os, n, r => by
    unfold getDucking
    have hiff : ((o.effect.testBit 10 || o.effect.testBit 11) && (o.dmxIds.take o.dmxCount).contains 0 && wanted p o) = true ↔ IsDuck p o := by
      simp only [IsDuck, Bool.and_eq_true, Bool.or_eq_true, List.contains_iff_mem, and_assoc, wanted_iff]
    rcases getDucking_spec p os (n + 1) (if ((o.effect.testBit 10 || o.effect.testBit 11) &&
        (o.dmxIds.take o.dmxCount).contains 0 && wanted p o) = true then some n else r) with ⟨h1, h2⟩ | ⟨k, o', h1, h2, h3⟩
    · by_cases hd : IsDuck p o
      · rw [if_pos (hiff.mpr hd)] at h1 ⊢
        exact Or.inr ⟨0, o, by simpa using h1, rfl, hd⟩
      · rw [if_neg (fun h => hd (hiff.mp h))] at h1 ⊢
        refine Or.inl ⟨h1, fun o' ho' => ?_⟩
        rcases List.mem_cons.mp ho' with rfl | ho'
        · exact hd
        · exact h2 o' ho'
    · exact Or.inr ⟨k + 1, o', by rw [h1]; congr 1; omega, by simpa using h2, h3⟩

/-- The configuration with the requested downmix noted. -/
theorem noteDmx_gives (p : Request) (c : Config) : Gives (noteDmx p c) (fun c' => c'.plus = c.plus ∧ c'.instrCount = c.instrCount ∧
    c'.instrs.length = c.instrs.length ∧ 0 < c.plus ∧ ∀ i o, c'.instrs[i]? = some o → ∃ o0, c.instrs[i]? = some o0 ∧
      ((i + 1 ≠ c.plus ∧ o = o0) ∨ (i + 1 = c.plus ∧ ∃ ids, o = { o0 with dmxIds := ids }))) := by
  unfold noteDmx
  refine Gives.ite (fun _ => Gives.ub) fun hp => ?_
  refine Gives.bind (gives_at _ _) fun o ho => Gives.ok ⟨rfl, rfl, by simp, by omega, ?_⟩
  intro i t ht
  dsimp only at ht
  by_cases e : i = c.plus - 1
  · subst e
    rw [List.getElem?_set_self (List.getElem?_eq_some_iff.mp ho).1] at ht
    cases ht
    exact ⟨o, ho, Or.inr ⟨by omega, _, rfl⟩⟩
  · rw [List.getElem?_set_ne (by omega)] at ht
    exact ⟨t, ht, Or.inl ⟨by omega, rfl⟩⟩

theorem firstWith_gives (c : Config) (instrs : List Instr) (id : Int) : Gives (firstWith c instrs id) (fun i => i < c.plus ∧
    ∃ o, instrs[i]? = some o ∧ o.setId = id ∧ ∀ j < i, ∀ t, instrs[j]? = some t → t.setId ≠ id) := by
  unfold firstWith
  dsimp only
  refine Gives.ite (fun h => Gives.ok ?_) fun _ => Gives.err
  have hlt : (instrs.take c.plus).findIdx (·.setId == id) < c.plus ∧ (instrs.take c.plus).findIdx (·.setId == id) < instrs.length := by
    rw [List.length_take] at h
    omega
  refine ⟨hlt.1, instrs[(instrs.take c.plus).findIdx (·.setId == id)]'hlt.2, List.getElem?_eq_getElem hlt.2, ?_, ?_⟩
  · have := List.findIdx_getElem (w := h)
    rw [List.getElem_take] at this
    simpa using this
  · intro j hj t ht
    have := List.not_of_lt_findIdx hj
    rw [List.getElem_take] at this
    obtain ⟨hjl, e⟩ := List.getElem?_eq_some_iff.mp ht
    rw [e] at this
    simpa using this

/-- Everything about a selection that has succeeded. -/
structure Selected (p : Request) (c : Config) (infos : List Info) (slots : List Peak) (out : Output) (c' : Config) (s : Pre)
    (x : Cand) (o so : Instr) (sel : Nat) (dep fade duck : Option Nat) : Prop where
  noted : noteDmx p c = .ok c'
  set : selectSet p c' infos slots = .ok (s, x)
  instr : s.instrs[x.instr]? = some o
  first : firstWith c' s.instrs o.setId = .ok sel
  selected : s.instrs[sel]? = some so
  dependent : getDependent c' s.instrs so = .ok dep
  fading : getFading p (s.instrs.take c'.instrCount) 0 none = .ok fade
  ducking : getDucking p (s.instrs.take c'.instrCount) 0 none = duck
  sets : out.sets = [(true, duck), (false, if duck.isSome then none else fade), (false, dep), (false, some sel)].filterMap (entry s.instrs)
  count : out.sets.length ≤ 3
  gain : out.gain = x.gain
  peak : out.peak = x.peak
  loud : out.loud = x.loud
  applied : out.applied = s.gain

theorem select_gives (p : Request) (c : Config) (infos : List Info) (slots : List Peak) :
    Gives (select p c infos slots) (fun out => ∃ c' s x o so sel dep fade duck, Selected p c infos slots out c' s x o so sel dep fade duck) := by
  unfold select
  refine Gives.bind (Q := fun c' => noteDmx p c = .ok c') (fun _ h => h) fun c' hc' => ?_
  refine Gives.bind (Q := fun r => selectSet p c' infos slots = .ok r) (fun _ h => h) fun r hr => ?_
  refine Gives.bind (gives_at _ _) fun o ho => ?_
  refine Gives.bind (Q := fun sel => firstWith c' r.1.instrs o.setId = .ok sel) (fun _ h => h) fun sel hsel => ?_
  refine Gives.bind (gives_at _ _) fun so hso => ?_
  refine Gives.bind (Q := fun dep => getDependent c' r.1.instrs so = .ok dep) (fun _ h => h) fun dep hdep => ?_
  refine Gives.bind (Q := fun fade => getFading p (r.1.instrs.take c'.instrCount) 0 none = .ok fade) (fun _ h => h) fun fade hfade => ?_
  refine Gives.bind (active_gives _ _) fun sets hsets => ?_
  refine Gives.ite (fun _ => Gives.err) fun hlen => Gives.ok ?_
  exact ⟨c', r.1, r.2, o, so, sel, dep, fade, _, hc', hr, ho, hsel, hso, hdep, hfade, rfl, hsets, Nat.le_of_not_lt hlen, rfl, rfl, rfl, rfl⟩

/-- The candidate selected. -/
theorem selectSet_gives {p : Request} {c : Config} {infos : List Info} (hm : Moderate p c infos) (hg : ∀ g ∈ p.presets, 0 ≤ g.2)
    (slots : List Peak) : Gives (selectSet p c infos slots) (fun r => PreOk p c infos r.1 ∧ CandOk p c infos r.2 ∧ r.2 ∈ r.1.cands) := by
  unfold selectSet
  refine Gives.bind (preSelect_gives hm slots) fun s hs => ?_
  cases hc : s.cands with
  | nil => exact Gives.err
  | cons x xs =>
    dsimp only
    refine Gives.ite (fun _ => Gives.err) fun _ => ?_
    refine Gives.ite (fun _ => ?_) fun _ => Gives.ok ⟨hs, hs.cands x (by simp [hc]), by simp [hc]⟩
    rw [← hc]
    refine Gives.bind (matchEffects_mem c s.instrs p (by simp [hc])) fun ys ⟨hne, hys⟩ => ?_
    refine Gives.ite (fun _ => Gives.err) fun _ => ?_
    refine Gives.bind (finalSelect_mem hne hg (fun y hy => ⟨(hs.cands y (hys y hy)).low, (hs.cands y (hys y hy)).high⟩)
      (hs.kept.all (P := fun t => t.upper ≤ 100) hm.uppers fun u hu => hu)) fun y hy => Gives.ok ⟨hs, hs.cands y (hys y hy), hys y hy⟩

theorem Moderate.noted {p : Request} {c c' : Config} {infos : List Info} (hm : Moderate p c infos) (h : noteDmx p c = .ok c') :
    Moderate p c' infos := by
  have hn := (noteDmx_gives p c c' h).2.2.2.2
  have : ∀ (P : Instr → Prop), (∀ o ∈ c.instrs, P o) → (∀ o ids, P o → P { o with dmxIds := ids }) → ∀ o ∈ c'.instrs, P o := by
    intro P hP hi o ho
    obtain ⟨i, hi'⟩ := List.mem_iff_getElem?.mp ho
    obtain ⟨o0, h0, h1⟩ := hn i o hi'
    have := hP o0 (List.mem_of_getElem? h0)
    rcases h1 with ⟨_, rfl⟩ | ⟨_, ids, rfl⟩
    · exact this
    · exact hi _ _ this
  exact ⟨hm.target, hm.values, hm.trues, hm.samples, this (fun o => o.peakPresent ≠ 0 → _) hm.peaks fun _ _ h => h,
    this (fun o => o.upper ≤ 100) hm.uppers fun _ _ h => h⟩

/-- With loudness normalisation, the loudness of the output is the target, and the gain is what is missing from
the loudness of the preferred loudness information for the selected set; without loudness information there is
no gain. -/
theorem normalised_partial {p : Request} {c : Config} {infos : List Info} {slots : List Peak} {out : Output}
    (hn : p.normOn = true) (hm : Moderate p c infos) (hp : Plain p infos) (hz : NoZero p) (h : select p c infos slots = .ok out) :
    Normalised p c infos out := by
  unfold Normalised
  obtain ⟨c', s, x, o, so, sel, dep, fade, duck, S⟩ := select_gives p c infos slots out h
  have hm' := hm.noted S.noted
  obtain ⟨hpre, hx, _⟩ := selectSet_gives hm' hp.members slots _ S.set
  obtain ⟨u', r, hu', hr, _, _, g, hg, hgain, hloud⟩ := hx.src
  obtain ⟨u, hu, hrel⟩ := (noteDmx_gives p c c' S.noted).2.2.2.2 _ u' hu'
  have hkind : u'.kind = u.kind ∧ u'.group = u.group ∧ u'.setId = u.setId := by
    rcases hrel with ⟨_, rfl⟩ | ⟨_, ids, rfl⟩
    · exact ⟨rfl, rfl, rfl⟩
    · exact ⟨rfl, rfl, rfl⟩
  have hpref : ∀ a l, Preferred p infos u' a l ↔ Preferred p infos u a l := by
    intro a l
    unfold Preferred OwnGroup
    rw [hkind.1, hkind.2.1]
  refine ⟨u, List.mem_of_getElem? hu, fun hpos => ?_, ?_⟩
  · obtain ⟨w, hw, hrel'⟩ := hpre.kept.2 _ o S.instr
    rw [hu'] at hw
    cases hw
    have hoid : o.setId = u.setId := by
      rcases hrel' with rfl | ⟨hneg, _⟩
      · exact hkind.2.2
      · omega
    obtain ⟨_, t, ht, hid, _⟩ := firstWith_gives c' s.instrs o.setId sel S.first
    rw [S.selected] at ht
    cases ht
    refine ⟨if so.applyDmx = 1 then so.dmxIds.headD 0 else 0, ?_⟩
    rw [S.sets]
    refine List.mem_filterMap.mpr ⟨(false, some sel), by simp, ?_⟩
    simp [entry, S.selected, hid, hoid, hpos]
  · obtain ⟨_, hcase⟩ := loudness_control_partial (o' := r.1) (gs := r.2) hn hp hz hr
    rw [S.gain, S.loud, hgain, hloud, ← hkind.2.2]
    rcases hcase with ⟨hgs, hno⟩ | ⟨pre, a, post, ls, h1, h2, _, _, h5, h6, h7⟩
    · rw [hgs, List.mem_singleton] at hg
      subst hg
      exact Or.inl ⟨rfl, by decide, hno⟩
    · obtain ⟨i, hi, e⟩ := List.mem_iff_getElem.mp hg
      have hl : ls[i]? = some ls[i] := List.getElem?_eq_getElem (by omega)
      obtain ⟨hmeas, hge⟩ := h7 i ls[i] g hl (by rw [List.getElem?_eq_getElem hi, e])
      have hpr := (h5 ls[i]).mp (List.getElem_mem (by omega))
      obtain ⟨_, _, _, _, hlev⟩ := Level.moderate (g := g) hm' (Or.inr ⟨hn, ls[i], hpr.1.1, hmeas, hge⟩)
      have hback : p.target - g.1 = g.2 := by rw [hge]; ring
      rcases hlev with ⟨_, hbad⟩ | ⟨_, hout, _⟩
      · exfalso
        obtain ⟨q1, m, q2, e, hmv, _⟩ := hmeas
        have hv := hm.values ls[i] hpr.1.1 m (by rw [e]; simp)
        rw [hmv] at hv
        unfold outLoud at hbad
        rw [if_neg (by intro e; rw [e] at hv; exact absurd hv.2 (by norm_num [undefinedLoudness])), hge] at hbad
        have := hm.target.2
        have h0 : g.2 + (p.target - g.2) = p.target := by ring
        rw [h0] at hbad
        rw [hbad] at this
        exact absurd this (by norm_num)
      · exact Or.inr ⟨hout, pre, a, post, ls[i], h1, h2, (hpref a _).mp hpr, by rwa [hback]⟩

/-- The gain applied to the output is none or one that brings some loudness information to the target. -/
theorem applied_partial {p : Request} {c : Config} {infos : List Info} {slots : List Peak} {out : Output}
    (hm : Moderate p c infos) (hg : ∀ g ∈ p.presets, 0 ≤ g.2) (h : select p c infos slots = .ok out) :
    (out.applied = 0 ∨ (p.normOn = true ∧ ∃ l ∈ infos, Measured l (p.target - out.applied))) ∧
    (p.normOn = false → out.applied = 0 ∧ out.gain = 0) := by
  obtain ⟨c', s, x, o, so, sel, dep, fade, duck, S⟩ := select_gives p c infos slots out h
  obtain ⟨hpre, hx, _⟩ := selectSet_gives (hm.noted S.noted) hg slots _ S.set
  rw [S.applied, S.gain]
  refine ⟨hpre.gain, fun hn => ⟨?_, ?_⟩⟩
  · rcases hpre.gain with h | ⟨h, _⟩
    · exact h
    · rw [hn] at h; cases h
  · rcases hx.norm with h | ⟨h, _⟩
    · exact h.1
    · rw [hn] at h; cases h

/-! ## Which sets are active -/

theorem preStep_kept (p : Request) (c : Config) (infos : List Info) (i : Nat) {s : Pre} (hs : Kept c s.instrs) :
    Gives (preStep p c infos i s) (fun t => Kept c t.instrs) := by
  unfold preStep
  refine Gives.bind (gives_at _ _) fun o ho => ?_
  refine Gives.ite (fun _ => Gives.ok hs) fun _ => ?_
  refine Gives.ite (fun _ => ?_) fun _ => ?_
  · refine Gives.ite (fun _ => ?_) fun _ => Gives.ok hs
    refine Gives.bind (control_gives p infos o) fun r hr => ?_
    refine Gives.bind (Q := fun _ => True) (fun _ _ => trivial) fun b _ => ?_
    refine Gives.bind (Q := fun _ => True) (fun _ _ => trivial) fun b _ => ?_
    exact Gives.ok (hs.set ho hr.1)
  · refine Gives.ite (fun _ => ?_) fun _ => Gives.ok hs
    refine Gives.bind (Q := fun _ => True) (fun _ _ => trivial) fun b _ => ?_
    refine Gives.ite (fun _ => ?_) fun _ => Gives.ok hs
    refine Gives.bind (control_gives p infos o) fun r hr => ?_
    refine Gives.bind (Q := fun _ => True) (fun _ _ => trivial) fun b _ => ?_
    refine Gives.bind (Q := fun _ => True) (fun _ _ => trivial) fun b _ => ?_
    exact Gives.ok (hs.set ho hr.1)

theorem selectSet_kept (p : Request) (c : Config) (infos : List Info) (slots : List Peak) :
    Gives (selectSet p c infos slots) (fun r => Kept c r.1.instrs) := by
  unfold selectSet
  refine Gives.bind (Q := fun s => Kept c s.instrs) ?_ fun s hs => ?_
  · unfold preSelect
    refine Gives.bind (gives_each (I := fun s : Pre => Kept c s.instrs) (fun i _ s hs => preStep_kept p c infos i hs) (Kept.refl c)) fun s hs => ?_
    refine Gives.ite (fun _ => ?_) fun _ => Gives.ok hs
    refine Gives.bind (Q := fun _ => True) (fun _ _ => trivial) fun b _ => ?_
    refine Gives.bind (Q := fun _ => True) (fun _ _ => trivial) fun b _ => ?_
    refine Gives.bind (Q := fun _ => True) (fun _ _ => trivial) fun b _ => ?_
    exact Gives.ok hs
  · cases hc : s.cands with
    | nil => exact Gives.err
    | cons x xs =>
      dsimp only
      refine Gives.ite (fun _ => Gives.err) fun _ => ?_
      refine Gives.ite (fun _ => ?_) fun _ => Gives.ok hs
      refine Gives.bind (Q := fun _ => True) (fun _ _ => trivial) fun b _ => ?_
      refine Gives.ite (fun _ => Gives.err) fun _ => ?_
      refine Gives.bind (Q := fun _ => True) (fun _ _ => trivial) fun b _ => ?_
      exact Gives.ok hs

/-- An instruction of a selection is one of the configuration, with the same set identifier if it is positive. -/
theorem Selected.from {p : Request} {c : Config} {infos : List Info} {slots : List Peak} {out : Output} {c' : Config} {s : Pre}
    {x : Cand} {o so : Instr} {sel : Nat} {dep fade duck : Option Nat} (S : Selected p c infos slots out c' s x o so sel dep fade duck)
    {i : Nat} {t : Instr} (ht : s.instrs[i]? = some t) : ∃ u, c.instrs[i]? = some u ∧ (i + 1 ≠ c.plus → t.dmxIds = u.dmxIds) ∧
      t.effect = u.effect ∧ t.kind = u.kind ∧ t.group = u.group ∧ t.preset = u.preset ∧ t.dmxCount = u.dmxCount ∧
      t.applyDmx = u.applyDmx ∧ t.depends = u.depends ∧ t.dependsOn = u.dependsOn ∧
      (t.setId = u.setId ∨ (u.setId < 0 ∧ t.setId = 0)) := by
  obtain ⟨u', hu', h1⟩ := (selectSet_kept p c' infos slots _ S.set).2 i t ht
  obtain ⟨u, hu, h2⟩ := (noteDmx_gives p c c' S.noted).2.2.2.2 i u' hu'
  refine ⟨u, hu, ?_⟩
  rcases h1 with rfl | ⟨hneg, rfl⟩ <;> rcases h2 with ⟨hk, rfl⟩ | ⟨hk, ids, rfl⟩
  · exact ⟨fun _ => rfl, rfl, rfl, rfl, rfl, rfl, rfl, rfl, rfl, Or.inl rfl⟩
  · exact ⟨fun h => absurd hk h, rfl, rfl, rfl, rfl, rfl, rfl, rfl, rfl, Or.inl rfl⟩
  · exact ⟨fun _ => rfl, rfl, rfl, rfl, rfl, rfl, rfl, rfl, rfl, Or.inr ⟨hneg, rfl⟩⟩
  · exact ⟨fun h => absurd hk h, rfl, rfl, rfl, rfl, rfl, rfl, rfl, rfl, Or.inr ⟨hneg, rfl⟩⟩

theorem entry_some {instrs : List Instr} {x : Bool × Option Nat} {e : Int × Int} (h : entry instrs x = some e) :
    ∃ i o, x.2 = some i ∧ instrs[i]? = some o ∧ 0 < o.setId ∧ e.1 = o.setId ∧
      (e.2 = 0 ∨ (o.applyDmx = 1 ∧ e.2 = o.dmxIds.headD 0)) := by
  unfold entry at h
  split at h
  · cases h
  · rename_i i hi
    split at h
    · cases h
    · rename_i o ho
      split at h
      · rename_i hp
        cases h
        refine ⟨i, o, hi, ho, hp, rfl, ?_⟩
        dsimp only
        split
        · exact Or.inl rfl
        · split
          · rename_i ha; exact Or.inr ⟨ha, rfl⟩
          · exact Or.inl rfl
      · cases h

theorem getDependent_gives (c : Config) (instrs : List Instr) (o : Instr) : Gives (getDependent c instrs o) (fun d =>
    (d = none ∧ o.depends ≠ 1) ∨ ∃ i, d = some i ∧ o.depends = 1 ∧ firstWith c instrs o.dependsOn = .ok i) := by
  unfold getDependent
  refine Gives.ite (fun h => ?_) fun h => Gives.ok (Or.inl ⟨rfl, h⟩)
  exact Gives.bind (Q := fun i => firstWith c instrs o.dependsOn = .ok i) (fun _ h => h) fun i hi => Gives.ok (Or.inr ⟨i, rfl, h, hi⟩)

theorem Selected.below {p : Request} {c : Config} {infos : List Info} {slots : List Peak} {out : Output} {c' : Config} {s : Pre}
    {x : Cand} {o so : Instr} {sel : Nat} {dep fade duck : Option Nat} (S : Selected p c infos slots out c' s x o so sel dep fade duck)
    (hc : c.instrCount ≤ c.plus) : sel < c.plus ∧ (∀ i, dep = some i → i < c.plus) ∧ (∀ i, fade = some i → i < c.instrCount) ∧
      (∀ i, duck = some i → i < c.instrCount) := by
  have hn := noteDmx_gives p c c' S.noted
  refine ⟨?_, ?_, ?_, ?_⟩
  · rw [← hn.1]; exact (firstWith_gives c' s.instrs o.setId sel S.first).1
  · intro i hi
    rcases getDependent_gives c' s.instrs so dep S.dependent with ⟨h, _⟩ | ⟨j, h, _, h2⟩
    · rw [hi] at h; cases h
    · rw [hi] at h
      cases h
      rw [← hn.1]
      exact (firstWith_gives c' s.instrs so.dependsOn _ h2).1
  · intro i hi
    rcases getFading_gives p _ 0 none fade S.fading with ⟨h, _⟩ | ⟨k, t, h, ht, _⟩
    · rw [hi] at h; cases h
    · rw [hi] at h
      cases h
      have := (List.getElem?_eq_some_iff.mp ht).1
      rw [List.length_take, hn.2.1] at this
      omega
  · intro i hi
    rcases getDucking_spec p (s.instrs.take c'.instrCount) 0 none with ⟨h, _⟩ | ⟨k, t, h, ht, _⟩
    · rw [S.ducking, hi] at h; cases h
    · rw [S.ducking, hi] at h
      cases h
      have := (List.getElem?_eq_some_iff.mp ht).1
      rw [List.length_take, hn.2.1] at this
      omega

theorem Selected.mem {p : Request} {c : Config} {infos : List Info} {slots : List Peak} {out : Output} {c' : Config} {s : Pre}
    {x : Cand} {o so : Instr} {sel : Nat} {dep fade duck : Option Nat} (S : Selected p c infos slots out c' s x o so sel dep fade duck)
    {e : Int × Int} (he : e ∈ out.sets) : ∃ i t, (duck = some i ∨ (duck = none ∧ fade = some i) ∨ dep = some i ∨ sel = i) ∧
      s.instrs[i]? = some t ∧ 0 < t.setId ∧ e.1 = t.setId ∧ (e.2 = 0 ∨ (t.applyDmx = 1 ∧ e.2 = t.dmxIds.headD 0)) := by
  rw [S.sets] at he
  obtain ⟨y, hy, hye⟩ := List.mem_filterMap.mp he
  obtain ⟨i, t, h1, h2, h3, h4, h5⟩ := entry_some hye
  refine ⟨i, t, ?_, h2, h3, h4, h5⟩
  simp only [List.mem_cons, List.not_mem_nil, or_false] at hy
  rcases hy with rfl | rfl | rfl | rfl
  · exact Or.inl h1
  · dsimp only at h1
    split at h1
    · cases h1
    · rename_i hd
      exact Or.inr (Or.inl ⟨by simpa using hd, h1⟩)
  · exact Or.inr (Or.inr (Or.inl h1))
  · cases h1
    exact Or.inr (Or.inr (Or.inr rfl))

/-- At most three sets are active; each is a set of the configuration with a positive identifier, for the base
layout or for its own first downmix. -/
theorem active_sets_partial {p : Request} {c : Config} {infos : List Info} {slots : List Peak} {out : Output} (hc : c.instrCount ≤ c.plus)
    (h : select p c infos slots = .ok out) : out.sets.length ≤ 3 ∧ ∀ e ∈ out.sets, 0 < e.1 ∧
      ∃ k < c.plus, ∃ u, c.instrs[k]? = some u ∧ u.setId = e.1 ∧
        (k + 1 ≠ c.plus → e.2 = 0 ∨ (u.applyDmx = 1 ∧ e.2 = u.dmxIds.headD 0)) := by
  obtain ⟨c', s, x, o, so, sel, dep, fade, duck, S⟩ := select_gives p c infos slots out h
  refine ⟨S.count, fun e he => ?_⟩
  obtain ⟨i, t, hi, ht, hpos, he1, he2⟩ := S.mem he
  obtain ⟨b1, b2, b3, b4⟩ := S.below hc
  obtain ⟨u, hu, hdmx, _, _, _, _, _, happ, _, _, hid⟩ := S.from ht
  refine ⟨by omega, i, ?_, u, hu, by omega, fun hk => ?_⟩
  · rcases hi with h | ⟨_, h⟩ | h | rfl
    · have := b4 i h; omega
    · have := b3 i h; omega
    · exact b2 i h
    · exact b1
  · rw [← happ, ← hdmx hk]
    exact he2

/-- A ducking set for what is requested is active; if there is none, a fading set for what is requested is. -/
theorem ducking_before_fading {p : Request} {c : Config} {infos : List Info} {slots : List Peak} {out : Output}
    (hc : c.instrCount < c.plus) (hpos : ∀ u ∈ c.instrs.take c.instrCount, 0 < u.setId) (h : select p c infos slots = .ok out) :
    ((∃ u ∈ c.instrs.take c.instrCount, IsDuck p u) → ∃ u ∈ c.instrs.take c.instrCount, IsDuck p u ∧ (u.setId, 0) ∈ out.sets) ∧
    ((∀ u ∈ c.instrs.take c.instrCount, ¬ IsDuck p u) → (∃ u ∈ c.instrs.take c.instrCount, IsFade p u) →
      ∃ u ∈ c.instrs.take c.instrCount, IsFade p u ∧ ∃ d, (u.setId, d) ∈ out.sets) := by
  obtain ⟨c', s, x, o, so, sel, dep, fade, duck, S⟩ := select_gives p c infos slots out h
  have hn := noteDmx_gives p c c' S.noted
  have hk := (selectSet_kept p c' infos slots _ S.set).1
  -- the instructions before and after correspond
  have back : ∀ (k : Nat) (t : Instr), (s.instrs.take c'.instrCount)[k]? = some t → ∃ u, (c.instrs.take c.instrCount)[k]? = some u ∧ 0 < t.setId ∧ t.setId = u.setId ∧
      (IsFade p t ↔ IsFade p u) ∧ (IsDuck p t ↔ IsDuck p u) ∧ s.instrs[k]? = some t := by
    intro k t ht
    rw [List.getElem?_take] at ht
    split at ht
    · rename_i hlt
      rw [hn.2.1] at hlt
      obtain ⟨u, hu, hdmx, heff, hkind, hgr, hpr, hcnt, _, _, _, hid⟩ := S.from ht
      have hu' : (c.instrs.take c.instrCount)[k]? = some u := by rw [List.getElem?_take, if_pos hlt]; exact hu
      have hp := hpos u (List.mem_of_getElem? hu')
      have hd := hdmx (by omega)
      refine ⟨u, hu', by omega, by omega, ?_, ?_, ht⟩
      · unfold IsFade ForRequest; rw [hd, heff, hkind, hgr, hpr]
      · unfold IsDuck ForRequest; rw [hd, heff, hkind, hgr, hpr, hcnt]
    · cases ht
  have forth : ∀ u ∈ c.instrs.take c.instrCount, ∃ t ∈ s.instrs.take c'.instrCount, (IsFade p t ↔ IsFade p u) ∧ (IsDuck p t ↔ IsDuck p u) := by
    intro u hu
    obtain ⟨k, hk'⟩ := List.mem_iff_getElem?.mp hu
    have hlt : k < (s.instrs.take c'.instrCount).length := by
      have := (List.getElem?_eq_some_iff.mp hk').1
      rw [List.length_take] at this ⊢
      rw [hn.2.1, hk, hn.2.2.1]
      exact this
    obtain ⟨v, hv, _, _, h1, h2, _⟩ := back k _ (List.getElem?_eq_getElem hlt)
    rw [hk'] at hv
    cases hv
    exact ⟨_, List.getElem_mem hlt, h1, h2⟩
  refine ⟨fun ⟨u, hu, hd⟩ => ?_, fun hno ⟨u, hu, hf⟩ => ?_⟩
  · rcases getDucking_spec p (s.instrs.take c'.instrCount) 0 none with ⟨_, hno⟩ | ⟨k, t, h1, h2, h3⟩
    · obtain ⟨t, ht, _, h2⟩ := forth u hu
      exact absurd (h2.mpr hd) (hno t ht)
    · obtain ⟨v, hv, hp, hid, _, hdv, hat⟩ := back k t h2
      refine ⟨v, List.mem_of_getElem? hv, hdv.mp h3, ?_⟩
      rw [S.sets]
      refine List.mem_filterMap.mpr ⟨(true, duck), by simp, ?_⟩
      rw [← S.ducking, h1]
      rcases h3.1 with hb | hb <;> simp [entry, hat, hid ▸ hp, hid, hb]
  · have hnone : duck = none := by
      rcases getDucking_spec p (s.instrs.take c'.instrCount) 0 none with ⟨h1, _⟩ | ⟨k, t, _, h2, h3⟩
      · rw [S.ducking] at h1; exact h1
      · obtain ⟨v, hv, _, _, _, hdv, _⟩ := back k t h2
        exact absurd (hdv.mp h3) (hno v (List.mem_of_getElem? hv))
    rcases getFading_gives p _ 0 none fade S.fading with ⟨_, hno⟩ | ⟨k, t, h1, h2, h3⟩
    · obtain ⟨t, ht, h1, _⟩ := forth u hu
      exact absurd (h1.mpr hf) (hno t ht)
    · obtain ⟨v, hv, hp, hid, hfv, _, hat⟩ := back k t h2
      refine ⟨v, List.mem_of_getElem? hv, hfv.mp h3, if t.applyDmx = 1 then t.dmxIds.headD 0 else 0, ?_⟩
      rw [S.sets]
      refine List.mem_filterMap.mpr ⟨(false, fade), by simp [hnone], ?_⟩
      rw [h1]
      simp [entry, hat, hid ▸ hp, hid]

/-- With DRC off the active sets are fading and ducking sets, if the sets of the stream have positive
identifiers. -/
theorem drc_off_partial {p : Request} {c : Config} {infos : List Info} {slots : List Peak} {out : Output} (hoff : p.drcOn = false)
    (hm : Moderate p c infos) (hg : ∀ g ∈ p.presets, 0 ≤ g.2) (hc : c.plus = c.instrCount + 2)
    (hpos : ∀ u ∈ c.instrs.take c.instrCount, 0 < u.setId)
    (hdep : ∀ (k : Nat) (u : Instr), c.instrs[k]? = some u → c.instrCount ≤ k → k < c.plus → u.setId < 0 ∧ u.depends = 0)
    (h : select p c infos slots = .ok out) :
    ∀ e ∈ out.sets, ∃ u ∈ c.instrs.take c.instrCount, u.setId = e.1 ∧ (IsFade p u ∨ IsDuck p u) := by
  obtain ⟨c', s, x, o, so, sel, dep, fade, duck, S⟩ := select_gives p c infos slots out h
  have hn := noteDmx_gives p c c' S.noted
  obtain ⟨hpre, hx, _⟩ := selectSet_gives (hm.noted S.noted) hg slots _ S.set
  obtain ⟨w, _, hw, _, hneg, _⟩ := hx.src
  -- the selected candidate stands for no DRC
  have hoid : o.setId ≤ 0 := by
    obtain ⟨w', hw', hrel⟩ := hpre.kept.2 _ o S.instr
    rw [hw] at hw'
    cases hw'
    have := hneg hoff
    rcases hrel with rfl | ⟨_, rfl⟩
    · omega
    · simp
  obtain ⟨hlt, t, ht, hid, _⟩ := firstWith_gives c' s.instrs o.setId sel S.first
  rw [S.selected] at ht
  cases ht
  have hstream : ∀ (k : Nat) (u : Instr), c.instrs[k]? = some u → k < c.instrCount → 0 < u.setId := by
    intro k u hu hk
    exact hpos u (List.mem_of_getElem? (i := k) (by rw [List.getElem?_take, if_pos hk]; exact hu))
  have hnodep : so.depends ≠ 1 := by
    obtain ⟨u, hu, _, _, _, _, _, _, _, hd, _, hid'⟩ := S.from S.selected
    by_cases hk : sel < c.instrCount
    · have := hstream sel u hu hk
      omega
    · have := hdep sel u hu (by omega) (by rw [← hn.1]; exact hlt)
      omega
  have hdnone : dep = none := by
    rcases getDependent_gives c' s.instrs so dep S.dependent with ⟨h, _⟩ | ⟨_, _, h, _⟩
    · exact h
    · exact absurd h hnodep
  intro e he
  obtain ⟨i, t, hi, ht, htpos, he1, _⟩ := S.mem he
  obtain ⟨u, hu, hdmx, heff, hkind, hgr, hpr, hcnt, _, _, _, hid'⟩ := S.from ht
  obtain ⟨_, _, b3, b4⟩ := S.below (by omega)
  rcases hi with h1 | ⟨_, h1⟩ | h1 | rfl
  · have hlt := b4 i h1
    have hd := hdmx (by omega)
    refine ⟨u, List.mem_of_getElem? (i := i) (by rw [List.getElem?_take, if_pos hlt]; exact hu), by omega, Or.inr ?_⟩
    rcases getDucking_spec p (s.instrs.take c'.instrCount) 0 none with ⟨h2, _⟩ | ⟨k, t', h2, h3, h4⟩
    · rw [S.ducking, h1] at h2; cases h2
    · rw [S.ducking, h1] at h2
      have : i = k := by simpa using h2
      subst this
      rw [List.getElem?_take, hn.2.1, if_pos hlt, ht] at h3
      cases h3
      unfold IsDuck ForRequest at h4 ⊢
      rwa [hd, heff, hkind, hgr, hpr, hcnt] at h4
  · have hlt := b3 i h1
    have hd := hdmx (by omega)
    refine ⟨u, List.mem_of_getElem? (i := i) (by rw [List.getElem?_take, if_pos hlt]; exact hu), by omega, Or.inl ?_⟩
    rcases getFading_gives p _ 0 none fade S.fading with ⟨h2, _⟩ | ⟨k, t', h2, h3, h4⟩
    · rw [h1] at h2; cases h2
    · rw [h1] at h2
      have : i = k := by simpa using h2
      subst this
      rw [List.getElem?_take, hn.2.1, if_pos hlt, ht] at h3
      cases h3
      unfold IsFade ForRequest at h4 ⊢
      rwa [hd, heff, hkind, hgr, hpr] at h4
  · rw [hdnone] at h1; cases h1
  · rw [S.selected] at ht
    cases ht
    omega

end Verif.DrcSel
