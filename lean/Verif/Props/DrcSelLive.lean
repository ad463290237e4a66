import Verif.Props.DrcSelFit

/-! # The selection succeeds if there is a set to select -/

namespace Verif

/-- If `r` is a value then `Q` holds of it, and `r` is not an error. -/
def Res.Fair {α : Type} (r : Res α) (Q : α → Prop) : Prop := (∀ e, r ≠ .err e) ∧ r ≠ .jump ∧ Res.Gives r Q

namespace Res

theorem Fair.ok {α : Type} {Q : α → Prop} {a : α} (h : Q a) : Fair (.ok a) Q := ⟨by simp, by simp, Gives.ok h⟩

theorem Fair.ub {α : Type} {Q : α → Prop} : Fair .ub Q := ⟨by simp, by simp, Gives.ub⟩

theorem Fair.bind {α β : Type} {Q : α → Prop} {R : β → Prop} {r : Res α} {f : α → Res β} (h : Fair r Q)
    (hf : ∀ a, Q a → Fair (f a) R) : Fair (r >>= f) R := by
  cases r with
  | ok a => exact hf a (h.2.2 a rfl)
  | jump => exact absurd rfl h.2.1
  | err e => exact absurd rfl (h.1 e)
  | ub => exact Fair.ub

theorem Fair.mono {α : Type} {Q R : α → Prop} {r : Res α} (h : Fair r Q) (hi : ∀ a, Q a → R a) : Fair r R :=
  ⟨h.1, h.2.1, h.2.2.mono hi⟩

theorem Fair.ite {α : Type} {Q : α → Prop} {c : Prop} [Decidable c] {r s : Res α} (h1 : c → Fair r Q)
    (h2 : ¬ c → Fair s Q) : Fair (if c then r else s) Q := by
  by_cases hc : c
  · rw [if_pos hc]; exact h1 hc
  · rw [if_neg hc]; exact h2 hc

theorem Fair.and {α : Type} {Q R : α → Prop} {r : Res α} (h : Fair r Q) (g : Gives r R) : Fair r (fun a => Q a ∧ R a) :=
  ⟨h.1, h.2.1, fun a ha => ⟨h.2.2 a ha, g a ha⟩⟩

end Res

namespace DrcSel

open DrcConfig Res
open DrcLoud hiding errUnexpected

theorem fair_at {α : Type} (xs : List α) (i : Nat) : Fair (at_ xs i) (fun x => xs[i]? = some x) := by
  unfold at_
  cases h : xs[i]? with
  | none => exact Fair.ub
  | some x => exact Fair.ok rfl

theorem fair_push {α : Type} {Q : List α → Prop} {cap : Nat} {xs : List α} {x : α} (h : Q (xs ++ [x])) : Fair (push cap xs x) Q := by
  unfold push
  exact Fair.ite (fun _ => Fair.ok h) fun _ => Fair.ub

theorem fair_put {α : Type} {cap n : Nat} {xs : List α} {x : α} : Fair (put cap xs n x) (fun _ => True) := by
  unfold put
  exact Fair.ite (fun _ => Fair.ok trivial) fun _ => Fair.ite (fun _ => Fair.ok trivial) fun _ => Fair.ub

theorem fair_each {α σ : Type} {f : α → σ → Res σ} {I : σ → Prop} :
    ∀ {xs : List α}, (∀ x ∈ xs, ∀ s, I s → Fair (f x s) I) → ∀ {s : σ}, I s → Fair (each f xs s) I
  | [], _, _, hs => Fair.ok hs
  | x :: xs, h, s, hs => by
    unfold each
    exact Fair.bind (h x (by simp) s hs) fun s' hs' => fair_each (fun y hy => h y (by simp [hy])) hs'

theorem fair_eachSplit {α σ : Type} {f : α → σ → Res σ} {I : List α → σ → Prop} {all : List α} :
    ∀ {xs pre : List α}, all = pre ++ xs →
      (∀ pre x post, all = pre ++ x :: post → ∀ s, I pre s → Fair (f x s) (I (pre ++ [x]))) →
      ∀ {s : σ}, I pre s → Fair (each f xs s) (I all)
  | [], pre, he, _, s, hs => Fair.ok (by simpa [he] using hs)
  | x :: xs, pre, he, h, s, hs => by
    unfold each
    exact Fair.bind (h pre x xs he s hs) fun s' hs' =>
      fair_eachSplit (f := f) (I := I) (pre := pre ++ [x]) (by simpa using he) h hs'

theorem fair_eachAll {α σ : Type} {f : α → σ → Res σ} {I : List α → σ → Prop} {xs : List α}
    (h : ∀ pre x post, xs = pre ++ x :: post → ∀ s, I pre s → Fair (f x s) (I (pre ++ [x]))) {s : σ} (hs : I [] s) :
    Fair (each f xs s) (I xs) :=
  fair_eachSplit (pre := []) (by simp) h hs

/-! ## Peak levels -/

theorem peakLevels_fair (instrs : List Instr) (infos : List Info) (o : Instr) (dmx : Int) (slots : List Peak) :
    Fair (peakLevels instrs infos o dmx slots) (fun _ => True) := by
  have note : ∀ (l : Info) (level : Rat) (explicit : Int) (s : Peaks), Fair (notePeak o l level explicit s) (fun _ => True) := by
    intro l level explicit s
    unfold notePeak
    refine Fair.bind (Q := fun _ => True) (Fair.ite (fun _ => Fair.ok trivial) fun _ => Fair.ub) fun _ _ => ?_
    exact Fair.ite (fun _ => Fair.ok trivial) fun _ => Fair.ok trivial
  have info : ∀ (which : Info → Bool) (explicit : Int) (s : Peaks), Fair (each (infoPeak o which explicit) infos s) (fun _ => True) := by
    intro which explicit s
    refine fair_each (fun l _ s _ => ?_) trivial
    unfold infoPeak
    refine Fair.ite (fun _ => ?_) fun _ => Fair.ok trivial
    refine Fair.bind (Fair.ite (fun _ => note _ _ _ _) fun _ => Fair.ok trivial) fun s _ => ?_
    exact Fair.ite (fun _ => note _ _ _ _) fun _ => Fair.ok trivial
  have limit : ∀ (eq : Int) (level : Rat) (explicit : Int) (s : Peaks), Fair (limitPeak eq level explicit s) (fun _ => True) := by
    intro eq level explicit s
    unfold limitPeak
    exact Fair.ite (fun _ => Fair.ok trivial) fun _ => Fair.ub
  have unl : ∀ (f : Peaks → Res Peaks) (s : Peaks), (∀ s, Fair (f s) (fun _ => True)) → Fair (unlessFound f s) (fun _ => True) := by
    intro f s hf
    unfold unlessFound
    exact Fair.ite (fun _ => Fair.ok trivial) fun _ => hf s
  unfold peakLevels
  refine Fair.bind (info _ _ _) fun s _ => ?_
  refine Fair.bind (unl _ s fun s => info _ _ _) fun s _ => ?_
  refine Fair.bind (unl _ s fun s => fair_each (fun d _ s _ => Fair.ite (fun _ => limit _ _ _ _) fun _ => Fair.ok trivial) trivial) fun s _ => ?_
  refine Fair.bind (unl _ s fun s => fair_each (fun d _ s _ => Fair.ite (fun _ => limit _ _ _ _) fun _ => Fair.ok trivial) trivial) fun s _ => ?_
  refine Fair.bind (Q := fun _ => True) ?_ fun s _ => Fair.ok trivial
  refine Fair.ite (fun _ => Fair.ok trivial) fun _ => ?_
  refine Fair.bind (unl _ s fun s => info _ _ _) fun s _ => ?_
  refine Fair.bind (unl _ s fun s => info _ _ _) fun s _ => ?_
  exact unl _ s fun s => fair_each (fun d _ s _ => Fair.ite (fun _ => limit _ _ _ _) fun _ => Fair.ok trivial) trivial

/-! ## Pre-selection -/

/-- The sets of the configuration are for each downmix at most once, all that they depend on is there and depends on
no other, and fading is for any downmix. -/
structure Whole (c : Config) : Prop where
  target : ∀ o ∈ c.instrs, o.targetPresent ≤ 1
  ids : ∀ o ∈ c.instrs, (o.dmxIds.take o.dmxCount).Nodup
  other : ∀ o ∈ c.instrs, 0 < o.dependsOn → ∃ t ∈ c.instrs.take c.instrCount, t.setId = o.dependsOn
  level : ∀ o ∈ c.instrs, o.depends = 1 → 0 < o.dependsOn ∧ ∀ t ∈ c.instrs, t.setId = o.dependsOn → t.depends ≠ 1
  fade : ∀ o ∈ c.instrs.take c.instrCount, o.effect.testBit 9 = true → o.dmxIds.headD 0 = 127

theorem fewBands_fair (sets : List GainSet) (n : Nat) (gs : List Int) : Fair (fewBands sets n gs) (fun b => FewBands sets n gs → b = true) := by
  unfold fewBands
  refine (fair_eachAll (I := fun pre b => (∀ j ∈ pre, j < n) → FewBands sets n gs → b = true) (fun pre j post he b hb => ?_) (by simp)).mono
    fun b hb => hb fun j hj => List.mem_range.mp hj
  refine Fair.bind (fair_at _ _) fun g hg => ?_
  refine Fair.ite (fun _ => Fair.ub) fun hpos => ?_
  refine Fair.bind (fair_at _ _) fun s hs => Fair.ok fun hlt h => ?_
  obtain ⟨g', hg', s', hs', hb'⟩ := h j (hlt j (by simp))
  rw [hg] at hg'
  have : g = (g' : Int) := by simpa using hg'
  subst this
  rw [Int.toNat_natCast, hs'] at hs
  cases hs
  simp only [Bool.and_eq_true, decide_eq_true_eq]
  exact ⟨hb (fun j hj => hlt j (by simp [hj])) h, hb'⟩

theorem Kept.find {c : Config} {is : List Instr} (hk : Kept c is) {id n : Nat} (hpos : 0 < id) (h : ∃ t ∈ c.instrs.take n, t.setId = (id : Int)) :
    ∃ t ∈ is.take n, t.setId = (id : Int) := by
  obtain ⟨t, ht, hid⟩ := h
  obtain ⟨i, hi⟩ := List.mem_iff_getElem?.mp ht
  rw [List.getElem?_take] at hi
  split at hi
  · rename_i hlt
    have hlen := (List.getElem?_eq_some_iff.mp hi).1
    obtain ⟨u, hu, hrel⟩ := hk.2 i _ (List.getElem?_eq_getElem (by rw [hk.1]; exact hlen))
    rw [hi] at hu
    cases hu
    refine ⟨_, List.mem_of_getElem? (i := i) (by rw [List.getElem?_take, if_pos hlt]; exact List.getElem?_eq_getElem (by rw [hk.1]; exact hlen)), ?_⟩
    rcases hrel with e | ⟨hneg, _⟩
    · rw [e]; exact hid
    · omega
  · cases hi

theorem permitted_fair {c : Config} {is : List Instr} (hk : Kept c is) (cf : Option Coeffs) (o : Instr)
    (ho : 0 < o.dependsOn → ∃ t ∈ c.instrs.take c.instrCount, t.setId = o.dependsOn) :
    Fair (permitted c cf is o) (fun b => o.dependsOn = 0 → (∀ x, cf = some x → FewBands x.sets o.groups o.groupSet) → b = true) := by
  unfold permitted
  refine Fair.bind (Q := fun a => o.dependsOn = 0 → a = true) ?_ fun a ha => ?_
  · refine Fair.ite (fun hpos => ?_) fun h => Fair.ok fun _ => rfl
    cases hf : (is.take c.instrCount).find? (fun t => (o.dependsOn : Int) == t.setId) with
    | none =>
      obtain ⟨t, ht, hid⟩ := hk.find hpos (ho hpos)
      have := List.find?_eq_none.mp hf t ht
      simp [hid] at this
    | some t =>
      dsimp only
      cases cf with
      | none => exact Fair.ok fun h => by omega
      | some y => exact (fewBands_fair _ _ _).mono fun b _ h => by omega
  · refine Fair.bind (Q := fun b => (∀ x, cf = some x → FewBands x.sets o.groups o.groupSet) → b = true) ?_ fun b hb => Fair.ok fun h1 h2 => ?_
    · cases cf with
      | none => exact Fair.ok fun _ => rfl
      | some y => exact (fewBands_fair _ _ _).mono fun b hb h => hb (h y rfl)
    · rw [ha h1, hb h2]; rfl

/-- There is a set that can be selected: for the downmix, independent and without a range of target loudness. -/
def Offered (p : Request) (c : Config) (k : Nat) : Prop :=
  ∃ u, c.instrs[k]? = some u ∧ ForDownmix p u ∧ Fits p c u ∧ u.dependsOn = 0 ∧ u.targetPresent = 0 ∧ 0 < u.setId

theorem forDmx_of {p : Request} {o : Instr} (h : ForDownmix p o) : forDmx o p.dmx = true := by
  obtain ⟨d, hd, h⟩ := h
  unfold forDmx
  refine List.any_eq_true.mpr ⟨d, hd, ?_⟩
  simp only [Bool.or_eq_true, Bool.and_eq_true, beq_iff_eq, decide_eq_true_eq, anyDmx]
  tauto

theorem preStep_fair {p : Request} (hon : p.drcOn = true) (hoff : p.normOn = false) {c : Config} {infos : List Info} (hw : Whole c) {i k : Nat} {s : Pre}
    (hk : Kept c s.instrs) (hs : s.cands.length ≤ i) (hi : i < 15) (ho : Offered p c k) :
    Fair (preStep p c infos i s) (fun t => t.cands.length ≤ i + 1 ∧ (s.cands ≠ [] ∨ i = k → t.cands ≠ [])) := by
  obtain ⟨w, hwk, hwd, hwf, hw0, hwt, hwp⟩ := ho
  unfold preStep
  refine Fair.bind (fair_at _ _) fun o ho => ?_
  obtain ⟨u, hu, hou⟩ := hk.2 i o ho
  have keep : (i = k → o = w) := by
    intro e
    subst e
    rw [hwk] at hu
    cases hu
    rcases hou with e | ⟨h, _⟩
    · exact e
    · omega
  have same : i ≠ k → s.cands.length ≤ i + 1 ∧ (s.cands ≠ [] ∨ i = k → s.cands ≠ []) :=
    fun hne => ⟨by omega, fun h => h.elim id fun h => absurd h hne⟩
  refine Fair.ite (fun h => Fair.ok (same fun e => ?_)) fun hdmx => ?_
  · rw [keep e, forDmx_of hwd] at h; simp at h
  rw [hon, if_neg (by simp)]
  refine Fair.ite (fun helig => ?_) fun h => Fair.ok (same fun e => ?_)
  swap
  · rw [keep e] at h
    exact h (eligible_iff.mpr ⟨hwf.effect, hwf.alone.symm, hwf.special⟩)
  have hdo : o.dependsOn = u.dependsOn := by rcases hou with e | ⟨_, e⟩ <;> rw [e]
  refine Fair.bind (permitted_fair hk _ o (by rw [hdo]; exact hw.other u (List.mem_of_getElem? hu))) fun b hb => ?_
  refine Fair.ite (fun hbt => ?_) fun h => Fair.ok (same fun e => ?_)
  swap
  · refine h (hb ?_ ?_)
    · rw [keep e]; exact hw0
    · rw [keep e]; exact hwf.bands
  have hlc : loudnessControl p infos o = .ok (o, [(0, undefinedLoudness)]) := by
    unfold loudnessControl
    rw [hoff, if_neg (by simp)]
  rw [hlc]
  refine Fair.bind (Fair.ok (Q := fun r => r = (o, [((0 : Rat), undefinedLoudness)])) rfl) fun r hr => ?_
  subst hr
  refine Fair.bind (peakLevels_fair _ _ _ _ _) fun q _ => ?_
  refine Fair.bind (Q := fun t => t.1.length ≤ i + 1 ∧ (s.cands ≠ [] ∨ i = k → t.1 ≠ [])) ?_ fun t ht => Fair.ok ht
  unfold each each
  refine Fair.bind ?_ fun t ht => Fair.ok ht
  unfold onCand
  rw [if_neg (by unfold candMax; dsimp only; omega)]
  dsimp only
  refine Fair.bind (fair_at _ _) fun pk _ => ?_
  refine Fair.ite (fun _ => Fair.ok ⟨by simp; omega, by simp⟩) fun h => Fair.ok ⟨by dsimp only; omega, fun hor => ?_⟩
  rcases hor with hor | e
  · exact hor
  · exact absurd (Or.inr (Or.inr (by rw [keep e]; exact hwt))) h

theorem withinLimit_fair (p : Request) (instrs : List Instr) {cands : List Cand} (hne : cands ≠ []) :
    Fair (withinLimit p instrs cands) (fun n => 1 ≤ n) := by
  unfold withinLimit
  refine Fair.bind (fair_each (I := fun s : List Cand × Rat => s.1 = [] → 0 < s.2) (fun x _ s hs => ?_) (by simp)) fun s hs => ?_
  · unfold limitStep
    refine Fair.ite (fun _ => ?_) fun _ => ?_
    · exact Fair.bind (fair_push (Q := fun ys => ys ≠ []) (by simp)) fun ys hys => Fair.ok fun h => absurd h hys
    · refine Fair.bind (Q := fun ys => ys = [] → s.1 = [] ∧ 0 < x.peak) ?_ fun ys hys => ?_
      · refine Fair.ite (fun _ => fair_push (by simp)) fun h => Fair.ok fun h' => ⟨h', ?_⟩
        exact not_le.mp h
      · refine Fair.ite (fun _ => ?_) fun _ => Fair.ok fun h => hs (hys h).1
        refine Fair.bind (fair_at _ _) fun o _ => Fair.ok fun h => ?_
        dsimp only
        split
        · exact (hys h).2
        · exact hs (hys h).1
  · have hpos := List.length_pos_of_ne_nil hne
    refine Fair.ite (fun h => Fair.ok (by omega)) fun h => ?_
    dsimp only
    refine Fair.ite (fun h => Fair.ok (by omega)) fun _ => Fair.ok ?_
    rw [if_pos]
    · exact hpos
    · have := hs (List.length_eq_zero_iff.mp (by omega))
      linarith

theorem Kept.kind {c : Config} {is : List Instr} (hk : Kept c is) (hw : ∀ o ∈ c.instrs, o.kind = 0) : ∀ o ∈ is, o.kind = 0 :=
  hk.all (P := fun t => t.kind = 0) hw fun _ h => h

theorem preSelect_fair {p : Request} (hon : p.drcOn = true) (hoff : p.normOn = false) {c : Config} {infos : List Info} {slots : List Peak}
    (hw : Whole c) (hkinds : ∀ o ∈ c.instrs, o.kind = 0) {k : Nat} (hplus : c.plus ≤ 15) (hkp : k < c.plus) (ho : Offered p c k) :
    Fair (preSelect p c infos slots) (fun s => Kept c s.instrs ∧ s.cands ≠ []) := by
  unfold preSelect
  refine Fair.bind (fair_eachAll (I := fun pre (s : Pre) => Kept c s.instrs ∧ s.cands.length ≤ pre.length ∧ (k ∈ pre → s.cands ≠ []))
    (fun pre i post he s hs => ?_) ⟨Kept.refl c, by simp, by simp⟩) fun s hs => ?_
  · have hi : pre.length = i ∧ i < c.plus := by
      have := range_take (List.replicate c.plus ()) pre i post (by simpa using he)
      simpa using this
    refine ((preStep_fair hon hoff hw hs.1 (by omega) (by omega) ho).and (preStep_kept p c infos i hs.1)).mono fun t ht => ⟨ht.2, by simp; omega, fun h => ?_⟩
    rcases List.mem_append.mp h with h | h
    · exact ht.1.2 (Or.inl (hs.2.2 h))
    · exact ht.1.2 (Or.inr (List.mem_singleton.mp h).symm)
  · rw [if_pos hon]
    have hne := hs.2.2 (List.mem_range.mpr hkp)
    have hkind := hs.1.kind hkinds
    refine Fair.bind (withinLimit_fair p s.instrs hne) fun n hn => ?_
    refine Fair.bind (fair_eachAll (I := fun pre (r : List Cand × Bool) => r.1.length = pre.length ∧ r.2 = false) (fun pre j post _ r hr => ?_) ⟨rfl, rfl⟩) fun r hr => ?_
    · unfold presetStep
      refine Fair.bind (fair_at _ _) fun x _ => Fair.bind (fair_at _ _) fun o hox => ?_
      have h0 := hkind o (List.mem_of_getElem? hox)
      rw [if_neg (by omega), if_pos (Or.inl h0)]
      exact Fair.bind (fair_push (Q := fun ys => ys = r.1 ++ [x]) rfl) fun ys hys => Fair.ok ⟨by rw [hys]; simp [hr.1], hr.2⟩
    · rw [List.length_range] at hr
      obtain ⟨xs, flag⟩ := r
      obtain ⟨hlen, hflag⟩ := hr
      dsimp only at hlen hflag ⊢
      rw [hflag]
      refine Fair.bind (Q := fun ys => ys ≠ []) ?_ fun ys hys => Fair.ok ⟨hs.1, hys⟩
      rw [if_neg (by simp), hlen]
      refine (fair_eachAll (I := fun pre (xs : List Cand) => pre ≠ [] → xs ≠ []) (fun pre j post _ xs _ => ?_) (by simp)).mono fun ys hys => hys ?_
      · unfold groupStep
        refine Fair.bind (fair_at _ _) fun x _ => Fair.bind (fair_at _ _) fun o hox => ?_
        rw [if_pos (hkind o (List.mem_of_getElem? hox))]
        exact fair_push (by simp)
      · intro e
        have := congrArg List.length e
        simp at this
        omega

/-! ## Effects and final selection -/

theorem Kept.mem {c : Config} {is : List Instr} (hk : Kept c is) {o : Instr} (ho : o ∈ is) :
    ∃ u ∈ c.instrs, o = u ∨ (u.setId < 0 ∧ o = { u with setId := 0 }) := by
  obtain ⟨i, hi⟩ := List.mem_iff_getElem?.mp ho
  obtain ⟨u, hu, h⟩ := hk.2 i o hi
  exact ⟨u, List.mem_of_getElem? hu, h⟩

theorem dependent_fair {c : Config} (hw : Whole c) {is : List Instr} (hk : Kept c is) {o : Instr} (ho : o ∈ is) (hd : o.depends = 1) :
    Fair (dependent c is o) (fun _ => True) := by
  obtain ⟨u, hu, hrel⟩ := hk.mem ho
  have hdep : u.depends = 1 ∧ u.dependsOn = o.dependsOn := by rcases hrel with e | ⟨_, e⟩ <;> subst e <;> exact ⟨hd, rfl⟩
  obtain ⟨hpos, hlev⟩ := hw.level u hu hdep.1
  rw [hdep.2] at hpos hlev
  unfold dependent
  cases hf : (is.take c.instrCount).find? (fun t => t.setId == (o.dependsOn : Int)) with
  | none =>
    obtain ⟨t, ht, hid⟩ := hk.find hpos (by rw [← hdep.2]; exact hw.other u hu (by omega))
    have := List.find?_eq_none.mp hf t ht
    simp [hid] at this
  | some t =>
    dsimp only
    have hid : t.setId = (o.dependsOn : Int) := by simpa using List.find?_some hf
    obtain ⟨v, hv, hvt⟩ := hk.mem (List.mem_of_mem_take (List.mem_of_find?_eq_some hf))
    rcases hvt with e | ⟨_, e⟩
    · subst e
      rw [if_neg (hlev t hv hid)]
      exact Fair.ok trivial
    · rw [e] at hid
      dsimp only at hid
      omega

theorem attempt_fair {c : Config} (hw : Whole c) {is : List Instr} (hk : Kept c is) {e : Nat} (he : e ≤ 8) (cands : List Cand) :
    Fair (attempt c is e cands) (fun _ => True) := by
  unfold attempt
  rw [if_neg (by omega)]
  refine Fair.bind (Q := fun _ => True) ?_ fun xs _ => Fair.ok trivial
  refine Fair.ite (fun _ => ?_) fun _ => ?_
  · unfold withoutEffects
    refine fair_each (fun x _ xs _ => ?_) trivial
    exact Fair.bind (fair_at _ _) fun o _ => Fair.ite (fun _ => Fair.ok trivial) fun _ => fair_push trivial
  · unfold withEffect
    refine fair_each (fun x _ xs _ => ?_) trivial
    refine Fair.bind (fair_at _ _) fun o ho => ?_
    refine Fair.ite (fun _ => Fair.ite (fun _ => fair_push trivial) fun _ => Fair.ok trivial) fun hd => ?_
    refine Fair.bind (dependent_fair hw hk (List.mem_of_getElem? ho) (not_not.mp hd)) fun t _ => ?_
    exact Fair.ite (fun _ => fair_push trivial) fun _ => Fair.ok trivial

theorem matchEffects_fair {c : Config} (hw : Whole c) {is : List Instr} (hk : Kept c is) {p : Request} (he : ∀ e ∈ p.effects, e ≤ 8) (cands : List Cand) :
    Fair (matchEffects c is p cands) (fun _ => True) := by
  have first : ∀ (es : List Nat) (s : List Cand × Bool × Bool), (∀ e ∈ es, e ≤ 8) → Fair (desiredLoop c is es s) (fun _ => True) := by
    intro es
    induction es with
    | nil => exact fun s _ => Fair.ok trivial
    | cons e es ih =>
      intro s he
      unfold desiredLoop
      exact Fair.bind (attempt_fair hw hk (he e (by simp)) _) fun r _ => ih _ fun e h => he e (by simp [h])
  have second : ∀ (es : List Nat) (s : List Cand × Bool), (∀ e ∈ es, e ≤ 8) → Fair (otherLoop c is es s) (fun _ => True) := by
    intro es
    induction es with
    | nil => exact fun s _ => Fair.ok trivial
    | cons e es ih =>
      intro s he
      unfold otherLoop
      refine Fair.ite (fun _ => Fair.ok trivial) fun _ => ?_
      exact Fair.bind (attempt_fair hw hk (he e (by simp)) _) fun r _ => ih _ fun e h => he e (by simp [h])
  unfold matchEffects
  refine Fair.bind (first _ _ fun e h => he e (List.mem_of_mem_take h)) fun r _ => ?_
  exact Fair.ite (fun _ => Fair.ok trivial) fun _ => second _ _ fun e h => he e (List.mem_of_mem_drop h)

theorem looked_fair (instrs : List Instr) : ∀ cands : List Cand, Fair (looked instrs cands) (fun _ => True)
  | [] => Fair.ok trivial
  | x :: xs => by
    unfold looked
    exact Fair.bind (fair_at _ _) fun o _ => Fair.bind (looked_fair instrs xs) fun r _ => Fair.ok trivial

theorem dmx_fair (dmx : Int) {i : Nat} (hi : i < 32) : ∀ (ds : List Int) (s : List (Cand × Instr) × Nat), ds.Nodup → s.2 ≤ i →
    Fair (each (fun d (s : List (Cand × Instr) × Nat) => if dmx = d then
        if candMax ≤ s.2 then .err errUnexpected
        else do
          let x ← at_ s.1 i
          let arr ← put candMax s.1 s.2 x
          .ok (arr, s.2 + 1)
      else .ok s) ds s) (fun _ => True)
  | [], s, _, _ => Fair.ok trivial
  | d :: ds, s, hn, hs => by
    unfold each
    have hn' := List.nodup_cons.mp hn
    by_cases hd : dmx = d
    · rw [if_pos hd, if_neg (by unfold candMax; omega)]
      refine Fair.bind (Q := fun _ => True) (Fair.bind (fair_at _ _) fun x _ => Fair.bind fair_put fun arr _ => Fair.ok trivial) fun t _ => ?_
      refine fair_each (I := fun _ => True) (fun e he t _ => ?_) trivial
      rw [if_neg (by rintro rfl; exact hn'.1 (hd ▸ he))]
      exact Fair.ok trivial
    · rw [if_neg hd]
      refine Fair.bind (Fair.ok (Q := fun t => t = s) rfl) fun t ht => ?_
      subst ht
      exact dmx_fair dmx hi ds t hn'.2 hs

theorem byDmx_fair {dmx : Int} {xs : List (Cand × Instr)} (hl : xs.length ≤ 32) (hn : ∀ x ∈ xs, (x.2.dmxIds.take x.2.dmxCount).Nodup) :
    Fair (byDmx dmx xs) (fun _ => True) := by
  unfold byDmx
  refine Fair.bind (fair_eachAll (I := fun pre (s : List (Cand × Instr) × Nat) => s.2 ≤ pre.length ∧ (∀ j, pre.length ≤ j → s.1[j]? = xs[j]?))
    (fun pre i post he s hs => ?_) ⟨by simp, fun _ _ => rfl⟩) fun s _ => Fair.ok trivial
  obtain ⟨h1, h3⟩ := hs
  obtain ⟨e, hi⟩ := range_take xs pre i post he
  subst e
  unfold dmxStep
  refine Fair.bind (fair_at _ _) fun x hx => ?_
  have hx' : xs[pre.length]? = some x := by rw [← h3 _ (Nat.le_refl _)]; exact hx
  have hnx := hn x (List.mem_of_getElem? hx')
  refine ((dmx_fair dmx (i := pre.length) (by omega) _ s hnx h1).and (dmx_loop dmx _ x _ s hnx hx h1)).mono fun t ht => ?_
  have ht := ht.2
  subst ht
  split
  · refine ⟨by simp; omega, fun j hj => ?_⟩
    simp only [List.length_append, List.length_singleton] at hj
    dsimp only
    rw [List.getElem?_set_ne (by omega)]
    exact h3 j (by omega)
  · refine ⟨by simp; omega, fun j hj => h3 j ?_⟩
    simp only [List.length_append, List.length_singleton] at hj
    omega

theorem byGroup_plain (p : Request) {xs : List (Cand × Instr)} (h : ∀ x ∈ xs, x.2.kind = 0) : byGroup p xs = xs := by
  have h3 : xs.filter (·.2.kind == 3) = [] := List.filter_eq_nil_iff.mpr fun x hx => by simp [h x hx]
  have h2 : xs.filter (·.2.kind == 2) = [] := List.filter_eq_nil_iff.mpr fun x hx => by simp [h x hx]
  simp [byGroup, h3, h2]

theorem finalSelect_fair {c : Config} (hw : Whole c) (hkinds : ∀ o ∈ c.instrs, o.kind = 0) {is : List Instr} (hk : Kept c is) {p : Request} {cands : List Cand}
    (hl : cands.length ≤ 32) (ht : ∀ x ∈ cands, x.target = true → ∀ o, is[x.instr]? = some o → o.targetPresent = 1) :
    Fair (finalSelect p c is cands) (fun _ => True) := by
  unfold finalSelect
  refine Fair.bind ((looked_fair is cands).and (looked_gives is cands)) fun all ⟨_, hmap, hall⟩ => ?_
  have hall' : ∀ x ∈ all, (x.2.kind = 0 ∧ (x.2.dmxIds.take x.2.dmxCount).Nodup) ∧ x.2 ∈ is ∧ (x.1.target = true → x.2.targetPresent = 1) := by
    intro x hx
    have hm := List.mem_of_getElem? (hall x hx)
    refine ⟨?_, hm, fun h => ht x.1 (by rw [← hmap]; exact List.mem_map_of_mem hx) h _ (hall x hx)⟩
    exact hk.all (P := fun t => t.kind = 0 ∧ (t.dmxIds.take t.dmxCount).Nodup) (fun u hu => ⟨hkinds u hu, hw.ids u hu⟩) (fun _ h => h) _ hm
  have hlen : all.length ≤ 32 := by rw [← hmap] at hl; simpa using hl
  dsimp only
  refine Fair.bind (Q := fun _ => True) ?_ fun ys _ => ?_
  · refine Fair.ite (fun _ => ?_) fun _ => Fair.ok trivial
    have hf : ∀ x ∈ all.filter (·.1.peak ≤ 0), x ∈ all := fun x hx => (List.mem_filter.mp hx).1
    rw [byGroup_plain p fun x hx => (hall' x (hf x hx)).1.1]
    have hn : ∀ x ∈ all.filter (·.1.peak ≤ 0), (x.2.dmxIds.take x.2.dmxCount).Nodup := fun x hx => (hall' x (hf x hx)).1.2
    refine Fair.bind ((byDmx_fair (Nat.le_trans (List.length_filter_le _ _) hlen) hn).and (byDmx_eq hn)) fun ys ⟨_, hys⟩ => ?_
    have hys' : ∀ x ∈ ys, x.2 ∈ is ∧ (x.1.target = true → x.2.targetPresent = 1) := by
      intro x hx
      refine (hall' x (hf x ?_)).2
      rw [hys] at hx
      unfold prefer at hx
      split at hx
      · exact hx
      · exact (List.mem_filter.mp hx).1
    refine Fair.bind (fair_each (I := fun s : List (Cand × Instr) × Nat => ∀ x ∈ s.1, x.1.target = true → x.2.targetPresent = 1)
      (fun x hx s hs => ?_) (by simp)) fun s hs => ?_
    · unfold fewestStep
      refine Fair.bind (Q := fun _ => True) ?_ fun n _ => Fair.ok ?_
      · unfold effectCount
        refine Fair.ite (fun _ => Fair.ok trivial) fun hd => ?_
        refine Fair.ite (fun _ => ?_) fun _ => Fair.ok trivial
        exact Fair.bind (dependent_fair hw hk (hys' x hx).1 (not_not.mp hd)) fun t _ => Fair.ok trivial
      · split
        · dsimp only
          split
          · intro y hy
            rw [List.mem_singleton.mp hy]
            exact (hys' x hx).2
          · exact snoc_all hs (hys' x hx).2
        · exact hs
    · obtain ⟨zs, n⟩ := s
      dsimp only at hs ⊢
      refine Fair.bind (Q := fun _ => True) ?_ fun _ _ => Fair.ok trivial
      unfold byTarget
      dsimp only
      refine Fair.ite (fun _ => Fair.ok trivial) fun _ => Fair.ite (fun hc => ?_) fun _ => Fair.ok trivial
      refine Fair.bind (Q := fun _ => True) (fair_each (fun x hx s _ => ?_) trivial) fun s _ => Fair.ok trivial
      have htar : x.1.target = true := List.countP_eq_length.mp hc x hx
      rw [if_neg (by rw [hs x hx htar]; decide)]
      exact Fair.ok trivial
  · cases (ys.foldl (fun s x => lastStep x s) (none, (-1000 : Int))).1 with
    | none => exact Fair.ok trivial
    | some x => exact Fair.ok trivial

/-! ## Selection -/

theorem firstWith_fair {c : Config} {is : List Instr} {id : Int} (h : ∃ t ∈ is.take c.plus, t.setId = id) : Fair (firstWith c is id) (fun _ => True) := by
  unfold firstWith
  dsimp only
  refine Fair.ite (fun _ => Fair.ok trivial) fun hn => absurd (List.findIdx_lt_length.mpr ?_) hn
  obtain ⟨t, ht, hid⟩ := h
  exact ⟨t, ht, by simp [hid]⟩

theorem getFading_fair (p : Request) : ∀ (os : List Instr) (n : Nat) (r : Option Nat), (∀ o ∈ os, o.effect.testBit 9 = true → o.dmxIds.headD 0 = 127) →
    Fair (getFading p os n r) (fun _ => True)
  | [], _, _, _ => Fair.ok trivial
  | o :: os, n, r, h => by
    unfold getFading
    refine Fair.ite (fun hb => ?_) fun _ => getFading_fair p os _ _ fun o ho => h o (by simp [ho])
    rw [if_pos (by unfold anyDmx; exact h o (by simp) hb)]
    exact getFading_fair p os _ _ fun o ho => h o (by simp [ho])

theorem activeStep_fair (is : List Instr) (x : Bool × Option Nat) (s : List (Int × Int)) : Fair (activeStep is x s) (fun _ => True) := by
  unfold activeStep
  cases x.2 with
  | none => exact Fair.ok trivial
  | some i => exact Fair.bind (fair_at _ _) fun o _ => Fair.ite (fun _ => fair_push trivial) fun _ => Fair.ok trivial

/-- A configuration stays whole when the requested downmix is noted. -/
theorem Whole.noted {p : Request} {c c' : Config} (hc : noteDmx p c = .ok c') (hw : Whole c) (hcnt : c.instrCount < c.plus)
    (hlast : ∀ o, c.instrs[c.plus - 1]? = some o → o.dmxCount ≤ 1) :
    Whole c' ∧ ((∀ o ∈ c.instrs, o.kind = 0) → ∀ o ∈ c'.instrs, o.kind = 0) ∧ ∀ i < c.instrCount, c'.instrs[i]? = c.instrs[i]? := by
  obtain ⟨hp, hic, hlen, hpos, hrel⟩ := noteDmx_gives p c c' hc
  have hsame : ∀ i, i + 1 ≠ c.plus → c'.instrs[i]? = c.instrs[i]? := by
    intro i hi
    cases h : c'.instrs[i]? with
    | none =>
      rw [List.getElem?_eq_none_iff, hlen] at h
      exact (List.getElem?_eq_none_iff.mpr h).symm
    | some o =>
      obtain ⟨o0, h0, h1⟩ := hrel i o h
      rcases h1 with ⟨_, rfl⟩ | ⟨h1, _⟩
      · exact h0.symm
      · exact absurd h1 hi
  have htake : c'.instrs.take c'.instrCount = c.instrs.take c.instrCount := by
    rw [hic]
    refine List.ext_getElem? fun i => ?_
    rw [List.getElem?_take, List.getElem?_take]
    split
    · exact hsame i (by omega)
    · rfl
  have old : ∀ o ∈ c'.instrs, ∃ u ∈ c.instrs, ∃ ids, o = { u with dmxIds := ids } ∧ (ids = u.dmxIds ∨ u.dmxCount ≤ 1) := by
    intro o ho
    obtain ⟨i, hi⟩ := List.mem_iff_getElem?.mp ho
    obtain ⟨u, hu, h⟩ := hrel i o hi
    rcases h with ⟨_, rfl⟩ | ⟨e, ids, rfl⟩
    · exact ⟨o, List.mem_of_getElem? hu, o.dmxIds, rfl, Or.inl rfl⟩
    · refine ⟨u, List.mem_of_getElem? hu, ids, rfl, Or.inr (hlast u ?_)⟩
      rw [← e]
      exact hu
  refine ⟨⟨fun o ho => ?_, fun o ho => ?_, fun o ho hd => ?_, fun o ho hd => ?_, fun o ho => ?_⟩, fun hkinds o ho => ?_, fun i hi => hsame i (by omega)⟩
  · obtain ⟨u, hu, ids, rfl, _⟩ := old o ho
    exact hw.target u hu
  · obtain ⟨u, hu, ids, rfl, h⟩ := old o ho
    rcases h with rfl | h
    · exact hw.ids u hu
    · have hl : (List.take u.dmxCount ids).length ≤ 1 := by rw [List.length_take]; omega
      dsimp only
      match hx : List.take u.dmxCount ids, hl with
      | [], _ => exact List.nodup_nil
      | [d], _ => simp
  · obtain ⟨u, hu, ids, rfl, _⟩ := old o ho
    rw [htake]
    exact hw.other u hu hd
  · obtain ⟨u, hu, ids, rfl, _⟩ := old o ho
    refine ⟨(hw.level u hu hd).1, fun t ht hid => ?_⟩
    obtain ⟨v, hv, ids', rfl, _⟩ := old t ht
    exact (hw.level u hu hd).2 v hv hid
  · rw [htake] at ho
    exact hw.fade o ho
  · obtain ⟨u, hu, ids, rfl, _⟩ := old o ho
    exact hkinds u hu

theorem noteDmx_ids {p : Request} {c : Config} (h : ∀ o ∈ c.instrs, o.dmxIds.length ≤ 15) :
    Gives (noteDmx p c) (fun c' => ∀ o ∈ c'.instrs, o.dmxIds.length ≤ 15) := by
  unfold noteDmx
  refine Gives.ite (fun _ => Gives.ub) fun _ => ?_
  refine Gives.bind (gives_at _ _) fun o ho => Gives.ok fun t ht => ?_
  dsimp only at ht
  rcases List.mem_or_eq_of_mem_set ht with ht | rfl
  · exact h t ht
  · simpa using h o (List.mem_of_getElem? ho)

theorem Offered.noted {p : Request} {c c' : Config} (hc : noteDmx p c = .ok c') {k : Nat} (hk : c'.instrs[k]? = c.instrs[k]?) (h : Offered p c k) :
    Offered p c' k := by
  obtain ⟨u, hu, hd, hf, h0, ht, hp⟩ := h
  have hco := noteDmx_coeffs p c c' hc
  refine ⟨u, by rw [hk]; exact hu, hd, ⟨hf.effect, hf.special, hf.alone, by rw [hco.1, hco.2]; exact hf.bands, fun h => ?_⟩, h0, ht, hp⟩
  omega

theorem selectSet_fair {p : Request} (hon : p.drcOn = true) (hoff : p.normOn = false) {c : Config} {infos : List Info} {slots : List Peak}
    (ht : Tame p c infos slots) (hw : Whole c) (hkinds : ∀ o ∈ c.instrs, o.kind = 0)
    (he : ∀ e ∈ p.effects, e ≤ 8)
    (hnone : 0 ∈ p.effects.take p.desired → p.desired ≤ 1) {k : Nat} (hk : k < c.plus) (ho : Offered p c k) :
    Fair (selectSet p c infos slots) (fun _ => True) := by
  unfold selectSet
  have g1 : Gives (preSelect p c infos slots) (Tidy c) := fun a ha => by
    have := preSelect_sound ht
    rw [ha] at this
    exact this.2 a rfl
  refine Fair.bind (((preSelect_fair hon hoff hw hkinds ht.plus.2.1 hk ho).and g1).and (preSelect_suits hon c infos slots))
    fun s ⟨⟨⟨hkept, hne⟩, htidy⟩, hsuit⟩ => ?_
  cases hcands : s.cands with
  | nil => exact absurd hcands hne
  | cons x xs =>
    dsimp only
    rw [if_neg (by
      simp only [Bool.and_eq_true, decide_eq_true_eq, List.contains_iff_mem]
      exact fun h => absurd (hnone h.1) (by omega)), if_pos hon, ← hcands]
    have g2 : Gives (matchEffects c s.instrs p s.cands) (fun r => r.length ≤ 32) := fun a ha => by
      have := matchEffects_sound (c := c) (p := p) (instrs := s.instrs) htidy.count (fun x hx => by rw [hkept.1]; exact htidy.instr x hx)
      rw [ha] at this
      exact (this.2 a rfl).1
    refine Fair.bind (((matchEffects_fair hw hkept he s.cands).and g2).and (matchEffects_mem c s.instrs p hne)) fun ys ⟨⟨_, hlen⟩, hyne, hmem⟩ => ?_
    rw [if_neg (by simpa using hyne)]
    have htar : ∀ x ∈ ys, x.target = true → ∀ o, s.instrs[x.instr]? = some o → o.targetPresent = 1 := by
      intro x hx htt o ho
      obtain ⟨u, hu, _, _, hr, _⟩ := hsuit x (hmem x hx)
      obtain ⟨v, hv, hrel⟩ := hkept.2 _ o ho
      rw [hu] at hv
      cases hv
      have h1 := hw.target u (List.mem_of_getElem? hu)
      have h2 := (hr.mp htt).1
      have : o.targetPresent = u.targetPresent := by rcases hrel with e | ⟨_, e⟩ <;> rw [e]
      omega
    exact Fair.bind (finalSelect_fair hw hkinds hkept hlen htar) fun y _ => Fair.ok trivial

/-- If a set without a range of target loudness fits the request and depends on no other, if no set is for groups or
presets only, and if loudness is not normalised, the selection succeeds. -/
theorem succeeds_partial {p : Request} (hon : p.drcOn = true) (hoff : p.normOn = false) {c : Config} {infos : List Info} {slots : List Peak}
    (ht : Tame p c infos slots) (hm : Moderate p c infos) (hg : ∀ g ∈ p.presets, 0 ≤ g.2) (he : ∀ e ∈ p.effects, e ≤ 8)
    (hnone : 0 ∈ p.effects.take p.desired → p.desired ≤ 1) (hw : Whole c) (hkinds : ∀ o ∈ c.instrs, o.kind = 0)
    (hcnt : c.instrCount < c.plus) (hlast : ∀ o, c.instrs[c.plus - 1]? = some o → o.dmxCount ≤ 1) {k : Nat} (hk : k < c.instrCount)
    (ho : Offered p c k) : ∃ out, select p c infos slots = .ok out := by
  have hfair : Fair (select p c infos slots) (fun _ => True) := by
    unfold select
    refine Fair.bind (Q := fun c' => noteDmx p c = .ok c') ?_ fun c' hc => ?_
    · refine ((?_ : Fair (noteDmx p c) (fun _ => True)).and (fun a ha => ha)).mono fun _ h => h.2
      unfold noteDmx
      refine Fair.ite (fun _ => Fair.ub) fun h => ?_
      exact Fair.bind (fair_at _ _) fun o _ => Fair.ok trivial
    obtain ⟨hp', hic, hlen, _, _⟩ := noteDmx_gives p c c' hc
    obtain ⟨hw', hkinds', hsame⟩ := hw.noted hc hcnt hlast
    have hm' := hm.noted hc
    have ht' := ht.noted hc (noteDmx_coeffs p c c' hc) (noteDmx_ids ht.ids c' hc)
    refine Fair.bind (((selectSet_fair hon hoff ht' hw' (hkinds' hkinds) he hnone (by omega) (ho.noted hc (hsame k hk))).and
      (selectSet_gives hm' hg slots)).and (selectSet_kept p c' infos slots)) fun r ⟨⟨_, _, hx, _⟩, hkept⟩ => ?_
    obtain ⟨s, x⟩ := r
    dsimp only at hx hkept ⊢
    refine Fair.bind (fair_at _ _) fun o hox => ?_
    have hin : o ∈ s.instrs.take c'.plus := List.mem_of_getElem? (i := x.instr) (by rw [List.getElem?_take, if_pos hx.instr]; exact hox)
    refine Fair.bind ((firstWith_fair ⟨o, hin, rfl⟩).and (firstWith_gives c' s.instrs o.setId)) fun sel ⟨_, hsel, so, hso, _⟩ => ?_
    refine Fair.bind (fair_at _ _) fun so' hso' => ?_
    rw [hso] at hso'
    cases hso'
    refine Fair.bind (Q := fun _ => True) ?_ fun dep _ => ?_
    · unfold getDependent
      refine Fair.ite (fun hd => ?_) fun _ => Fair.ok trivial
      obtain ⟨u, hu, hrel⟩ := hkept.mem (List.mem_of_getElem? hso)
      have hdep : u.depends = 1 ∧ u.dependsOn = so.dependsOn := by rcases hrel with e | ⟨_, e⟩ <;> subst e <;> exact ⟨hd, rfl⟩
      have hpos := (hw'.level u hu hdep.1).1
      obtain ⟨t, htm, hid⟩ := hkept.find hpos (hw'.other u hu hpos)
      rw [hdep.2] at hid
      refine Fair.bind (firstWith_fair ⟨t, ?_, hid⟩) fun i _ => Fair.ok trivial
      obtain ⟨j, hj⟩ := List.mem_iff_getElem?.mp htm
      rw [List.getElem?_take] at hj
      split at hj
      · exact List.mem_of_getElem? (i := j) (by rw [List.getElem?_take, if_pos (by omega)]; exact hj)
      · cases hj
    refine Fair.bind (getFading_fair p _ _ _ fun o ho hb => ?_) fun fade _ => ?_
    · obtain ⟨j, hj⟩ := List.mem_iff_getElem?.mp ho
      rw [List.getElem?_take] at hj
      split at hj
      · rename_i hlt
        obtain ⟨u, hu, hrel⟩ := hkept.2 j o hj
        have hfd := hw'.fade u (List.mem_of_getElem? (i := j) (by rw [List.getElem?_take, if_pos hlt]; exact hu))
        rcases hrel with e | ⟨_, e⟩
        · rw [e]; exact hfd (by rw [← e]; exact hb)
        · rw [e]; exact hfd (by rw [e] at hb; exact hb)
      · cases hj
    refine Fair.bind ((fair_each (I := fun _ => True) (fun y _ t _ => activeStep_fair _ y t) trivial).and (active_gives _ _)) fun sets ⟨_, hsets⟩ => ?_
    refine Fair.ite (fun h => ?_) fun _ => Fair.ok trivial
    rw [hsets] at h
    exfalso
    have one : ∀ y : Bool × Option Nat, (List.filterMap (entry s.instrs) [y]).length ≤ 1 := fun y =>
      List.length_filterMap_le (entry s.instrs) [y]
    cases hdk : getDucking p (s.instrs.take c'.instrCount) 0 none with
    | none =>
      rw [hdk] at h
      have he : entry s.instrs (true, none) = none := rfl
      rw [List.filterMap_cons_none he] at h
      have := List.length_filterMap_le (entry s.instrs) [(false, if (none : Option Nat).isSome then none else fade), (false, dep), (false, some sel)]
      simp only [List.length_cons, List.length_nil] at this
      omega
    | some d =>
      rw [hdk] at h
      have he : entry s.instrs (false, none) = none := rfl
      have hsw : [(true, some d), (false, if (some d).isSome then none else fade), (false, dep), (false, some sel)]
        = [(true, some d)] ++ ((false, none) :: [(false, dep), (false, some sel)]) := rfl
      rw [hsw, List.filterMap_append, List.filterMap_cons_none he, List.length_append] at h
      have := List.length_filterMap_le (entry s.instrs) [(false, dep), (false, some sel)]
      have := one (true, some d)
      simp only [List.length_cons, List.length_nil] at *
      omega
  cases h : select p c infos slots with
  | ok out => exact ⟨out, rfl⟩
  | err e => exact absurd h (hfair.1 e)
  | jump => exact absurd h hfair.2.1
  | ub => exact absurd h (bounds_partial ht hm hg)

theorem aRequest_tame (os : List Instr) (hl : os.length ≤ 13) (hid : ∀ o ∈ os, o.dmxIds.length ≤ 15) (infos : List Info) (hi : infos.length ≤ 16)
    (hs : Systems infos) : Tame aRequest (aConfig os) infos noSlots :=
  ⟨hi, hs, rfl, by decide, by decide, by simp [aConfig]; omega, by
    intro o ho
    rcases List.mem_append.mp ho with ho | ho
    · exact hid o ho
    · rcases List.mem_cons.mp ho with rfl | ho
      · decide
      · rw [List.mem_singleton.mp ho]; decide, by
    intro cf h
    simp [aConfig, lastAt] at h⟩

theorem twoSets_offered : Offered aRequest twoSets 0 :=
  ⟨aSet 1 1 0, rfl, ⟨0, by decide, Or.inl rfl⟩, ⟨by decide, by decide, by decide, fun cf h => by simp [twoSets, aConfig, lastAt] at h,
      fun h => absurd h (by decide)⟩,
    rfl, rfl, by decide⟩

theorem twoSets_whole : Whole twoSets := ⟨by decide, by decide, by decide, by decide, by decide⟩

/-- `succeeds_partial`: the first of two sets fits. -/
example : ∃ out, select aRequest twoSets [] noSlots = .ok out :=
  succeeds_partial rfl rfl (aRequest_tame _ (by decide) (by decide) _ (by decide) (by unfold Systems; decide))
    ⟨by decide +kernel, by simp, by simp, by simp, by decide +kernel, by decide +kernel⟩ (by decide) (by decide) (by decide) twoSets_whole (by decide)
    (by decide) (by decide) (k := 0) (by decide) twoSets_offered

/-- A set for a group that is not asked for, and one for all, both with a high peak level. -/
def otherGroup : Config := aConfig [{ aSet 1 1 0 with kind := 2, group := 5, peakPresent := 1, peak := 3 }, { aSet 2 1 0 with peakPresent := 1, peak := 3 }]

/-- The selection may fail although there is a set that fits: the limit for the peak level leaves one candidate, the one
without DRC, but the first is taken instead, and it is for a group that was not asked for. -/
theorem succeeds_refuted : ¬ ∀ (p : Request) (c : Config) (infos : List Info) (slots : List Peak) (k : Nat), p.drcOn = true → p.normOn = false →
    Tame p c infos slots → Moderate p c infos → p.presets = [] → (∀ e ∈ p.effects, e ≤ 8) → (0 ∈ p.effects.take p.desired → p.desired ≤ 1) →
    Whole c → c.instrCount < c.plus → (∀ o, c.instrs[c.plus - 1]? = some o → o.dmxCount ≤ 1) → k < c.instrCount →
    Offered p c k → (∃ u, c.instrs[k]? = some u ∧ ForRequest p u) → ∃ out, select p c infos slots = .ok out := by
  intro hall
  obtain ⟨out, h⟩ := hall aRequest otherGroup [] noSlots 1 rfl rfl (aRequest_tame _ (by decide) (by decide) _ (by decide) (by unfold Systems; decide))
    ⟨by decide +kernel, by simp, by simp, by simp, by decide +kernel, by decide +kernel⟩ rfl (by decide) (by decide)
    ⟨by decide, by decide, by decide, by decide, by decide⟩ (by decide) (by decide) (by decide)
    ⟨_, rfl, ⟨0, by decide, Or.inl rfl⟩, ⟨by decide, by decide, by decide, fun cf h => by simp [otherGroup, aConfig, lastAt] at h,
      fun h => absurd h (by decide)⟩, rfl, rfl, by decide⟩
    ⟨_, rfl, fun h => absurd h (by decide), fun h => absurd h (by decide)⟩
  have : select aRequest otherGroup [] noSlots = .err errUnexpected := by decide +kernel
  rw [this] at h
  cases h

end DrcSel

end Verif
