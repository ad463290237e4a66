import Verif.Props.DrcSelLoud

/-! # Effects and final selection -/

namespace Verif.DrcSel

open DrcConfig Res
open DrcLoud hiding errUnexpected

/-! ## Effects -/

theorem withoutEffects_gives (c : Config) (instrs : List Instr) (cands : List Cand) :
    Gives (withoutEffects instrs cands) (fun ys => ys = cands.filter (offers instrs c.instrCount 0)) := by
  unfold withoutEffects
  refine gives_eachAll (I := fun pre ys => ys = pre.filter (offers instrs c.instrCount 0)) ?_ rfl
  intro pre x post _ ys hys
  refine Gives.bind (gives_at _ _) fun o ho => ?_
  have hx : offers instrs c.instrCount 0 x = !effectBits.any (o.effect.testBit ·) := by
    simp [offers, ho, effectBits, List.range, List.range.loop]
  subst hys
  rw [List.filter_append]
  refine Gives.ite (fun h => Gives.ok ?_) fun h => gives_push ?_
  · simp [hx, h]
  · simp [hx, h]

theorem dependent_gives (c : Config) (instrs : List Instr) (o : Instr) :
    Gives (dependent c instrs o) (fun t => (instrs.take c.instrCount).find? (fun t => t.setId == (o.dependsOn : Int)) = some t) := by
  unfold dependent
  cases h : (instrs.take c.instrCount).find? (fun t => t.setId == (o.dependsOn : Int)) with
  | none => exact Gives.err
  | some t => exact Gives.ite (fun _ => Gives.err) fun _ => Gives.ok rfl

theorem withEffect_gives (c : Config) (instrs : List Instr) (bit : Nat) (cands : List Cand) :
    Gives (withEffect c instrs bit cands) (fun ys => ys = cands.filter (offers instrs c.instrCount (bit + 1))) := by
  unfold withEffect
  refine gives_eachAll (I := fun pre ys => ys = pre.filter (offers instrs c.instrCount (bit + 1))) ?_ rfl
  intro pre x post _ ys hys
  refine Gives.bind (gives_at _ _) fun o ho => ?_
  subst hys
  rw [List.filter_append]
  refine Gives.ite (fun hd => ?_) fun hd => ?_
  · have hx : offers instrs c.instrCount (bit + 1) x = o.effect.testBit bit := by simp [offers, ho, hd]
    refine Gives.ite (fun h => gives_push ?_) fun h => Gives.ok ?_
    · simp [hx, h]
    · simp [hx, h]
  · refine Gives.bind (dependent_gives c instrs o) fun t ht => ?_
    have hd : o.depends = 1 := by omega
    have hx : offers instrs c.instrCount (bit + 1) x = (o.effect.testBit bit || t.effect.testBit bit) := by
      simp [offers, ho, hd, ht]
    refine Gives.ite (fun h => gives_push ?_) fun h => Gives.ok ?_
    · rw [← hx] at h
      simp [h]
    · rw [← hx] at h
      simp [h]

theorem attempt_gives (c : Config) (instrs : List Instr) (e : Nat) (cands : List Cand) :
    Gives (attempt c instrs e cands) (fun r =>
      (r = (cands, false) ∧ cands.filter (offers instrs c.instrCount e) = []) ∨
      (r = (cands.filter (offers instrs c.instrCount e), true) ∧ cands.filter (offers instrs c.instrCount e) ≠ [])) := by
  unfold attempt
  refine Gives.ite (fun _ => Gives.err) fun _ => ?_
  refine Gives.bind (Q := fun ys => ys = cands.filter (offers instrs c.instrCount e)) ?_ fun ys hys => Gives.ok ?_
  · refine Gives.ite (fun h => ?_) fun h => ?_
    · subst h; exact withoutEffects_gives c instrs cands
    · obtain ⟨k, rfl⟩ := Nat.exists_eq_succ_of_ne_zero h
      exact withEffect_gives c instrs k cands
  · subst hys
    by_cases h : cands.filter (offers instrs c.instrCount e) = []
    · exact Or.inl ⟨by rw [h]; rfl, h⟩
    · exact Or.inr ⟨by rw [if_neg (by simpa using h)], h⟩

/-- The candidates that are left: those with the first effect in the list that any has, or all. -/
def FirstOffered (instrs : List Instr) (n : Nat) (es : List Nat) (cands ys : List Cand) : Prop :=
  (ys = cands ∧ ∀ e ∈ es, ∀ x ∈ cands, offers instrs n e x = false) ∨
  ∃ pre e post, es = pre ++ e :: post ∧ (∀ e' ∈ pre, ∀ x ∈ cands, offers instrs n e' x = false) ∧
    ys = cands.filter (offers instrs n e) ∧ ys ≠ []

theorem filter_nil {α : Type} {P : α → Bool} {xs : List α} (h : xs.filter P = []) : ∀ x ∈ xs, P x = false := by
  intro x hx
  have := List.filter_eq_nil_iff.mp h x hx
  simpa using this

theorem FirstOffered.skip {instrs : List Instr} {n e : Nat} {es : List Nat} {cands ys : List Cand}
    (h0 : ∀ x ∈ cands, offers instrs n e x = false) (h : FirstOffered instrs n es cands ys) :
    FirstOffered instrs n (e :: es) cands ys := by
  rcases h with ⟨h1, h2⟩ | ⟨pre, e', post, h1, h2, h3, h4⟩
  · exact Or.inl ⟨h1, fun e' he' => by rcases List.mem_cons.mp he' with rfl | h; exact h0; exact h2 e' h⟩
  · exact Or.inr ⟨e :: pre, e', post, by rw [h1]; rfl,
      fun e' he' => by rcases List.mem_cons.mp he' with rfl | h; exact h0; exact h2 e' h, h3, h4⟩

theorem otherLoop_gives (c : Config) (instrs : List Instr) (cands : List Cand) : ∀ es : List Nat,
    Gives (otherLoop c instrs es (cands, false)) (FirstOffered instrs c.instrCount es cands)
  | [] => Gives.ok (Or.inl ⟨rfl, by simp⟩)
  | e :: es => by
    unfold otherLoop
    rw [if_neg (by simp)]
    refine Gives.bind (attempt_gives c instrs e cands) fun r hr => ?_
    rcases hr with ⟨rfl, h⟩ | ⟨rfl, h⟩
    · exact (otherLoop_gives c instrs cands es).mono fun ys hys => hys.skip (filter_nil h)
    · have : otherLoop c instrs es (cands.filter (offers instrs c.instrCount e), true) = .ok (cands.filter (offers instrs c.instrCount e)) := by
        cases es <;> rfl
      rw [this]
      exact Gives.ok (Or.inr ⟨[], e, es, rfl, by simp, rfl, h⟩)

/-- Of the effects asked for, in the order asked for, the first that any candidate has is the one the
candidates that are left have. -/
theorem effect_honoured {p : Request} {c : Config} {instrs : List Instr} {cands ys : List Cand} (hd : p.desired ≤ 1)
    (h : matchEffects c instrs p cands = .ok ys) : FirstOffered instrs c.instrCount p.effects cands ys := by
  have : Gives (matchEffects c instrs p cands) (FirstOffered instrs c.instrCount p.effects cands) := by
    unfold matchEffects
    have h01 : p.desired = 0 ∨ p.desired = 1 := by omega
    rcases h01 with h0 | h0
    · rw [h0]
      exact Gives.bind (Gives.ok (Q := fun r => r = (cands, false, false)) rfl) fun r hr => by
        subst hr
        exact otherLoop_gives c instrs cands _
    · rw [h0]
      cases he : p.effects with
      | nil =>
        exact Gives.bind (Gives.ok (Q := fun r => r = (cands, false, false)) rfl) fun r hr => by
          subst hr
          exact otherLoop_gives c instrs cands _
      | cons e es =>
        refine Gives.bind (Q := fun r => (r = (cands, false, false) ∧ cands.filter (offers instrs c.instrCount e) = []) ∨
          (r = (cands.filter (offers instrs c.instrCount e), true, true) ∧ cands.filter (offers instrs c.instrCount e) ≠ [])) ?_ fun r hr => ?_
        · show Gives (desiredLoop c instrs [e] (cands, false, false)) _
          unfold desiredLoop
          refine Gives.bind (attempt_gives c instrs e cands) fun r hr => ?_
          rcases hr with ⟨rfl, h⟩ | ⟨rfl, h⟩
          · exact Gives.ok (Or.inl ⟨rfl, h⟩)
          · exact Gives.ok (Or.inr ⟨rfl, h⟩)
        · rcases hr with ⟨rfl, h⟩ | ⟨rfl, h⟩
          · exact (otherLoop_gives c instrs cands es).mono fun ys hys => hys.skip (filter_nil h)
          · exact Gives.ok (Or.inr ⟨[], e, es, rfl, by simp, rfl, h⟩)
  exact this ys h

theorem desiredLoop_mem (c : Config) (instrs : List Instr) (cands : List Cand) : ∀ (es : List Nat) (s : List Cand × Bool × Bool),
    (s.1 ≠ [] ∧ ∀ x ∈ s.1, x ∈ cands) → Gives (desiredLoop c instrs es s) (fun s => s.1 ≠ [] ∧ ∀ x ∈ s.1, x ∈ cands)
  | [], _, h => Gives.ok h
  | e :: es, s, h => by
    unfold desiredLoop
    refine Gives.bind (attempt_gives c instrs e s.1) fun r hr => ?_
    refine desiredLoop_mem c instrs cands es _ ?_
    rcases hr with ⟨rfl, _⟩ | ⟨rfl, hne⟩
    · exact h
    · exact ⟨hne, fun x hx => h.2 x ((List.mem_filter.mp hx).1)⟩

theorem otherLoop_mem (c : Config) (instrs : List Instr) (cands : List Cand) : ∀ (es : List Nat) (s : List Cand × Bool),
    (s.1 ≠ [] ∧ ∀ x ∈ s.1, x ∈ cands) → Gives (otherLoop c instrs es s) (fun ys => ys ≠ [] ∧ ∀ x ∈ ys, x ∈ cands)
  | [], _, h => Gives.ok h
  | e :: es, s, h => by
    unfold otherLoop
    refine Gives.ite (fun _ => Gives.ok h) fun _ => ?_
    refine Gives.bind (attempt_gives c instrs e s.1) fun r hr => ?_
    refine otherLoop_mem c instrs cands es _ ?_
    rcases hr with ⟨rfl, _⟩ | ⟨rfl, hne⟩
    · exact h
    · exact ⟨hne, fun x hx => h.2 x ((List.mem_filter.mp hx).1)⟩

theorem matchEffects_mem (c : Config) (instrs : List Instr) (p : Request) {cands : List Cand} (hne : cands ≠ []) :
    Gives (matchEffects c instrs p cands) (fun ys => ys ≠ [] ∧ ∀ x ∈ ys, x ∈ cands) := by
  unfold matchEffects
  refine Gives.bind (desiredLoop_mem c instrs cands _ _ ⟨hne, fun x hx => hx⟩) fun r hr => ?_
  exact Gives.ite (fun _ => Gives.ok hr) fun _ => otherLoop_mem c instrs cands _ _ hr

/-! ## Final selection: the one chosen is a candidate -/

theorem looked_gives (instrs : List Instr) : ∀ cands : List Cand,
    Gives (looked instrs cands) (fun all => all.map (·.1) = cands ∧ ∀ x ∈ all, instrs[x.1.instr]? = some x.2)
  | [] => Gives.ok ⟨rfl, by simp⟩
  | x :: xs => by
    unfold looked
    refine Gives.bind (gives_at _ _) fun o ho => ?_
    refine Gives.bind (looked_gives instrs xs) fun r ⟨h1, h2⟩ => Gives.ok ⟨by simp [h1], ?_⟩
    intro y hy
    rcases List.mem_cons.mp hy with rfl | hy
    · exact ho
    · exact h2 y hy

theorem mem_least {α β : Type} [LE β] [DecidableLE β] {v : α → β} {xs : List α} {x : α} :
    x ∈ least v xs ↔ x ∈ xs ∧ ∀ y ∈ xs, v x ≤ v y := by
  simp [least]

theorem least_ne_nil {α β : Type} [LinearOrder β] {v : α → β} : ∀ {xs : List α}, xs ≠ [] → least v xs ≠ []
  | [x], _ => by simp [least]
  | x :: y :: ys, _ => by
    obtain ⟨z, hz⟩ := nil_iff.mp (least_ne_nil (v := v) (xs := y :: ys) (by simp))
    have hz := mem_least.mp hz
    by_cases h : v x ≤ v z
    · refine nil_iff.mpr ⟨x, mem_least.mpr ⟨by simp, fun w hw => ?_⟩⟩
      rcases List.mem_cons.mp hw with rfl | hw
      · exact le_refl _
      · exact le_trans h (hz.2 w hw)
    · refine nil_iff.mpr ⟨z, mem_least.mpr ⟨by simp [hz.1], fun w hw => ?_⟩⟩
      rcases List.mem_cons.mp hw with rfl | hw
      · exact le_of_lt (not_le.mp h)
      · exact hz.2 w hw

theorem least_snoc {α β : Type} [LinearOrder β] {v : α → β} {xs : List α} {x y : α} (hy : y ∈ least v xs) :
    least v (xs ++ [x]) = if v x < v y then [x] else if v x = v y then least v xs ++ [x] else least v xs := by
  have hy := mem_least.mp hy
  split
  · rename_i hlt
    unfold least
    rw [List.filter_append]
    have : xs.filter (fun z => (xs ++ [x]).all fun w => decide (v z ≤ v w)) = [] := by
      rw [List.filter_eq_nil_iff]
      intro z hz hall
      have := List.all_eq_true.mp hall x (by simp)
      have : v z ≤ v x := by simpa using this
      exact absurd (lt_of_le_of_lt this hlt) (not_lt.mpr (hy.2 z hz))
    rw [this, List.nil_append, List.filter_eq_self]
    intro z hz
    rw [List.mem_singleton] at hz
    subst hz
    simp only [List.all_append, List.all_cons, List.all_nil, Bool.and_true, le_refl, decide_true, List.all_eq_true, decide_eq_true_eq]
    exact fun w hw => le_of_lt (lt_of_lt_of_le hlt (hy.2 w hw))
  · rename_i hnlt
    have hxs : xs.filter (fun z => (xs ++ [x]).all fun w => decide (v z ≤ v w)) = least v xs := by
      unfold least
      refine List.filter_congr fun z hz => ?_
      simp only [List.all_append, List.all_cons, List.all_nil, Bool.and_true]
      by_cases hall : (xs.all fun w => decide (v z ≤ v w)) = true
      · have : v z ≤ v x := by
          have := List.all_eq_true.mp hall y hy.1
          have : v z ≤ v y := by simpa using this
          exact le_trans this (not_lt.mp hnlt)
        simp [this]
      · simp only [Bool.not_eq_true] at hall
        simp [hall]
    split
    · rename_i heq
      unfold least at hxs ⊢
      rw [List.filter_append, hxs]
      congr 1
      rw [List.filter_eq_self]
      intro z hz
      rw [List.mem_singleton] at hz
      subst hz
      simp only [List.all_append, List.all_cons, List.all_nil, Bool.and_true, le_refl, decide_true, List.all_eq_true, decide_eq_true_eq]
      exact fun w hw => heq ▸ hy.2 w hw
    · rename_i hne
      unfold least at hxs ⊢
      rw [List.filter_append, hxs]
      have : ([x] : List α).filter (fun z => (xs ++ [x]).all fun w => decide (v z ≤ v w)) = [] := by
        rw [List.filter_eq_nil_iff]
        intro z hz hall
        rw [List.mem_singleton] at hz
        subst hz
        have := List.all_eq_true.mp hall y (by simp [hy.1])
        have : v z ≤ v y := by simpa using this
        exact hne (le_antisymm this (not_lt.mp hnlt))
      rw [this, List.append_nil]

/-- The state of a loop that keeps the entries with the least value not above `start`. -/
def LeastOf {α β : Type} [LinearOrder β] (v : α → β) (start : β) (seen : List α) (s : List α × β) : Prop :=
  (seen = [] ∧ s = ([], start)) ∨ (s.1 = least v seen ∧ ∃ y ∈ s.1, v y = s.2)

theorem leastStep_of {α β : Type} [LinearOrder β] {v : α → β} {start : β} {seen : List α} {s : List α × β} {x : α}
    (h : LeastOf v start seen s) (hx : v x ≤ start) : LeastOf v start (seen ++ [x]) (leastStep v x s) := by
  unfold leastStep
  rcases h with ⟨rfl, rfl⟩ | ⟨h1, y, hy, hv⟩
  · right
    dsimp only
    rw [if_pos hx]
    have hl : least v ([] ++ [x]) = [x] := by simp [least]
    rw [hl]
    by_cases hlt : v x < start
    · rw [if_pos hlt, if_pos hlt]; exact ⟨rfl, x, by simp, rfl⟩
    · rw [if_neg hlt, if_neg hlt]; exact ⟨rfl, x, by simp, le_antisymm hx (not_lt.mp hlt)⟩
  · right
    rw [h1] at hy
    rw [least_snoc hy, ← hv]
    by_cases hlt : v x < v y
    · rw [if_pos (le_of_lt hlt), if_pos hlt, if_pos hlt, if_pos hlt]
      exact ⟨rfl, x, by simp, rfl⟩
    · by_cases heq : v x = v y
      · simp only [if_pos (le_of_eq heq), if_pos heq, if_neg hlt]
        exact ⟨by rw [h1], y, by simp [h1, hy], rfl⟩
      · simp only [if_neg hlt, if_neg heq, if_neg (fun hle => heq (le_antisymm hle (not_lt.mp hlt)))]
        exact ⟨h1, y, by rw [h1]; exact hy, hv⟩

theorem foldl_all {α σ : Type} {f : σ → α → σ} {I : List α → σ → Prop} {xs : List α} :
    ∀ {s : σ} (_ : I [] s) (_ : ∀ pre x post, xs = pre ++ x :: post → ∀ s, I pre s → I (pre ++ [x]) (f s x)), I xs (xs.foldl f s) := by
  suffices ∀ (ys pre : List α) (s : σ), xs = pre ++ ys → I pre s →
      (∀ pre x post, xs = pre ++ x :: post → ∀ s, I pre s → I (pre ++ [x]) (f s x)) → I xs (ys.foldl f s) from
    fun {s} h0 h => this xs [] s rfl h0 h
  intro ys
  induction ys with
  | nil => intro pre s he hs _; simpa [he] using hs
  | cons y ys ih =>
    intro pre s he hs h
    exact ih (pre ++ [y]) (f s y) (by simp [he]) (h pre y ys he s hs) h

theorem foldl_least {α β : Type} [LinearOrder β] {v : α → β} {start : β} {xs : List α} (h : ∀ x ∈ xs, v x ≤ start) :
    LeastOf v start xs (xs.foldl (fun s x => leastStep v x s) ([], start)) :=
  foldl_all (I := LeastOf v start) (Or.inl ⟨rfl, rfl⟩) fun pre x post he _ hs => leastStep_of hs (h x (by rw [he]; simp))

theorem mostMembers_mem (p : Request) (hp : ∀ g ∈ p.presets, 0 ≤ g.2) (P : Cand × Instr → Prop) :
    ∀ (xs : List (Cand × Instr)) (s : List (Cand × Instr) × Int × Int), (∀ x ∈ xs, P x) → (∀ x ∈ s.1, P x) →
      (s.1 ≠ [] ∨ (xs ≠ [] ∧ s.2 = (0, 0))) → (mostMembers p xs s ≠ [] ∧ ∀ x ∈ mostMembers p xs s, P x)
  | [], s, _, h2, h3 => by
    unfold mostMembers
    refine ⟨?_, h2⟩
    rcases h3 with h | ⟨h, _⟩
    · exact h
    · exact absurd rfl h
  | x :: xs, s, h1, h2, h3 => by
    have hx := h1 x (by simp)
    have hxs : ∀ y ∈ xs, P y := fun y hy => h1 y (by simp [hy])
    unfold mostMembers
    dsimp only
    split
    · refine mostMembers_mem p hp P xs _ hxs ?_ (Or.inl ?_)
      · dsimp only
        split
        · simpa using hx
        · exact snoc_all h2 hx
      · dsimp only
        split <;> simp
    · rename_i hlt
      refine mostMembers_mem p hp P xs _ hxs h2 ?_
      rcases h3 with h | ⟨_, h⟩
      · exact Or.inl h
      · exfalso
        apply hlt
        rw [h]
        unfold members
        split
        · rename_i g hg
          exact hp g (List.mem_of_find?_eq_some hg)
        · exact Int.le_refl _

theorem lowestLoop_mem (P : Cand × Instr → Prop) (xs : List (Cand × Instr)) (hxs : ∀ x ∈ xs, P x) :
    ∀ (fuel n k : Nat) (lowest : Int) (best : Option (Cand × Instr)), (∀ x, best = some x → P x) →
      (∀ x, (lowestLoop xs fuel n k lowest best).2 = some x → P x) ∧ ((lowestLoop xs fuel n k lowest best).2 = none →
        (lowestLoop xs fuel n k lowest best).1 = k)
  | 0, n, k, lowest, best, h => ⟨by simpa [lowestLoop] using h, fun _ => rfl⟩
  | fuel + 1, n, k, lowest, best, h => by
    unfold lowestLoop
    split
    · split
      · exact ⟨h, fun _ => rfl⟩
      · rename_i x hx
        have hP := hxs x (List.mem_of_getElem? hx)
        split
        · have ih := lowestLoop_mem P xs hxs fuel (n + 1) 1 x.2.preset (some x) (by intro y hy; cases hy; exact hP)
          refine ⟨ih.1, fun hnone => ?_⟩
          exfalso
          exact lowestLoop_some xs fuel (n + 1) 1 x.2.preset x hnone
        · exact lowestLoop_mem P xs hxs fuel (n + 1) k lowest best h
    · exact ⟨h, fun _ => rfl⟩
where
  lowestLoop_some (xs : List (Cand × Instr)) : ∀ (fuel n k : Nat) (lowest : Int) (x : Cand × Instr),
      (lowestLoop xs fuel n k lowest (some x)).2 ≠ none
    | 0, n, k, lowest, x => by simp [lowestLoop]
    | fuel + 1, n, k, lowest, x => by
      unfold lowestLoop
      split
      · split
        · simp
        · split
          · exact lowestLoop_some xs fuel _ _ _ _
          · exact lowestLoop_some xs fuel _ _ _ _
      · simp

theorem byGroup_mem {p : Request} (hp : ∀ g ∈ p.presets, 0 ≤ g.2) {P : Cand × Instr → Prop} {xs : List (Cand × Instr)}
    (hxs : ∀ x ∈ xs, P x) (hne : xs ≠ []) : byGroup p xs ≠ [] ∧ ∀ x ∈ byGroup p xs, P x := by
  unfold byGroup
  have hf : ∀ Q : Cand × Instr → Bool, ∀ x ∈ xs.filter Q, P x := fun Q x hx => hxs x (List.mem_filter.mp hx).1
  dsimp only
  split
  · split
    · exact ⟨hne, hxs⟩
    · rename_i h; exact ⟨by simpa using h, hf _⟩
  · rename_i h3
    split
    · rename_i x hx
      exact ⟨by simp, by simpa using hf _ x (List.mem_of_find?_eq_some hx)⟩
    · have hm := mostMembers_mem p hp P (xs.filter (·.2.kind == 3)) ([], 0, 0) (hf _) (by simp) (Or.inr ⟨by simpa using h3, rfl⟩)
      split
      · have hl := lowestLoop_mem P _ hm.2 (mostMembers p (xs.filter (·.2.kind == 3)) ([], 0, 0)).length 0
          (mostMembers p (xs.filter (·.2.kind == 3)) ([], 0, 0)).length 1000 none (by simp)
        split
        · rename_i k x he
          rw [he] at hl
          refine ⟨by simp, fun y hy => ?_⟩
          rcases List.mem_cons.mp hy with rfl | hy
          · exact hl.1 _ rfl
          · exact hm.2 y (List.mem_of_mem_take (List.mem_of_mem_tail hy))
        · rename_i k he
          rw [he] at hl
          have : k = _ := hl.2 rfl
          rw [this, List.take_length]
          exact hm
      · exact hm

theorem put_length {α : Type} {cap n : Nat} {xs : List α} {x : α} (hn : n ≤ xs.length) :
    Gives (put cap xs n x) (fun ys => n + 1 ≤ ys.length) := by
  unfold put
  refine Gives.ite (fun h => Gives.ok (by rw [List.length_set]; omega)) fun h => Gives.ite (fun _ => Gives.ok (by simp; omega)) fun _ => Gives.ub

theorem byDmx_mem {dmx : Int} {P : Cand × Instr → Prop} {xs : List (Cand × Instr)} (hxs : ∀ x ∈ xs, P x) (hne : xs ≠ []) :
    Gives (byDmx dmx xs) (fun ys => ys ≠ [] ∧ ∀ y ∈ ys, P y) := by
  unfold byDmx
  refine Gives.bind (gives_each (I := fun s : List (Cand × Instr) × Nat => (∀ x ∈ s.1, P x) ∧ s.2 ≤ s.1.length)
    (fun i _ s hs => ?_) ⟨hxs, by simp⟩) fun s hs => Gives.ok ?_
  · unfold dmxStep
    refine Gives.bind (gives_at _ _) fun x _ => ?_
    refine gives_each (fun d _ s hs => ?_) hs
    refine Gives.ite (fun _ => ?_) fun _ => Gives.ok hs
    refine Gives.ite (fun _ => Gives.err) fun _ => ?_
    refine Gives.bind (gives_at _ _) fun y hy => ?_
    refine Gives.bind (Q := fun ys => (∀ z ∈ ys, P z) ∧ s.2 + 1 ≤ ys.length) ?_ fun ys hys => Gives.ok hys
    intro a ha
    exact ⟨put_mem hs.1 (hs.1 y (List.mem_of_getElem? hy)) a ha, put_length hs.2 a ha⟩
  · split
    · exact ⟨hne, hxs⟩
    · rename_i h0
      refine ⟨?_, fun y hy => hs.1 y (List.mem_of_mem_take hy)⟩
      intro e
      exact h0 (take_nil e hs.2)

theorem effectCount_gives (c : Config) (instrs : List Instr) (o : Instr) : Gives (effectCount c instrs o) (fun n => n ≤ 100) := by
  have hle : ∀ f : Nat → Bool, (effectBits.filter (· ≠ 5)).countP f ≤ 100 := fun f =>
    le_trans List.countP_le_length (by decide)
  unfold effectCount
  refine Gives.ite (fun _ => Gives.ok (hle _)) fun _ => Gives.ite (fun _ => ?_) fun _ => Gives.ok (by omega)
  exact Gives.bind (Q := fun _ => True) (fun _ _ => trivial) fun t _ => Gives.ok (hle _)

theorem fewest_mem {c : Config} {instrs : List Instr} {P : Cand × Instr → Prop} {xs : List (Cand × Instr)} (hxs : ∀ x ∈ xs, P x)
    (hne : xs ≠ []) : Gives (each (fewestStep c instrs) xs ([], 100)) (fun s => s.1 ≠ [] ∧ ∀ x ∈ s.1, P x) := by
  refine (gives_eachAll (I := fun pre s => (∀ x ∈ s.1, P x) ∧ ((pre = [] ∧ s = ([], 100)) ∨ s.1 ≠ [])) (fun pre x post he s hs => ?_)
    ⟨by simp, Or.inl ⟨rfl, rfl⟩⟩).mono fun s ⟨h1, h2⟩ => ⟨?_, h1⟩
  · have hx := hxs x (by rw [he]; simp)
    unfold fewestStep
    refine Gives.bind (effectCount_gives c instrs x.2) fun n hn => Gives.ok ?_
    split
    · dsimp only
      refine ⟨?_, Or.inr ?_⟩
      · split
        · simpa using hx
        · exact snoc_all hs.1 hx
      · split <;> simp
    · rename_i hlt
      refine ⟨hs.1, Or.inr ?_⟩
      rcases hs.2 with ⟨_, h⟩ | h
      · rw [h] at hlt; exact absurd hn hlt
      · exact h
  · rcases h2 with ⟨h, _⟩ | h
    · exact absurd h hne
    · exact h

theorem byTarget_mem {P : Cand × Instr → Prop} {xs : List (Cand × Instr)} (hxs : ∀ x ∈ xs, P x) (hne : xs ≠ [])
    (hu : ∀ x ∈ xs, x.2.upper ≤ 100) : Gives (byTarget xs) (fun ys => ys ≠ [] ∧ ∀ y ∈ ys, P y) := by
  unfold byTarget
  dsimp only
  refine Gives.ite (fun h => Gives.ok ⟨?_, fun y hy => hxs y (List.mem_filter.mp hy).1⟩) fun _ => ?_
  · intro e
    have hall : ∀ x ∈ xs, x.1.target = true := by
      intro x hx
      have := List.filter_eq_nil_iff.mp e x hx
      simpa using this
    exact h.2 (List.countP_eq_length.mpr hall)
  refine Gives.ite (fun _ => ?_) fun _ => Gives.ok ⟨hne, hxs⟩
  refine Gives.bind (gives_eachAll (I := LeastOf (fun y : Cand × Instr => y.2.upper) 100) (fun pre x post he s hs => ?_)
    (Or.inl ⟨rfl, rfl⟩)) fun s hs => Gives.ok ?_
  · exact Gives.ite (fun _ => Gives.err) fun _ => Gives.ok (leastStep_of hs (hu x (by rw [he]; simp)))
  · rcases hs with ⟨h, _⟩ | ⟨h, _⟩
    · exact absurd h hne
    · rw [h]
      exact ⟨least_ne_nil hne, fun y hy => hxs y (mem_least.mp hy).1⟩

theorem highestStep_eq {x : Cand × Instr} {s : List (Cand × Instr) × Rat} (hx : x.1.peak ≤ 0) :
    highestStep x s = ((leastStep (fun y : Cand × Instr => - y.1.peak) x (s.1, - s.2)).1,
      - (leastStep (fun y : Cand × Instr => - y.1.peak) x (s.1, - s.2)).2) := by
  unfold highestStep leastStep
  dsimp only
  simp only [neg_le_neg_iff, neg_lt_neg_iff, hx, true_and]
  by_cases h : s.2 ≤ x.1.peak
  · rw [if_pos h, if_pos h]
    by_cases h2 : s.2 < x.1.peak
    · simp [h2]
    · have : s.2 = x.1.peak := le_antisymm h (not_lt.mp h2)
      simp [this]
  · rw [if_neg h, if_neg h]
    simp

theorem highest_eq {xs : List (Cand × Instr)} (hp : ∀ x ∈ xs, x.1.peak ≤ 0 ∧ -1000 ≤ x.1.peak) (hne : xs ≠ []) :
    (xs.foldl (fun s x => highestStep x s) ([], (-1000 : Rat))).1 = most (fun y : Cand × Instr => y.1.peak) xs := by
  have := foldl_all (f := fun s x => highestStep x s) (xs := xs) (s := ([], (-1000 : Rat)))
    (I := fun pre s => LeastOf (fun y : Cand × Instr => - y.1.peak) 1000 pre (s.1, - s.2)) (Or.inl ⟨rfl, by norm_num⟩) ?_
  · rcases this with ⟨h, _⟩ | ⟨h, _⟩
    · exact absurd h hne
    · exact h
  · intro pre x post he s hs
    have hx := hp x (by rw [he]; simp)
    have := leastStep_of (x := x) hs (by linarith [hx.2])
    rw [highestStep_eq hx.1]
    simpa using this

theorem last_mem {xs : List (Cand × Instr)} (hne : xs ≠ []) : ∀ y,
    (match (xs.foldl (fun s x => lastStep x s) (none, (-1000 : Int))).1 with
      | some x => Res.ok x.1
      | none => .ok ((xs.head?.map Prod.fst).getD zeroCand)) = .ok y → ∃ x ∈ xs, x.1 = y := by
  intro y h
  have : ∀ x, (xs.foldl (fun s x => lastStep x s) (none, (-1000 : Int))).1 = some x → x ∈ xs := by
    refine foldl_all (f := fun s x => lastStep x s) (xs := xs) (I := fun pre s => ∀ x, s.1 = some x → x ∈ pre) (by simp) ?_
    intro pre x post he s hs z hz
    unfold lastStep at hz
    split at hz
    · cases hz; simp
    · simp [hs z hz]
  split at h
  · rename_i x hx
    cases h
    exact ⟨x, this x hx, rfl⟩
  · cases xs with
    | nil => contradiction
    | cons x xs =>
      cases h
      exact ⟨x, by simp, rfl⟩

/-- The candidate chosen is one of the candidates. -/
theorem finalSelect_mem {p : Request} {c : Config} {instrs : List Instr} {cands : List Cand} (hne : cands ≠ [])
    (hg : ∀ g ∈ p.presets, 0 ≤ g.2) (hp : ∀ x ∈ cands, -1000 ≤ x.peak ∧ x.peak ≤ 10000) (hu : ∀ o ∈ instrs, o.upper ≤ 100) :
    Gives (finalSelect p c instrs cands) (fun y => y ∈ cands) := by
  unfold finalSelect
  refine Gives.bind (looked_gives instrs cands) fun all ⟨h1, h2⟩ => ?_
  have hall : all ≠ [] := by
    intro e
    rw [e] at h1
    exact hne h1.symm
  have hmem : ∀ x ∈ all, x.1 ∈ cands := fun x hx => by rw [← h1]; exact List.mem_map_of_mem hx
  have hfold := foldl_least (v := fun y : Cand × Instr => y.1.peak) (start := 10000) (xs := all) fun x hx => (hp x.1 (hmem x hx)).2
  rcases hfold with ⟨h, _⟩ | ⟨hl, z, hz, hzv⟩
  · exact absurd h hall
  dsimp only
  refine Gives.bind (Q := fun xs => xs ≠ [] ∧ ∀ x ∈ xs, x ∈ all) ?_ fun xs hxs => ?_
  · refine Gives.ite (fun hlev => ?_) fun _ => Gives.ok ?_
    · have hz' := hz
      rw [hl] at hz'
      have hzm := mem_least.mp hz'
      have hf : all.filter (·.1.peak ≤ 0) ≠ [] := nil_iff.mpr ⟨z, List.mem_filter.mpr ⟨hzm.1, by rw [← hzv] at hlev; simpa using hlev⟩⟩
      have hgr := byGroup_mem hg (P := fun x => x ∈ all ∧ x.1.peak ≤ 0) (xs := all.filter (·.1.peak ≤ 0)) (fun x hx => by
        have := List.mem_filter.mp hx
        exact ⟨this.1, by simpa using this.2⟩) hf
      refine Gives.bind (byDmx_mem hgr.2 hgr.1) fun xs hxs => ?_
      refine Gives.bind (fewest_mem hxs.2 hxs.1) fun s hs => ?_
      refine Gives.bind (byTarget_mem hs.2 hs.1 fun x hx => hu x.2 (List.mem_of_getElem? (h2 x (hs.2 x hx).1))) fun ys hys => Gives.ok ?_
      rw [highest_eq (fun x hx => ⟨(hys.2 x hx).2, (hp x.1 (hmem x (hys.2 x hx).1)).1⟩) hys.1]
      exact ⟨least_ne_nil hys.1, fun x hx => (hys.2 x (mem_least.mp hx).1).1⟩
    · rw [hl]
      exact ⟨least_ne_nil hall, fun x hx => (mem_least.mp hx).1⟩
  · intro y hy
    obtain ⟨x, hx, rfl⟩ := last_mem hxs.1 y hy
    exact hmem x (hxs.2 x hx)

/-! ## Final selection: which one is chosen -/

theorem mostMembers_all (p : Request) (hp : ∀ g ∈ p.presets, 0 ≤ g.2) (g : Int) :
    ∀ (xs : List (Cand × Instr)) (s : List (Cand × Instr) × Int × Int), (∀ x ∈ xs, x.2.preset = g) →
      (s.2.1 = s.2.2 ∧ 0 ≤ s.2.2 ∧ ∀ r, p.presets.find? (fun q => q.1 == g) = some r → s.1 = [] ∨ s.2.2 = r.2) →
      (s.1 = [] → s.2 = (0, 0)) → mostMembers p xs s = s.1 ++ xs
  | [], s, _, _, _ => by simp [mostMembers]
  | x :: xs, s, h1, h2, h3 => by
    have hx := h1 x (by simp)
    unfold mostMembers
    dsimp only
    have hm : members p x.2 s.2.1 = match p.presets.find? (fun q => q.1 == g) with
      | some r => r.2
      | none => s.2.1 := by
      unfold members
      rw [hx]
      cases p.presets.find? (fun q => q.1 == g) <;> rfl
    cases hf : p.presets.find? (fun q => q.1 == g) with
    | none =>
      rw [hf] at hm
      have hm : members p x.2 s.2.1 = s.2.1 := hm
      rw [hm, if_pos (by omega), if_neg (by omega)]
      rw [mostMembers_all p hp g xs _ (fun y hy => h1 y (by simp [hy])) ⟨by dsimp only; omega, by dsimp only; omega, by simp [hf]⟩ (by simp)]
      simp
    | some r =>
      rw [hf] at hm
      have hr : 0 ≤ r.2 := hp r (List.mem_of_find?_eq_some hf)
      have hm : members p x.2 s.2.1 = r.2 := hm
      have hlist : (if s.2.2 < r.2 then [x] else s.1 ++ [x]) = s.1 ++ [x] := by
        split
        · rename_i hlt
          rcases h2.2.2 r hf with h | h
          · simp [h]
          · omega
        · rfl
      have hle : s.2.2 ≤ r.2 := by
        rcases h2.2.2 r hf with h | h
        · rw [h3 h]; exact hr
        · omega
      rw [hm, if_pos hle, hlist]
      rw [mostMembers_all p hp g xs _ (fun y hy => h1 y (by simp [hy])) ⟨by dsimp only; omega, by dsimp only; omega, ?_⟩ (by simp)]
      · simp
      · intro r' hr'
        rw [hf] at hr'
        cases hr'
        dsimp only
        exact Or.inr (by omega)

theorem byGroup_eq {p : Request} (hp : ∀ g ∈ p.presets, 0 ≤ g.2) {g : Int} (hg : g < 1000) {xs : List (Cand × Instr)}
    (hone : ∀ x ∈ xs, x.2.kind = 3 → x.2.preset = g) : byGroup p xs = groupRule xs := by
  unfold byGroup groupRule prefer
  dsimp only
  have h3 : ∀ x ∈ xs.filter (·.2.kind == 3), x.2.preset = g := by
    intro x hx
    have := List.mem_filter.mp hx
    exact hone x this.1 (by simpa using this.2)
  cases he : xs.filter (·.2.kind == 3) with
  | nil =>
    rw [if_pos List.isEmpty_nil, if_pos rfl]
    by_cases h2 : xs.filter (·.2.kind == 2) = []
    · rw [if_pos (by simp [h2]), if_pos h2]
    · rw [if_neg (by simpa using h2), if_neg h2]
  | cons y ys =>
    rw [if_neg (by simp : ¬ (y :: ys).isEmpty = true), if_neg (by simp : ¬ y :: ys = [])]
    rw [he] at h3
    have hy := h3 y (by simp)
    rw [mostMembers_all p hp g (y :: ys) ([], 0, 0) h3 ⟨rfl, Int.le_refl _, fun _ _ => Or.inl rfl⟩ (fun _ => rfl)]
    by_cases hpf : g = p.prefer
    · have : (y :: ys).find? (·.2.preset == p.prefer) = some y := by
        rw [List.find?_cons_of_pos (by simp [hy, hpf])]
      rw [this]
      rfl
    · have : (y :: ys).find? (·.2.preset == p.prefer) = none := by
        rw [List.find?_eq_none]
        intro x hx
        rw [h3 x hx]
        simpa using hpf
      rw [this]
      dsimp only [List.nil_append]
      split
      · rename_i hlen
        have hl : lowestLoop (y :: ys) (y :: ys).length 0 (y :: ys).length 1000 none = (1, some y) := by
          rw [List.length_cons]
          unfold lowestLoop
          rw [if_pos (by omega)]
          dsimp only [List.getElem?_cons_zero]
          rw [if_pos (by rw [hy]; exact hg)]
          cases hys : ys.length with
          | zero => rw [List.length_cons, hys] at hlen; omega
          | succ n =>
            unfold lowestLoop
            rw [if_neg (by omega)]
        rw [hl]
        simp
      · rename_i hlen
        cases ys with
        | nil => rfl
        | cons z zs => simp at hlen

theorem dmx_loop (dmx : Int) (i : Nat) (x : Cand × Instr) : ∀ (ds : List Int) (s : List (Cand × Instr) × Nat), ds.Nodup →
    s.1[i]? = some x → s.2 ≤ i →
    Gives (each (fun d (s : List (Cand × Instr) × Nat) => if dmx = d then
        if candMax ≤ s.2 then .err errUnexpected
        else do
          let x ← at_ s.1 i
          let arr ← put candMax s.1 s.2 x
          .ok (arr, s.2 + 1)
      else .ok s) ds s) (fun t => t = if ds.contains dmx then (s.1.set s.2 x, s.2 + 1) else s)
  | [], s, _, _, _ => Gives.ok (by simp)
  | d :: ds, s, hn, hx, hs => by
    unfold each
    have hn' := List.nodup_cons.mp hn
    have hlen := (List.getElem?_eq_some_iff.mp hx).1
    by_cases hd : dmx = d
    · rw [if_pos hd]
      refine Gives.bind (Q := fun t => t = (s.1.set s.2 x, s.2 + 1)) ?_ fun t ht => ?_
      · refine Gives.ite (fun _ => Gives.err) fun _ => ?_
        refine Gives.bind (gives_at _ _) fun y hy => ?_
        rw [hx] at hy
        cases hy
        rw [put_lt _ _ _ _ (by omega)]
        exact Gives.ok rfl
      · subst ht
        have hnot : ds.contains dmx = false := by
          rw [hd]
          simpa using hn'.1
        rw [if_pos (by simp [hd])]
        -- nothing further is copied
        refine gives_each (I := fun t => t = (s.1.set s.2 x, s.2 + 1)) (fun e he t ht => ?_) rfl
        have hne : dmx ≠ e := by
          intro h
          rw [h, List.contains_eq_mem] at hnot
          simp [he] at hnot
        rw [if_neg hne]
        exact Gives.ok ht
    · rw [if_neg hd]
      refine Gives.bind (Gives.ok (Q := fun t => t = s) rfl) fun t ht => ?_
      subst ht
      refine (dmx_loop dmx i x ds t hn'.2 hx hs).mono fun r hr => ?_
      rw [hr]
      simp [List.contains_cons, hd]

theorem range_take {α : Type} (xs : List α) : ∀ pre i post, List.range xs.length = pre ++ i :: post → pre.length = i ∧ i < xs.length := by
  intro pre i post h
  have hl := congrArg List.length h
  simp only [List.length_range, List.length_append, List.length_cons] at hl
  have hi : (List.range xs.length)[pre.length]? = some i := by rw [h]; simp
  rw [List.getElem?_range (by omega)] at hi
  exact ⟨Option.some.inj hi, by have := Option.some.inj hi; omega⟩

theorem byDmx_eq {dmx : Int} {xs : List (Cand × Instr)} (hn : ∀ x ∈ xs, (x.2.dmxIds.take x.2.dmxCount).Nodup) :
    Gives (byDmx dmx xs) (fun ys => ys = prefer (fun x => (x.2.dmxIds.take x.2.dmxCount).contains dmx) xs) := by
  unfold byDmx
  refine Gives.bind (gives_eachAll (I := fun pre (s : List (Cand × Instr) × Nat) => s.2 ≤ pre.length ∧ s.1.length = xs.length ∧
    (∀ j, pre.length ≤ j → s.1[j]? = xs[j]?) ∧ s.1.take s.2 = (xs.take pre.length).filter (fun x => (x.2.dmxIds.take x.2.dmxCount).contains dmx))
    (fun pre i post he s hs => ?step) ⟨by simp, rfl, fun _ _ => rfl, by simp⟩) fun s hs => Gives.ok ?last
  case step =>
    obtain ⟨h1, h2, h3, h4⟩ := hs
    obtain ⟨e, hi⟩ := range_take xs pre i post he
    subst e
    unfold dmxStep
    refine Gives.bind (gives_at _ _) fun x hx => ?_
    have hx' : xs[pre.length]? = some x := by rw [← h3 _ (Nat.le_refl _)]; exact hx
    refine (dmx_loop dmx _ x _ s (hn x (List.mem_of_getElem? hx')) hx h1).mono fun t ht => ?_
    subst ht
    have htake : xs.take (pre ++ [pre.length]).length = xs.take pre.length ++ [x] := by
      rw [List.length_append, List.length_singleton, List.take_succ, hx']
      rfl
    rw [htake, List.filter_append]
    split
    · rename_i hc
      refine ⟨by simp; omega, by simpa using h2, fun j hj => ?_, ?_⟩
      · simp only [List.length_append, List.length_singleton] at hj
        dsimp only
        rw [List.getElem?_set_ne (by omega)]
        exact h3 j (by omega)
      · dsimp only
        rw [take_set_snoc _ _ _ (by omega), h4]
        congr 1
        symm
        rw [List.filter_eq_self]
        intro z hz
        rw [List.mem_singleton.mp hz]
        exact hc
    · rename_i hc
      refine ⟨by simp; omega, h2, fun j hj => ?_, ?_⟩
      · simp only [List.length_append, List.length_singleton] at hj
        exact h3 j (by omega)
      · have e : [x].filter (fun x => (x.2.dmxIds.take x.2.dmxCount).contains dmx) = [] := by
          rw [List.filter_eq_nil_iff]
          intro z hz
          rw [List.mem_singleton.mp hz]
          exact hc
        rw [h4, e, List.append_nil]
  case last =>
    obtain ⟨h1, h2, h3, h4⟩ := hs
    rw [List.length_range, List.take_length] at h4
    rw [List.length_range] at h1
    unfold prefer
    by_cases h0 : s.2 = 0
    · rw [if_pos h0]
      rw [h0, List.take_zero] at h4
      rw [if_pos h4.symm]
    · rw [if_neg h0]
      have : xs.filter (fun x => (x.2.dmxIds.take x.2.dmxCount).contains dmx) ≠ [] := by
        intro e
        rw [e] at h4
        exact h0 (take_nil h4 (by omega))
      rw [if_neg this, h4]

theorem effectCount_eq {c : Config} {instrs : List Instr} {o : Instr} (hc : 0 < c.instrCount) :
    Gives (effectCount c instrs o) (fun n => n = effectsOf instrs c.instrCount o) := by
  have hb : effectBits.filter (· ≠ 5) = [0, 1, 2, 3, 4, 6, 7] := by decide
  unfold effectCount effectsOf
  refine Gives.ite (fun hd => Gives.ok ?_) fun hd => ?_
  · rw [hb, List.countP_eq_length_filter]
    have hd : (o.depends == 1) = false := by simpa using hd
    simp only [hd, Bool.false_and, Bool.or_false]
  · rw [if_pos hc]
    refine Gives.bind (dependent_gives c instrs o) fun t ht => Gives.ok ?_
    rw [hb, List.countP_eq_length_filter, ht]
    have hd : o.depends = 1 := by omega
    simp [hd]

theorem fewest_eq {c : Config} {instrs : List Instr} {xs : List (Cand × Instr)} (hc : 0 < c.instrCount) (hne : xs ≠ []) :
    Gives (each (fewestStep c instrs) xs ([], 100)) (fun s => s.1 = least (fun x : Cand × Instr => effectsOf instrs c.instrCount x.2) xs) := by
  refine (gives_eachAll (I := LeastOf (fun x : Cand × Instr => effectsOf instrs c.instrCount x.2) 100) (fun pre x post he s hs => ?_)
    (Or.inl ⟨rfl, rfl⟩)).mono fun s hs => ?_
  · unfold fewestStep
    refine Gives.bind (Q := fun n => n = effectsOf instrs c.instrCount x.2 ∧ n ≤ 100) (fun n hn => ⟨effectCount_eq hc n hn, effectCount_gives c instrs x.2 n hn⟩)
      fun n ⟨hn, hle⟩ => Gives.ok ?_
    subst hn
    have := leastStep_of hs hle
    unfold leastStep at this
    dsimp only at this
    by_cases h : effectsOf instrs c.instrCount x.2 ≤ s.2
    · rw [if_pos h] at this ⊢
      have e : (if effectsOf instrs c.instrCount x.2 < s.2 then effectsOf instrs c.instrCount x.2 else s.2) = effectsOf instrs c.instrCount x.2 := by
        split <;> omega
      rw [e] at this
      exact this
    · rw [if_neg h] at this ⊢
      exact this
  · rcases hs with ⟨h, _⟩ | ⟨h, _⟩
    · exact absurd h hne
    · exact h

theorem byTarget_eq {xs : List (Cand × Instr)} (hne : xs ≠ []) (hu : ∀ x ∈ xs, x.2.upper ≤ 100) :
    Gives (byTarget xs) (fun ys => ys = targetRule xs) := by
  unfold byTarget targetRule
  dsimp only
  have hiff : xs.filter (!·.1.target) = [] ↔ xs.countP (·.1.target) = xs.length := by
    rw [List.filter_eq_nil_iff, List.countP_eq_length]
    simp
  refine Gives.ite (fun h => Gives.ok ?_) fun h => ?_
  · rw [if_neg (fun e => h.2 (hiff.mp e))]
  · refine Gives.ite (fun hk => ?_) fun hk => Gives.ok ?_
    · rw [if_pos (hiff.mpr hk)]
      refine Gives.bind (gives_eachAll (I := LeastOf (fun y : Cand × Instr => y.2.upper) 100) (fun pre x post he s hs => ?_)
        (Or.inl ⟨rfl, rfl⟩)) fun s hs => Gives.ok ?_
      · exact Gives.ite (fun _ => Gives.err) fun _ => Gives.ok (leastStep_of hs (hu x (by rw [he]; simp)))
      · rcases hs with ⟨h, _⟩ | ⟨h, _⟩
        · exact absurd h hne
        · exact h
    · rw [if_neg (fun e => hk (hiff.mp e))]
      have h0 : xs.countP (·.1.target) = 0 := by
        by_contra h0
        exact h ⟨h0, hk⟩
      symm
      rw [List.filter_eq_self]
      intro x hx
      have := List.countP_eq_zero.mp h0 x hx
      simpa using this

theorem last_highest {xs : List (Cand × Instr)} (hne : xs ≠ []) (hid : ∀ x ∈ xs, -1000 < x.2.setId) :
    ∃ pre x post, xs = pre ++ x :: post ∧ (xs.foldl (fun s x => lastStep x s) (none, (-1000 : Int))).1 = some x ∧
      (∀ z ∈ pre, z.2.setId < x.2.setId) ∧ ∀ z ∈ post, z.2.setId ≤ x.2.setId := by
  have := foldl_all (f := fun s x => lastStep x s) (xs := xs) (s := (none, (-1000 : Int)))
    (I := fun seen (s : Option (Cand × Instr) × Int) => (seen = [] ∧ s = (none, -1000)) ∨ ∃ pre x post, seen = pre ++ x :: post ∧
      s = (some x, x.2.setId) ∧ (∀ z ∈ pre, z.2.setId < x.2.setId) ∧ ∀ z ∈ post, z.2.setId ≤ x.2.setId) (Or.inl ⟨rfl, rfl⟩) ?_
  · rcases this with ⟨h, _⟩ | ⟨pre, x, post, h1, h2, h3⟩
    · exact absurd h hne
    · exact ⟨pre, x, post, h1, by rw [h2], h3⟩
  · intro seen y rest he s hs
    right
    have hy := hid y (by rw [he]; simp)
    unfold lastStep
    rcases hs with ⟨rfl, rfl⟩ | ⟨pre, x, post, h1, rfl, h3, h4⟩
    · rw [if_pos hy]
      exact ⟨[], y, [], rfl, rfl, by simp, by simp⟩
    · by_cases hlt : x.2.setId < y.2.setId
      · rw [if_pos hlt]
        refine ⟨seen, y, [], rfl, rfl, ?_, by simp⟩
        intro z hz
        rw [h1] at hz
        rcases List.mem_append.mp hz with h | h
        · have := h3 z h; omega
        · rcases List.mem_cons.mp h with rfl | h
          · exact hlt
          · have := h4 z h; omega
      · rw [if_neg hlt]
        exact ⟨pre, x, post ++ [y], by simp [h1], rfl, h3, snoc_all h4 (by omega)⟩

/-- The candidate chosen is the first with the highest set identifier of those that the rules leave. -/
theorem final_partial {p : Request} {c : Config} {instrs : List Instr} {cands : List Cand} {y : Cand} {g : Int} (hne : cands ≠ [])
    (hg : ∀ g ∈ p.presets, 0 ≤ g.2) (hp : ∀ x ∈ cands, -1000 ≤ x.peak ∧ x.peak ≤ 10000) (hu : ∀ o ∈ instrs, o.upper ≤ 100)
    (hd : ∀ o ∈ instrs, (o.dmxIds.take o.dmxCount).Nodup) (hid : ∀ o ∈ instrs, -1000 < o.setId) (hlt : g < 1000)
    (hone : ∀ o ∈ instrs, o.kind = 3 → o.preset = g) (hc : 0 < c.instrCount)
    (h : finalSelect p c instrs cands = .ok y) :
    ∃ all : List (Cand × Instr), all.map (·.1) = cands ∧ (∀ x ∈ all, instrs[x.1.instr]? = some x.2) ∧
      ∃ pre x post, finalRules instrs c.instrCount p.dmx all = pre ++ x :: post ∧ x.1 = y ∧
        (∀ z ∈ pre, z.2.setId < x.2.setId) ∧ ∀ z ∈ post, z.2.setId ≤ x.2.setId := by
  have : Gives (finalSelect p c instrs cands) (fun y => ∃ all : List (Cand × Instr), all.map (·.1) = cands ∧ (∀ x ∈ all, instrs[x.1.instr]? = some x.2) ∧
      ∃ pre x post, finalRules instrs c.instrCount p.dmx all = pre ++ x :: post ∧ x.1 = y ∧
        (∀ z ∈ pre, z.2.setId < x.2.setId) ∧ ∀ z ∈ post, z.2.setId ≤ x.2.setId) := by
    unfold finalSelect
    refine Gives.bind (looked_gives instrs cands) fun all ⟨h1, h2⟩ => ?_
    have hall : all ≠ [] := by
      intro e
      rw [e] at h1
      exact hne h1.symm
    have hmem : ∀ x ∈ all, x.1 ∈ cands := fun x hx => by rw [← h1]; exact List.mem_map_of_mem hx
    have hin : ∀ x ∈ all, x.2 ∈ instrs := fun x hx => List.mem_of_getElem? (h2 x hx)
    have hfold := foldl_least (v := fun y : Cand × Instr => y.1.peak) (start := 10000) (xs := all) fun x hx => (hp x.1 (hmem x hx)).2
    rcases hfold with ⟨h, _⟩ | ⟨hl, z, hz, hzv⟩
    · exact absurd h hall
    dsimp only
    refine Gives.bind (Q := fun xs => xs = finalRules instrs c.instrCount p.dmx all ∧ xs ≠ [] ∧ ∀ x ∈ xs, x ∈ all) ?_ fun xs ⟨hxs, hne', hsub⟩ => ?_
    · have hz' := hz
      rw [hl] at hz'
      have hzm := mem_least.mp hz'
      refine Gives.ite (fun hlev => ?_) fun hlev => Gives.ok ?_
      · have hf : all.filter (·.1.peak ≤ 0) ≠ [] := nil_iff.mpr ⟨z, List.mem_filter.mpr ⟨hzm.1, by rw [← hzv] at hlev; simpa using hlev⟩⟩
        have hgr := byGroup_mem hg (P := fun x => x ∈ all ∧ x.1.peak ≤ 0) (xs := all.filter (·.1.peak ≤ 0)) (fun x hx => by
          have := List.mem_filter.mp hx
          exact ⟨this.1, by simpa using this.2⟩) hf
        have hge := byGroup_eq (p := p) hg hlt (xs := all.filter (·.1.peak ≤ 0)) fun x hx => hone x.2 (hin x (List.mem_filter.mp hx).1)
        refine Gives.bind (Q := fun xs => (xs ≠ [] ∧ ∀ x ∈ xs, x ∈ all ∧ x.1.peak ≤ 0) ∧ xs = prefer _ _) (fun xs h => ⟨byDmx_mem hgr.2 hgr.1 xs h,
          byDmx_eq (fun x hx => hd x.2 (hin x (hgr.2 x hx).1)) xs h⟩) fun xs ⟨hxs, e1⟩ => ?_
        refine Gives.bind (Q := fun s => (s.1 ≠ [] ∧ ∀ x ∈ s.1, x ∈ all ∧ x.1.peak ≤ 0) ∧ s.1 = least _ _) (fun s h => ⟨fewest_mem hxs.2 hxs.1 s h,
          fewest_eq hc hxs.1 s h⟩) fun s ⟨hs, e2⟩ => ?_
        have hus : ∀ x ∈ s.1, x.2.upper ≤ 100 := fun x hx => hu x.2 (hin x (hs.2 x hx).1)
        refine Gives.bind (Q := fun ys => (ys ≠ [] ∧ ∀ x ∈ ys, x ∈ all ∧ x.1.peak ≤ 0) ∧ ys = targetRule s.1) (fun ys h => ⟨byTarget_mem hs.2 hs.1 hus ys h,
          byTarget_eq hs.1 hus ys h⟩) fun ys ⟨hys, e3⟩ => Gives.ok ?_
        rw [highest_eq (fun x hx => ⟨(hys.2 x hx).2, (hp x.1 (hmem x (hys.2 x hx).1)).1⟩) hys.1]
        refine ⟨?_, least_ne_nil hys.1, fun x hx => (hys.2 x (mem_least.mp hx).1).1⟩
        unfold finalRules
        rw [if_neg hf, e3, e2, e1, hge]
      · have hf : all.filter (·.1.peak ≤ 0) = [] := by
          rw [List.filter_eq_nil_iff]
          intro x hx hle
          have hle : x.1.peak ≤ 0 := by simpa using hle
          apply hlev
          rw [← hzv]
          exact le_trans (hzm.2 x hx) hle
        refine ⟨?_, ?_, ?_⟩
        · unfold finalRules
          rw [if_pos hf, hl]
        · rw [hl]; exact least_ne_nil hall
        · rw [hl]; exact fun x hx => (mem_least.mp hx).1
    · obtain ⟨pre, x, post, e1, e2, e3, e4⟩ := last_highest hne' fun x hx => hid x.2 (hin x (hsub x hx))
      rw [e2]
      exact Gives.ok ⟨all, h1, h2, pre, x, post, by rw [← hxs]; exact e1, rfl, e3, e4⟩
  exact this y h

end Verif.DrcSel
