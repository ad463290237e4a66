import Verif.Props.DrcSelInfo
import Mathlib.Tactic.Linarith
import Mathlib.Tactic.Ring

/-! # Loudness normalisation

What gain the loudness information gives, that the candidate chosen is one of the candidates, and what gain is
applied. -/

namespace Verif.DrcSel

open DrcConfig Res
open DrcLoud hiding errUnexpected

/-- The loudness information of a set is the preferred one, and gives gain and loudness. With DRC off and group
0 requested it need not be the preferred one. -/
theorem loudness_control_partial {p : Request} {infos : List Info} {o o' : Instr} {gs : List (Rat × Rat)}
    (hn : p.normOn = true) (hp : Plain p infos) (hz : NoZero p) (h : loudnessControl p infos o = .ok (o', gs)) :
    o' = { o with setId := max o.setId 0 } ∧
    Levelled p infos o gs := by
  unfold Levelled
  unfold loudnessControl at h
  rw [if_pos hn] at h
  have ho : (if o.setId < 0 then { o with setId := 0 } else o) = ({ o with setId := max o.setId 0 } : Instr) := by
    split
    · rename_i h0
      rw [Int.max_eq_right (by omega)]
    · rename_i h0
      rw [Int.max_eq_left (by omega)]
  have : Gives (α := Instr × List (Rat × Rat)) (do
      let ls ← findInfo p infos { o with setId := max o.setId 0 }
      let gs ← gainsOf p.target ls 0
      .ok (({ o with setId := max o.setId 0 } : Instr), if gs.isEmpty then [(0, undefinedLoudness)] else gs)) (fun r =>
      r.1 = { o with setId := max o.setId 0 } ∧
    ((r.2 = [(0, 1000)] ∧ ∀ a ∈ searchOrder p.dmx (max o.setId 0), ∀ l, ¬ Serves p infos a l) ∨
      ∃ pre a post ls, searchOrder p.dmx (max o.setId 0) = pre ++ a :: post ∧
        (∀ b ∈ pre, ∀ l, ¬ Serves p infos b l) ∧ ls ≠ [] ∧ ls.Sublist infos ∧
        (∀ l, l ∈ ls ↔ Preferred p infos o a l) ∧ r.2.length = ls.length ∧
        ∀ (i : Nat) (l : Info) (g : Rat × Rat), ls[i]? = some l → r.2[i]? = some g →
          Measured l g.2 ∧ g.1 = p.target - g.2)) := by
    refine Gives.bind (firstOf_gives hp _ _) fun ls hls => ?_
    rcases hls with ⟨rfl, hno⟩ | ⟨pre, a, post, h1, h2, h3, h4⟩
    · refine Gives.bind (Gives.ok (Q := fun gs => gs = []) rfl) fun gs hgs => Gives.ok ⟨rfl, Or.inl ⟨?_, hno⟩⟩
      subst hgs
      rfl
    · have hmem : ∀ l, l ∈ ls ↔ Preferred p infos o a l := by
        intro l
        rw [h4, mem_chosen hp hz]
        rfl
      refine Gives.bind (gainsOf_gives p.target ls 0 fun l hl => ((hmem l).mp hl).1.2.2.2.1) fun gs ⟨h5, h6⟩ => Gives.ok ⟨rfl, Or.inr ?_⟩
      have hne : gs ≠ [] := by
        intro e
        rw [e] at h5
        exact h2 (List.length_eq_zero_iff.mp h5.symm)
      refine ⟨pre, a, post, ls, h1, h3, h2, ?_, hmem, ?_⟩
      · rw [h4]
        exact chosen_sublist.trans List.filter_sublist
      · rw [if_neg (by simpa using hne)]
        exact ⟨h5, h6⟩
  dsimp only at h
  rw [ho] at h
  exact this _ h

/-! ## Gains of the candidates -/

theorem put_mem {α : Type} {P : α → Prop} {cap n : Nat} {xs : List α} {x : α} (h : ∀ y ∈ xs, P y) (hx : P x) :
    Gives (put cap xs n x) (fun ys => ∀ y ∈ ys, P y) := by
  unfold put
  refine Gives.ite (fun _ => Gives.ok ?_) fun _ => Gives.ite (fun _ => Gives.ok ?_) fun _ => Gives.ub
  · intro y hy
    rcases List.mem_or_eq_of_mem_set hy with h' | rfl
    · exact h y h'
    · exact hx
  · intro y hy
    rcases List.mem_append.mp hy with h' | h'
    · exact h y h'
    · rw [List.mem_singleton.mp h']; exact hx

theorem checkInfo_mem (p : Request) (infos : List Info) (o : Instr) (d s : Int) :
    Gives (checkInfo p infos o d s) (fun ls => ∀ l ∈ ls, l ∈ infos ∧ Usable l) := by
  have copy : ∀ (keep : Info → Bool) (is : List Nat) (s : List Info × Nat), (∀ l ∈ s.1, l ∈ infos ∧ Usable l) →
      Gives (each (copyIf keep) is s) (fun s => ∀ l ∈ s.1, l ∈ infos ∧ Usable l) := by
    intro keep is s hs
    refine gives_each (I := fun s : List Info × Nat => ∀ l ∈ s.1, l ∈ infos ∧ Usable l) (fun i _ s hs => ?_) hs
    unfold copyIf
    refine Gives.bind (gives_at _ _) fun l hl => ?_
    refine Gives.ite (fun _ => ?_) fun _ => Gives.ok hs
    exact Gives.bind (put_mem hs (hs l (List.mem_of_getElem? hl))) fun arr harr => Gives.ok harr
  unfold checkInfo
  refine Gives.bind (collect_gives infos d s) fun arr harr => ?_
  have harr : ∀ l ∈ arr, l ∈ infos ∧ Usable l := by
    intro l hl
    rw [harr] at hl
    have := mem_forBoth.mp hl
    exact ⟨this.1, this.2.2.2⟩
  refine Gives.bind (Q := fun _ => True) (fun _ _ => trivial) fun t _ => ?_
  refine Gives.bind (Q := fun s => ∀ l ∈ s.1, l ∈ infos ∧ Usable l) ?_ fun s hs => ?_
  · refine Gives.ite (fun _ => Gives.ok harr) fun _ => ?_
    unfold choosePreset
    refine Gives.bind (Q := fun s => ∀ l ∈ s.1, l ∈ infos ∧ Usable l)
      (Gives.ite (fun _ => copy _ _ _ harr) fun _ => Gives.ok harr) fun s hs => ?_
    refine Gives.bind (Q := fun s => ∀ l ∈ s.1, l ∈ infos ∧ Usable l)
      (Gives.ite (fun _ => copy _ _ (s.1, 0) hs) fun _ => Gives.ok hs) fun s hs => ?_
    refine Gives.ite (fun _ => ?_) fun _ => Gives.ok hs
    refine Gives.bind (gives_each (I := fun s : (List Info × Nat) × Int × Int => ∀ l ∈ s.1.1, l ∈ infos ∧ Usable l)
      (fun i _ s hs => ?_) hs) fun r hr => Gives.ok hr
    unfold copyMost
    refine Gives.ite (fun _ => ?_) fun _ => Gives.ok hs
    refine Gives.bind (gives_at _ _) fun l hl => ?_
    refine Gives.ite (fun _ => ?_) fun _ => Gives.ok hs
    exact Gives.bind (put_mem hs (hs l (List.mem_of_getElem? hl))) fun arr harr => Gives.ok harr
  refine Gives.bind (Q := fun s => ∀ l ∈ s.1, l ∈ infos ∧ Usable l) ?_ fun s hs => ?_
  · refine Gives.ite (fun _ => ?_) fun _ => Gives.ok hs
    unfold chooseGroup
    refine Gives.bind (Q := fun s => ∀ l ∈ s.1, l ∈ infos ∧ Usable l)
      (Gives.ite (fun _ => copy _ _ (s.1, 0) hs) fun _ => Gives.ok hs) fun s hs => ?_
    refine Gives.ite (fun _ => ?_) fun _ => Gives.ok hs
    refine Gives.bind (gives_each (I := fun s : (List Info × Nat) × Int => ∀ l ∈ s.1.1, l ∈ infos ∧ Usable l)
      (fun i _ s hs => ?_) hs) fun r hr => Gives.ok hr
    unfold copyLargest
    refine Gives.bind (gives_at _ _) fun l hl => ?_
    refine Gives.ite (fun _ => ?_) fun _ => Gives.ok hs
    exact Gives.bind (put_mem hs (hs l (List.mem_of_getElem? hl))) fun arr harr => Gives.ok harr
  refine Gives.bind (Q := fun s => ∀ l ∈ s.1, l ∈ infos ∧ Usable l)
      (Gives.ite (fun _ => copy _ _ _ hs) fun _ => Gives.ok hs) fun s hs => Gives.ok ?_
  intro l hl
  exact hs l (List.mem_of_mem_take hl)

theorem firstOf_mem {P : List Info → Prop} {f : Int × Int → Res (List Info)} (h0 : P []) (h : ∀ a, Gives (f a) P) :
    ∀ as, Gives (firstOf f as) P
  | [] => Gives.ok h0
  | a :: as => by
    unfold firstOf
    exact Gives.bind (h a) fun xs hxs => Gives.ite (fun _ => firstOf_mem h0 h as) fun _ => Gives.ok hxs

/-- Gain and loudness of a set: none, or the loudness of some loudness information and what is missing to the
target. -/
def Level (p : Request) (infos : List Info) (gain loud : Rat) : Prop :=
  (gain = 0 ∧ loud = 1000) ∨ (p.normOn = true ∧ ∃ l ∈ infos, Measured l loud ∧ gain = p.target - loud)

theorem control_gives (p : Request) (infos : List Info) (o : Instr) :
    Gives (loudnessControl p infos o) (fun r => (r.1 = o ∨ (o.setId < 0 ∧ r.1 = { o with setId := 0 })) ∧ r.2 ≠ [] ∧
      (p.normOn = false → r.1 = o) ∧ (p.normOn = true → 0 ≤ r.1.setId) ∧
      ∀ g ∈ r.2, Level p infos g.1 g.2) := by
  unfold loudnessControl
  cases hn : p.normOn with
  | false =>
    rw [if_neg (by simp)]
    refine Gives.ok ⟨Or.inl rfl, by simp, fun _ => rfl, by simp, ?_⟩
    simp [Level, undefinedLoudness]
  | true =>
    rw [if_pos rfl]
    refine Gives.bind (firstOf_mem (P := fun ls => ∀ l ∈ ls, l ∈ infos ∧ Usable l) (by simp)
      (fun a => checkInfo_mem p infos _ a.1 a.2) _) fun ls hls => ?_
    refine Gives.bind (gainsOf_gives p.target ls 0 fun l hl => (hls l hl).2) fun gs ⟨h1, h2⟩ => Gives.ok ?_
    refine ⟨?_, ?_, by simp, ?_, ?_⟩
    · dsimp only
      split
      · rename_i h0; exact Or.inr ⟨h0, rfl⟩
      · exact Or.inl rfl
    · dsimp only
      split
      · simp
      · rename_i he; simpa using he
    · intro _
      dsimp only
      split
      · simp
      · omega
    · intro g hg
      dsimp only at hg
      split at hg
      · rw [List.mem_singleton] at hg
        subst hg
        exact Or.inl ⟨rfl, rfl⟩
      · obtain ⟨i, hi, e⟩ := List.mem_iff_getElem.mp hg
        have hl : ls[i]? = some ls[i] := List.getElem?_eq_getElem (by omega)
        have := h2 i ls[i] g hl (by rw [List.getElem?_eq_getElem hi, e])
        exact Or.inr ⟨hn, ls[i], (hls _ (List.getElem_mem (by omega))).1, this⟩

/-! ## Peak levels -/

theorem peakLevels_gives (L : Rat → Prop) {instrs : List Instr} {infos : List Info} {o : Instr} {dmx : Int} {slots : List Peak}
    (h0 : L 0) (hi : ∀ l ∈ infos, ((l.dmxId : Int) = dmx ∨ l.dmxId = 0) → ((l.setId : Int) = max o.setId 0 ∨ l.setId = 63) →
      (l.truePresent = true → L l.truePeak) ∧ (l.samplePresent = true → L l.sample))
    (ho : o.peakPresent ≠ 0 → L o.peak) (ht : ∀ t ∈ instrs, t.peakPresent ≠ 0 → L t.peak) :
    Gives (peakLevels instrs infos o dmx slots) (fun r => r.2.length = slots.length ∧ 1 ≤ r.1 ∧
      ∀ j < r.1, ∀ pk, r.2[j]? = some pk → L pk.level ∧ (dmx = 0 → pk.eq = 0)) := by
  let I : Peaks → Prop := fun s => s.slots.length = slots.length ∧
      ∀ j < max s.cnt 1, ∀ pk, s.slots[j]? = some pk → L pk.level ∧ (dmx = 0 → pk.eq = 0)
  have write : ∀ (s : Peaks) (eq : Int) (level : Rat) (explicit : Int), I s → L level → (dmx = 0 → eq = 0) → s.cnt < s.slots.length →
      ∀ k ≤ s.cnt + 1, ∀ b, I ⟨s.slots.set s.cnt ⟨eq, level, explicit⟩, k, b⟩ := by
    intro s eq level explicit hs hl he hc k hk b
    refine ⟨by simpa using hs.1, ?_⟩
    intro j hj pk hpk
    dsimp only at hj hpk
    by_cases e : j = s.cnt
    · subst e
      rw [List.getElem?_set_self hc] at hpk
      cases hpk
      exact ⟨hl, he⟩
    · rw [List.getElem?_set_ne (by omega)] at hpk
      exact hs.2 j (by omega) pk hpk
  have note : ∀ (l : Info) (level : Rat) (explicit : Int) (s : Peaks), I s → L level → Gives (notePeak o l level explicit s) I := by
    intro l level explicit s hs hl
    unfold notePeak
    by_cases hc : s.cnt < s.slots.length
    · rw [if_pos hc]
      refine Gives.bind (Gives.ok (Q := fun x => x = _) rfl) fun x hx => ?_
      subst hx
      exact Gives.ite (fun _ => Gives.ok (write s 0 level explicit hs hl (fun _ => rfl) hc _ (by omega) _)) fun _ =>
        Gives.ok (write s 0 level explicit hs hl (fun _ => rfl) hc _ (by omega) _)
    · rw [if_neg hc]
      exact Gives.bind (Q := fun _ => False) Gives.ub fun _ h => h.elim
  have info : ∀ (which : Info → Bool) (explicit : Int) (s : Peaks), (∀ l, which l = true → ((l.dmxId : Int) = dmx ∨ l.dmxId = 0) ∧
      ((l.setId : Int) = max o.setId 0 ∨ l.setId = 63)) → I s → Gives (each (infoPeak o which explicit) infos s) I := by
    intro which explicit s hwhich hs
    refine gives_each (fun l hl s hs => ?_) hs
    unfold infoPeak
    refine Gives.ite (fun hw => ?_) fun _ => Gives.ok hs
    have hi := hi l hl (hwhich l hw).1 (hwhich l hw).2
    refine Gives.bind (Gives.ite (fun h => note l _ _ s hs (hi.1 h)) fun _ => Gives.ok hs) fun s hs => ?_
    refine Gives.ite (fun h => note l _ _ s hs (hi.2 ?_)) fun _ => Gives.ok hs
    simp only [Bool.and_eq_true] at h
    exact h.2
  have limit : ∀ (eq : Int) (level : Rat) (explicit : Int) (s : Peaks), I s → L level → (dmx = 0 → eq = 0) →
      Gives (limitPeak eq level explicit s) I := by
    intro eq level explicit s hs hl he
    unfold limitPeak
    exact Gives.ite (fun hc => Gives.ok (write s eq level explicit hs hl he hc _ (by omega) _)) fun _ => Gives.ub
  have unl : ∀ (f : Peaks → Res Peaks) (s : Peaks), I s → (∀ s, I s → Gives (f s) I) → Gives (unlessFound f s) I := by
    intro f s hs hf
    unfold unlessFound
    exact Gives.ite (fun _ => Gives.ok hs) fun _ => hf s hs
  unfold peakLevels
  have start : I ⟨slots.set 0 ⟨0, 0, 0⟩, 0, false⟩ := by
    refine ⟨by simp, ?_⟩
    intro j hj pk hpk
    dsimp only at hj hpk
    have : j = 0 := by omega
    subst this
    rw [List.getElem?_set] at hpk
    split at hpk
    · split at hpk
      · cases hpk; exact ⟨h0, fun _ => rfl⟩
      · cases hpk
    · contradiction
  have hlook : lookedUp o = max o.setId 0 := by unfold lookedUp; split <;> omega
  refine Gives.bind (info _ _ _ (fun l h => ?_) start) fun s hs => ?_
  · simp only [Bool.and_eq_true, beq_iff_eq] at h
    exact ⟨Or.inl h.1.symm, Or.inl (by omega)⟩
  refine Gives.bind (unl _ s hs fun s hs => info _ _ _ (fun l h => ?_) hs) fun s hs => ?_
  · simp only [Bool.and_eq_true, beq_iff_eq, anyDrc] at h
    exact ⟨Or.inl h.2.symm, Or.inr (by omega)⟩
  refine Gives.bind (unl _ s hs fun s hs => gives_each (fun d _ s hs => Gives.ite (fun h => ?_) fun _ => Gives.ok hs) hs) fun s hs => ?_
  · refine limit _ _ _ s hs (ho ?_) (fun _ => rfl)
    simp only [Bool.and_eq_true] at h
    simpa using h.2
  refine Gives.bind (unl _ s hs fun s hs => gives_each (fun d _ s hs => Gives.ite (fun h => ?_) fun _ => Gives.ok hs) hs) fun s hs => ?_
  · refine limit _ _ _ s hs (ho ?_) (fun _ => rfl)
    simp only [Bool.and_eq_true] at h
    simpa using h.2
  refine Gives.bind (Q := I) ?_ fun s hs => Gives.ok ?_
  · refine Gives.ite (fun _ => Gives.ok hs) fun hd => ?_
    refine Gives.bind (unl _ s hs fun s hs => info _ _ _ (fun l h => ?_) hs) fun s hs => ?_
    · simp only [Bool.and_eq_true, beq_iff_eq] at h
      exact ⟨Or.inr (by omega), Or.inl (by omega)⟩
    refine Gives.bind (unl _ s hs fun s hs => info _ _ _ (fun l h => ?_) hs) fun s hs => ?_
    · simp only [Bool.and_eq_true, beq_iff_eq, anyDrc] at h
      exact ⟨Or.inr (by omega), Or.inr (by omega)⟩
    refine unl _ s hs fun s hs => gives_each (fun t htm s hs => Gives.ite (fun h => ?_) fun _ => Gives.ok hs) hs
    refine limit _ _ _ s hs (ht t htm ?_) (fun h => absurd h hd)
    simp only [Bool.and_eq_true] at h
    simpa using h.2
  · refine ⟨hs.1, ?_, ?_⟩
    · dsimp only; split <;> omega
    · intro j hj pk hpk
      refine hs.2 j ?_ pk hpk
      dsimp only at hj
      split at hj <;> omega

/-! ## The candidates -/

/-- The range of the values of a stream and of the target. -/
structure Moderate (p : Request) (c : Config) (infos : List Info) : Prop where
  target : -100 ≤ p.target ∧ p.target ≤ 0
  values : ∀ l ∈ infos, ∀ m ∈ l.measures.take l.count, -200 ≤ m.value ∧ m.value ≤ 200
  trues : ∀ l ∈ infos, l.truePresent = true → -200 ≤ l.truePeak ∧ l.truePeak ≤ 200
  samples : ∀ l ∈ infos, l.samplePresent = true → -200 ≤ l.sample ∧ l.sample ≤ 200
  peaks : ∀ o ∈ c.instrs, o.peakPresent ≠ 0 → -200 ≤ o.peak ∧ o.peak ≤ 200
  uppers : ∀ o ∈ c.instrs, o.upper ≤ 100

/-- The instructions are those of the configuration, up to negative set identifiers that have become 0. -/
def Kept (c : Config) (is : List Instr) : Prop :=
  is.length = c.instrs.length ∧ ∀ (i : Nat) (t : Instr), is[i]? = some t →
    ∃ u, c.instrs[i]? = some u ∧ (t = u ∨ (u.setId < 0 ∧ t = { u with setId := 0 }))

theorem Kept.refl (c : Config) : Kept c c.instrs := ⟨rfl, fun _ t h => ⟨t, h, Or.inl rfl⟩⟩

theorem Kept.set {c : Config} {is : List Instr} (h : Kept c is) {i : Nat} {o o' : Instr} (ho : is[i]? = some o)
    (hc : o' = o ∨ (o.setId < 0 ∧ o' = { o with setId := 0 })) : Kept c (is.set i o') := by
  refine ⟨by simpa using h.1, fun j t ht => ?_⟩
  by_cases e : j = i
  · subst e
    rw [List.getElem?_set_self (List.getElem?_eq_some_iff.mp ho).1] at ht
    cases ht
    obtain ⟨u, hu, hou⟩ := h.2 _ o ho
    refine ⟨u, hu, ?_⟩
    rcases hou with rfl | ⟨h1, rfl⟩
    · exact hc
    · rcases hc with rfl | ⟨h2, _⟩
      · exact Or.inr ⟨h1, rfl⟩
      · simp at h2
  · rw [List.getElem?_set_ne (by omega)] at ht
    exact h.2 j t ht

theorem Kept.all {c : Config} {is : List Instr} (h : Kept c is) {P : Instr → Prop} (hP : ∀ u ∈ c.instrs, P u)
    (h0 : ∀ u, P u → P { u with setId := 0 }) : ∀ t ∈ is, P t := by
  intro t ht
  obtain ⟨i, hi⟩ := List.mem_iff_getElem?.mp ht
  obtain ⟨u, hu, e⟩ := h.2 i t hi
  have := hP u (List.mem_of_getElem? hu)
  rcases e with rfl | ⟨_, rfl⟩
  · exact this
  · exact h0 u this

/-- A candidate: its loudness is the target if there is loudness information, and its peak level is moderate. -/
structure CandOk (p : Request) (c : Config) (infos : List Info) (x : Cand) : Prop where
  src : ∃ u r, c.instrs[x.instr]? = some u ∧ loudnessControl p infos u = .ok r ∧ (p.drcOn = false → u.setId < 0) ∧
    (p.drcOn = true → eligible u = true) ∧ ∃ g ∈ r.2, x.gain = g.1 ∧ x.loud = outLoud g.2 g.1
  norm : (x.gain = 0 ∧ x.loud = 1000) ∨ (p.normOn = true ∧ x.loud = p.target ∧ ∃ l ∈ infos, Measured l (p.target - x.gain))
  low : -1000 ≤ x.peak
  high : x.peak ≤ 10000
  instr : x.instr < c.plus

theorem control_kept (p : Request) (infos : List Info) {u t : Instr} (h : t = u ∨ (u.setId < 0 ∧ t = { u with setId := 0 })) :
    ∀ r, loudnessControl p infos t = .ok r → ∃ r', loudnessControl p infos u = .ok r' ∧ r'.2 = r.2 := by
  rcases h with rfl | ⟨hu, rfl⟩
  · exact fun r hr => ⟨r, hr, rfl⟩
  · intro r hr
    unfold loudnessControl at hr ⊢
    cases hn : p.normOn with
    | false =>
      rw [hn, if_neg (by simp)] at hr
      rw [if_neg (by simp)]
      cases hr
      exact ⟨_, rfl, rfl⟩
    | true =>
      rw [hn, if_pos rfl] at hr
      rw [if_pos rfl]
      dsimp only at hr ⊢
      rw [if_neg (by omega)] at hr
      rw [if_pos hu]
      exact ⟨r, hr, rfl⟩

/-- The gain that is applied to the output: none or what some loudness information gives. -/
def AppliedOk (p : Request) (infos : List Info) (g : Rat) : Prop :=
  g = 0 ∨ (p.normOn = true ∧ ∃ l ∈ infos, Measured l (p.target - g))

theorem Level.moderate {p : Request} {c : Config} {infos : List Info} (hm : Moderate p c infos) {g : Rat × Rat}
    (h : Level p infos g.1 g.2) : min g.1 gainMax = g.1 ∧ -300 ≤ g.1 ∧ g.1 ≤ 200 ∧ AppliedOk p infos g.1 ∧
      ((g.1 = 0 ∧ outLoud g.2 g.1 = 1000) ∨ (p.normOn = true ∧ outLoud g.2 g.1 = p.target ∧ ∃ l ∈ infos, Measured l (p.target - g.1))) := by
  rcases h with ⟨h1, h2⟩ | ⟨hn, l, hl, hv, he⟩
  · rw [h1, h2]
    exact ⟨by decide, by norm_num, by norm_num, Or.inl rfl, Or.inl ⟨rfl, by decide⟩⟩
  · have hr : -200 ≤ g.2 ∧ g.2 ≤ 200 := by
      obtain ⟨pre, m, post, e, hmv, _⟩ := hv
      rw [← hmv]
      exact hm.values l hl m (by rw [e]; simp)
    have ht := hm.target
    have h200 : g.1 ≤ 200 := by rw [he]; linarith [ht.2, hr.1]
    have hback : p.target - g.1 = g.2 := by rw [he]; ring
    refine ⟨?_, ?_, h200, Or.inr ⟨hn, l, hl, by rwa [hback]⟩, Or.inr ⟨hn, ?_, l, hl, by rwa [hback]⟩⟩
    · exact min_eq_left (le_trans h200 (by norm_num [gainMax]))
    · rw [he]; linarith [ht.1, hr.2]
    · unfold outLoud
      rw [if_neg, he]
      · ring
      · intro e
        rw [e] at hr
        exact absurd hr.2 (by norm_num [undefinedLoudness])

theorem at_level {L : Rat → Prop} {n place : Nat} {slots : List Peak} (h : ∀ j < n, ∀ pk, slots[j]? = some pk → L pk.level)
    (hp : place < n) : Gives (at_ slots place) (fun pk => L pk.level) :=
  (gives_at _ _).mono fun pk hpk => h place hp pk hpk

/-- What holds in the loop of the pre-selection. -/
structure PreOk (p : Request) (c : Config) (infos : List Info) (s : Pre) : Prop where
  kept : Kept c s.instrs
  cands : ∀ x ∈ s.cands, CandOk p c infos x
  gain : AppliedOk p infos s.gain

theorem snoc_all {α : Type} {P : α → Prop} {xs : List α} {x : α} (h : ∀ y ∈ xs, P y) (hx : P x) : ∀ y ∈ xs ++ [x], P y := by
  intro y hy
  rcases List.mem_append.mp hy with h' | h'
  · exact h y h'
  · rw [List.mem_singleton.mp h']; exact hx

theorem preStep_gives {p : Request} {c : Config} {infos : List Info} (hm : Moderate p c infos) {i : Nat} (hi : i < c.plus)
    {s : Pre} (hs : PreOk p c infos s) : Gives (preStep p c infos i s) (PreOk p c infos) := by
  let L : Rat → Prop := fun v => -200 ≤ v ∧ v ≤ 200
  have levels : ∀ (o : Instr) (is : List Instr), Kept c is → o ∈ is → Gives (peakLevels (is.take c.plus) infos o p.dmx s.slots)
      (fun r => 1 ≤ r.1 ∧ ∀ j < r.1, ∀ pk, r.2[j]? = some pk → L pk.level) := by
    intro o is hk ho
    have hpk : ∀ t ∈ is, t.peakPresent ≠ 0 → L t.peak :=
      hk.all (P := fun t => t.peakPresent ≠ 0 → L t.peak) hm.peaks fun u hu => hu
    refine (peakLevels_gives L ⟨by norm_num, by norm_num⟩ (fun l hl _ _ => ⟨hm.trues l hl, hm.samples l hl⟩) (hpk o ho)
      (fun t ht => hpk t (List.mem_of_mem_take ht))).mono fun r hr => ⟨hr.2.1, fun j hj pk h => (hr.2.2 j hj pk h).1⟩
  unfold preStep
  refine Gives.bind (gives_at _ _) fun o ho => ?_
  obtain ⟨u, hu, hou⟩ := hs.kept.2 i o ho
  have src : ∀ r, loudnessControl p infos o = .ok r → ∀ g ∈ r.2, ((p.drcOn = true ∧ eligible o = true) ∨ (p.drcOn = false ∧ o.setId < 0)) → ∃ u r,
      c.instrs[i]? = some u ∧ loudnessControl p infos u = .ok r ∧ (p.drcOn = false → u.setId < 0) ∧
        (p.drcOn = true → eligible u = true) ∧ ∃ g' ∈ r.2, g.1 = g'.1 ∧ outLoud g.2 g.1 = outLoud g'.2 g'.1 := by
    intro r hr g hg hd
    obtain ⟨r', h1, h2⟩ := control_kept p infos hou r hr
    refine ⟨u, r', hu, h1, fun hoff => ?_, fun hon => ?_, g, by rw [h2]; exact hg, rfl, rfl⟩
    · rcases hd with ⟨hd, _⟩ | ⟨_, hd⟩
      · rw [hoff] at hd; cases hd
      · rcases hou with rfl | ⟨h, _⟩
        · exact hd
        · exact h
    · rcases hd with ⟨_, hd⟩ | ⟨hd, _⟩
      · rcases hou with rfl | ⟨h, rfl⟩
        · exact hd
        · unfold eligible at hd ⊢
          simp only [Bool.and_eq_true] at hd ⊢
          refine ⟨⟨⟨⟨?_, hd.1.1.1.2⟩, hd.1.1.2⟩, hd.1.2⟩, hd.2⟩
          simp [h]
      · rw [hon] at hd; cases hd
  refine Gives.ite (fun _ => Gives.ok hs) fun _ => ?_
  refine Gives.ite (fun hoff => ?_) fun hon => ?_
  · have hoff : p.drcOn = false := by simpa using hoff
    refine Gives.ite (fun hneg => ?_) fun _ => Gives.ok hs
    refine Gives.bind (Q := fun r => loudnessControl p infos o = .ok r) (fun _ h => h) fun r hr => ?_
    obtain ⟨h1, _, _, _, h5⟩ := control_gives p infos o r hr
    have hk := hs.kept.set ho h1
    refine Gives.bind (levels r.1 _ hk (List.mem_of_getElem? (List.getElem?_set_self (List.getElem?_eq_some_iff.mp ho).1))) fun q ⟨_, hq⟩ => ?_
    refine Gives.bind (gives_each (I := fun t : List Cand × Rat => (∀ x ∈ t.1, CandOk p c infos x) ∧ AppliedOk p infos t.2)
      (fun g hg t ht => ?_) ⟨hs.cands, hs.gain⟩) fun t ht => Gives.ok ⟨hk, ht.1, ht.2⟩
    obtain ⟨e, g1, g2, g3, g4⟩ := Level.moderate hm (h5 g hg)
    unfold offCand
    refine Gives.ite (fun _ => Gives.err) fun _ => Gives.ite (fun hp => ?_) fun _ => Gives.ok ht
    refine Gives.bind (at_level hq hp) fun pk hpk => Gives.ok ?_
    dsimp only
    rw [e]
    have hpk : -200 ≤ pk.level ∧ pk.level ≤ 200 := hpk
    exact ⟨snoc_all ht.1 ⟨src r hr g hg (Or.inr ⟨hoff, hneg⟩), g4, by dsimp only; linarith [hpk.1], by dsimp only; linarith [hpk.2], hi⟩, g3⟩
  · have hon : p.drcOn = true := by simpa using hon
    refine Gives.ite (fun helig => ?_) fun _ => Gives.ok hs
    refine Gives.bind (Q := fun _ => True) (fun _ _ => trivial) fun b _ => ?_
    refine Gives.ite (fun _ => ?_) fun _ => Gives.ok hs
    refine Gives.bind (Q := fun r => loudnessControl p infos o = .ok r) (fun _ h => h) fun r hr => ?_
    obtain ⟨h1, _, _, _, h5⟩ := control_gives p infos o r hr
    have hk := hs.kept.set ho h1
    have hmem : r.1 ∈ s.instrs.set i r.1 := List.mem_of_getElem? (List.getElem?_set_self (List.getElem?_eq_some_iff.mp ho).1)
    have hup : r.1.upper ≤ 100 := hk.all (P := fun t => t.upper ≤ 100) hm.uppers (fun u hu => hu) r.1 hmem
    refine Gives.bind (levels r.1 _ hk hmem) fun q ⟨_, hq⟩ => ?_
    refine Gives.bind (gives_each (I := fun t : List Cand × Rat => (∀ x ∈ t.1, CandOk p c infos x) ∧ AppliedOk p infos t.2)
      (fun g hg t ht => ?_) ⟨hs.cands, hs.gain⟩) fun t ht => Gives.ok ⟨hk, ht.1, ht.2⟩
    obtain ⟨e, g1, g2, g3, g4⟩ := Level.moderate hm (h5 g hg)
    unfold onCand
    refine Gives.ite (fun _ => Gives.err) fun _ => ?_
    dsimp only
    rw [e]
    refine Gives.bind (gives_at _ _) fun pk hpk => ?_
    refine Gives.ite (fun _ => Gives.ok ⟨snoc_all ht.1 ?_, g3⟩) fun _ => Gives.ok ⟨ht.1, g3⟩
    have hbase : -1000 ≤ (if peakPlace q.1 q.2 < q.1 then pk.level + g.1 else g.1) ∧
        (if peakPlace q.1 q.2 < q.1 then pk.level + g.1 else g.1) ≤ 10000 := by
      split
      · have : -200 ≤ pk.level ∧ pk.level ≤ 200 := hq _ ‹_› pk hpk
        constructor <;> linarith [this.1, this.2]
      · constructor <;> linarith
    have hmeet : meetsTarget p r.1 = true → -1000 ≤ (if p.normOn = true then p.target - (r.1.upper : Rat) else 0) ∧
        (if p.normOn = true then p.target - (r.1.upper : Rat) else 0) ≤ 10000 := by
      intro hmt
      split
      · rename_i hn
        have hcast : (r.1.upper : Rat) ≤ 100 := by exact_mod_cast hup
        simp only [meetsTarget, hn, Bool.and_eq_true, Bool.true_and, Bool.not_true, Bool.or_false, decide_eq_true_eq] at hmt
        constructor <;> linarith [hm.target.1, hmt.2.1]
      · norm_num
    refine ⟨src r hr g hg (Or.inl ⟨hon, helig⟩), g4, ?_, ?_, hi⟩
    · dsimp only
      split
      · rename_i hc; exact (hmeet hc.1).1
      · exact hbase.1
    · dsimp only
      split
      · rename_i hc; exact (hmeet hc.1).2
      · exact hbase.2

/-- Loops that only copy candidates. -/
theorem copied {P : Cand → Prop} {α : Type} {f : α → List Cand → Res (List Cand)} {as : List α}
    (h : ∀ a ∈ as, ∀ xs, (∀ x ∈ xs, P x) → Gives (f a xs) (fun ys => ∀ y ∈ ys, P y)) :
    Gives (each f as []) (fun ys => ∀ y ∈ ys, P y) :=
  gives_each h (by simp)

theorem preSelect_gives {p : Request} {c : Config} {infos : List Info} (hm : Moderate p c infos) (slots : List Peak) :
    Gives (preSelect p c infos slots) (PreOk p c infos) := by
  unfold preSelect
  refine Gives.bind (gives_each (I := PreOk p c infos) (fun i hi s hs => preStep_gives hm (List.mem_range.mp hi) hs)
    ⟨Kept.refl c, by simp, Or.inl rfl⟩) fun s hs => ?_
  refine Gives.ite (fun _ => ?_) fun _ => Gives.ok hs
  refine Gives.bind (Q := fun _ => True) (fun _ _ => trivial) fun n _ => ?_
  refine Gives.bind (Q := fun _ => True) (fun _ _ => trivial) fun r _ => ?_
  refine Gives.bind (Q := fun ys => ∀ y ∈ ys, CandOk p c infos y) ?_ fun ys hys => Gives.ok ⟨hs.kept, hys, hs.gain⟩
  refine Gives.ite (fun _ => copied fun k _ xs hxs => ?_) fun _ => copied fun k _ xs hxs => ?_
  · unfold noGroupStep
    refine Gives.bind (gives_at _ _) fun x hx => ?_
    refine Gives.bind (gives_at _ _) fun o _ => ?_
    exact Gives.ite (fun _ => gives_push (snoc_all hxs (hs.cands x (List.mem_of_getElem? hx)))) fun _ => Gives.ok hxs
  · unfold groupStep
    refine Gives.bind (gives_at _ _) fun x hx => ?_
    refine Gives.bind (gives_at _ _) fun o _ => ?_
    have hx := hs.cands x (List.mem_of_getElem? hx)
    refine Gives.ite (fun _ => gives_push (snoc_all hxs hx)) fun _ => ?_
    refine Gives.ite (fun _ => ?_) fun _ => Gives.ok hxs
    exact gives_each (I := fun xs => ∀ x ∈ xs, CandOk p c infos x)
      (fun g _ xs hxs => Gives.ite (fun _ => gives_push (snoc_all hxs hx)) fun _ => Gives.ok hxs) hxs

end Verif.DrcSel
