import Verif.Proofs.Sel
import Verif.Spec.DrcSel

/-! # The loudness information a DRC set is normalised with -/

namespace Verif.DrcSel

open DrcConfig Res
open DrcLoud hiding errUnexpected

/-- The entries at the places of a list. -/
def vals (all : List Info) (is : List Nat) : List Info := is.filterMap (all[·]?)

theorem vals_snoc (all : List Info) (is : List Nat) (i : Nat) : vals all (is ++ [i]) = vals all is ++ (all[i]?).toList := by
  unfold vals
  rw [List.filterMap_append]
  cases h : all[i]? <;> simp [h]

theorem collect_gives (infos : List Info) (d s : Int) :
    Gives (collect infos d s) (fun arr => arr = infos.filter (fun l => d = l.dmxId ∧ s = l.setId ∧ hasLoudness l)) := by
  unfold collect
  refine gives_eachAll (I := fun pre arr => arr = pre.filter (fun l => d = l.dmxId ∧ s = l.setId ∧ hasLoudness l)) ?_ rfl
  intro pre x post _ arr he
  subst he
  refine Gives.ite (fun h => gives_push ?_) fun h => Gives.ok ?_
  · simp [List.filter_append, h]
  · rw [List.filter_append]
    simp [h]

/-- Places of entries that `P` holds of, in order. -/
structure Places (all : List Info) (n : Nat) (P : Info → Bool) (is : List Nat) : Prop where
  sorted : is.Pairwise (· < ·)
  below : ∀ i ∈ is, i < n
  vals : vals all is = (all.take n).filter P

theorem Places.nil (all : List Info) (P : Info → Bool) : Places all 0 P [] := ⟨by simp, by simp, by simp [DrcSel.vals]⟩

theorem Places.skip {all pre post : List Info} {x : Info} {P : Info → Bool} {is : List Nat} (he : all = pre ++ x :: post)
    (h : Places all pre.length P is) (hx : P x = false) : Places all (pre.length + 1) P is := by
  refine ⟨h.sorted, fun i hi => by have := h.below i hi; omega, ?_⟩
  rw [h.vals, he]
  simp [List.take_append, List.filter_append, hx, List.take_of_length_le (Nat.le_succ pre.length)]

theorem Places.add {all pre post : List Info} {x : Info} {P : Info → Bool} {is : List Nat} (he : all = pre ++ x :: post)
    (h : Places all pre.length P is) (hx : P x = true) : Places all (pre.length + 1) P (is ++ [pre.length]) := by
  refine ⟨?_, ?_, ?_⟩
  · rw [List.pairwise_append]
    exact ⟨h.sorted, by simp, fun i hi j hj => by
      have := h.below i hi
      simp only [List.mem_singleton] at hj
      omega⟩
  · intro i hi
    rw [List.mem_append] at hi
    rcases hi with hi | hi
    · have := h.below i hi; omega
    · simp only [List.mem_singleton] at hi; omega
  · rw [vals_snoc, h.vals, he]
    simp [List.take_append, List.filter_append, hx, List.take_of_length_le (Nat.le_succ pre.length)]

def isPlain (l : Info) : Bool := l.kind == 0
def isGroup (p : Request) (l : Info) : Bool := l.kind == 2 && p.groups.contains l.group
def isPreset (p : Request) (l : Info) : Bool := l.kind == 3 && (p.presets.map (·.1)).contains l.preset

theorem pushGroup (v : Int) (i : Nat) (xs : List Nat) (gs : List Int) (hn : gs.Nodup) :
    Gives (each (fun g xs => if v = g then push infoMax xs i else .ok xs) gs xs)
      (fun ys => ys = if v ∈ gs then xs ++ [i] else xs) := by
  refine gives_eachAll (I := fun pre ys => ys = if v ∈ pre then xs ++ [i] else xs) ?_ (by simp)
  intro pre g post he ys hy
  subst hy
  have hg : g ∉ pre := by
    rw [he, List.nodup_append] at hn
    intro hg
    exact hn.2.2 g hg g (by simp) rfl
  refine Gives.ite (fun h => gives_push ?_) fun h => Gives.ok ?_
  · subst h
    rw [if_neg hg, if_pos (by simp)]
  · by_cases hv : v ∈ pre
    · rw [if_pos hv, if_pos (by simp [hv])]
    · rw [if_neg hv, if_neg (by simp [hv, h])]

theorem sort_gives (p : Request) (hg : p.groups.Nodup) (hp : p.presets.length ≤ 1) (arr : List Info) :
    Gives (each (sortStep p) arr (0, ⟨[], [], []⟩)) (fun t => Places arr arr.length isPlain t.2.plain ∧
      Places arr arr.length (isGroup p) t.2.group ∧ Places arr arr.length (isPreset p) (t.2.preset.map (·.1)) ∧
      ∀ q ∈ t.2.preset, ∃ g ∈ p.presets, q.2 = g.2) := by
  have := gives_eachAll (f := sortStep p) (xs := arr) (s := (0, ⟨[], [], []⟩))
    (I := fun pre t => t.1 = pre.length ∧ Places arr pre.length isPlain t.2.plain ∧
      Places arr pre.length (isGroup p) t.2.group ∧ Places arr pre.length (isPreset p) (t.2.preset.map (·.1)) ∧
      ∀ q ∈ t.2.preset, ∃ g ∈ p.presets, q.2 = g.2) ?_
    ⟨rfl, Places.nil _ _, Places.nil _ _, Places.nil _ _, by simp⟩
  · exact this.mono fun t ht => ht.2
  intro pre x post he t ⟨h1, h0, h2, h3, hm⟩
  unfold sortStep
  simp only [List.length_append, List.length_singleton]
  refine Gives.ite (fun hk => ?_) fun hk0 => Gives.ite (fun hk => ?_) fun hk2 => Gives.ite (fun hk => ?_) fun hk3 => ?_
  · refine Gives.bind (Q := fun xs => xs = t.2.plain ++ [pre.length]) (gives_push (by rw [h1])) fun xs hx => Gives.ok ?_
    subst hx
    exact ⟨by rw [h1], h0.add he (by simp [isPlain, hk]), h2.skip he (by simp [isGroup, hk]),
      h3.skip he (by simp [isPreset, hk]), hm⟩
  · refine Gives.bind (pushGroup x.group t.1 t.2.group p.groups.reverse (by simpa [List.Nodup, List.pairwise_reverse, ne_comm] using hg)) fun xs hx => Gives.ok ?_
    subst hx
    refine ⟨by rw [h1], h0.skip he (by simp [isPlain, hk]), ?_, h3.skip he (by simp [isPreset, hk]), hm⟩
    rw [h1]
    by_cases hv : x.group ∈ p.groups
    · rw [if_pos (by simpa using hv)]
      exact h2.add he (by simp [isGroup, hk, hv])
    · rw [if_neg (by simpa using hv)]
      exact h2.skip he (by simp [isGroup, hv])
  · match hq : p.presets, hp with
    | [], _ =>
      refine Gives.bind (Q := fun xs => xs = t.2.preset) ?_ fun xs hx => Gives.ok ?_
      · simp only [List.reverse_nil, each]
        exact Gives.ok rfl
      · subst hx
        exact ⟨by rw [h1], h0.skip he (by simp [isPlain, hk]), h2.skip he (by simp [isGroup, hk]),
          h3.skip he (by simp [isPreset, hq]), hq ▸ hm⟩
    | [g], _ =>
      refine Gives.bind (Q := fun xs => xs = if x.preset = g.1 then t.2.preset ++ [(pre.length, g.2)] else t.2.preset) ?_
        fun xs hx => Gives.ok ?_
      · simp only [List.reverse_singleton, each]
        refine Gives.bind (Q := fun xs => xs = if x.preset = g.1 then t.2.preset ++ [(pre.length, g.2)] else t.2.preset) ?_
          fun xs hx => Gives.ok hx
        refine Gives.ite (fun h => gives_push ?_) fun h => Gives.ok ?_
        · rw [if_pos h, h1]
        · rw [if_neg h]
      · subst hx
        refine ⟨by rw [h1], h0.skip he (by simp [isPlain, hk]), h2.skip he (by simp [isGroup, hk]), ?_, ?_⟩
        · dsimp only
          split
          · rename_i h
            rw [List.map_append]
            exact h3.add he (by simp [isPreset, hq, hk, h])
          · rename_i h
            exact h3.skip he (by simp [isPreset, hq, hk, h])
        · dsimp only
          intro q hqm
          split at hqm
          · rw [List.mem_append] at hqm
            rcases hqm with hqm | hqm
            · have := hm q hqm
              rwa [hq] at this
            · simp only [List.mem_singleton] at hqm
              exact ⟨g, by simp, by rw [hqm]⟩
          · have := hm q hqm
            rwa [hq] at this
  · refine Gives.ok ⟨by rw [h1], h0.skip he (by simp [isPlain, hk0]), h2.skip he (by simp [isGroup, hk2]),
      h3.skip he (by simp [isPreset, hk3]), hm⟩

theorem le_of_sorted {l : List Nat} (h : l.Pairwise (· < ·)) : ∀ (k : Nat) (hk : k < l.length), k ≤ l[k]
  | 0, _ => Nat.zero_le _
  | k + 1, hk => by
    have := le_of_sorted h k (by omega)
    have := List.pairwise_iff_getElem.mp h k (k + 1) (by omega) hk (by omega)
    omega

theorem place_le {pre post : List Nat} {x : Nat} (h : (pre ++ x :: post).Pairwise (· < ·)) : pre.length ≤ x := by
  have := le_of_sorted h pre.length (by simp)
  simpa using this

theorem take_set_snoc {α : Type} (xs : List α) (n : Nat) (x : α) (h : n < xs.length) :
    (xs.set n x).take (n + 1) = xs.take n ++ [x] := by
  rw [List.take_succ, List.take_set_of_le (Nat.le_refl n), List.getElem?_set_self h]
  rfl

theorem put_lt {α : Type} (cap : Nat) (xs : List α) (n : Nat) (x : α) (h : n < xs.length) :
    put cap xs n x = .ok (xs.set n x) := by
  unfold put
  rw [if_pos h]

theorem copyIf_gives (keep : Info → Bool) {all : List Info} {P : Info → Bool} {is : List Nat}
    (h : Places all all.length P is) :
    Gives (each (copyIf keep) is (all, 0)) (fun s => s.1.take s.2 = (all.filter P).filter keep ∧
      s.2 ≤ s.1.length ∧ (s.2 = 0 → s.1 = all)) := by
  have := gives_eachAll (f := copyIf keep) (xs := is) (s := (all, 0))
    (I := fun pre s => s.1.length = all.length ∧ s.2 ≤ pre.length ∧ s.2 ≤ all.length ∧ (∀ j, s.2 ≤ j → s.1[j]? = all[j]?) ∧
      s.1.take s.2 = (vals all pre).filter keep ∧ (s.2 = 0 → s.1 = all)) ?_ (by simp [vals])
  · refine this.mono fun s ⟨h1, _, h3, _, h5, h6⟩ => ⟨?_, by omega, h6⟩
    rw [h5, h.vals, List.take_length]
  intro pre x post he s ⟨h1, h2, h3, h4, h5, h6⟩
  unfold copyIf
  have hx : pre.length ≤ x := place_le (he ▸ h.sorted)
  have hb : x < all.length := h.below x (by rw [he]; simp)
  refine Gives.bind (gives_at _ _) fun l hl => ?_
  rw [h4 x (by omega)] at hl
  refine Gives.ite (fun hk => ?_) fun hk => ?_
  · rw [put_lt _ _ _ _ (by omega)]
    refine Gives.ok ⟨by simpa using h1, by simp only [List.length_append, List.length_singleton]; omega, by dsimp only; omega, ?_, ?_, by simp⟩
    · intro j hj
      dsimp only at hj ⊢
      rw [List.getElem?_set_ne (by omega)]
      exact h4 j (by omega)
    · dsimp only
      rw [take_set_snoc _ _ _ (by omega), h5, vals_snoc, hl, List.filter_append]
      simp [hk]
  · refine Gives.ok ⟨h1, by simp only [List.length_append, List.length_singleton]; omega, h3, h4, ?_, h6⟩
    rw [h5, vals_snoc, hl, List.filter_append]
    simp [hk]

/-- Entries with the largest group. -/
def largest (xs : List Info) : List Info := xs.filter fun l => xs.all fun l' => decide (l'.group ≤ l.group)

theorem copyLargest_gives {all : List Info} {P : Info → Bool} {is : List Nat}
    (h : Places all all.length P is) (hpos : ∀ l ∈ all, P l = true → 0 ≤ l.group) :
    Gives (each copyLargest is ((all, 0), 0)) (fun s => s.1.1.take s.1.2 = largest (all.filter P) ∧
      s.1.2 ≤ s.1.1.length) := by
  have := gives_eachAll (f := copyLargest) (xs := is) (s := ((all, 0), 0))
    (I := fun pre s => s.1.1.length = all.length ∧ s.1.2 ≤ pre.length ∧ s.1.2 ≤ all.length ∧
      (∀ j, pre.length ≤ j → s.1.1[j]? = all[j]?) ∧ (∀ l ∈ vals all pre, l.group ≤ s.2) ∧
      ((∃ l ∈ vals all pre, l.group = s.2) ∨ vals all pre = [] ∧ s.2 = 0) ∧
      s.1.1.take s.1.2 = (vals all pre).filter (fun l => l.group == s.2)) ?_ (by simp [vals])
  · refine this.mono fun s ⟨h1, _, h3, _, h5, h6, h7⟩ => ⟨?_, by omega⟩
    have hv : vals all is = all.filter P := by rw [h.vals, List.take_length]
    rw [h7]
    rw [hv] at h5 h6 ⊢
    unfold largest
    refine List.filter_congr fun l hl => ?_
    rw [Bool.eq_iff_iff]
    simp only [beq_iff_eq, List.all_eq_true, decide_eq_true_eq]
    constructor
    · intro e l' hl'
      rw [e]
      exact h5 l' hl'
    · intro hall
      rcases h6 with ⟨l', hl', e⟩ | e
      · have := hall l' hl'
        have := h5 l hl
        omega
      · rw [e.1] at hl
        cases hl
  intro pre x post he s ⟨h1, h2, h3, h4, h5, h6, h7⟩
  unfold copyLargest
  have hx : pre.length ≤ x := place_le (he ▸ h.sorted)
  have hb : x < all.length := h.below x (by rw [he]; simp)
  refine Gives.bind (gives_at _ _) fun l hl => ?_
  rw [h4 x hx] at hl
  have hlmem : l ∈ all.filter P := by
    have : l ∈ vals all is := List.mem_filterMap.mpr ⟨x, by rw [he]; simp, hl⟩
    rwa [h.vals, List.take_length] at this
  have hl0 : 0 ≤ l.group := by
    have := List.mem_filter.mp hlmem
    exact hpos l this.1 this.2
  have hv : vals all (pre ++ [x]) = vals all pre ++ [l] := by rw [vals_snoc, hl]; rfl
  refine Gives.ite (fun hk => ?_) fun hk => ?_
  · have hn : (if s.2 < l.group then 0 else s.1.2) < s.1.1.length := by split <;> omega
    dsimp only
    rw [put_lt _ _ _ _ hn]
    refine Gives.ok ⟨by simpa using h1, ?_, ?_, ?_, ?_, ?_, ?_⟩
    · simp only [List.length_append, List.length_singleton]; split <;> omega
    · dsimp only; omega
    · intro j hj
      simp only [List.length_append, List.length_singleton] at hj
      dsimp only
      rw [List.getElem?_set_ne (by split <;> omega)]
      exact h4 j (by omega)
    · intro l' hl'
      rw [hv, List.mem_append, List.mem_singleton] at hl'
      rcases hl' with hl' | rfl
      · have := h5 l' hl'; dsimp only; omega
      · dsimp only; omega
    · refine Or.inl ⟨l, by rw [hv]; simp, by dsimp only; omega⟩
    · dsimp only
      rw [take_set_snoc _ _ _ hn, hv, List.filter_append]
      by_cases hlt : s.2 < l.group
      · rw [if_pos hlt]
        have : (vals all pre).filter (fun l' => l'.group == max s.2 l.group) = [] := by
          rw [List.filter_eq_nil_iff]
          intro l' hl'
          have := h5 l' hl'
          simp only [beq_iff_eq]
          omega
        rw [this]
        have e : max s.2 l.group = l.group := by omega
        simp [e]
      · rw [if_neg hlt]
        have e : max s.2 l.group = s.2 := by omega
        have e2 : l.group = s.2 := by omega
        rw [h7, e]
        simp [e2]
  · refine Gives.ok ⟨h1, by simp only [List.length_append, List.length_singleton]; omega, h3, ?_, ?_, ?_, ?_⟩
    · intro j hj
      exact h4 j (by simp only [List.length_append, List.length_singleton] at hj; omega)
    · intro l' hl'
      rw [hv, List.mem_append, List.mem_singleton] at hl'
      rcases hl' with hl' | rfl
      · exact h5 l' hl'
      · omega
    · rcases h6 with ⟨l', hl', e⟩ | e
      · exact Or.inl ⟨l', by rw [hv]; simp [hl'], e⟩
      · omega
    · rw [h7, hv, List.filter_append]
      have : ¬ l.group = s.2 := by omega
      simp [this]

theorem copyMost_gives {all : List Info} {P : Info → Bool} {qs : List (Nat × Int)} (g : Int × Int) (hg1 : 0 ≤ g.1)
    (hg2 : 0 ≤ g.2) (h : Places all all.length P (qs.map (·.1))) (hm : ∀ q ∈ qs, q.2 = g.2)
    (hp : ∀ l ∈ all, P l = true → l.preset = g.1) :
    Gives (each copyMost qs ((all, 0), 0, 0)) (fun s => s.1.1.take s.1.2 = all.filter P ∧ s.1.2 ≤ s.1.1.length) := by
  have := gives_eachAll (f := copyMost) (xs := qs) (s := ((all, 0), 0, 0))
    (I := fun pre s => s.1.1.length = all.length ∧ s.1.2 = pre.length ∧ s.1.2 ≤ all.length ∧
      (∀ j, pre.length ≤ j → s.1.1[j]? = all[j]?) ∧ s.1.1.take s.1.2 = vals all (pre.map (·.1)) ∧
      (s.2 = (g.2, g.1) ∨ s.2 = (0, 0) ∧ pre = [])) ?_ (by simp [vals])
  · refine this.mono fun s ⟨h1, _, h3, _, h5, _⟩ => ⟨?_, by omega⟩
    rw [h5, h.vals, List.take_length]
  intro pre x post he s ⟨h1, h2, h3, h4, h5, h6⟩
  unfold copyMost
  have hx : pre.length ≤ x.1 := by
    have := h.sorted
    rw [he, List.map_append, List.map_cons] at this
    simpa using place_le this
  have hb : x.1 < all.length := h.below x.1 (by rw [he]; simp)
  have hxm : x.2 = g.2 := hm x (by rw [he]; simp)
  rw [hxm]
  refine Gives.ite (fun hle => ?_) fun hle => ?_
  · refine Gives.bind (gives_at _ _) fun l hl => ?_
    rw [h4 x.1 hx] at hl
    have hlmem : l ∈ all.filter P := by
      have : l ∈ vals all (qs.map (·.1)) := List.mem_filterMap.mpr ⟨x.1, by rw [he]; simp, hl⟩
      rwa [h.vals, List.take_length] at this
    have hlp : l.preset = g.1 := by
      have := List.mem_filter.mp hlmem
      exact hp l this.1 this.2
    rw [hlp]
    have hv : vals all ((pre ++ [x]).map (·.1)) = vals all (pre.map (·.1)) ++ [l] := by
      rw [List.map_append, List.map_singleton, vals_snoc, hl]; rfl
    have hn : (if s.2.2 < g.1 then 0 else if s.2.1 < g.2 then 0 else s.1.2) = pre.length := by
      rcases h6 with e | ⟨e, rfl⟩
      · rw [e]; simpa using h2
      · simp [h2]
    refine Gives.ite (fun hle2 => ?_) fun hle2 => ?_
    · dsimp only
      rw [hn, put_lt _ _ _ _ (by omega)]
      refine Gives.ok ⟨by simpa using h1, by simp, by dsimp only; omega, ?_, ?_, ?_⟩
      · intro j hj
        simp only [List.length_append, List.length_singleton] at hj
        dsimp only
        rw [List.getElem?_set_ne (by omega)]
        exact h4 j (by omega)
      · dsimp only
        rw [take_set_snoc _ _ _ (by omega), hv, ← h5, h2]
      · left
        rcases h6 with e | ⟨e, rfl⟩
        · simp [e]
        · rw [e]
          simp only [Prod.mk.injEq]
          constructor
          · split <;> omega
          · omega
    · exfalso
      rcases h6 with e | ⟨e, rfl⟩
      · rw [e] at hle2; exact hle2 (Int.le_refl _)
      · rw [e] at hle2; exact hle2 hg1
  · exfalso
    rcases h6 with e | ⟨e, rfl⟩
    · rw [e] at hle; exact hle (Int.le_refl _)
    · rw [e] at hle; exact hle hg2

theorem filter_const {α : Type} {P Q : α → Bool} {xs : List α} {b : Bool} (h : ∀ x ∈ xs, P x = true → Q x = b) :
    (xs.filter P).filter Q = if b then xs.filter P else [] := by
  cases b with
  | true =>
    simp only [if_true]
    refine List.filter_eq_self.mpr fun x hx => ?_
    have := List.mem_filter.mp hx
    exact h x this.1 this.2
  | false =>
    simp only [Bool.false_eq_true, if_false]
    refine List.filter_eq_nil_iff.mpr fun x hx => ?_
    have := List.mem_filter.mp hx
    simp [h x this.1 this.2]

theorem take_nil {α : Type} {xs : List α} {n : Nat} (h : xs.take n = []) (hn : n ≤ xs.length) : n = 0 := by
  have := congrArg List.length h
  simp only [List.length_take, List.length_nil] at this
  omega

theorem choosePreset_gives {p : Request} {infos : List Info} (hp : Plain p infos) {all : List Info}
    (hsub : ∀ l ∈ all, l ∈ infos) (req : Int) {qs : List (Nat × Int)}
    (h : Places all all.length (isPreset p) (qs.map (·.1))) (hm : ∀ q ∈ qs, ∃ g ∈ p.presets, q.2 = g.2)
    (hne : all.filter (isPreset p) ≠ []) :
    Gives (choosePreset p req qs all) (fun s => s.1.take s.2 = all.filter (isPreset p) ∧ s.2 ≤ s.1.length) := by
  obtain ⟨g, hg⟩ : ∃ g, p.presets = [g] := by
    match hq : p.presets, hp.presets with
    | [g], _ => exact ⟨g, rfl⟩
    | [], _ =>
      exfalso
      apply hne
      rw [List.filter_eq_nil_iff]
      simp [isPreset, hq]
  have hpre : ∀ l ∈ all, isPreset p l = true → l.preset = g.1 := by
    intro l _ hl
    simpa [isPreset, hg] using (Bool.and_eq_true_iff.mp hl).2
  have hg1 : 0 ≤ g.1 := by
    obtain ⟨l, hl⟩ := List.exists_mem_of_ne_nil _ hne
    have hl := List.mem_filter.mp hl
    rw [← hpre l hl.1 hl.2]
    exact hp.preset l (hsub l hl.1) (by simpa using (Bool.and_eq_true_iff.mp hl.2).1)
  have step : ∀ (c : Prop) [Decidable c] (v : Int), Gives (if c then each (copyIf (·.preset == v)) (qs.map (·.1)) (all, 0) else Res.ok (all, 0))
      (fun s => (s.1.take s.2 = all.filter (isPreset p) ∧ s.2 ≤ s.1.length ∧ s.2 ≠ 0) ∨ s = (all, 0)) := by
    intro c _ v
    refine Gives.ite (fun _ => ?_) fun _ => Gives.ok (Or.inr rfl)
    refine (copyIf_gives (·.preset == v) h).mono fun s ⟨h1, h2, h3⟩ => ?_
    rw [filter_const (b := g.1 == v) (fun l hl hl2 => by rw [hpre l hl hl2])] at h1
    split at h1
    · left
      refine ⟨h1, h2, ?_⟩
      intro h0
      rw [h0] at h1
      exact hne h1.symm
    · right
      have h0 := take_nil h1 h2
      exact Prod.ext (h3 h0) h0
  unfold choosePreset
  refine Gives.bind (step _ req) fun s hs => ?_
  refine Gives.bind (Q := fun s => (s.1.take s.2 = all.filter (isPreset p) ∧ s.2 ≤ s.1.length ∧ s.2 ≠ 0) ∨ s = (all, 0)) ?_
    fun s hs => ?_
  · rcases hs with hs | rfl
    · rw [if_neg (by simp [hs.2.2])]
      exact Gives.ok (Or.inl hs)
    · exact step _ p.prefer
  · rcases hs with hs | rfl
    · rw [if_neg hs.2.2]
      exact Gives.ok ⟨hs.1, hs.2.1⟩
    · rw [if_pos rfl]
      refine Gives.bind (copyMost_gives g hg1 (hp.members g (by simp [hg])) h ?_ hpre) fun r hr => Gives.ok hr
      intro q hq
      obtain ⟨g', hg', e⟩ := hm q hq
      rw [hg, List.mem_singleton] at hg'
      rw [e, hg']

theorem exists_largest : ∀ {xs : List Info}, xs ≠ [] → ∃ l ∈ xs, ∀ l' ∈ xs, l'.group ≤ l.group
  | [x], _ => ⟨x, by simp, by simp⟩
  | x :: y :: ys, _ => by
    obtain ⟨l, hl, hall⟩ := exists_largest (xs := y :: ys) (by simp)
    by_cases h : l.group ≤ x.group
    · refine ⟨x, by simp, fun l' hl' => ?_⟩
      rcases List.mem_cons.mp hl' with rfl | hl'
      · exact Int.le_refl _
      · have := hall l' hl'; omega
    · refine ⟨l, by simp [hl], fun l' hl' => ?_⟩
      rcases List.mem_cons.mp hl' with rfl | hl'
      · omega
      · exact hall l' hl'

theorem mem_largest {xs : List Info} {l : Info} : l ∈ largest xs ↔ l ∈ xs ∧ ∀ l' ∈ xs, l'.group ≤ l.group := by
  simp [largest]

/-- What is chosen among the entries with a group. -/
def chosenGroup (req : Int) (t2 : List Info) : List Info :=
  if req ≠ -1 ∧ t2.filter (·.group == req) ≠ [] then t2.filter (·.group == req) else largest t2

theorem chooseGroup_gives {all : List Info} {P : Info → Bool} {is : List Nat} (req : Int)
    (h : Places all all.length P is) (hpos : ∀ l ∈ all, P l = true → 0 ≤ l.group) :
    Gives (chooseGroup req is all) (fun s => s.1.take s.2 = chosenGroup req (all.filter P) ∧ s.2 ≤ s.1.length) := by
  unfold chooseGroup chosenGroup
  refine Gives.bind (Q := fun s => if req ≠ -1 ∧ (all.filter P).filter (·.group == req) ≠ [] then
      s.1.take s.2 = (all.filter P).filter (·.group == req) ∧ s.2 ≤ s.1.length ∧ s.2 ≠ 0 else s = (all, 0)) ?_ fun s hs => ?_
  · refine Gives.ite (fun hr => ?_) fun hr => Gives.ok ?_
    · refine (copyIf_gives (·.group == req) h).mono fun s ⟨h1, h2, h3⟩ => ?_
      split
      · rename_i hc
        refine ⟨h1, h2, fun h0 => ?_⟩
        rw [h0] at h1
        exact hc.2 h1.symm
      · rename_i hc
        have h0 := take_nil (h1.trans (Classical.not_not.mp fun hne => hc ⟨hr, hne⟩)) h2
        exact Prod.ext (h3 h0) h0
    · rw [if_neg (fun hc => hr hc.1)]
  · split at hs
    · rename_i hc
      rw [if_neg hs.2.2, if_pos hc]
      exact Gives.ok ⟨hs.1, hs.2.1⟩
    · rename_i hc
      subst hs
      rw [if_pos rfl, if_neg hc]
      exact Gives.bind (copyLargest_gives h hpos) fun r hr => Gives.ok hr

theorem chosenGroup_ne_nil {req : Int} {t2 : List Info} (h : t2 ≠ []) : chosenGroup req t2 ≠ [] := by
  unfold chosenGroup
  split
  · rename_i hc; exact hc.2
  · obtain ⟨l, hl, hall⟩ := exists_largest h
    exact List.ne_nil_of_mem (mem_largest.mpr ⟨hl, hall⟩)

/-- What is chosen. -/
def chosen (p : Request) (req : Int) (arr : List Info) : List Info :=
  if arr.filter (isPreset p) ≠ [] then arr.filter (isPreset p)
  else if arr.filter (isGroup p) ≠ [] then chosenGroup req (arr.filter (isGroup p))
  else arr.filter isPlain

theorem checkInfo_gives {p : Request} {infos : List Info} (hp : Plain p infos) (o : Instr) (d s : Int) :
    Gives (checkInfo p infos o d s)
      (fun ls => ls = chosen p (asked p o).1 (infos.filter (fun l => d = l.dmxId ∧ s = l.setId ∧ hasLoudness l))) := by
  unfold checkInfo
  refine Gives.bind (collect_gives infos d s) fun arr harr => ?_
  rw [← harr]
  have hsub : ∀ l ∈ arr, l ∈ infos := fun l hl => by rw [harr] at hl; exact (List.mem_filter.mp hl).1
  clear harr
  refine Gives.bind (sort_gives p hp.groups hp.presets arr) fun t ⟨h0, h2, h3, hm⟩ => ?_
  have empty : ∀ {α : Type} {P : Info → Bool} {is : List α} {f : α → Nat}, Places arr arr.length P (is.map f) →
      (is.isEmpty = true ↔ arr.filter P = []) := by
    intro α P is f hpl
    have hv := hpl.vals
    rw [List.take_length] at hv
    rw [← hv, List.isEmpty_iff]
    constructor
    · intro e; subst e; rfl
    · intro e
      by_contra hne
      obtain ⟨i, hi⟩ := List.exists_mem_of_ne_nil _ hne
      have hb := hpl.below (f i) (List.mem_map_of_mem hi)
      have : arr[f i] ∈ vals arr (is.map f) :=
        List.mem_filterMap.mpr ⟨f i, List.mem_map_of_mem hi, List.getElem?_eq_getElem hb⟩
      rw [e] at this
      cases this
  refine Gives.bind (Q := fun s => if arr.filter (isPreset p) ≠ [] then s.1.take s.2 = arr.filter (isPreset p) ∧ s.2 ≠ 0
    else s = (arr, 0)) ?_ fun s hs => ?_
  · refine Gives.ite (fun he => Gives.ok ?_) fun he => ?_
    · rw [if_neg (by simpa using (empty h3).mp he)]
    · have hne : arr.filter (isPreset p) ≠ [] := fun e => he ((empty h3).mpr e)
      refine (choosePreset_gives hp hsub _ h3 hm hne).mono fun s hs => ?_
      rw [if_pos hne]
      refine ⟨hs.1, fun h0 => ?_⟩
      rw [h0] at hs
      exact hne hs.1.symm
  unfold chosen
  by_cases hpre : arr.filter (isPreset p) ≠ []
  · rw [if_pos hpre] at hs ⊢
    rw [if_neg (by simp [hs.2])]
    refine Gives.bind (Gives.ok (Q := fun r => r = s) rfl) fun r hr => ?_
    subst hr
    rw [if_neg hs.2]
    refine Gives.bind (Gives.ok (Q := fun x => x = r) rfl) fun x hx => ?_
    subst hx
    exact Gives.ok hs.1
  · rw [if_neg hpre] at hs ⊢
    subst hs
    have h2' : Places arr arr.length (isGroup p) (t.2.group.map id) := by simpa using h2
    by_cases hgr : arr.filter (isGroup p) ≠ []
    · rw [if_pos hgr]
      have hne : ¬ t.2.group.isEmpty = true := fun e => hgr ((empty h2').mp e)
      rw [if_pos (by simpa using hne)]
      refine Gives.bind (chooseGroup_gives (asked p o).1 h2 fun l hl hl2 => ?_) fun s hs => ?_
      · exact hp.group l (hsub l hl) (by simpa using (Bool.and_eq_true_iff.mp hl2).1)
      have hs0 : s.2 ≠ 0 := fun h0 => by
        rw [h0] at hs
        exact chosenGroup_ne_nil hgr hs.1.symm
      rw [if_neg hs0]
      refine Gives.bind (Gives.ok (Q := fun x => x = s) rfl) fun x hx => ?_
      subst hx
      exact Gives.ok hs.1
    · rw [if_neg hgr]
      have he : t.2.group.isEmpty = true := (empty h2').mpr (Classical.not_not.mp hgr)
      rw [if_neg (by simp [he])]
      refine Gives.bind (Gives.ok (Q := fun r => r = (arr, 0)) rfl) fun r hr => ?_
      subst hr
      rw [if_pos rfl]
      refine Gives.bind (copyIf_gives (fun _ => true) h0) fun s hs => Gives.ok ?_
      rw [hs.1]
      simp

theorem usable_iff {l : Info} : hasLoudness l = true ↔ Usable l := by
  simp [hasLoudness, Usable]

/-- The entries for a downmix and a set. -/
def forBoth (infos : List Info) (d s : Int) : List Info :=
  infos.filter (fun l => d = l.dmxId ∧ s = l.setId ∧ hasLoudness l)

theorem mem_forBoth {infos : List Info} {d s : Int} {l : Info} :
    l ∈ forBoth infos d s ↔ l ∈ infos ∧ (l.dmxId : Int) = d ∧ (l.setId : Int) = s ∧ Usable l := by
  simp only [forBoth, List.mem_filter, decide_eq_true_eq, usable_iff]
  constructor
  · rintro ⟨h1, h2, h3, h4⟩; exact ⟨h1, h2.symm, h3.symm, h4⟩
  · rintro ⟨h1, h2, h3, h4⟩; exact ⟨h1, h2.symm, h3.symm, h4⟩

theorem mem_preset {p : Request} {infos : List Info} {a : Int × Int} {l : Info} :
    l ∈ (forBoth infos a.1 a.2).filter (isPreset p) ↔ Serves p infos a l ∧ l.kind = 3 := by
  simp only [List.mem_filter, mem_forBoth, isPreset, Serves, Applies, Bool.and_eq_true, beq_iff_eq,
    List.contains_iff_mem, List.mem_map, Prod.exists, exists_and_right, exists_eq_right]
  constructor
  · rintro ⟨⟨h1, h2, h3, h4⟩, h5, y, h6⟩
    exact ⟨⟨h1, h2, h3, h4, Or.inr (Or.inr ⟨h5, y, h6⟩)⟩, h5⟩
  · rintro ⟨⟨h1, h2, h3, h4, h5⟩, h6⟩
    rcases h5 with h | h | ⟨_, n, h⟩
    · omega
    · omega
    · exact ⟨⟨h1, h2, h3, h4⟩, h6, n, h⟩

theorem mem_group {p : Request} {infos : List Info} {a : Int × Int} {l : Info} :
    l ∈ (forBoth infos a.1 a.2).filter (isGroup p) ↔ Serves p infos a l ∧ l.kind = 2 := by
  simp only [List.mem_filter, mem_forBoth, isGroup, Serves, Applies, Bool.and_eq_true, beq_iff_eq, List.contains_iff_mem]
  constructor
  · rintro ⟨⟨h1, h2, h3, h4⟩, h5, h6⟩
    exact ⟨⟨h1, h2, h3, h4, Or.inr (Or.inl ⟨h5, h6⟩)⟩, h5⟩
  · rintro ⟨⟨h1, h2, h3, h4, h5⟩, h6⟩
    rcases h5 with h | h | h
    · omega
    · exact ⟨⟨h1, h2, h3, h4⟩, h⟩
    · omega

theorem mem_plain {p : Request} {infos : List Info} {a : Int × Int} {l : Info} :
    l ∈ (forBoth infos a.1 a.2).filter isPlain ↔ Serves p infos a l ∧ l.kind = 0 := by
  simp only [List.mem_filter, mem_forBoth, isPlain, Serves, Applies, beq_iff_eq]
  constructor
  · rintro ⟨⟨h1, h2, h3, h4⟩, h5⟩
    exact ⟨⟨h1, h2, h3, h4, Or.inl h5⟩, h5⟩
  · rintro ⟨⟨h1, h2, h3, h4, h5⟩, h6⟩
    exact ⟨⟨h1, h2, h3, h4⟩, h6⟩

theorem kind_of_serves {p : Request} {infos : List Info} {a : Int × Int} {l : Info} (h : Serves p infos a l) :
    l.kind = 0 ∨ l.kind = 2 ∨ l.kind = 3 := by
  rcases h.2.2.2.2 with h | h | h
  · exact Or.inl h
  · exact Or.inr (Or.inl h.1)
  · exact Or.inr (Or.inr h.1)

theorem nil_iff {α : Type} {xs : List α} : xs ≠ [] ↔ ∃ x, x ∈ xs :=
  ⟨fun h => List.exists_mem_of_ne_nil _ h, fun ⟨_, h⟩ => List.ne_nil_of_mem h⟩

/-- With DRC off an instruction with a set identifier that is not negative asks for group 0. -/
def NoZero (p : Request) : Prop := p.drcOn = false → (0 : Int) ∉ p.groups

theorem asked_own {p : Request} {infos : List Info} (hp : Plain p infos) (hz : NoZero p) {o : Instr} {a : Int × Int}
    {l : Info} (hl : Serves p infos a l) (hk : l.kind = 2) :
    ((asked p o).1 ≠ -1 ∧ l.group = (asked p o).1) ↔ OwnGroup p o l.group := by
  have hge : 0 ≤ l.group := hp.group l hl.1 hk
  have hmem : l.group ∈ p.groups := by
    rcases hl.2.2.2.2 with h | h | h
    · omega
    · exact h.2
    · omega
  unfold asked OwnGroup
  cases hd : p.drcOn with
  | true =>
    simp only [if_true, true_and]
    split
    · rename_i h2
      simp only [h2, true_and]
      constructor
      · rintro ⟨_, h⟩; exact h.symm
      · intro h; exact ⟨by omega, h.symm⟩
    · rename_i h2
      split <;> simp [h2]
  | false =>
    simp only [Bool.false_eq_true, if_false, false_and, iff_false]
    split
    · simp
    · rintro ⟨_, h⟩
      have h : l.group = 0 := h
      exact hz hd (h ▸ hmem)

theorem mem_chosen {p : Request} {infos : List Info} (hp : Plain p infos) (hz : NoZero p) {o : Instr} {a : Int × Int} {l : Info} :
    l ∈ chosen p (asked p o).1 (forBoth infos a.1 a.2) ↔ Preferred p infos o a l := by
  unfold chosen
  by_cases h3 : (forBoth infos a.1 a.2).filter (isPreset p) ≠ []
  · rw [if_pos h3, mem_preset]
    obtain ⟨x, hx⟩ := nil_iff.mp h3
    have hx := mem_preset.mp hx
    constructor
    · rintro ⟨hs, hk⟩
      refine ⟨hs, fun l' hl' => ?_, fun h => by omega⟩
      rcases kind_of_serves hl' with h | h | h <;> omega
    · rintro ⟨hs, hk, _⟩
      have := hk x hx.1
      rcases kind_of_serves hs with h | h | h
      · omega
      · omega
      · exact ⟨hs, h⟩
  rw [if_neg h3]
  have no3 : ∀ l', Serves p infos a l' → l'.kind ≠ 3 := fun l' hl' hk => h3 (nil_iff.mpr ⟨l', mem_preset.mpr ⟨hl', hk⟩⟩)
  by_cases h2 : (forBoth infos a.1 a.2).filter (isGroup p) ≠ []
  · rw [if_pos h2]
    obtain ⟨x, hx⟩ := nil_iff.mp h2
    have hx := mem_group.mp hx
    have hle : ∀ l', Serves p infos a l' → l'.kind ≤ 2 := fun l' hl' => by
      rcases kind_of_serves hl' with h | h | h
      · omega
      · omega
      · exact absurd h (no3 l' hl')
    unfold chosenGroup
    by_cases hc : (asked p o).1 ≠ -1 ∧ ((forBoth infos a.1 a.2).filter (isGroup p)).filter (·.group == (asked p o).1) ≠ []
    · rw [if_pos hc]
      obtain ⟨y, hy⟩ := nil_iff.mp hc.2
      have hy := List.mem_filter.mp hy
      have hys := mem_group.mp hy.1
      have hyg : y.group = (asked p o).1 := by simpa using hy.2
      have hyo : OwnGroup p o y.group := (asked_own hp hz hys.1 hys.2).mp ⟨hc.1, hyg⟩
      rw [List.mem_filter, mem_group]
      constructor
      · rintro ⟨⟨hs, hk⟩, hg⟩
        have hg : l.group = (asked p o).1 := by simpa using hg
        refine ⟨hs, fun l' hl' => by have := hle l' hl'; omega, fun _ => ⟨fun l' hl' hk' ho => ?_, fun hno => ?_⟩⟩
        · rw [hg, ← ((asked_own hp hz hl' hk').mpr ho).2]
        · exact absurd ⟨y, hys.1, hys.2, hyo⟩ hno
      · rintro ⟨hs, hk, hg⟩
        have hk2 : l.kind = 2 := by have := hk x hx.1; have := hle l hs; omega
        refine ⟨⟨hs, hk2⟩, ?_⟩
        have := (hg hk2).1 y hys.1 hys.2 hyo
        simp [this, hyg]
    · rw [if_neg hc, mem_largest, mem_group]
      have hno : ¬ ∃ l', Serves p infos a l' ∧ l'.kind = 2 ∧ OwnGroup p o l'.group := by
        rintro ⟨l', hl', hk', ho⟩
        have := (asked_own hp hz hl' hk').mpr ho
        exact hc ⟨this.1, nil_iff.mpr ⟨l', List.mem_filter.mpr ⟨mem_group.mpr ⟨hl', hk'⟩, by simp [this.2]⟩⟩⟩
      constructor
      · rintro ⟨⟨hs, hk⟩, hall⟩
        refine ⟨hs, fun l' hl' => by have := hle l' hl'; omega, fun _ => ⟨fun l' hl' hk' ho => ?_, fun _ l' hl' hk' => ?_⟩⟩
        · exact absurd ⟨l', hl', hk', ho⟩ hno
        · exact hall l' (mem_group.mpr ⟨hl', hk'⟩)
      · rintro ⟨hs, hk, hg⟩
        have hk2 : l.kind = 2 := by have := hk x hx.1; have := hle l hs; omega
        refine ⟨⟨hs, hk2⟩, fun l' hl' => ?_⟩
        have hl' := mem_group.mp hl'
        exact (hg hk2).2 hno l' hl'.1 hl'.2
  · rw [if_neg h2, mem_plain (p := p)]
    have no2 : ∀ l', Serves p infos a l' → l'.kind ≠ 2 := fun l' hl' hk => h2 (nil_iff.mpr ⟨l', mem_group.mpr ⟨hl', hk⟩⟩)
    constructor
    · rintro ⟨hs, hk⟩
      refine ⟨hs, fun l' hl' => ?_, fun h => by omega⟩
      rcases kind_of_serves hl' with h | h | h
      · omega
      · exact absurd h (no2 l' hl')
      · exact absurd h (no3 l' hl')
    · rintro ⟨hs, _, _⟩
      refine ⟨hs, ?_⟩
      rcases kind_of_serves hs with h | h | h
      · exact h
      · exact absurd h (no2 l hs)
      · exact absurd h (no3 l hs)

theorem chosen_sublist {p : Request} {req : Int} {arr : List Info} : (chosen p req arr).Sublist arr := by
  unfold chosen chosenGroup largest
  have f := fun P => List.filter_sublist (p := P) (l := arr)
  split
  · exact f _
  · split
    · split
      · exact List.filter_sublist.trans (f _)
      · exact List.filter_sublist.trans (f _)
    · exact f _

theorem chosen_nil {p : Request} {infos : List Info} {req : Int} {a : Int × Int}
    (h : chosen p req (forBoth infos a.1 a.2) = []) (l : Info) : ¬ Serves p infos a l := by
  intro hs
  unfold chosen at h
  split at h
  · contradiction
  rename_i h3
  split at h
  · rename_i h2
    exact chosenGroup_ne_nil h2 h
  rename_i h2
  rcases kind_of_serves hs with hk | hk | hk
  · exact nil_iff.mpr ⟨l, mem_plain.mpr ⟨hs, hk⟩⟩ h
  · exact h2 (nil_iff.mpr ⟨l, mem_group.mpr ⟨hs, hk⟩⟩)
  · exact h3 (nil_iff.mpr ⟨l, mem_preset.mpr ⟨hs, hk⟩⟩)

theorem firstOf_gives {p : Request} {infos : List Info} (hp : Plain p infos) (o : Instr) :
    ∀ as : List (Int × Int), Gives (firstOf (fun a => checkInfo p infos o a.1 a.2) as) (fun ls =>
      (ls = [] ∧ ∀ a ∈ as, ∀ l, ¬ Serves p infos a l) ∨
      ∃ pre a post, as = pre ++ a :: post ∧ ls ≠ [] ∧ (∀ b ∈ pre, ∀ l, ¬ Serves p infos b l) ∧
        ls = chosen p (asked p o).1 (forBoth infos a.1 a.2))
  | [] => Gives.ok (Or.inl ⟨rfl, by simp⟩)
  | a :: as => by
    unfold firstOf
    refine Gives.bind (checkInfo_gives hp o a.1 a.2) fun ls hls => ?_
    refine Gives.ite (fun he => ?_) fun he => ?_
    · have hn : ∀ l, ¬ Serves p infos a l := chosen_nil (req := (asked p o).1) (by
        rw [List.isEmpty_iff] at he
        exact hls.symm.trans he)
      refine (firstOf_gives hp o as).mono fun ls h => ?_
      rcases h with ⟨h1, h2⟩ | ⟨pre, b, post, h1, h2, h3, h4⟩
      · exact Or.inl ⟨h1, by intro b hb; rcases List.mem_cons.mp hb with rfl | hb; exact hn; exact h2 b hb⟩
      · exact Or.inr ⟨a :: pre, b, post, by rw [h1]; rfl, h2,
          by intro b hb; rcases List.mem_cons.mp hb with rfl | hb; exact hn; exact h3 b hb, h4⟩
    · refine Gives.ok (Or.inr ⟨[], a, as, rfl, ?_, by simp, hls⟩)
      simpa using he

/-! ## The value of an entry -/

theorem bonus_le {s : Nat} {b : Int} (h : bonus[s]? = some b) : b = (systemRank s : Int) := by
  have hs : s < 12 := (List.getElem?_eq_some_iff.mp h).1
  have : ∀ s < 12, bonus[s]? = some (systemRank s : Int) := by decide
  rw [this s hs] at h
  exact (Option.some.inj h).symm

/-- The best of the measurements seen, or none. -/
def Best (meth : Nat) (seen : List Measure) (v0 : Rat) (s : Int × Rat) : Prop :=
  (s = (-1, v0) ∧ ∀ m ∈ seen, m.meth ≠ meth) ∨
  ∃ pre m post, seen = pre ++ m :: post ∧ m.meth = meth ∧ s = ((systemRank m.system : Int), m.value) ∧
    (∀ m' ∈ pre, m'.meth = meth → systemRank m'.system < systemRank m.system) ∧
    (∀ m' ∈ post, m'.meth = meth → systemRank m'.system ≤ systemRank m.system)

theorem best_gives (meth : Nat) (ms : List Measure) (v : Rat) :
    Gives (each (bestStep meth) ms (-1, v)) (Best meth ms v) := by
  refine gives_eachAll (I := fun pre s => Best meth pre v s) ?_ (Or.inl ⟨rfl, by simp⟩)
  intro seen x rest _ s hs
  unfold bestStep
  refine Gives.ite (fun hm => ?_) fun hm => Gives.ok ?_
  · refine Gives.bind (gives_at _ _) fun b hb => ?_
    have hb := bonus_le hb
    subst hb
    refine Gives.ite (fun hlt => Gives.ok ?_) fun hlt => Gives.ok ?_
    · refine Or.inr ⟨seen, x, [], by simp, hm, rfl, ?_, by simp⟩
      intro m' hm' hmeth
      rcases hs with ⟨_, h⟩ | ⟨pre, m, post, he, h1, h2, h3, h4⟩
      · exact absurd hmeth (h m' hm')
      · rw [h2] at hlt
        have hlt : systemRank m.system < systemRank x.system := by dsimp only at hlt; omega
        rw [he] at hm'
        rcases List.mem_append.mp hm' with h | h
        · have := h3 m' h hmeth; omega
        · rcases List.mem_cons.mp h with rfl | h
          · exact hlt
          · have := h4 m' h hmeth; omega
    · rcases hs with ⟨h, _⟩ | ⟨pre, m, post, he, h1, h2, h3, h4⟩
      · rw [h] at hlt
        exfalso
        have : (-1 : Int) < (systemRank x.system : Int) := by omega
        exact hlt this
      · refine Or.inr ⟨pre, m, post ++ [x], by simp [he], h1, h2, h3, ?_⟩
        intro m' hm' hmeth
        rcases List.mem_append.mp hm' with h | h
        · exact h4 m' h hmeth
        · rw [List.mem_singleton] at h
          subst h
          rw [h2] at hlt
          dsimp only at hlt
          omega
  · rcases hs with ⟨h, h'⟩ | ⟨pre, m, post, he, h1, h2, h3, h4⟩
    · refine Or.inl ⟨h, fun m' hm' => ?_⟩
      rcases List.mem_append.mp hm' with h | h
      · exact h' m' h
      · rw [List.mem_singleton] at h
        subst h
        exact hm
    · refine Or.inr ⟨pre, m, post ++ [x], by simp [he], h1, h2, h3, ?_⟩
      intro m' hm' hmeth
      rcases List.mem_append.mp hm' with h | h
      · exact h4 m' h hmeth
      · rw [List.mem_singleton] at h
        subst h
        exact absurd hmeth hm

theorem loudnessOf_gives {l : Info} (hl : Usable l) (v : Rat) : Gives (loudnessOf l v) (Measured l) := by
  unfold loudnessOf
  refine Gives.bind (best_gives 1 _ v) fun s hs => ?_
  rcases hs with ⟨rfl, hno⟩ | ⟨pre, m, post, he, h1, rfl, h3, h4⟩
  · rw [if_pos rfl]
    refine Gives.bind (best_gives 2 _ v) fun s hs => Gives.ok ?_
    rcases hs with ⟨_, hno2⟩ | ⟨pre, m, post, he, h1, rfl, h3, h4⟩
    · obtain ⟨m, hm, h | h⟩ := hl
      · exact absurd h (hno m hm)
      · exact absurd h (hno2 m hm)
    · exact ⟨pre, m, post, he, rfl, Or.inr ⟨h1, hno⟩, by rwa [h1], by rwa [h1]⟩
  · rw [if_neg (by dsimp only; omega)]
    refine Gives.bind (Gives.ok (Q := fun x => x = _) rfl) fun x hx => Gives.ok ?_
    subst hx
    exact ⟨pre, m, post, he, rfl, Or.inl h1, by rwa [h1], by rwa [h1]⟩

theorem gainsOf_gives (target : Rat) : ∀ (ls : List Info) (v : Rat), (∀ l ∈ ls, Usable l) →
    Gives (gainsOf target ls v) (fun gs => gs.length = ls.length ∧
      ∀ (i : Nat) (l : Info) (g : Rat × Rat), ls[i]? = some l → gs[i]? = some g → Measured l g.2 ∧ g.1 = target - g.2)
  | [], _, _ => Gives.ok ⟨rfl, by simp⟩
  | l :: ls, v, h => by
    unfold gainsOf
    refine Gives.bind (loudnessOf_gives (h l (by simp)) v) fun w hw => ?_
    refine Gives.bind (gainsOf_gives target ls w fun l hl => h l (by simp [hl])) fun gs ⟨h1, h2⟩ => Gives.ok ⟨by simp [h1], ?_⟩
    intro i l' g hl hg
    cases i with
    | zero =>
      simp only [List.getElem?_cons_zero, Option.some.injEq] at hl hg
      subst hl hg
      exact ⟨hw, rfl⟩
    | succ i =>
      simp only [List.getElem?_cons_succ] at hl hg
      exact h2 i l' g hl hg

end Verif.DrcSel
