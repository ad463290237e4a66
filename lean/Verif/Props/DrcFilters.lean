import Mathlib.Data.List.Nodup
import Mathlib.Tactic.Linarith
import Mathlib.Tactic.Ring
import Verif.Proofs.Does
import Verif.Spec.DrcApply

/-! # C148 and C149: filters of channel groups -/

namespace Verif.DrcApply

open DrcConfig DrcSel Res

theorem gives_range {σ : Type} {f : Nat → σ → Res σ} {I : Nat → σ → Prop} {n : Nat}
    (h : ∀ i < n, ∀ s, I i s → Gives (f i s) (I (i + 1))) {s : σ} (hs : I 0 s) : Gives (each f (List.range n) s) (I n) := by
  have := gives_eachAll (f := f) (I := fun pre s => I pre.length s) (xs := List.range n) (s := s) ?_ hs
  · simpa using this
  · intro pre x post he s' hs'
    have hx : x = pre.length := by
      have := congrArg (fun l => l[pre.length]?) he
      simp only [List.getElem?_append_right (Nat.le_refl _), Nat.sub_self, List.getElem?_cons_zero] at this
      rw [List.getElem?_eq_some_iff] at this
      obtain ⟨hl, hv⟩ := this
      rw [List.getElem_range] at hv
      exact hv.symm
    have hlt : pre.length < n := by
      have := congrArg List.length he
      simp at this
      omega
    subst hx
    have := h pre.length hlt s' hs'
    simpa using this

/-! ## Crossover frequencies of a group -/

theorem take_drop_succ (ps : List Param) {i : Nat} {p : Param} (hp : ps[i + 1]? = some p) :
    ((ps.drop 1).take (i + 1)).map (·.crossover) = ((ps.drop 1).take i).map (·.crossover) ++ [p.crossover] := by
  have h1 : (ps.drop 1)[i]? = some p := by rw [List.getElem?_drop, Nat.add_comm 1 i]; exact hp
  rw [List.take_succ, h1]
  simp

theorem ownFreqs_gives (n : Nat) (ps : List Param) :
    Gives (ownFreqs n ps) (fun xs => xs = ((ps.drop 1).take (n - 1)).map (·.crossover)) := by
  unfold ownFreqs
  refine Gives.ite (fun _ => Gives.err) fun hn => ?_
  refine gives_range (I := fun i (xs : List Int) => xs = ((ps.drop 1).take i).map (·.crossover)) ?_ (by simp)
  intro i hi xs hxs
  refine Gives.bind (gives_at _ _) fun p hp => ?_
  refine Gives.ite (fun _ => Gives.ub) fun _ => Gives.ok ?_
  rw [take_drop_succ ps hp, hxs]

theorem ownFreqs_does {n : Nat} {ps : List Param} (h1 : 1 ≤ n) (h4 : n ≤ 4) (hl : n ≤ ps.length)
    (hc : ∀ p ∈ ps, 0 ≤ p.crossover ∧ p.crossover < 16) :
    Does (ownFreqs n ps) (fun xs => xs = ((ps.drop 1).take (n - 1)).map (·.crossover)) := by
  unfold ownFreqs
  rw [if_neg (by omega)]
  refine does_range (I := fun i (xs : List Int) => xs = ((ps.drop 1).take i).map (·.crossover)) ?_ (by simp)
  intro i hi xs hxs
  refine Does.bind (does_at (show i + 1 < ps.length by omega)) fun p hp => ?_
  have := hc p (List.mem_of_getElem? hp)
  rw [if_neg (by omega)]
  exact Does.ok (by rw [take_drop_succ ps hp, hxs])

theorem freqsOf_gives (cf : Coeffs) (o : Instr) (g : Nat) :
    Gives (freqsOf cf o g) (fun r => r.getD [] = crossovers cf o g) := by
  unfold freqsOf
  refine Gives.bind (gives_at _ _) fun s hs => ?_
  refine Gives.ite (fun hlt => Gives.ok ?_) fun hge => ?_
  · unfold crossovers
    simp [hs, hlt]
  · refine Gives.bind (gives_at _ _) fun gs hgs => ?_
    refine Gives.bind (ownFreqs_gives _ _) fun fs hfs => Gives.ok ?_
    unfold crossovers
    simp [hs, hge, hgs, hfs]

theorem freqsOf_does {cf : Coeffs} {o : Instr} (h : Filterable cf o) {g : Nat} (hg : g < o.groups) :
    Does (freqsOf cf o g) (fun r => r.getD [] = crossovers cf o g) := by
  obtain ⟨s, hs, hor⟩ := h g hg
  unfold freqsOf
  refine Does.bind (does_at' hs) fun t ht => ?_
  subst ht
  rcases hor with hlt | ⟨gs, hgs, h1, h4, hl, hc⟩
  · rw [if_pos hlt]
    exact Does.ok (by unfold crossovers; simp [hs, hlt])
  · refine Does.ite (fun hlt => Does.ok ?_) fun hge => ?_
    · unfold crossovers
      simp [hs, hlt]
    · refine Does.bind (does_at' hgs) fun t ht => ?_
      subst ht
      refine Does.bind (ownFreqs_does h1 h4 hl hc) fun fs hfs => Does.ok ?_
      unfold crossovers
      simp [hs, hge, hgs, hfs]

/-! ## Noting frequencies -/

/-- The frequencies of the groups below `n` but `j`. -/
def others (cf : Coeffs) (o : Instr) (n j : Nat) : List Int :=
  (List.range n).flatMap fun g => if g = j then [] else crossovers cf o g

theorem others_succ (cf : Coeffs) (o : Instr) (n j : Nat) :
    others cf o (n + 1) j = others cf o n j ++ if n = j then [] else crossovers cf o n := by
  simp [others, List.range_succ]

theorem all_succ (cf : Coeffs) (o : Instr) (n : Nat) :
    allCrossovers cf o (n + 1) = allCrossovers cf o n ++ crossovers cf o n := by
  simp [allCrossovers, List.range_succ]

theorem others_eq (cf : Coeffs) (o : Instr) {n j : Nat} (hj : n ≤ j) : others cf o n j = allCrossovers cf o n := by
  induction n with
  | zero => rfl
  | succ n ih => rw [others_succ, all_succ, ih (by omega), if_neg (by omega)]

theorem others_perm (cf : Coeffs) (o : Instr) {n j : Nat} (hj : j < n) :
    (crossovers cf o j ++ others cf o n j).Perm (allCrossovers cf o n) := by
  induction n with
  | zero => omega
  | succ n ih =>
    rw [others_succ, all_succ]
    by_cases he : n = j
    · subst he
      rw [if_pos rfl, others_eq cf o (Nat.le_refl _), List.append_nil]
      exact List.perm_append_comm
    · rw [if_neg he, ← List.append_assoc]
      exact (ih (by omega)).append_right _

/-- What a bank without all-pass filters has, for all groups and the channels in none. -/
def ownOf (cf : Coeffs) (o : Instr) (j : Nat) : List Int := if j < o.groups then crossovers cf o j else []

theorem own_others (cf : Coeffs) (o : Instr) (j : Nat) :
    (ownOf cf o j ++ others cf o o.groups j).Perm (allCrossovers cf o o.groups) := by
  unfold ownOf
  split
  · rename_i h
    exact others_perm cf o h
  · rename_i h
    rw [others_eq cf o (by omega)]
    exact List.Perm.refl _

theorem noteFreqs_gives (g : Nat) : ∀ (fs : List Int) (ls : List (List Int)), Gives (each (noteFreq g) fs ls) fun ls' =>
    ls'.length = ls.length ∧ ∀ j, ls'[j]? = (ls[j]?).map fun xs => xs ++ if g = j then [] else fs
  | [], ls => Gives.ok ⟨rfl, fun j => by cases ls[j]? <;> simp⟩
  | f :: fs, ls => by
    unfold each
    refine Gives.bind (Q := fun ls' => ls'.length = ls.length ∧ ∀ j, ls'[j]? = (ls[j]?).map fun xs => xs ++ if g = j then [] else [f])
      ?_ fun ls1 h1 => ?_
    · unfold noteFreq
      refine Gives.ite (fun _ => Gives.ub) fun _ => Gives.ok ⟨by simp, fun j => ?_⟩
      rw [List.getElem?_mapIdx]
      cases ls[j]? with
      | none => rfl
      | some xs =>
        simp only [Option.map_some]
        by_cases he : j = g
        · subst he; simp
        · rw [if_neg he, if_neg fun h => he h.symm]
    · refine (noteFreqs_gives g fs ls1).mono fun ls2 h2 => ⟨by rw [h2.1, h1.1], fun j => ?_⟩
      rw [h2.2 j, h1.2 j]
      cases ls[j]? with
      | none => rfl
      | some xs =>
        simp only [Option.map_some]
        split <;> simp

theorem noteFreqs_does (g : Nat) : ∀ (fs : List Int) (ls : List (List Int)),
    (∀ j xs, ls[j]? = some xs → j ≠ g → xs.length + fs.length ≤ 72) → ∃ ls', each (noteFreq g) fs ls = .ok ls'
  | [], ls, _ => ⟨ls, rfl⟩
  | f :: fs, ls, h => by
    unfold each
    have h1 : noteFreq g f ls = .ok (ls.mapIdx fun j xs => if j = g then xs else xs ++ [f]) := by
      unfold noteFreq
      rw [if_neg]
      simp only [List.any_eq_true, not_exists, not_and, Bool.and_eq_true, bne_iff_ne, ne_eq, decide_eq_true_eq]
      intro x hx hne
      have := List.mem_zipIdx_iff_getElem?.mp hx
      have := h x.2 x.1 this hne
      simp only [List.length_cons] at this
      omega
    rw [h1, ok_bind]
    refine noteFreqs_does g fs _ fun j xs hx hne => ?_
    rw [List.getElem?_mapIdx] at hx
    cases hl : ls[j]? with
    | none => rw [hl] at hx; simp at hx
    | some ys =>
      rw [hl] at hx
      simp only [Option.map_some, Option.some.injEq, if_neg hne] at hx
      subst hx
      have := h j ys hl hne
      simp only [List.length_cons, List.length_append, List.length_singleton, List.length_nil] at this ⊢
      omega

/-- The lists of frequencies noted, without those of groups from `n` on. -/
def Noted (cf : Coeffs) (o : Instr) (m n : Nat) (ls : List (List Int)) : Prop :=
  ls.length = m ∧ ∀ j xs, ls[j]? = some xs → xs = others cf o n j

theorem noted_start (cf : Coeffs) (o : Instr) (m : Nat) : Noted cf o m 0 (List.replicate m []) := by
  refine ⟨by simp, fun j xs h => ?_⟩
  rw [List.getElem?_replicate] at h
  split at h
  · simp only [Option.some.injEq] at h
    rw [← h]
    rfl
  · simp at h

theorem noted_step {cf : Coeffs} {o : Instr} {m n : Nat} {ls ls' : List (List Int)} (h : Noted cf o m n ls)
    (h' : ls'.length = ls.length ∧ ∀ j, ls'[j]? = (ls[j]?).map fun xs => xs ++ if n = j then [] else crossovers cf o n) :
    Noted cf o m (n + 1) ls' := by
  refine ⟨by rw [h'.1, h.1], fun j xs hx => ?_⟩
  rw [h'.2 j] at hx
  cases hl : ls[j]? with
  | none => rw [hl] at hx; simp at hx
  | some ys =>
    rw [hl] at hx
    simp only [Option.map_some, Option.some.injEq] at hx
    rw [← hx, h.2 j ys hl, others_succ]

/-! ## Taking out what all have -/

theorem erase_perm {own l : List Int} {all : List Int} {f : Int} (h : (own ++ l).Perm all) (hf : f ∈ l) :
    (own ++ l.erase f).Perm (all.erase f) := by
  have h1 : (f :: (own ++ l.erase f)).Perm all := by
    refine List.Perm.trans ?_ h
    refine List.Perm.trans ?_ ((List.perm_cons_erase hf).symm.append_left own)
    exact List.perm_middle.symm
  have h2 := List.perm_cons_erase (h1.mem_iff.mp (by simp : f ∈ f :: (own ++ l.erase f)))
  exact List.Perm.cons_inv (h1.trans h2)

theorem cancel_gives (own : Nat → List Int) : ∀ (fuel idx : Nat) (ls : List (List Int)) (all : List Int),
    (∀ j l, ls[j]? = some l → (own j ++ l).Perm all) →
    (∀ i < idx, ∀ l rest f, ls = l :: rest → l[i]? = some f → rest ≠ [] → ∃ r ∈ rest, f ∉ r) →
    Gives (cancel fuel idx ls) fun ls' : List (List Int) => ls'.length = ls.length ∧
      (∃ all', ∀ (j : Nat) l, ls'[j]? = some l → (own j ++ l).Perm all') ∧
      (∀ (j : Nat) (l l' : List Int), ls[j]? = some l → ls'[j]? = some l' → l'.length ≤ l.length) ∧
      (1 < ls'.length → ¬ ∃ f, ∀ l ∈ ls', f ∈ l)
  | 0, _, _, _, _, _ => Gives.ub
  | fuel + 1, idx, ls, all, h, hi => by
    unfold cancel
    match ls, h, hi with
    | [], h, hi => exact Gives.ok ⟨rfl, ⟨all, h⟩, fun j l l' h1 => by simp at h1, fun hh => by simp at hh⟩
    | l :: rest, h, hi =>
      simp only
      cases hl : l[idx]? with
      | none =>
        refine Gives.ok ⟨rfl, ⟨all, h⟩, fun j x y h1 h2 => ?_, fun hlen => ?_⟩
        · rw [h1] at h2
          simp only [Option.some.injEq] at h2
          rw [h2]
        · rintro ⟨f, hf⟩
          obtain ⟨i, hi1, hi2⟩ := List.mem_iff_getElem.mp (hf l (by simp))
          have hidx : i < idx := by
            have := List.getElem?_eq_none_iff.mp hl
            omega
          have hrest : rest ≠ [] := by
            intro he
            rw [he] at hlen
            simp at hlen
          obtain ⟨r, hr, hn⟩ := hi i hidx l rest f rfl (by rw [List.getElem?_eq_getElem hi1, hi2]) hrest
          exact hn (hf r (by simp [hr]))
      | some f =>
        simp only
        refine Gives.ite (fun hc => ?_) fun hc => ?_
        · have hall : ∀ x ∈ l :: rest, f ∈ x := by
            intro x hx
            rcases List.mem_cons.mp hx with rfl | hx
            · exact List.mem_of_getElem? hl
            · have := List.all_eq_true.mp hc.2 x hx
              simpa using this
          refine (cancel_gives own fuel 0 ((l :: rest).map (·.erase f)) (all.erase f) ?_ (by omega)).mono ?_
          · intro j x hx
            rw [List.getElem?_map] at hx
            cases hy : (l :: rest)[j]? with
            | none => rw [hy] at hx; simp at hx
            | some y =>
              rw [hy] at hx
              simp only [Option.map_some, Option.some.injEq] at hx
              subst hx
              exact erase_perm (h j y hy) (hall y (List.mem_of_getElem? hy))
          · rintro ls' ⟨e1, e2, e3, e4⟩
            refine ⟨by rw [e1]; simp, e2, fun j x y h1 h2 => ?_, e4⟩
            have := e3 j (x.erase f) y (by rw [List.getElem?_map, h1]; rfl) h2
            have := List.length_erase_le (a := f) (l := x)
            omega
        · refine cancel_gives own fuel (idx + 1) (l :: rest) all h ?_
          intro i hidx l' rest' f' he hf' hne
          simp only [List.cons.injEq] at he
          obtain ⟨rfl, rfl⟩ := he
          by_cases hii : i = idx
          · subst hii
            rw [hl] at hf'
            simp only [Option.some.injEq] at hf'
            subst hf'
            by_contra hno
            refine hc ⟨hne, List.all_eq_true.mpr fun r hr => ?_⟩
            by_contra hcon
            exact hno ⟨r, hr, by simpa using hcon⟩
          · exact hi i (by omega) l rest f' rfl hf' hne

theorem cancel_does : ∀ (fuel idx : Nat) (ls : List (List Int)), idx ≤ (ls.headD []).length →
    ((ls.headD []).length + 1) * ((ls.headD []).length + 1) + 1 ≤ fuel + idx → ∃ ls', cancel fuel idx ls = .ok ls'
  | 0, idx, ls, h1, h2 => by
    have : (ls.headD []).length + 1 ≤ ((ls.headD []).length + 1) * ((ls.headD []).length + 1) := Nat.le_mul_self _
    omega
  | fuel + 1, idx, ls, h1, h2 => by
    unfold cancel
    match ls, h1, h2 with
    | [], _, _ => exact ⟨[], rfl⟩
    | l :: rest, h1, h2 =>
      simp only [List.headD_cons] at h1 h2 ⊢
      cases hl : l[idx]? with
      | none => exact ⟨_, rfl⟩
      | some f =>
        have hidx := (List.getElem?_eq_some_iff.mp hl).1
        simp only
        by_cases hc : rest ≠ [] ∧ (rest.all (·.contains f)) = true
        · rw [if_pos hc]
          refine cancel_does fuel 0 _ (Nat.zero_le _) ?_
          simp only [List.map_cons, List.headD_cons]
          rw [List.length_erase_of_mem (List.mem_of_getElem? hl)]
          obtain ⟨n, hn⟩ : ∃ n, l.length = n + 1 := ⟨l.length - 1, by omega⟩
          rw [hn] at h2 hidx ⊢
          simp only [Nat.add_sub_cancel]
          have : (n + 1 + 1) * (n + 1 + 1) = (n + 1) * (n + 1) + 2 * n + 3 := by ring
          omega
        · rw [if_neg hc]
          refine cancel_does fuel (idx + 1) (l :: rest) ?_ ?_
          · simp only [List.headD_cons]; omega
          · simp only [List.headD_cons]; omega

/-! ## Banks -/

/-- The first loop gives every group its own crossover frequencies. -/
def Owned (cf : Coeffs) (o : Instr) (n : Nat) (bs : List Bank) : Prop :=
  bs.length = 8 ∧ ∀ j b, bs[j]? = some b → b.cascade = [] ∧ b.own = if j < n then crossovers cf o j else []

theorem owned_step {cf : Coeffs} {o : Instr} {n : Nat} {bs bs' : List Bank} (h : Owned cf o n bs) (hl : bs'.length = bs.length)
    (h' : ∀ j b', bs'[j]? = some b' → ∃ b, bs[j]? = some b ∧ b'.cascade = b.cascade ∧ b'.own = if j = n then crossovers cf o n else b.own) :
    Owned cf o (n + 1) bs' := by
  refine ⟨by rw [hl, h.1], fun j b' hb' => ?_⟩
  obtain ⟨b, hb, e1, e2⟩ := h' j b' hb'
  obtain ⟨f1, f2⟩ := h.2 j b hb
  refine ⟨by rw [e1, f1], ?_⟩
  rw [e2, f2]
  by_cases he : j = n
  · subst he
    rw [if_pos rfl, if_pos (by omega)]
  · rw [if_neg he]
    by_cases hlt : j < n
    · rw [if_pos hlt, if_pos (by omega)]
    · rw [if_neg hlt, if_neg (by omega)]

theorem setCascades_gives {lists : List (List Int)} {bs : List Bank} (hfresh : ∀ b ∈ bs, b.cascade = []) :
    Gives (setCascades lists bs) fun bs' : List Bank => bs'.length = bs.length ∧ ∀ (j : Nat) b', bs'[j]? = some b' →
      ∃ b, bs[j]? = some b ∧ b'.own = b.own ∧ b'.cascade = (lists[j]?).getD [] := by
  unfold setCascades
  have := gives_eachAll (xs := lists.zipIdx) (s := bs)
    (f := fun (x : List Int × Nat) bs => do
      if x.1 = [] then .ok bs
      else if 9 < x.1.length then .ub
      else do
        let b ← at_ bs x.2
        Res.ok (bs.set x.2 { b with cascade := x.1 }))
    (I := fun pre (bs' : List Bank) => bs'.length = bs.length ∧ ∀ (j : Nat) b', bs'[j]? = some b' →
      ∃ b, bs[j]? = some b ∧ b'.own = b.own ∧ b'.cascade = if j < pre.length then (lists[j]?).getD [] else []) ?_ ?_
  · refine this.mono fun bs' hbs => ⟨hbs.1, fun j b' hb' => ?_⟩
    obtain ⟨b, hb, e1, e2⟩ := hbs.2 j b' hb'
    refine ⟨b, hb, e1, ?_⟩
    rw [e2, List.length_zipIdx]
    by_cases hlt : j < lists.length
    · rw [if_pos hlt]
    · rw [if_neg hlt, List.getElem?_eq_none (by omega)]
      rfl
  · rintro pre ⟨l, i⟩ post he bs1 ⟨h1, h2⟩
    have hget : lists.zipIdx[pre.length]? = some (l, i) := by rw [he]; simp
    have hi : i = pre.length ∧ lists[pre.length]? = some l := by
      rw [List.getElem?_zipIdx] at hget
      cases hq : lists[pre.length]? with
      | none => rw [hq] at hget; simp at hget
      | some y =>
        rw [hq] at hget
        simp only [Option.map_some, Option.some.injEq, Prod.mk.injEq, Nat.zero_add] at hget
        exact ⟨hget.2.symm, by rw [hget.1]⟩
    obtain ⟨rfl, hl⟩ := hi
    simp only
    refine Gives.ite (fun hnil => Gives.ok ⟨h1, fun j b' hb' => ?_⟩) fun hne => ?_
    · obtain ⟨b, hb, e1, e2⟩ := h2 j b' hb'
      refine ⟨b, hb, e1, ?_⟩
      rw [e2, List.length_append, List.length_singleton]
      by_cases hlt : j < pre.length
      · rw [if_pos hlt, if_pos (by omega)]
      · rw [if_neg hlt]
        by_cases hj : j = pre.length
        · subst hj
          rw [if_pos (by omega), hl]
          simp [hnil]
        · rw [if_neg (by omega)]
    · refine Gives.ite (fun _ => Gives.ub) fun _ => ?_
      refine Gives.bind (gives_at _ _) fun b hb => Gives.ok ⟨by simp [h1], fun j b' hb' => ?_⟩
      rw [List.getElem?_set] at hb'
      by_cases hj : pre.length = j
      · subst hj
        have hlt := (List.getElem?_eq_some_iff.mp hb).1
        rw [if_pos rfl, if_pos hlt] at hb'
        simp only [Option.some.injEq] at hb'
        obtain ⟨b0, hb0, e1, _⟩ := h2 pre.length b hb
        refine ⟨b0, hb0, by rw [← hb']; exact e1, ?_⟩
        rw [← hb', if_pos (by simp), hl]
        rfl
      · rw [if_neg hj] at hb'
        obtain ⟨b0, hb0, e1, e2⟩ := h2 j b' hb'
        refine ⟨b0, hb0, e1, ?_⟩
        rw [e2, List.length_append, List.length_singleton]
        by_cases hlt : j < pre.length
        · rw [if_pos hlt, if_pos (by omega)]
        · rw [if_neg hlt, if_neg (by omega)]
  · exact ⟨rfl, fun j b hb => ⟨b, hb, rfl, by rw [if_neg (by simp)]; exact hfresh b (List.mem_of_getElem? hb)⟩⟩

/-- **C148**, in part: with banks that have not been used before, all channels are behind the same filters, in some
order: those of a channel in a group are the crossovers of the group and the all-pass filters, and a channel in no group
has all-pass filters for all of them.  No all-pass filter is in all banks. -/
theorem C148_partial {cf : Coeffs} {o : Instr} {chans : Nat} {bs : List Bank}
    (h : initBanks cf o chans (List.replicate 8 ⟨[], []⟩) = .ok bs) :
    (∀ i j b b', i < aligned o chans → j < aligned o chans → bs[i]? = some b → bs[j]? = some b' →
      (b.own ++ b.cascade).Perm (b'.own ++ b'.cascade)) ∧
    (∀ i b, bs[i]? = some b → b.own = if i < o.groups then crossovers cf o i else []) ∧
    (1 < aligned o chans → ¬ ∃ f, ∀ i b, i < aligned o chans → bs[i]? = some b → f ∈ b.cascade) := by
  suffices Gives (initBanks cf o chans (List.replicate 8 ⟨[], []⟩)) fun bs =>
    (∀ i j b b', i < aligned o chans → j < aligned o chans → bs[i]? = some b → bs[j]? = some b' →
      (b.own ++ b.cascade).Perm (b'.own ++ b'.cascade)) ∧
    (∀ (i : Nat) b, bs[i]? = some b → b.own = if i < o.groups then crossovers cf o i else []) ∧
    (1 < aligned o chans → ¬ ∃ f, ∀ i b, i < aligned o chans → bs[i]? = some b → f ∈ b.cascade) from this bs h
  unfold initBanks
  refine Gives.bind (Q := Owned cf o o.groups) ?_ fun bs1 h1 => ?_
  · refine gives_range (I := Owned cf o) ?_ ⟨by simp, fun j b hb => ?_⟩
    · intro g hg bs1 h1
      refine Gives.bind (freqsOf_gives cf o g) fun fs hfs => ?_
      cases fs with
      | none =>
        refine Gives.ok (owned_step h1 rfl fun j b hb => ⟨b, hb, rfl, ?_⟩)
        have := (h1.2 j b hb).2
        by_cases he : j = g
        · subst he
          rw [if_pos rfl, this, if_neg (by omega)]
          exact hfs
        · rw [if_neg he]
      | some fs =>
        simp only
        refine Gives.bind (gives_at _ _) fun b0 hb0 => Gives.ok (owned_step h1 (by simp) fun j b' hb' => ?_)
        rw [List.getElem?_set] at hb'
        by_cases he : g = j
        · subst he
          have hlt := (List.getElem?_eq_some_iff.mp hb0).1
          rw [if_pos rfl, if_pos hlt] at hb'
          simp only [Option.some.injEq] at hb'
          refine ⟨b0, hb0, by rw [← hb'], ?_⟩
          rw [if_pos rfl, ← hb']
          exact hfs
        · rw [if_neg he] at hb'
          exact ⟨b', hb', rfl, by rw [if_neg fun h => he h.symm]⟩
    · rw [List.getElem?_replicate] at hb
      split at hb
      · simp only [Option.some.injEq] at hb
        rw [← hb]
        simp
      · simp at hb
  refine Gives.bind (Q := Noted cf o (aligned o chans) o.groups) ?_ fun ls hls => ?_
  · refine gives_range (I := Noted cf o (aligned o chans)) ?_ (noted_start cf o _)
    intro g hg ls hls
    refine Gives.bind (freqsOf_gives cf o g) fun fs hfs => ?_
    rw [hfs]
    exact (noteFreqs_gives g _ ls).mono fun ls' h' => noted_step hls h'
  refine Gives.bind (cancel_gives (ownOf cf o) _ 0 ls (allCrossovers cf o o.groups) ?_ (by omega)) fun ls' hls' => ?_
  · intro j l hl
    rw [hls.2 j l hl]
    exact own_others cf o j
  obtain ⟨e1, ⟨all, e2⟩, _, e4⟩ := hls'
  refine Gives.bind (setCascades_gives fun b hb => ?_) fun bs2 h2 => ?_
  · obtain ⟨j, hj1, hj2⟩ := List.mem_iff_getElem.mp hb
    exact (h1.2 j b (by rw [List.getElem?_eq_getElem hj1, hj2])).1
  refine Gives.ite (fun _ => Gives.ub) fun hlen => Gives.ok ?_
  have hown : ∀ (i : Nat) b, bs2[i]? = some b → b.own = ownOf cf o i := by
    intro i b hb
    obtain ⟨b0, hb0, f1, _⟩ := h2.2 i b hb
    rw [f1, (h1.2 i b0 hb0).2]
    rfl
  have hmem : ∀ (i : Nat) b, i < aligned o chans → bs2[i]? = some b → ∃ l, ls'[i]? = some l ∧ b.cascade = l := by
    intro i b hi hb
    obtain ⟨b0, hb0, _, f2⟩ := h2.2 i b hb
    have hlt : i < ls'.length := by rw [e1, hls.1]; exact hi
    exact ⟨_, List.getElem?_eq_getElem hlt, by rw [f2, List.getElem?_eq_getElem hlt]; rfl⟩
  refine ⟨fun i j b b' hi hj hb hb' => ?_, hown, fun hal => ?_⟩
  · obtain ⟨l, hl, hc⟩ := hmem i b hi hb
    obtain ⟨l', hl', hc'⟩ := hmem j b' hj hb'
    rw [hown i b hb, hown j b' hb', hc, hc']
    exact (e2 i l hl).trans (e2 j l' hl').symm
  · rintro ⟨f, hf⟩
    refine e4 (by rw [e1, hls.1]; exact hal) ⟨f, fun l hl => ?_⟩
    obtain ⟨i, hi1, hi2⟩ := List.mem_iff_getElem.mp hl
    have hi : i < aligned o chans := by rw [e1, hls.1] at hi1; exact hi1
    have hb : i < bs2.length := by omega
    obtain ⟨l', hl', hc⟩ := hmem i bs2[i] hi (List.getElem?_eq_getElem hb)
    rw [List.getElem?_eq_getElem hi1, Option.some.injEq] at hl'
    have := hf i bs2[i] hi (List.getElem?_eq_getElem hb)
    rw [hc, ← hl', hi2] at this
    exact this

/-- **C149**, in part: the filters fit if there are at most 7 groups, counting the channels in none, and none needs more
than 9 all-pass filters for the others. -/
theorem C149_partial {cf : Coeffs} {o : Instr} {chans : Nat} {banks : List Bank} (hf : Filterable cf o) (hb : banks.length = 8)
    (h7 : aligned o chans ≤ 7)
    (h9 : ∀ j < aligned o chans, (allCrossovers cf o o.groups).length ≤ 9 + (if j < o.groups then crossovers cf o j else []).length) :
    ∃ bs, initBanks cf o chans banks = .ok bs ∧ bs.length = 8 := by
  have hgr : o.groups ≤ aligned o chans := by
    unfold aligned
    split <;> omega
  suffices Does (initBanks cf o chans banks) fun bs => bs.length = 8 from this
  unfold initBanks
  refine Does.bind (Q := fun bs : List Bank => bs.length = 8) ?_ fun bs1 h1 => ?_
  · refine does_range (I := fun _ (bs : List Bank) => bs.length = 8) ?_ hb
    intro g hg bs1 h1
    refine Does.bind (freqsOf_does hf hg) fun fs _ => ?_
    cases fs with
    | none => exact Does.ok h1
    | some fs => exact Does.bind (does_at (by omega)) fun b _ => Does.ok (by simp [h1])
  have hbound : ∀ n ≤ o.groups, ∀ j < aligned o chans, (others cf o n j).length ≤ 9 := by
    intro n hn j hj
    have h1 : (others cf o n j).length ≤ (others cf o o.groups j).length := by
      generalize o.groups = m at hn
      induction hn with
      | refl => exact Nat.le_refl _
      | step _ ih => refine Nat.le_trans ih ?_; rw [others_succ]; simp
    have h2 := (own_others cf o j).length_eq
    have h3 := h9 j hj
    unfold ownOf at h2
    rw [List.length_append] at h2
    omega
  refine Does.bind (Q := Noted cf o (aligned o chans) o.groups) ?_ fun ls hls => ?_
  · refine does_range (I := Noted cf o (aligned o chans)) ?_ (noted_start cf o _)
    intro g hg ls hls
    refine Does.bind (freqsOf_does hf hg) fun fs hfs => ?_
    rw [hfs]
    obtain ⟨ls', hls'⟩ := noteFreqs_does g (crossovers cf o g) ls (by
      intro j xs hx hne
      have hj : j < aligned o chans := by
        have := (List.getElem?_eq_some_iff.mp hx).1
        rw [hls.1] at this
        exact this
      have h1 := hbound (g + 1) (by omega) j hj
      rw [others_succ, if_neg fun h => hne h.symm, List.length_append, ← hls.2 j xs hx] at h1
      omega)
    exact ⟨ls', hls', noted_step hls (noteFreqs_gives g _ ls ls' hls')⟩
  obtain ⟨ls', hls'⟩ := cancel_does _ 0 ls (Nat.zero_le _) (Nat.le_refl (((ls.headD []).length + 1) * ((ls.headD []).length + 1) + 1))
  rw [hls', ok_bind]
  obtain ⟨e1, _, e3, _⟩ := cancel_gives (ownOf cf o) _ 0 ls (allCrossovers cf o o.groups)
    (fun j l hl => by rw [hls.2 j l hl]; exact own_others cf o j) (by omega) ls' hls'
  refine Does.bind (Q := fun bs : List Bank => bs.length = 8) ?_ fun bs2 h2 => ?_
  · unfold setCascades
    refine does_each (I := fun bs : List Bank => bs.length = 8) ?_ h1
    rintro ⟨l, i⟩ hx bs hbs
    have hget := List.mem_zipIdx_iff_getElem?.mp hx
    simp only at hget ⊢
    have hi : i < aligned o chans := by
      have := (List.getElem?_eq_some_iff.mp hget).1
      rw [e1, hls.1] at this
      exact this
    refine Does.ite (fun _ => Does.ok hbs) fun _ => ?_
    have hlen : l.length ≤ 9 := by
      have hi' : i < ls.length := by rw [hls.1]; exact hi
      have h3 := e3 i _ l (List.getElem?_eq_getElem hi') hget
      rw [hls.2 i _ (List.getElem?_eq_getElem hi')] at h3
      have := hbound o.groups (Nat.le_refl _) i hi
      omega
    rw [if_neg (by omega)]
    exact Does.bind (does_at (by omega)) fun b _ => Does.ok (by simp [hbs])
  · rw [if_neg (by omega)]
    exact Does.ok h2

/-! ## What goes wrong -/

open Spec

def isUb {α : Type} : Res α → Bool
  | .ub => true
  | _ => false

/-- A gain set of bands with these crossover frequencies. -/
def crossing (fs : List Nat) : Drc.GSet := ⟨0, false, false, true, ⟨0, 0⟩ :: fs.map fun f => ⟨0, f⟩⟩

/-- A set for the channels of the stream, channel `i` having gain set `sets[i]`, 0 for none. -/
def forChannels (id : Nat) (sets : List Nat) (groups : Nat) : Coded :=
  ⟨⟨id, 1, 0, none, 1, none, none, .alone false⟩, sets.map fun s => ⟨s, none⟩, List.replicate groups ⟨none, none⟩⟩

/-- A gain decoder is set up for the set with identifier 1, which is for the stream itself. -/
def alone (c : Config) (banks : List Bank) : Res (List Inst × Dec) :=
  initSet ⟨fun _ => 1, fun _ => 1⟩ c [] c.channels (1, 0) (c.instrs.map fun o => ⟨o, 0, 0⟩, newDec banks)

def fresh : List Bank := List.replicate 8 ⟨[], []⟩

def manyFilters : List Bool :=
  configBits 5 [⟨1, [crossing [1, 2, 3], crossing [4, 5, 6], crossing [7, 8, 9], crossing [10, 11, 12], crossing [13, 14, 15]]⟩]
    [forChannels 1 [1, 2, 3, 4, 5] 5]

def manyGroups : List Bool :=
  configBits 8 [⟨1, List.replicate 8 (crossing [1])⟩] [forChannels 1 [1, 2, 3, 4, 5, 6, 7, 8] 8]

/-- Five channels with four bands each, whose crossover frequencies differ: each needs 12 all-pass filters, and there is
room for 9. -/
theorem C149_filters_refuted : ∃ c, Prog.run (readConfig ⟨32, []⟩ clearedConfig) manyFilters = .ok (c, []) ∧ alone c fresh = .ub := by
  have h : (match Prog.run (readConfig ⟨32, []⟩ clearedConfig) manyFilters with
      | .ok (c, []) => isUb (alone c fresh)
      | _ => false) = true := by decide +kernel
  split at h
  · rename_i c hc
    refine ⟨c, hc, ?_⟩
    cases hr : alone c fresh <;> rw [hr] at h <;> simp_all [isUb]
  · simp at h

/-- Eight channels with gain sets of their own: there are 8 banks, and the one behind them is read. -/
theorem C149_groups_refuted : ∃ c, Prog.run (readConfig ⟨32, []⟩ clearedConfig) manyGroups = .ok (c, []) ∧ alone c fresh = .ub := by
  have h : (match Prog.run (readConfig ⟨32, []⟩ clearedConfig) manyGroups with
      | .ok (c, []) => isUb (alone c fresh)
      | _ => false) = true := by decide +kernel
  split at h
  · rename_i c hc
    refine ⟨c, hc, ?_⟩
    cases hr : alone c fresh <;> rw [hr] at h <;> simp_all [isUb]
  · simp at h

/-- Two channels with different crossover frequencies. -/
def unlike : List Bool := configBits 2 [⟨1, [crossing [3], crossing [7]]⟩] [forChannels 1 [1, 2] 2]

/-- Two channels with the same crossover frequency in different gain sets. -/
def alike : List Bool := configBits 2 [⟨1, [crossing [5], crossing [5]]⟩] [forChannels 1 [1, 2] 2]

/-- The banks of the gain decoder after a configuration. -/
def banksOf (bits : List Bool) (banks : List Bank) : Option (List Bank) :=
  match Prog.run (readConfig ⟨32, []⟩ clearedConfig) bits with
  | .ok (c, []) => match alone c banks with
    | .ok (_, d) => some (d.banks.take 2)
    | _ => none
  | _ => none

/-- **C148**, refuted for a second configuration: with the filters of an earlier one left, one channel is behind
crossovers 5 and 7 and the other behind 5 and 3. -/
theorem C148_refuted : banksOf unlike fresh = some [⟨[3], [7]⟩, ⟨[7], [3]⟩] ∧
    banksOf alike [⟨[3], [7]⟩, ⟨[7], [3]⟩, ⟨[], []⟩, ⟨[], []⟩, ⟨[], []⟩, ⟨[], []⟩, ⟨[], []⟩, ⟨[], []⟩] = some [⟨[5], [7]⟩, ⟨[5], [3]⟩] ∧
    ¬ ([5] ++ [7] : List Int).Perm ([5] ++ [3]) := by
  refine ⟨by decide +kernel, by decide +kernel, by decide⟩

/-- With new banks no all-pass filters are needed for the same configuration. -/
example : banksOf alike fresh = some [⟨[5], []⟩, ⟨[5], []⟩] := by decide +kernel

theorem manyFilters_valid : (∀ s ∈ [crossing [1, 2, 3], crossing [4, 5, 6], crossing [7, 8, 9], crossing [10, 11, 12], crossing [13, 14, 15]],
    s.Valid) ∧ (forChannels 1 [1, 2, 3, 4, 5] 5).Valid := by
  constructor
  · intro s hs
    simp only [List.mem_cons, List.not_mem_nil, or_false] at hs
    rcases hs with rfl | rfl | rfl | rfl | rfl <;> constructor <;> simp [crossing, Drc.GSet.const, Drc.GSet.width]
  · refine ⟨by constructor <;> simp [forChannels], ?_, ?_⟩ <;> simp [forChannels, Drc.Run.Valid, Drc.Mod.Valid]

/-- Two groups of two bands each, and a channel in none. -/
def someInstr : Instr := { zeroInstr with setId := 1, groups := 2, groupSet := [0, 1], bandCount := [2, 2], chGroup := [0, 1, -1] }
def someCoeffs : DrcConfig.Coeffs := ⟨1, 2, [⟨0, 1, 0, 0, 0, 0, 2, 1, [⟨0, 0, 0, 0⟩, ⟨0, 0, 3, 0⟩]⟩, ⟨0, 1, 0, 0, 0, 0, 2, 1, [⟨0, 0, 0, 0⟩, ⟨0, 0, 7, 0⟩]⟩]⟩

example : initBanks someCoeffs someInstr 3 fresh =
    .ok (⟨[3], [7]⟩ :: ⟨[7], [3]⟩ :: ⟨[], [3, 7]⟩ :: List.replicate 5 ⟨[], []⟩) := by decide +kernel

example : ∃ bs, initBanks someCoeffs someInstr 3 fresh = .ok bs ∧ bs.length = 8 := by
  refine C149_partial ?_ rfl (by decide) (by decide)
  intro g hg
  match g with
  | 0 => exact ⟨0, rfl, .inr ⟨_, rfl, by decide, by decide, by decide, by decide⟩⟩
  | 1 => exact ⟨1, rfl, .inr ⟨_, rfl, by decide, by decide, by decide, by decide⟩⟩
  | g + 2 => simp [someInstr] at hg

end Verif.DrcApply
