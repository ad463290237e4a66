import Verif.Model.HoaPerm
import Mathlib.Algebra.BigOperators.Ring.Finset
import Mathlib.Data.Finset.Card
import Mathlib.Tactic.Linarith
import Mathlib.Tactic.NormNum
import Mathlib.Tactic.FinCases

/-! # C319 to C322: which loudspeaker plays which row of an ambisonics rendering matrix

C319: a matrix from the bitstream is spread over the local loudspeakers so that every one plays exactly
one row, signalled for a loudspeaker of its kind. C320: a matrix signalled for the local loudspeakers
is used as it is; one that is used was signalled for positions within the tolerance. C321: a matrix for
more than 16 loudspeakers is written out of bounds. C322: LFE channels of the matrices the decoder
makes itself are silent. -/

namespace Verif.HoaPerm

open Finset (range)

/-! ## The smallest entry -/

theorem pick_at (d : Nat → ℝ) (i : Nat) : (pick d i).1 = d (pick d i).2 := by
  induction i with
  | zero => rfl
  | succ i ih =>
    simp only [pick]
    split_ifs
    · rfl
    · exact ih

theorem pick_lt (d : Nat → ℝ) (i : Nat) : (pick d i).2 < max 1 i := by
  induction i with
  | zero => simp [pick]
  | succ i ih =>
    simp only [pick]
    split_ifs
    · simp
    · omega

theorem pick_le (d : Nat → ℝ) (i j : Nat) (h : j < i) : (pick d i).1 ≤ d j := by
  induction i with
  | zero => omega
  | succ i ih =>
    simp only [pick]
    rcases Nat.lt_succ_iff_lt_or_eq.mp h with h | h
    · split_ifs with hc
      · exact hc.le.trans (ih h)
      · exact ih h
    · subst h
      split_ifs with hc
      · exact le_rfl
      · exact not_lt.mp hc

/-- The first of the smallest entries is picked. -/
theorem pick_eq (d : Nat → ℝ) (n e : Nat) (he : e < n) (h1 : ∀ j < e, d e < d j)
    (h2 : ∀ j < n, d e ≤ d j) : (pick d n).2 = e := by
  have before : ∀ i ≤ e, 0 < e → d e < (pick d i).1 := by
    intro i hi h0
    rw [pick_at]
    have := pick_lt d i
    exact h1 _ (by omega)
  have after : ∀ i, e < i → i ≤ n → (pick d i) = (d e, e) := by
    intro i
    induction i with
    | zero => intro h; omega
    | succ i ih =>
      intro h hn
      simp only [pick]
      rcases Nat.lt_succ_iff_lt_or_eq.mp h with h | h
      · rw [ih h (by omega), if_neg (not_lt.mpr (h2 i (by omega)))]
      · subst h
        rcases Nat.eq_zero_or_pos e with h0 | h0
        · subst h0
          simp [pick]
        · rw [if_pos (before e le_rfl h0)]
  rw [after n he le_rfl]

/-! ## The greedy order -/

/-- The order chosen so far. -/
noncomputable def ord (n : Nat) (d : Nat → Nat → ℝ) (t : Nat) : Nat → Nat := (greedy n d t).1

theorem greedy_step (n : Nat) (d : Nat → Nat → ℝ) (t : Nat) :
    greedy n d (t + 1) = (fun i => if i = t then (pick ((greedy n d t).2 t) n).2 else (greedy n d t).1 i,
      fun r c => if r < n ∧ c = (pick ((greedy n d t).2 t) n).2 then 1111111 else (greedy n d t).2 r c) := rfl

theorem greedy_order (n : Nat) (d : Nat → Nat → ℝ) (t i : Nat) (h : i < t) :
    (greedy n d t).1 i = (pick ((greedy n d i).2 i) n).2 := by
  induction t with
  | zero => omega
  | succ t ih =>
    rw [greedy_step]
    dsimp only
    split_ifs with e
    · rw [e]
    · exact ih (by omega)

theorem greedy_dist (n : Nat) (d : Nat → Nat → ℝ) (t r c : Nat) (hr : r < n) :
    (greedy n d t).2 r c = if ∃ s < t, (greedy n d t).1 s = c then 1111111 else d r c := by
  classical
  induction t with
  | zero => simp [greedy]
  | succ t ih =>
    rw [greedy_step]
    dsimp only
    rw [ih]
    by_cases h : c = (pick ((greedy n d t).2 t) n).2
    · rw [if_pos ⟨hr, h⟩, if_pos ⟨t, Nat.lt_succ_self t, by rw [if_pos rfl]; exact h.symm⟩]
    · rw [if_neg fun q => h q.2]
      refine if_congr ⟨fun ⟨s, hs, e⟩ => ⟨s, by omega, by rw [if_neg (by omega)]; exact e⟩,
        fun ⟨s, hs, e⟩ => ?_⟩ rfl rfl
      rcases Nat.lt_succ_iff_lt_or_eq.mp hs with h' | h'
      · exact ⟨s, h', by rw [if_neg (by omega)] at e; exact e⟩
      · rw [if_pos h'] at e
        exact absurd e.symm h

theorem angular_nonneg (a b : Spk) : 0 ≤ angular a b := Real.arccos_nonneg _

theorem angular_lt (a b : Spk) : angular a b < 1111111 :=
  lt_of_le_of_lt (Real.arccos_le_pi _) (lt_of_le_of_lt Real.pi_le_four (by norm_num))

theorem angular_self (a : Spk) : angular a a = 0 := by
  have e : Real.cos (a.az - a.az) * (Real.sin a.inc * Real.sin a.inc) + Real.cos a.inc * Real.cos a.inc = 1 := by
    rw [sub_self, Real.cos_zero]
    have := Real.sin_sq_add_cos_sq a.inc
    nlinarith
  rw [angular, e]
  norm_num

/-- As many satellites and as many LFEs are signalled as there are. -/
def SameNumbers (n : Nat) (sig loc : Nat → Spk) : Prop :=
  ∀ b, count n sig b = count n loc b

/-- What is chosen for the first `t` loudspeakers: different ones of their kinds. -/
def Chosen (n : Nat) (sig loc : Nat → Spk) (t : Nat) : Prop :=
  (∀ s < t, (greedy n (dist sig loc) t).1 s < n ∧
    (sig s).lfe = (loc ((greedy n (dist sig loc) t).1 s)).lfe) ∧
  ∀ s < t, ∀ s' < t, (greedy n (dist sig loc) t).1 s = (greedy n (dist sig loc) t).1 s' → s = s'

theorem chosen (n : Nat) (sig loc : Nat → Spk) (h : SameNumbers n sig loc) (t : Nat) (ht : t ≤ n) :
    Chosen n sig loc t := by
  classical
  induction t with
  | zero => exact ⟨fun s hs => absurd hs (Nat.not_lt_zero s), fun s hs => absurd hs (Nat.not_lt_zero s)⟩
  | succ t ih =>
    obtain ⟨i1, i2⟩ := ih (by omega)
    generalize ho : (greedy n (dist sig loc) t).1 = o at i1 i2
    -- some loudspeaker of the kind is left
    have left : ∃ c < n, (loc c).lfe = (sig t).lfe ∧ ∀ s < t, o s ≠ c := by
      have hc := h (sig t).lfe
      simp only [count] at hc
      set A := (range n).filter fun i => (sig i).lfe = (sig t).lfe with hA
      set B := (range n).filter fun i => (loc i).lfe = (sig t).lfe with hB
      have hlt : ((A.filter fun s => s < t).image o).card < B.card := by
        refine lt_of_le_of_lt Finset.card_image_le ?_
        rw [← hc]
        apply Finset.card_lt_card
        rw [Finset.ssubset_iff_of_subset (Finset.filter_subset _ _)]
        exact ⟨t, by simp only [hA, Finset.mem_filter, Finset.mem_range]; exact ⟨by omega, trivial⟩,
          by simp⟩
      obtain ⟨c, hcB, hcI⟩ := Finset.exists_mem_notMem_of_card_lt_card hlt
      simp only [hB, Finset.mem_filter, Finset.mem_range] at hcB
      refine ⟨c, hcB.1, hcB.2, fun s hs e => hcI ?_⟩
      refine Finset.mem_image.mpr ⟨s, ?_, e⟩
      simp only [hA, Finset.mem_filter, Finset.mem_range]
      refine ⟨⟨by omega, ?_⟩, hs⟩
      rw [(i1 s hs).2, e]
      exact hcB.2
    obtain ⟨c, hcn, hcl, hcf⟩ := left
    set p := (pick ((greedy n (dist sig loc) t).2 t) n).2 with hp
    have hle := pick_le ((greedy n (dist sig loc) t).2 t) n c hcn
    have hat := pick_at ((greedy n (dist sig loc) t).2 t) n
    have hpn : p < n := by
      have := pick_lt ((greedy n (dist sig loc) t).2 t) n
      omega
    have hsmall : (greedy n (dist sig loc) t).2 t p < 1111111 := by
      rw [hp, ← hat]
      refine lt_of_le_of_lt hle ?_
      rw [greedy_dist n _ t t c (by omega), ho, if_neg fun ⟨s, hs, e⟩ => hcf s hs e, dist,
        if_pos hcl.symm]
      exact angular_lt _ _
    rw [greedy_dist n _ t t p (by omega), ho] at hsmall
    have hfree : ∀ s < t, o s ≠ p := by
      intro s hs e
      rw [if_pos ⟨s, hs, e⟩] at hsmall
      exact lt_irrefl _ hsmall
    have hkind : (sig t).lfe = (loc p).lfe := by
      by_contra hne
      rw [if_neg fun ⟨s, hs, e⟩ => hfree s hs e, dist, if_neg hne] at hsmall
      exact lt_irrefl _ hsmall
    have hord : (greedy n (dist sig loc) (t + 1)).1 = fun i => if i = t then p else o i := by
      rw [greedy_step]
      dsimp only
      rw [ho]
    constructor
    · intro s hs
      rw [hord]
      dsimp only
      split_ifs with e
      · exact ⟨hpn, by rw [e]; exact hkind⟩
      · exact i1 s (by omega)
    · intro s hs s' hs' e
      rw [hord] at e
      dsimp only at e
      split_ifs at e with e1 e2 e2
      · omega
      · exact absurd e.symm (hfree s' (by omega))
      · exact absurd e (hfree s (by omega))
      · exact i2 s (by omega) s' (by omega) e

/-- C319: every signalled loudspeaker gets a local one of its kind, and no two the same. -/
theorem C319_order (n : Nat) (sig loc : Nat → Spk) (h : SameNumbers n sig loc) :
    (∀ s < n, newOrder n sig loc s < n ∧ (sig s).lfe = (loc (newOrder n sig loc s)).lfe) ∧
    ∀ s < n, ∀ s' < n, newOrder n sig loc s = newOrder n sig loc s' → s = s' :=
  chosen n sig loc h n le_rfl

theorem mult_perm (n cols : Nat) (order : Nat → Nat) (m : Nat → Nat → ℝ) :
    mult (permMtx n order) ⟨n, cols, m⟩ =
      some ⟨n, cols, fun r c => ∑ i ∈ range n, m i c * if order i = r then 1 else 0⟩ := by
  simp [mult, permMtx]

theorem row_perm (n : Nat) (order : Nat → Nat) (m : Nat → Nat → ℝ)
    (hi : ∀ s < n, ∀ s' < n, order s = order s' → s = s') (s c : Nat) (hs : s < n) :
    (∑ i ∈ range n, m i c * if order i = order s then 1 else 0) = m s c := by
  rw [Finset.sum_eq_single s]
  · simp
  · intro i hin hne
    rw [if_neg fun e => hne (hi i (Finset.mem_range.mp hin) s hs e), mul_zero]
  · intro h
    exact absurd (Finset.mem_range.mpr hs) h

theorem resort_at (order : Nat → Nat) (sig : Nat → Spk) (n k : Nat) (hk : k ≤ n)
    (hi : ∀ s < n, ∀ s' < n, order s = order s' → s = s') (s : Nat) (hs : s < k) :
    resort order sig k (order s) = some (sig s) := by
  induction k with
  | zero => omega
  | succ k ih =>
    simp only [resort]
    split_ifs with e
    · rw [hi s (by omega) k (by omega) e]
    · refine ih (by omega) ?_
      rcases Nat.lt_succ_iff_lt_or_eq.mp hs with h | h
      · exact h
      · exact absurd (by rw [h]) e

/-- An injective map of the first `n` numbers to themselves is onto. -/
theorem onto {n : Nat} {f : Nat → Nat} (h : ∀ s < n, f s < n)
    (hi : ∀ s < n, ∀ s' < n, f s = f s' → s = s') (l : Nat) (hl : l < n) : ∃ s < n, f s = l := by
  have := Finset.surj_on_of_inj_on_of_card_le (s := range n) (t := range n) (fun a _ => f a)
    (fun a ha => Finset.mem_range.mpr (h a (Finset.mem_range.mp ha)))
    (fun a b ha hb e => hi a (Finset.mem_range.mp ha) b (Finset.mem_range.mp hb) e) le_rfl l
    (Finset.mem_range.mpr hl)
  obtain ⟨a, ha, e⟩ := this
  exact ⟨a, Finset.mem_range.mp ha, e.symm⟩

/-- The result of `signalled` when the numbers agree. -/
theorem signalled_eq (n : Nat) (sig loc : Nat → Spk) (cols : Nat) (m : Nat → Nat → ℝ)
    (hn : 3 * n ≤ 49) (h : SameNumbers n sig loc) :
    ∃ M : Nat → Nat → ℝ, (∀ s < n, ∀ c, M (newOrder n sig loc s) c = m s c) ∧
      ((∀ s < n, (sig s).lfe = false → angular (loc (newOrder n sig loc s)) (sig s) ≤ tolerance) →
        signalled n sig n loc cols m = .ok (some ⟨n, cols, M⟩)) ∧
      ((¬ ∀ s < n, (sig s).lfe = false → angular (loc (newOrder n sig loc s)) (sig s) ≤ tolerance) →
        signalled n sig n loc cols m = .ok none) := by
  obtain ⟨h1, h2⟩ := C319_order n sig loc h
  refine ⟨fun r c => ∑ i ∈ range n, m i c * if newOrder n sig loc i = r then 1 else 0,
    fun s hs c => row_perm n _ m h2 s c hs, ?_, ?_⟩
  · intro hv
    rw [signalled, if_neg (by omega), if_neg (by simp [h true, h false])]
    dsimp only
    rw [if_pos, mult_perm]
    intro i hi
    obtain ⟨s, hs, e⟩ := onto (fun s hs => (h1 s hs).1) h2 i hi
    rw [← e, resort_at _ sig n n le_rfl h2 s hs]
    exact ⟨(h1 s hs).2, fun hf => hv s hs (by rw [(h1 s hs).2, hf])⟩
  · intro hv
    rw [signalled, if_neg (by omega), if_neg (by simp [h true, h false])]
    dsimp only
    rw [if_neg]
    intro hall
    apply hv
    intro s hs hf
    have := hall _ (h1 s hs).1
    rw [resort_at _ sig n n le_rfl h2 s hs] at this
    exact this.2 (by rw [← (h1 s hs).2, hf])

/-- C319: a matrix that is used gives every local loudspeaker exactly one row, signalled for a
loudspeaker of its kind. C320: and, of satellites, at a position within the tolerance. -/
theorem C320_close (k : Nat) (sig : Nat → Spk) (n : Nat) (loc : Nat → Spk) (cols : Nat)
    (m : Nat → Nat → ℝ) (M : Mtx) (h : signalled k sig n loc cols m = .ok (some M)) :
    k = n ∧ M.rows = n ∧ M.cols = cols ∧ ∃ f : Nat → Nat, (∀ s < n, f s < n) ∧
      (∀ s < n, ∀ s' < n, f s = f s' → s = s') ∧ ∀ s < n, (∀ c, M.at_ (f s) c = m s c) ∧
        (sig s).lfe = (loc (f s)).lfe ∧ ((sig s).lfe = false → angular (loc (f s)) (sig s) ≤ tolerance) := by
  by_cases h1 : 49 < 3 * k
  · rw [signalled, if_pos h1] at h
    exact absurd h (by simp)
  by_cases h2 : n ≠ k ∨ count k sig false ≠ count n loc false ∨ count k sig true ≠ count n loc true
  · rw [signalled, if_neg h1, if_pos h2] at h
    exact absurd h (by simp)
  push Not at h2
  obtain ⟨e, c1, c2⟩ := h2
  subst e
  have hs : SameNumbers n sig loc := fun b => by cases b <;> assumption
  obtain ⟨i1, i2⟩ := C319_order n sig loc hs
  obtain ⟨M', g1, g2, g3⟩ := signalled_eq n sig loc cols m (by omega) hs
  by_cases hv : ∀ s < n, (sig s).lfe = false → angular (loc (newOrder n sig loc s)) (sig s) ≤ tolerance
  · rw [g2 hv] at h
    obtain rfl := Option.some.inj (Res.ok.inj h)
    exact ⟨rfl, rfl, rfl, newOrder n sig loc, fun s hs => (i1 s hs).1, i2,
      fun s hs => ⟨g1 s hs, (i1 s hs).2, hv s hs⟩⟩
  · rw [g3 hv] at h
    exact absurd (Res.ok.inj h) (by simp)

theorem tolerance_nonneg : 0 ≤ tolerance := by norm_num [tolerance]

/-- The order when every signalled loudspeaker has a nearest local one that no earlier one takes. -/
theorem order_eq (n : Nat) (sig loc : Nat → Spk) (f : Nat → Nat) (hf : ∀ s < n, f s < n)
    (hi : ∀ s < n, ∀ s' < n, f s = f s' → s = s') (ht : ∀ s < n, (sig s).lfe = (loc (f s)).lfe)
    (hd : ∀ s < n, ∀ l < n, (∀ s' < s, f s' ≠ l) → l ≠ f s → (loc l).lfe = (sig s).lfe →
      angular (loc (f s)) (sig s) ≤ angular (loc l) (sig s) ∧
        (l < f s → angular (loc (f s)) (sig s) < angular (loc l) (sig s))) (t : Nat) (htn : t ≤ n) :
    ∀ s < t, (greedy n (dist sig loc) t).1 s = f s := by
  induction t with
  | zero => intro s hs; omega
  | succ t ih =>
    have ih' := ih (by omega)
    have hv : ∀ c, (greedy n (dist sig loc) t).2 t c =
        if ∃ s < t, f s = c then 1111111 else dist sig loc t c := by
      intro c
      classical
      rw [greedy_dist n _ t t c (by omega)]
      exact if_congr ⟨fun ⟨s, hs, e⟩ => ⟨s, hs, by rw [← ih' s hs]; exact e⟩,
        fun ⟨s, hs, e⟩ => ⟨s, hs, by rw [ih' s hs]; exact e⟩⟩ rfl rfl
    have hft : (greedy n (dist sig loc) t).2 t (f t) = angular (loc (f t)) (sig t) := by
      rw [hv, if_neg, dist, if_pos (ht t (by omega))]
      rintro ⟨s, hs, e⟩
      have := hi s (by omega) t (by omega) e
      omega
    have hother : ∀ l < n, l ≠ f t → angular (loc (f t)) (sig t) ≤ (greedy n (dist sig loc) t).2 t l ∧
        (l < f t → angular (loc (f t)) (sig t) < (greedy n (dist sig loc) t).2 t l) := by
      intro l hl hne
      rw [hv]
      split_ifs with hex
      · exact ⟨(angular_lt _ _).le, fun _ => angular_lt _ _⟩
      · rw [dist]
        split_ifs with hk
        · exact hd t (by omega) l hl (fun s' hs' e => hex ⟨s', hs', e⟩) hne hk.symm
        · exact ⟨(angular_lt _ _).le, fun _ => angular_lt _ _⟩
    intro s hs
    rw [greedy_step]
    dsimp only
    split_ifs with e
    · rw [e]
      refine pick_eq _ n (f t) (hf t (by omega)) (fun j hj => ?_) fun j hj => ?_
      · rw [hft]
        exact (hother j (by have := hf t (by omega); omega) (by omega)).2 hj
      · rw [hft]
        by_cases hne : j = f t
        · rw [hne, hft]
        · exact (hother j hj hne).1
    · exact ih' s (by omega)

/-- C320: a matrix signalled for the loudspeakers that are there is used as it is. -/
theorem C320_same (n : Nat) (loc : Nat → Spk) (cols : Nat) (m : Nat → Nat → ℝ) (hn : 3 * n ≤ 49) :
    ∃ M : Nat → Nat → ℝ, (∀ s < n, ∀ c, M s c = m s c) ∧
      signalled n loc n loc cols m = .ok (some ⟨n, cols, M⟩) := by
  have ho : ∀ s < n, newOrder n loc loc s = s := by
    refine order_eq n loc loc id (fun s hs => hs) (fun s _ s' _ e => e) (fun s _ => rfl) ?_ n le_rfl
    intro s hs l hl hfree hne _
    have hsl : ¬ l < s := fun q => hfree l q rfl
    refine ⟨?_, fun q => absurd q hsl⟩
    show angular (loc s) (loc s) ≤ _
    rw [angular_self]
    exact angular_nonneg _ _
  obtain ⟨M, g1, g2, -⟩ := signalled_eq n loc loc cols m hn fun _ => rfl
  refine ⟨M, fun s hs c => ?_, g2 fun s hs _ => ?_⟩
  · have := g1 s hs c
    rwa [ho s hs] at this
  · rw [ho s hs, angular_self]
    exact tolerance_nonneg

/-- C320: a matrix is used when every signalled loudspeaker has a local one of its kind of its own that
is nearer than all others and within the tolerance; the loudspeakers then play the rows of these. -/
theorem C320_near (n : Nat) (sig loc : Nat → Spk) (cols : Nat) (m : Nat → Nat → ℝ) (hn : 3 * n ≤ 49)
    (h : SameNumbers n sig loc) (f : Nat → Nat) (hf : ∀ s < n, f s < n)
    (hi : ∀ s < n, ∀ s' < n, f s = f s' → s = s') (ht : ∀ s < n, (sig s).lfe = (loc (f s)).lfe)
    (hd : ∀ s < n, ∀ l < n, l ≠ f s → (loc l).lfe = (sig s).lfe →
      angular (loc (f s)) (sig s) < angular (loc l) (sig s))
    (hv : ∀ s < n, (sig s).lfe = false → angular (loc (f s)) (sig s) ≤ tolerance) :
    ∃ M : Nat → Nat → ℝ, (∀ s < n, ∀ c, M (f s) c = m s c) ∧
      signalled n sig n loc cols m = .ok (some ⟨n, cols, M⟩) := by
  have ho : ∀ s < n, newOrder n sig loc s = f s :=
    order_eq n sig loc f hf hi ht
      (fun s hs l hl _ hne hk => ⟨(hd s hs l hl hne hk).le, fun _ => hd s hs l hl hne hk⟩) n le_rfl
  obtain ⟨M, g1, g2, -⟩ := signalled_eq n sig loc cols m hn h
  refine ⟨M, fun s hs c => ?_, g2 fun s hs q => ?_⟩
  · have := g1 s hs c
    rwa [ho s hs] at this
  · rw [ho s hs]
    exact hv s hs q

/-- C321, refuted: that matrices for every CICP layout are read without leaving the tables. -/
theorem C321_refuted : ¬ ∀ i < numLs.length, ∀ (sig loc : Nat → Spk) (n cols : Nat) (m : Nat → Nat → ℝ),
    signalled (numLs.getD i 0) sig n loc cols m ≠ .ub := fun h =>
  h 13 (by decide) (fun _ => ⟨false, 0, 0⟩) (fun _ => ⟨false, 0, 0⟩) 24 1 (fun _ _ => 0) (by
    rw [signalled, if_pos (by decide)])

/-- C321: it is so for every layout but 13 (24 loudspeakers). -/
theorem C321_small_partial (i : Nat) (hi : i < numLs.length) (h13 : i ≠ 13) (sig loc : Nat → Spk)
    (n cols : Nat) (m : Nat → Nat → ℝ) : signalled (numLs.getD i 0) sig n loc cols m ≠ .ub := by
  have hs : 3 * numLs.getD i 0 ≤ 49 := by
    have : ∀ i < numLs.length, i ≠ 13 → 3 * numLs.getD i 0 ≤ 49 := by decide
    exact this i hi h13
  rw [signalled, if_neg (by omega)]
  split_ifs
  · simp
  · dsimp only
    split_ifs <;> simp

/-! ## LFE channels -/

/-- The entry of the permutation matrix in row `n`, when `h` satellites and `s` LFEs come before. -/
theorem fill_at (k : Nat) (l : List Bool) (n h s : Nat) (p : Nat → ℝ)
    (hh : h + l.count false ≤ k) (hs : s + l.count true ≤ k) :
    (∀ i < n * k, fill k l n h s p i = p i) ∧
    ∀ r (hr : r < l.length) (j : Nat), j < k → fill k l n h s p ((n + r) * k + j) =
      if j = (if l[r] then s + (l.take r).count true else h + (l.take r).count false) then 1 else 0 := by
  induction l generalizing n h s p with
  | nil => exact ⟨fun i _ => rfl, fun r hr => absurd hr (Nat.not_lt_zero r)⟩
  | cons t l ih =>
    have hidx : (if t then s else h) < k := by
      cases t
      · simp only [Bool.false_eq_true, if_false]
        rw [List.count_cons_self] at hh
        omega
      · simp only [if_true]
        rw [List.count_cons_self] at hs
        omega
    have ihh : (if t then h else h + 1) + l.count false ≤ k := by
      cases t
      · simp only [Bool.false_eq_true, if_false]
        rw [List.count_cons_self] at hh
        omega
      · simp only [if_true]
        exact (Nat.add_le_add_left (List.count_le_count_cons) _).trans hh
    have ihs : (if t then s + 1 else s) + l.count true ≤ k := by
      cases t
      · simp only [Bool.false_eq_true, if_false]
        exact (Nat.add_le_add_left (List.count_le_count_cons) _).trans hs
      · simp only [if_true]
        rw [List.count_cons_self] at hs
        omega
    simp only [fill]
    obtain ⟨a1, a2⟩ := ih (n + 1) (if t then h else h + 1) (if t then s + 1 else s)
      (fun i => if i = n * k + (if t then s else h) then 1 else
        if n * k ≤ i ∧ i < n * k + k then 0 else p i) ihh ihs
    have hmul : (n + 1) * k = n * k + k := Nat.succ_mul n k
    constructor
    · intro i hi
      rw [a1 i (by omega), if_neg (by omega), if_neg (by omega)]
    · intro r hr j hj
      cases r with
      | zero =>
        have hx : (if (t :: l)[0] then s + ((t :: l).take 0).count true
            else h + ((t :: l).take 0).count false) = if t then s else h := by simp
        rw [hx, show (n + 0) * k + j = n * k + j from rfl, a1 (n * k + j) (by omega)]
        by_cases e : j = if t then s else h
        · rw [if_pos (by omega), if_pos e]
        · rw [if_neg (by omega), if_pos ⟨by omega, by omega⟩, if_neg e]
      | succ r =>
        have e : n + (r + 1) = n + 1 + r := by omega
        rw [e, a2 r (by simpa using hr) j hj]
        simp only [List.getElem_cons_succ, List.take_succ_cons]
        cases t
        · simp only [Bool.false_eq_true, if_false, List.count_cons_self,
            List.count_cons_of_ne (show false ≠ true by decide)]
          congr 2
          split_ifs <;> omega
        · simp only [if_true, List.count_cons_self,
            List.count_cons_of_ne (show true ≠ false by decide)]
          congr 2
          split_ifs <;> omega

theorem count_take_lt (l : List Bool) (n : Nat) (hn : n < l.length) :
    (l.take n).count l[n] < l.count l[n] := by
  have e : l = l.take n ++ l[n] :: l.drop (n + 1) := by
    rw [← List.drop_eq_getElem_cons hn, List.take_append_drop]
  have := congrArg (List.count l[n]) e
  rw [List.count_append, List.count_cons_self] at this
  omega

theorem count_sum (l : List Bool) : l.count false + l.count true = l.length := by
  induction l with
  | nil => rfl
  | cons a l ih => cases a <;> simp <;> omega

/-- C322: with the types of the loudspeakers of the layout, LFE channels are silent and every other
loudspeaker plays the row of its number among the satellites. -/
theorem C322_silent_partial (types : List Bool) (m : Mtx) (hr : m.rows = types.length)
    (hz : ∀ r, types.count false ≤ r → r < m.rows → ∀ c, m.at_ r c = 0) (n : Nat)
    (hn : n < types.length) (c : Nat) :
    (permuteLfe types (types.count false) m).rows = types.length ∧
    (permuteLfe types (types.count false) m).at_ n c =
      if types[n] then 0 else m.at_ ((types.take n).count false) c := by
  have hsum := count_sum types
  obtain ⟨-, f2⟩ := fill_at types.length types 0 0 (types.count false) (fun _ => 0) (by omega) (by omega)
  have hlt := count_take_lt types n hn
  rw [permuteLfe, mult]
  dsimp only
  rw [if_neg (by rw [hr]; simp), Option.getD_some]
  refine ⟨rfl, ?_⟩
  dsimp only
  set idx := if types[n] then types.count false + (types.take n).count true
    else 0 + (types.take n).count false with hidx
  have hk : idx < types.length := by
    rw [hidx]
    split_ifs with e
    · rw [e] at hlt; omega
    · rw [Bool.not_eq_true] at e
      rw [e] at hlt; omega
  have key : ∀ i ∈ range types.length, m.at_ i c *
      fill types.length types 0 0 (types.count false) (fun _ => 0) (n * types.length + i) =
      if i = idx then m.at_ i c else 0 := by
    intro i hi
    have := f2 n hn i (Finset.mem_range.mp hi)
    rw [Nat.zero_add, ← hidx] at this
    rw [this]
    split_ifs <;> simp
  rw [Finset.sum_congr rfl key, Finset.sum_ite_eq' (range types.length) idx, if_pos (Finset.mem_range.mpr hk)]
  rw [hidx]
  split_ifs with e
  · exact hz _ (by omega) (by rw [hr]; rw [e] at hlt; omega) c
  · rw [Nat.zero_add]

/-- C322, refuted: that LFE channels of every layout are silent. The types come from the CICP index, so
that with a layout of single loudspeakers (an LFE and a satellite, and index 2) the LFE plays the row of
the satellite. -/
theorem C322_refuted : ¬ ∀ (layout types : List Bool) (m : Mtx), types.length = layout.length →
    m.rows = layout.length → (∀ r, layout.count false ≤ r → r < m.rows → ∀ c, m.at_ r c = 0) →
    ∀ n (hn : n < layout.length), layout[n] = true → ∀ c,
      (permuteLfe types (layout.count false) m).at_ n c = 0 := by
  intro h
  have := h [true, false] [false, false] ⟨2, 1, fun r _ => if r = 0 then 1 else 0⟩ rfl rfl
    (by intro r hr _ c; simp at hr; simp; omega) 0 (by decide) rfl 0
  simp [permuteLfe, mult, fill, Finset.sum_range_succ] at this

/-- C322: when the layout has another number of loudspeakers than the CICP index nothing is permuted;
the error of the multiplication is lost. -/
theorem C322_unchanged (types : List Bool) (numPos : Nat) (m : Mtx) (h : m.rows ≠ types.length) :
    permuteLfe types numPos m = m := by
  rw [permuteLfe, mult]
  dsimp only
  rw [if_pos (Ne.symm h), Option.getD_none]

/-- C322: the product of two matrices is made when their sizes match and only then. -/
theorem C322_product (a b : Mtx) :
    (a.cols = b.rows → ∃ m, mult a b = some m ∧ m.rows = a.rows ∧ m.cols = b.cols ∧
      ∀ r c, m.at_ r c = ∑ i ∈ range a.cols, a.at_ r i * b.at_ i c) ∧
    (a.cols ≠ b.rows → mult a b = none) := by
  refine ⟨fun h => ⟨⟨a.rows, b.cols, fun r c => ∑ i ∈ range a.cols, b.at_ i c * a.at_ r i⟩,
    by rw [mult, if_neg (not_not.mpr h)], rfl, rfl, fun r c => ?_⟩,
    fun h => by rw [mult, if_pos h]⟩
  show ∑ i ∈ range a.cols, b.at_ i c * a.at_ r i = _
  exact Finset.sum_congr rfl fun i _ => mul_comm (b.at_ i c) (a.at_ r i)

/-! ## Examples -/

/-- Left, right and an LFE. -/
noncomputable def trio : Nat → Spk := fun i =>
  if i = 0 then ⟨false, Real.pi / 2, 1 / 2⟩ else if i = 1 then ⟨true, 2, 0⟩ else ⟨false, Real.pi / 2, -1 / 2⟩

/-- The same loudspeakers in another order. -/
noncomputable def trio' : Nat → Spk := fun i => trio (2 - i)

/-- The hypotheses of C319 and C320: the same numbers of satellites and LFEs. -/
example : SameNumbers 3 trio' trio := by
  intro b
  simp only [count, trio', trio]
  cases b <;> rfl

/-- The hypotheses of C322: a layout with an LFE in the middle, as CICP index 6. -/
example : ∃ m : Mtx, m.rows = [false, false, true, false].length ∧ m.at_ 2 0 = 5 ∧
    ∀ r, [false, false, true, false].count false ≤ r → r < m.rows → ∀ c, m.at_ r c = 0 :=
  ⟨⟨4, 1, fun r _ => if r < 3 then 5 else 0⟩, rfl, rfl, by
    intro r hr _ c
    have : ¬ r < 3 := by simp at hr; omega
    simp [this]⟩

end Verif.HoaPerm
