import Verif.Props.ObjPan

/-! # C294, C295: the downmix of imaginary loudspeakers

C294: real loudspeakers keep their sound, that of an imaginary one is spread over its neighbours with
energy one. C295: that objects are heard; refuted for layouts without imaginary loudspeakers. -/

namespace Verif.ObjRen

open Finset (range)

/-! ## Specification -/

/-- The triangle has the corner. -/
def Tri.has (t : Tri) (i : Nat) : Prop := t.a = i ∨ t.b = i ∨ t.c = i

/-- `r` and `i` are corners of one of the triangles, which is a proper one. -/
def Adjacent (ts : List Tri) (r i : Nat) : Prop := ∃ t ∈ ts, t.has i ∧ t.has r ∧ r ≠ i

/-- Proper triangles of the first `n` loudspeakers. -/
def Proper (n : Nat) (ts : List Tri) : Prop :=
  ∀ t ∈ ts, t.a ≠ t.b ∧ t.a ≠ t.c ∧ t.b ≠ t.c ∧ t.a < n ∧ t.b < n ∧ t.c < n

/-- A column of parts of a whole. -/
def Parts (n : Nat) (m : Nat → Nat → ℝ) (c : Nat) : Prop :=
  (∀ r < n, 0 ≤ m r c) ∧ ∑ r ∈ range n, m r c = 1

/-! ## Columns -/

theorem neighbours_other (i : Nat) (t : Tri) (m : Nat → Nat → ℝ) {r c : Nat} (h : c ≠ i) :
    neighbours i t m r c = m r c := by
  simp only [neighbours]
  split_ifs <;> simp only [h, and_false, if_false]

open Classical in
theorem neighbours_own {i : Nat} {t : Tri} (ht : t.a ≠ t.b ∧ t.a ≠ t.c ∧ t.b ≠ t.c)
    (m : Nat → Nat → ℝ) (r : Nat) :
    neighbours i t m r i = if t.has i ∧ t.has r ∧ r ≠ i then 1 else m r i := by
  obtain ⟨h1, h2, h3⟩ := ht
  simp only [neighbours]
  by_cases hc : t.c = i
  · have ha : t.a ≠ i := fun e => h2 (e.trans hc.symm)
    have hb : t.b ≠ i := fun e => h3 (e.trans hc.symm)
    simp only [if_pos hc, and_true]
    by_cases q : r = t.a
    · rw [if_pos q, if_pos ⟨Or.inr (Or.inr hc), Or.inl q.symm, by rw [q]; exact ha⟩]
    · rw [if_neg q]
      by_cases w : r = t.b
      · rw [if_pos w, if_pos ⟨Or.inr (Or.inr hc), Or.inr (Or.inl w.symm), by rw [w]; exact hb⟩]
      · rw [if_neg w, if_neg (by simp only [Tri.has]; omega)]
  · simp only [if_neg hc]
    by_cases hb : t.b = i
    · have ha : t.a ≠ i := fun e => h1 (e.trans hb.symm)
      simp only [if_pos hb, and_true]
      by_cases q : r = t.a
      · rw [if_pos q, if_pos ⟨Or.inr (Or.inl hb), Or.inl q.symm, by rw [q]; exact ha⟩]
      · rw [if_neg q]
        by_cases w : r = t.c
        · rw [if_pos w, if_pos ⟨Or.inr (Or.inl hb), Or.inr (Or.inr w.symm), by rw [w]; exact hc⟩]
        · rw [if_neg w, if_neg (by simp only [Tri.has]; omega)]
    · simp only [if_neg hb]
      by_cases ha : t.a = i
      · simp only [if_pos ha, and_true]
        by_cases q : r = t.b
        · rw [if_pos q, if_pos ⟨Or.inl ha, Or.inr (Or.inl q.symm), by rw [q]; exact hb⟩]
        · rw [if_neg q]
          by_cases w : r = t.c
          · rw [if_pos w, if_pos ⟨Or.inl ha, Or.inr (Or.inr w.symm), by rw [w]; exact hc⟩]
          · rw [if_neg w, if_neg (by simp only [Tri.has]; omega)]
      · rw [if_neg ha, if_neg (by simp only [Tri.has]; omega)]

theorem fold_other (i : Nat) (ts : List Tri) (m : Nat → Nat → ℝ) {r c : Nat} (h : c ≠ i) :
    ts.foldl (fun m t => neighbours i t m) m r c = m r c := by
  induction ts generalizing m with
  | nil => rfl
  | cons t ts ih => rw [List.foldl_cons, ih, neighbours_other i t m h]

open Classical in
theorem fold_own {n i : Nat} {ts : List Tri} (hp : Proper n ts) (m : Nat → Nat → ℝ) (r : Nat) :
    ts.foldl (fun m t => neighbours i t m) m r i = if Adjacent ts r i then 1 else m r i := by
  induction ts generalizing m with
  | nil => simp [Adjacent]
  | cons t ts ih =>
    have ht := hp t List.mem_cons_self
    rw [List.foldl_cons, ih (fun t h => hp t (List.mem_cons_of_mem _ h)),
      neighbours_own ⟨ht.1, ht.2.1, ht.2.2.1⟩]
    by_cases a : Adjacent ts r i
    · rw [if_pos a, if_pos]
      obtain ⟨u, hu, q⟩ := a
      exact ⟨u, List.mem_cons_of_mem _ hu, q⟩
    · rw [if_neg a]
      by_cases b : t.has i ∧ t.has r ∧ r ≠ i
      · rw [if_pos b, if_pos ⟨t, List.mem_cons_self, b⟩]
      · rw [if_neg b, if_neg]
        rintro ⟨u, hu, q⟩
        rcases List.mem_cons.mp hu with rfl | hu
        · exact b q
        · exact a ⟨u, hu, q⟩

theorem column_other (n : Nat) (ts : List Tri) (i : Nat) (m : Nat → Nat → ℝ) {r c : Nat} (h : c ≠ i) :
    column n ts i m r c = m r c := by
  simp only [column]
  split
  · simp only [h, false_and, if_false]
    exact fold_other i ts m h
  · exact fold_other i ts m h

theorem column_div {n i : Nat} {ts : List Tri} {m : Nat → Nat → ℝ} {k : ℝ}
    (hs : ∑ j ∈ range n, ts.foldl (fun m t => neighbours i t m) m j i = k) (hk : k ≠ 0) {r : Nat}
    (hr : r < n) : column n ts i m r i = ts.foldl (fun m t => neighbours i t m) m r i / k := by
  simp only [column]
  rw [hs, if_pos hk, if_pos ⟨rfl, hr⟩]

open Classical in
theorem column_own {n i : Nat} {ts : List Tri} (hp : Proper n ts) (m : Nat → Nat → ℝ)
    (h0 : ∀ r < n, m r i = 0) (ha : ∃ r, Adjacent ts r i) :
    let k := ((range n).filter fun r => Adjacent ts r i).card
    0 < k ∧ ∀ r < n, column n ts i m r i = if Adjacent ts r i then 1 / (k : ℝ) else 0 := by
  intro k
  have lt : ∀ r, Adjacent ts r i → r < n := by
    rintro r ⟨t, ht, -, q, -⟩
    have := hp t ht
    rcases q with q | q | q <;> omega
  have hk : 0 < k := by
    obtain ⟨r, hr⟩ := ha
    exact Finset.card_pos.mpr ⟨r, Finset.mem_filter.mpr ⟨Finset.mem_range.mpr (lt r hr), hr⟩⟩
  have hs : ∑ j ∈ range n, ts.foldl (fun m t => neighbours i t m) m j i = k := by
    rw [Finset.sum_congr rfl (g := fun j => if Adjacent ts j i then (1 : ℝ) else 0) (fun j hj => by
      rw [fold_own hp, h0 j (Finset.mem_range.mp hj)])]
    rw [Finset.sum_boole]
  refine ⟨hk, fun r hr => ?_⟩
  have hk' : (k : ℝ) ≠ 0 := by positivity
  rw [column_div hs hk' hr, fold_own hp, h0 r hr]
  split
  · rfl
  · exact zero_div _

/-- The fold over the imaginary loudspeakers. -/
theorem columns_fold (n nReal : Nat) (ts : List Tri) (m : Nat → Nat → ℝ) (k : Nat) :
    (∀ r c, c < nReal ∨ nReal + k ≤ c →
      (List.range k).foldl (fun m k => column n ts (nReal + k) m) m r c = m r c) ∧
    ∀ c, nReal ≤ c → c < nReal + k → ∃ m', (∀ r, m' r c = m r c) ∧ ∀ r,
      (List.range k).foldl (fun m k => column n ts (nReal + k) m) m r c = column n ts c m' r c := by
  induction k with
  | zero => exact ⟨fun r c _ => rfl, fun c h1 h2 => by omega⟩
  | succ k ih =>
    obtain ⟨i1, i2⟩ := ih
    simp only [List.range_succ, List.foldl_append, List.foldl_cons, List.foldl_nil]
    refine ⟨fun r c h => ?_, fun c h1 h2 => ?_⟩
    · rw [column_other _ _ _ _ (by omega)]
      exact i1 r c (by omega)
    · rcases Nat.lt_or_ge c (nReal + k) with q | q
      · obtain ⟨m', e1, e2⟩ := i2 c h1 q
        refine ⟨m', e1, fun r => ?_⟩
        rw [column_other _ _ _ _ (by omega)]
        exact e2 r
      · obtain rfl : c = nReal + k := by omega
        exact ⟨_, fun r => i1 r _ (by omega), fun r => rfl⟩

/-- Memory that was cleared. -/
def Clear (old : Nat → Nat → ℝ) : Prop := ∀ r c, old r c = 0

theorem columns_real {nReal nAll : Nat} {ts : List Tri} {old : Nat → Nat → ℝ} (ho : Clear old) {r c : Nat}
    (hc : c < nReal) : columns nReal nAll ts old r c = if r = c then 1 else 0 := by
  simp only [columns]
  rw [(columns_fold nAll nReal ts _ _).1 r c (Or.inl hc)]
  by_cases h : r = c
  · rw [if_pos h, if_pos ⟨by omega, h⟩]
  · rw [if_neg h, if_neg (fun q => h q.2), ho]

open Classical in
theorem columns_imag {nReal nAll : Nat} {ts : List Tri} {old : Nat → Nat → ℝ} (ho : Clear old)
    (hp : Proper nAll ts) {c : Nat} (h1 : nReal ≤ c) (h2 : c < nAll) (ha : ∃ r, Adjacent ts r c) :
    let k := ((range nAll).filter fun r => Adjacent ts r c).card
    0 < k ∧ ∀ r < nAll, columns nReal nAll ts old r c = if Adjacent ts r c then 1 / (k : ℝ) else 0 := by
  obtain ⟨m', e1, e2⟩ := (columns_fold nAll nReal ts
    (fun r c => if r < nReal ∧ r = c then 1 else old r c) (nAll - nReal)).2 c h1 (by omega)
  obtain ⟨hk, q⟩ := column_own hp m' (i := c) (fun r _ => by
    rw [e1, if_neg (by omega), ho]) ha
  exact ⟨hk, fun r hr => by simp only [columns]; rw [e2, q r hr]⟩

theorem columns_parts {nReal nAll : Nat} {ts : List Tri} {old : Nat → Nat → ℝ} (ho : Clear old)
    (hp : Proper nAll ts) (ha : ∀ c, nReal ≤ c → c < nAll → ∃ r, Adjacent ts r c) {c : Nat}
    (hc : c < nAll) : Parts nAll (columns nReal nAll ts old) c := by
  classical
  rcases Nat.lt_or_ge c nReal with q | q
  · refine ⟨fun r _ => ?_, ?_⟩
    · rw [columns_real ho q]; split <;> norm_num
    · rw [Finset.sum_congr rfl (g := fun r => if r = c then (1 : ℝ) else 0) (fun r _ => columns_real ho q),
        Finset.sum_ite_eq', if_pos (Finset.mem_range.mpr hc)]
  · obtain ⟨hk, e⟩ := columns_imag ho hp q hc (ha c q hc)
    refine ⟨fun r hr => ?_, ?_⟩
    · rw [e r hr]; split <;> positivity
    · rw [Finset.sum_congr rfl (fun r hr => e r (Finset.mem_range.mp hr)), ← Finset.sum_filter,
        Finset.sum_const, nsmul_eq_mul, mul_one_div_cancel (by positivity)]

/-! ## Rounds -/

theorem square_parts {n : Nat} {m : Nat → Nat → ℝ} (h : ∀ c < n, Parts n m c) {c : Nat} (hc : c < n) :
    Parts n (square n m) c := by
  refine ⟨fun r hr => ?_, ?_⟩
  · simp only [square, if_pos (show r < n ∧ c < n from ⟨hr, hc⟩)]
    refine Finset.sum_nonneg fun k hk => mul_nonneg ?_ ?_
    · exact (h c hc).1 k (Finset.mem_range.mp hk)
    · exact (h k (Finset.mem_range.mp hk)).1 r hr
  · rw [Finset.sum_congr rfl (g := fun r => ∑ k ∈ range n, m k c * m r k) (fun r hr => by
      simp only [square, if_pos (show r < n ∧ c < n from ⟨Finset.mem_range.mp hr, hc⟩)])]
    rw [Finset.sum_comm]
    rw [Finset.sum_congr rfl (g := fun k => m k c) (fun k hk => by
      rw [← Finset.mul_sum, (h k (Finset.mem_range.mp hk)).2, mul_one])]
    exact (h c hc).2

theorem rounds_parts {nReal n : Nat} (k : Nat) {m : Nat → Nat → ℝ} (h : ∀ c < n, Parts n m c) :
    ∀ c < n, Parts n (rounds nReal n k m) c := by
  induction k generalizing m with
  | zero => exact h
  | succ k ih =>
    simp only [rounds]
    split
    · exact fun c hc => square_parts h hc
    · exact ih fun c hc => square_parts h hc

/-- A column that only has parts at real loudspeakers stays. -/
theorem rounds_keep {nReal n : Nat} (hn : nReal ≤ n) (k : Nat) {m : Nat → Nat → ℝ}
    (hr : ∀ r c, r < n → c < nReal → m r c = if r = c then 1 else 0) {c : Nat} (hc : c < n)
    (h0 : ∀ r, nReal ≤ r → r < n → m r c = 0) {r : Nat} (hlt : r < n) :
    rounds nReal n k m r c = m r c := by
  have sq : ∀ (m : Nat → Nat → ℝ), (∀ r c, r < n → c < nReal → m r c = if r = c then 1 else 0) →
      ∀ c, c < n → (∀ r, nReal ≤ r → r < n → m r c = 0) → ∀ r, r < n → square n m r c = m r c := by
    intro m hr c hc h0 r hlt
    simp only [square, if_pos (show r < n ∧ c < n from ⟨hlt, hc⟩)]
    rw [Finset.sum_congr rfl (g := fun k => if r = k then m k c else 0) (fun k hk => by
      rcases Nat.lt_or_ge k nReal with q | q
      · rw [hr r k hlt q]; split <;> simp
      · rw [h0 k q (Finset.mem_range.mp hk)]; simp)]
    rw [Finset.sum_ite_eq, if_pos (Finset.mem_range.mpr hlt)]
  induction k generalizing m r with
  | zero => rfl
  | succ k ih =>
    have e := sq m hr c hc h0
    have er : ∀ r c, r < n → c < nReal → square n m r c = if r = c then 1 else 0 := by
      intro r c h1 h2
      rw [sq m hr c (by omega) (fun r h3 h4 => by rw [hr r c h4 h2, if_neg (by omega)]) r h1, hr r c h1 h2]
    simp only [rounds]
    split
    · exact e r hlt
    · rw [ih er (fun r h1 h2 => by rw [e r h2, h0 r h1 h2]) hlt, e r hlt]

/-- C294: in cleared memory, the sound of a real loudspeaker stays there and only there. -/
theorem C294_real {nReal nAll : Nat} (hn : nReal ≤ nAll) (ts : List Tri) {old : Nat → Nat → ℝ}
    (ho : Clear old) {r c : Nat} (hr : r < nAll) (hc : c < nReal) :
    remap nReal nAll ts old r c = if r = c then 1 else 0 := by
  simp only [remap, if_pos (show r < nAll ∧ c < nAll from ⟨hr, by omega⟩)]
  rw [rounds_keep hn 20 (fun r c _ h => columns_real ho h) (by omega) (fun r h1 _ => by
    rw [columns_real ho hc, if_neg (by omega)]) hr, columns_real ho hc]
  split <;> simp

/-- C294: in cleared memory, when every imaginary loudspeaker is a corner of a triangle, the sound of
each loudspeaker goes to real and imaginary ones with energy one and gains that are not negative. -/
theorem C294_energy {nReal nAll : Nat} {ts : List Tri} {old : Nat → Nat → ℝ} (ho : Clear old)
    (hp : Proper nAll ts) (ha : ∀ c, nReal ≤ c → c < nAll → ∃ r, Adjacent ts r c) {c : Nat}
    (hc : c < nAll) :
    (∀ r, r < nAll → 0 ≤ remap nReal nAll ts old r c) ∧
      ∑ r ∈ range nAll, remap nReal nAll ts old r c * remap nReal nAll ts old r c = 1 := by
  have h := rounds_parts (nReal := nReal) 20 (fun c hc => columns_parts ho hp ha (c := c) hc) c hc
  refine ⟨fun r hr => ?_, ?_⟩
  · simp only [remap, if_pos (show r < nAll ∧ c < nAll from ⟨hr, hc⟩)]
    exact Real.sqrt_nonneg _
  · rw [← h.2]
    refine Finset.sum_congr rfl fun r hr => ?_
    have hr := Finset.mem_range.mp hr
    simp only [remap, if_pos (show r < nAll ∧ c < nAll from ⟨hr, hc⟩)]
    exact Real.mul_self_sqrt (h.1 r hr)

open Classical in
/-- C294: in cleared memory, an imaginary loudspeaker that has `k` neighbours, all of them real, is
spread equally over them. -/
theorem C294_equal {nReal nAll : Nat} (hn : nReal ≤ nAll) {ts : List Tri} {old : Nat → Nat → ℝ}
    (ho : Clear old) (hp : Proper nAll ts) {c : Nat} (h1 : nReal ≤ c) (h2 : c < nAll)
    (ha : ∃ r, Adjacent ts r c) (hreal : ∀ r, Adjacent ts r c → r < nReal) {r : Nat} (hr : r < nAll) :
    remap nReal nAll ts old r c = if Adjacent ts r c then
      Real.sqrt (1 / (((range nAll).filter fun r => Adjacent ts r c).card : ℝ)) else 0 := by
  obtain ⟨-, e⟩ := columns_imag ho hp h1 h2 ha
  simp only [remap, if_pos (show r < nAll ∧ c < nAll from ⟨hr, h2⟩)]
  rw [rounds_keep hn 20 (fun r c _ h => columns_real ho h) h2 (fun r h3 h4 => by
    rw [e r h4, if_neg (fun q => by have := hreal r q; omega)]) hr, e r hr]
  split <;> simp

/-- Either the rounds end where imaginary loudspeakers hardly pass on anything to others, or all of them
were made. -/
theorem rounds_done (nReal n : Nat) (k : Nat) (m : Nat → Nat → ℝ) :
    (∀ l c, nReal ≤ l → l < n → nReal ≤ c → c < n → rounds nReal n k m l c ≤ 1 / 10000) ∨
      rounds nReal n k m = (square n)^[k] m := by
  induction k generalizing m with
  | zero => exact Or.inr rfl
  | succ k ih =>
    simp only [rounds]
    split
    · exact Or.inl ‹_›
    · rw [Function.iterate_succ_apply]
      exact ih _

/-- C294: after the downmix is set up no imaginary loudspeaker gets a gain above 1/100 from an imaginary
one, unless 20 products of the matrix with itself were not enough for that. -/
theorem C294_settled (nReal nAll : Nat) (ts : List Tri) (old : Nat → Nat → ℝ) :
    (∀ r c, nReal ≤ r → r < nAll → nReal ≤ c → c < nAll → remap nReal nAll ts old r c ≤ 1 / 100) ∨
      ∀ r c, r < nAll → c < nAll → remap nReal nAll ts old r c =
        Real.sqrt ((square nAll)^[20] (columns nReal nAll ts old) r c) := by
  rcases rounds_done nReal nAll 20 (columns nReal nAll ts old) with h | h
  · refine Or.inl fun r c h1 h2 h3 h4 => ?_
    simp only [remap, if_pos (show r < nAll ∧ c < nAll from ⟨h2, h4⟩)]
    rw [Real.sqrt_le_left (by norm_num)]
    exact (h r c h1 h2 h3 h4).trans (by norm_num)
  · refine Or.inr fun r c h1 h2 => ?_
    simp only [remap, if_pos (show r < nAll ∧ c < nAll from ⟨h1, h2⟩), h]

/-- C294, refuted: that the downmix only depends on the loudspeakers. Where an earlier layout left a
gain, it stays. -/
theorem C294_refuted : ¬ ∀ (nReal nAll : Nat) (ts : List Tri) (old : Nat → Nat → ℝ),
    Proper nAll ts → ∀ r c, r < nAll → c < nAll →
      remap nReal nAll ts old r c = remap nReal nAll ts (fun _ _ => 0) r c := by
  classical
  intro h
  have hp : Proper 4 [⟨0, 1, 3⟩] := by
    intro t ht
    rw [List.mem_singleton] at ht
    subst ht
    decide
  have adj : ∀ r, Adjacent [⟨0, 1, 3⟩] r 3 ↔ r = 0 ∨ r = 1 := by
    intro r
    simp only [Adjacent, List.mem_singleton, exists_eq_left, Tri.has]
    constructor
    · rintro ⟨-, q | q | q, w⟩
      · exact Or.inl q.symm
      · exact Or.inr q.symm
      · exact absurd q.symm w
    · rintro (rfl | rfl)
      · simp
      · simp
  have h1 := h 3 4 [⟨0, 1, 3⟩] (fun r c => if r = 2 ∧ c = 3 then 1 else 0) hp 2 3 (by decide) (by decide)
  rw [C294_equal (by decide) (fun _ _ => rfl) hp (by decide) (by decide) ⟨0, (adj 0).mpr (Or.inl rfl)⟩
    (fun r q => by have := (adj r).mp q; omega) (by decide), if_neg (by rw [adj]; decide)] at h1
  have hc : ∀ r c, r < 4 → columns 3 4 [⟨0, 1, 3⟩] (fun r c => if r = 2 ∧ c = 3 then 1 else 0) r c
      = if c = 3 then (if r < 3 then 1 / 3 else 0) else if r < 3 ∧ r = c then 1 else 0 := by
    intro r c hr
    simp only [columns]
    rw [show List.range (4 - 3) = [0] from rfl, List.foldl_cons, List.foldl_nil]
    by_cases q : c = 3
    · subst q
      rw [if_pos rfl]
      have e : ∀ r, r < 4 → [(⟨0, 1, 3⟩ : Tri)].foldl (fun m t => neighbours 3 t m)
          (fun r c => if r < 3 ∧ r = c then 1 else if r = 2 ∧ c = 3 then (1 : ℝ) else 0) r 3
          = if r < 3 then 1 else 0 := by
        intro r hr
        rcases (by omega : r = 0 ∨ r = 1 ∨ r = 2 ∨ r = 3) with rfl | rfl | rfl | rfl <;>
          norm_num [neighbours]
      have es : ∑ j ∈ range 4, [(⟨0, 1, 3⟩ : Tri)].foldl (fun m t => neighbours 3 t m)
          (fun r c => if r < 3 ∧ r = c then 1 else if r = 2 ∧ c = 3 then (1 : ℝ) else 0) j 3 = 3 := by
        simp only [Finset.sum_range_succ, Finset.sum_range_zero]
        rw [e 0 (by decide), e 1 (by decide), e 2 (by decide), e 3 (by decide)]
        norm_num
      rw [Nat.add_zero, column_div es (by norm_num) hr, e r hr]
      split <;> norm_num
    · rw [column_other _ _ _ _ (by omega), if_neg q]
      by_cases q' : r < 3 ∧ r = c
      · rw [if_pos q', if_pos q']
      · rw [if_neg q', if_neg q', if_neg (fun w => q w.2)]
  have h2 : remap 3 4 [⟨0, 1, 3⟩] (fun r c => if r = 2 ∧ c = 3 then 1 else 0) 2 3 = Real.sqrt (1 / 3) := by
    simp only [remap]
    rw [if_pos (by decide), rounds_keep (by decide) 20 (fun r c h1 h2 => ?_) (by decide) (fun r h1 h2 => ?_)
      (by decide), hc 2 3 (by decide), if_pos rfl, if_pos (by decide)]
    · rw [hc r c h1, if_neg (by omega)]
      by_cases w : r = c
      · rw [if_pos w, if_pos ⟨by omega, w⟩]
      · rw [if_neg w, if_neg (fun q => w q.2)]
    · rw [hc r 3 h2, if_pos rfl, if_neg (by omega)]
  rw [h2] at h1
  have : (0 : ℝ) < Real.sqrt (1 / 3) := Real.sqrt_pos.mpr (by norm_num)
  exact absurd h1 this.ne'

/-- An imaginary loudspeaker behind two real ones (hypotheses of C294). -/
example : Proper 3 [⟨0, 1, 2⟩] ∧ ∃ r, Adjacent [⟨0, 1, 2⟩] r 2 := by
  refine ⟨fun t ht => ?_, 0, ⟨0, 1, 2⟩, by simp, ?_⟩
  · rw [List.mem_singleton] at ht
    subst ht
    decide
  · simp [Tri.has]

/-! ## Layouts without imaginary loudspeakers -/

/-- C295, what goes wrong: without imaginary loudspeakers the downmix matrix is never set; in cleared
memory every object is silent, whatever its position and gain. -/
theorem C295_silent (old : Geo) (ho : Clear old.dmx) (nReal : Nat) (ts : List Tri)
    (pos : Nat → Displace.Cart) (height : Bool) (o : Obj) (g : Nat → ℝ)
    (h : finalGains (finish old nReal 0 ts pos height) o = some g) (i : Nat) : g i = 0 := by
  simp only [finalGains, Option.map_eq_some_iff] at h
  obtain ⟨ls, -, rfl⟩ := h
  have hm : ∀ i, mixed (finish old nReal 0 ts pos height) ls i = 0 := by
    intro i
    refine Finset.sum_eq_zero fun j _ => ?_
    have : (finish old nReal 0 ts pos height).dmx i j = old.dmx i j := rfl
    rw [this, ho, zero_mul]
  simp only [hm, zero_mul, zero_div, ite_self]

end Verif.ObjRen
