import Mathlib.Algebra.BigOperators.Group.Finset.Basic
import Mathlib.Algebra.Order.BigOperators.Group.Finset
import Mathlib.Algebra.Ring.Parity
import Mathlib.Algebra.BigOperators.Ring.Finset
import Mathlib.Data.List.NodupEquivFin
import Mathlib.Tactic.Ring
import Verif.Model.ObjHull

/-!
# One vertex of the hull of loudspeakers in the object renderer
-/

namespace Verif.Props.ObjHull

open Verif Verif.ObjHull

/-! ## Specification -/

/-- The corners are different. -/
def Proper (t : Tri) : Prop := t.v0 ≠ t.v1 ∧ t.v0 ≠ t.v2 ∧ t.v1 ≠ t.v2

/-- `v` is a corner. -/
def Has (t : Tri) (v : ℤ) : Prop := t.v0 = v ∨ t.v1 = v ∨ t.v2 = v

/-- How many sides of triangles the line between two vertices is -/
def sides (ts : List Tri) (a b : ℤ) : ℕ := (edges ts).count (edge a b)

/-- Triangles that surround a body: every side belongs to two of them. -/
def Surface (ts : List Tri) : Prop := (∀ t ∈ ts, Proper t) ∧ ∀ a b, a ≠ b → sides ts a b = 0 ∨ sides ts a b = 2

/-! ## Edges that occur once -/

theorem unique_eq (l : List (ℤ × ℤ)) : unique l = l.filter fun e => l.count e = 1 := by
  have key : ∀ i < l.length, (∀ j < l.length, j ≠ i → l.getD i (0, 0) ≠ l.getD j (0, 0)) ↔ l.count (l.getD i (0, 0)) = 1 := by
    intro i hi
    have hg : ∀ k (hk : k < l.length), l.getD k (0, 0) = l.get ⟨k, hk⟩ := fun k hk => by simp [hk]
    have hpos : 0 < l.count (l.getD i (0, 0)) := List.count_pos_iff.mpr (by rw [hg i hi]; exact List.get_mem _ _)
    constructor
    · intro h
      by_contra hc
      have h2 : 2 ≤ l.count (l.getD i (0, 0)) := by omega
      obtain ⟨n, m, hnm, e1, e2⟩ := List.duplicate_iff_exists_distinct_get.mp (List.duplicate_iff_two_le_count.mpr (by convert h2))
      have hnm' : n.1 < m.1 := hnm
      by_cases hn : n.1 = i
      · exact h m.1 m.2 (by omega) (by rw [hg m.1 m.2]; exact e2)
      · exact h n.1 n.2 hn (by rw [hg n.1 n.2]; exact e1)
    · intro h j hj hji he
      have : l.Duplicate (l.getD i (0, 0)) := by
        rw [List.duplicate_iff_exists_distinct_get]
        rcases Nat.lt_or_gt_of_ne hji with h1 | h1
        · exact ⟨⟨j, hj⟩, ⟨i, hi⟩, h1, by rw [he, hg j hj], hg i hi⟩
        · exact ⟨⟨i, hi⟩, ⟨j, hj⟩, h1, hg i hi, by rw [he, hg j hj]⟩
      have h2 : 2 ≤ l.count (l.getD i (0, 0)) := by
        have := List.duplicate_iff_two_le_count.mp this
        convert this
      omega
  have hmap : (List.range l.length).map (fun i => l.getD i (0, 0)) = l := by
    apply List.ext_getElem
    · simp
    · intro n h1 h2
      simp [h2]
  have : unique l = (List.range l.length).filterMap
      (fun i => if l.count (l.getD i (0, 0)) = 1 then some (l.getD i (0, 0)) else none) := by
    unfold unique
    apply List.filterMap_congr
    intro i hi
    have hi' : i < l.length := by simpa using hi
    by_cases hc : l.count (l.getD i (0, 0)) = 1
    · rw [if_pos ((key i hi').mpr hc), if_pos hc]
    · rw [if_neg (fun h => hc ((key i hi').mp h)), if_neg hc]
  rw [this]
  have h2 : ∀ r : List ℕ, r.filterMap (fun i => if l.count (l.getD i (0, 0)) = 1 then some (l.getD i (0, 0)) else none) =
      (r.map (fun i => l.getD i (0, 0))).filter fun e => l.count e = 1 := by
    intro r
    induction r with
    | nil => rfl
    | cons x r ih =>
      simp only [List.filterMap_cons, List.map_cons, List.filter_cons]
      by_cases hc : l.count (l.getD x (0, 0)) = 1
      · simp only [hc, if_true, decide_true, ih]
      · simp only [hc, if_false, decide_false, ih]; rfl
  rw [h2, hmap]

theorem count_unique (l : List (ℤ × ℤ)) (e : ℤ × ℤ) : (unique l).count e = if l.count e = 1 then 1 else 0 := by
  rw [unique_eq]
  split
  · rename_i h
    rw [List.count_filter (by simpa using h), h]
  · rename_i h
    rw [List.count_eq_zero]
    intro hm
    simp only [List.mem_filter, decide_eq_true_eq] at hm
    exact h hm.2

/-- C362, partial: for up to 14 triangles the edges found are those that occur once, each once. -/
theorem C362_once_partial (ts : List Tri) (h : ts.length ≤ 14) : ∃ es, extract ts = .ok es ∧ es.Nodup ∧
    ∀ a b, edge a b ∈ es ↔ sides ts a b = 1 := by
  refine ⟨_, by unfold extract; rw [if_neg (by omega)], ?_, ?_⟩
  · rw [List.nodup_iff_count_le_one]
    intro e
    rw [count_unique]
    split <;> omega
  · intro a b
    rw [← List.count_pos_iff, count_unique]
    unfold sides
    split <;> simp_all

/-- C362, refuted: 15 triangles, of the 44 that there may be, have more edges than the array holds. -/
theorem C362_refuted (ts : List Tri) (h : 15 ≤ ts.length) : extract ts = .ub := by
  unfold extract; rw [if_pos (by omega)]

/-! ## Counting -/

theorem edge_comm (a b : ℤ) : edge a b = edge b a := by
  unfold edge; rw [min_comm, max_comm]

theorem edge_inj {a b c d : ℤ} (h : edge a b = edge c d) : (a = c ∧ b = d) ∨ (a = d ∧ b = c) := by
  unfold edge at h
  simp only [Prod.mk.injEq] at h
  omega

theorem edges_append (s t : List Tri) : edges (s ++ t) = edges s ++ edges t := by simp [edges]

theorem edges_cons (t : Tri) (ts : List Tri) :
    edges (t :: ts) = edge t.v0 t.v1 :: edge t.v0 t.v2 :: edge t.v1 t.v2 :: edges ts := by simp [edges]

theorem count_split (seen : Tri → Bool) (ts : List Tri) (e : ℤ × ℤ) :
    (edges ts).count e = (edges (ts.filter seen)).count e + (edges (ts.filter fun t => !seen t)).count e := by
  induction ts with
  | nil => rfl
  | cons t ts ih =>
    rw [List.filter_cons, List.filter_cons]
    cases h : seen t
    · simp only [Bool.false_eq_true, if_false, Bool.not_false, if_true, edges_cons, List.count_cons, ih]; omega
    · simp only [Bool.not_true, Bool.false_eq_true, if_false, if_true, edges_cons, List.count_cons, ih]; omega

theorem mem_edges {ts : List Tri} {e : ℤ × ℤ} (h : e ∈ edges ts) :
    ∃ t ∈ ts, ∃ a b, e = edge a b ∧ Has t a ∧ Has t b ∧ (Proper t → a ≠ b) := by
  simp only [edges, List.mem_flatMap, List.mem_cons, List.not_mem_nil, or_false] at h
  obtain ⟨t, ht, h | h | h⟩ := h
  · exact ⟨t, ht, _, _, h, Or.inl rfl, Or.inr (Or.inl rfl), fun p => p.1⟩
  · exact ⟨t, ht, _, _, h, Or.inl rfl, Or.inr (Or.inr rfl), fun p => p.2.1⟩
  · exact ⟨t, ht, _, _, h, Or.inr (Or.inl rfl), Or.inr (Or.inr rfl), fun p => p.2.2⟩

/-- How often `a` is an end of an edge. -/
def ends (a : ℤ) (e : ℤ × ℤ) : ℕ := (if e.1 = a then 1 else 0) + if e.2 = a then 1 else 0

theorem ends_edge (a p q : ℤ) : ends a (edge p q) = (if p = a then 1 else 0) + if q = a then 1 else 0 := by
  unfold ends edge
  rcases le_total p q with h | h
  · simp [min_eq_left h, max_eq_right h]
  · simp [min_eq_right h, max_eq_left h]; omega

theorem even_edges (a : ℤ) (ts : List Tri) : Even ((edges ts).map (ends a)).sum := by
  induction ts with
  | nil => simp [edges]
  | cons t ts ih =>
    obtain ⟨k, hk⟩ := ih
    rw [edges_cons]
    simp only [List.map_cons, List.sum_cons, hk, ends_edge]
    exact ⟨(if t.v0 = a then 1 else 0) + (if t.v1 = a then 1 else 0) + (if t.v2 = a then 1 else 0) + k, by omega⟩

theorem even_unique (a : ℤ) (l : List (ℤ × ℤ)) (hl : ∀ e, l.count e ≤ 2) (he : Even (l.map (ends a)).sum) :
    Even ((unique l).map (ends a)).sum := by
  rw [unique_eq]
  have h1 : ∀ m : List (ℤ × ℤ), (m.map (ends a)).sum = ((m.filter fun e => l.count e = 1).map (ends a)).sum +
      ((m.filter fun e => ¬ l.count e = 1).map (ends a)).sum := by
    intro m
    induction m with
    | nil => rfl
    | cons x m ih =>
      simp only [List.filter_cons, List.map_cons, List.sum_cons, ih]
      by_cases hc : l.count x = 1
      · simp [hc]; omega
      · simp [hc]; omega
  have h2 : Even ((l.filter fun e => ¬ l.count e = 1).map (ends a)).sum := by
    rw [Finset.sum_list_map_count]
    rw [even_iff_two_dvd]
    apply Finset.dvd_sum
    intro e hm
    simp only [List.mem_toFinset, List.mem_filter, decide_eq_true_eq] at hm
    have : 0 < l.count e := List.count_pos_iff.mpr hm.1
    have h3 := hl e
    have : l.count e = 2 := by have := hm.2; omega
    have hcount : (l.filter fun e => ¬ l.count e = 1).count e = 2 := by
      rw [List.count_filter (by simpa using hm.2), this]
    rw [show ∀ x y : ℕ, x • y = x * y from fun _ _ => rfl]
    apply Dvd.dvd.mul_right
    apply dvd_of_eq
    symm
    convert hcount
  rw [h1 l] at he
  exact (Nat.even_add.mp he).mpr h2

/-! ## New triangles -/

theorem count_cone (vx : ℤ) (turn : Tri → Bool) (x e : ℤ × ℤ) (l : List (ℤ × ℤ)) :
    (edges ((x :: l).map (cone vx turn))).count e = (edges (l.map (cone vx turn))).count e +
      ((if edge x.1 x.2 = e then 1 else 0) + (if edge vx x.1 = e then 1 else 0) + if edge vx x.2 = e then 1 else 0) := by
  rw [List.map_cons, edges_cons]
  simp only [List.count_cons, beq_iff_eq]
  unfold cone
  split
  · simp only [edge_comm x.2 x.1]; omega
  · simp only [edge_comm x.1 vx, edge_comm x.2 vx]; omega

theorem count_off (vx : ℤ) (turn : Tri → Bool) (l : List (ℤ × ℤ)) (a b : ℤ) (ha : a ≠ vx) (hb : b ≠ vx)
    (hl : ∀ x ∈ l, edge x.1 x.2 = x) : (edges (l.map (cone vx turn))).count (edge a b) = l.count (edge a b) := by
  induction l with
  | nil => rfl
  | cons x l ih =>
    rw [count_cone, ih fun y hy => hl y (List.mem_cons_of_mem _ hy), hl x List.mem_cons_self, List.count_cons]
    have n1 : ∀ y, edge vx y ≠ edge a b := fun y h => by
      rcases edge_inj h with ⟨h, _⟩ | ⟨h, _⟩
      · exact ha h.symm
      · exact hb h.symm
    rw [if_neg (n1 _), if_neg (n1 _)]
    simp only [beq_iff_eq]
    omega

theorem count_on (vx : ℤ) (turn : Tri → Bool) (l : List (ℤ × ℤ)) (a : ℤ) (ha : a ≠ vx)
    (hl : ∀ x ∈ l, x.1 ≠ vx ∧ x.2 ≠ vx) :
    (edges (l.map (cone vx turn))).count (edge vx a) = (l.map (ends a)).sum := by
  induction l with
  | nil => rfl
  | cons x l ih =>
    rw [count_cone, ih fun y hy => hl y (List.mem_cons_of_mem _ hy)]
    obtain ⟨h1, h2⟩ := hl x List.mem_cons_self
    have n0 : edge x.1 x.2 ≠ edge vx a := fun h => by
      rcases edge_inj h with ⟨h, _⟩ | ⟨_, h⟩
      · exact h1 h
      · exact h2 h
    have n1 : ∀ y, edge vx y = edge vx a ↔ y = a := fun y => by
      constructor
      · intro h
        rcases edge_inj h with ⟨_, h⟩ | ⟨h, _⟩
        · exact h
        · exact absurd h.symm ha
      · intro h; rw [h]
    simp only [n1, if_neg n0, List.map_cons, List.sum_cons, ends]
    omega

/-! ## One vertex -/

/-- C363: a vertex is added to a surface whose triangles at the vertex count as visible: the new triangles have
different corners, every side belongs to an even number of them, and to two if it doesn't end in the vertex. -/
theorem C363_closed (vx : ℤ) (seen turn : Tri → Bool) (ts r : List Tri) (hs : Surface ts)
    (hv : ∀ t ∈ ts, Has t vx → seen t = true) (hr : step vx seen turn ts = .ok r) :
    (∀ t ∈ r, Proper t) ∧ (∀ a b, a ≠ b → Even (sides r a b)) ∧
    ∀ a b, a ≠ b → a ≠ vx → b ≠ vx → sides r a b = 0 ∨ sides r a b = 2 := by
  obtain ⟨hp, hc⟩ := hs
  unfold step extract at hr
  split at hr <;> try cases hr
  rename_i es hes
  split at hes
  · cases hes
  cases hes
  simp only at hr
  split at hr
  · cases hr
  cases hr
  set V := ts.filter seen with hV
  set H := ts.filter (fun t => !seen t) with hH
  have hsplit : ∀ a b, sides ts a b = (edges V).count (edge a b) + (edges H).count (edge a b) := fun a b =>
    count_split seen ts _
  have hVp : ∀ t ∈ V, Proper t := fun t ht => hp t (List.mem_filter.mp ht).1
  have hform : ∀ x ∈ edges V, ∃ a b, x = edge a b ∧ a ≠ b := fun x hx => by
    obtain ⟨t, ht, a, b, e, _, _, h⟩ := mem_edges hx
    exact ⟨a, b, e, h (hVp t ht)⟩
  have hmem : ∀ x ∈ unique (edges V), x ∈ edges V ∧ (edges V).count x = 1 := fun x hx => by
    rw [unique_eq] at hx
    simpa using List.mem_filter.mp hx
  have hHvx : ∀ a, (edges H).count (edge vx a) = 0 := by
    intro a
    rw [List.count_eq_zero]
    intro hm
    obtain ⟨t, ht, p, q, e, h1, h2, _⟩ := mem_edges hm
    have htm := List.mem_filter.mp ht
    have : Has t vx := by
      rcases edge_inj e with ⟨h, _⟩ | ⟨h, _⟩
      · rw [h]; exact h1
      · rw [h]; exact h2
    have := hv t htm.1 this
    rw [this] at htm
    simp at htm
  have hle : ∀ e, (edges V).count e ≤ 2 := by
    intro e
    by_cases he : e ∈ edges V
    · obtain ⟨a, b, rfl, hab⟩ := hform e he
      have h1 := hsplit a b
      rcases hc a b hab with h | h <;> omega
    · rw [List.count_eq_zero.mpr he]; omega
  have hnorm : ∀ x ∈ unique (edges V), edge x.1 x.2 = x := fun x hx => by
    obtain ⟨a, b, rfl, _⟩ := hform x (hmem x hx).1
    unfold edge
    simp
  have hnovx : ∀ x ∈ unique (edges V), x.1 ≠ vx ∧ x.2 ≠ vx := by
    intro x hx
    obtain ⟨a, b, hab, hne⟩ := hform x (hmem x hx).1
    have h1 := (hmem x hx).2
    have hno : ∀ c d, x = edge c d → c ≠ d → c ≠ vx := by
      intro c d e hcd hcv
      rw [hcv] at e hcd
      rw [e] at h1
      have h2 := hsplit vx d
      rw [h1, hHvx d] at h2
      rcases hc vx d hcd with h | h <;> omega
    have hx' := hnorm x hx
    have hne' : x.1 ≠ x.2 := by
      intro h
      rw [hab] at h
      simp only [edge] at h
      omega
    exact ⟨hno x.1 x.2 hx'.symm hne', hno x.2 x.1 (by rw [edge_comm]; exact hx'.symm) hne'.symm⟩
  have hoff : ∀ a b, a ≠ b → a ≠ vx → b ≠ vx → sides (H ++ (unique (edges V)).map (cone vx turn)) a b = 0 ∨
      sides (H ++ (unique (edges V)).map (cone vx turn)) a b = 2 := by
    intro a b hab ha hb
    have h1 := hsplit a b
    unfold sides
    rw [edges_append, List.count_append, count_off vx turn _ a b ha hb hnorm, count_unique]
    have h2 := hc a b hab
    split <;> omega
  have hon : ∀ a, a ≠ vx → Even (sides (H ++ (unique (edges V)).map (cone vx turn)) vx a) := by
    intro a ha
    unfold sides
    rw [edges_append, List.count_append, count_on vx turn _ a ha hnovx, hHvx, Nat.zero_add]
    exact even_unique a _ hle (even_edges a V)
  refine ⟨?_, ?_, hoff⟩
  · intro t ht
    rcases List.mem_append.mp ht with ht | ht
    · exact hp t (List.mem_filter.mp ht).1
    · obtain ⟨x, hx, rfl⟩ := List.mem_map.mp ht
      obtain ⟨h1, h2⟩ := hnovx x hx
      have hne' : x.1 ≠ x.2 := by
        obtain ⟨a, b, hab, hne⟩ := hform x (hmem x hx).1
        intro h
        rw [hab] at h
        simp only [edge] at h
        omega
      unfold cone
      split
      · exact ⟨h2.symm, h1.symm, hne'.symm⟩
      · exact ⟨hne', h1, h2⟩
  · intro a b hab
    by_cases ha : a = vx
    · rw [ha]; exact hon b (by rw [ha] at hab; exact hab.symm)
    · by_cases hb : b = vx
      · rw [hb]
        have := hon a ha
        unfold sides at this ⊢
        rw [edge_comm]
        exact this
      · rcases hoff a b hab ha hb with h | h <;> rw [h]
        · exact ⟨0, rfl⟩
        · exact ⟨1, rfl⟩

/-! ## The first triangles -/

theorem edge_iff (a b c d : ℤ) : edge a b = edge c d ↔ (a = c ∧ b = d) ∨ (a = d ∧ b = c) := by
  constructor
  · exact edge_inj
  · rintro (⟨rfl, rfl⟩ | ⟨rfl, rfl⟩)
    · rfl
    · exact edge_comm _ _

set_option maxHeartbeats 2000000 in
/-- C363: the first triangles between five different loudspeakers are a surface. -/
theorem C363_initial (p : ℕ → ℤ) (h : ∀ i < 5, ∀ j < 5, i ≠ j → p i ≠ p j) : Surface (initial p 5) := by
  have e : initial p 5 = [⟨p 0, p 2, p 3⟩, ⟨p 0, p 3, p 4⟩, ⟨p 0, p 4, p 2⟩, ⟨p 1, p 3, p 2⟩, ⟨p 1, p 4, p 3⟩,
      ⟨p 1, p 2, p 4⟩] := rfl
  rw [e]
  have n01 := h 0 (by omega) 1 (by omega) (by omega)
  have n02 := h 0 (by omega) 2 (by omega) (by omega)
  have n03 := h 0 (by omega) 3 (by omega) (by omega)
  have n04 := h 0 (by omega) 4 (by omega) (by omega)
  have n12 := h 1 (by omega) 2 (by omega) (by omega)
  have n13 := h 1 (by omega) 3 (by omega) (by omega)
  have n14 := h 1 (by omega) 4 (by omega) (by omega)
  have n23 := h 2 (by omega) 3 (by omega) (by omega)
  have n24 := h 2 (by omega) 4 (by omega) (by omega)
  have n34 := h 3 (by omega) 4 (by omega) (by omega)
  refine ⟨?_, ?_⟩
  · intro t ht
    simp only [List.mem_cons, List.not_mem_nil, or_false] at ht
    rcases ht with rfl | rfl | rfl | rfl | rfl | rfl <;>
      simp [Proper, n02, n03, n04, n12, n13, n14, n23, n24, n34, n23.symm, n24.symm, n34.symm]
  · intro a b _
    unfold sides
    by_cases hm : edge a b ∈ edges [⟨p 0, p 2, p 3⟩, ⟨p 0, p 3, p 4⟩, ⟨p 0, p 4, p 2⟩, ⟨p 1, p 3, p 2⟩,
        ⟨p 1, p 4, p 3⟩, ⟨p 1, p 2, p 4⟩]
    · right
      simp only [edges, List.flatMap_cons, List.flatMap_nil, List.cons_append, List.nil_append, List.append_nil,
        List.mem_cons, List.not_mem_nil, or_false] at hm ⊢
      rcases hm with hm | hm | hm | hm | hm | hm | hm | hm | hm | hm | hm | hm | hm | hm | hm | hm | hm | hm <;>
        rw [hm] <;>
        simp [List.count_cons, edge_iff, n01, n02, n03, n04, n12, n13, n14, n23, n24, n34, n01.symm, n02.symm,
          n03.symm, n04.symm, n12.symm, n13.symm, n14.symm, n23.symm, n24.symm, n34.symm]
    · left; exact List.count_eq_zero.mpr hm

/-! ## Examples -/

/-- Five loudspeakers. -/
example : ∀ i < 5, ∀ j < 5, i ≠ j → (fun n : ℕ => (n : ℤ)) i ≠ (fun n : ℕ => (n : ℤ)) j := by decide +kernel

/-- A tetrahedron, one side of which is replaced by three triangles. -/
example : step 4 (fun t => t = ⟨1, 2, 3⟩) (fun _ => false) [⟨0, 1, 2⟩, ⟨0, 2, 3⟩, ⟨0, 3, 1⟩, ⟨1, 2, 3⟩] =
    .ok [⟨0, 1, 2⟩, ⟨0, 2, 3⟩, ⟨0, 3, 1⟩, ⟨1, 2, 4⟩, ⟨1, 3, 4⟩, ⟨2, 3, 4⟩] := by decide +kernel

/-- The tetrahedron is a surface. -/
example : Surface [⟨0, 1, 2⟩, ⟨0, 2, 3⟩, ⟨0, 3, 1⟩, ⟨1, 2, 3⟩] := by
  refine ⟨?_, ?_⟩
  · intro t ht
    simp only [List.mem_cons, List.not_mem_nil, or_false] at ht
    rcases ht with rfl | rfl | rfl | rfl <;> simp [Proper]
  · intro a b hab
    unfold sides
    by_cases h : edge a b ∈ edges [⟨0, 1, 2⟩, ⟨0, 2, 3⟩, ⟨0, 3, 1⟩, ⟨1, 2, 3⟩]
    · right
      have : ∀ e ∈ edges [⟨0, 1, 2⟩, ⟨0, 2, 3⟩, ⟨0, 3, 1⟩, ⟨1, 2, 3⟩],
        (edges [⟨0, 1, 2⟩, ⟨0, 2, 3⟩, ⟨0, 3, 1⟩, ⟨1, 2, 3⟩]).count e = 2 := by decide +kernel
      exact this _ h
    · left; exact List.count_eq_zero.mpr h

end Verif.Props.ObjHull
