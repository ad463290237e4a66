import Verif.Model.HoaRen
import Mathlib.Analysis.Complex.Basic
import Mathlib.Tactic.Linarith
import Mathlib.Tactic.FieldSimp
import Mathlib.Tactic.LinearCombination
import Mathlib.Tactic.Positivity
import Mathlib.Tactic.IntervalCases
import Mathlib.Tactic.NormNum

/-! # C303-C308: near field compensation and the ambisonics renderer -/

namespace Verif.HoaRen

/-! ## Block by block -/

theorem filter2_append (c : Coef2) (l k : List ℝ) (m : Mem2) :
    filter2 c m (l ++ k) = ((filter2 c m l).1 ++ (filter2 c (filter2 c m l).2 k).1, (filter2 c (filter2 c m l).2 k).2) := by
  induction l generalizing m with
  | nil => rfl
  | cons x l ih => simp only [List.cons_append, filter2, ih]

theorem filter1_append (c : Coef1) (l k : List ℝ) (m : Mem1) :
    filter1 c m (l ++ k) = ((filter1 c m l).1 ++ (filter1 c (filter1 c m l).2 k).1, (filter1 c (filter1 c m l).2 k).2) := by
  induction l generalizing m with
  | nil => rfl
  | cons x l ih => simp only [List.cons_append, filter1, ih]

theorem cascade_append (s : List (Coef2 × Mem2)) (l k : List ℝ) :
    cascade s (l ++ k) = ((cascade s l).1 ++ (cascade (cascade s l).2 k).1, (cascade (cascade s l).2 k).2) := by
  induction s generalizing l k with
  | nil => rfl
  | cons s t ih => simp only [cascade, filter2_append, ih]

/-- C303: a signal that is filtered in blocks is filtered as a whole. -/
theorem C303_blocks (f : Filter) (l k : List ℝ) :
    apply f (l ++ k) = ((apply f l).1 ++ (apply (apply f l).2 k).1, (apply (apply f l).2 k).2) := by
  unfold apply
  rw [List.map_append, cascade_append]
  rcases f with ⟨g, s, _ | ⟨c, m⟩⟩
  · rfl
  · simp only [filter1_append]

theorem filter2_length (c : Coef2) (l : List ℝ) (m : Mem2) : (filter2 c m l).1.length = l.length := by
  induction l generalizing m with
  | nil => rfl
  | cons x l ih => simp only [filter2, List.length_cons, ih]

theorem filter1_length (c : Coef1) (l : List ℝ) (m : Mem1) : (filter1 c m l).1.length = l.length := by
  induction l generalizing m with
  | nil => rfl
  | cons x l ih => simp only [filter1, List.length_cons, ih]

theorem cascade_length (s : List (Coef2 × Mem2)) (l : List ℝ) : (cascade s l).1.length = l.length := by
  induction s generalizing l with
  | nil => rfl
  | cons s t ih => simp only [cascade, ih, filter2_length]

/-- C303: as many samples as before. -/
theorem C303_length (f : Filter) (l : List ℝ) : (apply f l).1.length = l.length := by
  unfold apply
  rcases f with ⟨g, s, _ | ⟨c, m⟩⟩ <;> simp [cascade_length, filter1_length]

/-! ## The response -/

/-- A geometric signal. -/
noncomputable def geo (x z : ℝ) (n : Nat) : List ℝ := (List.range n).map fun k => x * z ^ k

theorem geo_succ (x z : ℝ) (n : Nat) : geo x z (n + 1) = x :: geo (x * z) z n := by
  unfold geo
  rw [List.range_succ_eq_map, List.map_cons, List.map_map]
  simp only [pow_zero, mul_one, List.cons.injEq, true_and]
  apply List.map_congr_left
  intro k _
  simp only [Function.comp, pow_succ]; ring

theorem geo_scale (x z g : ℝ) (n : Nat) : (geo x z n).map (fun y => y * g) = geo (g * x) z n := by
  unfold geo; rw [List.map_map]; apply List.map_congr_left; intro k _; simp only [Function.comp]; ring

theorem filter2_geo (c : Coef2) (z h : ℝ) (hz : z ≠ 0) (hh : h * (z ^ 2 + c.a1 * z + c.a2) = z ^ 2 + c.b1 * z + c.b2) (n : Nat) (x : ℝ) :
    (filter2 c ⟨x / z, x / z ^ 2, h * x / z, h * x / z ^ 2⟩ (geo x z n)).1 = geo (h * x) z n := by
  induction n generalizing x with
  | zero => rfl
  | succ n ih =>
    rw [geo_succ, geo_succ]
    have hs : step2 c ⟨x / z, x / z ^ 2, h * x / z, h * x / z ^ 2⟩ x = (h * x, ⟨x * z / z, x * z / z ^ 2, h * (x * z) / z, h * (x * z) / z ^ 2⟩) := by
      have e : x / z ^ 2 * c.b2 - h * x / z * c.a1 - h * x / z ^ 2 * c.a2 + (x / z * c.b1 + x) = h * x := by
        field_simp
        linear_combination -x * hh
      unfold step2
      simp only [e, Prod.mk.injEq, Mem2.mk.injEq, true_and]
      refine ⟨?_, ?_, ?_, ?_⟩ <;> field_simp
    simp only [filter2, hs, List.cons.injEq, true_and]
    rw [ih (x * z), mul_assoc]

theorem filter1_geo (c : Coef1) (z h : ℝ) (hz : z ≠ 0) (hh : h * (z + c.a1) = z + c.b1) (n : Nat) (x : ℝ) :
    (filter1 c ⟨x / z, h * x / z⟩ (geo x z n)).1 = geo (h * x) z n := by
  induction n generalizing x with
  | zero => rfl
  | succ n ih =>
    rw [geo_succ, geo_succ]
    have hs : step1 c ⟨x / z, h * x / z⟩ x = (h * x, ⟨x * z / z, h * (x * z) / z⟩) := by
      have e : x / z * c.b1 - h * x / z * c.a1 + x = h * x := by
        field_simp
        linear_combination -x * hh
      unfold step1
      simp only [e, Prod.mk.injEq, Mem1.mk.injEq, true_and]
      refine ⟨?_, ?_⟩ <;> field_simp
    simp only [filter1, hs, List.cons.injEq, true_and]
    rw [ih (x * z), mul_assoc]

/-- Specification: where the roots of an order begin in the table. -/
def start (order : Nat) : Nat := order * (order - 1) / 2

/-- Specification: the polynomial with the pairs of roots of the table. -/
noncomputable def pairPoly (order n : Nat) (s : ℝ) : ℝ := s ^ 2 - 2 * root (start order + 2 * n) * s + root (start order + 2 * n + 1) ^ 2

/-- Specification: the polynomial with the single root of the table. -/
noncomputable def linePoly (order : Nat) (s : ℝ) : ℝ := s - root (start order + order - 1)

/-- Specification: the polynomial of an order. -/
noncomputable def bessel (order : Nat) (s : ℝ) : ℝ :=
  ((List.range (order / 2)).map fun n => pairPoly order n s).prod * if order % 2 = 1 then linePoly order s else 1

theorem table_neg : ∀ order, order ≤ 8 → (∀ n, n < order / 2 → roots.getD (start order + 2 * n) 0 < 0 ∧ 0 < roots.getD (start order + 2 * n + 1) 0) ∧
    (order % 2 = 1 → roots.getD (start order + order - 1) 0 < 0) := by decide +kernel

theorem root_pair (order n : Nat) (h : order ≤ 8) (hn : n < order / 2) : root (start order + 2 * n) < 0 ∧ 0 < root (start order + 2 * n + 1) := by
  obtain ⟨h1, h2⟩ := (table_neg order h).1 n hn
  unfold root
  exact ⟨by exact_mod_cast h1, by exact_mod_cast h2⟩

theorem root_single (order : Nat) (h : order ≤ 8) (ho : order % 2 = 1) : root (start order + order - 1) < 0 := by
  have := (table_neg order h).2 ho
  unfold root
  exact_mod_cast this

theorem poly2_pos (re ab alpha : ℝ) (hr : re < 0) (ha : 0 < alpha) : 0 < (poly2 re ab alpha).1 := by
  unfold poly2
  have h1 : 0 < -2 * re / alpha := by apply div_pos <;> linarith
  have h2 := mul_self_nonneg (ab / alpha)
  simp only
  linarith

theorem poly1_pos (re alpha : ℝ) (hr : re < 0) (ha : 0 < alpha) : 0 < (poly1 re alpha).1 := by
  unfold poly1
  have h1 : re / alpha < 0 := div_neg_of_neg_of_pos hr ha
  simp only
  linarith

theorem poly2_eval (re ab alpha z : ℝ) (ha : 0 < alpha) (hz : z + 1 ≠ 0) :
    (poly2 re ab alpha).1 * z ^ 2 + (poly2 re ab alpha).2.1 * z + (poly2 re ab alpha).2.2 =
      (z + 1) ^ 2 / alpha ^ 2 * ((alpha * ((z - 1) / (z + 1))) ^ 2 - 2 * re * (alpha * ((z - 1) / (z + 1))) + ab ^ 2) := by
  unfold poly2
  field_simp
  ring

theorem poly1_eval (re alpha z : ℝ) (ha : 0 < alpha) (hz : z + 1 ≠ 0) :
    (poly1 re alpha).1 * z + (poly1 re alpha).2 = (z + 1) / alpha * (alpha * ((z - 1) / (z + 1)) - re) := by
  unfold poly1
  field_simp
  ring

/-- The response of a cell of second order and its factor of the gain. -/
noncomputable def resp2 (order n : Nat) (tc ts v : ℝ) : ℝ := (tc / ts) ^ 2 * (pairPoly order n (4 * ts * v) / pairPoly order n (4 * tc * v))

noncomputable def resp1 (order : Nat) (tc ts v : ℝ) : ℝ := tc / ts * (linePoly order (4 * ts * v) / linePoly order (4 * tc * v))

theorem cell2_resp (order n : Nat) (tc ts z : ℝ) (ho : order ≤ 8) (hn : n < order / 2) (hc : 0 < tc) (hs : 0 < ts) (hz : z + 1 ≠ 0)
    (hp : pairPoly order n (4 * tc * ((z - 1) / (z + 1))) ≠ 0) :
    resp2 order n tc ts ((z - 1) / (z + 1)) / gain2 order n tc ts * (z ^ 2 + (cell2 order n tc ts).a1 * z + (cell2 order n tc ts).a2) =
      z ^ 2 + (cell2 order n tc ts).b1 * z + (cell2 order n tc ts).b2 := by
  obtain ⟨hr, hab⟩ := root_pair order n ho hn
  have hA := poly2_pos _ (root (start order + 2 * n + 1)) (4 * tc) hr (by linarith)
  have hB := poly2_pos _ (root (start order + 2 * n + 1)) (4 * ts) hr (by linarith)
  have eA := poly2_eval (root (start order + 2 * n)) (root (start order + 2 * n + 1)) (4 * tc) z (by linarith) hz
  have eB := poly2_eval (root (start order + 2 * n)) (root (start order + 2 * n + 1)) (4 * ts) z (by linarith) hz
  unfold resp2 gain2 cell2
  dsimp only
  unfold pairPoly start at *
  set v := (z - 1) / (z + 1)
  set A := poly2 (root (order * (order - 1) / 2 + 2 * n)) (root (order * (order - 1) / 2 + 2 * n + 1)) (4 * tc)
  set B := poly2 (root (order * (order - 1) / 2 + 2 * n)) (root (order * (order - 1) / 2 + 2 * n + 1)) (4 * ts)
  have e1 : z ^ 2 + A.2.1 / A.1 * z + A.2.2 / A.1 = (A.1 * z ^ 2 + A.2.1 * z + A.2.2) / A.1 := by field_simp
  have e2 : z ^ 2 + B.2.1 / B.1 * z + B.2.2 / B.1 = (B.1 * z ^ 2 + B.2.1 * z + B.2.2) / B.1 := by field_simp
  rw [e1, e2, eA, eB]
  generalize hPA : (4 * tc * v) ^ 2 - 2 * root (order * (order - 1) / 2 + 2 * n) * (4 * tc * v) + root (order * (order - 1) / 2 + 2 * n + 1) ^ 2 = PA at *
  generalize (4 * ts * v) ^ 2 - 2 * root (order * (order - 1) / 2 + 2 * n) * (4 * ts * v) + root (order * (order - 1) / 2 + 2 * n + 1) ^ 2 = PB at *
  field_simp

theorem cell1_resp (order : Nat) (tc ts z : ℝ) (ho : order ≤ 8) (hn : order % 2 = 1) (hc : 0 < tc) (hs : 0 < ts) (hz : z + 1 ≠ 0)
    (hp : linePoly order (4 * tc * ((z - 1) / (z + 1))) ≠ 0) :
    resp1 order tc ts ((z - 1) / (z + 1)) / gain1 order tc ts * (z + (cell1 order tc ts).a1) = z + (cell1 order tc ts).b1 := by
  have hr := root_single order ho hn
  have hA := poly1_pos _ (4 * tc) hr (by linarith)
  have hB := poly1_pos _ (4 * ts) hr (by linarith)
  have eA := poly1_eval (root (start order + order - 1)) (4 * tc) z (by linarith) hz
  have eB := poly1_eval (root (start order + order - 1)) (4 * ts) z (by linarith) hz
  unfold resp1 gain1 cell1
  unfold linePoly start at *
  simp only
  set v := (z - 1) / (z + 1)
  set A := poly1 (root (order * (order - 1) / 2 + order - 1)) (4 * tc)
  set B := poly1 (root (order * (order - 1) / 2 + order - 1)) (4 * ts)
  have e1 : z + A.2 / A.1 = (A.1 * z + A.2) / A.1 := by field_simp
  have e2 : z + B.2 / B.1 = (B.1 * z + B.2) / B.1 := by field_simp
  rw [e1, e2, eA, eB]
  generalize 4 * tc * v - root (order * (order - 1) / 2 + order - 1) = PA at *
  generalize 4 * ts * v - root (order * (order - 1) / 2 + order - 1) = PB at *
  field_simp

theorem gain2_pos (order n : Nat) (tc ts : ℝ) (ho : order ≤ 8) (hn : n < order / 2) (hc : 0 < tc) (hs : 0 < ts) : 0 < gain2 order n tc ts := by
  obtain ⟨hr, hab⟩ := root_pair order n ho hn
  exact div_pos (poly2_pos _ _ (4 * ts) hr (by linarith)) (poly2_pos _ _ (4 * tc) hr (by linarith))

theorem gain1_pos (order : Nat) (tc ts : ℝ) (ho : order ≤ 8) (hn : order % 2 = 1) (hc : 0 < tc) (hs : 0 < ts) : 0 < gain1 order tc ts := by
  have hr := root_single order ho hn
  exact div_pos (poly1_pos _ (4 * ts) hr (by linarith)) (poly1_pos _ (4 * tc) hr (by linarith))

/-- The memory of a cell for a geometric signal. -/
noncomputable def mem2 (x z h : ℝ) : Mem2 := ⟨x / z, x / z ^ 2, h * x / z, h * x / z ^ 2⟩

theorem cascade_geo (cs : List Coef2) (hs : List ℝ) (z : ℝ) (hz : z ≠ 0) (hl : cs.length = hs.length)
    (h : ∀ p ∈ cs.zip hs, p.2 * (z ^ 2 + p.1.a1 * z + p.1.a2) = z ^ 2 + p.1.b1 * z + p.1.b2) (x : ℝ) :
    ∃ ms : List Mem2, ms.length = cs.length ∧ ∀ n, (cascade (cs.zip ms) (geo x z n)).1 = geo (hs.prod * x) z n := by
  induction cs generalizing hs x with
  | nil =>
    obtain rfl : hs = [] := List.length_eq_zero_iff.1 hl.symm
    exact ⟨[], rfl, fun n => by simp [cascade]⟩
  | cons c cs ih =>
    obtain ⟨a, hs, rfl⟩ : ∃ a t, hs = a :: t := by
      cases hs with
      | nil => simp at hl
      | cons a t => exact ⟨a, t, rfl⟩
    obtain ⟨ms, e1, e2⟩ := ih hs (by simpa using hl) (fun p hp => h p (by simp [hp])) (a * x)
    refine ⟨mem2 x z a :: ms, by simp [e1], fun n => ?_⟩
    simp only [List.zip_cons_cons, cascade]
    rw [show (filter2 c (mem2 x z a) (geo x z n)).1 = geo (a * x) z n from filter2_geo c z a hz (h (c, a) (by simp)) n x, e2 n]
    congr 1
    rw [List.prod_cons]; ring

/-- Specification: the response of the filter of an order for signals that grow by `z` with each sample. -/
noncomputable def response (order : Nat) (tc ts z : ℝ) : ℝ :=
  (tc / ts) ^ order * (bessel order (4 * ts * ((z - 1) / (z + 1))) / bessel order (4 * tc * ((z - 1) / (z + 1))))

theorem prod_resp (order : Nat) (tc ts v : ℝ) (k : Nat) :
    ((List.range k).map fun n => resp2 order n tc ts v).prod =
      (tc / ts) ^ (2 * k) * (((List.range k).map fun n => pairPoly order n (4 * ts * v)).prod / ((List.range k).map fun n => pairPoly order n (4 * tc * v)).prod) := by
  induction k with
  | zero => simp
  | succ k ih =>
    simp only [List.range_succ, List.map_append, List.prod_append, List.map_cons, List.map_nil, List.prod_cons, List.prod_nil, mul_one]
    rw [ih, resp2, show 2 * (k + 1) = 2 * k + 2 by ring, pow_add, mul_div_mul_comm]
    ring

/-- C304: the filter has the response of its order: the polynomial of the roots at the reference time over the one at the time of the loudspeakers, in the bilinear variable. -/
theorem C304_response (order : Nat) (ho : order ≤ 8) (tc ts z x : ℝ) (hc : 0 < tc) (hs : 0 < ts) (hz : z ≠ 0) (hz1 : z + 1 ≠ 0)
    (hp : bessel order (4 * tc * ((z - 1) / (z + 1))) ≠ 0) :
    ∃ m2 m1, ∀ n, (apply (setParams order tc ts m2 m1) ((List.range n).map fun k => x * z ^ k)).1 = (List.range n).map fun k => response order tc ts z * x * z ^ k := by
  set v := (z - 1) / (z + 1) with hv
  unfold bessel at hp
  have hp1 : ((List.range (order / 2)).map fun n => pairPoly order n (4 * tc * v)).prod ≠ 0 := left_ne_zero_of_mul hp
  have hp2 : order % 2 = 1 → linePoly order (4 * tc * v) ≠ 0 := fun h => by
    have := right_ne_zero_of_mul hp
    rwa [if_pos h] at this
  have hpn : ∀ n, n < order / 2 → pairPoly order n (4 * tc * v) ≠ 0 := by
    intro n hn h0
    apply hp1
    rw [List.prod_eq_zero_iff]
    exact List.mem_map.2 ⟨n, List.mem_range.2 hn, h0⟩
  have hn2 : (order - order % 2) / 2 = order / 2 := by omega
  set G := ((List.range (order / 2)).map fun n => gain2 order n tc ts).prod * (if order % 2 ≠ 0 then gain1 order tc ts else 1) with hG
  obtain ⟨ms, e1, e2⟩ := cascade_geo ((List.range (order / 2)).map fun n => cell2 order n tc ts)
    ((List.range (order / 2)).map fun n => resp2 order n tc ts v / gain2 order n tc ts) z hz (by simp) (by
      intro p hp
      rw [List.zip_map', List.mem_map] at hp
      obtain ⟨n, hn, rfl⟩ := hp
      have hn := List.mem_range.1 hn
      exact cell2_resp order n tc ts z ho hn hc hs hz1 (hpn n hn)) (G * x)
  set R := ((List.range (order / 2)).map fun n => resp2 order n tc ts v / gain2 order n tc ts).prod with hR
  have hgR : ((List.range (order / 2)).map fun n => gain2 order n tc ts).prod * R = ((List.range (order / 2)).map fun n => resp2 order n tc ts v).prod := by
    have : ∀ k, k ≤ order / 2 → ((List.range k).map fun n => gain2 order n tc ts).prod * ((List.range k).map fun n => resp2 order n tc ts v / gain2 order n tc ts).prod =
        ((List.range k).map fun n => resp2 order n tc ts v).prod := by
      intro k
      induction k with
      | zero => intro _; simp
      | succ k ih =>
        intro hk
        have := gain2_pos order k tc ts ho (by omega) hc hs
        simp only [List.range_succ, List.map_append, List.prod_append, List.map_cons, List.map_nil, List.prod_cons, List.prod_nil, mul_one]
        rw [← ih (by omega)]
        field_simp
    exact this _ (le_refl _)
  rw [prod_resp] at hgR
  refine ⟨fun n => ms.getD n ⟨0, 0, 0, 0⟩, ⟨R * (G * x) / z, resp1 order tc ts v / gain1 order tc ts * (R * (G * x)) / z⟩, fun n => ?_⟩
  have hsecs : ((List.range (order / 2)).map fun n => (cell2 order n tc ts, ms.getD n ⟨0, 0, 0, 0⟩)) = ((List.range (order / 2)).map fun n => cell2 order n tc ts).zip ms := by
    apply List.ext_getElem
    · simp at e1; simp [e1]
    · intro i h1 h2
      simp only [List.length_map, List.length_range] at h1 e1
      simp only [List.getElem_map, List.getElem_range, List.getElem_zip]
      rw [List.getD_eq_getElem?_getD, List.getElem?_eq_getElem (by omega)]; rfl
  change (apply _ (geo x z n)).1 = geo (response order tc ts z * x) z n
  unfold apply setParams
  simp only [hn2, hsecs, geo_scale, ← hG]
  rw [e2 n]
  by_cases hodd : order % 2 = 1
  · simp only [if_pos (show order % 2 ≠ 0 by omega)]
    rw [filter1_geo (cell1 order tc ts) z (resp1 order tc ts v / gain1 order tc ts) hz (cell1_resp order tc ts z ho hodd hc hs hz1 (hp2 hodd)) n (R * (G * x))]
    congr 1
    have hg1 := gain1_pos order tc ts ho hodd hc hs
    have : resp1 order tc ts v / gain1 order tc ts * (R * (G * x)) = resp1 order tc ts v * (((List.range (order / 2)).map fun n => gain2 order n tc ts).prod * R) * x := by
      rw [hG, if_pos (show order % 2 ≠ 0 by omega)]; field_simp
    rw [this, hgR]
    unfold response bessel resp1
    rw [← hv, if_pos hodd, if_pos hodd, mul_div_mul_comm]
    have e : (tc / ts) ^ order = (tc / ts) ^ (2 * (order / 2)) * (tc / ts) := by
      conv_lhs => rw [show order = 2 * (order / 2) + 1 by omega]
      rw [pow_succ]
    rw [e]; ring
  · simp only [if_neg (show ¬order % 2 ≠ 0 by omega)]
    congr 1
    have : R * (G * x) = (((List.range (order / 2)).map fun n => gain2 order n tc ts).prod * R) * x := by
      rw [hG, if_neg (show ¬order % 2 ≠ 0 by omega)]; ring
    rw [this, hgR]
    unfold response bessel
    rw [← hv, if_neg hodd, if_neg hodd, mul_one, mul_one]
    have e : (tc / ts) ^ order = (tc / ts) ^ (2 * (order / 2)) := by
      conv_lhs => rw [show order = 2 * (order / 2) by omega]
    rw [e]

theorem bessel_zero (order : Nat) (ho : order ≤ 8) : bessel order 0 ≠ 0 := by
  unfold bessel
  apply mul_ne_zero
  · rw [Ne, List.prod_eq_zero_iff, List.mem_map]
    rintro ⟨n, hn, h0⟩
    have := (root_pair order n ho (List.mem_range.1 hn)).2
    unfold pairPoly at h0
    nlinarith
  · split
    · rename_i h
      have := root_single order ho h
      unfold linePoly
      intro h0; linarith
    · exact one_ne_zero

/-- C304: a constant signal is multiplied by the ratio of the times to the power of the order. -/
theorem C304_constant (order : Nat) (ho : order ≤ 8) (tc ts x : ℝ) (hc : 0 < tc) (hs : 0 < ts) :
    ∃ m2 m1, ∀ n, (apply (setParams order tc ts m2 m1) (List.replicate n x)).1 = List.replicate n ((tc / ts) ^ order * x) := by
  have hb := bessel_zero order ho
  obtain ⟨m2, m1, h⟩ := C304_response order ho tc ts 1 x hc hs one_ne_zero (by norm_num) (by simpa using hb)
  refine ⟨m2, m1, fun n => ?_⟩
  have := h n
  have e : response order tc ts 1 = (tc / ts) ^ order := by
    unfold response
    simp only [sub_self, zero_div, mul_zero]
    rw [div_self hb, mul_one]
  simpa [List.map_const', e] using this

example : bessel 2 (4 * 100 * ((2 - 1) / (2 + 1))) ≠ 0 := by
  unfold bessel pairPoly start root roots
  norm_num

example : ∃ m2 m1, ∀ n, (apply (setParams 3 100 400 m2 m1) (List.replicate n 64)).1 = List.replicate n 1 := by
  have h := C304_constant 3 (by norm_num) 100 400 64 (by norm_num) (by norm_num)
  norm_num at h
  exact h

/-- C304: with equal times nothing is changed. -/
theorem C304_equal (order : Nat) (ho : order ≤ 8) (t : ℝ) (ht : 0 < t) (m2 : Nat → Mem2) (m1 : Mem1) (h2 : ∀ n, (m2 n).x1 = (m2 n).y1 ∧ (m2 n).x2 = (m2 n).y2)
    (h1 : m1.x1 = m1.y1) (l : List ℝ) : (apply (setParams order t t m2 m1) l).1 = l := by
  have hf2 : ∀ (c : Coef2) (m : Mem2), c.a1 = c.b1 → c.a2 = c.b2 → m.x1 = m.y1 → m.x2 = m.y2 → ∀ l, (filter2 c m l).1 = l := by
    intro c m e1 e2 e3 e4 l
    induction l generalizing m with
    | nil => rfl
    | cons x l ih =>
      have e : (step2 c m x).1 = x := by unfold step2; simp only [e1, e2, e3, e4]; ring
      simp only [filter2, e, List.cons.injEq, true_and]
      exact ih _ e.symm e3
  have hf1 : ∀ (c : Coef1) (m : Mem1), c.a1 = c.b1 → m.x1 = m.y1 → ∀ l, (filter1 c m l).1 = l := by
    intro c m e1 e3 l
    induction l generalizing m with
    | nil => rfl
    | cons x l ih =>
      have e : (step1 c m x).1 = x := by unfold step1; simp only [e1, e3]; ring
      simp only [filter1, e, List.cons.injEq, true_and]
      exact ih _ e.symm
  have hcas : ∀ (s : List (Coef2 × Mem2)), (∀ p ∈ s, p.1.a1 = p.1.b1 ∧ p.1.a2 = p.1.b2 ∧ p.2.x1 = p.2.y1 ∧ p.2.x2 = p.2.y2) → ∀ l, (cascade s l).1 = l := by
    intro s
    induction s with
    | nil => intro _ l; rfl
    | cons p s ih =>
      intro h l
      obtain ⟨q1, q2, q3, q4⟩ := h p (by simp)
      simp only [cascade]
      rw [ih (fun p hp => h p (by simp [hp])), hf2 _ _ q1 q2 q3 q4]
  have hn2 : (order - order % 2) / 2 = order / 2 := by omega
  have hgain : (setParams order t t m2 m1).gain = 1 := by
    unfold setParams
    simp only [hn2]
    have e1 : ((List.range (order / 2)).map fun n => gain2 order n t t) = (List.range (order / 2)).map fun _ => 1 := by
      apply List.map_congr_left
      intro n hn
      obtain ⟨hr, -⟩ := root_pair order n ho (List.mem_range.1 hn)
      exact div_self (poly2_pos _ _ (4 * t) hr (by linarith)).ne'
    rw [e1]
    simp only [List.map_const', List.prod_replicate, one_pow, one_mul]
    split
    · exact div_self (poly1_pos _ (4 * t) (root_single order ho (by omega)) (by linarith)).ne'
    · rfl
  unfold apply
  rw [hgain]
  simp only [mul_one, List.map_id']
  have hsec := hcas (setParams order t t m2 m1).secs (by
    intro p hp
    unfold setParams at hp
    obtain ⟨n, -, rfl⟩ := List.mem_map.1 hp
    exact ⟨rfl, rfl, (h2 n).1, (h2 n).2⟩) l
  rcases hfst : (setParams order t t m2 m1).first with _ | ⟨c, m⟩
  · exact hsec
  · simp only
    rw [hsec]
    unfold setParams at hfst
    simp only at hfst
    split at hfst
    · obtain ⟨rfl, rfl⟩ := Prod.mk.inj (Option.some.inj hfst)
      exact hf1 _ _ rfl h1 _
    · simp at hfst

/-! ## Stability -/

theorem roots_inside (p q : ℝ) (hq : q < 1) (h1 : 0 < 1 + p + q) (h2 : 0 < 1 - p + q) (z : ℂ) (hz : z ^ 2 + p * z + q = 0) : ‖z‖ < 1 := by
  have hre := congrArg Complex.re hz
  have him := congrArg Complex.im hz
  simp [pow_two] at hre him
  have hn : ‖z‖ ^ 2 = z.re * z.re + z.im * z.im := by rw [← Complex.normSq_eq_norm_sq, Complex.normSq_apply]
  have hlt : z.re * z.re + z.im * z.im < 1 := by
    by_cases hy : z.im = 0
    · simp only [hy, mul_zero, sub_zero, add_zero] at hre ⊢
      by_contra hc
      have hc : 1 ≤ z.re * z.re := by linarith
      rcases le_total 0 z.re with h | h
      · have : 1 ≤ z.re := by nlinarith
        nlinarith
      · have : z.re ≤ -1 := by nlinarith
        nlinarith
    · have hp : p = -2 * z.re := by
        have : z.im * (2 * z.re + p) = 0 := by linarith
        rcases mul_eq_zero.1 this with h | h
        · exact absurd h hy
        · linarith
      rw [hp] at hre
      nlinarith
  have := norm_nonneg z
  nlinarith

/-- C305: every filter is stable: the poles of its cells are inside the unit circle. -/
theorem C305_stable (order : Nat) (ho : order ≤ 8) (tc ts : ℝ) (hc : 0 < tc) (m2 : Nat → Mem2) (m1 : Mem1) :
    (∀ s ∈ (setParams order tc ts m2 m1).secs, ∀ z : ℂ, z ^ 2 + s.1.a1 * z + s.1.a2 = 0 → ‖z‖ < 1) ∧
    (∀ s, (setParams order tc ts m2 m1).first = some s → ∀ z : ℂ, z + s.1.a1 = 0 → ‖z‖ < 1) := by
  constructor
  · intro s hs z hz
    unfold setParams at hs
    obtain ⟨n, hn, rfl⟩ := List.mem_map.1 hs
    have hn : n < order / 2 := by have := List.mem_range.1 hn; omega
    obtain ⟨hr, hab⟩ := root_pair order n ho hn
    have hA := poly2_pos _ (root (start order + 2 * n + 1)) (4 * tc) hr (by linarith)
    have hT : 0 < root (start order + 2 * n + 1) / (4 * tc) * (root (start order + 2 * n + 1) / (4 * tc)) := by positivity
    have hβ : 0 < -2 * root (start order + 2 * n) / (4 * tc) := by apply div_pos <;> linarith
    refine roots_inside _ _ ?_ ?_ ?_ z hz
    · show (poly2 (root (start order + 2 * n)) (root (start order + 2 * n + 1)) (4 * tc)).2.2 / (poly2 (root (start order + 2 * n)) (root (start order + 2 * n + 1)) (4 * tc)).1 < 1
      rw [div_lt_one hA]
      unfold poly2; simp only; linarith
    · show 0 < 1 + (poly2 (root (start order + 2 * n)) (root (start order + 2 * n + 1)) (4 * tc)).2.1 / (poly2 (root (start order + 2 * n)) (root (start order + 2 * n + 1)) (4 * tc)).1 +
        (poly2 (root (start order + 2 * n)) (root (start order + 2 * n + 1)) (4 * tc)).2.2 / (poly2 (root (start order + 2 * n)) (root (start order + 2 * n + 1)) (4 * tc)).1
      have : 0 < (poly2 (root (start order + 2 * n)) (root (start order + 2 * n + 1)) (4 * tc)).1 + (poly2 (root (start order + 2 * n)) (root (start order + 2 * n + 1)) (4 * tc)).2.1 +
          (poly2 (root (start order + 2 * n)) (root (start order + 2 * n + 1)) (4 * tc)).2.2 := by unfold poly2; simp only; linarith
      have h := div_pos this hA
      rw [add_div, add_div, div_self hA.ne'] at h
      exact h
    · show 0 < 1 - (poly2 (root (start order + 2 * n)) (root (start order + 2 * n + 1)) (4 * tc)).2.1 / (poly2 (root (start order + 2 * n)) (root (start order + 2 * n + 1)) (4 * tc)).1 +
        (poly2 (root (start order + 2 * n)) (root (start order + 2 * n + 1)) (4 * tc)).2.2 / (poly2 (root (start order + 2 * n)) (root (start order + 2 * n + 1)) (4 * tc)).1
      have : 0 < (poly2 (root (start order + 2 * n)) (root (start order + 2 * n + 1)) (4 * tc)).1 - (poly2 (root (start order + 2 * n)) (root (start order + 2 * n + 1)) (4 * tc)).2.1 +
          (poly2 (root (start order + 2 * n)) (root (start order + 2 * n + 1)) (4 * tc)).2.2 := by unfold poly2; simp only; linarith
      have h := div_pos this hA
      rw [add_div, sub_div, div_self hA.ne'] at h
      exact h
  · intro s hs z hz
    unfold setParams at hs
    simp only at hs
    split at hs
    · rename_i hodd
      obtain rfl := Option.some.inj hs
      have hr := root_single order ho (by omega)
      have hA := poly1_pos _ (4 * tc) hr (by linarith)
      have hneg : root (start order + order - 1) / (4 * tc) < 0 := div_neg_of_neg_of_pos hr (by linarith)
      have ez : z = ((-(cell1 order tc ts).a1 : ℝ) : ℂ) := by
        push_cast
        linear_combination hz
      rw [ez, Complex.norm_real, Real.norm_eq_abs, abs_neg, abs_lt]
      have e : (cell1 order tc ts).a1 = (poly1 (root (start order + order - 1)) (4 * tc)).2 / (poly1 (root (start order + order - 1)) (4 * tc)).1 := rfl
      rw [e]
      constructor
      · rw [lt_div_iff₀ hA]; unfold poly1; simp only; linarith
      · rw [div_lt_one hA]; unfold poly1; simp only; linarith
    · simp at hs

/-! ## The channels -/

/-- C306, refuted: a constant signal in any channel, so in channel 0 of order 0 too, gets the compensation of the order of the content. -/
theorem C306_refuted (order : Nat) (h1 : 1 ≤ order) (ho : order ≤ 8) (dist radius x : ℝ) (rate : Nat) (hd : 0 < dist) (hr : dist < radius) (hrate : 0 < rate) (hx : x ≠ 0) :
    ∃ m2 m1, (∀ k n, (apply (nfcInit order dist radius rate m2 m1 k) (List.replicate n x)).1 = List.replicate n ((dist / radius) ^ order * x)) ∧
      ∀ n, 0 < n → (apply (nfcInit order dist radius rate m2 m1 0) (List.replicate n x)).1 ≠ List.replicate n x := by
  have hrate' : (0 : ℝ) < rate := by exact_mod_cast hrate
  have hrad : 0 < radius := by linarith
  obtain ⟨m2, m1, h⟩ := C304_constant order ho (dist / 343 * rate) (radius / 343 * rate) x (by positivity) (by positivity)
  have e : dist / 343 * rate / (radius / 343 * rate) = dist / radius := by field_simp
  rw [e] at h
  refine ⟨fun _ => m2, fun _ => m1, fun k n => h n, fun n hn hcon => ?_⟩
  have h' := h n
  have : (apply (nfcInit order dist radius rate (fun _ => m2) (fun _ => m1) 0) (List.replicate n x)).1 = List.replicate n ((dist / radius) ^ order * x) := h'
  rw [this] at hcon
  have h3 : (dist / radius) ^ order * x = x := (List.replicate_right_inj (by omega)).1 hcon
  have h4 : (dist / radius) ^ order = 1 := by
    have : ((dist / radius) ^ order - 1) * x = 0 := by linarith
    rcases mul_eq_zero.1 this with h | h
    · linarith
    · exact absurd h hx
  have h5 : (dist / radius) ^ order < 1 := pow_lt_one₀ (by positivity) ((div_lt_one hrad).2 hr) (by omega)
  linarith

example : ∃ order : Nat, ∃ dist radius : ℝ, 1 ≤ order ∧ order ≤ 8 ∧ 0 < dist ∧ dist < radius := ⟨2, 2, 3, by norm_num, by norm_num, by norm_num, by norm_num⟩

/-- C306, what holds: the channels of the highest order get the compensation of their order. -/
theorem C306_highest_partial (order : Nat) (ho : order ≤ 8) (dist radius x : ℝ) (rate : Nat) (hd : 0 < dist) (hr : 0 < radius) (hrate : 0 < rate) :
    ∃ m2 m1, ∀ k, order ^ 2 ≤ k → k < (order + 1) ^ 2 → ∀ n,
      (apply (nfcInit order dist radius rate m2 m1 k) (List.replicate n x)).1 = List.replicate n ((dist / radius) ^ Nat.sqrt k * x) := by
  have hrate' : (0 : ℝ) < rate := by exact_mod_cast hrate
  obtain ⟨m2, m1, h⟩ := C304_constant order ho (dist / 343 * rate) (radius / 343 * rate) x (by positivity) (by positivity)
  have e : dist / 343 * rate / (radius / 343 * rate) = dist / radius := by field_simp
  rw [e] at h
  refine ⟨fun _ => m2, fun _ => m1, fun k h1 h2 n => ?_⟩
  have hk : Nat.sqrt k = order := by
    symm
    rw [Nat.eq_sqrt']
    exact ⟨h1, h2⟩
  rw [hk]
  exact h n

/-! ## Rendering -/

/-- C307: samples are clipped to 16 bits. -/
theorem C307_clip (x : ℝ) : -32768 ≤ clip x ∧ clip x ≤ 32767 ∧ (-32768 ≤ x → x ≤ 32767 → clip x = x) := by
  unfold clip
  refine ⟨?_, ?_, fun h1 h2 => ?_⟩
  · dsimp only; split_ifs <;> linarith
  · dsimp only; split_ifs <;> linarith
  · dsimp only
    rcases lt_or_eq_of_le h2 with h | h
    · rw [if_pos h]
      rcases lt_or_eq_of_le h1 with h' | h'
      · rw [if_pos h']
      · rw [if_neg (by linarith)]; exact h'
    · rw [if_neg (show ¬x < 32767 by linarith), if_pos (by norm_num)]; exact h.symm

/-- C307: each loudspeaker gets its row of the matrix times the channels at the same time, clipped, after near field compensation if it is used; other memory stays. -/
theorem C307_render (order cols nOut colsA size : Nat) (nfc : Bool) (fs : Nat → Filter) (mtx inp out : Nat → ℝ) (hcols : 0 < cols) (hsize : nfc = true → size ≤ (order + 1) * (order + 1)) :
    ∃ o f, block (some order) ((order + 1) * (order + 1)) cols nOut colsA size nfc fs mtx inp out = .ok (o, f) ∧
      (∀ s n, s < nOut → n < cols → o (s * cols + n) = clip (∑ k ∈ Finset.range ((order + 1) * (order + 1)), mtx (s * colsA + k) *
        (if nfc then (apply (fs k) (row inp cols k)).1.getD n 0 else inp (k * cols + n)))) ∧
      (∀ k, nOut * cols ≤ k → o k = out k) ∧
      ∀ k, f k = if nfc = true ∧ k < (order + 1) * (order + 1) then (apply (fs k) (row inp cols k)).2 else fs k := by
  set ch := (order + 1) * (order + 1) with hch
  have hch0 : 0 < ch := by positivity
  have key : ∀ (g : Nat → ℝ) s n, s < nOut → n < cols → mix ch cols nOut colsA mtx g out (s * cols + n) = clip (∑ k ∈ Finset.range ch, mtx (s * colsA + k) * g (k * cols + n)) := by
    intro g s n hs hn
    unfold mix
    have h1 : s * cols + n < nOut * cols := by nlinarith
    have h2 : (s * cols + n) / cols = s := by
      rw [Nat.mul_comm, Nat.mul_add_div hcols, Nat.div_eq_of_lt hn, Nat.add_zero]
    have h3 : (s * cols + n) % cols = n := by rw [Nat.mul_comm, Nat.mul_add_mod, Nat.mod_eq_of_lt hn]
    simp only [if_pos h1, h2, h3]
    congr 1
    apply Finset.sum_congr rfl
    intro k hk
    have hk := Finset.mem_range.1 hk
    rw [Nat.mul_comm n ch, Nat.mul_add_mod, Nat.mod_eq_of_lt hk, Nat.mul_add_div hch0, Nat.div_eq_of_lt hk, Nat.add_zero]
  have rest : ∀ (g : Nat → ℝ) k, nOut * cols ≤ k → mix ch cols nOut colsA mtx g out k = out k := by
    intro g k hk
    unfold mix
    simp only [if_neg (show ¬k < nOut * cols by omega)]
  cases nfc with
  | false =>
    refine ⟨mix ch cols nOut colsA mtx inp out, fs, ?_, fun s n hs hn => ?_, rest inp, fun k => by simp⟩
    · simp only [block, ← hch, ne_eq, not_true_eq_false, if_false, if_neg (show ¬cols = 0 by omega), Bool.false_eq_true]
    · simp only [Bool.false_eq_true, if_false]; exact key inp s n hs hn
  | true =>
    have hsz := hsize rfl
    refine ⟨mix ch cols nOut colsA mtx (filtered ch cols fs inp) out, fun k => if k < ch then (apply (fs k) (row inp cols k)).2 else fs k, ?_, fun s n hs hn => ?_,
      rest _, fun k => by simp⟩
    · simp only [block, ← hch, ne_eq, not_true_eq_false, if_false, if_neg (show ¬cols = 0 by omega), if_true, if_neg (show ¬ch < size by omega)]
    · rw [key _ s n hs hn]
      congr 1
      apply Finset.sum_congr rfl
      intro k hk
      have hk := Finset.mem_range.1 hk
      simp only [if_true]
      congr 1
      unfold filtered
      have h1 : k * cols + n < ch * cols := by nlinarith
      have h2 : (k * cols + n) / cols = k := by
        rw [Nat.mul_comm, Nat.mul_add_div hcols, Nat.div_eq_of_lt hn, Nat.add_zero]
      have h3 : (k * cols + n) % cols = n := by rw [Nat.mul_comm, Nat.mul_add_mod, Nat.mod_eq_of_lt hn]
      rw [if_pos h1, h2, h3]

/-- C307: blocks that do not fit the matrix are refused. -/
theorem C307_refused (order : Option Nat) (rows cols nOut colsA size : Nat) (nfc : Bool) (fs : Nat → Filter) (mtx inp out : Nat → ℝ)
    (h : ∀ n, order = some n → rows ≠ (n + 1) * (n + 1)) : block order rows cols nOut colsA size nfc fs mtx inp out = .err (.other 0xFFFF9204) := by
  cases order with
  | none => rfl
  | some n =>
    simp only [block]
    rw [if_pos (fun e => h n rfl e.symm)]

/-- C307: with more filters in use than channels compensation is refused. -/
theorem C307_filters (order cols nOut colsA size : Nat) (fs : Nat → Filter) (mtx inp out : Nat → ℝ) (hc : 0 < cols) (hs : (order + 1) * (order + 1) < size) :
    block (some order) ((order + 1) * (order + 1)) cols nOut colsA size true fs mtx inp out = .err (.other 0xFFFF9205) := by
  simp only [block, ne_eq, not_true_eq_false, if_false, if_neg (show ¬cols = 0 by omega), if_true, if_pos hs]

example : ∃ order rows : Nat, ∀ n, some order = some n → rows ≠ (n + 1) * (n + 1) := ⟨1, 9, fun n h => by cases h; decide⟩

/-- C308: near field compensation is used exactly when the reference distance is beyond the loudspeakers and the level allows the order; it is refused when the level does not. -/
theorem C308_levels (dist radius : ℝ) (order lvl : Nat) :
    (radius ≤ dist → useNfc dist radius order lvl = .ok false) ∧
    (dist < radius → (useNfc dist radius order lvl = .ok true ↔ (lvl = 13 ∧ order ≤ 2) ∨ (lvl = 12 ∧ order ≤ 1) ∨ (16 ≤ lvl ∧ lvl ≤ 18)) ∧
      (useNfc dist radius order lvl = .ok true ∨ useNfc dist radius order lvl = .err (.other 0xFFFF9211))) := by
  constructor
  · intro h; unfold useNfc; rw [if_pos h]
  · intro h
    unfold useNfc
    rw [if_neg (not_le.2 h)]
    constructor
    · split
      · rename_i h1; simp only [true_iff]; omega
      · rename_i h1
        constructor
        · intro h2; cases h2
        · intro h2; exfalso; apply h1; omega
    · split
      · exact Or.inl rfl
      · exact Or.inr rfl

end Verif.HoaRen
