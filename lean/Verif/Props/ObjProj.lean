import Mathlib.Tactic.Linarith
import Mathlib.Tactic.Positivity
import Mathlib.Tactic.FieldSimp
import Mathlib.Tactic.LinearCombination
import Verif.Model.ObjProj
import Verif.Props.ObjHull

/-!
# Projections for the hull of loudspeakers
-/

namespace Verif.Props.ObjProj

open Verif Verif.Displace Verif.ObjHull Verif.ObjProj Verif.Props.ObjHull

/-! ## Specification -/

/-- Six times the volume of the tetrahedron of three points and `x`, with its sign -/
def volume (a b c x : Cart) : ℝ :=
  (b.x - a.x) * ((c.y - a.y) * (x.z - a.z) - (c.z - a.z) * (x.y - a.y)) -
  (b.y - a.y) * ((c.x - a.x) * (x.z - a.z) - (c.z - a.z) * (x.x - a.x)) +
  (b.z - a.z) * ((c.x - a.x) * (x.y - a.y) - (c.y - a.y) * (x.x - a.x))

/-- Twice the area of the triangle of three points -/
noncomputable def area (a b c : Cart) : ℝ :=
  Real.sqrt (((b.y - a.y) * (c.z - a.z) - (b.z - a.z) * (c.y - a.y)) ^ 2 +
    ((b.z - a.z) * (c.x - a.x) - (b.x - a.x) * (c.z - a.z)) ^ 2 +
    ((b.x - a.x) * (c.y - a.y) - (b.y - a.y) * (c.x - a.x)) ^ 2)

/-! ## Projections -/

theorem len_orth (a b c : Cart) : len (orth a b c) = area a b c := by
  unfold len area orth sub
  congr 1
  simp only
  ring

theorem area_nonneg (a b c : Cart) : 0 ≤ area a b c := Real.sqrt_nonneg _

theorem volume_zero {a b c : Cart} (h : area a b c = 0) (x : Cart) : volume a b c x = 0 := by
  unfold area at h
  have h0 := (Real.sqrt_eq_zero (by positivity)).mp h
  unfold volume
  set p := (b.y - a.y) * (c.z - a.z) - (b.z - a.z) * (c.y - a.y) with hp
  set q := (b.z - a.z) * (c.x - a.x) - (b.x - a.x) * (c.z - a.z) with hq
  set r := (b.x - a.x) * (c.y - a.y) - (b.y - a.y) * (c.x - a.x) with hr
  have p0 : p = 0 := by
    have : p ^ 2 = 0 := by nlinarith [sq_nonneg p, sq_nonneg q, sq_nonneg r]
    exact pow_eq_zero_iff (two_ne_zero) |>.mp this
  have q0 : q = 0 := by
    have : q ^ 2 = 0 := by nlinarith [sq_nonneg p, sq_nonneg q, sq_nonneg r]
    exact pow_eq_zero_iff (two_ne_zero) |>.mp this
  have r0 : r = 0 := by
    have : r ^ 2 = 0 := by nlinarith [sq_nonneg p, sq_nonneg q, sq_nonneg r]
    exact pow_eq_zero_iff (two_ne_zero) |>.mp this
  rw [hp] at p0
  rw [hq] at q0
  rw [hr] at r0
  linear_combination (x.x - a.x) * p0 + (x.y - a.y) * q0 + (x.z - a.z) * r0

/-- C364: the projection is the height of the tetrahedron over the triangle, with its sign. -/
theorem C364_height (a b c x : Cart) : projLen a b c x * area a b c = volume a b c x := by
  unfold projLen
  simp only [len_orth]
  by_cases h : area a b c = 0
  · rw [h, volume_zero h]; ring
  · rw [if_pos h]
    simp only [orth, sub]
    field_simp
    unfold volume
    ring

/-- C364: over a triangle without area it is 0. -/
theorem C364_flat (a b c x : Cart) (h : area a b c = 0) : projLen a b c x = 0 := by
  unfold projLen
  simp only [len_orth]
  rw [if_neg (by simpa using h)]
  have := volume_zero h x
  unfold volume at this
  simp only [orth, sub]
  linear_combination this

theorem proj_zero {a b c x : Cart} (h : volume a b c x = 0) : projLen a b c x = 0 := by
  by_cases h0 : area a b c = 0
  · exact C364_flat a b c x h0
  · have := C364_height a b c x
    rw [h] at this
    exact (mul_eq_zero.mp this).resolve_right h0

/-- C364: it is 0 for the corners. -/
theorem C364_corner (pos : ℤ → Cart) (t : Tri) (v : ℤ) (h : Has t v) : triProj pos t (pos v) = 0 := by
  unfold triProj
  apply proj_zero
  unfold volume
  rcases h with h | h | h <;> subst h <;> ring

theorem area_swap (a b c : Cart) : area c b a = area a b c := by
  unfold area
  congr 1
  ring

/-- C364: it changes its sign when the triangle is turned. -/
theorem C364_turned (a b c x : Cart) : projLen c b a x = -projLen a b c x := by
  by_cases h0 : area a b c = 0
  · rw [C364_flat a b c x h0, C364_flat c b a x (by rw [area_swap]; exact h0), neg_zero]
  · have h1 := C364_height a b c x
    have h2 := C364_height c b a x
    rw [area_swap] at h2
    apply mul_right_cancel₀ h0
    rw [h2, neg_mul, h1]
    unfold volume
    ring

/-! ## The hull -/

/-- C365: a vertex is added to a surface of which no triangle has the origin in front of it: the new triangles
have different corners, every side belongs to an even number of them, to none or two if it doesn't end in the vertex,
and no triangle has the origin in front of it. -/
theorem C365_hull (pos : ℤ → Cart) (vx : ℤ) (ts r : List Tri) (hs : Surface ts)
    (ho : ∀ t ∈ ts, triProj pos t ⟨0, 0, 0⟩ ≤ 0) (hr : hullStep pos vx ts = .ok r) :
    (∀ t ∈ r, Proper t) ∧ (∀ a b, a ≠ b → Even (sides r a b)) ∧
    (∀ a b, a ≠ b → a ≠ vx → b ≠ vx → sides r a b = 0 ∨ sides r a b = 2) ∧
    ∀ t ∈ r, triProj pos t ⟨0, 0, 0⟩ ≤ 0 := by
  unfold hullStep at hr
  have hc := C363_closed vx _ _ ts r hs (fun t _ h => by
    rw [C364_corner pos t vx h]; norm_num) hr
  refine ⟨hc.1, hc.2.1, hc.2.2, ?_⟩
  unfold step at hr
  split at hr <;> try cases hr
  simp only at hr
  split at hr
  · cases hr
  cases hr
  intro t ht
  rcases List.mem_append.mp ht with ht | ht
  · exact ho t (List.mem_filter.mp ht).1
  · obtain ⟨e, _, rfl⟩ := List.mem_map.mp ht
    unfold cone
    split
    · rename_i h
      simp only [decide_eq_true_eq, not_le] at h
      unfold triProj at h ⊢
      simp only at h ⊢
      rw [C364_turned]
      linarith
    · rename_i h
      simpa using h

/-- C365: after a vertex was added no triangle has it in front. -/
theorem C365_outside (pos : ℤ → Cart) (vx : ℤ) (ts r : List Tri) (hr : hullStep pos vx ts = .ok r) :
    ∀ t ∈ r, triProj pos t (pos vx) ≤ 0 := by
  unfold hullStep step at hr
  split at hr <;> try cases hr
  simp only at hr
  split at hr
  · cases hr
  cases hr
  intro t ht
  rcases List.mem_append.mp ht with ht | ht
  · have := (List.mem_filter.mp ht).2
    simp only [Bool.not_eq_true', decide_eq_false_iff_not, not_not] at this
    linarith
  · obtain ⟨e, _, rfl⟩ := List.mem_map.mp ht
    have : Has (cone vx (fun t => decide ¬ triProj pos t ⟨0, 0, 0⟩ ≤ 0) e) vx := by
      unfold cone
      split
      · exact Or.inl rfl
      · exact Or.inr (Or.inr rfl)
    exact (C364_corner pos _ vx this).le

theorem edges_length (ts : List Tri) : (edges ts).length = 3 * ts.length := by
  induction ts with
  | nil => rfl
  | cons t ts ih => rw [edges_cons]; simp only [List.length_cons, ih]; omega

theorem filter_length (f : Tri → Bool) (ts : List Tri) :
    (ts.filter f).length + (ts.filter fun t => !f t).length = ts.length := by
  induction ts with
  | nil => rfl
  | cons t ts ih =>
    rw [List.filter_cons, List.filter_cons]
    cases h : f t <;> simp [← ih] <;> omega

/-- C365: the arrays are large enough for up to 14 triangles. -/
theorem C365_fits (pos : ℤ → Cart) (vx : ℤ) (ts : List Tri) (h : ts.length ≤ 14) :
    ∃ r, hullStep pos vx ts = .ok r := by
  unfold hullStep
  generalize (fun t => decide ¬ triProj pos t (pos vx) ≤ -(1 / 100000)) = f
  have h1 := filter_length f ts
  have h2 : (unique (edges (ts.filter f))).length ≤ 3 * (ts.filter f).length := by
    rw [unique_eq, ← edges_length]
    exact List.length_filter_le _ _
  unfold step extract
  rw [if_neg (by omega)]
  simp only
  rw [if_neg (by rw [List.length_append, List.length_map]; omega)]
  exact ⟨_, rfl⟩

/-! ## Examples -/

theorem proj_nonpos {a b c x : Cart} (h : volume a b c x ≤ 0) : projLen a b c x ≤ 0 := by
  by_cases h0 : area a b c = 0
  · exact (C364_flat a b c x h0).le
  · have := C364_height a b c x
    have hp : 0 < area a b c := lt_of_le_of_ne (area_nonneg a b c) (Ne.symm h0)
    by_contra hc
    have := mul_pos (not_le.mp hc) hp
    linarith

/-- The origin is in front of no triangle of a tetrahedron around it. -/
example (pos : ℤ → Cart) (h0 : pos 0 = ⟨1, 1, 1⟩) (h1 : pos 1 = ⟨-1, -1, 1⟩) (h2 : pos 2 = ⟨-1, 1, -1⟩)
    (h3 : pos 3 = ⟨1, -1, -1⟩) :
    ∀ t ∈ [(⟨0, 2, 1⟩ : Tri), ⟨0, 3, 2⟩, ⟨0, 1, 3⟩, ⟨1, 2, 3⟩], triProj pos t ⟨0, 0, 0⟩ ≤ 0 := by
  intro t ht
  simp only [List.mem_cons, List.not_mem_nil, or_false] at ht
  unfold triProj
  apply proj_nonpos
  unfold volume
  rcases ht with rfl | rfl | rfl | rfl <;> simp only [h0, h1, h2, h3] <;> norm_num

/-- A triangle in a plane and a point one above it. -/
example : volume ⟨0, 0, 0⟩ ⟨1, 0, 0⟩ ⟨0, 1, 0⟩ ⟨0, 0, 1⟩ = 1 ∧ area ⟨0, 0, 0⟩ ⟨1, 0, 0⟩ ⟨0, 1, 0⟩ = 1 := by
  constructor
  · unfold volume; norm_num
  · unfold area; norm_num

/-- A triangle without area. -/
example : area ⟨0, 0, 0⟩ ⟨1, 0, 0⟩ ⟨2, 0, 0⟩ = 0 := by unfold area; norm_num

end Verif.Props.ObjProj
