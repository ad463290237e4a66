import Verif.Props.ObjPan
import Mathlib.Analysis.SpecialFunctions.Trigonometric.Bounds

/-! # C316, C317, C318: the spread of objects

C316: no direction from which a spread object sounds is further from the object than its width, and
two opposite ones are exactly that far away. C317: without loudspeakers in height an object is spread
sideways only, with them also upwards, and the directions lie symmetrically to the left and right.
C318: the gains are those of the directions up to 90 degrees, equal for all loudspeakers from 180
degrees on, and blended linearly between. -/

namespace Verif.ObjRen

open Verif.Displace
open Finset (range)

/-! ## Specification -/

/-- The opening angle of an object of width `w`: at least a thousandth of a degree, at most 90. -/
noncomputable def opening (w : ℝ) : ℝ := max (1 / 1000) (min w 90)

/-- The direction of the object. -/
noncomputable def ahead (o : Obj) : Cart := cartDeg ⟨o.az, o.el, 1⟩

/-- The horizontal direction at a right angle to the object. -/
noncomputable def side (o : Obj) : Cart := ⟨Real.sin (rad o.az), -Real.cos (rad o.az), 0⟩

/-- The direction at a right angle to both. -/
noncomputable def upright (o : Obj) : Cart :=
  ⟨-(Real.cos (rad o.az) * Real.sin (rad o.el)), -(Real.sin (rad o.az) * Real.sin (rad o.el)),
    Real.cos (rad o.el)⟩

/-- The length of a vector. -/
noncomputable def size (d : Cart) : ℝ := Real.sqrt (dot d d)

/-- The mirror image: left and right exchanged. -/
noncomputable def mirror (o : Obj) (d : Cart) : Cart :=
  ⟨d.x - 2 * dot d (side o) * (side o).x, d.y - 2 * dot d (side o) * (side o).y,
    d.z - 2 * dot d (side o) * (side o).z⟩

/-- The directions from which the object sounds. -/
noncomputable def dirs (height : Bool) (o : Obj) : List Cart :=
  spreadVecs height o (cartDeg ⟨o.az, o.el, o.radius⟩)

/-- How far an object is blended with all loudspeakers: from nothing at 90 degrees to all at 180. -/
noncomputable def blend (w : ℝ) : ℝ := max 0 (min 1 ((w - 90) / 90))

/-! ## The directions -/

/-- The parts along `u`, `v` and `p0` of the 19 vectors of an object at radius `r`. -/
noncomputable def parts (r : ℝ) : List (ℝ × ℝ × ℝ) :=
  [(0, 0, r), (1, 0, 0), (3 / 4, 0, 1 / 4), (3 / 8, 0, 5 / 8),
   (-1, 0, 0), (-(3 / 4), 0, 1 / 4), (-(3 / 8), 0, 5 / 8),
   (1 / 2, 866 / 1000, 333 / 1000), (1 / 4, 433 / 1000, 333 / 2000 + 1 / 2),
   (1 / 8, 433 / 2000, 333 / 4000 + 3 / 4),
   (-(1 / 2), 866 / 1000, 333 / 1000), (-(1 / 4), 433 / 1000, 333 / 2000 + 1 / 2),
   (-(1 / 8), 433 / 2000, 333 / 4000 + 3 / 4),
   (-(1 / 2), -(866 / 1000), 333 / 1000), (-(1 / 4), -(433 / 1000), 333 / 2000 + 1 / 2),
   (-(1 / 8), -(433 / 2000), 333 / 4000 + 3 / 4),
   (1 / 2, -(866 / 1000), 333 / 1000), (1 / 4, -(433 / 1000), 333 / 2000 + 1 / 2),
   (1 / 8, -(433 / 2000), 333 / 4000 + 3 / 4)]

/-- `a u + b v + c p`. -/
def lin (u v p : Cart) (k : ℝ × ℝ × ℝ) : Cart :=
  ⟨k.1 * u.x + k.2.1 * v.x + k.2.2 * p.x, k.1 * u.y + k.2.1 * v.y + k.2.2 * p.y,
    k.1 * u.z + k.2.1 * v.z + k.2.2 * p.z⟩

theorem mdap_parts (u v p : Cart) (r : ℝ) :
    mdap ⟨r * p.x, r * p.y, r * p.z⟩ u v p = (parts r).map (lin u v p) := by
  obtain ⟨ux, uy, uz⟩ := u
  simp only [mdap, parts, List.map_cons, List.map_nil, lin, comb, List.cons.injEq, Cart.mk.injEq,
    and_true]
  refine ⟨?_, ?_, ?_, ?_, ?_, ?_, ?_, ?_, ?_, ?_, ?_, ?_, ?_, ?_, ?_, ?_, ?_, ?_, ?_⟩ <;>
    exact ⟨by ring, by ring, by ring⟩

theorem parts_bounds {r : ℝ} (hr : 0 ≤ r) {k : ℝ × ℝ × ℝ} (h : k ∈ parts r) :
    k.1 * k.1 + k.2.1 * k.2.1 ≤ 1 ∧ 0 ≤ k.2.2 := by
  simp only [parts, List.mem_cons, List.not_mem_nil, or_false] at h
  rcases h with h | h | h | h | h | h | h | h | h | h | h | h | h | h | h | h | h | h | h <;>
    subst h <;> refine ⟨by norm_num, ?_⟩ <;> first | exact hr | norm_num

theorem parts_mirror {r : ℝ} {k : ℝ × ℝ × ℝ} (h : k ∈ parts r) : (-k.1, k.2.1, k.2.2) ∈ parts r := by
  simp only [parts, List.mem_cons, List.not_mem_nil, or_false] at h
  rcases h with h | h | h | h | h | h | h | h | h | h | h | h | h | h | h | h | h | h | h <;>
    subst h <;> simp [parts]

theorem opening_eq (w : ℝ) : limitSpread w = opening w := by
  simp only [limitSpread, opening]
  split_ifs with h h'
  · rw [min_eq_right h.le, max_eq_right (by norm_num)]
  · rw [min_eq_left (not_lt.mp h), max_eq_left h'.le]
  · rw [min_eq_left (not_lt.mp h), max_eq_right (not_lt.mp h')]

theorem rad_add (x y : ℝ) : rad (x + y) = rad x + rad y := by
  simp only [rad]; ring

theorem rad_90 : rad 90 = Real.pi / 2 := by simp only [rad]; ring

/-- The sign of `u` and `v`: below the horizon they are the other way round. -/
noncomputable def sgn (o : Obj) : ℝ := if o.el < 0 then 1 else -1

theorem dirs_eq (height : Bool) (o : Obj) :
    dirs height o = (parts o.radius).map fun k =>
      shift (opening o.width) (ahead o)
        (lin (side o) (upright o) (ahead o) (-(sgn o) * k.1, if height then sgn o * k.2.1 else 0, k.2.2)) := by
  have e : cartDeg ⟨o.az, o.el, o.radius⟩ =
      ⟨o.radius * (ahead o).x, o.radius * (ahead o).y, o.radius * (ahead o).z⟩ := by
    simp only [ahead, cartDeg, polCart, Cart.mk.injEq]
    exact ⟨by ring, by ring, by ring⟩
  have sc := Real.sin_sq_add_cos_sq (rad o.el)
  rw [dirs, e, spreadVecs]
  rw [← ahead, mdap_parts, List.map_map, opening_eq]
  apply List.map_congr_left
  intro k _
  simp only [Function.comp]
  congr 1
  rcases lt_or_ge o.el 0 with h | h
  · have e1 : Real.sin (rad (o.el + 90)) = Real.cos (rad o.el) := by
      rw [rad_add, rad_90, Real.sin_add_pi_div_two]
    have e2 : Real.cos (rad (o.el + 90)) = -Real.sin (rad o.el) := by
      rw [rad_add, rad_90, Real.cos_add_pi_div_two]
    simp only [if_pos h, sgn, lin, side, upright, ahead, cartDeg, polCart, e1, e2, Cart.mk.injEq]
    cases height
    · simp only [Bool.false_eq_true, if_false]
      refine ⟨?_, ?_, ?_⟩
      · linear_combination (-k.1 * Real.sin (rad o.az)) * sc
      · linear_combination (k.1 * Real.cos (rad o.az)) * sc
      · ring
    · simp only [if_true]
      refine ⟨?_, ?_, ?_⟩
      · linear_combination (-k.1 * Real.sin (rad o.az)) * sc
      · linear_combination (k.1 * Real.cos (rad o.az)) * sc
      · ring
  · have e1 : Real.sin (rad (o.el - 90)) = -Real.cos (rad o.el) := by
      rw [sub_eq_add_neg, rad_add, show rad (-90) = -(Real.pi / 2) by simp only [rad]; ring,
        ← sub_eq_add_neg, Real.sin_sub_pi_div_two]
    have e2 : Real.cos (rad (o.el - 90)) = Real.sin (rad o.el) := by
      rw [sub_eq_add_neg, rad_add, show rad (-90) = -(Real.pi / 2) by simp only [rad]; ring,
        ← sub_eq_add_neg, Real.cos_sub_pi_div_two]
    simp only [if_neg (not_lt.mpr h), sgn, lin, side, upright, ahead, cartDeg, polCart, e1, e2,
      Cart.mk.injEq]
    cases height
    · simp only [Bool.false_eq_true, if_false]
      refine ⟨?_, ?_, ?_⟩
      · linear_combination (k.1 * Real.sin (rad o.az)) * sc
      · linear_combination (-k.1 * Real.cos (rad o.az)) * sc
      · ring
    · simp only [if_true]
      refine ⟨?_, ?_, ?_⟩
      · linear_combination (k.1 * Real.sin (rad o.az)) * sc
      · linear_combination (-k.1 * Real.cos (rad o.az)) * sc
      · ring

/-! ## Lengths and angles -/

/-- The vector with these parts sideways, upwards and ahead. -/
noncomputable def vec (o : Obj) (x y z : ℝ) : Cart := lin (side o) (upright o) (ahead o) (x, y, z)

theorem dot_vec (o : Obj) (x y z x' y' z' : ℝ) :
    dot (vec o x y z) (vec o x' y' z') = x * x' + y * y' + z * z' := by
  have s1 := Real.sin_sq_add_cos_sq (rad o.el)
  have s2 := Real.sin_sq_add_cos_sq (rad o.az)
  simp only [dot, vec, lin, side, upright, ahead, cartDeg, polCart]
  generalize Real.sin (rad o.el) = a at *
  generalize Real.cos (rad o.el) = b at *
  generalize Real.sin (rad o.az) = c at *
  generalize Real.cos (rad o.az) = d at *
  linear_combination (x * x' + y * y' * a ^ 2 + z * z' * b ^ 2 - a * b * (y * z' + z * y')) * s2 +
    (y * y' + z * z') * s1

theorem side_vec (o : Obj) : side o = vec o 1 0 0 := by
  simp [vec, lin, side]

theorem upright_vec (o : Obj) : upright o = vec o 0 1 0 := by
  simp [vec, lin, upright]

theorem ahead_vec (o : Obj) : ahead o = vec o 0 0 1 := by
  simp [vec, lin]

theorem size_vec (o : Obj) (x y z : ℝ) : size (vec o x y z) = Real.sqrt (x * x + y * y + z * z) := by
  rw [size, dot_vec]

theorem shift_vec (o : Obj) (a x y z : ℝ) :
    shift a (ahead o) (vec o x y z) =
      vec o (x / Real.sqrt (x * x + y * y + (z + 1 / Real.tan (rad a)) * (z + 1 / Real.tan (rad a))))
        (y / Real.sqrt (x * x + y * y + (z + 1 / Real.tan (rad a)) * (z + 1 / Real.tan (rad a))))
        ((z + 1 / Real.tan (rad a)) /
          Real.sqrt (x * x + y * y + (z + 1 / Real.tan (rad a)) * (z + 1 / Real.tan (rad a)))) := by
  generalize ht : Real.tan (rad a) = t
  have e1 : (vec o x y z).x + (ahead o).x / t = (vec o x y (z + 1 / t)).x := by
    simp only [vec, lin]; ring
  have e2 : (vec o x y z).y + (ahead o).y / t = (vec o x y (z + 1 / t)).y := by
    simp only [vec, lin]; ring
  have e3 : (vec o x y z).z + (ahead o).z / t = (vec o x y (z + 1 / t)).z := by
    simp only [vec, lin]; ring
  have l : Real.sqrt ((vec o x y (z + 1 / t)).x * (vec o x y (z + 1 / t)).x +
      ((vec o x y (z + 1 / t)).y * (vec o x y (z + 1 / t)).y +
        (vec o x y (z + 1 / t)).z * (vec o x y (z + 1 / t)).z)) =
      Real.sqrt (x * x + y * y + (z + 1 / t) * (z + 1 / t)) := by
    rw [← dot_vec o x y (z + 1 / t) x y (z + 1 / t), dot, add_assoc]
  simp only [shift, ht, e1, e2, e3, l]
  clear l e1 e2 e3
  generalize z + 1 / t = q
  split_ifs with h
  · simp only [vec, lin, Cart.mk.injEq]
    exact ⟨by ring, by ring, by ring⟩
  · have h0 : Real.sqrt (x * x + y * y + q * q) = 0 := not_not.mp h
    have hz : x * x + y * y + q * q = 0 := by
      have := (Real.sqrt_eq_zero (by nlinarith [mul_self_nonneg x, mul_self_nonneg y, mul_self_nonneg q])).mp h0
      exact this
    have hx : x = 0 := mul_self_eq_zero.mp (by nlinarith [mul_self_nonneg x, mul_self_nonneg y, mul_self_nonneg q])
    have hy : y = 0 := mul_self_eq_zero.mp (by nlinarith [mul_self_nonneg x, mul_self_nonneg y, mul_self_nonneg q])
    have hq : q = 0 := mul_self_eq_zero.mp (by nlinarith [mul_self_nonneg x, mul_self_nonneg y, mul_self_nonneg q])
    subst hx hy hq
    simp

theorem opening_pos (w : ℝ) : 0 < opening w := lt_of_lt_of_le (by norm_num) (le_max_left _ _)

theorem opening_le (w : ℝ) : opening w ≤ 90 := max_le (by norm_num) (min_le_right _ _)

theorem rad_opening (w : ℝ) : 0 < rad (opening w) ∧ rad (opening w) ≤ Real.pi / 2 := by
  have hp := Real.pi_pos
  have h1 := opening_pos w
  have h2 := opening_le w
  simp only [rad]
  constructor
  · positivity
  · nlinarith

theorem sin_opening (w : ℝ) : 0 < Real.sin (rad (opening w)) :=
  Real.sin_pos_of_pos_of_lt_pi (rad_opening w).1
    (lt_of_le_of_lt (rad_opening w).2 (by have := Real.pi_pos; linarith))

theorem cos_opening (w : ℝ) : 0 ≤ Real.cos (rad (opening w)) :=
  Real.cos_nonneg_of_neg_pi_div_two_le_of_le
    (by have := (rad_opening w).1; have := Real.pi_pos; linarith) (rad_opening w).2

theorem cot (a : ℝ) : 1 / Real.tan (rad a) = Real.cos (rad a) / Real.sin (rad a) := by
  rw [Real.tan_eq_sin_div_cos, one_div, inv_div]

theorem sgn_sq (o : Obj) : sgn o * sgn o = 1 := by
  simp only [sgn]
  split_ifs <;> norm_num

/-- The directions of an object by their parts. -/
theorem mem_dirs {height : Bool} {o : Obj} {d : Cart} :
    d ∈ dirs height o ↔ ∃ k ∈ parts o.radius, d = shift (opening o.width) (ahead o)
      (vec o (-(sgn o) * k.1) (if height then sgn o * k.2.1 else 0) k.2.2) := by
  rw [dirs_eq, List.mem_map]
  exact ⟨fun ⟨k, h, e⟩ => ⟨k, h, e.symm⟩, fun ⟨k, h, e⟩ => ⟨k, h, e.symm⟩⟩

/-- C316: no direction from which an object sounds is further from it than its width. -/
theorem C316_cone (height : Bool) (o : Obj) (hr : 0 ≤ o.radius) (d : Cart) (h : d ∈ dirs height o) :
    Real.cos (rad (opening o.width)) * size d ≤ dot d (ahead o) := by
  obtain ⟨k, hk, rfl⟩ := mem_dirs.mp h
  obtain ⟨h1, h2⟩ := parts_bounds hr hk
  obtain ⟨a, b, z⟩ := k
  dsimp only at h1 h2
  rw [shift_vec, size_vec, ahead_vec, dot_vec, cot]
  have hs := sin_opening o.width
  have hc := cos_opening o.width
  have sc := Real.sin_sq_add_cos_sq (rad (opening o.width))
  have hg := sgn_sq o
  dsimp only
  have hab : (-(sgn o) * a) * (-(sgn o) * a) +
      (if height then sgn o * b else 0) * (if height then sgn o * b else 0) ≤ 1 := by
    cases height
    · simp only [Bool.false_eq_true, if_false]
      nlinarith [mul_self_nonneg b]
    · simp only [if_true]
      calc _ = (sgn o * sgn o) * (a * a + b * b) := by ring
        _ ≤ 1 := by rw [hg, one_mul]; exact h1
  generalize (if height then sgn o * b else 0) = y at *
  generalize (-(sgn o) * a) = x at *
  generalize Real.sin (rad (opening o.width)) = s at *
  generalize Real.cos (rad (opening o.width)) = c at *
  have hq : 0 ≤ z + c / s := add_nonneg h2 (div_nonneg hc hs.le)
  have hqs : s * (z + c / s) = s * z + c := by field_simp
  generalize z + c / s = q at *
  generalize hL : Real.sqrt (x * x + y * y + q * q) = L
  have hLn : 0 ≤ L := hL ▸ Real.sqrt_nonneg _
  have hLL : L * L = x * x + y * y + q * q := by
    rw [← hL]
    exact Real.mul_self_sqrt (by nlinarith [mul_self_nonneg x, mul_self_nonneg y, mul_self_nonneg q])
  rcases eq_or_lt_of_le hLn with h0 | h0
  · rw [← h0]; simp
  · have e : x / L * (x / L) + y / L * (y / L) + q / L * (q / L) = 1 := by
      have : L * L ≠ 0 := (mul_pos h0 h0).ne'
      field_simp
      nlinarith
    rw [e, Real.sqrt_one, mul_one, mul_zero, mul_zero, zero_add, zero_add, mul_one, le_div_iff₀ h0]
    refine abs_le_of_sq_le_sq' ?_ hq |>.2
    have m : c ^ 2 * (x * x + y * y) ≤ (s * q) ^ 2 := by
      rw [hqs]
      have : c ^ 2 ≤ (s * z + c) ^ 2 := by nlinarith [mul_nonneg hs.le h2]
      nlinarith [sq_nonneg c]
    have : (c * L) ^ 2 = c ^ 2 * (x * x + y * y) + c ^ 2 * q ^ 2 := by
      rw [mul_pow, pow_two L, hLL]; ring
    rw [this]
    nlinarith

/-- C316: two directions are exactly that far away, to the left and to the right. -/
theorem C316_edge (height : Bool) (o : Obj) : ∃ d ∈ dirs height o, ∃ e ∈ dirs height o,
    size d = 1 ∧ dot d (ahead o) = Real.cos (rad (opening o.width)) ∧
    dot d (side o) = Real.sin (rad (opening o.width)) ∧
    size e = 1 ∧ dot e (ahead o) = Real.cos (rad (opening o.width)) ∧
    dot e (side o) = -Real.sin (rad (opening o.width)) := by
  have hs := sin_opening o.width
  have sc := Real.sin_sq_add_cos_sq (rad (opening o.width))
  have key : ∀ g : ℝ, g * g = 1 →
      (vec o g 0 0 = vec o g 0 0) ∧
      shift (opening o.width) (ahead o) (vec o g 0 0) =
        vec o (g * Real.sin (rad (opening o.width))) 0 (Real.cos (rad (opening o.width))) := by
    intro g hg
    refine ⟨rfl, ?_⟩
    rw [shift_vec, cot]
    generalize Real.sin (rad (opening o.width)) = s at *
    generalize Real.cos (rad (opening o.width)) = c at *
    have : Real.sqrt (g * g + 0 * 0 + (0 + c / s) * (0 + c / s)) = 1 / s := by
      rw [show g * g + 0 * 0 + (0 + c / s) * (0 + c / s) = (1 / s) * (1 / s) by
        rw [hg]; field_simp; linarith]
      exact Real.sqrt_mul_self (by positivity)
    rw [this]
    congr 1 <;> field_simp <;> try ring
  have hin : ∀ g : ℝ, g * g = 1 → vec o (g * Real.sin (rad (opening o.width))) 0
      (Real.cos (rad (opening o.width))) ∈ dirs height o := by
    intro g hg
    rw [mem_dirs]
    have hsg := sgn_sq o
    refine ⟨(-(sgn o) * g, 0, 0), ?_, ?_⟩
    · have : -(sgn o) * g = 1 ∨ -(sgn o) * g = -1 := by
        rcases mul_self_eq_one_iff.mp hsg with h | h <;> rcases mul_self_eq_one_iff.mp hg with h' | h' <;>
          rw [h, h'] <;> norm_num
      rcases this with h | h <;> rw [h] <;> simp [parts]
    · rw [← (key g hg).2]
      congr 2
      · linear_combination (-g) * hsg
      · cases height <;> simp
  refine ⟨_, hin 1 (by norm_num), _, hin (-1) (by norm_num), ?_⟩
  simp only [size_vec, side_vec, ahead_vec, dot_vec]
  have h1 : ∀ g : ℝ, g * g = 1 → g * Real.sin (rad (opening o.width)) * (g * Real.sin (rad (opening o.width))) +
      0 * 0 + Real.cos (rad (opening o.width)) * Real.cos (rad (opening o.width)) = 1 := by
    intro g hg
    linear_combination (Real.sin (rad (opening o.width))) ^ 2 * hg + sc
  rw [h1 1 (by norm_num), h1 (-1) (by norm_num)]
  exact ⟨Real.sqrt_one, by ring, by ring, Real.sqrt_one, by ring, by ring⟩

/-- C317: without loudspeakers in height no direction leaves the plane through the object and the
sideways direction. -/
theorem C317_level (o : Obj) (d : Cart) (h : d ∈ dirs false o) : dot d (upright o) = 0 := by
  obtain ⟨k, _, rfl⟩ := mem_dirs.mp h
  rw [shift_vec, upright_vec, dot_vec]
  simp

/-- C317: with loudspeakers in height there are directions above and below that plane. -/
theorem C317_height (o : Obj) : (∃ d ∈ dirs true o, 0 < dot d (upright o)) ∧
    ∃ d ∈ dirs true o, dot d (upright o) < 0 := by
  have hsg := sgn_sq o
  have key : ∀ y : ℝ, (y = 1 ∨ y = -1) → ∃ d ∈ dirs true o, ∃ L : ℝ, 0 < L ∧
      dot d (upright o) = y * (866 / 1000) / L := by
    intro y hy
    refine ⟨_, mem_dirs.mpr ⟨(1 / 2, sgn o * y * (866 / 1000), 333 / 1000), ?_, rfl⟩, ?_⟩
    · rcases mul_self_eq_one_iff.mp hsg with h | h <;> rcases hy with h' | h' <;>
        rw [h, h'] <;> norm_num [parts]
    · rw [shift_vec, upright_vec]
      dsimp only
      rw [if_pos rfl, dot_vec]
      generalize 333 / 1000 + 1 / Real.tan (rad (opening o.width)) = q
      have e : sgn o * (sgn o * y * (866 / 1000)) = y * (866 / 1000) := by
        linear_combination (y * (866 / 1000)) * hsg
      rw [e]
      refine ⟨_, ?_, by rw [mul_zero, mul_zero, mul_one, zero_add, add_zero]⟩
      have hy2 : y * y = 1 := by rcases hy with h | h <;> rw [h] <;> norm_num
      apply Real.sqrt_pos.mpr
      nlinarith [mul_self_nonneg q, mul_self_nonneg (-(sgn o) * (1 / 2))]
  constructor
  · obtain ⟨d, hd, L, hL, e⟩ := key 1 (Or.inl rfl)
    exact ⟨d, hd, by rw [e]; positivity⟩
  · obtain ⟨d, hd, L, hL, e⟩ := key (-1) (Or.inr rfl)
    refine ⟨d, hd, ?_⟩
    rw [e, show (-1 : ℝ) * (866 / 1000) / L = -(866 / 1000 / L) by ring]
    exact neg_lt_zero.mpr (by positivity)

/-- C317: the mirror image of every direction is one, too. -/
theorem C317_mirror (height : Bool) (o : Obj) (d : Cart) (h : d ∈ dirs height o) :
    mirror o d ∈ dirs height o := by
  obtain ⟨k, hk, rfl⟩ := mem_dirs.mp h
  refine mem_dirs.mpr ⟨_, parts_mirror hk, ?_⟩
  have m : ∀ x y z : ℝ, mirror o (vec o x y z) = vec o (-x) y z := by
    intro x y z
    have e : dot (vec o x y z) (side o) = x := by rw [side_vec, dot_vec]; ring
    rw [mirror, e]
    simp only [vec, lin, Cart.mk.injEq]
    exact ⟨by ring, by ring, by ring⟩
  rw [shift_vec, m, shift_vec]
  dsimp only
  rw [show -(sgn o) * -k.1 = -(-(sgn o) * k.1) by ring]
  generalize -(sgn o) * k.1 = x
  rw [neg_mul_neg, neg_div]

/-! ## The gains -/

theorem alpha_eq (w : ℝ) : spreadAlpha w = blend w := by
  have hp := Real.pi_ne_zero
  have e : rad w / (Real.pi / 2) - 1 = (w - 90) / 90 := by
    simp only [rad]
    field_simp
    ring
  simp only [spreadAlpha, e, blend]
  generalize (w - 90) / 90 = x
  split_ifs with h h'
  · rw [min_eq_left h.le, max_eq_right zero_le_one]
  · rw [min_eq_right (not_lt.mp h), max_eq_left h'.le]
  · rw [min_eq_right (not_lt.mp h), max_eq_right (not_lt.mp h')]

/-- The sum of the gains of all directions. -/
noncomputable def sums (s : Geo) (o : Obj) : Nat → ℝ :=
  (dirs s.height o).foldl (fun ls d => source s d ls) fun _ => 0

/-- C318: the gains of a spread object are those of its directions, blended with those of all
loudspeakers. -/
theorem C318_blend (s : Geo) (o : Obj) (hw : 0 < o.width) (g : Nat → ℝ) (h : vbap s o = some g) :
    ∃ k > 0, ∀ i < s.nAll, g i = k * ((1 - blend o.width) *
      (sums s o i / Real.sqrt (∑ j ∈ range s.nAll, sums s o j * sums s o j)) +
        blend o.width / Real.sqrt s.nAll) := by
  have hn : ¬ (o.width ≤ 0 ∧ o.tall ≤ 0) := fun h => absurd h.1 (not_le.mpr hw)
  simp only [vbap, if_neg hn] at h
  rw [← dirs, ← sums] at h
  simp only [spreadGains] at h
  split_ifs at h with h0
  · simp at h
  · simp only [Option.bind_some, normed] at h
    split_ifs at h with h1
    refine ⟨_, one_div_pos.mpr (lt_of_le_of_ne (Real.sqrt_nonneg _) (Ne.symm h1)), fun i hi => ?_⟩
    rw [← Option.some.inj h]
    simp only [if_pos hi, alpha_eq]
    ring

/-- C318: up to 90 degrees only the directions matter. -/
theorem C318_narrow (w : ℝ) (h : w ≤ 90) : blend w = 0 := by
  rw [blend, max_eq_left]
  exact (min_le_right _ _).trans (by linarith)

theorem blend_wide (w : ℝ) (h : 180 ≤ w) : blend w = 1 := by
  rw [blend, min_eq_left (by linarith), max_eq_right zero_le_one]

/-- C318: from 180 degrees on all loudspeakers have the same gain. -/
theorem C318_wide (s : Geo) (o : Obj) (hw : 180 ≤ o.width) (g : Nat → ℝ) (h : vbap s o = some g) :
    ∀ i < s.nAll, g i = 1 / Real.sqrt s.nAll := by
  obtain ⟨k, hk, e⟩ := C318_blend s o (by linarith) g h
  rw [blend_wide _ hw] at e
  have e' : ∀ i < s.nAll, g i = k * (1 / Real.sqrt s.nAll) := by
    intro i hi
    rw [e i hi]; ring
  intro i hi
  have u := C290_unit s o g h
  have hn : (0 : ℝ) < s.nAll := by exact_mod_cast (Nat.zero_le i).trans_lt hi
  have hq : Real.sqrt s.nAll * Real.sqrt s.nAll = s.nAll := Real.mul_self_sqrt hn.le
  have hq0 : 0 < Real.sqrt s.nAll := Real.sqrt_pos.mpr hn
  have hk1 : k = 1 := by
    rw [Finset.sum_congr rfl fun j hj => by rw [e' j (Finset.mem_range.mp hj)],
      Finset.sum_const, Finset.card_range, nsmul_eq_mul] at u
    have : k * k = 1 := by
      calc k * k = Real.sqrt s.nAll * Real.sqrt s.nAll * (k * (1 / Real.sqrt s.nAll) * (k * (1 / Real.sqrt s.nAll))) := by
            field_simp
        _ = 1 := by rw [hq, u]
    nlinarith
  rw [e' i hi, hk1, one_mul]

/-- C318: objects of 180 degrees and more of the same gain sound alike wherever they are. -/
theorem C318_same (s : Geo) (o o' : Obj) (hw : 180 ≤ o.width) (hw' : 180 ≤ o'.width)
    (hg : o.gain = o'.gain) (g g' : Nat → ℝ) (h : finalGains s o = some g)
    (h' : finalGains s o' = some g') : ∀ i, g i = g' i := by
  obtain ⟨ls, hl, e⟩ := Option.map_eq_some_iff.mp h
  obtain ⟨ls', hl', e'⟩ := Option.map_eq_some_iff.mp h'
  have hm : ∀ i, mixed s ls i = mixed s ls' i := by
    intro i
    refine Finset.sum_congr rfl fun j hj => ?_
    rw [C318_wide s o hw ls hl j (Finset.mem_range.mp hj),
      C318_wide s o' hw' ls' hl' j (Finset.mem_range.mp hj)]
  have hs : gainSum s ls = gainSum s ls' := by
    simp only [gainSum, hm]
  intro i
  rw [← e, ← e']
  simp only [hs, hm, hg]

/-! ## Examples -/

/-- An object of 60 degrees to the left. -/
noncomputable def left : Obj := ⟨30, 0, 1, 1, 60, 0, 0⟩

/-- It meets the hypothesis of C316, and its opening is its width. -/
example : 0 ≤ left.radius ∧ opening left.width = 60 := by
  refine ⟨by norm_num [left], ?_⟩
  norm_num [left, opening]

/-- An object of 180 degrees whose gains are numbers (hypotheses of C318). -/
example : ∃ g, vbap front { wide with width := 180 } = some g := by
  have e : sums front { wide with width := 180 } = sums front wide := by
    have h1 : limitSpread 180 = limitSpread 90 := by norm_num [limitSpread]
    simp only [sums, dirs, spreadVecs, wide, h1]
  have hw : vbap front wide ≠ none := by
    intro h
    exact wide_some (by simp only [finalGains, h, Option.map_none])
  have h0 : Real.sqrt (∑ i ∈ range front.nAll, sums front wide i * sums front wide i) ≠ 0 := by
    intro h0
    apply hw
    have n2 : ¬ (wide.width ≤ 0 ∧ wide.tall ≤ 0) := by simp [wide]
    simp only [vbap, if_neg n2]
    rw [← dirs, ← sums]
    simp only [spreadGains, if_pos h0, Option.bind_none]
  have n2 : ¬ ((180 : ℝ) ≤ 0 ∧ wide.tall ≤ 0) := by norm_num
  simp only [vbap, if_neg n2]
  have e2 := e
  simp only [sums, dirs] at e2
  rw [e2, ← dirs, ← sums]
  simp only [spreadGains, if_neg h0, Option.bind_some, normed, alpha_eq, blend_wide 180 le_rfl]
  rw [if_neg]
  · exact ⟨_, rfl⟩
  · simp [front]

/-- An object of 135 degrees is half blended. -/
example : blend 135 = 1 / 2 := by
  norm_num [blend]

end Verif.ObjRen
