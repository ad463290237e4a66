import Verif.Model.Displace
import Mathlib.Tactic.Linarith
import Mathlib.Tactic.LinearCombination
import Mathlib.Tactic.Ring
import Mathlib.Tactic.Set
import Mathlib.Tactic.FieldSimp

/-! # Scene displacement -/

namespace Verif.Displace

/-- Squared distance to the origin. -/
def normSq (c : Cart) : ℝ := c.x ^ 2 + c.y ^ 2 + c.z ^ 2

/-- The first half of claim C48: the rotation keeps the distance of the object to the origin. -/
def KeepsDistance : Prop := ∀ c d, normSq (rotate c d) = normSq c

/-- The second half: different objects are not moved to the same place. -/
def KeepsApart : Prop := ∀ c c' d, rotate c d = rotate c' d → c = c'

/-- **C48, refuted.** The position of the object is never looked at. -/
theorem C48_refuted : ¬ KeepsApart := by
  intro h
  have := h ⟨0, 0, 0⟩ ⟨1, 0, 0⟩ ⟨0, 0, 0, 0, 0, 0⟩ rfl
  rw [Cart.mk.injEq] at this
  exact absurd this.1 (by norm_num)

theorem polCart_normSq (p : Polar) : normSq (polCart p) = p.radius ^ 2 := by
  unfold normSq polCart
  simp only
  linear_combination p.radius ^ 2 * Real.sin_sq_add_cos_sq p.phi +
    p.radius ^ 2 * Real.cos p.phi ^ 2 * Real.sin_sq_add_cos_sq p.theta

/-- Multiplication by a matrix. -/
def app (m : Mat) (v : Cart) : Cart :=
  ⟨m 0 0 * v.x + m 0 1 * v.y + m 0 2 * v.z, m 1 0 * v.x + m 1 1 * v.y + m 1 2 * v.z,
    m 2 0 * v.x + m 2 1 * v.y + m 2 2 * v.z⟩

theorem app_mul (a b : Mat) (v : Cart) : app (mul a b) v = app a (app b v) := by
  unfold app mul
  simp only [Cart.mk.injEq]
  refine ⟨?_, ?_, ?_⟩ <;> ring

theorem app_rot1 (t : ℝ) (v : Cart) : normSq (app (rot1 t) v) = normSq v := by
  unfold normSq app rot1
  simp
  linear_combination (v.x ^ 2 + v.y ^ 2) * Real.sin_sq_add_cos_sq (rad t)

theorem app_rot2 (t : ℝ) (v : Cart) : normSq (app (rot2 t) v) = normSq v := by
  unfold normSq app rot2
  simp
  linear_combination (v.z ^ 2 + v.y ^ 2) * Real.sin_sq_add_cos_sq (rad t)

theorem app_rot3 (t : ℝ) (v : Cart) : normSq (app (rot3 t) v) = normSq v := by
  unfold normSq app rot3
  simp
  linear_combination (v.x ^ 2 + v.z ^ 2) * Real.sin_sq_add_cos_sq (rad t)

/-- **C48, partial.** The matrix itself is a rotation: the result is at twice the distance given in the
displacement data, for all angles. Missing: it is not applied to the object. -/
theorem C48_rotation_partial (c : Cart) (d : Disp) : normSq (rotate c d) = (2 * d.radius) ^ 2 := by
  have h : rotate c d = app (mul (mul (rot1 d.yaw) (rot2 d.pitch)) (rot3 d.roll))
      ⟨(dispPos d).x + (dispPos d).x, (dispPos d).y + (dispPos d).y, (dispPos d).z + (dispPos d).z⟩ := rfl
  rw [h, app_mul, app_mul, app_rot1, app_rot2, app_rot3]
  have := polCart_normSq ⟨rad (d.az + 90), rad (90 - d.el), d.radius⟩
  unfold normSq at this ⊢
  simp only [dispPos] at this ⊢
  linear_combination 4 * this

/-- **C48, refuted.** The distance to the origin is not kept either. -/
theorem C48_distance_refuted : ¬ KeepsDistance := by
  intro h
  have := h ⟨0, 0, 0⟩ ⟨0, 0, 0, 0, 0, 1⟩
  rw [C48_rotation_partial] at this
  unfold normSq at this
  norm_num at this

/-! ## C82: polar and Cartesian coordinates -/

/-- The claim C82, for positions off the vertical axis. -/
def Inverse : Prop :=
  ∀ p : Polar, 0 < p.radius → -(Real.pi / 2) < p.phi → p.phi < Real.pi / 2 → -Real.pi < p.theta → p.theta ≤ Real.pi →
    ∀ old, cartPol (polCart p) old = p

/-- **C82, refuted.** The angle `theta` is left as it was. -/
theorem C82_refuted : ¬ Inverse := by
  intro h
  have hp := Real.pi_pos
  have h1 := h ⟨0, 0, 1⟩ (by norm_num) (by simp; linarith) (by simp; linarith) (by simp; linarith)
    (by simp; linarith) ⟨1, 0, 0⟩
  have h2 : cartPol (polCart ⟨0, 0, 1⟩) ⟨1, 0, 0⟩ = ⟨1, 0, 1⟩ := by
    unfold cartPol polCart
    simp
  rw [h2, Polar.mk.injEq] at h1
  exact absurd h1.1 (by norm_num)

/-- A second reason, even when the output structure already holds the right azimuth: the elevation is
overwritten with the azimuth. -/
theorem C82_elevation_refuted : ∃ p : Polar, 0 < p.radius ∧ -(Real.pi / 2) < p.phi ∧ p.phi < Real.pi / 2 ∧
    cartPol (polCart p) p ≠ p := by
  have hp := Real.pi_pos
  refine ⟨⟨0, Real.pi / 4, 1⟩, by norm_num, by simp; linarith, by simp; linarith, ?_⟩
  intro h
  have hphi := congrArg Polar.phi h
  have hs : (0 : ℝ) < Real.sqrt 2 := Real.sqrt_pos.mpr (by norm_num)
  unfold cartPol polCart at hphi
  have hc : (0 : ℝ) < Real.cos (Real.pi / 4) := by rw [Real.cos_pi_div_four]; positivity
  have hlen : Real.sqrt (Real.cos (Real.pi / 4) * Real.cos (Real.pi / 4) +
      (0 + Real.sin (Real.pi / 4) * Real.sin (Real.pi / 4))) = 1 := by
    rw [show Real.cos (Real.pi / 4) * Real.cos (Real.pi / 4) + (0 + Real.sin (Real.pi / 4) * Real.sin (Real.pi / 4)) = 1 by
      linear_combination Real.sin_sq_add_cos_sq (Real.pi / 4)]
    exact Real.sqrt_one
  have hproj : Real.sqrt (Real.cos (Real.pi / 4) * Real.cos (Real.pi / 4) + 0) = Real.cos (Real.pi / 4) := by
    rw [add_zero, Real.sqrt_mul_self hc.le]
  simp only [Real.cos_zero, Real.sin_zero, mul_zero, zero_mul, one_mul, hlen, hproj, ne_eq, one_ne_zero,
    not_false_iff, if_true, hc.ne', div_self] at hphi
  rw [Real.arccos_one] at hphi
  linarith

/-- **C82, partial.** The distance is recovered, and the conversion never leaves the range of the
angles. Missing: both angles. -/
theorem C82_radius_partial (p : Polar) (h : 0 < p.radius) (old : Polar) :
    (cartPol (polCart p) old).radius = p.radius ∧ 0 ≤ (cartPol (polCart p) old).phi ∧
      (cartPol (polCart p) old).phi ≤ Real.pi := by
  have hn := polCart_normSq p
  have hlen : Real.sqrt ((polCart p).x * (polCart p).x + ((polCart p).y * (polCart p).y +
      (polCart p).z * (polCart p).z)) = p.radius := by
    rw [show (polCart p).x * (polCart p).x + ((polCart p).y * (polCart p).y + (polCart p).z * (polCart p).z) =
      p.radius ^ 2 by unfold normSq at hn; linarith]
    exact Real.sqrt_sq h.le
  unfold cartPol
  simp only [hlen, ne_eq, h.ne', not_false_iff, if_true, true_and]
  split
  · exact ⟨Real.arccos_nonneg _, Real.arccos_le_pi _⟩
  · exact ⟨Real.arccos_nonneg _, Real.arccos_le_pi _⟩

example : (0 : ℝ) < (Polar.mk 1 2 3).radius := by norm_num

/-! ## C83: no displacement -/

/-- The claim C83: with a zero displacement every object stays where it is. -/
def ZeroKeeps : Prop :=
  ∀ p : Polar, -180 ≤ p.theta → p.theta ≤ 180 → -90 ≤ p.phi → p.phi ≤ 90 → 0 < p.radius →
    displace p ⟨0, 0, 0, 0, 0, 0⟩ = p

theorem cartPol_zero (c : Cart) (h : normSq c = 0) (old : Polar) : cartPol c old = ⟨0, 0, 0⟩ := by
  unfold cartPol
  simp only
  rw [if_neg]
  rw [show c.x * c.x + (c.y * c.y + c.z * c.z) = 0 by unfold normSq at h; linarith]
  simp

/-- **C83, refuted.** Every object moves to azimuth 90°, elevation 90° and distance 0. -/
theorem C83_all_moved (p : Polar) (d : Disp) (hd : d.radius = 0) : displace p d = ⟨90, 90, 0⟩ := by
  unfold displace
  simp only
  rw [cartPol_zero _ (by rw [C48_rotation_partial, hd]; norm_num)]
  simp only [deg, mul_zero, add_zero, sub_zero]
  norm_num

theorem C83_refuted : ¬ ZeroKeeps := by
  intro h
  have := h ⟨0, 0, 1⟩ (by norm_num) (by norm_num) (by norm_num) (by norm_num) (by norm_num)
  rw [C83_all_moved _ _ rfl, Polar.mk.injEq] at this
  exact absurd this.1 (by norm_num)

theorem deg_rad (x : ℝ) : deg (rad x) = x := by
  have := Real.pi_ne_zero
  unfold deg rad
  field_simp

theorem deg_range (x : ℝ) (h0 : 0 ≤ x) (h : x ≤ Real.pi) : 0 ≤ deg x ∧ deg x ≤ 180 := by
  have hp := Real.pi_pos
  unfold deg
  constructor
  · positivity
  · rw [div_mul_eq_mul_div, div_le_iff₀ hp]
    linarith

/-- **C83, partial.** For a displacement with a distance, the new position is within ±180°, ±90°, at twice
that distance; the azimuth is the old one turned by 180°. Missing: it does not depend on the
displacement angles in the way the claim wants. -/
theorem C83_range_partial (p : Polar) (h1 : -180 ≤ p.theta) (h2 : p.theta ≤ 180) (d : Disp) (hd : 0 < d.radius)
    (q : Polar) (hq : q = displace p d) :
    -180 ≤ q.theta ∧ q.theta ≤ 180 ∧ -90 ≤ q.phi ∧ q.phi ≤ 90 ∧ q.radius = 2 * d.radius ∧
      (q.theta = p.theta + 180 ∨ q.theta = p.theta - 180) := by
  set pp : Polar := ⟨rad (90 + p.theta), rad (90 - p.phi), p.radius⟩ with hpp
  set c := rotate (polCart pp) d with hc
  have hn := C48_rotation_partial (polCart pp) d
  rw [← hc] at hn
  have hlen : Real.sqrt (c.x * c.x + (c.y * c.y + c.z * c.z)) = 2 * d.radius := by
    rw [show c.x * c.x + (c.y * c.y + c.z * c.z) = (2 * d.radius) ^ 2 by unfold normSq at hn; linarith]
    exact Real.sqrt_sq (by linarith)
  have hr : cartPol c pp = ⟨pp.theta, (cartPol c pp).phi, 2 * d.radius⟩ := by
    unfold cartPol
    simp only [hlen]
    rw [if_pos (by linarith)]
  have hphi : 0 ≤ (cartPol c pp).phi ∧ (cartPol c pp).phi ≤ Real.pi := by
    unfold cartPol
    simp only [hlen]
    rw [if_pos (by linarith)]
    simp only
    split
    · exact ⟨Real.arccos_nonneg _, Real.arccos_le_pi _⟩
    · exact ⟨Real.arccos_nonneg _, Real.arccos_le_pi _⟩
  obtain ⟨r1, r2⟩ := deg_range _ hphi.1 hphi.2
  have hth : (cartPol c pp).theta = rad (90 + p.theta) := by rw [hr]
  have hrad : (cartPol c pp).radius = 2 * d.radius := by rw [hr]
  have e1 : 90 - deg (cartPol c pp).phi ≤ 90 := by linarith
  have e2 : -90 ≤ 90 - deg (cartPol c pp).phi := by linarith
  unfold displace at hq
  simp only [← hpp, ← hc, hth, deg_rad, hrad] at hq
  rw [if_neg (show ¬ 90 - deg (cartPol c pp).phi > 90 by linarith),
    if_neg (show ¬ 90 - deg (cartPol c pp).phi < -90 by linarith)] at hq
  rw [hq]
  simp only
  refine ⟨?_, ?_, e2, e1, trivial, ?_⟩
  · split <;> split <;> linarith
  · split <;> split <;> linarith
  · by_cases hc1 : 90 + (90 + p.theta) > 180
    · rw [if_pos hc1, if_neg (by linarith)]; right; ring
    · rw [if_neg hc1, if_neg (by linarith)]; left; ring

example : -180 ≤ (Polar.mk 30 10 5).theta ∧ (Polar.mk 30 10 5).theta ≤ 180 ∧ 0 < (Disp.mk 1 2 3 4 5 6).radius := by
  norm_num

end Verif.Displace
