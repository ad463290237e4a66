import Mathlib.Analysis.Real.Pi.Bounds
import Mathlib.Tactic.Linarith
import Verif.Model.HoaPos

/-!
# Positions of loudspeakers in the HOA renderer
-/

namespace Verif.Props.HoaPos

open Verif Verif.HoaPos

/-! ## Specification -/

/-- Distance `r`, inclination `t` and azimuth `f` are those of the point `(x, y, z)`. -/
structure Same (p q : ℝ × ℝ × ℝ) : Prop where
  x : q.1 = p.1 * Real.sin p.2.1 * Real.cos p.2.2
  y : q.2.1 = p.1 * Real.sin p.2.1 * Real.sin p.2.2
  z : q.2.2 = p.1 * Real.cos p.2.1

/-- Distance, inclination and azimuth in their ranges. -/
structure Range (p : ℝ × ℝ × ℝ) : Prop where
  r : 0 ≤ p.1
  t0 : 0 ≤ p.2.1
  t1 : p.2.1 ≤ Real.pi
  f0 : -Real.pi < p.2.2
  f1 : p.2.2 ≤ Real.pi

/-! ## Conversions -/

theorem atan2_polar (r t : ℝ) (hr : 0 < r) (h0 : -Real.pi < t) (h1 : t ≤ Real.pi) :
    atan2 (r * Real.sin t) (r * Real.cos t) = t := by
  unfold atan2
  have e : (⟨r * Real.cos t, r * Real.sin t⟩ : ℂ) =
      (r : ℂ) * (Complex.cos (t : ℂ) + Complex.sin (t : ℂ) * Complex.I) := by
    apply Complex.ext
    · simp [← Complex.ofReal_cos, ← Complex.ofReal_sin]
    · simp [← Complex.ofReal_cos, ← Complex.ofReal_sin]
  rw [e]
  exact Complex.arg_mul_cos_add_sin_mul_I hr ⟨h0, h1⟩

theorem atan2_range (y x : ℝ) : -Real.pi < atan2 y x ∧ atan2 y x ≤ Real.pi :=
  ⟨Complex.neg_pi_lt_arg _, Complex.arg_le_pi _⟩

theorem polar_atan2 (y x : ℝ) : x = Real.sqrt (x * x + y * y) * Real.cos (atan2 y x) ∧
    y = Real.sqrt (x * x + y * y) * Real.sin (atan2 y x) := by
  have hn : ‖(⟨x, y⟩ : ℂ)‖ = Real.sqrt (x * x + y * y) := by
    rw [Complex.norm_def, Complex.normSq_mk]
  constructor
  · have := Complex.norm_mul_cos_arg (⟨x, y⟩ : ℂ)
    rw [hn] at this
    exact this.symm
  · have := Complex.norm_mul_sin_arg (⟨x, y⟩ : ℂ)
    rw [hn] at this
    exact this.symm

/-- The result of the conversion is in the ranges. -/
theorem sph1_range (q : ℝ × ℝ × ℝ) : Range (sph1 q) := by
  refine ⟨Real.sqrt_nonneg _, ?_, (atan2_range _ _).2, (atan2_range _ _).1, (atan2_range _ _).2⟩
  exact Complex.arg_nonneg_iff.mpr (Real.sqrt_nonneg _)

/-- The result of the conversion is the same point. -/
theorem sph1_same (q : ℝ × ℝ × ℝ) : Same (sph1 q) q := by
  obtain ⟨x, y, z⟩ := q
  have h1 := polar_atan2 y x
  have h2 := polar_atan2 (Real.sqrt (x * x + y * y)) z
  rw [Real.mul_self_sqrt (by nlinarith [mul_self_nonneg x, mul_self_nonneg y])] at h2
  have e : z * z + (x * x + y * y) = z * z + y * y + x * x := by ring
  rw [e] at h2
  refine ⟨?_, ?_, h2.1⟩
  · show x = Real.sqrt (z * z + y * y + x * x) * Real.sin (atan2 (Real.sqrt (x * x + y * y)) z) *
      Real.cos (atan2 y x)
    rw [← h2.2]
    exact h1.1
  · show y = Real.sqrt (z * z + y * y + x * x) * Real.sin (atan2 (Real.sqrt (x * x + y * y)) z) *
      Real.sin (atan2 y x)
    rw [← h2.2]
    exact h1.2

theorem cart1_same (p : ℝ × ℝ × ℝ) : Same p (cart1 false p) := by
  unfold cart1
  rw [if_pos rfl]
  exact ⟨by simp only; ring, by simp only; ring, by simp only; ring⟩

/-- C351: every point is converted to the same point, in the ranges of the angles. -/
theorem C351_spherical (a b : Pos) (ht : a.type = 2) (h : toSph a = .ok b) :
    b.type = 1 ∧ b.n = a.n ∧ ∀ i < a.n, Same (b.at_ i) (a.at_ i) ∧ Range (b.at_ i) := by
  unfold toSph at h
  rw [if_neg (by omega), if_pos ht] at h
  simp only [Res.ok.injEq] at h
  subst h
  refine ⟨rfl, rfl, fun i hi => ?_⟩
  simp only [if_pos hi]
  exact ⟨sph1_same _, sph1_range _⟩

/-- C351: and back. -/
theorem C351_cartesian (a b : Pos) (ht : a.type = 1) (h : toCart a false = .ok b) :
    b.type = 2 ∧ b.n = a.n ∧ ∀ i < a.n, Same (a.at_ i) (b.at_ i) := by
  unfold toCart at h
  rw [if_neg (by omega), if_pos ht] at h
  simp only [Res.ok.injEq] at h
  subst h
  refine ⟨rfl, rfl, fun i hi => ?_⟩
  simp only [if_pos hi]
  exact cart1_same _

/-- C351: distances and angles come back, except azimuths at the poles and angles of the origin. -/
theorem C351_back (a b c : Pos) (ht : a.type = 1) (h1 : toCart a false = .ok b) (h2 : toSph b = .ok c)
    (i : ℕ) (hi : i < a.n) (hr : Range (a.at_ i)) (h0 : 0 < (a.at_ i).1)
    (hp : (a.at_ i).2.1 ≠ 0 ∧ (a.at_ i).2.1 ≠ Real.pi) : c.at_ i = a.at_ i := by
  obtain ⟨e1, e2, e3⟩ := C351_cartesian a b ht h1
  obtain ⟨-, -, -⟩ := C351_spherical b c e1 h2
  have hs := e3 i hi
  unfold toSph at h2
  rw [if_neg (by omega), if_pos e1] at h2
  simp only [Res.ok.injEq] at h2
  subst h2
  simp only [if_pos (show i < b.n by omega)]
  generalize a.at_ i = p at *
  generalize b.at_ i = q at *
  obtain ⟨r, t, f⟩ := p
  obtain ⟨x, y, z⟩ := q
  obtain ⟨hx, hy, hz⟩ := hs
  obtain ⟨-, t0, t1, f0, f1⟩ := hr
  simp only at *
  have hsin : 0 < Real.sin t := Real.sin_pos_of_pos_of_lt_pi (lt_of_le_of_ne t0 hp.1.symm)
    (lt_of_le_of_ne t1 hp.2)
  have hrs : 0 < r * Real.sin t := mul_pos h0 hsin
  have q1 : x * x + y * y = (r * Real.sin t) ^ 2 := by
    rw [hx, hy]
    have := Real.sin_sq_add_cos_sq f
    linear_combination (r * Real.sin t) ^ 2 * this
  have q2 : z * z + y * y + x * x = r ^ 2 := by
    have e : z * z + y * y + x * x = z * z + (x * x + y * y) := by ring
    rw [e, q1, hz]
    have := Real.sin_sq_add_cos_sq t
    linear_combination r ^ 2 * this
  unfold sph1
  simp only
  rw [q1, q2, Real.sqrt_sq hrs.le, Real.sqrt_sq h0.le, hz, atan2_polar r t h0 (by linarith [Real.pi_pos]) t1,
    hx, hy, atan2_polar _ f hrs f0 f1]

/-! ## Plane waves -/

/-- C352: with the flag for plane waves, distances and angles are converted to points at distance 1 in the
same direction. -/
theorem C352_unit_partial (a b : Pos) (ht : a.type = 1) (h : toCart a true = .ok b) :
    b.type = 2 ∧ b.n = a.n ∧ ∀ i < a.n, Same (1, (a.at_ i).2) (b.at_ i) ∧
      (b.at_ i).1 ^ 2 + (b.at_ i).2.1 ^ 2 + (b.at_ i).2.2 ^ 2 = 1 := by
  unfold toCart at h
  rw [if_neg (by omega), if_pos ht] at h
  simp only [Res.ok.injEq] at h
  subst h
  refine ⟨rfl, rfl, fun i hi => ?_⟩
  simp only [if_pos hi]
  unfold cart1
  rw [if_neg (by simp)]
  refine ⟨⟨by simp only; ring, by simp only; ring, by simp only; ring⟩, ?_⟩
  have h1 := Real.sin_sq_add_cos_sq (a.at_ i).2.1
  have h2 := Real.sin_sq_add_cos_sq (a.at_ i).2.2
  simp only
  linear_combination h1 + Real.sin (a.at_ i).2.1 ^ 2 * h2

/-- C352, refuted: points keep their distance. -/
theorem C352_refuted : ∃ a b : Pos, a.type = 2 ∧ toCart a true = .ok b ∧ 0 < a.n ∧
    (b.at_ 0).1 ^ 2 + (b.at_ 0).2.1 ^ 2 + (b.at_ 0).2.2 ^ 2 = 4 := by
  refine ⟨⟨2, 1, fun _ => (2, 0, 0)⟩, _, rfl, rfl, Nat.one_pos, ?_⟩
  simp [initPos]
  norm_num

/-! ## Layouts in a plane -/

theorem is2dLoop_iff (a : Pos) (m i : ℕ) : is2dLoop a m i = true ↔
    ∀ j, i ≤ j → j < i + m → 1.44862329959869385 ≤ incl a j ∧ incl a j ≤ 1.69296944141387939 := by
  induction m generalizing i with
  | zero => exact ⟨fun _ j _ _ => by omega, fun _ => rfl⟩
  | succ m ih =>
    unfold is2dLoop
    split
    · rename_i h
      constructor
      · intro hc; exact absurd hc (by simp)
      · intro hc
        have := hc i (le_refl _) (by omega)
        rcases h with h | h <;> linarith [this.1, this.2]
    · rename_i h
      push Not at h
      rw [ih]
      constructor
      · intro hc j h1 h2
        by_cases hj : j = i
        · rw [hj]; exact h
        · exact hc j (by omega) (by omega)
      · intro hc j h1 h2
        exact hc j (by omega) (by omega)

/-- The loudspeakers of type 1 with the elevations `e` in degrees. -/
noncomputable def layout (n : ℕ) (e : ℕ → ℝ) : Pos := ⟨1, n, fun i => (2, (90 - e i) * (Real.pi / 180), 0)⟩

/-- C353: layouts up to 6.9999 degrees above and below the plane count as plane, those with a loudspeaker at
7.0001 degrees or more do not. Between them it is a matter of rounding. -/
theorem C353_plane (n : ℕ) (e : ℕ → ℝ) :
    ((∀ i < n, |e i| ≤ 6.9999) → is2d (layout n e) = true) ∧
    ((∃ i < n, 7.0001 ≤ |e i|) → is2d (layout n e) = false) := by
  have p1 := Real.pi_gt_d6
  have p2 := Real.pi_lt_d6
  constructor
  · intro h
    unfold is2d
    rw [is2dLoop_iff]
    intro j _ hj
    obtain ⟨h1, h2⟩ := abs_le.mp (h j (by show j < n; have : j < 0 + n := hj; omega))
    show 1.44862329959869385 ≤ (90 - e j) * (Real.pi / 180) ∧ (90 - e j) * (Real.pi / 180) ≤ 1.69296944141387939
    constructor <;> nlinarith
  · rintro ⟨i, hi, h⟩
    rw [← Bool.not_eq_true]
    unfold is2d
    rw [is2dLoop_iff]
    intro hc
    have := hc i (by omega) (by show i < 0 + n; omega)
    have h3 : 1.44862329959869385 ≤ (90 - e i) * (Real.pi / 180) ∧
      (90 - e i) * (Real.pi / 180) ≤ 1.69296944141387939 := this
    rcases le_abs.mp h with h | h
    · nlinarith [h3.1]
    · nlinarith [h3.2]

/-- C353: positions of both types are judged alike. -/
theorem C353_types (a b : Pos) (ht : a.type = 2) (h : toSph a = .ok b) : is2d b = is2d a := by
  have hb := C351_spherical a b ht h
  rw [Bool.eq_iff_iff]
  unfold is2d
  rw [is2dLoop_iff, is2dLoop_iff, hb.2.1]
  unfold toSph at h
  rw [if_neg (by omega), if_pos ht] at h
  simp only [Res.ok.injEq] at h
  subst h
  have e : ∀ j, j < a.n → incl ⟨1, a.n, fun i => if i < a.n then sph1 (a.at_ i) else (0, 0, 0)⟩ j = incl a j := by
    intro j hj
    unfold incl
    rw [if_neg (by simp), if_pos (by omega)]
    simp only [if_pos hj]
  constructor
  · intro hc j h1 h2
    rw [← e j (by omega)]
    exact hc j h1 h2
  · intro hc j h1 h2
    rw [e j (by omega)]
    exact hc j h1 h2

/-! ## Poles -/

/-- C354: the poles are two more positions, above and below at the distance `r`. -/
theorem C354_poles (a : Pos) (r : ℝ) : (addPoles a r).n = a.n + 2 ∧ (addPoles a r).type = a.type ∧
    (∀ i < a.n, (addPoles a r).at_ i = a.at_ i) ∧
    (a.type = 1 → Same ((addPoles a r).at_ a.n) (0, 0, r) ∧ Same ((addPoles a r).at_ (a.n + 1)) (0, 0, -r)) ∧
    (a.type = 2 → (addPoles a r).at_ a.n = (0, 0, r) ∧ (addPoles a r).at_ (a.n + 1) = (0, 0, -r)) := by
  refine ⟨rfl, rfl, fun i hi => ?_, fun h => ?_, fun h => ?_⟩
  · unfold addPoles
    simp only
    rw [if_neg (by omega), if_neg (by omega)]
  · unfold addPoles
    simp only [h, if_true, ne_eq, not_true_eq_false, if_false, Nat.succ_ne_self]
    exact ⟨⟨by simp, by simp, by simp⟩, ⟨by simp, by simp, by simp⟩⟩
  · unfold addPoles
    simp [h]

/-- C354: after that the layout is not in a plane. -/
theorem C354_solid (a : Pos) (r : ℝ) (hr : 0 < r) : is2d (addPoles a r) = false := by
  rw [← Bool.not_eq_true]
  unfold is2d
  rw [is2dLoop_iff]
  intro hc
  have h := (hc a.n (by omega) (by show a.n < 0 + (a.n + 2); omega)).1
  have e : incl (addPoles a r) a.n = 0 := by
    unfold incl addPoles
    by_cases ht : a.type = 1
    · simp [ht]
    · simp only [ht, ne_eq, not_false_eq_true, if_true]
      unfold sph1
      simp only [mul_zero, add_zero, Real.sqrt_zero]
      have := atan2_polar r 0 hr (by linarith [Real.pi_pos]) Real.pi_pos.le
      simpa using this
  rw [e] at h
  norm_num at h

/-! ## Largest and smallest -/

theorem maxMinLoop_spec (a : Pos) (m : ℕ) (hr : ∀ i < m, 0 ≤ incl a i ∧ incl a i ≤ Real.pi) :
    (∀ i < m, incl a i ≤ (maxMinLoop a m).1 ∧ (maxMinLoop a m).2 ≤ incl a i) ∧
      (0 < m → (∃ i < m, incl a i = (maxMinLoop a m).1) ∧ ∃ i < m, incl a i = (maxMinLoop a m).2) := by
  induction m with
  | zero => exact ⟨fun i hi => by omega, fun h => by omega⟩
  | succ m ih =>
    obtain ⟨h1, h2⟩ := ih fun i hi => hr i (by omega)
    simp only [maxMinLoop]
    refine ⟨fun i hi => ?_, fun _ => ?_⟩
    · by_cases hm : i = m
      · rw [hm]; exact ⟨le_max_left _ _, min_le_left _ _⟩
      · obtain ⟨a1, a2⟩ := h1 i (by omega)
        exact ⟨a1.trans (le_max_right _ _), (min_le_right _ _).trans a2⟩
    · by_cases hm : m = 0
      · subst hm
        have := hr 0 (by omega)
        exact ⟨⟨0, by omega, by simp only [maxMinLoop]; exact (max_eq_left this.1).symm⟩,
          ⟨0, by omega, by simp only [maxMinLoop]; exact (min_eq_left this.2).symm⟩⟩
      · obtain ⟨⟨i, hi, ei⟩, ⟨j, hj, ej⟩⟩ := h2 (by omega)
        constructor
        · rcases le_total (incl a m) (maxMinLoop a m).1 with h | h
          · exact ⟨i, by omega, by rw [max_eq_right h]; exact ei⟩
          · exact ⟨m, by omega, by rw [max_eq_left h]⟩
        · rcases le_total (incl a m) (maxMinLoop a m).2 with h | h
          · exact ⟨m, by omega, by rw [min_eq_left h]⟩
          · exact ⟨j, by omega, by rw [min_eq_right h]; exact ej⟩

/-- C355: the largest and the smallest inclination are those of loudspeakers. -/
theorem C355_inclinations (a : Pos) (ht : a.type = 1) (hn : 0 < a.n) (hr : ∀ i < a.n, Range (a.at_ i)) :
    IsGreatest {t | ∃ i < a.n, t = (a.at_ i).2.1} (maxMin a).1 ∧
      IsLeast {t | ∃ i < a.n, t = (a.at_ i).2.1} (maxMin a).2 := by
  have e : ∀ i, incl a i = (a.at_ i).2.1 := by
    intro i
    unfold incl
    rw [if_neg (by simp [ht])]
  obtain ⟨h1, h2⟩ := maxMinLoop_spec a a.n fun i hi => by rw [e]; exact ⟨(hr i hi).t0, (hr i hi).t1⟩
  obtain ⟨⟨i, hi, ei⟩, ⟨j, hj, ej⟩⟩ := h2 hn
  refine ⟨⟨⟨i, hi, ?_⟩, ?_⟩, ⟨⟨j, hj, ?_⟩, ?_⟩⟩
  · rw [← e]; exact ei.symm
  · rintro t ⟨k, hk, rfl⟩; rw [← e]; exact (h1 k hk).1
  · rw [← e]; exact ej.symm
  · rintro t ⟨k, hk, rfl⟩; rw [← e]; exact (h1 k hk).2

theorem maxMinLoop_congr (a b : Pos) (m : ℕ) (h : ∀ i < m, incl b i = incl a i) : maxMinLoop b m = maxMinLoop a m := by
  induction m with
  | zero => rfl
  | succ m ih => simp only [maxMinLoop, ih fun i hi => h i (by omega), h m (by omega)]

/-- C355: they are the same for positions of both types. -/
theorem C355_types (a b : Pos) (ht : a.type = 2) (h : toSph a = .ok b) : maxMin b = maxMin a := by
  unfold maxMin
  rw [(C351_spherical a b ht h).2.1]
  unfold toSph at h
  rw [if_neg (by omega), if_pos ht] at h
  simp only [Res.ok.injEq] at h
  subst h
  refine maxMinLoop_congr _ _ _ fun j hj => ?_
  unfold incl
  rw [if_neg (by simp), if_pos (by omega)]
  simp only [if_pos hj]

theorem maxDistLoop_spec (a : Pos) (d : ℕ → ℝ) (hd : ∀ i < a.n, 0 ≤ d i)
    (e : ∀ i < a.n, (if a.type ≠ 1 then Real.sqrt ((a.at_ i).2.2 * (a.at_ i).2.2 +
      (a.at_ i).2.1 * (a.at_ i).2.1 + (a.at_ i).1 * (a.at_ i).1) else (a.at_ i).1) = d i) (m : ℕ) (hm : m ≤ a.n) :
    (∀ i < m, d i ≤ maxDistLoop a m) ∧ (0 < m → ∃ i < m, d i = maxDistLoop a m) := by
  induction m with
  | zero => exact ⟨fun i hi => by omega, fun h => by omega⟩
  | succ m ih =>
    obtain ⟨h1, h2⟩ := ih (by omega)
    simp only [maxDistLoop]
    rw [e m (by omega)]
    refine ⟨fun i hi => ?_, fun _ => ?_⟩
    · by_cases hi' : i = m
      · rw [hi']; exact le_max_left _ _
      · exact (h1 i (by omega)).trans (le_max_right _ _)
    · by_cases h0 : m = 0
      · subst h0
        exact ⟨0, by omega, by simp only [maxDistLoop]; exact (max_eq_left (hd 0 (by omega))).symm⟩
      · obtain ⟨i, hi, ei⟩ := h2 (by omega)
        rcases le_total (d m) (maxDistLoop a m) with h | h
        · exact ⟨i, by omega, by rw [max_eq_right h]; exact ei⟩
        · exact ⟨m, by omega, by rw [max_eq_left h]⟩

/-- C355: the largest distance is that of a loudspeaker, for positions of both types. -/
theorem C355_distance (a : Pos) (hn : 0 < a.n) (ht : a.type = 1 ∨ a.type = 2)
    (p : ℕ → ℝ × ℝ × ℝ) (hp : ∀ i < a.n, Range (p i))
    (hs : ∀ i < a.n, (a.type = 1 → a.at_ i = p i) ∧ (a.type = 2 → Same (p i) (a.at_ i))) :
    IsGreatest {r | ∃ i < a.n, r = (p i).1} (maxDist a) := by
  obtain ⟨h1, h2⟩ := maxDistLoop_spec a (fun i => (p i).1) (fun i hi => (hp i hi).r) (by
    intro i hi
    rcases ht with ht | ht
    · rw [if_neg (by simp [ht]), (hs i hi).1 ht]
    · rw [if_pos (by simp [ht])]
      obtain ⟨hx, hy, hz⟩ := (hs i hi).2 ht
      have s1 := Real.sin_sq_add_cos_sq (p i).2.1
      have s2 := Real.sin_sq_add_cos_sq (p i).2.2
      have : (a.at_ i).2.2 * (a.at_ i).2.2 + (a.at_ i).2.1 * (a.at_ i).2.1 + (a.at_ i).1 * (a.at_ i).1 =
          (p i).1 ^ 2 := by
        rw [hx, hy, hz]
        linear_combination (p i).1 ^ 2 * s1 + ((p i).1 * Real.sin (p i).2.1) ^ 2 * s2
      rw [this, Real.sqrt_sq (hp i hi).r]) a.n (le_refl _)
  obtain ⟨i, hi, ei⟩ := h2 hn
  refine ⟨⟨i, hi, ei.symm⟩, ?_⟩
  rintro t ⟨k, hk, rfl⟩
  exact h1 k hk

/-! ## Examples -/

example : toSph ⟨2, 1, fun _ => (1, 2, 3)⟩ = .ok ⟨1, 1, fun i => if i < 1 then sph1 (1, 2, 3) else (0, 0, 0)⟩ := rfl

example : ∃ i < 2, (7.0001 : ℝ) ≤ |(fun i : ℕ => if i = 0 then (0 : ℝ) else 35) i| := ⟨1, by omega, by norm_num⟩

example : Range ((layout 3 fun _ => 30).at_ 1) :=
  ⟨by norm_num [layout], by have := Real.pi_pos; simp only [layout]; linarith,
    by have := Real.pi_pos; simp only [layout]; linarith, by have := Real.pi_pos; simp only [layout]; linarith,
    by have := Real.pi_pos; simp only [layout]; linarith⟩

end Verif.Props.HoaPos
