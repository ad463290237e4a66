import Mathlib.Analysis.SpecialFunctions.Trigonometric.Basic
import Mathlib.Analysis.SpecialFunctions.Trigonometric.Inverse

/-! # Scene displacement: `impeghd_scene_displacement.c`, `impeghd_3d_vec_basic_ops.c`

Single-precision numbers are reals, and `sin`, `cos`, `acos` and the square root are the real ones;
rounding is not modelled. -/

namespace Verif.Displace

/-- `ia_cart_coord_str` -/
structure Cart where
  x : ℝ
  y : ℝ
  z : ℝ

/-- `ia_polar_coord_str` -/
structure Polar where
  theta : ℝ
  phi : ℝ
  radius : ℝ

/-- The fields of `ia_scene_disp_data` that are read, impeghd_ele_interaction_intrfc.h 169-181. -/
structure Disp where
  yaw : ℝ
  pitch : ℝ
  roll : ℝ
  az : ℝ
  el : ℝ
  radius : ℝ

/-- `DEG_2_RAD * x`, impeghd_obj_ren_dec_defines.h 39. -/
noncomputable def rad (x : ℝ) : ℝ := Real.pi / 180 * x

/-- `RAD_2_DEG * x`, impeghd_obj_ren_dec_defines.h 40. -/
noncomputable def deg (x : ℝ) : ℝ := 180 / Real.pi * x

/-- `impeghd_pol_2_cart`, impeghd_3d_vec_basic_ops.c 63-73. -/
noncomputable def polCart (p : Polar) : Cart where
  z := p.radius * Real.sin p.phi
  y := p.radius * Real.sin p.theta * Real.cos p.phi
  x := p.radius * Real.cos p.theta * Real.cos p.phi

/-- `impeghd_cart_2_pol`, impeghd_3d_vec_basic_ops.c 110-129; `old` is what the output structure held
before. The assignment meant for `theta` overwrites `phi`. -/
noncomputable def cartPol (c : Cart) (old : Polar) : Polar :=
  let len := Real.sqrt (c.x * c.x + (c.y * c.y + c.z * c.z))
  let proj := Real.sqrt (c.x * c.x + c.y * c.y)
  if len ≠ 0 then
    { theta := old.theta
      radius := len
      phi := if proj ≠ 0 then Real.arccos (c.x / proj) else Real.arccos (proj / len) }
  else ⟨0, 0, 0⟩

/-- A matrix `FLOAT32 m[3][3]` as a list of rows. -/
abbrev Mat := Fin 3 → Fin 3 → ℝ

/-- The product loops, impeghd_scene_displacement.c 253-266 and 267-280. -/
noncomputable def mul (a b : Mat) : Mat := fun l c => b 0 c * a l 0 + b 1 c * a l 1 + b 2 c * a l 2

/-- impeghd_scene_displacement.c 243-251 -/
noncomputable def rot1 (yaw : ℝ) : Mat :=
  ![![Real.cos (rad yaw), Real.sin (rad yaw), 0], ![-Real.sin (rad yaw), Real.cos (rad yaw), 0], ![0, 0, 1]]

/-- impeghd_scene_displacement.c 233-241 -/
noncomputable def rot2 (pitch : ℝ) : Mat :=
  ![![1, 0, 0], ![0, Real.cos (rad pitch), -Real.sin (rad pitch)], ![0, Real.sin (rad pitch), Real.cos (rad pitch)]]

/-- impeghd_scene_displacement.c 223-231 -/
noncomputable def rot3 (roll : ℝ) : Mat :=
  ![![Real.cos (rad roll), 0, Real.sin (rad roll)], ![0, 1, 0], ![-Real.sin (rad roll), 0, Real.cos (rad roll)]]

/-- The position the displacement data describe, impeghd_scene_displacement.c 208-221. -/
noncomputable def dispPos (d : Disp) : Cart :=
  polCart ⟨rad (d.az + 90), rad (90 - d.el), d.radius⟩

/-- `impeghd_rotate_cart_coord`, impeghd_scene_displacement.c 192-294. The incoming coordinates are
never read: both terms of the sum are the position in the displacement data. -/
noncomputable def rotate (_c : Cart) (d : Disp) : Cart :=
  let m := mul (mul (rot1 d.yaw) (rot2 d.pitch)) (rot3 d.roll)
  let p := dispPos d
  let out : Fin 3 → ℝ := fun i => m i 0 * (p.x + p.x) + m i 1 * (p.y + p.y) + m i 2 * (p.z + p.z)
  ⟨out 0, out 1, out 2⟩

/-- What happens to one object position (azimuth, elevation, distance, in degrees),
impeghd_scene_displacement.c 682-714. -/
noncomputable def displace (p : Polar) (d : Disp) : Polar :=
  let q : Polar := ⟨rad (90 + p.theta), rad (90 - p.phi), p.radius⟩
  let r := cartPol (rotate (polCart q) d) q
  let theta := 90 + deg r.theta
  let phi := 90 - deg r.phi
  let theta := if theta > 180 then theta - 360 else theta
  let theta := if theta < -180 then theta + 360 else theta
  let phi := if phi > 90 then 90 - (phi - 90) else phi
  let phi := if phi < -90 then -90 + (phi + 90) else phi
  ⟨theta, phi, r.radius⟩

end Verif.Displace
