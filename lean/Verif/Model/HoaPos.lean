import Mathlib.Analysis.SpecialFunctions.Complex.Arg
import Verif.Prelude

/-! # Positions of loudspeakers in the HOA renderer

`impeghd_hoa_space_positions.c` 257-552

Single- and double-precision numbers are reals and rounding is not modelled. Every position has three
numbers (`cols` is 3): distance, inclination and azimuth for positions of type 1, x, y and z for positions
of type 2. -/

namespace Verif.HoaPos

/-- `ia_render_hoa_space_positions_str` -/
structure Pos where
  type : ℕ
  n : ℕ
  at_ : ℕ → ℝ × ℝ × ℝ

/-- `atan2` of the C library -/
noncomputable def atan2 (y x : ℝ) : ℝ := Complex.arg ⟨x, y⟩

/-- `impeghd_hoa_ren_space_positions_init_pos`, impeghd_hoa_space_positions.c 257-265 -/
noncomputable def initPos (a : Pos) : Pos :=
  ⟨a.type, a.n, fun i => if i < a.n then a.at_ i else (0, 0, 0)⟩

/-- `impeghd_hoa_ren_space_positions_add_poles`, impeghd_hoa_space_positions.c 278-309 -/
noncomputable def addPoles (a : Pos) (r : ℝ) : Pos :=
  ⟨a.type, a.n + 2, fun i =>
    if i = a.n then (if a.type ≠ 1 then (0, 0, r) else (r, 0, 0))
    else if i = a.n + 1 then (if a.type ≠ 1 then (0, 0, -r) else (r, Real.pi, 0))
    else a.at_ i⟩

/-- One position, impeghd_hoa_space_positions.c 392-410 -/
noncomputable def cart1 (force : Bool) (p : ℝ × ℝ × ℝ) : ℝ × ℝ × ℝ :=
  if force = false then
    (Real.sin p.2.1 * Real.cos p.2.2 * p.1, Real.sin p.2.1 * Real.sin p.2.2 * p.1, Real.cos p.2.1 * p.1)
  else (Real.sin p.2.1 * Real.cos p.2.2, Real.sin p.2.1 * Real.sin p.2.2, Real.cos p.2.1)

/-- `impeghd_hoa_ren_space_positions_convert_copy_to_cartesian`, impeghd_hoa_space_positions.c 373-424, for
types up to 2; `tmp_handle` keeps what is there for other types. -/
noncomputable def toCart (a : Pos) (force : Bool) : Res Pos :=
  if a.type = 0 then .err (.other 0x1209)
  else if a.type = 1 then .ok ⟨2, a.n, fun i => if i < a.n then cart1 force (a.at_ i) else (0, 0, 0)⟩
  else .ok (initPos a)

/-- One position, impeghd_hoa_space_positions.c 452-461 -/
noncomputable def sph1 (p : ℝ × ℝ × ℝ) : ℝ × ℝ × ℝ :=
  (Real.sqrt (p.2.2 * p.2.2 + p.2.1 * p.2.1 + p.1 * p.1),
    atan2 (Real.sqrt (p.1 * p.1 + p.2.1 * p.2.1)) p.2.2, atan2 p.2.1 p.1)

/-- `impeghd_hoa_ren_space_positions_convert_copy_to_spherical`, impeghd_hoa_space_positions.c 436-474 -/
noncomputable def toSph (a : Pos) : Res Pos :=
  if a.type = 0 then .err (.other 0x1209)
  else if a.type = 2 then .ok ⟨1, a.n, fun i => if i < a.n then sph1 (a.at_ i) else (0, 0, 0)⟩
  else if a.type = 1 then .ok (initPos a)
  else .err (.other 0x1209)

/-- The inclinations that the loops of the functions below look at: the result of the conversion for
positions that are not of type 1, for types 1 and 2. -/
noncomputable def incl (a : Pos) (i : ℕ) : ℝ :=
  if a.type ≠ 1 then (sph1 (a.at_ i)).2.1 else (a.at_ i).2.1

open Classical in
/-- The loops of `impeghd_hoa_ren_space_positions_is_2d`, impeghd_hoa_space_positions.c 336-357; `m` counts
the positions left, `i` is the position. -/
noncomputable def is2dLoop (a : Pos) : ℕ → ℕ → Bool
  | 0, _ => true
  | m + 1, i =>
    if incl a i < 1.44862329959869385 ∨ incl a i > 1.69296944141387939 then false else is2dLoop a m (i + 1)

/-- `impeghd_hoa_ren_space_positions_is_2d`, impeghd_hoa_space_positions.c 321-359 -/
noncomputable def is2d (a : Pos) : Bool := is2dLoop a a.n 0

/-- The loops of `impeghd_hoa_ren_space_positions_get_max_min_inclination`, the maximum and the minimum after
`m` positions, impeghd_hoa_space_positions.c 493-514 -/
noncomputable def maxMinLoop (a : Pos) : ℕ → ℝ × ℝ
  | 0 => (0, Real.pi)
  | m + 1 => (max (incl a m) (maxMinLoop a m).1, min (incl a m) (maxMinLoop a m).2)

/-- `impeghd_hoa_ren_space_positions_get_max_min_inclination`, impeghd_hoa_space_positions.c 489-517 -/
noncomputable def maxMin (a : Pos) : ℝ × ℝ := maxMinLoop a a.n

/-- The loops of `impeghd_hoa_ren_space_positions_get_max_distance` after `m` positions,
impeghd_hoa_space_positions.c 531-550 -/
noncomputable def maxDistLoop (a : Pos) : ℕ → ℝ
  | 0 => 0
  | m + 1 =>
    let p := a.at_ m
    max (if a.type ≠ 1 then Real.sqrt (p.2.2 * p.2.2 + p.2.1 * p.2.1 + p.1 * p.1) else p.1) (maxDistLoop a m)

/-- `impeghd_hoa_ren_space_positions_get_max_distance`, impeghd_hoa_space_positions.c 528-552 -/
noncomputable def maxDist (a : Pos) : ℝ := maxDistLoop a a.n

end Verif.HoaPos
