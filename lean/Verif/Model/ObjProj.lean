import Verif.Model.Displace
import Verif.Model.ObjHull

/-! # Projections for the hull of loudspeakers

`impeghd_3d_vec_basic_ops.c` 170-204, `impeghd_obj_ren_dec.c` 1229-1289

Single-precision numbers are reals and the square root is the real one; rounding is not modelled. -/

namespace Verif.ObjProj

open Verif.Displace Verif.ObjHull

/-- Difference of two vectors, impeghd_3d_vec_basic_ops.c 176-184 -/
def sub (a b : Cart) : Cart := ⟨a.x - b.x, a.y - b.y, a.z - b.z⟩

/-- `v_orth` before it is scaled, impeghd_3d_vec_basic_ops.c 179-188 -/
def orth (v1 v2 v3 : Cart) : Cart :=
  let v12 := sub v1 v2
  let v13 := sub v1 v3
  ⟨v12.y * v13.z - v12.z * v13.y, v12.z * v13.x - v12.x * v13.z, v12.x * v13.y - v12.y * v13.x⟩

/-- `vector_length`, impeghd_3d_vec_basic_ops.c 189-191 -/
noncomputable def len (o : Cart) : ℝ := Real.sqrt (o.x * o.x + (o.y * o.y + o.z * o.z))

/-- `impeghd_get_vx_proj_len`, impeghd_3d_vec_basic_ops.c 170-204 -/
noncomputable def projLen (v1 v2 v3 vx : Cart) : ℝ :=
  let vx1 := sub vx v1
  let o := orth v1 v2 v3
  let l := len o
  let o : Cart := if l ≠ 0 then ⟨o.x * (1 / l), o.y * (1 / l), o.z * (1 / l)⟩ else o
  o.x * vx1.x + o.y * vx1.y + o.z * vx1.z

/-- The projection of a vertex on the normal of a triangle of loudspeakers -/
noncomputable def triProj (pos : ℤ → Cart) (t : Tri) (x : Cart) : ℝ := projLen (pos t.v0) (pos t.v1) (pos t.v2) x

open Classical in
/-- One round of the loop over all vertices, impeghd_obj_ren_dec.c 1229-1289, with
`OBJ_REN_MIN_PROJ_LEN_VAL`, impeghd_obj_ren_dec_defines.h 71 -/
noncomputable def hullStep (pos : ℤ → Cart) (vx : ℤ) (ts : List Tri) : Res (List Tri) :=
  step vx (fun t => decide ¬ triProj pos t (pos vx) ≤ -(1 / 100000))
    (fun t => decide ¬ triProj pos t ⟨0, 0, 0⟩ ≤ 0) ts

end Verif.ObjProj
