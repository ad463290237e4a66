import Mathlib.Data.Int.Notation
import Mathlib.Data.Int.Order.Basic
import Verif.Prelude

/-! # One vertex of the hull of loudspeakers in the object renderer

`impeghd_obj_ren_dec.c` 800-850, 1187-1211, 1229-1289

The tests by projection, which need the positions of the loudspeakers, are arguments here. -/

namespace Verif.ObjHull

/-- `ia_renderer_ls_triangle`: `spk_index[0]`, `spk_index[1]`, `spk_index[2]`,
impeghd_obj_ren_dec_struct_def.h 43-46 -/
structure Tri where
  v0 : ℤ
  v1 : ℤ
  v2 : ℤ
  deriving DecidableEq, Repr

/-- `ls_order_vtx_a` and `ls_order_vtx_b` of an edge, impeghd_obj_ren_dec.c 812-815 -/
def edge (a b : ℤ) : ℤ × ℤ := (min a b, max a b)

/-- `edge_params` after the first loop, impeghd_obj_ren_dec.c 808-826 -/
def edges (ts : List Tri) : List (ℤ × ℤ) :=
  ts.flatMap fun t => [edge t.v0 t.v1, edge t.v0 t.v2, edge t.v1 t.v2]

/-- The second loop, impeghd_obj_ren_dec.c 828-848: an edge is taken if there is no other with the same vertices. -/
def unique (l : List (ℤ × ℤ)) : List (ℤ × ℤ) :=
  (List.range l.length).filterMap fun i =>
    if ∀ j < l.length, j ≠ i → l.getD i (0, 0) ≠ l.getD j (0, 0) then some (l.getD i (0, 0)) else none

/-- `impeghd_extract_unique_edges`, impeghd_obj_ren_dec.c 800-850: `edge_params` has 44 elements. -/
def extract (ts : List Tri) : Res (List (ℤ × ℤ)) :=
  if 44 < 3 * ts.length then .ub else .ok (unique (edges ts))

/-- The triangle for an edge, impeghd_obj_ren_dec.c 1264-1284; `turn` stands for `proj_len > 0`. -/
def cone (vx : ℤ) (turn : Tri → Bool) (e : ℤ × ℤ) : Tri :=
  if turn ⟨e.1, e.2, vx⟩ then ⟨vx, e.2, e.1⟩ else ⟨e.1, e.2, vx⟩

/-- One round of the loop over all vertices, impeghd_obj_ren_dec.c 1229-1289; `seen` stands for the projection
of the vertex being greater than the limit. `additional_triangle` has 44 elements. -/
def step (vx : ℤ) (seen turn : Tri → Bool) (ts : List Tri) : Res (List Tri) :=
  match extract (ts.filter seen) with
  | .ok es =>
    let r := (ts.filter fun t => !seen t) ++ es.map (cone vx turn)
    if 44 < r.length then .ub else .ok r
  | .jump => .jump
  | .err c => .err c
  | .ub => .ub

/-- The first triangles, impeghd_obj_ren_dec.c 1187-1211: `p` is `tri_ls_index` and `n` is
`num_init_polyhedron_vtx`, which is 5, impeghd_obj_ren_dec.c 781. -/
def initial (p : ℕ → ℤ) (n : ℕ) : List Tri :=
  let k := n - 3
  (List.range k).map (fun i => ⟨p 0, p (i + 2), p (i + 3)⟩) ++ [⟨p 0, p (k + 2), p 2⟩] ++
    (List.range k).map (fun i => ⟨p 1, p (i + 3), p (i + 2)⟩) ++ [⟨p 1, p 2, p (k + 2)⟩]

end Verif.ObjHull
