import Mathlib.Data.Nat.Notation
import Mathlib.Data.Int.Notation

/-! # Sorting of loudspeakers by their index in the object renderer

`impeghd_obj_ren_dec.c` 171-209

Both buffers are functions of the position; `b` is the position of the first element of a part in both.
For no element the pivot would be read in front of the buffer; the callers make sure that there is one. -/

namespace Verif.ObjSortIdx

/-- `ia_ls_ord_idx_params`, impeghd_obj_ren_dec_struct_def.h 64-68 -/
structure Ele where
  index : ℤ
  order : ℤ
  deriving DecidableEq, Repr

abbrev Buf := ℕ → Ele

/-- A write to one position -/
def upd (s : Buf) (p : ℕ) (e : Ele) : Buf := fun x => if x = p then e else s x

/-- The first `i` rounds of the loop, impeghd_obj_ren_dec.c 179-192: the scratch buffer and `pivot_idx`;
`ptr_start` is `b + pivot_idx` and `ptr_end` is `b + (n - 1) - (i - pivot_idx)`. -/
def split (io sc : Buf) (b n : ℕ) (pv : ℤ) : ℕ → Buf × ℕ
  | 0 => (sc, 0)
  | i + 1 =>
    let r := split io sc b n pv i
    if (io (b + i)).index < pv then (upd r.1 (b + r.2) (io (b + i)), r.2 + 1)
    else (upd r.1 (b + (n - 1) - (i - r.2)) (io (b + i)), r.2)

/-- `impegh_quick_sort_idx`, impeghd_obj_ren_dec.c 171-209; the first argument bounds the depth of the
recursion, for which the number of elements is enough. -/
def sort : ℕ → Buf → Buf → ℕ → ℕ → Buf × Buf
  | 0, io, sc, _, _ => (io, sc)
  | f + 1, io, sc, b, n =>
    let pv := io (b + (n - 1))
    let r := split io sc b n pv.index (n - 1)
    let p := r.2
    let sc := if b + p = b + (n - 1) - (n - 1 - p) then upd r.1 (b + p) pv else r.1
    let io : Buf := fun x => if b ≤ x ∧ x < b + n then sc x else io x
    let q := if 1 < p then sort f io sc b p else (io, sc)
    if 1 < n - (p + 1) then sort f q.1 q.2 (b + (p + 1)) (n - (p + 1)) else q

end Verif.ObjSortIdx
