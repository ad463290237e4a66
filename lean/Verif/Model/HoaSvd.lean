import Verif.Prelude
import Verif.Model.HoaPerm

/-! # The rendering matrix from singular values

`impeghd_hoa_simple_mtrx.c` 102-331 and 667-763 and `impeghd_hoa_render_mtrx.c` 213-286

Single-precision numbers are reals and rounding is not modelled. Matrices are functions of row and
column, as in `Model/HoaPerm.lean`. The decomposition itself is a parameter, `dsvd`: it gives the matrices
U and V and the singular values, or an error. Buffers in the scratch memory are not modelled. -/

namespace Verif.HoaSvd

open Finset (range)
open Verif.HoaPerm (Mtx mult)

/-- `impeghd_hoa_ren_simple_mtrx_transpose_keep` and `impeghd_hoa_ren_simple_mtrx_transpose`,
impeghd_hoa_simple_mtrx.c 123-165 -/
def transpose (a : Mtx) : Mtx := ⟨a.cols, a.rows, fun r c => a.at_ c r⟩

/-- `impeghd_hoa_ren_simple_mtrx_diag_mult`, impeghd_hoa_simple_mtrx.c 228-246, for `diag_len` at most the
number of columns -/
noncomputable def diagMult (a : Mtx) (d : ℕ → ℝ) (len : ℕ) : Mtx :=
  ⟨a.rows, a.cols, fun r c => if c < len then a.at_ r c * d c else 0⟩

/-- `impeghd_hoa_ren_simple_mtrx_norm_fro`, impeghd_hoa_simple_mtrx.c 258-269 -/
noncomputable def normFro (a : Mtx) : ℝ :=
  Real.sqrt (∑ r ∈ range a.rows, ∑ c ∈ range a.cols, a.at_ r c * a.at_ r c)

/-- `impeghd_hoa_ren_simple_mtrx_swap_cols`, impeghd_hoa_simple_mtrx.c 283-297 -/
def swapCols (a : Mtx) (idx : ℕ → ℕ) : Mtx := ⟨a.rows, a.cols, fun r c => a.at_ r (idx c)⟩

/-- The exchange, impeghd_hoa_simple_mtrx.c 325-327 -/
def exchange (idx : ℕ → ℕ) (i j : ℕ) : ℕ → ℕ := fun k =>
  if k = j then idx i else if k = i then idx j else idx k

/-- The first `m` rounds of the inner loop, impeghd_hoa_simple_mtrx.c 321-329 -/
noncomputable def sortIn (arr : ℕ → ℝ) (i : ℕ) : ℕ → (ℕ → ℕ) → (ℕ → ℕ)
  | 0, idx => idx
  | m + 1, idx =>
    let idx := sortIn arr i m idx
    let j := i + 1 + m
    if arr (idx i) < arr (idx j) then exchange idx i j else idx

/-- The first `i` rounds of the outer loop, impeghd_hoa_simple_mtrx.c 314-330 -/
noncomputable def sortOut (arr : ℕ → ℝ) (n : ℕ) : ℕ → (ℕ → ℕ)
  | 0 => id
  | i + 1 => sortIn arr i (n - (i + 1)) (sortOut arr n i)

/-- `impeghd_hoa_get_sort_idx`, impeghd_hoa_simple_mtrx.c 311-331 -/
noncomputable def sortIdx (arr : ℕ → ℝ) (n : ℕ) : ℕ → ℕ := sortOut arr n n

/-- `ia_render_hoa_simple_mtrx_svd_str`, impeghd_hoa_simple_mtrx.h 52-59; `n` is `w_s_sz`. -/
structure Svd where
  n : ℕ
  w : ℕ → ℝ
  u : Mtx
  s : Mtx
  v : Mtx

/-- `impeghd_hoa_ren_simple_mtrx_svd_init`, impeghd_hoa_simple_mtrx.c 667-720. The matrices of the result
have 24 * 24 elements (impeghd_hoa_simple_mtrx.h 45-59, impeghd_hoa_common_values.h 65). `s0` is what is
in `s` before: only the diagonal is written. -/
noncomputable def svdInit (dsvd : Mtx → Option (Mtx × (ℕ → ℝ) × Mtx)) (og : Mtx) (s0 : ℕ → ℕ → ℝ) :
    Res Svd :=
  let a := if og.rows < og.cols then transpose og else og
  if 576 < a.cols * a.cols then .ub
  else
    match dsvd a with
    | none => .err (.other 0x1208)
    | some (u, w, v) =>
      let idx := sortIdx w a.cols
      let s : Mtx := ⟨a.cols, a.cols, fun r c => if r = c then w (idx r) else s0 r c⟩
      let v := swapCols v idx
      let u := swapCols u idx
      if 576 < a.rows * a.cols then .ub
      else if og.rows < og.cols then .ok ⟨a.cols, fun i => w (idx i), v, s, u⟩
      else .ok ⟨a.cols, fun i => w (idx i), u, s, v⟩

open Classical in
/-- `impeghd_hoa_ren_simple_mtrx_svd_pinv`, impeghd_hoa_simple_mtrx.c 734-763; `none`: numbers of rows and
columns do not match. `stale` is what is behind the matrix `s_i` if that has less than two columns. -/
noncomputable def pinv (d : Svd) (threshold stale : ℝ) : Option Mtx :=
  let cmp := (if d.s.cols < 2 then stale else d.s.at_ 1 1) * threshold
  let si : Mtx := ⟨d.s.rows, d.s.cols, fun r c =>
    if r = c then (if cmp < d.s.at_ r r then 1 / d.s.at_ r r else 0) else d.s.at_ r c⟩
  (mult d.v si).bind fun interm => mult interm (transpose d.u)

/-- The loop over the singular values, impeghd_hoa_render_mtrx.c 229-234: the first argument counts the
rounds left. -/
noncomputable def keepLoop (w : ℕ → ℝ) (thresh : ℝ) : ℕ → ℕ → (ℕ → ℝ) → (ℕ → ℝ)
  | 0, _, p => p
  | f + 1, cnt, p =>
    let p : ℕ → ℝ := fun k => if k = cnt then 1 else p k
    if w cnt < thresh then p else keepLoop w thresh f (cnt + 1) p

/-- `is_col`, impeghd_hoa_render_mtrx.c 223-234 -/
noncomputable def isCol (w : ℕ → ℝ) (n : ℕ) : ℕ → ℝ :=
  keepLoop w (1 / 1000 * w 0) (n - 1) 1 fun k => if k = 0 then 1 else 0

/-- The multiplication by one over the norm, impeghd_hoa_render_mtrx.c 250-254 and 277-282 -/
noncomputable def normalise (a : Mtx) : Mtx :=
  ⟨a.rows, a.cols, fun r c => a.at_ r c * (1 / normFro a)⟩

/-- The poles are added to the other loudspeakers, impeghd_hoa_render_mtrx.c 255-276; `l` is `l_speakers`
without the poles. -/
noncomputable def foldPoles (l : ℕ) (a : Mtx) : Mtx :=
  ⟨l, a.cols, fun r c => (a.at_ (l + 1) c + a.at_ l c) * (1 / Real.sqrt l) + a.at_ r c⟩

/-- `impeghd_hoa_ren_mtrx_init`, impeghd_hoa_render_mtrx.c 213-286: from the decomposition on, until rows
for LFEs are added. `ew` are the weights of the coefficients, `k` their number, `l` the number of
loudspeakers with the poles, `poles` says that the loudspeakers are in a plane. -/
noncomputable def render (d : Svd) (ew : ℕ → ℝ) (k l : ℕ) (poles : Bool) : Option Mtx :=
  (mult (diagMult d.v (isCol d.w d.n) d.n) (transpose d.u)).map fun m =>
    let m := normalise (diagMult m ew k)
    if poles then normalise (foldPoles (l - 2) m) else m

end Verif.HoaSvd
