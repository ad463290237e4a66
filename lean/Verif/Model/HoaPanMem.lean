import Mathlib.Data.Real.Basic

/-! # The scratch memory of robust panning

`impeghd_hoa_robust_pan.c` 289-302

The memory consists of words of 4 bytes, which hold integers or single-precision numbers; both are reals
here. Addresses count words from the matrix `bb` of `ia_render_hoa_pan_calculate_gains_pre_scratch`,
impeghd_hoa_simple_mtrx.h 61-89: a matrix is `cols`, `rows` and the elements, 49 * 324 for
`ia_render_hoa_simple_mtrx_str` and 24 * 24 for `ia_render_hoa_pan_mtrx_str`. -/

namespace Verif.HoaPanMem

/-- The words of the structure -/
abbrev Mem := ℕ → ℝ

/-- Addresses of the matrices, impeghd_hoa_simple_mtrx.h 65-77 -/
def addrBb : ℕ := 0

@[inherit_doc addrBb] def addrHr : ℕ := addrBb + (2 + 24 * 24)
@[inherit_doc addrBb] def addrHi : ℕ := addrHr + (2 + 49 * 324)
@[inherit_doc addrBb] def addrA : ℕ := addrHi + (2 + 49 * 324)
@[inherit_doc addrBb] def addrC : ℕ := addrA + (2 + 24 * 24)
@[inherit_doc addrBb] def addrT : ℕ := addrC + (2 + 24 * 24)
@[inherit_doc addrBb] def addrY00 : ℕ := addrT + (2 + 24 * 24)
@[inherit_doc addrBb] def addrY01 : ℕ := addrY00 + (2 + 24 * 24)
/-- `r0` is behind `y01`, `a1`, `a2` and `r0temp`. -/
def addrR0 : ℕ := addrY01 + 4 * (2 + 24 * 24)

/-- `impeghd_hoa_ren_simple_mtrx_init_with_size`, impeghd_hoa_simple_mtrx.c 83-89: `HOA_MAX_MATRIX_SIZE` is
49 * 49. -/
noncomputable def initSize (m : Mem) (p rows cols : ℕ) : Mem := fun x =>
  if x = p then cols else if x = p + 1 then rows
  else if p + 2 ≤ x ∧ x < p + 2 + 49 * 49 then 0 else m x

/-- `impeghd_hoa_ren_simple_mtrx_transpose_keep`, impeghd_hoa_simple_mtrx.c 123-136, of the matrix `h` with
`rows` rows and `cols` columns -/
noncomputable def transposeKeep (m : Mem) (p : ℕ) (h : ℕ → ℕ → ℝ) (rows cols : ℕ) : Mem := fun x =>
  if x = p then rows else if x = p + 1 then cols
  else if p + 2 ≤ x ∧ x < p + 2 + cols * rows then h ((x - (p + 2)) % rows) ((x - (p + 2)) / rows) else m x

/-- `ia_render_hoa_robust_pan_calculate_gains_pre`, impeghd_hoa_robust_pan.c 289-302, for `nl` loudspeakers;
`hr` and `hi` are `sm_hml_r` and `sm_hml_i`. -/
noncomputable def prepare (m : Mem) (nl : ℕ) (hr hi : ℕ → ℕ → ℝ) : Mem :=
  let m := initSize m addrBb nl nl
  let m := transposeKeep m addrHr hr 256 nl
  let m := transposeKeep m addrHi hi 256 nl
  let m := initSize m addrA nl nl
  let m := initSize m addrC nl nl
  let m := initSize m addrT nl nl
  let m := initSize m addrY00 nl nl
  let m := initSize m addrY01 nl nl
  initSize m addrR0 nl nl

end Verif.HoaPanMem
