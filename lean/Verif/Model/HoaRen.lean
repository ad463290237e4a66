import Verif.Prelude
import Mathlib.Data.Real.Basic
import Mathlib.Algebra.BigOperators.Group.Finset.Basic

/-! # Near field compensation and the ambisonics renderer: `impeghd_hoa_nfc_filtering.c`,
`impeghd_hoa_renderer.c` 90-255 and `impeghd_hoa_dec_init.c` 493-528

Single-precision numbers are reals; rounding is not modelled. The build is the one without
`LC_LEVEL_4` (CMakeLists.txt 10). The rendering matrices are inputs, their construction is not
modelled. -/

namespace Verif.HoaRen

open Finset (range)

/-- `ia_hoa_nf_roots_re_abs`, impeghd_hoa_rom.c 942-948. -/
def roots : List ℚ :=
  [-2.0000000, -3.0000000, 3.4641016, -3.6778146, 5.0830828, -4.6443707,
   -4.2075787, 6.7787315, -5.7924212, 6.0465298, -4.6493486, 8.5220456,
   -6.7039127, 7.5557873, -7.2934771, -5.0318644, 10.2983543, -7.4714167,
   9.1329783, -8.4967187, 8.6720541, -5.3713537, 12.0990553, -8.1402783,
   10.7585400, -9.5165810, 10.1324122, -9.9435737, -5.6779678, 13.9186233,
   -8.7365784, 12.4208298, -10.4096815, 11.6507064, -11.1757720, 11.3096817]

/-- `ia_hoa_nf_roots_re_abs[i]` -/
noncomputable def root (i : Nat) : ℝ := ((roots.getD i 0 : ℚ) : ℝ)

/-- The coefficients of `ia_render_hoa_iir_2_str`, impeghd_hoa_nfc_filtering.h 42-54; `a0` and `b0` are
one after impeghd_hoa_nfc_filtering.c 160, 163. -/
structure Coef2 where
  a1 : ℝ
  a2 : ℝ
  b1 : ℝ
  b2 : ℝ

/-- The memory of `ia_render_hoa_iir_2_str`, impeghd_hoa_nfc_filtering.h 42-54. -/
structure Mem2 where
  x1 : ℝ
  x2 : ℝ
  y1 : ℝ
  y2 : ℝ

/-- The coefficients of `ia_render_hoa_iir_1_str`, impeghd_hoa_nfc_filtering.h 56-64; `a0` and `b0` are
one after impeghd_hoa_nfc_filtering.c 179, 181. -/
structure Coef1 where
  a1 : ℝ
  b1 : ℝ

/-- The memory of `ia_render_hoa_iir_1_str`, impeghd_hoa_nfc_filtering.h 56-64. -/
structure Mem1 where
  x1 : ℝ
  y1 : ℝ

/-- The loop body of `impeghd_hoa_ren_iir_ord_2_filter`, impeghd_hoa_nfc_filtering.c 70-79. -/
def step2 (c : Coef2) (m : Mem2) (x : ℝ) : ℝ × Mem2 :=
  let y := m.x2 * c.b2 - m.y1 * c.a1 - m.y2 * c.a2 + (m.x1 * c.b1 + x)
  (y, ⟨x, m.x1, y, m.y1⟩)

/-- `impeghd_hoa_ren_iir_ord_2_filter`, impeghd_hoa_nfc_filtering.c 64-81. -/
def filter2 (c : Coef2) (m : Mem2) : List ℝ → List ℝ × Mem2
  | [] => ([], m)
  | x :: l =>
    let r := step2 c m x
    let q := filter2 c r.2 l
    (r.1 :: q.1, q.2)

/-- The loop body of `impeghd_hoa_ren_iir_ord_1_filter`, impeghd_hoa_nfc_filtering.c 102-107. -/
def step1 (c : Coef1) (m : Mem1) (x : ℝ) : ℝ × Mem1 :=
  let y := m.x1 * c.b1 - m.y1 * c.a1 + x
  (y, ⟨x, y⟩)

/-- `impeghd_hoa_ren_iir_ord_1_filter`, impeghd_hoa_nfc_filtering.c 96-109. -/
def filter1 (c : Coef1) (m : Mem1) : List ℝ → List ℝ × Mem1
  | [] => ([], m)
  | x :: l =>
    let r := step1 c m x
    let q := filter1 c r.2 l
    (r.1 :: q.1, q.2)

/-- `b0`, `b1`, `b2` from the real part and the absolute value of a root, impeghd_hoa_nfc_filtering.c
142-148 (`a0`, `a1`, `a2`: 149-155). -/
noncomputable def poly2 (re ab alpha : ℝ) : ℝ × ℝ × ℝ :=
  let t := ab / alpha * (ab / alpha)
  (t + 1 + -2 * re / alpha, (t - 1) * 2, t + 1 - -2 * re / alpha)

/-- `b0`, `b1` from the real root, impeghd_hoa_nfc_filtering.c 170-172 (`a0`, `a1`: 173-175). -/
noncomputable def poly1 (re alpha : ℝ) : ℝ × ℝ := (1 - re / alpha, -(1 + re / alpha))

/-- A filter of `ia_render_hoa_nfc_filtering_str`, impeghd_hoa_nfc_filtering.h 66-76: `global_gain`, the
cells of second order in use and the one of first order. -/
structure Filter where
  gain : ℝ
  secs : List (Coef2 × Mem2)
  first : Option (Coef1 × Mem1)

/-- Cell `n` of second order, impeghd_hoa_nfc_filtering.c 140-166. -/
noncomputable def cell2 (order n : Nat) (tc ts : ℝ) : Coef2 :=
  let i := order * (order - 1) / 2
  let b := poly2 (root (i + 2 * n)) (root (i + 2 * n + 1)) (4 * ts)
  let a := poly2 (root (i + 2 * n)) (root (i + 2 * n + 1)) (4 * tc)
  ⟨a.2.1 / a.1, a.2.2 / a.1, b.2.1 / b.1, b.2.2 / b.1⟩

/-- The factor of cell `n` of second order in `coeff`, impeghd_hoa_nfc_filtering.c 157. -/
noncomputable def gain2 (order n : Nat) (tc ts : ℝ) : ℝ :=
  let i := order * (order - 1) / 2
  (poly2 (root (i + 2 * n)) (root (i + 2 * n + 1)) (4 * ts)).1 / (poly2 (root (i + 2 * n)) (root (i + 2 * n + 1)) (4 * tc)).1

/-- The cell of first order, impeghd_hoa_nfc_filtering.c 167-183. -/
noncomputable def cell1 (order : Nat) (tc ts : ℝ) : Coef1 :=
  let i := order * (order - 1) / 2
  let b := poly1 (root (i + order - 1)) (4 * ts)
  let a := poly1 (root (i + order - 1)) (4 * tc)
  ⟨a.2 / a.1, b.2 / b.1⟩

/-- The factor of the cell of first order, impeghd_hoa_nfc_filtering.c 177. -/
noncomputable def gain1 (order : Nat) (tc ts : ℝ) : ℝ :=
  let i := order * (order - 1) / 2
  (poly1 (root (i + order - 1)) (4 * ts)).1 / (poly1 (root (i + order - 1)) (4 * tc)).1

/-- `impeghd_hoa_ren_nfc_set_filter_params`, impeghd_hoa_nfc_filtering.c 123-186, with the numbers of
cells of impeghd_hoa_renderer.c 113-114; the memory `m2`, `m1` of the cells stays. -/
noncomputable def setParams (order : Nat) (tc ts : ℝ) (m2 : Nat → Mem2) (m1 : Mem1) : Filter :=
  let n1 := order % 2
  let n2 := (order - n1) / 2
  { gain := ((List.range n2).map fun n => gain2 order n tc ts).prod * (if n1 ≠ 0 then gain1 order tc ts else 1)
    secs := (List.range n2).map fun n => (cell2 order n tc ts, m2 n)
    first := if n1 ≠ 0 then some (cell1 order tc ts, m1) else none }

/-- The cells of second order one after the other, impeghd_hoa_nfc_filtering.c 211-214. -/
def cascade : List (Coef2 × Mem2) → List ℝ → List ℝ × List (Coef2 × Mem2)
  | [], l => (l, [])
  | s :: t, l =>
    let r := filter2 s.1 s.2 l
    let q := cascade t r.1
    (q.1, (s.1, r.2) :: q.2)

/-- `impeghd_hoa_ren_nfc_filter_apply`, impeghd_hoa_nfc_filtering.c 201-219, for `y == x` as in
impeghd_hoa_renderer.c 154 (a gain of one is not multiplied). -/
def apply (f : Filter) (l : List ℝ) : List ℝ × Filter :=
  let r := cascade f.secs (l.map fun x => x * f.gain)
  match f.first with
  | none => (r.1, { f with secs := r.2 })
  | some (c, m) =>
    let q := filter1 c m r.1
    (q.1, { f with secs := r.2, first := some (c, q.2) })

/-- `impeghd_hoa_ren_nfc_init`, impeghd_hoa_renderer.c 90-120: the filter of channel `k`. Every channel
gets `order`, the order of the content (112). -/
noncomputable def nfcInit (order : Nat) (dist radius : ℝ) (rate : Nat) (m2 : Nat → Nat → Mem2) (m1 : Nat → Mem1) (k : Nat) : Filter :=
  setParams order (dist / 343 * rate) (radius / 343 * rate) (m2 k) (m1 k)

/-- Whether near field compensation is used, impeghd_hoa_dec_init.c 493-528, for the loudspeaker
distance, the reference distance, the order and `mpegh_profile_lvl`. -/
noncomputable def useNfc (dist radius : ℝ) (order lvl : Nat) : Res Bool :=
  if radius ≤ dist then .ok false
  else if (lvl = 0x0D ∧ order ≤ 2) ∨ (lvl = 0x0C ∧ order ≤ 1) ∨ lvl = 0x12 ∨ lvl = 0x11 ∨ lvl = 0x10 then .ok true
  else .err (.other 0xFFFF9211)

/-- The clipping of impeghd_hoa_renderer.c 245-249 (`ia_min_int` and `ia_max_int` are macros that keep
the type). -/
noncomputable def clip (x : ℝ) : ℝ :=
  let v := if x < 32767 then x else 32767
  if -32768 < v then v else -32768

/-- The loops of `impeghd_hoa_ren_block_process`, impeghd_hoa_renderer.c 210-254, with clipping: `out`
is flat memory. The input is first transposed into `trans_in_buf` (214-223). -/
noncomputable def mix (ch cols nOut colsA : Nat) (mtx inp out : Nat → ℝ) : Nat → ℝ :=
  let trans : Nat → ℝ := fun t => inp (t % ch * cols + t / ch)
  fun k => if k < nOut * cols then clip (∑ mn ∈ range ch, mtx (k / cols * colsA + mn) * trans (k % cols * ch + mn)) else out k

/-- The rows of flat memory. -/
def row (inp : Nat → ℝ) (cols k : Nat) : List ℝ := (List.range cols).map fun n => inp (k * cols + n)

/-- The channels after near field compensation, in place, `impeghd_hoa_ren_preprocess_nfc`, impeghd_hoa_renderer.c 136-160. -/
def filtered (ch cols : Nat) (fs : Nat → Filter) (inp : Nat → ℝ) : Nat → ℝ := fun k =>
  if k < ch * cols then (apply (fs (k / cols)) (row inp cols (k / cols))).1.getD (k % cols) 0 else inp k

/-- `impeghd_hoa_ren_block_process`, impeghd_hoa_renderer.c 181-255: `order` is that of the selected
matrix (`none`: no matrix is selected), `fs` the filters in use, `size` is `nfc_filter_sz`; the output and
the filters. -/
noncomputable def block (order : Option Nat) (rows cols nOut colsA size : Nat) (nfc : Bool) (fs : Nat → Filter) (mtx inp out : Nat → ℝ) : Res ((Nat → ℝ) × (Nat → Filter)) :=
  match order with
  | none => .err (.other 0xFFFF9204)
  | some order =>
    let ch := (order + 1) * (order + 1)
    if ch ≠ rows then .err (.other 0xFFFF9204)
    else if cols = 0 then .ok (out, fs)
    else if nfc then
      if ch < size then .err (.other 0xFFFF9205)
      else .ok (mix ch cols nOut colsA mtx (filtered ch cols fs inp) out, fun k => if k < ch then (apply (fs k) (row inp cols k)).2 else fs k)
    else .ok (mix ch cols nOut colsA mtx inp out, fs)

end Verif.HoaRen
