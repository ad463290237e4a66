import Mathlib.Analysis.SpecialFunctions.Trigonometric.Basic
import Verif.Prelude

/-!
# From the spectrum to the samples of a frame in the frequency domain

`ia_core_coder_acelp_imdct`, `ia_core_coder_fd_imdct_long` and `ia_core_coder_fd_imdct_short`
(`/repo/decoder/ia_core_coder_imdct.c`), the windowing functions of
`/repo/decoder/ia_core_coder_basic_ops.c` and `ia_core_coder_calc_window`
(`/repo/decoder/ia_core_coder_windowing.c`).

Simplifications: `float` is `ℝ`; a buffer is a function of the index, and a loop whose iterations touch
different entries is written as one function of the index. The tables of the twiddle factors are the
cosines and sines they hold rounded to six digits. `impeghd_rad2_cplx_ifft` is not modelled: `ifft`
stands for it. Frames after a frame of the time domain (`td_frame_prev`, `fac_apply`: aliasing
cancellation data and the bass post filter) are not modelled. The tables of the windows are parameters.
-/

namespace Verif.Imdct

/-- A buffer of samples. -/
abbrev Buf := ℕ → ℝ

/-! ## The transform -/

/-- `ia_core_coder_pre_post_twid_cos_*`, ia_core_coder_rom.c 1575-1582, 1594-1654, 1705-1770: for `m` complex values. -/
noncomputable def cosT (m n : ℕ) : ℝ := Real.cos (Real.pi * (n + 1 / 8) / (2 * m))

/-- `ia_core_coder_pre_post_twid_sin_*`, ia_core_coder_rom.c 1566-1574, 1583-1593, 1655-1704, 1771-1836. -/
noncomputable def sinT (m n : ℕ) : ℝ := Real.sin (Real.pi * (n + 1 / 8) / (2 * m))

/-- Stands for `impeghd_rad2_cplx_ifft` (impeghd_ifft.c 297), which is not modelled: the inverse
discrete Fourier transform of `m` values without a factor. -/
noncomputable def ifft (m : ℕ) (re im : Buf) : Buf × Buf :=
  (fun k => ∑ n ∈ Finset.range m, (re n * Real.cos (2 * Real.pi * n * k / m) -
      im n * Real.sin (2 * Real.pi * n * k / m)),
   fun k => ∑ n ∈ Finset.range m, (im n * Real.cos (2 * Real.pi * n * k / m) +
      re n * Real.sin (2 * Real.pi * n * k / m)))

/-- The default case of `ia_core_coder_calc_pre_twid_dec`, ia_core_coder_imdct.c 171-183. -/
noncomputable def pre0 (m : ℕ) (x : Buf) : Buf × Buf :=
  (fun n => -(x (2 * n) * cosT m n) - x (2 * m - 1 - 2 * n) * sinT m n,
   fun n => x (2 * m - 1 - 2 * n) * cosT m n - x (2 * n) * sinT m n)

/-- The default case of `ia_core_coder_calc_post_twid_dec`, ia_core_coder_imdct.c 259-274: even entries
are written from the front and odd ones from the back. -/
noncomputable def post0 (m : ℕ) (z : Buf × Buf) : Buf := fun j =>
  if j % 2 = 0 then -(z.1 (j / 2) * cosT m (j / 2) - z.2 (j / 2) * sinT m (j / 2))
  else -(z.2 ((2 * m - 1 - j) / 2) * cosT m ((2 * m - 1 - j) / 2) +
    z.1 ((2 * m - 1 - j) / 2) * sinT m ((2 * m - 1 - j) / 2))

/-- The reordering loops of kernel type 3, ia_core_coder_imdct.c 154-160 and 247-256: entries
`2 i + 1` and `size - 1 - 2 i` are exchanged and negated for `i < size / 4`. -/
noncomputable def swapOdd (size : ℕ) (x : Buf) : Buf := fun j =>
  if j % 2 = 1 ∧ j < size ∧ ((j - 1) / 2 < size / 4 ∨ (size - 1 - j) / 2 < size / 4) then -x (size - j)
  else x j

/-- The case of kernel type 3 in `ia_core_coder_calc_pre_twid_dec`, ia_core_coder_imdct.c 152-170. -/
noncomputable def pre3 (m : ℕ) (x : Buf) : Buf × Buf :=
  let y := swapOdd (2 * m) x
  (fun n => y (n * 2 + 1) * cosT m n - y (n * 2) * sinT m n,
   fun n => y (n * 2) * cosT m n + y (n * 2 + 1) * sinT m n)

/-- The case of kernel type 3 in `ia_core_coder_calc_post_twid_dec`, ia_core_coder_imdct.c 237-258. -/
noncomputable def post3 (m : ℕ) (z : Buf × Buf) : Buf :=
  let y : Buf := fun j =>
    if j % 2 = 1 then -(z.2 (j / 2)) * cosT m (j / 2) - z.1 (j / 2) * sinT m (j / 2)
    else z.1 (j / 2) * cosT m (j / 2) - z.2 (j / 2) * sinT m (j / 2)
  let y' : Buf := fun j =>
    if j % 2 = 0 ∧ j < 2 * m ∧ (j / 2 < 2 * m / 4 ∨ m ≤ j) then -y j else y j
  swapOdd (2 * m) y'

/-- `ia_core_coder_pre_twid_type2_dct_dst_cos_1024`, ia_core_coder_rom.c 1967-2096: `t` is the 1024 of
the table, the only one there is. -/
noncomputable def cosU (t i : ℕ) : ℝ := Real.cos (Real.pi * (i + 1) / (2 * t))

/-- `ia_core_coder_pre_twid_type2_dct_dst_sin_1024`, ia_core_coder_rom.c 1837-1966. -/
noncomputable def sinU (t i : ℕ) : ℝ := Real.sin (Real.pi * (i + 1) / (2 * t))

/-- The reordering of kernel type 1, ia_core_coder_imdct.c 106-116. -/
noncomputable def turned (k size : ℕ) (x : Buf) : Buf := fun i =>
  if k = 1 ∧ i < size then x (size - 1 - i) else x i

/-- `re1`, `re2`, `im1` and `im2`, ia_core_coder_imdct.c 124-136. -/
noncomputable def re1 (t m : ℕ) (y : Buf) (i : ℕ) : ℝ :=
  (y i * cosU t (i - 1) + y (2 * m - i) * sinU t (i - 1)) * (1 / 2)

noncomputable def re2 (t m : ℕ) (y : Buf) (i : ℕ) : ℝ :=
  (y (m - i) * sinU t (m + (i - 1)) + y (m + i) * cosU t (m + (i - 1))) * (1 / 2)

noncomputable def im1 (t m : ℕ) (y : Buf) (i : ℕ) : ℝ :=
  (y i * sinU t (i - 1) - y (2 * m - i) * cosU t (i - 1)) * (1 / 2)

noncomputable def im2 (t m : ℕ) (y : Buf) (i : ℕ) : ℝ :=
  (y (m - i) * cosU t (m + (i - 1)) - y (m + i) * sinU t (m + (i - 1))) * (1 / 2)

/-- `i_ptr[i]` and `r_ptr[i]` before `tmp` is added, ia_core_coder_imdct.c 138-139 and 144-145. -/
noncomputable def imD (t m : ℕ) (y : Buf) (i : ℕ) : ℝ :=
  (re1 t m y i - re2 t m y i) * cosU t (4 * i - 1) - (im1 t m y i + im2 t m y i) * sinU t (4 * i - 1)

noncomputable def reD (t m : ℕ) (y : Buf) (i : ℕ) : ℝ :=
  (im1 t m y i + im2 t m y i) * cosU t (4 * i - 1) + (re1 t m y i - re2 t m y i) * sinU t (4 * i - 1)

/-- The cases of kernel types 1 and 2 in `ia_core_coder_calc_pre_twid_dec`, ia_core_coder_imdct.c 98-151,
for an even `m`. In the last round the two entries written are the same one: the real part is first
`tmp + d`, then `tmp - (tmp + d)` and after the loop `tmp + d` again (149); the imaginary part is first
`d - tmp` and then `d`. -/
noncomputable def pre12 (t k m : ℕ) (x : Buf) : Buf × Buf :=
  let y := turned k (2 * m) x
  (fun n =>
    if n = 0 then y 0 + y m * Real.sin (Real.pi * (1 / 4))
    else if n < m / 2 then (re1 t m y n + re2 t m y n) - reD t m y n
    else (re1 t m y (m - n) + re2 t m y (m - n)) + reD t m y (m - n),
   fun n =>
    if n = 0 then y 0 - y m * Real.sin (Real.pi * (1 / 4))
    else if n < m / 2 then imD t m y n + (im1 t m y n - im2 t m y n)
    else if n = m / 2 then imD t m y n
    else imD t m y (m - n) - (im1 t m y (m - n) - im2 t m y (m - n)))

/-- The cases of kernel types 1 and 2 in `ia_core_coder_calc_post_twid_dec`, ia_core_coder_imdct.c
214-236, for an even `m`. -/
noncomputable def post12 (k m : ℕ) (z : Buf × Buf) : Buf := fun j =>
  let y := if j % 4 = 0 then z.1 (j / 4)
    else if j % 4 = 1 then z.2 (m - 1 - j / 4)
    else if j % 4 = 2 then z.2 (j / 4)
    else z.1 (m - 1 - j / 4)
  if k = 1 ∧ j % 2 = 1 then -y else y

/-- `ia_core_coder_fft_based_imdct`, ia_core_coder_imdct.c 294-345, for `size` values. Kernel types 1
and 2 have one table, of 1024 values, for all sizes (307-310). -/
noncomputable def fftImdct (k : ℕ) (size : ℕ) (x : Buf) : Buf :=
  if k = 3 then post3 (size / 2) (ifft (size / 2) (pre3 (size / 2) x).1 (pre3 (size / 2) x).2)
  else if k = 1 ∨ k = 2 then
    post12 k (size / 2) (ifft (size / 2) (pre12 1024 k (size / 2) x).1 (pre12 1024 k (size / 2) x).2)
  else post0 (size / 2) (ifft (size / 2) (pre0 (size / 2) x).1 (pre0 (size / 2) x).2)

/-- `ia_core_coder_acelp_imdct`, ia_core_coder_imdct.c 366-382. -/
noncomputable def imdct (k : ℕ) (npoints : ℕ) (x : Buf) : Buf :=
  fftImdct k (npoints / 2) (fun i => if i < npoints / 2 then x i * (2 / npoints) else x i)

/-! ## Windows -/

/-- The tables of windows of ia_core_coder_rom.c. -/
structure Tables where
  kbd1024 : Buf
  kbd128 : Buf
  kbd64 : Buf
  kbd16 : Buf
  kbd4 : Buf
  sine1024 : Buf
  sine256 : Buf
  sine128 : Buf

/-- `ia_core_coder_calc_window`, ia_core_coder_windowing.c 69-120. The codes are
`IA_MPEGH_DEC_EXE_FATAL_UNSUPPORTED_WINDOW_LEN` and `…_SHAPE` (impeghd_error_codes.h 231-232). -/
def calcWindow (t : Tables) (len shape : ℕ) : Res Buf :=
  if shape = 1 then
    if len = 1024 then .ok t.kbd1024
    else if len = 128 then .ok t.kbd128
    else if len = 64 then .ok t.kbd64
    else if len = 16 then .ok t.kbd16
    else if len = 4 then .ok t.kbd4
    else .err (.other 0xFFFF9801)
  else if shape = 0 then
    if len = 1024 then .ok t.sine1024
    else if len = 256 then .ok t.sine256
    else if len = 128 then .ok t.sine128
    else .err (.other 0xFFFF9801)
  else .err (.other 0xFFFF9802)

/-- `ia_core_coder_windowing_long1`, ia_core_coder_basic_ops.c 124-153: `s` is `ptr_src1`, `ov` is
`ptr_src2`; `vlen` is even, so that every entry is written. -/
noncomputable def long1 (vlen k : ℕ) (s ov w : Buf) : Buf := fun j =>
  if j < vlen / 2 then s j * w j + ov j * w (vlen - 1 - j)
  else if k = 2 ∨ k = 3 then s (vlen - 1 - j) * w j + ov j * w (vlen - 1 - j)
  else -(s (vlen - 1 - j)) * w j + ov j * w (vlen - 1 - j)

/-- `ia_core_coder_windowing_long3`, ia_core_coder_basic_ops.c 230-280: `f` is `n_flat_ls`, `nt` is
`n_trans_ls`. -/
noncomputable def long3 (n f nt k : ℕ) (s ov w : Buf) : Buf := fun i =>
  if i < f then ov i
  else if i < n / 2 then s i * w (i - f) + ov i * w (nt - 1 - (i - f))
  else if i < f + nt then
    (if k ≠ 3 then -(s (n - i - 1)) else s (n - i - 1)) * w (i - f) + ov i * w (nt - 1 - (i - f))
  else if k ≠ 3 then -(s (n - i - 1)) else s (n - i - 1)

/-- The samples kept for the next frame, ia_core_coder_imdct.c 762-814: `v` is `p_in_ibuffer`. -/
noncomputable def keep (n k : ℕ) (v : Buf) : Buf := fun j =>
  if n / 2 ≤ j then
    (if k = 1 ∨ k = 2 then v (j - n / 2) else -(v (j - n / 2)))
  else
    (if k = 2 ∨ k = 3 then v (n / 2 - 1 - j) else -(v (n / 2 - 1 - j)))

/-- `ia_core_coder_windowing_short2`, ia_core_coder_basic_ops.c 335-367: `b` is where `ptr_fp` points to in
the buffer `p`, and `s` is `ptr_src1`. -/
noncomputable def short2 (f ns k : ℕ) (s w : Buf) (b : ℕ) (p : Buf) : Buf := fun j =>
  if j < b then p j
  else if j - b < ns / 2 then s (j - b) * w (j - b) + p j * w (ns - 1 - (j - b))
  else if j - b < ns then
    (if k ≠ 3 then -(s (ns - 1 - (j - b))) else s (ns - 1 - (j - b))) * w (j - b) +
      p j * w (ns - 1 - (j - b))
  else if j - b < ns + (f + ns) then 0
  else p j

/-- `ia_core_coder_windowing_short3`, ia_core_coder_basic_ops.c 383-411. For kernel type 3 the entry of
the buffer is added to the window (404). -/
noncomputable def short3 (ns k : ℕ) (s w : Buf) (b : ℕ) (p : Buf) : Buf := fun j =>
  if j < b then p j
  else if j - b < ns / 2 then
    (if k ≠ 3 then p j + -(s (ns / 2 - (j - b) - 1)) * w (ns - 1 - (j - b))
     else s (ns / 2 - (j - b) - 1) * (w (ns - 1 - (j - b)) + p j))
  else if j - b < ns then p j + -(s (ns / 2 - (ns - 1 - (j - b)) - 1)) * w (ns - 1 - (j - b))
  else p j

/-- `ia_core_coder_windowing_short4`, ia_core_coder_basic_ops.c 429-508: both windows are `w`, and `last`
is `flag != 1`. -/
noncomputable def short4 (ns k : ℕ) (last : Bool) (s w : Buf) (b : ℕ) (p : Buf) : Buf := fun j =>
  let i := j - b
  if j < b then p j
  else if i < ns / 2 then p j + s (ns / 2 + i) * w i
  else if i < ns then
    p j + (if k ≠ 3 then -(s (ns / 2 + (ns - 1 - i))) else s (ns / 2 + (ns - 1 - i))) * w i
  else if i < ns + ns / 2 then
    p j + (if k ≠ 3 then -(s (ns / 2 - 1 - (i - ns))) else s (ns / 2 - 1 - (i - ns))) *
      (if last then 1 else w (2 * ns - 1 - i))
  else if i < 2 * ns then
    p j + -(s (ns / 2 - 1 - (2 * ns - 1 - i))) * (if last then 1 else w (2 * ns - 1 - i))
  else p j

/-! ## Frames -/

/-- `window_sequence`, ia_core_coder_cnst.h: `ONLY_LONG_SEQUENCE`, `LONG_START_SEQUENCE`,
`EIGHT_SHORT_SEQUENCE`, `LONG_STOP_SEQUENCE`, `STOP_START_SEQUENCE`. -/
inductive Seq where
  | only | start | eight | stop | stopStart
  deriving DecidableEq, Repr

/-- `n_short`, ia_core_coder_imdct.c 845. -/
def nShort (n : ℕ) : ℕ := n / 8

/-- `n_flat_ls` of a frame after a frame in the frequency domain, ia_core_coder_imdct.c 852-853. -/
def nFlat (n : ℕ) : ℕ := (n - nShort n) / 2

/-- `transform_kernel_type`, ia_core_coder_imdct.c 418-419 and 699-700. -/
def kernel (prev cur : Bool) : ℕ := (if prev then 2 else 0) + (if cur then 1 else 0)

/-- The samples of a frame that is not `EIGHT_SHORT_SEQUENCE` and the samples kept,
`ia_core_coder_fd_imdct_long`, ia_core_coder_imdct.c 682-818, from the transformed values `v`: `k` is
the kernel type, `sp` is `window_shape_prev`, `ov` are the samples kept before. -/
noncomputable def fdLong (t : Tables) (n : ℕ) (q : Seq) (k sp : ℕ) (v ov : Buf) : Res (Buf × Buf) :=
  let s : Buf := fun i => v (n / 2 + i)
  if q = .only ∨ q = .start then
    (calcWindow t n sp).bind fun w => .ok (long1 n k s ov w, keep n k v)
  else
    (calcWindow t (nShort n) sp).bind fun w =>
      .ok (long3 n (nFlat n) (nShort n) k s ov w, keep n k v)

/-- The loop over the last seven short blocks, ia_core_coder_imdct.c 475-487: `i` blocks are done. -/
noncomputable def shorts (n k : ℕ) (v w : Buf) : ℕ → Buf → Buf
  | 0, p => p
  | i + 1, p => short4 (nShort n) k (decide (i = 6)) (fun j => v ((i + 1) * nShort n + j)) w
      (nFlat n + (i + 1) * nShort n) (shorts n k v w i p)

/-- The samples of a frame `EIGHT_SHORT_SEQUENCE` and the samples kept,
`ia_core_coder_fd_imdct_short`, ia_core_coder_imdct.c 397-520: `sh` is `window_shape`. -/
noncomputable def fdShort (t : Tables) (n k sh sp : ℕ) (v ov : Buf) : Res (Buf × Buf) :=
  (calcWindow t (nShort n) sh).bind fun w =>
    (calcWindow t (nShort n) sp).bind fun wp =>
      let p0 : Buf := fun j => if j < n then ov j else 0
      let p1 := short2 (nFlat n) (nShort n) k (fun j => v (nShort n / 2 + j)) wp (nFlat n) p0
      let p2 := short3 (nShort n) k v w (nFlat n + nShort n) p1
      let p3 := shorts n k v w 7 p2
      let p4 : Buf := fun j => if 2 * n - nFlat n ≤ j ∧ j < 2 * n then 0 else p3 j
      .ok (fun j => p4 j, fun j => p4 (n + j))

/-- `ia_core_coder_fd_frm_dec`, ia_core_coder_imdct.c 832-905. -/
noncomputable def fdFrame (t : Tables) (n : ℕ) (q : Seq) (k sh sp : ℕ) (v ov : Buf) :
    Res (Buf × Buf) :=
  if q = .eight then fdShort t n k sh sp v ov else fdLong t n q k sp v ov

/-- A frame as it is decoded: the window sequence, `window_shape`, the symmetries and the transformed
values. -/
structure Frame where
  seq : Seq
  shape : ℕ
  prevSym : Bool
  curSym : Bool
  v : Buf

/-- Frames one after another: the shape of a frame becomes `window_shape_prev`
(ia_core_coder_ext_ch_ele.c 1117). The state is `window_shape_prev` and the samples kept. -/
noncomputable def frames (t : Tables) (n : ℕ) : List Frame → ℕ → Buf → Res (List Buf)
  | [], _, _ => .ok []
  | f :: fs, sp, ov =>
    (fdFrame t n f.seq (kernel f.prevSym f.curSym) f.shape sp f.v ov).bind fun r =>
      (frames t n fs f.shape r.2).bind fun os => .ok (r.1 :: os)

/-- The transforms of a frame, ia_core_coder_imdct.c 434-443 and 707-709: one of `2 n` points or eight
of `2 n_short` points. -/
noncomputable def transforms (n : ℕ) (q : Seq) (k : ℕ) (x : Buf) : Buf :=
  if q = .eight then fun j =>
    imdct k (2 * nShort n) (fun i => x (j / nShort n * nShort n + i)) (j % nShort n)
  else imdct k (2 * n) x

end Verif.Imdct
