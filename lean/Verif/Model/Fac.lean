import Verif.Model.Imdct

/-!
# Frames of the frequency domain after a frame of the time domain

`ia_core_coder_fd_frm_dec` (`/repo/decoder/ia_core_coder_imdct.c`) when `td_frame_prev` and
`fac_data_present` are set: the forward aliasing cancellation (FAC) signal is put at the beginning of the
block, by `ia_core_coder_windowing_long2` and `ia_core_coder_windowing_short1`
(`/repo/decoder/ia_core_coder_basic_ops.c`).

Simplifications: as in `Model/Imdct.lean`. The FAC signal (`fac_time_sig`) is a parameter. The samples are
those before the bass post filter.
-/

namespace Verif.Fac

open Verif Verif.Imdct

/-- `lfac` after a frame of the time domain, ia_core_coder_imdct.c 858-865. -/
def lfac (n : ℕ) (eight : Bool) : ℕ := if eight then n / 16 else n / 8

/-- `n_flat_ls` after a frame of the time domain, ia_core_coder_imdct.c 866-867. -/
def flat (n l : ℕ) : ℕ := (n - 2 * l) / 2

/-- `n_trans_ls` after a frame of the time domain, ia_core_coder_imdct.c 869. -/
def trans (l : ℕ) : ℕ := 2 * l

/-- `ia_core_coder_windowing_long2`, ia_core_coder_basic_ops.c 172-211: `old` is what the buffer of the
output held before. The number of bytes copied is `f + l * sizeof(FLOAT32)` (180-181), a multiple of four
here. The pointer to the FAC signal goes on from the loop of 190-198 to that of 199-210. -/
noncomputable def long2 (n f nt l : ℕ) (s w fac ov old : Buf) : Buf := fun i =>
  if i < (f + l * 4) / 4 then ov i
  else if i < f + l then old i
  else if i < f + nt then
    fac (f + l * 3 - (f + nt) + (i - (f + l))) + -(s (n / 2 + f + l - i - 1)) * w (l + (i - (f + l)))
  else if i < f + l * 3 then -(s (n / 2 + f + l - i - 1)) + fac (i - (f + nt))
  else if i < n then -(s (n / 2 + f + l - i - 1))
  else old i

/-- `ia_core_coder_windowing_short1`, ia_core_coder_basic_ops.c 297-318: `b` is where `ptr_fp` points to
in the buffer `p`, `s` is `ptr_src1` and `w` is `ptr_src2`. -/
noncomputable def short1 (f ns l : ℕ) (s w : Buf) (b : ℕ) (p : Buf) : Buf := fun j =>
  if ns ≤ l then if b + l ≤ j ∧ j < b + l + (f + l) then 0 else p j
  else if j < b + l then p j
  else if j < b + ns then -(s (ns - (j - b) - 1)) * w (j - b)
  else if j < b + ns + (f + l) then 0
  else p j

/-- A long frame with FAC, `ia_core_coder_fd_imdct_long`, ia_core_coder_imdct.c 731-743 and 762-814. -/
noncomputable def facLong (t : Tables) (n k sp : ℕ) (v ov fac old : Buf) : Res (Buf × Buf) :=
  let l := lfac n false
  (calcWindow t (trans l) sp).bind fun w =>
    .ok (long2 n (flat n l) (trans l) l (fun i => v (n / 2 + i)) w fac ov old, keep n k v)

/-- A frame of eight short blocks with FAC, `ia_core_coder_fd_imdct_short`, ia_core_coder_imdct.c
397-507. The offset of the short blocks is `flat`, which is `nFlat` for the lengths in use. -/
noncomputable def facShort (t : Tables) (n k sh sp : ℕ) (v ov fac : Buf) : Res (Buf × Buf) :=
  let l := lfac n true
  (calcWindow t (nShort n) sh).bind fun w =>
    (calcWindow t (trans l) sp).bind fun wp =>
      let p0 : Buf := fun j => if j < n then ov j else 0
      let p1 := short1 (flat n l) (nShort n) l (fun j => v (nShort n / 2 + j)) wp (flat n l) p0
      let p2 := short3 (nShort n) k v w (flat n l + nShort n) p1
      let p3 := shorts n k v w 7 p2
      let p4 : Buf := fun j =>
        if flat n l + l ≤ j ∧ j < flat n l + l + 2 * l then p3 j + fac (j - (flat n l + l)) else p3 j
      let p5 : Buf := fun j => if 2 * n - flat n l ≤ j ∧ j < 2 * n then 0 else p4 j
      .ok (fun j => p5 j, fun j => p5 (n + j))

end Verif.Fac
