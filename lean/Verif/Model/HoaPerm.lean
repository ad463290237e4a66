import Verif.Prelude
import Mathlib.Analysis.SpecialFunctions.Trigonometric.Inverse
import Mathlib.Algebra.BigOperators.Group.Finset.Basic

/-! # Which loudspeaker plays which row of an ambisonics rendering matrix:
`impeghd_hoa_renderer.c` 268-549, parts of `impeghd_hoa_render_mtrx.c`, `impeghd_hoa_simple_mtrx.c` and
`impeghd_hoa_dec_init.c` 537-592

Single-precision numbers are reals and rounding is not modelled. Matrices are functions of row and
column, except the matrix of `impeghd_hoa_ren_permute_lfe_channel`, into which one flat index can reach
another row. The local loudspeakers are those of a CICP layout where not said otherwise; then the
types of `impeghd_hoa_ren_get_loudspeaker_type` and the positions of
`impeghd_hoa_ren_space_positions_init_with_param` (one list of the satellites and one of the LFEs, in
the order of the layout) are those of the loudspeakers of that layout. -/

namespace Verif.HoaPerm

open Finset (range)

/-- A loudspeaker: whether it is an LFE, inclination and azimuth in radians. -/
structure Spk where
  lfe : Bool
  inc : ℝ
  az : ℝ

/-- `ia_render_hoa_simple_mtrx_str` -/
structure Mtx where
  rows : Nat
  cols : Nat
  at_ : Nat → Nat → ℝ

/-- `impeghd_hoa_ren_simple_mtrx_mult` with a scratch buffer, impeghd_hoa_simple_mtrx.c 179-215; `none`:
the error, nothing is written. -/
noncomputable def mult (a b : Mtx) : Option Mtx :=
  if a.cols ≠ b.rows then none
  else some ⟨a.rows, b.cols, fun r c => ∑ i ∈ range a.cols, b.at_ i c * a.at_ r i⟩

/-! ## LFE channels of the matrices the decoder makes itself -/

/-- The loop that fills the permutation matrix, impeghd_hoa_renderer.c 326-342: `n` the row, `h` and
`s` `num_hoa_idx` and `num_sub_idx`. -/
noncomputable def fill (k : Nat) : List Bool → Nat → Nat → Nat → (Nat → ℝ) → (Nat → ℝ)
  | [], _, _, _, p => p
  | t :: l, n, h, s, p =>
    let idx := if t then s else h
    let p : Nat → ℝ := fun i => if n * k ≤ i ∧ i < n * k + k then 0 else p i
    let p : Nat → ℝ := fun i => if i = n * k + idx then 1 else p i
    fill k l (n + 1) (if t then h else h + 1) (if t then s + 1 else s) p

/-- `impeghd_hoa_ren_permute_lfe_channel`, impeghd_hoa_renderer.c 307-349, for one matrix: `types` are
`ls_types`, `numPos` the number of satellites. The return value of the multiplication is ignored. -/
noncomputable def permuteLfe (types : List Bool) (numPos : Nat) (m : Mtx) : Mtx :=
  let k := types.length
  let p := fill k types 0 0 numPos fun _ => 0
  (mult ⟨k, k, fun r c => p (r * k + c)⟩ m).getD m

/-! ## Matrices from the bitstream -/

/-- `impeghd_hoa_ren_angular_distance`, impeghd_hoa_renderer.c 363-370. -/
noncomputable def angular (a b : Spk) : ℝ :=
  Real.arccos (min 1 (max (-1) (Real.cos (a.az - b.az) * (Real.sin a.inc * Real.sin b.inc) +
    Real.cos b.inc * Real.cos a.inc)))

/-- `dist_mtrx`, impeghd_hoa_renderer.c 418-453: row of the signalled, column of the local
loudspeaker. -/
noncomputable def dist (sig loc : Nat → Spk) (s l : Nat) : ℝ :=
  if (sig s).lfe = (loc l).lfe then angular (loc l) (sig s) else 1111111

/-- The smallest entry of a row and where it is, impeghd_hoa_renderer.c 460-469. -/
noncomputable def pick (d : Nat → ℝ) : Nat → ℝ × Nat
  | 0 => (d 0, 0)
  | i + 1 => if d i < (pick d i).1 then (d i, i) else pick d i

/-- `new_order` and `dist_mtrx` after `s` rows, impeghd_hoa_renderer.c 456-473, for `n` loudspeakers. -/
noncomputable def greedy (n : Nat) (d : Nat → Nat → ℝ) : Nat → (Nat → Nat) × (Nat → Nat → ℝ)
  | 0 => (fun _ => 0, d)
  | s + 1 =>
    let (order, d) := greedy n d s
    let index := (pick (d s) n).2
    (fun i => if i = s then index else order i,
      fun r c => if r < n ∧ c = index then 1111111 else d r c)

/-- `new_order` -/
noncomputable def newOrder (n : Nat) (sig loc : Nat → Spk) : Nat → Nat :=
  (greedy n (dist sig loc) n).1

/-- The permutation matrix, impeghd_hoa_renderer.c 474-490. -/
noncomputable def permMtx (n : Nat) (order : Nat → Nat) : Mtx :=
  ⟨n, n, fun l s => if order s = l then 1 else 0⟩

/-- `impeghd_hoa_ren_mtrx_resort_spk_pos`, impeghd_hoa_render_mtrx.c 424-451; `none` is type 2 at
position 1000. -/
noncomputable def resort (order : Nat → Nat) (sig : Nat → Spk) : Nat → (Nat → Option Spk)
  | 0 => fun _ => none
  | i + 1 => fun l => if l = order i then some (sig i) else resort order sig i l

/-- `HOA_REN_VALIDATE_TOLERANCE`, impeghd_hoa_common_values.h 94 -/
noncomputable def tolerance : ℝ := 8744099736213684 / 100000000000000000

/-- What `impeghd_hoa_ren_validate_signaled_rendering_matrix` asks of one loudspeaker,
impeghd_hoa_renderer.c 525-547. -/
def okAt (loc : Spk) : Option Spk → Prop
  | none => False
  | some s => s.lfe = loc.lfe ∧ (loc.lfe = false → angular loc s ≤ tolerance)

/-- How many of the first `n` loudspeakers are LFEs (`lfe`) or satellites, impeghd_hoa_render_mtrx.c
97-113. -/
def count (n : Nat) (spk : Nat → Spk) (lfe : Bool) : Nat :=
  ((range n).filter fun i => (spk i).lfe = lfe).card

open Classical in
/-- impeghd_hoa_dec_init.c 557-575 with `impeghd_hoa_ren_mtrx_init_with_mtrx_param`
(impeghd_hoa_render_mtrx.c 88-133) and `impeghd_hoa_ren_permute_signaled_rendering_matrix`
(impeghd_hoa_renderer.c 385-498): the matrix `m` signalled for the `k` loudspeakers `sig`, when the
`n` loudspeakers `loc` are there. `none`: the matrix is not used. `signaled_speaker_pos_rad` has 49
entries (impeghd_hoa_render_mtrx.h 40); three are written for every loudspeaker. -/
noncomputable def signalled (k : Nat) (sig : Nat → Spk) (n : Nat) (loc : Nat → Spk) (cols : Nat)
    (m : Nat → Nat → ℝ) : Res (Option Mtx) :=
  if 49 < 3 * k then .ub
  else if n ≠ k ∨ count k sig false ≠ count n loc false ∨ count k sig true ≠ count n loc true then
    .ok none
  else
    let order := newOrder n sig loc
    if ∀ i < n, okAt (loc i) (resort order sig k i) then .ok (mult (permMtx n order) ⟨k, cols, m⟩)
    else .ok none

/-- `impgehd_cicp_get_num_ls`, impeghd_cicp_2_geometry_rom.c 107-108: the loudspeakers of the CICP
layouts. -/
def numLs : List Nat := [0, 1, 2, 3, 4, 5, 6, 8, 0, 3, 4, 7, 8, 24, 8, 12, 10, 12, 14, 12, 14]

end Verif.HoaPerm
