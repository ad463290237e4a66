import Verif.Model.Displace
import Mathlib.Algebra.BigOperators.Group.Finset.Basic
import Mathlib.Algebra.BigOperators.Intervals

/-! # The object renderer: `impeghd_obj_ren_vbap.c`, parts of `impeghd_obj_ren_dec.c` and
`ia_core_coder_decode_main.c` 1358-1413, 2029-2052

Single-precision numbers are reals and the square root, sine, cosine and tangent are the real ones;
rounding is not modelled. A division of zero by zero is a distinct outcome (`none`): it makes the
gains not-a-number. The loudspeaker triangles are an input (their construction,
impeghd_obj_ren_dec.c 1187-1290, is modelled in `Model/ObjHull.lean` and `Model/ObjProj.lean`); the positions of imaginary loudspeakers are
modelled in `Model/ObjLayout.lean`. Arrays that are written only at fixed places are functions. -/

namespace Verif.ObjRen

open Verif.Displace
open Finset (range)

/-- `impeghd_pol_2_cart_degree`, impeghd_3d_vec_basic_ops.c 86-97. -/
noncomputable def cartDeg (p : Polar) : Cart := polCart ⟨rad p.theta, rad p.phi, p.radius⟩

/-- `ia_renderer_ls_triangle`, `spk_index[0..2]`, impeghd_obj_ren_dec_struct_def.h 45-48. -/
structure Tri where
  a : Nat
  b : Nat
  c : Nat
  deriving DecidableEq, Repr

/-- `ia_renderer_ls_inv_mtx`, impeghd_obj_ren_dec_struct_def.h 79-82. -/
structure Rows where
  r1 : Cart
  r2 : Cart
  r3 : Cart

/-- `det` of `impeghd_calc_inv_matrix`, impeghd_obj_ren_dec.c 976-982. -/
def det (a b c : Cart) : ℝ :=
  a.z * (b.x * c.y - b.y * c.x) - a.y * (b.x * c.z - b.z * c.x) + a.x * (b.y * c.z - b.z * c.y)

/-- `impeghd_calc_inv_matrix`, impeghd_obj_ren_dec.c 973-1010; `old` is what the rows held before.
`sizeof(inv_mtx_row[3])` (985) is the size of one row, so only the first row is cleared. -/
noncomputable def invMtx (old : Rows) (a b c : Cart) : Rows :=
  if det a b c = 0 then { old with r1 := ⟨0, 0, 0⟩ }
  else
    let d := 1 / det a b c
    { r1 := ⟨(b.y * c.z - b.z * c.y) * d, (b.x * c.z - b.z * c.x) * -d, (b.x * c.y - b.y * c.x) * d⟩
      r2 := ⟨(a.y * c.z - a.z * c.y) * -d, (a.x * c.z - a.z * c.x) * d, (a.x * c.y - a.y * c.x) * -d⟩
      r3 := ⟨(a.y * b.z - a.z * b.y) * d, (a.x * b.z - a.z * b.x) * -d, (a.x * b.y - a.y * b.x) * d⟩ }

/-- The fields of `ia_obj_ren_dec_state_struct` that the panner reads: `num_non_lfe_ls`,
`num_non_lfe_ls + num_imag_ls`, `num_triangles`, `ls_triangle`, `ls_inv_mtx`, the positions of
`non_lfe_ls_str`, `downmix_mtx` and `height_spks_present`. -/
structure Geo where
  nReal : Nat
  nAll : Nat
  nTri : Nat
  tri : Nat → Tri
  inv : Nat → Rows
  pos : Nat → Cart
  dmx : Nat → Nat → ℝ
  height : Bool

/-- `impeghd_vbap_core_init`, impeghd_obj_ren_dec.c 1022-1044, for vertices below 44. -/
noncomputable def coreInit (s : Geo) : Geo :=
  { s with inv := fun i =>
      if i < s.nTri then invMtx (s.inv i) (s.pos (s.tri i).a) (s.pos (s.tri i).b) (s.pos (s.tri i).c)
      else s.inv i }

/-- One row times the position, impeghd_obj_ren_vbap.c 176-178. -/
def dot (p r : Cart) : ℝ := p.x * r.x + p.y * r.y + p.z * r.z

/-- `gains`, impeghd_obj_ren_vbap.c 171-178. -/
def triGains (m : Rows) (p : Cart) : Fin 3 → ℝ := ![dot p m.r1, dot p m.r2, dot p m.r3]

/-- What `neg_gain_idx` is after the loop, impeghd_obj_ren_vbap.c 173, 179-182: how many gains are
below -0.01. -/
noncomputable def below (g : Fin 3 → ℝ) : Nat :=
  (if -(1 / 100) ≤ g 2 then 0 else 1) + (if -(1 / 100) ≤ g 1 then 0 else 1) +
    (if -(1 / 100) ≤ g 0 then 0 else 1)

/-- `min_gain`, impeghd_obj_ren_vbap.c 172, 183-186. -/
noncomputable def least (g : Fin 3 → ℝ) : ℝ :=
  let m : ℝ := 10000000
  let m := if g 2 < m then g 2 else m
  let m := if g 1 < m then g 1 else m
  if g 0 < m then g 0 else m

/-- `g`, `highest_least_gain`, `hi_lo_gain_idx` and `winner_set`. -/
structure Best where
  g : Fin 3 → ℝ
  low : ℝ
  out : Nat
  win : Nat

/-- The loop over the triangles, impeghd_obj_ren_vbap.c 159-199. -/
noncomputable def search (inv : Nat → Rows) (p : Cart) : Nat → Best
  | 0 => ⟨fun _ => 0, -100000, 3, 0⟩
  | n + 1 =>
    let b := search inv p n
    let g := triGains (inv n) p
    if below g < b.out ∨ (below g ≤ b.out ∧ b.low < least g) then ⟨g, least g, below g, n⟩ else b

/-- The gains are not negative, impeghd_obj_ren_vbap.c 203-210 and 224-235. (The position that 212-223
write back is not read again.) -/
noncomputable def clip (g : Fin 3 → ℝ) : Fin 3 → ℝ := fun j =>
  let x := if g j < -(1 / 100) then 0 else g j
  if x < 0 then 0 else x

/-- `power`, impeghd_obj_ren_vbap.c 237. -/
noncomputable def power (g : Fin 3 → ℝ) : ℝ := Real.sqrt (g 0 * g 0 + g 1 * g 1 + g 2 * g 2)

/-- impeghd_obj_ren_vbap.c 237-244 -/
noncomputable def scale (g : Fin 3 → ℝ) : Fin 3 → ℝ :=
  if power g ≠ 0 then fun j => g j / power g else g

/-- Add a gain at a loudspeaker. -/
def addAt (k : Nat) (x : ℝ) (ls : Nat → ℝ) : Nat → ℝ := fun i => if i = k then x + ls i else ls i

/-- `impeghd_calc_one_source_point`, impeghd_obj_ren_vbap.c 156-251. -/
noncomputable def source (s : Geo) (p : Cart) (ls : Nat → ℝ) : Nat → ℝ :=
  let b := search s.inv p s.nTri
  let t := s.tri b.win
  let g := scale (clip b.g)
  addAt t.a (g 0) (addAt t.b (g 1) (addAt t.c (g 2) ls))

/-- `impeghd_nrm_values`, impeghd_obj_ren_vbap.c 83-100; `none`: all values are zero, `1 / len` is
infinite and the products are not numbers. -/
noncomputable def normed (n : Nat) (ls : Nat → ℝ) : Option (Nat → ℝ) :=
  let len := Real.sqrt (∑ i ∈ range n, ls i * ls i)
  if len = 0 then none else some fun i => if i < n then ls i * (1 / len) else ls i

/-- `alpha` of `impeghd_calc_spread_gains`, impeghd_obj_ren_vbap.c 122, 129-136. -/
noncomputable def spreadAlpha (w : ℝ) : ℝ :=
  let a := rad w / (Real.pi / 2) - 1
  if 1 < a then 1 else if a < 0 then 0 else a

/-- `impeghd_calc_spread_gains`, impeghd_obj_ren_vbap.c 114-142; `none` when all gains are zero. -/
noncomputable def spreadGains (n : Nat) (w : ℝ) (ls : Nat → ℝ) : Option (Nat → ℝ) :=
  let norm := Real.sqrt (∑ i ∈ range n, ls i * ls i)
  if norm = 0 then none
  else some fun i =>
    if i < n then (1 - spreadAlpha w) * ls i / norm + spreadAlpha w * (1 / Real.sqrt n) else ls i

/-- `impeghd_scaled_vec_addition_cart`, impeghd_3d_vec_basic_ops.c 146-155. -/
def comb (a : Cart) (x : ℝ) (b : Cart) (y : ℝ) : Cart :=
  ⟨x * a.x + y * b.x, x * a.y + y * b.y, x * a.z + y * b.z⟩

/-- `impeghd_vector_process`, impeghd_obj_ren_vbap.c 266-320: vectors 1 to 18; vector 0 is the
position itself. -/
noncomputable def mdap (c u v p0 : Cart) : List Cart :=
  let third : ℝ := 333 / 1000
  let s3 : ℝ := 866 / 1000
  let v7 := comb (comb u (1 / 2) v s3) 1 p0 third
  let v10 := comb (comb u (-(1 / 2)) v s3) 1 p0 third
  let v13 := comb (comb u (-(1 / 2)) v (-s3)) 1 p0 third
  let v16 := comb (comb u (1 / 2) v (-s3)) 1 p0 third
  [c,
   u, comb u (3 / 4) p0 (1 / 4), comb u (3 / 8) p0 (5 / 8),
   ⟨-u.x, -u.y, -u.z⟩, comb u (-(3 / 4)) p0 (1 / 4), comb u (-(3 / 8)) p0 (5 / 8),
   v7, comb v7 (1 / 2) p0 (1 / 2), comb v7 (1 / 4) p0 (3 / 4),
   v10, comb v10 (1 / 2) p0 (1 / 2), comb v10 (1 / 4) p0 (3 / 4),
   v13, comb v13 (1 / 2) p0 (1 / 2), comb v13 (1 / 4) p0 (3 / 4),
   v16, comb v16 (1 / 2) p0 (1 / 2), comb v16 (1 / 4) p0 (3 / 4)]

/-- The metadata of an object as `impegh_obj_ren_vbap_process` reads them, impeghd_obj_ren_vbap.c
551-561: descaled azimuth, elevation, radius, gain and the spread in degrees. -/
structure Obj where
  az : ℝ
  el : ℝ
  radius : ℝ
  gain : ℝ
  width : ℝ
  tall : ℝ
  depth : ℝ

/-- The limits of a spread angle, impeghd_obj_ren_vbap.c 349-359. -/
noncomputable def limitSpread (x : ℝ) : ℝ :=
  if 90 < x then 90 else if x < 1 / 1000 then 1 / 1000 else x

/-- The end of `impeghd_spreading_calc_mdap_vectors`, impeghd_obj_ren_vbap.c 400-419: shift by
`p0 / tan(alpha)` and normalise. At 90 degrees the C tangent is a huge number, the real one is zero
here; the quotient is (nearly) zero in both. -/
noncomputable def shift (alpha : ℝ) (p0 v : Cart) : Cart :=
  let t := Real.tan (rad alpha)
  let w : Cart := ⟨v.x + p0.x / t, v.y + p0.y / t, v.z + p0.z / t⟩
  let len := Real.sqrt (w.x * w.x + (w.y * w.y + w.z * w.z))
  if len ≠ 0 then ⟨w.x * (1 / len), w.y * (1 / len), w.z * (1 / len)⟩ else w

/-- `impeghd_spreading_calc_mdap_vectors`, impeghd_obj_ren_vbap.c 336-420. The limited height and depth
are not used. -/
noncomputable def spreadVecs (height : Bool) (o : Obj) (c : Cart) : List Cart :=
  let p0 := cartDeg ⟨o.az, o.el, 1⟩
  let v := cartDeg ⟨o.az, if o.el < 0 then o.el + 90 else o.el - 90, 1⟩
  let u : Cart := ⟨v.y * p0.z - v.z * p0.y, v.z * p0.x - v.x * p0.z, v.x * p0.y - v.y * p0.x⟩
  let v := if height then v else ⟨0, 0, 0⟩
  (mdap c u v p0).map (shift (limitSpread o.width) p0)

/-- `impeghd_calc_vbap` with `gain_fac` one, impeghd_obj_ren_vbap.c 437-471 (the loop 467-470 then
multiplies the first gain by one). -/
noncomputable def vbap (s : Geo) (o : Obj) : Option (Nat → ℝ) :=
  let c := cartDeg ⟨o.az, o.el, o.radius⟩
  if o.width ≤ 0 ∧ o.tall ≤ 0 then normed s.nAll (source s c fun _ => 0)
  else
    let ls := (spreadVecs s.height o c).foldl (fun ls v => source s v ls) fun _ => 0
    (spreadGains s.nAll o.width ls).bind (normed s.nAll)

/-- The row of `downmix_mtx` times the gains, impeghd_obj_ren_vbap.c 581-587. -/
noncomputable def mixed (s : Geo) (ls : Nat → ℝ) (i : Nat) : ℝ :=
  ∑ j ∈ range s.nAll, s.dmx i j * ls j

/-- `gain_sum`, impeghd_obj_ren_vbap.c 578, 588-590. -/
noncomputable def gainSum (s : Geo) (ls : Nat → ℝ) : ℝ :=
  Real.sqrt (∑ i ∈ range s.nReal, mixed s ls i * mixed s ls i)

/-- `final_gains` after `impegh_obj_ren_vbap_process`, impeghd_obj_ren_vbap.c 551-602, for
`num_non_lfe_ls > 0` (without loudspeakers no gain is stored). -/
noncomputable def finalGains (s : Geo) (o : Obj) : Option (Nat → ℝ) :=
  (vbap s o).map fun ls i =>
    if gainSum s ls ≠ 0 then mixed s ls i * o.gain / gainSum s ls else mixed s ls i

/-! ## Rendering -/

/-- `scale` in the sample loop of `impeghd_obj_renderer_dec`, impeghd_obj_ren_dec.c 1351-1359. -/
noncomputable def ramp (g0 g1 : ℝ) (len : Nat) : Nat → ℝ
  | 0 => g0 + (g1 - g0) / len
  | j + 1 => ramp g0 g1 len j + (g1 - g0) / len

/-- The sample loop, impeghd_obj_ren_dec.c 1355-1359, with `p_out_buf` at `o` and `p_in_buf` at `i` of
flat memory. -/
noncomputable def mixCh (g0 g1 : ℝ) (len o i : Nat) (inp out : Nat → ℝ) : Nat → ℝ := fun k =>
  if o ≤ k ∧ k < o + len then out k + inp (i + (k - o)) * ramp g0 g1 len (k - o) else out k

/-- The loop over the loudspeakers, impeghd_obj_ren_dec.c 1341-1362: `n` counts the loudspeakers that
are no LFE (`ch - lfe_counter`). -/
noncomputable def channels (g0 g1 : Nat → ℝ) (len stride i : Nat) (inp : Nat → ℝ) :
    List Bool → Nat → Nat → (Nat → ℝ) → (Nat → ℝ)
  | [], _, _, out => out
  | true :: l, n, o, out => channels g0 g1 len stride i inp l n (o + stride) out
  | false :: l, n, o, out =>
    channels g0 g1 len stride i inp l (n + 1) (o + stride) (mixCh (g0 n) (g1 n) len o i inp out)

/-- `first_frame_flag`, `initial_gains` and the output buffer. -/
structure Ren where
  first : Nat → Bool
  init : Nat → Nat → ℝ
  out : Nat → ℝ

/-- The body of the loop over the objects, impeghd_obj_ren_dec.c 1332-1368 with
impeghd_obj_ren_vbap.c 497-549: the gains of a first frame are those of the same metadata. `off` is
`sub_frame_offset`, `at_` where the sub-frame begins in each row of `stride` samples. -/
noncomputable def object (s : Geo) (lfe : List Bool) (slots : Nat → Obj) (off len stride at_ : Nat)
    (inp : Nat → ℝ) (obj : Nat) (r : Ren) : Option Ren :=
  (finalGains s (slots (off + obj))).map fun g =>
    let init : Nat → Nat → ℝ := fun o i =>
      if r.first (off + obj) = true ∧ o = off + obj ∧ i < s.nReal then g i else r.init o i
    { out := channels (init obj) g len stride (obj * stride + at_) inp lfe 0 at_ r.out
      init := fun o i =>
        if o = obj ∧ i < lfe.length - lfe.count true then g i else init o i
      first := fun o => if o = obj then false else r.first o }

/-- `impeghd_obj_renderer_dec`, impeghd_obj_ren_dec.c 1318-1370, for `n` objects. -/
noncomputable def render (s : Geo) (lfe : List Bool) (slots : Nat → Obj) (off len stride at_ : Nat)
    (inp : Nat → ℝ) : Nat → Ren → Option Ren
  | 0, r => some r
  | n + 1, r =>
    (render s lfe slots off len stride at_ inp n r).bind
      (object s lfe slots off len stride at_ inp n)

/-! ## Which metadata a sub-frame uses -/

/-- `sub_frame_number` of the sub-frames of a frame, ia_core_coder_decode_main.c 1389-1405; `i` is the
sub-frame, `k` the number so far. -/
def numbers (num : Nat) : List Bool → Nat → Nat → List Nat
  | [], _, _ => []
  | true :: l, i, k =>
    let k := if num < k + 1 then (k + 1) % num else k + 1
    k :: numbers num l (i + 1) k
  | false :: l, i, k =>
    let k := if i = 0 then num else k
    k :: numbers num l (i + 1) k

/-- The loop that reads the metadata, ia_core_coder_decode_main.c 2031-2047: the metadata of the
sub-frames that have some go to the entries 1, 2, …. `slot k` is entry `k` (the metadata of all
objects; impeghd_oam_dec_ld.c 491-492). -/
def store {α : Type} : List (Option α) → Nat → (Nat → α) → (Nat → α)
  | [], _, slot => slot
  | none :: l, k, slot => store l k slot
  | some m :: l, k, slot => store l (k + 1) fun i => if i = k + 1 then m else slot i

/-- The metadata with which the sub-frames of a frame are rendered. -/
def used {α : Type} (md : List (Option α)) (slot : Nat → α) : List α :=
  (numbers md.length (md.map Option.isSome) 0 0).map (store md 0 slot)

/-! ## The downmix matrix of imaginary loudspeakers -/

/-- One triangle in the search for neighbours, impeghd_obj_ren_dec.c 880-897. -/
noncomputable def neighbours (i : Nat) (t : Tri) (m : Nat → Nat → ℝ) : Nat → Nat → ℝ :=
  let put (k : Nat) (m : Nat → Nat → ℝ) : Nat → Nat → ℝ := fun r c => if r = k ∧ c = i then 1 else m r c
  if t.c = i then put t.a (put t.b m)
  else if t.b = i then put t.a (put t.c m)
  else if t.a = i then put t.b (put t.c m)
  else m

/-- The column of an imaginary loudspeaker, impeghd_obj_ren_dec.c 877-910. -/
noncomputable def column (nAll : Nat) (ts : List Tri) (i : Nat) (m : Nat → Nat → ℝ) :
    Nat → Nat → ℝ :=
  let m := ts.foldl (fun m t => neighbours i t m) m
  let n := ∑ j ∈ range nAll, m j i
  if n ≠ 0 then fun r c => if c = i ∧ r < nAll then m r c / n else m r c else m

/-- The columns of all imaginary loudspeakers, impeghd_obj_ren_dec.c 871-911. -/
noncomputable def columns (nReal nAll : Nat) (ts : List Tri) (old : Nat → Nat → ℝ) : Nat → Nat → ℝ :=
  (List.range (nAll - nReal)).foldl (fun m k => column nAll ts (nReal + k) m)
    (fun r c => if r < nReal ∧ r = c then 1 else old r c)

/-- The matrix times itself, impeghd_obj_ren_dec.c 916-935. -/
noncomputable def square (nAll : Nat) (m : Nat → Nat → ℝ) : Nat → Nat → ℝ := fun l c =>
  if l < nAll ∧ c < nAll then ∑ n ∈ range nAll, m n c * m l n else m l c

/-- No imaginary loudspeaker passes more than 0.0001 to another one, impeghd_obj_ren_dec.c 936-943. -/
def settled (nReal nAll : Nat) (m : Nat → Nat → ℝ) : Prop :=
  ∀ l c, nReal ≤ l → l < nAll → nReal ≤ c → c < nAll → m l c ≤ 1 / 10000

open Classical in
/-- The loop of at most 20 rounds, impeghd_obj_ren_dec.c 912-947. -/
noncomputable def rounds (nReal nAll : Nat) : Nat → (Nat → Nat → ℝ) → (Nat → Nat → ℝ)
  | 0, m => m
  | k + 1, m =>
    if settled nReal nAll (square nAll m) then square nAll m
    else rounds nReal nAll k (square nAll m)

/-- `impeghd_remap_imag_spks`, impeghd_obj_ren_dec.c 862-957. -/
noncomputable def remap (nReal nAll : Nat) (ts : List Tri) (old : Nat → Nat → ℝ) : Nat → Nat → ℝ :=
  let m := rounds nReal nAll 20 (columns nReal nAll ts old)
  fun r c => if r < nAll ∧ c < nAll then Real.sqrt (m r c) else m r c

/-- The end of `impeghd_obj_renderer_dec_init`, impeghd_obj_ren_dec.c 1291-1295, for the positions,
triangles and flag found before: `old` is the state before. -/
noncomputable def finish (old : Geo) (nReal nImag : Nat) (ts : List Tri) (pos : Nat → Cart)
    (height : Bool) : Geo :=
  coreInit
    { nReal := nReal, nAll := nReal + nImag, nTri := ts.length
      tri := fun i => ts.getD i ⟨0, 0, 0⟩, inv := old.inv, pos := pos, height := height
      dmx := if 0 < nImag then remap nReal (nReal + nImag) ts old.dmx else old.dmx }

end Verif.ObjRen
