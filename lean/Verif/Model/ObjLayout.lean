import Verif.Model.Speaker
import Mathlib.Data.Rat.Floor

/-! # Loudspeakers of the object renderer: `impeghd_obj_ren_dec.c` 211-786, 1146-1172

Angles are rational numbers of degrees; the rounding of single precision is not modelled. The numbers
`ls_index` (273-326), which only fix the order in which the triangulation takes the loudspeakers, are
left out, so is the triangulation itself (1187-1290). Writing behind an array of 44 loudspeakers is a
distinct outcome (`none`). -/

namespace Verif.ObjLayout

/-- `ls_azimuth`, `ls_elevation` of `ia_renderer_ls_params`, impeghd_obj_ren_dec_struct_def.h 54-62. -/
structure Spk where
  az : ℚ
  el : ℚ
  deriving DecidableEq, Repr

/-- `CICP_MAX_NUM_LS`, impeghd_obj_ren_dec_defines.h 45. -/
def cap : Nat := 44

/-- `IMAG_LS_ELEVATION_HEIGHT_THRESH`, impeghd_obj_ren_dec_defines.h 67. -/
def heightThr : ℚ := 21

/-- `IMAG_LS_ELEVATION_THRESH`, impeghd_obj_ren_dec_defines.h 68. -/
def elThr : ℚ := 45

/-- `IMAG_LS_MAX_AZIMUTH_DIFF`, impeghd_obj_ren_dec_defines.h 69. -/
def azThr : ℚ := 160

/-- The partition of `impegh_quick_sort_azi`, impeghd_obj_ren_dec.c 226-250: what is smaller than the
last element is written from the front of the scratch buffer, the rest from its end. -/
def split {α : Type} (key : α → ℚ) (p : α) : List α → List α × List α
  | [] => ([], [])
  | x :: t =>
    let r := split key p t
    if key x < key p then (x :: r.1, r.2) else (r.1, r.2 ++ [x])

/-- `impegh_quick_sort_azi`, impeghd_obj_ren_dec.c 223-261. The pivot is the last element; parts of at
most one element are left as they are. The first number is fuel, at least the length of the list. -/
def sort {α : Type} (key : α → ℚ) : Nat → List α → List α
  | 0, l => l
  | n + 1, l =>
    match l.getLast? with
    | none => []
    | some p =>
      let r := split key p l.dropLast
      sort key n r.1 ++ p :: sort key n r.2

/-- The call of `impegh_quick_sort_azi` for all elements, impeghd_obj_ren_dec.c 706-709, 760-763. -/
def qsort {α : Type} (key : α → ℚ) (l : List α) : List α := sort key l.length l

/-- The highest elevation above zero and its index, the lowest below zero and its index:
impeghd_obj_ren_dec.c 469-484. -/
structure Ext where
  maxEl : ℚ
  maxIdx : Nat
  minEl : ℚ
  minIdx : Nat

/-- The loop over the loudspeakers, impeghd_obj_ren_dec.c 471-484. -/
def extremes (n : Nat) (e : Ext) : List Spk → Ext
  | [] => e
  | s :: t =>
    let e := if e.maxEl < s.el then { e with maxIdx := n, maxEl := s.el } else e
    let e := if s.el < e.minEl then { e with minIdx := n, minEl := s.el } else e
    extremes (n + 1) e t

/-- `impeghd_adjust_ele_azi_ind`, impeghd_obj_ren_dec.c 464-514: the loudspeakers with the imaginary
ones below and above, the indices of the highest and the lowest one and `height_spks_present`. -/
def poles (l : List Spk) : List Spk × Nat × Nat × Bool :=
  let e := extremes 0 ⟨0, 0, 0, 0⟩ l
  let b := decide (-elThr < e.minEl)
  let l1 := if b then l ++ [⟨0, -90⟩] else l
  let mn := if b then l.length else e.minIdx
  let t := decide (e.maxEl < elThr)
  let l2 := if t then l1 ++ [⟨0, 90⟩] else l1
  let mx := if t then l1.length else e.maxIdx
  (l2, mx, mn, decide (heightThr < e.maxEl))

/-- `fmod` with 360 as in impeghd_obj_ren_dec.c 376, 380. -/
def fmod (x : ℚ) : ℚ := x - 360 * (if 0 ≤ x then ⌊x / 360⌋ else ⌈x / 360⌉ : ℤ)

/-- `ls_azimuth_start`, `ls_azimuth_end`, `ls_elevation_start`, `ls_elevation_end` of the loudspeakers of
the subsets, impeghd_cicp_2_geometry_rom.c 110-156. -/
def ranges (name : Nat) : ℚ × ℚ × ℚ × ℚ :=
  match name with
  | 0 => (23, 37, -9, 20)
  | 1 => (-37, -23, -9, 20)
  | 4 => (101, 124, -45, 20)
  | 5 => (-124, -101, -45, 20)
  | 8 => (125, 142, -45, 20)
  | 9 => (-142, -125, -45, 20)
  | 17 => (11, 37, 21, 60)
  | 18 => (-37, -11, 21, 60)
  | 20 => (125, 157, 21, 60)
  | 21 => (-157, -125, 21, 60)
  | 30 => (101, 124, 21, 60)
  | 31 => (-124, -101, 21, 60)
  | 32 => (38, 66, 21, 60)
  | 33 => (-66, -38, 21, 60)
  | 34 => (38, 52, -9, 20)
  | 35 => (-52, -38, -9, 20)
  | _ => (0, 0, 0, 0)

/-- `ia_loud_speaker_subset_A` to `ia_loud_speaker_subset_D`, impeghd_obj_ren_dec.c 81-89. -/
def subsetA : List Nat := [0, 1, 18, 17]
def subsetB : List Nat := [34, 35, 33, 32]
def subsetC : List Nat := [4, 30, 31, 5]
def subsetD : List Nat := [8, 20, 21, 9]

/-- The condition of `impeghd_ls_subset_exist`, impeghd_obj_ren_dec.c 428-433. -/
def matches' (name : Nat) (s : Spk) : Bool :=
  let r := ranges name
  decide (r.2.2.1 ≤ s.el ∧ r.1 ≤ s.az ∧ s.el ≤ r.2.2.2 ∧ s.az ≤ r.2.1)

/-- The last loudspeaker that stands for a name, impeghd_obj_ren_dec.c 421-440. -/
def standsFor (name : Nat) (l : List Spk) : Option Nat :=
  ((List.range l.length).filter fun j => matches' name (l.getD j ⟨0, 0⟩)).getLast?

/-- `flag_poly` of `impeghd_ls_subset_empty` for the point `s`, impeghd_obj_ren_dec.c 371-389. -/
def inside (offset : ℚ) (poly : List Spk) (s : Spk) : Bool :=
  let front := 180 - fmod (180 + offset - s.az)
  let v := poly.map fun p => ((180 - fmod (180 + offset - p.az) - front, p.el - s.el) : ℚ × ℚ)
  (v.zip (v.tail ++ v.take 1)).all fun (a, b) => decide (0 ≤ b.1 * a.2 - b.2 * a.1)

/-- `impeghd_ls_subset_exist` with `impeghd_ls_subset_empty`, impeghd_obj_ren_dec.c 342-451: all names
are there and no other loudspeaker is in the polygon. -/
def exist (offset : ℚ) (names : List Nat) (l : List Spk) : Bool :=
  match names.mapM fun n => standsFor n l with
  | none => false
  | some idx =>
    (List.range l.length).all fun j =>
      if idx.contains j then true
      else !inside offset (idx.map fun k => l.getD k ⟨0, 0⟩) (l.getD j ⟨0, 0⟩)

/-- `impeghd_cicpidx_calc_ls_mean_azi`, `impeghd_cicpidx_calc_ls_mean_ele`, impeghd_obj_ren_dec.c
528-564. -/
def mean (names : List Nat) : Spk :=
  let g := names.map fun n => Speaker.geoTbl.getD n ⟨0, 0, 0, 0⟩
  ⟨((g.map fun x => x.az).sum : ℤ) / (names.length : ℚ), ((g.map fun x => x.el).sum : ℤ) / (names.length : ℚ)⟩

/-- The imaginary loudspeakers of the subsets, impeghd_obj_ren_dec.c 594-693. -/
def subsets (l : List Spk) : List Spk :=
  let l :=
    if exist 0 subsetA l then l ++ [mean subsetA]
    else if exist 0 subsetB l then l ++ [mean subsetB] else l
  if exist 180 subsetC l then l ++ [⟨(mean subsetC).az + 180, (mean subsetC).el⟩]
  else if exist 180 subsetD l then l ++ [⟨(mean subsetD).az + 180, (mean subsetD).el⟩] else l

/-- `ia_spk_azi_idx_str`, impeghd_obj_ren_dec_struct_def.h 48-52. -/
structure Azi where
  az : ℚ
  order : Nat
  deriving DecidableEq, Repr

/-- The azimuths of equally spaced loudspeakers in a gap `d` from `a`, impeghd_obj_ren_dec.c 716-721. -/
def between (a d : ℚ) : List ℚ :=
  let n := ⌊d / azThr⌋.toNat
  (List.range n).map fun (k : Nat) => a + ((k : ℚ) + 1) * (d / ((n : ℚ) + 1))

/-- New entries of `ls_azi`, numbered from `next`, impeghd_obj_ren_dec.c 722-731. -/
def entries (next : Nat) (l : List ℚ) : List Azi :=
  l.mapIdx fun k a => ⟨a, next + k⟩

/-- The loop over the gaps, impeghd_obj_ren_dec.c 711-734. Its bound `ls_azi_order - 1` is read again at
each pass, so that it goes on over the entries it has appended. `n` is the number of loudspeakers; the
fuel is the number of passes that the arrays allow. -/
def gaps : Nat → Nat → Nat → List Azi → Option (Nat × List Azi)
  | 0, _, _, _ => none
  | fuel + 1, i, n, l =>
    if i + 1 < l.length then
      let a := (l.getD i ⟨0, 0⟩).az
      let d := (l.getD (i + 1) ⟨0, 0⟩).az - a
      if azThr < d then
        let e := entries n (between a d)
        if n + e.length ≤ cap then gaps fuel (i + 1) (n + e.length) (l ++ e) else none
      else gaps fuel (i + 1) n l
    else some (n, l)

/-- The gap over 180 degrees, impeghd_obj_ren_dec.c 735-755. Without entries, `ls_azi[0]` is read as
zero and the first new entry overwrites it before the second is computed. -/
def wrap (n : Nat) (l : List Azi) : Option (Nat × List Azi) :=
  match l with
  | [] => if n + 2 ≤ cap then some (n + 2, entries n [120, 360]) else none
  | f :: _ =>
    let a := (l.getLastD f).az
    let d := f.az + 360 - a
    if azThr < d then
      let e := entries n (between a d)
      if n + e.length ≤ cap then some (n + e.length, l ++ e) else none
    else some (n, l)

/-- The choice of two further corners of the first polyhedron, impeghd_obj_ren_dec.c 764-775. -/
def pick (a : ℚ) (i mn mx : Nat) : List Azi → Nat × Nat
  | [] => (mn, mx)
  | e :: t =>
    let mn := if e.az ≤ a + 160 then i else mn
    if a + 200 ≤ e.az then (mn, i) else pick a (i + 1) mn mx t

/-- What the triangulation starts from: all loudspeakers, how many of them are imaginary,
`tri_ls_index` and `height_spks_present`. -/
structure Layout where
  spks : List Spk
  nImag : Nat
  corners : List Nat
  height : Bool
  deriving DecidableEq, Repr

/-- The entries of `ls_azi`, impeghd_obj_ren_dec.c 695-705. -/
def low (l : List Spk) : List Azi :=
  ((List.range l.length).filter fun i => decide ((l.getD i ⟨0, 0⟩).el < elThr)).map fun i =>
    ⟨(l.getD i ⟨0, 0⟩).az, i⟩

/-- The loudspeakers of `ls_azi` with the imaginary ones of the gaps, impeghd_obj_ren_dec.c 695-755. -/
def ring (n : Nat) (l : List Spk) : Option (Nat × List Azi) :=
  (gaps (cap + 1) 0 n (qsort (fun e => e.az) (low l))).bind fun (n, r) => wrap n r

/-- `impeghd_add_imaginary_ls`, impeghd_obj_ren_dec.c 578-786, for the real loudspeakers `l`. -/
def imaginary (l : List Spk) : Option Layout :=
  let (l1, mx, mn, h) := poles l
  let l2 := subsets l1
  if cap < l2.length then none
  else
    (ring l2.length l).map fun (n, r) =>
      let s := qsort (fun e => e.az) r
      let f := s.getD 0 ⟨0, 0⟩
      let (mn', mx') := pick f.az 1 mn mx s.tail
      { spks := l2 ++ ((r.filter fun e => decide (l2.length ≤ e.order)).map fun e => ⟨e.az, 0⟩)
        nImag := n - l.length
        corners := [mx, mn, f.order, (s.getD mn' ⟨0, 0⟩).order, (s.getD mx' ⟨0, 0⟩).order]
        height := h }

/-- The positions of loudspeakers that are no LFE, impeghd_obj_ren_dec.c 1146-1170. -/
def clean (l : List (Spk × Bool)) : List Spk :=
  (l.filter fun s => !s.2).map fun s =>
    ⟨if 180 ≤ s.1.az then s.1.az - 360 else s.1.az, max (-90) (min 90 s.1.el)⟩

end Verif.ObjLayout
