import Verif.Model.DrcSel
import Verif.Model.Ops

/-! # Decoding lattice points

Model of ia_core_coder_avq_dec.c 66-403: from a codebook number, an index and a Voronoi index to a point of the lattice
RE8, with the tables of ia_core_coder_avq_rom.c 669 and 1379-1440.

Vectors of eight words are lists; all loops over them run from 0 to 7.  Saturating operations are those of
`Model/Ops.lean`, of which the sums of the error energies in `search` may saturate.  Uninitialised words are `ub`. -/

namespace Verif.Avq

open Res Ops
open DrcSel (at_ each)

/-! ## Tables -/

/-- `ia_core_coder_7_factorial`, ia_core_coder_avq_rom.c 669. -/
def factorials : List Int := [5040, 720, 120, 24, 6, 2, 1, 1]

/-- `ia_core_coder_i4_cardinality_offset_tab`, ia_core_coder_avq_rom.c 1379-1382. -/
def offsets4 : List Nat :=
  [0, 1792, 5376, 5632, 12800, 21760, 22784, 31744, 38912, 45632, 52800, 53248, 57728, 60416, 61440, 61552, 62896,
    63120, 64144, 64368, 64480, 64704, 64720, 64944, 65056, 65280, 65504, 65520]

/-- `ia_core_coder_i3_cardinality_offset_table`, ia_core_coder_avq_rom.c 1383-1384. -/
def offsets3 : List Nat :=
  [0, 128, 240, 256, 1376, 2400, 3744, 3856, 4080]

/-- `ia_core_coder_a3_pos_abs_leaders`, ia_core_coder_avq_rom.c 1385. -/
def leaders3 : List Nat :=
  [0, 1, 4, 2, 3, 7, 11, 17, 22]

/-- `ia_core_coder_a4_pos_abs_leaders`, ia_core_coder_avq_rom.c 1386-1388. -/
def leaders4 : List Nat :=
  [5, 6, 8, 9, 10, 12, 13, 14, 15, 16, 18, 19, 20, 21, 23, 24, 25, 26, 27, 28, 29, 30, 31, 32, 33, 34, 35, 36]

/-- `ia_core_coder_is_signed_leader`, ia_core_coder_avq_rom.c 1389-1407. -/
def signedOffsets : List Nat :=
  [0, 1, 29, 99, 127, 128, 156, 212, 256, 326, 606, 1026, 1306, 1376, 1432, 1712, 1880, 1888, 1896, 2064, 2344, 240,
    248, 0, 28, 196, 616, 1176, 1596, 1764, 1792, 1820, 2240, 2660, 2688, 3024, 4144, 4480, 4508, 4928, 5348, 2400,
    2568, 2904, 3072, 3240, 3576, 5376, 5377, 5385, 5413, 5469, 5539, 5595, 5623, 5631, 5632, 5912, 6472, 6528, 6696,
    8376, 9216, 10056, 11736, 11904, 11960, 12520, 12800, 13080, 14200, 15880, 17000, 17280, 17560, 18680, 20360,
    21480, 3744, 3772, 3828, 21760, 21768, 21936, 22216, 22272, 22328, 22608, 22776, 22784, 22854, 23274, 23344,
    24464, 25584, 26004, 28524, 28944, 30064, 31184, 31254, 31674, 31744, 31800, 32136, 32976, 34096, 34936, 35272,
    35328, 35384, 35720, 36560, 37680, 38520, 38856, 38912, 39332, 40172, 40592, 41432, 43112, 43952, 44372, 45212,
    45632, 45968, 47088, 47424, 47480, 48320, 49160, 49216, 49272, 50112, 50952, 51008, 51344, 52464, 3856, 3912,
    3968, 4024, 52800, 52856, 53024, 53192, 53248, 53528, 54368, 55208, 55488, 55768, 56608, 57448, 57728, 58064,
    58400, 58736, 59072, 59408, 59744, 60080, 60416, 60472, 60752, 60920, 60928, 60936, 61104, 61384, 4080, 4088,
    61440, 61468, 61524, 61552, 61720, 62056, 62224, 62392, 62728, 62896, 62952, 63008, 63064, 63120, 63128, 63296,
    63576, 63632, 63688, 63968, 64136, 64144, 64200, 64256, 64312, 64368, 64396, 64452, 64480, 64536, 64592, 64648,
    64704, 64712, 64720, 64776, 64832, 64888, 64944, 64972, 65028, 65056, 65112, 65168, 65224, 65280, 65336, 65392,
    65448, 65504, 65512, 65520, 65528]

/-- `ia_core_coder_index_table_iso_code`, ia_core_coder_avq_rom.c 1408-1410. -/
def signStart : List Nat :=
  [0, 5, 8, 13, 21, 23, 30, 41, 47, 56, 68, 78, 81, 89, 102, 116, 125, 139, 143, 147, 155, 163, 171, 173, 176, 182,
    186, 194, 198, 201, 205, 207, 211, 214, 218, 222, 224]

/-- `ia_core_coder_num_table_iso_code`, ia_core_coder_avq_rom.c 1411-1413. -/
def signCount : List Nat :=
  [5, 3, 5, 8, 2, 7, 11, 6, 9, 12, 10, 3, 8, 13, 14, 9, 14, 4, 4, 8, 8, 8, 2, 3, 6, 4, 8, 4, 3, 4, 2, 4, 3, 4, 4, 2,
    2]

/-- `ia_core_coder_data_table_iso_code`, ia_core_coder_avq_rom.c 1414-1426. -/
def signCodes : List Nat :=
  [0, 3, 15, 63, 255, 0, 64, 192, 0, 16, 48, 112, 240, 1, 7, 31, 127, 128, 131, 143, 191, 0, 128, 0, 4, 12, 28, 60,
    124, 252, 0, 3, 15, 63, 65, 71, 95, 192, 195, 207, 255, 0, 32, 96, 128, 160, 224, 0, 1, 3, 7, 15, 31, 63, 127,
    255, 1, 7, 31, 32, 35, 47, 97, 103, 127, 224, 227, 239, 0, 8, 24, 56, 120, 128, 136, 152, 184, 248, 0, 64, 192, 0,
    3, 15, 63, 129, 135, 159, 255, 0, 3, 15, 17, 23, 48, 51, 63, 113, 119, 240, 243, 255, 0, 2, 6, 14, 30, 62, 126,
    128, 130, 134, 142, 158, 190, 254, 0, 16, 48, 64, 80, 112, 192, 208, 240, 1, 7, 31, 64, 67, 79, 127, 128, 131,
    143, 191, 193, 199, 223, 0, 64, 128, 192, 0, 32, 96, 224, 0, 16, 48, 112, 128, 144, 176, 240, 0, 32, 64, 96, 128,
    160, 192, 224, 1, 7, 31, 127, 128, 131, 143, 191, 0, 128, 0, 64, 192, 0, 32, 96, 128, 160, 224, 0, 64, 128, 192,
    0, 3, 15, 63, 129, 135, 159, 255, 0, 64, 128, 192, 0, 64, 192, 0, 64, 128, 192, 0, 128, 0, 64, 128, 192, 0, 64,
    192, 0, 64, 128, 192, 0, 64, 128, 192, 0, 128, 0, 128]

/-- `ia_core_coder_tab_da_absolute_leader`, ia_core_coder_avq_rom.c 1427-1440. -/
def absLeaders : List (List Nat) := [
  [1, 1, 1, 1, 1, 1, 1, 1], [2, 2, 0, 0, 0, 0, 0, 0], [2, 2, 2, 2, 0, 0, 0, 0], [3, 1, 1, 1, 1, 1, 1, 1],
  [4, 0, 0, 0, 0, 0, 0, 0], [2, 2, 2, 2, 2, 2, 0, 0], [3, 3, 1, 1, 1, 1, 1, 1], [4, 2, 2, 0, 0, 0, 0, 0],
  [2, 2, 2, 2, 2, 2, 2, 2], [3, 3, 3, 1, 1, 1, 1, 1], [4, 2, 2, 2, 2, 0, 0, 0], [4, 4, 0, 0, 0, 0, 0, 0],
  [5, 1, 1, 1, 1, 1, 1, 1], [3, 3, 3, 3, 1, 1, 1, 1], [4, 2, 2, 2, 2, 2, 2, 0], [4, 4, 2, 2, 0, 0, 0, 0],
  [5, 3, 1, 1, 1, 1, 1, 1], [6, 2, 0, 0, 0, 0, 0, 0], [4, 4, 4, 0, 0, 0, 0, 0], [6, 2, 2, 2, 0, 0, 0, 0],
  [6, 4, 2, 0, 0, 0, 0, 0], [7, 1, 1, 1, 1, 1, 1, 1], [8, 0, 0, 0, 0, 0, 0, 0], [6, 6, 0, 0, 0, 0, 0, 0],
  [8, 2, 2, 0, 0, 0, 0, 0], [8, 4, 0, 0, 0, 0, 0, 0], [9, 1, 1, 1, 1, 1, 1, 1], [10, 2, 0, 0, 0, 0, 0, 0],
  [8, 8, 0, 0, 0, 0, 0, 0], [10, 6, 0, 0, 0, 0, 0, 0], [12, 0, 0, 0, 0, 0, 0, 0], [12, 4, 0, 0, 0, 0, 0, 0],
  [10, 10, 0, 0, 0, 0, 0, 0], [14, 2, 0, 0, 0, 0, 0, 0], [12, 8, 0, 0, 0, 0, 0, 0], [16, 0, 0, 0, 0, 0, 0, 0],
  [20, 0, 0, 0, 0, 0, 0, 0]]

/-! ## Points of the base codebooks -/

/-- The loop of ia_core_coder_avq_dec.c 229-247 over the entries behind the first: the runs of equal entries, the last
one first, and `base_value`. -/
def runs : List Int → List (Int × Int) × Int → List (Int × Int) × Int
  | x :: xs, ((v, w) :: gs, b) => runs xs (if x = v then ((v, w + 1) :: gs, b * (w + 1)) else ((x, 1) :: (v, w) :: gs, b))
  | _, s => s

/-- The loop of ia_core_coder_avq_dec.c 256-260 and the statements behind it, 261-265, from a run on.  `t` is
`target_value` and `f` is `factorial`.  Returned are the entry, its `w_value`, the target and the runs left. -/
def pick (f : Int) : List (Int × Int) → Int → Res (Int × Int × Int × List (Int × Int))
  | [], _ => .ub
  | (v, w) :: gs, t => do
    let p ← i32 (w * f)
    let t' ← i32 (t - p)
    if 0 ≤ t' then do
      let (u, x, r, gs') ← pick f gs t'
      .ok (u, x, r, (v, w) :: gs')
    else do
      let r ← i32 (t' + p)
      .ok (v, w, r, (v, w - 1) :: gs)

/-- The loop of ia_core_coder_avq_dec.c 253-266 over the factorials `fs`. -/
def unrank : List Int → Int → Int → List (Int × Int) → Res (List Int)
  | [], _, _, _ => .ok []
  | fac :: fs, fb, t, gs => do
    let f ← i32 (fb * fac)
    let (v, w, t, gs) ← pick f gs t
    let fb ← i32 (fb * w)
    let rest ← unrank fs fb t gs
    .ok (v :: rest)

/-- `ia_core_coder_gosset_rank_of_permutation`, ia_core_coder_avq_dec.c 225-274. -/
def permute (rank : Int) : List Int → Res (List Int)
  | [] => .ub
  | x :: xs =>
    let (gs, b) := runs xs ([(x, 1)], 1)
    match gs.reverse with
    | (v, w) :: rest =>
      if w ≠ 8 then do
        let t ← i32 (rank * b)
        unrank factorials 1 t ((v, w) :: rest)
      else .ok (List.replicate 8 v)
    | [] => .ub

/-- The loop of ia_core_coder_avq_dec.c 293-297 from `i` on. -/
def coarse (t : List Nat) (c n : Nat) (i : Nat) : Res Nat :=
  if i < n then do
    let x ← at_ t i
    if c < x then .ok i else coarse t c n (i + 4)
  else .ok i
termination_by n - i

/-- `ia_core_coder_get_abs_leader_tbl`, ia_core_coder_avq_dec.c 288-304. -/
def locate (t : List Nat) (c n : Nat) : Res Nat := do
  let i ← coarse t c n 4
  let i := if n < i then n else i
  if i < 2 then .ub
  else do
    let x ← at_ t (i - 2)
    let i := if c < x then i - 2 else i
    if i < 1 then .ub
    else do
      let x ← at_ t (i - 1)
      let i := if c < x then i - 1 else i
      if i < 1 then .ub else .ok (i - 1)

/-- The signed leader, ia_core_coder_avq_dec.c 346-352: bit `7 - i` of the sign code is the sign of entry `i`. -/
def signed (l : List Nat) (code : Nat) : List Int :=
  (List.range 8).map fun i => (l.getD i 0 : Int) * (if (code / 2 ^ (7 - i)) % 2 = 1 then -1 else 1)

/-- `ia_core_coder_gosset_decode_base_index`, ia_core_coder_avq_dec.c 318-362.  `idx` is 0 for other `n` above 1. -/
def base (n : Int) (c : Nat) : Res (List Int) :=
  if 2 ≤ n then do
    let idx ← (if n = 4 then do
        let i ← locate offsets4 c 28
        at_ leaders4 i
      else if n = 3 ∨ n = 2 then do
        let i ← locate offsets3 c 9
        at_ leaders3 i
      else Res.ok 0)
    let im ← at_ signCount idx
    let t ← at_ signStart idx
    let ks ← locate (signedOffsets.drop t) c im
    let code ← at_ signCodes (t + ks)
    let off ← at_ signedOffsets (t + ks)
    let l ← at_ absLeaders idx
    permute (toI32 ((c : Int) - off)) (signed l code)
  else .ok (List.replicate 8 0)

/-! ## Voronoi extension -/

/-- Results for `0`, ..., `n - 1`. -/
def upTo {α : Type} (f : Nat → Res α) : Nat → Res (List α)
  | 0 => .ok []
  | n + 1 => do
    let l ← upTo f n
    let x ← f n
    .ok (l ++ [x])

/-- A sum with saturation. -/
def sumSat : List Int → Int → Res Int
  | [], s => .ok s
  | x :: xs, s => do
    let s ← add32Sat x s
    sumSat xs s

/-- `a & b` of two words. -/
def and32 (a b : Int) : Int := toI32 (((a % 4294967296).toNat &&& (b % 4294967296).toNat : Nat) : Int)

/-- One entry of the first loop of `ia_core_coder_nearest_2d_neighbor`, ia_core_coder_avq_dec.c 73-84: the even number
and what remains. -/
def round (count x r : Int) : Res (Int × Int) := do
  let r ← (if x % 2 ≠ 0 then do
      let one ← shl32 1 count
      let d ← sub32Sat r one
      if x < 0 then negate32Sat d else .ok d
    else Res.ok r)
  let y ← (if x < 0 then do
      let d ← sub32Sat 1 x
      let d ← shr32 d 1
      let d ← shl32Sat d 1
      negate32Sat d
    else do
      let d ← add32Sat 1 x
      let d ← shr32 d 1
      shl32Sat d 1)
  .ok (y, r)

/-- The loop of ia_core_coder_avq_dec.c 91-96: the index of the largest magnitude, from `i` on. -/
def largest : List Int → Nat → Nat → Int → Res Nat
  | [], _, j, _ => .ok j
  | r :: rs, i, j, em => do
    let s ← (if r < 0 then i32 (-r) else Res.ok r)
    largest rs (i + 1) (if em < s then i else j) (if em < s then s else em)

/-- `ia_core_coder_nearest_2d_neighbor`, ia_core_coder_avq_dec.c 66-107: the point and what remains. -/
def nearest (count : Int) (xs rs : List Int) : Res (List Int × List Int) := do
  let ps ← upTo (fun i => round count (xs.getD i 0) (rs.getD i 0)) 8
  let ys := ps.map (·.1)
  let rs := ps.map (·.2)
  let sum ← sumSat ys 0
  if sum % 4 ≠ 0 then do
    let j ← largest rs 0 0 0
    let y := ys.getD j 0
    let r := rs.getD j 0
    let two ← shl32 2 count
    if r < 0 then do
      let y ← i32 (y - 2)
      let r ← add32Sat r two
      .ok (ys.set j y, rs.set j r)
    else do
      let y ← add32Sat y 2
      let r ← sub32Sat r two
      .ok (ys.set j y, rs.set j r)
  else .ok (ys, rs)

/-- One entry of the loop of ia_core_coder_avq_dec.c 130-138: `x1` and `ptr_rem2`. -/
def shift (count x r : Int) : Res (Int × Int) :=
  if x = 0 then
    if r = 0 then do
      let x ← i32 (x - 1)
      .ok (x, 0)
    else do
      let one ← shl32 1 count
      let r ← sub32Sat r one
      .ok (0, r)
  else do
    let x ← sub32Sat x 1
    .ok (x, r)

/-- `e0` and `e1`, ia_core_coder_avq_dec.c 141-147. -/
def energy (rs : List Int) : Res Int := sumSat (rs.map fun r => sat64To32 (r * r)) 0

/-- `ia_core_coder_search_voronoi`, ia_core_coder_avq_dec.c 123-164; `ptr_rem1` and `ptr_rem2` are both `rs`. -/
def search (count : Int) (xs rs : List Int) : Res (List Int) := do
  let (y0, r0) ← nearest count xs rs
  let ps ← upTo (fun i => shift count (xs.getD i 0) (rs.getD i 0)) 8
  let (y1, r1) ← nearest count (ps.map (·.1)) (ps.map (·.2))
  let e0 ← energy r0
  let e1 ← energy r1
  if e1 ≤ e0 then upTo (fun i => add32Sat (y1.getD i 0) 1) 8 else .ok y0

/-- The products with the generator matrix, ia_core_coder_avq_dec.c 185-198. -/
def generate (kv : List Int) : Res (List Int) := do
  let ts ← upTo (fun i => shl32Sat (kv.getD (i + 1) 0) 1) 6
  let mid ← upTo (fun i => add32Sat (kv.getD 7 0) (ts.getD i 0)) 6
  let sum ← sumSat ts.reverse 0
  let a ← add32Sat (sat64To32 (4 * kv.getD 0 0)) sum
  let y0 ← add32Sat (kv.getD 7 0) a
  .ok (y0 :: mid ++ [kv.getD 7 0])

/-- `ia_core_coder_decode_voronoi_idx`, ia_core_coder_avq_dec.c 179-212.  `v[i]++` is done. -/
def voronoi (kv : List Int) (m count : Int) : Res (List Int) := do
  let ys ← generate kv
  let t ← sub32Sat (ys.getD 0 0) 2
  let zs ← upTo (fun i => shr32 (if i = 0 then t else ys.getD i 0) count) 8
  let rs := (List.range 8).map fun i =>
    if i = 0 then (if m ≠ 0 then t.tmod m else t) else and32 (ys.getD i 0) (m - 1)
  let vs ← search count zs rs
  upTo (fun i => do
    let _ ← i32 (vs.getD i 0 + 1)
    sub32Sat (ys.getD i 0) (sat64To32 (m * vs.getD i 0))) 8

/-- `ia_core_coder_rotated_gosset_mtx_dec`, ia_core_coder_avq_dec.c 377-403.  The loop of 385-386 is done at once. -/
def decode (qn : Int) (c : Nat) (kv : List Int) : Res (List Int) :=
  if 4 < qn then do
    let count := (qn - 3) / 2
    let m := if 31 ≤ count then MAX_32 else 2 ^ count.toNat
    let cs ← voronoi kv m count
    let b ← base (qn - 2 * count) c
    upTo (fun i => add32Sat (sat64To32 (m * b.getD i 0)) (cs.getD i 0)) 8
  else base qn c

end Verif.Avq
