import Verif.Model.Fd
import Verif.Model.Ops
import Mathlib.Data.Rat.Defs
import Mathlib.Algebra.Order.Field.Rat

/-! # Prediction of harmonic lines in the frequency domain

Model of `ia_core_coder_fd_chn_fdp_decode` (ia_core_coder_arith_dec.c 811-925) with its call in `ia_core_coder_ac_spectral_data`
(961-965 and 1021-1025), of `ia_core_coder_tcx_fdp_decode` (ia_core_coder_tcx_fwd_alcnx.c 213-300) with its call in
`ia_core_coder_tcx_mdct` (759-766 and 795-835), and of `ia_core_coder_rounded_sqrt64` (ia_core_coder_basic_ops40.h 469-494).

Spectral values are rationals.  Buffers are functions of the index; an access outside of the 172 entries of `fdp_int` and
`fdp_quant_spec_prev`, the use of an entry of the local array `fdp_int` that was not written, and an intermediate result that leaves
the range of its signed type are undefined.  The spectra have 1024 entries, which is more than 172. -/

namespace Verif.Fdp

open Ops (i32)

/-- `ia_core_coder_harmonic_spacing`, ia_core_coder_rom.c 141-160. -/
def spacings : List Nat :=
  [768, 771, 773, 776, 778, 781, 784, 786, 789, 792, 795, 797, 800, 803, 806, 809, 812, 814, 817, 820, 823, 826, 829, 832, 835,
   838, 841, 845, 848, 851, 854, 857, 860, 864, 867, 870, 874, 877, 880, 884, 887, 891, 894, 898, 901, 905, 908, 912, 915, 919,
   923, 927, 930, 934, 938, 942, 946, 950, 954, 958, 962, 966, 970, 974, 978, 982, 986, 991, 995, 999, 1004, 1008, 1013, 1017,
   1022, 1026, 1031, 1036, 1040, 1045, 1050, 1055, 1060, 1064, 1069, 1074, 1080, 1085, 1090, 1095, 1100, 1106, 1111, 1116, 1122,
   1127, 1133, 1139, 1144, 1150, 1156, 1162, 1168, 1174, 1180, 1186, 1192, 1198, 1205, 1211, 1217, 1224, 1230, 1237, 1244, 1251,
   1257, 1264, 1271, 1279, 1286, 1293, 1300, 1308, 1315, 1323, 1331, 1338, 1346, 1354, 1362, 1370, 1379, 1387, 1396, 1404, 1413,
   1422, 1430, 1439, 1449, 1458, 1467, 1477, 1486, 1496, 1506, 1516, 1526, 1536, 1546, 1557, 1568, 1578, 1589, 1600, 1612, 1623,
   1635, 1647, 1658, 1671, 1683, 1695, 1708, 1721, 1734, 1747, 1760, 1774, 1788, 1802, 1816, 1831, 1846, 1861, 1876, 1891, 1907,
   1923, 1940, 1956, 1973, 1990, 2008, 2025, 2043, 2062, 2081, 2100, 2119, 2139, 2159, 2180, 2201, 2222, 2244, 2266, 2289, 2312,
   2335, 2359, 2384, 2409, 2435, 2461, 2488, 2515, 2543, 2572, 2601, 2631, 2661, 2693, 2725, 2757, 2791, 2825, 2861, 2897, 2934,
   2972, 3011, 3052, 3093, 3135, 3179, 3223, 3269, 3317, 3366, 3416, 3468, 3521, 3576, 3633, 3691, 3752, 3814, 3879, 3946, 4015,
   4087, 4161, 4238, 4318, 4401, 4488, 4577, 4671, 4768, 4869, 4975, 5086, 5201, 5322]

/-- `ia_core_coder_fdp_exp`, ia_core_coder_rom.c 162-177. -/
def expTab : List Nat :=
  [0, 64, 161, 277, 406, 547, 698, 857, 1024, 1198, 1379, 1566, 1758, 1956, 2159, 2368, 2580, 2798, 3019, 3245, 3474, 3708, 3945,
   4186, 4431, 4678, 4930, 5184, 5442, 5702, 5966, 6232, 6502, 6774, 7049, 7327, 7608, 7891, 8176, 8464, 8755, 9048, 9344, 9641,
   9941, 10244, 10548, 10855, 11164, 11476, 11789, 12104, 12422, 12741, 13063, 13386, 13712, 14039, 14369, 14700, 15033, 15368,
   15705, 16044, 16384, 16726, 17070, 17416, 17763, 18113, 18463, 18816, 19170, 19526, 19883, 20242, 20603, 20965, 21329, 21694,
   22061, 22430, 22800, 23171, 23544, 23919, 24295, 24672, 25051, 25431, 25813, 26196, 26581, 26966, 27354, 27742, 28132, 28524,
   28917, 29311, 29706, 30103, 30501, 30900, 31301, 31703, 32106, 32511, 32916, 33323, 33732, 34141, 34552, 34964, 35377, 35791,
   36207, 36624, 37042, 37461, 37881, 38303, 38725, 39149, 39574, 40000, 40427, 40856, 41285, 41716, 42147, 42580, 43014, 43449,
   43885, 44323, 44761, 45200, 45641, 46082, 46525, 46968, 47413, 47859, 48306, 48753, 49202, 49652, 50103, 50555, 51008, 51462,
   51916, 52372, 52829, 53287, 53746, 54206, 54667, 55128, 55591, 56055, 56520, 56985, 57452, 57920, 58388, 58858, 59328, 59799,
   60271, 60745, 61219, 61694, 62170, 62647, 63124, 63603, 64083, 64563, 65044, 65527]

/-- `ia_core_coder_fdp_scf`, ia_core_coder_rom.c 179-185. -/
def scfTab : List Nat :=
  [1, 1, 2, 2, 2, 3, 3, 4, 5, 6, 7, 8, 10, 11, 13, 16, 19, 23, 27, 32, 38, 45, 54, 64, 76, 91, 108, 128, 152, 181, 215, 256, 304,
   362, 431, 512, 609, 724, 861, 1024, 1218, 1448, 1722, 2048, 2435, 2896, 3444, 4096, 4871, 5793, 6889, 8192, 9742, 11585,
   13777, 16384, 19484, 23170, 27554, 32768, 38968, 46341, 55109]

/-- `ia_core_coder_fdp_s1`, ia_core_coder_rom.c 187-198. -/
def s1Tab : List Int :=
  [0, 726, 1451, 2176, 2901, 3625, 4348, 5071, 5792, 6512, 7230, 7947, 8662, 9376, 10087, 10796, 11503, 12207, 12908, 13607,
   14303, 14995, 15685, 16371, 17054, 17732, 18408, 19079, 19746, 20409, 21068, 21722, 22372, 23017, 23658, 24293, 24924, 25549,
   26169, 26784, 27394, 27998, 28596, 29189, 29776, 30357, 30932, 31501, 32064, 32621, 33171, 33715, 34253, 34784, 35309, 35827,
   36339, 36844, 37282, 37698, 38105, 38503, 38892, 39272, 39643, 40005, 40359, 40703, 41039, 41366, 41684, 41994, 42296, 42589,
   42874, 43151, 43419, 43680, 43933, 44179, 44416, 44646, 44869, 45085, 45293, 45494, 45689, 45876, 46057, 46232, 46400, 46562,
   46717, 46867, 47011, 47149, 47281, 47408, 47529, 47645, 47756, 47862, 47963, 48059, 48150, 48237, 48319, 48397, 48471, 48540,
   48605, 48666, 48724, 48777, 48826, 48872, 48914, 48953, 48988, 49019, 49047, 49072, 49093, 49111, 49126, 49137, 49146, 49150,
   49152]

/-- `ia_core_coder_fdp_s2`, ia_core_coder_rom.c 200-213. -/
def s2Tab : List Int :=
  [-26681, -26680, -26678, -26675, -26670, -26665, -26658, -26650, -26641, -26630, -26618, -26605, -26591, -26576, -26559,
   -26541, -26522, -26502, -26481, -26459, -26436, -26411, -26386, -26359, -26331, -26303, -26273, -26242, -26211, -26178,
   -26145, -26110, -26075, -26039, -26002, -25964, -25926, -25887, -25847, -25806, -25765, -25723, -25680, -25637, -25593,
   -25549, -25504, -25458, -25413, -25366, -25320, -25273, -25225, -25178, -25130, -25082, -25033, -24985, -24856, -24710,
   -24564, -24417, -24272, -24126, -23981, -23836, -23691, -23547, -23404, -23262, -23121, -22980, -22841, -22702, -22565,
   -22429, -22295, -22162, -22030, -21900, -21771, -21644, -21519, -21396, -21274, -21155, -21037, -20921, -20808, -20697,
   -20587, -20481, -20376, -20274, -20174, -20077, -19982, -19889, -19799, -19712, -19627, -19546, -19466, -19390, -19316,
   -19245, -19177, -19112, -19049, -18990, -18933, -18879, -18829, -18781, -18736, -18695, -18656, -18620, -18588, -18558,
   -18532, -18508, -18488, -18471, -18457, -18446, -18438, -18434, -18432]

/-- `ia_core_coder_pow10_gain_div28`, ia_core_coder_rom.c 1268-1283. -/
def gainTab : List Nat :=
  [1024, 1112, 1207, 1311, 1423, 1545, 1677, 1821, 1977, 2146, 2330, 2530, 2747, 2983, 3238, 3516, 3817, 4144, 4499, 4885, 5304,
   5758, 6252, 6788, 7370, 8001, 8687, 9432, 10240, 11118, 12071, 13105, 14228, 15448, 16772, 18210, 19770, 21465, 23305, 25302,
   27471, 29825, 32382, 35157, 38171, 41442, 44994, 48851, 53038, 57584, 62519, 67878, 73696, 80012, 86870, 94316, 102400,
   111177, 120706, 131052, 142284, 154480, 167720, 182096, 197703, 214649, 233047, 253021, 274708, 298254, 323817, 351572,
   381706, 414422, 449943, 488508, 530378, 575838, 625193, 678779, 736958, 800124, 868703, 943161, 1024000, 1111768, 1207059,
   1310517, 1422843, 1544797, 1677203, 1820958, 1977034, 2146488, 2330466, 2530213, 2747080, 2982536, 3238172, 3515720, 3817056,
   4144220, 4499426, 4885077, 5303782, 5758375, 6251932, 6787792, 7369581, 8001236, 8687031, 9431606, 10240000, 11117682,
   12070591, 13105175, 14228434, 15447969, 16772032, 18209581, 19770345, 21464883, 23304662, 25302131, 27470805, 29825358,
   32381723, 35157197]

/-- An access to an array with 172 entries. -/
def inside (i : Nat) : Res Unit := if i < 172 then .ok () else .ub

/-- An entry of a table of constants. -/
def entry {τ : Type} (t : List τ) (i : Int) : Res τ :=
  if i < 0 then .ub else
  match t[i.toNat]? with
  | some x => .ok x
  | none => .ub

/-- `buf[i] = x`. -/
def upd {τ : Type} (f : Nat → τ) (i : Nat) (x : τ) : Nat → τ := fun j => if j = i then x else f j

/-- `harmonic_idx`, `compare_idx`, `s1` and `s2`. -/
structure Track where
  h : Int
  c : Int
  s1 : Int
  s2 : Int
  deriving DecidableEq, Repr

/-- ia_core_coder_arith_dec.c 818 and 845-846, ia_core_coder_tcx_fwd_alcnx.c 219-220 and 230-231. -/
def start : Track := ⟨-128, 256, 0, 0⟩

/-- ia_core_coder_arith_dec.c 881-897 and ia_core_coder_tcx_fwd_alcnx.c 253-271 after line `i`. -/
def next (sp : Nat) (t : Track) (i : Nat) : Res Track :=
  if (i : Int) * 256 = t.c then do
    let h := t.h + sp
    let k := h % 256
    let k := if 128 < k then 256 - k else k
    let s2 ← entry s2Tab k
    let s1 ← entry s1Tab k
    .ok ⟨h, 256 + (h + 128) / 256 * 256, if h / 256 % 2 = 0 then -s1 else s1, s2⟩
  else .ok t

/-- ia_core_coder_arith_dec.c 866-880 and ia_core_coder_tcx_fwd_alcnx.c 238-252: the estimate for line `i` from the two previous
values of the line; `none` if the line is not near to the harmonic. -/
def estimate (t : Track) (i : Nat) (p1 p2 : Int) : Res (Option Int) :=
  if |(i : Int) * 256 - t.h| < 384 then do
    let a ← i32 (t.s1 * p1)
    let b ← i32 (t.s2 * p2)
    let r ← i32 (a + b)
    let m ← i32 |r|
    let e := (m + 16384) / 32768
    .ok (some (if r < 0 then -e else e))
  else .ok none

/-- `quant_spec_prev1`, `quant_spec_prev2`, `fdp_int`, the spectrum and the state of the search for harmonics. -/
structure St where
  p1 : Nat → Int
  p2 : Nat → Int
  est : Nat → Option Int
  coef : Nat → ℚ
  t : Track

/-- ia_core_coder_arith_dec.c 864-898 and ia_core_coder_tcx_fwd_alcnx.c 236-272: `n` lines from line `i`; `g` is the factor of the
estimate in the spectrum. -/
def estLines (sp : Nat) (g : ℚ) : (n i : Nat) → St → Res St
  | 0, _, s => .ok s
  | n + 1, i, s => do
    let _ ← inside i
    let e ← estimate s.t i (s.p1 i) (s.p2 i)
    let t ← next sp s.t i
    estLines sp g n (i + 1) { s with est := upd s.est i (some (e.getD 0)), coef := upd s.coef i (s.coef i + g * e.getD 0), t := t }

/-- ia_core_coder_arith_dec.c 851-860: the scale of a band (`SF_OFFSET` is 100). -/
def scale (factor : Int) : Res Nat :=
  let k := factor - 100 - 21
  if 0 ≤ k then (if 62 < k then .ok 65536 else entry scfTab k) else .ok 0

/-- ia_core_coder_arith_dec.c 904-909: the value of a line in the memory (`x_int` is computed without sign in 32 bits). -/
def lineInt (q : Int) (sc : Nat) : Res Int := do
  let a ← i32 |q|
  let x ← entry expTab (min a 181)
  let x : Int := ((512 + x * sc) % 4294967296 / 1024 : Nat)
  .ok (if q < 0 then -x else x)

/-- ia_core_coder_arith_dec.c 910-913 and ia_core_coder_tcx_fwd_alcnx.c 280: the estimate of the line is added. -/
def addEst : (active : Bool) → (est : Option Int) → (x : Int) → Res Int
  | false, _, x => .ok x
  | true, some e, x => i32 (x + e)
  | true, none, _ => .ub

/-- `QUANT_SPEC_MIN` and `QUANT_SPEC_MAX`, ia_core_coder_cnst.h 60-61. -/
def sat (x : Int) : Int := min (max x (-31775)) 31775

/-- ia_core_coder_arith_dec.c 902-917: `n` lines from line `i`. -/
def updLines (active : Bool) (sc : Nat) (q : Nat → Int) : (n i : Nat) → St → Res St
  | 0, _, s => .ok s
  | n + 1, i, s => do
    let x ← lineInt (q i) sc
    let _ ← inside i
    let x ← addEst active (s.est i) x
    updLines active sc q n (i + 1) { s with p2 := upd s.p2 i (s.p1 i), p1 := upd s.p1 i (sat x) }

/-- The first line of a band: `(sfb <= 0) ? 0 : sfb_offset[sfb]` with `sfb_offset = ptr_sfb_tbl - 1`. -/
def bandLo (ends : List Nat) (sfb : Nat) : Res Nat := if sfb = 0 then .ok 0 else entry ends ((sfb : Int) - 1)

/-- ia_core_coder_arith_dec.c 849-918: `n` bands from band `sfb`; the result has the index `i` at which the last loop ended (`last`
at the start).  `sp` is 0 when there is no prediction. -/
def bandLoop (ends : List Nat) (sp : Nat) (factors q : Nat → Int) : (n sfb last : Nat) → St → Res (Nat × St)
  | 0, _, last, s => .ok (last, s)
  | n + 1, sfb, _, s => do
    let sc ← scale (factors sfb)
    let lo ← bandLo ends sfb
    let hi ← entry ends (sfb : Int)
    let s ← (if sp ≠ 0 then estLines sp 512 (hi - lo) lo s else .ok s)
    let s ← updLines (decide (sp ≠ 0)) sc q (hi - lo) lo s
    bandLoop ends sp factors q n (sfb + 1) (max lo hi) s

/-- ia_core_coder_arith_dec.c 831-832: the first number of bands, from `k`, with which the prediction bandwidth is reached. -/
def enough (ends : List Nat) (bw : Nat) : (fuel k : Nat) → Res Nat
  | 0, _ => .ub
  | fuel + 1, k => do
    let e ← entry ends ((k : Int) - 1)
    if e < bw then enough ends bw fuel (k + 1) else .ok k

/-- `ia_core_coder_fd_chn_fdp_decode`: `long` is `islong`, `ends` is `ptr_sfb_tbl` (the tables have less than 60 entries), `spacing`
is `fdp_spacing_index`, which is -1 without prediction.  Result: the memory and the spectrum. -/
def decode (long : Bool) (ends : List Nat) (factors q : Nat → Int) (spacing : Int) (bw maxSfb : Nat) (p1 p2 : Nat → Int)
    (coef : Nat → ℚ) : Res ((Nat → Int) × (Nat → Int) × (Nat → ℚ)) := do
  let mode ← (if long && decide (0 < maxSfb) then do
      let top ← entry ends ((maxSfb : Int) - 1)
      if bw < top then do
        let n ← enough ends bw 60 1
        if 0 ≤ spacing ∧ spacing < 256 then do
          let sp ← entry spacings spacing
          .ok (n, sp)
        else .ok (n, 0)
      else .ok (maxSfb, 0)
    else .ok (0, 0))
  let r ← bandLoop ends mode.2 factors q mode.1 0 0 ⟨p1, p2, fun _ => none, coef, start⟩
  let k := min r.1 bw
  let clear : (Nat → Int) → Nat → Int := fun f j => if k ≤ j ∧ j < 172 then 0 else f j
  .ok (clear r.2.p1, clear r.2.p2, r.2.coef)

/-- `ia_core_coder_sample_freq_idx_table`, ia_core_coder_rom.c 3427-3428 (the last of the 17 entries is 0). -/
def freqTab : List Int := [-1, -1, -1, 48000, 44100, 32000, 24000, 22050, 16000, 14700, 29400, -1, -1, -1, -1, -1, 0]

/-- ia_core_coder_arith_dec.c 961-965 at frame length 1024: the prediction bandwidth of a sampling rate. -/
def bandwidth (rate : Nat) : Nat := if 44100 ≤ freqTab.getD (Fd.rateIndex rate) 0 then 132 else 160

/-- The memory and the spectrum after the prediction of a frame, ia_core_coder_arith_dec.c 1021-1025: `indep` is
`usac_independency_flg`. -/
def frame (rate : Nat) (indep long : Bool) (factors q : Nat → Int) (spacing : Int) (maxSfb : Nat) (p1 p2 : Nat → Int)
    (coef : Nat → ℚ) : Res ((Nat → Int) × (Nat → Int) × (Nat → ℚ)) :=
  let z : (Nat → Int) → Nat → Int := fun f j => if indep ∧ j < 172 then 0 else f j
  decode long (if long then (Fd.bandsAt rate).long else (Fd.bandsAt rate).short) factors q spacing (bandwidth rate) maxSfb (z p1) (z p2) coef

/-! ## Linear prediction parts -/

/-- The two loops of `ia_core_coder_rounded_sqrt64`, ia_core_coder_basic_ops40.h 474-487, as one: `bit_set` is `4 ^ k` in a round; rounds
with `bit_set > num` before the first other round change nothing (`value` is 0). -/
def sqrtLoop : (k : Nat) → (num value : Nat) → Nat
  | 0, num, value => if value + 1 ≤ num then (value + 2) / 2 else value / 2
  | k + 1, num, value =>
    if value + 4 ^ (k + 1) ≤ num then sqrtLoop k (num - (value + 4 ^ (k + 1))) ((value + 2 * 4 ^ (k + 1)) / 2)
    else sqrtLoop k num (value / 2)

/-- `ia_core_coder_rounded_sqrt64`, ia_core_coder_basic_ops40.h 469-494, for arguments that are not negative. -/
def roundedSqrt (x : Nat) : Nat :=
  let v := sqrtLoop 31 x 0
  if ((v : Int) + 1) * (v + 1) - x < (x : Int) - v * v then v + 1 else v

/-- ia_core_coder_tcx_fwd_alcnx.c 797-825: the gain of the quantised values; `energy` is the sum of the squares of the values with
noise, `index` is `global_gain` and `lg` is 0 if the band is not full and otherwise the number of values.  The division of the full
band in floating point is taken as exact. -/
def quantGain (energy : ℚ) (lg index : Nat) : Res Nat := do
  let e := if 8388608 ≤ energy then 2147483647 else (energy * 256).num.toNat / (energy * 256).den
  let r := roundedSqrt (41 + 16 * e)
  let r := if lg = 0 then r else (1 + 2 * (r * 1024)) / (2 * lg)
  let t ← entry gainTab index
  if r = 0 then .ub else .ok ((t + r) / (2 * r))

/-- ia_core_coder_tcx_fwd_alcnx.c 275-295: `n` values from value `i`. -/
def tcxLines (present : Bool) (gain : Nat) (q : Nat → Int) : (n i : Nat) → St → Res St
  | 0, _, s => .ok s
  | n + 1, i, s => do
    let _ ← inside i
    let x ← i32 (q i * gain)
    let x ← addEst present (s.est i) x
    tcxLines present gain q n (i + 1) { s with p2 := upd s.p2 i (s.p1 i), p1 := upd s.p1 i (sat x) }

/-- ia_core_coder_tcx_fwd_alcnx.c 223-224: the distance of the harmonics. -/
def tcxSpacing (idx : Nat) : Res Nat :=
  let v : Int := 298 - idx
  if v = 0 then .ub else .ok (((894 * 512 + v).tdiv (2 * v)).toNat)

/-- `ia_core_coder_tcx_fdp_decode`, ia_core_coder_tcx_fwd_alcnx.c 213-300: `present` is `fdp_data_present`, `p1` and `p2` are
`fdp_quant_spec_prev[0]` and `[1]`, `g` is the gain of the estimate; `bw` is both `pred_bw` and `max_lines`. -/
def tcxDecode (present : Bool) (idx : Nat) (q : Nat → Int) (gain : Nat) (g : ℚ) (lg bw : Nat) (p1 p2 : Nat → Int) (est : Nat → Option Int)
    (coef : Nat → ℚ) : Res ((Nat → Int) × (Nat → Int) × (Nat → ℚ)) := do
  let sp ← tcxSpacing idx
  let n := min lg bw
  let s : St := ⟨p1, upd p2 0 0, est, coef, start⟩
  let s ← (if present then estLines sp g n 0 s else .ok s)
  let s ← tcxLines present gain q n 0 s
  let k := min n bw
  let clear : (Nat → Int) → Nat → Int := fun f j => if k ≤ j ∧ j < 172 then 0 else f j
  .ok (clear s.p1, clear s.p2, s.coef)

end Verif.Fdp
