import Verif.Model.Fd
import Verif.Spec.Scf
import Verif.Spec.LpdFrame

/-! # How windows, noise shaping in time and stereo data of frequency domain channels are coded -/

namespace Verif.Fd

open Scf (diffCode groupEnds)
open Lpd (Each)

/-! ## Windows -/

/-- The window overlaps the one before it with a short slope. -/
def LeftShort (seq : Nat) : Prop := seq = 2 ∨ seq = 3 ∨ seq = 4
/-- The window overlaps the one after it with a short slope. -/
def RightShort (seq : Nat) : Prop := seq = 1 ∨ seq = 2 ∨ seq = 4
/-- The slopes of successive windows are the same. -/
def Fits (last seq : Nat) : Prop := RightShort last ↔ LeftShort seq

/-- The code of a window sequence: stop and start is coded as start behind a window that ends with a short slope. -/
def SeqCode (last seq c : Nat) : Prop :=
  (c = 0 ∧ seq = 0) ∨ (c = 1 ∧ seq = 1 ∧ ¬ RightShort last) ∨ (c = 1 ∧ seq = 4 ∧ RightShort last) ∨ (c = 2 ∧ seq = 2) ∨ (c = 3 ∧ seq = 3)

/-- Groups of the eight short windows. -/
def Groups (lens : List Nat) : Prop := (∀ n ∈ lens, 0 < n) ∧ lens.sum = 8

/-- The code of groups: one bit for each window but the first, set if it belongs to the group of the window before it. -/
def groupPattern (lens : List Nat) : List Bool := (lens.flatMap fun n => List.replicate (n - 1) true ++ [false]).dropLast

/-- Windows with their code. -/
def IcsCode (bands : Bands) (last : Nat) (i : Ics) (b : List Bool) : Prop :=
  ∃ c, SeqCode last i.seq c ∧ i.shape < 2 ∧
    ((i.seq = 2 ∧ i.maxSfb ≤ bands.short.length ∧ i.maxSfb < 16 ∧ ∃ lens, Groups lens ∧ i.ends = groupEnds 0 lens ∧
        b = natBits 2 c ++ natBits 1 i.shape ++ natBits 4 i.maxSfb ++ groupPattern lens) ∨
     (i.seq ≠ 2 ∧ i.maxSfb ≤ bands.long.length ∧ i.maxSfb < 64 ∧ i.ends = [1] ∧
        b = natBits 2 c ++ natBits 1 i.shape ++ natBits 6 i.maxSfb))

/-! ## Noise shaping in time -/

/-- A coefficient in two's complement. -/
def coefBits (n : Nat) (c : Int) : List Bool := natBits n (c % 2 ^ n).toNat

/-- A filter below band `top` with its code; `least` is the lowest band it may start at. -/
def FiltCode (least sb ob res top : Nat) (f : Filt) (b : List Bool) : Prop :=
  ∃ d, d < 2 ^ sb ∧ f.stop = top ∧ f.start + d = top ∧ least ≤ f.start ∧ f.coef.length < 2 ^ ob ∧
    ((f.coef = [] ∧ f.dir = 0 ∧ b = natBits sb d ++ natBits ob 0) ∨
     (f.coef ≠ [] ∧ f.dir < 2 ∧ ∃ p < 2, (∀ c ∈ f.coef, -2 ^ (res - p - 1) ≤ c ∧ c < 2 ^ (res - p - 1)) ∧
        b = natBits sb d ++ natBits ob f.coef.length ++ natBits 1 f.dir ++ natBits 1 p ++ f.coef.flatMap (coefBits (res - p))))

/-- Filters one below the other. -/
def FiltsCode (least sb ob res : Nat) : (top : Nat) → List Filt → List Bool → Prop
  | _, [], b => b = []
  | top, f :: fs, b => ∃ b1 b2, FiltCode least sb ob res top f b1 ∧ FiltsCode least sb ob res f.start fs b2 ∧ b = b1 ++ b2

/-- A window with its code. -/
def WinCode (least fb sb ob num : Nat) (w : TnsWin) (b : List Bool) : Prop :=
  w.filt.length < 2 ^ fb ∧
    ((w.filt = [] ∧ w.res = 0 ∧ b = natBits fb 0) ∨
     (w.filt ≠ [] ∧ ∃ r < 2, w.res = r + 3 ∧ ∃ b', FiltsCode least sb ob w.res num w.filt b' ∧
        b = natBits fb w.filt.length ++ natBits 1 r ++ b'))

/-- Noise shaping of a frame: one long window or eight short ones. -/
def TnsCode (least : Nat) (bands : Bands) (long : Bool) (ws : List TnsWin) (b : List Bool) : Prop :=
  if long then ws.length = 1 ∧ Each (fun _ => WinCode least 2 6 4 bands.long.length) 0 ws b
  else ws.length = 8 ∧ Each (fun _ => WinCode least 1 4 3 bands.short.length) 0 ws b

/-! ## Stereo -/

/-- A row written into a table from position `pos` on. -/
def overlay {α : Type} (t : List α) (pos : Nat) (row : List α) : List α := t.take pos ++ row ++ t.drop (pos + row.length)

/-- Rows of the mask, for the bands of each group one flag; the bands that are not coded have none. -/
def maskTable (num : Nat) : (pos : Nat) → List (List Nat) → List Nat → List Nat
  | _, [], t => t
  | pos, r :: rs, t => maskTable num (pos + num) rs (overlay t pos (r ++ List.replicate (num - r.length) 0))

/-- Coefficients of pairs of bands: whether prediction is used, the real and the imaginary part. -/
abbrev Coef := Bool × (Int × Int)

/-- What is said of a pair of bands holds for both; if the number of bands is odd the last one is alone. -/
def both {α : Type} (n : Nat) (l : List α) : List α := (l.flatMap fun x => [x, x]).take n

/-- A coefficient that can be coded by its difference from `ref`. -/
def CoefOk (complex : Bool) (ref : Int × Int) (x : Coef) : Prop :=
  if x.1 then (-60 ≤ x.2.1 - ref.1 ∧ x.2.1 - ref.1 ≤ 60) ∧ (if complex then -60 ≤ x.2.2 - ref.2 ∧ x.2.2 - ref.2 ≤ 60 else x.2.2 = 0)
  else x.2 = (0, 0)

/-- Its codewords; the sign of the difference is turned. -/
def coefCode (complex : Bool) (ref : Int × Int) (x : Coef) : List Bool :=
  if x.1 then diffCode (ref.1 - x.2.1) ++ (if complex then diffCode (ref.2 - x.2.2) else []) else []

/-- The coefficients of a group: differences from the pair before, or from what the same pair had before (`time`). -/
def RowCode (complex time : Bool) : (k : Nat) → (last : Int × Int) → (prev : List (Int × Int)) → List Coef → List Bool → Prop
  | _, _, _, [], b => b = []
  | k, last, prev, x :: xs, b =>
    ∃ b2, CoefOk complex (if time then prev.getD (2 * k) (0, 0) else last) x ∧ RowCode complex time (k + 1) x.2 prev xs b2 ∧
      b = coefCode complex (if time then prev.getD (2 * k) (0, 0) else last) x ++ b2

/-- What is kept of the coefficients of a group: those of the first band of each pair, and zeros from `n` up to `clear`. -/
def keep (n clear : Nat) (row : List Coef) (prev : List (Int × Int)) : List (Int × Int) :=
  prev.mapIdx fun i x => if i < n then (if i % 2 = 0 then (row.getD (i / 2) (false, (0, 0))).2 else x) else if i < clear then (0, 0) else x

/-- The coefficients of groups and what is kept in the end. -/
def RowsCode (complex time : Bool) (n clear : Nat) : (prev : List (Int × Int)) → List (List Coef) → List (Int × Int) → List Bool → Prop
  | prev, [], last, b => last = prev ∧ b = []
  | prev, r :: rs, last, b =>
    ∃ b1 b2, RowCode complex time 0 (0, 0) prev r b1 ∧ RowsCode complex time n clear (keep n clear r prev) rs last b2 ∧ b = b1 ++ b2

/-- Prediction data with their code: rows of coefficients of pairs of bands. -/
def PredCode (indep : Bool) (groups n clear : Nat) (prev : List (Int × Int)) (x : Pred × List (Int × Int)) (b : List Bool) : Prop :=
  ∃ (rows : List (List Coef)) (all time : Bool) (br : List Bool),
    rows.length = groups ∧ (∀ r ∈ rows, r.length = (n + 1) / 2) ∧
    x.1.used = rows.map (fun r => both n (r.map fun c => c.1)) ∧ x.1.alpha = rows.map (fun r => both n (r.map fun c => c.2)) ∧
    (all = true → ∀ r ∈ rows, ∀ c ∈ r, c.1 = true) ∧
    (x.1.usePrev = true → x.1.complex = true ∧ indep = false) ∧ (time = true → indep = false) ∧
    RowsCode x.1.complex time n clear prev rows x.2 br ∧
    b = [all] ++ (if all then [] else rows.flatMap fun r => r.map fun c => c.1) ++ [x.1.dir, x.1.complex] ++
      (if x.1.complex = true ∧ indep = false then [x.1.usePrev] else []) ++ (if indep then [] else [time]) ++ br

/-- Stereo data with their code. -/
def StereoCode (indep : Bool) (num groups n clear : Nat) (ms : List Nat) (prev : List (Int × Int)) (x : Stereo × List (Int × Int))
    (b : List Bool) : Prop :=
  match x.1 with
  | .none => x.2 = prev ∧ b = natBits 2 0
  | .mask t => x.2 = prev ∧ ∃ rows : List (List Nat), rows.length = groups ∧ (∀ r ∈ rows, r.length = n ∧ ∀ v ∈ r, v < 2) ∧
      t = maskTable num 0 rows ms ∧ b = natBits 2 1 ++ rows.flatten.flatMap (natBits 1)
  | .all t => x.2 = prev ∧ t = maskTable num 0 (List.replicate groups (List.replicate n 1)) ms ∧ b = natBits 2 2
  | .pred p => ∃ b', PredCode indep groups n clear prev (p, x.2) b' ∧ b = natBits 2 3 ++ b'

/-! ## Pairs -/

/-- Windows and stereo data that both channels of a pair have in common, with their code.  `raw` is the number of bands of the right channel as it is
coded, `R` says how masks of the gap filling are coded, `forbid` that the imaginary part must not be used. -/
def CommonCode (c : Cfg) (s : Past) (forbid : Bool) (prev : List (Int × Int)) (R : Ics → Nat → List Bool → Prop) (x : Common × List (Int × Int))
    (b : List Bool) : Prop :=
  ∃ (b1 bs bi : List Bool) (raw : Nat) (same : Bool),
    IcsCode c.bands s.last x.1.ics b1 ∧
    (if same then raw = x.1.ics.maxSfb else raw < if x.1.ics.seq = 2 then 16 else 64) ∧
    x.1.right = min raw (c.bands.num (decide (x.1.ics.seq ≠ 2))) ∧
    x.1.maxSte = (if c.igf = true ∧ c.independent = false then min (max x.1.ics.maxSfb raw) (c.igfStart (decide (x.1.ics.seq ≠ 2)))
      else max x.1.ics.maxSfb raw) ∧
    StereoCode s.indep (c.bands.num (decide (x.1.ics.seq ≠ 2))) x.1.ics.ends.length x.1.maxSte
      (if c.igf = true ∧ c.independent = false then min 136 (c.igfStart (decide (x.1.ics.seq ≠ 2))) else 136) s.ms prev (x.1.stereo, x.2) bs ∧
    ¬ (forbid = true ∧ x.1.stereo.complex = true) ∧
    (if c.igf = true ∧ c.independent = false then R x.1.ics x.1.igfMask bi else x.1.igfMask = 0 ∧ bi = []) ∧
    b = b1 ++ [same] ++ (if same then [] else natBits (if x.1.ics.seq = 2 then 4 else 6) raw) ++ bs ++ bi

/-- Data of the long term postfilter. -/
def LtpfCode (l : Ltpf) (b : List Bool) : Prop :=
  match l with
  | none => b = [false]
  | some (lag, gain) => lag < 512 ∧ gain < 4 ∧ b = [true] ++ natBits 9 lag ++ natBits 2 gain

/-- Noise shaping of a pair with its code: `on` whether there is any, `window` whether the windows are long, if the channels have them in common.
`tw` says for which windows common noise shaping is coded; as the format is meant, it is for those of the pair (`some`). -/
def PairTns (c : Cfg) (tw : Bool → Option Bool) (window : Option Bool) (on : Bool) (t : Tns) (onLr : Bool) (b : List Bool) : Prop :=
  ∃ (onBits : List Bool), (if c.igf = true ∧ c.afterTns = false then onLr = true ∧ onBits = [] else onBits = [onLr]) ∧
  match t with
  | .off => on = false ∧ onLr = true ∧ b = []
  | .common d => on = true ∧ ∃ w b', window.bind tw = some w ∧ TnsCode 1 c.bands w d b' ∧ b = [true] ++ onBits ++ b'
  | .own l r => on = true ∧ (l = true ∨ r = true) ∧
      b = (if window.isSome then [false] else []) ++ onBits ++ (if l && r then [true] else [false, r])

/-- The header of a pair with its code. -/
def PairCode (c : Cfg) (s : Past) (tw : Bool → Option Bool) (forbid : Bool) (R : Ics → Nat → List Bool → Prop) (x : Pair × List (Int × Int)) (b : List Bool) : Prop :=
  ∃ (on : Bool) (bc bl bt : List Bool),
    (match x.1.common with
      | none => x.2 = List.replicate 136 (0, 0) ∧ bc = []
      | some y => CommonCode c s forbid (if s.indep then List.replicate 136 (0, 0) else s.prev) R (y, x.2) bc) ∧
    (match x.1.ltpf with
      | none => bl = [false]
      | some l => c.base3b = false ∧ ∃ b', LtpfCode l b' ∧ bl = [true] ++ b') ∧
    PairTns c tw (x.1.common.map fun y => decide (y.ics.seq ≠ 2)) on x.1.tns x.1.onLr bt ∧
    b = [on, x.1.common.isSome] ++ bc ++ bl ++ bt

end Verif.Fd
