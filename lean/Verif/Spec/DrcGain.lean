import Mathlib.Algebra.Order.Ring.Rat
import Verif.Spec.TimeCode

/-! # DRC gain curves

What ISO/IEC 23003-4 asks of linearly interpolated DRC gains: points (time, gain) joined by straight
lines. -/

namespace Verif.DrcGain

/-- The point a curve has reached after `r`. -/
def lastPt (p : Int × Rat) : List (Int × Rat) → Int × Rat
  | [] => p
  | q :: r => lastPt q r

/-- The polygon through `p` and the points of `r`, from `p` on; after the last point it stays there. -/
def curve (p : Int × Rat) : List (Int × Rat) → Int → Rat
  | [], _ => p.2
  | q :: r, t =>
    if t < q.1 then p.2 + (q.2 - p.2) * ((t - p.1 : Int) : Rat) / ((q.1 - p.1 : Int) : Rat)
    else curve q r t

/-- The points come one after the other. -/
def Ordered (p : Int × Rat) : List (Int × Rat) → Prop
  | [] => True
  | q :: r => p.1 < q.1 ∧ Ordered q r

/-! ## Coded times -/

/-- Times from time differences in units of `dt`, starting at `off`. -/
def sums (dt : Nat) (off : Int) : List Nat → List Int
  | [] => []
  | d :: ds => (off + d * dt) :: sums dt (off + d * dt) ds

/-- The frame end `e` is a node of its own, put between the coded times. -/
def withEnd (e : Int) (ts : List Int) : List Int := ts.filter (· ≤ e) ++ e :: ts.filter (e < ·)

/-- Times after the frame are times of the previous frame, one frame further on. -/
def placed (ts : List Int) : List Int := (ts.filter (1024 ≤ ·)).map (· - 2048) ++ ts.filter (· < 1024)

/-- Gains from gain differences. -/
def levels (g : Int) : List Int → List Int
  | [] => [g]
  | d :: ds => g :: levels (g + d) ds

/-! ## The gain payload -/

/-- Where the time grid starts: one sample before the frame, or such that the nodes are in the middle of
the intervals of length `dt`. -/
def gridStart (dt : Nat) (align : Bool) : Int := if align then -(dt : Int) + ((dt - 1) / 2 : Nat) else -1

/-- The first gain, in 1/8 dB; profile 0 has sign and magnitude, profiles 1 and 2 only attenuation. -/
def initWord (profile : Nat) (v : Int) : List Bool :=
  if profile = 0 then decide (v < 0) :: natBits 8 v.natAbs
  else if v = 0 then [false]
  else true :: natBits (if profile = 1 then 10 else 8) (v.natAbs - 1)

/-- The first gains there are. -/
def InitOk (profile : Nat) (v : Int) : Prop :=
  if profile = 0 then v.natAbs < 2 ^ 8
  else v ≤ 0 ∧ v.natAbs ≤ 2 ^ (if profile = 1 then 10 else 8)

/-- What is coded for a band: one gain for the frame, or time differences, first gain and gain
differences (as codewords and values in 1/10000 dB); with `ends` the end of the frame is a node that is
not coded. -/
inductive Band where
  | simple (v : Int)
  | nodes (ends : Bool) (ds : List Nat) (v : Int) (gs : List (List Bool × Int))

/-- The bits of a band; `full` if all frames end with a node, `n` is the number of time steps in a
frame. -/
def Band.bits (profile : Nat) (full : Bool) (n : Nat) : Band → List Bool
  | simple v => false :: initWord profile v
  | nodes ends ds v gs => true :: (List.replicate gs.length false ++ [true] ++ (if full then [] else [ends]) ++
      ds.flatMap (TimeCode.timeWord n) ++ initWord profile v ++ gs.flatMap (·.1))

/-- The times of the nodes. -/
def Band.times (dt : Nat) (off : Int) : Band → List Int
  | simple _ => [1024 + off]
  | nodes ends ds _ _ => placed (if ends then withEnd (1024 + off) (sums dt off ds) else sums dt off ds)

/-- The gains of the nodes, in 1/10000 dB. -/
def Band.gains : Band → List Int
  | simple v => [1250 * v]
  | nodes _ _ v gs => levels (1250 * v) (gs.map (·.2))

/-- What an encoder may write: gain differences `ok`, at most 32 nodes, time differences that have a
codeword, nodes no later than the next two frames, without `ends` in this frame. -/
def Band.Ok (profile : Nat) (full : Bool) (dt : Nat) (off : Int) (ok : List Bool × Int → Prop) : Band → Prop
  | simple v => InitOk profile v
  | nodes ends ds v gs => InitOk profile v ∧ (∀ g ∈ gs, ok g) ∧ gs.length < 32 ∧ (full = true → ends = true) ∧
      ds.length = (if ends then gs.length else gs.length + 1) ∧ (∀ d ∈ ds, 1 ≤ d ∧ d ≤ 2 * (1024 / dt)) ∧
      ∀ t ∈ sums dt off ds, t < (if ends then 3072 else 1024)

/-- An extension of the gain payload: type, width code of the length field, data. -/
structure Ext where
  type : Nat
  width : Nat
  data : List Bool

/-- The bits of an extension. -/
def Ext.bits (e : Ext) : List Bool :=
  natBits 4 e.type ++ natBits 3 e.width ++ natBits (e.width + 4) (e.data.length - 1) ++ e.data

/-- What an encoder may write; type 0 ends the list. -/
def Ext.Ok (e : Ext) : Prop :=
  1 ≤ e.type ∧ e.type < 16 ∧ e.width < 8 ∧ 1 ≤ e.data.length ∧ e.data.length ≤ 2 ^ (e.width + 4)

/-- The extensions of a payload. -/
def extBits (es : List Ext) : List Bool :=
  if es = [] then [false] else true :: (es.flatMap Ext.bits ++ natBits 4 0)

end Verif.DrcGain
