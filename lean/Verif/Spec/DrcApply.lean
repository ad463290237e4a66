import Mathlib.Algebra.Order.Ring.Rat
import Verif.Model.DrcApply
import Verif.Spec.DrcConfig
import Verif.Spec.DrcInstr

/-! # What applying DRC sets should do

The weights of bands, the filters of channel groups, which gain decoder has which set, and what becomes of the
samples. -/

namespace Verif.DrcApply

open DrcConfig

/-- A curve as it should be: `pow` and the table are above 0 where they are used. -/
structure Curve.Positive (c : Curve) : Prop where
  pow : ∀ x, 0 < x → 0 < c.pow x
  tab : ∀ k, 0 < k → 0 < c.tab k

/-- The weights are a partition of every one of the 256 subbands: none is negative and they add up to 1. -/
def Partition (rows : List (Nat → Rat)) : Prop :=
  ∀ k < 256, (rows.map (· k)).sum = 1 ∧ ∀ r ∈ rows, 0 ≤ r k

/-- The frequency at which band `b` starts, of its crossover index. -/
def border (ps : List Param) (b : Nat) : Option Rat :=
  (ps[b]?).bind fun p => if p.crossover < 0 then none else crossFreq[p.crossover.toNat]?

/-- Band `b` of bands that start at `starts` has subband `k`: it starts there or below and the next one starts above. -/
def InBand (starts : List Nat) (b k : Nat) : Prop :=
  (∃ s, starts[b]? = some s ∧ s ≤ k) ∧ ∀ s, starts[b + 1]? = some s → k < s

/-! ## Samples -/

/-- The channel group of a channel, −1 for none. -/
def group (o : Instr) (ch : Nat) : Int := (o.chGroup[ch]?).getD (-1)

/-- The number of bands of a group. -/
def bands (o : Instr) (g : Nat) : Nat := (o.bandCount[g]?).getD 1

/-- The number of signals of a channel. -/
def sigs (o : Instr) (ch : Nat) : Nat := if group o ch < 0 then 1 else bands o (group o ch).toNat

/-- The gains of a set are those of its groups one after the other: the first of a group. -/
def firstGain (o : Instr) (g : Nat) : Nat := ((List.range g).map (bands o)).sum

/-- The first signal of a channel. -/
def firstSig (o : Instr) (ch : Nat) : Nat := ((List.range ch).map (sigs o)).sum

/-- The gains of a frame begin here. -/
def origin (q : Par) : Nat := 1536 - q.delay + (if q.low then q.frame else 0)

/-- The gain of band `b` of group `g` for sample `t` of the frame. -/
def gainAt (q : Par) (o : Instr) (gains : List (Nat → Rat)) (g b t : Nat) : Rat :=
  ((gains[firstGain o g + b]?).getD fun _ => 0) (origin q + t)

/-- The signal of a channel, behind the all-pass filters that go with a set of more than one band. -/
def signal (q : Par) (k : Banks) (multi : Bool) (o : Instr) (a : Buf) (ch : Nat) : Nat → Rat := fun t =>
  if multi = true ∧ t < q.frame then k.allPass (if group o ch < 0 then o.groups else (group o ch).toNat) ch (a ch) t else a ch t

/-- What a set should do to the channels `a`: a channel of a group is split into the bands of the group, each band is
multiplied with its gain and the bands are added; a channel in no group is left alone. -/
def setOut (q : Par) (k : Banks) (multi : Bool) (o : Instr) (gains : List (Nat → Rat)) (a : Buf) : Buf := fun ch t =>
  if ch < q.chans ∧ t < q.frame then
    if group o ch < 0 then signal q k multi o a ch t
    else
      let g := (group o ch).toNat
      ((List.range (bands o g)).map fun b =>
        (if bands o g = 1 then signal q k multi o a ch t else k.split g ch (bands o g) (signal q k multi o a ch) b t) *
          gainAt q o gains g b t).sum
  else a ch t

/-- A set and its gains as they should be. -/
structure Shape (q : Par) (x : Inst) (gains : List (Nat → Rat)) : Prop where
  id : 0 < x.o.setId
  chans : q.chans ≤ x.chans
  length : x.chans ≤ x.o.chGroup.length
  member : ∀ ch < x.chans, -1 ≤ group x.o ch ∧ group x.o ch < (x.o.groups : Int)
  groups : x.o.groups ≤ x.o.bandCount.length ∧ x.o.groups ≤ 24
  count : ∀ g < x.o.groups, 1 ≤ bands x.o g ∧ bands x.o g ≤ 4
  gains : firstGain x.o x.o.groups ≤ gains.length
  window : q.delay ≤ 1536 ∧ origin q + q.frame ≤ 3584

/-- A set fits its gain decoder in the time domain. -/
structure Fits (q : Par) (multi : Bool) (x : Inst) (gains : List (Nat → Rat)) : Prop extends Shape q x gains where
  most : x.chans ≤ 16
  single : multi = false → ∀ g < x.o.groups, bands x.o g = 1
  banks : multi = true → x.o.groups ≤ 7
  rows : firstSig x.o q.chans ≤ q.rows

/-! ## Subbands -/

/-- The gain of subband `k` of group `g` for slot `t`: that of the middle of the slot, summed over the bands with their
weights. -/
def subGain (q : Par) (o : Instr) (gains : List (Nat → Rat)) (ws : List (List (Nat → Rat))) (g t k : Nat) : Rat :=
  if bands o g = 1 then gainAt q o gains g 0 (256 * t + 127)
  else ((List.range (bands o g)).map fun b =>
    ((((ws[g]?).getD [])[b]?).getD fun _ => 0) k * gainAt q o gains g b (256 * t + 127)).sum

/-- What a set should do to the real parts: subband `k` of slot `t` is sample `256 * t + k`. -/
def realOut (q : Par) (o : Instr) (gains : List (Nat → Rat)) (ws : List (List (Nat → Rat))) (a : Buf) : Buf := fun ch j =>
  if ch < q.chans ∧ 0 ≤ group o ch ∧ j / 256 < q.frame / 256 then
    a ch j * subGain q o gains ws (group o ch).toNat (j / 256) (j % 256)
  else a ch j

/-- What a set should do to the imaginary parts: the first holds the real part of the last subband. -/
def imagOut (q : Par) (o : Instr) (gains : List (Nat → Rat)) (ws : List (List (Nat → Rat))) (a : Buf) : Buf := fun ch j =>
  if ch < q.chans ∧ 0 ≤ group o ch ∧ j / 256 < q.frame / 256 then
    a ch j * subGain q o gains ws (group o ch).toNat (j / 256) (if j % 256 = 0 then 255 else j % 256)
  else a ch j

/-- There are weights for all groups of more than one band. -/
def HasWeights (o : Instr) (ws : List (List (Nat → Rat))) : Prop :=
  ∀ g < o.groups, 1 < bands o g → ∃ w, ws[g]? = some w ∧ bands o g ≤ w.length

/-! ## Filters -/

/-- The crossover frequencies of a group. -/
def crossovers (cf : Coeffs) (o : Instr) (g : Nat) : List Int :=
  match o.groupSet[g]? with
  | some s =>
    if s < 0 then []
    else match cf.sets[s.toNat]? with
      | some gs => ((gs.params.drop 1).take (gs.bands - 1)).map (·.crossover)
      | none => []
  | none => []

/-- The crossover frequencies of all groups. -/
def allCrossovers (cf : Coeffs) (o : Instr) (n : Nat) : List Int := (List.range n).flatMap (crossovers cf o)

/-- Gain sets with filters: 1 to 4 bands whose crossover frequencies are in the table. -/
def Filterable (cf : Coeffs) (o : Instr) : Prop :=
  ∀ g < o.groups, ∃ s, o.groupSet[g]? = some s ∧ (s < 0 ∨ ∃ gs, cf.sets[s.toNat]? = some gs ∧ 1 ≤ gs.bands ∧ gs.bands ≤ 4 ∧
    gs.bands ≤ gs.params.length ∧ ∀ p ∈ gs.params, 0 ≤ p.crossover ∧ p.crossover < 16)

/-! ## Setting up -/

/-- An instruction as it should be for `n` channels. -/
structure Ready (o : Instr) (n : Nat) : Prop where
  id : 0 < o.setId
  most : n ≤ 16
  length : n ≤ o.chGroup.length
  member : ∀ ch < n, -1 ≤ group o ch ∧ group o ch < (o.groups : Int)
  groups : o.groups ≤ o.bandCount.length ∧ o.groups ≤ 24
  count : ∀ g < o.groups, 1 ≤ bands o g ∧ bands o g ≤ 4
  ducks : o.effect.testBit 10 = true ∨ o.effect.testBit 11 = true → ∀ g < o.groups, bands o g = 1
  elements : o.elements = firstGain o o.groups

/-! ## Coded configurations -/

/-- An instruction: what it is for, its head, which channels have which gain sets, and a modifier for each group. -/
structure Coded where
  head : Spec.Drc.Head
  runs : List Spec.Drc.Run
  mods : List Spec.Drc.Mod

def Coded.bits (c : Coded) : List Bool :=
  Spec.Drc.Target.whole.bits ++ (c.head.bits ++ (c.runs.flatMap Spec.Drc.Run.bits ++ c.mods.flatMap Spec.Drc.Mod.bits))

def Coded.Valid (c : Coded) : Prop :=
  c.head.Valid ∧ (∀ r ∈ c.runs, r.Valid) ∧ ∀ m ∈ c.mods, m.Valid

/-- A configuration of coefficients and instructions, without extension and loudness. -/
def configBits (channels : Nat) (cs : List Spec.Drc.Coeffs) (is : List Coded) : List Bool :=
  natBits 3 cs.length ++ (natBits 6 is.length ++ (natBits 7 channels ++ (cs.flatMap Spec.Drc.Coeffs.bits ++
    (is.flatMap Coded.bits ++ [false, false]))))

end Verif.DrcApply
