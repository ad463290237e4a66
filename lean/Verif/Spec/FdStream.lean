import Verif.Model.FdStream
import Verif.Spec.Spectral
import Verif.Spec.ArithCode
import Verif.Spec.Fd
import Verif.Spec.Scf
import Verif.Spec.LpdFrame

/-! # How the data of a frequency domain channel are coded -/

namespace Verif.FdStream

open Spectral ArithCode
open Fd (Bands Ics)

/-! ## Windows one after another -/

/-- The context that a window of `2 * n` lines leaves: the weights of its pairs, 1 for the pairs that are left out. -/
def weights (n : Nat) (vs : List (Int × Int)) : List Nat :=
  vs.map (fun p => weight p.1.natAbs p.2.natAbs) ++ List.replicate (n - vs.length) 1

/-- The context for a window of `pres` lines after one of `prev` lines: each pair has the weight of the pair at the same frequency. -/
def scaled (pres prev : Nat) (ws : List Nat) : List Nat := (List.range (pres / 2)).map fun i => ws.getD (i * prev / pres) 0

/-- The code of windows one after another: each has the one before it as context.  `m` pairs of `n` are coded. -/
def windowBits (T : Tables) (m n : Nat) : (ctx : List Nat) → List (List (Int × Int)) → List Bool
  | _, [] => []
  | ctx, vs :: rest =>
    encode Enc.start (spectrum T m ctx (vs.map fun p => (p.1.natAbs, p.2.natAbs))) ++ signBits (flat vs) ++ windowBits T m n (weights n vs) rest

/-- The context after windows. -/
def after (n : Nat) : (ctx : List Nat) → List (List (Int × Int)) → List Nat
  | ctx, [] => ctx
  | _, vs :: rest => after n (weights n vs) rest

/-- The lines of a window. -/
def linesOf (n : Nat) (vs : List (Int × Int)) : List Int := flat vs ++ List.replicate (2 * n - 2 * vs.length) 0

/-- Windows of the same length with a common number of coded lines. -/
structure Block where
  size : Nat
  top : Nat
  reset : Bool
  wins : List (List (Int × Int))

/-- The context at the start of a block after windows of `prev` lines that left `ws`. -/
def Block.start (b : Block) (prev : Nat) (ws : List Nat) : List Nat :=
  if b.reset then List.replicate (b.size / 2) 0 else scaled b.size prev ws

/-- The code of a block. -/
def Block.bits (T : Tables) (b : Block) (prev : Nat) (ws : List Nat) : List Bool :=
  if b.top = 0 then [] else windowBits T (b.top / 2) (b.size / 2) (b.start prev ws) b.wins

/-- The context after a block. -/
def Block.leaves (b : Block) (prev : Nat) (ws : List Nat) : List Nat :=
  if b.top = 0 then List.replicate (b.size / 2) 1 else after (b.size / 2) (b.start prev ws) b.wins

/-- Sizes of windows. -/
def Size (n : Nat) : Prop := n = 128 ∨ n = 256 ∨ n = 512 ∨ n = 1024

/-- Blocks that can be coded: numbers of less than 31 bits, no more pairs than are coded. -/
def Block.Ok (b : Block) : Prop :=
  Size b.size ∧ b.top ≤ b.size ∧ ∀ vs ∈ b.wins, vs.length ≤ b.top / 2 ∧ ∀ p ∈ vs, p.1.natAbs < 2 ^ 30 ∧ p.2.natAbs < 2 ^ 30

/-! ## Channels -/

/-- Noise filling from its byte `c`: three bits of level and five of offset.  A byte with level zero has two bits of level and the upper two bits of
offset in the second channel of a pair with common windows, where it stands for stereo filling, and behind start windows. -/
def NoiseIs (stereo : Bool) (seq c noise : Nat) (filling : Bool) : Prop :=
  if 0 < c ∧ c < 32 ∧ (stereo = true ∨ seq = 1 ∨ seq = 4) then noise = 8 * c ∧ filling = stereo else noise = c ∧ filling = false

/-- An optional byte. -/
def OptByte (allowed : Bool) (x : Option Nat) (b : List Bool) : Prop :=
  match x with
  | none => b = [false]
  | some v => allowed = true ∧ v < 256 ∧ b = [true] ++ natBits 8 v

/-- Scale factors of a channel with their code: if no bands are coded, only the gain is stored. -/
def FactorsCode (bands gain maxSfb : Nat) (ends : List Nat) (f : List (List Int)) (b : List Bool) : Prop :=
  ∃ lens, ends = Scf.groupEnds 0 lens ∧
    ((maxSfb = 0 ∧ b = [] ∧ f = Scf.stored bands lens ([(gain : Int)] :: List.replicate (lens.length - 1) [])) ∨
     (1 ≤ maxSfb ∧ ∃ (rows : List (List Int)) (xs : List Int), lens.length = rows.length ∧ (∀ x ∈ rows, x.length = maxSfb) ∧
        rows.flatten = (gain : Int) :: xs ∧ Scf.Codable gain xs ∧ f = Scf.stored bands lens rows ∧ b = Scf.diffs gain xs))

/-- Windows that a channel may have. -/
def WinOk (bands : Bands) (i : Ics) : Prop :=
  (i.seq = 2 ∧ i.maxSfb ≤ bands.short.length ∧ ∃ lens, Fd.Groups lens ∧ i.ends = Scf.groupEnds 0 lens) ∨
  (i.seq ≠ 2 ∧ i.maxSfb ≤ bands.long.length ∧ i.ends = [1])

/-- What comes before the spectrum with its code: `b1` up to the windows and `b2` from there on.  `G` is the code of gap filling. -/
def HeadCode {ι : Type} (G : Ics → ι → List Bool → Prop) (e : Env) (h : Head ι) (b1 b2 : List Bool) : Prop :=
  ∃ (c : Nat) (bi bl bf bs bg bt : List Bool),
    h.gain < 256 ∧ c < 256 ∧ (e.filling = false → c = 0) ∧
    NoiseIs (e.second && e.common.isSome) h.ics.seq c h.noise h.stereoFilling ∧
    (match e.common with
      | some i => h.ics = i ∧ bi = []
      | none => Fd.IcsCode e.bands e.last h.ics bi) ∧
    (if e.commonLtpf then h.ltpf = none ∧ bl = [] else ∃ l, h.ltpf = some l ∧ Fd.LtpfCode l bl ∧ (e.base3b = true → l = none)) ∧
    (if h.ics.seq ≠ 2 ∧ e.indep = false then OptByte (!e.base3b) h.fdp bf else h.fdp = none ∧ bf = []) ∧
    (if e.indep then h.prevAlias < 2 else h.prevAlias = e.symmetry) ∧ h.currAlias < 2 ∧
    FactorsCode (e.bands.num (Fd.isLong h.ics.seq)) h.gain h.ics.maxSfb h.ics.ends h.factors bs ∧
    (if e.igf then ∃ g, h.gap = some g ∧ G h.ics g bg else h.gap = none ∧ bg = []) ∧
    (if e.tns = 1 then ∃ t, h.tns = some t ∧ Fd.TnsCode 1 e.bands (Fd.isLong h.ics.seq) t bt else h.tns = none ∧ bt = []) ∧
    (e.indep = true → h.reset = true) ∧
    b1 = natBits 8 h.gain ++ (if e.filling then natBits 8 c else []) ++ bi ∧
    b2 = bl ++ bf ++ (if e.indep then natBits 1 h.prevAlias else []) ++ natBits 1 h.currAlias ++ bs ++ bg ++ bt ++ (if e.indep then [] else [h.reset])

/-- The first line that is not coded: the end of the last coded band. -/
def topOf (bands : Bands) (i : Ics) : Nat :=
  if i.maxSfb = 0 then 0 else (if i.seq = 2 then bands.short else bands.long).getD (i.maxSfb - 1) 0

/-- The spectrum of a channel as a block. -/
def blockOf {ι : Type} (e : Env) (h : Head ι) (wins : List (List (Int × Int))) : Block :=
  ⟨if h.ics.seq = 2 then 128 else 1024, topOf e.bands h.ics, h.reset, wins⟩

/-- Aliasing cancellation with its code. -/
def CancelCode (long : Bool) (x : Option (Nat × List Int)) (b : List Bool) : Prop :=
  match x with
  | none => b = [false]
  | some (g, f) => g < 128 ∧ ∃ b', Lpd.FacCode (if long then 16 else 8) f b' ∧ b = [true] ++ natBits 7 g ++ b'

end Verif.FdStream
