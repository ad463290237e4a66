import Verif.Model.Lpd
import Verif.Spec.Lpd

/-! # Codes of frames of the linear prediction domain

Relations between what is delivered for a frame and its bits.  `tbe` and `rest` are those of the bandwidth extension and of what
follows the head of a transform coded part, which are not described here. -/

namespace Verif.Lpd

/-- The codes of a list, one after another; element `j` has position `i + j`. -/
def Each {α : Type} (R : Nat → α → List Bool → Prop) : Nat → List α → List Bool → Prop
  | _, [], b => b = []
  | i, x :: xs, b => ∃ b1 b2, R i x b1 ∧ Each R (i + 1) xs b2 ∧ b = b1 ++ b2

/-- A field of `w` bits. -/
def Field (w v : Nat) (b : List Bool) : Prop := v < 2 ^ w ∧ b = natBits w v

/-! ## Aliasing cancellation -/

/-- A point with its codebook number in unary. -/
def PointCode (x : List Int) (b : List Bool) : Prop :=
  ∃ c : Code, c.Valid ∧ Avq.decode c.q c.index (c.voronoi.map Int.ofNat) = .ok x ∧ b = unaryBits (count .unary c.q) ++ c.bits

/-- The numbers of `n` points. -/
def FacCode (n : Nat) (x : List Int) (b : List Bool) : Prop :=
  ∃ xs : List (List Int), xs.length = n ∧ x = xs.flatten ∧ Each (fun _ => PointCode) 0 xs b

/-! ## Excitation -/

/-- The widths of the fields for the pulses of a subframe. -/
def pulseWidths : Nat → List Nat
  | 0 => [5, 5, 5, 5]
  | 1 => [9, 9, 5, 5]
  | 2 => [9, 9, 9, 9]
  | 3 => [13, 13, 9, 9]
  | 4 => [13, 13, 13, 13]
  | 5 => [2, 2, 2, 2, 14, 14, 14, 14]
  | 6 => [1, 5, 1, 5]
  | _ => [1, 5, 5, 5]

/-- The pitch has 9 bits in subframes 0 and 2 and 6 bits in the others. -/
def pitchWidth (sfr : Nat) : Nat := if sfr % 2 = 0 then 9 else 6

/-- Subframe `sfr` of a part with codebook `core`. -/
def SubCode (core sfr : Nat) (s : Sub) (b : List Bool) : Prop :=
  ∃ pb, s.pitch < 2 ^ pitchWidth sfr ∧ s.filtered < 2 ∧ s.gain < 128 ∧ s.pulses.length = (pulseWidths core).length ∧
    Each (fun i => Field ((pulseWidths core).getD i 0)) 0 s.pulses pb ∧
    b = natBits (pitchWidth sfr) s.pitch ++ natBits 1 s.filtered ++ pb ++ natBits 7 s.gain

/-- A part with four subframes; the bandwidth extension is that of full band frames. -/
def AcelpCode {τ : Type} (tbe : τ → List Bool → Prop) (full : Bool) (core : Nat) (a : Acelp τ) (b : List Bool) : Prop :=
  ∃ sb xb, a.energy < 4 ∧ a.subs.length = 4 ∧ Each (SubCode core) 0 a.subs sb ∧
    (if full then ∃ t, a.ext = some t ∧ tbe t xb else a.ext = none ∧ xb = []) ∧ b = natBits 2 a.energy ++ sb ++ xb

/-- A flag and, if it is set, fields. -/
def OptionCode {α : Type} (R : α → List Bool → Prop) (x : Option α) (b : List Bool) : Prop :=
  match x with
  | none => b = [false]
  | some v => ∃ b', R v b' ∧ b = true :: b'

/-- The number of lines of a transform coded part of mode `m`: 256 for each quarter, and twice as many in full band frames. -/
def lineCount (full : Bool) (m : Nat) : Nat := 256 * span m * (if full then 2 else 1)

/-- A transform coded part.  The pitch filter and the predictor are only sent for a part that is the whole frame, the predictor only if
the frame is not independent, and neither in the baseline profile. -/
def TcxCode {ρ : Type} (rest : ρ → List Bool → Prop) (c : Config) (m : Nat) (t : Tcx ρ) (b : List Bool) : Prop :=
  ∃ pb sb rb,
    (if c.noiseFilling then t.noise < 8 else t.noise = 8) ∧ t.gain < 128 ∧ t.lines = lineCount c.full m ∧
    (if m = (if c.full then 2 else 3) then
        OptionCode (fun (x : Nat × Nat) b => c.baseline = false ∧ x.1 < 512 ∧ x.2 < 4 ∧ b = natBits 9 x.1 ++ natBits 2 x.2) t.pitch pb
      else t.pitch = none ∧ pb = []) ∧
    (if m = (if c.full then 2 else 3) ∧ c.independent = false then
        OptionCode (fun x b => c.baseline = false ∧ x < 256 ∧ b = natBits 8 x) t.spacing sb
      else t.spacing = none ∧ sb = []) ∧
    rest t.rest rb ∧ b = (if c.noiseFilling then natBits 3 t.noise else []) ++ natBits 7 t.gain ++ pb ++ sb ++ rb

/-! ## Parts -/

/-- Whether numbers for the aliasing cancellation are sent with a part: with the first if `send`, and with another if one of it and the
part before is transform coded and the other is not. -/
def cancelled (send : Bool) (last : Int) (start mode : Nat) : Bool :=
  if start = 0 then send else decide (0 < last) != decide (0 < mode)

/-- The parts; `last` is the mode before, `pos` the number of lines before, and `first` says that no part was transform coded. -/
def PartsCode {τ ρ : Type} (tbe : Nat → τ → List Bool → Prop) (rest : Nat → Nat → Bool → Nat → ρ → List Bool → Prop) (c : Config)
    (core : Nat) (send : Bool) : Int → Nat → Bool → List (Part τ ρ) → List Bool → Prop
  | _, _, _, [], b => b = []
  | last, pos, first, p :: ps, b => ∃ fb db b',
    (if cancelled send last p.start p.mode then ∃ x, p.fac = some x ∧ FacCode 16 x fb else p.fac = none ∧ fb = []) ∧
    (match p.data with
      | .inl a => p.mode = 0 ∧ AcelpCode (tbe (if p.start = 0 then 0 else 1)) c.full core a db ∧
        PartsCode tbe rest c core send 0 pos first ps b'
      | .inr (q, t) => p.mode ≠ 0 ∧ q = pos ∧ TcxCode (rest p.start p.mode first pos) c p.mode t db ∧
        PartsCode tbe rest c core send p.mode (pos + lineCount c.full p.mode) false ps b') ∧
    b = fb ++ db ++ b'

/-! ## The frame -/

/-- A whole frame with division `d`; the modes are those which the parser computes from its number (C162). -/
def FrameCode {τ ρ : Type} (tbe : Nat → τ → List Bool → Prop) (rest : Nat → Nat → Nat → Nat → Bool → Nat → ρ → List Bool → Prop) (c : Config)
    (old : Nat → Nat) (last : Int) (eight : Bool) (shape maxSfb : Nat) (f : Frame τ ρ) (b : List Bool) : Prop :=
  ∃ (d : Division) (present : Bool) (hb pb xb : List Bool) (fs : Nat → Coded), d.isFull = c.full ∧
    modes c.full d.number old = some f.mod ∧
    -- the window of full band frames
    (if c.full then
        f.tns < 2 ∧ (if f.tns = 1 ∨ c.noiseFilling then
            f.shape < 2 ∧ f.maxSfb < 16 ∧ hb = natBits 1 f.tns ++ natBits 1 f.shape ++ natBits 4 f.maxSfb
          else f.shape = 0 ∧ f.maxSfb = 0 ∧ hb = natBits 1 f.tns)
      else f.tns = 0 ∧ f.shape = shape ∧ f.maxSfb = maxSfb ∧ hb = []) ∧
    f.core < 8 ∧ (if c.full then f.bpf = 1 else f.bpf < 2) ∧ f.lastCore < 2 ∧
    -- the first part after a frame of the other kind is cancelled at the end of the frame
    ¬ (0 < f.mod 0 ∧ f.lastCore = 0 ∧ present = true) ∧
    f.parts.map (fun p => (p.start, p.mode)) = pieces 0 d.modes ∧
    PartsCode tbe (rest f.tns f.maxSfb) c f.core (f.lastCore = 1 ∧ present = true) last 0 true f.parts pb ∧
    (∀ i, sent (f.lastCore = 0) c.full f.mod i = true → (fs i).Valid i) ∧
    f.filters = [4, 0, 2, 1, 3].flatMap (fun i => if sent (f.lastCore = 0) c.full f.mod i then (fs i).words i else []) ∧
    (if f.lastCore = 0 ∧ present = true then
        f.short = (if eight then 1 else 0) ∧ ∃ g x fb, f.fdFac = some (g, x) ∧ g < 128 ∧
          FacCode ((if c.full then 512 else 1024) / (if eight then 128 else 64)) x fb ∧ xb = natBits 1 f.short ++ natBits 7 g ++ fb
      else f.short = 0 ∧ f.fdFac = none ∧ xb = []) ∧
    b = hb ++ natBits 3 f.core ++ natBits (if c.full then 3 else 5) d.number ++ (if c.full then [] else natBits 1 f.bpf) ++
      natBits 1 f.lastCore ++ [present] ++ pb ++ filterBits (f.lastCore = 0) c.full f.mod fs ++ xb

end Verif.Lpd
