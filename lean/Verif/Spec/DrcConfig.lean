import Verif.Model.Prog

/-! # The code of DRC coefficients

Written from the syntax of `drcCoefficientsUniDrc()` and `gainSetParams()` as the low complexity profile of
MPEG-H restricts it: no frame size, no time differences of their own, spline interpolation not used. -/

namespace Verif.Spec.Drc

/-- A band: its characteristic and where it starts, which is not coded for the first band. -/
structure Band where
  characteristic : Nat
  border : Nat

/-- A gain set.  `freq` says whether borders are indices of crossover frequencies or subbands. -/
structure GSet where
  profile : Nat
  full : Bool
  align : Bool
  freq : Bool
  bands : List Band

/-- Constant gain, which has no bands of its own. -/
def GSet.const (g : GSet) : Prop := g.profile = 3

instance (g : GSet) : Decidable g.const := inferInstanceAs (Decidable (_ = _))

/-- How many bits a border takes. -/
def GSet.width (g : GSet) : Nat := if g.freq then 4 else 10

structure GSet.Valid (g : GSet) : Prop where
  profile : g.profile < 4
  bands : g.bands.length ≤ 4
  const : g.const → g.bands = []
  characteristic : ∀ b ∈ g.bands, b.characteristic < 128
  border : ∀ b ∈ g.bands, b.border < 2 ^ g.width

/-- The bands. -/
def GSet.bandBits (g : GSet) : List Bool :=
  natBits 4 g.bands.length ++ ((if 1 < g.bands.length then [g.freq] else []) ++
    (g.bands.flatMap (fun b => natBits 7 b.characteristic) ++ (g.bands.drop 1).flatMap fun b => natBits g.width b.border))

/-- The code of a gain set. -/
def GSet.bits (g : GSet) : List Bool :=
  natBits 2 g.profile ++ (true :: g.full :: g.align :: false :: (if g.const then [] else g.bandBits))

/-- How many gain sequences a gain set has. -/
def GSet.sequences (g : GSet) : Nat := if g.const then 1 else g.bands.length

/-- Coefficients. -/
structure Coeffs where
  loc : Nat
  sets : List GSet

structure Coeffs.Valid (c : Coeffs) : Prop where
  loc : c.loc < 16
  count : c.sets.length ≤ 24
  sets : ∀ g ∈ c.sets, g.Valid
  sequences : (c.sets.map GSet.sequences).sum ≤ 24

def Coeffs.bits (c : Coeffs) : List Bool :=
  natBits 4 c.loc ++ (false :: (natBits 6 c.sets.length ++ c.sets.flatMap GSet.bits))

end Verif.Spec.Drc
