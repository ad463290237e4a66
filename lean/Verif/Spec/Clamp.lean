/-! # Clamping to a range -/

namespace Verif.Spec

/-- The value of a closed interval nearest to `x`. -/
def clamp (lo hi x : Int) : Int := max lo (min hi x)

/-- `x` is a value of an `n` bit two's complement type. -/
def IsSigned (n : Nat) (x : Int) : Prop := -2 ^ (n - 1) ≤ x ∧ x < 2 ^ (n - 1)

/-- Clamp to an `n` bit two's complement type. -/
def sat (n : Nat) (x : Int) : Int := clamp (-2 ^ (n - 1)) (2 ^ (n - 1) - 1) x

end Verif.Spec
