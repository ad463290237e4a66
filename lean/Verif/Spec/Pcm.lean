import Mathlib.Data.Rat.Floor
import Mathlib.Algebra.Order.Field.Basic

/-! # What a PCM sample is -/

namespace Verif.Spec

/-- `k` is `x` rounded toward zero. -/
def IsTrunc (x : ℚ) (k : Int) : Prop :=
  (0 ≤ x → (k : ℚ) ≤ x ∧ x < k + 1) ∧ (x ≤ 0 → x ≤ k ∧ (k : ℚ) - 1 < x)

/-- The value nearest to `x` in the range of signed `n`-bit integers. -/
def clipTo (n : Nat) (x : ℚ) : ℚ := max (-(2 : ℚ) ^ (n - 1)) (min ((2 : ℚ) ^ (n - 1) - 1) x)

/-- Value of a list of bytes, low byte first. -/
def unsignedLE : List Nat → Nat
  | [] => 0
  | b :: bs => b + 256 * unsignedLE bs

/-- Two's complement value of a list of bytes, low byte first. -/
def signedLE (bs : List Nat) : Int :=
  if 2 * unsignedLE bs < 256 ^ bs.length then unsignedLE bs
  else (unsignedLE bs : Int) - 256 ^ bs.length

/-- `bs` are the `w` bytes of the PCM sample for the decoded value `x` (full scale `2^15`). -/
structure IsSample (w : Nat) (x : ℚ) (bs : List Nat) : Prop where
  len : bs.length = w
  byte : ∀ b ∈ bs, b < 256
  value : IsTrunc (clipTo (8 * w) (x * 2 ^ (8 * (w - 2)))) (signedLE bs)

end Verif.Spec
