import Verif.Proofs.Fields

/-! Two fields that are read with one call. -/

namespace Verif

theorem natBits_add (n m v : Nat) : natBits (n + m) v = natBits n (v / 2 ^ m) ++ natBits m v := by
  induction n with
  | zero => simp [natBits]
  | succ n ih =>
    rw [show n + 1 + m = (n + m) + 1 by omega]
    simp only [natBits, List.cons_append, ih, Nat.testBit_div_two_pow]

theorem natBits_pair (n m a b : Nat) (hb : b < 2 ^ m) :
    natBits n a ++ natBits m b = natBits (n + m) (a * 2 ^ m + b) := by
  rw [natBits_add, Nat.add_comm (a * 2 ^ m) b, Nat.add_mul_div_right _ _ (Nat.two_pow_pos m),
    Nat.div_eq_of_lt hb, Nat.zero_add, ← natBits_mod m m (b + a * 2 ^ m) (Nat.le_refl _), Nat.add_mul_mod_self_right,
    natBits_mod m m b (Nat.le_refl _)]

theorem natBits_one (b : Bool) : natBits 1 b.toNat = [b] := by cases b <;> rfl

namespace Prog

variable {β : Type}

/-- Two fields read with one call of the bit reader. -/
theorem run_pair_bind (n m a b : Nat) (f : Nat → Prog β) (l : List Bool) (h : n + m ≤ 24) (ha : a < 2 ^ n)
    (hb : b < 2 ^ m) : run (bits (n + m) >>= f) (natBits n a ++ (natBits m b ++ l)) = run (f (a * 2 ^ m + b)) l := by
  rw [← List.append_assoc, natBits_pair _ _ _ _ hb]
  refine run_bits_bind _ _ _ _ h ?_
  rw [Nat.pow_add]
  calc a * 2 ^ m + b < a * 2 ^ m + 2 ^ m := by omega
    _ = (a + 1) * 2 ^ m := by rw [Nat.succ_mul]
    _ ≤ 2 ^ n * 2 ^ m := Nat.mul_le_mul_right _ ha

theorem run_one_bind (b : Bool) (f : Nat → Prog β) (l : List Bool) : run (bits 1 >>= f) (b :: l) = run (f b.toNat) l := by
  have := run_bits_bind 1 b.toNat f l (by omega) (by cases b <;> decide)
  rwa [natBits_one] at this

end Prog
end Verif
