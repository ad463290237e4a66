import Verif.Spec.Bits

/-! Helper lemmas about lists of bits. -/

namespace Verif

@[simp] theorem byteBits_length (b : UInt8) : (byteBits b).length = 8 := rfl

@[simp] theorem bitsOf_nil : bitsOf [] = [] := rfl
@[simp] theorem bitsOf_cons (b : UInt8) (bs : List UInt8) :
    bitsOf (b :: bs) = byteBits b ++ bitsOf bs := rfl

@[simp] theorem bitsOf_length (l : List UInt8) : (bitsOf l).length = 8 * l.length := by
  induction l with
  | nil => rfl
  | cons b bs ih => simp [ih]; omega

theorem bitsOf_append (a b : List UInt8) : bitsOf (a ++ b) = bitsOf a ++ bitsOf b := by
  induction a with
  | nil => rfl
  | cons x xs ih => simp [ih]

theorem byteBits_getElem? (b : UInt8) (i : Nat) (h : i < 8) :
    (byteBits b)[i]? = some (b.toNat.testBit (7 - i)) := by
  match i, h with
  | 0, _ => rfl
  | 1, _ => rfl
  | 2, _ => rfl
  | 3, _ => rfl
  | 4, _ => rfl
  | 5, _ => rfl
  | 6, _ => rfl
  | 7, _ => rfl

theorem bitsOf_getElem? (l : List UInt8) (i : Nat) :
    (bitsOf l)[i]? = (l[i / 8]?).map (fun b => b.toNat.testBit (7 - i % 8)) := by
  induction l generalizing i with
  | nil => simp
  | cons b bs ih =>
    rw [bitsOf_cons]
    by_cases h : i < 8
    · rw [List.getElem?_append_left (by simpa using h), byteBits_getElem? b i h]
      have : i / 8 = 0 := by omega
      have h2 : i % 8 = i := by omega
      simp [this, h2]
    · rw [List.getElem?_append_right (by simp; omega), byteBits_length, ih]
      have : i / 8 = (i - 8) / 8 + 1 := by omega
      have h2 : i % 8 = (i - 8) % 8 := by omega
      simp [this, h2]

theorem bitsVal_foldl (l : List Bool) (a : Nat) :
    l.foldl (fun acc b => 2 * acc + b.toNat) a = a * 2 ^ l.length + bitsVal l := by
  unfold bitsVal
  induction l generalizing a with
  | nil => simp
  | cons b bs ih =>
    simp only [List.foldl_cons, List.length_cons]
    rw [ih, ih (2 * 0 + b.toNat)]
    rw [Nat.pow_succ]
    simp only [Nat.mul_zero, Nat.zero_add, Nat.add_mul]
    have : 2 * a * 2 ^ bs.length = a * (2 ^ bs.length * 2) := by
      rw [Nat.mul_comm 2 a, Nat.mul_assoc, Nat.mul_comm 2]
    omega

@[simp] theorem bitsVal_nil : bitsVal [] = 0 := rfl

theorem bitsVal_cons (b : Bool) (l : List Bool) :
    bitsVal (b :: l) = b.toNat * 2 ^ l.length + bitsVal l := by
  have := bitsVal_foldl l (2 * 0 + b.toNat)
  simpa [bitsVal] using this

theorem bitsVal_append (a b : List Bool) :
    bitsVal (a ++ b) = bitsVal a * 2 ^ b.length + bitsVal b := by
  unfold bitsVal
  rw [List.foldl_append]
  exact bitsVal_foldl b _

theorem bitsVal_lt (l : List Bool) : bitsVal l < 2 ^ l.length := by
  induction l with
  | nil => simp
  | cons b bs ih =>
    rw [bitsVal_cons, List.length_cons, Nat.pow_succ]
    cases b <;> simp <;> omega

theorem bitsVal_testBit (l : List Bool) (j : Nat) :
    (bitsVal l).testBit j = if j < l.length then l.getD (l.length - 1 - j) false else false := by
  induction l generalizing j with
  | nil => simp
  | cons b bs ih =>
    rw [bitsVal_cons]
    have hlt := bitsVal_lt bs
    rw [Nat.mul_comm, Nat.testBit_two_pow_mul_add _ hlt]
    by_cases h : j < bs.length
    · have h1 : j < (b :: bs).length := by simp; omega
      have h2 : (b :: bs).length - 1 - j = (bs.length - 1 - j) + 1 := by simp; omega
      simp only [h, if_true, h1, ih, h2, List.getD_cons_succ]
    · by_cases h' : j = bs.length
      · subst h'
        cases b <;> simp
      · have h1 : ¬ j < (b :: bs).length := by simp; omega
        simp only [h, if_false, h1]
        have : ∃ k, j - bs.length = k + 1 := ⟨j - bs.length - 1, by omega⟩
        obtain ⟨k, hk⟩ := this
        rw [hk]
        cases b <;> simp [Nat.testBit_succ]

@[simp] theorem natBits_length (n v : Nat) : (natBits n v).length = n := by
  induction n with
  | zero => rfl
  | succ n ih => simp [natBits, ih]

theorem bitsVal_natBits (n v : Nat) : bitsVal (natBits n v) = v % 2 ^ n := by
  induction n with
  | zero => simp [natBits, Nat.mod_one]
  | succ n ih =>
    simp only [natBits, bitsVal_cons, natBits_length, ih]
    rw [Nat.mod_pow_succ, Nat.toNat_testBit, Nat.mul_comm]; omega

theorem natBits_mod (n m v : Nat) (h : n ≤ m) : natBits n (v % 2 ^ m) = natBits n v := by
  induction n with
  | zero => rfl
  | succ n ih =>
    simp only [natBits]
    rw [ih (by omega), Nat.testBit_mod_two_pow]
    simp; omega

end Verif
