import Verif.Model.Ops
import Verif.Spec.Clamp
import Mathlib.Tactic.Linarith
import Mathlib.Tactic.Ring
import Mathlib.Tactic.NormNum
import Mathlib.Algebra.Order.Ring.Int
import Mathlib.Algebra.Order.Ring.Abs

/-! # Properties of the fixed point operators (C35 - C38) -/

namespace Verif.Ops

open Verif.Spec

theorem sat32_eq (x : Int) : sat 32 x = max MIN_32 (min MAX_32 x) := by
  simp only [sat, clamp, MIN_32, MAX_32]; norm_num

theorem sat64_eq (x : Int) : sat 64 x = max MIN_64 (min MAX_64 x) := by
  simp only [sat, clamp, MIN_64, MAX_64]; norm_num

theorem isSigned32 (x : Int) : IsSigned 32 x ↔ MIN_32 ≤ x ∧ x ≤ MAX_32 := by
  simp only [IsSigned, MIN_32, MAX_32]; norm_num; omega

theorem isSigned64 (x : Int) : IsSigned 64 x ↔ MIN_64 ≤ x ∧ x ≤ MAX_64 := by
  simp only [IsSigned, MIN_64, MAX_64]; norm_num; omega

theorem i64_ok {x : Int} (h : MIN_64 ≤ x ∧ x ≤ MAX_64) : i64 x = .ok x := by
  simp only [i64]; rw [if_pos h]

theorem toI32_id {x : Int} (h : MIN_32 ≤ x ∧ x ≤ MAX_32) : toI32 x = x := by
  simp only [MIN_32, MAX_32] at h
  simp only [toI32]; omega

/-- **C35** Saturating addition. -/
theorem C35_add (a b : Int) (ha : IsSigned 32 a) (hb : IsSigned 32 b) :
    add32Sat a b = .ok (sat 32 (a + b)) := by
  rw [isSigned32] at ha hb
  rw [sat32_eq]
  have hM : MIN_32 = -2147483648 := rfl
  have hX : MAX_32 = 2147483647 := rfl
  have hM' : MIN_64 = -9223372036854775808 := rfl
  have hX' : MAX_64 = 9223372036854775807 := rfl
  simp only [add32Sat]
  rw [i64_ok (by omega)]
  simp only [Res.ok_bind, toI32]
  split
  · congr 1; omega
  · split <;> (congr 1; omega)

example : add32Sat 2147483647 5 = .ok 2147483647 ∧ add32Sat (-7) 3 = .ok (-4) := by decide

/-- **C35** Saturating addition of three values. -/
theorem C35_add3 (a b c : Int) (ha : IsSigned 32 a) (hb : IsSigned 32 b) (hc : IsSigned 32 c) :
    add32Sat3 a b c = .ok (sat 32 (a + b + c)) := by
  rw [isSigned32] at ha hb hc
  rw [sat32_eq]
  have hM : MIN_32 = -2147483648 := rfl
  have hX : MAX_32 = 2147483647 := rfl
  have hM' : MIN_64 = -9223372036854775808 := rfl
  have hX' : MAX_64 = 9223372036854775807 := rfl
  simp only [add32Sat3]
  rw [i64_ok (by omega)]
  simp only [Res.ok_bind]
  rw [i64_ok (by omega)]
  simp only [Res.ok_bind, toI32]
  congr 1
  split <;> split <;> omega

example : add32Sat3 2147483647 5 (-6) = .ok 2147483646 := by decide

/-- **C35** Saturating subtraction. -/
theorem C35_sub (a b : Int) (ha : IsSigned 32 a) (hb : IsSigned 32 b) :
    sub32Sat a b = .ok (sat 32 (a - b)) := by
  rw [isSigned32] at ha hb
  rw [sat32_eq]
  have hM : MIN_32 = -2147483648 := rfl
  have hX : MAX_32 = 2147483647 := rfl
  have hM' : MIN_64 = -9223372036854775808 := rfl
  have hX' : MAX_64 = 9223372036854775807 := rfl
  simp only [sub32Sat]
  rw [i64_ok (by omega)]
  simp only [Res.ok_bind, toI32]
  split
  · congr 1; omega
  · split <;> (congr 1; omega)

example : sub32Sat (-2147483648) 1 = .ok (-2147483648) := by decide

/-- **C35** Saturating negation. -/
theorem C35_negate (a : Int) (ha : IsSigned 32 a) : negate32Sat a = .ok (sat 32 (-a)) := by
  rw [isSigned32] at ha
  rw [sat32_eq]
  have hM : MIN_32 = -2147483648 := rfl
  have hX : MAX_32 = 2147483647 := rfl
  have hM' : MIN_64 = -9223372036854775808 := rfl
  have hX' : MAX_64 = 9223372036854775807 := rfl
  simp only [negate32Sat, i32]
  split
  · congr 1; omega
  · rw [if_pos (by omega)]; congr 1; omega

example : negate32Sat (-2147483648) = .ok 2147483647 := by decide

/-- **C35** Saturating absolute value. -/
theorem C35_abs (a : Int) (ha : IsSigned 32 a) : abs32Sat a = .ok (sat 32 |a|) := by
  rw [isSigned32] at ha
  rw [sat32_eq]
  have hM : MIN_32 = -2147483648 := rfl
  have hX : MAX_32 = 2147483647 := rfl
  have hM' : MIN_64 = -9223372036854775808 := rfl
  have hX' : MAX_64 = 9223372036854775807 := rfl
  simp only [abs32Sat, i32]
  split
  · rename_i h; subst h; rfl
  · split
    · rename_i h; rw [abs_of_neg h, if_pos (by omega)]; congr 1; omega
    · rename_i h; rw [abs_of_nonneg (by omega)]; congr 1; omega

example : abs32Sat (-2147483648) = .ok 2147483647 ∧ abs32Sat (-3) = .ok 3 := by decide

/-- **C35** Saturating shift left, for every legal shift count. -/
theorem C35_shl (a : Int) (b : Nat) (hb : b ≤ 31) :
    shl32Sat a b = .ok (sat 32 (a * 2 ^ b)) := by
  rw [sat32_eq]
  have hp : (0 : Int) < 2 ^ b := by positivity
  have hc : (0 : Int) ≤ b ∧ (b : Int) ≤ 31 := by omega
  simp only [shl32Sat, shr32, shl32, if_pos hc, Res.ok_bind, Int.toNat_natCast]
  have hM : MIN_32 = -2147483648 := rfl
  have hX : MAX_32 = 2147483647 := rfl
  have hM' : MIN_64 = -9223372036854775808 := rfl
  have hX' : MAX_64 = 9223372036854775807 := rfl
  have hd : (2 : Int) ^ b ∣ MIN_32 := by
    refine ⟨-2 ^ (31 - b), ?_⟩
    rw [mul_neg, ← pow_add, Nat.add_sub_cancel' hb]; rfl
  have hdz := Int.emod_eq_zero_of_dvd hd
  clear hd
  generalize (2 : Int) ^ b = p at *
  have e1 := Int.mul_ediv_add_emod MAX_32 p
  have e2 := Int.emod_nonneg MAX_32 (show p ≠ 0 by omega)
  have e3 := Int.emod_lt_of_pos MAX_32 hp
  have f1 := Int.mul_ediv_add_emod MIN_32 p
  have f2 := Int.emod_nonneg MIN_32 (show p ≠ 0 by omega)
  have f3 := Int.emod_lt_of_pos MIN_32 hp
  generalize MAX_32 / p = q1 at *
  generalize MIN_32 / p = q2 at *
  split
  · rename_i h
    have : a * p ≥ (q1 + 1) * p := by nlinarith
    have : (q1 + 1) * p = p * q1 + p := by ring
    congr 1; omega
  · rename_i h
    have h1 : a * p ≤ q1 * p := by nlinarith
    have h1' : q1 * p = p * q1 := by ring
    split
    · rename_i h2
      have : a * p ≤ (q2 - 1) * p := by nlinarith
      have : (q2 - 1) * p = p * q2 - p := by ring
      congr 1; omega
    · rename_i h2
      have h3 : a * p ≥ q2 * p := by nlinarith
      have h3' : q2 * p = p * q2 := by ring
      have hlo : -2147483648 ≤ a * p := by
        omega
      rw [toI32_id (by omega)]
      congr 1; omega

example : shl32Sat 3 30 = .ok 2147483647 ∧ shl32Sat (-3) 4 = .ok (-48) := by decide

/-- **C35** Saturating multiply with right shift (the shift floors), for every legal count. -/
theorem C35_mul (a b : Int) (sh : Nat) (ha : IsSigned 32 a) (hb : IsSigned 32 b) (hs : sh ≤ 63) :
    mul32ShSat a b sh = .ok (sat 32 (a * b / 2 ^ sh)) := by
  rw [isSigned32] at ha hb
  rw [sat32_eq]
  have hM : MIN_32 = -2147483648 := rfl
  have hX : MAX_32 = 2147483647 := rfl
  have hM' : MIN_64 = -9223372036854775808 := rfl
  have hX' : MAX_64 = 9223372036854775807 := rfl
  have h1 : a * b ≤ 4611686018427387904 := by
    rw [hM, hX] at ha hb
    have : |a * b| ≤ 2147483648 * 2147483648 := by
      rw [abs_mul]
      exact mul_le_mul (abs_le.2 ⟨by omega, by omega⟩) (abs_le.2 ⟨by omega, by omega⟩)
        (abs_nonneg b) (by norm_num)
    have := (abs_le.1 this).2
    omega
  have h2 : -4611686018427387904 ≤ a * b := by
    rw [hM, hX] at ha hb
    have : |a * b| ≤ 2147483648 * 2147483648 := by
      rw [abs_mul]
      exact mul_le_mul (abs_le.2 ⟨by omega, by omega⟩) (abs_le.2 ⟨by omega, by omega⟩)
        (abs_nonneg b) (by norm_num)
    have := (abs_le.1 this).1
    omega
  have hc : (0 : Int) ≤ sh ∧ (sh : Int) ≤ 63 := by omega
  simp only [mul32ShSat]
  rw [i64_ok (by omega)]
  simp only [Res.ok_bind, shr64, if_pos hc, Int.toNat_natCast]
  generalize a * b / 2 ^ sh = s
  split
  · congr 1; omega
  · split
    · congr 1; omega
    · rw [toI32_id (by omega)]; congr 1; omega

example : mul32ShSat (-2147483648) (-2147483648) 31 = .ok 2147483647 ∧
    mul32ShSat (-3) 5 1 = .ok (-8) := by decide

theorem normLoop_spec (f : Nat) : ∀ (x k : Int), 1 ≤ x → x < 2 ^ 31 → 2 ^ 31 ≤ x * 2 ^ f →
    ∃ n : Nat, normLoop f x k = .ok (k + n) ∧ 2 ^ 30 ≤ x * 2 ^ n ∧ x * 2 ^ n < 2 ^ 31 ∧
      n < f := by
  induction f with
  | zero => intro x k h1 h2 h3; norm_num at h3; omega
  | succ f ih =>
    intro x k h1 h2 h3
    simp only [normLoop]
    split
    · rename_i h
      have e : toI32 (x * 2) = x * 2 := toI32_id (by
        have hM : MIN_32 = -2147483648 := rfl
        have hX : MAX_32 = 2147483647 := rfl
        omega)
      rw [e]
      obtain ⟨n, hn, h4, h5, h6⟩ := ih (x * 2) (k + 1) (by omega) (by norm_num; omega) (by
        rw [pow_succ 2 f] at h3; linarith)
      refine ⟨n + 1, ?_, ?_, ?_, by omega⟩
      · rw [hn]; push_cast; congr 1; ring
      · rw [pow_succ 2 n]; linarith
      · rw [pow_succ 2 n]; linarith
    · rename_i h
      exact ⟨0, by simp, by norm_num; omega, by simpa using h2, by omega⟩

/-- **C36** The norm is the largest legal shift count that keeps the value in range. -/
theorem C36_norm (a : Int) (ha : IsSigned 32 a) :
    ∃ n : Nat, norm32 a = .ok n ∧ n ≤ 31 ∧ IsSigned 32 (a * 2 ^ n) ∧
      ∀ m : Nat, m ≤ 31 → IsSigned 32 (a * 2 ^ m) → m ≤ n := by
  simp only [norm32]
  split
  · rename_i h; subst h
    exact ⟨31, rfl, le_refl _, by simp [IsSigned], fun m hm _ => hm⟩
  split
  · rename_i h; subst h
    exact ⟨31, rfl, le_refl _, by norm_num [IsSigned], fun m hm _ => hm⟩
  rename_i h0 h1
  have ha' := ha
  simp only [IsSigned] at ha
  norm_num at ha
  by_cases hneg : a < 0
  · rw [if_pos hneg]
    obtain ⟨n, hn, h2, h3, h4⟩ := normLoop_spec 32 (-a - 1) 0 (by omega) (by norm_num; omega)
      (by norm_num; omega)
    refine ⟨n, by rw [hn]; simp, by omega, ?_, ?_⟩
    · have hp : (0 : Int) < 2 ^ n := by positivity
      -- x * 2^n < 2^(31-n) * 2^n
      have e : (2 : Int) ^ 31 = 2 ^ (31 - n) * 2 ^ n := by
        rw [← pow_add]; congr 1; omega
      have h5 : -a - 1 < 2 ^ (31 - n) := by
        rw [e] at h3; exact lt_of_mul_lt_mul_right h3 hp.le
      have h6 : -a * 2 ^ n ≤ 2 ^ 31 := by
        rw [e]; exact mul_le_mul_of_nonneg_right (by omega) hp.le
      have h7 : a * 2 ^ n ≤ 0 := by nlinarith
      simp only [IsSigned]; norm_num at h6 ⊢
      omega
    · intro m hm hs
      by_contra hlt
      have hle : n + 1 ≤ m := by omega
      have hp : (2 : Int) ^ (n + 1) ≤ 2 ^ m := pow_le_pow_right₀ (by norm_num) hle
      have h5 : -a * 2 ^ (n + 1) ≤ -a * 2 ^ m := mul_le_mul_of_nonneg_left hp (by omega)
      have h6 : (-a - 1) * 2 ^ (n + 1) < -a * 2 ^ (n + 1) :=
        mul_lt_mul_of_pos_right (by omega) (by positivity)
      have h7 : (2 : Int) ^ 31 ≤ (-a - 1) * 2 ^ (n + 1) := by
        rw [pow_succ 2 n]; linarith
      simp only [IsSigned] at hs; norm_num at hs h5 h6 h7
      omega
  · rw [if_neg hneg]
    obtain ⟨n, hn, h2, h3, h4⟩ := normLoop_spec 32 a 0 (by omega) (by norm_num; omega)
      (by norm_num; omega)
    refine ⟨n, by rw [hn]; simp, by omega, ?_, ?_⟩
    · simp only [IsSigned]; norm_num at h2 h3 ⊢; omega
    · intro m hm hs
      by_contra hlt
      have hle : n + 1 ≤ m := by omega
      have hp : (2 : Int) ^ (n + 1) ≤ 2 ^ m := pow_le_pow_right₀ (by norm_num) hle
      have h5 : a * 2 ^ (n + 1) ≤ a * 2 ^ m := mul_le_mul_of_nonneg_left hp (by omega)
      have h7 : (2 : Int) ^ 31 ≤ a * 2 ^ (n + 1) := by
        rw [pow_succ 2 n]; linarith
      simp only [IsSigned] at hs; norm_num at hs h5 h7
      omega

example : norm32 5 = .ok 28 ∧ norm32 (-5) = .ok 28 ∧ norm32 (-4) = .ok 29 ∧
    norm32 (-2147483648) = .ok 0 := by decide

theorem bitSet_succ (k : Nat) : bitSet (k + 1) = 4 ^ k := rfl

theorem sqrtSkip_spec (N : Int) (h0 : 0 ≤ N) (k : Nat) : N < 4 ^ k →
    ∃ j, sqrtSkip N k = .ok j ∧ j ≤ k ∧ N < 4 ^ j := by
  induction k with
  | zero =>
    intro h
    norm_num at h
    refine ⟨0, ?_, le_refl _, by simpa using h⟩
    rw [sqrtSkip, if_neg (by simpa [bitSet] using h0)]
  | succ k ih =>
    intro h
    rw [sqrtSkip]
    by_cases hc : bitSet (k + 1) > N
    · rw [if_pos hc]
      obtain ⟨j, h1, h2, h3⟩ := ih (by rw [bitSet_succ] at hc; exact hc)
      exact ⟨j, h1, by omega, h3⟩
    · rw [if_neg hc]
      exact ⟨k + 1, rfl, le_refl _, h⟩

theorem sqrtLoop_spec (N : Int) (hN : N < 2 ^ 62) (j : Nat) : ∀ (R : Int), 0 ≤ R → j ≤ 31 →
    R * R ≤ N → N < (R + 2 ^ j) * (R + 2 ^ j) → R * 2 ^ j + 2 ^ j * 2 ^ j ≤ 2 ^ 31 * 2 ^ j →
    ∃ r, sqrtLoop j (N - R * R) (R * 2 ^ j) = .ok r ∧ 0 ≤ r ∧ r * r ≤ N ∧
      N < (r + 1) * (r + 1) := by
  induction j with
  | zero =>
    intro R h0 _ h1 h2 _
    exact ⟨R, by simp [sqrtLoop], h0, h1, by simpa using h2⟩
  | succ j ih =>
    intro R h0 hj h1 h2 h3
    have hM' : MIN_64 = -9223372036854775808 := rfl
    have hX' : MAX_64 = 9223372036854775807 := rfl
    have e4 : (4 : Int) ^ j = 2 ^ j * 2 ^ j := by
      rw [← mul_pow]; norm_num
    have hp : (0 : Int) < 2 ^ j := by positivity
    have hpb : (2 : Int) ^ j ≤ 2 ^ 30 := pow_le_pow_right₀ (by norm_num) (by omega)
    have hR2 : 0 ≤ R * R := mul_self_nonneg R
    rw [sqrtLoop, bitSet_succ]
    rw [pow_succ] at h2 h3 ⊢
    rw [e4]
    clear e4
    generalize (2 : Int) ^ j = p at *
    have hRp : 0 ≤ R * p := by positivity
    have hpp : p * p ≤ 2 ^ 30 * 2 ^ 30 := by nlinarith
    have hpp0 : 0 < p * p := by positivity
    have e1 : R * (p * 2) = 2 * (R * p) := by ring
    have e2 : p * 2 * (p * 2) = 4 * (p * p) := by ring
    rw [e1, e2] at h3
    rw [e1]
    norm_num at hN hpp hpb h3
    have hb : 2 * (R * p) + 4 * (p * p) ≤ 4611686018427387904 := by omega
    rw [i64_ok (by omega)]
    simp only [Res.ok_bind]
    by_cases hc : N - R * R ≥ 2 * (R * p) + p * p
    · rw [if_pos hc, i64_ok (by omega)]
      simp only [Res.ok_bind]
      have et : toI64 (p * p * 2) = p * p * 2 := by simp only [toI64]; omega
      rw [et, i64_ok (by omega)]
      simp only [Res.ok_bind]
      have en : N - R * R - (2 * (R * p) + p * p) = N - (R + p) * (R + p) := by ring
      have ev : (2 * (R * p) + p * p * 2) / 2 = (R + p) * p := by
        have : 2 * (R * p) + p * p * 2 = ((R + p) * p) * 2 := by ring
        rw [this]; omega
      rw [en, ev]
      refine ih (R + p) (by omega) (by omega) ?_ ?_ ?_
      · have : (R + p) * (R + p) = R * R + (2 * (R * p) + p * p) := by ring
        omega
      · have : R + p + p = R + p * 2 := by ring
        rw [this]; exact h2
      · have : (R + p) * p = R * p + p * p := by ring
        rw [this]; norm_num; omega
    · rw [if_neg hc]
      have ev : 2 * (R * p) / 2 = R * p := by omega
      rw [ev]
      refine ih R h0 (by omega) h1 ?_ ?_
      · have : (R + p) * (R + p) = R * R + (2 * (R * p) + p * p) := by ring
        omega
      · norm_num; omega

/-- **C37** For `0 ≤ x < 2^62` the result is the integer nearest to the real square root: `r` with
`(r - 1/2)² ≤ x ≤ (r + 1/2)²`, written without fractions; no operation overflows. -/
theorem C37_sqrt (x : Int) (h0 : 0 ≤ x) (hx : x < 2 ^ 62) :
    ∃ r, roundedSqrt64 x = .ok r ∧ 0 ≤ r ∧ (0 < r → (2 * r - 1) ^ 2 ≤ 4 * x) ∧
      4 * x ≤ (2 * r + 1) ^ 2 := by
  have hM' : MIN_64 = -9223372036854775808 := rfl
  have hX' : MAX_64 = 9223372036854775807 := rfl
  have hk : ∃ j, sqrtSkip x 32 = .ok j ∧ j ≤ 31 ∧ x < 4 ^ j := by
    rw [sqrtSkip, if_pos (by rw [bitSet_succ]; norm_num at hx ⊢; omega)]
    exact sqrtSkip_spec x h0 31 (by norm_num at hx ⊢; omega)
  obtain ⟨j, hj, hj31, hxj⟩ := hk
  have e4 : (4 : Int) ^ j = 2 ^ j * 2 ^ j := by rw [← mul_pow]; norm_num
  obtain ⟨r, hr, hr0, hr1, hr2⟩ := sqrtLoop_spec x hx j 0 (le_refl _) hj31 (by simpa using h0)
    (by rw [e4] at hxj; simpa using hxj) (by
      have : (2 : Int) ^ j ≤ 2 ^ 31 := pow_le_pow_right₀ (by norm_num) hj31
      have hp : (0 : Int) < 2 ^ j := by positivity
      rw [zero_mul, zero_add]
      exact mul_le_mul_of_nonneg_right this hp.le)
  rw [mul_zero, sub_zero, zero_mul] at hr
  have hrb : r < 2 ^ 31 := by
    by_contra hcon
    have : (2 : Int) ^ 31 ≤ r := by omega
    have : (2 : Int) ^ 31 * 2 ^ 31 ≤ r * r := mul_le_mul this this (by norm_num) hr0
    norm_num at this hx; omega
  have hsq : r * r ≤ 4611686018427387904 := by norm_num at hx; omega
  have hsq1 : (r + 1) * (r + 1) = r * r + 2 * r + 1 := by ring
  norm_num at hrb hx
  have hrr : (r + 1) * (r + 1) ≤ 2147483648 * 2147483648 := by nlinarith
  simp only [roundedSqrt64, hj, Res.ok_bind, hr]
  rw [i64_ok (by omega)]
  simp only [Res.ok_bind]
  rw [i64_ok (by omega)]
  simp only [Res.ok_bind]
  rw [i64_ok (by omega)]
  simp only [Res.ok_bind]
  rw [i64_ok (by omega)]
  simp only [Res.ok_bind]
  rw [i64_ok (by omega)]
  simp only [Res.ok_bind]
  have q1 : (2 * r - 1) ^ 2 = 4 * (r * r) - 4 * r + 1 := by ring
  have q2 : (2 * r + 1) ^ 2 = 4 * (r * r) + 4 * r + 1 := by ring
  have q3 : (2 * (r + 1) - 1) ^ 2 = 4 * (r * r) + 4 * r + 1 := by ring
  have q4 : (2 * (r + 1) + 1) ^ 2 = 4 * (r * r) + 12 * r + 9 := by ring
  split
  · rename_i hlt
    refine ⟨r + 1, rfl, by omega, ?_, ?_⟩
    · intro _; rw [q3]; omega
    · rw [q4]; omega
  · rename_i hlt
    refine ⟨r, rfl, hr0, ?_, ?_⟩
    · intro _; rw [q1]; omega
    · rw [q2]; omega

example : roundedSqrt64 42 = .ok 6 ∧ roundedSqrt64 43 = .ok 7 ∧ roundedSqrt64 0 = .ok 0 := by
  decide

/-- Outside that range the routine fails: at `2^62` the first step computes `bit_set << 1 = 2^63`,
which wraps to a negative number, and for a negative argument the first loop never ends. -/
theorem C37_range_needed : roundedSqrt64 (2 ^ 62) ≠ .ok (2 ^ 31) ∧ roundedSqrt64 (-1) = .ub := by
  decide

/-- **C38** Saturating 64 bit addition. -/
theorem C38_add (a b : Int) (ha : IsSigned 64 a) (hb : IsSigned 64 b) :
    add64Sat a b = .ok (sat 64 (a + b)) := by
  rw [isSigned64] at ha hb
  rw [sat64_eq]
  have hM' : MIN_64 = -9223372036854775808 := rfl
  have hX' : MAX_64 = 9223372036854775807 := rfl
  simp only [add64Sat]
  by_cases h : a < 0
  · simp only [h, if_true, decide_true]
    rw [i64_ok (by omega)]
    simp only [Res.ok_bind]
    by_cases h2 : b > MIN_64 - a
    · rw [if_pos (by simp [h2]), i64_ok (by omega)]; congr 1; omega
    · rw [if_neg (by simp [h2])]; congr 1; omega
  · simp only [h, if_false, decide_false]
    rw [i64_ok (by omega)]
    simp only [Res.ok_bind]
    by_cases h2 : b > MAX_64 - a
    · rw [if_neg (by simp [h2])]; congr 1; omega
    · rw [if_pos (by simp [h2]), i64_ok (by omega)]; congr 1; omega

example : add64Sat 9223372036854775807 5 = .ok 9223372036854775807 := by decide

theorem gt_tdiv {x y M : Int} (hM : 0 ≤ M) (hy : 0 < y) : x > M.tdiv y ↔ M < x * y := by
  rw [Int.tdiv_eq_ediv_of_nonneg hM]
  exact Int.ediv_lt_iff_lt_mul hy

/-- **C38** Saturating 64 bit multiplication. -/
theorem C38_mult (a b : Int) (_ha : IsSigned 64 a) (_hb : IsSigned 64 b) :
    mult64Sat a b = .ok (sat 64 (a * b)) := by

  rw [sat64_eq]
  have hM' : MIN_64 = -9223372036854775808 := rfl
  have hX' : MAX_64 = 9223372036854775807 := rfl
  have hMn : MIN_64 = -9223372036854775808 := rfl
  have hX0 : 0 ≤ MAX_64 := by omega
  -- the four quotient tests, in terms of the exact product
  have t1 (hb0 : 0 < b) : a > MAX_64.tdiv b ↔ MAX_64 < a * b := gt_tdiv hX0 hb0
  have t2 (hb0 : 0 < b) : a < MIN_64.tdiv b ↔ a * b < MIN_64 := by
    rw [hMn, Int.neg_tdiv]
    have := gt_tdiv (x := -a) (M := 9223372036854775808) (by norm_num) hb0
    rw [neg_mul] at this; omega
  have t3 (ha0 : 0 < a) : b < MIN_64.tdiv a ↔ a * b < MIN_64 := by
    rw [hMn, Int.neg_tdiv]
    have := gt_tdiv (x := -b) (M := 9223372036854775808) (by norm_num) ha0
    rw [neg_mul, mul_comm b a] at this; omega
  have t4 (hb0 : b < 0) : a < MAX_64.tdiv b ↔ MAX_64 < a * b := by
    have e : MAX_64.tdiv b = -(MAX_64.tdiv (-b)) := by rw [Int.tdiv_neg, neg_neg]
    rw [e]
    have := gt_tdiv (x := -a) (y := -b) hX0 (by omega)
    rw [neg_mul_neg] at this; omega
  have hpos (h1 : a > 0) (h2 : b > 0) : 0 < a * b := mul_pos h1 h2
  have hneg1 (h1 : a < 0) (h2 : b > 0) : a * b < 0 := mul_neg_of_neg_of_pos h1 h2
  have hneg2 (h1 : a > 0) (h2 : b < 0) : a * b < 0 := mul_neg_of_pos_of_neg h1 h2
  have hpos2 (h1 : a < 0) (h2 : b < 0) : 0 < a * b := mul_pos_of_neg_of_neg h1 h2
  have hz (h : a = 0 ∨ b = 0) : a * b = 0 := by rcases h with h | h <;> simp [h]
  simp only [mult64Sat]
  split
  · rename_i h; have := (t1 h.2.1).1 h.2.2; congr 1; omega
  split
  · rename_i h; have := (t2 h.2.1).1 h.2.2; congr 1; omega
  split
  · rename_i h; have := (t3 h.1).1 h.2.2; congr 1; omega
  split
  · rename_i h; have := (t4 h.2.1).1 h.2.2; congr 1; omega
  rename_i c1 c2 c3 c4
  have hr : MIN_64 ≤ a * b ∧ a * b ≤ MAX_64 := by
    rcases lt_trichotomy a 0 with ha0 | ha0 | ha0
    · rcases lt_trichotomy b 0 with hb0 | hb0 | hb0
      · have := hpos2 ha0 hb0
        have : ¬ MAX_64 < a * b := fun h => c4 ⟨ha0, hb0, (t4 hb0).2 h⟩
        omega
      · have := hz (.inr hb0); omega
      · have := hneg1 ha0 hb0
        have : ¬ a * b < MIN_64 := fun h => c2 ⟨ha0, hb0, (t2 hb0).2 h⟩
        omega
    · have := hz (.inl ha0); omega
    · rcases lt_trichotomy b 0 with hb0 | hb0 | hb0
      · have := hneg2 ha0 hb0
        have : ¬ a * b < MIN_64 := fun h => c3 ⟨ha0, hb0, (t3 ha0).2 h⟩
        omega
      · have := hz (.inr hb0); omega
      · have := hpos ha0 hb0
        have : ¬ MAX_64 < a * b := fun h => c1 ⟨ha0, hb0, (t1 hb0).2 h⟩
        omega
  rw [i64_ok hr]; congr 1; omega

example : mult64Sat (-9223372036854775808) (-1) = .ok 9223372036854775807 ∧
    mult64Sat 3037000500 (-3037000500) = .ok (-9223372036854775808) := by decide

/-- **C38** Saturation from 64 to 32 bits. -/
theorem C38_sat32 (a : Int) : sat64To32 a = sat 32 a := by
  rw [sat32_eq]
  have hM : MIN_32 = -2147483648 := rfl
  have hX : MAX_32 = 2147483647 := rfl
  simp only [sat64To32]
  split
  · omega
  · split
    · omega
    · rw [toI32_id (by omega)]; omega

/-- **C38** (subtraction, partial) The saturating subtraction is exact whenever the exact difference
is representable; missing is the case in which saturation is needed, see `C38_sub_refuted`. -/
theorem C38_sub_partial (a b : Int) (hd : IsSigned 64 (a - b)) : sub64Sat a b = .ok (sat 64 (a - b)) := by
  rw [isSigned64] at hd
  rw [sat64_eq]
  simp only [sub64Sat]
  rw [i64_ok hd]
  simp only [Res.ok_bind]
  have e : max MIN_64 (min MAX_64 (a - b)) = a - b := by omega
  rw [e]
  by_cases h1 : a < 0 <;> by_cases h2 : b < 0 <;> by_cases h3 : a - b < 0 <;>
    simp only [h1, h2, h3, decide_true, decide_false, ne_eq, not_true_eq_false, not_false_eq_true,
      if_true, if_false, reduceCtorEq] <;> omega

example : sub64Sat (-5) 7 = .ok (-12) := by decide

/-- **C38** is false for the subtraction: whenever saturation would be needed the routine has
already overflowed. -/
theorem C38_sub_refuted :
    ∃ a b : Int, IsSigned 64 a ∧ IsSigned 64 b ∧ sub64Sat a b = .ub := by
  refine ⟨9223372036854775807, -1, ?_, ?_, by decide⟩ <;> norm_num [IsSigned]

/-- ... in every such case. -/
theorem C38_sub_always (a b : Int) (hd : ¬ IsSigned 64 (a - b)) : sub64Sat a b = .ub := by
  rw [isSigned64] at hd
  simp only [sub64Sat, i64]; rw [if_neg hd]; rfl

end Verif.Ops
