import Verif.Props.Arith

/-! # Properties of spectral decoding (C33, C57, C58) -/

namespace Verif.Arith

open Prog ArithCode

theorem run_lift_ok {α : Type} (a : α) (l : List Bool) : run (lift (.ok a)) l = .ok (a, l) := rfl

/-- Bound on the number of renormalisation steps still possible while only escapes are decoded. -/
def Rem (ρ : Nat) (s : St) (l : List Bool) : Prop :=
  l.length + 16 ≤ ρ ∨ (l = [] ∧ (s.value = s.low ∨ 65535 < (s.value - s.low) * 2 ^ (ρ + 1)))

theorem cumOf_zero {s : St} (h : Good s) (he : s.value = s.low) : cumOf s ≤ 0 := by
  have hr := h.range
  unfold cumOf
  rw [he]
  have : (s.low - s.low + 1) * 16384 - 1 = 16383 := by omega
  rw [this, Int.ediv_eq_zero_of_lt (by omega) (by omega)]

/-- One decoding step with a table for most significant bits. -/
theorem escape_step {tbl : List Nat} (h17 : tbl.length = 17) (hp : tbl.getD 15 0 ≤ 15310)
    (h0 : tbl.getD 16 0 = 0) {s s' : St} (hs : Good s) (hs' : Good s') {l : List Bool} {k : Nat}
    (hk : k ≤ 16) (hne : ¬ (l = [] ∧ cumOf s ≤ 0))
    (hsh : Shifted ⟨lowOf tbl s 16, highOf tbl s 16, s.value⟩ l k s' (l.drop k)) {ρ : Nat}
    (hρ : Rem ρ s l) :
    k ≤ ρ ∧ Rem (ρ - k) s' (l.drop k) ∧
      (s'.high - s'.low + 1) * 16384 ≤ (s.high - s.low + 1) * 15310 * 2 ^ k := by
  have hr := hs.range
  have hin := hs.1
  have hin' := hs'.1
  obtain ⟨i1, i2, i3, i4⟩ := hin
  obtain ⟨j1, j2, j3, j4⟩ := hin'
  have hlow : lowOf tbl s 16 = s.low := by unfold lowOf; rw [h0]; simp
  have hsize := hsh.size
  have hdist := hsh.dist
  simp only at hsize hdist
  rw [hlow] at hsize hdist
  have hpow : (0 : Int) < 2 ^ k := by positivity
  refine ⟨?_, ?_, ?_⟩
  · rcases hρ with h | ⟨h1, h2⟩
    · omega
    · rcases h2 with h2 | h2
      · exact absurd ⟨h1, cumOf_zero hs h2⟩ hne
      · by_contra hlt
        rw [h1, pv_nil, add_zero] at hdist
        have : (2 : Int) ^ (ρ + 1) ≤ 2 ^ k := pow_le_pow_right₀ (by norm_num) (by omega)
        have h3 : (s.value - s.low) * 2 ^ (ρ + 1) ≤ (s.value - s.low) * 2 ^ k :=
          mul_le_mul_of_nonneg_left this (by omega)
        have : (s.value - s.low) * 2 ^ k = 2 ^ k * (s.value - s.low) := by ring
        omega
  · rcases hρ with h | ⟨h1, h2⟩
    · rcases Nat.lt_or_ge l.length k with hlk | hlk
      · -- the input ended on the way
        right
        refine ⟨List.drop_of_length_le (by omega), ?_⟩
        rw [pv_exhausted k l (by omega)] at hdist
        have hd : s'.value - s'.low = 2 ^ (k - l.length) *
            (2 ^ l.length * (s.value - s.low) + bitsVal l) := by
          rw [hdist]
          have : (2 : Int) ^ k = 2 ^ (k - l.length) * 2 ^ l.length := by
            rw [← pow_add]; congr 1; omega
          rw [this]; ring
        generalize 2 ^ l.length * (s.value - s.low) + (bitsVal l : Int) = y at hd
        have hp2 : (0 : Int) < 2 ^ (k - l.length) := by positivity
        rcases lt_trichotomy y 0 with hy | hy | hy
        · exfalso
          have : 2 ^ (k - l.length) * y < 0 := mul_neg_of_pos_of_neg hp2 hy
          omega
        · left; rw [hy, mul_zero] at hd; omega
        · right
          rw [hd]
          have h3 : (2 : Int) ^ 17 ≤ 2 ^ (k - l.length) * 2 ^ (ρ - k + 1) := by
            rw [← pow_add]; exact pow_le_pow_right₀ (by norm_num) (by omega)
          have h4 : (2 : Int) ^ (k - l.length) * 2 ^ (ρ - k + 1) * 1 ≤
              2 ^ (k - l.length) * 2 ^ (ρ - k + 1) * y :=
            mul_le_mul_of_nonneg_left (by omega) (by positivity)
          have h5 : 2 ^ (k - l.length) * y * 2 ^ (ρ - k + 1) =
              2 ^ (k - l.length) * 2 ^ (ρ - k + 1) * y := by ring
          rw [h5]
          norm_num at h3
          omega
      · left
        rw [List.length_drop]; omega
    · rcases h2 with h2 | h2
      · exact absurd ⟨h1, cumOf_zero hs h2⟩ hne
      · right
        rw [h1, pv_nil, add_zero] at hdist
        refine ⟨by rw [h1]; simp, Or.inr ?_⟩
        have hkρ : k ≤ ρ := by
          by_contra hlt
          have : (2 : Int) ^ (ρ + 1) ≤ 2 ^ k := pow_le_pow_right₀ (by norm_num) (by omega)
          have h3 : (s.value - s.low) * 2 ^ (ρ + 1) ≤ (s.value - s.low) * 2 ^ k :=
            mul_le_mul_of_nonneg_left this (by omega)
          have : (s.value - s.low) * 2 ^ k = 2 ^ k * (s.value - s.low) := by ring
          omega
        have h3 : (2 : Int) ^ k * 2 ^ (ρ - k + 1) = 2 ^ (ρ + 1) := by
          rw [← pow_add]; congr 1; omega
        rw [hdist]
        have : 2 ^ k * (s.value - s.low) * 2 ^ (ρ - k + 1) =
            (s.value - s.low) * (2 ^ k * 2 ^ (ρ - k + 1)) := by ring
        rw [this, h3]; exact h2
  · rw [hsize]
    have hh : highOf tbl s 16 - s.low + 1 = (s.high - s.low + 1) * (tbl.getD 15 0 : Nat) / 16384 := by
      unfold highOf; rw [if_neg (by decide)]; simp; omega
    rw [hh]
    have h1 : (s.high - s.low + 1) * (tbl.getD 15 0 : Nat) / 16384 * 16384 ≤
        (s.high - s.low + 1) * (tbl.getD 15 0 : Nat) := Int.ediv_mul_le _ (by norm_num)
    have h2 : (s.high - s.low + 1) * (tbl.getD 15 0 : Nat) ≤ (s.high - s.low + 1) * 15310 :=
      mul_le_mul_of_nonneg_left (by omega) (by omega)
    nlinarith

/-- The escape loop: it ends, with an error or a symbol below the escape; the number of escapes is
bounded by the number of bits consumed. -/
theorem escLoop_ok (s1 : Int) (fuel : Nat) (lev : Nat) (s : St) (bc : Int) (l : List Bool) (ρ : Nat)
    (hs : Good s) (hρ : Rem ρ s l)
    (hf : (s.high - s.low + 1) * 2 ^ ρ * 15310 ^ fuel < 16384 ^ fuel) (hb0 : 0 ≤ bc)
    (hb : bc + ρ + 16 ≤ 2147483647) :
    run (escLoop s1 fuel lev s bc) l = .err .arithDecodeFailed ∨
    ∃ m j s' K, run (escLoop s1 fuel lev s bc) l = .ok ((m, lev + j, s', bc + (K : Nat)), l.drop K) ∧
      m < 16 ∧ j < fuel ∧ Good s' ∧ K ≤ ρ + 16 ∧
      (16384 : Int) ^ j ≤ (s.high - s.low + 1) * 2 ^ K * 15310 ^ j := by
  induction fuel generalizing lev s bc l ρ with
  | zero =>
    have hr := hs.range
    exfalso
    simp only [pow_zero, mul_one] at hf
    have : (1 : Int) ≤ 2 ^ ρ := one_le_pow₀ (by norm_num)
    nlinarith
  | succ fuel ih =>
    unfold escLoop
    have hoff : min lev 7 < 8 := by omega
    have hoffs : ∃ off, getAt escNbOffset (min lev 7) = pure off := by
      have : ∀ i < 8, ∃ off, getAt escNbOffset i = pure off := by
        intro i hi
        interval_cases i <;> exact ⟨_, rfl⟩
      exact this _ hoff
    obtain ⟨off, hoff⟩ := hoffs
    rw [hoff, pure_bind]
    obtain ⟨hpk, hlt⟩ := C34_getPk ((s1 + off) % 4294967296).toNat
    rw [hpk]
    rw [show (lift (Res.ok (pkSpec ((s1 + ↑off) % 4294967296).toNat)) : Prog Nat) =
      pure (pkSpec ((s1 + ↑off) % 4294967296).toNat) from rfl, pure_bind]
    obtain ⟨tbl, ht1, ht2, ht3, ht4⟩ := cfM_valid _ hlt
    rw [getAt, ht1]
    simp only
    rw [pure_bind, ← ht3, run_bind]
    have hr := hs.range
    rcases decode_ok ht2 hs bc (by omega) (by omega) l with ⟨_, _, h⟩ | ⟨hne, sym, s', k, hk, h, hsym, hg, hsh, -⟩
    · left; rw [h]; rfl
    · rw [h, Res.ok_bind]
      simp only
      by_cases hm : sym < 16
      · right
        rw [if_pos hm]
        refine ⟨sym, 0, s', k, by simp, hm, by omega, hg, by omega, ?_⟩
        have : (1 : Int) ≤ 2 ^ k := one_le_pow₀ (by norm_num)
        simp only [pow_zero, mul_one]
        nlinarith
      · rw [if_neg hm]
        have h16 : sym = 16 := by have := hsym.1; omega
        subst h16
        have hlast : tbl.getD 16 0 = 0 := by have := ht2.last; rw [ht3] at this; exact this
        obtain ⟨e1, e2, e3⟩ := escape_step ht3 ht4 hlast hs hg hk hne hsh hρ
        have hr' := hg.range
        have hρk : (2 : Int) ^ ρ = 2 ^ k * 2 ^ (ρ - k) := by rw [← pow_add]; congr 1; omega
        have hA : (0 : Int) < 2 ^ (ρ - k) * 15310 ^ fuel := by positivity
        have hf' : (s'.high - s'.low + 1) * 2 ^ (ρ - k) * 15310 ^ fuel < 16384 ^ fuel := by
          rw [pow_succ, pow_succ, hρk] at hf
          have h1 := mul_le_mul_of_nonneg_right e3 hA.le
          nlinarith
        rcases ih (lev + 1) s' (bc + (k : Nat)) (l.drop k) (ρ - k) hg e2 hf' (by omega) (by omega) with
          h | ⟨m, j, s'', K, h1, h2, h3, h4, h5, h6⟩
        · left; exact h
        · right
          refine ⟨m, j + 1, s'', k + K, ?_, h2, by omega, h4, by omega, ?_⟩
          · rw [h1, List.drop_drop]
            congr 3
            · congr 1
              · omega
              · congr 1; push_cast; omega
          · have hB : (0 : Int) < 2 ^ K * 15310 ^ j := by positivity
            have h7 := mul_le_mul_of_nonneg_right e3 hB.le
            rw [pow_succ, pow_succ, pow_add]
            nlinarith

/-- Enough fuel for the escape loop. -/
theorem pow11 (a : Nat) : (2 : Int) ^ a * 15310 ^ (11 * a) ≤ 16384 ^ (11 * a) := by
  rw [pow_mul, pow_mul, ← mul_pow]
  exact pow_le_pow_left₀ (by norm_num) (by norm_num) _

theorem pow_strict (X : Int) (A d : Nat) (h : X * 15310 ^ A ≤ 16384 ^ A) :
    X * 15310 ^ (A + 1 + d) < 16384 ^ (A + 1 + d) := by
  have h2 : (15310 : Int) ^ (1 + d) < 16384 ^ (1 + d) :=
    pow_lt_pow_left₀ (by norm_num) (by norm_num) (by omega)
  have h3 : (0 : Int) < 15310 ^ (1 + d) := by positivity
  have h4 : (0 : Int) < 16384 ^ A := by positivity
  rw [Nat.add_assoc, pow_add _ A, pow_add _ A]
  calc X * (15310 ^ A * 15310 ^ (1 + d)) = X * 15310 ^ A * 15310 ^ (1 + d) := by ring
    _ ≤ 16384 ^ A * 15310 ^ (1 + d) := mul_le_mul_of_nonneg_right h h3.le
    _ < 16384 ^ A * 16384 ^ (1 + d) := mul_lt_mul_of_pos_left h2 h4

theorem range_pow (s : St) (hs : Good s) (a A : Nat) (hA : A = 11 * (a + 16)) :
    (s.high - s.low + 1) * 2 ^ a * 15310 ^ A ≤ 16384 ^ A := by
  have hr := hs.range
  have h0 := pow11 (a + 16)
  rw [← hA] at h0
  refine le_trans (mul_le_mul_of_nonneg_right ?_ (by positivity)) h0
  rw [pow_add, mul_comm ((2 : Int) ^ a)]
  exact mul_le_mul_of_nonneg_right (by norm_num; omega) (by positivity)

theorem fuel_enough (s : St) (hs : Good s) (len : Nat) (fuel : Nat) (hf : 11 * (len + 32) + 1 ≤ fuel) :
    (s.high - s.low + 1) * 2 ^ (len + 16) * 15310 ^ fuel < 16384 ^ fuel := by
  obtain ⟨A, hA⟩ : ∃ A, A = 11 * (len + 16 + 16) := ⟨_, rfl⟩
  obtain ⟨d, rfl⟩ : ∃ d, fuel = A + 1 + d := ⟨fuel - (A + 1), by omega⟩
  exact pow_strict _ A d (range_pow s hs (len + 16) A hA)

/-- The number of escapes in terms of the bits they took. -/
theorem esc_bound (s : St) (hs : Good s) (j K : Nat)
    (h : (16384 : Int) ^ j ≤ (s.high - s.low + 1) * 2 ^ K * 15310 ^ j) : j ≤ 11 * (K + 16) := by
  by_contra hlt
  obtain ⟨A, hA⟩ : ∃ A, A = 11 * (K + 16) := ⟨_, rfl⟩
  obtain ⟨d, rfl⟩ : ∃ d, j = A + 1 + d := ⟨j - (A + 1), by omega⟩
  exact absurd h (not_le.mpr (pow_strict _ A d (range_pow s hs K A hA)))

theorem addBit_range (a : Int) (m : Nat) (h0 : 0 ≤ a) (h1 : a ≤ 2147483647) :
    0 ≤ addBit a (m % 2 : Nat) ∧ addBit a (m % 2 : Nat) ≤ 2147483647 ∧
    addBit a (m % 2 : Nat) ≤ 2 * a + 1 := by
  unfold addBit
  split <;> omega

/-- The loop over the least significant bits. -/
theorem lsbLoop_ok (k : Nat) (a b : Int) (s : St) (bc : Int) (l : List Bool) (hs : Good s)
    (ha0 : 0 ≤ a) (ha1 : a ≤ 2147483647) (hb0 : 0 ≤ b) (hb1 : b ≤ 2147483647)
    (hc0 : 0 ≤ bc) (hc : bc + 16 * k ≤ 2147483647) :
    run (lsbLoop k a b s bc) l = .err .arithDecodeFailed ∨
    ∃ a' b' s' K, run (lsbLoop k a b s bc) l = .ok ((a', b', s', bc + (K : Nat)), l.drop K) ∧
      Good s' ∧ K ≤ 16 * k ∧ 0 ≤ a' ∧ a' ≤ 2147483647 ∧ 0 ≤ b' ∧ b' ≤ 2147483647 ∧
      a' + 1 ≤ 2 ^ k * (a + 1) ∧ b' + 1 ≤ 2 ^ k * (b + 1) := by
  induction k generalizing a b s bc l with
  | zero =>
    right
    exact ⟨a, b, s, 0, by simp [lsbLoop], hs, by omega, ha0, ha1, hb0, hb1, by simp, by simp⟩
  | succ k ih =>
    push_cast at hc
    unfold lsbLoop
    obtain ⟨tbl, ht1, ht2, ht3⟩ := cfR_valid (if a = 0 then 1 else if b = 0 then 0 else 2)
      (by split <;> [omega; split <;> omega])
    rw [getAt, ht1]
    simp only
    rw [pure_bind, ← ht3, run_bind]
    rcases decode_ok ht2 hs bc (by omega) (by omega) l with ⟨_, _, h⟩ | ⟨hne, sym, s', j, hj, h, hsym, hg, hsh, -⟩
    · left; rw [h]; rfl
    · rw [h, Res.ok_bind]
      simp only
      obtain ⟨r1, r2, r3⟩ := addBit_range a sym ha0 ha1
      obtain ⟨q1, q2, q3⟩ := addBit_range b (sym / 2) hb0 hb1
      rcases ih (addBit a (sym % 2 : Nat)) (addBit b (sym / 2 % 2 : Nat)) s' (bc + (j : Nat))
        (l.drop j) hg r1 r2 q1 q2 (by omega) (by omega) with
        h | ⟨a', b', s'', K, h1, h2, h3, h4, h5, h6, h7, h8, h9⟩
      · left; exact h
      · right
        refine ⟨a', b', s'', j + K, ?_, h2, by omega, h4, h5, h6, h7, ?_, ?_⟩
        · have e : bc + (j : Int) + (K : Nat) = bc + ((j + K : Nat) : Int) := by push_cast; omega
          rw [h1, List.drop_drop, e]
        · have : (0 : Int) < 2 ^ k := by positivity
          rw [pow_succ]; nlinarith
        · have : (0 : Int) < 2 ^ k := by positivity
          rw [pow_succ]; nlinarith

/-- The tuple loop on every input: it ends, is never cut short by a missing bit, and is only ever
undefined when an array index is out of range or the sum of two saturated values overflows. -/
theorem tuples_ends (fuel : Nat) (cPrev : List Int) (k i : Nat) (t : Tup) (l : List Bool)
    (hs : Good t.st) (hf : 11 * (l.length + 32) + 1 ≤ fuel) (hb0 : 0 ≤ t.bc)
    (hb : t.bc + 200 * l.length + 12000 * k ≤ 2147483647) :
    run (tuples fuel cPrev k i t) l = .err .arithDecodeFailed ∨
    run (tuples fuel cPrev k i t) l = .ub ∨
    ∃ t' l', run (tuples fuel cPrev k i t) l = .ok (t', l') := by
  induction k generalizing i t l with
  | zero => right; right; exact ⟨t, l, rfl⟩
  | succ k ih =>
    push_cast at hb
    unfold tuples
    have get : ∀ (tbl : List Int) (j : Nat) (f : Int → Prog Tup),
        run (getAt tbl j >>= f) l = .ub ∨ ∃ v, run (getAt tbl j >>= f) l = run (f v) l := by
      intro tbl j f
      unfold getAt
      cases tbl[j]? with
      | none => left; rfl
      | some v => right; exact ⟨v, rfl⟩
    have set : ∀ (tbl : List Int) (j : Nat) (v : Int) (f : List Int → Prog Tup) (l : List Bool),
        run (setAt tbl j v >>= f) l = .ub ∨ run (setAt tbl j v >>= f) l = run (f (tbl.set j v)) l := by
      intro tbl j v f l
      unfold setAt
      split
      · right; rfl
      · left; rfl
    rcases get cPrev (i + 3) _ with h | ⟨q1, h⟩
    · right; left; exact h
    rw [h]
    rcases get t.cPres (i + 1) _ with h | ⟨p1, h⟩
    · right; left; exact h
    rw [h]
    rcases get t.cPres i _ with h | ⟨p2, h⟩
    · right; left; exact h
    rw [h]
    have h3 : ∀ (f : Int → Prog Tup), run ((if 3 < i then getAt t.cPres (i - 1) else pure 0) >>= f) l = .ub ∨
        ∃ v, run ((if 3 < i then getAt t.cPres (i - 1) else pure 0) >>= f) l = run (f v) l := by
      intro f
      split
      · exact get _ _ f
      · right; exact ⟨0, rfl⟩
    rcases h3 _ with h | ⟨p3, h⟩
    · right; left; exact h
    rw [h]
    clear h h3
    simp only
    generalize getContext q1 p1 p2 p3 t.c i = g
    have hr := hs.range
    rw [run_bind]
    rcases escLoop_ok g.1 fuel 0 t.st t.bc l (l.length + 16) hs (Or.inl (le_refl _))
      (fuel_enough t.st hs l.length fuel hf) hb0 (by omega) with
      h | ⟨m, j, s', K, h, hm, hj, hg, hK, hpow⟩
    · left; rw [h]; rfl
    rw [h, Res.ok_bind]
    simp only [Nat.zero_add]
    have hjK := esc_bound t.st hs j K hpow
    have hlen : (l.drop K).length = l.length - K := List.length_drop
    split
    · -- a tuple with values
      rw [run_bind]
      rcases lsbLoop_ok j (m % 4 : Nat) (m / 4 : Nat) s' (t.bc + (K : Nat)) (l.drop K) hg (by omega)
        (by omega) (by omega) (by omega) (by omega) (by omega) with
        h | ⟨a, b, s'', K', h, hg', hK', ha0, ha1, hb0', hb1', -, -⟩
      · left; rw [h]; rfl
      rw [h, Res.ok_bind]
      simp only
      rcases set t.quant (2 * i) a _ ((l.drop K).drop K') with h | h
      · right; left; exact h
      rw [h]
      rcases set (t.quant.set (2 * i) a) (2 * i + 1) b _ ((l.drop K).drop K') with h | h
      · right; left; exact h
      rw [h, run_bind]
      have hn : run (neighbour a b) ((l.drop K).drop K') = .ub ∨
          ∃ v, run (neighbour a b) ((l.drop K).drop K') = .ok (v, (l.drop K).drop K') := by
        unfold neighbour
        split
        · right; exact ⟨_, rfl⟩
        · rw [bind_assoc, run_bind]
          unfold w32 Ops.i32
          split
          · rw [run_lift_ok, Res.ok_bind]
            simp only
            rw [run_bind]
            split
            · right; exact ⟨_, rfl⟩
            · left; rfl
          · left; rfl
      rcases hn with h | ⟨v, h⟩
      · right; left; rw [h]; rfl
      rw [h, Res.ok_bind]
      simp only
      rcases set t.cPres (i + 2) v _ ((l.drop K).drop K') with h | h
      · right; left; exact h
      rw [h]
      have hlen' : ((l.drop K).drop K').length = l.length - K - K' := by
        rw [List.length_drop, hlen]
      apply ih
      · exact hg'
      · rw [hlen']; omega
      · simp only; omega
      · simp only; rw [hlen']
        rcases Nat.lt_or_ge l.length K with hc | hc <;> omega
    · split
      · right; right; exact ⟨_, _, rfl⟩
      · -- a zero tuple
        rcases set t.quant (2 * i) 0 _ (l.drop K) with h | h
        · right; left; exact h
        rw [h]
        rcases set (t.quant.set (2 * i) 0) (2 * i + 1) 0 _ (l.drop K) with h | h
        · right; left; exact h
        rw [h]
        rcases set t.cPres (i + 2) 1 _ (l.drop K) with h | h
        · right; left; exact h
        rw [h]
        apply ih
        · exact hg
        · rw [hlen]; omega
        · simp only; omega
        · simp only; rw [hlen]
          rcases Nat.lt_or_ge l.length K with hc | hc <;> omega

theorem applySign_noErr (t0 : Int) (l : List Bool) (c : ErrCode) : run (applySign t0) l ≠ .err c := by
  unfold applySign
  split
  · rw [run_bind, run_bits]
    split
    · simp
    · rw [if_neg (by decide), Res.ok_bind]
      simp only
      split
      · rw [run_w32 (by omega) (by omega)]; simp
      · rw [run_bind]
        have h1 : ∀ m sh, Ops.shl32Sat m sh = .ub ∨ ∃ x, Ops.shl32Sat m sh = .ok x := by
          intro m sh
          unfold Ops.shl32Sat Ops.shr32 Ops.shl32
          split_ifs <;> simp <;> split_ifs <;> simp
        have h2 : ∀ a b sh, Ops.mul32ShSat a b sh = .ub ∨ ∃ x, Ops.mul32ShSat a b sh = .ok x := by
          intro a b sh
          unfold Ops.mul32ShSat Ops.shr64 Ops.i64
          split_ifs <;> simp <;> split_ifs <;> simp
        rcases h1 (bitsVal (l.take 1)) 1 with h | ⟨x, h⟩
        · rw [h]; simp [lift]
        rw [h, run_lift_ok, Res.ok_bind]
        simp only
        rw [run_bind]
        rcases h2 x t0 0 with h | ⟨y, h⟩
        · rw [h]; simp [lift]
        rw [h, run_lift_ok, Res.ok_bind]
        simp only
        unfold w32 Ops.i32
        split <;> simp [lift]
  · simp

theorem signs_noErr (k : Nat) (q : List Int) (l : List Bool) (c : ErrCode) :
    run (signs k q) l ≠ .err c := by
  induction k generalizing q l with
  | zero => simp [signs]
  | succ k ih =>
    match q with
    | [] => simp [signs]
    | [_] => simp [signs]
    | a :: b :: q =>
      simp only [signs]
      rw [run_bind]
      have h1 := applySign_noErr a l
      generalize run (applySign a) l = r1 at h1
      match r1 with
      | .err c' => exact absurd rfl (h1 c')
      | .jump => simp
      | .ub => simp
      | .ok (x, l1) =>
        rw [Res.ok_bind, run_bind]
        simp only
        have h2 := applySign_noErr b l1
        generalize run (applySign b) l1 = r2 at h2
        match r2 with
        | .err c' => exact absurd rfl (h2 c')
        | .jump => simp
        | .ub => simp
        | .ok (y, l2) =>
          rw [Res.ok_bind, run_bind]
          simp only
          have h3 := ih q l2
          generalize run (signs k q) l2 = r3 at h3
          match r3 with
          | .err c' => simpa using h3
          | .jump => simp
          | .ub => simp
          | .ok (z, l3) => simp

theorem level2Signs_noStill (presN : Nat) (bc : Int) (q : List Int) (l : List Bool) :
    run (level2Signs presN bc q) l ≠ .err stillRunning := by
  unfold level2Signs
  rw [run_bind]
  have : run (w32 (bc - 14)) l = .ub ∨ run (w32 (bc - 14)) l = .ok (bc - 14, l) := by
    unfold w32 Ops.i32
    split
    · right; rfl
    · left; rfl
  rcases this with h | h
  · rw [h]; simp
  rw [h, Res.ok_bind]
  simp only
  rw [run_bind, run_avail, Res.ok_bind]
  simp only
  split
  · simp [stillRunning]
  · split
    · rw [run_bind, run_drop]
      split
      · simp
      · rw [Res.ok_bind]; exact signs_noErr _ _ _ _
    · exact signs_noErr _ _ _ _

/-- **C33** Spectral decoding of up to 512 tuples ends on every input of up to a megabyte and from
every context, also when the input is exhausted: `11 * (bits + 32) + 1` turns of the escape
loop are always enough. -/
theorem C33_terminates (fuel n presN : Nat) (cPrev cPres quant : List Int) (l : List Bool)
    (hn : n ≤ 512) (hl : l.length ≤ 2 ^ 23) (hf : 11 * (l.length + 32) + 1 ≤ fuel) :
    level2 fuel n presN cPrev cPres quant l ≠ .err stillRunning := by
  norm_num at hl
  have h : ∀ r, run (level2Arith fuel n presN cPrev cPres quant) l = r →
      r = .err .arithDecodeFailed ∨ r = .ub ∨ ∃ t, r = .ok t := by
    intro r hr
    subst hr
    unfold level2Arith
    split
    · right; left; rfl
    · simp only
      rw [run_bind, run_firstSymbol, Res.ok_bind]
      simp only
      rw [run_bind]
      unfold getAt
      cases (rollContext cPrev cPres presN).1[2]? with
      | none => right; left; rfl
      | some q0 =>
        rw [run_pure, Res.ok_bind]
        simp only
        rw [run_bind]
        rcases tuples_ends fuel (rollContext cPrev cPres presN).1 n 0
          ⟨(rollContext cPrev cPres presN).2, quant, q0 * 4096, ⟨0, 65535, pv 16 l⟩, 16⟩ (l.drop 16)
          (first_good l) (by rw [List.length_drop]; omega) (by simp)
          (by simp only; rw [List.length_drop]; omega) with h | h | ⟨t, l', h⟩
        · left; rw [h]; rfl
        · right; left; rw [h]; rfl
        · right; right; exact ⟨_, by rw [h]; rfl⟩
  unfold level2
  rcases h _ rfl with h | h | ⟨t, h⟩
  · rw [h]; simp [stillRunning]
  · rw [h]; simp
  · rw [h, Res.ok_bind]
    have h1 := level2Signs_noStill presN t.1.2.bc t.1.2.quant l
    generalize run (level2Signs presN t.1.2.bc t.1.2.quant) l = r at h1
    match r with
    | .err c => simpa using h1
    | .jump => simp
    | .ub => simp
    | .ok x => simp

/-- Two programs that agree agree after a continuation on which they agree. -/
theorem run_bind_congr {α β : Type} {p p' : Prog α} {f f' : α → Prog β} {l : List Bool}
    (h : run p l = run p' l)
    (hf : ∀ a l', run p l = .ok (a, l') → run (f a) l' = run (f' a) l') :
    run (p >>= f) l = run (p' >>= f') l := by
  rw [run_bind, run_bind, ← h]
  cases hr : run p l with
  | ok x => exact hf x.1 x.2 hr
  | jump => rfl
  | err c => rfl
  | ub => rfl

theorem escLoop_mono (s1 : Int) (fuel : Nat) (lev : Nat) (s : St) (bc : Int) (l : List Bool)
    (h : run (escLoop s1 fuel lev s bc) l ≠ .err stillRunning) :
    run (escLoop s1 fuel lev s bc) l = run (escLoop s1 (fuel + 1) lev s bc) l := by
  induction fuel generalizing lev s bc l with
  | zero => simp [escLoop] at h
  | succ fuel ih =>
    rw [escLoop, escLoop]
    rw [escLoop] at h
    refine run_bind_congr rfl fun off l1 h1 => ?_
    rw [run_bind, h1, Res.ok_bind] at h
    simp only at h
    refine run_bind_congr rfl fun pki l2 h2 => ?_
    rw [run_bind, h2, Res.ok_bind] at h
    simp only at h
    refine run_bind_congr rfl fun tbl l3 h3 => ?_
    rw [run_bind, h3, Res.ok_bind] at h
    simp only at h
    refine run_bind_congr rfl fun r l4 h4 => ?_
    rw [run_bind, h4, Res.ok_bind] at h
    simp only at h
    match r with
    | none => rfl
    | some (m, st, bc) =>
      simp only at h ⊢
      split
      · rfl
      · rename_i hm
        rw [if_neg hm] at h
        exact ih _ _ _ _ h

theorem tuples_mono (fuel : Nat) (cPrev : List Int) (k i : Nat) (t : Tup) (l : List Bool)
    (h : run (tuples fuel cPrev k i t) l ≠ .err stillRunning) :
    run (tuples fuel cPrev k i t) l = run (tuples (fuel + 1) cPrev k i t) l := by
  induction k generalizing i t l with
  | zero => rfl
  | succ k ih =>
    rw [tuples, tuples]
    rw [tuples] at h
    refine run_bind_congr rfl fun q1 l1 h1 => ?_
    rw [run_bind, h1, Res.ok_bind] at h
    simp only at h
    refine run_bind_congr rfl fun p1 l2 h2 => ?_
    rw [run_bind, h2, Res.ok_bind] at h
    simp only at h
    refine run_bind_congr rfl fun p2 l3 h3 => ?_
    rw [run_bind, h3, Res.ok_bind] at h
    simp only at h
    refine run_bind_congr rfl fun p3 l4 h4 => ?_
    rw [run_bind, h4, Res.ok_bind] at h
    simp only at h ⊢
    refine run_bind_congr (escLoop_mono _ _ _ _ _ _ ?_) fun r l5 h5 => ?_
    · intro hc
      rw [run_bind, hc] at h
      exact h rfl
    rw [run_bind, h5, Res.ok_bind] at h
    obtain ⟨m, lev, st, bc⟩ := r
    simp only at h ⊢
    split
    · rename_i hm
      rw [if_pos hm] at h
      refine run_bind_congr rfl fun r l6 h6 => ?_
      rw [run_bind, h6, Res.ok_bind] at h
      obtain ⟨a, b, st, bc⟩ := r
      simp only at h ⊢
      refine run_bind_congr rfl fun q l7 h7 => ?_
      rw [run_bind, h7, Res.ok_bind] at h
      simp only at h
      refine run_bind_congr rfl fun q l8 h8 => ?_
      rw [run_bind, h8, Res.ok_bind] at h
      simp only at h
      refine run_bind_congr rfl fun v l9 h9 => ?_
      rw [run_bind, h9, Res.ok_bind] at h
      simp only at h
      refine run_bind_congr rfl fun cp l10 h10 => ?_
      rw [run_bind, h10, Res.ok_bind] at h
      exact ih _ _ _ h
    · rename_i hm
      rw [if_neg hm] at h
      split
      · rfl
      · rename_i hl
        rw [if_neg hl] at h
        refine run_bind_congr rfl fun q l7 h7 => ?_
        rw [run_bind, h7, Res.ok_bind] at h
        simp only at h
        refine run_bind_congr rfl fun q l8 h8 => ?_
        rw [run_bind, h8, Res.ok_bind] at h
        simp only at h
        refine run_bind_congr rfl fun cp l10 h10 => ?_
        rw [run_bind, h10, Res.ok_bind] at h
        exact ih _ _ _ h

/-- **C33** The counter of the model does not matter: once it is large enough the result is the
same for every larger value. -/
theorem C33_counter_irrelevant (fuel d n presN : Nat) (cPrev cPres quant : List Int) (l : List Bool)
    (h : level2 fuel n presN cPrev cPres quant l ≠ .err stillRunning) :
    level2 (fuel + d) n presN cPrev cPres quant l = level2 fuel n presN cPrev cPres quant l := by
  have step : ∀ fuel, level2 fuel n presN cPrev cPres quant l ≠ .err stillRunning →
      level2 (fuel + 1) n presN cPrev cPres quant l = level2 fuel n presN cPrev cPres quant l := by
    intro fuel h
    have h1 : run (level2Arith fuel n presN cPrev cPres quant) l ≠ .err stillRunning := by
      intro hc; unfold level2 at h; rw [hc] at h; exact h rfl
    have h2 : run (level2Arith fuel n presN cPrev cPres quant) l =
        run (level2Arith (fuel + 1) n presN cPrev cPres quant) l := by
      unfold level2Arith at h1 ⊢
      split
      · rfl
      · rename_i hc
        rw [if_neg hc] at h1
        simp only at h1 ⊢
        refine run_bind_congr rfl fun st l1 e1 => ?_
        rw [run_bind, e1, Res.ok_bind] at h1
        simp only at h1
        refine run_bind_congr rfl fun q0 l2 e2 => ?_
        rw [run_bind, e2, Res.ok_bind] at h1
        simp only at h1
        refine run_bind_congr (tuples_mono _ _ _ _ _ _ ?_) fun _ _ _ => rfl
        intro hc
        rw [run_bind, hc] at h1
        exact h1 rfl
    unfold level2
    rw [← h2]
  induction d with
  | zero => rfl
  | succ d ih => rw [← Nat.add_assoc, step _ (by rw [ih]; exact h), ih]

/-- Four all-zero tuples end with the stop code (an escape followed by 0). -/
example : (level2 700 4 4 (List.replicate 516 0) (List.replicate 516 0) (List.replicate 8 0)
    [false, false, false, true, true]).map (fun x => (x.1.2.2, x.2)) =
    .ok (List.replicate 8 0, []) := by decide +kernel

end Verif.Arith
