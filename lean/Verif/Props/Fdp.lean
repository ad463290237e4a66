import Verif.Spec.Fdp
import Mathlib.Tactic.Linarith
import Mathlib.Tactic.Ring
import Mathlib.Algebra.Order.Ring.Abs

/-! # Prediction of harmonic lines -/

namespace Verif.Fdp

open Verif.Spec.Fdp
open Ops (i32)

/-! ## The search for harmonics -/

/-- The number of harmonics that were passed before line `i`. -/
def num (sp : Nat) : Nat → Nat
  | 0 => 0
  | i + 1 => if i = 1 + num sp i * sp / 256 then num sp i + 1 else num sp i

theorem num_inv {sp : Nat} (h : 256 ≤ sp) (i : Nat) :
    (num sp i = 0 → i ≤ 1) ∧ (1 ≤ num sp i → 1 + (num sp i - 1) * sp / 256 < i) ∧ i ≤ 1 + num sp i * sp / 256 := by
  induction i with
  | zero => simp [num]
  | succ i ih =>
    obtain ⟨h1, h2, h3⟩ := ih
    rw [num]
    obtain ⟨n, hn⟩ : ∃ n, n = num sp i := ⟨_, rfl⟩
    rw [← hn] at h1 h2 h3 ⊢
    by_cases hc : i = 1 + n * sp / 256
    · rw [if_pos hc]
      have he : (n + 1) * sp = n * sp + sp := by ring
      refine ⟨by omega, fun _ => ?_, ?_⟩
      · rw [Nat.add_sub_cancel]; omega
      · rw [he]; omega
    · rw [if_neg hc]
      refine ⟨fun h0 => ?_, fun h0 => ?_, by omega⟩
      · subst h0; have := h1 rfl; simp at hc; omega
      · have := h2 h0; omega

theorem near_num {sp i n : Nat} (h : 768 ≤ sp) (hn : Near sp i n) : num sp i = n := by
  obtain ⟨h1, hd⟩ := hn
  obtain ⟨-, i2, i3⟩ := num_inv (i := i) (by omega : 256 ≤ sp)
  rw [abs_lt] at hd
  obtain ⟨m, hm⟩ : ∃ m, m = num sp i := ⟨_, rfl⟩
  rw [← hm] at i2 i3 ⊢
  have hcast : ((n * sp : Nat) : Int) = n * sp := by push_cast; rfl
  rcases Nat.lt_trichotomy m n with hlt | heq | hgt
  · exfalso
    have : m * sp ≤ (n - 1) * sp := Nat.mul_le_mul_right _ (by omega)
    have he : n * sp = (n - 1) * sp + sp := by
      obtain ⟨k, rfl⟩ : ∃ k, n = k + 1 := ⟨n - 1, by omega⟩
      rw [Nat.add_sub_cancel]; ring
    omega
  · exact heq
  · exfalso
    have h2 := i2 (by omega)
    have : n * sp ≤ (m - 1) * sp := Nat.mul_le_mul_right _ (by omega)
    omega

/-- The index of the tables of factors of harmonic `n`. -/
def idx (sp n : Nat) : Nat :=
  let k := ((n : Int) * sp - 128) % 256
  (if 128 < k then 256 - k else k).toNat

theorem idx_le (sp n : Nat) : idx sp n ≤ 128 := by unfold idx; simp only; split <;> omega

def facA (sp n : Nat) : Int :=
  if n = 0 then 0 else if ((n : Int) * sp - 128) / 256 % 2 = 0 then -s1Tab.getD (idx sp n) 0 else s1Tab.getD (idx sp n) 0
def facB (sp n : Nat) : Int := if n = 0 then 0 else s2Tab.getD (idx sp n) 0

theorem factors (sp : Nat) {n : Nat} (h : 1 ≤ n) : Factors sp n (facA sp n) (facB sp n) := by
  obtain ⟨f, hf⟩ : ∃ f : Int, f = (n : Int) * sp - 128 := ⟨_, rfl⟩
  have hd : ∃ m : Int, |f - 256 * m| = idx sp n := by
    unfold idx
    rw [← hf]
    simp only
    by_cases hc : 128 < f % 256
    · refine ⟨f / 256 + 1, ?_⟩
      rw [if_pos hc, abs_of_neg (by omega)]; omega
    · refine ⟨f / 256, ?_⟩
      rw [if_neg hc, abs_of_nonneg (by omega)]; omega
  obtain ⟨m, hm⟩ := hd
  refine ⟨idx sp n, m, f / 256, idx_le sp n, by rw [← hf]; exact hm, by omega, by omega, ?_, ?_⟩
  · unfold facB; rw [if_neg (by omega)]
  · unfold facA
    rw [if_neg (by omega), ← hf]
    by_cases hc : f / 256 % 2 = 0
    · rw [if_pos hc]; exact Or.inl ⟨Int.even_iff.2 hc, rfl⟩
    · rw [if_neg hc]; exact Or.inr ⟨fun hh => hc (Int.even_iff.1 hh), rfl⟩

/-- The state of the search before line `i`. -/
def T (sp i : Nat) : Track :=
  ⟨(num sp i : Int) * sp - 128, 256 + ((num sp i : Int) * sp) / 256 * 256, facA sp (num sp i), facB sp (num sp i)⟩

theorem T_zero (sp : Nat) : T sp 0 = start := by simp [T, num, start, facA, facB]

theorem entry_nat {τ : Type} {t : List τ} {i : Int} {x : τ} (h0 : 0 ≤ i) (hx : t[i.toNat]? = some x) : entry t i = .ok x := by
  unfold entry
  rw [if_neg (by omega), hx]

theorem entry_getD {t : List Int} {i : Int} (h0 : 0 ≤ i) (hl : i.toNat < t.length) : entry t i = .ok (t.getD i.toNat 0) := by
  refine entry_nat h0 ?_
  rw [List.getD_eq_getElem?_getD, List.getElem?_eq_getElem hl]; rfl

theorem next_T (sp i : Nat) : next sp (T sp i) i = .ok (T sp (i + 1)) := by
  unfold next
  obtain ⟨n, hn⟩ : ∃ n, n = num sp i := ⟨_, rfl⟩
  have hc : (T sp i).c = 256 + ((n : Int) * sp) / 256 * 256 := by rw [hn]; rfl
  have hh : (T sp i).h = (n : Int) * sp - 128 := by rw [hn]; rfl
  have hdiv : ((n * sp / 256 : Nat) : Int) = ((n : Int) * sp) / 256 := by push_cast; rfl
  have hnum : num sp (i + 1) = if i = 1 + n * sp / 256 then n + 1 else n := by rw [num, ← hn]
  by_cases hi : i = 1 + n * sp / 256
  · have hci : (i : Int) * 256 = (T sp i).c := by rw [hc]; omega
    rw [if_pos hci, hh]
    rw [if_pos hi] at hnum
    have hf : (n : Int) * sp - 128 + sp = ((n + 1 : Nat) : Int) * sp - 128 := by push_cast; ring
    rw [hf]
    have hk : (if 128 < (((n + 1 : Nat) : Int) * sp - 128) % 256 then 256 - (((n + 1 : Nat) : Int) * sp - 128) % 256
        else (((n + 1 : Nat) : Int) * sp - 128) % 256) = (idx sp (n + 1) : Int) := by
      unfold idx
      simp only
      split <;> omega
    simp only [hk]
    have hl := idx_le sp (n + 1)
    rw [entry_getD (by omega) (by rw [Int.toNat_natCast, show s2Tab.length = 129 from rfl]; omega), Res.ok_bind,
      entry_getD (by omega) (by rw [Int.toNat_natCast, show s1Tab.length = 129 from rfl]; omega), Res.ok_bind, Int.toNat_natCast]
    unfold T
    rw [hnum]
    unfold facA facB
    rw [if_neg (Nat.succ_ne_zero n), if_neg (Nat.succ_ne_zero n), show (((n + 1 : Nat) : Int) * sp - 128 + 128) = ((n + 1 : Nat) : Int) * sp by ring]
  · have hci : ¬ (i : Int) * 256 = (T sp i).c := by rw [hc]; omega
    rw [if_neg hci]
    rw [if_neg hi] at hnum
    unfold T
    rw [hnum, ← hn]

theorem tables_bound : ∀ k ≤ 128, 0 ≤ s1Tab.getD k 0 ∧ s2Tab.getD k 0 ≤ 0 ∧ s1Tab.getD k 0 - s2Tab.getD k 0 ≤ 67584 := by decide +kernel

theorem fac_bound (sp n : Nat) : |facA sp n| + |facB sp n| ≤ 67584 := by
  unfold facA facB
  obtain ⟨h1, h2, h3⟩ := tables_bound _ (idx_le sp n)
  by_cases h0 : n = 0
  · rw [if_pos h0, if_pos h0]; decide
  · rw [if_neg h0, if_neg h0]
    split
    · rw [abs_neg, abs_of_nonneg h1, abs_of_nonpos h2]; omega
    · rw [abs_of_nonneg h1, abs_of_nonpos h2]; omega

theorem i32_ok {x : Int} (h : |x| ≤ 2147483647) : i32 x = .ok x := by
  rw [abs_le] at h
  unfold Ops.i32
  rw [if_pos]
  unfold Ops.MIN_32 Ops.MAX_32; omega

theorem round_of (r : Int) : Round r (if r < 0 then -((|r| + 16384) / 32768) else (|r| + 16384) / 32768) := by
  unfold Round
  obtain ⟨e, he⟩ : ∃ e, e = if r < 0 then -((|r| + 16384) / 32768) else (|r| + 16384) / 32768 := ⟨_, rfl⟩
  rw [← he]
  have hb : |32768 * e - r| ≤ 16384 := by
    rw [abs_le]
    rcases abs_cases r with ⟨h1, h2⟩ | ⟨h1, h2⟩
    · rw [if_neg (by omega), h1] at he; omega
    · rw [if_pos h2, h1] at he; omega
  refine ⟨by omega, fun ht => ?_⟩
  rcases abs_cases r with ⟨h1, h2⟩ | ⟨h1, h2⟩
  · rw [if_neg (by omega), h1] at he
    rw [h1, abs_of_nonneg (show 0 ≤ 32768 * e by omega)]
    rcases abs_cases (32768 * e - r) with ⟨h3, h4⟩ | ⟨h3, h4⟩ <;> omega
  · rw [if_pos h2, h1] at he
    rw [h1, abs_of_nonpos (show 32768 * e ≤ 0 by omega)]
    rcases abs_cases (32768 * e - r) with ⟨h3, h4⟩ | ⟨h3, h4⟩ <;> omega

theorem estimate_T {sp : Nat} (h : 768 ≤ sp) (i : Nat) {p1 p2 : Int} (h1 : |p1| ≤ 31775) (h2 : |p2| ≤ 31775) :
    ∃ o : Option Int, estimate (T sp i) i p1 p2 = .ok o ∧ Estimate sp i p1 p2 (o.getD 0) ∧ |o.getD 0| ≤ 65536 := by
  obtain ⟨n, hn⟩ : ∃ n, n = num sp i := ⟨_, rfl⟩
  have hh : (T sp i).h = (n : Int) * sp - 128 := by rw [hn]; rfl
  have ha : (T sp i).s1 = facA sp n := by rw [hn]; rfl
  have hb : (T sp i).s2 = facB sp n := by rw [hn]; rfl
  unfold estimate
  rw [hh, ha, hb, show (i : Int) * 256 - ((n : Int) * sp - 128) = 256 * (i : Int) + 128 - n * sp by ring]
  by_cases hc : |256 * (i : Int) + 128 - n * sp| < 384
  · rw [if_pos hc]
    have hf := fac_bound sp n
    have m1 : |facA sp n * p1| ≤ |facA sp n| * 31775 := by
      rw [abs_mul]; exact mul_le_mul_of_nonneg_left h1 (abs_nonneg _)
    have m2 : |facB sp n * p2| ≤ |facB sp n| * 31775 := by
      rw [abs_mul]; exact mul_le_mul_of_nonneg_left h2 (abs_nonneg _)
    have m3 : |facA sp n * p1 + facB sp n * p2| ≤ 2147481600 := by
      refine le_trans (abs_add_le _ _) ?_
      omega
    have na := abs_nonneg (facA sp n)
    have nb := abs_nonneg (facB sp n)
    rw [i32_ok (by omega), Res.ok_bind, i32_ok (by omega), Res.ok_bind, i32_ok (by omega), Res.ok_bind,
      i32_ok (by rw [abs_abs]; omega), Res.ok_bind]
    refine ⟨_, rfl, ?_, ?_⟩
    · have hr := round_of (facA sp n * p1 + facB sp n * p2)
      by_cases h0 : n = 0
      · right
        refine ⟨fun k hk => ?_, ?_⟩
        · have := near_num h hk
          have := hk.1
          omega
        · rw [h0]; simp [facA, facB]
      · left
        exact ⟨n, _, _, ⟨by omega, hc⟩, factors sp (by omega), hr⟩
    · obtain ⟨r, hr⟩ : ∃ r, r = facA sp n * p1 + facB sp n * p2 := ⟨_, rfl⟩
      rw [← hr] at m3 ⊢
      have := abs_nonneg r
      rw [Option.getD_some, abs_le]
      split <;> omega
  · rw [if_neg hc]
    refine ⟨none, rfl, Or.inr ⟨fun k hk => ?_, rfl⟩, by decide⟩
    have h3 := near_num h hk
    have hkn : k = n := by omega
    rw [hkn] at hk
    exact hc hk.2

/-! ## Lines -/

theorem inside_ok {i : Nat} (h : i < 172) : inside i = .ok () := if_pos h

theorem estLines_ok {sp : Nat} (h : 768 ≤ sp) (g : ℚ) (n i : Nat) (s : St) (hi : i + n ≤ 172) (ht : s.t = T sp i)
    (hm : ∀ j < 172, |s.p1 j| ≤ 31775 ∧ |s.p2 j| ≤ 31775) :
    ∃ s', estLines sp g n i s = .ok s' ∧ s'.p1 = s.p1 ∧ s'.p2 = s.p2 ∧ s'.t = T sp (i + n) ∧
      (∀ j, i ≤ j → j < i + n → ∃ e, s'.est j = some e ∧ Estimate sp j (s.p1 j) (s.p2 j) e ∧ |e| ≤ 65536 ∧
        s'.coef j = s.coef j + g * e) ∧
      (∀ j, j < i ∨ i + n ≤ j → s'.est j = s.est j ∧ s'.coef j = s.coef j) := by
  induction n generalizing i s with
  | zero => exact ⟨s, rfl, rfl, rfl, by rw [ht]; rfl, fun j _ _ => by omega, fun j _ => ⟨rfl, rfl⟩⟩
  | succ n ih =>
    obtain ⟨o, ho, he, hb⟩ := estimate_T h i (hm i (by omega)).1 (hm i (by omega)).2
    rw [estLines, inside_ok (by omega), Res.ok_bind, ht, ho, Res.ok_bind, next_T, Res.ok_bind]
    obtain ⟨s1, h1⟩ : ∃ s1 : St, s1 = { s with est := upd s.est i (some (o.getD 0)), coef := upd s.coef i (s.coef i + g * o.getD 0),
                                                 t := T sp (i + 1) } := ⟨_, rfl⟩
    rw [← h1]
    obtain ⟨s', hs', q1, q2, q3, q4, q5⟩ := ih (i + 1) s1 (by omega) (by rw [h1]) (by rw [h1]; exact hm)
    refine ⟨s', hs', by rw [q1, h1], by rw [q2, h1], by rw [q3]; congr 1; omega, fun j hj hj' => ?_, fun j hj => ?_⟩
    · by_cases hji : j = i
      · subst hji
        obtain ⟨e1, e2⟩ := q5 j (by omega)
        refine ⟨o.getD 0, ?_, he, hb, ?_⟩
        · rw [e1, h1]; simp [upd]
        · rw [e2, h1]; simp [upd]
      · obtain ⟨e, a1, a2, a3, a4⟩ := q4 j (by omega) (by omega)
        refine ⟨e, a1, by rw [h1] at a2; exact a2, a3, ?_⟩
        rw [a4, h1]; simp [upd, hji]
    · obtain ⟨e1, e2⟩ := q5 j (by omega)
      have hji : j ≠ i := by omega
      rw [e1, e2, h1]
      simp [upd, hji]

theorem exp_bound : ∀ k ≤ 181, expTab.getD k 0 ≤ 65527 := by decide +kernel
theorem scf_bound : ∀ k ≤ 62, scfTab.getD k 0 ≤ 65536 := by decide +kernel

theorem entry_getD_nat {t : List Nat} {i : Int} (h0 : 0 ≤ i) (hl : i.toNat < t.length) : entry t i = .ok (t.getD i.toNat 0) := by
  refine entry_nat h0 ?_
  rw [List.getD_eq_getElem?_getD, List.getElem?_eq_getElem hl]; rfl

theorem scale_ok (f : Int) : scale f = .ok (scaleOf f) ∧ scaleOf f ≤ 65536 := by
  unfold scale scaleOf
  simp only
  by_cases h : 0 ≤ f - 100 - 21
  · rw [if_pos h, if_neg (show ¬ f < 121 by omega)]
    by_cases h2 : 62 < f - 100 - 21
    · rw [if_pos h2, if_pos (show 183 < f by omega)]; exact ⟨rfl, le_refl _⟩
    · rw [if_neg h2, if_neg (show ¬ 183 < f by omega),
        entry_getD_nat h (by rw [show scfTab.length = 63 from rfl]; omega), show f - 100 - 21 = f - 121 by ring]
      exact ⟨rfl, scf_bound _ (by omega)⟩
  · rw [if_neg h, if_pos (show f < 121 by omega)]; exact ⟨rfl, by omega⟩

theorem lineInt_ok {q f : Int} (hq : |q| ≤ 2147483647) : lineInt q (scaleOf f) = .ok (value f q) ∧ |value f q| ≤ 4194304 := by
  have hs := (scale_ok f).2
  have hx := exp_bound (min q.natAbs 181) (by omega)
  have hmul : expTab.getD (min q.natAbs 181) 0 * scaleOf f ≤ 65527 * 65536 := Nat.mul_le_mul hx hs
  have hmin : (min |q| 181).toNat = min q.natAbs 181 := by
    rw [Int.abs_eq_natAbs]; omega
  constructor
  · unfold lineInt value
    rw [i32_ok (by rw [abs_abs]; exact hq), Res.ok_bind,
      entry_getD_nat (by have := abs_nonneg q; omega) (by rw [hmin, show expTab.length = 182 from rfl]; omega), Res.ok_bind, hmin,
      Nat.mod_eq_of_lt (by omega), Nat.add_comm]
    show Res.ok (if q < 0 then -((((expTab.getD (min q.natAbs 181) 0 * scaleOf f + 512) / 1024 : Nat)) : Int) else
      (((expTab.getD (min q.natAbs 181) 0 * scaleOf f + 512) / 1024 : Nat) : Int)) = _
    rcases lt_trichotomy q 0 with h | h | h
    · rw [if_pos h, Int.sign_eq_neg_one_of_neg h]; congr 1; ring
    · subst h
      rw [if_neg (by omega)]
      have : expTab.getD (min (0 : Int).natAbs 181) 0 = 0 := by decide
      rw [this]; simp
    · rw [if_neg (by omega), Int.sign_eq_one_of_pos h]; congr 1; ring
  · unfold value
    rw [abs_mul]
    have : |q.sign| ≤ 1 := by
      rcases lt_trichotomy q 0 with h | h | h
      · rw [Int.sign_eq_neg_one_of_neg h]; decide
      · subst h; decide
      · rw [Int.sign_eq_one_of_pos h]; decide
    rw [abs_of_nonneg (show (0 : Int) ≤ ((expTab.getD (min q.natAbs 181) 0 * scaleOf f + 512) / 1024 : Nat) by omega)]
    refine le_trans (mul_le_mul_of_nonneg_right this (by omega)) ?_
    omega

theorem sat_limit (x : Int) : sat x = limit x := by unfold sat limit; split_ifs <;> omega
theorem limit_le (x : Int) : |limit x| ≤ 31775 := by rw [abs_le]; unfold limit; split_ifs <;> omega

/-- What the memory is after a line; `e` is the estimate, 0 without prediction. -/
theorem updLines_ok (active : Bool) (f : Int) (q : Nat → Int) (n i : Nat) (s : St) (e : Nat → Int) (hi : i + n ≤ 172)
    (hq : ∀ j, |q j| ≤ 2147483647) (he : ∀ j, i ≤ j → j < i + n → |e j| ≤ 65536 ∧ (active = true → s.est j = some (e j)) ∧
      (active = false → e j = 0)) :
    ∃ s', updLines active (scaleOf f) q n i s = .ok s' ∧ s'.est = s.est ∧ s'.coef = s.coef ∧ s'.t = s.t ∧
      (∀ j, i ≤ j → j < i + n → s'.p2 j = s.p1 j ∧ s'.p1 j = limit (value f (q j) + e j)) ∧
      (∀ j, j < i ∨ i + n ≤ j → s'.p1 j = s.p1 j ∧ s'.p2 j = s.p2 j) := by
  induction n generalizing i s with
  | zero => exact ⟨s, rfl, rfl, rfl, rfl, fun j _ _ => by omega, fun j _ => ⟨rfl, rfl⟩⟩
  | succ n ih =>
    obtain ⟨l1, l2⟩ := lineInt_ok (f := f) (hq i)
    obtain ⟨e1, e2, e3⟩ := he i (by omega) (by omega)
    have hx : addEst active (s.est i) (value f (q i)) = .ok (value f (q i) + e i) := by
      cases active with
      | true =>
        rw [e2 rfl]
        refine i32_ok ?_
        refine le_trans (abs_add_le _ _) ?_
        omega
      | false => rw [e3 rfl, add_zero]; rfl
    rw [updLines, l1, Res.ok_bind, inside_ok (by omega), Res.ok_bind, hx, Res.ok_bind, sat_limit]
    obtain ⟨s1, h1⟩ : ∃ s1 : St, s1 = { s with p2 := upd s.p2 i (s.p1 i), p1 := upd s.p1 i (limit (value f (q i) + e i)) } := ⟨_, rfl⟩
    rw [← h1]
    obtain ⟨s', hs', q1, q2, q3, q4, q5⟩ := ih (i + 1) s1 (by omega)
      (fun j hj hj' => by rw [h1]; exact he j (by omega) (by omega))
    refine ⟨s', hs', by rw [q1, h1], by rw [q2, h1], by rw [q3, h1], fun j hj hj' => ?_, fun j hj => ?_⟩
    · by_cases hji : j = i
      · subst hji
        obtain ⟨a1, a2⟩ := q5 j (by omega)
        rw [a1, a2, h1]
        simp [upd]
      · obtain ⟨a1, a2⟩ := q4 j (by omega) (by omega)
        rw [a1, a2, h1]
        simp [upd, hji]
    · obtain ⟨a1, a2⟩ := q5 j (by omega)
      have hji : j ≠ i := by omega
      rw [a1, a2, h1]
      simp [upd, hji]

/-! ## Bands -/

/-- The end of the first `k` bands. -/
def E (ends : List Nat) : Nat → Nat
  | 0 => 0
  | k + 1 => ends.getD k 0

theorem bandLo_ok {ends : List Nat} {sfb : Nat} (h : sfb ≤ ends.length) : bandLo ends sfb = .ok (E ends sfb) := by
  unfold bandLo
  cases sfb with
  | zero => rfl
  | succ k =>
    rw [if_neg (by omega), entry_getD_nat (by omega) (by omega)]
    have : (((k + 1 : Nat) : Int) - 1).toNat = k := by omega
    rw [this]; rfl

theorem bandHi_ok {ends : List Nat} {sfb : Nat} (h : sfb < ends.length) : entry ends (sfb : Int) = .ok (E ends (sfb + 1)) := by
  rw [entry_getD_nat (by omega) (by omega), Int.toNat_natCast]; rfl

theorem E_mono {ends : List Nat} {m : Nat} (hm : ∀ k < m, E ends k ≤ E ends (k + 1)) {a b : Nat} (hab : a ≤ b) (hb : b ≤ m) :
    E ends a ≤ E ends b := by
  induction b with
  | zero => have : a = 0 := by omega
            rw [this]
  | succ b ih =>
    rcases Nat.lt_or_ge a (b + 1) with h | h
    · exact le_trans (ih (by omega) (by omega)) (hm b (by omega))
    · have : a = b + 1 := by omega
      rw [this]

theorem bandLoop_ok {ends : List Nat} {sp : Nat} (hsp : sp = 0 ∨ 768 ≤ sp) (factors q : Nat → Int) (hq : ∀ j, |q j| ≤ 2147483647)
    (n sfb : Nat) (s : St) (hn : sfb + n ≤ ends.length) (hmono : ∀ k < sfb + n, E ends k ≤ E ends (k + 1))
    (hcap : E ends (sfb + n) ≤ 172) (ht : sp ≠ 0 → s.t = T sp (E ends sfb))
    (hm : ∀ j < 172, |s.p1 j| ≤ 31775 ∧ |s.p2 j| ≤ 31775) :
    ∃ s', bandLoop ends sp factors q n sfb (E ends sfb) s = .ok (E ends (sfb + n), s') ∧
      (∀ j, E ends sfb ≤ j → j < E ends (sfb + n) → ∃ b e, b < sfb + n ∧ E ends b ≤ j ∧ j < E ends (b + 1) ∧
        (sp = 0 → e = 0) ∧ (sp ≠ 0 → Estimate sp j (s.p1 j) (s.p2 j) e) ∧ s'.coef j = s.coef j + 512 * e ∧
        s'.p2 j = s.p1 j ∧ s'.p1 j = limit (value (factors b) (q j) + e)) ∧
      (∀ j, j < E ends sfb ∨ E ends (sfb + n) ≤ j → s'.coef j = s.coef j ∧ s'.p1 j = s.p1 j ∧ s'.p2 j = s.p2 j) := by
  induction n generalizing sfb s with
  | zero => exact ⟨s, rfl, fun j h1 h2 => by rw [Nat.add_zero] at h2; omega, fun j _ => ⟨rfl, rfl, rfl⟩⟩
  | succ n ih =>
    obtain ⟨lo, hlo⟩ : ∃ lo, lo = E ends sfb := ⟨_, rfl⟩
    obtain ⟨hi, hhi⟩ : ∃ hi, hi = E ends (sfb + 1) := ⟨_, rfl⟩
    have hlh : lo ≤ hi := by rw [hlo, hhi]; exact hmono sfb (by omega)
    have htop : hi ≤ E ends (sfb + 1 + n) := by
      rw [hhi]; exact E_mono (m := sfb + (n + 1)) hmono (by omega) (by omega)
    have hadd : sfb + (n + 1) = sfb + 1 + n := by omega
    rw [hadd] at hcap hmono
    have hc : hi ≤ 172 := by omega
    rw [bandLoop, (scale_ok _).1, Res.ok_bind, bandLo_ok (by omega), Res.ok_bind, bandHi_ok (by omega), Res.ok_bind, ← hlo, ← hhi]
    -- the estimates
    have hest : ∃ s1 : St, ∃ e : Nat → Int, (if sp ≠ 0 then estLines sp 512 (hi - lo) lo s else .ok s) = .ok s1 ∧ s1.p1 = s.p1 ∧
        s1.p2 = s.p2 ∧ (sp ≠ 0 → s1.t = T sp hi) ∧
        (∀ j, lo ≤ j → j < hi → (sp = 0 → e j = 0) ∧ (sp ≠ 0 → s1.est j = some (e j)) ∧
          (sp ≠ 0 → Estimate sp j (s.p1 j) (s.p2 j) (e j)) ∧ |e j| ≤ 65536 ∧ s1.coef j = s.coef j + 512 * e j) ∧
        (∀ j, j < lo ∨ hi ≤ j → s1.coef j = s.coef j) := by
      by_cases h0 : sp = 0
      · refine ⟨s, fun _ => 0, by rw [if_neg (by omega)], rfl, rfl, fun h => absurd h0 h,
          fun j _ _ => ⟨fun _ => rfl, fun h => absurd h0 h, fun h => absurd h0 h, by simp, by simp⟩, fun j _ => rfl⟩
      · rw [if_pos h0]
        obtain ⟨s1, g1, g2, g3, g4, g5, g6⟩ := estLines_ok (by omega : 768 ≤ sp) 512 (hi - lo) lo s (by omega)
          (by rw [hlo]; exact ht h0) hm
        rw [show lo + (hi - lo) = hi by omega] at g4 g5 g6
        refine ⟨s1, fun j => (s1.est j).getD 0, g1, g2, g3, fun _ => g4, fun j hj hj' => ?_, fun j hj => (g6 j hj).2⟩
        obtain ⟨e, a1, a2, a3, a4⟩ := g5 j hj hj'
        refine ⟨fun h => absurd h h0, fun _ => ?_, fun _ => ?_, ?_, ?_⟩
        · show s1.est j = some ((s1.est j).getD 0); rw [a1]; rfl
        · show Estimate sp j _ _ ((s1.est j).getD 0); rw [a1]; exact a2
        · show |(s1.est j).getD 0| ≤ _; rw [a1]; exact a3
        · show s1.coef j = s.coef j + 512 * ((s1.est j).getD 0 : Int); rw [a1]; exact a4
    obtain ⟨s1, e, g1, g2, g3, g4, g5, g6⟩ := hest
    rw [g1, Res.ok_bind]
    obtain ⟨s2, k1, k2, k3, k4, k5, k6⟩ := updLines_ok (decide (sp ≠ 0)) (factors sfb) q (hi - lo) lo s1 e (by omega) hq
      (fun j hj hj' => by
        obtain ⟨a1, a2, a3, a4, a5⟩ := g5 j hj (by omega)
        exact ⟨a4, fun h => a2 (of_decide_eq_true h), fun h => a1 (by simpa using h)⟩)
    rw [show lo + (hi - lo) = hi by omega] at k5 k6
    rw [k1, Res.ok_bind, show max lo hi = E ends (sfb + 1) by rw [← hhi]; omega]
    have hm2 : ∀ j < 172, |s2.p1 j| ≤ 31775 ∧ |s2.p2 j| ≤ 31775 := by
      intro j hj
      by_cases hin : lo ≤ j ∧ j < hi
      · obtain ⟨a1, a2⟩ := k5 j hin.1 hin.2
        rw [a1, a2, g2]
        exact ⟨limit_le _, (hm j hj).1⟩
      · obtain ⟨a1, a2⟩ := k6 j (by omega)
        rw [a1, a2, g2, g3]
        exact hm j hj
    obtain ⟨s', r1, r2, r3⟩ := ih (sfb + 1) s2 (by omega) hmono hcap (fun h => by rw [k4, g4 h, hhi]) hm2
    rw [hadd]
    rw [← hhi] at r2 r3
    refine ⟨s', r1, fun j hj hj' => ?_, fun j hj => ?_⟩
    · by_cases hin : j < hi
      · obtain ⟨a1, a2, a3, a4, a5⟩ := g5 j hj hin
        obtain ⟨b1, b2⟩ := k5 j hj hin
        obtain ⟨c1, c2, c3⟩ := r3 j (Or.inl hin)
        refine ⟨sfb, e j, by omega, by rw [← hlo]; exact hj, by rw [← hhi]; exact hin, a1, a3, ?_, ?_, ?_⟩
        · rw [c1, k3, a5]
        · rw [c3, b1, g2]
        · rw [c2, b2]
      · obtain ⟨b, e', c1, c2, c3, c4, c5, c6, c7, c8⟩ := r2 j (by omega) hj'
        obtain ⟨d1, d2⟩ := k6 j (by omega)
        rw [d1, d2, g2, g3] at c5
        rw [k3, g6 j (by omega)] at c6
        rw [d1, g2] at c7
        exact ⟨b, e', by omega, c2, c3, c4, c5, c6, c7, c8⟩
    · obtain ⟨c1, c2, c3⟩ := r3 j (by omega)
      obtain ⟨d1, d2⟩ := k6 j (by omega)
      rw [c1, c2, c3, d1, d2, k3, g6 j (by omega), g2, g3]
      exact ⟨rfl, rfl, rfl⟩

/-! ## Frames -/

/-- What is used of the band tables. -/
def Good (ends : List Nat) (bw : Nat) : Prop :=
  bw ≤ 172 ∧ (∀ k < ends.length, E ends k < E ends (k + 1)) ∧
    match enough ends bw 60 1 with
    | .ok n => 1 ≤ n ∧ n ≤ ends.length ∧ E ends n ≤ 172 ∧ bw ≤ E ends n
    | _ => False

instance (ends : List Nat) (bw : Nat) : Decidable (Good ends bw) := by
  unfold Good
  cases enough ends bw 60 1 <;> infer_instance

theorem good_table : ∀ i < 12, Good (Fd.bandTable.getD i ⟨[], []⟩).long (if 44100 ≤ freqTab.getD i 0 then 132 else 160) := by
  decide +kernel

theorem rateIndex_lt (rate : Nat) : Fd.rateIndex rate < 12 := by
  have := List.findIdx_le_length (xs := [92017, 75132, 55426, 46009, 37566, 27713, 23004, 18783, 13856, 11502, 9391])
    (p := fun b => decide (b ≤ rate))
  unfold Fd.rateIndex
  simp only [List.length_cons, List.length_nil] at this
  omega

theorem good (rate : Nat) : Good (Fd.bandsAt rate).long (bandwidth rate) := good_table _ (rateIndex_lt rate)

theorem spacings_ok {i : Int} (h0 : 0 ≤ i) (h : i < 256) : ∃ sp, spacings[i.toNat]? = some sp ∧ entry spacings i = .ok sp ∧ 768 ≤ sp := by
  have hl : i.toNat < spacings.length := by rw [show spacings.length = 256 by decide +kernel]; omega
  refine ⟨_, List.getElem?_eq_getElem hl, entry_nat h0 (List.getElem?_eq_getElem hl), ?_⟩
  have : ∀ x ∈ spacings, 768 ≤ x := by decide +kernel
  exact this _ (List.getElem_mem hl)

theorem band_of {ends : List Nat} {b j : Nat} (h1 : E ends b ≤ j) (h2 : j < E ends (b + 1)) : InBand ends b j := by
  have hb : b < ends.length := by
    by_contra hc
    have : E ends (b + 1) = 0 := by
      show ends.getD b 0 = 0
      rw [List.getD_eq_getElem?_getD, List.getElem?_eq_none (by omega)]; rfl
    omega
  refine ⟨?_, ends[b], List.getElem?_eq_getElem hb, ?_⟩
  · cases b with
    | zero => exact Or.inl rfl
    | succ k =>
      refine Or.inr ⟨ends[k]'(by omega), List.getElem?_eq_getElem (by omega), ?_⟩
      have : E ends (k + 1) = ends[k]'(by omega) := by
        show ends.getD k 0 = _
        rw [List.getD_eq_getElem?_getD, List.getElem?_eq_getElem (by omega)]; rfl
      omega
  · have : E ends (b + 1) = ends[b] := by
      show ends.getD b 0 = _
      rw [List.getD_eq_getElem?_getD, List.getElem?_eq_getElem hb]; rfl
    omega

theorem round_zero {e : Int} (h : Round 0 e) : e = 0 := by
  obtain ⟨h1, h2⟩ := h
  rw [sub_zero] at h1 h2
  rcases abs_cases (32768 * e) with ⟨h3, h4⟩ | ⟨h3, h4⟩ <;> omega

theorem estimate_zero {sp i : Nat} {e : Int} (h : Estimate sp i 0 0 e) : e = 0 := by
  rcases h with ⟨n, a, b, -, -, h⟩ | ⟨-, h⟩
  · rw [mul_zero, mul_zero, add_zero] at h; exact round_zero h
  · exact h

/-- The lines that are in the memory after a frame: none of short windows, otherwise those of the coded bands up to the prediction
bandwidth. -/
def kept (rate : Nat) (long : Bool) (maxSfb : Nat) : Nat :=
  if long then min (E (Fd.bandsAt rate).long maxSfb) (bandwidth rate) else 0

/-- Whether the prediction is used. -/
def used (rate : Nat) (long : Bool) (spacing : Int) (maxSfb : Nat) : Prop :=
  long = true ∧ bandwidth rate < E (Fd.bandsAt rate).long maxSfb ∧ 0 ≤ spacing ∧ spacing < 256

/-- The memory that a frame starts with. -/
def from_ (indep : Bool) (p : Nat → Int) : Nat → Int := fun j => if indep ∧ j < 172 then 0 else p j

theorem from_mem {bw : Nat} {indep : Bool} {p : Nat → Int} (h : Mem bw p) : Mem bw (from_ indep p) := by
  intro i hi
  unfold from_
  split
  · exact ⟨by decide, fun _ => rfl⟩
  · exact h i hi

theorem frame_ok (rate : Nat) (indep long : Bool) (factors q : Nat → Int) (spacing : Int) (maxSfb : Nat) (p1 p2 : Nat → Int) (coef : Nat → ℚ)
    (hq : ∀ j, |q j| ≤ 2147483647) (hmax : long = true → maxSfb ≤ (Fd.bandsAt rate).long.length)
    (h1 : Mem (bandwidth rate) p1) (h2 : Mem (bandwidth rate) p2) :
    ∃ p1' p2' coef', frame rate indep long factors q spacing maxSfb p1 p2 coef = .ok (p1', p2', coef') ∧
      (∀ j < kept rate long maxSfb, ∃ b e, InBand (Fd.bandsAt rate).long b j ∧ p2' j = from_ indep p1 j ∧
        p1' j = limit (value (factors b) (q j) + e) ∧ coef' j = coef j + 512 * e ∧ (¬ used rate long spacing maxSfb → e = 0) ∧
        (used rate long spacing maxSfb → ∃ sp, spacings[spacing.toNat]? = some sp ∧
          Estimate sp j (from_ indep p1 j) (from_ indep p2 j) e)) ∧
      (∀ j, kept rate long maxSfb ≤ j → coef' j = coef j ∧ (j < 172 → p1' j = 0 ∧ p2' j = 0)) := by
  obtain ⟨g1, g2, g3⟩ := good rate
  obtain ⟨bw, hbw⟩ : ∃ bw, bw = bandwidth rate := ⟨_, rfl⟩
  obtain ⟨ends, hends⟩ : ∃ ends, ends = (Fd.bandsAt rate).long := ⟨_, rfl⟩
  simp only [← hbw, ← hends] at g1 g2 g3 hmax h1 h2 ⊢
  have m1 : Mem bw (from_ indep p1) := from_mem h1
  have m2 : Mem bw (from_ indep p2) := from_mem h2
  -- the bands and the spacing
  have hcore : ∀ (n sp : Nat), (sp = 0 ∨ 768 ≤ sp) → n ≤ ends.length → E ends n ≤ 172 →
      min (E ends n) bw = kept rate long maxSfb → (sp ≠ 0 ↔ used rate long spacing maxSfb) →
      (sp ≠ 0 → spacings[spacing.toNat]? = some sp) →
      (∀ x, bandLoop (if long then ends else (Fd.bandsAt rate).short) sp factors q n 0 0 x = bandLoop ends sp factors q n 0 0 x) →
      ∃ r, bandLoop (if long then ends else (Fd.bandsAt rate).short) sp factors q n 0 0
          ⟨from_ indep p1, from_ indep p2, fun _ => none, coef, start⟩ = .ok r ∧
        (∀ j < kept rate long maxSfb, ∃ b e, InBand ends b j ∧ r.2.p2 j = from_ indep p1 j ∧
          r.2.p1 j = limit (value (factors b) (q j) + e) ∧ r.2.coef j = coef j + 512 * e ∧ (¬ used rate long spacing maxSfb → e = 0) ∧
          (used rate long spacing maxSfb → ∃ sp, spacings[spacing.toNat]? = some sp ∧
            Estimate sp j (from_ indep p1 j) (from_ indep p2 j) e)) ∧
        (∀ j, kept rate long maxSfb ≤ j → r.2.coef j = coef j) ∧ min r.1 bw = kept rate long maxSfb := by
    intro n sp hsp hn hcap hk hu hs hl
    obtain ⟨s', r1, r2, r3⟩ := bandLoop_ok (ends := ends) hsp factors q hq n 0 ⟨from_ indep p1, from_ indep p2, fun _ => none, coef, start⟩
      (by omega) (fun k hk => le_of_lt (g2 k (by omega))) (by rw [Nat.zero_add]; exact hcap) (fun _ => (T_zero sp).symm)
      (fun j hj => ⟨(m1 j hj).1, (m2 j hj).1⟩)
    rw [Nat.zero_add] at r1 r2 r3
    refine ⟨_, by rw [hl]; exact r1, fun j hj => ?_, fun j hj => ?_, hk⟩
    · obtain ⟨b, e, -, c2, c3, c4, c5, c6, c7, c8⟩ := r2 j (by show 0 ≤ j; omega) (by omega)
      refine ⟨b, e, band_of c2 c3, c7, c8, c6, fun h => c4 (by by_contra h0; exact h (hu.1 h0)), fun h => ⟨sp, hs (hu.2 h), c5 (hu.2 h)⟩⟩
    · by_cases hin : j < E ends n
      · obtain ⟨b, e, -, c2, c3, c4, c5, c6, c7, c8⟩ := r2 j (by show 0 ≤ j; omega) hin
        have he : e = 0 := by
          by_cases h0 : sp = 0
          · exact c4 h0
          · have := c5 h0
            have z1 : from_ indep p1 j = 0 := (m1 j (by omega)).2 (by omega)
            have z2 : from_ indep p2 j = 0 := (m2 j (by omega)).2 (by omega)
            change Estimate sp j (from_ indep p1 j) (from_ indep p2 j) e at this
            rw [z1, z2] at this
            exact estimate_zero this
        show s'.coef j = coef j
        rw [c6, he]
        simp
      · exact (r3 j (Or.inr (by omega))).1
  have hfin : ∀ (n sp : Nat), (if long && decide (0 < maxSfb) then do
      let top ← entry (if long then ends else (Fd.bandsAt rate).short) ((maxSfb : Int) - 1)
      if bw < top then do
        let n ← enough (if long then ends else (Fd.bandsAt rate).short) bw 60 1
        if 0 ≤ spacing ∧ spacing < 256 then do
          let sp ← entry spacings spacing
          .ok (n, sp)
        else .ok (n, 0)
      else .ok (maxSfb, 0)
    else .ok (0, 0)) = (.ok (n, sp) : Res (Nat × Nat)) → (sp = 0 ∨ 768 ≤ sp) → n ≤ ends.length → E ends n ≤ 172 →
      min (E ends n) bw = kept rate long maxSfb → (sp ≠ 0 ↔ used rate long spacing maxSfb) →
      (sp ≠ 0 → spacings[spacing.toNat]? = some sp) →
      (∀ x, bandLoop (if long then ends else (Fd.bandsAt rate).short) sp factors q n 0 0 x = bandLoop ends sp factors q n 0 0 x) →
      ∃ p1' p2' coef', frame rate indep long factors q spacing maxSfb p1 p2 coef = .ok (p1', p2', coef') ∧
      (∀ j < kept rate long maxSfb, ∃ b e, InBand ends b j ∧ p2' j = from_ indep p1 j ∧
        p1' j = limit (value (factors b) (q j) + e) ∧ coef' j = coef j + 512 * e ∧ (¬ used rate long spacing maxSfb → e = 0) ∧
        (used rate long spacing maxSfb → ∃ sp, spacings[spacing.toNat]? = some sp ∧
          Estimate sp j (from_ indep p1 j) (from_ indep p2 j) e)) ∧
      (∀ j, kept rate long maxSfb ≤ j → coef' j = coef j ∧ (j < 172 → p1' j = 0 ∧ p2' j = 0)) := by
    intro n sp hmode a1 a2 a3 a4 a5 a6 a7
    obtain ⟨r, b1, b2, b3, b4⟩ := hcore n sp a1 a2 a3 a4 a5 a6 a7
    have hfr : frame rate indep long factors q spacing maxSfb p1 p2 coef =
        .ok ((fun j => if min r.1 bw ≤ j ∧ j < 172 then 0 else r.2.p1 j), (fun j => if min r.1 bw ≤ j ∧ j < 172 then 0 else r.2.p2 j), r.2.coef) := by
      unfold frame decode
      rw [← hbw, ← hends, hmode, Res.ok_bind]
      change (do
        let r ← bandLoop (if long then ends else (Fd.bandsAt rate).short) sp factors q n 0 0
          ⟨from_ indep p1, from_ indep p2, fun _ => none, coef, start⟩
        _) = _
      rw [b1]
      rfl
    rw [b4] at hfr
    refine ⟨_, _, _, hfr, fun j hj => ?_, fun j hj => ⟨b3 j hj, fun h => ?_⟩⟩
    · obtain ⟨b, e, c1, c2, c3, c4, c5, c6⟩ := b2 j hj
      refine ⟨b, e, c1, ?_, ?_, c4, c5, c6⟩
      · show (if _ then _ else _) = _
        rw [if_neg (by omega)]; exact c2
      · show (if _ then _ else _) = _
        rw [if_neg (by omega)]; exact c3
    · exact ⟨if_pos ⟨hj, h⟩, if_pos ⟨hj, h⟩⟩
  have hkept : long = true → kept rate long maxSfb = min (E ends maxSfb) bw := fun hl => by
    unfold kept; rw [hl, if_pos rfl, ← hbw, ← hends]
  have hused : used rate long spacing maxSfb ↔ (long = true ∧ bw < E ends maxSfb ∧ 0 ≤ spacing ∧ spacing < 256) := by
    unfold used; rw [← hbw, ← hends]
  cases long with
  | false =>
    refine hfin 0 0 (by simp) (Or.inl rfl) (by omega) (by show (0 : Nat) ≤ 172; omega) ?_ ?_ (by simp) (fun x => rfl)
    · show min 0 bw = _; unfold kept; rw [if_neg (by decide)]; omega
    · rw [hused]; simp
  | true =>
    have hmax' := hmax rfl
    have hk := hkept rfl
    cases maxSfb with
    | zero =>
      refine hfin 0 0 (by simp) (Or.inl rfl) (by omega) (by show (0 : Nat) ≤ 172; omega) hk.symm ?_ (by simp) (fun x => rfl)
      · rw [hused]
        have : E ends 0 = 0 := rfl
        rw [this]; simp
    | succ m =>
      have htop : entry ends (((m + 1 : Nat) : Int) - 1) = .ok (E ends (m + 1)) := by
        rw [show (((m + 1 : Nat) : Int) - 1) = (m : Int) by push_cast; ring]
        exact bandHi_ok (by omega)
      by_cases hb : bw < E ends (m + 1)
      · cases hen : enough ends bw 60 1 with
        | ok n =>
          rw [hen] at g3
          obtain ⟨k1, k2, k3, k4⟩ := g3
          have hmin : min (E ends n) bw = kept rate true (m + 1) := by rw [hk]; omega
          by_cases hs : 0 ≤ spacing ∧ spacing < 256
          · obtain ⟨sp, t1, t2, t3⟩ := spacings_ok hs.1 hs.2
            refine hfin n sp ?_ (Or.inr t3) k2 k3 hmin ?_ (fun _ => t1) (fun x => rfl)
            · rw [if_pos (by simp), if_pos rfl, htop, Res.ok_bind, if_pos hb, hen, Res.ok_bind, if_pos hs, t2]; rfl
            · rw [hused]; exact ⟨fun _ => ⟨rfl, hb, hs.1, hs.2⟩, fun _ => by omega⟩
          · refine hfin n 0 ?_ (Or.inl rfl) k2 k3 hmin ?_ (by simp) (fun x => rfl)
            · rw [if_pos (by simp), if_pos rfl, htop, Res.ok_bind, if_pos hb, hen, Res.ok_bind, if_neg hs]
            · rw [hused]; exact ⟨fun h => absurd rfl h, fun h => absurd h.2.2 hs⟩
        | jump => rw [hen] at g3; exact absurd g3 (by simp)
        | err c => rw [hen] at g3; exact absurd g3 (by simp)
        | ub => rw [hen] at g3; exact absurd g3 (by simp)
      · refine hfin (m + 1) 0 ?_ (Or.inl rfl) hmax' (by omega) hk.symm ?_ (by simp) (fun x => rfl)
        · rw [if_pos (by simp), if_pos rfl, htop, Res.ok_bind, if_neg hb]
        · rw [hused]; exact ⟨fun h => absurd rfl h, fun h => absurd h.2.1 hb⟩

end Verif.Fdp
