import Verif.Model.Bpf
import Mathlib.Tactic.Ring
import Mathlib.Tactic.NormNum
import Mathlib.Tactic.Linarith

/-!
# The bass post filter

The filter takes the low-passed difference between the signal and its mean one pitch lag before and after
away from the signal of one subframe ago. The differences of the last subframe are kept, so that the
filter goes on over the borders of subframes and frames.
-/

namespace Verif.Props.Bpf

open Verif Verif.Bpf

/-! ## Specification -/

/-- The low pass filter with `d` coefficients on both sides. -/
noncomputable def low (d : ℕ) (h : ℕ → ℝ) (v : Sig) (k : ℤ) : ℝ :=
  h 0 * v k + ∑ j ∈ Finset.range d, h (j + 1) * (v (k - (j + 1 : ℕ)) + v (k + (j + 1 : ℕ)))

/-- The number of samples per subframe. -/
def width (two : Bool) : ℕ := if two then 128 else 64

/-- The number of coefficients on both sides. -/
def reach (two : Bool) : ℕ := if two then 25 else 12

/-- The difference between a signal and its mean `p` samples before and after, or, where there is no
sample `p` after, between the signal and what it was `p` samples before. -/
noncomputable def diff (v : Sig) (p : ℤ) (after : Prop) [Decidable after] (k : ℤ) : ℝ :=
  if after then v k - (v (k - p) + v (k + p)) / 2 else v k - v (k - p)

/-- The energy of `len` samples from `a` on, and a hundredth. -/
noncomputable def energy (v : Sig) (a : ℤ) (len : ℕ) : ℝ :=
  1 / 100 + ∑ i ∈ Finset.range len, v (a + i) ^ 2

/-- The 160 samples from 96 samples before a subframe are similar to those `q` samples before. -/
def Similar (v : Sig) (a q : ℤ) : Prop :=
  95 / 100 * Real.sqrt (energy v (a - 96) 160 * energy v (a - 96 - q) 160) <
    1 / 100 + ∑ i ∈ Finset.range 160, v (a - 96 + i) * v (a - 96 - q + i)

/-- How many of the 64 samples from `a` on have a sample `p` after them before `e`. -/
def followed (a p e : ℤ) : ℕ := ((Finset.range 64).filter fun i => a + (i : ℕ) + p < e).card

/-- `nu` is what is taken away before the low pass filter: at negative places what was kept, in subframe
`m` the difference times half the gain. Half the lag is used when that is similar enough; the gain is at
most 1 and at most the root of the ratio of the energies. -/
structure Differences (two : Bool) (s v : Sig) (n : ℕ) (len2 : ℤ) (pitch : ℕ → ℕ) (gain : ℕ → ℝ)
    (prev : ℕ → ℝ) (nu : Sig) : Prop where
  past : ∀ i < reach two + width two, nu ((i : ℤ) - (reach two + width two : ℕ)) = prev i
  now : ∀ m < n, ∃ p : ℕ, ∃ c : ℝ,
    (Similar s (64 * m : ℕ) (pitch m / 2 : ℕ) → p = pitch m / 2) ∧
    (¬ Similar s (64 * m : ℕ) (pitch m / 2 : ℕ) → p = pitch m) ∧
    (gain m ≤ 0 → c = 0) ∧
    (0 < gain m → followed (64 * m : ℕ) p ((64 * n : ℕ) + len2) = 0 → c = min 1 (gain m) / 2) ∧
    (0 < gain m → 0 < followed (64 * m : ℕ) p ((64 * n : ℕ) + len2) →
      c = min (min 1 (gain m)) (Real.sqrt
        (energy s (64 * m : ℕ) (followed (64 * m : ℕ) p ((64 * n : ℕ) + len2)) /
          energy s ((64 * m : ℕ) + p) (followed (64 * m : ℕ) p ((64 * n : ℕ) + len2)))) / 2) ∧
    ∀ i < width two, nu ((width two * m + i : ℕ) : ℤ) =
      c * diff v ((if two then 2 else 1) * p)
        (((64 * m + i / (if two then 2 else 1) : ℕ) : ℤ) + p < (64 * n : ℕ) + len2)
        ((width two * m + i : ℕ) : ℤ)

/-! ## The loop over the subframes -/

/-- The signal of the specification for a frame. -/
noncomputable def nuOf (fac : ℕ) (s sl : Sig) (lenFr : ℕ) (len2 : ℤ) (pitch : ℕ → ℕ) (gain : ℕ → ℝ)
    (prev : ℕ → ℝ) : Sig := fun k =>
  if k < 0 then prev (k + hist fac).toNat
  else
    let m := k.toNat / (fac * 64)
    let p := lagOf s (64 * m) (pitch m)
    noise fac s sl (64 * m) p (lgOf lenFr len2 p (64 * m)) (clip (gain m)) (k.toNat % (fac * 64))

theorem fir_low (d : ℕ) (h b : ℕ → ℝ) (v : Sig) (q : ℕ) (o : ℤ) (hq : d ≤ q)
    (hb : ∀ i, q - d ≤ i → i ≤ q + d → b i = v (i + o)) : fir d h b q = low d h v (q + o) := by
  unfold fir low
  rw [hb q (by omega) (by omega)]
  congr 1
  refine Finset.sum_congr rfl fun j hj => ?_
  rw [Finset.mem_range] at hj
  rw [hb (q - (j + 1)) (by omega) (by omega), hb (q + (j + 1)) (by omega) (by omega)]
  congr 3
  · push_cast [Nat.cast_sub (show j + 1 ≤ q by omega)]; ring
  · push_cast; ring

/-- What holds after `m` subframes. -/
structure LoopInv (fac : ℕ) (h : ℕ → ℝ) (v : Sig) (o : ℕ → ℝ) (m : ℕ) (st : St) : Prop where
  prev : ∀ i < hist fac, st.prev i = v ((fac * 64 * m + i : ℕ) - (hist fac : ℤ))
  buf : 0 < m → ∀ i < hist fac + fac * 64,
    st.buf i = v ((fac * 64 * (m - 1) + i : ℕ) - (hist fac : ℤ))
  out : ∀ k < fac * 64 * m, st.out k = o k - low (taps fac) h v ((k : ℤ) - (fac * 64 : ℕ))
  rest : ∀ k, fac * 64 * m ≤ k → st.out k = o k

theorem steps_inv (fac : ℕ) (hfac : 0 < fac) (h : ℕ → ℝ) (s sl : Sig) (lenFr : ℕ) (len2 : ℤ)
    (pitch : ℕ → ℕ) (gain prev buf out : ℕ → ℝ) (m : ℕ) (st : St)
    (hst : steps fac h s sl lenFr len2 pitch gain m ⟨prev, buf, out⟩ = .ok st) :
    LoopInv fac h (nuOf fac s sl lenFr len2 pitch gain prev) out m st := by
  induction m generalizing st with
  | zero =>
    unfold steps at hst
    injection hst with hst
    subst hst
    refine ⟨fun i hi => ?_, fun h0 => by omega, fun k hk => by omega, fun k _ => rfl⟩
    unfold nuOf
    rw [if_pos (by push_cast; omega)]
    show prev i = _
    congr 1
    omega
  | succ m ih =>
    unfold steps at hst
    cases h1 : steps fac h s sl lenFr len2 pitch gain m ⟨prev, buf, out⟩ with
    | jump => rw [h1] at hst; exact absurd hst (by simp [Res.bind])
    | err c => rw [h1] at hst; exact absurd hst (by simp [Res.bind])
    | ub => rw [h1] at hst; exact absurd hst (by simp [Res.bind])
    | ok st1 =>
      rw [h1] at hst
      have I := ih st1 h1
      replace hst : step fac h s sl lenFr len2 pitch gain m st1 = .ok st := hst
      unfold step at hst
      simp only at hst
      split at hst
      · exact absurd hst (by simp)
      injection hst with hst
      set v := nuOf fac s sl lenFr len2 pitch gain prev with hv
      generalize hb : (fun i => if i < hist fac then st1.prev i
        else if i < hist fac + fac * 64 then
          noise fac s sl (64 * m) (lagOf s (64 * m) (pitch m))
            (lgOf lenFr len2 (lagOf s (64 * m) (pitch m)) (64 * m)) (clip (gain m)) (i - hist fac)
        else st1.buf i) = b at hst
      have e64 : fac * (64 * m) = fac * 64 * m := by ring
      have es : fac * 64 * (m + 1) = fac * 64 * m + fac * 64 := by ring
      have hbv : ∀ i < hist fac + fac * 64, b i = v ((fac * 64 * m + i : ℕ) - (hist fac : ℤ)) := by
        intro i hi
        rw [← hb]
        simp only
        by_cases hc : i < hist fac
        · rw [if_pos hc, I.prev i hc]
        · rw [if_neg hc, if_pos hi, hv]
          unfold nuOf
          have e1 : ((fac * 64 * m + i : ℕ) - (hist fac : ℤ)).toNat = fac * 64 * m + (i - hist fac) := by
            omega
          have e2 : (fac * 64 * m + (i - hist fac)) / (fac * 64) = m := by
            rw [Nat.mul_add_div (by omega), Nat.div_eq_of_lt (by omega), Nat.add_zero]
          have e3 : (fac * 64 * m + (i - hist fac)) % (fac * 64) = i - hist fac := by
            rw [Nat.mul_add_mod, Nat.mod_eq_of_lt (by omega)]
          rw [if_neg (by omega)]
          simp only [e1, e2, e3]
      have ht : taps fac + fac * 64 = hist fac := rfl
      have htap : taps fac ≤ fac * 64 := by unfold taps; omega
      subst hst
      refine ⟨fun i hi => ?_, fun _ i hi => ?_, fun k hk => ?_, fun k hk => ?_⟩
      · have hbi := hbv (fac * 64 + i) (by omega)
        rw [← hb] at hbi
        simp only at hbi
        simp only [if_pos hi]
        rw [hbi]
        congr 1
        push_cast
        ring
      · simp only [Nat.add_sub_cancel]
        exact hbv i hi
      · simp only [e64]
        rw [es] at hk
        by_cases hc : fac * 64 * m ≤ k
        · rw [if_pos ⟨hc, hk⟩, I.rest k hc]
          congr 1
          rw [fir_low (taps fac) h b v (taps fac + (k - fac * 64 * m))
            ((fac * 64 * m : ℕ) - (hist fac : ℤ)) (by omega)]
          · congr 1
            omega
          · intro i h1 h2
            rw [hbv i (by omega)]
            congr 1
            omega
        · rw [if_neg (by omega), I.out k (by omega)]
      · simp only [e64]
        rw [es] at hk
        rw [if_neg (by omega), I.rest k (by omega)]

theorem card_below (k : ℕ) (hk : k ≤ 64) : ((Finset.range 64).filter fun i => i < k).card = k := by
  have : (Finset.range 64).filter (fun i => i < k) = Finset.range k := by
    ext i
    simp only [Finset.mem_filter, Finset.mem_range]
    omega
  rw [this, Finset.card_range]

theorem lgOf_eq (lenFr : ℕ) (len2 : ℤ) (p num : ℕ) :
    lgOf lenFr len2 p num = followed num p ((lenFr : ℤ) + len2) := by
  unfold followed
  rw [← card_below (lgOf lenFr len2 p num) (by unfold lgOf; omega)]
  congr 1
  ext i
  simp only [Finset.mem_filter, Finset.mem_range]
  unfold lgOf
  omega

theorem lt_lgOf (lenFr : ℕ) (len2 : ℤ) (p num i : ℕ) (hi : i < 64) :
    i < lgOf lenFr len2 p num ↔ ((num + i : ℕ) : ℤ) + p < (lenFr : ℤ) + len2 := by
  unfold lgOf
  omega

theorem energy_pos (v : Sig) (a : ℤ) (len : ℕ) : 0 < energy v a len := by
  unfold energy
  have : 0 ≤ ∑ i ∈ Finset.range len, v (a + i) ^ 2 := Finset.sum_nonneg fun i _ => sq_nonneg _
  linarith

theorem corr_similar (s : Sig) (num lag : ℕ) :
    95 / 100 < corr s num lag ↔ Similar s num (lag / 2 : ℕ) := by
  have h1 := energy_pos s ((num : ℤ) - 96) 160
  have h2 := energy_pos s ((num : ℤ) - 96 - (lag / 2 : ℕ)) 160
  have e : corr s num lag = (1 / 100 + ∑ i ∈ Finset.range 160,
      s ((num : ℤ) - 96 + i) * s ((num : ℤ) - 96 - (lag / 2 : ℕ) + i)) /
      Real.sqrt (energy s ((num : ℤ) - 96) 160 * energy s ((num : ℤ) - 96 - (lag / 2 : ℕ)) 160) := by
    unfold corr energy
    simp only [sq]
    have : ∀ i : ℕ, (num : ℤ) - (lag / 2 : ℕ) - 96 + i = (num : ℤ) - 96 - (lag / 2 : ℕ) + i := by
      intro i
      ring
    simp only [this]
  rw [e, lt_div_iff₀ (Real.sqrt_pos.mpr (mul_pos h1 h2))]
  rfl

theorem clip_pos (g : ℝ) : 0 < clip g ↔ 0 < g := by
  unfold clip
  constructor
  · intro h
    rcases lt_max_iff.mp h with h | h
    · exact absurd h (lt_irrefl _)
    · exact lt_of_lt_of_le h (min_le_right _ _)
  · intro h
    exact lt_max_of_lt_right (lt_min (by norm_num) h)

theorem clip_eq (g : ℝ) (h : 0 < g) : clip g = min 1 g := by
  unfold clip
  exact max_eq_right (lt_min (by norm_num) h).le

theorem differences (two : Bool) (s fb : Sig) (n : ℕ) (len2 : ℤ) (pitch : ℕ → ℕ)
    (gain prev : ℕ → ℝ) : Differences two s (if two then fb else s) n len2 pitch gain prev
      (nuOf (if two then 2 else 1) s (if two then fb else s) (64 * n) len2 pitch gain prev) := by
  have hw : (if two then 2 else 1) * 64 = width two := by cases two <;> rfl
  have hh : hist (if two then 2 else 1) = reach two + width two := by cases two <;> rfl
  constructor
  · intro i hi
    unfold nuOf
    rw [if_pos (by omega), hh]
    congr 1
    omega
  · intro m _
    generalize hsl : (if two = true then fb else s) = sl
    have hfz : (if two = true then 2 else 1 : ℤ) = ((if two = true then 2 else 1 : ℕ) : ℤ) := by
      split <;> rfl
    rw [hfz]
    generalize hfac : (if two = true then 2 else 1 : ℕ) = fac at *
    have hfp : 0 < fac := by rw [← hfac]; split <;> omega
    generalize hp : lagOf s (64 * m) (pitch m) = p
    have hlg : lgOf (64 * n) len2 p (64 * m) = followed (64 * m : ℕ) p ((64 * n : ℕ) + len2) :=
      lgOf_eq _ _ _ _
    have key : ∀ i < width two, nuOf fac s sl (64 * n) len2 pitch gain prev ((width two * m + i : ℕ) : ℤ) =
        noise fac s sl (64 * m) p (lgOf (64 * n) len2 p (64 * m)) (clip (gain m)) i := by
      intro i hi
      unfold nuOf
      have e2 : (width two * m + i) / width two = m := by
        rw [Nat.mul_add_div (by omega), Nat.div_eq_of_lt (by omega), Nat.add_zero]
      have e3 : (width two * m + i) % width two = i := by
        rw [Nat.mul_add_mod, Nat.mod_eq_of_lt (by omega)]
      rw [if_neg (by omega)]
      simp only [Int.toNat_natCast, hw, e2, e3, hp]
    have hk : ∀ i : ℕ, ((width two * m + i : ℕ) : ℤ) = (i : ℤ) + fac * (64 * m : ℕ) := by
      intro i
      rw [← hw]
      push_cast
      ring
    refine ⟨p, if 0 < gain m then
      limited s (64 * m) p (lgOf (64 * n) len2 p (64 * m)) (clip (gain m)) / 2 else 0, ?_, ?_, ?_, ?_, ?_, ?_⟩
    · intro hs
      rw [← hp]
      unfold lagOf
      rw [if_pos ((corr_similar s (64 * m) (pitch m)).mpr hs)]
    · intro hs
      rw [← hp]
      unfold lagOf
      rw [if_neg (fun hc => hs ((corr_similar s (64 * m) (pitch m)).mp hc))]
    · intro hg
      rw [if_neg (not_lt.mpr hg)]
    · intro hg h0
      rw [if_pos hg, hlg, h0]
      unfold limited
      rw [if_neg (by omega), clip_eq _ hg]
    · intro hg h0
      rw [if_pos hg, hlg]
      unfold limited
      rw [if_pos h0, clip_eq _ hg, min_comm]
      unfold energy
      simp only [sq]
      congr 5
      · refine Finset.sum_congr rfl fun i _ => ?_
        rw [add_comm (i : ℤ)]
      · refine Finset.sum_congr rfl fun i _ => ?_
        rw [show (i : ℤ) + ((64 * m : ℕ) : ℤ) + p = ((64 * m : ℕ) : ℤ) + p + i by ring]
    · intro i hi
      rw [key i hi, hk i]
      unfold noise
      have hdiv : i / fac < 64 := by
        apply Nat.div_lt_of_lt_mul
        omega
      have hiff : i < fac * lgOf (64 * n) len2 p (64 * m) ↔
          ((64 * m + i / fac : ℕ) : ℤ) + p < (64 * n : ℕ) + len2 := by
        rw [← lt_lgOf (64 * n) len2 p (64 * m) (i / fac) hdiv, Nat.div_lt_iff_lt_mul hfp, Nat.mul_comm]
      by_cases hg : 0 < gain m
      · rw [if_pos ((clip_pos _).mpr hg), if_pos hg]
        simp only
        unfold diff
        by_cases hc : i < fac * lgOf (64 * n) len2 p (64 * m)
        · rw [if_pos hc, if_pos (hiff.mp hc)]
          ring
        · rw [if_neg hc, if_neg (fun h => hc (hiff.mpr h))]
          ring
      · rw [if_neg (fun h => hg ((clip_pos _).mp h)), if_neg hg, zero_mul]

/-! ## The whole filter -/

theorem filter_eq (two : Bool) (h : ℕ → ℝ) (s fb : Sig) (pitch : ℕ → ℕ) (gain : ℕ → ℝ) (n : ℕ) (len2 : ℤ)
    (prev old prev' out : ℕ → ℝ)
    (hok : filter two h s fb pitch gain (64 * n) len2 prev old = .ok (prev', out)) :
    let v : Sig := if two then fb else s
    let nu := nuOf (if two then 2 else 1) s v (64 * n) len2 pitch gain prev
    (∀ k < width two * n, out k = v (k - width two) - low (reach two) h nu (k - width two)) ∧
    (∀ i < reach two + width two,
      prev' i = nu ((width two * n + i : ℕ) - (reach two + width two : ℕ))) ∧
    ∃ b : ℕ → ℝ, (0 < n → ∀ i < reach two + width two + width two,
        b i = nu ((width two * (n - 1) + i : ℕ) - (reach two + width two : ℕ))) ∧
      ∀ j < 3, out (width two * n + j) = v ((width two * n + j : ℕ) - (width two : ℤ)) -
        ahead (if two then 2 else 1) h b (reach two + (j + width two)) (reach two) := by
  intro v nu
  have hw : (if two then 2 else 1) * 64 = width two := by cases two <;> rfl
  have hh : hist (if two then 2 else 1) = reach two + width two := by cases two <;> rfl
  have ht : taps (if two then 2 else 1) = reach two := by cases two <;> rfl
  have hwp : 0 < width two := by cases two <;> decide
  unfold filter at hok
  simp only at hok
  generalize hfac : (if two = true then 2 else 1 : ℕ) = fac at *
  have hfp : 0 < fac := by rw [← hfac]; split <;> omega
  generalize ho : (fun k : ℕ => if k < fac * (64 * n) then (if two = true then fb else s) ((k : ℤ) - fac * 64)
    else if 64 * n % 64 ≠ 0 ∧ k < fac * (64 * n) + fac * (64 - 64 * n % 64) then 0 else old k) = o at hok
  have e0 : (64 * n + 63) / 64 = n := by omega
  rw [e0] at hok
  cases h1 : steps fac h s (if two = true then fb else s) (64 * n) len2 pitch gain n
      ⟨prev, fun _ => 0, o⟩ with
  | jump => rw [h1] at hok; exact absurd hok (by simp [Res.bind])
  | err c => rw [h1] at hok; exact absurd hok (by simp [Res.bind])
  | ub => rw [h1] at hok; exact absurd hok (by simp [Res.bind])
  | ok st =>
    rw [h1] at hok
    simp only [Res.bind] at hok
    injection hok with hok
    injection hok with q1 q2
    have I := steps_inv fac hfp h s (if two = true then fb else s) (64 * n) len2 pitch gain prev _ o n st h1
    have ef : fac * (64 * n) = width two * n := by rw [← hw]; ring
    have hwz : (fac : ℤ) * 64 = width two := by rw [← hw]; push_cast; rfl
    have hnu : nuOf fac s v (64 * n) len2 pitch gain prev = nu := by rw [← hfac]
    refine ⟨fun k hk => ?_, fun i hi => ?_, st.buf, fun hn i hi => ?_, fun j hj => ?_⟩
    · rw [← q2]
      simp only [ef]
      rw [if_neg (by omega), I.out k (by rw [hw]; exact hk), ← ho, ht, hw]
      simp only
      rw [ef, if_pos hk, hwz, ← hnu]
    · rw [← q1, I.prev i (by rw [hh]; exact hi), hh, hw, ← hnu]
    · rw [I.buf hn i (by rw [hh, hw]; exact hi), hh, hw, ← hnu]
    · rw [← q2]
      simp only [ef]
      rw [if_pos (by omega), hwz, ht, hw]
      congr 2
      omega

/-- C337: the samples of a frame are the signal one subframe ago less the low-passed differences, and the
differences that the next frame needs are kept. -/
theorem C337_filtered (two : Bool) (h : ℕ → ℝ) (s fb : Sig) (pitch : ℕ → ℕ) (gain : ℕ → ℝ) (n : ℕ)
    (len2 : ℤ) (prev old prev' out : ℕ → ℝ)
    (hok : filter two h s fb pitch gain (64 * n) len2 prev old = .ok (prev', out)) :
    ∃ nu : Sig, Differences two s (if two then fb else s) n len2 pitch gain prev nu ∧
      (∀ k < width two * n, out k =
        (if two then fb else s) (k - width two) - low (reach two) h nu (k - width two)) ∧
      ∀ i < reach two + width two,
        prev' i = nu ((width two * n + i : ℕ) - (reach two + width two : ℕ)) := by
  obtain ⟨h1, h2, -⟩ := filter_eq two h s fb pitch gain n len2 prev old prev' out hok
  exact ⟨_, differences two s fb n len2 pitch gain prev, h1, h2⟩

/-! ## When the filter accepts a frame -/

theorem steps_ok (fac : ℕ) (h : ℕ → ℝ) (s sl : Sig) (lenFr : ℕ) (len2 : ℤ) (pitch : ℕ → ℕ)
    (gain : ℕ → ℝ) (m : ℕ) (st : St) (hp : ∀ i < m, pitch i / 2 + 96 ≤ 411 + 64 * i) :
    ∃ st', steps fac h s sl lenFr len2 pitch gain m st = .ok st' := by
  induction m with
  | zero => exact ⟨st, rfl⟩
  | succ m ih =>
    obtain ⟨st1, h1⟩ := ih fun i hi => hp i (by omega)
    unfold steps
    rw [h1]
    show ∃ st', step fac h s sl lenFr len2 pitch gain m st1 = .ok st'
    unfold step
    simp only
    have := hp m (by omega)
    rw [if_neg (by unfold maxPitch; push_cast; omega)]
    exact ⟨_, rfl⟩

/-- C337: all frames with half lags up to 315 are accepted. -/
theorem C337_accepted (two : Bool) (h : ℕ → ℝ) (s fb : Sig) (pitch : ℕ → ℕ) (gain : ℕ → ℝ) (n : ℕ)
    (len2 : ℤ) (prev old : ℕ → ℝ) (hp : ∀ i < n, pitch i / 2 + 96 ≤ 411 + 64 * i) :
    ∃ prev' out, filter two h s fb pitch gain (64 * n) len2 prev old = .ok (prev', out) := by
  unfold filter
  simp only
  have e0 : (64 * n + 63) / 64 = n := by omega
  rw [e0]
  obtain ⟨st, h1⟩ := steps_ok (if two then 2 else 1) h s (if two then fb else s) (64 * n) len2 pitch gain n
    ⟨prev, fun _ => 0, fun k : ℕ =>
      if k < (if two then 2 else 1) * (64 * n) then
        (if two then fb else s) ((k : ℤ) - ((if two then 2 else 1 : ℕ) : ℤ) * 64)
      else if 64 * n % 64 ≠ 0 ∧ k < (if two then 2 else 1) * (64 * n) +
        (if two then 2 else 1) * (64 - 64 * n % 64) then 0 else old k⟩ hp
  rw [h1]
  exact ⟨_, _, rfl⟩

theorem steps_refused (fac : ℕ) (h : ℕ → ℝ) (s sl : Sig) (lenFr : ℕ) (len2 : ℤ) (pitch : ℕ → ℕ)
    (gain : ℕ → ℝ) (m : ℕ) (st : St) (i : ℕ) (hi : i < m) (hp : 411 + 64 * i < pitch i / 2 + 96) :
    steps fac h s sl lenFr len2 pitch gain m st = .err (.other 0xFFFF980A) := by
  induction m generalizing i with
  | zero => omega
  | succ m ih =>
    unfold steps
    by_cases ho : ∀ j < m, pitch j / 2 + 96 ≤ 411 + 64 * j
    · obtain ⟨st1, h1⟩ := steps_ok fac h s sl lenFr len2 pitch gain m st ho
      have him : i = m := by
        by_contra hne
        have := ho i (by omega)
        omega
      subst him
      rw [h1]
      show step fac h s sl lenFr len2 pitch gain i st1 = _
      unfold step
      simp only
      rw [if_pos (by unfold maxPitch; push_cast; omega)]
    · push Not at ho
      obtain ⟨j, hj, hj'⟩ := ho
      rw [ih j hj hj']
      rfl

/-- C337: frames with other lags are refused. -/
theorem C337_refused (two : Bool) (h : ℕ → ℝ) (s fb : Sig) (pitch : ℕ → ℕ) (gain : ℕ → ℝ) (n : ℕ)
    (len2 : ℤ) (prev old : ℕ → ℝ) (i : ℕ) (hi : i < n) (hp : 411 + 64 * i < pitch i / 2 + 96) :
    filter two h s fb pitch gain (64 * n) len2 prev old = .err (.other 0xFFFF980A) := by
  unfold filter
  simp only
  have e0 : (64 * n + 63) / 64 = n := by omega
  rw [e0, steps_refused _ h s _ (64 * n) len2 pitch gain n _ i hi hp]
  rfl

/-! ## Signals that pass unchanged -/

theorem low_zero (d : ℕ) (h : ℕ → ℝ) (v : Sig) (k : ℤ) (hv : ∀ j : ℤ, k - d ≤ j → j ≤ k + d → v j = 0) :
    low d h v k = 0 := by
  unfold low
  rw [hv k (by omega) (by omega), mul_zero, zero_add]
  refine Finset.sum_eq_zero fun j hj => ?_
  rw [Finset.mem_range] at hj
  rw [hv _ (by push_cast; omega) (by push_cast; omega), hv _ (by push_cast; omega) (by push_cast; omega)]
  ring

theorem unchanged (two : Bool) (h : ℕ → ℝ) (s v : Sig) (len2 : ℤ) (pitch : ℕ → ℕ) (gain : ℕ → ℝ) (n : ℕ)
    (prev prev' out : ℕ → ℝ) (nu : Sig) (hd : Differences two s v n len2 pitch gain prev nu)
    (hprev : ∀ i < reach two + width two, prev i = 0)
    (hnow : ∀ m < n, ∀ i < width two, nu ((width two * m + i : ℕ) : ℤ) = 0)
    (h1 : ∀ k < width two * n, out k = v (k - width two) - low (reach two) h nu (k - width two))
    (h2 : ∀ i < reach two + width two,
        prev' i = nu ((width two * n + i : ℕ) - (reach two + width two : ℕ))) :
    (∀ k < width two * n, out k = v (k - width two)) ∧ ∀ i < reach two + width two, prev' i = 0 := by
  have hz : ∀ j : ℤ, -(reach two + width two : ℕ) ≤ j → j < (width two * n : ℕ) → nu j = 0 := by
    intro j hj1 hj2
    by_cases hn : j < 0
    · have := hd.past (j + (reach two + width two : ℕ)).toNat (by omega)
      rw [hprev _ (by omega)] at this
      rw [← this]
      congr 1
      omega
    · obtain ⟨k, rfl⟩ := Int.eq_ofNat_of_zero_le (Int.not_lt.mp hn)
      have hk : k < width two * n := by exact_mod_cast hj2
      have hw : 0 < width two := by cases two <;> decide
      have := hnow (k / width two) (Nat.div_lt_of_lt_mul hk) (k % width two) (Nat.mod_lt _ hw)
      rwa [Nat.div_add_mod] at this
  have hr : reach two < width two := by cases two <;> decide
  constructor
  · intro k hk
    rw [h1 k hk, low_zero, sub_zero]
    intro j hj1 hj2
    exact hz j (by omega) (by omega)
  · intro i hi
    rw [h2 i hi]
    exact hz _ (by omega) (by omega)

/-- C338: without gain, and without differences that were kept, the signal passes unchanged, one subframe
late. -/
theorem C338_off (two : Bool) (h : ℕ → ℝ) (s fb : Sig) (pitch : ℕ → ℕ) (gain : ℕ → ℝ) (n : ℕ)
    (len2 : ℤ) (prev old prev' out : ℕ → ℝ) (hg : ∀ m < n, gain m ≤ 0)
    (hprev : ∀ i < reach two + width two, prev i = 0)
    (hok : filter two h s fb pitch gain (64 * n) len2 prev old = .ok (prev', out)) :
    (∀ k < width two * n, out k = (if two then fb else s) (k - width two)) ∧
      ∀ i < reach two + width two, prev' i = 0 := by
  obtain ⟨nu, hd, h1, h2⟩ := C337_filtered two h s fb pitch gain n len2 prev old prev' out hok
  refine unchanged two h s _ len2 pitch gain n prev prev' out nu hd hprev (fun m hm i hi => ?_) h1 h2
  obtain ⟨p, c, -, -, hc, -, -, hi'⟩ := hd.now m hm
  rw [hi' i hi, hc (hg m hm), zero_mul]

theorem diff_zero (v : Sig) (p : ℤ) (after : Prop) [Decidable after] (k : ℤ) (h1 : v (k + p) = v k)
    (h2 : v k = v (k - p)) : diff v p after k = 0 := by
  unfold diff
  split
  · rw [h1, ← h2]
    ring
  · rw [h2, sub_self]

/-- C339: a signal that repeats with the pitch lag and with half of it passes unchanged, whatever the
gains. -/
theorem C339_periodic (two : Bool) (h : ℕ → ℝ) (s fb : Sig) (pitch : ℕ → ℕ) (gain : ℕ → ℝ) (n : ℕ)
    (len2 : ℤ) (prev old prev' out : ℕ → ℝ)
    (hv : ∀ m < n, ∀ p, (p = pitch m ∨ p = pitch m / 2) → ∀ k : ℤ,
      (if two then fb else s) (k + (if two then 2 else 1) * p) = (if two then fb else s) k)
    (hprev : ∀ i < reach two + width two, prev i = 0)
    (hok : filter two h s fb pitch gain (64 * n) len2 prev old = .ok (prev', out)) :
    (∀ k < width two * n, out k = (if two then fb else s) (k - width two)) ∧
      ∀ i < reach two + width two, prev' i = 0 := by
  obtain ⟨nu, hd, h1, h2⟩ := C337_filtered two h s fb pitch gain n len2 prev old prev' out hok
  refine unchanged two h s _ len2 pitch gain n prev prev' out nu hd hprev (fun m hm i hi => ?_) h1 h2
  obtain ⟨p, c, p1, p2, -, -, -, hi'⟩ := hd.now m hm
  have hp : p = pitch m ∨ p = pitch m / 2 := by
    by_cases hs : Similar s (64 * m : ℕ) (pitch m / 2 : ℕ)
    · exact Or.inr (p1 hs)
    · exact Or.inl (p2 hs)
  rw [hi' i hi]
  generalize ((width two * m + i : ℕ) : ℤ) = k
  have e1 := hv m hm p hp k
  have e2 := hv m hm p hp (k - (if two then 2 else 1) * p)
  rw [sub_add_cancel] at e2
  rw [diff_zero _ _ _ k e1 e2, mul_zero]

/-! ## The look-ahead -/

theorem ahead_one (h b : ℕ → ℝ) (q d : ℕ) : ahead 1 h b q d = fir d h b q := by
  unfold fir
  induction d with
  | zero => simp [ahead]
  | succ d ih =>
    rw [Finset.sum_range_succ]
    simp only [ahead, Nat.cast_one, mul_one]
    rw [ih]
    ring

/-- C340: without a full band part the three samples written ahead are those that the next frame writes,
when its signal goes on where this one ends. -/
theorem C340_ahead_partial (h : ℕ → ℝ) (s s' fb fb' : Sig) (pitch pitch' : ℕ → ℕ) (gain gain' : ℕ → ℝ)
    (n n' : ℕ) (hn : 0 < n) (hn' : 0 < n') (len2 len2' : ℤ) (prev old prev' old' out prev'' out' : ℕ → ℝ)
    (h1 : filter false h s fb pitch gain (64 * n) len2 prev old = .ok (prev', out))
    (h2 : filter false h s' fb' pitch' gain' (64 * n') len2' prev' old' = .ok (prev'', out'))
    (hs : ∀ k : ℤ, k < 0 → s' k = s (k + (64 * n : ℕ))) : ∀ j < 3, out (64 * n + j) = out' j := by
  intro j hj
  obtain ⟨-, a2, b, a3, a4⟩ := filter_eq false h s fb pitch gain n len2 prev old prev' out h1
  obtain ⟨b1, -, -⟩ := filter_eq false h s' fb' pitch' gain' n' len2' prev' old' prev'' out' h2
  have hd := differences false s' fb' n' len2' pitch' gain' prev'
  have ew : width false = 64 := rfl
  have er : reach false = 12 := rfl
  simp only [ew, er, Bool.false_eq_true, if_false] at a2 a3 a4 b1 hd
  rw [a4 j hj, b1 j (by omega), ahead_one]
  have e1 : s' ((j : ℤ) - (64 : ℕ)) = s ((64 * n + j : ℕ) - ((64 : ℕ) : ℤ)) := by
    rw [hs _ (by omega)]
    congr 1
    push_cast
    ring
  rw [e1]
  congr 1
  rw [fir_low 12 h b (nuOf 1 s' s' (64 * n') len2' pitch' gain' prev') (12 + (j + 64))
    (-140) (by omega)]
  · congr 1
    push_cast
    ring
  · intro i hi1 hi2
    have hp := hd.past (i - 64) (by rw [ew, er]; omega)
    rw [ew, er] at hp
    have e2 : ((i - 64 : ℕ) : ℤ) - (12 + 64 : ℕ) = (i : ℤ) + -140 := by omega
    rw [e2] at hp
    rw [hp, a2 (i - 64) (by omega), a3 hn i (by omega)]
    congr 1
    omega

/-- What is taken away when the gain is 0 and one difference was kept. -/
theorem one_kept (nu s v : Sig) (len2 : ℤ) (pitch : ℕ → ℕ) (c : ℕ)
    (hd : Differences true s v 1 len2 pitch (fun _ => 0) (fun i => if i = c then 1 else 0) nu) (j : ℤ)
    (h1 : -153 ≤ j) (h2 : j < 128) : nu j = if 0 ≤ j then 0 else if j + 153 = c then 1 else 0 := by
  split
  · obtain ⟨p, a, -, -, ha, -, -, hi⟩ := hd.now 0 (by omega)
    have hy := hi j.toNat (by show j.toNat < 128; omega)
    have e : ((width true * 0 + j.toNat : ℕ) : ℤ) = j := by omega
    rw [e, ha (le_refl _), zero_mul] at hy
    exact hy
  · have := hd.past (j + 153).toNat (by show _ < 153; omega)
    have e : (((j + 153).toNat : ℕ) : ℤ) - (reach true + width true : ℕ) = j := by
      show _ - ((153 : ℕ) : ℤ) = j
      omega
    rw [e] at this
    rw [this]
    by_cases hc : j + 153 = c
    · rw [if_pos hc, if_pos (by omega)]
    · rw [if_neg hc, if_neg (by omega)]

/-- C340, refuted: that the samples written ahead are those the next frame writes. With a full band part
the sum is doubled with every coefficient. -/
theorem C340_refuted (h : ℕ → ℝ) (hh : h 25 ≠ 0) : ¬ ∀ (two : Bool) (s s' fb fb' : Sig)
    (pitch pitch' : ℕ → ℕ) (gain gain' : ℕ → ℝ) (n n' : ℕ), 0 < n → 0 < n' → ∀ (len2 len2' : ℤ)
    (prev old prev' old' out prev'' out' : ℕ → ℝ),
    filter two h s fb pitch gain (64 * n) len2 prev old = .ok (prev', out) →
    filter two h s' fb' pitch' gain' (64 * n') len2' prev' old' = .ok (prev'', out') →
    (∀ k : ℤ, k < 0 → s' k = s (k + (64 * n : ℕ))) →
    (∀ k : ℤ, k < 0 → fb' k = fb (k + (width true * n : ℕ))) →
    ∀ j < 3, out (width two * n + j) = out' j := by
  intro H
  obtain ⟨prev', out, h1⟩ := C337_accepted true h (fun _ => 0) (fun _ => 0) (fun _ => 64) (fun _ => 0) 1 0
    (fun i => if i = 128 then 1 else 0) (fun _ => 0) (fun i _ => by omega)
  obtain ⟨prev'', out', h2⟩ := C337_accepted true h (fun _ => 0) (fun _ => 0) (fun _ => 64) (fun _ => 0) 1 0
    prev' (fun _ => 0) (fun i _ => by omega)
  have key := H true _ _ _ _ _ _ _ _ 1 1 (by omega) (by omega) _ _ _ _ _ _ _ _ _ h1 h2 (fun _ _ => rfl)
    (fun _ _ => rfl) 0 (by omega)
  obtain ⟨-, a2, b, a3, a4⟩ := filter_eq true h _ _ _ _ 1 _ _ _ _ _ h1
  obtain ⟨b1, -, -⟩ := filter_eq true h _ _ _ _ 1 _ _ _ _ _ h2
  have hd := differences true (fun _ => 0) (fun _ => 0) 1 0 (fun _ => 64) (fun _ => 0)
    (fun i => if i = 128 then 1 else 0)
  have hd' := differences true (fun _ => 0) (fun _ => 0) 1 0 (fun _ => 64) (fun _ => 0) prev'
  have ew : width true = 128 := rfl
  have er : reach true = 25 := rfl
  simp only [ew, er, if_true] at a2 a3 a4 b1 hd hd' key
  generalize nuOf 2 (fun _ => 0) (fun _ => 0) (64 * 1) 0 (fun _ => 64) (fun _ => 0)
    (fun i => if i = 128 then 1 else 0) = nu at *
  generalize nuOf 2 (fun _ => 0) (fun _ => 0) (64 * 1) 0 (fun _ => 64) (fun _ => 0) prev' = nu' at *
  have hnu := one_kept nu _ _ _ _ 128 hd
  have hp : ∀ i < 153, prev' i = if i = 0 then 1 else 0 := by
    intro i hi
    rw [a2 i (by omega), hnu _ (by omega) (by omega)]
    by_cases h0 : i = 0
    · subst h0
      norm_num
    · rw [if_neg h0]
      split
      · rfl
      · rw [if_neg (by omega)]
  have hb : ∀ i < 281, b i = if i = 128 then 1 else 0 := by
    intro i hi
    rw [a3 (by omega) i (by omega), hnu _ (by omega) (by omega)]
    by_cases h0 : i = 128
    · subst h0
      norm_num
    · rw [if_neg h0]
      split
      · rfl
      · rw [if_neg (by omega)]
  have hz : ∀ d ≤ 24, ahead 2 h b 153 d = 0 := by
    intro d hd
    induction d with
    | zero => simp [ahead, hb]
    | succ d ih =>
      simp only [ahead]
      rw [ih (by omega), hb _ (by omega), hb _ (by omega), if_neg (by omega), if_neg (by omega)]
      ring
  have o1 : out 128 = -(2 * h 25) := by
    have := a4 0 (by omega)
    rw [show 128 * 1 + 0 = 128 by rfl, show 25 + (0 + 128) = 153 by rfl] at this
    rw [this]
    simp only [ahead.eq_2 2 h b 153 24, hz 24 (le_refl _)]
    rw [hb _ (by omega), hb _ (by omega)]
    norm_num
    ring
  have hn' : ∀ j : ℤ, -153 ≤ j → j < 0 → nu' j = if j = -153 then 1 else 0 := by
    intro j hj1 hj2
    have := hd'.past (j + 153).toNat (by show _ < 153; omega)
    have e : (((j + 153).toNat : ℕ) : ℤ) - (reach true + width true : ℕ) = j := by
      show _ - ((153 : ℕ) : ℤ) = j
      omega
    rw [e, hp _ (by omega)] at this
    rw [this]
    by_cases hc : j = -153
    · rw [if_pos hc, if_pos (by omega)]
    · rw [if_neg hc, if_neg (by omega)]
  have o2 : out' 0 = -h 25 := by
    rw [b1 0 (by omega)]
    unfold low
    rw [Finset.sum_range_succ, Finset.sum_eq_zero]
    · rw [hn' _ (by omega) (by omega), hn' _ (by omega) (by omega), hn' _ (by omega) (by omega)]
      norm_num
    · intro j hj
      rw [Finset.mem_range] at hj
      rw [hn' _ (by omega) (by omega), hn' _ (by omega) (by omega), if_neg (by omega), if_neg (by omega)]
      ring
  rw [show 128 * 1 + 0 = 128 by rfl, o1, o2] at key
  apply hh
  linarith

/-! ## Examples -/

/-- A frame of two subframes that is accepted. -/
example : ∃ prev' out, filter false (fun _ => 1) (fun k => k) (fun _ => 0) (fun _ => 400) (fun _ => 1)
    (64 * 2) 64 (fun _ => 0) (fun _ => 0) = .ok (prev', out) :=
  C337_accepted false _ _ _ _ _ 2 _ _ _ (fun i _ => by omega)

/-- A lag that is refused. -/
example : filter false (fun _ => 1) (fun k => k) (fun _ => 0) (fun _ => 632) (fun _ => 1)
    64 64 (fun _ => 0) (fun _ => 0) = .err (.other 0xFFFF980A) := by
  unfold filter
  simp only [Bool.false_eq_true, if_false, show (64 + 63) / 64 = 1 by rfl, steps, Res.bind, step]
  rw [if_pos (by unfold maxPitch; norm_num)]

/-- A signal that repeats with the lag 64 and with the lag 32. -/
example : ∀ p, (p = 64 ∨ p = 64 / 2) → ∀ k : ℤ,
    (fun k : ℤ => ((k % 32 : ℤ) : ℝ)) (k + 1 * (p : ℕ)) = (fun k : ℤ => ((k % 32 : ℤ) : ℝ)) k := by
  intro p hp k
  have : (k + 1 * (p : ℤ)) % 32 = k % 32 := by
    rcases hp with rfl | rfl <;> omega
  simp only [this]

end Verif.Props.Bpf
