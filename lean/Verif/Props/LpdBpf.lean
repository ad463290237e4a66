import Verif.Props.Bpf

/-!
# The bass post filter after a frame of the time domain

A frame of eight short blocks after a frame of the time domain goes through the bass post filter, with the
lags and gains of that frame. The filter fades out inside of the frame.
-/

namespace Verif.Props.LpdBpf

open Verif Verif.Bpf Verif.Props.Bpf

/-- After the subframes nothing but the samples ahead is written. -/
theorem filter_beyond (h : ℕ → ℝ) (s fb : Sig) (pitch : ℕ → ℕ) (gain : ℕ → ℝ) (n : ℕ) (len2 : ℤ)
    (prev old prev' out : ℕ → ℝ)
    (hok : filter false h s fb pitch gain (64 * n) len2 prev old = .ok (prev', out)) :
    ∀ k, 64 * n + 3 ≤ k → out k = old k := by
  intro k hk
  unfold filter at hok
  simp only [Bool.false_eq_true, if_false] at hok
  rw [show (64 * n + 63) / 64 = n by omega] at hok
  generalize ho : (fun k : ℕ => if k < 1 * (64 * n) then s ((k : ℤ) - (1 : ℕ) * 64)
    else if 64 * n % 64 ≠ 0 ∧ k < 1 * (64 * n) + 1 * (64 - 64 * n % 64) then 0 else old k) = o at hok
  cases h1 : steps 1 h s s (64 * n) len2 pitch gain n ⟨prev, fun _ => 0, o⟩ with
  | jump => rw [h1] at hok; exact absurd hok (by simp [Res.bind])
  | err c => rw [h1] at hok; exact absurd hok (by simp [Res.bind])
  | ub => rw [h1] at hok; exact absurd hok (by simp [Res.bind])
  | ok st =>
    rw [h1] at hok
    simp only [Res.bind] at hok
    injection hok with hok
    injection hok with q1 q2
    have I := steps_inv 1 (by omega) h s s (64 * n) len2 pitch gain prev _ o n st h1
    rw [← q2]
    simp only
    rw [if_neg (by omega), I.rest k (by omega), ← ho]
    simp only
    rw [if_neg (by omega), if_neg (by omega)]

/-- Where nothing is taken away the samples stay. -/
theorem quiet (h : ℕ → ℝ) (s fb : Sig) (pitch : ℕ → ℕ) (gain : ℕ → ℝ) (len2 : ℤ)
    (prev row prev' out : ℕ → ℝ)
    (hok : filter false h s fb pitch gain (64 * 11) len2 prev row = .ok (prev', out))
    (hs : ∀ k : ℕ, k < 1024 → s ((k : ℤ) - 64) = row k) (c : ℤ) (hc : c ≤ 576)
    (hq : ∀ nu : Sig, Differences false s s 11 len2 pitch gain prev nu →
      ∀ j : ℤ, c ≤ j → -76 ≤ j → j < 704 → nu j = 0) :
    (∀ k : ℕ, k < 1024 → c + 76 ≤ (k : ℤ) → out k = row k) ∧ ∀ i < 76, prev' i = 0 := by
  obtain ⟨a1, a2, b, a3, a4⟩ := filter_eq false h s fb pitch gain 11 len2 prev row prev' out hok
  have hd := differences false s fb 11 len2 pitch gain prev
  have ew : width false = 64 := rfl
  have er : reach false = 12 := rfl
  simp only [ew, er, Bool.false_eq_true, if_false] at a1 a2 a3 a4 hd
  have hz := hq _ hd
  generalize nuOf 1 s s (64 * 11) len2 pitch gain prev = nu at *
  constructor
  · intro k hk hck
    by_cases h1 : k < 704
    · rw [a1 k (by omega), low_zero, sub_zero]
      · exact hs k hk
      · intro j hj1 hj2
        exact hz j (by omega) (by omega) (by omega)
    · by_cases h2 : k < 707
      · obtain ⟨d, rfl⟩ := Nat.exists_eq_add_of_le (show 64 * 11 ≤ k by omega)
        rw [a4 d (by omega), ahead_one, fir_low 12 h b nu (12 + (d + 64)) 564 (by omega), low_zero, sub_zero]
        · exact hs _ hk
        · intro j hj1 hj2
          exact hz j (by omega) (by omega) (by omega)
        · intro i hi1 hi2
          rw [a3 (by omega) i (by omega)]
          congr 1
          omega
      · exact filter_beyond h s fb pitch gain 11 len2 prev row prev' out hok k (by omega)
  · intro i hi
    rw [a2 i (by omega)]
    exact hz _ (by omega) (by omega) (by omega)

/-- The number of subframes that can be filtered: those of the second half of the frame of the time
domain, less one, and the next one or two when it ended with linear prediction. -/
def active (short acelp : Bool) : ℕ := if acelp then (if short then 8 else 9) else 7

theorem synthOf_row (row synthPrev : ℕ → ℝ) (k : ℕ) : synthOf row synthPrev ((k : ℤ) - 64) = row k := by
  unfold synthOf
  rw [if_pos (by omega)]
  congr 1
  omega

theorem calcGains_off (s : Sig) (pitch : ℕ → ℕ) (gain : ℕ → ℝ) (i : ℕ) (h : gain i ≤ 0) :
    calcGains s pitch gain i ≤ 0 := by
  unfold calcGains
  rw [if_neg (fun hc => absurd hc.2 (not_lt.mpr h))]
  exact h

theorem accepted (short acelp : Bool) (h : ℕ → ℝ) (ch : ℕ) (mem synthPrev : ℕ → ℝ) (pitchPrev : ℕ → ℕ)
    (gainPrev prev prev' out : ℕ → ℝ)
    (hok : lpdBpf short acelp h ch mem synthPrev pitchPrev gainPrev prev = .ok (prev', out)) :
    filter false h (synthOf (fun k => mem (ch * 1024 + k)) synthPrev)
      (synthOf (fun k => mem (ch * 1024 + k)) synthPrev) (lags short acelp pitchPrev)
      (calcGains (synthOf (fun k => mem (ch * 1024 + k)) synthPrev) (lags short acelp pitchPrev)
        (gains short acelp gainPrev)) (64 * 11) 256 prev (fun k => mem (ch * 1024 + k)) =
      .ok (prev', out) := by
  unfold lpdBpf at hok
  split at hok
  · exact absurd hok (by simp)
  split at hok
  · exact absurd hok (by simp)
  exact hok

/-- Where the gain is 0 nothing is taken away. -/
theorem nu_off (s : Sig) (pitch : ℕ → ℕ) (gain prev : ℕ → ℝ) (nu : Sig)
    (hd : Differences false s s 11 256 pitch gain prev nu) (k : ℕ) (hk : k < 704)
    (hg : gain (k / 64) ≤ 0) : nu k = 0 := by
  obtain ⟨p, c, -, -, hc, -, -, hi⟩ := hd.now (k / 64) (by omega)
  have e := hi (k % 64) (by show _ < 64; omega)
  have ek : ((width false * (k / 64) + k % 64 : ℕ) : ℤ) = (k : ℤ) := by
    show ((64 * (k / 64) + k % 64 : ℕ) : ℤ) = k
    omega
  rw [ek] at e
  rw [e, hc hg, zero_mul]

/-- C341: after the subframes that can be filtered and 76 samples more, no sample is changed, and nothing
is kept for later frames. -/
theorem C341_fades (short acelp : Bool) (h : ℕ → ℝ) (ch : ℕ) (mem synthPrev : ℕ → ℝ) (pitchPrev : ℕ → ℕ)
    (gainPrev prev prev' out : ℕ → ℝ)
    (hok : lpdBpf short acelp h ch mem synthPrev pitchPrev gainPrev prev = .ok (prev', out)) :
    (∀ k < 1024, 64 * active short acelp + 76 ≤ k → out k = mem (ch * 1024 + k)) ∧
      ∀ i < 76, prev' i = 0 := by
  have hA : active short acelp ≤ 9 := by cases short <;> cases acelp <;> decide
  have := quiet h _ _ _ _ 256 prev _ prev' out (accepted _ _ _ _ _ _ _ _ _ _ _ hok)
    (fun k _ => synthOf_row _ _ k) (64 * active short acelp : ℕ) (by omega) (by
    intro nu hd j hj1 _ hj2
    obtain ⟨k, rfl⟩ := Int.eq_ofNat_of_zero_le (show 0 ≤ j by omega)
    refine nu_off _ _ _ _ nu hd k (by omega) (calcGains_off _ _ _ _ ?_)
    have hk : active short acelp ≤ k / 64 := by omega
    unfold gains
    cases acelp with
    | false =>
      have h7 : active short false = 7 := rfl
      rw [if_neg (by omega), if_neg (by simp)]
    | true =>
      cases short with
      | false =>
        have h9 : active false true = 9 := rfl
        rw [if_neg (by omega), if_neg (by omega)]
      | true =>
        have h8 : active true true = 8 := rfl
        rw [if_neg (by omega), if_neg (by simp; omega)])
  exact ⟨fun k hk hk' => this.1 k hk (by push_cast; omega), this.2⟩

/-- C342: without gains, and with nothing kept, the frame is not changed. -/
theorem C342_off (short acelp : Bool) (h : ℕ → ℝ) (ch : ℕ) (mem synthPrev : ℕ → ℝ) (pitchPrev : ℕ → ℕ)
    (gainPrev prev prev' out : ℕ → ℝ) (hg : ∀ i < 7, gainPrev i ≤ 0) (hp : ∀ i < 76, prev i = 0)
    (hok : lpdBpf short acelp h ch mem synthPrev pitchPrev gainPrev prev = .ok (prev', out)) :
    (∀ k < 1024, out k = mem (ch * 1024 + k)) ∧ ∀ i < 76, prev' i = 0 := by
  have := quiet h _ _ _ _ 256 prev _ prev' out (accepted _ _ _ _ _ _ _ _ _ _ _ hok)
    (fun k _ => synthOf_row _ _ k) (-76) (by omega) (by
    intro nu hd j hj1 _ hj2
    by_cases hn : j < 0
    · have e := hd.past (j + 76).toNat (by show _ < 76; omega)
      have ej : (((j + 76).toNat : ℕ) : ℤ) - (reach false + width false : ℕ) = j := by
        show _ - ((76 : ℕ) : ℤ) = j
        omega
      rw [ej, hp _ (by omega)] at e
      exact e
    · obtain ⟨k, rfl⟩ := Int.eq_ofNat_of_zero_le (show 0 ≤ j by omega)
      refine nu_off _ _ _ _ nu hd k (by omega) (calcGains_off _ _ _ _ ?_)
      unfold gains
      split
      · exact hg _ (by assumption)
      · split
        · exact hg 6 (by omega)
        · exact le_refl _)
  exact ⟨fun k hk => this.1 k hk (by omega), this.2⟩

/-! ## Other channels -/

theorem corr_congr (s t : Sig) (num lag : ℕ) (h : ∀ k : ℤ, k < num + 64 → s k = t k) :
    corr s num lag = corr t num lag := by
  unfold corr
  have h1 : ∀ i ∈ Finset.range 160, s ((num : ℤ) - 96 + (i : ℕ)) = t ((num : ℤ) - 96 + (i : ℕ)) := by
    intro i hi
    rw [Finset.mem_range] at hi
    exact h _ (by omega)
  have h2 : ∀ i ∈ Finset.range 160, s ((num : ℤ) - (lag / 2 : ℕ) - 96 + (i : ℕ)) =
      t ((num : ℤ) - (lag / 2 : ℕ) - 96 + (i : ℕ)) := by
    intro i hi
    rw [Finset.mem_range] at hi
    exact h _ (by omega)
  simp only
  rw [Finset.sum_congr rfl fun i hi => by rw [h1 i hi, h2 i hi],
    Finset.sum_congr (f := fun i : ℕ => s ((num : ℤ) - 96 + (i : ℕ)) * s ((num : ℤ) - 96 + (i : ℕ))) rfl
      fun i hi => by rw [h1 i hi],
    Finset.sum_congr (f := fun i : ℕ => s ((num : ℤ) - (lag / 2 : ℕ) - 96 + (i : ℕ)) *
      s ((num : ℤ) - (lag / 2 : ℕ) - 96 + (i : ℕ))) rfl fun i hi => by rw [h2 i hi]]

theorem limited_congr (s t : Sig) (lenFr : ℕ) (len2 : ℤ) (p num : ℕ) (g : ℝ)
    (h : ∀ k : ℤ, k < lenFr + len2 → s k = t k) :
    limited s num p (lgOf lenFr len2 p num) g = limited t num p (lgOf lenFr len2 p num) g := by
  unfold limited
  have h1 : ∀ i ∈ Finset.range (lgOf lenFr len2 p num), s ((i : ℕ) + num) = t ((i : ℕ) + num) := by
    intro i hi
    rw [Finset.mem_range] at hi
    unfold lgOf at hi
    exact h _ (by omega)
  have h2 : ∀ i ∈ Finset.range (lgOf lenFr len2 p num), s ((i : ℕ) + num + p) = t ((i : ℕ) + num + p) := by
    intro i hi
    rw [Finset.mem_range] at hi
    unfold lgOf at hi
    exact h _ (by omega)
  rw [Finset.sum_congr (f := fun i : ℕ => s ((i : ℕ) + num) * s ((i : ℕ) + num)) rfl
      fun i hi => by rw [h1 i hi],
    Finset.sum_congr (f := fun i : ℕ => s ((i : ℕ) + num + p) * s ((i : ℕ) + num + p)) rfl
      fun i hi => by rw [h2 i hi]]

theorem noise_congr (s t : Sig) (lenFr : ℕ) (len2 : ℤ) (h2 : 0 ≤ len2) (p num : ℕ) (hn : num + 64 ≤ lenFr)
    (g : ℝ) (h : ∀ k : ℤ, k < lenFr + len2 → s k = t k) (i : ℕ) (hi : i < 64) :
    noise 1 s s num p (lgOf lenFr len2 p num) g i = noise 1 t t num p (lgOf lenFr len2 p num) g i := by
  unfold noise
  rw [limited_congr s t lenFr len2 p num g h]
  simp only [Nat.cast_one, one_mul]
  have e1 : s ((i : ℤ) + num) = t ((i : ℤ) + num) := h _ (by omega)
  have e2 : s ((i : ℤ) + num - p) = t ((i : ℤ) + num - p) := h _ (by omega)
  rw [e1, e2]
  by_cases hc : i < lgOf lenFr len2 p num
  · have e3 : s ((i : ℤ) + num + p) = t ((i : ℤ) + num + p) := by
      unfold lgOf at hc
      exact h _ (by omega)
    rw [e3]
  · simp only [if_neg hc]

theorem nuOf_congr (s t : Sig) (pitch : ℕ → ℕ) (gain prev : ℕ → ℝ) (h : ∀ k : ℤ, k < 960 → s k = t k)
    (j : ℤ) (hj : j < 704) : nuOf 1 s s (64 * 11) 256 pitch gain prev j =
      nuOf 1 t t (64 * 11) 256 pitch gain prev j := by
  unfold nuOf
  by_cases hn : j < 0
  · rw [if_pos hn, if_pos hn]
  · rw [if_neg hn, if_neg hn]
    simp only
    have hl : lagOf s (64 * (j.toNat / (1 * 64))) (pitch (j.toNat / (1 * 64))) =
        lagOf t (64 * (j.toNat / (1 * 64))) (pitch (j.toNat / (1 * 64))) := by
      unfold lagOf
      rw [corr_congr s t _ _ fun k hk => h k (by omega)]
    rw [hl]
    exact noise_congr s t (64 * 11) 256 (by omega) _ _ (by omega) _ (fun k hk => h k (by omega)) _ (by omega)

theorem low_congr (d : ℕ) (h : ℕ → ℝ) (u v : Sig) (k : ℤ)
    (huv : ∀ j : ℤ, k - d ≤ j → j ≤ k + d → u j = v j) : low d h u k = low d h v k := by
  unfold low
  rw [huv k (by omega) (by omega)]
  congr 1
  refine Finset.sum_congr rfl fun j hj => ?_
  rw [Finset.mem_range] at hj
  rw [huv _ (by push_cast; omega) (by push_cast; omega), huv _ (by push_cast; omega) (by push_cast; omega)]

theorem filter_congr (h : ℕ → ℝ) (s t : Sig) (pitch : ℕ → ℕ) (gain prev row row' p1 p2 o1 o2 : ℕ → ℝ)
    (hs : ∀ k : ℤ, k < 960 → s k = t k) (hr : ∀ k < 1024, row k = row' k)
    (h1 : filter false h s s pitch gain (64 * 11) 256 prev row = .ok (p1, o1))
    (h2 : filter false h t t pitch gain (64 * 11) 256 prev row' = .ok (p2, o2)) :
    (∀ k < 1024, o1 k = o2 k) ∧ ∀ i < 76, p1 i = p2 i := by
  obtain ⟨a1, a2, a, a3, a4⟩ := filter_eq false h s s pitch gain 11 256 prev row p1 o1 h1
  obtain ⟨b1, b2, b, b3, b4⟩ := filter_eq false h t t pitch gain 11 256 prev row' p2 o2 h2
  have ew : width false = 64 := rfl
  have er : reach false = 12 := rfl
  simp only [ew, er, Bool.false_eq_true, if_false] at a1 a2 a3 a4 b1 b2 b3 b4
  have hn := nuOf_congr s t pitch gain prev hs
  generalize nuOf 1 s s (64 * 11) 256 pitch gain prev = u at *
  generalize nuOf 1 t t (64 * 11) 256 pitch gain prev = v at *
  constructor
  · intro k hk
    by_cases c1 : k < 704
    · rw [a1 k (by omega), b1 k (by omega), hs _ (by omega)]
      congr 1
      exact low_congr 12 h u v _ fun j _ hj => hn j (by omega)
    · by_cases c2 : k < 707
      · obtain ⟨d, rfl⟩ := Nat.exists_eq_add_of_le (show 64 * 11 ≤ k by omega)
        rw [a4 d (by omega), b4 d (by omega), hs _ (by omega), ahead_one, ahead_one,
          fir_low 12 h a u (12 + (d + 64)) 564 (by omega), fir_low 12 h b v (12 + (d + 64)) 564 (by omega)]
        · congr 1
          exact low_congr 12 h u v _ fun j _ hj => hn j (by omega)
        · intro i hi1 hi2
          rw [b3 (by omega) i (by omega)]
          congr 1
          omega
        · intro i hi1 hi2
          rw [a3 (by omega) i (by omega)]
          congr 1
          omega
      · rw [filter_beyond h s s pitch gain 11 256 prev row p1 o1 h1 k (by omega),
          filter_beyond h t t pitch gain 11 256 prev row' p2 o2 h2 k (by omega), hr k hk]
  · intro i hi
    rw [a2 i (by omega), b2 i (by omega)]
    exact hn _ (by omega)

theorem gainOf_congr (s t : Sig) (i p : ℕ) (hi : i < 9) (h : ∀ k : ℤ, k < 960 → s k = t k) :
    gainOf s i p = gainOf t i p := by
  unfold gainOf
  have h1 : ∀ k ∈ Finset.range 64, s ((i : ℤ) * 64 + (k : ℕ)) = t ((i : ℤ) * 64 + (k : ℕ)) := by
    intro k hk
    rw [Finset.mem_range] at hk
    exact h _ (by omega)
  have h2 : ∀ k ∈ Finset.range 64, s ((i : ℤ) * 64 - p + (k : ℕ)) = t ((i : ℤ) * 64 - p + (k : ℕ)) := by
    intro k hk
    rw [Finset.mem_range] at hk
    exact h _ (by omega)
  rw [Finset.sum_congr rfl fun k hk => by rw [h1 k hk, h2 k hk],
    Finset.sum_congr (f := fun k : ℕ => s ((i : ℤ) * 64 - p + (k : ℕ)) * s ((i : ℤ) * 64 - p + (k : ℕ))) rfl
      fun k hk => by rw [h2 k hk]]

/-- The test of the lags leaves no lag that the filter refuses. -/
theorem lags_ok (short acelp : Bool) (pitchPrev : ℕ → ℕ)
    (hb : ¬ ∃ i : ℕ, i < 9 ∧ badLag i (lags short acelp pitchPrev i)) :
    ∀ i < 11, lags short acelp pitchPrev i / 2 + 96 ≤ 411 + 64 * i := by
  intro i hi
  by_cases h9 : i < 9
  · by_contra hc
    apply hb
    refine ⟨i, h9, Or.inl ?_⟩
    omega
  · have : lags short acelp pitchPrev i = 64 := by
      unfold lags
      rw [if_neg (by omega), if_neg (by omega)]
    rw [this]
    omega

/-- C343: for all channels but the last one there is an outcome, which depends on the samples of that
channel only, although others are copied. -/
theorem C343_channels_partial (short acelp : Bool) (h : ℕ → ℝ) (ch : ℕ) (hch : ch < 23)
    (mem mem' synthPrev : ℕ → ℝ) (pitchPrev : ℕ → ℕ) (gainPrev prev : ℕ → ℝ)
    (hm : ∀ k < 1024, mem (ch * 1024 + k) = mem' (ch * 1024 + k)) :
    (∃ p1 p2 o1 o2, lpdBpf short acelp h ch mem synthPrev pitchPrev gainPrev prev = .ok (p1, o1) ∧
      lpdBpf short acelp h ch mem' synthPrev pitchPrev gainPrev prev = .ok (p2, o2) ∧
      (∀ k < 1024, o1 k = o2 k) ∧ ∀ i < 76, p1 i = p2 i) ∨
    (lpdBpf short acelp h ch mem synthPrev pitchPrev gainPrev prev = .err (.other 0xFFFF980C) ∧
      lpdBpf short acelp h ch mem' synthPrev pitchPrev gainPrev prev = .err (.other 0xFFFF980C)) := by
  have hu : ¬ 24 * 1024 < ch * 1024 + 1536 := by omega
  unfold lpdBpf
  rw [if_neg hu, if_neg hu]
  by_cases hb : ∃ i : ℕ, i < 9 ∧ badLag i (lags short acelp pitchPrev i)
  · right
    rw [if_pos hb, if_pos hb]
    exact ⟨rfl, rfl⟩
  · left
    rw [if_neg hb, if_neg hb]
    simp only
    have hs : ∀ k : ℤ, k < 960 → synthOf (fun k => mem (ch * 1024 + k)) synthPrev k =
        synthOf (fun k => mem' (ch * 1024 + k)) synthPrev k := by
      intro k hk
      unfold synthOf
      split
      · exact hm _ (by omega)
      · rfl
    have hg : calcGains (synthOf (fun k => mem (ch * 1024 + k)) synthPrev) (lags short acelp pitchPrev)
        (gains short acelp gainPrev) = calcGains (synthOf (fun k => mem' (ch * 1024 + k)) synthPrev)
        (lags short acelp pitchPrev) (gains short acelp gainPrev) := by
      funext i
      unfold calcGains
      split
      · rename_i hc
        exact gainOf_congr _ _ i _ hc.1 hs
      · rfl
    rw [hg]
    obtain ⟨p1, o1, e1⟩ := C337_accepted false h (synthOf (fun k => mem (ch * 1024 + k)) synthPrev)
      (synthOf (fun k => mem (ch * 1024 + k)) synthPrev) (lags short acelp pitchPrev)
      (calcGains (synthOf (fun k => mem' (ch * 1024 + k)) synthPrev)
        (lags short acelp pitchPrev) (gains short acelp gainPrev)) 11 256 prev
      (fun k => mem (ch * 1024 + k)) (lags_ok _ _ _ hb)
    obtain ⟨p2, o2, e2⟩ := C337_accepted false h (synthOf (fun k => mem' (ch * 1024 + k)) synthPrev)
      (synthOf (fun k => mem' (ch * 1024 + k)) synthPrev) (lags short acelp pitchPrev)
      (calcGains (synthOf (fun k => mem' (ch * 1024 + k)) synthPrev)
        (lags short acelp pitchPrev) (gains short acelp gainPrev)) 11 256 prev
      (fun k => mem' (ch * 1024 + k)) (lags_ok _ _ _ hb)
    exact ⟨p1, p2, o1, o2, e1, e2, filter_congr h _ _ _ _ prev _ _ p1 p2 o1 o2 hs hm e1 e2⟩

/-- C343, refuted: that the filter reads samples of its channel only, and so has an outcome. For the last
channel it reads behind the samples of all channels. -/
theorem C343_refuted : ¬ ∀ (short acelp : Bool) (h : ℕ → ℝ) (ch : ℕ), ch < 24 →
    ∀ (mem synthPrev : ℕ → ℝ) (pitchPrev : ℕ → ℕ) (gainPrev prev : ℕ → ℝ),
    lpdBpf short acelp h ch mem synthPrev pitchPrev gainPrev prev ≠ .ub := by
  intro H
  refine H true true (fun _ => 0) 23 (by omega) (fun _ => 0) (fun _ => 0) (fun _ => 64) (fun _ => 0)
    (fun _ => 0) ?_
  unfold lpdBpf
  rw [if_pos (by omega)]

/-! ## What is filtered -/

/-- The subframe of the frame before of which subframe `i` takes the lag and the gain. -/
def source (short acelp : Bool) (i : ℕ) : Option ℕ :=
  if i < 7 then some i else if i < active short acelp then some 6 else none

/-- `g` is the gain with which the 64 samples of `s` from `a` on are best predicted from those from `b` on;
large gains count a little. -/
def Best (s : Sig) (a b : ℤ) (g : ℝ) : Prop :=
  ∀ g' : ℝ, (∑ k ∈ Finset.range 64, (s (a + (k : ℕ)) - g * s (b + (k : ℕ))) ^ 2) + g ^ 2 / 1000000 ≤
    (∑ k ∈ Finset.range 64, (s (a + (k : ℕ)) - g' * s (b + (k : ℕ))) ^ 2) + g' ^ 2 / 1000000

theorem sum_square (x y : ℕ → ℝ) (g : ℝ) : ∑ k ∈ Finset.range 64, (x k - g * y k) ^ 2 =
    (∑ k ∈ Finset.range 64, x k ^ 2) - 2 * g * (∑ k ∈ Finset.range 64, x k * y k) +
      g ^ 2 * ∑ k ∈ Finset.range 64, y k * y k := by
  rw [Finset.mul_sum, Finset.mul_sum, ← Finset.sum_sub_distrib, ← Finset.sum_add_distrib]
  exact Finset.sum_congr rfl fun k _ => by ring

theorem gainOf_best (s : Sig) (i p : ℕ) : Best s (i * 64) (i * 64 - p) (gainOf s i p) := by
  intro g'
  rw [sum_square (fun k => s ((i : ℤ) * 64 + (k : ℕ))) (fun k => s ((i : ℤ) * 64 - p + (k : ℕ))),
    sum_square (fun k => s ((i : ℤ) * 64 + (k : ℕ))) (fun k => s ((i : ℤ) * 64 - p + (k : ℕ)))]
  unfold gainOf
  have hE : 0 ≤ ∑ k ∈ Finset.range 64, s ((i : ℤ) * 64 - p + (k : ℕ)) * s ((i : ℤ) * 64 - p + (k : ℕ)) :=
    Finset.sum_nonneg fun k _ => mul_self_nonneg _
  generalize (∑ k ∈ Finset.range 64, s ((i : ℤ) * 64 - p + (k : ℕ)) * s ((i : ℤ) * 64 - p + (k : ℕ))) = E at *
  generalize (∑ k ∈ Finset.range 64, s ((i : ℤ) * 64 + (k : ℕ)) * s ((i : ℤ) * 64 - p + (k : ℕ))) = C at *
  generalize (∑ k ∈ Finset.range 64, s ((i : ℤ) * 64 + (k : ℕ)) ^ 2) = X at *
  have hD : 0 < 1 / 1000000 + E := by positivity
  generalize hg : C / (1 / 1000000 + E) = g
  have hC : C = g * (1 / 1000000 + E) := by rw [← hg, div_mul_cancel₀ _ hD.ne']
  rw [hC]
  nlinarith [mul_nonneg hD.le (sq_nonneg (g' - g))]

theorem source_lags (short acelp : Bool) (pitchPrev : ℕ → ℕ) (i : ℕ) :
    lags short acelp pitchPrev i = ((source short acelp i).map pitchPrev).getD 64 := by
  unfold lags source
  by_cases h7 : i < 7
  · rw [if_pos h7, if_pos h7]; rfl
  · rw [if_neg h7, if_neg h7]
    by_cases hc : acelp ∧ (i = 7 ∨ (short = false ∧ i = 8))
    · have : i < active short acelp := by
        obtain ⟨rfl, h | ⟨rfl, rfl⟩⟩ := hc
        · subst h; cases short <;> decide
        · decide
      rw [if_pos hc, if_pos this]; rfl
    · have : ¬ i < active short acelp := by
        intro ha
        apply hc
        revert ha
        unfold active
        cases short <;> cases acelp <;> simp <;> omega
      rw [if_neg hc, if_neg this]; rfl

theorem source_gains (short acelp : Bool) (gainPrev : ℕ → ℝ) (i : ℕ) :
    gains short acelp gainPrev i = ((source short acelp i).map gainPrev).getD 0 := by
  unfold gains source
  by_cases h7 : i < 7
  · rw [if_pos h7, if_pos h7]; rfl
  · rw [if_neg h7, if_neg h7]
    by_cases hc : acelp ∧ (i = 7 ∨ (short = false ∧ i = 8))
    · have : i < active short acelp := by
        obtain ⟨rfl, h | ⟨rfl, rfl⟩⟩ := hc
        · subst h; cases short <;> decide
        · decide
      rw [if_pos hc, if_pos this]; rfl
    · have : ¬ i < active short acelp := by
        intro ha
        apply hc
        revert ha
        unfold active
        cases short <;> cases acelp <;> simp <;> omega
      rw [if_neg hc, if_neg this]; rfl

/-- C344: the signal is the end of the frame before followed by the frame; the lags are those of the frame
before, the gains the best ones where that frame has a gain. -/
theorem C344_filtered (short acelp : Bool) (h : ℕ → ℝ) (ch : ℕ) (mem synthPrev : ℕ → ℝ)
    (pitchPrev : ℕ → ℕ) (gainPrev prev prev' out : ℕ → ℝ)
    (hok : lpdBpf short acelp h ch mem synthPrev pitchPrev gainPrev prev = .ok (prev', out)) :
    ∃ (s nu : Sig) (lag : ℕ → ℕ) (gain : ℕ → ℝ),
      (∀ k : ℕ, s ((k : ℤ) - 64) = mem (ch * 1024 + k)) ∧
      (∀ k : ℕ, k < 347 → s ((k : ℤ) - 411) = synthPrev k) ∧
      (∀ i < 11, lag i = ((source short acelp i).map pitchPrev).getD 64) ∧
      (∀ i < 11, ∀ j, source short acelp i = some j → 0 < gainPrev j →
        Best s (i * 64) (i * 64 - lag i) (gain i)) ∧
      (∀ i < 11, (∀ j, source short acelp i = some j → gainPrev j ≤ 0) → gain i ≤ 0) ∧
      Differences false s s 11 256 lag gain prev nu ∧
      (∀ k < 704, out k = mem (ch * 1024 + k) - low 12 h nu ((k : ℤ) - 64)) ∧
      ∀ i < 76, prev' i = nu ((i : ℤ) + 628) := by
  obtain ⟨nu, h1, h2, h3⟩ := C337_filtered false h _ _ _ _ 11 256 prev _ prev' out
    (accepted _ _ _ _ _ _ _ _ _ _ _ hok)
  have ew : width false = 64 := rfl
  have er : reach false = 12 := rfl
  simp only [ew, er, Bool.false_eq_true, if_false] at h1 h2 h3
  refine ⟨_, nu, _, _, fun k => synthOf_row _ _ k, ?_, fun i _ => source_lags _ _ _ i, ?_, ?_, h1, ?_, ?_⟩
  · intro k hk
    unfold synthOf
    have e : ((k : ℤ) - 411 + 411).toNat = k := by omega
    rw [if_neg (by omega), e]
  · intro i hi j hj hg
    have h9 : i < 9 := by
      have hA : active short acelp ≤ 9 := by cases short <;> cases acelp <;> decide
      unfold source at hj
      split at hj
      · omega
      · split at hj
        · omega
        · exact absurd hj (by simp)
    unfold calcGains
    rw [if_pos ⟨h9, by rw [source_gains, hj]; exact hg⟩]
    exact gainOf_best _ i _
  · intro i hi hg
    apply calcGains_off
    rw [source_gains]
    cases hj : source short acelp i with
    | none => exact le_refl _
    | some j => exact hg j hj
  · intro k hk
    rw [h2 k (by omega)]
    push_cast
    rw [synthOf_row]
  · intro i hi
    have e : ((64 * 11 + i : ℕ) : ℤ) - ((12 + 64 : ℕ) : ℤ) = (i : ℤ) + 628 := by omega
    rw [h3 i (by omega), e]

/-- C344: exactly the frames with a lag that is too long are refused. -/
theorem C344_refused (short acelp : Bool) (h : ℕ → ℝ) (ch : ℕ) (hch : ch < 23) (mem synthPrev : ℕ → ℝ)
    (pitchPrev : ℕ → ℕ) (gainPrev prev : ℕ → ℝ) :
    lpdBpf short acelp h ch mem synthPrev pitchPrev gainPrev prev = .err (.other 0xFFFF980C) ↔
      ∃ i j : ℕ, source short acelp i = some j ∧ 411 + 64 * i < pitchPrev j := by
  have hu : ¬ 24 * 1024 < ch * 1024 + 1536 := by omega
  have hb : (∃ i : ℕ, i < 9 ∧ badLag i (lags short acelp pitchPrev i)) ↔
      ∃ i j : ℕ, source short acelp i = some j ∧ 411 + 64 * i < pitchPrev j := by
    constructor
    · rintro ⟨i, hi, hb⟩
      have hl : 411 + 64 * i < lags short acelp pitchPrev i := by
        unfold badLag at hb
        omega
      rw [source_lags] at hl
      cases hj : source short acelp i with
      | none => rw [hj] at hl; simp only [Option.map_none, Option.getD_none] at hl; omega
      | some j => rw [hj] at hl; exact ⟨i, j, hj, hl⟩
    · rintro ⟨i, j, hj, hl⟩
      have h9 : i < 9 := by
        have hA : active short acelp ≤ 9 := by cases short <;> cases acelp <;> decide
        unfold source at hj
        split at hj
        · omega
        · split at hj
          · omega
          · exact absurd hj (by simp)
      refine ⟨i, h9, Or.inl ?_⟩
      rw [source_lags, hj]
      simp only [Option.map_some, Option.getD_some]
      omega
  rw [← hb]
  unfold lpdBpf
  rw [if_neg hu]
  constructor
  · intro he
    by_contra hn
    rw [if_neg hn] at he
    obtain ⟨p, o, e⟩ := C337_accepted false h (synthOf (fun k => mem (ch * 1024 + k)) synthPrev)
      (synthOf (fun k => mem (ch * 1024 + k)) synthPrev) (lags short acelp pitchPrev)
      (calcGains (synthOf (fun k => mem (ch * 1024 + k)) synthPrev)
        (lags short acelp pitchPrev) (gains short acelp gainPrev)) 11 256 prev
      (fun k => mem (ch * 1024 + k)) (lags_ok _ _ _ hn)
    exact absurd (he.symm.trans e) (by simp)
  · intro hn
    rw [if_pos hn]

/-! ## Examples -/

/-- A frame that is filtered. -/
example : ∃ prev' out, lpdBpf false true (fun _ => 1) 3 (fun k => k) (fun _ => 0) (fun _ => 100)
    (fun _ => 1) (fun _ => 0) = .ok (prev', out) := by
  rcases C343_channels_partial false true (fun _ => 1) 3 (by omega) (fun k => k) (fun k => k) (fun _ => 0)
    (fun _ => 100) (fun _ => 1) (fun _ => 0) (fun _ _ => rfl) with ⟨p1, -, o1, -, h, -⟩ | ⟨h, -⟩
  · exact ⟨p1, o1, h⟩
  · exfalso
    unfold lpdBpf at h
    rw [if_neg (by omega), if_neg] at h
    · obtain ⟨p, o, e⟩ := C337_accepted false (fun _ => 1) _ _ (lags false true fun _ => 100) _ 11 256
        (fun _ => 0) _ (fun i hi => by unfold lags; split <;> [skip; split] <;> (try simp only) <;> omega)
      exact absurd (h.symm.trans e) (by simp)
    · rintro ⟨i, hi, hb⟩
      have hl : lags false true (fun _ => 100) i = 100 := by
        unfold lags
        split
        · rfl
        · rw [if_pos (by simp; omega)]
      rw [hl] at hb
      unfold badLag at hb
      omega

end Verif.Props.LpdBpf
