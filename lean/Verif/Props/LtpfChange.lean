import Verif.Props.Ltpf
import Mathlib.Algebra.BigOperators.Group.Finset.Basic
import Mathlib.Algebra.BigOperators.Intervals
import Mathlib.Algebra.BigOperators.Ring.Finset

/-! # Changes of the lag of the long term post filter: C287, C288 -/

namespace Verif.Ltpf

open Finset

/-! ## C287: the prediction -/

/-- Correlation of the prediction error of order `m` with the sample `i` before. -/
def errorCorr (r a : Nat → ℚ) (m i : Nat) : ℚ := ∑ j ∈ range (m + 1), a j * r ((i : Int) - j).natAbs

/-- The coefficients of the best prediction of order `m`: the normal equations hold. -/
structure Normal (r a : Nat → ℚ) (m : Nat) : Prop where
  one : a 0 = 1
  end_ : ∀ j, m < j → a j = 0
  eqs : ∀ i, 1 ≤ i → i ≤ m → errorCorr r a m i = 0

/-- One round of the recursion. -/
theorem step_corr (r a a' : Nat → ℚ) (m : Nat) (k : ℚ) (hm : a (m + 1) = 0)
    (ha : ∀ j, j ≤ m + 1 → a' j = a j + k * a (m + 1 - j)) (i : Nat) (hi : i ≤ m + 1) :
    errorCorr r a' (m + 1) i = errorCorr r a m i + k * errorCorr r a m (m + 1 - i) := by
  unfold errorCorr
  have e1 : ∑ j ∈ range (m + 1 + 1), a' j * r ((i : Int) - j).natAbs =
      ∑ j ∈ range (m + 1 + 1), a j * r ((i : Int) - j).natAbs + k * ∑ j ∈ range (m + 1 + 1), a (m + 1 - j) * r ((i : Int) - j).natAbs := by
    rw [mul_sum, ← sum_add_distrib]
    refine Finset.sum_congr rfl fun j hj => ?_
    rw [ha j (by have := mem_range.1 hj; omega)]
    ring
  have e2 : ∑ j ∈ range (m + 1 + 1), a (m + 1 - j) * r ((i : Int) - j).natAbs = ∑ j ∈ range (m + 1 + 1), a j * r (((m + 1 - i : Nat) : Int) - j).natAbs := by
    rw [← sum_range_reflect (fun j => a j * r (((m + 1 - i : Nat) : Int) - j).natAbs)]
    refine Finset.sum_congr rfl fun j hj => ?_
    have := mem_range.1 hj
    rw [show m + 1 + 1 - 1 - j = m + 1 - j by omega]
    congr 2
    omega
  rw [e1, e2, sum_range_succ _ (m + 1), sum_range_succ _ (m + 1), hm]
  ring

theorem list_sum (n : Nat) (f : Nat → ℚ) : ((List.range n).map f).sum = ∑ j ∈ range n, f j := by
  induction n with
  | zero => rfl
  | succ n ih => rw [List.range_succ, List.map_append, List.sum_append, ih, sum_range_succ]; simp

theorem lev_normal (r : Nat → ℚ) (h0 : r 0 ≠ 0) (hs : ∀ n, (levRun r n).stopped = false → (levRun r n).sigma ≠ 0) (n : Nat) :
    ((levRun r n).stopped = false → Normal r (levRun r n).a (n + 1) ∧ (levRun r n).sigma = errorCorr r (levRun r n).a (n + 1) 0) ∧
    ((levRun r n).stopped = true → (levRun r n).sigma ≤ 1 / 1000000000 ∧ ∃ m, 1 ≤ m ∧ m ≤ n ∧ Normal r (levRun r n).a m) := by
  induction n with
  | zero =>
    refine ⟨fun _ => ⟨⟨rfl, fun j hj => ?_, fun i h1 h2 => ?_⟩, ?_⟩, fun h => by simp [levRun, levStart] at h⟩
    · show (if j = 0 then _ else if j = 1 then _ else (0 : ℚ)) = 0
      rw [if_neg (by omega), if_neg (by omega)]
    · obtain rfl : i = 1 := by omega
      unfold errorCorr
      rw [sum_range_succ, sum_range_succ, sum_range_zero]
      simp [levRun, levStart]
      field_simp
      ring
    · unfold errorCorr
      rw [sum_range_succ, sum_range_succ, sum_range_zero]
      simp [levRun, levStart]
      ring
  | succ n ih =>
    have hstep : levRun r (n + 1) = levStep r (n + 2) (levRun r n) := rfl
    by_cases hst : (levRun r n).stopped = true
    · have : levRun r (n + 1) = levRun r n := by rw [hstep]; unfold levStep; rw [if_pos hst]
      rw [this]
      refine ⟨fun h => by rw [hst] at h; simp at h, fun _ => ?_⟩
      obtain ⟨h1, m, h2, h3, h4⟩ := ih.2 hst
      exact ⟨h1, m, h2, by omega, h4⟩
    · have hf : (levRun r n).stopped = false := by simpa using hst
      obtain ⟨hn, hsig⟩ := ih.1 hf
      have hne := hs n hf
      generalize hS : levRun r n = S at *
      have hsum : ((List.range (n + 2)).map (fun j => r (n + 2 - j) * S.a j)).sum = errorCorr r S.a (n + 1) (n + 2) := by
        unfold errorCorr
        rw [list_sum]
        refine Finset.sum_congr rfl fun j hj => ?_
        have := mem_range.1 hj
        rw [mul_comm, show (((n + 2 : Nat) : Int) - j).natAbs = n + 2 - j by omega]
      rw [hstep]
      unfold levStep
      rw [if_neg (by rw [hf]; simp)]
      simp only [hsum]
      set k : ℚ := -errorCorr r S.a (n + 1) (n + 2) / S.sigma with hk
      have hkm : errorCorr r S.a (n + 1) (n + 2) = -k * S.sigma := by rw [hk]; field_simp
      split
      · rename_i hle
        refine ⟨fun h => by simp at h, fun _ => ⟨hle, n + 1, by omega, by omega, ⟨?_, fun j hj => ?_, fun i h1 h2 => ?_⟩⟩⟩
        · simp only
          rw [if_neg (by omega), hn.one]
        · show (if n + 2 ≤ j then (0 : ℚ) else _) = 0
          rw [if_pos (by omega)]
        · refine Eq.trans ?_ (hn.eqs i h1 h2)
          refine Finset.sum_congr rfl fun j hj => ?_
          have := mem_range.1 hj
          simp only
          rw [if_neg (by omega)]
      · set a' : Nat → ℚ := fun j => if j = 0 then S.a 0 else if j < n + 2 then S.a j + k * S.a (n + 2 - j) else if j = n + 2 then k else S.a j with ha'
        have hend : S.a (n + 2) = 0 := hn.end_ _ (by omega)
        have ha : ∀ j, j ≤ n + 1 + 1 → a' j = S.a j + k * S.a (n + 1 + 1 - j) := by
          intro j hj
          rw [ha']
          simp only
          by_cases h0 : j = 0
          · rw [if_pos h0, h0, show n + 1 + 1 - 0 = n + 2 from rfl, hend]; ring
          · rw [if_neg h0]
            by_cases h1 : j < n + 2
            · rw [if_pos h1]
            · obtain rfl : j = n + 2 := by omega
              rw [if_neg h1, if_pos rfl, hend, show n + 1 + 1 - (n + 2) = 0 by omega, hn.one]; ring
        have key := step_corr r S.a a' (n + 1) k hend ha
        refine ⟨fun _ => ⟨⟨?_, fun j hj => ?_, fun i h1 h2 => ?_⟩, ?_⟩, fun h => by simp at h⟩
        · show a' 0 = 1
          rw [ha', ← hn.one]; rfl
        · show a' j = 0
          rw [ha']
          simp only
          rw [if_neg (by omega), if_neg (by omega), if_neg (by omega), hn.end_ j (by omega)]
        · show errorCorr r a' (n + 1 + 1) i = 0
          rw [key i h2]
          by_cases hi : i ≤ n + 1
          · rw [hn.eqs i h1 hi, hn.eqs (n + 1 + 1 - i) (by omega) (by omega)]; ring
          · obtain rfl : i = n + 2 := by omega
            rw [hkm, show n + 1 + 1 - (n + 2) = 0 by omega, ← hsig]; ring
        · show S.sigma * (1 - k * k) = errorCorr r a' (n + 1 + 1) 0
          rw [key 0 (by omega), ← hsig, show n + 1 + 1 - 0 = n + 2 from rfl, hkm]; ring

/-- **C287** The prediction that a change of the lag uses is the best one of order 24 for the last quarter of a frame before it, or one of a smaller order for which less than 10^-9 is left. -/
theorem C287_prediction (y : Int → ℚ) (base : Int) (len : Nat) :
    ∃ m, 1 ≤ m ∧ m ≤ 24 ∧ Normal (floored (corr y base len)) (lpc y base len) m ∧
      (m < 24 → (levRun (floored (corr y base len)) 23).stopped = true ∧ (levRun (floored (corr y base len)) 23).sigma ≤ 1 / 1000000000) := by
  have h0 := (C255_no_division_by_zero y base len 0).1
  have h := lev_normal (floored (corr y base len)) (by linarith) (fun n hn => ((C255_no_division_by_zero y base len n).2 hn).ne') 23
  by_cases hs : (levRun (floored (corr y base len)) 23).stopped = true
  · obtain ⟨h1, m, h2, h3, h4⟩ := h.2 hs
    exact ⟨m, h2, by omega, h4, fun _ => ⟨hs, h1⟩⟩
  · have hf : (levRun (floored (corr y base len)) 23).stopped = false := by simpa using hs
    exact ⟨24, by omega, by omega, (h.1 hf).1, fun h => by omega⟩

/-- **C287** The energy that is left by the prediction is what the recursion says. -/
theorem C287_energy (y : Int → ℚ) (base : Int) (len n : Nat) (hs : (levRun (floored (corr y base len)) n).stopped = false) :
    (levRun (floored (corr y base len)) n).sigma = errorCorr (floored (corr y base len)) (levRun (floored (corr y base len)) n).a (n + 1) 0 :=
  ((lev_normal (floored (corr y base len)) (by have := (C255_no_division_by_zero y base len 0).1; linarith) (fun n hn => ((C255_no_division_by_zero y base len n).2 hn).ne') n).1 hs).2

example : (levRun (floored (corr (fun _ => 100) 0 256)) 2).stopped = false := by decide +kernel

/-! ## C288: the transition -/

/-- How far the output is from that of a filter. -/
def deviation (q : Par) (X Y : Int → ℚ) (t : Int) : ℚ :=
  X t + q.gain * ((List.range 8).map (fun k : Nat => Y (t - q.lag - 4 + k) * taps1 q.fr k)).sum - 19 / 20 * q.gain * ((List.range 7).map (fun k : Nat => X (t - k) * taps2 q.idx k)).sum - Y t

/-- The response of a prediction filter: `r` goes on from `at` as predicted from the 24 values before. -/
def GoesOn (a : Nat → ℚ) (r : Int → ℚ) (len : Nat) : Prop := ∀ n : Nat, n < len → r n = -∑ k ∈ range 24, a (k + 1) * r (n - 1 - k)

/-- The response fades out in its second half. -/
def fading (len n : Nat) : ℚ := if n < len / 2 then 1 else 1 - ((n - len / 2 : Nat) : ℚ) / (len / 2 : Nat)

theorem ring_mono (a b : Nat → ℚ) (n d j : Nat) (h : j < 24 + n) : ring a b (n + d) j = ring a b n j := by
  induction d with
  | zero => rfl
  | succ d ih =>
    show (if j = 24 + (n + d) then _ else ring a b (n + d) j) = _
    rw [if_neg (by omega), ih]

theorem ring_next (a b : Nat → ℚ) (len n : Nat) (h : n < len) : ring a b len (24 + n) = -∑ k ∈ range 24, a (k + 1) * ring a b len (23 + n - k) := by
  have e : ring a b len (24 + n) = ring a b (n + 1) (24 + n) := by
    rw [show len = n + 1 + (len - (n + 1)) by omega, ring_mono _ _ _ _ _ (by omega)]
  rw [e]
  show (if 24 + n = 24 + n then _ else _) = _
  rw [if_pos rfl, list_sum]
  congr 1
  refine Finset.sum_congr rfl fun k hk => ?_
  have := mem_range.1 hk
  rw [show len = n + (len - n) by omega, ring_mono _ _ _ _ _ (by omega)]

theorem ring_first (a b : Nat → ℚ) (len j : Nat) (h : j < 24) : ring a b len j = b j := by
  rw [show len = 0 + len by omega, ring_mono _ _ _ _ _ (by omega)]; rfl

theorem lpc_congr {y y' : Int → ℚ} {base : Int} {len : Nat} (h : ∀ i, base - len ≤ i → i < base → y i = y' i) : lpc y base len = lpc y' base len := by
  unfold lpc; rw [corr_congr h]

/-- **C288** When a filter follows another one, the output starts with the deviation from the new filter that it had before, which goes on as predicted from the last quarter of a frame and is
faded out; from then on the output is that of the new filter (C251). -/
theorem C288_transition (p : Int) (hp : 0 ≤ p) (len : Nat) (hl : 48 ≤ len) (st : State) (d : Data) (f : Nat → ℚ) (ho : Fits (lagMax p) st.par) (hq : Fits (lagMax p) (parOf p d)) (X Y Y' : Int → ℚ) (t : Int)
    (hf : Follows (lagMax p) st X Y t) (hx : ∀ n : Nat, n < len → X (t + n) = f n) (h1 : ∀ s < t, Y' s = Y s) (h2 : ∀ n : Nat, n < len → Y' (t + n) = (process p len st d f).1 n)
    (g0 : st.par.gain ≠ 0) (g1 : (parOf p d).gain ≠ 0)
    (hne : ¬ ((parOf p d).gain = st.par.gain ∧ (parOf p d).lag = st.par.lag ∧ (parOf p d).fr = st.par.fr)) :
    ∃ (a : Nat → ℚ) (r : Int → ℚ), (∃ m, 1 ≤ m ∧ m ≤ 24 ∧ Normal (floored (corr Y' (t + (len / 2 : Nat)) (len / 4))) a m) ∧
      (∀ j : Nat, 1 ≤ j → j ≤ 24 → r (-j) = deviation (parOf p d) X Y' (t + (len / 2 : Nat) - j)) ∧ GoesOn a r (len / 8) ∧
      ∀ n : Nat, n < len / 8 → deviation (parOf p d) X Y' (t + (len / 2 : Nat) + n) = fading (len / 8) n * r n := by
  have hpm : 0 ≤ lagMax p := by unfold lagMax; omega
  set pm := lagMax p with hpmd
  set q := parOf p d with hqd
  set x := inputOf st f with hxd
  set y := parts x len st.par q (outputOf pm len st x) with hyd
  have hproc : (process p len st d f).1 = fun n : Nat => y n := rfl
  have hxX : ∀ i : Int, -6 ≤ i → i < len → x i = X (t + i) := fun i h1 h2 => inputOf_eq hf hx h1 h2
  have hyY : ∀ i : Int, -(pm + 4) ≤ i → i < len → y i = Y' (t + i) := by
    intro i a1 a2
    by_cases h0 : 0 ≤ i
    · obtain ⟨n, rfl⟩ := Int.eq_ofNat_of_zero_le h0
      rw [h2 n (by omega), hproc]
    · rw [hyd, parts_before _ _ _ _ _ _ (by omega), h1 _ (by omega)]
      unfold outputOf
      rw [if_neg h0, if_pos a1, hf.output _ (by omega), Int.toNat_of_nonneg (by omega)]
      congr 1
      ring
  have g4 : ∀ r : Par, Fits pm r → r.gain = 0 ∨ 4 ≤ r.lag := fun r h => h.imp id (fun h => h.1)
  obtain ⟨-, f2, -⟩ := parts_fixed x len st.par q (g4 _ ho) (g4 _ hq) (outputOf pm len st x)
  rw [← hyd] at f2
  obtain ⟨l1, l2⟩ := hq.resolve_left g1
  have dev : ∀ i : Int, 0 ≤ i → i < len → deviation q X Y' (t + i) = lack x y q i := by
    intro i i0 i1
    unfold deviation lack
    have e1 : old y q i = ((List.range 8).map (fun k : Nat => Y' (t + i - q.lag - 4 + k) * taps1 q.fr k)).sum := by
      apply sum_congr
      intro k hk
      have := List.mem_range.mp hk
      rw [hyY _ (by omega) (by omega)]
      congr 2
      ring
    have e2 : new x q i = ((List.range 7).map (fun k : Nat => X (t + i - k) * taps2 q.idx k)).sum := by
      apply sum_congr
      intro k hk
      have := List.mem_range.mp hk
      rw [hxX _ (by omega) (by omega)]
      congr 2
      ring
    rw [e1, e2, hxX i (by omega) i1, hyY i (by omega) i1]
    ring
  set base : Int := ((len / 2 : Nat) : Int) with hbase
  set a := lpc y base (len / 4) with ha
  set b : Nat → ℚ := fun j => if j < 24 then lack x y q (base + j - 24) else 0 with hb
  have hz : ∀ n : Nat, n < len / 8 → lack x y q (base + n) = fading (len / 8) n * ring a b (len / 8) (24 + n) := by
    intro n hn
    obtain ⟨y1, e1, e⟩ := f2 n hn
    have hlp : lpc y1 base (len / 4) = a := by
      rw [ha]
      exact lpc_congr fun i _ hi => e1 i hi
    have hbb : (fun j => if j < 24 then lack x y1 q (base + (j : Nat) - 24) else 0) = b := by
      funext j
      rw [hb]
      simp only
      split
      · exact lack_congr g1 hq (by omega) (fun _ _ _ => rfl) (fun i _ hi => e1 i (by omega))
      · rfl
    have hc : change x len st.par q y1 = (q, .minus (zir x y1 base (len / 8) (lpc y1 base (len / 4)) q), fun i => if (len : Int) ≤ i ∧ i < len + (len / 8 : Nat) then
        (zir x y1 base (len / 8) (lpc y1 base (len / 4)) q) (i - len).toNat else y1 i) := by
      unfold change
      rw [if_neg (fun h => hne (same_iff.mp h)), if_neg g0, if_neg g1]
    rw [hc] at e
    simp only at e
    rw [if_neg g1] at e
    unfold sample at e
    simp only at e
    have hzir : zir x y1 base (len / 8) (lpc y1 base (len / 4)) q n = fading (len / 8) n * ring a b (len / 8) (24 + n) := by
      unfold zir fading
      simp only
      rw [hlp, hbb]
      split
      · rw [one_mul]
      · rw [mul_comm]
    rw [hzir] at e
    unfold lack
    rw [e]
    ring
  refine ⟨a, fun i => ring a b (len / 8) (24 + i).toNat, ?_, fun j j1 j2 => ?_, fun n hn => ?_, fun n hn => ?_⟩
  · obtain ⟨m, m1, m2, m3, -⟩ := C287_prediction Y' (t + base) (len / 4)
    have : lpc Y' (t + base) (len / 4) = a := by
      rw [ha]
      unfold lpc
      have : corr Y' (t + base) (len / 4) = corr y base (len / 4) := by
        funext i
        refine sum_congr fun j hj => ?_
        have := List.mem_range.mp hj
        rw [hyY _ (by omega) (by omega), hyY _ (by omega) (by omega)]
        congr 2 <;> ring
      rw [this]
    rw [this] at m3
    exact ⟨m, m1, m2, m3⟩
  · show ring a b (len / 8) (24 + -(j : Int)).toNat = _
    rw [show (24 + -(j : Int)).toNat = 24 - j by omega, ring_first _ _ _ _ (by omega), show t + base - j = t + (base - j) by ring, dev _ (by omega) (by omega), hb]
    simp only
    rw [if_pos (by omega)]
    congr 1
    omega
  · show ring a b (len / 8) (24 + (n : Int)).toNat = -∑ k ∈ range 24, a (k + 1) * ring a b (len / 8) (24 + ((n : Int) - 1 - k)).toNat
    rw [show (24 + (n : Int)).toNat = 24 + n by omega, ring_next _ _ _ _ hn]
    congr 1
    refine Finset.sum_congr rfl fun k hk => ?_
    have := mem_range.1 hk
    rw [show (24 + ((n : Int) - 1 - k)).toNat = 23 + n - k by omega]
  · show _ = _ * ring a b (len / 8) (24 + (n : Int)).toNat
    rw [show (24 + (n : Int)).toNat = 24 + n by omega, show t + base + n = t + (base + n) by ring, dev _ (by omega) (by omega), hz n hn]

/-- The hypotheses are met by two frames with lags of their own. -/
example : ¬ ((parOf 52 ⟨true, 10, 1⟩).gain = (parOf 52 ⟨true, 100, 1⟩).gain ∧ (parOf 52 ⟨true, 10, 1⟩).lag = (parOf 52 ⟨true, 100, 1⟩).lag ∧
    (parOf 52 ⟨true, 10, 1⟩).fr = (parOf 52 ⟨true, 100, 1⟩).fr) ∧ (parOf 52 ⟨true, 10, 1⟩).gain ≠ 0 := by decide +kernel

/-! ## C252: the taps -/

/-- **C252** The taps for the output are those of a symmetric filter, and those of both filters pass a constant, within 10^-6 and 10^-7. -/
theorem C252_taps : (∀ k, 1 ≤ k → k < 8 → taps1 0 k = taps1 0 (8 - k)) ∧ taps1 0 0 = 0 ∧ (∀ k, k < 8 → taps1 1 k = taps1 1 (7 - k)) ∧
    (∀ fr, fr < 2 → |((List.range 8).map (taps1 fr)).sum - 1| ≤ 1 / 1000000) ∧ ∀ i, i < 4 → |((List.range 7).map (taps2 i)).sum - 1| ≤ 1 / 10000000 := by
  refine ⟨?_, by decide +kernel, by decide +kernel, by decide +kernel, by decide +kernel⟩
  have : ∀ k < 8, 1 ≤ k → taps1 0 k = taps1 0 (8 - k) := by decide +kernel
  exact fun k h1 h2 => this k h2 h1

end Verif.Ltpf
