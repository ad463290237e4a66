import Verif.Spec.Ltpf
import Mathlib.Tactic.Linarith
import Mathlib.Tactic.Ring
import Mathlib.Tactic.NormNum
import Mathlib.Algebra.Order.BigOperators.Group.List

/-! # C249 to C255: the long term post filter -/

namespace Verif.Ltpf

/-! ## C249, C250: lags -/

/-- The lag of a code in halves of samples. -/
def halves (p : Int) (code : Nat) : Int := 2 * (lagOf p code).1 + (lagOf p code).2

/-- **C249** From sampling rates of 16942 Hz on, the 512 codes are for different lags, in order, from the smallest to the largest lag, in halves of samples; fractions are 0 or 1. -/
theorem C249_lags (rate : Nat) (h1 : 16942 ≤ rate) (h2 : rate ≤ 48000) :
    halves (lagMin rate) 0 = 2 * lagMin rate ∧ halves (lagMin rate) 511 = 2 * lagMax (lagMin rate) ∧
    (∀ c c', c < c' → c' < 512 → halves (lagMin rate) c < halves (lagMin rate) c') ∧
    ∀ c < 512, (lagOf (lagMin rate) c).2 ≤ 1 ∧ lagMin rate ≤ (lagOf (lagMin rate) c).1 ∧ (lagOf (lagMin rate) c).1 ≤ lagMax (lagMin rate) := by
  obtain ⟨m, hm, hm1, hm2⟩ : ∃ m : Int, lagMin rate = m * 2 ∧ 23 ≤ m ∧ m ≤ 64 := ⟨(17 * (rate : Int) + 6400) / 12800, rfl, by omega, by omega⟩
  rw [hm]
  have hv : ∀ c, halves (m * 2) c = if (c : Int) < 648 - 8 * m then 4 * m + c else if (c : Int) < 644 - 6 * m then 2 * (c - 324 + 6 * m) else 4 * (c - 644 + 6 * m) + 640 := by
    intro c
    unfold halves
    by_cases a1 : (c : Int) < (324 - m * 2 - m * 2) * 2
    · rw [show lagOf (m * 2) c = (m * 2 + (c / 2 : Nat), c - c / 2 * 2) from if_pos a1, if_pos (by omega)]
      simp only
      omega
    by_cases a2 : (c : Int) < (324 - m * 2 - m * 2) * 2 + (320 - (324 - m * 2)) * 1
    · rw [show lagOf (m * 2) c = (324 - m * 2 + c - (324 - m * 2 - m * 2) * 2, 0) from (if_neg a1).trans (if_pos a2), if_neg (by omega), if_pos (by omega)]
      simp only
      omega
    · rw [show lagOf (m * 2) c = ((c - (324 - m * 2 - m * 2) * 2 - (320 - (324 - m * 2))) * 2 + 320, 0) from (if_neg a1).trans (if_neg a2), if_neg (by omega), if_neg (by omega)]
      simp only
      omega
  refine ⟨?_, ?_, fun c c' h h' => ?_, fun c h => ?_⟩
  · rw [hv]
    split <;> omega
  · rw [hv, lagMax]
    split <;> [skip; split] <;> omega
  · rw [hv, hv]
    split <;> split <;> (try split) <;> omega
  · unfold lagOf lagMax
    simp only
    split <;> [skip; split] <;> (simp only; omega)

example : lagOf (lagMin 48000) 0 = (128, 0) ∧ lagOf (lagMin 48000) 511 = (822, 0) ∧ lagOf (lagMin 24000) 3 = (65, 1) := by decide

/-- **C250** At 16000 Hz the largest lag of a code, 313, is above the largest lag that samples are kept for. -/
theorem C250_lag_refuted : lagOf (lagMin 16000) 511 = (313, 0) ∧ lagMax (lagMin 16000) = 306 := by decide

/-! ## Parts of a frame -/

theorem sum_congr {l : List Nat} {f g : Nat → ℚ} (h : ∀ k ∈ l, f k = g k) : (l.map f).sum = (l.map g).sum := by
  rw [List.map_congr_left h]

theorem old_congr {y y' : Int → ℚ} {q : Par} (hq : 4 ≤ q.lag) {t : Int} (h : ∀ i, t - q.lag - 4 ≤ i → i < t → y i = y' i) : old y q t = old y' q t :=
  sum_congr (fun k hk => by
    have := List.mem_range.mp hk
    rw [h _ (by omega) (by omega)])

theorem sample_congr {x : Int → ℚ} {q : Par} (hq : 4 ≤ q.lag) {m : Mode} {len : Nat} {base : Int} {n : Nat} {y y' : Int → ℚ}
    (h : ∀ i, base + n - q.lag - 4 ≤ i → i < base + n → y i = y' i) : sample x q m len base n y = sample x q m len base n y' := by
  unfold sample
  simp only
  rw [old_congr hq h]

theorem part_other (x : Int → ℚ) (q : Par) (m : Mode) (len : Nat) (base : Int) (n : Nat) (y : Int → ℚ) (i : Int) (h : i < base ∨ base + n ≤ i) : part x q m len base n y i = y i := by
  induction n with
  | zero => rfl
  | succ n ih =>
    show put _ _ _ i = _
    unfold put
    rw [if_neg (by omega), ih (by omega)]

theorem part_at (x : Int → ℚ) (q : Par) (m : Mode) (len : Nat) (base : Int) (n k : Nat) (h : k < n) (y : Int → ℚ) :
    part x q m len base n y (base + k) = if q.gain = 0 then x (base + k) else sample x q m len base k (part x q m len base k y) := by
  induction n with
  | zero => omega
  | succ n ih =>
    show put _ _ _ _ = _
    unfold put
    by_cases hk : k = n
    · subst hk
      rw [if_pos rfl]
    · rw [if_neg (by omega), ih (by omega)]

/-- The samples of a part, from the memory after the part. -/
theorem part_fixed (x : Int → ℚ) (q : Par) (hq : q.gain = 0 ∨ 4 ≤ q.lag) (m : Mode) (len : Nat) (base : Int) (n k : Nat) (h : k < n) (y : Int → ℚ) :
    part x q m len base n y (base + k) = if q.gain = 0 then x (base + k) else sample x q m len base k (part x q m len base n y) := by
  rw [part_at _ _ _ _ _ _ _ h]
  split
  · rfl
  · rename_i hg
    refine sample_congr (hq.resolve_left hg) (fun i _ hi => ?_)
    have : ∀ d, part x q m len base (k + d) y i = part x q m len base k y i := by
      intro d
      induction d with
      | zero => rfl
      | succ d ih =>
        show put (part x q m len base (k + d) y) (base + ((k + d : Nat) : Int)) _ i = _
        unfold put
        rw [if_neg (by push_cast; omega), ih]
    rw [← this (n - k), show k + (n - k) = n by omega]

theorem change_below (x : Int → ℚ) (len : Nat) (o q : Par) (y : Int → ℚ) (i : Int) (h : i < len) : (change x len o q y).2.2 i = y i := by
  unfold change
  split
  · rfl
  split
  · rfl
  split
  · rfl
  · show (if (len : Int) ≤ i ∧ _ then _ else _) = _
    rw [if_neg (by omega)]

theorem change_par (x : Int → ℚ) (len : Nat) (o q : Par) (y : Int → ℚ) : (change x len o q y).1 = q ∨ (change x len o q y).1 = o := by
  unfold change
  split
  · exact .inl rfl
  split
  · exact .inl rfl
  split
  · exact .inr rfl
  · exact .inl rfl

theorem parts_before (x : Int → ℚ) (len : Nat) (o q : Par) (y : Int → ℚ) (i : Int) (h : i < 0) : parts x len o q y i = y i := by
  unfold parts
  rw [part_other _ _ _ _ _ _ _ _ (.inl (by omega)), part_other _ _ _ _ _ _ _ _ (.inl (by omega)), change_below _ _ _ _ _ _ (by omega), part_other _ _ _ _ _ _ _ _ (.inl h)]

/-- All samples of a frame from the memory after it. -/
theorem parts_fixed (x : Int → ℚ) (len : Nat) (o q : Par) (ho : o.gain = 0 ∨ 4 ≤ o.lag) (hq : q.gain = 0 ∨ 4 ≤ q.lag) (y : Int → ℚ) :
    (∀ n : Nat, n < len / 2 → parts x len o q y n = if o.gain = 0 then x n else sample x o .plain (len / 2) 0 n (parts x len o q y)) ∧
    (∀ n : Nat, n < len / 8 → ∃ y1, (∀ i : Int, i < (len / 2 : Nat) → y1 i = parts x len o q y i) ∧
      parts x len o q y ((len / 2 : Nat) + n) = if (change x len o q y1).1.gain = 0 then x ((len / 2 : Nat) + n)
        else sample x (change x len o q y1).1 (change x len o q y1).2.1 (len / 8) (len / 2 : Nat) n (parts x len o q y)) ∧
    ∀ n : Nat, len / 2 + len / 8 ≤ n → n < len → parts x len o q y n =
      if q.gain = 0 then x n else sample x q .plain (len - len / 2 - len / 8) (len / 2 + len / 8 : Nat) (n - (len / 2 + len / 8)) (parts x len o q y) := by
  have e : parts x len o q y = part x q .plain (len - len / 2 - len / 8) (len / 2 + len / 8 : Nat) (len - len / 2 - len / 8)
      (part x (change x len o q (part x o .plain (len / 2) 0 (len / 2) y)).1 (change x len o q (part x o .plain (len / 2) 0 (len / 2) y)).2.1 (len / 8) (len / 2 : Nat) (len / 8)
        (change x len o q (part x o .plain (len / 2) 0 (len / 2) y)).2.2) := rfl
  set y1 := part x o .plain (len / 2) 0 (len / 2) y with hy1
  set y2 := part x (change x len o q y1).1 (change x len o q y1).2.1 (len / 8) (len / 2 : Nat) (len / 8) (change x len o q y1).2.2 with hy2
  have e2 : ∀ i : Int, i < (len / 2 + len / 8 : Nat) → parts x len o q y i = y2 i := by
    intro i hi
    rw [e, part_other _ _ _ _ _ _ _ _ (.inl hi)]
  have e1 : ∀ i : Int, i < (len / 2 : Nat) → parts x len o q y i = y1 i := by
    intro i hi
    rw [e2 i (by omega), hy2, part_other _ _ _ _ _ _ _ _ (.inl hi), change_below _ _ _ _ _ _ (by omega)]
  refine ⟨fun n hn => ?_, fun n hn => ⟨y1, fun i hi => (e1 i hi).symm, ?_⟩, fun n hn1 hn2 => ?_⟩
  · have h := part_fixed x o ho .plain (len / 2) 0 (len / 2) n hn y
    rw [← hy1, zero_add] at h
    rw [e1 n (by omega), h]
    split
    · rfl
    · rename_i hg
      exact sample_congr (ho.resolve_left hg) (fun i _ hi => (e1 i (by omega)).symm)
  · have hc : (change x len o q y1).1.gain = 0 ∨ 4 ≤ (change x len o q y1).1.lag := by
      rcases change_par x len o q y1 with h | h <;> rw [h] <;> assumption
    have h := part_fixed x _ hc (change x len o q y1).2.1 (len / 8) (len / 2 : Nat) (len / 8) n hn (change x len o q y1).2.2
    rw [← hy2] at h
    rw [e2 _ (by omega), h]
    split
    · rfl
    · rename_i hg
      exact sample_congr (hc.resolve_left hg) (fun i _ hi => (e2 i (by omega)).symm)
  · have h := part_fixed x q hq .plain (len - len / 2 - len / 8) (len / 2 + len / 8 : Nat) (len - len / 2 - len / 8) (n - (len / 2 + len / 8)) (by omega) y2
    rw [← e, show (((len / 2 + len / 8 : Nat) : Int) + ((n - (len / 2 + len / 8) : Nat) : Int)) = n by omega] at h
    exact h

/-! ## C251: signals -/

theorem inputOf_eq {pm : Int} {st : State} {X Y : Int → ℚ} {t : Int} (hf : Follows pm st X Y t) {len : Nat} {f : Nat → ℚ} (hx : ∀ n : Nat, n < len → X (t + n) = f n) {i : Int}
    (h1 : -6 ≤ i) (h2 : i < len) : inputOf st f i = X (t + i) := by
  unfold inputOf
  split
  · rename_i h
    rw [← hx i.toNat (by omega), Int.toNat_of_nonneg h]
  · rw [hf.input _ (by omega), Int.toNat_of_nonneg (by omega)]
    congr 1
    omega

/-- A sample of the filter, in terms of signals. -/
theorem filtered_of {pm : Int} (hpm : 0 ≤ pm) {q : Par} (hq : Fits pm q) {x y X Y : Int → ℚ} {t : Int} {len : Nat} (hx : ∀ i : Int, -6 ≤ i → i < len → x i = X (t + i))
    (hy : ∀ i : Int, -(pm + 4) ≤ i → i < len → y i = Y (t + i)) {n : Int} (h0 : 0 ≤ n) (hn : n < len) {a : ℚ}
    (h : y n = if q.gain = 0 then x n else x n + a * (q.gain * old y q n - 19 / 20 * (q.gain * new x q n))) : Filtered q a X Y (t + n) := by
  by_cases hg : q.gain = 0
  · rw [if_pos hg, hx n (by omega) hn] at h
    unfold Filtered
    have hl : Y (t + n) = X (t + n) := by rw [← hy n (by omega) hn, h]
    rw [hl, hg]
    ring
  · rcases hq.resolve_left hg with ⟨l1, l2⟩
    rw [if_neg hg, hy n (by omega) hn, hx n (by omega) hn] at h
    unfold Filtered
    rw [h]
    have e1 : old y q n = ((List.range 8).map (fun k : Nat => Y (t + n - q.lag - 4 + k) * taps1 q.fr k)).sum := by
      apply sum_congr
      intro k hk
      have := List.mem_range.mp hk
      rw [hy _ (by omega) (by omega)]
      congr 2
      ring
    have e2 : new x q n = ((List.range 7).map (fun k : Nat => X (t + n - k) * taps2 q.idx k)).sum := by
      apply sum_congr
      intro k hk
      have := List.mem_range.mp hk
      rw [hx _ (by omega) (by omega)]
      congr 2
      ring
    rw [e1, e2]
    ring

theorem same_iff {q o : Par} : same q o = true ↔ q.gain = o.gain ∧ q.lag = o.lag ∧ q.fr = o.fr := by
  unfold same
  simp [and_assoc]

/-- **C251** A frame continues the filtered signal that the state follows, as `Step` says. -/
theorem C251_frame (p : Int) (hp : 0 ≤ p) (len : Nat) (st : State) (d : Data) (f : Nat → ℚ) (ho : Fits (lagMax p) st.par) (hq : Fits (lagMax p) (parOf p d)) (X Y : Int → ℚ) (t : Int)
    (hf : Follows (lagMax p) st X Y t) (hx : ∀ n : Nat, n < len → X (t + n) = f n) :
    ∃ Y', (∀ s < t, Y' s = Y s) ∧ (∀ n : Nat, n < len → Y' (t + n) = (process p len st d f).1 n) ∧ (process p len st d f).2.par = parOf p d ∧
      Follows (lagMax p) (process p len st d f).2 X Y' (t + len) ∧ Step len st.par (parOf p d) X Y' t := by
  have hpm : 0 ≤ lagMax p := by unfold lagMax; omega
  set pm := lagMax p with hpmd
  set q := parOf p d with hqd
  set x := inputOf st f with hxd
  set y := parts x len st.par q (outputOf pm len st x) with hyd
  have hproc : process p len st d f = (fun n : Nat => y n, ⟨q, fun j => x (len + j - 6), fun j => y (len - (pm + 4) + j)⟩) := rfl
  have hxX : ∀ i : Int, -6 ≤ i → i < len → x i = X (t + i) := fun i h1 h2 => inputOf_eq hf hx h1 h2
  set Y' : Int → ℚ := fun s => if s < t then Y s else y (s - t) with hY
  have hyY : ∀ i : Int, -(pm + 4) ≤ i → i < len → y i = Y' (t + i) := by
    intro i h1 _
    by_cases h0 : 0 ≤ i
    · rw [hY]
      simp only
      rw [if_neg (by omega), show t + i - t = i by ring]
    · rw [hyd, parts_before _ _ _ _ _ _ (by omega), hY]
      simp only
      rw [if_pos (by omega)]
      unfold outputOf
      rw [if_neg h0, if_pos h1, hf.output _ (by omega), Int.toNat_of_nonneg (by omega)]
      congr 1
      ring
  have g4 : ∀ r : Par, Fits pm r → r.gain = 0 ∨ 4 ≤ r.lag := fun r h => h.imp id (fun h => h.1)
  obtain ⟨f1, f2, f3⟩ := parts_fixed x len st.par q (g4 _ ho) (g4 _ hq) (outputOf pm len st x)
  rw [← hyd] at f1 f2 f3
  refine ⟨Y', fun s hs => if_pos hs, fun n hn => ?_, rfl, ⟨fun j hj => ?_, fun j hj => ?_⟩, fun n hn => ?_, fun n h1 h2 => ?_, fun n hn => ?_⟩
  · rw [hproc, ← hyY n (by omega) (by omega)]
  · rw [hproc]
    simp only
    by_cases hl : (len : Int) + j - 6 < -6
    · omega
    · rw [hxX _ (by omega) (by omega)]
      congr 1
      ring
  · rw [hproc]
    simp only
    rw [hyY _ (by omega) (by omega)]
    congr 1
    ring
  · refine filtered_of hpm ho hxX hyY (by omega) (by omega) ((f1 n hn).trans ?_)
    unfold sample
    simp only [zero_add, one_mul]
  · refine filtered_of hpm hq hxX hyY (by omega) (by omega) ((f3 n h1 h2).trans ?_)
    unfold sample
    simp only [one_mul]
    rw [show (((len / 2 + len / 8 : Nat) : Int) + ((n - (len / 2 + len / 8) : Nat) : Int)) = n by omega]
  · obtain ⟨y1, -, e⟩ := f2 n hn
    refine ⟨fun hs => ?_, fun h0 h1 => ?_, fun h0 h1 => ?_⟩
    · have hc : change x len st.par q y1 = (q, .plain, y1) := by
        unfold change
        rw [if_pos (same_iff.mpr hs)]
      rw [hc] at e
      rw [add_assoc]
      refine filtered_of hpm hq hxX hyY (by omega) (by omega) (e.trans ?_)
      unfold sample
      simp only [one_mul]
    · have hc : change x len st.par q y1 = (q, .fadeIn, y1) := by
        unfold change
        rw [if_neg (fun h => h1 ((same_iff.mp h).1.trans h0)), if_pos h0]
      rw [hc] at e
      rw [add_assoc]
      refine filtered_of hpm hq hxX hyY (by omega) (by omega) (e.trans ?_)
      unfold sample
      simp only
    · have hc : change x len st.par q y1 = (st.par, .fadeOut, y1) := by
        unfold change
        rw [if_neg (fun h => h0 ((same_iff.mp h).1.symm.trans h1)), if_neg h0, if_pos h1]
      rw [hc] at e
      rw [add_assoc]
      refine filtered_of hpm ho hxX hyY (by omega) (by omega) (e.trans ?_)
      unfold sample
      simp only

theorem Filtered.congr {q : Par} {a : ℚ} {X Y Y' : Int → ℚ} {s : Int} (h : Filtered q a X Y s) (hq : q.gain = 0 ∨ 4 ≤ q.lag) (he : ∀ i ≤ s, Y i = Y' i) : Filtered q a X Y' s := by
  unfold Filtered at h ⊢
  rw [← he s (le_refl s), h]
  rcases hq with hq | hq
  · rw [hq]
    ring
  · congr 4
    apply sum_congr
    intro k hk
    have := List.mem_range.mp hk
    rw [he _ (by omega)]

theorem Step.congr {len : Nat} {o q : Par} {X Y Y' : Int → ℚ} {t : Int} (h : Step len o q X Y t) (ho : o.gain = 0 ∨ 4 ≤ o.lag) (hq : q.gain = 0 ∨ 4 ≤ q.lag) (he : ∀ i < t + len, Y i = Y' i) :
    Step len o q X Y' t :=
  ⟨fun n hn => (h.1 n hn).congr ho (fun i hi => he i (by omega)), fun n h1 h2 => (h.2.1 n h1 h2).congr hq (fun i hi => he i (by omega)), fun n hn =>
    ⟨fun a => ((h.2.2 n hn).1 a).congr hq (fun i hi => he i (by omega)), fun a b => ((h.2.2 n hn).2.1 a b).congr hq (fun i hi => he i (by omega)),
      fun a b => ((h.2.2 n hn).2.2 a b).congr ho (fun i hi => he i (by omega))⟩⟩

/-- **C251** A sequence of frames: there is one output signal that is silent before it, agrees with the outputs of all frames, and of which every frame is as `Step` says. -/
theorem C251_stream (p : Int) (hp : 0 ≤ p) (len : Nat) (l : List (Data × (Nat → ℚ))) (st : State) (X Y : Int → ℚ) (t : Int) (ho : Fits (lagMax p) st.par)
    (hq : ∀ f ∈ l, Fits (lagMax p) (parOf p f.1)) (hf : Follows (lagMax p) st X Y t)
    (hx : ∀ (i : Nat) (h : i < l.length) (n : Nat), n < len → X (t + i * len + n) = (l[i]).2 n) :
    ∃ Y', (∀ s < t, Y' s = Y s) ∧ (play p len st l).1.length = l.length ∧
      (∀ (i : Nat) (h : i < (play p len st l).1.length) (n : Nat), n < len → Y' (t + i * len + n) = ((play p len st l).1)[i] n) ∧
      ∀ (i : Nat) (h : i < l.length), Step len (if h0 : i = 0 then st.par else parOf p (l[i - 1]).1) (parOf p (l[i]).1) X Y' (t + i * len) := by
  induction l generalizing st Y t with
  | nil => exact ⟨Y, fun _ _ => rfl, rfl, fun i h => absurd h (by simp [play]), fun i h => absurd h (by simp)⟩
  | cons g l ih =>
    obtain ⟨Y1, a1, a2, a3, a4, a5⟩ := C251_frame p hp len st g.1 g.2 ho (hq g (by simp)) X Y t hf (fun n hn => by
      have := hx 0 (by simp) n hn
      simpa using this)
    obtain ⟨Y2, b1, b2, b3, b4⟩ := ih (process p len st g.1 g.2).2 Y1 (t + len) (by rw [a3]; exact hq g (by simp)) (fun f hf => hq f (by simp [hf])) a4 (fun i h n hn => by
      have := hx (i + 1) (by simp; omega) n hn
      rw [List.getElem_cons_succ] at this
      rw [← this]
      congr 1
      push_cast
      ring)
    have hpl : play p len st (g :: l) = ((process p len st g.1 g.2).1 :: (play p len (process p len st g.1 g.2).2 l).1, (play p len (process p len st g.1 g.2).2 l).2) := rfl
    refine ⟨Y2, fun s hs => (b1 s (by omega)).trans (a1 s hs), by rw [hpl]; simp [b2], fun i h n hn => ?_, fun i h => ?_⟩
    · cases i with
      | zero =>
        show Y2 _ = (process p len st g.1 g.2).1 n
        rw [← a2 n hn, b1 _ (by push_cast; omega)]
        congr 1
        push_cast
        ring
      | succ i =>
        refine Eq.trans (congrArg Y2 ?_) (b3 i (by simpa [hpl] using h) n hn)
        push_cast
        ring
    · cases i with
      | zero =>
        simp only [dif_pos, List.getElem_cons_zero, Nat.cast_zero, zero_mul, add_zero]
        exact a5.congr (ho.imp id And.left) ((hq g (by simp)).imp id And.left) (fun s hs => (b1 s hs).symm)
      | succ i =>
        have := b4 i (by simpa using h)
        rw [dif_neg (by omega)]
        simp only [List.getElem_cons_succ, Nat.add_sub_cancel]
        rw [show t + ((i + 1 : Nat) : Int) * len = t + len + i * len by push_cast; ring]
        cases i with
        | zero =>
          simp only [dif_pos] at this
          rw [a3] at this
          simpa using this
        | succ i =>
          rw [dif_neg (by omega)] at this
          simpa using this

/-- **C252** Frames with the data of the frame before are filtered as one signal, across the borders of frames. -/
theorem C252_steady (p : Int) (hp : 0 ≤ p) (len : Nat) (d : Data) (hd : Fits (lagMax p) (parOf p d)) (l : List (Nat → ℚ)) (st : State) (hst : st.par = parOf p d) (X Y : Int → ℚ) (t : Int)
    (hf : Follows (lagMax p) st X Y t) (hx : ∀ (i : Nat) (h : i < l.length) (n : Nat), n < len → X (t + i * len + n) = l[i] n) :
    ∃ Y', (∀ s < t, Y' s = Y s) ∧
      (∀ (i : Nat) (h : i < (play p len st (l.map (fun f => (d, f)))).1.length) (n : Nat), n < len → Y' (t + i * len + n) = ((play p len st (l.map (fun f => (d, f)))).1)[i] n) ∧
      ∀ s, t ≤ s → s < t + l.length * len → Filtered (parOf p d) 1 X Y' s := by
  obtain ⟨Y', a1, -, a2, a3⟩ := C251_stream p hp len (l.map (fun f => (d, f))) st X Y t (hst ▸ hd) (fun f hf => by
    obtain ⟨g, -, rfl⟩ := List.mem_map.mp hf
    exact hd) hf (fun i h n hn => by
      rw [List.getElem_map]
      exact hx i (by simpa using h) n hn)
  refine ⟨Y', a1, a2, fun s h1 h2 => ?_⟩
  have hlen : 0 < len := by
    rcases Nat.eq_zero_or_pos len with h | h
    · subst h
      simp at h2
      omega
    · exact h
  obtain ⟨m, hm⟩ : ∃ m : Nat, s = t + m := ⟨(s - t).toNat, by omega⟩
  subst hm
  obtain ⟨i, r, hr, hm⟩ : ∃ i r, r < len ∧ m = i * len + r := ⟨m / len, m % len, Nat.mod_lt m hlen, by rw [Nat.mul_comm]; exact (Nat.div_add_mod m len).symm⟩
  subst hm
  have hi : i < l.length := by
    have : ((i * len + r : Nat) : Int) < ((l.length * len : Nat) : Int) := by push_cast at h2 ⊢; linarith
    have : i * len < l.length * len := by
      have : i * len + r < l.length * len := by exact_mod_cast this
      omega
    exact Nat.lt_of_mul_lt_mul_right this
  have h3 := a3 i (by simpa using hi)
  have hb : (if h0 : i = 0 then st.par else parOf p ((l.map (fun f => (d, f)))[i - 1]'(by simp; omega)).1) = parOf p d := by
    split
    · exact hst
    · rw [List.getElem_map]
  rw [hb, List.getElem_map] at h3
  rw [show t + ((i * len + r : Nat) : Int) = t + (i : Int) * len + (r : Int) by push_cast; ring]
  by_cases c1 : r < len / 2
  · exact h3.1 _ c1
  by_cases c2 : len / 2 + len / 8 ≤ r
  · exact h3.2.1 _ c2 hr
  · have := (h3.2.2 (r - len / 2) (by omega)).1 ⟨rfl, rfl, rfl⟩
    rw [show (r : Int) = ((len / 2 : Nat) : Int) + ((r - len / 2 : Nat) : Int) by omega, ← add_assoc]
    exact this

/-- A state after a frame with data, and one in which lag and gain are changed. -/
example : Fits (lagMax 64) (parOf 64 ⟨true, 3, 2⟩) ∧ (parOf 64 ⟨true, 3, 2⟩).gain ≠ 0 ∧ Fits (lagMax 64) (parOf 64 ⟨true, 511, 1⟩) ∧ same (parOf 64 ⟨true, 3, 2⟩) (parOf 64 ⟨true, 511, 1⟩) = false ∧
    Follows (lagMax 64) State.zero (fun i => if 0 ≤ i then 1 else 0) (fun _ => 0) 0 :=
  ⟨.inr (by decide), by decide +kernel, .inr (by decide), by decide +kernel, fun j hj => (if_neg (by omega)).symm, fun _ _ => rfl⟩

/-! ## C253: off -/

/-- **C253** A frame without data after one without data is not changed. -/
theorem C253_off (p : Int) (len : Nat) (st : State) (d : Data) (f : Nat → ℚ) (h0 : st.par.gain = 0) (hd : d.present = false) (n : Nat) (hn : n < len) : (process p len st d f).1 n = f n := by
  have hq : (parOf p d).gain = 0 := by
    unfold parOf
    rw [if_neg (by rw [hd]; decide)]
  have hx : inputOf st f n = f n := by
    unfold inputOf
    rw [if_pos (by omega)]
    rfl
  obtain ⟨f1, f2, f3⟩ := parts_fixed (inputOf st f) len st.par (parOf p d) (.inl h0) (.inl hq) (outputOf (lagMax p) len st (inputOf st f))
  show parts (inputOf st f) len st.par (parOf p d) (outputOf (lagMax p) len st (inputOf st f)) n = f n
  by_cases c1 : n < len / 2
  · rw [f1 n c1, if_pos h0, hx]
  by_cases c2 : len / 2 + len / 8 ≤ n
  · rw [f3 n c2 hn, if_pos hq, hx]
  · obtain ⟨y1, -, e⟩ := f2 (n - len / 2) (by omega)
    have hc : (change (inputOf st f) len st.par (parOf p d) y1).1.gain = 0 := by
      rcases change_par (inputOf st f) len st.par (parOf p d) y1 with h | h <;> rw [h] <;> assumption
    rw [if_pos hc, show (((len / 2 : Nat) : Int) + ((n - len / 2 : Nat) : Int)) = n by omega] at e
    rw [e, hx]

/-- After a frame without data the filter is off. -/
theorem off_after (p : Int) (len : Nat) (st : State) (d : Data) (f : Nat → ℚ) (hd : d.present = false) : (process p len st d f).2.par.gain = 0 := by
  show (parOf p d).gain = 0
  unfold parOf
  rw [if_neg (by rw [hd]; decide)]

example : State.zero.par.gain = 0 := rfl

/-! ## C254: limits -/

theorem abs_sum (l : List Nat) (f : Nat → ℚ) : |(l.map f).sum| ≤ (l.map (fun k => |f k|)).sum := by
  induction l with
  | nil => simp
  | cons a l ih =>
    rw [List.map_cons, List.map_cons, List.sum_cons, List.sum_cons]
    exact (abs_add_le _ _).trans (by linarith)

theorem sum_mul_le (l : List Nat) (f c : Nat → ℚ) (B : ℚ) (h : ∀ k, |f k| ≤ B) : |(l.map (fun k => f k * c k)).sum| ≤ B * (l.map (fun k => |c k|)).sum := by
  refine (abs_sum l _).trans ?_
  induction l with
  | nil => simp
  | cons a l ih =>
    rw [List.map_cons, List.map_cons, List.sum_cons, List.sum_cons, mul_add]
    refine add_le_add ?_ ih
    rw [abs_mul]
    exact mul_le_mul_of_nonneg_right (h a) (abs_nonneg _)

theorem taps1_sum (fr : Nat) : ((List.range 8).map (fun k => |taps1 fr k|)).sum ≤ 1001 / 1000 := by
  unfold taps1
  by_cases h : fr = 0
  · simp only [h, if_true]
    decide +kernel
  · simp only [h, if_false]
    decide +kernel

theorem taps2_sum (idx : Nat) : ((List.range 7).map (fun k => |taps2 idx k|)).sum ≤ 103 / 100 := by
  by_cases h : idx < 4
  · have : ∀ i < 4, ((List.range 7).map (fun k => |taps2 i k|)).sum ≤ 103 / 100 := by decide +kernel
    exact this idx h
  · have : ∀ k, taps2 idx k = 0 := by
      intro k
      obtain ⟨m, rfl⟩ : ∃ m, idx = m + 4 := ⟨idx - 4, by omega⟩
      show ((([] : List Int).getD k 0 : Int) : ℚ) / 100000000 = 0
      simp
    simp only [this, abs_zero]
    decide +kernel

/-- The gain is at most 1/4. -/
def Low (q : Par) : Prop := 0 ≤ q.gain ∧ q.gain ≤ 1 / 4

theorem filter_le {x y : Int → ℚ} {B : ℚ} (hx : ∀ i, |x i| ≤ B) (hy : ∀ i, |y i| ≤ 2 * B) {q : Par} (hq : Low q) (t : Int) {a : ℚ} (ha0 : 0 ≤ a) (ha1 : a ≤ 1) :
    |x t + a * (q.gain * old y q t - 19 / 20 * (q.gain * new x q t))| ≤ 2 * B := by
  have hB : 0 ≤ B := (abs_nonneg _).trans (hx 0)
  have h1 : |old y q t| ≤ 2 * B * (1001 / 1000) :=
    (sum_mul_le (List.range 8) (fun k => y (t - q.lag + k - 4)) (fun k => taps1 q.fr k) (2 * B) (fun k => hy _)).trans (mul_le_mul_of_nonneg_left (taps1_sum _) (by linarith))
  have h2 : |new x q t| ≤ B * (103 / 100) :=
    (sum_mul_le (List.range 7) (fun k => x (t - k)) (fun k => taps2 q.idx k) B (fun k => hx _)).trans (mul_le_mul_of_nonneg_left (taps2_sum _) hB)
  have h3 : |q.gain * old y q t - 19 / 20 * (q.gain * new x q t)| ≤ 1 / 4 * (2 * B * (1001 / 1000) + 19 / 20 * (B * (103 / 100))) := by
    rw [show q.gain * old y q t - 19 / 20 * (q.gain * new x q t) = q.gain * (old y q t - 19 / 20 * new x q t) by ring, abs_mul, abs_of_nonneg hq.1]
    refine mul_le_mul hq.2 ?_ (abs_nonneg _) (by norm_num)
    refine (abs_sub _ _).trans ?_
    rw [abs_mul, abs_of_nonneg (show (0 : ℚ) ≤ 19 / 20 by norm_num)]
    linarith
  refine (abs_add_le _ _).trans ?_
  rw [abs_mul, abs_of_nonneg ha0]
  have h4 : a * |q.gain * old y q t - 19 / 20 * (q.gain * new x q t)| ≤ 1 * (1 / 4 * (2 * B * (1001 / 1000) + 19 / 20 * (B * (103 / 100)))) :=
    mul_le_mul ha1 h3 (abs_nonneg _) (by norm_num)
  have := hx t
  linarith

theorem part_le {x : Int → ℚ} {B : ℚ} (hx : ∀ i, |x i| ≤ B) {q : Par} (hq : Low q) {m : Mode} (hm : ∀ z, m ≠ .minus z) (len : Nat) (base : Int) (n : Nat) (hn : n ≤ len) {y : Int → ℚ}
    (hy : ∀ i, |y i| ≤ 2 * B) : ∀ i, |part x q m len base n y i| ≤ 2 * B := by
  have hB : 0 ≤ B := (abs_nonneg _).trans (hx 0)
  induction n with
  | zero => exact hy
  | succ n ih =>
    intro i
    have ih := ih (by omega)
    show |put _ _ _ i| ≤ _
    unfold put
    split
    · split
      · exact (hx _).trans (by linarith)
      · have hlen : (0 : ℚ) < len := by
          have : 0 < len := by omega
          exact_mod_cast this
        have hr0 : 0 ≤ (n : ℚ) / len := by positivity
        have hr1 : (n : ℚ) / len ≤ 1 := by
          rw [div_le_one hlen]
          have : n ≤ len := by omega
          exact_mod_cast this
        unfold sample
        cases m with
        | plain =>
          have := filter_le hx ih hq (base + n) (a := 1) (by norm_num) (by norm_num)
          rw [one_mul] at this
          exact this
        | minus z => exact absurd rfl (hm z)
        | fadeIn => exact filter_le hx ih hq (base + n) hr0 hr1
        | fadeOut => exact filter_le hx ih hq (base + n) (by linarith) (by linarith)
    · exact ih i

theorem parOf_low (p : Int) (d : Data) (hd : d.gainIdx < 4) : Low (parOf p d) := by
  unfold parOf Low
  split
  · have h : (d.gainIdx : ℚ) ≤ 3 := by
      have : d.gainIdx ≤ 3 := by omega
      exact_mod_cast this
    have h0 : (0 : ℚ) ≤ d.gainIdx := by positivity
    constructor
    · simp only
      linarith
    · simp only
      linarith
  · norm_num

/-- Kept samples within limits. -/
structure Within (B : ℚ) (st : State) : Prop where
  input : ∀ j, |st.input j| ≤ B
  output : ∀ j, |st.output j| ≤ 2 * B
  low : Low st.par

/-- **C254** If input samples are at most `B` and the filter is not changed from one lag or gain to another, outputs are at most `2 B`, whatever the lags. -/
theorem C254_limits_partial (p : Int) (len : Nat) (st : State) (d : Data) (f : Nat → ℚ) (B : ℚ) (hd : d.gainIdx < 4) (hst : Within B st) (hf : ∀ n, |f n| ≤ B)
    (hc : same (parOf p d) st.par = true ∨ st.par.gain = 0 ∨ d.present = false) : (∀ n, |(process p len st d f).1 n| ≤ 2 * B) ∧ Within B (process p len st d f).2 := by
  have hB : 0 ≤ B := (abs_nonneg _).trans (hf 0)
  have hx : ∀ i, |inputOf st f i| ≤ B := by
    intro i
    unfold inputOf
    split
    · exact hf _
    split
    · exact hst.input _
    · simpa using hB
  have hy : ∀ i, |outputOf (lagMax p) len st (inputOf st f) i| ≤ 2 * B := by
    intro i
    unfold outputOf
    split
    · simpa using hB
    split
    · exact hst.output _
    · exact (hx _).trans (by linarith)
  have hq := parOf_low p d hd
  have h1 := part_le hx hst.low (m := .plain) (fun z h => by cases h) (len / 2) 0 (len / 2) (le_refl _) hy
  set y1 := part (inputOf st f) st.par .plain (len / 2) 0 (len / 2) (outputOf (lagMax p) len st (inputOf st f)) with hy1
  have h2 : Low (change (inputOf st f) len st.par (parOf p d) y1).1 ∧ (∀ z, (change (inputOf st f) len st.par (parOf p d) y1).2.1 ≠ .minus z) ∧
      ∀ i, |(change (inputOf st f) len st.par (parOf p d) y1).2.2 i| ≤ 2 * B := by
    unfold change
    split
    · exact ⟨hq, fun z h => (by cases h), h1⟩
    split
    · exact ⟨hq, fun z h => (by cases h), h1⟩
    split
    · exact ⟨hst.low, fun z h => (by cases h), h1⟩
    · rename_i a b c
      exfalso
      rcases hc with hc | hc | hc
      · exact a hc
      · exact b hc
      · apply c
        unfold parOf
        rw [if_neg (by rw [hc]; decide)]
  have h3 := part_le hx h2.1 h2.2.1 (len / 8) (len / 2 : Nat) (len / 8) (le_refl _) h2.2.2
  have h4 := part_le hx hq (m := .plain) (fun z h => by cases h) (len - len / 2 - len / 8) (len / 2 + len / 8 : Nat) (len - len / 2 - len / 8) (le_refl _) h3
  exact ⟨fun n => h4 n, fun j => hx _, fun j => h4 _, hq⟩

/-- Two frames of full scale from the start on, the filter being faded in and then kept. -/
example (f g : Nat → ℚ) (hf : ∀ n, |f n| ≤ 32768) (hg : ∀ n, |g n| ≤ 32768) : ∀ n, |(process 64 1024 (process 64 1024 State.zero ⟨true, 3, 3⟩ f).2 ⟨true, 3, 3⟩ g).1 n| ≤ 2 * 32768 :=
  (C254_limits_partial 64 1024 _ ⟨true, 3, 3⟩ g 32768 (by decide) (C254_limits_partial 64 1024 State.zero ⟨true, 3, 3⟩ f 32768 (by decide)
    ⟨fun _ => by simp [State.zero], fun _ => by simp [State.zero], by simp [Low, State.zero]⟩ hf (.inr (.inl rfl))).2 hg (.inl (by show same (parOf 64 ⟨true, 3, 3⟩) (parOf 64 ⟨true, 3, 3⟩) = true; decide +kernel))).1

/-! ## C250: no sample depends on later ones -/

theorem new_congr {x x' : Int → ℚ} (q : Par) {t : Int} (h : ∀ i, t - 6 ≤ i → i ≤ t → x i = x' i) : new x q t = new x' q t :=
  sum_congr (fun k hk => by
    have := List.mem_range.mp hk
    rw [h _ (by omega) (by omega)])

theorem part_causal {x x' : Int → ℚ} {pm : Int} {q : Par} (hq : Fits pm q) {m : Mode} {len : Nat} {base : Int} (hb : 0 ≤ base) (N : Int) (hx : ∀ i, -6 ≤ i → i ≤ N → x i = x' i) {y y' : Int → ℚ}
    (hy : ∀ i, -(pm + 4) ≤ i → i < base → i ≤ N → y i = y' i) (n : Nat) : ∀ i, -(pm + 4) ≤ i → i < base + n → i ≤ N → part x q m len base n y i = part x' q m len base n y' i := by
  induction n with
  | zero => exact fun i h1 h2 h3 => hy i h1 (by omega) h3
  | succ n ih =>
    intro i h1 h2 h3
    show put _ _ _ i = put _ _ _ i
    unfold put
    by_cases hi : i = base + n
    · subst hi
      rw [if_pos rfl, if_pos rfl, hx _ (by omega) h3]
      split
      · rfl
      · rename_i hg
        obtain ⟨l1, l2⟩ := hq.resolve_left hg
        unfold sample
        simp only
        rw [hx _ (by omega) h3, new_congr q (x := x) (x' := x') (t := base + n) (fun j _ _ => hx j (by omega) (by omega)),
          old_congr l1 (y' := part x' q m len base n y') (fun j _ _ => ih j (by omega) (by omega) (by omega))]
    · rw [if_neg hi, if_neg hi]
      exact ih i h1 (by omega) h3

theorem corr_congr {y y' : Int → ℚ} {base : Int} {len : Nat} (h : ∀ i, base - len ≤ i → i < base → y i = y' i) : corr y base len = corr y' base len := by
  funext i
  refine sum_congr (fun j hj => ?_)
  have := List.mem_range.mp hj
  rw [h _ (by omega) (by omega), h _ (by omega) (by omega)]

theorem lack_congr {x x' y y' : Int → ℚ} {pm : Int} {q : Par} (hg : q.gain ≠ 0) (hq : Fits pm q) {t : Int} (ht : 0 ≤ t) (hx : ∀ i, -6 ≤ i → i ≤ t → x i = x' i)
    (hy : ∀ i, -(pm + 4) ≤ i → i ≤ t → y i = y' i) : lack x y q t = lack x' y' q t := by
  obtain ⟨l1, l2⟩ := hq.resolve_left hg
  unfold lack
  rw [hx t (by omega) (le_refl _), hy t (by omega) (le_refl _), new_congr q (x := x) (x' := x') (fun j _ _ => hx j (by omega) (by omega)), old_congr l1 (y' := y') (fun j _ _ => hy j (by omega) (by omega))]

theorem parts_causal {x x' : Int → ℚ} {pm : Int} (hpm : 0 ≤ pm) {o q : Par} (ho : Fits pm o) (hq : Fits pm q) {len : Nat} (hl : 48 ≤ len) (N : Int) (hx : ∀ i, -6 ≤ i → i ≤ N → x i = x' i) {y y' : Int → ℚ}
    (hy : ∀ i, -(pm + 4) ≤ i → i < 0 → y i = y' i) (n : Nat) (hn : n < len) (hN : (n : Int) ≤ N) : parts x len o q y n = parts x' len o q y' n := by
  have h1 := part_causal ho (m := .plain) (len := len / 2) (base := 0) (le_refl _) N hx (fun i a b _ => hy i a b) (len / 2)
  unfold parts
  set y1 := part x o .plain (len / 2) 0 (len / 2) y with hy1
  set y1' := part x' o .plain (len / 2) 0 (len / 2) y' with hy1'
  by_cases c1 : n < len / 2
  · rw [part_other _ _ _ _ _ _ _ _ (.inl (by omega)), part_other _ _ _ _ _ _ _ _ (.inl (by omega)), change_below _ _ _ _ _ _ (by omega), part_other _ _ _ _ _ _ _ _ (.inl (by omega)),
      part_other _ _ _ _ _ _ _ _ (.inl (by omega)), change_below _ _ _ _ _ _ (by omega)]
    exact h1 n (by omega) (by omega) hN
  have hc : (change x len o q y1).1 = (change x' len o q y1').1 ∧ (change x len o q y1).2.1 = (change x' len o q y1').2.1 := by
    unfold change
    split
    · exact ⟨rfl, rfl⟩
    split
    · exact ⟨rfl, rfl⟩
    split
    · exact ⟨rfl, rfl⟩
    · rename_i hg
      refine ⟨rfl, congrArg Mode.minus ?_⟩
      have e1 : lpc y1 (len / 2 : Nat) (len / 4) = lpc y1' (len / 2 : Nat) (len / 4) := by
        unfold lpc
        rw [corr_congr (fun i a b => h1 i (by omega) (by omega) (by omega))]
      have e2 : (fun j : Nat => if j < 24 then lack x y1 q ((len / 2 : Nat) + j - 24) else 0) = fun j : Nat => if j < 24 then lack x' y1' q ((len / 2 : Nat) + j - 24) else 0 := by
        funext j
        split
        · exact lack_congr hg hq (by omega) (fun i a b => hx i a (by omega)) (fun i a b => h1 i a (by omega) (by omega))
        · rfl
      funext k
      unfold zir
      simp only
      rw [e1, e2]
  have hf : Fits pm (change x' len o q y1').1 := by
    rcases change_par x' len o q y1' with h | h <;> rw [h] <;> assumption
  have h2 := part_causal hf (m := (change x' len o q y1').2.1) (len := len / 8) (base := (len / 2 : Nat)) (by omega) N hx (y := (change x len o q y1).2.2) (y' := (change x' len o q y1').2.2)
    (fun i a b c => by rw [change_below _ _ _ _ _ _ (by omega), change_below _ _ _ _ _ _ (by omega)]; exact h1 i a (by omega) c) (len / 8)
  rw [hc.1, hc.2]
  exact part_causal hq (m := .plain) (len := len - len / 2 - len / 8) (base := (len / 2 + len / 8 : Nat)) (by omega) N hx (fun i a b c => h2 i a (by omega) c) (len - len / 2 - len / 8) n (by omega) (by omega) hN

/-- **C250** With lags that samples are kept for, no output depends on later input samples. -/
theorem C250_causal_partial (p : Int) (len : Nat) (hl : 48 ≤ len) (hp : 0 ≤ lagMax p) (st : State) (d : Data) (f g : Nat → ℚ) (h1 : Fits (lagMax p) st.par) (h2 : Fits (lagMax p) (parOf p d)) (n : Nat) (hn : n < len)
    (h : ∀ k ≤ n, f k = g k) : (process p len st d f).1 n = (process p len st d g).1 n := by
  refine parts_causal hp h1 h2 hl n (fun i a b => ?_) (fun i a b => ?_) n hn (le_refl _)
  · unfold inputOf
    split
    · exact h _ (by omega)
    · rfl
  · unfold outputOf
    rw [if_neg (by omega), if_pos a, if_neg (by omega), if_pos a]

/-- A change of lag and gain in the second frame, and inputs that differ from sample 600 on. -/
example : let st := (process 64 1024 State.zero ⟨true, 3, 2⟩ (fun n => n)).2
    ∀ n < 600, (process 64 1024 st ⟨true, 511, 1⟩ (fun n => n)).1 n = (process 64 1024 st ⟨true, 511, 1⟩ (fun n => if n < 600 then n else 0)).1 n :=
  fun n hn => C250_causal_partial 64 1024 (by decide) (by decide) _ _ _ _ (.inr (by decide)) (.inr (by decide)) n (by omega) (fun k hk => by rw [if_pos (by omega)])

/-- Silence. -/
theorem process_silent (p : Int) (len : Nat) (st : State) (d : Data) (hd : d.gainIdx < 4) (hst : Within 0 st)
    (hc : same (parOf p d) st.par = true ∨ st.par.gain = 0 ∨ d.present = false) : (∀ n, (process p len st d (fun _ => 0)).1 n = 0) ∧ Within 0 (process p len st d (fun _ => 0)).2 := by
  obtain ⟨h1, h2⟩ := C254_limits_partial p len st d (fun _ => 0) 0 hd hst (fun n => by simp) hc
  exact ⟨fun n => abs_nonpos_iff.mp (by simpa using h1 n), h2⟩

theorem zero_within : Within 0 State.zero := ⟨fun _ => by simp [State.zero], fun _ => by simp [State.zero], by simp [Low, State.zero]⟩

theorem process_out (p : Int) (len : Nat) (st : State) (d : Data) (f : Nat → ℚ) (n : Nat) :
    (process p len st d f).1 n = parts (inputOf st f) len st.par (parOf p d) (outputOf (lagMax p) len st (inputOf st f)) n := rfl

/-- **C250** At 16000 Hz, after a silent frame with the last code of the lag, a second frame with this code whose only sample other than 0 is number 1018 of 1024 has a first output other than 0. -/
theorem C250_causal_refuted : ∃ d : Data, d.present = true ∧ d.lagIdx < 512 ∧ d.gainIdx < 4 ∧ ∃ f g : Nat → ℚ, (∀ k < 1018, f k = g k) ∧
    let st := (process (lagMin 16000) 1024 State.zero d (fun _ => 0)).2
    (process (lagMin 16000) 1024 st d f).1 0 ≠ (process (lagMin 16000) 1024 st d g).1 0 := by
  refine ⟨⟨true, 511, 0⟩, rfl, by decide, by decide, fun n => if n = 1018 then 1 else 0, fun _ => 0, fun k hk => if_neg (by omega), ?_⟩
  intro st
  obtain ⟨-, hw⟩ := process_silent (lagMin 16000) 1024 State.zero ⟨true, 511, 0⟩ (by decide) zero_within (.inr (.inl rfl))
  have hs : same (parOf (lagMin 16000) ⟨true, 511, 0⟩) st.par = true := by decide +kernel
  rw [(process_silent (lagMin 16000) 1024 st ⟨true, 511, 0⟩ (by decide) hw (.inl hs)).1 0]
  have hin : ∀ j, st.input j = 0 := fun j => abs_nonpos_iff.mp (by simpa using hw.input j)
  have hout : ∀ j, st.output j = 0 := fun j => abs_nonpos_iff.mp (by simpa using hw.output j)
  have hpar : st.par = ⟨313, 0, 1 / 16, 0⟩ := by
    show parOf (lagMin 16000) ⟨true, 511, 0⟩ = _
    unfold parOf
    rw [if_pos rfl, C250_lag_refuted.1]
    norm_num
  rw [process_out]
  set f : Nat → ℚ := fun n => if n = 1018 then 1 else 0 with hf
  set x := inputOf st f with hx
  have hx0 : ∀ i : Int, i ≠ 1018 → x i = 0 := by
    intro i hi
    rw [hx]
    unfold inputOf
    split
    · rw [hf]
      exact if_neg (by omega)
    · split
      · exact hin _
      · rfl
  have hx1 : x 1018 = 1 := by
    rw [hx]
    unfold inputOf
    rw [if_pos (by decide), hf]
    rfl
  set y := outputOf (lagMax (lagMin 16000)) 1024 st x with hy
  have hy0 : ∀ i : Int, i < 0 → i ≠ -316 → y i = 0 := by
    intro i hi hi'
    rw [hy, C250_lag_refuted.2]
    unfold outputOf
    rw [if_neg (by omega)]
    split
    · exact hout _
    · exact hx0 _ (by omega)
  have hy1 : y (-316) = 1 := by
    rw [hy, C250_lag_refuted.2]
    unfold outputOf
    rw [if_neg (by omega), if_neg (by omega)]
    exact hx1
  unfold parts
  rw [part_other _ _ _ _ _ _ _ _ (.inl (by decide)), part_other _ _ _ _ _ _ _ _ (.inl (by decide)), change_below _ _ _ _ _ _ (by decide)]
  have h := part_at x st.par .plain (1024 / 2) 0 (1024 / 2) 0 (by decide) y
  rw [zero_add] at h
  rw [h, hpar, if_neg (by norm_num)]
  unfold sample
  simp only [old, new, List.range, List.range.loop, List.map, List.sum_cons, List.sum_nil]
  have h0 : part x ⟨313, 0, 1 / 16, 0⟩ .plain (1024 / 2) 0 0 y = y := rfl
  rw [h0]
  norm_num [hx0, hy0, hy1, taps1]

/-! ## C255: the prediction -/

theorem corr_le (y : Int → ℚ) (base : Int) (len : Nat) : |corr y base len 1| ≤ corr y base len 0 ∧ 0 ≤ corr y base len 0 := by
  set u : Nat → ℚ := fun j => y (base - len + j) with hu
  have e0 : corr y base len 0 = ((List.range len).map (fun j => u j * u j)).sum := by
    refine Eq.trans (congrArg List.sum ?_) rfl
    show (List.range len).map _ = _
    refine List.map_congr_left (fun j _ => ?_)
    simp [hu]
  have e1 : corr y base len 1 = ((List.range (len - 1)).map (fun j => u j * u (j + 1))).sum := by
    refine Eq.trans (congrArg List.sum ?_) rfl
    refine List.map_congr_left (fun j _ => ?_)
    simp only [hu]
    push_cast
    rw [add_assoc]
  have hpos : ∀ n, 0 ≤ ((List.range n).map (fun j => u j * u j)).sum := by
    intro n
    refine List.sum_nonneg ?_
    intro v hv
    obtain ⟨j, -, rfl⟩ := List.mem_map.mp hv
    exact mul_self_nonneg _
  have key : ∀ n, 2 * |((List.range n).map (fun j => u j * u (j + 1))).sum| ≤ 2 * ((List.range (n + 1)).map (fun j => u j * u j)).sum - u 0 * u 0 - u n * u n := by
    intro n
    induction n with
    | zero =>
      simp only [List.range_zero, List.map_nil, List.sum_nil, abs_zero, zero_add, List.range_one, List.map_cons, List.sum_cons]
      linarith
    | succ n ih =>
      rw [List.range_succ, List.map_append, List.sum_append, List.range_succ (n := n + 1), List.map_append, List.sum_append]
      simp only [List.map_cons, List.map_nil, List.sum_cons, List.sum_nil, add_zero]
      have h1 := abs_add_le (((List.range n).map (fun j => u j * u (j + 1))).sum) (u n * u (n + 1))
      have h2 : 2 * |u n * u (n + 1)| ≤ u n * u n + u (n + 1) * u (n + 1) := by
        rw [abs_mul]
        have := mul_self_nonneg (|u n| - |u (n + 1)|)
        have a1 := abs_mul_abs_self (u n)
        have a2 := abs_mul_abs_self (u (n + 1))
        linarith
      linarith
  refine ⟨?_, e0 ▸ hpos len⟩
  rw [e0, e1]
  cases len with
  | zero => simp
  | succ n =>
    have := key n
    have b1 := mul_self_nonneg (u 0)
    have b2 := mul_self_nonneg (u n)
    show |((List.range (n + 1 - 1)).map (fun j => u j * u (j + 1))).sum| ≤ _
    rw [Nat.add_sub_cancel]
    linarith

/-- **C255** The recursion for the prediction does not divide by 0: the energy is at least 100, and while it goes on what is left of it is positive. -/
theorem C255_no_division_by_zero (y : Int → ℚ) (base : Int) (len n : Nat) :
    100 ≤ floored (corr y base len) 0 ∧ ((levRun (floored (corr y base len)) n).stopped = false → 0 < (levRun (floored (corr y base len)) n).sigma) := by
  obtain ⟨h1, h0⟩ := corr_le y base len
  have hm := le_max_right (corr y base len 0) 100
  have hm' := le_max_left (corr y base len 0) 100
  have hr : 100 ≤ floored (corr y base len) 0 := by
    show 100 ≤ max (corr y base len 0) 100 * (10001 / 10000)
    linarith
  refine ⟨hr, ?_⟩
  cases n with
  | zero =>
    intro _
    set r := floored (corr y base len) with hrd
    have hlt : |r 1| < r 0 := by
      show |corr y base len 1| < max (corr y base len 0) 100 * (10001 / 10000)
      linarith
    show 0 < r 0 + r 1 * (-(r 1) / r 0)
    have hp : 0 < r 0 := by linarith
    have : r 0 + r 1 * (-(r 1) / r 0) = (r 0 * r 0 - r 1 * r 1) / r 0 := by
      field_simp
      ring
    rw [this]
    apply div_pos _ hp
    rw [← abs_mul_abs_self (r 1)]
    have := abs_nonneg (r 1)
    nlinarith
  | succ n =>
    show (levStep _ _ _).stopped = false → 0 < (levStep _ _ _).sigma
    unfold levStep
    simp only
    split
    · rename_i h
      intro h'
      rw [h] at h'
      cases h'
    split
    · intro h
      cases h
    · rename_i h
      intro _
      simp only
      linarith

/-- For a constant signal the recursion goes on to the end. -/
example : (levRun (floored (corr (fun _ => 100) 0 256)) 2).stopped = false := by decide +kernel

end Verif.Ltpf
