import Verif.Spec.Resamp
import Mathlib.Tactic.Linarith
import Mathlib.Tactic.Ring
import Mathlib.Tactic.NormNum
import Mathlib.Tactic.IntervalCases
import Mathlib.Algebra.Order.Ring.Abs

/-! # C256 to C260: the resampler and the last stage of a frame -/

namespace Verif.Resamp

theorem sum_congr {l : List Nat} {f g : Nat → ℚ} (h : ∀ k ∈ l, f k = g k) : (l.map f).sum = (l.map g).sum := by
  rw [List.map_congr_left h]

theorem sum_zero (l : List Nat) : (l.map (fun _ => (0 : ℚ))).sum = 0 := by
  induction l with
  | nil => rfl
  | cons a l ih => rw [List.map_cons, List.sum_cons, ih, add_zero]

/-! ## C256: frames do not matter -/

theorem behind_eq {up down : Nat} {st : State} {X : Int → ℚ} {t : Int} (hf : Follows up down st X t) {len : Nat} {f : Nat → ℚ} (hx : ∀ n : Nat, n < len → f n = X (t + n)) {i : Int}
    (h1 : -(59 / up : Nat) ≤ i) (h2 : i < len) : behind (59 / up) st.input f i = X (t + i) := by
  unfold behind
  split
  · rename_i h
    rw [hx _ (by omega), Int.toNat_of_nonneg h]
  · rw [hf.input _ (by omega), Int.toNat_of_nonneg (by omega)]
    congr 1
    omega

theorem branch_eq {up down : Nat} (hu : up = 2 ∨ up = 3) {st : State} {X : Int → ℚ} {t : Int} (hf : Follows up down st X t) {len : Nat} {f : Nat → ℚ} (hx : ∀ n : Nat, n < len → f n = X (t + n)) {n : Nat}
    (hn : n < len) (k : Nat) : branch up (behind (59 / up) st.input f) n k = Part up X (t + n) k := by
  refine sum_congr (fun m hm => ?_)
  have hm := List.mem_range.mp hm
  have h60 : m ≤ 59 / up := by rcases hu with rfl | rfl <;> omega
  rw [behind_eq hf hx (by omega) (by omega)]
  congr 2
  omega

theorem memAt_eq {up down : Nat} (hu : up = 2 ∨ up = 3) {st : State} {X : Int → ℚ} {t : Int} (hf : Follows up down st X t) {len : Nat} {f : Nat → ℚ} (hx : ∀ n : Nat, n < len → f n = X (t + n)) {n : Nat}
    (hn : n ≤ len) (k : Nat) (hk : k + 1 < up) : memAt up (behind (59 / up) st.input f) st.mem n k = Part up X (t + n - 1) (k + 1) := by
  cases n with
  | zero =>
    rw [show t + ((0 : Nat) : Int) - 1 = t - 1 by omega]
    exact hf.mem k hk
  | succ n =>
    show memAfter up _ _ k = _
    unfold memAfter
    rw [if_pos hk, branch_eq hu hf hx (by omega)]
    congr 1
    omega

/-- The first filter. -/
theorem upper_eq {up down : Nat} (hu : up = 2 ∨ up = 3) {st : State} {X : Int → ℚ} {t : Int} (hf : Follows up down st X t) {len : Nat} {f : Nat → ℚ} (hx : ∀ n : Nat, n < len → f n = X (t + n)) {s : Nat}
    (hs : s < len * up) : upper up st f s = Middle up X (t * up + s) := by
  have hd : s / up < len := by
    rcases hu with rfl | rfl <;> omega
  have hb := fun k => branch_eq hu hf hx hd k
  have hm := fun k hk => memAt_eq hu hf hx (le_of_lt hd) k hk
  unfold upper
  simp only
  rw [show branch up (behind (59 / up) st.input f) ((s / up : Nat) : Int) = Part up X (t + ((s / up : Nat) : Int)) from funext hb]
  generalize memAt up (behind (59 / up) st.input f) st.mem (s / up) = M at hm ⊢
  have hdiv : (t * (up : Int) + s) / up = t + ((s / up : Nat) : Int) := by rcases hu with rfl | rfl <;> omega
  have hmod : (t * (up : Int) + s) % up = ((s % up : Nat) : Int) := by rcases hu with rfl | rfl <;> omega
  unfold Middle
  rw [hdiv, hmod]
  have hlt : s % up < up := Nat.mod_lt _ (by omega)
  generalize ((s / up : Nat) : Int) = N at hm ⊢
  generalize s % up = j at hlt ⊢
  rcases hu with rfl | rfl
  · have m0 := hm 0 (by decide)
    interval_cases j
    · simp [group, List.range_succ, m0]
      ring
    · simp [group, List.range_succ]
  · have m0 := hm 0 (by decide)
    have m1 := hm 1 (by decide)
    interval_cases j
    · simp [group, List.range_succ, m0, m1]
      ring
    · simp [group, List.range_succ, m1]
      ring
    · simp [group, List.range_succ]

/-- **C256** A frame: the output is the one of the signal, and what is kept follows the signal. -/
theorem C256_frame (up down len : Nat) (hu : up = 2 ∨ up = 3) (hd : down = 1 ∨ down = 2) (hl : 30 ≤ len) (st : State) (f : Nat → ℚ) (X : Int → ℚ) (t o : Int) (ho : t * up = o * down)
    (hf : Follows up down st X t) (hx : ∀ n : Nat, n < len → f n = X (t + n)) :
    (∀ n : Nat, n < len * up / down → (process up down len st f).1 n = Out up down X (o + n)) ∧ Follows up down (process up down len st f).2 X (t + len) := by
  have hz : ∀ s : Nat, s < len * up → upper up st f s = Middle up X (t * up + s) := fun s hs => upper_eq hu hf hx hs
  refine ⟨fun n hn => ?_, ?_, fun k hk => ?_, fun h j hj => ?_⟩
  · unfold process Out
    simp only
    rcases hd with rfl | rfl
    · rw [if_neg (by decide), if_neg (by decide), hz n (by omega), ho]
      congr 1
      omega
    · rw [if_pos rfl, if_pos rfl]
      refine sum_congr (fun m hm => ?_)
      have hm := List.mem_range.mp hm
      congr 1
      unfold behind
      split
      · rename_i h
        rw [hz _ (by omega), ho]
        congr 1
        omega
      · rw [hf.middle rfl _ (by omega), ho]
        congr 1
        omega
  · intro j hj
    show f (len - 59 / up + j) = _
    have : 59 / up ≤ len := by rcases hu with rfl | rfl <;> omega
    rw [hx _ (by omega)]
    congr 1
    omega
  · show memAt up _ st.mem len k = _
    rw [memAt_eq hu hf hx (le_refl _) k hk]
  · show (if down = 2 then fun j => upper up st f (len * up - 59 + j) else st.middle) j = _
    rw [if_pos h]
    have : 59 ≤ len * up := by rcases hu with rfl | rfl <;> omega
    show upper up st f (len * up - 59 + j) = _
    rw [hz _ (by omega)]
    congr 1
    rw [add_mul]
    omega

/-- **C256** Over all frames, the output is the one of the whole signal; the frames it came in do not matter. -/
theorem C256_stream (up down len : Nat) (hu : up = 2 ∨ up = 3) (hd : down = 1 ∨ down = 2) (hl : 30 ≤ len) (hdv : len * up % down = 0) (l : List (Nat → ℚ)) (st : State) (X : Int → ℚ) (t o : Int)
    (ho : t * up = o * down) (hf : Follows up down st X t) (hx : ∀ (i : Nat) (h : i < l.length) (n : Nat), n < len → l[i] n = X (t + i * len + n)) :
    (play up down len st l).length = l.length ∧
    ∀ (i : Nat) (h : i < (play up down len st l).length) (n : Nat), n < len * up / down → (play up down len st l)[i] n = Out up down X (o + i * (len * up / down : Nat) + n) := by
  induction l generalizing st t o with
  | nil => exact ⟨rfl, fun i h => absurd h (by simp [play])⟩
  | cons f l ih =>
    have h0 : ∀ n : Nat, n < len → f n = X (t + n) := by
      intro n hn
      have := hx 0 (by simp) n hn
      simpa using this
    obtain ⟨a, b⟩ := C256_frame up down len hu hd hl st f X t o ho hf h0
    obtain ⟨c, d⟩ := ih (process up down len st f).2 (t + len) (o + (len * up / down : Nat)) (by
      have e : len * up / down * down = len * up := Nat.div_mul_cancel (Nat.dvd_of_mod_eq_zero hdv)
      have e' : ((len * up / down : Nat) : Int) * down = len * up := by exact_mod_cast e
      rw [add_mul, add_mul, ho, e']) b (fun i h n hn => by
        have := hx (i + 1) (by simpa using h) n hn
        rw [List.getElem_cons_succ] at this
        rw [this]
        congr 1
        push_cast
        ring)
    refine ⟨by simp only [play, List.length_cons, c], fun i h n hn => ?_⟩
    cases i with
    | zero =>
      show (process up down len st f).1 n = _
      rw [a n hn]
      congr 1
      simp
    | succ i =>
      have hi : i < (play up down len (process up down len st f).2 l).length := by simpa [play] using h
      refine Eq.trans (d i hi n hn) ?_
      congr 1
      push_cast
      ring

/-- The start: cleared memory follows a signal that is 0 before. -/
theorem start_follows (up down : Nat) (hu : up = 2 ∨ up = 3) (X : Int → ℚ) (hX : ∀ i < 0, X i = 0) : Follows up down State.zero X 0 := by
  have hP : ∀ (n : Int) (k : Nat), n < 0 → Part up X n k = 0 := by
    intro n k hn
    unfold Part
    rw [sum_congr (g := fun _ => 0), sum_zero]
    · intro m hm
      have hm := List.mem_range.mp hm
      have h60 : m ≤ 59 / up := by rcases hu with rfl | rfl <;> omega
      rw [hX _ (by omega), zero_mul]
  refine ⟨fun j hj => (hX _ (by omega)).symm, fun k hk => (hP _ _ (by omega)).symm, fun _ j hj => ?_⟩
  show 0 = Middle up X _
  unfold Middle
  rw [sum_congr (g := fun _ => 0), sum_zero]
  · intro k hk
    have hs : (0 * (up : Int) - 59 + j) / up < 0 := by rcases hu with rfl | rfl <;> omega
    rw [hP]
    split <;> omega

/-- Two frames of 1024 samples, from 32000 to 48000 Hz. -/
example (f g : Nat → ℚ) : ∃ X : Int → ℚ, Follows 3 2 State.zero X 0 ∧ ∀ (i : Nat) (h : i < [f, g].length) (n : Nat), n < 1024 → [f, g][i] n = X (0 + i * (1024 : Nat) + n) := by
  refine ⟨fun i => if i < 0 then 0 else if i < 1024 then f i.toNat else g (i - 1024).toNat, start_follows 3 2 (.inr rfl) _ (fun i hi => if_pos hi), fun i h n hn => ?_⟩
  have h' : i < 2 := h
  interval_cases i
  · simp only [List.getElem_cons_zero]
    rw [if_neg (by omega), if_pos (by omega)]
    congr 1
    omega
  · simp only [List.getElem_cons_succ, List.getElem_cons_zero]
    rw [if_neg (by omega), if_neg (by omega)]
    congr 1
    omega

/-! ## C257: held samples -/

/-- A single sample. -/
def pulse : Int → ℚ := fun i => if i = 0 then 1 else 0

theorem part_outside (up : Nat) (hu : up = 2 ∨ up = 3) (n : Int) (k : Nat) (h : n < 0 ∨ (59 / up : Nat) < n) : Part up pulse n k = 0 := by
  unfold Part
  rw [sum_congr (g := fun _ => 0), sum_zero]
  · intro m hm
    have hm := List.mem_range.mp hm
    have h60 : m ≤ 59 / up := by rcases hu with rfl | rfl <;> omega
    unfold pulse
    rw [if_neg (by omega), zero_mul]

theorem middle_pulse (up : Nat) (hu : up = 2 ∨ up = 3) (s : Int) : Middle up pulse s ≤ 3 / 5 := by
  by_cases h : 0 ≤ s ∧ s < 63
  · obtain ⟨n, rfl⟩ : ∃ n : Nat, s = n := ⟨s.toNat, by omega⟩
    have hn : n < 63 := by omega
    have hall : ∀ u ∈ [2, 3], ∀ n < 63, Middle u pulse ((n : Nat) : Int) ≤ 3 / 5 := by decide +kernel
    exact hall up (by simpa using hu) n hn
  · have : Middle up pulse s = 0 := by
      unfold Middle
      rw [sum_congr (g := fun _ => 0), sum_zero]
      · intro k hk
        have hk := List.mem_range.mp hk
        refine part_outside up hu _ k ?_
        rcases hu with rfl | rfl <;> split <;> omega
    rw [this]
    norm_num

/-- **C257** The response of the first filter to a single sample is nowhere above 0.6, while held samples filtered with the table have one of more than 0.8; so it is not this filter, with whatever delay. -/
theorem C257_refuted (up : Nat) (hu : up = 2 ∨ up = 3) : ∀ d : Int, ∃ s : Int, Out up 1 pulse s ≠ Filter up (Held up pulse) d s := by
  intro d
  refine ⟨d + 30, ne_of_lt ?_⟩
  have h1 : Out up 1 pulse (d + 30) ≤ 3 / 5 := by
    unfold Out
    rw [if_neg (by decide)]
    exact middle_pulse up hu _
  refine lt_of_le_of_lt h1 ?_
  have h2 : Filter up (Held up pulse) d (d + 30) = Filter up (Held up pulse) 0 30 := by
    refine sum_congr (fun i _ => ?_)
    rw [show d + 30 - d - 59 + (i : Int) = 30 - 0 - 59 + (i : Int) by omega]
  rw [h2]
  have hall : ∀ u ∈ [2, 3], (3 / 5 : ℚ) < Filter u (Held u pulse) 0 30 := by decide +kernel
  exact hall up (by simpa using hu)

theorem sum_two (g : Nat → ℚ) (n : Nat) : ((List.range (2 * n)).map g).sum = ((List.range n).map (fun m => g (2 * m))).sum + ((List.range n).map (fun m => g (2 * m + 1))).sum := by
  induction n with
  | zero => simp
  | succ n ih =>
    rw [show 2 * (n + 1) = 2 * n + 1 + 1 by ring, List.range_succ, List.range_succ, List.range_succ]
    simp only [List.map_append, List.sum_append, ih, List.map_cons, List.map_nil, List.sum_cons, List.sum_nil]
    ring

theorem sum_three (g : Nat → ℚ) (n : Nat) :
    ((List.range (3 * n)).map g).sum = ((List.range n).map (fun m => g (3 * m))).sum + ((List.range n).map (fun m => g (3 * m + 1))).sum + ((List.range n).map (fun m => g (3 * m + 2))).sum := by
  induction n with
  | zero => simp
  | succ n ih =>
    rw [show 3 * (n + 1) = 3 * n + 1 + 1 + 1 by ring, List.range_succ, List.range_succ, List.range_succ, List.range_succ]
    simp only [List.map_append, List.sum_append, ih, List.map_cons, List.map_nil, List.sum_cons, List.sum_nil]
    ring

/-- **C257** The last sample of each group is the one of held samples filtered with the table. -/
theorem C257_last_partial (up : Nat) (hu : up = 2 ∨ up = 3) (X : Int → ℚ) (s : Int) (hs : s % up = up - 1) : Middle up X s = Filter up (Held up X) 0 s := by
  unfold Middle Filter Held
  rcases hu with rfl | rfl
  · rw [show (60 : Nat) = 2 * 30 from rfl, sum_two]
    simp only [List.range_succ (n := 1), List.range_one, List.map_append, List.map_cons, List.map_nil, List.sum_append, List.sum_cons, List.sum_nil, add_zero]
    unfold Part
    rw [if_pos (by omega), if_pos (by omega)]
    congr 1
    · refine sum_congr (fun m _ => ?_)
      congr 2
      omega
    · refine sum_congr (fun m _ => ?_)
      congr 2
      omega
  · rw [show (60 : Nat) = 3 * 20 from rfl, sum_three]
    simp only [List.range_succ (n := 2), List.range_succ (n := 1), List.range_one, List.map_append, List.map_cons, List.map_nil, List.sum_append, List.sum_cons, List.sum_nil, add_zero]
    unfold Part
    rw [if_pos (by omega), if_pos (by omega), if_pos (by omega)]
    congr 1
    · congr 1
      · refine sum_congr (fun m _ => ?_)
        congr 2
        omega
      · refine sum_congr (fun m _ => ?_)
        congr 2
        omega
    · refine sum_congr (fun m _ => ?_)
      congr 2
      omega

example : (5 : Int) % (3 : Nat) = (3 : Nat) - 1 ∧ Middle 3 pulse 5 ≠ 0 := by decide +kernel

/-! ## C258: levels -/

theorem sum_const (l : List Nat) (c : ℚ) (g : Nat → ℚ) : (l.map (fun m => c * g m)).sum = c * (l.map g).sum := by
  induction l with
  | nil => simp
  | cons a l ih => rw [List.map_cons, List.map_cons, List.sum_cons, List.sum_cons, ih, mul_add]

/-- The sum of all taps. -/
def total (up : Nat) : ℚ := ((List.range up).map (fun k => ((List.range (60 / up)).map (fun m => tap up (up * m + k))).sum)).sum

theorem middle_level (up : Nat) (hu : up = 2 ∨ up = 3) (X : Int → ℚ) (c : ℚ) (a b s : Int) (h : ∀ i, a ≤ i → i ≤ b → X i = c) (h1 : (a + 31) * up ≤ s) (h2 : s < (b + 1) * up) :
    Middle up X s = c * total up := by
  unfold Middle total
  rw [← sum_const]
  refine sum_congr (fun k _ => ?_)
  unfold Part
  rw [← sum_const]
  refine sum_congr (fun m hm => ?_)
  have hm := List.mem_range.mp hm
  have h60 : m ≤ 59 / up := by rcases hu with rfl | rfl <;> omega
  congr 1
  apply h
  · rcases hu with rfl | rfl <;> split <;> omega
  · rcases hu with rfl | rfl <;> split <;> omega

/-- **C258** A constant signal keeps its level to 1/100000, from 31 samples of the input and 59 samples between the filters after its start on. -/
theorem C258_level (up down : Nat) (hu : up = 2 ∨ up = 3) (hd : down = 1 ∨ down = 2) (X : Int → ℚ) (c : ℚ) (a b s : Int) (h : ∀ i, a ≤ i → i ≤ b → X i = c)
    (h1 : (a + 31) * up + 59 ≤ s * down) (h2 : s * down < (b + 1) * up) : |Out up down X s - c| ≤ |c| / 100000 := by
  have ht : ∀ u ∈ [2, 3], |total u - 1| ≤ 1 / 300000 := by decide +kernel
  have ht2 : total 2 = 10000032 / 10000000 := by decide +kernel
  have hu' := ht up (by simpa using hu)
  unfold Out
  rcases hd with rfl | rfl
  · rw [if_neg (by decide), middle_level up hu X c a b s h (by omega) (by omega), show c * total up - c = c * (total up - 1) by ring, abs_mul]
    have := mul_le_mul_of_nonneg_left hu' (abs_nonneg c)
    have := abs_nonneg c
    linarith
  · rw [if_pos rfl]
    have e : Half (Middle up X) s = c * total up * total 2 := by
      unfold Half
      rw [show total 2 = ((List.range 60).map (fun m => tap 2 m)).sum by decide +kernel, ← sum_const]
      refine sum_congr (fun m hm => ?_)
      have hm := List.mem_range.mp hm
      rw [middle_level up hu X c a b _ h (by omega) (by omega)]
    rw [e, ht2, show c * total up * (10000032 / 10000000) - c = c * ((total up - 1) * (10000032 / 10000000) + 32 / 10000000) by ring, abs_mul]
    have h3 : |(total up - 1) * (10000032 / 10000000) + 32 / 10000000| ≤ 1 / 100000 := by
      have h5 := abs_le.mp hu'
      rw [abs_le]
      constructor <;> linarith [h5.1, h5.2]
    have := mul_le_mul_of_nonneg_left h3 (abs_nonneg c)
    linarith

example : ((0 : Int) + 31) * (3 : Nat) + 59 ≤ 76 * (2 : Nat) ∧ 76 * (2 : Nat) < ((1023 : Int) + 1) * (3 : Nat) := by decide

/-! ## C259, C260: loudness normalisation -/

theorem ok_bind {α β : Type} (a : α) (f : α → Res β) : (Res.ok a).bind f = f a := rfl

theorem gainRow_succ (g : ℚ) (i n : Nat) (v : Rows) : gainRow g i (n + 1) v = (gainRow g i n v).bind (gainAt g i n) := rfl

theorem gainAll_succ (g : ℚ) (len k : Nat) (v : Rows) : gainAll g len (k + 1) v = (gainAll g len k v).bind (gainRow g k len) := rfl

theorem gainRow_ok (g : ℚ) (i n : Nat) (v : Rows) (h : 1024 * i + n ≤ 24 * 1024) : gainRow g i n v = .ok (fun a => if 1024 * i ≤ a ∧ a < 1024 * i + n then v a * g else v a) := by
  induction n with
  | zero =>
    show Res.ok v = _
    congr 1
    funext a
    rw [if_neg (by omega)]
  | succ n ih =>
    rw [gainRow_succ, ih (by omega), ok_bind]
    unfold gainAt
    rw [if_pos (by omega)]
    congr 1
    funext a
    simp only
    by_cases ha : a = 1024 * i + n
    · rw [if_pos ha, if_neg (by omega), if_pos (by omega)]
    · rw [if_neg ha]
      by_cases hb : 1024 * i ≤ a ∧ a < 1024 * i + n
      · rw [if_pos hb, if_pos (by omega)]
      · rw [if_neg hb, if_neg (by omega)]

theorem gainAll_ok (g : ℚ) (k : Nat) (hk : k ≤ 24) (v : Rows) : gainAll g 1024 k v = .ok (fun a => if a < 1024 * k then v a * g else v a) := by
  induction k with
  | zero =>
    show Res.ok v = _
    congr 1
  | succ k ih =>
    rw [gainAll_succ, ih (by omega), ok_bind, gainRow_ok _ _ _ _ (by omega)]
    congr 1
    funext a
    by_cases ha : a < 1024 * k
    · rw [if_neg (by omega), if_pos ha, if_pos (by omega)]
    · by_cases hb : 1024 * k ≤ a ∧ a < 1024 * k + 1024
      · rw [if_pos hb, if_neg ha, if_pos (by omega)]
      · rw [if_neg hb, if_neg ha, if_neg (by omega)]

/-- **C259** Without resampling all samples are multiplied by the gain. -/
theorem C259_plain_partial (g : ℚ) (nch : Nat) (hn : nch ≤ 24) (v : Rows) : ∃ w, plainStage g nch v = .ok w ∧ ∀ i < nch, ∀ j < 1024, w i j = g * v (1024 * i + j) := by
  refine ⟨_, by unfold plainStage; rw [gainAll_ok g nch hn v]; rfl, fun i hi j hj => ?_⟩
  simp only
  rw [if_pos (by omega), mul_comm]

/-- **C259** With resampling the gain changes nothing that is put out. -/
theorem C259_no_effect (up down : Nat) (g : ℚ) (nch : Nat) (st : Nat → State) (v : Rows) (r : (Nat → Nat → ℚ) × (Nat → State)) (h : resampStage up down g nch st v = .ok r) :
    resampStage up down 1 nch st v = .ok r := by
  unfold resampStage at h ⊢
  simp only [if_true] at h ⊢
  split at h
  · exact h
  · obtain ⟨w, -, h⟩ := Res.bind_eq_ok.mp h
    exact h

theorem gain_ok (g : ℚ) (len k : Nat) (hk : 1024 * k + len ≤ 25 * 1024) (v : Rows) : ∃ w, gainAll g len k v = .ok w := by
  induction k with
  | zero => exact ⟨v, rfl⟩
  | succ k ih =>
    obtain ⟨w, hw⟩ := ih (by omega)
    exact ⟨_, by rw [gainAll_succ, hw, ok_bind, gainRow_ok g k len w (by omega)]⟩

/-- **C260** Up to 23 channels at 3/2, 24 at 1, 23 at 2 and 22 at 3: the loop over the samples stays within the array. -/
theorem C260_safe_partial (up down : Nat) (g : ℚ) (nch : Nat) (st : Nat → State) (v : Rows) (h : 1024 * nch + 1024 * up / down ≤ 25 * 1024) : ∃ r, resampStage up down g nch st v = .ok r := by
  unfold resampStage
  simp only
  split
  · exact ⟨_, rfl⟩
  · obtain ⟨w, hw⟩ := gain_ok g (1024 * up / down) nch h v
    rw [hw]
    exact ⟨_, rfl⟩

example : 1024 * 2 + 1024 * 3 / 2 ≤ 25 * 1024 := by decide

theorem gainRow_ub (g : ℚ) (i n : Nat) (v : Rows) (h : 24 * 1024 < 1024 * i + n) (h0 : i < 24) : gainRow g i n v = .ub := by
  induction n with
  | zero => omega
  | succ n ih =>
    rw [gainRow_succ]
    by_cases hn : 24 * 1024 < 1024 * i + n
    · rw [ih hn]
      rfl
    · rw [gainRow_ok _ _ _ _ (by omega), ok_bind]
      unfold gainAt
      rw [if_neg (by omega)]

/-- **C260** With 24 channels, resampled from 32000 to 48000 Hz, and a gain, the loop leaves the array. -/
theorem C260_refuted (g : ℚ) (hg : g ≠ 1) (st : Nat → State) (v : Rows) : resampStage 3 2 g 24 st v = .ub := by
  unfold resampStage
  simp only
  rw [if_neg hg]
  obtain ⟨w, hw⟩ := gain_ok g (1024 * 3 / 2) 23 (by decide) v
  have : gainAll g (1024 * 3 / 2) 24 v = .ub := by
    rw [gainAll_succ, hw, ok_bind, gainRow_ub g 23 _ w (by decide) (by decide)]
  rw [this]
  rfl

theorem stage_one (up down nch : Nat) (st : Nat → State) (v : Rows) :
    resampStage up down 1 nch st v = .ok (fun i => (process up down 1024 (st i) (fun j => v (1024 * i + j))).1, fun i => (process up down 1024 (st i) (fun j => v (1024 * i + j))).2) := by
  unfold resampStage
  simp only [if_true]

/-- **C259** The steady output of a constant signal of 1000, resampled from 24000 to 48000 Hz, with a gain of 2. -/
theorem C259_refuted : ∃ (st : Nat → State) (v : Rows) (r : (Nat → Nat → ℚ) × (Nat → State)), resampStage 2 1 2 2 st v = .ok r ∧ r.1 0 2000 ≤ 1001 ∧
    ∀ (g : ℚ) (r' : (Nat → Nat → ℚ) × (Nat → State)), resampStage 2 1 g 2 st v = .ok r' → r'.1 0 2000 = r.1 0 2000 := by
  obtain ⟨r, hr⟩ := C260_safe_partial 2 1 2 2 (fun _ => State.zero) (fun _ => 1000) (by decide)
  have h1 := C259_no_effect 2 1 2 2 _ _ r hr
  refine ⟨_, _, r, hr, ?_, fun g r' h' => ?_⟩
  · have e : r.1 0 = (process 2 1 1024 State.zero (fun _ => 1000)).1 := by
      have := stage_one 2 1 2 (fun _ => State.zero) (fun _ => 1000)
      rw [h1] at this
      rw [Res.ok.inj this]
    set X : Int → ℚ := fun i => if 0 ≤ i then 1000 else 0 with hX
    have hf := start_follows 2 1 (.inl rfl) X (fun i hi => if_neg (by omega))
    have h2 := (C256_frame 2 1 1024 (.inl rfl) (.inl rfl) (by decide) State.zero (fun _ => 1000) X 0 0 (by decide) hf (fun n _ => (if_pos (by omega)).symm)).1 2000 (by decide)
    rw [e]
    have h3 := C258_level 2 1 (.inl rfl) (.inl rfl) X 1000 0 5000 (0 + ((2000 : Nat) : Int)) (fun i hi _ => if_pos hi) (by decide) (by decide)
    have := (abs_le.mp h3).2
    rw [abs_of_pos (by norm_num : (0 : ℚ) < 1000)] at this
    exact h2.trans_le (le_trans (sub_le_iff_le_add.mp this) (by norm_num))
  · have h2 := C259_no_effect 2 1 g 2 _ _ r' h'
    rw [h1] at h2
    rw [Res.ok.inj h2]

end Verif.Resamp
