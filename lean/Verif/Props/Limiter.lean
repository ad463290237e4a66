import Verif.Model.Limiter
import Verif.Spec.Limiter
import Mathlib.Tactic.Linarith
import Mathlib.Tactic.NormNum
import Mathlib.Algebra.Order.Field.Basic
import Mathlib.Data.List.Forall2

/-! # Properties of the peak limiter (C42, C43, C44) -/

namespace Verif.Limiter

open LimiterSpec

/-! ## Circular buffers -/

/-- A buffer of `n` entries with write position `i` contains `w`, oldest first. -/
def Holds {α : Type} (n : Nat) (buf : List α) (i : Nat) (w : List α) : Prop :=
  buf.length = n ∧ i < n ∧ buf.drop i ++ buf.take i = w

theorem Holds.oldest {α : Type} {n : Nat} {buf : List α} {i : Nat} {w : List α} (h : Holds n buf i w)
    (d : α) : w.head? = some (buf.getD i d) := by
  obtain ⟨h1, h2, rfl⟩ := h
  have : i < buf.length := by omega
  rw [List.head?_append, List.head?_drop]
  simp [List.getD_eq_getElem?_getD, this]

/-- Overwriting the oldest entry. -/
theorem Holds.write {α : Type} {n : Nat} {buf : List α} {i : Nat} {w : List α} (h : Holds n buf i w)
    (x : α) : Holds n (buf.set i x) (next i n) (w.tail ++ [x]) := by
  obtain ⟨h1, h2, rfl⟩ := h
  have hi : i < buf.length := by omega
  have hs : buf.set i x = buf.take i ++ x :: buf.drop (i + 1) := by
    rw [List.set_eq_take_append_cons_drop, if_pos hi]
  have ht : (buf.drop i ++ buf.take i).tail = buf.drop (i + 1) ++ buf.take i := by
    rw [List.drop_eq_getElem_cons hi]; rfl
  refine ⟨by simp [h1], ?_, ?_⟩
  · unfold next; split <;> omega
  · rw [ht, hs]
    have hl : (buf.take i).length = i := by simp; omega
    unfold next
    split
    · have hd : buf.drop (i + 1) = [] := List.drop_eq_nil_of_le (by omega)
      rw [hd]; simp
    · rw [List.drop_append, List.take_append, hl]
      rw [show i + 1 - i = 1 by omega, List.drop_of_length_le (by omega : (buf.take i).length ≤ i + 1),
        List.take_of_length_le (by omega : (buf.take i).length ≤ i + 1)]
      simp

theorem Holds.mem {α : Type} {n : Nat} {buf : List α} {i : Nat} {w : List α} (h : Holds n buf i w) (v : α) :
    v ∈ w ↔ v ∈ buf := by
  obtain ⟨_, _, rfl⟩ := h
  rw [List.mem_append]
  conv_rhs => rw [← List.take_append_drop i buf, List.mem_append]
  exact Or.comm

/-! ## The level -/

theorem fmax_eq (a b : Rat) : fmax a b = max a b := by
  unfold fmax
  split
  · rw [max_eq_right (by linarith)]
  · rw [max_eq_left (by linarith)]

theorem fmin_eq (a b : Rat) : fmin a b = min a b := by
  unfold fmin
  split
  · rw [min_eq_right (by linarith)]
  · rw [min_eq_left (by linarith)]

theorem fabs_eq (a : Rat) : fabs a = |a| := by
  unfold fabs
  split
  · rw [abs_of_neg ‹_›]
  · rw [abs_of_nonneg (by linarith)]

theorem peak_nonneg (l : List Rat) : 0 ≤ peak l := by
  induction l with
  | nil => exact le_refl _
  | cons a l ih => exact le_trans ih (le_max_right _ _)

theorem peak_append (a b : List Rat) : peak (a ++ b) = max (peak a) (peak b) := by
  induction a with
  | nil => exact (max_eq_right (peak_nonneg b)).symm
  | cons x a ih =>
    show max |x| (peak (a ++ b)) = max (max |x| (peak a)) (peak b)
    rw [ih, max_assoc]

theorem le_peak {l : List Rat} {v : Rat} (h : v ∈ l) : |v| ≤ peak l := by
  induction l with
  | nil => cases h
  | cons a l ih =>
    rcases List.mem_cons.mp h with rfl | h
    · exact le_max_left _ _
    · exact le_trans (ih h) (le_max_right _ _)

theorem peak_le {l : List Rat} {b : Rat} (hb : 0 ≤ b) (h : ∀ v ∈ l, |v| ≤ b) : peak l ≤ b := by
  induction l with
  | nil => exact hb
  | cons a l ih => exact max_le (h a (by simp)) (ih fun v hv => h v (by simp [hv]))

theorem level_aux (x : List Rat) (t : Rat) (ht : 0 ≤ t) :
    x.foldl (fun t v => fmax t (fabs v)) t = max t (peak x) := by
  induction x generalizing t with
  | nil => exact (max_eq_left ht).symm
  | cons a x ih =>
    rw [List.foldl_cons, fmax_eq, fabs_eq, ih _ (le_trans ht (le_max_left _ _)), max_assoc]
    rfl

theorem level_eq (x : List Rat) : level x = peak x := by
  unfold level
  rw [level_aux x 0 (le_refl _), max_eq_right (peak_nonneg x)]

/-! ## The index of the maximum -/

/-- `idx` is the index of a largest entry. -/
def IsMax (buf : List Rat) (idx : Nat) : Prop :=
  idx < buf.length ∧ ∀ j < buf.length, buf.getD j 0 ≤ buf.getD idx 0

theorem scan_max (buf : List Rat) (n j idx : Nat) (hj : j + n = buf.length) (hidx : idx < buf.length)
    (h : ∀ k < j, buf.getD k 0 ≤ buf.getD idx 0) : IsMax buf (scan buf n j idx) := by
  induction n generalizing j idx with
  | zero => exact ⟨hidx, fun k hk => h k (by omega)⟩
  | succ n ih =>
    unfold scan
    by_cases hlt : buf.getD idx 0 < buf.getD j 0
    · rw [if_pos hlt]
      refine ih (j + 1) j (by omega) (by omega) fun k hk => ?_
      rcases Nat.lt_or_ge k j with h1 | h1
      · exact le_trans (h k h1) (le_of_lt hlt)
      · have : k = j := by omega
        subst this; exact le_refl _
    · rw [if_neg hlt]
      refine ih (j + 1) idx (by omega) hidx fun k hk => ?_
      rcases Nat.lt_or_ge k j with h1 | h1
      · exact h k h1
      · have : k = j := by omega
        subst this; exact not_lt.mp hlt

theorem getD_set (buf : List Rat) (i j : Nat) (x : Rat) (hi : i < buf.length) :
    (buf.set i x).getD j 0 = if j = i then x else buf.getD j 0 := by
  simp only [List.getD_eq_getElem?_getD, List.getElem?_set]
  by_cases h : i = j
  · subst h; simp [hi]
  · rw [if_neg h, if_neg (fun e => h e.symm)]

theorem nextMax_max (p : Par) (buf : List Rat) (maxIdx cir : Nat) (tmp : Rat)
    (hl : buf.length = p.attack + 1) (hc : cir < buf.length) (h : IsMax buf maxIdx) :
    IsMax (buf.set cir tmp) (nextMax p (buf.set cir tmp) maxIdx cir tmp) := by
  unfold nextMax
  by_cases h1 : maxIdx = cir
  · rw [if_pos h1]
    refine scan_max _ _ _ _ (by simp; omega) (by simp; omega) fun k hk => ?_
    have : k = 0 := by omega
    subst this; exact le_refl _
  · rw [if_neg h1, getD_set _ _ _ _ hc, if_neg h1]
    by_cases h2 : buf.getD maxIdx 0 ≤ tmp
    · rw [if_pos h2]
      refine ⟨by simpa using hc, fun j hj => ?_⟩
      rw [getD_set _ _ _ _ hc, getD_set _ _ _ _ hc, if_pos rfl]
      split
      · exact le_refl _
      · exact le_trans (h.2 j (by simpa using hj)) h2
    · rw [if_neg h2]
      refine ⟨by simpa using h.1, fun j hj => ?_⟩
      rw [getD_set _ _ _ _ hc, getD_set _ _ _ _ hc, if_neg h1]
      split
      · exact le_of_lt (not_le.mp h2)
      · exact h.2 j (by simpa using hj)

theorem peak_eq_of_max {buf : List Rat} {idx : Nat} (h : IsMax buf idx) (h0 : ∀ v ∈ buf, 0 ≤ v) :
    buf.getD idx 0 = peak buf := by
  have hget : buf.getD idx 0 = buf[idx]'h.1 := by simp [List.getD_eq_getElem?_getD, h.1]
  have hm : buf.getD idx 0 ∈ buf := by rw [hget]; exact List.getElem_mem _
  apply le_antisymm
  · have := le_peak hm
    rwa [abs_of_nonneg (h0 _ hm)] at this
  · apply peak_le (h0 _ hm)
    intro v hv
    rw [abs_of_nonneg (h0 v hv)]
    obtain ⟨j, hj, rfl⟩ := List.getElem_of_mem hv
    have := h.2 j hj
    simpa [List.getD_eq_getElem?_getD, hj] using this

/-! ## The state after any signal -/

/-- What the state is after the instants `xs`, for `ch` channels. -/
structure Inv (p : Par) (ch : Nat) (xs : List (List Rat)) (s : State) : Prop where
  max : Holds (p.attack + 1) s.maxBuf s.cir ((lastN (p.attack + 1) (List.replicate ch 0) xs).map peak)
  idx : IsMax s.maxBuf s.maxIdx
  delayed : Holds p.attack s.delayed s.didx (lastN p.attack (List.replicate ch 0) xs)

theorem peak_zeros (n : Nat) : peak (List.replicate n 0) = 0 := by
  induction n with
  | zero => rfl
  | succ n ih =>
    show max |0| (peak (List.replicate n 0)) = 0
    rw [ih]; simp

theorem init_inv (p : Par) (ch : Nat) (ha : 1 ≤ p.attack) : Inv p ch [] (init p ch) := by
  refine ⟨⟨by simp [init], by simp [init], ?_⟩, ⟨by simp [init], fun j hj => ?_⟩,
    ⟨by simp [init], by simp [init]; omega, ?_⟩⟩
  · simp [init, lastN, peak_zeros]
  · simp only [init, List.getD_eq_getElem?_getD, List.getElem?_replicate]
    split <;> simp
  · simp [init, lastN]

theorem lastN_snoc {α : Type} (n : Nat) (hn : 1 ≤ n) (z x : α) (xs : List α) :
    lastN n z (xs ++ [x]) = (lastN n z xs).tail ++ [x] := by
  unfold lastN
  rw [List.tail_drop, ← List.append_assoc, List.length_append, List.length_singleton,
    List.drop_append_of_le_length (by simp; omega)]

theorem length_lastN {α : Type} (n : Nat) (z : α) (xs : List α) : (lastN n z xs).length = n := by
  simp [lastN]

theorem step_inv (p : Par) (ch : Nat) (ha : 1 ≤ p.attack) (xs : List (List Rat)) (s : State)
    (h : Inv p ch xs s) (x : List Rat) : Inv p ch (xs ++ [x]) (step p s x).1 := by
  have hc : s.cir < s.maxBuf.length := by have := h.max.1; have := h.max.2.1; omega
  refine ⟨?_, ?_, ?_⟩
  · have := h.max.write (peak x)
    rw [lastN_snoc _ (by omega), List.map_append, List.map_tail]
    rw [← level_eq] at this
    simpa [step, track, level_eq] using this
  · exact nextMax_max p s.maxBuf s.maxIdx s.cir (level x) h.max.1 hc h.idx
  · rw [lastN_snoc _ ha]
    exact h.delayed.write x

theorem runSteps_append (f : State → List Rat → State × List Rat) (s : State) (a b : List (List Rat)) :
    runSteps f s (a ++ b) =
      ((runSteps f (runSteps f s a).1 b).1, (runSteps f s a).2 ++ (runSteps f (runSteps f s a).1 b).2) := by
  induction a generalizing s with
  | nil => rfl
  | cons x a ih =>
    simp only [List.cons_append, runSteps]
    rw [ih]

theorem runSteps_inv (p : Par) (ch : Nat) (ha : 1 ≤ p.attack) (xs ys : List (List Rat)) (s : State)
    (h : Inv p ch xs s) : Inv p ch (xs ++ ys) (runSteps (step p) s ys).1 := by
  induction ys generalizing xs s with
  | nil => simpa [runSteps] using h
  | cons y ys ih =>
    have := ih (xs ++ [y]) _ (step_inv p ch ha xs s h y)
    simpa [runSteps] using this

theorem peak_map (l : List (List Rat)) : peak (l.map peak) = peak l.flatten := by
  induction l with
  | nil => rfl
  | cons a l ih =>
    rw [List.flatten_cons, peak_append, ← ih]
    show max |peak a| (peak (l.map peak)) = _
    rw [abs_of_nonneg (peak_nonneg a)]

theorem peak_congr {a b : List Rat} (h : ∀ v, v ∈ a ↔ v ∈ b) : peak a = peak b :=
  le_antisymm (peak_le (peak_nonneg b) fun v hv => le_peak ((h v).mp hv))
    (peak_le (peak_nonneg a) fun v hv => le_peak ((h v).mpr hv))

theorem Inv.level {p : Par} {ch : Nat} {xs : List (List Rat)} {s : State} (h : Inv p ch xs s) :
    s.maxBuf.getD s.maxIdx 0 = peak ((lastN (p.attack + 1) (List.replicate ch 0) xs).flatten) := by
  rw [peak_eq_of_max h.idx, ← peak_map, peak_congr fun v => (h.max.mem v).symm]
  intro v hv
  obtain ⟨l, _, rfl⟩ := List.mem_map.mp ((h.max.mem v).mpr hv)
  exact peak_nonneg l

/-- Frame after frame through the limiter, as the decoder calls it. -/
def processAll (p : Par) : State → List (List (List Rat)) → State × List (List Rat)
  | s, [] => (s, [])
  | s, f :: fs => ((processAll p (process p s f).1 fs).1, (process p s f).2 ++ (processAll p (process p s f).1 fs).2)

/-- **C44** (framing) The output of the limiter does not depend on how the signal is cut into frames. -/
theorem C44_framing (p : Par) (hon : p.on = true) (s : State) (fs : List (List (List Rat))) :
    processAll p s fs = runSteps (step p) s fs.flatten := by
  induction fs generalizing s with
  | nil => rfl
  | cons f fs ih =>
    have hp : process p s f = runSteps (step p) s f := by simp [process, hon]
    rw [processAll, List.flatten_cons, runSteps_append, ih, hp]

/-- Two ways to cut the same signal give the same samples and leave the same state. -/
theorem C44_split (p : Par) (hon : p.on = true) (s : State) (fs gs : List (List (List Rat)))
    (h : fs.flatten = gs.flatten) : processAll p s fs = processAll p s gs := by
  rw [C44_framing p hon, C44_framing p hon, h]

/-- **C43** At every sample of every signal, however it was cut into frames, the level the limiter
uses is the largest magnitude of all channels over the current and the `attack` preceding instants
(silence before the start). -/
theorem C43_level (p : Par) (hon : p.on = true) (ch : Nat) (ha : 1 ≤ p.attack)
    (fs : List (List (List Rat))) (x : List Rat) :
    (track p (processAll p (init p ch) fs).1 x).2.2.2 =
      peak ((lastN (p.attack + 1) (List.replicate ch 0) (fs.flatten ++ [x])).flatten) := by
  rw [C44_framing p hon]
  have h := runSteps_inv p ch ha [] fs.flatten _ (init_inv p ch ha)
  exact (step_inv p ch ha _ _ h x).level

/-- A limiter with a threshold of 4 and a look-ahead of 2 instants. -/
def demo : Par :=
  { rnd := fun v => v, attack := 2, att := 1 / 2, rel := 3 / 4, thr := 4, tenth := 1 / 10, ninth := 10 / 9, on := true }

example : demo.on = true ∧ 1 ≤ demo.attack ∧
    (track demo (processAll demo (init demo 2) [[[1, -9]], [[3, 2], [0, 1]]]).1 [0, 0]).2.2.2 = 3 ∧
    (track demo (processAll demo (init demo 2) [[[1, -9]], [[3, 2]]]).1 [0, 0]).2.2.2 = 9 := by decide +kernel

theorem applyGain_le (p : Par) (h : 0 ≤ p.thr) (g x : Rat) : |applyGain p g x| ≤ p.thr := by
  unfold applyGain
  rw [abs_le]
  simp only
  split
  · exact ⟨by linarith, le_refl _⟩
  · split
    · exact ⟨le_refl _, by linarith⟩
    · exact ⟨by linarith, by linarith⟩

/-- **C42** Every sample the limiter produces, from any state and for any signal, has magnitude at
most the threshold. -/
theorem C42_threshold (p : Par) (hon : p.on = true) (hthr : 0 ≤ p.thr) (s : State)
    (fs : List (List (List Rat))) :
    ∀ y ∈ (processAll p s fs).2, ∀ v ∈ y, |v| ≤ p.thr := by
  rw [C44_framing p hon]
  generalize fs.flatten = xs
  induction xs generalizing s with
  | nil => intro y hy; cases hy
  | cons x xs ih =>
    intro y hy v hv
    simp only [runSteps, List.mem_cons] at hy
    rcases hy with rfl | hy
    · simp only [step, List.mem_map] at hv
      obtain ⟨u, _, rfl⟩ := hv
      exact applyGain_le p hthr _ _
    · exact ih _ y hy v hv

example : demo.on = true ∧ 0 ≤ demo.thr ∧
    (processAll demo (init demo 1) [[[9], [1]], [[1], [-3], [0]]]).2 = [[0], [0], [4], [257 / 432], [401 / 576]] := by
  decide +kernel

/-- While nothing above the threshold has been seen, the gain stays 1. -/
theorem smooth_one (p : Par) (h0 : p.rnd 0 = 0) (h1 : p.rnd 1 = 1) (m : Rat) (hm : m ≤ p.thr) (gm : Rat) :
    smooth p m gm 1 = (1, 1) := by
  unfold smooth
  simp [hm, h0, h1]

theorem applyGain_one (p : Par) (x : Rat) (hx : p.rnd x = x) (h : |x| ≤ p.thr) : applyGain p 1 x = x := by
  unfold applyGain
  rw [abs_le] at h
  simp only [mul_one, hx]
  rw [if_neg (not_lt.mpr h.2), if_neg (not_lt.mpr h.1)]

theorem getD_of_head {α : Type} {w : List α} {a d : α} (h : w.head? = some a) : w.getD 0 d = a := by
  cases w with
  | nil => cases h
  | cons b w => simpa using h

theorem lastN_sub {α : Type} (n : Nat) (z : α) (xs : List α) : ∀ v ∈ lastN n z xs, v = z ∨ v ∈ xs := by
  intro v hv
  rcases List.mem_append.mp (List.mem_of_mem_drop hv) with h | h
  · exact .inl (List.eq_of_mem_replicate h)
  · exact .inr h

/-- The signal with silence before it, from the instant now leaving the delay. -/
theorem drop_cons_oldest (p : Par) (ch : Nat) (ha : 1 ≤ p.attack) (xs ys : List (List Rat)) (y o : List Rat)
    (hold : (lastN p.attack (List.replicate ch (0 : Rat)) xs).head? = some o) :
    (List.replicate p.attack (List.replicate ch (0 : Rat)) ++ (xs ++ y :: ys)).drop xs.length =
      o :: (List.replicate p.attack (List.replicate ch 0) ++ (xs ++ y :: ys)).drop (xs.length + 1) := by
  have hlen : xs.length < (List.replicate p.attack (List.replicate ch (0 : Rat)) ++ (xs ++ y :: ys)).length := by
    simp; omega
  rw [List.drop_eq_getElem_cons hlen]
  congr 1
  have e : lastN p.attack (List.replicate ch (0 : Rat)) xs =
      (List.replicate p.attack (List.replicate ch 0) ++ xs).drop xs.length := rfl
  rw [e, List.head?_drop] at hold
  have hlt : xs.length < (List.replicate p.attack (List.replicate ch (0 : Rat)) ++ xs).length := by
    simp; omega
  rw [List.getElem?_eq_getElem hlt] at hold
  rw [← Option.some.inj hold]
  simp only [← List.append_assoc]
  rw [List.getElem_append_left (as := List.replicate p.attack (List.replicate ch (0 : Rat)) ++ xs) hlt]

theorem transparent (p : Par) (h0 : p.rnd 0 = 0) (h1 : p.rnd 1 = 1) (ch : Nat) (ha : 1 ≤ p.attack)
    (hthr : 0 ≤ p.thr) (xs ys : List (List Rat)) (s : State) (hi : Inv p ch xs s) (hpre : s.pre = 1)
    (h : ∀ x ∈ xs ++ ys, ∀ v ∈ x, p.rnd v = v ∧ |v| ≤ p.thr) :
    (runSteps (step p) s ys).2 =
      ((List.replicate p.attack (List.replicate ch 0) ++ (xs ++ ys)).drop xs.length).take ys.length := by
  induction ys generalizing xs s with
  | nil => rfl
  | cons y ys ih =>
    have hs := step_inv p ch ha xs s hi y
    have hmax : (track p s y).2.2.2 ≤ p.thr := by
      have : (track p s y).2.2.2 = _ := hs.level
      rw [this]
      refine peak_le hthr fun v hv => ?_
      obtain ⟨l, hl, hvl⟩ := List.mem_flatten.mp hv
      rcases lastN_sub _ _ _ l hl with rfl | hl
      · rw [List.eq_of_mem_replicate hvl]; simpa using hthr
      · exact (h l (by simp at hl ⊢; tauto) v hvl).2
    have hsm : smooth p (track p s y).2.2.2 s.gm s.pre = (1, 1) := by
      rw [hpre]; exact smooth_one p h0 h1 _ hmax _
    have hpre' : (step p s y).1.pre = 1 := by simp only [step]; rw [hsm]
    have hold := hi.delayed.oldest []
    have hout : (step p s y).2 = s.delayed.getD s.didx [] := by
      have : (step p s y).2 = (s.delayed.getD s.didx []).map (applyGain p 1) := by
        simp only [step]; rw [hsm]
      rw [this]
      have hmem : s.delayed.getD s.didx [] ∈ lastN p.attack (List.replicate ch 0) xs :=
        List.mem_of_mem_head? (by rw [hold]; rfl)
      conv_rhs => rw [← List.map_id (s.delayed.getD s.didx [])]
      refine List.map_congr_left fun v hv => ?_
      rcases lastN_sub _ _ _ _ hmem with hz | hx
      · rw [hz] at hv
        rw [List.eq_of_mem_replicate hv]
        exact applyGain_one p 0 h0 (by simpa using hthr)
      · have := h _ (List.mem_append_left _ hx) v hv
        exact applyGain_one p v this.1 this.2
    have hrec := ih (xs ++ [y]) _ hs hpre' (by simpa using h)
    simp only [runSteps]
    rw [hrec, hout]
    rw [drop_cons_oldest p ch ha xs ys y _ hold, List.length_cons, List.take_succ_cons]
    simp

/-- **C44** (transparency) A signal of representable samples that never exceeds the threshold comes
out unchanged, delayed by exactly the attack time, however it is cut into frames. -/
theorem C44_transparent (p : Par) (hon : p.on = true) (h0 : p.rnd 0 = 0) (h1 : p.rnd 1 = 1) (ch : Nat)
    (ha : 1 ≤ p.attack) (hthr : 0 ≤ p.thr) (fs : List (List (List Rat)))
    (h : ∀ f ∈ fs, ∀ x ∈ f, ∀ v ∈ x, p.rnd v = v ∧ |v| ≤ p.thr) :
    (processAll p (init p ch) fs).2 = delay p.attack (List.replicate ch 0) fs.flatten := by
  rw [C44_framing p hon]
  have := transparent p h0 h1 ch ha hthr [] fs.flatten _ (init_inv p ch ha) rfl (by
    intro x hx
    obtain ⟨f, hf, hxf⟩ := List.mem_flatten.mp (by simpa using hx)
    exact h f hf x hxf)
  simpa [delay] using this

example : (∀ f ∈ [[[1, -4], [2, 3]], [[0, 4]]], ∀ x ∈ f, ∀ v ∈ x, demo.rnd v = v ∧ |v| ≤ demo.thr) ∧
    (processAll demo (init demo 2) [[[1, -4], [2, 3]], [[0, 4]]]).2 = [[0, 0], [0, 0], [1, -4]] := by
  decide +kernel

/-! ## The gain -/

/-- One smoothing step keeps the smoothed gain in 0 to 1. -/
theorem smooth_unit (p : Par) (hr : ∀ v, p.rnd v = v) (hthr : 0 ≤ p.thr) (hrel : 0 ≤ p.rel ∧ p.rel ≤ 1)
    (hatt : 0 ≤ p.att ∧ p.att ≤ 1) (m gm pre : Rat) (hgm : gm ≤ 1) (hpre : 0 ≤ pre ∧ pre ≤ 1) :
    (smooth p m gm pre).1 ≤ 1 ∧ 0 ≤ (smooth p m gm pre).2 ∧ (smooth p m gm pre).2 ≤ 1 := by
  set gain := if m ≤ p.thr then 1 else p.rnd (p.thr / m) with hgain
  have hg : 0 ≤ gain ∧ gain ≤ 1 := by
    rw [hgain]
    split
    · exact ⟨by norm_num, le_refl _⟩
    · have hm : p.thr < m := not_le.mp ‹_›
      have hm0 : 0 < m := lt_of_le_of_lt hthr hm
      rw [hr]
      exact ⟨div_nonneg hthr (le_of_lt hm0), (div_le_one hm0).mpr (le_of_lt hm)⟩
  set gm' := if gain < pre then fmin gm (p.rnd (p.rnd (gain - p.rnd (p.tenth * pre)) * p.ninth)) else gain with hgm'
  have h1 : gm' ≤ 1 := by
    rw [hgm']
    split
    · rw [fmin_eq]; exact le_trans (min_le_left _ _) hgm
    · exact hg.2
  have e : smooth p m gm pre = (gm', if pre ≤ gm' then p.rnd (gm' + p.rnd (p.rel * p.rnd (pre - gm')))
    else fmax (p.rnd (gm' + p.rnd (p.att * p.rnd (pre - gm')))) gain) := rfl
  rw [e]
  simp only [hr, fmax_eq]
  refine ⟨h1, ?_⟩
  split
  · rename_i hle
    have a : p.rel * (pre - gm') ≤ 0 := mul_nonpos_of_nonneg_of_nonpos hrel.1 (by linarith)
    have b : 1 * (pre - gm') ≤ p.rel * (pre - gm') := mul_le_mul_of_nonpos_right hrel.2 (by linarith)
    exact ⟨by linarith, by linarith⟩
  · rename_i hlt
    have b : p.att * (pre - gm') ≤ 1 * (pre - gm') := mul_le_mul_of_nonneg_right hatt.2 (by linarith)
    exact ⟨le_trans hg.1 (le_max_right _ _), max_le (by linarith) hg.2⟩

/-- A gain of 0 to 1, then the clamp, brings a sample closer to 0 and keeps its sign. -/
theorem applyGain_shrinks (p : Par) (hr : ∀ v, p.rnd v = v) (hthr : 0 ≤ p.thr) (g x : Rat)
    (hg : 0 ≤ g ∧ g ≤ 1) : (0 ≤ x → 0 ≤ applyGain p g x ∧ applyGain p g x ≤ x) ∧
      (x ≤ 0 → x ≤ applyGain p g x ∧ applyGain p g x ≤ 0) := by
  unfold applyGain
  simp only [hr]
  constructor
  · intro hx
    have a : 0 ≤ x * g := mul_nonneg hx hg.1
    have b : x * g ≤ x * 1 := mul_le_mul_of_nonneg_left hg.2 hx
    split
    · exact ⟨hthr, by linarith⟩
    · split
      · exact absurd a (by linarith)
      · exact ⟨a, by linarith⟩
  · intro hx
    have a : x * g ≤ 0 := mul_nonpos_of_nonpos_of_nonneg hx hg.1
    have b : x * 1 ≤ x * g := mul_le_mul_of_nonpos_left hg.2 hx
    split
    · exact absurd a (by linarith)
    · split
      · exact ⟨by linarith, by linarith⟩
      · exact ⟨by linarith, a⟩

/-- `y` is `x`, every sample brought closer to 0 or left alone. -/
def Shrunk (x y : List Rat) : Prop :=
  List.Forall₂ (fun v w => (0 ≤ v → 0 ≤ w ∧ w ≤ v) ∧ (v ≤ 0 → v ≤ w ∧ w ≤ 0)) x y

theorem shrinks (p : Par) (hr : ∀ v, p.rnd v = v) (hthr : 0 ≤ p.thr) (hrel : 0 ≤ p.rel ∧ p.rel ≤ 1)
    (hatt : 0 ≤ p.att ∧ p.att ≤ 1) (ch : Nat) (ha : 1 ≤ p.attack) (xs ys : List (List Rat)) (s : State)
    (hi : Inv p ch xs s) (hgm : s.gm ≤ 1) (hpre : 0 ≤ s.pre ∧ s.pre ≤ 1) :
    List.Forall₂ Shrunk
      (((List.replicate p.attack (List.replicate ch 0) ++ (xs ++ ys)).drop xs.length).take ys.length)
      (runSteps (step p) s ys).2 := by
  induction ys generalizing xs s with
  | nil => exact .nil
  | cons y ys ih =>
    have hs := step_inv p ch ha xs s hi y
    have hu := smooth_unit p hr hthr hrel hatt (track p s y).2.2.2 s.gm s.pre hgm hpre
    have hold := hi.delayed.oldest []
    have hrec := ih (xs ++ [y]) (step p s y).1 hs hu.1 hu.2
    have hdrop : (List.replicate p.attack (List.replicate ch (0 : Rat)) ++ (xs ++ y :: ys)).drop xs.length =
        s.delayed.getD s.didx [] :: (List.replicate p.attack (List.replicate ch 0) ++ (xs ++ y :: ys)).drop (xs.length + 1) :=
      drop_cons_oldest p ch ha xs ys y _ hold
    rw [hdrop, List.length_cons, List.take_succ_cons]
    simp only [runSteps]
    refine .cons ?_ (by simpa using hrec)
    show Shrunk _ ((s.delayed.getD s.didx []).map (applyGain p (smooth p (track p s y).2.2.2 s.gm s.pre).2))
    unfold Shrunk
    rw [List.forall₂_map_right_iff]
    exact List.forall₂_same.mpr fun v _ => applyGain_shrinks p hr hthr _ v hu.2

/-- **C65** With exact arithmetic the limiter never amplifies: every output sample lies between 0 and
the input sample of the same channel `attack` instants earlier. -/
theorem C65_no_amplify (p : Par) (hon : p.on = true) (hr : ∀ v, p.rnd v = v) (hthr : 0 ≤ p.thr)
    (hrel : 0 ≤ p.rel ∧ p.rel ≤ 1) (hatt : 0 ≤ p.att ∧ p.att ≤ 1) (ch : Nat) (ha : 1 ≤ p.attack)
    (fs : List (List (List Rat))) :
    List.Forall₂ Shrunk (delay p.attack (List.replicate ch 0) fs.flatten) (processAll p (init p ch) fs).2 := by
  rw [C44_framing p hon]
  have := shrinks p hr hthr hrel hatt ch ha [] fs.flatten _ (init_inv p ch ha) (by simp [init])
    (by constructor <;> simp [init])
  simpa [delay] using this

example : demo.on = true ∧ (∀ v, demo.rnd v = v) ∧ 0 ≤ demo.thr ∧ (0 ≤ demo.rel ∧ demo.rel ≤ 1) ∧
    (0 ≤ demo.att ∧ demo.att ≤ 1) ∧ 1 ≤ demo.attack :=
  ⟨rfl, fun _ => rfl, by decide +kernel, by decide +kernel, by decide +kernel, by decide⟩

/-! ## Switched off -/

/-- The delay alone. -/
structure Delays (p : Par) (ch : Nat) (xs : List (List Rat)) (s : State) : Prop where
  delayed : Holds p.attack s.delayed s.didx (lastN p.attack (List.replicate ch 0) xs)

theorem bypass_delays (p : Par) (ch : Nat) (ha : 1 ≤ p.attack) (xs ys : List (List Rat)) (s : State) (hi : Delays p ch xs s) :
    (runSteps (bypass p) s ys).2 =
      ((List.replicate p.attack (List.replicate ch 0) ++ (xs ++ ys)).drop xs.length).take ys.length ∧
    Delays p ch (xs ++ ys) (runSteps (bypass p) s ys).1 ∧ (runSteps (bypass p) s ys).1.pre = s.pre := by
  induction ys generalizing xs s with
  | nil => exact ⟨rfl, by simpa [runSteps] using hi, rfl⟩
  | cons y ys ih =>
    have hs : Delays p ch (xs ++ [y]) (bypass p s y).1 := ⟨by rw [lastN_snoc _ ha]; exact hi.delayed.write y⟩
    obtain ⟨h1, h2, h3⟩ := ih (xs ++ [y]) _ hs
    have hold := hi.delayed.oldest []
    refine ⟨?_, by simpa [runSteps] using h2, h3⟩
    simp only [runSteps]
    rw [h1, drop_cons_oldest p ch ha xs ys y _ hold, List.length_cons, List.take_succ_cons]
    simp [bypass]

/-- **C100** A limiter that was always off gives every signal back unchanged, delayed by exactly the attack time,
however it is cut into frames. -/
theorem C100_off (p : Par) (hoff : p.on = false) (ch : Nat) (ha : 1 ≤ p.attack) (fs : List (List (List Rat))) :
    (processAll p (init p ch) fs).2 = delay p.attack (List.replicate ch 0) fs.flatten := by
  have key : ∀ (fs : List (List (List Rat))) (s : State), 1 ≤ s.pre → processAll p s fs = runSteps (bypass p) s fs.flatten := by
    intro fs
    induction fs with
    | nil => exact fun _ _ => rfl
    | cons f fs ih =>
      intro s hs
      have hp : process p s f = runSteps (bypass p) s f := by simp [process, hoff, hs]
      have hpre : ∀ (f : List (List Rat)) (s : State), (runSteps (bypass p) s f).1.pre = s.pre := by
        intro f
        induction f with
        | nil => exact fun _ => rfl
        | cons x f ih => exact fun s => (ih (bypass p s x).1).trans rfl
      rw [processAll, List.flatten_cons, runSteps_append, hp, ih _ (by rw [hpre]; exact hs)]
  rw [key fs _ (by simp [init])]
  have := (bypass_delays p ch ha [] fs.flatten _ ⟨(init_inv p ch ha).delayed⟩).1
  simpa [delay] using this

/-- **C100** A limiter switched off while it reduces the gain goes on as if it were on, for the whole frame. -/
theorem C100_fade (p : Par) (s : State) (h : s.pre < 1) (f : List (List Rat)) :
    process { p with on := false } s f = process { p with on := true } s f := by
  have : ¬ (1 ≤ s.pre) := not_le.mpr h
  simp only [process]
  rw [if_neg (by tauto), if_neg (by simp)]
  rfl

/-- **C100** Switched off once the gain is back at 1, after any signal, it gives the rest of the signal back with
the same delay. -/
theorem C100_later (p : Par) (hoff : p.on = false) (ch : Nat) (ha : 1 ≤ p.attack) (xs f : List (List Rat)) (s : State)
    (hi : Inv p ch xs s) (h : 1 ≤ s.pre) :
    (process p s f).2 = ((List.replicate p.attack (List.replicate ch 0) ++ (xs ++ f)).drop xs.length).take f.length := by
  have hp : process p s f = runSteps (bypass p) s f := by simp [process, hoff, h]
  rw [hp]
  exact (bypass_delays p ch ha xs f s ⟨hi.delayed⟩).1

example : (processAll { demo with on := false } (init demo 2) [[[1, -9], [2, 3]], [[0, 4]]]).2 = [[0, 0], [0, 0], [1, -9]] := by
  decide +kernel

end Verif.Limiter
