import Verif.Model.Tns
import Verif.Spec.Tns
import Mathlib.Algebra.BigOperators.Intervals
import Mathlib.Algebra.Order.Ring.Abs
import Mathlib.Data.Nat.Choose.Basic
import Mathlib.Data.List.GetD
import Mathlib.Tactic.Linarith
import Mathlib.Tactic.Ring

/-! # The filters of noise shaping -/

namespace Verif.Tns

open Verif.Spec.Tns

/-! ## Coefficients -/

theorem levinson_length (p : List ℚ) (k : ℚ) : (levinson p k).length = p.length + 1 := by simp [levinson]

theorem levinson_getD (p : List ℚ) (k : ℚ) (hp : p.length ≠ 0) (i : Nat) (hi : i ≤ p.length) :
    (levinson p k).getD i 0 = (if i < p.length then p.getD i 0 else 0) + k * (if i = 0 then 0 else p.getD (p.length - i) 0) := by
  have hl := levinson_length p k
  rw [List.getD_eq_getElem _ _ (by omega)]
  unfold levinson
  rw [List.getElem_zipWith]
  congr 1
  · by_cases h : i < p.length
    · rw [if_pos h, List.getElem_append_left h, List.getD_eq_getElem _ _ h]
    · rw [if_neg h, List.getElem_append_right (by omega)]
      simp
  · congr 1
    cases i with
    | zero => simp
    | succ i =>
      rw [List.getElem_cons_succ, List.getElem_reverse, if_neg (Nat.succ_ne_zero i), List.getD_eq_getElem _ _ (by omega)]
      congr 1
      omega

theorem foldl_length (ks : List ℚ) (p : List ℚ) : (ks.foldl levinson p).length = p.length + ks.length := by
  induction ks generalizing p with
  | nil => simp
  | cons k ks ih => rw [List.foldl_cons, ih, levinson_length, List.length_cons]; omega

theorem levinson_head (p : List ℚ) (k : ℚ) (h : p.getD 0 0 = 1) : (levinson p k).getD 0 0 = 1 := by
  have hp : p.length ≠ 0 := by
    intro h0
    rw [List.length_eq_zero_iff] at h0
    rw [h0] at h
    simp at h
  rw [levinson_getD p k hp 0 (by omega), if_pos (by omega), if_pos rfl, h]
  ring

theorem stepsUp_eq (ks : List ℚ) (p : List ℚ) (a : Nat → ℚ) (m : Nat) (hm : p.length = m) (h1 : p.getD 0 0 = 1) (h : ∀ i < m, a i = p.getD i 0) :
    ∀ i < m + ks.length, stepsUp ks m a i = (ks.foldl levinson p).getD i 0 := by
  induction ks generalizing p a m with
  | nil => exact h
  | cons k ks ih =>
    have hm0 : m ≠ 0 := by
      intro h0
      rw [h0, List.length_eq_zero_iff] at hm
      rw [hm] at h1
      simp at h1
    intro i hi
    rw [stepsUp, List.foldl_cons]
    refine ih (levinson p k) (stepUp k m a) (m + 1) (by rw [levinson_length, hm]) (levinson_head p k h1) ?_ i (by rw [List.length_cons] at hi; omega)
    intro j hj
    rw [levinson_getD p k (by omega) j (by omega)]
    unfold stepUp
    by_cases h0 : j = 0
    · rw [if_pos h0, if_pos h0, h 0 (by omega), if_pos (by omega), h0, mul_zero, add_zero]
    · rw [if_neg h0, if_neg h0]
      by_cases hjm : j < m
      · rw [if_pos hjm, if_pos (by omega), h j hjm, h (m - j) (by omega), hm]
      · have hje : j = m := by omega
        rw [if_neg hjm, if_pos hje, if_neg (by omega), hm, hje, Nat.sub_self, h1]
        ring

theorem lpc_eq (ks : List ℚ) (i : Nat) (hi : i ≤ ks.length) : lpc ks i = (poly ks).getD i 0 := by
  unfold lpc poly
  refine stepsUp_eq ks [1] _ 1 rfl rfl ?_ i (by omega)
  intro j hj
  have : j = 0 := by omega
  subst this
  rfl

theorem poly_head (ks : List ℚ) : (poly ks).getD 0 0 = 1 := by
  unfold poly
  have : ∀ p : List ℚ, p.getD 0 0 = 1 → (ks.foldl levinson p).getD 0 0 = 1 := by
    induction ks with
    | nil => intro p h; exact h
    | cons k ks ih => intro p h; rw [List.foldl_cons]; exact ih _ (levinson_head p k h)
  exact this [1] rfl

/-! ## The recursion -/

theorem minus_eq (a : Nat → ℚ) (st : List ℚ) (j : Nat) (y : ℚ) :
    minus a j st y = y - ∑ i ∈ Finset.range st.length, a (j + i + 1) * st.getD i 0 := by
  induction st generalizing j y with
  | nil => simp [minus]
  | cons s st ih =>
    rw [minus, ih, List.length_cons, Finset.sum_range_succ']
    simp only [List.getD_cons_succ, List.getD_cons_zero, Nat.add_zero]
    have : ∀ i, j + 1 + i + 1 = j + (i + 1) + 1 := fun i => by omega
    simp only [this]
    ring

/-- The state before the `k`-th line, if the lines so far are `u`. -/
def StateAt (order k : Nat) (u : Nat → ℚ) (st : List ℚ) : Prop :=
  st.length = order ∧ ∀ i < order, st.getD i 0 = if i < k then u (k - 1 - i) else 0

theorem ar_ok (a : Nat → ℚ) (pos : Nat → Nat) (order : Nat) (n k : Nat) (hpos : ∀ i j, i < k + n → j < k + n → pos i = pos j → i = j)
    (st : List ℚ) (f : Nat → ℚ) (hst : StateAt order k (fun i => f (pos i)) st) :
    (∀ i < k, ar a pos n k st f (pos i) = f (pos i)) ∧
    (∀ i, k ≤ i → i < k + n →
      f (pos i) = ar a pos n k st f (pos i) + ∑ j ∈ Finset.range order, a (j + 1) * (if j < i then ar a pos n k st f (pos (i - 1 - j)) else 0)) ∧
    (∀ p, (∀ i, k ≤ i → i < k + n → pos i ≠ p) → ar a pos n k st f p = f p) := by
  induction n generalizing k st f with
  | zero => exact ⟨fun _ _ => rfl, fun i _ _ => by omega, fun _ _ => rfl⟩
  | succ n ih =>
    obtain ⟨y, hy⟩ : ∃ y, y = minus a 0 st (f (pos k)) := ⟨_, rfl⟩
    have hput : ∀ i < k + (n + 1), i ≠ k → put f (pos k) y (pos i) = f (pos i) := by
      intro i hi hik
      unfold put
      rw [if_neg]
      intro h
      exact hik (hpos i k hi (by omega) h)
    have hputk : put f (pos k) y (pos k) = y := by unfold put; rw [if_pos rfl]
    have hst' : StateAt order (k + 1) (fun i => put f (pos k) y (pos i)) (y :: st).dropLast := by
      refine ⟨by rw [List.length_dropLast, List.length_cons, hst.1]; omega, fun i hi => ?_⟩
      have hl : (y :: st).dropLast.length = order := by rw [List.length_dropLast, List.length_cons, hst.1]; omega
      rw [List.getD_eq_getElem _ _ (by omega), List.getElem_dropLast]
      cases i with
      | zero =>
        rw [List.getElem_cons_zero, if_pos (by omega), show k + 1 - 1 - 0 = k by omega]
        exact hputk.symm
      | succ i =>
        rw [List.getElem_cons_succ]
        have := hst.2 i (by omega)
        rw [List.getD_eq_getElem _ _ (by rw [hst.1]; omega)] at this
        rw [this]
        by_cases hik : i < k
        · rw [if_pos hik, if_pos (by omega), show k + 1 - 1 - (i + 1) = k - 1 - i by omega]
          exact (hput (k - 1 - i) (by omega) (by omega)).symm
        · rw [if_neg hik, if_neg (by omega)]
    obtain ⟨g1, g2, g3⟩ := ih (k + 1) (fun i j hi hj => hpos i j (by omega) (by omega)) (y :: st).dropLast (put f (pos k) y) hst'
    rw [ar, ← hy]
    have hlow : ∀ i < k, ar a pos n (k + 1) (y :: st).dropLast (put f (pos k) y) (pos i) = f (pos i) := by
      intro i hi
      rw [g1 i (by omega)]
      exact hput i (by omega) (by omega)
    refine ⟨hlow, fun i hi hi' => ?_, fun p hp => ?_⟩
    · by_cases hik : i = k
      · subst hik
        rw [g1 i (by omega), hputk]
        have : ∀ j ∈ Finset.range order, a (j + 1) * (if j < i then ar a pos n (i + 1) (y :: st).dropLast (put f (pos i) y) (pos (i - 1 - j)) else 0) =
            a (j + 1) * st.getD j 0 := by
          intro j hj
          rw [Finset.mem_range] at hj
          rw [hst.2 j hj]
          by_cases hji : j < i
          · rw [if_pos hji, if_pos hji, hlow _ (by omega)]
          · rw [if_neg hji, if_neg hji]
        rw [Finset.sum_congr rfl this, hy, minus_eq, hst.1]
        simp only [Nat.zero_add]
        ring
      · have := g2 i (by omega) (by omega)
        rw [hput i (by omega) hik] at this
        exact this
    · rw [g3 p (fun i h1 h2 => hp i (by omega) (by omega))]
      unfold put
      rw [if_neg]
      intro h
      exact hp k (by omega) (by omega) h.symm

theorem arFilter_ok (ks : List ℚ) (lo hi dir : Nat) (hlh : lo ≤ hi) (f : Nat → ℚ) :
    Residual ks lo hi dir (arFilter ks lo hi dir f) f ∧ ∀ p, (p < lo ∨ hi ≤ p) → arFilter ks lo hi dir f p = f p := by
  obtain ⟨pos, hpos⟩ : ∃ pos : Nat → Nat, pos = fun k => if dir = 0 then lo + k else hi - 1 - k := ⟨_, rfl⟩
  have hp : ∀ k, pos k = if dir = 0 then lo + k else hi - 1 - k := fun k => by rw [hpos]
  have hinj : ∀ i j, i < 0 + (hi - lo) → j < 0 + (hi - lo) → pos i = pos j → i = j := by
    intro i j h1 h2 h
    rw [hp, hp] at h
    split at h <;> omega
  obtain ⟨-, g2, g3⟩ := ar_ok (lpc ks) pos ks.length (hi - lo) 0 hinj (List.replicate ks.length 0) f
    ⟨List.length_replicate, fun i hi => by rw [if_neg (by omega), List.getD_eq_getElem _ _ (by rw [List.length_replicate]; exact hi), List.getElem_replicate]⟩
  obtain ⟨y, hy⟩ : ∃ y, y = ar (lpc ks) pos (hi - lo) 0 (List.replicate ks.length 0) f := ⟨_, rfl⟩
  have hfy : arFilter ks lo hi dir f = y := by rw [hy, hpos]; rfl
  rw [hfy]
  simp only [← hy] at g2 g3
  constructor
  · intro p h1 h2
    rw [Finset.sum_range_succ', poly_head, one_mul]
    obtain ⟨i, hi0, hpi⟩ : ∃ i, i < hi - lo ∧ pos i = p := by
      by_cases hd : dir = 0
      · exact ⟨p - lo, by omega, by rw [hp, if_pos hd]; omega⟩
      · exact ⟨hi - 1 - p, by omega, by rw [hp, if_neg hd]; omega⟩
    have hg := g2 i (by omega) (by omega)
    rw [hpi] at hg
    rw [hg, add_comm]
    congr 1
    · refine Finset.sum_congr rfl fun j hj => ?_
      rw [Finset.mem_range] at hj
      rw [lpc_eq ks (j + 1) (by omega)]
      congr 1
      rw [hp] at hpi
      unfold tap
      by_cases hd : dir = 0
      · rw [if_pos hd] at hpi ⊢
        by_cases hji : j < i
        · rw [if_pos hji, if_pos (by omega), hp, if_pos hd]; congr 1; omega
        · rw [if_neg hji, if_neg (by omega)]
      · rw [if_neg hd] at hpi ⊢
        by_cases hji : j < i
        · rw [if_pos hji, if_pos (by omega), hp, if_neg hd]; congr 1; omega
        · rw [if_neg hji, if_neg (by omega)]
    · unfold tap
      by_cases hd : dir = 0
      · rw [if_pos hd, if_pos (by omega)]; rfl
      · rw [if_neg hd, if_pos (by omega)]; rfl
  · intro p hpp
    refine g3 p fun i _ h2 => ?_
    rw [hp]
    split <;> omega

/-- A spectrum is determined by what the encoder makes of it. -/
theorem residual_unique (ks : List ℚ) (lo hi dir : Nat) (y y' x : Nat → ℚ) (h : Residual ks lo hi dir y x) (h' : Residual ks lo hi dir y' x) :
    ∀ p, lo ≤ p → p < hi → y p = y' p := by
  have key : ∀ n p, (if dir = 0 then p - lo else hi - 1 - p) = n → lo ≤ p → p < hi → y p = y' p := by
    intro n
    induction n using Nat.strong_induction_on with
    | _ n ih =>
      intro p hn h1 h2
      have e1 := h p h1 h2
      have e2 := h' p h1 h2
      rw [Finset.sum_range_succ', poly_head, one_mul] at e1 e2
      have e0 : ∀ z : Nat → ℚ, tap z lo hi dir p 0 = z p := by
        intro z
        unfold tap
        by_cases hd : dir = 0
        · rw [if_pos hd, if_pos (by omega)]; rfl
        · rw [if_neg hd, if_pos (by omega)]; rfl
      have es : ∑ j ∈ Finset.range ks.length, (poly ks).getD (j + 1) 0 * tap y lo hi dir p (j + 1) =
          ∑ j ∈ Finset.range ks.length, (poly ks).getD (j + 1) 0 * tap y' lo hi dir p (j + 1) := by
        refine Finset.sum_congr rfl fun j _ => ?_
        congr 1
        unfold tap
        by_cases hd : dir = 0
        · rw [if_pos hd] at hn
          rw [if_pos hd, if_pos hd]
          by_cases hb : lo + (j + 1) ≤ p
          · rw [if_pos hb, if_pos hb]
            exact ih (p - (j + 1) - lo) (by omega) _ (by rw [if_pos hd]) (by omega) (by omega)
          · rw [if_neg hb, if_neg hb]
        · rw [if_neg hd] at hn
          rw [if_neg hd, if_neg hd]
          by_cases hb : p + (j + 1) < hi
          · rw [if_pos hb, if_pos hb]
            exact ih (hi - 1 - (p + (j + 1))) (by omega) _ (by rw [if_neg hd]) (by omega) (by omega)
          · rw [if_neg hb, if_neg hb]
      rw [e0] at e1 e2
      rw [es] at e1
      rw [e1] at e2
      linarith
  exact fun p h1 h2 => key _ p rfl h1 h2

end Verif.Tns
