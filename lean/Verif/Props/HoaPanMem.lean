import Mathlib.Tactic.Linarith
import Mathlib.Tactic.Ring
import Verif.Model.HoaPanMem

/-!
# The scratch memory of robust panning
-/

namespace Verif.Props.HoaPanMem

open Verif.HoaPanMem

/-! ## Specification -/

/-- A matrix of `rows` rows and `cols` columns is at the address `p`. -/
structure Holds (m : Mem) (p rows cols : ℕ) (a : ℕ → ℕ → ℝ) : Prop where
  hcols : m p = cols
  hrows : m (p + 1) = rows
  elem : ∀ r < rows, ∀ c < cols, m (p + 2 + (r * cols + c)) = a r c

/-- C360, refuted: setting up a matrix of 24 * 24 elements writes into all four matrices behind it. -/
theorem C360_refuted : ∃ (m : Mem) (nl : ℕ), nl ≤ 24 ∧ ∀ q ∈ [addrC, addrT, addrY00, addrY01],
    addrA + (2 + 24 * 24) ≤ q ∧ m (q + 2) ≠ initSize m addrA nl nl (q + 2) := by
  refine ⟨fun _ => 1, 24, le_refl _, ?_⟩
  have a3 : addrA = 32334 := rfl
  have a4 : addrC = 32912 := rfl
  have a5 : addrT = 33490 := rfl
  have a6 : addrY00 = 34068 := rfl
  have a7 : addrY01 = 34646 := rfl
  intro q hq
  simp only [List.mem_cons, List.not_mem_nil, or_false] at hq
  refine ⟨by rcases hq with rfl | rfl | rfl | rfl <;> omega, ?_⟩
  unfold initSize
  rw [if_neg (by rcases hq with rfl | rfl | rfl | rfl <;> omega),
    if_neg (by rcases hq with rfl | rfl | rfl | rfl <;> omega),
    if_pos (by rcases hq with rfl | rfl | rfl | rfl <;> omega)]
  exact one_ne_zero

theorem initSize_before (m : Mem) (p rows cols x : ℕ) (h : x < p) : initSize m p rows cols x = m x := by
  unfold initSize
  rw [if_neg (by omega), if_neg (by omega), if_neg (by omega)]

theorem transposeKeep_before (m : Mem) (p : ℕ) (h : ℕ → ℕ → ℝ) (rows cols x : ℕ) (hx : x < p) :
    transposeKeep m p h rows cols x = m x := by
  unfold transposeKeep
  rw [if_neg (by omega), if_neg (by omega), if_neg (by omega)]

theorem Holds.of_eq {m m' : Mem} {p rows cols : ℕ} {a : ℕ → ℕ → ℝ} (h : Holds m p rows cols a)
    (e : ∀ x < p + 2 + rows * cols, m' x = m x) : Holds m' p rows cols a := by
  refine ⟨by rw [e p (by omega), h.hcols], ?_, fun r hr c hc => ?_⟩
  · rcases Nat.eq_zero_or_pos (rows * cols) with h0 | h0
    · rw [e (p + 1) (by omega), h.hrows]
    · rw [e (p + 1) (by omega), h.hrows]
  · have : r * cols + c < rows * cols := by nlinarith
    rw [e _ (by omega), h.elem r hr c hc]

theorem Holds.keepI {m : Mem} {p rows cols : ℕ} {a : ℕ → ℕ → ℝ} (h : Holds m p rows cols a) {q r c : ℕ}
    (hq : p + 2 + rows * cols ≤ q) : Holds (initSize m q r c) p rows cols a :=
  h.of_eq fun x hx => initSize_before _ _ _ _ _ (by omega)

theorem Holds.keepT {m : Mem} {p rows cols : ℕ} {a : ℕ → ℕ → ℝ} (h : Holds m p rows cols a) {q r c : ℕ}
    {b : ℕ → ℕ → ℝ} (hq : p + 2 + rows * cols ≤ q) : Holds (transposeKeep m q b r c) p rows cols a :=
  h.of_eq fun x hx => transposeKeep_before _ _ _ _ _ _ (by omega)

theorem initSize_holds (m : Mem) (p nl : ℕ) (h : nl ≤ 24) : Holds (initSize m p nl nl) p nl nl fun _ _ => 0 := by
  refine ⟨?_, ?_, fun r hr c hc => ?_⟩
  · unfold initSize; rw [if_pos rfl]
  · unfold initSize; rw [if_neg (by omega), if_pos rfl]
  · have : r * nl + c < 24 * 24 := by nlinarith
    unfold initSize
    rw [if_neg (by omega), if_neg (by omega), if_pos (by omega)]

theorem transposeKeep_holds (m : Mem) (p rows cols : ℕ) (h : ℕ → ℕ → ℝ) :
    Holds (transposeKeep m p h rows cols) p cols rows fun r c => h c r := by
  refine ⟨?_, ?_, fun r hr c hc => ?_⟩
  · unfold transposeKeep; rw [if_pos rfl]
  · unfold transposeKeep; rw [if_neg (by omega), if_pos rfl]
  · have h1 : r * rows + c < cols * rows := by nlinarith
    unfold transposeKeep
    rw [if_neg (by omega), if_neg (by omega), if_pos (by omega)]
    have h2 : p + 2 + (r * rows + c) - (p + 2) = c + rows * r := by
      rw [Nat.add_sub_cancel_left]; ring
    rw [h2, Nat.add_mul_mod_self_left, Nat.mod_eq_of_lt hc, Nat.add_mul_div_left _ _ (by omega), Nat.div_eq_of_lt hc,
      zero_add]

/-- C360: as the matrices are set up in the order of their addresses, all of them hold what they are to hold in
the end. -/
theorem C360_prepared_partial (m : Mem) (nl : ℕ) (h : nl ≤ 24) (hr hi : ℕ → ℕ → ℝ) :
    (∀ q ∈ [addrBb, addrA, addrC, addrT, addrY00, addrY01, addrR0],
      Holds (prepare m nl hr hi) q nl nl fun _ _ => 0) ∧
    Holds (prepare m nl hr hi) addrHr nl 256 (fun l s => hr s l) ∧
    Holds (prepare m nl hr hi) addrHi nl 256 (fun l s => hi s l) := by
  have hq : nl * nl ≤ 24 * 24 := Nat.mul_le_mul h h
  have hq2 : nl * 256 ≤ 24 * 256 := Nat.mul_le_mul_right _ h
  have a1 : addrHr = 578 := rfl
  have a2 : addrHi = 16456 := rfl
  have a3 : addrA = 32334 := rfl
  have a4 : addrC = 32912 := rfl
  have a5 : addrT = 33490 := rfl
  have a6 : addrY00 = 34068 := rfl
  have a7 : addrY01 = 34646 := rfl
  have a8 : addrR0 = 36958 := rfl
  have a0 : addrBb = 0 := rfl
  unfold prepare
  simp only
  refine ⟨?_, ?_, ?_⟩
  · intro q hq
    simp only [List.mem_cons, List.not_mem_nil, or_false] at hq
    rcases hq with rfl | rfl | rfl | rfl | rfl | rfl | rfl
    · refine Holds.keepI ?_ (by omega)
      refine Holds.keepI ?_ (by omega)
      refine Holds.keepI ?_ (by omega)
      refine Holds.keepI ?_ (by omega)
      refine Holds.keepI ?_ (by omega)
      refine Holds.keepI ?_ (by omega)
      refine Holds.keepT ?_ (by omega)
      refine Holds.keepT ?_ (by omega)
      exact initSize_holds _ _ nl h
    · refine Holds.keepI ?_ (by omega)
      refine Holds.keepI ?_ (by omega)
      refine Holds.keepI ?_ (by omega)
      refine Holds.keepI ?_ (by omega)
      refine Holds.keepI ?_ (by omega)
      exact initSize_holds _ _ nl h
    · refine Holds.keepI ?_ (by omega)
      refine Holds.keepI ?_ (by omega)
      refine Holds.keepI ?_ (by omega)
      refine Holds.keepI ?_ (by omega)
      exact initSize_holds _ _ nl h
    · refine Holds.keepI ?_ (by omega)
      refine Holds.keepI ?_ (by omega)
      refine Holds.keepI ?_ (by omega)
      exact initSize_holds _ _ nl h
    · refine Holds.keepI ?_ (by omega)
      refine Holds.keepI ?_ (by omega)
      exact initSize_holds _ _ nl h
    · refine Holds.keepI ?_ (by omega)
      exact initSize_holds _ _ nl h
    · exact initSize_holds _ _ nl h
  · refine Holds.keepI ?_ (by omega)
    refine Holds.keepI ?_ (by omega)
    refine Holds.keepI ?_ (by omega)
    refine Holds.keepI ?_ (by omega)
    refine Holds.keepI ?_ (by omega)
    refine Holds.keepI ?_ (by omega)
    refine Holds.keepT ?_ (by omega)
    exact transposeKeep_holds _ _ 256 nl hr
  · refine Holds.keepI ?_ (by omega)
    refine Holds.keepI ?_ (by omega)
    refine Holds.keepI ?_ (by omega)
    refine Holds.keepI ?_ (by omega)
    refine Holds.keepI ?_ (by omega)
    refine Holds.keepI ?_ (by omega)
    exact transposeKeep_holds _ _ 256 nl hi

theorem initSize_behind (m : Mem) (p rows cols x : ℕ) (h : p + 2 + 2401 ≤ x) : initSize m p rows cols x = m x := by
  unfold initSize
  rw [if_neg (by omega), if_neg (by omega), if_neg (by omega)]

theorem transposeKeep_behind (m : Mem) (p : ℕ) (h : ℕ → ℕ → ℝ) (rows cols x : ℕ) (hx : p + 2 + cols * rows ≤ x) :
    transposeKeep m p h rows cols x = m x := by
  unfold transposeKeep
  rw [if_neg (by omega), if_neg (by omega), if_neg (by omega)]

/-- C360: nothing is written behind `w_s` of `svd_a`, which follows `r0` and `t_temp` in the structure and has
49 * 49 elements. -/
theorem C360_inside_partial (m : Mem) (nl : ℕ) (h : nl ≤ 24) (hr hi : ℕ → ℕ → ℝ) (x : ℕ)
    (hx : addrR0 + 2 * (2 + 24 * 24) + 49 * 49 ≤ x) : prepare m nl hr hi x = m x := by
  have hq2 : nl * 256 ≤ 24 * 256 := Nat.mul_le_mul_right _ h
  have a1 : addrHr = 578 := rfl
  have a2 : addrHi = 16456 := rfl
  have a3 : addrA = 32334 := rfl
  have a4 : addrC = 32912 := rfl
  have a5 : addrT = 33490 := rfl
  have a6 : addrY00 = 34068 := rfl
  have a7 : addrY01 = 34646 := rfl
  have a8 : addrR0 = 36958 := rfl
  have a0 : addrBb = 0 := rfl
  rw [a8] at hx
  norm_num at hx
  unfold prepare
  rw [initSize_behind _ addrR0 nl nl x (by omega)]
  rw [initSize_behind _ addrY01 nl nl x (by omega)]
  rw [initSize_behind _ addrY00 nl nl x (by omega)]
  rw [initSize_behind _ addrT nl nl x (by omega)]
  rw [initSize_behind _ addrC nl nl x (by omega)]
  rw [initSize_behind _ addrA nl nl x (by omega)]
  rw [transposeKeep_behind _ addrHi _ 256 nl x (by omega)]
  rw [transposeKeep_behind _ addrHr _ 256 nl x (by omega)]
  rw [initSize_behind _ addrBb nl nl x (by omega)]

/-- A layout of 22 loudspeakers and 2 poles. -/
example : (22 + 2 : ℕ) ≤ 24 := by omega

end Verif.Props.HoaPanMem
