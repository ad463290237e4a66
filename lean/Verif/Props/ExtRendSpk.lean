import Verif.Props.ExtRendCh
import Verif.Props.Resamp

/-! # Single loudspeakers for an external renderer, and the taps of the resampler: more on C268 and C258 -/

namespace Verif.ExtRend

open Prog

/-- Loudspeakers that keep their place: those given by number, and those in the middle or on the left, not below the horizon, with steps of one degree. -/
inductive Kept : Speaker.Descr → Nat → Prop
  | number (cicp prec : Nat) (h : cicp < 128) : Kept ⟨1, cicp, 0, 0, 0, 0, 0, 0⟩ prec
  | place (ec ei ai lfe : Nat) (h1 : ec < 4) (h2 : ei ≤ 90) (h3 : ec ≠ 3 → ei = 0) (h4 : ai ≤ 180) (h5 : lfe < 2) : Kept ⟨0, 0, ec, ei, 0, ai, 0, lfe⟩ 1

/-- **C268** (partial) These loudspeakers are read back from what is written for an external renderer. -/
theorem C268_one_partial (d : Speaker.Descr) (prec : Nat) (h : Kept d prec) (l : List Bool) :
    run (Speaker.description .zero prec) (fieldBits (description d prec) ++ l) = .ok ((false, d), l) := by
  cases h with
  | number cicp _ h =>
    unfold description Speaker.description
    simp only [fieldBits_cons, List.append_assoc, Nat.one_ne_zero, if_false, fieldBits_nil, List.nil_append]
    rw [run_bits_mod _ _ _ _ (by omega)]
    simp only [Nat.reducePow, Nat.reduceMod, Nat.one_ne_zero, if_false]
    rw [run_bits_mod _ _ _ _ (by omega), Nat.mod_eq_of_lt (by omega)]
    rfl
  | place ec ei ai lfe h1 h2 h3 h4 h5 =>
    have hel : ∀ (d0 : Speaker.Descr) (g : Bool × Speaker.Descr → Prog (Bool × Speaker.Descr)) (l : List Bool), d0.elDir = 0 → run (Speaker.elevation d0 1 >>= g)
        (fieldBits (word ei 7 :: (if Speaker.degrees ei 0 1 ≠ 0 then [(0, 1)] else [])) ++ l) = run (g (false, { d0 with elIdx := (ei : Int), elDir := 0 })) l := by
      intro d0 g l hd
      rw [run_bind]
      have : run (Speaker.elevation d0 1) (fieldBits (word ei 7 :: (if Speaker.degrees ei 0 1 ≠ 0 then [(0, 1)] else [])) ++ l) =
          .ok ((false, { d0 with elIdx := (ei : Int), elDir := 0 }), l) := by
        unfold Speaker.elevation
        rw [fieldBits_word, List.append_assoc]
        simp only [Nat.one_ne_zero, ne_eq, not_false_eq_true, if_true]
        rw [run_word _ _ _ _ (by omega), low_of_nat _ _ (by omega), if_neg (by omega), hd]
        by_cases hz : Speaker.degrees ei 0 1 = 0
        · rw [if_neg (by simpa using hz), if_neg (by simpa using hz), fieldBits_nil, ← hd]
          rfl
        · rw [if_pos hz, if_pos hz, fieldBits_cons, fieldBits_nil, List.append_nil, run_bits_mod _ _ _ _ (by omega)]
          rfl
      rw [this]; rfl
    have haz : ∀ (d0 : Speaker.Descr) (l : List Bool), d0.azDir = 0 → run (Speaker.azimuth d0 1)
        (fieldBits (word ai 8 :: ((if Speaker.degrees ai 0 1 ≠ 0 ∧ Speaker.degrees ai 0 1 ≠ 180 then [(0, 1)] else []) ++ [(lfe, 1)])) ++ l) =
          .ok ((false, { d0 with azIdx := (ai : Int), azDir := 0, lfe := lfe }), l) := by
      intro d0 l hd
      unfold Speaker.azimuth
      rw [fieldBits_word, List.append_assoc]
      simp only [Nat.one_ne_zero, ne_eq, not_false_eq_true, if_true]
      rw [run_word _ _ _ _ (by omega), low_of_nat _ _ (by omega), if_neg (by omega), hd]
      by_cases hz : ¬ Speaker.degrees ai 0 1 = 0 ∧ ¬ Speaker.degrees ai 0 1 = 180
      · rw [if_pos hz, fieldBits_append, fieldBits_cons, fieldBits_nil, fieldBits_cons, fieldBits_nil]
        simp only [hz, not_false_eq_true, and_self, decide_true, bitsOr, if_true, List.append_nil, List.append_assoc]
        rw [run_bits_mod _ _ _ _ (by omega), run_bits_mod _ _ _ _ (by omega), Nat.mod_eq_of_lt (by omega : lfe < 2 ^ 1)]
        rfl
      · rw [if_neg hz, List.nil_append, fieldBits_cons, fieldBits_nil]
        simp only [hz, decide_false, bitsOr, Bool.false_eq_true, if_false, List.append_nil]
        rw [pure_bind, run_bits_mod _ _ _ _ (by omega), Nat.mod_eq_of_lt (by omega : lfe < 2 ^ 1)]
        rfl
    unfold description Speaker.description
    simp only [if_true, Nat.one_ne_zero, ne_eq, not_false_eq_true]
    rw [fieldBits_cons, List.append_assoc, run_bits_mod _ _ _ _ (by omega)]
    simp only [Nat.zero_mod, if_true]
    rw [List.cons_append, fieldBits_cons, List.append_assoc, run_bits_mod _ _ _ _ (by omega), Nat.mod_eq_of_lt (by omega : ec < 2 ^ 2), fieldBits_append, List.append_assoc]
    by_cases h : ec = 3
    · simp only [h, if_true]
      rw [hel _ _ _ rfl]
      simp only [Bool.false_eq_true, if_false]
      rw [haz _ _ rfl]
      rfl
    · simp only [h, if_false]
      rw [fieldBits_nil, List.nil_append, pure_bind]
      simp only [Bool.false_eq_true, if_false]
      rw [haz _ _ rfl, h3 h]
      rfl

example : Kept ⟨0, 0, 3, 35, 0, 110, 0, 0⟩ 1 := .place 3 35 110 0 (by omega) (by omega) (by omega) (by omega) (by omega)

end Verif.ExtRend

namespace Verif.Resamp

/-- **C258** The filters are symmetric: the taps of both tables mirror each other, within 10^-15. -/
theorem C258_symmetric : ∀ up ∈ [2, 3], ∀ i < 60, |tap up i - tap up (59 - i)| ≤ 1 / 1000000000000000 := by decide +kernel

end Verif.Resamp
