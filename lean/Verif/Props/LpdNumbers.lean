import Verif.Model.Lpd
import Verif.Proofs.Reads
import Verif.Spec.Lpd

/-! # C157: codebook numbers -/

namespace Verif.Lpd

open Prog

theorem count_unary (q : Nat) : count .unary q = q - 1 := rfl
theorem count_zero (q : Nat) : count .zeroFirst q = q - 4 := rfl
theorem count_five (q : Nat) : count .fiveFirst q = if q = 5 then 0 else if q = 6 then 1 else if q = 0 then 2 else q - 4 := rfl

theorem ones_reads (n k : Nat) (l : List Bool) (hn : l.length < n) (a : Nat) (l' : List Bool) :
    run (ones n k) l = .ok (a, l') ↔ ∃ j, a = k + j ∧ l = unaryBits j ++ l' := by
  induction n generalizing k l with
  | zero => omega
  | succ n ih =>
    unfold ones
    rw [run_bind]
    cases l with
    | nil =>
      simp only [run_bits, List.length_nil]
      rw [if_pos (by omega)]
      simp only [Res.jump_bind, reduceCtorEq, false_iff, not_exists, not_and]
      rintro j _
      simp [unaryBits]
    | cons b l =>
      simp only [run_bits, List.length_cons]
      rw [if_neg (by omega), if_neg (by omega)]
      simp only [Res.ok_bind]
      cases b with
      | true =>
        rw [if_pos (show bitsVal (List.take 1 (true :: l)) = 1 from rfl)]
        show run (ones n (k + 1)) l = _ ↔ _
        rw [ih (k + 1) l (by simp at hn; omega)]
        constructor
        · rintro ⟨j, rfl, rfl⟩
          exact ⟨j + 1, by omega, by simp [unaryBits, List.replicate_succ]⟩
        · rintro ⟨j, rfl, h⟩
          cases j with
          | zero => simp [unaryBits] at h
          | succ j =>
            simp only [unaryBits, List.replicate_succ, List.cons_append, List.cons.injEq, true_and] at h
            exact ⟨j, by omega, by simpa [unaryBits] using h⟩
      | false =>
        rw [if_neg (show ¬ bitsVal (List.take 1 (false :: l)) = 1 from (by decide : ¬ (0 : Nat) = 1))]
        simp only [run_pure, Res.ok.injEq, Prod.mk.injEq]
        constructor
        · rintro ⟨rfl, rfl⟩
          exact ⟨0, rfl, rfl⟩
        · rintro ⟨j, rfl, h⟩
          cases j with
          | zero =>
            simp only [unaryBits, List.replicate_zero, List.nil_append, List.cons_append, List.cons.injEq, true_and] at h
            exact ⟨rfl, h⟩
          | succ j => simp [unaryBits, List.replicate_succ] at h

theorem unary_reads : Reads unary (fun k b => b = unaryBits k) := by
  intro l a l'
  unfold unary
  rw [run_bind, run_avail]
  simp only [Res.ok_bind]
  rw [ones_reads _ _ _ (by simp)]
  constructor
  · rintro ⟨j, rfl, rfl⟩
    exact ⟨_, by rw [Nat.zero_add], rfl⟩
  · rintro ⟨b, rfl, rfl⟩
    exact ⟨a, by omega, rfl⟩

/-- A number of ones turned into a codebook number by `g`, where `c` gives the number of ones of each codebook number. -/
theorem unary_map (g c : Nat → Nat) (V : Nat → Prop) (h1 : ∀ k, V (g k) ∧ c (g k) = k) (h2 : ∀ q, V q → g (c q) = q) :
    Reads (do let k ← unary; pure (g k)) (fun q b => V q ∧ b = unaryBits (c q)) := by
  refine (unary_reads.bind fun a b _ => Reads.pure (g a)).congr fun q b => ?_
  constructor
  · rintro ⟨k, b1, b2, rfl, ⟨rfl, rfl⟩, rfl⟩
    exact ⟨(h1 k).1, by rw [(h1 k).2]; simp⟩
  · rintro ⟨hv, rfl⟩
    exact ⟨c q, _, [], rfl, ⟨(h2 q hv).symm, rfl⟩, by simp⟩

theorem plain_reads : Reads plain (fun q b => q ≠ 1 ∧ b = unaryBits (count .unary q)) := by
  unfold plain
  refine unary_map _ (count .unary) (· ≠ 1) ?_ ?_
  · intro k
    simp only [count_unary]
    split <;> omega
  · intro q hq
    show (if 0 < q - 1 then q - 1 + 1 else q - 1) = q
    split <;> omega

/-- The two bits before the extension. -/
def headVal (q : Nat) : Nat := if 2 ≤ q ∧ q ≤ 4 then q - 2 else 3

theorem extendA_reads {a : Nat} (ha : a < 4) :
    Reads (extendA (2 + a)) (fun q b => q ≠ 1 ∧ headVal q = a ∧ b = tailBits .zeroFirst q) := by
  unfold extendA
  by_cases h : 4 < 2 + a
  · rw [if_pos h]
    obtain rfl : a = 3 := by omega
    refine (unary_map _ (count .zeroFirst) (fun q => q = 0 ∨ 5 ≤ q) ?_ ?_).congr fun q b => ?_
    · intro k
      simp only [count_zero]
      split <;> omega
    · intro q hq
      show (if 0 < q - 4 then q - 4 + 4 else q - 4) = q
      split <;> omega
    · unfold headVal tailBits
      by_cases hc : 2 ≤ q ∧ q ≤ 4
      · rw [if_pos hc]; omega
      · rw [if_neg hc, if_neg hc]
        exact ⟨fun h => ⟨by omega, rfl, h.2⟩, fun h => ⟨by omega, h.2.2⟩⟩
  · rw [if_neg h]
    refine (Reads.pure _).congr fun q b => ?_
    unfold headVal tailBits
    by_cases hc : 2 ≤ q ∧ q ≤ 4
    · rw [if_pos hc, if_pos hc]
      exact ⟨fun h => ⟨by omega, by omega, h.2⟩, fun h => ⟨by omega, h.2.2⟩⟩
    · rw [if_neg hc]; omega

theorem extendB_reads {a : Nat} (ha : a < 4) :
    Reads (extendB (2 + a)) (fun q b => q ≠ 1 ∧ headVal q = a ∧ b = tailBits .fiveFirst q) := by
  unfold extendB
  by_cases h : 4 < 2 + a
  · rw [if_pos h]
    obtain rfl : a = 3 := by omega
    refine (unary_map _ (count .fiveFirst) (fun q => q = 0 ∨ 5 ≤ q) ?_ ?_).congr fun q b => ?_
    · intro k
      match k with
      | 0 => exact ⟨Or.inr (by decide), rfl⟩
      | 1 => exact ⟨Or.inr (by decide), rfl⟩
      | 2 => exact ⟨Or.inl rfl, rfl⟩
      | k + 3 =>
        refine ⟨Or.inr (show 5 ≤ k + 3 + 4 by omega), ?_⟩
        show count .fiveFirst (k + 3 + 4) = _
        rw [count_five]
        rw [if_neg (by omega), if_neg (by omega), if_neg (by omega)]
        omega
    · intro q hq
      rw [count_five]
      by_cases h5 : q = 5
      · subst h5; rfl
      · by_cases h6 : q = 6
        · subst h6; rfl
        · by_cases h0 : q = 0
          · subst h0; rfl
          · rw [if_neg h5, if_neg h6, if_neg h0]
            obtain ⟨k, rfl⟩ : ∃ k, q = k + 7 := ⟨q - 7, by omega⟩
            rfl
    · unfold headVal tailBits
      by_cases hc : 2 ≤ q ∧ q ≤ 4
      · rw [if_pos hc]; omega
      · rw [if_neg hc, if_neg hc]
        exact ⟨fun h => ⟨by omega, rfl, h.2⟩, fun h => ⟨by omega, h.2.2⟩⟩
  · rw [if_neg h]
    refine (Reads.pure _).congr fun q b => ?_
    unfold headVal tailBits
    by_cases hc : 2 ≤ q ∧ q ≤ 4
    · rw [if_pos hc, if_pos hc]
      exact ⟨fun h => ⟨by omega, by omega, h.2⟩, fun h => ⟨by omega, h.2.2⟩⟩
    · rw [if_neg hc]; omega

/-- How numbers are coded in each mode. -/
def kindOf (nk : Nat) (full : Bool) : Kind := if nk = 1 then .unary else if nk = 2 ∧ full = false then .zeroFirst else .fiveFirst

theorem headVal_lt (q : Nat) : headVal q < 4 := by
  unfold headVal
  split <;> omega

theorem pair_reads {ext : Nat → Prog Nat} {kind : Kind}
    (h : ∀ a, a < 4 → Reads (ext (2 + a)) (fun q b => q ≠ 1 ∧ headVal q = a ∧ b = tailBits kind q)) :
    Reads (do
      let a ← bits 2
      let b ← bits 2
      let a ← ext (2 + a)
      let b ← ext (2 + b)
      pure (a, b)) (fun (p : Nat × Nat) b => p.1 ≠ 1 ∧ p.2 ≠ 1 ∧
        b = headBits p.1 ++ headBits p.2 ++ tailBits kind p.1 ++ tailBits kind p.2) := by
  refine ((Reads.bits 2).bind fun a _ ha => (Reads.bits 2).bind fun b _ hb => (h a (by simpa using ha.2.1)).bind fun p _ _ =>
    (h b (by simpa using hb.2.1)).bind fun q _ _ => Reads.pure (p, q)).congr fun p bs => ?_
  obtain ⟨p, q⟩ := p
  constructor
  · rintro ⟨a, b1, b2, ⟨_, _, rfl⟩, ⟨b, b3, b4, ⟨_, _, rfl⟩, ⟨p', b5, b6, ⟨hp1, hp2, rfl⟩, ⟨q', b7, b8, ⟨hq1, hq2, rfl⟩, ⟨hpq, rfl⟩,
      rfl⟩, rfl⟩, rfl⟩, rfl⟩
    simp only [Prod.mk.injEq] at hpq
    obtain ⟨rfl, rfl⟩ := hpq
    refine ⟨hp1, hq1, ?_⟩
    subst hp2 hq2
    simp [headBits, headVal]
  · rintro ⟨hp, hq, rfl⟩
    exact ⟨headVal p, _, _, ⟨by omega, headVal_lt p, rfl⟩, ⟨headVal q, _, _, ⟨by omega, headVal_lt q, rfl⟩,
      ⟨p, _, _, ⟨hp, rfl, rfl⟩, ⟨q, _, _, ⟨hq, rfl, rfl⟩, ⟨rfl, rfl⟩, rfl⟩, rfl⟩, rfl⟩, by simp [headBits, headVal]⟩

theorem numbers_reads {nk : Nat} (h : nk ≤ 3) (full : Bool) :
    Reads (numbers nk full) (fun p b => p.1 ≠ 1 ∧ p.2 ≠ 1 ∧ b = numberBits (kindOf nk full) p.1 p.2) := by
  unfold numbers kindOf
  by_cases h1 : nk = 1
  · rw [if_pos h1, if_pos h1]
    refine (plain_reads.bind fun a _ _ => plain_reads.bind fun b _ _ => Reads.pure (a, b)).congr fun p bs => ?_
    obtain ⟨p, q⟩ := p
    constructor
    · rintro ⟨a, b1, b2, ⟨ha, rfl⟩, ⟨b, b3, b4, ⟨hb, rfl⟩, ⟨hpq, rfl⟩, rfl⟩, rfl⟩
      simp only [Prod.mk.injEq] at hpq
      obtain ⟨rfl, rfl⟩ := hpq
      exact ⟨ha, hb, by simp [numberBits]⟩
    · rintro ⟨hp, hq, rfl⟩
      exact ⟨p, _, _, ⟨hp, rfl⟩, ⟨q, _, _, ⟨hq, rfl⟩, ⟨rfl, rfl⟩, rfl⟩, by simp [numberBits]⟩
  · rw [if_neg h1, if_neg h1, if_pos (by omega)]
    by_cases h2 : nk = 2 ∧ full = false
    · simp only [if_pos h2]
      exact pair_reads (kind := .zeroFirst) fun a ha => extendA_reads ha
    · simp only [if_neg h2]
      exact pair_reads (kind := .fiveFirst) fun a ha => extendB_reads ha

/-- C157: two codebook numbers are decoded exactly from their code: the decoder delivers `a` and `b` and the rest of the input
just if the input is the code of `a` and `b`, which are not 1, followed by the rest.  Modes 0 and 3 have the same code. -/
theorem C157_numbers (nk : Nat) (h : nk ≤ 3) (full : Bool) (l l' : List Bool) (a b : Nat) :
    run (numbers nk full) l = .ok ((a, b), l') ↔ a ≠ 1 ∧ b ≠ 1 ∧
      l = numberBits (if nk = 1 then .unary else if nk = 2 ∧ full = false then .zeroFirst else .fiveFirst) a b ++ l' := by
  rw [numbers_reads h full]
  constructor
  · rintro ⟨bs, ⟨h1, h2, rfl⟩, rfl⟩
    exact ⟨h1, h2, rfl⟩
  · rintro ⟨h1, h2, rfl⟩
    exact ⟨_, ⟨h1, h2, rfl⟩, rfl⟩

/-- C157: no code of two numbers is the beginning of that of two others. -/
theorem C157_prefix (kind : Kind) (a b a' b' : Nat) (ha : a ≠ 1) (hb : b ≠ 1) (ha' : a' ≠ 1) (hb' : b' ≠ 1) (l l' : List Bool)
    (h : numberBits kind a b ++ l = numberBits kind a' b' ++ l') : a = a' ∧ b = b' ∧ l = l' := by
  obtain ⟨nk, full, hk, e⟩ : ∃ nk full, nk ≤ 3 ∧ kindOf nk full = kind := by
    cases kind
    · exact ⟨1, false, by decide, rfl⟩
    · exact ⟨2, false, by decide, rfl⟩
    · exact ⟨0, false, by decide, rfl⟩
  have h1 := (numbers_reads hk full).run (a := (a, b)) (b := numberBits kind a b) ⟨ha, hb, by rw [e]⟩ l
  have h2 := (numbers_reads hk full).run (a := (a', b')) (b := numberBits kind a' b') ⟨ha', hb', by rw [e]⟩ l'
  rw [h, h2] at h1
  simp only [Res.ok.injEq, Prod.mk.injEq] at h1
  exact ⟨h1.1.1.symm, h1.1.2.symm, h1.2.symm⟩

example : run (numbers 3 false) (numberBits .fiveFirst 9 0 ++ [true]) = .ok ((9, 0), [true]) ∧
    numberBits .fiveFirst 9 0 = [true, true, true, true] ++ [true, true, true, true, true, false] ++ [true, true, false] := by
  decide

end Verif.Lpd
