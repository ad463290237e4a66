import Verif.Props.InvQuant
import Mathlib.Tactic.NormNum

/-! # Inverse quantisation and noise filling of a frame (C196-C198) -/

namespace Verif.InvQuant

open Verif.Spec.InvQuant

/-! ## C196: the value of every line -/

/-- C196: every line of a coded band gets the power 4/3 of its limited value with its sign, or noise where noise is to be filled, times the
scale factor of its band; everything else is left as it was. -/
theorem C196_lines (c : Cfg) (factors q : Nat → Nat → Int) (lens : List Nat) (seed : Nat) (coef : Nat → Nat → ℚ)
    (hq : ∀ w i, |q w i| ≤ 2147483647) (hs : (0 :: c.ends).Pairwise (· ≤ ·)) (hm : c.maxSfb ≤ c.ends.length) :
    ∃ seed' coef', groups c factors q lens 0 (seed, coef) = .ok (seed', coef') ∧
      (∀ w i b lo first len, InGroup lens w first len → b < c.maxSfb → InBand c.ends b lo i →
        Value c factors q b lo first len (q w i) (coef' w i)) ∧
      (∀ w i, (lens.sum ≤ w ∨ ∀ b lo, b < c.maxSfb → ¬ InBand c.ends b lo i) → coef' w i = coef w i) := by
  obtain ⟨s', h1, h2, h3⟩ := groups_ok c factors q hq hs hm lens 0 (seed, coef)
  refine ⟨s'.1, s'.2, h1, ?_, ?_⟩
  · rintro w i b lo first len ⟨g, g1, g2, g3, g4⟩ hb hi
    have := h2 g len w i b lo g1 (by omega) (by omega) hb hi
    rw [Nat.zero_add, ← g2] at this
    exact this
  · rintro w i h
    refine h3 w i ?_
    rintro ⟨-, a2, b, lo, a3, a4⟩
    rcases h with h | h
    · omega
    · exact h b lo a3 a4

/-- A concrete frame meets the hypotheses: three bands, two groups, value -5. -/
example : (∀ w i : Nat, |(fun _ i => if i = 3 then -5 else 0 : Nat → Nat → Int) w i| ≤ 2147483647) ∧
    ((0 : Nat) :: [4, 8, 12]).Pairwise (· ≤ ·) ∧ InGroup [3, 5] 4 3 5 ∧ InBand [4, 8, 12] 1 4 7 := by
  refine ⟨fun w i => ?_, by decide, ⟨1, by decide, by decide, by decide, by decide⟩, ⟨Or.inr ⟨by decide, by decide⟩, by decide, 8, by decide, by decide⟩⟩
  show |if i = 3 then (-5 : Int) else 0| ≤ _
  split <;> decide

/-! ## C197: noise does not touch coded lines -/

/-- C197: lines that are not 0 do not depend on the seed, on the noise level, on noise filling, or on where noise filling starts and ends. -/
theorem C197_coded (c c' : Cfg) (factors q : Nat → Nat → Int) (lens : List Nat) (seed seed' : Nat) (coef coef' : Nat → Nat → ℚ)
    (hpw : c'.pw = c.pw) (hiq : c'.iq = c.iq) (he : c'.ends = c.ends) (hmx : c'.maxSfb = c.maxSfb)
    (hq : ∀ w i, |q w i| ≤ 2147483647) (hs : (0 :: c.ends).Pairwise (· ≤ ·)) (hm : c.maxSfb ≤ c.ends.length) :
    ∃ r r', groups c factors q lens 0 (seed, coef) = .ok r ∧ groups c' factors q lens 0 (seed', coef') = .ok r' ∧
      ∀ w i b lo first len, InGroup lens w first len → b < c.maxSfb → InBand c.ends b lo i → q w i ≠ 0 → r'.2 w i = r.2 w i := by
  obtain ⟨s1, f1, h1, h2, -⟩ := C196_lines c factors q lens seed coef hq hs hm
  obtain ⟨s2, f2, g1, g2, -⟩ := C196_lines c' factors q lens seed' coef' hq (by rw [he]; exact hs) (by rw [he, hmx]; exact hm)
  refine ⟨_, _, h1, g1, fun w i b lo first len a1 a2 a3 a4 => ?_⟩
  obtain ⟨x, ⟨-, x2⟩, x3, x4, -⟩ := h2 w i b lo first len a1 a2 a3
  obtain ⟨y, ⟨-, y2⟩, y3, y4, -⟩ := g2 w i b lo first len a1 (by rw [hmx]; exact a2) (by rw [he]; exact a3)
  obtain ⟨_, -, -, hw1, hw2⟩ := a1
  have hx := x2 (fun h => a4 (h.2 w lo i hw1 hw2 a3))
  have hy := y2 (fun h => a4 (h.2 w lo i hw1 hw2 (by rw [he]; exact a3)))
  have hxy : y = x := by rw [hx, hy]
  show f2 w i = f1 w i
  rcases lt_or_gt_of_ne a4 with h | h
  · rw [x4 h, y4 h, hiq, hpw, hxy]
  · rw [x3 h, y3 h, hiq, hpw, hxy]

/-- Two configurations that differ in noise alone meet the hypotheses. -/
example : ∃ c c' : Cfg, c'.pw = c.pw ∧ c'.iq = c.iq ∧ c'.ends = c.ends ∧ c'.maxSfb = c.maxSfb ∧ c'.level ≠ c.level ∧ c'.noise ≠ c.noise ∧
    (0 :: c.ends).Pairwise (· ≤ ·) ∧ c.maxSfb ≤ c.ends.length :=
  ⟨⟨fun x => x, fun x => x, fun x => x, [160, 200], true, true, 77, 2, 2⟩, ⟨fun x => x, fun x => x, fun x => x, [160, 200], true, false, 0, 2, 2⟩,
    rfl, rfl, rfl, rfl, by decide, by decide, by decide, by decide⟩

/-! ## C198: no noise below the start -/

/-- C198: in bands that start below line 160 (20 in short windows), lines that are 0 stay 0, whatever the noise level. -/
theorem C198_silent (c : Cfg) (factors q : Nat → Nat → Int) (lens : List Nat) (seed : Nat) (coef : Nat → Nat → ℚ) (h0 : c.iq 0 = 0)
    (hq : ∀ w i, |q w i| ≤ 2147483647) (hs : (0 :: c.ends).Pairwise (· ≤ ·)) (hm : c.maxSfb ≤ c.ends.length) :
    ∃ r, groups c factors q lens 0 (seed, coef) = .ok r ∧
      ∀ w i b lo first len, InGroup lens w first len → b < c.maxSfb → InBand c.ends b lo i → q w i = 0 →
        (c.noise = false ∨ lo < (if c.long then 160 else 20) ∨ c.maxNoise ≤ b) → r.2 w i = 0 := by
  obtain ⟨s1, f1, h1, h2, -⟩ := C196_lines c factors q lens seed coef hq hs hm
  refine ⟨_, h1, fun w i b lo first len a1 a2 a3 a4 a5 => ?_⟩
  obtain ⟨x, -, -, -, -, x5⟩ := h2 w i b lo first len a1 a2 a3
  show f1 w i = 0
  rw [x5 a4, h0, zero_mul]
  rintro ⟨k1, k2, k3⟩
  rcases a5 with h | h | h
  · rw [k1] at h; cases h
  · omega
  · omega

/-- The first band meets the hypotheses. -/
example : InGroup [1] 0 0 1 ∧ InBand [4, 8, 12] 0 0 2 ∧ (0 : Nat) < (if true then 160 else 20) :=
  ⟨⟨0, by decide, by decide, by decide, by decide⟩, ⟨Or.inl ⟨rfl, rfl⟩, by decide, 4, by decide, by decide⟩, by decide⟩

end Verif.InvQuant
