import Verif.Props.HoaSyn

/-! # C242, C243, C247, C248: fading of directions and vectors, and predictions, with frames that the decoder accepts -/

namespace Verif.Hoa

open Prog

/-- Windows that fade in steps. -/
def steps : Setup ℚ := ⟨fun n => if n < 256 then 1 / 4 else 1, fun _ => 3 / 4, fun _ => 1 / 8, fun _ => 7 / 8, fun _ _ => 1, fun _ _ => 1, fun _ _ => 1⟩

theorem steps_add : AddUp steps order1 where
  dir n := by
    show (1 : ℚ) / 8 + 7 / 8 = 1
    norm_num
  vec n := by
    show (if n < 256 then (1 : ℚ) / 4 else 1) + (if n < 256 then 3 / 4 else 0) = 1
    split <;> norm_num

/-- Channels of independent frames for `order1`: with a direction, with a vector, empty. -/
def dirBits : List Bool := natBits 2 0 ++ natBits 10 5 ++ noGain
def vecBits : List Bool := natBits 2 1 ++ natBits 1 1 ++ natBits 4 5 ++ noGain
def emptyBits : List Bool := natBits 2 3 ++ noGain

/-- Three elements of a vector. -/
def vecWords (v : Nat) : List Bool := natBits 8 v ++ natBits 8 v ++ natBits 8 v

/-- An independent frame with two channels. -/
def framed (a b d : List Bool) : List Bool := [true] ++ a ++ b ++ noGain ++ d

/-- A frame with the signal 1 in the first channel. -/
def first (b : List Bool) : List Bool × (Nat → Nat → ℚ) := (b, only 1 (fun _ _ => 1))

/-- The coefficient at a sample after a sequence of frames. -/
def heard (k n : Nat) (l : List (List Bool × (Nat → Nat → ℚ))) : Res ℚ := (play id id noBooks steps order1 Stream.zero l).map (fun r => r.1 k n)

/-- **C242** The same last two frames give different coefficients: a direction that is replaced by a vector is faded out only if an entry left over from the frame before them has a direction. -/
theorem C242_refuted : ∃ l0 l0' l1 l2, heard 0 0 [first l0, first l1, first l2] = .ok 1 ∧ heard 0 0 [first l0', first l1, first l2] = .ok (7 / 8) :=
  ⟨framed emptyBits emptyBits [], framed dirBits dirBits [], framed dirBits emptyBits [], framed vecBits dirBits (vecWords 128), by decide +kernel, by decide +kernel⟩

/-- **C243** A channel that changes from a vector to a direction is not cross-faded: in the second frame both have the signal 1 in the second coefficient, so that a cross-fade stays at 1,
and 7/4 is heard.  With the vector in both frames, and the direction in both, it is 1. -/
theorem C243_vector_to_direction_refuted : ∃ v d, heard 1 0 [first v, first v] = .ok 1 ∧ heard 1 0 [first d, first d] = .ok 1 ∧ heard 1 0 [first v, first d] = .ok (7 / 4) :=
  ⟨framed vecBits emptyBits (vecWords 192), framed dirBits emptyBits [], by decide +kernel, by decide +kernel, by decide +kernel⟩

/-- **C243** From a direction to a vector: the direction is heard at 7/8 to the end of the frame, where the vector is already heard at 1. -/
theorem C243_direction_to_vector_refuted : ∃ v d, heard 1 300 [first v, first v] = .ok 1 ∧ heard 1 300 [first d, first d] = .ok 1 ∧
    heard 1 0 [first d, first v] = .ok (9 / 8) ∧ heard 1 300 [first d, first v] = .ok (15 / 8) :=
  ⟨framed vecBits emptyBits (vecWords 192), framed dirBits emptyBits [], by decide +kernel, by decide +kernel, by decide +kernel, by decide +kernel⟩

/-- The steady cases meet the hypotheses of C241 and C244. -/
example : heard 2 100 [first (framed vecBits emptyBits (vecWords 192)), first (framed vecBits emptyBits (vecWords 192))] = .ok 1 := by decide +kernel

/-! ## Predictions -/

/-- **C247** A frame that predicts from the second signal only, with the gain 77: the prediction is silent. -/
theorem C247_refuted : ∃ c l l2 s, (config 3 1024).run l = .ok (c, []) ∧ (frame c Frame.zero).run l2 = .ok (s, natBits 8 77) ∧
    ∀ p, (sidePreds c s p).kind 0 = 1 ∧ (sidePreds c s p).ids 1 0 = 1 ∧ ∀ (sig : Nat → Nat → ℚ) n, predSignal c (sidePreds c s p) sig 0 n = 0 := by
  obtain ⟨s, h1, h2⟩ := seen_ok (f := fun s => (s.predOn, (List.range 9).map s.active, s.predIds 0, s.predIds 1, s.gains 0)) (b := (1, [1, 0, 0, 0, 0, 0, 0, 0, 0], 0, 1, 0)) (l := natBits 8 77)
    (r := (frame order2 Frame.zero).run ([true] ++ natBits 2 0 ++ natBits 10 5 ++ noGain ++ natBits 2 3 ++ noGain ++ noGain ++ [true] ++ [false] ++
      natBits 9 256 ++ natBits 1 0 ++ natBits 1 1 ++ natBits 8 77)) (by decide +kernel)
  simp only [Prod.mk.injEq] at h2
  obtain ⟨e1, e2, e3, e4, e5⟩ := h2
  simp only [List.range, List.range.loop, List.map, List.cons.injEq, and_true] at e2
  obtain ⟨a0, a1, a2, a3, a4, a5, a6, a7, a8⟩ := e2
  have hc : order2.coeffs = 9 := rfl
  have hp : order2.predSigs = 2 := rfl
  refine ⟨order2, order2Bits, _, s, order2_accepted, h1, fun p => ⟨?_, ?_, fun sig n => ?_⟩⟩
  · simp [sidePreds, e1, hc, predColumns, hp, predRows, a0, a1, a2, a3, a4, a5, a6, a7, a8, e3, e4, e5, upd]
  · simp [sidePreds, e1, hc, predColumns, hp, predRows, a0, a1, a2, a3, a4, a5, a6, a7, a8, e3, e4, e5, upd2]
  · have h0 : (sidePreds order2 s p).ids 0 0 = 0 := by
      simp [sidePreds, e1, hc, predColumns, hp, predRows, a0, a1, a2, a3, a4, a5, a6, a7, a8, e3, e4, e5, upd2]
    have hu : used order2 (sidePreds order2 s p) 0 = 0 := by
      unfold used
      rw [hp, show List.range 2 = [0, 1] from rfl, List.find?_cons, h0]
      rfl
    unfold predSignal
    rw [hu]
    rfl

/-- Signals of a prediction with the missing one last. -/
example : predSignal (α := ℚ) order2 ⟨fun _ => 1, fun r _ => if r = 0 then 1 else 0, fun _ _ => 77⟩ (fun _ _ => 2) 0 0 = 155 / 128 := by decide +kernel

/-- **C248** No gain of a prediction is negative, and the largest is above 1. -/
theorem C248_refuted (c : Config) (hc : 2 ≤ c.gainBits) : (∀ q, 0 < (factor c q : ℚ)) ∧ ∃ q < 2 ^ c.gainBits, 1 < (factor c q : ℚ) := by
  refine ⟨fun q => ?_, 2 ^ c.gainBits - 1, Nat.sub_lt (by positivity) (by omega), ?_⟩
  · unfold factor
    exact mul_pos (zpow_pos (by norm_num) _) (by positivity)
  · unfold factor
    have h4 : (2 : ℚ) ^ c.gainBits ≥ 2 ^ 2 := pow_le_pow_right₀ (by norm_num) hc
    rw [Nat.cast_sub Nat.one_le_two_pow, zpow_sub₀ (by norm_num), zpow_one, zpow_natCast, Nat.cast_pow, Nat.cast_ofNat, Nat.cast_one, div_mul_eq_mul_div, lt_div_iff₀ (by positivity)]
    linarith

/-- **C248** The gains are below 2, are all different and grow with their code. -/
theorem C248_range_partial (c : Config) : (∀ q < 2 ^ c.gainBits, (factor c q : ℚ) < 2) ∧ ∀ q q', q < q' → (factor c q : ℚ) < factor c q' := by
  have h0 : (0 : ℚ) < 2 ^ (1 - (c.gainBits : Int)) := zpow_pos (by norm_num) _
  refine ⟨fun q hq => ?_, fun q q' h => ?_⟩
  · unfold factor
    have h1 : (q : ℚ) + 1 ≤ 2 ^ c.gainBits := by exact_mod_cast hq
    rw [zpow_sub₀ (by norm_num), zpow_one, zpow_natCast, div_mul_eq_mul_div, div_lt_iff₀ (by positivity)]
    linarith
  · unfold factor
    have : (q : ℚ) < q' := by exact_mod_cast h
    exact mul_lt_mul_of_pos_left (by linarith) h0

example : (factor order2 255 : ℚ) = 511 / 256 ∧ (factor order2 0 : ℚ) = 1 / 256 := by decide +kernel

end Verif.Hoa
