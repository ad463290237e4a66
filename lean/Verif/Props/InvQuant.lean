import Verif.Spec.InvQuant
import Mathlib.Tactic.Linarith
import Mathlib.Tactic.Ring
import Mathlib.Algebra.Order.Ring.Abs

/-! # Inverse quantisation and noise filling -/

namespace Verif.InvQuant

open Verif.Spec.InvQuant
open Ops (i32)

/-- What a line gives before it is scaled. -/
def Raw (c : Cfg) (withNoise : Bool) (q : Int) (v : ℚ) : Prop :=
  (0 < q → v = c.iq (min q.toNat 8191)) ∧ (q < 0 → v = -c.iq (min (-q).toNat 8191)) ∧
  (q = 0 → withNoise = true → v = (if c.noise then c.nl (c.level / 32) else 0) ∨ v = -(if c.noise then c.nl (c.level / 32) else 0)) ∧
  (q = 0 → withNoise = false → v = c.iq 0)

theorem line_ok (c : Cfg) (wn : Bool) (q : Int) (seed : Nat) (hq : |q| ≤ 2147483647) :
    ∃ v s, line c wn q seed = .ok (v, s) ∧ Raw c wn q v := by
  rw [abs_le] at hq
  unfold line
  by_cases h : wn = true ∧ q = 0
  · rw [if_pos h]
    refine ⟨_, _, rfl, fun h' => by omega, fun h' => by omega, fun _ _ => ?_, fun _ hw => by rw [h.1] at hw; cases hw⟩
    have hr : (randomSign seed).1 = -1 ∨ (randomSign seed).1 = 1 := by
      unfold randomSign
      simp only
      split
      · exact Or.inl rfl
      · exact Or.inr rfl
    rcases hr with hr | hr
    · right; rw [hr, mul_neg_one]
    · left; rw [hr, mul_one]
  · rw [if_neg h]
    have ha : (if q < 0 then i32 (-q) else .ok q) = (.ok |q| : Res Int) := by
      by_cases h0 : q < 0
      · rw [if_pos h0, abs_of_neg h0]
        unfold Ops.i32
        rw [if_pos]
        unfold Ops.MIN_32 Ops.MAX_32; omega
      · rw [if_neg h0, abs_of_nonneg (by omega)]
    rw [ha, Res.ok_bind]
    refine ⟨_, _, rfl, fun h' => ?_, fun h' => ?_, fun h0 hw => absurd ⟨hw, h0⟩ h, fun h0 _ => ?_⟩
    · rw [if_neg (by omega), abs_of_pos h', one_mul]
      congr 1
      split <;> omega
    · rw [if_pos h', abs_of_neg h', neg_one_mul]
      congr 2
      split <;> omega
    · subst h0; simp

theorem iquant_ok (c : Cfg) (wn : Bool) (q : Nat → Nat → Int) (hq : ∀ w i, |q w i| ≤ 2147483647) (w n i : Nat) (s : Nat × (Nat → Nat → ℚ)) :
    ∃ s', iquant c wn q w n i s = .ok s' ∧ (∀ j, i ≤ j → j < i + n → Raw c wn (q w j) (s'.2 w j)) ∧
      (∀ w' j, (w' ≠ w ∨ j < i ∨ i + n ≤ j) → s'.2 w' j = s.2 w' j) := by
  induction n generalizing i s with
  | zero => exact ⟨s, rfl, fun j _ _ => by omega, fun _ _ _ => rfl⟩
  | succ n ih =>
    obtain ⟨v, sd, h1, h2⟩ := line_ok c wn (q w i) s.1 (hq w i)
    rw [iquant, h1, Res.ok_bind]
    obtain ⟨s', g1, g2, g3⟩ := ih (i + 1) (sd, put s.2 w i v)
    refine ⟨s', g1, fun j hj hj' => ?_, fun w' j hj => ?_⟩
    · by_cases hji : j = i
      · subst hji
        rw [g3 w j (by omega)]
        unfold put
        simp only [and_self, if_true]
        exact h2
      · exact g2 j (by omega) (by omega)
    · rw [g3 w' j (by omega)]
      show (if w' = w ∧ j = i then v else s.2 w' j) = _
      rw [if_neg (by omega)]

theorem windows_ok (c : Cfg) (wn : Bool) (q : Nat → Nat → Int) (hq : ∀ w i, |q w i| ≤ 2147483647) (lo hi : Nat) (hlh : lo ≤ hi) (n w : Nat)
    (s : Nat × (Nat → Nat → ℚ)) :
    ∃ s', windows c wn q lo hi n w s = .ok s' ∧
      (∀ w' j, w ≤ w' → w' < w + n → lo ≤ j → j < hi → Raw c wn (q w' j) (s'.2 w' j)) ∧
      (∀ w' j, ¬ (w ≤ w' ∧ w' < w + n ∧ lo ≤ j ∧ j < hi) → s'.2 w' j = s.2 w' j) := by
  induction n generalizing w s with
  | zero => exact ⟨s, rfl, fun _ _ _ _ => by omega, fun _ _ _ => rfl⟩
  | succ n ih =>
    obtain ⟨s1, h1, h2, h3⟩ := iquant_ok c wn q hq w (hi - lo) lo s
    rw [windows, h1, Res.ok_bind]
    obtain ⟨s', g1, g2, g3⟩ := ih (w + 1) s1
    refine ⟨s', g1, fun w' j a1 a2 a3 a4 => ?_, fun w' j hj => ?_⟩
    · by_cases hw : w' = w
      · subst hw
        rw [g3 w' j (by omega)]
        exact h2 j a3 (by omega)
      · exact g2 w' j (by omega) (by omega) a3 a4
    · rw [g3 w' j (by omega)]
      exact h3 w' j (by omega)

theorem zeroBand_iff (q : Nat → Nat → Int) (lo hi w len : Nat) :
    zeroBand q lo hi w len = true ↔ ∀ w' i, w ≤ w' → w' < w + len → lo ≤ i → i < hi → q w' i = 0 := by
  unfold zeroBand
  simp only [List.all_eq_true, List.mem_range, decide_eq_true_eq]
  constructor
  · intro h w' i a1 a2 a3 a4
    have := h (w' - w) (by omega) (i - lo) (by omega)
    rw [show w + (w' - w) = w' by omega, show lo + (i - lo) = i by omega] at this
    exact this
  · intro h k hk i hi'
    exact h (w + k) (lo + i) (by omega) (by omega) (by omega) (by omega)

/-- The first line of a band. -/
def lo (ends : List Nat) (b : Nat) : Nat := if b = 0 then 0 else ends.getD (b - 1) 0

theorem bands_ok (c : Cfg) (factors q : Nat → Nat → Int) (hq : ∀ w i, |q w i| ≤ 2147483647) (hs : (0 :: c.ends).Pairwise (· ≤ ·)) (w len : Nat)
    (n b : Nat) (s : Nat × (Nat → Nat → ℚ)) (hn : b + n ≤ c.ends.length) :
    ∃ s', bands c factors q w len n b s = .ok s' ∧
      (∀ w' j b' lo, w ≤ w' → w' < w + len → b ≤ b' → b' < b + n → InBand c.ends b' lo j →
        Value c factors q b' lo w len (q w' j) (s'.2 w' j)) ∧
      (∀ w' j, ¬ (w ≤ w' ∧ w' < w + len ∧ ∃ b' lo, b ≤ b' ∧ b' < b + n ∧ InBand c.ends b' lo j) → s'.2 w' j = s.2 w' j) := by
  induction n generalizing b s with
  | zero => exact ⟨s, rfl, fun _ _ _ _ _ _ _ _ => by omega, fun _ _ _ => rfl⟩
  | succ n ih =>
    obtain ⟨hi, hhi⟩ : ∃ hi, c.ends[b]? = some hi := ⟨_, List.getElem?_eq_getElem (by omega)⟩
    obtain ⟨l0, hl0, hlow⟩ : ∃ l0, (if b = 0 then .ok 0 else bandEnd c.ends (b - 1)) = (.ok l0 : Res Nat) ∧
        ((b = 0 ∧ l0 = 0) ∨ (b ≠ 0 ∧ c.ends[b - 1]? = some l0)) := by
      by_cases h0 : b = 0
      · exact ⟨0, by rw [if_pos h0], Or.inl ⟨h0, rfl⟩⟩
      · have hx : c.ends[b - 1]? = some (c.ends[b - 1]'(by omega)) := List.getElem?_eq_getElem (by omega)
        refine ⟨_, ?_, Or.inr ⟨h0, hx⟩⟩
        rw [if_neg h0]
        unfold bandEnd
        rw [hx]
    have hlh : l0 ≤ hi := by
      rw [List.pairwise_cons] at hs
      rcases hlow with ⟨-, h⟩ | ⟨h0, h⟩
      · omega
      · rw [List.getElem?_eq_some_iff] at h hhi
        obtain ⟨x1, x2⟩ := h
        obtain ⟨y1, y2⟩ := hhi
        rw [← x2, ← y2]
        exact (List.pairwise_iff_getElem.1 hs.2) (b - 1) b x1 y1 (by omega)
    -- where the lines of this band are
    have hin : ∀ b' lo j, InBand c.ends b' lo j → b' = b → lo = l0 ∧ l0 ≤ j ∧ j < hi := by
      rintro b' lo j ⟨k1, k2, hi', k3, k4⟩ rfl
      rw [hhi] at k3
      have e1 : hi = hi' := Option.some.inj k3
      have e2 : lo = l0 := by
        rcases hlow with ⟨h1, h2⟩ | ⟨h1, h2⟩
        · rcases k1 with ⟨-, k1⟩ | ⟨k1, -⟩
          · omega
          · exact absurd h1 k1
        · rcases k1 with ⟨k1, -⟩ | ⟨-, k1⟩
          · exact absurd k1 h1
          · rw [h2] at k1; exact (Option.some.inj k1).symm
      omega
    have hlater : ∀ b' lo j, InBand c.ends b' lo j → b < b' → hi ≤ j := by
      rintro b' lo j ⟨k1, k2, -⟩ hb
      rcases k1 with ⟨k1, -⟩ | ⟨-, k1⟩
      · omega
      · rw [List.getElem?_eq_some_iff] at k1 hhi
        obtain ⟨x1, x2⟩ := k1
        obtain ⟨y1, y2⟩ := hhi
        have : hi ≤ lo := by
          rw [← x2, ← y2]
          rcases Nat.lt_or_ge b (b' - 1) with hlt | hge
          · exact (List.pairwise_iff_getElem.1 (List.pairwise_cons.1 hs).2) b (b' - 1) y1 x1 hlt
          · have : b' - 1 = b := by omega
            simp only [this]; exact le_refl _
        omega
    have hme : ∀ j, l0 ≤ j → j < hi → InBand c.ends b l0 j := fun j h1 h2 => ⟨hlow, h1, hi, hhi, h2⟩
    have hbe : bandEnd c.ends b = .ok hi := by unfold bandEnd; rw [hhi]
    rw [bands, hl0, Res.ok_bind, hbe, Res.ok_bind]
    obtain ⟨wn, hwn⟩ : ∃ wn, wn = (c.noise && decide (startOffset c.long ≤ l0) && decide (b < c.maxNoise)) := ⟨_, rfl⟩
    obtain ⟨fac, hfac⟩ : ∃ fac, fac = factors w b - 100 + (if c.noise && zeroBand q l0 hi w len then (c.level : Int) % 32 - 16 else 0) := ⟨_, rfl⟩
    simp only [← hwn, ← hfac]
    obtain ⟨s1, h1, h2, h3⟩ := windows_ok c wn q hq l0 hi hlh len w s
    rw [h1, Res.ok_bind]
    obtain ⟨s', g1, g2, g3⟩ := ih (b + 1) (s1.1, applyScale (c.pw fac) l0 hi w len s1.2) (by omega)
    have hexp : Exponent c factors q b w len fac := by
      have hz : zeroBand q l0 hi w len = true ↔ Zero c.ends q b w len := by
        rw [zeroBand_iff]
        constructor
        · intro h w' lo j a1 a2 a3
          obtain ⟨b1, b2, b3⟩ := hin b lo j a3 rfl
          exact h w' j a1 a2 b2 b3
        · intro h w' i a1 a2 a3 a4
          exact h w' l0 i a1 a2 (hme i a3 a4)
      constructor
      · intro x1 x2
        rw [hfac, x1, hz.2 x2]
        simp only [Bool.and_self, if_true]
        omega
      · intro x
        rw [hfac, if_neg, add_zero]
        rw [Bool.and_eq_true]
        rintro ⟨y1, y2⟩
        exact x ⟨y1, hz.1 y2⟩
    refine ⟨s', g1, fun w' j b' lo a1 a2 a3 a4 a5 => ?_, fun w' j hj => ?_⟩
    · by_cases hb : b' = b
      · obtain ⟨b1, b2, b3⟩ := hin b' lo j a5 hb
        have hkeep : s'.2 w' j = s1.2 w' j * c.pw fac := by
          rw [g3 w' j]
          · show (if w ≤ w' ∧ w' < w + len ∧ l0 ≤ j ∧ j < hi then s1.2 w' j * c.pw fac else s1.2 w' j) = _
            rw [if_pos ⟨a1, a2, b2, b3⟩]
          · rintro ⟨-, -, b'', lo', c1, c2, c3⟩
            have := hlater b'' lo' j c3 (by omega)
            omega
        obtain ⟨r1, r2, r3, r4⟩ := h2 w' j a1 a2 b2 b3
        rw [hb, b1]
        refine ⟨fac, hexp, fun h => ?_, fun h => ?_, fun h x1 x2 x3 => ?_, fun h x => ?_⟩
        · rw [hkeep, r1 h]
        · rw [hkeep, r2 h]
        · have hw1 : wn = true := by
            rw [hwn, x1]
            unfold startOffset
            simp [x2, x3]
          have := r3 h hw1
          rw [x1] at this
          simp only [if_true] at this
          rcases this with this | this
          · left; rw [hkeep, this]
          · right; rw [hkeep, this]
        · have hw0 : wn = false := by
            rw [hwn]
            by_contra hc
            rw [Bool.not_eq_false] at hc
            simp only [Bool.and_eq_true, decide_eq_true_eq] at hc
            exact x ⟨hc.1.1, hc.1.2, hc.2⟩
          rw [hkeep, r4 h hw0]
      · exact g2 w' j b' lo a1 a2 (by omega) (by omega) a5
    · have hout : ¬ (w ≤ w' ∧ w' < w + len ∧ l0 ≤ j ∧ j < hi) := by
        rintro ⟨a1, a2, a3, a4⟩
        exact hj ⟨a1, a2, b, l0, by omega, by omega, hme j a3 a4⟩
      rw [g3 w' j (by
        rintro ⟨a1, a2, b', lo, a3, a4, a5⟩
        exact hj ⟨a1, a2, b', lo, by omega, by omega, a5⟩)]
      show (if w ≤ w' ∧ w' < w + len ∧ l0 ≤ j ∧ j < hi then s1.2 w' j * c.pw fac else s1.2 w' j) = _
      rw [if_neg hout, h3 w' j hout]

theorem groups_ok (c : Cfg) (factors q : Nat → Nat → Int) (hq : ∀ w i, |q w i| ≤ 2147483647) (hs : (0 :: c.ends).Pairwise (· ≤ ·))
    (hm : c.maxSfb ≤ c.ends.length) (lens : List Nat) (w : Nat) (s : Nat × (Nat → Nat → ℚ)) :
    ∃ s', groups c factors q lens w s = .ok s' ∧
      (∀ g len w' j b lo, lens[g]? = some len → w + (lens.take g).sum ≤ w' → w' < w + (lens.take g).sum + len → b < c.maxSfb →
        InBand c.ends b lo j → Value c factors q b lo (w + (lens.take g).sum) len (q w' j) (s'.2 w' j)) ∧
      (∀ w' j, ¬ (w ≤ w' ∧ w' < w + lens.sum ∧ ∃ b lo, b < c.maxSfb ∧ InBand c.ends b lo j) → s'.2 w' j = s.2 w' j) := by
  induction lens generalizing w s with
  | nil => exact ⟨s, rfl, fun g len _ _ _ _ h => by simp at h, fun _ _ _ => rfl⟩
  | cons len lens ih =>
    obtain ⟨s1, h1, h2, h3⟩ := bands_ok c factors q hq hs w len c.maxSfb 0 s (by omega)
    rw [groups, h1, Res.ok_bind]
    obtain ⟨s', g1, g2, g3⟩ := ih (w + len) s1
    refine ⟨s', g1, fun g len' w' j b lo a1 a2 a3 a4 a5 => ?_, fun w' j hj => ?_⟩
    · cases g with
      | zero =>
        simp only [List.getElem?_cons_zero, Option.some.injEq] at a1
        subst a1
        simp only [List.take_zero, List.sum_nil, Nat.add_zero] at a2 a3 ⊢
        rw [g3 w' j (by omega)]
        exact h2 w' j b lo a2 a3 (by omega) (by omega) a5
      | succ g =>
        rw [List.getElem?_cons_succ] at a1
        rw [List.take_succ_cons, List.sum_cons] at a2 a3 ⊢
        have := g2 g len' w' j b lo a1 (by omega) (by omega) a4 a5
        rw [show w + (len + (lens.take g).sum) = w + len + (lens.take g).sum by omega]
        exact this
    · rw [List.sum_cons] at hj
      rw [g3 w' j (by rintro ⟨a1, a2, a3⟩; exact hj ⟨by omega, by omega, a3⟩)]
      refine h3 w' j ?_
      rintro ⟨a1, a2, b, lo, a3, a4, a5⟩
      exact hj ⟨by omega, by omega, b, lo, by omega, a5⟩

end Verif.InvQuant
