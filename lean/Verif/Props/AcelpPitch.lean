import Verif.Model.Acelp
import Mathlib.Algebra.BigOperators.Intervals
import Mathlib.Order.Interval.Finset.Nat
import Mathlib.Data.Int.Interval
import Mathlib.Tactic.Linarith
import Mathlib.Tactic.Ring
import Mathlib.Tactic.IntervalCases

/-! # Pitch: C170, C171 -/

namespace Verif.Acelp

/-- The fields of a part have 9 or 6 bits. -/
def PitchFits (acb : Nat → Nat) : Prop := acb 0 < 512 ∧ acb 1 < 64 ∧ acb 2 < 512 ∧ acb 3 < 64

theorem lagFull_bounds {i : Int} (h1 : -12 ≤ i) (h2 : i ≤ 30) {x : Int} (hx0 : 0 ≤ x) (hx : x < 512) :
    let R : Range := { low := 34 + i, fr2 := 128 - i, fr1 := 160, high := 231 + 6 * i }
    R.low ≤ (lagFull R x).lag ∧ (lagFull R x).lag ≤ R.high ∧ 0 ≤ (lagFull R x).frac ∧ (lagFull R x).frac ≤ 3 ∧
      R.low ≤ (lagFull R x).base ∧ (lagFull R x).base + 15 ≤ R.high := by
  dsimp only [lagFull]
  by_cases ha : x < (128 - i - (34 + i)) * 4
  · simp only [if_pos ha]
    refine ⟨by omega, by omega, by omega, by omega, ?_, ?_⟩ <;> split <;> split <;> omega
  · by_cases hb : x < (128 - i - (34 + i)) * 4 + (160 - (128 - i)) * 2
    · simp only [if_neg ha, if_pos hb]
      refine ⟨by omega, by omega, by omega, by omega, ?_, ?_⟩ <;> split <;> split <;> omega
    · simp only [if_neg ha, if_neg hb]
      refine ⟨by omega, by omega, by omega, by omega, ?_, ?_⟩ <;> split <;> split <;> omega

/-- **C170**: at rates from 8095 to 24282 Hz lags are within the limits. -/
theorem lags_within {f : Nat} (h1 : 8095 ≤ f) (h2 : f ≤ 24282) {acb : Nat → Nat} (h : PitchFits acb) :
    ∀ p ∈ lags (range f) acb, (range f).low ≤ p.lag ∧ p.lag ≤ (range f).high ∧ 0 ≤ p.frac ∧ p.frac ≤ 3 := by
  obtain ⟨a0, a1, a2, a3⟩ := h
  obtain ⟨i, hi, hi1, hi2⟩ : ∃ i : Int, i = ((f * 34 + 6400) / 12800 : Nat) - 34 ∧ -12 ≤ i ∧ i ≤ 30 := ⟨_, rfl, by omega, by omega⟩
  have er : range f = { low := 34 + i, fr2 := 128 - i, fr1 := 160, high := 231 + 6 * i } := by rw [hi]; rfl
  rw [er]
  have b0 := lagFull_bounds hi1 hi2 (x := acb 0) (by omega) (by omega)
  have b2 := lagFull_bounds hi1 hi2 (x := acb 2) (by omega) (by omega)
  dsimp only at b0 b2 ⊢
  intro p hp
  simp only [lags, List.mem_cons, List.not_mem_nil, or_false] at hp
  rcases hp with rfl | rfl | rfl | rfl
  · exact ⟨b0.1, b0.2.1, b0.2.2.1, b0.2.2.2.1⟩
  · simp only [lagNear]
    refine ⟨?_, ?_, ?_, ?_⟩ <;> omega
  · exact ⟨b2.1, b2.2.1, b2.2.2.1, b2.2.2.2.1⟩
  · simp only [lagNear]
    refine ⟨?_, ?_, ?_, ?_⟩ <;> omega

/-- At 12800 Hz the limits are those of the standard. -/
example : range 12800 = ⟨34, 128, 160, 231⟩ := rfl

/-- At 24000 Hz the largest lag fills the history. -/
example : (range 24000).high = 411 := rfl

theorem range_limits {f : Nat} (h1 : 8095 ≤ f) (h2 : f ≤ 24282) : 22 ≤ (range f).low ∧ (range f).high ≤ 411 := by
  simp only [range]
  omega

theorem taps_ok {h : Nat → Rat} {x : Buf} {x1 frac : Int} (hf : 0 ≤ frac ∧ frac ≤ 3) (h1 : 15 ≤ x1) (h2 : x1 + 16 < 1456) :
    ∀ j ≤ 16, ∃ s, taps h x x1 frac j = .ok s := by
  intro j
  induction j with
  | zero => exact fun _ => ⟨0, rfl⟩
  | succ j ih =>
    intro hj
    obtain ⟨s, e⟩ := ih (by omega)
    unfold taps
    rw [e, Res.ok_bind]
    unfold Buf.get
    rw [if_pos (by omega), Res.ok_bind, if_pos (by omega), Res.ok_bind, if_pos (by omega)]
    exact ⟨_, rfl⟩

theorem adaptive_ok {h : Nat → Rat} {pos : Nat} {lag frac : Int} (h1 : 17 ≤ lag) (h2 : lag + 16 ≤ pos) (hf : 0 ≤ frac ∧ frac ≤ 3) (x : Buf) :
    ∀ n, pos + n ≤ 1456 → ∃ y, adaptive h pos lag frac n x = .ok y := by
  intro n
  induction n with
  | zero => exact fun _ => ⟨x, rfl⟩
  | succ n ih =>
    intro hn
    obtain ⟨y, e⟩ := ih (by omega)
    unfold adaptive
    rw [e, Res.ok_bind]
    by_cases hz : -frac < 0
    · simp only [if_pos hz]
      obtain ⟨s, es⟩ := taps_ok (h := h) (x := y) (x1 := (pos : Int) - lag - 1 + n) (frac := 4 - frac) (by omega) (by omega) (by omega) 16 (le_refl _)
      have e2 : 4 - frac = 4 - frac := rfl
      rw [es, Res.ok_bind, if_pos (by omega)]
      exact ⟨_, rfl⟩
    · simp only [if_neg hz]
      obtain ⟨s, es⟩ := taps_ok (h := h) (x := y) (x1 := (pos : Int) - lag + n) (frac := -frac) (by omega) (by omega) (by omega) 16 (le_refl _)
      rw [es, Res.ok_bind, if_pos (by omega)]
      exact ⟨_, rfl⟩

/-- **C170**: at these rates nothing outside of the excitation buffer is read or written. -/
theorem adaptive_safe {f : Nat} (h1 : 8095 ≤ f) (h2 : f ≤ 24282) {acb : Nat → Nat} (ha : PitchFits acb) {p : Pitch}
    (hp : p ∈ lags (range f) acb) {k sfr : Nat} (hk : k < 4) (hs : sfr < 4) (h : Nat → Rat) (x : Buf) :
    ∃ y, adaptive h (place k sfr) p.lag p.frac 65 x = .ok y := by
  have b := lags_within h1 h2 ha p hp
  have l := range_limits h1 h2
  refine adaptive_ok (by omega) ?_ ⟨b.2.2.1, b.2.2.2⟩ x 65 ?_
  · simp only [place]
    push_cast
    omega
  · simp only [place]
    omega

/-- The longest lag. -/
example : PitchFits (fun i => if i % 2 = 0 then 511 else 63) ∧ ({ lag := 411, frac := 0, base := 396 } : Pitch) ∈
    lags (range 24000) (fun i => if i % 2 = 0 then 511 else 63) := by
  constructor
  · unfold PitchFits
    decide
  · decide

/-- **C170**, refuted: at 32000 Hz, which is accepted, the history is too short. -/
theorem adaptive_safe_refuted : ∃ f, scale false 32000 = .ok f ∧ ∃ acb, PitchFits acb ∧ ∃ p, (lags (range f) acb)[0]? = some p ∧
    p.lag = 537 ∧ ∀ h x, adaptive h (place 0 0) p.lag p.frac 65 x = .ub := by
  refine ⟨32000, rfl, fun i => if i % 2 = 0 then 511 else 0, by unfold PitchFits; decide, ⟨537, 0, 522⟩, by decide, rfl, fun h x => ?_⟩
  have : ∀ n, 1 ≤ n → adaptive h (place 0 0) 537 0 n x = .ub := by
    intro n hn
    induction n with
    | zero => omega
    | succ n ih =>
      unfold adaptive
      by_cases h0 : n = 0
      · subst h0
        rw [adaptive, Res.ok_bind]
        have et : ∀ j, 1 ≤ j → taps h x (((place 0 0 : Nat) : Int) - 537 + ((0 : Nat) : Int)) 0 j = .ub := by
          intro j hj
          induction j with
          | zero => omega
          | succ j ih =>
            unfold taps
            by_cases hj : j = 0
            · subst hj
              rfl
            · rw [ih (by omega)]
              rfl
        simp only [neg_zero, lt_self_iff_false, if_false]
        rw [et 16 (by decide)]
        rfl
      · rw [ih (by omega)]
        rfl
  exact this 65 (by decide)

/-- **C170**, refuted: at 8000 Hz a lag exceeds the largest one. -/
theorem lags_within_refuted : ∃ f, scale false 8000 = .ok f ∧ ∃ acb, PitchFits acb ∧ ∃ p ∈ lags (range f) acb, (range f).high < p.lag :=
  ⟨8000, rfl, fun i => if i % 2 = 0 then 511 else 0, by unfold PitchFits; decide, ⟨156, 2, 138⟩, by decide, by decide⟩

/-! ## Interpolation -/

/-- The value of a signal at the time `t / 4`, interpolated with the symmetric response `h`, which is zero from 64 on. -/
def interpolate (h : Nat → Rat) (y : Int → Rat) (t : Int) : Rat := ∑ m ∈ Finset.Icc (t / 4 - 15) (t / 4 + 16), h (4 * m - t).natAbs * y m

theorem taps_eq {h : Nat → Rat} {x : Buf} {x1 f : Int} : ∀ j {s}, taps h x x1 f j = .ok s →
    s = ∑ i ∈ Finset.range j, (x (x1 - i).toNat * h (f + 4 * i).toNat + x (x1 + 1 + i).toNat * h (4 - f + 4 * i).toNat) := by
  intro j
  induction j with
  | zero =>
    intro s e
    cases e
    rfl
  | succ j ih =>
    intro s e
    unfold taps at e
    obtain ⟨s', e1, e⟩ := Res.bind_eq_ok.mp e
    obtain ⟨a, ea, e⟩ := Res.bind_eq_ok.mp e
    obtain ⟨b, eb, e⟩ := Res.bind_eq_ok.mp e
    unfold Buf.get at ea eb
    split at ea
    · split at eb
      · cases ea
        cases eb
        split at e
        · rename_i h1 h2 h3
          cases e
          rw [Finset.sum_range_succ, ← ih e1, show (f + 4 * (j : Int)).toNat = f.toNat + 4 * j by omega,
            show (4 - f + 4 * (j : Int)).toNat = (4 - f).toNat + 4 * j by omega]
          ring
        · cases e
      · cases eb
    · cases ea

theorem sum_window {g : Int → Rat} (u : Int) : ∑ m ∈ Finset.Icc (u - 15) (u + 16), g m = ∑ i ∈ Finset.range 16, (g (u - i) + g (u + 1 + i)) := by
  have e : Finset.Icc (u - 15) (u + 16) = (Finset.range 32).image fun i : Nat => u - 15 + (i : Int) := by
    ext m
    simp only [Finset.mem_Icc, Finset.mem_image, Finset.mem_range]
    constructor
    · intro hm
      exact ⟨(m - (u - 15)).toNat, by omega, by omega⟩
    · rintro ⟨i, hi, rfl⟩
      omega
  rw [e, Finset.sum_image (by intro a _ b _ h; simpa using h)]
  simp only [Finset.sum_range_succ, Finset.sum_range_zero]
  push_cast
  ring_nf

theorem interpolate_congr {h : Nat → Rat} {y z : Int → Rat} {t : Int} (e : ∀ m, m ≤ t / 4 + 16 → y m = z m) :
    interpolate h y t = interpolate h z t :=
  Finset.sum_congr rfl fun m hm => by rw [e m (Finset.mem_Icc.mp hm).2]

theorem taps_interpolate {h : Nat → Rat} {x : Buf} {u f t : Int} {s : Rat} (hf : 0 ≤ f ∧ f ≤ 3) (ht : t = 4 * u + f)
    (e : taps h x u f 16 = .ok s) : s = interpolate h (fun m => x m.toNat) t := by
  rw [taps_eq 16 e, interpolate, show t / 4 = u by omega, sum_window]
  refine Finset.sum_congr rfl fun i hi => ?_
  rw [show (4 * (u - (i : Int)) - t).natAbs = (f + 4 * (i : Int)).toNat by omega,
    show (4 * (u + 1 + (i : Int)) - t).natAbs = (4 - f + 4 * (i : Int)).toNat by omega]
  ring

/-- **C171**: the adaptive part of the excitation is the excitation `lag + frac / 4` earlier, interpolated, where what was
computed just before serves as past; nothing else of the buffer changes. -/
theorem adaptive_interpolates {h : Nat → Rat} {pos : Nat} {lag frac : Int} (h0 : 0 < pos) (h1 : 17 ≤ lag) (hf : 0 ≤ frac ∧ frac ≤ 3) {x : Buf} :
    ∀ {n y}, adaptive h pos lag frac n x = .ok y → (∀ m, m < pos ∨ pos + n ≤ m → y m = x m) ∧
      ∀ i < n, y (pos + i) = interpolate h (fun m => y m.toNat) (4 * ((pos + i : Nat) : Int) - (4 * lag + frac)) := by
  intro n
  induction n with
  | zero =>
    intro y e
    cases e
    exact ⟨fun _ _ => rfl, fun i hi => by omega⟩
  | succ n ih =>
    intro y e
    unfold adaptive at e
    obtain ⟨y', e1, e⟩ := Res.bind_eq_ok.mp e
    obtain ⟨i1, i2⟩ := ih e1
    obtain ⟨s, es, hs, e⟩ : ∃ s, s = interpolate h (fun m => y' m.toNat) (4 * ((pos + n : Nat) : Int) - (4 * lag + frac)) ∧ pos + n < 1456 ∧
        y = Function.update y' (pos + n) s := by
      by_cases hz : -frac < 0
      · simp only [if_pos hz] at e
        obtain ⟨s, es, e⟩ := Res.bind_eq_ok.mp e
        split at e
        · cases e
          refine ⟨s, taps_interpolate (by omega) ?_ es, by assumption, rfl⟩
          push_cast
          omega
        · cases e
      · simp only [if_neg hz] at e
        obtain ⟨s, es, e⟩ := Res.bind_eq_ok.mp e
        split at e
        · cases e
          refine ⟨s, taps_interpolate (by omega) ?_ es, by assumption, rfl⟩
          push_cast
          omega
        · cases e
    subst e
    have up : ∀ m, m ≠ pos + n → Function.update y' (pos + n) s m = y' m := fun m hm => Function.update_of_ne hm _ _
    refine ⟨fun m hm => ?_, fun i hi => ?_⟩
    · rw [up m (by omega), i1 m (by omega)]
    · have ec : interpolate h (fun m => Function.update y' (pos + n) s m.toNat) (4 * ((pos + i : Nat) : Int) - (4 * lag + frac)) =
          interpolate h (fun m => y' m.toNat) (4 * ((pos + i : Nat) : Int) - (4 * lag + frac)) :=
        interpolate_congr fun m hm => up _ (by push_cast at hm; omega)
      rw [ec]
      by_cases hin : i = n
      · subst hin
        rw [Function.update_self, es]
      · rw [up _ (by omega), i2 i (by omega)]

/-- A lag of 100 and a quarter. -/
example : (0 < place 1 2) ∧ (17 : Int) ≤ 100 ∧ ∀ h x, ∃ y, adaptive h (place 1 2) 100 1 65 x = .ok y :=
  ⟨by decide, by decide, fun _ x => adaptive_ok (by decide) (by decide) (by decide) x 65 (by decide)⟩

/-- **C171**, at each rate from 8095 to 24282 Hz. -/
theorem adaptive_rates {f : Nat} (h1 : 8095 ≤ f) (h2 : f ≤ 24282) {acb : Nat → Nat} (ha : PitchFits acb) {p : Pitch}
    (hp : p ∈ lags (range f) acb) {k sfr : Nat} (hk : k < 4) (hs : sfr < 4) (h : Nat → Rat) (x : Buf) :
    ∃ y, adaptive h (place k sfr) p.lag p.frac 65 x = .ok y ∧ ∀ i < 65, y (place k sfr + i) =
      interpolate h (fun m => y m.toNat) (4 * ((place k sfr + i : Nat) : Int) - (4 * p.lag + p.frac)) := by
  obtain ⟨y, e⟩ := adaptive_safe h1 h2 ha hp hk hs h x
  have b := lags_within h1 h2 ha p hp
  have l := range_limits h1 h2
  exact ⟨y, e, (adaptive_interpolates (by simp only [place]; omega) (by omega) ⟨b.2.2.1, b.2.2.2⟩ e).2⟩

theorem adaptive_first {h : Nat → Rat} {x : Buf} : ∃ y, adaptive h 428 5 0 1 x = .ok y ∧ y 428 = interpolate h (fun m => x m.toNat) (4 * 423) := by
  obtain ⟨s, es⟩ := taps_ok (h := h) (x := x) (x1 := ((428 : Nat) : Int) - 5 + ((0 : Nat) : Int)) (frac := 0) (by decide) (by decide) (by decide) 16 (le_refl _)
  refine ⟨Function.update x 428 s, ?_, ?_⟩
  · unfold adaptive
    rw [adaptive, Res.ok_bind]
    simp only [neg_zero, lt_self_iff_false, if_false]
    rw [es, Res.ok_bind]
    rfl
  · rw [Function.update_self]
    exact taps_interpolate (by decide) (by decide) es

/-- **C171**, refuted: at 2000 Hz, which is accepted, the lag may be 5, and the result depends on what was in the buffer
after the past excitation, whenever the response is not zero at 28. -/
theorem adaptive_past_refuted : ∃ f, scale false 2000 = .ok f ∧ ∃ acb, PitchFits acb ∧ ∃ p, (lags (range f) acb)[0]? = some p ∧
    ∀ h : Nat → Rat, h 28 ≠ 0 → ∃ x x' y y' : Buf, (∀ m < place 0 0, x m = x' m) ∧ adaptive h (place 0 0) p.lag p.frac 1 x = .ok y ∧
      adaptive h (place 0 0) p.lag p.frac 1 x' = .ok y' ∧ y (place 0 0) ≠ y' (place 0 0) := by
  refine ⟨2000, rfl, fun _ => 0, by unfold PitchFits; decide, ⟨5, 0, 5⟩, by decide, fun h hh => ?_⟩
  obtain ⟨y, e, v⟩ := adaptive_first (h := h) (x := fun m => if m = 430 then 1 else 0)
  obtain ⟨y', e', v'⟩ := adaptive_first (h := h) (x := fun _ => 0)
  refine ⟨_, _, y, y', ?_, e, e', ?_⟩
  · intro m hm
    have : m < 428 := hm
    rw [if_neg (by omega)]
  · show y 428 ≠ y' 428
    rw [v, v', interpolate, interpolate]
    rw [Finset.sum_eq_single (430 : Int)]
    · simpa using hh
    · intro b hb hne
      have := Finset.mem_Icc.mp hb
      rw [if_neg (by omega), mul_zero]
    · intro hn
      exact absurd (Finset.mem_Icc.mpr (by decide)) hn

end Verif.Acelp
