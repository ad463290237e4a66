import Mathlib.Algebra.Order.Field.Rat
import Mathlib.Tactic.Linarith
import Mathlib.Tactic.Ring
import Mathlib.Tactic.FieldSimp
import Mathlib.Tactic.GCongr
import Verif.Spec.DrcGain
import Verif.Model.DrcGain

/-! # The gain curve -/

namespace Verif.DrcGain

/-! ## Facts about curves -/

theorem curve_at (p : Int × Rat) (r : List (Int × Rat)) (h : Ordered p r) : curve p r p.1 = p.2 := by
  cases r with
  | nil => rfl
  | cons q r =>
    unfold curve
    rw [if_pos h.1]
    simp

theorem lastPt_append (p : Int × Rat) (r s : List (Int × Rat)) : lastPt p (r ++ s) = lastPt (lastPt p r) s := by
  induction r generalizing p with
  | nil => rfl
  | cons q r ih => exact ih q

theorem ordered_append (p : Int × Rat) (r s : List (Int × Rat)) (h1 : Ordered p r) (h2 : Ordered (lastPt p r) s) :
    Ordered p (r ++ s) := by
  induction r generalizing p with
  | nil => exact h2
  | cons q r ih => exact ⟨h1.1, ih q h1.2 h2⟩

theorem curve_append_lt (p : Int × Rat) (r s : List (Int × Rat)) (t : Int) (h0 : p.1 ≤ t) (h : t < (lastPt p r).1) :
    curve p (r ++ s) t = curve p r t := by
  induction r generalizing p with
  | nil => exact absurd h (by simp only [lastPt]; omega)
  | cons q r ih =>
    unfold curve
    rw [List.cons_append]
    dsimp only
    split
    · rfl
    · exact ih q (by omega) h

theorem ordered_le (p : Int × Rat) (r : List (Int × Rat)) (h : Ordered p r) : p.1 ≤ (lastPt p r).1 := by
  induction r generalizing p with
  | nil => exact Int.le_refl _
  | cons q r ih =>
    have := ih q h.2
    have := h.1
    simp only [lastPt]
    omega

theorem curve_append_ge (p : Int × Rat) (r s : List (Int × Rat)) (t : Int) (ho : Ordered p r)
    (h : (lastPt p r).1 ≤ t) : curve p (r ++ s) t = curve (lastPt p r) s t := by
  induction r generalizing p with
  | nil => rfl
  | cons q r ih =>
    have := ordered_le q r ho.2
    simp only [lastPt] at h
    unfold lastPt
    rw [← ih q ho.2 h, List.cons_append]
    conv => lhs; unfold curve
    rw [if_neg (by omega)]

/-- Moves a point in time. -/
def shift (c : Int) (p : Int × Rat) : Int × Rat := (p.1 + c, p.2)

theorem curve_shift (c : Int) (p : Int × Rat) (r : List (Int × Rat)) (t : Int) :
    curve (shift c p) (r.map (shift c)) (t + c) = curve p r t := by
  induction r generalizing p with
  | nil => rfl
  | cons q r ih =>
    rw [List.map_cons]
    unfold curve
    rw [ih q]
    have h1 : t + c - (shift c p).1 = t - p.1 := by simp only [shift]; omega
    have h2 : (shift c q).1 - (shift c p).1 = q.1 - p.1 := by simp only [shift]; omega
    rw [h1, h2]
    by_cases h : t < q.1
    · rw [if_pos h, if_pos (by simp only [shift]; omega)]
      rfl
    · rw [if_neg h, if_neg (by simp only [shift]; omega)]

theorem lastPt_shift (c : Int) (p : Int × Rat) (r : List (Int × Rat)) :
    lastPt (shift c p) (r.map (shift c)) = shift c (lastPt p r) := by
  induction r generalizing p with
  | nil => rfl
  | cons q r ih => exact ih q

theorem ordered_shift (c : Int) (p : Int × Rat) (r : List (Int × Rat)) (h : Ordered p r) :
    Ordered (shift c p) (r.map (shift c)) := by
  induction r generalizing p with
  | nil => trivial
  | cons q r ih => exact ⟨by have := h.1; simp only [shift]; omega, ih q h.2⟩

/-- The curve stays between the least and the greatest gain of its points. -/
theorem curve_bounded (p : Int × Rat) (r : List (Int × Rat)) (t : Int) (lo hi : Rat) (ho : Ordered p r)
    (h0 : p.1 ≤ t) (hb : ∀ q ∈ p :: r, lo ≤ q.2 ∧ q.2 ≤ hi) : lo ≤ curve p r t ∧ curve p r t ≤ hi := by
  induction r generalizing p with
  | nil => exact hb p (by simp)
  | cons q r ih =>
    unfold curve
    split
    · rename_i hlt
      have hp := hb p (by simp)
      have hq := hb q (by simp)
      have hd : (0 : Rat) < ((q.1 - p.1 : Int) : Rat) := by
        have := ho.1
        exact_mod_cast (by omega : (0 : Int) < q.1 - p.1)
      have hn : (0 : Rat) ≤ ((t - p.1 : Int) : Rat) := by exact_mod_cast (by omega : (0 : Int) ≤ t - p.1)
      have hl : ((t - p.1 : Int) : Rat) ≤ ((q.1 - p.1 : Int) : Rat) := by
        exact_mod_cast (by omega : t - p.1 ≤ q.1 - p.1)
      generalize ((q.1 - p.1 : Int) : Rat) = d at *
      generalize ((t - p.1 : Int) : Rat) = n at *
      have hw : p.2 + (q.2 - p.2) * n / d = (p.2 * (d - n) + q.2 * n) / d := by
        field_simp
        ring
      rw [hw]
      have hdn : 0 ≤ d - n := by linarith
      constructor
      · rw [le_div_iff₀ hd]
        have := mul_le_mul_of_nonneg_right hp.1 hdn
        have := mul_le_mul_of_nonneg_right hq.1 hn
        linarith
      · rw [div_le_iff₀ hd]
        have := mul_le_mul_of_nonneg_right hp.2 hdn
        have := mul_le_mul_of_nonneg_right hq.2 hn
        linarith
    · exact ih q ho.2 (by omega) fun x hx => hb x (List.mem_cons_of_mem _ hx)

/-! ## One frame -/

/-- A node as a point of the curve. -/
def pt (lin : Int → Rat) (c : Node) : Int × Rat := (c.time, lin c.gain)

theorem interpolate_ok {gains : Int → Rat} {base dur : Int} {a b : Rat} {g : Int → Rat}
    (h : interpolate gains base dur a b = .ok (some g)) :
    0 < dur ∧ 0 ≤ base ∧ base + dur < 3584 ∧
      ∀ i, g i = if base ≤ i ∧ i < base + dur then a + (b - a) * ((i - base : Int) : Rat) / (dur : Rat)
        else if i = base + dur then b else gains i := by
  unfold interpolate at h
  split at h
  · simp at h
  split at h
  · simp at h
  rename_i h1 h2
  simp only [bufSize, not_or, not_lt, ge_iff_le, not_le] at h2
  simp only [Res.ok.injEq, Option.some.injEq] at h
  refine ⟨by omega, h2.1, h2.2, fun i => ?_⟩
  rw [← h]
  dsimp only
  by_cases h3 : base < i ∧ i < base + dur
  · rw [if_pos h3, if_pos ⟨by omega, h3.2⟩]
    ring
  · rw [if_neg h3]
    by_cases h4 : i = base + dur
    · rw [if_pos h4, if_neg (by omega), if_pos h4]
    · rw [if_neg h4]
      by_cases h5 : i = base
      · rw [if_pos h5, if_pos ⟨by omega, by omega⟩, h5]
        simp
      · rw [if_neg h5, if_neg (by omega), if_neg h4]

/-- The loop over the nodes of a frame draws the curve from the previous node on. -/
theorem segments_ok (lin : Int → Rat) (cs : List Node) (prev : Node) (gains : Int → Rat) (last : Node) (g : Int → Rat)
    (h : segments lin cs prev gains = .ok (true, last, g)) :
    Ordered (pt lin prev) (cs.map (pt lin)) ∧ pt lin last = lastPt (pt lin prev) (cs.map (pt lin)) ∧
      (cs ≠ [] → last.time < 1024) ∧ (cs = [] → last = prev) ∧
      (∀ i, i - 2560 < prev.time → g i = gains i) ∧
      ∀ i, prev.time ≤ i - 2560 → i - 2560 < last.time → g i = curve (pt lin prev) (cs.map (pt lin)) (i - 2560) := by
  induction cs generalizing prev gains with
  | nil =>
    simp only [segments, Res.ok.injEq, Prod.mk.injEq, true_and] at h
    obtain ⟨rfl, rfl⟩ := h
    exact ⟨trivial, rfl, fun h => absurd rfl h, fun _ => rfl, fun _ _ => rfl, fun i h1 h2 => by omega⟩
  | cons c cs ih =>
    rw [segments, Res.bind_eq_ok] at h
    obtain ⟨r, hr, h⟩ := h
    cases r with
    | none => simp at h
    | some g1 =>
      dsimp only at h
      obtain ⟨hd, hb, hs, hg1⟩ := interpolate_ok hr
      obtain ⟨ho, hl, hlt, hnil, hbefore, hin⟩ := ih c g1 h
      have hle := ordered_le _ _ ho
      rw [← hl] at hle
      simp only [pt] at hle
      refine ⟨⟨by simp only [pt]; omega, ho⟩, hl, ?_, by simp, ?_, ?_⟩
      · intro _
        by_cases hc : cs = []
        · rw [hnil hc]; omega
        · exact hlt hc
      · intro i hi
        rw [hbefore i (by omega), hg1, if_neg (by omega), if_neg (by omega)]
      · intro i h1 h2
        rw [List.map_cons]
        unfold curve
        by_cases h3 : i - 2560 < c.time
        · rw [if_pos (show i - 2560 < (pt lin c).1 from h3)]
          simp only [pt]
          rw [hbefore i h3, hg1, if_pos ⟨by omega, by omega⟩]
          have : i - (2560 + prev.time) = i - 2560 - prev.time := by omega
          rw [this]
        · rw [if_neg (show ¬ i - 2560 < (pt lin c).1 from h3)]
          exact hin i (by omega) h2

/-! ## All frames -/

/-- The first point of the curve: 0 dB, one frame before the first frame. -/
def start (lin : Int → Rat) : Int × Rat := (-1024, lin 0)

/-- What a gain buffer holds after frame number `k`: index `i` is time `i - 2560` relative to the
beginning of the frame. -/
structure Holds (lin : Int → Rat) (k : Int) (pts : List (Int × Rat)) (b : Buf) : Prop where
  ordered : Ordered (start lin) pts
  last : lastPt (start lin) pts = (1024 * k + b.str.time, lin b.str.gain)
  time : b.str.time < 1024
  gains : ∀ i, 0 ≤ i → i < 3584 → 1024 * k + (i - 2560) < 1024 * k + b.str.time →
    b.gains i = if 1024 * k + (i - 2560) < -1024 then 1 else curve (start lin) pts (1024 * k + (i - 2560))

theorem holds_new (lin : Int → Rat) : Holds lin (-1) [] newBuf :=
  ⟨trivial, by simp [lastPt, start, newBuf], by simp [newBuf], fun i h0 h1 h2 => by
    simp only [newBuf] at h2 ⊢
    rw [if_pos (by omega)]⟩

/-- The nodes of frame number `k` as points of the curve. -/
def framePts (lin : Int → Rat) (k : Int) (s : Spline) : List (Int × Rat) :=
  (s.nodes.take s.n.toNat).map fun c => (1024 * k + c.time, lin c.gain)

theorem holds_step (lin : Int → Rat) (k : Int) (pts : List (Int × Rat)) (b b' : Buf) (s : Spline) (hn : 1 ≤ s.n)
    (h : Holds lin k pts b) (hc : concat lin s (advance b) = .ok (true, b')) :
    Holds lin (k + 1) (pts ++ framePts lin (k + 1) s) b' := by
  unfold concat at hc
  split at hc
  · simp at hc
  rename_i hlen
  rw [Res.bind_eq_ok] at hc
  obtain ⟨⟨ok, last, g⟩, hseg, hc⟩ := hc
  dsimp only at hc
  cases ok with
  | false => simp at hc
  | true =>
    rw [if_pos rfl, if_neg (by omega)] at hc
    simp only [Res.ok.injEq, Prod.mk.injEq, true_and] at hc
    subst hc
    obtain ⟨ho, hl, hlt, hnil, hbefore, hin⟩ := segments_ok lin _ _ _ _ _ hseg
    have hne : s.nodes.take s.n.toNat ≠ [] := by
      intro he
      rcases List.take_eq_nil_iff.mp he with h0 | h0
      · omega
      · rw [h0] at hlen
        simp at hlen
        omega
    have hfp : framePts lin (k + 1) s = ((s.nodes.take s.n.toNat).map (pt lin)).map (shift (1024 * (k + 1))) := by
      simp only [framePts, List.map_map]
      apply List.map_congr_left
      intro c _
      simp [pt, shift, Int.add_comm]
    have hprev : lastPt (start lin) pts = shift (1024 * (k + 1)) (pt lin (advance b).prev) := by
      rw [h.last]
      simp only [pt, shift, advance, Prod.mk.injEq, and_true]
      omega
    have ho' := ordered_shift (1024 * (k + 1)) _ _ ho
    refine ⟨?_, ?_, ?_, ?_⟩
    · refine ordered_append _ _ _ h.ordered ?_
      rw [hprev, hfp]
      exact ho'
    · rw [lastPt_append, hprev, hfp, lastPt_shift, ← hl]
      simp [pt, shift, Int.add_comm]
    · exact hlt hne
    · intro i h0 h1 h2
      dsimp only at h2 ⊢
      have h2 : i - 2560 < last.time := by omega
      by_cases h3 : i - 2560 < (advance b).prev.time
      · rw [hbefore i h3]
        simp only [advance] at h3 ⊢
        have ht := h.time
        rw [if_pos (by omega), h.gains (i + 1024) (by omega) (by omega) (by omega)]
        have he : 1024 * k + (i + 1024 - 2560) = 1024 * (k + 1) + (i - 2560) := by ring
        rw [he]
        split
        · rfl
        · rename_i h4
          rw [curve_append_lt]
          · simp only [start]; omega
          · rw [h.last]; dsimp only; omega
      · rw [hin i (by omega) h2]
        have h5 : ¬ 1024 * (k + 1) + (i - 2560) < -1024 := by
          have := ordered_le _ _ h.ordered
          rw [h.last] at this
          simp only [start] at this
          simp only [advance] at h3
          omega
        rw [if_neg h5, curve_append_ge _ _ _ _ h.ordered (by
          rw [h.last]
          simp only [advance] at h3
          dsimp only
          omega), hprev, hfp, Int.add_comm (1024 * (k + 1)), curve_shift]

end Verif.DrcGain
