import Verif.Props.HoaFade

/-! # Vectors that end, channels that are cleared, coefficients that do not exist: more on C240, C243 and C245 -/

namespace Verif.Hoa

variable {α : Type} [Field α]

/-- **C243** (partial) What is heard of a vector that is not followed by another one in its channel: nothing if the channel is not used any more; and if its entry in the list of vectors was
written over by another one while the channel has a direction, it is faded out over the whole frame. -/
theorem C243_ended_partial (u : Setup α) (c : Config) (s0 s : Frame) {vs0 vs : List (Nat × (Nat → α))} (e0 : VecsOf c s0 vs0) (e1 : VecsOf c s vs) (y : Syn α)
    (sig : Nat → Nat → α) {ch : Nat} {v0 : Nat → α} (m0 : (ch + 1, v0) ∈ vs0) (m1 : ∀ v ∈ vs, v.1 ≠ ch + 1) {k : Nat} (hk : c.start ≤ k)
    (h0 : k + 1 ∉ inState c s0 1) (h1 : k + 1 ∉ inState c s 1) (h2 : k + 1 ∉ inState c s 2) (n : Nat) :
    ((∀ i < 16, soundSet ((directions c s).map Prod.snd) (vs.map Prod.fst) i ≠ ch + 1) → vecPart u c s vs (keepSyn c s0 vs0 y) (only (ch + 1) sig) k n = 0) ∧
    ((∃ i < 16, soundSet ((directions c s).map Prod.snd) (vs.map Prod.fst) i = ch + 1) → (∀ i < 16, storeVecs vs (keepSyn c s0 vs0 y).vecIdx i ≠ ch + 1) →
      vecPart u c s vs (keepSyn c s0 vs0 y) (only (ch + 1) sig) k n = sig ch n * v0 (k - c.start) * u.outDir n) := by
  have hk0 : kept c (sortSet (inState c s0 1)) v0 (k - c.start) = v0 (k - c.start) := by
    unfold kept
    rw [if_neg]
    rw [show k - c.start + c.start + 1 = k + 1 by omega, (C232_sorted _).2]
    exact fun h => h0 h.2
  have hv : vecField u c (soundSet ((directions c s).map Prod.snd) (vs.map Prod.fst)) (storeVecs vs (keepSyn c s0 vs0 y).vecIdx) (keepSyn c s0 vs0 y).prevSet (only (ch + 1) sig)
      (keepSyn c s0 vs0 y).prevVecs vs k n =
      v0 (k - c.start) * oldWin u c (soundSet ((directions c s).map Prod.snd) (vs.map Prod.fst)) (storeVecs vs (keepSyn c s0 vs0 y).vecIdx) (ch + 1) n * sig ch n := by
    unfold vecField
    rw [if_neg (by omega)]
    show ((keepVecs c (sortSet (inState c s0 1)) vs0).map _).sum + _ = _
    rw [keepVecs_eq, List.map_map, e0.sum m0 _ (fun w hw hne => by
        have hp : 0 < w.1 := e0.pos hw
        simp only [Function.comp]
        exact vecTerm_only_other (v := (w.1, kept c (sortSet (inState c s0 1)) w.2)) sig _ hp hne _ n)]
    have hz : (vs.map (fun v => vecTerm (only (ch + 1) sig) (newWin u (keepSyn c s0 vs0 y).prevSet v.1) v (k - c.start) n)).sum = 0 := by
      rw [List.map_congr_left (g := fun _ => (0 : α)) (fun v hv => vecTerm_only_other sig _ (e1.pos hv) (m1 v hv) _ n)]
      simp
    rw [hz]
    simp only [Function.comp]
    rw [vecTerm_only_same, hk0, add_zero]
  have hp : vecPart u c s vs (keepSyn c s0 vs0 y) (only (ch + 1) sig) k n =
      v0 (k - c.start) * oldWin u c (soundSet ((directions c s).map Prod.snd) (vs.map Prod.fst)) (storeVecs vs (keepSyn c s0 vs0 y).vecIdx) (ch + 1) n * sig ch n := by
    unfold vecPart
    split
    · rw [fade_other (fun h => h2 (((C232_sorted _).2 _).mp h)), fade_other (fun h => h1 (((C232_sorted _).2 _).mp h))]
      exact hv
    · exact hv
  rw [hp]
  constructor
  · intro hs
    have : ¬ listed (soundSet ((directions c s).map Prod.snd) (vs.map Prod.fst)) (ch + 1) = true := by
      unfold listed
      rw [List.any_eq_true]
      rintro ⟨i, hi, h⟩
      exact hs i (List.mem_range.mp hi) (by simpa using h)
    unfold oldWin
    rw [if_neg this]
    ring
  · rintro ⟨j, hj, hs⟩ hn
    have a1 : listed (soundSet ((directions c s).map Prod.snd) (vs.map Prod.fst)) (ch + 1) = true := by
      unfold listed
      rw [List.any_eq_true]
      exact ⟨j, List.mem_range.mpr hj, by simpa using hs⟩
    have a2 : ¬ listed (storeVecs vs (keepSyn c s0 vs0 y).vecIdx) (ch + 1) = true := by
      unfold listed
      rw [List.any_eq_true]
      rintro ⟨i, hi, h⟩
      exact hn i (List.mem_range.mp hi) (by simpa using h)
    unfold oldWin
    rw [if_pos a1, if_neg a2]
    ring

/-- **C245** The signals that directions, vectors and predictions are made of are those decoded in channels with a direction or a vector and in the channels of the smallest ambience;
additional channels of other kinds are silent. -/
theorem C245_cleared (c : Config) (s : Frame) (sig : Nat → Nat → α) (ch n : Nat) :
    (c.extra ≤ ch ∨ s.ctype ch = 0 ∨ s.ctype ch = 1 → cleared c s sig ch n = sig ch n) ∧ (ch < c.extra → s.ctype ch ≠ 0 → s.ctype ch ≠ 1 → cleared c s sig ch n = 0) := by
  unfold cleared
  constructor
  · rintro (h | h | h)
    · rw [if_neg (by omega)]
    · rw [if_neg (by omega)]
    · rw [if_neg (by omega)]
  · intro h1 h2 h3
    rw [if_pos ⟨h1, h2, h3⟩]

/-- **C240** With vectors that leave out coefficients of the ambience, a frame that starts or ends to send a coefficient above 49 multiplies memory that is not there; with coefficients up to
49 it does not. -/
theorem C240_range (u : Setup α) (c : Config) (s : Frame) (vs : List (Nat × (Nat → α))) (y : Syn α) (sig : Nat → Nat → α) :
    (c.vecKind = 1 → (∃ i, 49 < i ∧ (i ∈ inState c s 1 ∨ i ∈ inState c s 2)) → ∀ r, synth u c s vs y sig ≠ .ok r) ∧
    ((∀ i, i ∈ inState c s 1 ∨ i ∈ inState c s 2 → i ≤ 49) → ∀ f, reassign (assign c s y.assigned) c.transport 0 (fun _ => none) = .ok f →
      synth u c s vs y sig = .ok (outField u c s vs y f sig, keepSyn c s vs y)) := by
  have hany : ∀ m, (sortSet (inState c s m)).any (fun i => decide (49 < i)) = true ↔ ∃ i, 49 < i ∧ i ∈ inState c s m := by
    intro m
    rw [List.any_eq_true]
    constructor
    · rintro ⟨i, h1, h2⟩; exact ⟨i, by simpa using h2, ((C232_sorted _).2 _).mp h1⟩
    · rintro ⟨i, h1, h2⟩; exact ⟨i, ((C232_sorted _).2 _).mpr h2, by simpa using h1⟩
  constructor
  · rintro hc ⟨i, h1, h2⟩ r hr
    obtain ⟨o, z⟩ := r
    obtain ⟨f, -, h, -⟩ := synth_ok.mp hr
    unfold outside at h
    simp only [hc, decide_true, Bool.true_and, Bool.or_eq_false_iff] at h
    rcases h2 with h2 | h2
    · rw [(hany 1).mpr ⟨i, h1, h2⟩] at h; simp at h
    · rw [(hany 2).mpr ⟨i, h1, h2⟩] at h; simp at h
  · intro h f hf
    refine synth_ok.mpr ⟨f, hf, ?_, rfl, rfl⟩
    have n1 : (sortSet (inState c s 1)).any (fun i => decide (49 < i)) = false := by
      rw [← Bool.not_eq_true, hany]; rintro ⟨i, a, b⟩; have := h i (.inl b); omega
    have n2 : (sortSet (inState c s 2)).any (fun i => decide (49 < i)) = false := by
      rw [← Bool.not_eq_true, hany]; rintro ⟨i, a, b⟩; have := h i (.inr b); omega
    unfold outside
    simp only [n1, n2, Bool.or_false, Bool.and_false]

