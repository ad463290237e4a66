import Verif.Props.HoaSafe
import Verif.Model.HoaSide

/-! # C224, C225, C227 to C229: what frames of higher order ambisonics are read as -/

namespace Verif.Hoa

open Prog

/-- A part of the structure after a frame, and the bits not read. -/
def seen {β : Type} (f : Frame → β) (r : Res (Frame × List Bool)) : Res (β × List Bool) := r.map (fun p => (f p.1, p.2))

theorem seen_ub {r : Res (Frame × List Bool)} (h : seen (fun _ => ()) r = .ub) : r = .ub := by
  cases r with
  | ub => rfl
  | ok p => cases h
  | jump => cases h
  | err c => cases h

theorem seen_ok {β : Type} {f : Frame → β} {r : Res (Frame × List Bool)} {b : β} {l : List Bool} (h : seen f r = .ok (b, l)) :
    ∃ s, r = .ok (s, l) ∧ f s = b := by
  cases r with
  | ub => cases h
  | ok p =>
    simp only [seen, Res.map, Res.ok.injEq, Prod.mk.injEq] at h
    exact ⟨p.1, by rw [← h.2], h.1⟩
  | jump => cases h
  | err c => cases h

/-! ## C224 -/

/-- Order 6, one coefficient of the ambience always sent, vectors without the sent coefficients, 32 entries of codebooks. -/
def order6 : Config := ⟨2, 6, 0, [], 1, 0, 256, 0, 1, 2, 0, 7, 5, 1, 8⟩

def order6Bits : List Bool :=
  natBits 3 6 ++ [false] ++ [false] ++ natBits 3 1 ++ [false] ++ natBits 3 3 ++ [false] ++ natBits 2 1 ++ natBits 3 2 ++ natBits 2 0 ++ natBits 3 6 ++
    natBits 3 5 ++ natBits 2 0 ++ natBits 4 7 ++ [false, false, false, false]

/-- The first frame with a channel for the coefficient 49 of order 6, which is allowed, leaves the array of coefficients that fade in. -/
theorem C224_refuted : ∃ c l l2, (config 2 1024).run l = .ok (c, []) ∧ c.order = 6 ∧ c.max1 = c.order + 1 ∧ (frame c Frame.zero).run l2 = .ub :=
  ⟨order6, order6Bits, [true] ++ natBits 2 2 ++ natBits 2 1 ++ natBits 6 47, by decide, rfl, rfl, seen_ub (by decide +kernel)⟩

/-- An example for the theorem of safety: a configuration of order 3 and a frame. -/
example : (config 6 1024).run (natBits 3 3 ++ [false] ++ [false] ++ natBits 3 1 ++ [true] ++ natBits 3 3 ++ [false] ++ natBits 2 1 ++ natBits 3 2 ++
      natBits 2 0 ++ natBits 2 3 ++ natBits 3 5 ++ natBits 2 1 ++ natBits 4 7 ++ [false, false, false, false]) =
      .ok (⟨6, 3, 0, [], 1, 1, 256, 0, 1, 2, 0, 4, 5, 2, 8⟩, []) ∧
    After ⟨6, 3, 0, [], 1, 1, 256, 0, 1, 2, 0, 4, 5, 2, 8⟩ Frame.zero := ⟨by decide, .zero⟩

/-! ## C225: indices of codebooks -/

/-- Order 2, three channels with one for the ambience, complete vectors, prediction from two signals. -/
def order2 : Config := ⟨3, 2, 0, [], 1, 1, 256, 0, 0, 2, 0, 3, 2, 2, 8⟩

def order2Bits : List Bool :=
  natBits 3 2 ++ [false] ++ [false] ++ natBits 3 1 ++ [true] ++ natBits 3 3 ++ [false] ++ natBits 2 0 ++ natBits 3 2 ++ natBits 2 0 ++ natBits 2 2 ++
    natBits 2 2 ++ natBits 2 1 ++ natBits 4 7 ++ [false, false, false, false]

theorem order2_accepted : (config 3 1024).run order2Bits = .ok (order2, []) := by decide

/-- No gain of the frame before and none in this frame. -/
def noGain : List Bool := natBits 3 0 ++ [true, false]

/-- The vectors that a codebook has. -/
def entries (c : Config) (book : Nat) : Nat :=
  if book = 7 then (if c.order = 4 then 32 else (c.order + 1) ^ 2) else if book = 3 then 64 else if book = 1 ∨ book = 2 then 34 else 900

/-- A frame whose second channel has entry 16 of the codebook with 9 entries is accepted, and using it leaves the codebook, whatever is in it. -/
theorem C225_refuted : ∃ c l l2 s, (config 3 1024).run l = .ok (c, []) ∧ (frame c Frame.zero).run l2 = .ok (s, []) ∧ s.book 1 = 7 ∧ s.num 1 = 1 ∧
    entries c 7 < s.vvec 0 ∧ ∀ b : Books ℚ, sideVector id id c b ⟨fun _ => none, fun _ _ => 0⟩ s 1 = .ub := by
  obtain ⟨s, h1, h2⟩ := seen_ok (f := fun s => (s.book 1, s.num 1, s.vvec 0, s.nbits 1)) (b := (7, 1, 16, 4)) (l := [])
    (r := (frame order2 Frame.zero).run ([true] ++ natBits 2 3 ++ noGain ++ natBits 2 1 ++ natBits 4 4 ++ natBits 3 7 ++ natBits 2 0 ++ noGain ++ noGain ++
      natBits 4 15 ++ [true])) (by decide +kernel)
  simp only [Prod.mk.injEq] at h2
  obtain ⟨e1, e2, e3, e4⟩ := h2
  refine ⟨order2, order2Bits, _, s, order2_accepted, h1, e1, e2, by rw [e3]; decide, fun b => ?_⟩
  have : mapR (fun e => do
      let v ← bookGet order2 b (s.book 1) ((bookStride order2 (s.book 1) : Int) * ((s.vvec 0 : Int) - 1) + (e : Int) + (order2.start : Int))
      pure (v * sign (s.sgn 1 0))) order2.elems 0 = (.ub : Res (List ℚ)) := by
    rw [e1, e3, show order2.elems = 9 from rfl]
    unfold mapR
    rw [show bookGet order2 b 7 ((bookStride order2 7 : Int) * (((16 : Nat) : Int) - 1) + ((0 : Nat) : Int) + (order2.start : Int)) = .ub by
      unfold bookGet
      exact if_neg (show ¬ ((0 : Int) ≤ 135 ∧ (135 : Int) < 81) by decide)]
    rfl
  simp only [sideVector, e4, e2, if_true, ne_eq, not_true_eq_false, if_false, vqOne, this]
  rfl

theorem foldN_unit {f : Nat → Prog Unit} (k i : Nat) (l : List Bool) (l' : List Bool) (h : (foldN (fun j (_ : Unit) => f j) k i ()).run l = .ok ((), l')) :
    ∀ j, i ≤ j → j < i + k → ∃ l1 l2, (f j).run l1 = .ok ((), l2) := by
  induction k generalizing i l with
  | zero => intro j h1 h2; omega
  | succ k ih =>
    intro j h1 h2
    unfold Prog.foldN at h
    rw [run_bind, Res.bind_eq_ok] at h
    obtain ⟨⟨⟨⟩, l1⟩, e1, e2⟩ := h
    by_cases hj : j = i
    · subst hj
      exact ⟨l, l1, e1⟩
    · exact ih (i + 1) l1 e2 j (by omega) (by omega)

theorem Reads.of_run {α : Type} {p : Prog α} {R : α → List Bool → Prop} (h : Reads p R) {l l' : List Bool} {a : α} (e : p.run l = .ok (a, l')) : ∃ b, R a b := by
  obtain ⟨b, hb, -⟩ := (h l a l').mp e
  exact ⟨b, hb⟩

/-- What a loop keeps, from every successful round. -/
theorem fold_keeps {σ : Type} {f : Nat → σ → Prog σ} {P : σ → Prop} (k i : Nat)
    (h : ∀ j s l s' l', i ≤ j → j < i + k → P s → (f j s).run l = .ok (s', l') → P s') {s s' : σ} {l l' : List Bool}
    (e : (foldN f k i s).run l = .ok (s', l')) (hs : P s) : P s' := by
  induction k generalizing i s l with
  | zero => cases e; exact hs
  | succ k ih =>
    unfold Prog.foldN at e
    rw [run_bind, Res.bind_eq_ok] at e
    obtain ⟨⟨s1, l1⟩, e1, e2⟩ := e
    exact ih (i + 1) (fun j s l s' l' h1 h2 => h j s l s' l' (by omega) (by omega)) e2 (h i s l s1 l1 (by omega) (by omega) hs e1)

/-- The same with a condition that grows with the rounds. -/
theorem fold_grows {σ : Type} {f : Nat → σ → Prog σ} (P : Nat → σ → Prop) (k i : Nat)
    (h : ∀ j s l s' l', i ≤ j → j < i + k → P j s → (f j s).run l = .ok (s', l') → P (j + 1) s') {s s' : σ} {l l' : List Bool}
    (e : (foldN f k i s).run l = .ok (s', l')) (hs : P i s) : P (i + k) s' := by
  induction k generalizing i s l with
  | zero => cases e; exact hs
  | succ k ih =>
    unfold Prog.foldN at e
    rw [run_bind, Res.bind_eq_ok] at e
    obtain ⟨⟨s1, l1⟩, e1, e2⟩ := e
    have := ih (i + 1) (fun j s l s' l' h1 h2 => h j s l s' l' (by omega) (by omega)) e2 (h i s l s1 l1 (by omega) (by omega) hs e1)
    rwa [show i + 1 + k = i + (k + 1) by omega] at this

theorem pair_grows {c : Config} {ch idx j : Nat} {s s' : Frame} {l l' : List Bool} (e : (indexPair c ch idx j s).run l = .ok (s', l'))
    (h : ∀ i < j, 1 ≤ s.vvec i) : (s'.book = s.book ∧ s'.num = s.num) ∧ ∀ i < j + 1, 1 ≤ s'.vvec i := by
  unfold indexPair at e
  simp only [run_bind, Res.bind_eq_ok] at e
  obtain ⟨⟨v, l1⟩, -, ⟨g, l2⟩, -, ⟨⟨⟩, l3⟩, -, e⟩ := e
  cases e
  refine ⟨⟨rfl, rfl⟩, fun i hi => ?_⟩
  simp only [upd]
  split
  · omega
  · exact h i (by omega)

/-- If the channels up to the number of indices use the same codebook as the vector, all indices are those of vectors that the codebook has. -/
theorem C225_index_partial {c : Config} {ch idx : Nat} {s s' : Frame} {l l' : List Bool} (e : (vqData c ch idx s).run l = .ok (s', l'))
    (hnum : 1 ≤ s.num ch) (hb : s.book ch ∈ [0, 1, 2, 3, 7]) (hall : ∀ j < s.num ch, s.book j = s.book ch) :
    ∀ j < s.num ch, 1 ≤ s'.vvec j ∧ s'.vvec j ≤ entries c (s.book ch) := by
  unfold vqData at e
  simp only [run_bind, Res.bind_eq_ok] at e
  obtain ⟨⟨⟨⟩, l1⟩, -, ⟨s2, l2⟩, e2, ⟨⟨⟩, l3⟩, e3, e4⟩ := e
  have h2 : (s2.book = s.book ∧ s2.num = s.num) ∧ ∀ i < s.num ch, 1 ≤ s2.vvec i := by
    by_cases hn : s.num ch ≠ 1
    · simp only [if_pos hn, run_bind, Res.bind_eq_ok] at e2
      obtain ⟨⟨w, l4⟩, -, e2⟩ := e2
      have := fold_grows (fun j (t : Frame) => (t.book = s.book ∧ t.num = s.num) ∧ ∀ i < j, 1 ≤ t.vvec i) (s.num ch) 0
        (fun j t l t' l' _ _ ht e => by
          obtain ⟨⟨h1, h2⟩, h3⟩ := pair_grows e ht.2
          exact ⟨⟨h1.trans ht.1.1, h2.trans ht.1.2⟩, h3⟩) e2 ⟨⟨rfl, rfl⟩, fun i hi => by omega⟩
      rwa [Nat.zero_add] at this
    · simp only [if_neg hn] at e2
      obtain ⟨h1, h3⟩ := pair_grows e2 (fun i hi => by omega)
      exact ⟨h1, fun i hi => h3 i (by omega)⟩
  have h5 : s'.vvec = s2.vvec := by
    refine fold_keeps (P := fun t => t.vvec = s2.vvec) _ _ (fun j t l t' l' _ _ ht e => ?_) e4 rfl
    simp only [run_bind, Res.bind_eq_ok] at e
    obtain ⟨⟨b, l5⟩, -, ⟨⟨⟩, l6⟩, -, e⟩ := e
    cases e
    exact ht
  intro j hj
  rw [h5]
  refine ⟨h2.2 j hj, ?_⟩
  obtain ⟨k1, k2, ek⟩ := foldN_unit _ _ _ _ e3 j (by omega) (by rw [h2.1.2]; omega)
  unfold checkIndex at ek
  simp only [run_bind, Res.bind_eq_ok] at ek
  obtain ⟨⟨⟨⟩, k3⟩, -, ek⟩ := ek
  rw [h2.1.1, hall j hj] at ek
  generalize s.book ch = k at ek hb
  unfold indexLimit at ek
  unfold entries
  simp only [List.mem_cons, List.not_mem_nil, or_false] at hb
  have fin : ∀ {m : Nat}, ((if m < s2.vvec j then Prog.fail (.other 0xFFFF920F) else Pure.pure ()) : Prog Unit).run k3 = .ok ((), k2) → s2.vvec j ≤ m := by
    intro m hm
    by_contra hlt
    rw [if_pos (by omega)] at hm
    cases hm
  rcases hb with rfl | rfl | rfl | rfl | rfl
  · exact fin ek
  · exact fin ek
  · exact fin ek
  · exact fin ek
  · simp only [Nat.reduceEqDiff, if_false, if_true, or_self, OfNat.ofNat_ne_zero] at ek ⊢
    split_ifs at ek ⊢
    · exact fin ek
    · have := fin ek
      unfold Config.coeffs at this
      rw [pow_two]
      exact this

theorem mapR_ok {β : Type} {f : Nat → Res β} (n i : Nat) (h : ∀ j, i ≤ j → j < i + n → ∃ v, f j = .ok v) : ∃ l, mapR f n i = .ok l := by
  induction n generalizing i with
  | zero => exact ⟨[], rfl⟩
  | succ n ih =>
    obtain ⟨v, hv⟩ := h i (by omega) (by omega)
    obtain ⟨l, hl⟩ := ih (i + 1) (fun j h1 h2 => h j (by omega) (by omega))
    exact ⟨v :: l, by unfold mapR; rw [hv, Res.ok_bind, hl]; rfl⟩

/-- A vector that is one entry of a codebook is inside it if its index is that of an entry. -/
theorem C225_use_partial {α : Type} [Field α] {c : Config} (ho : c.order ≤ 6) {s : Frame} {ch : Nat} (hb : s.book ch ∈ [0, 1, 2, 3, 7])
    (h1 : 1 ≤ s.vvec 0) (h2 : s.vvec 0 ≤ entries c (s.book ch)) (b : Books α) : ∃ v, vqOne c b s ch = .ok v := by
  unfold vqOne
  refine mapR_ok _ _ fun e _ he => ?_
  have hs : e + c.start < c.coeffs := by unfold Config.elems at he; omega
  have hc := sq_le_49 ho
  have hcc : c.coeffs = (c.order + 1) * (c.order + 1) := rfl
  generalize s.book ch = k at hb h2
  obtain ⟨x, hx⟩ : ∃ x, s.vvec 0 = x + 1 := ⟨s.vvec 0 - 1, by omega⟩
  rw [hx] at h2 ⊢
  have key : (x * bookStride c k + e + c.start) < bookSize c k ∧ (bookArray c b k).2 = 0 := by
    unfold entries at h2
    simp only [List.mem_cons, List.not_mem_nil, or_false] at hb
    rcases hb with rfl | rfl | rfl | rfl | rfl
    · refine ⟨?_, rfl⟩
      simp only [bookStride, bookSize, Nat.reduceEqDiff, if_false, OfNat.zero_ne_ofNat, or_self, zero_ne_one] at h2 ⊢
      omega
    · refine ⟨?_, rfl⟩
      simp only [bookStride, bookSize, Nat.reduceEqDiff, if_false, if_true, OfNat.one_ne_ofNat, true_or] at h2 ⊢
      omega
    · refine ⟨?_, rfl⟩
      simp only [bookStride, bookSize, Nat.reduceEqDiff, if_false, if_true, or_true] at h2 ⊢
      omega
    · refine ⟨?_, rfl⟩
      simp only [bookStride, bookSize, Nat.reduceEqDiff, if_false, if_true] at h2 ⊢
      omega
    · refine ⟨?_, rfl⟩
      simp only [bookStride, bookSize, if_true] at h2 ⊢
      have h7 : c.order = 0 ∨ c.order = 1 ∨ c.order = 2 ∨ c.order = 3 ∨ c.order = 4 ∨ c.order = 5 ∨ c.order = 6 := by omega
      rcases h7 with h | h | h | h | h | h | h <;> rw [h] at h2 hcc ⊢ <;> simp [invSize] at h2 hcc ⊢ <;> rw [hcc] at hs ⊢ <;> omega
  obtain ⟨k1, k2⟩ := key
  unfold bookGet
  simp only [k2]
  rw [if_pos]
  · exact ⟨_, rfl⟩
  · push_cast
    constructor
    · have := Int.mul_nonneg (Int.natCast_nonneg (bookStride c k)) (Int.natCast_nonneg x)
      have h0 : ((bookStride c k : Int) * ((x : Int) + 1 - 1)) = (bookStride c k : Int) * (x : Int) := by ring
      rw [h0]
      omega
    · have h0 : ((bookStride c k : Int) * ((x : Int) + 1 - 1)) = ((x * bookStride c k : Nat) : Int) := by push_cast; ring
      rw [h0]
      omega

/-- The first channel of a frame with one entry of the codebook of 34 vectors. -/
example : ∃ s, (vqData order2 0 0 { Frame.zero with book := fun _ => 1, num := fun _ => 1 }).run (natBits 6 33 ++ [true]) = .ok (s, []) ∧ s.vvec 0 = 34 :=
  seen_ok (f := fun s => s.vvec 0) (by decide +kernel)

/-! ## C227, C228: prediction from directional signals -/

/-- A frame that predicts a coefficient from the second signal only: the gain, 77, is not read, and the one used is 0. -/
theorem C227_refuted : ∃ c l l2 s, (config 3 1024).run l = .ok (c, []) ∧ (frame c Frame.zero).run l2 = .ok (s, natBits 8 77) ∧
    (∀ p, (sidePreds c s p).ids 1 0 = 1 ∧ (sidePreds c s p).facts 1 0 = 0) := by
  obtain ⟨s, h1, h2⟩ := seen_ok (f := fun s => (s.predOn, (List.range 9).map s.active, s.predIds 0, s.predIds 1, s.gains 0)) (b := (1, [1, 0, 0, 0, 0, 0, 0, 0, 0], 0, 1, 0)) (l := natBits 8 77)
    (r := (frame order2 Frame.zero).run ([true] ++ natBits 2 0 ++ natBits 10 5 ++ noGain ++ natBits 2 3 ++ noGain ++ noGain ++ [true] ++ [false] ++
      natBits 9 256 ++ natBits 1 0 ++ natBits 1 1 ++ natBits 8 77)) (by decide +kernel)
  simp only [Prod.mk.injEq] at h2
  obtain ⟨e1, e2, e3, e4, e5⟩ := h2
  simp only [List.range, List.range.loop, List.map, List.cons.injEq, and_true] at e2
  obtain ⟨a0, a1, a2, a3, a4, a5, a6, a7, a8⟩ := e2
  refine ⟨order2, order2Bits, _, s, order2_accepted, h1, fun p => ?_⟩
  have hc : order2.coeffs = 9 := rfl
  have hp : order2.predSigs = 2 := rfl
  simp [sidePreds, e1, hc, predColumns, hp, predRows, a0, a1, a2, a3, a4, a5, a6, a7, a8, e3, e4, e5, upd2]

/-- If signals come before the missing ones, the gains are those in the bits: the gain at `i` is the one coded for signal `i`. -/
theorem C227_gain_partial {c : Config} (hg : c.gainBits ≤ 24) (n : Nat) {s : Frame} (hid : ∀ i < n, 0 < s.predIds i) (hn : n ≤ 512) (gs : Nat → Nat)
    (hgs : ∀ i < n, gs i < 2 ^ c.gainBits) (l : List Bool) : ∃ s', (foldN (predGain c) n 0 s).run ((List.range n).flatMap (fun i => natBits c.gainBits (gs i)) ++ l) =
      .ok (s', l) ∧ (∀ i < n, s'.gains i = gs i) ∧ s'.predIds = s.predIds := by
  suffices h : ∀ k i (s : Frame), (∀ j, i ≤ j → j < i + k → 0 < s.predIds j ∧ gs j < 2 ^ c.gainBits) → i + k ≤ 512 → ∃ s',
      (foldN (predGain c) k i s).run ((List.range' i k).flatMap (fun i => natBits c.gainBits (gs i)) ++ l) = .ok (s', l) ∧
      (∀ j, i ≤ j → j < i + k → s'.gains j = gs j) ∧ (∀ j < i, s'.gains j = s.gains j) ∧ s'.predIds = s.predIds by
    obtain ⟨s', h1, h2, -, h3⟩ := h n 0 s (fun j _ hj => ⟨hid j (by omega), hgs j (by omega)⟩) (by omega)
    exact ⟨s', by rw [List.range_eq_range']; exact h1, fun i hi => h2 i (by omega) (by omega), h3⟩
  intro k
  induction k with
  | zero => exact fun i s _ _ => ⟨s, rfl, fun j h1 h2 => by omega, fun _ _ => rfl, rfl⟩
  | succ k ih =>
    intro i s h hi
    obtain ⟨s', h1, h2, h3, h4⟩ := ih (i + 1) { s with gains := upd s.gains i (gs i) } (fun j h1 h2 => h j (by omega) (by omega)) (by omega)
    refine ⟨s', ?_, fun j hj1 hj2 => ?_, fun j hj => ?_, h4⟩
    · unfold Prog.foldN
      rw [run_bind, List.range'_succ, List.flatMap_cons, List.append_assoc]
      have : (predGain c i s).run (natBits c.gainBits (gs i) ++ ((List.range' (i + 1) k).flatMap (fun i => natBits c.gainBits (gs i)) ++ l)) =
          .ok ({ s with gains := upd s.gains i (gs i) }, (List.range' (i + 1) k).flatMap (fun i => natBits c.gainBits (gs i)) ++ l) := by
        unfold predGain
        rw [if_pos (h i (by omega) (by omega)).1, run_bind, inside, if_pos (by omega)]
        simp only [run_pure, Res.ok_bind]
        rw [run_bind, ((Reads.bits c.gainBits) _ _ _).mpr ⟨_, ⟨by omega, (h i (by omega) (by omega)).2, rfl⟩, rfl⟩]
        rfl
      rw [this, Res.ok_bind]
      exact h1
    · by_cases hj : j = i
      · subst hj
        rw [h3 j (by omega)]
        simp [upd]
      · exact h2 j (by omega) (by omega)
    · rw [h3 j (by omega)]
      simp only [upd]
      rw [if_neg (by omega)]

/-- The rows of a coefficient take the gains one after the other. -/
theorem rows_gain {s : Frame} {d : Nat} (n row : Nat) (p : Preds) (a : Nat) (h : ∀ i, a ≤ i → i < a + n → 0 < s.predIds i) :
    (predRows s d n row p a a).2 = (a + n, a + n) ∧
    (∀ j, row ≤ j → j < row + n → (predRows s d n row p a a).1.facts j d = s.gains (a + (j - row)) ∧
      (predRows s d n row p a a).1.ids j d = s.predIds (a + (j - row))) ∧
    ∀ j < row, (predRows s d n row p a a).1.facts j d = p.facts j d ∧ (predRows s d n row p a a).1.ids j d = p.ids j d := by
  induction n generalizing row p a with
  | zero => exact ⟨rfl, fun j h1 h2 => by omega, fun j _ => ⟨rfl, rfl⟩⟩
  | succ n ih =>
    unfold predRows
    rw [if_pos (by have := h a (by omega) (by omega); omega)]
    obtain ⟨h1, h2, h3⟩ := ih (row + 1) { p with ids := upd2 p.ids row d (s.predIds a), facts := upd2 p.facts row d (s.gains a) } (a + 1)
      (fun i h1 h2 => h i (by omega) (by omega))
    refine ⟨by rw [h1]; congr 1 <;> omega, fun j hj1 hj2 => ?_, fun j hj => ?_⟩
    · by_cases hj : j = row
      · subst hj
        have := h3 j (by omega)
        rw [this.1, this.2]
        simp [upd2]
      · have := h2 j (by omega) (by omega)
        rw [this.1, this.2, show a + 1 + (j - (row + 1)) = a + (j - row) by omega]
        exact ⟨rfl, rfl⟩
    · have := h3 j (by omega)
      rw [this.1, this.2]
      simp only [upd2]
      rw [if_neg (by omega), if_neg (by omega)]
      exact ⟨rfl, rfl⟩

/-- If all signals of a coefficient are there and those before were, the factors of the coefficient are the gains read for its signals. -/
theorem C227_use_partial (c : Config) (s : Frame) (p : Preds) (d a : Nat) (h : ∀ i, a ≤ i → i < a + c.predSigs → 0 < s.predIds i) (j : Nat)
    (hj : j < c.predSigs) : (predRows s d c.predSigs 0 p a a).1.facts j d = s.gains (a + j) ∧
      (predRows s d c.predSigs 0 p a a).1.ids j d = s.predIds (a + j) ∧ (predRows s d c.predSigs 0 p a a).2 = (a + c.predSigs, a + c.predSigs) := by
  obtain ⟨h1, h2, -⟩ := rows_gain (s := s) (d := d) c.predSigs 0 p a h
  have := h2 j (by omega) (by omega)
  exact ⟨this.1, this.2, h1⟩

example : ∃ s', (foldN (predGain order2) 2 0 { Frame.zero with predIds := fun _ => 1 }).run (natBits 8 77 ++ natBits 8 5) = .ok (s', []) ∧
    (s'.gains 0, s'.gains 1) = (77, 5) := seen_ok (f := fun s => (s.gains 0, s.gains 1)) (by decide +kernel)

/-- The structure after a frame that was read. -/
def result (r : Res (Frame × List Bool)) : Frame :=
  match r with
  | .ok p => p.1
  | _ => Frame.zero

theorem seen_result {r : Res (Frame × List Bool)} {l : List Bool} (h : seen (fun _ => ()) r = .ok ((), l)) : r = .ok (result r, l) := by
  obtain ⟨s, rfl, -⟩ := seen_ok h
  rfl

/-- A frame that predicts the first coefficient from channel 1. -/
def predicting : List Bool :=
  [true] ++ natBits 2 0 ++ natBits 10 5 ++ noGain ++ natBits 2 3 ++ noGain ++ noGain ++ [true] ++ [false] ++ natBits 9 256 ++ natBits 1 1 ++ natBits 1 1 ++
    natBits 8 77 ++ natBits 8 5

/-- A frame with a prediction and then one without directional signals: the second one is predicted like the first, from channel 1, which is empty. -/
theorem C228_refuted : ∃ c l l1 l2 s1 s2, (config 3 1024).run l = .ok (c, []) ∧ (frame c Frame.zero).run l1 = .ok (s1, []) ∧
    (frame c s1).run l2 = .ok (s2, []) ∧ s2.numDir = 0 ∧ s2.ctype 0 = 3 ∧ (∀ p, (sidePreds c s2 p).kind 0 = 1 ∧ (sidePreds c s2 p).ids 0 0 = 1) := by
  have h0 := seen_result (r := (frame order2 Frame.zero).run predicting) (l := []) (by decide +kernel)
  obtain ⟨s, h1, h2⟩ := seen_ok (f := fun s => [s.numDir, s.ctype 0, s.predOn, s.predIds 0, s.predIds 1] ++ (List.range 9).map s.active)
    (b := [0, 3, 1, 1, 1, 1, 0, 0, 0, 0, 0, 0, 0, 0]) (l := [])
    (r := (frame order2 (result ((frame order2 Frame.zero).run predicting))).run ([true] ++ natBits 2 3 ++ noGain ++ natBits 2 3 ++ noGain ++ noGain))
    (by decide +kernel)
  simp only [List.range, List.range.loop, List.map, List.cons_append, List.nil_append, List.cons.injEq, and_true] at h2
  obtain ⟨e1, e2, e3, e4, e5, a0, a1, a2, a3, a4, a5, a6, a7, a8⟩ := h2
  refine ⟨order2, order2Bits, _, _, _, s, order2_accepted, h0, h1, e1, e2, fun p => ?_⟩
  have hc : order2.coeffs = 9 := rfl
  have hp : order2.predSigs = 2 := rfl
  simp [sidePreds, e3, hc, predColumns, hp, predRows, a0, a1, a2, a3, a4, a5, a6, a7, a8, e4, e5, upd2, upd]

/-- With directional signals and prediction configured, the flag of the frame is the one in the bits; without the flag nothing is predicted. -/
theorem C228_flag_partial {c : Config} {s s' : Frame} {l l' : List Bool} (hc : c.single = 1) (hd : 0 < s.numDir)
    (e : (prediction c s).run (false :: l) = .ok (s', l')) : s'.predOn = 0 ∧ l' = l ∧ ∀ p d, d < c.coeffs → (sidePreds c s' p).kind d = 0 := by
  unfold prediction at e
  rw [if_pos ⟨hc, hd⟩, run_bits_one] at e
  simp only [Bool.toNat_false, ne_eq, not_true_eq_false, if_false] at e
  cases e
  refine ⟨rfl, rfl, fun p d h => ?_⟩
  simp [sidePreds, h]

/-- Without prediction configured, the flag stays as it was at the start: nothing is predicted. -/
theorem C228_single_partial {c : Config} (hc : c.single ≠ 1) (s : Frame) (l : List Bool) : (prediction c s).run l = .ok (s, l) := by
  unfold prediction
  rw [if_neg (fun h => hc h.1)]
  rfl

example : ∃ s', (prediction order2 { Frame.zero with numDir := 1, predOn := 1 }).run [false] = .ok (s', []) ∧ s'.predOn = 0 :=
  seen_ok (f := fun s => s.predOn) (by decide +kernel)

end Verif.Hoa
