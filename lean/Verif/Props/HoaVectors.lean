import Verif.Props.HoaFrame
import Mathlib.Data.Nat.Size
import Mathlib.Data.List.GetD

/-! # C226, C234, C235: vectors of higher order ambisonics -/

namespace Verif.Hoa

open Prog

/-- Order 1, three channels with one for the ambience, vectors without the coefficients always sent. -/
def order1 : Config := ⟨3, 1, 0, [], 1, 0, 256, 0, 1, 2, 0, 2, 1, 1, 8⟩

def order1Bits : List Bool :=
  natBits 3 1 ++ [false] ++ [false] ++ natBits 3 1 ++ [false] ++ natBits 3 3 ++ [false] ++ natBits 2 1 ++ natBits 3 2 ++ natBits 2 0 ++ natBits 1 1 ++
    natBits 2 1 ++ natBits 2 0 ++ natBits 4 7 ++ [false, false, false, false]

theorem order1_accepted : (config 3 1024).run order1Bits = .ok (order1, []) := by decide

/-- Empty codebooks and no nominators. -/
def noBooks : Books ℚ := ⟨fun _ => 0, fun _ => 0, fun _ => 0, fun _ => 0, fun _ => 0⟩
def noNoms : Noms ℚ := ⟨fun _ => none, fun _ _ => 0⟩

/-! ## Elements that are not sent -/

/-- An element is left out if its coefficient is sent as ambience without a change in this frame, or fades in and the vector is new. -/
def LeftOut (s : Frame) (ch k : Nat) : Bool := decide (s.nonTrans k ≠ 0) || (decide (s.newVec ch = 1) && decide (s.fadeIn k = 1))

theorem run_skipped {s : Frame} {idx k : Nat} (hi : idx < 49) (hk : k < 49) (l : List Bool) : (skipped s idx k).run l = .ok (LeftOut s idx k, l) := by
  unfold skipped LeftOut
  rw [inside, if_pos (by omega), inside, if_pos hi, inside, if_pos hk]
  by_cases h1 : s.nonTrans k ≠ 0
  · simp [run_bind, h1]
  · by_cases h2 : s.newVec idx = 1
    · simp [run_bind, h1, h2]
    · simp [run_bind, h1, h2]

/-- A frame with the coefficient 2 fading in on the first channel and a new vector of 8 bit words on the second: the word of coefficient 2 is read, although it
is not to be sent, as the first channel has no new vector. -/
theorem C234_refuted : ∃ c l l2 s, (config 3 1024).run l = .ok (c, []) ∧ (frame c Frame.zero).run (l2 ++ natBits 8 11 ++ natBits 8 22 ++ natBits 8 33) = .ok (s, []) ∧
    s.vecs = [2] ∧ s.nbits 1 = 5 ∧ c.offset = 2 ∧ LeftOut s 1 2 = true ∧ s.word8 0 0 = 11 ∧
    seen (fun _ => ()) ((frame c Frame.zero).run (l2 ++ natBits 8 22 ++ natBits 8 33)) = .jump := by
  obtain ⟨s, h1, h2⟩ := seen_ok (f := fun s => (s.vecs, s.nbits 1, LeftOut s 1 2, s.word8 0 0)) (b := ([2], 5, true, 11)) (l := [])
    (r := (frame order1 Frame.zero).run (([true] ++ natBits 2 2 ++ natBits 2 1 ++ natBits 2 0 ++ noGain ++ natBits 2 1 ++ natBits 1 1 ++ natBits 4 5 ++ noGain ++
      noGain) ++ natBits 8 11 ++ natBits 8 22 ++ natBits 8 33)) (by decide +kernel)
  simp only [Prod.mk.injEq] at h2
  exact ⟨order1, order1Bits, _, s, order1_accepted, h1, h2.1, h2.2.1, rfl, h2.2.2.1, h2.2.2.2, by decide +kernel⟩

/-- If the channels of vectors are the first ones, the data of each vector are read with the number of its channel. -/
def ownData (c : Config) : (n ch : Nat) → Frame → Prog Frame
  | 0, _, s => pure s
  | n + 1, ch, s => do
    let s ← vectorData c ch ch s
    ownData c n (ch + 1) s

theorem C234_order_partial (c : Config) (n i : Nat) (s : Frame) : vectors c (List.range' (i + 1) n) i s = ownData c n i s := by
  induction n generalizing i s with
  | zero => rfl
  | succ n ih =>
    rw [List.range'_succ]
    unfold vectors ownData
    rw [Nat.add_sub_cancel]
    congr 1
    funext s'
    exact ih (i + 1) s'

example : vectors order1 [1, 2] 0 Frame.zero = ownData order1 2 0 Frame.zero := C234_order_partial order1 2 0 Frame.zero

/-! ## C226: values of vectors -/

/-- With an empty first channel, the words of the vector of the second one are not used: 192, which is 1/2, becomes -1, times the order plus 1. -/
theorem C226_refuted : ∃ c l l2 s, (config 3 1024).run l = .ok (c, []) ∧
    (frame c Frame.zero).run (l2 ++ natBits 8 192 ++ natBits 8 192 ++ natBits 8 192) = .ok (s, []) ∧ s.nbits 1 = 5 ∧
    (sideVector id id c noBooks noNoms s 1).map Prod.fst = .ok [-2, -2, -2] := by
  have h0 := seen_result (r := (frame order1 Frame.zero).run (([true] ++ natBits 2 3 ++ noGain ++ natBits 2 1 ++ natBits 1 1 ++ natBits 4 5 ++ noGain ++ noGain) ++
    natBits 8 192 ++ natBits 8 192 ++ natBits 8 192)) (l := []) (by decide +kernel)
  exact ⟨order1, order1Bits, _, _, order1_accepted, h0, by decide +kernel, by decide +kernel⟩

/-- The same for Huffman coded elements: the coded 5, times 2 to the power of 10, is decoded as -5. -/
theorem C226_sign_refuted : ∃ c l l2 s, (config 3 1024).run l = .ok (c, []) ∧
    (frame c Frame.zero).run (l2 ++ ((wordOf (huffTable 6 5) 3).getD [] ++ [true] ++ natBits 2 1) ++ ((wordOf (huffTable 6 5) 3).getD [] ++ [true] ++ natBits 2 1) ++
      ((wordOf (huffTable 6 5) 3).getD [] ++ [true] ++ natBits 2 1)) = .ok (s, []) ∧ s.nbits 1 = 6 ∧
    (sideVector id id c noBooks noNoms s 1).map Prod.snd = .ok [-5 * 2 ^ 10, -5 * 2 ^ 10, -5 * 2 ^ 10] := by
  have h0 := seen_result (r := (frame order1 Frame.zero).run (([true] ++ natBits 2 3 ++ noGain ++ natBits 2 1 ++ natBits 1 1 ++ natBits 4 6 ++ natBits 1 0 ++ noGain ++
    noGain) ++ ((wordOf (huffTable 6 5) 3).getD [] ++ [true] ++ natBits 2 1) ++ ((wordOf (huffTable 6 5) 3).getD [] ++ [true] ++ natBits 2 1) ++
      ((wordOf (huffTable 6 5) 3).getD [] ++ [true] ++ natBits 2 1))) (l := []) (by decide +kernel)
  exact ⟨order1, order1Bits, _, _, order1_accepted, h0, by decide +kernel, by decide +kernel⟩

/-- The elements of a vector are inside the arrays up to order 5. -/
theorem element_place {c : Config} (ho : c.order ≤ 5) (ha : c.amb1 ≤ c.order + 1) {k : Nat} (hk : k < c.vecLength) :
    1 ≤ c.offset + k ∧ c.offset + k < 49 ∧ k < 49 := by
  have h1 : c.coeffs ≤ 36 := by
    have : (c.order + 1) * (c.order + 1) ≤ 6 * 6 := Nat.mul_le_mul (by omega) (by omega)
    exact this
  have h2 : c.minCoeffs ≤ c.coeffs := Nat.mul_le_mul ha ha
  have h3 : 1 ≤ c.offset := by unfold Config.offset; split_ifs <;> omega
  unfold Config.vecLength at hk
  omega

theorem elems_length {c : Config} (hk : c.vecKind < 3) : c.elems = c.vecLength := by
  unfold Config.elems Config.vecLength Config.start Config.offset
  have : c.vecKind = 0 ∨ c.vecKind = 1 ∨ c.vecKind = 2 := by omega
  rcases this with h | h | h <;> simp [h]

/-- A loop that reads the codes of the elements of a list one after the other. -/
theorem fold_codes {σ : Type} {f : Nat → σ → Prog σ} (P : Nat → σ → Prop) (code : Nat → List Bool) (k i : Nat)
    (h : ∀ j s l, i ≤ j → j < i + k → P j s → ∃ s', (f j s).run (code j ++ l) = .ok (s', l) ∧ P (j + 1) s') (s : σ) (hs : P i s) (l : List Bool) :
    ∃ s', (foldN f k i s).run ((List.range' i k).flatMap code ++ l) = .ok (s', l) ∧ P (i + k) s' := by
  induction k generalizing i s with
  | zero => exact ⟨s, rfl, hs⟩
  | succ k ih =>
    obtain ⟨s1, h1, h2⟩ := h i s ((List.range' (i + 1) k).flatMap code ++ l) (by omega) (by omega) hs
    obtain ⟨s2, h3, h4⟩ := ih (i + 1) (fun j s l h5 h6 => h j s l (by omega) (by omega)) s1 h2
    refine ⟨s2, ?_, by rwa [show i + (k + 1) = i + 1 + k by omega]⟩
    unfold Prog.foldN
    rw [run_bind, List.range'_succ, List.flatMap_cons, List.append_assoc, h1, Res.ok_bind, h3]

/-- Words of 8 bits that are read with the number of the channel give the coded vector: an element is the word over 128, less 1, and 0 if it was left out. -/
theorem C226_word_partial {α : Type} [Field α] [CharZero α] {c : Config} (ho : c.order ≤ 5) (ha : c.amb1 ≤ c.order + 1) (hk : c.vecKind < 3) {ch : Nat} (hch : ch < 16)
    (s : Frame) (v : Nat → Nat) (hv : ∀ k, v k < 256) (l : List Bool) : ∃ s', (wordData c ch s).run
      ((List.range c.vecLength).flatMap (fun k => if LeftOut s ch (c.offset + k) then [] else natBits 8 (v k)) ++ l) = .ok (s', l) ∧
    wordVector (α := α) c s' ch = (List.range c.vecLength).map (fun k => if LeftOut s ch (c.offset + k) then 0 else (v k : α) / 128 - 1) := by
  have hinit : (fun (i : Nat) (t : Frame) => (t.nonTrans = s.nonTrans ∧ t.newVec = s.newVec ∧ t.fadeIn = s.fadeIn) ∧
      ∀ k < i, t.word8 ch k = if LeftOut s ch (c.offset + k) then 128 else v k) 0 s := ⟨⟨rfl, rfl, rfl⟩, fun k hk => by omega⟩
  obtain ⟨s', h1, -, h2⟩ := fold_codes (f := fun k s => do
      let b ← skipped s ch (c.offset + k)
      let v ← (if b then pure 128 else bits 8)
      inside 16 ch
      inside 49 k
      pure { s with word8 := upd2 s.word8 ch k v })
    (fun (i : Nat) (t : Frame) => (t.nonTrans = s.nonTrans ∧ t.newVec = s.newVec ∧ t.fadeIn = s.fadeIn) ∧
      ∀ k < i, t.word8 ch k = if LeftOut s ch (c.offset + k) then 128 else v k)
    (fun k => if LeftOut s ch (c.offset + k) then [] else natBits 8 (v k)) c.vecLength 0 (fun j t l _ hj ⟨⟨e1, e2, e3⟩, ht⟩ => by
      have hp := element_place ho ha (k := j) (by omega)
      have hl : LeftOut t ch (c.offset + j) = LeftOut s ch (c.offset + j) := by unfold LeftOut; rw [e1, e2, e3]
      refine ⟨{ t with word8 := upd2 t.word8 ch j (if LeftOut s ch (c.offset + j) then 128 else v j) }, ?_, ⟨e1, e2, e3⟩, fun k hk => ?_⟩
      · rw [run_bind, run_skipped (by omega) (by omega), Res.ok_bind, hl]
        simp only [run_bind]
        cases LeftOut s ch (c.offset + j)
        · simp only [Bool.false_eq_true, if_false]
          rw [(Reads.bits 8 _ _ _).mpr ⟨_, ⟨by omega, hv j, rfl⟩, rfl⟩, Res.ok_bind, inside, if_pos hch, inside, if_pos (by omega)]
          rfl
        · simp only [if_true, run_pure, Res.ok_bind, List.nil_append]
          rw [inside, if_pos hch, inside, if_pos (by omega)]
          rfl
      · simp only [upd2]
        by_cases hkj : k = j
        · subst hkj
          simp
        · rw [if_neg (by omega)]
          exact ht k (by omega)) s hinit l
  refine ⟨s', by rw [List.range_eq_range']; exact h1, ?_⟩
  unfold wordVector
  rw [elems_length hk]
  refine List.map_congr_left fun k hk => ?_
  rw [h2 k (by have := List.mem_range.mp hk; omega)]
  split
  · norm_num
  · rfl

/-- The code of an integer: the word of its number of bits, the sign, 1 for positive numbers, and the bits below the first. -/
def ElemCode (n table : Nat) (x : Int) (b : List Bool) : Prop :=
  ∃ w, wordOf (huffTable n table) x.natAbs.size = some w ∧
    b = w ++ (if x = 0 then [] else [decide (0 < x)] ++ natBits (x.natAbs.size - 1) (x.natAbs - 2 ^ (x.natAbs.size - 1)))

theorem size_split {m : Nat} (h : m ≠ 0) : 1 ≤ m.size ∧ 2 ^ (m.size - 1) ≤ m ∧ m - 2 ^ (m.size - 1) < 2 ^ (m.size - 1) := by
  have h1 : 0 < m.size := Nat.size_pos.mpr (by omega)
  have h2 : 2 ^ (m.size - 1) ≤ m := Nat.lt_size.mp (by omega)
  have h3 : m < 2 ^ m.size := Nat.lt_size_self m
  have h4 : 2 ^ m.size = 2 * 2 ^ (m.size - 1) := by rw [← pow_succ']; congr 1; omega
  omega

/-- Huffman coded elements that are read with the number of the channel give the coded integers times a power of 2 that depends on the number of bits,
and 0 if they were left out. -/
theorem C226_huff_partial {α : Type} [Field α] {c : Config} (ho : c.order ≤ 5) (ha : c.amb1 ≤ c.order + 1) {ch : Nat} (hch : ch < 16) (s : Frame)
    (h6 : 6 ≤ s.nbits ch) (h16 : s.nbits ch < 16) (x : Nat → Int) (code : Nat → List Bool)
    (hcode : ∀ k < c.vecLength, if LeftOut s ch (c.offset + k) then code k = [] else ElemCode (s.nbits ch) (huffIdx s ch (c.offset + k)) (x k) (code k))
    (l : List Bool) : ∃ s', (huffData c ch ch s).run ((List.range c.vecLength).flatMap code ++ l) = .ok (s', l) ∧ s'.pFlag = s.pFlag ∧ s'.nbits = s.nbits ∧
      ∀ k < c.vecLength, huffNominator (α := α) s' ch k = (if LeftOut s ch (c.offset + k) then 0 else 2 ^ (16 - s.nbits ch) * (x k : α)) ∧
        s'.mask ch k = if LeftOut s ch (c.offset + k) then 0 else 1 := by
  let Q : Nat → Frame → Prop := fun k t => huffNominator (α := α) t ch k = (if LeftOut s ch (c.offset + k) then 0 else 2 ^ (16 - s.nbits ch) * (x k : α)) ∧
        t.mask ch k = if LeftOut s ch (c.offset + k) then 0 else 1
  let P : Nat → Frame → Prop := fun i t => ((t.nonTrans = s.nonTrans ∧ t.newVec = s.newVec ∧ t.fadeIn = s.fadeIn) ∧
    (t.pFlag = s.pFlag ∧ t.nbits = s.nbits ∧ t.cbFlag = s.cbFlag)) ∧ ∀ k < i, Q k t
  have frameEq : ∀ {j k : Nat} {t t' : Frame}, k < j → t'.nbits = t.nbits → t'.huff ch k = t.huff ch k → t'.sgn ch k = t.sgn ch k →
      t'.addVal ch k = t.addVal ch k → t'.mask ch k = t.mask ch k → Q k t → Q k t' := by
    intro j k t t' _ e0 e1 e2 e3 e4 ⟨q1, q2⟩
    refine ⟨?_, by rw [e4]; exact q2⟩
    rw [← q1]
    unfold huffNominator
    rw [e0, e1, e2, e3]
  have step : ∀ j t l, 0 ≤ j → j < 0 + c.vecLength → P j t → ∃ t', (huffElement c ch ch j t).run (code j ++ l) = .ok (t', l) ∧ P (j + 1) t' := by
    intro j t l _ hj ⟨⟨⟨e1, e2, e3⟩, e4, e5, e6⟩, ht⟩
    have hp := element_place ho ha (k := j) (by omega)
    have hl : LeftOut t ch (c.offset + j) = LeftOut s ch (c.offset + j) := by unfold LeftOut; rw [e1, e2, e3]
    have hidx : huffIdx t ch (c.offset + j) = huffIdx s ch (c.offset + j) := by unfold huffIdx; rw [e4, e6]
    have htab : 1 ≤ huffIdx s ch (c.offset + j) ∧ huffIdx s ch (c.offset + j) < 6 := by
      unfold huffIdx subIdx
      split_ifs <;> omega
    have hc := hcode j (by omega)
    have other : ∀ {k : Nat} {a b : Nat}, k ≠ j → upd2 t.mask ch j a ch k = t.mask ch k ∧ upd2 t.huff ch j b ch k = t.huff ch k := by
      intro k a b hk
      simp [upd2, hk]
    have oth : ∀ (g : Nat → Nat → Nat) {k : Nat} {a : Nat}, k ≠ j → upd2 g ch j a ch k = g ch k := by
      intro g k a hk
      simp [upd2, hk]
    have self : ∀ (g : Nat → Nat → Nat) {a : Nat}, upd2 g ch j a ch j = a := by
      intro g a
      simp [upd2]
    unfold huffElement
    rw [run_bind, run_skipped (by omega) (by omega), Res.ok_bind, run_bind, inside, if_pos hch]
    simp only [run_pure, Res.ok_bind]
    rw [run_bind, inside, if_pos (by omega)]
    simp only [run_pure, Res.ok_bind, hl]
    by_cases hleft : LeftOut s ch (c.offset + j) = true
    · rw [if_pos hleft] at hc
      rw [hc, if_pos hleft]
      refine ⟨_, rfl, ⟨⟨⟨e1, e2, e3⟩, e4, e5, e6⟩, fun k hk => ?_⟩⟩
      by_cases hkj : k = j
      · subst hkj
        refine ⟨?_, by simp only [self]; rw [if_pos hleft]⟩
        rw [if_pos hleft]
        unfold huffNominator
        simp only [self]
        rw [if_pos trivial]
      · exact frameEq (j := j) (t := t) (by omega) rfl (by simp only [oth t.huff hkj]) rfl (by simp only [oth t.addVal hkj]) (by simp only [oth t.mask hkj]) (ht k (by omega))
    · rw [if_neg hleft] at hc
      rw [if_neg hleft, hidx, congrFun e5 ch]
      obtain ⟨w, hw, hb⟩ := hc
      rw [hb, run_bind, List.append_assoc, (C223_code h6 h16 htab.1 htab.2 _ _ _).mpr ⟨w, hw, rfl⟩, Res.ok_bind]
      simp only
      by_cases hx : x j = 0
      · have h0 : (x j).natAbs.size = 0 := by rw [hx]; rfl
        rw [if_pos hx, h0, if_neg (by omega)]
        refine ⟨_, rfl, ⟨⟨⟨e1, e2, e3⟩, e4, e5, e6⟩, fun k hk => ?_⟩⟩
        by_cases hkj : k = j
        · subst hkj
          refine ⟨?_, by simp only [self]; rw [if_neg hleft]⟩
          rw [if_neg hleft]
          unfold huffNominator
          simp only [self]
          rw [if_pos trivial, hx]
          simp
        · exact frameEq (j := j) (t := t) (by omega) rfl (by simp only [oth t.huff hkj]) rfl rfl (by simp only [oth t.mask hkj]) (ht k (by omega))
      · obtain ⟨z1, z2, z3⟩ := size_split (m := (x j).natAbs) (by omega)
        have hsmall : (x j).natAbs.size < s.nbits ch := (C223_symbols h6 h16 htab.1 htab.2 _).mp ⟨w, hw⟩
        rw [if_neg hx, if_pos (by omega), List.append_assoc, List.singleton_append, run_bits_one]
        simp only
        have value : ∀ t' : Frame, t'.nbits = s.nbits → t'.huff ch j = (x j).natAbs.size → t'.sgn ch j = (decide (0 < x j)).toNat →
            t'.addVal ch j = (x j).natAbs - 2 ^ ((x j).natAbs.size - 1) → t'.mask ch j = 1 → Q j t' := by
          intro t' f0 f1 f2 f3 f4
          refine ⟨?_, by rw [f4, if_neg hleft]⟩
          rw [if_neg hleft]
          unfold huffNominator sign
          rw [f0, f1, f2, f3, if_neg (by omega)]
          congr 1
          have hcast : (2 : α) ^ ((x j).natAbs.size - 1) + (((x j).natAbs - 2 ^ ((x j).natAbs.size - 1) : Nat) : α) = ((x j).natAbs : α) := by
            rw [Nat.cast_sub z2]
            push_cast
            ring
          rw [hcast]
          by_cases hpos : 0 < x j
          · have : x j = ((x j).natAbs : Int) := by omega
            simp only [hpos, decide_true]
            rw [this]
            norm_num
          · have : x j = -((x j).natAbs : Int) := by omega
            simp only [hpos, decide_false]
            rw [this]
            simp
        by_cases hone : (x j).natAbs.size = 1
        · rw [hone, if_neg (by omega)]
          refine ⟨_, rfl, ⟨⟨⟨e1, e2, e3⟩, e4, e5, e6⟩, fun k hk => ?_⟩⟩
          by_cases hkj : k = j
          · subst hkj
            refine value _ e5 ?_ ?_ ?_ ?_
            · simp only [self]; exact hone.symm
            · simp only [self]
            · simp only [self]
              rw [hone] at z2 z3 ⊢
              simp at z2 z3 ⊢
              omega
            · simp only [self]
          · exact frameEq (j := j) (t := t) (by omega) rfl (by simp only [oth t.huff hkj]) (by simp only [oth t.sgn hkj]) (by simp only [oth t.addVal hkj])
              (by simp only [oth t.mask hkj]) (ht k (by omega))
        · rw [if_pos (by omega), run_bind, (Reads.bits _ _ _ _).mpr ⟨_, ⟨by omega, z3, rfl⟩, rfl⟩, Res.ok_bind]
          refine ⟨_, rfl, ⟨⟨⟨e1, e2, e3⟩, e4, e5, e6⟩, fun k hk => ?_⟩⟩
          by_cases hkj : k = j
          · subst hkj
            refine value _ e5 ?_ ?_ ?_ ?_ <;> simp only [self]
          · exact frameEq (j := j) (t := t) (by omega) rfl (by simp only [oth t.huff hkj]) (by simp only [oth t.sgn hkj]) (by simp only [oth _ hkj])
              (by simp only [oth t.mask hkj]) (ht k (by omega))
  have hinit : P 0 { s with sgn := fillSgn s.sgn ch (s.sgnSize ch) c.vecLength 1 } := ⟨⟨⟨rfl, rfl, rfl⟩, rfl, rfl, rfl⟩, fun k hk => by omega⟩
  obtain ⟨s1, h1, ⟨-, h3, h4, -⟩, h2⟩ := fold_codes (f := fun k s => huffElement c ch ch k s) P code c.vecLength 0 step _ hinit l
  refine ⟨{ s1 with sgnSize := upd s1.sgnSize ch c.vecLength }, ?_, h3, h4, fun k hk => h2 k (by omega)⟩
  unfold huffData
  rw [run_bind, inside, if_pos hch]
  simp only [run_pure, Res.ok_bind]
  rw [run_bind, List.range_eq_range', h1, Res.ok_bind]
  rfl

/-- The integer -5 with 6 bits and the table without prediction. -/
example : ElemCode 6 5 (-5) [false, false, false, false, false, true] := ⟨[false, false, false], by decide +kernel, by decide +kernel⟩

/-! ## C235: nominators of the frame before -/

/-- With an empty first channel, the nominators of the second one are kept where they are not found: the next frame predicts from 0 instead of
from -5 times 2 to the power of 10. -/
theorem C235_refuted : ∃ c l l2 s, (config 3 1024).run l = .ok (c, []) ∧ (frame c Frame.zero).run l2 = .ok (s, []) ∧
    (sideVector id id c noBooks noNoms s 1).map Prod.snd = .ok [-5 * 2 ^ 10, -5 * 2 ^ 10, -5 * 2 ^ 10] ∧
    (vectorsOf id id c noBooks noNoms s).map (fun p => (p.2.find 2, (List.range 3).map (p.2.sig 0))) = .ok (some 0, [0, 0, 0]) := by
  have h0 := seen_result (r := (frame order1 Frame.zero).run (([true] ++ natBits 2 3 ++ noGain ++ natBits 2 1 ++ natBits 1 1 ++ natBits 4 6 ++ natBits 1 0 ++ noGain ++
    noGain) ++ ((wordOf (huffTable 6 5) 3).getD [] ++ [true] ++ natBits 2 1) ++ ((wordOf (huffTable 6 5) 3).getD [] ++ [true] ++ natBits 2 1) ++
      ((wordOf (huffTable 6 5) 3).getD [] ++ [true] ++ natBits 2 1))) (l := []) (by decide +kernel)
  exact ⟨order1, order1Bits, _, _, order1_accepted, h0, by decide +kernel, by decide +kernel⟩

section Kept

variable {α : Type} [Field α] {root floor : α → α} {c : Config} {b : Books α} {o : Noms α} {s : Frame}

theorem side_rest (n ch : Nat) (h : ∀ x, ch ≤ x → x < ch + n → s.ctype x ≠ 1) (vs : List (Nat × List α)) (new : Noms α) :
    sideVectors root floor c b o s n ch vs new = .ok (vs, new) := by
  induction n generalizing ch with
  | zero => rfl
  | succ n ih =>
    unfold sideVectors
    rw [if_neg (h ch (by omega) (by omega))]
    exact ih (ch + 1) (fun x h1 h2 => h x (by omega) (by omega))

/-- What has been collected after `ch` channels with vectors. -/
def Collected (root floor : α → α) (c : Config) (b : Books α) (o : Noms α) (s : Frame) (ch : Nat) (vs : List (Nat × List α)) (new : Noms α) : Prop :=
  vs.length = ch ∧ (∀ i, new.index i = if i < ch then some (i + 1) else none) ∧
    ∀ i < ch, ∃ v w, sideVector root floor c b o s i = .ok (v, w) ∧ vs[i]? = some (i + 1, v) ∧ ∀ e, new.sig i e = w.getD e 0

theorem side_first (k m ch : Nat) (h1 : ∀ x, ch ≤ x → x < ch + k → s.ctype x = 1) (h2 : ∀ x, ch + k ≤ x → x < ch + k + m → s.ctype x ≠ 1)
    (vs : List (Nat × List α)) (new : Noms α) (hc : Collected root floor c b o s ch vs new) {vs' : List (Nat × List α)} {new' : Noms α}
    (e : sideVectors root floor c b o s (k + m) ch vs new = .ok (vs', new')) : Collected root floor c b o s (ch + k) vs' new' := by
  induction k generalizing ch vs new with
  | zero =>
    rw [Nat.zero_add, side_rest m ch (fun x y z => h2 x (by omega) (by omega))] at e
    cases e
    exact hc
  | succ k ih =>
    rw [show k + 1 + m = (k + m) + 1 by omega] at e
    unfold sideVectors at e
    rw [if_pos (h1 ch (by omega) (by omega))] at e
    by_cases h16 : 16 ≤ ch
    · rw [if_pos h16] at e
      cases e
    rw [if_neg h16, Res.bind_eq_ok] at e
    obtain ⟨⟨v, w⟩, e1, e2⟩ := e
    have := ih (ch + 1) (fun x y z => h1 x (by omega) (by omega)) (fun x y z => h2 x (by omega) (by omega)) _ _ ?_ e2
    · rwa [show ch + (k + 1) = ch + 1 + k by omega]
    obtain ⟨c1, c2, c3⟩ := hc
    refine ⟨by simp [c1], fun i => ?_, fun i hi => ?_⟩
    · simp only [upd, c1]
      by_cases hi : i = ch
      · rw [if_pos hi, if_pos (by omega), hi]
      · rw [if_neg hi, c2 i]
        by_cases hi2 : i < ch
        · rw [if_pos hi2, if_pos (by omega)]
        · rw [if_neg hi2, if_neg (by omega)]
    · by_cases hi2 : i = ch
      · subst hi2
        refine ⟨v, w, e1, ?_, fun e => by simp [upd]⟩
        rw [List.getElem?_append_right (by omega), c1]
        simp
      · obtain ⟨v', w', k1, k2, k3⟩ := c3 i (by omega)
        refine ⟨v', w', k1, ?_, fun e => ?_⟩
        · rw [List.getElem?_append_left (by omega)]
          exact k2
        · simp only [upd]
          rw [if_neg hi2]
          exact k3 e

/-- If the channels of vectors are the first ones, each vector of the frame is that of its channel, and its nominators are kept and found again for its channel. -/
theorem C235_kept_partial (k : Nat) (hk : k ≤ c.extra) (h16 : k ≤ 16) (h1 : ∀ x < k, s.ctype x = 1) (h2 : ∀ x, k ≤ x → x < c.extra → s.ctype x ≠ 1)
    {vs : List (Nat × List α)} {kept : Noms α} (e : vectorsOf root floor c b o s = .ok (vs, kept)) :
    vs.length = k ∧ ∀ ch < k, ∃ v w, sideVector root floor c b o s ch = .ok (v, w) ∧ vs[ch]? = some (ch + 1, v) ∧ kept.find (ch + 1) = some ch ∧
      ∀ x < c.elems, kept.sig ch x = w.getD x 0 := by
  unfold vectorsOf at e
  rw [Res.bind_eq_ok] at e
  obtain ⟨⟨vs1, new⟩, e1, e2⟩ := e
  cases e2
  obtain ⟨m, hm⟩ := Nat.exists_eq_add_of_le hk
  rw [hm] at e1
  have hc := side_first k m 0 (fun x _ h => h1 x (by omega)) (fun x h h' => h2 x (by omega) (by omega)) [] ⟨fun _ => none, fun _ _ => 0⟩
    ⟨rfl, fun i => rfl, fun i hi => by omega⟩ e1
  rw [Nat.zero_add] at hc
  obtain ⟨c1, c2, c3⟩ := hc
  refine ⟨c1, fun ch hch => ?_⟩
  obtain ⟨v, w, k1, k2, k3⟩ := c3 ch hch
  refine ⟨v, w, k1, k2, ?_, fun x hx => ?_⟩
  · have hidx : ∀ i < 16, (keepNoms c o new).index i = if i < k then some (i + 1) else none := by
      intro i hi
      unfold keepNoms
      simp only
      rw [if_pos hi, c2 i]
    unfold Noms.find
    rw [List.find?_range_eq_some]
    refine ⟨by rw [hidx ch (by omega), if_pos hch]; simp, List.mem_range.mpr (by omega), fun j hj => ?_⟩
    rw [hidx j (by omega), if_pos (by omega)]
    simp
    omega
  · unfold keepNoms
    simp only
    rw [if_pos ⟨by omega, by rw [c2 ch, if_pos hch]; simp, hx⟩]
    exact k3 x

/-- The nominators of the next frame with prediction are then the coded ones plus those of this frame, where elements are sent. -/
theorem C235_next_partial (k : Nat) (hk : k ≤ c.extra) (h16 : k ≤ 16) (h1 : ∀ x < k, s.ctype x = 1) (h2 : ∀ x, k ≤ x → x < c.extra → s.ctype x ≠ 1)
    {vs : List (Nat × List α)} {kept : Noms α} (e : vectorsOf root floor c b o s = .ok (vs, kept)) (s2 : Frame) {ch : Nat} (hch : ch < k)
    (hp : s2.pFlag ch ≠ 0) : ∃ v w, sideVector root floor c b o s ch = .ok (v, w) ∧
      huffVector c kept s2 ch = (List.range c.elems).map (fun x => huffNominator s2 ch x + if s2.mask ch x ≠ 0 then w.getD x 0 else 0) := by
  obtain ⟨v, w, k1, -, k3, k4⟩ := (C235_kept_partial k hk h16 h1 h2 e).2 ch hch
  refine ⟨v, w, k1, ?_⟩
  unfold huffVector
  refine List.map_congr_left fun x hx => ?_
  rw [k3]
  simp only
  rw [k4 x (List.mem_range.mp hx)]
  simp [hp]

end Kept

/-- A frame whose first channel has a vector of Huffman coded elements 5: its nominators are kept. -/
example : ∃ s, (frame order1 Frame.zero).run (([true] ++ natBits 2 1 ++ natBits 1 1 ++ natBits 4 6 ++ natBits 1 0 ++ noGain ++ natBits 2 3 ++ noGain ++
      noGain) ++ ((wordOf (huffTable 6 5) 3).getD [] ++ [true] ++ natBits 2 1) ++ ((wordOf (huffTable 6 5) 3).getD [] ++ [true] ++ natBits 2 1) ++
      ((wordOf (huffTable 6 5) 3).getD [] ++ [true] ++ natBits 2 1)) = .ok (s, []) ∧ s.ctype 0 = 1 ∧ s.ctype 1 ≠ 1 ∧
    (vectorsOf id id order1 noBooks noNoms s).map (fun p => (p.1, p.2.find 1, (List.range 3).map (p.2.sig 0))) =
      .ok ([(1, [2 * (5 * 2 ^ 10 / 2 ^ 15), 2 * (5 * 2 ^ 10 / 2 ^ 15), 2 * (5 * 2 ^ 10 / 2 ^ 15)])], some 0, [5 * 2 ^ 10, 5 * 2 ^ 10, 5 * 2 ^ 10]) :=
  ⟨_, seen_result (by decide +kernel), by decide +kernel, by decide +kernel, by decide +kernel⟩

end Verif.Hoa
