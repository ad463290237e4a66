import Verif.Props.HoaVectors
import Verif.Props.HoaGain
import Mathlib.Algebra.BigOperators.Group.List.Basic
import Mathlib.Algebra.BigOperators.Ring.List
import Mathlib.Tactic.FieldSimp

/-! # C271 to C273: vectors made of entries of codebooks, and what frames leave for the next ones -/

namespace Verif.Hoa

open Prog

section Many

variable {α : Type} [Field α]

/-- Element `e` of an entry (from 1 on) of a codebook: the entries are rows of the array. -/
def entry (c : Config) (b : Books α) (book k e : Nat) : α :=
  if book = 7 then b.inv ((k - 1) * c.coeffs + e) else if book = 3 then b.circle ((k - 1) * 49 + e)
  else if book = 1 ∨ book = 2 then b.cicp ((k - 1) * 49 + e) else b.grid ((k - 1) * 49 + e)

/-- Element `e` of the weighted sum of `n` entries from `i` on. -/
def weighted (c : Config) (b : Books α) (s : Frame) (ch : Nat) (w : Nat → α) : (n i e : Nat) → α
  | 0, _, _ => 0
  | n + 1, i, e => entry c b (s.book ch) (s.vvec i) e * w i + weighted c b s ch w n (i + 1) e

theorem bookGet_entry {c : Config} {b : Books α} {k x e : Nat} {v : α} (hk : k = 0 ∨ k = 1 ∨ k = 2 ∨ k = 3 ∨ k = 7) (hx : 1 ≤ x)
    (h : bookGet c b k (((x : Int) - 1) * (bookStride c k : Int) + (e : Int)) = .ok v) : v = entry c b k x e := by
  unfold bookGet at h
  simp only at h
  split at h
  · cases h
    obtain ⟨y, rfl⟩ : ∃ y, x = y + 1 := ⟨x - 1, by omega⟩
    have e1 : (((y + 1 : Nat) : Int) - 1) * (bookStride c k : Int) + (e : Int) + ((0 : Nat) : Int) = ((y * bookStride c k + e : Nat) : Int) := by
      push_cast; ring
    have e2 : (bookArray c b k).2 = 0 := by rcases hk with rfl | rfl | rfl | rfl | rfl <;> rfl
    rw [e2, e1, Int.toNat_natCast]
    rcases hk with rfl | rfl | rfl | rfl | rfl <;> rfl
  · cases h

theorem mapR_get {β : Type} {f : Nat → Res β} {n i : Nat} {l : List β} (h : mapR f n i = .ok l) :
    l.length = n ∧ ∀ k (hk : k < l.length), f (i + k) = .ok l[k] := by
  induction n generalizing i l with
  | zero => cases h; exact ⟨rfl, fun k hk => by simp at hk⟩
  | succ n ih =>
    unfold mapR at h
    obtain ⟨a, ha, h⟩ := (Res.bind_eq_ok).mp h
    obtain ⟨l', hl, h⟩ := (Res.bind_eq_ok).mp h
    cases h
    obtain ⟨h1, h2⟩ := ih hl
    refine ⟨by simp [h1], fun k hk => ?_⟩
    cases k with
    | zero => exact ha
    | succ k =>
      have := h2 k (by simpa using hk)
      rw [show i + 1 + k = i + (k + 1) by omega] at this
      simpa using this

theorem vqSum_get {c : Config} {b : Books α} {s : Frame} {ch : Nat} (hb : s.book ch ∈ [0, 1, 2, 3, 7]) (n i : Nat) {acc v : List α}
    (ha : acc.length = c.coeffs) (h : vqSum c b s ch n i acc = .ok v) (hx : ∀ j, i ≤ j → j < i + n → 1 ≤ s.vvec j) :
    v.length = c.coeffs ∧ ∀ e < c.coeffs, v.getD e 0 = acc.getD e 0 + weighted c b s ch (vqWeight b s ch) n i e := by
  induction n generalizing i acc with
  | zero => cases h; exact ⟨ha, fun e _ => by simp [weighted]⟩
  | succ n ih =>
    unfold vqSum at h
    simp only at h
    split at h
    · cases h
    · obtain ⟨row, hr, h⟩ := (Res.bind_eq_ok).mp h
      obtain ⟨r1, r2⟩ := mapR_get hr
      obtain ⟨h1, h2⟩ := ih (i + 1) (by simp [ha, r1]) h (fun j a1 a2 => hx j (by omega) (by omega))
      refine ⟨h1, fun e he => ?_⟩
      have hb' : s.book ch = 0 ∨ s.book ch = 1 ∨ s.book ch = 2 ∨ s.book ch = 3 ∨ s.book ch = 7 := by simpa using hb
      have hrow := bookGet_entry hb' (hx i (by omega) (by omega)) (by
        have := r2 e (by omega)
        rw [Nat.zero_add] at this
        exact this)
      rw [h2 e he]
      have ea : e < acc.length := by omega
      have er : e < row.length := by omega
      have : (List.zipWith (fun x y => x + y * vqWeight b s ch i) acc row).getD e 0 =
          acc.getD e 0 + entry c b (s.book ch) (s.vvec i) e * vqWeight b s ch i := by
        simp only [List.getD_eq_getElem?_getD]
        rw [List.getElem?_eq_getElem (by simp; omega), List.getElem?_eq_getElem ea, List.getElem_zipWith, hrow]
        rfl
      rw [this]
      simp only [weighted]
      ring

/-- The sum of the squares of all elements of the weighted sum. -/
def energy (c : Config) (f : Nat → α) : α := ((List.range c.coeffs).map fun e => f e * f e).sum

theorem square_sum (c : Config) (v : List α) (f : Nat → α) (hl : v.length = c.coeffs) (h : ∀ e < c.coeffs, v.getD e 0 = f e) :
    (v.map (fun x => x * x)).sum = energy c f := by
  unfold energy
  congr 1
  apply List.ext_getElem
  · simp [hl]
  · intro i h1 h2
    have hi : i < v.length := by simpa using h1
    have := h i (by omega)
    rw [List.getD_eq_getElem?_getD, List.getElem?_eq_getElem hi] at this
    simp only [Option.getD_some] at this
    simp [this]

/-- **C271** A vector of several entries of a codebook is their weighted sum, scaled, for all codebooks but that of number 2, by order plus 1 over the root of the energy;
the first elements are left out with kinds of vectors that do not have them. -/
theorem C271_sum {root : α → α} {c : Config} {b : Books α} {s : Frame} {ch : Nat} (hb : s.book ch ∈ [0, 1, 2, 3, 7])
    (hx : ∀ j < s.num ch, 1 ≤ s.vvec j) {v : List α} (h : vqMany root c b s ch = .ok v) : v.length = c.elems ∧ ∀ e < c.elems, v.getD e 0 =
      weighted c b s ch (vqWeight b s ch) (s.num ch) 0 (c.start + e) *
        (if s.book ch = 2 then 1 else ((c.order : α) + 1) / root (energy c (weighted c b s ch (vqWeight b s ch) (s.num ch) 0))) := by
  unfold vqMany at h
  obtain ⟨u, hu, h⟩ := (Res.bind_eq_ok).mp h
  obtain ⟨u1, u2⟩ := vqSum_get hb _ _ (by simp) hu (fun j _ hj => hx j (by omega))
  have u3 : ∀ e < c.coeffs, u.getD e 0 = weighted c b s ch (vqWeight b s ch) (s.num ch) 0 e := fun e he => by
    rw [u2 e he]
    have : (List.replicate c.coeffs (0 : α)).getD e 0 = 0 := by
      rw [List.getD_eq_getElem?_getD, List.getElem?_replicate]
      split <;> rfl
    rw [this, zero_add]
  cases h
  refine ⟨by simp [u1, Config.elems], fun e he => ?_⟩
  have he' : c.start + e < c.coeffs := by unfold Config.elems at he; omega
  rw [square_sum c u _ u1 u3, ← u3 _ he']
  simp only [List.getD_eq_getElem?_getD, List.getElem?_map, List.getElem?_drop]
  rw [List.getElem?_eq_getElem (by omega)]
  rfl

/-- With all elements, the vector has the length order plus 1. -/
theorem C271_length {root : α → α} {c : Config} {b : Books α} {s : Frame} {ch : Nat} (hb : s.book ch ∈ [0, 1, 3, 7])
    (hx : ∀ j < s.num ch, 1 ≤ s.vvec j) {v : List α} (h : vqMany root c b s ch = .ok v) (hs : c.start = 0)
    (hroot : ∀ x, root x * root x = x) (h0 : energy c (weighted c b s ch (vqWeight b s ch) (s.num ch) 0) ≠ 0) :
    (v.map fun x => x * x).sum = ((c.order : α) + 1) ^ 2 := by
  have hb2 : s.book ch ≠ 2 := by
    intro e; rw [e] at hb; simp at hb
  obtain ⟨h1, h2⟩ := C271_sum (by simp only [List.mem_cons] at hb ⊢; tauto) hx h
  have hel : c.elems = c.coeffs := by unfold Config.elems; omega
  rw [hel] at h1 h2
  rw [square_sum c v _ h1 h2, hs, if_neg hb2]
  simp only [Nat.zero_add]
  generalize hE : energy c (weighted c b s ch (vqWeight b s ch) (s.num ch) 0) = E at *
  have hr : root E ≠ 0 := by
    intro e
    have := hroot E
    rw [e, mul_zero] at this
    exact h0 this.symm
  have : energy c (fun e => weighted c b s ch (vqWeight b s ch) (s.num ch) 0 e * (((c.order : α) + 1) / root E)) =
      E * (((c.order : α) + 1) / root E) ^ 2 := by
    rw [← hE]
    unfold energy
    rw [← List.sum_map_mul_right]
    congr 1
    apply List.map_congr_left
    intro e _
    ring
  rw [this, div_pow, pow_two (root E), hroot E]
  field_simp

/-- The weight of entry `i` is that of the row sent, from column `i`; entries behind the eighth take the last two columns in turn. -/
theorem C271_weights (b : Books α) (s : Frame) (ch i : Nat) : ∃ k < 8, (i < 8 → k = i) ∧ (8 ≤ i → 6 ≤ k) ∧
    vqWeight b s ch i = b.weight (8 * s.weight ch + k) * (if s.sgn ch i = 1 then 1 else 2 * (s.sgn ch i : α) - 1) := by
  refine ⟨if 8 ≤ i then i % 2 + 6 else i, ?_, ?_, ?_, ?_⟩
  · split <;> omega
  · intro h; rw [if_neg (by omega)]
  · intro h; rw [if_pos h]; omega
  · unfold vqWeight sign
    rw [Nat.mul_comm 8]
    congr 1
    split
    · rename_i h; rw [h]; norm_num
    · rfl

end Many

/-- Two entries of the codebook of 34 vectors with weights 1 and 2: 3 and 4 for the only coefficient of order 0. -/
example : vqMany (fun x : ℚ => if x = 121 then 11 else 0) ⟨1, 0, 0, [], 0, 0, 256, 0, 0, 0, 0, 1, 1, 1, 8⟩
    ⟨fun _ => 0, fun n => if n = 0 then 3 else 4, fun _ => 0, fun _ => 0, fun n => n + 1⟩
    { Frame.zero with book := fun _ => 1, num := fun _ => 2, vvec := fun j => j + 1, sgn := fun _ _ => 1 } 0 = .ok [1] := by decide +kernel

/-! ## C272: coefficients that have a channel of their own -/

/-- What the loop over the elements leaves alone. -/
structure Same (s s' : Frame) : Prop where
  nonTrans : s'.nonTrans = s.nonTrans
  newVec : s'.newVec = s.newVec
  fadeIn : s'.fadeIn = s.fadeIn

theorem Same.leftOut {s s' : Frame} (h : Same s s') (ch k : Nat) : LeftOut s' ch k = LeftOut s ch k := by
  unfold LeftOut; rw [h.nonTrans, h.newVec, h.fadeIn]

theorem vqData_info {c : Config} {ch idx : Nat} {s s' : Frame} {l l' : List Bool} (e : (vqData c ch idx s).run l = .ok (s', l'))
    (hc : c.offset + c.vecLength ≤ 49) : Same s s' ∧ ∀ k < c.vecLength, s'.addInfo idx k = if LeftOut s idx (c.offset + k) then 0 else 1 := by
  unfold vqData at e
  simp only [run_bind, Res.bind_eq_ok] at e
  obtain ⟨⟨⟨⟩, l0⟩, hi, ⟨s1, l1⟩, e1, ⟨⟨⟩, l2⟩, -, e2⟩ := e
  have hidx : idx < 16 := by
    unfold inside at hi
    split at hi
    · assumption
    · cases hi
  have pair : ∀ j t t' m m', (indexPair c ch idx j t).run m = .ok (t', m') → Same t t' := by
    intro j t t' m m' h
    unfold indexPair at h
    simp only [run_bind, Res.bind_eq_ok] at h
    obtain ⟨_, -, _, -, _, -, h⟩ := h
    cases h
    exact ⟨rfl, rfl, rfl⟩
  have same1 : Same s s1 := by
    split at e1
    · simp only [run_bind, Res.bind_eq_ok] at e1
      obtain ⟨_, -, e1⟩ := e1
      refine fold_keeps (P := fun t => Same s t) _ _ (fun j t m t' m' _ _ ht h => ?_) e1 ⟨rfl, rfl, rfl⟩
      have := pair j t t' m m' h
      exact ⟨this.nonTrans.trans ht.nonTrans, this.newVec.trans ht.newVec, this.fadeIn.trans ht.fadeIn⟩
    · have := pair _ _ _ _ _ e1
      exact ⟨this.nonTrans, this.newVec, this.fadeIn⟩
  have := fold_grows (fun n t => Same s t ∧ ∀ k < n, t.addInfo idx k = if LeftOut s idx (c.offset + k) then 0 else 1) _ _
    (fun j t m t' m' _ hj ht h => by
      simp only [run_bind] at h
      rw [run_skipped (by omega) (by omega)] at h
      simp only [Res.ok_bind, run_bind, Res.bind_eq_ok] at h
      obtain ⟨_, -, h⟩ := h
      cases h
      refine ⟨⟨ht.1.nonTrans, ht.1.newVec, ht.1.fadeIn⟩, fun k hk => ?_⟩
      simp only [upd2, true_and]
      by_cases hkj : k = j
      · subst hkj
        rw [if_pos rfl, ht.1.leftOut]
      · rw [if_neg hkj]
        exact ht.2 k (by omega)) e2 ⟨same1, fun k hk => by omega⟩
  rw [Nat.zero_add] at this
  exact this

/-- **C272** (partial) With vectors of kind 1 whose number is that of the channel, a vector from a codebook is 0 in every coefficient that is sent as ambience, and as
the codebook says in all others. -/
theorem C272_masked_partial {α : Type} [Field α] {c : Config} (hk : c.vecKind = 1) {ch : Nat} {s s' : Frame} {l l' : List Bool}
    (e : (vqData c ch ch s).run l = .ok (s', l')) (hc : c.offset + c.vecLength ≤ 49) (v : List α) (k : Nat) (hkl : k < c.vecLength) (hv : k < v.length) :
    (vqMask c s' ch v).getD k 0 = if LeftOut s ch (c.offset + k) then 0 else v.getD k 0 := by
  have h := (vqData_info e hc).2 k hkl
  unfold vqMask
  rw [if_pos hk]
  simp only [List.getD_eq_getElem?_getD, List.getElem?_mapIdx]
  rw [List.getElem?_eq_getElem hv]
  simp only [Option.map_some, Option.getD_some, h]
  split <;> simp_all

/-- Order 1 with coefficient 2 sent as ambience, vectors from coefficient 2 on: the first of three elements is masked. -/
example : order1.vecKind = 1 ∧ order1.offset + order1.vecLength ≤ 49 ∧ seen (fun s => (s.addInfo 1 0, s.addInfo 1 1, s.addInfo 1 2, s.vvec 0))
    ((vqData order1 1 1 { Frame.zero with book := fun _ => 1, num := fun _ => 1, nonTrans := fun k => if k = 2 then 1 else 0 }).run (natBits 6 4 ++ [true])) =
      .ok ((0, 1, 1, 5), []) := by decide +kernel

/-- Vectors of other kinds keep all their elements. -/
theorem C272_others {α : Type} [Field α] {c : Config} (hk : c.vecKind ≠ 1) (s : Frame) (ch : Nat) (v : List α) : vqMask c s ch v = v := by
  unfold vqMask; rw [if_neg hk]

/-! ## C273: several vectors in a frame -/

/-- A frame with two vectors from the codebook of 34: entry 5 for the first, entry 9 for the second channel. -/
def twoVectors : List Bool :=
  [true] ++ natBits 2 1 ++ natBits 4 4 ++ natBits 3 1 ++ natBits 2 0 ++ noGain ++ natBits 2 1 ++ natBits 4 4 ++ natBits 3 1 ++ natBits 2 0 ++ noGain ++ noGain ++
    natBits 6 4 ++ [true] ++ natBits 6 8 ++ [true]

/-- **C273** (refuted) The frame is accepted, and both channels get entry 9: there is one array of indices for all channels. -/
theorem C273_refuted : ∃ c l s, (config 3 1024).run l = .ok (c, []) ∧ (frame c Frame.zero).run twoVectors = .ok (s, []) ∧
    ∀ b : Books ℚ, (sideVector id id c b noNoms s 0).map Prod.fst = .ok ((List.range 9).map (entry c b 1 9)) ∧
      (sideVector id id c b noNoms s 1).map Prod.fst = .ok ((List.range 9).map (entry c b 1 9)) := by
  obtain ⟨s, h1, h2⟩ := seen_ok (f := fun s => [s.book 0, s.num 0, s.nbits 0, s.book 1, s.num 1, s.nbits 1, s.vvec 0, s.sgn 0 0, s.sgn 1 0])
    (b := [1, 1, 4, 1, 1, 4, 9, 1, 1]) (l := []) (r := (frame order2 Frame.zero).run twoVectors) (by decide +kernel)
  simp only [List.cons.injEq, and_true] at h2
  obtain ⟨e1, e2, e3, e4, e5, e6, e7, e8, e9⟩ := h2
  refine ⟨order2, order2Bits, s, order2_accepted, h1, fun b => ?_⟩
  have key : ∀ ch, s.book ch = 1 → s.num ch = 1 → s.nbits ch = 4 → s.sgn ch 0 = 1 →
      (sideVector id id order2 b noNoms s ch).map Prod.fst = .ok ((List.range 9).map (entry order2 b 1 9)) := by
    intro ch b1 b2 b3 b4
    have hm : vqMask order2 s ch = (id : List ℚ → List ℚ) := by
      funext v; unfold vqMask; rw [if_neg (by decide)]; rfl
    have hv : vqOne order2 b s ch = .ok ((List.range 9).map (entry order2 b 1 9)) := by
      unfold vqOne
      rw [b1, b4, e7]
      have hs : (sign 1 : ℚ) = 1 := by norm_num [sign]
      rw [hs]
      simp only [mul_one]
      have hr : List.range 9 = [0, 1, 2, 3, 4, 5, 6, 7, 8] := rfl
      have he : order2.elems = 9 := rfl
      have hst : order2.start = 0 := rfl
      rw [hr, he, hst]
      simp [mapR, bookGet, bookArray, bookSize, bookStride, entry]
    simp only [sideVector, b3, b2, if_true, ne_eq, not_true_eq_false, if_false, hv, hm]
    rfl
  exact ⟨key 0 e1 e2 e3 e8, key 1 e4 e5 e6 e9⟩

/-- **C273** (partial) A vector that is read last has the indices and signs of its own bits. -/
theorem C273_last_partial {c : Config} {ch : Nat} {s s' : Frame} (h1 : s.num ch = 1) {x g : Nat} (hx : x < 2 ^ indexBits c (s.book ch)) (hw : indexBits c (s.book ch) ≤ 24)
    (hg : g < 2) {l l' : List Bool} (e : (vqData c ch ch s).run (natBits (indexBits c (s.book ch)) x ++ natBits 1 g ++ l) = .ok (s', l')) :
    s'.vvec 0 = x + 1 ∧ s'.sgn ch 0 = g := by
  unfold vqData at e
  simp only [run_bind, Res.bind_eq_ok] at e
  obtain ⟨⟨⟨⟩, l0⟩, hi, ⟨s1, l1⟩, e1, ⟨⟨⟩, l2⟩, -, e2⟩ := e
  have hl : l0 = natBits (indexBits c (s.book ch)) x ++ natBits 1 g ++ l := by
    unfold inside at hi
    split at hi
    · cases hi; rfl
    · cases hi
  rw [if_neg (by simp [h1]), hl] at e1
  unfold indexPair at e1
  rw [List.append_assoc, run_bits_bind _ _ _ _ hw hx, run_bits_bind _ _ _ _ (by omega) (by omega)] at e1
  have : s1.vvec 0 = x + 1 ∧ s1.sgn ch 0 = g := by
    simp only [run_bind] at e1
    rw [inside, if_pos (by omega)] at e1
    cases e1
    simp [upd, upd2]
  refine fold_keeps (P := fun t => t.vvec 0 = x + 1 ∧ t.sgn ch 0 = g) _ _ (fun j t m t' m' _ _ ht h => ?_) e2 this
  simp only [run_bind, Res.bind_eq_ok] at h
  obtain ⟨_, -, _, -, h⟩ := h
  cases h
  exact ht

/-- The widths of the indices are those that can be read at once. -/
example : indexBits order2 1 = 6 ∧ indexBits order2 3 = 6 ∧ indexBits order2 0 = 10 := by decide +kernel

/-! ## What other claims rest on -/

/-- C226: the table of a coefficient is chosen by its order: one for orders 0 and 1, one for order 2, one for all above. -/
theorem C226_tables : ∀ k, 1 ≤ k → k ≤ 49 → subIdx k = max 1 (min 3 (Nat.sqrt (k - 1))) := by decide +kernel

/-- C227: with the list of coefficients the number of predicted ones is the one sent plus 1. -/
theorem C227_count {c : Config} {s s' : Frame} {n : Nat} (hn : n < 2 ^ c.countBits) (hw : c.countBits ≤ 24) {l l' : List Bool}
    (e : (activePreds c s).run (natBits 1 1 ++ natBits c.countBits n ++ l) = .ok (s', l')) : s'.numActive = n + 1 := by
  unfold activePreds at e
  rw [List.append_assoc, run_bits_bind _ _ _ _ (by omega) (by omega)] at e
  simp only [Nat.one_ne_zero, if_false] at e
  rw [run_bits_bind _ _ _ _ hw hn] at e
  refine fold_keeps (P := fun t => t.numActive = n + 1) _ _ (fun j t m t' m' _ _ ht h => ?_) e rfl
  simp only [run_bind, Res.bind_eq_ok] at h
  obtain ⟨_, -, _, -, h⟩ := h
  cases h
  exact ht

theorem rows_kind (s : Frame) (d n row : Nat) (p : Preds) (a b : Nat) : (predRows s d n row p a b).1.kind = p.kind := by
  induction n generalizing row p a b with
  | zero => rfl
  | succ n ih =>
    unfold predRows
    split
    · rw [ih]
    · rw [ih]

theorem columns_kind (c : Config) (s : Frame) (n d : Nat) (p : Preds) (a b : Nat) (k : Nat) : (predColumns c s n d p a b).kind k =
    if d ≤ k ∧ k < d + n then (if s.active k = 0 then 0 else 1) else p.kind k := by
  induction n generalizing d p a b with
  | zero => simp only [predColumns]; rw [if_neg (by omega)]
  | succ n ih =>
    unfold predColumns
    by_cases h : s.active d = 0
    · rw [if_pos h, ih]
      simp only [upd]
      by_cases hk : k = d
      · subst hk; rw [if_neg (by omega), if_pos rfl, if_pos (by omega), if_pos h]
      · rw [if_neg hk]; by_cases h2 : d + 1 ≤ k ∧ k < d + 1 + n
        · rw [if_pos h2, if_pos (c := d ≤ k ∧ k < d + (n + 1)) (by omega)]
        · rw [if_neg h2, if_neg (by omega)]
    · rw [if_neg h]
      simp only
      rw [ih, rows_kind]
      simp only [upd]
      by_cases hk : k = d
      · subst hk; rw [if_neg (by omega), if_pos rfl, if_pos (by omega), if_neg h]
      · rw [if_neg hk]; by_cases h2 : d + 1 ≤ k ∧ k < d + 1 + n
        · rw [if_pos h2, if_pos (c := d ≤ k ∧ k < d + (n + 1)) (by omega)]
        · rw [if_neg h2, if_neg (by omega)]

/-- C227: the coefficients that are predicted after a frame are those of the frame, whatever was predicted before. -/
theorem C227_kinds (c : Config) (s : Frame) (p : Preds) (k : Nat) (hk : k < c.coeffs) :
    (sidePreds c s p).kind k = if s.predOn ≠ 0 ∧ s.active k ≠ 0 then 1 else 0 := by
  unfold sidePreds
  by_cases h : s.predOn ≠ 0
  · rw [if_pos h, columns_kind, if_pos (by omega)]
    by_cases ha : s.active k = 0
    · rw [if_pos ha, if_neg (by simp [ha])]
    · rw [if_neg ha, if_pos ⟨h, ha⟩]
  · rw [if_neg h, if_neg (by simp [not_not.mp h])]
    simp only [hk, if_true]

/-- C236: a frame leaves for the next one what it has read. -/
theorem C236_kept {c : Config} {s s' : Frame} {l l' : List Bool} (e : (frame c s).run l = .ok (s', l')) :
    s'.prevNum = s'.num ∧ s'.prevBook = s'.book ∧ s'.prevCb = s'.cbFlag ∧ s'.prevP = s'.pFlag ∧ s'.prevNbits = s'.nbits ∧ s'.prevType = s'.ctype := by
  unfold frame at e
  simp only [run_bind, Res.bind_eq_ok] at e
  obtain ⟨_, -, _, -, _, -, _, -, _, -, e⟩ := e
  cases e
  exact ⟨rfl, rfl, rfl, rfl, rfl, rfl⟩

/-- C231: the table of channels has 49 places: the first coefficient above leaves it. -/
theorem C231_beyond (a : Nat → Nat) (n : Nat) (f : Nat → Option Nat) (ch : Nat) (hc : ch < n) (h : 49 < a ch) : ∀ i, i ≤ ch →
    reassign a (n - i) i f = .ub := by
  suffices hs : ∀ m i f, i ≤ ch → ch < i + m → reassign a m i f = .ub from fun i hi => hs _ _ _ hi (by omega)
  intro m
  induction m with
  | zero => intro i f h1 h2; omega
  | succ m ih =>
    intro i f h1 h2
    unfold reassign
    by_cases h0 : a i = 0
    · rw [if_pos h0]
      have : i ≠ ch := fun e => by rw [e] at h0; omega
      exact ih (i + 1) f (by omega) (by omega)
    · rw [if_neg h0]
      split
      · rfl
      · have : i ≠ ch := fun e => by subst e; omega
        exact ih (i + 1) _ (by omega) (by omega)

/-- C232: the sets hold the coefficients of the channels of ambience in the given state. -/
theorem C232_states (c : Config) (s : Frame) (t x : Nat) : x ∈ sortSet (inState c s t) ↔ ∃ ch < c.extra, s.ctype ch = 2 ∧ s.trans ch = t ∧ s.ambIdx ch = x := by
  rw [(C232_sorted _).2]
  unfold inState
  simp only [List.mem_map, List.mem_filter, List.mem_range, decide_eq_true_eq]
  constructor
  · rintro ⟨ch, ⟨h1, h2, h3⟩, h4⟩; exact ⟨ch, h1, h2, h3, h4⟩
  · rintro ⟨ch, h1, h2, h3, h4⟩; exact ⟨ch, ⟨h1, h2, h3⟩, h4⟩

end Verif.Hoa
