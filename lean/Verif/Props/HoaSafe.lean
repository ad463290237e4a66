import Verif.Props.HoaHuff

/-! # C224: frames of higher order ambisonics are read without leaving arrays -/

namespace Verif.Hoa

open Prog

/-- A program that has no undefined behaviour on inputs shorter than the counter of `unary` and whose results meet a condition. -/
def Safe {α : Type} (p : Prog α) (P : α → Prop) : Prop :=
  ∀ l, l.length < unaryFuel → p.run l ≠ .ub ∧ ∀ a l', p.run l = .ok (a, l') → P a ∧ l'.length ≤ l.length

variable {α β : Type}

theorem Safe.pure {x : α} {P : α → Prop} (h : P x) : Safe (Pure.pure x) P := by
  intro l _
  refine ⟨fun h => (by cases h), fun a l' e => ?_⟩
  cases e
  exact ⟨h, le_refl _⟩

theorem Safe.fail {c : ErrCode} {P : α → Prop} : Safe (Prog.fail c : Prog α) P :=
  fun l _ => ⟨fun h => (by cases h), fun a l' e => (by cases e)⟩

theorem Safe.bits {n : Nat} (h : n ≤ 24) : Safe (Prog.bits n) (fun v => v < 2 ^ n) := by
  intro l _
  constructor
  · intro e
    change (if l.length < n then Res.jump else if 24 < n then Res.ub else Res.ok (bitsVal (l.take n), l.drop n)) = Res.ub at e
    split_ifs at e
    omega
  · intro a l' e
    obtain ⟨b, ⟨_, hv, _⟩, rfl⟩ := (Reads.bits n l a l').mp e
    exact ⟨hv, by simp⟩

theorem Safe.bind {p : Prog α} {f : α → Prog β} {P : α → Prop} {Q : β → Prop} (hp : Safe p P) (hf : ∀ a, P a → Safe (f a) Q) :
    Safe (p >>= f) Q := by
  intro l hl
  obtain ⟨h1, h2⟩ := hp l hl
  constructor
  · intro e
    rw [run_bind] at e
    rcases Res.bind_eq_ub.mp e with e | ⟨⟨a, l1⟩, e1, e2⟩
    · exact h1 e
    · obtain ⟨ha, hl1⟩ := h2 a l1 e1
      exact (hf a ha l1 (by omega)).1 e2
  · intro b l' e
    rw [run_bind, Res.bind_eq_ok] at e
    obtain ⟨⟨a, l1⟩, e1, e2⟩ := e
    obtain ⟨ha, hl1⟩ := h2 a l1 e1
    obtain ⟨hb, hl2⟩ := (hf a ha l1 (by omega)).2 b l' e2
    exact ⟨hb, by omega⟩

theorem Safe.mono {p : Prog α} {P Q : α → Prop} (h : Safe p P) (hq : ∀ a, P a → Q a) : Safe p Q :=
  fun l hl => ⟨(h l hl).1, fun a l' e => ⟨hq a ((h l hl).2 a l' e).1, ((h l hl).2 a l' e).2⟩⟩

theorem Safe.ite {c : Prop} [Decidable c] {p q : Prog α} {P : α → Prop} (h1 : c → Safe p P) (h2 : ¬ c → Safe q P) :
    Safe (if c then p else q) P := by
  by_cases h : c
  · rw [if_pos h]; exact h1 h
  · rw [if_neg h]; exact h2 h

theorem Safe.inside {n i : Nat} (h : i < n) : Safe (inside n i) (fun _ => True) := by
  unfold Hoa.inside
  rw [if_pos h]
  exact Safe.pure trivial

theorem Safe.foldN {σ : Type} {f : Nat → σ → Prog σ} {P : σ → Prop} (k i : Nat) (h : ∀ j s, i ≤ j → j < i + k → P s → Safe (f j s) P) (s : σ) (hs : P s) :
    Safe (foldN f k i s) P := by
  induction k generalizing i s with
  | zero => exact Safe.pure hs
  | succ k ih =>
    unfold Prog.foldN
    exact (h i s (by omega) (by omega) hs).bind fun s' hs' => ih (i + 1) (fun j s h1 h2 => h j s (by omega) (by omega)) s' hs'

/-- A loop whose condition depends on the index. -/
theorem Safe.foldI {σ : Type} {f : Nat → σ → Prog σ} (P : Nat → σ → Prop) (k i : Nat)
    (h : ∀ j s, i ≤ j → j < i + k → P j s → Safe (f j s) (P (j + 1))) (s : σ) (hs : P i s) : Safe (Prog.foldN f k i s) (P (i + k)) := by
  induction k generalizing i s with
  | zero => exact Safe.pure hs
  | succ k ih =>
    unfold Prog.foldN
    refine (h i s (by omega) (by omega) hs).bind fun s' hs' => ?_
    have := ih (i + 1) (fun j s h1 h2 => h j s (by omega) (by omega)) s' hs'
    rwa [show i + 1 + k = i + (k + 1) by omega] at this

theorem run_unary (f k : Nat) (l : List Bool) (hl : l.length < f) : (unary f k).run l ≠ .ub ∧
    ∀ a l', (unary f k).run l = .ok (a, l') → l'.length ≤ l.length := by
  induction f generalizing k l with
  | zero => omega
  | succ f ih =>
    unfold unary
    rw [run_bits_one]
    cases l with
    | nil => exact ⟨fun h => (by cases h), fun a l' h => (by cases h)⟩
    | cons b l =>
      simp only
      cases b
      · simp only [Bool.toNat_false, Nat.zero_ne_one, if_false]
        obtain ⟨h1, h2⟩ := ih (k + 1) l (by simp at hl; omega)
        exact ⟨h1, fun a l' h => le_trans (h2 a l' h) (by simp)⟩
      · simp only [Bool.toNat_true, if_true]
        exact ⟨fun h => (by cases h), fun a l' h => by cases h; simp⟩

theorem unary_safe : Safe (unary unaryFuel 0) (fun _ => True) := by
  intro l hl
  obtain ⟨h1, h2⟩ := run_unary unaryFuel 0 l hl
  exact ⟨h1, fun a l' h => ⟨trivial, h2 a l' h⟩⟩

theorem full_ub {t : List (Nat × Nat × Nat)} (f g w k : Nat) (h : full t f w k = true) (hg : f ≤ g) (l : List Bool) :
    (huffLoop t g w k).run l ≠ .ub := by
  induction f generalizing g w k l with
  | zero => simp [full] at h
  | succ f ih =>
    obtain ⟨g, rfl⟩ := Nat.exists_eq_add_of_le hg
    rw [show f + 1 + g = (f + g) + 1 by omega]
    unfold huffLoop
    rw [run_bits_one]
    cases l with
    | nil => intro h; cases h
    | cons x l =>
      simp only [full, Bool.and_eq_true, Bool.or_eq_true] at h
      have hx : (findWord t (2 * w + x.toNat) (k + 1)).isSome ∨ full t f (2 * w + x.toNat) (k + 1) = true := by
        cases x
        · simpa using h.1
        · simpa using h.2
      simp only
      cases hf : findWord t (2 * w + x.toNat) (k + 1) with
      | some u => intro h; cases h
      | none =>
        rw [hf] at hx
        exact ih (f + g) _ _ (by simpa using hx) (by omega) l

theorem huff_safe {n i : Nat} (h1 : 6 ≤ n) (h2 : n < 16) (h3 : 1 ≤ i) (h4 : i < 6) : Safe (huffDecode n i) (fun v => v < n) := by
  intro l _
  constructor
  · unfold huffDecode
    rw [if_pos ⟨h1, h2, h3, h4⟩]
    exact full_ub 11 31 0 0 (table_good h1 h2 h3 h4).2.2 (by omega) l
  · intro v l' e
    obtain ⟨b, hb, rfl⟩ := (C223_code h1 h2 h3 h4 l v l').mp e
    exact ⟨(C223_symbols h1 h2 h3 h4 v).mp ⟨b, hb⟩, by simp⟩

/-- Configurations for which no array is left: few coefficients, channels and entries of codebooks. -/
structure Small (c : Config) : Prop where
  range : ∃ t len, ConfigRange t len c
  coeffs : c.coeffs ≤ 48
  idx : 2 ^ c.ambBits + c.minCoeffs ≤ 48
  ids : 2 ^ c.idBits ≤ 49
  vq : 2 ^ c.vqBits ≤ 49
  transport : c.transport ≤ 16

theorem Small.of_order {c : Config} {t len : Nat} (h : ConfigRange t len c) (ho : c.order ≤ 4) (hm : c.max1 ≤ c.order + 1) (hv : c.vqBits ≤ 5)
    (ht : t ≤ 16) : Small c := by
  have h1 : c.amb1 ≤ c.order + 1 := h.ambOrder
  have h2 : c.amb1 ≤ c.max1 := by
    by_cases h3 : c.amb1 < c.order + 1
    · exact (h.maxCoded h3).1
    · rw [h.maxFull (by omega)]; exact h1
  have all : ∀ o < 5, (o + 1) * (o + 1) ≤ 48 ∧ 2 ^ ceilLog2 ((o + 1) * (o + 1)) ≤ 49 := by decide
  have all2 : ∀ m < 6, ∀ a < 6, a ≤ m → 2 ^ ceilLog2 (m * m - a * a) + a * a ≤ 48 := by decide
  obtain ⟨h4, h6⟩ := all c.order (by omega)
  have h5 := all2 c.max1 (by omega) c.amb1 (by omega) h2
  refine ⟨⟨t, len, h⟩, h4, h5, h6, ?_, by have := h.transport; omega⟩
  have : 2 ^ c.vqBits ≤ 2 ^ 5 := Nat.pow_le_pow_right (by omega) hv
  omega

/-- What holds of the structure between frames. -/
structure Inv (c : Config) (s : Frame) : Prop where
  num : ∀ i, s.num i ≤ 2 ^ c.vqBits
  prevNum : ∀ i, s.prevNum i ≤ 2 ^ c.vqBits
  nbits : ∀ i, s.nbits i < 16
  prevNbits : ∀ i, s.prevNbits i < 16
  ambIdx : ∀ i, s.ambIdx i ≤ 48

theorem inv_zero (c : Config) : Inv c Frame.zero :=
  ⟨fun _ => Nat.zero_le _, fun _ => Nat.zero_le _, fun _ => (by simp [Frame.zero]), fun _ => (by simp [Frame.zero]), fun _ => Nat.zero_le _⟩

theorem upd_all {f : Nat → Nat} {P : Nat → Prop} (h : ∀ i, P (f i)) {k v : Nat} (hv : P v) (i : Nat) : P (upd f k v i) := by
  unfold upd
  split
  · exact hv
  · exact h i

theorem Small.field {c : Config} (h : Small c) : c.ambBits ≤ 24 ∧ c.idBits ≤ 24 ∧ c.vqBits ≤ 24 ∧ c.expBits ≤ 24 ∧ c.gainBits ≤ 24 ∧ c.predSigs ≤ 4 ∧
    c.countBits ≤ 6 ∧ c.coeffs ≤ 48 := by
  obtain ⟨t, len, hr⟩ := h.range
  have lt : ∀ {n m : Nat}, 2 ^ n ≤ m → m ≤ 49 → n ≤ 24 := by
    intro n m h1 h2
    by_contra h3
    have : 2 ^ 25 ≤ 2 ^ n := Nat.pow_le_pow_right (by omega) (by omega)
    omega
  have hall : ∀ o ≤ 6, ∀ m < 8, ceilLog2 (ceilLog2 (3 * ((o + 1) * (o + 1)) / 2) + m + 1) ≤ 24 := by decide
  have hall2 : ∀ o ≤ 6, ceilLog2 (max 1 (((List.range 64).find? (fun k => decide ((o + 1) * (o + 1) ≤ (k + 1) * ceilLog2 ((o + 1) * (o + 1)) +
      ceilLog2 (k + 1)))).getD 64)) ≤ 6 := by decide +kernel
  have hi := h.idx
  have hg := hr.gain
  exact ⟨lt (m := 48) (by omega) (by omega), lt h.ids (by omega), lt h.vq (by omega), hall c.order hr.order c.maxExp hr.maxExp, by omega, hr.sigs.2,
    hall2 c.order hr.order, h.coeffs⟩

/-- The part of the state that the loop over the channels keeps: so far `i` channels. -/
structure Mid (c : Config) (i : Nat) (s : Frame) : Prop extends Inv c s where
  vecs : ∀ x ∈ s.vecs, 1 ≤ x ∧ x ≤ i
  len : s.vecs.length ≤ i
  dirs : s.numDir ≤ i

variable {c : Config}

theorem ambience_safe (h : Small c) (i : Nat) {s : Frame} (hs : Mid c i s) : Safe (ambience c i s) (Mid c i) := by
  have hf := h.field
  have hidx := h.idx
  have hset : ∀ {k : Nat}, k < 2 ^ c.ambBits → ∀ j, upd s.ambIdx i (k + 1 + c.minCoeffs) j ≤ 48 :=
    fun {k} hk j => upd_all (P := fun x => x ≤ 48) hs.ambIdx (by omega) j
  unfold ambience
  refine Safe.bind (P := Mid c i) ?_ ?_
  · refine Safe.ite (fun _ => (Safe.bits (by omega)).bind fun t _ => Safe.ite (fun _ => Safe.fail) fun _ => (Safe.bits (by omega)).bind fun k hk =>
      Safe.ite (fun _ => Safe.fail) fun _ => Safe.pure ?_) fun _ => (Safe.bits (by omega)).bind fun m _ => Safe.ite (fun _ => Safe.pure ?_)
      fun _ => Safe.ite (fun _ => Safe.pure ?_) fun _ => (Safe.bits (by omega)).bind fun k hk => Safe.pure ?_
    · exact ⟨⟨hs.num, hs.prevNum, hs.nbits, hs.prevNbits, hset hk⟩, hs.vecs, hs.len, hs.dirs⟩
    · exact ⟨⟨hs.num, hs.prevNum, hs.nbits, hs.prevNbits, hs.ambIdx⟩, hs.vecs, hs.len, hs.dirs⟩
    · exact ⟨⟨hs.num, hs.prevNum, hs.nbits, hs.prevNbits, hs.ambIdx⟩, hs.vecs, hs.len, hs.dirs⟩
    · exact ⟨⟨hs.num, hs.prevNum, hs.nbits, hs.prevNbits, hset hk⟩, hs.vecs, hs.len, hs.dirs⟩
  · intro s hs
    have := hs.ambIdx i
    exact Safe.ite (fun _ => Safe.ite (fun _ => (Safe.inside (by omega)).bind fun _ _ => Safe.pure
        ⟨⟨hs.num, hs.prevNum, hs.nbits, hs.prevNbits, hs.ambIdx⟩, hs.vecs, hs.len, hs.dirs⟩) fun _ =>
      Safe.ite (fun _ => (Safe.inside (by omega)).bind fun _ _ => Safe.pure
        ⟨⟨hs.num, hs.prevNum, hs.nbits, hs.prevNbits, hs.ambIdx⟩, hs.vecs, hs.len, hs.dirs⟩) fun _ => Safe.pure hs) fun _ => Safe.pure hs

theorem quant_safe (h : Small c) (i n : Nat) (hn : n < 16) {s : Frame} (hs : Mid c i s) : Safe (quant c i n s) (Mid c i) := by
  have hf := h.field
  have hb : ∀ j, upd s.nbits i n j < 16 := fun j => upd_all (P := fun x => x < 16) hs.nbits hn j
  unfold quant
  refine Safe.ite (fun _ => (Safe.bits (by omega)).bind fun k _ => (Safe.bits (by omega)).bind fun m hm => Safe.pure ?_) fun _ =>
    Safe.ite (fun _ => Safe.bind (P := fun _ => True) (Safe.ite (fun _ => Safe.pure trivial) fun _ => (Safe.bits (by omega)).mono fun _ _ => trivial)
      fun p _ => (Safe.bits (by omega)).bind fun b _ => Safe.pure ?_) fun _ => Safe.pure ?_
  · exact ⟨⟨fun j => upd_all (P := fun x => x ≤ 2 ^ c.vqBits) hs.num (by omega) j, hs.prevNum, hb, hs.prevNbits, hs.ambIdx⟩, hs.vecs, hs.len, hs.dirs⟩
  · exact ⟨⟨hs.num, hs.prevNum, hb, hs.prevNbits, hs.ambIdx⟩, hs.vecs, hs.len, hs.dirs⟩
  · exact ⟨⟨hs.num, hs.prevNum, hb, hs.prevNbits, hs.ambIdx⟩, hs.vecs, hs.len, hs.dirs⟩

theorem vector_safe (h : Small c) (i : Nat) {s : Frame} (hs : Mid c i s) : Safe (vector c i s) (Mid c i) := by
  unfold vector
  refine Safe.ite (fun _ => Safe.bind (P := Mid c i) (Safe.ite (fun _ => (Safe.bits (by omega)).bind fun v _ => Safe.pure ?_) fun _ => Safe.pure hs)
    fun s hs => (Safe.bits (by omega)).bind fun n hn => Safe.ite (fun _ => Safe.fail) fun _ => quant_safe h i n (by omega) hs) fun _ => ?_
  · exact ⟨⟨hs.num, hs.prevNum, hs.nbits, hs.prevNbits, hs.ambIdx⟩, hs.vecs, hs.len, hs.dirs⟩
  · have hs' : Mid c i (if c.vecKind = 1 ∧ s.prevType i ≠ 1 then { s with newVec := upd s.newVec i 1 } else s) := by
      split
      · exact ⟨⟨hs.num, hs.prevNum, hs.nbits, hs.prevNbits, hs.ambIdx⟩, hs.vecs, hs.len, hs.dirs⟩
      · exact hs
    generalize (if c.vecKind = 1 ∧ s.prevType i ≠ 1 then { s with newVec := upd s.newVec i 1 } else s) = s at hs'
    refine (Safe.bits (by omega)).bind fun a ha => (Safe.bits (by omega)).bind fun b hb => Safe.ite (fun _ => (Safe.bits (by omega)).bind fun k hk =>
      quant_safe h i _ (by omega) hs') fun _ => Safe.pure ?_
    exact ⟨⟨fun j => upd_all (P := fun x => x ≤ 2 ^ c.vqBits) hs'.num (hs'.prevNum i) j, hs'.prevNum,
      fun j => upd_all (P := fun x => x < 16) hs'.nbits (hs'.prevNbits i) j, hs'.prevNbits, hs'.ambIdx⟩, hs'.vecs, hs'.len, hs'.dirs⟩

theorem channel_safe (h : Small c) {i : Nat} (hi : i < 16) {s : Frame} (hs : Mid c i s) : Safe (channel c i s) (Mid c (i + 1)) := by
  have hf := h.field
  unfold channel
  refine (Safe.inside (by omega)).bind fun _ _ => (Safe.bits (by omega)).bind fun t _ => ?_
  have hs' : Mid c i { s with ctype := upd s.ctype i t } :=
    ⟨⟨hs.num, hs.prevNum, hs.nbits, hs.prevNbits, hs.ambIdx⟩, hs.vecs, hs.len, hs.dirs⟩
  refine Safe.bind (P := Mid c i) (Safe.ite (fun _ => ambience_safe h i hs') fun _ => Safe.ite (fun _ => vector_safe h i hs') fun _ =>
    Safe.ite (fun _ => ?_) fun _ => Safe.pure hs') fun s hs => ?_
  · unfold direction
    exact (Safe.bits (by omega)).bind fun d _ => Safe.ite (fun _ => Safe.fail) fun _ => Safe.pure
      ⟨⟨hs.num, hs.prevNum, hs.nbits, hs.prevNbits, hs.ambIdx⟩, hs.vecs, hs.len, hs.dirs⟩
  · refine Safe.bind (P := Mid c i) (Safe.ite (fun _ => ?_) fun _ => Safe.pure
      ⟨⟨hs.num, hs.prevNum, hs.nbits, hs.prevNbits, hs.ambIdx⟩, hs.vecs, hs.len, hs.dirs⟩) fun s hs => ?_
    · unfold prevGain
      exact (Safe.bits (by omega)).bind fun e _ => Safe.pure ⟨⟨hs.num, hs.prevNum, hs.nbits, hs.prevNbits, hs.ambIdx⟩, hs.vecs, hs.len, hs.dirs⟩
    · refine unary_safe.bind fun g _ => Safe.ite (fun _ => Safe.fail) fun _ => (Safe.bits (by omega)).bind fun e _ => Safe.pure ?_
      have h1 := hs.len
      have h2 := hs.dirs
      unfold enlist
      split_ifs
      · refine ⟨⟨hs.num, hs.prevNum, hs.nbits, hs.prevNbits, hs.ambIdx⟩, fun x hx => ?_, by simp; omega, by simp only; omega⟩
        simp only [List.mem_append, List.mem_singleton] at hx
        rcases hx with hx | rfl
        · have := hs.vecs x hx
          omega
        · omega
      · exact ⟨⟨hs.num, hs.prevNum, hs.nbits, hs.prevNbits, hs.ambIdx⟩, fun x hx => by have := hs.vecs x hx; omega, by simp only; omega, by simp only; omega⟩
      · exact ⟨⟨hs.num, hs.prevNum, hs.nbits, hs.prevNbits, hs.ambIdx⟩, fun x hx => by have := hs.vecs x hx; omega, by simp only; omega, by simp only; omega⟩

/-- What holds from the data of the vectors on. -/
structure Late (c : Config) (vs : List Nat) (d : Nat) (s : Frame) : Prop extends Inv c s where
  vecs : s.vecs = vs
  dirs : s.numDir = d

variable {vs : List Nat} {d : Nat}

theorem rest_safe (h : Small c) {i : Nat} (hi : i < 16) {s : Frame} (hs : Late c vs d s) : Safe (restChannel c i s) (Late c vs d) := by
  have hf := h.field
  unfold restChannel
  refine (Safe.inside (by omega)).bind fun _ _ => Safe.bind (P := Late c vs d) (Safe.ite (fun _ => ?_) fun _ => Safe.pure hs) fun s hs => unary_safe.bind
    fun g _ => (Safe.bits (by omega)).bind fun e _ => Safe.pure ⟨⟨hs.num, hs.prevNum, hs.nbits, hs.prevNbits, hs.ambIdx⟩, hs.vecs, hs.dirs⟩
  unfold prevGain
  exact (Safe.bits (by omega)).bind fun e _ => Safe.pure ⟨⟨hs.num, hs.prevNum, hs.nbits, hs.prevNbits, hs.ambIdx⟩, hs.vecs, hs.dirs⟩

theorem skipped_safe (s : Frame) {idx k : Nat} (hi : idx < 49) (hk : k < 49) : Safe (skipped s idx k) (fun _ => True) := by
  unfold skipped
  exact (Safe.inside (by omega)).bind fun _ _ => Safe.ite (fun _ => Safe.pure trivial) fun _ => (Safe.inside hi).bind fun _ _ =>
    Safe.ite (fun _ => (Safe.inside hk).bind fun _ _ => Safe.pure trivial) fun _ => Safe.pure trivial

theorem place (h : Small c) {k : Nat} (hk : k < c.vecLength) : 1 ≤ c.offset + k ∧ c.offset + k ≤ c.coeffs ∧ k < 48 := by
  obtain ⟨t, len, hr⟩ := h.range
  have := min_le_coeffs hr
  have := h.coeffs
  unfold Config.vecLength at hk
  have h1 : 1 ≤ c.offset := by unfold Config.offset; split_ifs <;> omega
  omega

theorem vq_safe (h : Small c) {ch idx : Nat} (hidx : idx < 16) {s : Frame} (hs : Late c vs d s) : Safe (vqData c ch idx s) (Late c vs d) := by
  have hf := h.field
  have hvq := h.vq
  have hb : ∀ k, indexBits c k ≤ 24 := by
    intro k
    unfold indexBits
    split_ifs <;> omega
  unfold vqData
  refine (Safe.inside hidx).bind fun _ _ => ?_
  have hs1 : Late c vs d { s with sgn := fillSgn s.sgn idx (s.sgnSize idx) (s.num ch) 0, sgnSize := upd s.sgnSize idx (s.num ch) } :=
    ⟨⟨hs.num, hs.prevNum, hs.nbits, hs.prevNbits, hs.ambIdx⟩, hs.vecs, hs.dirs⟩
  have hpair : ∀ j s, j < 128 → Late c vs d s → Safe (indexPair c ch idx j s) (Late c vs d) := by
    intro j s hj hs
    unfold indexPair
    exact (Safe.bits (hb _)).bind fun v _ => (Safe.bits (by omega)).bind fun g _ => (Safe.inside hj).bind fun _ _ => Safe.pure
      ⟨⟨hs.num, hs.prevNum, hs.nbits, hs.prevNbits, hs.ambIdx⟩, hs.vecs, hs.dirs⟩
  have hnum := hs.num ch
  refine Safe.bind (P := Late c vs d) (Safe.ite (fun _ => (Safe.bits (by omega)).bind fun w _ => ?_) fun _ => hpair 0 _ (by omega) hs1)
    fun s2 hs2 => ?_
  · exact Safe.foldN _ _ (fun j s _ hj hs => hpair j s (by simp only at hj; omega) hs) _
      ⟨⟨hs.num, hs.prevNum, hs.nbits, hs.prevNbits, hs.ambIdx⟩, hs.vecs, hs.dirs⟩
  · have hnum2 := hs2.num ch
    refine Safe.bind (P := fun _ => True) (Safe.foldN _ _ (fun j _ _ hj _ => ?_) () trivial) fun _ _ => Safe.foldN _ _ (fun k s _ hk hs => ?_) _ hs2
    · unfold checkIndex
      refine (Safe.inside (by omega)).bind fun _ _ => ?_
      cases indexLimit c (s2.book j) with
      | none => exact Safe.pure trivial
      | some m => exact Safe.ite (fun _ => Safe.fail) fun _ => Safe.pure trivial
    · have := place h (k := k) (by omega)
      exact (skipped_safe s (by omega) (by omega)).bind fun b _ => (Safe.inside (by omega)).bind fun _ _ => Safe.pure
        ⟨⟨hs.num, hs.prevNum, hs.nbits, hs.prevNbits, hs.ambIdx⟩, hs.vecs, hs.dirs⟩

theorem word_safe (h : Small c) {idx : Nat} (hidx : idx < 16) {s : Frame} (hs : Late c vs d s) : Safe (wordData c idx s) (Late c vs d) := by
  unfold wordData
  have hc := h.coeffs
  refine Safe.foldN _ _ (fun k s _ hk hs => ?_) s hs
  have := place h (k := k) (by omega)
  exact (skipped_safe s (by omega) (by omega)).bind fun b _ => Safe.bind (P := fun _ => True) (Safe.ite (fun _ => Safe.pure trivial) fun _ =>
    (Safe.bits (by omega)).mono fun _ _ => trivial) fun v _ => (Safe.inside hidx).bind fun _ _ => (Safe.inside (by omega)).bind fun _ _ => Safe.pure
    ⟨⟨hs.num, hs.prevNum, hs.nbits, hs.prevNbits, hs.ambIdx⟩, hs.vecs, hs.dirs⟩

theorem huffData_safe (h : Small c) {ch idx : Nat} (hch : ch < 16) (hidx : idx < 16) {s : Frame} (hs : Late c vs d s) (hn : 6 ≤ s.nbits ch) :
    Safe (huffData c ch idx s) (Late c vs d) := by
  unfold huffData
  refine (Safe.inside hidx).bind fun _ _ => Safe.bind (P := fun s => Late c vs d s ∧ 6 ≤ s.nbits ch) (Safe.foldN _ _ (fun k s _ hk hs => ?_) _
    ⟨⟨⟨hs.num, hs.prevNum, hs.nbits, hs.prevNbits, hs.ambIdx⟩, hs.vecs, hs.dirs⟩, hn⟩) fun s hs => Safe.pure
    ⟨⟨hs.1.num, hs.1.prevNum, hs.1.nbits, hs.1.prevNbits, hs.1.ambIdx⟩, hs.1.vecs, hs.1.dirs⟩
  obtain ⟨hs, hn⟩ := hs
  have hp := place h (k := k) (by omega)
  have hc := h.coeffs
  have hidx' : 1 ≤ huffIdx s ch (c.offset + k) ∧ huffIdx s ch (c.offset + k) < 6 := by
    unfold huffIdx subIdx
    split_ifs <;> omega
  have key : ∀ {s' : Frame}, s'.num = s.num → s'.prevNum = s.prevNum → s'.nbits = s.nbits → s'.prevNbits = s.prevNbits → s'.ambIdx = s.ambIdx →
      s'.vecs = s.vecs → s'.numDir = s.numDir → Late c vs d s' ∧ 6 ≤ s'.nbits ch := by
    intro s' e1 e2 e3 e4 e5 e6 e7
    exact ⟨⟨⟨by rw [e1]; exact hs.num, by rw [e2]; exact hs.prevNum, by rw [e3]; exact hs.nbits, by rw [e4]; exact hs.prevNbits,
      by rw [e5]; exact hs.ambIdx⟩, by rw [e6]; exact hs.vecs, by rw [e7]; exact hs.dirs⟩, by rw [e3]; exact hn⟩
  have hb := hs.nbits ch
  unfold huffElement
  refine (skipped_safe s (by omega) (by omega)).bind fun b _ => (Safe.inside hch).bind fun _ _ => (Safe.inside (by omega)).bind fun _ _ =>
    Safe.ite (fun _ => Safe.pure (key rfl rfl rfl rfl rfl rfl rfl)) fun _ => (huff_safe hn hb hidx'.1 hidx'.2).bind fun cid hcid =>
    Safe.ite (fun _ => (Safe.bits (by omega)).bind fun g _ => Safe.ite (fun _ => (Safe.bits (by omega)).bind fun v _ =>
      Safe.pure (key rfl rfl rfl rfl rfl rfl rfl)) fun _ => Safe.pure (key rfl rfl rfl rfl rfl rfl rfl)) fun _ =>
    Safe.pure (key rfl rfl rfl rfl rfl rfl rfl)

theorem vectors_safe (h : Small c) (l : List Nat) (idx : Nat) (hl : ∀ x ∈ l, 1 ≤ x ∧ x ≤ 16) (hi : idx + l.length ≤ 16) {s : Frame} (hs : Late c vs d s) :
    Safe (vectors c l idx s) (Late c vs d) := by
  induction l generalizing idx s with
  | nil => exact Safe.pure hs
  | cons x l ih =>
    unfold vectors
    have hx := hl x (by simp)
    simp only [List.length_cons] at hi
    refine Safe.bind (P := Late c vs d) ?_ fun s hs => ih (idx + 1) (fun y hy => hl y (by simp [hy])) (by omega) hs
    unfold vectorData
    exact Safe.ite (fun _ => vq_safe h (by omega) hs) fun _ => Safe.ite (fun _ => word_safe h (by omega) hs) fun _ =>
      Safe.ite (fun hn => huffData_safe h (by omega) (by omega) hs hn) fun _ => Safe.pure hs

theorem Late.same {s s' : Frame} (hs : Late c vs d s) (e1 : s'.num = s.num) (e2 : s'.prevNum = s.prevNum) (e3 : s'.nbits = s.nbits)
    (e4 : s'.prevNbits = s.prevNbits) (e5 : s'.ambIdx = s.ambIdx) (e6 : s'.vecs = s.vecs) (e7 : s'.numDir = s.numDir) : Late c vs d s' :=
  ⟨⟨by rw [e1]; exact hs.num, by rw [e2]; exact hs.prevNum, by rw [e3]; exact hs.nbits, by rw [e4]; exact hs.prevNbits,
      by rw [e5]; exact hs.ambIdx⟩, by rw [e6]; exact hs.vecs, by rw [e7]; exact hs.dirs⟩

theorem prediction_safe (h : Small c) (hd : d ≤ 16) {s : Frame} (hs : Late c vs d s) : Safe (prediction c s) (Late c vs d) := by
  have hf := h.field
  have hids := h.ids
  unfold prediction
  refine Safe.ite (fun _ => (Safe.bits (by omega)).bind fun on _ => Safe.ite (fun _ => ?_) fun _ => Safe.pure (hs.same rfl rfl rfl rfl rfl rfl rfl))
    fun _ => Safe.pure hs
  refine Safe.bind (P := fun s => Late c vs d s ∧ s.numActive ≤ 64) ?_ fun s hs => ?_
  · unfold activePreds
    refine (Safe.bits (by omega)).bind fun kind _ => Safe.ite (fun _ => ?_) fun _ => (Safe.bits (by omega)).bind fun n hn => ?_
    · refine Safe.mono (Safe.foldI (fun j s => Late c vs d s ∧ s.numActive ≤ j) c.coeffs 0 (fun j s _ hj hs => ?_) _
        ⟨hs.same rfl rfl rfl rfl rfl rfl rfl, by simp⟩) fun s hs => ⟨hs.1, by have := hs.2; omega⟩
      refine (Safe.bits (by omega)).bind fun v _ => Safe.pure ⟨hs.1.same rfl rfl rfl rfl rfl rfl rfl, ?_⟩
      have := hs.2
      simp only
      split_ifs <;> omega
    · have hn' : n < 64 := lt_of_lt_of_le hn (by
        have : 2 ^ c.countBits ≤ 2 ^ 6 := Nat.pow_le_pow_right (by omega) hf.2.2.2.2.2.2.1
        omega)
      refine Safe.foldN _ _ (fun j s _ hj hs => ?_) _ ⟨hs.same rfl rfl rfl rfl rfl rfl rfl, by simp only; omega⟩
      exact (Safe.bits (by omega)).bind fun k hk => (Safe.inside (by omega)).bind fun _ _ => Safe.pure ⟨hs.1.same rfl rfl rfl rfl rfl rfl rfl, hs.2⟩
  · obtain ⟨hs, hna⟩ := hs
    have hloop : s.numActive * c.predSigs ≤ 256 := by
      have : s.numActive * c.predSigs ≤ 64 * 4 := Nat.mul_le_mul hna hf.2.2.2.2.2.1
      omega
    have hw : ceilLog2 (s.numDir + 1) ≤ 5 := by
      rw [ceilLog2_eq (by have := hs.dirs; omega)]
      exact (Nat.clog_le_iff_le_pow (by omega)).mpr (by have := hs.dirs; omega)
    have hw2 : 2 ^ ceilLog2 (s.numDir + 1) ≤ 2 ^ 5 := Nat.pow_le_pow_right (by omega) hw
    generalize ceilLog2 (s.numDir + 1) = w at hw hw2
    refine Safe.bind (P := fun s => Late c vs d s ∧ s.numGains ≤ 256) ?_ fun s hs => Safe.foldN _ _ (fun j s' _ hj hs' => ?_) s hs.1
    · refine Safe.mono (Safe.foldI (fun j s => Late c vs d s ∧ s.numGains ≤ j) _ 0 (fun j s' _ hj hs' => ?_) _
        ⟨hs.same rfl rfl rfl rfl rfl rfl rfl, by simp⟩) fun s' hs' => ⟨hs'.1, by have := hs'.2; omega⟩
      unfold predId
      refine (Safe.bits (by omega)).bind fun v hv => (Safe.inside (by omega)).bind fun _ _ => Safe.ite (fun _ => (Safe.inside (by omega)).bind fun _ _ =>
        Safe.pure ⟨hs'.1.same rfl rfl rfl rfl rfl rfl rfl, by have := hs'.2; simp only; omega⟩) fun _ =>
        Safe.pure ⟨hs'.1.same rfl rfl rfl rfl rfl rfl rfl, by have := hs'.2; simp only; omega⟩
    · have := hs.2
      unfold predGain
      exact (Safe.inside (by omega)).bind fun _ _ => Safe.ite (fun _ => (Safe.bits (by omega)).bind fun v _ => Safe.pure
        (hs'.same rfl rfl rfl rfl rfl rfl rfl)) fun _ => Safe.pure hs'

theorem frame_safe (h : Small c) {s : Frame} (hs : Inv c s) : Safe (frame c s) (Inv c) := by
  have ht := h.transport
  have he : c.extra ≤ c.transport := by unfold Config.extra; omega
  unfold frame
  refine (Safe.bits (by omega)).bind fun f _ => Safe.bind (P := Mid c c.extra) ?_ fun s hs => ?_
  · have := Safe.foldI (Mid c) c.extra 0 (f := channel c) (fun j s _ hj hs => channel_safe h (by omega) hs)
      { s with indep := f != 0, vecs := [], numDir := 0, newVec := fun _ => 0, fadeIn := fun _ => 0, nonTrans := fun _ => 0 }
      ⟨⟨hs.num, hs.prevNum, hs.nbits, hs.prevNbits, hs.ambIdx⟩, by simp, by simp, by simp⟩
    rwa [Nat.zero_add] at this
  · have hv := hs.vecs
    have hl := hs.len
    have hd := hs.dirs
    refine Safe.bind (P := Late c s.vecs s.numDir) (Safe.foldN _ _ (fun j s' _ hj hs' => rest_safe h (by omega) hs') s ⟨hs.toInv, rfl, rfl⟩)
      fun s2 hs2 => ?_
    have e := hs2.vecs
    refine Safe.bind (P := Late c s.vecs s.numDir) (vectors_safe h _ 0 (fun x hx => ?_) ?_ (hs2.same rfl rfl rfl rfl rfl rfl rfl)) fun s3 hs3 => ?_
    · simp only [e] at hx
      have := hv x hx
      omega
    · simp only [e]
      omega
    · refine Safe.bind (P := Late c s.vecs s.numDir) (prediction_safe h (by omega) (hs3.same rfl rfl rfl rfl rfl rfl rfl)) fun s4 hs4 => Safe.pure ?_
      exact ⟨hs4.num, hs4.num, hs4.nbits, hs4.nbits, hs4.ambIdx⟩

/-- The states after any number of frames that were read. -/
inductive After (c : Config) : Frame → Prop
  | zero : After c Frame.zero
  | next {s s' : Frame} {l l' : List Bool} (h : After c s) (hl : l.length < unaryFuel) (e : (frame c s).run l = .ok (s', l')) : After c s'

/-- Up to order 4, with at most 16 channels, 32 entries of codebooks in a vector and no larger order sent than that of the signal, no array is left in any
sequence of frames, whatever the bits are. -/
theorem C224_safe_partial {t len : Nat} {l l' : List Bool} (h : (config t len).run l = .ok (c, l')) (ht : t ≤ 16) (ho : c.order ≤ 4)
    (hm : c.max1 ≤ c.order + 1) (hv : c.vqBits ≤ 5) {s : Frame} (hs : After c s) (bs : List Bool) (hb : bs.length < 4294967295) :
    (frame c s).run bs ≠ .ub := by
  obtain ⟨b, ⟨hr, -⟩, -⟩ := (C220_config t len l c l').mp h
  have small := Small.of_order hr ho hm hv ht
  have inv : Inv c s := by
    induction hs with
    | zero => exact inv_zero c
    | next _ hl e ih => exact ((frame_safe small ih _ hl).2 _ _ e).1
  exact (frame_safe small inv bs hb).1

end Verif.Hoa
