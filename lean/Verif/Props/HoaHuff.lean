import Verif.Props.HoaConfig

/-! # C223: Huffman codes of the elements of vectors -/

namespace Verif.Hoa

open Prog

theorem run_bits_one (l : List Bool) {α : Type} (f : Nat → Prog α) :
    (bits 1 >>= f).run l = match l with | [] => .jump | b :: l => (f b.toNat).run l := by
  cases l with
  | nil => rfl
  | cons b l => cases b <;> rfl

/-- What the loop delivers for the bits it reads: the first of their beginnings that the table holds. -/
theorem loop_reads (t : List (Nat × Nat × Nat)) (f w k : Nat) : Reads (huffLoop t f w k) (fun v b => 1 ≤ b.length ∧ b.length ≤ f ∧
    findWord t (w * 2 ^ b.length + bitsVal b) (k + b.length) = some v ∧
    ∀ j, 1 ≤ j → j < b.length → findWord t (w * 2 ^ j + bitsVal (b.take j)) (k + j) = none) := by
  induction f generalizing w k with
  | zero => exact Reads.undef.congr fun v b => ⟨False.elim, fun h => by omega⟩
  | succ f ih =>
    intro l v l'
    unfold huffLoop
    rw [run_bits_one]
    cases l with
    | nil => 
      constructor
      · intro h; cases h
      · rintro ⟨b, ⟨h1, -⟩, h⟩
        cases b with
        | nil => simp at h1
        | cons => simp at h
    | cons x l =>
      simp only
      cases hf : findWord t (2 * w + x.toNat) (k + 1) with
      | some u =>
        simp only
        constructor
        · intro h
          change Res.ok (u, l) = Res.ok (v, l') at h
          simp only [Res.ok.injEq, Prod.mk.injEq] at h
          obtain ⟨rfl, rfl⟩ := h
          refine ⟨[x], ⟨by simp, by simp, ?_, fun j h1 h2 => by simp at h2; omega⟩, rfl⟩
          rw [← hf]
          cases x <;> simp [bitsVal] <;> ring_nf
        · rintro ⟨b, ⟨h1, h2, h3, h4⟩, h5⟩
          cases b with
          | nil => simp at h1
          | cons y b =>
            simp only [List.cons_append, List.cons.injEq] at h5
            obtain ⟨rfl, rfl⟩ := h5
            cases b with
            | nil =>
              change Res.ok (u, l') = Res.ok (v, l')
              have : findWord t (2 * w + x.toNat) (k + 1) = some v := by
                rw [← h3]
                cases x <;> simp [bitsVal] <;> ring_nf
              rw [hf] at this
              cases this
              rfl
            | cons z b =>
              have h6 := h4 1 (by omega) (by simp)
              have h7 : w * 2 ^ 1 + bitsVal ((x :: z :: b).take 1) = 2 * w + x.toNat := by
                cases x <;> simp [bitsVal] <;> ring
              rw [h7, hf] at h6
              cases h6
      | none =>
        simp only
        rw [ih (2 * w + x.toNat) (k + 1) l v l']
        have val : ∀ b : List Bool, w * 2 ^ (x :: b).length + bitsVal (x :: b) = (2 * w + x.toNat) * 2 ^ b.length + bitsVal b := by
          intro b
          have : bitsVal (x :: b) = x.toNat * 2 ^ b.length + bitsVal b := by
            rw [bitsVal_cons]
          rw [this, List.length_cons, pow_succ]
          ring
        constructor
        · rintro ⟨b, ⟨h1, h2, h3, h4⟩, rfl⟩
          refine ⟨x :: b, ⟨by simp, by simp; omega, ?_, ?_⟩, rfl⟩
          · rw [val b, ← h3, List.length_cons]
            congr 1
            omega
          · intro j hj1 hj2
            rw [List.length_cons] at hj2
            cases j with
            | zero => omega
            | succ j =>
              rw [List.take_succ_cons]
              have hlen : (b.take j).length = j := by simp; omega
              have := val (b.take j)
              rw [List.length_cons, hlen] at this
              rw [this]
              by_cases hj0 : j = 0
              · subst hj0
                simpa [bitsVal] using hf
              · have := h4 j (by omega) (by omega)
                rw [show k + 1 + j = k + (j + 1) by omega] at this
                exact this
        · rintro ⟨b, ⟨h1, h2, h3, h4⟩, h5⟩
          cases b with
          | nil => simp at h1
          | cons y b =>
            simp only [List.cons_append, List.cons.injEq] at h5
            obtain ⟨rfl, rfl⟩ := h5
            rw [val b, List.length_cons] at h3
            have hb : b ≠ [] := by
              rintro rfl
              simp only [List.length_nil, bitsVal] at h3
              simp at h3
              rw [hf] at h3
              cases h3
            have hbl : 1 ≤ b.length := List.length_pos_of_ne_nil hb
            simp only [List.length_cons] at h2 h4
            refine ⟨b, ⟨hbl, by omega, ?_, ?_⟩, rfl⟩
            · rw [← h3]
              congr 1
              omega
            · intro j hj1 hj2
              have := h4 (j + 1) (by omega) (by omega)
              rw [List.take_succ_cons] at this
              have hlen : (b.take j).length = j := by simp; omega
              have hv := val (b.take j)
              rw [List.length_cons, hlen] at hv
              rw [hv] at this
              rw [show k + 1 + j = k + (j + 1) by omega]
              exact this

/-- Every sequence of `f` bits from a beginning on hits a word of the table. -/
def full (t : List (Nat × Nat × Nat)) : (f w k : Nat) → Bool
  | 0, _, _ => false
  | f + 1, w, k =>
    ((findWord t (2 * w) (k + 1)).isSome || full t f (2 * w) (k + 1)) && ((findWord t (2 * w + 1) (k + 1)).isSome || full t f (2 * w + 1) (k + 1))

theorem full_run {t : List (Nat × Nat × Nat)} (f g w k : Nat) (h : full t f w k = true) (hg : f ≤ g) (l : List Bool) (hl : f ≤ l.length) :
    ∃ v l', (huffLoop t g w k).run l = .ok (v, l') := by
  induction f generalizing g w k l with
  | zero => simp [full] at h
  | succ f ih =>
    obtain ⟨g, rfl⟩ := Nat.exists_eq_add_of_le hg
    rw [show f + 1 + g = (f + g) + 1 by omega]
    unfold huffLoop
    rw [run_bits_one]
    cases l with
    | nil => simp at hl
    | cons x l =>
      simp only [full, Bool.and_eq_true, Bool.or_eq_true] at h
      have hx : (findWord t (2 * w + x.toNat) (k + 1)).isSome ∨ full t f (2 * w + x.toNat) (k + 1) = true := by
        cases x
        · simpa using h.1
        · simpa using h.2
      simp only
      cases hf : findWord t (2 * w + x.toNat) (k + 1) with
      | some u => exact ⟨u, l, rfl⟩
      | none =>
        rw [hf] at hx
        exact ih (f + g) _ _ (by simpa using hx) (by omega) l (by simpa using hl)

/-- What is checked of the 50 tables: each symbol below the number of bits has one entry, which is found and no beginning of which is a word,
and all sequences of bits hit a word. -/
def Good (n : Nat) (t : List (Nat × Nat × Nat)) : Prop :=
  (∀ e ∈ t, e.1 < n ∧ 1 ≤ e.2.1 ∧ e.2.1 ≤ 31 ∧ t.find? (fun x => decide (x.1 = e.1)) = some e ∧
    bitsVal (natBits e.2.1 e.2.2) = e.2.2 ∧ (natBits e.2.1 e.2.2).length = e.2.1 ∧ findWord t e.2.2 e.2.1 = some e.1 ∧
    ∀ j < e.2.1, 1 ≤ j → findWord t (bitsVal ((natBits e.2.1 e.2.2).take j)) j = none) ∧
  (∀ v < n, (t.find? (fun x => decide (x.1 = v))).isSome) ∧ full t 11 0 0 = true

instance (n : Nat) (t : List (Nat × Nat × Nat)) : Decidable (Good n t) := by unfold Good; infer_instance

set_option maxRecDepth 4000 in
theorem tables_good : ∀ n < 10, ∀ i < 5, Good (n + 6) ((huffTables.getD n []).getD i []) := by decide +kernel

theorem table_good {n i : Nat} (h1 : 6 ≤ n) (h2 : n < 16) (h3 : 1 ≤ i) (h4 : i < 6) : Good n (huffTable n i) := by
  have := tables_good (n - 6) (by omega) (i - 1) (by omega)
  rwa [show n - 6 + 6 = n by omega] at this

/-- A symbol is delivered if and only if the bits are its code word. -/
theorem C223_code {n i : Nat} (h1 : 6 ≤ n) (h2 : n < 16) (h3 : 1 ≤ i) (h4 : i < 6) :
    Reads (huffDecode n i) (fun v b => wordOf (huffTable n i) v = some b) := by
  unfold huffDecode
  rw [if_pos ⟨h1, h2, h3, h4⟩]
  obtain ⟨hg, -, -⟩ := table_good h1 h2 h3 h4
  refine (loop_reads _ 31 0 0).congr fun v b => ?_
  simp only [Nat.zero_mul, Nat.zero_add]
  constructor
  · rintro ⟨hb1, hb2, hb3, -⟩
    unfold findWord at hb3
    rw [Option.map_eq_some_iff] at hb3
    obtain ⟨e, he, rfl⟩ := hb3
    have hm := List.mem_of_find?_eq_some he
    have hp := List.find?_some he
    simp only [decide_eq_true_eq] at hp
    obtain ⟨_, _, _, hu, -⟩ := hg e hm
    rw [wordOf, hu, Option.map_some, ← hp.1, ← hp.2, natBits_bitsVal]
  · intro hw
    unfold wordOf at hw
    rw [Option.map_eq_some_iff] at hw
    obtain ⟨e, he, rfl⟩ := hw
    have hm := List.mem_of_find?_eq_some he
    have hp := List.find?_some he
    simp only [decide_eq_true_eq] at hp
    obtain ⟨_, hl1, hl2, hu, hv, hl, hf, hn⟩ := hg e hm
    rw [hl, hv, hf, hp]
    exact ⟨hl1, hl2, rfl, fun j hj1 hj2 => hn j hj2 hj1⟩

/-- Every symbol below the number of bits has a code word, and no other symbol. -/
theorem C223_symbols {n i : Nat} (h1 : 6 ≤ n) (h2 : n < 16) (h3 : 1 ≤ i) (h4 : i < 6) (v : Nat) :
    (∃ b, wordOf (huffTable n i) v = some b) ↔ v < n := by
  obtain ⟨hg, hs, -⟩ := table_good h1 h2 h3 h4
  constructor
  · rintro ⟨b, hw⟩
    unfold wordOf at hw
    rw [Option.map_eq_some_iff] at hw
    obtain ⟨e, he, rfl⟩ := hw
    have hp := List.find?_some he
    simp only [decide_eq_true_eq] at hp
    rw [← hp]
    exact (hg e (List.mem_of_find?_eq_some he)).1
  · intro hv
    obtain ⟨e, he⟩ := Option.isSome_iff_exists.mp (hs v hv)
    exact ⟨_, by rw [wordOf, he]; rfl⟩

/-- Any 11 bits begin with a code word, so that decoding ends. -/
theorem C223_ends {n i : Nat} (h1 : 6 ≤ n) (h2 : n < 16) (h3 : 1 ≤ i) (h4 : i < 6) (l : List Bool) (hl : 11 ≤ l.length) :
    ∃ v l', (huffDecode n i).run l = .ok (v, l') ∧ v < n := by
  obtain ⟨v, l', h⟩ := full_run 11 31 0 0 (table_good h1 h2 h3 h4).2.2 (by omega) l hl
  have h' : (huffDecode n i).run l = .ok (v, l') := by
    unfold huffDecode
    rw [if_pos ⟨h1, h2, h3, h4⟩]
    exact h
  obtain ⟨b, hb, -⟩ := (C223_code h1 h2 h3 h4 l v l').mp h'
  exact ⟨v, l', h', (C223_symbols h1 h2 h3 h4 v).mp ⟨b, hb⟩⟩

/-- Symbol 3 of the first table for 6 bits has the word 01. -/
example : wordOf (huffTable 6 1) 3 = some [false, true] ∧ (huffDecode 6 1).run [false, true, true] = .ok (3, [true]) := by decide

end Verif.Hoa
