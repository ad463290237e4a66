import Verif.Model.Huff
import Verif.Spec.PrefixCode
import Verif.Proofs.Fields

/-! # Variable-length codes (C46, C49) -/

namespace Verif.Huff

open Prog PrefixCode

/-- The codeword of an entry as bits. -/
def word (e : Code) : List Bool := natBits e.size e.code

/-- The tables the decoding functions are written for: lengths 1 to 24 in increasing order, codes that
fit their lengths, no codeword the beginning of another. -/
structure Good (t : List Code) : Prop where
  size : ∀ e ∈ t, 1 ≤ e.size ∧ e.size ≤ 24 ∧ e.code < 2 ^ e.size
  sorted : t.Pairwise fun a b => a.size ≤ b.size
  free : PrefixFree (t.map word)

theorem Good.tail {e : Code} {t : List Code} (h : Good (e :: t)) : Good t :=
  ⟨fun x hx => h.size x (List.mem_cons_of_mem _ hx), (List.pairwise_cons.mp h.sorted).2,
    (List.pairwise_cons.mp (by simpa using h.free : PrefixFree (word e :: t.map word))).2⟩

theorem word_length (e : Code) : (word e).length = e.size := natBits_length _ _

theorem bitsVal_word (e : Code) (h : e.code < 2 ^ e.size) : bitsVal (word e) = e.code := by
  rw [word, bitsVal_natBits, Nat.mod_eq_of_lt h]

theorem bitsVal_inj : ∀ (a b : List Bool), a.length = b.length → bitsVal a = bitsVal b → a = b
  | [], [], _, _ => rfl
  | [], _ :: _, h, _ => by simp at h
  | _ :: _, [], h, _ => by simp at h
  | x :: a, y :: b, hl, hv => by
    have hl' : a.length = b.length := by simpa using hl
    rw [bitsVal_cons, bitsVal_cons, hl'] at hv
    have h1 := bitsVal_lt a
    have h2 := bitsVal_lt b
    rw [hl'] at h1
    have hxy : x = y := by
      cases x <;> cases y <;> simp at hv ⊢ <;> omega
    subst hxy
    rw [bitsVal_inj a b hl' (by omega)]

/-- If the first `size` bits spell the code of an entry, the input begins with its word. -/
theorem word_prefix (e : Code) (h : e.code < 2 ^ e.size) (l : List Bool) (hl : e.size ≤ l.length)
    (hv : bitsVal (l.take e.size) = e.code) : word e <+: l := by
  have : word e = l.take e.size := bitsVal_inj _ _ (by rw [word_length]; simp; omega)
    (by rw [bitsVal_word e h, hv])
  rw [this]
  exact List.take_prefix _ _

theorem prefix_comparable {a b l : List Bool} (ha : a <+: l) (hb : b <+: l) : a <+: b ∨ b <+: a := by
  rcases Nat.le_total a.length b.length with h | h
  · exact .inl (List.prefix_of_prefix_length_le ha hb h)
  · exact .inr (List.prefix_of_prefix_length_le hb ha h)

/-- The head of a good table does not match an input beginning with the word of a later entry. -/
theorem Good.head_ne {e0 e : Code} {t : List Code} (h : Good (e0 :: t)) (he : e ∈ t) {l : List Bool}
    (hp : word e <+: l) : bitsVal (l.take e0.size) ≠ e0.code := by
  intro hv
  have hfree := (List.pairwise_cons.mp (by simpa using h.free : PrefixFree (word e0 :: t.map word))).1
    (word e) (List.mem_map_of_mem he)
  have hsz := h.size e0 (by simp)
  have hle : e0.size ≤ e.size := (List.pairwise_cons.mp h.sorted).1 e he
  have hlen : e0.size ≤ l.length := by
    have := hp.length_le
    rw [word_length] at this; omega
  have := word_prefix e0 hsz.2.2 l hlen hv
  rcases prefix_comparable this hp with h1 | h1
  · exact hfree.1 h1
  · exact hfree.2 h1

theorem take_word {e : Code} {l : List Bool} (hp : word e <+: l) : l.take e.size = word e := by
  obtain ⟨r, rfl⟩ := hp
  rw [List.take_append_of_le_length (by rw [word_length]; exact Nat.le_refl _),
    List.take_of_length_le (by rw [word_length]; exact Nat.le_refl _)]

theorem drop_word (e : Code) (r : List Bool) : (word e ++ r).drop e.size = r := by
  have h := word_length e
  rw [List.drop_append, h, List.drop_of_length_le (by omega)]
  simp

theorem bitsVal_take_add (l : List Bool) (n d : Nat) (h : n + d ≤ l.length) :
    bitsVal (l.take n) * 2 ^ d + bitsVal ((l.drop n).take d) = bitsVal (l.take (n + d)) := by
  rw [List.take_add, bitsVal_append]
  have : ((l.drop n).take d).length = d := by simp; omega
  rw [this]

theorem huffLoop_run (e : Code) : ∀ (t : List Code) (e0 : Code), Good (e0 :: t) → e ∈ e0 :: t →
    ∀ l, word e <+: l →
      run (huffLoop e0.size (bitsVal (l.take e0.size)) (e0 :: t)) (l.drop e0.size) = .ok (e.val, l.drop e.size) := by
  intro t
  induction t with
  | nil =>
    intro e0 hg he l hp
    have : e = e0 := by simpa using he
    subst this
    rw [take_word hp, bitsVal_word e (hg.size e (by simp)).2.2]
    simp [huffLoop]
  | cons e1 t ih =>
    intro e0 hg he l hp
    rcases List.mem_cons.mp he with rfl | he
    · rw [take_word hp, bitsVal_word e (hg.size e (by simp)).2.2]
      simp [huffLoop]
    · have hle : e0.size ≤ e1.size := (List.pairwise_cons.mp hg.sorted).1 e1 (by simp)
      have hle' : e1.size ≤ e.size := by
        rcases List.mem_cons.mp he with rfl | h
        · exact Nat.le_refl _
        · exact (List.pairwise_cons.mp hg.tail.sorted).1 e h
      have hlen : e.size ≤ l.length := by
        have := hp.length_le
        rwa [word_length] at this
      have h24 := (hg.size e1 (by simp)).2.1
      rw [huffLoop, if_neg (hg.head_ne he hp)]
      rw [if_neg (by omega), run_bind, run_bits, if_neg (by simp; omega), if_neg (by omega)]
      have := ih e1 hg.tail he l hp
      show run (huffLoop e1.size _ _) _ = _
      rw [bitsVal_take_add l _ _ (by omega), show e0.size + (e1.size - e0.size) = e1.size by omega, List.drop_drop,
        show e0.size + (e1.size - e0.size) = e1.size by omega]
      exact this

/-- **C46** `ia_core_coder_huff_codeword` returns the entry whose codeword the input begins with and
consumes exactly the codeword, for every table with codewords ordered by length of which none is the
beginning of another. -/
theorem C46_codeword (t : List Code) (h : Good t) (e : Code) (he : e ∈ t) (l : List Bool) :
    run (huffCodeword t) (word e ++ l) = .ok (e.val, l) := by
  cases t with
  | nil => cases he
  | cons e0 t =>
    have hp : word e <+: word e ++ l := List.prefix_append _ _
    have hle : e0.size ≤ e.size := by
      rcases List.mem_cons.mp he with rfl | h'
      · exact Nat.le_refl _
      · exact (List.pairwise_cons.mp h.sorted).1 e h'
    have h24 := (h.size e0 (by simp)).2.1
    have := huffLoop_run e t e0 h he _ hp
    rw [huffCodeword, run_bind, run_bits, if_neg (by simp [word_length]; omega), if_neg (by omega)]
    show run (huffLoop e0.size _ _) _ = _
    rw [this, drop_word]

theorem readHalf_run (l : List Bool) : ∀ m n, n + (m + 1) / 2 ≤ l.length →
    run (readHalf m n (bitsVal (l.take n))) (l.drop n) =
      .ok ((n + (m + 1) / 2, bitsVal (l.take (n + (m + 1) / 2))), l.drop (n + (m + 1) / 2)) := by
  intro m
  induction m using Nat.strongRecOn with
  | ind m ih =>
    intro n hl
    match m, ih with
    | 0, _ => simp [readHalf]
    | 1, _ =>
      have h := bitsVal_take_add l n 1 (by omega)
      rw [readHalf, run_bind, run_bits, if_neg (by simp; omega), if_neg (by omega)]
      show Res.ok _ = _
      rw [List.drop_drop, ← h, Nat.mul_comm]
    | m + 2, ih =>
      have h := bitsVal_take_add l n 1 (by omega)
      rw [readHalf, run_bind, run_bits, if_neg (by simp; omega), if_neg (by omega)]
      show run (readHalf m (n + 1) _) _ = _
      rw [Nat.mul_comm, show bitsVal (l.take n) * 2 = bitsVal (l.take n) * 2 ^ 1 by rfl, h, List.drop_drop,
        ih m (by omega) (n + 1) (by omega), show n + 1 + (m + 1) / 2 = n + (m + 2 + 1) / 2 by omega]

/-- `j` stands for entries after the good part of the table. -/
theorem matchRun_spec (j : List Code) (e : Code) (l : List Bool) (hp : word e <+: l) (n : Nat) :
    ∀ t : List Code, Good t → e ∈ t → (∀ e0 ∈ t, n ≤ e0.size) →
      (matchRun n (bitsVal (l.take n)) (t ++ j) = .value e.val ∧ n = e.size) ∨
      ∃ t', matchRun n (bitsVal (l.take n)) (t ++ j) = .more (t' ++ j) ∧ Good t' ∧ e ∈ t' ∧
        ∀ e0 ∈ t', n < e0.size := by
  intro t
  induction t with
  | nil => intro _ he; cases he
  | cons e0 t ih =>
    intro hg he hn
    rw [List.cons_append, matchRun]
    by_cases hne : n = e0.size
    · rw [if_pos hne]
      rcases List.mem_cons.mp he with rfl | he
      · left
        subst hne
        rw [take_word hp, bitsVal_word e (hg.size e (by simp)).2.2]
        simp
      · have := hg.head_ne he hp
        rw [← hne] at this
        rw [if_neg this]
        exact ih hg.tail he fun x hx => hn x (List.mem_cons_of_mem _ hx)
    · rw [if_neg hne]
      right
      refine ⟨e0 :: t, rfl, hg, he, fun x hx => ?_⟩
      have h0 := hn e0 (by simp)
      rcases List.mem_cons.mp hx with rfl | hx
      · omega
      · have := (List.pairwise_cons.mp hg.sorted).1 x hx
        omega

theorem updateLoop_run (j : List Code) (ut : Bool) (e : Code) (l : List Bool) (hp : word e <+: l) :
    ∀ (fuel n : Nat) (t : List Code), Good t → e ∈ t → (∀ e0 ∈ t, n < e0.size) → e.size < fuel + n →
      run (updateLoop ut fuel n (bitsVal (l.take n)) (t ++ j)) (l.drop n) = .ok (e.val, l.drop e.size) := by
  intro fuel
  induction fuel with
  | zero =>
    intro n t _ he hn hf
    have := hn e he
    omega
  | succ fuel ih =>
    intro n t hg he hn hf
    cases t with
    | nil => cases he
    | cons e0 t =>
      have h0 := hn e0 (by simp)
      have hle : e0.size ≤ e.size := by
        rcases List.mem_cons.mp he with rfl | h
        · exact Nat.le_refl _
        · exact (List.pairwise_cons.mp hg.sorted).1 e h
      have hlen : e.size ≤ l.length := by
        have := hp.length_le
        rwa [word_length] at this
      rw [List.cons_append, updateLoop, run_bind, readHalf_run l _ _ (by omega)]
      generalize hk : n + (e0.size - n + 1) / 2 = k
      have hk1 : n < k := by omega
      have hk2 : ∀ x ∈ e0 :: t, k ≤ x.size := by
        intro x hx
        rcases List.mem_cons.mp hx with rfl | hx
        · omega
        · have := (List.pairwise_cons.mp hg.sorted).1 x hx
          omega
      show run (match matchRun k (bitsVal (l.take k)) (e0 :: t ++ j) with
        | .value v => pure v
        | .outside => undef
        | .more tbl => updateLoop ut fuel k (bitsVal (l.take k)) tbl) (l.drop k) = _
      rcases matchRun_spec j e l hp k (e0 :: t) hg he hk2 with ⟨hm, hke⟩ | ⟨t', hm, hg', he', hn'⟩
      · rw [hm]
        simp [hke]
      · rw [hm]
        exact ih k t' hg' he' hn' (by omega)

/-- **C46** `impd_drc_update_value` returns the entry whose codeword the input begins with and consumes
exactly the codeword. -/
theorem C46_update_value (t : List Code) (h : Good t) (e : Code) (he : e ∈ t) (l : List Bool) :
    run (updateValue t false) (word e ++ l) = .ok (e.val, l) := by
  have h24 := (h.size e he).2.1
  have := updateLoop_run [] false e (word e ++ l) (List.prefix_append _ _) 100000 0 t h he
    (fun x hx => (h.size x hx).1) (by omega)
  rw [drop_word] at this
  simpa [updateValue] using this

/-- When a time is decoded the first entry is left out; `j` are entries after the good part. -/
theorem update_time (e0 : Code) (t j : List Code) (h : Good t) (e : Code) (he : e ∈ t) (l : List Bool) :
    run (updateValue (e0 :: (t ++ j)) true) (word e ++ l) = .ok (e.val, l) := by
  have h24 := (h.size e he).2.1
  have := updateLoop_run j true e (word e ++ l) (List.prefix_append _ _) 100000 0 t h he
    (fun x hx => (h.size x hx).1) (by omega)
  rw [drop_word] at this
  simpa [updateValue] using this

/-- **C46** `impeghd_mc_decode_huffman` does the same, in whatever order the codewords are listed, as
long as the payload is not cut off inside a longer codeword. -/
theorem C46_mc : ∀ (t : List Code), (∀ e ∈ t, e.size ≤ 24 ∧ e.code < 2 ^ e.size) → PrefixFree (t.map word) →
    ∀ e ∈ t, ∀ l : List Bool, (∀ x ∈ t, x.size ≤ (word e ++ l).length) →
      run (mcDecode t) (word e ++ l) = .ok (e.val, l) := by
  intro t
  induction t with
  | nil => intro _ _ e he; cases he
  | cons e0 t ih =>
    intro hs hf e he l hl
    have h0 := hl e0 (by simp)
    have hs0 := hs e0 (by simp)
    have hf' := List.pairwise_cons.mp (by simpa using hf : PrefixFree (word e0 :: t.map word))
    have hp : word e <+: word e ++ l := List.prefix_append _ _
    have hmin : min ((word e ++ l).length : Int).toNat e0.size = e0.size := by
      rw [Int.toNat_natCast]
      exact Nat.min_eq_right h0
    rw [mcDecode, run_bind, run_avail]
    show run (look (min ((word e ++ l).length : Int).toNat e0.size) >>= _) (word e ++ l) = _
    rw [hmin, run_bind, run_look, if_neg (by omega), if_neg (by omega)]
    show run (if bitsVal ((word e ++ l).take e0.size) = e0.code then _ else _) (word e ++ l) = _
    rcases List.mem_cons.mp he with rfl | he
    · rw [if_pos (by rw [take_word hp, bitsVal_word e hs0.2]), run_bind, run_drop, if_neg (by omega),
        if_neg (by omega)]
      show run (pure e.val) _ = _
      rw [Int.toNat_natCast, drop_word]
      rfl
    · rw [if_neg]
      · exact ih (fun x hx => hs x (List.mem_cons_of_mem _ hx)) hf'.2 e he l
          fun x hx => hl x (List.mem_cons_of_mem _ hx)
      · intro hv
        have hfe := hf'.1 (word e) (List.mem_map_of_mem he)
        have := word_prefix e0 hs0.2 _ h0 hv
        rcases prefix_comparable this hp with h1 | h1
        · exact hfe.1 h1
        · exact hfe.2 h1

/-! ## Truncated input -/

theorem huffLoop_short (e : Code) (l z : List Bool) (hp : word e <+: l ++ z) (hs : l.length < e.size) :
    ∀ (t : List Code) (e0 : Code), Good (e0 :: t) → e ∈ e0 :: t → e0.size ≤ l.length →
      run (huffLoop e0.size (bitsVal (l.take e0.size)) (e0 :: t)) (l.drop e0.size) = .jump := by
  intro t
  induction t with
  | nil =>
    intro e0 _ he h0
    have : e = e0 := by simpa using he
    subst this
    omega
  | cons e1 t ih =>
    intro e0 hg he h0
    rcases List.mem_cons.mp he with rfl | he
    · omega
    · have hle : e0.size ≤ e1.size := (List.pairwise_cons.mp hg.sorted).1 e1 (by simp)
      have h24 := (hg.size e1 (by simp)).2.1
      have hne := hg.head_ne he hp
      rw [List.take_append_of_le_length h0] at hne
      rw [huffLoop, if_neg hne, if_neg (by omega), run_bind, run_bits]
      by_cases h1 : e1.size ≤ l.length
      · rw [if_neg (by simp; omega), if_neg (by omega)]
        show run (huffLoop e1.size _ _) _ = _
        rw [bitsVal_take_add l _ _ (by omega), show e0.size + (e1.size - e0.size) = e1.size by omega, List.drop_drop,
          show e0.size + (e1.size - e0.size) = e1.size by omega]
        exact ih e1 hg.tail he h1
      · rw [if_pos (by simp; omega)]
        rfl

theorem readHalf_short (l : List Bool) : ∀ m n, n ≤ l.length → l.length < n + (m + 1) / 2 →
    run (readHalf m n (bitsVal (l.take n))) (l.drop n) = .jump := by
  intro m
  induction m using Nat.strongRecOn with
  | ind m ih =>
    intro n hn hl
    match m, ih with
    | 0, _ => omega
    | 1, _ =>
      rw [readHalf, run_bind, run_bits, if_pos (by simp; omega)]
      rfl
    | m + 2, ih =>
      rw [readHalf, run_bind, run_bits]
      by_cases h1 : n < l.length
      · have h := bitsVal_take_add l n 1 (by omega)
        rw [if_neg (by simp; omega), if_neg (by omega)]
        show run (readHalf m (n + 1) _) _ = _
        rw [Nat.mul_comm, show bitsVal (l.take n) * 2 = bitsVal (l.take n) * 2 ^ 1 by rfl, h, List.drop_drop,
          ih m (by omega) (n + 1) (by omega) (by omega)]
      · rw [if_pos (by simp; omega)]
        rfl

theorem updateLoop_short (j : List Code) (ut : Bool) (e : Code) (l z : List Bool) (hp : word e <+: l ++ z) (hs : l.length < e.size) :
    ∀ (fuel n : Nat) (t : List Code), Good t → e ∈ t → (∀ e0 ∈ t, n < e0.size) → e.size < fuel + n → n ≤ l.length →
      run (updateLoop ut fuel n (bitsVal (l.take n)) (t ++ j)) (l.drop n) = .jump := by
  intro fuel
  induction fuel with
  | zero =>
    intro n t _ he hn hf _
    have := hn e he
    omega
  | succ fuel ih =>
    intro n t hg he hn hf hnl
    cases t with
    | nil => cases he
    | cons e0 t =>
      have h0 := hn e0 (by simp)
      rw [List.cons_append, updateLoop, run_bind]
      generalize hk : n + (e0.size - n + 1) / 2 = k
      by_cases hkl : k ≤ l.length
      · rw [readHalf_run l _ _ (by omega), hk]
        have hk1 : n < k := by omega
        have hk2 : ∀ x ∈ e0 :: t, k ≤ x.size := by
          intro x hx
          rcases List.mem_cons.mp hx with rfl | hx
          · omega
          · have := (List.pairwise_cons.mp hg.sorted).1 x hx
            omega
        show run (match matchRun k (bitsVal (l.take k)) (e0 :: t ++ j) with
          | .value v => pure v
          | .outside => undef
          | .more tbl => updateLoop ut fuel k (bitsVal (l.take k)) tbl) (l.drop k) = _
        have hm := matchRun_spec j e (l ++ z) hp k (e0 :: t) hg he hk2
        rw [List.take_append_of_le_length hkl] at hm
        rcases hm with ⟨_, hke⟩ | ⟨t', hm, hg', he', hn'⟩
        · omega
        · rw [hm]
          exact ih k t' hg' he' hn' (by omega) hkl
      · rw [readHalf_short l _ _ hnl (by omega)]
        rfl

/-- What decoding with the table `t` should do on the input `l`: some codeword is the beginning of the
input and its value is returned and the rest left, or the input is the beginning of a codeword and the
read runs out of data. -/
def Decodes (p : Prog Int) (t : List Code) (l : List Bool) : Prop :=
  (∃ e ∈ t, ∃ r, l = word e ++ r ∧ run p l = .ok (e.val, r)) ∨
  ((∃ e ∈ t, l <+: word e ∧ l.length < e.size) ∧ run p l = .jump)

theorem decodes {t : List Code} {n : Nat} (hc : Complete n (t.map word)) {p : Prog Int}
    (hok : ∀ e ∈ t, ∀ r, run p (word e ++ r) = .ok (e.val, r))
    (hshort : ∀ e ∈ t, ∀ l z, word e <+: l ++ z → l.length < e.size → run p l = .jump) (l : List Bool) :
    Decodes p t l := by
  obtain ⟨w, hw, hp⟩ := hc (l ++ List.replicate n false) (by simp)
  obtain ⟨e, he, rfl⟩ := List.mem_map.mp hw
  by_cases h : e.size ≤ l.length
  · left
    have : word e <+: l := List.prefix_of_prefix_length_le hp (List.prefix_append _ _) (by rwa [word_length])
    obtain ⟨r, rfl⟩ := this
    exact ⟨e, he, r, rfl, hok e he r⟩
  · right
    refine ⟨⟨e, he, ?_, by omega⟩, hshort e he l _ hp (by omega)⟩
    exact List.prefix_of_prefix_length_le (List.prefix_append _ _) hp (by rw [word_length]; omega)

/-- **C46** With a complete table every input whatsoever is decoded, without leaving the table. -/
theorem C46_codeword_total (t : List Code) (h : Good t) (n : Nat) (hc : Complete n (t.map word)) (l : List Bool) :
    Decodes (huffCodeword t) t l := by
  refine decodes hc (fun e he r => C46_codeword t h e he r) (fun e he l z hp hs => ?_) l
  cases t with
  | nil => cases he
  | cons e0 t =>
    have h24 := (h.size e0 (by simp)).2.1
    rw [huffCodeword, run_bind, run_bits]
    by_cases h0 : e0.size ≤ l.length
    · rw [if_neg (by omega), if_neg (by omega)]
      exact huffLoop_short e l z hp hs t e0 h he h0
    · rw [if_pos (by omega)]
      rfl

/-- **C46** -/
theorem C46_update_value_total (t : List Code) (h : Good t) (n : Nat) (hc : Complete n (t.map word))
    (l : List Bool) : Decodes (updateValue t false) t l := by
  refine decodes hc (fun e he r => C46_update_value t h e he r) (fun e he l z hp hs => ?_) l
  have h24 := (h.size e he).2.1
  have := updateLoop_short [] false e l z hp hs 100000 0 t h he (fun x hx => (h.size x hx).1) (by omega) (by omega)
  simpa [updateValue] using this

/-! ## The tables of the code -/

/-- Every string of `n` bits begins with one of the words. -/
def covers : Nat → List (List Bool) → Bool
  | 0, ws => ws.contains []
  | n + 1, ws => ws.contains [] ||
    (covers n (ws.filterMap fun w => if w.head? = some false then some w.tail else none) &&
      covers n (ws.filterMap fun w => if w.head? = some true then some w.tail else none))

theorem covers_tail {b : Bool} {l : List Bool} {ws : List (List Bool)}
    (h : ∃ w ∈ ws.filterMap (fun w => if w.head? = some b then some w.tail else none), w <+: l) :
    ∃ w ∈ ws, w <+: b :: l := by
  obtain ⟨w, hw, hp⟩ := h
  obtain ⟨v, hv, hvw⟩ := List.mem_filterMap.mp hw
  refine ⟨v, hv, ?_⟩
  cases v with
  | nil => simp at hvw
  | cons x v =>
    by_cases hx : x = b
    · subst hx
      simp at hvw
      subst hvw
      exact List.cons_prefix_cons.mpr ⟨rfl, hp⟩
    · simp [hx] at hvw

theorem covers_sound : ∀ (n : Nat) (ws : List (List Bool)), covers n ws = true → Complete n ws := by
  intro n
  induction n with
  | zero =>
    intro ws h l _
    exact ⟨[], by simpa [covers] using h, List.nil_prefix⟩
  | succ n ih =>
    intro ws h l hl
    rw [covers, Bool.or_eq_true, Bool.and_eq_true] at h
    rcases h with h | ⟨hf, ht⟩
    · exact ⟨[], by simpa using h, List.nil_prefix⟩
    · cases l with
      | nil => simp at hl
      | cons b l =>
        cases b
        · exact covers_tail (ih _ hf l (by simpa using hl))
        · exact covers_tail (ih _ ht l (by simpa using hl))

instance (ws : List (List Bool)) : Decidable (PrefixFree ws) :=
  inferInstanceAs (Decidable (ws.Pairwise _))

theorem scl_good : Good sclTable := ⟨by decide +kernel, by decide +kernel, by decide +kernel⟩
theorem gain01_good : Good gainTable01 := ⟨by decide +kernel, by decide +kernel, by decide +kernel⟩
theorem gain2_good : Good gainTable2 := ⟨by decide +kernel, by decide +kernel, by decide +kernel⟩
theorem slope_good : Good slopeTable := ⟨by decide +kernel, by decide +kernel, by decide +kernel⟩
theorem scl_complete : Complete 19 (sclTable.map word) := covers_sound _ _ (by decide +kernel)
theorem gain01_complete : Complete 11 (gainTable01.map word) := covers_sound _ _ (by decide +kernel)
theorem gain2_complete : Complete 11 (gainTable2.map word) := covers_sound _ _ (by decide +kernel)
theorem slope_complete : Complete 9 (slopeTable.map word) := covers_sound _ _ (by decide +kernel)

/-- **C46** Scale factors: every input is decoded by the codeword it begins with. -/
theorem C46_scl (l : List Bool) : Decodes (huffCodeword sclTable) sclTable l :=
  C46_codeword_total _ scl_good _ scl_complete l

/-- **C46** DRC gains and slopes. -/
theorem C46_drc (l : List Bool) :
    Decodes (updateValue gainTable01 false) gainTable01 l ∧ Decodes (updateValue gainTable2 false) gainTable2 l ∧
      Decodes (updateValue slopeTable false) slopeTable l :=
  ⟨C46_update_value_total _ gain01_good _ gain01_complete l, C46_update_value_total _ gain2_good _ gain2_complete l,
    C46_update_value_total _ slope_good _ slope_complete l⟩

theorem mcAngle_good : (∀ e ∈ mcAngle, e.size ≤ 11 ∧ e.code < 2 ^ e.size) ∧ PrefixFree (mcAngle.map word) :=
  ⟨by decide +kernel, by decide +kernel⟩
theorem mcScf_good : (∀ e ∈ mcScf, e.size ≤ 19 ∧ e.code < 2 ^ e.size) ∧ PrefixFree (mcScf.map word) :=
  ⟨by decide +kernel, by decide +kernel⟩
theorem mcAngle_complete : Complete 11 (mcAngle.map word) := covers_sound _ _ (by decide +kernel)
theorem mcScf_complete : Complete 19 (mcScf.map word) := covers_sound _ _ (by decide +kernel)

/-- **C46** Rotation angles and prediction coefficients of the multichannel tool: with as many bits left
as the longest codeword has, the codeword the input begins with is decoded. -/
theorem C46_mc_tables (l : List Bool) :
    (11 ≤ l.length → ∃ e ∈ mcAngle, ∃ r, l = word e ++ r ∧ run (mcDecode mcAngle) l = .ok (e.val, r)) ∧
    (19 ≤ l.length → ∃ e ∈ mcScf, ∃ r, l = word e ++ r ∧ run (mcDecode mcScf) l = .ok (e.val, r)) := by
  constructor
  · intro h
    obtain ⟨w, hw, hp⟩ := mcAngle_complete l h
    obtain ⟨e, he, rfl⟩ := List.mem_map.mp hw
    obtain ⟨r, rfl⟩ := hp
    exact ⟨e, he, r, rfl, C46_mc _ (fun x hx => ⟨by have := mcAngle_good.1 x hx; omega, (mcAngle_good.1 x hx).2⟩)
      mcAngle_good.2 e he r fun x hx => by have := (mcAngle_good.1 x hx).1; omega⟩
  · intro h
    obtain ⟨w, hw, hp⟩ := mcScf_complete l h
    obtain ⟨e, he, rfl⟩ := List.mem_map.mp hw
    obtain ⟨r, rfl⟩ := hp
    exact ⟨e, he, r, rfl, C46_mc _ (fun x hx => ⟨by have := mcScf_good.1 x hx; omega, (mcScf_good.1 x hx).2⟩)
      mcScf_good.2 e he r fun x hx => by have := (mcScf_good.1 x hx).1; omega⟩

/-- A code with words 0, 10, 110, 111 read from 110 followed by more; and the scale factor table on an
actual input. -/
example : Good [⟨1, 0, 7⟩, ⟨2, 2, -3⟩, ⟨3, 6, 4⟩, ⟨3, 7, 9⟩] ∧
    run (updateValue [⟨1, 0, 7⟩, ⟨2, 2, -3⟩, ⟨3, 6, 4⟩, ⟨3, 7, 9⟩] false) [true, true, false, true] = .ok (4, [true]) ∧
    run (huffCodeword sclTable) [true, false, false, true] =
      .ok ((sclTable.getD 1 ⟨0, 0, 0⟩).val, [true]) :=
  ⟨⟨by decide +kernel, by decide +kernel, by decide +kernel⟩, by decide +kernel, by decide +kernel⟩

end Verif.Huff
