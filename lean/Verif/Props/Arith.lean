import Verif.Proofs.Arith

/-! # Properties of the arithmetic decoder (C31, C32, C34) -/

namespace Verif.Arith

open Prog ArithCode

/-! ## The tables -/

/-- Executable form of `FreqTable`. -/
def freqTableB (tbl : List Nat) : Bool :=
  decide (2 ≤ tbl.length) && decide (tbl.getD 0 0 < 16384) &&
  decide (tbl.getD (tbl.length - 1) 0 = 0) &&
  (List.range (tbl.length - 1)).all fun i => decide (tbl.getD (i + 1) 0 < tbl.getD i 0)

theorem freqTable_of_bool {tbl : List Nat} (h : freqTableB tbl = true) : FreqTable tbl := by
  simp only [freqTableB, Bool.and_eq_true, decide_eq_true_eq, List.all_eq_true, List.mem_range] at h
  exact ⟨h.1.1.1, fun i hi => h.2 i (by omega), h.1.1.2, h.1.2⟩

/-- All 64 tables for the most significant bits are frequency tables of 17 symbols, and the
escape symbol never has more than 15310 / 16384 of the probability. -/
theorem cfM_valid (i : Nat) (h : i < 64) :
    ∃ tbl, cfM[i]? = some tbl ∧ FreqTable tbl ∧ tbl.length = 17 ∧ tbl.getD 15 0 ≤ 15310 := by
  have key : cfM.all (fun t => freqTableB t && decide (t.length = 17) && decide (t.getD 15 0 ≤ 15310))
      = true := by decide +kernel
  have hl : cfM.length = 64 := by decide +kernel
  rw [List.all_eq_true] at key
  refine ⟨cfM[i]'(by omega), List.getElem?_eq_getElem _, ?_⟩
  have := key _ (List.getElem_mem (l := cfM) (n := i) (by omega))
  simp only [Bool.and_eq_true, decide_eq_true_eq] at this
  exact ⟨freqTable_of_bool this.1.1, this.1.2, this.2⟩

/-- All 3 tables for the least significant bits are frequency tables of 4 symbols. -/
theorem cfR_valid (i : Nat) (h : i < 3) :
    ∃ tbl, cfR[i]? = some tbl ∧ FreqTable tbl ∧ tbl.length = 4 := by
  have key : cfR.all (fun t => freqTableB t && decide (t.length = 4)) = true := by decide +kernel
  have hl : cfR.length = 3 := by decide +kernel
  rw [List.all_eq_true] at key
  refine ⟨cfR[i]'(by omega), List.getElem?_eq_getElem _, ?_⟩
  have := key _ (List.getElem_mem (l := cfR) (n := i) (by omega))
  simp only [Bool.and_eq_true, decide_eq_true_eq] at this
  exact ⟨freqTable_of_bool this.1, this.2⟩

/-! ## C31: the interval -/

/-- Decode one symbol per table, as the callers of `ia_core_coder_arith_decode` do; stop at
`INVALID_BIT_COUNT`.  Returns the symbols, the registers and the bit count. -/
def decodeSeq : List (List Nat) → St → Int → Prog (List Nat × St × Int)
  | [], s, bc => pure ([], s, bc)
  | tbl :: ts, s, bc => do
    let r ← decode tbl tbl.length s bc
    match r with
    | none => pure ([], s, bc)
    | some (sym, s, bc) => do
      let (syms, s, bc) ← decodeSeq ts s bc
      pure (sym :: syms, s, bc)

/-- Every symbol is inside the alphabet of its table. -/
def inAlphabets : List (List Nat) → List Nat → Prop
  | _, [] => True
  | [], _ :: _ => False
  | tbl :: ts, sym :: syms => sym < tbl.length ∧ inAlphabets ts syms

theorem decodeSeq_ok (ts : List (List Nat)) (hts : ∀ t ∈ ts, FreqTable t) (s : St) (hs : Good s)
    (bc : Int) (hb0 : 0 ≤ bc) (hb : bc + 16 * ts.length ≤ 2147483647) (l : List Bool) :
    ∃ syms s' bc' l', run (decodeSeq ts s bc) l = .ok ((syms, s', bc'), l') ∧ Good s' ∧
      inAlphabets ts syms ∧ bc ≤ bc' ∧ bc' ≤ bc + 16 * ts.length := by
  induction ts generalizing s bc l with
  | nil => exact ⟨[], s, bc, l, rfl, hs, trivial, le_refl _, by simp⟩
  | cons tbl ts ih =>
    simp only [List.length_cons] at hb
    push_cast at hb
    unfold decodeSeq
    rcases decode_ok (hts tbl (by simp)) hs bc (by omega) (by omega) l with
      ⟨_, _, hr⟩ | ⟨_, sym, s1, k, hk, hr, hsym, hg, _⟩
    · refine ⟨[], s, bc, l, ?_, hs, trivial, le_refl _, by simp only [List.length_cons]; push_cast; omega⟩
      rw [run_bind, hr]; rfl
    · obtain ⟨syms, s', bc', l', h1, h2, h3, h4, h5⟩ := ih (fun t h => hts t (by simp [h])) s1 hg
        (bc + (k : Nat)) (by omega) (by omega) (l.drop k)
      refine ⟨sym :: syms, s', bc', l', ?_, h2, ⟨hsym.1, h3⟩, by omega, by
        simp only [List.length_cons]; push_cast; omega⟩
      rw [run_bind, hr, Res.ok_bind]
      simp only
      rw [run_bind, h1]
      rfl

/-- The initial registers. -/
theorem run_firstSymbol (l : List Bool) :
    run firstSymbol l = .ok (⟨0, 65535, pv 16 l⟩, l.drop 16) := by
  unfold firstSymbol
  rw [run_bind, run_avail, Res.ok_bind]
  simp only
  by_cases h : (16 : Int) ≤ l.length
  · rw [if_pos h, run_bind, run_bits, if_neg (by omega), if_neg (by decide)]
    have := pv_append (l.take 16) (l.drop 16) 0
    rw [List.take_append_drop, List.length_take_of_le (by omega)] at this
    simp only [pow_zero, mul_one, pv, add_zero] at this
    simp only [Res.ok_bind, run_pure, pv, this]
  · rw [if_neg h, run_bind, run_bits, if_neg (by simp), if_neg (by simp; omega), Res.ok_bind]
    simp only [Int.toNat_natCast]
    have h1 := pv_append l [] (16 - l.length)
    rw [List.append_nil, pv_nil, show l.length + (16 - l.length) = 16 by omega] at h1
    rw [List.take_length, show ((16 : Int) - l.length).toNat = 16 - l.length by omega]
    have h2 : (bitsVal l : Int) * 2 ^ (16 - l.length) = pv 16 l := by rw [h1]; simp
    have h3 := pv_nonneg 16 l
    have h4 := pv_lt 16 l
    rw [h2, run_w32_bind (by omega) (by norm_num at h4; omega), run_pure,
      List.drop_of_length_le (le_refl _), List.drop_of_length_le (by omega)]

theorem first_good (l : List Bool) : Good ⟨0, 65535, pv 16 l⟩ := by
  have h3 := pv_nonneg 16 l
  have h4 := pv_lt 16 l
  norm_num at h4
  exact ⟨⟨by simp, h3, by simp only; omega, by simp⟩, by simp, by simp, by simp⟩

/-- **C31** From the first symbol on, whatever the input bits and however many symbols are decoded
with whatever frequency tables: nothing is undefined (no table access outside the table, no 32-bit
overflow, no endless renormalisation), every symbol is in the alphabet and the registers satisfy
`0 <= low <= value <= high <= 65535` and `high - low >= 16384`.
The number of symbols is limited only by the 32-bit bit counter. -/
theorem C31_interval (ts : List (List Nat)) (hts : ∀ t ∈ ts, FreqTable t)
    (hn : ts.length < 2 ^ 27 - 1) (l : List Bool) :
    ∃ syms s bc l', run (firstSymbol >>= fun s => decodeSeq ts s 16) l = .ok ((syms, s, bc), l') ∧
      0 ≤ s.low ∧ s.low ≤ s.value ∧ s.value ≤ s.high ∧ s.high ≤ 65535 ∧
      16384 ≤ s.high - s.low ∧ inAlphabets ts syms ∧ 16 ≤ bc ∧ bc ≤ 16 + 16 * ts.length := by
  have hg := first_good l
  obtain ⟨syms, s', bc', l', h1, h2, h3, h4, h5⟩ := decodeSeq_ok ts hts _ hg 16 (by omega)
    (by norm_num at hn; omega) (l.drop 16)
  have hr := h2.range
  obtain ⟨⟨g1, g2, g3, g4⟩, _⟩ := h2
  refine ⟨syms, s', bc', l', ?_, g1, g2, g3, g4, by omega, h3, h4, h5⟩
  rw [run_bind, run_firstSymbol]
  exact h1

/-- **C31** for the pointer code of the bit buffer. -/
theorem C31_interval_runC (ts : List (List Nat)) (hts : ∀ t ∈ ts, FreqTable t)
    (hn : ts.length < 2 ^ 27 - 1) (b : BitBuf) (hb : b.WF) :
    ∃ syms s bc b', runC (firstSymbol >>= fun s => decodeSeq ts s 16) b = .ok ((syms, s, bc), b') ∧
      b'.WF ∧ 0 ≤ s.low ∧ s.low ≤ s.value ∧ s.value ≤ s.high ∧ s.high ≤ 65535 ∧
      16384 ≤ s.high - s.low ∧ inAlphabets ts syms := by
  obtain ⟨syms, s, bc, l', h, h1, h2, h3, h4, h5, h6, _⟩ := C31_interval ts hts hn b.rest
  have := sim (firstSymbol >>= fun s => decodeSeq ts s 16) b hb
  rw [h] at this
  obtain ⟨b', hb', hwf, _⟩ := this
  exact ⟨syms, s, bc, b', hb', hwf, h1, h2, h3, h4, h5, h6⟩

/-- The tables of the decoder qualify, and 40 bits give 5 symbols. -/
example : (∀ t ∈ cfM, FreqTable t) ∧
    ((run (firstSymbol >>= fun s => decodeSeq (cfM.take 5) s 16)
      (List.replicate 40 true)).map fun x => (x.1.1, x.1.2.2)) = .ok ([0, 0, 0, 0, 0], 19) := by
  constructor
  · intro t ht
    obtain ⟨i, hi, he⟩ := List.getElem_of_mem ht
    have hl : cfM.length = 64 := by decide +kernel
    obtain ⟨t', h1, h2, _⟩ := cfM_valid i (by omega)
    rw [List.getElem?_eq_getElem hi] at h1
    rw [← he]; simp only [Option.some.injEq] at h1; rw [h1]; exact h2
  · decide +kernel

/-! ## C34: selection of the probability model -/

theorem firstGE_spec (c : Nat) (l : List Nat) : firstGE c l ≤ l.length ∧
    (∀ j, j < firstGE c l → l.getD j 0 < c) ∧ (firstGE c l < l.length → c ≤ l.getD (firstGE c l) 0) := by
  induction l with
  | nil => simp [firstGE]
  | cons h t ih =>
    unfold firstGE
    split
    · simp; omega
    · obtain ⟨i1, i2, i3⟩ := ih
      refine ⟨by simp; omega, ?_, ?_⟩
      · intro j hj
        cases j with
        | zero => simp; omega
        | succ j => simpa using i2 j (by omega)
      · intro h; simpa using i3 (by simpa using h)

theorem all_range {n : Nat} {p : Nat → Bool} (h : (List.range n).all p = true) (i : Nat) (hi : i < n) :
    p i = true := List.all_eq_true.mp h i (List.mem_range.mpr hi)

theorem hash_sorted (i : Nat) (hi : i < 741) : hashM.getD i 0 < hashM.getD (i + 1) 0 :=
  of_decide_eq_true (all_range (p := fun i => decide (hashM.getD i 0 < hashM.getD (i + 1) 0))
    (by decide +kernel) i hi)

theorem lookupM_lt (i : Nat) (hi : i < 742) : lookupM.getD i 0 < 64 :=
  of_decide_eq_true (all_range (p := fun i => decide (lookupM.getD i 0 < 64)) (by decide +kernel) i hi)

theorem hashM1_lt (i : Nat) (hi : i < 742) : hashM1.getD i 0 < 64 :=
  of_decide_eq_true (all_range (p := fun i => decide (hashM1.getD i 0 < 64)) (by decide +kernel) i hi)

theorem hashM_length : hashM.length = 742 := by decide +kernel
theorem hashM1_length : hashM1.length = 742 := by decide +kernel
theorem lookupM_length : lookupM.length = 742 := by decide +kernel

theorem hash_mono {i j : Nat} (hij : i < j) (hj : j < 742) : hashM.getD i 0 < hashM.getD j 0 := by
  induction j with
  | zero => omega
  | succ j ih =>
    have h1 := hash_sorted j (by omega)
    rcases Nat.lt_or_ge i j with h | h
    · have := ih h (by omega); omega
    · rw [show i = j by omega]; exact h1

/-- The model a linear search gives: that of the context itself if it is listed, otherwise that of
the gap between two listed contexts.  The last of the 742 entries of `hashM` is an end marker. -/
def pkSpec (c : Nat) : Nat :=
  let i := firstGE c (hashM.take 741)
  if i < 741 ∧ hashM.getD i 0 = c then hashM1.getD i 0 else lookupM.getD i 0

theorem getD_take (l : List Nat) (n i : Nat) (h : i < n) : (l.take n).getD i 0 = l.getD i 0 := by
  simp [List.getD_eq_getElem?_getD, h]

theorem firstGE_unique (c i : Nat) (hi : i ≤ 741) (h1 : i = 0 ∨ hashM.getD (i - 1) 0 < c)
    (h2 : i < 741 → c ≤ hashM.getD i 0) : firstGE c (hashM.take 741) = i := by
  obtain ⟨a, b, d⟩ := firstGE_spec c (hashM.take 741)
  have hl : (hashM.take 741).length = 741 := by
    rw [List.length_take, hashM_length]; rfl
  rw [hl] at a d
  generalize firstGE c (hashM.take 741) = f at a b d
  rcases Nat.lt_trichotomy f i with h | h | h
  · exfalso
    have h3 := d (by omega)
    rw [getD_take _ _ _ (by omega)] at h3
    rcases h1 with h1 | h1
    · omega
    · rcases Nat.lt_or_ge f (i - 1) with h4 | h4
      · have := hash_mono h4 (by omega); omega
      · rw [show f = i - 1 by omega] at h3; omega
  · exact h
  · exfalso
    have h3 := b i h
    rw [getD_take _ _ _ (by omega)] at h3
    have := h2 (by omega); omega

theorem getPkLoop_ok (c : Nat) (fuel : Nat) (lo hi : Int) (hf : hi - lo ≤ fuel) (h0 : -1 ≤ lo)
    (h1 : lo < hi) (h2 : hi ≤ 741) (hlo : lo = -1 ∨ hashM.getD lo.toNat 0 < c)
    (hhi : hi = 741 ∨ c < hashM.getD hi.toNat 0) : getPkLoop c fuel lo hi = .ok (pkSpec c) := by
  have l1 := hashM_length
  have l2 := hashM1_length
  have l3 := lookupM_length
  induction fuel generalizing lo hi with
  | zero => omega
  | succ n ih =>
    unfold getPkLoop
    split
    · rename_i hgap
      simp only
      rw [if_neg (by omega), getElem?_getD _ _ (by omega)]
      simp only
      split
      · exact ih _ _ (by omega) (by omega) (by omega) h2 (Or.inr (by assumption)) hhi
      · split
        · exact ih _ _ (by omega) h0 (by omega) (by omega) hlo (Or.inr (by assumption))
        · rw [getElem?_getD _ _ (by omega)]
          simp only
          have he : hashM.getD (lo + (hi - lo) / 2).toNat 0 = c := by omega
          have hi' : firstGE c (hashM.take 741) = (lo + (hi - lo) / 2).toNat := by
            refine firstGE_unique c _ (by omega) ?_ (fun _ => by omega)
            rcases Nat.eq_zero_or_pos (lo + (hi - lo) / 2).toNat with hz | hz
            · left; exact hz
            · right
              have := hash_mono (i := (lo + (hi - lo) / 2).toNat - 1)
                (j := (lo + (hi - lo) / 2).toNat) (by omega) (by omega)
              omega
          unfold pkSpec
          simp only
          rw [hi', if_pos ⟨by omega, he⟩]
    · rw [if_neg (by omega), getElem?_getD _ _ (by omega)]
      simp only
      have hl : lo = hi - 1 := by omega
      have hi' : firstGE c (hashM.take 741) = hi.toNat := by
        refine firstGE_unique c _ (by omega) ?_ (fun h => ?_)
        · rcases hlo with h | h
          · left; omega
          · rw [hl] at h
            by_cases h' : hi = 0
            · left; omega
            · right; rwa [show hi.toNat - 1 = (hi - 1).toNat by omega]
        · rcases hhi with h' | h' <;> omega
      unfold pkSpec
      simp only
      rw [hi', if_neg]
      rintro ⟨h3, h4⟩
      rcases hhi with h' | h' <;> omega

/-- **C34** For every 32-bit context the binary search stays inside the tables, ends, and selects
the model that a linear search of the tables gives, one of the 64 existing ones. -/
theorem C34_getPk (c : Nat) : getPk c = .ok (pkSpec c) ∧ pkSpec c < 64 := by
  refine ⟨getPkLoop_ok c 742 (-1) (742 - 1) (by omega) (by omega) (by omega) (by omega) (Or.inl rfl)
    (Or.inl rfl), ?_⟩
  unfold pkSpec
  simp only
  have := (firstGE_spec c (hashM.take 741)).1
  rw [List.length_take, hashM_length] at this
  split
  · exact hashM1_lt _ (by omega)
  · exact lookupM_lt _ (by omega)

example : getPk 4369 = .ok (hashM1.getD 7 0) ∧ getPk 4370 = .ok (lookupM.getD 8 0) ∧
    getPk 4294967295 = .ok (lookupM.getD 741 0) := by decide +kernel

/-! ## C32: the decoder inverts the encoder -/

/-- What the decoder's `value` register holds when `S` are the encoder bits from the last written
one on and `f` straddle bits are pending. -/
def val (f : Nat) (S : List Bool) : Int := pv (16 + f) S - (2 ^ f - 1) * 32768

theorem bitsVal_replicate_true (f : Nat) : (bitsVal (List.replicate f true) : Int) = 2 ^ f - 1 := by
  induction f with
  | zero => simp
  | succ f ih =>
    rw [List.replicate_succ, bitsVal_cons]
    push_cast
    rw [ih, List.length_replicate, pow_succ]
    simp; ring

theorem bitsVal_replicate_false (f : Nat) : bitsVal (List.replicate f false) = 0 := by
  induction f with
  | zero => simp
  | succ f ih => rw [List.replicate_succ, bitsVal_cons, ih]; simp

theorem bitsVal_emit (b : Bool) (f : Nat) :
    (bitsVal (emit b f) : Int) = if b then 2 ^ f else 2 ^ f - 1 := by
  unfold emit
  rw [bitsVal_cons, List.length_replicate]
  cases b
  · push_cast
    simp only [Bool.not_false, bitsVal_replicate_true]; simp
  · simp [bitsVal_replicate_false]

theorem emit_length (b : Bool) (f : Nat) : (emit b f).length = f + 1 := by simp [emit]

theorem pv_emit (b : Bool) (f n : Nat) (S : List Bool) :
    pv (f + 1 + n) (emit b f ++ S) = (if b then 2 ^ f else 2 ^ f - 1) * 2 ^ n + pv n S := by
  have := pv_append (emit b f) S n
  rw [emit_length, bitsVal_emit] at this
  exact this

/-- Pending bits are settled by the next written bit. -/
theorem val_emit (b : Bool) (f : Nat) (S : List Bool) :
    val 0 S = 2 * (val f (emit b f ++ S) - if b then 32768 else 0) +
      bit ((emit b f ++ S).drop (16 + f)) := by
  have h1 := pv_emit b f 15 S
  rw [show f + 1 + 15 = 16 + f by omega] at h1
  have h2 : (emit b f ++ S).drop (16 + f) = S.drop 15 := by
    rw [List.drop_append, List.drop_of_length_le (by rw [emit_length]; omega), emit_length]
    simp only [List.nil_append]
    congr 1; omega
  unfold val
  rw [h1, h2]
  simp only [pv, pow_zero]
  cases b <;> simp <;> ring

theorem drop_emit (b : Bool) (f : Nat) (S : List Bool) :
    ((emit b f ++ S).drop (16 + f)).tail = S.drop (16 + 0) := by
  rw [List.tail_drop, List.drop_append, List.drop_of_length_le (by rw [emit_length]; omega), emit_length]
  simp only [List.nil_append]
  congr 1; omega

theorem val_pending (f : Nat) (S : List Bool) :
    val (f + 1) S = 2 * (val f S - 16384) + bit (S.drop (16 + f)) := by
  unfold val
  rw [← Nat.add_assoc, pv, pow_succ]; ring

/-- Encoder and decoder renormalise in step. -/
theorem renorm_inv (fuel : Nat) (low high : Int) (f : Nat) (bc : Int) (S : List Bool)
    (h0 : 0 ≤ low) (h1 : low ≤ high) (h2 : high ≤ 65535)
    (hf : 32768 < 2 ^ fuel * (high - low + 1)) (hb0 : 0 ≤ bc) (hb : bc + fuel ≤ 2147483647) :
    let r := renormalise fuel ⟨low, high, f⟩
    0 ≤ r.2.low ∧ r.2.high ≤ 65535 ∧ r.2.low < 32768 ∧ 32768 ≤ r.2.high ∧
    (r.2.low < 16384 ∨ 49152 ≤ r.2.high) ∧ f ≤ r.1.length + r.2.pending ∧
    r.1.length + r.2.pending ≤ f + fuel ∧
    (r.2.low ≤ val r.2.pending S → val r.2.pending S ≤ r.2.high →
      low ≤ val f (r.1 ++ S) ∧ val f (r.1 ++ S) ≤ high ∧
      run (renorm (fuel + 1) ⟨low, high, val f (r.1 ++ S)⟩ bc) ((r.1 ++ S).drop (16 + f)) =
        .ok ((⟨r.2.low, r.2.high, val r.2.pending S⟩, bc + (r.1.length + r.2.pending - f : Int)),
          S.drop (16 + r.2.pending))) := by
  induction fuel generalizing low high f bc with
  | zero =>
    simp only [pow_zero, one_mul] at hf
    simp only [renormalise]
    refine ⟨h0, h2, by omega, by omega, by omega, by simp, by simp, ?_⟩
    intro a b
    refine ⟨by simpa using a, by simpa using b, ?_⟩
    unfold renorm
    rw [if_neg (by simp only; omega), if_neg (by simp only; omega), if_neg (by simp only; omega)]
    simp
  | succ n ih =>
    push_cast at hb
    rw [pow_succ] at hf
    simp only [renormalise]
    unfold renorm
    simp only
    split
    · -- the lower half: a 0 is written
      rename_i hc
      have ih := ih (2 * low) (2 * high + 1) 0 (bc + 1) (by omega) (by omega) (by omega)
        (by linarith) (by omega) (by omega)
      simp only at ih
      obtain ⟨i1, i2, i3, i4, i5, i6, i7, i8⟩ := ih
      refine ⟨i1, i2, i3, i4, i5, by simp only [List.length_append, emit_length]; omega,
        by simp only [List.length_append, emit_length]; omega, ?_⟩
      intro a b
      dsimp only at a b ⊢
      obtain ⟨j1, j2, j3⟩ := i8 a b
      have hv := val_emit false f ((renormalise n ⟨2 * low, 2 * high + 1, 0⟩).1 ++ S)
      have hd := drop_emit false f ((renormalise n ⟨2 * low, 2 * high + 1, 0⟩).1 ++ S)
      rw [← List.append_assoc] at hv hd
      have hbit := bit_range (((emit false f ++ (renormalise n ⟨2 * low, 2 * high + 1, 0⟩).1) ++ S).drop (16 + f))
      simp only [Bool.false_eq_true, if_false] at hv
      refine ⟨by omega, by omega, ?_⟩
      rw [run_bind, run_shift _ _ _ (le_refl _) (by simp only; omega) (by simp only; omega)
        (by simp only; omega) (by simp only; omega), Res.ok_bind]
      simp only [sub_zero] at hv ⊢
      rw [run_w32_bind (by omega) (by omega), ← hv, hd, j3]
      simp only [List.length_append, emit_length]
      congr 3; push_cast; omega
    · split
      · -- the upper half: a 1 is written
        rename_i hc0 hc
        have ih := ih (2 * (low - 32768)) (2 * (high - 32768) + 1) 0 (bc + 1) (by omega) (by omega)
          (by omega) (by linarith) (by omega) (by omega)
        simp only at ih
        obtain ⟨i1, i2, i3, i4, i5, i6, i7, i8⟩ := ih
        refine ⟨i1, i2, i3, i4, i5, by simp only [List.length_append, emit_length]; omega,
          by simp only [List.length_append, emit_length]; omega, ?_⟩
        intro a b
        dsimp only at a b ⊢
        obtain ⟨j1, j2, j3⟩ := i8 a b
        have hv := val_emit true f
          ((renormalise n ⟨2 * (low - 32768), 2 * (high - 32768) + 1, 0⟩).1 ++ S)
        have hd := drop_emit true f
          ((renormalise n ⟨2 * (low - 32768), 2 * (high - 32768) + 1, 0⟩).1 ++ S)
        rw [← List.append_assoc] at hv hd
        have hbit := bit_range (((emit true f ++
          (renormalise n ⟨2 * (low - 32768), 2 * (high - 32768) + 1, 0⟩).1) ++ S).drop (16 + f))
        simp only [if_true] at hv
        refine ⟨by omega, by omega, ?_⟩
        rw [run_bind, run_shift _ _ _ (by omega) (by simp only; omega) (by simp only; omega)
          (by simp only; omega) (by simp only; omega), Res.ok_bind]
        simp only
        rw [run_w32_bind (by omega) (by omega), ← hv, hd, j3]
        simp only [List.length_append, emit_length]
        congr 3; push_cast; omega
      · split
        · -- the middle half: a pending bit
          rename_i hc0 hc1 hc
          have ih := ih (2 * (low - 16384)) (2 * (high - 16384) + 1) (f + 1) (bc + 1) (by omega)
            (by omega) (by omega) (by linarith) (by omega) (by omega)
          simp only at ih
          obtain ⟨i1, i2, i3, i4, i5, i6, i7, i8⟩ := ih
          refine ⟨i1, i2, i3, i4, i5, by omega, by omega, ?_⟩
          intro a b
          obtain ⟨j1, j2, j3⟩ := i8 a b
          have hv := val_pending f
            ((renormalise n ⟨2 * (low - 16384), 2 * (high - 16384) + 1, f + 1⟩).1 ++ S)
          have hbit := bit_range (((renormalise n ⟨2 * (low - 16384), 2 * (high - 16384) + 1,
            f + 1⟩).1 ++ S).drop (16 + f))
          refine ⟨by omega, by omega, ?_⟩
          rw [run_bind, run_shift _ _ _ (by omega) (by simp only; omega) (by simp only; omega)
            (by simp only; omega) (by simp only; omega), Res.ok_bind]
          simp only
          rw [run_w32_bind (by omega) (by omega), ← hv, List.tail_drop, Nat.add_assoc, j3]
          congr 3; push_cast; omega
        · dsimp only
          refine ⟨h0, h2, by omega, by omega, by omega, by simp, by simp, ?_⟩
          intro a b
          exact ⟨by simpa using a, by simpa using b, by simp⟩

/-- The flush bits put the value into the interval, whatever follows. -/
theorem flush_val (e : Enc) (S : List Bool) (h0 : 0 ≤ e.low) (h1 : e.high ≤ 65535)
    (h2 : e.low < 32768) (h3 : 32768 ≤ e.high) (h4 : e.low < 16384 ∨ 49152 ≤ e.high) :
    e.low ≤ val e.pending (flush e ++ S) ∧ val e.pending (flush e ++ S) ≤ e.high := by
  have hn := pv_nonneg 14 S
  have hlt := pv_lt 14 S
  norm_num at hlt
  have key : ∀ b, val e.pending (emit b (e.pending + 1) ++ S) =
      (if b then 32768 else 16384) + pv 14 S := by
    intro b
    have := pv_emit b (e.pending + 1) 14 S
    rw [show e.pending + 1 + 1 + 14 = 16 + e.pending by omega] at this
    unfold val
    rw [this, pow_succ]
    cases b <;> simp <;> ring
  unfold flush
  split
  · rw [key]; simp; omega
  · rw [key]; simp; omega

theorem flush_length (e : Enc) : (flush e).length = e.pending + 2 := by
  unfold flush; split <;> rw [emit_length]

/-- Encoder and decoder proceed in step. -/
theorem encode_inv (xs : List (List Nat × Nat)) (hx : ∀ x ∈ xs, FreqTable x.1 ∧ x.2 < x.1.length)
    (e : Enc) (h0 : 0 ≤ e.low) (h1 : e.high ≤ 65535) (h2 : e.low < 32768) (h3 : 32768 ≤ e.high)
    (h4 : e.low < 16384 ∨ 49152 ≤ e.high) (T : List Bool) (hT : 15 ≤ T.length) (bc : Int)
    (hb0 : 0 ≤ bc) (hb : bc + 16 * xs.length ≤ 2147483647) :
    let S := encode e xs ++ T
    e.pending + 2 ≤ (encode e xs).length ∧
    e.low ≤ val e.pending S ∧ val e.pending S ≤ e.high ∧
    ∃ s l', run (decodeSeq (xs.map Prod.fst) ⟨e.low, e.high, val e.pending S⟩ bc)
        (S.drop (16 + e.pending)) =
      .ok ((xs.map Prod.snd, s, bc + ((encode e xs).length - 2 - e.pending : Int)), l') := by
  induction xs generalizing e bc with
  | nil =>
    simp only [encode]
    obtain ⟨a, b⟩ := flush_val e T h0 h1 h2 h3 h4
    refine ⟨by rw [flush_length], a, b, ?_⟩
    refine ⟨⟨e.low, e.high, val e.pending (flush e ++ T)⟩, (flush e ++ T).drop (16 + e.pending), ?_⟩
    simp only [List.map_nil, decodeSeq, run_pure, flush_length]
    congr 3; congr 1; push_cast; omega
  | cons x xs ih =>
    obtain ⟨tbl, sym⟩ := x
    simp only [List.length_cons] at hb
    push_cast at hb
    obtain ⟨ht, hsym⟩ := hx (tbl, sym) (by simp)
    simp only at ht hsym
    -- the interval of the symbol
    have hg0 : Good ⟨e.low, e.high, e.high⟩ := ⟨⟨h0, by simp only; omega, le_refl _, h1⟩, h2, h3, h4⟩
    have hint := interval_ok ht hg0 hsym
    have hnarrow : narrow tbl e sym = ⟨lowOf tbl ⟨e.low, e.high, e.high⟩ sym,
        highOf tbl ⟨e.low, e.high, e.high⟩ sym, e.pending⟩ := rfl
    simp only at hint
    have hinv := fun S => renorm_inv 16 (lowOf tbl ⟨e.low, e.high, e.high⟩ sym)
      (highOf tbl ⟨e.low, e.high, e.high⟩ sym) e.pending bc S (by omega) (by omega) (by omega)
      (by norm_num; omega) hb0 (by push_cast; omega)
    simp only [encode]
    rw [hnarrow]
    generalize renormalise 16 ⟨lowOf tbl ⟨e.low, e.high, e.high⟩ sym,
      highOf tbl ⟨e.low, e.high, e.high⟩ sym, e.pending⟩ = r at hinv
    obtain ⟨i1, i2, i3, i4, i5, i6, i7, i8⟩ := hinv (encode r.2 xs ++ T)
    obtain ⟨k1, k2, k3, s, l', k4⟩ := ih (fun y hy => hx y (by simp [hy])) r.2 i1 i2 i3 i4 i5
      (bc + (r.1.length + r.2.pending - e.pending : Int)) (by omega) (by omega)
    obtain ⟨j1, j2, j3⟩ := i8 k2 k3
    rw [← List.append_assoc] at j1 j2 j3
    refine ⟨by simp only [List.length_append]; omega, by omega, by omega, s, l', ?_⟩
    -- the decoder finds the symbol
    have hgv : Good ⟨e.low, e.high, val e.pending (r.1 ++ encode r.2 xs ++ T)⟩ :=
      ⟨⟨h0, by simp only; omega, by simp only; omega, h1⟩, h2, h3, h4⟩
    have hmine : IsSym tbl (cumOf ⟨e.low, e.high, val e.pending (r.1 ++ encode r.2 xs ++ T)⟩) sym :=
      (isSym_iff hgv hsym).mpr ⟨j1, j2⟩
    have hne : (r.1 ++ encode r.2 xs ++ T).drop (16 + e.pending) ≠ [] := by
      intro h
      have := congrArg List.length h
      simp only [List.length_drop, List.length_append, List.length_nil] at this
      omega
    rcases decode_ok ht hgv bc (by omega) (by omega)
      ((r.1 ++ encode r.2 xs ++ T).drop (16 + e.pending)) with ⟨h, _⟩ | ⟨_, sym', s', k, hk, hr, hs', -, -, hrn⟩
    · exact absurd h hne
    · have hss := IsSym.unique ht hs' hmine
      subst hss
      have hlo : lowOf tbl ⟨e.low, e.high, val e.pending (r.1 ++ encode r.2 xs ++ T)⟩ sym' =
        lowOf tbl ⟨e.low, e.high, e.high⟩ sym' := rfl
      have hhi : highOf tbl ⟨e.low, e.high, val e.pending (r.1 ++ encode r.2 xs ++ T)⟩ sym' =
        highOf tbl ⟨e.low, e.high, e.high⟩ sym' := rfl
      simp only at hrn
      rw [hlo, hhi, j3] at hrn
      simp only [Res.ok.injEq, Prod.mk.injEq] at hrn
      obtain ⟨⟨e1, e2⟩, e3⟩ := hrn
      simp only [List.map_cons, decodeSeq]
      rw [run_bind, hr, Res.ok_bind]
      simp only
      rw [run_bind, ← e1, ← e2, ← e3, k4, Res.ok_bind]
      simp only [run_pure, List.length_append]
      congr 4; push_cast; omega

/-- **C32** (partial) For every sequence of symbols over every sequence of frequency tables and
whatever follows the code in the input: decoding the published encoder's bits returns the
sequence, and the bit count minus 14, which the callers skip by, is exactly the length of the code.
Missing: it holds only when at least 15 bits follow the code; see `C32_refuted`. -/
theorem C32_decode_encode_partial (xs : List (List Nat × Nat))
    (hx : ∀ x ∈ xs, FreqTable x.1 ∧ x.2 < x.1.length) (hn : xs.length < 2 ^ 27 - 1)
    (tail : List Bool) (ht : 15 ≤ tail.length) :
    ∃ s l', run (firstSymbol >>= fun s => decodeSeq (xs.map Prod.fst) s 16)
        (encode Enc.start xs ++ tail) =
      .ok ((xs.map Prod.snd, s, 14 + (encode Enc.start xs).length), l') := by
  obtain ⟨k1, k2, k3, s, l', k4⟩ := encode_inv xs hx Enc.start (by decide) (by decide) (by decide)
    (by decide) (by decide) tail ht 16 (by omega) (by norm_num at hn; omega)
  refine ⟨s, l', ?_⟩
  rw [run_bind, run_firstSymbol, Res.ok_bind]
  have hv : val Enc.start.pending (encode Enc.start xs ++ tail) = pv 16 (encode Enc.start xs ++ tail) := by
    simp [val, Enc.start]
  rw [hv] at k4
  simp only [Enc.start] at k4 ⊢
  simp only [Nat.add_zero] at k4
  rw [k4]
  congr 4
  push_cast
  omega

/-- Three symbols over tables of the decoder. -/
example : (run (firstSymbol >>= fun s => decodeSeq [cfM.getD 0 [], cfM.getD 3 [], cfR.getD 1 []] s 16)
      (encode Enc.start [(cfM.getD 0 [], 5), (cfM.getD 3 [], 16), (cfR.getD 1 [], 2)] ++
        List.replicate 15 true)).map (fun x => (x.1.1, x.1.2.2)) =
    .ok ([5, 16, 2], 14 + (encode Enc.start [(cfM.getD 0 [], 5), (cfM.getD 3 [], 16),
      (cfR.getD 1 [], 2)]).length) := by decide +kernel

/-- **C32** is false when the code ends the input: the escape symbol of table 62, coded in 16
bits, is rejected because the decoder takes `cnt_bits == 0 && cumulative == 0` for exhausted
input although the 16 bits in the register are a complete code word. -/
theorem C32_refuted : ∃ xs : List (List Nat × Nat), (∀ x ∈ xs, FreqTable x.1 ∧ x.2 < x.1.length) ∧
    (run (firstSymbol >>= fun s => decodeSeq (xs.map Prod.fst) s 16) (encode Enc.start xs)).map
      (fun x => x.1.1) ≠ .ok (xs.map Prod.snd) := by
  refine ⟨[(cfM.getD 62 [], 16)], ?_, by decide +kernel⟩
  intro x hx
  simp only [List.mem_singleton] at hx
  subst hx
  exact ⟨freqTable_of_bool (by decide +kernel), by decide +kernel⟩

/-- The code word in question has 16 bits. -/
example : (encode Enc.start [(cfM.getD 62 [], 16)]).length = 16 := by decide +kernel

end Verif.Arith
