import Verif.Model.DmxMtx
import Verif.Proofs.Fields
import Verif.Proofs.Meets
import Mathlib.Tactic.Linarith
import Mathlib.Tactic.FieldSimp
import Mathlib.Tactic.Push
import Mathlib.Tactic.Ring
import Mathlib.Tactic.IntervalCases
import Mathlib.Data.Int.Interval
import Mathlib.Data.List.Dedup

/-! # Gains of downmix matrices: C274, C279, C280 -/

namespace Verif.Dmx

open Prog

/-! ## C274: numbers below a limit -/

/-- How a number below `size` is written: the first `2 ^ (n + 1) - size` numbers take one bit less than the others. -/
def rangeBits (size v : Nat) : List Bool :=
  let n := Nat.log2 size
  let short := 2 ^ (n + 1) - size
  if v < short then natBits n v else natBits n ((v + short) / 2) ++ natBits 1 ((v + short) % 2)

private theorem log_le (size : Nat) (h : size < 2 ^ 24) : Nat.log2 size ≤ 24 := by
  by_cases h0 : size = 0
  · subst h0; decide
  · have := (Nat.log2_lt h0).2 h
    omega

/-- C274: what is written is read back, and nothing else is taken from the stream. -/
theorem C274_roundtrip (size v : Nat) (hs : size < 2 ^ 24) (hv : v < size) (l : List Bool) :
    run (readRange size) (rangeBits size v ++ l) = .ok (v, l) := by
  have h0 : size ≠ 0 := by omega
  have h1 := Nat.log2_self_le h0
  have h2 : size < 2 ^ (Nat.log2 size + 1) := Nat.lt_log2_self
  have hl := log_le size hs
  have hp : 2 ^ (Nat.log2 size + 1) = 2 * 2 ^ Nat.log2 size := by rw [Nat.pow_succ]; omega
  unfold readRange rangeBits
  simp only
  split
  · rename_i h
    rw [run_bits_bind _ _ _ _ hl (by omega), if_neg (by omega)]; rfl
  · rename_i h
    rw [List.append_assoc, run_bits_bind _ _ _ _ hl (by omega), if_pos (by omega), run_bits_bind _ _ _ _ (by omega) (by omega)]
    rw [run_pure]
    congr 2
    omega

/-- C274: whatever is read is below the limit. -/
theorem C274_below (size : Nat) (h0 : 0 < size) (l : List Bool) (v : Nat) (l' : List Bool) (h : run (readRange size) l = .ok (v, l')) : v < size := by
  have h2 : size < 2 ^ (Nat.log2 size + 1) := Nat.lt_log2_self
  have hp : 2 ^ (Nat.log2 size + 1) = 2 * 2 ^ Nat.log2 size := by rw [Nat.pow_succ]; omega
  have h1 := Nat.log2_self_le (n := size) (by omega)
  have key : Meets False (readRange size) (fun v => v < size) := by
    unfold readRange
    intro l
    refine ⟨fun h => h.elim, fun a l' e => ?_⟩
    by_cases hb : Nat.log2 size ≤ 24
    · have := (Meets.bits_bind (S := False) (f := fun v => (if 2 ^ (Nat.log2 size + 1) - size ≤ v then do
          let t ← bits 1
          pure (2 * v - (2 ^ (Nat.log2 size + 1) - size) + t)
        else pure v : Prog Nat)) (Q := fun v => v < size) hb fun v hv => by
          refine Meets.ite (fun hc => Meets.bits_bind (by omega) fun t ht => Meets.pure ?_) (fun hc => Meets.pure ?_)
          · omega
          · omega) l
      exact this.2 a l' e
    · rw [run_bind, run_bits] at e
      split at e
      · simp at e
      · rw [if_pos (by omega)] at e; simp at e
  exact (key l).2 v l' h

/-- C274: equal numbers of bits, or one more, and the bits of different numbers are different. -/
theorem C274_distinct (size v w : Nat) (hs : size < 2 ^ 24) (hv : v < size) (hw : w < size) (h : rangeBits size v = rangeBits size w) : v = w := by
  have a := C274_roundtrip size v hs hv []
  rw [h, C274_roundtrip size w hs hw []] at a
  injection a with a; injection a with a _; exact a.symm

theorem C274_length (size v : Nat) :
    (rangeBits size v).length = Nat.log2 size + (if v < 2 ^ (Nat.log2 size + 1) - size then 0 else 1) := by
  unfold rangeBits
  simp only
  split <;> simp

example : rangeBits 5 2 = [true, false] ∧ rangeBits 5 3 = [true, true, false] := by decide

/-! ## C279: the table of gains -/

private theorem mem_whole (lo hi : Nat) (g : ℚ) : g ∈ wholeGains lo hi ↔ ∃ k : ℤ, -(lo : ℤ) ≤ k ∧ k ≤ hi ∧ g = k := by
  unfold wholeGains
  simp only [List.mem_append, List.mem_map, List.mem_range, List.mem_filter, decide_eq_true_eq]
  constructor
  · rintro (((⟨k, hk, rfl⟩ | ⟨k, hk, rfl⟩) | ⟨k, ⟨hk, h3⟩, rfl⟩) | ⟨k, ⟨hk, h3⟩, rfl⟩)
    · exact ⟨-(3 * k : Nat), by omega, by omega, by push_cast; ring⟩
    · exact ⟨(3 * (k + 1) : Nat), by omega, by omega, by push_cast; ring⟩
    · exact ⟨-(k : Nat), by omega, by omega, by push_cast; ring⟩
    · exact ⟨(k : Nat), by omega, by omega, by push_cast; ring⟩
  · rintro ⟨k, h1, h2, rfl⟩
    rcases Int.lt_or_le 0 k with hk | hk
    · obtain ⟨m, rfl⟩ := Int.eq_ofNat_of_zero_le (Int.le_of_lt hk)
      by_cases h3 : m % 3 = 0
      · refine Or.inl (Or.inl (Or.inr ⟨m / 3 - 1, by omega, ?_⟩))
        have : 3 * (m / 3 - 1 + 1) = m := by omega
        rw [this]; push_cast; ring
      · exact Or.inr ⟨m, ⟨by omega, h3⟩, by push_cast; ring⟩
    · obtain ⟨m, hm⟩ := Int.eq_ofNat_of_zero_le (show 0 ≤ -k by omega)
      obtain rfl : k = -(m : ℤ) := by omega
      by_cases h3 : m % 3 = 0
      · refine Or.inl (Or.inl (Or.inl ⟨m / 3, by omega, ?_⟩))
        have : 3 * (m / 3) = m := by omega
        rw [this]; push_cast; ring
      · exact Or.inl (Or.inr ⟨m, ⟨by omega, h3⟩, by push_cast; ring⟩)

private theorem mem_fine (lo hi prc : Nat) (g : ℚ) :
    g ∈ fineGains lo hi prc ↔ ∃ k : ℤ, k % 2 = 1 ∧ -((lo * 2 ^ prc : Nat) : ℤ) ≤ k ∧ k ≤ (hi * 2 ^ prc : Nat) ∧ g = (k : ℚ) / 2 ^ prc := by
  unfold fineGains
  simp only [List.mem_append, List.mem_map, List.mem_range, List.mem_filter, decide_eq_true_eq]
  constructor
  · rintro (⟨k, ⟨hk, h3⟩, rfl⟩ | ⟨k, ⟨hk, h3⟩, rfl⟩)
    · exact ⟨-(k : Nat), by omega, by omega, by omega, by push_cast; ring⟩
    · exact ⟨(k : Nat), by omega, by omega, by omega, by push_cast; ring⟩
  · rintro ⟨k, h0, h1, h2, rfl⟩
    rcases Int.lt_or_le 0 k with hk | hk
    · obtain ⟨m, rfl⟩ := Int.eq_ofNat_of_zero_le (Int.le_of_lt hk)
      exact Or.inr ⟨m, ⟨by omega, by omega⟩, by push_cast; ring⟩
    · obtain ⟨m, hm⟩ := Int.eq_ofNat_of_zero_le (show 0 ≤ -k by omega)
      obtain rfl : k = -(m : ℤ) := by omega
      exact Or.inl ⟨m, ⟨by omega, by omega⟩, by push_cast; ring⟩

/-- C279: the table has every multiple of the step from the least to the largest gain, silence and nothing else. -/
theorem C279_members (lo hi prec : Nat) (hp : prec ≤ 2) (g : ℚ) :
    g ∈ gainTable lo hi prec ↔ g = -256 ∨ ∃ k : ℤ, -((lo * 2 ^ prec : Nat) : ℤ) ≤ k ∧ k ≤ (hi * 2 ^ prec : Nat) ∧ g = (k : ℚ) / 2 ^ prec := by
  unfold gainTable
  rw [if_neg (by omega)]
  simp only [List.mem_append, List.mem_flatMap, List.mem_range, mem_whole, mem_fine, List.mem_singleton, silent]
  constructor
  · rintro ((⟨k, h1, h2, rfl⟩ | ⟨p, hpp, k, h0, h1, h2, rfl⟩) | h)
    · refine Or.inr ⟨k * 2 ^ prec, ?_, ?_, ?_⟩
      · interval_cases prec <;> omega
      · interval_cases prec <;> omega
      · push_cast; field_simp
    · refine Or.inr ⟨k * 2 ^ (prec - (p + 1)), ?_, ?_, ?_⟩
      · interval_cases prec <;> interval_cases p <;> simp at * <;> omega
      · interval_cases prec <;> interval_cases p <;> simp at * <;> omega
      · interval_cases prec <;> interval_cases p <;> (push_cast; norm_num; try ring)
    · exact Or.inl h
  · rintro (h | ⟨k, h1, h2, rfl⟩)
    · exact Or.inr h
    · left
      interval_cases prec
      · exact Or.inl ⟨k, by omega, by omega, by simp⟩
      · by_cases h : k % 2 = 1
        · exact Or.inr ⟨0, by omega, k, h, by omega, by omega, by norm_num⟩
        · refine Or.inl ⟨k / 2, by omega, by omega, ?_⟩
          have : k = 2 * (k / 2) := by omega
          rw [show ((k : ℤ) : ℚ) = ((2 * (k / 2) : ℤ) : ℚ) by rw [← this]]
          push_cast; ring
      · by_cases h : k % 2 = 1
        · exact Or.inr ⟨1, by omega, k, h, by omega, by omega, by norm_num⟩
        · by_cases h' : k % 4 = 2
          · refine Or.inr ⟨0, by omega, k / 2, by omega, by omega, by omega, ?_⟩
            have : k = 2 * (k / 2) := by omega
            rw [show ((k : ℤ) : ℚ) = ((2 * (k / 2) : ℤ) : ℚ) by rw [← this]]
            push_cast; ring
          · refine Or.inl ⟨k / 4, by omega, by omega, ?_⟩
            have : k = 4 * (k / 4) := by omega
            rw [show ((k : ℤ) : ℚ) = ((4 * (k / 4) : ℤ) : ℚ) by rw [← this]]
            push_cast; ring

private theorem count3 (n : Nat) : ((List.range (n + 1)).filter fun k => decide (k % 3 ≠ 0)).length = n - n / 3 := by
  induction n with
  | zero => decide
  | succ n ih =>
    rw [List.range_succ, List.filter_append, List.length_append, ih]
    by_cases h : (n + 1) % 3 = 0
    · simp [h]; omega
    · simp [h]; omega

private theorem count2 (n : Nat) : ((List.range (n + 1)).filter fun k => decide (k % 2 = 1)).length = (n + 1) / 2 := by
  induction n with
  | zero => decide
  | succ n ih =>
    rw [List.range_succ, List.filter_append, List.length_append, ih]
    by_cases h : (n + 1) % 2 = 1
    · simp [h]; omega
    · simp [h]; omega

/-- C279: its size is the one that the code checks. -/
theorem C279_length (lo hi prec : Nat) (hp : prec ≤ 2) : (gainTable lo hi prec).length = (lo + hi) * 2 ^ prec + 2 := by
  unfold gainTable
  rw [if_neg (by omega)]
  have hw : (wholeGains lo hi).length = lo + hi + 1 := by
    unfold wholeGains
    simp only [List.length_append, List.length_map, List.length_range, count3]
    omega
  have hf : ∀ p, (fineGains lo hi (p + 1)).length = (lo + hi) * 2 ^ p := by
    intro p
    unfold fineGains
    simp only [List.length_append, List.length_map, count2, Nat.pow_succ]
    have h1 : (lo * (2 ^ p * 2) + 1) / 2 = lo * 2 ^ p := by rw [← Nat.mul_assoc]; omega
    have h2 : (hi * (2 ^ p * 2) + 1) / 2 = hi * 2 ^ p := by rw [← Nat.mul_assoc]; omega
    rw [h1, h2, Nat.add_mul]
  simp only [List.length_append, hw, List.length_singleton]
  interval_cases prec
  · simp
  · simp only [List.range_succ, List.range_zero, List.nil_append, List.flatMap_cons, List.flatMap_nil, List.append_nil, hf]; omega
  · simp only [List.range_succ, List.range_zero, List.nil_append, List.cons_append, List.flatMap_cons, List.flatMap_nil, List.append_nil, List.length_append, hf]; omega

/-- C279: no gain is there twice. -/
theorem C279_once (lo hi prec : Nat) (hp : prec ≤ 2) (hlo : lo < 256) : (gainTable lo hi prec).Nodup := by
  have hset : (gainTable lo hi prec).toFinset =
      insert (-256 : ℚ) ((Finset.Icc (-((lo * 2 ^ prec : Nat) : ℤ)) ((hi * 2 ^ prec : Nat) : ℤ)).image fun k : ℤ => (k : ℚ) / 2 ^ prec) := by
    ext g
    rw [List.mem_toFinset, C279_members lo hi prec hp, Finset.mem_insert, Finset.mem_image]
    simp only [Finset.mem_Icc]
    constructor
    · rintro (h | ⟨k, h1, h2, rfl⟩)
      · exact Or.inl h
      · exact Or.inr ⟨k, ⟨h1, h2⟩, rfl⟩
    · rintro (h | ⟨k, ⟨h1, h2⟩, rfl⟩)
      · exact Or.inl h
      · exact Or.inr ⟨k, h1, h2, rfl⟩
  have hpos : (0 : ℚ) < 2 ^ prec := by positivity
  have hinj : Function.Injective fun k : ℤ => (k : ℚ) / 2 ^ prec := by
    intro a b h
    have h : (a : ℚ) / 2 ^ prec = (b : ℚ) / 2 ^ prec := h
    rw [div_left_inj' hpos.ne'] at h
    exact_mod_cast h
  have hnot : (-256 : ℚ) ∉ (Finset.Icc (-((lo * 2 ^ prec : Nat) : ℤ)) ((hi * 2 ^ prec : Nat) : ℤ)).image fun k : ℤ => (k : ℚ) / 2 ^ prec := by
    rw [Finset.mem_image]
    rintro ⟨k, hk, h⟩
    rw [Finset.mem_Icc] at hk
    rw [div_eq_iff hpos.ne'] at h
    have hk1 : (k : ℤ) = -256 * 2 ^ prec := by exact_mod_cast h
    have : (lo : ℤ) * 2 ^ prec < 256 * 2 ^ prec := by
      have : (0 : ℤ) < 2 ^ prec := by positivity
      have h' : (lo : ℤ) < 256 := by omega
      exact Int.mul_lt_mul_of_pos_right h' this
    have h1 := hk.1
    push_cast at h1
    linarith
  have hcard : (gainTable lo hi prec).toFinset.card = (gainTable lo hi prec).length := by
    rw [hset, Finset.card_insert_of_notMem hnot, Finset.card_image_of_injective _ hinj, Int.card_Icc, C279_length lo hi prec hp]
    have : (lo + hi) * 2 ^ prec = lo * 2 ^ prec + hi * 2 ^ prec := Nat.add_mul ..
    omega
  exact Multiset.coe_nodup.1 (Multiset.toFinset_card_eq_card_iff_nodup.1 hcard)

example : gainTable 4 3 0 = [0, -3, 3, -1, -2, -4, 1, 2, -256] := by
  simp [gainTable, wholeGains, silent, List.range_succ]

/-- C279: the largest gains that can be sent need a table of 278 gains, but the array has 274. -/
theorem C279_refuted : ¬ ∀ lo hi prec, lo ≤ 47 → hi ≤ 22 → prec ≤ 2 → (gainTable lo hi prec).length ≤ 274 := by
  intro h
  have := h 47 22 2 (by omega) (by omega) (by omega)
  rw [C279_length _ _ _ (by omega)] at this
  omega

/-- C279: the gain coder with these gains writes behind the array. -/
theorem C279_overflow (l : List Bool) (h : 4 ≤ l.length) (h0 : l.head? = some false) : run (coder 47 22 2) l = .ub := by
  obtain ⟨b, l, rfl⟩ : ∃ b l', l = b :: l' := by cases l with
    | nil => simp at h
    | cons b l => exact ⟨b, l, rfl⟩
  obtain rfl : b = false := by simpa using h0
  unfold coder
  have : (false :: l) = natBits 1 0 ++ l := rfl
  rw [this, run_bits_bind 1 0 _ _ (by omega) (by omega), if_neg (by simp), run_bind, run_bits, if_neg (by simp at h; omega), if_neg (by omega)]
  simp only [Res.ok_bind]
  rw [if_pos (by rw [C279_length _ _ _ (by omega)]; omega)]
  rfl

/-- C279: with gains of less than whole numbers in two steps, or fewer than 69 of them, the array is large enough. -/
theorem C279_fits_partial (lo hi prec : Nat) (hp : prec ≤ 2) (h : lo + hi ≤ 68 ∨ prec ≤ 1 ∧ lo + hi ≤ 136) : (gainTable lo hi prec).length ≤ 274 := by
  rw [C279_length lo hi prec hp]
  interval_cases prec <;> omega

/-! ## C280: gains read -/

/-- How gain `i` of the table is written: zeros, a one unless the number of zeros is the largest, and `lg` bits. -/
def tableBits (size lg i : Nat) : List Bool :=
  List.replicate (i / 2 ^ lg) false ++ (if i / 2 ^ lg < (size - 1) / 2 ^ lg then [true] else []) ++ natBits lg (i % 2 ^ lg)

theorem run_zeros (m h : Nat) (hh : h ≤ m) (l : List Bool) :
    run (zeros m) (List.replicate h false ++ (if h < m then [true] else []) ++ l) = .ok (h, l) := by
  induction m generalizing h with
  | zero => obtain rfl : h = 0 := by omega
            rfl
  | succ m ih =>
    cases h with
    | zero => simp [zeros, run_bind, bitsVal]
    | succ h =>
      have := ih h (by omega)
      simp only [Nat.add_lt_add_iff_right, List.replicate_succ, List.cons_append]
      unfold zeros
      rw [run_bind, run_bits, if_neg (by simp), if_neg (by omega)]
      simp only [List.take_succ_cons, List.take_zero, List.drop_succ_cons, List.drop_zero, Res.ok_bind]
      rw [if_neg (by simp [bitsVal]), run_bind, this]
      rfl

/-- The gain of number `k` when gains are not coded with the table. -/
def rawGain (lo hi prec k : Nat) : ℚ := if k = (lo + hi) * 2 ^ prec + 1 then -256 else (hi : ℚ) - (k : ℚ) / 2 ^ prec

/-- C280: every gain of the table is read back. -/
theorem C280_table (st : Stale) (lo hi prec lg i : Nat) (hlg : lg ≤ 7) (hi' : i < (gainTable lo hi prec).length) (hp : prec ≤ 2) (hlo : lo < 256) (l : List Bool) :
    run (decodeGain st ⟨lo, hi, prec, false, lg, gainTable lo hi prec⟩) (tableBits (gainTable lo hi prec).length lg i ++ l) = .ok ((gainTable lo hi prec).getD i 0, l) := by
  have hmem : (gainTable lo hi prec).getD i 0 ∈ gainTable lo hi prec := by
    rw [List.getD_eq_getElem?_getD, List.getElem?_eq_getElem hi']; exact List.getElem_mem hi'
  have hle : i / 2 ^ lg ≤ ((gainTable lo hi prec).length - 1) / 2 ^ lg := Nat.div_le_div_right (by omega)
  have hmod : i % 2 ^ lg < 2 ^ lg := Nat.mod_lt _ (by positivity)
  have hidx : i / 2 ^ lg * 2 ^ lg + i % 2 ^ lg = i := by rw [Nat.mul_comm]; exact Nat.div_add_mod ..
  generalize hT : gainTable lo hi prec = T at *
  have hread : run (do
      let head ← zeros ((T.length - 1) / 2 ^ lg)
      let rest ← bits lg
      tabGet st T (head * 2 ^ lg + rest)) (tableBits T.length lg i ++ l) = .ok (T.getD i 0, l) := by
    unfold tableBits
    rw [List.append_assoc, run_bind, run_zeros _ _ hle]
    simp only [Res.ok_bind]
    rw [run_bits_bind lg _ _ _ (by omega) hmod, hidx]
    unfold tabGet
    rw [if_pos hi']; rfl
  unfold decodeGain
  simp only [Bool.false_eq_true, if_false]
  rw [run_bind, hread]
  simp only [Res.ok_bind, run_pure]
  have : (if T.getD i 0 < -(lo : ℚ) then silent else T.getD i 0) = T.getD i 0 := by
    rw [← hT] at hmem ⊢
    rcases (C279_members lo hi prec hp _).1 hmem with h | ⟨k, h1, h2, h⟩
    · rw [h]
      unfold silent
      split <;> rfl
    · rw [if_neg]
      rw [h, not_lt]
      have hpos : (0 : ℚ) < 2 ^ prec := by positivity
      rw [le_div_iff₀ hpos]
      have : (-((lo * 2 ^ prec : Nat) : ℤ) : ℚ) ≤ (k : ℚ) := by exact_mod_cast h1
      push_cast at this
      linarith
  rw [this]

/-- C280: every number written without the table is read back as its gain, the last one as silence. -/
theorem C280_raw (st : Stale) (lo hi prec k : Nat) (tab : List ℚ) (hk : k < (lo + hi) * 2 ^ prec + 2) (hs : (lo + hi) * 2 ^ prec + 2 < 2 ^ 24) (lg : Nat) (l : List Bool) :
    run (decodeGain st ⟨lo, hi, prec, true, lg, tab⟩) (rangeBits ((lo + hi) * 2 ^ prec + 2) k ++ l) = .ok (rawGain lo hi prec k, l) := by
  have hpos : (0 : ℚ) < 2 ^ prec := by positivity
  unfold decodeGain
  simp only [if_true]
  rw [run_bind, run_bind, C274_roundtrip _ _ hs hk]
  simp only [Res.ok_bind, run_pure]
  congr 2
  unfold rawGain silent
  by_cases h : k = (lo + hi) * 2 ^ prec + 1
  · rw [if_pos h, if_pos]
    rw [h]
    push_cast
    have : (((lo : ℚ) + hi) * 2 ^ prec + 1) / 2 ^ prec = lo + hi + 1 / 2 ^ prec := by field_simp
    rw [this]
    have : (0 : ℚ) < 1 / 2 ^ prec := one_div_pos.2 hpos
    linarith
  · rw [if_neg h, if_neg]
    rw [not_lt]
    have : (k : ℚ) / 2 ^ prec ≤ lo + hi := by
      rw [div_le_iff₀ hpos]
      have : k ≤ (lo + hi) * 2 ^ prec := by omega
      exact_mod_cast this
    linarith

/-- C280: both ways of coding reach the same gains. -/
theorem C280_same (lo hi prec : Nat) (hp : prec ≤ 2) (g : ℚ) :
    g ∈ gainTable lo hi prec ↔ ∃ k, k < (lo + hi) * 2 ^ prec + 2 ∧ rawGain lo hi prec k = g := by
  have hpos : (0 : ℚ) < 2 ^ prec := by positivity
  have hsum : (lo + hi) * 2 ^ prec = lo * 2 ^ prec + hi * 2 ^ prec := Nat.add_mul ..
  rw [C279_members lo hi prec hp]
  unfold rawGain
  constructor
  · rintro (h | ⟨k, h1, h2, rfl⟩)
    · exact ⟨(lo + hi) * 2 ^ prec + 1, by omega, by rw [if_pos rfl, h]⟩
    · refine ⟨((hi * 2 ^ prec : Nat) - k).toNat, by omega, ?_⟩
      rw [if_neg (by omega)]
      have : ((((hi * 2 ^ prec : Nat) : ℤ) - k).toNat : ℚ) = ((((hi * 2 ^ prec : Nat) : ℤ) - k : ℤ) : ℚ) := by
        rw [← Int.cast_natCast, Int.toNat_of_nonneg (by omega)]
      rw [this]
      push_cast
      field_simp
      ring
  · rintro ⟨k, hk, h⟩
    split at h
    · exact Or.inl h.symm
    · refine Or.inr ⟨(hi * 2 ^ prec : Nat) - k, by omega, by omega, ?_⟩
      rw [← h]
      push_cast
      field_simp

/-- C280: the gain that is read need not be one of the table: with seven bits behind the zeros the number may be larger than the table, and what the memory held is taken. -/
theorem C280_refuted : ¬ ∀ (st : Stale) (lo hi prec lg : Nat) (l l' : List Bool) (g : ℚ), lg ≤ 7 → prec ≤ 2 →
    run (decodeGain st ⟨lo, hi, prec, false, lg, gainTable lo hi prec⟩) l = .ok (g, l') → g ∈ gainTable lo hi prec := by
  intro h
  have key := h ⟨fun _ => ⟨0, 0, 0, 0⟩, fun _ => 77, fun _ => 0⟩ 1 0 0 7 (natBits 7 100) [] 77 (by omega) (by omega) (by
    have hl := C279_length 1 0 0 (by omega)
    unfold decodeGain
    simp only [Bool.false_eq_true, if_false, hl]
    rw [run_bind, run_bind, show ((1 + 0) * 2 ^ 0 + 2 - 1) / 2 ^ 7 = 0 by decide]
    simp only [zeros, run_pure, Res.ok_bind]
    have := run_bits_bind 7 100 (fun rest => tabGet ⟨fun _ => ⟨0, 0, 0, 0⟩, fun _ => 77, fun _ => 0⟩ (gainTable 1 0 0) (0 * 2 ^ 7 + rest)) [] (by omega) (by omega)
    rw [List.append_nil] at this
    rw [this]
    unfold tabGet
    rw [if_neg (by rw [hl]; omega), if_pos (by omega)]
    simp only [run_pure, Res.ok_bind]
    norm_num)
  rcases (C279_members 1 0 0 (by omega) 77).1 key with h | ⟨k, h1, h2, h⟩
  · norm_num at h
  · norm_num at h h1 h2
    have : (k : ℚ) ≤ 0 := by exact_mod_cast h2
    rw [← h] at this; norm_num at this

/-- C280: or the number is behind the array. -/
theorem C280_outside (st : Stale) (l : List Bool) : run (decodeGain st ⟨46, 22, 2, false, 7, gainTable 46 22 2⟩) (false :: false :: natBits 7 127 ++ l) = .ub := by
  have hl := C279_length 46 22 2 (by omega)
  unfold decodeGain
  simp only [Bool.false_eq_true, if_false, hl]
  rw [run_bind, run_bind]
  have hz := run_zeros (((46 + 22) * 2 ^ 2 + 2 - 1) / 2 ^ 7) 2 (by decide) (natBits 7 127 ++ l)
  rw [if_neg (by decide)] at hz
  rw [show false :: false :: natBits 7 127 ++ l = List.replicate 2 false ++ [] ++ (natBits 7 127 ++ l) from rfl, hz]
  simp only [Res.ok_bind]
  rw [run_bits_bind 7 127 _ _ (by omega) (by omega)]
  unfold tabGet
  rw [if_neg (by rw [hl]; omega), if_neg (by omega)]
  rfl

/-- C280: without the table, gains that are read are those of the table or silence. -/
theorem C280_raw_partial (st : Stale) (lo hi prec lg : Nat) (tab : List ℚ) (hp : prec ≤ 2) (l l' : List Bool) (g : ℚ)
    (h : run (decodeGain st ⟨lo, hi, prec, true, lg, tab⟩) l = .ok (g, l')) : g ∈ gainTable lo hi prec := by
  unfold decodeGain at h
  simp only [if_true] at h
  rw [run_bind, run_bind] at h
  obtain ⟨⟨k, l1⟩, e1, h⟩ := Res.bind_eq_ok.1 h
  obtain ⟨⟨k', l1'⟩, e0, e1⟩ := Res.bind_eq_ok.1 e1
  have hk := C274_below _ (by omega) _ _ _ e0
  simp only [run_pure] at e1 h
  injection e1 with e1
  injection e1 with e1 e2
  injection h with h
  injection h with h _
  subst e1
  rw [C279_members lo hi prec hp]
  have hpos : (0 : ℚ) < 2 ^ prec := by positivity
  have hsum : (lo + hi) * 2 ^ prec = lo * 2 ^ prec + hi * 2 ^ prec := Nat.add_mul ..
  split at h
  · exact Or.inl h.symm
  · rename_i hc
    have hne : k' ≠ (lo + hi) * 2 ^ prec + 1 := by
      rintro rfl
      apply hc
      push_cast
      have : (((lo : ℚ) + hi) * 2 ^ prec + 1) / 2 ^ prec = lo + hi + 1 / 2 ^ prec := by field_simp
      rw [this]
      have : (0 : ℚ) < 1 / 2 ^ prec := one_div_pos.2 hpos
      linarith
    refine Or.inr ⟨(hi * 2 ^ prec : Nat) - k', by omega, by omega, ?_⟩
    rw [← h]
    push_cast
    field_simp

end Verif.Dmx
