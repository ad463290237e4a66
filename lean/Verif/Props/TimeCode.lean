import Verif.Props.Huff
import Verif.Spec.TimeCode
import Mathlib.Tactic.IntervalCases

/-! # The delta-time code of the DRC gains (C49, C66) -/

namespace Verif.Huff

open Prog PrefixCode TimeCode

theorem timeBits_eq (n : Nat) : ∀ (fuel v : Nat), Nat.clog 2 (2 * n) ≤ v + fuel →
    timeBits n fuel v = max v (Nat.clog 2 (2 * n)) := by
  intro fuel
  induction fuel with
  | zero => intro v h; simp [timeBits]; omega
  | succ fuel ih =>
    intro v h
    rw [timeBits]
    by_cases hv : 2 ^ v < 2 * n
    · rw [if_pos hv, ih (v + 1) (by omega)]
      have := (Nat.lt_clog_iff_pow_lt (b := 2) (by omega)).mpr hv
      omega
    · rw [if_neg hv]
      have := (Nat.clog_le_iff_le_pow (b := 2) (by omega) (x := 2 * n) (y := v)).mpr (by omega)
      omega

/-- What entry `d` of the table should be. -/
def entry (v d : Nat) : Code :=
  if d = 1 then ⟨2, 0, 1⟩
  else if d ≤ 5 then ⟨4, 4 + (d - 2), d⟩
  else if d ≤ 13 then ⟨5, 16 + (d - 6), d⟩
  else ⟨2 + v, 3 * 2 ^ v + (d - 14), d⟩

theorem putDown_get (f : Nat → Code) (off : Nat) : ∀ (k : Nat) (tbl : List Code), (0 < k → off + k ≤ tbl.length) →
    ∃ r, putDown f off k tbl = .ok r ∧ r.length = tbl.length ∧
      ∀ i, r[i]? = if off ≤ i ∧ i < off + k then some (f (i - off)) else tbl[i]? := by
  intro k
  induction k with
  | zero =>
    intro tbl _
    refine ⟨tbl, rfl, rfl, fun i => ?_⟩
    rw [if_neg (by omega)]
  | succ k ih =>
    intro tbl h
    have h := h (by omega)
    obtain ⟨r, hr, hl, hg⟩ := ih (tbl.set (k + off) (f k)) (by simp; omega)
    refine ⟨r, ?_, by simpa using hl, fun i => ?_⟩
    · simp only [putDown, put]
      rw [if_pos (by omega)]
      exact hr
    · rw [hg]
      by_cases h1 : off ≤ i ∧ i < off + k
      · rw [if_pos h1, if_pos (by omega)]
      · rw [if_neg h1, List.getElem?_set]
        by_cases h2 : k + off = i
        · subst h2
          rw [if_pos rfl, if_pos (by omega), if_pos (by omega)]
          simp
        · rw [if_neg h2, if_neg (by omega)]

/-- Number of differences the table has. -/
def maxDelta (n : Nat) : Nat := max 13 (2 * n)

theorem createTimeTable_full (tbl : List Code) (n : Nat) (hn : 1 ≤ n) (h31 : 2 * n ≤ 2 ^ 31)
    (hl : maxDelta n < tbl.length) :
    createTimeTable tbl n = .ok (⟨0, 0, -1⟩ :: ((List.range' 1 (maxDelta n)).map (entry (Nat.clog 2 (2 * n))) ++
      tbl.drop (maxDelta n + 1))) := by
  have hc : timeBits n 31 1 = Nat.clog 2 (2 * n) := by
    have h1 : 0 < Nat.clog 2 (2 * n) := Nat.clog_pos (by omega) (by omega)
    have h2 := (Nat.clog_le_iff_le_pow (b := 2) (by omega) (x := 2 * n) (y := 31)).mpr h31
    rw [timeBits_eq n 31 1 (by omega)]
    omega
  generalize hv : Nat.clog 2 (2 * n) = v at *
  have hm : 13 ≤ maxDelta n ∧ 2 * n ≤ maxDelta n := ⟨Nat.le_max_left _ _, Nat.le_max_right _ _⟩
  have hm' : maxDelta n = 13 ∨ maxDelta n = 2 * n := by unfold maxDelta; omega
  obtain ⟨r1, h1, l1, g1⟩ := putDown_get (fun k => ⟨2 + v, 3 * 2 ^ v + k, k + 14⟩) 14 (2 * n + 1 - 14) tbl (by omega)
  obtain ⟨r2, h2, l2, g2⟩ := putDown_get (fun k => ⟨5, 0x10 + k, k + 6⟩) 6 8 r1 (by omega)
  obtain ⟨r3, h3, l3, g3⟩ := putDown_get (fun k => ⟨4, 0x4 + k, k + 2⟩) 2 4 r2 (by omega)
  rw [createTimeTable, hc]
  simp only [h1, h2, h3, Res.ok_bind, put]
  rw [if_pos (by omega)]
  simp only [Res.ok_bind]
  rw [if_pos (by simp; omega)]
  congr 1
  apply List.ext_getElem?
  intro i
  cases i with
  | zero =>
    rw [List.getElem?_set, if_pos rfl, if_pos (by simp; omega)]
    rfl
  | succ i =>
    rw [List.getElem?_set, if_neg (by omega), List.getElem?_set]
    rw [List.getElem?_cons_succ, List.getElem?_append]
    simp only [List.length_map, List.length_range', List.getElem?_map]
    by_cases h0 : i = 0
    · subst h0
      rw [if_pos rfl, if_pos (by omega : 0 + 1 < r3.length), if_pos (by omega : 0 < maxDelta n),
        List.getElem?_range' (by omega)]
      rfl
    · rw [if_neg (by omega : ¬ 1 = i + 1), g3, g2, g1]
      by_cases hlt : i < maxDelta n
      · rw [if_pos hlt, List.getElem?_range' (by omega)]
        simp only [Option.map_some, Nat.one_mul, entry]
        rw [if_neg (by omega : ¬ 1 + i = 1)]
        by_cases h5 : i + 1 ≤ 5
        · rw [if_pos (by omega : 2 ≤ i + 1 ∧ i + 1 < 2 + 4), if_pos (by omega : 1 + i ≤ 5)]
          simp only [Option.some.injEq, Code.mk.injEq]
          refine ⟨trivial, ?_, ?_⟩ <;> omega
        · rw [if_neg (by omega : ¬ (2 ≤ i + 1 ∧ i + 1 < 2 + 4)), if_neg (by omega : ¬ 1 + i ≤ 5)]
          by_cases h13 : i + 1 ≤ 13
          · rw [if_pos (by omega : 6 ≤ i + 1 ∧ i + 1 < 6 + 8), if_pos (by omega : 1 + i ≤ 13)]
            simp only [Option.some.injEq, Code.mk.injEq]
            refine ⟨trivial, ?_, ?_⟩ <;> omega
          · rw [if_neg (by omega : ¬ (6 ≤ i + 1 ∧ i + 1 < 6 + 8)), if_neg (by omega : ¬ 1 + i ≤ 13),
              if_pos (by omega : 14 ≤ i + 1 ∧ i + 1 < 14 + (2 * n + 1 - 14))]
            simp only [Option.some.injEq, Code.mk.injEq]
            refine ⟨trivial, ?_, ?_⟩ <;> omega
      · rw [if_neg hlt, if_neg (by omega : ¬ (2 ≤ i + 1 ∧ i + 1 < 2 + 4)),
          if_neg (by omega : ¬ (6 ≤ i + 1 ∧ i + 1 < 6 + 8)),
          if_neg (by omega : ¬ (14 ≤ i + 1 ∧ i + 1 < 14 + (2 * n + 1 - 14))), List.getElem?_drop]
        congr 1
        omega

theorem createTimeTable_eq (tbl : List Code) (n : Nat) (hn : 1 ≤ n) (h31 : 2 * n ≤ 2 ^ 31)
    (hl : maxDelta n < tbl.length) :
    ∃ t j, createTimeTable tbl n = .ok (t :: ((List.range' 1 (maxDelta n)).map (entry (Nat.clog 2 (2 * n))) ++ j)) :=
  ⟨_, _, createTimeTable_full tbl n hn h31 hl⟩

/-- A word that is the beginning of another one is its leading part as a number. -/
theorem prefix_code {a b : Code} (ha : a.code < 2 ^ a.size) (hb : b.code < 2 ^ b.size) (h : word a <+: word b) :
    a.size ≤ b.size ∧ ∃ r, r < 2 ^ (b.size - a.size) ∧ b.code = a.code * 2 ^ (b.size - a.size) + r := by
  obtain ⟨r, hr⟩ := h
  have hlen := congrArg List.length hr
  have hval := congrArg bitsVal hr
  rw [List.length_append, word_length, word_length] at hlen
  rw [bitsVal_append, bitsVal_word a ha, bitsVal_word b hb] at hval
  refine ⟨by omega, bitsVal r, ?_, ?_⟩
  · have := bitsVal_lt r
    rwa [show r.length = b.size - a.size by omega] at this
  · rw [← hval, show r.length = b.size - a.size by omega]

theorem entry_fits {n d : Nat} (h1 : 1 ≤ d) (h2 : d ≤ maxDelta n) :
    (entry (Nat.clog 2 (2 * n)) d).code < 2 ^ (entry (Nat.clog 2 (2 * n)) d).size := by
  have hc := Nat.le_pow_clog (b := 2) (by omega) (2 * n)
  unfold maxDelta at h2
  unfold entry
  split
  · simp
  · split
    · simp; omega
    · split
      · simp; omega
      · simp only [Nat.pow_add]
        omega

theorem entry_prefix {n d d' : Nat} (h1 : 1 ≤ d) (h2 : d ≤ maxDelta n) (h1' : 1 ≤ d') (h2' : d' ≤ maxDelta n)
    (h : word (entry (Nat.clog 2 (2 * n)) d) <+: word (entry (Nat.clog 2 (2 * n)) d')) : d = d' := by
  have hc := Nat.le_pow_clog (b := 2) (by omega) (2 * n)
  have hbig : 14 ≤ maxDelta n → 4 ≤ Nat.clog 2 (2 * n) := by
    intro hm
    have : 14 ≤ 2 * n := by unfold maxDelta at hm; omega
    have := (Nat.lt_clog_iff_pow_lt (b := 2) (by omega) (x := 2 * n) (y := 3)).mpr (by omega)
    omega
  have hdm : ∀ x, 14 ≤ x → x ≤ maxDelta n → x ≤ 2 * n := by
    intro x hx hx'
    unfold maxDelta at hx'
    omega
  obtain ⟨hs, r, hr, he⟩ := prefix_code (entry_fits h1 h2) (entry_fits h1' h2') h
  generalize Nat.clog 2 (2 * n) = v at *
  unfold entry at hs hr he
  by_cases a1 : d = 1
  · by_cases b1 : d' = 1
    · omega
    · simp only [if_pos a1, if_neg b1] at hs hr he
      by_cases b5 : d' ≤ 5
      · simp only [if_pos b5] at hs hr he; omega
      · by_cases b13 : d' ≤ 13
        · simp only [if_neg b5, if_pos b13] at hs hr he; omega
        · simp only [if_neg b5, if_neg b13] at hs hr he
          rw [show 2 + v - 2 = v by omega] at hr
          omega
  · by_cases a5 : d ≤ 5
    · by_cases b1 : d' = 1
      · simp only [if_neg a1, if_pos a5, if_pos b1] at hs; omega
      · by_cases b5 : d' ≤ 5
        · simp only [if_neg a1, if_pos a5, if_neg b1, if_pos b5] at hs hr he; omega
        · by_cases b13 : d' ≤ 13
          · simp only [if_neg a1, if_pos a5, if_neg b1, if_neg b5, if_pos b13] at hs hr he; omega
          · simp only [if_neg a1, if_pos a5, if_neg b1, if_neg b5, if_neg b13] at hs hr he
            obtain ⟨w, rfl⟩ : ∃ w, v = w + 2 := ⟨v - 2, by have := hbig (by omega); omega⟩
            rw [show 2 + (w + 2) - 4 = w by omega] at hr he
            rw [Nat.pow_add] at he
            interval_cases d <;> omega
    · by_cases a13 : d ≤ 13
      · by_cases b1 : d' = 1
        · simp only [if_neg a1, if_neg a5, if_pos a13, if_pos b1] at hs; omega
        · by_cases b5 : d' ≤ 5
          · simp only [if_neg a1, if_neg a5, if_pos a13, if_neg b1, if_pos b5] at hs hr he; omega
          · by_cases b13 : d' ≤ 13
            · simp only [if_neg a1, if_neg a5, if_pos a13, if_neg b1, if_neg b5, if_pos b13] at hs hr he; omega
            · simp only [if_neg a1, if_neg a5, if_pos a13, if_neg b1, if_neg b5, if_neg b13] at hs hr he
              obtain ⟨w, rfl⟩ : ∃ w, v = w + 3 := ⟨v - 3, by have := hbig (by omega); omega⟩
              rw [show 2 + (w + 3) - 5 = w by omega] at hr he
              rw [Nat.pow_add] at he
              interval_cases d <;> omega
      · have hv4 := hbig (by omega)
        by_cases b1 : d' = 1
        · simp only [if_neg a1, if_neg a5, if_neg a13, if_pos b1] at hs; omega
        · by_cases b5 : d' ≤ 5
          · simp only [if_neg a1, if_neg a5, if_neg a13, if_neg b1, if_pos b5] at hs; omega
          · by_cases b13 : d' ≤ 13
            · simp only [if_neg a1, if_neg a5, if_neg a13, if_neg b1, if_neg b5, if_pos b13] at hs; omega
            · simp only [if_neg a1, if_neg a5, if_neg a13, if_neg b1, if_neg b5, if_neg b13] at hs hr he
              simp only [Nat.sub_self, Nat.pow_zero, Nat.mul_one] at hr he
              omega

theorem entry_good (n : Nat) (hn : 1 ≤ n) (h22 : 2 * n ≤ 2 ^ 22) :
    Good ((List.range' 1 (maxDelta n)).map (entry (Nat.clog 2 (2 * n)))) := by
  have hbig : 14 ≤ maxDelta n → 4 ≤ Nat.clog 2 (2 * n) := by
    intro hm
    have : 14 ≤ 2 * n := by unfold maxDelta at hm; omega
    have := (Nat.lt_clog_iff_pow_lt (b := 2) (by omega) (x := 2 * n) (y := 3)).mpr (by omega)
    omega
  have hle := (Nat.clog_le_iff_le_pow (b := 2) (by omega) (x := 2 * n) (y := 22)).mpr h22
  refine ⟨?_, ?_, ?_⟩
  · intro e he
    obtain ⟨d, hd, rfl⟩ := List.mem_map.mp he
    have hd := List.mem_range'_1.mp hd
    refine ⟨?_, ?_, entry_fits (by omega) (by omega)⟩ <;> unfold entry <;> split <;> try split <;> try split
    all_goals simp <;> omega
  · rw [List.pairwise_map]
    refine List.Pairwise.imp_of_mem ?_ (List.pairwise_lt_range' (s := 1) (n := maxDelta n))
    intro a b ha hb hab
    have ha := List.mem_range'_1.mp ha
    have hb := List.mem_range'_1.mp hb
    have := hbig
    unfold entry
    split <;> split <;> (try split) <;> (try split) <;> (try split) <;> (try split) <;> simp <;> omega
  · rw [PrefixFree, List.pairwise_map, List.pairwise_map]
    refine List.Pairwise.imp_of_mem ?_ (List.pairwise_lt_range' (s := 1) (n := maxDelta n))
    intro a b ha hb hab
    have ha := List.mem_range'_1.mp ha
    have hb := List.mem_range'_1.mp hb
    refine ⟨fun h => ?_, fun h => ?_⟩
    · have := entry_prefix (n := n) (by omega) (by omega) (by omega) (by omega) h
      omega
    · have := entry_prefix (n := n) (by omega) (by omega) (by omega) (by omega) h
      omega

theorem timeWord_entry (n d : Nat) (h1 : 1 ≤ d) (h2 : d ≤ maxDelta n) :
    word (entry (Nat.clog 2 (2 * n)) d) = timeWord n d := by
  have hf := entry_fits h1 h2
  refine bitsVal_inj _ _ ?_ ?_
  · rw [word_length]
    unfold entry timeWord
    split
    · simp
    · split
      · simp
      · split
        · simp
        · simp; omega
  · rw [bitsVal_word _ hf]
    have hc := Nat.le_pow_clog (b := 2) (by omega) (2 * n)
    have h2' := h2
    unfold maxDelta at h2'
    unfold entry timeWord
    split
    · simp [bitsVal_cons]
    · split
      · rw [bitsVal_append, bitsVal_natBits, Nat.mod_eq_of_lt (by omega)]
        simp [bitsVal_cons]
      · split
        · rw [bitsVal_append, bitsVal_natBits, Nat.mod_eq_of_lt (by omega)]
          simp [bitsVal_cons]
        · rw [bitsVal_append, bitsVal_natBits, Nat.mod_eq_of_lt (by omega)]
          simp [bitsVal_cons]

/-- **C49** The table made for frames of up to `n` gain values, when it fits its array, decodes every time
difference from 1 to `2 n` (and to 13) written with its codeword and consumes exactly the codeword;
no codeword is the beginning of another. -/
theorem C49_time_code (tbl : List Code) (n : Nat) (hn : 1 ≤ n) (h22 : 2 * n ≤ 2 ^ 22)
    (hl : max 13 (2 * n) < tbl.length) :
    ∃ t, createTimeTable tbl n = .ok t ∧
      (∀ d, 1 ≤ d → d ≤ max 13 (2 * n) → ∀ l, run (updateValue t true) (timeWord n d ++ l) = .ok ((d : Int), l)) ∧
      (∀ d d', 1 ≤ d → d ≤ max 13 (2 * n) → 1 ≤ d' → d' ≤ max 13 (2 * n) → timeWord n d <+: timeWord n d' → d = d') := by
  obtain ⟨t, j, ht⟩ := createTimeTable_eq tbl n hn (by omega) hl
  refine ⟨_, ht, ?_, ?_⟩
  · intro d h1 h2 l
    have hm : entry (Nat.clog 2 (2 * n)) d ∈ (List.range' 1 (maxDelta n)).map (entry (Nat.clog 2 (2 * n))) :=
      List.mem_map_of_mem (List.mem_range'_1.mpr ⟨h1, by unfold maxDelta; omega⟩)
    have := update_time t _ j (entry_good n hn h22) _ hm l
    rw [timeWord_entry n d h1 h2] at this
    rw [this]
    have hv : (entry (Nat.clog 2 (2 * n)) d).val = d := by
      unfold entry
      split
      · simp [*]
      · split
        · rfl
        · split <;> rfl
    rw [hv]
  · intro d d' h1 h2 h1' h2' hp
    rw [← timeWord_entry n d h1 h2, ← timeWord_entry n d' h1' h2'] at hp
    exact entry_prefix h1 h2 h1' h2' hp

/-- 48 kHz: frames of 32 gain values; the difference 40 is written as 11 011010. -/
example : deltaTmin 48000 = 32 ∧ 1 ≤ 1024 / deltaTmin 48000 ∧ max 13 (2 * 32) < timeEntries ∧
    timeWord 32 40 = [true, true, false, true, true, false, true, false] := by decide +kernel

/-! ## Does the table fit? -/

/-- **C66 (refuted)** A stream with a sampling rate of 1000 to 2999 Hz and frames of 1024 samples passes all
checks and the table is written outside its array. -/
theorem C66_refuted (tbl : List Code) (hl : tbl.length = timeEntries) (rate : Nat) (h1 : 1000 ≤ rate) (h2 : rate < 3000) :
    initTimeTable tbl rate 1024 = .ub := by
  have hb : (rate + 1000) / 2000 = 1 := by omega
  have hd : deltaTmin rate = 2 := by rw [deltaTmin, hb]; decide +kernel
  rw [initTimeTable, if_neg (by omega), if_neg (by omega), if_neg (by rw [hd]; omega), hd, createTimeTable]
  have : putDown (fun n => ⟨2 + timeBits (1024 / 2) 31 1, 3 * 2 ^ timeBits (1024 / 2) 31 1 + n, n + 14⟩) 14
      (1010 + 1) tbl = .ub := by
    rw [putDown, put, if_neg (by rw [hl]; decide)]
    rfl
  show (putDown _ 14 (1010 + 1) tbl >>= _) = _
  rw [this]
  rfl

theorem doubleUp_ge (b : Nat) : ∀ fuel x, x ≤ doubleUp b fuel x := by
  intro fuel
  induction fuel with
  | zero => intro x; exact Nat.le_refl _
  | succ fuel ih =>
    intro x
    rw [doubleUp]
    split
    · have := ih (2 * x); omega
    · exact Nat.le_refl _

theorem four_le {rate : Nat} (h : 3000 ≤ rate) : 4 ≤ deltaTmin rate := by
  have hb : 2 ≤ (rate + 1000) / 2000 := by omega
  rw [deltaTmin]
  generalize (rate + 1000) / 2000 = b at hb
  rw [doubleUp, if_pos (by omega), doubleUp, if_pos (by omega)]
  exact doubleUp_ge b _ _

/-- **C66 (partial)** At all other rates the table fits. -/
theorem C66_partial (tbl : List Code) (hl : tbl.length = timeEntries) (rate frame : Nat) (h : 3000 ≤ rate) :
    initTimeTable tbl rate frame ≠ .ub := by
  have hd : 4 ≤ deltaTmin rate := four_le h
  unfold initTimeTable
  split
  · simp
  · split
    · simp
    · split
      · simp
      · rename_i h2 h3
        have hn : 1 ≤ frame / deltaTmin rate := Nat.div_pos (by omega) (by omega)
        have hn' : frame / deltaTmin rate ≤ 256 := by
          have := Nat.div_le_div (Nat.le_refl frame) hd (by omega)
          omega
        obtain ⟨t, j, ht⟩ := createTimeTable_eq tbl (frame / deltaTmin rate) hn (by omega)
          (by unfold maxDelta; rw [hl, timeEntries]; omega)
        rw [ht]
        simp

example : (List.replicate timeEntries (⟨0, 0, 0⟩ : Code)).length = timeEntries ∧ 3000 ≤ 48000 ∧
    (initTimeTable (List.replicate timeEntries ⟨0, 0, 0⟩) 48000 1024).map List.length = .ok 526 := by decide +kernel

/-- A frame is usable: a rate of at least 1 kHz, 1 to 1024 samples, at least a millisecond long and not
shorter than the time unit. -/
def FrameOk (rate frame : Nat) : Prop :=
  1000 ≤ rate ∧ 1 ≤ frame ∧ frame ≤ 1024 ∧ rate ≤ 1000 * frame ∧ deltaTmin rate ≤ frame

/-- **C66 (partial)** Every other frame is refused with the fatal error, before the table is touched. -/
theorem C66_refused_partial (tbl : List Code) (rate frame : Nat) (h : ¬ FrameOk rate frame) :
    initTimeTable tbl rate frame = .err .initFatal := by
  unfold FrameOk at h
  unfold initTimeTable
  split
  · rfl
  · split
    · rfl
    · split
      · rfl
      · omega

example : ¬ FrameOk 48000 47 ∧ ¬ FrameOk 999 512 ∧ ¬ FrameOk 48000 1025 ∧ FrameOk 48000 48 := by
  unfold FrameOk; decide +kernel

/-- **C66 (partial)** A usable frame at 3 kHz or more is accepted. -/
theorem C66_accepted_partial (tbl : List Code) (hl : tbl.length = timeEntries) (rate frame : Nat) (h : 3000 ≤ rate)
    (hf : FrameOk rate frame) : ∃ t, initTimeTable tbl rate frame = .ok t := by
  have hu := C66_partial tbl hl rate frame h
  obtain ⟨h1, h2, h3, h4, h5⟩ := hf
  rw [initTimeTable, if_neg (by omega), if_neg (by omega), if_neg (by omega)] at hu ⊢
  have hd : 0 < deltaTmin rate := by
    rw [deltaTmin]
    exact Nat.lt_of_lt_of_le Nat.one_pos (doubleUp_ge _ _ _)
  by_cases hl' : maxDelta (frame / deltaTmin rate) < tbl.length
  · obtain ⟨t, j, ht⟩ := createTimeTable_eq tbl (frame / deltaTmin rate) (Nat.div_pos h5 hd)
      (by have := Nat.div_le_self frame (deltaTmin rate); omega) hl'
    exact ⟨_, ht⟩
  · exfalso
    have hd4 : 4 ≤ deltaTmin rate := four_le h
    have := Nat.div_le_div (Nat.le_refl frame) hd4 (by omega)
    unfold maxDelta at hl'
    rw [hl, timeEntries] at hl'
    omega

end Verif.Huff
