import Verif.Model.Igf
import Verif.Spec.Igf
import Verif.Props.Spectral

/-!
# Gap filling: coded levels
-/

namespace Verif.Igf

open Prog
open Arith (Sync St freqTableB freqTable_of_bool C32_decode_encode_partial run_firstSymbol pv)
open ArithCode (encode Enc FreqTable)

theorem symbol_sync {total : Int} {tbl : List Nat} {sym : Nat} {rest : List (List Nat × Nat)} {c : Coder} {l : List Bool} (old : Int)
    (h : Sync total ((tbl, sym) :: rest) c.st c.bc l) :
    ∃ c' l', run (symbol tbl old c) l = .ok (((sym : Int), c'), l') ∧ Sync total rest c'.st c'.bc l' := by
  obtain ⟨s', bc', l', h1, h2⟩ := h.step
  refine ⟨⟨s', bc'⟩, l', ?_, h2⟩
  unfold symbol
  rw [run_bind, h1, Res.ok_bind]
  rfl

theorem bits_sync {total : Int} (n v : Nat) {rest : List (List Nat × Nat)} {c : Coder} {l : List Bool} (old acc : Int)
    (h : Sync total (rawBits n v ++ rest) c.st c.bc l) :
    ∃ c' l', run (bitsLoop n old acc c) l = .ok ((acc + (v % 2 ^ n : Nat), c'), l') ∧ Sync total rest c'.st c'.bc l' := by
  induction n generalizing old acc c l with
  | zero => exact ⟨c, l, by simp [bitsLoop, Nat.mod_one], h⟩
  | succ n ih =>
    simp only [rawBits, List.cons_append] at h
    obtain ⟨c1, l1, h1, h2⟩ := symbol_sync old h
    obtain ⟨c', l', h3, h4⟩ := ih ((v / 2 ^ n % 2 : Nat) : Int) (acc + ((v / 2 ^ n % 2 : Nat) : Int) * 2 ^ n) h2
    refine ⟨c', l', ?_, h4⟩
    unfold bitsLoop
    rw [run_bind, h1, Res.ok_bind]
    simp only
    rw [h3]
    have e : v % 2 ^ (n + 1) = v / 2 ^ n % 2 * 2 ^ n + v % 2 ^ n := by
      rw [pow_succ, Nat.mod_mul]
      ring
    rw [e]
    push_cast
    rw [add_assoc]

theorem arithBits_sync {total : Int} (n v : Nat) (hv : v < 2 ^ n) {rest : List (List Nat × Nat)} {c : Coder} {l : List Bool}
    (h : Sync total (rawBits n v ++ rest) c.st c.bc l) :
    ∃ c' l', run (arithBits n c) l = .ok (((v : Int), c'), l') ∧ Sync total rest c'.st c'.bc l' := by
  obtain ⟨c', l', h1, h2⟩ := bits_sync n v 0 0 h
  refine ⟨c', l', ?_, h2⟩
  unfold arithBits
  rw [h1, Nat.mod_eq_of_lt hv, zero_add]

theorem residual_sync {total : Int} (tbl : List Nat) (off r : Int) (hr : r.natAbs < 156) {rest : List (List Nat × Nat)} {c : Coder} {l : List Bool}
    (h : Sync total (residualCode tbl r ++ rest) c.st c.bc l) :
    ∃ c' l', run (residual tbl off c) l = .ok ((r - off, c'), l') ∧ Sync total rest c'.st c'.bc l' := by
  unfold residualCode at h
  by_cases h12 : r.natAbs ≤ 12
  · rw [if_pos h12] at h
    obtain ⟨c', l', h1, h2⟩ := symbol_sync 0 h
    refine ⟨c', l', ?_, h2⟩
    unfold residual
    rw [run_bind, h1, Res.ok_bind]
    simp only
    rw [if_pos (by omega), run_pure]
    congr 3
    omega
  · rw [if_neg h12] at h
    simp only [List.cons_append] at h
    obtain ⟨c1, l1, h1, h2⟩ := symbol_sync 0 h
    have hsym : ((if r < 0 then 0 else 26 : Nat) : Int) = 0 ∧ r < 0 ∨ ((if r < 0 then 0 else 26 : Nat) : Int) = 26 ∧ 0 ≤ r := by
      by_cases h0 : r < 0
      · exact Or.inl ⟨by simp [h0], h0⟩
      · exact Or.inr ⟨by simp [h0], by omega⟩
    have hx : ∃ c' l', run (do
        let e ← arithBits 4 c1
        if e.1 = 15 then do
            let f ← arithBits 7 e.2
            pure (15 + f.1, f.2)
          else pure e) l1 = .ok ((((r.natAbs - 13 : Nat) : Int), c'), l') ∧ Sync total rest c'.st c'.bc l' := by
      by_cases h28 : r.natAbs < 28
      · rw [if_pos h28] at h2
        obtain ⟨c', l', h3, h4⟩ := arithBits_sync 4 _ (by norm_num; omega) h2
        refine ⟨c', l', ?_, h4⟩
        rw [run_bind, h3, Res.ok_bind]
        simp only
        rw [if_neg (by omega), run_pure]
      · rw [if_neg h28, List.append_assoc] at h2
        obtain ⟨c2, l2, h3, h4⟩ := arithBits_sync 4 15 (by norm_num) h2
        obtain ⟨c', l', h5, h6⟩ := arithBits_sync 7 _ (by norm_num; omega) h4
        refine ⟨c', l', ?_, h6⟩
        rw [run_bind, h3, Res.ok_bind]
        simp only
        rw [if_pos (by norm_num), run_bind, h5, Res.ok_bind, run_pure]
        have e : (15 : Int) + ((r.natAbs - 28 : Nat) : Int) = ((r.natAbs - 13 : Nat) : Int) := by omega
        simp only [e]
    obtain ⟨c', l', h3, h4⟩ := hx
    refine ⟨c', l', ?_, h4⟩
    unfold residual
    rw [run_bind, h1, Res.ok_bind]
    simp only
    rw [if_neg (by rcases hsym with ⟨e, -⟩ | ⟨e, -⟩ <;> rw [e] <;> norm_num)]
    rw [run_bind] at h3 ⊢
    obtain ⟨⟨e, l2⟩, h5, h6⟩ := Res.bind_eq_ok.1 h3
    rw [h5, Res.ok_bind]
    simp only at h6 ⊢
    rw [run_bind, h6, Res.ok_bind]
    simp only
    rcases hsym with ⟨e, h0⟩ | ⟨e, h0⟩
    · rw [e, if_pos rfl, run_pure]
      congr 3
      omega
    · rw [e, if_neg (by norm_num), run_pure]
      congr 3
      omega

theorem ctx_near (d : Int) : ctx d = near d := by
  unfold ctx near
  split
  · omega
  · split <;> omega

/-- What the decoder keeps agrees with the matrix before window `t`. -/
def Holds (x : Nat → Nat → Int) (inc start n t : Nat) (m : Levels) : Prop :=
  m.time = t ∧ (∀ t', t = t' + 1 → ∀ f, f < n → m.prev (start + f * inc) = x t' f) ∧ (∀ t', t = t' + 2 → m.prevD = x t' 0)

theorem model_eq (x : Nat → Nat → Int) (inc n t : Nat) (prev : Nat → Int) (prevD : Int)
    (hp : ∀ t', t = t' + 1 → ∀ f, f < n → prev (f * inc) = x t' f) (hd : ∀ t', t = t' + 2 → prevD = x t' 0) (k : Nat) (hk : k < n) :
    if t = 0 ∧ k = 0 then model t prev prevD inc ((List.range k).map (x t)) = none
    else ∃ off pred, model t prev prevD inc ((List.range k).map (x t)) = some ((differenceOf x t k).1, off, pred) ∧
      pred + ((differenceOf x t k).2 - off) = x t k := by
  have hg : ∀ i, i < k → ((List.range k).map (x t)).getD i 0 = x t i := by
    intro i hi
    simp [hi]
  unfold model
  simp only [List.length_map, List.length_range]
  match t, k with
  | 0, 0 => simp
  | 0, 1 =>
    rw [if_neg (by omega)]
    refine ⟨2, x 0 0, ?_, by simp [differenceOf]⟩
    simp [differenceOf]
  | 0, k + 2 =>
    rw [if_neg (by omega)]
    refine ⟨off02.getD (near (x 0 (k + 1) - x 0 k)) 0, x 0 (k + 1), ?_, by simp only [differenceOf]; omega⟩
    simp only [if_true]
    rw [if_neg (by omega), if_neg (by omega), show k + 2 - 1 = k + 1 by omega, show k + 2 - 2 = k by omega, hg _ (by omega), hg _ (by omega),
      ctx_near]
    rfl
  | 1, 0 =>
    rw [if_neg (by omega)]
    have := hp 0 rfl 0 (by omega)
    rw [Nat.zero_mul] at this
    refine ⟨-4, x 0 0, ?_, by simp only [differenceOf]; omega⟩
    simp [differenceOf, this]
  | t + 2, 0 =>
    rw [if_neg (by omega)]
    have h0 := hp (t + 1) rfl 0 (by omega)
    rw [Nat.zero_mul] at h0
    refine ⟨off20.getD (near (x (t + 1) 0 - x t 0)) 0, x (t + 1) 0, ?_, by simp only [differenceOf]; omega⟩
    rw [if_neg (by omega), if_pos rfl, if_pos (by omega), h0, hd t rfl, ctx_near]
    rfl
  | t + 1, k + 1 =>
    rw [if_neg (by omega)]
    have h0 := hp t rfl (k + 1) (by omega)
    have h1 := hp t rfl k (by omega)
    have e : differenceOf x (t + 1) (k + 1) = ((se11.getD (near (x (t + 1) k - x t k)) []).getD (near (x t (k + 1) - x t k)) [],
        x (t + 1) (k + 1) - (x t (k + 1) + x (t + 1) k - x t k) +
          (off11.getD (near (x (t + 1) k - x t k)) []).getD (near (x t (k + 1) - x t k)) 0) := by
      cases t <;> rfl
    rw [e]
    refine ⟨(off11.getD (near (x (t + 1) k - x t k)) []).getD (near (x t (k + 1) - x t k)) 0, x t (k + 1) + x (t + 1) k - x t k, ?_, by simp only; omega⟩
    rw [if_neg (by omega), if_neg (by omega), show k + 1 - 1 = k by omega, hg _ (by omega), h0, h1, ctx_near, ctx_near]

theorem row_sync {total : Int} (x : Nat → Nat → Int) (inc N t : Nat) (prev : Nat → Int) (prevD : Int)
    (hp : ∀ t', t = t' + 1 → ∀ f, f < N → prev (f * inc) = x t' f) (hd : ∀ t', t = t' + 2 → prevD = x t' 0)
    (hc : ∀ f, f < N → Codable x t f) (n k : Nat) (hk : k + n = N) {rest : List (List Nat × Nat)} {c : Coder} {l : List Bool}
    (h : Sync total (rowCode x t n k ++ rest) c.st c.bc l) :
    ∃ c' l', run (rowLoop t prev prevD inc n ((List.range k).map (x t)) c) l = .ok (((List.range N).map (x t), c'), l') ∧
      Sync total rest c'.st c'.bc l' := by
  induction n generalizing k c l with
  | zero =>
    refine ⟨c, l, ?_, h⟩
    rw [← hk, Nat.add_zero]
    rfl
  | succ n ih =>
    simp only [rowCode, List.append_assoc] at h
    have hm := model_eq x inc N t prev prevD hp hd k (by omega)
    obtain ⟨hb, hcod⟩ := hc k (by omega)
    unfold levelCode at h
    have happ : (List.range k).map (x t) ++ [x t k] = (List.range (k + 1)).map (x t) := by
      rw [List.range_succ, List.map_append]
      rfl
    by_cases h0 : t = 0 ∧ k = 0
    · rw [if_pos h0] at hm h hcod
      obtain ⟨c1, l1, h1, h2⟩ := arithBits_sync 7 _ (by norm_num; omega) h
      obtain ⟨c', l', h3, h4⟩ := ih (k + 1) (by omega) h2
      refine ⟨c', l', ?_, h4⟩
      unfold rowLoop
      rw [hm]
      simp only
      rw [run_bind, h1, Res.ok_bind]
      simp only
      have ex : ((x 0 0).toNat : Int) = x t k := by rw [h0.1, h0.2]; omega
      rw [ex, happ, h3]
    · rw [if_neg h0] at hm h hcod
      obtain ⟨off, pred, hm1, hm2⟩ := hm
      obtain ⟨c1, l1, h1, h2⟩ := residual_sync _ off _ hcod h
      obtain ⟨c', l', h3, h4⟩ := ih (k + 1) (by omega) h2
      refine ⟨c', l', ?_, h4⟩
      unfold rowLoop
      rw [hm1]
      simp only
      rw [run_bind, run_bind, h1, Res.ok_bind]
      simp only
      rw [hm2]
      have hw : Ops.i32 (x t k) = .ok (x t k) := by
        unfold Ops.i32
        unfold Ops.MIN_32 Ops.MAX_32
        rw [if_pos]
        norm_num at hb ⊢
        omega
      rw [run_bind]
      unfold Arith.w32
      rw [hw]
      rw [run_lift _ _ (by simp)]
      simp only [Res.ok_bind, run_pure]
      rw [happ, h3]

theorem spread_eq (x : Nat → Nat → Int) (inc len t : Nat) (hi : 1 ≤ inc) :
    spread inc len ((List.range ((len + inc - 1) / inc)).map (x t)) = bandLevels x inc len t := by
  unfold spread bandLevels
  apply List.map_congr_left
  intro i hi'
  have hil := List.mem_range.1 hi'
  have : i / inc < (len + inc - 1) / inc := by
    rw [Nat.div_lt_iff_lt_mul (by omega)]
    have := Nat.div_add_mod (len + inc - 1) inc
    have := Nat.mod_lt (len + inc - 1) (show 0 < inc by omega)
    rw [Nat.mul_comm]
    omega
  simp [this]

theorem window_sync {total : Int} (x : Nat → Nat → Int) (inc start len t : Nat) (hi : 1 ≤ inc) (m : Levels)
    (hm : Holds x inc start ((len + inc - 1) / inc) t m) (hlen : 1 ≤ len)
    (hc : ∀ f, f < (len + inc - 1) / inc → Codable x t f) {rest : List (List Nat × Nat)} {c : Coder} {l : List Bool}
    (h : Sync total (rowCode x t ((len + inc - 1) / inc) 0 ++ rest) c.st c.bc l) :
    ∃ m' c' l', run (oneWindow inc start len m c) l = .ok ((bandLevels x inc len t, m', c'), l') ∧ m'.winType = m.winType ∧
      Holds x inc start ((len + inc - 1) / inc) (t + 1) m' ∧ Sync total rest c'.st c'.bc l' := by
  obtain ⟨h1, h2, h3⟩ := hm
  obtain ⟨c', l', h4, h5⟩ := row_sync x inc ((len + inc - 1) / inc) t (fun i => m.prev (start + i)) m.prevD h2 h3 hc _ 0 (by omega) h
  refine ⟨{ m with
      time := t + 1
      prevD := m.prev start
      prev := fun i => if start ≤ i ∧ i < start + len then (bandLevels x inc len t).getD (i - start) 0 else m.prev i }, c', l', ?_, ?_, ?_, h5⟩
  · unfold oneWindow
    rw [h1, run_bind]
    simp only [List.range_zero, List.map_nil] at h4
    rw [h4, Res.ok_bind]
    simp only [spread_eq x inc len t hi]
    rw [run_pure]
  · rfl
  · refine ⟨by rfl, ?_, ?_⟩
    · intro t' e f hf
      have ht : t' = t := by omega
      subst ht
      have hfl : f * inc < len := by
        have : f + 1 ≤ (len + inc - 1) / inc := by omega
        rw [Nat.le_div_iff_mul_le (by omega), Nat.add_mul, Nat.one_mul] at this
        omega
      simp only
      rw [if_pos (by omega), Nat.add_sub_cancel_left]
      unfold bandLevels
      simp [hfl, Nat.mul_div_cancel f (show 0 < inc by omega)]
    · intro t' e
      have := h2 t' (by omega) 0 (by rw [Nat.div_pos_iff]; omega)
      simpa using this

theorem windows_sync {total : Int} (x : Nat → Nat → Int) (inc start len : Nat) (hi : 1 ≤ inc) (hlen : 1 ≤ len) (w t : Nat) (m : Levels)
    (hm : Holds x inc start ((len + inc - 1) / inc) t m)
    (hc : ∀ i, i < w → ∀ f, f < (len + inc - 1) / inc → Codable x (t + i) f) {rest : List (List Nat × Nat)} {c : Coder} {l : List Bool}
    (h : Sync total (frameCode x ((len + inc - 1) / inc) w t ++ rest) c.st c.bc l) :
    ∃ m' c' l', run (windows inc start len w m c) l = .ok (((List.range w).map fun i => bandLevels x inc len (t + i), m', c'), l') ∧
      m'.winType = m.winType ∧ Holds x inc start ((len + inc - 1) / inc) (t + w) m' ∧ Sync total rest c'.st c'.bc l' := by
  induction w generalizing t m c l with
  | zero => exact ⟨m, c, l, by simp [windows], rfl, hm, h⟩
  | succ w ih =>
    simp only [frameCode, List.append_assoc] at h
    obtain ⟨m1, c1, l1, h1, h2, h3, h4⟩ := window_sync x inc start len t hi m hm hlen (fun f hf => hc 0 (by omega) f hf) h
    obtain ⟨m', c', l', h5, h6, h7, h8⟩ := ih (t + 1) m1 h3 (fun i hi f hf => by
      have := hc (i + 1) (by omega) f hf
      rwa [show t + (i + 1) = t + 1 + i by omega] at this) h4
    refine ⟨m', c', l', ?_, h6.trans h2, by rwa [show t + (w + 1) = t + 1 + w by omega], h8⟩
    unfold windows
    rw [run_bind, h1, Res.ok_bind]
    simp only
    rw [run_bind, h5, Res.ok_bind]
    simp only
    rw [run_pure, List.range_succ_eq_map, List.map_cons, List.map_map]
    simp only [Function.comp_def, Nat.add_zero, Nat.succ_eq_add_one]
    congr 5
    funext i
    rw [show t + 1 + i = t + (i + 1) by omega]

/-! The symbols are symbols of frequency tables. -/

/-- A table for differences. -/
def isTable (t : List Nat) : Bool := freqTableB t && decide (t.length = 27)

theorem tables_isTable : isTable se01 = true ∧ isTable se10 = true ∧ (∀ i < 7, isTable (se02.getD i []) = true) ∧
    (∀ i < 7, isTable (se20.getD i []) = true) ∧ ∀ i < 7, ∀ j < 7, isTable ((se11.getD i []).getD j []) = true := by decide +kernel

theorem near_lt (d : Int) : near d < 7 := by unfold near; omega

theorem difference_table (x : Nat → Nat → Int) (t f : Nat) (h : ¬ (t = 0 ∧ f = 0)) : isTable (differenceOf x t f).1 = true := by
  obtain ⟨h1, h2, h3, h4, h5⟩ := tables_isTable
  match t, f with
  | 0, 0 => simp at h
  | 0, 1 => exact h1
  | 0, f + 2 => exact h3 _ (near_lt _)
  | 1, 0 => exact h2
  | t + 2, 0 => exact h4 _ (near_lt _)
  | t + 1, f + 1 =>
    cases t <;> exact h5 _ (near_lt _) _ (near_lt _)

def SymOk (p : List Nat × Nat) : Prop := FreqTable p.1 ∧ p.2 < p.1.length

theorem rawBits_ok (n v : Nat) : (∀ p ∈ rawBits n v, SymOk p) ∧ (rawBits n v).length = n := by
  induction n with
  | zero => simp [rawBits]
  | succ n ih =>
    refine ⟨?_, by simp [rawBits, ih.2]⟩
    intro p hp
    simp only [rawBits, List.mem_cons] at hp
    rcases hp with rfl | hp
    · refine ⟨freqTable_of_bool (show freqTableB cfBit = true by decide), ?_⟩
      show _ < 2
      omega
    · exact ih.1 p hp

theorem residualCode_ok (tbl : List Nat) (h : isTable tbl = true) (r : Int) : (∀ p ∈ residualCode tbl r, SymOk p) ∧ (residualCode tbl r).length ≤ 12 := by
  simp only [isTable, Bool.and_eq_true, decide_eq_true_eq] at h
  have hf := freqTable_of_bool h.1
  unfold residualCode
  split
  · refine ⟨?_, by simp⟩
    intro p hp
    simp only [List.mem_singleton] at hp
    subst hp
    refine ⟨hf, ?_⟩
    simp only [h.2]
    omega
  · constructor
    · intro p hp
      simp only [List.mem_cons] at hp
      rcases hp with rfl | hp
      · refine ⟨hf, ?_⟩
        simp only [h.2]
        split <;> omega
      · split at hp
        · exact (rawBits_ok _ _).1 p hp
        · rcases List.mem_append.1 hp with hp | hp
          · exact (rawBits_ok _ _).1 p hp
          · exact (rawBits_ok _ _).1 p hp
    · rw [List.length_cons]
      by_cases h28 : r.natAbs < 28
      · rw [if_pos h28, (rawBits_ok _ _).2]
        omega
      · rw [if_neg h28, List.length_append, (rawBits_ok _ _).2, (rawBits_ok _ _).2]

theorem levelCode_ok (x : Nat → Nat → Int) (t f : Nat) : (∀ p ∈ levelCode x t f, SymOk p) ∧ (levelCode x t f).length ≤ 12 := by
  unfold levelCode
  split
  · exact ⟨(rawBits_ok _ _).1, by rw [(rawBits_ok _ _).2]; omega⟩
  · rename_i h
    exact residualCode_ok _ (difference_table x t f h) _

theorem rowCode_ok (x : Nat → Nat → Int) (t n f : Nat) : (∀ p ∈ rowCode x t n f, SymOk p) ∧ (rowCode x t n f).length ≤ 12 * n := by
  induction n generalizing f with
  | zero => simp [rowCode]
  | succ n ih =>
    simp only [rowCode, List.mem_append, List.length_append]
    refine ⟨?_, by have := (levelCode_ok x t f).2; have := (ih (f + 1)).2; omega⟩
    rintro p (hp | hp)
    · exact (levelCode_ok x t f).1 p hp
    · exact (ih (f + 1)).1 p hp

theorem frameCode_ok (x : Nat → Nat → Int) (n w t : Nat) : (∀ p ∈ frameCode x n w t, SymOk p) ∧ (frameCode x n w t).length ≤ 12 * n * w := by
  induction w generalizing t with
  | zero => simp [frameCode]
  | succ w ih =>
    simp only [frameCode, List.mem_append, List.length_append]
    refine ⟨?_, by have := (rowCode_ok x t n 0).2; have := (ih (t + 1)).2; rw [Nat.mul_succ]; omega⟩
    rintro p (hp | hp)
    · exact (rowCode_ok x t n 0).1 p hp
    · exact (ih (t + 1)).1 p hp

/-- **C212** (partial) The levels of any number of windows, coded with the arithmetic coder as differences in the contexts of their neighbours in
frequency and time, are decoded; what is kept agrees with the levels for the next frame; and the number of bits counted is 14 more than those of the code.
Missing: codes within 15 bits of the end of the input (C32), levels of 2 ^ 30 and more, frames with more than 64 levels or 8 windows. -/
theorem C212_coded_partial (x : Nat → Nat → Int) (inc start len : Nat) (hi : 1 ≤ inc) (hlen : 1 ≤ len) (hlen2 : len ≤ 64) (w t : Nat) (hw : w ≤ 8) (m : Levels)
    (hm : Holds x inc start ((len + inc - 1) / inc) t m) (hc : ∀ i, i < w → ∀ f, f < (len + inc - 1) / inc → Codable x (t + i) f)
    (tail : List Bool) (ht : 15 ≤ tail.length) :
    ∃ m' s l', run (coded inc start len w m) (encode Enc.start (frameCode x ((len + inc - 1) / inc) w t) ++ tail) =
        .ok (((List.range w).map fun i => bandLevels x inc len (t + i), m',
          ⟨s, 14 + (encode Enc.start (frameCode x ((len + inc - 1) / inc) w t)).length⟩), l') ∧
      m'.winType = m.winType ∧ Holds x inc start ((len + inc - 1) / inc) (t + w) m' := by
  have hn : (len + inc - 1) / inc ≤ 64 := by
    refine le_trans ?_ hlen2
    rw [Nat.div_le_iff_le_mul (by omega)]
    have := Nat.mul_le_mul_left len hi
    omega
  obtain ⟨hv, hl⟩ := frameCode_ok x ((len + inc - 1) / inc) w t
  obtain ⟨s, l', h⟩ := C32_decode_encode_partial (frameCode x ((len + inc - 1) / inc) w t) hv
    (by
      have : 12 * ((len + inc - 1) / inc) * w ≤ 12 * 64 * 8 := Nat.mul_le_mul (by omega) hw
      norm_num; omega) tail ht
  rw [run_bind, run_firstSymbol, Res.ok_bind] at h
  simp only at h
  generalize hL : encode Enc.start (frameCode x ((len + inc - 1) / inc) w t) = code at h ⊢
  have hs : Sync (14 + (code.length : Int)) (frameCode x ((len + inc - 1) / inc) w t ++ []) ⟨0, 65535, pv 16 (code ++ tail)⟩ 16 ((code ++ tail).drop 16) := by
    rw [List.append_nil]
    exact ⟨s, l', h⟩
  obtain ⟨m', c', l2, h1, h2, h3, h4⟩ := windows_sync x inc start len hi hlen w t m hm hc (c := ⟨⟨0, 65535, pv 16 (code ++ tail)⟩, 16⟩) hs
  refine ⟨m', c'.st, l2, ?_, h2, h3⟩
  unfold coded
  rw [run_bind, run_firstSymbol, Res.ok_bind]
  simp only
  rw [h1, ← h4.done]

/-- The memory after a reset. -/
theorem holds_reset (x : Nat → Nat → Int) (inc start n : Nat) (m : Levels) (h : m.time = 0) : Holds x inc start n 0 m :=
  ⟨h, by intro t' e; omega, by intro t' e; omega⟩

/-- **C212** (partial) The levels of a frame as they stand in the stream: a flag 0 and the code.  They are decoded if they are not all 0 and the range of bands is
not empty and starts above the smallest line; exactly the bits behind the code are left.  In a frame that can be decoded alone, or if the
type of window changes, the levels count from window 0; otherwise they continue.  Missing: as above. -/
theorem C212_levels_partial (c : Config) (g : Grid) (tbl : List Nat) (winType w : Nat) (hw : w ≤ 8) (indep : Bool) (m : Levels) (o : Nat)
    (ho : offset tbl (shiftOf winType) g.start = .ok o) (hlow : g.least < o) (h1 : g.start < g.stop) (h2 : g.stop - g.start ≤ 64)
    (x : Nat → Nat → Int) (t : Nat)
    (ht : if indep = true ∨ winType ≠ m.winType then t = 0
      else Holds x (step c winType) g.start ((g.stop - g.start + step c winType - 1) / step c winType) t m)
    (hc : ∀ i, i < w → ∀ f, f < (g.stop - g.start + step c winType - 1) / step c winType → Codable x (t + i) f)
    (hnz : ∃ i, i < w ∧ ∃ f, f < g.stop - g.start ∧ x (t + i) (f / step c winType) ≠ 0)
    (tail : List Bool) (htail : 15 ≤ tail.length) :
    ∃ m', levels c g tbl winType w indep m
        (false :: (encode Enc.start (frameCode x ((g.stop - g.start + step c winType - 1) / step c winType) w t) ++ tail)) =
      .ok ((some ((List.range w).map fun i => bandLevels x (step c winType) (g.stop - g.start) (t + i)), m'), tail) ∧
      m'.winType = winType ∧ Holds x (step c winType) g.start ((g.stop - g.start + step c winType - 1) / step c winType) (t + w) m' := by
  have hst : 1 ≤ step c winType := by unfold step; split <;> omega
  have hm : Holds x (step c winType) g.start ((g.stop - g.start + step c winType - 1) / step c winType) t (m.reset false indep winType) := by
    unfold Levels.reset
    by_cases h : indep = true ∨ winType ≠ m.winType
    · rw [if_pos h] at ht
      subst ht
      rw [if_pos (by simpa using h)]
      exact holds_reset _ _ _ _ _ rfl
    · rw [if_neg h] at ht
      rw [if_neg (by simpa using h)]
      exact ht
  obtain ⟨m', s, l', e, -, e2⟩ := C212_coded_partial x (step c winType) g.start (g.stop - g.start) hst (by omega) h2 w t hw _ hm hc tail htail
  refine ⟨{ m' with winType := winType }, ?_, rfl, e2⟩
  unfold levels
  have hz : run (bits 1) (false :: (encode Enc.start (frameCode x ((g.stop - g.start + step c winType - 1) / step c winType) w t) ++ tail)) =
      .ok (0, encode Enc.start (frameCode x ((g.stop - g.start + step c winType - 1) / step c winType) w t) ++ tail) := by
    simp [bitsVal]
  rw [hz, Res.ok_bind, ho, Res.ok_bind]
  simp only
  rw [if_neg (by decide), show decide ((0 : Nat) = 1) = false from rfl, e, Res.ok_bind]
  simp only
  generalize encode Enc.start (frameCode x ((g.stop - g.start + step c winType - 1) / step c winType) w t) = code
  rw [show (14 + (code.length : Int) - 14) = (code.length : Int) by omega]
  have hd : run (drop (code.length : Int)) (code ++ tail) = .ok ((), tail) := by
    rw [run_drop, if_neg (by omega), if_neg (by simp)]
    simp
  rw [hd, Res.ok_bind]
  have hchk : checkLevels g.start g.stop (decide (o ≤ g.least)) ((List.range w).map fun i => bandLevels x (step c winType) (g.stop - g.start) (t + i)) = true := by
    unfold checkLevels
    rw [show decide (o ≤ g.least) = false by simp; omega, show decide (g.start = g.stop) = false by simp; omega]
    simp only [Bool.or_false, Bool.false_or, Bool.not_eq_true', Bool.eq_false_iff, ne_eq]
    intro hall
    obtain ⟨i, hi, f, hf, hne⟩ := hnz
    simp only [List.all_eq_true, List.mem_map, List.mem_range, decide_eq_true_eq, forall_exists_index, and_imp] at hall
    apply hne
    refine hall _ i hi rfl _ ?_
    unfold bandLevels
    exact List.mem_map.2 ⟨f, List.mem_range.2 hf, rfl⟩
  unfold accept
  simp only
  rw [if_pos hchk, Res.ok_bind]

/-- What can be compared of a result. -/
def seen {α : Type} (r : Res ((Option (List (List Int)) × Levels) × α)) : Res (Option (List (List Int)) × α) := do
  let r ← r
  .ok (r.1.1, r.2)

def fresh : Levels := ⟨0, 0, fun _ => 0, 0⟩

/-- Three frames at 48 kHz with one, one and two windows. -/
example : ∃ m1, levels ⟨9, 1, true, true, true⟩ ⟨20, 23, 1, 48⟩ Fd.sfb48 0 2 true fresh
      (false :: (encode Enc.start (frameCode (fun t f => 20 * t + f * f) 3 2 0) ++ List.replicate 15 true)) =
    .ok ((some [[0, 1, 4], [20, 21, 24]], m1), List.replicate 15 true) := by
  obtain ⟨m', h, -⟩ := C212_levels_partial ⟨9, 1, true, true, true⟩ ⟨20, 23, 1, 48⟩ Fd.sfb48 0 2 (by decide) true fresh 132 (by decide) (by decide) (by decide)
    (by decide) (fun t f => 20 * t + f * f) 0 (by simp) (by
      intro i hi f hf
      have hf' : f < 3 := hf
      interval_cases i <;> interval_cases f <;> exact ⟨by decide, by decide⟩) ⟨1, by decide, 0, by decide, by decide⟩ (List.replicate 15 true) (by simp)
  exact ⟨m', h⟩

/-- **C213** (refuted) "Every decoded level is a number": a level `q` of a long window at lower resolution stands for 2 to the power `q / 2`, and the
difference of two neighbours can be 153, so that two coded levels reach 2 to the power 140, which is no `FLOAT32` (below 2 to the power 128). -/
theorem C213_refuted : ∃ l, seen (levels ⟨9, 1, false, true, true⟩ ⟨20, 23, 1, 48⟩ Fd.sfb48 0 1 true fresh l) = .ok (some [[127, 127, 280]], List.replicate 15 true) ∧
    exponent ⟨9, 1, false, true, true⟩ 0 280 = 4 * 140 :=
  ⟨false :: (encode Enc.start (frameCode (fun _ f => if f = 0 then 127 else 280) 2 1 0) ++ List.replicate 15 true), by decide +kernel⟩

/-- **C213** (partial) Levels up to 255 are numbers, and with higher resolution up to 511.  Missing: larger levels. -/
theorem C213_level_partial (c : Config) (winType : Nat) (q : Int) (h : q ≤ if c.highRes = true then 511 else 255) : exponent c winType q < 4 * 128 := by
  unfold exponent
  by_cases hc : c.highRes = true
  · rw [if_pos hc] at h
    rw [if_pos (Or.inl hc)]
    split <;> omega
  · rw [if_neg hc] at h
    split <;> split <;> omega

/-- **C213** What a level stands for, as a power of 2 in quarters: steps of half a power for long windows of lower resolution and short windows, otherwise of a
quarter; parts of linear prediction frames are 10 powers lower. -/
theorem C213_exponent (c : Config) (winType : Nat) (q : Int) : exponent c winType q =
    if 2 ≤ winType then q - 40 else if c.highRes = true then q else 2 * q := by
  unfold exponent
  by_cases h1 : 2 ≤ winType
  · rw [if_pos (Or.inr (by omega)), if_pos (by omega), if_pos h1]
    omega
  · by_cases h2 : c.highRes = true
    · rw [if_pos (Or.inl h2), if_neg (by omega), if_neg h1, if_pos h2]
      omega
    · rw [if_neg (by rintro (h | h); · exact h2 h
                     · omega), if_neg (by omega), if_neg h1, if_neg h2]
      omega

/-- **C215** (refuted) "Levels are rejected if the range of bands of the window starts at or below the smallest line": for short windows the test looks
into the ends of bands of long windows.  At 16 kHz with start index 0 the range of short windows starts at line 12 and the smallest line is 18, but band
3 of a long window ends at line 24.  The levels are accepted, there are no tiles, and each line of the gap is taken from itself. -/
theorem C215_refuted : ∃ g, setupShort (Fd.bandsAt 16000) ⟨0, 15, false, true, false⟩ 1024 16000 = .ok g ∧
    offset (Fd.bandsAt 16000).short 0 g.start = .ok 12 ∧ g.least = 18 ∧ g.tiles = 0 ∧
    (∃ l, seen (levels ⟨0, 15, false, true, false⟩ g (tableOf (Fd.bandsAt 16000) 1) 1 1 true fresh l) =
      .ok (some [List.replicate 12 40], List.replicate 15 true)) ∧
    tileWidths g false (offset (Fd.bandsAt 16000).short 0) = .ok [] ∧ ∀ tb, source g.least 12 tb [] [3, 3, 3, 3] = tb := by
  refine ⟨⟨3, 15, 0, 18⟩, by decide +kernel, by decide +kernel, rfl, rfl,
    ⟨false :: (encode Enc.start (frameCode (fun _ _ => 40) 12 1 0) ++ List.replicate 15 true), by decide +kernel⟩, by decide +kernel, ?_⟩
  intro tb
  rfl

/-- **C215** (partial) For long windows the test is the right one: levels are accepted only if the range of bands is not empty and starts above the smallest line.
Missing: short windows and parts of linear prediction frames of 1024 lines, for which ends of bands of another window are looked at. -/
theorem C215_accepted_partial (c : Config) (g : Grid) (tbl : List Nat) (winType w : Nat) (indep : Bool) (m m' : Levels) (l l' : List Bool) (rows : List (List Int))
    (h : levels c g tbl winType w indep m l = .ok ((some rows, m'), l')) :
    ∃ o, offset tbl (shiftOf winType) g.start = .ok o ∧ g.least < o ∧ g.start ≠ g.stop ∧ ∃ r ∈ rows, ∃ q ∈ r, q ≠ 0 := by
  unfold levels at h
  obtain ⟨z, h1, h⟩ := Res.bind_eq_ok.1 h
  obtain ⟨o, h2, h⟩ := Res.bind_eq_ok.1 h
  simp only at h
  split at h
  · simp at h
  · obtain ⟨r, h3, h⟩ := Res.bind_eq_ok.1 h
    obtain ⟨b, h4, h⟩ := Res.bind_eq_ok.1 h
    obtain ⟨y, h5, h⟩ := Res.bind_eq_ok.1 h
    unfold accept at h5
    split at h5
    · rename_i hc
      simp only [Res.ok.injEq, Prod.mk.injEq] at h h5
      rw [← h5] at h
      simp only [Prod.mk.injEq, Option.some.injEq] at h
      obtain ⟨⟨rfl, -⟩, -⟩ := h
      refine ⟨o, h2, ?_⟩
      simp only [checkLevels, Bool.not_eq_true', Bool.or_eq_false_iff, decide_eq_false_iff_not] at hc
      obtain ⟨⟨ha, hb⟩, hd⟩ := hc
      refine ⟨by omega, ha, ?_⟩
      by_contra hn
      push Not at hn
      rw [Bool.eq_false_iff] at hb
      apply hb
      simp only [List.all_eq_true, decide_eq_true_eq]
      exact hn
    · simp at h5

/-- **C218** (refuted) "Levels cut off at the end of the input are reported": the arithmetic decoder says that there are no more bits by the bit count -1, which
nobody looks at.  Here the input has 8 bits and 2 are left.  Levels are delivered, 15 bits are "skipped" backwards, 16 bits seem to be left, and
the next bit is read from before the input. -/
theorem C218_refuted : ∃ s, runC (bits 6) (BitBuf.create [0]) = .ok (0, s) ∧
    ∃ s', seen (levelsC ⟨9, 1, true, true, true⟩ ⟨20, 23, 1, 48⟩ Fd.sfb48 0 1 true fresh s) = .ok (some [[0, -15, -29]], s') ∧
      s'.cnt = 16 ∧ runC (bits 1) s' = .ub :=
  ⟨⟨[0], 0, 1, 2⟩, by decide +kernel, ⟨[0], -2, 7, 16⟩, by decide +kernel⟩

end Verif.Igf
