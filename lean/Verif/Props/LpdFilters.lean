import Verif.Props.LpdNumbers
import Mathlib.Tactic.IntervalCases
import Mathlib.Tactic.Linarith

/-! # C158, C159: filters are decoded as coded -/

namespace Verif.Lpd

open Prog
open Avq (IsCode extension baseNumber)

/-! ## Entries -/

theorem Code.words_length {c : Code} (h : c.Valid) : c.words.length ≤ 9 := by
  unfold Code.words
  have := h.1.length
  simp only [List.length_map] at this
  split
  · simp
  · simp [this]

theorem vecWords_length {a b : Code} (ha : a.Valid) (hb : b.Valid) : (vecWords a b).length ≤ 20 := by
  have h1 := Code.words_length ha
  have h2 := Code.words_length hb
  simp only [vecWords, List.length_append, List.length_cons, List.length_nil]
  omega

theorem Coded.words_length {set : Nat} {f : Coded} (h : f.Valid set) : (f.words set).length ≤ 22 := by
  have := vecWords_length h.a h.b
  unfold Coded.words
  simp only [List.length_append]
  have h1 : (if set = 4 then ([] : List Int) else [(f.mode : Int)]).length ≤ 1 := by split <;> simp
  have h2 : (if f.mode = 0 then [(f.first : Int)] else []).length ≤ 1 := by split <;> simp
  have h3 : (if hasVector set f.mode then vecWords f.a f.b else []).length ≤ 20 := by
    split
    · exact this
    · simp
  omega

theorem put_reads {out : List Int} {x : Nat} (h : out.length < 110) :
    Reads (put out x) (fun o b => o = out ++ [(x : Int)] ∧ b = []) := by
  unfold put
  rw [if_pos h]
  exact Reads.pure _

theorem several_reads (n w : Nat) (out : List Int) (h : out.length + n ≤ 110) :
    Reads (several n w out) (fun o b => ∃ vs : List Nat, vs.length = n ∧ (∀ v ∈ vs, w ≤ 24 ∧ v < 2 ^ w) ∧
      o = out ++ vs.map Int.ofNat ∧ b = vs.flatMap (natBits w)) := by
  induction n generalizing out with
  | zero =>
    refine (Reads.pure out).congr fun o b => ?_
    constructor
    · rintro ⟨rfl, rfl⟩
      exact ⟨[], rfl, by simp, by simp, rfl⟩
    · rintro ⟨vs, hl, -, rfl, rfl⟩
      rw [List.length_eq_zero_iff.mp hl]
      simp
  | succ n ih =>
    unfold several
    refine ((Reads.bits w).bind fun v _ _ => (put_reads (x := v) (out := out) (by omega)).bind (S := fun o' o b =>
      ∃ vs : List Nat, vs.length = n ∧ (∀ v ∈ vs, w ≤ 24 ∧ v < 2 ^ w) ∧ o = o' ++ vs.map Int.ofNat ∧ b = vs.flatMap (natBits w))
      fun o' b' ho => ih o' (by rw [ho.1]; simp; omega)).congr fun o b => ?_
    constructor
    · rintro ⟨v, b1, b2, ⟨h1, h2, rfl⟩, ⟨o', b3, b4, ⟨rfl, rfl⟩, ⟨vs, hl, hv, rfl, rfl⟩, rfl⟩, rfl⟩
      refine ⟨v :: vs, by simp [hl], ?_, by simp, by simp⟩
      intro u hu
      rcases List.mem_cons.mp hu with rfl | hu
      · exact ⟨h1, h2⟩
      · exact hv u hu
    · rintro ⟨vs, hl, hv, rfl, rfl⟩
      cases vs with
      | nil => simp at hl
      | cons v vs =>
        have := hv v (by simp)
        exact ⟨v, _, _, ⟨this.1, this.2, rfl⟩, ⟨_, _, _, ⟨rfl, rfl⟩, ⟨vs, by simpa using hl, fun u hu => hv u (by simp [hu]), by simp, rfl⟩,
          rfl⟩, by simp⟩

theorem extra_eq (q : Nat) : extra q = extension q := rfl

theorem units_eq (q : Nat) : units q = baseNumber q := by
  unfold units baseNumber
  rw [extra_eq]
  unfold extension
  split <;> omega

theorem zeroCode_valid : Code.Valid ⟨0, 0, List.replicate 8 0⟩ :=
  ⟨⟨by decide, by decide, by decide⟩, by decide, by decide⟩

theorem valid_zero {c : Code} (h : c.Valid) (hq : c.q = 0) : c = ⟨0, 0, List.replicate 8 0⟩ := by
  obtain ⟨q, i, v⟩ := c
  simp only at hq
  subst hq
  have h1 := h.1.index
  have h2 := h.1.length
  have h3 := h.1.range
  simp only [baseNumber, extension] at h1
  simp only [List.length_map] at h2
  simp only [extension] at h3
  simp only [Code.mk.injEq, true_and]
  refine ⟨by simp at h1; omega, ?_⟩
  rw [List.eq_replicate_iff]
  refine ⟨h2, fun a ha => ?_⟩
  have := h3 (Int.ofNat a) (List.mem_map.mpr ⟨a, ha, rfl⟩)
  simp at this
  exact this

theorem base_le {q : Nat} : baseNumber q ≤ 4 := by
  unfold baseNumber extension
  split <;> omega

theorem indices_reads {q : Nat} (h1 : q ≠ 1) {out : List Int} (h : out.length + 9 ≤ 110) :
    Reads (indices q out) (fun o b => ∃ c : Code, c.q = q ∧ c.Valid ∧ o = out ++ c.words ∧ b = c.bits) := by
  unfold indices
  by_cases hq : 0 < q
  · rw [if_pos hq]
    refine ((several_reads 1 (4 * units q) out (by omega)).bind (S := fun o' o b => ∃ vs : List Nat, vs.length = 8 ∧
      (∀ v ∈ vs, extra q ≤ 24 ∧ v < 2 ^ extra q) ∧ o = o' ++ vs.map Int.ofNat ∧ b = vs.flatMap (natBits (extra q)))
      fun o' b' ho => several_reads 8 (extra q) o' ?_).congr fun o b => ?_
    · obtain ⟨vs, hl, _, rfl, _⟩ := ho
      simp [hl]; omega
    · rw [extra_eq, units_eq]
      constructor
      · rintro ⟨o', b1, b2, ⟨vs, hl, hv, rfl, rfl⟩, ⟨ws, hl', hw, rfl, rfl⟩, rfl⟩
        obtain ⟨c, rfl⟩ := List.length_eq_one_iff.mp hl
        have hc := hv c (by simp)
        refine ⟨⟨q, c, ws⟩, rfl, ⟨⟨?_, by simpa using hl', ?_⟩, h1, ?_⟩, ?_, ?_⟩
        · have := hc.2
          rw [Nat.pow_mul] at this
          exact this
        · intro k hk
          obtain ⟨w, hw', rfl⟩ := List.mem_map.mp hk
          have := (hw w hw').2
          refine ⟨Int.natCast_nonneg w, ?_⟩
          show (w : Int) < 2 ^ extension q
          exact_mod_cast this
        · have : ∃ w, w ∈ ws := by
            cases ws with
            | nil => simp at hl'
            | cons w ws => exact ⟨w, by simp⟩
          obtain ⟨w, hw'⟩ := this
          have := (hw w hw').1
          show q ≤ 52
          unfold extension at this
          split at this <;> omega
        · unfold Code.words
          simp only
          rw [if_neg (by omega)]
          simp
        · simp [Code.bits]
      · rintro ⟨c, rfl, hv, rfl, rfl⟩
        have hi := hv.1.index
        have hl := hv.1.length
        have hr := hv.1.range
        have h52 := hv.2.2
        simp only [List.length_map] at hl
        refine ⟨_, _, _, ⟨[c.index], rfl, ?_, rfl, rfl⟩, ⟨c.voronoi, hl, ?_, ?_, rfl⟩, ?_⟩
        · intro v hv
          rw [List.mem_singleton.mp hv]
          refine ⟨?_, ?_⟩
          · have := base_le (q := c.q); omega
          · rw [Nat.pow_mul]; exact hi
        · intro v hv
          refine ⟨?_, ?_⟩
          · unfold extension; split <;> omega
          · have := (hr (Int.ofNat v) (List.mem_map.mpr ⟨v, hv, rfl⟩)).2
            have : (v : Int) < 2 ^ extension c.q := this
            exact_mod_cast this
        · unfold Code.words
          rw [if_neg (by omega)]
          simp
        · simp [Code.bits]
  · rw [if_neg hq]
    obtain rfl : q = 0 := by omega
    refine (Reads.pure out).congr fun o b => ?_
    constructor
    · rintro ⟨rfl, rfl⟩
      exact ⟨_, rfl, zeroCode_valid, by simp [Code.words], by decide⟩
    · rintro ⟨c, hq, hv, rfl, rfl⟩
      rw [valid_zero hv hq]
      exact ⟨by simp [Code.words], by decide⟩

theorem codes_reads {nk : Nat} (hn : nk ≤ 3) (full : Bool) {out : List Int} (h : out.length + 20 ≤ 110) :
    Reads (codes nk full out) (fun o b => ∃ x y : Code, x.Valid ∧ y.Valid ∧ o = out ++ vecWords x y ∧
      b = numberBits (kindOf nk full) x.q y.q ++ x.bits ++ y.bits) := by
  unfold codes
  refine ((numbers_reads hn full).bind (S := fun p o b => ∃ x y : Code, x.q = p.1 ∧ y.q = p.2 ∧ x.Valid ∧ y.Valid ∧
    o = out ++ vecWords x y ∧ b = x.bits ++ y.bits) fun p bs hp => ?_).congr fun o b => ?_
  · obtain ⟨q, r⟩ := p
    obtain ⟨hq, hr, -⟩ := hp
    simp only at hq hr
    refine ((put_reads (x := q) (out := out) (by omega)).bind (S := fun o' o b => ∃ x y : Code, x.q = q ∧ y.q = r ∧ x.Valid ∧ y.Valid ∧
      o = o' ++ [(r : Int)] ++ x.words ++ y.words ∧ b = x.bits ++ y.bits) fun o' _ ho => ?_).congr fun o b => ?_
    · obtain ⟨rfl, -⟩ := ho
      refine ((put_reads (x := r) (by simp; omega)).bind (S := fun o' o b => ∃ x y : Code, x.q = q ∧ y.q = r ∧ x.Valid ∧ y.Valid ∧
        o = o' ++ x.words ++ y.words ∧ b = x.bits ++ y.bits) fun o' _ ho => ?_).congr fun o b => ?_
      · obtain ⟨rfl, -⟩ := ho
        refine ((indices_reads hq (by simp; omega)).bind (S := fun o' o b => ∃ y : Code, y.q = r ∧ y.Valid ∧
          o = o' ++ y.words ∧ b = y.bits) fun o' _ ho => indices_reads hr ?_).congr fun o b => ?_
        · obtain ⟨c, _, hc, rfl, _⟩ := ho
          have := Code.words_length hc
          simp; omega
        · constructor
          · rintro ⟨o', b1, b2, ⟨x, hx, hxv, rfl, rfl⟩, ⟨y, hy, hyv, rfl, rfl⟩, rfl⟩
            exact ⟨x, y, hx, hy, hxv, hyv, rfl, rfl⟩
          · rintro ⟨x, y, hx, hy, hxv, hyv, rfl, rfl⟩
            exact ⟨_, _, _, ⟨x, hx, hxv, rfl, rfl⟩, ⟨y, hy, hyv, rfl, rfl⟩, rfl⟩
      · constructor
        · rintro ⟨o', b1, b2, ⟨rfl, rfl⟩, hs, rfl⟩
          exact hs
        · intro hs
          exact ⟨_, [], b, ⟨rfl, rfl⟩, hs, rfl⟩
    · constructor
      · rintro ⟨o', b1, b2, ⟨rfl, rfl⟩, ⟨x, y, rfl, rfl, hxv, hyv, rfl, rfl⟩, rfl⟩
        exact ⟨x, y, rfl, rfl, hxv, hyv, by simp [vecWords], rfl⟩
      · rintro ⟨x, y, rfl, rfl, hxv, hyv, rfl, rfl⟩
        exact ⟨_, [], _, ⟨rfl, rfl⟩, ⟨x, y, rfl, rfl, hxv, hyv, by simp [vecWords], rfl⟩, rfl⟩
  · constructor
    · rintro ⟨⟨q, r⟩, b1, b2, ⟨hq, hr, rfl⟩, ⟨x, y, rfl, rfl, hxv, hyv, rfl, rfl⟩, rfl⟩
      exact ⟨x, y, hxv, hyv, rfl, by simp⟩
    · rintro ⟨x, y, hxv, hyv, rfl, rfl⟩
      exact ⟨(x.q, y.q), _, _, ⟨hxv.2.1, hyv.2.1, rfl⟩, ⟨x, y, rfl, rfl, hxv, hyv, rfl, rfl⟩, by simp⟩

/-! ## Modes -/

theorem run_bit_nil {β : Type} (f : Nat → Prog β) : run (bits 1 >>= f) [] = .jump := rfl

theorem run_bit_cons {β : Type} (f : Nat → Prog β) (b : Bool) (l : List Bool) : run (bits 1 >>= f) (b :: l) = run (f b.toNat) l := by
  rw [run_bind]
  cases b <;> rfl

/-- The value of `nk_mode` after the mode is read. -/
def newNk (set nk m : Nat) : Nat :=
  match set with
  | 0 | 2 => if m = 1 then 3 else nk
  | 1 => m
  | 3 => if m = 3 then 2 else m
  | _ => nk

theorem mode_reads {set : Nat} (hs : set < 4) (nk : Nat) :
    Reads (mode set nk) (fun p b => p.1 < modeCount set ∧ p.2 = newNk set nk p.1 ∧ b = modeBits set p.1) := by
  intro l p l'
  obtain ⟨m, nk'⟩ := p
  constructor
  · intro h
    interval_cases set
    · simp only [mode] at h
      rcases l with _ | ⟨b, l⟩
      · rw [run_bit_nil] at h; simp at h
      · rw [run_bit_cons] at h
        simp only [run_pure, Res.ok.injEq, Prod.mk.injEq] at h
        obtain ⟨⟨rfl, rfl⟩, rfl⟩ := h
        cases b <;> exact ⟨_, ⟨show _ < 2 by simp, rfl, rfl⟩, rfl⟩
    · simp only [mode] at h
      rcases l with _ | ⟨b, l⟩
      · rw [run_bit_nil] at h; simp at h
      · rw [run_bit_cons] at h
        cases b
        · simp only [Bool.toNat_false, if_true, run_pure, Res.ok.injEq, Prod.mk.injEq] at h
          obtain ⟨⟨rfl, rfl⟩, rfl⟩ := h
          exact ⟨_, ⟨by decide, rfl, rfl⟩, rfl⟩
        · simp only [Bool.toNat_true, one_ne_zero, if_false] at h
          rcases l with _ | ⟨c, l⟩
          · rw [run_bit_nil] at h; simp at h
          · rw [run_bit_cons] at h
            cases c <;> simp at h <;> obtain ⟨⟨rfl, rfl⟩, rfl⟩ := h <;> exact ⟨_, ⟨by decide, rfl, rfl⟩, rfl⟩
    · simp only [mode] at h
      rcases l with _ | ⟨b, l⟩
      · rw [run_bit_nil] at h; simp at h
      · rw [run_bit_cons] at h
        simp only [run_pure, Res.ok.injEq, Prod.mk.injEq] at h
        obtain ⟨⟨rfl, rfl⟩, rfl⟩ := h
        cases b <;> exact ⟨_, ⟨show _ < 2 by simp, rfl, rfl⟩, rfl⟩
    · simp only [mode] at h
      rcases l with _ | ⟨b, l⟩
      · rw [run_bit_nil] at h; simp at h
      · rw [run_bit_cons] at h
        cases b
        · simp only [Bool.toNat_false, if_true, run_pure, Res.ok.injEq, Prod.mk.injEq] at h
          obtain ⟨⟨rfl, rfl⟩, rfl⟩ := h
          exact ⟨_, ⟨by decide, rfl, rfl⟩, rfl⟩
        · simp only [Bool.toNat_true, one_ne_zero, if_false] at h
          rcases l with _ | ⟨c, l⟩
          · rw [run_bit_nil] at h; simp at h
          · rw [run_bit_cons] at h
            cases c
            · simp at h
              obtain ⟨⟨rfl, rfl⟩, rfl⟩ := h
              exact ⟨_, ⟨by decide, rfl, rfl⟩, rfl⟩
            · simp only [Bool.toNat_true, one_ne_zero, if_false] at h
              rcases l with _ | ⟨d, l⟩
              · rw [run_bit_nil] at h; simp at h
              · rw [run_bit_cons] at h
                cases d <;> simp at h <;> obtain ⟨⟨rfl, rfl⟩, rfl⟩ := h <;> exact ⟨_, ⟨by decide, rfl, rfl⟩, rfl⟩
  · rintro ⟨b, ⟨hm, hnk, rfl⟩, rfl⟩
    simp only at hm hnk
    subst hnk
    interval_cases set <;> simp only [modeCount] at hm <;> interval_cases m <;> rfl

/-! ## One filter -/

theorem newNk_le {set nk m : Nat} (hs : set < 4) (hm : m < modeCount set) (hn : nk ≤ 3) : newNk set nk m ≤ 3 := by
  interval_cases set <;> simp only [modeCount] at hm <;> interval_cases m <;> simp [newNk] <;> omega

theorem kind_eq {set nk m : Nat} (full : Bool) (hs : set < 4) (hm : m < modeCount set) (hn : set = 0 ∨ set = 2 → nk = 0 ∨ nk = 3)
    (hv : hasVector set m = true) : kindOf (newNk set nk m) (if set = 1 then full else false) = kind full set m := by
  interval_cases set <;> simp only [modeCount] at hm <;> interval_cases m <;> first
    | (exfalso; revert hv; decide)
    | (cases full <;> rfl)
    | (rcases hn (by decide) with rfl | rfl <;> rfl)

theorem filter_reads {set : Nat} (hs : set < 4) (full : Bool) {nk : Nat} {out : List Int} (hn : nk ≤ 3)
    (h0 : set = 0 ∨ set = 2 → nk = 0 ∨ nk = 3) (h : out.length + 22 ≤ 110) :
    Reads (filter set (if set = 1 then full else false) (nk, out)) (fun s b => ∃ f : Coded, f.Valid set ∧ s = (newNk set nk f.mode,
      out ++ f.words set) ∧ b = f.bits full set) := by
  unfold filter
  refine ((mode_reads hs nk).bind (S := fun p s b => ∃ f : Coded, f.Valid set ∧ f.mode = p.1 ∧
    s = (p.2, out ++ f.words set) ∧ modeBits set p.1 ++ b = f.bits full set) fun p _ hp => ?_).congr fun s b => ?_
  · obtain ⟨m, nk'⟩ := p
    obtain ⟨hm, hk, -⟩ := hp
    simp only at hm hk
    have hk3 : nk' ≤ 3 := by rw [hk]; exact newNk_le hs hm hn
    have hne : set ≠ 4 := by omega
    refine ((put_reads (x := m) (out := out) (by omega)).bind (S := fun o' s b => ∃ f : Coded, f.Valid set ∧ f.mode = m ∧
      s = (nk', o' ++ (if f.mode = 0 then [(f.first : Int)] else []) ++ (if hasVector set f.mode then vecWords f.a f.b else [])) ∧
      modeBits set m ++ b = f.bits full set) fun o' _ ho => ?_).congr fun s b => ?_
    · obtain ⟨rfl, -⟩ := ho
      have hfirst : Reads (if m = 0 then several 1 8 (out ++ [(m : Int)]) else pure (out ++ [(m : Int)]))
          (fun o b => ∃ v : Nat, v < 256 ∧ o = out ++ [(m : Int)] ++ (if m = 0 then [(v : Int)] else []) ∧
            b = if m = 0 then natBits 8 v else []) := by
        by_cases hm0 : m = 0
        · simp only [hm0, if_true]
          refine (several_reads 1 8 _ (by simp; omega)).congr fun o b => ?_
          constructor
          · rintro ⟨vs, hl, hv, rfl, rfl⟩
            obtain ⟨v, rfl⟩ := List.length_eq_one_iff.mp hl
            exact ⟨v, (hv v (by simp)).2, rfl, by simp⟩
          · rintro ⟨v, hv, rfl, rfl⟩
            refine ⟨[v], rfl, ?_, rfl, by simp⟩
            intro u hu
            rw [List.mem_singleton.mp hu]
            exact ⟨by omega, hv⟩
        · simp only [hm0, if_false]
          refine (Reads.pure _).congr fun o b => ?_
          constructor
          · rintro ⟨rfl, rfl⟩
            exact ⟨0, by omega, by simp, rfl⟩
          · rintro ⟨v, _, rfl, rfl⟩
            exact ⟨by simp, rfl⟩
      have hvec : ∀ o : List Int, o.length + 20 ≤ 110 → Reads (if set = 1 ∧ m = 1 then pure o else codes nk' (if set = 1 then full else false) o)
          (fun o' b => ∃ x y : Code, x.Valid ∧ y.Valid ∧ o' = o ++ (if hasVector set m then vecWords x y else []) ∧
            b = if hasVector set m then numberBits (kind full set m) x.q y.q ++ x.bits ++ y.bits else []) := by
        intro o ho
        by_cases hc : set = 1 ∧ m = 1
        · have hh : hasVector set m = false := by simp [hasVector, hc]
          rw [if_pos hc]
          refine (Reads.pure o).congr fun o' b => ?_
          rw [hh]
          constructor
          · rintro ⟨rfl, rfl⟩
            exact ⟨_, _, zeroCode_valid, zeroCode_valid, by simp, rfl⟩
          · rintro ⟨x, y, _, _, rfl, rfl⟩
            exact ⟨by simp, rfl⟩
        · have hh : hasVector set m = true := by
            unfold hasVector
            by_cases h1 : set = 1 <;> by_cases h2 : m = 1 <;> simp_all
          rw [if_neg hc, ← kind_eq full hs hm h0 hh, ← hk, hh]
          simp only [if_true]
          exact codes_reads hk3 _ ho
      refine (hfirst.bind (S := fun o' s b => ∃ x y : Code, x.Valid ∧ y.Valid ∧
        s = (nk', o' ++ (if hasVector set m then vecWords x y else [])) ∧
        b = if hasVector set m then numberBits (kind full set m) x.q y.q ++ x.bits ++ y.bits else []) fun o' _ ho => ?_).congr fun s b => ?_
      · refine ((hvec o' ?_).bind fun o'' _ _ => Reads.pure (nk', o'')).congr fun s b => ?_
        · obtain ⟨v, _, rfl, _⟩ := ho
          split <;> simp <;> omega
        · constructor
          · rintro ⟨o'', b1, b2, ⟨x, y, hx, hy, rfl, rfl⟩, ⟨rfl, rfl⟩, rfl⟩
            exact ⟨x, y, hx, hy, rfl, by simp⟩
          · rintro ⟨x, y, hx, hy, rfl, rfl⟩
            exact ⟨_, _, [], ⟨x, y, hx, hy, rfl, rfl⟩, ⟨rfl, rfl⟩, by simp⟩
      · constructor
        · rintro ⟨o', b1, b2, ⟨v, hv, rfl, rfl⟩, ⟨x, y, hx, hy, rfl, rfl⟩, rfl⟩
          exact ⟨⟨m, v, x, y⟩, ⟨hm, hv, hx, hy⟩, rfl, rfl, by simp [Coded.bits]⟩
        · rintro ⟨⟨m', v, x, y⟩, ⟨_, hv, hx, hy⟩, hfm, rfl, hb⟩
          simp only at hfm
          subst hfm
          refine ⟨_, _, _, ⟨v, hv, rfl, rfl⟩, ⟨x, y, hx, hy, rfl, rfl⟩, ?_⟩
          simp only [Coded.bits, List.append_assoc] at hb
          have := List.append_cancel_left hb
          rw [this]
          simp
    · constructor
      · rintro ⟨o', b1, b2, ⟨rfl, rfl⟩, ⟨f, hf, rfl, rfl, hb⟩, rfl⟩
        exact ⟨f, hf, rfl, by simp [Coded.words, hne], by simpa using hb⟩
      · rintro ⟨f, hf, rfl, rfl, hb⟩
        exact ⟨_, [], b, ⟨rfl, rfl⟩, ⟨f, hf, rfl, by simp [Coded.words, hne], hb⟩, rfl⟩
  · constructor
    · rintro ⟨⟨m, nk'⟩, b1, b2, ⟨_, hk, rfl⟩, ⟨f, hf, hfm, rfl, hb⟩, rfl⟩
      simp only at hfm hk hb
      subst hfm
      exact ⟨f, hf, by simp [hk], hb⟩
    · rintro ⟨f, hf, rfl, rfl⟩
      refine ⟨(f.mode, newNk set nk f.mode), _, (if f.mode = 0 then natBits 8 f.first else []) ++
        (if hasVector set f.mode then numberBits (kind full set f.mode) f.a.q f.b.q ++ f.a.bits ++ f.b.bits else []),
        ⟨hf.mode, rfl, rfl⟩, ⟨f, hf, rfl, rfl, by simp [Coded.bits]⟩, by simp [Coded.bits]⟩

/-! ## All filters -/

/-- The entries stored for filters `is`. -/
def wordsOf (first full : Bool) (mod : Nat → Nat) (fs : Nat → Coded) (is : List Nat) : List Int :=
  is.flatMap fun i => if sent first full mod i then (fs i).words i else []

/-- The bits of filters `is`. -/
def bitsOfSets (first full : Bool) (mod : Nat → Nat) (fs : Nat → Coded) (is : List Nat) : List Bool :=
  is.flatMap fun i => if sent first full mod i then (fs i).bits full i else []

theorem first_reads (full : Bool) :
    Reads (several 1 8 [] >>= codes 0 false) (fun o b => ∃ f : Coded, f.Valid 4 ∧ o = f.words 4 ∧ b = f.bits full 4) := by
  refine ((several_reads 1 8 [] (by simp)).bind (S := fun o' o b => ∃ x y : Code, x.Valid ∧ y.Valid ∧ o = o' ++ vecWords x y ∧
      b = numberBits .fiveFirst x.q y.q ++ x.bits ++ y.bits) fun o' _ ho => codes_reads (by omega) false ?_).congr fun o b => ?_
  · obtain ⟨vs, hl, _, rfl, _⟩ := ho
    simp [hl]
  · constructor
    · rintro ⟨o', b1, b2, ⟨vs, hl, hv, rfl, rfl⟩, ⟨x, y, hx, hy, rfl, rfl⟩, rfl⟩
      obtain ⟨v, rfl⟩ := List.length_eq_one_iff.mp hl
      refine ⟨⟨0, v, x, y⟩, ⟨Nat.one_pos, (hv v (by simp)).2, hx, hy⟩, ?_, ?_⟩
      · simp [Coded.words, hasVector]
      · simp [Coded.bits, modeBits, hasVector, kind]
    · rintro ⟨⟨m, v, x, y⟩, ⟨hm, hv, hx, hy⟩, rfl, rfl⟩
      simp only [modeCount] at hm
      obtain rfl : m = 0 := by simpa using hm
      refine ⟨_, _, _, ⟨[v], rfl, ?_, rfl, rfl⟩, ⟨x, y, hx, hy, rfl, rfl⟩, ?_⟩
      · intro u hu
        rw [List.mem_singleton.mp hu]
        exact ⟨by omega, hv⟩
      · simp [Coded.bits, modeBits, hasVector, kind]

theorem option_reads {set : Nat} (hs : set < 4) (full c : Bool) {nk : Nat} {out : List Int} (hn : nk ≤ 3)
    (h0 : set = 0 ∨ set = 2 → nk = 0 ∨ nk = 3) (h : out.length + 22 ≤ 110) :
    Reads (if c = true then filter set (if set = 1 then full else false) (nk, out) else pure (nk, out)) (fun s b =>
      ∃ f : Coded, (c = true → f.Valid set) ∧ s = (if c = true then newNk set nk f.mode else nk, out ++ if c = true then f.words set else []) ∧
        b = if c = true then f.bits full set else []) := by
  cases c with
  | true =>
    simp only [if_true, forall_const]
    exact filter_reads hs full hn h0 h
  | false =>
    simp only [Bool.false_eq_true, if_false, false_implies, true_and, List.append_nil]
    refine (Reads.pure _).congr fun s b => ?_
    constructor
    · rintro ⟨rfl, rfl⟩
      exact ⟨⟨0, 0, ⟨0, 0, []⟩, ⟨0, 0, []⟩⟩, rfl, rfl⟩
    · rintro ⟨_, h1, h2⟩
      exact ⟨h1, h2⟩

/-- One filter of `filters`. -/
def opt (first full : Bool) (mod : Nat → Nat) (set : Nat) (s : Nat × List Int) : Prog (Nat × List Int) :=
  if sent first full mod set = true then filter set (if set = 1 then full else false) s else pure s

theorem filters_eq (first full : Bool) (mod : Nat → Nat) : filters first full mod = (several 1 8 [] >>= codes 0 false) >>= fun out =>
    opt first full mod 0 (0, out) >>= opt first full mod 2 >>= opt first full mod 1 >>= opt first full mod 3 >>= fun s => pure s.2 := by
  unfold filters opt sent
  simp only [bind_assoc, Bool.and_eq_true, decide_eq_true_eq, OfNat.zero_ne_ofNat, if_false, OfNat.ofNat_ne_one,
    if_true, zero_ne_one]

theorem opt_reads {set : Nat} (hs : set < 4) (first full : Bool) (mod : Nat → Nat) {s : Nat × List Int} (hn : s.1 ≤ 3)
    (h0 : set = 0 ∨ set = 2 → s.1 = 0 ∨ s.1 = 3) (h : s.2.length + 22 ≤ 110) :
    Reads (opt first full mod set s) (fun t b => ∃ f : Coded, (sent first full mod set = true → f.Valid set) ∧
      t = (if sent first full mod set = true then newNk set s.1 f.mode else s.1,
        s.2 ++ if sent first full mod set = true then f.words set else []) ∧
        b = if sent first full mod set = true then f.bits full set else []) :=
  option_reads hs full _ hn h0 h

/-- What is known after a filter. -/
theorem opt_after {set : Nat} (hs : set < 4) {c : Bool} {s t : Nat × List Int} {f : Coded} (hn : s.1 ≤ 3)
    (hf : c = true → f.Valid set)
    (ht : t = (if c = true then newNk set s.1 f.mode else s.1, s.2 ++ if c = true then f.words set else [])) :
    t.1 ≤ 3 ∧ t.2.length ≤ s.2.length + 22 ∧ (set = 0 → s.1 = 0 → t.1 = 0 ∨ t.1 = 3) := by
  subst ht
  cases c with
  | true =>
    have := Coded.words_length (hf rfl)
    refine ⟨newNk_le hs (hf rfl).mode hn, by simp; omega, ?_⟩
    rintro rfl h0
    simp only [if_true, newNk]
    split <;> simp_all
  | false => exact ⟨hn, by simp, fun _ h => Or.inl h⟩

theorem filters_reads (first full : Bool) (mod : Nat → Nat) :
    Reads (filters first full mod) (fun out b => ∃ fs : Nat → Coded, (∀ i, sent first full mod i = true → (fs i).Valid i) ∧
      out = wordsOf first full mod fs [4, 0, 2, 1, 3] ∧ b = filterBits first full mod fs) := by
  intro l o l'
  rw [filters_eq]
  constructor
  · intro h
    rw [run_bind, Res.bind_eq_ok] at h
    obtain ⟨⟨out, l1⟩, h4, h⟩ := h
    simp only [bind_assoc] at h
    obtain ⟨b4, ⟨f4, v4, rfl, rfl⟩, rfl⟩ := (first_reads full _ _ _).mp h4
    have w4 := Coded.words_length v4
    rw [run_bind, Res.bind_eq_ok] at h
    obtain ⟨⟨s0, l2⟩, h0, h⟩ := h
    obtain ⟨b0, ⟨f0, v0, e0, rfl⟩, rfl⟩ := (opt_reads (by omega) first full mod (by simp) (by simp) (by simp only; omega) _ _ _).mp h0
    obtain ⟨n0, w0, k0⟩ := opt_after (by omega) (by simp) v0 e0
    simp only at w0
    rw [run_bind, Res.bind_eq_ok] at h
    obtain ⟨⟨s2, l3⟩, h2, h⟩ := h
    obtain ⟨b2, ⟨f2, v2, e2, rfl⟩, rfl⟩ := (opt_reads (by omega) first full mod n0 (fun _ => k0 rfl rfl) (by omega) _ _ _).mp h2
    obtain ⟨n2, w2, -⟩ := opt_after (by omega) n0 v2 e2
    rw [run_bind, Res.bind_eq_ok] at h
    obtain ⟨⟨s1, l4⟩, h1, h⟩ := h
    obtain ⟨b1, ⟨f1, v1, e1, rfl⟩, rfl⟩ := (opt_reads (by omega) first full mod n2 (by simp) (by omega) _ _ _).mp h1
    obtain ⟨n1, w1, -⟩ := opt_after (by omega) n2 v1 e1
    rw [run_bind, Res.bind_eq_ok] at h
    obtain ⟨⟨s3, l5⟩, h3, h⟩ := h
    obtain ⟨b3, ⟨f3, v3, e3, rfl⟩, rfl⟩ := (opt_reads (by omega) first full mod n1 (by simp) (by omega) _ _ _).mp h3
    simp only [run_pure, Res.ok.injEq, Prod.mk.injEq] at h
    obtain ⟨rfl, rfl⟩ := h
    refine ⟨_, ⟨fun i => match i with
      | 4 => f4
      | 0 => f0
      | 2 => f2
      | 1 => f1
      | _ => f3, ?_, ?_, rfl⟩, ?_⟩
    · intro i hi
      match i with
      | 0 => exact v0 hi
      | 1 => exact v1 hi
      | 2 => exact v2 hi
      | 3 => exact v3 hi
      | 4 => exact v4
      | i + 5 => simp [sent] at hi
    · rw [e3, e1, e2, e0]
      simp [wordsOf, sent]
    · simp [filterBits, sent]
  · rintro ⟨b, ⟨fs, hv, rfl, rfl⟩, rfl⟩
    have hl : filterBits first full mod fs ++ l' = (fs 4).bits full 4 ++ ((if sent first full mod 0 = true then (fs 0).bits full 0 else []) ++
        ((if sent first full mod 2 = true then (fs 2).bits full 2 else []) ++ ((if sent first full mod 1 = true then (fs 1).bits full 1 else []) ++
        ((if sent first full mod 3 = true then (fs 3).bits full 3 else []) ++ l')))) := by
      simp [filterBits, sent]
    have v4 := hv 4 rfl
    have w4 := Coded.words_length v4
    rw [hl, run_bind, (first_reads full).run ⟨_, v4, rfl, rfl⟩]
    simp only [Res.ok_bind, bind_assoc]
    have e0 := (opt_reads (s := (0, (fs 4).words 4)) (set := 0) (by omega) first full mod (by simp) (by simp) (by simp only; omega)).run ⟨fs 0, hv 0, rfl, rfl⟩
    obtain ⟨n0, w0, k0⟩ := opt_after (s := (0, (fs 4).words 4)) (set := 0) (by omega) (by simp) (hv 0) rfl
    have w5 : ((0 : Nat), (fs 4).words 4).2.length ≤ 22 := w4
    rw [run_bind, e0, Res.ok_bind]
    have e2 := (opt_reads (set := 2) (by omega) first full mod n0 (fun _ => k0 rfl rfl) (by omega)).run ⟨fs 2, hv 2, rfl, rfl⟩
    obtain ⟨n2, w2, -⟩ := opt_after (set := 2) (by omega) n0 (hv 2) rfl
    rw [run_bind, e2, Res.ok_bind]
    have e1 := (opt_reads (set := 1) (by omega) first full mod n2 (by simp) (by omega)).run ⟨fs 1, hv 1, rfl, rfl⟩
    obtain ⟨n1, w1, -⟩ := opt_after (set := 1) (by omega) n2 (hv 1) rfl
    rw [run_bind, e1, Res.ok_bind]
    have e3 := (opt_reads (set := 3) (by omega) first full mod n1 (by simp) (by omega)).run ⟨fs 3, hv 3, rfl, rfl⟩
    rw [run_bind, e3, Res.ok_bind]
    simp [wordsOf, sent]

end Verif.Lpd
