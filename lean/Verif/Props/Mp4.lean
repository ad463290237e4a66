import Verif.Model.Mp4
import Verif.Proofs.Fields
import Verif.Proofs.Post

/-! # C309-C314: scene information in boxes of an MP4 file -/

namespace Verif.Mp4

open Prog Asi

/-- Specification: a group in a box. `kind` is the kind of the content, `lang` its language. -/
structure BoxGroup where
  g : GroupDef
  kind : Nat
  lang : Option Nat

def optL (c : Bool) (l : List Bool) : List Bool := if c then l else []

/-- Specification: the bits of a group, with a language of `lw` bits. -/
def BoxGroup.bits (lw : Nat) (b : BoxGroup) : List Bool :=
  natBits 1 0 ++ (natBits 7 b.g.groupId.toNat ++ (natBits 3 0 ++ (natBits 1 b.g.allowOnOff ++ (natBits 1 b.g.defaultOnOff ++ (natBits 1 b.g.allowPos ++
  (natBits 1 b.g.allowGain ++ (natBits 1 (if b.lang.isSome then 1 else 0) ++ (natBits 8 b.kind ++
  (optN (b.g.allowPos != 0) 1 0 ++ (optN (b.g.allowPos != 0) 7 b.g.minAz ++ (optN (b.g.allowPos != 0) 1 0 ++ (optN (b.g.allowPos != 0) 7 b.g.maxAz ++
  (optN (b.g.allowPos != 0) 3 0 ++ (optN (b.g.allowPos != 0) 5 b.g.minEl ++ (optN (b.g.allowPos != 0) 3 0 ++ (optN (b.g.allowPos != 0) 5 b.g.maxEl ++
  (optN (b.g.allowPos != 0) 4 b.g.minDist ++ (optN (b.g.allowPos != 0) 4 b.g.maxDist ++
  (optN (b.g.allowGain != 0) 2 0 ++ (optN (b.g.allowGain != 0) 6 b.g.minGain ++ (optN (b.g.allowGain != 0) 3 0 ++ (optN (b.g.allowGain != 0) 5 b.g.maxGain ++
  optN b.lang.isSome lw (b.lang.getD 0)))))))))))))))))))))))

/-- Specification: the fields fit their bits. -/
structure BoxGroup.Fits (b : BoxGroup) : Prop where
  id : 0 ≤ b.g.groupId ∧ b.g.groupId < 128
  flags : b.g.allowOnOff < 2 ∧ b.g.defaultOnOff < 2 ∧ b.g.allowPos < 2 ∧ b.g.allowGain < 2
  kind : b.kind < 256
  az : b.g.minAz < 128 ∧ b.g.maxAz < 128
  el : b.g.minEl < 32 ∧ b.g.maxEl < 32
  dist : b.g.minDist < 16 ∧ b.g.maxDist < 16
  gain : b.g.minGain < 64 ∧ b.g.maxGain < 32

/-- Specification: what is kept of a group over what was there before. -/
def BoxGroup.over (b : BoxGroup) (old : GroupDef) : GroupDef :=
  { old with
    groupId := b.g.groupId, allowOnOff := b.g.allowOnOff, defaultOnOff := b.g.defaultOnOff, allowPos := b.g.allowPos, allowGain := b.g.allowGain
    minAz := if b.g.allowPos != 0 then b.g.minAz else old.minAz, maxAz := if b.g.allowPos != 0 then b.g.maxAz else old.maxAz
    minEl := if b.g.allowPos != 0 then b.g.minEl else old.minEl, maxEl := if b.g.allowPos != 0 then b.g.maxEl else old.maxEl
    minDist := if b.g.allowPos != 0 then b.g.minDist else old.minDist, maxDist := if b.g.allowPos != 0 then b.g.maxDist else old.maxDist
    minGain := if b.g.allowGain != 0 then b.g.minGain else old.minGain, maxGain := if b.g.allowGain != 0 then b.g.maxGain else old.maxGain
    numMembers := 2, conjunct := 1 }

/-- Specification: a box of groups. -/
def groupBox (lw asiId : Nat) (bs : List BoxGroup) : List Bool :=
  natBits 8 asiId ++ (natBits 1 0 ++ (natBits 7 bs.length ++ bs.flatMap (BoxGroup.bits lw)))

theorem group_run (b : BoxGroup) (hb : b.Fits) (lw : Nat) (hl : ∀ v, b.lang = some v → lw = 8 ∧ v < 256) (grp : Nat) (tbl : List GroupDef) (hg : grp < tbl.length) (l : List Bool) :
    run (group grp tbl) (b.bits lw ++ l) = .ok (tbl.set grp (b.over tbl[grp]), l) := by
  obtain ⟨⟨i1, i2⟩, ⟨f1, f2, f3, f4⟩, hk, ⟨a1, a2⟩, ⟨e1, e2⟩, ⟨d1, d2⟩, g1, g2⟩ := hb
  have eid : toI8 ((b.g.groupId.toNat : Nat) : Int) = b.g.groupId := by unfold toI8; omega
  have elang : ((if b.lang.isSome then 1 else 0) != 0) = b.lang.isSome := by cases b.lang <;> rfl
  have hlang : optN b.lang.isSome lw (b.lang.getD 0) = optN b.lang.isSome 8 (b.lang.getD 0) := by
    cases h : b.lang with
    | none => rfl
    | some v => rw [(hl v h).1]
  have hlv : b.lang.getD 0 < 2 ^ 8 := by
    cases h : b.lang with
    | none => simp
    | some v => exact (hl v h).2
  unfold group BoxGroup.bits
  rw [hlang]
  simp only [List.append_assoc]
  rw [run_bits_bind _ _ _ _ (by decide) (by decide), run_bits_bind _ _ _ _ (by decide) (by omega), run_getAt_bind _ _ _ _ _ (List.getElem?_eq_getElem hg)]
  rw [run_bits_bind _ _ _ _ (by decide) (by decide), run_bits_bind _ _ _ _ (by decide) (by omega), run_bits_bind _ _ _ _ (by decide) (by omega),
    run_bits_bind _ _ _ _ (by decide) (by omega), run_bits_bind _ _ _ _ (by decide) (by omega), run_bits_bind _ _ _ _ (by decide) (by split <;> omega),
    run_bits_bind _ _ _ _ (by decide) (by omega)]
  simp only [elang]
  rw [run_optBits_bind _ _ _ _ _ (by decide) (by decide), run_bitsOr_bind _ _ _ _ _ _ (by decide) (by omega),
    run_optBits_bind _ _ _ _ _ (by decide) (by decide), run_bitsOr_bind _ _ _ _ _ _ (by decide) (by omega),
    run_optBits_bind _ _ _ _ _ (by decide) (by decide), run_bitsOr_bind _ _ _ _ _ _ (by decide) (by omega),
    run_optBits_bind _ _ _ _ _ (by decide) (by decide), run_bitsOr_bind _ _ _ _ _ _ (by decide) (by omega),
    run_bitsOr_bind _ _ _ _ _ _ (by decide) (by omega), run_bitsOr_bind _ _ _ _ _ _ (by decide) (by omega)]
  rw [run_optBits_bind _ _ _ _ _ (by decide) (by decide), run_bitsOr_bind _ _ _ _ _ _ (by decide) (by omega),
    run_optBits_bind _ _ _ _ _ (by decide) (by decide), run_bitsOr_bind _ _ _ _ _ _ (by decide) (by omega),
    run_optBits_bind _ _ _ _ _ (by decide) hlv, run_setAt _ _ _ _ hg, eid]
  rfl

/-- A group beyond the table. -/
theorem group_ub (b : BoxGroup) (hb : b.Fits) (lw : Nat) (grp : Nat) (tbl : List GroupDef) (hg : tbl.length ≤ grp) (l : List Bool) :
    run (group grp tbl) (b.bits lw ++ l) = .ub := by
  obtain ⟨⟨i1, i2⟩, -⟩ := hb
  unfold group BoxGroup.bits
  simp only [List.append_assoc]
  rw [run_bits_bind _ _ _ _ (by decide) (by decide), run_bits_bind _ _ _ _ (by decide) (by omega)]
  unfold getAt
  rw [List.getElem?_eq_none hg]
  rfl

/-- Items read one after the other into a table, item `i` over entry `i`. -/
theorem run_foldN_items {α σ : Type} (f : Nat → List σ → Prog (List σ)) (enc : α → List Bool) (upd : α → σ → σ) (P : α → Prop)
    (h : ∀ a, P a → ∀ i t (hi : i < t.length) l, run (f i t) (enc a ++ l) = .ok (t.set i (upd a t[i]), l)) (items : List α) (hP : ∀ a ∈ items, P a) (i : Nat) (t : List σ)
    (hi : i + items.length ≤ t.length) (l : List Bool) :
    ∃ t', run (foldN f items.length i t) (items.flatMap enc ++ l) = .ok (t', l) ∧ t'.length = t.length ∧
      ∀ j (hj : j < t.length) (hj' : j < t'.length), t'[j] = if h : i ≤ j ∧ j - i < items.length then upd items[j - i] t[j] else t[j] := by
  induction items generalizing i t with
  | nil => exact ⟨t, rfl, rfl, fun j hj hj' => by simp⟩
  | cons a as ih =>
    simp only [List.length_cons] at hi
    obtain ⟨t', e1, e2, e3⟩ := ih (fun b hb => hP b (by simp [hb])) (i + 1) (t.set i (upd a t[i])) (by simp; omega)
    refine ⟨t', ?_, by simpa using e2, fun j hj hj' => ?_⟩
    · simp only [List.length_cons, foldN, List.flatMap_cons, List.append_assoc]
      rw [run_bind, h a (hP a (by simp)) i t (by omega)]
      exact e1
    · rw [e3 j (by simpa using hj) hj', List.getElem_set]
      by_cases hij : i = j
      · subst hij
        rw [dif_neg (by omega), if_pos rfl, dif_pos (by simp)]
        simp
      · rw [if_neg hij]
        by_cases hc : i + 1 ≤ j ∧ j - (i + 1) < as.length
        · rw [dif_pos hc, dif_pos (by simp only [List.length_cons]; omega)]
          congr 1
          have : j - i = j - (i + 1) + 1 := by omega
          simp only [this, List.getElem_cons_succ]
        · rw [dif_neg hc, dif_neg (by simp only [List.length_cons]; omega)]

/-- Items beyond the end of a table. -/
theorem run_foldN_over {α σ : Type} (f : Nat → List σ → Prog (List σ)) (enc : α → List Bool) (upd : α → σ → σ) (P : α → Prop)
    (h : ∀ a, P a → ∀ i t (hi : i < t.length) l, run (f i t) (enc a ++ l) = .ok (t.set i (upd a t[i]), l))
    (hub : ∀ a, P a → ∀ i t, t.length ≤ i → ∀ l, run (f i t) (enc a ++ l) = .ub) (items : List α) (hP : ∀ a ∈ items, P a) (i : Nat) (t : List σ)
    (hi : t.length < i + items.length) (h0 : i ≤ t.length) (l : List Bool) : run (foldN f items.length i t) (items.flatMap enc ++ l) = .ub := by
  induction items generalizing i t with
  | nil => simp at hi; omega
  | cons a as ih =>
    simp only [List.length_cons] at hi
    simp only [List.length_cons, foldN, List.flatMap_cons, List.append_assoc]
    rw [run_bind]
    by_cases hlt : i < t.length
    · rw [h a (hP a (by simp)) i t hlt]
      exact ih (fun b hb => hP b (by simp [hb])) (i + 1) _ (by simp; omega) (by simp; omega)
    · rw [hub a (hP a (by simp)) i t (by omega)]; rfl

/-- C309, refuted: a box of 17 to 127 groups is written beyond the table of 16. -/
theorem C309_refuted (lw : Nat) (hlw : lw = 8) (asiId : Nat) (ha : asiId < 256) (bs : List BoxGroup) (hb : ∀ b ∈ bs, b.Fits ∧ ∀ v, b.lang = some v → v < 256) (h1 : 16 < bs.length) (h2 : bs.length < 128)
    (tbl : List GroupDef) (ht : tbl.length = 16) (l : List Bool) : run (maeg tbl) (groupBox lw asiId bs ++ l) = .ub := by
  unfold maeg groupBox
  simp only [List.append_assoc]
  rw [run_bits_bind _ _ _ _ (by decide) (by omega), run_bits_bind _ _ _ _ (by decide) (by decide), run_bits_bind _ _ _ _ (by decide) (by omega), run_bind]
  rw [run_foldN_over group (BoxGroup.bits lw) BoxGroup.over (fun b => b.Fits ∧ ∀ v, b.lang = some v → v < 256)
    (fun a ha i t hi l => group_run a ha.1 lw (fun v hv => ⟨hlw, ha.2 v hv⟩) i t hi l) (fun a ha i t hi l => group_ub a ha.1 lw i t hi l) bs hb 0 tbl (by omega) (by omega) l]
  rfl

/-- The plain group, for examples. -/
def plain (id : Nat) : BoxGroup := { g := { groupId := id }, kind := 0, lang := none }

theorem plain_fits (id : Nat) (h : id < 128) : (plain id).Fits :=
  ⟨⟨by show (0 : Int) ≤ (id : Int); omega, by show (id : Int) < 128; omega⟩, ⟨Nat.zero_lt_succ _, Nat.zero_lt_succ _, Nat.zero_lt_succ _, Nat.zero_lt_succ _⟩, Nat.zero_lt_succ _, ⟨Nat.zero_lt_succ _, Nat.zero_lt_succ _⟩,
    ⟨Nat.zero_lt_succ _, Nat.zero_lt_succ _⟩, ⟨Nat.zero_lt_succ _, Nat.zero_lt_succ _⟩, Nat.zero_lt_succ _, Nat.zero_lt_succ _⟩

example : run (maeg (List.replicate 16 {})) (groupBox 8 0 ((List.range 17).map plain) ++ []) = .ub :=
  C309_refuted 8 rfl 0 (by decide) _ (fun b hb => by
    obtain ⟨i, hi, rfl⟩ := List.mem_map.1 hb
    exact ⟨plain_fits i (by have := List.mem_range.1 hi; omega), fun v hv => by cases hv⟩) (by decide) (by decide) _ (by decide) []

/-- C309 and C310, what holds: the groups of a box with at most 16 groups and without languages are read back. -/
theorem C309_groups_partial (lw asiId : Nat) (ha : asiId < 256) (bs : List BoxGroup) (hb : ∀ b ∈ bs, b.Fits ∧ b.lang = none) (h1 : bs.length ≤ 16)
    (tbl : List GroupDef) (ht : tbl.length = 16) (l : List Bool) :
    ∃ t, run (maeg tbl) (groupBox lw asiId bs ++ l) = .ok ((asiId, bs.length, t), l) ∧ t.length = 16 ∧
      ∀ j (hj : j < 16) (hj' : j < t.length), t[j] =
        { (if h : j < bs.length then bs[j].over tbl[j] else tbl[j]) with startId := if j = 0 then 0 else if j = 1 then 2 else tbl[j].startId } := by
  unfold maeg groupBox
  simp only [List.append_assoc]
  rw [run_bits_bind _ _ _ _ (by decide) (by omega), run_bits_bind _ _ _ _ (by decide) (by decide), run_bits_bind _ _ _ _ (by decide) (by omega), run_bind]
  obtain ⟨t, e1, e2, e3⟩ := run_foldN_items group (BoxGroup.bits lw) BoxGroup.over (fun b => b.Fits ∧ b.lang = none)
    (fun a ha i t hi l => group_run a ha.1 lw (fun v hv => by rw [ha.2] at hv; cases hv) i t hi l) bs hb 0 tbl (by omega) l
  rw [e1]
  simp only [Res.ok_bind]
  have h0 : 0 < t.length := by omega
  rw [run_getAt_bind _ _ _ _ _ (List.getElem?_eq_getElem h0), run_bind, run_setAt _ _ _ _ h0]
  simp only [Res.ok_bind]
  have h1' : 1 < (t.set 0 { t[0] with startId := 0 }).length := by simp; omega
  rw [run_getAt_bind _ _ _ _ _ (List.getElem?_eq_getElem h1'), run_bind, run_setAt _ _ _ _ h1']
  simp only [Res.ok_bind]
  refine ⟨_, rfl, by simp; omega, fun j hj hj' => ?_⟩
  have ej := e3 j (by omega) (by omega)
  simp only [Nat.zero_le, true_and, Nat.sub_zero] at ej
  simp only [List.getElem_set]
  by_cases j1 : j = 1
  · subst j1
    simp only [if_true, if_neg (show ¬(0 : Nat) = 1 by decide), if_neg (show ¬(1 : Nat) = 0 by decide)]
    rw [← ej]
  · by_cases j0 : j = 0
    · subst j0
      simp only [if_true, if_neg (show ¬(1 : Nat) = 0 by decide)]
      rw [← ej]
    · simp only [if_neg (show ¬1 = j from fun h => j1 h.symm), if_neg (show ¬0 = j from fun h => j0 h.symm), if_neg j0, if_neg j1]
      rw [ej]
      by_cases hc : j < bs.length
      · rw [dif_pos hc]; rfl
      · rw [dif_neg hc]

/-- C309: no box makes reading undefined that has at most 16 groups, however it ends. -/
theorem C309_safe_partial (tbl : List GroupDef) (ht : tbl.length = 16) (l : List Bool) (hn : bitsVal ((l.drop 9).take 7) ≤ 16) : run (maeg tbl) l ≠ .ub := by
  have hbits : ∀ (n : Nat) (f : Nat → Prog (Nat × Nat × List GroupDef)) (l : List Bool), n ≤ 24 → run (bits n >>= f) l = if l.length < n then .jump else run (f (bitsVal (l.take n))) (l.drop n) := by
    intro n f l hn
    rw [run_bind]
    unfold bits
    simp only [run, if_neg (show ¬24 < n by omega)]
    split <;> rfl
  have hgroup : ∀ i (t : List GroupDef), i < t.length → Safe (group i t) fun t' => t'.length = t.length := by
    intro i t hi
    unfold group
    refine Safe.bits_bind (by decide) fun _ _ => Safe.bits_bind (by decide) fun _ _ => (Safe.getAt hi).bind fun _ _ => ?_
    refine Safe.bits_bind (by decide) fun _ _ => Safe.bits_bind (by decide) fun _ _ => Safe.bits_bind (by decide) fun _ _ => Safe.bits_bind (by decide) fun _ _ =>
      Safe.bits_bind (by decide) fun _ _ => Safe.bits_bind (by decide) fun _ _ => Safe.bits_bind (by decide) fun _ _ => ?_
    refine (Safe.optBits (by decide)).bind fun _ _ => (Safe.bitsOr (by decide)).bind fun _ _ => (Safe.optBits (by decide)).bind fun _ _ => (Safe.bitsOr (by decide)).bind fun _ _ =>
      (Safe.optBits (by decide)).bind fun _ _ => (Safe.bitsOr (by decide)).bind fun _ _ => (Safe.optBits (by decide)).bind fun _ _ => (Safe.bitsOr (by decide)).bind fun _ _ =>
      (Safe.bitsOr (by decide)).bind fun _ _ => (Safe.bitsOr (by decide)).bind fun _ _ => ?_
    refine (Safe.optBits (by decide)).bind fun _ _ => (Safe.bitsOr (by decide)).bind fun _ _ => (Safe.optBits (by decide)).bind fun _ _ => (Safe.bitsOr (by decide)).bind fun _ _ =>
      (Safe.optBits (by decide)).bind fun _ _ => ?_
    exact (Safe.setAt hi).mono fun a ha => by rw [ha]; simp
  unfold maeg
  rw [hbits _ _ _ (by decide)]
  split
  · exact fun h => by cases h
  rw [hbits _ _ _ (by decide)]
  split
  · exact fun h => by cases h
  rw [hbits _ _ _ (by decide)]
  split
  · exact fun h => by cases h
  rw [List.drop_drop]
  generalize bitsVal (List.take 7 (List.drop (8 + 1) l)) = num at hn ⊢
  have : Safe (do
      let t ← foldN group num 0 tbl
      let g0 ← getAt t 0
      let t ← setAt t 0 { g0 with startId := 0 }
      let g1 ← getAt t 1
      let t ← setAt t 1 { g1 with startId := 2 }
      pure (bitsVal (List.take 8 l), num, t) : Prog (Nat × Nat × List GroupDef)) (fun _ => True) := by
    refine (Safe.foldN (fun _ t => t.length = 16) num 0 tbl ht (fun i t _ hi ht => (hgroup i t (by omega)).mono fun t' h => by omega)).bind fun t ht => ?_
    refine (Safe.getAt (by omega)).bind fun g0 _ => (Safe.setAt (by omega)).bind fun t2 h2 => ?_
    have : t2.length = 16 := by rw [h2]; simpa using ht
    exact (Safe.getAt (by omega)).bind fun g1 _ => (Safe.setAt (by omega)).bind fun t3 h3 => Safe.pure trivial
  exact (this _).1

example : ∃ t, run (maeg (List.replicate 16 {})) (groupBox 24 7 [plain 3, plain 9] ++ []) = .ok ((7, 2, t), []) :=
  (C309_groups_partial 24 7 (by decide) _ (fun b hb => by
    simp only [List.mem_cons, List.not_mem_nil, or_false] at hb
    rcases hb with rfl | rfl
    · exact ⟨plain_fits 3 (by decide), rfl⟩
    · exact ⟨plain_fits 9 (by decide), rfl⟩) (by decide) _ (by decide) []).imp fun _ h => h.1

/-! ## C310: the language of the content -/

/-- C310, refuted: the language has 24 bits (as in the scene information of a stream) and 8 are read, so that a box with
a group of a language is not read back: the box of an English group and another one is taken for too short, and with more bytes behind it the second group gets another id. -/
theorem C310_refuted : run (maeg (List.replicate 16 {})) (groupBox 24 7 [{ plain 3 with lang := some 0x656E67 }, plain 9]) = .jump ∧
    (run (maeg (List.replicate 16 {})) (groupBox 24 7 [{ plain 3 with lang := some 0x656E67 }, plain 9] ++ List.replicate 80 false)).map
      (fun x => (x.1.2.1, (x.1.2.2.map GroupDef.groupId).take 2)) = .ok (2, [3, 110]) := by
  constructor <;> decide +kernel

/-! ## C311: the members of the groups -/

/-- Specification: the elements of a group with conjunct members. -/
def elements (g : GroupDef) : List Nat := (List.range g.numMembers.toNat).map fun k => g.startId + k

/-- C311, refuted: in an empty table every group from the third on has the elements of the first group. -/
theorem C311_refuted (asiId : Nat) (ha : asiId < 256) (bs : List BoxGroup) (hb : ∀ b ∈ bs, b.Fits ∧ b.lang = none) (h1 : bs.length ≤ 16) (l : List Bool) :
    ∃ t, run (maeg (List.replicate 16 {})) (groupBox 24 asiId bs ++ l) = .ok ((asiId, bs.length, t), l) ∧
      ∀ j (_ : 2 ≤ j) (_ : j < bs.length) (h0 : 0 < t.length) (hj : j < t.length), elements t[j] = [0, 1] ∧ elements t[0] = [0, 1] := by
  obtain ⟨t, e1, e2, e3⟩ := C309_groups_partial 24 asiId ha bs hb h1 (List.replicate 16 {}) (by simp) l
  refine ⟨t, e1, fun j hj2 hjb h0 hjt => ?_⟩
  have ej := e3 j (by omega) hjt
  have e0 := e3 0 (by omega) h0
  rw [dif_pos hjb] at ej
  rw [dif_pos (by omega)] at e0
  rw [ej, e0, if_neg (by omega), if_neg (by omega), if_pos rfl]
  simp only [List.getElem_replicate, elements, BoxGroup.over]
  decide

/-- C311, what holds: two groups have different elements. -/
theorem C311_two_partial (asiId : Nat) (ha : asiId < 256) (b c : BoxGroup) (hb : b.Fits ∧ b.lang = none) (hc : c.Fits ∧ c.lang = none) (tbl : List GroupDef) (ht : tbl.length = 16) (l : List Bool) :
    ∃ t, run (maeg tbl) (groupBox 24 asiId [b, c] ++ l) = .ok ((asiId, 2, t), l) ∧
      ∀ (h0 : 0 < t.length) (h1 : 1 < t.length), elements t[0] = [0, 1] ∧ elements t[1] = [2, 3] := by
  obtain ⟨t, e1, e2, e3⟩ := C309_groups_partial 24 asiId ha [b, c] (fun x hx => by
    simp only [List.mem_cons, List.not_mem_nil, or_false] at hx
    rcases hx with rfl | rfl
    · exact hb
    · exact hc) (by simp) tbl ht l
  refine ⟨t, e1, fun h0 h1 => ?_⟩
  have e0 := e3 0 (by omega) h0
  have e1 := e3 1 (by omega) h1
  rw [dif_pos (by simp)] at e0 e1
  rw [e0, e1]
  exact ⟨rfl, rfl⟩

/-! ## C312: switch groups -/

/-- Specification: the bits of a switch group in a box. -/
def switchBits (s : SwitchDef) : List Bool :=
  natBits 3 0 ++ (natBits 5 s.groupId.toNat ++ (natBits 3 0 ++ (natBits 5 s.members.length ++ (s.members.flatMap (fun m => natBits 1 0 ++ natBits 7 m) ++ (natBits 1 0 ++ natBits 7 s.defaultGroup)))))

structure SwitchFits (s : SwitchDef) : Prop where
  id : 0 ≤ s.groupId ∧ s.groupId < 32
  num : s.members.length < 32
  members : ∀ m ∈ s.members, m < 128
  default : s.defaultGroup < 128

/-- Specification: a box of switch groups. -/
def switchBox (ss : List SwitchDef) : List Bool := natBits 1 0 ++ (natBits 7 ss.length ++ ss.flatMap switchBits)

/-- Specification: what is kept of a switch group. -/
def switchOver (s old : SwitchDef) : SwitchDef :=
  { groupId := s.groupId, allowOnOff := 0, defaultOnOff := old.defaultOnOff, numMembers := s.members.length, members := s.members, defaultGroup := s.defaultGroup }

theorem switch_run (s : SwitchDef) (hs : SwitchFits s) (i : Nat) (t : List SwitchDef) (hi : i < t.length) (l : List Bool) :
    run (switch i t) (switchBits s ++ l) = .ok (t.set i (switchOver s t[i]), l) := by
  obtain ⟨⟨i1, i2⟩, hn, hm, hd⟩ := hs
  unfold switch switchBits
  simp only [List.append_assoc]
  rw [run_getAt_bind _ _ _ _ _ (List.getElem?_eq_getElem hi)]
  rw [run_bits_bind _ _ _ _ (by decide) (by decide), run_bits_bind _ _ _ _ (by decide) (by omega), run_bits_bind _ _ _ _ (by decide) (by decide), run_bits_bind _ _ _ _ (by decide) (by omega)]
  rw [run_forN_bind _ (fun m => natBits 1 0 ++ natBits 7 m) s.members 0 _ _ rfl (by
    intro j a ha l
    have hj : j < s.members.length := by
      rcases Nat.lt_or_ge j s.members.length with h | h
      · exact h
      · rw [List.getElem?_eq_none h] at ha; cases ha
    have hma := hm a (List.mem_of_getElem? ha)
    rw [List.append_assoc, run_bits_bind _ _ _ _ (by decide) (by decide), run_bits_bind _ _ _ _ (by decide) (by omega), run_inTable_bind _ _ _ _ (by omega)]
    rfl)]
  rw [run_bits_bind _ _ _ _ (by decide) (by decide), run_bits_bind _ _ _ _ (by decide) (by omega), run_setAt _ _ _ _ hi]
  have : ((s.groupId.toNat : Nat) : Int) = s.groupId := by omega
  rw [this]
  rfl

theorem switch_ub (s : SwitchDef) (i : Nat) (t : List SwitchDef) (hi : t.length ≤ i) (l : List Bool) : run (switch i t) (switchBits s ++ l) = .ub := by
  unfold switch getAt
  rw [List.getElem?_eq_none hi]
  rfl

/-- C312, refuted: a box of 9 to 127 switch groups is written beyond the table of 8. -/
theorem C312_refuted (ss : List SwitchDef) (hs : ∀ s ∈ ss, SwitchFits s) (h1 : 8 < ss.length) (h2 : ss.length < 128) (t : List SwitchDef) (ht : t.length = 8) (l : List Bool) :
    run (maes t) (switchBox ss ++ l) = .ub := by
  unfold maes switchBox
  simp only [List.append_assoc]
  rw [run_bits_bind _ _ _ _ (by decide) (by decide), run_bits_bind _ _ _ _ (by decide) (by omega), run_bind,
    run_foldN_over switch switchBits switchOver SwitchFits switch_run (fun a _ i t hi l => switch_ub a i t hi l) ss hs 0 t (by omega) (by omega) l]
  rfl

example : run (maes (List.replicate 8 {})) (switchBox (List.replicate 9 {}) ++ []) = .ub :=
  C312_refuted _ (fun s hs => by
    obtain rfl := List.eq_of_mem_replicate hs
    exact ⟨by decide, by decide, by decide, by decide⟩) (by decide) (by decide) _ (by decide) []

/-- C312, what holds: a box of at most 8 switch groups is read back. -/
theorem C312_switches_partial (ss : List SwitchDef) (hs : ∀ s ∈ ss, SwitchFits s) (h1 : ss.length ≤ 8) (t : List SwitchDef) (ht : t.length = 8) (l : List Bool) :
    ∃ t', run (maes t) (switchBox ss ++ l) = .ok ((ss.length, t'), l) ∧ t'.length = 8 ∧
      ∀ j (hj : j < t.length) (hj' : j < t'.length), t'[j] = if h : j < ss.length then switchOver ss[j] t[j] else t[j] := by
  obtain ⟨t', e1, e2, e3⟩ := run_foldN_items switch switchBits switchOver SwitchFits switch_run ss hs 0 t (by omega) l
  refine ⟨t', ?_, by omega, fun j hj hj' => by have := e3 j hj hj'; simpa using this⟩
  unfold maes switchBox
  simp only [List.append_assoc]
  rw [run_bits_bind _ _ _ _ (by decide) (by decide), run_bits_bind _ _ _ _ (by decide) (by omega), run_bind, e1]
  rfl

example : SwitchFits { groupId := 3, members := [4, 5], defaultGroup := 5 } := ⟨by decide, by decide, by decide, by decide⟩

/-! ## C313: presets -/

/-- Specification: the bits of a condition in a box. -/
def condBits (c : Cond) : List Bool :=
  natBits 7 c.refId ++ (natBits 1 c.onOff ++ (if c.onOff != 0 then
    natBits 4 0 ++ (natBits 1 c.disableGain ++ (natBits 1 c.gainFlag ++ (natBits 1 c.disablePos ++ (natBits 1 c.posFlag ++
    (optN (c.gainFlag != 0) 8 c.gain ++ (optN (c.posFlag != 0) 8 c.az ++ (optN (c.posFlag != 0) 8 c.el ++ optN (c.posFlag != 0) 8 c.dist))))))) else []))

structure CondFits (c : Cond) : Prop where
  ref : c.refId < 128
  on : c.onOff < 2
  flags : c.disableGain < 2 ∧ c.gainFlag < 2 ∧ c.disablePos < 2 ∧ c.posFlag < 2
  off : c.onOff = 0 → c.disableGain = 0 ∧ c.gainFlag = 0 ∧ c.disablePos = 0 ∧ c.posFlag = 0
  gain : c.gain < 256 ∧ (c.gainFlag = 0 → c.gain = 0)
  pos : c.az < 256 ∧ c.el < 256 ∧ c.dist < 256 ∧ (c.posFlag = 0 → c.az = 0 ∧ c.el = 0 ∧ c.dist = 0)

theorem cond_run (c : Cond) (hc : CondFits c) (j : Nat) (hj : j < 16) (l : List Bool) : run (cond j) (condBits c ++ l) = .ok (c, l) := by
  obtain ⟨h1, h2, ⟨f1, f2, f3, f4⟩, hoff, ⟨g1, g2⟩, p1, p2, p3, p4⟩ := hc
  unfold cond condBits
  simp only [List.append_assoc]
  rw [run_bits_bind _ _ _ _ (by decide) (by omega), run_inTable_bind _ _ _ _ (by omega), run_bits_bind _ _ _ _ (by decide) (by omega)]
  by_cases ho : c.onOff = 0
  · obtain ⟨o1, o2, o3, o4⟩ := hoff ho
    obtain ⟨q1, q2, q3⟩ := p4 o4
    have q4 := g2 o2
    have : (c.onOff != 0) = false := by simp [ho]
    simp only [this, Bool.false_eq_true, if_false, List.nil_append]
    cases c
    simp_all
  · have : (c.onOff != 0) = true := by simp [ho]
    simp only [this, if_true, List.append_assoc]
    rw [run_bits_bind _ _ _ _ (by decide) (by decide), run_bits_bind _ _ _ _ (by decide) (by omega), run_bits_bind _ _ _ _ (by decide) (by omega),
      run_bits_bind _ _ _ _ (by decide) (by omega), run_bits_bind _ _ _ _ (by decide) (by omega)]
    rw [run_optBits_bind _ _ _ _ _ (by decide) (by omega), run_optBits_bind _ _ _ _ _ (by decide) (by omega), run_optBits_bind _ _ _ _ _ (by decide) (by omega),
      run_optBits_bind _ _ _ _ _ (by decide) (by omega)]
    have e1 : (if (c.gainFlag != 0) = true then c.gain else 0) = c.gain := by
      by_cases h : c.gainFlag = 0
      · simp [h, g2 h]
      · simp [h]
    have e2 : (if (c.posFlag != 0) = true then c.az else 0) = c.az ∧ (if (c.posFlag != 0) = true then c.el else 0) = c.el ∧ (if (c.posFlag != 0) = true then c.dist else 0) = c.dist := by
      by_cases h : c.posFlag = 0
      · obtain ⟨a, b, d⟩ := p4 h
        simp [h, a, b, d]
      · simp [h]
    rw [e1, e2.1, e2.2.1, e2.2.2]
    rfl

/-- Specification: the bits of a preset in a box. -/
def presetBits (p : PresetDef) : List Bool :=
  natBits 3 0 ++ (natBits 5 p.groupId.toNat ++ (natBits 3 0 ++ (natBits 5 p.kind ++ (natBits 8 p.conds.length ++ p.conds.flatMap condBits))))

structure PresetFits (p : PresetDef) : Prop where
  id : 0 ≤ p.groupId ∧ p.groupId < 32
  kind : p.kind < 32
  conds : ∀ c ∈ p.conds, CondFits c

/-- Specification: a box of presets. -/
def presetBox (ps : List PresetDef) : List Bool := natBits 1 0 ++ (natBits 7 ps.length ++ ps.flatMap presetBits)

/-- Specification: what is kept of a preset. -/
def presetOver (p : PresetDef) : PresetDef := { p with numConditions := p.conds.length }

theorem preset_head (p : PresetDef) (hp : PresetFits p) (hl : p.conds.length < 256) (i : Nat) (t : List PresetDef) (hi : i < t.length) (l : List Bool) :
    run (preset i t) (presetBits p ++ l) = run (do
      let conds ← forN cond (toI8 p.conds.length).toNat 0
      setAt t i { p with numConditions := toI8 p.conds.length, conds }) (p.conds.flatMap condBits ++ l) := by
  obtain ⟨⟨i1, i2⟩, hk, hc⟩ := hp
  unfold preset presetBits
  simp only [List.append_assoc]
  rw [run_bits_bind _ _ _ _ (by decide) (by decide), run_bits_bind _ _ _ _ (by decide) (by omega), run_getAt_bind _ _ _ _ _ (List.getElem?_eq_getElem hi),
    run_bits_bind _ _ _ _ (by decide) (by decide), run_bits_bind _ _ _ _ (by decide) (by omega), run_bits_bind _ _ _ _ (by decide) (by omega)]
  have : ((p.groupId.toNat : Nat) : Int) = p.groupId := by omega
  rw [this]

theorem preset_run (p : PresetDef) (hp : PresetFits p ∧ p.conds.length ≤ 16) (i : Nat) (t : List PresetDef) (hi : i < t.length) (l : List Bool) :
    run (preset i t) (presetBits p ++ l) = .ok (t.set i (presetOver p), l) := by
  obtain ⟨hp, hn⟩ := hp
  rw [preset_head p hp (by omega) i t hi]
  have e : toI8 (p.conds.length : Int) = p.conds.length := by unfold toI8; omega
  rw [e, run_forN_bind cond condBits p.conds 0 _ _ (by simp) (by
    intro j a ha l
    have hj : j < p.conds.length := by
      rcases Nat.lt_or_ge j p.conds.length with h | h
      · exact h
      · rw [List.getElem?_eq_none h] at ha; cases ha
    exact cond_run a (hp.conds a (List.mem_of_getElem? ha)) (0 + j) (by omega) l), run_setAt _ _ _ _ hi]
  rfl

theorem preset_ub (p : PresetDef) (hp : PresetFits p) (i : Nat) (t : List PresetDef) (hi : t.length ≤ i) (l : List Bool) : run (preset i t) (presetBits p ++ l) = .ub := by
  obtain ⟨⟨i1, i2⟩, -⟩ := hp
  unfold preset presetBits
  simp only [List.append_assoc]
  rw [run_bits_bind _ _ _ _ (by decide) (by decide), run_bits_bind _ _ _ _ (by decide) (by omega)]
  unfold getAt
  rw [List.getElem?_eq_none hi]
  rfl

theorem conds_ub (k : Nat) (cs : List Cond) (hc : ∀ c ∈ cs, CondFits c) (i : Nat) (hi : i ≤ 16) (hk : 16 < i + cs.length) (he : k = cs.length) (l : List Bool) :
    run (forN cond k i) (cs.flatMap condBits ++ l) = .ub := by
  induction cs generalizing i k with
  | nil => simp at hk; omega
  | cons c cs ih =>
    subst he
    simp only [List.length_cons] at hk
    simp only [List.length_cons, forN, List.flatMap_cons, List.append_assoc]
    rw [run_bind]
    by_cases h : i < 16
    · rw [cond_run c (hc c (by simp)) i h]
      simp only [Res.ok_bind]
      rw [run_bind, ih cs.length (fun c h => hc c (by simp [h])) (i + 1) (by omega) (by omega) rfl]
      rfl
    · have h1 := (hc c (by simp)).ref
      have : run (cond i) (condBits c ++ (cs.flatMap condBits ++ l)) = .ub := by
        unfold cond condBits
        simp only [List.append_assoc]
        rw [run_bits_bind _ _ _ _ (by decide) (by omega)]
        unfold inTable
        rw [if_neg (by omega)]
        rfl
      rw [this]; rfl

/-- C313, refuted: a box of 9 to 127 presets is written beyond the table of 8, -/
theorem C313_refuted (ps : List PresetDef) (hs : ∀ p ∈ ps, PresetFits p ∧ p.conds.length ≤ 16) (h1 : 8 < ps.length) (h2 : ps.length < 128) (t : List PresetDef) (ht : t.length = 8) (l : List Bool) :
    run (maep t) (presetBox ps ++ l) = .ub := by
  unfold maep presetBox
  simp only [List.append_assoc]
  rw [run_bits_bind _ _ _ _ (by decide) (by decide), run_bits_bind _ _ _ _ (by decide) (by omega), run_bind,
    run_foldN_over preset presetBits (fun p _ => presetOver p) (fun p => PresetFits p ∧ p.conds.length ≤ 16) preset_run (fun a ha i t hi l => preset_ub a ha.1 i t hi l) ps hs 0 t (by omega) (by omega) l]
  rfl

/-- 17 to 127 conditions are written beyond the table of 16, -/
theorem C313_conditions_refuted (p : PresetDef) (hp : PresetFits p) (h1 : 16 < p.conds.length) (h2 : p.conds.length < 128) (t : List PresetDef) (ht : t.length = 8) (l : List Bool) :
    run (maep t) (presetBox [p] ++ l) = .ub := by
  unfold maep presetBox
  simp only [List.append_assoc]
  rw [run_bits_bind _ _ _ _ (by decide) (by decide), run_bits_bind _ _ _ _ (by decide) (by simp), run_bind]
  simp only [List.length_cons, List.length_nil, foldN, List.flatMap_cons, List.flatMap_nil, List.append_nil]
  rw [run_bind, preset_head p hp (by omega) 0 t (by omega), run_bind]
  have e : toI8 (p.conds.length : Int) = p.conds.length := by unfold toI8; omega
  rw [e, conds_ub _ p.conds hp.conds 0 (by omega) (by omega) (by simp)]
  rfl

/-- and of 128 to 255 conditions none is read. -/
theorem C313_lost_refuted (p : PresetDef) (hp : PresetFits p) (h1 : 128 ≤ p.conds.length) (h2 : p.conds.length < 256) (t : List PresetDef) (ht : t.length = 8) (l : List Bool) :
    run (maep t) (presetBox [p] ++ l) = .ok ((1, t.set 0 { p with numConditions := p.conds.length - 256, conds := [] }), p.conds.flatMap condBits ++ l) := by
  unfold maep presetBox
  simp only [List.append_assoc]
  rw [run_bits_bind _ _ _ _ (by decide) (by decide), run_bits_bind _ _ _ _ (by decide) (by simp), run_bind]
  simp only [List.length_cons, List.length_nil, foldN, List.flatMap_cons, List.flatMap_nil, List.append_nil]
  rw [run_bind, preset_head p hp (by omega) 0 t (by omega), run_bind]
  have e : toI8 (p.conds.length : Int) = p.conds.length - 256 := by unfold toI8; omega
  rw [e, show ((p.conds.length : Int) - 256).toNat = 0 by omega]
  simp only [forN]
  show Res.bind (Res.bind (run (setAt t 0 _) _) _) _ = _
  rw [run_setAt _ _ _ _ (by omega)]
  rfl

/-- C313, what holds: a box of at most 8 presets with at most 16 conditions each is read back. -/
theorem C313_presets_partial (ps : List PresetDef) (hs : ∀ p ∈ ps, PresetFits p ∧ p.conds.length ≤ 16) (h1 : ps.length ≤ 8) (t : List PresetDef) (ht : t.length = 8) (l : List Bool) :
    ∃ t', run (maep t) (presetBox ps ++ l) = .ok ((ps.length, t'), l) ∧ t'.length = 8 ∧
      ∀ j (hj : j < t.length) (hj' : j < t'.length), t'[j] = if h : j < ps.length then presetOver ps[j] else t[j] := by
  obtain ⟨t', e1, e2, e3⟩ := run_foldN_items preset presetBits (fun p _ => presetOver p) (fun p => PresetFits p ∧ p.conds.length ≤ 16) preset_run ps hs 0 t (by omega) l
  refine ⟨t', ?_, by omega, fun j hj hj' => by have := e3 j hj hj'; simpa using this⟩
  unfold maep presetBox
  simp only [List.append_assoc]
  rw [run_bits_bind _ _ _ _ (by decide) (by decide), run_bits_bind _ _ _ _ (by decide) (by omega), run_bind, e1]
  rfl

example : PresetFits { groupId := 3, kind := 1, conds := [{ refId := 4, onOff := 1, gainFlag := 1, gain := 7 }] } :=
  ⟨by decide, by decide, fun c hc => by
    simp only [List.mem_cons, List.not_mem_nil, or_false] at hc
    subst hc
    exact ⟨by decide, by decide, by decide, by decide, by decide, by decide⟩⟩

example : PresetFits { conds := List.replicate 200 {} } :=
  ⟨by decide, by decide, fun c hc => by
    obtain rfl := List.eq_of_mem_replicate hc
    exact ⟨by decide, by decide, by decide, by decide, by decide, by decide⟩⟩

/-! ## C314: descriptions -/

/-- C314, refuted: whatever the box, the text of every description of a group or preset is the single character 0. -/
theorem C314_text_refuted (glen : Nat → Int) (l l' : List Bool) (d : Descr) (h : run (mael glen) l = .ok (d, l')) :
    (∀ e ∈ d.groups, e.2 = [0]) ∧ ∀ e ∈ d.presets, e.2 = [0] := by
  have key : Post 0 (mael glen) (fun d => (∀ e ∈ d.groups, e.2 = [0]) ∧ ∀ e ∈ d.presets, e.2 = [0]) := by
    have hf : ∀ (f : Nat → Prog (Nat × List Nat)) (_ : ∀ j, Post 0 (f j) fun e => e.2 = [0]) k i, Post 0 (forN f k i) fun es => ∀ e ∈ es, e.2 = [0] := by
      intro f hf k
      induction k with
      | zero => intro i; exact Post.pure (by simp)
      | succ k ih =>
        intro i
        unfold forN
        refine (hf i).bind fun a ha => (ih (i + 1)).bind fun as has => Post.pure fun e he => ?_
        rcases List.mem_cons.1 he with rfl | he
        · exact ha
        · exact has e he
    unfold mael
    refine Post.triv.bind fun _ _ => Post.triv.bind fun _ _ => Post.triv.bind fun _ _ => Post.triv.bind fun _ _ => Post.triv.bind fun n _ => ?_
    refine (hf _ (fun j => Post.triv.bind fun _ _ => Post.triv.bind fun _ _ => Post.triv.bind fun _ _ => Post.triv.bind fun _ _ => Post.triv.bind fun _ _ => Post.pure rfl) _ _).bind fun gs hg => ?_
    refine Post.triv.bind fun _ _ => ?_
    refine Post.triv.bind fun _ _ => Post.triv.bind fun _ _ => Post.triv.bind fun _ _ => Post.triv.bind fun _ _ => Post.triv.bind fun _ _ => ?_
    refine (hf _ (fun j => Post.triv.bind fun _ _ => Post.triv.bind fun _ _ => Post.triv.bind fun _ _ => Post.pure rfl) _ _).bind fun ps hp => ?_
    exact Post.pure ⟨hg, hp⟩
  exact key l d l' h (Nat.zero_le _)

/-- Specification: the bits of a description as they are read: id, length and one bit. -/
def descrBits (e : Nat × Nat × Nat) : List Bool := natBits 1 0 ++ (natBits 7 e.1 ++ (natBits 8 e.2.1 ++ natBits 1 e.2.2))

/-- C314, refuted: 128 descriptions of groups, which a box may have and the table holds, are written beyond the table. -/
theorem C314_refuted (glen : Nat → Int) (a b c : Nat) (ha : a < 16) (hb : b < 16) (hc : c < 2 ^ 24) (es : List (Nat × Nat × Nat)) (he : es.length = 128)
    (hf : ∀ e ∈ es, e.1 < 128 ∧ e.2.1 < 256 ∧ e.2.2 < 2) (l : List Bool) :
    run (mael glen) (natBits 4 a ++ (natBits 4 b ++ (natBits 24 c ++ (natBits 1 0 ++ (natBits 7 127 ++ (es.flatMap descrBits ++ l)))))) = .ub := by
  unfold mael
  rw [run_bits_bind _ _ _ _ (by decide) (by omega), run_bits_bind _ _ _ _ (by decide) (by omega), run_bits_bind _ _ _ _ (by decide) hc, run_bits_bind _ _ _ _ (by decide) (by decide),
    run_bits_bind _ _ _ _ (by decide) (by decide)]
  have : ∀ (f : Nat → Prog (Nat × List Nat)) (_ : ∀ j, j < 128 → ∀ e ∈ es, ∀ l, ∃ v, run (f j) (descrBits e ++ l) = .ok (v, l)) (k i : Nat) (fs : List (Nat × Nat × Nat)) (_ : ∀ e ∈ fs, e ∈ es)
      (_ : i + k ≤ 128) (_ : fs.length = k) (l : List Bool), ∃ v, run (forN f k i) (fs.flatMap descrBits ++ l) = .ok (v, l) := by
    intro f hf k
    induction k with
    | zero =>
      intro i fs _ _ hl l
      obtain rfl := List.length_eq_zero_iff.1 hl
      exact ⟨[], rfl⟩
    | succ k ih =>
      intro i fs hfs hik hl l
      obtain ⟨e, fs, rfl⟩ : ∃ e t, fs = e :: t := by
        cases fs with
        | nil => simp at hl
        | cons e t => exact ⟨e, t, rfl⟩
      obtain ⟨v, e1⟩ := hf i (by omega) e (hfs e (by simp)) (fs.flatMap descrBits ++ l)
      obtain ⟨w, e2⟩ := ih (i + 1) fs (fun x hx => hfs x (by simp [hx])) (by omega) (by simpa using hl) l
      refine ⟨v :: w, ?_⟩
      simp only [forN, List.flatMap_cons, List.append_assoc]
      rw [run_bind, e1]
      simp only [Res.ok_bind]
      rw [run_bind, e2]
      rfl
  obtain ⟨v, hv⟩ := this (fun j => do
    inTable j 128
    let _ ← bits 1
    let id ← bits 7
    let _ ← bits 8
    let _ ← bits 1
    pure (id, [0])) (fun j hj e hm l => by
      obtain ⟨q1, q2, q3⟩ := hf e hm
      refine ⟨(e.1, [0]), ?_⟩
      unfold descrBits
      simp only [List.append_assoc]
      rw [run_inTable_bind _ _ _ _ (by omega), run_bits_bind _ _ _ _ (by decide) (by decide), run_bits_bind _ _ _ _ (by decide) (by omega), run_bits_bind _ _ _ _ (by decide) (by omega),
        run_bits_bind _ _ _ _ (by decide) (by omega)]
      rfl) 128 0 es (fun _ h => h) (by omega) he l
  rw [run_bind, hv]
  rfl

example : ∃ es : List (Nat × Nat × Nat), es.length = 128 ∧ ∀ e ∈ es, e.1 < 128 ∧ e.2.1 < 256 ∧ e.2.2 < 2 :=
  ⟨(List.range 128).map fun i => (i, 1, 0), by simp, fun e he => by
    obtain ⟨i, hi, rfl⟩ := List.mem_map.1 he
    exact ⟨List.mem_range.1 hi, Nat.lt_of_sub_eq_succ rfl, Nat.zero_lt_succ _⟩⟩

/-- C314, what holds: up to 127 descriptions of groups no box makes reading undefined. -/
theorem C314_safe_partial (glen : Nat → Int) (l : List Bool) (hn : bitsVal ((l.drop 33).take 7) ≤ 126) : run (mael glen) l ≠ .ub := by
  have hbits : ∀ (n : Nat) (f : Nat → Prog Descr) (l : List Bool), n ≤ 24 → run (bits n >>= f) l = if l.length < n then .jump else run (f (bitsVal (l.take n))) (l.drop n) := by
    intro n f l hn
    rw [run_bind]
    unfold bits
    simp only [run, if_neg (show ¬24 < n by omega)]
    split <;> rfl
  unfold mael
  iterate 5
    rw [hbits _ _ _ (by decide)]
    split
    · exact fun h => by cases h
  simp only [List.drop_drop]
  generalize bitsVal (List.take 7 (List.drop (4 + 4 + 24 + 1) l)) = n at hn ⊢
  refine (Safe.bind (R := fun _ => True) (Q := fun _ => True) ((Safe.forN (P := fun _ => True) _ _ fun j _ hj => ?_).mono fun _ _ => trivial) fun gs _ => ?_) _ |>.1
  · exact (Safe.inTable (by omega) (by omega)).bind fun _ _ => Safe.bits_bind (by decide) fun _ _ => Safe.bits_bind (by decide) fun _ _ => Safe.bits_bind (by decide) fun _ _ =>
      Safe.bits_bind (by decide) fun _ _ => Safe.pure trivial
  refine (Safe.inTable (by omega) (by omega)).bind fun _ _ => ?_
  refine Safe.bits_bind (by decide) fun _ _ => Safe.bits_bind (by decide) fun m _ => ?_
  refine Safe.bind (R := fun _ => True) ((Safe.forN (P := fun _ => True) _ _ fun j _ hj => ?_).mono fun _ _ => trivial) fun ss _ => ?_
  · refine Safe.bits_bind (by decide) fun _ _ => Safe.bits_bind (by decide) fun _ _ => Safe.bits_bind (by decide) fun _ _ => ?_
    exact Safe.bind (R := fun _ => True) ((Safe.forN (P := fun _ => True) _ _ fun j _ hj => (Safe.bits (by decide)).mono fun _ _ => trivial).mono fun _ _ => trivial) fun _ _ => Safe.pure trivial
  refine Safe.bits_bind (by decide) fun _ _ => Safe.bits_bind (by decide) fun p _ => ?_
  refine Safe.bind (R := fun _ => True) ((Safe.forN (P := fun _ => True) _ _ fun j _ hj => ?_).mono fun _ _ => trivial) fun ps _ => Safe.pure trivial
  exact Safe.bits_bind (by decide) fun _ _ => Safe.bits_bind (by decide) fun _ _ => Safe.bits_bind (by decide) fun _ _ => Safe.pure trivial

/-- C314, refuted: a text of a switch group is read as one bit, or as none when there are fewer descriptions of groups. -/
theorem C314_switch_refuted : (run (mael fun _ => 0) (natBits 4 0 ++ natBits 4 0 ++ natBits 24 0x656E67 ++ natBits 8 0 ++ natBits 8 1 ++ natBits 8 1 ++ natBits 1 0 ++
      natBits 8 2 ++ (natBits 8 1 ++ natBits 8 1 ++ natBits 1 1) ++ (natBits 8 2 ++ natBits 8 1 ++ natBits 1 1) ++ (natBits 8 3 ++ natBits 8 1) ++ natBits 8 0 ++ natBits 5 4 ++ natBits 8 1 ++ natBits 1 0)).map
      (fun x => x.1.switches) = .ok [(1, [1]), (2, [1]), (3, [])] := by decide +kernel

end Verif.Mp4
