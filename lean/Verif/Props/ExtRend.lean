import Verif.Proofs.ExtRend
import Verif.Props.Oam
import Mathlib.Tactic.NormNum
import Mathlib.Tactic.IntervalCases

/-! # C261 to C266: object metadata for an external renderer -/

namespace Verif.ExtRend

open Prog

/-! ### Statement -/

/-- The metadata the decoder holds for entry `i`, as far as they are sent. -/
def heldAt (c : Oam.Cfg) (s : Oam.State) (i : Nat) : Option Spec.Position :=
  if s.hasMd.getD i 0 = 1 then
    some ⟨s.coded.az.getD i 0, s.coded.el.getD i 0, (s.coded.rad.getD i 0).toNat, s.coded.gain.getD i 0,
      if c.dynPriority then (s.coded.pri.getD i 0).toNat else 0,
      (s.coded.sw.getD i 0).toNat,
      if c.uniformSpread then 0 else (s.coded.sh.getD i 0).toNat,
      if c.uniformSpread then 0 else (s.coded.sd.getD i 0).toNat⟩
  else none

/-- Arrays of the declared sizes, coded values in the ranges of the syntax. -/
structure HeldOk (s : Oam.State) : Prop where
  lmd : s.hasMd.length = 96
  laz : s.coded.az.length = 96
  lel : s.coded.el.length = 96
  lrad : s.coded.rad.length = 96
  lgain : s.coded.gain.length = 96
  lpri : s.coded.pri.length = 96
  lsw : s.coded.sw.length = 96
  lsh : s.coded.sh.length = 96
  lsd : s.coded.sd.length = 96
  az : ∀ i, -128 ≤ s.coded.az.getD i 0 ∧ s.coded.az.getD i 0 < 128
  el : ∀ i, -32 ≤ s.coded.el.getD i 0 ∧ s.coded.el.getD i 0 < 32
  rad : ∀ i, 0 ≤ s.coded.rad.getD i 0 ∧ s.coded.rad.getD i 0 < 16
  gain : ∀ i, -64 ≤ s.coded.gain.getD i 0 ∧ s.coded.gain.getD i 0 < 64
  pri : ∀ i, 0 ≤ s.coded.pri.getD i 0 ∧ s.coded.pri.getD i 0 < 8
  sw : ∀ i, 0 ≤ s.coded.sw.getD i 0 ∧ s.coded.sw.getD i 0 < 128
  sh : ∀ i, 0 ≤ s.coded.sh.getD i 0 ∧ s.coded.sh.getD i 0 < 32
  sd : ∀ i, 0 ≤ s.coded.sd.getD i 0 ∧ s.coded.sd.getD i 0 < 16
  md : ∀ i, s.hasMd.getD i 0 ≤ 1

theorem subFrame_writes (c : Oam.Cfg) (s : Oam.State) (h : HeldOk s) (i : Nat) (hi : i < 96) :
    Writes (subFrame c s i) (Spec.subFrame c.dynPriority c.uniformSpread) (heldAt c s i) := by
  unfold Writes subFrame heldAt
  rw [at_getD 0 (by rw [h.lmd]; exact hi), at_getD 0 (by rw [h.laz]; exact hi),
    at_getD 0 (by rw [h.lel]; exact hi), at_getD 0 (by rw [h.lrad]; exact hi),
    at_getD 0 (by rw [h.lgain]; exact hi), at_getD 0 (by rw [h.lpri]; exact hi),
    at_getD 0 (by rw [h.lsw]; exact hi), at_getD 0 (by rw [h.lsh]; exact hi),
    at_getD 0 (by rw [h.lsd]; exact hi)]
  simp only [Res.ok_bind]
  by_cases hm : s.hasMd.getD i 0 = 1
  · simp only [hm, if_true]
    have a1 := h.az i; have a2 := h.el i; have a3 := h.rad i; have a4 := h.gain i; have a5 := h.pri i
    have a6 := h.sw i; have a7 := h.sh i; have a8 := h.sd i
    generalize s.coded.az.getD i 0 = az at *
    generalize s.coded.el.getD i 0 = el at *
    generalize s.coded.rad.getD i 0 = rad at *
    generalize s.coded.gain.getD i 0 = gain at *
    generalize s.coded.pri.getD i 0 = pri at *
    generalize s.coded.sw.getD i 0 = sw at *
    generalize s.coded.sh.getD i 0 = sh at *
    generalize s.coded.sd.getD i 0 = sd at *
    have e1 := signed_low 8 az (by omega) (by norm_num; omega) (by norm_num; omega)
    have e2 := signed_low 6 el (by omega) (by norm_num; omega) (by norm_num; omega)
    have e3 := low_nonneg 4 rad a3.1 (by norm_num; omega)
    have e4 := signed_low 7 gain (by omega) (by norm_num; omega) (by norm_num; omega)
    have e5 := low_nonneg 3 pri a5.1 (by norm_num; omega)
    have e6 := low_nonneg 7 sw a6.1 (by norm_num; omega)
    have e7 := low_nonneg 5 sh a7.1 (by norm_num; omega)
    have e8 := low_nonneg 4 sd a8.1 (by norm_num; omega)
    cases hp : c.dynPriority <;> cases hu : c.uniformSpread <;>
      simp only [Bool.false_eq_true, if_true, if_false, Res.ok_bind, List.cons_append, List.nil_append] <;>
      (refine ⟨_, rfl, by wide, fun l => ?_⟩
       simp only [fieldBits_cons, fieldBits_word, fieldBits_nil, List.append_assoc, List.nil_append]
       unfold Spec.subFrame
       rw [run_bits_mod _ _ _ _ (by omega)]
       simp only [Nat.reducePow, Nat.reduceMod, if_true]
       unfold Spec.position
       simp only [optBits, Bool.not_true, Bool.not_false, Bool.false_eq_true, if_true, if_false, bind_assoc,
         pure_bind]
       repeat rw [run_word _ _ _ _ (by omega)]
       simp only [run_pure, e1, e2, e3, e4, e5, e6, e7, e8])
  · have hz : s.hasMd.getD i 0 = 0 := by have := h.md i; omega
    simp only [hz, Nat.zero_ne_one, if_false]
    refine ⟨_, rfl, Wide.cons (by omega) (by omega) Wide.nil, fun l => ?_⟩
    simp only [fieldBits, List.append_nil]
    unfold Spec.subFrame
    rw [run_bits_mod _ _ _ _ (by omega)]
    rfl

theorem castInt_small (x : Rat) (h0 : -1000 ≤ x) (h1 : x ≤ 1000) :
    Pcm.castInt 32 x = .ok (Pcm.truncZ x) := by
  unfold Pcm.castInt
  rw [if_pos]
  unfold Pcm.truncZ
  split
  · rename_i h
    have a : 0 ≤ ⌊x⌋ := Int.floor_nonneg.mpr h
    have b : ⌊x⌋ ≤ 1000 := by
      have : (⌊x⌋ : Rat) ≤ 1000 := le_trans (Int.floor_le x) h1
      exact_mod_cast this
    constructor <;> norm_num <;> omega
  · rename_i h
    have b : ⌈x⌉ ≤ 0 := Int.ceil_le.mpr (by push_cast; linarith)
    have a : -1000 ≤ ⌈x⌉ := by
      have : (-1000 : Rat) ≤ ⌈x⌉ := le_trans h0 (Int.le_ceil x)
      exact_mod_cast this
    constructor <;> norm_num <;> omega

/-- A sector as sent: angles are cut to whole degrees and to the width of the field. -/
def sectorOf (s : EnhOam.Sector) : Spec.Sector :=
  if s.usePre = 0 then
    .angles (Spec.low 7 (Pcm.truncZ s.minAz)) (Spec.low 7 (Pcm.truncZ s.maxAz))
      (Spec.low 5 (Pcm.truncZ s.minEl)) (Spec.low 5 (Pcm.truncZ s.maxEl))
  else .predefined s.index

structure SectorOk (s : EnhOam.Sector) : Prop where
  pre : s.usePre ≤ 1
  index : s.index < 16
  minAz : -180 ≤ s.minAz ∧ s.minAz ≤ 180
  maxAz : -180 ≤ s.maxAz ∧ s.maxAz ≤ 180
  minEl : -90 ≤ s.minEl ∧ s.minEl ≤ 90
  maxEl : -90 ≤ s.maxEl ∧ s.maxEl ≤ 90

theorem sector_writes (s : EnhOam.Sector) (h : SectorOk s) : Writes (sector s) Spec.sector (sectorOf s) := by
  unfold Writes sector sectorOf
  by_cases hu : s.usePre = 0
  · rw [if_pos hu, if_pos hu, castInt_small _ (by linarith [h.minAz.1]) (by linarith [h.minAz.2]),
      castInt_small _ (by linarith [h.maxAz.1]) (by linarith [h.maxAz.2]),
      castInt_small _ (by linarith [h.minEl.1]) (by linarith [h.minEl.2]),
      castInt_small _ (by linarith [h.maxEl.1]) (by linarith [h.maxEl.2])]
    simp only [Res.ok_bind]
    refine ⟨_, rfl, by wide, fun l => ?_⟩
    simp only [fieldBits_cons, fieldBits_word, fieldBits_nil, List.append_assoc, List.nil_append]
    unfold Spec.sector
    rw [run_bits_mod _ _ _ _ (by omega), hu]
    simp only [Nat.zero_mod, if_true]
    repeat rw [run_word _ _ _ _ (by omega)]
    rfl
  · rw [if_neg hu, if_neg hu]
    have h1 : s.usePre = 1 := by have := h.pre; omega
    refine ⟨_, rfl, by wide, fun l => ?_⟩
    simp only [fieldBits_cons, fieldBits_nil, List.append_assoc, List.nil_append]
    unfold Spec.sector
    rw [run_bits_mod _ _ _ _ (by omega), h1]
    simp only [Nat.reducePow, Nat.reduceMod, Nat.one_ne_zero, if_false]
    rw [run_bits_bind _ _ _ _ (by omega) (by have := h.index; norm_num; omega)]
    rfl

/-- What an object is for the receiver. `before` is the number of signals in the groups before the first
group of objects. -/
def objectOf (o : Objects) (sg : Signals) (before frames k : Nat) : Spec.Obj :=
  let e := o.enh.getD k ⟨0, 0, 0, 0, 0, [], 0, 0, 0, [], 0, 0⟩
  { id := (before + k) % 512
    frames := (List.range' 0 frames).map fun f => heldAt o.cfg o.state (f * o.n + k)
    fixed := sg.fixed.getD k 0
    prio := sg.prio.getD k 0
    diff := Spec.low 7 (Pcm.truncZ e.diff)
    div := Spec.low 7 (Pcm.truncZ e.div)
    range := Spec.low 6 (o.range.getD k 0)
    sectors := (List.range' 0 e.num).map fun j => sectorOf (e.sec.getD j ⟨0, 0, 0, 0, 0, 0⟩) }

/-- The enhanced metadata of an object as the decoder keeps them. -/
structure EnhOk (e : EnhOam.Obj) : Prop where
  num : e.num ≤ 15
  len : e.num ≤ e.sec.length
  sec : ∀ s ∈ e.sec, SectorOk s
  diff : 0 ≤ e.diff ∧ e.diff ≤ 1
  div : 0 ≤ e.div ∧ e.div ≤ 1

/-- Arrays of the declared sizes, the state of the object decoder, no audio scene. -/
structure ObjectsOk (o : Objects) (sg : Signals) : Prop where
  ccfl : o.ccfl = 1024
  frame : o.cfg.frameLength = 256 ∨ o.cfg.frameLength = 512 ∨ o.cfg.frameLength = 1024
  n : o.n ≤ 24
  held : HeldOk o.state
  lenh : o.enh.length = 24
  enh : ∀ e ∈ o.enh, EnhOk e
  lrange : o.range.length = 24
  asi : o.asi = none
  lfixed : sg.fixed.length = 32
  fixed : ∀ x ∈ sg.fixed, x < 2
  lprio : sg.prio.length = 32
  prio : ∀ x ∈ sg.prio, x < 8
  ltype : sg.type.length = 32
  lnum : sg.numSig.length = 32
  groups : sg.numGroups ≤ 32

theorem bmod_mod (x : Nat) : Spec.low 9 (((x : Nat) : Int).bmod 65536) = x % 512 := by
  unfold Spec.low
  have : (((x : Nat) : Int).bmod 65536) % 2 ^ 9 = ((x % 512 : Nat) : Int) := by
    rw [Int.bmod_def]
    push_cast
    norm_num
    split <;> omega
  rw [this]; exact Int.toNat_natCast _

theorem getD_mem' {α : Type} (xs : List α) (d : α) (i : Nat) (h : i < xs.length) : xs.getD i d ∈ xs := by
  rw [List.getD_eq_getElem?_getD, List.getElem?_eq_getElem h]
  exact List.getElem_mem h

theorem object_writes (o : Objects) (sg : Signals) (h : ObjectsOk o sg) (grp before frames k : Nat)
    (hf : frames ≤ 4) (hk : k < o.n) :
    Writes (object o sg grp before frames k) Spec.obj (objectOf o sg before frames k) := by
  have hn := h.n
  obtain ⟨ss, s1, s2, s3⟩ := rep_writes (fun f => subFrame o.cfg o.state (f * o.n + k))
    (Spec.subFrame o.cfg.dynPriority o.cfg.uniformSpread) (fun f => heldAt o.cfg o.state (f * o.n + k)) frames 0 0
    (fun m _ hm => subFrame_writes _ _ h.held _ (by
      have : m * o.n ≤ 3 * o.n := Nat.mul_le_mul_right _ (by omega)
      omega))
  have he := h.enh _ (getD_mem' o.enh ⟨0, 0, 0, 0, 0, [], 0, 0, 0, [], 0, 0⟩ k (by rw [h.lenh]; omega))
  have hfx := h.fixed _ (getD_mem' sg.fixed 0 k (by rw [h.lfixed]; omega))
  have hpr := h.prio _ (getD_mem' sg.prio 0 k (by rw [h.lprio]; omega))
  obtain ⟨cs, c1, c2, c3⟩ := rep_writes (fun j => do
      let s ← at_ (o.enh.getD k ⟨0, 0, 0, 0, 0, [], 0, 0, 0, [], 0, 0⟩).sec j
      sector s) Spec.sector
    (fun j => sectorOf ((o.enh.getD k ⟨0, 0, 0, 0, 0, [], 0, 0, 0, [], 0, 0⟩).sec.getD j ⟨0, 0, 0, 0, 0, 0⟩))
    (o.enh.getD k ⟨0, 0, 0, 0, 0, [], 0, 0, 0, [], 0, 0⟩).num 0 0
    (fun m _ hm => by
      have hl : m < (o.enh.getD k ⟨0, 0, 0, 0, 0, [], 0, 0, 0, [], 0, 0⟩).sec.length := by
        have := he.len; omega
      rw [at_getD ⟨0, 0, 0, 0, 0, 0⟩ hl]
      simp only [Res.ok_bind]
      exact sector_writes _ (he.sec _ (getD_mem' _ _ _ hl)))
  unfold object objectOf
  simp only [h.asi, elementId, Res.ok_bind]
  rw [s1, at_getD 0 (by rw [h.lfixed]; omega), at_getD 0 (by rw [h.lprio]; omega),
    at_getD ⟨0, 0, 0, 0, 0, [], 0, 0, 0, [], 0, 0⟩ (by rw [h.lenh]; omega),
    at_getD 0 (by rw [h.lrange]; omega)]
  simp only [Res.ok_bind]
  rw [c1]
  generalize o.enh.getD k ⟨0, 0, 0, 0, 0, [], 0, 0, 0, [], 0, 0⟩ = e at *
  rw [castInt_small _ (by linarith [he.diff.1]) (by linarith [he.diff.2]),
    castInt_small _ (by linarith [he.div.1]) (by linarith [he.div.2])]
  simp only [Res.ok_bind, List.cons_append, List.nil_append]
  refine ⟨_, rfl, by wide, fun l => ?_⟩
  simp only [fieldBits_cons, fieldBits_word, fieldBits_append, fieldBits_nil, List.append_assoc, List.nil_append]
  unfold Spec.obj
  rw [run_word _ _ _ _ (by omega), bmod_mod, run_bits_mod _ _ _ _ (by omega), run_bits_mod _ _ _ _ (by omega),
    run_bits_bind _ _ _ _ (by omega) (by norm_num; omega)]
  have ed : (o.cfg.dynPriority.toNat % 2 ^ 1 != 0) = o.cfg.dynPriority := by cases o.cfg.dynPriority <;> rfl
  have eu : (o.cfg.uniformSpread.toNat % 2 ^ 1 != 0) = o.cfg.uniformSpread := by
    cases o.cfg.uniformSpread <;> rfl
  rw [ed, eu, Writes.bind_run s3, run_bits_bind _ _ _ _ (by omega) (lt_of_lt_of_le hfx (by norm_num)),
    run_bits_bind _ _ _ _ (by omega) (lt_of_lt_of_le hpr (by norm_num))]
  repeat rw [run_word _ _ _ _ (by omega)]
  rw [run_bits_bind _ _ _ _ (by omega) (by have := he.num; norm_num; omega), Writes.bind_run c3]
  rfl

/-- Number of signals in the groups before the first group of objects. -/
def signalsBefore (sg : Signals) : Nat :=
  ((((sg.type.zip sg.numSig).take sg.numGroups).takeWhile fun g => g.1 != 1).map Prod.snd).sum

theorem firstObj_ok (sg : Signals) (ht : sg.type.length = 32) (hs : sg.numSig.length = 32) (k grp off : Nat)
    (hk : grp + k ≤ 32) : ∃ g, firstObj sg k grp off =
      .ok (g, off + (((((sg.type.zip sg.numSig).drop grp).take k).takeWhile fun g => g.1 != 1).map Prod.snd).sum) := by
  induction k generalizing grp off with
  | zero => exact ⟨grp, by simp [firstObj]⟩
  | succ k ih =>
    have h1 : grp < sg.type.length := by omega
    have h2 : grp < sg.numSig.length := by omega
    have hz : (sg.type.zip sg.numSig).drop grp = (sg.type[grp], sg.numSig[grp]) :: (sg.type.zip sg.numSig).drop (grp + 1) := by
      rw [List.drop_eq_getElem_cons (by simp; omega), List.getElem_zip]
    unfold firstObj
    rw [at_some (List.getElem?_eq_getElem h1), at_some (List.getElem?_eq_getElem h2), hz]
    simp only [Res.ok_bind, List.take_succ_cons, List.takeWhile_cons]
    by_cases e : sg.type[grp] = 1
    · exact ⟨grp, by simp [e]⟩
    · obtain ⟨g, hg⟩ := ih (grp + 1) (off + sg.numSig[grp]) (by omega)
      refine ⟨g, ?_⟩
      rw [if_neg e, hg]
      simp [e, Nat.add_assoc]

/-- The metadata of the objects for the receiver. -/
def oamOf (o : Objects) (sg : Signals) : Spec.Oam :=
  { samples := o.cfg.frameLength.toNat
    objs := (List.range' 0 o.n).map (objectOf o sg (signalsBefore sg) (1024 / o.cfg.frameLength.toNat))
    exts := [] }

/-- The fields before the extension elements, and what a reader makes of them. -/
theorem oam_front (o : Objects) (sg : Signals) (h : ObjectsOk o sg) :
    ∃ fs, oam o sg = (do
        let ext ← goaExt o.prod o.n
        .ok (fs ++ ext)) ∧ Wide fs ∧
      ∀ l, run Spec.oam (fieldBits fs ++ l) = run (do
        let k ← bits 3
        let es ← forN (fun _ => Spec.ext) k 0
        pure { oamOf o sg with exts := es }) l := by
  have hn := h.n
  obtain ⟨g, hg⟩ := firstObj_ok sg h.ltype h.lnum sg.numGroups 0 0 (by have := h.groups; omega)
  rw [List.drop_zero, Nat.zero_add] at hg
  change _ = Res.ok (g, signalsBefore sg) at hg
  have hfr : (o.ccfl.tdiv o.cfg.frameLength).toNat = 1024 / o.cfg.frameLength.toNat ∧
      1024 / o.cfg.frameLength.toNat ≤ 4 ∧ o.cfg.frameLength ≠ 0 ∧
      Spec.low 6 (o.cfg.frameLength / 64) * 64 = o.cfg.frameLength.toNat := by
    rw [h.ccfl]
    rcases h.frame with e | e | e <;> rw [e] <;> decide
  obtain ⟨os, o1, o2, o3⟩ := rep_writes (object o sg g (signalsBefore sg) (1024 / o.cfg.frameLength.toNat)) Spec.obj
    (objectOf o sg (signalsBefore sg) (1024 / o.cfg.frameLength.toNat)) o.n 0 0
    (fun m _ hm => object_writes o sg h _ _ _ m hfr.2.1 (by omega))
  refine ⟨[word (o.cfg.frameLength / 64) 6, (0, 2), (o.n, 9)] ++ os, ?_, by wide, fun l => ?_⟩
  · unfold oam
    rw [if_neg hfr.2.2.1, hg]
    simp only [Res.ok_bind]
    rw [hfr.1, o1]
    simp only [Res.ok_bind]
  · simp only [List.cons_append, List.nil_append, fieldBits_cons, fieldBits_word, List.append_assoc]
    unfold Spec.oam
    rw [run_word _ _ _ _ (by omega), run_bits_mod _ _ _ _ (by omega)]
    simp only [Nat.zero_mod, bne_self_eq_false, optBits, Bool.false_eq_true, if_false, pure_bind]
    rw [run_bits_bind _ _ _ _ (by omega) (by norm_num; omega), Writes.bind_run o3, Nat.mul_comm, hfr.2.2.2]
    rfl

/-- **C261** The object metadata for an external renderer, read by someone who knows only the syntax, are
those the decoder holds: the number of samples of a sub-frame, for every object its number and the coded
position, gain, priority and spread of every sub-frame that has metadata. Up to 24 objects, without
production metadata, for a buffer that is long enough. -/
theorem C261_objects (o : Objects) (sg : Signals) (h : ObjectsOk o sg) (hp : o.prod.present ≠ 1)
    (buf : List UInt8) (hb : ∀ fs, oam o sg = .ok fs → fieldWidth fs ≤ 8 * buf.length) :
    ∃ fs w, oam o sg = .ok fs ∧ (WBuf.create buf).writeSeq fs = .ok (fieldWidth fs, w) ∧
      w.buf.length = buf.length ∧
      run Spec.oam (bitsOf w.buf) = .ok (oamOf o sg, (bitsOf buf).drop (fieldWidth fs)) := by
  refine Writes.buffer ?_ buf hb
  obtain ⟨fs, f1, f2, f3⟩ := oam_front o sg h
  refine ⟨fs ++ [(0, 3)], ?_, by wide, fun l => ?_⟩
  · rw [f1]; unfold goaExt; rw [if_pos hp]; simp only [Res.ok_bind]
  · rw [fieldBits_append, List.append_assoc, f3, fieldBits_cons, fieldBits_nil, List.append_nil,
      run_bits_mod _ _ _ _ (by omega)]
    rfl

/-- **C263** (refuted) When there are production metadata the interface announces an extension element of
as many bytes as the payload had, but none of them are written: whoever reads what was announced does not
find it. -/
theorem C263_refuted (o : Objects) (sg : Signals) (h : ObjectsOk o sg) (hp : o.prod.present = 1)
    (hl : 1 ≤ o.prod.length ∧ o.prod.length < 1024) :
    ∃ fs, oam o sg = .ok fs ∧ run Spec.oam (fieldBits fs) = .jump := by
  obtain ⟨fs, f1, f2, f3⟩ := oam_front o sg h
  refine ⟨fs ++ [(1, 3), (0, 3), word o.prod.length 10], ?_, ?_⟩
  · rw [f1]
    have : goaExt o.prod o.n = .ok [(1, 3), (0, 3), word o.prod.length 10] := by
      unfold goaExt; rw [if_neg (by simp [hp])]; rfl
    rw [this]; simp only [Res.ok_bind]
  · rw [fieldBits_append, f3]
    simp only [fieldBits_cons, fieldBits_word, fieldBits_nil, List.append_nil]
    rw [run_bits_mod _ _ _ _ (by omega)]
    simp only [Nat.reducePow, Nat.reduceMod, forN, Spec.ext, bind_assoc]
    rw [run_bits_mod _ _ _ _ (by omega)]
    have e := run_word (β := Spec.Oam) o.prod.length 10
    have e0 := fun f => e f [] (by omega)
    simp only [List.append_nil] at e0
    rw [e0]
    obtain ⟨m, hm⟩ : ∃ m, Spec.low 10 o.prod.length = m + 1 := by
      rw [low_nonneg _ _ (by omega) (by norm_num; omega)]
      exact ⟨o.prod.length.toNat - 1, by omega⟩
    rw [hm]
    rfl

end Verif.ExtRend
