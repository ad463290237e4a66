import Verif.Props.FdStereo

/-! # C181, C184, C185: headers of pairs of frequency domain channels -/

namespace Verif.Fd

open Prog
open Lpd (Each Field field_reads forN_reads lift_reads)

theorem ics_facts {bands : Bands} {last : Nat} {i : Ics} {b : List Bool} (h : IcsCode bands last i b) :
    (if isLong i.seq then i.ends.length = 1 ∧ i.maxSfb < 64 else i.ends.length ≤ 8 ∧ i.maxSfb < 16) ∧ i.maxSfb ≤ bands.num (isLong i.seq) := by
  obtain ⟨c, -, -, ⟨h1, h2, h3, lens, h4, h5, -⟩ | ⟨h1, h2, h3, h4, -⟩⟩ := h
  · have hl : isLong i.seq = false := by rw [h1]; rfl
    have h6 : (Scf.groupEnds 0 lens).length = lens.length := by
      generalize 0 = k
      induction lens generalizing k with
      | nil => rfl
      | cons n lens ih =>
        have : ∀ (l : List Nat) (k : Nat), (Scf.groupEnds k l).length = l.length := by
          intro l
          induction l with
          | nil => intro k; rfl
          | cons m l ih => intro k; simp [Scf.groupEnds, ih]
        exact this _ _
    have h7 := sum_le_length lens h4.1
    rw [hl]
    simp only [Bool.false_eq_true, if_false, Bands.num]
    rw [h5, h6]
    exact ⟨⟨by rw [← h4.2]; exact h7, h3⟩, h2⟩
  · have hl : isLong i.seq = true := by simp [isLong, h1]
    rw [hl]
    simp only [if_true, Bands.num]
    rw [h4]
    exact ⟨⟨rfl, h3⟩, h2⟩

theorem ltpf_reads : Reads ltpf LtpfCode := by
  unfold ltpf
  refine (flag_reads.bind fun p _ _ => Reads.ite (c := p = true) (fun _ => (field_reads (w := 9) (by omega)).bind fun lag _ _ =>
    (field_reads (w := 2) (by omega)).bind fun gain _ _ => Reads.pure _) fun _ => Reads.pure _).congr fun l b => ?_
  constructor
  · rintro ⟨p, _, b2, rfl, h, rfl⟩
    cases p with
    | true =>
      simp only [if_true] at h
      obtain ⟨lag, _, _, ⟨h1, rfl⟩, ⟨gain, _, _, ⟨h2, rfl⟩, ⟨rfl, rfl⟩, rfl⟩, rfl⟩ := h
      exact ⟨h1, h2, by simp⟩
    | false =>
      simp only [Bool.false_eq_true, if_false] at h
      obtain ⟨rfl, rfl⟩ := h
      rfl
  · intro h
    cases l with
    | none =>
      obtain rfl : b = [false] := h
      exact ⟨false, [false], [], rfl, by simp, rfl⟩
    | some x =>
      obtain ⟨lag, gain⟩ := x
      obtain ⟨h1, h2, rfl⟩ := h
      refine ⟨true, [true], natBits 9 lag ++ (natBits 2 gain ++ []), rfl, ?_, by simp⟩
      simp only [if_true]
      exact ⟨lag, _, _, ⟨h1, rfl⟩, ⟨gain, _, [], ⟨h2, rfl⟩, ⟨rfl, rfl⟩, rfl⟩, rfl⟩

theorem commonWindow_reads (rate : Nat) (c : Cfg) (s : Past) (prev : List (Int × Int)) (igfMask : Ics → Prog Nat)
    (R : Ics → Nat → List Bool → Prop) (hR : ∀ i, Reads (igfMask i) (R i)) (hb : c.bands = bandsAt rate) (hm : s.ms.length = 128)
    (hp : prev.length = 136) :
    Reads (commonWindow c s prev igfMask) (CommonCode c s (c.enf.headD false || s.filling) prev R) := by
  unfold commonWindow
  refine ((C178_windows c.bands s.last).bind (S := fun ics (x : Common × List (Int × Int)) b => x.1.ics = ics ∧
    ∃ (bs bi : List Bool) (raw : Nat) (same : Bool),
    (if same then raw = ics.maxSfb else raw < if ics.seq = 2 then 16 else 64) ∧
    x.1.right = min raw (c.bands.num (isLong ics.seq)) ∧
    x.1.maxSte = (if c.igf = true ∧ c.independent = false then min (max ics.maxSfb raw) (c.igfStart (isLong ics.seq))
      else max ics.maxSfb raw) ∧
    StereoCode s.indep (c.bands.num (isLong ics.seq)) ics.ends.length x.1.maxSte
      (if c.igf = true ∧ c.independent = false then min 136 (c.igfStart (isLong ics.seq)) else 136) s.ms prev (x.1.stereo, x.2) bs ∧
    ¬ ((c.enf.headD false || s.filling) = true ∧ x.1.stereo.complex = true) ∧
    (if c.igf = true ∧ c.independent = false then R ics x.1.igfMask bi else x.1.igfMask = 0 ∧ bi = []) ∧
    b = [same] ++ (if same then [] else natBits (if ics.seq = 2 then 4 else 6) raw) ++ bs ++ bi) fun ics _ hics => ?_).congr fun x b => ?_
  · obtain ⟨hf1, hf2⟩ := ics_facts hics
    have hlong : isLong ics.seq = true ↔ ics.seq ≠ 2 := by simp [isLong]
    have hraw : ∀ same : Bool, Reads (if same = true then pure ics.maxSfb else if isLong ics.seq = true then bits 6 else bits 4)
        (fun raw b => (if same then raw = ics.maxSfb else raw < if ics.seq = 2 then 16 else 64) ∧
          b = if same then [] else natBits (if ics.seq = 2 then 4 else 6) raw) := by
      intro same
      cases same with
      | true =>
        simp only [if_true]
        exact Reads.pure _
      | false =>
        simp only [Bool.false_eq_true, if_false]
        by_cases h2 : ics.seq = 2
        · have : isLong ics.seq = false := by rw [h2]; rfl
          simp only [this, Bool.false_eq_true, if_false, if_pos h2]
          exact field_reads (w := 4) (by omega)
        · simp only [hlong.mpr h2, if_true, if_neg h2]
          exact field_reads (w := 6) (by omega)
    refine (flag_reads.bind fun same _ _ => (hraw same).bind (S := fun raw (x : Common × List (Int × Int)) b => x.1.ics = ics ∧
        ∃ (bs bi : List Bool),
        x.1.right = min raw (c.bands.num (isLong ics.seq)) ∧
        x.1.maxSte = (if c.igf = true ∧ c.independent = false then min (max ics.maxSfb raw) (c.igfStart (isLong ics.seq))
          else max ics.maxSfb raw) ∧
        StereoCode s.indep (c.bands.num (isLong ics.seq)) ics.ends.length x.1.maxSte
          (if c.igf = true ∧ c.independent = false then min 136 (c.igfStart (isLong ics.seq)) else 136) s.ms prev (x.1.stereo, x.2) bs ∧
        ¬ ((c.enf.headD false || s.filling) = true ∧ x.1.stereo.complex = true) ∧
        (if c.igf = true ∧ c.independent = false then R ics x.1.igfMask bi else x.1.igfMask = 0 ∧ bi = []) ∧
        b = bs ++ bi) fun raw _ hr => ?_).congr fun x b => ?_
    · have hr1 := hr.1
      have hrawlt : if isLong ics.seq = true then raw < 64 else raw < 16 := by
        by_cases h2 : ics.seq = 2
        · have h3 : isLong ics.seq = false := by rw [h2]; rfl
          rw [h3] at hf1 ⊢
          simp only [Bool.false_eq_true, if_false] at hf1 ⊢
          cases same with
          | true =>
            simp only [if_true] at hr1
            omega
          | false =>
            simp only [Bool.false_eq_true, if_false, if_pos h2] at hr1
            exact hr1
        · rw [hlong.mpr h2] at hf1 ⊢
          simp only [if_true] at hf1 ⊢
          cases same with
          | true =>
            simp only [if_true] at hr1
            omega
          | false =>
            simp only [Bool.false_eq_true, if_false, if_neg h2] at hr1
            exact hr1
      have hcut : (c.igf && !c.independent) = decide (c.igf = true ∧ c.independent = false) := by
        cases c.igf <;> cases c.independent <;> rfl
      have hcut2 : (!c.independent && c.igf) = decide (c.igf = true ∧ c.independent = false) := by
        cases c.igf <;> cases c.independent <;> rfl
      simp only [hcut, hcut2, decide_eq_true_eq]
      obtain ⟨ste, hste⟩ : ∃ ste, ste = (if c.igf = true ∧ c.independent = false then min (max ics.maxSfb raw) (c.igfStart (isLong ics.seq))
        else max ics.maxSfb raw) := ⟨_, rfl⟩
      obtain ⟨clear, hclear⟩ : ∃ clear, clear = (if c.igf = true ∧ c.independent = false then min 136 (c.igfStart (isLong ics.seq)) else 136) :=
        ⟨_, rfl⟩
      have hrr : (if c.bands.num (isLong ics.seq) < raw then c.bands.num (isLong ics.seq) else raw) = min raw (c.bands.num (isLong ics.seq)) := by
        by_cases h : c.bands.num (isLong ics.seq) < raw
        · rw [if_pos h]; omega
        · rw [if_neg h]; omega
      rw [← hste, ← hclear, hrr]
      have hmaxlt : if isLong ics.seq = true then max ics.maxSfb raw < 64 else max ics.maxSfb raw < 16 := by
        cases hh : isLong ics.seq with
        | true =>
          rw [hh] at hf1 hrawlt
          simp only [if_true] at hf1 hrawlt ⊢
          omega
        | false =>
          rw [hh] at hf1 hrawlt
          simp only [Bool.false_eq_true, if_false] at hf1 hrawlt ⊢
          omega
      have hstele : ste ≤ max ics.maxSfb raw := by
        rw [hste]
        split <;> omega
      have hn : ste ≤ clear := by
        have : max ics.maxSfb raw < 64 := by
          cases hh : isLong ics.seq <;> rw [hh] at hmaxlt <;> simp at hmaxlt <;> omega
        rw [hste, hclear]
        split <;> omega
      have hc : clear ≤ prev.length := by
        rw [hclear, hp]
        split <;> omega
      have hsize := C182_size rate (isLong ics.seq) ics.ends.length ste (by
        cases hh : isLong ics.seq with
        | true =>
          rw [hh] at hf1 hmaxlt
          simp only [if_true] at hf1 hmaxlt ⊢
          omega
        | false =>
          rw [hh] at hf1 hmaxlt
          simp only [Bool.false_eq_true, if_false] at hf1 hmaxlt ⊢
          omega)
      rw [← hb, ← hm] at hsize
      have higf : Reads (if c.igf = true ∧ c.independent = false then igfMask ics else pure 0)
          (fun v b => if c.igf = true ∧ c.independent = false then R ics v b else v = 0 ∧ b = []) :=
        Reads.ite (fun _ => hR ics) fun _ => Reads.pure 0
      refine ((C182_stereo s.indep (c.bands.num (isLong ics.seq)) ics.ends.length ste clear s.ms prev hn hc hsize).bind
        (S := fun y (x : Common × List (Int × Int)) b => x.2 = y.2 ∧ ¬ ((c.enf.headD false || s.filling) = true ∧ y.1.complex = true) ∧
          x.1 = ⟨ics, min raw (c.bands.num (isLong ics.seq)), ste, y.1, x.1.igfMask⟩ ∧
          (if c.igf = true ∧ c.independent = false then R ics x.1.igfMask b else x.1.igfMask = 0 ∧ b = []))
        fun y _ _ => ?_).congr fun x b => ?_
      · obtain ⟨st, prev'⟩ := y
        by_cases h : ((c.enf.headD false || s.filling) && st.complex) = true
        · rw [if_pos h]
          refine (Reads.fail _).congr fun x b => ⟨False.elim, fun hx => hx.2.1 ?_⟩
          simpa using h
        · rw [if_neg h]
          refine (higf.bind fun m _ _ => Reads.pure _).congr fun x b => ?_
          have h' : ¬ ((c.enf.headD false || s.filling) = true ∧ st.complex = true) := by simpa using h
          constructor
          · rintro ⟨m, b1, _, h1, ⟨rfl, rfl⟩, rfl⟩
            refine ⟨rfl, h', rfl, ?_⟩
            rw [List.append_nil]
            exact h1
          · rintro ⟨h1, -, h3, h4⟩
            obtain ⟨x1, x2⟩ := x
            simp only at h1 h3 h4
            refine ⟨x1.igfMask, b, [], h4, ⟨?_, rfl⟩, by simp⟩
            rw [h1, h3]
      · constructor
        · rintro ⟨y, b1, b2, h1, ⟨h2, h3, h4, h5⟩, rfl⟩
          have e : x.1.stereo = y.1 := by rw [h4]
          have e2 : x.1.maxSte = ste := by rw [h4]
          refine ⟨by rw [h4], b1, b2, by rw [h4], e2, ?_, by rw [e]; exact h3, h5, rfl⟩
          rw [e, e2, h2]
          exact h1
        · rintro ⟨h0, b1, b2, h1, h2, h3, h4, h5, rfl⟩
          refine ⟨(x.1.stereo, x.2), b1, b2, by rw [← h2]; exact h3, ⟨rfl, h4, ?_, h5⟩, rfl⟩
          obtain ⟨⟨a1, a2, a3, a4, a5⟩, a6⟩ := x
          simp only at h0 h1 h2 ⊢
          rw [h0, h1, h2]
    · constructor
      · rintro ⟨same, _, _, rfl, ⟨raw, _, _, ⟨h1, rfl⟩, ⟨h2, bs, bi, h3, h4, h5, h6, h7, rfl⟩, rfl⟩, rfl⟩
        exact ⟨h2, bs, bi, raw, same, h1, h3, h4, h5, h6, h7, by simp⟩
      · rintro ⟨h2, bs, bi, raw, same, h1, h3, h4, h5, h6, h7, rfl⟩
        exact ⟨same, [same], _, rfl, ⟨raw, _, _, ⟨h1, rfl⟩, ⟨h2, bs, bi, h3, h4, h5, h6, h7, rfl⟩, rfl⟩, by simp⟩
  · unfold CommonCode
    constructor
    · rintro ⟨ics, b1, _, h1, ⟨rfl, bs, bi, raw, same, h2, h3, h4, h5, h6, h7, rfl⟩, rfl⟩
      exact ⟨b1, bs, bi, raw, same, h1, h2, h3, h4, h5, h6, h7, by simp⟩
    · rintro ⟨b1, bs, bi, raw, same, h1, h2, h3, h4, h5, h6, h7, rfl⟩
      exact ⟨_, b1, _, h1, ⟨rfl, bs, bi, raw, same, h2, h3, h4, h5, h6, h7, rfl⟩, by simp⟩

/-- The windows common noise shaping is read for: those of the first channel of all. -/
def tnsFor (first : Option (Option Bool)) (w : Bool) : Option Bool :=
  match first with
  | some i => i
  | none => some w

theorem tnsData_reads (bands : Bands) (i : Option Bool) :
    Reads (tnsData bands i) (fun d b => ∃ w, i = some w ∧ TnsCode 1 bands w d b) := by
  cases i with
  | none => exact (Reads.fail _).congr fun d b => by simp
  | some w => exact (C180_tns_partial bands w).congr fun d b => by simp

/-- The header of a pair is accepted exactly if it is coded with common noise shaping for the windows of the first channel of all. -/
theorem pair_reads (rate : Nat) (c : Cfg) (s : Past) (igfMask : Ics → Prog Nat)
    (R : Ics → Nat → List Bool → Prop) (hR : ∀ i, Reads (igfMask i) (R i)) (hb : c.bands = bandsAt rate) (hm : s.ms.length = 128)
    (hp : s.prev.length = 136) :
    Reads (pair c s igfMask) (PairCode c s (tnsFor s.first) (c.enf.headD false || s.filling) R) := by
  unfold pair
  have hcom : ∀ cw : Bool, Reads ((if cw = true then do
        let x ← commonWindow c s (if (!cw || s.indep) = true then List.replicate 136 (0, 0) else s.prev) igfMask
        pure (some x.1, x.2)
      else pure (none, if (!cw || s.indep) = true then List.replicate 136 (0, 0) else s.prev) : Prog (Option Common × List (Int × Int))))
      (fun x bc => x.1.isSome = cw ∧ match x.1 with
        | none => x.2 = List.replicate 136 (0, 0) ∧ bc = []
        | some y => CommonCode c s (c.enf.headD false || s.filling) (if s.indep then List.replicate 136 (0, 0) else s.prev) R (y, x.2) bc) := by
    intro cw
    cases cw with
    | false =>
      refine (Reads.pure _).congr fun x b => ?_
      constructor
      · rintro ⟨rfl, rfl⟩
        exact ⟨rfl, rfl, rfl⟩
      · rintro ⟨h1, h2⟩
        obtain ⟨x1, x2⟩ := x
        cases x1 with
        | none =>
          obtain ⟨h3, rfl⟩ := h2
          exact ⟨Prod.ext rfl h3, rfl⟩
        | some y => cases h1
    | true =>
      simp only [if_true, Bool.not_true, Bool.false_or]
      refine ((commonWindow_reads rate c s _ igfMask R hR hb hm (by split <;> simp [hp])).bind fun x _ _ =>
        Reads.pure (some x.1, x.2)).congr fun x b => ?_
      constructor
      · rintro ⟨y, b1, _, h1, ⟨rfl, rfl⟩, rfl⟩
        rw [List.append_nil]
        exact ⟨rfl, h1⟩
      · rintro ⟨h1, h2⟩
        obtain ⟨x1, x2⟩ := x
        cases x1 with
        | none => cases h1
        | some y => exact ⟨(y, x2), b, [], h2, ⟨rfl, rfl⟩, by simp⟩
  have hl : Reads (do
      let cl ← flag
      (if cl = true then (if c.base3b = true then fail badProfile else do
          let l ← ltpf
          pure (some l))
        else pure none : Prog (Option Ltpf))) (fun x bl => match x with
      | none => bl = [false]
      | some l => c.base3b = false ∧ ∃ b', LtpfCode l b' ∧ bl = [true] ++ b') := by
    refine (flag_reads.bind fun cl _ _ => Reads.ite (c := cl = true) (fun _ => Reads.ite (c := c.base3b = true) (fun _ => Reads.fail _) fun _ =>
      ltpf_reads.bind fun l _ _ => Reads.pure (some l)) fun _ => Reads.pure none).congr fun x b => ?_
    constructor
    · rintro ⟨cl, _, b2, rfl, h, rfl⟩
      cases cl with
      | false =>
        simp only [Bool.false_eq_true, if_false] at h
        obtain ⟨rfl, rfl⟩ := h
        rfl
      | true =>
        simp only [if_true] at h
        cases hb3 : c.base3b with
        | true =>
          rw [hb3] at h
          exact h.elim
        | false =>
          rw [hb3] at h
          simp only [Bool.false_eq_true, if_false] at h
          obtain ⟨l, b1, _, h1, ⟨rfl, rfl⟩, rfl⟩ := h
          exact ⟨rfl, b1, h1, by simp⟩
    · intro h
      cases x with
      | none =>
        obtain rfl : b = [false] := h
        exact ⟨false, [false], [], rfl, by simp, rfl⟩
      | some l =>
        obtain ⟨h1, b', h2, rfl⟩ := h
        refine ⟨true, [true], b', rfl, ?_, rfl⟩
        simp only [if_true, h1, Bool.false_eq_true, if_false]
        exact ⟨l, b', [], h2, ⟨rfl, rfl⟩, by simp⟩
  have hon : Reads (if (c.igf && !c.afterTns) = true then pure true else flag)
      (fun v b => if c.igf = true ∧ c.afterTns = false then v = true ∧ b = [] else b = [v]) := by
    have e : ((c.igf && !c.afterTns) = true) = (c.igf = true ∧ c.afterTns = false) := by
      cases c.igf <;> cases c.afterTns <;> simp
    refine (Reads.ite (c := (c.igf && !c.afterTns) = true) (fun _ => Reads.pure true) fun _ => flag_reads).congr fun v b => ?_
    simp only [e]
  refine (flag_reads.bind fun tns _ _ => flag_reads.bind fun cw _ _ => (hcom cw).bind (S := fun com (x : Pair × List (Int × Int)) b =>
      x.2 = com.2 ∧ x.1.common = com.1 ∧ ∃ bl bt, (match x.1.ltpf with
      | none => bl = [false]
      | some l => c.base3b = false ∧ ∃ b', LtpfCode l b' ∧ bl = [true] ++ b') ∧
        PairTns c (tnsFor s.first) (com.1.map fun y => decide (y.ics.seq ≠ 2)) tns x.1.tns x.1.onLr bt ∧ b = bl ++ bt)
      fun com _ hcm => ?_).congr fun x b => ?_
  · have hcw : com.1.isSome = cw := hcm.1
    have htns : ∀ l : Option Ltpf, Reads (if tns = true then do
        let ct ← (if cw = true then flag else pure false)
        let onLr ← (if (c.igf && !c.afterTns) = true then pure true else flag)
        if ct = true then do
          let info := match s.first with
            | some i => i
            | none => com.1.map fun x => isLong x.ics.seq
          let d ← tnsData c.bands info
          pure (⟨com.1, l, .common d, onLr⟩, com.2)
        else do
          let both ← flag
          if both = true then pure (⟨com.1, l, .own true true, onLr⟩, com.2)
          else do
            let r ← flag
            pure (⟨com.1, l, .own (!r) r, onLr⟩, com.2)
      else pure ((⟨com.1, l, .off, true⟩ : Pair), com.2)) (fun x bt => x.2 = com.2 ∧ x.1.common = com.1 ∧ x.1.ltpf = l ∧
        PairTns c (tnsFor s.first) (com.1.map fun y => decide (y.ics.seq ≠ 2)) tns x.1.tns x.1.onLr bt) := by
      intro l
      cases tns with
      | false =>
        simp only [Bool.false_eq_true, if_false]
        refine (Reads.pure _).congr fun x b => ?_
        unfold PairTns
        constructor
        · rintro ⟨rfl, rfl⟩
          refine ⟨rfl, rfl, rfl, if c.igf = true ∧ c.afterTns = false then [] else [true], ?_, rfl, rfl, rfl⟩
          split <;> simp
        · rintro ⟨h1, h2, h3, ob, -, h4⟩
          obtain ⟨⟨a1, a2, a3, a4⟩, a5⟩ := x
          simp only at h1 h2 h3 h4
          subst h1 h2 h3
          cases a3 with
          | off =>
            obtain ⟨-, rfl, rfl⟩ := h4
            exact ⟨rfl, rfl⟩
          | common d => exact absurd h4.1 (by decide)
          | own a b => exact absurd h4.1 (by decide)
      | true =>
        simp only [if_true]
        have hct : Reads (if cw = true then flag else pure false) (fun v b => if cw then b = [v] else v = false ∧ b = []) :=
          Reads.ite (fun _ => flag_reads) fun _ => Reads.pure false
        refine (hct.bind (S := fun ct (x : Pair × List (Int × Int)) b => ∃ ob b2,
            (if c.igf = true ∧ c.afterTns = false then x.1.onLr = true ∧ ob = [] else ob = [x.1.onLr]) ∧ b = ob ++ b2 ∧
            x.2 = com.2 ∧ x.1.common = com.1 ∧ x.1.ltpf = l ∧
            if ct then ∃ d w, x.1.tns = .common d ∧ (com.1.map fun y => decide (y.ics.seq ≠ 2)).bind (tnsFor s.first) = some w ∧
              TnsCode 1 c.bands w d b2
            else ∃ a r, x.1.tns = .own a r ∧ (a = true ∨ r = true) ∧ b2 = if a && r then [true] else [false, r]) fun ct _ hct' => ?_).congr
            fun x b => ?_
        · refine (hon.bind (S := fun onLr (x : Pair × List (Int × Int)) b => x.1.onLr = onLr ∧
              x.2 = com.2 ∧ x.1.common = com.1 ∧ x.1.ltpf = l ∧
            if ct then ∃ d w, x.1.tns = .common d ∧ (com.1.map fun y => decide (y.ics.seq ≠ 2)).bind (tnsFor s.first) = some w ∧
              TnsCode 1 c.bands w d b
            else ∃ a r, x.1.tns = .own a r ∧ (a = true ∨ r = true) ∧ b = if a && r then [true] else [false, r]) fun onLr _ _ => ?_).congr
            fun x b => ?_
          · cases ct with
            | true =>
              simp only [if_true]
              have hcwt : cw = true := by
                cases cw with
                | true => rfl
                | false =>
                  simp only [Bool.false_eq_true, if_false] at hct'
                  exact absurd hct'.1 (by decide)
              obtain ⟨y, hy⟩ := Option.isSome_iff_exists.mp (hcw.trans hcwt)
              have hinfo : (match s.first with
                  | some i => i
                  | none => com.1.map fun x => isLong x.ics.seq) = (com.1.map fun y => decide (y.ics.seq ≠ 2)).bind (tnsFor s.first) := by
                rw [hy]
                unfold tnsFor
                cases s.first <;> rfl
              rw [hinfo]
              refine ((tnsData_reads c.bands _).bind fun d _ _ => Reads.pure _).congr fun x b => ?_
              constructor
              · rintro ⟨d, b1, _, ⟨w, h1, h2⟩, ⟨rfl, rfl⟩, rfl⟩
                rw [List.append_nil]
                exact ⟨rfl, rfl, rfl, rfl, d, w, rfl, h1, h2⟩
              · rintro ⟨h1, h2, h3, h4, d, w, h5, h6, h7⟩
                obtain ⟨⟨a1, a2, a3, a4⟩, a5⟩ := x
                simp only at h1 h2 h3 h4 h5
                subst h1 h2 h3 h4 h5
                exact ⟨d, b, [], ⟨w, h6, h7⟩, ⟨rfl, rfl⟩, by simp⟩
            | false =>
              simp only [Bool.false_eq_true, if_false]
              refine (flag_reads.bind fun both _ _ => Reads.ite (c := both = true) (fun _ => Reads.pure _) fun _ => flag_reads.bind fun r _ _ =>
                Reads.pure _).congr fun x b => ?_
              constructor
              · rintro ⟨both, _, b2, rfl, h, rfl⟩
                cases both with
                | true =>
                  simp only [if_true] at h
                  obtain ⟨rfl, rfl⟩ := h
                  exact ⟨rfl, rfl, rfl, rfl, true, true, rfl, by simp, rfl⟩
                | false =>
                  simp only [Bool.false_eq_true, if_false] at h
                  obtain ⟨r, _, _, rfl, ⟨rfl, rfl⟩, rfl⟩ := h
                  refine ⟨rfl, rfl, rfl, rfl, !r, r, rfl, ?_, ?_⟩ <;> cases r <;> simp
              · rintro ⟨h1, h2, h3, h4, a, r, h5, h6, rfl⟩
                obtain ⟨⟨a1, a2, a3, a4⟩, a5⟩ := x
                simp only at h1 h2 h3 h4 h5
                subst h1 h2 h3 h4 h5
                cases a <;> cases r
                · simp at h6
                · exact ⟨false, [false], [true], rfl, by simp, rfl⟩
                · exact ⟨false, [false], [false], rfl, by simp, rfl⟩
                · exact ⟨true, [true], [], rfl, by simp, rfl⟩
          · constructor
            · rintro ⟨onLr, ob, b2, h1, ⟨rfl, h2, h3, h4, h5⟩, rfl⟩
              exact ⟨ob, b2, h1, rfl, h2, h3, h4, h5⟩
            · rintro ⟨ob, b2, h1, rfl, h2, h3, h4, h5⟩
              exact ⟨x.1.onLr, ob, b2, h1, ⟨rfl, h2, h3, h4, h5⟩, rfl⟩
        · unfold PairTns
          have hwin : (com.1.map fun y => decide (y.ics.seq ≠ 2)).isSome = cw := by rw [Option.isSome_map]; exact hcw
          constructor
          · rintro ⟨ct, b1, _, h1, ⟨ob, b2, h2, rfl, h3, h4, h5, h6⟩, rfl⟩
            refine ⟨h3, h4, h5, ob, h2, ?_⟩
            cases ct with
            | true =>
              simp only [if_true] at h6
              obtain ⟨d, w, h7, h8, h9⟩ := h6
              rw [h7]
              cases cw with
              | true =>
                simp only [if_true] at h1
                subst h1
                exact ⟨rfl, w, b2, h8, h9, by simp⟩
              | false =>
                simp only [Bool.false_eq_true, if_false] at h1
                exact absurd h1.1 (by decide)
            | false =>
              simp only [Bool.false_eq_true, if_false] at h6
              obtain ⟨a, r, h7, h8, rfl⟩ := h6
              rw [h7]
              refine ⟨rfl, h8, ?_⟩
              rw [hwin]
              cases cw with
              | true =>
                simp only [if_true] at h1
                subst h1
                simp
              | false =>
                simp only [Bool.false_eq_true, if_false] at h1
                obtain ⟨-, rfl⟩ := h1
                simp
          · rintro ⟨h3, h4, h5, ob, h2, h6⟩
            cases hx : x.1.tns with
            | off =>
              rw [hx] at h6
              exact absurd h6.1 (by decide)
            | common d =>
              rw [hx] at h6
              obtain ⟨-, w, b2, h8, h9, rfl⟩ := h6
              have hcwt : cw = true := by
                rw [← hwin]
                cases hc' : (com.1.map fun y => decide (y.ics.seq ≠ 2)) with
                | none =>
                  rw [hc'] at h8
                  cases h8
                | some v => rfl
              subst hcwt
              exact ⟨true, [true], ob ++ b2, by simp, ⟨ob, b2, h2, rfl, h3, h4, h5, by simp only [if_true]; exact ⟨d, w, rfl, h8, h9⟩⟩, by simp⟩
            | own a r =>
              rw [hx] at h6
              obtain ⟨-, h8, rfl⟩ := h6
              rw [hwin]
              refine ⟨false, if cw = true then [false] else [], ob ++ (if (a && r) = true then [true] else [false, r]), ?_, ⟨ob, _, h2, rfl, h3, h4, h5, ?_⟩, by simp⟩
              · cases cw <;> simp
              · simp only [Bool.false_eq_true, if_false]
                exact ⟨a, r, rfl, h8, rfl⟩
    have hassoc : ∀ (k : Option Ltpf → Prog (Pair × List (Int × Int))), (do
        let cl ← flag
        let l ← ((if cl = true then (if c.base3b = true then fail badProfile else do
            let l ← ltpf
            pure (some l))
          else pure none : Prog (Option Ltpf)))
        k l) = ((do
        let cl ← flag
        (if cl = true then (if c.base3b = true then fail badProfile else do
            let l ← ltpf
            pure (some l))
          else pure none : Prog (Option Ltpf))) >>= k) := by
      intro k
      rfl
    refine (show Reads _ _ from (hassoc _).symm ▸ hl.bind fun l _ _ => htns l).congr fun x b => ?_
    constructor
    · rintro ⟨l, bl, bt, h1, ⟨h2, h3, h4, h5⟩, rfl⟩
      exact ⟨h2, h3, bl, bt, by rw [h4]; exact h1, h5, rfl⟩
    · rintro ⟨h2, h3, bl, bt, h1, h5, rfl⟩
      exact ⟨x.1.ltpf, bl, bt, h1, ⟨h2, h3, rfl, h5⟩, rfl⟩
  · unfold PairCode
    constructor
    · rintro ⟨tns, _, _, rfl, ⟨cw, _, _, rfl, ⟨com, bc, _, ⟨h1, h2⟩, ⟨h3, h4, bl, bt, h5, h6, rfl⟩, rfl⟩, rfl⟩, rfl⟩
      refine ⟨tns, bc, bl, bt, ?_, h5, by rw [h4]; exact h6, by rw [h4, h1]; simp⟩
      rw [h4, h3]
      exact h2
    · rintro ⟨tns, bc, bl, bt, h1, h2, h3, rfl⟩
      exact ⟨tns, [tns], _, rfl, ⟨x.1.common.isSome, [x.1.common.isSome], _, rfl, ⟨(x.1.common, x.2), bc, _, ⟨rfl, h1⟩,
        ⟨rfl, rfl, bl, bt, h2, h3, rfl⟩, rfl⟩, rfl⟩, by simp⟩

/-! ## C181: common noise shaping -/

/-- C181 (partial): the header of the first pair is accepted exactly if it is coded, with common noise shaping for its own windows.  Missing: other
pairs. -/
theorem C181_pair_partial (rate : Nat) (c : Cfg) (s : Past) (igfMask : Ics → Prog Nat)
    (R : Ics → Nat → List Bool → Prop) (hR : ∀ i, Reads (igfMask i) (R i)) (hb : c.bands = bandsAt rate) (hm : s.ms.length = 128)
    (hp : s.prev.length = 136) (hf : s.first = none) :
    Reads (pair c s igfMask) (PairCode c s some (c.enf.headD false || s.filling) R) := by
  have h := pair_reads rate c s igfMask R hR hb hm hp
  rw [show tnsFor s.first = some from by rw [hf]; rfl] at h
  exact h

/-- C181 (partial), other pairs: the header is accepted exactly if it is coded, if the first channel of all has windows of the same length as the
pair. -/
theorem C181_same_partial (rate : Nat) (c : Cfg) (s : Past) (igfMask : Ics → Prog Nat)
    (R : Ics → Nat → List Bool → Prop) (hR : ∀ i, Reads (igfMask i) (R i)) (hb : c.bands = bandsAt rate) (hm : s.ms.length = 128)
    (hp : s.prev.length = 136) (w : Bool) (hf : s.first = some (some w)) (x : Pair) (hx : ∀ y, x.common = some y → w = decide (y.ics.seq ≠ 2))
    (prev : List (Int × Int)) (b rest : List Bool) :
    run (pair c s igfMask) (b ++ rest) = .ok ((x, prev), rest) ↔ PairCode c s some (c.enf.headD false || s.filling) R (x, prev) b := by
  have h := pair_reads rate c s igfMask R hR hb hm hp
  have h2 := h (b ++ rest) (x, prev) rest
  have e : PairCode c s (tnsFor s.first) (c.enf.headD false || s.filling) R (x, prev) b ↔
      PairCode c s some (c.enf.headD false || s.filling) R (x, prev) b := by
    unfold PairCode PairTns
    have : (x.common.map fun y => decide (y.ics.seq ≠ 2)).bind (tnsFor s.first) = (x.common.map fun y => decide (y.ics.seq ≠ 2)).bind some := by
      cases hc : x.common with
      | none => rfl
      | some y =>
        show tnsFor s.first (decide (y.ics.seq ≠ 2)) = some (decide (y.ics.seq ≠ 2))
        rw [hf, ← hx y hc]
        rfl
    simp only [this]
  rw [h2]
  constructor
  · rintro ⟨b', h3, h4⟩
    rw [← List.append_cancel_right h4] at h3
    exact e.mp h3
  · intro h3
    exact ⟨b, e.mpr h3, rfl⟩

/-- A configuration at 48 kHz without gap filling. -/
def wCfg (enf : List Bool) (elem : Nat) : Cfg := ⟨bandsAt 48000, false, false, false, false, fun _ => 0, enf, elem⟩

/-- The state before an independent frame. -/
def wPast (filling : Bool) (first : Option (Option Bool)) : Past :=
  ⟨true, 0, List.replicate 136 (0, 0), List.replicate 128 0, filling, first⟩

/-- A pair with a long window, two bands and common noise shaping with one filter for bands 45 to 48. -/
def wTns : Pair :=
  ⟨some ⟨⟨0, 0, 2, [1]⟩, 2, 2, .none, 0⟩, none, .common [⟨3, [⟨45, 49, 1, [3]⟩]⟩], true⟩

/-- Its code. -/
def wTnsBits : List Bool :=
  [true, true] ++ ([false, false] ++ [false] ++ natBits 6 2 ++ [true] ++ [false, false]) ++ [false] ++
    ([true] ++ [true] ++ (natBits 2 1 ++ [false] ++ natBits 6 4 ++ natBits 4 1 ++ [true, false] ++ natBits 3 3))

/-- C181 (refuted): a correctly coded pair of long windows is not decoded to what was coded, whatever follows, if the first channel of all has short
windows; and it is an error, if the first channel of all has no windows (linear prediction). -/
theorem C181_refuted :
    PairCode (wCfg [false, false] 1) (wPast false (some (some false))) some false (fun _ _ _ => False)
      (wTns, List.replicate 136 (0, 0)) wTnsBits ∧
    (∀ rest, run (pair (wCfg [false, false] 1) (wPast false (some (some false))) fun _ => fail noInfo) (wTnsBits ++ rest) ≠
      .ok ((wTns, List.replicate 136 (0, 0)), rest)) ∧
    run (pair (wCfg [false, false] 1) (wPast false (some none)) fun _ => fail noInfo) wTnsBits = .err noInfo := by
  have hR : ∀ _ : Ics, Reads (fail noInfo : Prog Nat) (fun _ _ => False) := fun _ => Reads.fail _
  have h1 := C181_pair_partial 48000 (wCfg [false, false] 1) (wPast false none) (fun _ => fail noInfo) _ hR rfl (List.length_replicate ..) (List.length_replicate ..) rfl
  have h2 := pair_reads 48000 (wCfg [false, false] 1) (wPast false (some (some false))) (fun _ => fail noInfo) _ hR rfl (List.length_replicate ..)
    (List.length_replicate ..)
  refine ⟨?_, fun rest h => ?_, by decide +kernel⟩
  · have h3 : run (pair (wCfg [false, false] 1) (wPast false none) fun _ => fail noInfo) wTnsBits =
        .ok ((wTns, List.replicate 136 (0, 0)), []) := by decide +kernel
    obtain ⟨b, h4, h5⟩ := (h1 _ _ _).mp h3
    rw [List.append_nil] at h5
    rw [h5]
    exact h4
  · obtain ⟨b, h4, h5⟩ := (h2 _ _ _).mp h
    have h6 := (h2 (wTnsBits ++ []) (wTns, List.replicate 136 (0, 0)) []).mpr ⟨b, h4, by rw [List.append_cancel_right h5]⟩
    have h7 : run (pair (wCfg [false, false] 1) (wPast false (some (some false))) fun _ => fail noInfo) (wTnsBits ++ []) = .jump := by
      decide +kernel
    rw [h7] at h6
    cases h6

example : (wPast false none).first = none ∧
    run (pair (wCfg [false] 0) (wPast false none) fun _ => fail noInfo) wTnsBits = .ok ((wTns, List.replicate 136 (0, 0)), []) :=
  ⟨rfl, by decide +kernel⟩

example : ∀ y, wTns.common = some y → true = decide (y.ics.seq ≠ 2) := by
  intro y h
  cases h
  rfl

/-! ## C184: where the imaginary part is forbidden -/

/-- C184 (partial): in the first element, after a frame without stereo filling, a pair whose stereo prediction uses the imaginary part is refused exactly
if its gap filling uses independent noise filling.  Missing: other elements and frames after stereo filling. -/
theorem C184_complex_partial (rate : Nat) (c : Cfg) (s : Past) (igfMask : Ics → Prog Nat)
    (R : Ics → Nat → List Bool → Prop) (hR : ∀ i, Reads (igfMask i) (R i)) (hb : c.bands = bandsAt rate) (hm : s.ms.length = 128)
    (hp : s.prev.length = 136) (hf : s.first = none) (he : c.elem = 0) (hs : s.filling = false) :
    Reads (pair c s igfMask) (PairCode c s some (c.enf.getD c.elem false) R) := by
  have h := C181_pair_partial rate c s igfMask R hR hb hm hp hf
  rw [hs, Bool.or_false, show c.enf.headD false = c.enf.getD c.elem false from by rw [he]; cases c.enf <;> rfl] at h
  exact h

/-- A pair with prediction of both parts in one pair of bands. -/
def wComplex : Pair :=
  ⟨some ⟨⟨0, 0, 2, [1]⟩, 2, 2, .pred ⟨[[true, true]], false, true, false, [[(0, 0), (0, 0)]]⟩, 0⟩, none, .off, true⟩

/-- Its code. -/
def wComplexBits : List Bool :=
  [false, true] ++ ([false, false] ++ [false] ++ natBits 6 2 ++ [true] ++ [true, true] ++ [true, false, true] ++ [false, false]) ++ [false]

/-- C184 (refuted): the imaginary part is accepted in an element whose gap filling uses independent noise filling, if the first element does not; it is
refused in an element that does not, if the first one does; and it is refused in a frame after one with stereo filling. -/
theorem C184_refuted :
    run (pair (wCfg [false, true] 1) (wPast false none) fun _ => fail noInfo) wComplexBits =
      .ok ((wComplex, List.replicate 136 (0, 0)), []) ∧
    run (pair (wCfg [true, false] 1) (wPast false none) fun _ => fail noInfo) wComplexBits = .err noComplex ∧
    run (pair (wCfg [false] 0) (wPast true none) fun _ => fail noInfo) wComplexBits = .err noComplex ∧
    (∀ c ∈ [(wCfg [true, false] 1, wPast false none), (wCfg [false] 0, wPast true none)],
      PairCode c.1 c.2 some (c.1.enf.getD c.1.elem false) (fun _ _ _ => False) (wComplex, List.replicate 136 (0, 0)) wComplexBits) ∧
    ¬ PairCode (wCfg [false, true] 1) (wPast false none) some ((wCfg [false, true] 1).enf.getD 1 false) (fun _ _ _ => False)
      (wComplex, List.replicate 136 (0, 0)) wComplexBits := by
  have hR : ∀ _ : Ics, Reads (fail noInfo : Prog Nat) (fun _ _ => False) := fun _ => Reads.fail _
  have h1 := C181_pair_partial 48000 (wCfg [false] 0) (wPast false none) (fun _ => fail noInfo) _ hR rfl (List.length_replicate ..) (List.length_replicate ..) rfl
  have h3 : run (pair (wCfg [false] 0) (wPast false none) fun _ => fail noInfo) wComplexBits =
      .ok ((wComplex, List.replicate 136 (0, 0)), []) := by decide +kernel
  obtain ⟨b, h4, h5⟩ := (h1 _ _ _).mp h3
  rw [List.append_nil] at h5
  subst h5
  refine ⟨by decide +kernel, by decide +kernel, by decide +kernel, ?_, ?_⟩
  · intro c hc
    simp only [List.mem_cons, List.not_mem_nil, or_false] at hc
    rcases hc with rfl | rfl
    · exact h4
    · exact h4
  · rintro ⟨on, bc, bl, bt, h6, -⟩
    obtain ⟨_, _, _, _, _, -, -, -, -, -, h7, -⟩ := h6
    exact h7 ⟨rfl, rfl⟩

example : (wCfg [true, false] 0).elem = 0 ∧ (wPast false none).filling = false ∧
    run (pair (wCfg [true, false] 0) (wPast false none) fun _ => fail noInfo) wComplexBits = .err noComplex :=
  ⟨rfl, rfl, by decide +kernel⟩

/-! ## C185: the number of bands of the right channel -/

/-- C185 (partial): in an accepted pair neither channel has more bands than its windows have, and if the right one has fewer, neither has the stereo
data. -/
theorem C185_bands_partial (rate : Nat) (c : Cfg) (s : Past) (igfMask : Ics → Prog Nat)
    (R : Ics → Nat → List Bool → Prop) (hR : ∀ i, Reads (igfMask i) (R i)) (hb : c.bands = bandsAt rate) (hm : s.ms.length = 128)
    (hp : s.prev.length = 136) (l rest : List Bool) (x : Pair) (prev : List (Int × Int)) (y : Common)
    (h : run (pair c s igfMask) l = .ok ((x, prev), rest)) (hy : x.common = some y) :
    y.ics.maxSfb ≤ c.bands.num (isLong y.ics.seq) ∧ y.right ≤ c.bands.num (isLong y.ics.seq) ∧ y.maxSte ≤ 63 ∧
    (y.right < c.bands.num (isLong y.ics.seq) → y.maxSte ≤ c.bands.num (isLong y.ics.seq)) := by
  obtain ⟨b, ⟨on, bc, bl, bt, h1, -, -, -⟩, -⟩ := (pair_reads rate c s igfMask R hR hb hm hp _ _ _).mp h
  simp only [hy] at h1
  obtain ⟨b1, bs, bi, raw, same, h2, h3, h4, h5, -⟩ := h1
  have e : decide (y.ics.seq ≠ 2) = isLong y.ics.seq := rfl
  simp only [e] at h4 h5
  obtain ⟨k, -, -, h6⟩ := h2
  have hmax : y.ics.maxSfb ≤ c.bands.num (isLong y.ics.seq) ∧ y.ics.maxSfb < 64 := by
    rcases h6 with ⟨h7, h8, h9, -⟩ | ⟨h7, h8, h9, -⟩
    · rw [h7]
      exact ⟨h8, Nat.lt_of_lt_of_le h9 (by decide)⟩
    · rw [← e, decide_eq_true h7]
      exact ⟨h8, h9⟩
  have hraw : raw < 64 := by
    cases same with
    | true =>
      simp only [if_true] at h3
      omega
    | false =>
      simp only [Bool.false_eq_true, if_false] at h3
      split at h3 <;> omega
  refine ⟨hmax.1, by rw [h4]; exact Nat.min_le_right _ _, ?_, fun h9 => ?_⟩
  · rw [h5]
    split <;> omega
  · rw [h5]
    split <;> omega

/-- C185 (refuted): 60 bands of the right channel are accepted at 48 kHz, where a long window has 49, and the stereo data has 60 bands; the same number
is an error for the left channel. -/
theorem C185_refuted :
    (bandsAt 48000).num true = 49 ∧
    (∃ x, run (pair (wCfg [false] 0) (wPast false none) fun _ => fail noInfo)
      ([false, true] ++ ([false, false] ++ [false] ++ natBits 6 2 ++ [false] ++ natBits 6 60 ++ [false, false]) ++ [false]) = .ok (x, []) ∧
      x.1.common.map (fun y => (y.ics.seq, y.right, y.maxSte)) = some (0, 49, 60)) ∧
    run (pair (wCfg [false] 0) (wPast false none) fun _ => fail noInfo)
      ([false, true] ++ ([false, false] ++ [false] ++ natBits 6 60 ++ [true] ++ [false, false]) ++ [false]) = .err badMaxSfb := by
  refine ⟨by decide +kernel, ⟨(⟨some ⟨⟨0, 0, 2, [1]⟩, 49, 60, .none, 0⟩, none, .off, true⟩, List.replicate 136 (0, 0)), by decide +kernel, rfl⟩,
    by decide +kernel⟩

example : run (pair (wCfg [false] 0) (wPast false none) fun _ => fail noInfo) wTnsBits = .ok ((wTns, List.replicate 136 (0, 0)), []) ∧
    wTns.common = some ⟨⟨0, 0, 2, [1]⟩, 2, 2, .none, 0⟩ := ⟨by decide +kernel, rfl⟩

end Verif.Fd
