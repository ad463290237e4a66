import Verif.Props.FdStream
import Verif.Props.Scf
import Verif.Props.FdPair

/-! # Coded channels (C206, C207) -/

namespace Verif.FdStream

open Prog
open Fd (Bands Ics bandsAt isLong)
open Spectral ArithCode
open Arith (tables)

/-! ## Scale factors if no bands are coded -/

theorem rowP_empty (books : List Nat) (bands wins g : Nat) (first : Bool) (hb : Scf.BooksOk books bands wins 0) (hg : g < wins)
    (factor : Int) (r : List Bool) : ∀ (n b : Nat), (b ≠ 0 ∨ first = false) → b + n ≤ bands →
      run (Scf.rowP books (16 * g) first n b factor) r = .ok ((List.replicate n 0, factor), r)
  | 0, b, _, _ => rfl
  | n + 1, b, hf, hn => by
    rw [Scf.rowP, run_bind, hb g hg b (by omega), run_lift _ _ (by simp), Res.ok_bind]
    simp only [Res.ok_bind]
    rw [if_neg (by rintro ⟨h, h'⟩; rcases hf with hf | hf; exact hf h; simp [hf] at h'), if_neg (show ¬ b < 0 by omega), if_pos rfl, run_bind,
      rowP_empty books bands wins g first hb hg factor r n (b + 1) (.inl (by omega)) (by omega), Res.ok_bind]
    simp [List.replicate_succ]

theorem rowsP_empty (books : List Nat) (bands wins : Nat) (hb : Scf.BooksOk books bands wins 0) (factor : Int) (r : List Bool) :
    ∀ (lens : List Nat) (start : Nat), (∀ n ∈ lens, 1 ≤ n) → start + lens.sum = wins →
      run (Scf.rowsP books bands wins (Scf.groupEnds start lens) start false factor) r =
        .ok (Scf.stored bands lens (List.replicate lens.length []), r)
  | [], start, _, hs => by
    unfold Scf.rowsP
    rw [if_pos (by simpa using Nat.le_of_eq hs.symm)]
    rfl
  | n :: lens, start, hn, hs => by
    have hn1 := hn n (by simp)
    rw [List.sum_cons] at hs
    unfold Scf.rowsP
    rw [if_neg (by omega), Scf.groupEnds]
    simp only [run_bind]
    rw [rowP_empty books bands wins start false hb (by omega) factor r bands 0 (.inr rfl) (by omega)]
    simp only [Res.ok_bind]
    rw [rowsP_empty books bands wins hb factor r lens (start + n) (fun m hm => hn m (by simp [hm])) (by omega)]
    simp only [Res.ok_bind, run_pure, Scf.stored, List.length_cons, List.replicate_succ, Nat.add_sub_cancel_left, List.nil_append,
      List.length_nil, Nat.sub_zero]

theorem sectionP_empty (gain bands wins : Nat) (lens : List Nat) (hg : Scf.Grouping bands wins lens) (h0 : lens ≠ []) (hb0 : 1 ≤ bands)
    (hgain : gain ≤ 255) (r : List Bool) :
    run (Scf.sectionP gain bands wins 0 (Scf.groupEnds 0 lens)) r =
      .ok (Scf.stored bands lens ([(gain : Int)] :: List.replicate (lens.length - 1) []), r) := by
  obtain ⟨books, hb, hbo⟩ := Scf.books_grouping hg (Nat.zero_le _)
  obtain ⟨hpos, hsum, _⟩ := hg
  rw [Scf.sectionP, run_bind, hb, run_lift _ _ (by simp), Res.ok_bind]
  simp only [Res.ok_bind]
  match lens, h0 with
  | n :: lens, _ =>
    have hn1 := hpos n (by simp)
    rw [List.sum_cons] at hsum
    unfold Scf.rowsP
    rw [if_neg (by omega), Scf.groupEnds]
    simp only [run_bind]
    have hfirst : run (Scf.rowP books (16 * 0) true bands 0 gain) r =
        .ok (((gain : Int) :: List.replicate (bands - 1) 0, (gain : Int)), r) := by
      rw [show bands = (bands - 1) + 1 by omega, Scf.rowP, run_bind, hbo 0 (by omega) 0 (by omega), run_lift _ _ (by simp), Res.ok_bind]
      simp only [Res.ok_bind]
      rw [if_pos (by simp), if_neg (by omega), run_bind]
      rw [rowP_empty books bands wins 0 true hbo (by omega) gain r (bands - 1) (0 + 1) (.inl (by omega)) (by omega)]
      simp only [Res.ok_bind, run_pure, show bands - 1 + 1 - 1 = bands - 1 by omega]
    rw [hfirst]
    simp only [Res.ok_bind]
    rw [rowsP_empty books bands wins hbo gain r lens (0 + n) (fun m hm => hpos m (by simp [hm])) (by omega)]
    simp only [Res.ok_bind, run_pure, Scf.stored, List.length_cons, List.length_nil, Nat.zero_add, Nat.sub_zero, List.cons_append, List.nil_append,
      Nat.add_sub_cancel]

/-! ## Windows -/

theorem winOk_of_ics {bands : Bands} {last : Nat} {i : Ics} {b : List Bool} (h : Fd.IcsCode bands last i b) : WinOk bands i := by
  obtain ⟨c, _, _, ⟨h1, h2, _, lens, h3, h4, _⟩ | ⟨h1, h2, _, h4, _⟩⟩ := h
  · exact .inl ⟨h1, h2, lens, h3, h4⟩
  · exact .inr ⟨h1, h2, h4⟩

theorem groupEnds_inj : ∀ (a b : List Nat) (s : Nat), Scf.groupEnds s a = Scf.groupEnds s b → a = b
  | [], [], _, _ => rfl
  | [], _ :: _, _, h => by simp [Scf.groupEnds] at h
  | _ :: _, [], _, h => by simp [Scf.groupEnds] at h
  | x :: a, y :: b, s, h => by
    simp only [Scf.groupEnds, List.cons.injEq, Nat.add_left_cancel_iff] at h
    obtain ⟨rfl, h⟩ := h
    rw [groupEnds_inj a b _ h]

theorem factors_ok {rate gain : Nat} {i : Ics} {f : List (List Int)} {b : List Bool} (hw : WinOk (bandsAt rate) i) (hgain : gain < 256)
    (h : FactorsCode ((bandsAt rate).num (isLong i.seq)) gain i.maxSfb i.ends f b) (r : List Bool) :
    run (Scf.sectionP gain ((bandsAt rate).num (isLong i.seq)) (if isLong i.seq then 1 else 8) i.maxSfb i.ends) (b ++ r) = .ok (f, r) := by
  obtain ⟨lens, he, h⟩ := h
  have hmem := Fd.bandsAt_mem rate
  have hs := Fd.short_ok _ hmem
  have hl := Fd.long_ok _ hmem
  have key : Scf.Grouping ((bandsAt rate).num (isLong i.seq)) (if isLong i.seq then 1 else 8) lens ∧ i.maxSfb ≤ (bandsAt rate).num (isLong i.seq) ∧
      lens ≠ [] ∧ 1 ≤ (bandsAt rate).num (isLong i.seq) := by
    rcases hw with ⟨h1, h2, lens', h3, h4⟩ | ⟨h1, h2, h4⟩
    · have hlong : isLong i.seq = false := by rw [h1]; rfl
      have : lens = lens' := groupEnds_inj _ _ 0 (he.symm.trans h4)
      subst this
      rw [hlong]
      refine ⟨⟨h3.1, h3.2, .inr ⟨rfl, ?_⟩⟩, h2, ?_, ?_⟩
      · have := hs.2.2; change (bandsAt rate).short.length ≤ 16; omega
      · rintro rfl; exact absurd h3.2 (by decide)
      · change 1 ≤ (bandsAt rate).short.length
        have := hs.2.1
        cases hh : (bandsAt rate).short with
        | nil => rw [hh] at this; cases this
        | cons _ _ => simp
    · have hlong : isLong i.seq = true := by simp [isLong, h1]
      have : lens = [1] := groupEnds_inj _ _ 0 (he.symm.trans h4)
      subst this
      rw [hlong]
      refine ⟨⟨by simp, rfl, .inl ⟨rfl, ?_⟩⟩, h2, by simp, ?_⟩
      · have := hl.2.2; change (bandsAt rate).long.length ≤ 128; omega
      · change 1 ≤ (bandsAt rate).long.length
        have := hl.2.1
        cases hh : (bandsAt rate).long with
        | nil => rw [hh] at this; cases this
        | cons _ _ => simp
  obtain ⟨k1, k2, k3, k4⟩ := key
  rw [he]
  rcases h with ⟨h0, rfl, rfl⟩ | ⟨h1, rows, xs, a1, a2, a3, a4, rfl, rfl⟩
  · rw [h0, List.nil_append]
    exact sectionP_empty gain _ _ lens k1 k3 k4 (by omega) r
  · exact Scf.sectionP_coded gain _ _ _ lens rows xs k1 h1 k2 a1 a2 a3 (by omega) a4 r

theorem topLine_ok {rate : Nat} {i : Ics} (hw : WinOk (bandsAt rate) i) :
    topLine (bandsAt rate) i = .ok (topOf (bandsAt rate) i) := by
  unfold topLine topOf
  by_cases h0 : i.maxSfb = 0
  · rw [if_pos h0, if_pos h0]
  rw [if_neg h0, if_neg h0]
  rcases hw with ⟨h1, h2, lens, h3, h4⟩ | ⟨h1, h2, h4⟩
  · have hlong : isLong i.seq = false := by rw [h1]; rfl
    obtain ⟨a1, _, _, a4, _⟩ := Fd.C178_offsets rate lens h3
    match lens, h3 with
    | [], h3 => exact absurd h3.2 (by decide)
    | n :: lens, h3 =>
      have hn := h3.1 n (by simp)
      have := a4 0 (i.maxSfb - 1) (by simp) (by omega)
      simp only [Nat.zero_mul, Nat.zero_add, List.take_zero, List.sum_nil, Nat.mul_zero, List.getElem_cons_zero] at this
      rw [hlong, h4]
      simp only [Bool.false_eq_true, if_false, a1, Res.ok_bind, this, List.head?_cons, if_pos h1]
      rw [if_neg (by omega), Nat.mul_div_cancel _ hn, List.getD_eq_getElem _ _ (by omega)]
  · have hlong : isLong i.seq = true := by simp [isLong, h1]
    rw [hlong, if_pos rfl, if_neg h1, List.getD_eq_getElem _ _ (by omega), List.getElem?_eq_getElem (by omega)]

/-! ## Parts -/

theorem ltpf_ok {base3b : Bool} {l : Fd.Ltpf} {b : List Bool} (h : Fd.LtpfCode l b) (hb : base3b = true → l = none) (r : List Bool) :
    run (ltpf base3b) (b ++ r) = .ok (l, r) := by
  cases hb3 : base3b with
  | true =>
    obtain rfl := hb hb3
    obtain rfl := h
    rfl
  | false =>
    have : ltpf false = Fd.ltpf := by unfold ltpf Fd.ltpf; simp
    rw [this]
    exact Fd.ltpf_reads.run h r

theorem flag_run (v : Bool) (r : List Bool) : run flag (v :: r) = .ok (v, r) := Fd.flag_reads.run (a := v) rfl r

theorem bits_run (w v : Nat) (hw : w ≤ 24) (hv : v < 2 ^ w) (r : List Bool) : run (bits w) (natBits w v ++ r) = .ok (v, r) :=
  (Reads.bits w).run ⟨hw, hv, rfl⟩ r

theorem fdp_ok {base3b : Bool} {x : Option Nat} {b : List Bool} (h : OptByte (!base3b) x b) (r : List Bool) :
    run (fdp base3b) (b ++ r) = .ok (x, r) := by
  unfold fdp
  cases x with
  | none => obtain rfl := h; rw [run_bind, List.cons_append, List.nil_append, flag_run]; rfl
  | some v =>
    obtain ⟨h1, h2, rfl⟩ := h
    have h1 : base3b = false := by simpa using h1
    rw [run_bind, List.append_assoc, List.cons_append, List.nil_append, flag_run, Res.ok_bind, h1]
    simp only [if_true, Bool.false_eq_true, if_false, run_bind]
    rw [bits_run 8 v (by omega) (by omega)]
    rfl

theorem noise_ok {second : Bool} {common : Option Ics} {seq c noise : Nat} {filling : Bool}
    (h : NoiseIs (second && common.isSome) seq c noise filling) : noiseOf second common.isSome seq c = (noise, filling) := by
  unfold NoiseIs at h
  unfold noiseOf
  cases second <;> cases hcs : common.isSome <;> simp only [hcs, Bool.and_true, Bool.and_false, Bool.false_and, Bool.true_and, Bool.false_eq_true, false_or, true_or, if_true, if_false, and_true] at h ⊢ <;>
    split at h <;> rename_i hc <;> obtain ⟨rfl, rfl⟩ := h <;> (try rw [if_pos (by omega)]) <;> (try rw [if_neg (by omega)]) <;>
    simp [Nat.mul_comm]

theorem cancel_ok {long : Bool} {x : Option (Nat × List Int)} {b : List Bool} (h : CancelCode long x b) (r : List Bool) :
    run (fac long) (b ++ r) = .ok (x, r) := by
  unfold fac
  cases x with
  | none => obtain rfl := h; rw [run_bind, List.cons_append, List.nil_append, flag_run]; rfl
  | some v =>
    obtain ⟨g, f⟩ := v
    obtain ⟨h1, b', h2, rfl⟩ := h
    rw [run_bind, List.append_assoc, List.append_assoc, List.cons_append, List.nil_append, flag_run, Res.ok_bind]
    simp only [if_true, run_bind]
    rw [bits_run 7 g (by omega) (by omega), Res.ok_bind]
    have : Reads (Lpd.cancel (if long then 128 else 64) 1 129) (Lpd.FacCode (if long then 16 else 8)) := by
      cases long
      · exact Lpd.cancel_reads (length := 64) (by omega)
      · exact Lpd.cancel_reads (length := 128) (by omega)
    rw [this.run h2]
    rfl

/-- What comes before the spectrum. -/
theorem head_ok {ι : Type} {gap : Ics → Prog ι} {G : Ics → ι → List Bool → Prop} (hG : ∀ i g b r, G i g b → run (gap i) (b ++ r) = .ok (g, r))
    {e : Env} {rate : Nat} (he : e.bands = bandsAt rate) (hcommon : ∀ i, e.common = some i → WinOk e.bands i)
    {h : Head ι} {b1 b2 : List Bool} (hh : HeadCode G e h b1 b2) (r : List Bool) :
    WinOk e.bands h.ics ∧ run (head gap e) (b1 ++ b2 ++ r) =
      if (b2 ++ r).length ≤ 24 ∧ e.full = true then .err frameError else .ok (h, r) := by
  obtain ⟨c, bi, bl, bf, bs, bg, bt, a1, a2, a3, a4, a5, a6, a7, a8, a9, a10, a11, a12, a13, rfl, rfl⟩ := hh
  have hwin : WinOk e.bands h.ics := by
    cases hc : e.common with
    | some i => rw [hc] at a5; rw [a5.1]; exact hcommon i hc
    | none => rw [hc] at a5; exact winOk_of_ics a5
  refine ⟨hwin, ?_⟩
  generalize hB : bl ++ bf ++ (if e.indep then natBits 1 h.prevAlias else []) ++ natBits 1 h.currAlias ++ bs ++ bg ++ bt ++ (if e.indep then [] else [h.reset]) = B
  unfold head
  simp only [List.append_assoc]
  rw [run_bind, bits_run 8 h.gain (by omega) (by omega), Res.ok_bind]
  dsimp only
  rw [run_bind, show run (if e.filling = true then bits 8 else pure 0) ((if e.filling = true then natBits 8 c else []) ++ (bi ++ (B ++ r))) =
      .ok (c, bi ++ (B ++ r)) by
    cases hf : e.filling with
    | true => simp only [if_true]; exact bits_run 8 c (by omega) (by omega) _
    | false => simp only [Bool.false_eq_true, if_false, run_pure, List.nil_append, a3 hf], Res.ok_bind]
  dsimp only
  have hics : run (icsOf e) (bi ++ (B ++ r)) = .ok (h.ics, B ++ r) := by
    unfold icsOf
    cases hc : e.common with
    | some i => rw [hc] at a5; obtain ⟨a5, rfl⟩ := a5; rw [a5]; rfl
    | none => rw [hc] at a5; exact (Fd.C178_windows e.bands e.last).run a5 _
  rw [run_bind, hics, Res.ok_bind, noise_ok a4]
  dsimp only
  have hav : run avail (B ++ r) = .ok ((((B ++ r).length : Nat) : Int), B ++ r) := rfl
  rw [run_bind, hav, Res.ok_bind]
  dsimp only
  by_cases hfull : (B ++ r).length ≤ 24 ∧ e.full = true
  · rw [if_pos hfull, if_pos ⟨by have := hfull.1; omega, hfull.2⟩]; rfl
  rw [if_neg hfull, if_neg (by rintro ⟨x, y⟩; exact hfull ⟨by omega, y⟩)]
  subst hB
  simp only [List.append_assoc]
  rw [run_bind, show ∀ Z, run (if e.commonLtpf = true then pure none else do
      let x ← ltpf e.base3b
      pure (some x)) (bl ++ Z) = .ok (h.ltpf, Z) by
    intro Z
    cases hf : e.commonLtpf with
    | true => rw [hf] at a6; obtain ⟨a6, rfl⟩ := a6; rw [a6]; rfl
    | false =>
      rw [hf] at a6
      obtain ⟨l, a6, a, b⟩ := a6
      simp only [Bool.false_eq_true, if_false, run_bind]
      rw [ltpf_ok a b, a6]; rfl, Res.ok_bind]
  dsimp only
  rw [run_bind, show ∀ Z, run (if (isLong h.ics.seq && !e.indep) = true then fdp e.base3b else pure none) (bf ++ Z) = .ok (h.fdp, Z) by
    intro Z
    by_cases hf : h.ics.seq ≠ 2 ∧ e.indep = false
    · rw [if_pos hf] at a7
      rw [if_pos (by simp [isLong, hf.1, hf.2])]
      exact fdp_ok a7 Z
    · rw [if_neg hf] at a7
      rw [if_neg (by simpa [isLong] using hf), a7.1, a7.2]
      rfl, Res.ok_bind]
  dsimp only
  rw [run_bind, show ∀ Z, run (if e.indep = true then bits 1 else pure e.symmetry) ((if e.indep = true then natBits 1 h.prevAlias else []) ++ Z) = .ok (h.prevAlias, Z) by
    intro Z
    cases hf : e.indep with
    | true => rw [hf] at a8; exact bits_run 1 _ (by omega) a8 Z
    | false => rw [hf] at a8; simp only [Bool.false_eq_true, if_false] at a8; rw [a8]; rfl, Res.ok_bind]
  dsimp only
  rw [run_bind, bits_run 1 _ (by omega) a9, Res.ok_bind]
  dsimp only
  rw [he] at hwin a10 ⊢
  rw [run_bind, factors_ok hwin a1 a10, Res.ok_bind]
  dsimp only
  rw [run_bind, show ∀ Z, run (if e.igf = true then do
        let x ← gap h.ics
        pure (some x)
      else pure none) (bg ++ Z) = .ok (h.gap, Z) by
    intro Z
    cases hf : e.igf with
    | true =>
      rw [hf] at a11
      obtain ⟨g, a11, a⟩ := a11
      simp only [if_true, run_bind]
      rw [hG _ _ _ Z a, a11]; rfl
    | false => rw [hf] at a11; obtain ⟨a11, rfl⟩ := a11; rw [a11]; rfl, Res.ok_bind]
  dsimp only
  rw [run_bind, show ∀ Z, run (if e.tns = 1 then do
        let x ← Fd.tnsData (bandsAt rate) (some (isLong h.ics.seq))
        pure (some x)
      else pure none) (bt ++ Z) = .ok (h.tns, Z) by
    intro Z
    by_cases hf : e.tns = 1
    · rw [if_pos hf] at a12
      obtain ⟨t, a12, a⟩ := a12
      rw [he] at a
      rw [if_pos hf, run_bind, (Fd.C180_tns_partial (bandsAt rate) _).run a, a12]; rfl
    · rw [if_neg hf] at a12
      obtain ⟨a12, rfl⟩ := a12
      rw [if_neg hf, a12]; rfl, Res.ok_bind]
  dsimp only
  rw [run_bind, show ∀ Z, run (if e.indep = true then pure true else flag) ((if e.indep = true then [] else [h.reset]) ++ Z) = .ok (h.reset, Z) by
    intro Z
    cases hf : e.indep with
    | true => rw [a13 hf]; rfl
    | false => exact flag_run _ Z, Res.ok_bind]
  rfl

/-! ## Channels -/

theorem short_top {rate : Nat} {i : Ics} (hw : WinOk (bandsAt rate) i) : topOf (bandsAt rate) i ≤ (if i.seq = 2 then 128 else 1024) := by
  unfold topOf
  by_cases h0 : i.maxSfb = 0
  · rw [if_pos h0]; omega
  rw [if_neg h0]
  have hle : ∀ (l : List Nat) (n k : Nat), (0 :: l).Pairwise (· ≤ ·) → l.getLast? = some n → k < l.length → l.getD k 0 ≤ n := by
    intro l n k h1 h2 h3
    rw [List.getD_eq_getElem _ _ h3]
    have h1 := (List.pairwise_cons.mp h1).2
    rw [List.getLast?_eq_getElem?, List.getElem?_eq_some_iff] at h2
    obtain ⟨h4, rfl⟩ := h2
    by_cases he : k = l.length - 1
    · subst he; exact Nat.le_refl _
    · exact List.pairwise_iff_getElem.mp h1 k (l.length - 1) h3 h4 (by omega)
  rcases hw with ⟨h1, h2, _⟩ | ⟨h1, h2, _⟩
  · obtain ⟨a, b, _⟩ := Fd.short_ok _ (Fd.bandsAt_mem rate)
    rw [if_pos h1, if_pos h1]
    exact hle _ _ _ a b (by omega)
  · obtain ⟨a, b, _⟩ := Fd.long_ok _ (Fd.bandsAt_mem rate)
    rw [if_neg h1, if_neg h1]
    exact hle _ _ _ a b (by omega)

/-- C206: a coded channel is decoded to what was coded, and the context is that of its spectrum.  Missing: numbers of more than 30 bits (C58), less
than 15 bits behind a spectrum (C32), filters from band 0 on (C180), and input that fills the buffer (C207). -/
theorem C206_channel_partial {ι : Type} (fuel : Nat) (hf : 29 ≤ fuel) (gap : Ics → Prog ι) (G : Ics → ι → List Bool → Prop)
    (hG : ∀ i g b r, G i g b → run (gap i) (b ++ r) = .ok (g, r))
    (e : Env) (rate : Nat) (he : e.bands = bandsAt rate) (hcommon : ∀ i, e.common = some i → WinOk e.bands i)
    (h : Head ι) (b1 b2 : List Bool) (hh : HeadCode G e h b1 b2)
    (wins : List (List (Int × Int))) (hwins : wins.length = if h.ics.seq = 2 then 8 else 1)
    (hnum : ∀ vs ∈ wins, vs.length ≤ topOf e.bands h.ics / 2 ∧ ∀ p ∈ vs, p.1.natAbs < 2 ^ 30 ∧ p.2.natAbs < 2 ^ 30)
    (x : Option (Nat × List Int)) (b3 : List Bool) (hx : CancelCode (decide (h.ics.seq ≠ 2)) x b3)
    (s : Ctx) (ws : List Nat) (hs : h.reset = false → Holds s ws) (tail : List Bool) (ht : 15 ≤ (b3 ++ tail).length)
    (hfull : e.full = true → 24 < (b3 ++ tail).length) :
    ∃ s', channel fuel gap e s (b1 ++ b2 ++ (blockOf e h wins).bits tables s.size ws ++ b3 ++ tail) =
        .ok ((⟨h, wins.map (linesOf ((if h.ics.seq = 2 then 128 else 1024) / 2)), x⟩, s'), tail) ∧
      s'.size = (if h.ics.seq = 2 then 128 else 1024) ∧ Holds s' ((blockOf e h wins).leaves s.size ws) := by
  obtain ⟨hwin, hhead⟩ := head_ok hG he hcommon hh ((blockOf e h wins).bits tables s.size ws ++ (b3 ++ tail))
  rw [if_neg (by
    rintro ⟨a, b⟩
    have := hfull b
    simp only [List.length_append] at a this
    omega)] at hhead
  have hwin' := hwin
  rw [he] at hwin'
  have hok : (blockOf e h wins).Ok := by
    refine ⟨?_, ?_, hnum⟩
    · unfold blockOf Size; dsimp only; split <;> omega
    · unfold blockOf; dsimp only; rw [he]; exact short_top hwin'
  obtain ⟨s', k1, k2, k3⟩ := block_ok fuel hf (blockOf e h wins) hok s ws hs (b3 ++ tail) ht
  refine ⟨s', ?_, k2, k3⟩
  unfold channel
  simp only [List.append_assoc] at hhead ⊢
  rw [hhead, Res.ok_bind]
  dsimp only
  have htop := topLine_ok hwin'
  rw [← he] at htop
  rw [htop, Res.ok_bind]
  have e1 : (if isLong h.ics.seq = true then 1024 else 128) = (blockOf e h wins).size := by
    unfold blockOf isLong; dsimp only; by_cases h2 : h.ics.seq = 2 <;> simp [h2]
  have e2 : (if isLong h.ics.seq = true then 1 else 8) = (blockOf e h wins).wins.length := by
    unfold blockOf isLong; dsimp only; rw [hwins]; by_cases h2 : h.ics.seq = 2 <;> simp [h2]
  rw [e1, e2]
  change (spectral fuel (blockOf e h wins).size (blockOf e h wins).top _ (blockOf e h wins).reset s _ >>= _) = _
  rw [k1, Res.ok_bind]
  dsimp only
  rw [show isLong h.ics.seq = decide (h.ics.seq ≠ 2) from rfl, cancel_ok hx, Res.ok_bind]
  rfl

/-- C206: a channel without coded bands needs no bits behind it. -/
theorem C206_silent {ι : Type} (fuel : Nat) (gap : Ics → Prog ι) (G : Ics → ι → List Bool → Prop)
    (hG : ∀ i g b r, G i g b → run (gap i) (b ++ r) = .ok (g, r))
    (e : Env) (rate : Nat) (he : e.bands = bandsAt rate) (hcommon : ∀ i, e.common = some i → WinOk e.bands i)
    (h : Head ι) (b1 b2 : List Bool) (hh : HeadCode G e h b1 b2) (h0 : h.ics.maxSfb = 0) (hr : h.reset = true)
    (x : Option (Nat × List Int)) (b3 : List Bool) (hx : CancelCode (decide (h.ics.seq ≠ 2)) x b3) (s : Ctx) (tail : List Bool) :
    if (b2 ++ b3 ++ tail).length ≤ 24 ∧ e.full = true then channel fuel gap e s (b1 ++ b2 ++ b3 ++ tail) = .err frameError
    else ∃ s', channel fuel gap e s (b1 ++ b2 ++ b3 ++ tail) =
      .ok ((⟨h, List.replicate (if h.ics.seq = 2 then 8 else 1) (List.replicate (if h.ics.seq = 2 then 128 else 1024) 0), x⟩, s'), tail) := by
  obtain ⟨hwin, hhead⟩ := head_ok hG he hcommon hh (b3 ++ tail)
  rw [he] at hwin
  have htop := topLine_ok hwin
  rw [show topOf (bandsAt rate) h.ics = 0 by unfold topOf; rw [if_pos h0], ← he] at htop
  unfold channel
  simp only [List.append_assoc] at hhead ⊢
  rw [hhead]
  by_cases hc : (b2 ++ (b3 ++ tail)).length ≤ 24 ∧ e.full = true
  · rw [if_pos hc, if_pos hc]; rfl
  · rw [if_neg hc, if_neg hc, Res.ok_bind]
    dsimp only
    rw [htop, Res.ok_bind, hr]
    have hsp : ∀ (pres wins : Nat), pres / 2 + 2 ≤ 516 → ∃ s', ∀ l, spectral fuel pres 0 wins true s l =
        .ok ((s', List.replicate wins (List.replicate pres 0)), l) := by
      intro pres wins hp
      refine ⟨⟨List.replicate 516 0, (List.replicate 516 (0 : Int)).take (2 + 0) ++ List.replicate (pres / 2) 1 ++
        (List.replicate 516 (0 : Int)).drop (2 + 0 + pres / 2), pres⟩, fun l => ?_⟩
      unfold spectral mapContext
      rw [if_pos rfl, Res.ok_bind, if_pos rfl]
      dsimp only
      rw [setOnes_ok (pres / 2) 0 _ (by rw [List.length_replicate]; omega), Res.ok_bind]
    obtain ⟨s', hs'⟩ := hsp (if isLong h.ics.seq = true then 1024 else 128) (if isLong h.ics.seq = true then 1 else 8) (by split <;> omega)
    refine ⟨s', ?_⟩
    rw [hs', Res.ok_bind]
    dsimp only
    rw [show isLong h.ics.seq = decide (h.ics.seq ≠ 2) from rfl, cancel_ok hx, Res.ok_bind]
    by_cases h2 : h.ics.seq = 2
    · rw [if_pos h2, if_pos h2, h2]; rfl
    · have hl : decide (h.ics.seq ≠ 2) = true := by simp [h2]
      rw [if_neg h2, if_neg h2, hl]; rfl

/-! ## Full input -/

/-- An independent frame of a single channel of 48000 Hz in an input that fills the buffer, or does not. -/
def plainEnv (full : Bool) : Env := ⟨bandsAt 48000, false, true, false, full, false, none, false, 0, 0, 0, false⟩

/-- Its only channel is silent: a long window with no coded bands. -/
def silent : Head Unit := ⟨100, 0, false, ⟨0, 0, 0, [1]⟩, some none, none, 0, 0, Scf.stored (bandsAt 48000).long.length [1] [[100]], none, none, true⟩

theorem silent_code (full : Bool) : HeadCode (fun _ _ _ => False) (plainEnv full) silent (natBits 8 100 ++ natBits 9 0) [false, false, false] := by
  refine ⟨0, natBits 9 0, [false], [], [], [], [], by decide, by decide, fun _ => rfl, ?_, ?_, ?_, ?_, ?_, by decide, ?_, ?_, ?_, fun _ => rfl, rfl, rfl⟩
  · exact ⟨rfl, rfl⟩
  · exact ⟨0, .inl ⟨rfl, rfl⟩, by decide, .inr ⟨by decide, Nat.zero_le _, by decide, rfl, by decide⟩⟩
  · exact ⟨none, rfl, rfl, fun _ => rfl⟩
  · exact ⟨rfl, rfl⟩
  · change 0 < 2; omega
  · exact ⟨[1], rfl, .inl ⟨rfl, rfl, rfl⟩⟩
  · exact ⟨rfl, rfl⟩
  · exact ⟨rfl, rfl⟩

/-- C207: refuted.  Whether a coded channel is decoded depends on the size of the input: a silent channel at the end of the input is rejected if
the input fills the buffer, and decoded with one more byte of room. -/
theorem C207_full_refuted :
    ¬ (∀ (fuel : Nat) (e : Env) (rate : Nat) (h : Head Unit) (b1 b2 b3 tail : List Bool) (x : Option (Nat × List Int)) (s : Ctx),
      e.bands = bandsAt rate → e.common = none → HeadCode (fun _ _ _ => False) e h b1 b2 → h.ics.maxSfb = 0 → h.reset = true →
      CancelCode (decide (h.ics.seq ≠ 2)) x b3 → ∃ y, channel fuel (fun _ => (undef : Prog Unit)) e s (b1 ++ b2 ++ b3 ++ tail) = .ok y) ∧
    ∀ (fuel : Nat) (s : Ctx) (tail : List Bool), tail.length ≤ 20 →
      channel fuel (fun _ => (undef : Prog Unit)) (plainEnv true) s (natBits 8 100 ++ natBits 9 0 ++ [false, false, false] ++ [false] ++ tail) = .err frameError ∧
      ∃ s', channel fuel (fun _ => undef) (plainEnv false) s (natBits 8 100 ++ natBits 9 0 ++ [false, false, false] ++ [false] ++ tail) =
        .ok ((⟨silent, [List.replicate 1024 0], none⟩, s'), tail) := by
  have key : ∀ (fuel : Nat) (s : Ctx) (tail : List Bool), tail.length ≤ 20 →
      channel fuel (fun _ => (undef : Prog Unit)) (plainEnv true) s (natBits 8 100 ++ natBits 9 0 ++ [false, false, false] ++ [false] ++ tail) = .err frameError ∧
      ∃ s', channel fuel (fun _ => undef) (plainEnv false) s (natBits 8 100 ++ natBits 9 0 ++ [false, false, false] ++ [false] ++ tail) =
        .ok ((⟨silent, [List.replicate 1024 0], none⟩, s'), tail) := by
    intro fuel s tail ht
    have h (full : Bool) := C206_silent fuel (fun _ => (undef : Prog Unit)) (fun _ _ _ => False) (fun _ _ _ _ h => h.elim) (plainEnv full) 48000 rfl
      (fun _ h => by cases h) silent _ _ (silent_code full) rfl rfl none [false] rfl s tail
    refine ⟨?_, ?_⟩
    · have h := h true
      rwa [if_pos ⟨by simp; omega, rfl⟩] at h
    · have h := h false
      rwa [if_neg (by rintro ⟨_, h⟩; cases h)] at h
  refine ⟨fun hall => ?_, key⟩
  obtain ⟨y, hy⟩ := hall 0 (plainEnv true) 48000 silent _ _ [false] [] none ⟨[], [], 0⟩ rfl rfl (silent_code true) rfl rfl rfl
  have := (key 0 ⟨[], [], 0⟩ [] (by simp)).1
  rw [this] at hy
  cases hy

/-- A long window with two coded bands and scale factors 100 and 101, behind it aliasing data that are not present. -/
example : ∃ h : Head Unit, h.ics.maxSfb = 2 ∧ h.factors = Scf.stored (bandsAt 48000).long.length [1] [[100, 101]] ∧
    HeadCode (fun _ _ _ => False) (plainEnv true) h (natBits 8 100 ++ natBits 9 2) ([false, true, false] ++ Scf.diffs 100 [101]) ∧
    topOf (bandsAt 48000) h.ics = 8 ∧ CancelCode (decide (h.ics.seq ≠ 2)) none [false] := by
  refine ⟨⟨100, 0, false, ⟨0, 0, 2, [1]⟩, some none, none, 1, 0, Scf.stored (bandsAt 48000).long.length [1] [[100, 101]], none, none, true⟩, rfl, rfl,
    ⟨0, natBits 9 2, [false], [], Scf.diffs 100 [101], [], [], by decide, by decide, fun _ => rfl, ⟨rfl, rfl⟩,
      ⟨0, .inl ⟨rfl, rfl⟩, by decide, .inr ⟨by decide, by decide, by decide, rfl, by decide⟩⟩, ⟨none, rfl, rfl, fun _ => rfl⟩, ⟨rfl, rfl⟩, ?_, by decide,
      ⟨[1], rfl, .inr ⟨by decide, [[100, 101]], [101], rfl, by simp, rfl, by simp [Scf.Codable], rfl, rfl⟩⟩, ⟨rfl, rfl⟩, ⟨rfl, rfl⟩, fun _ => rfl,
      rfl, ?_⟩, by decide +kernel, rfl⟩
  · change 1 < 2; omega
  · simp [plainEnv, natBits]

end Verif.FdStream
