import Verif.Props.DmxMtx

/-! # Equalisers of downmix matrices: C282, C283, C286 -/

namespace Verif.Dmx

open Prog

/-! ## C282: what can be decoded -/

/-- What the reader of filters keeps. -/
private def Fine (r : Last) : Prop := r.p10 ≤ 3 ∧ 10 ≤ r.ld2 ∧ r.ld2 ≤ r.top ∧ r.top ≤ 99 ∧ (r.p10 = 3 → r.top = 24) ∧ (r.p10 < 3 → r.top = 99)

private theorem readRange_meets (size : Nat) (h : 0 < size) : Meets False (readRange size) (fun v => v < size) :=
  fun l => ⟨fun h => h.elim, fun a l' e => C274_below size h l a l' e⟩

private theorem quality_meets : Meets False quality (fun q => 1 / 20 ≤ q ∧ q ≤ 106 / 10) := by
  unfold quality
  refine Meets.bits_bind (by omega) fun i hi => Meets.ite (fun h => Meets.pure ?_) fun h => Meets.bits_bind (by omega) fun e he => Meets.pure ?_
  · have h1 : (i : ℚ) ≤ 19 := by exact_mod_cast h
    have h0 : (0 : ℚ) ≤ i := Nat.cast_nonneg i
    constructor <;> linarith
  · have h1 : (((i - 20) * 8 + e + 1 : Nat) : ℚ) ≤ 96 := by
      have : (i - 20) * 8 + e + 1 ≤ 96 := by omega
      exact_mod_cast this
    have h0 : (0 : ℚ) ≤ (((i - 20) * 8 + e + 1 : Nat) : ℚ) := Nat.cast_nonneg _
    constructor <;> linarith

private theorem filter_meets (prec ext : Nat) (hp : prec < 4) (he : ext < 2) (r : Last) (hr : Fine r) :
    Meets False (filter prec ext r) fun x => Fine x.2 ∧ r.ld2 * 10 ^ r.p10 ≤ x.1.freq ∧ x.1.freq = x.2.ld2 * 10 ^ x.2.p10 ∧ 10 ≤ x.1.freq ∧ x.1.freq ≤ 24000 ∧
      1 / 20 ≤ x.1.q ∧ x.1.q ≤ 106 / 10 ∧ eqMin ext prec ≤ x.1.gain := by
  obtain ⟨p10, ld2, top⟩ := r
  obtain ⟨h1, h2, h3, h4, h5, h6⟩ := hr
  simp only at h1 h2 h3 h4 h5 h6
  unfold filter
  refine (readRange_meets _ (by simp only; omega)).bind fun p hp' => ?_
  simp only at hp' ⊢
  have hsize : 0 < 1 + (if p + p10 = 3 then 24 else top) - (if p10 < p + p10 then 10 else ld2) := by
    split <;> split <;> omega
  refine (readRange_meets _ hsize).bind fun d hd => quality_meets.bind fun q hq => Meets.bits_bind (by omega) fun g _ => Meets.pure ?_
  have hg : eqMin ext prec ≤ eqMin ext prec + eqStep prec * (g : ℚ) := by
    have : 0 ≤ eqStep prec := by
      unfold eqStep
      interval_cases prec <;> norm_num
    have h0 : (0 : ℚ) ≤ g := Nat.cast_nonneg g
    have := mul_nonneg this h0
    linarith
  have hcases : p + p10 = 0 ∨ p + p10 = 1 ∨ p + p10 = 2 ∨ p + p10 = 3 := by omega
  have hcases' : p10 = 0 ∨ p10 = 1 ∨ p10 = 2 ∨ p10 = 3 := by omega
  refine ⟨⟨by simp only; omega, ?_, ?_, ?_, ?_, ?_⟩, ?_, rfl, ?_, ?_, hq.1, hq.2, hg⟩ <;> simp only
  · split at hd <;> split at hd <;> (try split) <;> omega
  · split at hd <;> split at hd <;> (try split) <;> (try split) <;> omega
  · split <;> omega
  · intro h; rw [if_pos h]
  · intro h; rw [if_neg (by omega)]; exact h6 (by omega)
  · rcases hcases with e | e | e | e <;> rcases hcases' with e' | e' | e' | e' <;> rw [e] at hd ⊢ <;> rw [e'] at hd ⊢ <;> simp only [e'] at h5 h6 <;> simp at hd h5 h6 ⊢ <;> omega
  · rcases hcases with e | e | e | e <;> rcases hcases' with e' | e' | e' | e' <;> rw [e] at hd ⊢ <;> rw [e'] at hd ⊢ <;> simp only [e'] at h5 h6 <;> simp at hd h5 h6 ⊢ <;> omega
  · rcases hcases with e | e | e | e <;> rcases hcases' with e' | e' | e' | e' <;> rw [e] at hd ⊢ <;> rw [e'] at hd ⊢ <;> simp only [e'] at h5 h6 <;> simp at hd h5 h6 ⊢ <;> omega

private theorem filters_meets (prec ext : Nat) (hp : prec < 4) (he : ext < 2) (n : Nat) (r : Last) (hr : Fine r) :
    Meets False (filters prec ext n r) fun fs => fs.length = n ∧ fs.Pairwise (fun a b => a.freq ≤ b.freq) ∧
      ∀ f ∈ fs, r.ld2 * 10 ^ r.p10 ≤ f.freq ∧ 10 ≤ f.freq ∧ f.freq ≤ 24000 ∧ 1 / 20 ≤ f.q ∧ f.q ≤ 106 / 10 ∧ eqMin ext prec ≤ f.gain := by
  induction n generalizing r with
  | zero => exact Meets.pure ⟨rfl, List.Pairwise.nil, by simp⟩
  | succ n ih =>
    unfold filters
    refine (filter_meets prec ext hp he r hr).bind fun x hx => ?_
    obtain ⟨f, r'⟩ := x
    obtain ⟨h1, h2, h3, h4, h5, h6, h7, h8⟩ := hx
    refine (ih r' h1).bind fun fs hfs => Meets.pure ⟨by simp [hfs.1], List.pairwise_cons.2 ⟨fun g hg => ?_, hfs.2.1⟩, fun g hg => ?_⟩
    · have := (hfs.2.2 g hg).1
      simp only at h3; omega
    · rcases List.mem_cons.1 hg with rfl | hg
      · exact ⟨h2, h4, h5, h6, h7, h8⟩
      · have := hfs.2.2 g hg
        exact ⟨by simp only at h3 h2; omega, this.2⟩

/-- C282: every equaliser that can be decoded has between 1 and 19 filters with ascending centre frequencies from 10 Hz to 24 kHz, quality factors from 0.05 to 10.6, and channels use an
equaliser that is there. -/
theorem C282_filters (nIn : Nat) (l l' : List Bool) (e : EqConf) (h : run (eqConf nIn) l = .ok (e, l')) :
    e.map.length = nIn ∧ (∀ v ∈ e.map, v ≤ e.eqs.length) ∧ 1 ≤ e.eqs.length ∧ e.eqs.length ≤ 39 ∧
      ∀ q ∈ e.eqs, 1 ≤ q.filters.length ∧ q.filters.length ≤ 19 ∧ q.filters.Pairwise (fun a b => a.freq ≤ b.freq) ∧
        ∀ f ∈ q.filters, 10 ≤ f.freq ∧ f.freq ≤ 24000 ∧ 1 / 20 ≤ f.q ∧ f.q ≤ 106 / 10 ∧ -16 ≤ f.gain := by
  have hmin : ∀ ext prec, ext < 2 → prec < 4 → -16 ≤ eqMin ext prec := by
    intro ext prec h1 h2
    unfold eqMin
    interval_cases ext <;> interval_cases prec <;> norm_num
  have hesc : ∀ b1 b2, b1 ≤ 3 → b2 ≤ 5 → Meets False (readEscape b1 b2 0) (fun n => n ≤ 2 ^ b1 - 1 + (2 ^ b2 - 1)) := by
    intro b1 b2 h1 h2
    have p1 : 2 ^ b1 ≤ 2 ^ 3 := Nat.pow_le_pow_right (by omega) h1
    have p2 : 2 ^ b2 ≤ 2 ^ 5 := Nat.pow_le_pow_right (by omega) h2
    have e1 : WBuf.escMax b1 = .ok (2 ^ b1 - 1) := by unfold WBuf.escMax; rw [if_pos (by omega)]
    have e2 : WBuf.escMax b2 = .ok (2 ^ b2 - 1) := by unfold WBuf.escMax; rw [if_pos (by omega)]
    unfold readEscape
    rw [e1, e2]
    change Meets False (bits b1 >>= _) _
    refine Meets.bits_bind (by omega) fun v hv => Meets.ite (fun _ => Meets.bits_bind (by omega) fun w hw => Meets.ite (fun _ => Meets.bits_bind (by omega) fun u hu => Meets.pure ?_)
      fun _ => Meets.pure ?_) fun _ => Meets.pure ?_
    · rw [Nat.mod_eq_of_lt (by omega)]; omega
    · rw [Nat.mod_eq_of_lt (by omega)]; omega
    · omega
  have hforN : ∀ {α : Type} (f : Nat → Prog α) (Q : α → Prop) (k i : Nat), (∀ j, Meets False (f j) Q) → Meets False (forN f k i) (fun as => as.length = k ∧ ∀ a ∈ as, Q a) := by
    intro α f Q k
    induction k with
    | zero => intro i _; exact Meets.pure ⟨rfl, by simp⟩
    | succ k ih =>
      intro i hf
      unfold forN
      exact (hf i).bind fun a ha => (ih (i + 1) hf).bind fun as has => Meets.pure ⟨by simp [has.1], by
        intro b hb
        rcases List.mem_cons.1 hb with rfl | hb
        · exact ha
        · exact has.2 b hb⟩
  have key : Meets False (eqConf nIn) fun e => e.map.length = nIn ∧ (∀ v ∈ e.map, v ≤ e.eqs.length) ∧ 1 ≤ e.eqs.length ∧ e.eqs.length ≤ 39 ∧
      ∀ q ∈ e.eqs, 1 ≤ q.filters.length ∧ q.filters.length ≤ 19 ∧ q.filters.Pairwise (fun a b => a.freq ≤ b.freq) ∧
        ∀ f ∈ q.filters, 10 ≤ f.freq ∧ f.freq ≤ 24000 ∧ 1 / 20 ≤ f.q ∧ f.q ≤ 106 / 10 ∧ -16 ≤ f.gain := by
    unfold eqConf
    refine (hesc 3 5 (by omega) (by omega)).bind fun n hn => Meets.bits_bind (by omega) fun prec hp => Meets.bits_bind (by omega) fun ext he => ?_
    have hone : ∀ _j : Nat, Meets False (oneEq prec ext) fun q => 1 ≤ q.filters.length ∧ q.filters.length ≤ 19 ∧ q.filters.Pairwise (fun a b => a.freq ≤ b.freq) ∧
        ∀ f ∈ q.filters, 10 ≤ f.freq ∧ f.freq ≤ 24000 ∧ 1 / 20 ≤ f.q ∧ f.q ≤ 106 / 10 ∧ -16 ≤ f.gain := by
      intro _
      unfold oneEq
      refine (hesc 2 4 (by omega) (by omega)).bind fun k hk => (filters_meets prec ext (by omega) (by omega) (k + 1) ⟨0, 10, 99⟩ ⟨by simp, by simp, by simp, by simp, by simp, by simp⟩).bind
        fun fs hfs => Meets.bits_bind (by omega) fun g _ => Meets.pure ⟨by simp only; omega, by simp only; omega, hfs.2.1, fun f hf => ?_⟩
      have := hfs.2.2 f hf
      have hm := hmin ext prec (by omega) (by omega)
      exact ⟨this.2.1, this.2.2.1, this.2.2.2.1, this.2.2.2.2.1, by linarith [this.2.2.2.2.2]⟩
    refine (hforN _ _ (n + 1) 0 hone).bind fun eqs heqs => ?_
    refine (hforN _ (fun v => v ≤ n + 1) nIn 0 fun _ => Meets.bits_bind (by omega) fun b _ => Meets.ite
      (fun _ => (readRange_meets (n + 1) (by omega)).bind fun v hv => Meets.pure (by omega)) fun _ => Meets.pure (by omega)).bind fun map hmap => Meets.pure ?_
    exact ⟨hmap.1, fun v hv => by have := hmap.2 v hv; simp only; omega, by simp only; omega, by simp only; omega, heqs.2⟩
  exact (key l).2 e l' h

/-! ## C283: which equalisers are taken -/

/-- Two equalisers for one channel: three bits for the number, precision and range, the two equalisers, and the equaliser of the channel. -/
def twoEqsBits : List Bool :=
  natBits 3 1 ++ natBits 2 0 ++ natBits 1 0 ++ (natBits 2 0 ++ natBits 2 0 ++ natBits 6 0 ++ natBits 5 19 ++ natBits 4 8 ++ natBits 5 16) ++
    (natBits 2 0 ++ natBits 2 0 ++ natBits 6 0 ++ natBits 5 19 ++ natBits 4 8 ++ natBits 5 16) ++ natBits 1 1 ++ natBits 1 1

/-- C283: whether equalisers are taken depends on numbers in memory that nobody wrote when there are more equalisers than channels. -/
theorem C283_refuted : ¬ ∀ (st st' : Stale) (nIn : Nat) (l l' : List Bool) (e : EqConf), run (eqConf nIn) l = .ok (e, l') → eqCheck st e = eqCheck st' e := by
  intro h
  have key : (match run (eqConf 1) twoEqsBits with
      | .ok (e, _) => some (e.eqs.length, e.map.length)
      | _ => none) = some (2, 1) := by decide +kernel
  cases hr : run (eqConf 1) twoEqsBits with
  | ok x =>
    obtain ⟨e, l'⟩ := x
    rw [hr] at key
    simp only [Option.some.injEq, Prod.mk.injEq] at key
    have hmap := (C282_filters 1 _ _ e hr).2.1
    have := h ⟨fun _ => ⟨0, 0, 0, 0⟩, fun _ => 0, fun _ => 100⟩ ⟨fun _ => ⟨0, 0, 0, 0⟩, fun _ => 0, fun _ => 0⟩ 1 twoEqsBits l' e hr
    obtain ⟨v, hv⟩ : ∃ v, e.map = [v] := List.length_eq_one_iff.1 key.2
    have hv2 : v ≤ 2 := by rw [← key.1]; exact hmap v (by rw [hv]; simp)
    unfold eqCheck at this
    rw [key.1, hv] at this
    have hnot : ¬ (2 : Int) < v := by omega
    simp [List.range_succ, hnot] at this
  | jump => rw [hr] at key; simp at key
  | err c => rw [hr] at key; simp at key
  | ub => rw [hr] at key; simp at key

/-- C283: with a channel for each equaliser, at most twelve of them, they are taken. -/
theorem C283_partial (st : Stale) (nIn : Nat) (l l' : List Bool) (e : EqConf) (h : run (eqConf nIn) l = .ok (e, l')) (hn : e.eqs.length ≤ nIn) :
    eqCheck st e = if 12 < e.eqs.length then .err (.other 0xFFFF9409) else .ok () := by
  obtain ⟨h1, h2, -⟩ := C282_filters nIn l l' e h
  unfold eqCheck
  split
  · rfl
  · rw [if_neg]
    rw [List.any_eq_true]
    rintro ⟨i, hi, hc⟩
    have hi := List.mem_range.1 hi
    rw [if_pos (by omega), decide_eq_true_eq] at hc
    have hmem : e.map.getD i 0 ∈ e.map := by
      rw [List.getD_eq_getElem?_getD, List.getElem?_eq_getElem (by omega)]; exact List.getElem_mem _
    have := h2 _ hmem
    omega

example : (∃ e, run (eqConf 2) (twoEqsBits ++ [false]) = .ok e) := by
  have key : (match run (eqConf 2) (twoEqsBits ++ [false]) with
      | .ok _ => true
      | _ => false) = true := by decide +kernel
  cases h : run (eqConf 2) (twoEqsBits ++ [false]) with
  | ok x => exact ⟨x, rfl⟩
  | jump => rw [h] at key; simp at key
  | err c => rw [h] at key; simp at key
  | ub => rw [h] at key; simp at key

/-! ## C286: the matrix for each band -/

/-- C286: all 257 bands of an element are set by the decoded matrix alone; silence is nothing in every band, and without an equaliser the bands are all alike. -/
theorem C286_bands {α : Type} [Field α] (amp : ℚ → α) (curve : Eq → Nat → α) (o : Out) (old old' : Nat → Nat → Nat → α) (i j : Nat) :
    (∀ band, band < 257 → bandMatrix amp curve o old band i j = bandMatrix amp curve o old' band i j) ∧
    (o.gains i j = -256 → ∀ band, band < 257 → bandMatrix amp curve o old band i j = 0) ∧
    (o.gains i j ≠ -256 → o.eq = none ∨ (∃ e, o.eq = some e ∧ e.map.getD i 0 = 0) → ∀ band, band < 257 → bandMatrix amp curve o old band i j = amp (o.gains i j)) ∧
    (o.gains i j ≠ -256 → ∀ e n, o.eq = some e → e.map.getD i 0 = n + 1 → ∀ band, band < 257 → ∃ k, k < 58 ∧ band < erbTbl.getD k 0 ∧ (∀ k', k' < k → erbTbl.getD k' 0 ≤ band) ∧
      bandMatrix amp curve o old band i j = curve (e.eqs.getD n ⟨[], 0⟩) k * amp (o.gains i j)) := by
  have hfind : ∀ band, band < 257 → ∃ k, (List.range 58).find? (fun k => decide (band < erbTbl.getD k 0)) = some k := by
    intro band hb
    rw [← Option.isSome_iff_exists, List.find?_isSome]
    exact ⟨57, by decide, by rw [decide_eq_true_eq]; exact hb⟩
  have hmin : ∀ band k, (List.range 58).find? (fun k => decide (band < erbTbl.getD k 0)) = some k → k < 58 ∧ band < erbTbl.getD k 0 ∧ ∀ k', k' < k → erbTbl.getD k' 0 ≤ band := by
    intro band k h
    have hk := List.mem_range.1 (List.mem_of_find?_eq_some h)
    have h1 := List.find?_some h
    refine ⟨hk, by simpa using h1, fun k' hk' => ?_⟩
    rw [List.find?_range_eq_some] at h
    have := h.2.2 k' hk'
    simpa using this
  refine ⟨fun band hb => ?_, fun hs band hb => ?_, fun hs he band hb => ?_, fun hs e n he hn band hb => ?_⟩
  · unfold bandMatrix
    obtain ⟨k, hk⟩ := hfind band hb
    cases o.eq with
    | none => simp only [hb, if_true]
    | some e => simp only [hb, if_true, hk]
  · unfold bandMatrix
    obtain ⟨k, hk⟩ := hfind band hb
    cases o.eq with
    | none => simp [hb, hs, silent]
    | some e =>
      simp only [hk, hs, silent, ne_eq, not_true_eq_false, if_false, mul_zero, hb, if_true, ite_self]
  · unfold bandMatrix
    rcases he with he | ⟨e, he, hm⟩
    · simp only [he, hb, if_true, if_pos (show o.gains i j ≠ silent from hs)]
    · simp only [he, hm, Nat.lt_irrefl, if_false, hb, if_true, if_pos (show o.gains i j ≠ silent from hs)]
  · obtain ⟨k, hk⟩ := hfind band hb
    obtain ⟨h1, h2, h3⟩ := hmin band k hk
    refine ⟨k, h1, h2, h3, ?_⟩
    unfold bandMatrix
    simp only [he, hn, Nat.succ_pos, if_true, hk, if_pos (show o.gains i j ≠ silent from hs), Nat.add_sub_cancel]

example : (fun _ _ => (-3 : ℚ)) 0 0 ≠ (-256 : ℚ) := by norm_num

/-- C286: the bands of the equalisers' table ascend and end with the last one. -/
theorem C286_table : erbTbl.length = 58 ∧ erbTbl.Pairwise (· < ·) ∧ erbTbl.getLast? = some 257 ∧ erbTbl.head? = some 1 := by decide +kernel

end Verif.Dmx
