import Verif.Spec.DrcConfig
import Verif.Props.DrcConfigOk
import Verif.Props.DrcParse

/-! # DRC coefficients are decoded as coded -/

namespace Verif.DrcConfig

open Prog DrcGain DrcLoud Spec

/-- The decoder holds a band of a gain set. -/
def IsBand (freq : Bool) (j : Nat) (b : Drc.Band) (p : Param) : Prop :=
  p.characteristic = b.characteristic ∧ (1 ≤ j → if freq then p.crossover = b.border else p.startBand = b.border)

/-- The decoder holds a gain set. -/
structure IsGain (g : Drc.GSet) (x : GainSet) : Prop where
  profile : x.profile = g.profile
  interp : x.interp = 1
  full : x.full = g.full.toNat
  align : x.align = g.align.toNat
  flag : x.timeFlag = 0
  count : x.bands = g.sequences
  bandType : 1 < g.bands.length → x.bandType = g.freq.toNat
  bands : ∀ (j : Nat) (b : Drc.Band), g.bands[j]? = some b → ∃ p, x.params[j]? = some p ∧ IsBand g.freq j b p

theorem run_seqs (bs : List Drc.Band) (hb : ∀ b ∈ bs, b.characteristic < 128) (hn : bs.length ≤ 4) (seq : Int)
    (hs : seq + bs.length < 24) (ps : List Param) (hp : ps.length = 4) :
    ∃ qs, (∀ l, run (foldN seqStep bs.length 0 (seq, ps)) (bs.flatMap (fun b => natBits 7 b.characteristic) ++ l) =
        .ok ((seq + bs.length, qs), l)) ∧ qs.length = 4 ∧
      ∀ (j : Nat) (b : Drc.Band), bs[j]? = some b → ∃ q, qs[j]? = some q ∧ q.characteristic = b.characteristic := by
  obtain ⟨s, h1, h2, h3, h4⟩ := run_foldN_items seqStep (fun b : Drc.Band => natBits 7 b.characteristic) 0 bs
    (fun pre s => s.1 = seq + pre.length ∧ s.2.length = 4 ∧
      ∀ (j : Nat) (b : Drc.Band), pre[j]? = some b → ∃ q, s.2[j]? = some q ∧ q.characteristic = b.characteristic) (by
      rintro pre b post s hall ⟨i1, i2, i3⟩
      have hlen : pre.length + (post.length + 1) = bs.length := by rw [hall]; simp
      have hlt : pre.length < s.2.length := by omega
      refine ⟨(s.1 + 1, s.2.set pre.length { s.2[pre.length] with seq := s.1 + 1, characteristic := b.characteristic }), ?_, ?_, ?_, ?_⟩
      · intro l
        unfold seqStep
        dsimp only
        rw [if_neg (by omega), Nat.zero_add, run_getAt_bind _ _ _ _ _ (List.getElem?_eq_getElem hlt)]
        rw [run_bits_bind 7 b.characteristic _ _ (by omega) (hb b (by rw [hall]; simp))]
        rw [run_bind, run_setAt _ _ _ _ hlt]
        rfl
      · simp [i1]
        omega
      · simp [i2]
      · intro j c hj
        dsimp only
        by_cases e : j = pre.length
        · subst e
          rw [List.getElem?_append_right (by omega)] at hj
          simp at hj
          subst hj
          exact ⟨_, by rw [List.getElem?_set_self hlt], rfl⟩
        · rw [List.getElem?_set_ne (by omega)]
          refine i3 j c ?_
          by_cases hj' : j < pre.length
          · rwa [List.getElem?_append_left hj'] at hj
          · rw [List.getElem?_append_right (by omega), show j - pre.length = (j - pre.length - 1) + 1 by omega] at hj
            simp at hj)
    bs [] (seq, ps) rfl ⟨by simp, hp, by simp⟩
  obtain ⟨s1, s2⟩ := s
  dsimp only at h2
  subst h2
  exact ⟨s2, h1, h3, h4⟩

theorem run_borders (freq : Bool) (w : Nat) (hw : w = if freq then 4 else 10) (all : List Drc.Band) (hn : all.length ≤ 4)
    (hb : ∀ b ∈ all, b.border < 2 ^ w) (hsmall : freq = false → ∀ b ∈ all, b.border < 128) (ps : List Param) (hp : ps.length = 4)
    (hc : ∀ (j : Nat) (b : Drc.Band), all[j]? = some b → ∃ q, ps[j]? = some q ∧ q.characteristic = b.characteristic) :
    ∃ qs, (∀ l, run (foldN (borderStep freq.toNat) (all.length - 1) 1 ps)
        ((all.drop 1).flatMap (fun b => natBits w b.border) ++ l) = .ok (qs, l)) ∧ qs.length = 4 ∧
      ∀ (j : Nat) (b : Drc.Band), all[j]? = some b → ∃ q, qs[j]? = some q ∧ IsBand freq j b q := by
  obtain ⟨s, h1, h2, h3, h4⟩ := run_foldN_items (borderStep freq.toNat) (fun b : Drc.Band => natBits w b.border) 1 (all.drop 1)
    (fun pre ps => ps.length = 4 ∧
      (∀ (j : Nat) (b : Drc.Band), all[j]? = some b → ∃ q, ps[j]? = some q ∧ q.characteristic = b.characteristic) ∧
      ∀ (j : Nat) (b : Drc.Band), pre[j]? = some b → ∃ q, ps[j + 1]? = some q ∧
        if freq then q.crossover = b.border else q.startBand = b.border) (by
      rintro pre b post s hall ⟨i1, i2, i3⟩
      have hlen : pre.length + (post.length + 1) = all.length - 1 := by
        have := congrArg List.length hall
        simpa using this.symm
      have hlt : 1 + pre.length < s.length := by omega
      have hmem : b ∈ all := List.mem_of_mem_drop (show b ∈ all.drop 1 by rw [hall]; simp)
      have hv : b.border < 2 ^ w := hb b hmem
      have key : ∃ q : Param, (∀ l, run (borderStep freq.toNat (1 + pre.length) s) (natBits w b.border ++ l) =
          .ok (s.set (1 + pre.length) q, l)) ∧ q.characteristic = (s[1 + pre.length]).characteristic ∧
          if freq then q.crossover = b.border else q.startBand = b.border := by
        cases freq with
        | true =>
          simp only [if_true] at hw
          subst hw
          refine ⟨{ s[1 + pre.length] with crossover := b.border }, fun l => ?_, rfl, by simp⟩
          unfold borderStep
          rw [run_getAt_bind _ _ _ _ _ (List.getElem?_eq_getElem hlt), if_neg (by decide), run_bits_bind 4 _ _ _ (by omega) hv,
            run_setAt _ _ _ _ hlt]
        | false =>
          simp only [Bool.false_eq_true, if_false] at hw
          subst hw
          have := hsmall rfl b hmem
          refine ⟨{ s[1 + pre.length] with startBand := toI8 b.border }, fun l => ?_, rfl, ?_⟩
          · unfold borderStep
            rw [run_getAt_bind _ _ _ _ _ (List.getElem?_eq_getElem hlt), if_pos (by decide), run_bits_bind 10 _ _ _ (by omega) hv,
              run_setAt _ _ _ _ hlt]
          · simp only [Bool.false_eq_true, if_false]
            unfold toI8
            omega
      obtain ⟨q, k1, k2, k3⟩ := key
      refine ⟨s.set (1 + pre.length) q, k1, by simp [i1], ?_, ?_⟩
      · intro j c hj
        obtain ⟨p, p1, p2⟩ := i2 j c hj
        by_cases e : j = 1 + pre.length
        · subst e
          rw [List.getElem?_eq_getElem hlt] at p1
          refine ⟨q, by rw [List.getElem?_set_self hlt], ?_⟩
          rw [k2, Option.some.inj p1, p2]
        · rw [List.getElem?_set_ne (by omega)]
          exact ⟨p, p1, p2⟩
      · intro j c hj
        by_cases e : j = pre.length
        · subst e
          rw [List.getElem?_append_right (by omega)] at hj
          simp at hj
          subst hj
          exact ⟨q, by rw [show pre.length + 1 = 1 + pre.length by omega, List.getElem?_set_self hlt], k3⟩
        · rw [List.getElem?_set_ne (by omega)]
          refine i3 j c ?_
          by_cases hj' : j < pre.length
          · rwa [List.getElem?_append_left hj'] at hj
          · rw [List.getElem?_append_right (by omega), show j - pre.length = (j - pre.length - 1) + 1 by omega] at hj
            simp at hj)
    (all.drop 1) [] ps rfl ⟨hp, hc, by simp⟩
  rw [List.length_drop] at h1
  refine ⟨s, h1, h2, ?_⟩
  intro j b hj
  obtain ⟨q, q1, q2⟩ := h3 j b hj
  refine ⟨q, q1, q2, fun hj1 => ?_⟩
  obtain ⟨q', r1, r2⟩ := h4 (j - 1) b (by rw [List.getElem?_drop, show 1 + (j - 1) = j by omega]; exact hj)
  rw [show j - 1 + 1 = j by omega, q1] at r1
  rw [Option.some.inj r1]
  exact r2

theorem run_gainSet (g : Drc.GSet) (hg : g.Valid) (hsmall : g.freq = false → ∀ b ∈ g.bands, b.border < 128) (seq : Int)
    (hs : seq + g.sequences < 24) (o : GainSet) (ho : o.params.length = 4) :
    ∃ x, (∀ l, run (readGainSet seq o) (g.bits ++ l) = .ok ((seq + g.sequences, x), l)) ∧ x.params.length = 4 ∧ IsGain g x := by
  have hp := hg.profile
  have head : ∀ (f : Nat → Prog (Int × GainSet)) (l : List Bool),
      run (bits 6 >>= f) (natBits 2 g.profile ++ (true :: g.full :: g.align :: false :: l)) =
        run (f (g.profile * 16 + 8 + g.full.toNat * 4 + g.align.toNat * 2)) l := by
    intro f l
    have h4 : (true :: g.full :: g.align :: false :: l) = natBits 4 (8 + g.full.toNat * 4 + g.align.toNat * 2) ++ l := by
      cases g.full <;> cases g.align <;> rfl
    rw [h4, run_pair_bind 2 4 _ _ _ _ (by omega) (by omega) (by cases g.full <;> cases g.align <;> decide)]
    congr 2
    omega
  have hfull : g.full.toNat ≤ 1 := by cases g.full <;> decide
  have halign : g.align.toNat ≤ 1 := by cases g.align <;> decide
  have d1 : (g.profile * 16 + 8 + g.full.toNat * 4 + g.align.toNat * 2) % 2 = 0 := by omega
  have d2 : (g.profile * 16 + 8 + g.full.toNat * 4 + g.align.toNat * 2) / 16 = g.profile := by omega
  have d3 : (g.profile * 16 + 8 + g.full.toNat * 4 + g.align.toNat * 2) / 8 % 2 = 1 := by omega
  have d4 : (g.profile * 16 + 8 + g.full.toNat * 4 + g.align.toNat * 2) / 4 % 2 = g.full.toNat := by omega
  have d5 : (g.profile * 16 + 8 + g.full.toNat * 4 + g.align.toNat * 2) / 2 % 2 = g.align.toNat := by omega
  by_cases hc : g.const
  · refine ⟨{ o with profile := g.profile, interp := 1, full := g.full.toNat, align := g.align.toNat, timeFlag := 0, bands := 1 }, ?_, ho, ?_⟩
    · intro l
      unfold readGainSet Drc.GSet.bits
      rw [if_pos hc]
      simp only [List.append_assoc, List.cons_append, List.nil_append]
      rw [head]
      rw [d1, d2, d3, d4, d5, if_neg (by omega)]
      have hc' : g.profile = 3 := hc
      simp only [hc', ne_eq, not_true_eq_false, if_false]
      simp [Drc.GSet.sequences, hc]
    · refine ⟨rfl, rfl, rfl, rfl, rfl, by simp [Drc.GSet.sequences, hc], ?_, ?_⟩ <;> simp [hg.const hc]
  · have hc' : g.profile ≠ 3 := hc
    have hseq : g.sequences = g.bands.length := by simp [Drc.GSet.sequences, hc]
    rw [hseq] at hs
    obtain ⟨qs, q1, q2, q3⟩ := run_seqs g.bands hg.characteristic hg.bands seq hs o.params ho
    have hb4 := hg.bands
    let bt := if 1 < g.bands.length then g.freq.toNat else o.bandType
    have borders : ∃ rs, (∀ l, run (foldN (borderStep bt) (g.bands.length - 1) 1 qs)
        ((g.bands.drop 1).flatMap (fun b => natBits g.width b.border) ++ l) = .ok (rs, l)) ∧ rs.length = 4 ∧
        ∀ (j : Nat) (b : Drc.Band), g.bands[j]? = some b → ∃ q, rs[j]? = some q ∧ IsBand g.freq j b q := by
      by_cases h1 : 1 < g.bands.length
      · have : bt = g.freq.toNat := if_pos h1
        rw [this]
        exact run_borders g.freq g.width rfl g.bands hb4 hg.border hsmall qs q2 q3
      · have e : g.bands.drop 1 = [] := List.drop_eq_nil_iff.mpr (by omega)
        have e' : g.bands.length - 1 = 0 := by omega
        rw [e, e']
        refine ⟨qs, fun l => rfl, q2, fun j b hj => ?_⟩
        have hj0 : j = 0 := by
          have := (List.getElem?_eq_some_iff.mp hj).1
          omega
        obtain ⟨q, k1, k2⟩ := q3 j b hj
        exact ⟨q, k1, k2, fun h => by omega⟩
    obtain ⟨rs, r1, r2, r3⟩ := borders
    refine ⟨{ o with profile := g.profile, interp := 1, full := g.full.toNat, align := g.align.toNat, timeFlag := 0, bands := g.bands.length, bandType := bt, params := rs }, ?_, r2, ?_⟩
    · intro l
      unfold readGainSet Drc.GSet.bits Drc.GSet.bandBits
      rw [if_neg hc]
      simp only [List.append_assoc, List.cons_append]
      rw [head]
      rw [d1, d2, d3, d4, d5, if_neg (by omega)]
      rw [DrcGain.pure_bind_eq]
      rw [if_pos hc', run_bits_bind 4 _ _ _ (by omega) (by omega), if_neg (by omega)]
      have hbt : ∀ (f : Nat → Prog (Int × GainSet)) (l : List Bool),
          run ((if 1 < g.bands.length then bits 1 else pure o.bandType) >>= f)
            ((if 1 < g.bands.length then [g.freq] else []) ++ l) = run (f bt) l := by
        intro f l
        by_cases h1 : 1 < g.bands.length
        · rw [if_pos h1, if_pos h1, show bt = g.freq.toNat from if_pos h1]
          exact run_one_bind g.freq f l
        · rw [if_neg h1, if_neg h1, show bt = o.bandType from if_neg h1]
          rfl
      rw [hbt, run_bind, q1, Res.ok_bind]
      dsimp only
      rw [run_bind, r1, Res.ok_bind, hseq]
      rfl
    · refine ⟨rfl, rfl, rfl, rfl, rfl, by simp [Drc.GSet.sequences, hc], fun h1 => if_pos h1, r3⟩

/-- **C123** (part: starts of bands in subbands are below 128).  Coefficients with at most 24 gain sets and 24
gain sequences are decoded as they are coded, whatever was in memory, and the reader is left behind them. -/
theorem C123_decoded_partial (c : Drc.Coeffs) (hc : c.Valid) (hsmall : ∀ g ∈ c.sets, g.freq = false → ∀ b ∈ g.bands, b.border < 128)
    (o : Coeffs) (ho : o.sets.length = 24) (hr : SetRoom o.sets) (l : List Bool) :
    ∃ x, run (readCoeffs o) (c.bits ++ l) = .ok (x, l) ∧ x.loc = c.loc ∧ x.count = c.sets.length ∧
      ∀ (j : Nat) (g : Drc.GSet), c.sets[j]? = some g → ∃ y, x.sets[j]? = some y ∧ IsGain g y := by
  have hcount := hc.count
  obtain ⟨s, h1, h2, h3, h4, h5⟩ := run_foldN_items gainSetStep Drc.GSet.bits 0 c.sets
    (fun pre s => s.1 = -1 + ((pre.map Drc.GSet.sequences).sum : Nat) ∧ s.2.length = 24 ∧ SetRoom s.2 ∧
      ∀ (j : Nat) (g : Drc.GSet), pre[j]? = some g → ∃ y, s.2[j]? = some y ∧ IsGain g y) (by
      rintro pre g post s hall ⟨i1, i2, i3, i4⟩
      have hlen : pre.length + (post.length + 1) = c.sets.length := by rw [hall]; simp
      have hlt : pre.length < s.2.length := by omega
      have hmem : g ∈ c.sets := by rw [hall]; simp
      have hsum := hc.sequences
      rw [hall, List.map_append, List.sum_append, List.map_cons, List.sum_cons] at hsum
      obtain ⟨y, y1, y2, y3⟩ := run_gainSet g (hc.sets g hmem) (hsmall g hmem) s.1 (by omega) s.2[pre.length]
        (i3 _ (List.getElem_mem hlt))
      refine ⟨(s.1 + g.sequences, s.2.set pre.length y), ?_, ?_, by simp [i2], i3.set _ _ y2, ?_⟩
      · intro l
        unfold gainSetStep
        rw [Nat.zero_add, run_getAt_bind _ _ _ _ _ (List.getElem?_eq_getElem hlt), run_bind, y1, Res.ok_bind]
        dsimp only
        rw [run_bind, run_setAt _ _ _ _ hlt, Res.ok_bind]
        dsimp only
        rw [if_neg (by rw [y3.flag, y3.interp]; omega)]
        rfl
      · rw [List.map_append, List.sum_append]
        simp [i1]
        omega
      · intro j c hj
        dsimp only
        by_cases e : j = pre.length
        · subst e
          rw [List.getElem?_append_right (by omega)] at hj
          simp at hj
          subst hj
          exact ⟨_, by rw [List.getElem?_set_self hlt], y3⟩
        · rw [List.getElem?_set_ne (by omega)]
          refine i4 j c ?_
          by_cases hj' : j < pre.length
          · rwa [List.getElem?_append_left hj'] at hj
          · rw [List.getElem?_append_right (by omega), show j - pre.length = (j - pre.length - 1) + 1 by omega] at hj
            simp at hj)
    c.sets [] (-1, o.sets) rfl ⟨by simp, ho, hr, by simp⟩
  refine ⟨⟨c.loc, c.sets.length, s.2⟩, ?_, rfl, rfl, h5⟩
  unfold readCoeffs Drc.Coeffs.bits
  simp only [List.append_assoc, List.cons_append]
  have : (false :: (natBits 6 c.sets.length ++ (c.sets.flatMap Drc.GSet.bits ++ l))) =
      natBits 1 0 ++ (natBits 6 c.sets.length ++ (c.sets.flatMap Drc.GSet.bits ++ l)) := rfl
  rw [this, run_pair_bind 4 1 _ _ _ _ (by omega) hc.loc (by decide)]
  rw [if_neg (by omega), run_bits_bind 6 _ _ _ (by omega) (by omega), run_bind]
  have := h1 l
  simp only [List.length_nil, Nat.add_zero] at this
  rw [this, Res.ok_bind]
  have e : (c.loc * 2 ^ 1 + 0) / 2 = c.loc := by omega
  rw [e]
  rfl

/-- Coefficients with a gain set of two bands whose border is a subband. -/
def borderAt (v : Nat) : Drc.Coeffs := ⟨1, [⟨0, false, false, false, [⟨0, 0⟩, ⟨0, v⟩]⟩]⟩

/-- Coefficients after `memset`. -/
def zeroCoeffs : Coeffs := ⟨0, 0, List.replicate 24 ⟨0, 0, 0, 0, 0, 0, 0, 0, List.replicate 4 ⟨0, 0, 0, 0⟩⟩⟩

theorem zeroCoeffs_room : SetRoom zeroCoeffs.sets := by
  intro g hg
  rw [(List.mem_replicate.mp hg).2]
  decide

theorem borderAt_valid (v : Nat) (h : v < 1024) : (borderAt v).Valid := by
  refine ⟨by simp [borderAt], by simp [borderAt], ?_, by simp [borderAt, Drc.GSet.sequences, Drc.GSet.const]⟩
  intro g hg
  simp only [borderAt, List.mem_singleton] at hg
  subst hg
  refine ⟨by simp, by simp, by simp [Drc.GSet.const], by simp, ?_⟩
  simp [Drc.GSet.width]
  exact h

/-- **C123**, refuted: a band that starts at subband 128 is taken to start at -128. -/
theorem C123_refuted : ∃ c : Drc.Coeffs, c.Valid ∧ ∃ x y p, run (readCoeffs zeroCoeffs) c.bits = .ok (x, []) ∧
    x.sets[0]? = some y ∧ y.params[1]? = some p ∧ (∃ g b, c.sets[0]? = some g ∧ g.bands[1]? = some b ∧ g.freq = false ∧
      b.border = 128) ∧ p.startBand = -128 := by
  have h : (match run (readCoeffs zeroCoeffs) (borderAt 128).bits with
      | .ok (x, []) => (match x.sets[0]? with
        | some y => (match y.params[1]? with
          | some p => decide (p.startBand = -128)
          | none => false)
        | none => false)
      | _ => false) = true := by decide +kernel
  split at h
  · rename_i x hx
    split at h
    · rename_i y hy
      split at h
      · rename_i p hp
        exact ⟨borderAt 128, borderAt_valid 128 (by omega), x, y, p, hx, hy, hp, ⟨_, _, rfl, rfl, rfl, rfl⟩, of_decide_eq_true h⟩
      · simp at h
    · simp at h
  · simp at h

example : ∃ x y, run (readCoeffs zeroCoeffs) ((borderAt 100).bits ++ [true]) = .ok (x, [true]) ∧ x.sets[0]? = some y ∧
    IsGain ⟨0, false, false, false, [⟨0, 0⟩, ⟨0, 100⟩]⟩ y := by
  obtain ⟨x, h1, _, _, h4⟩ := C123_decoded_partial (borderAt 100) (borderAt_valid 100 (by omega)) (by simp [borderAt]) zeroCoeffs
    (by decide) zeroCoeffs_room [true]
  obtain ⟨y, y1, y2⟩ := h4 0 _ rfl
  exact ⟨x, y, h1, y1, y2⟩

end Verif.DrcConfig
