import Verif.Props.LpdFrame
import Verif.Props.Scf
import Verif.Spec.Fd

/-! # C178-C180: windows and noise shaping in time of frequency domain channels -/

namespace Verif.Fd

open Prog
open Scf (groupEnds)
open Lpd (Each Field field_reads forN_reads)

/-! ## Groups of windows -/

/-- The positions of unset bits. -/
def zeros : (i : Nat) → List Bool → List Nat
  | _, [] => []
  | i, x :: l => if x then zeros (i + 1) l else i :: zeros (i + 1) l

theorem zeros_append (i : Nat) (a b : List Bool) : zeros i (a ++ b) = zeros i a ++ zeros (i + a.length) b := by
  induction a generalizing i with
  | nil => simp [zeros]
  | cons x a ih =>
    simp only [List.cons_append, zeros, ih, List.length_cons]
    rw [show i + 1 + a.length = i + (a.length + 1) by omega]
    split <;> simp

theorem zeros_ones (i n : Nat) : zeros i (List.replicate n true) = [] := by
  induction n generalizing i with
  | zero => rfl
  | succ n ih => simp [List.replicate_succ, zeros, ih]

theorem groupBits_zeros : ∀ (l : List Bool), l.length ≤ 7 → ∀ v, (∀ j < l.length, v.testBit j = l.getD (l.length - 1 - j) false) →
    groupBits v l.length = zeros (8 - l.length) l
  | [], _, _, _ => rfl
  | x :: l, h, v, hv => by
    simp only [List.length_cons] at h hv ⊢
    have h1 := hv l.length (by omega)
    rw [show l.length + 1 - 1 - l.length = 0 by omega, List.getD_cons_zero] at h1
    have ih := groupBits_zeros l (by omega) v (by
      intro j hj
      rw [hv j (by omega), show l.length + 1 - 1 - j = (l.length - 1 - j) + 1 by omega, List.getD_cons_succ])
    simp only [groupBits, zeros, h1, ih]
    rw [show 8 - (l.length + 1) + 1 = 8 - l.length by omega, show 7 - l.length = 8 - (l.length + 1) by omega]

theorem zeros_groups (lens : List Nat) (h : ∀ n ∈ lens, 0 < n) (i : Nat) :
    zeros (i + 1) (lens.flatMap fun n => List.replicate (n - 1) true ++ [false]) = groupEnds i lens := by
  induction lens generalizing i with
  | nil => rfl
  | cons n lens ih =>
    have hn := h n (by simp)
    rw [List.flatMap_cons, List.append_assoc, zeros_append, zeros_ones, List.nil_append, List.length_replicate]
    simp only [List.singleton_append, zeros, groupEnds, if_neg Bool.false_ne_true]
    rw [show i + 1 + (n - 1) + 1 = i + n + 1 by omega, ih (fun m hm => h m (by simp [hm])) (i + n),
      show i + 1 + (n - 1) = i + n by omega]

theorem groups_length (lens : List Nat) (h : ∀ n ∈ lens, 0 < n) :
    (lens.flatMap fun n => List.replicate (n - 1) true ++ [false]).length = lens.sum := by
  induction lens with
  | nil => rfl
  | cons n lens ih =>
    have hn := h n (by simp)
    rw [List.flatMap_cons, List.length_append, ih fun m hm => h m (by simp [hm])]
    simp
    omega

theorem groups_last (lens : List Nat) (h : lens ≠ []) :
    ∃ l, (lens.flatMap fun n => List.replicate (n - 1) true ++ [false]) = l ++ [false] := by
  rcases List.eq_nil_or_concat lens with rfl | ⟨l, n, rfl⟩
  · exact absurd rfl h
  · exact ⟨(l.flatMap fun n => List.replicate (n - 1) true ++ [false]) ++ List.replicate (n - 1) true, by simp⟩

theorem pattern_append {lens : List Nat} (h : Groups lens) :
    groupPattern lens ++ [false] = lens.flatMap fun n => List.replicate (n - 1) true ++ [false] := by
  have hne : lens ≠ [] := by
    rintro rfl
    exact absurd h.2 (by decide)
  obtain ⟨l, hl⟩ := groups_last lens hne
  simp [groupPattern, hl]

theorem pattern_length {lens : List Nat} (h : Groups lens) : (groupPattern lens).length = 7 := by
  have h1 := congrArg List.length (pattern_append h)
  rw [groups_length lens h.1, h.2] at h1
  simp at h1
  exact h1

/-- Of coded groups the ends are found. -/
theorem shortEnds_groups {lens : List Nat} (h : Groups lens) : shortEnds (bitsVal (groupPattern lens)) = groupEnds 0 lens := by
  have hl := pattern_length h
  have h1 := groupBits_zeros (groupPattern lens) (by omega) (bitsVal (groupPattern lens)) (by
    intro j hj
    rw [bitsVal_testBit, if_pos hj])
  rw [hl] at h1
  unfold shortEnds
  rw [h1, ← zeros_groups lens h.1 0, ← pattern_append h, zeros_append, hl]
  rfl

/-- The lengths of groups with given ends. -/
def lensOf : (start : Nat) → List Nat → List Nat
  | _, [] => []
  | start, e :: l => (e - start) :: lensOf e l

/-- Every pattern is the code of groups. -/
theorem pattern_all (v : Nat) (h : v < 128) : ∃ lens, Groups lens ∧ natBits 7 v = groupPattern lens := by
  have key : ∀ v : Fin 128, (∀ n ∈ lensOf 0 (shortEnds v.val), 0 < n) ∧ (lensOf 0 (shortEnds v.val)).sum = 8 ∧
      natBits 7 v.val = groupPattern (lensOf 0 (shortEnds v.val)) := by decide +kernel
  obtain ⟨h1, h2, h3⟩ := key ⟨v, h⟩
  exact ⟨_, ⟨h1, h2⟩, h3⟩

theorem winSeq_code (c last seq : Nat) (hc : c < 4) : winSeq c last = some seq ↔ SeqCode last seq c := by
  unfold SeqCode RightShort
  have : c = 0 ∨ c = 1 ∨ c = 2 ∨ c = 3 := by omega
  rcases this with rfl | rfl | rfl | rfl
  · simp [winSeq, eq_comm]
  · simp only [winSeq]
    by_cases h : last = 1 ∨ last = 2 ∨ last = 4
    · simp [h, eq_comm]
    · simp [h, eq_comm]
  · simp [winSeq, eq_comm]
  · simp [winSeq, eq_comm]

/-- **C178** The windows of a channel are accepted exactly if they are coded: a number of bands that is at most that of the sampling
rate, and with short windows any groups. -/
theorem C178_windows (bands : Bands) (last : Nat) : Reads (icsInfo bands last) (IcsCode bands last) := by
  unfold icsInfo
  refine ((field_reads (w := 2) (by omega)).bind (S := fun c (i : Ics) b => SeqCode last i.seq c ∧ i.shape < 2 ∧
    ((i.seq = 2 ∧ i.maxSfb ≤ bands.short.length ∧ i.maxSfb < 16 ∧ ∃ lens, Groups lens ∧ i.ends = groupEnds 0 lens ∧
        b = natBits 1 i.shape ++ natBits 4 i.maxSfb ++ groupPattern lens) ∨
     (i.seq ≠ 2 ∧ i.maxSfb ≤ bands.long.length ∧ i.maxSfb < 64 ∧ i.ends = [1] ∧
        b = natBits 1 i.shape ++ natBits 6 i.maxSfb))) fun c b hc => ?_).congr fun i b => ?_
  · have hc4 : c < 4 := hc.1
    rcases hw : winSeq c last with _ | seq
    · refine (Reads.fail _).congr fun i b => ⟨False.elim, ?_⟩
      rintro ⟨h1, -⟩
      rw [(winSeq_code c last i.seq hc4).mpr h1] at hw
      cases hw
    · have hseq : ∀ s, SeqCode last s c ↔ s = seq := by
        intro s
        rw [← winSeq_code c last s hc4, hw]
        simp [eq_comm]
      show Reads (do
        let shape ← bits 1
        if isLong seq = false then do
          let maxSfb ← bits 4
          let grp ← bits 7
          if bands.short.length < maxSfb then fail badMaxSfb
          else pure (⟨seq, shape, min maxSfb bands.short.length, shortEnds grp⟩ : Ics)
        else do
          let maxSfb ← bits 6
          if bands.long.length < maxSfb then fail badMaxSfb
          else pure ⟨seq, shape, min maxSfb bands.long.length, [1]⟩) _
      by_cases h2 : seq = 2
      · subst h2
        simp only [show isLong 2 = false from rfl, eq_self, if_true]
        refine ((field_reads (w := 1) (by omega)).bind fun shape _ _ => (field_reads (w := 4) (by omega)).bind fun m _ _ =>
          (field_reads (w := 7) (by omega)).bind fun g _ _ => Reads.ite (c := bands.short.length < m) (fun _ => Reads.fail _)
          fun _ => Reads.pure _).congr fun i b => ?_
        constructor
        · rintro ⟨shape, _, _, ⟨h1, rfl⟩, ⟨m, _, _, ⟨h2, rfl⟩, ⟨g, _, _, ⟨h3, rfl⟩, h4, rfl⟩, rfl⟩, rfl⟩
          by_cases hm : bands.short.length < m
          · rw [if_pos hm] at h4
            exact h4.elim
          · rw [if_neg hm] at h4
            obtain ⟨rfl, rfl⟩ := h4
            obtain ⟨lens, hl, hg⟩ := pattern_all g h3
            have hmin : min m bands.short.length = m := by omega
            refine ⟨(hseq _).mpr rfl, h1, Or.inl ⟨rfl, ?_, ?_, lens, hl, ?_, ?_⟩⟩
            · show min m _ ≤ _
              omega
            · show min m bands.short.length < 16
              omega
            · show shortEnds g = _
              rw [← shortEnds_groups hl, ← hg, bitsVal_natBits, Nat.mod_eq_of_lt h3]
            · show _ = natBits 1 shape ++ natBits 4 (min m bands.short.length) ++ _
              rw [hmin, hg]
              simp
        · rintro ⟨h1, h2, h3 | h3⟩
          · obtain ⟨h4, h5, h6, lens, hl, h7, rfl⟩ := h3
            have hlen := pattern_length hl
            refine ⟨i.shape, _, _, ⟨h2, rfl⟩, ⟨i.maxSfb, _, _, ⟨h6, rfl⟩, ⟨bitsVal (groupPattern lens), _, [], ⟨?_, rfl⟩, ?_, rfl⟩, rfl⟩, ?_⟩
            · have := bitsVal_lt (groupPattern lens)
              rwa [hlen] at this
            · rw [if_neg (by omega)]
              refine ⟨?_, rfl⟩
              rw [shortEnds_groups hl, show min i.maxSfb bands.short.length = i.maxSfb by omega, ← h7, ← h4]
            · have := natBits_bitsVal (groupPattern lens)
              rw [hlen] at this
              rw [this]
              simp
          · exact absurd ((hseq _).mp h1) h3.1
      · simp only [show isLong seq = true by simp [isLong, h2], Bool.true_eq_false, if_false]
        refine ((field_reads (w := 1) (by omega)).bind fun shape _ _ => (field_reads (w := 6) (by omega)).bind fun m _ _ =>
          Reads.ite (c := bands.long.length < m) (fun _ => Reads.fail _) fun _ => Reads.pure _).congr fun i b => ?_
        constructor
        · rintro ⟨shape, _, _, ⟨h1, rfl⟩, ⟨m, _, _, ⟨h3, rfl⟩, h4, rfl⟩, rfl⟩
          by_cases hm : bands.long.length < m
          · rw [if_pos hm] at h4
            exact h4.elim
          · rw [if_neg hm] at h4
            obtain ⟨rfl, rfl⟩ := h4
            refine ⟨(hseq _).mpr rfl, h1, Or.inr ⟨h2, ?_, ?_, rfl, ?_⟩⟩
            · show min m _ ≤ _
              omega
            · show min m bands.long.length < 64
              omega
            · show _ = natBits 1 shape ++ natBits 6 (min m bands.long.length)
              rw [show min m bands.long.length = m by omega]
              simp
        · rintro ⟨h1, h2', h3 | h3⟩
          · exact absurd (h3.1 ▸ (hseq _).mp h1).symm h2
          · obtain ⟨h4, h5, h6, h7, rfl⟩ := h3
            refine ⟨i.shape, _, _, ⟨h2', rfl⟩, ⟨i.maxSfb, _, [], ⟨h6, rfl⟩, ?_, rfl⟩, ?_⟩
            · rw [if_neg (by omega)]
              refine ⟨?_, rfl⟩
              rw [show min i.maxSfb bands.long.length = i.maxSfb by omega, ← h7, ← (hseq _).mp h1]
            · simp
  · unfold IcsCode
    constructor
    · rintro ⟨c, _, b2, ⟨-, rfl⟩, ⟨h1, h2, h3⟩, rfl⟩
      refine ⟨c, h1, h2, ?_⟩
      rcases h3 with ⟨h4, h5, h6, lens, h7, h8, rfl⟩ | ⟨h4, h5, h6, h7, rfl⟩
      · exact Or.inl ⟨h4, h5, h6, lens, h7, h8, by simp⟩
      · exact Or.inr ⟨h4, h5, h6, h7, by simp⟩
    · rintro ⟨c, h1, h2, h3⟩
      have hc : c < 2 ^ 2 := by unfold SeqCode at h1; omega
      rcases h3 with ⟨h4, h5, h6, lens, h7, h8, rfl⟩ | ⟨h4, h5, h6, h7, rfl⟩
      · exact ⟨c, _, _, ⟨hc, rfl⟩, ⟨h1, h2, Or.inl ⟨h4, h5, h6, lens, h7, h8, rfl⟩⟩, by simp⟩
      · exact ⟨c, _, _, ⟨hc, rfl⟩, ⟨h1, h2, Or.inr ⟨h4, h5, h6, h7, rfl⟩⟩, by simp⟩

/-- Groups of three and five short windows. -/
example : IcsCode (bandsAt 48000) 1 ⟨2, 0, 14, [3, 8]⟩
    [true, false, false, true, true, true, false, true, true, false, true, true, true, true] :=
  ⟨2, Or.inr (Or.inr (Or.inr (Or.inl ⟨rfl, rfl⟩))), by decide, Or.inl ⟨rfl, by decide, by decide, [3, 5], ⟨by decide, by decide⟩, rfl, by decide⟩⟩

example : run (icsInfo (bandsAt 48000) 1) [true, false, false, true, true, true, false, true, true, false, true, true, true, true] =
    .ok (⟨2, 0, 14, [3, 8]⟩, []) := by decide +kernel

/-! ## The table of offsets -/

theorem groupLens_ends (lens : List Nat) (start : Nat) (h : ∀ n ∈ lens, 0 < n) (hs : start + lens.sum = 8) (hne : lens ≠ []) :
    groupLens start (groupEnds start lens) = .ok lens := by
  induction lens generalizing start with
  | nil => exact absurd rfl hne
  | cons n lens ih =>
    have hn := h n (by simp)
    simp only [List.sum_cons] at hs
    simp only [groupEnds, groupLens]
    by_cases hl : lens = []
    · subst hl
      rw [if_neg (by simp at hs; omega), show start + n - start = n by omega]
    · have hpos : 0 < lens.sum := by
        cases lens with
        | nil => exact absurd rfl hl
        | cons m lens =>
          have := h m (by simp)
          simp
          omega
      rw [if_pos (by omega), ih (start + n) (fun m hm => h m (by simp [hm])) (by omega) hl, Res.ok_bind,
        show start + n - start = n by omega]

theorem offsetRow_eq (len : Nat) (es : List Nat) (last offset : Nat) (h : (last :: es).Pairwise (· ≤ ·)) :
    offsetRow len offset (widths last es) = es.map fun e => offset + (e - last) * len := by
  induction es generalizing last offset with
  | nil => rfl
  | cons e es ih =>
    have h1 : last ≤ e := (List.pairwise_cons.mp h).1 e (by simp)
    have h2 := (List.pairwise_cons.mp h).2
    simp only [widths, offsetRow, List.map_cons, ih e _ h2]
    congr 1
    refine List.map_congr_left fun x hx => ?_
    have h3 : e ≤ x := (List.pairwise_cons.mp h2).1 x hx
    rw [Nat.add_assoc, ← Nat.add_mul, show e - last + (x - e) = x - last by omega]

theorem offsets_eq (es : List Nat) (h : (0 :: es).Pairwise (· ≤ ·)) (hlast : es.getLast? = some 128) (lens : List Nat) (s : Nat) :
    offsets (widths 0 es) (128 * s) lens =
      (List.zip (groupEnds s lens) lens).flatMap fun p => es.map fun e => 128 * (p.1 - p.2) + e * p.2 := by
  induction lens generalizing s with
  | nil => rfl
  | cons n lens ih =>
    simp only [offsets, groupEnds, List.zip_cons_cons, List.flatMap_cons]
    rw [offsetRow_eq n es 0 _ h]
    have hl : (es.map fun e => 128 * s + (e - 0) * n).getLastD (128 * s) = 128 * (s + n) := by
      rw [List.getLastD_eq_getLast?, List.getLast?_map, hlast]
      simp
      omega
    rw [hl, ih (s + n)]
    congr 1
    refine List.map_congr_left fun x _ => ?_
    rw [show s + n - n = s by omega, Nat.sub_zero]

theorem short_ok (b : Bands) (h : b ∈ bandTable) : (0 :: b.short).Pairwise (· ≤ ·) ∧ b.short.getLast? = some 128 ∧ b.short.length ≤ 15 := by
  revert b
  decide +kernel

theorem long_ok (b : Bands) (h : b ∈ bandTable) : (0 :: b.long).Pairwise (· ≤ ·) ∧ b.long.getLast? = some 1024 ∧ b.long.length ≤ 51 := by
  revert b
  decide +kernel

theorem bandsAt_mem (rate : Nat) : bandsAt rate ∈ bandTable := by
  have h : rateIndex rate < bandTable.length := by
    have : rateIndex rate ≤ 11 := List.findIdx_le_length
    show rateIndex rate < 13
    omega
  unfold bandsAt
  rw [List.getD_eq_getElem?_getD, List.getElem?_eq_getElem h]
  exact List.getElem_mem h

theorem sum_le_length (lens : List Nat) (h : ∀ n ∈ lens, 0 < n) : lens.length ≤ lens.sum := by
  induction lens with
  | nil => exact Nat.le_refl _
  | cons n lens ih =>
    have := h n (by simp)
    have := ih fun m hm => h m (by simp [hm])
    simp
    omega

/-- The entry of band `s` in group `g`: the windows of the groups before, and the bands up to `s` of the windows of the group. -/
theorem offsets_entry (es : List Nat) (lens : List Nat) (start g s : Nat) (hg : g < lens.length) (hs : s < es.length) :
    ((List.zip (groupEnds start lens) lens).flatMap fun p => es.map fun e => 128 * (p.1 - p.2) + e * p.2)[g * es.length + s]? =
      some (128 * (start + (lens.take g).sum) + es[s] * lens[g]) := by
  induction lens generalizing start g with
  | nil => exact absurd hg (Nat.not_lt_zero _)
  | cons n lens ih =>
    simp only [groupEnds, List.zip_cons_cons, List.flatMap_cons]
    cases g with
    | zero =>
      rw [List.getElem?_append_left (by simp; exact hs)]
      simp [List.getElem?_eq_getElem hs]
    | succ g =>
      rw [List.getElem?_append_right (by simp [Nat.add_mul]; omega), List.length_map,
        show (g + 1) * es.length + s - es.length = g * es.length + s by rw [Nat.add_mul]; omega,
        ih (start + n) g (by simpa using hg)]
      simp [Nat.add_assoc]

theorem zip_flat_length (es : List Nat) (lens : List Nat) (start : Nat) :
    ((List.zip (groupEnds start lens) lens).flatMap fun p => es.map fun e => 128 * (p.1 - p.2) + e * p.2).length = lens.length * es.length := by
  induction lens generalizing start with
  | nil => simp [groupEnds]
  | cons n lens ih =>
    simp only [groupEnds, List.zip_cons_cons, List.flatMap_cons, List.length_append, ih, List.length_map, List.length_cons, Nat.add_mul]
    omega

/-- **C178** From the ends of coded groups the lengths are found again, and the table of offsets has for each group and band the number of
lines before its end; it has at most 120 entries (of 125) and at all sampling rates the last one is 1024. -/
theorem C178_offsets (rate : Nat) (lens : List Nat) (hg : Groups lens) :
    groupLens 0 (groupEnds 0 lens) = .ok lens ∧
    (offsets (widths 0 (bandsAt rate).short) 0 lens).length = lens.length * (bandsAt rate).short.length ∧
    lens.length * (bandsAt rate).short.length ≤ 120 ∧
    (∀ g s, (h1 : g < lens.length) → (h2 : s < (bandsAt rate).short.length) →
      (offsets (widths 0 (bandsAt rate).short) 0 lens)[g * (bandsAt rate).short.length + s]? =
        some (128 * (lens.take g).sum + (bandsAt rate).short[s] * lens[g])) ∧
    (offsets (widths 0 (bandsAt rate).short) 0 lens).getLast? = some 1024 := by
  obtain ⟨h1, h2, h3⟩ := short_ok _ (bandsAt_mem rate)
  have hne : lens ≠ [] := by
    rintro rfl
    exact absurd hg.2 (by decide)
  have hl := sum_le_length lens hg.1
  have he := offsets_eq (bandsAt rate).short h1 h2 lens 0
  simp only [Nat.mul_zero] at he
  have hlen := zip_flat_length (bandsAt rate).short lens 0
  have hs0 : 0 < (bandsAt rate).short.length := by
    rcases hb : (bandsAt rate).short with _ | ⟨a, b⟩
    · rw [hb] at h2
      cases h2
    · simp
  have hentry := fun g s (hg' : g < lens.length) (hs : s < (bandsAt rate).short.length) =>
    offsets_entry (bandsAt rate).short lens 0 g s hg' hs
  refine ⟨groupLens_ends lens 0 hg.1 (by rw [hg.2]) hne, by rw [he, hlen], ?_, ?_, ?_⟩
  · have : lens.length * (bandsAt rate).short.length ≤ 8 * 15 := Nat.mul_le_mul (by rw [← hg.2]; exact hl) h3
    omega
  · intro g s hg' hs
    rw [he, hentry g s hg' hs, Nat.zero_add]
  · have hpos : 0 < lens.length := List.length_pos_iff.mpr hne
    rw [he, List.getLast?_eq_getElem?, hlen]
    have e : lens.length * (bandsAt rate).short.length - 1 =
        (lens.length - 1) * (bandsAt rate).short.length + ((bandsAt rate).short.length - 1) := by
      have : lens.length * (bandsAt rate).short.length = (lens.length - 1) * (bandsAt rate).short.length + (bandsAt rate).short.length := by
        conv => lhs; rw [show lens.length = (lens.length - 1) + 1 by omega, Nat.add_mul, Nat.one_mul]
      omega
    rw [e, hentry _ _ (by omega) (by omega), Nat.zero_add]
    have h128 : (bandsAt rate).short[(bandsAt rate).short.length - 1]'(by omega) = 128 := by
      rw [List.getLast?_eq_getElem?, List.getElem?_eq_getElem (by omega)] at h2
      exact Option.some.inj h2
    rw [h128]
    have hsum : (lens.take (lens.length - 1)).sum + lens[lens.length - 1]'(by omega) = 8 := by
      rw [← hg.2]
      conv => rhs; rw [← List.take_append_drop (lens.length - 1) lens]
      rw [List.sum_append, List.drop_eq_getElem_cons (by omega), show lens.length - 1 + 1 = lens.length by omega, List.drop_length]
      simp
    refine congrArg some ?_
    omega

example : Groups [3, 5] ∧ offsets (widths 0 (bandsAt 48000).short) 0 [3, 5] = [12, 24, 36, 48, 60, 84, 108, 132, 168, 204, 240, 288, 336, 384,
    404, 424, 444, 464, 484, 524, 564, 604, 664, 724, 784, 864, 944, 1024] := by
  refine ⟨⟨by decide, by decide⟩, ?_⟩
  decide +kernel

/-! ## Sequences of windows -/

theorem bits_err {α : Type} {n : Nat} {f : Nat → Prog α} {l : List Bool} {c : ErrCode} (hn : n ≤ 24)
    (h : run (bits n >>= f) l = .err c) : ∃ v l', v < 2 ^ n ∧ run (f v) l' = .err c := by
  rw [run_bind, run_bits] at h
  by_cases h1 : l.length < n
  · rw [if_pos h1] at h
    cases h
  · rw [if_neg h1, if_neg (by omega), Res.ok_bind] at h
    refine ⟨_, _, ?_, h⟩
    have := bitsVal_lt (l.take n)
    rwa [show (l.take n).length = n by simp; omega] at this

/-- **C179** The window sequence is never reported as wrong. -/
theorem C179_no_error (bands : Bands) (last : Nat) (l : List Bool) : run (icsInfo bands last) l ≠ .err wrongSeq := by
  intro h
  unfold icsInfo at h
  obtain ⟨c, l1, hc, h⟩ := bits_err (by omega) h
  have hsome : ∃ s, winSeq c last = some s := by
    have : c = 0 ∨ c = 1 ∨ c = 2 ∨ c = 3 := by omega
    rcases this with rfl | rfl | rfl | rfl
    · exact ⟨_, rfl⟩
    · simp only [winSeq]
      split
      · exact ⟨_, rfl⟩
      · exact ⟨_, rfl⟩
    · exact ⟨_, rfl⟩
    · exact ⟨_, rfl⟩
  obtain ⟨s, hs⟩ := hsome
  simp only [hs] at h
  obtain ⟨shape, l2, -, h⟩ := bits_err (by omega) h
  by_cases h4 : isLong s = false
  · rw [if_pos h4] at h
    obtain ⟨m, l3, -, h⟩ := bits_err (by omega) h
    obtain ⟨g, l4, -, h⟩ := bits_err (by omega) h
    split at h
    · simp [badMaxSfb, wrongSeq] at h
    · simp at h
  · rw [if_neg h4] at h
    obtain ⟨m, l3, -, h⟩ := bits_err (by omega) h
    split at h
    · simp [badMaxSfb, wrongSeq] at h
    · simp at h

/-- **C179** Windows whose slopes do not fit are accepted: a long window behind a start window. -/
theorem C179_fits_refuted : ¬ ∀ (rate last : Nat) (l l' : List Bool) (i : Ics), last ≤ 4 →
    run (icsInfo (bandsAt rate) last) l = .ok (i, l') → Fits last i.seq := by
  intro h
  have h1 := h 48000 1 [false, false, false, true, true, false, false, false, false] [] ⟨0, 0, 48, [1]⟩ (by decide) (by decide +kernel)
  unfold Fits RightShort LeftShort at h1
  exact absurd (h1.mp (Or.inl rfl)) (by decide)

/-- **C179** (partial: only for start windows; all others are taken as they are coded)  A start window fits the window before it. -/
theorem C179_fits_partial (bands : Bands) (last : Nat) (l l' : List Bool) (i : Ics)
    (h : run (icsInfo bands last) l = .ok (i, l')) :
    (i.seq = 1 ∨ i.seq = 4 → Fits last i.seq) ∧ (i.seq ≤ 4) ∧
    (l.take 2 = natBits 2 1 ↔ (i.seq = 1 ∨ i.seq = 4)) ∧ (l.take 2 ≠ natBits 2 1 → l.take 2 = natBits 2 i.seq) := by
  obtain ⟨b, ⟨c, h1, h2, h3⟩, rfl⟩ := (C178_windows bands last l i l').mp h
  have hb : (b ++ l').take 2 = natBits 2 c := by
    have : ∃ r, b = natBits 2 c ++ r := by
      rcases h3 with ⟨-, -, -, lens, -, -, rfl⟩ | ⟨-, -, -, -, rfl⟩
      · exact ⟨_, by simp; rfl⟩
      · exact ⟨_, by simp; rfl⟩
    obtain ⟨r, rfl⟩ := this
    rw [List.append_assoc, List.take_append_of_le_length (by simp), List.take_of_length_le (by simp)]
  rw [hb]
  have hinj : ∀ d, d < 4 → c < 4 → (natBits 2 c = natBits 2 d ↔ c = d) := by
    intro d hd hc
    constructor
    · intro he
      have := congrArg bitsVal he
      rwa [bitsVal_natBits, bitsVal_natBits, Nat.mod_eq_of_lt hc, Nat.mod_eq_of_lt hd] at this
    · rintro rfl
      rfl
  unfold SeqCode at h1
  unfold Fits
  have hc : c < 4 := by omega
  rw [hinj 1 (by omega) hc]
  unfold LeftShort
  rcases h1 with ⟨rfl, h⟩ | ⟨rfl, h, hr⟩ | ⟨rfl, h, hr⟩ | ⟨rfl, h⟩ | ⟨rfl, h⟩
  · rw [h]; simp
  · rw [h]; simp [hr]
  · rw [h]; simp [hr]
  · rw [h]; simp
  · rw [h]; simp

example : run (icsInfo (bandsAt 48000) 2) [false, true, false, true, true, false, false, false, false] =
    .ok (⟨4, 0, 48, [1]⟩, []) := by decide +kernel

/-! ## Noise shaping in time -/

theorem coef_reads {n : Nat} (h1 : 1 ≤ n) (h24 : n ≤ 24) :
    Reads (coef n) (fun c b => (-2 ^ (n - 1) ≤ c ∧ c < 2 ^ (n - 1)) ∧ b = coefBits n c) := by
  unfold coef
  obtain ⟨m, rfl⟩ : ∃ m, n = m + 1 := ⟨n - 1, by omega⟩
  simp only [Nat.add_sub_cancel]
  have hp : (2 : Int) ^ m > 0 := Int.pow_pos (by omega)
  have hpn : (2 : Nat) ^ m > 0 := Nat.two_pow_pos m
  have hcast : ((2 ^ m : Nat) : Int) = 2 ^ m := by simp
  have hdbl : (2 : Int) ^ (m + 1) = 2 * 2 ^ m := by rw [Int.pow_succ]; omega
  have hdbn : (2 : Nat) ^ (m + 1) = 2 * 2 ^ m := by rw [Nat.pow_succ]; omega
  have hbit : ∀ v : Nat, v < 2 ^ (m + 1) → (v.testBit m = decide (2 ^ m ≤ v)) := by
    intro v hv
    rw [Nat.testBit_eq_decide_div_mod_eq]
    by_cases hge : 2 ^ m ≤ v
    · have : v / 2 ^ m = 1 := by
        apply Nat.div_eq_of_lt_le <;> omega
      simp [this, hge]
    · have : v / 2 ^ m = 0 := Nat.div_eq_of_lt (by omega)
      simp [this, hge]
  refine ((field_reads (w := m + 1) h24).bind fun v _ _ => Reads.pure _).congr fun c b => ?_
  constructor
  · rintro ⟨v, _, _, ⟨hv, rfl⟩, ⟨rfl, rfl⟩, rfl⟩
    rw [hbit v hv, List.append_nil]
    unfold coefBits
    by_cases hge : 2 ^ m ≤ v
    · rw [decide_eq_true hge, if_pos rfl]
      have hge' : (2 : Int) ^ m ≤ v := by omega
      refine ⟨by omega, ?_⟩
      have e : ((v : Int) - 2 ^ (m + 1)) % 2 ^ (m + 1) = v := by
        rw [Int.sub_emod_right, Int.emod_eq_of_lt (by omega) (by omega)]
      rw [e]
      rfl
    · rw [decide_eq_false hge, if_neg (by decide)]
      refine ⟨by omega, ?_⟩
      rw [Int.emod_eq_of_lt (by omega) (by omega)]
      rfl
  · rintro ⟨⟨h2, h3⟩, rfl⟩
    by_cases hneg : 0 ≤ c
    · refine ⟨c.toNat, _, [], ⟨by omega, rfl⟩, ⟨?_, rfl⟩, ?_⟩
      · rw [hbit _ (by omega), decide_eq_false (by omega), if_neg (by decide)]
        omega
      · unfold coefBits
        rw [Int.emod_eq_of_lt hneg (by omega), List.append_nil]
    · have e : c % 2 ^ (m + 1) = c + 2 ^ (m + 1) := by
        rw [← Int.add_emod_right, Int.emod_eq_of_lt (by omega) (by omega)]
      refine ⟨(c + 2 ^ (m + 1)).toNat, _, [], ⟨by omega, rfl⟩, ⟨?_, rfl⟩, ?_⟩
      · rw [hbit _ (by omega), decide_eq_true (by omega), if_pos rfl]
        omega
      · unfold coefBits
        rw [e, List.append_nil]

theorem each_coef {n i : Nat} {cs : List Int} {b : List Bool} :
    Each (fun _ c b => (-2 ^ (n - 1) ≤ c ∧ c < 2 ^ (n - 1)) ∧ b = coefBits n c) i cs b ↔
      (∀ c ∈ cs, -2 ^ (n - 1) ≤ c ∧ c < 2 ^ (n - 1)) ∧ b = cs.flatMap (coefBits n) := by
  induction cs generalizing i b with
  | nil => simp [Each]
  | cons c cs ih =>
    simp only [Each, ih]
    constructor
    · rintro ⟨_, _, ⟨h1, rfl⟩, ⟨h2, rfl⟩, rfl⟩
      refine ⟨?_, by simp⟩
      intro x hx
      rcases List.mem_cons.mp hx with rfl | hx
      · exact h1
      · exact h2 x hx
    · rintro ⟨h, rfl⟩
      exact ⟨_, _, ⟨h c (by simp), rfl⟩, ⟨fun x hx => h x (by simp [hx]), rfl⟩, by simp⟩

theorem filt_reads {sb ob res top : Nat} (h1 : sb ≤ 24) (h2 : ob ≤ 24) (h3 : 2 ≤ res) (h4 : res ≤ 24) :
    Reads (filt sb ob res top) (FiltCode 1 sb ob res top) := by
  unfold filt
  refine ((field_reads h1).bind fun d _ _ => Reads.ite (c := top ≤ d) (fun _ => Reads.fail _) fun _ =>
    (field_reads h2).bind fun order _ _ => Reads.ite (c := order = 0) (fun _ => Reads.pure _) fun _ =>
      (field_reads (w := 1) (by omega)).bind fun dir _ _ => (field_reads (w := 1) (by omega)).bind fun p _ hp =>
        (forN_reads order 0 fun j _ _ => coef_reads (n := res - p) (by have : p < 2 := hp.1; omega) (by omega)).bind fun cs _ _ =>
          Reads.pure _).congr fun f b => ?_
  unfold FiltCode
  constructor
  · rintro ⟨d, _, _, ⟨hd, rfl⟩, h, rfl⟩
    by_cases ht : top ≤ d
    · rw [if_pos ht] at h
      exact h.elim
    · rw [if_neg ht] at h
      obtain ⟨o, _, _, ⟨ho, rfl⟩, h, rfl⟩ := h
      by_cases ho0 : o = 0
      · rw [if_pos ho0] at h
        obtain ⟨rfl, rfl⟩ := h
        subst ho0
        refine ⟨d, hd, rfl, ?_, ?_, ?_, Or.inl ⟨rfl, rfl, by simp⟩⟩
        · show top - d + d = top
          omega
        · show 1 ≤ top - d
          omega
        · exact Nat.two_pow_pos ob
      · rw [if_neg ho0] at h
        obtain ⟨dir, _, _, ⟨hdir, rfl⟩, ⟨p, _, _, ⟨hp, rfl⟩, ⟨cs, _, _, ⟨hl, hc⟩, ⟨rfl, rfl⟩, rfl⟩, rfl⟩, rfl⟩ := h
        obtain ⟨hc1, rfl⟩ := each_coef.mp hc
        refine ⟨d, hd, rfl, ?_, ?_, ?_, Or.inr ⟨?_, hdir, p, hp, hc1, ?_⟩⟩
        · show top - d + d = top
          omega
        · show 1 ≤ top - d
          omega
        · show cs.length < _
          omega
        · show cs ≠ []
          rintro rfl
          exact ho0 hl.symm
        · show _ = natBits sb d ++ natBits ob cs.length ++ natBits 1 dir ++ natBits 1 p ++ cs.flatMap _
          rw [hl]
          simp
  · rintro ⟨d, hd, hstop, hstart, hl, hc, h⟩
    have hd0 : ¬ top ≤ d := by omega
    rcases h with ⟨h5, h6, rfl⟩ | ⟨h5, h6, p, hp, hcs, rfl⟩
    · refine ⟨d, _, natBits ob 0 ++ [], ⟨hd, rfl⟩, ?_, by simp⟩
      rw [if_neg hd0]
      refine ⟨0, _, [], ⟨Nat.two_pow_pos ob, rfl⟩, ?_, rfl⟩
      rw [if_pos rfl]
      refine ⟨?_, rfl⟩
      rw [← h5, ← h6, ← hstop, show f.stop - d = f.start by omega]
    · refine ⟨d, _, natBits ob f.coef.length ++ (natBits 1 f.dir ++ (natBits 1 p ++ (f.coef.flatMap (coefBits (res - p)) ++ []))),
        ⟨hd, rfl⟩, ?_, by simp⟩
      rw [if_neg hd0]
      refine ⟨f.coef.length, _, _, ⟨hc, rfl⟩, ?_, rfl⟩
      rw [if_neg (fun h0 => h5 (List.length_eq_zero_iff.mp h0))]
      refine ⟨f.dir, _, _, ⟨h6, rfl⟩, ⟨p, _, _, ⟨hp, rfl⟩, ⟨f.coef, _, [], ⟨rfl, each_coef.mpr ⟨hcs, rfl⟩⟩, ⟨?_, rfl⟩, rfl⟩, rfl⟩, rfl⟩
      rw [← hstop, show f.stop - d = f.start by omega]

theorem filts_reads {sb ob res : Nat} (h1 : sb ≤ 24) (h2 : ob ≤ 24) (h3 : 2 ≤ res) (h4 : res ≤ 24) : ∀ (n top : Nat),
    Reads (filts sb ob res n top) (fun fs b => fs.length = n ∧ FiltsCode 1 sb ob res top fs b)
  | 0, top => (Reads.pure []).congr fun fs b => by
      constructor
      · rintro ⟨rfl, rfl⟩
        exact ⟨rfl, rfl⟩
      · rintro ⟨hl, h⟩
        obtain rfl := List.length_eq_zero_iff.mp hl
        exact ⟨rfl, h⟩
  | n + 1, top => by
      unfold filts
      refine ((filt_reads h1 h2 h3 h4).bind fun f _ _ => (filts_reads h1 h2 h3 h4 n f.start).bind fun fs _ _ =>
        Reads.pure (f :: fs)).congr fun fs b => ?_
      constructor
      · rintro ⟨f, b1, _, hf, ⟨fs, b2, _, ⟨hl, hfs⟩, ⟨rfl, rfl⟩, rfl⟩, rfl⟩
        exact ⟨by simp [hl], b1, b2, hf, hfs, by simp⟩
      · rintro ⟨hl, h⟩
        cases fs with
        | nil => simp at hl
        | cons f fs =>
          obtain ⟨b1, b2, hf, hfs, rfl⟩ := h
          exact ⟨f, b1, b2, hf, ⟨fs, b2, [], ⟨by simpa using hl, hfs⟩, ⟨rfl, rfl⟩, by simp⟩, rfl⟩

theorem tnsWin_reads {fb sb ob num : Nat} (h0 : fb ≤ 24) (h1 : sb ≤ 24) (h2 : ob ≤ 24) :
    Reads (tnsWin fb sb ob num) (WinCode 1 fb sb ob num) := by
  unfold tnsWin
  refine ((field_reads h0).bind fun n _ _ => Reads.ite (c := n = 0) (fun _ => Reads.pure _) fun _ =>
    (field_reads (w := 1) (by omega)).bind fun r _ hr => (filts_reads h1 h2 (res := r + 3) (by omega)
      (by have : r < 2 := hr.1; omega) n num).bind fun fs _ _ => Reads.pure _).congr fun w b => ?_
  unfold WinCode
  constructor
  · rintro ⟨n, _, _, ⟨hn, rfl⟩, h, rfl⟩
    by_cases hn0 : n = 0
    · rw [if_pos hn0] at h
      obtain ⟨rfl, rfl⟩ := h
      subst hn0
      exact ⟨Nat.two_pow_pos fb, Or.inl ⟨rfl, rfl, by simp⟩⟩
    · rw [if_neg hn0] at h
      obtain ⟨r, _, _, ⟨hr, rfl⟩, ⟨fs, b', _, ⟨hl, hfs⟩, ⟨rfl, rfl⟩, rfl⟩, rfl⟩ := h
      refine ⟨by show fs.length < _; omega, Or.inr ⟨?_, r, hr, rfl, b', hfs, ?_⟩⟩
      · show fs ≠ []
        rintro rfl
        exact hn0 hl.symm
      · show _ = natBits fb fs.length ++ _ ++ _
        rw [hl]
        simp
  · rintro ⟨hl, ⟨h3, h4, rfl⟩ | ⟨h3, r, hr, h4, b', hfs, rfl⟩⟩
    · refine ⟨0, _, [], ⟨Nat.two_pow_pos fb, rfl⟩, ?_, by simp⟩
      rw [if_pos rfl]
      refine ⟨?_, rfl⟩
      cases w
      simp only at h3 h4
      rw [h3, h4]
    · refine ⟨w.filt.length, _, natBits 1 r ++ (b' ++ []), ⟨hl, rfl⟩, ?_, by simp⟩
      rw [if_neg (fun h0 => h3 (List.length_eq_zero_iff.mp h0))]
      refine ⟨r, _, _, ⟨hr, rfl⟩, ⟨w.filt, b', [], ⟨rfl, by rw [← h4]; exact hfs⟩, ⟨?_, rfl⟩, rfl⟩, rfl⟩
      rw [← h4]

/-- **C180** (partial: only filters that do not start at the lowest band)  Noise shaping data are accepted exactly if they are coded with
filters one below the other that start above the lowest band, and the coefficients are decoded from two's complement. -/
theorem C180_tns_partial (bands : Bands) (long : Bool) : Reads (tnsData bands (some long)) (TnsCode 1 bands long) := by
  unfold TnsCode
  cases long with
  | true =>
    simp only [if_true]
    exact forN_reads 1 0 fun _ _ _ => tnsWin_reads (by omega) (by omega) (by omega)
  | false =>
    simp only [Bool.false_eq_true, if_false]
    exact forN_reads 8 0 fun _ _ _ => tnsWin_reads (by omega) (by omega) (by omega)

/-- A filter of order 2 over bands 30 to 48. -/
example : TnsCode 1 (bandsAt 48000) true [⟨4, [⟨30, 49, 1, [-8, 5]⟩]⟩]
    (natBits 2 1 ++ natBits 1 1 ++ (natBits 6 19 ++ natBits 4 2 ++ natBits 1 1 ++ natBits 1 0 ++ [true, false, false, false, false, true, false, true])) := by
  refine ⟨rfl, _, [], ⟨by decide, Or.inr ⟨by simp, 1, by decide, rfl, _, ⟨_, [], ⟨19, by decide, rfl, rfl, by decide, by decide,
    Or.inr ⟨by simp, by decide, 0, by decide, by decide, rfl⟩⟩, rfl, rfl⟩, rfl⟩⟩, rfl, ?_⟩
  decide +kernel

example : run (tnsData (bandsAt 48000) (some true)) (natBits 2 1 ++ natBits 1 1 ++ (natBits 6 19 ++ natBits 4 2 ++ natBits 1 1 ++ natBits 1 0 ++
    [true, false, false, false, false, true, false, true])) = .ok ([⟨4, [⟨30, 49, 1, [-8, 5]⟩]⟩], []) := by decide +kernel

/-- **C180** The same with filters that may start at the lowest band is false: at every sampling rate a filter over all bands of a long
window can be coded but is reported as wrong. -/
theorem C180_tns_refuted :
    (¬ ∀ (bands : Bands) (long : Bool), Reads (tnsData bands (some long)) (TnsCode 0 bands long)) ∧
    ∀ (rate : Nat) (cs : List Int) (l : List Bool), cs ≠ [] → cs.length < 16 → (∀ c ∈ cs, -8 ≤ c ∧ c < 8) →
      ∃ b, TnsCode 0 (bandsAt rate) true [⟨4, [⟨0, (bandsAt rate).long.length, 0, cs⟩]⟩] b ∧
        run (tnsData (bandsAt rate) (some true)) (b ++ l) = .err badStart := by
  have key : ∀ (rate : Nat) (cs : List Int) (l : List Bool), cs ≠ [] → cs.length < 16 → (∀ c ∈ cs, -8 ≤ c ∧ c < 8) →
      ∃ b, TnsCode 0 (bandsAt rate) true [⟨4, [⟨0, (bandsAt rate).long.length, 0, cs⟩]⟩] b ∧
        run (tnsData (bandsAt rate) (some true)) (b ++ l) = .err badStart := by
    intro rate cs l h1 h2 h3
    have hlen := (long_ok _ (bandsAt_mem rate)).2.2
    refine ⟨natBits 2 1 ++ natBits 1 1 ++ (natBits 6 (bandsAt rate).long.length ++ natBits 4 cs.length ++ natBits 1 0 ++ natBits 1 0 ++
      cs.flatMap (coefBits 4)), ?_, ?_⟩
    · refine ⟨rfl, _, [], ⟨by simp, Or.inr ⟨by simp, 1, by decide, rfl, _, ⟨_, [], ⟨(bandsAt rate).long.length, ?_, rfl, ?_, Nat.zero_le _, h2,
        Or.inr ⟨h1, by show 0 < 2; omega, 0, by decide, ?_, rfl⟩⟩, rfl, rfl⟩, rfl⟩⟩, rfl, ?_⟩
      · omega
      · simp
      · exact h3
      · simp
    · simp only [tnsData, forN, tnsWin, filts, filt, Bands.num, if_true]
      simp only [List.append_assoc]
      simp only [run_bind]
      rw [run_bits_append 2 1 (by omega)]
      simp only [Res.ok_bind, Nat.reduceMod, Nat.reducePow, Nat.one_ne_zero, if_false, run_bind]
      rw [run_bits_append 1 1 (by omega)]
      simp only [Res.ok_bind, Nat.reduceMod, Nat.reducePow, run_bind, filts, filt]
      rw [run_bits_append 6 _ (by omega), Nat.mod_eq_of_lt (by omega)]
      simp only [Res.ok_bind]
      rw [if_pos (Nat.le_refl _)]
      rfl
  refine ⟨?_, key⟩
  intro h
  obtain ⟨b, hb, hr⟩ := key 48000 [1] [] (by simp) (by decide) (by decide)
  rw [(h _ true).run hb] at hr
  cases hr

end Verif.Fd
