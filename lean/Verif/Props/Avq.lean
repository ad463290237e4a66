import Verif.Props.AvqBook
import Verif.Props.AvqVoronoi

/-! # Points of the lattice are decoded from their codes -/

namespace Verif.Avq

open Res

theorem ext_facts {qn : Nat} (h : 4 < qn) : extension qn = (qn - 3) / 2 ∧ 1 ≤ extension qn ∧ (baseNumber qn = 3 ∨ baseNumber qn = 4) := by
  unfold baseNumber extension
  rw [if_pos h]
  omega

theorem base_small {qn : Nat} (h : ¬ 4 < qn) : baseNumber qn = qn := by
  unfold baseNumber extension
  rw [if_neg h]
  omega

theorem base_zero {n : Nat} (hn : n < 2) (c : Nat) : base n c = .ok (List.replicate 8 0) := by
  unfold base
  rw [if_neg (by omega)]

theorem zero_lattice : Lattice (List.replicate 8 0) := by
  refine ⟨rfl, Or.inl ?_, rfl⟩
  intro a ha
  rw [List.eq_of_mem_replicate ha]
  rfl

/-- The parts of a code of a larger codebook. -/
theorem decode_parts {qn c : Nat} {kv : List Int} (h : IsCode qn c kv) (hq : qn ≤ 52) (h4 : 4 < qn) :
    ∃ b v, base (baseNumber qn) c = .ok b ∧ Lattice b ∧ Lattice v ∧
      voronoi kv (2 ^ extension qn) (extension qn) = .ok (reduce (combine kv) (2 ^ extension qn) v) ∧
      decode qn c kv = .ok (extend (2 ^ extension qn) b (reduce (combine kv) (2 ^ extension qn) v)) := by
  obtain ⟨e1, e2, e3⟩ := ext_facts h4
  have hx : extension qn ≤ 24 := by omega
  have hp := pow_small hx
  obtain ⟨b, hb, hbl, hbr⟩ := base_lattice (n := baseNumber qn) (c := c) (by omega) h.index
  obtain ⟨v, _, _, _, _, hv, hvr, _, _, _, he⟩ := voronoi_ok e2 hx h.range
  refine ⟨b, vec v, hb, hbl, hv, he, ?_⟩
  unfold decode
  have ec : ((qn : Int) - 3) / 2 = (extension qn : Int) := by rw [e1]; omega
  have eb : (qn : Int) - 2 * (extension qn : Int) = (baseNumber qn : Int) := by unfold baseNumber; omega
  rw [if_pos (by omega)]
  simp only [ec, eb]
  rw [if_neg (by omega), Int.toNat_natCast, he, ok_bind, hb, ok_bind]
  unfold extend
  apply upTo_ok
  intro i hi
  have h1 : -20 ≤ b.getD i 0 ∧ b.getD i 0 ≤ 20 := by
    rw [List.getD_eq_getElem?_getD, List.getElem?_eq_getElem (by rw [hbl.1]; exact hi)]
    exact hbr _ (List.getElem_mem _)
  have h2 := hvr i hi
  have h3 := combine_range (by omega) h.range i hi
  have er : (reduce (combine kv) (2 ^ extension qn) (vec v)).getD i 0 = (combine kv).getD i 0 - 2 ^ extension qn * v i := by
    have := vec_getD (fun i => (combine kv).getD i 0 - 2 ^ extension qn * (vec v).getD i 0) hi
    rw [vec_getD v hi] at this
    exact this
  rw [er]
  have h4 : -402653184 ≤ 2 ^ extension qn * v i ∧ 2 ^ extension qn * v i ≤ 402653184 := by constructor <;> nlinarith
  have h5 : -335544320 ≤ 2 ^ extension qn * b.getD i 0 ∧ 2 ^ extension qn * b.getD i 0 ≤ 335544320 := by constructor <;> nlinarith
  rw [sat_small ⟨by omega, by omega⟩, add_small ⟨by omega, by omega⟩ ⟨by omega, by omega⟩]

/-! ## C154: every code is decoded to a point of the lattice -/

theorem C154_lattice_partial {qn c : Nat} {kv : List Int} (h : IsCode qn c kv) (hq : qn ≤ 52) :
    ∃ x, decode qn c kv = .ok x ∧ Lattice x := by
  by_cases h4 : 4 < qn
  · obtain ⟨b, v, _, hb, hv, _, he⟩ := decode_parts h hq h4
    refine ⟨_, he, ?_⟩
    obtain ⟨_, e2, _⟩ := ext_facts h4
    obtain ⟨M, hM⟩ : ∃ M : Int, (2 : Int) ^ extension qn = 2 * M := by
      refine ⟨2 ^ (extension qn - 1), ?_⟩
      rw [mul_comm, ← pow_succ]
      congr 1
      omega
    rw [hM, vec_of hb.1, vec_of hv.1]
    rw [vec_of hb.1] at hb
    rw [vec_of hv.1] at hv
    have el : extend (2 * M) (vec fun i => b.getD i 0) (reduce (combine kv) (2 * M) (vec fun i => v.getD i 0)) =
        vec fun i => 2 * M * b.getD i 0 + ((combine kv).getD i 0 - 2 * M * v.getD i 0) := by
      unfold extend
      apply List.map_congr_left
      intro i hi
      have hi := List.mem_range.mp hi
      rw [vec_getD _ hi]
      have := vec_getD (fun i => (combine kv).getD i 0 - 2 * M * (vec fun i => v.getD i 0).getD i 0) hi
      rw [vec_getD (fun i => v.getD i 0) hi] at this
      exact congrArg _ this
    rw [el]
    have fb := (lattice_vec.mp hb).2
    have fv := (lattice_vec.mp hv).2
    have par : ∀ i < 8, (2 * M * b.getD i 0 + ((combine kv).getD i 0 - 2 * M * v.getD i 0)) % 2 = kv.getD 7 0 % 2 := by
      intro i hi
      have e : 2 * M * b.getD i 0 + ((combine kv).getD i 0 - 2 * M * v.getD i 0) =
        (combine kv).getD i 0 + 2 * (M * (b.getD i 0 - v.getD i 0)) := by ring
      rw [e, combine_getD kv i hi]
      split
      · omega
      · split <;> omega
    rw [lattice_vec]
    constructor
    · rcases Int.emod_two_eq_zero_or_one (kv.getD 7 0) with h7 | h7
      · exact Or.inl fun i hi => by rw [par i hi, h7]
      · exact Or.inr fun i hi => by rw [par i hi, h7]
    · rw [Finset.sum_add_distrib, Finset.sum_sub_distrib, ← Finset.mul_sum, ← Finset.mul_sum]
      have ec : ∑ i ∈ Finset.range 8, (combine kv).getD i 0 = 4 * (kv.getD 0 0 + kv.getD 1 0 + kv.getD 2 0 + kv.getD 3 0 + kv.getD 4 0 +
          kv.getD 5 0 + kv.getD 6 0 + 2 * kv.getD 7 0) := by
        rw [sum_eight]
        unfold combine
        simp only [List.getD_cons_zero, List.getD_cons_succ]
        ring
      rw [ec]
      obtain ⟨B, hB⟩ := Int.dvd_of_emod_eq_zero fb
      obtain ⟨V, hV⟩ := Int.dvd_of_emod_eq_zero fv
      rw [hB, hV]
      have : 2 * M * (4 * B) + (4 * (kv.getD 0 0 + kv.getD 1 0 + kv.getD 2 0 + kv.getD 3 0 + kv.getD 4 0 +
          kv.getD 5 0 + kv.getD 6 0 + 2 * kv.getD 7 0) - 2 * M * (4 * V)) = 4 * (2 * M * B + (kv.getD 0 0 + kv.getD 1 0 + kv.getD 2 0 + kv.getD 3 0 + kv.getD 4 0 +
          kv.getD 5 0 + kv.getD 6 0 + 2 * kv.getD 7 0) - 2 * M * V) := by ring
      rw [this]
      exact Int.mul_emod_right _ _
  · unfold decode
    rw [if_neg (by omega)]
    have hi := h.index
    rw [base_small h4] at hi
    by_cases h2 : qn < 2
    · exact ⟨_, base_zero h2 c, zero_lattice⟩
    · obtain ⟨x, hx, hl, _⟩ := base_lattice (n := qn) (c := c) (by omega) hi
      exact ⟨x, hx, hl⟩

/-- A code of codebook 8, with two bits for each Voronoi index. -/
example : IsCode 8 1000 [1, 2, 3, 0, 1, 2, 3, 1] ∧ decode 8 1000 [1, 2, 3, 0, 1, 2, 3, 1] = .ok [-5, 5, 7, 1, 11, 5, -9, -7] :=
  ⟨⟨by decide, rfl, by decide⟩, by decide +kernel⟩

/-- Sums and products that do not fit are cut off, and the number is then in no lattice. -/
theorem C154_refuted : ∃ x, IsCode 66 0 [0, 0, 0, 0, 0, 0, 0, 2] ∧ decode 66 0 [0, 0, 0, 0, 0, 0, 0, 2] = .ok x ∧ ¬ Lattice x :=
  ⟨[2147483647, 2147483647, 2147483647, 2147483647, 2147483647, 2147483647, 2, 2],
    ⟨by decide, rfl, by decide⟩, by decide +kernel, by unfold Lattice; decide⟩

/-- With 32 bits for each Voronoi index numbers are shifted by more bits than they have. -/
theorem C154_shift_refuted : IsCode 68 0 [0, 0, 0, 0, 0, 0, 0, 0] ∧ decode 68 0 [0, 0, 0, 0, 0, 0, 0, 0] = .ub :=
  ⟨⟨by decide, rfl, by decide⟩, by decide +kernel⟩

/-! ## C155: no two codes of a codebook are decoded to the same point -/

theorem lattice_sub_facts {w : Nat → Int} {b v b' v' : List Int} (hb : Lattice b) (hv : Lattice v) (hb' : Lattice b') (hv' : Lattice v')
    (hw : ∀ i < 8, w i = v.getD i 0 - b.getD i 0 - (v'.getD i 0 - b'.getD i 0)) :
    (w 7 % 2 = 0 → ∀ i < 8, w i % 2 = 0) ∧ (∑ i ∈ Finset.range 8, w i) % 4 = 0 := by
  rw [vec_of hb.1] at hb
  rw [vec_of hv.1] at hv
  rw [vec_of hb'.1] at hb'
  rw [vec_of hv'.1] at hv'
  obtain ⟨pb, sb⟩ := lattice_vec.mp hb
  obtain ⟨pv, sv⟩ := lattice_vec.mp hv
  obtain ⟨pb', sb'⟩ := lattice_vec.mp hb'
  obtain ⟨pv', sv'⟩ := lattice_vec.mp hv'
  have same : ∀ {l : List Int}, ((∀ i < 8, l.getD i 0 % 2 = 0) ∨ ∀ i < 8, l.getD i 0 % 2 = 1) → ∀ i < 8, l.getD i 0 % 2 = l.getD 7 0 % 2 := by
    intro l h i hi
    rcases h with h | h
    · rw [h i hi, h 7 (by omega)]
    · rw [h i hi, h 7 (by omega)]
  constructor
  · intro h7 i hi
    have e7 := hw 7 (by omega)
    have ei := hw i hi
    have := same pb i hi
    have := same pv i hi
    have := same pb' i hi
    have := same pv' i hi
    omega
  · have e : ∑ i ∈ Finset.range 8, w i = (∑ i ∈ Finset.range 8, v.getD i 0) - (∑ i ∈ Finset.range 8, b.getD i 0) -
        ((∑ i ∈ Finset.range 8, v'.getD i 0) - ∑ i ∈ Finset.range 8, b'.getD i 0) := by
      rw [← Finset.sum_sub_distrib, ← Finset.sum_sub_distrib, ← Finset.sum_sub_distrib]
      exact Finset.sum_congr rfl fun i hi => hw i (Finset.mem_range.mp hi)
    rw [e]
    omega

theorem mul_small {m a b k : Int} (ha : 0 ≤ a ∧ a < m) (hb : 0 ≤ b ∧ b < m) (h : a - b = m * k) : a = b := by
  have h1 : k < 1 := by
    by_contra hc
    nlinarith
  have h2 : -1 < k := by
    by_contra hc
    nlinarith
  have : k = 0 := by omega
  rw [this] at h
  omega

theorem C155_injective_partial {qn c c' : Nat} {kv kv' x : List Int} (h : IsCode qn c kv) (h' : IsCode qn c' kv') (hq : qn ≤ 52) (h1 : qn ≠ 1)
    (hd : decode qn c kv = .ok x) (hd' : decode qn c' kv' = .ok x) : c = c' ∧ kv = kv' := by
  by_cases h4 : 4 < qn
  · obtain ⟨b, v, hb, hbl, hv, hvo, he⟩ := decode_parts h hq h4
    obtain ⟨b', v', hb', hbl', hv', hvo', he'⟩ := decode_parts h' hq h4
    rw [hd] at he
    rw [hd'] at he'
    have heq := Res.ok.inj (he.symm.trans he')
    obtain ⟨e1, e2, e3⟩ := ext_facts h4
    have hp := pow_small (show extension qn ≤ 24 by omega)
    have hr := h.range
    have hr' := h'.range
    have hkv : kv = kv' := by
      generalize (2 : Int) ^ extension qn = m at *
      have hm : 0 < m := by omega
      have coord : ∀ i < 8, m * b.getD i 0 + ((combine kv).getD i 0 - m * v.getD i 0) =
          m * b'.getD i 0 + ((combine kv').getD i 0 - m * v'.getD i 0) := by
        intro i hi
        have g : ∀ (b v kv : List Int), (extend m b (reduce (combine kv) m v)).getD i 0 = m * b.getD i 0 + ((combine kv).getD i 0 - m * v.getD i 0) := by
          intro b v kv
          have a1 := vec_getD (fun i => m * b.getD i 0 + (reduce (combine kv) m v).getD i 0) hi
          have a2 := vec_getD (fun i => (combine kv).getD i 0 - m * v.getD i 0) hi
          exact a1.trans (congrArg _ a2)
        rw [← g, ← g, heq]
      obtain ⟨w, hw⟩ : ∃ w : Nat → Int, w = fun i => v.getD i 0 - b.getD i 0 - (v'.getD i 0 - b'.getD i 0) := ⟨_, rfl⟩
      obtain ⟨wpar, wsum⟩ := lattice_sub_facts (w := w) hbl hv hbl' hv' fun i _ => by rw [hw]
      have hdiff : ∀ i < 8, (combine kv).getD i 0 - (combine kv').getD i 0 = m * w i := by
        intro i hi
        have := coord i hi
        rw [hw]
        dsimp only
        have e : m * (v.getD i 0 - b.getD i 0 - (v'.getD i 0 - b'.getD i 0)) =
          m * v.getD i 0 - m * b.getD i 0 - (m * v'.getD i 0 - m * b'.getD i 0) := by ring
        rw [e]
        omega
      have gk := getD_range hm hr
      have gk' := getD_range hm hr'
      have k7 : kv.getD 7 0 = kv'.getD 7 0 := by
        have := hdiff 7 (by omega)
        rw [combine_getD _ 7 (by omega), combine_getD _ 7 (by omega), if_neg (by omega), if_pos rfl, if_neg (by omega), if_pos rfl] at this
        exact mul_small (gk 7) (gk' 7) this
      have w7 : w 7 = 0 := by
        have := hdiff 7 (by omega)
        rw [combine_getD _ 7 (by omega), combine_getD _ 7 (by omega), if_neg (by omega), if_pos rfl, if_neg (by omega), if_pos rfl, k7, sub_self] at this
        rcases mul_eq_zero.mp this.symm with h | h
        · omega
        · exact h
      have wev := wpar (by rw [w7]; rfl)
      have kmid : ∀ i < 8, i ≠ 0 → i ≠ 7 → kv.getD i 0 = kv'.getD i 0 ∧ w i = 0 := by
        intro i hi h0 h7
        have := hdiff i hi
        rw [combine_getD _ i hi, combine_getD _ i hi, if_neg h0, if_neg h7, if_neg h0, if_neg h7, k7] at this
        obtain ⟨k, hk⟩ := Int.dvd_of_emod_eq_zero (wev i hi)
        rw [hk] at this
        have e : kv.getD i 0 - kv'.getD i 0 = m * k := by
          have e2 : m * (2 * k) = 2 * (m * k) := by ring
          rw [e2] at this
          omega
        have eq := mul_small (gk i) (gk' i) e
        refine ⟨eq, ?_⟩
        rw [eq, sub_self] at e
        rcases mul_eq_zero.mp e.symm with h | h
        · omega
        · rw [hk, h]; rfl
      have k0 : kv.getD 0 0 = kv'.getD 0 0 := by
        have := hdiff 0 (by omega)
        rw [combine_getD _ 0 (by omega), combine_getD _ 0 (by omega), if_pos rfl, if_pos rfl, k7, (kmid 1 (by omega) (by omega) (by omega)).1,
          (kmid 2 (by omega) (by omega) (by omega)).1, (kmid 3 (by omega) (by omega) (by omega)).1, (kmid 4 (by omega) (by omega) (by omega)).1,
          (kmid 5 (by omega) (by omega) (by omega)).1, (kmid 6 (by omega) (by omega) (by omega)).1] at this
        rw [sum_eight, w7, (kmid 1 (by omega) (by omega) (by omega)).2,
          (kmid 2 (by omega) (by omega) (by omega)).2, (kmid 3 (by omega) (by omega) (by omega)).2, (kmid 4 (by omega) (by omega) (by omega)).2,
          (kmid 5 (by omega) (by omega) (by omega)).2, (kmid 6 (by omega) (by omega) (by omega)).2] at wsum
        obtain ⟨k, hk⟩ := Int.dvd_of_emod_eq_zero wsum
        have hk' : w 0 = 4 * k := by omega
        rw [hk'] at this
        refine mul_small (k := k) (gk 0) (gk' 0) ?_
        have e2 : m * (4 * k) = 4 * (m * k) := by ring
        rw [e2] at this
        omega
      rw [vec_of h.length, vec_of h'.length]
      apply vec_congr
      intro i hi
      by_cases hi0 : i = 0
      · rw [hi0]; exact k0
      · by_cases hi7 : i = 7
        · rw [hi7]; exact k7
        · exact (kmid i hi hi0 hi7).1
    refine ⟨?_, hkv⟩
    subst hkv
    rw [hvo] at hvo'
    have hred := Res.ok.inj hvo'
    rw [← hred] at heq
    have hbb : b = b' := by
      rw [vec_of hbl.1, vec_of hbl'.1]
      apply vec_congr
      intro i hi
      have g : ∀ (b r : List Int), (extend (2 ^ extension qn) b r).getD i 0 = 2 ^ extension qn * b.getD i 0 + r.getD i 0 := by
        intro b r
        exact vec_getD (fun i => 2 ^ extension qn * b.getD i 0 + r.getD i 0) hi
      have := congrArg (fun l => List.getD l i 0) heq
      rw [g, g] at this
      have e : (2 : Int) ^ extension qn * (b.getD i 0 - b'.getD i 0) = 0 := by rw [mul_sub]; omega
      rcases mul_eq_zero.mp e with h | h
      · omega
      · omega
    subst hbb
    exact base_inj (n := baseNumber qn) (by omega) h.index h'.index hb hb'
  · have hi := h.index
    have hi' := h'.index
    have r := h.range
    have r' := h'.range
    have ex : extension qn = 0 := by unfold extension; rw [if_neg h4]
    rw [base_small h4] at hi hi'
    rw [ex] at r r'
    have hz : ∀ {l : List Int}, l.length = 8 → (∀ k ∈ l, 0 ≤ k ∧ k < 2 ^ 0) → l = List.replicate 8 0 := by
      intro l hl hr
      rw [List.eq_replicate_iff]
      refine ⟨hl, fun k hk => ?_⟩
      have := hr k hk
      omega
    refine ⟨?_, by rw [hz h.length r, hz h'.length r']⟩
    by_cases h2 : qn < 2
    · have : qn = 0 := by omega
      rw [this] at hi hi'
      omega
    · unfold decode at hd hd'
      rw [if_neg (by omega)] at hd hd'
      exact base_inj (n := qn) (by omega) hi hi' hd hd'

/-- Two codes of codebook 8 that only differ in a Voronoi index. -/
example : IsCode 8 1000 [1, 2, 3, 0, 1, 2, 3, 1] ∧ IsCode 8 1000 [1, 2, 3, 0, 1, 2, 3, 2] ∧
    decode 8 1000 [1, 2, 3, 0, 1, 2, 3, 1] ≠ decode 8 1000 [1, 2, 3, 0, 1, 2, 3, 2] :=
  ⟨⟨by decide, rfl, by decide⟩, ⟨by decide, rfl, by decide⟩, by decide +kernel⟩

/-- Two codes that are decoded to the same point, since it is cut off. -/
theorem C155_refuted : IsCode 66 0 [0, 0, 0, 0, 0, 0, 0, 0] ∧ IsCode 66 0 [0, 0, 0, 0, 0, 0, 0, 1] ∧
    ∃ x, decode 66 0 [0, 0, 0, 0, 0, 0, 0, 0] = .ok x ∧ decode 66 0 [0, 0, 0, 0, 0, 0, 0, 1] = .ok x :=
  ⟨⟨by decide, rfl, by decide⟩, ⟨by decide, rfl, by decide⟩, List.replicate 8 2147483647, by decide +kernel, by decide +kernel⟩

/-! ## C156: Voronoi indices stand for the nearest point -/

theorem C156_nearest_partial {qn c : Nat} {kv : List Int} (h : IsCode qn c kv) (h4 : 4 < qn) (hq : qn ≤ 32) :
    ∃ b r, decode (baseNumber qn) c (List.replicate 8 0) = .ok b ∧ Nearest (2 ^ extension qn) (combine kv) r ∧
      decode qn c kv = .ok (extend (2 ^ extension qn) b r) := by
  obtain ⟨b, v, hb, _, _, hv, he⟩ := decode_parts h (by omega) h4
  obtain ⟨e1, e2, e3⟩ := ext_facts h4
  obtain ⟨v', hl, hv', hn⟩ := voronoi_nearest (kv := kv) (c := extension qn) e2 (by omega) h.range
  rw [hv] at hv'
  have := Res.ok.inj hv'
  have hd : decode (baseNumber qn) c (List.replicate 8 0) = .ok b := by
    unfold decode
    rw [if_neg (by omega), hb]
  exact ⟨b, _, hd, ⟨⟨v', hl, this⟩, fun u hu => by rw [this]; exact hn u hu⟩, he⟩

/-- The point of the Voronoi indices above is not as long as the one before. -/
example : IsCode 8 1000 [1, 2, 3, 0, 1, 2, 3, 1] ∧ combine [1, 2, 3, 0, 1, 2, 3, 1] = [27, 5, 7, 1, 3, 5, 7, 1] ∧
    decode 4 1000 (List.replicate 8 0) = .ok [-2, 0, 2, 0, 2, 2, -2, -2] ∧
    extend 4 [-2, 0, 2, 0, 2, 2, -2, -2] (reduce [27, 5, 7, 1, 3, 5, 7, 1] 4 [6, 0, 2, 0, 0, 2, 2, 0]) = [-5, 5, 7, 1, 11, 5, -9, -7] :=
  ⟨⟨by decide, rfl, by decide⟩, by decide, by decide +kernel, by decide⟩

/-- Squares of distances are cut off, both to the same number, and the farther point is taken: the origin is left. -/
theorem C156_refuted : IsCode 36 0 [0, 0, 0, 0, 0, 0, 0, 0] ∧
    ¬ ∃ b r, decode (baseNumber 36) 0 (List.replicate 8 0) = .ok b ∧ Nearest (2 ^ extension 36) (combine [0, 0, 0, 0, 0, 0, 0, 0]) r ∧
      decode 36 0 [0, 0, 0, 0, 0, 0, 0, 0] = .ok (extend (2 ^ extension 36) b r) := by
  refine ⟨⟨by decide, rfl, by decide⟩, ?_⟩
  rintro ⟨b, r, hb, ⟨⟨v, hv, rfl⟩, hn⟩, hd⟩
  have e1 : decode (baseNumber 36) 0 (List.replicate 8 0) = .ok [2, 2, 2, 2, 2, 2, 0, 0] := by decide +kernel
  have e2 : decode 36 0 [0, 0, 0, 0, 0, 0, 0, 0] = .ok [196608, 196608, 196608, 196608, 196608, 196608, 65536, 65536] := by decide +kernel
  rw [e1] at hb
  have hb := (Res.ok.inj hb).symm
  subst hb
  rw [e2] at hd
  have hd := Res.ok.inj hd
  have hz := hn (List.replicate 8 0) zero_lattice
  have e3 : dist (reduce (combine [0, 0, 0, 0, 0, 0, 0, 0]) (2 ^ extension 36) (List.replicate 8 0)) middle = 4 := by decide
  rw [e3] at hz
  have e4 : (reduce (combine [0, 0, 0, 0, 0, 0, 0, 0]) (2 ^ extension 36) v) = [65536, 65536, 65536, 65536, 65536, 65536, 65536, 65536] := by
    have ex : (2 : Int) ^ extension 36 = 65536 := by decide
    rw [ex] at hd ⊢
    have hr := vec_of (l := reduce (combine [0, 0, 0, 0, 0, 0, 0, 0]) 65536 v) (vec_length _)
    generalize reduce (combine [0, 0, 0, 0, 0, 0, 0, 0]) 65536 v = r at *
    unfold extend at hd
    simp only [List.range_succ, List.range_zero, List.nil_append, List.cons_append, List.map_cons, List.map_nil, List.getD_cons_zero,
      List.getD_cons_succ, List.cons.injEq, and_true] at hd
    rw [hr]
    unfold vec
    simp only [List.range_succ, List.range_zero, List.nil_append, List.cons_append, List.map_cons, List.map_nil, List.cons.injEq, and_true]
    omega
  rw [e4] at hz
  exact absurd hz (by decide)

end Verif.Avq
