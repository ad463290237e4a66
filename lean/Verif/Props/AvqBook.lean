import Mathlib.Data.List.Nodup
import Verif.Props.AvqBase

/-! # Codes of the base codebooks -/

namespace Verif.Avq

open Res Ops
open DrcSel (at_)

/-! ## Search in tables of offsets -/

theorem at_getD {t : List Nat} {i : Nat} (h : i < t.length) : at_ t i = .ok (t.getD i 0) := by
  unfold at_
  rw [List.getD_eq_getElem?_getD, List.getElem?_eq_getElem h]
  rfl

/-- The first `n` entries of a table ascend. -/
def Ascends (t : List Nat) (n : Nat) : Prop := ∀ i j, i ≤ j → j < n → t.getD i 0 ≤ t.getD j 0

theorem coarse_spec {t : List Nat} {c n : Nat} (hn : n ≤ t.length) : ∀ (k i : Nat), n - i ≤ k → 4 ≤ i → i < n + 4 →
    t.getD (i - 4) 0 ≤ c → ∃ j, coarse t c n i = .ok j ∧ 4 ≤ j ∧ j < n + 4 ∧ t.getD (j - 4) 0 ≤ c ∧ (j < n → c < t.getD j 0) ∧ i ≤ j
  | 0, i, hk, h4, hi, hc => by
    unfold coarse
    rw [if_neg (by omega)]
    exact ⟨i, rfl, h4, hi, hc, fun h => by omega, le_refl _⟩
  | k + 1, i, hk, h4, hi, hc => by
    unfold coarse
    by_cases h : i < n
    · rw [if_pos h, at_getD (by omega), ok_bind]
      by_cases h2 : c < t.getD i 0
      · rw [if_pos h2]
        exact ⟨i, rfl, h4, hi, hc, fun _ => h2, le_refl _⟩
      · rw [if_neg h2]
        obtain ⟨j, hj, h5, h6, h7, h8, h9⟩ := coarse_spec (c := c) hn k (i + 4) (by omega) (by omega) (by omega) (by rw [show i + 4 - 4 = i by omega]; omega)
        exact ⟨j, hj, h5, h6, h7, h8, by omega⟩
    · rw [if_neg h]
      exact ⟨i, rfl, h4, hi, hc, fun h' => absurd h' h, le_refl _⟩

/-- The search gives the last entry that is not above `c`. -/
theorem locate_spec {t : List Nat} {c n : Nat} (hn : n ≤ t.length) (h2 : 2 ≤ n) (ha : Ascends t n) (h0 : t.getD 0 0 ≤ c) :
    ∃ i, locate t c n = .ok i ∧ i < n ∧ t.getD i 0 ≤ c ∧ (i + 1 < n → c < t.getD (i + 1) 0) := by
  unfold locate
  obtain ⟨j, hj, h4, hjn, hlow, hhigh, _⟩ := coarse_spec (c := c) hn n 4 (by omega) (le_refl _) (by omega) (by simpa using h0)
  rw [hj, ok_bind]
  dsimp only
  obtain ⟨I, hI⟩ : ∃ I, I = if n < j then n else j := ⟨_, rfl⟩
  rw [← hI]
  have hI2 : 2 ≤ I ∧ I ≤ n ∧ I ≤ j ∧ (I < n → I = j) := by split at hI <;> omega
  obtain ⟨hI2, hIn, hIj, hIe⟩ := hI2
  rw [if_neg (by omega), at_getD (by omega), ok_bind]
  by_cases hc1 : c < t.getD (I - 2) 0
  · rw [if_pos hc1]
    have hI3 : 3 ≤ I := by
      by_contra hlt
      have : I = 2 := by omega
      subst this
      simp at hc1
      simp at h0
      omega
    rw [if_neg (by omega), at_getD (by omega), ok_bind]
    by_cases hc2 : c < t.getD (I - 2 - 1) 0
    · rw [if_pos hc2]
      have hj4 : j - 4 < I - 3 := by
        by_contra hge
        have := ha (I - 3) (j - 4) (by omega) (by omega)
        rw [show I - 2 - 1 = I - 3 by omega] at hc2
        omega
      have hI4 : 4 ≤ I := by omega
      rw [if_neg (by omega)]
      refine ⟨I - 2 - 1 - 1, rfl, by omega, ?_, ?_⟩
      · by_cases hjI : I = j
        · rw [show I - 2 - 1 - 1 = j - 4 by omega]; exact hlow
        · -- clamped
          exfalso
          have : n < j := by
            by_contra hc
            rw [if_neg hc] at hI
            exact hjI hI
          rw [if_pos this] at hI
          omega
      · intro _
        rw [show I - 2 - 1 - 1 + 1 = I - 2 - 1 by omega]
        exact hc2
    · rw [if_neg hc2, if_neg (by omega)]
      refine ⟨I - 2 - 1, rfl, by omega, by omega, ?_⟩
      intro _
      rw [show I - 2 - 1 + 1 = I - 2 by omega]
      exact hc1
  · rw [if_neg hc1, if_neg (by omega), at_getD (by omega), ok_bind]
    by_cases hc2 : c < t.getD (I - 1) 0
    · rw [if_pos hc2, if_neg (by omega)]
      refine ⟨I - 1 - 1, rfl, by omega, by rw [show I - 1 - 1 = I - 2 by omega]; omega, ?_⟩
      intro _
      rw [show I - 1 - 1 + 1 = I - 1 by omega]
      exact hc2
    · rw [if_neg hc2, if_neg (by omega)]
      refine ⟨I - 1, rfl, by omega, by omega, ?_⟩
      intro h
      rw [show I - 1 + 1 = I by omega]
      have : I = j := hIe (by omega)
      rw [this]
      exact hhigh (by omega)

/-! ## The tables -/

/-- The absolute leader of a signed leader. -/
def owners : List Nat := (List.range 37).flatMap fun i => List.replicate (signCount.getD i 0) i

/-- A signed leader. -/
def leader (p : Nat) : List Int := signed (absLeaders.getD (owners.getD p 0) []) (signCodes.getD p 0)

theorem leader_length (p : Nat) : (leader p).length = 8 := by simp [leader, signed]

/-- The numbers of permutations of the signed leaders. -/
def sizes : List Nat := (List.range 226).map fun p => permutations (leader p)

theorem sizes_getD {p : Nat} (h : p < 226) : sizes.getD p 0 = permutations (leader p) := by
  unfold sizes
  rw [List.getD_eq_getElem?_getD, List.getElem?_map, List.getElem?_range h]
  rfl

/-- What the tables have to be like for the leaders `ls` with offsets `os` to be those of the codes below `last`. -/
def bookOk (os ls : List Nat) (n last : Nat) : Bool :=
  (List.range n).all fun i =>
    let idx := ls.getD i 0
    let t := signStart.getD idx 0
    let m := signCount.getD idx 0
    decide (i < ls.length ∧ i < os.length ∧ idx < 37 ∧ 2 ≤ m ∧ t + m ≤ 226 ∧ signedOffsets.getD t 0 = os.getD i 0 ∧
      signedOffsets.getD (t + m - 1) 0 + sizes.getD (t + m - 1) 0 = if i + 1 < n then os.getD (i + 1) 0 else last) &&
    (List.range m).all fun k =>
      decide (owners.getD (t + k) 0 = idx) &&
      (decide (m ≤ k + 1) || decide (signedOffsets.getD (t + k) 0 + sizes.getD (t + k) 0 = signedOffsets.getD (t + k + 1) 0))

theorem book4 : bookOk offsets4 leaders4 28 65536 = true := by decide +kernel
theorem book3 : bookOk offsets3 leaders3 9 4096 = true := by decide +kernel

theorem offsets4_ascends : Ascends offsets4 28 := by
  have : (List.range 28).all (fun j => (List.range (j + 1)).all fun i => decide (offsets4.getD i 0 ≤ offsets4.getD j 0)) = true := by
    decide +kernel
  intro i j hij hj
  simp only [List.all_eq_true, List.mem_range, decide_eq_true_eq] at this
  exact this j hj i (by omega)

theorem offsets3_ascends : Ascends offsets3 9 := by
  have : (List.range 9).all (fun j => (List.range (j + 1)).all fun i => decide (offsets3.getD i 0 ≤ offsets3.getD j 0)) = true := by
    decide +kernel
  intro i j hij hj
  simp only [List.all_eq_true, List.mem_range, decide_eq_true_eq] at this
  exact this j hj i (by omega)

theorem table_lengths : signCount.length = 37 ∧ signStart.length = 37 ∧ signCodes.length = 226 ∧ signedOffsets.length = 226 ∧
    absLeaders.length = 37 := by decide +kernel

/-- A code of a book is a rank of one of its signed leaders. -/
theorem book_code {os ls : List Nat} {n last c : Nat} (hb : bookOk os ls n last = true) (hn : 2 ≤ n) (hlen : n ≤ os.length)
    (ha : Ascends os n) (h0 : os.getD 0 0 ≤ c) (hc : c < last) :
    ∃ i idx m t ks : Nat, locate os c n = .ok i ∧ at_ ls i = .ok idx ∧ at_ signCount idx = .ok m ∧ at_ signStart idx = .ok t ∧
      locate (signedOffsets.drop t) c m = .ok ks ∧ t + ks < 226 ∧ owners.getD (t + ks) 0 = idx ∧ idx < 37 ∧
      signedOffsets.getD (t + ks) 0 ≤ c ∧ c < signedOffsets.getD (t + ks) 0 + permutations (leader (t + ks)) := by
  obtain ⟨hl1, hl2, hl3, hl4, hl5⟩ := table_lengths
  obtain ⟨i, hi, hin, hlo, hhi⟩ := locate_spec (c := c) hlen hn ha h0
  unfold bookOk at hb
  simp only [List.all_eq_true, List.mem_range, Bool.and_eq_true, decide_eq_true_eq, Bool.or_eq_true] at hb
  obtain ⟨⟨hils, hios, hidx, hm2, htm, hfirst, hlast⟩, hk⟩ := hb i hin
  obtain ⟨idx, hidxe⟩ : ∃ x, x = ls.getD i 0 := ⟨_, rfl⟩
  rw [← hidxe] at hidx hm2 htm hfirst hlast hk
  obtain ⟨t, ht⟩ : ∃ x, x = signStart.getD idx 0 := ⟨_, rfl⟩
  obtain ⟨m, hm⟩ : ∃ x, x = signCount.getD idx 0 := ⟨_, rfl⟩
  rw [← ht, ← hm] at htm hlast hk
  rw [← hm] at hm2
  rw [← ht] at hfirst
  have hd : ∀ k, (signedOffsets.drop t).getD k 0 = signedOffsets.getD (t + k) 0 := by
    intro k
    simp only [List.getD_eq_getElem?_getD, List.getElem?_drop]
  have hasc : Ascends (signedOffsets.drop t) m := by
    intro a b hab hbm
    rw [hd, hd]
    obtain ⟨d, rfl⟩ : ∃ d, b = a + d := ⟨b - a, by omega⟩
    clear hab
    induction d with
    | zero => exact le_refl _
    | succ d ih =>
      have h1 := ih (by omega)
      have h2 := (hk (a + d) (by omega)).2
      rcases h2 with h2 | h2
      · omega
      · rw [show t + (a + (d + 1)) = t + (a + d) + 1 by omega]
        omega
  obtain ⟨ks, hks, hksm, hkslo, hkshi⟩ := locate_spec (t := signedOffsets.drop t) (c := c) (n := m) (by rw [List.length_drop]; omega) hm2 hasc
    (by rw [hd, Nat.add_zero, hfirst]; exact hlo)
  rw [hd] at hkslo
  refine ⟨i, idx, m, t, ks, hi, ?_, ?_, ?_, hks, by omega, (hk ks hksm).1, hidx, hkslo, ?_⟩
  · rw [at_getD hils, hidxe]
  · rw [at_getD (by omega), hm]
  · rw [at_getD (by omega), ht]
  · by_cases hlastk : ks + 1 < m
    · have h1 := hkshi hlastk
      rw [hd] at h1
      have h2 := (hk ks hksm).2
      rcases h2 with h2 | h2
      · omega
      · rw [sizes_getD (by omega)] at h2
        rw [h2]
        exact h1
    · have hke : ks = m - 1 := by omega
      rw [← sizes_getD (by omega), hke, show t + (m - 1) = t + m - 1 by omega, hlast]
      by_cases hin2 : i + 1 < n
      · rw [if_pos hin2]; exact hhi hin2
      · rw [if_neg hin2]; exact hc

theorem toI32_small {x : Int} (h0 : 0 ≤ x) (h1 : x < 2147483648) : toI32 x = x := by
  unfold toI32; omega

/-- Every code of a base codebook is a rank of a signed leader. -/
theorem base_code {n c : Nat} (hn : n = 2 ∨ n = 3 ∨ n = 4) (hc : c < 16 ^ n) :
    ∃ p, p < 226 ∧ signedOffsets.getD p 0 ≤ c ∧ c < signedOffsets.getD p 0 + permutations (leader p) ∧
      base n c = permute ((c - signedOffsets.getD p 0 : Nat) : Int) (leader p) := by
  obtain ⟨hl1, hl2, hl3, hl4, hl5⟩ := table_lengths
  have fin : ∀ (os ls : List Nat) (k : Nat) (i idx m t ks : Nat), locate os c k = .ok i → at_ ls i = .ok idx → at_ signCount idx = .ok m →
      at_ signStart idx = .ok t → locate (signedOffsets.drop t) c m = .ok ks → t + ks < 226 → owners.getD (t + ks) 0 = idx → idx < 37 →
      signedOffsets.getD (t + ks) 0 ≤ c → c < signedOffsets.getD (t + ks) 0 + permutations (leader (t + ks)) → c < 65536 →
      (do
        let idx ← (do
          let i ← locate os c k
          at_ ls i)
        let im ← at_ signCount idx
        let t ← at_ signStart idx
        let ks ← locate (signedOffsets.drop t) c im
        let code ← at_ signCodes (t + ks)
        let off ← at_ signedOffsets (t + ks)
        let l ← at_ absLeaders idx
        permute (toI32 ((c : Int) - off)) (signed l code)) = permute ((c - signedOffsets.getD (t + ks) 0 : Nat) : Int) (leader (t + ks)) := by
    intro os ls k i idx m t ks h1 h2 h3 h4 h5 h6 h7 h8 h9 h10 h11
    rw [h1, ok_bind, h2, ok_bind, h3, ok_bind, h4, ok_bind, h5, ok_bind, at_getD (by omega), ok_bind, at_getD (by omega), ok_bind]
    have : at_ absLeaders idx = .ok (absLeaders.getD idx []) := by
      unfold at_
      rw [List.getD_eq_getElem?_getD, List.getElem?_eq_getElem (by omega)]
      rfl
    rw [this, ok_bind, toI32_small (by omega) (by omega)]
    unfold leader
    rw [h7]
    congr 1
    omega
  rcases hn with rfl | rfl | rfl
  · obtain ⟨i, idx, m, t, ks, h1, h2, h3, h4, h5, h6, h7, h8, h9, h10⟩ := book_code (c := c) book3 (by omega) (by decide) offsets3_ascends
      (by simp [offsets3]) (by omega)
    refine ⟨t + ks, h6, h9, h10, ?_⟩
    unfold base
    rw [if_pos (by omega), if_neg (by omega), if_pos (by omega)]
    exact fin _ _ _ i idx m t ks h1 h2 h3 h4 h5 h6 h7 h8 h9 h10 (by omega)
  · obtain ⟨i, idx, m, t, ks, h1, h2, h3, h4, h5, h6, h7, h8, h9, h10⟩ := book_code (c := c) book3 (by omega) (by decide) offsets3_ascends
      (by simp [offsets3]) (by omega)
    refine ⟨t + ks, h6, h9, h10, ?_⟩
    unfold base
    rw [if_pos (by omega), if_neg (by omega), if_pos (by omega)]
    exact fin _ _ _ i idx m t ks h1 h2 h3 h4 h5 h6 h7 h8 h9 h10 (by omega)
  · obtain ⟨i, idx, m, t, ks, h1, h2, h3, h4, h5, h6, h7, h8, h9, h10⟩ := book_code (c := c) book4 (by omega) (by decide) offsets4_ascends
      (by simp [offsets4]) (by omega)
    refine ⟨t + ks, h6, h9, h10, ?_⟩
    unfold base
    rw [if_pos (by omega), if_pos (by omega)]
    exact fin _ _ _ i idx m t ks h1 h2 h3 h4 h5 h6 h7 h8 h9 h10 (by omega)

/-! ## Leaders -/

theorem leader_facts : (List.range 226).all (fun p =>
    decide (((groups (leader p)).map (·.1)).Nodup) &&
    (((leader p).all fun a => decide (a % 2 = 0)) || ((leader p).all fun a => decide (a % 2 = 1))) &&
    decide ((leader p).sum % 4 = 0) && ((leader p).all fun a => decide (-20 ≤ a ∧ a ≤ 20))) = true := by decide +kernel

theorem leader_nodup {p : Nat} (h : p < 226) : ((groups (leader p)).map (·.1)).Nodup := by
  have := leader_facts
  simp only [List.all_eq_true, List.mem_range, Bool.and_eq_true, decide_eq_true_eq] at this
  exact (this p h).1.1.1

theorem leader_range {p : Nat} (h : p < 226) : ∀ a ∈ leader p, -20 ≤ a ∧ a ≤ 20 := by
  have := leader_facts
  simp only [List.all_eq_true, List.mem_range, Bool.and_eq_true, decide_eq_true_eq] at this
  exact (this p h).2

theorem leader_lattice {p : Nat} (h : p < 226) : Lattice (leader p) := by
  have := leader_facts
  simp only [List.all_eq_true, List.mem_range, Bool.and_eq_true, Bool.or_eq_true, decide_eq_true_eq] at this
  exact ⟨leader_length p, (this p h).1.1.2, (this p h).1.2⟩

theorem Lattice.perm {x y : List Int} (h : Lattice x) (hp : y.Perm x) : Lattice y := by
  obtain ⟨h1, h2, h3⟩ := h
  refine ⟨by rw [hp.length_eq]; exact h1, ?_, by rw [hp.sum_eq]; exact h3⟩
  rcases h2 with h2 | h2
  · exact .inl fun a ha => h2 a (hp.mem_iff.mp ha)
  · exact .inr fun a ha => h2 a (hp.mem_iff.mp ha)

/-- A number for the entries of a list in any order. -/
def key (x : List Int) : Nat := (x.map fun a => 16 ^ (a + 20).toNat).sum

theorem key_perm {x y : List Int} (h : x.Perm y) : key x = key y := (h.map _).sum_eq

theorem keys_nodup : ((List.range 226).map fun p => key (leader p)).Nodup := by decide +kernel

theorem leader_inj {p q : Nat} (hp : p < 226) (hq : q < 226) (h : (leader p).Perm (leader q)) : p = q := by
  have hn := keys_nodup
  exact List.inj_on_of_nodup_map hn (List.mem_range.mpr hp) (List.mem_range.mpr hq) (key_perm h)

/-- A code of a base codebook is decoded to a point of the lattice. -/
theorem base_lattice {n c : Nat} (hn : n = 2 ∨ n = 3 ∨ n = 4) (hc : c < 16 ^ n) :
    ∃ x, base n c = .ok x ∧ Lattice x ∧ ∀ a ∈ x, -20 ≤ a ∧ a ≤ 20 := by
  obtain ⟨p, hp, h1, h2, h3⟩ := base_code hn hc
  obtain ⟨x, hx, hperm⟩ := permute_perm (leader_length p) (r := c - signedOffsets.getD p 0) (by omega)
  exact ⟨x, by rw [h3, hx], (leader_lattice hp).perm hperm, fun a ha => leader_range hp a (hperm.mem_iff.mp ha)⟩

/-- Two codes of a base codebook are not decoded to the same point. -/
theorem base_inj {n c c' : Nat} (hn : n = 2 ∨ n = 3 ∨ n = 4) (hc : c < 16 ^ n) (hc' : c' < 16 ^ n) {x : List Int}
    (h : base n c = .ok x) (h' : base n c' = .ok x) : c = c' := by
  obtain ⟨p, hp, h1, h2, h3⟩ := base_code hn hc
  obtain ⟨q, hq, h1', h2', h3'⟩ := base_code hn hc'
  obtain ⟨y, hy, hperm⟩ := permute_perm (leader_length p) (r := c - signedOffsets.getD p 0) (by omega)
  obtain ⟨y', hy', hperm'⟩ := permute_perm (leader_length q) (r := c' - signedOffsets.getD q 0) (by omega)
  rw [h3, hy] at h
  rw [h3', hy'] at h'
  cases h
  cases h'
  have hpq := leader_inj hp hq (hperm.symm.trans hperm')
  subst hpq
  have := permute_inj (leader_length p) (leader_nodup hp) (by omega) (by omega) hy hy'
  omega

end Verif.Avq
