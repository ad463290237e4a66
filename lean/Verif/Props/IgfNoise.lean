import Verif.Spec.IgfNoise
import Verif.Props.IgfFill
import Mathlib.Logic.Function.Iterate

/-! # The noise of gap filling, and which bands are filled together -/

namespace Verif.Igf

set_option linter.unusedSectionVars false

variable {α : Type} [Field α] [LinearOrder α] [IsStrictOrderedRing α]

theorem and_bit (s : Nat) : 0 < s &&& 65536 ↔ s.testBit 16 = true := by
  constructor
  · intro h
    by_contra hb
    have : s &&& 65536 = 0 := by
      apply Nat.eq_of_testBit_eq
      intro i
      rw [Nat.testBit_and, show (65536 : Nat) = 2 ^ 16 from rfl, Nat.testBit_two_pow, Nat.zero_testBit]
      by_cases hi : 16 = i
      · subst hi
        simpa using hb
      · simp [hi]
    omega
  · intro h
    have : (s &&& 65536).testBit 16 = true := by
      rw [Nat.testBit_and, h]
      rfl
    rcases Nat.eq_zero_or_pos (s &&& 65536) with h0 | h0
    · rw [h0] at this; simp at this
    · exact h0

theorem sign_eq (s : Nat) : ((sign s : α × Nat).1 * 2097152, (sign s : α × Nat).2) = (noiseOf (lcg s), lcg s) := by
  have e : (s * 69069 + 5) % 4294967296 = lcg s := by unfold lcg; rw [Nat.mul_comm]; rfl
  unfold sign noiseOf
  simp only [e]
  by_cases h : (lcg s).testBit 16 = true
  · rw [if_pos ((and_bit _).mpr h), if_pos h]
    simp
  · rw [if_neg (fun h' => h ((and_bit _).mp h')), if_neg h]
    simp

theorem value_noise (g : Gap α) (w : Win α) (j seed : Nat) (h : g.noisy j = true) : g.value w j seed = (noiseOf (lcg seed), lcg seed) := by
  unfold Gap.value
  rw [if_pos h]
  exact sign_eq seed

theorem value_copy (g : Gap α) (w : Win α) (j seed : Nat) (h : ¬ g.noisy j = true) : g.value w j seed = (g.copied w j, seed) := by
  unfold Gap.value
  rw [if_neg h]

theorem noiseLines_nil (g : Gap α) (c : Nat → α) (lo : Nat) : noiseLines g c lo lo = 0 := by
  unfold noiseLines
  simp

theorem noiseLines_first (g : Gap α) (c : Nat → α) (lo hi : Nat) (h : lo < hi) :
    noiseLines g c lo hi = (if c lo = 0 ∧ g.noisy lo = true then 1 else 0) + noiseLines g c (lo + 1) hi := by
  unfold noiseLines
  rw [← Finset.insert_Ico_add_one_left_eq_Ico h, Finset.filter_insert]
  split
  · rw [Finset.card_insert_of_notMem (by simp)]
    omega
  · omega

theorem noiseLines_congr (g : Gap α) (c d : Nat → α) (lo hi : Nat) (h : ∀ j, lo ≤ j → j < hi → c j = d j) : noiseLines g c lo hi = noiseLines g d lo hi := by
  unfold noiseLines
  congr 1
  apply Finset.filter_congr
  intro j hj
  rw [Finset.mem_Ico] at hj
  rw [h j hj.1 hj.2]

theorem filledSum_seed (g : Gap α) (w : Win α) (n j : Nat) (s : α × Nat) : (filledSum g w n j s).2 = lcg^[noiseLines g w.coef j (j + n)] s.2 := by
  induction n generalizing j s with
  | zero => rw [filledSum, Nat.add_zero, noiseLines_nil]; rfl
  | succ n ih =>
    rw [filledSum, ih, noiseLines_first g w.coef j (j + (n + 1)) (by omega), show j + 1 + n = j + (n + 1) by omega, Nat.add_comm (ite _ _ _),
      Function.iterate_add_apply]
    congr 1
    by_cases h1 : w.coef j = 0
    · by_cases h2 : g.noisy j = true
      · rw [if_pos h1, if_pos ⟨h1, h2⟩, value_noise g w j s.2 h2]
        rfl
      · rw [if_pos h1, if_neg (fun h => h2 h.2), value_copy g w j s.2 h2]
        rfl
    · rw [if_neg h1, if_neg (fun h => h1 h.1)]
      rfl

theorem calcMono_seed (g : Gap α) (s : Sums α) (w : Win α) : (calcMono g s w).seed = lcg^[noiseWindow g w] s.seed := by
  unfold calcMono noiseWindow
  generalize g.bands = l
  induction l generalizing s with
  | nil => rfl
  | cons b l ih =>
    rw [List.foldl_cons, ih, List.map_cons, List.sum_cons, Nat.add_comm, Function.iterate_add_apply]
    congr 1
    exact filledSum_seed g w _ _ _

theorem group_seed (root : α → α) (g : Gap α) (grp : Nat) (ws : List (Win α)) (seeds : Nat × Nat) :
    (group root g grp ws seeds).2.1 = lcg^[(ws.map (noiseWindow g)).sum] seeds.1 := by
  unfold group
  simp only
  have key : ∀ s : Sums α, (ws.foldl (calcMono g) s).seed = lcg^[(ws.map (noiseWindow g)).sum] s.seed := by
    induction ws with
    | nil => intro s; rfl
    | cons w ws ih =>
      intro s
      rw [List.foldl_cons, ih, calcMono_seed, List.map_cons, List.sum_cons, Nat.add_comm, Function.iterate_add_apply]
  exact key _

/-- **C239** A frame steps the generator once for each empty line that takes noise, and the next frame starts where this one ends. -/
theorem C239_kept (root : α → α) (g : Gap α) (l : List (List (Win α))) (seed : Nat) :
    (mono root g false l seed).2 = lcg^[(l.map fun ws => (ws.map (noiseWindow g)).sum).sum] seed := by
  have key : ∀ (l : List (List (Win α))) (grp : Nat) (seeds : Nat × Nat), (groups root g grp l seeds).2.1 =
      lcg^[(l.map fun ws => (ws.map (noiseWindow g)).sum).sum] seeds.1 := by
    intro l
    induction l with
    | nil => intro grp seeds; rfl
    | cons ws l ih =>
      intro grp seeds
      rw [groups]
      simp only
      rw [ih, group_seed, List.map_cons, List.sum_cons, Nat.add_comm, Function.iterate_add_apply]
  exact key l 0 (seed, seed)

/-- **C239** The empty lines of a band that take noise get the next values of the generator in order, times the gain of the band. -/
theorem C239_lines (g : Gap α) (w : Win α) (gn : α) (n j : Nat) (c : Nat → α) (seed : Nat) :
    (fillLines g w gn n j (c, seed)).2 = lcg^[noiseLines g c j (j + n)] seed ∧
      ∀ x, j ≤ x → x < j + n → c x = 0 → g.noisy x = true → (fillLines g w gn n j (c, seed)).1 x = gn * noiseOf (lcg^[noiseLines g c j x + 1] seed) := by
  induction n generalizing j c seed with
  | zero =>
    rw [fillLines, Nat.add_zero, noiseLines_nil]
    exact ⟨rfl, fun x h1 h2 => absurd h2 (by omega)⟩
  | succ n ih =>
    obtain ⟨d, hd⟩ : ∃ d : Nat → α, d = if c j = 0 then (fun x => if x = j then gn * (g.value w j seed).1 else c x) else c := ⟨_, rfl⟩
    obtain ⟨t, ht⟩ : ∃ t : Nat, t = if c j = 0 then (g.value w j seed).2 else seed := ⟨_, rfl⟩
    have e : fillLines g w gn (n + 1) j (c, seed) = fillLines g w gn n (j + 1) (d, t) := by
      rw [fillLines, hd, ht]
      by_cases h : c j = 0
      · simp only [h, if_true]
      · simp only [h, if_false]
    have hsame : ∀ k hi, j + 1 ≤ k → noiseLines g d k hi = noiseLines g c k hi := by
      intro k hi hk
      apply noiseLines_congr
      intro x hx _
      rw [hd]
      split
      · exact if_neg (by omega)
      · rfl
    have hstep : t = lcg^[if c j = 0 ∧ g.noisy j = true then 1 else 0] seed := by
      rw [ht]
      by_cases h1 : c j = 0
      · by_cases h2 : g.noisy j = true
        · rw [if_pos h1, if_pos ⟨h1, h2⟩, value_noise g w j seed h2]
          rfl
        · rw [if_pos h1, if_neg (fun h => h2 h.2), value_copy g w j seed h2]
          rfl
      · rw [if_neg h1, if_neg (fun h => h1 h.1)]
        rfl
    obtain ⟨i1, i2⟩ := ih (j + 1) d t
    rw [show j + 1 + n = j + (n + 1) by omega] at i1 i2
    rw [e]
    constructor
    · rw [i1, hsame _ _ (by omega), noiseLines_first g c j (j + (n + 1)) (by omega), Nat.add_comm (ite _ _ _), Function.iterate_add_apply, hstep]
    · intro x h1 h2 h3 h4
      by_cases hx : x = j
      · subst hx
        have hk : (fillLines g w gn n (x + 1) (d, t)).1 x = d x := by
          have := (fillLines_ok g w gn n (x + 1) (d, t)).1 x (by omega)
          exact this
        rw [hk, hd, if_pos h3]
        simp only [if_true]
        rw [value_noise g w x seed h4, noiseLines_nil]
        rfl
      · have hd0 : d x = 0 := by
          rw [hd]
          split
          · exact (if_neg hx).trans h3
          · exact h3
        rw [i2 x (by omega) h2 hd0 h4, hsame _ _ (by omega), noiseLines_first g c j x (by omega), hstep]
        rw [← Function.iterate_add_apply]
        rw [show noiseLines g c (j + 1) x + 1 + (if c j = 0 ∧ g.noisy j = true then 1 else 0) =
          (if c j = 0 ∧ g.noisy j = true then 1 else 0) + noiseLines g c (j + 1) x + 1 by omega]

/-- **C216** The bands that are filled together: each alone, for short windows, parts of linear prediction frames and high resolution, otherwise pairs. -/
theorem C216_bands (g : Gap α) (b : Nat) : b ∈ g.bands ↔ g.grid.start ≤ b ∧ b < g.grid.stop ∧ (g.winType = 0 → g.highRes = false → 2 ∣ b - g.grid.start) := by
  have hs : g.step = if g.winType = 0 ∧ g.highRes = false then 2 else 1 := by
    unfold Gap.step
    by_cases h1 : g.winType = 0 <;> by_cases h2 : g.highRes = true <;> simp [h1, h2]
  constructor
  · intro h
    obtain ⟨h1, h2⟩ := bands_mem g b h
    refine ⟨h1, h2, fun h3 h4 => ?_⟩
    obtain ⟨k, -, rfl⟩ := List.mem_map.1 h
    rw [hs, if_pos ⟨h3, h4⟩]
    exact ⟨k, by omega⟩
  · rintro ⟨h1, h2, h3⟩
    unfold Gap.bands
    rw [List.mem_map, hs]
    by_cases h4 : g.winType = 0 ∧ g.highRes = false
    · obtain ⟨k, hk⟩ := h3 h4.1 h4.2
      rw [if_pos h4]
      refine ⟨k, ?_, by omega⟩
      rw [List.mem_range]
      omega
    · rw [if_neg h4]
      exact ⟨b - g.grid.start, by rw [List.mem_range]; omega, by omega⟩

/-- **C216** A pair of bands ends with the second one or with the gap. -/
theorem C216_high (g : Gap α) (b : Nat) : g.high b = g.off (min (b + if g.winType = 0 ∧ g.highRes = false then 2 else 1) g.grid.stop) := by
  unfold Gap.high Gap.step
  by_cases h1 : g.winType = 0 <;> by_cases h2 : g.highRes = true <;> simp [h1, h2]
  rw [if_pos (by omega)]

/-- Lines 4 to 7 with noise in all of them: the generator is stepped four times, and the first line gets its first value. -/
example (seed : Nat) : (fillLines ({ sample 0 with whitening := true, white := [2, 2, 2, 2] } : Gap ℝ) ⟨fun _ => 0, fun _ _ => 0⟩ 3 4 4 (fun _ => 0, seed)).1 4 =
    3 * noiseOf (lcg seed) := by
  have h := (C239_lines ({ sample 0 with whitening := true, white := [2, 2, 2, 2] } : Gap ℝ) ⟨fun _ => 0, fun _ _ => 0⟩ 3 4 4 (fun _ => 0) seed).2 4 (by omega) (by omega)
    rfl (by decide)
  rw [noiseLines_nil] at h
  exact h

end Verif.Igf
