import Verif.Spec.IgfFill
import Mathlib.Tactic.Linarith
import Mathlib.Tactic.Ring
import Mathlib.Tactic.FieldSimp
import Mathlib.Algebra.Order.Ring.Abs
import Mathlib.Algebra.BigOperators.Ring.Finset
import Mathlib.Analysis.Real.Sqrt
import Mathlib.Tactic.IntervalCases
import Mathlib.Tactic.NormNum

/-! # Gap filling of one channel -/

namespace Verif.Igf

variable {α : Type} [Field α] [LinearOrder α]

theorem step_pos (g : Gap α) : 1 ≤ g.step := by
  unfold Gap.step
  split <;> decide

theorem bands_mem (g : Gap α) (b : Nat) (h : b ∈ g.bands) : g.grid.start ≤ b ∧ b < g.grid.stop := by
  unfold Gap.bands at h
  obtain ⟨k, hk, rfl⟩ := List.mem_map.1 h
  rw [List.mem_range] at hk
  have h1 := step_pos g
  generalize g.step = s at *
  have h2 : (k + 1) * s ≤ g.grid.stop - g.grid.start + s - 1 := (Nat.le_div_iff_mul_le (by omega)).1 hk
  rw [Nat.add_mul, Nat.one_mul, Nat.mul_comm] at h2
  omega

theorem bands_apart (g : Gap α) : g.bands.Pairwise fun a b => a + g.step ≤ b := by
  unfold Gap.bands
  rw [List.pairwise_map]
  refine List.pairwise_lt_range.imp ?_
  intro a b h
  have : g.step * (a + 1) ≤ g.step * b := Nat.mul_le_mul_left _ h
  rw [Nat.mul_add] at this
  omega

theorem bands_nodup (g : Gap α) : g.bands.Nodup := by
  refine (bands_apart g).imp ?_
  intro a b h
  have := step_pos g
  omega

theorem low_lt_high (g : Gap α) (hr : Rising g) (b : Nat) (h : b ∈ g.bands) : g.off b < g.high b := by
  obtain ⟨h1, h2⟩ := bands_mem g b h
  have := step_pos g
  exact hr _ _ h1 (by omega) (by omega)

theorem width_eq (g : Gap α) (hr : Rising g) (b : Nat) (h : b ∈ g.bands) : g.off b + g.width b = g.high b := by
  have := low_lt_high g hr b h
  unfold Gap.width
  unfold Gap.high at *
  omega

/-- Bands do not share lines. -/
theorem high_le (g : Gap α) (hr : Rising g) (a b : Nat) (ha : a ∈ g.bands) (hb : b ∈ g.bands) (h : a + g.step ≤ b) : g.high a ≤ g.off b := by
  obtain ⟨a1, a2⟩ := bands_mem g a ha
  obtain ⟨b1, b2⟩ := bands_mem g b hb
  have hs := step_pos g
  unfold Gap.high
  have e : min (a + g.step) g.grid.stop = a + g.step := by omega
  rw [e]
  rcases Nat.lt_or_ge (a + g.step) b with h' | h'
  · exact (hr _ _ (by omega) h' (by omega)).le
  · have : a + g.step = b := by omega
    rw [this]

variable [IsStrictOrderedRing α]

/-- Energy offered for a line. -/
def Gap.offer (g : Gap α) (w : Win α) (j : Nat) : α := if g.noisy j then 2097152 ^ 2 else g.copied w j ^ 2

theorem value_sq (g : Gap α) (w : Win α) (j seed : Nat) : (g.value w j seed).1 ^ 2 = g.offer w j ∧ (g.noisy j = false → (g.value w j seed).1 = g.copied w j) := by
  unfold Gap.value Gap.offer
  split
  · rename_i h
    refine ⟨?_, fun h' => by rw [h] at h'; cases h'⟩
    simp only [sign]
    split <;> ring
  · exact ⟨rfl, fun _ => rfl⟩

theorem codedSum_eq (w : Win α) (n j : Nat) (e : α) : codedSum w n j e = e + energy w.coef j (j + n) := by
  induction n generalizing j e with
  | zero => simp [codedSum, energy]
  | succ n ih =>
    rw [codedSum, ih]
    unfold energy
    rw [Finset.sum_eq_sum_Ico_succ_bot (by omega : j < j + (n + 1))]
    have : j + 1 + n = j + (n + 1) := by omega
    rw [this]
    ring

theorem filledSum_eq (g : Gap α) (w : Win α) (n j : Nat) (s : α × Nat) :
    (filledSum g w n j s).1 = s.1 + offered w.coef g.noisy (g.copied w) j (j + n) := by
  induction n generalizing j s with
  | zero => simp [filledSum, offered]
  | succ n ih =>
    rw [filledSum, ih]
    unfold offered
    rw [Finset.sum_eq_sum_Ico_succ_bot (by omega : j < j + (n + 1))]
    have : j + 1 + n = j + (n + 1) := by omega
    rw [this]
    have hv := (value_sq g w j s.2).1
    unfold Gap.offer at hv
    by_cases h : w.coef j = 0
    · rw [if_pos h, if_pos h, ← hv]
      simp only
      ring
    · rw [if_neg h, if_neg h, zero_add]

theorem calcFold (g : Gap α) (hr : Rising g) (w : Win α) (l : List Nat) (hl : ∀ b ∈ l, b ∈ g.bands) (hn : l.Nodup) (s : Sums α) (x : Nat) :
    ((l.foldl (calcBand g w) s).sn x = s.sn x + if x ∈ l then energy w.coef (g.off x) (g.high x) else 0) ∧
    ((l.foldl (calcBand g w) s).pn x = s.pn x + if x ∈ l then offered w.coef g.noisy (g.copied w) (g.off x) (g.high x) else 0) := by
  induction l generalizing s with
  | nil => simp
  | cons b l ih =>
    rw [List.foldl_cons]
    obtain ⟨h1, h2⟩ := ih (fun y hy => hl y (by simp [hy])) (List.nodup_cons.1 hn).2 (calcBand g w s b)
    rw [h1, h2]
    have hw := width_eq g hr b (hl b (by simp))
    have hb := (List.nodup_cons.1 hn).1
    unfold calcBand
    simp only [codedSum_eq, filledSum_eq, hw, zero_add]
    by_cases hx : x = b
    · subst hx
      simp [hb]
    · simp [hx]

/-- The sums of a group: the energies of all windows. -/
theorem calcAll (g : Gap α) (hr : Rising g) (ws : List (Win α)) (s : Sums α) (b : Nat) (hb : b ∈ g.bands) :
    ((ws.foldl (calcMono g) s).sn b = s.sn b + (ws.map fun w => energy w.coef (g.off b) (g.high b)).sum) ∧
    ((ws.foldl (calcMono g) s).pn b = s.pn b + (ws.map fun w => offered w.coef g.noisy (g.copied w) (g.off b) (g.high b)).sum) := by
  induction ws generalizing s with
  | nil => simp
  | cons w ws ih =>
    rw [List.foldl_cons]
    obtain ⟨h1, h2⟩ := ih (calcMono g s w)
    obtain ⟨h3, h4⟩ := calcFold g hr w g.bands (fun _ h => h) (bands_nodup g) s b
    rw [h1, h2]
    unfold calcMono
    rw [h3, h4, if_pos hb, if_pos hb]
    simp only [List.map_cons, List.sum_cons]
    exact ⟨by ring, by ring⟩

/-- What filling the lines `lo … hi - 1` does. -/
def Filled (g : Gap α) (w : Win α) (gn : α) (lo hi : Nat) (c c' : Nat → α) : Prop :=
  (∀ x, ¬(lo ≤ x ∧ x < hi) → c' x = c x) ∧ (∀ x, lo ≤ x → x < hi → c x ≠ 0 → c' x = c x) ∧
  ∀ x, lo ≤ x → x < hi → c x = 0 → ∃ v, c' x = gn * v ∧ v ^ 2 = g.offer w x ∧ (g.noisy x = false → v = g.copied w x)

theorem fillLines_ok (g : Gap α) (w : Win α) (gn : α) (n j : Nat) (s : (Nat → α) × Nat) :
    Filled g w gn j (j + n) s.1 (fillLines g w gn n j s).1 := by
  induction n generalizing j s with
  | zero => exact ⟨fun _ _ => rfl, fun x _ _ => by omega, fun x _ _ => by omega⟩
  | succ n ih =>
    rw [fillLines]
    have hv := value_sq g w j s.2
    by_cases h : s.1 j = 0
    · rw [if_pos h]
      simp only
      obtain ⟨h1, h2, h3⟩ := ih (j + 1) (fun x => if x = j then gn * (g.value w j s.2).1 else s.1 x, (g.value w j s.2).2)
      simp only at h1 h2 h3
      refine ⟨?_, ?_, ?_⟩
      · intro x hx
        rw [h1 x (by omega), if_neg (by omega)]
      · intro x x1 x2 x3
        have : x ≠ j := fun e => x3 (e ▸ h)
        rw [h2 x (by omega) (by omega) (by rw [if_neg this]; exact x3), if_neg this]
      · intro x x1 x2 x3
        by_cases e : x = j
        · subst e
          exact ⟨_, by rw [h1 x (by omega), if_pos rfl], hv.1, hv.2⟩
        · exact h3 x (by omega) (by omega) (by rw [if_neg e]; exact x3)
    · rw [if_neg h]
      obtain ⟨h1, h2, h3⟩ := ih (j + 1) s
      refine ⟨fun x hx => h1 x (by omega), ?_, ?_⟩
      · intro x x1 x2 x3
        by_cases e : x = j
        · exact h1 x (by omega)
        · exact h2 x (by omega) (by omega) x3
      · intro x x1 x2 x3
        have : x ≠ j := fun e => h (e ▸ x3)
        exact h3 x (by omega) (by omega) x3

theorem fillFold (g : Gap α) (hr : Rising g) (w : Win α) (gn : Nat → α) (l : List Nat) (hl : ∀ b ∈ l, b ∈ g.bands)
    (hp : l.Pairwise fun a b => a + g.step ≤ b) (s : (Nat → α) × Nat) :
    (∀ b ∈ l, ∀ x, g.off b ≤ x → x < g.high b →
      (s.1 x ≠ 0 → (l.foldl (fun c b => fillLines g w (gn b) (g.width b) (g.off b) c) s).1 x = s.1 x) ∧
      (s.1 x = 0 → ∃ v, (l.foldl (fun c b => fillLines g w (gn b) (g.width b) (g.off b) c) s).1 x = gn b * v ∧ v ^ 2 = g.offer w x ∧
        (g.noisy x = false → v = g.copied w x))) ∧
    ∀ x, (∀ b ∈ l, ¬(g.off b ≤ x ∧ x < g.high b)) → (l.foldl (fun c b => fillLines g w (gn b) (g.width b) (g.off b) c) s).1 x = s.1 x := by
  induction l generalizing s with
  | nil => exact ⟨fun b hb => by simp at hb, fun _ _ => rfl⟩
  | cons a l ih =>
    rw [List.foldl_cons]
    obtain ⟨p1, p2⟩ := List.pairwise_cons.1 hp
    have ha := hl a (by simp)
    obtain ⟨h1, h2⟩ := ih (fun y hy => hl y (by simp [hy])) p2 (fillLines g w (gn a) (g.width a) (g.off a) s)
    obtain ⟨f1, f2, f3⟩ := fillLines_ok g w (gn a) (g.width a) (g.off a) s
    rw [width_eq g hr a ha] at f1 f2 f3
    have later : ∀ b ∈ l, g.high a ≤ g.off b := fun b hb => high_le g hr a b ha (hl b (by simp [hb])) (p1 b hb)
    refine ⟨?_, ?_⟩
    · intro b hb x x1 x2
      rcases List.mem_cons.1 hb with rfl | hb
      · have e := h2 x (fun c hc => by have := later c hc; omega)
        rw [e]
        exact ⟨f2 x x1 x2, f3 x x1 x2⟩
      · have e := f1 x (by have := later b hb; omega)
        have := h1 b hb x x1 x2
        rw [e] at this
        exact this
    · intro x hx
      rw [h2 x (fun b hb => hx b (by simp [hb])), f1 x (hx a (by simp))]

theorem scaleLines_eq (f : α) (n j : Nat) (c : Nat → α) (x : Nat) : scaleLines f n j c x = if j ≤ x ∧ x < j + n then c x * f else c x := by
  induction n generalizing j c with
  | zero => rw [scaleLines, if_neg (by omega)]
  | succ n ih =>
    rw [scaleLines, ih]
    by_cases h : x = j
    · subst h
      rw [if_neg (by omega), if_pos rfl, if_pos (by omega)]
    · simp only [if_neg h]
      by_cases h' : j ≤ x ∧ x < j + (n + 1)
      · rw [if_pos h', if_pos (by omega)]
      · rw [if_neg h', if_neg (by omega)]

theorem scaleFold (g : Gap α) (hr : Rising g) (f : Nat → α) (l : List Nat) (hl : ∀ b ∈ l, b ∈ g.bands)
    (hp : l.Pairwise fun a b => a + g.step ≤ b) (c : Nat → α) :
    (∀ b ∈ l, ∀ x, g.off b ≤ x → x < g.high b → l.foldl (fun c b => scaleLines (f b) (g.width b) (g.off b) c) c x = c x * f b) ∧
    ∀ x, (∀ b ∈ l, ¬(g.off b ≤ x ∧ x < g.high b)) → l.foldl (fun c b => scaleLines (f b) (g.width b) (g.off b) c) c x = c x := by
  induction l generalizing c with
  | nil => exact ⟨fun b hb => by simp at hb, fun _ _ => rfl⟩
  | cons a l ih =>
    rw [List.foldl_cons]
    obtain ⟨p1, p2⟩ := List.pairwise_cons.1 hp
    have ha := hl a (by simp)
    obtain ⟨h1, h2⟩ := ih (fun y hy => hl y (by simp [hy])) p2 (scaleLines (f a) (g.width a) (g.off a) c)
    have later : ∀ b ∈ l, g.high a ≤ g.off b := fun b hb => high_le g hr a b ha (hl b (by simp [hb])) (p1 b hb)
    refine ⟨?_, ?_⟩
    · intro b hb x x1 x2
      rcases List.mem_cons.1 hb with rfl | hb
      · rw [h2 x (fun c hc => by have := later c hc; omega), scaleLines_eq, width_eq g hr b ha, if_pos ⟨x1, x2⟩]
      · rw [h1 b hb x x1 x2, scaleLines_eq, width_eq g hr a ha, if_neg (by have := later b hb; omega)]
    · intro x hx
      rw [h2 x (fun b hb => hx b (by simp [hb])), scaleLines_eq, width_eq g hr a ha, if_neg (hx a (by simp))]

/-- The factor of coded lines: 1, or the level in windows of linear prediction. -/
def Gap.factor (g : Gap α) (grp b : Nat) : α := if 1 < g.winType then g.level grp b else 1

/-- What filling does to one window. -/
theorem apply_ok (root : α → α) (g : Gap α) (hr : Rising g) (grp : Nat) (s : Sums α) (w : Win α) (seed : Nat) :
    (∀ b ∈ g.bands, ∀ x, g.off b ≤ x → x < g.high b →
      (w.coef x * g.factor grp b ≠ 0 → (applyMono root g grp s w seed).1 x = w.coef x * g.factor grp b) ∧
      (w.coef x * g.factor grp b = 0 → ∃ v, (applyMono root g grp s w seed).1 x = gain root g grp s b * v ∧ v ^ 2 = g.offer w x ∧
        (g.noisy x = false → v = g.copied w x))) ∧
    ∀ x, (∀ b ∈ g.bands, ¬(g.off b ≤ x ∧ x < g.high b)) → (applyMono root g grp s w seed).1 x = w.coef x := by
  obtain ⟨h1, h2⟩ := fillFold g hr w (gain root g grp s) g.bands (fun _ h => h) (bands_apart g) (rescale g grp w.coef, seed)
  have hs : (∀ b ∈ g.bands, ∀ x, g.off b ≤ x → x < g.high b → rescale g grp w.coef x = w.coef x * g.factor grp b) ∧
      ∀ x, (∀ b ∈ g.bands, ¬(g.off b ≤ x ∧ x < g.high b)) → rescale g grp w.coef x = w.coef x := by
    unfold rescale Gap.factor
    split
    · exact scaleFold g hr (g.level grp) g.bands (fun _ h => h) (bands_apart g) w.coef
    · exact ⟨fun b _ x _ _ => by rw [mul_one], fun _ _ => rfl⟩
  refine ⟨?_, ?_⟩
  · intro b hb x x1 x2
    have := h1 b hb x x1 x2
    simp only [hs.1 b hb x x1 x2] at this
    exact this
  · intro x hx
    exact (h2 x hx).trans (hs.2 x hx)

/-- Energy of a band after filling, with any gain. -/
theorem apply_energy (root : α → α) (g : Gap α) (hr : Rising g) (grp : Nat) (s : Sums α) (w : Win α) (seed b : Nat) (hb : b ∈ g.bands)
    (h0 : g.factor grp b = 0 → gain root g grp s b = 0) :
    energy (applyMono root g grp s w seed).1 (g.off b) (g.high b) = g.factor grp b ^ 2 * energy w.coef (g.off b) (g.high b) +
      gain root g grp s b ^ 2 * offered w.coef g.noisy (g.copied w) (g.off b) (g.high b) := by
  unfold energy offered
  rw [Finset.mul_sum, Finset.mul_sum, ← Finset.sum_add_distrib]
  refine Finset.sum_congr rfl fun x hx => ?_
  obtain ⟨x1, x2⟩ := Finset.mem_Ico.1 hx
  obtain ⟨h1, h2⟩ := (apply_ok root g hr grp s w seed).1 b hb x x1 x2
  by_cases h : w.coef x * g.factor grp b = 0
  · obtain ⟨v, e1, e2, -⟩ := h2 h
    rw [e1, mul_pow, e2]
    rcases mul_eq_zero.1 h with h | h
    · rw [h, if_pos rfl]
      unfold Gap.offer
      ring
    · rw [h0 h, h]
      ring
  · rw [h1 h, if_neg (left_ne_zero_of_mul h)]
    ring

theorem applyAll_sum (root : α → α) (g : Gap α) (hr : Rising g) (grp : Nat) (s : Sums α) (ws : List (Win α)) (seed b : Nat) (hb : b ∈ g.bands)
    (h0 : g.factor grp b = 0 → gain root g grp s b = 0) :
    ((applyAll root g grp s ws seed).1.map fun c => energy c (g.off b) (g.high b)).sum =
      g.factor grp b ^ 2 * (ws.map fun w => energy w.coef (g.off b) (g.high b)).sum +
      gain root g grp s b ^ 2 * (ws.map fun w => offered w.coef g.noisy (g.copied w) (g.off b) (g.high b)).sum := by
  induction ws generalizing seed with
  | nil => simp [applyAll]
  | cons w ws ih =>
    rw [applyAll]
    simp only [List.map_cons, List.sum_cons]
    rw [ih, apply_energy root g hr grp s w seed b hb h0]
    ring

theorem energy_nonneg (c : Nat → α) (lo hi : Nat) : 0 ≤ energy c lo hi := Finset.sum_nonneg fun _ _ => sq_nonneg _

theorem offered_nonneg (c : Nat → α) (noisy : Nat → Bool) (copied : Nat → α) (lo hi : Nat) : 0 ≤ offered c noisy copied lo hi := by
  refine Finset.sum_nonneg fun _ _ => ?_
  split
  · split
    · positivity
    · exact sq_nonneg _
  · exact le_rfl

theorem sum_map_nonneg {β : Type} (l : List β) (f : β → α) (h : ∀ x, 0 ≤ f x) : 0 ≤ (l.map f).sum := by
  induction l with
  | nil => simp
  | cons a l ih =>
    simp only [List.map_cons, List.sum_cons]
    have := h a
    linarith

/-- **C216** Energy of a band of a group after gap filling, whatever the lines, copies, levels, tiles and seeds: with `S` the energy of the coded lines, `P`
that of what is offered for the empty ones and `T` = windows · level² · width, it is `S` and as much of `T - S` as a gain of at most 10 can supply.  In
windows of linear prediction (window types 2, 3) the coded lines are scaled with the level first. -/
theorem C216_energy (root : α → α) (hroot : ∀ x, 0 ≤ x → 0 ≤ root x ∧ root x ^ 2 = x) (g : Gap α) (hr : Rising g) (grp : Nat) (ws : List (Win α))
    (hw : ws ≠ []) (seeds : Nat × Nat) (b : Nat) (hb : b ∈ g.bands) (S P T : α)
    (hS : S = (ws.map fun w => energy w.coef (g.off b) (g.high b)).sum)
    (hP : P = (ws.map fun w => offered w.coef g.noisy (g.copied w) (g.off b) (g.high b)).sum)
    (hT : T = (ws.length : α) * (g.level grp b ^ 2 * ((g.high b - g.off b : Nat) : α))) :
    ((group root g grp ws seeds).1.map fun c => energy c (g.off b) (g.high b)).sum =
      (if 1 < g.winType then g.level grp b ^ 2 else 1) * S + min (max (T - S) 0) (100 * P) := by
  unfold group
  simp only
  set s := ws.foldl (calcMono g) ⟨fun _ => 0, fun _ => 0, seeds.1⟩ with hs
  obtain ⟨e1, e2⟩ := calcAll g hr ws ⟨fun _ => 0, fun _ => 0, seeds.1⟩ b hb
  rw [← hs] at e1 e2
  simp only [zero_add] at e1 e2
  rw [← hS] at e1
  rw [← hP] at e2
  have hn : (0 : α) < (ws.length : α) := by
    have : 0 < ws.length := List.length_pos_iff.2 hw
    exact_mod_cast this
  obtain ⟨b1, b2⟩ := bands_mem g b hb
  have n1 : (norm g ws.length s).sn b = S / (ws.length : α) := by
    unfold norm
    simp only
    rw [if_pos ⟨b1, b2⟩, e1]
  have n2 : (norm g ws.length s).pn b = P / (ws.length : α) := by
    unfold norm
    simp only
    rw [if_pos ⟨b1, b2⟩, e2]
  have S0 : 0 ≤ S := by rw [hS]; exact sum_map_nonneg _ _ fun w => energy_nonneg _ _ _
  have P0 : 0 ≤ P := by rw [hP]; exact sum_map_nonneg _ _ fun w => offered_nonneg _ _ _ _ _
  have hwid : g.width b = g.high b - g.off b := rfl
  set n : α := (ws.length : α) with hnn
  have hmn : g.level grp b * g.level grp b * (g.width b : α) - S / n = (T - S) / n := by
    rw [hT, hwid]
    field_simp
  have hg : gain root g grp (norm g ws.length s) b = if 0 < (T - S) / n ∧ 0 < P / n then min (root ((T - S) / n / (P / n))) 10 else 0 := by
    unfold gain
    simp only
    rw [n1, n2, hmn]
  have hgsq : gain root g grp (norm g ws.length s) b ^ 2 * P = min (max (T - S) 0) (100 * P) := by
    rw [hg]
    by_cases hc : 0 < (T - S) / n ∧ 0 < P / n
    · rw [if_pos hc]
      have c1 : 0 < T - S := by
        by_contra hh
        exact absurd hc.1 (not_lt.2 (div_nonpos_of_nonpos_of_nonneg (not_lt.1 hh) hn.le))
      have c2 : 0 < P := by
        by_contra hh
        exact absurd hc.2 (not_lt.2 (div_nonpos_of_nonpos_of_nonneg (not_lt.1 hh) hn.le))
      have eq : (T - S) / n / (P / n) = (T - S) / P := by field_simp
      rw [eq, max_eq_left c1.le]
      obtain ⟨r1, r2⟩ := hroot ((T - S) / P) (div_nonneg c1.le c2.le)
      by_cases h10 : root ((T - S) / P) ≤ 10
      · rw [min_eq_left h10, r2]
        have : (T - S) / P ≤ 100 := by
          rw [← r2]
          nlinarith
        rw [div_mul_cancel₀ _ c2.ne', min_eq_left]
        rwa [div_le_iff₀ c2] at this
      · have h10 := not_le.1 h10
        rw [min_eq_right h10.le]
        have : 100 ≤ (T - S) / P := by
          rw [← r2]
          nlinarith
        rw [le_div_iff₀ c2] at this
        rw [min_eq_right this]
        ring
    · rw [if_neg hc]
      have : T - S ≤ 0 ∨ P = 0 := by
        by_contra hh
        push Not at hh
        exact hc ⟨div_pos hh.1 hn, div_pos (lt_of_le_of_ne P0 (Ne.symm hh.2)) hn⟩
      rcases this with h | h
      · rw [max_eq_right h, min_eq_left (by linarith)]
        ring
      · rw [h, mul_zero, mul_zero, min_eq_right (le_max_right _ _)]
  have h0 : g.factor grp b = 0 → gain root g grp (norm g ws.length s) b = 0 := by
    intro hf
    unfold Gap.factor at hf
    split at hf
    · rw [hg, if_neg]
      rintro ⟨h, -⟩
      have : T = 0 := by rw [hT, hf]; ring
      rw [this] at h
      have : (0 - S) / n ≤ 0 := div_nonpos_of_nonpos_of_nonneg (by linarith) hn.le
      linarith
    · exact absurd hf one_ne_zero
  rw [applyAll_sum root g hr grp _ ws _ b hb h0, ← hS, ← hP, hgsq]
  congr 2
  unfold Gap.factor
  split <;> simp

/-- **C216** A group of long or short windows whose coded lines lie below the level, and for whose empty lines enough is offered, gets exactly the level. -/
theorem C216_level (root : α → α) (hroot : ∀ x, 0 ≤ x → 0 ≤ root x ∧ root x ^ 2 = x) (g : Gap α) (hr : Rising g) (grp : Nat) (ws : List (Win α))
    (hw : ws ≠ []) (seeds : Nat × Nat) (b : Nat) (hb : b ∈ g.bands) (ht : g.winType ≤ 1) (T : α)
    (hT : T = (ws.length : α) * (g.level grp b ^ 2 * ((g.high b - g.off b : Nat) : α)))
    (h1 : (ws.map fun w => energy w.coef (g.off b) (g.high b)).sum ≤ T)
    (h2 : T - (ws.map fun w => energy w.coef (g.off b) (g.high b)).sum ≤
      100 * (ws.map fun w => offered w.coef g.noisy (g.copied w) (g.off b) (g.high b)).sum) :
    ((group root g grp ws seeds).1.map fun c => energy c (g.off b) (g.high b)).sum = T := by
  rw [C216_energy root hroot g hr grp ws hw seeds b hb _ _ T rfl rfl hT, if_neg (by omega), max_eq_left (by linarith), min_eq_left h2]
  ring

/-- The groups of a frame are treated one after the other. -/
theorem groups_get (root : α → α) (g : Gap α) (l : List (List (Win α))) (grp : Nat) (seeds : Nat × Nat) (i : Nat) (ws : List (Win α)) (h : l[i]? = some ws) :
    ∃ sd, (groups root g grp l seeds).1[i]? = some (group root g (grp + i) ws sd).1 := by
  induction l generalizing grp seeds i with
  | nil => simp at h
  | cons a l ih =>
    rw [groups]
    cases i with
    | zero =>
      simp only [List.getElem?_cons_zero, Option.some.injEq] at h
      subst h
      exact ⟨seeds, rfl⟩
    | succ i =>
      obtain ⟨sd, h'⟩ := ih (grp + 1) (group root g grp a seeds).2 i (by simpa using h)
      refine ⟨sd, ?_⟩
      simp only [List.getElem?_cons_succ]
      rw [h']
      have : grp + 1 + i = grp + (i + 1) := by omega
      rw [this]

/-- **C216** The same for every group of a frame with gap filling: each band of each group that can be brought to its level has that level. -/
theorem C216_frame (root : α → α) (hroot : ∀ x, 0 ≤ x → 0 ≤ root x ∧ root x ^ 2 = x) (g : Gap α) (hr : Rising g) (l : List (List (Win α))) (seed : Nat)
    (ht : g.winType ≤ 1) (i : Nat) (ws : List (Win α)) (h : l[i]? = some ws) (hw : ws ≠ []) :
    ∃ out, (mono root g false l seed).1[i]? = some out ∧ ∀ b ∈ g.bands, ∀ T : α,
      T = (ws.length : α) * (g.level i b ^ 2 * ((g.high b - g.off b : Nat) : α)) →
      (ws.map fun w => energy w.coef (g.off b) (g.high b)).sum ≤ T →
      T - (ws.map fun w => energy w.coef (g.off b) (g.high b)).sum ≤
        100 * (ws.map fun w => offered w.coef g.noisy (g.copied w) (g.off b) (g.high b)).sum →
      (out.map fun c => energy c (g.off b) (g.high b)).sum = T := by
  obtain ⟨sd, e⟩ := groups_get root g l 0 (seed, seed) i ws h
  rw [Nat.zero_add] at e
  exact ⟨_, e, fun b hb T hT h1 h2 => C216_level root hroot g hr i ws hw sd b hb ht T hT h1 h2⟩

theorem gain_le (root : α → α) (hroot : ∀ x, 0 ≤ x → 0 ≤ root x) (g : Gap α) (grp : Nat) (s : Sums α) (b : Nat) :
    0 ≤ gain root g grp s b ∧ gain root g grp s b ≤ 10 := by
  unfold gain
  simp only
  split
  · rename_i h
    exact ⟨le_min (hroot _ (div_nonneg h.1.le h.2.le)) (by norm_num), min_le_right _ _⟩
  · exact ⟨le_rfl, by norm_num⟩

/-- What may happen to a window of a long or short block: lines outside the gap and coded lines stay, an empty line of a band gets a gain of at most 10
times its copied line, or noise where its tile has the strongest whitening. -/
def Kept (g : Gap α) (w : Win α) (c : Nat → α) : Prop :=
  (∀ x, (x < g.off g.grid.start ∨ g.off g.grid.stop ≤ x) → c x = w.coef x) ∧ (∀ x, w.coef x ≠ 0 → c x = w.coef x) ∧
  ∃ gn : Nat → α, (∀ b, 0 ≤ gn b ∧ gn b ≤ 10) ∧ ∀ b ∈ g.bands, ∀ x, g.off b ≤ x → x < g.high b → w.coef x = 0 →
    (g.noisy x = false → c x = gn b * g.copied w x) ∧ (g.noisy x = true → c x = gn b * 2097152 ∨ c x = -(gn b * 2097152))

theorem apply_kept (root : α → α) (hroot : ∀ x, 0 ≤ x → 0 ≤ root x) (g : Gap α) (hr : Rising g) (ht : g.winType ≤ 1) (grp : Nat) (s : Sums α)
    (w : Win α) (seed : Nat) : Kept g w (applyMono root g grp s w seed).1 := by
  obtain ⟨h1, h2⟩ := apply_ok root g hr grp s w seed
  have hf : ∀ b, g.factor grp b = 1 := fun b => by unfold Gap.factor; rw [if_neg (by omega)]
  simp only [hf, mul_one] at h1
  have inside : ∀ b ∈ g.bands, g.off g.grid.start ≤ g.off b ∧ g.high b ≤ g.off g.grid.stop := by
    intro b hb
    obtain ⟨b1, b2⟩ := bands_mem g b hb
    have hs := step_pos g
    constructor
    · rcases Nat.lt_or_ge g.grid.start b with h | h
      · exact (hr _ _ le_rfl h b2.le).le
      · have : b = g.grid.start := by omega
        rw [this]
    · unfold Gap.high
      rcases Nat.lt_or_ge (b + g.step) g.grid.stop with h | h
      · rw [min_eq_left h.le]
        exact (hr _ _ (by omega) h le_rfl).le
      · rw [min_eq_right h]
  refine ⟨?_, ?_, gain root g grp s, gain_le root hroot g grp s, ?_⟩
  · intro x hx
    refine h2 x fun b hb => ?_
    have := inside b hb
    omega
  · intro x hx
    by_cases h : ∃ b ∈ g.bands, g.off b ≤ x ∧ x < g.high b
    · obtain ⟨b, hb, x1, x2⟩ := h
      exact (h1 b hb x x1 x2).1 hx
    · push Not at h
      exact h2 x fun b hb hh => absurd hh.2 (not_lt.2 (h b hb hh.1))
  · intro b hb x x1 x2 hx
    obtain ⟨v, e1, e2, e3⟩ := (h1 b hb x x1 x2).2 hx
    refine ⟨fun hn => by rw [e1, e3 hn], fun hn => ?_⟩
    unfold Gap.offer at e2
    rw [if_pos hn] at e2
    rcases sq_eq_sq_iff_eq_or_eq_neg.1 e2 with e | e
    · left; rw [e1, e]
    · right; rw [e1, e]; ring

theorem applyAll_kept (root : α → α) (hroot : ∀ x, 0 ≤ x → 0 ≤ root x) (g : Gap α) (hr : Rising g) (ht : g.winType ≤ 1) (grp : Nat) (s : Sums α)
    (ws : List (Win α)) (seed : Nat) : List.Forall₂ (Kept g) ws (applyAll root g grp s ws seed).1 := by
  induction ws generalizing seed with
  | nil => exact List.Forall₂.nil
  | cons w ws ih =>
    rw [applyAll]
    exact List.Forall₂.cons (apply_kept root hroot g hr ht grp s w seed) (ih _)

/-- **C217** Gap filling of a frame of long or short windows changes only empty lines of the gap, and each of those becomes its copied line, or noise of
2097152, with a gain between 0 and 10 that is the same over a band; a frame coded as all zero stays as it is. -/
theorem C217_kept (root : α → α) (hroot : ∀ x, 0 ≤ x → 0 ≤ root x) (g : Gap α) (hr : Rising g) (ht : g.winType ≤ 1) (l : List (List (Win α)))
    (seed : Nat) : List.Forall₂ (List.Forall₂ (Kept g)) l (mono root g false l seed).1 ∧
      mono root g true l seed = (l.map fun ws => ws.map Win.coef, seed) := by
  refine ⟨?_, rfl⟩
  have key : ∀ (l : List (List (Win α))) (grp : Nat) (seeds : Nat × Nat), List.Forall₂ (List.Forall₂ (Kept g)) l (groups root g grp l seeds).1 := by
    intro l
    induction l with
    | nil => intro _ _; exact List.Forall₂.nil
    | cons ws l ih =>
      intro grp seeds
      rw [groups]
      exact List.Forall₂.cons (applyAll_kept root hroot g hr ht grp _ ws _) (ih _ _)
  exact key l 0 (seed, seed)

omit [IsStrictOrderedRing α] in
/-- The bands cover the gap: every line of it lies in a band. -/
theorem C217_cover (g : Gap α) (x : Nat) (hlt : g.grid.start ≤ g.grid.stop) (h1 : g.off g.grid.start ≤ x)
    (h2 : x < g.off g.grid.stop) : ∃ b ∈ g.bands, g.off b ≤ x ∧ x < g.high b := by
  have hs := step_pos g
  set N := (g.grid.stop - g.grid.start + g.step - 1) / g.step with hN
  have hend : g.grid.stop ≤ g.grid.start + g.step * N := by
    have := Nat.div_add_mod (g.grid.stop - g.grid.start + g.step - 1) g.step
    have h3 := Nat.mod_lt (g.grid.stop - g.grid.start + g.step - 1) (show 0 < g.step by omega)
    rw [← hN] at this
    omega
  have key : ∀ k, k ≤ N → x < g.off (min (g.grid.start + g.step * k) g.grid.stop) → ∃ b ∈ g.bands, g.off b ≤ x ∧ x < g.high b := by
    intro k
    induction k with
    | zero =>
      intro _ h
      rw [Nat.mul_zero, Nat.add_zero, min_eq_left hlt] at h
      omega
    | succ k ih =>
      intro hk h
      by_cases h' : x < g.off (min (g.grid.start + g.step * k) g.grid.stop)
      · exact ih (by omega) h'
      · have e : g.grid.start + g.step * (k + 1) = g.grid.start + g.step * k + g.step := by rw [Nat.mul_add, Nat.mul_one]; omega
        rw [e] at h
        have hb : g.grid.start + g.step * k < g.grid.stop := by
          by_contra hh
          rw [min_eq_right (by omega)] at h h'
          omega
        refine ⟨g.grid.start + g.step * k, List.mem_map.2 ⟨k, List.mem_range.2 hk, rfl⟩, ?_, h⟩
        rw [min_eq_left hb.le] at h'
        omega
  refine key N le_rfl ?_
  rw [min_eq_right hend]
  exact h2

/-- Two bands of two lines from line 4, one tile; level 2 everywhere. -/
def sample (t : Nat) : Gap ℝ := ⟨t, ⟨2, 4, 1, 0⟩, true, false, fun i => 2 * i, [4], [3, 3, 3, 3], [0, 0, 0, 0], fun _ _ => 2⟩

theorem sample_rising (t : Nat) : Rising (sample t) := by
  intro i j _ h _
  show 2 * i < 2 * j
  omega

theorem sample_step (t : Nat) : (sample t).step = 1 := if_pos (Or.inl rfl)

theorem sample_bands (t : Nat) : (2 : Nat) ∈ (sample t).bands := by
  unfold Gap.bands
  refine List.mem_map.2 ⟨0, ?_, rfl⟩
  rw [List.mem_range, sample_step]
  show 0 < (4 - 2 + 1 - 1) / 1
  decide

theorem sample_high (t : Nat) : (sample t).high 2 = 6 := by
  unfold Gap.high
  rw [sample_step]
  rfl

/-- Example of `C216_level`: the first band has a coded line of 1 and an empty line with a copy of 3; it gets the energy 2² · 2. -/
example : let w : Win ℝ := ⟨fun j => if j = 4 then 1 else 0, fun _ _ => 3⟩
    energy ((group Real.sqrt (sample 0) 0 [w] (0, 0)).1.getD 0 0) 4 6 = 8 := by
  intro w
  have h := C216_level Real.sqrt (fun x hx => ⟨Real.sqrt_nonneg x, Real.sq_sqrt hx⟩) (sample 0) (sample_rising 0) 0 [w] (by simp) (0, 0) 2
    (sample_bands 0) (by decide) 8 (by rw [sample_high]; simp only [sample]; norm_num) (by
      rw [sample_high]
      simp only [List.map_cons, List.map_nil, List.sum_cons, List.sum_nil, energy, sample, w]
      rw [Finset.sum_Ico_eq_sum_range]
      norm_num [Finset.sum_range_succ]) (by
      rw [sample_high]
      simp only [List.map_cons, List.map_nil, List.sum_cons, List.sum_nil, energy, offered, sample, w, Gap.noisy, Gap.copied]
      rw [Finset.sum_Ico_eq_sum_range, Finset.sum_Ico_eq_sum_range]
      norm_num [Finset.sum_range_succ])
  rw [sample_high] at h
  simpa [group, applyAll, sample] using h

/-- **C219** (refuted) "After gap filling a band has the energy of its level" in windows of linear prediction: its coded lines are multiplied by the level,
but the energy to be added is found with the lines before that.  Two coded lines of 2 at the level 2 already have the energy of the level; they become lines
of 4, with four times that energy. -/
theorem C219_refuted : ¬ ∀ (g : Gap ℝ) (w : Win ℝ) (b : Nat), Rising g → b ∈ g.bands →
    energy w.coef (g.off b) (g.high b) ≤ g.level 0 b ^ 2 * ((g.high b - g.off b : Nat) : ℝ) →
    g.level 0 b ^ 2 * ((g.high b - g.off b : Nat) : ℝ) - energy w.coef (g.off b) (g.high b) ≤
      100 * offered w.coef g.noisy (g.copied w) (g.off b) (g.high b) →
    ((group Real.sqrt g 0 [w] (0, 0)).1.map fun c => energy c (g.off b) (g.high b)).sum = g.level 0 b ^ 2 * ((g.high b - g.off b : Nat) : ℝ) := by
  intro h
  have hE : energy (fun _ => (2 : ℝ)) ((sample 2).off 2) ((sample 2).high 2) = 8 := by
    rw [sample_high]
    unfold energy sample
    norm_num
  have hO : offered (fun _ => (2 : ℝ)) (sample 2).noisy ((sample 2).copied ⟨fun _ => 2, fun _ _ => 0⟩) ((sample 2).off 2) ((sample 2).high 2) = 0 := by
    unfold offered
    refine Finset.sum_eq_zero fun x _ => ?_
    rw [if_neg (by norm_num)]
  have hL : (sample 2).level 0 2 ^ 2 * (((sample 2).high 2 - (sample 2).off 2 : Nat) : ℝ) = 8 := by
    rw [sample_high]
    simp only [sample]
    norm_num
  have h' := h (sample 2) ⟨fun _ => 2, fun _ _ => 0⟩ 2 (sample_rising 2) (sample_bands 2) (by rw [hL, hE]) (by rw [hL, hE, hO]; norm_num)
  rw [C216_energy Real.sqrt (fun x hx => ⟨Real.sqrt_nonneg x, Real.sq_sqrt hx⟩) (sample 2) (sample_rising 2) 0 [⟨fun _ => 2, fun _ _ => 0⟩] (by simp) (0, 0) 2
    (sample_bands 2) 8 0 8 (by simp only [List.map_cons, List.map_nil, List.sum_cons, List.sum_nil, hE]; norm_num)
    (by simp only [List.map_cons, List.map_nil, List.sum_cons, List.sum_nil, hO]; norm_num) (by rw [hL]; norm_num), hL,
    if_pos (by decide)] at h'
  simp only [sample] at h'
  norm_num at h'

/-- **C219** What holds there: the energy is that of the coded lines times the square of the level, and as much of the difference of the level and the coded
lines before scaling as a gain of 10 can supply. -/
theorem C219_energy_partial (root : α → α) (hroot : ∀ x, 0 ≤ x → 0 ≤ root x ∧ root x ^ 2 = x) (g : Gap α) (hr : Rising g) (w : Win α) (ht : 1 < g.winType)
    (seeds : Nat × Nat) (b : Nat) (hb : b ∈ g.bands) (S P T : α) (hS : S = energy w.coef (g.off b) (g.high b))
    (hP : P = offered w.coef g.noisy (g.copied w) (g.off b) (g.high b)) (hT : T = g.level 0 b ^ 2 * ((g.high b - g.off b : Nat) : α)) :
    ((group root g 0 [w] seeds).1.map fun c => energy c (g.off b) (g.high b)).sum = g.level 0 b ^ 2 * S + min (max (T - S) 0) (100 * P) := by
  rw [C216_energy root hroot g hr 0 [w] (by simp) seeds b hb S P T (by simp [hS]) (by simp [hP]) (by simp [hT]), if_pos ht]

end Verif.Igf
