import Verif.Spec.FdMix
import Verif.Props.FdWindow
import Mathlib.Tactic.Ring
import Mathlib.Tactic.Linarith
import Mathlib.Tactic.FieldSimp

/-! # Stereo processing of frequency domain channels -/

namespace Verif.FdMix

open Fd (bandsAt widths short_ok long_ok bandsAt_mem Groups)
open Scf (groupEnds)

/-! ## Loops -/

theorem bins_apply {τ : Type} (h : Nat → τ → τ) (n idx : Nat) (s : Nat → τ) (i : Nat) :
    bins h n idx s i = if idx ≤ i ∧ i < idx + n then h i (s i) else s i := by
  induction n generalizing idx s with
  | zero => rw [bins, if_neg (by omega)]
  | succ n ih =>
    rw [bins, ih]
    unfold upd
    by_cases h1 : i = idx
    · subst h1
      rw [if_neg (by omega), if_pos rfl, if_pos (by omega)]
    · rw [if_neg h1]
      by_cases h2 : idx ≤ i ∧ i < idx + (n + 1)
      · rw [if_pos (by omega), if_pos h2]
      · rw [if_neg (by omega), if_neg h2]

theorem walkBands_fst {τ : Type} (h : Nat → Nat → τ → τ) (ws : List Nat) (sfb idx : Nat) (s : Nat → τ) :
    (walkBands h ws sfb idx s).1 = idx + ws.sum := by
  induction ws generalizing sfb idx s with
  | nil => rfl
  | cons w ws ih => rw [walkBands, ih, List.sum_cons]; omega

theorem walkBands_outside {τ : Type} (h : Nat → Nat → τ → τ) (ws : List Nat) (sfb idx : Nat) (s : Nat → τ) (i : Nat)
    (hi : i < idx ∨ idx + ws.sum ≤ i) : (walkBands h ws sfb idx s).2 i = s i := by
  induction ws generalizing sfb idx s with
  | nil => rfl
  | cons w ws ih =>
    rw [List.sum_cons] at hi
    rw [walkBands, ih _ _ _ (by omega), bins_apply, if_neg (by omega)]

theorem walkBands_inside {τ : Type} (h : Nat → Nat → τ → τ) (ws : List Nat) (sfb idx : Nat) (s : Nat → τ) (b w k : Nat)
    (hb : ws[b]? = some w) (hk : k < w) :
    (walkBands h ws sfb idx s).2 (idx + (ws.take b).sum + k) =
      h (sfb + b) (idx + (ws.take b).sum + k) (s (idx + (ws.take b).sum + k)) := by
  induction ws generalizing sfb idx s b with
  | nil => simp at hb
  | cons v ws ih =>
    rw [walkBands]
    cases b with
    | zero =>
      obtain rfl : v = w := by simpa using hb
      rw [List.take_zero, List.sum_nil, Nat.add_zero, walkBands_outside _ _ _ _ _ _ (by omega), bins_apply, if_pos (by omega)]
      rfl
    | succ b =>
      have := ih (sfb + 1) (idx + v) (bins (h sfb) v idx s) b (by simpa using hb)
      rw [bins_apply, if_neg (by omega)] at this
      rw [List.take_succ_cons, List.sum_cons, show idx + (v + (ws.take b).sum) + k = idx + v + (ws.take b).sum + k from by omega, this,
        show sfb + 1 + b = sfb + (b + 1) from by omega]

theorem walkWindows_fst {τ : Type} (h : Nat → Nat → τ → τ) (ws : List Nat) (n idx : Nat) (s : Nat → τ) :
    (walkWindows h ws n idx s).1 = idx + n * ws.sum := by
  induction n generalizing idx s with
  | zero => simp [walkWindows]
  | succ n ih =>
    rw [walkWindows]
    rw [ih, walkBands_fst, Nat.succ_mul]
    omega

theorem walkWindows_outside {τ : Type} (h : Nat → Nat → τ → τ) (ws : List Nat) (n idx : Nat) (s : Nat → τ) (i : Nat)
    (hi : i < idx ∨ idx + n * ws.sum ≤ i) : (walkWindows h ws n idx s).2 i = s i := by
  induction n generalizing idx s with
  | zero => rfl
  | succ n ih =>
    rw [Nat.succ_mul] at hi
    rw [walkWindows]
    rw [ih _ _ (by rw [walkBands_fst]; omega), walkBands_outside _ _ _ _ _ _ (by omega)]

theorem walkWindows_inside {τ : Type} (h : Nat → Nat → τ → τ) (ws : List Nat) (n idx : Nat) (s : Nat → τ) (j b w k : Nat) (hj : j < n)
    (hb : ws[b]? = some w) (hk : k < w) :
    (walkWindows h ws n idx s).2 (idx + j * ws.sum + (ws.take b).sum + k) =
      h b (idx + j * ws.sum + (ws.take b).sum + k) (s (idx + j * ws.sum + (ws.take b).sum + k)) := by
  have hlt : (ws.take b).sum + k < ws.sum := by
    have e : (ws.take b).sum + (ws.drop b).sum = ws.sum := by rw [← List.sum_append, List.take_append_drop]
    have : ws.drop b = w :: ws.drop (b + 1) := by
      obtain ⟨h1, h2⟩ := List.getElem?_eq_some_iff.mp hb
      rw [List.drop_eq_getElem_cons h1, h2]
    rw [this, List.sum_cons] at e
    omega
  induction n generalizing idx s j with
  | zero => omega
  | succ n ih =>
    rw [walkWindows]
    cases j with
    | zero =>
      rw [walkWindows_outside _ _ _ _ _ _ (by rw [walkBands_fst]; omega), Nat.zero_mul, Nat.add_zero, walkBands_inside _ _ _ _ _ _ _ _ hb hk,
        Nat.zero_add]
    | succ j =>
      have := ih (walkBands h ws 0 idx s).1 (walkBands h ws 0 idx s).2 j (by omega)
      rw [walkBands_fst] at this ⊢
      rw [walkBands_outside _ _ _ _ _ _ (by omega)] at this
      rw [Nat.succ_mul, show idx + (j * ws.sum + ws.sum) + (ws.take b).sum + k = idx + ws.sum + j * ws.sum + (ws.take b).sum + k from by omega, this]

theorem walk_outside {τ : Type} (h : Nat → Nat → Nat → τ → τ) (ws lens : List Nat) (g idx : Nat) (s : Nat → τ) (i : Nat)
    (hi : i < idx ∨ idx + lens.sum * ws.sum ≤ i) : walk h ws lens g idx s i = s i := by
  induction lens generalizing g idx s with
  | nil => rfl
  | cons n lens ih =>
    rw [List.sum_cons, Nat.add_mul] at hi
    rw [walk]
    rw [ih _ _ _ (by rw [walkWindows_fst]; omega), walkWindows_outside _ _ _ _ _ _ (by omega)]

theorem take_sum_lt (l : List Nat) (g len : Nat) (h : l[g]? = some len) : (l.take g).sum + len ≤ l.sum := by
  have e : (l.take g).sum + (l.drop g).sum = l.sum := by rw [← List.sum_append, List.take_append_drop]
  obtain ⟨h1, h2⟩ := List.getElem?_eq_some_iff.mp h
  rw [List.drop_eq_getElem_cons h1, h2, List.sum_cons] at e
  omega

theorem walk_inside {τ : Type} (h : Nat → Nat → Nat → τ → τ) (ws lens : List Nat) (g0 idx : Nat) (s : Nat → τ) (g b len w j k : Nat)
    (hg : lens[g]? = some len) (hj : j < len) (hb : ws[b]? = some w) (hk : k < w) :
    walk h ws lens g0 idx s (idx + ((lens.take g).sum + j) * ws.sum + (ws.take b).sum + k) =
      h (g0 + g) b (idx + ((lens.take g).sum + j) * ws.sum + (ws.take b).sum + k)
        (s (idx + ((lens.take g).sum + j) * ws.sum + (ws.take b).sum + k)) := by
  have hlt := take_sum_lt ws b w hb
  induction lens generalizing g0 idx s g with
  | nil => simp at hg
  | cons n lens ih =>
    rw [walk]
    cases g with
    | zero =>
      obtain rfl : n = len := by simpa using hg
      have hm : (j + 1) * ws.sum ≤ n * ws.sum := Nat.mul_le_mul_right _ hj
      rw [Nat.succ_mul] at hm
      simp only [List.take_zero, List.sum_nil, Nat.zero_add, Nat.add_zero]
      rw [walk_outside _ _ _ _ _ _ _ (by rw [walkWindows_fst]; omega), walkWindows_inside _ _ _ _ _ _ _ _ _ hj hb hk]
    | succ g =>
      have := ih (g0 + 1) (walkWindows (h g0) ws n idx s).1 (walkWindows (h g0) ws n idx s).2 g (by simpa using hg)
      rw [walkWindows_fst] at this ⊢
      rw [walkWindows_outside _ _ _ _ _ _ (by omega)] at this
      have e : idx + (((n :: lens).take (g + 1)).sum + j) * ws.sum + (ws.take b).sum + k =
          idx + n * ws.sum + ((lens.take g).sum + j) * ws.sum + (ws.take b).sum + k := by
        rw [List.take_succ_cons, List.sum_cons]
        ring
      rw [e, this, show g0 + 1 + g = g0 + (g + 1) from by omega]

theorem walk_at {τ : Type} (h : Nat → Nat → Nat → τ → τ) (ws lens : List Nat) (s : Nat → τ) (i g b : Nat) (hi : At lens ws i g b) :
    walk h ws lens 0 0 s i = h g b i (s i) := by
  obtain ⟨len, w, j, k, h1, h2, h3, h4, rfl⟩ := hi
  have := walk_inside h ws lens 0 0 s g b len w j k h1 h2 h3 h4
  simp only [Nat.zero_add] at this
  exact this

theorem locate (l : List Nat) (i : Nat) (h : i < l.sum) : ∃ g len j, l[g]? = some len ∧ j < len ∧ i = (l.take g).sum + j := by
  induction l generalizing i with
  | nil => simp at h
  | cons n l ih =>
    rw [List.sum_cons] at h
    by_cases hi : i < n
    · exact ⟨0, n, i, rfl, hi, by simp⟩
    · obtain ⟨g, len, j, h1, h2, h3⟩ := ih (i - n) (by omega)
      exact ⟨g + 1, len, j, by simpa using h1, h2, by rw [List.take_succ_cons, List.sum_cons]; omega⟩

/-- Every bin belongs to some band. -/
theorem at_exists (lens ws : List Nat) (i : Nat) (h : i < lens.sum * ws.sum) : ∃ g b, At lens ws i g b := by
  have hw : 0 < ws.sum := Nat.pos_of_ne_zero fun e => by simp [e] at h
  obtain ⟨g, len, j, h1, h2, h3⟩ := locate lens (i / ws.sum) ((Nat.div_lt_iff_lt_mul hw).mpr h)
  obtain ⟨b, w, k, h4, h5, h6⟩ := locate ws (i % ws.sum) (Nat.mod_lt _ hw)
  refine ⟨g, b, len, w, j, k, h1, h2, h4, h5, ?_⟩
  rw [← h3, Nat.add_assoc, ← h6, Nat.mul_comm]
  exact (Nat.div_add_mod _ _).symm

theorem at_lt (lens ws : List Nat) (i g b : Nat) (h : At lens ws i g b) : i < lens.sum * ws.sum := by
  obtain ⟨len, w, j, k, h1, h2, h3, h4, rfl⟩ := h
  have := take_sum_lt lens g len h1
  have h5 := take_sum_lt ws b w h3
  have : ((lens.take g).sum + j + 1) * ws.sum ≤ lens.sum * ws.sum := Nat.mul_le_mul_right _ (by omega)
  rw [Nat.succ_mul] at this
  omega

/-! ## C188: the estimated imaginary part -/

theorem mirror_eq (len : Nat) (m : Int) (n : Nat)
    (h : (m < 0 ∧ (n : Int) = -1 - m) ∨ (0 ≤ m ∧ m < len ∧ (n : Int) = m) ∨ (0 ≤ m ∧ len ≤ m ∧ (n : Int) = 2 * len - 1 - m)) : mirror len m = n := by
  unfold mirror
  split
  · omega
  · split
    · omega
    · omega

theorem fir_eq (f x : Nat → ℚ) (len k : Nat) : fir f x len k =
    taps f (x (mirror len (k - 3))) (x (mirror len (k - 2))) (x (mirror len (k - 1))) (x (mirror len k)) (x (mirror len (k + 1)))
      (x (mirror len (k + 2))) (x (mirror len (k + 3))) := by
  have e0 : (k : Int) + 3 - (0 : Nat) = k + 3 := by omega
  have e1 : (k : Int) + 3 - (1 : Nat) = k + 2 := by omega
  have e2 : (k : Int) + 3 - (2 : Nat) = k + 1 := by omega
  have e3 : (k : Int) + 3 - (3 : Nat) = k := by omega
  have e4 : (k : Int) + 3 - (4 : Nat) = k - 1 := by omega
  have e5 : (k : Int) + 3 - (5 : Nat) = k - 2 := by omega
  have e6 : (k : Int) + 3 - (6 : Nat) = k - 3 := by omega
  unfold fir taps
  rw [show List.range 7 = [0, 1, 2, 3, 4, 5, 6] from rfl]
  simp only [List.map_cons, List.map_nil, List.sum_cons, List.sum_nil, e0, e1, e2, e3, e4, e5, e6]
  ring

theorem filterLoop_apply (x : Nat → ℚ) (len : Nat) (f : Nat → ℚ) (even : ℚ) (fuel idx : Nat) (out : Nat → ℚ) (hlen : len % 2 = 0)
    (hidx : idx % 2 = 1) (hf : len ≤ idx + 2 * fuel) (hi : 3 ≤ idx) (i : Nat) :
    filterLoop x len f even fuel idx out i = if idx ≤ i ∧ i + 3 < len then
      out i + taps f (x (i - 3)) (x (i - 2)) (x (i - 1)) (x i) (x (i + 1)) (x (i + 2)) (x (i + 3)) * (if i % 2 = 0 then even else 1)
    else out i := by
  induction fuel generalizing idx out with
  | zero => rw [filterLoop, if_neg (by omega)]
  | succ fuel ih =>
    rw [filterLoop]
    by_cases h : idx + 4 < len
    · rw [if_pos h]
      rw [ih _ _ (by omega) (by omega) (by omega)]
      unfold upd
      by_cases h1 : i = idx
      · subst h1
        rw [if_neg (by omega), if_neg (by omega), if_pos rfl, if_pos (by omega), if_neg (by omega), mul_one]
      · by_cases h2 : i = idx + 1
        · subst h2
          rw [if_neg (by omega), if_pos rfl, if_neg h1, if_pos (by omega), if_pos (by omega)]
          simp only [show idx + 1 - 3 = idx - 2 from by omega, show idx + 1 - 2 = idx - 1 from by omega, Nat.add_sub_cancel,
            show idx + 1 + 1 = idx + 2 from rfl, show idx + 1 + 2 = idx + 3 from rfl, show idx + 1 + 3 = idx + 4 from rfl]
        · simp only [if_neg h1, if_neg h2]
          by_cases h3 : idx ≤ i ∧ i + 3 < len
          · rw [if_pos (by omega), if_pos h3]
          · rw [if_neg (by omega), if_neg h3]
    · rw [if_neg h, if_neg (by omega)]

/-- The filter adds the mirrored sum of seven products; in even bins it is multiplied. -/
theorem filterAdd_apply (x : Nat → ℚ) (len : Nat) (f : Nat → ℚ) (even : ℚ) (out : Nat → ℚ) (hlen : len % 2 = 0) (h8 : 8 ≤ len) (i : Nat) :
    filterAdd x len f even out i = if i < len then out i + fir f x len i * (if i % 2 = 0 then even else 1) else out i := by
  unfold filterAdd
  have hm := fun (m : Int) (n : Nat) h => mirror_eq len m n h
  by_cases hi : i < len
  swap
  · rw [if_neg hi]
    simp only [upd, filterLoop_apply x len f even len 3 _ hlen (by decide) (by omega) (by decide)]
    rw [if_neg (by omega), if_neg (by omega), if_neg (by omega), if_neg (by omega), if_neg (by omega), if_neg (by omega), if_neg (by omega)]
  rw [if_pos hi, fir_eq]
  by_cases c1 : i = len - 1
  · subst c1
    simp only [upd, filterLoop_apply x len f even len 3 _ hlen (by decide) (by omega) (by decide), if_true]
    rw [if_neg (by omega), if_neg (by omega), if_neg (by omega), if_neg (by omega), if_neg (by omega), if_neg (by omega), if_neg (by omega),
      mul_one, hm _ (len - 1 - 3) (by omega), hm _ (len - 1 - 2) (by omega), hm _ (len - 1 - 1) (by omega), hm _ (len - 1) (by omega),
      hm _ (len - 1) (by omega), hm _ (len - 1 - 1) (by omega), hm _ (len - 1 - 2) (by omega)]
  by_cases c2 : i = len - 2
  · subst c2
    simp only [upd, filterLoop_apply x len f even len 3 _ hlen (by decide) (by omega) (by decide), if_true]
    rw [if_neg (by omega), if_neg (by omega), if_neg (by omega), if_neg (by omega), if_neg (by omega), if_neg (by omega), if_pos (by omega),
      hm _ (len - 2 - 3) (by omega), hm _ (len - 2 - 2) (by omega), hm _ (len - 2 - 1) (by omega), hm _ (len - 2) (by omega),
      hm _ (len - 2 + 1) (by omega), hm _ (len - 2 + 1) (by omega), hm _ (len - 2) (by omega)]
  by_cases c3 : i = len - 3
  · subst c3
    simp only [upd, filterLoop_apply x len f even len 3 _ hlen (by decide) (by omega) (by decide), if_true]
    rw [if_neg (by omega), if_neg (by omega), if_neg (by omega), if_neg (by omega), if_neg (by omega), if_neg (by omega), if_neg (by omega),
      mul_one, hm _ (len - 3 - 3) (by omega), hm _ (len - 3 - 2) (by omega), hm _ (len - 3 - 1) (by omega), hm _ (len - 3) (by omega),
      hm _ (len - 3 + 1) (by omega), hm _ (len - 3 + 2) (by omega), hm _ (len - 3 + 2) (by omega)]
  simp only [upd, filterLoop_apply x len f even len 3 _ hlen (by decide) (by omega) (by decide), if_neg c1, if_neg c2, if_neg c3]
  by_cases c4 : i = 0
  · subst c4
    rw [if_neg (by omega), if_neg (by omega), if_neg (by omega), if_pos rfl, if_pos rfl, hm _ 2 (by omega), hm _ 1 (by omega), hm _ 0 (by omega),
      hm _ 0 (by omega), hm _ 1 (by omega), hm _ 2 (by omega), hm _ 3 (by omega)]
  by_cases c5 : i = 1
  · subst c5
    rw [if_neg (by omega), if_neg (by omega), if_pos rfl, if_neg (by omega), if_neg (by omega), mul_one, hm _ 1 (by omega), hm _ 0 (by omega),
      hm _ 0 (by omega), hm _ 1 (by omega), hm _ 2 (by omega), hm _ 3 (by omega), hm _ 4 (by omega)]
  by_cases c6 : i = 2
  · subst c6
    rw [if_neg (by omega), if_pos rfl, if_neg (by omega), if_neg (by omega), if_pos (by omega), hm _ 0 (by omega), hm _ 0 (by omega),
      hm _ 1 (by omega), hm _ 2 (by omega), hm _ 3 (by omega), hm _ 4 (by omega), hm _ 5 (by omega)]
  rw [if_pos (by omega), if_neg c6, if_neg c5, if_neg c4, hm _ (i - 3) (by omega), hm _ (i - 2) (by omega), hm _ (i - 1) (by omega),
    hm _ i (by omega), hm _ (i + 1) (by omega), hm _ (i + 2) (by omega), hm _ (i + 3) (by omega)]

theorem fir_congr (f x y : Nat → ℚ) (len k : Nat) (h8 : 8 ≤ len) (hk : k < len) (h : ∀ k < len, x k = y k) : fir f x len k = fir f y len k := by
  have hm : ∀ m : Int, -3 ≤ m → m < len + 3 → x (mirror len m) = y (mirror len m) := by
    intro m h1 h2
    apply h
    unfold mirror
    split
    · omega
    · split <;> omega
  rw [fir_eq, fir_eq, hm _ (by omega) (by omega), hm _ (by omega) (by omega), hm _ (by omega) (by omega), hm _ (by omega) (by omega),
    hm _ (by omega) (by omega), hm _ (by omega) (by omega), hm _ (by omega) (by omega)]

theorem estimate_outside (cur last : Nat → ℚ) (width : Nat) (dmx : Nat → ℚ) (n base : Nat) (prev : Option (Nat → ℚ)) (im : Nat → ℚ)
    (hw : width % 2 = 0) (h8 : 8 ≤ width) (i : Nat) (hi : i < base ∨ base + n * width ≤ i) :
    estimate cur last width dmx n base prev im i = im i := by
  induction n generalizing base prev im with
  | zero => rfl
  | succ n ih =>
    rw [Nat.succ_mul] at hi
    rw [estimate, ih _ _ _ (by omega)]
    have hone : ∀ (x f : Nat → ℚ) (e : ℚ) (s : Nat → ℚ), at' base (filterAdd x width f e) s i = s i := by
      intro x f e s
      unfold at'
      by_cases h : base ≤ i
      · rw [if_pos h, filterAdd_apply _ _ _ _ _ hw h8, if_neg (by omega)]
        show s (base + (i - base)) = s i
        rw [show base + (i - base) = i from by omega]
      · rw [if_neg h]
    cases prev with
    | none => exact hone _ _ _ _
    | some p =>
      show at' base (filterAdd p width last (-1)) (at' base (filterAdd (from' dmx base) width cur 1) im) i = im i
      rw [hone, hone]

theorem estimate_inside (cur last : Nat → ℚ) (width : Nat) (dmx : Nat → ℚ) (n base : Nat) (prev : Option (Nat → ℚ)) (im : Nat → ℚ)
    (hw : width % 2 = 0) (h8 : 8 ≤ width) (w k : Nat) (hwn : w < n) (hk : k < width) :
    estimate cur last width dmx n base prev im (base + w * width + k) =
      im (base + w * width + k) + imag cur last width (fun w k => dmx (base + w * width + k)) prev w k := by
  induction n generalizing base prev im w with
  | zero => omega
  | succ n ih =>
    rw [estimate]
    have hone : ∀ (x f : Nat → ℚ) (e : ℚ) (s : Nat → ℚ) (j : Nat), base ≤ j → at' base (filterAdd x width f e) s j =
        if j - base < width then s j + fir f x width (j - base) * (if (j - base) % 2 = 0 then e else 1) else s j := by
      intro x f e s j hj
      unfold at'
      rw [if_pos hj, filterAdd_apply _ _ _ _ _ hw h8]
      have : from' s base (j - base) = s j := by
        unfold from'
        rw [show base + (j - base) = j from by omega]
      rw [this]
    cases w with
    | zero =>
      simp only [Nat.zero_mul, Nat.add_zero]
      rw [estimate_outside _ _ _ _ _ _ _ _ hw h8 _ (by omega)]
      have hj : base + k - base = k := by omega
      have e1 : fir cur (from' dmx base) width k = fir cur (fun k => dmx (base + 0 * width + k)) width k := by
        simp only [Nat.zero_mul, Nat.add_zero]
        rfl
      cases prev with
      | none =>
        rw [addLast, hone _ _ _ _ _ (by omega), hj, if_pos hk, imag, e1]
        split <;> ring
      | some p =>
        rw [addLast, hone _ _ _ _ _ (by omega), hone _ _ _ _ _ (by omega), hj, if_pos hk, if_pos hk, imag, e1]
        unfold sign
        split <;> ring
    | succ w =>
      rw [show base + (w + 1) * width + k = base + width + w * width + k from by rw [Nat.succ_mul]; omega, ih _ _ _ w (by omega)]
      congr 1
      · have hle : base ≤ base + width + w * width + k := by omega
        have hge : ¬ base + width + w * width + k - base < width := by omega
        cases prev with
        | none => rw [addLast, hone _ _ _ _ _ hle, if_neg hge]
        | some p => rw [addLast, hone _ _ _ _ _ hle, if_neg hge, hone _ _ _ _ _ hle, if_neg hge]
      · have e : (fun w k => dmx (base + width + w * width + k)) = fun w k => dmx (base + (w + 1) * width + k) := by
          funext w k
          rw [Nat.succ_mul, show base + (w * width + width) + k = base + width + w * width + k from by omega]
        have e0 : from' dmx base = fun k => dmx (base + 0 * width + k) := by
          funext k
          simp only [Nat.zero_mul, Nat.add_zero]
          rfl
        rw [e, e0]
        cases w with
        | zero => rw [imag, imag]
        | succ w => rw [imag, imag]

/-- C188: the estimated imaginary part of a downmix is, for all windows and bins, the sum of the mirrored filter over the window and of the mirrored
filter over the window before with alternating sign; before the first window is the last one of the frame before, if it is used. -/
theorem C188_imag (cur last : Nat → ℚ) (width : Nat) (dmx : Nat → ℚ) (n : Nat) (prev : Option (Nat → ℚ)) (hw : width % 2 = 0) (h8 : 8 ≤ width)
    (w k : Nat) (hn : w < n) (hk : k < width) :
    estimate cur last width dmx n 0 prev (fun _ => 0) (w * width + k) = imag cur last width (fun w k => dmx (w * width + k)) prev w k := by
  have h := estimate_inside cur last width dmx n 0 prev (fun _ => 0) hw h8 w k hn hk
  simp only [Nat.zero_add, zero_add] at h
  exact h

/-- C188, tables: for every window sequence and shapes the filter for the window itself is antisymmetric, and the one for the window before is
symmetric. -/
theorem C188_filters (seq a b : Nat) (ha : a < 2) (hb : b < 2) :
    (filters seq a b).1.length = 7 ∧ (filters seq a b).1.reverse = (filters seq a b).1.map (- ·) ∧
    (filters seq a b).2.length = 7 ∧ (filters seq a b).2.reverse = (filters seq a b).2 := by
  have h : ∀ s < 6, ∀ a < 2, ∀ b < 2, (filters s a b).1.length = 7 ∧ (filters s a b).1.reverse = (filters s a b).1.map (- ·) ∧
      (filters s a b).2.length = 7 ∧ (filters s a b).2.reverse = (filters s a b).2 := by decide +kernel
  by_cases hs : seq < 6
  · exact h seq hs a ha b hb
  · have : filters seq a b = filters 5 a b := by
      unfold filters
      obtain ⟨k, rfl⟩ : ∃ k, seq = k + 5 := ⟨seq - 5, by omega⟩
      rfl
    rw [this]
    exact h 5 (by decide) a ha b hb

example : (128 : Nat) % 2 = 0 ∧ 8 ≤ 128 ∧ 7 < 8 ∧ 127 < 128 := by decide

/-- A peak in bin 0 of the window: the filter is mirrored at the lower border. -/
example : imag (mill [0, 0, 500000, 0, -500000, 0, 0]) (mill []) 128 (fun _ k => if k = 0 then 1 else 0) none 0 0 = -1 / 2 := by
  rw [imag, fir_eq]
  have h := fun m n h => mirror_eq 128 m n h
  rw [h _ 2 (by omega), h _ 1 (by omega), h _ 0 (by omega), h _ 0 (by omega), h _ 1 (by omega), h _ 2 (by omega), h _ 3 (by omega)]
  norm_num [taps, mill]

/-! ## C187: prediction -/

theorem imag_congr (cur last : Nat → ℚ) (width : Nat) (x y : Nat → Nat → ℚ) (prev : Option (Nat → ℚ)) (n w k : Nat) (h8 : 8 ≤ width) (hn : w < n)
    (hk : k < width) (h : ∀ w < n, ∀ k < width, x w k = y w k) : imag cur last width x prev w k = imag cur last width y prev w k := by
  have hf : ∀ f w', w' < n → fir f (x w') width k = fir f (y w') width k := fun f w' h1 => fir_congr f _ _ width k h8 hk (h w' h1)
  cases w with
  | zero =>
    cases prev with
    | none => rw [imag, imag, hf cur 0 hn]
    | some p => rw [imag, imag, hf cur 0 hn]
  | succ w => rw [imag, imag, hf cur _ hn, hf last w (by omega)]

theorem basis_other (dir : Bool) (x : ℚ × ℚ) :
    (basis dir x + other dir x, factor dir * (basis dir x - other dir x)) = x := by
  obtain ⟨l, r⟩ := x
  cases dir <;> simp only [basis, other, mid, side, factor, Bool.false_eq_true, if_false, if_true, Prod.mk.injEq] <;> constructor <;> ring

/-- C187: upmixing gives back the spectra from which the coded ones were made, in every bin, for both directions, with and without imaginary part;
nothing beyond the windows is changed. -/
theorem C187_upmix (u : Up) (stop : Nat) (scratch : Nat → ℚ) (x y : Nat → ℚ × ℚ) (hw : u.ws.sum = u.width) (he : u.width % 2 = 0)
    (h8 : 8 ≤ u.width) (hu : ∀ g b, u.used g b = 0 ∨ u.used g b = 1) (hs : u.complex = false → ∀ g b, u.used g b ≠ 0 → b < stop)
    (h : Encoded u x y) (i : Nat) :
    upmix u 0 stop scratch y i = if i < u.lens.sum * u.width then x i else y i := by
  unfold upmix
  simp only
  by_cases hi : i < u.lens.sum * u.width
  swap
  · rw [if_neg hi]
    rw [← hw] at hi
    split
    · exact walk_outside _ _ _ _ _ _ _ (by omega)
    · exact walk_outside _ _ _ _ _ _ _ (by omega)
  rw [if_pos hi]
  obtain ⟨g, b, hat⟩ := at_exists u.lens u.ws i (by rw [hw]; exact hi)
  have hy := h i g b hat
  by_cases hc : u.complex = false
  · rw [if_pos hc, walk_at _ _ _ _ _ _ _ hat, realBin]
    rw [hc] at hy
    by_cases h0 : u.used g b = 0
    · rw [if_pos h0] at hy
      rw [if_neg (by omega), hy]
    · rw [if_neg h0] at hy
      simp only [Bool.false_eq_true, if_false] at hy
      rw [if_pos ⟨h0, by omega, hs hc g b h0⟩, hy]
      simp only
      rw [show other u.dir (x i) + u.re g b / 10 * basis u.dir (x i) + 0 - u.re g b * (1 / 10) * basis u.dir (x i) = other u.dir (x i) from by ring]
      exact basis_other _ _
  · rw [if_neg hc, walk_at _ _ _ _ _ _ _ hat, complexBin]
    have hct : u.complex = true := by simpa using hc
    by_cases h0 : u.used g b = 0
    · rw [if_pos h0] at hy
      rw [if_pos h0, hy]
    · rw [if_neg h0, if_pos hct] at hy
      rw [if_neg h0]
      have hd : ∀ j, j < u.lens.sum * u.width → walk (dmxBin u.dir u.used y) u.ws u.lens 0 0 scratch j = basis u.dir (x j) := by
        intro j hj
        obtain ⟨g', b', hat'⟩ := at_exists u.lens u.ws j (by rw [hw]; exact hj)
        have hy' := h j g' b' hat'
        rw [walk_at _ _ _ _ _ _ _ hat', dmxBin]
        rcases hu g' b' with h1 | h1
        · rw [if_pos h1] at hy'
          rw [if_pos (by omega), hy']
          unfold basis mid side factor
          cases u.dir <;> simp <;> ring
        · rw [if_neg (by omega)] at hy'
          rw [if_neg (by omega), hy']
      have hpos : 0 < u.width := by omega
      have hn : i / u.width < u.lens.sum := (Nat.div_lt_iff_lt_mul hpos).mpr hi
      have hk : i % u.width < u.width := Nat.mod_lt _ hpos
      have hdm : i / u.width * u.width + i % u.width = i := by rw [Nat.mul_comm]; exact Nat.div_add_mod _ _
      have him := C188_imag u.cur u.last u.width (walk (dmxBin u.dir u.used y) u.ws u.lens 0 0 scratch) u.lens.sum u.prev he h8 _ _ hn hk
      rw [hdm, imag_congr _ _ _ _ (fun w k => basis u.dir (x (w * u.width + k))) _ u.lens.sum _ _ h8 hn hk] at him
      · rw [him, hy]
        simp only
        generalize imag u.cur u.last u.width (fun w k => basis u.dir (x (w * u.width + k))) u.prev (i / u.width) (i % u.width) = m
        rw [show other u.dir (x i) + u.re g b / 10 * basis u.dir (x i) + u.im g b / 10 * m - u.re g b * (1 / 10) * basis u.dir (x i) -
          u.im g b * (1 / 10) * m = other u.dir (x i) from by ring]
        exact basis_other _ _
      · intro w hw' k hk'
        apply hd
        have : (w + 1) * u.width ≤ u.lens.sum * u.width := Nat.mul_le_mul_right _ hw'
        rw [Nat.succ_mul] at this
        omega

/-- C187, the frame before: what is kept for the first window is the basis of the last window of the spectra, or zero. -/
theorem C187_prev (len width : Nat) (dir zeros : Bool) (x : Nat → ℚ × ℚ) (out : Nat → ℚ) (i : Nat) (hi : i < width) :
    prevDmx len width dir zeros x out i = if zeros then 0 else basis dir (x (len - width + i)) := by
  unfold prevDmx basis mid side
  rw [if_pos hi, Nat.add_comm i]
  cases zeros <;> cases dir <;> simp <;> ring

example : prevDmx 1024 128 true false (fun i => if i = 896 then (5, 1) else (0, 0)) (fun _ => 7) 0 = 2 := by
  rw [C187_prev _ _ _ _ _ _ _ (by decide)]
  norm_num [basis, side]

/-! ## Bands of a window -/

theorem widths_sum (last : Nat) (l : List Nat) (h : (last :: l).Pairwise (· ≤ ·)) (b : Nat) (hb : b ≤ l.length) :
    last + ((widths last l).take b).sum = (last :: l).getD b 0 := by
  induction l generalizing last b with
  | nil =>
    obtain rfl : b = 0 := by simpa using hb
    simp
  | cons e l ih =>
    cases b with
    | zero => simp
    | succ b =>
      have h1 : last ≤ e := by
        rw [List.pairwise_cons] at h
        exact h.1 e (by simp)
      have := ih e (List.pairwise_cons.mp h).2 b (by simpa using hb)
      rw [widths, List.take_succ_cons, List.sum_cons, List.getD_cons_succ, ← this]
      omega

theorem widths_length (last : Nat) (l : List Nat) : (widths last l).length = l.length := by
  induction l generalizing last with
  | nil => rfl
  | cons e l ih => rw [widths, List.length_cons, List.length_cons, ih]

theorem widths_get (last : Nat) (l : List Nat) (b w : Nat) (h : (widths last l)[b]? = some w) :
    b < l.length ∧ w = l.getD b 0 - (last :: l).getD b 0 := by
  induction l generalizing last b with
  | nil => simp [widths] at h
  | cons e l ih =>
    cases b with
    | zero =>
      rw [widths] at h
      simp at h
      simp [h]
    | succ b =>
      have := ih e b (by simpa [widths] using h)
      simpa using this

theorem widths_total (l : List Nat) (h : (0 :: l).Pairwise (· ≤ ·)) (e : Nat) (he : l.getLast? = some e) : (widths 0 l).sum = e := by
  have := widths_sum 0 l h l.length (le_refl _)
  rw [List.take_of_length_le (by rw [widths_length]), Nat.zero_add] at this
  rw [this]
  have hne : l ≠ [] := by
    rintro rfl
    simp at he
  obtain ⟨k, hk⟩ : ∃ k, l.length = k + 1 := ⟨l.length - 1, by have := List.length_pos_iff.mpr hne; omega⟩
  rw [List.getLast?_eq_getElem?, hk] at he
  rw [hk, List.getD_cons_succ, List.getD_eq_getElem?_getD, show k = k + 1 - 1 from by omega, he]
  rfl

/-- The widths of the bands of a window, at every sampling rate, sum to its length. -/
theorem bands_sum (rate : Nat) : (widths 0 (bandsAt rate).long).sum = 1024 ∧ (widths 0 (bandsAt rate).short).sum = 128 := by
  obtain ⟨h1, h2, -⟩ := short_ok _ (bandsAt_mem rate)
  obtain ⟨h3, h4, -⟩ := long_ok _ (bandsAt_mem rate)
  exact ⟨widths_total _ h3 _ h4, widths_total _ h1 _ h2⟩

/-- C187 with the bands of a sampling rate: a frame of eight short windows in any groups, or of a long one. -/
theorem C187_rate (rate : Nat) (u : Up) (stop : Nat) (scratch : Nat → ℚ) (x y : Nat → ℚ × ℚ)
    (hl : (u.lens = [1] ∧ u.ws = widths 0 (bandsAt rate).long ∧ u.width = 1024) ∨
      (Groups u.lens ∧ u.ws = widths 0 (bandsAt rate).short ∧ u.width = 128))
    (hu : ∀ g b, u.used g b = 0 ∨ u.used g b = 1) (hs : u.complex = false → ∀ g b, u.used g b ≠ 0 → b < stop)
    (h : Encoded u x y) (i : Nat) :
    upmix u 0 stop scratch y i = if i < 1024 then x i else y i := by
  obtain ⟨b1, b2⟩ := bands_sum rate
  rcases hl with ⟨h1, h2, h3⟩ | ⟨h1, h2, h3⟩
  · have := C187_upmix u stop scratch x y (by rw [h2, h3, b1]) (by rw [h3]) (by rw [h3]; decide) hu hs h i
    rw [h1, h3] at this
    exact this
  · have := C187_upmix u stop scratch x y (by rw [h2, h3, b2]) (by rw [h3]) (by rw [h3]; decide) hu hs h i
    rw [h1.2, h3] at this
    exact this

/-- A frame of a long window at 48 kHz with prediction in bands 0 and 1. -/
def wUp (complex : Bool) : Up :=
  ⟨false, complex, fun g b => if g = 0 ∧ b < 2 then 1 else 0, fun _ _ => 3, fun _ _ => -2, [1], widths 0 (bandsAt 48000).long, 1024,
    mill (filters 0 0 0).1, mill (filters 0 0 0).2, none⟩

example : ((wUp true).lens = [1] ∧ (wUp true).ws = widths 0 (bandsAt 48000).long ∧ (wUp true).width = 1024) ∧
    (∀ g b, (wUp true).used g b = 0 ∨ (wUp true).used g b = 1) ∧ ((wUp false).complex = false → ∀ g b, (wUp false).used g b ≠ 0 → b < 2) := by
  refine ⟨⟨rfl, rfl, rfl⟩, fun g b => ?_, fun _ g b h => ?_⟩
  · show (if g = 0 ∧ b < 2 then 1 else 0) = 0 ∨ (if g = 0 ∧ b < 2 then 1 else 0) = 1
    split <;> simp
  · change (if g = 0 ∧ b < 2 then 1 else 0) ≠ 0 at h
    split at h
    · rename_i h1
      exact h1.2
    · exact absurd rfl h

/-- Every pair of spectra can be coded. -/
theorem encoded_exists (u : Up) (x : Nat → ℚ × ℚ) : ∃ y, Encoded u x y := by
  classical
  refine ⟨fun i => if hx : ∃ p : Nat × Nat, At u.lens u.ws i p.1 p.2 then
      (fun p : Nat × Nat => if u.used p.1 p.2 = 0 then x i else
      (basis u.dir (x i), other u.dir (x i) + u.re p.1 p.2 / 10 * basis u.dir (x i) +
        if u.complex = true then
          u.im p.1 p.2 / 10 * imag u.cur u.last u.width (fun w k => basis u.dir (x (w * u.width + k))) u.prev (i / u.width) (i % u.width)
        else 0)) hx.choose else x i, ?_⟩
  intro i g b hat
  have hx : ∃ p : Nat × Nat, At u.lens u.ws i p.1 p.2 := ⟨(g, b), hat⟩
  have huni : hx.choose = (g, b) := by
    have hc := hx.choose_spec
    generalize hx.choose = p at hc
    obtain ⟨len, w, j, k, h1, h2, h3, h4, h5⟩ := hat
    obtain ⟨len', w', j', k', h1', h2', h3', h4', h5'⟩ := hc
    have key : ∀ (l : List Nat) (g g' n n' j j' : Nat), l[g]? = some n → l[g']? = some n' → j < n → j' < n' →
        (l.take g).sum + j = (l.take g').sum + j' → g = g' := by
      intro l
      induction l with
      | nil => intro g g' n n' j j' h; simp at h
      | cons v l ih =>
        intro g g' n n' j j' e1 e2 e3 e4 e5
        cases g with
        | zero =>
          cases g' with
          | zero => rfl
          | succ g' =>
            obtain rfl : v = n := by simpa using e1
            rw [List.take_zero, List.sum_nil, List.take_succ_cons, List.sum_cons] at e5
            omega
        | succ g =>
          cases g' with
          | zero =>
            obtain rfl : v = n' := by simpa using e2
            rw [List.take_zero, List.sum_nil, List.take_succ_cons, List.sum_cons] at e5
            omega
          | succ g' =>
            rw [List.take_succ_cons, List.sum_cons, List.take_succ_cons, List.sum_cons] at e5
            rw [ih g g' n n' j j' (by simpa using e1) (by simpa using e2) e3 e4 (by omega)]
    have s1 := take_sum_lt u.ws b w h3
    have s2 := take_sum_lt u.ws p.2 w' h3'
    have hpos : 0 < u.ws.sum := by omega
    rw [h5] at h5'
    have d1 : (((u.lens.take g).sum + j) * u.ws.sum + (u.ws.take b).sum + k) / u.ws.sum = (u.lens.take g).sum + j := by
      rw [Nat.add_assoc, Nat.mul_comm, Nat.mul_add_div hpos, Nat.div_eq_of_lt (by omega), Nat.add_zero]
    have d2 : (((u.lens.take p.1).sum + j') * u.ws.sum + (u.ws.take p.2).sum + k') / u.ws.sum = (u.lens.take p.1).sum + j' := by
      rw [Nat.add_assoc, Nat.mul_comm, Nat.mul_add_div hpos, Nat.div_eq_of_lt (by omega), Nat.add_zero]
    rw [h5', d2] at d1
    rw [d1, Nat.add_assoc, Nat.add_assoc] at h5'
    have h6 := Nat.add_left_cancel h5'
    exact Prod.ext (key _ _ _ _ _ _ _ h1' h1 h2' h2 d1) (key _ _ _ _ _ _ _ h3' h3 h4' h4 h6.symm)
  simp only [dif_pos hx, huni]

/-! ## C189: bands with prediction -/

/-- C189 (partial): without imaginary part upmixing does not change bands at or above `stop`.  Missing: with imaginary part. -/
theorem C189_stop_partial (u : Up) (start stop : Nat) (scratch : Nat → ℚ) (x : Nat → ℚ × ℚ) (hc : u.complex = false) (i g b : Nat)
    (h : At u.lens u.ws i g b) (hb : stop ≤ b) : upmix u start stop scratch x i = x i := by
  unfold upmix
  simp only
  rw [if_pos hc, walk_at _ _ _ _ _ _ _ h, realBin, if_neg (by omega)]

/-- C189 (refuted): with imaginary part upmixing changes bands at or above `stop` that are marked for prediction. -/
theorem C189_refuted : ∃ (u : Up) (stop : Nat) (x : Nat → ℚ × ℚ) (i g b : Nat), u.complex = true ∧ At u.lens u.ws i g b ∧ stop ≤ b ∧
    ∀ scratch, upmix u 0 stop scratch x i ≠ x i := by
  refine ⟨⟨false, true, fun _ _ => 1, fun _ _ => 10, fun _ _ => 0, [1], [4, 4], 8, fun _ => 0, fun _ => 0, none⟩, 1, fun _ => (1, 0), 4, 0, 1, rfl,
    ⟨1, 4, 0, 0, rfl, by decide, rfl, by decide, rfl⟩, le_refl _, fun scratch h => ?_⟩
  unfold upmix at h
  simp only at h
  rw [if_neg (by decide), walk_at _ _ _ _ 4 0 1 ⟨1, 4, 0, 0, rfl, by decide, rfl, by decide, rfl⟩, complexBin, if_neg (by decide)] at h
  have := congrArg Prod.fst h
  norm_num at this

example : At [1] [4, 4] 4 0 1 := ⟨1, 4, 0, 0, rfl, by decide, rfl, by decide, rfl⟩

/-! ## C186: middle and side -/

theorem off_mono (ends : List Nat) (h : (0 :: ends).Pairwise (· ≤ ·)) (a b : Nat) (hab : a ≤ b) (hb : b ≤ ends.length) :
    (0 :: ends).getD a 0 ≤ (0 :: ends).getD b 0 := by
  rcases Nat.eq_or_lt_of_le hab with rfl | hlt
  · exact le_refl _
  · have h1 : a < (0 :: ends).length := by simp; omega
    have h2 : b < (0 :: ends).length := by simp; omega
    rw [List.getD_eq_getElem?_getD, List.getD_eq_getElem?_getD, List.getElem?_eq_getElem h1, List.getElem?_eq_getElem h2]
    exact List.pairwise_iff_getElem.mp h a b h1 h2 hlt

theorem msBands_apply (mask : Nat → Nat) (ends : List Nat) (h : (0 :: ends).Pairwise (· ≤ ·)) (base n band : Nat) (s : Nat → ℚ × ℚ)
    (hn : band + n ≤ ends.length) (i : Nat) :
    (∀ b, band ≤ b → b < band + n → base + (0 :: ends).getD b 0 ≤ i → i < base + ends.getD b 0 →
      msBands mask ends base n band ((0 :: ends).getD band 0) s i = if mask b ≠ 0 then msBin (s i) else s i) ∧
    (i < base + (0 :: ends).getD band 0 ∨ base + (0 :: ends).getD (band + n) 0 ≤ i →
      msBands mask ends base n band ((0 :: ends).getD band 0) s i = s i) := by
  induction n generalizing band s with
  | zero => exact ⟨fun b h1 h2 => by omega, fun _ => rfl⟩
  | succ n ih =>
    have e : (0 :: ends).getD (band + 1) 0 = ends.getD band 0 := List.getD_cons_succ
    have hm1 := off_mono ends h band (band + 1) (by omega) (by omega)
    rw [e] at hm1
    have hstep : ∀ j, (if mask band ≠ 0 then bins (fun _ => msBin) (ends.getD band 0 - (0 :: ends).getD band 0) (base + (0 :: ends).getD band 0) s else s) j =
        if base + (0 :: ends).getD band 0 ≤ j ∧ j < base + ends.getD band 0 then (if mask band ≠ 0 then msBin (s j) else s j) else s j := by
      intro j
      by_cases hmask : mask band ≠ 0
      · rw [if_pos hmask, bins_apply, if_pos hmask]
        by_cases hj : base + (0 :: ends).getD band 0 ≤ j ∧ j < base + ends.getD band 0
        · rw [if_pos (by omega), if_pos hj]
        · rw [if_neg (by omega), if_neg hj]
      · rw [if_neg hmask, if_neg hmask]
        split <;> rfl
    have hi := ih (band + 1) (if mask band ≠ 0 then bins (fun _ => msBin) (ends.getD band 0 - (0 :: ends).getD band 0) (base + (0 :: ends).getD band 0) s
      else s) (by omega)
    rw [e] at hi
    rw [msBands]
    refine ⟨fun b h1 h2 h3 h4 => ?_, fun h1 => ?_⟩
    · by_cases hb : b = band
      · subst hb
        rw [hi.2 (by omega), hstep, if_pos ⟨h3, h4⟩]
      · have hm2 := off_mono ends h (band + 1) b (by omega) (by omega)
        rw [e] at hm2
        have hc : ¬ (base + (0 :: ends).getD band 0 ≤ i ∧ i < base + ends.getD band 0) := by omega
        rw [hi.1 b (by omega) (by omega) h3 h4, hstep, if_neg hc]
    · have hm2 := off_mono ends h (band + 1) (band + 1 + n) (by omega) (by omega)
      rw [e] at hm2
      rw [show band + (n + 1) = band + 1 + n from by omega] at h1
      rw [hi.2 (by omega), hstep, if_neg (by omega)]

/-- A window: bins of masked bands below `last` become sum and difference, others stay. -/
theorem msWindow_apply (mask : Nat → Nat) (ends : List Nat) (h : (0 :: ends).Pairwise (· ≤ ·)) (width : Nat) (hw : ends.getLast? = some width) (base last : Nat)
    (s : Nat → ℚ × ℚ) (hl : last ≤ ends.length) (i : Nat) :
    (∀ b w k, (widths 0 ends)[b]? = some w → k < w → i = base + ((widths 0 ends).take b).sum + k →
      msBands mask ends base last 0 0 s i = if b < last ∧ mask b ≠ 0 then msBin (s i) else s i) ∧
    (i < base ∨ base + width ≤ i → msBands mask ends base last 0 0 s i = s i) := by
  have ha := msBands_apply mask ends h base last 0 s (by omega) i
  simp only [List.getD_cons_zero, Nat.zero_add] at ha
  have htot := widths_total ends h width hw
  have hend := widths_sum 0 ends h ends.length (le_refl _)
  rw [List.take_of_length_le (by rw [widths_length]), htot, Nat.zero_add] at hend
  refine ⟨fun b w k h1 h2 h3 => ?_, fun h1 => ?_⟩
  · obtain ⟨h4, h5⟩ := widths_get 0 ends b w h1
    have h6 := widths_sum 0 ends h b (by omega)
    have h7 := off_mono ends h b (b + 1) (by omega) (by omega)
    rw [List.getD_cons_succ] at h7
    by_cases hb : b < last
    · rw [ha.1 b (Nat.zero_le _) hb (by omega) (by omega)]
      simp only [hb, true_and]
    · have h8 := off_mono ends h last b (by omega) (by omega)
      rw [ha.2 (by omega), if_neg (by omega)]
  · have h8 := off_mono ends h last ends.length (by omega) (by omega)
    exact ha.2 (by omega)

theorem msWindows_apply (mask : Nat → Nat) (ends : List Nat) (h : (0 :: ends).Pairwise (· ≤ ·)) (width : Nat) (hw : ends.getLast? = some width)
    (last : Nat) (hl : last ≤ ends.length) (n k0 : Nat) (s : Nat → ℚ × ℚ) (i : Nat) :
    (∀ j b w k, j < n → (widths 0 ends)[b]? = some w → k < w → i = (k0 + j) * width + ((widths 0 ends).take b).sum + k →
      msWindows mask ends width last n k0 s i = if b < last ∧ mask b ≠ 0 then msBin (s i) else s i) ∧
    (i < k0 * width ∨ (k0 + n) * width ≤ i → msWindows mask ends width last n k0 s i = s i) := by
  have htot := widths_total ends h width hw
  induction n generalizing k0 s with
  | zero => exact ⟨fun j b w k h1 => by omega, fun _ => rfl⟩
  | succ n ih =>
    have hwin := msWindow_apply mask ends h width hw (k0 * width) last s hl i
    obtain ⟨hi1, hi2⟩ := ih (k0 + 1) (msBands mask ends (k0 * width) last 0 0 s)
    rw [msWindows]
    have e1 : (k0 + 1) * width = k0 * width + width := Nat.succ_mul ..
    refine ⟨fun j b w k h1 h2 h3 h4 => ?_, fun h1 => ?_⟩
    · have h5 := take_sum_lt _ _ _ h2
      rw [htot] at h5
      cases j with
      | zero =>
        rw [Nat.add_zero] at h4
        rw [hi2 (by omega), hwin.1 b w k h2 h3 h4]
      | succ j =>
        have e2 : (k0 + (j + 1)) * width = k0 * width + width + j * width := by ring
        have e3 : (k0 + 1 + j) * width = k0 * width + width + j * width := by ring
        rw [hi1 j b w k (by omega) h2 h3 (by omega), hwin.2 (by omega)]
    · have e2 : (k0 + (n + 1)) * width = k0 * width + width + n * width := by ring
      have e3 : (k0 + 1 + n) * width = k0 * width + width + n * width := by ring
      rw [hi2 (by omega), hwin.2 (by omega)]

theorem msGroups_apply (mask : Nat → Nat) (ends : List Nat) (h : (0 :: ends).Pairwise (· ≤ ·)) (width : Nat) (hw : ends.getLast? = some width)
    (last : Nat) (hl : last ≤ ends.length) (lens : List Nat) (g0 k0 : Nat) (s : Nat → ℚ × ℚ) (i : Nat) :
    (∀ g len j b w k, lens[g]? = some len → j < len → (widths 0 ends)[b]? = some w → k < w →
      i = (k0 + (lens.take g).sum + j) * width + ((widths 0 ends).take b).sum + k →
      msGroups mask ends width last (groupEnds k0 lens) g0 k0 s i =
        if b < last ∧ mask ((g0 + g) * ends.length + b) ≠ 0 then msBin (s i) else s i) ∧
    (i < k0 * width ∨ (k0 + lens.sum) * width ≤ i → msGroups mask ends width last (groupEnds k0 lens) g0 k0 s i = s i) := by
  have htot := widths_total ends h width hw
  induction lens generalizing g0 k0 s with
  | nil => exact ⟨fun g len j b w k h1 => by simp at h1, fun _ => rfl⟩
  | cons n lens ih =>
    rw [groupEnds, msGroups, show k0 + n - k0 = n from by omega]
    have hwin := msWindows_apply (fun b => mask (g0 * ends.length + b)) ends h width hw last hl n k0 s i
    obtain ⟨hi1, hi2⟩ := ih (g0 + 1) (k0 + n) (msWindows (fun b => mask (g0 * ends.length + b)) ends width last n k0 s)
    have e1 : (k0 + n) * width = k0 * width + n * width := Nat.add_mul ..
    refine ⟨fun g len j b w k h1 h2 h3 h4 h5 => ?_, fun h1 => ?_⟩
    · have h6 := take_sum_lt _ _ _ h3
      rw [htot] at h6
      cases g with
      | zero =>
        obtain rfl : n = len := by simpa using h1
        rw [List.take_zero, List.sum_nil, Nat.add_zero] at h5
        have h7 : (k0 + j + 1) * width ≤ (k0 + n) * width := Nat.mul_le_mul_right _ (by omega)
        rw [Nat.succ_mul] at h7
        rw [hi2 (by omega), hwin.1 j b w k h2 h3 h4 h5, Nat.add_zero]
      | succ g =>
        rw [List.take_succ_cons, List.sum_cons] at h5
        rw [hi1 g len j b w k (by simpa using h1) h2 h3 h4 (by rw [h5]; ring), hwin.2 ?_]
        · rw [show g0 + 1 + g = g0 + (g + 1) from by omega]
        · right
          rw [h5]
          have : (k0 + n) * width ≤ (k0 + (n + (lens.take g).sum) + j) * width := Nat.mul_le_mul_right _ (by omega)
          omega
    · rw [List.sum_cons] at h1
      have e2 : (k0 + (n + lens.sum)) * width = k0 * width + n * width + lens.sum * width := by ring
      have e3 : (k0 + n + lens.sum) * width = k0 * width + n * width + lens.sum * width := by ring
      rw [hi2 (by omega), hwin.2 (by omega)]

/-- C186: at every sampling rate, for long windows and any groups of short ones, a bin becomes sum and difference exactly if its band is below
`maxSte` and is masked in its group; no other value changes.  `maxSte` above the number of bands is an error. -/
theorem C186_ms (rate : Nat) (ends lens : List Nat) (mask : List Nat) (width maxSte : Nat) (x : Nat → ℚ × ℚ)
    (hl : (lens = [1] ∧ ends = (bandsAt rate).long ∧ width = 1024) ∨ (Groups lens ∧ ends = (bandsAt rate).short ∧ width = 128)) :
    (ends.length < maxSte → ms mask ends width maxSte (groupEnds 0 lens) x = .err badBand) ∧
    (maxSte ≤ ends.length → ∃ y, ms mask ends width maxSte (groupEnds 0 lens) x = .ok y ∧
      (∀ i g b, At lens (widths 0 ends) i g b →
        y i = if b < maxSte ∧ mask.getD (g * ends.length + b) 0 ≠ 0 then ((x i).1 + (x i).2, (x i).1 - (x i).2) else x i) ∧
      (∀ i, 1024 ≤ i → y i = x i)) := by
  obtain ⟨h1, h2, -⟩ := short_ok _ (bandsAt_mem rate)
  obtain ⟨h3, h4, -⟩ := long_ok _ (bandsAt_mem rate)
  have hp : (0 :: ends).Pairwise (· ≤ ·) := by
    rcases hl with ⟨-, rfl, -⟩ | ⟨-, rfl, -⟩
    · exact h3
    · exact h1
  have hw : ends.getLast? = some width := by
    rcases hl with ⟨-, rfl, rfl⟩ | ⟨-, rfl, rfl⟩
    · exact h4
    · exact h2
  have hs : lens.sum * width = 1024 := by
    rcases hl with ⟨rfl, -, rfl⟩ | ⟨hg, -, rfl⟩
    · rfl
    · rw [hg.2]
  have htot := widths_total ends hp width hw
  unfold ms
  refine ⟨fun h => if_pos h, fun h => ⟨_, if_neg (by omega), fun i g b hat => ?_, fun i hi => ?_⟩⟩
  · obtain ⟨len, w, j, k, g1, g2, g3, g4, g5⟩ := hat
    rw [htot] at g5
    have := (msGroups_apply (fun i => mask.getD i 0) ends hp width hw maxSte h lens 0 0 x i).1 g len j b w k g1 g2 g3 g4 (by rw [g5, Nat.zero_add])
    rw [this, Nat.zero_add]
    rfl
  · exact (msGroups_apply (fun i => mask.getD i 0) ends hp width hw maxSte h lens 0 0 x i).2 (by rw [Nat.zero_add, hs]; omega)

/-- C186, inverse: middle and side in masked bands give back left and right in every bin. -/
theorem C186_inverse (rate : Nat) (ends lens : List Nat) (mask : List Nat) (width maxSte : Nat) (x y : Nat → ℚ × ℚ)
    (hl : (lens = [1] ∧ ends = (bandsAt rate).long ∧ width = 1024) ∨ (Groups lens ∧ ends = (bandsAt rate).short ∧ width = 128))
    (hm : maxSte ≤ ends.length)
    (h : ∀ i g b, At lens (widths 0 ends) i g b → y i = if b < maxSte ∧ mask.getD (g * ends.length + b) 0 ≠ 0 then (mid (x i), side (x i)) else x i) :
    ∃ z, ms mask ends width maxSte (groupEnds 0 lens) y = .ok z ∧ ∀ i < 1024, z i = x i := by
  obtain ⟨z, h1, h2, -⟩ := (C186_ms rate ends lens mask width maxSte y hl).2 hm
  refine ⟨z, h1, fun i hi => ?_⟩
  obtain ⟨b1, b2⟩ := bands_sum rate
  have hs : lens.sum * (widths 0 ends).sum = 1024 := by
    rcases hl with ⟨rfl, rfl, -⟩ | ⟨hg, rfl, -⟩
    · rw [b1]
      rfl
    · rw [b2, hg.2]
  obtain ⟨g, b, hat⟩ := at_exists lens (widths 0 ends) i (by omega)
  rw [h2 i g b hat, h i g b hat]
  split
  · unfold mid side
    apply Prod.ext
    · simp only
      ring
    · simp only
      ring
  · rfl

example : Groups [3, 5] ∧ 12 ≤ (bandsAt 48000).short.length := ⟨⟨by decide, rfl⟩, by decide +kernel⟩

end Verif.FdMix
