import Verif.Model.ObjLayout
import Mathlib.Data.List.Sort
import Mathlib.Data.List.GetD
import Mathlib.Tactic.Linarith
import Mathlib.Tactic.Ring
import Mathlib.Tactic.FieldSimp
import Mathlib.Tactic.Positivity

/-! # C296-C300: the imaginary loudspeakers of the object renderer

C296: the sort. C297: loudspeakers below and above. C298: after gaps are filled, there is a loudspeaker
in every 160 degrees. C299: that imaginary loudspeakers keep symmetry and stay away from real ones;
refuted. C300: the corners of the first polyhedron. -/

namespace Verif.ObjLayout

/-! ## Sorting -/

theorem split_perm {α : Type} (key : α → ℚ) (p : α) (l : List α) :
    ((split key p l).1 ++ (split key p l).2).Perm l := by
  induction l with
  | nil => exact List.Perm.refl _
  | cons x t ih =>
    simp only [split]
    split
    · exact List.Perm.cons x ih
    · refine List.Perm.trans ?_ (List.Perm.cons x ih)
      rw [← List.append_assoc]
      exact List.perm_append_singleton x _

theorem split_keys {α : Type} (key : α → ℚ) (p : α) (l : List α) :
    (∀ x ∈ (split key p l).1, key x < key p) ∧ ∀ x ∈ (split key p l).2, key p ≤ key x := by
  induction l with
  | nil => exact ⟨fun x h => absurd h List.not_mem_nil, fun x h => absurd h List.not_mem_nil⟩
  | cons y t ih =>
    simp only [split]
    split
    · rename_i h
      refine ⟨fun x hx => ?_, ih.2⟩
      rcases List.mem_cons.mp hx with rfl | hx
      · exact h
      · exact ih.1 x hx
    · rename_i h
      refine ⟨ih.1, fun x hx => ?_⟩
      rcases List.mem_append.mp hx with hx | hx
      · exact ih.2 x hx
      · rw [List.mem_singleton.mp hx]
        exact not_lt.mp h

theorem sort_perm {α : Type} (key : α → ℚ) (n : Nat) (l : List α) (h : l.length ≤ n) :
    (sort key n l).Perm l := by
  induction n generalizing l with
  | zero => exact List.Perm.refl _
  | succ n ih =>
    simp only [sort]
    rcases List.eq_nil_or_concat l with rfl | ⟨t, p, rfl⟩
    · exact List.Perm.refl _
    · rw [List.concat_eq_append, List.getLast?_append, List.getLast?_singleton, List.dropLast_concat]
      simp only [Option.some_or]
      have hp := split_perm key p t
      have hl := hp.length_eq
      rw [List.length_append] at hl
      rw [List.concat_eq_append, List.length_append, List.length_singleton] at h
      refine List.Perm.trans ((ih _ (by omega)).append ((ih _ (by omega)).cons p)) ?_
      refine List.Perm.trans List.perm_middle ?_
      exact List.Perm.trans (hp.cons p) (List.perm_append_singleton p t).symm

theorem sort_sorted {α : Type} (key : α → ℚ) (n : Nat) (l : List α) (h : l.length ≤ n) :
    (sort key n l).Pairwise fun a b => key a ≤ key b := by
  induction n generalizing l with
  | zero =>
    rw [List.length_eq_zero_iff.mp (Nat.le_zero.mp h)]
    exact List.Pairwise.nil
  | succ n ih =>
    simp only [sort]
    rcases List.eq_nil_or_concat l with rfl | ⟨t, p, rfl⟩
    · exact List.Pairwise.nil
    · rw [List.concat_eq_append, List.getLast?_append, List.getLast?_singleton, List.dropLast_concat]
      simp only [Option.some_or]
      have hl := (split_perm key p t).length_eq
      rw [List.length_append] at hl
      rw [List.concat_eq_append, List.length_append, List.length_singleton] at h
      obtain ⟨k1, k2⟩ := split_keys key p t
      have m1 := fun x => (sort_perm key n (split key p t).1 (by omega)).mem_iff (a := x)
      have m2 := fun x => (sort_perm key n (split key p t).2 (by omega)).mem_iff (a := x)
      refine List.pairwise_append.mpr ⟨ih _ (by omega), List.pairwise_cons.mpr ⟨?_, ih _ (by omega)⟩, ?_⟩
      · exact fun x hx => k2 x ((m2 x).mp hx)
      · intro x hx y hy
        have hx := k1 x ((m1 x).mp hx)
        rcases List.mem_cons.mp hy with rfl | hy
        · exact hx.le
        · exact hx.le.trans (k2 y ((m2 y).mp hy))

/-- C296: the sort keeps the elements and puts them in ascending order. -/
theorem C296_sort {α : Type} (key : α → ℚ) (l : List α) :
    (qsort key l).Perm l ∧ (qsort key l).Pairwise fun a b => key a ≤ key b :=
  ⟨sort_perm key _ l le_rfl, sort_sorted key _ l le_rfl⟩

/-! ## Below and above -/

theorem extremes_spec (n : Nat) (e : Ext) (l : List Spk) (h0 : 0 ≤ e.maxEl) (h1 : e.minEl ≤ 0) :
    (e.maxEl ≤ (extremes n e l).maxEl ∧ ∀ s ∈ l, s.el ≤ (extremes n e l).maxEl) ∧
    ((extremes n e l).minEl ≤ e.minEl ∧ ∀ s ∈ l, (extremes n e l).minEl ≤ s.el) ∧
    (((extremes n e l).maxEl = e.maxEl ∧ (extremes n e l).maxIdx = e.maxIdx) ∨
      ∃ k, (extremes n e l).maxIdx = n + k ∧ ∃ s, l[k]? = some s ∧ s.el = (extremes n e l).maxEl) ∧
    (((extremes n e l).minEl = e.minEl ∧ (extremes n e l).minIdx = e.minIdx) ∨
      ∃ k, (extremes n e l).minIdx = n + k ∧ ∃ s, l[k]? = some s ∧ s.el = (extremes n e l).minEl) := by
  induction l generalizing n e with
  | nil =>
    exact ⟨⟨le_rfl, fun s h => absurd h List.not_mem_nil⟩, ⟨le_rfl, fun s h => absurd h List.not_mem_nil⟩,
      Or.inl ⟨rfl, rfl⟩, Or.inl ⟨rfl, rfl⟩⟩
  | cons s t ih =>
    simp only [extremes]
    by_cases a : e.maxEl < s.el
    · have b : ¬ s.el < e.minEl := by linarith
      simp only [if_pos a, if_neg b]
      obtain ⟨⟨a1, a2⟩, ⟨b1, b2⟩, c, d⟩ := ih (n + 1) { e with maxIdx := n, maxEl := s.el } (by simp only; linarith) h1
      simp only at a1 b1
      refine ⟨⟨by linarith, fun x hx => ?_⟩, ⟨b1, fun x hx => ?_⟩, Or.inr ?_, ?_⟩
      · rcases List.mem_cons.mp hx with rfl | hx
        · exact a1
        · exact a2 x hx
      · rcases List.mem_cons.mp hx with rfl | hx
        · linarith
        · exact b2 x hx
      · rcases c with ⟨c1, c2⟩ | ⟨k, c1, s', c2, c3⟩
        · exact ⟨0, c2, s, rfl, c1.symm⟩
        · exact ⟨k + 1, by omega, s', c2, c3⟩
      · rcases d with d | ⟨k, c1, s', c2, c3⟩
        · exact Or.inl d
        · exact Or.inr ⟨k + 1, by omega, s', c2, c3⟩
    · simp only [if_neg a]
      by_cases b : s.el < e.minEl
      · simp only [if_pos b]
        obtain ⟨⟨a1, a2⟩, ⟨b1, b2⟩, c, d⟩ := ih (n + 1) { e with minIdx := n, minEl := s.el } h0 (by simp only; linarith)
        simp only at a1 b1
        refine ⟨⟨a1, fun x hx => ?_⟩, ⟨by linarith, fun x hx => ?_⟩, ?_, Or.inr ?_⟩
        · rcases List.mem_cons.mp hx with rfl | hx
          · linarith
          · exact a2 x hx
        · rcases List.mem_cons.mp hx with rfl | hx
          · exact b1
          · exact b2 x hx
        · rcases c with d | ⟨k, c1, s', c2, c3⟩
          · exact Or.inl d
          · exact Or.inr ⟨k + 1, by omega, s', c2, c3⟩
        · rcases d with ⟨c1, c2⟩ | ⟨k, c1, s', c2, c3⟩
          · exact ⟨0, c2, s, rfl, c1.symm⟩
          · exact ⟨k + 1, by omega, s', c2, c3⟩
      · simp only [if_neg b]
        obtain ⟨⟨a1, a2⟩, ⟨b1, b2⟩, c, d⟩ := ih (n + 1) e h0 h1
        refine ⟨⟨a1, fun x hx => ?_⟩, ⟨b1, fun x hx => ?_⟩, ?_, ?_⟩
        · rcases List.mem_cons.mp hx with rfl | hx
          · linarith
          · exact a2 x hx
        · rcases List.mem_cons.mp hx with rfl | hx
          · linarith
          · exact b2 x hx
        · rcases c with d | ⟨k, c1, s', c2, c3⟩
          · exact Or.inl d
          · exact Or.inr ⟨k + 1, by omega, s', c2, c3⟩
        · rcases d with d | ⟨k, c1, s', c2, c3⟩
          · exact Or.inl d
          · exact Or.inr ⟨k + 1, by omega, s', c2, c3⟩

/-- C297: an imaginary loudspeaker is put below if all are above -45 degrees, and one above if all are
below 45 degrees; loudspeakers are said to be high if one is above 21 degrees. -/
theorem C297_poles (l : List Spk) :
    (poles l).1 = l ++ (if ∀ s ∈ l, -45 < s.el then [⟨0, -90⟩] else []) ++
      (if ∀ s ∈ l, s.el < 45 then [⟨0, 90⟩] else []) ∧
    ((poles l).2.2.2 = true ↔ ∃ s ∈ l, 21 < s.el) := by
  obtain ⟨⟨a1, a2⟩, ⟨b1, b2⟩, c, d⟩ := extremes_spec 0 ⟨0, 0, 0, 0⟩ l le_rfl le_rfl
  simp only at a1 b1 c d
  have hb : -elThr < (extremes 0 ⟨0, 0, 0, 0⟩ l).minEl ↔ ∀ s ∈ l, -45 < s.el := by
    constructor
    · intro h s hs
      have := b2 s hs
      have h : -45 < (extremes 0 ⟨0, 0, 0, 0⟩ l).minEl := h
      linarith
    · intro h
      rcases d with ⟨d, -⟩ | ⟨k, -, s, hs, e⟩
      · rw [d]; norm_num [elThr]
      · rw [← e]; exact h s (List.mem_of_getElem? hs)
  have ht : (extremes 0 ⟨0, 0, 0, 0⟩ l).maxEl < elThr ↔ ∀ s ∈ l, s.el < 45 := by
    constructor
    · intro h s hs
      have := a2 s hs
      have h : (extremes 0 ⟨0, 0, 0, 0⟩ l).maxEl < 45 := h
      linarith
    · intro h
      rcases c with ⟨d, -⟩ | ⟨k, -, s, hs, e⟩
      · rw [d]; norm_num [elThr]
      · rw [← e]; exact h s (List.mem_of_getElem? hs)
  refine ⟨?_, ?_⟩
  · simp only [poles, decide_eq_true_eq]
    by_cases p : ∀ s ∈ l, -45 < s.el <;> by_cases q : ∀ s ∈ l, s.el < 45
    · rw [if_pos (ht.mpr q), if_pos (hb.mpr p), if_pos p, if_pos q]
    · rw [if_neg (mt ht.mp q), if_pos (hb.mpr p), if_pos p, if_neg q, List.append_nil]
    · rw [if_pos (ht.mpr q), if_neg (mt hb.mp p), if_neg p, if_pos q, List.append_nil]
    · rw [if_neg (mt ht.mp q), if_neg (mt hb.mp p), if_neg p, if_neg q, List.append_nil, List.append_nil]
  · simp only [poles, decide_eq_true_eq]
    constructor
    · intro h
      rcases c with ⟨d, -⟩ | ⟨k, -, s, hs, e⟩
      · rw [d] at h
        norm_num [heightThr] at h
      · exact ⟨s, List.mem_of_getElem? hs, by rw [e]; exact h⟩
    · rintro ⟨s, hs, h⟩
      exact lt_of_lt_of_le (show heightThr < s.el from h) (a2 s hs)

/-- C297: the first two corners of the first polyhedron are a highest and a lowest loudspeaker. -/
theorem C297_corners (l : List Spk) (hl : ∀ s ∈ l, -90 ≤ s.el ∧ s.el ≤ 90) :
    (∃ t, (poles l).1[(poles l).2.1]? = some t ∧ ∀ s ∈ (poles l).1, s.el ≤ t.el) ∧
    ∃ t, (poles l).1[(poles l).2.2.1]? = some t ∧ ∀ s ∈ (poles l).1, t.el ≤ s.el := by
  obtain ⟨⟨a1, a2⟩, ⟨b1, b2⟩, c, d⟩ := extremes_spec 0 ⟨0, 0, 0, 0⟩ l le_rfl le_rfl
  simp only at a1 b1 c d
  set e := extremes 0 ⟨0, 0, 0, 0⟩ l with he
  have el : elThr = 45 := rfl
  simp only [poles, decide_eq_true_eq, ← he, el]
  have hmem : ∀ s, s ∈ (if e.maxEl < 45 then (if -45 < e.minEl then l ++ [⟨0, -90⟩] else l) ++ [⟨0, 90⟩]
      else if -45 < e.minEl then l ++ [⟨0, -90⟩] else l) →
      s ∈ l ∨ (-45 < e.minEl ∧ s = ⟨0, -90⟩) ∨ (e.maxEl < 45 ∧ s = ⟨0, 90⟩) := by
    intro s hs
    split_ifs at hs <;> (try simp only [List.mem_append, List.mem_singleton] at hs) <;> tauto
  constructor
  · by_cases q : e.maxEl < 45
    · refine ⟨⟨0, 90⟩, ?_, fun s hs => ?_⟩
      · simp only [if_pos q]
        rw [List.getElem?_append_right le_rfl, Nat.sub_self]
        rfl
      · rcases hmem s hs with h | ⟨-, rfl⟩ | ⟨-, rfl⟩
        · exact (hl s h).2
        · norm_num
        · exact le_rfl
    · rcases c with ⟨c, -⟩ | ⟨k, ck, s, hs, e'⟩
      · rw [c] at q; norm_num at q
      · refine ⟨s, ?_, fun x hx => ?_⟩
        · simp only [if_neg q]
          rw [ck, Nat.zero_add]
          split
          · rw [List.getElem?_append_left (List.getElem?_eq_some_iff.mp hs).1]; exact hs
          · exact hs
        · rw [e']
          rcases hmem x hx with h | ⟨-, rfl⟩ | ⟨h, -⟩
          · exact a2 x h
          · exact le_trans (by norm_num) a1
          · exact absurd h q
  · by_cases q : -45 < e.minEl
    · refine ⟨⟨0, -90⟩, ?_, fun s hs => ?_⟩
      · simp only [if_pos q]
        split
        · rw [List.append_assoc, List.getElem?_append_right le_rfl, Nat.sub_self]; rfl
        · rw [List.getElem?_append_right le_rfl, Nat.sub_self]; rfl
      · rcases hmem s hs with h | ⟨-, rfl⟩ | ⟨-, rfl⟩
        · exact (hl s h).1
        · exact le_rfl
        · norm_num
    · rcases d with ⟨c, -⟩ | ⟨k, ck, s, hs, e'⟩
      · rw [c] at q; norm_num at q
      · refine ⟨s, ?_, fun x hx => ?_⟩
        · simp only [if_neg q]
          rw [ck, Nat.zero_add]
          split
          · rw [List.getElem?_append_left (List.getElem?_eq_some_iff.mp hs).1]; exact hs
          · exact hs
        · rw [e']
          rcases hmem x hx with h | ⟨h, -⟩ | ⟨-, rfl⟩
          · exact b2 x h
          · exact absurd h q
          · exact le_trans b1 (by norm_num)

/-- Loudspeakers on one level get both, those of a cube none. -/
example : (poles [⟨30, 0⟩, ⟨-30, 0⟩]).1 = [⟨30, 0⟩, ⟨-30, 0⟩, ⟨0, -90⟩, ⟨0, 90⟩] ∧
    (poles [⟨30, 50⟩, ⟨-30, -50⟩]).1 = [⟨30, 50⟩, ⟨-30, -50⟩] := by decide +kernel

/-! ## Gaps -/

/-- The points of `S` (with `q`) from `p` to `q` are nowhere more than 160 degrees apart. -/
def Fill (S : List ℚ) (p q : ℚ) : Prop :=
  (∀ θ, p ≤ θ → θ < q → ∃ x, (x ∈ S ∨ x = q) ∧ θ < x ∧ x ≤ θ + 160) ∧
    ∀ θ, p < θ → θ ≤ q → ∃ x, (x ∈ S ∨ x = q) ∧ θ ≤ x ∧ x < θ + 160

theorem Fill.mono {S T : List ℚ} {p q : ℚ} (h : Fill S p q) (hs : ∀ x ∈ S, x ∈ T) : Fill T p q := by
  refine ⟨fun θ h1 h2 => ?_, fun θ h1 h2 => ?_⟩
  · obtain ⟨x, hx, e⟩ := h.1 θ h1 h2
    exact ⟨x, hx.imp_left (hs x), e⟩
  · obtain ⟨x, hx, e⟩ := h.2 θ h1 h2
    exact ⟨x, hx.imp_left (hs x), e⟩

/-- From `p` to `q` and from a point up to `q` to `r`. -/
theorem Fill.trans {S : List ℚ} {p q q' r : ℚ} (h1 : Fill S p q) (h2 : Fill S q' r) (hq : q ∈ S)
    (hle : q' ≤ q) : Fill S p r := by
  refine ⟨fun θ a b => ?_, fun θ a b => ?_⟩
  · rcases lt_or_ge θ q with w | w
    · obtain ⟨x, hx, e⟩ := h1.1 θ a w
      exact ⟨x, Or.inl (hx.elim id fun e => e ▸ hq), e⟩
    · exact h2.1 θ (hle.trans w) b
  · rcases le_or_gt θ q with w | w
    · obtain ⟨x, hx, e⟩ := h1.2 θ a w
      exact ⟨x, Or.inl (hx.elim id fun e => e ▸ hq), e⟩
    · exact h2.2 θ (lt_of_le_of_lt hle w) b

theorem fill_small {S : List ℚ} {p q : ℚ} (h : q - p ≤ 160) : Fill S p q :=
  ⟨fun θ a b => ⟨q, Or.inr rfl, b, by linarith⟩, fun θ a b => ⟨q, Or.inr rfl, b, by linarith⟩⟩

theorem fill_between {p q : ℚ} (h : 160 < q - p) : Fill (between p (q - p)) p q := by
  simp only [between, azThr]
  obtain ⟨n, hn⟩ : ∃ n, n = ⌊(q - p) / 160⌋.toNat := ⟨_, rfl⟩
  rw [← hn]
  have hfl : (q - p) / 160 < (n : ℚ) + 1 := by
    have h0 : 0 ≤ ⌊(q - p) / 160⌋ := Int.floor_nonneg.mpr (by apply div_nonneg <;> linarith)
    have h1 : ((n : ℤ) : ℚ) = (⌊(q - p) / 160⌋ : ℤ) := by rw [hn, Int.toNat_of_nonneg h0]
    rw [show (n : ℚ) = ((n : ℤ) : ℚ) by norm_cast, h1]
    exact Int.lt_floor_add_one _
  have hpos : (0 : ℚ) < (n : ℚ) + 1 := by positivity
  obtain ⟨st, hst⟩ : ∃ st, st = (q - p) / ((n : ℚ) + 1) := ⟨_, rfl⟩
  rw [← hst]
  have hs1 : st * ((n : ℚ) + 1) = q - p := by rw [hst]; field_simp
  have hs0 : 0 < st := by rw [hst]; apply div_pos <;> linarith
  have hs2 : st < 160 := by
    rw [div_lt_iff₀ (by norm_num)] at hfl
    rw [hst, div_lt_iff₀ hpos]
    linarith
  have mem : ∀ k : ℕ, 1 ≤ k → k ≤ n + 1 → (p + k * st ∈ (List.range n).map
      fun (k : Nat) => p + ((k : ℚ) + 1) * st) ∨ p + k * st = q := by
    intro k h1 h2
    rcases Nat.lt_or_ge k (n + 1) with w | w
    · refine Or.inl (List.mem_map.mpr ⟨k - 1, List.mem_range.mpr (by omega), ?_⟩)
      have : ((k - 1 : ℕ) : ℚ) + 1 = k := by
        rw [Nat.cast_sub h1]; push_cast; ring
      rw [this]
    · obtain rfl : k = n + 1 := by omega
      refine Or.inr ?_
      push_cast
      linarith
  refine ⟨fun θ a b => ?_, fun θ a b => ?_⟩
  · have h0 : 0 ≤ ⌊(θ - p) / st⌋ := Int.floor_nonneg.mpr (by apply div_nonneg <;> linarith)
    obtain ⟨k, hk⟩ := Int.eq_ofNat_of_zero_le h0
    have f1 := Int.floor_le ((θ - p) / st)
    have f2 := Int.lt_floor_add_one ((θ - p) / st)
    rw [hk] at f1 f2
    simp only [Int.cast_natCast] at f1 f2
    rw [le_div_iff₀ hs0] at f1
    rw [div_lt_iff₀ hs0] at f2
    have hkn : k < n + 1 := by
      by_contra w
      have : ((n : ℚ) + 1) ≤ k := by exact_mod_cast not_lt.mp w
      nlinarith
    refine ⟨p + ((k + 1 : ℕ) : ℚ) * st, mem (k + 1) (by omega) (by omega), ?_, ?_⟩
    · push_cast; linarith
    · push_cast; linarith
  · have h0 : 0 < ⌈(θ - p) / st⌉ := Int.ceil_pos.mpr (by apply div_pos <;> linarith)
    obtain ⟨k, hk⟩ := Int.eq_ofNat_of_zero_le h0.le
    have f1 := Int.le_ceil ((θ - p) / st)
    have f2 := Int.ceil_lt_add_one ((θ - p) / st)
    rw [hk] at f1 f2 h0
    simp only [Int.cast_natCast] at f1 f2
    rw [div_le_iff₀ hs0] at f1
    rw [← sub_lt_iff_lt_add, lt_div_iff₀ hs0] at f2
    have hkn : k ≤ n + 1 := by
      by_contra w
      have : ((n : ℚ) + 1) + 1 ≤ k := by exact_mod_cast not_le.mp w
      nlinarith
    refine ⟨p + (k : ℚ) * st, mem k (by exact_mod_cast h0) hkn, ?_, ?_⟩
    · linarith
    · linarith

theorem between_range {a d : ℚ} (h : 0 < d) : ∀ x ∈ between a d, a < x ∧ x < a + d := by
  intro x hx
  simp only [between] at hx
  obtain ⟨k, hk, rfl⟩ := List.mem_map.mp hx
  have hk := List.mem_range.mp hk
  have hk' : (k : ℚ) + 1 ≤ (⌊d / azThr⌋.toNat : ℚ) := by exact_mod_cast hk
  have hp : (0 : ℚ) < (⌊d / azThr⌋.toNat : ℚ) + 1 := by positivity
  constructor
  · have : 0 < ((k : ℚ) + 1) * (d / ((⌊d / azThr⌋.toNat : ℚ) + 1)) := by positivity
    linarith
  · have : ((k : ℚ) + 1) * (d / ((⌊d / azThr⌋.toNat : ℚ) + 1)) < d := by
      rw [mul_div_assoc', div_lt_iff₀ hp]
      nlinarith
    linarith

theorem entries_az (n : Nat) (l : List ℚ) : (entries n l).map (fun e => e.az) = l := by
  apply List.ext_getElem
  · simp [entries]
  · intro i h1 h2
    simp [entries]

theorem entries_order (n : Nat) (l : List ℚ) :
    (entries n l).map (fun e => e.order) = List.range' n l.length := by
  apply List.ext_getElem
  · simp [entries]
  · intro i h1 h2
    simp [entries]

/-- What the loop over the gaps leaves. -/
theorem gaps_spec {fuel i n m : Nat} {l r : List Azi} (h : gaps fuel i n l = some (m, r)) {lo hi : ℚ}
    (hb : ∀ e ∈ l, lo ≤ e.az ∧ e.az ≤ hi) :
    ∃ new, r = l ++ new ∧ n ≤ m ∧ (n ≤ cap → m ≤ cap) ∧
      new.map (fun e => e.order) = List.range' n (m - n) ∧
      (∀ e ∈ new, lo ≤ e.az ∧ e.az ≤ hi) ∧
      ∀ j x y, i ≤ j → r[j]? = some x → r[j + 1]? = some y → Fill (r.map fun e => e.az) x.az y.az := by
  induction fuel generalizing i n l with
  | zero => cases h
  | succ fuel ih =>
    simp only [gaps] at h
    split at h
    · rename_i hi'
      have hx : l.getD i ⟨0, 0⟩ = l[i] := List.getD_eq_getElem _ _ _
      have hy : l.getD (i + 1) ⟨0, 0⟩ = l[i + 1] := List.getD_eq_getElem _ _ _
      rw [hx, hy] at h
      have bx := hb _ (List.getElem_mem (by omega : i < l.length))
      have by' := hb _ (List.getElem_mem hi')
      split at h
      · rename_i hd
        split at h
        · rename_i hc
          have hd' : 160 < l[i + 1].az - l[i].az := hd
          obtain ⟨new, e1, e2, e3, e4, e5, e6⟩ := ih h (by
            intro e he
            rcases List.mem_append.mp he with he | he
            · exact hb e he
            · have : e.az ∈ between l[i].az (l[i + 1].az - l[i].az) := by
                rw [← entries_az n (between l[i].az (l[i + 1].az - l[i].az))]
                exact List.mem_map_of_mem he
              have := between_range (by linarith) _ this
              constructor <;> linarith)
          refine ⟨entries n (between l[i].az (l[i + 1].az - l[i].az)) ++ new, ?_, by omega, fun _ => e3 hc, ?_,
            ?_, ?_⟩
          · rw [e1, List.append_assoc]
          · rw [List.map_append, e4, entries_order]
            have hlen : (entries n (between l[i].az (l[i + 1].az - l[i].az))).length
                = (between l[i].az (l[i + 1].az - l[i].az)).length := by simp [entries]
            rw [hlen] at e2 ⊢
            rw [List.range'_append_1]
            congr 1
            omega
          · intro e he
            rcases List.mem_append.mp he with he | he
            · have : e.az ∈ between l[i].az (l[i + 1].az - l[i].az) := by
                rw [← entries_az n (between l[i].az (l[i + 1].az - l[i].az))]
                exact List.mem_map_of_mem he
              have := between_range (by linarith) _ this
              constructor <;> linarith
            · exact e5 e he
          · intro j x y hj rx ry
            rcases Nat.lt_or_ge i j with w | w
            · exact e6 j x y w rx ry
            · obtain rfl : i = j := by omega
              rw [e1, List.append_assoc, List.getElem?_append_left (by omega), List.getElem?_eq_getElem (by omega),
                Option.some.injEq] at rx
              rw [e1, List.append_assoc, List.getElem?_append_left hi', List.getElem?_eq_getElem hi',
                Option.some.injEq] at ry
              rw [← rx, ← ry]
              refine (fill_between hd').mono fun z hz => ?_
              rw [e1, List.map_append, List.map_append, entries_az]
              exact List.mem_append_left _ (List.mem_append_right _ hz)
        · cases h
      · rename_i hd
        obtain ⟨new, e1, e2, e3, e4, e5, e6⟩ := ih h hb
        refine ⟨new, e1, e2, e3, e4, e5, fun j x y hj rx ry => ?_⟩
        rcases Nat.lt_or_ge i j with w | w
        · exact e6 j x y w rx ry
        · obtain rfl : i = j := by omega
          rw [e1, List.getElem?_append_left (by omega), List.getElem?_eq_getElem (by omega),
            Option.some.injEq] at rx
          rw [e1, List.getElem?_append_left hi', List.getElem?_eq_getElem hi', Option.some.injEq] at ry
          rw [← rx, ← ry]
          exact fill_small (not_lt.mp hd)
    · rename_i hi'
      simp only [Option.some.injEq, Prod.mk.injEq] at h
      obtain ⟨rfl, rfl⟩ := h
      refine ⟨[], (List.append_nil _).symm, le_rfl, id, by simp, fun e he => absurd he List.not_mem_nil,
        fun j x y hj rx ry => ?_⟩
      have := (List.getElem?_eq_some_iff.mp ry).1
      omega

/-- Neighbouring points without wide gaps. -/
theorem fill_chain {S : List ℚ} {l : List Azi} (hm : ∀ e ∈ l, e.az ∈ S)
    (h : ∀ j x y, l[j]? = some x → l[j + 1]? = some y → Fill S x.az y.az) {f : Azi} (hf : l[0]? = some f)
    (k : Nat) {t : Azi} (ht : l[k]? = some t) : Fill S f.az t.az := by
  induction k generalizing t with
  | zero =>
    rw [hf, Option.some.injEq] at ht
    subst ht
    exact fill_small (by norm_num)
  | succ k ih =>
    have hk : k < l.length := by
      have := (List.getElem?_eq_some_iff.mp ht).1
      omega
    exact (ih (List.getElem?_eq_getElem hk)).trans (h k _ t (List.getElem?_eq_getElem hk) ht)
      (hm _ (List.getElem_mem hk)) le_rfl

/-- The loudspeakers of the ring: the lower ones in the order of their azimuths, then new ones with
increasing numbers; the gaps are filled all around. -/
theorem ring_spec {n m : Nat} {l : List Spk} {r : List Azi} (h : ring n l = some (m, r))
    (hl : ∃ s ∈ l, s.el < 45) :
    ∃ f s new, r = f :: s ++ new ∧ f :: s = qsort (fun e => e.az) (low l) ∧ n ≤ m ∧ (n ≤ cap → m ≤ cap) ∧
      new.map (fun e => e.order) = List.range' n (m - n) ∧
      (∀ e ∈ r, f.az ≤ e.az) ∧ Fill (r.map fun e => e.az) f.az (f.az + 360) := by
  obtain ⟨hp, hs⟩ := C296_sort (fun e : Azi => e.az) (low l)
  have hne : low l ≠ [] := by
    obtain ⟨s, hs, h45⟩ := hl
    obtain ⟨i, hi, rfl⟩ := List.getElem_of_mem hs
    intro e
    have : (⟨(l.getD i ⟨0, 0⟩).az, i⟩ : Azi) ∈ low l :=
      List.mem_map.mpr ⟨i, List.mem_filter.mpr ⟨List.mem_range.mpr hi, by
        rw [List.getD_eq_getElem _ _ hi]
        exact decide_eq_true h45⟩, rfl⟩
    rw [e] at this
    exact absurd this List.not_mem_nil
  obtain ⟨f, s, hfs⟩ : ∃ f s, f :: s = qsort (fun e => e.az) (low l) := by
    rcases hq : qsort (fun e : Azi => e.az) (low l) with _ | ⟨f, s⟩
    · rw [hq] at hp
      exact absurd hp.symm.eq_nil hne
    · exact ⟨f, s, rfl⟩
  simp only [ring, Option.bind_eq_some_iff] at h
  obtain ⟨⟨k, q⟩, hg, hw⟩ := h
  rw [← hfs] at hg hs
  obtain ⟨t, htl⟩ : ∃ t, (f :: s)[s.length]? = some t := ⟨_, List.getElem?_eq_getElem (by simp)⟩
  have hrange : ∀ e ∈ f :: s, f.az ≤ e.az ∧ e.az ≤ t.az := by
    intro e he
    constructor
    · rcases List.mem_cons.mp he with rfl | he
      · exact le_rfl
      · exact (List.pairwise_cons.mp hs).1 e he
    · obtain ⟨j, hj, rfl⟩ := List.getElem_of_mem he
      obtain ⟨ht1, ht2⟩ := List.getElem?_eq_some_iff.mp htl
      rw [← ht2]
      rcases Nat.lt_or_ge j s.length with w | w
      · exact List.pairwise_iff_getElem.mp hs j s.length hj ht1 w
      · have : j = s.length := by
          rw [List.length_cons] at hj
          omega
        subst this
        exact le_rfl
  obtain ⟨new, e1, e2, e3, e4, e5, e6⟩ := gaps_spec hg hrange
  have hq0 : ∀ e ∈ q, f.az ≤ e.az ∧ e.az ≤ t.az := by
    intro e he
    rw [e1] at he
    rcases List.mem_append.mp he with he | he
    · exact hrange e he
    · exact e5 e he
  -- from the first to the last of the sorted ones
  have c1 : Fill (q.map fun e => e.az) f.az t.az := by
    refine fill_chain (l := f :: s) (fun e he => ?_) (fun j x y hx hy => ?_) rfl s.length htl
    · rw [e1]
      exact List.mem_map_of_mem (List.mem_append_left _ he)
    · refine e6 j x y (Nat.zero_le _) ?_ ?_
      · rw [e1, List.getElem?_append_left (List.getElem?_eq_some_iff.mp hx).1]; exact hx
      · rw [e1, List.getElem?_append_left (List.getElem?_eq_some_iff.mp hy).1]; exact hy
  have htq : t.az ∈ q.map fun e => e.az := by
    rw [e1]
    exact List.mem_map_of_mem (List.mem_append_left _ (List.mem_of_getElem? htl))
  rw [e1, List.cons_append] at hw
  simp only [wrap] at hw
  have hlast : (f :: (s ++ new)).getLastD f ∈ q := by
    rw [e1, List.cons_append, List.getLastD_cons]
    rcases List.eq_nil_or_concat (s ++ new) with w | ⟨a, b, w⟩
    · rw [w]; exact List.mem_cons_self
    · rw [w]
      simp
  obtain ⟨z, hz⟩ : ∃ z, z = (f :: (s ++ new)).getLastD f := ⟨_, rfl⟩
  rw [← hz] at hw hlast
  split at hw
  · rename_i hd
    have hd : 160 < f.az + 360 - z.az := hd
    split at hw
    · rename_i hc
      simp only [Option.some.injEq, Prod.mk.injEq] at hw
      obtain ⟨rfl, rfl⟩ := hw
      have hlen : (entries k (between z.az (f.az + 360 - z.az))).length
          = (between z.az (f.az + 360 - z.az)).length := by simp [entries]
      have hbz := (hq0 z hlast).1
      refine ⟨f, s, new ++ entries k (between z.az (f.az + 360 - z.az)), by simp, hfs, by omega,
        fun _ => hc, ?_, ?_, ?_⟩
      · rw [List.map_append, e4, entries_order, hlen]
        have : k = n + (k - n) := by omega
        conv_lhs => rw [this]
        rw [show n + (k - n) - n = k - n by omega, List.range'_append_1]
        congr 1
        omega
      · intro e he
        rcases List.mem_append.mp he with he | he
        · refine (hq0 e ?_).1
          rw [e1]
          exact he
        · have : e.az ∈ between z.az (f.az + 360 - z.az) := by
            rw [← entries_az k (between z.az (f.az + 360 - z.az))]
            exact List.mem_map_of_mem he
          have := (between_range (by linarith) _ this).1
          linarith
      · have hsub : ∀ x ∈ q.map fun e => e.az, x ∈ (f :: (s ++ new) ++
            entries k (between z.az (f.az + 360 - z.az))).map fun e => e.az := by
          intro x hx
          rw [List.map_append]
          rw [e1] at hx
          exact List.mem_append_left _ hx
        refine (c1.mono hsub).trans ((fill_between hd).mono fun x hx => ?_) (hsub _ htq) (hq0 z hlast).2
        rw [List.map_append, entries_az]
        exact List.mem_append_right _ hx
    · cases hw
  · rename_i hd
    simp only [Option.some.injEq, Prod.mk.injEq] at hw
    obtain ⟨rfl, rfl⟩ := hw
    refine ⟨f, s, new, rfl, hfs, e2, e3, e4, fun e he => (hq0 e (by rw [e1]; exact he)).1, ?_⟩
    have : Fill (q.map fun e => e.az) f.az (f.az + 360) :=
      c1.trans (fill_small (p := z.az) (by
        have hd : ¬ 160 < f.az + 360 - z.az := hd
        linarith)) htq (hq0 z hlast).2
    rw [e1] at this
    exact this

/-- All around there is a point in every 160 degrees. -/
def Around (S : List ℚ) : Prop := ∀ θ : ℚ, ∃ x ∈ S, ∃ k : ℤ, θ ≤ x + 360 * k ∧ x + 360 * k ≤ θ + 160

theorem around_of_fill {S : List ℚ} {f : ℚ} (hf : f ∈ S) (h : Fill S f (f + 360)) : Around S := by
  intro θ
  have f1 := Int.floor_le ((θ - f) / 360)
  have f2 := Int.lt_floor_add_one ((θ - f) / 360)
  rw [le_div_iff₀ (by norm_num)] at f1
  rw [div_lt_iff₀ (by norm_num)] at f2
  obtain ⟨x, hx, h1, h2⟩ := h.1 (θ - 360 * (⌊(θ - f) / 360⌋ : ℤ)) (by linarith) (by linarith)
  rcases hx with hx | rfl
  · exact ⟨x, hx, ⌊(θ - f) / 360⌋, by linarith, by linarith⟩
  · refine ⟨f, hf, ⌊(θ - f) / 360⌋ + 1, ?_, ?_⟩ <;> push_cast <;> linarith

theorem poles_prefix (l : List Spk) : ∃ x, (poles l).1 = l ++ x :=
  ⟨_, by rw [(C297_poles l).1, List.append_assoc]⟩

theorem subsets_prefix (l : List Spk) : ∃ x, subsets l = l ++ x := by
  simp only [subsets]
  split_ifs <;> first
    | exact ⟨_, List.append_assoc _ _ _⟩
    | exact ⟨_, rfl⟩
    | exact ⟨[], (List.append_nil _).symm⟩

theorem low_mem {l : List Spk} {e : Azi} (h : e ∈ low l) :
    ∃ s, l[e.order]? = some s ∧ s.az = e.az ∧ s.el < 45 := by
  obtain ⟨i, hi, rfl⟩ := List.mem_map.mp h
  obtain ⟨h1, h2⟩ := List.mem_filter.mp hi
  have h1 := List.mem_range.mp h1
  rw [List.getD_eq_getElem _ _ h1] at h2 ⊢
  exact ⟨l[i], List.getElem?_eq_getElem h1, rfl, of_decide_eq_true h2⟩

/-- The result of the search for imaginary loudspeakers. -/
theorem imaginary_spec {l : List Spk} {L : Layout} (h : imaginary l = some L) (hl : ∃ s ∈ l, s.el < 45) :
    ∃ x f r, (subsets (poles l).1) = l ++ x ∧ f ∈ r ∧ (∀ e ∈ r, f.az ≤ e.az) ∧
      Fill (r.map fun e => e.az) f.az (f.az + 360) ∧
      (∃ y, L.spks = l ++ x ++ y ∧ ∀ s ∈ y, s.el = 0) ∧ L.spks.length = l.length + L.nImag ∧ L.spks.length ≤ cap ∧
      (∀ e ∈ r, ∃ s, L.spks[e.order]? = some s ∧ s.az = e.az ∧ s.el < 45) ∧
      L.corners = (
        let s := qsort (fun e => e.az) r
        let p := pick (s.getD 0 ⟨0, 0⟩).az 1 (poles l).2.2.1 (poles l).2.1 s.tail
        [(poles l).2.1, (poles l).2.2.1, (s.getD 0 ⟨0, 0⟩).order, (s.getD p.1 ⟨0, 0⟩).order,
          (s.getD p.2 ⟨0, 0⟩).order]) ∧
      L.height = (poles l).2.2.2 := by
  simp only [imaginary] at h
  split at h
  · cases h
  rename_i hc
  rw [Option.map_eq_some_iff] at h
  obtain ⟨⟨m, r⟩, hr, rfl⟩ := h
  obtain ⟨x1, p1⟩ := poles_prefix l
  obtain ⟨x2, p2⟩ := subsets_prefix (poles l).1
  have p : subsets (poles l).1 = l ++ (x1 ++ x2) := by rw [p2, p1, List.append_assoc]
  obtain ⟨f, s, new, e1, e2, e3, e4, e5, e6, e7⟩ := ring_spec hr hl
  have hlow : ∀ e ∈ f :: s, ∃ s, l[e.order]? = some s ∧ s.az = e.az ∧ s.el < 45 := by
    intro e he
    rw [e2] at he
    exact low_mem ((C296_sort _ _).1.mem_iff.mp he)
  have hnew : ∀ e ∈ new, (subsets (poles l).1).length ≤ e.order := by
    intro e he
    have : e.order ∈ List.range' (subsets (poles l).1).length (m - (subsets (poles l).1).length) := by
      rw [← e5]; exact List.mem_map_of_mem he
    exact (List.mem_range'_1.mp this).1
  have hfil : (r.filter fun e => decide ((subsets (poles l).1).length ≤ e.order)) = new := by
    rw [e1, List.filter_append, List.filter_eq_nil_iff.mpr, List.nil_append, List.filter_eq_self]
    · exact fun e he => decide_eq_true (hnew e he)
    · intro e he w
      obtain ⟨s, hs, -⟩ := hlow e he
      have h1 := (List.getElem?_eq_some_iff.mp hs).1
      have h2 := of_decide_eq_true w
      rw [p, List.length_append] at h2
      omega
  have hcap := e4 (by omega)
  have hlen : new.length = m - (subsets (poles l).1).length := by
    have := congrArg List.length e5
    rwa [List.length_map, List.length_range'] at this
  refine ⟨x1 ++ x2, f, r, p, by rw [e1]; exact List.mem_append_left _ List.mem_cons_self, e6, e7,
    ⟨_, by rw [p], ?_⟩, ?_, ?_, fun e he => ?_, rfl, rfl⟩
  · intro s hs
    obtain ⟨e, -, rfl⟩ := List.mem_map.mp hs
    rfl
  · simp only [hfil, List.length_append, List.length_map, hlen]
    have := congrArg List.length p
    rw [List.length_append] at this
    omega
  · simp only [hfil, List.length_append, List.length_map, hlen]
    omega
  · simp only [hfil]
    rw [e1] at he
    rcases List.mem_append.mp he with he | he
    · obtain ⟨s, hs, q⟩ := hlow e he
      refine ⟨s, ?_, q⟩
      have := (List.getElem?_eq_some_iff.mp hs).1
      rw [p, List.append_assoc, List.getElem?_append_left this]
      exact hs
    · obtain ⟨j, hj, rfl⟩ := List.getElem_of_mem he
      have ho : new[j].order = (subsets (poles l).1).length + j := by
        have h1 : (new.map fun e => e.order)[j]? = some new[j].order := by
          rw [List.getElem?_map, List.getElem?_eq_getElem hj]; rfl
        rw [e5, List.getElem?_range' (by omega)] at h1
        rw [← Option.some.inj h1]
        omega
      refine ⟨⟨new[j].az, 0⟩, ?_, rfl, by norm_num⟩
      rw [ho, List.getElem?_append_right (by omega), Nat.add_sub_cancel_left, List.getElem?_map,
        List.getElem?_eq_getElem hj]
      rfl

/-- C298: if one loudspeaker is below 45 degrees, then, with the imaginary ones, there is one below 45
degrees in every 160 degrees of azimuth. -/
theorem C298_around {l : List Spk} {L : Layout} (h : imaginary l = some L) (hl : ∃ s ∈ l, s.el < 45) (θ : ℚ) :
    ∃ s ∈ L.spks, s.el < 45 ∧ ∃ k : ℤ, θ ≤ s.az + 360 * k ∧ s.az + 360 * k ≤ θ + 160 := by
  obtain ⟨x, f, r, -, hf, -, hfill, -, -, -, ho, -, -⟩ := imaginary_spec h hl
  obtain ⟨a, ha, k, h1, h2⟩ := around_of_fill (List.mem_map_of_mem hf) hfill θ
  obtain ⟨e, he, rfl⟩ := List.mem_map.mp ha
  obtain ⟨s, hs, q1, q2⟩ := ho e he
  exact ⟨s, List.mem_of_getElem? hs, q2, k, by rw [q1]; exact h1, by rw [q1]; exact h2⟩

/-- C298: the real loudspeakers come first, then `nImag` imaginary ones; there are at most 44. -/
theorem C298_count {l : List Spk} {L : Layout} (h : imaginary l = some L) (hl : ∃ s ∈ l, s.el < 45) :
    (∃ x, L.spks = l ++ x ∧ x.length = L.nImag) ∧ L.spks.length ≤ 44 := by
  obtain ⟨x, f, r, -, -, -, -, ⟨y, hy, -⟩, hn, hc, -⟩ := imaginary_spec h hl
  refine ⟨⟨x ++ y, by rw [hy, List.append_assoc], ?_⟩, hc⟩
  rw [hy, List.append_assoc, List.length_append] at hn
  omega

/-- C298, refuted without a loudspeaker below 45 degrees: one at the top leaves 240 degrees. -/
theorem C298_refuted : ¬ ∀ (l : List Spk) (L : Layout), l ≠ [] → imaginary l = some L → ∀ θ : ℚ,
    ∃ s ∈ L.spks, -45 < s.el ∧ s.el < 45 ∧ ∃ k : ℤ, θ ≤ s.az + 360 * k ∧ s.az + 360 * k ≤ θ + 160 := by
  intro h
  obtain ⟨s, hs, h1, h2, k, h3, h4⟩ := h [⟨0, 90⟩]
    ⟨[⟨0, 90⟩, ⟨0, -90⟩, ⟨120, 0⟩, ⟨360, 0⟩], 3, [0, 1, 2, 3, 3], true⟩ (by decide) (by decide +kernel) 130
  simp only [List.mem_cons, List.not_mem_nil, or_false] at hs
  rcases hs with rfl | rfl | rfl | rfl
  · norm_num at h2
  · norm_num at h1
  · simp only at h3 h4
    have a : (0 : ℚ) < k := by linarith
    have b : (k : ℚ) < 1 := by linarith
    have a : 0 < k := by exact_mod_cast a
    have b : k < 1 := by exact_mod_cast b
    omega
  · simp only at h3 h4
    have a : (-1 : ℚ) < k := by linarith
    have b : (k : ℚ) < 0 := by linarith
    have a : -1 < k := by exact_mod_cast a
    have b : k < 0 := by exact_mod_cast b
    omega

/-- Two loudspeakers in front get one behind (hypotheses of C298). -/
example : imaginary [⟨30, 0⟩, ⟨-30, 0⟩] = some
    ⟨[⟨30, 0⟩, ⟨-30, 0⟩, ⟨0, -90⟩, ⟨0, 90⟩, ⟨180, 0⟩], 3, [3, 2, 1, 0, 4], false⟩ := by decide +kernel

/-! ## Symmetry and places -/

/-- The mirror image of a loudspeaker. -/
def Spk.mirror (s : Spk) : Spk := ⟨-s.az, s.el⟩

/-- The same place, up to full turns. -/
def Spk.same (s t : Spk) : Prop := s.el = t.el ∧ ∃ k : ℤ, s.az = t.az + 360 * k

/-- C299, refuted: that a symmetric layout stays symmetric. Loudspeakers at both sides get an imaginary
one in front and one at 135 degrees. -/
theorem C299_refuted_symmetry : ¬ ∀ (l : List Spk) (L : Layout), imaginary l = some L →
    (∀ s ∈ l, ∃ t ∈ l, t.same s.mirror) → ∀ s ∈ L.spks, ∃ t ∈ L.spks, t.same s.mirror := by
  intro h
  obtain ⟨t, ht, h1, k, h2⟩ := h [⟨-90, 0⟩, ⟨90, 0⟩]
    ⟨[⟨-90, 0⟩, ⟨90, 0⟩, ⟨0, -90⟩, ⟨0, 90⟩, ⟨0, 0⟩, ⟨135, 0⟩], 4, [3, 2, 0, 4, 5], false⟩ (by decide +kernel)
    (by
      intro s hs
      simp only [List.mem_cons, List.not_mem_nil, or_false] at hs
      rcases hs with rfl | rfl
      · exact ⟨⟨90, 0⟩, by simp, rfl, 0, by norm_num [Spk.mirror]⟩
      · exact ⟨⟨-90, 0⟩, by simp, rfl, 0, by norm_num [Spk.mirror]⟩)
    ⟨135, 0⟩ (by simp)
  simp only [List.mem_cons, List.not_mem_nil, or_false] at ht
  have aux : ∀ (c : ℤ), (c : ℚ) = -135 + 360 * k → c = -135 + 360 * k := by
    intro c hc
    exact_mod_cast hc
  simp only [Spk.mirror] at h1 h2
  rcases ht with rfl | rfl | rfl | rfl | rfl | rfl
  · have := aux (-90) (by push_cast; exact h2); omega
  · have := aux 90 (by push_cast; exact h2); omega
  · norm_num at h1
  · norm_num at h1
  · have := aux 0 (by push_cast; exact h2); omega
  · have := aux 135 (by push_cast; exact h2); omega

/-- C299, refuted: that no imaginary loudspeaker is at the place of a real one. -/
theorem C299_refuted_place : ¬ ∀ (l : List Spk) (L : Layout), imaginary l = some L →
    ∀ s ∈ l, ∀ t ∈ L.spks.drop l.length, s ≠ t := fun h =>
  h [⟨-180, 0⟩, ⟨-10, 0⟩, ⟨160, 0⟩]
    ⟨[⟨-180, 0⟩, ⟨-10, 0⟩, ⟨160, 0⟩, ⟨0, -90⟩, ⟨0, 90⟩, ⟨-95, 0⟩, ⟨75, 0⟩, ⟨-10, 0⟩, ⟨85, 0⟩], 6,
      [4, 3, 0, 5, 6], false⟩ (by decide +kernel) ⟨-10, 0⟩ (by decide) ⟨-10, 0⟩ (by decide +kernel) rfl

theorem gaps_none {fuel i n : Nat} {l : List Azi} (hf : l.length ≤ i + 1 + fuel)
    (h : ∀ j x y, l[j]? = some x → l[j + 1]? = some y → y.az - x.az ≤ 160) :
    gaps (fuel + 1) i n l = some (n, l) := by
  induction fuel generalizing i with
  | zero =>
    rw [gaps, if_neg (by omega)]
  | succ fuel ih =>
    rw [gaps]
    split
    · rename_i hi
      simp only
      rw [List.getD_eq_getElem _ _ hi, List.getD_eq_getElem _ _ (by omega : i < l.length), if_neg]
      · exact ih (i := i + 1) (by omega)
      · exact not_lt.mpr (h i _ _ (List.getElem?_eq_getElem (by omega)) (List.getElem?_eq_getElem hi))
    · rfl

theorem mem_low {l : List Spk} {s : Spk} (hs : s ∈ l) (h : s.el < 45) : ∃ e ∈ low l, e.az = s.az := by
  obtain ⟨i, hi, rfl⟩ := List.getElem_of_mem hs
  exact ⟨⟨(l.getD i ⟨0, 0⟩).az, i⟩, List.mem_map.mpr ⟨i, List.mem_filter.mpr ⟨List.mem_range.mpr hi, by
    rw [List.getD_eq_getElem _ _ hi]
    exact decide_eq_true h⟩, rfl⟩, by rw [List.getD_eq_getElem _ _ hi]⟩

/-- C299, what holds: if each lower loudspeaker, but the last one before 180 degrees, has another one
within the next 160 degrees, then the imaginary loudspeakers of the ring are all behind the last one and
before the first one of the next turn. -/
theorem C299_behind_partial {l : List Spk} {L : Layout} (h : imaginary l = some L)
    (hl : ∃ s ∈ l, s.el < 45)
    (hgap : ∀ s ∈ l, s.el < 45 → (∀ t ∈ l, t.el < 45 → t.az ≤ s.az) ∨
      ∃ t ∈ l, t.el < 45 ∧ s.az < t.az ∧ t.az ≤ s.az + 160) :
    ∃ y, L.spks = subsets (poles l).1 ++ y ∧ ∀ s ∈ y, s.el = 0 ∧
      ∀ t ∈ l, t.el < 45 → t.az < s.az ∧ s.az < t.az + 360 := by
  simp only [imaginary] at h
  split at h
  · cases h
  rename_i hc
  rw [Option.map_eq_some_iff] at h
  obtain ⟨⟨m, r⟩, hr, rfl⟩ := h
  refine ⟨_, rfl, ?_⟩
  obtain ⟨hp, hs⟩ := C296_sort (fun e : Azi => e.az) (low l)
  have hlen : (qsort (fun e : Azi => e.az) (low l)).length ≤ 44 := by
    rw [hp.length_eq]
    have h1 : (low l).length ≤ l.length := by
      simp only [low, List.length_map]
      exact (List.length_filter_le _ _).trans (by rw [List.length_range])
    obtain ⟨x1, p1⟩ := poles_prefix l
    obtain ⟨x2, p2⟩ := subsets_prefix (poles l).1
    rw [p2, p1, List.length_append, List.length_append] at hc
    have : cap = 44 := rfl
    omega
  have hadj : ∀ j x y, (qsort (fun e : Azi => e.az) (low l))[j]? = some x →
      (qsort (fun e : Azi => e.az) (low l))[j + 1]? = some y → y.az - x.az ≤ 160 := by
    intro j x y hx hy
    obtain ⟨jx, ex⟩ := List.getElem?_eq_some_iff.mp hx
    obtain ⟨jy, ey⟩ := List.getElem?_eq_some_iff.mp hy
    obtain ⟨sx, sx1, sx2, sx3⟩ := low_mem (hp.mem_iff.mp (List.mem_of_getElem? hx))
    obtain ⟨sy, sy1, sy2, sy3⟩ := low_mem (hp.mem_iff.mp (List.mem_of_getElem? hy))
    rcases hgap sx (List.mem_of_getElem? sx1) sx3 with w | ⟨t, t1, t2, t3, t4⟩
    · have := w sy (List.mem_of_getElem? sy1) sy3
      linarith
    · obtain ⟨e, he, hee⟩ := mem_low t1 t2
      obtain ⟨k, hk, rfl⟩ := List.getElem_of_mem (hp.mem_iff.mpr he)
      have hjk : j < k := by
        by_contra q
        have : ((qsort (fun e : Azi => e.az) (low l))[k]).az ≤ ((qsort (fun e : Azi => e.az) (low l))[j]).az := by
          rcases Nat.lt_or_ge k j with q' | q'
          · exact List.pairwise_iff_getElem.mp hs k j hk jx q'
          · obtain rfl : k = j := by omega
            exact le_rfl
        rw [ex] at this
        linarith
      have : ((qsort (fun e : Azi => e.az) (low l))[j + 1]).az ≤ ((qsort (fun e : Azi => e.az) (low l))[k]).az := by
        rcases Nat.lt_or_ge (j + 1) k with q' | q'
        · exact List.pairwise_iff_getElem.mp hs (j + 1) k jy hk q'
        · obtain rfl : k = j + 1 := by omega
          exact le_rfl
      rw [ey] at this
      linarith
  simp only [ring] at hr
  rw [show cap + 1 = cap + 1 from rfl, gaps_none (by
    have : cap = 44 := rfl
    omega) hadj] at hr
  simp only [Option.bind_some] at hr
  obtain ⟨f, s, hfs⟩ : ∃ f s, qsort (fun e => e.az) (low l) = f :: s := by
    rcases hq : qsort (fun e : Azi => e.az) (low l) with _ | ⟨f, s⟩
    · obtain ⟨t, t1, t2⟩ := hl
      obtain ⟨e, he, -⟩ := mem_low t1 t2
      have := hp.mem_iff.mpr he
      rw [hq] at this
      exact absurd this List.not_mem_nil
    · exact ⟨f, s, rfl⟩
  have hall : ∀ t ∈ l, t.el < 45 → f.az ≤ t.az ∧ t.az ≤ ((f :: s).getLastD f).az := by
    intro t t1 t2
    obtain ⟨e, he, hee⟩ := mem_low t1 t2
    have he := hp.mem_iff.mpr he
    rw [hfs] at he hs
    rw [← hee]
    constructor
    · rcases List.mem_cons.mp he with rfl | he
      · exact le_rfl
      · exact (List.pairwise_cons.mp hs).1 e he
    · rw [List.getLastD_cons]
      rcases List.eq_nil_or_concat s with rfl | ⟨a, b, rfl⟩
      · rw [List.mem_singleton.mp he]; exact le_rfl
      · rw [List.concat_eq_append] at he hs ⊢
        rw [List.getLastD_concat]
        rw [← List.cons_append] at he hs
        rcases List.mem_append.mp he with he | he
        · exact (List.pairwise_append.mp hs).2.2 e he b (List.mem_singleton.mpr rfl)
        · rw [List.mem_singleton.mp he]
  have hold : ∀ e ∈ f :: s, e.order < (subsets (poles l).1).length := by
    intro e he
    rw [← hfs] at he
    obtain ⟨t, t1, -⟩ := low_mem (hp.mem_iff.mp he)
    have := (List.getElem?_eq_some_iff.mp t1).1
    obtain ⟨x1, p1⟩ := poles_prefix l
    obtain ⟨x2, p2⟩ := subsets_prefix (poles l).1
    rw [p2, p1, List.length_append, List.length_append]
    omega
  have hnil : (f :: s).filter (fun e => decide ((subsets (poles l).1).length ≤ e.order)) = [] := by
    refine List.filter_eq_nil_iff.mpr fun e he w => ?_
    have := hold e he
    have := of_decide_eq_true w
    omega
  rw [hfs] at hr
  simp only [wrap] at hr
  obtain ⟨z, hz⟩ : ∃ z, z = (f :: s).getLastD f := ⟨_, rfl⟩
  rw [← hz] at hr hall
  intro t ht
  obtain ⟨e, he, rfl⟩ := List.mem_map.mp ht
  refine ⟨rfl, fun u u1 u2 => ?_⟩
  obtain ⟨a1, a2⟩ := hall u u1 u2
  split at hr
  · rename_i hd
    have hd : 160 < f.az + 360 - z.az := hd
    split at hr
    · simp only [Option.some.injEq, Prod.mk.injEq] at hr
      obtain ⟨rfl, rfl⟩ := hr
      rw [List.filter_append, hnil, List.nil_append] at he
      have he := List.mem_of_mem_filter he
      have : e.az ∈ between z.az (f.az + 360 - z.az) := by
        rw [← entries_az (subsets (poles l).1).length (between z.az (f.az + 360 - z.az))]
        exact List.mem_map_of_mem he
      have := between_range (by linarith) _ this
      constructor <;> simp only <;> linarith
    · cases hr
  · simp only [Option.some.injEq, Prod.mk.injEq] at hr
    obtain ⟨rfl, rfl⟩ := hr
    rw [hnil] at he
    exact absurd he List.not_mem_nil

/-! ## Corners -/

theorem pick_spec (a : ℚ) (i mn mx : Nat) (t : List Azi) (hs : t.Pairwise fun x y => x.az ≤ y.az) :
    ((∃ k x, (pick a i mn mx t).1 = i + k ∧ t[k]? = some x ∧ x.az ≤ a + 160 ∧
        ∀ e ∈ t, e.az ≤ a + 160 → e.az ≤ x.az) ∨
      (pick a i mn mx t).1 = mn ∧ ∀ e ∈ t, a + 160 < e.az) ∧
    ((∃ k x, (pick a i mn mx t).2 = i + k ∧ t[k]? = some x ∧ a + 200 ≤ x.az ∧
        ∀ e ∈ t, a + 200 ≤ e.az → x.az ≤ e.az) ∨
      (pick a i mn mx t).2 = mx ∧ ∀ e ∈ t, e.az < a + 200) := by
  induction t generalizing i mn with
  | nil => exact ⟨Or.inr ⟨rfl, fun e h => absurd h List.not_mem_nil⟩,
      Or.inr ⟨rfl, fun e h => absurd h List.not_mem_nil⟩⟩
  | cons y t ih =>
    obtain ⟨hy, ht⟩ := List.pairwise_cons.mp hs
    simp only [pick]
    split
    · rename_i h200
      have h160 : ¬ y.az ≤ a + 160 := by linarith
      rw [if_neg h160]
      refine ⟨Or.inr ⟨rfl, fun e he => ?_⟩, Or.inl ⟨0, y, rfl, rfl, h200, fun e he _ => ?_⟩⟩
      · rcases List.mem_cons.mp he with rfl | he
        · exact not_le.mp h160
        · have := hy e he; linarith
      · rcases List.mem_cons.mp he with rfl | he
        · exact le_rfl
        · exact hy e he
    · rename_i h200
      obtain ⟨ih1, ih2⟩ := ih (i + 1) (if y.az ≤ a + 160 then i else mn) ht
      constructor
      · rcases ih1 with ⟨k, x, e1, e2, e3, e4⟩ | ⟨e1, e2⟩
        · refine Or.inl ⟨k + 1, x, by rw [e1]; omega, e2, e3, fun e he q => ?_⟩
          rcases List.mem_cons.mp he with rfl | he
          · exact hy x (List.mem_of_getElem? e2)
          · exact e4 e he q
        · by_cases w : y.az ≤ a + 160
          · rw [if_pos w] at e1
            simp only [if_pos w]
            refine Or.inl ⟨0, y, e1, rfl, w, fun e he q => ?_⟩
            rcases List.mem_cons.mp he with rfl | he
            · exact le_rfl
            · have := e2 e he; linarith
          · rw [if_neg w] at e1
            simp only [if_neg w]
            refine Or.inr ⟨e1, fun e he => ?_⟩
            rcases List.mem_cons.mp he with rfl | he
            · exact not_le.mp w
            · exact e2 e he
      · rcases ih2 with ⟨k, x, e1, e2, e3, e4⟩ | ⟨e1, e2⟩
        · refine Or.inl ⟨k + 1, x, by rw [e1]; omega, e2, e3, fun e he q => ?_⟩
          rcases List.mem_cons.mp he with rfl | he
          · exact absurd q h200
          · exact e4 e he q
        · refine Or.inr ⟨e1, fun e he => ?_⟩
          rcases List.mem_cons.mp he with rfl | he
          · exact not_le.mp h200
          · exact e2 e he

/-- C300: if one loudspeaker is below 45 degrees, the first polyhedron has a highest and a lowest
loudspeaker as corners and three below 45 degrees: one, another one up to 160 degrees and a third one at
least 200 degrees further. -/
theorem C300_corners {l : List Spk} {L : Layout} (h : imaginary l = some L) (hl : ∃ s ∈ l, s.el < 45)
    (h90 : ∀ s ∈ l, -90 ≤ s.el ∧ s.el ≤ 90) :
    ∃ c0 c1 c2 c3 c4 s0 s1 s2 s3 s4, L.corners = [c0, c1, c2, c3, c4] ∧
      L.spks[c0]? = some s0 ∧ L.spks[c1]? = some s1 ∧ L.spks[c2]? = some s2 ∧ L.spks[c3]? = some s3 ∧
      L.spks[c4]? = some s4 ∧
      (∀ s ∈ l, s1.el ≤ s.el ∧ s.el ≤ s0.el) ∧ s2.el < 45 ∧ s3.el < 45 ∧ s4.el < 45 ∧
      s2.az < s3.az ∧ s3.az ≤ s2.az + 160 ∧ s2.az + 200 ≤ s4.az ∧ s4.az < s2.az + 360 := by
  obtain ⟨x, f, r, hx, hf, hmin, hfill, ⟨y, hy, -⟩, -, -, ho, hcor, -⟩ := imaginary_spec h hl
  obtain ⟨⟨t0, a1, a2⟩, t1, b1, b2⟩ := C297_corners l h90
  obtain ⟨hp, hs⟩ := C296_sort (fun e : Azi => e.az) r
  obtain ⟨g, q, hgq⟩ : ∃ g q, qsort (fun e : Azi => e.az) r = g :: q := by
    rcases hq : qsort (fun e : Azi => e.az) r with _ | ⟨g, q⟩
    · have := hp.mem_iff.mpr hf
      rw [hq] at this
      exact absurd this List.not_mem_nil
    · exact ⟨g, q, rfl⟩
  rw [hgq] at hp hs hcor
  obtain ⟨hg, hq⟩ := List.pairwise_cons.mp hs
  have hgr : g ∈ r := hp.mem_iff.mp List.mem_cons_self
  have hgf : g.az = f.az := by
    refine le_antisymm ?_ (hmin g hgr)
    rcases List.mem_cons.mp (hp.mem_iff.mpr hf) with e | e
    · rw [e]
    · exact hg f e
  have inq : ∀ z ∈ r.map (fun e => e.az), g.az < z → ∃ e ∈ q, e.az = z := by
    intro z hz hlt
    obtain ⟨e, he, rfl⟩ := List.mem_map.mp hz
    rcases List.mem_cons.mp (hp.mem_iff.mpr he) with rfl | he
    · exact absurd hlt (lt_irrefl _)
    · exact ⟨e, he, rfl⟩
  simp only [List.getD_cons_zero, List.tail_cons] at hcor
  obtain ⟨p1, p2⟩ := pick_spec g.az 1 (poles l).2.2.1 (poles l).2.1 q hq
  obtain ⟨u, hu, u1, u2⟩ := hfill.1 f.az le_rfl (by linarith)
  obtain ⟨v, hv, v1, v2⟩ := hfill.2 (f.az + 200) (by linarith) (by linarith)
  obtain ⟨eu, eu1, eu2⟩ := inq u (hu.resolve_right (fun e => by linarith)) (by linarith)
  obtain ⟨ev, ev1, ev2⟩ := inq v (hv.resolve_right (fun e => by linarith)) (by linarith)
  obtain ⟨k3, x3, m1, m2, m3, m4⟩ := p1.resolve_right (fun w => by
    have := w.2 eu eu1
    linarith)
  obtain ⟨k4, x4, n1, n2, n3, n4⟩ := p2.resolve_right (fun w => by
    have := w.2 ev ev1
    linarith)
  rw [m1, n1] at hcor
  have g3 : (g :: q).getD (1 + k3) ⟨0, 0⟩ = x3 := by
    rw [Nat.add_comm, List.getD_cons_succ, List.getD_eq_getElem?_getD, m2]; rfl
  have g4 : (g :: q).getD (1 + k4) ⟨0, 0⟩ = x4 := by
    rw [Nat.add_comm, List.getD_cons_succ, List.getD_eq_getElem?_getD, n2]; rfl
  rw [g3, g4] at hcor
  obtain ⟨s2, i1, i2, i3⟩ := ho g hgr
  obtain ⟨s3, j1, j2, j3⟩ := ho x3 (hp.mem_iff.mp (List.mem_cons_of_mem _ (List.mem_of_getElem? m2)))
  obtain ⟨s4, k1, k2, k3'⟩ := ho x4 (hp.mem_iff.mp (List.mem_cons_of_mem _ (List.mem_of_getElem? n2)))
  have hpre : ∀ (i : Nat) (s : Spk), (poles l).1[i]? = some s → L.spks[i]? = some s := by
    intro i s hs
    obtain ⟨w, hw⟩ := subsets_prefix (poles l).1
    rw [hy, ← hx, hw, List.append_assoc, List.getElem?_append_left (List.getElem?_eq_some_iff.mp hs).1]
    exact hs
  have hin : ∀ s ∈ l, s ∈ (poles l).1 := by
    intro s hs
    obtain ⟨w, hw⟩ := poles_prefix l
    rw [hw]
    exact List.mem_append_left _ hs
  have r1 := m4 eu eu1 (by linarith)
  have r2 := n4 ev ev1 (by linarith)
  exact ⟨_, _, _, _, _, t0, t1, s2, s3, s4, hcor, hpre _ _ a1, hpre _ _ b1, i1, j1, k1,
    fun s hs => ⟨b2 s (hin s hs), a2 s (hin s hs)⟩, i3, j3, k3', by linarith, by linarith, by linarith,
    by linarith⟩

/-! ## Layouts without imaginary loudspeakers -/

/-- Loudspeakers below, above and at all four sides. -/
def six : List Spk := [⟨0, 0⟩, ⟨90, 0⟩, ⟨-180, 0⟩, ⟨-90, 0⟩, ⟨0, 90⟩, ⟨0, -90⟩]

theorem six_none : imaginary six = some ⟨six, 0, [4, 5, 2, 3, 1], true⟩ := by decide +kernel

end Verif.ObjLayout
