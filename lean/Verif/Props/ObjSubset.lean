import Verif.Model.ObjLayout
import Mathlib.Tactic.Linarith
import Mathlib.Tactic.NormNum
import Mathlib.Tactic.Ring
import Mathlib.Tactic.IntervalCases
import Mathlib.Data.List.GetD

/-! # C301, C302: imaginary loudspeakers between four real ones, and the positions of loudspeakers -/

namespace Verif.ObjLayout

/-! ## Specification -/

/-- The azimuth `x` between -180 and 180 degrees seen from the front (`back` false) or from the back. -/
def seen (back : Bool) (x : ℚ) : ℚ :=
  if back then (if 0 < x then x - 180 else x + 180) else if x = -180 then 180 else x

/-- The point `(x, y)` is not on the outer side of the line from `a` to `b`. -/
def Side (a b : ℚ × ℚ) (x y : ℚ) : Prop := 0 ≤ (b.1 - x) * (a.2 - y) - (b.2 - y) * (a.1 - x)

/-- The point `(x, y)` is inside the quadrilateral or on its border. -/
def Quad (a b c d : ℚ × ℚ) (x y : ℚ) : Prop := Side a b x y ∧ Side b c x y ∧ Side c d x y ∧ Side d a x y

/-- `s` is in the range of directions of a nominal position. -/
def InRange (name : Nat) (s : Spk) : Prop :=
  (ranges name).1 ≤ s.az ∧ s.az ≤ (ranges name).2.1 ∧ (ranges name).2.2.1 ≤ s.el ∧ s.el ≤ (ranges name).2.2.2

/-- Loudspeaker `i` is the last one in the range of a nominal position. -/
def Last (name : Nat) (l : List Spk) (i : Nat) : Prop :=
  i < l.length ∧ InRange name (l.getD i ⟨0, 0⟩) ∧ ∀ j, i < j → j < l.length → ¬InRange name (l.getD j ⟨0, 0⟩)

/-- A loudspeaker as a point. -/
def point (back : Bool) (s : Spk) : ℚ × ℚ := (seen back s.az, s.el)

/-- There are loudspeakers for the four nominal positions, and no other loudspeaker is between them. -/
def Free (back : Bool) (a b c d : Nat) (l : List Spk) : Prop :=
  ∃ i j k m, Last a l i ∧ Last b l j ∧ Last c l k ∧ Last d l m ∧
    ∀ n, n < l.length → n ≠ i → n ≠ j → n ≠ k → n ≠ m →
      ¬Quad (point back (l.getD i ⟨0, 0⟩)) (point back (l.getD j ⟨0, 0⟩)) (point back (l.getD k ⟨0, 0⟩))
        (point back (l.getD m ⟨0, 0⟩)) (seen back (l.getD n ⟨0, 0⟩).az) (l.getD n ⟨0, 0⟩).el

/-! ## Proofs -/

/-- What the code adds to 180 degrees. -/
def turn (back : Bool) : ℚ := if back then 180 else 0

theorem fmod_small (x : ℚ) (h0 : 0 ≤ x) (h : x < 360) : fmod x = x := by
  unfold fmod
  rw [if_pos h0, Int.floor_eq_zero_iff.2 ⟨by positivity, by linarith⟩]; simp

theorem fmod_big (x : ℚ) (h0 : 360 ≤ x) (h : x < 720) : fmod x = x - 360 := by
  unfold fmod
  have : ⌊x / 360⌋ = 1 := by
    rw [Int.floor_eq_iff]; push_cast; constructor <;> linarith
  rw [if_pos (by linarith), this]; simp

theorem seen_eq (back : Bool) (x : ℚ) (h0 : -180 ≤ x) (h : x < 180) : 180 - fmod (180 + turn back - x) = seen back x := by
  unfold seen turn
  cases back
  · simp only [Bool.false_eq_true, if_false]
    split
    · rename_i h1; subst h1; rw [fmod_big _ (by norm_num) (by norm_num)]; norm_num
    · rename_i h1
      have : -180 < x := lt_of_le_of_ne h0 (Ne.symm h1)
      rw [fmod_small _ (by linarith) (by linarith)]; ring
  · simp only [if_true]
    split
    · rw [fmod_small _ (by linarith) (by linarith)]; ring
    · rw [fmod_big _ (by linarith) (by linarith)]; ring

theorem matches_iff (name : Nat) (s : Spk) : matches' name s = true ↔ InRange name s := by
  unfold matches' InRange
  simp only [decide_eq_true_eq]; tauto

theorem standsFor_iff (name : Nat) (l : List Spk) (i : Nat) : standsFor name l = some i ↔ Last name l i := by
  unfold standsFor Last
  have key : ∀ n, ((List.range n).filter fun j => matches' name (l.getD j ⟨0, 0⟩)).getLast? = some i ↔
      i < n ∧ InRange name (l.getD i ⟨0, 0⟩) ∧ ∀ j, i < j → j < n → ¬InRange name (l.getD j ⟨0, 0⟩) := by
    intro n
    induction n with
    | zero => simp
    | succ n ih =>
      rw [List.range_succ, List.filter_append]
      by_cases hm : matches' name (l.getD n ⟨0, 0⟩) = true
      · rw [List.filter_cons, if_pos hm, List.filter_nil, List.getLast?_append]
        simp only [List.getLast?_singleton, Option.some_or, Option.some.injEq]
        rw [matches_iff] at hm
        constructor
        · rintro rfl; exact ⟨by omega, hm, fun j h1 h2 => by omega⟩
        · rintro ⟨h1, h2, h3⟩
          by_contra hc
          exact h3 n (by omega) (by omega) hm
      · rw [List.filter_cons, if_neg hm, List.filter_nil, List.append_nil, ih]
        rw [matches_iff] at hm
        constructor
        · rintro ⟨h1, h2, h3⟩
          refine ⟨by omega, h2, fun j h4 h5 => ?_⟩
          rcases (show j < n ∨ j = n by omega) with h6 | h6
          · exact h3 j h4 h6
          · rw [h6]; exact hm
        · rintro ⟨h1, h2, h3⟩
          refine ⟨?_, h2, fun j h4 h5 => h3 j h4 (by omega)⟩
          rcases (show i < n ∨ i = n by omega) with h6 | h6
          · exact h6
          · rw [h6] at h2; exact absurd h2 hm
  exact key _

/-- Positions from -180 to below 180 degrees. -/
def Ok (l : List Spk) : Prop := ∀ s ∈ l, -180 ≤ s.az ∧ s.az < 180

theorem Ok.getD {l : List Spk} (h : Ok l) (i : Nat) : -180 ≤ (l.getD i ⟨0, 0⟩).az ∧ (l.getD i ⟨0, 0⟩).az < 180 := by
  by_cases hi : i < l.length
  · rw [List.getD_eq_getElem _ _ hi]; exact h _ (List.getElem_mem hi)
  · rw [List.getD_eq_default _ _ (by omega)]; norm_num

theorem inside_iff (back : Bool) (a b c d s : Spk) (ha : -180 ≤ a.az ∧ a.az < 180) (hb : -180 ≤ b.az ∧ b.az < 180) (hc : -180 ≤ c.az ∧ c.az < 180)
    (hd : -180 ≤ d.az ∧ d.az < 180) (hs : -180 ≤ s.az ∧ s.az < 180) :
    inside (turn back) [a, b, c, d] s = true ↔ Quad (point back a) (point back b) (point back c) (point back d) (seen back s.az) s.el := by
  unfold inside Quad Side point
  simp only [List.map_cons, List.map_nil, List.tail_cons, List.take_succ_cons, List.take_zero, List.cons_append, List.nil_append, List.zip_cons_cons, List.zip_nil_right,
    List.all_cons, List.all_nil, Bool.and_true, Bool.and_eq_true, decide_eq_true_eq, seen_eq back _ ha.1 ha.2, seen_eq back _ hb.1 hb.2, seen_eq back _ hc.1 hc.2,
    seen_eq back _ hd.1 hd.2, seen_eq back _ hs.1 hs.2]

theorem exist_iff (back : Bool) (a b c d : Nat) (l : List Spk) (hl : Ok l) : exist (turn back) [a, b, c, d] l = true ↔ Free back a b c d l := by
  unfold exist Free
  simp only [← standsFor_iff]
  rcases ha : standsFor a l with _ | i
  · simp [List.mapM_cons, ha]
  rcases hb : standsFor b l with _ | j
  · simp [List.mapM_cons, ha, hb]
  rcases hc : standsFor c l with _ | k
  · simp [List.mapM_cons, ha, hb, hc]
  rcases hd : standsFor d l with _ | m
  · simp [List.mapM_cons, ha, hb, hc, hd]
  have hm : ([a, b, c, d].mapM fun n => standsFor n l) = some [i, j, k, m] := by
    simp [List.mapM_cons, ha, hb, hc, hd]
  rw [hm]
  simp only [List.all_eq_true, List.mem_range]
  constructor
  · intro h
    refine ⟨i, j, k, m, rfl, rfl, rfl, rfl, fun n hn h1 h2 h3 h4 => ?_⟩
    have h5 := h n hn
    rw [if_neg (by simp [h1, h2, h3, h4])] at h5
    rw [← inside_iff back _ _ _ _ _ (hl.getD i) (hl.getD j) (hl.getD k) (hl.getD m) (hl.getD n)]
    simpa using h5
  · rintro ⟨i', j', k', m', h1, h2, h3, h4, h5⟩ n hn
    obtain rfl := Option.some.inj h1
    obtain rfl := Option.some.inj h2
    obtain rfl := Option.some.inj h3
    obtain rfl := Option.some.inj h4
    split
    · rfl
    · rename_i hh
      have h6 : n ≠ i ∧ n ≠ j ∧ n ≠ k ∧ n ≠ m := by simpa using hh
      have h7 := h5 n hn h6.1 h6.2.1 h6.2.2.1 h6.2.2.2
      rw [← inside_iff back _ _ _ _ _ (hl.getD i) (hl.getD j) (hl.getD k) (hl.getD m) (hl.getD n)] at h7
      simpa using h7

open Classical in
/-- C301: which imaginary loudspeakers are added between four loudspeakers, and where. -/
theorem C301_added (l : List Spk) (hl : Ok l) :
    subsets l = l ++ (if Free false 0 1 18 17 l ∨ Free false 34 35 33 32 l then [⟨0, 35 / 2⟩] else []) ++
      (if Free true 4 30 31 5 (l ++ (if Free false 0 1 18 17 l ∨ Free false 34 35 33 32 l then [⟨0, 35 / 2⟩] else [])) ∨
        Free true 8 20 21 9 (l ++ (if Free false 0 1 18 17 l ∨ Free false 34 35 33 32 l then [⟨0, 35 / 2⟩] else [])) then [⟨180, 35 / 2⟩] else []) := by
  have mA : mean subsetA = ⟨0, 35 / 2⟩ := by decide +kernel
  have mB : mean subsetB = ⟨0, 35 / 2⟩ := by decide +kernel
  have mC : (⟨(mean subsetC).az + 180, (mean subsetC).el⟩ : Spk) = ⟨180, 35 / 2⟩ := by decide +kernel
  have mD : (⟨(mean subsetD).az + 180, (mean subsetD).el⟩ : Spk) = ⟨180, 35 / 2⟩ := by decide +kernel
  unfold subsets
  rw [mA, mB, mC, mD]
  have hA : exist 0 subsetA l = true ↔ Free false 0 1 18 17 l := exist_iff false 0 1 18 17 l hl
  have hB : exist 0 subsetB l = true ↔ Free false 34 35 33 32 l := exist_iff false 34 35 33 32 l hl
  have h1 : (if exist 0 subsetA l then l ++ [⟨0, 35 / 2⟩] else if exist 0 subsetB l then l ++ [⟨0, 35 / 2⟩] else l) =
      l ++ (if Free false 0 1 18 17 l ∨ Free false 34 35 33 32 l then [⟨0, 35 / 2⟩] else []) := by
    by_cases c1 : Free false 0 1 18 17 l
    · rw [if_pos (hA.2 c1), if_pos (Or.inl c1)]
    · rw [if_neg (fun h => c1 (hA.1 h))]
      by_cases c2 : Free false 34 35 33 32 l
      · rw [if_pos (hB.2 c2), if_pos (Or.inr c2)]
      · rw [if_neg (fun h => c2 (hB.1 h)), if_neg (by tauto), List.append_nil]
  rw [h1]
  set l' := l ++ (if Free false 0 1 18 17 l ∨ Free false 34 35 33 32 l then [⟨0, 35 / 2⟩] else []) with hl'
  have hok : Ok l' := by
    intro s hs
    rw [hl', List.mem_append] at hs
    rcases hs with hs | hs
    · exact hl s hs
    · split at hs
      · rw [List.mem_singleton.1 hs]; norm_num
      · simp at hs
  have hC : exist 180 subsetC l' = true ↔ Free true 4 30 31 5 l' := exist_iff true 4 30 31 5 l' hok
  have hD : exist 180 subsetD l' = true ↔ Free true 8 20 21 9 l' := exist_iff true 8 20 21 9 l' hok
  show (if exist 180 subsetC l' = true then l' ++ [⟨180, 35 / 2⟩] else if exist 180 subsetD l' = true then l' ++ [⟨180, 35 / 2⟩] else l') = _
  by_cases c1 : Free true 4 30 31 5 l'
  · rw [if_pos (hC.2 c1), if_pos (Or.inl c1)]
  · rw [if_neg (fun h => c1 (hC.1 h))]
    by_cases c2 : Free true 8 20 21 9 l'
    · rw [if_pos (hD.2 c2), if_pos (Or.inr c2)]
    · rw [if_neg (fun h => c2 (hD.1 h)), if_neg (by tauto), List.append_nil]

/-- Layout 8 of the tables (without the LFE): the four directions in front and at the back, with loudspeakers between. -/
example : Ok [⟨30, 0⟩, ⟨-30, 0⟩, ⟨110, 0⟩, ⟨-110, 0⟩, ⟨30, 35⟩, ⟨-30, 35⟩, ⟨110, 35⟩, ⟨-110, 35⟩] ∧
    subsets [⟨30, 0⟩, ⟨-30, 0⟩, ⟨110, 0⟩, ⟨-110, 0⟩, ⟨30, 35⟩, ⟨-30, 35⟩, ⟨110, 35⟩, ⟨-110, 35⟩] =
      [⟨30, 0⟩, ⟨-30, 0⟩, ⟨110, 0⟩, ⟨-110, 0⟩, ⟨30, 35⟩, ⟨-30, 35⟩, ⟨110, 35⟩, ⟨-110, 35⟩, ⟨0, 35 / 2⟩, ⟨180, 35 / 2⟩] := by
  unfold Ok; decide +kernel

/-- C301: the ranges of the nominal positions: each holds its own position, left and right are mirrored and no two overlap. -/
theorem C301_ranges :
    (∀ n ∈ subsetA ++ subsetB ++ subsetC ++ subsetD, InRange n ⟨((Speaker.geoTbl.getD n ⟨0, 0, 0, 0⟩).az : ℚ), ((Speaker.geoTbl.getD n ⟨0, 0, 0, 0⟩).el : ℚ)⟩) ∧
    (∀ p ∈ [(0, 1), (17, 18), (34, 35), (32, 33), (4, 5), (30, 31), (8, 9), (20, 21)], ∀ s : Spk, InRange p.1 s ↔ InRange p.2 ⟨-s.az, s.el⟩) ∧
    (∀ n ∈ subsetA ++ subsetB ++ subsetC ++ subsetD, ∀ m ∈ subsetA ++ subsetB ++ subsetC ++ subsetD, n ≠ m → ∀ s, ¬(InRange n s ∧ InRange m s)) := by
  refine ⟨?_, ?_, ?_⟩
  · unfold InRange; decide +kernel
  · intro p hp s
    simp only [List.mem_cons, List.not_mem_nil, or_false] at hp
    rcases hp with rfl | rfl | rfl | rfl | rfl | rfl | rfl | rfl <;> simp only [InRange, ranges] <;> constructor <;> rintro ⟨h1, h2, h3, h4⟩ <;>
      refine ⟨?_, ?_, ?_, ?_⟩ <;> linarith
  · intro n hn m hm hnm s hs
    have key : ∀ n ∈ subsetA ++ subsetB ++ subsetC ++ subsetD, ∀ m ∈ subsetA ++ subsetB ++ subsetC ++ subsetD, n ≠ m →
        (ranges n).2.1 < (ranges m).1 ∨ (ranges m).2.1 < (ranges n).1 ∨ (ranges n).2.2.2 < (ranges m).2.2.1 ∨ (ranges m).2.2.2 < (ranges n).2.2.1 := by decide +kernel
    obtain ⟨⟨a1, a2, a3, a4⟩, b1, b2, b3, b4⟩ := hs
    rcases key n hn m hm hnm with h | h | h | h <;> linarith

/-- C301, refuted: the imaginary loudspeaker is at the middle of the nominal positions, not of the loudspeakers: with loudspeakers at 20 and 21 degrees it is below all four. -/
theorem C301_refuted :
    let l : List Spk := [⟨30, 20⟩, ⟨-30, 20⟩, ⟨-30, 21⟩, ⟨30, 21⟩]
    Free false 0 1 18 17 l ∧ subsets l = l ++ [⟨0, 35 / 2⟩] ∧ ¬Quad (30, 20) (-30, 20) (-30, 21) (30, 21) 0 (35 / 2) := by
  refine ⟨?_, by decide +kernel, ?_⟩
  · rw [← exist_iff false 0 1 18 17 _ (by unfold Ok; decide +kernel)]
    decide +kernel
  · unfold Quad Side; norm_num

/-- C301, what holds: with the lower loudspeakers at most at 17.5 degrees it is between the four, in front. -/
theorem C301_front_partial (a b c d : Spk) (h : (InRange 0 a ∧ InRange 1 b ∧ InRange 18 c ∧ InRange 17 d) ∨ (InRange 34 a ∧ InRange 35 b ∧ InRange 33 c ∧ InRange 32 d))
    (ha : a.el ≤ 35 / 2) (hb : b.el ≤ 35 / 2) : Quad (point false a) (point false b) (point false c) (point false d) 0 (35 / 2) := by
  have hx : 11 ≤ a.az ∧ a.az < 180 ∧ b.az ≤ -11 ∧ -180 < b.az ∧ c.az ≤ -11 ∧ -180 < c.az ∧ 11 ≤ d.az ∧ d.az < 180 ∧ 21 ≤ c.el ∧ 21 ≤ d.el := by
    simp only [InRange, ranges] at h
    rcases h with ⟨⟨h1, h2, h3, h4⟩, ⟨h5, h6, h7, h8⟩, ⟨h9, h10, h11, h12⟩, h13, h14, h15, h16⟩ | ⟨⟨h1, h2, h3, h4⟩, ⟨h5, h6, h7, h8⟩, ⟨h9, h10, h11, h12⟩, h13, h14, h15, h16⟩ <;>
      refine ⟨?_, ?_, ?_, ?_, ?_, ?_, ?_, ?_, ?_, ?_⟩ <;> linarith
  obtain ⟨h1, h2, h3, h4, h5, h6, h7, h8, h9, h10⟩ := hx
  have e : ∀ x : ℚ, -180 < x → seen false x = x := fun x hx => by
    unfold seen; simp only [Bool.false_eq_true, if_false]; rw [if_neg (by intro h; linarith)]
  unfold Quad Side point
  simp only [e a.az (by linarith), e b.az h4, e c.az h6, e d.az (by linarith)]
  refine ⟨?_, ?_, ?_, ?_⟩
  · nlinarith [mul_nonneg (show 0 ≤ -b.az by linarith) (show 0 ≤ 35 / 2 - a.el by linarith), mul_nonneg (show 0 ≤ a.az by linarith) (show 0 ≤ 35 / 2 - b.el by linarith)]
  · nlinarith [mul_nonneg (show 0 ≤ -c.az by linarith) (show 0 ≤ 35 / 2 - b.el by linarith), mul_nonneg (show 0 ≤ -b.az by linarith) (show 0 ≤ c.el - 35 / 2 by linarith)]
  · nlinarith [mul_nonneg (show 0 ≤ d.az by linarith) (show 0 ≤ c.el - 35 / 2 by linarith), mul_nonneg (show 0 ≤ -c.az by linarith) (show 0 ≤ d.el - 35 / 2 by linarith)]
  · nlinarith [mul_nonneg (show 0 ≤ a.az by linarith) (show 0 ≤ d.el - 35 / 2 by linarith), mul_nonneg (show 0 ≤ d.az by linarith) (show 0 ≤ 35 / 2 - a.el by linarith)]

/-- C301, what holds: the same at the back, whose loudspeakers are seen from there. -/
theorem C301_back_partial (a b c d : Spk) (h : (InRange 4 a ∧ InRange 30 b ∧ InRange 31 c ∧ InRange 5 d) ∨ (InRange 8 a ∧ InRange 20 b ∧ InRange 21 c ∧ InRange 9 d))
    (ha : a.el ≤ 35 / 2) (hd : d.el ≤ 35 / 2) : Quad (point true a) (point true b) (point true c) (point true d) 0 (35 / 2) := by
  have hx : 0 < a.az ∧ a.az < 180 ∧ 0 < b.az ∧ b.az < 180 ∧ c.az < 0 ∧ -180 < c.az ∧ d.az < 0 ∧ -180 < d.az ∧ 21 ≤ b.el ∧ 21 ≤ c.el := by
    simp only [InRange, ranges] at h
    rcases h with ⟨⟨h1, h2, h3, h4⟩, ⟨h5, h6, h7, h8⟩, ⟨h9, h10, h11, h12⟩, h13, h14, h15, h16⟩ | ⟨⟨h1, h2, h3, h4⟩, ⟨h5, h6, h7, h8⟩, ⟨h9, h10, h11, h12⟩, h13, h14, h15, h16⟩ <;>
      refine ⟨?_, ?_, ?_, ?_, ?_, ?_, ?_, ?_, ?_, ?_⟩ <;> linarith
  obtain ⟨h1, h2, h3, h4, h5, h6, h7, h8, h9, h10⟩ := hx
  have e1 : ∀ x : ℚ, 0 < x → seen true x = x - 180 := fun x hx => by
    unfold seen; simp only [if_true, if_pos hx]
  have e2 : ∀ x : ℚ, x < 0 → seen true x = x + 180 := fun x hx => by
    unfold seen; simp only [if_true]; rw [if_neg (by linarith)]
  unfold Quad Side point
  simp only [e1 a.az h1, e1 b.az h3, e2 c.az h5, e2 d.az h7]
  refine ⟨?_, ?_, ?_, ?_⟩
  · nlinarith [mul_nonneg (show 0 ≤ 180 - b.az by linarith) (show 0 ≤ 35 / 2 - a.el by linarith), mul_nonneg (show 0 ≤ 180 - a.az by linarith) (show 0 ≤ b.el - 35 / 2 by linarith)]
  · nlinarith [mul_nonneg (show 0 ≤ c.az + 180 by linarith) (show 0 ≤ b.el - 35 / 2 by linarith), mul_nonneg (show 0 ≤ 180 - b.az by linarith) (show 0 ≤ c.el - 35 / 2 by linarith)]
  · nlinarith [mul_nonneg (show 0 ≤ d.az + 180 by linarith) (show 0 ≤ c.el - 35 / 2 by linarith), mul_nonneg (show 0 ≤ c.az + 180 by linarith) (show 0 ≤ 35 / 2 - d.el by linarith)]
  · nlinarith [mul_nonneg (show 0 ≤ 180 - a.az by linarith) (show 0 ≤ 35 / 2 - d.el by linarith), mul_nonneg (show 0 ≤ d.az + 180 by linarith) (show 0 ≤ 35 / 2 - a.el by linarith)]

example : InRange 4 ⟨110, 0⟩ ∧ InRange 30 ⟨110, 35⟩ ∧ InRange 31 ⟨-110, 35⟩ ∧ InRange 5 ⟨-110, 0⟩ := by unfold InRange; decide +kernel

/-- C302: every loudspeaker but the LFEs is taken, in order, at the same direction, from -180 to below 180 degrees and from -90 to 90 degrees. -/
theorem C302_clean (l : List (Spk × Bool)) (hl : ∀ s ∈ l, -180 ≤ s.1.az ∧ s.1.az < 540) :
    Ok (clean l) ∧ (∀ s ∈ clean l, -90 ≤ s.el ∧ s.el ≤ 90) ∧ (clean l).length = l.countP (fun s => !s.2) ∧
    ∀ i, i < (clean l).length → ∃ k : ℤ, ((clean l).getD i ⟨0, 0⟩).az = ((l.filter fun s => !s.2).getD i (⟨0, 0⟩, true)).1.az + 360 * k ∧
      (-90 ≤ ((l.filter fun s => !s.2).getD i (⟨0, 0⟩, true)).1.el → ((l.filter fun s => !s.2).getD i (⟨0, 0⟩, true)).1.el ≤ 90 →
        ((clean l).getD i ⟨0, 0⟩).el = ((l.filter fun s => !s.2).getD i (⟨0, 0⟩, true)).1.el) := by
  refine ⟨?_, ?_, ?_, ?_⟩
  · intro s hs
    unfold clean at hs
    obtain ⟨t, ht, rfl⟩ := List.mem_map.1 hs
    have := hl t (List.mem_filter.1 ht).1
    dsimp only
    split <;> constructor <;> linarith
  · intro s hs
    unfold clean at hs
    obtain ⟨t, ht, rfl⟩ := List.mem_map.1 hs
    exact ⟨le_max_left _ _, max_le (by norm_num) (min_le_left _ _)⟩
  · unfold clean; rw [List.length_map, List.countP_eq_length_filter]
  · intro i hi
    have hi' : i < (l.filter fun s => !s.2).length := by unfold clean at hi; rwa [List.length_map] at hi
    have e : (clean l).getD i ⟨0, 0⟩ = ⟨if 180 ≤ ((l.filter fun s => !s.2).getD i (⟨0, 0⟩, true)).1.az then ((l.filter fun s => !s.2).getD i (⟨0, 0⟩, true)).1.az - 360
        else ((l.filter fun s => !s.2).getD i (⟨0, 0⟩, true)).1.az, max (-90) (min 90 ((l.filter fun s => !s.2).getD i (⟨0, 0⟩, true)).1.el)⟩ := by
      rw [List.getD_eq_getElem _ _ hi, List.getD_eq_getElem _ _ hi']
      exact List.getElem_map _
    rw [e]
    refine ⟨if 180 ≤ ((l.filter fun s => !s.2).getD i (⟨0, 0⟩, true)).1.az then -1 else 0, ?_, fun h1 h2 => ?_⟩
    · dsimp only; split <;> push_cast <;> ring
    · dsimp only; rw [min_eq_right h2, max_eq_right h1]

example : clean [(⟨200, 95⟩, false), (⟨0, 0⟩, true), (⟨-30, 10⟩, false)] = [⟨-160, 90⟩, ⟨-30, 10⟩] := by decide +kernel

end Verif.ObjLayout
