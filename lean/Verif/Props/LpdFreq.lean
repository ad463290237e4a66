import Verif.Props.Avq
import Verif.Props.LpdFilters
import Mathlib.Tactic.FieldSimp
import Mathlib.Tactic.Ring

/-! # C158 to C160: line spectral frequencies -/

namespace Verif.Lpd

open Prog
open Avq (IsCode extension baseNumber upTo)
open DrcSel (at_)

/-! ## Separation -/

theorem separate_length (xs : List (Option Rat)) (low : Rat) : (separate xs low).length = xs.length := by
  induction xs generalizing low with
  | nil => rfl
  | cons x xs ih => simp [separate, ih]

/-- The head of `separate`. -/
def raise (x : Option Rat) (low : Rat) : Rat :=
  match x with
  | none => low
  | some x => max x low

theorem separate_cons (x : Option Rat) (xs : List (Option Rat)) (low : Rat) :
    separate (x :: xs) low = raise x low :: separate xs (raise x low + 50) := rfl

theorem raise_low (x : Option Rat) (low : Rat) : low ≤ raise x low := by
  cases x
  · exact le_refl _
  · exact le_max_right _ _

theorem separate_first (xs : List (Option Rat)) (low : Rat) (h : 0 < xs.length) : low ≤ (separate xs low).getD 0 0 := by
  cases xs with
  | nil => simp at h
  | cons x xs => rw [separate_cons]; exact raise_low x low

theorem separate_gap (xs : List (Option Rat)) (low : Rat) (i : Nat) (h : i + 1 < xs.length) :
    (separate xs low).getD i 0 + 50 ≤ (separate xs low).getD (i + 1) 0 := by
  induction xs generalizing low i with
  | nil => simp at h
  | cons x xs ih =>
    rw [separate_cons]
    cases i with
    | zero => exact separate_first xs _ (by simp at h; omega)
    | succ i => exact ih _ i (by simp at h; omega)

theorem separate_above (xs : List (Option Rat)) (low : Rat) (i : Nat) (h : i < xs.length) (x : Rat) (hx : xs.getD i none = some x) :
    x ≤ (separate xs low).getD i 0 := by
  induction xs generalizing low i with
  | nil => simp at h
  | cons y xs ih =>
    rw [separate_cons]
    cases i with
    | zero =>
      have : y = some x := hx
      subst this
      exact le_max_left _ _
    | succ i => exact ih _ i (by simp at h; omega) hx

theorem separate_least (xs : List (Option Rat)) (low : Rat) (z : Nat → Rat) (h0 : low ≤ z 0)
    (h1 : ∀ i, i + 1 < xs.length → z i + 50 ≤ z (i + 1)) (h2 : ∀ i < xs.length, ∀ x, xs.getD i none = some x → x ≤ z i) :
    ∀ i < xs.length, (separate xs low).getD i 0 ≤ z i := by
  induction xs generalizing low z with
  | nil => simp
  | cons y xs ih =>
    have hy : raise y low ≤ z 0 := by
      cases y with
      | none => exact h0
      | some y => exact max_le (h2 0 (by simp) y rfl) h0
    intro i hi
    rw [separate_cons]
    cases i with
    | zero => exact hy
    | succ i =>
      have hx : 0 < xs.length := by simp at hi; omega
      refine ih (raise y low + 50) (fun i => z (i + 1)) ?_ ?_ ?_ i (by simpa using hi)
      · have := h1 0 (by simpa using hx)
        show _ ≤ z (0 + 1)
        linarith
      · exact fun j hj => h1 (j + 1) (by simpa using hj)
      · exact fun j hj x hx => h2 (j + 1) (by simpa using hj) x hx

theorem separate_spec (t : Nat → Option Rat) : Least t (separate ((List.range 16).map t) 50) := by
  have hl : ((List.range 16).map t).length = 16 := by simp
  have hg : ∀ i < 16, ((List.range 16).map t).getD i none = t i := by
    intro i hi
    rw [List.getD_eq_getElem?_getD, List.getElem?_map, List.getElem?_range hi]
    rfl
  refine ⟨⟨by rw [separate_length, hl], separate_first _ _ (by simp), fun i hi => separate_gap _ _ i (by rw [hl]; omega)⟩, ?_, ?_⟩
  · intro i hi x hx
    exact separate_above _ _ i (by rw [hl]; exact hi) x (by rw [hg i hi]; exact hx)
  · intro z hz ha i hi
    refine separate_least _ _ (fun j => z.getD j 0) hz.2.1 ?_ ?_ i (by rw [hl]; exact hi)
    · intro j hj
      exact hz.2.2 j (by rw [hl] at hj; omega)
    · intro j hj x hx
      rw [hl] at hj
      exact ha j hj x (by rw [← hg j hj]; exact hx)

theorem gap_eq (x : List Rat) {i : Nat} (h : i ≤ 16) : gap x i = distance x i := by
  unfold gap distance
  by_cases h0 : i = 0
  · subst h0; simp
  · by_cases h16 : i = 16
    · subst h16; simp
    · simp [h0, h16]

theorem moved_eq (root : Rat → Rat) (f : Rat) (x : List Rat) (v : List Int) :
    (List.range 16).map (fun i =>
      let p := gap x i * gap x (i + 1)
      if p < 0 then none else some (x.getD i 0 + f * root p / 400 * (v.getD i 0 : Int))) = (List.range 16).map (moved root f x v) := by
  apply List.map_congr_left
  intro i hi
  rw [List.mem_range] at hi
  unfold moved
  simp only
  rw [gap_eq x (by omega), gap_eq x (by omega)]
  by_cases h : distance x i * distance x (i + 1) < 0
  · rw [if_pos h, if_neg (by linarith)]
  · rw [if_neg h, if_pos (by linarith)]
    congr 1
    ring

theorem average_spec (a b : List Rat) : Mean a b (average a b) := by
  refine ⟨by simp [average], fun i hi => ?_⟩
  unfold average
  rw [List.getD_eq_getElem?_getD, List.getElem?_map, List.getElem?_range hi]
  simp

/-! ## Vectors -/

theorem at_drop {α : Type} (l : List α) (i j : Nat) : at_ (l.drop i) j = at_ l (i + j) := by
  unfold at_
  rw [List.getElem?_drop]

/-- The point of a code. -/
theorem code_point {c : Code} (h : c.Valid) : ∃ x, Avq.decode c.q c.index (c.voronoi.map Int.ofNat) = .ok x ∧ x.length = 8 := by
  obtain ⟨x, h1, h2⟩ := Avq.C154_lattice_partial h.1 h.2.2
  exact ⟨x, h1, h2.1⟩

theorem upTo_at (l r : List Int) (h : l.length = 8) : upTo (fun j => at_ (l ++ r) j) 8 = .ok l := by
  obtain ⟨a, b, c, d, e, f, g, i, rfl⟩ : ∃ a b c d e f g i, l = [a, b, c, d, e, f, g, i] := by
    match l, h with
    | [a, b, c, d, e, f, g, i], _ => exact ⟨a, b, c, d, e, f, g, i, rfl⟩
  rfl

theorem tool1_ok {l pre post : List Int} {i pos : Nat} {c : Code} {x : List Int} (hv : c.Valid) (hi : at_ l i = .ok (c.q : Int))
    (hl : l = pre ++ c.words ++ post) (hp : pos = pre.length) (hd : Avq.decode c.q c.index (c.voronoi.map Int.ofNat) = .ok x) :
    tool1 l i pos = .ok (x, pos + c.words.length) := by
  unfold tool1
  rw [hi]
  simp only [Res.ok_bind]
  by_cases hq : c.q = 0
  · rw [if_pos (by omega)]
    have hz := valid_zero hv hq
    rw [hz] at hd
    have hd' : Avq.decode (↑(0 : Nat)) 0 (List.replicate 8 0) = .ok x := hd
    rw [hq, hd']
    simp [Code.words, hq]
  · rw [if_neg (by omega)]
    have hlen := hv.1.length
    have hw : c.words = (c.index : Int) :: c.voronoi.map Int.ofNat := by unfold Code.words; rw [if_neg hq]
    have h1 : at_ l pos = .ok (c.index : Int) := by
      rw [hl, hw, hp]
      simp [at_]
    rw [h1]
    have h2 : (fun j => at_ l (pos + 1 + j)) = fun j => at_ (c.voronoi.map Int.ofNat ++ post) j := by
      funext j
      rw [← at_drop, hl, hw, hp]
      congr 1
      rw [show pre ++ ((c.index : Int) :: c.voronoi.map Int.ofNat) ++ post = (pre ++ [(c.index : Int)]) ++ (c.voronoi.map Int.ofNat ++ post) by simp]
      rw [List.drop_left' (by simp)]
    simp only [Res.ok_bind]
    rw [h2, upTo_at _ _ hlen]
    simp only [Res.ok_bind, Int.toNat_natCast]
    rw [hd, hw]
    simp only [Res.ok_bind, List.length_cons, hlen]

theorem tool_ok {a b : Code} {x y : List Int} (ha : a.Valid) (hb : b.Valid) (hx : Avq.decode a.q a.index (a.voronoi.map Int.ofNat) = .ok x)
    (hy : Avq.decode b.q b.index (b.voronoi.map Int.ofNat) = .ok y) (post : List Int) :
    tool (vecWords a b ++ post) = .ok (x ++ y, (vecWords a b).length) := by
  unfold tool
  have e1 : tool1 (vecWords a b ++ post) 0 2 = .ok (x, 2 + a.words.length) :=
    tool1_ok (pre := [(a.q : Int), (b.q : Int)]) (post := b.words ++ post) ha rfl (by simp [vecWords]) rfl hx
  have e2 : tool1 (vecWords a b ++ post) 1 (2 + a.words.length) = .ok (y, 2 + a.words.length + b.words.length) :=
    tool1_ok (pre := [(a.q : Int), (b.q : Int)] ++ a.words) (post := post) hb rfl (by simp [vecWords]) (by simp; omega) hy
  rw [e1]
  simp only [Res.ok_bind]
  rw [e2]
  simp only [Res.ok_bind, Res.ok.injEq, Prod.mk.injEq, true_and]
  simp [vecWords]
  omega

theorem absolute_ok (T : Tables) {i : Nat} (hi : i < 256) {a b : Code} {x y : List Int} (ha : a.Valid) (hb : b.Valid)
    (hx : Avq.decode a.q a.index (a.voronoi.map Int.ofNat) = .ok x) (hy : Avq.decode b.q b.index (b.voronoi.map Int.ofNat) = .ok y)
    (post : List Int) : ∃ z, absolute T ((i : Int) :: (vecWords a b ++ post)) = .ok (z, 1 + (vecWords a b).length) ∧
      Least (fun j => some (T.start i j + T.weight i j * ((x ++ y).getD j 0 : Int))) z := by
  refine ⟨_, ?_, separate_spec _⟩
  unfold absolute
  have h0 : at_ ((i : Int) :: (vecWords a b ++ post)) 0 = .ok (i : Int) := rfl
  rw [h0]
  simp only [Res.ok_bind]
  rw [if_pos (by omega), show List.drop 1 ((i : Int) :: (vecWords a b ++ post)) = vecWords a b ++ post from rfl, tool_ok ha hb hx hy]
  simp

theorem relative_ok (root : Rat → Rat) (r : List Rat) (f : Rat) {a b : Code} {x y : List Int} (ha : a.Valid) (hb : b.Valid)
    (hx : Avq.decode a.q a.index (a.voronoi.map Int.ofNat) = .ok x) (hy : Avq.decode b.q b.index (b.voronoi.map Int.ofNat) = .ok y)
    (post : List Int) : ∃ z, relative root r (vecWords a b ++ post) f = .ok (z, (vecWords a b).length) ∧
      Least (moved root f r (x ++ y)) z := by
  refine ⟨_, ?_, separate_spec _⟩
  unfold relative
  rw [tool_ok ha hb hx hy]
  simp only [Res.ok_bind]
  rw [← moved_eq]

/-! ## Filters -/

/-- The vector of a filter. -/
structure VectorOf (f : Coded) (v : List Int) : Prop where
  split : ∃ x y, Avq.decode f.a.q f.a.index (f.a.voronoi.map Int.ofNat) = .ok x ∧
    Avq.decode f.b.q f.b.index (f.b.voronoi.map Int.ofNat) = .ok y ∧ v = x ++ y

theorem vectorOf {set : Nat} {f : Coded} (h : f.Valid set) : ∃ v, VectorOf f v := by
  obtain ⟨x, hx, _⟩ := code_point h.a
  obtain ⟨y, hy, _⟩ := code_point h.b
  exact ⟨_, ⟨x, y, hx, hy, rfl⟩⟩

/-- What the tables ask for. -/
def tabled (T : Tables) (f : Coded) (v : List Int) : Nat → Option Rat :=
  fun j => some (T.start f.first j + T.weight f.first j * (v.getD j 0 : Int))

theorem head_facts {l : List Int} {idx set : Nat} {f : Coded} {post : List Int} (hs : set ≠ 4) (hl : l.drop idx = f.words set ++ post) :
    at_ l idx = .ok (f.mode : Int) ∧
      (f.mode = 0 → l.drop (idx + 1) = (f.first : Int) :: (vecWords f.a f.b ++ post) ∧ (f.words set).length = 2 + (vecWords f.a f.b).length) ∧
      (f.mode ≠ 0 → hasVector set f.mode = true → l.drop (idx + 1) = vecWords f.a f.b ++ post ∧
        (f.words set).length = 1 + (vecWords f.a f.b).length) ∧
      (hasVector set f.mode = false → (f.words set).length = 1) := by
  have hd : l.drop (idx + 1) = (f.words set ++ post).drop 1 := by rw [← hl, List.drop_drop]
  refine ⟨?_, ?_, ?_, ?_⟩
  · have := at_drop l idx 0
    rw [hl] at this
    rw [Nat.add_zero] at this
    rw [← this]
    simp [Coded.words, hs, at_]
  · intro h0
    rw [hd]
    have : hasVector set f.mode = true := by simp [hasVector, h0]
    simp [Coded.words, hs, h0, hasVector]
    omega
  · intro h0 hv
    rw [hd]
    simp [Coded.words, hs, h0, hv]
    omega
  · intro hv
    have : f.mode ≠ 0 := by
      intro h0
      simp [hasVector, h0] at hv
    simp [Coded.words, hs, this, hv]

theorem dequant0_ok (root : Rat → Rat) (T : Tables) {l post : List Int} {n : Nat} {s : Rows} {f : Coded} {v : List Int} (hf : f.Valid 0)
    (hv : VectorOf f v) (hl : l.drop s.idx = f.words 0 ++ post) :
    ∃ z s', dequant0 root T l n s = .ok s' ∧ s'.row = Function.update s.row 0 z ∧ s'.idx = s.idx + (f.words 0).length ∧
      (if f.mode = 0 then Least (tabled T f v) z else Least (moved root 63 (s.row n) v) z) := by
  obtain ⟨x, y, hx, hy, rfl⟩ := hv.split
  obtain ⟨h1, h2, h3, -⟩ := head_facts (by omega) hl
  have hm := hf.mode
  simp only [modeCount] at hm
  unfold dequant0
  rw [h1]
  simp only [Res.ok_bind]
  by_cases h0 : f.mode = 0
  · obtain ⟨e, el⟩ := h2 h0
    obtain ⟨z, hz, hz'⟩ := absolute_ok T hf.first hf.a hf.b hx hy post
    refine ⟨z, _, by rw [if_neg (by omega), if_pos (by omega), e, hz, Res.ok_bind], rfl, ?_, ?_⟩
    · simp only [Rows.put]; omega
    · rw [if_pos h0]; exact hz'
  · have hhv : hasVector 0 f.mode = true := by simp [hasVector]
    obtain ⟨e, el⟩ := h3 h0 hhv
    obtain ⟨z, hz, hz'⟩ := relative_ok root (s.row n) 63 hf.a hf.b hx hy post
    refine ⟨z, _, by rw [if_pos (by omega), e, hz, Res.ok_bind], rfl, ?_, ?_⟩
    · simp only [Rows.put]; omega
    · rw [if_neg h0]; exact hz'

theorem dequant2_ok (root : Rat → Rat) (T : Tables) {l post : List Int} {s : Rows} {f : Coded} {v : List Int} (hf : f.Valid 2)
    (hv : VectorOf f v) (hl : l.drop s.idx = f.words 2 ++ post) :
    ∃ z s', dequant2 root T l s = .ok s' ∧ s'.row = Function.update s.row 2 z ∧ s'.idx = s.idx + (f.words 2).length ∧
      (if f.mode = 0 then Least (tabled T f v) z else Least (moved root 63 (s.row 4) v) z) := by
  obtain ⟨x, y, hx, hy, rfl⟩ := hv.split
  obtain ⟨h1, h2, h3, -⟩ := head_facts (by omega) hl
  have hm := hf.mode
  simp only [modeCount] at hm
  unfold dequant2
  rw [h1]
  simp only [Res.ok_bind]
  by_cases h0 : f.mode = 0
  · obtain ⟨e, el⟩ := h2 h0
    obtain ⟨z, hz, hz'⟩ := absolute_ok T hf.first hf.a hf.b hx hy post
    refine ⟨z, _, by rw [if_neg (by omega), if_pos (by omega), e, hz, Res.ok_bind], rfl, ?_, ?_⟩
    · simp only [Rows.put]; omega
    · rw [if_pos h0]; exact hz'
  · have hhv : hasVector 2 f.mode = true := by simp [hasVector]
    obtain ⟨e, el⟩ := h3 h0 hhv
    obtain ⟨z, hz, hz'⟩ := relative_ok root (s.row 4) 63 hf.a hf.b hx hy post
    refine ⟨z, _, by rw [if_pos (by omega), e, hz, Res.ok_bind], rfl, ?_, ?_⟩
    · simp only [Rows.put]; omega
    · rw [if_neg h0]; exact hz'

theorem dequant1_ok (root : Rat → Rat) (T : Tables) {l post : List Int} {s : Rows} {f : Coded} {v : List Int} (hf : f.Valid 1)
    (hv : VectorOf f v) (hl : l.drop s.idx = f.words 1 ++ post) :
    ∃ z s', dequant1 root T l s = .ok s' ∧ s'.row = Function.update s.row 1 z ∧ s'.idx = s.idx + (f.words 1).length ∧
      (if f.mode = 0 then Least (tabled T f v) z else if f.mode = 1 then Mean (s.row 0) (s.row 2) z
        else Least (moved root 64 (s.row 2) v) z) := by
  obtain ⟨x, y, hx, hy, rfl⟩ := hv.split
  obtain ⟨h1, h2, h3, h4⟩ := head_facts (by omega) hl
  have hm := hf.mode
  simp only [modeCount] at hm
  unfold dequant1
  rw [h1]
  simp only [Res.ok_bind]
  by_cases h0 : f.mode = 0
  · obtain ⟨e, el⟩ := h2 h0
    obtain ⟨z, hz, hz'⟩ := absolute_ok T hf.first hf.a hf.b hx hy post
    refine ⟨z, _, by rw [if_neg (by omega), if_neg (by omega), if_pos (by omega), e, hz, Res.ok_bind], rfl, ?_, ?_⟩
    · simp only [Rows.put]; omega
    · rw [if_pos h0]; exact hz'
  · by_cases h1 : f.mode = 1
    · have el := h4 (by simp [hasVector, h1])
      refine ⟨average (s.row 0) (s.row 2), _, by rw [if_pos (by omega)], rfl, ?_, ?_⟩
      · simp only; omega
      · rw [if_neg h0, if_pos h1]; exact average_spec _ _
    · have hhv : hasVector 1 f.mode = true := by simp [hasVector, h1]
      obtain ⟨e, el⟩ := h3 h0 hhv
      obtain ⟨z, hz, hz'⟩ := relative_ok root (s.row 2) 64 hf.a hf.b hx hy post
      refine ⟨z, _, by rw [if_neg (by omega), if_pos (by omega), e, hz, Res.ok_bind], rfl, ?_, ?_⟩
      · simp only [Rows.put]; omega
      · rw [if_neg h0, if_neg h1]; exact hz'

theorem dequant3_ok (root : Rat → Rat) (T : Tables) {l post : List Int} {s : Rows} {f : Coded} {v : List Int} (hf : f.Valid 3)
    (hv : VectorOf f v) (hl : l.drop s.idx = f.words 3 ++ post) :
    ∃ z s', dequant3 root T l s = .ok s' ∧ s'.row = Function.update s.row 3 z ∧
      (if f.mode = 0 then Least (tabled T f v) z else if f.mode = 1 then ∃ m, Mean (s.row 2) (s.row 4) m ∧ Least (moved root 65 m v) z
        else if f.mode = 2 then Least (moved root 64 (s.row 2) v) z else Least (moved root 64 (s.row 4) v) z) := by
  obtain ⟨x, y, hx, hy, rfl⟩ := hv.split
  obtain ⟨h1, h2, h3, -⟩ := head_facts (by omega) hl
  have hm := hf.mode
  simp only [modeCount] at hm
  unfold dequant3
  rw [h1]
  simp only [Res.ok_bind]
  have hhv : hasVector 3 f.mode = true := by simp [hasVector]
  by_cases h0 : f.mode = 0
  · obtain ⟨e, el⟩ := h2 h0
    obtain ⟨z, hz, hz'⟩ := absolute_ok T hf.first hf.a hf.b hx hy post
    refine ⟨z, _, by rw [if_neg (by omega), if_neg (by omega), if_neg (by omega), if_pos (by omega), e, hz, Res.ok_bind], rfl, ?_⟩
    rw [if_pos h0]; exact hz'
  · obtain ⟨e, el⟩ := h3 h0 hhv
    by_cases h1 : f.mode = 1
    · obtain ⟨z, hz, hz'⟩ := relative_ok root (average (s.row 2) (s.row 4)) 65 hf.a hf.b hx hy post
      refine ⟨z, _, by rw [if_neg (by omega), if_neg (by omega), if_pos (by omega), e, hz, Res.ok_bind], rfl, ?_⟩
      rw [if_neg h0, if_pos h1]; exact ⟨_, average_spec _ _, hz'⟩
    · by_cases h2 : f.mode = 2
      · obtain ⟨z, hz, hz'⟩ := relative_ok root (s.row 2) 64 hf.a hf.b hx hy post
        refine ⟨z, _, by rw [if_neg (by omega), if_pos (by omega), e, hz, Res.ok_bind], rfl, ?_⟩
        rw [if_neg h0, if_neg h1, if_pos h2]; exact hz'
      · obtain ⟨z, hz, hz'⟩ := relative_ok root (s.row 4) 64 hf.a hf.b hx hy post
        refine ⟨z, _, by rw [if_pos (by omega), e, hz, Res.ok_bind], rfl, ?_⟩
        rw [if_neg h0, if_neg h1, if_neg h2]; exact hz'

/-! ## All filters -/

theorem words_cons (first full : Bool) (mod : Nat → Nat) (fs : Nat → Coded) (i : Nat) (is : List Nat) :
    wordsOf first full mod fs (i :: is) = (if sent first full mod i then (fs i).words i else []) ++ wordsOf first full mod fs is := by
  simp [wordsOf]

/-- A filter which is read if `c`. -/
theorem step_ok {c : Prop} [Decidable c] {first full : Bool} {mod : Nat → Nat} {fs : Nat → Coded} {l post : List Int} {i : Nat} {is : List Nat}
    (hc : sent first full mod i = true ↔ c) {s : Rows} (hl : l.drop s.idx = wordsOf first full mod fs (i :: is) ++ post) {q : Res Rows}
    {P : List Rat → Prop} (hq : c → (l.drop s.idx = (fs i).words i ++ (wordsOf first full mod fs is ++ post)) →
      ∃ z s', q = .ok s' ∧ s'.row = Function.update s.row i z ∧ (is ≠ [] → s'.idx = s.idx + ((fs i).words i).length) ∧ P z) :
    ∃ s', (if c then q else .ok s) = .ok s' ∧ (is ≠ [] → l.drop s'.idx = wordsOf first full mod fs is ++ post) ∧
      (∀ j, (c → j ≠ i) → s'.row j = s.row j) ∧ (c → P (s'.row i)) := by
  rw [words_cons, List.append_assoc] at hl
  by_cases h : c
  · rw [if_pos (hc.mpr h)] at hl
    obtain ⟨z, s', h1, h2, h3, h4⟩ := hq h hl
    refine ⟨s', by rw [if_pos h, h1], fun hn => ?_, fun j hj => ?_, fun _ => ?_⟩
    · rw [h3 hn, ← List.drop_drop, hl]
      simp
    · rw [h2, Function.update_of_ne (hj h)]
    · rw [h2, Function.update_self]; exact h4
  · have hn : ¬ sent first full mod i = true := fun e => h (hc.mp e)
    rw [if_neg hn] at hl
    exact ⟨s, by rw [if_neg h], fun _ => by simpa using hl, fun _ _ => rfl, fun e => absurd e h⟩

/-- The number of the row of the last filter. -/
def lastRow (full : Bool) : Nat := if full then 2 else 4

theorem dequant_ok (root : Rat → Rat) (T : Tables) (first full : Bool) (mod : Nat → Nat) {fs : Nat → Coded} {v : Nat → List Int}
    (hf : ∀ i, sent first full mod i = true → (fs i).Valid i ∧ VectorOf (fs i) (v i)) (row : Nat → List Rat) :
    ∃ row', dequant root T (wordsOf first full mod fs [4, 0, 2, 1, 3]) first full mod row = .ok row' ∧
      (∀ i, sent first full mod i = true → Stands root T.start T.weight (lastRow full) row' (fs i) (v i) i) ∧
      (∀ i, (i ≠ 4 → sent first full mod i = false) → i ≠ lastRow full → row' i = row i) := by
  obtain ⟨hf4, hv4⟩ := hf 4 rfl
  obtain ⟨x, y, hx, hy, hxy⟩ := hv4.split
  set l := wordsOf first full mod fs [4, 0, 2, 1, 3] with hl
  have hl4 : l = ((fs 4).first : Int) :: (vecWords (fs 4).a (fs 4).b ++ wordsOf first full mod fs [0, 2, 1, 3]) := by
    have hm := hf4.mode
    simp only [modeCount] at hm
    rw [hl, words_cons, if_pos (by rfl)]
    simp [Coded.words, show (fs 4).mode = 0 by omega, hasVector]
  obtain ⟨z, hz, hz'⟩ := absolute_ok T hf4.first hf4.a hf4.b hx hy (wordsOf first full mod fs [0, 2, 1, 3])
  rw [← hl4] at hz
  unfold dequant
  rw [hz]
  simp only [Res.ok_bind]
  set s0 : Rows := Rows.put { row := row, idx := 0, pos := 0 } (if full then 2 else 4) (z, 1 + (vecWords (fs 4).a (fs 4).b).length) with hs0
  have hr0 : s0.row (lastRow full) = z := by simp [hs0, Rows.put, lastRow]
  have hr0' : ∀ j, j ≠ lastRow full → s0.row j = row j := fun j hj => by
    simp only [hs0, Rows.put]
    exact Function.update_of_ne hj _ _
  have hd0 : l.drop s0.idx = wordsOf first full mod fs [0, 2, 1, 3] ++ [] := by
    rw [show s0.idx = (vecWords (fs 4).a (fs 4).b).length + 1 by simp only [hs0, Rows.put]; omega, hl4, List.drop_succ_cons]
    simp
  obtain ⟨s1, e1, d1, r1, p1⟩ := step_ok (c := first = true) (i := 0) (is := [2, 1, 3]) (by simp [sent]) hd0
    (q := dequant0 root T l (if full then 2 else 4) s0) (P := fun z => if (fs 0).mode = 0 then Least (tabled T (fs 0) (v 0)) z else
      Least (moved root 63 (s0.row (lastRow full)) (v 0)) z) (fun hc hd => by
      obtain ⟨hf0, hv0⟩ := hf 0 hc
      obtain ⟨z, s', a, b, c, d⟩ := dequant0_ok root T (n := if full then 2 else 4) hf0 hv0 hd
      exact ⟨z, s', a, b, fun _ => c, d⟩)
  rw [e1]
  simp only [Res.ok_bind]
  obtain ⟨s2, e2, d2, r2, p2⟩ := step_ok (c := mod 0 < 3 ∧ (!full) = true) (i := 2) (is := [1, 3]) (by simp [sent, and_comm]) (d1 (by simp))
    (q := dequant2 root T l s1) (P := fun z => if (fs 2).mode = 0 then Least (tabled T (fs 2) (v 2)) z else
      Least (moved root 63 (s1.row 4) (v 2)) z) (fun hc hd => by
      obtain ⟨hf0, hv0⟩ := hf 2 (by simpa [sent, and_comm] using hc)
      obtain ⟨z, s', a, b, c, d⟩ := dequant2_ok root T hf0 hv0 hd
      exact ⟨z, s', a, b, fun _ => c, d⟩)
  rw [e2]
  simp only [Res.ok_bind]
  obtain ⟨s3, e3, d3, r3, p3⟩ := step_ok (c := mod 0 < 2) (i := 1) (is := [3]) (by simp [sent]) (d2 (by simp))
    (q := dequant1 root T l s2) (P := fun z => if (fs 1).mode = 0 then Least (tabled T (fs 1) (v 1)) z else
      if (fs 1).mode = 1 then Mean (s2.row 0) (s2.row 2) z else Least (moved root 64 (s2.row 2) (v 1)) z) (fun hc hd => by
      obtain ⟨hf0, hv0⟩ := hf 1 (by simpa [sent] using hc)
      obtain ⟨z, s', a, b, c, d⟩ := dequant1_ok root T hf0 hv0 hd
      exact ⟨z, s', a, b, fun _ => c, d⟩)
  rw [e3]
  simp only [Res.ok_bind]
  obtain ⟨s4, e4, d4, r4, p4⟩ := step_ok (c := mod 2 < 2 ∧ (!full) = true) (i := 3) (is := []) (by simp [sent, and_comm]) (d3 (by simp))
    (q := dequant3 root T l s3) (P := fun z => if (fs 3).mode = 0 then Least (tabled T (fs 3) (v 3)) z else
      if (fs 3).mode = 1 then ∃ m, Mean (s3.row 2) (s3.row 4) m ∧ Least (moved root 65 m (v 3)) z
      else if (fs 3).mode = 2 then Least (moved root 64 (s3.row 2) (v 3)) z else Least (moved root 64 (s3.row 4) (v 3)) z) (fun hc hd => by
      obtain ⟨hf0, hv0⟩ := hf 3 (by simpa [sent, and_comm] using hc)
      obtain ⟨z, s', a, b, d⟩ := dequant3_ok root T hf0 hv0 hd
      exact ⟨z, s', a, b, fun h => absurd rfl h, d⟩)
  rw [e4]
  refine ⟨s4.row, rfl, ?_, ?_⟩
  · -- rows after they are written
    have n0 : s4.row 0 = s1.row 0 := by
      rw [r4 0 (fun _ => by omega), r3 0 (fun _ => by omega), r2 0 (fun _ => by omega)]
    have n2 : s4.row 2 = s2.row 2 := by rw [r4 2 (fun _ => by omega), r3 2 (fun _ => by omega)]
    have n1 : s4.row 1 = s3.row 1 := r4 1 (fun _ => by omega)
    have n4 : s4.row 4 = s0.row 4 := by
      rw [r4 4 (fun _ => by omega), r3 4 (fun _ => by omega), r2 4 (fun _ => by omega), r1 4 (fun _ => by omega)]
    have n4' : s1.row 4 = s0.row 4 := r1 4 (fun _ => by omega)
    have n4'' : s3.row 4 = s0.row 4 := by
      rw [r3 4 (fun _ => by omega), r2 4 (fun _ => by omega), r1 4 (fun _ => by omega)]
    have n0' : s2.row 0 = s1.row 0 := r2 0 (fun _ => by omega)
    have n2' : s3.row 2 = s2.row 2 := r3 2 (fun _ => by omega)
    have nl : s4.row (lastRow full) = s0.row (lastRow full) := by
      cases full
      · exact n4
      · show s4.row 2 = s0.row 2
        rw [n2, r2 2 (fun h => by simp at h), r1 2 (fun _ => by omega)]
    intro i hi
    match i with
    | 4 =>
      show Least _ (s4.row (lastRow full))
      rw [nl, hr0, hxy]
      exact hz'
    | 0 =>
      have := p1 hi
      simp only [Stands, nl, n0]
      exact this
    | 2 =>
      have hc : mod 0 < 3 ∧ (!full) = true := by simpa [sent, and_comm] using hi
      have := p2 hc
      have hfull : full = false := by simpa using hc.2
      have hlr : lastRow full = 4 := by rw [hfull]; rfl
      simp only [Stands, nl, n2]
      rw [n4'] at this
      rw [hlr]
      exact this
    | 1 =>
      have := p3 (by simpa [sent] using hi)
      simp only [Stands, n1, n0, n2]
      rw [n0'] at this
      exact this
    | 3 =>
      have hc : mod 2 < 2 ∧ (!full) = true := by simpa [sent, and_comm] using hi
      have := p4 hc
      have hfull : full = false := by simpa using hc.2
      have hlr : lastRow full = 4 := by rw [hfull]; rfl
      simp only [Stands, nl, n2]
      rw [n4'', n2'] at this
      rw [hlr]
      exact this
    | n + 5 => simp [Stands]
  · intro i hi hne
    have a : i ≠ 4 → sent first full mod i = false := hi
    rw [r4 i, r3 i, r2 i, r1 i, hr0' i hne]
    · rintro hc rfl
      simp [sent, hc] at a
    · rintro hc rfl
      simp only [sent] at a
      simp [hc.1, hc.2] at a
    · rintro hc rfl
      simp [sent, hc] at a
    · rintro hc rfl
      simp only [sent] at a
      simp [hc.1, hc.2] at a

end Verif.Lpd
