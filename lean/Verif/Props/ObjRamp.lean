import Verif.Props.ObjPan
import Mathlib.Algebra.Order.Floor.Semiring

/-! # C292, C293: how objects are mixed into the loudspeakers and which metadata are used

C292: over a sub-frame the gain of each loudspeaker goes from the gain at the end of the sub-frame
before to the new gain in equal steps, and reaches it. C293: the metadata of the last sub-frame that
had some. -/

namespace Verif.ObjRen

open Finset (range)

/-- The gain in the middle of a straight line: after `j + 1` of `len` steps. -/
noncomputable def line (g0 g1 : ℝ) (len j : Nat) : ℝ := g0 + (j + 1) * ((g1 - g0) / len)

theorem ramp_line (g0 g1 : ℝ) (len j : Nat) : ramp g0 g1 len j = line g0 g1 len j := by
  induction j with
  | zero => simp only [ramp, line]; push_cast; ring
  | succ j ih => simp only [ramp, ih, line]; push_cast; ring

/-- C292: the last sample has the new gain. -/
theorem C292_end (g0 g1 : ℝ) {len : Nat} (h : 0 < len) : ramp g0 g1 len (len - 1) = g1 := by
  rw [ramp_line, line, Nat.cast_sub h]
  have : (len : ℝ) ≠ 0 := by positivity
  push_cast
  field_simp
  ring

/-- How many of the first `ch` loudspeakers are no LFE. -/
def place (lfe : List Bool) (ch : Nat) : Nat := ((lfe.take ch).filter fun b => !b).length

/-- The channels: every sample of a channel that is no LFE within the sub-frame gets its part, all
others stay. -/
theorem channels_spec (g0 g1 : Nat → ℝ) (len stride i : Nat) (inp : Nat → ℝ) (lfe : List Bool)
    (n at_ : Nat) (hs : at_ + len ≤ stride) (base : Nat) (out : Nat → ℝ) (k : Nat) :
    channels g0 g1 len stride i inp lfe n (base * stride + at_) out k =
      if base ≤ k / stride ∧ lfe[k / stride - base]? = some false ∧ at_ ≤ k % stride ∧
          k % stride < at_ + len then
        out k + inp (i + (k % stride - at_)) *
          line (g0 (n + place lfe (k / stride - base))) (g1 (n + place lfe (k / stride - base))) len
            (k % stride - at_)
      else out k := by
  induction lfe generalizing n base out with
  | nil => simp [channels]
  | cons b l ih =>
    have e : base * stride + at_ + stride = (base + 1) * stride + at_ := by ring
    have hdm := Nat.div_add_mod k stride
    rw [Nat.mul_comm] at hdm
    cases b with
    | true =>
      simp only [channels, e, ih n (base + 1)]
      rcases Nat.lt_or_ge base (k / stride) with h | h
      · have e2 : k / stride - base = (k / stride - (base + 1)) + 1 := by omega
        simp only [h.le, show base + 1 ≤ k / stride from h, true_and, e2, List.getElem?_cons_succ, place,
          List.take_succ_cons, List.filter_cons, Bool.not_true, Bool.false_eq_true, if_false]
      · rcases Nat.eq_or_lt_of_le h with h | h
        · rw [if_neg (by omega), if_neg]
          rintro ⟨-, q, -⟩
          rw [show k / stride - base = 0 by omega] at q
          simp at q
        · rw [if_neg (by omega), if_neg (by omega)]
    | false =>
      simp only [channels, e, ih (n + 1) (base + 1)]
      rcases Nat.lt_or_ge base (k / stride) with h | h
      · have e2 : k / stride - base = (k / stride - (base + 1)) + 1 := by omega
        have hm : ¬ (base * stride + at_ ≤ k ∧ k < base * stride + at_ + len) := by
          have : (base + 1) * stride ≤ k / stride * stride := Nat.mul_le_mul_right _ h
          have e3 : (base + 1) * stride = base * stride + stride := by ring
          omega
        simp only [h.le, show base + 1 ≤ k / stride from h, true_and, e2, List.getElem?_cons_succ, place,
          List.take_succ_cons, List.filter_cons, Bool.not_false, if_true, List.length_cons, mixCh,
          if_neg hm]
        have e4 : ∀ x, n + 1 + x = n + (x + 1) := fun x => by omega
        simp only [e4]
      · rw [if_neg (by omega)]
        rcases Nat.eq_or_lt_of_le h with h | h
        · have e5 : k / stride = base := by omega
          subst h
          simp only [le_refl, Nat.sub_self, List.getElem?_cons_zero, true_and, place, List.take_zero,
            List.filter_nil, List.length_nil, Nat.add_zero, mixCh, ramp_line]
          by_cases q : at_ ≤ k % stride ∧ k % stride < at_ + len
          · rw [if_pos q, if_pos (by omega)]
            rw [show k - (k / stride * stride + at_) = k % stride - at_ by omega]
          · rw [if_neg q, if_neg (by omega)]
        · rw [if_neg (by omega)]
          simp only [mixCh]
          rw [if_neg]
          rintro ⟨q, q2⟩
          have : (k / stride + 1) * stride ≤ base * stride := Nat.mul_le_mul_right _ h
          have e3 : (k / stride + 1) * stride = k / stride * stride + stride := by ring
          rcases Nat.eq_zero_or_pos stride with z | z
          · omega
          · have := Nat.mod_lt k z
            omega

theorem first_stays (s : Geo) (lfe : List Bool) (slots : Nat → Obj) (off len stride at_ : Nat)
    (inp : Nat → ℝ) (n : Nat) (r r' : Ren) (h : render s lfe slots off len stride at_ inp n r = some r') :
    (∀ o, r'.first o = if o < n then false else r.first o) := by
  induction n generalizing r' with
  | zero =>
    obtain rfl := Option.some.inj h
    intro o
    simp
  | succ n ih =>
    obtain ⟨r1, h1, h2⟩ := Option.bind_eq_some_iff.mp h
    simp only [object, Option.map_eq_some_iff] at h2
    obtain ⟨g, -, rfl⟩ := h2
    intro o
    simp only [ih r1 h1]
    rcases Nat.lt_trichotomy o n with q | q | q
    · rw [if_neg (by omega), if_pos q, if_pos (by omega)]
    · rw [if_pos q, if_pos (by omega)]
    · rw [if_neg (by omega), if_neg (by omega), if_neg (by omega)]

/-- C292: after the first frame of the objects (`first` is clear for the entries used), a sub-frame of
`len` samples at `at_` adds to sample `k % stride` of loudspeaker `k / stride` the sum of the samples of
the objects with their gains, which move in `len` equal steps from the gains that the sub-frame before
ended with to the gains of the metadata; LFE channels and samples outside of the sub-frame stay. The
gains are those that the next sub-frame begins with. -/
theorem C292_frame (s : Geo) (lfe : List Bool) (slots : Nat → Obj) (off len stride at_ : Nat)
    (inp : Nat → ℝ) (hs : at_ + len ≤ stride) (n : Nat) (r r' : Ren)
    (hf : ∀ o < n, r.first (off + o) = false ∨ n ≤ off)
    (h : render s lfe slots off len stride at_ inp n r = some r') :
    ∃ g : Nat → Nat → ℝ, (∀ o < n, finalGains s (slots (off + o)) = some (g o)) ∧
      (∀ k, r'.out k =
        if lfe[k / stride]? = some false ∧ at_ ≤ k % stride ∧ k % stride < at_ + len then
          r.out k + ∑ o ∈ range n, inp (o * stride + k % stride) *
            line (r.init o (place lfe (k / stride))) (g o (place lfe (k / stride))) len (k % stride - at_)
        else r.out k) ∧
      (∀ o < n, ∀ i < lfe.length - lfe.count true, r'.init o i = g o i) ∧
      (∀ o, n ≤ o → o < off → ∀ i, r'.init o i = r.init o i) := by
  suffices ∀ m ≤ n, ∀ r', render s lfe slots off len stride at_ inp m r = some r' →
      ∃ g : Nat → Nat → ℝ, (∀ o < m, finalGains s (slots (off + o)) = some (g o)) ∧
      (∀ k, r'.out k =
        if lfe[k / stride]? = some false ∧ at_ ≤ k % stride ∧ k % stride < at_ + len then
          r.out k + ∑ o ∈ range m, inp (o * stride + k % stride) *
            line (r.init o (place lfe (k / stride))) (g o (place lfe (k / stride))) len (k % stride - at_)
        else r.out k) ∧
      (∀ o < m, ∀ i < lfe.length - lfe.count true, r'.init o i = g o i) ∧
      (∀ o, m ≤ o → (o < off ∨ (o < n ∧ off ≤ o ∧ off < n)) → ∀ i, r'.init o i = r.init o i) by
    obtain ⟨g, h1, h2, h3, h4⟩ := this n (le_refl _) r' h
    exact ⟨g, h1, h2, h3, fun o ho ho' => h4 o ho (Or.inl ho')⟩
  intro m
  induction m with
  | zero =>
    intro _ r' h
    obtain rfl := Option.some.inj h
    refine ⟨fun _ _ => 0, by omega, fun k => ?_, by omega, fun o _ _ i => rfl⟩
    simp
  | succ m ih =>
    intro hm r' h
    obtain ⟨r1, h1, h2⟩ := Option.bind_eq_some_iff.mp h
    obtain ⟨g, g1, g2, g3, g4⟩ := ih (by omega) r1 h1
    simp only [object, Option.map_eq_some_iff] at h2
    obtain ⟨f, hf1, rfl⟩ := h2
    have fs := first_stays s lfe slots off len stride at_ inp m r r1 h1
    -- the entries of first gains that are written are not those of other objects
    have hw : ∀ o i, o < n ∨ o < off →
        (if r1.first (off + m) = true ∧ o = off + m ∧ i < s.nReal then f i else r1.init o i)
          = r1.init o i := by
      intro o i ho
      refine if_neg ?_
      rintro ⟨q, q', -⟩
      rw [fs] at q
      rcases hf m (by omega) with w | w
      · rw [w] at q
        simp at q
      · omega
    refine ⟨fun o => if o = m then f else g o, fun o ho => ?_, fun k => ?_, fun o ho i hi => ?_,
      fun o ho ho' i => ?_⟩
    · rcases Nat.lt_succ_iff_lt_or_eq.mp ho with q | rfl
      · simp only [if_neg (show o ≠ m by omega)]; exact g1 o q
      · simp only [if_true]; exact hf1
    · have := channels_spec (fun i => if r1.first (off + m) = true ∧ m = off + m ∧ i < s.nReal then f i
        else r1.init m i) f len stride (m * stride + at_) inp lfe 0 at_ hs 0 r1.out k
      simp only [Nat.zero_mul, Nat.zero_add, Nat.zero_le, true_and, Nat.sub_zero] at this
      simp only [this, g2 k]
      have hmi : ∀ i, r1.init m i = r.init m i := fun i => by
        rcases Nat.lt_or_ge m off with q | q
        · exact g4 m (le_refl _) (Or.inl q) i
        · exact g4 m (le_refl _) (Or.inr ⟨by omega, q, by omega⟩) i
      have hmi' := fun i => hw m i (Or.inl (by omega))
      by_cases q : lfe[k / stride]? = some false ∧ at_ ≤ k % stride ∧ k % stride < at_ + len
      · have e1 : (fun i => if r1.first (off + m) = true ∧ m = off + m ∧ i < s.nReal then f i
            else r1.init m i) = r.init m := by
          funext i
          rw [hmi' i, hmi i]
        have e2 := congrFun e1 (place lfe (k / stride))
        simp only [if_pos q, Finset.sum_range_succ, if_true]
        rw [e2]
        rw [show m * stride + at_ + (k % stride - at_) = m * stride + k % stride by omega]
        rw [add_assoc]
        congr 2
        refine Finset.sum_congr rfl fun o ho => ?_
        rw [if_neg (by have := Finset.mem_range.mp ho; omega)]
      · simp only [if_neg q]
    · rcases Nat.lt_succ_iff_lt_or_eq.mp ho with q | rfl
      · simp only [if_neg (show o ≠ m by omega), if_neg (show ¬ (o = m ∧ i < lfe.length - lfe.count true) by omega)]
        rw [hw o i (Or.inl (by omega))]
        exact g3 o q i hi
      · simp only [if_true, true_and, if_pos hi]
    · simp only [if_neg (show ¬ (o = m ∧ i < lfe.length - lfe.count true) by omega)]
      rw [hw o i (by omega)]
      exact g4 o (by omega) ho' i

/-- C292: the gain never jumps: from one sample to the next it moves by one step of the line, within a
sub-frame and (the end of the one before being the start of the next) from one sub-frame to the next. -/
theorem C292_step (g0 g1 : ℝ) (len j : Nat) :
    ramp g0 g1 len 0 - g0 = (g1 - g0) / len ∧
      ramp g0 g1 len (j + 1) - ramp g0 g1 len j = (g1 - g0) / len := by
  constructor
  · simp only [ramp]; ring
  · simp only [ramp]; ring

/-- C292: the first frame does not fade in: when the entry of the object is new, the gain is that of
the metadata from the first sample. -/
theorem C292_first (g : ℝ) {len : Nat} (j : Nat) : ramp g g len j = g := by
  rw [ramp_line, line]
  simp

/-! ## Metadata -/

/-- Specification: with the metadata `old` before the frame, the metadata of each sub-frame are the
last ones sent. -/
def latest {α : Type} : List (Option α) → α → List α
  | [], _ => []
  | none :: l, old => old :: latest l old
  | some m :: l, _ => m :: latest l m

theorem store_below {α : Type} (l : List (Option α)) (k : Nat) (slot : Nat → α) {i : Nat} (h : i ≤ k) :
    store l k slot i = slot i := by
  induction l generalizing k slot with
  | nil => rfl
  | cons a l ih =>
    cases a with
    | none => exact ih k slot h
    | some m => rw [store, ih (k + 1) _ (by omega), if_neg (by omega)]

/-- The rest of a frame: from a sub-frame that uses entry `k`, with room for the entries to come. -/
theorem used_rest {α : Type} (num : Nat) (l : List (Option α)) (i k : Nat) (hi : 0 < i)
    (hk : k + l.length ≤ num) (slot : Nat → α) :
    (numbers num (l.map Option.isSome) i k).map (store l k slot) = latest l (slot k) := by
  induction l generalizing i k slot with
  | nil => rfl
  | cons a l ih =>
    rw [List.length_cons] at hk
    cases a with
    | none =>
      simp only [List.map_cons, Option.isSome_none, numbers, latest, if_neg (show i ≠ 0 by omega), store]
      rw [store_below l k slot (le_refl _), ih (i + 1) k (by omega) (by omega)]
    | some m =>
      simp only [List.map_cons, Option.isSome_some, numbers, latest,
        if_neg (show ¬ num < k + 1 by omega), store]
      rw [store_below l (k + 1) _ (le_refl _), if_pos rfl, ih (i + 1) (k + 1) (by omega) (by omega),
        if_pos rfl]

/-- C293, what holds: when the first sub-frame of the frame has metadata, every sub-frame uses the last
ones sent, whatever the entries held. -/
theorem C293_first_partial {α : Type} (m : α) (l : List (Option α)) (slot : Nat → α) (old : α) :
    used (some m :: l) slot = latest (some m :: l) old := by
  simp only [used, List.length_cons, List.map_cons, Option.isSome_some, numbers, latest, store,
    if_neg (show ¬ l.length + 1 < 0 + 1 by omega)]
  rw [store_below l 1 _ (le_refl _), used_rest _ l 1 1 (by omega) (by omega)]
  simp

/-- A frame without metadata at its beginning uses the last entry until metadata come. -/
theorem used_none {α : Type} (l : List (Option α)) (slot : Nat → α) :
    used (none :: l) slot = latest (none :: l) (slot (l.length + 1)) := by
  have key : ∀ (l : List (Option α)) (num i : Nat), 0 < i → l.length < num →
      ∀ slot : Nat → α, (numbers num (l.map Option.isSome) i num).map (store l 0 slot)
        = latest l (slot num) ∧ store l 0 slot num = slot num := by
    intro l
    induction l with
    | nil => exact fun _ _ _ _ _ => ⟨rfl, rfl⟩
    | cons a l ih =>
      intro num i hi hl slot
      rw [List.length_cons] at hl
      cases a with
      | none =>
        obtain ⟨h1, h2⟩ := ih num (i + 1) (by omega) (by omega) slot
        simp only [List.map_cons, Option.isSome_none, numbers, latest, if_neg (show i ≠ 0 by omega),
          store, h1, h2, and_self]
      | some m =>
        have e : (num + 1) % num = 1 := by
          rw [Nat.add_mod_left]
          exact Nat.mod_eq_of_lt (by omega)
        have h2 : ∀ (l : List (Option α)) (k : Nat) (slot : Nat → α), k + l.length < num →
            store l k slot num = slot num := by
          intro l
          induction l with
          | nil => intros; rfl
          | cons a l ih =>
            intro k slot hk
            rw [List.length_cons] at hk
            cases a with
            | none => exact ih k slot (by omega)
            | some m => rw [store, ih (k + 1) _ (by omega), if_neg (by omega)]
        refine ⟨?_, h2 (some m :: l) 0 slot (by simpa using hl)⟩
        simp only [List.map_cons, Option.isSome_some, numbers, latest,
          if_pos (show num < num + 1 by omega), e, store]
        rw [store_below l 1 _ (le_refl _), if_pos rfl, used_rest num l (i + 1) 1 (by omega) (by omega),
          if_pos rfl]
  obtain ⟨h1, h2⟩ := key l (l.length + 1) 1 (by omega) (by omega) slot
  simp only [used, List.length_cons, List.map_cons, Option.isSome_none, numbers, latest, if_true, store]
  rw [h1, h2]

/-- C293, what holds: after a frame with metadata in every sub-frame, the next frame uses the last ones
sent, wherever it has metadata. -/
theorem C293_full_partial {α : Type} (ms : List α) (m : α) (next : List (Option α)) (slot : Nat → α)
    (hl : next.length = ms.length + 1) :
    used next (store ((ms ++ [m]).map some) 0 slot) = latest next m := by
  have key : ∀ (ms : List α) (k : Nat) (slot : Nat → α),
      store ((ms ++ [m]).map some) k slot (k + ms.length + 1) = m := by
    intro ms
    induction ms with
    | nil => intro k slot; simp [store]
    | cons a l ih =>
      intro k slot
      simp only [List.cons_append, List.map_cons, store, List.length_cons]
      rw [show k + (l.length + 1) + 1 = k + 1 + l.length + 1 by omega]
      exact ih (k + 1) _
  cases next with
  | nil => simp at hl
  | cons a next =>
    cases a with
    | some m' => exact C293_first_partial m' next _ m
    | none =>
      rw [used_none, show next.length + 1 = 0 + ms.length + 1 by simpa using hl, key]

/-- C293, refuted: that the metadata last sent are used until there are new ones. A frame of two
sub-frames has metadata in its first one only; the next frame, without metadata, is rendered with what
the second entry held before. -/
theorem C293_refuted : ¬ ∀ (a b : Nat) (slot : Nat → Nat) (f1 f2 : List (Option Nat)),
    f1.length = f2.length → f1.getLast? = some none → f1.head? = some (some a) →
    (latest f1 b).getLast? = some a → used f2 (store f1 0 slot) = latest f2 a := by
  intro h
  have := h 7 0 (fun _ => 0) [some 7, none] [none, none] rfl rfl rfl rfl
  revert this
  decide

/-- Metadata in some sub-frames. -/
example : used [some 1, none, some 2, none] (fun _ => 0) = [1, 1, 2, 2] := by decide

/-- A sub-frame that is rendered: hypotheses of C292. -/
example : ∃ r', render (coreInit axes) [false, false, false, true] (fun _ => ⟨0, 0, 1, 1, 0, 0, 0⟩) 0 4 8 0
    (fun _ => 1) 1 ⟨fun _ => false, fun _ _ => 0, fun _ => 0⟩ = some r' := by
  have hc : Displace.polCart ⟨Displace.rad 0, Displace.rad 0, 1⟩ = ⟨1, 0, 0⟩ := by
    simp [Displace.polCart, Displace.rad]
  have h : (finalGains (coreInit axes) ⟨0, 0, 1, 1, 0, 0, 0⟩).isSome := by
    refine C290_number axes (fun i _ => ?_) _ (le_refl _) (le_refl _) ?_
    · norm_num [axes, det]
    · simp only [cartDeg, hc]
      exact ⟨Or.inl one_ne_zero, 0, by decide, 1, 0, 0, by norm_num [axes]⟩
  obtain ⟨g, hg⟩ := Option.isSome_iff_exists.mp h
  simp only [render, Option.bind_some, object, hg, Option.map_some]
  exact ⟨_, rfl⟩

end Verif.ObjRen
