import Verif.Props.DmxGains
import Mathlib.Data.List.Basic
import Mathlib.Data.List.Perm.Basic

/-! # Pairs of loudspeakers and the elements of downmix matrices: C275, C276, C277, C285 -/

namespace Verif.Dmx

open Prog

/-! ## C275: the compact configuration -/

/-- The loudspeakers of an element of the compact configuration. -/
def Entry.members (e : Entry) : List Nat :=
  match e.kind with
  | .pair o => [e.pos, o]
  | _ => [e.pos]

private theorem partner_some {conf : List Speaker.Geo} {used : List Nat} {i j : Nat} (h : partner conf used i = some j) :
    i < j ∧ j < conf.length ∧ j ∉ used ∧ mirrored (spkAt conf i) (spkAt conf j) = true := by
  unfold partner at h
  have h1 := List.find?_some h
  have h2 := List.mem_of_find?_eq_some h
  simp only [Bool.and_eq_true, decide_eq_true_eq, Bool.not_eq_true', List.contains_eq_mem, decide_eq_false_iff_not] at h1
  exact ⟨h1.1.1, List.mem_range.1 h2, h1.1.2, h1.2⟩

private theorem partner_none {conf : List Speaker.Geo} {used : List Nat} {i j : Nat} (h : partner conf used i = none) (h1 : i < j) (h2 : j < conf.length) (h3 : j ∉ used) :
    mirrored (spkAt conf i) (spkAt conf j) = false := by
  unfold partner at h
  have := List.find?_eq_none.1 h j (List.mem_range.2 h2)
  simp only [Bool.and_eq_true, decide_eq_true_eq, Bool.not_eq_true', List.contains_eq_mem, decide_eq_false_iff_not, not_and, Bool.not_eq_true] at this
  exact this ⟨h1, h3⟩

private theorem loop_members (conf : List Speaker.Geo) (n i : Nat) (used : List Nat) (hn : i + n = conf.length) :
    ((compactLoop conf n i used).flatMap Entry.members).Nodup ∧
      ∀ p, p ∈ (compactLoop conf n i used).flatMap Entry.members ↔ i ≤ p ∧ p < conf.length ∧ p ∉ used := by
  induction n generalizing i used with
  | zero => simp [compactLoop]; omega
  | succ n ih =>
    unfold compactLoop
    split
    · rename_i hu
      have hu : i ∈ used := by simpa using hu
      obtain ⟨a, b⟩ := ih (i + 1) used (by omega)
      refine ⟨a, fun p => ?_⟩
      rw [b]
      constructor
      · rintro ⟨h1, h2, h3⟩; exact ⟨by omega, h2, h3⟩
      · rintro ⟨h1, h2, h3⟩
        have : p ≠ i := fun e => h3 (e ▸ hu)
        exact ⟨by omega, h2, h3⟩
    · rename_i hu
      have hu : i ∉ used := by simpa using hu
      have one : ∀ k : Kind, (∀ o, k ≠ .pair o) → ∀ f : Nat,
          ((⟨i, k, f⟩ :: compactLoop conf n (i + 1) (i :: used)).flatMap Entry.members).Nodup ∧
            ∀ p, p ∈ (⟨i, k, f⟩ :: compactLoop conf n (i + 1) (i :: used)).flatMap Entry.members ↔ i ≤ p ∧ p < conf.length ∧ p ∉ used := by
        intro k hk f
        obtain ⟨a, b⟩ := ih (i + 1) (i :: used) (by omega)
        have hm : Entry.members ⟨i, k, f⟩ = [i] := by
          unfold Entry.members
          cases k with
          | pair o => exact absurd rfl (hk o)
          | centre => rfl
          | single => rfl
        rw [List.flatMap_cons, hm, List.singleton_append]
        refine ⟨List.nodup_cons.2 ⟨?_, a⟩, fun p => ?_⟩
        · rw [b]; simp
        · rw [List.mem_cons, b]
          simp only [List.mem_cons, not_or]
          constructor
          · rintro (rfl | ⟨h1, h2, h3, h4⟩)
            · exact ⟨by omega, by omega, hu⟩
            · exact ⟨by omega, h2, h4⟩
          · rintro ⟨h1, h2, h3⟩
            by_cases e : p = i
            · exact Or.inl e
            · exact Or.inr ⟨by omega, h2, e, h3⟩
      split
      · exact one _ (by simp) _
      · split
        · rename_i j hj
          obtain ⟨h1, h2, h3, h4⟩ := partner_some hj
          obtain ⟨a, b⟩ := ih (i + 1) (j :: i :: used) (by omega)
          have hm : Entry.members (if 0 < (spkAt conf i).az then ⟨i, .pair j, (spkAt conf i).lfe⟩ else ⟨j, .pair i, (spkAt conf j).lfe⟩ : Entry) = [i, j] ∨
              Entry.members (if 0 < (spkAt conf i).az then ⟨i, .pair j, (spkAt conf i).lfe⟩ else ⟨j, .pair i, (spkAt conf j).lfe⟩ : Entry) = [j, i] := by
            split
            · exact Or.inl rfl
            · exact Or.inr rfl
          have hi' : i ∉ (compactLoop conf n (i + 1) (j :: i :: used)).flatMap Entry.members := by rw [b]; simp
          have hj' : j ∉ (compactLoop conf n (i + 1) (j :: i :: used)).flatMap Entry.members := by rw [b]; simp
          have hmem : ∀ p, (p = i ∨ p = j ∨ p ∈ (compactLoop conf n (i + 1) (j :: i :: used)).flatMap Entry.members) ↔ i ≤ p ∧ p < conf.length ∧ p ∉ used := by
            intro p
            rw [b]
            simp only [List.mem_cons, not_or]
            constructor
            · rintro (rfl | rfl | ⟨h1, h2, h3, h4, h5⟩)
              · exact ⟨by omega, by omega, hu⟩
              · exact ⟨by omega, h2, h3⟩
              · exact ⟨by omega, h2, h5⟩
            · rintro ⟨h1, h2, h3⟩
              by_cases e : p = i
              · exact Or.inl e
              · by_cases e' : p = j
                · exact Or.inr (Or.inl e')
                · exact Or.inr (Or.inr ⟨by omega, h2, e', e, h3⟩)
          rw [List.flatMap_cons]
          rcases hm with hm | hm <;> rw [hm]
          · refine ⟨?_, fun p => ?_⟩
            · simp only [List.cons_append, List.nil_append, List.nodup_cons, List.mem_cons, not_or]
              exact ⟨⟨by omega, hi'⟩, hj', a⟩
            · rw [← hmem]; simp
          · refine ⟨?_, fun p => ?_⟩
            · simp only [List.cons_append, List.nil_append, List.nodup_cons, List.mem_cons, not_or]
              exact ⟨⟨by omega, hj'⟩, hi', a⟩
            · rw [← hmem]; simp [or_left_comm]
        · exact one _ (by simp) _

/-- C275: every loudspeaker is in exactly one element of the compact configuration. -/
theorem C275_partition (conf : List Speaker.Geo) : ((compact conf).flatMap Entry.members).Perm (List.range conf.length) := by
  obtain ⟨a, b⟩ := loop_members conf conf.length 0 [] (by omega)
  refine (List.perm_ext_iff_of_nodup a List.nodup_range).2 fun p => ?_
  have hb := b p
  rw [hb, List.mem_range]
  simp

/-- C275: what the elements are: a loudspeaker in the middle, a pair with the left one first, or a loudspeaker that is not in the middle. -/
theorem C275_kinds (conf : List Speaker.Geo) (e : Entry) (he : e ∈ compact conf) :
    e.lfe = (spkAt conf e.pos).lfe ∧
    match e.kind with
    | .centre => (spkAt conf e.pos).az = 0 ∨ (spkAt conf e.pos).az = 180 ∨ (spkAt conf e.pos).az = -180
    | .single => (spkAt conf e.pos).az ≠ 0 ∧ (spkAt conf e.pos).az ≠ 180 ∧ (spkAt conf e.pos).az ≠ -180
    | .pair o => 0 < (spkAt conf e.pos).az ∧ (spkAt conf o).az = -(spkAt conf e.pos).az ∧ (spkAt conf o).el = (spkAt conf e.pos).el ∧
        (spkAt conf o).lfe = (spkAt conf e.pos).lfe := by
  have key : ∀ n i used, e ∈ compactLoop conf n i used → e.lfe = (spkAt conf e.pos).lfe ∧
    match e.kind with
    | .centre => (spkAt conf e.pos).az = 0 ∨ (spkAt conf e.pos).az = 180 ∨ (spkAt conf e.pos).az = -180
    | .single => (spkAt conf e.pos).az ≠ 0 ∧ (spkAt conf e.pos).az ≠ 180 ∧ (spkAt conf e.pos).az ≠ -180
    | .pair o => 0 < (spkAt conf e.pos).az ∧ (spkAt conf o).az = -(spkAt conf e.pos).az ∧ (spkAt conf o).el = (spkAt conf e.pos).el ∧
        (spkAt conf o).lfe = (spkAt conf e.pos).lfe := by
    intro n
    induction n with
    | zero => intro i used h; simp [compactLoop] at h
    | succ n ih =>
      intro i used h
      unfold compactLoop at h
      split at h
      · exact ih _ _ h
      · split at h
        · rename_i hm
          rcases List.mem_cons.1 h with rfl | h
          · refine ⟨rfl, ?_⟩
            simp only [middle, Bool.or_eq_true, decide_eq_true_eq] at hm
            simp only
            omega
          · exact ih _ _ h
        · rename_i hm
          simp only [middle, Bool.or_eq_true, decide_eq_true_eq, not_or] at hm
          split at h
          · rename_i j hj
            obtain ⟨h1, h2, h3, h4⟩ := partner_some hj
            simp only [mirrored, Bool.and_eq_true, decide_eq_true_eq] at h4
            rcases List.mem_cons.1 h with h | h
            · split at h
              · subst h
                exact ⟨rfl, by assumption, by simp only; omega, by simp only; omega, by simp only; omega⟩
              · subst h
                exact ⟨rfl, by simp only; omega, by simp only; omega, by simp only; omega, by simp only; omega⟩
            · exact ih _ _ h
          · rcases List.mem_cons.1 h with rfl | h
            · exact ⟨rfl, hm.1.1, hm.1.2, hm.2⟩
            · exact ih _ _ h
  exact key _ _ _ he

/-- C275: of two single loudspeakers neither is the mirror image of the other. -/
theorem C275_greedy (conf : List Speaker.Geo) :
    (compact conf).Pairwise fun e f => e.kind = .single → f.kind = .single →
      ¬ ((spkAt conf e.pos).az = -(spkAt conf f.pos).az ∧ (spkAt conf e.pos).el = (spkAt conf f.pos).el ∧ (spkAt conf e.pos).lfe = (spkAt conf f.pos).lfe) := by
  have key : ∀ n i used, i + n = conf.length → (compactLoop conf n i used).Pairwise fun e f => e.kind = .single → f.kind = .single →
      ¬ ((spkAt conf e.pos).az = -(spkAt conf f.pos).az ∧ (spkAt conf e.pos).el = (spkAt conf f.pos).el ∧ (spkAt conf e.pos).lfe = (spkAt conf f.pos).lfe) := by
    intro n
    induction n with
    | zero => intro i used _; exact List.Pairwise.nil
    | succ n ih =>
      intro i used hn
      unfold compactLoop
      split
      · exact ih _ _ (by omega)
      · split
        · exact List.pairwise_cons.2 ⟨fun f hf h => by simp at h, ih _ _ (by omega)⟩
        · split
          · refine List.pairwise_cons.2 ⟨fun f hf h => ?_, ih _ _ (by omega)⟩
            split at h <;> simp at h
          · rename_i hp
            refine List.pairwise_cons.2 ⟨fun f hf _ hk => ?_, ih _ _ (by omega)⟩
            have hmem : f.pos ∈ (compactLoop conf n (i + 1) (i :: used)).flatMap Entry.members := by
              refine List.mem_flatMap.2 ⟨f, hf, ?_⟩
              unfold Entry.members
              rw [hk]
              simp
            obtain ⟨h1, h2, h3⟩ := ((loop_members conf n (i + 1) (i :: used) (by omega)).2 f.pos).1 hmem
            have := partner_none hp (j := f.pos) (by omega) h2 (fun h => h3 (List.mem_cons_of_mem _ h))
            rintro ⟨e1, e2, e3⟩
            simp [mirrored, e1, e2, e3] at this
  exact key _ _ _ (by omega)

example : compact [⟨30, 0, 0, 0⟩, ⟨-30, 0, 0, 0⟩, ⟨0, 0, 0, 0⟩, ⟨0, 0, 1, 0⟩, ⟨-110, 0, 0, 0⟩, ⟨110, 0, 0, 0⟩, ⟨45, 35, 0, 0⟩] =
    [⟨0, .pair 1, 0⟩, ⟨2, .centre, 0⟩, ⟨3, .centre, 1⟩, ⟨5, .pair 4, 0⟩, ⟨6, .single, 0⟩] := by decide

/-! ## C276, C277 and C285: the elements -/

/-- The gains that are sent for an element of the compact matrix, in this order. -/
def sent (full : Bool) (sep sym : Nat) (a b : Entry) : List (Nat × Nat) :=
  match a.kind, b.kind with
  | .pair a2, .pair b2 => (a.pos, b.pos) :: ((if sep = 0 then [(a.pos, b2)] else []) ++ (if sep = 0 ∧ sym = 0 then [(a2, b.pos)] else []) ++ (if sym = 0 then [(a2, b2)] else []))
  | .pair a2, _ => (a.pos, b.pos) :: (if sym = 0 then [(a2, b.pos)] else [])
  | .single, .pair b2 => (a.pos, b.pos) :: (if sym = 0 ∨ full = true then [(a.pos, b2)] else [])
  | .centre, .pair b2 => (a.pos, b.pos) :: (if sym = 0 then [(a.pos, b2)] else [])
  | _, _ => [(a.pos, b.pos)]

/-- What the flags say about the gains: separable pairs are not mixed crosswise, symmetric ones are their mirror image. -/
def Obeys (M : Nat → Nat → ℚ) (full : Bool) (sep sym : Nat) (a b : Entry) : Prop :=
  match a.kind, b.kind with
  | .pair a2, .pair b2 => (sep ≠ 0 → M a.pos b2 = -256 ∧ M a2 b.pos = -256) ∧ (sym ≠ 0 → M a2 b2 = M a.pos b.pos ∧ M a2 b.pos = M a.pos b2)
  | .pair a2, _ => sym ≠ 0 → M a2 b.pos = M a.pos b.pos
  | .single, .pair b2 => sym ≠ 0 → full = false → M a.pos b2 = M a.pos b.pos
  | .centre, .pair b2 => sym ≠ 0 → M a.pos b2 = M a.pos b.pos
  | _, _ => True

/-- The two loudspeakers of a pair are two. -/
def Entry.Two (e : Entry) : Prop := ∀ o, e.kind = .pair o → e.pos ≠ o

theorem put_eq {β : Type} (d : Nat → Nat → β) (i j x y : Nat) (v : β) : put d i j v x y = if x = i ∧ y = j then v else d x y := rfl

/-- One element is read back, and the others are left alone. -/
theorem run_cell (gain : Prog ℚ) (enc : ℚ → List Bool) (M : Nat → Nat → ℚ) (full : Bool) (sep sym bit : Nat) (a b : Entry) (d : Nat → Nat → ℚ)
    (ha : a.Two) (hb : b.Two) (hM : Obeys M full sep sym a b) (hz : bit = 0 → ∀ x ∈ a.members, ∀ y ∈ b.members, M x y = -256)
    (hg : bit ≠ 0 → ∀ x ∈ a.members, ∀ y ∈ b.members, ∀ l, run gain (enc (M x y) ++ l) = .ok (M x y, l)) (l : List Bool) :
    ∃ d', run (cell gain full sep sym bit a b d) ((if bit = 0 then [] else (sent full sep sym a b).flatMap fun q => enc (M q.1 q.2)) ++ l) = .ok (d', l) ∧
      (∀ x ∈ a.members, ∀ y ∈ b.members, d' x y = M x y) ∧ ∀ x y, ¬ (x ∈ a.members ∧ y ∈ b.members) → d' x y = d x y := by
  obtain ⟨ap, ak, al⟩ := a
  obtain ⟨bp, bk, bl⟩ := b
  have r : bit ≠ 0 → ∀ x ∈ (⟨ap, ak, al⟩ : Entry).members, ∀ y ∈ (⟨bp, bk, bl⟩ : Entry).members, ∀ (f : ℚ → Prog (Nat → Nat → ℚ)) l, run (gain >>= f) (enc (M x y) ++ l) = run (f (M x y)) l := by
    intro h x hx y hy f l
    rw [run_bind, hg h x hx y hy]; rfl
  by_cases h0 : bit = 0
  · have hz := hz h0
    subst h0
    cases ak <;> cases bk <;>
      (simp only [cell, sent, Obeys, Entry.members, List.mem_cons, List.not_mem_nil, or_false, forall_eq_or_imp, forall_eq] at *
       simp only [if_true, List.nil_append, run_pure]
       refine ⟨_, rfl, ?_, ?_⟩ <;> simp only [put_eq, silent])
    all_goals first
      | (intro x y h; simp only [not_and_or, not_or] at h; grind)
      | grind
  · have hb1 := r h0
    have ha' : ∀ o, ak = .pair o → ap ≠ o := ha
    have hb' : ∀ o, bk = .pair o → bp ≠ o := hb
    rw [if_neg h0]
    clear hz hg r ha hb
    cases ak <;> cases bk <;>
      simp only [cell, sent, Obeys, Entry.members, List.mem_cons, List.not_mem_nil, or_false, forall_eq_or_imp, forall_eq, if_neg h0] at * <;>
      by_cases h1 : sym = 0 <;> by_cases h2 : sep = 0 <;> cases full <;>
      simp only [h1, h2, ne_eq, not_true_eq_false, not_false_eq_true, and_true, and_false, and_self, or_true, or_false, or_self, if_true, if_false,
        List.flatMap_cons, List.flatMap_nil, List.append_nil, List.nil_append, List.cons_append, List.append_assoc, reduceCtorEq, Bool.false_eq_true, run_pure, hb1] <;>
      refine ⟨_, rfl, ?_, ?_⟩ <;> simp only [put_eq, silent] <;> grind

/-- A loop each round of which reads back what is written for it. -/
theorem run_foldN_enc {σ : Type} (f : Nat → σ → Prog σ) (enc : Nat → List Bool) (I : Nat → σ → Prop) (k i : Nat) (s : σ) (hs : I i s)
    (h : ∀ j s, i ≤ j → j < i + k → I j s → ∀ l, ∃ s', run (f j s) (enc j ++ l) = .ok (s', l) ∧ I (j + 1) s') (l : List Bool) :
    ∃ s', run (foldN f k i s) ((List.range' i k).flatMap enc ++ l) = .ok (s', l) ∧ I (i + k) s' := by
  induction k generalizing i s with
  | zero => exact ⟨s, rfl, hs⟩
  | succ k ih =>
    rw [List.range'_succ, List.flatMap_cons, List.append_assoc]
    obtain ⟨s1, e1, h1⟩ := h i s (by omega) (by omega) hs ((List.range' (i + 1) k).flatMap enc ++ l)
    obtain ⟨s2, e2, h2⟩ := ih (i + 1) s1 h1 fun j t a b => h j t (by omega) (by omega)
    refine ⟨s2, ?_, ?_⟩
    · unfold foldN
      rw [run_bind, e1]
      simp only [Res.ok_bind]
      exact e2
    · rw [show i + (k + 1) = i + 1 + k by omega]; exact h2

/-- Elements that cover the numbers below `n` once each. -/
def Covers (es : List Entry) (n : Nat) : Prop := (es.flatMap Entry.members).Perm (List.range n)

theorem entryAt_eq (es : List Entry) (i : Nat) (h : i < es.length) : entryAt es i = es[i] := by
  unfold entryAt; rw [List.getD_eq_getElem?_getD, List.getElem?_eq_getElem h]; rfl

theorem Covers.mem {es : List Entry} {n : Nat} (h : Covers es n) (x : Nat) : x < n ↔ ∃ i, i < es.length ∧ x ∈ (entryAt es i).members := by
  rw [← List.mem_range, ← h.mem_iff, List.mem_flatMap]
  constructor
  · rintro ⟨e, he, hx⟩
    obtain ⟨i, hi, rfl⟩ := List.mem_iff_getElem.1 he
    exact ⟨i, hi, by rw [entryAt_eq es i hi]; exact hx⟩
  · rintro ⟨i, hi, hx⟩
    rw [entryAt_eq es i hi] at hx
    exact ⟨_, List.getElem_mem hi, hx⟩

theorem Covers.unique {es : List Entry} {n : Nat} (h : Covers es n) {i j x : Nat} (hi : i < es.length) (hj : j < es.length)
    (h1 : x ∈ (entryAt es i).members) (h2 : x ∈ (entryAt es j).members) : i = j := by
  have hn : (es.flatMap Entry.members).Nodup := h.nodup_iff.2 List.nodup_range
  have hp := (List.nodup_flatMap.1 hn).2
  rw [List.pairwise_iff_getElem] at hp
  rw [entryAt_eq es i hi] at h1
  rw [entryAt_eq es j hj] at h2
  rcases Nat.lt_trichotomy i j with hlt | rfl | hlt
  · exact absurd h2 (hp i j hi hj hlt h1)
  · rfl
  · exact absurd h1 (hp j i hj hi hlt h2)

theorem Covers.two {es : List Entry} {n : Nat} (h : Covers es n) {i : Nat} (hi : i < es.length) : (entryAt es i).Two := by
  have hn : (es.flatMap Entry.members).Nodup := h.nodup_iff.2 List.nodup_range
  have := (List.nodup_flatMap.1 hn).1 _ (List.getElem_mem hi)
  rw [← entryAt_eq es i hi] at this
  intro o ho
  unfold Entry.members at this
  rw [ho] at this
  simpa using this

/-- The bits of all elements. -/
def cellBits (enc : ℚ → List Bool) (M : Nat → Nat → ℚ) (full : Bool) (f : Flags) (s : Sides) (P : Nat → Nat → Nat) : List Bool :=
  (List.range' 0 s.ins.length).flatMap fun i => (List.range' 0 s.outs.length).flatMap fun j =>
    if P i j = 0 then [] else (sent full (f.sep.getD j 0) (f.sym.getD j 0) (entryAt s.ins i) (entryAt s.outs j)).flatMap fun q => enc (M q.1 q.2)

/-- A matrix that the flags and the places allow. -/
structure Allowed (M : Nat → Nat → ℚ) (full : Bool) (f : Flags) (s : Sides) (P : Nat → Nat → Nat) : Prop where
  obeys : ∀ i j, i < s.ins.length → j < s.outs.length → Obeys M full (f.sep.getD j 0) (f.sym.getD j 0) (entryAt s.ins i) (entryAt s.outs j)
  empty : ∀ i j, i < s.ins.length → j < s.outs.length → P i j = 0 → ∀ x ∈ (entryAt s.ins i).members, ∀ y ∈ (entryAt s.outs j).members, M x y = -256

/-- C277: the elements of a matrix are read back. -/
theorem C277_elements (gain : Prog ℚ) (enc : ℚ → List Bool) (M : Nat → Nat → ℚ) (full : Bool) (f : Flags) (s : Sides) (P m : Nat → Nat → Nat) (d : Nat → Nat → ℚ) (nIn nOut : Nat)
    (hin : Covers s.ins nIn) (hout : Covers s.outs nOut) (hM : Allowed M full f s P) (hm : ∀ i j, i < s.ins.length → j < s.outs.length → m i j = P i j)
    (hg : ∀ x y, x < nIn → y < nOut → ∀ l, run gain (enc (M x y) ++ l) = .ok (M x y, l)) (l : List Bool) :
    ∃ d', run (cells gain full f s m d) (cellBits enc M full f s P ++ l) = .ok (d', l) ∧ ∀ x y, x < nIn → y < nOut → d' x y = M x y := by
  unfold cells cellBits
  obtain ⟨d', h1, h2⟩ := run_foldN_enc (fun i d => foldN (fun j d => cell gain full (f.sep.getD j 0) (f.sym.getD j 0) (m i j) (entryAt s.ins i) (entryAt s.outs j) d) s.outs.length 0 d)
    (fun i => (List.range' 0 s.outs.length).flatMap fun j =>
      if P i j = 0 then [] else (sent full (f.sep.getD j 0) (f.sym.getD j 0) (entryAt s.ins i) (entryAt s.outs j)).flatMap fun q => enc (M q.1 q.2))
    (fun i d => ∀ i', i' < i → ∀ x ∈ (entryAt s.ins i').members, ∀ y, y < nOut → d x y = M x y) s.ins.length 0 d (fun i' h => by omega)
    (fun i d _ hi hd l => by
      obtain ⟨d', h1, h2⟩ := run_foldN_enc (fun j d => cell gain full (f.sep.getD j 0) (f.sym.getD j 0) (m i j) (entryAt s.ins i) (entryAt s.outs j) d)
        (fun j => if P i j = 0 then [] else (sent full (f.sep.getD j 0) (f.sym.getD j 0) (entryAt s.ins i) (entryAt s.outs j)).flatMap fun q => enc (M q.1 q.2))
        (fun j d => (∀ i', i' < i → ∀ x ∈ (entryAt s.ins i').members, ∀ y, y < nOut → d x y = M x y) ∧
          ∀ j', j' < j → ∀ x ∈ (entryAt s.ins i).members, ∀ y ∈ (entryAt s.outs j').members, d x y = M x y) s.outs.length 0 d ⟨hd, fun j' h => by omega⟩
        (fun j d _ hj hd l => by
          rw [hm i j (by omega) (by omega)]
          have hi' : i < s.ins.length := by omega
          have hj' : j < s.outs.length := by omega
          obtain ⟨d', h1, h2, h3⟩ := run_cell gain enc M full (f.sep.getD j 0) (f.sym.getD j 0) (P i j) (entryAt s.ins i) (entryAt s.outs j) d (hin.two hi') (hout.two hj')
            (hM.obeys i j hi' hj') (fun h => hM.empty i j hi' hj' h)
            (fun _ x hx y hy l => hg x y ((hin.mem x).2 ⟨i, hi', hx⟩) ((hout.mem y).2 ⟨j, hj', hy⟩) l) l
          refine ⟨d', h1, fun i' hi1 x hx y hy => ?_, fun j1 hj1 x hx y hy => ?_⟩
          · rw [h3 x y fun h => by have := hin.unique (by omega) hi' hx h.1; omega]
            exact hd.1 i' hi1 x hx y hy
          · by_cases e : j1 = j
            · subst e; exact h2 x hx y hy
            · rw [h3 x y fun h => by have := hout.unique (by omega) hj' hy h.2; omega]
              exact hd.2 j1 (by omega) x hx y hy) l
      refine ⟨d', h1, fun i' hi1 x hx y hy => ?_⟩
      by_cases e : i' = i
      · subst e
        obtain ⟨j, hj, hyj⟩ := (hout.mem y).1 hy
        exact h2.2 j (by omega) x hx y hyj
      · exact h2.1 i' (by omega) x hx y hy) l
  refine ⟨d', h1, fun x y hx hy => ?_⟩
  obtain ⟨i, hi, hxi⟩ := (hin.mem x).1 hx
  exact h2 i (by omega) x hxi y hy

/-! ### The whole matrix -/

/-- An escape coded number of at most two parts. -/
def escBits (b1 b2 v : Nat) : List Bool := if v < 2 ^ b1 - 1 then natBits b1 v else natBits b1 (2 ^ b1 - 1) ++ natBits b2 (v - (2 ^ b1 - 1))

theorem run_escBits {β : Type} (b1 b2 v : Nat) (h1 : b1 ≤ 24) (h2 : b2 ≤ 24) (hp : 0 < b1) (hv : v ≤ 2 ^ b1 - 1 + (2 ^ b2 - 1)) (g : Nat → Prog β) (l : List Bool) :
    run (readEscape b1 b2 0 >>= g) (escBits b1 b2 v ++ l) = run (g v) l := by
  have p1 : 2 ^ b1 ≤ 2 ^ 24 := Nat.pow_le_pow_right (by omega) h1
  have p2 : 2 ^ b2 ≤ 2 ^ 24 := Nat.pow_le_pow_right (by omega) h2
  have q1 : 0 < 2 ^ b1 := Nat.two_pow_pos _
  have q2 : 0 < 2 ^ b2 := Nat.two_pow_pos _
  have e1 : WBuf.escMax b1 = .ok (2 ^ b1 - 1) := by unfold WBuf.escMax; rw [if_pos (by omega)]
  have e2 : WBuf.escMax b2 = .ok (2 ^ b2 - 1) := by unfold WBuf.escMax; rw [if_pos (by omega)]
  unfold readEscape escBits
  rw [e1, e2]
  simp only [Prog.lift]
  change run ((bits b1 >>= _) >>= g) _ = _
  rw [bind_assoc]
  split
  · rename_i h
    rw [run_bits_bind b1 v _ _ h1 (by omega), if_neg (by omega)]; rfl
  · rename_i h
    rw [List.append_assoc, run_bits_bind b1 _ _ _ h1 (by omega), if_pos rfl]
    rw [bind_assoc, run_bits_bind b2 _ _ _ h2 (by omega)]
    split
    · rename_i h'
      rw [bind_assoc]
      have := run_bits_bind 0 0 (fun v => (pure ((v + (2 ^ b2 - 1) + (2 ^ b1 - 1)) % 2 ^ 32) : Prog Nat) >>= g) l (by omega) (by omega)
      rw [show natBits 0 0 ++ l = l from rfl] at this
      rw [this]
      change run (g _) l = _
      congr 2
      rw [Nat.mod_eq_of_lt (by omega)]; omega
    · change run (g _) l = _
      congr 2
      rw [Nat.mod_eq_of_lt (by omega)]; omega

/-- How the gains are coded: the writer of one gain. -/
inductive Coding where
  | raw
  | table (lg : Nat)

def Coding.bits : Coding → List Bool
  | .raw => natBits 1 1
  | .table lg => natBits 1 0 ++ natBits 3 lg

/-- The bits of a gain of the table. -/
def Coding.gain (lo hi prec : Nat) : Coding → ℚ → List Bool
  | .raw, g => rangeBits ((lo + hi) * 2 ^ prec + 2) (if g = -256 then (lo + hi) * 2 ^ prec + 1 else ((hi - g) * 2 ^ prec).num.toNat)
  | .table lg, g => tableBits ((lo + hi) * 2 ^ prec + 2) lg ((gainTable lo hi prec).idxOf g)

/-- Every gain of the table is read back however it is coded. -/
theorem run_coding (st : Stale) (lo hi prec : Nat) (c : Coding) (hp : prec ≤ 2) (hlo : lo < 256) (hhi : hi < 256) (hf : (lo + hi) * 2 ^ prec ≤ 272)
    (hc : ∀ lg, c = .table lg → lg ≤ 7) (f : Coder → Prog Out) (l : List Bool) :
    ∃ k, run (coder lo hi prec >>= f) (c.bits ++ l) = run (f k) l ∧
      ∀ g, g ∈ gainTable lo hi prec → ∀ l, run (decodeGain st k) (c.gain lo hi prec g ++ l) = .ok (g, l) := by
  have hlen := C279_length lo hi prec hp
  cases c with
  | raw =>
    refine ⟨⟨lo, hi, prec, true, 0, []⟩, ?_, fun g hg l => ?_⟩
    · unfold coder Coding.bits
      rw [bind_assoc, run_bits_bind 1 1 _ _ (by omega) (by omega), if_pos (by omega)]; rfl
    · obtain ⟨k, hk, rfl⟩ := (C280_same lo hi prec hp g).1 hg
      have := C280_raw st lo hi prec k [] hk (by omega) 0 l
      have hpos : (0 : ℚ) < 2 ^ prec := by positivity
      have hcode : (if rawGain lo hi prec k = -256 then (lo + hi) * 2 ^ prec + 1 else (((hi : ℚ) - rawGain lo hi prec k) * 2 ^ prec).num.toNat) = k := by
        by_cases h : k = (lo + hi) * 2 ^ prec + 1
        · have : rawGain lo hi prec k = -256 := by unfold rawGain; rw [if_pos h]
          rw [if_pos this, h]
        · have hr : rawGain lo hi prec k = (hi : ℚ) - (k : ℚ) / 2 ^ prec := by unfold rawGain; rw [if_neg h]
          rw [if_neg, hr]
          · have : ((hi : ℚ) - ((hi : ℚ) - (k : ℚ) / 2 ^ prec)) * 2 ^ prec = ((k : ℕ) : ℚ) := by field_simp; ring
            rw [this]; simp
          · rw [hr]
            intro he
            have hkq : (k : ℚ) / 2 ^ prec ≤ lo + hi := by
              rw [div_le_iff₀ hpos]
              have : k ≤ (lo + hi) * 2 ^ prec := by omega
              exact_mod_cast this
            have hl : (lo : ℚ) < 256 := by exact_mod_cast hlo
            linarith
      simp only [Coding.gain, hcode]; exact this
  | table lg =>
    have hlg := hc lg rfl
    refine ⟨⟨lo, hi, prec, false, lg, gainTable lo hi prec⟩, ?_, fun g hg l => ?_⟩
    · unfold coder Coding.bits
      rw [bind_assoc, List.append_assoc, run_bits_bind 1 0 _ _ (by omega) (by omega), if_neg (by omega), bind_assoc, run_bits_bind 3 lg _ _ (by omega) (by omega),
        if_neg (by omega)]; rfl
    · have hidx := List.idxOf_lt_length_of_mem hg
      have := C280_table st lo hi prec lg _ hlg hidx hp hlo l
      rw [hlen] at this
      unfold Coding.gain
      rw [this, List.getD_eq_getElem?_getD, List.getElem?_eq_getElem hidx]
      simp

/-- What is chosen when a matrix is written. -/
structure Choice where
  prec : Nat
  lo : Nat
  hi : Nat
  sep : List Nat
  sym : List Nat
  lfeOnly : Nat
  places : Nat → Nat → Nat
  full : Bool
  coding : Coding

/-- The flags of separable outputs: only those of pairs are sent. -/
def sepBits (outs : List Entry) (sep : List Nat) : List Bool :=
  (List.range' 0 outs.length).flatMap fun j => match (entryAt outs j).kind with
    | .pair _ => natBits 1 (sep.getD j 0)
    | _ => []

/-- The places, one bit each. -/
def placeBits (s : Sides) (lfeOnly : Nat) (P : Nat → Nat → Nat) : List Bool :=
  (List.range' 0 s.ins.length).flatMap fun i => (List.range' 0 s.outs.length).flatMap fun j =>
    if lfeOnly = 0 ∨ (entryAt s.ins i).lfe = (entryAt s.outs j).lfe then natBits 1 (P i j) else []

/-- A whole matrix without equalisers. -/
def matrixBits (s : Sides) (c : Choice) (M : Nat → Nat → ℚ) : List Bool :=
  natBits 1 0 ++ (natBits 2 c.prec ++ (escBits 3 4 c.hi ++ (escBits 4 5 (c.lo - 1) ++ (natBits 1 0 ++ (sepBits s.outs c.sep ++ (natBits 1 0 ++ (c.sym.flatMap (natBits 1) ++
    (natBits 1 c.lfeOnly ++ (natBits 1 1 ++ (placeBits s c.lfeOnly c.places ++ (natBits 1 c.full.toNat ++ (c.coding.bits ++
      cellBits (c.coding.gain c.lo c.hi c.prec) M c.full ⟨c.sep, c.sym⟩ s c.places))))))))))))

/-- What can be written. -/
structure Choice.Valid (c : Choice) (s : Sides) : Prop where
  prec : c.prec ≤ 2
  lo : 1 ≤ c.lo ∧ c.lo ≤ 47
  hi : c.hi ≤ 22
  fits : (c.lo + c.hi) * 2 ^ c.prec ≤ 272
  sepLen : c.sep.length = s.outs.length
  sep : ∀ j, j < s.outs.length → c.sep.getD j 0 < 2 ∧ ((∀ o, (entryAt s.outs j).kind ≠ .pair o) → c.sep.getD j 0 = 0)
  symLen : c.sym.length = s.outs.length
  sym : ∀ v ∈ c.sym, v < 2
  lfeOnly : c.lfeOnly < 2
  places : ∀ i j, i < s.ins.length → j < s.outs.length → c.places i j < 2 ∧ (c.lfeOnly ≠ 0 → (entryAt s.ins i).lfe ≠ (entryAt s.outs j).lfe → c.places i j = 0)
  coding : ∀ lg, c.coding = .table lg → lg ≤ 7

/-- A loop over an array, each element of which is read back. -/
theorem run_forN_enc (f : Nat → Prog Nat) (enc : Nat → List Bool) (v : Nat → Nat) (k i : Nat)
    (h : ∀ j, i ≤ j → j < i + k → ∀ l, run (f j) (enc j ++ l) = .ok (v j, l)) (l : List Bool) :
    run (forN f k i) ((List.range' i k).flatMap enc ++ l) = .ok ((List.range' i k).map v, l) := by
  induction k generalizing i with
  | zero => rfl
  | succ k ih =>
    rw [List.range'_succ, List.flatMap_cons, List.append_assoc, List.map_cons]
    unfold forN
    rw [run_bind, h i (by omega) (by omega)]
    simp only [Res.ok_bind]
    rw [run_bind, ih (i + 1) fun j a b => h j (by omega) (by omega)]
    rfl

private theorem map_getD (l : List Nat) (k : Nat) (h : l.length = k) : (List.range' 0 k).map (fun j => l.getD j 0) = l := by
  subst h
  apply List.ext_getElem
  · simp
  · intro i h1 h2
    simp only [List.getElem_map, List.getElem_range', Nat.zero_add, Nat.one_mul]
    rw [List.getD_eq_getElem?_getD, List.getElem?_eq_getElem h2]; rfl

theorem run_sepFlags (outs : List Entry) (sep : List Nat) (hl : sep.length = outs.length)
    (h : ∀ j, j < outs.length → sep.getD j 0 < 2 ∧ ((∀ o, (entryAt outs j).kind ≠ .pair o) → sep.getD j 0 = 0)) (g : List Nat → Prog Out) (l : List Bool) :
    run (sepFlags outs >>= g) (natBits 1 0 ++ (sepBits outs sep ++ l)) = run (g sep) l := by
  unfold sepFlags sepBits
  rw [bind_assoc, run_bits_bind 1 0 _ _ (by omega) (by omega), run_bind]
  have := run_forN_enc (fun j => match (entryAt outs j).kind with
    | .pair _ => if (0 : Nat) = 0 then bits 1 else pure 1
    | _ => pure 0) (fun j => match (entryAt outs j).kind with
    | .pair _ => natBits 1 (sep.getD j 0)
    | _ => []) (fun j => sep.getD j 0) outs.length 0 (fun j _ hj l => by
      have hh := h j (by omega)
      cases hk : (entryAt outs j).kind with
      | pair o =>
        simp only [if_true]
        have := run_bits_bind 1 (sep.getD j 0) pure l (by omega) (by omega)
        simpa using this
      | centre => simp only [hh.2 (fun o => by rw [hk]; simp)]; rfl
      | single => simp only [hh.2 (fun o => by rw [hk]; simp)]; rfl) l
  rw [map_getD _ _ hl] at this
  have e := congrArg (fun r => r >>= fun x : List Nat × List Bool => run (g x.1) x.2) this
  exact e

theorem run_symFlags (outs : List Entry) (sym : List Nat) (hl : sym.length = outs.length) (h : ∀ v ∈ sym, v < 2) (g : List Nat → Prog Out) (l : List Bool) :
    run (symFlags outs >>= g) (natBits 1 0 ++ (sym.flatMap (natBits 1) ++ l)) = run (g sym) l := by
  unfold symFlags
  rw [bind_assoc, run_bits_bind 1 0 _ _ (by omega) (by omega)]
  refine run_forN_bind _ (natBits 1) sym 0 outs.length g hl.symm (fun j a ha l => ?_) l
  have := run_bits_bind 1 a pure l (by omega) (h a (List.mem_of_getElem? ha))
  simpa using this

theorem run_rawPlaces (s : Sides) (lfeOnly : Nat) (P : Nat → Nat → Nat)
    (h : ∀ i j, i < s.ins.length → j < s.outs.length → P i j < 2 ∧ (lfeOnly ≠ 0 → (entryAt s.ins i).lfe ≠ (entryAt s.outs j).lfe → P i j = 0)) (l : List Bool) :
    ∃ m, run (rawPlaces s lfeOnly) (placeBits s lfeOnly P ++ l) = .ok (m, l) ∧ ∀ i j, i < s.ins.length → j < s.outs.length → m i j = P i j := by
  unfold rawPlaces placeBits
  obtain ⟨m, h1, h2⟩ := run_foldN_enc (fun i m => foldN (fun j m => do
      let b ← (if lfeOnly = 0 ∨ (entryAt s.ins i).lfe = (entryAt s.outs j).lfe then bits 1 else pure 0)
      pure (put m i j b)) s.outs.length 0 m)
    (fun i => (List.range' 0 s.outs.length).flatMap fun j => if lfeOnly = 0 ∨ (entryAt s.ins i).lfe = (entryAt s.outs j).lfe then natBits 1 (P i j) else [])
    (fun i m => ∀ i' j, i' < i → j < s.outs.length → m i' j = P i' j) s.ins.length 0 (fun _ _ => 0) (fun _ _ h => by omega)
    (fun i m _ hi hm l => by
      obtain ⟨m', h1, h2⟩ := run_foldN_enc (fun j m => do
          let b ← (if lfeOnly = 0 ∨ (entryAt s.ins i).lfe = (entryAt s.outs j).lfe then bits 1 else pure 0)
          pure (put m i j b))
        (fun j => if lfeOnly = 0 ∨ (entryAt s.ins i).lfe = (entryAt s.outs j).lfe then natBits 1 (P i j) else [])
        (fun j m => (∀ i' j, i' < i → j < s.outs.length → m i' j = P i' j) ∧ ∀ j', j' < j → m i j' = P i j') s.outs.length 0 m ⟨hm, fun _ h => by omega⟩
        (fun j m _ hj hm l => by
          have hh := h i j (by omega) (by omega)
          refine ⟨put m i j (P i j), ?_, fun i' j' a b => ?_, fun j' a => ?_⟩
          · split
            · rw [run_bits_bind 1 _ _ _ (by omega) hh.1]; rfl
            · rename_i hc
              rw [not_or] at hc
              rw [hh.2 hc.1 hc.2]; rfl
          · rw [put_eq, if_neg (by omega)]; exact hm.1 i' j' a b
          · rw [put_eq]
            split
            · rename_i hc; rw [hc.2]
            · exact hm.2 j' (by omega)) l
      refine ⟨m', h1, fun i' j a b => ?_⟩
      by_cases e : i' = i
      · subst e; exact h2.2 j (by omega)
      · exact h2.1 i' j (by omega) b) l
  exact ⟨m, h1, fun i j a b => h2 i j (by omega) b⟩

/-- C277: a matrix of gains of the table that its flags and places allow is read back, whatever was in the memory and in the matrix before. -/
theorem C277_roundtrip (st : Stale) (p : Params) (ic oc : List Speaker.Geo) (c : Choice) (M d : Nat → Nat → ℚ) (l : List Bool)
    (hic : inputs st p.layout p.nIn = .ok ic) (hoc : places (layoutList p.outIdx) = .ok oc)
    (hc : c.Valid ⟨p.inIdx, p.outIdx, compact ic, compact oc⟩) (hM : Allowed M c.full ⟨c.sep, c.sym⟩ ⟨p.inIdx, p.outIdx, compact ic, compact oc⟩ c.places)
    (hT : ∀ x y, x < ic.length → y < oc.length → M x y ∈ gainTable c.lo c.hi c.prec) :
    ∃ o, run (decode st p d) (matrixBits ⟨p.inIdx, p.outIdx, compact ic, compact oc⟩ c M ++ l) = .ok (o, l) ∧ o.eq = none ∧
      ∀ x y, x < ic.length → y < oc.length → o.gains x y = M x y := by
  obtain ⟨h1, h2, h3, h4, h5, h6, h7, h8, h9, h10, h11⟩ := hc
  unfold decode matrixBits
  rw [hic, hoc]
  simp only [Prog.lift, List.append_assoc]
  change ∃ o, run (bits 1 >>= _) _ = _ ∧ _
  rw [run_bits_bind 1 0 _ _ (by omega) (by omega)]
  change ∃ o, run (bits 2 >>= _) _ = _ ∧ _
  rw [run_bits_bind 2 _ _ _ (by omega) (by omega), run_escBits 3 4 _ (by omega) (by omega) (by omega) (by omega), run_escBits 4 5 _ (by omega) (by omega) (by omega) (by omega),
    run_sepFlags _ _ h5 h6, run_symFlags _ _ h7 h8, run_bits_bind 1 _ _ _ (by omega) (by omega), run_bits_bind 1 1 _ _ (by omega) (by omega), if_pos rfl, run_bind]
  obtain ⟨m, e1, e2⟩ := run_rawPlaces ⟨p.inIdx, p.outIdx, compact ic, compact oc⟩ c.lfeOnly c.places h10
    (natBits 1 c.full.toNat ++ (c.coding.bits ++ (cellBits (c.coding.gain c.lo c.hi c.prec) M c.full ⟨c.sep, c.sym⟩ ⟨p.inIdx, p.outIdx, compact ic, compact oc⟩ c.places ++ l)))
  rw [e1]
  simp only [Res.ok_bind]
  rw [run_bits_bind 1 _ _ _ (by omega) (by cases c.full <;> decide), show c.lo - 1 + 1 = c.lo by omega]
  have hfull : decide (c.full.toNat ≠ 0) = c.full := by cases c.full <;> rfl
  rw [hfull]
  obtain ⟨k, e3, e4⟩ := run_coding st c.lo c.hi c.prec c.coding h1 (by omega) (by omega) h4 h11 (fun k => (do
    let d ← cells (decodeGain st k) c.full ⟨c.sep, c.sym⟩ ⟨p.inIdx, p.outIdx, compact ic, compact oc⟩ m d
    if 2 < c.prec then fail (.other 0xFFFF9404)
    else pure ⟨d, none⟩ : Prog Out)) (cellBits (c.coding.gain c.lo c.hi c.prec) M c.full ⟨c.sep, c.sym⟩ ⟨p.inIdx, p.outIdx, compact ic, compact oc⟩ c.places ++ l)
  obtain ⟨d', e5, e6⟩ := C277_elements (decodeGain st k) (c.coding.gain c.lo c.hi c.prec) M c.full ⟨c.sep, c.sym⟩ ⟨p.inIdx, p.outIdx, compact ic, compact oc⟩ c.places m d ic.length oc.length
    (C275_partition ic) (C275_partition oc) hM e2 (fun x y hx hy l => e4 _ (hT x y hx hy) l) l
  refine ⟨⟨d', none⟩, ?_, rfl, e6⟩
  refine Eq.trans e3 ?_
  rw [run_bind, e5]
  simp only [Res.ok_bind]
  rw [if_neg (by omega)]
  rfl

end Verif.Dmx
