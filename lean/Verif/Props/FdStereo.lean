import Verif.Props.FdWindow

/-! # C181-C185: stereo data of pairs of frequency domain channels -/

namespace Verif.Fd

open Prog
open Huff (sclTable huffCodeword word Decodes C46_scl C46_codeword scl_good)
open Scf (diffCode groupEnds fill)
open Lpd (Each Field field_reads forN_reads lift_reads each_field)

/-! ## Reading -/

theorem flag_reads : Reads flag (fun v b => b = [v]) := by
  intro l a l'
  constructor
  · intro h
    cases l with
    | nil => simp [flag, run] at h
    | cons x l =>
      have : run flag (x :: l) = .ok (x, l) := by
        cases x <;> rfl
      rw [this] at h
      simp only [Res.ok.injEq, Prod.mk.injEq] at h
      exact ⟨[a], rfl, by rw [h.1, h.2]; rfl⟩
  · rintro ⟨b, rfl, rfl⟩
    cases a <;> rfl

theorem scl_reads : Reads (huffCodeword sclTable) (fun v b => ∃ c ∈ sclTable, v = c.val ∧ b = word c) := by
  intro l a l'
  constructor
  · intro h
    rcases C46_scl l with ⟨e, he, r, hl, hr⟩ | ⟨-, hr⟩
    · rw [h] at hr
      simp only [Res.ok.injEq, Prod.mk.injEq] at hr
      exact ⟨word e, ⟨e, he, hr.1, rfl⟩, by rw [hl, hr.2]⟩
    · rw [h] at hr
      cases hr
  · rintro ⟨b, ⟨c, hc, rfl, rfl⟩, rfl⟩
    exact C46_codeword _ scl_good c hc _

theorem scl_diff : ∀ c ∈ sclTable, (0 ≤ c.val ∧ c.val ≤ 120) ∧ word c = diffCode (c.val - 60) := by
  decide +kernel

theorem alpha_reads (last : Int) :
    Reads (alpha last) (fun a b => (-60 ≤ a - last ∧ a - last ≤ 60) ∧ b = diffCode (last - a)) := by
  unfold alpha
  refine (scl_reads.bind fun v _ _ => Reads.pure _).congr fun a b => ?_
  constructor
  · rintro ⟨v, _, _, ⟨c, hc, rfl, rfl⟩, ⟨rfl, rfl⟩, rfl⟩
    obtain ⟨h1, h2⟩ := scl_diff c hc
    refine ⟨by omega, ?_⟩
    rw [h2, List.append_nil, show last - (-c.val + 60 + last) = c.val - 60 by omega]
  · rintro ⟨h, rfl⟩
    obtain ⟨c, hc, h1, h2⟩ := Scf.diffCode_word (last - a) (by omega) (by omega)
    have h3 := (scl_diff c hc).1
    exact ⟨c.val, word c, [], ⟨c, hc, rfl, rfl⟩, ⟨by omega, rfl⟩, by rw [h1, List.append_nil]⟩

/-! ## Pairs of bands -/

theorem both_nil {α : Type} (n : Nat) : both n ([] : List α) = [] := by simp [both]
theorem both_zero {α : Type} (l : List α) : both 0 l = [] := by simp [both]
theorem both_one {α : Type} (x : α) (l : List α) : both 1 (x :: l) = [x] := by simp [both]
theorem both_cons {α : Type} (n : Nat) (x : α) (l : List α) : both (n + 2) (x :: l) = x :: x :: both n l := by simp [both]

theorem both_inj {α : Type} : ∀ (n : Nat) (k l : List α), k.length = (n + 1) / 2 → l.length = (n + 1) / 2 → both n k = both n l → k = l
  | 0, k, l, h1, h2, _ => by
    rw [List.length_eq_zero_iff.mp (by omega : k.length = 0), List.length_eq_zero_iff.mp (by omega : l.length = 0)]
  | 1, [x], [y], _, _, h => by
    rw [both_one, both_one] at h
    exact h
  | 1, [], _, h1, _, _ => by simp at h1
  | 1, _ :: _ :: _, _, h1, _, _ => by simp at h1
  | 1, _, [], _, h2, _ => by simp at h2
  | 1, _, _ :: _ :: _, _, h2, _ => by simp at h2
  | n + 2, [], _, h1, _, _ => by simp at h1; omega
  | n + 2, _ :: _, [], _, h2, _ => by simp at h2; omega
  | n + 2, x :: k, y :: l, h1, h2, h => by
    rw [both_cons, both_cons] at h
    simp only [List.cons.injEq] at h
    rw [h.1, both_inj n k l (by simp at h1; omega) (by simp at h2; omega) h.2.2]

theorem both_length {α : Type} : ∀ (n : Nat) (l : List α), l.length = (n + 1) / 2 → (both n l).length = n := by
  intro n l h
  have h2 : ∀ l : List α, (l.flatMap fun x => [x, x]).length = 2 * l.length := by
    intro l
    induction l with
    | nil => rfl
    | cons x l ih => simp [ih]; omega
  rw [both, List.length_take, h2]
  omega

theorem usedFlags_reads : ∀ n, Reads (usedFlags n) (fun u b => b.length = (n + 1) / 2 ∧ u = both n b)
  | 0 => by
    unfold usedFlags
    refine (Reads.pure []).congr fun u b => ?_
    constructor
    · rintro ⟨rfl, rfl⟩
      exact ⟨rfl, (both_nil 0).symm⟩
    · rintro ⟨h, rfl⟩
      obtain rfl := List.length_eq_zero_iff.mp h
      exact ⟨both_zero _, rfl⟩
  | 1 => by
    unfold usedFlags
    refine (flag_reads.bind fun f _ _ => Reads.pure [f]).congr fun u b => ?_
    constructor
    · rintro ⟨f, _, _, rfl, ⟨rfl, rfl⟩, rfl⟩
      exact ⟨rfl, rfl⟩
    · rintro ⟨h, rfl⟩
      match b, h with
      | [f], _ => exact ⟨f, [f], [], rfl, ⟨rfl, rfl⟩, rfl⟩
  | n + 2 => by
    unfold usedFlags
    refine (flag_reads.bind fun f _ _ => (usedFlags_reads n).bind fun l _ _ => Reads.pure (f :: f :: l)).congr fun u b => ?_
    constructor
    · rintro ⟨f, _, _, rfl, ⟨l, b2, _, ⟨h, rfl⟩, ⟨rfl, rfl⟩, rfl⟩, rfl⟩
      refine ⟨by simp; omega, ?_⟩
      rw [List.append_nil, List.singleton_append, both_cons]
    · rintro ⟨h, rfl⟩
      match b, h with
      | [], h => simp at h; omega
      | f :: b, h =>
        rw [both_cons]
        exact ⟨f, [f], b, rfl, ⟨both n b, b, [], ⟨by simp at h; omega, rfl⟩, ⟨rfl, rfl⟩, by simp⟩, rfl⟩

/-! ## Coefficients -/

/-- The coefficients of a group as they are put into the table of the last ones. -/
def putRow : (k : Nat) → List Coef → List (Int × Int) → List (Int × Int)
  | _, [], prev => prev
  | k, x :: xs, prev => putRow (k + 1) xs (prev.set (2 * k) x.2)

theorem putRow_getElem? : ∀ (xs : List Coef) (k : Nat) (prev : List (Int × Int)) (i : Nat),
    (putRow k xs prev)[i]? = prev[i]?.map fun x =>
      if 2 * k ≤ i ∧ i < 2 * (k + xs.length) ∧ i % 2 = 0 then (xs.getD (i / 2 - k) (false, (0, 0))).2 else x
  | [], k, prev, i => by
    have : ¬ (2 * k ≤ i ∧ i < 2 * (k + ([] : List Coef).length) ∧ i % 2 = 0) := by simp; omega
    simp only [putRow, if_neg this]
    cases prev[i]? <;> rfl
  | c :: xs, k, prev, i => by
    rw [putRow, putRow_getElem? xs (k + 1), List.getElem?_set]
    simp only [List.length_cons]
    by_cases h1 : 2 * k = i
    · subst h1
      rw [if_pos rfl]
      by_cases h2 : 2 * k < prev.length
      · rw [if_pos h2, List.getElem?_eq_getElem h2]
        have h3 : ¬ (2 * (k + 1) ≤ 2 * k ∧ 2 * k < 2 * (k + 1 + xs.length) ∧ 2 * k % 2 = 0) := by omega
        have h4 : 2 * k ≤ 2 * k ∧ 2 * k < 2 * (k + (xs.length + 1)) ∧ 2 * k % 2 = 0 := by omega
        simp only [Option.map_some, if_neg h3, if_pos h4, show 2 * k / 2 - k = 0 by omega, List.getD_cons_zero]
      · rw [if_neg h2, List.getElem?_eq_none (by omega)]
        rfl
    · rw [if_neg h1]
      congr 1
      funext x
      by_cases h2 : 2 * (k + 1) ≤ i ∧ i < 2 * (k + 1 + xs.length) ∧ i % 2 = 0
      · rw [if_pos h2, if_pos (by omega), show i / 2 - k = (i / 2 - (k + 1)) + 1 by omega, List.getD_cons_succ]
      · rw [if_neg h2, if_neg (by omega)]

theorem putRow_length (xs : List Coef) (k : Nat) (prev : List (Int × Int)) : (putRow k xs prev).length = prev.length := by
  induction xs generalizing k prev with
  | nil => rfl
  | cons x xs ih => rw [putRow, ih, List.length_set]

theorem rowCode_congr (complex time : Bool) : ∀ (row : List Coef) (k : Nat) (last : Int × Int) (p q : List (Int × Int)) (b : List Bool),
    (∀ i, 2 * k ≤ i → p.getD i (0, 0) = q.getD i (0, 0)) → (RowCode complex time k last p row b ↔ RowCode complex time k last q row b)
  | [], _, _, _, _, _, _ => Iff.rfl
  | x :: xs, k, last, p, q, b, h => by
    simp only [RowCode, h (2 * k) (Nat.le_refl _)]
    refine exists_congr fun b2 => ?_
    rw [rowCode_congr complex time xs (k + 1) x.2 p q b2 fun i hi => h i (by omega)]

/-- One coefficient. -/
theorem coefP_reads (complex u : Bool) (ref : Int × Int) :
    Reads (if u then do
        let re ← alpha ref.1
        let im ← (if complex then alpha ref.2 else pure 0)
        pure (re, im)
      else pure (0, 0)) (fun a b => CoefOk complex ref (u, a) ∧ b = coefCode complex ref (u, a)) := by
  cases u with
  | false =>
    simp only [Bool.false_eq_true, if_false]
    refine (Reads.pure _).congr fun a b => ?_
    simp [CoefOk, coefCode]
  | true =>
    simp only [if_true]
    refine ((alpha_reads ref.1).bind fun re _ _ => (Reads.ite (c := complex = true) (fun _ => alpha_reads ref.2) fun _ =>
      Reads.pure 0).bind fun im _ _ => Reads.pure (re, im)).congr fun a b => ?_
    simp only [CoefOk, coefCode, if_true]
    constructor
    · rintro ⟨re, _, _, ⟨h1, rfl⟩, ⟨im, b2, _, h2, ⟨rfl, rfl⟩, rfl⟩, rfl⟩
      cases complex with
      | true =>
        simp only [if_true] at h2 ⊢
        obtain ⟨h2, rfl⟩ := h2
        exact ⟨⟨h1, h2⟩, by simp⟩
      | false =>
        simp only [Bool.false_eq_true, if_false] at h2 ⊢
        obtain ⟨rfl, rfl⟩ := h2
        exact ⟨⟨h1, rfl⟩, by simp⟩
    · rintro ⟨⟨h1, h2⟩, rfl⟩
      refine ⟨a.1, _, (if complex then diffCode (ref.2 - a.2) else []) ++ [], ⟨h1, rfl⟩, ⟨a.2, _, [], ?_, ⟨rfl, rfl⟩, rfl⟩, by simp⟩
      cases complex with
      | true =>
        simp only [if_true] at h2 ⊢
        exact ⟨h2, trivial⟩
      | false =>
        simp only [Bool.false_eq_true, if_false] at h2 ⊢
        exact ⟨h2, trivial⟩

theorem refP_reads (time : Bool) (prev : List (Int × Int)) (sfb : Nat) (last : Int × Int) (h : sfb < prev.length) :
    Reads (if time then getAt prev sfb else pure last)
      (fun l b => l = (if time then prev.getD sfb (0, 0) else last) ∧ b = []) := by
  cases time with
  | false =>
    simp only [Bool.false_eq_true, if_false]
    exact Reads.pure _
  | true =>
    simp only [if_true, getAt, List.getElem?_eq_getElem h, List.getD_eq_getElem?_getD, Option.getD_some]
    exact Reads.pure _

theorem setAt_reads {α : Type} (t : List α) (i : Nat) (v : α) (h : i < t.length) : Reads (setAt t i v) (fun r b => r = t.set i v ∧ b = []) := by
  unfold setAt
  rw [if_pos h]
  exact Reads.pure _

theorem getD_set_ne {α : Type} (l : List α) (i j : Nat) (v d : α) (h : i ≠ j) : (l.set i v).getD j d = l.getD j d := by
  rw [List.getD_eq_getElem?_getD, List.getD_eq_getElem?_getD, List.getElem?_set_ne h]

theorem pairCoef_reads (complex time u : Bool) (k : Nat) (last : Int × Int) (prev : List (Int × Int)) (h : 2 * k < prev.length) :
    Reads (pairCoef complex time u (2 * k) last prev) (fun x b =>
      CoefOk complex (if time then prev.getD (2 * k) (0, 0) else last) (u, x.1) ∧
      b = coefCode complex (if time then prev.getD (2 * k) (0, 0) else last) (u, x.1) ∧ x.2 = prev.set (2 * k) x.1) := by
  unfold pairCoef
  refine ((refP_reads time prev (2 * k) last h).bind fun l _ _ => (coefP_reads complex u l).bind fun a _ _ =>
    (setAt_reads prev (2 * k) a h).bind fun p _ _ => Reads.pure (a, p)).congr fun x b => ?_
  constructor
  · rintro ⟨_, _, _, ⟨rfl, rfl⟩, ⟨a, _, _, ⟨h2, rfl⟩, ⟨_, _, _, ⟨rfl, rfl⟩, ⟨rfl, rfl⟩, rfl⟩, rfl⟩, rfl⟩
    exact ⟨h2, by simp, rfl⟩
  · rintro ⟨h1, rfl, h3⟩
    exact ⟨_, [], _, ⟨rfl, rfl⟩, ⟨x.1, _, [], ⟨h1, rfl⟩, ⟨_, [], [], ⟨rfl, rfl⟩, ⟨Prod.ext rfl h3, rfl⟩, rfl⟩, rfl⟩, by simp⟩

theorem alphas_reads (complex time : Bool) : ∀ (us : List Bool) (n k : Nat) (last : Int × Int) (prev : List (Int × Int)),
    us.length = (n + 1) / 2 → 2 * k + n ≤ prev.length →
    Reads (alphas complex time (both n us) (2 * k) last prev) (fun r b => ∃ row : List Coef, row.map (fun c => c.1) = us ∧
      RowCode complex time k last prev row b ∧ r = (both n (row.map fun c => c.2), putRow k row prev))
  | [], n, k, last, prev, hl, _ => by
    rw [both_nil]
    unfold alphas
    refine (Reads.pure _).congr fun r b => ?_
    constructor
    · rintro ⟨rfl, rfl⟩
      exact ⟨[], rfl, rfl, by simp [both_nil, putRow]⟩
    · rintro ⟨row, h1, h2, rfl⟩
      obtain rfl := List.map_eq_nil_iff.mp h1
      exact ⟨by simp [both_nil, putRow], h2⟩
  | u :: us, n, k, last, prev, hl, hp => by
    have hn : 1 ≤ n := by simp at hl; omega
    have hset : ∀ a : Int × Int, ∀ i, 2 * (k + 1) ≤ i → (prev.set (2 * k) a).getD i (0, 0) = prev.getD i (0, 0) :=
      fun a i hi => getD_set_ne _ _ _ _ _ (by omega)
    by_cases h1 : n = 1
    · subst h1
      have hus : us = [] := by
        cases us with
        | nil => rfl
        | cons => simp at hl
      subst hus
      rw [both_one]
      unfold alphas
      refine ((pairCoef_reads complex time u k last prev (by omega)).bind fun x _ _ => Reads.pure ([x.1], x.2)).congr fun r b => ?_
      constructor
      · rintro ⟨x, _, _, ⟨h2, rfl, h3⟩, ⟨rfl, rfl⟩, rfl⟩
        exact ⟨[(u, x.1)], rfl, ⟨[], h2, rfl, rfl⟩, by rw [h3]; rfl⟩
      · rintro ⟨row, h2, h3, rfl⟩
        match row, h2 with
        | [(v, a)], h2 =>
          obtain rfl : v = u := by simpa using h2
          obtain ⟨b2, h4, h5, rfl⟩ := h3
          obtain rfl : b2 = [] := h5
          exact ⟨(a, prev.set (2 * k) a), _, [], ⟨h4, rfl, rfl⟩, ⟨rfl, rfl⟩, rfl⟩
    · obtain ⟨m, rfl⟩ : ∃ m, n = m + 2 := ⟨n - 2, by omega⟩
      rw [both_cons]
      unfold alphas
      refine ((pairCoef_reads complex time u k last prev (by omega)).bind (S := fun x r b => ∃ row : List Coef, row.map (fun c => c.1) = us ∧
          RowCode complex time (k + 1) x.1 prev row b ∧
          r = (x.1 :: x.1 :: both m (row.map fun c => c.2), putRow (k + 1) row (prev.set (2 * k) x.1))) fun x _ hx => ?_).congr fun r b => ?_
      · have hx2 : x.2 = prev.set (2 * k) x.1 := hx.2.2
        rw [hx2]
        refine ((alphas_reads complex time us m (k + 1) x.1 (prev.set (2 * k) x.1) (by simp at hl; omega)
          (by rw [List.length_set]; omega)).bind fun y _ _ => Reads.pure (x.1 :: x.1 :: y.1, y.2)).congr fun r b => ?_
        constructor
        · rintro ⟨y, b1, _, ⟨row, h2, h3, rfl⟩, ⟨rfl, rfl⟩, rfl⟩
          rw [List.append_nil]
          exact ⟨row, h2, (rowCode_congr complex time row (k + 1) x.1 _ _ b1 (hset x.1)).mp h3, rfl⟩
        · rintro ⟨row, h2, h3, rfl⟩
          exact ⟨_, b, [], ⟨row, h2, (rowCode_congr complex time row (k + 1) x.1 _ _ b (hset x.1)).mpr h3, rfl⟩, ⟨rfl, rfl⟩, by simp⟩
      · constructor
        · rintro ⟨x, _, b2, ⟨h2, rfl, h3⟩, ⟨row, h4, h5, rfl⟩, rfl⟩
          exact ⟨(u, x.1) :: row, by simp [h4], ⟨b2, h2, h5, rfl⟩, by simp [both_cons, putRow]⟩
        · rintro ⟨row, h2, h3, rfl⟩
          match row, h2 with
          | (v, a) :: row, h2 =>
            simp only [List.map_cons, List.cons.injEq] at h2
            obtain ⟨hv, h6⟩ := h2
            subst hv
            obtain ⟨b2, h4, h5, rfl⟩ := h3
            exact ⟨(a, prev.set (2 * k) a), _, b2, ⟨h4, rfl, rfl⟩, ⟨row, h6, h5, by simp [both_cons, putRow]⟩, rfl⟩

theorem coefs_ext : ∀ (r s : List Coef), r.map (fun c => c.1) = s.map (fun c => c.1) → r.map (fun c => c.2) = s.map (fun c => c.2) → r = s
  | [], [], _, _ => rfl
  | [], _ :: _, h, _ => by simp at h
  | _ :: _, [], h, _ => by simp at h
  | x :: r, y :: s, h1, h2 => by
    simp only [List.map_cons, List.cons.injEq] at h1 h2
    rw [coefs_ext r s h1.2 h2.2, Prod.ext h1.1 h2.1]

theorem row_unique {n : Nat} {u : List Bool} {r s : List Coef} (hu : u.length = (n + 1) / 2) (hr : r.map (fun c => c.1) = u)
    (hs : s.map (fun c => c.1) = u) (h : both n (r.map fun c => c.2) = both n (s.map fun c => c.2)) : r = s := by
  refine coefs_ext r s (by rw [hr, hs]) (both_inj n _ _ ?_ ?_ h)
  · rw [List.length_map, ← hu, ← hr, List.length_map]
  · rw [List.length_map, ← hu, ← hs, List.length_map]

theorem fill_zero_row {n clear : Nat} {row : List Coef} {prev : List (Int × Int)} (hr : row.length = (n + 1) / 2) (hn : n ≤ clear)
    (hc : clear ≤ prev.length) : fill (putRow 0 row prev) n (clear - n) (0, 0) = .ok (keep n clear row prev) := by
  have hf : ∃ t, fill (putRow 0 row prev) n (clear - n) (0, 0) = .ok t := by
    unfold fill
    rw [if_pos (by rw [putRow_length]; omega)]
    exact ⟨_, rfl⟩
  obtain ⟨t, ht⟩ := hf
  rw [ht]
  refine congrArg Res.ok (List.ext_getElem? fun i => ?_)
  rw [Scf.fill_getElem? ht i, putRow_getElem?, keep, List.getElem?_mapIdx]
  by_cases h1 : n ≤ i ∧ i < n + (clear - n)
  · have hi : i < prev.length := by omega
    rw [if_pos h1, List.getElem?_eq_getElem hi]
    simp only [Option.map_some, if_neg (by omega : ¬ i < n), if_pos (by omega : i < clear)]
  · rw [if_neg h1]
    congr 1
    funext x
    by_cases h2 : i < n
    · rw [if_pos h2]
      by_cases h3 : i % 2 = 0
      · rw [if_pos h3, if_pos (by omega), Nat.sub_zero]
      · rw [if_neg h3, if_neg (by omega)]
    · rw [if_neg h2, if_neg (by omega : ¬ i < clear), if_neg (by omega)]

theorem keep_length (n clear : Nat) (row : List Coef) (prev : List (Int × Int)) : (keep n clear row prev).length = prev.length := by
  simp [keep]

theorem alphaGroups_reads (complex time : Bool) (n clear : Nat) (hn : n ≤ clear) : ∀ (us : List (List Bool)) (prev : List (Int × Int)),
    (∀ u ∈ us, u.length = (n + 1) / 2) → clear ≤ prev.length →
    Reads (alphaGroups complex time n clear (us.map (both n)) prev) (fun r b => ∃ rows : List (List Coef),
      rows.map (fun row => row.map fun c => c.1) = us ∧ RowsCode complex time n clear prev rows r.2 b ∧
      r.1 = rows.map fun row => both n (row.map fun c => c.2))
  | [], prev, _, _ => by
    simp only [List.map_nil, alphaGroups]
    refine (Reads.pure _).congr fun r b => ?_
    constructor
    · rintro ⟨rfl, rfl⟩
      exact ⟨[], rfl, ⟨rfl, rfl⟩, rfl⟩
    · rintro ⟨rows, h1, h2, h3⟩
      obtain rfl := List.map_eq_nil_iff.mp h1
      obtain ⟨h2, rfl⟩ := h2
      exact ⟨Prod.ext h3 h2, rfl⟩
  | u :: us, prev, hu, hc => by
    have hul := hu u (by simp)
    simp only [List.map_cons, alphaGroups]
    refine ((alphas_reads complex time u n 0 (0, 0) prev hul (by omega)).bind (S := fun x r b => ∃ row : List Coef,
        row.map (fun c => c.1) = u ∧ x = (both n (row.map fun c => c.2), putRow 0 row prev) ∧ ∃ rows : List (List Coef),
          rows.map (fun row => row.map fun c => c.1) = us ∧ RowsCode complex time n clear (keep n clear row prev) rows r.2 b ∧
          r.1 = x.1 :: rows.map fun row => both n (row.map fun c => c.2)) fun x _ hx => ?_).congr fun r b => ?_
    · obtain ⟨row, h1, -, rfl⟩ := hx
      have hrl : row.length = (n + 1) / 2 := by rw [← hul, ← h1, List.length_map]
      simp only [fill_zero_row hrl hn hc]
      refine ((lift_reads (Res.ok (keep n clear row prev))).bind (S := fun p r b => p = keep n clear row prev ∧
          ∃ rows : List (List Coef), rows.map (fun row => row.map fun c => c.1) = us ∧
          RowsCode complex time n clear (keep n clear row prev) rows r.2 b ∧
          r.1 = both n (row.map fun c => c.2) :: rows.map fun row => both n (row.map fun c => c.2)) fun p _ hp => ?_).congr fun r b => ?_
      · obtain ⟨hp, -⟩ := hp
        obtain rfl := Res.ok.inj hp
        refine ((alphaGroups_reads complex time n clear hn us (keep n clear row prev) (fun v hv => hu v (by simp [hv]))
          (by rw [keep_length]; exact hc)).bind fun y _ _ => Reads.pure (both n (row.map fun c => c.2) :: y.1, y.2)).congr fun r b => ?_
        constructor
        · rintro ⟨y, _, _, ⟨rows, h2, h3, h4⟩, ⟨rfl, rfl⟩, rfl⟩
          exact ⟨rfl, rows, h2, by simpa using h3, by simp [h4]⟩
        · rintro ⟨-, rows, h2, h3, h4⟩
          exact ⟨(rows.map fun row => both n (row.map fun c => c.2), r.2), b, [], ⟨rows, h2, h3, rfl⟩,
            ⟨Prod.ext h4 rfl, rfl⟩, by simp⟩
      · constructor
        · rintro ⟨p, _, b2, ⟨-, rfl⟩, ⟨-, rows, h2, h3, h4⟩, rfl⟩
          exact ⟨row, h1, rfl, rows, h2, by simpa using h3, h4⟩
        · rintro ⟨row', h1', h5, rows, h2, h3, h4⟩
          have hrow : row = row' := row_unique hul h1 h1' (congrArg Prod.fst h5)
          subst hrow
          exact ⟨_, [], b, ⟨rfl, rfl⟩, ⟨rfl, rows, h2, h3, h4⟩, rfl⟩
    · constructor
      · rintro ⟨x, b1, b2, ⟨row, h1, h2, rfl⟩, ⟨row', h1', h5, rows, h3, h4, h6⟩, rfl⟩
        refine ⟨row' :: rows, by simp [h1', h3], ⟨b1, b2, ?_, h4, rfl⟩, ?_⟩
        · rw [← row_unique hul h1 h1' (congrArg Prod.fst h5)]
          exact h2
        · rw [h6, h5]
          rfl
      · rintro ⟨rows, h1, h2, h3⟩
        match rows, h1 with
        | row :: rows, h1 =>
          simp only [List.map_cons, List.cons.injEq] at h1
          obtain ⟨b1, b2, h4, h5, rfl⟩ := h2
          exact ⟨_, b1, b2, ⟨row, h1.1, h4, rfl⟩, ⟨row, h1.1, rfl, rows, h1.2, h5, h3⟩, rfl⟩

/-! ## Prediction data -/

theorem each_used {n i : Nat} {xs : List (List Bool)} {b : List Bool} :
    Each (fun _ u b => b.length = (n + 1) / 2 ∧ u = both n b) i xs b ↔
      ∃ us : List (List Bool), (∀ u ∈ us, u.length = (n + 1) / 2) ∧ xs = us.map (both n) ∧ b = us.flatten := by
  induction xs generalizing i b with
  | nil =>
    constructor
    · rintro rfl
      exact ⟨[], by simp, rfl, rfl⟩
    · rintro ⟨us, -, h1, rfl⟩
      obtain rfl := List.map_eq_nil_iff.mp h1.symm
      rfl
  | cons x xs ih =>
    constructor
    · rintro ⟨b1, b2, ⟨h1, rfl⟩, h2, rfl⟩
      obtain ⟨us, h3, rfl, rfl⟩ := ih.mp h2
      refine ⟨b1 :: us, ?_, rfl, rfl⟩
      intro u hu
      rcases List.mem_cons.mp hu with rfl | hu
      · exact h1
      · exact h3 u hu
    · rintro ⟨us, h1, h2, rfl⟩
      match us, h2 with
      | u :: us, h2 =>
        simp only [List.map_cons, List.cons.injEq] at h2
        exact ⟨u, us.flatten, ⟨h1 u (by simp), h2.1⟩, ih.mpr ⟨us, fun v hv => h1 v (by simp [hv]), h2.2, rfl⟩, rfl⟩

theorem both_replicate (n : Nat) (x : Bool) : both n (List.replicate ((n + 1) / 2) x) = List.replicate n x := by
  refine List.eq_replicate_iff.mpr ⟨both_length n _ (by simp), ?_⟩
  intro y hy
  obtain ⟨z, hz, hy⟩ := List.mem_flatMap.mp (List.mem_of_mem_take hy)
  rw [List.eq_of_mem_replicate hz] at hy
  simpa using hy

/-- **C183** Prediction data are accepted exactly if they are coded: for each pair of bands a flag, unless all are set, and for each one
that is set the difference of the coefficients from those of the pair of bands before, or from those of the group or frame before. -/
theorem C183_pred (indep : Bool) (groups n clear : Nat) (prev : List (Int × Int)) (hn : n ≤ clear) (hc : clear ≤ prev.length) :
    Reads (predData indep groups n clear prev) (PredCode indep groups n clear prev) := by
  unfold predData
  have hused : ∀ all : Bool, Reads (if all = true then pure (List.replicate groups (List.replicate n true))
      else forN (fun _ => usedFlags n) groups 0) (fun x b => ∃ us : List (List Bool), us.length = groups ∧
        (∀ u ∈ us, u.length = (n + 1) / 2) ∧ (all = true → ∀ u ∈ us, ∀ v ∈ u, v = true) ∧ x = us.map (both n) ∧
        b = if all then [] else us.flatten) := by
    intro all
    cases all with
    | true =>
      simp only [if_true]
      refine (Reads.pure _).congr fun x b => ?_
      constructor
      · rintro ⟨rfl, rfl⟩
        refine ⟨List.replicate groups (List.replicate ((n + 1) / 2) true), by simp, ?_, ?_, ?_, rfl⟩
        · intro u hu
          rw [List.eq_of_mem_replicate hu, List.length_replicate]
        · intro _ u hu v hv
          rw [List.eq_of_mem_replicate hu] at hv
          exact List.eq_of_mem_replicate hv
        · rw [List.map_replicate, both_replicate]
      · rintro ⟨us, h1, h2, h3, rfl, rfl⟩
        refine ⟨?_, rfl⟩
        have : us = List.replicate groups (List.replicate ((n + 1) / 2) true) := by
          refine List.eq_replicate_iff.mpr ⟨h1, fun u hu => List.eq_replicate_iff.mpr ⟨h2 u hu, h3 trivial u hu⟩⟩
        rw [this, List.map_replicate, both_replicate]
    | false =>
      simp only [Bool.false_eq_true, if_false]
      refine (forN_reads groups 0 fun _ _ _ => usedFlags_reads n).congr fun x b => ?_
      rw [each_used]
      constructor
      · rintro ⟨h1, us, h2, rfl, rfl⟩
        exact ⟨us, by simpa using h1, h2, by simp, rfl, rfl⟩
      · rintro ⟨us, h1, h2, -, rfl, rfl⟩
        exact ⟨by simpa using h1, us, h2, rfl, rfl⟩
  have huse : ∀ complex : Bool, Reads (if complex = true ∧ indep = false then flag else pure false)
      (fun v b => (v = true → complex = true ∧ indep = false) ∧ b = if complex = true ∧ indep = false then [v] else []) := by
    intro complex
    by_cases h : complex = true ∧ indep = false
    · simp only [if_pos h]
      exact flag_reads.congr fun v b => by simp [h]
    · simp only [if_neg h]
      refine (Reads.pure false).congr fun v b => ?_
      cases v <;> simp [h]
  have htime : Reads (if indep = true then pure false else flag) (fun v b => (v = true → indep = false) ∧ b = if indep then [] else [v]) := by
    cases indep with
    | true =>
      simp only [if_true]
      refine (Reads.pure false).congr fun v b => ?_
      cases v <;> simp
    | false =>
      simp only [Bool.false_eq_true, if_false]
      exact flag_reads.congr fun v b => by simp
  refine (flag_reads.bind fun all _ _ => (hused all).bind (S := fun used (x : Pred × List (Int × Int)) b => x.1.used = used ∧
      ∃ (rows : List (List Coef)) (time : Bool) (br : List Bool), (∀ r ∈ rows, r.length = (n + 1) / 2) ∧
        used = rows.map (fun r => both n (r.map fun c => c.1)) ∧ x.1.alpha = rows.map (fun r => both n (r.map fun c => c.2)) ∧
        (x.1.usePrev = true → x.1.complex = true ∧ indep = false) ∧ (time = true → indep = false) ∧
        RowsCode x.1.complex time n clear prev rows x.2 br ∧
        b = [x.1.dir, x.1.complex] ++ (if x.1.complex = true ∧ indep = false then [x.1.usePrev] else []) ++
          (if indep then [] else [time]) ++ br) fun used _ hu => ?_).congr fun x b => ?_
  · obtain ⟨us, hu1, hu2, -, hu3, -⟩ := hu
    refine (flag_reads.bind fun dir _ _ => flag_reads.bind fun complex _ _ => (huse complex).bind fun usePrev _ _ => htime.bind fun time _ _ =>
      (show Reads (alphaGroups complex time n clear used prev) _ from hu3 ▸ alphaGroups_reads complex time n clear hn us prev hu2 hc).bind
        fun r _ _ => Reads.pure _).congr fun x b => ?_
    constructor
    · rintro ⟨dir, _, _, rfl, ⟨complex, _, _, rfl, ⟨usePrev, _, _, ⟨h1, rfl⟩, ⟨time, _, _, ⟨h2, rfl⟩, ⟨r, br, _, ⟨rows, h3, h4, h5⟩,
        ⟨rfl, rfl⟩, rfl⟩, rfl⟩, rfl⟩, rfl⟩, rfl⟩
      refine ⟨rfl, rows, time, br, ?_, ?_, h5, h1, h2, h4, by simp⟩
      · intro row hr
        rw [← hu2 (row.map fun c => c.1) (by rw [← h3]; exact List.mem_map_of_mem hr), List.length_map]
      · rw [hu3, ← h3, List.map_map]
        rfl
    · rintro ⟨h0, rows, time, br, h1, h2, h3, h4, h5, h6, rfl⟩
      refine ⟨x.1.dir, _, _, rfl, ⟨x.1.complex, _, _, rfl, ⟨x.1.usePrev, _, _, ⟨h4, rfl⟩, ⟨time, _, _, ⟨h5, rfl⟩,
        ⟨(x.1.alpha, x.2), br, [], ⟨rows, ?_, h6, h3⟩, ⟨?_, rfl⟩, rfl⟩, rfl⟩, rfl⟩, rfl⟩, by simp⟩
      · rw [hu3] at h2
        have key : ∀ (us : List (List Bool)) (rows : List (List Coef)), (∀ u ∈ us, u.length = (n + 1) / 2) →
            (∀ r ∈ rows, r.length = (n + 1) / 2) → us.map (both n) = rows.map (fun r => both n (r.map fun c => c.1)) →
            rows.map (fun row => row.map fun c => c.1) = us := by
          intro us
          induction us with
          | nil =>
            intro rows _ _ h
            obtain rfl := List.map_eq_nil_iff.mp h.symm
            rfl
          | cons u us ih =>
            intro rows g1 g2 h
            match rows, h with
            | r :: rows, h =>
              simp only [List.map_cons, List.cons.injEq] at h
              rw [List.map_cons, ih rows (fun v hv => g1 v (by simp [hv])) (fun v hv => g2 v (by simp [hv])) h.2,
                both_inj n _ _ (g1 u (by simp)) (by rw [List.length_map]; exact g2 r (by simp)) h.1]
        exact key us rows hu2 h1 h2
      · obtain ⟨⟨a1, a2, a3, a4, a5⟩, a6⟩ := x
        simp only at h0
        subst h0
        rfl
  · unfold PredCode
    constructor
    · rintro ⟨all, _, _, rfl, ⟨used, _, b2, ⟨us, h1, h2, h3, h4, rfl⟩, ⟨h0, rows, time, br, h5, h6, h7, h8, h9, h10, rfl⟩, rfl⟩, rfl⟩
      have hus : us = rows.map fun row => row.map fun c => c.1 := by
        rw [h4] at h6
        clear h10 h9 h8 h7 h0 h4 h1
        induction us generalizing rows with
        | nil =>
          obtain rfl := List.map_eq_nil_iff.mp h6.symm
          rfl
        | cons u us ih =>
          match rows, h6 with
          | r :: rows, h =>
            simp only [List.map_cons, List.cons.injEq] at h
            rw [List.map_cons, ← ih (fun v hv => h2 v (by simp [hv])) (fun e v hv => h3 e v (by simp [hv])) rows
              (fun v hv => h5 v (by simp [hv])) h.2,
              both_inj n _ _ (h2 u (by simp)) (by rw [List.length_map]; exact h5 r (by simp)) h.1]
      refine ⟨rows, all, time, br, by rw [← h1, hus, List.length_map], h5, by rw [h0, h6], h7, ?_, h8, h9, h10, ?_⟩
      · intro ha r hr c hc'
        exact h3 ha (r.map fun c => c.1) (by rw [hus]; exact List.mem_map_of_mem hr) c.1 (List.mem_map_of_mem hc')
      · rw [hus, List.flatMap_def]
        simp
    · rintro ⟨rows, all, time, br, h1, h2, h3, h4, h5, h6, h7, h8, rfl⟩
      refine ⟨all, [all], _, rfl, ⟨x.1.used, _, _, ⟨rows.map fun row => row.map fun c => c.1, by simpa using h1, ?_, ?_, ?_, rfl⟩,
        ⟨rfl, rows, time, br, h2, h3, h4, h6, h7, h8, rfl⟩, rfl⟩, ?_⟩
      · intro u hu
        obtain ⟨r, hr, rfl⟩ := List.mem_map.mp hu
        rw [List.length_map]
        exact h2 r hr
      · intro ha u hu v hv
        obtain ⟨r, hr, rfl⟩ := List.mem_map.mp hu
        obtain ⟨c, hc', rfl⟩ := List.mem_map.mp hv
        exact h5 ha r hr c hc'
      · rw [h3, List.map_map]
        rfl
      · rw [List.flatMap_def]
        simp

/-- Three bands: the coefficient of the first two is 3, that of the third one is 1. -/
example : PredCode true 1 3 4 (List.replicate 4 (0, 0))
    (⟨[[true, true, true]], false, false, false, [[(3, 0), (3, 0), (1, 0)]]⟩, [(3, 0), (0, 0), (1, 0), (0, 0)])
    ([true, false, false] ++ (diffCode (-3) ++ (diffCode 2 ++ []))) := by
  refine ⟨[[(true, (3, 0)), (true, (1, 0))]], true, false, _, rfl, by decide, rfl, rfl, by decide, by decide, by decide,
    ⟨_, [], ⟨_, ⟨by decide, rfl⟩, ⟨[], ⟨by decide, rfl⟩, rfl, rfl⟩, rfl⟩, ⟨by decide, rfl⟩, by simp; rfl⟩, rfl⟩

/-! ## Masks -/

theorem overlay_getElem? {α : Type} (t row : List α) (pos i : Nat) (h : pos ≤ t.length) :
    (overlay t pos row)[i]? = if i < pos then t[i]? else if i < pos + row.length then row[i - pos]? else t[i]? := by
  unfold overlay
  have hl : (t.take pos).length = pos := by simp; omega
  by_cases h1 : i < pos
  · rw [if_pos h1, List.append_assoc, List.getElem?_append_left (by omega), List.getElem?_take_of_lt h1]
  · rw [if_neg h1, List.append_assoc, List.getElem?_append_right (by omega), hl]
    by_cases h2 : i < pos + row.length
    · rw [if_pos h2, List.getElem?_append_left (by omega)]
    · rw [if_neg h2, List.getElem?_append_right (by omega), List.getElem?_drop]
      congr 1
      omega

theorem overlay_length {α : Type} (t row : List α) (pos : Nat) (h : pos + row.length ≤ t.length) : (overlay t pos row).length = t.length := by
  simp [overlay]
  omega

theorem overlay_append {α : Type} (t r s : List α) (pos : Nat) (h : pos + r.length ≤ t.length) :
    overlay (overlay t pos r) (pos + r.length) s = overlay t pos (r ++ s) := by
  refine List.ext_getElem? fun i => ?_
  rw [overlay_getElem? _ _ _ _ (by rw [overlay_length t r pos h]; exact h), overlay_getElem? _ _ _ _ (by omega),
    overlay_getElem? _ _ _ _ (by omega), List.length_append]
  by_cases h1 : i < pos
  · simp only [if_pos h1, if_pos (by omega : i < pos + r.length)]
  · simp only [if_neg h1]
    by_cases h2 : i < pos + r.length
    · rw [if_pos h2, if_pos h2, if_pos (by omega), List.getElem?_append_left (by omega)]
    · rw [if_neg h2]
      by_cases h3 : i < pos + r.length + s.length
      · rw [if_pos h3, if_pos (by omega), List.getElem?_append_right (by omega)]
        congr 1
        omega
      · rw [if_neg h3, if_neg (by omega : ¬ i < pos + (r.length + s.length))]
        simp only [if_neg h2]

theorem overlay_set {α : Type} (t r : List α) (pos : Nat) (v : α) (h : pos < t.length) :
    overlay (t.set pos v) (pos + 1) r = overlay t pos (v :: r) := by
  have := overlay_append t [v] r pos (by simp; omega)
  rw [List.singleton_append] at this
  rw [← this]
  congr 1
  simp [overlay, List.set_eq_take_append_cons_drop, h]

theorem putFlags_reads : ∀ (fs : List Nat) (pos : Nat) (t : List Nat), pos + fs.length ≤ t.length →
    Reads (putFlags fs pos t) (fun r b => r = overlay t pos fs ∧ b = [])
  | [], pos, t, _ => by
    refine (Reads.pure t).congr fun r b => ?_
    simp [overlay]
  | v :: vs, pos, t, h => by
    simp only [List.length_cons] at h
    unfold putFlags
    refine ((setAt_reads t pos v (by omega)).bind (S := fun _ r b => r = overlay t pos (v :: vs) ∧ b = []) fun u _ hu => ?_).congr fun r b => ?_
    · obtain ⟨rfl, -⟩ := hu
      have := putFlags_reads vs (pos + 1) (t.set pos v) (by rw [List.length_set]; omega)
      rwa [overlay_set _ _ _ _ (by omega)] at this
    · constructor
      · rintro ⟨_, _, _, ⟨rfl, rfl⟩, ⟨rfl, rfl⟩, rfl⟩
        exact ⟨rfl, rfl⟩
      · rintro ⟨rfl, rfl⟩
        exact ⟨_, [], [], ⟨rfl, rfl⟩, ⟨rfl, rfl⟩, rfl⟩

theorem maskGroups_reads (all : Bool) (num maxSte : Nat) : ∀ (n pos : Nat) (t : List Nat),
    (∀ g < n, pos + g * num + max num maxSte ≤ t.length) →
    Reads (maskGroups all num maxSte n pos t) (fun r b => ∃ rows : List (List Nat), rows.length = n ∧
      (∀ row ∈ rows, row.length = maxSte ∧ ∀ v ∈ row, v < 2) ∧ (all = true → ∀ row ∈ rows, row = List.replicate maxSte 1) ∧
      r = maskTable num pos rows t ∧ b = if all then [] else rows.flatten.flatMap (natBits 1))
  | 0, pos, t, _ => by
    refine (Reads.pure t).congr fun r b => ?_
    constructor
    · rintro ⟨rfl, rfl⟩
      exact ⟨[], rfl, by simp, by simp, rfl, by simp⟩
    · rintro ⟨rows, h1, -, -, rfl, rfl⟩
      obtain rfl := List.length_eq_zero_iff.mp h1
      exact ⟨rfl, by simp⟩
  | n + 1, pos, t, h => by
    have h0 := h 0 (by omega)
    have hflags : Reads (if all = true then pure (List.replicate maxSte 1) else forN (fun _ => bits 1) maxSte 0)
        (fun row b => (row.length = maxSte ∧ ∀ v ∈ row, v < 2) ∧ (all = true → row = List.replicate maxSte 1) ∧
          b = if all then [] else row.flatMap (natBits 1)) := by
      cases all with
      | true =>
        simp only [if_true]
        refine (Reads.pure _).congr fun row b => ?_
        constructor
        · rintro ⟨rfl, rfl⟩
          refine ⟨⟨by simp, fun v hv => ?_⟩, by simp, rfl⟩
          rw [List.eq_of_mem_replicate hv]
          omega
        · rintro ⟨-, h2, rfl⟩
          exact ⟨h2 trivial, rfl⟩
      | false =>
        simp only [Bool.false_eq_true, if_false]
        refine (forN_reads maxSte 0 fun _ _ _ => field_reads (w := 1) (by omega)).congr fun row b => ?_
        rw [each_field]
        constructor
        · rintro ⟨h1, h2, rfl⟩
          exact ⟨⟨h1, h2⟩, by simp, rfl⟩
        · rintro ⟨⟨h1, h2⟩, -, rfl⟩
          exact ⟨h1, h2, rfl⟩
    unfold maskGroups
    refine (hflags.bind (S := fun row r b => ∃ rows : List (List Nat), rows.length = n ∧
      (∀ row ∈ rows, row.length = maxSte ∧ ∀ v ∈ row, v < 2) ∧ (all = true → ∀ row ∈ rows, row = List.replicate maxSte 1) ∧
      r = maskTable num (pos + num) rows (overlay t pos (row ++ List.replicate (num - row.length) 0)) ∧
      b = if all then [] else rows.flatten.flatMap (natBits 1)) fun row _ hrow => ?_).congr fun r b => ?_
    · have hl : row.length = maxSte := hrow.1.1
      refine ((putFlags_reads row pos t (by omega)).bind fun t1 _ ht1 =>
        (putFlags_reads (List.replicate (num - maxSte) 0) (pos + maxSte) t1 (by
          obtain ⟨rfl, -⟩ := ht1
          rw [overlay_length _ _ _ (by omega), List.length_replicate]
          omega)).bind fun t2 _ ht2 => maskGroups_reads all num maxSte n (pos + num) t2 (by
          obtain ⟨rfl, -⟩ := ht1
          obtain ⟨rfl, -⟩ := ht2
          intro g hg
          rw [overlay_length _ _ _ (by rw [overlay_length _ _ _ (by omega), List.length_replicate]; omega), overlay_length _ _ _ (by omega)]
          have := h (g + 1) (by omega)
          rw [Nat.add_mul] at this
          omega)).congr fun r b => ?_
      have e : overlay (overlay t pos row) (pos + maxSte) (List.replicate (num - maxSte) 0) =
          overlay t pos (row ++ List.replicate (num - row.length) 0) := by
        rw [hl, ← hl, overlay_append _ _ _ _ (by omega)]
      constructor
      · rintro ⟨_, _, _, ⟨rfl, rfl⟩, ⟨_, _, _, ⟨rfl, rfl⟩, ⟨rows, h1, h2, h3, rfl, rfl⟩, rfl⟩, rfl⟩
        exact ⟨rows, h1, h2, h3, by rw [e], rfl⟩
      · rintro ⟨rows, h1, h2, h3, rfl, rfl⟩
        exact ⟨_, [], _, ⟨rfl, rfl⟩, ⟨_, [], _, ⟨rfl, rfl⟩, ⟨rows, h1, h2, h3, by rw [e], rfl⟩, rfl⟩, rfl⟩
    · constructor
      · rintro ⟨row, _, _, ⟨h1, h2, rfl⟩, ⟨rows, h3, h4, h5, rfl, rfl⟩, rfl⟩
        refine ⟨row :: rows, by simp [h3], ?_, ?_, rfl, ?_⟩
        · intro x hx
          rcases List.mem_cons.mp hx with rfl | hx
          · exact h1
          · exact h4 x hx
        · intro ha x hx
          rcases List.mem_cons.mp hx with rfl | hx
          · exact h2 ha
          · exact h5 ha x hx
        · cases all <;> simp
      · rintro ⟨rows, h1, h2, h3, rfl, rfl⟩
        match rows, h1 with
        | row :: rows, h1 =>
          refine ⟨row, _, _, ⟨h2 row (by simp), fun ha => h3 ha row (by simp), rfl⟩, ⟨rows, by simpa using h1, fun x hx => h2 x (by simp [hx]),
            fun ha x hx => h3 ha x (by simp [hx]), rfl, rfl⟩, ?_⟩
          cases all <;> simp

/-- **C182**, **C183** Stereo data are accepted exactly if they are coded. -/
theorem C182_stereo (indep : Bool) (num groups n clear : Nat) (ms : List Nat) (prev : List (Int × Int)) (hn : n ≤ clear)
    (hc : clear ≤ prev.length) (hm : ∀ g < groups, g * num + max num n ≤ ms.length) :
    Reads (msMask indep num groups n clear ms prev) (StereoCode indep num groups n clear ms prev) := by
  have hm' : ∀ g < groups, 0 + g * num + max num n ≤ ms.length := fun g hg => by rw [Nat.zero_add]; exact hm g hg
  unfold msMask
  refine ((field_reads (w := 2) (by omega)).bind (S := fun m (x : Stereo × List (Int × Int)) b => ∃ b', StereoCode indep num groups n clear ms prev x b' ∧
    b' = natBits 2 m ++ b) fun m _ hm2 => ?_).congr fun x b => ?_
  · have h4 : m < 4 := hm2.1
    have hcases : m = 0 ∨ m = 1 ∨ m = 2 ∨ m = 3 := by omega
    have hinj : ∀ i j : Nat, i < 4 → j < 4 → ∀ a b : List Bool, natBits 2 i ++ a = natBits 2 j ++ b → i = j ∧ a = b := by
      intro i j hi hj a b h
      have hl := List.append_inj h (by simp)
      refine ⟨?_, hl.2⟩
      have := congrArg bitsVal hl.1
      rwa [bitsVal_natBits, bitsVal_natBits, Nat.mod_eq_of_lt hi, Nat.mod_eq_of_lt hj] at this
    rcases hcases with rfl | rfl | rfl | rfl
    · refine (Reads.pure _).congr fun x b => ?_
      constructor
      · rintro ⟨rfl, rfl⟩
        exact ⟨natBits 2 0, ⟨rfl, rfl⟩, by simp⟩
      · rintro ⟨b', h1, h2⟩
        obtain ⟨st, p⟩ := x
        cases st with
        | none =>
          obtain ⟨rfl, rfl⟩ := h1
          exact ⟨rfl, ((hinj 0 0 (by omega) (by omega) [] b (by simpa using h2)).2).symm⟩
        | mask t =>
          obtain ⟨-, rows, -, -, -, rfl⟩ := h1
          exact absurd (hinj 1 0 (by omega) (by omega) _ _ h2).1 (by decide)
        | all t =>
          obtain ⟨-, -, rfl⟩ := h1
          exact absurd (hinj 2 0 (by omega) (by omega) [] _ (by simpa using h2)).1 (by decide)
        | pred q =>
          obtain ⟨b'', -, rfl⟩ := h1
          exact absurd (hinj 3 0 (by omega) (by omega) _ _ h2).1 (by decide)
    · refine ((maskGroups_reads false num n groups 0 ms hm').bind fun t _ _ => Reads.pure (Stereo.mask t, prev)).congr fun x b => ?_
      constructor
      · rintro ⟨t, _, _, ⟨rows, h1, h2, -, rfl, rfl⟩, ⟨rfl, rfl⟩, rfl⟩
        exact ⟨_, ⟨rfl, rows, h1, h2, rfl, rfl⟩, by simp⟩
      · rintro ⟨b', h1, h2⟩
        obtain ⟨st, p⟩ := x
        cases st with
        | none =>
          obtain ⟨-, rfl⟩ := h1
          exact absurd (hinj 0 1 (by omega) (by omega) [] _ (by simpa using h2)).1 (by decide)
        | mask t =>
          obtain ⟨rfl, rows, h3, h4, rfl, rfl⟩ := h1
          refine ⟨_, _, [], ⟨rows, h3, h4, by simp, rfl, rfl⟩, ⟨rfl, rfl⟩, ?_⟩
          rw [← (hinj 1 1 (by omega) (by omega) _ _ h2).2]
          simp
        | all t =>
          obtain ⟨-, -, rfl⟩ := h1
          exact absurd (hinj 2 1 (by omega) (by omega) [] _ (by simpa using h2)).1 (by decide)
        | pred q =>
          obtain ⟨b'', -, rfl⟩ := h1
          exact absurd (hinj 3 1 (by omega) (by omega) _ _ h2).1 (by decide)
    · refine ((maskGroups_reads true num n groups 0 ms hm').bind fun t _ _ => Reads.pure (Stereo.all t, prev)).congr fun x b => ?_
      have hrows : ∀ rows : List (List Nat), rows.length = groups → (∀ row ∈ rows, row = List.replicate n 1) →
          rows = List.replicate groups (List.replicate n 1) := fun rows h1 h2 => List.eq_replicate_iff.mpr ⟨h1, h2⟩
      constructor
      · rintro ⟨t, _, _, ⟨rows, h1, -, h2, rfl, rfl⟩, ⟨rfl, rfl⟩, rfl⟩
        refine ⟨natBits 2 2, ⟨rfl, ?_, rfl⟩, by simp⟩
        rw [hrows rows h1 (h2 rfl)]
      · rintro ⟨b', h1, h2⟩
        obtain ⟨st, p⟩ := x
        cases st with
        | none =>
          obtain ⟨-, rfl⟩ := h1
          exact absurd (hinj 0 2 (by omega) (by omega) [] _ (by simpa using h2)).1 (by decide)
        | mask t =>
          obtain ⟨-, rows, -, -, -, rfl⟩ := h1
          exact absurd (hinj 1 2 (by omega) (by omega) _ _ h2).1 (by decide)
        | all t =>
          obtain ⟨rfl, rfl, rfl⟩ := h1
          refine ⟨_, [], [], ⟨List.replicate groups (List.replicate n 1), by simp, ?_, ?_, rfl, rfl⟩, ⟨rfl, rfl⟩,
            ((hinj 2 2 (by omega) (by omega) [] _ (by simpa using h2)).2).symm⟩
          · intro row hr
            rw [List.eq_of_mem_replicate hr]
            refine ⟨by simp, fun v hv => ?_⟩
            rw [List.eq_of_mem_replicate hv]
            omega
          · intro _ row hr
            exact List.eq_of_mem_replicate hr
        | pred q =>
          obtain ⟨b'', -, rfl⟩ := h1
          exact absurd (hinj 3 2 (by omega) (by omega) _ _ h2).1 (by decide)
    · refine ((C183_pred indep groups n clear prev hn hc).bind fun r _ _ => Reads.pure (Stereo.pred r.1, r.2)).congr fun x b => ?_
      constructor
      · rintro ⟨r, b1, _, h1, ⟨rfl, rfl⟩, rfl⟩
        exact ⟨_, ⟨b1, h1, rfl⟩, by simp⟩
      · rintro ⟨b', h1, h2⟩
        obtain ⟨st, p⟩ := x
        cases st with
        | none =>
          obtain ⟨-, rfl⟩ := h1
          exact absurd (hinj 0 3 (by omega) (by omega) [] _ (by simpa using h2)).1 (by decide)
        | mask t =>
          obtain ⟨-, rows, -, -, -, rfl⟩ := h1
          exact absurd (hinj 1 3 (by omega) (by omega) _ _ h2).1 (by decide)
        | all t =>
          obtain ⟨-, -, rfl⟩ := h1
          exact absurd (hinj 2 3 (by omega) (by omega) [] _ (by simpa using h2)).1 (by decide)
        | pred q =>
          obtain ⟨b'', h3, rfl⟩ := h1
          exact ⟨(q, p), b'', [], h3, ⟨rfl, rfl⟩, by rw [← (hinj 3 3 (by omega) (by omega) _ _ h2).2]; simp⟩
  · constructor
    · rintro ⟨m, _, b2, ⟨-, rfl⟩, ⟨b', h1, rfl⟩, rfl⟩
      exact h1
    · intro h
      obtain ⟨m, b2, h1, rfl⟩ : ∃ m b2, m < 4 ∧ b = natBits 2 m ++ b2 := by
        obtain ⟨st, p⟩ := x
        cases st with
        | none =>
          obtain ⟨-, rfl⟩ := h
          exact ⟨0, [], by omega, by simp⟩
        | mask t =>
          obtain ⟨-, rows, -, -, -, rfl⟩ := h
          exact ⟨1, _, by omega, rfl⟩
        | all t =>
          obtain ⟨-, -, rfl⟩ := h
          exact ⟨2, [], by omega, by simp⟩
        | pred q =>
          obtain ⟨b'', -, rfl⟩ := h
          exact ⟨3, _, by omega, rfl⟩
      exact ⟨m, _, b2, ⟨h1, rfl⟩, ⟨_, h, rfl⟩, rfl⟩

theorem maskTable_getElem? (num : Nat) : ∀ (rows : List (List Nat)) (pos : Nat) (t : List Nat) (n g s : Nat), (∀ r ∈ rows, r.length = n) →
    (∀ g < rows.length, pos + g * num + max num n ≤ t.length) → s < num →
    ((h : g < rows.length) → (maskTable num pos rows t)[pos + g * num + s]? = some (if s < n then (rows[g].getD s 0) else 0)) ∧
    (∀ i < pos, (maskTable num pos rows t)[i]? = t[i]?)
  | [], _, _, _, _, _, _, _, _ => ⟨fun h => absurd h (Nat.not_lt_zero _), fun _ _ => rfl⟩
  | r :: rows, pos, t, n, g, s, h1, h2, h3 => by
    have hr : r.length = n := h1 r (by simp)
    have h20 := h2 0 (by simp)
    have hlen : (r ++ List.replicate (num - r.length) 0).length = max num n := by simp; omega
    have ht : (overlay t pos (r ++ List.replicate (num - r.length) 0)).length = t.length := overlay_length _ _ _ (by rw [hlen]; omega)
    have hrec : ∀ g < rows.length, pos + num + g * num + max num n ≤ (overlay t pos (r ++ List.replicate (num - r.length) 0)).length := by
      intro g hg
      have := h2 (g + 1) (by simpa using hg)
      rw [Nat.add_mul] at this
      rw [ht]
      omega
    constructor
    · intro h
      cases g with
      | zero =>
        simp only [maskTable, Nat.zero_mul, Nat.add_zero, List.getElem_cons_zero]
        rw [(maskTable_getElem? num rows (pos + num) _ n 0 s (fun x hx => h1 x (by simp [hx])) hrec h3).2 (pos + s) (by omega),
          overlay_getElem? _ _ _ _ (by omega), if_neg (by omega), if_pos (by rw [hlen]; omega), show pos + s - pos = s by omega]
        by_cases hs : s < n
        · rw [if_pos hs, List.getElem?_append_left (by omega), List.getElem?_eq_getElem (by omega), List.getD_eq_getElem?_getD,
            List.getElem?_eq_getElem (by omega)]
          rfl
        · rw [if_neg hs, List.getElem?_append_right (by omega), List.getElem?_replicate, if_pos (by omega)]
      | succ g =>
        simp only [maskTable, List.getElem_cons_succ]
        rw [← (maskTable_getElem? num rows (pos + num) _ n g s (fun x hx => h1 x (by simp [hx])) hrec h3).1 (by simpa using h)]
        congr 1
        rw [Nat.add_mul]
        omega
    · intro i hi
      simp only [maskTable]
      rw [(maskTable_getElem? num rows (pos + num) _ n g s (fun x hx => h1 x (by simp [hx])) hrec h3).2 i (by omega),
        overlay_getElem? _ _ _ _ (by omega), if_pos hi]

/-- **C182** The flag of band `s` in group `g` is found in the mask at `g` times the number of bands plus `s`; bands that are not coded
have none.  This holds even if more bands are coded than there are. -/
theorem C182_mask (num n : Nat) (rows : List (List Nat)) (ms : List Nat) (hr : ∀ r ∈ rows, r.length = n)
    (hm : ∀ g < rows.length, g * num + max num n ≤ ms.length) (g s : Nat) (hg : g < rows.length) (hs : s < num) :
    (maskTable num 0 rows ms)[g * num + s]? = some (if s < n then rows[g].getD s 0 else 0) := by
  have := (maskTable_getElem? num rows 0 ms n g s hr (fun g hg => by rw [Nat.zero_add]; exact hm g hg) hs).1 hg
  rwa [Nat.zero_add] at this

/-- The size of the mask is enough at all sampling rates, whatever number of bands is coded. -/
theorem C182_size (rate : Nat) (long : Bool) (groups n : Nat) (h : if long then groups = 1 ∧ n < 64 else groups ≤ 8 ∧ n < 16) :
    ∀ g < groups, g * (bandsAt rate).num long + max ((bandsAt rate).num long) n ≤ 128 := by
  intro g hg
  unfold Bands.num
  have h1 := (short_ok _ (bandsAt_mem rate)).2.2
  have h2 := (long_ok _ (bandsAt_mem rate)).2.2
  cases long with
  | true =>
    simp only [if_true] at h ⊢
    obtain ⟨rfl, h⟩ := h
    obtain rfl : g = 0 := by omega
    omega
  | false =>
    simp only [Bool.false_eq_true, if_false] at h ⊢
    have : g * (bandsAt rate).short.length ≤ 7 * 15 := Nat.mul_le_mul (by omega) h1
    omega

example : run (msMask true 14 2 3 136 (List.replicate 128 0) (List.replicate 136 (0, 0))) [false, true, true, false, true, false, true, true] =
    .ok ((.mask ([1, 0, 1] ++ List.replicate 11 0 ++ [0, 1, 1] ++ List.replicate 111 0), List.replicate 136 (0, 0)), []) := by decide +kernel

end Verif.Fd
