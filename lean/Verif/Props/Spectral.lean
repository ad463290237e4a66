import Verif.Props.SpectrumUb
import Verif.Spec.Spectral

/-! # Spectral decoding inverts the published coding (C113) -/

namespace Verif.Arith

open Prog ArithCode Spectral

/-- The decoder's tables. -/
def tables : Tables := ⟨fun c => cfM.getD (pkSpec c) [], fun i => cfR.getD i []⟩

theorem msb_valid (c : Nat) : cfM[pkSpec c]? = some (tables.msb c) ∧ FreqTable (tables.msb c) ∧
    (tables.msb c).length = 17 := by
  obtain ⟨tbl, h1, h2, h3, -⟩ := cfM_valid _ (C34_getPk c).2
  have : tables.msb c = tbl := by simp [tables, List.getD_eq_getElem?_getD, h1]
  rw [this]
  exact ⟨h1, h2, h3⟩

theorem lsb_valid (i : Nat) (hi : i < 3) : cfR[i]? = some (tables.lsb i) ∧ FreqTable (tables.lsb i) ∧
    (tables.lsb i).length = 4 := by
  obtain ⟨tbl, h1, h2, h3⟩ := cfR_valid i hi
  have : tables.lsb i = tbl := by simp [tables, List.getD_eq_getElem?_getD, h1]
  rw [this]
  exact ⟨h1, h2, h3⟩

/-- The decoder is about to decode `xs` and will then have counted `total` bits. -/
def Sync (total : Int) (xs : List (List Nat × Nat)) (s : St) (bc : Int) (l : List Bool) : Prop :=
  ∃ s' l', run (decodeSeq (xs.map Prod.fst) s bc) l = .ok ((xs.map Prod.snd, s', total), l')

theorem Sync.step {total : Int} {tbl : List Nat} {sym : Nat} {xs : List (List Nat × Nat)} {s : St}
    {bc : Int} {l : List Bool} (h : Sync total ((tbl, sym) :: xs) s bc l) :
    ∃ s' bc' l', run (decode tbl tbl.length s bc) l = .ok (some (sym, s', bc'), l') ∧
      Sync total xs s' bc' l' := by
  obtain ⟨sf, lf, h⟩ := h
  simp only [List.map_cons, decodeSeq] at h
  rw [run_bind] at h
  obtain ⟨⟨r, l1⟩, h1, h2⟩ := Res.bind_eq_ok.1 h
  simp only at h2
  cases r with
  | none => simp at h2
  | some r =>
    obtain ⟨sym', s', bc'⟩ := r
    simp only at h2
    rw [run_bind] at h2
    obtain ⟨⟨⟨syms, s2, bc2⟩, l2⟩, h3, h4⟩ := Res.bind_eq_ok.1 h2
    simp only [run_pure, Res.ok.injEq, Prod.mk.injEq, List.cons.injEq] at h4
    obtain ⟨⟨⟨rfl, h4⟩, rfl, rfl⟩, rfl⟩ := h4
    exact ⟨s', bc', l1, h1, s2, l2, by rw [h3, h4]⟩

theorem Sync.done {total : Int} {s : St} {bc : Int} {l : List Bool} (h : Sync total [] s bc l) :
    bc = total := by
  obtain ⟨_, _, h⟩ := h
  simp [decodeSeq] at h
  exact h.1.2

theorem escNb (lev : Nat) : getAt escNbOffset (min lev 7) = pure (min lev 7 * 131072) := by
  have : ∀ i < 8, getAt escNbOffset i = pure (i * 131072) := by
    intro i hi
    interval_cases i <;> rfl
  exact this _ (by omega)

/-- The escape loop reads escapes and the symbol that ends them. -/
theorem escLoop_sync (total : Int) (ctx m : Nat) (hc : ctx < 131072) (hm : m < 16) (rest : List (List Nat × Nat)) (k fuel lev : Nat)
    (hf : k < fuel) (s : St) (bc : Int) (l : List Bool)
    (h : Sync total (escapes tables ctx lev k ++ (msbAt tables ctx (lev + k), m) :: rest) s bc l) :
    ∃ s' bc' l', run (escLoop ctx fuel lev s bc) l = .ok ((m, lev + k, s', bc'), l') ∧
      Sync total rest s' bc' l' := by
  induction k generalizing fuel lev s bc l with
  | zero =>
    obtain ⟨fuel, rfl⟩ : ∃ f, fuel = f + 1 := ⟨fuel - 1, by omega⟩
    simp only [escapes, List.nil_append, Nat.add_zero] at h
    obtain ⟨s', bc', l', h1, h2⟩ := h.step
    refine ⟨s', bc', l', ?_, h2⟩
    unfold escLoop
    rw [escNb, pure_bind]
    have e : ((ctx : Int) + ((min lev 7 * 131072 : Nat) : Int)) % 4294967296 =
        ((ctx + min lev 7 * 131072 : Nat) : Int) := by
      rw [Int.emod_eq_of_lt (by positivity) (by omega)]; push_cast; rfl
    rw [e, Int.toNat_natCast, (C34_getPk _).1]
    obtain ⟨t1, t2, t3⟩ := msb_valid (ctx + min lev 7 * 131072)
    rw [show (lift (Res.ok (pkSpec (ctx + min lev 7 * 131072))) : Prog Nat) = pure _ from rfl, pure_bind,
      getAt, t1]
    simp only
    rw [pure_bind, ← t3, run_bind]
    unfold msbAt at h1
    rw [h1, Res.ok_bind]
    simp only
    rw [if_pos hm]
    rfl
  | succ k ih =>
    obtain ⟨fuel, rfl⟩ : ∃ f, fuel = f + 1 := ⟨fuel - 1, by omega⟩
    simp only [escapes, List.cons_append] at h
    obtain ⟨s1, bc1, l1, h1, h2⟩ := h.step
    rw [show lev + (k + 1) = lev + 1 + k by omega] at h2 ⊢
    obtain ⟨s', bc', l', h3, h4⟩ := ih fuel (lev + 1) (by omega) s1 bc1 l1 h2
    refine ⟨s', bc', l', ?_, h4⟩
    unfold escLoop
    rw [escNb, pure_bind]
    have e : ((ctx : Int) + ((min lev 7 * 131072 : Nat) : Int)) % 4294967296 =
        ((ctx + min lev 7 * 131072 : Nat) : Int) := by
      rw [Int.emod_eq_of_lt (by positivity) (by omega)]; push_cast; rfl
    rw [e, Int.toNat_natCast, (C34_getPk _).1]
    obtain ⟨t1, t2, t3⟩ := msb_valid (ctx + min lev 7 * 131072)
    rw [show (lift (Res.ok (pkSpec (ctx + min lev 7 * 131072))) : Prog Nat) = pure _ from rfl, pure_bind,
      getAt, t1]
    simp only
    rw [pure_bind, ← t3, run_bind]
    unfold msbAt at h1
    rw [h1, Res.ok_bind]
    simp only
    rw [if_neg (by omega)]
    exact h3

/-- The loop over the lower bit planes rebuilds the values. -/
theorem lsbLoop_sync (total : Int) (a b : Nat) (ha : a < 2 ^ 30) (hb : b < 2 ^ 30)
    (rest : List (List Nat × Nat)) (k : Nat) (s : St) (bc : Int) (l : List Bool)
    (h : Sync total (lower tables a b k ++ rest) s bc l) :
    ∃ s' bc' l', run (lsbLoop k (a / 2 ^ k : Nat) (b / 2 ^ k : Nat) s bc) l = .ok ((a, b, s', bc'), l') ∧
      Sync total rest s' bc' l' := by
  induction k generalizing s bc l with
  | zero => exact ⟨s, bc, l, by simp [lsbLoop], h⟩
  | succ k ih =>
    simp only [lower, List.cons_append] at h
    obtain ⟨s1, bc1, l1, h1, h2⟩ := h.step
    obtain ⟨s', bc', l', h3, h4⟩ := ih s1 bc1 l1 h2
    refine ⟨s', bc', l', ?_, h4⟩
    unfold lsbLoop
    have ei : (if ((a / 2 ^ (k + 1) : Nat) : Int) = 0 then 1 else if ((b / 2 ^ (k + 1) : Nat) : Int) = 0 then 0 else 2) =
        (if a / 2 ^ (k + 1) = 0 then 1 else if b / 2 ^ (k + 1) = 0 then 0 else 2) := by
      simp only [Int.natCast_eq_zero]
    rw [ei]
    obtain ⟨t1, t2, t3⟩ := lsb_valid (if a / 2 ^ (k + 1) = 0 then 1 else if b / 2 ^ (k + 1) = 0 then 0 else 2)
      (by split <;> [omega; split <;> omega])
    rw [getAt, t1]
    simp only
    rw [pure_bind, ← t3, run_bind, h1, Res.ok_bind]
    simp only
    have half : ∀ v : Nat, v < 2 ^ 30 → addBit ((v / 2 ^ (k + 1) : Nat) : Int) ((v / 2 ^ k % 2 : Nat) : Int) =
        ((v / 2 ^ k : Nat) : Int) := by
      intro v hv
      have h1 : v / 2 ^ (k + 1) = v / 2 ^ k / 2 := by rw [pow_succ, Nat.div_div_eq_div_mul]
      have h2 : v / 2 ^ k ≤ v := Nat.div_le_self _ _
      unfold addBit
      norm_num at hv
      rw [if_neg (by rw [h1]; omega), h1]
      omega
    have m1 : (a / 2 ^ k % 2 + 2 * (b / 2 ^ k % 2)) % 2 = a / 2 ^ k % 2 := by omega
    have m2 : (a / 2 ^ k % 2 + 2 * (b / 2 ^ k % 2)) / 2 % 2 = b / 2 ^ k % 2 := by omega
    rw [m1, m2, half a ha, half b hb]
    exact h3

theorem planes_spec (a b : Nat) : a / 2 ^ planes a b < 4 ∧ b / 2 ^ planes a b < 4 := by
  have key : ∀ v : Nat, Nat.log2 v ≤ planes a b + 1 → v / 2 ^ planes a b < 4 := by
    intro v hv
    have : v < 2 ^ (planes a b + 2) := lt_of_lt_of_le Nat.lt_log2_self (Nat.pow_le_pow_right (by norm_num) (by omega))
    rw [Nat.div_lt_iff_lt_mul (by positivity)]
    rw [pow_add] at this
    omega
  exact ⟨key a (by unfold planes; omega), key b (by unfold planes; omega)⟩

theorem planes_pos (a b : Nat) (h : 0 < planes a b) : a / 2 ^ planes a b + 4 * (b / 2 ^ planes a b) ≠ 0 := by
  have key : ∀ v : Nat, Nat.log2 v = planes a b + 1 → 0 < v / 2 ^ planes a b := by
    intro v hv
    have hv0 : v ≠ 0 := by rintro rfl; simp at hv
    have := Nat.log2_self_le hv0
    apply Nat.div_pos _ (by positivity)
    rw [hv, pow_succ] at this
    omega
  have : Nat.log2 a = planes a b + 1 ∨ Nat.log2 b = planes a b + 1 := by
    unfold planes at h ⊢; omega
  rcases this with h | h
  · have := key a h; omega
  · have := key b h
    exact Nat.ne_of_gt (Nat.lt_of_lt_of_le (by omega : 0 < 4 * (b / 2 ^ planes a b)) (Nat.le_add_left _ _))

theorem planes_le (a b : Nat) (ha : a < 2 ^ 30) (hb : b < 2 ^ 30) : planes a b ≤ 28 := by
  have key : ∀ v : Nat, v < 2 ^ 30 → Nat.log2 v < 30 := by
    intro v hv
    by_cases h0 : v = 0
    · subst h0; simp
    · exact (Nat.log2_lt h0).2 hv
  have := key a ha
  have := key b hb
  unfold planes
  omega

/-- The context of the decoder is the published one. -/
theorem getContext_published (prev cur : List Nat) (c : Nat) (hc : c < 65536) (hp : ∀ v ∈ prev, v ≤ 15)
    (hcur : ∀ v ∈ cur, v ≤ 15) (p2 p3 : Int)
    (h2 : 3 < cur.length → p2 = cur.getD (cur.length - 2) 0)
    (h3 : 3 < cur.length → p3 = cur.getD (cur.length - 3) 0) :
    getContext (prev.getD (cur.length + 1) 0 : Nat) (cur.getD (cur.length - 1) 0 : Nat) p2 p3 c cur.length =
      (((used cur (running prev cur c) : Nat) : Int), ((running prev cur c : Nat) : Int)) ∧
    running prev cur c < 65536 := by
  have getD_le : ∀ (xs : List Nat) (i : Nat), (∀ v ∈ xs, v ≤ 15) → xs.getD i 0 ≤ 15 := by
    intro xs i h
    rw [List.getD_eq_getElem?_getD]
    cases hx : xs[i]? with
    | none => simp
    | some v => exact h v (List.mem_of_getElem? hx)
  have hq := getD_le prev (cur.length + 1) hp
  have hl := getD_le cur (cur.length - 1) hcur
  unfold getContext used running
  simp only
  generalize prev.getD (cur.length + 1) 0 = q at *
  generalize cur.getD (cur.length - 1) 0 = p1 at *
  have e : ((c : Int) / 16 + (q : Int) * 4096) % 65536 - ((c : Int) / 16 + (q : Int) * 4096) % 16 + (p1 : Int) =
      (((c / 16 + q * 4096) / 16 * 16 + p1 : Nat) : Int) := by
    push_cast
    omega
  rw [e]
  refine ⟨?_, by omega⟩
  by_cases hi : 3 < cur.length
  · rw [h2 hi, h3 hi]
    by_cases hs : p1 + cur.getD (cur.length - 2) 0 + cur.getD (cur.length - 3) 0 < 5
    · rw [if_pos ⟨by exact_mod_cast hi, by exact_mod_cast hs⟩, if_pos ⟨hi, hs⟩]
      push_cast; rfl
    · rw [if_neg (fun h => hs (by exact_mod_cast h.2)), if_neg (fun h => hs h.2)]
  · rw [if_neg (fun h => hi (by exact_mod_cast h.1)), if_neg (fun h => hi h.1)]

theorem neighbour_weight (a b : Nat) (ha : a < 2 ^ 30) (hb : b < 2 ^ 30) :
    neighbour a b = pure ((weight a b : Nat) : Int) := by
  norm_num at ha hb
  unfold neighbour w32 Ops.i32
  rw [if_neg (by omega)]
  have h1 : Ops.MIN_32 ≤ (a : Int) + b ∧ (a : Int) + b ≤ Ops.MAX_32 := by
    unfold Ops.MIN_32 Ops.MAX_32; omega
  have h2 : Ops.MIN_32 ≤ (a : Int) + b + 1 ∧ (a : Int) + b + 1 ≤ Ops.MAX_32 := by
    unfold Ops.MIN_32 Ops.MAX_32; omega
  rw [if_pos h1]
  rw [show (lift (Res.ok ((a : Int) + (b : Int))) : Prog Int) = pure _ from rfl, pure_bind, if_pos h2]
  rw [show (lift (Res.ok ((a : Int) + (b : Int) + 1)) : Prog Int) = pure _ from rfl, pure_bind]
  congr 1
  unfold weight toI8
  split <;> omega

/-- Setting the first entry after a prefix. -/
theorem set_mid {α : Type} (xs : List α) (y v : α) (ys : List α) :
    (xs ++ y :: ys).set xs.length v = (xs ++ [v]) ++ ys := by
  rw [List.set_append_right _ _ (by omega)]
  simp

theorem setAt_mid (xs : List Int) (y v : Int) (ys : List Int) (i : Nat) (hi : i = xs.length) :
    setAt (xs ++ y :: ys) i v = pure ((xs ++ [v]) ++ ys) := by
  subst hi
  unfold setAt
  rw [if_pos (by simp), set_mid]

/-- The pairs as integers. -/
def asInts (ps : List (Nat × Nat)) : List (Int × Int) := ps.map fun p => ((p.1 : Int), (p.2 : Int))

theorem getAt_pure (tbl : List Int) (i : Nat) (v : Int) (h : tbl[i]? = some v) : getAt tbl i = pure v := by
  unfold getAt
  rw [h]

theorem getD_cast (xs : List Nat) (i : Nat) (hi : i < xs.length) :
    (xs.map (Nat.cast : Nat → Int))[i]? = some ((xs.getD i 0 : Nat) : Int) := by
  rw [List.getElem?_map, List.getElem?_eq_getElem hi, List.getD_eq_getElem?_getD,
    List.getElem?_eq_getElem hi]
  rfl

/-- The array reads of a tuple give the published context. -/
theorem tuples_context (fuel presN k : Nat) (prev : List Nat) (hp : ∀ v ∈ prev, v ≤ 15)
    (hpl : prev.length = presN) (x y : Int) (zs z2 : List Int) (cur : List Nat) (hcur : ∀ v ∈ cur, v ≤ 15)
    (hlen : cur.length < presN) (c : Nat) (hc : c < 65536) (q : List Int) (s : St) (bc : Int) :
    tuples fuel (x :: y :: (prev.map Nat.cast ++ 0 :: zs)) (k + 1) cur.length
        ⟨0 :: 0 :: (cur.map Nat.cast ++ List.replicate (presN - cur.length) 1 ++ z2), q, c, s, bc⟩ = (do
      let (m, lev, st, bc) ← escLoop (used cur (running prev cur c) : Nat) fuel 0 s bc
      if m ≠ 0 then do
        let (a, b, st, bc) ← lsbLoop lev (m % 4 : Nat) (m / 4 : Nat) st bc
        let q ← setAt q (2 * cur.length) a
        let q ← setAt q (2 * cur.length + 1) b
        let v ← neighbour a b
        let cp ← setAt (0 :: 0 :: (cur.map Nat.cast ++ List.replicate (presN - cur.length) 1 ++ z2)) (cur.length + 2) v
        tuples fuel (x :: y :: (prev.map Nat.cast ++ 0 :: zs)) k (cur.length + 1)
          ⟨cp, q, (running prev cur c : Nat), st, bc⟩
      else if 0 < lev then
        pure ⟨0 :: 0 :: (cur.map Nat.cast ++ List.replicate (presN - cur.length) 1 ++ z2), q, (running prev cur c : Nat), st, bc⟩
      else do
        let q ← setAt q (2 * cur.length) 0
        let q ← setAt q (2 * cur.length + 1) 0
        let cp ← setAt (0 :: 0 :: (cur.map Nat.cast ++ List.replicate (presN - cur.length) 1 ++ z2)) (cur.length + 2) 1
        tuples fuel (x :: y :: (prev.map Nat.cast ++ 0 :: zs)) k (cur.length + 1)
          ⟨cp, q, (running prev cur c : Nat), st, bc⟩) := by
  have e1 : (x :: y :: (prev.map (Nat.cast : Nat → Int) ++ 0 :: zs))[cur.length + 3]? =
      some ((prev.getD (cur.length + 1) 0 : Nat) : Int) := by
    rw [List.getElem?_cons_succ, List.getElem?_cons_succ]
    rcases Nat.lt_or_ge (cur.length + 1) prev.length with h | h
    · rw [List.getElem?_append_left (by rw [List.length_map]; exact h), getD_cast _ _ h]
    · have : cur.length + 1 = prev.length := by omega
      rw [this, List.getElem?_append_right (by simp)]
      simp [List.getD_eq_getElem?_getD]
  have low : ∀ j, j < cur.length →
      (0 :: 0 :: (cur.map (Nat.cast : Nat → Int) ++ List.replicate (presN - cur.length) 1 ++ z2))[j + 2]? =
        some ((cur.getD j 0 : Nat) : Int) := by
    intro j hj
    rw [List.getElem?_cons_succ, List.getElem?_cons_succ, List.append_assoc,
      List.getElem?_append_left (by rw [List.length_map]; exact hj), getD_cast _ _ hj]
  have e2 : (0 :: 0 :: (cur.map (Nat.cast : Nat → Int) ++ List.replicate (presN - cur.length) 1 ++ z2))[cur.length + 1]? =
      some ((cur.getD (cur.length - 1) 0 : Nat) : Int) := by
    rcases Nat.eq_zero_or_pos cur.length with h | h
    · have : cur = [] := List.length_eq_zero_iff.1 h
      subst this
      rfl
    · rw [show cur.length + 1 = cur.length - 1 + 2 by omega]
      exact low _ (by omega)
  have e3 : ∃ p2 : Int, (0 :: 0 :: (cur.map (Nat.cast : Nat → Int) ++ List.replicate (presN - cur.length) 1 ++ z2))[cur.length]? =
      some p2 ∧ (3 < cur.length → p2 = ((cur.getD (cur.length - 2) 0 : Nat) : Int)) := by
    rcases Nat.lt_or_ge 1 cur.length with h | h
    · refine ⟨_, ?_, fun _ => rfl⟩
      have := low (cur.length - 2) (by omega)
      rwa [show cur.length - 2 + 2 = cur.length by omega] at this
    · have hlt : cur.length < (0 :: 0 :: (cur.map (Nat.cast : Nat → Int) ++ List.replicate (presN - cur.length) 1 ++ z2)).length := by
        simp; omega
      exact ⟨_, List.getElem?_eq_getElem hlt, fun h' => by omega⟩
  obtain ⟨p2, e3, e3'⟩ := e3
  have e4 : ∃ p3 : Int, (if 3 < cur.length then
      getAt (0 :: 0 :: (cur.map (Nat.cast : Nat → Int) ++ List.replicate (presN - cur.length) 1 ++ z2)) (cur.length - 1)
        else pure 0) = pure p3 ∧ (3 < cur.length → p3 = ((cur.getD (cur.length - 3) 0 : Nat) : Int)) := by
    by_cases h : 3 < cur.length
    · rw [if_pos h]
      refine ⟨_, getAt_pure _ _ _ ?_, fun _ => rfl⟩
      have := low (cur.length - 3) (by omega)
      rwa [show cur.length - 3 + 2 = cur.length - 1 by omega] at this
    · exact ⟨0, by rw [if_neg h], fun h' => absurd h' h⟩
  obtain ⟨p3, e4, e4'⟩ := e4
  rw [tuples]
  dsimp only
  rw [getAt_pure _ _ _ e1, pure_bind, getAt_pure _ _ _ e2, pure_bind, getAt_pure _ _ _ e3, pure_bind, e4, pure_bind]
  rw [(getContext_published prev cur c hc hp hcur p2 p3 e3' e4').1]

/-- The tuple loop reads the coded pairs. -/
theorem tuples_sync (total : Int) (n presN fuel : Nat) (hn : n ≤ presN) (hf : 29 ≤ fuel) (prev : List Nat)
    (hp : ∀ v ∈ prev, v ≤ 15) (hpl : prev.length = presN) (x y : Int) (zs z2 : List Int)
    (ps : List (Nat × Nat)) (hps : ∀ p ∈ ps, p.1 < 2 ^ 30 ∧ p.2 < 2 ^ 30) (cur : List Nat)
    (hcur : ∀ v ∈ cur, v ≤ 15) (hlen : cur.length + ps.length ≤ n) (c : Nat) (hc : c < 65536)
    (qs rest : List Int) (hq : qs.length = 2 * cur.length) (hr : 2 * (n - cur.length) ≤ rest.length)
    (s : St) (bc : Int) (l : List Bool) (h : Sync total (symbols tables n prev ps cur c) s bc l) :
    ∃ c' s' l', run (tuples fuel (x :: y :: (prev.map Nat.cast ++ 0 :: zs)) (n - cur.length) cur.length
        ⟨0 :: 0 :: (cur.map Nat.cast ++ List.replicate (presN - cur.length) 1 ++ z2), qs ++ rest, c, s, bc⟩) l =
      .ok (⟨0 :: 0 :: ((cur ++ ps.map fun p => weight p.1 p.2).map Nat.cast ++
          List.replicate (presN - (cur.length + ps.length)) 1 ++ z2),
        qs ++ flat (asInts ps) ++ rest.drop (2 * ps.length), c', s', total⟩, l') := by
  induction ps generalizing cur c qs rest s bc l with
  | nil =>
    simp only [List.length_nil, Nat.add_zero] at hlen
    simp only [symbols] at h
    by_cases hlt : cur.length < n
    · rw [if_pos hlt] at h
      obtain ⟨k, hk⟩ : ∃ k, n - cur.length = k + 1 := ⟨n - cur.length - 1, by omega⟩
      rw [hk, tuples_context fuel presN k prev hp hpl x y zs z2 cur hcur (by omega) c hc]
      have hctx : used cur (running prev cur c) < 131072 := by
        have := (getContext_published prev cur c hc hp hcur _ _ (fun _ => rfl) (fun _ => rfl)).2
        unfold used
        split <;> omega
      obtain ⟨s', bc', l', h1, h2⟩ := escLoop_sync total (used cur (running prev cur c)) 0 hctx (by omega) [] 1 fuel 0
        (by omega) s bc l h
      rw [run_bind, h1, Res.ok_bind]
      have := h2.done
      subst this
      exact ⟨(running prev cur c : Nat), s', l', by simp [asInts, flat]⟩
    · rw [if_neg hlt] at h
      have := h.done
      subst this
      have : n - cur.length = 0 := by omega
      rw [this]
      exact ⟨c, s, l, by simp [tuples, asInts, flat]⟩
  | cons p ps ih =>
    obtain ⟨a, b⟩ := p
    obtain ⟨ha, hb⟩ := hps (a, b) (by simp)
    simp only at ha hb
    simp only [List.length_cons] at hlen
    obtain ⟨k, hk⟩ : ∃ k, n - cur.length = k + 1 := ⟨n - cur.length - 1, by omega⟩
    rw [hk, tuples_context fuel presN k prev hp hpl x y zs z2 cur hcur (by omega) c hc]
    have hrun := (getContext_published prev cur c hc hp hcur _ _ (fun _ => rfl) (fun _ => rfl)).2
    have hctx : used cur (running prev cur c) < 131072 := by
      unfold used
      split <;> omega
    simp only [symbols, pair, List.append_assoc, List.cons_append] at h
    have hpl4 := planes_spec a b
    have hple := planes_le a b ha hb
    obtain ⟨s1, bc1, l1, h1, h2⟩ := escLoop_sync total (used cur (running prev cur c))
      (a / 2 ^ planes a b + 4 * (b / 2 ^ planes a b)) hctx (by omega) _ (planes a b) fuel 0
        (by omega) s bc l (by rw [Nat.zero_add]; exact h)
    rw [run_bind, h1, Res.ok_bind]
    simp only [Nat.zero_add]
    obtain ⟨r1, rest, rfl⟩ : ∃ r1 r, rest = r1 :: r := by
      cases rest with
      | nil => simp at hr; omega
      | cons r1 r => exact ⟨r1, r, rfl⟩
    obtain ⟨r2, rest, rfl⟩ : ∃ r1 r, rest = r1 :: r := by
      cases rest with
      | nil => simp at hr; omega
      | cons r1 r => exact ⟨r1, r, rfl⟩
    have hrep : presN - cur.length = (presN - (cur ++ [weight a b]).length) + 1 := by simp; omega
    have setw : ∀ v : Int, setAt (0 :: 0 :: (cur.map (Nat.cast : Nat → Int) ++ List.replicate (presN - cur.length) 1 ++ z2))
        (cur.length + 2) v = pure (0 :: 0 :: (cur.map (Nat.cast : Nat → Int) ++ [v] ++
          List.replicate (presN - (cur ++ [weight a b]).length) 1 ++ z2)) := by
      intro v
      rw [hrep, List.replicate_succ]
      have := setAt_mid (0 :: 0 :: cur.map (Nat.cast : Nat → Int)) 1 v
        (List.replicate (presN - (cur ++ [weight a b]).length) 1 ++ z2) (cur.length + 2) (by simp)
      simpa using this
    have setq : ∀ v w : Int, (do
        let q ← setAt (qs ++ r1 :: r2 :: rest) (2 * cur.length) v
        setAt q (2 * cur.length + 1) w) = pure (qs ++ [v] ++ [w] ++ rest) := by
      intro v w
      rw [setAt_mid _ _ _ _ _ hq.symm, pure_bind, setAt_mid _ _ _ _ _ (by simp [hq])]
    have hw15 : ∀ v ∈ cur ++ [weight a b], v ≤ 15 := by
      intro v hv
      rcases List.mem_append.1 hv with hv | hv
      · exact hcur v hv
      · simp only [List.mem_singleton] at hv
        subst hv
        unfold weight
        omega
    have final : ∀ s2 bc2 l2, Sync total (symbols tables n prev ps (cur ++ [weight a b]) (running prev cur c)) s2 bc2 l2 →
        ∃ c' s' l', run (tuples fuel (x :: y :: (prev.map Nat.cast ++ 0 :: zs)) k (cur.length + 1)
          ⟨0 :: 0 :: (cur.map (Nat.cast : Nat → Int) ++ [((weight a b : Nat) : Int)] ++
          List.replicate (presN - (cur ++ [weight a b]).length) 1 ++ z2), qs ++ [(a : Int)] ++ [(b : Int)] ++ rest, (running prev cur c : Nat), s2, bc2⟩) l2 =
      .ok (⟨0 :: 0 :: ((cur ++ ((a, b) :: ps).map fun p => weight p.1 p.2).map Nat.cast ++
          List.replicate (presN - (cur.length + ((a, b) :: ps).length)) 1 ++ z2),
        qs ++ flat (asInts ((a, b) :: ps)) ++ (r1 :: r2 :: rest).drop (2 * ((a, b) :: ps).length), c', s', total⟩, l') := by
      intro s2 bc2 l2 hs
      obtain ⟨c', s', l', h5⟩ := ih (fun p hp => hps p (by simp [hp])) (cur ++ [weight a b]) hw15 (by simp; omega)
        (running prev cur c) hrun (qs ++ [(a : Int)] ++ [(b : Int)]) rest (by simp [hq]; omega)
        (by simp at hr ⊢; omega) s2 bc2 l2 hs
      refine ⟨c', s', l', ?_⟩
      have e1 : n - (cur ++ [weight a b]).length = k := by simp; omega
      have e2 : (cur ++ [weight a b]).length = cur.length + 1 := by simp
      rw [e1, e2] at h5
      rw [e2]
      simp only [List.map_append, List.map_cons, List.map_nil] at h5 ⊢
      rw [h5]
      have e3 : 2 * (ps.length + 1) = 2 * ps.length + 1 + 1 := by omega
      simp only [asInts, List.map_cons, flat, List.length_cons, e3, List.drop_succ_cons, List.append_assoc,
        List.cons_append, List.nil_append]
      have e4 : presN - (cur.length + 1 + ps.length) = presN - (cur.length + (ps.length + 1)) := by omega
      rw [e4]
    by_cases hm : a / 2 ^ planes a b + 4 * (b / 2 ^ planes a b) ≠ 0
    · rw [if_pos hm]
      have key : ∀ u v : Nat, u < 4 → (u + 4 * v) % 4 = u ∧ (u + 4 * v) / 4 = v := by omega
      obtain ⟨m1, m2⟩ := key _ (b / 2 ^ planes a b) hpl4.1
      rw [m1, m2]
      obtain ⟨s2, bc2, l2, h3, h4⟩ := lsbLoop_sync total a b ha hb _ (planes a b) s1 bc1 l1 h2
      rw [run_bind, h3, Res.ok_bind]
      simp only
      rw [← bind_assoc, setq, pure_bind, neighbour_weight a b ha hb, pure_bind, setw, pure_bind]
      exact final s2 bc2 l2 h4
    · have hm' := hm
      rw [not_ne_iff] at hm'
      have hp0 : planes a b = 0 := by
        by_contra h0
        exact planes_pos a b (by omega) hm'
      rw [hp0] at hm' h2 ⊢
      have ha0 : a = 0 := by simp at hm'; omega
      have hb0 : b = 0 := by simp at hm'; omega
      subst ha0 hb0
      rw [if_neg (by simp), if_neg (by omega)]
      rw [← bind_assoc, setq, pure_bind, setw, pure_bind]
      exact final s1 bc1 l1 h2

theorem msbAt_valid (ctx lev : Nat) :
    FreqTable (msbAt tables ctx lev) ∧ (msbAt tables ctx lev).length = 17 :=
  (msb_valid (ctx + min lev 7 * 131072)).2

theorem escapes_valid (ctx lev k : Nat) : ∀ x ∈ escapes tables ctx lev k, FreqTable x.1 ∧ x.2 < x.1.length := by
  induction k generalizing lev with
  | zero => simp [escapes]
  | succ k ih =>
    intro x hx
    simp only [escapes, List.mem_cons] at hx
    rcases hx with rfl | hx
    · obtain ⟨-, h2, h3⟩ := msb_valid (ctx + min lev 7 * 131072)
      exact ⟨h2, by simp only [msbAt]; rw [h3]; omega⟩
    · exact ih _ x hx

theorem lower_valid (a b k : Nat) : ∀ x ∈ lower tables a b k, FreqTable x.1 ∧ x.2 < x.1.length := by
  induction k with
  | zero => simp [lower]
  | succ k ih =>
    intro x hx
    simp only [lower, List.mem_cons] at hx
    rcases hx with rfl | hx
    · obtain ⟨-, h2, h3⟩ := lsb_valid (if a / 2 ^ (k + 1) = 0 then 1 else if b / 2 ^ (k + 1) = 0 then 0 else 2)
        (by split <;> [omega; split <;> omega])
      exact ⟨h2, by simp only; rw [h3]; omega⟩
    · exact ih x hx

theorem pair_valid (ctx a b : Nat) : ∀ x ∈ pair tables ctx a b, FreqTable x.1 ∧ x.2 < x.1.length := by
  intro x hx
  simp only [pair, List.mem_append, List.mem_cons] at hx
  rcases hx with hx | rfl | hx
  · exact escapes_valid _ _ _ x hx
  · obtain ⟨-, h2, h3⟩ := msb_valid (ctx + min (planes a b) 7 * 131072)
    obtain ⟨h4, h5⟩ := planes_spec a b
    exact ⟨h2, by simp only [msbAt]; rw [h3]; omega⟩
  · exact lower_valid _ _ _ x hx

theorem symbols_valid (n : Nat) (prev : List Nat) (ps : List (Nat × Nat)) (cur : List Nat) (c : Nat) :
    ∀ x ∈ symbols tables n prev ps cur c, FreqTable x.1 ∧ x.2 < x.1.length := by
  induction ps generalizing cur c with
  | nil =>
    intro x hx
    simp only [symbols] at hx
    split at hx
    · simp only [stop, List.mem_cons, List.not_mem_nil, or_false] at hx
      rcases hx with rfl | rfl
      · obtain ⟨h2, h3⟩ := msbAt_valid (used cur (running prev cur c)) 0
        dsimp only
        exact ⟨h2, lt_of_lt_of_eq (by norm_num : 16 < 17) h3.symm⟩
      · obtain ⟨h2, h3⟩ := msbAt_valid (used cur (running prev cur c)) 1
        dsimp only
        rw [h3]
        exact ⟨h2, by norm_num⟩
    · simp at hx
  | cons p ps ih =>
    intro x hx
    simp only [symbols, List.mem_append] at hx
    rcases hx with hx | hx
    · exact pair_valid _ _ _ x hx
    · exact ih _ _ x hx

theorem escapes_length (ctx lev k : Nat) : (escapes tables ctx lev k).length = k := by
  induction k generalizing lev with
  | zero => rfl
  | succ k ih => simp [escapes, ih]

theorem lower_length (a b k : Nat) : (lower tables a b k).length = k := by
  induction k with
  | zero => rfl
  | succ k ih => simp [lower, ih]

theorem symbols_length (n : Nat) (prev : List Nat) (ps : List (Nat × Nat))
    (hps : ∀ p ∈ ps, p.1 < 2 ^ 30 ∧ p.2 < 2 ^ 30) (cur : List Nat) (c : Nat) :
    (symbols tables n prev ps cur c).length ≤ 57 * ps.length + 2 := by
  induction ps generalizing cur c with
  | nil => simp only [symbols]; split <;> simp [stop]
  | cons p ps ih =>
    have h1 := ih (fun p hp => hps p (by simp [hp])) (cur ++ [weight p.1 p.2]) (running prev cur c)
    have h2 := planes_le p.1 p.2 (hps p (by simp)).1 (hps p (by simp)).2
    simp only [symbols, pair, List.length_append, List.length_cons, escapes_length, lower_length]
    omega

/-- The signs given to magnitudes. -/
theorem withSigns_signBits (vs : List Int) (l : List Bool) (ws : List Int) :
    withSigns (vs.map (fun v => (v.natAbs : Int)) ++ ws) (signBits vs ++ l) =
      (withSigns ws l).map fun r => (vs ++ r.1, r.2) := by
  induction vs with
  | nil => simp [signBits]
  | cons v vs ih =>
    simp only [List.map_cons, List.cons_append, withSigns, signBits]
    by_cases h : v = 0
    · subst h
      simp only [Int.natAbs_zero, Nat.cast_zero, if_true, ih]
      cases withSigns ws l <;> rfl
    · rw [if_neg (by omega), if_neg h]
      simp only [List.cons_append, ih]
      have e : (if decide (0 < v) = true then (v.natAbs : Int) else -(v.natAbs : Int)) = v := by
        by_cases h0 : 0 < v
        · rw [if_pos (by simpa using h0)]; omega
        · rw [if_neg (by simpa using h0)]; omega
      rw [e]
      cases withSigns ws l <;> rfl

theorem withSigns_zeros (k : Nat) (l : List Bool) :
    withSigns (List.replicate k 0) l = some (List.replicate k 0, l) := by
  induction k with
  | zero => rfl
  | succ k ih => simp [List.replicate_succ, withSigns, ih]

/-- The magnitudes of pairs. -/
def mags (vs : List (Int × Int)) : List (Nat × Nat) := vs.map fun v => (v.1.natAbs, v.2.natAbs)

theorem flat_mags (vs : List (Int × Int)) :
    flat (asInts (mags vs)) = (flat vs).map fun v => (v.natAbs : Int) := by
  induction vs with
  | nil => rfl
  | cons v vs ih =>
    simp only [asInts, mags, List.map_cons, flat] at ih ⊢
    rw [ih]

theorem flat_length {α : Type} (vs : List (α × α)) : (flat vs).length = 2 * vs.length := by
  induction vs with
  | nil => rfl
  | cons v vs ih => simp only [flat, List.length_cons, ih]; omega

theorem mem_flat {α : Type} (vs : List (α × α)) (x : α) (h : x ∈ flat vs) : ∃ p ∈ vs, x = p.1 ∨ x = p.2 := by
  induction vs with
  | nil => simp [flat] at h
  | cons v vs ih =>
    simp only [flat, List.mem_cons] at h
    rcases h with h | h | h
    · exact ⟨v, by simp, Or.inl h⟩
    · exact ⟨v, by simp, Or.inr h⟩
    · obtain ⟨p, h1, h2⟩ := ih h
      exact ⟨p, by simp [h1], h2⟩

theorem renormalise_length (k : Nat) (e : Enc) :
    (renormalise k e).1.length + (renormalise k e).2.pending ≤ e.pending + k := by
  induction k generalizing e with
  | zero => simp [renormalise]
  | succ k ih =>
    unfold renormalise
    split
    · have := ih ⟨2 * e.low, 2 * e.high + 1, 0⟩
      simp only [List.length_append, emit_length]
      simp only at this
      omega
    · split
      · have := ih ⟨2 * (e.low - 32768), 2 * (e.high - 32768) + 1, 0⟩
        simp only [List.length_append, emit_length]
        simp only at this
        omega
      · split
        · have := ih ⟨2 * (e.low - 16384), 2 * (e.high - 16384) + 1, e.pending + 1⟩
          simp only at this
          omega
        · simp

theorem encode_length_le (xs : List (List Nat × Nat)) (e : Enc) :
    (encode e xs).length ≤ e.pending + 16 * xs.length + 2 := by
  induction xs generalizing e with
  | nil => simp [encode, flush_length]
  | cons x xs ih =>
    have h1 := renormalise_length 16 (narrow x.1 e x.2)
    have h2 := ih (renormalise 16 (narrow x.1 e x.2)).2
    have h3 : (narrow x.1 e x.2).pending = e.pending := rfl
    simp only [encode, List.length_append, List.length_cons]
    omega

/-- **C113** (partial) Decoding the published coding of a spectrum gives the spectrum, leaves exactly
the bits after it, and leaves the weights of its pairs as the context for the next window.  Missing:
magnitudes of `2 ^ 30` and more (C58) and codes within 15 bits of the end of the input (C32). -/
theorem C113_spectrum_partial (fuel n presN : Nat) (hf : 29 ≤ fuel) (hn : n ≤ presN) (hN : presN ≤ 2 ^ 20)
    (x y : Int) (old zs z2 : List Int) (hold : old.length = presN)
    (prev : List Nat) (hp : ∀ v ∈ prev, v ≤ 15) (hpl : prev.length = presN)
    (vs : List (Int × Int)) (hvs : ∀ p ∈ vs, p.1.natAbs < 2 ^ 30 ∧ p.2.natAbs < 2 ^ 30) (hlen : vs.length ≤ n)
    (tail : List Bool) (ht : 15 ≤ (signBits (flat vs) ++ tail).length) (q : Nat) (hq : 2 * presN ≤ q) :
    level2 fuel n presN (x :: y :: (old ++ 0 :: zs)) (0 :: 0 :: (prev.map Nat.cast ++ z2)) (List.replicate q 0)
      (encode Enc.start (spectrum tables n prev (mags vs)) ++ (signBits (flat vs) ++ tail)) =
    .ok ((x :: y :: (prev.map Nat.cast ++ 0 :: zs),
      0 :: 0 :: ((vs.map fun p => ((weight p.1.natAbs p.2.natAbs : Nat) : Int)) ++
        List.replicate (presN - vs.length) 1 ++ z2),
      flat vs ++ List.replicate (q - 2 * vs.length) 0), tail) := by
  have hps : ∀ p ∈ mags vs, p.1 < 2 ^ 30 ∧ p.2 < 2 ^ 30 := by
    intro p hp
    simp only [mags, List.mem_map] at hp
    obtain ⟨v, hv, rfl⟩ := hp
    exact hvs v hv
  have hml : (mags vs).length = vs.length := by simp [mags]
  have hsl := symbols_length n prev (mags vs) hps [] (prev.getD 0 0 * 4096)
  have hxl : (spectrum tables n prev (mags vs)).length < 2 ^ 27 - 1 := by
    unfold spectrum; rw [show (2 : Nat) ^ 27 - 1 = 134217727 by norm_num]; norm_num at hN; omega
  have hcl := encode_length_le (spectrum tables n prev (mags vs)) Enc.start
  obtain ⟨s, l', h⟩ := C32_decode_encode_partial (spectrum tables n prev (mags vs))
    (symbols_valid n prev (mags vs) [] (prev.getD 0 0 * 4096))
    hxl (signBits (flat vs) ++ tail) ht
  generalize hL : encode Enc.start (spectrum tables n prev (mags vs)) = code at h hcl ⊢
  rw [run_bind, run_firstSymbol, Res.ok_bind] at h
  simp only at h
  have hsync : Sync (14 + (code.length : Int)) (spectrum tables n prev (mags vs))
      ⟨0, 65535, pv 16 (code ++ (signBits (flat vs) ++ tail))⟩ 16 ((code ++ (signBits (flat vs) ++ tail)).drop 16) := ⟨s, l', h⟩
  have hg : prev.getD 0 0 * 4096 < 65536 := by
    rw [List.getD_eq_getElem?_getD]
    cases hx : prev[0]? with
    | none => simp
    | some v => have := hp v (List.mem_of_getElem? hx); simp; omega
  obtain ⟨c', s', l2, h2⟩ := tuples_sync (14 + (code.length : Int)) n presN fuel hn hf prev hp hpl x y zs z2 (mags vs) hps []
    (by simp) (by simpa [hml] using hlen) (prev.getD 0 0 * 4096) hg [] (List.replicate q 0) rfl
    (by rw [List.length_replicate]; simp; omega) _ _ _ hsync
  simp only [List.length_nil, Nat.sub_zero, List.map_nil, List.nil_append, Nat.zero_add, hml, List.drop_replicate,
    flat_mags] at h2
  have hroll : rollContext (x :: y :: (old ++ 0 :: zs)) (0 :: 0 :: (prev.map Nat.cast ++ z2)) presN =
      (x :: y :: (prev.map Nat.cast ++ 0 :: zs), 0 :: 0 :: (List.replicate presN 1 ++ z2)) := by
    unfold rollContext
    have e1 : List.drop presN (old ++ 0 :: zs) = 0 :: zs := by rw [← hold]; simp
    have e2 : List.take presN (prev.map (Nat.cast : Nat → Int) ++ z2) = prev.map Nat.cast := by
      rw [← hpl]; rw [show prev.length = (prev.map (Nat.cast : Nat → Int)).length by simp]; exact List.take_left
    have e3 : List.drop presN (prev.map (Nat.cast : Nat → Int) ++ z2) = z2 := by
      rw [← hpl]; rw [show prev.length = (prev.map (Nat.cast : Nat → Int)).length by simp]; exact List.drop_left
    have e4 : 2 + presN = presN + 1 + 1 := by omega
    rw [e4]
    simp only [List.drop_succ_cons, List.take_succ_cons, List.take_zero, List.drop_zero, e1, e2, e3]
    simp
  have harith : run (level2Arith fuel n presN (x :: y :: (old ++ 0 :: zs)) (0 :: 0 :: (prev.map Nat.cast ++ z2)) (List.replicate q 0))
      (code ++ (signBits (flat vs) ++ tail)) = .ok ((x :: y :: (prev.map Nat.cast ++ 0 :: zs),
        ⟨0 :: 0 :: ((vs.map fun p => ((weight p.1.natAbs p.2.natAbs : Nat) : Int)) ++
          List.replicate (presN - vs.length) 1 ++ z2),
        ((flat vs).map fun v => (v.natAbs : Int)) ++ List.replicate (q - 2 * vs.length) 0, c', s', 14 + (code.length : Int)⟩), l2) := by
    unfold level2Arith
    rw [if_neg (by simp; omega), hroll]
    simp only
    rw [run_bind, run_firstSymbol, Res.ok_bind]
    simp only
    have e0 : getAt (x :: y :: (prev.map (Nat.cast : Nat → Int) ++ 0 :: zs)) 2 = pure ((prev.getD 0 0 : Nat) : Int) := by
      apply getAt_pure
      cases prev <;> rfl
    rw [e0, pure_bind, run_bind]
    push_cast at h2
    rw [h2, Res.ok_bind]
    simp [mags]
  unfold level2
  rw [harith, Res.ok_bind]
  simp only
  have hsigns : run (level2Signs presN (14 + (code.length : Int))
      (((flat vs).map fun v => (v.natAbs : Int)) ++ List.replicate (q - 2 * vs.length) 0))
      (code ++ (signBits (flat vs) ++ tail)) = .ok (flat vs ++ List.replicate (q - 2 * vs.length) 0, tail) := by
    have hxl' : (spectrum tables n prev (mags vs)).length < 134217727 := by norm_num at hxl; exact hxl
    unfold level2Signs
    have hw : w32 (14 + (code.length : Int) - 14) = pure (code.length : Int) := by
      simp only [Enc.start] at hcl
      unfold w32 Ops.i32
      rw [show 14 + (code.length : Int) - 14 = code.length by omega,
        if_pos (by unfold Ops.MIN_32 Ops.MAX_32; omega)]
      rfl
    rw [hw, pure_bind, run_bind, run_avail, Res.ok_bind]
    simp only
    rw [if_neg (by simp only [List.length_append]; omega)]
    have hd : ∀ p : Prog (List Int), run (if 0 < (code.length : Int) then (drop (code.length : Int) >>= fun _ => p) else p)
        (code ++ (signBits (flat vs) ++ tail)) = run p (signBits (flat vs) ++ tail) := by
      intro p
      split
      · rw [run_bind, run_drop, if_neg (by omega), if_neg (by simp only [List.length_append]; omega), Res.ok_bind]
        simp
      · have : code = [] := List.length_eq_zero_iff.1 (by omega)
        subst this
        rfl
    rw [hd]
    have hfl := flat_length vs
    rw [C58_signs_partial presN _ _ (by simp only [List.length_append, List.length_map, List.length_replicate]; omega) ?_]
    · have e1 : List.take (2 * presN) (((flat vs).map fun v => (v.natAbs : Int)) ++ List.replicate (q - 2 * vs.length) 0) =
          ((flat vs).map fun v => (v.natAbs : Int)) ++ List.replicate (2 * presN - 2 * vs.length) 0 := by
        rw [List.take_append, List.take_of_length_le (by rw [List.length_map]; omega), List.take_replicate, List.length_map,
          hfl, Nat.min_eq_left (by omega)]
      have e2 : List.drop (2 * presN) (((flat vs).map fun v => (v.natAbs : Int)) ++ List.replicate (q - 2 * vs.length) 0) =
          List.replicate (q - 2 * presN) 0 := by
        rw [List.drop_append, List.drop_of_length_le (by rw [List.length_map]; omega), List.drop_replicate, List.length_map,
          hfl, List.nil_append]
        congr 1; omega
      rw [e1, e2, withSigns_signBits, withSigns_zeros]
      simp only [Option.map_some, List.append_assoc, List.replicate_append_replicate]
      rw [show 2 * presN - 2 * vs.length + (q - 2 * presN) = q - 2 * vs.length by omega]
    · intro v hv
      rcases List.mem_append.1 hv with hv | hv
      · obtain ⟨w, hw, rfl⟩ := List.mem_map.1 hv
        obtain ⟨p, hp, h⟩ := mem_flat vs w hw
        have := hvs p hp
        norm_num at this
        rcases h with rfl | rfl <;> omega
      · rw [List.eq_of_mem_replicate hv]; omega
  rw [hsigns]
  rfl

/-- A window of 4 pairs of which 3 are coded, after a window with weights 3, 1, 1, 2. -/
example : level2 40 4 4 [0, 0, 7, 7, 7, 7, 0] [0, 0, 3, 1, 1, 2, 0, 0] (List.replicate 8 0)
      (encode Enc.start (spectrum tables 4 [3, 1, 1, 2] (mags [(1, -2), (0, 0), (-37, 5)])) ++
        (signBits (flat [(1, -2), (0, 0), (-37, 5)]) ++ List.replicate 12 true)) =
    .ok (([0, 0, 3, 1, 1, 2, 0], [0, 0, 4, 1, 15, 1, 0, 0], [1, -2, 0, 0, -37, 5, 0, 0]),
      List.replicate 12 true) :=
  C113_spectrum_partial 40 4 4 (by omega) (by omega) (by omega) 0 0 [7, 7, 7, 7] [] [0, 0] rfl [3, 1, 1, 2]
    (by decide) rfl [(1, -2), (0, 0), (-37, 5)] (by decide) (by decide) (List.replicate 12 true) (by decide) 8 (by omega)

end Verif.Arith
