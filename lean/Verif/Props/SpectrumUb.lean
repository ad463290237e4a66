import Verif.Props.Spectrum

/-! # Undefined behaviour and signs in spectral decoding (C57, C58) -/

namespace Verif.Arith

open Prog ArithCode

/-- The escape loop with any counter. -/
theorem escLoop_any (s1 : Int) (fuel : Nat) (lev : Nat) (s : St) (bc : Int) (l : List Bool)
    (hs : Good s) (hb0 : 0 ≤ bc) (hb : bc + 16 * fuel ≤ 2147483647) :
    run (escLoop s1 fuel lev s bc) l = .err .arithDecodeFailed ∨
    run (escLoop s1 fuel lev s bc) l = .err stillRunning ∨
    ∃ m j s' K, run (escLoop s1 fuel lev s bc) l = .ok ((m, lev + j, s', bc + (K : Nat)), l.drop K) ∧
      m < 16 ∧ j < fuel ∧ Good s' ∧ K ≤ 16 * fuel := by
  induction fuel generalizing lev s bc l with
  | zero => right; left; rfl
  | succ fuel ih =>
    push_cast at hb
    unfold escLoop
    have hoff : min lev 7 < 8 := by omega
    have hoffs : ∃ off, getAt escNbOffset (min lev 7) = pure off := by
      have : ∀ i < 8, ∃ off, getAt escNbOffset i = pure off := by
        intro i hi
        interval_cases i <;> exact ⟨_, rfl⟩
      exact this _ hoff
    obtain ⟨off, hoff⟩ := hoffs
    rw [hoff, pure_bind]
    obtain ⟨hpk, hlt⟩ := C34_getPk ((s1 + off) % 4294967296).toNat
    rw [hpk]
    rw [show (lift (Res.ok (pkSpec ((s1 + ↑off) % 4294967296).toNat)) : Prog Nat) =
      pure (pkSpec ((s1 + ↑off) % 4294967296).toNat) from rfl, pure_bind]
    obtain ⟨tbl, ht1, ht2, ht3, ht4⟩ := cfM_valid _ hlt
    rw [getAt, ht1]
    simp only
    rw [pure_bind, ← ht3, run_bind]
    rcases decode_ok ht2 hs bc (by omega) (by omega) l with ⟨_, _, h⟩ | ⟨hne, sym, s', k, hk, h, hsym, hg, hsh, -⟩
    · left; rw [h]; rfl
    · rw [h, Res.ok_bind]
      simp only
      by_cases hm : sym < 16
      · right; right
        rw [if_pos hm]
        exact ⟨sym, 0, s', k, by simp, hm, by omega, hg, by omega⟩
      · rw [if_neg hm]
        rcases ih (lev + 1) s' (bc + (k : Nat)) (l.drop k) hg (by omega) (by omega) with
          h | h | ⟨m, j, s'', K, h1, h2, h3, h4, h5⟩
        · left; exact h
        · right; left; exact h
        · right; right
          refine ⟨m, j + 1, s'', k + K, ?_, h2, by omega, h4, by omega⟩
          have e1 : bc + (k : Int) + (K : Nat) = bc + ((k + K : Nat) : Int) := by push_cast; omega
          have e2 : lev + 1 + j = lev + (j + 1) := by omega
          rw [h1, List.drop_drop, e1, e2]

/-- All values lie between 0 and `MAX_32`. -/
def Mags (q : List Int) : Prop := ∀ v ∈ q, 0 ≤ v ∧ v ≤ 2147483647

theorem Mags.set {q : List Int} (h : Mags q) {i : Nat} {v : Int} (h0 : 0 ≤ v) (h1 : v ≤ 2147483647) :
    Mags (q.set i v) := by
  intro x hx
  rcases List.mem_or_eq_of_mem_set hx with hx | rfl
  · exact h _ hx
  · exact ⟨h0, h1⟩

theorem getAt_lt {α : Type} (tbl : List α) (i : Nat) (h : i < tbl.length) :
    getAt tbl i = pure tbl[i] := by
  unfold getAt; rw [List.getElem?_eq_getElem h]

theorem setAt_lt {α : Type} (tbl : List α) (i : Nat) (v : α) (h : i < tbl.length) :
    setAt tbl i v = pure (tbl.set i v) := by
  unfold setAt; rw [if_pos h]

/-- The tuple loop when no tuple needs more than 28 escapes. -/
theorem tuples_safe (fuel : Nat) (cPrev : List Int) (k i : Nat) (t : Tup) (l : List Bool)
    (hs : Good t.st) (hf : fuel ≤ 29) (hb0 : 0 ≤ t.bc) (hb : t.bc + 1000 * k ≤ 2147483647)
    (hp : i + k + 2 < cPrev.length) (hc : i + k + 2 ≤ t.cPres.length)
    (hq : 2 * (i + k) ≤ t.quant.length) (hm : Mags t.quant) :
    run (tuples fuel cPrev k i t) l = .err .arithDecodeFailed ∨
    run (tuples fuel cPrev k i t) l = .err stillRunning ∨
    ∃ t' l', run (tuples fuel cPrev k i t) l = .ok (t', l') ∧ Mags t'.quant ∧
      t'.quant.length = t.quant.length ∧ 0 ≤ t'.bc ∧ t'.bc ≤ t.bc + 1000 * k := by
  induction k generalizing i t l with
  | zero => right; right; exact ⟨t, l, rfl, hm, rfl, hb0, by simp⟩
  | succ k ih =>
    push_cast at hb
    unfold tuples
    rw [getAt_lt cPrev (i + 3) (by omega), pure_bind, getAt_lt t.cPres (i + 1) (by omega), pure_bind,
      getAt_lt t.cPres i (by omega), pure_bind]
    have h3 : ∃ v, (if 3 < i then getAt t.cPres (i - 1) else pure 0) = (pure v : Prog Int) := by
      split
      · exact ⟨_, getAt_lt _ _ (by omega)⟩
      · exact ⟨0, rfl⟩
    obtain ⟨p3, h3⟩ := h3
    rw [h3, pure_bind]
    simp only
    generalize getContext _ _ _ _ _ _ = g
    rw [run_bind]
    rcases escLoop_any g.1 fuel 0 t.st t.bc l hs hb0 (by omega) with
      h | h | ⟨m, j, s', K, h, hm16, hj, hg, hK⟩
    · left; rw [h]; rfl
    · right; left; rw [h]; rfl
    rw [h, Res.ok_bind]
    simp only [Nat.zero_add]
    split
    · rw [run_bind]
      rcases lsbLoop_ok j (m % 4 : Nat) (m / 4 : Nat) s' (t.bc + (K : Nat)) (l.drop K) hg (by omega)
        (by omega) (by omega) (by omega) (by omega) (by omega) with
        h | ⟨a, b, s'', K', h, hg', hK', ha0, ha1, hb0', hb1', ha2, hb2⟩
      · left; rw [h]; rfl
      rw [h, Res.ok_bind]
      simp only
      have hpow : (2 : Int) ^ j ≤ 2 ^ 28 := pow_le_pow_right₀ (by norm_num) (by omega)
      have hpow0 : (0 : Int) < 2 ^ j := by positivity
      norm_num at hpow
      have hj1 : (2 : Int) ^ j * (((m % 4 : Nat) : Int) + 1) ≤ 268435456 * 4 :=
        mul_le_mul hpow (by omega) (by omega) (by omega)
      have hj2 : (2 : Int) ^ j * (((m / 4 : Nat) : Int) + 1) ≤ 268435456 * 4 :=
        mul_le_mul hpow (by omega) (by omega) (by omega)
      have hn : ∃ v, neighbour a b = pure v := by
        unfold neighbour
        rw [if_neg (by omega)]
        unfold w32 Ops.i32 Ops.MIN_32 Ops.MAX_32
        rw [if_pos (by omega), show (lift (Res.ok (a + b)) : Prog Int) = pure (a + b) from rfl, pure_bind,
          if_pos (by omega)]
        exact ⟨_, rfl⟩
      obtain ⟨v, hn⟩ := hn
      rw [setAt_lt _ _ _ (by omega), pure_bind, setAt_lt _ _ _ (by rw [List.length_set]; omega),
        pure_bind, hn, pure_bind, setAt_lt _ _ _ (by omega), pure_bind]
      rcases ih (i + 1) ⟨t.cPres.set (i + 2) v, (t.quant.set (2 * i) a).set (2 * i + 1) b, g.2, s'',
        t.bc + (K : Nat) + (K' : Nat)⟩ ((l.drop K).drop K') hg' (by dsimp only; omega)
        (by dsimp only; omega) (by omega) (by simp only [List.length_set]; omega)
        (by simp only [List.length_set]; omega) ((hm.set ha0 ha1).set hb0' hb1') with
        h | h | ⟨t', l', h, h1, h2, h3, h4⟩
      · left; exact h
      · right; left; exact h
      · right; right
        refine ⟨t', l', h, h1, ?_, h3, ?_⟩
        · simpa using h2
        · dsimp only at h4; push_cast; omega
    · split
      · right; right
        exact ⟨_, _, rfl, hm, rfl, by dsimp only; omega, by dsimp only; push_cast; omega⟩
      · rw [setAt_lt _ _ _ (by omega), pure_bind, setAt_lt _ _ _ (by rw [List.length_set]; omega),
          pure_bind, setAt_lt _ _ _ (by omega), pure_bind]
        rcases ih (i + 1) ⟨t.cPres.set (i + 2) 1, (t.quant.set (2 * i) 0).set (2 * i + 1) 0, g.2, s',
          t.bc + (K : Nat)⟩ (l.drop K) hg (by dsimp only; omega)
          (by dsimp only; omega) (by omega) (by simp only [List.length_set]; omega)
          (by simp only [List.length_set]; omega)
          ((hm.set (by omega) (by omega)).set (by omega) (by omega)) with
          h | h | ⟨t', l', h, h1, h2, h3, h4⟩
        · left; exact h
        · right; left; exact h
        · right; right
          refine ⟨t', l', h, h1, ?_, h3, ?_⟩
          · simpa using h2
          · dsimp only at h4; push_cast; omega

theorem run_applySign_zero (l : List Bool) : run (applySign 0) l = .ok (0, l) := rfl

theorem run_applySign_nil (t : Int) (h : t ≠ 0) : run (applySign t) [] = .jump := by
  unfold applySign
  rw [if_pos h, run_bind, run_bits]
  rfl

theorem run_applySign_max (b : Bool) (l : List Bool) :
    run (applySign 2147483647) (b :: l) = .ok (0, l) := by
  unfold applySign
  rw [if_pos (by decide), run_bind, run_bits, if_neg (by simp), if_neg (by decide), Res.ok_bind]
  simp only
  rw [if_pos (by simp), run_w32 (by omega) (by omega)]
  simp

theorem bit_mul (b : Bool) (t : Int) (h0 : 0 ≤ t) (h1 : t < 2147483647) :
    Ops.mul32ShSat (2 * (b.toNat : Nat)) t 0 =
      .ok (if b then min (2 * t) 2147483647 else 0) := by
  unfold Ops.mul32ShSat Ops.shr64 Ops.i64 Ops.MAX_32 Ops.MIN_32 Ops.MAX_64 Ops.MIN_64 toI32
  cases b
  · simp [Bool.toNat]
  · simp only [Bool.toNat, cond_true, if_true, Nat.cast_one, mul_one]
    rw [if_pos (by omega), Res.ok_bind, if_pos (by omega), Res.ok_bind]
    simp only [Int.toNat_zero, pow_zero, Int.ediv_one]
    split
    · congr 1; omega
    · rw [if_neg (by omega)]; congr 1; omega

theorem bitsVal_one (b : Bool) (l : List Bool) : bitsVal ((b :: l).take 1) = b.toNat := by
  cases b <;> rfl

theorem shl_bit (b : Bool) : Ops.shl32Sat (b.toNat : Nat) 1 = .ok (2 * (b.toNat : Nat)) := by
  cases b <;> decide

theorem run_applySign_cons (t : Int) (h0 : 0 < t) (h1 : t < 2147483647) (b : Bool) (l : List Bool) :
    run (applySign t) (b :: l) = .ok (if b then min (2 * t) 2147483647 - t else - t, l) := by
  unfold applySign
  rw [if_pos (by omega), run_bind, run_bits, if_neg (by simp), if_neg (by decide), Res.ok_bind]
  simp only
  rw [bitsVal_one, if_neg (by cases b <;> simp [Bool.toNat] <;> omega), shl_bit, run_bind, run_lift_ok, Res.ok_bind]
  simp only
  rw [bit_mul b t (by omega) h1, run_bind, run_lift_ok, Res.ok_bind]
  simp only
  cases b
  · rw [run_w32 (by simp; omega) (by simp; omega)]; simp
  · rw [run_w32 (by simp; omega) (by simp; omega)]; simp

theorem applySign_noUb (t : Int) (h0 : 0 ≤ t) (h1 : t ≤ 2147483647) (l : List Bool) :
    run (applySign t) l = .jump ∨ ∃ v l', run (applySign t) l = .ok (v, l') := by
  rcases eq_or_ne t 0 with rfl | hn
  · right; exact ⟨_, _, rfl⟩
  match l with
  | [] => left; exact run_applySign_nil t hn
  | b :: l =>
    right
    rcases eq_or_ne t 2147483647 with rfl | hn'
    · exact ⟨_, _, run_applySign_max b l⟩
    · exact ⟨_, _, run_applySign_cons t (by omega) (by omega) b l⟩

theorem signs_noUb (k : Nat) (q : List Int) (l : List Bool) (hk : 2 * k ≤ q.length) (hq : Mags q) :
    run (signs k q) l ≠ .ub := by
  induction k generalizing q l with
  | zero => simp [signs]
  | succ k ih =>
    match q with
    | [] => simp at hk
    | [_] => simp at hk; omega
    | a :: b :: q =>
      simp only [signs]
      rw [run_bind]
      have ha := hq a (by simp)
      have hb := hq b (by simp)
      rcases applySign_noUb a ha.1 ha.2 l with h | ⟨v, l1, h⟩
      · rw [h]; simp
      rw [h, Res.ok_bind, run_bind]
      simp only
      rcases applySign_noUb b hb.1 hb.2 l1 with h | ⟨v', l2, h⟩
      · rw [h]; simp
      rw [h, Res.ok_bind, run_bind]
      simp only
      have h3 := ih q l2 (by simp at hk; omega) (fun x hx => hq x (by simp [hx]))
      generalize run (signs k q) l2 = r3 at h3
      match r3 with
      | .err c' => simp
      | .jump => simp
      | .ub => exact absurd rfl h3
      | .ok (z, l3) => simp

/-- With a counter of at most 29. -/
theorem level2_noUb (fuel n presN : Nat) (cPrev cPres quant : List Int) (l : List Bool)
    (hf : fuel ≤ 29) (hn : n ≤ presN) (hN : presN ≤ 512) (hcp : cPrev.length = 516)
    (hcs : cPres.length = 516) (hq : 2 * presN ≤ quant.length) (hm : Mags quant) :
    level2 fuel n presN cPrev cPres quant l ≠ .ub := by
  have hl1 : (rollContext cPrev cPres presN).1.length = 516 := by simp [rollContext]; omega
  have hl2 : (rollContext cPrev cPres presN).2.length = 516 := by simp [rollContext]; omega
  unfold level2 level2Arith
  rw [if_neg (by omega)]
  simp only
  rw [run_bind, run_firstSymbol, Res.ok_bind]
  simp only
  rw [getAt_lt _ _ (by omega), pure_bind, run_bind]
  rcases tuples_safe fuel (rollContext cPrev cPres presN).1 n 0
    ⟨(rollContext cPrev cPres presN).2, quant, (rollContext cPrev cPres presN).1[2] * 4096,
      ⟨0, 65535, pv 16 l⟩, 16⟩ (l.drop 16) (first_good l) hf (by simp)
    (by dsimp only; omega) (by omega) (by dsimp only; omega) (by dsimp only; omega) hm with
    h | h | ⟨t', l', h, h1, h2, h3, h4⟩
  · rw [h]; simp
  · rw [h]; simp
  rw [h]
  dsimp only at h2 h4
  simp only [Res.ok_bind, run_pure]
  unfold level2Signs
  rw [run_bind, run_w32 (by omega) (by omega), Res.ok_bind]
  simp only
  rw [run_bind, run_avail, Res.ok_bind]
  simp only
  have hs : ∀ l2, run (signs presN t'.quant) l2 ≠ .ub := fun l2 =>
    signs_noUb presN t'.quant l2 (by omega) h1
  have fin : ∀ (r : Res (List Int × List Bool)), r ≠ .ub →
      (r >>= fun q => (pure (((rollContext cPrev cPres presN).1, t'.cPres, q.1), q.2) :
        Res ((List Int × List Int × List Int) × List Bool))) ≠ .ub := by
    intro r hr
    match r with
    | .ok x => simp
    | .err c => simp
    | .jump => simp
    | .ub => exact absurd rfl hr
  apply fin
  split
  · simp
  · split
    · rw [run_bind, run_drop, if_neg (by omega), if_neg (by omega), Res.ok_bind]
      exact hs _
    · exact hs _

/-- **C57** (partial) When no tuple has more than 28 escapes, spectral decoding reads and writes only
inside its arrays and no signed addition overflows, whatever the bits, the context and the state of
the coefficient buffer. -/
theorem C57_no_ub_partial (fuel n presN : Nat) (cPrev cPres quant : List Int) (l : List Bool)
    (hn : n ≤ presN) (hN : presN ≤ 512) (hcp : cPrev.length = 516) (hcs : cPres.length = 516)
    (hq : 2 * presN ≤ quant.length) (hm : ∀ v ∈ quant, 0 ≤ v ∧ v ≤ 2147483647)
    (hesc : level2 29 n presN cPrev cPres quant l ≠ .err stillRunning) (hfuel : 29 ≤ fuel) :
    level2 fuel n presN cPrev cPres quant l ≠ .ub := by
  obtain ⟨d, rfl⟩ : ∃ d, fuel = 29 + d := ⟨fuel - 29, by omega⟩
  rw [C33_counter_irrelevant 29 d n presN cPrev cPres quant l hesc]
  exact level2_noUb 29 n presN cPrev cPres quant l (le_refl _) hn hN hcp hcs hq hm

/-- The bits of one tuple with `lev` escapes whose first value is all ones and whose second is 0. -/
def onesTuple (lev : Nat) : List Bool :=
  let tb (c : Nat) := match getPk c with | .ok i => cfM.getD i [] | _ => []
  encode Enc.start
    (((List.range lev).map fun i => (tb (131072 * min i 7), 16)) ++ [(tb (131072 * min lev 7), 1)] ++
      List.replicate lev (cfR.getD 0 [], 1))

example : (level2 29 1 1 (List.replicate 516 0) (List.replicate 516 0) [0, 0]
    (onesTuple 28 ++ List.replicate 17 true)).map (fun x => x.1.2.2) =
    .ok [536870911, 0] := by decide +kernel

/-- **C57** (refuted) A tuple with 30 escapes makes `a + b + 1` overflow (ia_core_coder_arith_dec.c 431): the guard
only looks for two large values. -/
theorem C57_refuted : ∃ l : List Bool,
    level2 (11 * (l.length + 32) + 1) 1 1 (List.replicate 516 0) (List.replicate 516 0) [0, 0] l =
      .ub :=
  ⟨onesTuple 30 ++ List.replicate 17 true, by decide +kernel⟩

/-- Reference: every value but 0 is followed by a sign bit, 1 for plus. -/
def withSigns : List Int → List Bool → Option (List Int × List Bool)
  | [], l => some ([], l)
  | v :: vs, l =>
    if v = 0 then (withSigns vs l).map fun r => (0 :: r.1, r.2)
    else match l with
      | [] => none
      | b :: l => (withSigns vs l).map fun r => ((if b then v else -v) :: r.1, r.2)

/-- What a sign makes of a value up to `2^30 - 1`. -/
theorem run_applySign_small (t : Int) (h0 : 0 < t) (h1 : t ≤ 1073741823) (b : Bool) (l : List Bool) :
    run (applySign t) (b :: l) = .ok (if b then t else -t, l) := by
  rw [run_applySign_cons t h0 (by omega)]
  cases b <;> simp
  omega

/-- **C58** (partial) For magnitudes below `2^30` the sign pass gives every coefficient that is not 0
its sign bit and leaves the others alone. -/
theorem C58_signs_partial (k : Nat) (q : List Int) (l : List Bool) (hk : 2 * k ≤ q.length)
    (hq : ∀ v ∈ q, 0 ≤ v ∧ v ≤ 1073741823) :
    run (signs k q) l = match withSigns (q.take (2 * k)) l with
      | some (vs, l') => .ok (vs ++ q.drop (2 * k), l')
      | none => .jump := by
  induction k generalizing q l with
  | zero => simp [signs, withSigns]
  | succ k ih =>
    match q with
    | [] => simp at hk
    | [_] => simp at hk; omega
    | a :: b :: q =>
      have ha := hq a (by simp)
      have hb := hq b (by simp)
      have ih' := fun l => ih q l (by simp at hk; omega) (fun x hx => hq x (by simp [hx]))
      have e : 2 * (k + 1) = 2 * k + 1 + 1 := by omega
      rw [e]
      simp only [List.take_succ_cons, List.drop_succ_cons, signs, withSigns]
      have step : ∀ (v : Int) (hv : 0 ≤ v ∧ v ≤ 1073741823) (l : List Bool),
          run (applySign v) l = if v = 0 then .ok (0, l) else match l with
            | [] => .jump
            | b :: l => .ok (if b then v else -v, l) := by
        intro v hv l
        split
        · rename_i h; subst h; rfl
        · rename_i h
          cases l with
          | nil => exact run_applySign_nil v h
          | cons b l => exact run_applySign_small v (by omega) hv.2 b l
      have tail : ∀ (x : Int) (l : List Bool), run (do
            let b ← applySign b
            let q ← signs k q
            pure (x :: b :: q)) l =
          match (if b = 0 then (withSigns (List.take (2 * k) q) l).map fun r => (0 :: r.1, r.2)
            else match l with
              | [] => none
              | c :: l => (withSigns (List.take (2 * k) q) l).map fun r =>
                  ((if c then b else -b) :: r.1, r.2)) with
          | some (vs, l') => .ok (x :: (vs ++ q.drop (2 * k)), l')
          | none => .jump := by
        intro x l
        rw [run_bind, step b hb]
        by_cases h : b = 0
        · rw [if_pos h, if_pos h, Res.ok_bind]
          simp only
          rw [run_bind, ih']
          cases withSigns (List.take (2 * k) q) l <;> simp
        · rw [if_neg h, if_neg h]
          cases l with
          | nil => rfl
          | cons c l =>
            simp only [Res.ok_bind]
            rw [run_bind, ih']
            cases withSigns (List.take (2 * k) q) l <;> simp
      rw [run_bind, step a ha]
      by_cases h : a = 0
      · rw [if_pos h, if_pos h, Res.ok_bind]
        simp only
        rw [tail]
        generalize (if b = 0 then _ else _ : Option (List Int × List Bool)) = o
        cases o <;> simp
      · rw [if_neg h, if_neg h]
        cases l with
        | nil => rfl
        | cons c l =>
          simp only [Res.ok_bind]
          rw [tail]
          generalize (if b = 0 then _ else _ : Option (List Int × List Bool)) = o
          cases o <;> simp

example : run (signs 2 [3, 0, 5, 7]) [true, false, false, true] = .ok ([3, 0, -5, -7], [true]) := by
  decide +kernel

/-- **C58** (refuted) The saturated magnitude `MAX_32` becomes 0 whatever its sign bit, and a
magnitude above `2^30` with a positive sign becomes another value. -/
theorem C58_refuted :
    run (applySign 2147483647) [true] = .ok (0, []) ∧
    run (applySign 2147483647) [false] = .ok (0, []) ∧
    run (applySign 2147483640) [true] = .ok (7, []) := by
  refine ⟨run_applySign_max _ _, run_applySign_max _ _, ?_⟩
  rw [run_applySign_cons _ (by norm_num) (by norm_num)]; rfl

end Verif.Arith
