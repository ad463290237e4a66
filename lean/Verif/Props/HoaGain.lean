import Verif.Props.HoaFrame
import Mathlib.Data.List.GetD

/-! # C229 to C233: gains, coefficients of the ambience and predominant sounds -/

namespace Verif.Hoa

open Prog

variable {α β : Type}

/-- Whatever is read, the result meets a condition. -/
def Only (p : Prog α) (P : α → Prop) : Prop := ∀ l a l', p.run l = .ok (a, l') → P a

theorem Only.pure {x : α} {P : α → Prop} (h : P x) : Only (Pure.pure x) P := by
  intro l a l' e
  cases e
  exact h

theorem Only.fail {c : ErrCode} {P : α → Prop} : Only (Prog.fail c : Prog α) P := fun l a l' e => by cases e

theorem Only.any {p : Prog α} : Only p (fun _ => True) := fun _ _ _ _ => trivial

theorem Only.bind {p : Prog α} {f : α → Prog β} {P : α → Prop} {Q : β → Prop} (hp : Only p P) (hf : ∀ a, P a → Only (f a) Q) : Only (p >>= f) Q := by
  intro l b l' e
  rw [run_bind, Res.bind_eq_ok] at e
  obtain ⟨⟨a, l1⟩, e1, e2⟩ := e
  exact hf a (hp l a l1 e1) l1 b l' e2

theorem Only.then {p : Prog α} {f : α → Prog β} {Q : β → Prop} (hf : ∀ a, Only (f a) Q) : Only (p >>= f) Q := Only.any.bind fun a _ => hf a

theorem Only.ite {c : Prop} [Decidable c] {p q : Prog α} {P : α → Prop} (h1 : c → Only p P) (h2 : ¬ c → Only q P) : Only (if c then p else q) P := by
  by_cases h : c
  · rw [if_pos h]; exact h1 h
  · rw [if_neg h]; exact h2 h

theorem Only.fold {σ : Type} {f : Nat → σ → Prog σ} {P : σ → Prop} (k i : Nat) (h : ∀ j s, i ≤ j → j < i + k → P s → Only (f j s) P) {s : σ} (hs : P s) :
    Only (foldN f k i s) P := fun _ _ _ e => fold_keeps k i (fun j s l s' l' h1 h2 hs e => h j s h1 h2 hs l s' l' e) e hs

theorem Only.foldI {σ : Type} {f : Nat → σ → Prog σ} (P : Nat → σ → Prop) (k i : Nat) (h : ∀ j s, i ≤ j → j < i + k → P j s → Only (f j s) (P (j + 1)))
    {s : σ} (hs : P i s) : Only (foldN f k i s) (P (i + k)) :=
  fun _ _ _ e => fold_grows P k i (fun j s l s' l' h1 h2 hs e => h j s h1 h2 hs l s' l' e) e hs

/-! ## C229: gain exponents -/

theorem unary_pos (f k : Nat) : Only (unary f k) (fun g => 1 ≤ g) := by
  induction f generalizing k with
  | zero => intro l a l' e; cases e
  | succ f ih =>
    unfold unary
    exact Only.then fun b => Only.ite (fun _ => Only.pure (by omega)) fun _ => ih (k + 1)

/-- The coded gains of a frame. -/
def Has (g : Nat → Nat) (s : Frame) : Prop := s.coded = g

variable {g : Nat → Nat}

theorem ambience_coded (c : Config) (i : Nat) {s : Frame} (hs : Has g s) : Only (ambience c i s) (Has g) := by
  unfold ambience
  refine Only.bind (P := Has g) ?_ fun s hs => ?_
  · exact Only.ite (fun _ => Only.then fun t => Only.ite (fun _ => Only.fail) fun _ => Only.then fun k => Only.ite (fun _ => Only.fail) fun _ => Only.pure hs)
      fun _ => Only.then fun m => Only.ite (fun _ => Only.pure hs) fun _ => Only.ite (fun _ => Only.pure hs) fun _ => Only.then fun k => Only.pure hs
  · exact Only.ite (fun _ => Only.ite (fun _ => Only.then fun _ => Only.pure hs) fun _ => Only.ite (fun _ => Only.then fun _ => Only.pure hs) fun _ =>
      Only.pure hs) fun _ => Only.pure hs

theorem quant_coded (c : Config) (i n : Nat) {s : Frame} (hs : Has g s) : Only (quant c i n s) (Has g) := by
  unfold quant
  exact Only.ite (fun _ => Only.then fun _ => Only.then fun _ => Only.pure hs) fun _ => Only.ite (fun _ => Only.then fun _ => Only.then fun _ => Only.pure hs)
    fun _ => Only.pure hs

theorem vector_coded (c : Config) (i : Nat) {s : Frame} (hs : Has g s) : Only (vector c i s) (Has g) := by
  unfold vector
  refine Only.ite (fun _ => Only.bind (P := Has g) (Only.ite (fun _ => Only.then fun _ => Only.pure hs) fun _ => Only.pure hs) fun s hs =>
    Only.then fun n => Only.ite (fun _ => Only.fail) fun _ => quant_coded c i n hs) fun _ => ?_
  have hs' : (if c.vecKind = 1 ∧ s.prevType i ≠ 1 then { s with newVec := upd s.newVec i 1 } else s).coded = g := by
    split <;> exact hs
  exact Only.then fun a => Only.then fun b => Only.ite (fun _ => Only.then fun k => quant_coded c i _ hs') fun _ => Only.pure hs'

/-- The gains coded so far are not 0 and, below `n`, not above 65. -/
def Coded (n : Nat) (s : Frame) : Prop := ∀ j < n, 1 ≤ s.coded j ∧ s.coded j ≤ 65

theorem channel_coded (c : Config) (i : Nat) {s : Frame} (hs : Coded i s) : Only (channel c i s) (Coded (i + 1)) := by
  unfold channel
  refine Only.then fun _ => Only.then fun t => Only.bind (P := Has s.coded) ?_ fun s1 h1 => Only.bind (P := Has s.coded) ?_
    fun s2 h2 => (unary_pos _ _).bind fun v hv => Only.ite (fun _ => Only.fail) fun hv2 => Only.then fun e => Only.pure ?_
  · exact Only.ite (fun _ => ambience_coded c i rfl) fun _ => Only.ite (fun _ => vector_coded c i rfl) fun _ => Only.ite (fun _ => by
      unfold direction
      exact Only.then fun d => Only.ite (fun _ => Only.fail) fun _ => Only.pure rfl) fun _ => Only.pure rfl
  · exact Only.ite (fun _ => by
      unfold prevGain
      exact Only.then fun _ => Only.pure h1) fun _ => Only.pure h1
  · intro j hj
    have : (enlist i { s2 with coded := upd s2.coded i v, exc := upd s2.exc i e }).coded = upd s2.coded i v := by
      unfold enlist
      split_ifs <;> rfl
    rw [this, show s2.coded = s.coded from h2]
    unfold upd
    split
    · omega
    · exact hs j (by omega)

theorem rest_coded (c : Config) {n i : Nat} (hi : n ≤ i) {s : Frame} (hs : Coded n s) : Only (restChannel c i s) (Coded n) := by
  unfold restChannel
  refine Only.then fun _ => Only.bind (P := Coded n) ?_ fun s hs => Only.then fun v => Only.then fun e => Only.pure fun j hj => ?_
  · exact Only.ite (fun _ => by
      unfold prevGain
      exact Only.then fun _ => Only.pure hs) fun _ => Only.pure hs
  · simp only [upd]
    rw [if_neg (by omega)]
    exact hs j hj

theorem vectorData_coded (c : Config) (ch idx : Nat) {s : Frame} (hs : Has g s) : Only (vectorData c ch idx s) (Has g) := by
  unfold vectorData
  refine Only.ite (fun _ => ?_) fun _ => Only.ite (fun _ => ?_) fun _ => Only.ite (fun _ => ?_) fun _ => Only.pure hs
  · unfold vqData
    have hp : ∀ j s, Has g s → Only (indexPair c ch idx j s) (Has g) := by
      intro j s hs
      unfold indexPair
      exact Only.then fun _ => Only.then fun _ => Only.then fun _ => Only.pure hs
    refine Only.then fun _ => Only.bind (P := Has g) (Only.ite (fun _ => Only.then fun w => Only.fold _ _ (fun j s _ _ hs => hp j s hs) hs)
      fun _ => hp 0 _ hs) fun s hs => Only.then fun _ => Only.fold _ _ (fun k s _ _ hs => ?_) hs
    exact Only.then fun b => Only.then fun _ => Only.pure hs
  · unfold wordData
    refine Only.fold _ _ (fun k s _ _ hs => ?_) hs
    exact Only.then fun b => Only.then fun v => Only.then fun _ => Only.then fun _ => Only.pure hs
  · unfold huffData
    refine Only.then fun _ => Only.bind (P := Has g) (Only.fold _ _ (fun k s _ _ hs => ?_) hs) fun s hs => Only.pure hs
    unfold huffElement
    exact Only.then fun b => Only.then fun _ => Only.then fun _ => Only.ite (fun _ => Only.pure hs) fun _ => Only.then fun cid => Only.ite
      (fun _ => Only.then fun v => Only.ite (fun _ => Only.then fun w => Only.pure hs) fun _ => Only.pure hs) fun _ => Only.pure hs

theorem vectors_coded (c : Config) (l : List Nat) (idx : Nat) {s : Frame} (hs : Has g s) : Only (vectors c l idx s) (Has g) := by
  induction l generalizing idx s with
  | nil => exact Only.pure hs
  | cons x l ih =>
    unfold vectors
    exact (vectorData_coded c _ idx hs).bind fun s hs => ih (idx + 1) hs

theorem prediction_coded (c : Config) {s : Frame} (hs : Has g s) : Only (prediction c s) (Has g) := by
  unfold prediction
  refine Only.ite (fun _ => Only.then fun on => Only.ite (fun _ => Only.bind (P := Has g) ?_ fun s hs => Only.bind (P := Has g)
    (Only.fold _ _ (fun j s _ _ hs => ?_) hs) fun s hs => Only.fold _ _ (fun j s _ _ hs => ?_) hs) fun _ => Only.pure hs) fun _ => Only.pure hs
  · unfold activePreds
    refine Only.then fun kind => Only.ite (fun _ => Only.fold _ _ (fun j s _ _ hs => ?_) hs) fun _ => Only.then fun n =>
      Only.fold _ _ (fun j s _ _ hs => ?_) hs
    · exact Only.then fun v => Only.pure hs
    · exact Only.then fun v => Only.then fun _ => Only.pure hs
  · unfold predId
    exact Only.then fun v => Only.then fun _ => Only.ite (fun _ => Only.then fun _ => Only.pure hs) fun _ => Only.pure hs
  · unfold predGain
    exact Only.then fun _ => Only.ite (fun _ => Only.then fun v => Only.pure hs) fun _ => Only.pure hs

/-- After a frame, the gains coded for the additional channels are between 1 and 65. -/
theorem frame_coded {c : Config} {s s' : Frame} {l l' : List Bool} (e : (frame c s).run l = .ok (s', l')) : Coded c.extra s' := by
  suffices h : Only (frame c s) (Coded c.extra) from h _ _ _ e
  clear e
  unfold frame
  refine Only.then fun f => Only.bind (P := Coded c.extra) ?_ fun s hs => Only.bind (P := Coded c.extra)
    (Only.fold _ _ (fun j s h1 _ hs => rest_coded c h1 hs) hs) fun s hs => Only.bind (P := Has s.coded) (vectors_coded c _ _ rfl)
    fun s1 h1 => Only.bind (P := Has s.coded) (prediction_coded c (s := { s1 with prevSgnSize := fun i => if i < s1.vecs.length then s1.sgnSize i else s1.prevSgnSize i }) h1) fun s2 h2 => Only.pure fun j hj => ?_
  · have := Only.foldI (f := channel c) Coded c.extra 0 (fun j s _ _ hs => channel_coded c j hs)
      (s := { s with indep := f != 0, vecs := [], numDir := 0, newVec := fun _ => 0, fadeIn := fun _ => 0, nonTrans := fun _ => 0 })
      (fun j hj => by omega)
    rwa [Nat.zero_add] at this
  · unfold keep
    rw [show s2.coded = s.coded from h2]
    exact hs j hj

/-- The exponents of the additional channels are powers that the tables have, so that no gain is undefined. -/
theorem C229_extra_partial {α : Type} [Field α] {c : Config} {s s' : Frame} {l l' : List Bool} (e : (frame c s).run l = .ok (s', l')) {ch : Nat}
    (h : ch < c.extra) : -1 ≤ exponent (s'.coded ch) ∧ exponent (s'.coded ch) ≤ 63 ∧
    ∀ (table : Nat → Nat → α) win len exception last, gains table win len (exponent (s'.coded ch)) exception last ≠ .ub := by
  obtain ⟨h1, h2⟩ := frame_coded e ch h
  have h3 : -1 ≤ exponent (s'.coded ch) ∧ exponent (s'.coded ch) ≤ 63 := by
    unfold exponent
    split_ifs <;> omega
  refine ⟨h3.1, h3.2, fun table win len exception last => ?_⟩
  unfold gains
  rw [if_pos (show (exponent (s'.coded ch)).natAbs < 64 by omega)]
  split_ifs <;> exact fun h => by cases h

/-- A frame whose channel of the ambience has exponent 64 is accepted; with an exception the gain is read from behind the table. -/
theorem C229_refuted : ∃ c l l2 s, (config 3 1024).run l = .ok (c, []) ∧ (frame c Frame.zero).run l2 = .ok (s, []) ∧ s.exc 2 = 1 ∧
    ∀ (table : Nat → Nat → ℚ) win len last, gains table win len (exponent (s.coded 2)) true last = .ub := by
  obtain ⟨s, h1, h2⟩ := seen_ok (f := fun s => (s.exc 2, s.coded 2)) (b := (1, 66)) (l := [])
    (r := (frame order2 Frame.zero).run ([true] ++ natBits 2 3 ++ noGain ++ natBits 2 3 ++ noGain ++ natBits 3 0 ++ List.replicate 65 false ++ [true, true]))
    (by decide +kernel)
  simp only [Prod.mk.injEq] at h2
  refine ⟨order2, order2Bits, _, s, order2_accepted, h1, h2.1, fun table win len last => ?_⟩
  rw [h2.2]
  rfl

example : ∃ s, (frame order2 Frame.zero).run ([true] ++ natBits 2 3 ++ (natBits 3 0 ++ List.replicate 64 false ++ [true, true]) ++ natBits 2 3 ++ noGain ++ noGain) =
    .ok (s, []) ∧ s.coded 0 = 65 := seen_ok (f := fun s => s.coded 0) (by decide +kernel)

/-! ## C230: the gain at the end of a frame -/

section Gain

variable {α : Type} [Field α]

/-- An exponent between -1 and 6, or an exception, multiplies the gain by that power of 2 over the frame, and the next frame starts from there: with tables
whose rows end at the powers, the factor of the last sample and the factors of a next frame without change are `2 ^ e` times the one before. -/
theorem C230_end_partial [CharZero α] (table : Nat → Nat → α) (win : Nat → α) (len : Nat) (hrow : ∀ k < 6, table k (len - 1) = 2 ^ (k + 1))
    (hlast : table 6 (len - 1) = 2⁻¹) (e : Int) (exception : Bool) (h1 : -1 ≤ e) (h2 : e ≤ if exception then 63 else 6) (last : α) :
    ∃ f last', gains table win len e exception last = .ok (f, last') ∧ f (len - 1) = 2 ^ e * (1 / last) ∧
      ∀ exc, ∃ f' last'', gains table win len 0 exc last' = .ok (f', last'') ∧ ∀ i, f' i = f (len - 1) := by
  have h0 : (2 : α) ≠ 0 := by norm_num
  unfold gains
  by_cases he : e = 0
  · refine ⟨fun _ => 1 / last, last, by rw [if_pos he], by simp [he], fun exc => ⟨fun _ => 1 / last, last, by rw [if_pos rfl], fun i => rfl⟩⟩
  rw [if_neg he]
  cases exception
  · simp only [Bool.false_eq_true, if_false] at h2 ⊢
    rw [if_neg (by omega)]
    by_cases hneg : e < 0
    · have : e = -1 := by omega
      subst this
      refine ⟨_, _, rfl, ?_, fun exc => ⟨_, _, rfl, fun i => ?_⟩⟩
      · change 1 / last * table 6 (len - 1) = _
        rw [hlast, zpow_neg_one, mul_comm]
      · change 1 / (last / table 6 (len - 1)) = 1 / last * table 6 (len - 1)
        rw [one_div_div, div_eq_mul_one_div, mul_comm]
    · obtain ⟨k, rfl⟩ : ∃ k : Nat, e = (k : Int) + 1 := ⟨(e - 1).toNat, by omega⟩
      have hr : (min (if ((k : Int) + 1) < 0 then (((k : Int) + 1).natAbs : Int) + 5 else (k : Int) + 1 - 1) 6).toNat = k := by
        rw [if_neg hneg]
        omega
      refine ⟨_, _, rfl, ?_, fun exc => ⟨_, _, rfl, fun i => ?_⟩⟩
      · simp only [hr]
        rw [hrow k (by omega), mul_comm, ← zpow_natCast]
        push_cast
        rfl
      · simp only [hr]
        rw [one_div_div, div_eq_mul_one_div, mul_comm]
  · simp only [if_true] at h2 ⊢
    rw [if_pos (by omega)]
    refine ⟨_, _, rfl, rfl, fun exc => ⟨_, _, rfl, fun i => ?_⟩⟩
    simp only [one_div, mul_inv, zpow_neg, inv_inv]

/-- From 7 on, which can be coded, the factor falls to `2 ^ (-e)`, and the next frame starts elsewhere. -/
theorem C230_refuted (table : Nat → Nat → ℚ) (win : Nat → ℚ) (len : Nat) (hwin : win (len - 1) = 1 / 2) : exponent 9 = 7 ∧
    ∃ f last', gains table win len (exponent 9) false 1 = .ok (f, last') ∧ f (len - 1) = 2 ^ (-7 : Int) ∧ f (len - 1) ≠ 2 ^ (7 : Int) ∧
      ∃ f' last'', gains table win len 0 false last' = .ok (f', last'') ∧ f' 0 = 2 ^ (7 : Int) := by
  refine ⟨rfl, _, _, rfl, ?_, ?_, _, _, rfl, ?_⟩
  · change win (len - 1) ^ (7 : Int) * (1 / 1) = _
    rw [hwin]
    norm_num
  · change win (len - 1) ^ (7 : Int) * (1 / 1) ≠ _
    rw [hwin]
    norm_num
  · change 1 / (1 * win (len - 1) ^ (7 : Int)) = _
    rw [hwin]
    norm_num

/-- A frame of 2 samples with such a table. -/
example : ∃ table : Nat → Nat → ℚ, (∀ k < 6, table k (2 - 1) = 2 ^ (k + 1)) ∧ table 6 (2 - 1) = 2⁻¹ :=
  ⟨fun k _ => if k = 6 then 2⁻¹ else 2 ^ (k + 1), fun k hk => if_neg (by omega), by simp⟩

end Gain

/-! ## C231: channels of the coefficients of the ambience -/

/-- A frame with a channel for coefficient 64 of a signal with 49 is accepted, and the table of channels is left. -/
theorem C231_refuted : ∃ c l l2 s, (config 2 1024).run l = .ok (c, []) ∧ (frame c Frame.zero).run l2 = .ok (s, []) ∧ c.coeffs = 49 ∧
    assign c s (fun _ => 0) 0 = 64 ∧ reassign (assign c s fun _ => 0) c.transport 0 (fun _ => none) = .ub := by
  obtain ⟨s, h1, h2⟩ := seen_ok (f := fun s => (s.indep, s.ctype 0, s.ambIdx 0)) (b := (true, 2, 64)) (l := [])
    (r := (frame ⟨2, 6, 0, [], 1, 1, 256, 0, 0, 2, 0, 8, 5, 2, 8⟩ Frame.zero).run ([true] ++ natBits 2 2 ++ natBits 2 1 ++ natBits 6 62 ++ natBits 4 0 ++ [true, false] ++
      natBits 4 0 ++ [true, false])) (by decide +kernel)
  simp only [Prod.mk.injEq] at h2
  obtain ⟨e1, e2, e3⟩ := h2
  have ha : assign ⟨2, 6, 0, [], 1, 1, 256, 0, 0, 2, 0, 8, 5, 2, 8⟩ s (fun _ => 0) 0 = 64 := by
    unfold assign
    rw [if_neg (by decide), if_pos e2, if_neg (by rw [e1]; simp), e3]
  refine ⟨⟨2, 6, 0, [], 1, 1, 256, 0, 0, 2, 0, 8, 5, 2, 8⟩, natBits 3 6 ++ [false] ++ [false] ++ natBits 3 1 ++ [true] ++ natBits 3 3 ++ [false] ++ natBits 2 0 ++ natBits 3 2 ++
    natBits 2 0 ++ natBits 3 7 ++ natBits 3 5 ++ natBits 2 1 ++ natBits 4 7 ++ [false, false, false, false], _, s, by decide, h1, rfl, ha, ?_⟩
  change reassign _ (1 + 1) 0 _ = _
  unfold reassign
  rw [ha]
  rfl

/-- If no coefficient is above 49 and none has two channels, the table has for each coefficient the channel it is sent in. -/
theorem C231_table_partial (a : Nat → Nat) (n : Nat) (hmax : ∀ ch < n, a ch ≤ 49) (hinj : ∀ x < n, ∀ y < n, a x ≠ 0 → a x = a y → x = y) :
    ∃ f, reassign a n 0 (fun _ => none) = .ok f ∧ ∀ k ch, f k = some ch ↔ ch < n ∧ a ch = k + 1 := by
  suffices h : ∀ m i (f : Nat → Option Nat), i + m = n → (∀ k ch, f k = some ch ↔ ch < i ∧ a ch = k + 1) →
      ∃ f', reassign a m i f = .ok f' ∧ ∀ k ch, f' k = some ch ↔ ch < n ∧ a ch = k + 1 from
    h n 0 _ (by omega) (fun k ch => ⟨fun h => (by cases h), fun h => by omega⟩)
  intro m
  induction m with
  | zero =>
    intro i f hi h
    rw [← hi]
    exact ⟨f, rfl, h⟩
  | succ m ih =>
    intro i f hi h
    unfold reassign
    have hm := hmax i (by omega)
    by_cases h0 : a i = 0
    · rw [if_pos h0]
      refine ih (i + 1) f (by omega) fun k ch => (h k ch).trans ⟨fun x => ⟨by omega, x.2⟩, fun x => ⟨?_, x.2⟩⟩
      have : ch ≠ i := fun e => by rw [e] at x; omega
      omega
    · rw [if_neg h0, if_neg (by omega)]
      refine ih (i + 1) _ (by omega) fun k ch => ?_
      unfold upd
      by_cases hk : k = a i - 1
      · rw [if_pos hk]
        constructor
        · intro e
          cases e
          exact ⟨by omega, by omega⟩
        · intro ⟨x1, x2⟩
          rw [hinj i (by omega) ch (by omega) h0 (by omega)]
      · rw [if_neg hk, h k ch]
        refine ⟨fun x => ⟨by omega, x.2⟩, fun x => ⟨?_, x.2⟩⟩
        have : ch ≠ i := fun e => by rw [e] at x; omega
        omega

/-- Three channels for the coefficients 5, 7 and 1 with one not for the ambience. -/
example : (∀ ch < 4, [5, 0, 7, 1].getD ch 0 ≤ 49) ∧
    ∀ x < 4, ∀ y < 4, [5, 0, 7, 1].getD x 0 ≠ 0 → [5, 0, 7, 1].getD x 0 = [5, 0, 7, 1].getD y 0 → x = y := by decide

/-! ## C232: sets of coefficients in ascending order -/

/-- What one pass has found: the smallest coefficient so far is at its place only. -/
def Found (done : List (Option Nat)) (best : Option (Nat × Nat)) : Prop :=
  match best with
  | none => ∀ x, some x ∉ done
  | some (j, y) => done[j]? = some (some y) ∧ (∀ x, some x ∈ done → y ≤ x) ∧ ∀ k, done[k]? = some (some y) → k = j

theorem Found.append_none {done : List (Option Nat)} {best : Option (Nat × Nat)} (h : Found done best) : Found (done ++ [none]) best := by
  unfold Found at *
  cases best with
  | none => intro x hx; simp at hx; exact h x hx
  | some p =>
    obtain ⟨j, y⟩ := p
    obtain ⟨h1, h2, h3⟩ := h
    have hj : j < done.length := by
      by_contra hc
      rw [List.getElem?_eq_none (by omega)] at h1
      cases h1
    refine ⟨by rw [List.getElem?_append_left hj]; exact h1, fun x hx => h2 x (by simpa using hx), fun k hk => ?_⟩
    by_cases hlt : k < done.length
    · rw [List.getElem?_append_left hlt] at hk
      exact h3 k hk
    · rw [List.getElem?_append_right (by omega)] at hk
      rcases Nat.eq_zero_or_pos (k - done.length) with h0 | h0
      · rw [h0] at hk
        simp at hk
      · rw [List.getElem?_eq_none (by simp; omega)] at hk
        cases hk

theorem Found.append_min {done : List (Option Nat)} {x : Nat} (h : ∀ z, some z ∈ done → x < z) : Found (done ++ [some x]) (some (done.length, x)) := by
  refine ⟨by simp, fun z hz => ?_, fun k hk => ?_⟩
  · simp only [List.mem_append, List.mem_singleton, Option.some.injEq] at hz
    rcases hz with hz | rfl
    · exact le_of_lt (h z hz)
    · exact le_refl _
  · by_cases hlt : k < done.length
    · rw [List.getElem?_append_left hlt] at hk
      have := h x (List.mem_of_getElem? hk)
      omega
    · by_contra hne
      rw [List.getElem?_eq_none (by simp; omega)] at hk
      cases hk

theorem Found.append_more {done : List (Option Nat)} {j y x : Nat} (h : Found done (some (j, y))) (hx : y < x) : Found (done ++ [some x]) (some (j, y)) := by
  obtain ⟨h1, h2, h3⟩ := h
  have hj : j < done.length := by
    by_contra hc
    rw [List.getElem?_eq_none (by omega)] at h1
    cases h1
  refine ⟨by rw [List.getElem?_append_left hj]; exact h1, fun z hz => ?_, fun k hk => ?_⟩
  · simp only [List.mem_append, List.mem_singleton, Option.some.injEq] at hz
    rcases hz with hz | rfl
    · exact h2 z hz
    · omega
  · by_cases hlt : k < done.length
    · rw [List.getElem?_append_left hlt] at hk
      exact h3 k hk
    · rw [List.getElem?_append_right (by omega)] at hk
      rcases Nat.eq_zero_or_pos (k - done.length) with h0 | h0
      · rw [h0] at hk
        simp at hk
        omega
      · rw [List.getElem?_eq_none (by simp; omega)] at hk
        cases hk

theorem pass_ok (src done : List (Option Nat)) (best : Option (Nat × Nat)) (h : Found done.reverse best) :
    Found (pass src done best).1 (pass src done best).2 ∧ (∀ x, some x ∈ (pass src done best).1 ↔ some x ∈ done ∨ some x ∈ src) ∧
      ((pass src done best).1.filter Option.isSome).length ≤ (done.filter Option.isSome).length + (src.filter Option.isSome).length := by
  induction src generalizing done best with
  | nil => exact ⟨by simpa [pass] using h, fun x => by simp [pass], by simp [pass, List.filter_reverse]⟩
  | cons a src ih =>
    cases a with
    | none =>
      obtain ⟨h1, h2, h3⟩ := ih (none :: done) best (by rw [List.reverse_cons]; exact h.append_none)
      refine ⟨h1, fun x => ?_, ?_⟩
      · rw [pass, h2 x]
        simp
      · rw [pass]
        simpa using h3
    | some x =>
      cases best with
      | none =>
        have hf : ∀ z, some z ∈ done.reverse → x < z := fun z hz => absurd hz (h z)
        obtain ⟨h1, h2, h3⟩ := ih (some x :: done) (some (done.length, x)) (by
          rw [List.reverse_cons]
          have := Found.append_min hf
          rwa [List.length_reverse] at this)
        refine ⟨h1, fun z => ?_, ?_⟩
        · rw [pass, h2 z]
          simp only [List.mem_cons]
          tauto
        · rw [pass]
          simp only [List.filter_cons, Option.isSome_some, if_true, List.length_cons] at h3 ⊢
          omega
      | some p =>
        obtain ⟨j, y⟩ := p
        rw [pass]
        split_ifs with hlt heq
        · have hf : ∀ z, some z ∈ done.reverse → x < z := fun z hz => lt_of_lt_of_le hlt (h.2.1 z hz)
          obtain ⟨h1, h2, h3⟩ := ih (some x :: done) (some (done.length, x)) (by
            rw [List.reverse_cons]
            have := Found.append_min hf
            rwa [List.length_reverse] at this)
          refine ⟨h1, fun z => ?_, ?_⟩
          · rw [h2 z]
            simp only [List.mem_cons]
            tauto
          · simp only [List.filter_cons, Option.isSome_some, if_true, List.length_cons] at h3 ⊢
            omega
        · obtain ⟨h1, h2, h3⟩ := ih (none :: done) (some (j, y)) (by rw [List.reverse_cons]; exact h.append_none)
          refine ⟨h1, fun z => ?_, ?_⟩
          · rw [h2 z]
            have hy : some y ∈ done := by
              have := List.mem_of_getElem? h.1
              simpa using this
            simp only [List.mem_cons, Option.some.injEq, reduceCtorEq, false_or]
            constructor
            · tauto
            · rintro (h | rfl | h)
              · exact Or.inl h
              · rw [← heq]; exact Or.inl hy
              · exact Or.inr h
          · simp only [List.filter_cons, Option.isSome_some, Option.isSome_none, if_true, Bool.false_eq_true, if_false, List.length_cons] at h3 ⊢
            omega
        · obtain ⟨h1, h2, h3⟩ := ih (some x :: done) (some (j, y)) (by
            rw [List.reverse_cons]
            exact h.append_more (by omega))
          refine ⟨h1, fun z => ?_, ?_⟩
          · rw [h2 z]
            simp only [List.mem_cons]
            tauto
          · simp only [List.filter_cons, Option.isSome_some, if_true, List.length_cons] at h3 ⊢
            omega

theorem sortLoop_ok (n : Nat) (src : List (Option Nat)) (hn : (src.filter Option.isSome).length ≤ n) :
    (sortLoop n src).Pairwise (· < ·) ∧ ∀ x, x ∈ sortLoop n src ↔ some x ∈ src := by
  induction n generalizing src with
  | zero =>
    refine ⟨List.Pairwise.nil, fun x => ⟨fun h => (by cases h), fun h => ?_⟩⟩
    have : some x ∈ src.filter Option.isSome := List.mem_filter.mpr ⟨h, rfl⟩
    rw [List.length_eq_zero_iff.mp (Nat.le_zero.mp hn)] at this
    cases this
  | succ n ih =>
    obtain ⟨h1, h2, h3⟩ := pass_ok src [] none (fun x h => by cases h)
    unfold sortLoop
    cases hp : pass src [] none with
    | mk src' best =>
      rw [hp] at h1 h2 h3
      cases best with
      | none =>
        refine ⟨List.Pairwise.nil, fun x => ⟨fun h => (by cases h), fun h => ?_⟩⟩
        exact absurd ((h2 x).mpr (Or.inr h)) (h1 x)
      | some p =>
        obtain ⟨j, y⟩ := p
        obtain ⟨k1, k2, k3⟩ := h1
        simp only at k1 k2 k3 h2 h3
        have hj : j < src'.length := by
          by_contra hc
          rw [List.getElem?_eq_none (by omega)] at k1
          cases k1
        have hmem : ∀ x, some x ∈ src'.set j none ↔ x ≠ y ∧ some x ∈ src := by
          intro x
          have h2' := h2 x
          simp only [List.not_mem_nil, false_or] at h2'
          rw [← h2']
          constructor
          · intro h
            obtain ⟨k, hk⟩ := List.mem_iff_getElem?.mp h
            rw [List.getElem?_set] at hk
            split_ifs at hk with hjk
            · cases hk
            · refine ⟨fun e => hjk (k3 k (by rw [← e]; exact hk)).symm, List.mem_of_getElem? hk⟩
          · rintro ⟨hne, h⟩
            obtain ⟨k, hk⟩ := List.mem_iff_getElem?.mp h
            refine List.mem_iff_getElem?.mpr ⟨k, ?_⟩
            rw [List.getElem?_set, if_neg]
            · exact hk
            · rintro rfl
              rw [k1] at hk
              cases hk
              exact hne rfl
        have hcount : ((src'.set j none).filter Option.isSome).length ≤ n := by
          have e1 : src' = src'.take j ++ some y :: src'.drop (j + 1) := by
            have := List.take_append_drop j src'
            rw [List.drop_eq_getElem_cons hj] at this
            rw [List.getElem?_eq_getElem hj] at k1
            cases k1' : src'[j] with
            | none => rw [k1'] at k1; cases k1
            | some z =>
              rw [k1'] at k1 this
              cases k1
              exact this.symm
          have e2 : src'.set j none = src'.take j ++ none :: src'.drop (j + 1) := by
            rw [List.set_eq_take_append_cons_drop, if_pos hj]
          have e3 : (src'.filter Option.isSome).length = ((src'.set j none).filter Option.isSome).length + 1 := by
            conv_lhs => rw [e1]
            rw [e2]
            simp only [List.filter_append, List.filter_cons, Option.isSome_some, Option.isSome_none, if_true, List.length_append, List.length_cons]
            simp
            omega
          simp only [List.filter_nil, List.length_nil, Nat.zero_add] at h3
          omega
        obtain ⟨i1, i2⟩ := ih (src'.set j none) hcount
        simp only
        refine ⟨List.Pairwise.cons (fun x hx => ?_) i1, fun x => ?_⟩
        · have := (hmem x).mp ((i2 x).mp hx)
          have h5 := k2 x ((h2 x).mpr (Or.inr this.2))
          omega
        · rw [List.mem_cons, i2 x, hmem x]
          constructor
          · rintro (rfl | h)
            · have := (h2 x).mp (List.mem_of_getElem? k1)
              simpa using this
            · exact h.2
          · intro h
            by_cases hx : x = y
            · exact Or.inl hx
            · exact Or.inr ⟨hx, h⟩

/-- Sorting a set of coefficients gives each of them once, in ascending order. -/
theorem C232_sorted (l : List Nat) : (sortSet l).Pairwise (· < ·) ∧ ∀ x, x ∈ sortSet l ↔ x ∈ l := by
  obtain ⟨h1, h2⟩ := sortLoop_ok l.length (l.map some) (le_trans (List.length_filter_le _ _) (by simp))
  exact ⟨h1, fun x => by rw [sortSet, h2 x]; simp⟩

example : sortSet [7, 3, 7, 5, 3] = [3, 5, 7] := by decide

/-! ## C233: channels of predominant sounds -/

/-- With a direction and a vector in the same frame, the channel of the direction is not in the set. -/
theorem C233_refuted : ∃ c l l2 s, (config 3 1024).run l = .ok (c, []) ∧ (frame c Frame.zero).run l2 = .ok (s, []) ∧ (directions c s).map Prod.snd = [1] ∧
    s.vecs = [2] ∧ ∀ i, soundSet ((directions c s).map Prod.snd) s.vecs i ≠ 1 := by
  obtain ⟨s, h1, h2⟩ := seen_ok (f := fun s => (s.ctype 0, s.ctype 1, s.vecs)) (b := (0, 1, [2])) (l := [])
    (r := (frame order2 Frame.zero).run ([true] ++ natBits 2 0 ++ natBits 10 5 ++ noGain ++ natBits 2 1 ++ natBits 4 5 ++ noGain ++ noGain ++
      (List.replicate 9 (natBits 8 200)).flatten ++ [false])) (by decide +kernel)
  simp only [Prod.mk.injEq] at h2
  obtain ⟨e1, e2, e3⟩ := h2
  have hd : (directions order2 s).map Prod.snd = [1] := by
    unfold directions
    rw [show order2.extra = 2 from rfl]
    simp [List.range_succ, e1, e2]
  refine ⟨order2, order2Bits, _, s, order2_accepted, h1, hd, e3, fun i => ?_⟩
  rw [hd, e3]
  unfold soundSet
  split
  · rename_i h
    have : i = 0 := by simpa using h
    subst this
    decide
  · rename_i h
    rw [List.getD_eq_default]
    · decide
    · simp at h ⊢
      omega

/-- With directions only or vectors only, the set has the channels of all of them. -/
theorem C233_one_kind_partial (dirs vecs : List Nat) (h : dirs = [] ∨ vecs = []) (x : Nat) (hx : x ≠ 0) :
    (∃ i, soundSet dirs vecs i = x) ↔ x ∈ dirs ∨ x ∈ vecs := by
  have key : ∀ l : List Nat, (∃ i, l.getD i 0 = x) ↔ x ∈ l := by
    intro l
    constructor
    · rintro ⟨i, hi⟩
      by_cases hl : i < l.length
      · rw [List.getD_eq_getElem _ _ hl] at hi
        rw [← hi]
        exact List.getElem_mem hl
      · rw [List.getD_eq_default _ _ (by omega)] at hi
        exact absurd hi.symm hx
    · intro h
      obtain ⟨i, hi, he⟩ := List.getElem_of_mem h
      exact ⟨i, by rw [List.getD_eq_getElem _ _ hi]; exact he⟩
  rcases h with rfl | rfl
  · have : soundSet [] vecs = fun i => vecs.getD i 0 := by
      funext i
      unfold soundSet
      split
      · rfl
      · rw [List.getD_eq_default vecs _ (by omega)]
        rfl
    rw [this]
    simpa using key vecs
  · have : soundSet dirs [] = fun i => dirs.getD i 0 := by
      funext i
      simp [soundSet]
    rw [this]
    simpa using key dirs

example : ([] : List Nat) = [] ∨ [1, 3] = [] := Or.inl rfl

end Verif.Hoa
