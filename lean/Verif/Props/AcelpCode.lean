import Verif.Props.AcelpPulses
import Verif.Spec.LpdFrame

/-! # Codes of pulses: C167, C168, C169 -/

namespace Verif.Acelp

/-- **C168**: what can be coded in a mode are exactly the vectors with the right numbers of pulses on the tracks. -/
theorem pulses_iff {core : Nat} (hc : core < 8) (v : Vec) :
    (∃ cb, Fits core cb ∧ pulses core cb = .ok v) ↔ (∀ i, 64 ≤ i → v i = 0) ∧ onTracks (count v) core := by
  by_cases h : core < 6
  · exact pulses_iff_low h v
  · by_cases h6 : core = 6
    · subst h6
      exact pulses_iff_six v
    · obtain rfl : core = 7 := by omega
      exact pulses_iff_seven v

/-- Mode 6 can code -1 at 8 and 1 at 7. -/
example : ∃ cb, Fits 6 cb ∧ pulses 6 cb = .ok fun i => if i = 8 then -1 else if i = 7 then 1 else 0 := by
  refine (pulses_iff (by decide) _).mpr ⟨fun i hi => ?_, ?_⟩
  · rw [if_neg (by omega), if_neg (by omega)]
  · exact ⟨Or.inl ⟨rfl, rfl⟩, Or.inr ⟨rfl, rfl⟩⟩

/-- Mode 5 can code 3 at 5, -1 at 9 and four pulses on each of the other tracks. -/
example : ∃ cb, Fits 5 cb ∧ pulses 5 cb = .ok fun i => if i = 5 then 3 else if i = 9 then -1 else if i = 4 ∨ i = 14 ∨ i = 63 then 4 else 0 := by
  refine (pulses_iff (by decide) _).mpr ⟨fun i hi => ?_, ?_⟩
  · rw [if_neg (by omega), if_neg (by omega), if_neg (by omega)]
  · exact ⟨Or.inr (Or.inr rfl), Or.inr (Or.inr rfl), Or.inr (Or.inr rfl), Or.inr (Or.inr rfl)⟩

/-- **C167**: no code puts a pulse outside of the vector. -/
theorem pulses_inside {core : Nat} (hc : core < 8) {cb : Nat → Nat} (h : Fits core cb) :
    ∃ v, pulses core cb = .ok v ∧ ∀ i, 64 ≤ i → v i = 0 := by
  have : ∃ v, pulses core cb = .ok v := by
    by_cases h5 : core < 6
    · obtain ⟨w, _, e⟩ := pulses_eq h5 cb
      exact ⟨_, e⟩
    · by_cases h6 : core = 6
      · subst h6
        obtain ⟨h0, h1, h2, h3⟩ := fits_six.mp h
        exact ⟨_, pulses_6 cb h0 h1 h2 h3⟩
      · obtain rfl : core = 7 := by omega
        obtain ⟨h0, h1, h2, h3⟩ := fits_seven.mp h
        exact ⟨_, pulses_7 cb h0 h1 h2 h3⟩
  obtain ⟨v, e⟩ := this
  exact ⟨v, e, ((pulses_iff hc v).mp ⟨cb, h, e⟩).1⟩

/-- All fields at their largest. -/
example : Fits 5 fun i => if i < 4 then 3 else 16383 := by
  intro i hi
  have hi : i < 8 := hi
  interval_cases i <;> decide

theorem each_get {R : Nat → Nat → List Bool → Prop} : ∀ {i : Nat} {xs : List Nat} {b : List Bool}, Lpd.Each R i xs b → ∀ j < xs.length,
    ∃ b', R (i + j) (xs.getD j 0) b' := by
  intro i xs
  induction xs generalizing i with
  | nil => exact fun _ j hj => absurd hj (Nat.not_lt_zero j)
  | cons x xs ih =>
    rintro b ⟨b1, b2, h1, h2, _⟩ j hj
    cases j with
    | zero => exact ⟨b1, h1⟩
    | succ j =>
      obtain ⟨b', h'⟩ := ih h2 j (by simpa using hj)
      exact ⟨b', by rw [show i + (j + 1) = i + 1 + j by omega]; simpa using h'⟩

theorem subCode_fits {core sfr : Nat} {s : Lpd.Sub} {b : List Bool} (h : Lpd.SubCode core sfr s b) : Fits core fun i => s.pulses.getD i 0 := by
  obtain ⟨pb, _, _, _, hl, he, _⟩ := h
  intro i hi
  obtain ⟨b', h'⟩ := each_get he i (by omega)
  rw [Nat.zero_add] at h'
  exact h'.1

/-- **C167**: so every coded subframe has pulses, of which none is outside. -/
theorem subCode_pulses {core sfr : Nat} (hc : core < 8) {s : Lpd.Sub} {b : List Bool} (h : Lpd.SubCode core sfr s b) :
    ∃ v, pulses core (fun i => s.pulses.getD i 0) = .ok v ∧ (∀ i, 64 ≤ i → v i = 0) ∧ onTracks (count v) core := by
  obtain ⟨v, e, _⟩ := pulses_inside hc (subCode_fits h)
  exact ⟨v, e, (pulses_iff hc v).mp ⟨_, subCode_fits h, e⟩⟩

/-- **C168**, refuted: the vector does not always have as many pulses as the mode has; in mode 5 it may be zero. -/
theorem pulses_number_refuted : ∃ cb, Fits 5 cb ∧ pulses 5 cb = .ok fun _ => 0 := by
  refine (pulses_iff (by decide) _).mpr ⟨fun _ _ => rfl, ?_⟩
  exact ⟨Or.inl rfl, Or.inl rfl, Or.inl rfl, Or.inl rfl⟩

/-- **C168**: the number in each mode without three or four pulses on a track. -/
theorem pulses_number_partial {core : Nat} (hc : core ∈ [0, 1, 2, 6, 7]) {cb : Nat → Nat} {v : Vec} (h : Fits core cb)
    (e : pulses core cb = .ok v) : count v 0 + count v 1 + count v 2 + count v 3 = [4, 6, 8, 10, 12, 16, 2, 3].getD core 0 := by
  have hc8 : core < 8 := by
    simp at hc
    omega
  have := ((pulses_iff hc8 v).mp ⟨cb, h, e⟩).2
  simp only [List.mem_cons, List.not_mem_nil, or_false] at hc
  rcases hc with rfl | rfl | rfl | rfl | rfl <;> simp only [onTracks, Left] at this <;> simp <;> omega

/-- **C168**: and no more in the others; the difference is even. -/
theorem pulses_number_most {core : Nat} (hc : core < 8) {cb : Nat → Nat} {v : Vec} (h : Fits core cb) (e : pulses core cb = .ok v) :
    count v 0 + count v 1 + count v 2 + count v 3 ≤ [4, 6, 8, 10, 12, 16, 2, 3].getD core 0 ∧
      (count v 0 + count v 1 + count v 2 + count v 3) % 2 = [4, 6, 8, 10, 12, 16, 2, 3].getD core 0 % 2 := by
  have := ((pulses_iff hc v).mp ⟨cb, h, e⟩).2
  interval_cases core <;> simp only [onTracks, Left] at this <;> simp <;> omega

/-! ## Uniqueness -/

/-- The code of one or two pulses, from their places. -/
def code (n : Nat) (w : Nat → Int) : Nat :=
  let s (p : Nat) : Nat := if w p < 0 then 1 else 0
  match (List.range 16).filter fun p => w p ≠ 0 with
  | [p] => if n = 1 then p + 16 * s p else p + 16 * p + 256 * s p
  | [p, q] => if s p = s q then q + 16 * p + 256 * s p else p + 16 * q + 256 * s q
  | _ => 0

theorem code_one : ∀ i < 32, code 1 (amount (onePs i 4 0)) = i := by decide +kernel

theorem code_two : ∀ i < 512, code 2 (amount (twoPs i 4 0)) = i := by decide +kernel

theorem one_inj {i j : Nat} (hi : i < 32) (hj : j < 32) (h : amount (onePs i 4 0) = amount (onePs j 4 0)) : i = j := by
  rw [← code_one i hi, h, code_one j hj]

theorem two_inj {i j : Nat} (hi : i < 512) (hj : j < 512) (h : amount (twoPs i 4 0) = amount (twoPs j 4 0)) : i = j := by
  rw [← code_two i hi, h, code_two j hj]

theorem dec_inj {n i j : Nat} (hn : n = 1 ∨ n = 2) (hi : i < 2 ^ bits n) (hj : j < 2 ^ bits n) (h : amount (dec n i) = amount (dec n j)) : i = j := by
  rcases hn with rfl | rfl
  · exact one_inj hi hj h
  · exact two_inj hi hj h

/-- The amount on a track. -/
def onTrack (v : Vec) (t : Nat) : Nat → Int := fun p => v (4 * p + t)

theorem one_ne (i : Nat) (h : amount (onePs i 4 0) = fun _ => 0) : False := by
  have := size_one i
  rw [h, size_none] at this
  cases this

/-- **C169**: in the modes with at most two pulses on a track no two codes stand for the same pulses. -/
theorem pulses_unique_partial {core : Nat} (hc : core ∈ [0, 1, 2, 6, 7]) {cb cb' : Nat → Nat} (h : Fits core cb) (h' : Fits core cb')
    (e : pulses core cb = pulses core cb') : ∀ i < 4, cb i = cb' i := by
  by_cases hl : core < 6
  · obtain ⟨w, hw, ew⟩ := pulses_eq hl cb
    obtain ⟨w', hw', ew'⟩ := pulses_eq hl cb'
    rw [ew, ew'] at e
    have ej : join w = join w' := Res.ok.inj e
    intro t ht
    have et : w t = w' t := by rw [← join_at w ht, ej, join_at w' ht]
    rw [hw t ht, hw' t ht] at et
    simp only [List.mem_cons, List.not_mem_nil, or_false] at hc
    have key : (num core t = 1 ∨ num core t = 2) ∧ cb t < 2 ^ bits (num core t) ∧ cb' t < 2 ^ bits (num core t) := by
      rcases hc with rfl | rfl | rfl | rfl | rfl
      · exact ⟨Or.inl rfl, by interval_cases t <;> exact h _ (by decide), by interval_cases t <;> exact h' _ (by decide)⟩
      · interval_cases t
        · exact ⟨Or.inr rfl, h _ (by decide), h' _ (by decide)⟩
        · exact ⟨Or.inr rfl, h _ (by decide), h' _ (by decide)⟩
        · exact ⟨Or.inl rfl, h _ (by decide), h' _ (by decide)⟩
        · exact ⟨Or.inl rfl, h _ (by decide), h' _ (by decide)⟩
      · exact ⟨Or.inr rfl, by interval_cases t <;> exact h _ (by decide), by interval_cases t <;> exact h' _ (by decide)⟩
      · omega
      · omega
    have hf : ∀ cb, field core cb t = cb t := fun cb => by
      rw [field, if_neg]
      rintro rfl
      simp at hc
    rw [hf, hf] at et
    exact dec_inj key.1 key.2.1 key.2.2 et
  · have h67 : core = 6 ∨ core = 7 := by
      simp at hc
      omega
    rcases h67 with rfl | rfl
    · obtain ⟨h0, h1, h2, h3⟩ := fits_six.mp h
      obtain ⟨h0', h1', h2', h3'⟩ := fits_six.mp h'
      rw [pulses_6 cb h0 h1 h2 h3, pulses_6 cb' h0' h1' h2' h3'] at e
      have ev := Res.ok.inj e
      have e0 : ∀ p, _ := fun p => congrFun ev (4 * p + 0)
      have e1 : ∀ p, _ := fun p => congrFun ev (4 * p + 1)
      have e2 : ∀ p, _ := fun p => congrFun ev (4 * p + 2)
      have e3 : ∀ p, _ := fun p => congrFun ev (4 * p + 3)
      simp only [addTo_at _ _ (show 0 < 4 by decide)] at e0
      simp only [addTo_at _ _ (show 1 < 4 by decide)] at e1
      simp only [addTo_at _ _ (show 2 < 4 by decide)] at e2
      simp only [addTo_at _ _ (show 3 < 4 by decide)] at e3
      have c0 : cb 0 = cb' 0 ∧ cb 1 = cb' 1 := by
        have q0 : cb 0 = 0 ∨ cb 0 = 1 := by omega
        have q0' : cb' 0 = 0 ∨ cb' 0 = 1 := by omega
        rcases q0 with q | q <;> rcases q0' with q' | q' <;> rw [q, q'] at e0 e2 <;> simp at e0 e2
        · exact ⟨by omega, one_inj h1 h1' (funext e0)⟩
        · exact (one_ne _ (funext e0)).elim
        · exact (one_ne _ (funext e2)).elim
        · exact ⟨by omega, one_inj h1 h1' (funext e2)⟩
      have c2 : cb 2 = cb' 2 ∧ cb 3 = cb' 3 := by
        have q0 : cb 2 = 0 ∨ cb 2 = 1 := by omega
        have q0' : cb' 2 = 0 ∨ cb' 2 = 1 := by omega
        have a1 : ¬ 1 = 2 * cb 0 := by omega
        have a2 : ¬ 1 = 2 * cb' 0 := by omega
        have a3 : ¬ 3 = 2 * cb 0 := by omega
        have a4 : ¬ 3 = 2 * cb' 0 := by omega
        simp only [if_neg a1, if_neg a2] at e1
        simp only [if_neg a3, if_neg a4] at e3
        rcases q0 with q | q <;> rcases q0' with q' | q' <;> rw [q, q'] at e1 e3 <;> simp at e1 e3
        · exact ⟨by omega, one_inj h3 h3' (funext e1)⟩
        · exact (one_ne _ (funext e1)).elim
        · exact (one_ne _ (funext e3)).elim
        · exact ⟨by omega, one_inj h3 h3' (funext e3)⟩
      intro i hi
      interval_cases i
      · exact c0.1
      · exact c0.2
      · exact c2.1
      · exact c2.2
    · obtain ⟨h0, h1, h2, h3⟩ := fits_seven.mp h
      obtain ⟨h0', h1', h2', h3'⟩ := fits_seven.mp h'
      rw [pulses_7 cb h0 h1 h2 h3, pulses_7 cb' h0' h1' h2' h3'] at e
      have ev := Res.ok.inj e
      have e0 : ∀ p, _ := fun p => congrFun ev (4 * p + 0)
      have e1 : ∀ p, _ := fun p => congrFun ev (4 * p + 1)
      have e2 : ∀ p, _ := fun p => congrFun ev (4 * p + 2)
      have e3 : ∀ p, _ := fun p => congrFun ev (4 * p + 3)
      have q0 : cb 0 = 0 ∨ cb 0 = 1 := by omega
      have q0' : cb' 0 = 0 ∨ cb' 0 = 1 := by omega
      have c : cb 0 = cb' 0 ∧ cb 1 = cb' 1 ∧ cb 2 = cb' 2 ∧ cb 3 = cb' 3 := by
        rcases q0 with q | q <;> rcases q0' with q' | q' <;> rw [q, q'] at e0 e1 e2 e3 <;>
          simp only [if_true, if_neg (show ¬ (1 : Nat) = 0 by decide), addTo_at _ _ (show 0 < 4 by decide)] at e0 <;>
          simp only [if_true, if_neg (show ¬ (1 : Nat) = 0 by decide), addTo_at _ _ (show 1 < 4 by decide)] at e1 <;>
          simp only [if_true, if_neg (show ¬ (1 : Nat) = 0 by decide), addTo_at _ _ (show 2 < 4 by decide)] at e2 <;>
          simp only [if_true, if_neg (show ¬ (1 : Nat) = 0 by decide), addTo_at _ _ (show 3 < 4 by decide)] at e3 <;> simp at e0 e1 e2 e3
        · exact ⟨by omega, one_inj h1 h1' (funext e0), one_inj h2 h2' (funext e2), one_inj h3 h3' (funext e3)⟩
        · exact (one_ne _ (funext fun p => (e1 p).symm)).elim
        · exact (one_ne _ (funext e1)).elim
        · exact ⟨by omega, one_inj h1 h1' (funext e0), one_inj h2 h2' (funext e1), one_inj h3 h3' (funext e2)⟩
      intro i hi
      interval_cases i
      · exact c.1
      · exact c.2.1
      · exact c.2.2.1
      · exact c.2.2.2

/-- Two pulses on each track. -/
example : Fits 2 fun i => 100 * i + 7 := by
  intro i hi
  have hi : i < 4 := hi
  interval_cases i <;> decide

theorem three_twice : amount (threePs 513 4 0) = amount (threePs 10 4 0) :=
  amount_perm (a := [(0, false), (1, false), (2, false)]) (b := [(1, false), (2, false), (0, false)]) (by decide)

theorem four_twice : amount (fourPs 1217) = amount (fourPs 75) :=
  amount_perm (a := [(0, false), (1, false), (2, false), (3, false)]) (b := [(2, false), (3, false), (0, false), (1, false)]) (by decide)

/-- **C169**, refuted: in the other modes there are pulses with two codes. -/
theorem pulses_unique_refuted : ∀ core ∈ [3, 4, 5], ∃ cb cb', Fits core cb ∧ Fits core cb' ∧ pulses core cb = pulses core cb' ∧
    ∃ i < (Lpd.pulseWidths core).length, cb i ≠ cb' i := by
  have h3 : ∀ t < 4, ∀ v, three 513 4 0 t v = three 10 4 0 t v := fun t ht v => by
    rw [three_eq (M := 3) (by decide) ht, three_eq (M := 3) (by decide) ht, three_twice]
  have h4 : ∀ t < 4, ∀ v, four 1217 t v = four 75 t v := fun t ht v => by rw [four_eq ht, four_eq ht, four_twice]
  intro core hc
  simp only [List.mem_cons, List.not_mem_nil, or_false] at hc
  rcases hc with rfl | rfl | rfl
  · refine ⟨fun i => if i = 0 then 513 else 0, fun i => if i = 0 then 10 else 0, ?_, ?_, ?_, 0, by decide, by decide⟩
    · intro i hi
      have hi : i < 4 := hi
      interval_cases i <;> decide
    · intro i hi
      have hi : i < 4 := hi
      interval_cases i <;> decide
    · simp only [pulses, if_true, h3 0 (by decide)]
      rfl
  · refine ⟨fun i => if i = 0 then 513 else 0, fun i => if i = 0 then 10 else 0, ?_, ?_, ?_, 0, by decide, by decide⟩
    · intro i hi
      have hi : i < 4 := hi
      interval_cases i <;> decide
    · intro i hi
      have hi : i < 4 := hi
      interval_cases i <;> decide
    · simp only [pulses, if_true, h3 0 (by decide)]
      rfl
  · refine ⟨fun i => if i = 4 then 1217 else 0, fun i => if i = 4 then 75 else 0, ?_, ?_, ?_, 4, by decide, by decide⟩
    · intro i hi
      have hi : i < 8 := hi
      interval_cases i <;> decide
    · intro i hi
      have hi : i < 8 := hi
      interval_cases i <;> decide
    · have e := h4 0 (by decide) fun _ => 0
      simp only [pulses]
      norm_num
      rw [e]

end Verif.Acelp
