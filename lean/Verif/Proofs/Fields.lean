import Verif.Proofs.Safe

/-! Running parser programs on the bits of written fields. -/

namespace Verif

/-- Bits of an optional field: nothing when it is not sent. -/
def optN (c : Bool) (n v : Nat) : List Bool := if c then natBits n v else []

namespace Prog

variable {α β : Type}

theorem run_bits_bind (n v : Nat) (f : Nat → Prog β) (l : List Bool) (h : n ≤ 24)
    (hv : v < 2 ^ n) : run (bits n >>= f) (natBits n v ++ l) = run (f v) l := by
  rw [run_bind, run_bits_append n v h, Nat.mod_eq_of_lt hv]; rfl

theorem run_optBits_bind (c : Bool) (n v : Nat) (f : Nat → Prog β) (l : List Bool) (h : n ≤ 24)
    (hv : v < 2 ^ n) :
    run (optBits c n >>= f) (optN c n v ++ l) = run (f (if c then v else 0)) l := by
  unfold optBits optN
  cases c
  · rfl
  · simp only [if_true]; exact run_bits_bind n v f l h hv

theorem run_bitsOr_bind (c : Bool) (n v old : Nat) (f : Nat → Prog β) (l : List Bool) (h : n ≤ 24)
    (hv : v < 2 ^ n) :
    run (bitsOr c n old >>= f) (optN c n v ++ l) = run (f (if c then v else old)) l := by
  unfold bitsOr optN
  cases c
  · rfl
  · simp only [if_true]; exact run_bits_bind n v f l h hv

theorem run_inTable_bind (i : Int) (cap : Nat) (f : Unit → Prog β) (l : List Bool)
    (h : 0 ≤ i ∧ i < cap) : run (inTable i cap >>= f) l = run (f ()) l := by
  unfold inTable; rw [if_pos h]; rfl

theorem run_setAt (tbl : List α) (i : Nat) (v : α) (l : List Bool) (h : i < tbl.length) :
    run (setAt tbl i v) l = .ok (tbl.set i v, l) := by
  unfold setAt; rw [if_pos h]; rfl

theorem run_getAt_bind (tbl : List α) (i : Nat) (v : α) (f : α → Prog β) (l : List Bool)
    (h : tbl[i]? = some v) : run (getAt tbl i >>= f) l = run (f v) l := by
  unfold getAt; rw [h]; rfl

/-- A loop over a list of items, each of which the body reads back from its bits. -/
theorem run_forN_items (f : Nat → Prog α) (enc : α → List Bool) (items : List α) (i : Nat)
    (h : ∀ j a, items[j]? = some a → ∀ l, run (f (i + j)) (enc a ++ l) = .ok (a, l))
    (l : List Bool) :
    run (forN f items.length i) ((items.flatMap enc) ++ l) = .ok (items, l) := by
  induction items generalizing i with
  | nil => rfl
  | cons a as ih =>
    simp only [List.length_cons, forN, List.flatMap_cons, List.append_assoc]
    have h0 := h 0 a (by simp)
    rw [Nat.add_zero] at h0
    rw [run_bind, h0]
    simp only [Res.ok_bind]
    rw [run_bind, ih (i + 1)]
    · rfl
    · intro j b hb l'
      have := h (j + 1) b (by simpa using hb) l'
      rw [show i + 1 + j = i + (j + 1) by omega]
      exact this

theorem run_forN_bind (f : Nat → Prog α) (enc : α → List Bool) (items : List α) (i k : Nat)
    (g : List α → Prog β) (hk : k = items.length)
    (h : ∀ j a, items[j]? = some a → ∀ l, run (f (i + j)) (enc a ++ l) = .ok (a, l))
    (l : List Bool) :
    run (forN f k i >>= g) ((items.flatMap enc) ++ l) = run (g items) l := by
  subst hk
  rw [run_bind, run_forN_items f enc items i h]; rfl

theorem run_ite_neg {c : Prop} [Decidable c] (p q : Prog α) (l : List Bool) (h : ¬ c) :
    run (if c then p else q) l = run q l := by rw [if_neg h]

theorem run_ite_pos {c : Prop} [Decidable c] (p q : Prog α) (l : List Bool) (h : c) :
    run (if c then p else q) l = run p l := by rw [if_pos h]

end Prog
end Verif
