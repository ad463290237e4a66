import Verif.Model.Loop
import Verif.Proofs.Prog

/-! Two parser programs that cut up every input in the same way, with related results. -/

namespace Verif.Prog

variable {α β γ δ : Type}

/-- Outcomes of the same kind, the same bits left, related values. -/
def SameRes (R : α → β → Prop) : Res (α × List Bool) → Res (β × List Bool) → Prop
  | .ok (a, l), .ok (b, l') => l = l' ∧ R a b
  | .jump, .jump => True
  | .err c, .err c' => c = c'
  | .ub, .ub => True
  | _, _ => False

/-- On every input the two programs end alike. -/
def Same (p : Prog α) (q : Prog β) (R : α → β → Prop) : Prop :=
  ∀ l, SameRes R (run p l) (run q l)

theorem Same.mono {p : Prog α} {q : Prog β} {R S : α → β → Prop} (h : Same p q R)
    (hR : ∀ a b, R a b → S a b) : Same p q S := by
  intro l
  have := h l
  revert this
  cases run p l <;> cases run q l <;> simp only [SameRes] <;> try exact id
  rintro ⟨h1, h2⟩
  exact ⟨h1, hR _ _ h2⟩

theorem Same.refl (p : Prog α) : Same p p (fun a b => a = b) := by
  intro l
  cases run p l <;> simp [SameRes]

theorem Same.pure {R : α → β → Prop} {a : α} {b : β} (h : R a b) :
    Same (Pure.pure a : Prog α) (Pure.pure b : Prog β) R := fun _ => ⟨rfl, h⟩

theorem Same.fail {R : α → β → Prop} {c : ErrCode} : Same (fail c : Prog α) (fail c : Prog β) R :=
  fun _ => rfl

theorem Same.bind {p : Prog α} {q : Prog β} {f : α → Prog γ} {g : β → Prog δ}
    {R : α → β → Prop} {S : γ → δ → Prop} (h : Same p q R)
    (hf : ∀ a b, R a b → Same (f a) (g b) S) : Same (p >>= f) (q >>= g) S := by
  intro l
  rw [run_bind, run_bind]
  have := h l
  revert this
  cases run p l with
  | ok x =>
    cases run q l with
    | ok y =>
      obtain ⟨a, l1⟩ := x
      obtain ⟨b, l2⟩ := y
      rintro ⟨rfl, h2⟩
      exact hf _ _ h2 _
    | _ => intro h; exact h.elim
  | _ => cases run q l <;> intro h <;> first | exact h.elim | exact h

theorem Same.bits_bind {n : Nat} {f : Nat → Prog γ} {g : Nat → Prog δ} {S : γ → δ → Prop}
    (hf : ∀ v, Same (f v) (g v) S) : Same (Prog.bits n >>= f) (Prog.bits n >>= g) S :=
  Same.bind (Same.refl _) (by rintro a b rfl; exact hf a)

theorem Same.ite {c c' : Prop} [Decidable c] [Decidable c'] {p p' : Prog α} {q q' : Prog β} {R : α → β → Prop}
    (hc : c ↔ c') (h1 : c → Same p q R) (h2 : ¬ c → Same p' q' R) :
    Same (if c then p else p') (if c' then q else q') R := by
  by_cases h : c
  · rw [if_pos h, if_pos (hc.mp h)]; exact h1 h
  · rw [if_neg h, if_neg (fun x => h (hc.mpr x))]; exact h2 h

end Verif.Prog
