import Verif.Proofs.Prog
import Verif.Model.Loop

/-! # Whatever the reads deliver -/

namespace Verif.Prog

variable {α β : Type}

/-- Whatever values the reads deliver, and whatever the number of bits left is, the program itself has no undefined behaviour
and its result, if it has one, meets `Q`. -/
def Always (Q : α → Prop) : Prog α → Prop
  | .pure a => Q a
  | .read _ k => ∀ v, Always Q (k v)
  | .peek _ k => ∀ v, Always Q (k v)
  | .skip _ k => Always Q k
  | .left k => ∀ v, Always Q (k v)
  | .err _ => True
  | .ub => False

theorem Always.mono {Q R : α → Prop} {p : Prog α} (h : Always Q p) (hQ : ∀ a, Q a → R a) : Always R p := by
  induction p with
  | pure a => exact hQ a h
  | read n k ih => exact fun v => ih v (h v)
  | peek n k ih => exact fun v => ih v (h v)
  | skip n k ih => exact ih h
  | left k ih => exact fun v => ih v (h v)
  | err c => trivial
  | ub => exact h

theorem Always.bind {R : α → Prop} {Q : β → Prop} {p : Prog α} {f : α → Prog β} (h : Always R p) (hf : ∀ a, R a → Always Q (f a)) :
    Always Q (p >>= f) := by
  show Always Q (p.bind f)
  induction p with
  | pure a => exact hf a h
  | read n k ih => exact fun v => ih v (h v)
  | peek n k ih => exact fun v => ih v (h v)
  | skip n k ih => exact ih h
  | left k ih => exact fun v => ih v (h v)
  | err c => trivial
  | ub => exact absurd h id

theorem Always.pure {Q : α → Prop} {a : α} (h : Q a) : Always Q (Pure.pure a) := h

theorem Always.bits {n : Nat} : Always (fun _ => True) (bits n) := fun _ => trivial

theorem Always.avail : Always (fun _ => True) avail := fun _ => trivial

/-- With the pointer code every result meets `Q`. -/
theorem Always.runC {Q : α → Prop} {p : Prog α} (h : Always Q p) {s s' : BitBuf} {a : α} (hr : Prog.runC p s = .ok (a, s')) : Q a := by
  induction p generalizing s with
  | pure b =>
    simp only [Prog.runC] at hr
    cases hr
    exact h
  | read n k ih =>
    simp only [Prog.runC] at hr
    split at hr <;> first | exact ih _ (h _) hr | cases hr
  | peek n k ih =>
    simp only [Prog.runC] at hr
    split at hr <;> first | exact ih _ (h _) hr | cases hr
  | skip n k ih =>
    simp only [Prog.runC] at hr
    split at hr <;> first | exact ih h hr | cases hr
  | left k ih => exact ih _ (h _) hr
  | err c => cases hr
  | ub => cases hr

end Verif.Prog
