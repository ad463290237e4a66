/-!
# Outcomes of a piece of C code

`Res α` is the result of running a piece of the decoder:

* `ok a`   — it ran to completion and produced `a`;
* `jump`   — it called `longjmp` because the input was too short
             (`IA_MPEGH_DEC_EXE_NONFATAL_INSUFFICIENT_INPUT_BYTES`);
* `err c`  — it returned the error code `c`;
* `ub`     — it did something the C standard leaves undefined (out-of-bounds access,
             bad shift count, signed overflow, out-of-range float to int cast).
-/

namespace Verif

/-- Error codes of `/repo/decoder/impeghd_error_codes.h` that appear in modelled code. -/
inductive ErrCode where
  | fatalMemAlloc
  | invalidSyncByte
  | invalidGroupId
  | asiParseFail
  | invalidSwitchGroup
  | invalidPreset
  | invalidNumEarcons
  | invalidPcm
  | insufficientInput
  | resampleRatio
  | invalidConfig
  | initFatal
  | arithDecodeFailed
  | unsupportedOam
  | unsupportedNumObjs
  | drcUnexpected
  | drcUnexpectedFatal
  | invalidMct
  | invalidChPair
  | invalidInteraction
  | other (n : Nat)
  deriving DecidableEq, Repr

/-- Outcome of a C computation, see the module comment. -/
inductive Res (α : Type) where
  | ok (a : α)
  | jump
  | err (c : ErrCode)
  | ub
  deriving DecidableEq, Repr

namespace Res

@[inline] def bind {α β : Type} (x : Res α) (f : α → Res β) : Res β :=
  match x with
  | ok a => f a
  | jump => jump
  | err c => err c
  | ub => ub

instance : Monad Res where
  pure := Res.ok
  bind := Res.bind

@[simp] theorem pure_eq {α : Type} (a : α) : (pure a : Res α) = ok a := rfl
@[simp] theorem ok_bind {α β : Type} (a : α) (f : α → Res β) : (ok a >>= f) = f a := rfl
@[simp] theorem jump_bind {α β : Type} (f : α → Res β) : ((jump : Res α) >>= f) = jump := rfl
@[simp] theorem err_bind {α β : Type} (c : ErrCode) (f : α → Res β) :
    ((err c : Res α) >>= f) = err c := rfl
@[simp] theorem ub_bind {α β : Type} (f : α → Res β) : ((ub : Res α) >>= f) = ub := rfl

theorem bind_assoc' {α β γ : Type} (x : Res α) (f : α → Res β) (g : β → Res γ) :
    (x >>= f) >>= g = x >>= fun a => f a >>= g := by
  cases x <;> rfl

theorem bind_eq_ok {α β : Type} {x : Res α} {f : α → Res β} {b : β} :
    (x >>= f) = ok b ↔ ∃ a, x = ok a ∧ f a = ok b := by
  cases x <;> simp

theorem bind_eq_ub {α β : Type} {x : Res α} {f : α → Res β} :
    (x >>= f) = ub ↔ x = ub ∨ ∃ a, x = ok a ∧ f a = ub := by
  cases x <;> simp

instance : LawfulMonad Res := LawfulMonad.mk'
  (id_map := fun x => by cases x <;> rfl)
  (pure_bind := fun _ _ => rfl)
  (bind_assoc := fun x f g => bind_assoc' x f g)

/-- Map the value of a completed computation. -/
def map {α β : Type} (f : α → β) : Res α → Res β
  | ok a => ok (f a)
  | jump => jump
  | err c => err c
  | ub => ub

end Res

end Verif
