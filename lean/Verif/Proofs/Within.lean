import Verif.Proofs.Safe
import Verif.Proofs.Prog

/-! A Hoare logic for parser programs on inputs of bounded length. -/

namespace Verif.Prog

variable {α β σ : Type} {n : Nat}

/-- On every input of less than `n` bits the program has no undefined behaviour, and every value it returns
satisfies `Q`. -/
def Within (n : Nat) (p : Prog α) (Q : α → Prop) : Prop :=
  ∀ l, l.length < n → run p l ≠ .ub ∧ ∀ a l', run p l = .ok (a, l') → Q a

theorem Safe.within {p : Prog α} {Q : α → Prop} (h : Safe p Q) : Within n p Q := fun l _ => h l

theorem Within.mono {p : Prog α} {Q R : α → Prop} (h : Within n p Q) (hQ : ∀ a, Q a → R a) : Within n p R :=
  fun l hl => ⟨(h l hl).1, fun a l' e => hQ a ((h l hl).2 a l' e)⟩

theorem Within.pure {Q : α → Prop} {a : α} (h : Q a) : Within n (Pure.pure a) Q := (Safe.pure h).within

theorem Within.fail {Q : α → Prop} {c : ErrCode} : Within n (fail c) Q := Safe.fail.within

theorem Within.bind {p : Prog α} {f : α → Prog β} {R : α → Prop} {Q : β → Prop}
    (hp : Within n p R) (hf : ∀ a, R a → Within n (f a) Q) : Within n (p >>= f) Q := by
  intro l hl
  rw [run_bind]
  obtain ⟨h1, h2⟩ := hp l hl
  cases hr : run p l with
  | ok x =>
    obtain ⟨a, l1⟩ := x
    simp only [Res.ok_bind]
    exact hf a (h2 a l1 hr) l1 (Nat.lt_of_le_of_lt (run_length_le p l hr) hl)
  | jump => exact ⟨by simp, fun a l' e => by simp at e⟩
  | err c => exact ⟨by simp, fun a l' e => by simp at e⟩
  | ub => exact absurd hr h1

theorem Within.bits_bind {k : Nat} {f : Nat → Prog β} {Q : β → Prop} (h : k ≤ 24)
    (hf : ∀ v, v < 2 ^ k → Within n (f v) Q) : Within n (Prog.bits k >>= f) Q :=
  Within.bind (Safe.bits h).within hf

theorem Within.ite {c : Prop} [Decidable c] {p q : Prog α} {Q : α → Prop}
    (h1 : c → Within n p Q) (h2 : ¬ c → Within n q Q) : Within n (if c then p else q) Q := by
  split
  · exact h1 ‹_›
  · exact h2 ‹_›

theorem Within.when {c : Bool} {p : Prog Unit} (h : c = true → Within n p (fun _ => True)) :
    Within n (when c p) (fun _ => True) := by
  unfold Prog.when
  split
  · exact h ‹_›
  · exact Within.pure trivial

theorem Within.foldN {f : Nat → σ → Prog σ} (I : Nat → σ → Prop) (k i : Nat) (s : σ)
    (hs : I i s) (h : ∀ j t, i ≤ j → j < i + k → I j t → Within n (f j t) (I (j + 1))) :
    Within n (foldN f k i s) (I (i + k)) := by
  induction k generalizing i s with
  | zero => exact Within.pure hs
  | succ k ih =>
    unfold Prog.foldN
    refine Within.bind (h i s (by omega) (by omega) hs) fun s' hs' => ?_
    have := ih (i + 1) s' hs' fun j t h1 h2 => h j t (by omega) (by omega)
    rw [show i + (k + 1) = i + 1 + k by omega]
    exact this

theorem Within.forN {f : Nat → Prog α} {P : α → Prop} (k i : Nat)
    (h : ∀ j, i ≤ j → j < i + k → Within n (f j) P) : Within n (forN f k i) (fun _ => True) := by
  induction k generalizing i with
  | zero => exact Within.pure trivial
  | succ k ih =>
    unfold Prog.forN
    refine Within.bind (h i (by omega) (by omega)) fun a _ => ?_
    refine Within.bind (ih (i + 1) fun j h1 h2 => h j (by omega) (by omega)) fun as _ => ?_
    exact Within.pure trivial

end Verif.Prog
