import Verif.Model.Loop
import Verif.Proofs.Prog
import Verif.Proofs.Safe

/-! A Hoare logic for parser programs in which freedom from undefined behaviour may rest on a side condition,
such as the size of an array, that the postcondition does not need. -/

namespace Verif.Prog

variable {α β σ : Type} {S : Prop}

/-- Under the side condition the program has no undefined behaviour, and every value it returns satisfies `Q`
in any case. -/
def Meets (S : Prop) (p : Prog α) (Q : α → Prop) : Prop :=
  ∀ l, (S → run p l ≠ .ub) ∧ ∀ a l', run p l = .ok (a, l') → Q a

theorem Meets.mono {p : Prog α} {Q R : α → Prop} (h : Meets S p Q) (hQ : ∀ a, Q a → R a) : Meets S p R :=
  fun l => ⟨(h l).1, fun a l' e => hQ a ((h l).2 a l' e)⟩

theorem Safe.meets {p : Prog α} {Q : α → Prop} (h : Safe p Q) : Meets S p Q :=
  fun l => ⟨fun _ => (h l).1, (h l).2⟩

theorem Meets.pure {Q : α → Prop} {a : α} (h : Q a) : Meets S (Pure.pure a) Q := (Safe.pure h).meets

theorem Meets.fail {Q : α → Prop} {c : ErrCode} : Meets S (fail c) Q := Safe.fail.meets

theorem Meets.bind {p : Prog α} {f : α → Prog β} {R : α → Prop} {Q : β → Prop}
    (hp : Meets S p R) (hf : ∀ a, R a → Meets S (f a) Q) : Meets S (p >>= f) Q := by
  intro l
  rw [run_bind]
  obtain ⟨h1, h2⟩ := hp l
  cases hr : run p l with
  | ok x =>
    obtain ⟨a, l1⟩ := x
    simp only [Res.ok_bind]
    exact hf a (h2 a l1 hr) l1
  | jump => exact ⟨by simp, fun a l' e => by simp at e⟩
  | err c => exact ⟨by simp, fun a l' e => by simp at e⟩
  | ub => exact ⟨fun s => absurd hr (h1 s), fun a l' e => by simp at e⟩

theorem Meets.bits_bind {n : Nat} {f : Nat → Prog β} {Q : β → Prop} (h : n ≤ 24)
    (hf : ∀ v, v < 2 ^ n → Meets S (f v) Q) : Meets S (Prog.bits n >>= f) Q :=
  Meets.bind (Safe.bits h).meets hf

theorem Meets.setAt {tbl : List α} {i : Nat} {v : α} (h : S → i < tbl.length) :
    Meets S (setAt tbl i v) (fun t => t = tbl.set i v ∧ i < tbl.length) := by
  unfold Prog.setAt
  split
  · exact Meets.pure ⟨rfl, ‹_›⟩
  · rename_i h'
    intro l
    exact ⟨fun s => absurd (h s) h', fun a l' e => by simp at e⟩

theorem Meets.getAt {tbl : List α} {i : Nat} (h : S → i < tbl.length) :
    Meets S (getAt tbl i) (fun v => tbl[i]? = some v) := by
  unfold Prog.getAt
  split
  · exact Meets.pure ‹_›
  · rename_i h'
    intro l
    refine ⟨fun s => ?_, fun a l' e => by simp at e⟩
    have := h s
    simp at h'
    omega

theorem Meets.foldN {f : Nat → σ → Prog σ} (I : Nat → σ → Prop) (k i : Nat) (s : σ)
    (hs : I i s) (h : ∀ j t, i ≤ j → j < i + k → I j t → Meets S (f j t) (I (j + 1))) :
    Meets S (foldN f k i s) (I (i + k)) := by
  induction k generalizing i s with
  | zero => exact Meets.pure hs
  | succ k ih =>
    unfold Prog.foldN
    refine Meets.bind (h i s (by omega) (by omega) hs) fun s' hs' => ?_
    have := ih (i + 1) s' hs' fun j t h1 h2 => h j t (by omega) (by omega)
    rw [show i + (k + 1) = i + 1 + k by omega]
    exact this

theorem Meets.ite {c : Prop} [Decidable c] {p q : Prog α} {Q : α → Prop}
    (h1 : c → Meets S p Q) (h2 : ¬ c → Meets S q Q) : Meets S (if c then p else q) Q := by
  split
  · exact h1 ‹_›
  · exact h2 ‹_›

end Verif.Prog
