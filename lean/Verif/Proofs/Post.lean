import Verif.Model.Loop
import Verif.Proofs.Prog
import Verif.Proofs.Safe

/-! A second Hoare logic for parser programs: postconditions of runs that leave at least `k` bits. -/

namespace Verif.Prog

variable {α β σ : Type}

/-- Every value the program returns with at least `k` bits left over satisfies `Q`. -/
def Post (k : Nat) (p : Prog α) (Q : α → Prop) : Prop :=
  ∀ l a r, run p l = .ok (a, r) → k ≤ r.length → Q a

theorem Post.mono {k : Nat} {p : Prog α} {Q R : α → Prop} (h : Post k p Q) (hQ : ∀ a, Q a → R a) : Post k p R :=
  fun l a r e hk => hQ a (h l a r e hk)

theorem Post.triv {k : Nat} {p : Prog α} : Post k p (fun _ => True) := fun _ _ _ _ _ => trivial

theorem Post.pure {k : Nat} {Q : α → Prop} {a : α} (h : Q a) : Post k (Pure.pure a) Q := by
  intro l b r e _
  simp at e
  rw [← e.1]; exact h

theorem Post.fail {k : Nat} {Q : α → Prop} {c : ErrCode} : Post k (fail c) Q := by
  intro l b r e _
  simp at e

theorem Post.bind {k : Nat} {p : Prog α} {f : α → Prog β} {R : α → Prop} {Q : β → Prop}
    (hp : Post k p R) (hf : ∀ a, R a → Post k (f a) Q) : Post k (p >>= f) Q := by
  intro l b r e hk
  rw [run_bind] at e
  obtain ⟨⟨a, l1⟩, h1, h2⟩ := Res.bind_eq_ok.mp e
  have hl : r.length ≤ l1.length := run_length_le _ _ h2
  exact hf a (hp l a l1 h1 (by omega)) l1 b r h2 hk

theorem Post.setAt {k : Nat} {tbl : List α} {i : Nat} {v : α} :
    Post k (setAt tbl i v) (fun t => t = tbl.set i v ∧ i < tbl.length) := by
  unfold Prog.setAt
  split
  · exact Post.pure ⟨rfl, ‹_›⟩
  · intro l a r e _
    simp at e

theorem Post.getAt {k : Nat} {tbl : List α} {i : Nat} : Post k (getAt tbl i) (fun v => tbl[i]? = some v) := by
  unfold Prog.getAt
  split
  · exact Post.pure ‹_›
  · intro l a r e _
    simp at e

theorem Post.foldN {k : Nat} {f : Nat → σ → Prog σ} (I : Nat → σ → Prop) (n i : Nat) (s : σ)
    (hs : I i s) (h : ∀ j t, i ≤ j → j < i + n → I j t → Post k (f j t) (I (j + 1))) :
    Post k (foldN f n i s) (I (i + n)) := by
  induction n generalizing i s with
  | zero => exact Post.pure hs
  | succ n ih =>
    unfold Prog.foldN
    refine Post.bind (h i s (by omega) (by omega) hs) fun s' hs' => ?_
    have := ih (i + 1) s' hs' fun j t h1 h2 => h j t (by omega) (by omega)
    rw [show i + (n + 1) = i + 1 + n by omega]
    exact this

theorem Post.ite {k : Nat} {c : Prop} [Decidable c] {p q : Prog α} {Q : α → Prop}
    (h1 : c → Post k p Q) (h2 : ¬ c → Post k q Q) : Post k (if c then p else q) Q := by
  split
  · exact h1 ‹_›
  · exact h2 ‹_›

theorem Safe.post {k : Nat} {p : Prog α} {Q : α → Prop} (h : Safe p Q) : Post k p Q :=
  fun l a r e _ => (h l).2 a r e

end Verif.Prog
