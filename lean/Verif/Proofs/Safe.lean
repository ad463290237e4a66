import Verif.Model.Loop
import Verif.Proofs.Prog

/-! A small Hoare logic for parser programs: no undefined behaviour plus a postcondition. -/

namespace Verif.Prog

variable {α β σ : Type}

/-- On every input the program has no undefined behaviour, and every value it returns
satisfies `Q`. -/
def Safe (p : Prog α) (Q : α → Prop) : Prop :=
  ∀ l, run p l ≠ .ub ∧ ∀ a l', run p l = .ok (a, l') → Q a

theorem Safe.mono {p : Prog α} {Q R : α → Prop} (h : Safe p Q) (hQ : ∀ a, Q a → R a) :
    Safe p R := fun l => ⟨(h l).1, fun a l' e => hQ a ((h l).2 a l' e)⟩

theorem Safe.pure {Q : α → Prop} {a : α} (h : Q a) : Safe (Pure.pure a) Q := by
  intro l
  refine ⟨by simp, ?_⟩
  intro b l' e
  simp at e
  rw [← e.1]; exact h

theorem Safe.fail {Q : α → Prop} {c : ErrCode} : Safe (fail c) Q := by
  intro l
  exact ⟨by simp, fun a l' e => by simp at e⟩

theorem Safe.bind {p : Prog α} {f : α → Prog β} {R : α → Prop} {Q : β → Prop}
    (hp : Safe p R) (hf : ∀ a, R a → Safe (f a) Q) : Safe (p >>= f) Q := by
  intro l
  rw [run_bind]
  obtain ⟨h1, h2⟩ := hp l
  cases hr : run p l with
  | ok x =>
    obtain ⟨a, l1⟩ := x
    simp only [Res.ok_bind]
    exact hf a (h2 a l1 hr) l1
  | jump => exact ⟨by simp, fun a l' e => by simp at e⟩
  | err c => exact ⟨by simp, fun a l' e => by simp at e⟩
  | ub => exact absurd hr h1

theorem Safe.bits {n : Nat} (h : n ≤ 24) : Safe (bits n) (fun v => v < 2 ^ n) := by
  intro l
  simp only [run_bits]
  refine ⟨?_, ?_⟩
  · split
    · simp
    · rw [if_neg (by omega)]; simp
  · intro a l' e
    split at e
    · simp at e
    · rw [if_neg (by omega)] at e
      simp at e
      rw [← e.1]
      have := bitsVal_lt (l.take n)
      have hl : (l.take n).length = n := by simp; omega
      rwa [hl] at this

theorem Safe.bits_bind {n : Nat} {f : Nat → Prog β} {Q : β → Prop} (h : n ≤ 24)
    (hf : ∀ v, v < 2 ^ n → Safe (f v) Q) : Safe (Prog.bits n >>= f) Q :=
  Safe.bind (Safe.bits h) hf

theorem Safe.optBits {c : Bool} {n : Nat} (h : n ≤ 24) : Safe (optBits c n) (fun v => v < 2 ^ n) := by
  unfold Prog.optBits
  split
  · exact Safe.bits h
  · exact Safe.pure (Nat.two_pow_pos n)

theorem Safe.bitsOr {c : Bool} {n old : Nat} (h : n ≤ 24) :
    Safe (bitsOr c n old) (fun v => v < 2 ^ n ∨ v = old) := by
  unfold Prog.bitsOr
  split
  · exact (Safe.bits h).mono fun _ h => Or.inl h
  · exact Safe.pure (Or.inr rfl)

theorem Safe.when {c : Bool} {p : Prog Unit} (h : c = true → Safe p (fun _ => True)) :
    Safe (when c p) (fun _ => True) := by
  unfold Prog.when
  split
  · exact h ‹_›
  · exact Safe.pure trivial

theorem Safe.avail : Safe avail (fun c => 0 ≤ c) := by
  intro l
  refine ⟨by simp, ?_⟩
  intro a l' e
  simp at e
  omega

theorem Safe.drop {n : Int} (h : 0 ≤ n) : Safe (drop n) (fun _ => True) := by
  intro l
  refine ⟨?_, fun _ _ _ => trivial⟩
  simp only [run_drop]
  rw [if_neg (by omega)]
  split <;> simp

theorem Safe.inTable {i : Int} {cap : Nat} (h0 : 0 ≤ i) (h : i < cap) :
    Safe (inTable i cap) (fun _ => True) := by
  unfold Prog.inTable
  rw [if_pos ⟨h0, h⟩]
  exact Safe.pure trivial

theorem Safe.setAt {tbl : List α} {i : Nat} {v : α} (h : i < tbl.length) :
    Safe (setAt tbl i v) (fun t => t = tbl.set i v) := by
  unfold Prog.setAt
  rw [if_pos h]
  exact Safe.pure rfl

theorem Safe.getAt {tbl : List α} {i : Nat} (h : i < tbl.length) :
    Safe (getAt tbl i) (fun v => tbl[i]? = some v) := by
  unfold Prog.getAt
  rw [List.getElem?_eq_getElem h]
  exact Safe.pure rfl

theorem Safe.forN {f : Nat → Prog α} {P : α → Prop} (k i : Nat)
    (h : ∀ j, i ≤ j → j < i + k → Safe (f j) P) :
    Safe (forN f k i) (fun l => l.length = k ∧ ∀ x ∈ l, P x) := by
  induction k generalizing i with
  | zero => exact Safe.pure ⟨rfl, by simp⟩
  | succ k ih =>
    unfold Prog.forN
    refine Safe.bind (h i (by omega) (by omega)) fun a ha => ?_
    refine Safe.bind (ih (i + 1) fun j h1 h2 => h j (by omega) (by omega)) fun as has => ?_
    refine Safe.pure ⟨by simp [has.1], ?_⟩
    intro x hx
    rw [List.mem_cons] at hx
    rcases hx with rfl | hx
    · exact ha
    · exact has.2 x hx

theorem Safe.foldN {f : Nat → σ → Prog σ} (I : Nat → σ → Prop) (k i : Nat) (s : σ)
    (hs : I i s) (h : ∀ j t, i ≤ j → j < i + k → I j t → Safe (f j t) (I (j + 1))) :
    Safe (foldN f k i s) (I (i + k)) := by
  induction k generalizing i s with
  | zero => exact Safe.pure hs
  | succ k ih =>
    unfold Prog.foldN
    refine Safe.bind (h i s (by omega) (by omega) hs) fun s' hs' => ?_
    have := ih (i + 1) s' hs' fun j t h1 h2 => h j t (by omega) (by omega)
    rw [show i + (k + 1) = i + 1 + k by omega]
    exact this

theorem Safe.ite {c : Prop} [Decidable c] {p q : Prog α} {Q : α → Prop}
    (h1 : c → Safe p Q) (h2 : ¬ c → Safe q Q) : Safe (if c then p else q) Q := by
  split
  · exact h1 ‹_›
  · exact h2 ‹_›

/-- A safe program, run by the pointer code on any buffer in good order, has no undefined
behaviour and its values satisfy the postcondition. -/
theorem Safe.runC {p : Prog α} {Q : α → Prop} (h : Safe p Q) (s : BitBuf) (hs : s.WF) :
    p.runC s ≠ .ub ∧ ∀ a s', p.runC s = .ok (a, s') → Q a ∧ s'.WF := by
  have hsim := sim p s hs
  obtain ⟨h1, h2⟩ := h s.rest
  cases hr : run p s.rest with
  | ok x =>
    obtain ⟨a, l⟩ := x
    rw [hr] at hsim
    obtain ⟨s', e1, e2, _, _, _⟩ := hsim
    rw [e1]
    refine ⟨by simp, ?_⟩
    intro b t e
    simp at e
    obtain ⟨rfl, rfl⟩ := e
    exact ⟨h2 _ _ hr, e2⟩
  | jump => rw [hr] at hsim; rw [hsim]; exact ⟨by simp, fun a s' e => by simp at e⟩
  | err c => rw [hr] at hsim; rw [hsim]; exact ⟨by simp, fun a s' e => by simp at e⟩
  | ub => exact absurd hr h1

end Verif.Prog
