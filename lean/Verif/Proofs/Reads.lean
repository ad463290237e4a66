import Verif.Proofs.Fields

/-! Parser programs that accept exactly the codes of a relation between values and bits. -/

namespace Verif.Prog

variable {α β : Type}

theorem natBits_bitsVal (l : List Bool) : natBits l.length (bitsVal l) = l := by
  induction l with
  | nil => rfl
  | cons b bs ih =>
    simp only [List.length_cons, natBits]
    congr 1
    · rw [bitsVal_testBit]
      simp
    · rw [← natBits_mod bs.length bs.length _ (Nat.le_refl _), bitsVal_cons, Nat.mul_comm, Nat.mul_add_mod,
        Nat.mod_eq_of_lt (bitsVal_lt bs), ih]

/-- The program delivers `a` exactly when the input starts with bits that code `a`, and leaves the rest. -/
def Reads (p : Prog α) (R : α → List Bool → Prop) : Prop :=
  ∀ l a l', run p l = .ok (a, l') ↔ ∃ b, R a b ∧ l = b ++ l'

theorem Reads.congr {p : Prog α} {R S : α → List Bool → Prop} (h : Reads p R) (e : ∀ a b, R a b ↔ S a b) : Reads p S := by
  intro l a l'
  rw [h l a l']
  exact exists_congr fun b => by rw [e]

theorem Reads.run {p : Prog α} {R : α → List Bool → Prop} (h : Reads p R) {a : α} {b : List Bool} (hr : R a b) (l : List Bool) :
    run p (b ++ l) = .ok (a, l) := (h _ _ _).mpr ⟨b, hr, rfl⟩

theorem Reads.pure (x : α) : Reads (Pure.pure x) (fun a b => a = x ∧ b = []) := by
  intro l a l'
  simp only [run_pure, Res.ok.injEq, Prod.mk.injEq]
  constructor
  · rintro ⟨rfl, rfl⟩
    exact ⟨[], ⟨rfl, rfl⟩, rfl⟩
  · rintro ⟨b, ⟨rfl, rfl⟩, rfl⟩
    exact ⟨rfl, rfl⟩

theorem Reads.fail (c : ErrCode) : Reads (fail c : Prog α) (fun _ _ => False) := by
  intro l a l'
  simp

theorem Reads.undef : Reads (undef : Prog α) (fun _ _ => False) := by
  intro l a l'
  simp

theorem Reads.bits (n : Nat) : Reads (bits n) (fun v b => n ≤ 24 ∧ v < 2 ^ n ∧ b = natBits n v) := by
  intro l a l'
  constructor
  · intro h
    rw [run_bits] at h
    split at h
    · simp at h
    · rename_i h1
      split at h
      · simp at h
      · rename_i h2
        simp only [Res.ok.injEq, Prod.mk.injEq] at h
        obtain ⟨rfl, rfl⟩ := h
        have hl : (l.take n).length = n := by simp; omega
        refine ⟨l.take n, ⟨by omega, ?_, ?_⟩, (List.take_append_drop n l).symm⟩
        · have := bitsVal_lt (l.take n)
          rwa [hl] at this
        · have := natBits_bitsVal (l.take n)
          rw [hl] at this
          exact this.symm
  · rintro ⟨b, ⟨h1, h2, rfl⟩, rfl⟩
    rw [run_bits_append n a h1, Nat.mod_eq_of_lt h2]

theorem Reads.bind {p : Prog α} {f : α → Prog β} {R : α → List Bool → Prop} {S : α → β → List Bool → Prop}
    (hp : Reads p R) (hf : ∀ a b, R a b → Reads (f a) (S a)) :
    Reads (p >>= f) (fun c b => ∃ a b1 b2, R a b1 ∧ S a c b2 ∧ b = b1 ++ b2) := by
  intro l c l'
  rw [run_bind, Res.bind_eq_ok]
  constructor
  · rintro ⟨⟨a, l1⟩, h1, h2⟩
    obtain ⟨b1, hr, rfl⟩ := (hp _ _ _).mp h1
    obtain ⟨b2, hs, rfl⟩ := (hf a b1 hr _ _ _).mp h2
    exact ⟨b1 ++ b2, ⟨a, b1, b2, hr, hs, rfl⟩, by simp⟩
  · rintro ⟨b, ⟨a, b1, b2, hr, hs, rfl⟩, rfl⟩
    refine ⟨(a, b2 ++ l'), ?_, ?_⟩
    · rw [List.append_assoc]; exact hp.run hr _
    · exact (hf a b1 hr).run hs _

theorem Reads.ite {c : Prop} [Decidable c] {p q : Prog α} {R S : α → List Bool → Prop} (h1 : c → Reads p R) (h2 : ¬ c → Reads q S) :
    Reads (if c then p else q) (fun a b => if c then R a b else S a b) := by
  by_cases h : c
  · simp only [h, if_true]; exact h1 h
  · simp only [h, if_false]; exact h2 h

end Verif.Prog
