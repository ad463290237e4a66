import Verif.Model.DrcSel

/-! # Reasoning about results of the DRC set selection

`Gives r Q`: if `r` is a value then `Q` holds of it.  `Sound r Q`: the same, and `r` is not undefined. -/

namespace Verif

def Res.Gives {α : Type} (r : Res α) (Q : α → Prop) : Prop := ∀ a, r = .ok a → Q a

def Res.Sound {α : Type} (r : Res α) (Q : α → Prop) : Prop := r ≠ .ub ∧ ∀ a, r = .ok a → Q a

namespace Res

theorem Gives.ok {α : Type} {Q : α → Prop} {a : α} (h : Q a) : Gives (.ok a) Q := by
  intro b hb; cases hb; exact h

theorem Gives.err {α : Type} {Q : α → Prop} {c : ErrCode} : Gives (.err c) Q := by intro b hb; cases hb

theorem Gives.ub {α : Type} {Q : α → Prop} : Gives .ub Q := by intro b hb; cases hb

theorem Gives.bind {α β : Type} {Q : α → Prop} {R : β → Prop} {r : Res α} {f : α → Res β} (h : Gives r Q)
    (hf : ∀ a, Q a → Gives (f a) R) : Gives (r >>= f) R := by
  intro b hb
  obtain ⟨a, ha, hab⟩ := bind_eq_ok.mp hb
  exact hf a (h a ha) b hab

theorem Gives.mono {α : Type} {Q R : α → Prop} {r : Res α} (h : Gives r Q) (hi : ∀ a, Q a → R a) : Gives r R :=
  fun a ha => hi a (h a ha)

theorem Gives.ite {α : Type} {Q : α → Prop} {c : Prop} [Decidable c] {r s : Res α} (h1 : c → Gives r Q)
    (h2 : ¬ c → Gives s Q) : Gives (if c then r else s) Q := by
  by_cases hc : c
  · rw [if_pos hc]; exact h1 hc
  · rw [if_neg hc]; exact h2 hc

theorem Sound.ok {α : Type} {Q : α → Prop} {a : α} (h : Q a) : Sound (.ok a) Q :=
  ⟨by simp, Gives.ok h⟩

theorem Sound.err {α : Type} {Q : α → Prop} {c : ErrCode} : Sound (.err c) Q := ⟨by simp, Gives.err⟩

theorem Sound.bind {α β : Type} {Q : α → Prop} {R : β → Prop} {r : Res α} {f : α → Res β} (h : Sound r Q)
    (hf : ∀ a, Q a → Sound (f a) R) : Sound (r >>= f) R := by
  refine ⟨?_, Gives.bind h.2 fun a ha => (hf a ha).2⟩
  intro hb
  rcases bind_eq_ub.mp hb with h1 | ⟨a, ha, h1⟩
  · exact h.1 h1
  · exact (hf a (h.2 a ha)).1 h1

theorem Sound.mono {α : Type} {Q R : α → Prop} {r : Res α} (h : Sound r Q) (hi : ∀ a, Q a → R a) : Sound r R :=
  ⟨h.1, fun a ha => hi a (h.2 a ha)⟩

theorem Sound.ite {α : Type} {Q : α → Prop} {c : Prop} [Decidable c] {r s : Res α} (h1 : c → Sound r Q)
    (h2 : ¬ c → Sound s Q) : Sound (if c then r else s) Q := by
  by_cases hc : c
  · rw [if_pos hc]; exact h1 hc
  · rw [if_neg hc]; exact h2 hc

end Res

namespace DrcSel

open Res

theorem gives_at {α : Type} (xs : List α) (i : Nat) : Gives (at_ xs i) (fun x => xs[i]? = some x) := by
  unfold at_
  cases h : xs[i]? with
  | none => exact Gives.ub
  | some x => exact Gives.ok rfl

theorem sound_at {α : Type} {xs : List α} {i : Nat} (h : i < xs.length) :
    Sound (at_ xs i) (fun x => xs[i]? = some x) := by
  refine ⟨?_, gives_at xs i⟩
  unfold at_
  rw [List.getElem?_eq_getElem h]
  simp

theorem at_ok {α : Type} {xs : List α} {i : Nat} {x : α} : at_ xs i = .ok x ↔ xs[i]? = some x := by
  unfold at_
  cases xs[i]? <;> simp

theorem push_ok {α : Type} {cap : Nat} {xs ys : List α} {x : α} :
    push cap xs x = .ok ys ↔ xs.length < cap ∧ ys = xs ++ [x] := by
  unfold push
  split <;> simp_all [eq_comm]

theorem gives_push {α : Type} {Q : List α → Prop} {cap : Nat} {xs : List α} {x : α} (h : Q (xs ++ [x])) :
    Gives (push cap xs x) Q := by
  intro ys hy
  rw [(push_ok.mp hy).2]
  exact h

theorem sound_push {α : Type} {Q : List α → Prop} {cap : Nat} {xs : List α} {x : α} (hc : xs.length < cap)
    (h : Q (xs ++ [x])) : Sound (push cap xs x) Q := by
  refine ⟨?_, gives_push h⟩
  unfold push
  rw [if_pos hc]
  simp

theorem gives_each {α σ : Type} {f : α → σ → Res σ} {I : σ → Prop} :
    ∀ {xs : List α}, (∀ x ∈ xs, ∀ s, I s → Gives (f x s) I) → ∀ {s : σ}, I s → Gives (each f xs s) I
  | [], _, _, hs => Gives.ok hs
  | x :: xs, h, s, hs => by
    unfold each
    exact Gives.bind (h x (by simp) s hs) fun s' hs' => gives_each (fun y hy => h y (by simp [hy])) hs'

theorem sound_each {α σ : Type} {f : α → σ → Res σ} {I : σ → Prop} :
    ∀ {xs : List α}, (∀ x ∈ xs, ∀ s, I s → Sound (f x s) I) → ∀ {s : σ}, I s → Sound (each f xs s) I
  | [], _, _, hs => Sound.ok hs
  | x :: xs, h, s, hs => by
    unfold each
    exact Sound.bind (h x (by simp) s hs) fun s' hs' => sound_each (fun y hy => h y (by simp [hy])) hs'

/-- With an invariant that may mention how many entries have been seen. -/
theorem sound_eachN {α σ : Type} {f : α → σ → Res σ} {I : Nat → σ → Prop} :
    ∀ {xs : List α} {n : Nat}, (∀ x ∈ xs, ∀ k s, n ≤ k → k < n + xs.length → I k s → Sound (f x s) (I (k + 1))) →
      ∀ {s : σ}, I n s → Sound (each f xs s) (I (n + xs.length))
  | [], n, _, s, hs => Sound.ok (by simpa using hs)
  | x :: xs, n, h, s, hs => by
    unfold each
    refine Sound.bind (h x (by simp) n s (by omega) (by simp) hs) fun s' hs' => ?_
    have := sound_eachN (f := f) (I := I) (xs := xs) (n := n + 1)
      (fun y hy k s hk hk2 hI => h y (by simp [hy]) k s (by omega) (by simp only [List.length_cons]; omega) hI) hs'
    simpa [Nat.add_assoc, Nat.add_comm 1] using this

/-- With an invariant over the entries that have been seen and those that follow. -/
theorem gives_eachSplit {α σ : Type} {f : α → σ → Res σ} {I : List α → σ → Prop} {all : List α} :
    ∀ {xs pre : List α}, all = pre ++ xs →
      (∀ pre x post, all = pre ++ x :: post → ∀ s, I pre s → Gives (f x s) (I (pre ++ [x]))) →
      ∀ {s : σ}, I pre s → Gives (each f xs s) (I all)
  | [], pre, he, _, s, hs => Gives.ok (by simpa [he] using hs)
  | x :: xs, pre, he, h, s, hs => by
    unfold each
    exact Gives.bind (h pre x xs he s hs) fun s' hs' =>
      gives_eachSplit (f := f) (I := I) (pre := pre ++ [x]) (by simpa using he) h hs'

theorem gives_eachAll {α σ : Type} {f : α → σ → Res σ} {I : List α → σ → Prop} {xs : List α}
    (h : ∀ pre x post, xs = pre ++ x :: post → ∀ s, I pre s → Gives (f x s) (I (pre ++ [x]))) {s : σ} (hs : I [] s) :
    Gives (each f xs s) (I xs) :=
  gives_eachSplit (pre := []) (by simp) h hs

end DrcSel

end Verif
