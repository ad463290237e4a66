import Verif.Proofs.Sel

/-! # Total results

`Does r Q`: `r` is a value and `Q` holds of it. -/

namespace Verif

def Res.Does {α : Type} (r : Res α) (Q : α → Prop) : Prop := ∃ a, r = .ok a ∧ Q a

namespace Res

theorem Does.ok {α : Type} {Q : α → Prop} {a : α} (h : Q a) : Does (.ok a) Q := ⟨a, rfl, h⟩

theorem Does.bind {α β : Type} {Q : α → Prop} {R : β → Prop} {r : Res α} {f : α → Res β} (h : Does r Q)
    (hf : ∀ a, Q a → Does (f a) R) : Does (r >>= f) R := by
  obtain ⟨a, ha, hq⟩ := h
  obtain ⟨b, hb, hr⟩ := hf a hq
  exact ⟨b, by rw [ha, ok_bind, hb], hr⟩

theorem Does.mono {α : Type} {Q R : α → Prop} {r : Res α} (h : Does r Q) (hi : ∀ a, Q a → R a) : Does r R := by
  obtain ⟨a, ha, hq⟩ := h
  exact ⟨a, ha, hi a hq⟩

theorem Does.ite {α : Type} {Q : α → Prop} {c : Prop} [Decidable c] {r s : Res α} (h1 : c → Does r Q)
    (h2 : ¬ c → Does s Q) : Does (if c then r else s) Q := by
  by_cases hc : c
  · rw [if_pos hc]; exact h1 hc
  · rw [if_neg hc]; exact h2 hc

theorem Does.sound {α : Type} {Q : α → Prop} {r : Res α} (h : Does r Q) : Sound r Q := by
  obtain ⟨a, rfl, hq⟩ := h
  exact Sound.ok hq

end Res

namespace DrcSel

open Res

theorem does_at {α : Type} {xs : List α} {i : Nat} (h : i < xs.length) : Does (at_ xs i) (fun x => xs[i]? = some x) := by
  unfold at_
  rw [List.getElem?_eq_getElem h]
  exact Does.ok rfl

theorem does_at' {α : Type} {xs : List α} {i : Nat} {x : α} (h : xs[i]? = some x) : Does (at_ xs i) (fun y => y = x) := by
  unfold at_
  rw [h]
  exact Does.ok rfl

theorem does_push {α : Type} {Q : List α → Prop} {cap : Nat} {xs : List α} {x : α} (hc : xs.length < cap)
    (h : Q (xs ++ [x])) : Does (push cap xs x) Q := by
  unfold push
  rw [if_pos hc]
  exact Does.ok h

theorem does_each {α σ : Type} {f : α → σ → Res σ} {I : σ → Prop} :
    ∀ {xs : List α}, (∀ x ∈ xs, ∀ s, I s → Does (f x s) I) → ∀ {s : σ}, I s → Does (each f xs s) I
  | [], _, _, hs => Does.ok hs
  | x :: xs, h, s, hs => by
    unfold each
    exact Does.bind (h x (by simp) s hs) fun s' hs' => does_each (fun y hy => h y (by simp [hy])) hs'

/-- With an invariant over the entries that have been seen and those that follow. -/
theorem does_eachSplit {α σ : Type} {f : α → σ → Res σ} {I : List α → σ → Prop} {all : List α} :
    ∀ {xs pre : List α}, all = pre ++ xs →
      (∀ pre x post, all = pre ++ x :: post → ∀ s, I pre s → Does (f x s) (I (pre ++ [x]))) →
      ∀ {s : σ}, I pre s → Does (each f xs s) (I all)
  | [], pre, he, _, s, hs => Does.ok (by simpa [he] using hs)
  | x :: xs, pre, he, h, s, hs => by
    unfold each
    exact Does.bind (h pre x xs he s hs) fun s' hs' =>
      does_eachSplit (f := f) (I := I) (pre := pre ++ [x]) (by simpa using he) h hs'

theorem does_eachAll {α σ : Type} {f : α → σ → Res σ} {I : List α → σ → Prop} {xs : List α}
    (h : ∀ pre x post, xs = pre ++ x :: post → ∀ s, I pre s → Does (f x s) (I (pre ++ [x]))) {s : σ} (hs : I [] s) :
    Does (each f xs s) (I xs) :=
  does_eachSplit (pre := []) (by simp) h hs

theorem sound_eachSplit {α σ : Type} {f : α → σ → Res σ} {I : List α → σ → Prop} {all : List α} :
    ∀ {xs pre : List α}, all = pre ++ xs →
      (∀ pre x post, all = pre ++ x :: post → ∀ s, I pre s → Sound (f x s) (I (pre ++ [x]))) →
      ∀ {s : σ}, I pre s → Sound (each f xs s) (I all)
  | [], pre, he, _, s, hs => Sound.ok (by simpa [he] using hs)
  | x :: xs, pre, he, h, s, hs => by
    unfold each
    exact Sound.bind (h pre x xs he s hs) fun s' hs' =>
      sound_eachSplit (f := f) (I := I) (pre := pre ++ [x]) (by simpa using he) h hs'

theorem sound_eachAll {α σ : Type} {f : α → σ → Res σ} {I : List α → σ → Prop} {xs : List α}
    (h : ∀ pre x post, xs = pre ++ x :: post → ∀ s, I pre s → Sound (f x s) (I (pre ++ [x]))) {s : σ} (hs : I [] s) :
    Sound (each f xs s) (I xs) :=
  sound_eachSplit (pre := []) (by simp) h hs

/-- A loop from 0 on with an invariant that mentions how many rounds are done. -/
theorem does_range {σ : Type} {f : Nat → σ → Res σ} {I : Nat → σ → Prop} :
    ∀ {n : Nat}, (∀ i < n, ∀ s, I i s → Does (f i s) (I (i + 1))) → ∀ {s : σ}, I 0 s → Does (each f (List.range n) s) (I n) := by
  intro n h s hs
  have := does_eachAll (f := f) (I := fun pre s => I pre.length s) (xs := List.range n) (s := s) ?_ hs
  · simpa using this
  · intro pre x post he s' hs'
    have hx : x = pre.length := by
      have := congrArg (fun l => l[pre.length]?) he
      simp only [List.getElem?_append_right (Nat.le_refl _), Nat.sub_self, List.getElem?_cons_zero] at this
      rw [List.getElem?_eq_some_iff] at this
      obtain ⟨hl, hv⟩ := this
      rw [List.getElem_range] at hv
      exact hv.symm
    have hlt : pre.length < n := by
      have := congrArg List.length he
      simp at this
      omega
    subst hx
    have := h pre.length hlt s' hs'
    simpa using this

end DrcSel

end Verif
