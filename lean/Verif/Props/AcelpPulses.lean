import Verif.Model.Acelp
import Verif.Spec.Acelp
import Mathlib.Algebra.BigOperators.Group.Finset.Basic
import Mathlib.Algebra.BigOperators.Intervals
import Mathlib.Tactic.Linarith
import Mathlib.Tactic.Ring
import Mathlib.Tactic.IntervalCases

/-! # Pulses: C167, C168, C169 -/

namespace Verif.Acelp

/-! ## Pulses of a track -/

/-- A position and whether the pulse is negative. -/
abbrev P := Nat × Bool

def P.at (x : P) (p : Nat) : Int := if p = x.1 then (if x.2 then -1 else 1) else 0

/-- The sum of pulses. -/
def amount : List P → Nat → Int
  | [], _ => 0
  | x :: ps, p => x.at p + amount ps p

theorem amount_append (a b : List P) (p : Nat) : amount (a ++ b) p = amount a p + amount b p := by
  induction a with
  | nil => simp [amount]
  | cons x a ih => simp only [List.cons_append, amount, ih]; ring

/-- A vector with `w` added on a track. -/
def addTo (t : Nat) (w : Nat → Int) (v : Vec) : Vec := fun i => if i % 4 = t then v i + w (i / 4) else v i

theorem addTo_addTo (t : Nat) (w w' : Nat → Int) (v : Vec) : addTo t w (addTo t w' v) = addTo t (fun p => w' p + w p) v := by
  funext i
  simp only [addTo]
  split <;> ring

theorem pulse_eq {p t : Nat} (hp : p < 16) (ht : t < 4) (s : Bool) (v : Vec) :
    pulse (4 * p + t) s v = .ok (addTo t (amount [(p, s)]) v) := by
  rw [pulse, if_pos (by omega)]
  congr 1
  funext i
  simp only [addTo, amount, P.at]
  by_cases h : i = 4 * p + t
  · subst h
    have e1 : (4 * p + t) % 4 = t := by omega
    have e2 : (4 * p + t) / 4 = p := by omega
    rw [if_pos rfl, if_pos e1, e2, if_pos rfl]
    cases s <;> simp <;> ring
  · rw [if_neg h]
    split
    · rename_i h2
      rw [if_neg (by omega)]
      simp
    · rfl

theorem pulse2_eq {p q t : Nat} (hp : p < 16) (hq : q < 16) (ht : t < 4) (s s' : Bool) (v : Vec) :
    (pulse (4 * p + t) s v >>= pulse (4 * q + t) s') = .ok (addTo t (amount [(p, s), (q, s')]) v) := by
  rw [pulse_eq hp ht, Res.ok_bind, pulse_eq hq ht, addTo_addTo]
  congr 1
  congr 1
  funext i
  simp only [amount]
  ring

/-! ## Number of pulses -/

/-- The number of pulses on a track. -/
def size (w : Nat → Int) : Nat := ∑ p ∈ Finset.range 16, (w p).natAbs

theorem size_step {w w' : Nat → Int} {p : Nat} (hp : p < 16) (h : ∀ q, q ≠ p → w' q = w q) :
    size w' + (w p).natAbs = size w + (w' p).natAbs := by
  have hm : p ∈ Finset.range 16 := Finset.mem_range.mpr hp
  unfold size
  rw [← Finset.add_sum_erase _ _ hm, ← Finset.add_sum_erase (Finset.range 16) (fun p => (w p).natAbs) hm]
  have : ∑ q ∈ (Finset.range 16).erase p, (w' q).natAbs = ∑ q ∈ (Finset.range 16).erase p, (w q).natAbs :=
    Finset.sum_congr rfl fun q hq => by rw [h q (Finset.ne_of_mem_erase hq)]
  rw [this]
  omega

theorem at_self (x : P) : x.at x.1 = 1 ∧ x.2 = false ∨ x.at x.1 = -1 ∧ x.2 = true := by
  unfold P.at
  rw [if_pos rfl]
  cases x.2 <;> simp

theorem at_ne (x : P) {q : Nat} (h : q ≠ x.1) : x.at q = 0 := by rw [P.at, if_neg h]

theorem size_amount {ps : List P} (h : ∀ x ∈ ps, x.1 < 16) : size (amount ps) ≤ ps.length ∧ size (amount ps) % 2 = ps.length % 2 := by
  induction ps with
  | nil => exact ⟨by simp [size, amount], by simp [size, amount]⟩
  | cons x ps ih =>
    have hx : x.1 < 16 := h x (List.mem_cons_self ..)
    obtain ⟨h1, h2⟩ := ih fun y hy => h y (List.mem_cons_of_mem _ hy)
    have := size_step (w := amount ps) (w' := amount (x :: ps)) hx fun q hq => by simp only [amount, at_ne x hq]; ring
    simp only [List.length_cons]
    have e : amount (x :: ps) x.1 = x.at x.1 + amount ps x.1 := rfl
    rcases at_self x with ⟨e1, _⟩ | ⟨e1, _⟩ <;> rw [e1] at e <;> omega

/-- No two opposite pulses at one place. -/
def Together (ps : List P) : Prop := ∀ x ∈ ps, ∀ y ∈ ps, x.1 = y.1 → x.2 = y.2

theorem amount_sign {ps : List P} {p : Nat} {s : Bool} (h : ∀ y ∈ ps, y.1 = p → y.2 = s) :
    if s then amount ps p ≤ 0 else 0 ≤ amount ps p := by
  induction ps with
  | nil => cases s <;> simp [amount]
  | cons x ps ih =>
    have := ih fun y hy => h y (List.mem_cons_of_mem _ hy)
    have hx := h x (List.mem_cons_self ..)
    have e : amount (x :: ps) p = x.at p + amount ps p := rfl
    by_cases hp : x.1 = p
    · have hs := hx hp
      subst hp
      rcases at_self x with ⟨e1, e2⟩ | ⟨e1, e2⟩ <;> rw [e2] at hs <;> subst hs <;> simp at this ⊢ <;> omega
    · rw [e, at_ne x (fun e => hp e.symm), zero_add]
      exact this

theorem size_together {ps : List P} (h : ∀ x ∈ ps, x.1 < 16) (ht : Together ps) : size (amount ps) = ps.length := by
  induction ps with
  | nil => simp [size, amount]
  | cons x ps ih =>
    have hx : x.1 < 16 := h x (List.mem_cons_self ..)
    have h1 := ih (fun y hy => h y (List.mem_cons_of_mem _ hy)) fun y hy z hz => ht y (List.mem_cons_of_mem _ hy) z (List.mem_cons_of_mem _ hz)
    have := size_step (w := amount ps) (w' := amount (x :: ps)) hx fun q hq => by simp only [amount, at_ne x hq]; ring
    have hs := amount_sign (ps := ps) (p := x.1) (s := x.2) fun y hy e => ht y (List.mem_cons_of_mem _ hy) x (List.mem_cons_self ..) e
    have e : amount (x :: ps) x.1 = x.at x.1 + amount ps x.1 := rfl
    simp only [List.length_cons]
    rcases at_self x with ⟨e1, e2⟩ | ⟨e1, e2⟩ <;> rw [e1] at e <;> rw [e2] at hs <;> simp at hs <;> omega

/-- Every vector is the sum of as many pulses as it has. -/
theorem pulses_of (n : Nat) : ∀ (w : Nat → Int), (∀ p, 16 ≤ p → w p = 0) → size w = n →
    ∃ ps : List P, ps.length = n ∧ (∀ x ∈ ps, x.1 < 16) ∧ (∀ x ∈ ps, if x.2 then w x.1 < 0 else 0 < w x.1) ∧ amount ps = w := by
  induction n with
  | zero =>
    intro w hw h
    refine ⟨[], rfl, by simp, by simp, ?_⟩
    funext p
    by_cases hp : p < 16
    · have : ∀ q ∈ Finset.range 16, (w q).natAbs = 0 := (Finset.sum_eq_zero_iff).mp h
      have := this p (Finset.mem_range.mpr hp)
      simp only [amount]
      omega
    · rw [hw p (by omega)]
      rfl
  | succ n ih =>
    intro w hw h
    have : ∃ p, p < 16 ∧ w p ≠ 0 := by
      by_contra hc
      push Not at hc
      have : size w = 0 := Finset.sum_eq_zero fun p hp => by rw [hc p (Finset.mem_range.mp hp)]; rfl
      omega
    obtain ⟨p, hp, hne⟩ := this
    obtain ⟨s, es⟩ : ∃ s : Bool, s = decide (w p < 0) := ⟨_, rfl⟩
    obtain ⟨w', hw'⟩ : ∃ w' : Nat → Int, ∀ q, w' q = w q - P.at (p, s) q := ⟨_, fun _ => rfl⟩
    have hp' : w' p = w p - 1 ∧ 0 < w p ∧ s = false ∨ w' p = w p + 1 ∧ w p < 0 ∧ s = true := by
      have e := hw' p
      rcases at_self (p, s) with ⟨e1, e2⟩ | ⟨e1, e2⟩ <;> simp only at e1 e2 <;> rw [e1] at e <;> rw [e2] at es ⊢ <;> simp at es
      · exact Or.inl ⟨by omega, by omega, rfl⟩
      · exact Or.inr ⟨by omega, by omega, rfl⟩
    have hq' : ∀ q, q ≠ p → w' q = w q := fun q hq => by rw [hw', at_ne (p, s) hq, sub_zero]
    have hs : size w' = n := by
      have := size_step (w := w) (w' := w') hp hq'
      omega
    have hz : ∀ q, 16 ≤ q → w' q = 0 := fun q hq => by rw [hq' q (by omega), hw q hq]
    obtain ⟨ps, h1, h2, h3, h4⟩ := ih w' hz hs
    refine ⟨(p, s) :: ps, by simp [h1], ?_, ?_, ?_⟩
    · intro x hx
      rcases List.mem_cons.mp hx with rfl | hx
      · exact hp
      · exact h2 x hx
    · intro x hx
      rcases List.mem_cons.mp hx with rfl | hx
      · rcases hp' with ⟨_, h5, h6⟩ | ⟨_, h5, h6⟩ <;> rw [h6] <;> simpa using h5
      · have := h3 x hx
        by_cases hxp : x.1 = p
        · rw [hxp] at this ⊢
          cases hx2 : x.2 <;> rw [hx2] at this <;> simp at this ⊢ <;> omega
        · rwa [hq' _ hxp] at this
    · funext q
      rw [amount, h4, hw']
      ring

theorem together_of {w : Nat → Int} {ps : List P} (h : ∀ x ∈ ps, if x.2 then w x.1 < 0 else 0 < w x.1) : Together ps := by
  intro x hx y hy e
  have h1 := h x hx
  have h2 := h y hy
  rw [e] at h1
  cases hx2 : x.2 <;> cases hy2 : y.2 <;> rw [hx2] at h1 <;> rw [hy2] at h2 <;> simp at h1 h2 ⊢ <;> omega

/-! ## What codes stand for -/

def onePs (idx M off : Nat) : List P := [(idx % 2 ^ M + off, decide (idx / 2 ^ M % 2 = 1))]

theorem one_eq {idx M off t : Nat} (hM : off + 2 ^ M ≤ 16) (ht : t < 4) (v : Vec) :
    one idx M off t v = .ok (addTo t (amount (onePs idx M off)) v) := by
  have : idx % 2 ^ M < 2 ^ M := Nat.mod_lt _ (Nat.two_pow_pos M)
  exact pulse_eq (by omega) ht _ v

def twoPs (idx M off : Nat) : List P :=
  let p := idx / 2 ^ M % 2 ^ M + off
  let q := idx % 2 ^ M + off
  let neg := decide (idx / 2 ^ (2 * M) % 2 = 1)
  [(p, neg), (q, if p ≤ q then neg else !neg)]

theorem two_eq {idx M off t : Nat} (hM : off + 2 ^ M ≤ 16) (ht : t < 4) (v : Vec) :
    two idx M off t v = .ok (addTo t (amount (twoPs idx M off)) v) := by
  have h1 : idx % 2 ^ M < 2 ^ M := Nat.mod_lt _ (Nat.two_pow_pos M)
  have h2 : idx / 2 ^ M % 2 ^ M < 2 ^ M := Nat.mod_lt _ (Nat.two_pow_pos M)
  unfold two twoPs
  dsimp only
  split <;> rename_i h
  · rw [pulse2_eq (by omega) (by omega) ht]
  · rw [pulse2_eq (by omega) (by omega) ht]

def threePs (idx M off : Nat) : List P :=
  twoPs (idx % 2 ^ (2 * M - 1)) (M - 1) (if idx / 2 ^ (2 * M - 1) % 2 = 1 then off + 2 ^ (M - 1) else off) ++
    onePs (idx / 2 ^ (2 * M) % 2 ^ (M + 1)) M off

theorem seq_eq {f g : Vec → Res Vec} {a b : List P} {t : Nat} (hf : ∀ v, f v = .ok (addTo t (amount a) v))
    (hg : ∀ v, g v = .ok (addTo t (amount b) v)) (v : Vec) : (f v >>= g) = .ok (addTo t (amount (a ++ b)) v) := by
  rw [hf, Res.ok_bind, hg, addTo_addTo]
  congr 2
  funext p
  rw [amount_append]

theorem three_eq {idx M off t : Nat} (hM : off + 2 ^ (M + 1) ≤ 16) (ht : t < 4) (v : Vec) :
    three idx (M + 1) off t v = .ok (addTo t (amount (threePs idx (M + 1) off)) v) := by
  have e : 2 ^ (M + 1) = 2 ^ M + 2 ^ M := by ring
  have : 0 < 2 ^ M := Nat.two_pow_pos M
  refine seq_eq (fun v => two_eq ?_ ht v) (fun v => one_eq hM ht v) v
  simp only [Nat.add_sub_cancel]
  split <;> omega

def halfPs (idx off : Nat) : List P := twoPs (idx % 32) 2 (if idx / 32 % 2 = 1 then off + 4 else off) ++ twoPs (idx / 64 % 128) 3 off

theorem half_eq {idx off t : Nat} (ho : off + 8 ≤ 16) (ht : t < 4) (v : Vec) : half idx off t v = .ok (addTo t (amount (halfPs idx off)) v) := by
  refine seq_eq (fun v => two_eq ?_ ht v) (fun v => two_eq (by omega) ht v) v
  split <;> omega

def fourPs (idx : Nat) : List P :=
  match idx / 2 ^ 14 % 4 with
  | 0 => halfPs idx (if idx / 2 ^ 13 % 2 = 1 then 8 else 0)
  | 1 => onePs (idx / 2 ^ 10) 3 0 ++ threePs idx 3 8
  | 2 => twoPs (idx / 2 ^ 7) 3 0 ++ twoPs idx 3 8
  | _ => threePs (idx / 2 ^ 4) 3 0 ++ onePs idx 3 8

theorem four_eq {idx t : Nat} (ht : t < 4) (v : Vec) : four idx t v = .ok (addTo t (amount (fourPs idx)) v) := by
  have h4 : idx / 2 ^ 14 % 4 < 4 := Nat.mod_lt _ (by decide)
  unfold four fourPs
  match idx / 2 ^ 14 % 4, h4 with
  | 0, _ => exact half_eq (off := if idx / 2 ^ 13 % 2 = 1 then 8 else 0) (by split <;> omega) ht v
  | 1, _ => exact seq_eq (fun v => one_eq (M := 3) (off := 0) (by decide) ht v) (fun v => three_eq (M := 2) (off := 8) (by decide) ht v) v
  | 2, _ => exact seq_eq (fun v => two_eq (M := 3) (off := 0) (by decide) ht v) (fun v => two_eq (M := 3) (off := 8) (by decide) ht v) v
  | 3, _ => exact seq_eq (fun v => three_eq (M := 2) (off := 0) (by decide) ht v) (fun v => one_eq (M := 3) (off := 8) (by decide) ht v) v

theorem single_eq {idx t : Nat} (hi : idx < 32) (ht : t < 4) (v : Vec) : single idx t v = .ok (addTo t (amount (onePs idx 4 0)) v) := by
  have e : single idx t v = one idx 4 0 t v := by
    unfold single one
    dsimp only
    have h16 : (2 : Nat) ^ 4 = 16 := rfl
    rw [h16]
    have : idx / 16 % 2 = idx / 16 := by omega
    by_cases h : idx / 16 % 2 = 1
    · rw [if_pos h, show (idx % 16 + 16) % 16 = idx % 16 by omega, show (idx % 16 + 16) / 16 % 2 = 1 by omega, h]
      simp
    · rw [if_neg h, show (idx % 16 + 0) % 16 = idx % 16 by omega, show (idx % 16 + 0) / 16 % 2 = 0 by omega, show idx / 16 % 2 = 0 by omega]
      simp
  rw [e]
  exact one_eq (by omega) ht v

/-! ## Codes for pulses -/

theorem ite_one (s : Bool) : decide ((if s then 1 else 0) = 1) = s := by cases s <;> rfl

theorem onePs_of {M off p : Nat} (s : Bool) (h1 : off ≤ p) (h2 : p < off + 2 ^ M) : ∃ idx < 2 ^ (M + 1), onePs idx M off = [(p, s)] := by
  refine ⟨(p - off) + 2 ^ M * (if s then 1 else 0), ?_, ?_⟩
  · rw [pow_succ]
    cases s <;> simp <;> omega
  · have hp : 0 < 2 ^ M := Nat.two_pow_pos M
    unfold onePs
    rw [Nat.add_mul_mod_self_left, Nat.mod_eq_of_lt (by omega), Nat.add_mul_div_left _ _ hp, Nat.div_eq_of_lt (by omega), zero_add,
      show p - off + off = p by omega]
    cases s <;> rfl

theorem twoPs_raw {M off p q : Nat} (s : Bool) (hp1 : off ≤ p) (hp2 : p < off + 2 ^ M) (hq1 : off ≤ q) (hq2 : q < off + 2 ^ M) :
    ∃ idx < 2 ^ (2 * M + 1), twoPs idx M off = [(p, s), (q, if p ≤ q then s else !s)] := by
  refine ⟨(q - off) + 2 ^ M * ((p - off) + 2 ^ M * (if s then 1 else 0)), ?_, ?_⟩
  · have e : 2 ^ (2 * M + 1) = 2 ^ M * (2 ^ M * 2) := by ring
    rw [e]
    have h1 : p - off + 2 ^ M * (if s then 1 else 0) + 1 ≤ 2 ^ M * 2 := by cases s <;> simp <;> omega
    calc _ < 2 ^ M + 2 ^ M * (p - off + 2 ^ M * (if s then 1 else 0)) := by omega
      _ = 2 ^ M * (p - off + 2 ^ M * (if s then 1 else 0) + 1) := by ring
      _ ≤ _ := Nat.mul_le_mul_left _ h1
  · have hp : 0 < 2 ^ M := Nat.two_pow_pos M
    have e2 : 2 ^ (2 * M) = 2 ^ M * 2 ^ M := by ring
    unfold twoPs
    dsimp only
    rw [e2, ← Nat.div_div_eq_div_mul, Nat.add_mul_mod_self_left, Nat.mod_eq_of_lt (show q - off < 2 ^ M by omega), Nat.add_mul_div_left _ _ hp,
      Nat.div_eq_of_lt (show q - off < 2 ^ M by omega), zero_add, Nat.add_mul_mod_self_left, Nat.mod_eq_of_lt (show p - off < 2 ^ M by omega),
      Nat.add_mul_div_left _ _ hp, Nat.div_eq_of_lt (show p - off < 2 ^ M by omega), zero_add, show p - off + off = p by omega,
      show q - off + off = q by omega]
    cases s <;> rfl

theorem amount_swap (x y : P) : amount [x, y] = amount [y, x] := by
  funext p
  simp only [amount]
  ring

/-- Two pulses in a range have a code unless they cancel each other. -/
theorem twoPs_of {M off : Nat} (x y : P) (hx1 : off ≤ x.1) (hx2 : x.1 < off + 2 ^ M) (hy1 : off ≤ y.1) (hy2 : y.1 < off + 2 ^ M)
    (h : x.1 = y.1 → x.2 = y.2) : ∃ idx < 2 ^ (2 * M + 1), amount (twoPs idx M off) = amount [x, y] := by
  obtain ⟨p, s⟩ := x
  obtain ⟨q, t⟩ := y
  simp only at *
  by_cases hst : s = t
  · subst hst
    by_cases hpq : p ≤ q
    · obtain ⟨i, hi, e⟩ := twoPs_raw s hx1 hx2 hy1 hy2
      exact ⟨i, hi, by rw [e, if_pos hpq]⟩
    · obtain ⟨i, hi, e⟩ := twoPs_raw s hy1 hy2 hx1 hx2
      exact ⟨i, hi, by rw [e, if_pos (by omega), amount_swap]⟩
  · have hne : p ≠ q := fun e => hst (h e)
    by_cases hpq : p < q
    · obtain ⟨i, hi, e⟩ := twoPs_raw t hy1 hy2 hx1 hx2
      refine ⟨i, hi, ?_⟩
      rw [e, if_neg (by omega), amount_swap, show (!t) = s by cases s <;> cases t <;> simp_all]
    · obtain ⟨i, hi, e⟩ := twoPs_raw s hx1 hx2 hy1 hy2
      refine ⟨i, hi, ?_⟩
      rw [e, if_neg (by omega), show (!s) = t by cases s <;> cases t <;> simp_all]

theorem amount_perm {a b : List P} (h : a.Perm b) : amount a = amount b := by
  induction h with
  | nil => rfl
  | cons x _ ih => funext p; simp only [amount, ih]
  | swap x y l => funext p; simp only [amount]; ring
  | trans _ _ h1 h2 => exact h1.trans h2

/-- Two pulses in one half and another. -/
theorem threePs_raw {M off o : Nat} (x y z : P) (ho : o = off ∨ o = off + 2 ^ M) (hx1 : o ≤ x.1) (hx2 : x.1 < o + 2 ^ M)
    (hy1 : o ≤ y.1) (hy2 : y.1 < o + 2 ^ M) (h : x.1 = y.1 → x.2 = y.2) (hz1 : off ≤ z.1) (hz2 : z.1 < off + 2 ^ (M + 1)) :
    ∃ idx < 2 ^ (3 * (M + 1) + 1), amount (threePs idx (M + 1) off) = amount [x, y, z] := by
  obtain ⟨i, hi, ei⟩ := twoPs_of x y hx1 hx2 hy1 hy2 h
  obtain ⟨j, hj, ej⟩ := onePs_of z.2 hz1 hz2
  obtain ⟨u, hu, eu⟩ : ∃ u < 2, o = if u = 1 then off + 2 ^ M else off := by
    rcases ho with rfl | rfl
    · exact ⟨0, by omega, by simp⟩
    · exact ⟨1, by omega, by simp⟩
  have hA : 0 < 2 ^ (2 * M + 1) := Nat.two_pow_pos _
  refine ⟨i + 2 ^ (2 * M + 1) * (u + 2 * j), ?_, ?_⟩
  · have e : 2 ^ (3 * (M + 1) + 1) = 2 ^ (2 * M + 1) * (2 * 2 ^ (M + 1 + 1)) := by ring
    rw [e]
    calc _ < 2 ^ (2 * M + 1) + 2 ^ (2 * M + 1) * (u + 2 * j) := by omega
      _ = 2 ^ (2 * M + 1) * (u + 2 * j + 1) := by ring
      _ ≤ _ := Nat.mul_le_mul_left _ (by omega)
  · unfold threePs
    have e1 : 2 * (M + 1) - 1 = 2 * M + 1 := by omega
    have e2 : 2 ^ (2 * (M + 1)) = 2 ^ (2 * M + 1) * 2 := by ring
    rw [e1, e2, ← Nat.div_div_eq_div_mul, Nat.add_mul_mod_self_left, Nat.mod_eq_of_lt hi, Nat.add_mul_div_left _ _ hA, Nat.div_eq_of_lt hi,
      zero_add, show (u + 2 * j) % 2 = u by omega, show (u + 2 * j) / 2 = j by omega, Nat.mod_eq_of_lt hj, Nat.add_sub_cancel, ← eu, ej]
    funext p
    rw [amount_append, ei]
    simp only [amount]
    ring

theorem pick (Q : P → Prop) (x y z : P) : ∃ a b c, (Q a ↔ Q b) ∧ amount [a, b, c] = amount [x, y, z] ∧
    (a ∈ [x, y, z] ∧ b ∈ [x, y, z] ∧ c ∈ [x, y, z]) := by
  by_cases h : Q x ↔ Q y
  · exact ⟨x, y, z, h, rfl, by simp⟩
  · by_cases h' : Q x ↔ Q z
    · exact ⟨x, z, y, h', by funext p; simp only [amount]; ring, by simp⟩
    · exact ⟨y, z, x, by tauto, by funext p; simp only [amount]; ring, by simp⟩

theorem at_opp (q p : Nat) : P.at (q, false) p = - P.at (q, true) p := by
  unfold P.at
  split <;> simp

theorem threePs_of {M off : Nat} (x y z : P) (h : ∀ u ∈ [x, y, z], off ≤ u.1 ∧ u.1 < off + 2 ^ (M + 1)) (ht : Together [x, y, z]) :
    ∃ idx < 2 ^ (3 * (M + 1) + 1), amount (threePs idx (M + 1) off) = amount [x, y, z] := by
  obtain ⟨a, b, c, hq, e, ha, hb, hc⟩ := pick (fun u => u.1 < off + 2 ^ M) x y z
  have e2 : 2 ^ (M + 1) = 2 ^ M + 2 ^ M := by ring
  rw [← e]
  have h1 := h a ha
  have h2 := h b hb
  have h3 := h c hc
  by_cases hl : a.1 < off + 2 ^ M
  · exact threePs_raw a b c (Or.inl rfl) h1.1 hl h2.1 (hq.mp hl) (ht a ha b hb) h3.1 h3.2
  · have : ¬ b.1 < off + 2 ^ M := fun hb => hl (hq.mpr hb)
    exact threePs_raw a b c (Or.inr rfl) (by omega) (by omega) (by omega) (by omega) (ht a ha b hb) h3.1 h3.2

theorem threePs_one {M off : Nat} (hM : 1 ≤ M) (x : P) (h1 : off ≤ x.1) (h2 : x.1 < off + 2 ^ (M + 1)) :
    ∃ idx < 2 ^ (3 * (M + 1) + 1), amount (threePs idx (M + 1) off) = amount [x] := by
  have e2 : 2 ^ (M + 1) = 2 ^ M + 2 ^ M := by ring
  have e3 : 2 ^ 1 ≤ 2 ^ M := Nat.pow_le_pow_right (by decide) hM
  obtain ⟨o, ho, hx1, hx2⟩ : ∃ o, (o = off ∨ o = off + 2 ^ M) ∧ o ≤ x.1 ∧ x.1 < o + 2 ^ M := by
    by_cases hl : x.1 < off + 2 ^ M
    · exact ⟨off, Or.inl rfl, h1, hl⟩
    · exact ⟨off + 2 ^ M, Or.inr rfl, by omega, by omega⟩
  obtain ⟨q, hq, hq1, hq2⟩ : ∃ q, q ≠ x.1 ∧ o ≤ q ∧ q < o + 2 ^ M := by
    by_cases hl : x.1 = o
    · exact ⟨o + 1, by omega, by omega, by omega⟩
    · exact ⟨o, by omega, by omega, by omega⟩
  obtain ⟨i, hi, e⟩ := threePs_raw x (q, false) (q, true) ho hx1 hx2 hq1 hq2 (fun h => absurd h.symm hq) (show off ≤ q by omega) (show q < _ by omega)
  refine ⟨i, hi, ?_⟩
  rw [e]
  funext p
  simp only [amount, at_opp]
  ring

theorem halfPs_raw {off o : Nat} (x y z u : P) (ho : o = off ∨ o = off + 4) (hx1 : o ≤ x.1) (hx2 : x.1 < o + 4)
    (hy1 : o ≤ y.1) (hy2 : y.1 < o + 4) (h : x.1 = y.1 → x.2 = y.2) (hz1 : off ≤ z.1) (hz2 : z.1 < off + 8) (hu1 : off ≤ u.1)
    (hu2 : u.1 < off + 8) (h' : z.1 = u.1 → z.2 = u.2) : ∃ idx < 2 ^ 13, amount (halfPs idx off) = amount [x, y, z, u] := by
  obtain ⟨i, hi, ei⟩ := twoPs_of (M := 2) x y hx1 hx2 hy1 hy2 h
  obtain ⟨j, hj, ej⟩ := twoPs_of (M := 3) z u hz1 hz2 hu1 hu2 h'
  obtain ⟨k, hk, ek⟩ : ∃ k < 2, o = if k = 1 then off + 4 else off := by
    rcases ho with rfl | rfl
    · exact ⟨0, by omega, by simp⟩
    · exact ⟨1, by omega, by simp⟩
  refine ⟨i + 32 * k + 64 * j, by omega, ?_⟩
  unfold halfPs
  rw [show (i + 32 * k + 64 * j) % 32 = i by omega, show (i + 32 * k + 64 * j) / 32 % 2 = k by omega,
    show (i + 32 * k + 64 * j) / 64 % 128 = j by omega, ← ek]
  funext p
  rw [amount_append, ei, ej]
  simp only [amount]
  ring

theorem halfPs_of {off : Nat} (x y z u : P) (h : ∀ a ∈ [x, y, z, u], off ≤ a.1 ∧ a.1 < off + 8) (ht : Together [x, y, z, u]) :
    ∃ idx < 2 ^ 13, amount (halfPs idx off) = amount [x, y, z, u] := by
  obtain ⟨a, b, c, hq, e, ha, hb, hc⟩ := pick (fun u => u.1 < off + 4) x y z
  have mem : ∀ a, a ∈ [x, y, z] → a ∈ [x, y, z, u] := fun a ha => by simp at ha ⊢; tauto
  have hu : u ∈ [x, y, z, u] := by simp
  have e' : amount [x, y, z, u] = amount [a, b, c, u] := by
    funext p
    have := congrFun e p
    simp only [amount] at this ⊢
    linarith
  rw [e']
  have h1 := h a (mem _ ha)
  have h2 := h b (mem _ hb)
  have h3 := h c (mem _ hc)
  have h4 := h u hu
  by_cases hl : a.1 < off + 4
  · exact halfPs_raw a b c u (Or.inl rfl) h1.1 hl h2.1 (hq.mp hl) (ht a (mem _ ha) b (mem _ hb)) h3.1 h3.2 h4.1 h4.2 (ht c (mem _ hc) u hu)
  · have : ¬ b.1 < off + 4 := fun hb => hl (hq.mpr hb)
    exact halfPs_raw a b c u (Or.inr rfl) (by omega) (by omega) (by omega) (by omega) (ht a (mem _ ha) b (mem _ hb)) h3.1 h3.2 h4.1 h4.2
      (ht c (mem _ hc) u hu)

theorem halfPs_two {off : Nat} (x y : P) (hx1 : off ≤ x.1) (hx2 : x.1 < off + 8) (hy1 : off ≤ y.1) (hy2 : y.1 < off + 8) :
    ∃ idx < 2 ^ 13, amount (halfPs idx off) = amount [x, y] := by
  obtain ⟨o, ho, h1, h2⟩ : ∃ o, (o = off ∨ o = off + 4) ∧ o ≤ x.1 ∧ x.1 < o + 4 := by
    by_cases hl : x.1 < off + 4
    · exact ⟨off, Or.inl rfl, hx1, hl⟩
    · exact ⟨off + 4, Or.inr rfl, by omega, by omega⟩
  obtain ⟨q, hq, hq', hq1, hq2⟩ : ∃ q, q ≠ x.1 ∧ q ≠ y.1 ∧ o ≤ q ∧ q < o + 4 := by
    by_cases h1 : o ≠ x.1 ∧ o ≠ y.1
    · exact ⟨o, h1.1, h1.2, by omega, by omega⟩
    · by_cases h2 : o + 1 ≠ x.1 ∧ o + 1 ≠ y.1
      · exact ⟨o + 1, h2.1, h2.2, by omega, by omega⟩
      · exact ⟨o + 2, by omega, by omega, by omega, by omega⟩
  obtain ⟨i, hi, e⟩ := halfPs_raw x (q, false) y (q, true) ho h1 h2 hq1 hq2 (fun h => absurd h.symm hq) hy1 hy2 (show off ≤ q by omega)
    (show q < _ by omega) (fun h => absurd h.symm hq')
  refine ⟨i, hi, ?_⟩
  rw [e]
  funext p
  simp only [amount, at_opp]
  ring

/-! ## Four pulses -/

theorem onePs_low (a r : Nat) (off : Nat) : onePs (a + 16 * r) 3 off = onePs (a % 16) 3 off := by
  unfold onePs
  norm_num
  omega

theorem twoPs_low (a r : Nat) (off : Nat) : twoPs (a + 128 * r) 3 off = twoPs (a % 128) 3 off := by
  unfold twoPs
  norm_num only [Nat.reducePow, Nat.reduceMul]
  rw [show (a + 128 * r) / 8 % 8 = a % 128 / 8 % 8 by omega, show (a + 128 * r) % 8 = a % 128 % 8 by omega,
    show (a + 128 * r) / 64 % 2 = a % 128 / 64 % 2 by omega]

theorem threePs_low (a r : Nat) (off : Nat) : threePs (a + 1024 * r) 3 off = threePs (a % 1024) 3 off := by
  unfold threePs
  norm_num only [Nat.reducePow, Nat.reduceMul, Nat.reduceSub, Nat.reduceAdd]
  rw [show (a + 1024 * r) / 32 % 2 = a % 1024 / 32 % 2 by omega, show (a + 1024 * r) % 32 = a % 1024 % 32 by omega,
    show (a + 1024 * r) / 64 % 16 = a % 1024 / 64 % 16 by omega]

theorem halfPs_low (a r : Nat) (off : Nat) : halfPs (a + 8192 * r) off = halfPs (a % 8192) off := by
  unfold halfPs
  rw [show (a + 8192 * r) / 32 % 2 = a % 8192 / 32 % 2 by omega, show (a + 8192 * r) % 32 = a % 8192 % 32 by omega,
    show (a + 8192 * r) / 64 % 128 = a % 8192 / 64 % 128 by omega]

/-- All in one half. -/
theorem fourPs_half {i : Nat} {off : Nat} (hi : i < 2 ^ 13) (ho : off = 0 ∨ off = 8) : ∃ idx < 2 ^ 16, fourPs idx = halfPs i off := by
  rcases ho with rfl | rfl
  · refine ⟨i, by omega, ?_⟩
    unfold fourPs
    rw [show i / 2 ^ 14 % 4 = 0 by omega, show i / 2 ^ 13 % 2 = 0 by omega]
    rfl
  · refine ⟨i + 8192 * 1, by omega, ?_⟩
    unfold fourPs
    rw [show (i + 8192 * 1) / 2 ^ 14 % 4 = 0 by omega, show (i + 8192 * 1) / 2 ^ 13 % 2 = 1 by omega]
    simp only [if_true]
    rw [halfPs_low, Nat.mod_eq_of_lt (by omega)]

theorem fourPs_13 {i j : Nat} (hi : i < 16) (hj : j < 2 ^ 10) : ∃ idx < 2 ^ 16, fourPs idx = onePs i 3 0 ++ threePs j 3 8 := by
  refine ⟨j + 1024 * (i + 16 * 1), by omega, ?_⟩
  unfold fourPs
  rw [show (j + 1024 * (i + 16 * 1)) / 2 ^ 14 % 4 = 1 by omega, show (j + 1024 * (i + 16 * 1)) / 2 ^ 10 = i + 16 * 1 by omega]
  simp only
  rw [onePs_low, threePs_low, Nat.mod_eq_of_lt hi, Nat.mod_eq_of_lt (by omega)]

theorem fourPs_22 {i j : Nat} (hi : i < 128) (hj : j < 128) : ∃ idx < 2 ^ 16, fourPs idx = twoPs i 3 0 ++ twoPs j 3 8 := by
  refine ⟨j + 128 * (i + 128 * 2), by omega, ?_⟩
  unfold fourPs
  rw [show (j + 128 * (i + 128 * 2)) / 2 ^ 14 % 4 = 2 by omega, show (j + 128 * (i + 128 * 2)) / 2 ^ 7 = i + 128 * 2 by omega]
  simp only
  rw [twoPs_low, twoPs_low, Nat.mod_eq_of_lt hi, Nat.mod_eq_of_lt (by omega)]

theorem fourPs_31 {i j : Nat} (hi : i < 2 ^ 10) (hj : j < 16) : ∃ idx < 2 ^ 16, fourPs idx = threePs i 3 0 ++ onePs j 3 8 := by
  refine ⟨j + 16 * (i + 1024 * 3), by omega, ?_⟩
  unfold fourPs
  rw [show (j + 16 * (i + 1024 * 3)) / 2 ^ 14 % 4 = 3 by omega, show (j + 16 * (i + 1024 * 3)) / 2 ^ 4 = i + 1024 * 3 by omega]
  simp only
  rw [onePs_low, threePs_low, Nat.mod_eq_of_lt hj, Nat.mod_eq_of_lt (by omega)]

theorem four_split {a b : List P} (h : a.length + b.length = 4) :
    (∃ x y z u, a = [] ∧ b = [x, y, z, u]) ∨ (∃ x y z u, a = [x] ∧ b = [y, z, u]) ∨ (∃ x y z u, a = [x, y] ∧ b = [z, u]) ∨
      (∃ x y z u, a = [x, y, z] ∧ b = [u]) ∨ (∃ x y z u, a = [x, y, z, u] ∧ b = []) := by
  rcases a with _ | ⟨x, _ | ⟨y, _ | ⟨z, _ | ⟨u, _ | ⟨t, a⟩⟩⟩⟩⟩ <;> rcases b with _ | ⟨x', _ | ⟨y', _ | ⟨z', _ | ⟨u', _ | ⟨t', b⟩⟩⟩⟩⟩ <;>
    simp only [List.length_cons, List.length_nil] at h <;> first | omega | simp

theorem fourPs_of {ps : List P} (hl : ps.length = 4) (h : ∀ x ∈ ps, x.1 < 16) (ht : Together ps) :
    ∃ idx < 2 ^ 16, amount (fourPs idx) = amount ps := by
  have hp := List.filter_append_perm (fun x : P => decide (x.1 < 8)) ps
  rw [← amount_perm hp]
  have ha : ∀ x ∈ ps.filter (fun x : P => decide (x.1 < 8)), 0 ≤ x.1 ∧ x.1 < 8 := fun x hx => by
    have := (List.mem_filter.mp hx).2
    simp at this
    omega
  have hb : ∀ x ∈ ps.filter (fun x : P => !decide (x.1 < 8)), 8 ≤ x.1 ∧ x.1 < 8 + 8 := fun x hx => by
    have h1 := h x (List.mem_filter.mp hx).1
    have := (List.mem_filter.mp hx).2
    simp at this
    omega
  have hlen := hp.length_eq
  rw [hl, List.length_append] at hlen
  have ta : Together (ps.filter (fun x : P => decide (x.1 < 8))) := fun x hx y hy => ht x (List.mem_filter.mp hx).1 y (List.mem_filter.mp hy).1
  have tb : Together (ps.filter (fun x : P => !decide (x.1 < 8))) := fun x hx y hy => ht x (List.mem_filter.mp hx).1 y (List.mem_filter.mp hy).1
  generalize ps.filter (fun x : P => decide (x.1 < 8)) = a at *
  generalize ps.filter (fun x : P => !decide (x.1 < 8)) = b at *
  have app : ∀ {c d : List P}, amount c = amount a → amount d = amount b → amount (c ++ d) = amount (a ++ b) := fun h1 h2 => by
    funext p
    rw [amount_append, amount_append, h1, h2]
  rcases four_split hlen with ⟨x, y, z, u, rfl, rfl⟩ | ⟨x, y, z, u, rfl, rfl⟩ | ⟨x, y, z, u, rfl, rfl⟩ | ⟨x, y, z, u, rfl, rfl⟩ |
    ⟨x, y, z, u, rfl, rfl⟩
  · obtain ⟨i, hi, e⟩ := halfPs_of x y z u hb tb
    obtain ⟨k, hk, ek⟩ := fourPs_half hi (Or.inr rfl)
    exact ⟨k, hk, by rw [ek, e]; rfl⟩
  · obtain ⟨i, hi, e⟩ := onePs_of (M := 3) x.2 (ha x (by simp)).1 (ha x (by simp)).2
    obtain ⟨j, hj, e'⟩ := threePs_of (M := 2) y z u hb tb
    obtain ⟨k, hk, ek⟩ := fourPs_13 hi hj
    exact ⟨k, hk, by rw [ek]; exact app (by rw [e]) e'⟩
  · obtain ⟨i, hi, e⟩ := twoPs_of (M := 3) x y (ha x (by simp)).1 (ha x (by simp)).2 (ha y (by simp)).1 (ha y (by simp)).2
      (ta x (by simp) y (by simp))
    obtain ⟨j, hj, e'⟩ := twoPs_of (M := 3) z u (hb z (by simp)).1 (hb z (by simp)).2 (hb u (by simp)).1 (hb u (by simp)).2
      (tb z (by simp) u (by simp))
    obtain ⟨k, hk, ek⟩ := fourPs_22 hi hj
    exact ⟨k, hk, by rw [ek]; exact app e e'⟩
  · obtain ⟨i, hi, e⟩ := threePs_of (M := 2) x y z ha ta
    obtain ⟨j, hj, e'⟩ := onePs_of (M := 3) u.2 (hb u (by simp)).1 (hb u (by simp)).2
    obtain ⟨k, hk, ek⟩ := fourPs_31 hi hj
    exact ⟨k, hk, by rw [ek]; exact app e (by rw [e'])⟩
  · obtain ⟨i, hi, e⟩ := halfPs_of x y z u ha ta
    obtain ⟨k, hk, ek⟩ := fourPs_half hi (Or.inl rfl)
    exact ⟨k, hk, by rw [ek, e]; rfl⟩

theorem fourPs_two (x y : P) (hx : x.1 < 16) (hy : y.1 < 16) : ∃ idx < 2 ^ 16, amount (fourPs idx) = amount [x, y] := by
  by_cases h1 : x.1 < 8 <;> by_cases h2 : y.1 < 8
  · obtain ⟨i, hi, e⟩ := halfPs_two (off := 0) x y (by omega) (by omega) (by omega) (by omega)
    obtain ⟨k, hk, ek⟩ := fourPs_half hi (Or.inl rfl)
    exact ⟨k, hk, by rw [ek, e]⟩
  · obtain ⟨i, hi, e⟩ := onePs_of (M := 3) (off := 0) x.2 (Nat.zero_le x.1) (by omega)
    obtain ⟨j, hj, e'⟩ := threePs_one (M := 2) (off := 8) (by decide) y (by omega) (by omega)
    obtain ⟨k, hk, ek⟩ := fourPs_13 hi hj
    exact ⟨k, hk, by rw [ek]; funext p; rw [amount_append, e, e']; simp only [amount]; ring⟩
  · obtain ⟨i, hi, e⟩ := onePs_of (M := 3) (off := 0) y.2 (Nat.zero_le y.1) (by omega)
    obtain ⟨j, hj, e'⟩ := threePs_one (M := 2) (off := 8) (by decide) x (by omega) (by omega)
    obtain ⟨k, hk, ek⟩ := fourPs_13 hi hj
    exact ⟨k, hk, by rw [ek]; funext p; rw [amount_append, e, e']; simp only [amount]; ring⟩
  · obtain ⟨i, hi, e⟩ := halfPs_two (off := 8) x y (by omega) (by omega) (by omega) (by omega)
    obtain ⟨k, hk, ek⟩ := fourPs_half hi (Or.inr rfl)
    exact ⟨k, hk, by rw [ek, e]⟩

theorem fourPs_none : ∃ idx < 2 ^ 16, amount (fourPs idx) = amount [] := by
  obtain ⟨i, hi, e⟩ := halfPs_raw (off := 0) (o := 0) (0, false) (1, false) (0, true) (1, true) (Or.inl rfl) (by decide) (by decide) (by decide)
    (by decide) (by decide) (by decide) (by decide) (by decide) (by decide) (by decide)
  obtain ⟨k, hk, ek⟩ := fourPs_half hi (Or.inl rfl)
  refine ⟨k, hk, ?_⟩
  rw [ek, e]
  funext p
  simp only [amount, at_opp]
  ring

/-! ## Tracks -/

/-- The code of a track with `n` pulses. -/
def dec (n idx : Nat) : List P :=
  match n with
  | 1 => onePs idx 4 0
  | 2 => twoPs idx 4 0
  | 3 => threePs idx 4 0
  | _ => fourPs idx

def bits : Nat → Nat
  | 1 => 5
  | 2 => 9
  | 3 => 13
  | _ => 16

def Good (n : Nat) (w : Nat → Int) : Prop := (∀ p, 16 ≤ p → w p = 0) ∧ Left n (size w)

theorem onePs_in {i M off : Nat} (h : off + 2 ^ M ≤ 16) : ∀ x ∈ onePs i M off, x.1 < 16 := by
  have : i % 2 ^ M < 2 ^ M := Nat.mod_lt _ (Nat.two_pow_pos M)
  simp only [onePs, List.mem_singleton, forall_eq]
  omega

theorem twoPs_in {i M off : Nat} (h : off + 2 ^ M ≤ 16) : ∀ x ∈ twoPs i M off, x.1 < 16 := by
  have h1 : i % 2 ^ M < 2 ^ M := Nat.mod_lt _ (Nat.two_pow_pos M)
  have h2 : i / 2 ^ M % 2 ^ M < 2 ^ M := Nat.mod_lt _ (Nat.two_pow_pos M)
  simp only [twoPs, List.mem_cons, List.not_mem_nil, or_false, forall_eq_or_imp, forall_eq]
  omega

theorem in_append {a b : List P} (ha : ∀ x ∈ a, x.1 < 16) (hb : ∀ x ∈ b, x.1 < 16) : ∀ x ∈ a ++ b, x.1 < 16 := fun x hx => by
  rcases List.mem_append.mp hx with h | h
  · exact ha x h
  · exact hb x h

theorem threePs_in {i M off : Nat} (h : off + 2 ^ (M + 1) ≤ 16) : ∀ x ∈ threePs i (M + 1) off, x.1 < 16 := by
  have e2 : 2 ^ (M + 1) = 2 ^ M + 2 ^ M := by ring
  have : 0 < 2 ^ M := Nat.two_pow_pos M
  refine in_append (twoPs_in ?_) (onePs_in h)
  rw [Nat.add_sub_cancel]
  split <;> omega

theorem halfPs_in {i off : Nat} (h : off + 8 ≤ 16) : ∀ x ∈ halfPs i off, x.1 < 16 :=
  in_append (twoPs_in (by split <;> omega)) (twoPs_in (by omega))

theorem fourPs_in (i : Nat) : ∀ x ∈ fourPs i, x.1 < 16 := by
  unfold fourPs
  split
  · exact halfPs_in (by split <;> omega)
  · exact in_append (onePs_in (by decide)) (threePs_in (by decide))
  · exact in_append (twoPs_in (by decide)) (twoPs_in (by decide))
  · exact in_append (threePs_in (by decide)) (onePs_in (by decide))

theorem fourPs_length (i : Nat) : (fourPs i).length = 4 := by
  unfold fourPs
  split <;> rfl

theorem amount_out {ps : List P} (h : ∀ x ∈ ps, x.1 < 16) (p : Nat) (hp : 16 ≤ p) : amount ps p = 0 := by
  induction ps with
  | nil => rfl
  | cons x ps ih =>
    have := h x (List.mem_cons_self ..)
    rw [amount, ih fun y hy => h y (List.mem_cons_of_mem _ hy), at_ne x (by omega), add_zero]

theorem dec_good (n idx : Nat) (h1 : 1 ≤ n) (h2 : n ≤ 4) : Good n (amount (dec n idx)) := by
  have hin : ∀ x ∈ dec n idx, x.1 < 16 := by
    unfold dec
    split
    · exact onePs_in (by decide)
    · exact twoPs_in (by decide)
    · exact threePs_in (by decide)
    · exact fourPs_in idx
  refine ⟨amount_out hin, ?_⟩
  obtain ⟨s1, s2⟩ := size_amount hin
  interval_cases n
  · have : (dec 1 idx).length = 1 := rfl
    simp only [Left]
    omega
  · have : (dec 2 idx).length = 2 := rfl
    refine (size_together hin ?_).trans this
    simp only [dec, twoPs]
    intro x hx y hy e
    simp only [List.mem_cons, List.not_mem_nil, or_false] at hx hy
    rcases hx with rfl | rfl <;> rcases hy with rfl | rfl <;> simp only at e ⊢
    · rw [if_pos (by omega)]
    · rw [if_pos (by omega)]
  · have : (dec 3 idx).length = 3 := rfl
    simp only [Left]
    omega
  · have : (dec 4 idx).length = 4 := fourPs_length idx
    simp only [Left]
    omega

theorem good_dec (n : Nat) (w : Nat → Int) (h : Good n w) : ∃ idx < 2 ^ bits n, amount (dec n idx) = w := by
  obtain ⟨hz, hl⟩ := h
  obtain ⟨ps, h1, h2, h3, rfl⟩ := pulses_of _ w hz rfl
  have ht := together_of h3
  rw [← h1] at hl
  clear h1 h3 hz
  match n with
  | 0 => exact hl.elim
  | 1 =>
    match ps, hl with
    | [x], _ =>
      obtain ⟨i, hi, e⟩ := onePs_of (M := 4) (off := 0) x.2 (Nat.zero_le x.1) (by have := h2 x (by simp); omega)
      exact ⟨i, hi, by rw [dec, e]⟩
  | 2 =>
    match ps, hl with
    | [x, y], _ =>
      have := h2 x (by simp)
      have := h2 y (by simp)
      obtain ⟨i, hi, e⟩ := twoPs_of (M := 4) (off := 0) x y (by omega) (by omega) (by omega) (by omega) (ht x (by simp) y (by simp))
      exact ⟨i, hi, by rw [dec, e]⟩
  | 3 =>
    match ps, hl with
    | [x], _ =>
      have := h2 x (by simp)
      obtain ⟨i, hi, e⟩ := threePs_one (M := 3) (off := 0) (by decide) x (by omega) (by omega)
      exact ⟨i, hi, by rw [dec, e]⟩
    | [x, y, z], _ =>
      obtain ⟨i, hi, e⟩ := threePs_of (M := 3) (off := 0) x y z (fun u hu => ⟨by omega, by have := h2 u hu; omega⟩) ht
      exact ⟨i, hi, by rw [dec, e]⟩
    | [], h => simp [Left] at h
    | [_, _], h => simp [Left] at h
    | _ :: _ :: _ :: _ :: _, h => simp [Left] at h
  | 4 =>
    match ps, hl with
    | [], _ => exact fourPs_none
    | [x, y], _ => exact fourPs_two x y (h2 x (by simp)) (h2 y (by simp))
    | [x, y, z, u], _ => exact fourPs_of rfl h2 ht
    | [_], h => simp [Left] at h
    | [_, _, _], h => simp [Left] at h
    | _ :: _ :: _ :: _ :: _ :: _, h => simp [Left] at h
  | _ + 5 => exact hl.elim

/-! ## Four tracks -/

def join (w : Nat → Nat → Int) : Vec := fun i => w (i % 4) (i / 4)

theorem addTo_four (w0 w1 w2 w3 : Nat → Int) :
    addTo 3 w3 (addTo 2 w2 (addTo 1 w1 (addTo 0 w0 fun _ => 0))) = join fun t => match t with | 0 => w0 | 1 => w1 | 2 => w2 | _ => w3 := by
  funext i
  simp only [addTo, join]
  have : i % 4 < 4 := Nat.mod_lt _ (by decide)
  generalize i % 4 = t at this
  interval_cases t <;> simp

theorem count_eq (v : Vec) (t : Nat) : count v t = size fun p => v (4 * p + t) := by
  unfold count size
  rw [Finset.sum_eq_multiset_sum]
  rfl

theorem join_of (v : Vec) : v = join fun t p => v (4 * p + t) := by
  funext i
  simp only [join]
  congr 1
  omega

theorem join_at (w : Nat → Nat → Int) {t : Nat} (ht : t < 4) : (fun p => join w (4 * p + t)) = w t := by
  funext p
  simp only [join]
  rw [show (4 * p + t) % 4 = t by omega, show (4 * p + t) / 4 = p by omega]

/-- Pulses on the tracks. -/
def num : Nat → Nat → Nat
  | 0, _ => 1
  | 1, t => if t < 2 then 2 else 1
  | 2, _ => 2
  | 3, t => if t < 2 then 3 else 2
  | 4, _ => 3
  | _, _ => 4

/-- The code of a track. -/
def field (core : Nat) (cb : Nat → Nat) (t : Nat) : Nat := if core = 5 then cb t * 2 ^ 14 + cb (4 + t) else cb t

theorem num_le (core t : Nat) : 1 ≤ num core t ∧ num core t ≤ 4 := by
  unfold num
  split <;> (try split) <;> omega

theorem four_tracks {f g h k : Vec → Res Vec} {a b c d : List P} (hf : ∀ v, f v = .ok (addTo 0 (amount a) v))
    (hg : ∀ v, g v = .ok (addTo 1 (amount b) v)) (hh : ∀ v, h v = .ok (addTo 2 (amount c) v)) (hk : ∀ v, k v = .ok (addTo 3 (amount d) v)) :
    (f (fun _ => 0) >>= g >>= h >>= k) = .ok (join fun t => match t with | 0 => amount a | 1 => amount b | 2 => amount c | _ => amount d) := by
  rw [hf, Res.ok_bind, hg, Res.ok_bind, hh, Res.ok_bind, hk, addTo_four]

/-- What fields of the first six modes stand for. -/
theorem pulses_eq {core : Nat} (hc : core < 6) (cb : Nat → Nat) :
    ∃ w : Nat → Nat → Int, (∀ t < 4, w t = amount (dec (num core t) (field core cb t))) ∧ pulses core cb = .ok (join w) := by
  have h1 : ∀ i t, t < 4 → ∀ v, one i 4 0 t v = .ok (addTo t (amount (onePs i 4 0)) v) := fun i t ht v => one_eq (by decide) ht v
  have h2 : ∀ i t, t < 4 → ∀ v, two i 4 0 t v = .ok (addTo t (amount (twoPs i 4 0)) v) := fun i t ht v => two_eq (by decide) ht v
  have h3 : ∀ i t, t < 4 → ∀ v, three i 4 0 t v = .ok (addTo t (amount (threePs i 4 0)) v) := fun i t ht v => three_eq (M := 3) (by decide) ht v
  have h4 : ∀ i t, t < 4 → ∀ v, four i t v = .ok (addTo t (amount (fourPs i)) v) := fun i t ht v => four_eq ht v
  interval_cases core
  · exact ⟨_, fun t ht => by interval_cases t <;> rfl, four_tracks (h1 _ 0 (by decide)) (h1 _ 1 (by decide)) (h1 _ 2 (by decide)) (h1 _ 3 (by decide))⟩
  · exact ⟨_, fun t ht => by interval_cases t <;> rfl, four_tracks (h2 _ 0 (by decide)) (h2 _ 1 (by decide)) (h1 _ 2 (by decide)) (h1 _ 3 (by decide))⟩
  · exact ⟨_, fun t ht => by interval_cases t <;> rfl, four_tracks (h2 _ 0 (by decide)) (h2 _ 1 (by decide)) (h2 _ 2 (by decide)) (h2 _ 3 (by decide))⟩
  · exact ⟨_, fun t ht => by interval_cases t <;> rfl, four_tracks (h3 _ 0 (by decide)) (h3 _ 1 (by decide)) (h2 _ 2 (by decide)) (h2 _ 3 (by decide))⟩
  · exact ⟨_, fun t ht => by interval_cases t <;> rfl, four_tracks (h3 _ 0 (by decide)) (h3 _ 1 (by decide)) (h3 _ 2 (by decide)) (h3 _ 3 (by decide))⟩
  · exact ⟨_, fun t ht => by interval_cases t <;> rfl, four_tracks (h4 _ 0 (by decide)) (h4 _ 1 (by decide)) (h4 _ 2 (by decide)) (h4 _ 3 (by decide))⟩

theorem onTracks_iff {core : Nat} (hc : core < 6) (c : Nat → Nat) : onTracks c core ↔ ∀ t < 4, Left (num core t) (c t) := by
  have : (∀ t < 4, Left (num core t) (c t)) ↔ Left (num core 0) (c 0) ∧ Left (num core 1) (c 1) ∧ Left (num core 2) (c 2) ∧ Left (num core 3) (c 3) := by
    constructor
    · intro h
      exact ⟨h 0 (by decide), h 1 (by decide), h 2 (by decide), h 3 (by decide)⟩
    · intro h t ht
      interval_cases t <;> tauto
  rw [this]
  interval_cases core <;> rfl

/-- Fields of the first six modes for codes of tracks. -/
theorem fields_of {core : Nat} (hc : core < 6) (i : Nat → Nat) (hi : ∀ t < 4, i t < 2 ^ bits (num core t)) :
    ∃ cb, Fits core cb ∧ ∀ t < 4, field core cb t = i t := by
  have h0 := hi 0 (by decide)
  have h1 := hi 1 (by decide)
  have h2 := hi 2 (by decide)
  have h3 := hi 3 (by decide)
  by_cases h5 : core = 5
  · subst h5
    have b : ∀ t, 2 ^ bits (num 5 t) = 65536 := fun t => rfl
    rw [b] at h0 h1 h2 h3
    refine ⟨fun k => if k < 4 then i k / 2 ^ 14 else i (k - 4) % 2 ^ 14, ?_, ?_⟩
    · intro k hk
      have hk : k < 8 := hk
      interval_cases k <;> simp [Lpd.pulseWidths] <;> omega
    · intro t ht
      simp only [field, if_true]
      rw [if_pos ht, if_neg (by omega), Nat.add_sub_cancel_left]
      omega
  · refine ⟨i, ?_, fun t _ => by rw [field, if_neg h5]⟩
    intro k hk
    interval_cases core <;> simp [Lpd.pulseWidths, num, bits] at * <;> interval_cases k <;> simp_all

theorem pulses_iff_low {core : Nat} (hc : core < 6) (v : Vec) :
    (∃ cb, Fits core cb ∧ pulses core cb = .ok v) ↔ (∀ i, 64 ≤ i → v i = 0) ∧ onTracks (count v) core := by
  rw [onTracks_iff hc]
  constructor
  · rintro ⟨cb, _, h⟩
    obtain ⟨w, hw, e⟩ := pulses_eq hc cb
    rw [e] at h
    cases h
    have hg : ∀ t < 4, Good (num core t) (w t) := fun t ht => by
      rw [hw t ht]
      exact dec_good _ _ (num_le core t).1 (num_le core t).2
    refine ⟨fun i hi => ?_, fun t ht => ?_⟩
    · exact (hg (i % 4) (Nat.mod_lt _ (by decide))).1 _ (by omega)
    · rw [count_eq, join_at w ht]
      exact (hg t ht).2
  · rintro ⟨h1, h2⟩
    have : ∀ t, ∃ i, t < 4 → i < 2 ^ bits (num core t) ∧ amount (dec (num core t) i) = fun p => v (4 * p + t) := by
      intro t
      by_cases ht : t < 4
      · obtain ⟨i, hi, e⟩ := good_dec (num core t) (fun p => v (4 * p + t)) ⟨fun p hp => h1 _ (by omega), by rw [← count_eq]; exact h2 t ht⟩
        exact ⟨i, fun _ => ⟨hi, e⟩⟩
      · exact ⟨0, fun h => absurd h ht⟩
    obtain ⟨i, hi⟩ := Classical.axiomOfChoice this
    obtain ⟨cb, hf, e⟩ := fields_of hc i fun t ht => (hi t ht).1
    obtain ⟨w, hw, ew⟩ := pulses_eq hc cb
    refine ⟨cb, hf, ?_⟩
    rw [ew]
    congr 1
    rw [join_of v]
    funext k
    have hk : k % 4 < 4 := Nat.mod_lt _ (by decide)
    simp only [join]
    rw [hw _ hk, e _ hk, (hi _ hk).2]

/-! ## Modes 6 and 7 -/

theorem size_zero {w : Nat → Int} (hw : ∀ p, 16 ≤ p → w p = 0) (h : size w = 0) : w = fun _ => 0 := by
  obtain ⟨ps, h1, _, _, h4⟩ := pulses_of 0 w hw h
  rw [← h4, List.length_eq_zero_iff.mp h1]
  rfl

theorem size_none : size (fun _ => 0) = 0 := by simp [size]

theorem size_one (i : Nat) : size (amount (onePs i 4 0)) = 1 := (dec_good 1 i (by decide) (by decide)).2

theorem one_of {w : Nat → Int} (hw : ∀ p, 16 ≤ p → w p = 0) (h : size w = 1) : ∃ i < 32, amount (onePs i 4 0) = w := good_dec 1 w ⟨hw, h⟩

theorem pulses_6 (cb : Nat → Nat) (h0 : cb 0 < 2) (h1 : cb 1 < 32) (h2 : cb 2 < 2) (h3 : cb 3 < 32) :
    pulses 6 cb = .ok (addTo (2 * cb 2 + 1) (amount (onePs (cb 3) 4 0)) (addTo (2 * cb 0) (amount (onePs (cb 1) 4 0)) fun _ => 0)) := by
  unfold pulses
  simp only
  rw [single_eq h1 (by omega), Res.ok_bind, single_eq h3 (by omega)]

theorem pulses_7 (cb : Nat → Nat) (h0 : cb 0 < 2) (h1 : cb 1 < 32) (h2 : cb 2 < 32) (h3 : cb 3 < 32) :
    pulses 7 cb = .ok (if cb 0 = 0 then
      addTo 3 (amount (onePs (cb 3) 4 0)) (addTo 2 (amount (onePs (cb 2) 4 0)) (addTo 0 (amount (onePs (cb 1) 4 0)) fun _ => 0))
      else addTo 2 (amount (onePs (cb 3) 4 0)) (addTo 1 (amount (onePs (cb 2) 4 0)) (addTo 0 (amount (onePs (cb 1) 4 0)) fun _ => 0))) := by
  unfold pulses
  simp only
  by_cases h : cb 0 = 0
  · simp only [if_pos h, ne_eq, not_true_eq_false, if_false]
    norm_num
    rw [single_eq h1 (by decide), Res.ok_bind, single_eq h2 (by decide), Res.ok_bind, single_eq h3 (by decide)]
  · simp only [if_neg h, ne_eq, not_true_eq_false, if_false]
    norm_num
    rw [single_eq h1 (by decide), Res.ok_bind, single_eq h2 (by decide), Res.ok_bind, single_eq h3 (by decide), Res.ok_bind]

theorem addTo_at {t : Nat} (w : Nat → Int) (v : Vec) {u : Nat} (hu : u < 4) (p : Nat) :
    addTo t w v (4 * p + u) = if u = t then v (4 * p + u) + w p else v (4 * p + u) := by
  simp only [addTo, show (4 * p + u) % 4 = u by omega, show (4 * p + u) / 4 = p by omega]

theorem size_one' (i : Nat) : (size fun p => amount (onePs i 4 0) p) = 1 := size_one i

theorem amount_add_zero (w : Nat → Int) : (fun p => (0 : Int) + w p) = w := by
  funext p
  simp

/-- A vector is what it has on the tracks. -/
theorem vec_eq {u v : Vec} (h : ∀ t < 4, (fun p => u (4 * p + t)) = fun p => v (4 * p + t)) : u = v := by
  rw [join_of u, join_of v]
  funext i
  exact congrFun (h (i % 4) (Nat.mod_lt _ (by decide))) (i / 4)

theorem fits_six {cb : Nat → Nat} : Fits 6 cb ↔ cb 0 < 2 ∧ cb 1 < 32 ∧ cb 2 < 2 ∧ cb 3 < 32 := by
  constructor
  · intro h
    exact ⟨h 0 (by decide), h 1 (by decide), h 2 (by decide), h 3 (by decide)⟩
  · rintro ⟨h0, h1, h2, h3⟩ i hi
    have : i < 4 := hi
    interval_cases i <;> assumption

theorem fits_seven {cb : Nat → Nat} : Fits 7 cb ↔ cb 0 < 2 ∧ cb 1 < 32 ∧ cb 2 < 32 ∧ cb 3 < 32 := by
  constructor
  · intro h
    exact ⟨h 0 (by decide), h 1 (by decide), h 2 (by decide), h 3 (by decide)⟩
  · rintro ⟨h0, h1, h2, h3⟩ i hi
    have : i < 4 := hi
    interval_cases i <;> assumption

theorem addTo_out {t : Nat} {i : Nat} {v : Vec} (hv : ∀ i, 64 ≤ i → v i = 0) : ∀ k, 64 ≤ k → addTo t (amount (onePs i 4 0)) v k = 0 := by
  intro k hk
  simp only [addTo, hv k hk]
  rw [amount_out (onePs_in (by decide)) (k / 4) (by omega)]
  simp

theorem pulses_iff_six (v : Vec) :
    (∃ cb, Fits 6 cb ∧ pulses 6 cb = .ok v) ↔ (∀ i, 64 ≤ i → v i = 0) ∧ onTracks (count v) 6 := by
  simp only [onTracks, count_eq]
  constructor
  · rintro ⟨cb, hf, h⟩
    obtain ⟨h0, h1, h2, h3⟩ := fits_six.mp hf
    rw [pulses_6 cb h0 h1 h2 h3] at h
    cases h
    refine ⟨addTo_out (addTo_out fun _ _ => rfl), ?_⟩
    simp only [addTo_at _ _ (show 0 < 4 by decide), addTo_at _ _ (show 1 < 4 by decide), addTo_at _ _ (show 2 < 4 by decide),
      addTo_at _ _ (show 3 < 4 by decide)]
    generalize cb 0 = a at *
    generalize cb 2 = b at *
    interval_cases a <;> interval_cases b <;> simp [size_one', size_none]
  · rintro ⟨hz, ha, hb⟩
    have hz' : ∀ t < 4, ∀ p, 16 ≤ p → v (4 * p + t) = 0 := fun t _ p hp => hz _ (by omega)
    obtain ⟨a, i, ha2, hi, ea⟩ : ∃ a i, a < 2 ∧ i < 32 ∧ ∀ p, v (4 * p) = (if a = 0 then amount (onePs i 4 0) p else 0) ∧
        v (4 * p + 2) = (if a = 0 then 0 else amount (onePs i 4 0) p) := by
      rcases ha with ⟨x, y⟩ | ⟨x, y⟩
      · obtain ⟨i, hi, e⟩ := one_of (hz' 0 (by decide)) x
        have e2 := size_zero (hz' 2 (by decide)) y
        exact ⟨0, i, by decide, hi, fun p => ⟨(congrFun e p).symm, congrFun e2 p⟩⟩
      · obtain ⟨i, hi, e⟩ := one_of (hz' 2 (by decide)) y
        have e2 := size_zero (hz' 0 (by decide)) x
        exact ⟨1, i, by decide, hi, fun p => ⟨congrFun e2 p, (congrFun e p).symm⟩⟩
    obtain ⟨b, j, hb2, hj, eb⟩ : ∃ b j, b < 2 ∧ j < 32 ∧ ∀ p, v (4 * p + 1) = (if b = 0 then amount (onePs j 4 0) p else 0) ∧
        v (4 * p + 3) = (if b = 0 then 0 else amount (onePs j 4 0) p) := by
      rcases hb with ⟨x, y⟩ | ⟨x, y⟩
      · obtain ⟨i, hi, e⟩ := one_of (hz' 1 (by decide)) x
        have e2 := size_zero (hz' 3 (by decide)) y
        exact ⟨0, i, by decide, hi, fun p => ⟨(congrFun e p).symm, congrFun e2 p⟩⟩
      · obtain ⟨i, hi, e⟩ := one_of (hz' 3 (by decide)) y
        have e2 := size_zero (hz' 1 (by decide)) x
        exact ⟨1, i, by decide, hi, fun p => ⟨congrFun e2 p, (congrFun e p).symm⟩⟩
    refine ⟨fun k => match k with | 0 => a | 1 => i | 2 => b | _ => j, fits_six.mpr ⟨ha2, hi, hb2, hj⟩, ?_⟩
    rw [pulses_6 _ ha2 hi hb2 hj]
    congr 1
    refine vec_eq fun t ht => ?_
    simp only [addTo_at _ _ ht]
    interval_cases t <;> interval_cases a <;> interval_cases b <;> simp_all

theorem four_fields (a b c d : Nat) : ∃ cb : Nat → Nat, cb 0 = a ∧ cb 1 = b ∧ cb 2 = c ∧ cb 3 = d :=
  ⟨fun n => match n with | 0 => a | 1 => b | 2 => c | _ => d, rfl, rfl, rfl, rfl⟩

theorem pulses_iff_seven (v : Vec) :
    (∃ cb, Fits 7 cb ∧ pulses 7 cb = .ok v) ↔ (∀ i, 64 ≤ i → v i = 0) ∧ onTracks (count v) 7 := by
  simp only [onTracks, count_eq]
  constructor
  · rintro ⟨cb, hf, h⟩
    obtain ⟨h0, h1, h2, h3⟩ := fits_seven.mp hf
    rw [pulses_7 cb h0 h1 h2 h3] at h
    cases h
    split
    · refine ⟨addTo_out (addTo_out (addTo_out fun _ _ => rfl)), ?_⟩
      simp only [addTo_at _ _ (show 0 < 4 by decide), addTo_at _ _ (show 1 < 4 by decide), addTo_at _ _ (show 2 < 4 by decide),
        addTo_at _ _ (show 3 < 4 by decide)]
      simp [size_one', size_none]
    · refine ⟨addTo_out (addTo_out (addTo_out fun _ _ => rfl)), ?_⟩
      simp only [addTo_at _ _ (show 0 < 4 by decide), addTo_at _ _ (show 1 < 4 by decide), addTo_at _ _ (show 2 < 4 by decide),
        addTo_at _ _ (show 3 < 4 by decide)]
      simp [size_one', size_none]
  · rintro ⟨hz, h0, h2, hb⟩
    have hz' : ∀ t < 4, ∀ p, 16 ≤ p → v (4 * p + t) = 0 := fun t _ p hp => hz _ (by omega)
    obtain ⟨i, hi, ei⟩ := one_of (hz' 0 (by decide)) h0
    obtain ⟨j, hj, ej⟩ := one_of (hz' 2 (by decide)) h2
    rcases hb with ⟨x, y⟩ | ⟨x, y⟩
    · obtain ⟨k, hk, ek⟩ := one_of (hz' 3 (by decide)) y
      have e2 := size_zero (hz' 1 (by decide)) x
      obtain ⟨cb, c0, rfl, rfl, rfl⟩ := four_fields 0 i j k
      have h0' : cb 0 < 2 := by omega
      refine ⟨cb, fits_seven.mpr ⟨h0', hi, hj, hk⟩, ?_⟩
      rw [pulses_7 _ h0' hi hj hk, if_pos c0]
      refine congrArg Res.ok (vec_eq fun t ht => ?_)
      simp only [addTo_at _ _ ht]
      interval_cases t
      · rw [← ei]; simp
      · rw [e2]; simp
      · rw [← ej]; simp
      · rw [← ek]; simp
    · obtain ⟨k, hk, ek⟩ := one_of (hz' 1 (by decide)) x
      have e2 := size_zero (hz' 3 (by decide)) y
      obtain ⟨cb, c0, rfl, rfl, rfl⟩ := four_fields 1 i k j
      have h0' : cb 0 < 2 := by omega
      refine ⟨cb, fits_seven.mpr ⟨h0', hi, hk, hj⟩, ?_⟩
      rw [pulses_7 _ h0' hi hk hj, if_neg (by omega)]
      refine congrArg Res.ok (vec_eq fun t ht => ?_)
      simp only [addTo_at _ _ ht]
      interval_cases t
      · rw [← ei]; simp
      · rw [← ek]; simp
      · rw [← ej]; simp
      · rw [e2]; simp

end Verif.Acelp
