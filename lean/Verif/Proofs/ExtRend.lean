import Verif.Model.ExtRend
import Verif.Spec.ExtRend
import Verif.Props.BitWriter
import Verif.Proofs.Fields
import Mathlib.Tactic.Linarith

/-! Writers whose fields a reader of the syntax reads back. -/

namespace Verif.ExtRend

open Prog

theorem fieldBits_append (a b : List Field) : fieldBits (a ++ b) = fieldBits a ++ fieldBits b := by
  induction a with
  | nil => rfl
  | cons f a ih => obtain ⟨v, n⟩ := f; simp [fieldBits, ih]

/-- Widths the bit writer accepts. -/
def Wide (fs : List Field) : Prop := ∀ f ∈ fs, 1 ≤ f.2 ∧ f.2 ≤ 32

theorem Wide.append {a b : List Field} (ha : Wide a) (hb : Wide b) : Wide (a ++ b) := by
  intro f hf
  rcases List.mem_append.mp hf with h | h
  · exact ha f h
  · exact hb f h

theorem Wide.nil : Wide [] := fun _ h => by simp at h

theorem Wide.cons {v n : Nat} {fs : List Field} (h1 : 1 ≤ n) (h2 : n ≤ 32) (h : Wide fs) : Wide ((v, n) :: fs) := by
  intro f hf
  rcases List.mem_cons.mp hf with rfl | h'
  · exact ⟨h1, h2⟩
  · exact h f h'

theorem Wide.word {v : Int} {n : Nat} {fs : List Field} (h1 : 1 ≤ n) (h2 : n ≤ 32) (h : Wide fs) :
    Wide (word v n :: fs) := Wide.cons h1 h2 h

/-- Literal widths. -/
macro "wide" : tactic => `(tactic| repeat' (first
  | exact Wide.nil
  | assumption
  | refine Wide.word (by norm_num) (by norm_num) ?_
  | refine Wide.cons (by norm_num) (by norm_num) ?_
  | refine Wide.append ?_ ?_))

theorem fieldBits_word (v : Int) (n : Nat) (fs : List Field) :
    fieldBits (word v n :: fs) = natBits n (word v n).1 ++ fieldBits fs := rfl

theorem fieldBits_cons (v n : Nat) (fs : List Field) :
    fieldBits ((v, n) :: fs) = natBits n v ++ fieldBits fs := rfl

theorem fieldBits_nil : fieldBits [] = [] := rfl

/-- The writer succeeds, and the program reads `a` from what it writes and nothing more. -/
def Writes {α : Type} (r : Res (List Field)) (p : Prog α) (a : α) : Prop :=
  ∃ fs, r = .ok fs ∧ Wide fs ∧ ∀ l, run p (fieldBits fs ++ l) = .ok (a, l)

theorem run_bits_mod {β : Type} (n v : Nat) (f : Nat → Prog β) (l : List Bool) (h : n ≤ 24) :
    run (bits n >>= f) (natBits n v ++ l) = run (f (v % 2 ^ n)) l := by
  rw [run_bind, run_bits_append n v h]; rfl

theorem word_mod (v : Int) (n : Nat) (h : n ≤ 24) : (word v n).1 % 2 ^ n = Spec.low n v := by
  unfold word Spec.low
  have e : (2 : Int) ^ n ∣ 2 ^ 32 := pow_dvd_pow 2 (by omega)
  have h0 : 0 ≤ v % (2 : Int) ^ 32 := Int.emod_nonneg _ (by norm_num)
  have h2 : (0 : Int) < 2 ^ n := pow_pos (by norm_num) n
  have h1 : 0 ≤ v % (2 : Int) ^ n := Int.emod_nonneg _ (by omega)
  have : (((v % 2 ^ 32).toNat % 2 ^ n : Nat) : Int) = ((v % 2 ^ n).toNat : Int) := by
    rw [Int.toNat_of_nonneg h1]
    rw [Int.natCast_emod, Int.toNat_of_nonneg h0, Nat.cast_pow, Nat.cast_ofNat, Int.emod_emod_of_dvd _ e]
  exact_mod_cast this

theorem run_word {β : Type} (v : Int) (n : Nat) (f : Nat → Prog β) (l : List Bool) (h : n ≤ 24) :
    run (bits n >>= f) (natBits n (word v n).1 ++ l) = run (f (Spec.low n v)) l := by
  rw [run_bits_mod _ _ _ _ h, word_mod v n h]

theorem low_of_nat (n v : Nat) (h : v < 2 ^ n) : Spec.low n (v : Int) = v := by
  unfold Spec.low
  have : ((v : Int) % 2 ^ n) = v := by
    apply Int.emod_eq_of_lt (by omega)
    exact_mod_cast h
  rw [this]; simp

theorem low_nonneg (n : Nat) (v : Int) (h0 : 0 ≤ v) (h : v < 2 ^ n) : Spec.low n v = v.toNat := by
  unfold Spec.low
  rw [Int.emod_eq_of_lt h0 h]

theorem signed_low (n : Nat) (v : Int) (hn : 1 ≤ n) (h0 : -2 ^ (n - 1) ≤ v) (h1 : v < 2 ^ (n - 1)) :
    Spec.signed n (Spec.low n v) = v := by
  obtain ⟨m, rfl⟩ : ∃ m, n = m + 1 := ⟨n - 1, by omega⟩
  simp only [Nat.add_sub_cancel] at *
  unfold Spec.signed Spec.low
  simp only [Nat.add_sub_cancel]
  have e : (2 : Int) ^ (m + 1) = 2 * 2 ^ m := by rw [pow_succ]; ring
  have p : (0 : Int) < 2 ^ m := pow_pos (by norm_num) m
  by_cases hv : 0 ≤ v
  · rw [Int.emod_eq_of_lt hv (by rw [e]; linarith)]
    have : v.toNat < 2 ^ m := by
      have : ((v.toNat : Nat) : Int) < ((2 ^ m : Nat) : Int) := by
        rw [Int.toNat_of_nonneg hv]; push_cast; exact h1
      exact_mod_cast this
    rw [if_pos this, Int.toNat_of_nonneg hv]
  · have hm : v % 2 ^ (m + 1) = v + 2 ^ (m + 1) := by
      rw [← Int.add_emod_right v (2 ^ (m + 1)), Int.emod_eq_of_lt (by rw [e]; linarith) (by linarith)]
    rw [hm]
    have hp : 0 ≤ v + 2 ^ (m + 1) := by rw [e]; linarith
    have : ¬ (v + 2 ^ (m + 1)).toNat < 2 ^ m := by
      intro h
      have : (((v + 2 ^ (m + 1)).toNat : Nat) : Int) < ((2 ^ m : Nat) : Int) := by exact_mod_cast h
      rw [Int.toNat_of_nonneg hp] at this
      push_cast at this
      rw [e] at this
      linarith
    rw [if_neg this, Int.toNat_of_nonneg hp]
    ring

theorem at_some {α : Type} {xs : List α} {i : Nat} {x : α} (h : xs[i]? = some x) : at_ xs i = .ok x := by
  unfold at_; rw [h]

theorem at_getD {α : Type} {xs : List α} {i : Nat} (d : α) (h : i < xs.length) :
    at_ xs i = .ok (xs.getD i d) := by
  apply at_some
  rw [List.getD_eq_getElem?_getD, List.getElem?_eq_getElem h]; rfl

/-- Loops: the reader repeats, the values come in order. -/
theorem rep_writes {α : Type} (f : Nat → Res (List Field)) (p : Prog α) (val : Nat → α) (k i j : Nat)
    (h : ∀ m, i ≤ m → m < i + k → Writes (f m) p (val m)) :
    Writes (rep f k i) (forN (fun _ => p) k j) ((List.range' i k).map val) := by
  induction k generalizing i j with
  | zero => exact ⟨[], rfl, Wide.nil, fun l => rfl⟩
  | succ k ih =>
    obtain ⟨a, ha, wa, ra⟩ := h i (Nat.le_refl _) (by omega)
    obtain ⟨b, hb, wb, rb⟩ := ih (i + 1) (j + 1) (fun m h1 h2 => h m (by omega) (by omega))
    refine ⟨a ++ b, ?_, wa.append wb, fun l => ?_⟩
    · simp only [rep, ha, hb, Res.ok_bind]
    · rw [fieldBits_append, List.append_assoc]
      simp only [forN]
      rw [run_bind, ra]
      simp only [Res.ok_bind]
      rw [run_bind, rb]
      simp only [Res.ok_bind, run_pure, List.range'_succ, List.map_cons]

theorem Writes.bind_run {α β : Type} {p : Prog α} {a : α} {fs : List Field}
    (h : ∀ l, run p (fieldBits fs ++ l) = .ok (a, l)) (g : α → Prog β) (l : List Bool) :
    run (p >>= g) (fieldBits fs ++ l) = run (g a) l := by
  rw [run_bind, h]; rfl

/-- The bytes: a reader of the buffer reads what was written. -/
theorem Writes.buffer {α : Type} {r : Res (List Field)} {p : Prog α} {a : α} (h : Writes r p a)
    (buf : List UInt8) (hf : ∀ fs, r = .ok fs → fieldWidth fs ≤ 8 * buf.length) :
    ∃ fs w, r = .ok fs ∧ (WBuf.create buf).writeSeq fs = .ok (fieldWidth fs, w) ∧
      w.buf.length = buf.length ∧
      run p (bitsOf w.buf) = .ok (a, (bitsOf buf).drop (fieldWidth fs)) := by
  obtain ⟨fs, e, w, rd⟩ := h
  obtain ⟨b, e1, _, e3, e4⟩ := C04_write_seq buf fs w (hf fs e)
  exact ⟨fs, b, e, e1, e3, by rw [e4]; exact rd _⟩

end Verif.ExtRend
