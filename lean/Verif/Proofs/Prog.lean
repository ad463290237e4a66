import Verif.Model.Prog
import Verif.Proofs.BitBuf

/-! Helper lemmas for parser programs: monad laws, the run equations and the simulation. -/

namespace Verif.Prog

variable {α β γ : Type}

theorem bind_assoc' (p : Prog α) (f : α → Prog β) (g : β → Prog γ) :
    (p.bind f).bind g = p.bind (fun a => (f a).bind g) := by
  induction p with
  | pure a => rfl
  | read n k ih => simp only [Prog.bind]; congr 1; funext v; exact ih v
  | peek n k ih => simp only [Prog.bind]; congr 1; funext v; exact ih v
  | skip n k ih => simp only [Prog.bind]; congr 1
  | left k ih => simp only [Prog.bind]; congr 1; funext v; exact ih v
  | err c => rfl
  | ub => rfl

theorem bind_pure' (p : Prog α) : p.bind Prog.pure = p := by
  induction p with
  | pure a => rfl
  | read n k ih => simp only [Prog.bind]; congr 1; funext v; exact ih v
  | peek n k ih => simp only [Prog.bind]; congr 1; funext v; exact ih v
  | skip n k ih => simp only [Prog.bind]; congr 1
  | left k ih => simp only [Prog.bind]; congr 1; funext v; exact ih v
  | err c => rfl
  | ub => rfl

instance : LawfulMonad Prog := LawfulMonad.mk'
  (id_map := fun x => bind_pure' x)
  (pure_bind := fun _ _ => rfl)
  (bind_assoc := fun x f g => bind_assoc' x f g)

@[simp] theorem run_pure (a : α) (l : List Bool) : run (Pure.pure a) l = .ok (a, l) := rfl
@[simp] theorem run_pure' (a : α) (l : List Bool) : run (Prog.pure a) l = .ok (a, l) := rfl
@[simp] theorem run_fail (c : ErrCode) (l : List Bool) : run (fail c : Prog α) l = .err c := rfl
@[simp] theorem run_undef (l : List Bool) : run (undef : Prog α) l = .ub := rfl
@[simp] theorem run_err (c : ErrCode) (l : List Bool) : run (Prog.err c : Prog α) l = .err c := rfl
@[simp] theorem run_ub (l : List Bool) : run (Prog.ub : Prog α) l = .ub := rfl

theorem run_bind (p : Prog α) (f : α → Prog β) (l : List Bool) :
    run (p >>= f) l = (run p l >>= fun x => run (f x.1) x.2) := by
  show run (p.bind f) l = _
  induction p generalizing l with
  | pure a => rfl
  | read n k ih =>
    simp only [Prog.bind, run]
    split
    · rfl
    · split
      · rfl
      · rw [ih]
  | peek n k ih =>
    simp only [Prog.bind, run]
    split
    · rfl
    · split
      · rfl
      · rw [ih]
  | skip n k ih =>
    simp only [Prog.bind, run]
    split
    · rfl
    · split
      · rfl
      · rw [ih]
  | left k ih => simp only [Prog.bind, run]; rw [ih]
  | err c => rfl
  | ub => rfl

theorem runC_bind (p : Prog α) (f : α → Prog β) (s : BitBuf) :
    runC (p >>= f) s = (runC p s >>= fun x => runC (f x.1) x.2) := by
  show runC (p.bind f) s = _
  induction p generalizing s with
  | pure a => rfl
  | read n k ih =>
    simp only [Prog.bind, runC]
    split <;> first | rfl | rw [ih]
  | peek n k ih =>
    simp only [Prog.bind, runC]
    split <;> first | rfl | rw [ih]
  | skip n k ih =>
    simp only [Prog.bind, runC]
    split <;> first | rfl | rw [ih]
  | left k ih => simp only [Prog.bind, runC]; rw [ih]
  | err c => rfl
  | ub => rfl

@[simp] theorem run_bits (n : Nat) (l : List Bool) : run (bits n) l =
    if l.length < n then .jump else if 24 < n then .ub
    else .ok (bitsVal (l.take n), l.drop n) := rfl

@[simp] theorem run_look (n : Nat) (l : List Bool) : run (look n) l =
    if l.length < n then .jump else if 24 < n then .ub
    else .ok (bitsVal (l.take n), l) := rfl

@[simp] theorem run_flag (l : List Bool) : run flag l =
    match l with
    | [] => .jump
    | b :: l' => .ok (b, l') := by
  cases l with
  | nil => rfl
  | cons b l' =>
    show (if (b :: l').length < 1 then _ else _) = _
    rw [if_neg (by simp), if_neg (by decide)]
    cases b <;> rfl

@[simp] theorem run_drop (n : Int) (l : List Bool) : run (drop n) l =
    if n < 0 then .ub else if (l.length : Int) < n then .jump
    else .ok ((), l.drop n.toNat) := rfl

@[simp] theorem run_avail (l : List Bool) : run avail l = .ok ((l.length : Int), l) := rfl

@[simp] theorem run_lift (r : Res α) (l : List Bool) (h : r ≠ .jump) :
    run (lift r) l = r >>= fun a => .ok (a, l) := by
  cases r <;> simp_all [lift]

/-- Reading a field that was just written. -/
theorem run_bits_append (n : Nat) (v : Nat) (h : n ≤ 24) (l : List Bool) :
    run (bits n) (natBits n v ++ l) = .ok (v % 2 ^ n, l) := by
  simp only [run_bits]
  rw [if_neg (by simp), if_neg (by omega)]
  have h1 : (natBits n v ++ l).take n = natBits n v := by
    rw [List.take_append_of_le_length (by simp), List.take_of_length_le (by simp)]
  have h2 : (natBits n v ++ l).drop n = l := by
    rw [List.drop_append_of_le_length (by simp), List.drop_of_length_le (by simp)]; simp
  rw [h1, h2, bitsVal_natBits]

/-- The simulation: unless the abstract run is undefined, the pointer code does the same. -/
theorem sim (p : Prog α) (s : BitBuf) (hs : s.WF) :
    match run p s.rest with
    | .ok (a, l) => ∃ s', runC p s = .ok (a, s') ∧ s'.WF ∧ s'.buf = s.buf ∧
        s'.pos + s'.rest.length = s.pos + s.rest.length ∧ s'.rest = l
    | .jump => runC p s = .jump
    | .err c => runC p s = .err c
    | .ub => True := by
  induction p generalizing s with
  | pure a => exact ⟨s, rfl, hs, rfl, rfl, rfl⟩
  | read n k ih =>
    simp only [run, runC]
    by_cases h1 : s.rest.length < n
    · rw [if_pos h1]
      by_cases h24 : n ≤ 24
      · have := BitBuf.read_spec s hs n h24
        rw [if_pos h1] at this
        simp [this]
      · have hl := BitBuf.rest_length s hs
        have : s.read n = .jump := by
          unfold BitBuf.read
          rw [if_neg (by omega), if_pos (by omega)]
        simp [this]
    · rw [if_neg h1]
      by_cases h24 : 24 < n
      · rw [if_pos h24]; trivial
      · rw [if_neg h24]
        have := BitBuf.read_spec s hs n (by omega)
        rw [if_neg h1] at this
        obtain ⟨s', e1, e2, e3, e4, e5⟩ := this
        have := ih (bitsVal (s.rest.take n)) s' e2
        rw [e5] at this
        have hpos : s'.pos + s'.rest.length = s.pos + s.rest.length := by
          rw [e5, List.length_drop, e4]; omega
        simp only [e1]
        rw [e3, ← e5, hpos, e5] at this
        exact this
  | peek n k ih =>
    simp only [run, runC]
    by_cases h1 : s.rest.length < n
    · rw [if_pos h1]
      by_cases h24 : n ≤ 24
      · have := BitBuf.peek_spec s hs n h24
        rw [if_pos h1] at this
        simp [this]
      · have hl := BitBuf.rest_length s hs
        have : s.peek n = .jump := by
          unfold BitBuf.peek
          rw [if_neg (by omega), if_pos (by omega)]
        simp [this]
    · rw [if_neg h1]
      by_cases h24 : 24 < n
      · rw [if_pos h24]; trivial
      · rw [if_neg h24]
        have := BitBuf.peek_spec s hs n (by omega)
        rw [if_neg h1] at this
        simp only [this]
        exact ih _ s hs
  | skip n k ih =>
    simp only [run, runC]
    by_cases h0 : n < 0
    · rw [if_pos h0]; trivial
    · obtain ⟨m, hm⟩ := Int.eq_ofNat_of_zero_le (Int.not_lt.mp h0)
      subst hm
      rw [if_neg h0]
      have := BitBuf.skip_spec s hs m
      by_cases h1 : s.rest.length < m
      · rw [if_pos h1] at this
        rw [if_pos (by omega)]
        simp [this]
      · rw [if_neg h1] at this
        rw [if_neg (by omega)]
        obtain ⟨s', e1, e2, e3, e4, e5⟩ := this
        have := ih s' e2
        rw [e5] at this
        have hpos : s'.pos + s'.rest.length = s.pos + s.rest.length := by
          rw [e5, List.length_drop, e4]; omega
        simp only [e1, Int.toNat_natCast]
        rw [e3, ← e5, hpos, e5] at this
        exact this
  | left k ih =>
    simp only [run, runC]
    have := ih s.cnt s hs
    rw [← BitBuf.rest_length s hs] at this ⊢
    exact this
  | err c => rfl
  | ub => trivial

/-- Remaining bits after an abstract run are a suffix of the input. -/
theorem run_suffix (p : Prog α) (l : List Bool) {a : α} {l' : List Bool}
    (h : run p l = .ok (a, l')) : ∃ n, n ≤ l.length ∧ l' = l.drop n := by
  induction p generalizing l with
  | pure b => simp [run] at h; exact ⟨0, by omega, by simp [h.2]⟩
  | read n k ih =>
    simp only [run] at h
    split at h
    · exact absurd h (by simp)
    · split at h
      · exact absurd h (by simp)
      · obtain ⟨m, hm, e⟩ := ih _ _ h
        rw [List.length_drop] at hm
        exact ⟨n + m, by omega, by rw [e, List.drop_drop]⟩
  | peek n k ih =>
    simp only [run] at h
    split at h
    · exact absurd h (by simp)
    · split at h
      · exact absurd h (by simp)
      · exact ih _ _ h
  | skip n k ih =>
    simp only [run] at h
    split at h
    · exact absurd h (by simp)
    · split at h
      · exact absurd h (by simp)
      · obtain ⟨m, hm, e⟩ := ih _ h
        rw [List.length_drop] at hm
        exact ⟨n.toNat + m, by omega, by rw [e, List.drop_drop]⟩
  | left k ih => exact ih _ _ h
  | err c => simp [run] at h
  | ub => simp [run] at h

theorem run_length_le (p : Prog α) (l : List Bool) {a : α} {l' : List Bool}
    (h : run p l = .ok (a, l')) : l'.length ≤ l.length := by
  obtain ⟨n, _, rfl⟩ := run_suffix p l h
  simp

end Verif.Prog
