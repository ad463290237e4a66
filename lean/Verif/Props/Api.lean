import Verif.Model.Api
import Mathlib.Tactic.Linarith
import Mathlib.Tactic.Ring
import Mathlib.Tactic.NormNum
import Mathlib.Data.List.Basic

/-! # Properties of the API (C20 - C26, C54) -/

namespace Verif.Api

/-! ## Allocation -/

/-- The addresses successfully allocated, in order. -/
def allocated : List Ev → List Nat
  | [] => []
  | .alloc (some a) _ _ :: es => a :: allocated es
  | _ :: es => allocated es

/-- The addresses freed, in order. -/
def freed : List Ev → List Nat
  | [] => []
  | .free a :: es => a :: freed es
  | _ :: es => freed es

theorem allocated_append (a b : List Ev) : allocated (a ++ b) = allocated a ++ allocated b := by
  induction a with
  | nil => rfl
  | cons e es ih =>
    cases e with
    | alloc r s al => cases r <;> simp [allocated, ih]
    | write => simp [allocated, ih]
    | free => simp [allocated, ih]

theorem freed_append (a b : List Ev) : freed (a ++ b) = freed a ++ freed b := by
  induction a with
  | nil => rfl
  | cons e es ih => cases e <;> simp [freed, ih]

/-- The table of blocks agrees with the history. -/
structure Tracks (o : Out) : Prop where
  len : o.arr.length = 100
  num : o.count = (allocated o.ev).length
  entries : ∀ i (h : i < (allocated o.ev).length), o.arr[i]? = some (some (allocated o.ev)[i])
  nofree : freed o.ev = []

theorem Tracks.write {o : Out} (h : Tracks o) (b f l : Nat) : Tracks (o.write b f l) := by
  have e : allocated (o.write b f l).ev = allocated o.ev := by
    simp [Out.write, allocated_append, allocated]
  refine ⟨h.len, ?_, ?_, ?_⟩
  · rw [e]; exact h.num
  · simp only [e]; exact h.entries
  · simp [Out.write, freed_append, freed, h.nofree]

/-- One allocation either fails and leaves a tracked state, or succeeds and the state with the count
increased is tracked. -/
theorem Tracks.alloc {o : Out} (h : Tracks o) (al : Allocator) (s a : Nat) (hc : o.count < 100) :
    ∃ o' p, o.alloc al s a = .ok (o', p) ∧ o'.count = o.count ∧
      match p with
      | none => Tracks o'
      | some _ => Tracks { o' with count := o'.count + 1 } := by
  simp only [Out.alloc]
  rw [if_pos (by rw [h.len]; exact hc)]
  refine ⟨_, _, rfl, rfl, ?_⟩
  cases hp : al o.calls with
  | none =>
    simp only [hp]
    have e : allocated (o.ev ++ [Ev.alloc none s a]) = allocated o.ev := by
      simp [allocated_append, allocated]
    refine ⟨by simpa using h.len, ?_, ?_, ?_⟩
    · simp only [e]; exact h.num
    · simp only [e]
      intro i hi
      rw [List.getElem?_set_ne (by have := h.num; omega)]
      exact h.entries i hi
    · simp [freed_append, freed, h.nofree]
  | some b =>
    simp only [hp]
    have e : allocated (o.ev ++ [Ev.alloc (some b) s a]) = allocated o.ev ++ [b] := by
      simp [allocated_append, allocated]
    refine ⟨by simpa using h.len, ?_, ?_, ?_⟩
    · simp only [e]; simp [h.num]
    · simp only [e]
      intro i hi
      simp only [List.length_append, List.length_singleton] at hi
      by_cases hlt : i < (allocated o.ev).length
      · rw [List.getElem?_set_ne (by have := h.num; omega), List.getElem_append_left hlt]
        exact h.entries i hlt
      · have hi' : i = o.count := by have := h.num; omega
        subst hi'
        rw [List.getElem?_set_self (by rw [h.len]; exact hc)]
        simp [h.num]
    · simp [freed_append, freed, h.nofree]

theorem memTabs_tracks (al : Allocator) (ss : List Nat) : ∀ o : Out, Tracks o →
    o.count + ss.length ≤ 100 → ∃ o' e, memTabs al ss o = .ok (o', e) ∧ Tracks o' := by
  induction ss with
  | nil => intro o h _; exact ⟨o, none, rfl, h⟩
  | cons s ss ih =>
    intro o h hc
    simp only [List.length_cons] at hc
    obtain ⟨o1, p, h1, hcnt, h2⟩ := h.alloc al s 8 (by omega)
    simp only [memTabs, memTab, h1, Res.ok_bind]
    cases p with
    | none => exact ⟨o1, _, rfl, h2⟩
    | some a =>
      simp only [Res.ok_bind]
      have h3 : Tracks { ((o1.write a 0 s).write a (8 - a % 8) s) with
          count := o1.count + 1 } := by
        have := (Tracks.write h2 a 0 s).write a (8 - a % 8) s
        exact this
      exact ih _ h3 (by simp only [Out.write]; omega)

theorem Tracks.init : Tracks {} where
  len := by simp
  num := rfl
  entries := by intro i h; simp [allocated] at h
  nofree := rfl

theorem create_tracks (al : Allocator) (sz : Sizes) (i : InCfg) (hm : sz.mem.length = 4) :
    ∃ o c e, create al sz i {} = .ok (o, c, e) ∧ Tracks o := by
  obtain ⟨o1, p, h1, hcnt, h2⟩ := Tracks.init.alloc al sz.api 4 (by decide)
  have hc0 : o1.count = 0 := hcnt
  simp only [create, h1, Res.ok_bind]
  cases p with
  | none => exact ⟨o1, _, _, rfl, h2⟩
  | some a =>
    simp only
    have h3 : Tracks (({ (o1.write a 0 sz.api) with count := o1.count + 1 } : Out).write a
        (4 - a % 4) sz.api) := (Tracks.write h2 a 0 sz.api).write a (4 - a % 4) sz.api
    obtain ⟨o2, q, h4, hcnt2, h5⟩ := h3.alloc al sz.tabs 4 (by
      simp only [Out.write, hc0]; omega)
    have hc1 : o2.count = 1 := by rw [hcnt2]; simp only [Out.write, hc0]
    have h4' : Out.alloc al (({ (o1.write a 0 sz.api) with
      count := (o1.write a 0 sz.api).count + 1 } : Out).write a (4 - a % 4) sz.api) sz.tabs 4 =
        .ok (o2, q) := h4
    rw [h4']
    simp only [Res.ok_bind]
    cases q with
    | none => exact ⟨o2, _, _, rfl, h5⟩
    | some b =>
      simp only
      have h6 : Tracks { ((o2.write b 0 sz.tabs).write b (4 - b % 4) sz.tabs) with
          count := ((o2.write b 0 sz.tabs).write b (4 - b % 4) sz.tabs).count + 1 } :=
        (Tracks.write h5 b 0 sz.tabs).write b (4 - b % 4) sz.tabs
      obtain ⟨o3, e, h7, h8⟩ := memTabs_tracks al sz.mem _ h6 (by
        simp only [Out.write, hc1, hm]; omega)
      rw [h7]
      exact ⟨o3, _, _, rfl, h8⟩

theorem deleteLoop_eq (arr : List (Option Nat)) (as : List Nat)
    (h : ∀ i (hi : i < as.length), arr[i]? = some (some as[i])) :
    ∀ k, k ≤ as.length → deleteLoop arr k = .ok (((as.take k).reverse).map Ev.free) := by
  intro k
  induction k with
  | zero => intro _; simp [deleteLoop]
  | succ k ih =>
    intro hk
    simp only [deleteLoop, h k (by omega), ih (by omega), Res.ok_bind]
    rw [List.take_succ_eq_append_getElem (show k < as.length by omega), List.reverse_append]
    rfl

/-- **C20** Deleting frees every block of the table that is still there, in any table, and no other. -/
theorem C20_delete_all (arr : List (Option Nat)) : ∀ k, k ≤ arr.length →
    ∃ es, deleteLoop arr k = .ok es ∧ freed es = ((arr.take k).filterMap id).reverse ∧ allocated es = [] := by
  intro k
  induction k with
  | zero => intro _; exact ⟨[], rfl, by simp [freed], by simp [allocated]⟩
  | succ k ih =>
    intro hk
    obtain ⟨es, h1, h2, h3⟩ := ih (by omega)
    have hlt : k < arr.length := by omega
    have ht : arr.take (k + 1) = arr.take k ++ [arr[k]] := List.take_succ_eq_append_getElem hlt
    rw [ht, List.filterMap_append]
    cases ha : arr[k] with
    | none =>
      refine ⟨es, ?_, by simp [h2], h3⟩
      simp only [deleteLoop, List.getElem?_eq_getElem hlt, ha, h1]
    | some a =>
      refine ⟨.free a :: es, ?_, ?_, ?_⟩
      · simp only [deleteLoop, List.getElem?_eq_getElem hlt, ha, h1]
        rfl
      · simp [freed, List.filterMap_cons] at h2 ⊢
        simpa using h2
      · simpa [allocated] using h3

theorem freed_map (l : List Nat) : freed (l.map Ev.free) = l := by
  induction l with
  | nil => rfl
  | cons a l ih => simp [freed, ih]

theorem allocated_map (l : List Nat) : allocated (l.map Ev.free) = [] := by
  induction l with
  | nil => rfl
  | cons a l ih => simp [allocated, ih]

/-- **C20** Whatever the allocator does (any pattern of success and failure, any addresses, any block
sizes), creation completes, and a following delete frees exactly the blocks that were allocated,
each as often as it was allocated, newest first. -/
theorem C20_no_leak (al : Allocator) (sz : Sizes) (i : InCfg) (hm : sz.mem.length = 4) :
    ∃ o c e o', create al sz i {} = .ok (o, c, e) ∧ delete o = .ok o' ∧
      freed o'.ev = (allocated o'.ev).reverse := by
  obtain ⟨o, c, e, h, ht⟩ := create_tracks al sz i hm
  refine ⟨o, c, e, { o with ev := o.ev ++ ((allocated o.ev).take o.count).reverse.map Ev.free },
    h, ?_, ?_⟩
  · simp only [delete]
    rw [deleteLoop_eq o.arr _ ht.entries o.count (by rw [ht.num]), Res.ok_bind]
  · simp only [freed_append, allocated_append, freed_map, allocated_map, ht.nofree, ht.num]
    simp

example : (create (fun n => if n < 4 then some (100 * n) else none) ⟨8, 16, [1, 2, 3, 4]⟩ {} {}).map
    (fun r => (r.1.count, r.2.2)) = .ok (4, some .fatalMemAlloc) := by decide

/-- **C21** is false: delete does not reset the count, a second delete frees every block again. -/
theorem C21_refuted (al : Allocator) (sz : Sizes) (i : InCfg) (hm : sz.mem.length = 4) :
    ∃ o c e o' o'', create al sz i {} = .ok (o, c, e) ∧ delete o = .ok o' ∧
      delete o' = .ok o'' ∧ freed o''.ev = (allocated o.ev).reverse ++ (allocated o.ev).reverse := by
  obtain ⟨o, c, e, h, ht⟩ := create_tracks al sz i hm
  refine ⟨o, c, e, { o with ev := o.ev ++ ((allocated o.ev).take o.count).reverse.map Ev.free },
    { o with ev := o.ev ++ ((allocated o.ev).take o.count).reverse.map Ev.free ++
        ((allocated o.ev).take o.count).reverse.map Ev.free }, h, ?_, ?_, ?_⟩
  · simp only [delete]
    rw [deleteLoop_eq o.arr _ ht.entries o.count (by rw [ht.num]), Res.ok_bind]
  · simp only [delete]
    rw [deleteLoop_eq o.arr _ ht.entries o.count (by rw [ht.num]), Res.ok_bind]
  · simp only [freed_append, freed_map, ht.nofree, ht.num]
    simp

/-- **C21** (partial) After a creation whose first allocation failed, deleting any number of times
frees nothing. Missing: every other creation, see `C21_refuted`. -/
theorem C21_failed_partial (al : Allocator) (sz : Sizes) (i : InCfg) (h0 : al 0 = none) :
    ∃ o c e, create al sz i {} = .ok (o, c, e) ∧ delete o = .ok o ∧ freed o.ev = [] := by
  cases hc : create al sz i {} with
  | ok r => 
    simp only [create, Out.alloc, List.length_replicate, h0, Res.ok_bind] at hc
    injection hc with hc
    subst hc
    exact ⟨_, _, _, rfl, rfl, rfl⟩
  | _ => simp [create, Out.alloc, h0] at hc

/-! ## Writes during creation -/

/-- Every write of a trace lies in a block allocated in that trace, if `extra` more bytes per unit of
alignment were granted than asked for. -/
def WritesFit (extra : Nat) (es : List Ev) : Prop :=
  ∀ b off len, Ev.write b off len ∈ es →
    ∃ size align, Ev.alloc (some b) size align ∈ es ∧ off + len ≤ size + extra * align

theorem WritesFit.alloc {x : Nat} {es : List Ev} (h : WritesFit x es) (r : Option Nat) (s a : Nat) :
    WritesFit x (es ++ [.alloc r s a]) := by
  intro b off len hm
  simp only [List.mem_append, List.mem_singleton, reduceCtorEq, or_false] at hm
  obtain ⟨s', a', h1, h2⟩ := h b off len hm
  exact ⟨s', a', by simp [h1], h2⟩

theorem WritesFit.write {x : Nat} {es : List Ev} (h : WritesFit x es) {b off len size align : Nat}
    (hm : Ev.alloc (some b) size align ∈ es) (hle : off + len ≤ size + x * align) :
    WritesFit x (es ++ [.write b off len]) := by
  intro b' off' len' hm'
  simp only [List.mem_append, List.mem_singleton] at hm'
  rcases hm' with hm' | hm'
  · obtain ⟨s', a', h1, h2⟩ := h b' off' len' hm'
    exact ⟨s', a', by simp [h1], h2⟩
  · injection hm' with e1 e2 e3
    subst e1 e2 e3
    exact ⟨size, align, by simp [hm], hle⟩

theorem alloc_ok {al : Allocator} {o o' : Out} {s a : Nat} {p : Option Nat}
    (h : o.alloc al s a = .ok (o', p)) :
    o'.ev = o.ev ++ [.alloc p s a] := by
  simp only [Out.alloc] at h
  split at h
  · injection h with h
    injection h with h1 h2
    subst h1 h2
    rfl
  · cases h

theorem memTabs_fit (al : Allocator) (ss : List Nat) : ∀ (o o' : Out) (e : Option ErrCode),
    WritesFit 1 o.ev → memTabs al ss o = .ok (o', e) → WritesFit 1 o'.ev := by
  induction ss with
  | nil =>
    intro o o' e h he
    simp only [memTabs] at he
    injection he with he; injection he with h1 h2; subst h1; exact h
  | cons s ss ih =>
    intro o o' e h he
    simp only [memTabs, memTab] at he
    cases ha : o.alloc al s 8 with
    | ok r =>
      obtain ⟨o1, p⟩ := r
      have hev := alloc_ok ha
      rw [ha] at he
      simp only [Res.ok_bind] at he
      have hf := h.alloc p s 8
      rw [← hev] at hf
      cases p with
      | none =>
        simp only [Res.ok_bind] at he
        injection he with he; injection he with h1 h2; subst h1; exact hf
      | some b =>
        simp only [Res.ok_bind] at he
        refine ih _ _ _ ?_ he
        have hm : Ev.alloc (some b) s 8 ∈ o1.ev := by rw [hev]; simp
        exact (hf.write (off := 0) (len := s) hm (by omega)).write (off := 8 - b % 8) (len := s)
          (size := s) (align := 8) (by simp [hm]) (by omega)
    | jump => rw [ha] at he; simp at he
    | err => rw [ha] at he; simp at he
    | ub => rw [ha] at he; simp at he

/-- **C54** (partial) Everything creation writes lies inside the blocks it was given provided the
allocator grants `align` bytes more than asked for (as the one in `test/impeghd_main.c` does).
Missing: an allocator granting just the size asked for, see `C54_refuted`. -/
theorem C54_create_writes_partial (al : Allocator) (sz : Sizes) (i : InCfg) (o : Out) (c : Cfg)
    (e : Option ErrCode) (h : create al sz i {} = .ok (o, c, e)) : WritesFit 1 o.ev := by
  have h0 : WritesFit 1 ({} : Out).ev := by intro b off len hm; simp at hm
  simp only [create] at h
  cases ha : Out.alloc al {} sz.api 4 with
  | ok r =>
    obtain ⟨o1, p⟩ := r
    have hev := alloc_ok ha
    rw [ha] at h
    simp only [Res.ok_bind] at h
    have hf := h0.alloc p sz.api 4
    rw [← hev] at hf
    cases p with
    | none =>
      simp only at h
      injection h with h; injection h with h1 h2; subst h1; exact hf
    | some b =>
      simp only at h
      have hm : Ev.alloc (some b) sz.api 4 ∈ o1.ev := by rw [hev]; simp
      have hf2 : WritesFit 1 ((o1.write b 0 sz.api).write b (4 - b % 4) sz.api).ev :=
        (hf.write (off := 0) (len := sz.api) hm (by omega)).write (off := 4 - b % 4)
          (size := sz.api) (align := 4) (by simp [hm]) (by omega)
      cases ha2 : Out.alloc al (({ (o1.write b 0 sz.api) with
          count := (o1.write b 0 sz.api).count + 1 } : Out).write b (4 - b % 4) sz.api) sz.tabs 4 with
      | ok r =>
        obtain ⟨o2, q⟩ := r
        have hev2 := alloc_ok ha2
        rw [ha2] at h
        simp only [Res.ok_bind] at h
        have hf3 := WritesFit.alloc hf2 q sz.tabs 4
        have hev2' : o2.ev = ((o1.write b 0 sz.api).write b (4 - b % 4) sz.api).ev ++
            [.alloc q sz.tabs 4] := hev2
        rw [← hev2'] at hf3
        cases q with
        | none =>
          simp only at h
          injection h with h; injection h with h1 h2; subst h1; exact hf3
        | some d =>
          simp only at h
          have hm2 : Ev.alloc (some d) sz.tabs 4 ∈ o2.ev := by rw [hev2']; simp
          have hf4 := (hf3.write (off := 0) (len := sz.tabs) hm2 (by omega)).write
            (off := 4 - d % 4) (len := sz.tabs) (size := sz.tabs) (align := 4)
            (List.mem_append_left _ hm2)
            (by omega)
          cases hmt : memTabs al sz.mem { ((o2.write d 0 sz.tabs).write d (4 - d % 4) sz.tabs) with
              count := ((o2.write d 0 sz.tabs).write d (4 - d % 4) sz.tabs).count + 1 } with
          | ok r =>
            obtain ⟨o3, e3⟩ := r
            rw [hmt] at h
            simp only [Res.ok_bind] at h
            injection h with h; injection h with h1 h2; subst h1
            exact memTabs_fit al sz.mem _ _ _ hf4 hmt
          | jump => rw [hmt] at h; simp at h
          | err => rw [hmt] at h; simp at h
          | ub => rw [hmt] at h; simp at h
      | jump => rw [ha2] at h; simp at h
      | err => rw [ha2] at h; simp at h
      | ub => rw [ha2] at h; simp at h
  | jump => rw [ha] at h; simp at h
  | err => rw [ha] at h; simp at h
  | ub => rw [ha] at h; simp at h

/-- **C54** is false: with an allocator that grants exactly what it is asked for creation clears bytes beyond the end of the first block, whatever address it has: the
"aligned" address always lies 1 to 4 bytes inside the block. -/
theorem C54_refuted (al : Allocator) (sz : Sizes) (i : InCfg) (hm : sz.mem.length = 4) (a : Nat)
    (h0 : al 0 = some a) (h1 : al 1 = none) :
    ∃ o c e, create al sz i {} = .ok (o, c, e) ∧ ¬ WritesFit 0 o.ev := by
  have hc : create al sz i {} = .ok (⟨1, ((List.replicate 100 none).set 0 (some a)).set 1 none, 2,
      [.alloc (some a) sz.api 4, .write a 0 sz.api, .write a (4 - a % 4) sz.api,
       .alloc none sz.tabs 4]⟩, (setConfig defaultCfg i).1, some .fatalMemAlloc) := by
    simp [create, Out.alloc, h0, Out.write, h1]
  refine ⟨_, _, _, hc, ?_⟩
  intro hw
  obtain ⟨s, al', hm1, hle⟩ := hw a (4 - a % 4) sz.api (by simp)
  simp only [List.mem_cons, Ev.alloc.injEq, reduceCtorEq, List.not_mem_nil, or_false,
    false_and, false_or] at hm1
  simp only [Option.some.injEq, true_and] at hm1
  omega

example : ∃ al : Allocator, al 0 = some 64 ∧ al 1 = none := ⟨fun n => if n = 0 then some 64 else none,
  rfl, rfl⟩

/-! ## Configuration -/

/-- The documented ranges (`impeghd_memory_standards.h`, the error names and the checks): word size
16, 24 or 32, layout index 0 to 19 (0 is "not given"), preset -1 ("not given") to 31, effect type
0 to 8, loudness value whose quarter lies in 0 to 63. -/
structure Documented (i : InCfg) : Prop where
  pcm : i.pcmWdSz = 16 ∨ i.pcmWdSz = 24 ∨ i.pcmWdSz = 32
  cicp : 0 ≤ i.cicp ∧ i.cicp < 20
  preset : -1 ≤ i.preset ∧ i.preset < 32
  effect : 0 ≤ i.effect ∧ i.effect ≤ 8
  loud : i.loudSet = 1 → 0 ≤ i.loud ∧ i.loud < 256

instance (i : InCfg) : Decidable (Documented i) :=
  decidable_of_iff ((i.pcmWdSz = 16 ∨ i.pcmWdSz = 24 ∨ i.pcmWdSz = 32) ∧ (0 ≤ i.cicp ∧ i.cicp < 20) ∧
    (-1 ≤ i.preset ∧ i.preset < 32) ∧ (0 ≤ i.effect ∧ i.effect ≤ 8) ∧
    (i.loudSet = 1 → 0 ≤ i.loud ∧ i.loud < 256))
    ⟨fun ⟨a, b, c, d, e⟩ => ⟨a, b, c, d, e⟩, fun ⟨a, b, c, d, e⟩ => ⟨a, b, c, d, e⟩⟩

/-- **C22** is false: the error `create` returns does not depend on the configuration at all. -/
theorem C22_refuted (al : Allocator) (sz : Sizes) (i j : InCfg) (o : Out) :
    (create al sz i o).map (fun r => (r.1, r.2.2)) = (create al sz j o).map (fun r => (r.1, r.2.2)) := by
  simp only [create]
  cases o.alloc al sz.api 4 with
  | ok r =>
    obtain ⟨o1, p⟩ := r
    simp only [Res.ok_bind]
    cases p with
    | none => rfl
    | some a =>
      simp only
      generalize Out.alloc al _ sz.tabs 4 = r2
      cases r2 with
      | ok r =>
        obtain ⟨o2, q⟩ := r
        simp only [Res.ok_bind]
        cases q with
        | none => rfl
        | some b =>
          simp only
          generalize memTabs al sz.mem _ = r3
          cases r3 <;> rfl
      | _ => rfl
  | _ => rfl

example : ¬ Documented { pcmWdSz := 17 } ∧
    (create (fun n => some (64 * n)) ⟨8, 16, [1, 2, 3, 4]⟩ { pcmWdSz := 17 } {}).map (fun r => r.2.2) =
      .ok none := by decide

/-- **C22** (partial) The configuration step itself reports every undocumented value that is too large
(and every undocumented word size, effect type and loudness). Missing: `create` drops that report
(`C22_refuted`), and negative layouts and presets are not reported at all (`C23_refuted`). -/
theorem C22_reports_partial (c : Cfg) (i : InCfg) (hc : 0 ≤ i.cicp) (hp : -1 ≤ i.preset) :
    (setConfig c i).2 = none ↔ Documented i := by
  have key : Documented i ↔ ((i.pcmWdSz = 16 ∨ i.pcmWdSz = 24 ∨ i.pcmWdSz = 32) ∧
      (0 ≤ i.cicp ∧ i.cicp < 20) ∧ (-1 ≤ i.preset ∧ i.preset < 32) ∧
      (0 ≤ i.effect ∧ i.effect ≤ 8) ∧ (i.loudSet = 1 → 0 ≤ i.loud ∧ i.loud < 256)) :=
    ⟨fun ⟨a, b, c, d, e⟩ => ⟨a, b, c, d, e⟩, fun ⟨a, b, c, d, e⟩ => ⟨a, b, c, d, e⟩⟩
  rw [key]
  simp only [setConfig]
  by_cases h1 : i.cicp ≠ 0 ∧ ¬ i.cicp < 20
  · rw [if_pos h1]
    constructor
    · intro h; simp at h
    · rintro ⟨-, h, -⟩; omega
  rw [if_neg h1]
  by_cases h2 : i.preset ≠ -1 ∧ ¬ i.preset < 32
  · rw [if_pos h2]
    constructor
    · intro h; simp at h
    · rintro ⟨-, -, h, -⟩; omega
  rw [if_neg h2]
  by_cases h3 : i.pcmWdSz ≠ 16 ∧ i.pcmWdSz ≠ 24 ∧ i.pcmWdSz ≠ 32
  · rw [if_pos h3]
    constructor
    · intro h; simp at h
    · rintro ⟨h, -⟩; omega
  rw [if_neg h3]
  by_cases h4 : i.effect ≠ 0 ∧ (i.effect > 8 ∨ i.effect < 0)
  · rw [if_pos h4]
    constructor
    · intro h; simp at h
    · rintro ⟨-, -, -, h, -⟩; omega
  rw [if_neg h4]
  by_cases h5 : i.loudSet = 1
  · rw [if_pos h5]
    by_cases h6 : -(i.loud / 4) > 0 ∨ -(i.loud / 4) < -63
    · rw [if_pos h6]
      constructor
      · intro h; simp at h
      · rintro ⟨-, -, -, -, h⟩; have := h h5; omega
    · rw [if_neg h6]
      constructor
      · intro _; refine ⟨by omega, by omega, by omega, by omega, fun _ => by omega⟩
      · intro _; rfl
  · rw [if_neg h5]
    constructor
    · intro _; exact ⟨by omega, by omega, by omega, by omega, fun h => absurd h h5⟩
    · intro _; rfl

example : Documented { pcmWdSz := 24, cicp := 6, preset := 3, effect := 2, loudSet := 1, loud := 96 } := by
  decide

/-- The ranges the rest of the decoder relies on. -/
structure InRange (c : Cfg) : Prop where
  pcm : c.pcmWdSz = 16 ∨ c.pcmWdSz = 24 ∨ c.pcmWdSz = 32
  cicp : 0 ≤ c.cicp ∧ c.cicp < 20
  preset : -1 ≤ c.preset ∧ c.preset < 32
  effect : 0 ≤ c.effect ∧ c.effect ≤ 8
  loud : -63 ≤ c.loud ∧ c.loud ≤ 0

/-- **C23** is false: a negative layout index and a preset below -1 are accepted and in effect. -/
theorem C23_refuted : (setConfig defaultCfg { cicp := -1 }).1.cicp = -1 ∧
    (setConfig defaultCfg { cicp := -1 }).2 = none ∧
    (setConfig defaultCfg { preset := -100 }).1.preset = -100 ∧
    (setConfig defaultCfg { preset := -100 }).2 = none := by decide

theorem setConfig_cicp (c : Cfg) (i : InCfg) :
    (setConfig c i).1.cicp = if i.cicp ≠ 0 ∧ i.cicp < 20 then i.cicp else c.cicp := by
  simp only [setConfig, apply_ite Prod.fst, apply_ite Cfg.cicp, ite_self]
  split_ifs <;> first | rfl | (exfalso; tauto)

theorem setConfig_pcm (c : Cfg) (i : InCfg)
    (h : (setConfig c i).2 = none) : (setConfig c i).1.pcmWdSz = i.pcmWdSz := by
  revert h
  simp only [setConfig, apply_ite Prod.fst, apply_ite Prod.snd, apply_ite Cfg.pcmWdSz, ite_self]
  split_ifs <;> simp

theorem setConfig_preset (c : Cfg) (i : InCfg)
    (h : (setConfig c i).2 = none) :
    (setConfig c i).1.preset = if i.preset = -1 then c.preset else i.preset := by
  revert h
  simp only [setConfig, apply_ite Prod.fst, apply_ite Prod.snd, apply_ite Cfg.preset, ite_self]
  split_ifs <;> simp_all

theorem setConfig_effect (c : Cfg) (i : InCfg)
    (h : (setConfig c i).2 = none) :
    (setConfig c i).1.effect = if i.effect = 0 then c.effect else i.effect := by
  revert h
  simp only [setConfig, apply_ite Prod.fst, apply_ite Prod.snd, apply_ite Cfg.effect, ite_self]
  split_ifs <;> simp_all

theorem setConfig_loud (c : Cfg) (i : InCfg)
    (h : (setConfig c i).2 = none) :
    (setConfig c i).1.loud = if i.loudSet = 1 then -(i.loud / 4) else c.loud := by
  revert h
  simp only [setConfig, apply_ite Prod.fst, apply_ite Prod.snd, apply_ite Cfg.loud, ite_self]
  split_ifs <;> simp_all

/-- Word size, effect type and loudness are in range for every request, and so are the upper ends of
layout and preset. -/
theorem C23_upper_partial (i : InCfg) :
    ((setConfig defaultCfg i).1.pcmWdSz = 16 ∨ (setConfig defaultCfg i).1.pcmWdSz = 24 ∨
      (setConfig defaultCfg i).1.pcmWdSz = 32) ∧
    (setConfig defaultCfg i).1.cicp < 20 ∧ (setConfig defaultCfg i).1.preset < 32 ∧
    (0 ≤ (setConfig defaultCfg i).1.effect ∧ (setConfig defaultCfg i).1.effect ≤ 8) ∧
    (-63 ≤ (setConfig defaultCfg i).1.loud ∧ (setConfig defaultCfg i).1.loud ≤ 0) := by
  refine ⟨?_, ?_, ?_, ?_, ?_⟩
  · simp only [setConfig, apply_ite Prod.fst, apply_ite Cfg.pcmWdSz, ite_self, defaultCfg]
    split_ifs <;> omega
  · rw [setConfig_cicp]; simp only [defaultCfg]; split_ifs <;> omega
  · simp only [setConfig, apply_ite Prod.fst, apply_ite Cfg.preset, ite_self, defaultCfg]
    split_ifs <;> omega
  · simp only [setConfig, apply_ite Prod.fst, apply_ite Cfg.effect, ite_self, defaultCfg]
    split_ifs <;> omega
  · simp only [setConfig, apply_ite Prod.fst, apply_ite Cfg.loud, ite_self, defaultCfg]
    split_ifs <;> omega

/-- **C23** (partial) Whatever is requested otherwise, the values in effect are in range. Missing:
negative layout, preset < -1. -/
theorem C23_in_range_partial (i : InCfg) (hc : 0 ≤ i.cicp) (hp : -1 ≤ i.preset) :
    InRange (setConfig defaultCfg i).1 := by
  obtain ⟨h1, h2, h3, h4, h5⟩ := C23_upper_partial i
  refine ⟨h1, ⟨?_, h2⟩, ⟨?_, h3⟩, h4, h5⟩
  · rw [setConfig_cicp]; simp only [defaultCfg]; split_ifs <;> omega
  · simp only [setConfig, apply_ite Prod.fst, apply_ite Cfg.preset, ite_self, defaultCfg]
    split_ifs <;> omega

/-- Documented requests take effect as requested. -/
theorem C23_takes_effect (i : InCfg) (h : Documented i) :
    (setConfig defaultCfg i).1.pcmWdSz = i.pcmWdSz ∧ (setConfig defaultCfg i).1.cicp = i.cicp ∧
    (setConfig defaultCfg i).1.preset = i.preset ∧ (setConfig defaultCfg i).1.effect = i.effect ∧
    (i.loudSet = 1 → (setConfig defaultCfg i).1.loud = -(i.loud / 4)) := by
  have hn : (setConfig defaultCfg i).2 = none :=
    (C22_reports_partial _ i h.cicp.1 h.preset.1).2 h
  obtain ⟨-, h2, h3, h4, -⟩ := h
  refine ⟨setConfig_pcm _ _ hn, ?_, ?_, ?_, ?_⟩
  · rw [setConfig_cicp]; simp only [defaultCfg]; split_ifs <;> omega
  · rw [setConfig_preset _ _ hn]; simp only [defaultCfg]; split_ifs <;> omega
  · rw [setConfig_effect _ _ hn]; simp only [defaultCfg]; split_ifs <;> omega
  · intro hl; rw [setConfig_loud _ _ hn, if_pos hl]

/-! ## Resampling ratio -/

/-- **C24** is false: for a stream rate not in the list every pair is accepted with whatever factors
were there before (initially 1:1). -/
theorem C24_refuted : ∃ c c' : Cfg, c = { defaultCfg with streamFs := 96000, outFs := 48000 } ∧
    samplingRatio c = .ok (c', none) ∧ (c'.outFs : Int) * c'.facDown ≠ c'.streamFs * c'.facUp :=
  ⟨_, _, rfl, rfl, by decide⟩

/-- **C24** (partial) For the eight listed stream rates the pair is accepted exactly if the output rate
is 48000 or 44100 and a multiple by 1, 3/2, 2 or 3 of the stream rate, and then the factors convert
the one rate to the other and the output frame length is the exact quotient. Missing: rates not
listed, see `C24_refuted`. -/
theorem C24_ratio_partial (c : Cfg)
    (hl : c.streamFs ∈ [(48000 : Int), 44100, 32000, 29400, 24000, 22050, 16000, 14700]) :
    ∃ c' e, samplingRatio c = .ok (c', e) ∧ c'.streamFs = c.streamFs ∧ c'.outFs = c.outFs ∧
      (e = none ↔ (c.outFs = 48000 ∨ c.outFs = 44100) ∧
        (2 * (c.outFs : Int) ∈ [2 * c.streamFs, 3 * c.streamFs, 4 * c.streamFs, 6 * c.streamFs])) ∧
      (e = none → (c'.outFs : Int) * c'.facDown = c'.streamFs * c'.facUp ∧ 0 < c'.facDown ∧
        c'.frameLen * c'.facDown = 1024 * c'.facUp ∧
        (c'.resample = 0 ↔ (c'.outFs : Int) = c'.streamFs)) := by
  simp only [List.mem_cons, List.not_mem_nil, or_false] at hl
  simp only [samplingRatio, ratioCase, List.mem_cons, List.not_mem_nil, or_false]
  rcases hl with h | h | h | h | h | h | h | h <;> simp only [h] <;> norm_num <;>
    split_ifs with hf <;> refine ⟨_, _, rfl, rfl, rfl, ?_, ?_⟩ <;> simp_all <;> omega

example : (samplingRatio { defaultCfg with streamFs := 32000 }).map (fun r => (r.1.frameLen, r.2)) =
    .ok (1536, none) := by decide

/-! ## Progress of decode calls -/

/-- What the inner decoder is known to leave when it got as far as setting the bit buffer up. -/
def Inner.Sane (n : Nat) : Inner → Prop
  | .jump => True
  | .tooMany _ => True
  | .ret _ fresh cnt _ hdr _ => fresh = true ∧ cnt ≤ 8 * n ∧ 0 ≤ hdr ∧ hdr ≤ n

/-- **C25** (partial) If the call is given at least one byte and the inner decoder set its bit buffer up
for this call, then the call reports at most the bytes given, and at least one if it fails (whether
by return or by jump). Missing: empty input and returns before the bit buffer is set up, see
`C25_refuted_empty`, `C25_refuted_stale`. -/
theorem C25_progress_partial {σ : Type} (d : Dec σ) (n : Nat) (inner : Inner) (r : σ)
    (hi : d.initDone = true) (hn : 1 ≤ n) (hs : inner.Sane n) :
    (execute d n inner r).1.appConsumed ≤ n ∧ 0 ≤ (execute d n inner r).1.appConsumed ∧
    ((execute d n inner r).2 ≠ none → 1 ≤ (execute d n inner r).1.appConsumed) := by
  cases inner with
  | jump =>
    simp only [execute, hi, coreExecute]
    have : n ≠ 0 := by omega
    simp [this]; omega
  | tooMany ob =>
    simp only [execute, hi, coreExecute]
    simp; omega
  | ret err fresh cnt flush hdr ob =>
    obtain ⟨rfl, h1, h2, h3⟩ := hs
    have hb : consumedBytes (8 * (n : Int)) cnt ≤ n ∧ 0 ≤ consumedBytes (8 * (n : Int)) cnt := by
      simp only [consumedBytes]; split <;> omega
    cases err with
    | none =>
      simp only [execute, hi, coreExecute]
      cases flush <;> simp <;> omega
    | some e =>
      simp only [execute, hi, coreExecute]
      simp only [not_true, if_false, if_true, Option.isSome_some]
      split_ifs <;> simp_all <;> omega

example : (execute ⟨true, 0, 0, 0, 0, 0, 0, ()⟩ 10 (.ret none true 33 false 0 4096) ()).1.appConsumed =
    6 := by decide

/-- A caller that drops the reported bytes makes at most as many failing calls as there are bytes:
`calls` lists the sizes given to and the bytes reported by successive failing calls. -/
theorem C25_terminates_partial (calls : List (Nat × Int)) : ∀ (left : Int), 0 ≤ left →
    (∀ p ∈ calls, 1 ≤ p.2 ∧ p.2 ≤ p.1) → List.IsChain (fun p q => (q.1 : Int) = p.1 - p.2) calls →
    (∀ p, calls.head? = some p → (p.1 : Int) = left) → (calls.length : Int) ≤ left := by
  induction calls with
  | nil => intro left h _ _ _; simpa using h
  | cons p ps ih =>
    intro left h h1 h2 h3
    have hp := h1 p (by simp)
    have hl := h3 p rfl
    have := ih (left - p.2) (by omega) (fun q hq => h1 q (by simp [hq])) (by
      cases ps with
      | nil => exact List.IsChain.nil
      | cons q qs => exact (List.isChain_cons_cons.1 h2).2) (by
      intro q hq
      cases ps with
      | nil => simp at hq
      | cons q' qs =>
        simp only [List.head?_cons, Option.some.injEq] at hq
        subst hq
        rw [List.isChain_cons_cons] at h2
        rw [h2.1, hl])
    simp only [List.length_cons]; push_cast; omega

/-- **C25** is false for an empty input: an error reports one byte consumed of none. -/
theorem C25_refuted_empty : (execute (σ := Unit) ⟨true, 0, 0, 0, 0, 0, 0, ()⟩ 0
    (.ret (some .insufficientInput) true 0 false 0 0) ()).1.appConsumed = 1 := by decide

/-- **C25** is false if the inner decoder returns before it sets up the bit buffer: the byte count is
computed from the buffer of an earlier, longer call. -/
theorem C25_refuted_stale : (execute (σ := Unit) ⟨true, 0, 0, 0, 800, 0, 0, ()⟩ 10
    (.ret (some .initFatal) false 0 false 0 0) ()).1.appConsumed = 100 := by decide

/-! ## The number of output bytes -/

/-- The claim C101: a decode call that fails reports no output. -/
def FailsSilently : Prop :=
  ∀ (d : Dec Unit) (n : Nat) (inner : Inner), d.initDone = true → inner.Sane n → (execute d n inner ()).2 ≠ none →
    (execute d n inner ()).1.appOutBytes = 0

/-- **C101** is false: after an error the count of the last frame is reported again. -/
theorem C101_refuted : ¬ FailsSilently := by
  intro H
  have := H ⟨true, 0, 0, 0, 0, 0, 4096, ()⟩ 10 (.ret (some .insufficientInput) true 0 false 0 4096) rfl
    ⟨rfl, by decide, by decide, by decide⟩ (by decide)
  exact absurd this (by decide)

/-- **C101** (partial) A call that runs out of input reports no output, and one that succeeds exactly the bytes
written.  Missing: calls that fail otherwise. -/
theorem C101_reported_partial {σ : Type} (d : Dec σ) (n : Nat) (r : σ) (hi : d.initDone = true) :
    ((execute d n .jump r).2 ≠ none ∧ (execute d n .jump r).1.appOutBytes = 0) ∧
    ∀ fresh cnt flush hdr ob, (execute d n (.ret none fresh cnt flush hdr ob) r).2 = none ∧
      (execute d n (.ret none fresh cnt flush hdr ob) r).1.appOutBytes = ob := by
  refine ⟨?_, fun fresh cnt flush hdr ob => ?_⟩
  · simp only [execute, hi, coreExecute]
    simp only [not_true, if_false, Option.isSome_some, if_true, ne_eq, reduceCtorEq, not_false_eq_true, true_and]
    split <;> rfl
  · simp only [execute, hi, coreExecute]
    cases fresh <;> cases flush <;> simp

/-! ## Decoding before initialisation -/

/-- A call of the application. -/
inductive Call (σ : Type) where
  | exec (n : Nat) (inner : Inner) (r : σ)
  /-- an initialisation that fails; it may leave anything -/
  | initFails (d : Dec σ)

/-- Error codes returned by the `exec` calls of a history and the final state. -/
def history {σ : Type} (d : Dec σ) : List (Call σ) → Dec σ × List (Option ErrCode)
  | [] => (d, [])
  | .exec n inner r :: cs =>
    let (d', e) := execute d n inner r
    let (d'', es) := history d' cs
    (d'', e :: es)
  | .initFails d' :: cs => history { d' with initDone := false } cs

/-- **C26** In every history without a successful initialisation every decode call is refused with the
init error. -/
theorem C26_refused {σ : Type} (cs : List (Call σ)) : ∀ d : Dec σ, d.initDone = false →
    (history d cs).1.initDone = false ∧ ∀ e ∈ (history d cs).2, e = some .initFatal := by
  induction cs with
  | nil => intro d h; simp [history, h]
  | cons c cs ih =>
    intro d h
    cases c with
    | exec n inner r =>
      simp only [history]
      have h1 : execute d n inner r =
          ({ d with appConsumed := 1, consumed := 1 }, some .initFatal) := by
        simp [execute, h]
      rw [h1]
      have h2 := ih { d with appConsumed := 1, consumed := 1 } h
      exact ⟨h2.1, by simpa using h2.2⟩
    | initFails d' => exact ih _ rfl

/-- **C26** A refused call changes nothing but the two consumed-byte counters. -/
theorem C26_no_side_effects {σ : Type} (d : Dec σ) (n : Nat) (inner : Inner) (r : σ)
    (h : d.initDone = false) :
    (execute d n inner r).1 = { d with appConsumed := 1, consumed := 1 } := by
  simp [execute, h]

example : (history ⟨false, 0, 0, 0, 0, 0, 0, ()⟩ [.exec 3 .jump (), .initFails ⟨true, 0, 0, 0, 0, 0, 0, ()⟩,
    .exec 4 .jump ()]).2 = [some .initFatal, some .initFatal] := by decide

end Verif.Api
