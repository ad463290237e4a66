import Verif.Props.ConfigExt

/-! # Downmix extension -/

namespace Verif.Config

open Prog

variable {α β ι : Type}

/-- A loop over items that the body turns into values. -/
theorem run_forN_map (f : Nat → Prog α) (enc : ι → List Bool) (val : ι → α) (items : List ι) (i : Nat)
    (h : ∀ j a, items[j]? = some a → ∀ l, run (f (i + j)) (enc a ++ l) = .ok (val a, l)) (l : List Bool) :
    run (forN f items.length i) ((items.flatMap enc) ++ l) = .ok (items.map val, l) := by
  induction items generalizing i with
  | nil => rfl
  | cons a as ih =>
    simp only [List.length_cons, forN, List.flatMap_cons, List.append_assoc]
    have h0 := h 0 a (by simp)
    rw [Nat.add_zero] at h0
    rw [run_bind, h0]
    simp only [Res.ok_bind]
    rw [run_bind, ih (i + 1)]
    · rfl
    · intro j b hb l'
      have := h (j + 1) b (by simpa using hb) l'
      rw [show i + 1 + j = i + (j + 1) by omega]
      exact this

/-! ## C93: downmix matrices -/

/-- A downmix matrix: the groups it is for, and its bits. -/
structure Mat where
  groups : List Nat
  data : List Bool

def Mat.Ok (m : Mat) : Prop := 1 ≤ m.groups.length ∧ m.groups.length ≤ 16 ∧ (∀ g ∈ m.groups, g < 32)

def Mat.enc (m : Mat) : List Bool :=
  esc 1 4 4 (m.groups.length - 1) ++ (m.groups.flatMap (natBits 5) ++ (esc 8 8 12 m.data.length ++ m.data))

/-- A downmix: identifier, target layout, and its matrices if it is of type 1. -/
structure Dmx where
  id : Nat
  layout : Nat
  mats : Option (List Mat)

def Dmx.Ok (d : Dmx) : Prop :=
  1 ≤ d.id ∧ d.id < 127 ∧ d.layout ≤ 20 ∧ ∀ ms ∈ d.mats, 1 ≤ ms.length ∧ ms.length ≤ 8 ∧ ∀ m ∈ ms, m.Ok

def Dmx.enc (d : Dmx) : List Bool :=
  natBits 7 d.id ++ (natBits 2 (if d.mats.isSome then 1 else 0) ++ (natBits 6 d.layout ++
    (match d.mats with
     | none => []
     | some ms => esc 1 3 0 (ms.length - 1) ++ ms.flatMap Mat.enc)))

/-- The extension of type 1: at most 6 downmixes. -/
def encDmx (ds : List Dmx) : List Bool := natBits 2 1 ++ (natBits 5 ds.length ++ ds.flatMap Dmx.enc)

/-- The claim C93: every downmix extension is read, and what follows is left alone.  The syntax allows
matrices of up to 4605 bits. -/
def DownmixRead : Prop :=
  ∀ (ds : List Dmx) (l : List Bool), ds.length ≤ 6 → (∀ d ∈ ds, d.Ok) →
    (∀ d ∈ ds, ∀ ms ∈ d.mats, ∀ m ∈ ms, m.data.length ≤ escapeMax 8 8 12) →
    run dmxConfig (encDmx ds ++ l) = .ok (ds.map (fun d => (d.id, d.layout)), l)

/-- A matrix of 2056 bits. -/
def bigMat : Dmx := ⟨1, 2, some [⟨[0], List.replicate 2056 false⟩]⟩

/-- **C93, refuted.** A matrix of 2056 bits is written beyond the 256 bytes of its array. -/
theorem C93_refuted : ¬ DownmixRead := by
  intro H
  have h := H [bigMat] [] (by decide) ?_ ?_
  · have hu : (run dmxConfig (encDmx [bigMat] ++ [])).map (fun _ => ()) = .ub := by decide +kernel
    rw [h] at hu
    cases hu
  · intro d hd
    simp only [List.mem_singleton] at hd
    subst hd
    refine ⟨by decide, by decide, by decide, ?_⟩
    intro ms hms
    cases hms
    refine ⟨by decide, by decide, ?_⟩
    intro m hm
    simp only [List.mem_singleton] at hm
    subst hm
    exact ⟨by decide, by decide, by decide⟩
  · intro d hd ms hms m hm
    simp only [List.mem_singleton] at hd
    subst hd
    cases hms
    simp only [List.mem_singleton] at hm
    subst hm
    show (List.replicate 2056 false).length ≤ _
    rw [List.length_replicate]
    decide

theorem run_rows (k i : Nat) (l : List Bool) (h : i + k ≤ 256) (hl : 8 * k ≤ l.length) :
    ∃ v, run (forN (fun b => do inTable (b : Int) 256; bits 8) k i) l = .ok (v, l.drop (8 * k)) := by
  induction k generalizing i l with
  | zero => exact ⟨[], rfl⟩
  | succ k ih =>
    obtain ⟨v, hv⟩ := ih (i + 1) (l.drop 8) (by omega) (by rw [List.length_drop]; omega)
    refine ⟨bitsVal (l.take 8) :: v, ?_⟩
    simp only [forN]
    rw [run_bind, run_inTable_bind _ _ _ _ ⟨by omega, by omega⟩]
    simp only [run_bits]
    rw [if_neg (by omega), if_neg (by decide)]
    simp only [Res.ok_bind]
    rw [run_bind, hv]
    simp only [Res.ok_bind, run_pure, List.drop_drop]
    rw [show 8 + 8 * k = 8 * (k + 1) by omega]

theorem run_dmxMatrix (n : Nat) (hn : n < 8) (m : Mat) (hm : m.Ok) (hd : m.data.length ≤ 2048) (l : List Bool) :
    run (dmxMatrix n) (m.enc ++ l) = .ok ((m.groups.length, m.data.length), l) := by
  obtain ⟨h1, h2, h3⟩ := hm
  unfold dmxMatrix Mat.enc
  simp only [List.append_assoc]
  rw [run_esc_bind 1 4 4 _ _ _ (by decide) (by decide) (by decide) (by simp [escapeMax]; omega)]
  rw [run_ite_neg _ _ _ (by omega), run_inTable_bind _ _ _ _ ⟨by omega, by omega⟩]
  have hg : ∀ j a, m.groups[j]? = some a → ∀ l, run (do inTable ((0 + j : Nat) : Int) 16; bits 5) (natBits 5 a ++ l) =
      .ok (a, l) := by
    intro j a ha l
    obtain ⟨hj, rfl⟩ := List.getElem?_eq_some_iff.mp ha
    rw [run_inTable_bind _ _ _ _ ⟨by omega, by omega⟩]
    have hb := h3 _ (List.getElem_mem hj)
    show run (bits 5) _ = _
    rw [run_bits_append 5 _ (by decide), Nat.mod_eq_of_lt hb]
  rw [run_forN_bind (fun m => do inTable (m : Int) 16; bits 5) (natBits 5) m.groups 0 _ _ (by omega) hg,
    run_esc_bind 8 8 12 _ _ _ (by decide) (by decide) (by decide) (by simp [escapeMax]; omega)]
  obtain ⟨v, hv⟩ := run_rows (m.data.length / 8) 0 (m.data ++ l) (by omega) (by simp; omega)
  rw [run_bind, hv]
  simp only [Res.ok_bind]
  have hdrop : (m.data ++ l).drop (8 * (m.data.length / 8)) = m.data.drop (8 * (m.data.length / 8)) ++ l :=
    List.drop_append_of_le_length (by omega)
  rw [hdrop]
  have hlen : (m.data.drop (8 * (m.data.length / 8))).length = m.data.length % 8 := by
    rw [List.length_drop]; omega
  generalize m.data.drop (8 * (m.data.length / 8)) = rest at hlen
  unfold Prog.when
  by_cases h0 : m.data.length % 8 = 0
  · have : rest = [] := List.length_eq_zero_iff.mp (by omega)
    subst this
    simp only [h0, ne_eq, not_true_eq_false, decide_false, Bool.false_eq_true, if_false]
    show run (pure _) _ = _
    simp only [run_pure, List.nil_append]
    rw [Nat.sub_add_cancel h1]
  · simp only [ne_eq, h0, not_false_eq_true, decide_true, if_true]
    rw [run_bind, run_inTable_bind _ _ _ _ ⟨by omega, by omega⟩, run_bind]
    simp only [run_bits]
    rw [if_neg (by simp; omega), if_neg (by omega)]
    simp only [Res.ok_bind, run_pure]
    rw [List.drop_append_of_le_length (by omega), List.drop_of_length_le (by omega), Nat.sub_add_cancel h1]
    rfl

theorem run_dmxId (n : Nat) (hn : n < 6) (d : Dmx) (hd : d.Ok)
    (hs : ∀ ms ∈ d.mats, ∀ m ∈ ms, m.data.length ≤ 2048) (l : List Bool) :
    run (dmxId n) (d.enc ++ l) = .ok ((d.id, d.layout), l) := by
  obtain ⟨h1, h2, h3, h4⟩ := hd
  unfold dmxId Dmx.enc
  rw [run_inTable_bind _ _ _ _ ⟨by omega, by omega⟩]
  simp only [List.append_assoc]
  rw [run_bits_bind 7 _ _ _ (by decide) (by omega), run_bits_bind 2 _ _ _ (by decide) (by split <;> decide),
    run_ite_neg _ _ _ (by omega), run_ite_neg _ _ _ (by split <;> decide),
    run_bits_bind 6 _ _ _ (by decide) (by omega)]
  unfold Prog.when
  cases hm : d.mats with
  | none =>
    simp only [Option.isSome_none, Bool.false_eq_true, if_false, Nat.zero_ne_one, decide_false, List.nil_append]
    show run (if d.layout > 20 then _ else _) _ = _
    rw [run_ite_neg _ _ _ (by omega), run_pure]
  | some ms =>
    obtain ⟨g1, g2, g3⟩ := h4 ms hm
    simp only [Option.isSome_some, if_true, decide_true, List.append_assoc]
    rw [run_bind, run_esc_bind 1 3 0 _ _ _ (by decide) (by decide) (by decide) (by simp [escapeMax]; omega),
      run_ite_neg _ _ _ (by omega), show ms.length - 1 + 1 = ms.length by omega, run_bind,
      run_forN_map dmxMatrix Mat.enc (fun m => (m.groups.length, m.data.length)) ms 0 ?_ l]
    · simp only [Res.ok_bind, run_pure]
      rw [run_ite_neg _ _ _ (by omega), run_pure]
    · intro j a ha l
      obtain ⟨hj, rfl⟩ := List.getElem?_eq_some_iff.mp ha
      exact run_dmxMatrix _ (by omega) _ (g3 _ (List.getElem_mem hj)) (hs ms hm _ (List.getElem_mem hj)) l

/-- **C93, the part that holds.** Every downmix extension whose matrices have at most 2048 bits is read, with
its identifiers and layouts, to its end and no further.  Missing: longer matrices. -/
theorem C93_read_partial (ds : List Dmx) (l : List Bool) (hn : ds.length ≤ 6) (hd : ∀ d ∈ ds, d.Ok)
    (hs : ∀ d ∈ ds, ∀ ms ∈ d.mats, ∀ m ∈ ms, m.data.length ≤ 2048) :
    run dmxConfig (encDmx ds ++ l) = .ok (ds.map (fun d => (d.id, d.layout)), l) := by
  unfold dmxConfig encDmx
  simp only [List.append_assoc]
  rw [run_bits_bind 2 1 _ _ (by decide) (by decide)]
  simp only [OfNat.one_ne_ofNat, if_false]
  show run (bits 5 >>= _) _ = _
  rw [run_bits_bind 5 _ _ _ (by decide) (by omega), run_ite_neg _ _ _ (by omega)]
  refine run_forN_map dmxId Dmx.enc (fun d => (d.id, d.layout)) ds 0 ?_ l
  intro j a ha l
  obtain ⟨hj, rfl⟩ := List.getElem?_eq_some_iff.mp ha
  exact run_dmxId _ (by omega) _ (hd _ (List.getElem_mem hj)) (hs _ (List.getElem_mem hj)) l

/-- Two downmixes, one with matrices. -/
example : (run dmxConfig (encDmx [⟨3, 6, none⟩, ⟨5, 2, some [⟨[1, 2], List.replicate 13 true⟩, ⟨[0], []⟩]⟩] ++ [true])) =
    .ok ([(3, 6), (5, 2)], [true]) := by decide +kernel

/-- Exactly 2048 bits fit. -/
example : (run dmxConfig (encDmx [⟨3, 6, some [⟨[1], List.replicate 2048 true⟩]⟩])).map (fun r => r.2) = .ok [] := by
  decide +kernel

end Verif.Config
