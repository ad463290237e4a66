import Verif.Model.Escape
import Verif.Props.BitReader
import Verif.Proofs.BitWriter
import Verif.Proofs.Prog

/-!
# C04, C05, C07: writer/reader round trips, position independence of parsers
-/

namespace Verif

open BitBuf

/-- Write a sequence of `(value, width)` fields; also the total count the writer reports. -/
def WBuf.writeSeq (w : WBuf) : List (Nat × Nat) → Res (Nat × WBuf)
  | [] => .ok (0, w)
  | (v, n) :: fs => do
    let (c, w') ← w.write v n
    let (c', w'') ← writeSeq w' fs
    .ok (c + c', w'')

/-- Specification: the bits a sequence of fields spells. -/
def fieldBits : List (Nat × Nat) → List Bool
  | [] => []
  | (v, n) :: fs => natBits n v ++ fieldBits fs

/-- Total width of a sequence of fields. -/
def fieldWidth (fs : List (Nat × Nat)) : Nat := (fs.map Prod.snd).sum

theorem fieldBits_length (fs : List (Nat × Nat)) : (fieldBits fs).length = fieldWidth fs := by
  induction fs with
  | nil => rfl
  | cons f fs ih => simp [fieldBits, fieldWidth] at *; omega

theorem natBits_getElem? (n v i : Nat) (h : i < n) :
    (natBits n v)[i]? = some (v.testBit (n - 1 - i)) := by
  induction n generalizing i with
  | zero => omega
  | succ n ih =>
    cases i with
    | zero => simp [natBits]
    | succ i =>
      simp only [natBits, List.getElem?_cons_succ]
      rw [ih i (by omega)]; congr 2; omega

/-- C04, writer: the fields replace the bits at the write position, nothing else changes, and
the reported count and the running counter are the number of bits. -/
theorem C04_write_seq (buf : List UInt8) (fs : List (Nat × Nat))
    (hw : ∀ f ∈ fs, 1 ≤ f.2 ∧ f.2 ≤ 32) (hfit : fieldWidth fs ≤ 8 * buf.length) :
    ∃ w, (WBuf.create buf).writeSeq fs = .ok (fieldWidth fs, w) ∧ w.cnt = fieldWidth fs ∧
      w.buf.length = buf.length ∧
      bitsOf w.buf = fieldBits fs ++ (bitsOf buf).drop (fieldWidth fs) := by
  suffices H : ∀ (fs : List (Nat × Nat)), (∀ f ∈ fs, 1 ≤ f.2 ∧ f.2 ≤ 32) →
      ∀ (buf : List UInt8) (ptr pos cnt : Nat), pos ≤ 7 →
      (fs ≠ [] → 8 * ptr + 7 - pos + fieldWidth fs ≤ 8 * buf.length) →
      ∃ w, WBuf.writeSeq { buf := buf, ptr := ptr, pos := pos, cnt := cnt } fs =
          .ok (fieldWidth fs, w) ∧ w.cnt = cnt + fieldWidth fs ∧
        w.buf.length = buf.length ∧
        ∀ i, (bitsOf w.buf)[i]? =
          if fs ≠ [] ∧ 8 * ptr + 7 - pos ≤ i ∧ i < 8 * ptr + 7 - pos + fieldWidth fs then
            (fieldBits fs)[i - (8 * ptr + 7 - pos)]? else (bitsOf buf)[i]? by
    obtain ⟨w, h1, h2, h3, h4⟩ := H fs hw buf 0 7 0 (by omega) (by intro; omega)
    refine ⟨w, h1, by omega, h3, ?_⟩
    apply List.ext_getElem?
    intro i
    rw [h4, List.getElem?_append, fieldBits_length]
    by_cases hi : i < fieldWidth fs
    · have : fs ≠ [] := by rintro rfl; simp [fieldWidth] at hi
      rw [if_pos ⟨this, by omega⟩, if_pos hi]; congr 1
    · rw [if_neg (by omega), if_neg hi, List.getElem?_drop]; congr 1; omega
  intro fs
  induction fs with
  | nil =>
    intro _ buf ptr pos cnt _ _
    exact ⟨_, rfl, rfl, rfl, by intro i; simp⟩
  | cons f fs ih =>
    intro hw buf ptr pos cnt hpos hfit
    obtain ⟨v, n⟩ := f
    have hn := hw (v, n) (by simp)
    simp only at hn
    have hfit := hfit (by simp)
    have hfw : fieldWidth ((v, n) :: fs) = n + fieldWidth fs := by simp [fieldWidth]
    rw [hfw] at hfit
    obtain ⟨buf', ptr', pos', e1, e2, e3, e4, e5⟩ :=
      WBuf.writeLoop_spec buf ptr pos v n hpos hn.2 (by omega)
    have hne : fs ≠ [] → 1 ≤ fieldWidth fs := by
      intro h
      cases fs with
      | nil => exact absurd rfl h
      | cons g gs =>
        have := (hw g (by simp)).1
        simp [fieldWidth]; omega
    have hq : fs ≠ [] → 8 * ptr' + 7 - pos' = 8 * ptr + 7 - pos + n := by
      intro h
      have := hne h
      omega
    obtain ⟨w, i1, i2, i3, i4⟩ := ih (fun g hg => hw g (by simp [hg])) buf' ptr' pos' (cnt + n) e3
      (by intro h; rw [hq h, e2]; omega)
    refine ⟨w, ?_, ?_, by omega, ?_⟩
    · simp only [WBuf.writeSeq, WBuf.write]
      rw [if_neg (by omega), e1]
      simp only [Res.ok_bind, i1, hfw]
    · rw [i2, hfw]; omega
    · intro i
      rw [i4, hfw, e5]
      simp only [fieldBits, ne_eq, reduceCtorEq, not_false_eq_true, true_and]
      rw [List.getElem?_append, natBits_length]
      by_cases hfs : fs = []
      · subst hfs
        have : fieldWidth [] = 0 := rfl
        simp only [not_true_eq_false, false_and, if_false, this, Nat.add_zero]
        split
        · rw [if_pos (by omega), natBits_getElem? _ _ _ (by omega)]
        · rfl
      · have hq := hq hfs
        rw [hq]
        simp only [hfs, not_false_eq_true, true_and]
        by_cases hc1 : 8 * ptr + 7 - pos + n ≤ i ∧ i < 8 * ptr + 7 - pos + n + fieldWidth fs
        · rw [if_pos hc1, if_pos (by omega), if_neg (by omega)]
          congr 1; omega
        · rw [if_neg hc1]
          by_cases hc2 : 8 * ptr + 7 - pos ≤ i ∧ i < 8 * ptr + 7 - pos + n
          · rw [if_pos hc2, if_pos (by omega), if_pos (by omega),
              natBits_getElem? _ _ _ (by omega)]
          · rw [if_neg hc2, if_neg (by omega)]

/-- Slices of written fields are the field values. -/
theorem slices_fieldBits (fs : List (Nat × Nat)) (l : List Bool) :
    slices (fieldBits fs ++ l) (fs.map Prod.snd) = fs.map (fun f => f.1 % 2 ^ f.2) := by
  induction fs with
  | nil => rfl
  | cons f fs ih =>
    obtain ⟨v, n⟩ := f
    simp only [fieldBits, List.map_cons, slices, List.append_assoc]
    rw [List.take_append_of_le_length (by simp), List.take_of_length_le (by simp),
      List.drop_append_of_le_length (by simp), List.drop_of_length_le (by simp),
      bitsVal_natBits, List.nil_append, ih]

/-- C04: what the writer wrote, the reader reads back. -/
theorem C04_round_trip (buf : List UInt8) (fs : List (Nat × Nat))
    (hw : ∀ f ∈ fs, 1 ≤ f.2 ∧ f.2 ≤ 24) (hfit : fieldWidth fs ≤ 8 * buf.length) :
    ∃ w, (WBuf.create buf).writeSeq fs = .ok (fieldWidth fs, w) ∧
      (BitBuf.create w.buf).readSeq (fs.map Prod.snd) =
        .ok (fs.map (fun f => f.1 % 2 ^ f.2)) := by
  obtain ⟨w, h1, -, h3, h4⟩ := C04_write_seq buf fs
    (fun f hf => ⟨(hw f hf).1, by have := (hw f hf).2; omega⟩) hfit
  refine ⟨w, h1, ?_⟩
  rw [C01_consecutive_slices _ (create_wf _) _ ?_ ?_]
  · have : (BitBuf.create w.buf).pos.toNat = 0 := by simp [BitBuf.create, pos]
    rw [this]
    show Res.ok (slices ((bitsOf w.buf).drop 0) _) = _
    rw [List.drop_zero, h4, slices_fieldBits]
  · intro n hn
    rw [List.mem_map] at hn
    obtain ⟨f, hf, rfl⟩ := hn
    exact (hw f hf).2
  · simp only [BitBuf.create, h3]
    unfold fieldWidth at hfit
    omega

example : (∀ f ∈ [(5, 3), (0x12345, 20), (1, 1)], 1 ≤ f.2 ∧ f.2 ≤ 24) ∧
    fieldWidth [(5, 3), (0x12345, 20), (1, 1)] ≤ 8 * [(0xFF : UInt8), 0, 0xAA].length := by
  decide

/-! ### C05: escape-coded integers -/

/-- Specification: how the standard codes `value` with widths `b1, b2, b3`, as fields. -/
def escapeFields (value b1 b2 b3 : Nat) : List (Nat × Nat) :=
  if value < 2 ^ b1 - 1 then [(value, b1)]
  else if value < (2 ^ b1 - 1) + (2 ^ b2 - 1) then [(2 ^ b1 - 1, b1), (value - (2 ^ b1 - 1), b2)]
  else [(2 ^ b1 - 1, b1), (2 ^ b2 - 1, b2), (value - (2 ^ b1 - 1) - (2 ^ b2 - 1), b3)]

/-- Largest codable value. -/
def escapeMax (b1 b2 b3 : Nat) : Nat := (2 ^ b1 - 1) + (2 ^ b2 - 1) + (2 ^ b3 - 1)

/-- C05, writer: the escape writer emits exactly the standard's fields (so the shortest of the
three forms) and reports their total width. -/
theorem C05_writer_fields (w : WBuf) (value b1 b2 b3 : Nat) (h1 : b1 ≤ 24) (h2 : b2 ≤ 24)
    (h3 : b3 ≤ 24) (hv : value ≤ escapeMax b1 b2 b3) :
    w.writeEscape value b1 b2 b3 = w.writeSeq (escapeFields value b1 b2 b3) := by
  unfold WBuf.writeEscape escapeFields WBuf.escMax
  unfold escapeMax at hv
  rw [if_pos (by omega), if_pos (by omega), if_pos (by omega)]
  by_cases c1 : value < 2 ^ b1 - 1
  · rw [if_pos c1]
    have : min value (2 ^ b1 - 1) = value := by omega
    simp only [Res.ok_bind, this, WBuf.writeSeq, WBuf.write]
    rw [if_neg (by omega)]
    cases WBuf.writeLoop w.buf w.ptr w.pos value b1 <;> simp
    intro h; omega
  · rw [if_neg c1]
    have m1 : min value (2 ^ b1 - 1) = 2 ^ b1 - 1 := by omega
    simp only [Res.ok_bind, m1, if_true]
    by_cases c2 : value < (2 ^ b1 - 1) + (2 ^ b2 - 1)
    · rw [if_pos c2]
      have m2 : min (value - (2 ^ b1 - 1)) (2 ^ b2 - 1) = value - (2 ^ b1 - 1) := by omega
      simp only [m2, WBuf.writeSeq]
      cases hA : w.write (2 ^ b1 - 1) b1 with
      | ok a =>
        simp only [Res.ok_bind]
        cases hB : a.2.write (value - (2 ^ b1 - 1)) b2 with
        | ok b =>
          simp only [Res.ok_bind]
          rw [if_neg (by omega)]; simp
        | _ => simp
      | _ => simp
    · rw [if_neg c2]
      have m2 : min (value - (2 ^ b1 - 1)) (2 ^ b2 - 1) = 2 ^ b2 - 1 := by omega
      have m3 : min (value - (2 ^ b1 - 1) - (2 ^ b2 - 1)) (2 ^ b3 - 1) =
          value - (2 ^ b1 - 1) - (2 ^ b2 - 1) := by omega
      simp only [m2, if_true, m3, WBuf.writeSeq]
      cases hA : w.write (2 ^ b1 - 1) b1 with
      | ok a =>
        simp only [Res.ok_bind]
        cases hB : a.2.write (2 ^ b2 - 1) b2 with
        | ok b =>
          simp only [Res.ok_bind]
          cases hC : b.2.write (value - (2 ^ b1 - 1) - (2 ^ b2 - 1)) b3 with
          | ok c => simp [Nat.add_assoc]
          | _ => simp
        | _ => simp
      | _ => simp

/-- C05, reader: whatever follows, the escape reader returns the coded value and consumes
exactly the bits of the standard's fields. -/
theorem C05_reader (value b1 b2 b3 : Nat) (h1 : b1 ≤ 24) (h2 : b2 ≤ 24) (h3 : b3 ≤ 24)
    (hv : value ≤ escapeMax b1 b2 b3) (l : List Bool) :
    (readEscape b1 b2 b3).run (fieldBits (escapeFields value b1 b2 b3) ++ l) =
      .ok (value, l) := by
  have p1 : 2 ^ b1 ≤ 2 ^ 24 := Nat.pow_le_pow_right (by decide) h1
  have p2 : 2 ^ b2 ≤ 2 ^ 24 := Nat.pow_le_pow_right (by decide) h2
  have p3 : 2 ^ b3 ≤ 2 ^ 24 := Nat.pow_le_pow_right (by decide) h3
  have q1 : 0 < 2 ^ b1 := Nat.two_pow_pos _
  have q2 : 0 < 2 ^ b2 := Nat.two_pow_pos _
  have q3 : 0 < 2 ^ b3 := Nat.two_pow_pos _
  unfold escapeMax at hv
  unfold readEscape escapeFields WBuf.escMax
  rw [if_pos (by omega), if_pos (by omega)]
  simp only [Prog.lift]
  show Prog.run (Prog.bits b1 >>= _) _ = _
  rw [Prog.run_bind]
  by_cases c1 : value < 2 ^ b1 - 1
  · rw [if_pos c1]
    simp only [fieldBits, List.append_nil]
    rw [Prog.run_bits_append _ _ h1, Nat.mod_eq_of_lt (by omega)]
    simp only [Res.ok_bind]
    rw [if_neg (by omega)]; rfl
  · rw [if_neg c1]
    by_cases c2 : value < (2 ^ b1 - 1) + (2 ^ b2 - 1)
    · rw [if_pos c2]
      simp only [fieldBits, List.append_nil, List.append_assoc]
      rw [Prog.run_bits_append _ _ h1, Nat.mod_eq_of_lt (by omega)]
      simp only [Res.ok_bind, if_true]
      rw [Prog.run_bind, Prog.run_bits_append _ _ h2, Nat.mod_eq_of_lt (by omega)]
      simp only [Res.ok_bind]
      rw [if_neg (by omega), Prog.run_pure, Nat.mod_eq_of_lt (by omega)]
      congr 2; omega
    · rw [if_neg c2]
      simp only [fieldBits, List.append_nil, List.append_assoc]
      rw [Prog.run_bits_append _ _ h1, Nat.mod_eq_of_lt (by omega)]
      simp only [Res.ok_bind, if_true]
      rw [Prog.run_bind, Prog.run_bits_append _ _ h2, Nat.mod_eq_of_lt (by omega)]
      simp only [Res.ok_bind, if_true]
      rw [Prog.run_bind, Prog.run_bits_append _ _ h3, Nat.mod_eq_of_lt (by omega)]
      simp only [Res.ok_bind, Prog.run_pure]
      rw [Nat.mod_eq_of_lt (by omega)]
      congr 2; omega

/-- C05: write with the escape writer, open the bytes with the reader, read: same value, same
number of bits. The reader is the pointer code. -/
theorem C05_round_trip (buf : List UInt8) (value b1 b2 b3 : Nat)
    (h1 : 1 ≤ b1 ∧ b1 ≤ 24) (h2 : 1 ≤ b2 ∧ b2 ≤ 24) (h3 : 1 ≤ b3 ∧ b3 ≤ 24)
    (hv : value ≤ escapeMax b1 b2 b3) (hfit : b1 + b2 + b3 ≤ 8 * buf.length) :
    ∃ n w s', (WBuf.create buf).writeEscape value b1 b2 b3 = .ok (n, w) ∧
      (readEscape b1 b2 b3).runC (BitBuf.create w.buf) = .ok (value, s') ∧
      s'.pos = n ∧
      n = if value < 2 ^ b1 - 1 then b1
          else if value < (2 ^ b1 - 1) + (2 ^ b2 - 1) then b1 + b2 else b1 + b2 + b3 := by
  have hwid : fieldWidth (escapeFields value b1 b2 b3) =
      if value < 2 ^ b1 - 1 then b1
      else if value < (2 ^ b1 - 1) + (2 ^ b2 - 1) then b1 + b2 else b1 + b2 + b3 := by
    unfold escapeFields fieldWidth
    split
    · simp
    · split <;> simp; omega
  have hle : fieldWidth (escapeFields value b1 b2 b3) ≤ 8 * buf.length := by
    rw [hwid]; split
    · omega
    · split <;> omega
  have hall : ∀ f ∈ escapeFields value b1 b2 b3, 1 ≤ f.2 ∧ f.2 ≤ 32 := by
    unfold escapeFields
    split
    · simp; omega
    · split <;> simp <;> omega
  obtain ⟨w, e1, e2, e3, e4⟩ := C04_write_seq buf _ hall hle
  have hrun := C05_reader value b1 b2 b3 h1.2 h2.2 h3.2 hv
    ((bitsOf buf).drop (fieldWidth (escapeFields value b1 b2 b3)))
  rw [← e4, ← create_rest w.buf] at hrun
  have hsim := Prog.sim (readEscape b1 b2 b3) (BitBuf.create w.buf) (create_wf _)
  rw [hrun] at hsim
  obtain ⟨s', g1, g2, g3, g5, g4⟩ := hsim
  refine ⟨_, w, s', ?_, g1, ?_, hwid⟩
  · rw [C05_writer_fields _ _ _ _ _ h1.2 h2.2 h3.2 hv, e1]
  · rw [g4, create_rest, List.length_drop, bitsOf_length, bitsOf_length, e3] at g5
    have : (BitBuf.create w.buf).pos = 0 := by simp [BitBuf.create, pos]
    omega

example : (300 : Nat) ≤ escapeMax 4 8 16 ∧ escapeFields 300 4 8 16 = [(15, 4), (255, 8), (30, 16)]
    ∧ escapeFields 14 4 8 16 = [(14, 4)] := by decide

/-! ### C07: parsing depends only on the remaining bits -/

/-- Parsers as the property speaks of them: fields of at most 24 bits, forward skips, and no
undefined behaviour of their own, on every path. -/
inductive Prog.Plain {α : Type} : Prog α → Prop
  | pure (a : α) : Plain (.pure a)
  | read (n : Nat) (k : Nat → Prog α) : n ≤ 24 → (∀ v, Plain (k v)) → Plain (.read n k)
  | peek (n : Nat) (k : Nat → Prog α) : n ≤ 24 → (∀ v, Plain (k v)) → Plain (.peek n k)
  | skip (n : Int) (k : Prog α) : 0 ≤ n → Plain k → Plain (.skip n k)
  | left (k : Int → Prog α) : (∀ v, Plain (k v)) → Plain (.left k)
  | err (c : ErrCode) : Plain (.err c)

theorem Prog.Plain.run_ne_ub {α : Type} {p : Prog α} (hp : p.Plain) (l : List Bool) :
    p.run l ≠ .ub := by
  induction hp generalizing l with
  | pure a => simp
  | read n k hn _ ih =>
    simp only [Prog.run]
    split
    · simp
    · rw [if_neg (by omega)]; exact ih _ _
  | peek n k hn _ ih =>
    simp only [Prog.run]
    split
    · simp
    · rw [if_neg (by omega)]; exact ih _ _
  | skip n k hn _ ih =>
    simp only [Prog.run]
    rw [if_neg (by omega)]
    split
    · simp
    · exact ih _
  | left k _ ih => exact ih _ _
  | err c => simp

/-- Outcome of a run as seen from outside: value and number of bits consumed. -/
def observe {α : Type} (s : BitBuf) (r : Res (α × BitBuf)) : Res (α × Int) :=
  r.map (fun x => (x.1, x.2.pos - s.pos))

/-- C07: two buffers with the same remaining bits give the same value or error and consume the
same number of bits; nothing outside the buffer is read. -/
theorem C07_position_independent {α : Type} (p : Prog α) (hp : p.Plain) (s t : BitBuf)
    (hs : s.WF) (ht : t.WF) (h : s.rest = t.rest) :
    observe s (p.runC s) = observe t (p.runC t) ∧ p.runC s ≠ .ub := by
  have h1 := Prog.sim p s hs
  have h2 := Prog.sim p t ht
  have h3 := hp.run_ne_ub t.rest
  rw [h] at h1
  cases hr : p.run t.rest with
  | ok x =>
    obtain ⟨a, l⟩ := x
    rw [hr] at h1 h2
    obtain ⟨s', a1, a2, a3, a4, a5⟩ := h1
    obtain ⟨t', b1, b2, b3, b4, b5⟩ := h2
    rw [a1, b1]
    refine ⟨?_, by simp⟩
    simp only [observe, Res.map, Res.ok.injEq, Prod.mk.injEq, true_and]
    rw [a5] at a4
    rw [b5] at b4
    omega
  | jump => rw [hr] at h1 h2; simp [h1, h2, observe, Res.map]
  | err c => rw [hr] at h1 h2; simp [h1, h2, observe, Res.map]
  | ub => exact absurd hr h3

/-- C07, general form for parsers that may contain wide fields or backward skips: as long as the
bit-list run is not undefined, the pointer code computes the same result. -/
theorem C07_refinement {α : Type} (p : Prog α) (s : BitBuf) (hs : s.WF)
    (h : p.run s.rest ≠ .ub) :
    (p.runC s).map (fun x => (x.1, x.2.rest)) = p.run s.rest := by
  have h1 := Prog.sim p s hs
  cases hr : p.run s.rest with
  | ok x =>
    rw [hr] at h1
    obtain ⟨s', a1, a2, a3, a4, a5⟩ := h1
    rw [a1]; simp [Res.map, a5]
  | jump => rw [hr] at h1; simp [h1, Res.map]
  | err c => rw [hr] at h1; simp [h1, Res.map]
  | ub => exact absurd hr h

/-- Two buffers with the same remaining bits at different addresses and alignments, and a
parser with a data-dependent skip. -/
example : ∃ (s t : BitBuf) (p : Prog Nat), s.WF ∧ t.WF ∧ s ≠ t ∧ s.rest = t.rest ∧ p.Plain ∧
    p.run s.rest = .ok (3, [true]) := by
  refine ⟨{ buf := [0x2F], ptr := 0, bitPos := 5, cnt := 6 },
    { buf := [0xFF, 0x65, 0xE0], ptr := 1, bitPos := 2, cnt := 6 },
    .read 2 (fun v => .skip v (.read 1 (fun w => .pure (v + w)))), ?_, ?_, by decide, by decide,
    ?_, ?_⟩
  · constructor <;> decide
  · constructor <;> decide
  · exact .read _ _ (by decide) fun v => .skip _ _ (by omega)
      (.read _ _ (by decide) fun w => .pure _)
  · decide

end Verif
