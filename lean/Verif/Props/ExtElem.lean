import Verif.Model.ExtElem
import Verif.Spec.ExtElem
import Verif.Proofs.Fields
import Verif.Proofs.Safe
import Mathlib.Data.List.Basic
import Mathlib.Tactic.Ring
import Mathlib.Tactic.Linarith

/-! # C103, C104, C105: extension payloads -/

namespace Verif.ExtElem

open Prog

/-- What the users of an extension element are given: the first `len` bytes of its row. -/
def Slot.payload (s : Slot) : List Nat := s.buf.take s.len.toNat

/-! ## Reading one element -/

theorem bytes_length (bytes : List Nat) : (bytes.flatMap (natBits 8)).length = 8 * bytes.length := by
  induction bytes with
  | nil => rfl
  | cons b r ih => simp [List.flatMap_cons, natBits_length, ih]; ring

theorem run_fill (bytes : List Nat) : ∀ (i : Nat) (b : List Nat) (l : List Bool), i + bytes.length ≤ b.length →
    (∀ x ∈ bytes, x < 256) →
    run (foldN (fun i b => do
      let v ← bits 8
      setAt b i v) bytes.length i b) (bytes.flatMap (natBits 8) ++ l) =
      .ok (b.take i ++ bytes ++ b.drop (i + bytes.length), l) := by
  induction bytes with
  | nil => intro i b l _ _; simp [foldN]
  | cons x r ih =>
    intro i b l h hx
    simp only [List.length_cons] at h
    have hx0 : x < 2 ^ 8 := hx x (by simp)
    simp only [List.length_cons, foldN, List.flatMap_cons, List.append_assoc]
    rw [run_bind, run_bits_bind 8 x _ _ (by omega) hx0, run_setAt _ _ _ _ (by omega)]
    show run (foldN _ r.length (i + 1) (b.set i x)) _ = _
    rw [ih (i + 1) (b.set i x) l (by simp; omega) (fun y hy => hx y (by simp [hy]))]
    congr 2
    rw [List.drop_set_of_lt (by omega)]
    have : (b.set i x).take (i + 1) = b.take i ++ [x] := by
      rw [List.take_add_one, List.take_set_of_le (by omega)]
      simp [List.getElem?_set_self (show i < b.length by omega)]
    rw [this]
    simp [show i + 1 + r.length = i + (r.length + 1) by omega]

theorem run_flag_cons (b : Bool) (l : List Bool) : run flag (b :: l) = .ok (b, l) := by
  cases b <;> rfl

theorem run_readLen (c : Cfg) (n : Nat) (hn : n ≤ 1536) (l : List Bool) :
    run (readLen c) (false :: (lenBits n ++ l)) = .ok (n, l) := by
  unfold readLen
  rw [run_bind, run_flag_cons]
  simp only [Res.ok_bind, Bool.false_eq_true, if_false]
  unfold lenBits
  by_cases h : n < 255
  · simp only [h, if_true]
    rw [run_bits_bind 8 n _ _ (by omega) (by omega), if_neg (by omega)]
    rfl
  · simp only [h, if_false, List.append_assoc]
    rw [run_bits_bind 8 255 _ _ (by omega) (by omega), if_pos rfl, run_bits_bind 16 (n - 253) _ _ (by omega) (by omega)]
    simp only [run_pure]
    congr 2
    omega

/-- What reading an element does to its slot. -/
def after (c : Cfg) (pay : Option (List Nat)) (s : Slot) : Slot :=
  match pay with
  | none => s
  | some bytes =>
    if c.known then
      { len := if c.drc then toI32 (s.len + bytes.length) else bytes.length
        buf := bytes ++ s.buf.drop bytes.length }
    else s

theorem run_readExt_head (c : Cfg) (s : Slot) (hs : s.buf.length = rowSize) (bytes : List Nat)
    (hp : Payload bytes) (start stop : Bool) (head l : List Bool)
    (hh : ∀ l, run (readLen c) (head ++ l) = .ok (bytes.length, l)) :
    run (readExt c s) (true :: head ++ (if c.frag then [start, stop] else []) ++
      bytes.flatMap (natBits 8) ++ l) = .ok (after c (some bytes) s, l) := by
  unfold readExt
  · obtain ⟨h0, h1, h2⟩ := hp
    have hn : bytes.length ≠ 0 := by simpa using h0
    simp only [List.cons_append, List.nil_append, List.append_assoc]
    rw [run_bind, run_flag_cons]
    simp only [Res.ok_bind, if_true]
    rw [run_bind, hh]
    simp only [Res.ok_bind]
    rw [run_bind, run_avail]
    simp only [Res.ok_bind]
    have hl : ¬ (((((if c.frag = true then [start, stop] else []) ++ (bytes.flatMap (natBits 8) ++ l)).length : Nat) : Int) / 8
        < (bytes.length : Int)) := by
      have : 8 * bytes.length ≤ ((if c.frag = true then [start, stop] else []) ++ (bytes.flatMap (natBits 8) ++ l)).length := by
        simp only [List.length_append, bytes_length]; omega
      omega
    rw [if_neg hl, if_neg hn, run_bind]
    have hw : run (when c.frag (drop 2)) ((if c.frag = true then [start, stop] else []) ++ (bytes.flatMap (natBits 8) ++ l)) =
        .ok ((), bytes.flatMap (natBits 8) ++ l) := by
      cases hf : c.frag
      · simp [when]
      · simp only [when, if_true, run_drop, List.cons_append, List.nil_append, List.length_cons]
        rw [if_neg (by omega), if_neg (by omega)]
        rfl
    rw [hw]
    simp only [Res.ok_bind]
    cases hk : c.known
    · simp only [Bool.false_eq_true, if_false]
      rw [run_bind, run_drop, if_neg (by omega)]
      have hb := bytes_length bytes
      rw [if_neg (by simp only [List.length_append]; omega)]
      simp only [Res.ok_bind, run_pure, after, hk, Bool.false_eq_true, if_false]
      have : (8 * (bytes.length : Int)).toNat = (bytes.flatMap (natBits 8)).length := by omega
      rw [this, List.drop_left]
    · simp only [if_true]
      rw [if_neg (by unfold rowSize; omega), run_bind]
      have := run_fill bytes 0 s.buf l (by rw [hs]; unfold rowSize; omega) h2
      unfold fill
      rw [this]
      simp [after, hk]

theorem run_readExt_some (c : Cfg) (s : Slot) (hs : s.buf.length = rowSize) (bytes : List Nat)
    (hp : Payload bytes) (start stop : Bool) (l : List Bool) :
    run (readExt c s) ([true, false] ++ lenBits bytes.length ++ (if c.frag then [start, stop] else []) ++
      bytes.flatMap (natBits 8) ++ l) = .ok (after c (some bytes) s, l) := by
  have := run_readExt_head c s hs bytes hp start stop (false :: lenBits bytes.length) l
    (fun l => run_readLen c _ hp.2.1 l)
  simpa using this

/-- A payload of the default length is read without a coded length. -/
theorem C103_default_partial (c : Cfg) (s : Slot) (hs : s.buf.length = rowSize) (bytes : List Nat) (hp : Payload bytes)
    (hd : c.defLen = bytes.length) (l : List Bool) :
    run (readExt c s) ([true, true] ++ (if c.frag then [true, true] else []) ++ bytes.flatMap (natBits 8) ++ l) =
      .ok (after c (some bytes) s, l) := by
  have := run_readExt_head c s hs bytes hp true true [true] l (fun l => by
    unfold readLen
    simp only [List.cons_append, List.nil_append]
    rw [run_bind, run_flag_cons]
    simp [hd])
  simpa using this

theorem run_readExt (c : Cfg) (s : Slot) (hs : s.buf.length = rowSize) (pay : Option (List Nat))
    (hp : ∀ b, pay = some b → Payload b) (l : List Bool) :
    run (readExt c s) (extBits c.frag pay ++ l) = .ok (after c pay s, l) := by
  cases pay with
  | none =>
    unfold readExt
    simp only [extBits, List.cons_append, List.nil_append]
    rw [run_bind, run_flag_cons]
    simp [after]
  | some bytes => exact run_readExt_some c s hs bytes (hp bytes rfl) true true l

theorem after_row (c : Cfg) (pay : Option (List Nat)) (s : Slot) (hp : ∀ b, pay = some b → Payload b)
    (hs : s.buf.length = rowSize) : (after c pay s).buf.length = rowSize := by
  unfold after
  split
  · exact hs
  · rename_i bytes
    have := (hp bytes rfl).2.1
    split
    · simp [hs]; unfold rowSize; omega
    · exact hs

/-! ## Access units -/

/-- An element of an access unit and what the unit carries for it.  A channel element stands for any
parser and any bits it accepts. -/
inductive Piece where
  | core (p : Prog Unit) (e : List Bool)
  | ext (c : Cfg) (pay : Option (List Nat))

def Piece.elem : Piece → Elem
  | .core p _ => .core p
  | .ext c _ => .ext c

def Piece.bits : Piece → List Bool
  | .core _ e => e
  | .ext c pay => extBits c.frag pay

def Piece.Ok : Piece → Prop
  | .core p e => ∀ l, run p (e ++ l) = .ok ((), l)
  | .ext _ pay => ∀ b, pay = some b → Payload b

/-- The bits of an access unit. -/
def unitBits (ps : List Piece) : List Bool := true :: ps.flatMap Piece.bits

def Piece.after : Piece → Slot → Slot
  | .core _ _, s => s
  | .ext c pay, s => ExtElem.after c pay s

/-- Every row has its full size. -/
def Rows (ss : List Slot) : Prop := ∀ s ∈ ss, s.buf.length = rowSize

theorem run_readElems : ∀ (ps : List Piece) (ss : List Slot) (l : List Bool), ps.length = ss.length → Rows ss →
    (∀ p ∈ ps, p.Ok) →
    run (readElems (ps.map Piece.elem) ss) (ps.flatMap Piece.bits ++ l) = .ok (List.zipWith Piece.after ps ss, l)
  | [], ss, l, h, _, _ => by
    have : ss = [] := List.length_eq_zero_iff.mp h.symm
    subst this
    simp [readElems]
  | p :: ps, [], l, h, _, _ => by simp at h
  | p :: ps, s :: ss, l, h, hr, ho => by
    have ih := fun l => run_readElems ps ss l (by simpa using h) (fun x hx => hr x (by simp [hx]))
      (fun x hx => ho x (by simp [hx]))
    have hp := ho p (by simp)
    simp only [List.map_cons, List.flatMap_cons, List.append_assoc]
    cases p with
    | core q e =>
      simp only [Piece.elem, Piece.bits, readElems]
      rw [run_bind, hp]
      simp only [Res.ok_bind]
      rw [run_bind, ih]
      rfl
    | ext c pay =>
      simp only [Piece.elem, Piece.bits, readElems]
      rw [run_bind, run_readExt c s (hr s (by simp)) pay hp]
      simp only [Res.ok_bind]
      rw [run_bind, ih]
      rfl

theorem run_readUnit (ps : List Piece) (ss : List Slot) (h : ps.length = ss.length) (hr : Rows ss) (ho : ∀ p ∈ ps, p.Ok) :
    run (readUnit (ps.map Piece.elem) ss) (unitBits ps) = .ok (List.zipWith Piece.after ps ss, []) := by
  unfold readUnit unitBits
  rw [run_bind, run_bits]
  have := run_readElems ps ss [] h hr ho
  rw [List.append_nil] at this
  simp [this]

theorem clear_length (ss : List Slot) : (clear ss).length = ss.length := by
  rcases ss with _ | ⟨a, _ | ⟨b, r⟩⟩ <;> rfl

theorem clear_rows {ss : List Slot} (h : Rows ss) : Rows (clear ss) := by
  rcases ss with _ | ⟨a, _ | ⟨b, r⟩⟩
  · exact h
  · intro s hs
    simp [clear] at hs
    subst hs
    exact h a (by simp)
  · intro s hs
    simp only [clear, List.mem_cons] at hs
    rcases hs with hs | hs | hs
    · subst hs; exact h a (by simp)
    · subst hs; exact h b (by simp)
    · exact h s (by simp [hs])

theorem clear_get (ss : List Slot) (i : Nat) (h : i < ss.length) : (clear ss)[i]? =
    some { ss[i] with len := if i < 2 then 0 else ss[i].len } := by
  rcases ss with _ | ⟨a, _ | ⟨b, r⟩⟩
  · simp at h
  · simp only [List.length_cons, List.length_nil] at h
    obtain rfl : i = 0 := by omega
    rfl
  · rcases i with _ | _ | i
    · rfl
    · rfl
    · simp only [List.length_cons] at h
      simp [clear, List.getElem?_eq_getElem (show i < r.length by omega), show ¬ (i + 1 + 1 < 2) by omega]

/-- One call with one access unit. -/
theorem call_single (ps : List Piece) (ss : List Slot) (h : ps.length = ss.length) (hr : Rows ss) (ho : ∀ p ∈ ps, p.Ok) :
    call (ps.map Piece.elem) [unitBits ps] ss = .ok (List.zipWith Piece.after ps (clear ss)) := by
  unfold call units units
  rw [run_readUnit ps _ (by rw [clear_length, h]) (clear_rows hr) ho]
  rfl

/-! ## C103: the payload handed on is the payload of this access unit -/

/-- The claim of C103: after a call with one access unit the payload of every extension element that the
decoder handles is what this access unit carries for it, and nothing if it carries nothing. -/
def PayloadIsCurrent (ps : List Piece) (ss : List Slot) : Prop :=
  ∃ r, call (ps.map Piece.elem) [unitBits ps] ss = .ok r ∧
    ∀ (i : Nat) (c : Cfg) (pay : Option (List Nat)), ps[i]? = some (.ext c pay) → c.known = true →
      (r[i]?).map Slot.payload = some (pay.getD [])

/-- Two channel elements and an extension element. -/
def threeElems (c : Cfg) (pay : Option (List Nat)) : List Piece := [.core (pure ()) [], .core (pure ()) [], .ext c pay]

theorem threeElems_ok (c : Cfg) (pay : Option (List Nat)) (h : ∀ b, pay = some b → Payload b) :
    ∀ p ∈ threeElems c pay, p.Ok := by
  intro p hp
  simp only [threeElems, List.mem_cons, List.not_mem_nil, or_false] at hp
  rcases hp with rfl | rfl | rfl
  · intro l; simp
  · intro l; simp
  · exact h

theorem init_rows (n : Nat) : Rows (init n) := by
  intro s hs
  rw [List.eq_of_mem_replicate hs]
  simp

/-- C103 is refuted: an element with index 2 that is absent from the second access unit is given the
payload of the first one again. -/
theorem C103_absent_refuted (c : Cfg) (hk : c.known = true) (hd : c.drc = false) (bytes : List Nat) (h : Payload bytes) :
    ∃ ss, call ((threeElems c (some bytes)).map Piece.elem) [unitBits (threeElems c (some bytes))] (init 3) = .ok ss ∧
      ¬ PayloadIsCurrent (threeElems c none) ss ∧
      ∃ r, call ((threeElems c none).map Piece.elem) [unitBits (threeElems c none)] ss = .ok r ∧
        (r[2]?).map Slot.payload = some bytes := by
  have hlen : ∀ (pay : Option (List Nat)), (threeElems c pay).length = 3 := fun _ => rfl
  have h1 := call_single (threeElems c (some bytes)) (init 3) rfl (init_rows 3)
    (threeElems_ok c _ (fun b hb => by cases hb; exact h))
  refine ⟨_, h1, ?_⟩
  have hp : ∃ r, call ((threeElems c none).map Piece.elem) [unitBits (threeElems c none)]
      (List.zipWith Piece.after (threeElems c (some bytes)) (clear (init 3))) = .ok r ∧
        (r[2]?).map Slot.payload = some bytes := by
    refine ⟨_, call_single (threeElems c none) _ rfl ?_ (threeElems_ok c _ (fun b hb => by cases hb)), ?_⟩
    · intro s hs
      simp only [threeElems, init, clear, List.replicate, List.zipWith_cons_cons, List.zipWith_nil_left, List.mem_cons,
        List.not_mem_nil, or_false, Piece.after] at hs
      rcases hs with rfl | rfl | rfl
      · simp
      · simp
      · exact after_row c _ _ (fun b hb => by cases hb; exact h) (by simp)
    · simp [threeElems, init, clear, List.replicate, Piece.after, after, hk, hd, Slot.payload]
  refine ⟨?_, hp⟩
  rintro ⟨r, hr, hall⟩
  obtain ⟨r', hr', h'⟩ := hp
  rw [hr] at hr'
  cases hr'
  have := hall 2 c none rfl hk
  rw [h'] at this
  exact h.1 (by simpa using this)

/-- C103 is refuted for the dynamic range control element as well: with index 2 the lengths of successive
access units add up, so that the second payload is followed by bytes of the first or of the memory behind it. -/
theorem C103_drc_refuted (c : Cfg) (hk : c.known = true) (hd : c.drc = true) (bytes : List Nat) (h : Payload bytes) :
    ∃ ss, call ((threeElems c (some bytes)).map Piece.elem) [unitBits (threeElems c (some bytes))] (init 3) = .ok ss ∧
      ∃ r, call ((threeElems c (some bytes)).map Piece.elem) [unitBits (threeElems c (some bytes))] ss = .ok r ∧
        (r[2]?).map Slot.len = some (2 * (bytes.length : Int)) := by
  have h1 := call_single (threeElems c (some bytes)) (init 3) rfl (init_rows 3)
    (threeElems_ok c _ (fun b hb => by cases hb; exact h))
  refine ⟨_, h1, _, call_single (threeElems c (some bytes)) _ rfl ?_ (threeElems_ok c _ (fun b hb => by cases hb; exact h)), ?_⟩
  · intro s hs
    simp only [threeElems, init, clear, List.replicate, List.zipWith_cons_cons, List.zipWith_nil_left, List.mem_cons,
      List.not_mem_nil, or_false, Piece.after] at hs
    rcases hs with rfl | rfl | rfl
    · simp
    · simp
    · exact after_row c _ _ (fun b hb => by cases hb; exact h) (by simp)
  · have := h.2.1
    simp [threeElems, init, clear, List.replicate, Piece.after, after, hk, hd, toI32]
    omega

/-- C103 holds for the elements with index 0 and 1, and for every element other than dynamic range control
that is present in the access unit. -/
theorem C103_partial (ps : List Piece) (ss : List Slot) (h : ps.length = ss.length) (hr : Rows ss) (ho : ∀ p ∈ ps, p.Ok) :
    ∃ r, call (ps.map Piece.elem) [unitBits ps] ss = .ok r ∧ r.length = ss.length ∧ Rows r ∧
      ∀ (i : Nat) (c : Cfg) (pay : Option (List Nat)), ps[i]? = some (.ext c pay) → c.known = true →
        i < 2 ∨ (c.drc = false ∧ pay ≠ none) →
        (r[i]?).map Slot.payload = some (pay.getD []) ∧ (r[i]?).map Slot.len = some ((pay.getD []).length : Int) := by
  have hlen : (List.zipWith Piece.after ps (clear ss)).length = ss.length := by
    simp [clear_length, h]
  refine ⟨_, call_single ps ss h hr ho, hlen, ?_, ?_⟩
  · intro s hs
    rw [List.mem_iff_getElem] at hs
    obtain ⟨i, hi, rfl⟩ := hs
    rw [List.getElem_zipWith]
    have hi' : i < ps.length := by rw [hlen] at hi; omega
    have hm := clear_rows hr ((clear ss)[i]'(by rw [clear_length]; omega)) (List.getElem_mem _)
    cases hp : ps[i] with
    | core p e => exact hm
    | ext c pay =>
      have := ho ps[i] (List.getElem_mem _)
      rw [hp] at this
      exact after_row c pay _ this hm
  · intro i c pay hi hk hc
    have hil : i < ps.length := by
      by_contra hn
      rw [List.getElem?_eq_none (by omega)] at hi
      cases hi
    have hcl := clear_get ss i (by omega)
    have hok : ∀ b, pay = some b → Payload b := by
      have := ho (.ext c pay) (by
        rw [List.getElem?_eq_getElem hil] at hi
        rw [← Option.some.inj hi]
        exact List.getElem_mem _)
      exact this
    rw [List.getElem?_zipWith, hi, hcl]
    simp only [Piece.after, Option.map_some]
    cases pay with
    | none =>
      have h2 : i < 2 := by
        rcases hc with hc | hc
        · exact hc
        · exact absurd rfl hc.2
      simp [after, h2, Slot.payload]
    | some bytes =>
      have hb := hok bytes rfl
      have hb1 := hb.2.1
      simp only [after, hk, if_true, Option.getD_some, Slot.payload]
      have hl : (if c.drc = true then toI32 ((if i < 2 then 0 else ss[i].len) + (bytes.length : Int)) else (bytes.length : Int)) =
          bytes.length := by
        rcases hc with hc | hc
        · rw [if_pos hc]
          split
          · unfold toI32; omega
          · rfl
        · simp [hc.1]
      rw [hl]
      simp

example : ∃ (c : Cfg) (bytes : List Nat), c.known = true ∧ c.drc = false ∧ Payload bytes :=
  ⟨⟨true, false, true, 0⟩, [7, 9, 255], rfl, rfl, by unfold Payload; decide⟩

example : ∃ (ps : List Piece) (ss : List Slot), ps.length = ss.length ∧ Rows ss ∧ (∀ p ∈ ps, p.Ok) ∧
    ps[2]? = some (.ext ⟨true, false, false, 0⟩ (some [1, 2, 3])) :=
  ⟨threeElems ⟨true, false, false, 0⟩ (some [1, 2, 3]), init 3, rfl, init_rows 3,
    threeElems_ok _ _ (fun b hb => by cases hb; unfold Payload; decide), rfl⟩

/-! ## C104: payloads stay inside their rows -/

theorem readLen_safe (c : Cfg) : Safe (readLen c) (fun n => 0 ≤ n) := by
  unfold readLen
  refine Safe.bind (R := fun _ => True) ?_ (fun b _ => ?_)
  · intro l
    rw [run_flag]
    split <;> simp
  · refine Safe.ite (fun _ => Safe.pure (Nat.zero_le _)) (fun _ => ?_)
    refine Safe.bits_bind (by omega) (fun a _ => ?_)
    refine Safe.ite (fun _ => ?_) (fun _ => Safe.pure (Nat.zero_le _))
    exact Safe.bits_bind (by omega) (fun b _ => Safe.pure (Nat.zero_le _))

/-- The outcome for a slot: the row keeps its size, and the length of an element other than dynamic range
control is at most the size of the row if it was before. -/
def Kept (c : Cfg) (s s' : Slot) : Prop :=
  s'.buf.length = rowSize ∧ (c.drc = false → 0 ≤ s.len → s.len ≤ rowSize → 0 ≤ s'.len ∧ s'.len ≤ rowSize)

theorem readExt_safe (c : Cfg) (s : Slot) (hs : s.buf.length = rowSize) : Safe (readExt c s) (Kept c s) := by
  have hsame : Kept c s s := ⟨hs, fun _ h0 h1 => ⟨h0, h1⟩⟩
  unfold readExt
  refine Safe.bind (R := fun _ => True) ?_ (fun b _ => ?_)
  · intro l
    rw [run_flag]
    split <;> simp
  · refine Safe.ite (fun _ => ?_) (fun _ => Safe.pure hsame)
    refine Safe.bind (readLen_safe c) (fun n _ => ?_)
    refine Safe.bind Safe.avail (fun a _ => ?_)
    refine Safe.ite (fun _ => Safe.fail) (fun _ => ?_)
    refine Safe.ite (fun _ => Safe.pure hsame) (fun hn => ?_)
    refine Safe.bind (Safe.when (fun _ => Safe.drop (by omega))) (fun _ _ => ?_)
    refine Safe.ite (fun _ => ?_) (fun _ => Safe.bind (Safe.drop (by omega)) (fun _ _ => Safe.pure hsame))
    refine Safe.ite (fun _ => Safe.fail) (fun hle => ?_)
    refine Safe.bind (R := fun b => b.length = rowSize) ?_ (fun b hb => Safe.pure ⟨hb, fun hd _ _ => ?_⟩)
    · unfold fill
      refine Safe.foldN (fun i (b : List Nat) => b.length = rowSize) n 0 s.buf hs (fun i b hi hib hb => ?_)
      refine Safe.bits_bind (by omega) (fun v _ => ?_)
      refine (Safe.setAt (by rw [hb]; omega)).mono (fun r hr => ?_)
      rw [hr]; simp [hb]
    · simp only [hd, Bool.false_eq_true, if_false]
      omega

/-- The channel elements' parsers are safe. -/
def CoreSafe (es : List Elem) : Prop := ∀ p, Elem.core p ∈ es → Safe p (fun _ => True)

/-- The outcome for all slots. -/
def AllKept (es : List Elem) (ss ss' : List Slot) : Prop :=
  ss'.length = ss.length ∧ Rows ss' ∧
    ∀ (i : Nat) (c : Cfg) (s s' : Slot), es[i]? = some (.ext c) → ss[i]? = some s → ss'[i]? = some s' → Kept c s s'

theorem readElems_safe : ∀ (es : List Elem) (ss : List Slot), es.length = ss.length → Rows ss → CoreSafe es →
    Safe (readElems es ss) (AllKept es ss)
  | [], ss, _, hr, _ => Safe.pure ⟨rfl, hr, fun i c s s' h => by simp at h⟩
  | e :: es, [], h, _, _ => by simp at h
  | e :: es, s :: ss, h, hr, hc => by
    have ih := readElems_safe es ss (by simpa using h) (fun x hx => hr x (by simp [hx])) (fun p hp => hc p (by simp [hp]))
    cases e with
    | core p =>
      simp only [readElems]
      refine Safe.bind (hc p (by simp)) (fun _ _ => Safe.bind ih (fun r hk => Safe.pure ⟨by simp [hk.1], ?_, ?_⟩))
      · intro x hx
        rcases List.mem_cons.mp hx with rfl | hx
        · exact hr x (by simp)
        · exact hk.2.1 x hx
      · intro i c x x' h1 h2 h3
        cases i with
        | zero => simp at h1
        | succ i => exact hk.2.2 i c x x' (by simpa using h1) (by simpa using h2) (by simpa using h3)
    | ext c =>
      simp only [readElems]
      refine Safe.bind (readExt_safe c s (hr s (by simp)))
        (fun s1 h1k => Safe.bind ih (fun r hk => Safe.pure ⟨by simp [hk.1], ?_, ?_⟩))
      · intro x hx
        rcases List.mem_cons.mp hx with rfl | hx
        · exact h1k.1
        · exact hk.2.1 x hx
      · intro i c' x x' h1 h2 h3
        cases i with
        | zero =>
          simp only [List.getElem?_cons_zero, Option.some.injEq, Elem.ext.injEq] at h1 h2 h3
          subst h1 h2 h3
          exact h1k
        | succ i => exact hk.2.2 i c' x x' (by simpa using h1) (by simpa using h2) (by simpa using h3)

/-- The invariant of all executions: full rows, and lengths of elements other than dynamic range control
within their rows. -/
def Inv (es : List Elem) (ss : List Slot) : Prop :=
  es.length = ss.length ∧ Rows ss ∧
    ∀ (i : Nat) (c : Cfg) (s : Slot), es[i]? = some (.ext c) → ss[i]? = some s → c.drc = false → 0 ≤ s.len ∧ s.len ≤ rowSize

theorem units_inv (es : List Elem) (hc : CoreSafe es) : ∀ (us : List (List Bool)) (ss : List Slot), Inv es ss →
    units es us ss ≠ .ub ∧ ∀ r, units es us ss = .ok r → Inv es r
  | [], ss, h => ⟨by simp [units], fun r hr => by simp [units] at hr; subst hr; exact h⟩
  | u :: us, ss, h => by
    have hs : Safe (readUnit es ss) (AllKept es ss) :=
      Safe.bits_bind (by omega) (fun _ _ => readElems_safe es ss h.1 h.2.1 hc)
    have hu := hs u
    unfold units
    cases hrun : run (readUnit es ss) u with
    | ok a =>
      obtain ⟨a, l⟩ := a
      rw [hrun] at hu
      have hk : AllKept es ss a := hu.2 a l rfl
      refine units_inv es hc us a ⟨by rw [hk.1]; exact h.1, hk.2.1, fun i c s h1 h2 hd => ?_⟩
      have hi : i < ss.length := by
        rw [← hk.1]
        by_contra hn
        rw [List.getElem?_eq_none (by omega)] at h2
        cases h2
      have h3 := h.2.2 i c ss[i] h1 (List.getElem?_eq_getElem hi) hd
      exact (hk.2.2 i c ss[i] s h1 (List.getElem?_eq_getElem hi) h2).2 hd h3.1 h3.2
    | jump => exact ⟨by simp, fun r hr => by simp at hr⟩
    | err c => exact ⟨by simp, fun r hr => by simp at hr⟩
    | ub => exact absurd hrun hu.1

theorem clear_inv {es : List Elem} {ss : List Slot} (h : Inv es ss) : Inv es (clear ss) := by
  refine ⟨by rw [clear_length]; exact h.1, clear_rows h.2.1, fun i c s h1 h2 hd => ?_⟩
  have hi : i < ss.length := by
    rw [← clear_length]
    by_contra hn
    rw [List.getElem?_eq_none (by omega)] at h2
    cases h2
  rw [clear_get ss i hi] at h2
  cases h2
  have := h.2.2 i c ss[i] h1 (List.getElem?_eq_getElem hi) hd
  dsimp only
  split
  · exact ⟨le_refl _, by unfold rowSize; omega⟩
  · exact this

/-- C104: whatever the access units of any number of calls contain, the payload bytes are written inside
the element's row, and the length that is handed on for an element other than dynamic range control never
exceeds the row. -/
theorem C104_rows (es : List Elem) (hc : CoreSafe es) : ∀ (cs : List (List (List Bool))) (ss : List Slot), Inv es ss →
    calls es cs ss ≠ .ub ∧ ∀ r, calls es cs ss = .ok r → Inv es r
  | [], ss, h => ⟨by simp [calls], fun r hr => by simp [calls] at hr; subst hr; exact h⟩
  | c :: cs, ss, h => by
    have h1 := units_inv es hc c (clear ss) (clear_inv h)
    unfold calls call
    cases hu : units es c (clear ss) with
    | ok a => exact C104_rows es hc cs a (h1.2 a hu)
    | jump => exact ⟨by simp, fun r hr => by simp at hr⟩
    | err c => exact ⟨by simp, fun r hr => by simp at hr⟩
    | ub => exact absurd hu h1.1

theorem init_inv (es : List Elem) : Inv es (init es.length) := by
  refine ⟨by simp [init], init_rows _, fun i c s _ h2 _ => ?_⟩
  have hm := List.mem_of_getElem? h2
  rw [List.eq_of_mem_replicate hm]
  simp [rowSize]

/-- C104 from the creation of the decoder on. -/
theorem C104_from_start (es : List Elem) (hc : CoreSafe es) (cs : List (List (List Bool))) :
    calls es cs (init es.length) ≠ .ub ∧ ∀ r, calls es cs (init es.length) = .ok r → Inv es r :=
  C104_rows es hc cs _ (init_inv es)

example : CoreSafe [.core (pure ()), .ext ⟨true, true, false, 3⟩, .ext ⟨false, false, true, 0⟩] := by
  intro p hp
  simp at hp
  subst hp
  exact Safe.pure trivial

/-- C104 is refuted for dynamic range control: after `k` calls with a payload of `n` bytes each, an element
with index 2 has the length `k * n`, which leaves the row of 1536 bytes. -/
theorem C104_refuted (c : Cfg) (hk : c.known = true) (hd : c.drc = true) (bytes : List Nat) (h : Payload bytes) :
    ∀ (k : Nat), k * bytes.length < 2 ^ 31 →
      ∃ r, calls ((threeElems c (some bytes)).map Piece.elem) (List.replicate k [unitBits (threeElems c (some bytes))])
        (init 3) = .ok r ∧ (r[2]?).map Slot.len = some (k * (bytes.length : Int)) := by
  have hok := threeElems_ok c (some bytes) (fun b hb => by cases hb; exact h)
  have key : ∀ (k : Nat) (a b s : Slot), a.buf.length = rowSize → b.buf.length = rowSize → s.buf.length = rowSize →
      0 ≤ s.len → s.len + k * (bytes.length : Int) < 2 ^ 31 →
      ∃ r, calls ((threeElems c (some bytes)).map Piece.elem) (List.replicate k [unitBits (threeElems c (some bytes))])
        [a, b, s] = .ok r ∧ (r[2]?).map Slot.len = some (s.len + k * (bytes.length : Int)) := by
    intro k
    induction k with
    | zero => intro a b s _ _ _ _ _; exact ⟨[a, b, s], rfl, by simp⟩
    | succ k ih =>
      intro a b s ha hb hs h0 h1
      rw [List.replicate_succ]
      unfold calls
      have hrows : Rows [a, b, s] := by
        intro x hx
        simp only [List.mem_cons, List.not_mem_nil, or_false] at hx
        rcases hx with rfl | rfl | rfl <;> assumption
      rw [call_single (threeElems c (some bytes)) [a, b, s] rfl hrows hok]
      simp only [Res.ok_bind, threeElems, clear, List.zipWith_cons_cons, List.zipWith_nil_left, Piece.after]
      push_cast at h1
      have hpos : (0 : Int) ≤ k * (bytes.length : Int) := by positivity
      have hlen : (after c (some bytes) s).len = s.len + bytes.length := by
        simp only [after, hk, hd, if_true]
        unfold toI32
        have : s.len + (bytes.length : Int) < 2 ^ 31 := by linarith
        omega
      obtain ⟨r, h2, h3⟩ := ih { a with len := 0 } { b with len := 0 } (after c (some bytes) s) ha hb
        (after_row c _ _ (fun b hb => by cases hb; exact h) hs) (by rw [hlen]; omega) (by rw [hlen]; linarith)
      refine ⟨r, h2, ?_⟩
      rw [h3, hlen]
      congr 1
      push_cast
      ring
  intro k hk2
  obtain ⟨r, h2, h3⟩ := key k ⟨0, List.replicate rowSize 0⟩ ⟨0, List.replicate rowSize 0⟩ ⟨0, List.replicate rowSize 0⟩
    (by simp) (by simp) (by simp) (le_refl _) (by simp only [zero_add]; exact_mod_cast hk2)
  exact ⟨r, h2, by simpa using h3⟩

example : ∃ (bytes : List Nat), Payload bytes ∧ 20 * bytes.length < 2 ^ 31 ∧ (rowSize : Int) < 20 * (bytes.length : Int) :=
  ⟨List.replicate 100 5, by unfold Payload; decide, by decide, by decide⟩

/-! ## C105: payloads in fragments -/

/-- One fragment of a payload: like a whole payload, with the start and stop flags as given. -/
def fragBits (start stop : Bool) (bytes : List Nat) : List Bool :=
  [true, false] ++ lenBits bytes.length ++ [start, stop] ++ bytes.flatMap (natBits 8)

/-- C105 is refuted: a payload sent in two fragments, the first with the start flag and the second with
the stop flag, is never put together; the second fragment replaces the first. -/
theorem C105_refuted (c : Cfg) (hk : c.known = true) (hd : c.drc = false) (hf : c.frag = true) (a b : List Nat)
    (ha : Payload a) (hb : Payload b) (s : Slot) (hs : s.buf.length = rowSize) :
    ∃ s1 s2, run (readExt c s) (fragBits true false a) = .ok (s1, []) ∧ s1.payload = a ∧
      run (readExt c s1) (fragBits false true b) = .ok (s2, []) ∧ s2.payload = b ∧ s2.payload ≠ a ++ b := by
  have h1 := run_readExt_some c s hs a ha true false []
  have h2 := run_readExt_some c (after c (some a) s) (after_row c _ _ (fun x hx => by cases hx; exact ha) hs) b hb false true []
  simp only [hf, if_true, List.append_nil] at h1 h2
  refine ⟨_, _, h1, ?_, h2, ?_, ?_⟩
  · simp [after, hk, hd, Slot.payload]
  · simp [after, hk, hd, Slot.payload]
  · simp [after, hk, hd, Slot.payload]
    exact ha.1

/-- C105 for payloads in one piece: with fragments enabled a payload with both flags set is handed on whole. -/
theorem C105_partial (c : Cfg) (hk : c.known = true) (hd : c.drc = false) (hf : c.frag = true) (a : List Nat)
    (ha : Payload a) (s : Slot) (hs : s.buf.length = rowSize) (l : List Bool) :
    ∃ s1, run (readExt c s) (fragBits true true a ++ l) = .ok (s1, l) ∧ s1.payload = a := by
  have h1 := run_readExt_some c s hs a ha true true l
  simp only [hf, if_true] at h1
  exact ⟨_, h1, by simp [after, hk, hd, Slot.payload]⟩

example : ∃ (a b : List Nat) (s : Slot), Payload a ∧ Payload b ∧ s.buf.length = rowSize :=
  ⟨[1, 2], [3], ⟨0, List.replicate rowSize 0⟩, by unfold Payload; decide, by unfold Payload; decide, by simp⟩

end Verif.ExtElem
