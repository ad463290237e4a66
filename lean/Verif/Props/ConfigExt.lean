import Verif.Props.ConfigLevel
import Verif.Props.BitWriter

/-! # Extension elements and configuration extensions: announced lengths and arrays -/

namespace Verif.Config

open Prog

variable {α β : Type}

/-- Every accepting run takes exactly `n` bits. -/
def Takes (n : Nat) (p : Prog α) : Prop := ∀ l a l', run p l = .ok (a, l') → n ≤ l.length ∧ l' = l.drop n

/-- Every accepting run takes at least `n` bits. -/
def TakesMin (n : Nat) (p : Prog α) : Prop :=
  ∀ l a l', run p l = .ok (a, l') → ∃ k, n ≤ k ∧ k ≤ l.length ∧ l' = l.drop k

theorem Takes.min {n : Nat} {p : Prog α} (h : Takes n p) : TakesMin n p :=
  fun l a l' e => ⟨n, Nat.le_refl n, h l a l' e⟩

theorem Takes.pure (a : α) : Takes 0 (Pure.pure a : Prog α) := by
  intro l b l' e
  simp at e
  exact ⟨Nat.zero_le _, by simp [e.2]⟩

theorem Takes.fail {n : Nat} {c : ErrCode} : Takes n (fail c : Prog α) := by
  intro l b l' e
  simp at e

theorem Takes.bits (n : Nat) : Takes n (bits n) := by
  intro l a l' e
  simp only [run_bits] at e
  split at e
  · simp at e
  split at e
  · simp at e
  simp only [Res.ok.injEq, Prod.mk.injEq] at e
  exact ⟨by omega, e.2.symm⟩

theorem Takes.drop (n : Nat) : Takes n (drop (n : Int)) := by
  intro l a l' e
  simp only [run_drop] at e
  rw [if_neg (by omega)] at e
  split at e
  · simp at e
  simp only [Res.ok.injEq, Prod.mk.injEq, Int.toNat_natCast] at e
  exact ⟨by omega, e.2.symm⟩

theorem Takes.inTable {i : Int} {cap : Nat} : Takes 0 (inTable i cap) := by
  unfold Prog.inTable
  split
  · exact Takes.pure ()
  · intro l a l' e
    simp at e

theorem Takes.bind {n m : Nat} {p : Prog α} {f : α → Prog β} (hp : Takes n p) (hf : ∀ a, Takes m (f a)) :
    Takes (n + m) (p >>= f) := by
  intro l b l' e
  rw [run_bind] at e
  obtain ⟨⟨a, l1⟩, h1, h2⟩ := Res.bind_eq_ok.mp e
  obtain ⟨hn, rfl⟩ := hp l a l1 h1
  obtain ⟨hm, rfl⟩ := hf a _ b l' h2
  rw [List.length_drop] at hm
  exact ⟨by omega, by rw [List.drop_drop]⟩

theorem Takes.then_pure {n : Nat} {p : Prog α} {f : α → β} (hp : Takes n p) :
    Takes n (p >>= fun a => Pure.pure (f a)) := by
  have := Takes.bind hp (fun a => Takes.pure (f a))
  simpa using this

theorem Takes.forN {f : Nat → Prog α} {w : Nat} (h : ∀ i, Takes w (f i)) (k i : Nat) : Takes (w * k) (forN f k i) := by
  induction k generalizing i with
  | zero => exact Takes.pure []
  | succ k ih =>
    unfold Prog.forN
    have := Takes.bind (h i) fun a => Takes.then_pure (f := fun as => a :: as) (ih (i + 1))
    rw [show w * (k + 1) = w + w * k by ring]
    exact this

/-- The length check of the elements, for any sub-parser. -/
theorem Takes.measured (len : Nat) (p : Prog α) : Takes (8 * len) (measured len p) := by
  intro l a l' e
  unfold Config.measured at e
  rw [run_bind, run_avail] at e
  simp only [Res.ok_bind] at e
  rw [run_bind] at e
  obtain ⟨⟨x, l1⟩, h1, h2⟩ := Res.bind_eq_ok.mp e
  obtain ⟨k, hk, rfl⟩ := run_suffix _ _ h1
  dsimp only at h2
  rw [run_bind, run_avail] at h2
  simp only [Res.ok_bind, List.length_drop] at h2
  split at h2
  · simp at h2
  rename_i hle
  split at h2
  · rename_i hlt
    have hT := Takes.then_pure (f := fun _ => x) (Takes.drop (8 * len - k))
    have hz : (8 * (len : Int) - ((l.length : Int) - ((l.length - k : Nat) : Int))) = ((8 * len - k : Nat) : Int) := by
      omega
    rw [hz] at h2
    obtain ⟨h3, h4⟩ := hT _ _ _ h2
    rw [List.length_drop] at h3
    rw [List.drop_drop] at h4
    have : k + (8 * len - k) = 8 * len := by omega
    rw [this] at h4
    exact ⟨by omega, h4⟩
  · rename_i hge
    simp at h2
    have : k = 8 * len := by omega
    rw [← h2.2, this]
    exact ⟨by omega, rfl⟩

/-! ## C88: extension elements take exactly the bytes they announce -/

theorem extBody_takes (sub : Sub) (g : Sig) (idx ty len flag : Nat) (e : Elem) (d : Dec) :
    Takes (8 * len) (extBody sub g idx ty len flag e d) := by
  unfold extBody
  split
  · exact Takes.then_pure (Takes.measured len _)
  split
  · exact Takes.then_pure (Takes.measured len _)
  split
  · exact Takes.then_pure (Takes.measured len _)
  split
  · exact Takes.then_pure (Takes.measured len _)
  split
  · split
    · exact Takes.fail
    split
    · exact Takes.fail
    · refine Takes.then_pure (Takes.forN (fun i => ?_) len 0)
      have := Takes.bind (Takes.inTable (i := (i : Int)) (cap := 1536)) fun _ => Takes.bits 8
      simpa using this
  split
  · split
    · exact Takes.fail
    · rename_i h
      have : len = 0 := by omega
      rw [this]
      exact Takes.pure _
  split
  · split
    · exact Takes.fail
    · rename_i h
      have : len = 0 := by omega
      rw [this]
      exact Takes.pure _
  · intro l a l' h
    rw [run_bind, run_avail] at h
    simp only [Res.ok_bind] at h
    split at h
    · simp at h
    · have := Takes.then_pure (f := fun _ => (e, d)) (Takes.drop (8 * len))
      exact this l a l' (by simpa using h)

/-- The bits of an escape-coded number. -/
def esc (b1 b2 b3 v : Nat) : List Bool := fieldBits (escapeFields v b1 b2 b3)

theorem run_esc_bind (b1 b2 b3 v : Nat) (f : Nat → Prog β) (l : List Bool) (h1 : b1 ≤ 24) (h2 : b2 ≤ 24)
    (h3 : b3 ≤ 24) (hv : v ≤ escapeMax b1 b2 b3) :
    run (readEscape b1 b2 b3 >>= f) (esc b1 b2 b3 v ++ l) = run (f v) l := by
  rw [run_bind, esc, C05_reader v b1 b2 b3 h1 h2 h3 hv l]
  rfl

/-- The header of an extension element: type, length in bytes, default length, fragmentation. -/
def extHead (ty len : Nat) (dl : Option Nat) (frag : Nat) : List Bool :=
  esc 4 8 16 ty ++ (esc 4 8 16 len ++ ((match dl with
    | none => natBits 1 0
    | some v => natBits 1 1 ++ esc 8 16 0 v) ++ natBits 1 frag))

theorem run_extElement (sub : Sub) (g : Sig) (idx ty len : Nat) (dl : Option Nat) (frag : Nat) (e : Elem) (d : Dec)
    (l : List Bool) (ht : ty ≤ escapeMax 4 8 16) (hl : len ≤ escapeMax 4 8 16)
    (hd : ∀ v ∈ dl, v ≤ escapeMax 8 16 0) (hf : frag < 2) :
    run (extElement sub g idx e d) (extHead ty len dl frag ++ l) =
      if 1536 ≤ len then .err errFrame
      else run (extBody sub g idx ty len (if dl.isSome then 1 else 0)
        { e with extType := ty, payLen := 0, defLen := (dl.map (· + 1)).getD 0, frag } d) l := by
  unfold extElement extHead
  simp only [List.append_assoc]
  rw [run_esc_bind 4 8 16 ty _ _ (by decide) (by decide) (by decide) ht,
    run_esc_bind 4 8 16 len _ _ (by decide) (by decide) (by decide) hl]
  split
  · simp
  · cases dl with
    | none =>
      dsimp only
      rw [run_bits_bind 1 0 _ _ (by decide) (by decide)]
      simp only [ne_eq, not_true_eq_false, if_false]
      show run (bits 1 >>= _) _ = _
      rw [run_bits_bind 1 frag _ _ (by decide) (by omega)]
      rfl
    | some v =>
      dsimp only
      rw [List.append_assoc, run_bits_bind 1 1 _ _ (by decide) (by decide)]
      simp only [ne_eq, one_ne_zero, not_false_eq_true, if_true]
      rw [run_esc_bind 8 16 0 v _ _ (by decide) (by decide) (by decide) (hd v rfl),
        run_bits_bind 1 frag _ _ (by decide) (by omega)]
      rfl

/-- **C88.** An accepted extension element takes exactly as many bytes after its header as it announces,
whatever its type, its contents, and whatever the parsers of its contents do; so the following element is
read from where it starts. -/
theorem C88_element_length (sub : Sub) (g : Sig) (idx ty len : Nat) (dl : Option Nat) (frag : Nat) (e : Elem) (d : Dec)
    (l : List Bool) (ht : ty ≤ escapeMax 4 8 16) (hl : len ≤ escapeMax 4 8 16)
    (hd : ∀ v ∈ dl, v ≤ escapeMax 8 16 0) (hf : frag < 2) (r : Elem × Dec) (l' : List Bool)
    (h : run (extElement sub g idx e d) (extHead ty len dl frag ++ l) = .ok (r, l')) :
    8 * len ≤ l.length ∧ l' = l.drop (8 * len) := by
  rw [run_extElement sub g idx ty len dl frag e d l ht hl hd hf] at h
  split at h
  · simp at h
  · exact extBody_takes _ _ _ _ _ _ _ _ l r l' h

/-- An object metadata element of 3 bytes; what follows is left alone. -/
example : (run (extElement noSub ⟨0, 2, 0, 1, 0⟩ 0 Elem.zero Dec.zero)
      (extHead 5 3 none 0 ++ (natBits 2 1 ++ natBits 1 1 ++ natBits 2 3 ++ natBits 2 2 ++ natBits 17 99 ++ natBits 4 9))).map
      (fun r => (r.1.2.oam.frameLength, r.1.2.oam.screen.take 3, r.1.2.oam.dyn, r.1.2.oam.uniform, r.2)) =
    .ok (1024, [1, 1, 0], 1, 0, natBits 4 9) := by decide +kernel

/-- Contents longer than announced are refused, as is an announced length of 1536 bytes or more. -/
theorem C88_too_long (sub : Sub) (g : Sig) (idx ty len : Nat) (dl : Option Nat) (frag : Nat) (e : Elem) (d : Dec)
    (l : List Bool) (ht : ty ≤ escapeMax 4 8 16) (hl : len ≤ escapeMax 4 8 16)
    (hd : ∀ v ∈ dl, v ≤ escapeMax 8 16 0) (hf : frag < 2) (h : 1536 ≤ len) :
    run (extElement sub g idx e d) (extHead ty len dl frag ++ l) = .err errFrame := by
  rw [run_extElement sub g idx ty len dl frag e d l ht hl hd hf, if_pos h]

example : (run (extElement noSub ⟨0, 2, 0, 1, 0⟩ 0 Elem.zero Dec.zero)
      (extHead 5 0 none 0 ++ (natBits 2 1 ++ natBits 1 1 ++ natBits 2 3 ++ natBits 2 2 ++ natBits 17 99))).map
      (fun _ => ()) = .err errFrame := by decide +kernel

/-- The payload bytes of a loudness control or multichannel coding element are kept exactly. -/
theorem C88_payload (sub : Sub) (g : Sig) (idx ty : Nat) (hty : ty = 4 ∨ ty = 9) (bytes : List Nat)
    (hb : ∀ b ∈ bytes, b < 256) (hne : ty = 9 → bytes ≠ []) (hlen : bytes.length < 1536) (e : Elem) (d : Dec)
    (l : List Bool) :
    run (extElement sub g idx e d)
        (extHead ty bytes.length none 0 ++ (bytes.flatMap (natBits 8) ++ l)) =
      .ok (({ e with extType := ty, payLen := bytes.length, defLen := 0, frag := 0, payload := bytes }, d), l) := by
  rw [run_extElement sub g idx ty bytes.length none 0 e d _ (by rcases hty with rfl | rfl <;> decide)
    (by simp [escapeMax]; omega) (by simp) (by decide), if_neg (by omega)]
  have h9 : ¬ (ty = 9 ∧ bytes.length = 0) := by
    rintro ⟨h, h0⟩
    exact hne h (List.length_eq_zero_iff.mp h0)
  unfold extBody
  rw [if_neg (by omega), if_neg (by omega), if_neg (by omega), if_neg (by omega), if_pos hty]
  simp only [ne_eq, not_true_eq_false, if_false, h9]
  have hstep : ∀ j a, bytes[j]? = some a → ∀ l, run (do inTable ((0 + j : Nat) : Int) 1536; bits 8) (natBits 8 a ++ l) =
      .ok (a, l) := by
    intro j a ha l
    obtain ⟨hj, rfl⟩ := List.getElem?_eq_some_iff.mp ha
    rw [run_inTable_bind _ _ _ _ ⟨by omega, by omega⟩]
    have hb := hb _ (List.getElem_mem hj)
    show run (bits 8) _ = _
    rw [run_bits_append 8 _ (by decide), Nat.mod_eq_of_lt hb]
  rw [run_forN_bind (fun i => do inTable (i : Int) 1536; bits 8) (natBits 8) bytes 0 bytes.length _ rfl hstep l]
  rfl

example : ∃ bytes : List Nat, (∀ b ∈ bytes, b < 256) ∧ bytes ≠ [] ∧ bytes.length < 1536 := ⟨[1, 255], by decide⟩

/-! ## C89: configuration extensions take exactly the bytes they announce -/

/-- The claim C89, for a stream with one extension. -/
def ExtensionLength : Prop :=
  ∀ (sub : Sub) (lenPresent n layout ty len : Nat) (x x' : Ext) (l l' : List Bool),
    ty ≤ escapeMax 4 8 16 → len ≤ escapeMax 4 8 16 →
    run (configExtension sub lenPresent n layout x) (esc 2 4 8 0 ++ (esc 4 8 16 ty ++ (esc 4 8 16 len ++ l))) =
      .ok (x', l') → 8 * len ≤ l.length ∧ l' = l.drop (8 * len)

theorem run_configExtension_one (sub : Sub) (lenPresent n layout ty len : Nat) (x : Ext) (l : List Bool)
    (ht : ty ≤ escapeMax 4 8 16) (hl : len ≤ escapeMax 4 8 16) :
    run (configExtension sub lenPresent n layout x) (esc 2 4 8 0 ++ (esc 4 8 16 ty ++ (esc 4 8 16 len ++ l))) =
      if 1536 < len then .err (.other 0xFFFF9011)
      else run (extension sub lenPresent n layout 0 ty len { x with dmx := 0 }) l := by
  unfold configExtension
  rw [run_esc_bind 2 4 8 0 _ _ (by decide) (by decide) (by decide) (by decide)]
  simp only [Nat.zero_add, gt_iff_lt, Nat.reduceLT, if_false]
  unfold foldN
  rw [run_bind, run_esc_bind 4 8 16 ty _ _ (by decide) (by decide) (by decide) ht,
    run_esc_bind 4 8 16 len _ _ (by decide) (by decide) (by decide) hl,
    run_inTable_bind _ _ _ _ ⟨by decide, by decide⟩]
  split
  · rfl
  · cases run (extension sub lenPresent n layout 0 ty len { x with dmx := 0 }) l <;> rfl

/-- A downmix extension that announces no bytes and takes 4 bits. -/
theorem C89_refuted : ¬ ExtensionLength := by
  intro H
  have h : (run (configExtension noSub 0 1 2 Ext.zero)
      (esc 2 4 8 0 ++ (esc 4 8 16 1 ++ (esc 4 8 16 0 ++ (natBits 2 0 ++ natBits 1 1 ++ natBits 1 0))))).map
        (fun r => r.2) = .ok [] := by decide +kernel
  cases hr : run (configExtension noSub 0 1 2 Ext.zero)
      (esc 2 4 8 0 ++ (esc 4 8 16 1 ++ (esc 4 8 16 0 ++ (natBits 2 0 ++ natBits 1 1 ++ natBits 1 0)))) with
  | ok x =>
    rw [hr] at h
    simp only [Res.map, Res.ok.injEq] at h
    obtain ⟨_, h2⟩ := H noSub 0 1 2 1 0 Ext.zero x.1 _ x.2 (by decide) (by decide) hr
    rw [h] at h2
    revert h2
    decide
  | jump => rw [hr] at h; simp [Res.map] at h
  | err c => rw [hr] at h; simp [Res.map] at h
  | ub => rw [hr] at h; simp [Res.map] at h

theorem TakesMin.atLeast (len : Nat) (p : Prog α) : TakesMin (8 * len) (atLeast len p) := by
  intro l a l' e
  unfold Config.atLeast at e
  rw [run_bind, run_avail] at e
  simp only [Res.ok_bind] at e
  rw [run_bind] at e
  obtain ⟨⟨x, l1⟩, h1, h2⟩ := Res.bind_eq_ok.mp e
  obtain ⟨k, hk, rfl⟩ := run_suffix _ _ h1
  dsimp only at h2
  rw [run_bind, run_avail] at h2
  simp only [Res.ok_bind, List.length_drop] at h2
  split at h2
  · rename_i hlt
    have hT := Takes.then_pure (f := fun _ => x) (Takes.drop (8 * len - k))
    have hz : (8 * (len : Int) - ((l.length : Int) - ((l.length - k : Nat) : Int))) = ((8 * len - k : Nat) : Int) := by
      omega
    rw [hz] at h2
    obtain ⟨h3, h4⟩ := hT _ _ _ h2
    rw [List.length_drop] at h3
    rw [List.drop_drop] at h4
    have : k + (8 * len - k) = 8 * len := by omega
    rw [this] at h4
    exact ⟨8 * len, Nat.le_refl _, by omega, h4⟩
  · simp at h2
    exact ⟨k, by omega, hk, h2.2.symm⟩

theorem TakesMin.then_pure {n : Nat} {p : Prog α} {f : α → β} (hp : TakesMin n p) :
    TakesMin n (p >>= fun a => Pure.pure (f a)) := by
  intro l b l' e
  rw [run_bind] at e
  obtain ⟨⟨a, l1⟩, h1, h2⟩ := Res.bind_eq_ok.mp e
  simp at h2
  rw [← h2.2]
  exact hp l a l1 h1

theorem TakesMin.fail {n : Nat} {c : ErrCode} : TakesMin n (fail c : Prog α) := Takes.min Takes.fail

/-- **C89, the part that holds.** Loudness information, fill bytes and unknown extensions take exactly the
bytes they announce; downmix, HOA matrix and scene extensions take at least as many.  Missing: an upper
bound for the latter, and anything about group information and compatible levels. -/
theorem C89_length_partial (sub : Sub) (lenPresent n layout ty len : Nat) (x x' : Ext) (l l' : List Bool)
    (ht : ty ≤ escapeMax 4 8 16) (hl : len ≤ escapeMax 4 8 16)
    (h : run (configExtension sub lenPresent n layout x) (esc 2 4 8 0 ++ (esc 4 8 16 ty ++ (esc 4 8 16 len ++ l))) =
      .ok (x', l')) :
    (ty ∉ [1, 3, 4, 6, 7] → 8 * len ≤ l.length ∧ l' = l.drop (8 * len)) ∧
      (ty ∈ [1, 3, 4] → ∃ k, 8 * len ≤ k ∧ k ≤ l.length ∧ l' = l.drop k) := by
  rw [run_configExtension_one sub lenPresent n layout ty len x l ht hl] at h
  split at h
  · simp at h
  constructor
  · intro hty
    simp only [List.mem_cons, List.not_mem_nil, or_false, not_or] at hty
    refine (?_ : Takes (8 * len) (extension sub lenPresent n layout 0 ty len { x with dmx := 0 })) l x' l' h
    unfold extension
    rw [if_neg (by omega), if_neg (by omega), if_neg (by omega)]
    split
    · refine Takes.then_pure (Takes.forN (fun i => ?_) len 0)
      have := Takes.bind (Takes.inTable (i := (i : Int)) (cap := 1536)) fun _ => Takes.bits 8
      simpa using this
    rw [if_neg (by omega), if_neg (by omega)]
    split
    · refine Takes.then_pure (Takes.forN (fun i => ?_) len 0)
      have : Takes (8 + 0) (do
          let b ← bits 8
          if b ≠ 0xa5 then fail (.other 0xFFFF9004) else pure b) := by
        refine Takes.bind (Takes.bits 8) fun b => ?_
        split
        · exact Takes.fail
        · exact Takes.pure b
      exact this
    · intro l a l' h
      rw [run_bind, run_avail] at h
      simp only [Res.ok_bind] at h
      split at h
      · simp at h
      · have := Takes.then_pure (f := fun _ => { x with dmx := 0 }) (Takes.drop (8 * len))
        exact this l a l' (by simpa using h)
  · intro hty
    simp only [List.mem_cons, List.not_mem_nil, or_false] at hty
    refine (?_ : TakesMin (8 * len) (extension sub lenPresent n layout 0 ty len { x with dmx := 0 })) l x' l' h
    unfold extension
    rw [if_neg (by omega)]
    split
    · split
      · exact TakesMin.fail
      · exact TakesMin.then_pure (TakesMin.atLeast len _)
    split
    · exact TakesMin.then_pure (TakesMin.atLeast len _)
    rw [if_neg (by omega), if_pos (by omega)]
    split
    · exact TakesMin.fail
    · exact TakesMin.then_pure (TakesMin.atLeast len _)

example : (run (configExtension noSub 0 1 2 Ext.zero)
      (esc 2 4 8 0 ++ (esc 4 8 16 2 ++ (esc 4 8 16 2 ++ (natBits 8 7 ++ natBits 8 9 ++ natBits 3 1))))).map
        (fun r => (r.1.loud, r.2)) = .ok (some (0, [7, 9]), natBits 3 1) := by decide +kernel

/-! ## C90: at most one loudness control and one pre-roll element -/

/-- The claim C90. -/
def OneOfEach : Prop :=
  ∀ (sub : Sub) (g : Sig) (d d' : Dec) (l l' : List Bool), d.elems.length = 50 →
    run (decoderConfig sub g d) l = .ok (d', l') →
    ∀ ty, ty = 3 ∨ ty = 4 → ∀ i < d'.numElem, ∀ j < d'.numElem, ∀ a ∈ d'.elems[i]?, ∀ b ∈ d'.elems[j]?,
      a.kind = 3 → a.extType = ty → b.kind = 3 → b.extType = ty → i = j

/-- Two loudness control elements of one byte. -/
def twoDrc : List Bool :=
  esc 4 8 16 1 ++ natBits 1 0 ++ (natBits 2 3 ++ extHead 4 1 none 0 ++ natBits 8 1) ++
    (natBits 2 3 ++ extHead 4 1 none 0 ++ natBits 8 2)

/-- **C90, refuted.** Two loudness control elements are accepted: the counter is a local variable of the
function that reads one element. -/
theorem C90_refuted : ¬ OneOfEach := by
  intro H
  have h : (run (decoderConfig noSub ⟨1, 0, 0, 0, 1⟩ Dec.zero) twoDrc).map
      (fun r => (r.1.numElem, r.1.elems[0]?, r.1.elems[1]?)) =
      .ok (2, some ⟨3, 0, 0, 4, 0, 0, 1, [1]⟩, some ⟨3, 0, 0, 4, 0, 0, 1, [2]⟩) := by decide +kernel
  obtain ⟨d', l', hr, hc⟩ := of_map (f := fun d : Dec => (d.numElem, d.elems[0]?, d.elems[1]?)) h
  simp only [Prod.mk.injEq] at hc
  obtain ⟨h1, h2, h3⟩ := hc
  have := H noSub _ _ d' _ l' rfl hr 4 (Or.inr rfl) 0 (by omega) 1 (by omega) _ h2 _ h3 rfl rfl rfl rfl
  cases this

/-- What an element leaves alone, and where a pre-roll element may be. -/
theorem extElement_post (sub : Sub) (g : Sig) (idx : Nat) (e : Elem) (d : Dec) : Post 0 (extElement sub g idx e d)
    (fun r => r.1.kind = e.kind ∧ r.2.elems = d.elems ∧ r.2.numElem = d.numElem ∧ (r.1.extType = 3 → idx = 0)) := by
  unfold extElement
  refine Post.bind Post.triv fun ty _ => ?_
  refine Post.bind Post.triv fun len _ => ?_
  refine Post.ite (fun _ => Post.fail) fun _ => ?_
  refine Post.bind Post.triv fun flag _ => ?_
  refine Post.bind Post.triv fun dl _ => ?_
  refine Post.bind Post.triv fun frag _ => ?_
  unfold extBody
  refine Post.ite (fun h => ?_) fun _ => ?_
  · exact Post.bind Post.triv fun _ _ => Post.pure ⟨rfl, rfl, rfl, fun h3 => by simp only at h3; omega⟩
  refine Post.ite (fun h => ?_) fun _ => ?_
  · exact Post.bind Post.triv fun _ _ => Post.pure ⟨rfl, rfl, rfl, fun h3 => by simp only at h3; omega⟩
  refine Post.ite (fun h => ?_) fun _ => ?_
  · exact Post.bind Post.triv fun _ _ => Post.pure ⟨rfl, rfl, rfl, fun h3 => by simp only at h3; omega⟩
  refine Post.ite (fun h => ?_) fun _ => ?_
  · exact Post.bind Post.triv fun _ _ => Post.pure ⟨rfl, rfl, rfl, fun h3 => by simp only at h3; omega⟩
  refine Post.ite (fun h => ?_) fun _ => ?_
  · refine Post.ite (fun h => Post.fail) fun _ => ?_
    refine Post.ite (fun h => Post.fail) fun _ => ?_
    exact Post.bind Post.triv fun _ _ => Post.pure ⟨rfl, rfl, rfl, fun h3 => by simp only at h3; omega⟩
  refine Post.ite (fun h => ?_) fun _ => ?_
  · exact Post.ite (fun h => Post.fail) fun hi => Post.pure ⟨rfl, rfl, rfl, fun _ => by omega⟩
  refine Post.ite (fun h => ?_) fun _ => ?_
  · exact Post.ite (fun h => Post.fail) fun hi => Post.pure ⟨rfl, rfl, rfl, fun h3 => by simp only at h3; omega⟩
  refine Post.bind Post.triv fun a _ => ?_
  refine Post.ite (fun h => Post.fail) fun _ => ?_
  exact Post.bind Post.triv fun _ _ => Post.pure ⟨rfl, rfl, rfl, fun h3 => by simp only at h3; omega⟩

/-- The invariant of the element loop. -/
def PreOk (n i : Nat) (d : Dec) : Prop :=
  d.numElem = n ∧ ∀ j < i, ∀ a ∈ d.elems[j]?, a.kind = 3 → a.extType = 3 → j = 0

theorem preOk_set {n i : Nat} {d d' : Dec} {e : Elem} (h : PreOk n i d) (hn : d'.numElem = n)
    (hd : d'.elems = d.elems.set i e) (he : e.kind = 3 → e.extType = 3 → i = 0) : PreOk n (i + 1) d' := by
  refine ⟨hn, fun j hj a ha hk ht => ?_⟩
  rw [hd] at ha
  by_cases hji : j = i
  · subst hji
    rw [Option.mem_def, List.getElem?_set] at ha
    simp only [if_true] at ha
    split at ha
    · cases ha; exact he hk ht
    · cases ha
  · rw [Option.mem_def, List.getElem?_set_ne (by omega)] at ha
    exact h.2 j (by omega) a ha hk ht

theorem element_preOk (sub : Sub) (g : Sig) (n i : Nat) (d : Dec) (h : PreOk n i d) :
    Post 0 (element sub g i d) (PreOk n (i + 1)) := by
  unfold element
  refine Post.bind Post.triv fun e _ => ?_
  refine Post.bind Post.triv fun kind _ => ?_
  refine Post.ite (fun h3 => ?_) fun h3 => ?_
  · refine Post.bind (extElement_post _ _ _ _ _) fun r hr => ?_
    refine Post.bind Post.setAt fun t ht => Post.pure ?_
    obtain ⟨h1, h2, h4, h5⟩ := hr
    exact preOk_set h (by simp only [h4]; exact h.1) (by simp only [ht.1, h2]) fun _ he => h5 he
  refine Post.ite (fun h2 => ?_) fun h2 => ?_
  · refine Post.bind Post.setAt fun t ht => Post.pure ?_
    exact preOk_set h h.1 ht.1 fun hk _ => absurd hk h3
  refine Post.ite (fun h1 => ?_) fun h1 => ?_
  · have hk : Post 0 (cpeConfig (g.ch + g.obj + g.hoa) { e with kind } d.chns) (fun r => r.1.kind = kind) := by
      unfold cpeConfig tools
      refine Post.bind (R := fun x => x.kind = kind) ?_ fun x hx => ?_
      · refine Post.bind Post.triv fun _ _ => ?_
        refine Post.ite (fun _ => Post.fail) fun _ => ?_
        refine Post.bind Post.triv fun _ _ => ?_
        refine Post.bind Post.triv fun _ _ => ?_
        refine Post.bind Post.triv fun _ _ => ?_
        exact Post.bind Post.triv fun _ _ => Post.pure rfl
      refine Post.bind Post.triv fun _ _ => ?_
      refine Post.ite (fun _ => Post.fail) fun _ => ?_
      refine Post.bind Post.triv fun _ _ => ?_
      refine Post.ite (fun _ => Post.fail) fun _ => ?_
      refine Post.bind Post.triv fun _ _ => ?_
      refine Post.bind Post.triv fun _ _ => ?_
      refine Post.bind Post.triv fun _ _ => ?_
      refine Post.ite (fun _ => Post.fail) fun _ => ?_
      exact Post.bind Post.triv fun _ _ => Post.pure hx
    refine Post.bind hk fun r hr => ?_
    refine Post.bind Post.setAt fun t ht => Post.pure ?_
    exact preOk_set h h.1 ht.1 fun hk _ => by rw [hr] at hk; exact absurd hk h3
  · have hk : Post 0 (tools 13 { e with kind }) (fun r => r.kind = kind) := by
      unfold tools
      refine Post.bind Post.triv fun _ _ => ?_
      refine Post.ite (fun _ => Post.fail) fun _ => ?_
      refine Post.bind Post.triv fun _ _ => ?_
      refine Post.bind Post.triv fun _ _ => ?_
      refine Post.bind Post.triv fun _ _ => ?_
      exact Post.bind Post.triv fun _ _ => Post.pure rfl
    refine Post.bind hk fun r hr => ?_
    refine Post.bind Post.setAt fun t ht => Post.pure ?_
    exact preOk_set h h.1 ht.1 fun hk _ => by rw [hr] at hk; exact absurd hk h3

/-- **C90, the part that holds.** A pre-roll element is only accepted as the first element, so there is at
most one.  Missing: loudness control elements. -/
theorem C90_preroll_partial (sub : Sub) (g : Sig) (d d' : Dec) (l l' : List Bool)
    (h : run (decoderConfig sub g d) l = .ok (d', l')) :
    ∀ i < d'.numElem, ∀ a ∈ d'.elems[i]?, a.kind = 3 → a.extType = 3 → i = 0 := by
  have : Post 0 (decoderConfig sub g d) (fun d' => PreOk d'.numElem d'.numElem d') := by
    unfold decoderConfig
    refine Post.bind Post.triv fun n _ => ?_
    refine Post.ite (fun _ => Post.fail) fun _ => ?_
    refine Post.bind Post.triv fun lp _ => ?_
    refine (Post.foldN (PreOk (n + 1)) (n + 1) 0 _ ⟨rfl, by simp⟩ fun j t _ _ ht => element_preOk sub g _ j t ht).mono
      fun d' hd => ?_
    rw [Nat.zero_add] at hd
    rw [hd.1]
    exact hd
  exact (this l d' l' h (Nat.zero_le _)).2

example : (run (decoderConfig noSub ⟨1, 0, 0, 0, 1⟩ Dec.zero)
      (esc 4 8 16 1 ++ natBits 1 0 ++ (natBits 2 3 ++ extHead 3 0 none 0) ++ sce)).map
      (fun r => (r.1.preroll, r.1.numElem)) = .ok (1, 2) ∧
    (run (decoderConfig noSub ⟨1, 0, 0, 0, 1⟩ Dec.zero)
      (esc 4 8 16 1 ++ natBits 1 0 ++ sce ++ (natBits 2 3 ++ extHead 3 0 none 0))).map
      (fun r => r.1.preroll) = .err errExt := by decide +kernel

/-! ## C91: group information -/

/-- Priority and fixed position of each group. -/
def groupInfo (ps : List (Nat × Nat)) : List Bool := ps.flatMap fun p => natBits 3 p.1 ++ natBits 1 p.2

/-- The claim C91: the entries of the `n` groups are read, and no more. -/
def GroupInfo : Prop :=
  ∀ (ps : List (Nat × Nat)) (t : List Nat × List Nat) (l : List Bool), ps.length ≤ 16 → t.1.length = 32 →
    t.2.length = 32 → (∀ p ∈ ps, p.1 < 8 ∧ p.2 < 2) →
    run (sigGroupInfo ps.length t) (groupInfo ps ++ l) =
      .ok ((ps.map Prod.fst ++ t.1.drop ps.length, ps.map Prod.snd ++ t.2.drop ps.length), l)

/-- **C91, refuted.** The loop reads one entry too many: four bits of what follows, or the end of the data. -/
theorem C91_refuted : ¬ GroupInfo := by
  intro H
  have := H [(5, 1)] (List.replicate 32 0, List.replicate 32 0) [] (by decide) rfl rfl (by decide)
  revert this
  decide +kernel

theorem run_infoLoop (ps : List (Nat × Nat)) (hp : ∀ p ∈ ps, p.1 < 8 ∧ p.2 < 2) (i : Nat) (t : List Nat × List Nat)
    (h1 : i + ps.length ≤ t.1.length) (h2 : i + ps.length ≤ t.2.length) (l : List Bool) :
    run (foldN (fun i (t : List Nat × List Nat) => do
        let p ← bits 3
        let a ← setAt t.1 i p
        let f ← bits 1
        let b ← setAt t.2 i f
        pure (a, b)) ps.length i t) (groupInfo ps ++ l) =
      .ok ((t.1.take i ++ ps.map Prod.fst ++ t.1.drop (i + ps.length),
        t.2.take i ++ ps.map Prod.snd ++ t.2.drop (i + ps.length)), l) := by
  induction ps generalizing i t with
  | nil =>
    simp [foldN, groupInfo]
  | cons p ps ih =>
    obtain ⟨hp1, hp2⟩ := hp p (by simp)
    simp only [List.length_cons] at h1 h2
    have e : groupInfo (p :: ps) ++ l = natBits 3 p.1 ++ (natBits 1 p.2 ++ (groupInfo ps ++ l)) := by
      simp [groupInfo]
    rw [e]
    simp only [List.length_cons, foldN]
    rw [run_bind, run_bits_bind 3 p.1 _ _ (by decide) (by omega), run_bind, run_setAt _ _ _ _ (by omega)]
    simp only [Res.ok_bind]
    rw [run_bits_bind 1 p.2 _ _ (by decide) (by omega), run_bind, run_setAt _ _ _ _ (by omega)]
    simp only [Res.ok_bind, run_pure]
    rw [ih (fun q hq => hp q (by simp [hq])) (i + 1) _ (by simp; omega) (by simp; omega)]
    have hs : ∀ (x : List Nat) (v : Nat) (m : List Nat) (k : Nat), i < x.length →
        (x.set i v).take (i + 1) ++ m ++ (x.set i v).drop (i + 1 + k) = x.take i ++ v :: m ++ x.drop (i + (k + 1)) := by
      intro x v m k hi
      rw [List.take_set, List.drop_set, if_pos (by omega)]
      have : (x.take (i + 1)).set i v = x.take i ++ [v] := by
        rw [List.take_succ_eq_append_getElem hi, List.set_append, if_neg (by simp)]
        simp [Nat.min_eq_left (Nat.le_of_lt hi)]
      rw [this, show i + 1 + k = i + (k + 1) by omega]
      simp
    rw [hs _ _ _ _ (by omega), hs _ _ _ _ (by omega)]
    simp

/-- **C91, the part that holds.** If four more bits follow, the entries of the groups are read correctly.
Missing: the four bits are taken as well, and one more entry is overwritten. -/
theorem C91_entries_partial (ps : List (Nat × Nat)) (t : List Nat × List Nat) (p f : Nat) (l : List Bool)
    (hn : ps.length ≤ 16) (h1 : t.1.length = 32) (h2 : t.2.length = 32) (hp : ∀ p ∈ ps, p.1 < 8 ∧ p.2 < 2)
    (hp' : p < 8) (hf : f < 2) : ∃ r, run (sigGroupInfo ps.length t) (groupInfo ps ++ (groupInfo [(p, f)] ++ l)) =
      .ok (r, l) ∧ r.1.take ps.length = ps.map Prod.fst ∧ r.2.take ps.length = ps.map Prod.snd := by
  have h := run_infoLoop (ps ++ [(p, f)]) (by
    intro q hq
    rcases List.mem_append.mp hq with hq | hq
    · exact hp q hq
    · simp at hq; subst hq; exact ⟨hp', hf⟩) 0 t (by simp; omega) (by simp; omega) l
  have e : groupInfo (ps ++ [(p, f)]) ++ l = groupInfo ps ++ (groupInfo [(p, f)] ++ l) := by
    simp [groupInfo]
  rw [e, show (ps ++ [(p, f)]).length = ps.length + 1 by simp] at h
  exact ⟨_, h, by simp, by simp⟩

example : ∃ ps : List (Nat × Nat), ps.length ≤ 16 ∧ (∀ p ∈ ps, p.1 < 8 ∧ p.2 < 2) ∧ ps ≠ [] := ⟨[(5, 1), (7, 0)], by decide⟩

/-! ## C92: switch groups need element lengths -/

/-- The claim C92: a scene with switch groups is only accepted if element lengths are present. -/
def SwitchNeedsLengths : Prop :=
  ∀ (sub : Sub) (user : Nat) (l l' : List Bool) (c' : Cfg), run (configDec sub user Cfg.zero) l = .ok (c', l') →
    0 < c'.ext.switchGroups → c'.dec.lenPresent = 1

/-- **C92, refuted.** The number of switch groups is tested before the scene information is read. -/
theorem C92_refuted : ¬ SwitchNeedsLengths := by
  intro H
  have h : (run (configDec ⟨pure (), pure (), bits 5⟩ 0 Cfg.zero)
      (front 11 ++ objects 2 ++ oneElement sce ++ oneExt 3 1 (natBits 5 2 ++ natBits 3 0))).map
        (fun r => (r.1.ext.switchGroups, r.1.dec.lenPresent)) = .ok (2, 0) := by decide +kernel
  obtain ⟨c', l', hr, hc⟩ := of_map (f := fun c : Cfg => (c.ext.switchGroups, c.dec.lenPresent)) h
  simp only [Prod.mk.injEq] at hc
  have := H _ _ _ _ _ hr (by omega)
  omega

/-- **C92, the part that holds.** Switch groups known before the configuration is read (from a separate
packet) do make a stream without element lengths fail.  Missing: those in the configuration. -/
theorem C92_known_partial (sub : Sub) (lenPresent n layout len : Nat) (x : Ext) (l : List Bool)
    (hl : len ≤ 1536) (hx : 0 < x.switchGroups) (hp : lenPresent ≠ 1) :
    run (configExtension sub lenPresent n layout x) (esc 2 4 8 0 ++ (esc 4 8 16 3 ++ (esc 4 8 16 len ++ l))) =
      .err .initFatal := by
  rw [run_configExtension_one sub lenPresent n layout 3 len x l (by decide) (by simp [escapeMax]; omega),
    if_neg (by omega)]
  unfold extension
  simp [hx, hp]

example : ∃ x : Ext, 0 < x.switchGroups := ⟨{ Ext.zero with switchGroups := 1 }, by decide⟩

end Verif.Config
