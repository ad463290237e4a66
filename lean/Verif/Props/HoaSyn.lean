import Verif.Spec.HoaSyn
import Verif.Props.HoaAccess
import Mathlib.Tactic.Ring
import Mathlib.Tactic.Linarith

/-! # C240 to C247: synthesis of the coefficients -/

namespace Verif.Hoa

open Prog

variable {α : Type} [Field α]

/-! ## Sums -/

theorem sum_linear {β : Type} (l : List β) (a : α) (f g h : β → α) (e : ∀ b, f b = a * g b + h b) : (l.map f).sum = a * (l.map g).sum + (l.map h).sum := by
  induction l with
  | nil => simp
  | cons b l ih =>
    simp only [List.map_cons, List.sum_cons, e, ih]
    ring

theorem sum_zero {β : Type} (l : List β) (f : β → α) (e : ∀ b ∈ l, f b = 0) : (l.map f).sum = 0 := by
  induction l with
  | nil => rfl
  | cons b l ih =>
    rw [List.map_cons, List.sum_cons, e b List.mem_cons_self, ih (fun b h => e b (List.mem_cons_of_mem _ h)), add_zero]

theorem sum_one {β : Type} {l : List β} (hl : l.Nodup) {b : β} (hb : b ∈ l) (f : β → α) (e : ∀ x ∈ l, x ≠ b → f x = 0) : (l.map f).sum = f b := by
  induction l with
  | nil => cases hb
  | cons x l ih =>
    rw [List.nodup_cons] at hl
    rw [List.map_cons, List.sum_cons]
    rcases List.mem_cons.mp hb with rfl | h
    · rw [sum_zero l f (fun x h => e x (List.mem_cons_of_mem _ h) (fun k => hl.1 (k ▸ h))), add_zero]
    · rw [e x List.mem_cons_self (fun k => hl.1 (k ▸ h)), ih hl.2 h (fun x h => e x (List.mem_cons_of_mem _ h)), zero_add]

/-! ## C240: linear -/

/-- A map of signals to coefficients that is linear in every sample. -/
def Linear (F : (Nat → Nat → α) → Nat → Nat → α) : Prop := ∀ a x y k n, F (combined a x y) k n = a * F x k n + F y k n

theorem Linear.id : Linear (fun x : Nat → Nat → α => x) := fun _ _ _ _ _ => rfl

theorem Linear.zero : Linear (fun (_ : Nat → Nat → α) _ _ => (0 : α)) := by
  intro a x y k n
  show (0 : α) = a * 0 + 0
  ring

theorem Linear.add {F G : (Nat → Nat → α) → Nat → Nat → α} (hF : Linear F) (hG : Linear G) : Linear (fun x k n => F x k n + G x k n) := by
  intro a x y k n
  show F (combined a x y) k n + G (combined a x y) k n = a * (F x k n + G x k n) + (F y k n + G y k n)
  rw [hF, hG]
  ring

theorem Linear.comp {F G : (Nat → Nat → α) → Nat → Nat → α} (hF : Linear F) (hG : Linear G) : Linear (fun x => F (G x)) := by
  intro a x y k n
  have : G (combined a x y) = combined a (G x) (G y) := by
    funext k n
    exact hG a x y k n
  show F (G (combined a x y)) k n = _
  rw [this, hF]

theorem cleared_linear (c : Config) (s : Frame) : Linear (cleared (α := α) c s) := by
  intro a x y k n
  unfold cleared combined
  split
  · ring
  · rfl

theorem ambField_linear (u : Setup α) (c : Config) (f : Nat → Option Nat) : Linear (ambField u c f) := by
  intro a x y k n
  unfold ambField
  have key : ∀ j, ambIn f (combined a x y) j n = a * ambIn f x j n + ambIn f y j n := by
    intro j
    unfold ambIn
    cases f j with
    | none => simp
    | some ch => rfl
  simp only [key]
  split
  · apply sum_linear
    intro b
    ring
  · rfl

theorem dirField_linear (u : Setup α) (cur : Nat → Nat × Nat) (num : Nat) (last : Nat → Nat × Nat) (numLast : Nat) :
    Linear (fun x => dirField u x cur num last numLast) := by
  have key : ∀ (w : Nat → α) (d : Nat × Nat) (a : α) (x y : Nat → Nat → α) (k n : Nat), dirTerm u (combined a x y) w d k n = a * dirTerm u x w d k n + dirTerm u y w d k n := by
    intro w d a x y k n
    unfold dirTerm combined
    split
    · ring
    · ring
  intro a x y k n
  simp only [dirField]
  rw [sum_linear (List.range numLast) a _ _ _ (fun i => key _ _ a x y k n), sum_linear (List.range num) a _ _ _ (fun i => key _ _ a x y k n)]
  ring

theorem vecField_linear (u : Setup α) (c : Config) (set vecIdx prevSet : Nat → Nat) (old new : List (Nat × (Nat → α))) :
    Linear (fun x => vecField u c set vecIdx prevSet x old new) := by
  have key : ∀ (w : Nat → α) (v : Nat × (Nat → α)) (a : α) (x y : Nat → Nat → α) (k n : Nat), vecTerm (combined a x y) w v k n = a * vecTerm x w v k n + vecTerm y w v k n := by
    intro w d a x y k n
    unfold vecTerm combined
    ring
  intro a x y k n
  simp only [vecField]
  split
  · ring
  · rw [sum_linear old a _ _ _ (fun i => key _ _ a x y _ n), sum_linear new a _ _ _ (fun i => key _ _ a x y _ n)]
    ring

theorem fade_linear (win : Nat → α) (l : List Nat) : Linear (fade win l) := by
  induction l with
  | nil => exact Linear.id
  | cons i l ih =>
    have : fade win (i :: l) = fun x => fade win l ((fun x k n => if k + 1 = i then x k n * win n else x k n) x) := rfl
    rw [this]
    refine Linear.comp ih ?_
    intro a x y k n
    show (if k + 1 = i then combined a x y k n * win n else combined a x y k n) = a * (if k + 1 = i then x k n * win n else x k n) + (if k + 1 = i then y k n * win n else y k n)
    unfold combined
    split
    · ring
    · rfl

theorem predField_linear (u : Setup α) (c : Config) (p : Preds) (win : Nat → α) : Linear (predField u c p win) := by
  intro a x y k n
  unfold predField
  apply sum_linear
  intro d
  have : predSignal c p (combined a x y) d n = a * predSignal c p x d n + predSignal c p y d n := by
    unfold predSignal
    apply sum_linear
    intro r
    unfold combined
    ring
  rw [this]
  split
  · ring
  · ring

theorem Linear.ite {F G : (Nat → Nat → α) → Nat → Nat → α} {q : Prop} [Decidable q] (hF : Linear F) (hG : Linear G) : Linear (fun x => if q then F x else G x) := by
  by_cases h : q
  · simpa only [if_pos h] using hF
  · simpa only [if_neg h] using hG

theorem predPart_linear (u : Setup α) (c : Config) (p q : Preds) (on en dis : List Nat) : Linear (predPart u c p q on en dis) := by
  have hx : Linear (fun (sig : Nat → Nat → α) k n => if k + 1 ∈ on then 0 else if c.extra = 0 then 0 else predField u c p u.inDir sig k n + predField u c q u.outDir sig k n) := by
    intro a x y k n
    show (if k + 1 ∈ on then 0 else if c.extra = 0 then 0 else predField u c p u.inDir (combined a x y) k n + predField u c q u.outDir (combined a x y) k n) = _
    show _ = a * (if k + 1 ∈ on then 0 else if c.extra = 0 then 0 else predField u c p u.inDir x k n + predField u c q u.outDir x k n) +
      (if k + 1 ∈ on then 0 else if c.extra = 0 then 0 else predField u c p u.inDir y k n + predField u c q u.outDir y k n)
    rw [predField_linear, predField_linear]
    split
    · ring
    · split
      · ring
      · ring
  have hy := Linear.ite (q := c.extra ≠ 0 ∧ predicted c p = true) (Linear.comp (fade_linear u.outDir en) hx) hx
  exact Linear.ite (q := c.extra ≠ 0 ∧ predicted c q = true) (Linear.comp (fade_linear u.inDir dis) hy) hy

theorem vecPart_linear (u : Setup α) (c : Config) (s : Frame) (vs : List (Nat × (Nat → α))) (y : Syn α) : Linear (vecPart u c s vs y) := by
  have h := vecField_linear u c (soundSet ((directions c s).map Prod.snd) (vs.map Prod.fst)) (storeVecs vs y.vecIdx) y.prevSet y.prevVecs vs
  exact Linear.ite (q := c.vecKind = 1) (Linear.comp (fade_linear u.inDir (sortSet (inState c s 2))) (Linear.comp (fade_linear u.outDir (sortSet (inState c s 1))) h)) h

theorem synth_ok {u : Setup α} {c : Config} {s : Frame} {vs : List (Nat × (Nat → α))} {y z : Syn α} {x o : Nat → Nat → α} :
    synth u c s vs y x = .ok (o, z) ↔ ∃ f, reassign (assign c s y.assigned) c.transport 0 (fun _ => none) = .ok f ∧ outside c s y = false ∧
      o = outField u c s vs y f x ∧ z = keepSyn c s vs y := by
  unfold synth
  rw [Res.bind_eq_ok]
  constructor
  · rintro ⟨f, h1, h2⟩
    split at h2
    · cases h2
    · rename_i h
      simp only [Res.ok.injEq, Prod.mk.injEq] at h2
      exact ⟨f, h1, by simpa using h, h2.1.symm, h2.2.symm⟩
  · rintro ⟨f, h1, h2, rfl, rfl⟩
    exact ⟨f, h1, by rw [if_neg (by rw [h2]; exact Bool.false_ne_true)]⟩

theorem outField_linear (u : Setup α) (c : Config) (s : Frame) (vs : List (Nat × (Nat → α))) (y : Syn α) (f : Nat → Option Nat) : Linear (outField u c s vs y f) :=
  Linear.add (Linear.comp (vecPart_linear u c s vs y) (cleared_linear c s)) (Linear.add (Linear.add (ambField_linear u c f)
    (Linear.comp (predPart_linear u c (sidePreds c s y.preds) y.lastPreds (sortSet (inState c s 0)) (sortSet (inState c s 1)) (sortSet (inState c s 2))) (cleared_linear c s)))
    (Linear.comp (dirField_linear u (storeDirs c s y.active) (directions c s).length y.last y.numLast) (cleared_linear c s)))

/-- **C240** For a given frame and past, the coefficients are a linear function of the signals of the channels, and what is kept does not depend on the signals. -/
theorem C240_linear (u : Setup α) (c : Config) (s : Frame) (vs : List (Nat × (Nat → α))) (y : Syn α) {x x' : Nat → Nat → α} {o o' : Nat → Nat → α} {z z' : Syn α}
    (h : synth u c s vs y x = .ok (o, z)) (h' : synth u c s vs y x' = .ok (o', z')) (a : α) :
    z = z' ∧ synth u c s vs y (combined a x x') = .ok (combined a o o', z) := by
  obtain ⟨f, h1, h2, rfl, rfl⟩ := synth_ok.mp h
  obtain ⟨g, g1, g2, rfl, rfl⟩ := synth_ok.mp h'
  rw [h1] at g1
  cases g1
  refine ⟨rfl, synth_ok.mpr ⟨f, h1, h2, ?_, rfl⟩⟩
  funext k n
  exact (outField_linear u c s vs y f a x x' k n).symm

/-! ## C241: directions -/

/-- The channels with a direction. -/
def dirChans (c : Config) (s : Frame) : List Nat := (List.range c.extra).filter (fun ch => decide (s.ctype ch = 0))

theorem directions_eq (c : Config) (s : Frame) : directions c s = (dirChans c s).map (fun ch => (s.dirId ch, ch + 1)) := rfl

theorem dirChans_nodup (c : Config) (s : Frame) : (dirChans c s).Nodup := List.nodup_range.filter _

theorem mem_dirChans {c : Config} {s : Frame} {ch : Nat} : ch ∈ dirChans c s ↔ ch < c.extra ∧ s.ctype ch = 0 := by
  simp [dirChans]

/-- The entries of a list of directions. -/
def Entries (c : Config) (s : Frame) (l : Nat → Nat × Nat) : Prop := ∀ i, (h : i < (directions c s).length) → l i = (directions c s)[i]

theorem storeDirs_entries (c : Config) (s : Frame) (old : Nat → Nat × Nat) : Entries c s (storeDirs c s old) := by
  intro i h
  unfold storeDirs
  exact List.getD_eq_getElem _ _ h

theorem keepSyn_entries (c : Config) (s : Frame) (vs : List (Nat × (Nat → α))) (y : Syn α) : Entries c s (keepSyn c s vs y).last := by
  intro i h
  show (if i < (directions c s).length then storeDirs c s y.active i else y.last i) = _
  rw [if_pos h, storeDirs_entries c s y.active i h]

theorem findCh_entries {c : Config} {s : Frame} {l : Nat → Nat × Nat} (hl : Entries c s l) {ch : Nat} (h : ch ∈ dirChans c s) :
    l (findCh l (directions c s).length (ch + 1)) = (s.dirId ch, ch + 1) := by
  have hm : (s.dirId ch, ch + 1) ∈ directions c s := by
    rw [directions_eq]
    exact List.mem_map_of_mem h
  obtain ⟨i, hi, he⟩ := List.getElem_of_mem hm
  unfold findCh
  cases hf : (List.range (directions c s).length).find? (fun i => decide ((l i).2 = ch + 1)) with
  | none =>
    rw [List.find?_eq_none] at hf
    have := hf i (List.mem_range.mpr hi)
    rw [hl i hi, he] at this
    simp at this
  | some j =>
    have h1 := List.find?_some hf
    have h2 := List.mem_range.mp (List.mem_of_find?_eq_some hf)
    simp only [decide_eq_true_eq] at h1
    show l j = _
    rw [hl j h2] at h1 ⊢
    have h3 : (directions c s)[j] ∈ (dirChans c s).map (fun ch => (s.dirId ch, ch + 1)) := List.getElem_mem h2
    rw [List.mem_map] at h3
    obtain ⟨ch', h4, h5⟩ := h3
    have h6 : (directions c s)[j] = (s.dirId ch', ch' + 1) := h5.symm
    rw [h6] at h1 ⊢
    simp only at h1
    have : ch' = ch := by omega
    rw [this]

theorem sum_entries {c : Config} {s : Frame} {l : Nat → Nat × Nat} (hl : Entries c s l) (f : Nat × Nat → α) :
    ((List.range (directions c s).length).map (fun i => f (l i))).sum = ((dirChans c s).map (fun ch => f (s.dirId ch, ch + 1))).sum := by
  have : (List.range (directions c s).length).map (fun i => f (l i)) = (directions c s).map f := by
    apply List.ext_getElem
    · simp
    · intro i h1 h2
      simp only [List.getElem_map, List.getElem_range]
      rw [hl i (by simpa using h1)]
  rw [this, directions_eq, List.map_map]
  rfl

/-- The directions of a frame after another one, channel by channel. -/
theorem dirPart_sum (u : Setup α) (c : Config) (s0 s : Frame) (vs : List (Nat × (Nat → α))) (y : Syn α) (x : Nat → Nat → α) (k n : Nat) :
    dirPart u c s (keepSyn c s0 vs y) x k n =
      ((dirChans c s0).map (fun ch => dirTerm u x (dirWin (storeDirs c s (storeDirs c s0 y.active)) (directions c s).length u.outDir (ch + 1)) (s0.dirId ch, ch + 1) k n)).sum +
      ((dirChans c s).map (fun ch => dirTerm u x (dirWin (keepSyn c s0 vs y).last (directions c s0).length u.inDir (ch + 1)) (s.dirId ch, ch + 1) k n)).sum := by
  unfold dirPart dirField
  show ((List.range (directions c s0).length).map _).sum + ((List.range (directions c s).length).map _).sum = _
  congr 1
  · exact sum_entries (keepSyn_entries c s0 vs y) (fun d => dirTerm u x (dirWin (storeDirs c s (storeDirs c s0 y.active)) (directions c s).length u.outDir d.2) d k n)
  · exact sum_entries (storeDirs_entries c s (storeDirs c s0 y.active)) (fun d => dirTerm u x (dirWin (keepSyn c s0 vs y).last (directions c s0).length u.inDir d.2) d k n)

theorem dirTerm_only_other (u : Setup α) (sig : Nat → Nat → α) (w : Nat → α) {ch j d : Nat} (h : j ≠ ch) (k n : Nat) : dirTerm u (only (ch + 1) sig) w (d, j + 1) k n = 0 := by
  unfold dirTerm only
  split
  · rfl
  · rw [if_neg (by simp only [Nat.add_sub_cancel]; omega)]
    ring

theorem dirTerm_only_same (u : Setup α) (sig : Nat → Nat → α) (w : Nat → α) {ch d : Nat} (h : d ≠ 0) (k n : Nat) :
    dirTerm u (only (ch + 1) sig) w (d, ch + 1) k n = sig ch n * u.grid (d - 1) k * w n := by
  unfold dirTerm only
  rw [if_neg h, if_pos (by simp only [Nat.add_sub_cancel])]
  rfl

theorem dirWin_entries {c : Config} {s : Frame} {l : Nat → Nat × Nat} (hl : Entries c s l) {ch : Nat} (h : ch ∈ dirChans c s) (hd : s.dirId ch ≠ 0) (win : Nat → α) :
    dirWin l (directions c s).length win (ch + 1) = win := by
  unfold dirWin
  rw [findCh_entries hl h, if_pos hd]

/-- **C241** A channel with a direction in two frames: the old direction is faded out and the new one faded in, whatever was before. -/
theorem C241_change (u : Setup α) (c : Config) (s0 s : Frame) (vs : List (Nat × (Nat → α))) (y : Syn α) (sig : Nat → Nat → α) {ch : Nat} (hch : ch < c.extra)
    (h0 : s0.ctype ch = 0) (h1 : s.ctype ch = 0) (d0 : s0.dirId ch ≠ 0) (d1 : s.dirId ch ≠ 0) (k n : Nat) :
    dirPart u c s (keepSyn c s0 vs y) (only (ch + 1) sig) k n = sig ch n * (u.grid (s0.dirId ch - 1) k * u.outDir n + u.grid (s.dirId ch - 1) k * u.inDir n) := by
  have m0 : ch ∈ dirChans c s0 := mem_dirChans.mpr ⟨hch, h0⟩
  have m1 : ch ∈ dirChans c s := mem_dirChans.mpr ⟨hch, h1⟩
  rw [dirPart_sum, sum_one (dirChans_nodup c s0) m0 _ (fun j _ hj => dirTerm_only_other u sig _ hj k n),
    sum_one (dirChans_nodup c s) m1 _ (fun j _ hj => dirTerm_only_other u sig _ hj k n), dirTerm_only_same u sig _ d0, dirTerm_only_same u sig _ d1,
    dirWin_entries (storeDirs_entries c s _) m1 d1, dirWin_entries (keepSyn_entries c s0 vs y) m0 d0]
  ring

/-- **C241** A direction that stays in its channel keeps its level. -/
theorem C241_steady (u : Setup α) (c : Config) (hu : AddUp u c) (s0 s : Frame) (vs : List (Nat × (Nat → α))) (y : Syn α) (sig : Nat → Nat → α) {ch : Nat} (hch : ch < c.extra)
    (h0 : s0.ctype ch = 0) (h1 : s.ctype ch = 0) (d1 : s.dirId ch ≠ 0) (he : s0.dirId ch = s.dirId ch) (k n : Nat) :
    dirPart u c s (keepSyn c s0 vs y) (only (ch + 1) sig) k n = sig ch n * u.grid (s.dirId ch - 1) k := by
  rw [C241_change u c s0 s vs y sig hch h0 h1 (he ▸ d1) d1, he]
  calc sig ch n * (u.grid (s.dirId ch - 1) k * u.outDir n + u.grid (s.dirId ch - 1) k * u.inDir n)
      = sig ch n * u.grid (s.dirId ch - 1) k * (u.inDir n + u.outDir n) := by ring
    _ = _ := by rw [hu.dir n, mul_one]

/-- **C242** If the channels with directions are those of the frame before, what was before that has no influence on them. -/
theorem C242_same_partial (u : Setup α) (c : Config) (s0 s : Frame) (vs : List (Nat × (Nat → α))) (y y' : Syn α) (x : Nat → Nat → α)
    (h : ∀ ch < c.extra, (s0.ctype ch = 0 ↔ s.ctype ch = 0)) : dirPart u c s (keepSyn c s0 vs y) x = dirPart u c s (keepSyn c s0 vs y') x := by
  have hc : dirChans c s0 = dirChans c s := by
    apply List.filter_congr
    intro ch hch
    simp only [h ch (List.mem_range.mp hch)]
  funext k n
  rw [dirPart_sum, dirPart_sum]
  congr 1
  · congr 1
    apply List.map_congr_left
    intro ch hch
    unfold dirWin
    rw [findCh_entries (storeDirs_entries c s _) (hc ▸ hch), findCh_entries (storeDirs_entries c s _) (hc ▸ hch)]
  · congr 1
    apply List.map_congr_left
    intro ch hch
    unfold dirWin
    rw [findCh_entries (keepSyn_entries c s0 vs y) (hc ▸ hch), findCh_entries (keepSyn_entries c s0 vs y') (hc ▸ hch)]

/-! ## C244: vectors -/

theorem fade_other {win : Nat → α} {l : List Nat} {k : Nat} (h : k + 1 ∉ l) (x : Nat → Nat → α) (n : Nat) : fade win l x k n = x k n := by
  induction l generalizing x with
  | nil => rfl
  | cons i l ih =>
    rw [List.mem_cons, not_or] at h
    show fade win l (fun k n => if k + 1 = i then x k n * win n else x k n) k n = _
    rw [ih h.2, if_neg h.1]

theorem fade_one {win : Nat → α} {l : List Nat} (hl : l.Nodup) {k : Nat} (h : k + 1 ∈ l) (x : Nat → Nat → α) (n : Nat) : fade win l x k n = x k n * win n := by
  induction l generalizing x with
  | nil => cases h
  | cons i l ih =>
    rw [List.nodup_cons] at hl
    show fade win l (fun k n => if k + 1 = i then x k n * win n else x k n) k n = _
    rcases List.mem_cons.mp h with rfl | h
    · rw [fade_other hl.1, if_pos rfl]
    · rw [ih hl.2 h, if_neg (fun e : k + 1 = i => hl.1 (e ▸ h))]

theorem sortSet_nodup (l : List Nat) : (sortSet l).Nodup := (C232_sorted l).1.imp (fun h => Nat.ne_of_lt h)

theorem VecsOf.nodup {c : Config} {s : Frame} {vs : List (Nat × (Nat → α))} (h : VecsOf c s vs) : (vs.map Prod.fst).Nodup := by
  rw [h]
  exact (List.nodup_range.filter _).map (fun a b e => by simpa using e)

theorem VecsOf.length {c : Config} {s : Frame} {vs : List (Nat × (Nat → α))} (h : VecsOf c s vs) : vs.length ≤ c.extra := by
  have := congrArg List.length h
  rw [List.length_map, List.length_map] at this
  rw [this]
  exact le_trans (List.length_filter_le _ _) (by simp)

theorem listed_of {l : Nat → Nat} {m : List Nat} (hm : m.length ≤ 16) (h : ∀ i, (hi : i < m.length) → l i = m[i]) {x : Nat} (hx : x ∈ m) : listed l x = true := by
  obtain ⟨i, hi, he⟩ := List.getElem_of_mem hx
  unfold listed
  rw [List.any_eq_true]
  exact ⟨i, List.mem_range.mpr (by omega), by simp [h i hi, he]⟩

theorem soundSet_vecs (dirs vecs : List Nat) (i : Nat) (hi : i < vecs.length) : soundSet dirs vecs i = vecs[i] := by
  unfold soundSet
  rw [if_pos hi, List.getD_eq_getElem _ _ hi]

theorem storeVecs_vecs (vs : List (Nat × (Nat → α))) (old : Nat → Nat) (i : Nat) (hi : i < (vs.map Prod.fst).length) : storeVecs vs old i = (vs.map Prod.fst)[i] :=
  List.getD_eq_getElem _ _ hi

/-- What is kept of a vector. -/
def kept (c : Config) (en : List Nat) (w : Nat → α) : Nat → α := fun e => if c.vecKind = 1 ∧ e + c.start + 1 ∈ en then 0 else w e

theorem keepVecs_eq (c : Config) (en : List Nat) (vs : List (Nat × (Nat → α))) : keepVecs c en vs = vs.map (fun v => (v.1, kept c en v.2)) := by
  unfold keepVecs
  split
  · rename_i h
    apply List.map_congr_left
    intro v _
    unfold kept
    simp [h]
  · rename_i h
    have : ∀ v : Nat × (Nat → α), (v.1, kept c en v.2) = v := by
      intro v
      unfold kept
      simp [h]
    simp only [this, List.map_id']

theorem vecTerm_only_other (sig : Nat → Nat → α) (w : Nat → α) {ch : Nat} {v : Nat × (Nat → α)} (h0 : 0 < v.1) (h : v.1 ≠ ch + 1) (e n : Nat) :
    vecTerm (only (ch + 1) sig) w v e n = 0 := by
  unfold vecTerm only
  rw [if_neg (by omega)]
  ring

theorem vecTerm_only_same (sig : Nat → Nat → α) (w : Nat → α) (ch : Nat) (v : Nat → α) (e n : Nat) : vecTerm (only (ch + 1) sig) w (ch + 1, v) e n = v e * w n * sig ch n := by
  unfold vecTerm only
  rw [if_pos (by simp only [Nat.add_sub_cancel])]
  rfl

theorem VecsOf.pos {c : Config} {s : Frame} {vs : List (Nat × (Nat → α))} (h : VecsOf c s vs) {v : Nat × (Nat → α)} (hv : v ∈ vs) : 0 < v.1 := by
  have : v.1 ∈ vs.map Prod.fst := List.mem_map_of_mem hv
  rw [h, List.mem_map] at this
  obtain ⟨a, -, ha⟩ := this
  omega

theorem VecsOf.sum {c : Config} {s : Frame} {vs : List (Nat × (Nat → α))} (h : VecsOf c s vs) {ch : Nat} {v : Nat → α} (hv : (ch + 1, v) ∈ vs) (f : Nat × (Nat → α) → α)
    (hf : ∀ w ∈ vs, w.1 ≠ ch + 1 → f w = 0) : (vs.map f).sum = f (ch + 1, v) := by
  refine sum_one (List.Nodup.of_map _ h.nodup) hv f (fun w hw hne => hf w hw (fun e => hne ?_))
  exact List.inj_on_of_nodup_map h.nodup hw hv e

/-- The sets that a frame keeps list the channels of its vectors. -/
theorem VecsOf.listed {c : Config} (h16 : c.extra ≤ 16) {s : Frame} {vs : List (Nat × (Nat → α))} (h : VecsOf c s vs) {ch : Nat} {v : Nat → α} (hv : (ch + 1, v) ∈ vs)
    (dirs : List Nat) (old : Nat → Nat) : Hoa.listed (soundSet dirs (vs.map Prod.fst)) (ch + 1) = true ∧ Hoa.listed (storeVecs vs old) (ch + 1) = true := by
  have hl : (vs.map Prod.fst).length ≤ 16 := by
    rw [List.length_map]
    exact le_trans h.length h16
  have hm : ch + 1 ∈ vs.map Prod.fst := List.mem_map.mpr ⟨_, hv, rfl⟩
  exact ⟨listed_of hl (soundSet_vecs _ _) hm, listed_of hl (storeVecs_vecs vs old) hm⟩

theorem vecField_two (u : Setup α) (c : Config) (h16 : c.extra ≤ 16) (s0 s : Frame) {vs0 vs : List (Nat × (Nat → α))} (e0 : VecsOf c s0 vs0) (e1 : VecsOf c s vs) (y : Syn α)
    (sig : Nat → Nat → α) {ch : Nat} {v0 v : Nat → α} (m0 : (ch + 1, v0) ∈ vs0) (m1 : (ch + 1, v) ∈ vs) {k : Nat} (hk : c.start ≤ k) (n : Nat) :
    vecField u c (soundSet ((directions c s).map Prod.snd) (vs.map Prod.fst)) (storeVecs vs (keepSyn c s0 vs0 y).vecIdx) (keepSyn c s0 vs0 y).prevSet (only (ch + 1) sig)
      (keepSyn c s0 vs0 y).prevVecs vs k n =
      sig ch n * (kept c (sortSet (inState c s0 1)) v0 (k - c.start) * (if n < c.interpTime then u.outVec n else 0) + v (k - c.start) * u.inVec n) := by
  unfold vecField
  rw [if_neg (by omega)]
  show ((keepVecs c (sortSet (inState c s0 1)) vs0).map _).sum + _ = _
  rw [keepVecs_eq, List.map_map, e0.sum m0 _ (fun w hw hne => by
      have hp : 0 < w.1 := e0.pos hw
      simp only [Function.comp]
      exact vecTerm_only_other (v := (w.1, kept c (sortSet (inState c s0 1)) w.2)) sig _ hp hne _ n),
    e1.sum m1 _ (fun w hw hne => vecTerm_only_other sig _ (e1.pos hw) hne _ n)]
  simp only [Function.comp]
  rw [vecTerm_only_same, vecTerm_only_same]
  unfold oldWin newWin
  rw [if_pos (e1.listed h16 m1 _ (fun _ => 0)).1, if_pos (e1.listed h16 m1 [] _).2,
    show (keepSyn c s0 vs0 y).prevSet = soundSet ((directions c s0).map Prod.snd) (vs0.map Prod.fst) from rfl, if_pos (e0.listed h16 m0 _ (fun _ => 0)).1]
  ring

/-- **C244** A channel with a vector in two frames: up to the time of interpolation the old vector is faded out, and the new one is faded in.  The coefficient is not one that the
ambience starts or ends to send. -/
theorem C244_change (u : Setup α) (c : Config) (h16 : c.extra ≤ 16) (s0 s : Frame) {vs0 vs : List (Nat × (Nat → α))} (e0 : VecsOf c s0 vs0) (e1 : VecsOf c s vs) (y : Syn α)
    (sig : Nat → Nat → α) {ch : Nat} {v0 v : Nat → α} (m0 : (ch + 1, v0) ∈ vs0) (m1 : (ch + 1, v) ∈ vs) {k : Nat} (hk : c.start ≤ k)
    (h0 : k + 1 ∉ inState c s0 1) (h1 : k + 1 ∉ inState c s 1) (h2 : k + 1 ∉ inState c s 2) (n : Nat) :
    vecPart u c s vs (keepSyn c s0 vs0 y) (only (ch + 1) sig) k n =
      sig ch n * (v0 (k - c.start) * (if n < c.interpTime then u.outVec n else 0) + v (k - c.start) * u.inVec n) := by
  have hv := vecField_two u c h16 s0 s e0 e1 y sig m0 m1 hk n
  have hk0 : kept c (sortSet (inState c s0 1)) v0 (k - c.start) = v0 (k - c.start) := by
    unfold kept
    rw [if_neg]
    rw [show k - c.start + c.start + 1 = k + 1 by omega, (C232_sorted _).2]
    exact fun h => h0 h.2
  rw [hk0] at hv
  unfold vecPart
  split
  · rw [fade_other (fun h => h2 (((C232_sorted _).2 _).mp h)), fade_other (fun h => h1 (((C232_sorted _).2 _).mp h))]
    exact hv
  · exact hv

/-- **C244** A vector that stays in its channel keeps its level. -/
theorem C244_steady (u : Setup α) (c : Config) (hu : AddUp u c) (h16 : c.extra ≤ 16) (s0 s : Frame) {vs0 vs : List (Nat × (Nat → α))} (e0 : VecsOf c s0 vs0) (e1 : VecsOf c s vs) (y : Syn α)
    (sig : Nat → Nat → α) {ch : Nat} {v : Nat → α} (m0 : (ch + 1, v) ∈ vs0) (m1 : (ch + 1, v) ∈ vs) {k : Nat} (hk : c.start ≤ k)
    (h0 : k + 1 ∉ inState c s0 1) (h1 : k + 1 ∉ inState c s 1) (h2 : k + 1 ∉ inState c s 2) (n : Nat) :
    vecPart u c s vs (keepSyn c s0 vs0 y) (only (ch + 1) sig) k n = sig ch n * v (k - c.start) := by
  rw [C244_change u c h16 s0 s e0 e1 y sig m0 m1 hk h0 h1 h2]
  calc _ = sig ch n * v (k - c.start) * (u.inVec n + (if n < c.interpTime then u.outVec n else 0)) := by ring
    _ = _ := by rw [hu.vec n, mul_one]

/-- **C244** For vectors without elements of the coefficients that the ambience sends (kind 1): a coefficient that the ambience starts to send is faded out of the vectors, and is not in
the old vector in the next frame; one that it ends to send is faded in, from the new vector only. -/
theorem C244_handover (u : Setup α) (c : Config) (hc : c.vecKind = 1) (h16 : c.extra ≤ 16) (s0 s : Frame) {vs0 vs : List (Nat × (Nat → α))} (e0 : VecsOf c s0 vs0) (e1 : VecsOf c s vs)
    (y : Syn α) (sig : Nat → Nat → α) {ch : Nat} {v0 v : Nat → α} (m0 : (ch + 1, v0) ∈ vs0) (m1 : (ch + 1, v) ∈ vs) {k : Nat} (hk : c.start ≤ k) (n : Nat) :
    (k + 1 ∉ inState c s0 1 → k + 1 ∈ inState c s 1 → k + 1 ∉ inState c s 2 → vecPart u c s vs (keepSyn c s0 vs0 y) (only (ch + 1) sig) k n =
      sig ch n * (v0 (k - c.start) * (if n < c.interpTime then u.outVec n else 0) + v (k - c.start) * u.inVec n) * u.outDir n) ∧
    (k + 1 ∈ inState c s0 1 → k + 1 ∈ inState c s 2 → k + 1 ∉ inState c s 1 → vecPart u c s vs (keepSyn c s0 vs0 y) (only (ch + 1) sig) k n =
      sig ch n * (v (k - c.start) * u.inVec n) * u.inDir n) := by
  have hv := vecField_two u c h16 s0 s e0 e1 y sig m0 m1 hk n
  have hs : k - c.start + c.start + 1 = k + 1 := by omega
  constructor
  · intro h0 h1 h2
    have hk0 : kept c (sortSet (inState c s0 1)) v0 (k - c.start) = v0 (k - c.start) := by
      unfold kept
      rw [if_neg]
      rw [hs, (C232_sorted _).2]
      exact fun h => h0 h.2
    rw [hk0] at hv
    unfold vecPart
    rw [if_pos hc, fade_other (fun h => h2 (((C232_sorted _).2 _).mp h)), fade_one (sortSet_nodup _) (((C232_sorted _).2 _).mpr h1), hv]
  · intro h0 h1 h2
    have hk0 : kept c (sortSet (inState c s0 1)) v0 (k - c.start) = 0 := by
      unfold kept
      rw [if_pos]
      rw [hs, (C232_sorted _).2]
      exact ⟨hc, h0⟩
    rw [hk0] at hv
    unfold vecPart
    rw [if_pos hc, fade_one (sortSet_nodup _) (((C232_sorted _).2 _).mpr h1), fade_other (fun h => h2 (((C232_sorted _).2 _).mp h)), hv]
    ring

/-! ## Frames -/

theorem side_channels (root floor : α → α) (c : Config) (b : Books α) (o : Noms α) (s : Frame) (n ch : Nat) (vs : List (Nat × List α)) (new : Noms α) {vs' : List (Nat × List α)} {new' : Noms α}
    (h : sideVectors root floor c b o s n ch vs new = .ok (vs', new')) :
    vs'.map Prod.fst = vs.map Prod.fst ++ ((List.range' ch n).filter (fun x => decide (s.ctype x = 1))).map (· + 1) := by
  induction n generalizing ch vs new with
  | zero =>
    cases h
    simp
  | succ n ih =>
    unfold sideVectors at h
    rw [List.range'_succ, List.filter_cons]
    split at h
    · rename_i hc
      split at h
      · cases h
      · rw [Res.bind_eq_ok] at h
        obtain ⟨a, -, h⟩ := h
        rw [ih _ _ _ h]
        simp [hc]
    · rename_i hc
      rw [ih _ _ _ h]
      simp [hc]

/-- **C240** The coefficients of a frame are the sum of the vectors, the ambience, the predictions and the directions of the frame; what is kept is as in the theorems below. -/
theorem C240_parts {root floor : α → α} {b : Books α} {u : Setup α} {c : Config} {st st' : Stream α} {bits : List Bool} {sig out : Nat → Nat → α}
    (h : process root floor b u c st bits sig = .ok (out, st')) : ∃ (vs : List (Nat × (Nat → α))) (f : Nat → Option Nat) (rest : List Bool), (frame c st.frame).run bits = .ok (st'.frame, rest) ∧
      VecsOf c st'.frame vs ∧ reassign (assign c st'.frame st.syn.assigned) c.transport 0 (fun _ => none) = .ok f ∧ st'.syn = keepSyn c st'.frame vs st.syn ∧
      ∀ k n, out k n = vecPart u c st'.frame vs st.syn (cleared c st'.frame sig) k n + ambField u c f sig k n +
        predPart u c (sidePreds c st'.frame st.syn.preds) st.syn.lastPreds (sortSet (inState c st'.frame 0)) (sortSet (inState c st'.frame 1)) (sortSet (inState c st'.frame 2))
          (cleared c st'.frame sig) k n + dirPart u c st'.frame st.syn (cleared c st'.frame sig) k n := by
  unfold process at h
  rw [Res.bind_eq_ok] at h
  obtain ⟨⟨s, rest⟩, h0, h⟩ := h
  simp only at h
  split at h
  · cases h
  rw [Res.bind_eq_ok] at h
  obtain ⟨⟨vs, o⟩, h1, h⟩ := h
  simp only at h
  rw [Res.bind_eq_ok] at h
  obtain ⟨⟨out', y⟩, h2, h⟩ := h
  cases h
  obtain ⟨f, h3, -, rfl, rfl⟩ := synth_ok.mp h2
  refine ⟨vs.map (fun v => (v.1, fun e => v.2.getD e 0)), f, rest, h0, ?_, h3, rfl, fun k n => ?_⟩
  · unfold vectorsOf at h1
    rw [Res.bind_eq_ok] at h1
    obtain ⟨⟨vs2, new⟩, h4, h1⟩ := h1
    cases h1
    have := side_channels _ _ _ _ _ _ _ _ _ _ h4
    unfold VecsOf
    rw [List.map_map, show (Prod.fst ∘ fun v : Nat × List α => (v.1, fun e => v.2.getD e 0)) = Prod.fst from rfl, this, List.range_eq_range']
    rfl
  · unfold outField
    simp only
    ring

/-! ## C245: ambience -/

/-- **C245** A coefficient above the smallest ambience is the signal of the channel it is sent in, and 0 if it is not sent; the smallest ambience is the matrix applied to the last
channels.  No coefficient is sent in two channels or above 49. -/
theorem C245_ambience (u : Setup α) (c : Config) (hc : c.minCoeffs ≤ c.transport) (s : Frame) (old : Nat → Nat) (hmax : ∀ ch < c.transport, assign c s old ch ≤ 49)
    (hinj : ∀ x < c.transport, ∀ y < c.transport, assign c s old x ≠ 0 → assign c s old x = assign c s old y → x = y) :
    ∃ f, reassign (assign c s old) c.transport 0 (fun _ => none) = .ok f ∧ ∀ (sig : Nat → Nat → α) k n,
      (c.minCoeffs ≤ k → ∀ ch < c.transport, assign c s old ch = k + 1 → ambField u c f sig k n = sig ch n) ∧
      (c.minCoeffs ≤ k → (∀ ch < c.transport, assign c s old ch ≠ k + 1) → ambField u c f sig k n = 0) ∧
      (k < c.minCoeffs → ambField u c f sig k n = ((List.range c.minCoeffs).map (fun j => u.low k j * sig (c.extra + j) n)).sum) := by
  obtain ⟨f, h1, h2⟩ := C231_table_partial (assign c s old) c.transport hmax hinj
  refine ⟨f, h1, fun sig k n => ⟨fun hk ch hch he => ?_, fun hk h => ?_, fun hk => ?_⟩⟩
  · unfold ambField ambIn
    rw [if_neg (by omega), (h2 k ch).mpr ⟨hch, he⟩]
  · unfold ambField ambIn
    rw [if_neg (by omega)]
    cases hf : f k with
    | none => rfl
    | some ch => exact absurd ((h2 k ch).mp hf).2 (h ch ((h2 k ch).mp hf).1)
  · unfold ambField
    rw [if_pos hk]
    congr 1
    apply List.map_congr_left
    intro j hj
    have hj' := List.mem_range.mp hj
    have he : c.extra = c.transport - c.minCoeffs := rfl
    unfold ambIn
    rw [(h2 j (c.extra + j)).mpr ⟨by omega, by unfold assign; rw [if_pos (by omega), if_pos (by omega)]; omega⟩]

/-! ## C246: predictions -/

theorem predField_win (u : Setup α) (c : Config) (p : Preds) (win : Nat → α) (sig : Nat → Nat → α) (k n : Nat) :
    predField u c p win sig k n = win n * predField u c p (fun _ => 1) sig k n := by
  unfold predField
  have := sum_linear (List.range c.coeffs) (win n) (fun d => if p.kind d ≠ 0 then predSignal c p sig d n * win n * u.mode k d else 0)
    (fun d => if p.kind d ≠ 0 then predSignal c p sig d n * 1 * u.mode k d else 0) (fun _ => 0) (fun d => by
      split
      · ring
      · ring)
  rw [this, sum_zero _ _ (fun _ _ => rfl), add_zero]

/-- **C246** Predictions of the frame before are faded out and those of the frame faded in, for coefficients that the ambience does not send, start or end to send. -/
theorem C246_change (u : Setup α) (c : Config) (hc : c.extra ≠ 0) (p q : Preds) {on en dis : List Nat} {k : Nat} (h0 : k + 1 ∉ on) (h1 : k + 1 ∉ en) (h2 : k + 1 ∉ dis)
    (sig : Nat → Nat → α) (n : Nat) :
    predPart u c p q on en dis sig k n = u.inDir n * predField u c p (fun _ => 1) sig k n + u.outDir n * predField u c q (fun _ => 1) sig k n := by
  have hx : ∀ x : Nat → Nat → α, (if c.extra ≠ 0 ∧ predicted c p = true then fade u.outDir en x else x) k n = x k n := by
    intro x
    split
    · exact fade_other h1 x n
    · rfl
  unfold predPart
  split
  · rw [fade_other h2, hx, if_neg h0, predField_win u c p u.inDir, predField_win u c q u.outDir]
  · rw [hx, if_neg h0, predField_win u c p u.inDir, predField_win u c q u.outDir]

/-- **C246** Predictions that stay the same keep their level. -/
theorem C246_steady (u : Setup α) (c : Config) (hu : AddUp u c) (hc : c.extra ≠ 0) (p : Preds) {on en dis : List Nat} {k : Nat} (h0 : k + 1 ∉ on) (h1 : k + 1 ∉ en) (h2 : k + 1 ∉ dis)
    (sig : Nat → Nat → α) (n : Nat) : predPart u c p p on en dis sig k n = predField u c p (fun _ => 1) sig k n := by
  rw [C246_change u c hc p p h0 h1 h2, ← add_mul, hu.dir n, one_mul]

/-- **C246** A coefficient that the ambience sends without a change is not predicted. -/
theorem C246_sent (u : Setup α) (c : Config) (p q : Preds) {on en dis : List Nat} {k : Nat} (h0 : k + 1 ∈ on) (sig : Nat → Nat → α) (n : Nat) :
    predPart u c p q on en dis sig k n = 0 := by
  have hf : ∀ (win : Nat → α) (l : List Nat) (x : Nat → Nat → α), x k n = 0 → fade win l x k n = 0 := by
    intro win l
    induction l with
    | nil => exact fun x h => h
    | cons i l ih =>
      intro x h
      refine ih _ ?_
      show (if k + 1 = i then x k n * win n else x k n) = 0
      rw [h]
      split
      · ring
      · rfl
  unfold predPart
  have hx : (if k + 1 ∈ on then (0 : α) else if c.extra = 0 then 0 else predField u c p u.inDir sig k n + predField u c q u.outDir sig k n) = 0 := if_pos h0
  split
  · apply hf
    split
    · exact hf _ _ _ hx
    · exact hx
  · split
    · exact hf _ _ _ hx
    · exact hx

/-- **C247** If the missing signals of a prediction come last, it is the sum of all its signals times their factors. -/
theorem C247_signals_partial (c : Config) (p : Preds) (d : Nat) (h : ∀ r r', r < r' → r' < c.predSigs → p.ids r' d ≠ 0 → p.ids r d ≠ 0) (sig : Nat → Nat → α) (n : Nat) :
    predSignal c p sig d n = ((List.range c.predSigs).map (fun r => if p.ids r d = 0 then 0 else factor c (p.facts r d) * sig (p.ids r d - 1) n)).sum := by
  have hu : used c p d ≤ c.predSigs ∧ (∀ r < used c p d, p.ids r d ≠ 0) ∧ ∀ r, used c p d ≤ r → r < c.predSigs → p.ids r d = 0 := by
    unfold used
    cases hf : (List.range c.predSigs).find? (fun r => decide (p.ids r d = 0)) with
    | none =>
      rw [List.find?_eq_none] at hf
      refine ⟨le_refl _, fun r hr => ?_, fun r h1 h2 => absurd h1 (by simp only [Option.getD_none]; omega)⟩
      have := hf r (List.mem_range.mpr hr)
      simpa using this
    | some m =>
      have h1 := List.mem_range.mp (List.mem_of_find?_eq_some hf)
      have h2 := List.find?_some hf
      simp only [decide_eq_true_eq] at h2
      simp only [Option.getD_some]
      refine ⟨h1.le, fun r hr => ?_, fun r h3 h4 => ?_⟩
      · rw [List.find?_range_eq_some] at hf
        have := hf.2.2 r hr
        simpa using this
      · by_contra h5
        rcases Nat.lt_or_eq_of_le h3 with h6 | h6
        · exact h m r h6 h4 h5 h2
        · exact h5 (h6 ▸ h2)
  obtain ⟨h1, h2, h3⟩ := hu
  obtain ⟨m, hm⟩ := Nat.exists_eq_add_of_le h1
  unfold predSignal
  rw [hm, List.range_add, List.map_append, List.sum_append, List.map_map, sum_zero (List.range m) _ (fun i hi => by
    show (if p.ids (used c p d + i) d = 0 then (0 : α) else _) = 0
    rw [if_pos (h3 _ (by omega) (by have := List.mem_range.mp hi; omega))]), add_zero]
  congr 1
  apply List.map_congr_left
  intro r hr
  rw [if_neg (h2 r (List.mem_range.mp hr))]

/-! ## The hypotheses can be met -/

/-- Windows for the samples. -/
def ramps : Setup ℚ := ⟨fun n => if n < 256 then n / 256 else 1, fun n => 1 - n / 256, fun n => n / 1024, fun n => 1 - n / 1024, fun d k => d + k, fun _ _ => 1, fun k j => if k = j then 1 else 0⟩

theorem ramps_add : AddUp ramps order1 where
  dir n := by
    show (n : ℚ) / 1024 + (1 - n / 1024) = 1
    ring
  vec n := by
    show (if n < 256 then (n : ℚ) / 256 else 1) + (if n < 256 then 1 - (n : ℚ) / 256 else 0) = 1
    split <;> ring

/-- Two frames with directions in the first channel, two with vectors. -/
def dirFrame (d : Nat) : Frame := { Frame.zero with ctype := fun ch => if ch = 0 then 0 else 3, dirId := fun _ => d }
def vecFrame : Frame := { Frame.zero with ctype := fun ch => if ch = 0 then 1 else 3 }

example (y : Syn ℚ) (sig : Nat → Nat → ℚ) : dirPart ramps order1 (dirFrame 7) (keepSyn order1 (dirFrame 3) [] y) (only 1 sig) 2 256 = sig 0 256 * (4 * (3 / 4) + 8 * (1 / 4)) := by
  rw [C241_change ramps order1 (dirFrame 3) (dirFrame 7) [] y sig (ch := 0) (by decide) rfl rfl (by decide) (by decide)]
  norm_num [ramps, dirFrame]

example (y : Syn ℚ) (sig : Nat → Nat → ℚ) : dirPart ramps order1 (dirFrame 7) (keepSyn order1 (dirFrame 7) [] y) (only 1 sig) 2 256 = sig 0 256 * 8 := by
  rw [C241_steady ramps order1 ramps_add (dirFrame 7) (dirFrame 7) [] y sig (ch := 0) (by decide) rfl rfl (by decide) rfl]
  norm_num [ramps, dirFrame]

example (y y' : Syn ℚ) (x : Nat → Nat → ℚ) : dirPart ramps order1 (dirFrame 7) (keepSyn order1 (dirFrame 3) [] y) x = dirPart ramps order1 (dirFrame 7) (keepSyn order1 (dirFrame 3) [] y') x :=
  C242_same_partial ramps order1 _ _ [] y y' x (fun _ _ => Iff.rfl)

example (y : Syn ℚ) (sig : Nat → Nat → ℚ) :
    vecPart ramps order1 vecFrame [(1, fun e => e + 1)] (keepSyn order1 vecFrame [(1, fun _ => 5)] y) (only 1 sig) 2 64 = sig 0 64 * (5 * (3 / 4) + 2 * (1 / 4)) := by
  rw [C244_change ramps order1 (by decide) vecFrame vecFrame (vs0 := [(1, fun _ => 5)]) (vs := [(1, fun e => (e : ℚ) + 1)]) rfl rfl y sig (ch := 0)
    (List.mem_singleton.mpr rfl) (List.mem_singleton.mpr rfl) (by decide) (by decide) (by decide) (by decide)]
  have h1 : order1.start = 1 := rfl
  have h2 : order1.interpTime = 256 := rfl
  norm_num [ramps, h1, h2]

example (y : Syn ℚ) (sig : Nat → Nat → ℚ) : vecPart ramps order1 vecFrame [(1, fun _ => 5)] (keepSyn order1 vecFrame [(1, fun _ => 5)] y) (only 1 sig) 2 64 = sig 0 64 * 5 :=
  C244_steady ramps order1 ramps_add (by decide) vecFrame vecFrame (vs0 := [(1, fun _ => 5)]) (vs := [(1, fun _ => 5)]) rfl rfl y sig (ch := 0)
    (List.mem_singleton.mpr rfl) (List.mem_singleton.mpr rfl) (by decide) (by decide) (by decide) (by decide) 64

/-- The ambience starts to send coefficient 3 in the second channel. -/
def startFrame : Frame := { Frame.zero with ctype := fun ch => if ch = 0 then 1 else 2, ambIdx := fun _ => 3, trans := fun _ => 1 }

example : 3 ∈ inState order1 startFrame 1 ∧ 3 ∉ inState order1 vecFrame 1 ∧ 3 ∉ inState order1 startFrame 2 := by decide

example (sig : Nat → Nat → ℚ) (f : Nat → Option Nat) (h : reassign (assign order1 startFrame (fun _ => 0)) order1.transport 0 (fun _ => none) = .ok f) :
    ambField ramps order1 f sig 2 9 = sig 1 9 := by
  obtain ⟨g, h1, h2⟩ := C245_ambience ramps order1 (by decide) startFrame (fun _ => 0) (by decide) (by decide)
  rw [h1] at h
  cases h
  exact (h2 sig 2 9).1 (by decide) 1 (by decide) (by decide)

example (p : Preds) (sig : Nat → Nat → ℚ) : predPart ramps order1 p p [2] [] [] sig 2 9 = predField ramps order1 p (fun _ => 1) sig 2 9 ∧ predPart ramps order1 p p [2] [] [] sig 1 9 = 0 :=
  ⟨C246_steady ramps order1 ramps_add (by decide) p (by decide) (by decide) (by decide) sig 9, C246_sent ramps order1 p p (by decide) sig 9⟩

end Verif.Hoa
