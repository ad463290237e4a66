import Verif.Model.Config
import Verif.Props.Mct
import Verif.Props.Speaker
import Verif.Proofs.Fields
import Verif.Proofs.Post

/-! # Accepted 3D audio configurations -/

namespace Verif.Config

open Prog

/-! ## C84: limits of the profile levels -/

/-- The number of signals of the groups of type `t` among the first `n`. -/
def total (t : Nat) (types nums : List Nat) : Nat → Nat
  | 0 => 0
  | i + 1 => total t types nums i + if types[i]? = some t then nums.getD i 0 else 0

/-- Channels, objects and HOA transport channels together. -/
def signals (c : Cfg) : Nat :=
  total 0 c.groups.types c.groups.numSig c.numGroups + total 1 c.groups.types c.groups.numSig c.numGroups +
    total 3 c.groups.types c.groups.numSig c.numGroups

/-- The number of loudspeakers of the reference layout. -/
def refSpeakers (c : Cfg) : Nat :=
  if c.ref.type = 0 then Speaker.numLsTbl.getD c.ref.idx 0 else c.ref.num

/-- The limit of a profile level (low complexity 11 to 13, baseline 16 to 18). -/
def levelLimit : Nat → Option Nat
  | 11 => some 5 | 16 => some 5 | 12 => some 9 | 17 => some 9 | 13 => some 24 | 18 => some 24
  | _ => none

/-- What holds of every accepted configuration. -/
structure Accepted (c : Cfg) : Prop where
  rate : 1 ≤ c.rate ∧ c.rate ≤ 48000
  frame : c.frameIdx ≤ 4
  groups : 1 ≤ c.numGroups ∧ c.numGroups ≤ 16
  kinds : ∀ i < c.numGroups, ∃ t ≤ 3, c.groups.types[i]? = some t
  layout : c.ref.type = 0 → 1 ≤ c.ref.idx ∧ c.ref.idx ≤ 20
  level : ∃ m, levelLimit c.profile = some m ∧ signals c ≤ m ∧ refSpeakers c ≤ m
  large : 16 < signals c ∨ 16 < refSpeakers c → ∀ i < c.numGroups, c.groups.types[i]? = some 1 ∨ c.groups.types[i]? = some 2
  elements : 16 < signals c ∨ 16 < refSpeakers c → ∀ e ∈ c.dec.elems.take c.dec.numElem,
    (e.kind = 0 ∧ e.noise = 0 ∧ e.enhNoise = 0) ∨ (e.kind = 3 ∧ e.extType ≠ 9)

theorem total_set (t i v w : Nat) (types nums : List Nat) (n : Nat) (h : n ≤ i) :
    total t (types.set i v) (nums.set i w) n = total t types nums n := by
  induction n with
  | zero => rfl
  | succ n ih =>
    simp only [total]
    rw [ih (by omega), List.getElem?_set_ne (by omega), List.getD_eq_getElem?_getD, List.getD_eq_getElem?_getD,
      List.getElem?_set_ne (by omega)]

theorem total_succ (t i v w : Nat) (types nums : List Nat) (h1 : i < types.length) (h2 : i < nums.length) :
    total t (types.set i v) (nums.set i w) (i + 1) = total t types nums i + if v = t then w else 0 := by
  simp only [total]
  rw [total_set _ _ _ _ _ _ _ (Nat.le_refl i), List.getElem?_set_self h1, List.getD_eq_getElem?_getD,
    List.getElem?_set_self h2]
  simp

/-- The counters of the group loop after `i` groups. -/
structure Counted (i : Nat) (s : Groups) : Prop where
  ch : s.sig.ch = total 0 s.types s.numSig i
  obj : s.sig.obj = total 1 s.types s.numSig i
  hoa : s.sig.hoa = total 3 s.types s.numSig i
  kinds : ∀ j < i, ∃ t ≤ 3, s.types[j]? = some t
  noHoa : s.hoaGroups = 0 → ∀ j < i, s.types[j]? ≠ some 3
  noCh : s.sig.chGroups = 0 → ∀ j < i, s.types[j]? ≠ some 0

theorem kinds_set {types : List Nat} {i : Nat} (P : Nat → Prop) (v : Nat) (hi : i < types.length)
    (h : ∀ j < i, ∃ t, P t ∧ types[j]? = some t) (hv : P v) :
    ∀ j < i + 1, ∃ t, P t ∧ (types.set i v)[j]? = some t := by
  intro j hj
  by_cases hji : j = i
  · subst hji
    exact ⟨v, hv, List.getElem?_set_self hi⟩
  · rw [List.getElem?_set_ne (by omega)]
    exact h j (by omega)

theorem ne_set {types : List Nat} {i : Nat} (v w : Nat) (hi : i < types.length)
    (h : ∀ j < i, types[j]? ≠ some w) (hv : v ≠ w) : ∀ j < i + 1, (types.set i v)[j]? ≠ some w := by
  intro j hj
  by_cases hji : j = i
  · subst hji
    rw [List.getElem?_set_self hi]
    simpa using hv
  · rw [List.getElem?_set_ne (by omega)]
    exact h j (by omega)

theorem group_counted (refIdx i : Nat) (s : Groups) (h : Counted i s) :
    Post 0 (group refIdx i s) (Counted (i + 1)) := by
  unfold group
  refine Post.bind Post.triv fun ty _ => ?_
  refine Post.bind Post.setAt fun types ht => ?_
  obtain ⟨rfl, hl1⟩ := ht
  refine Post.bind Post.triv fun v _ => ?_
  refine Post.bind Post.setAt fun numSig hn => ?_
  obtain ⟨rfl, hl2⟩ := hn
  have T : ∀ t, total t (s.types.set i ty) (s.numSig.set i (v + 1)) (i + 1) =
      total t s.types s.numSig i + if ty = t then v + 1 else 0 :=
    fun t => total_succ t i ty (v + 1) _ _ hl1 hl2
  have K : ty ≤ 3 → ∀ j < i + 1, ∃ t ≤ 3, (s.types.set i ty)[j]? = some t :=
    fun hty => kinds_set (· ≤ 3) ty hl1 h.kinds hty
  refine Post.ite (fun h3 => ?_) fun h3 => ?_
  · subst h3
    refine Post.ite (fun _ => Post.fail) fun _ => Post.pure ?_
    exact ⟨by simp [T, h.ch], by simp [T, h.obj], by simp [T, h.hoa], K (by omega),
      fun e => by simp at e, fun e => ne_set _ 0 hl1 (h.noCh e) (by omega)⟩
  refine Post.ite (fun h2 => ?_) fun h2 => ?_
  · subst h2
    refine Post.bind Post.triv fun b _ => ?_
    refine Post.bind Post.triv fun _ _ => Post.pure ?_
    exact ⟨by simp [T, h.ch], by simp [T, h.obj], by simp [T, h.hoa], K (by omega),
      fun e => ne_set _ 3 hl1 (h.noHoa e) (by omega), fun e => ne_set _ 0 hl1 (h.noCh e) (by omega)⟩
  refine Post.ite (fun h1 => ?_) fun h1 => ?_
  · subst h1
    refine Post.ite (fun _ => Post.fail) fun _ => Post.pure ?_
    exact ⟨by simp [T, h.ch], by simp [T, h.obj], by simp [T, h.hoa], K (by omega),
      fun e => ne_set _ 3 hl1 (h.noHoa e) (by omega), fun e => ne_set _ 0 hl1 (h.noCh e) (by omega)⟩
  refine Post.ite (fun h0 => ?_) fun h0 => Post.fail
  subst h0
  refine Post.ite (fun _ => Post.fail) fun _ => ?_
  refine Post.bind Post.triv fun df _ => ?_
  refine Post.bind Post.triv fun differs _ => ?_
  refine Post.ite (fun _ => ?_) fun _ => ?_
  · refine Post.bind Post.triv fun _ _ => ?_
    refine Post.bind Post.triv fun _ _ => ?_
    refine Post.bind Post.triv fun _ _ => Post.pure ?_
    exact ⟨by simp [T, h.ch], by simp [T, h.obj], by simp [T, h.hoa], K (by omega),
      fun e => ne_set _ 3 hl1 (h.noHoa e) (by omega), fun e => by simp at e⟩
  · refine Post.pure ?_
    exact ⟨by simp [T, h.ch], by simp [T, h.obj], by simp [T, h.hoa], K (by omega),
      fun e => ne_set _ 3 hl1 (h.noHoa e) (by omega), fun e => by simp at e⟩

theorem refLayout_post (r : Layout) :
    Post 0 (refLayout r) (fun r' => r'.type = 0 → 1 ≤ r'.idx ∧ r'.idx ≤ 20) := by
  unfold refLayout
  refine Post.bind Post.triv fun ty _ => ?_
  refine Post.ite (fun h => ?_) fun h => ?_
  · refine Post.bind Post.triv fun n _ => ?_
    refine Post.ite (fun _ => Post.fail) fun _ => ?_
    refine Post.ite (fun _ => ?_) fun _ => ?_
    · refine Post.bind Post.triv fun f _ => ?_
      exact Post.ite (fun _ => Post.fail) fun _ => Post.pure fun e => absurd e h
    refine Post.ite (fun _ => ?_) fun _ => Post.pure fun e => absurd e h
    exact Post.bind Post.triv fun f _ => Post.pure fun e => absurd e h
  · refine Post.bind Post.triv fun idx _ => ?_
    refine Post.ite (fun _ => Post.fail) fun hi => Post.pure fun _ => ?_
    simp only
    omega

theorem bigCheck_post (es : List Elem) : Post 0 (bigCheck es) (fun _ => ∀ e ∈ es,
    (e.kind = 0 ∧ e.noise = 0 ∧ e.enhNoise = 0) ∨ (e.kind = 3 ∧ e.extType ≠ 9)) := by
  induction es with
  | nil => exact Post.pure (by simp)
  | cons e es ih =>
    unfold bigCheck
    refine Post.ite (fun h => ?_) fun h => ?_
    · refine Post.ite (fun _ => Post.fail) fun hn => ih.mono fun _ H x hx => ?_
      rcases List.mem_cons.mp hx with rfl | hx
      · exact Or.inl ⟨h, by omega, by omega⟩
      · exact H x hx
    refine Post.ite (fun h => ?_) fun h => Post.fail
    refine Post.ite (fun _ => Post.fail) fun hn => ih.mono fun _ H x hx => ?_
    rcases List.mem_cons.mp hx with rfl | hx
    · exact Or.inr ⟨h, hn⟩
    · exact H x hx

theorem extPart_post (sub : Sub) (user : Nat) (c : Cfg) : Post 0 (extPart sub user c)
    (fun c' => c'.rate = c.rate ∧ c'.frameIdx = c.frameIdx ∧ c'.ref = c.ref ∧ c'.numGroups = c.numGroups ∧
      c'.groups = c.groups ∧ c'.dec = c.dec) := by
  unfold extPart
  refine Post.bind Post.triv fun e _ => ?_
  refine Post.ite (fun _ => ?_) fun _ => Post.pure ⟨rfl, rfl, rfl, rfl, rfl, rfl⟩
  refine Post.ite (fun _ => Post.fail) fun _ => ?_
  refine Post.bind Post.triv fun x _ => ?_
  refine Post.bind Post.triv fun ls _ => ?_
  exact Post.pure ⟨rfl, rfl, rfl, rfl, rfl, rfl⟩

theorem sampleRate_post : Post 0 sampleRate (fun f => 1 ≤ f ∧ f ≤ 48000) := by
  unfold sampleRate
  refine Post.bind Post.triv fun idx _ => ?_
  refine Post.bind Post.triv fun f _ => ?_
  exact Post.ite (fun _ => Post.fail) fun h => Post.pure (by omega)

theorem levelOk_some {p core ref hoa ch : Nat} (h : levelOk p core ref hoa ch = some true) :
    (∃ m, levelLimit p = some m ∧ core ≤ m ∧ ref ≤ m) ∧ (16 < core ∨ 16 < ref → hoa = 0 ∧ ch = 0) := by
  unfold levelOk at h
  split at h
  · rename_i hp
    simp only [Option.some.injEq, decide_eq_true_eq] at h
    refine ⟨⟨5, ?_, h⟩, by omega⟩
    rcases hp with rfl | rfl <;> rfl
  split at h
  · rename_i hp
    simp only [Option.some.injEq, decide_eq_true_eq] at h
    refine ⟨⟨9, ?_, h⟩, by omega⟩
    rcases hp with rfl | rfl <;> rfl
  split at h
  · rename_i hp
    simp only [Option.some.injEq, decide_eq_true_eq, not_or, not_and, not_lt] at h
    obtain ⟨h1, h2, h3, h4⟩ := h
    refine ⟨⟨24, ?_, by omega, by omega⟩, fun hh => ?_⟩
    · rcases hp with rfl | rfl <;> rfl
    · rcases hh with hh | hh
      · have := h3 hh; omega
      · have := h4 hh; omega
  · simp at h

theorem config_post (sub : Sub) (user : Nat) (c : Cfg) : Post 0 (config sub user c) Accepted := by
  unfold config
  refine Post.bind Post.triv fun profile _ => ?_
  refine Post.bind sampleRate_post fun rate hrate => ?_
  refine Post.bind Post.triv fun frameIdx _ => ?_
  refine Post.ite (fun _ => Post.fail) fun hframe => ?_
  refine Post.bind Post.triv fun _ _ => ?_
  refine Post.bind Post.triv fun delayComp _ => ?_
  refine Post.bind (refLayout_post c.ref) fun ref href => ?_
  refine Post.bind Post.triv fun n _ => ?_
  refine Post.ite (fun _ => Post.fail) fun hn => ?_
  refine Post.ite (fun _ => Post.fail) fun _ => ?_
  refine Post.bind (Post.foldN Counted (n + 1) 0 _
    ⟨rfl, rfl, rfl, by simp, by simp, by simp⟩ fun j t _ _ h => group_counted ref.idx j t h) fun g hg => ?_
  rw [Nat.zero_add] at hg
  refine Post.bind Post.triv fun same _ => ?_
  refine Post.ite (fun _ => Post.fail) fun _ => ?_
  have hR : Post 0 (if ref.type = 0 then getAt Speaker.numLsTbl ref.idx else pure ref.num)
      (fun v => v = if ref.type = 0 then Speaker.numLsTbl.getD ref.idx 0 else ref.num) := by
    split
    · refine Post.getAt.mono fun v hv => ?_
      rw [List.getD_eq_getElem?_getD, hv]; rfl
    · exact Post.pure rfl
  refine Post.bind hR fun refCh hrc => ?_
  refine Post.bind Post.triv fun dec _ => ?_
  have hB : Post 0 (if g.core > 16 ∨ refCh > 16 then bigCheck (dec.elems.take dec.numElem) else pure ())
      (fun _ => g.core > 16 ∨ refCh > 16 → ∀ e ∈ dec.elems.take dec.numElem,
        (e.kind = 0 ∧ e.noise = 0 ∧ e.enhNoise = 0) ∨ (e.kind = 3 ∧ e.extType ≠ 9)) := by
    split
    · exact (bigCheck_post _).mono fun _ h _ => h
    · exact Post.pure fun h => absurd h ‹_›
  refine Post.bind hB fun _ hbig => ?_
  refine Post.bind (extPart_post sub user _) fun c1 hc1 => ?_
  refine Post.ite (fun _ => Post.fail) fun _ => ?_
  dsimp only
  split
  · exact Post.fail
  · exact Post.fail
  rename_i hlev
  obtain ⟨⟨m, hm, hm1, hm2⟩, hlarge⟩ := levelOk_some hlev
  obtain ⟨e1, e2, e3, e4, e5, e6⟩ := hc1
  have hcore : g.core = total 0 g.types g.numSig (n + 1) + total 1 g.types g.numSig (n + 1) +
      total 3 g.types g.numSig (n + 1) := by
    unfold Groups.core
    rw [hg.ch, hg.obj, hg.hoa]
    omega
  refine Post.pure ⟨?_, ?_, ?_, ?_, ?_, ⟨m, hm, ?_, ?_⟩, ?_, ?_⟩
  · simpa only [e1] using hrate
  · simp only [e2]; omega
  · simp only [e4]; omega
  · simpa only [e4, e5] using hg.kinds
  · simpa only [e3] using href
  · simpa only [signals, e4, e5, ← hcore] using hm1
  · simpa only [refSpeakers, e3, ← hrc] using hm2
  · simp only [signals, refSpeakers, e3, e4, e5, ← hcore, ← hrc]
    intro hh i hi
    obtain ⟨h1, h2⟩ := hlarge hh
    obtain ⟨t, ht, et⟩ := hg.kinds i hi
    have n3 := hg.noHoa h1 i hi
    have n0 := hg.noCh h2 i hi
    rw [et] at n3 n0 ⊢
    simp only [ne_eq, Option.some.injEq] at n3 n0 ⊢
    omega
  · simp only [signals, refSpeakers, e3, e4, e5, e6, ← hcore, ← hrc]
    exact hbig

/-- **C84.** Whatever bits are presented, after whatever earlier configuration and whatever the sub-parsers
do: an accepted configuration has a sampling rate from 1 to 48000, a known frame length, 1 to 16 signal
groups of known types, a known reference layout, and no more signals and loudspeakers than its profile level
allows; beyond 16 there are only objects, coded in single channel elements without noise filling. -/
theorem C84_accepted (sub : Sub) (user : Nat) (c c' : Cfg) (l l' : List Bool)
    (h : run (configDec sub user c) l = .ok (c', l')) : Accepted c' := by
  have : Post 0 (configDec sub user c) Accepted := by
    unfold configDec
    refine Post.bind (config_post sub user _) fun c1 h1 => ?_
    refine Post.ite (fun _ => Post.pure h1) fun _ => Post.pure ?_
    exact ⟨h1.rate, h1.frame, h1.groups, h1.kinds, h1.layout, h1.level, h1.large, h1.elements⟩
  exact this l c' l' h (Nat.zero_le _)

end Verif.Config
