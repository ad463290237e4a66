import Verif.Props.Config

/-! # Profile levels and earlier configurations -/

namespace Verif.Config

open Prog

/-- Sub-parsers that read nothing. -/
def noSub : Sub := ⟨pure (), pure (), pure 0⟩

/-- Profile level `p`, 48 kHz, 1024 samples, delay compensation, stereo reference layout. -/
def front (p : Nat) : List Bool :=
  natBits 8 p ++ natBits 5 3 ++ natBits 3 1 ++ natBits 1 0 ++ natBits 1 1 ++ natBits 2 0 ++ natBits 6 2

/-- One group of `n` objects (at most 31). -/
def objects (n : Nat) : List Bool := natBits 5 0 ++ natBits 3 1 ++ natBits 5 (n - 1)

/-- A single channel element without tools. -/
def sce : List Bool := natBits 2 0 ++ natBits 4 0

/-- One element. -/
def oneElement (e : List Bool) : List Bool := natBits 4 0 ++ natBits 1 0 ++ e

/-- One configuration extension of type `ty` and `len` bytes. -/
def oneExt (ty len : Nat) (body : List Bool) : List Bool :=
  natBits 1 1 ++ natBits 2 0 ++ natBits 4 ty ++ natBits 4 len ++ body

/-- The compatible profile level set with the one level `p`. -/
def compatible (p : Nat) : List Bool := natBits 4 0 ++ natBits 4 0 ++ natBits 8 p

/-- A plain configuration of level 1 with 2 objects. -/
def plain : List Bool := front 11 ++ objects 2 ++ oneElement sce ++ natBits 1 0

/-- The hypothesis of C84 is met. -/
example : ∃ c l, run (configDec noSub 0 Cfg.zero) plain = .ok (c, l) ∧ signals c = 2 ∧ c.profile = 11 := by
  have h : (run (configDec noSub 0 Cfg.zero) plain).map (fun r => (signals r.1, r.1.profile)) = .ok (2, 11) := by
    decide +kernel
  cases hr : run (configDec noSub 0 Cfg.zero) plain with
  | ok x => rw [hr] at h; simp [Res.map] at h; exact ⟨x.1, x.2, rfl, h⟩
  | jump => rw [hr] at h; simp [Res.map] at h
  | err c => rw [hr] at h; simp [Res.map] at h
  | ub => rw [hr] at h; simp [Res.map] at h

/-- 10 objects are refused at level 2, and 9 are not. -/
example : (run (configDec noSub 0 Cfg.zero) (front 12 ++ objects 10 ++ oneElement sce ++ natBits 1 0)).map
      (fun _ => ()) = .err errChans ∧
    (run (configDec noSub 0 Cfg.zero) (front 12 ++ objects 9 ++ oneElement sce ++ natBits 1 0)).map
      (fun _ => ()) = .ok () := by decide +kernel

/-! ## C85: the declared level is kept -/

/-- The claim C85. -/
def DeclaredLevel : Prop :=
  ∀ (sub : Sub) (user p m : Nat) (l l' : List Bool) (c' : Cfg), p < 256 → levelLimit p = some m →
    run (configDec sub user Cfg.zero) (natBits 8 p ++ l) = .ok (c', l') → signals c' ≤ m

theorem of_map {α β : Type} {r : Res (α × List Bool)} {f : α → β} {b : β} (h : r.map (fun x => f x.1) = .ok b) :
    ∃ a l', r = .ok (a, l') ∧ f a = b := by
  cases r with
  | ok x => simp [Res.map] at h; exact ⟨x.1, x.2, rfl, h⟩
  | jump => simp [Res.map] at h
  | err c => simp [Res.map] at h
  | ub => simp [Res.map] at h

/-- The rest of `front` after the level. -/
def front' : List Bool :=
  natBits 5 3 ++ natBits 3 1 ++ natBits 1 0 ++ natBits 1 1 ++ natBits 2 0 ++ natBits 6 2

/-- **C85, refuted.** A stream that declares level 1 (at most 5 signals) with 6 objects is accepted if it
also lists the baseline level 3 as a compatible level. -/
theorem C85_refuted : ¬ DeclaredLevel := by
  intro H
  have h : (run (configDec noSub 0 Cfg.zero)
      (natBits 8 11 ++ (front' ++ objects 6 ++ oneElement sce ++ oneExt 7 2 (compatible 18)))).map
        (fun r => signals r.1) = .ok 6 := by decide +kernel
  obtain ⟨c', l', hr, hc⟩ := of_map h
  have := H noSub 0 11 5 _ l' c' (by decide) rfl hr
  omega

/-- Without the list of compatible levels the same stream is refused. -/
example : (run (configDec noSub 0 Cfg.zero)
      (natBits 8 11 ++ (front' ++ objects 6 ++ oneElement sce ++ natBits 1 0))).map (fun _ => ()) = .err errChans := by
  decide +kernel

/-- If no compatible levels have been sent the level in use is the one declared. -/
theorem config_profile (sub : Sub) (user : Nat) (c : Cfg) (p : Nat) (hp : p < 256) (l l' : List Bool) (c' : Cfg)
    (h : run (config sub user c) (natBits 8 p ++ l) = .ok (c', l')) (hc : c'.ext.compat = none) : c'.profile = p := by
  unfold config at h
  rw [run_bits_bind 8 p _ _ (by decide) hp] at h
  refine (?_ : Post 0 _ (fun c' => c'.ext.compat = none → c'.profile = p)) l c' l' h (Nat.zero_le _) hc
  refine Post.bind Post.triv fun rate _ => ?_
  refine Post.bind Post.triv fun frameIdx _ => ?_
  refine Post.ite (fun _ => Post.fail) fun hframe => ?_
  refine Post.bind Post.triv fun _ _ => ?_
  refine Post.bind Post.triv fun delayComp _ => ?_
  refine Post.bind Post.triv fun ref _ => ?_
  refine Post.bind Post.triv fun n _ => ?_
  refine Post.ite (fun _ => Post.fail) fun hn => ?_
  refine Post.ite (fun _ => Post.fail) fun _ => ?_
  refine Post.bind Post.triv fun g _ => ?_
  refine Post.bind Post.triv fun same _ => ?_
  refine Post.ite (fun _ => Post.fail) fun _ => ?_
  refine Post.bind Post.triv fun refCh _ => ?_
  refine Post.bind Post.triv fun dec _ => ?_
  refine Post.bind Post.triv fun _ _ => ?_
  refine Post.bind Post.triv fun c1 _ => ?_
  refine Post.ite (fun _ => Post.fail) fun _ => ?_
  dsimp only
  split
  · exact Post.fail
  · exact Post.fail
  refine Post.pure fun hnone => ?_
  simp only at hnone ⊢
  rw [hnone]
  rfl

/-- **C85, the part that holds.** A stream that lists no compatible levels stays within the level it
declares.  Missing: streams with a list. -/
theorem C85_declared_partial (sub : Sub) (user p m : Nat) (l l' : List Bool) (c c' : Cfg) (hp : p < 256)
    (hm : levelLimit p = some m) (h : run (configDec sub user c) (natBits 8 p ++ l) = .ok (c', l'))
    (hc : c'.ext.compat = none) : signals c' ≤ m ∧ refSpeakers c' ≤ m := by
  obtain ⟨m', hm', h1, h2⟩ := (C84_accepted sub user c c' _ l' h).level
  have hpr : c'.profile = p := by
    unfold configDec at h
    rw [run_bind] at h
    obtain ⟨⟨c1, l1⟩, e1, e2⟩ := Res.bind_eq_ok.mp h
    have key := config_profile sub user _ p hp l l1 c1 e1
    dsimp only at e2
    split at e2
    · simp at e2
      obtain ⟨rfl, rfl⟩ := e2
      exact key hc
    · simp at e2
      obtain ⟨rfl, rfl⟩ := e2
      exact key hc
  rw [hpr, hm] at hm'
  cases hm'
  exact ⟨h1, h2⟩

/-! ## C86: a configuration is read as by a new decoder -/

/-- The claim C86: what an earlier accepted configuration contained makes no difference. -/
def FreshStart : Prop :=
  ∀ (sub : Sub) (user : Nat) (l1 r1 l : List Bool) (c1 : Cfg),
    run (configDec sub user Cfg.zero) l1 = .ok (c1, r1) →
    run (configDec sub user c1) l = run (configDec sub user Cfg.zero) l

/-- Level 1, 2 objects, with audio scene information and compatible level 18. -/
def sceneFirst : List Bool :=
  front 11 ++ objects 2 ++ oneElement sce ++
    (natBits 1 1 ++ natBits 2 1 ++ (natBits 4 7 ++ natBits 4 2 ++ compatible 18) ++ (natBits 4 3 ++ natBits 4 0))

/-- Level 1, 6 objects, no extensions. -/
def tooMany : List Bool := front 11 ++ objects 6 ++ oneElement sce ++ natBits 1 0

/-- **C86, refuted.** After a configuration with audio scene information the next one is read into the old
structure: a compatible level of the first stream lets a second stream pass that exceeds its own level and
is refused by a new decoder. -/
theorem C86_refuted : ¬ FreshStart := by
  intro H
  have h : (run (configDec noSub 0 Cfg.zero) sceneFirst).map
      (fun r => (run (configDec noSub 0 r.1) tooMany).map (fun r => signals r.1)) = .ok (.ok 6) := by decide +kernel
  obtain ⟨c1, r1, hr, hc⟩ := of_map (f := fun c => (run (configDec noSub 0 c) tooMany).map (fun r => signals r.1)) h
  have hn : (run (configDec noSub 0 Cfg.zero) tooMany).map (fun r => signals r.1) = .err errChans := by decide +kernel
  rw [H noSub 0 _ _ _ _ hr, hn] at hc
  cases hc

/-- **C86, the part that holds.** A decoder that has seen no audio scene information reads every
configuration like a new one.  Missing: a decoder that has. -/
theorem C86_fresh_partial (sub : Sub) (user : Nat) (c : Cfg) (l : List Bool) (h : c.ext.asiPresent = 0) :
    run (configDec sub user c) l = run (configDec sub user Cfg.zero) l := by
  unfold configDec
  rw [if_pos h]
  rfl

example : Cfg.zero.ext.asiPresent = 0 := rfl

/-! ## C87: the flag for baseline level 3 with more than 16 signals -/

/-- The claim C87. -/
def Flagged : Prop :=
  ∀ (sub : Sub) (user : Nat) (c c' : Cfg) (l l' : List Bool), run (configDec sub user c) l = .ok (c', l') →
    (c'.base3b = 1 ↔ 16 ≤ c'.profile ∧ c'.profile ≤ 18 ∧ 16 < signals c')

theorem useCompat_base {p core : Nat} {x : Option (Nat × Nat)} {b : Nat} (h : (useCompat p core x 0).2 = b) :
    b = 0 ∨ (16 ≤ (useCompat p core x 0).1 ∧ (useCompat p core x 0).1 ≤ 18 ∧ core > 16) := by
  subst h
  unfold useCompat
  split
  · exact Or.inl rfl
  · split
    · split
      · right; omega
      · exact Or.inl rfl
    · split <;> exact Or.inl rfl

theorem config_base (sub : Sub) (user : Nat) (c : Cfg) : Post 0 (config sub user c) (fun c' => c'.base3b = 0) := by
  unfold config
  refine Post.bind Post.triv fun profile _ => ?_
  refine Post.bind Post.triv fun rate _ => ?_
  refine Post.bind Post.triv fun frameIdx _ => ?_
  refine Post.ite (fun _ => Post.fail) fun hframe => ?_
  refine Post.bind Post.triv fun _ _ => ?_
  refine Post.bind Post.triv fun delayComp _ => ?_
  refine Post.bind Post.triv fun ref _ => ?_
  refine Post.bind Post.triv fun n _ => ?_
  refine Post.ite (fun _ => Post.fail) fun hn => ?_
  refine Post.ite (fun _ => Post.fail) fun _ => ?_
  refine Post.bind Post.triv fun g _ => ?_
  refine Post.bind Post.triv fun same _ => ?_
  refine Post.ite (fun _ => Post.fail) fun _ => ?_
  refine Post.bind Post.triv fun refCh _ => ?_
  refine Post.bind Post.triv fun dec _ => ?_
  refine Post.bind Post.triv fun _ _ => ?_
  refine Post.bind Post.triv fun c1 _ => ?_
  refine Post.ite (fun _ => Post.fail) fun _ => ?_
  dsimp only
  split
  · exact Post.fail
  · exact Post.fail
  refine Post.pure ?_
  dsimp only
  split
  · rfl
  · rename_i hne
    rcases useCompat_base (p := profile) (core := g.core) (x := c1.ext.compat) rfl with h | h
    · exact h
    · exact absurd h hne

/-- The flag is never set, whatever the stream: the last statement of the function clears it in exactly the
case in which it has been set. -/
theorem C87_never (sub : Sub) (user : Nat) (c c' : Cfg) (l l' : List Bool)
    (h : run (configDec sub user c) l = .ok (c', l')) : c'.base3b = 0 := by
  have : Post 0 (configDec sub user c) (fun c' => c'.base3b = 0) := by
    unfold configDec
    refine Post.bind (config_base sub user _) fun c1 h1 => ?_
    exact Post.ite (fun _ => Post.pure h1) fun _ => Post.pure h1
  exact this l c' l' h (Nat.zero_le _)

/-- Baseline level 3, 24 objects. -/
def large : List Bool := front 18 ++ objects 24 ++ oneElement sce ++ natBits 1 0

/-- **C87, refuted.** Baseline level 3 with 24 objects is accepted with the flag clear. -/
theorem C87_refuted : ¬ Flagged := by
  intro H
  have h : (run (configDec noSub 0 Cfg.zero) large).map (fun r => (r.1.profile, signals r.1)) = .ok (18, 24) := by
    decide +kernel
  obtain ⟨c', l', hr, hc⟩ := of_map (f := fun c => (c.profile, signals c)) h
  simp only [Prod.mk.injEq] at hc
  have := (H _ _ _ _ _ _ hr).mpr ⟨by omega, by omega, by omega⟩
  rw [C87_never _ _ _ _ _ _ hr] at this
  cases this

/-- **C87, the part that holds.** The flag is clear when it should be. -/
theorem C87_clear_partial (sub : Sub) (user : Nat) (c c' : Cfg) (l l' : List Bool)
    (h : run (configDec sub user c) l = .ok (c', l'))
    (_hs : ¬ (16 ≤ c'.profile ∧ c'.profile ≤ 18 ∧ 16 < signals c')) : c'.base3b = 0 :=
  C87_never sub user c c' l l' h

end Verif.Config
