import Verif.Props.ConfigSafe
import Verif.Props.ConfigMap
import Verif.Proofs.Within

/-! # C99: whole configurations -/

namespace Verif.Config

open Prog

/-- A byte loop into a table of 256 runs out of input before it runs out of the table. -/
theorem rows_within (k i : Nat) (l : List Bool) (h : l.length < 8 * (256 - i)) :
    run (forN (fun b => do inTable b 256; bits 8) k i) l ≠ .ub := by
  induction k generalizing i l with
  | zero => simp [Prog.forN]
  | succ k ih =>
    unfold Prog.forN
    rw [run_bind]
    intro e
    rcases Res.bind_eq_ub.mp e with e | ⟨x, e1, e2⟩
    · exact ((Safe.bind (Safe.inTable (cap := 256) (i := i) (by omega) (by omega)) fun _ _ => Safe.bits (by decide)) l).1 e
    · rw [run_bind] at e2
      obtain ⟨x1, x2⟩ := x
      have hx := (Takes.bind (n := 0) (m := 8) (Takes.inTable (i := (i : Int)) (cap := 256)) (fun _ => Takes.bits 8)) l x1 x2 e1
      rcases Res.bind_eq_ub.mp e2 with e2 | ⟨y, _, e4⟩
      · exact ih (i + 1) x2 (by rw [hx.2, List.length_drop]; omega) e2
      · simp at e4

theorem rowLoop_within (k : Nat) : Within 2048 (forN (fun b => do inTable b 256; bits 8) k 0) (fun _ => k < 256) := by
  intro l hl
  refine ⟨rows_within k 0 l (by omega), fun a l' e => ?_⟩
  have := (Takes.forN (w := 8) (f := fun b => do inTable (b : Int) 256; bits 8)
    (fun i => Takes.bind (n := 0) (m := 8) Takes.inTable (fun _ => Takes.bits 8)) k 0) l a l' e
  omega

theorem dmxMatrix_within (j : Nat) (hj : j < 8) : Within 2048 (dmxMatrix j) (fun _ => True) := by
  unfold dmxMatrix
  refine Within.bind (escape_safe 1 4 4 (by decide) (by decide) (by decide)).within fun t _ => ?_
  refine Within.ite (fun _ => Within.fail) fun ht => ?_
  refine Within.bind (Safe.inTable (by omega) (by omega)).within fun _ _ => ?_
  refine Within.bind (tableBits_safe 16 5 (t + 1) (by decide) (by omega)).within fun _ _ => ?_
  refine Within.bind (escape_safe 8 8 12 (by decide) (by decide) (by decide)).within fun len _ => ?_
  refine Within.bind (rowLoop_within (len / 8)) fun _ hk => ?_
  refine Within.bind (Within.when fun _ => ?_) fun _ _ => Within.pure trivial
  refine Within.bind (Safe.inTable (by omega) (by omega)).within fun _ _ => ?_
  exact Within.bits_bind (by omega) fun _ _ => Within.pure trivial

theorem dmxId_within (i : Nat) (hi : i < 6) : Within 2048 (dmxId i) (fun _ => True) := by
  unfold dmxId
  refine Within.bind (Safe.inTable (by omega) (by omega)).within fun _ _ => ?_
  refine Within.bits_bind (by decide) fun id _ => Within.bits_bind (by decide) fun ty _ => ?_
  refine Within.ite (fun _ => Within.fail) fun _ => Within.ite (fun _ => Within.fail) fun _ => ?_
  refine Within.bits_bind (by decide) fun layout _ => ?_
  refine Within.bind (Within.when fun _ => ?_) fun _ _ => Within.ite (fun _ => Within.fail) fun _ => Within.pure trivial
  refine Within.bind (escape_safe 1 3 0 (by decide) (by decide) (by decide)).within fun t _ => ?_
  refine Within.ite (fun _ => Within.fail) fun ht => ?_
  exact Within.bind (Within.forN (P := fun _ => True) (t + 1) 0 fun j _ hj => dmxMatrix_within j (by omega)) fun _ _ => Within.pure trivial

theorem dmxConfig_within : Within 2048 dmxConfig (fun _ => True) := by
  unfold dmxConfig
  refine Within.bits_bind (by decide) fun ty _ => Within.ite (fun _ => Within.fail) fun _ => ?_
  refine Within.bind (Within.when fun _ => ?_) fun _ _ => Within.ite (fun _ => ?_) fun _ => Within.pure trivial
  · refine Within.bits_bind (by decide) fun p _ => Within.bind (Safe.optBits (by decide)).within fun ph _ => ?_
    exact Within.ite (fun _ => Within.fail) fun _ => Within.bits_bind (by decide) fun _ _ => Within.pure trivial
  · refine Within.bits_bind (by decide) fun n _ => Within.ite (fun _ => Within.fail) fun hn => ?_
    exact Within.forN (P := fun _ => True) n 0 fun j _ hj => dmxId_within j (by omega)

theorem atLeast_within {α : Type} {p : Prog α} {Q : α → Prop} {n : Nat} (len : Nat) (h : Within n p Q) :
    Within n (atLeast len p) Q := by
  unfold atLeast
  refine Within.bind Safe.avail.within fun a _ => ?_
  refine Within.bind h fun x hx => ?_
  refine Within.bind Safe.avail.within fun b _ => ?_
  refine Within.ite (fun hlt => ?_) fun _ => Within.pure hx
  exact Within.bind (Safe.drop (by omega)).within fun _ _ => Within.pure hx

/-- Arrays of the declared sizes. -/
def ExtOk (x : Ext) : Prop := x.prio.length = 32 ∧ x.fixed.length = 32

theorem extension_within (sub : Sub) (hsub : sub.Safe) (lp n layout j ty len : Nat) (hn : n ≤ 16) (hl : len ≤ 1536)
    (x : Ext) (hx : ExtOk x) : Within 2048 (extension sub lp n layout j ty len x) ExtOk := by
  by_cases hty : ty = 1
  · subst hty
    unfold extension
    rw [if_neg (by decide), if_neg (by decide), if_pos rfl]
    exact Within.bind (atLeast_within len dmxConfig_within) fun _ _ => Within.pure hx
  · exact (C99_extensions_partial sub hsub lp n layout j ty len hn hl hty x hx.1 hx.2).within

theorem configExtension_within (sub : Sub) (hsub : sub.Safe) (lp n layout : Nat) (hn : n ≤ 16) (x : Ext) (hx : ExtOk x) :
    Within 2048 (configExtension sub lp n layout x) ExtOk := by
  unfold configExtension
  refine Within.bind (escape_safe 2 4 8 (by decide) (by decide) (by decide)).within fun k _ => ?_
  refine Within.ite (fun _ => Within.fail) fun hk => ?_
  refine Within.foldN (fun _ => ExtOk) (k + 1) 0 _ hx fun j t _ hj ht => ?_
  refine Within.bind (escape_safe 4 8 16 (by decide) (by decide) (by decide)).within fun ty _ => ?_
  refine Within.bind (escape_safe 4 8 16 (by decide) (by decide) (by decide)).within fun len _ => ?_
  refine Within.bind (Safe.inTable (by omega) (by omega)).within fun _ _ => ?_
  exact Within.ite (fun _ => Within.fail) fun hlen => extension_within sub hsub lp n layout j ty len hn (by omega) t ht

/-- What every configuration leaves, and what a new decoder has: arrays of the declared sizes and layout
numbers within the tables. -/
structure CfgOk (c : Cfg) : Prop where
  ref : LayoutOk c.ref
  types : c.groups.types.length = 32
  numSig : c.groups.numSig.length = 32
  differs : c.groups.differs.length = 32
  layouts : c.groups.layouts.length = 32
  layoutOk : ∀ r ∈ c.groups.layouts, LayoutOk r
  dec : DecOk c.dec
  ext : ExtOk c.ext
  count : c.numGroups ≤ 16

theorem cfgOk_zero : CfgOk Cfg.zero := by
  refine ⟨layout_zero, rfl, rfl, rfl, rfl, fun r hr => ?_, ⟨by decide, by decide, by decide, by decide, by decide, by decide⟩, ⟨rfl, rfl⟩, by decide⟩
  rw [(List.mem_replicate.mp hr).2]
  exact layout_zero

theorem bigCheck_safe (es : List Elem) : Safe (bigCheck es) (fun _ => True) := by
  induction es with
  | nil => exact Safe.pure trivial
  | cons e es ih =>
    unfold bigCheck
    exact Safe.ite (fun _ => Safe.ite (fun _ => Safe.fail) fun _ => ih) fun _ =>
      Safe.ite (fun _ => Safe.ite (fun _ => Safe.fail) fun _ => ih) fun _ => Safe.fail

theorem sameTypes_safe (types : List Nat) (n : Nat) (h : n ≤ types.length) : Safe (sameTypes types n) (fun _ => True) := by
  unfold sameTypes
  refine Safe.foldN (fun _ _ => True) (n - 1) 0 _ trivial fun j t _ hj _ => ?_
  refine Safe.bind (Safe.getAt (by omega)) fun a _ => Safe.bind (Safe.getAt (by omega)) fun b _ => Safe.pure trivial

theorem sampleRate_safe : Safe sampleRate (fun _ => True) := by
  unfold sampleRate
  refine Safe.bits_bind (by decide) fun idx _ => ?_
  refine Safe.bind (R := fun _ => True) ?_ fun f _ => Safe.ite (fun _ => Safe.fail) fun _ => Safe.pure trivial
  refine Safe.ite (fun _ => (Safe.bits (by decide)).mono fun _ _ => trivial) fun _ => Safe.ite (fun _ => Safe.fail) fun h => ?_
  exact (Safe.getAt (by simp [rateTbl]; omega)).mono fun _ _ => trivial

theorem extPart_within (sub : Sub) (hsub : sub.Safe) (user : Nat) (c : Cfg) (hc : CfgOk c) :
    Within 2048 (extPart sub user c) CfgOk := by
  unfold extPart
  refine Within.bits_bind (by decide) fun e _ => Within.ite (fun _ => ?_) fun _ => Within.pure
    ⟨hc.ref, hc.types, hc.numSig, hc.differs, hc.layouts, hc.layoutOk, hc.dec, hc.ext, hc.count⟩
  dsimp only
  refine Within.ite (fun _ => Within.fail) fun hl => ?_
  refine Within.bind (configExtension_within sub hsub _ _ _ hc.count c.ext hc.ext) fun x hx => ?_
  refine Within.bind (Safe.getAt (by rw [numLs_length]; omega)).within fun ls _ => Within.pure ?_
  exact ⟨hc.ref, hc.types, hc.numSig, hc.differs, hc.layouts, hc.layoutOk, hc.dec, hx, hc.count⟩

/-- The start of a configuration up to the signal groups, without the tests. -/
def groupsOf (c : Cfg) : Prog Groups := do
  let _ ← bits 8
  let _ ← sampleRate
  let _ ← bits 3
  drop 1
  let _ ← bits 1
  let ref ← refLayout c.ref
  let n ← bits 5
  foldN (group ref.idx) (n + 1) 0 { c.groups with sig := ⟨0, 0, 0, 0, 0⟩, outCh := 0, hoaGroups := 0 }

theorem config_within (sub : Sub) (hsub : sub.Safe) (user : Nat) (c : Cfg) (hc : CfgOk c) (l : List Bool) (hl : l.length < 2048)
    (hobj : ∀ g l', run (groupsOf c) l = .ok (g, l') → g.sig.obj ≤ 24) :
    run (config sub user c) l ≠ .ub ∧ ∀ c' l', run (config sub user c) l = .ok (c', l') → CfgOk c' := by
  -- everything after the groups
  have rest : ∀ (profile rate frameIdx delayComp n : Nat) (ref : Layout) (g : Groups), n + 1 ≤ 16 → LayoutOk ref →
      GroupsOk (n + 1) g → g.sig.obj ≤ 24 → Within 2048 (do
        let same ← sameTypes g.types (n + 1)
        if n + 1 > 1 ∧ delayComp = 0 ∧ same = false then fail (.other 0xFFFF9003)
        else do
          let refCh ← (if ref.type = 0 then getAt Speaker.numLsTbl ref.idx else pure ref.num)
          let dec ← decoderConfig sub g.sig c.dec
          (if g.core > 16 ∨ refCh > 16 then bigCheck (dec.elems.take dec.numElem) else pure ())
          let c ← extPart sub user { c with
            rate, frameIdx, delayComp, ref, numGroups := n + 1, groups := g, dec,
            fmtConv := if g.sig.chGroups < 1 ∨ user = 0 then 0 else 1 }
          if profile < 11 then fail (.other 0xFFFF901B)
          else do
            let u := useCompat profile g.core c.ext.compat 0
            match levelOk u.1 g.core refCh g.hoaGroups g.sig.chGroups with
            | none => fail (.other 0xFFFF901B)
            | some false => fail errChans
            | some true =>
              pure { c with profile := u.1, base3b := if 16 ≤ u.1 ∧ u.1 ≤ 18 ∧ g.core > 16 then 0 else u.2 }) CfgOk := by
    intro profile rate frameIdx delayComp n ref g hn href hg ho
    have hgr := hg.groups
    refine Within.bind (sameTypes_safe g.types (n + 1) (by rw [hg.types]; omega)).within fun same _ => ?_
    refine Within.ite (fun _ => Within.fail) fun _ => ?_
    refine Within.bind (R := fun _ => True) ?_ fun refCh _ => ?_
    · refine Within.ite (fun _ => ?_) fun _ => Within.pure trivial
      exact ((Safe.getAt (by rw [numLs_length]; have := href.idx; omega)).mono fun _ _ => trivial).within
    refine Within.bind (C99_elements_partial sub hsub g.sig ⟨by omega, by omega, ho⟩ c.dec hc.dec).within fun dec hdec => ?_
    refine Within.bind (R := fun _ => True) (Within.ite (fun _ => (bigCheck_safe _).within) fun _ => Within.pure trivial)
      fun _ _ => ?_
    refine Within.bind (extPart_within sub hsub user _ ?_) fun c' hc' => ?_
    · exact ⟨href, hg.types, hg.numSig, hg.differs, hg.layouts, hg.layoutOk, hdec, hc.ext, hn⟩
    refine Within.ite (fun _ => Within.fail) fun _ => ?_
    dsimp only
    split
    · exact Within.fail
    · exact Within.fail
    · exact Within.pure ⟨hc'.ref, hc'.types, hc'.numSig, hc'.differs, hc'.layouts, hc'.layoutOk, hc'.dec, hc'.ext, hc'.count⟩
  -- the start
  have go : ∀ r : Res (Cfg × List Bool), r = run (config sub user c) l → r ≠ .ub ∧ ∀ c' l', r = .ok (c', l') → CfgOk c' := by
    intro r hr
    unfold config at hr
    unfold groupsOf at hobj
    have trivialCase : ∀ {x : Res (Cfg × List Bool)}, (x = .jump ∨ ∃ e, x = .err e) → x ≠ .ub ∧ ∀ c' l', x = .ok (c', l') → CfgOk c' := by
      rintro x (rfl | ⟨e, rfl⟩)
      · exact ⟨by simp, by simp⟩
      · exact ⟨by simp, by simp⟩
    -- one step
    have step : ∀ {α β : Type} (p : Prog α) (f : α → Prog Cfg) (g : α → Prog β) (Q : α → Prop) (l : List Bool)
        (A : β → List Bool → Prop), Safe p Q → (∀ g' l', run (p >>= g) l = .ok (g', l') → A g' l') →
        (∀ a l', Q a → l'.length ≤ l.length → (∀ g' l'', run (g a) l' = .ok (g', l'') → A g' l'') →
          run (f a) l' ≠ .ub ∧ ∀ c' l'', run (f a) l' = .ok (c', l'') → CfgOk c') →
        run (p >>= f) l ≠ .ub ∧ ∀ c' l', run (p >>= f) l = .ok (c', l') → CfgOk c' := by
      intro α β p f g Q l A hp hA hf
      rw [run_bind] at hA ⊢
      obtain ⟨h1, h2⟩ := hp l
      cases hr : run p l with
      | ok x =>
        obtain ⟨a, l1⟩ := x
        rw [hr, Res.ok_bind] at hA
        simp only [Res.ok_bind]
        exact hf a l1 (h2 a l1 hr) (run_length_le p l hr) hA
      | jump => exact ⟨by simp, fun a l' e => by simp at e⟩
      | err c => exact ⟨by simp, fun a l' e => by simp at e⟩
      | ub => exact absurd hr h1
    rw [hr]
    refine step _ _ _ _ l (fun (g : Groups) _ => g.sig.obj ≤ 24) (Safe.bits (by decide)) hobj fun profile l1 _ k1 hobj => ?_
    refine step _ _ _ _ l1 (fun (g : Groups) _ => g.sig.obj ≤ 24) sampleRate_safe hobj fun rate l2 _ k2 hobj => ?_
    refine step _ _ _ _ l2 (fun (g : Groups) _ => g.sig.obj ≤ 24) (Safe.bits (by decide)) hobj fun frameIdx l3 _ k3 hobj => ?_
    dsimp only
    split
    · exact trivialCase (Or.inr ⟨_, rfl⟩)
    refine step _ _ _ _ l3 (fun (g : Groups) _ => g.sig.obj ≤ 24) (Safe.drop (by decide)) hobj fun _ l4 _ k4 hobj => ?_
    refine step _ _ _ _ l4 (fun (g : Groups) _ => g.sig.obj ≤ 24) (Safe.bits (by decide)) hobj fun delayComp l5 _ k5 hobj => ?_
    refine step _ _ _ _ l5 (fun (g : Groups) _ => g.sig.obj ≤ 24) (refLayout_safe c.ref hc.ref) hobj fun ref l6 href k6 hobj => ?_
    refine step _ _ _ _ l6 (fun (g : Groups) _ => g.sig.obj ≤ 24) (Safe.bits (by decide)) hobj fun n l7 _ k7 hobj => ?_
    split
    · exact trivialCase (Or.inr ⟨_, rfl⟩)
    rename_i hn
    split
    · exact trivialCase (Or.inr ⟨_, rfl⟩)
    have hgs := Safe.foldN GroupsOk (n + 1) 0 { c.groups with sig := ⟨0, 0, 0, 0, 0⟩, outCh := 0, hoaGroups := 0 }
      ⟨hc.types, hc.numSig, hc.differs, hc.layouts, hc.layoutOk, Nat.le_refl 0, Nat.zero_le 24⟩
      fun j t _ hj ht => group_safe ref.idx href.idx j (by omega) t ht
    rw [Nat.zero_add] at hgs
    rw [run_bind]
    obtain ⟨h1, h2⟩ := hgs l7
    cases hr : run (foldN (group ref.idx) (n + 1) 0 { c.groups with sig := ⟨0, 0, 0, 0, 0⟩, outCh := 0, hoaGroups := 0 }) l7 with
    | ok x =>
      obtain ⟨g, l8⟩ := x
      have k8 := run_length_le _ _ hr
      exact rest profile rate frameIdx delayComp n ref g (by omega) href (h2 g l8 hr) (hobj g l8 hr) l8 (by omega)
    | jump => exact trivialCase (Or.inl rfl)
    | err c => exact trivialCase (Or.inr ⟨_, rfl⟩)
    | ub => exact absurd hr h1
  exact go _ rfl

/-- **C99, the part that holds, whole configurations.** A configuration of less than 256 bytes that declares at
most 24 objects is read inside the tables, and leaves them so that the same holds for the next one.  Missing:
more objects (C94), and longer configurations with a downmix matrix of more than 256 bytes (C93). -/
theorem C99_short_partial (sub : Sub) (hsub : sub.Safe) (user : Nat) (c : Cfg) (hc : CfgOk c) (l : List Bool) (hl : l.length < 2048)
    (hobj : ∀ g l', run (groupsOf (if c.ext.asiPresent = 0 then Cfg.zero else c)) l = .ok (g, l') → g.sig.obj ≤ 24) :
    run (configDec sub user c) l ≠ .ub ∧ ∀ c' l', run (configDec sub user c) l = .ok (c', l') → CfgOk c' := by
  unfold configDec
  dsimp only
  generalize hc0 : (if c.ext.asiPresent = 0 then Cfg.zero else c) = c0 at hobj ⊢
  have hc0' : CfgOk c0 := by
    rw [← hc0]
    split
    · exact cfgOk_zero
    · exact hc
  have := config_within sub hsub user { c0 with dec := { c0.dec with elems := c0.dec.elems.map fun e => { e with kind := 255 } } }
    ⟨hc0'.ref, hc0'.types, hc0'.numSig, hc0'.differs, hc0'.layouts, hc0'.layoutOk,
      ⟨by simpa using hc0'.dec.elems, hc0'.dec.chns, hc0'.dec.screen, hc0'.dec.enh⟩, hc0'.ext, hc0'.count⟩ l hl hobj
  rw [run_bind]
  cases hr : run (config sub user { c0 with dec := { c0.dec with elems := c0.dec.elems.map fun e => { e with kind := 255 } } }) l with
  | ok x =>
    obtain ⟨x1, x2⟩ := x
    have h := this.2 x1 x2 hr
    rw [Res.ok_bind]
    dsimp only
    split
    · simp only [run_pure, ne_eq, reduceCtorEq, not_false_eq_true, Res.ok.injEq, Prod.mk.injEq, true_and]
      rintro c' l' ⟨rfl, rfl⟩
      exact h
    · simp only [run_pure, ne_eq, reduceCtorEq, not_false_eq_true, Res.ok.injEq, Prod.mk.injEq, true_and]
      rintro c' l' ⟨rfl, rfl⟩
      have hn := h.count
      refine ⟨h.ref, h.types, h.numSig, h.differs, h.layouts, h.layoutOk, h.dec, ⟨?_, ?_⟩, hn⟩
      · simp only [List.length_append, List.length_replicate, List.length_drop, h.ext.1]
        omega
      · simp only [List.length_append, List.length_replicate, List.length_drop, h.ext.2]
        omega
  | jump => exact ⟨by simp, fun a l' e => by simp at e⟩
  | err c => exact ⟨by simp, fun a l' e => by simp at e⟩
  | ub => exact absurd hr this.1

/-- **C99, sequences of configurations.** Configurations read one after the other by one decoder. -/
inductive Reads (sub : Sub) (user : Nat) : Cfg → List (List Bool) → Cfg → Prop where
  | nil (c : Cfg) : Reads sub user c [] c
  | cons {c c' c'' : Cfg} {l l' : List Bool} {ls : List (List Bool)} :
      run (configDec sub user c) l = .ok (c', l') → Reads sub user c' ls c'' → Reads sub user c (l :: ls) c''

/-- What `C99_short_partial` asks of a configuration. -/
def Plain (c : Cfg) (l : List Bool) : Prop := l.length < 2048 ∧
  ∀ g l', run (groupsOf (if c.ext.asiPresent = 0 then Cfg.zero else c)) l = .ok (g, l') → g.sig.obj ≤ 24

/-- **C99, the part that holds, sequences.** After any number of accepted configurations of a new decoder, all of
less than 256 bytes and with at most 24 objects, the next such configuration is read inside the tables. -/
theorem C99_sequence_partial (sub : Sub) (hsub : sub.Safe) (user : Nat) (ls : List (List Bool)) (c : Cfg)
    (h : Reads sub user Cfg.zero ls c) (hp : ∀ c' ls' l ls'', ls = ls' ++ l :: ls'' → Reads sub user Cfg.zero ls' c' → Plain c' l)
    (l : List Bool) (hl : Plain c l) : run (configDec sub user c) l ≠ .ub := by
  have key : ∀ (pre ls : List (List Bool)) (c0 c : Cfg), Reads sub user Cfg.zero pre c0 → CfgOk c0 → Reads sub user c0 ls c →
      (∀ c' ls' l ls'', pre ++ ls = ls' ++ l :: ls'' → Reads sub user Cfg.zero ls' c' → Plain c' l) → CfgOk c := by
    intro pre ls
    induction ls generalizing pre with
    | nil =>
      intro c0 c _ h0 h _
      cases h
      exact h0
    | cons l ls ih =>
      intro c0 c hpre h0 h hp
      cases h with
      | cons h1 h2 =>
        rename_i c1 l1
        obtain ⟨p1, p2⟩ := hp c0 pre l ls rfl hpre
        have hsnoc : ∀ (a : Cfg), Reads sub user a pre c0 → Reads sub user a (pre ++ [l]) c1 := by
          clear ih hp hpre h0 p1 p2 h2
          induction pre with
          | nil => intro a ha; cases ha; exact Reads.cons h1 (Reads.nil _)
          | cons x xs ih => intro a ha; cases ha with
            | cons a1 a2 => exact Reads.cons a1 (ih _ a2)
        exact ih (pre ++ [l]) c1 c (hsnoc _ hpre) ((C99_short_partial sub hsub user c0 h0 l p1 p2).2 c1 l1 h1) h2
          (by simpa using hp)
  exact (C99_short_partial sub hsub user c (key [] ls Cfg.zero c (Reads.nil _) cfgOk_zero h (by simpa using hp)) l hl.1 hl.2).1

example : Plain Cfg.zero stereo ∧ ∃ c, Reads noSub 0 Cfg.zero [stereo] c := by
  refine ⟨⟨by decide, ?_⟩, ?_⟩
  · have h : (match run (groupsOf Cfg.zero) stereo with
      | .ok (g, _) => decide (g.sig.obj ≤ 24)
      | _ => true) = true := by decide +kernel
    intro g l' e
    have e' : run (groupsOf Cfg.zero) stereo = .ok (g, l') := by rwa [if_pos (by decide)] at e
    rw [e'] at h
    exact of_decide_eq_true h
  · obtain ⟨c, l, h, _⟩ := of_map (f := fun c : Cfg => (signals c, c.groups.sig.ch, c.dec.chns.take 2)) stereo_map
    exact ⟨c, Reads.cons h (Reads.nil c)⟩

end Verif.Config
