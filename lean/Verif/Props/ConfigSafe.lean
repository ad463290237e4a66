import Verif.Props.ConfigOam
import Verif.Props.ConfigDmx
import Verif.Props.Speaker

/-! # C99: reading a configuration stays inside the decoder's tables -/

namespace Verif.Config

open Prog

/-- Unmodelled parsers that are themselves in order. -/
def Sub.Safe (sub : Sub) : Prop :=
  Prog.Safe sub.hoa (fun _ => True) ∧ Prog.Safe sub.hoaMatrix (fun _ => True) ∧ Prog.Safe sub.asi (fun _ => True)

/-- The claim C99: reading a configuration with a new decoder has no undefined behaviour. -/
def ConfigDefined : Prop := ∀ (sub : Sub) (user : Nat) (l : List Bool), sub.Safe → run (configDec sub user Cfg.zero) l ≠ .ub

theorem noSub_safe : noSub.Safe := ⟨Safe.pure trivial, Safe.pure trivial, Safe.pure trivial⟩

/-- **C99, refuted.** By 25 objects (C94). -/
theorem C99_refuted : ¬ ConfigDefined := by
  intro H
  have h := C94_refuted_config
  refine H noSub 0 manyObjects noSub_safe ?_
  cases hr : run (configDec noSub 0 Cfg.zero) manyObjects with
  | ub => rfl
  | ok x => rw [hr] at h; cases h
  | jump => rw [hr] at h; cases h
  | err c => rw [hr] at h; cases h

/-! ## The parts that are in order -/

theorem escape_safe (b1 b2 b3 : Nat) (h1 : b1 ≤ 24) (h2 : b2 ≤ 24) (h3 : b3 ≤ 24) :
    Safe (readEscape b1 b2 b3) (fun _ => True) := by
  unfold readEscape
  have e : ∀ b ≤ 24, Safe (Prog.lift (WBuf.escMax b)) (fun _ => True) := by
    intro b hb
    unfold WBuf.escMax
    rw [if_pos (by omega)]
    exact Safe.pure trivial
  refine Safe.bind (e b1 h1) fun _ _ => ?_
  refine Safe.bind (e b2 h2) fun _ _ => ?_
  refine Safe.bits_bind h1 fun _ _ => ?_
  refine Safe.ite (fun _ => ?_) (fun _ => Safe.pure trivial)
  refine Safe.bits_bind h2 fun _ _ => ?_
  refine Safe.ite (fun _ => ?_) (fun _ => Safe.pure trivial)
  exact Safe.bits_bind h3 fun _ _ => Safe.pure trivial

theorem measured_safe {α : Type} {p : Prog α} {Q : α → Prop} (len : Nat) (h : Safe p Q) : Safe (measured len p) Q := by
  unfold measured
  refine Safe.bind Safe.avail fun a _ => ?_
  refine Safe.bind h fun x hx => ?_
  refine Safe.bind Safe.avail fun b _ => ?_
  refine Safe.ite (fun _ => Safe.fail) fun _ => Safe.ite (fun hlt => ?_) fun _ => Safe.pure hx
  exact Safe.bind (Safe.drop (by omega)) fun _ _ => Safe.pure hx

theorem atLeast_safe {α : Type} {p : Prog α} {Q : α → Prop} (len : Nat) (h : Safe p Q) : Safe (atLeast len p) Q := by
  unfold atLeast
  refine Safe.bind Safe.avail fun a _ => ?_
  refine Safe.bind h fun x hx => ?_
  refine Safe.bind Safe.avail fun b _ => ?_
  refine Safe.ite (fun hlt => ?_) fun _ => Safe.pure hx
  exact Safe.bind (Safe.drop (by omega)) fun _ _ => Safe.pure hx

theorem tableBits_safe (cap n k : Nat) (hn : n ≤ 24) (h : k ≤ cap) :
    Safe (forN (fun i => do inTable i cap; bits n) k 0) (fun _ => True) := by
  refine Safe.mono (Safe.forN (P := fun _ => True) k 0 fun j _ hj => ?_) fun _ _ => trivial
  refine Safe.bind (Safe.inTable (by omega) (by omega)) fun _ _ => ?_
  exact Safe.mono (Safe.bits hn) fun _ _ => trivial

theorem oamCfg_safe (n : Nat) (hn : n ≤ 24) (o : Oam) (ho : o.screen.length = 24) :
    Safe (oamCfg 1024 n o) (fun r => r.2.screen.length = 24) := by
  unfold oamCfg
  refine Safe.bits_bind (by decide) fun ld _ => ?_
  refine Safe.bits_bind (by decide) fun core _ => ?_
  refine Safe.bind (Safe.optBits (by decide)) fun fl _ => ?_
  refine Safe.ite (fun _ => Safe.pure ho) fun _ => ?_
  refine Safe.bits_bind (by decide) fun scr _ => ?_
  refine Safe.bind (R := fun o : Oam => o.screen.length = 24) ?_ fun o' ho' => ?_
  · refine Safe.ite (fun _ => ?_) fun _ => Safe.pure ho
    refine Safe.bind (Safe.foldN (fun _ s => s.1.length = 24) n 0 _ ho fun j t _ hj ht => ?_) fun r hr => Safe.pure hr
    refine Safe.bits_bind (by decide) fun b _ => ?_
    refine Safe.bind (Safe.setAt (by omega)) fun t' ht' => Safe.pure ?_
    rw [ht']
    simpa using ht
  · refine Safe.bits_bind (by decide) fun dyn _ => ?_
    exact Safe.bits_bind (by decide) fun uniform _ => Safe.pure ho'

/-- Arrays of the declared sizes. -/
structure DecOk (d : Dec) : Prop where
  elems : d.elems.length = 50
  chns : d.chns.length = 50
  screen : d.oam.screen.length = 24
  enh : EnhLen d.enh

/-- What the groups of a configuration always satisfy, and at most 24 objects. -/
def SigOk (g : Sig) : Prop := g.objGroups ≤ 32 ∧ g.chGroups ≤ 32 ∧ g.obj ≤ 24

theorem prodMeta_safe (g : Sig) (h : SigOk g) : Safe (prodMeta g) (fun _ => True) := by
  obtain ⟨h1, h2, _⟩ := h
  unfold prodMeta
  refine Safe.bits_bind (by decide) fun d _ => ?_
  refine Safe.bind (Safe.optBits (by decide)) fun _ _ => ?_
  refine Safe.bind (tableBits_safe 32 1 g.objGroups (by decide) h1) fun _ _ => ?_
  exact Safe.bind (tableBits_safe 32 1 g.chGroups (by decide) h2) fun _ _ => Safe.pure trivial

theorem extBody_safe (sub : Sub) (hsub : sub.Safe) (g : Sig) (hg : SigOk g) (idx ty len flag : Nat) (hl : len < 1536) (e : Elem)
    (d : Dec) (hd : DecOk d) : Safe (extBody sub g idx ty len flag e d) (fun r => DecOk r.2) := by
  unfold extBody
  refine Safe.ite (fun _ => Safe.bind (measured_safe _ (prodMeta_safe g hg)) fun _ _ => Safe.pure hd) fun _ => ?_
  refine Safe.ite (fun _ => ?_) fun _ => ?_
  · refine Safe.bind (measured_safe (Q := EnhLen) _ (Safe.ite (fun _ => Safe.fail) fun _ =>
      Safe.mono (enhCfg_safe g.obj hg.2.2 d.enh hd.enh) fun _ h => h.2)) fun enh he => ?_
    exact Safe.pure ⟨hd.elems, hd.chns, hd.screen, he⟩
  refine Safe.ite (fun _ => Safe.bind (measured_safe _ hsub.1) fun _ _ => Safe.pure hd) fun _ => ?_
  refine Safe.ite (fun _ => ?_) fun _ => ?_
  · refine Safe.bind (measured_safe _ (oamCfg_safe g.obj hg.2.2 d.oam hd.screen)) fun r hr => ?_
    exact Safe.pure ⟨hd.elems, hd.chns, hr, hd.enh⟩
  refine Safe.ite (fun _ => ?_) fun _ => ?_
  · refine Safe.ite (fun _ => Safe.fail) fun _ => Safe.ite (fun _ => Safe.fail) fun _ => ?_
    exact Safe.bind (tableBits_safe 1536 8 len (by decide) (by omega)) fun _ _ => Safe.pure hd
  refine Safe.ite (fun _ => ?_) fun _ => ?_
  · exact Safe.ite (fun _ => Safe.fail) fun _ => Safe.pure ⟨hd.elems, hd.chns, hd.screen, hd.enh⟩
  refine Safe.ite (fun _ => Safe.ite (fun _ => Safe.fail) fun _ => Safe.pure hd) fun _ => ?_
  refine Safe.bind Safe.avail fun a _ => Safe.ite (fun _ => Safe.fail) fun _ => ?_
  exact Safe.bind (Safe.drop (by omega)) fun _ _ => Safe.pure hd

theorem tools_safe (nb : Nat) (h : nb ≤ 24) (e : Elem) : Safe (tools nb e) (fun _ => True) := by
  unfold tools
  refine Safe.bits_bind (by decide) fun _ _ => Safe.ite (fun _ => Safe.fail) fun _ => ?_
  refine Safe.bits_bind (by decide) fun _ _ => ?_
  refine Safe.bits_bind (by decide) fun _ _ => ?_
  refine Safe.bits_bind (by decide) fun _ _ => ?_
  exact Safe.bind (Safe.when fun _ => Safe.bits_bind h fun _ _ => Safe.pure trivial) fun _ _ => Safe.pure trivial

theorem next_lt (chns : List Int) (h : chns.length = 50) : nextIdx chns < 50 := by
  unfold nextIdx
  cases hf : (chns.take 24).findIdx? (· < 0) with
  | none => simp
  | some i =>
    have := (List.findIdx?_eq_some_iff_findIdx_eq.mp hf).1
    simp at this
    simp; omega

theorem mapEle_len (chns : List Int) (a b : Nat) (h : chns.length = 50) : (mapEle chns a b).1.length = 50 := by simpa [mapEle] using h

theorem cpe_safe (t : Nat) (e : Elem) (chns : List Int) (h : chns.length = 50) :
    Safe (cpeConfig t e chns) (fun r => r.2.length = 50) := by
  have hs : shiftBits t ≤ 24 := by unfold shiftBits; split_ifs <;> decide
  unfold cpeConfig
  refine Safe.bind (tools_safe 14 (by decide) e) fun e _ => ?_
  refine Safe.bits_bind (by decide) fun _ _ => Safe.ite (fun _ => Safe.fail) fun _ => ?_
  have h1 := mapEle_len chns 0 0 h
  refine Safe.bind (Safe.getAt (by rw [h1]; exact next_lt chns h)) fun _ _ => Safe.ite (fun _ => Safe.fail) fun _ => ?_
  refine Safe.bits_bind (by decide) fun sh _ => ?_
  refine Safe.bind (Safe.optBits hs) fun sc _ => ?_
  have h2 := mapEle_len _ sh sc h1
  refine Safe.bind (Safe.getAt (by rw [h2]; exact next_lt _ h1)) fun _ _ => Safe.ite (fun _ => Safe.fail) fun _ => ?_
  exact Safe.bits_bind (by decide) fun _ _ => Safe.pure h2

theorem element_safe (sub : Sub) (hsub : sub.Safe) (g : Sig) (hg : SigOk g) (idx : Nat) (hi : idx < 50) (d : Dec) (hd : DecOk d) :
    Safe (element sub g idx d) DecOk := by
  have hset : ∀ (d : Dec) (e : Elem), DecOk d → (d.elems.set idx e).length = 50 := fun d e h => by simpa using h.elems
  unfold element
  refine Safe.bind (Safe.getAt (by rw [hd.elems]; exact hi)) fun e _ => ?_
  refine Safe.bits_bind (by decide) fun kind _ => ?_
  refine Safe.ite (fun _ => ?_) fun _ => Safe.ite (fun _ => ?_) fun _ => Safe.ite (fun _ => ?_) fun _ => ?_
  · refine Safe.bind (R := fun r => DecOk r.2) ?_ fun r hr => ?_
    · unfold extElement
      refine Safe.bind (escape_safe 4 8 16 (by decide) (by decide) (by decide)) fun ty _ => ?_
      refine Safe.bind (escape_safe 4 8 16 (by decide) (by decide) (by decide)) fun len _ => ?_
      refine Safe.ite (fun _ => Safe.fail) fun hl => ?_
      refine Safe.bits_bind (by decide) fun flag _ => ?_
      refine Safe.bind (R := fun _ => True) (Safe.ite (fun _ => escape_safe 8 16 0 (by decide) (by decide) (by decide))
        fun _ => Safe.pure trivial) fun dl _ => ?_
      refine Safe.bits_bind (by decide) fun frag _ => ?_
      exact extBody_safe sub hsub g hg idx ty len flag (by omega) _ d hd
    · refine Safe.bind (Safe.setAt (by rw [hr.elems]; exact hi)) fun t ht => ?_
      subst ht
      exact Safe.pure ⟨hset _ _ hr, hr.chns, hr.screen, hr.enh⟩
  · refine Safe.bind (Safe.setAt (by rw [hd.elems]; exact hi)) fun t ht => ?_
    subst ht
    exact Safe.pure ⟨hset _ _ hd, mapEle_len _ _ _ hd.chns, hd.screen, hd.enh⟩
  · refine Safe.bind (cpe_safe _ _ _ hd.chns) fun r hr => ?_
    refine Safe.bind (Safe.setAt (by rw [hd.elems]; exact hi)) fun t ht => ?_
    subst ht
    exact Safe.pure ⟨hset _ _ hd, hr, hd.screen, hd.enh⟩
  · refine Safe.bind (tools_safe 13 (by decide) _) fun e _ => ?_
    refine Safe.bind (Safe.setAt (by rw [hd.elems]; exact hi)) fun t ht => ?_
    subst ht
    exact Safe.pure ⟨hset _ _ hd, mapEle_len _ _ _ hd.chns, hd.screen, hd.enh⟩

/-- **C99, the part that holds, elements.** With at most 24 objects the elements are read inside the tables,
whatever an earlier configuration left in them.  Missing: more objects. -/
theorem C99_elements_partial (sub : Sub) (hsub : sub.Safe) (g : Sig) (hg : SigOk g) (d : Dec) (hd : DecOk d) :
    Safe (decoderConfig sub g d) DecOk := by
  unfold decoderConfig
  refine Safe.bind (escape_safe 4 8 16 (by decide) (by decide) (by decide)) fun n _ => ?_
  refine Safe.ite (fun _ => Safe.fail) fun hn => ?_
  refine Safe.bits_bind (by decide) fun lp _ => ?_
  refine Safe.foldN (fun _ => DecOk) (n + 1) 0 _ ⟨hd.elems, List.length_replicate .., hd.screen, hd.enh⟩ fun j t _ hj ht => ?_
  exact element_safe sub hsub g hg j (by omega) t ht

example : DecOk Dec.zero := ⟨by decide, by decide, by decide, by decide, by decide, by decide⟩

/-! ### Groups and layouts -/

/-- Arrays of the declared sizes, and a layout number within the table. -/
structure LayoutOk (r : Layout) : Prop where
  idx : r.idx ≤ 20
  spk : r.spk.length = 24
  flex : Speaker.DescrOk r.flex

theorem speakers_safe (lim : Nat → Prop) [DecidablePred lim] (n : Nat) (hn : n ≤ 24) (t : List Nat) (ht : t.length = 24)
    (c : ErrCode) :
    Safe (foldN (fun i t => do
      let k ← bits 7
      let t ← setAt t i k
      if lim k then fail c else pure t) n 0 t) (fun t => t.length = 24) := by
  refine Safe.foldN (fun _ t => t.length = 24) n 0 t ht fun j t _ hj ht => ?_
  refine Safe.bits_bind (by decide) fun k _ => ?_
  refine Safe.bind (Safe.setAt (by omega)) fun t' ht' => ?_
  refine Safe.ite (fun _ => Safe.fail) fun _ => Safe.pure ?_
  rw [ht']
  simpa using ht

theorem refLayout_safe (r : Layout) (h : LayoutOk r) : Safe (refLayout r) LayoutOk := by
  unfold refLayout
  refine Safe.bits_bind (by decide) fun type _ => ?_
  refine Safe.ite (fun _ => ?_) fun _ => ?_
  · refine Safe.bind (escape_safe 5 8 16 (by decide) (by decide) (by decide)) fun n _ => ?_
    refine Safe.ite (fun _ => Safe.fail) fun hn => Safe.ite (fun _ => ?_) fun _ => Safe.ite (fun _ => ?_) fun _ => ?_
    · refine Safe.bind (Speaker.C74_flex_safe r.flex h.flex (n + 1) (by simp [Speaker.maxSpeakers]; omega)) fun f hf => ?_
      exact Safe.ite (fun _ => Safe.fail) fun h20 => Safe.pure ⟨by simp only; omega, h.spk, hf⟩
    · refine Safe.bind (speakers_safe (· ≥ 43) (n + 1) (by omega) r.spk h.spk _) fun t ht => ?_
      exact Safe.pure ⟨h.idx, ht, h.flex⟩
    · exact Safe.pure ⟨h.idx, h.spk, h.flex⟩
  · refine Safe.bits_bind (by decide) fun idx _ => ?_
    exact Safe.ite (fun _ => Safe.fail) fun hi => Safe.pure ⟨by simp only; omega, h.spk, h.flex⟩

theorem numLs_length : Speaker.numLsTbl.length = 21 := rfl

theorem groupLayout_safe (refIdx ch : Nat) (hr : refIdx ≤ 20) (r : Layout) (h : LayoutOk r) :
    Safe (groupLayout refIdx ch r) LayoutOk := by
  unfold groupLayout
  refine Safe.bits_bind (by decide) fun type _ => ?_
  refine Safe.bind (R := LayoutOk) ?_ fun r' hr' => ?_
  · refine Safe.ite (fun _ => ?_) fun _ => ?_
    · refine Safe.bind (escape_safe 5 8 16 (by decide) (by decide) (by decide)) fun n _ => ?_
      refine Safe.ite (fun _ => Safe.fail) fun hn => Safe.ite (fun _ => ?_) fun _ => Safe.ite (fun _ => ?_) fun _ => ?_
      · refine Safe.bind (Speaker.C74_flex_safe r.flex h.flex (n + 1) (by simp [Speaker.maxSpeakers]; omega)) fun f hf => ?_
        exact Safe.pure ⟨h.idx, h.spk, hf⟩
      · refine Safe.bind (speakers_safe (· > 42) (n + 1) (by omega) r.spk h.spk _) fun t ht => ?_
        exact Safe.pure ⟨h.idx, ht, h.flex⟩
      · exact Safe.pure ⟨h.idx, h.spk, h.flex⟩
    · refine Safe.bits_bind (by decide) fun idx _ => ?_
      exact Safe.ite (fun _ => Safe.fail) fun hi => Safe.pure ⟨by simp only; omega, h.spk, h.flex⟩
  · refine Safe.bind (Safe.getAt (by rw [numLs_length]; have := hr'.idx; omega)) fun a _ => ?_
    refine Safe.ite (fun _ => ?_) fun _ => Safe.pure hr'
    refine Safe.bind (Safe.getAt (by rw [numLs_length]; omega)) fun b _ => ?_
    exact Safe.ite (fun _ => Safe.fail) fun _ => Safe.pure hr'

/-- The groups after `i` of them have been read. -/
structure GroupsOk (i : Nat) (s : Groups) : Prop where
  types : s.types.length = 32
  numSig : s.numSig.length = 32
  differs : s.differs.length = 32
  layouts : s.layouts.length = 32
  layoutOk : ∀ r ∈ s.layouts, LayoutOk r
  groups : s.sig.objGroups + s.sig.chGroups ≤ i
  ch : s.sig.ch ≤ 24

theorem group_safe (refIdx : Nat) (hr : refIdx ≤ 20) (i : Nat) (hi : i < 16) (s : Groups) (h : GroupsOk i s) :
    Safe (group refIdx i s) (GroupsOk (i + 1)) := by
  have hg := h.groups
  unfold group
  refine Safe.bits_bind (by decide) fun ty _ => ?_
  refine Safe.bind (Safe.setAt (by rw [h.types]; omega)) fun types ht => ?_
  refine Safe.bind (escape_safe 5 8 16 (by decide) (by decide) (by decide)) fun v _ => ?_
  refine Safe.bind (Safe.setAt (by rw [h.numSig]; omega)) fun numSig hn => ?_
  subst ht hn
  have h1 : (s.types.set i ty).length = 32 := by simpa using h.types
  have h2 : (s.numSig.set i (v + 1)).length = 32 := by simpa using h.numSig
  refine Safe.ite (fun _ => ?_) fun _ => Safe.ite (fun _ => ?_) fun _ => Safe.ite (fun _ => ?_) fun _ =>
    Safe.ite (fun _ => ?_) fun _ => Safe.fail
  · refine Safe.ite (fun _ => Safe.fail) fun _ => Safe.pure ?_
    exact ⟨h1, h2, h.differs, h.layouts, h.layoutOk, Nat.le_succ_of_le hg, h.ch⟩
  · refine Safe.bits_bind (by decide) fun b _ => ?_
    refine Safe.bind (Safe.when fun _ => Safe.drop (by decide)) fun _ _ => Safe.pure ?_
    exact ⟨h1, h2, h.differs, h.layouts, h.layoutOk, Nat.le_succ_of_le hg, h.ch⟩
  · refine Safe.ite (fun _ => Safe.fail) fun _ => Safe.pure ?_
    exact ⟨h1, h2, h.differs, h.layouts, h.layoutOk, by simp only; omega, h.ch⟩
  · refine Safe.ite (fun _ => Safe.fail) fun hc => ?_
    simp only at hc
    refine Safe.bits_bind (by decide) fun df _ => ?_
    refine Safe.bind (Safe.setAt (by rw [h.differs]; omega)) fun differs hd => ?_
    subst hd
    have h3 : (s.differs.set i df).length = 32 := by simpa using h.differs
    refine Safe.ite (fun _ => ?_) fun _ => Safe.pure
      ⟨h1, h2, h3, h.layouts, h.layoutOk, by simp only; omega, by simp only; omega⟩
    have hk : s.sig.chGroups < s.layouts.length := by rw [h.layouts]; omega
    refine Safe.bind (Safe.getAt hk) fun l hl => ?_
    refine Safe.bind (groupLayout_safe refIdx _ hr l (h.layoutOk l (List.mem_of_getElem? hl))) fun l' hl' => ?_
    refine Safe.bind (Safe.setAt hk) fun t ht => ?_
    subst ht
    refine Safe.pure ⟨h1, h2, h3, by simpa using h.layouts, fun r hr => ?_, by simp only; omega, by simp only; omega⟩
    rcases List.mem_or_eq_of_mem_set hr with hr | rfl
    · exact h.layoutOk r hr
    · exact hl'

/-- **C99, the part that holds, groups.** The reference layout and up to 16 groups are read inside the tables,
whatever an earlier configuration left in them. -/
theorem C99_groups_partial (r : Layout) (h : LayoutOk r) (s : Groups) (hs : GroupsOk 0 s) (n : Nat) (hn : n ≤ 16) :
    Safe (do
      let ref ← refLayout r
      foldN (group ref.idx) n 0 s) (GroupsOk n) := by
  refine Safe.bind (refLayout_safe r h) fun ref href => ?_
  have := Safe.foldN GroupsOk n 0 s hs fun j t _ hj ht => group_safe ref.idx href.idx j (by omega) t ht
  rwa [Nat.zero_add] at this

theorem descr_zero : Speaker.DescrOk (List.replicate 32 Speaker.Descr.zero) := by
  refine ⟨rfl, fun d hd => ?_⟩
  rw [(List.mem_replicate.mp hd).2]
  decide

theorem layout_zero : LayoutOk Layout.zero := ⟨by decide, rfl, descr_zero⟩

example : GroupsOk 0 Groups.zero := by
  refine ⟨rfl, rfl, rfl, rfl, fun r hr => ?_, by decide, by decide⟩
  rw [(List.mem_replicate.mp hr).2]
  exact layout_zero

/-! ### Configuration extensions -/

theorem compatSet_safe : Safe compatSet (fun _ => True) := by
  unfold compatSet
  refine Safe.bits_bind (by decide) fun n hn => ?_
  refine Safe.bits_bind (by decide) fun _ _ => ?_
  refine Safe.foldN (fun _ _ => True) (n + 1) 0 _ trivial fun j t _ hj _ => ?_
  refine Safe.bits_bind (by decide) fun v _ => ?_
  exact Safe.bind (Safe.inTable (by omega) (by norm_num at hn; omega)) fun _ _ => Safe.pure trivial

/-- **C99, the part that holds, extensions.** Every configuration extension except the downmix matrices is read
inside the tables.  Missing: downmix matrices (C93). -/
theorem C99_extensions_partial (sub : Sub) (hsub : sub.Safe) (lp n layout j ty len : Nat) (hn : n ≤ 16) (hl : len ≤ 1536)
    (hty : ty ≠ 1) (x : Ext) (hp : x.prio.length = 32) (hf : x.fixed.length = 32) :
    Safe (extension sub lp n layout j ty len x) (fun x' => x'.prio.length = 32 ∧ x'.fixed.length = 32) := by
  unfold extension
  refine Safe.ite (fun _ => Safe.bind compatSet_safe fun _ _ => Safe.pure ⟨hp, hf⟩) fun _ => ?_
  refine Safe.ite (fun _ => Safe.ite (fun _ => Safe.fail) fun _ =>
    Safe.bind (atLeast_safe _ hsub.2.1) fun _ _ => Safe.pure ⟨hp, hf⟩) fun _ => ?_
  rw [if_neg hty]
  refine Safe.ite (fun _ => Safe.bind (tableBits_safe 1536 8 len (by decide) hl) fun _ _ => Safe.pure ⟨hp, hf⟩) fun _ => ?_
  refine Safe.ite (fun _ => Safe.ite (fun _ => Safe.fail) fun _ =>
    Safe.bind (atLeast_safe _ hsub.2.2) fun _ _ => Safe.pure ⟨hp, hf⟩) fun _ => ?_
  refine Safe.ite (fun _ => ?_) fun _ => ?_
  · refine Safe.bind (R := fun t => t.1.length = 32 ∧ t.2.length = 32) ?_ fun t ht => Safe.pure ht
    unfold sigGroupInfo
    refine Safe.foldN (fun _ (t : List Nat × List Nat) => t.1.length = 32 ∧ t.2.length = 32) (n + 1) 0 _ ⟨hp, hf⟩
      fun i t _ hi ht => ?_
    refine Safe.bits_bind (by decide) fun p _ => ?_
    refine Safe.bind (Safe.setAt (by omega)) fun a ha => ?_
    refine Safe.bits_bind (by decide) fun f _ => ?_
    refine Safe.bind (Safe.setAt (by omega)) fun b hb => Safe.pure ?_
    subst ha hb
    simpa using ht
  refine Safe.ite (fun _ => ?_) fun _ => ?_
  · refine Safe.bind (Safe.forN (P := fun _ => True) len 0 fun i _ _ => ?_) fun _ _ => Safe.pure ⟨hp, hf⟩
    refine Safe.bits_bind (by decide) fun b _ => ?_
    exact Safe.ite (fun _ => Safe.fail) fun _ => Safe.pure trivial
  refine Safe.bind Safe.avail fun a _ => Safe.ite (fun _ => Safe.fail) fun _ => ?_
  exact Safe.bind (Safe.drop (by omega)) fun _ _ => Safe.pure ⟨hp, hf⟩

end Verif.Config
