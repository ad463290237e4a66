import Verif.Model.EnhOam
import Verif.Props.Oam
import Verif.Proofs.Fields

/-! # Properties of enhanced object metadata and of sub-frame selection (C41, C60, C61, C62, C63) -/

namespace Verif.EnhOam

open Prog

/-- The arrays of an object have their declared sizes and the sector counts fit them. -/
structure ObjOk (o : Obj) : Prop where
  sec : o.sec.length = 15
  psec : o.psec.length = 15
  num : o.num ≤ 15
  pnum : o.pnum ≤ 15

/-- Two sectors agree, the flag `use_predefined_sector` excepted. -/
def SameSector (a b : Sector) : Prop :=
  a.index = b.index ∧ a.minAz = b.minAz ∧ a.maxAz = b.maxAz ∧ a.minEl = b.minEl ∧ a.maxEl = b.maxEl

/-- If the exclusion sectors of `o'` are marked as kept, they are those of `o` (but for
`use_predefined_sector`). -/
def ExclKept (o o' : Obj) : Prop :=
  o'.keepExcl ≠ 0 → o'.num = o.num ∧
    ∀ j < o.num, ∃ a b, o.sec[j]? = some a ∧ o'.sec[j]? = some b ∧ SameSector b a

def DiffKept (o o' : Obj) : Prop := o'.keepDiff ≠ 0 → o'.diff = o.diff

def DivKept (o o' : Obj) : Prop := o'.keepDiv ≠ 0 → o'.div = o.div

/-- The exclusion sectors are still those of `o`, and pushed to the `prev_*` arrays. -/
def ExclPend (o o' : Obj) : Prop :=
  o'.num = o.num ∧ o'.sec = o.sec ∧ o'.pnum = o.num ∧ o'.psec = List.zipWith pushSector o.sec o.psec

def DiffPend (o o' : Obj) : Prop := o'.diff = o.diff ∧ o'.pdiff = o.diff

def DivPend (o o' : Obj) : Prop := o'.div = o.div ∧ o'.pdiv = o.div

theorem ExclPend.kept {o o' : Obj} (h : ExclPend o o') (ho : ObjOk o) : ExclKept o o' := by
  intro _
  refine ⟨h.1, fun j hj => ?_⟩
  have hlt : j < o.sec.length := by have := ho.sec; have := ho.num; omega
  refine ⟨o.sec[j], o.sec[j], by simp [hlt], by rw [h.2.1]; simp [hlt], rfl, rfl, rfl, rfl, rfl⟩

theorem clampFn_safe {e : Prog Rat} (h : Safe e fun _ => True) (lo hi : Rat) :
    Safe (clampFn e lo hi) fun _ => True :=
  Safe.bind h fun _ _ => Safe.pure trivial

theorem clampMacro_safe {e : Prog Rat} (h : Safe e fun _ => True) (lo hi : Rat) :
    Safe (clampMacro e lo hi) fun _ => True := by
  have hm : Safe (maxMacro e lo) fun _ => True :=
    Safe.bind h fun _ _ => Safe.ite (fun _ => h) (fun _ => Safe.pure trivial)
  exact Safe.bind hm fun _ _ => Safe.ite (fun _ => hm) (fun _ => Safe.pure trivial)

theorem clamp_safe (win : Bool) {e : Prog Rat} (h : Safe e fun _ => True) (lo hi : Rat) :
    Safe (clamp win e lo hi) fun _ => True :=
  Safe.ite (fun _ => clampMacro_safe h lo hi) (fun _ => clampFn_safe h lo hi)

theorem azimuth_safe : Safe azimuth fun _ => True :=
  Safe.bits_bind (by omega) fun _ _ => Safe.pure trivial

theorem elevation_safe : Safe elevation fun _ => True :=
  Safe.bits_bind (by omega) fun _ _ => Safe.pure trivial

theorem angles_safe (win : Bool) (s : Sector) : Safe (angles win s) fun _ => True :=
  Safe.bind (clamp_safe win azimuth_safe _ _) fun _ _ =>
  Safe.bind (clamp_safe win azimuth_safe _ _) fun _ _ =>
  Safe.bind (clamp_safe win elevation_safe _ _) fun _ _ =>
  Safe.bind (clamp_safe win elevation_safe _ _) fun _ _ => Safe.pure trivial

theorem sector_safe (win : Bool) (p : Nat) (s : Sector) : Safe (sector win p s) fun _ => True :=
  Safe.ite (fun _ => Safe.bits_bind (by omega) fun _ _ => Safe.pure trivial) fun _ =>
  Safe.bits_bind (by omega) fun _ _ =>
  Safe.ite (fun _ => angles_safe win _) fun _ =>
  Safe.bits_bind (by omega) fun _ _ => Safe.pure trivial

theorem keep_safe (indep : Bool) : Safe (keep indep) fun _ => True :=
  Safe.ite (fun _ => Safe.pure trivial) fun _ => Safe.mono (Safe.bits (by omega)) fun _ _ => trivial

/-- What a step may change, besides the exclusion sectors. -/
def SameButExcl (o o' : Obj) : Prop :=
  o'.keepDiff = o.keepDiff ∧ o'.keepDiv = o.keepDiv ∧ o'.diff = o.diff ∧ o'.div = o.div ∧
    o'.pdiff = o.pdiff ∧ o'.pdiv = o.pdiv

theorem excl_safe (win indep : Bool) (p : Nat) (s o : Obj) (hs : ObjOk s) (ho : ObjOk o)
    (hp : ExclPend s o) :
    Safe (excl win indep p o) fun o' => ObjOk o' ∧ ExclKept s o' ∧ SameButExcl o o' := by
  unfold excl
  refine Safe.bind (keep_safe indep) fun k _ => Safe.ite (fun hk => ?_) (fun hk => ?_)
  · refine Safe.bind (Safe.foldN (fun i t => t.length = 15 ∧ ∀ j < i, t[j]? = o.psec[j]?)
      o.pnum 0 o.sec ⟨ho.sec, by omega⟩ ?_) ?_
    · rintro j t _ hj ⟨ht, hi⟩
      have := ho.pnum
      refine Safe.bind (Safe.getAt (by rw [ho.psec]; omega)) fun a ha => ?_
      refine Safe.mono (Safe.setAt (by omega)) fun t' ht' => ?_
      subst ht'
      refine ⟨by simp [ht], fun i hij => ?_⟩
      rw [List.getElem?_set]
      by_cases hji : j = i
      · subst hji; rw [if_pos rfl, if_pos (by omega)]; exact ha.symm
      · rw [if_neg hji]; exact hi i (by omega)
    · rintro t ⟨ht, hi⟩
      refine Safe.pure ⟨⟨ht, ho.psec, ho.pnum, ho.pnum⟩, fun _ => ⟨hp.2.2.1, fun j hj => ?_⟩,
        rfl, rfl, rfl, rfl, rfl, rfl⟩
      have h1 := hs.num
      have h2 : j < s.sec.length := by rw [hs.sec]; omega
      have h3 : j < s.psec.length := by rw [hs.psec]; omega
      refine ⟨s.sec[j], pushSector s.sec[j] s.psec[j], by simp [h2], ?_, rfl, rfl, rfl, rfl, rfl⟩
      show t[j]? = _
      rw [hi j (by rw [hp.2.2.1]; omega), hp.2.2.2]
      simp [h2, h3]
  · refine Safe.bits_bind (by omega) fun n hn => ?_
    refine Safe.bind (Safe.foldN (fun _ t => t.length = 15) n 0 o.sec ho.sec ?_) ?_
    · intro j t _ hj ht
      refine Safe.bind (Safe.getAt (by omega)) fun a _ => ?_
      refine Safe.bind (sector_safe win p a) fun b _ => ?_
      refine Safe.mono (Safe.setAt (by omega)) fun t' ht' => ?_
      subst ht'; simp [ht]
    · intro t ht
      refine Safe.pure ⟨⟨ht, ho.psec, by show n ≤ 15; omega, ho.pnum⟩, fun h => absurd h hk,
        rfl, rfl, rfl, rfl, rfl, rfl⟩

/-- What is left alone by reading the diffuseness. -/
def SameButDiff (o o' : Obj) : Prop :=
  o'.keepExcl = o.keepExcl ∧ o'.num = o.num ∧ o'.sec = o.sec ∧ o'.pnum = o.pnum ∧ o'.psec = o.psec ∧
    o'.keepDiv = o.keepDiv ∧ o'.div = o.div ∧ o'.pdiv = o.pdiv

theorem diffuseness_safe (indep : Bool) (s o : Obj) (ho : ObjOk o) (hp : DiffPend s o) :
    Safe (diffuseness indep o) fun o' => ObjOk o' ∧ DiffKept s o' ∧ SameButDiff o o' := by
  unfold diffuseness
  refine Safe.bind (keep_safe indep) fun k _ => Safe.ite (fun hk => ?_) (fun hk => ?_)
  · exact Safe.pure ⟨⟨ho.sec, ho.psec, ho.num, ho.pnum⟩, fun _ => hp.2, rfl, rfl, rfl, rfl, rfl, rfl,
      rfl, rfl⟩
  · refine Safe.bits_bind (by omega) fun v _ => ?_
    exact Safe.pure ⟨⟨ho.sec, ho.psec, ho.num, ho.pnum⟩, fun h => absurd h hk, rfl, rfl, rfl, rfl, rfl,
      rfl, rfl, rfl⟩

def SameButDiv (o o' : Obj) : Prop :=
  o'.keepExcl = o.keepExcl ∧ o'.num = o.num ∧ o'.sec = o.sec ∧ o'.pnum = o.pnum ∧ o'.psec = o.psec ∧
    o'.keepDiff = o.keepDiff ∧ o'.diff = o.diff ∧ o'.pdiff = o.pdiff

theorem divergence_safe (indep : Bool) (s o : Obj) (ho : ObjOk o) (hp : DivPend s o) :
    Safe (divergence indep o) fun o' => ObjOk o' ∧ DivKept s o' ∧ SameButDiv o o' := by
  unfold divergence
  refine Safe.bind (keep_safe indep) fun k _ => Safe.ite (fun hk => ?_) (fun hk => ?_)
  · exact Safe.pure ⟨⟨ho.sec, ho.psec, ho.num, ho.pnum⟩, fun _ => hp.2, rfl, rfl, rfl, rfl, rfl, rfl,
      rfl, rfl⟩
  · refine Safe.bits_bind (by omega) fun v _ => ?_
    exact Safe.pure ⟨⟨ho.sec, ho.psec, ho.num, ho.pnum⟩, fun h => absurd h hk, rfl, rfl, rfl, rfl, rfl,
      rfl, rfl, rfl⟩

/-- State of an object before its turn in the loop. -/
structure Before (cfg : Cfg) (s o : Obj) : Prop where
  ok : ObjOk o
  excl : ExclKept s o
  diff : DiffKept s o
  div : DivKept s o
  exclP : ¬ cfg.comExcl → ExclPend s o
  diffP : ¬ cfg.comDiff → DiffPend s o
  divP : DivPend s o

/-- State of an object after its turn. -/
structure After (s o : Obj) : Prop where
  ok : ObjOk o
  excl : ExclKept s o
  diff : DiffKept s o
  div : DivKept s o

theorem object_safe (win indep : Bool) (cfg : Cfg) (i : Nat) (s o : Obj) (hs : ObjOk s)
    (hb : Before cfg s o) (h1 : i < cfg.hasDiv.length) (h2 : i < cfg.onlyPre.length) :
    Safe (object win indep cfg i o) (After s) := by
  unfold object
  refine Safe.bits_bind (by omega) fun c _ => ?_
  have hb : Before cfg s { o with closest := c } :=
    ⟨⟨hb.ok.sec, hb.ok.psec, hb.ok.num, hb.ok.pnum⟩, hb.excl, hb.diff, hb.div, hb.exclP, hb.diffP, hb.divP⟩
  revert hb
  generalize ({ o with closest := c } : Obj) = o
  intro hb
  refine Safe.bind (Safe.getAt h1) fun hd _ => ?_
  refine Safe.bind (R := fun o => ObjOk o ∧ ExclKept s o ∧ DiffKept s o ∧ DivKept s o ∧
      (¬ cfg.comExcl → ExclPend s o) ∧ (¬ cfg.comDiff → DiffPend s o)) ?_ ?_
  · refine Safe.ite (fun _ => ?_) (fun _ => ?_)
    · refine Safe.mono (divergence_safe indep s o hb.ok hb.divP) ?_
      rintro o' ⟨hok, hk, e1, e2, e3, e4, e5, e6, e7, e8⟩
      refine ⟨hok, ?_, ?_, hk, ?_, ?_⟩
      · unfold ExclKept; rw [e1, e2, e3]; exact hb.excl
      · unfold DiffKept; rw [e6, e7]; exact hb.diff
      · unfold ExclPend; rw [e2, e3, e4, e5]; exact hb.exclP
      · unfold DiffPend; rw [e7, e8]; exact hb.diffP
    · exact Safe.pure ⟨hb.ok, hb.excl, hb.diff, hb.div, hb.exclP, hb.diffP⟩
  · rintro o ⟨hok, hx, hdf, hdv, hxp, hdp⟩
    refine Safe.bind (R := fun o => ObjOk o ∧ ExclKept s o ∧ DiffKept s o ∧ DivKept s o ∧
      (¬ cfg.comExcl → ExclPend s o)) ?_ ?_
    · refine Safe.ite (fun h => ?_) (fun _ => ?_)
      · refine Safe.mono (diffuseness_safe indep s o hok (hdp h.2)) ?_
        rintro o' ⟨hok, hk, e1, e2, e3, e4, e5, e6, e7, e8⟩
        refine ⟨hok, ?_, hk, ?_, ?_⟩
        · unfold ExclKept; rw [e1, e2, e3]; exact hx
        · unfold DivKept; rw [e6, e7]; exact hdv
        · unfold ExclPend; rw [e2, e3, e4, e5]; exact hxp
      · exact Safe.pure ⟨hok, hx, hdf, hdv, hxp⟩
    · rintro o ⟨hok, hx, hdf, hdv, hxp⟩
      refine Safe.ite (fun h => ?_) (fun _ => Safe.pure ⟨hok, hx, hdf, hdv⟩)
      refine Safe.bind (Safe.getAt h2) fun p _ => ?_
      refine Safe.mono (excl_safe win indep p s o hs hok (hxp h)) ?_
      rintro o' ⟨hok, hk, e1, e2, e3, e4, e5, e6⟩
      refine ⟨hok, hk, ?_, ?_⟩
      · unfold DiffKept; rw [e1, e3]; exact hdf
      · unfold DivKept; rw [e2, e4]; exact hdv

/-- Changing one object of a list keeps a relation that holds element by element. -/
theorem modAt_safe {s t : List Obj} {R : Nat → Obj → Obj → Prop} {i : Nat} {f : Obj → Prog Obj}
    {R' : Nat → Obj → Obj → Prop}
    (ht : t.length = s.length) (hi : i < s.length)
    (hR : ∀ j a b, s[j]? = some a → t[j]? = some b → R j a b)
    (hf : ∀ a b, s[i]? = some a → t[i]? = some b → R i a b → Safe (f b) (R' i a))
    (hk : ∀ j a b, j ≠ i → s[j]? = some a → t[j]? = some b → R j a b → R' j a b) :
    Safe (modAt t i f) fun t' => t'.length = s.length ∧
      ∀ j a b, s[j]? = some a → t'[j]? = some b → R' j a b := by
  unfold modAt
  refine Safe.bind (Safe.getAt (by omega)) fun b hb => ?_
  have hs : s[i]? = some s[i] := by simp [hi]
  refine Safe.bind (hf _ b hs hb (hR i _ b hs hb)) fun b' hb' => ?_
  refine Safe.mono (Safe.setAt (by omega)) fun t' ht' => ?_
  subst ht'
  refine ⟨by simp [ht], fun j a c ha hc => ?_⟩
  rw [List.getElem?_set] at hc
  by_cases hij : i = j
  · subst hij
    rw [if_pos rfl, if_pos (by omega)] at hc
    rw [hs] at ha
    cases ha; cases hc; exact hb'
  · rw [if_neg hij] at hc
    exact hk j a c (fun h => hij h.symm) ha hc (hR j a c ha hc)

theorem frame_safe (win indep : Bool) (cfg : Cfg) (n : Nat) (s : List Obj) (hn : n ≤ 24)
    (hn1 : 1 ≤ n)
    (hs : s.length = 24) (hok : ∀ o ∈ s, ObjOk o) (h1 : cfg.hasDiv.length = 24)
    (h2 : cfg.onlyPre.length = 24) :
    Safe (frame win indep cfg n s) fun s' => s'.length = 24 ∧
      ∀ j a b, s[j]? = some a → s'[j]? = some b → if j < n then After a b else b = a := by
  have hok' : ∀ j a, s[j]? = some a → ObjOk a := fun j a h => hok a (List.mem_of_getElem? h)
  unfold frame
  refine Safe.bind (Safe.foldN (fun i t => t.length = s.length ∧ ∀ j a b, s[j]? = some a →
      t[j]? = some b → if j < i then b = push a else b = a) n 0 s
      ⟨rfl, fun j a b ha hb => by rw [ha] at hb; cases hb; simp⟩ ?_) ?_
  · rintro i t _ hi ⟨hl, ht⟩
    refine modAt_safe hl (by omega) ht (fun a b _ _ h => ?_) (fun j a b hj _ _ h => ?_)
    · rw [if_neg (by omega)] at h
      subst h
      refine Safe.pure ?_
      rw [if_pos (by omega)]
    · by_cases hji : j < i
      · rw [if_pos hji] at h; rw [if_pos (by omega)]; exact h
      · rw [if_neg hji] at h; rw [if_neg (by omega)]; exact h
  rintro t ⟨hl, ht⟩
  simp only [Nat.zero_add] at ht
  have hpush : ∀ a, ObjOk a → Before cfg a (push a) ∧ ExclPend a (push a) ∧ DiffPend a (push a) := by
    intro a ha
    have hx : ExclPend a (push a) := ⟨rfl, rfl, rfl, rfl⟩
    refine ⟨⟨⟨ha.sec, ?_, ha.num, ha.num⟩, hx.kept ha, fun _ => rfl, fun _ => rfl, fun _ => hx,
      fun _ => ⟨rfl, rfl⟩, ⟨rfl, rfl⟩⟩, hx, ⟨rfl, rfl⟩⟩
    show (List.zipWith pushSector a.sec a.psec).length = 15
    simp [ha.sec, ha.psec]
  let R1 : Nat → Obj → Obj → Prop := fun j a b =>
    if j < n then Before cfg a b ∧ DiffPend a b else b = a
  refine Safe.bind (R := fun t => t.length = s.length ∧ ∀ j a b, s[j]? = some a → t[j]? = some b →
      R1 j a b) ?_ ?_
  · refine Safe.ite (fun hc => ?_) (fun hc => ?_)
    · refine Safe.bind (Safe.getAt (by omega)) fun p _ => ?_
      refine modAt_safe hl (by omega) ht (fun a b ha _ h => ?_) (fun j a b _ ha _ h => ?_)
      · rw [if_pos (by omega)] at h
        subst h
        obtain ⟨hb, hx, hd⟩ := hpush a (hok' 0 a ha)
        refine Safe.mono (excl_safe win indep p a (push a) (hok' 0 a ha) hb.ok hx) ?_
        rintro o' ⟨hok, hk, e1, e2, e3, e4, e5, e6⟩
        show if _ then _ else _
        rw [if_pos (by omega)]
        refine ⟨⟨hok, hk, ?_, ?_, fun h => absurd hc h, ?_, ?_⟩, ?_⟩
        · unfold DiffKept; rw [e1, e3]; exact hb.diff
        · unfold DivKept; rw [e2, e4]; exact hb.div
        · unfold DiffPend; rw [e3, e5]; exact hb.diffP
        · unfold DivPend; rw [e4, e6]; exact hb.divP
        · unfold DiffPend; rw [e3, e5]; exact hd
      · show if _ then _ else _
        by_cases hj : j < n
        · rw [if_pos hj] at h ⊢
          subst h
          obtain ⟨hb, _, hd⟩ := hpush a (hok' j a ha)
          exact ⟨hb, hd⟩
        · rw [if_neg hj] at h ⊢; exact h
    · refine Safe.pure ⟨hl, fun j a b ha hb => ?_⟩
      have h := ht j a b ha hb
      show if _ then _ else _
      by_cases hj : j < n
      · rw [if_pos hj] at h ⊢
        subst h
        obtain ⟨hb, _, hd⟩ := hpush a (hok' j a ha)
        exact ⟨hb, hd⟩
      · rw [if_neg hj] at h ⊢; exact h
  rintro t ⟨hl, ht⟩
  let R2 : Nat → Obj → Obj → Prop := fun j a b => if j < n then Before cfg a b else b = a
  refine Safe.bind (R := fun t => t.length = s.length ∧ ∀ j a b, s[j]? = some a → t[j]? = some b →
      R2 j a b) ?_ ?_
  · refine Safe.ite (fun hc => ?_) (fun hc => ?_)
    · refine modAt_safe hl (by omega) ht (fun a b ha _ h => ?_) (fun j a b _ ha _ h => ?_)
      · have h : if _ then _ else _ := h
        rw [if_pos (by omega)] at h
        refine Safe.mono (diffuseness_safe indep a b h.1.ok h.2) ?_
        rintro o' ⟨hok, hk, e1, e2, e3, e4, e5, e6, e7, e8⟩
        show if _ then _ else _
        rw [if_pos (by omega)]
        refine ⟨hok, ?_, hk, ?_, ?_, fun h => absurd hc.2 h, ?_⟩
        · unfold ExclKept; rw [e1, e2, e3]; exact h.1.excl
        · unfold DivKept; rw [e6, e7]; exact h.1.div
        · unfold ExclPend; rw [e2, e3, e4, e5]; exact h.1.exclP
        · unfold DivPend; rw [e7, e8]; exact h.1.divP
      · have h : if _ then _ else _ := h
        show if _ then _ else _
        by_cases hj : j < n
        · rw [if_pos hj] at h ⊢; exact h.1
        · rw [if_neg hj] at h ⊢; exact h
    · refine Safe.pure ⟨hl, fun j a b ha hb => ?_⟩
      have h : if _ then _ else _ := ht j a b ha hb
      show if _ then _ else _
      by_cases hj : j < n
      · rw [if_pos hj] at h ⊢; exact h.1
      · rw [if_neg hj] at h ⊢; exact h
  rintro t ⟨hl, ht⟩
  refine Safe.mono (Safe.foldN (fun i t => t.length = s.length ∧ ∀ j a b, s[j]? = some a →
      t[j]? = some b → if j < n then (if j < i then After a b else Before cfg a b) else b = a) n 0 t
      ⟨hl, fun j a b ha hb => by simpa using ht j a b ha hb⟩ ?_) ?_
  · rintro i t _ hi ⟨hl, ht⟩
    refine modAt_safe hl (by omega) ht (fun a b ha _ h => ?_) (fun j a b hj _ _ h => ?_)
    · rw [if_pos (by omega), if_neg (by omega)] at h
      refine Safe.mono (object_safe win indep cfg i a b (hok' i a ha) h (by omega) (by omega)) ?_
      intro o' ho'
      rw [if_pos (by omega), if_pos (by omega)]; exact ho'
    · by_cases hjn : j < n
      · rw [if_pos hjn] at h ⊢
        by_cases hji : j < i
        · rw [if_pos hji] at h; rw [if_pos (by omega)]; exact h
        · rw [if_neg hji] at h; rw [if_neg (by omega)]; exact h
      · rw [if_neg hjn] at h ⊢; exact h
  · rintro t ⟨hl, ht⟩
    refine ⟨by omega, fun j a b ha hb => ?_⟩
    have h := ht j a b ha hb
    by_cases hj : j < n
    · rw [if_pos hj, if_pos (by omega)] at h; rw [if_pos hj]; exact h
    · rw [if_neg hj] at h ⊢; exact h

/-- **C41** (partial) What a frame marks as kept is what it was after the previous frame, for every
object and every frame: the diffuseness, the divergence, the number of exclusion sectors and their
indices and angles.  Left out: the flags `use_predefined_sector`. -/
theorem C41_keep_partial (win indep : Bool) (cfg : Cfg) (n : Nat) (s s' : List Obj) (hn1 : 1 ≤ n)
    (hn : n ≤ 24) (hs : s.length = 24) (hok : ∀ o ∈ s, ObjOk o) (h1 : cfg.hasDiv.length = 24)
    (h2 : cfg.onlyPre.length = 24) (l l' : List Bool)
    (hr : run (frame win indep cfg n s) l = .ok (s', l')) :
    ∀ j < n, ∃ o o', s[j]? = some o ∧ s'[j]? = some o' ∧ ObjOk o' ∧
      (o'.keepDiff ≠ 0 → o'.diff = o.diff) ∧
      (o'.keepDiv ≠ 0 → o'.div = o.div) ∧
      (o'.keepExcl ≠ 0 → o'.num = o.num ∧
        ∀ k < o.num, ∃ a b, o.sec[k]? = some a ∧ o'.sec[k]? = some b ∧
          b.index = a.index ∧ b.minAz = a.minAz ∧ b.maxAz = a.maxAz ∧ b.minEl = a.minEl ∧
          b.maxEl = a.maxEl) := by
  obtain ⟨hl, h⟩ := (frame_safe win indep cfg n s hn hn1 hs hok h1 h2 l).2 s' l' hr
  intro j hj
  have ha : s[j]? = some s[j] := by simp [show j < s.length by omega]
  have hb : s'[j]? = some s'[j] := by simp [show j < s'.length by omega]
  have := h j _ _ ha hb
  rw [if_pos hj] at this
  exact ⟨_, _, ha, hb, this.ok, this.diff, this.div, this.excl⟩

/-- **C59** for enhanced object metadata: parsing stays inside the arrays. -/
theorem C59_enhanced (win indep : Bool) (cfg : Cfg) (n : Nat) (s : List Obj) (hn1 : 1 ≤ n)
    (hn : n ≤ 24) (hs : s.length = 24) (hok : ∀ o ∈ s, ObjOk o) (h1 : cfg.hasDiv.length = 24)
    (h2 : cfg.onlyPre.length = 24) (l : List Bool) : run (frame win indep cfg n s) l ≠ .ub :=
  (frame_safe win indep cfg n s hn hn1 hs hok h1 h2 l).1

/-- A cleared sector, object and frame (impeghd_api.c 1171 clears the structure). -/
def noSector : Sector := ⟨0, 0, 0, 0, 0, 0⟩
def noObj : Obj :=
  ⟨0, 0, 0, 0, 0, List.replicate 15 noSector, 0, 0, 0, List.replicate 15 noSector, 0, 0⟩
def cleared : List Obj := List.replicate 24 noObj

theorem cleared_ok : cleared.length = 24 ∧ ∀ o ∈ cleared, ObjOk o := by
  refine ⟨by simp [cleared], fun o ho => ?_⟩
  have := List.eq_of_mem_replicate ho
  subst this
  exact ⟨by simp [noObj], by simp [noObj], by simp [noObj], by simp [noObj]⟩

/-- Per-object diffuseness and sectors; no divergence. -/
def exCfg : Cfg := ⟨true, false, false, List.replicate 24 0, List.replicate 24 0⟩

/-- One object: diffuseness 127, one sector with angles 3 -3 0 6. -/
def exFirst : List Bool :=
  [false] ++ natBits 7 127 ++ natBits 4 1 ++ [false] ++ natBits 7 64 ++ natBits 7 62 ++
    natBits 5 15 ++ natBits 5 16

/-- Everything is kept. -/
def exKeep : List Bool := [false, true, true]

/-- Two frames, the first one independent. -/
def twoFrames (cfg : Cfg) (a b : List Bool) : Res (List Obj × List Obj) := do
  let r ← run (frame false true cfg 1 cleared) a
  let q ← run (frame false false cfg 1 r.1) b
  .ok (r.1, q.1)

example : (twoFrames exCfg exFirst exKeep).map (fun r =>
    ((r.2.map (·.keepExcl))[0]?, (r.2.map (·.diff))[0]?, (r.2.map (·.num))[0]?,
      (r.2.map (·.sec))[0]?.map (·[0]?))) =
    .ok (some 1, some (1 : Rat), some 1, some (some ⟨0, 0, 3, -3, 0, 6⟩)) := by decide +kernel

/-- **C41** (refuted) A sector that refers to predefined sector 5, kept in the next frame: the next
frame has the index but not the flag, so it describes a sector by angles. -/
theorem C41_refuted : ∃ a b : List Bool, (twoFrames exCfg a b).map (fun r =>
    ((r.1.map (·.sec))[0]?.map (·[0]?), (r.2.map (·.keepExcl))[0]?,
      (r.2.map (·.sec))[0]?.map (·[0]?))) =
    .ok (some (some ⟨1, 5, 0, 0, 0, 0⟩), some 1, some (some ⟨0, 5, 0, 0, 0, 0⟩)) :=
  ⟨[false] ++ natBits 7 0 ++ natBits 4 1 ++ [true] ++ natBits 4 5, [false, false] ++ natBits 7 0 ++ [true],
    by decide +kernel⟩

/-! ## The sub-frame used for rendering -/

/-- What the renderer should use for every sub-frame: the metadata received last. -/
def wanted {α : Type} : α → List (Option α) → List α
  | _, [] => []
  | last, none :: r => last :: wanted last r
  | _, some v :: r => v :: wanted v r

/-- The slots after decoding the metadata of a frame: the `k`-th metadata received in the frame go to
slot `k` (`Oam.payload`). -/
def store {α : Type} (slots : List α) (fr : List (Option α)) : List α :=
  fr.filterMap (fun o => o) ++ slots.drop (fr.filterMap (fun o => o)).length

/-- The metadata the renderer uses. -/
def rendered {α : Type} (slots : List α) (fr : List (Option α)) : List (Option α) :=
  (renderSlots fr.length (fr.map fun o => if o.isSome then 1 else 0) 0 0).map
    fun k => (store slots fr)[k - 1]?

theorem renderSlots_tail {α : Type} (m : List α) (N : Nat) (fr : List (Option α)) (i k : Nat) (last : α)
    (vs pre : List α) (hvs : fr.filterMap (fun o => o) = vs) (hpre : pre.length + 1 = k) (hi : 1 ≤ i)
    (hN : i + fr.length ≤ N) (hk : k ≤ i) :
    (renderSlots N (fr.map fun o => if o.isSome then 1 else 0) i k).map
      (fun k => (pre ++ last :: vs ++ m)[k - 1]?) = (wanted last fr).map some := by
  induction fr generalizing i k last vs pre with
  | nil => rfl
  | cons o fr ih =>
    simp only [List.length_cons] at hN
    cases o with
    | none =>
      simp only [List.filterMap_cons] at hvs
      simp only [List.map_cons, Option.isSome_none, Bool.false_eq_true, if_false, renderSlots, wanted,
        ne_eq, not_true_eq_false, show i ≠ 0 by omega]
      rw [ih (i + 1) k last vs pre hvs hpre (by omega) (by omega) (by omega)]
      congr 1
      subst hpre
      simp
    | some v =>
      simp only [List.filterMap_cons] at hvs
      subst hvs
      simp only [List.map_cons, Option.isSome_some, if_true, renderSlots, wanted, ne_eq, one_ne_zero,
        not_false_eq_true, show ¬ N < k + 1 by omega, if_false]
      have := ih (i + 1) (k + 1) v (fr.filterMap (fun o => o)) (pre ++ [last]) rfl (by simp; omega) (by omega)
        (by omega) (by omega)
      simp only [List.append_assoc, List.cons_append, List.nil_append] at this ⊢
      rw [this]
      congr 1
      subst hpre
      rw [List.getElem?_append_right (by omega)]
      simp

/-- **C60** (partial) In a frame whose first sub-frame has metadata, every sub-frame is rendered with
the metadata received last. -/
theorem C60_recent_partial {α : Type} (slots : List α) (v last : α) (fr : List (Option α)) :
    rendered slots (some v :: fr) = (wanted last (some v :: fr)).map some := by
  unfold rendered store
  simp only [List.map_cons, Option.isSome_some, if_true, renderSlots, wanted, ne_eq, one_ne_zero,
    not_false_eq_true, List.length_cons, Nat.zero_add, show ¬ fr.length + 1 < 1 by omega, if_false,
    List.filterMap_cons]
  have := renderSlots_tail (slots.drop ((fr.filterMap (fun o => o)).length + 1)) (fr.length + 1) fr 1 1 v
    (fr.filterMap (fun o => o)) [] rfl rfl (by omega) (by omega) (by omega)
  simp only [List.nil_append, List.length_cons] at this ⊢
  rw [this]
  simp

example : rendered [7, 7, 7, 7] [some 1, none, some 2, none] = [some 1, some 1, some 2, some 2] := by
  decide

theorem renderSlots_range (N : Nat) (hN : 2 ≤ N) (ps : List Nat) (i k : Nat) (h0 : i = 0 → k = 0)
    (h1 : i ≠ 0 → 1 ≤ k ∧ k ≤ N) : ∀ s ∈ renderSlots N ps i k, 1 ≤ s ∧ s ≤ N := by
  induction ps generalizing i k with
  | nil => simp [renderSlots]
  | cons p ps ih =>
    have key : 1 ≤ (if p ≠ 0 then if N < k + 1 then (k + 1) % N else k + 1 else if i = 0 then N else k) ∧
        (if p ≠ 0 then if N < k + 1 then (k + 1) % N else k + 1 else if i = 0 then N else k) ≤ N := by
      by_cases hi : i = 0
      · have := h0 hi
        subst this
        rw [if_neg (show ¬ N < 0 + 1 by omega), if_pos hi]
        split <;> omega
      · obtain ⟨h2, h3⟩ := h1 hi
        rw [if_neg hi]
        split
        · split
          · have : k = N := by omega
            subst this
            rw [Nat.add_mod_left, Nat.mod_eq_of_lt (by omega)]
            omega
          · omega
        · omega
    intro s hs
    simp only [renderSlots, List.mem_cons] at hs
    rcases hs with rfl | hs
    · exact key
    · exact ih (i + 1) _ (by omega) (fun _ => key) s hs

/-- **C60** (partial) In a frame of several sub-frames, whichever of them have metadata, the renderer
only uses metadata of the sub-frames of a frame. -/
theorem C60_slots_partial (N : Nat) (hN : 2 ≤ N) (ps : List Nat) :
    ∀ s ∈ renderSlots N ps 0 0, 1 ≤ s ∧ s ≤ N :=
  renderSlots_range N hN ps 0 0 (fun _ => rfl) (fun h => absurd rfl h)

example : renderSlots 4 [0, 1, 0, 1] 0 0 = [4, 1, 1, 2] := by decide

/-- **C60** (refuted) Two frames of two sub-frames: the first has metadata in its first sub-frame
only, the second none at all.  The second frame is rendered with what was in slot 2 before. -/
theorem C60_refuted : ∃ (slots : List Nat) (a b : List (Option Nat)),
    a.length = 2 ∧ b.length = 2 ∧
    wanted 1 b = [1, 1] ∧ (wanted 0 a).getLast? = some 1 ∧
    rendered (store slots a) b = [some 9, some 9] :=
  ⟨[8, 9, 0, 0], [some 1, none], [none, none], by decide⟩

/-! ## Exclusion sectors -/

/-- Limit a number to an interval. -/
def within (lo hi x : Rat) : Rat := max lo (min hi x)

theorem run_clampFn {e : Prog Rat} {v : Rat} {l l' : List Bool} (h : run e l = .ok (v, l'))
    {lo hi : Rat} (hlh : lo ≤ hi) : run (clampFn e lo hi) l = .ok (within lo hi v, l') := by
  unfold clampFn within
  rw [run_bind, h, Res.ok_bind]
  simp only [run_pure]
  congr 2
  rcases lt_or_ge v lo with h1 | h1
  · rw [if_pos h1, if_neg (by linarith), min_eq_right (by linarith), max_eq_left (by linarith)]
  · rw [if_neg (not_lt.mpr h1)]
    rcases lt_or_ge hi v with h2 | h2
    · rw [if_pos h2, min_eq_left (by linarith), max_eq_right hlh]
    · rw [if_neg (by linarith), min_eq_right h2, max_eq_right h1]

/-- **C62** (partial) Where `fmin` and `fmax` are functions, the four angles of a sector take
7 + 7 + 5 + 5 bits and are the coded angles in steps of 3 and 6 degrees, within the limits. -/
theorem C62_sector_partial (s : Sector) (a b c d : Nat) (ha : a < 128) (hb : b < 128) (hc : c < 32)
    (hd : d < 32) (l : List Bool) :
    run (angles false s) (natBits 7 a ++ (natBits 7 b ++ (natBits 5 c ++ (natBits 5 d ++ l)))) =
      .ok ({ s with
        minAz := within (-180) 180 (3 * ((a : Rat) - 63)),
        maxAz := within (-180) 180 (3 * ((b : Rat) - 63)),
        minEl := within (-90) 90 (6 * ((c : Rat) - 15)),
        maxEl := within (-90) 90 (6 * ((d : Rat) - 15)) }, l) := by
  have hA : ∀ v l, v < 128 → run azimuth (natBits 7 v ++ l) = .ok (3 * ((v : Rat) - 63), l) := by
    intro v l hv
    unfold azimuth
    rw [run_bits_bind 7 v _ l (by omega) hv]; rfl
  have hE : ∀ v l, v < 32 → run elevation (natBits 5 v ++ l) = .ok (6 * ((v : Rat) - 15), l) := by
    intro v l hv
    unfold elevation
    rw [run_bits_bind 5 v _ l (by omega) hv]; rfl
  unfold angles clamp
  simp only [Bool.false_eq_true, if_false]
  rw [run_bind, run_clampFn (hA a _ ha) (by norm_num), Res.ok_bind]
  simp only
  rw [run_bind, run_clampFn (hA b _ hb) (by norm_num), Res.ok_bind]
  simp only
  rw [run_bind, run_clampFn (hE c _ hc) (by norm_num), Res.ok_bind]
  simp only
  rw [run_bind, run_clampFn (hE d _ hd) (by norm_num), Res.ok_bind]
  rfl

example : within (-180) 180 (3 * ((127 : Rat) - 63)) = 180 := by decide +kernel

/-- **C62** (refuted) With the macros of the Windows headers the same 24 bits are not enough: the
sector takes 96 bits and its angles are the last ones read. -/
theorem C62_refuted : ∃ l : List Bool, l.length = 24 ∧
    (run (angles false noSector) l).map (fun r => (r.1.minAz, r.1.maxAz, r.1.minEl, r.1.maxEl, r.2)) =
      .ok (3, 3, 6, 6, []) ∧
    run (angles true noSector) l = .jump :=
  ⟨natBits 7 64 ++ natBits 7 64 ++ natBits 5 16 ++ natBits 5 16, by decide +kernel⟩

end Verif.EnhOam
