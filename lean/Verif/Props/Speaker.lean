import Verif.Model.Speaker
import Verif.Proofs.Fields
import Verif.Proofs.Same
import Verif.Props.BitWriter
import Verif.Props.Mct

/-! # Loudspeaker layouts: the CICP tables, geometry and flexible speaker descriptions -/

namespace Verif.Speaker

open Prog

/-! ## C72: the tables -/

/-- What a layout must be: as many loudspeakers as announced, all different, all in the geometry table
and not one of its two dummy entries, and each one has a counterpart on the other side. -/
def LayoutOk (names : List Nat) (num : Nat) : Prop :=
  names.length = num ∧ 0 < num ∧ num ≤ 24 ∧ names.Nodup ∧
  ∀ n ∈ names, n ≠ 11 ∧ n ≠ 12 ∧ ∃ g ∈ geoTbl[n]?, -180 < g.az ∧ g.az ≤ 180 ∧ -90 ≤ g.el ∧ g.el ≤ 90 ∧
    ∃ m ∈ names, ∃ g' ∈ geoTbl[m]?, (g'.az = -g.az ∨ (g.az = 180 ∧ g'.az = 180)) ∧ g'.el = g.el ∧
      g'.lfe = g.lfe ∧ g'.scr = g.scr

instance (names : List Nat) (num : Nat) : Decidable (LayoutOk names num) := by
  unfold LayoutOk; infer_instance

/-- Every layout index the lookup accepts has a well formed layout. -/
theorem C72_layouts (idx : Nat) (h : idx ≤ 20) (h0 : idx ≠ 0) (h8 : idx ≠ 8) :
    ∃ names num, layoutTbl[idx]? = some (some names) ∧ numLsTbl[idx]? = some num ∧
      LayoutOk names num := by
  have key : ∀ i : Fin 21, i.1 ≠ 0 → i.1 ≠ 8 →
      ∃ names ∈ (layoutTbl[i.1]?).join, ∃ num ∈ numLsTbl[i.1]?, LayoutOk names num := by decide +kernel
  obtain ⟨names, h1, num, h2, h3⟩ := key ⟨idx, by omega⟩ h0 h8
  exact ⟨names, num, Option.join_eq_some_iff.mp h1, h2, h3⟩

/-- The lookup rejects exactly the indices without a layout: 0, 8 and those above 20. -/
theorem C72_rejects (idx : Nat) (ptrs : List (Option Nat)) (base : Nat) (l : List Bool) :
    (idx = 0 ∨ idx = 8 ∨ 20 < idx) ↔ run (cicpToGeo idx ptrs base) l = .ok (none, l) := by
  constructor
  · intro h
    unfold cicpToGeo
    rw [if_pos (by omega)]
    rfl
  · intro h
    by_contra hn
    unfold cicpToGeo at h
    rw [if_neg (by omega)] at h
    obtain ⟨names, num, h1, h2, _⟩ := C72_layouts idx (by omega) (by omega) (by omega)
    simp only [getAt, h1, h2, run_bind, run_pure, Res.ok_bind] at h
    cases hr : run (fillPtrs names base num (ptrs, 0)) l <;> rw [hr] at h <;> simp at h

example : LayoutOk [0, 1, 2, 3, 4, 5] 6 := by decide +kernel

/-! ## C73: the geometry of a configuration -/

/-- The entry of the geometry a CICP loudspeaker index stands for. -/
def geoOf (n : Nat) : ChGeo :=
  match geoTbl[n]? with
  | some g => ⟨n, g.az, g.el, g.lfe, g.scr⟩
  | none => ⟨n, 0, 0, 0, 0⟩

/-- The geometry of a list of loudspeakers, stated by position. -/
def GeomOf (c : Cfg) (names : List Nat) : Prop :=
  c.geom.take names.length = names.map geoOf ∧
  c.numLfe = ((names.map fun n => (geoOf n).lfe).sum : Nat) ∧
  c.numCh + c.numLfe = names.length

instance (c : Cfg) (names : List Nat) : Decidable (GeomOf c names) := by
  unfold GeomOf; infer_instance

/-- A loop whose state at step `j` is known. -/
theorem run_foldN_state {σ : Type} (f : Nat → σ → Prog σ) (g : Nat → σ) (l : List Bool) :
    ∀ k i, (∀ j, i ≤ j → j < i + k → run (f j (g j)) l = .ok (g (j + 1), l)) →
      run (foldN f k i (g i)) l = .ok (g (i + k), l) := by
  intro k
  induction k with
  | zero => intro i _; rfl
  | succ k ih =>
    intro i h
    unfold foldN
    rw [run_bind, h i (Nat.le_refl _) (by omega), Res.ok_bind]
    show run (foldN f k (i + 1) (g (i + 1))) l = _
    rw [ih (i + 1) fun j h1 h2 => h j (by omega) (by omega), show i + 1 + k = i + (k + 1) by omega]

theorem take_succ_of {α : Type} {l : List α} {i : Nat} {a : α} (h : l[i]? = some a) :
    l.take (i + 1) = l.take i ++ [a] := by
  rw [List.take_add_one, h]; rfl

theorem set_append_drop {α β : Type} (f : α → β) (l : List α) (t : List β) (i : Nat) (a : α)
    (h : l[i]? = some a) (ht : i < t.length) :
    ((l.take i).map f ++ t.drop i).set i (f a) = (l.take (i + 1)).map f ++ t.drop (i + 1) := by
  have hi : i < l.length := by
    by_contra hn
    rw [List.getElem?_eq_none (by omega)] at h
    simp at h
  have hl : ((l.take i).map f).length = i := by simp; omega
  have hd : (t.drop i).set 0 (f a) = f a :: t.drop (i + 1) := by
    rw [List.drop_eq_getElem_cons ht, List.set_cons_zero]
  rw [take_succ_of h, List.map_append, List.set_append_right _ _ (by omega), hl, Nat.sub_self, hd]
  simp

/-- The steps for one layout, on any geometry array of the declared size. -/
theorem fillLayout_run (idx : Nat) (c : Cfg) (hc : c.geom.length = maxDescr) (l : List Bool)
    (h : idx ≤ 20) (h0 : idx ≠ 0) (h8 : idx ≠ 8) :
    ∃ names c', layoutTbl[idx]? = some (some names) ∧ run (fillLayout idx c) l = .ok (c', l) ∧
      GeomOf c' names ∧ c'.geom.drop names.length = c.geom.drop names.length ∧
      c'.type = c.type ∧ c'.layout = c.layout := by
  obtain ⟨names, num, h1, h2, hlen, hpos, h24, hnd, hall⟩ := C72_layouts idx h h0 h8
  have hgeo : ∀ n ∈ names, ∃ g, geoTbl[n]? = some g := fun n hn => by
    obtain ⟨_, _, g, hg, _⟩ := hall n hn
    exact ⟨g, hg⟩
  have hmax : maxLs = 44 := rfl
  have hdes : maxDescr = 32 := rfl
  -- the pointers
  let gp : Nat → List (Option Nat) × Nat := fun i =>
    ((names.take i).map some ++ (List.replicate maxLs none).drop i, ((names.take i).map fun n => (geoOf n).lfe).sum)
  have hp : run (fillPtrs names 0 num (List.replicate maxLs none, 0)) l = .ok (gp num, l) := by
    have := run_foldN_state (fun ch s => do
      let idx ← getAt names ch
      let g ← getAt geoTbl idx
      let ptrs ← setAt s.1 (0 + ch) (some idx)
      pure (ptrs, s.2 + g.lfe)) gp l num 0 ?_
    · rw [Nat.zero_add] at this
      exact this
    · intro j _ hj
      have hjn : names[j]? = some (names[j]'(by omega)) := List.getElem?_eq_getElem (by omega)
      obtain ⟨g, hg⟩ := hgeo _ (List.getElem_mem (by omega : j < names.length))
      have hset : j < (gp j).1.length := by simp [gp, hmax]; omega
      simp only [getAt, hjn, hg, setAt, Nat.zero_add, if_pos hset, run_bind, run_pure, Res.ok_bind]
      have e1 : (gp j).1.set j (some names[j]) = (gp (j + 1)).1 :=
        set_append_drop some names (List.replicate maxLs none) j _ hjn (by simp [hmax]; omega)
      have e2 : (gp j).2 + g.lfe = (gp (j + 1)).2 := by
        have e3 : g.lfe = (geoOf names[j]).lfe := by unfold geoOf; rw [hg]
        show _ = ((names.take (j + 1)).map fun n => (geoOf n).lfe).sum
        rw [take_succ_of hjn, e3, List.map_append, List.sum_append]
        rfl
      rw [e1, e2]
  -- the geometry
  let gg : Nat → List ChGeo := fun i => (names.take i).map geoOf ++ c.geom.drop i
  have hg : run (foldN (fun i geom => do
      let n ← getAt names i
      let g ← deref (gp num).1 i
      setAt geom i ⟨n, g.az, g.el, g.lfe, g.scr⟩) num 0 c.geom) l = .ok (gg num, l) := by
    have := run_foldN_state (fun i geom => do
      let n ← getAt names i
      let g ← deref (gp num).1 i
      setAt geom i ⟨n, g.az, g.el, g.lfe, g.scr⟩) gg l num 0 ?_
    · rw [Nat.zero_add] at this
      simpa [gg] using this
    · intro j _ hj
      have hjn : names[j]? = some (names[j]'(by omega)) := List.getElem?_eq_getElem (by omega)
      obtain ⟨g, hg⟩ := hgeo _ (List.getElem_mem (by omega : j < names.length))
      have hptr : (gp num).1[j]? = some (some names[j]) := by
        show (List.map some (names.take num) ++ _)[j]? = _
        rw [List.getElem?_append_left (by simp; omega), List.getElem?_map, List.getElem?_take_of_lt (by omega), hjn]
        rfl
      have hset : j < (gg j).length := by simp [gg]; omega
      simp only [getAt, deref, hjn, hg, hptr, setAt, if_pos hset, run_bind, run_pure, Res.ok_bind]
      have e : (⟨(names[j] : Int), g.az, g.el, g.lfe, g.scr⟩ : ChGeo) = geoOf names[j] := by simp [geoOf, hg]
      rw [e]
      exact congrArg (fun x => Res.ok (x, l)) (set_append_drop geoOf names c.geom j _ hjn (by omega))
  have htake : names.take num = names := by rw [← hlen, List.take_length]
  refine ⟨names, { c with geom := gg num, numLfe := (gp num).2, numCh := num - (gp num).2 }, h1, ?_, ?_, ?_, rfl, rfl⟩
  · unfold fillLayout cicpToGeo
    rw [if_neg (by omega)]
    simp only [getAt, h1, h2, run_bind, run_pure, Res.ok_bind, hp]
    simp only [getAt] at hg
    rw [hg]
    rfl
  · refine ⟨?_, ?_, ?_⟩
    · simp only [gg, htake]
      rw [List.take_append_of_le_length (by simp), List.take_of_length_le (by simp)]
    · simp only [gp, htake]
    · show (num : Int) - ((gp num).2 : Int) + ((gp num).2 : Int) = _
      rw [hlen]; omega
  · simp only [gg, htake]
    rw [List.drop_append_of_le_length (by simp), List.drop_of_length_le (by simp), hlen]
    rfl

/-- **C73, partial.** A configuration that names a CICP layout with a geometry is accepted and gives
every loudspeaker of the layout its position; the rest of the geometry array is left alone.
Missing: the other two ways to announce loudspeakers, and layouts without a geometry (`C73_refuted`). -/
theorem C73_layout_partial (c : Cfg) (hc : c.Shape) (idx : Nat) (h : idx ≤ 20) (h0 : idx ≠ 0) (h8 : idx ≠ 8)
    (rest : List Bool) :
    ∃ names c', layoutTbl[idx]? = some (some names) ∧
      run (config3d c) (natBits 2 0 ++ (natBits 6 idx ++ rest)) = .ok ((false, c'), rest) ∧
      GeomOf c' names ∧ c'.numSpeakers = names.length ∧ c'.layout = idx := by
  obtain ⟨names, c', h1, h2, h3, h4, h5, h6⟩ :=
    fillLayout_run idx { c with type := 0, layout := idx } hc.2.2 rest h h0 h8
  refine ⟨names, { c' with numSpeakers := c'.numCh + c'.numLfe }, h1, ?_, h3, h3.2.2, h6⟩
  unfold config3d
  rw [run_bits_bind _ _ _ _ (by decide) (by decide)]
  simp only [if_true]
  rw [run_bind, run_bits_bind _ _ _ _ (by decide) (by omega), run_bind, h2]
  rfl

/-- What C73 claims of a list of CICP loudspeakers (layout type 1). -/
def ListsGeometry : Prop :=
  ∀ c : Cfg, c.Shape → ∀ l c' l', run (config3d c) l = .ok ((false, c'), l') → c'.type = 1 →
    GeomOf c' (c'.cicpIdx.take c'.numSpeakers.toNat)

/-- What C73 claims of the payload as a whole: no undefined behaviour, and a layout without a
geometry is not accepted. -/
def NoWildRead : Prop := ∀ c : Cfg, c.Shape → ∀ l, run (config3d c) l ≠ .ub

def RejectsBadLayout : Prop :=
  ∀ c : Cfg, c.Shape → ∀ l c' l', run (config3d c) l = .ok ((false, c'), l') → c'.type = 0 →
    c'.layout ≠ 8

theorem shape_zero : Cfg.zero.Shape := ⟨rfl, rfl, rfl⟩

/-- **C73, refuted.** (1) The centre loudspeaker (index 2) sent as a list gets azimuth 30: the
loudspeaker index is looked up as a layout index. -/
theorem C73_refuted : ¬ ListsGeometry := by
  intro h
  have e : (run (config3d Cfg.zero) (natBits 2 1 ++ natBits 5 0 ++ natBits 7 2)).map
      (fun r => (r.1.1, r.1.2.type, r.1.2.cicpIdx.take 1, r.1.2.numSpeakers, (r.1.2.geom.take 1).map ChGeo.az)) =
      .ok (false, 1, [2], 1, [30]) := by decide +kernel
  cases hr : run (config3d Cfg.zero) (natBits 2 1 ++ natBits 5 0 ++ natBits 7 2) with
  | ok x =>
    obtain ⟨⟨b, c'⟩, l'⟩ := x
    rw [hr] at e
    simp only [Res.map, Res.ok.injEq, Prod.mk.injEq] at e
    obtain ⟨rfl, e2, e3, e4, e5⟩ := e
    have := (h Cfg.zero shape_zero _ _ _ hr e2).1
    rw [e4] at this
    simp only [Int.toNat_one] at this
    rw [e3] at this
    simp only [List.length_cons, List.length_nil, Nat.zero_add] at this
    rw [this] at e5
    revert e5
    decide +kernel
  | jump => rw [hr] at e; simp [Res.map] at e
  | err c => rw [hr] at e; simp [Res.map] at e
  | ub => rw [hr] at e; simp [Res.map] at e

/-- (2) The left front loudspeaker (index 0) sent as a list reads through an uninitialised pointer. -/
theorem C73_wild_read : ¬ NoWildRead := fun h =>
  h Cfg.zero shape_zero (natBits 2 1 ++ natBits 5 0 ++ natBits 7 0) (by decide +kernel)

/-- (3) Twenty-four loudspeakers with index 13 (a layout of 24) overrun the pointer array. -/
theorem C73_overrun : run (config3d Cfg.zero)
    (natBits 2 1 ++ natBits 5 23 ++ (List.replicate 22 (natBits 7 13)).flatten ++ natBits 7 0 ++ natBits 7 0) = .ub := by
  decide +kernel

/-- (4) The reserved layout 8 is accepted, and the old geometry stays. -/
theorem C73_bad_layout : ¬ RejectsBadLayout := by
  intro h
  have e : (run (config3d Cfg.zero) (natBits 2 0 ++ natBits 6 8)).map
      (fun r => (r.1.1, r.1.2.type, r.1.2.layout)) = .ok (false, 0, 8) := by decide +kernel
  cases hr : run (config3d Cfg.zero) (natBits 2 0 ++ natBits 6 8) with
  | ok x =>
    obtain ⟨⟨b, c'⟩, l'⟩ := x
    rw [hr] at e
    simp only [Res.map, Res.ok.injEq, Prod.mk.injEq] at e
    obtain ⟨rfl, e2, e3⟩ := e
    exact h Cfg.zero shape_zero _ _ _ hr e2 e3
  | jump => rw [hr] at e; simp [Res.map] at e
  | err c => rw [hr] at e; simp [Res.map] at e
  | ub => rw [hr] at e; simp [Res.map] at e

/-- The layout the loudspeaker setup of the first example has. -/
example : ∃ names c', layoutTbl[6]? = some (some names) ∧
    run (config3d Cfg.zero) (natBits 2 0 ++ (natBits 6 6 ++ [true])) = .ok ((false, c'), [true]) ∧
    GeomOf c' names ∧ c'.numSpeakers = names.length ∧ c'.layout = (6 : Nat) :=
  C73_layout_partial Cfg.zero shape_zero 6 (by decide) (by decide) (by decide) [true]

/-! ## C74: flexible speaker descriptions stay inside the arrays -/

/-- What a description leaves behind. -/
def Descr.Flags (d : Descr) : Prop := d.azDir ≤ 1 ∧ d.elDir ≤ 1 ∧ d.lfe ≤ 1 ∧ d.isCicp ≤ 1

instance (d : Descr) : Decidable d.Flags := by unfold Descr.Flags; infer_instance

theorem elevation_safe (d : Descr) (prec : Nat) (h : d.Flags) :
    Safe (elevation d prec) (fun r => r.2.Flags ∧ r.2.isCicp = d.isCicp) := by
  unfold elevation
  refine Safe.bind (Safe.bits (by split <;> decide)) fun ei _ => ?_
  refine Safe.ite (fun _ => Safe.pure ⟨h, rfl⟩) (fun _ => ?_)
  refine Safe.ite (fun _ => ?_) (fun _ => Safe.pure ⟨h, rfl⟩)
  refine Safe.bind (Safe.bits (by decide)) fun dir hd => ?_
  exact Safe.pure ⟨⟨h.1, by show dir ≤ 1; omega, h.2.2⟩, rfl⟩

theorem azimuth_safe (d : Descr) (prec : Nat) (h : d.Flags) :
    Safe (azimuth d prec) (fun r => r.2.Flags ∧ r.2.isCicp = d.isCicp) := by
  unfold azimuth
  refine Safe.bind (Safe.bits (by split <;> decide)) fun ai _ => ?_
  refine Safe.ite (fun _ => Safe.pure ⟨h, rfl⟩) (fun _ => ?_)
  refine Safe.bind (Safe.bitsOr (by decide)) fun dir hd => ?_
  refine Safe.bind (Safe.bits (by decide)) fun lfe hl => ?_
  refine Safe.pure ⟨⟨?_, h.2.1, by show lfe ≤ 1; omega, h.2.2.2⟩, rfl⟩
  rcases hd with hd | hd
  · show dir ≤ 1; omega
  · show dir ≤ 1; rw [hd]; exact h.1

theorem description_safe (d : Descr) (prec : Nat) (h : d.Flags) :
    Safe (description d prec) (fun r => r.2.Flags) := by
  unfold description
  refine Safe.bind (Safe.bits (by decide)) fun ic hic => ?_
  have h1 : Descr.Flags { d with isCicp := ic } := ⟨h.1, h.2.1, h.2.2.1, by show ic ≤ 1; omega⟩
  refine Safe.ite (fun _ => ?_) (fun _ => ?_)
  · refine Safe.bind (Safe.bits (by decide)) fun ec _ => ?_
    refine Safe.bind (R := fun r : Bool × Descr => r.2.Flags) ?_ fun r hr => ?_
    · exact Safe.ite (fun _ => (elevation_safe { d with isCicp := ic, elClass := ec } prec h1).mono fun _ h => h.1) (fun _ => Safe.pure h1)
    · exact Safe.ite (fun _ => Safe.pure hr) (fun _ => (azimuth_safe _ prec hr).mono fun _ h => h.1)
  · refine Safe.bind (Safe.bits (by decide)) fun idx _ => ?_
    exact Safe.pure h1

theorem geoTbl_length : geoTbl.length = 43 := rfl

theorem settle_safe (d : Descr) (prec : Nat) (h : d.Flags) :
    Safe (settle d prec) (fun r => r.2.Flags) := by
  unfold settle
  refine Safe.ite (fun _ => Safe.pure h) (fun _ => ?_)
  refine Safe.ite (fun hc => ?_) (fun _ => Safe.pure h)
  refine Safe.bind (Safe.getAt (by rw [geoTbl_length]; omega)) fun g _ => ?_
  exact Safe.pure h

/-- Thirty-two descriptors with flags in range. -/
def DescrOk (ds : List Descr) : Prop := ds.length = maxDescr ∧ ∀ d ∈ ds, d.Flags

theorem DescrOk.set {ds : List Descr} (h : DescrOk ds) (i : Nat) {d : Descr} (hd : d.Flags) :
    DescrOk (ds.set i d) :=
  ⟨by rw [List.length_set]; exact h.1, Asi.forall_set h.2 hd⟩

theorem flexLoop_safe (prec n : Nat) (hn : n ≤ maxSpeakers) :
    ∀ fuel i ds, DescrOk ds → Safe (flexLoop prec n fuel i ds) DescrOk := by
  have h24 : maxSpeakers = 24 := rfl
  have h44 : maxLs = 44 := rfl
  have h32 : maxDescr = 32 := rfl
  intro fuel
  induction fuel with
  | zero => intro i ds h; exact Safe.pure h
  | succ fuel ih =>
    intro i ds h
    unfold flexLoop
    refine Safe.ite (fun hi => ?_) (fun _ => Safe.pure h)
    have hl := h.1
    refine Safe.bind (Safe.getAt (by omega)) fun d hd => ?_
    have hdf := h.2 d (List.mem_of_getElem? hd)
    refine Safe.bind (description_safe d prec hdf) fun r hr => ?_
    refine Safe.bind (Safe.inTable (by omega) (by omega)) fun _ _ => ?_
    refine Safe.bind (settle_safe _ prec hr) fun s hs => ?_
    refine Safe.bind (Safe.setAt (by omega)) fun ds1 h1 => ?_
    subst h1
    refine Safe.bind (Safe.optBits (by decide)) fun pair _ => ?_
    refine Safe.ite (fun _ => ?_) (fun _ => ih _ _ (h.set _ hs))
    refine Safe.bind (Safe.setAt (by rw [List.length_set]; omega)) fun ds2 h2 => ?_
    subst h2
    refine ih _ _ ((h.set _ hs).set _ ⟨?_, hs.2⟩)
    have := hs.1
    show (65537 - s.2.azDir) % 65536 ≤ 1
    omega

/-- **C74** Parsing the description of up to 24 loudspeakers never leaves the array of 32 descriptors,
whatever the payload says and whatever the descriptors held before. -/
theorem C74_flex_safe (ds : List Descr) (h : DescrOk ds) (n : Nat) (hn : n ≤ maxSpeakers) :
    Safe (flexConfig ds n) (fun r => DescrOk r.2) := by
  unfold flexConfig
  refine Safe.bind (Safe.bits (by decide)) fun prec _ => ?_
  refine Safe.bind (flexLoop_safe prec n hn n 0 ds h) fun ds' h' => ?_
  exact Safe.pure h'

example : DescrOk Cfg.zero.descr := by
  refine ⟨rfl, fun d hd => ?_⟩
  rw [show Cfg.zero.descr = List.replicate 32 Descr.zero from rfl] at hd
  rw [(List.mem_replicate.mp hd).2]
  decide

/-! ## C75: the descriptions depend on the payload only -/

/-- The claim: where a description ends does not depend on what the descriptor held before. -/
def EndsAlike (d d' : Descr) : Prop :=
  ∀ prec l r l' r' l'', run (description d prec) l = .ok (r, l') →
    run (description d' prec) l = .ok (r', l'') → l' = l''

/-- **C75, refuted.** With azimuth 180 the direction bit is read if and only if the descriptor held
direction 1 before, so the same bits are cut up differently. -/
theorem C75_refuted : ¬ ∀ d d' : Descr, d.Flags → d'.Flags → EndsAlike d d' := by
  intro h
  have h1 := h Descr.zero { Descr.zero with azDir := 1 } (by decide) (by decide) 1
    (natBits 1 0 ++ natBits 2 0 ++ natBits 8 180 ++ natBits 1 0 ++ natBits 1 1)
    (false, { Descr.zero with azIdx := 180 }) [true] (false, { Descr.zero with azIdx := 180, lfe := 1 }) []
    (by decide +kernel) (by decide +kernel)
  simp at h1

theorem azimuth_same (d d' : Descr) (h : d.azDir ≠ 1) (h' : d'.azDir ≠ 1) 
    (prec : Nat) : Same (azimuth d prec) (azimuth d' prec)
      (fun r r' => r.1 = r'.1 ∧ r.2.isCicp = d.isCicp ∧ r'.2.isCicp = d'.isCicp ∧ r.2.azIdx = r'.2.azIdx) := by
  unfold azimuth
  refine Same.bits_bind fun ai => ?_
  refine Same.ite Iff.rfl (fun _ => Same.pure ⟨rfl, rfl, rfl, rfl⟩) (fun _ => ?_)
  simp only [degrees, if_neg h, if_neg h']
  refine Same.bind (R := fun _ _ => True) ?_ fun _ _ _ => ?_
  · unfold bitsOr
    exact Same.ite Iff.rfl (fun _ => (Same.refl _).mono fun _ _ _ => trivial) (fun _ => Same.pure trivial)
  · refine Same.bits_bind fun lfe => ?_
    exact Same.pure ⟨rfl, rfl, rfl, rfl⟩

theorem elevation_same (d d' : Descr) (prec : Nat) :
    Same (elevation d prec) (elevation d' prec)
      (fun r r' => r.1 = r'.1 ∧ r.2.isCicp = d.isCicp ∧ r'.2.isCicp = d'.isCicp ∧ r.2.elIdx = r'.2.elIdx ∧
        r.2.azDir = d.azDir ∧ r'.2.azDir = d'.azDir) := by
  unfold elevation
  refine Same.bits_bind fun ei => ?_
  refine Same.ite Iff.rfl (fun _ => Same.pure ⟨rfl, rfl, rfl, rfl, rfl, rfl⟩) (fun _ => ?_)
  have hz : ∀ dir, degrees (ei : Int) dir prec ≠ 0 ↔ ei ≠ 0 := by
    intro dir
    unfold degrees
    dsimp only
    split <;> split <;> omega
  refine Same.ite ((hz _).trans (hz _).symm) (fun _ => ?_) (fun _ => Same.pure ⟨rfl, rfl, rfl, rfl, rfl, rfl⟩)
  refine Same.bits_bind fun dir => ?_
  exact Same.pure ⟨rfl, rfl, rfl, rfl, rfl, rfl⟩

/-- **C75, partial.** When neither descriptor held direction 1, a description is cut out of the payload
in the same way: it ends at the same bit, fails alike, and gives the same azimuth magnitude.
Missing: descriptors that held direction 1 (`C75_refuted`); directions that are not sent (azimuth 0 or
180, elevation 0) and the elevation when it is not sent keep their old values. -/
theorem C75_ends_partial (d d' : Descr) (h : d.azDir ≠ 1) (h' : d'.azDir ≠ 1) (prec : Nat) :
    Same (description d prec) (description d' prec)
      (fun r r' => r.1 = r'.1 ∧ r.2.isCicp = r'.2.isCicp ∧
        (r.2.isCicp ≠ 0 → r.2.cicp = r'.2.cicp) ∧
        (r.1 = false → r.2.isCicp = 0 → r.2.azIdx = r'.2.azIdx)) := by
  unfold description
  refine Same.bits_bind fun ic => ?_
  refine Same.ite Iff.rfl (fun h0 => ?_) (fun h0 => ?_)
  · refine Same.bits_bind fun ec => ?_
    refine Same.bind (R := fun r r' : Bool × Descr => r.1 = r'.1 ∧ r.2.isCicp = 0 ∧ r'.2.isCicp = 0 ∧
        r.2.azDir = d.azDir ∧ r'.2.azDir = d'.azDir) ?_ fun r r' hr => ?_
    · refine Same.ite Iff.rfl (fun _ => ?_) (fun _ => Same.pure ⟨rfl, h0, h0, rfl, rfl⟩)
      exact (elevation_same { d with isCicp := ic, elClass := ec } { d' with isCicp := ic, elClass := ec } prec).mono
        fun a b hab => ⟨hab.1, hab.2.1.trans h0, hab.2.2.1.trans h0, hab.2.2.2.2.1, hab.2.2.2.2.2⟩
    · obtain ⟨e1, e2, e3, e4, e5⟩ := hr
      refine Same.ite (by rw [e1]) (fun hb => Same.pure ⟨e1, e2.trans e3.symm, fun x => absurd e2 x, fun x => ?_⟩) (fun _ => ?_)
      · rw [hb] at x; simp at x
      · refine (azimuth_same r.2 r'.2 (by rw [e4]; exact h) (by rw [e5]; exact h') prec).mono ?_
        intro a b hab
        exact ⟨hab.1, (hab.2.1.trans e2).trans (hab.2.2.1.trans e3).symm,
          fun x => absurd (hab.2.1.trans e2) x, fun _ _ => hab.2.2.2⟩
  · refine Same.bits_bind fun idx => ?_
    exact Same.pure ⟨rfl, rfl, fun _ => rfl, fun _ x => absurd x h0⟩

example : Same (description Descr.zero 1) (description { Descr.zero with elIdx := 7, lfe := 1 } 1)
    (fun r r' => r.1 = r'.1 ∧ r.2.isCicp = r'.2.isCicp ∧ (r.2.isCicp ≠ 0 → r.2.cicp = r'.2.cicp) ∧
      (r.1 = false → r.2.isCicp = 0 → r.2.azIdx = r'.2.azIdx)) :=
  C75_ends_partial _ _ (by decide) (by decide) 1

/-! ## C76: angles in range -/

/-- The claim: after an accepted configuration with flexible descriptions, every loudspeaker that is
given by angles is on the sphere. -/
def AnglesInRange : Prop :=
  ∀ c : Cfg, c.Shape → ∀ l c' l', run (config3d c) l = .ok ((false, c'), l') → c'.type = 2 →
    ∀ i, i < c'.numSpeakers.toNat → ∀ d ∈ c'.descr[i]?, d.isCicp = 0 → -180 ≤ d.azIdx ∧ d.azIdx ≤ 180

/-- **C76, refuted.** Azimuth 255 is reported as an error by the description, but the error is dropped
and the loudspeaker stays in the geometry at 255 degrees. -/
theorem C76_refuted : ¬ AnglesInRange := by
  intro h
  let bad := natBits 2 2 ++ natBits 5 0 ++ natBits 1 1 ++ natBits 1 0 ++ natBits 2 0 ++ natBits 8 255 ++ natBits 1 0
  have e : (run (config3d Cfg.zero) bad).map
      (fun r => (r.1.1, r.1.2.type, r.1.2.numSpeakers, (r.1.2.descr[0]?).map Descr.azIdx,
        (r.1.2.descr[0]?).map Descr.isCicp)) = .ok (false, 2, 1, some 255, some 0) := by decide +kernel
  cases hr : run (config3d Cfg.zero) bad with
  | ok x =>
    obtain ⟨⟨b, c'⟩, l'⟩ := x
    rw [hr] at e
    simp only [Res.map, Res.ok.injEq, Prod.mk.injEq, Option.map_eq_some_iff] at e
    obtain ⟨rfl, e2, e3, ⟨d, hd, e4⟩, ⟨d', hd', e5⟩⟩ := e
    have hdd : d = d' := Option.some.inj (hd.symm.trans hd')
    have := h Cfg.zero shape_zero _ _ _ hr e2 0 (by rw [e3]; decide) d hd (by rw [hdd]; exact e5)
    omega
  | jump => rw [hr] at e; simp [Res.map] at e
  | err c => rw [hr] at e; simp [Res.map] at e
  | ub => rw [hr] at e; simp [Res.map] at e

/-- **C76, partial.** A description that reports no error has its azimuth within half a turn and, when
the elevation is sent, the elevation within a quarter turn. Missing: the caller drops the error. -/
theorem C76_angles_partial (d : Descr) (prec : Nat) :
    Safe (description d prec) (fun r => r.1 = false → r.2.isCicp = 0 →
      -180 ≤ degrees r.2.azIdx r.2.azDir prec ∧ degrees r.2.azIdx r.2.azDir prec ≤ 180 ∧
      (r.2.elClass = 3 → -90 ≤ degrees r.2.elIdx 0 prec ∧ degrees r.2.elIdx 0 prec ≤ 90)) := by
  unfold description
  refine Safe.bind (Safe.bits (by decide)) fun ic hic => ?_
  refine Safe.ite (fun _ => ?_) (fun h0 => ?_)
  · refine Safe.bind (Safe.bits (by decide)) fun ec _ => ?_
    refine Safe.bind (R := fun r : Bool × Descr => r.1 = false → r.2.elClass = ec ∧
      (ec = 3 → -90 ≤ degrees r.2.elIdx 0 prec ∧ degrees r.2.elIdx 0 prec ≤ 90)) ?_ fun r hr => ?_
    · refine Safe.ite (fun _ => ?_) (fun h3 => Safe.pure fun _ => ⟨rfl, fun x => absurd x h3⟩)
      unfold elevation
      refine Safe.bind (Safe.bits (by split <;> decide)) fun ei _ => ?_
      refine Safe.ite (fun _ => Safe.pure fun x => by simp at x) (fun hle => ?_)
      refine Safe.ite (fun _ => ?_) (fun _ => Safe.pure fun _ => ⟨rfl, fun _ => ?_⟩)
      · refine Safe.bind (Safe.bits (by decide)) fun dir hd => Safe.pure fun _ => ⟨rfl, fun _ => ?_⟩
        show -90 ≤ degrees (if dir ≠ 0 then -(ei : Int) else (ei : Int)) 0 prec ∧
          degrees (if dir ≠ 0 then -(ei : Int) else (ei : Int)) 0 prec ≤ 90
        unfold degrees
        dsimp only
        by_cases hp : prec = 0 <;> simp only [hp, ne_eq, not_true, not_false_iff, if_true, if_false] at hle ⊢ <;>
          split <;> constructor <;> simp <;> omega
      · show -90 ≤ degrees (ei : Int) 0 prec ∧ degrees (ei : Int) 0 prec ≤ 90
        unfold degrees
        dsimp only
        by_cases hp : prec = 0 <;> simp only [hp, ne_eq, not_true, not_false_iff, if_true, if_false] at hle ⊢ <;>
          constructor <;> simp <;> omega
    · refine Safe.ite (fun hb => Safe.pure fun x => by rw [hb] at x; simp at x) (fun hb => ?_)
      obtain ⟨hc, he⟩ := hr (by simpa using hb)
      unfold azimuth
      refine Safe.bind (Safe.bits (by split <;> decide)) fun ai _ => ?_
      refine Safe.ite (fun _ => Safe.pure fun x => by simp at x) (fun hle => ?_)
      refine Safe.bind (Safe.bitsOr (by decide)) fun dir hd => ?_
      refine Safe.bind (Safe.bits (by decide)) fun lfe hl => Safe.pure fun _ _ => ?_
      have hz : -180 ≤ degrees (ai : Int) dir prec ∧ degrees (ai : Int) dir prec ≤ 180 := by
        unfold degrees
        dsimp only
        by_cases hp : prec = 0 <;> simp only [hp, ne_eq, not_true, not_false_iff, if_true, if_false] at hle ⊢ <;>
          split <;> omega
      exact ⟨hz.1, hz.2, fun h3 => he (hc.symm.trans h3)⟩
  · refine Safe.bind (Safe.bits (by decide)) fun idx _ => ?_
    exact Safe.pure fun _ x => absurd x h0

example : run (description Descr.zero 1)
    (natBits 1 0 ++ natBits 2 3 ++ natBits 7 35 ++ natBits 1 1 ++ natBits 8 110 ++ natBits 1 1 ++ natBits 1 0) =
    .ok ((false, ⟨0, 0, 3, -35, 1, 110, 1, 0⟩), []) := by decide +kernel

/-! ## C77: symmetric pairs -/

/-- The claim: two loudspeakers announced as a symmetric pair are mirror images. -/
def PairsMirror : Prop :=
  ∀ c : Cfg, c.Shape → ∀ prec el az dir lfe l' c', prec ≤ 1 → dir ≤ 1 → lfe ≤ 1 → 0 < az → az < 36 → el < 3 →
    run (config3d c) (natBits 2 2 ++ natBits 5 1 ++ natBits 1 prec ++ natBits 1 0 ++ natBits 2 el ++
      natBits (if prec = 0 then 6 else 8) az ++ natBits 1 dir ++ natBits 1 lfe ++ natBits 1 1) = .ok ((false, c'), l') →
    ∃ g0 g1, c'.geom[0]? = some g0 ∧ c'.geom[1]? = some g1 ∧ g1.az = -g0.az

/-- **C77, refuted.** The pair of the loudspeaker at 30 degrees is also at 30 degrees. -/
theorem C77_refuted : ¬ PairsMirror := by
  intro h
  let pay := natBits 2 2 ++ natBits 5 1 ++ natBits 1 1 ++ natBits 1 0 ++ natBits 2 0 ++
      natBits (if 1 = 0 then 6 else 8) 30 ++ natBits 1 0 ++ natBits 1 0 ++ natBits 1 1
  have e : (run (config3d Cfg.zero) pay).map
      (fun r => (r.1.1, (r.1.2.geom[0]?).map ChGeo.az, (r.1.2.geom[1]?).map ChGeo.az)) =
        .ok (false, some 30, some 30) := by decide +kernel
  cases hr : run (config3d Cfg.zero) pay with
  | ok x =>
    obtain ⟨⟨b, c'⟩, l'⟩ := x
    rw [hr] at e
    simp only [Res.map, Res.ok.injEq, Prod.mk.injEq] at e
    obtain ⟨rfl, e2, e3⟩ := e
    obtain ⟨g0, g1, h0, h1, h2⟩ := h Cfg.zero shape_zero 1 0 30 0 0 l' c' (by decide) (by decide) (by decide)
      (by decide) (by decide) (by decide) hr
    rw [h0] at e2
    rw [h1] at e3
    simp only [Option.map_some, Option.some.injEq] at e2 e3
    omega
  | jump => rw [hr] at e; simp [Res.map] at e
  | err c => rw [hr] at e; simp [Res.map] at e
  | ub => rw [hr] at e; simp [Res.map] at e

/-- **C77, partial.** When a pair is announced, the next descriptor is a copy with the direction
flipped, so elevation and LFE flag agree. Missing: the angle, which is already signed, is copied
unchanged. -/
theorem C77_pair_partial (prec n i : Nat) (ds : List Descr) (hi : i < n) (hn : n ≤ maxSpeakers)
    (hl : ds.length = maxDescr) (d : Descr) (hd : ds[i]? = some d) (l : List Bool) (r : Bool × Descr) (l1 : List Bool)
    (h1 : run (description d prec) l = .ok (r, l1)) (az : Int) (x : Descr)
    (h2 : run (settle r.2 prec) l1 = .ok ((az, x), l1)) (h0 : az ≠ 0) (h180 : az ≠ 180) (rest : List Bool)
    (hb : l1 = natBits 1 1 ++ rest) :
    ∃ ds', run (flexLoop prec n 1 i ds) l = .ok (ds', rest) ∧ ds'[i]? = some x ∧
      ∃ y, ds'[i + 1]? = some y ∧ y.elIdx = x.elIdx ∧ y.elClass = x.elClass ∧ y.lfe = x.lfe ∧ y.azIdx = x.azIdx ∧
        (x.azDir = 0 → y.azDir = 1) ∧ (x.azDir = 1 → y.azDir = 0) := by
  have h24 : maxSpeakers = 24 := rfl
  have h44 : maxLs = 44 := rfl
  have h32 : maxDescr = 32 := rfl
  refine ⟨(ds.set i x).set (i + 1) { x with azDir := (65537 - x.azDir) % 65536 }, ?_, ?_,
    { x with azDir := (65537 - x.azDir) % 65536 }, ?_, rfl, rfl, rfl, rfl, ?_, ?_⟩
  · unfold flexLoop
    rw [if_pos hi, run_getAt_bind _ _ _ _ _ hd, run_bind, h1, Res.ok_bind]
    simp only
    rw [run_inTable_bind _ _ _ _ ⟨by omega, by omega⟩, run_bind, h2, Res.ok_bind]
    simp only
    rw [run_bind, run_setAt _ _ _ _ (by omega), Res.ok_bind]
    simp only [ne_eq, h0, h180, not_false_iff, and_self, decide_true]
    rw [hb]
    show run (optBits true 1 >>= _) _ = _
    rw [show natBits 1 1 ++ rest = optN true 1 1 ++ rest from rfl, run_optBits_bind _ _ _ _ _ (by decide) (by decide)]
    simp only [if_true]
    rw [if_pos (by decide), run_bind, run_setAt _ _ _ _ (by rw [List.length_set]; omega)]
    rfl
  · rw [List.getElem?_set_ne (by omega), List.getElem?_set_self (by omega)]
  · rw [List.getElem?_set_self (by rw [List.length_set]; omega)]
  · intro h; simp [h]
  · intro h; simp [h]

/-- The hypotheses of `C77_pair_partial`: a loudspeaker at the position of CICP loudspeaker 1, at -30°. -/
example : (run (do
      let r ← description Descr.zero 0
      let s ← settle r.2 0
      pure s.1) (natBits 1 1 ++ natBits 7 1 ++ natBits 1 1)).map (fun x => (x.1, x.2)) = .ok (-30, natBits 1 1) := by
  decide +kernel

/-- **C73, partial.** A list of more than 32 loudspeakers is refused before any of them is read. -/
theorem C73_too_many_partial (c : Cfg) (ty n : Nat) (hty : ty = 1 ∨ ty = 2) (hn : maxSpeakers ≤ n)
    (hn' : n ≤ escapeMax 5 8 16) (l : List Bool) :
    run (config3d c) (natBits 2 ty ++ (fieldBits (escapeFields n 5 8 16) ++ l)) =
      .ok ((true, { c with type := ty, numSpeakers := 0 }), l) := by
  unfold config3d
  rw [run_bits_bind 2 ty _ _ (by decide) (by omega)]
  dsimp only
  rw [if_neg (by omega), if_pos (by omega), run_bind, run_bind,
    C05_reader n 5 8 16 (by decide) (by decide) (by decide) hn' l, Res.ok_bind, if_pos (by omega), run_pure,
    Res.ok_bind]
  rfl

example : maxSpeakers ≤ 32 ∧ 32 ≤ escapeMax 5 8 16 := by decide

end Verif.Speaker
