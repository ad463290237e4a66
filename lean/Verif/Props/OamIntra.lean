import Verif.Props.OamCode

/-! # Intra-coded metadata of several objects (C64) -/

namespace Verif.Oam

open Prog ObjMd

theorem writeAt_nil (t : List Int) (i : Nat) : writeAt t i [] = t := by
  simp [writeAt]

theorem length_writeAt (t : List Int) (i : Nat) (vs : List Int) (h : i + vs.length ≤ t.length) :
    (writeAt t i vs).length = t.length := by
  simp [writeAt]; omega

theorem set_writeAt (t : List Int) (i : Nat) (v : Int) (vs : List Int) (h : i + vs.length < t.length) :
    (writeAt t i vs).set (i + vs.length) v = writeAt t i (vs ++ [v]) := by
  unfold writeAt
  apply List.ext_getElem?
  intro j
  simp only [List.getElem?_set, List.length_append, List.length_take, List.length_drop,
    List.getElem?_append, List.getElem?_take, List.getElem?_drop, List.length_singleton]
  have hm : min i t.length = i := by omega
  rw [hm]
  by_cases h1 : i + vs.length = j
  · subst h1
    rw [if_pos rfl, if_pos (by omega), if_pos (by omega), if_neg (by omega), if_neg (by omega)]
    rw [show i + vs.length - i - vs.length = 0 by omega]; rfl
  · rw [if_neg h1]
    by_cases h2 : j < i
    · simp only [h2, show j < i + vs.length by omega, show j < i + (vs.length + 1) by omega, if_true]
    · by_cases h3 : j < i + vs.length
      · rw [if_pos h3, if_neg h2, if_pos (by omega), if_neg h2, if_pos (by omega)]
      · rw [if_neg h3, if_neg (by omega)]
        congr 1
        omega

/-- Writing the entries of a table one after the other, from items read one by one. -/
theorem run_each {β : Type} (enc : β → List Bool) (body : Nat → List Int → Prog (List Int))
    (val : β → Int) (start : Nat) (t : List Int) (P : β → Prop)
    (hbody : ∀ (b : β) (j : Nat) (u : List Int) (l : List Bool), P b → start + j < u.length →
      run (body j u) (enc b ++ l) = .ok (u.set (start + j) (val b), l))
    (bs done : List β) (hP : ∀ b ∈ bs, P b) (h : start + (done.length + bs.length) ≤ t.length) (l : List Bool) :
    run (foldN body bs.length done.length (writeAt t start (done.map val))) (bs.flatMap enc ++ l) =
      .ok (writeAt t start ((done ++ bs).map val), l) := by
  induction bs generalizing done with
  | nil => simp [foldN]
  | cons b bs ih =>
    simp only [List.length_cons, foldN, List.flatMap_cons, List.append_assoc] at h ⊢
    have hlen : (writeAt t start (done.map val)).length = t.length :=
      length_writeAt _ _ _ (by simp; omega)
    rw [run_then (hbody b done.length _ _ (hP b (by simp)) (by rw [hlen]; omega))]
    have := set_writeAt t start (val b) (done.map val) (by simp; omega)
    rw [List.length_map] at this
    rw [this]
    have e : done.map val ++ [val b] = (done ++ [b]).map val := by simp
    have e2 : done ++ b :: bs = (done ++ [b]) ++ bs := by simp
    rw [e, e2, show done.length + 1 = (done ++ [b]).length by simp]
    exact ih (done ++ [b]) (fun x hx => hP x (by simp [hx])) (by simp; omega)

theorem run_fill (t : List Int) (start n : Nat) (v : Int) (l : List Bool) (h : start + n ≤ t.length) :
    run (fill t start n v) l = .ok (writeAt t start (List.replicate n v), l) := by
  have := run_each (β := Unit) (fun _ => []) (fun i t => setAt t (start + i) v) (fun _ => v) start t
    (fun _ => True) (fun _ j u l _ hj => by simp [run_setAt _ _ _ _ hj]) (List.replicate n ()) []
    (fun _ _ => trivial) (by simpa using h) l
  simp only [List.length_replicate, List.length_nil, List.map_nil, writeAt_nil, List.nil_append,
    List.map_replicate] at this
  unfold fill
  have e : (List.replicate n ()).flatMap (fun _ => ([] : List Bool)) = [] := by simp
  rw [e, List.nil_append] at this
  exact this

theorem run_param {n : Nat} (w : Way Int) (rd : Prog Int) (enc : Int → List Bool) (P : Int → Prop)
    (hrd : ∀ v l, P v → run rd (enc v ++ l) = .ok (v, l)) (t : List Int) (start : Nat)
    (hw : w.Ok P n) (h : start + n ≤ t.length) (l : List Bool) :
    run (param w.isFixed rd t start n) (w.rest enc ++ l) = .ok (writeAt t start (w.vals n), l) := by
  cases w with
  | fixed v =>
    simp only [param, Way.isFixed, if_true, Way.rest, Way.vals]
    rw [run_then (hrd v l hw), run_fill _ _ _ _ _ h]
  | common v =>
    simp only [param, Way.isFixed, Bool.false_eq_true, if_false, Way.rest, Way.vals, List.cons_append]
    rw [run_bind, run_flag, Res.ok_bind]
    simp only [if_true]
    rw [run_then (hrd v l hw), run_fill _ _ _ _ _ h]
  | each vs =>
    obtain ⟨hl, hv⟩ := hw
    simp only [param, Way.isFixed, Bool.false_eq_true, if_false, Way.rest, Way.vals, List.cons_append]
    rw [run_bind, run_flag, Res.ok_bind]
    simp only [Bool.false_eq_true, if_false]
    have := run_each enc (fun i t => do let v ← rd; setAt t (start + i) v) id start t P
      (fun b j u l hb hj => by rw [run_then (hrd b l hb), run_setAt _ _ _ _ hj]; rfl) vs [] hv
      (by simp; omega) l
    simp only [List.length_nil, List.map_nil, writeAt_nil, List.nil_append, List.map_id] at this
    rw [hl] at this
    exact this

/-- The parameters of several objects, as written. -/
structure Many where
  az : Way Int
  el : Way Int
  rad : Way Int
  gain : Way Int
  sw : Way Int
  pri : Way Int

/-- Everything is in range, for `n` objects. -/
structure Many.Ok (n : Nat) (m : Many) : Prop where
  az : m.az.Ok (FitsS 8) n
  el : m.el.Ok (FitsS 6) n
  rad : m.rad.Ok (FitsU 4) n
  gain : m.gain.Ok (FitsS 7) n
  sw : m.sw.Ok (FitsU 7) n
  pri : m.pri.Ok (FitsU 3) n

/-- Intra-coded data of several objects with a uniform spread. -/
def intraBits (dyn : Bool) (m : Many) : List Bool :=
  m.az.isFixed :: (m.az.rest (twos 8) ++ m.el.isFixed :: (m.el.rest (twos 6) ++
    m.rad.isFixed :: (m.rad.rest (twos 4) ++ m.gain.isFixed :: (m.gain.rest (twos 7) ++
      m.sw.isFixed :: (m.sw.rest (twos 7) ++
        (if dyn then m.pri.isFixed :: m.pri.rest (twos 3) else []))))))

/-- The state that should result: the values of all `n` objects from `start` on replaced. -/
def putMany (dyn : Bool) (start n : Nat) (c : Coded) (m : Many) : Coded :=
  { c with
    az := writeAt c.az start (m.az.vals n), el := writeAt c.el start (m.el.vals n),
    rad := writeAt c.rad start (m.rad.vals n), gain := writeAt c.gain start (m.gain.vals n),
    sw := writeAt c.sw start (m.sw.vals n),
    pri := if dyn then writeAt c.pri start (m.pri.vals n) else c.pri }

def fixedOf (dyn : Bool) (m : Many) (fx : Fixed) : Fixed :=
  ⟨m.az.isFixed, m.el.isFixed, m.rad.isFixed, m.gain.isFixed, m.sw.isFixed,
    if dyn then m.pri.isFixed else fx.pri⟩

theorem run_flag_bind {β : Type} (b : Bool) (f : Bool → Prog β) (l : List Bool) :
    run (flag >>= f) (b :: l) = run (f b) l := by
  rw [run_bind, run_flag]; rfl

/-- **C64** (partial) Uniform spread, several objects: whatever way every parameter is written, the
values of the objects of the sub-frame become the values written, nothing else changes, and exactly
the bits written are consumed.  Left out: a fixed spread in a sub-frame other than the first. -/
theorem C64_intra_many_partial (cfg : Cfg) (hu : cfg.uniformSpread = true) (start n : Nat) (c : Coded)
    (hc : Sized c) (h : start + n ≤ 96) (m : Many) (hm : m.Ok n) (fx : Fixed)
    (hs : start = 0 ∨ m.sw.isFixed = false) (l : List Bool) :
    run (intraMany cfg start n c fx) (intraBits cfg.dynPriority m ++ l) =
      .ok ((putMany cfg.dynPriority start n c m, fixedOf cfg.dynPriority m fx), l) := by
  have hS : ∀ k, 1 ≤ k → k ≤ 24 → ∀ v l, FitsS k v → run (readSigned k) (twos k v ++ l) = .ok (v, l) :=
    fun k h1 h2 v l hv => run_readSigned k v l h1 h2 hv
  have hU : ∀ k, k ≤ 24 → ∀ v l, FitsU k v → run (readUnsigned k) (twos k v ++ l) = .ok (v, l) :=
    fun k h2 v l hv => run_readUnsigned k v l h2 hv
  unfold intraMany intraBits
  simp only [List.cons_append, List.append_assoc]
  rw [run_flag_bind, run_then (run_param m.az _ _ _ (hS 8 (by omega) (by omega)) _ _ hm.az
    (by rw [hc.az]; exact h) _)]
  rw [run_flag_bind, run_then (run_param m.el _ _ _ (hS 6 (by omega) (by omega)) _ _ hm.el
    (by rw [hc.el]; exact h) _)]
  rw [run_flag_bind, run_then (run_param m.rad _ _ _ (hU 4 (by omega)) _ _ hm.rad
    (by rw [hc.rad]; exact h) _)]
  rw [run_flag_bind, run_then (run_param m.gain _ _ _ (hS 7 (by omega) (by omega)) _ _ hm.gain
    (by rw [hc.gain]; exact h) _)]
  rw [run_flag_bind]
  have hspread : ∀ (f : List Int × List Int × List Int → Prog (Coded × Fixed)) (l : List Bool),
      run ((if m.sw.isFixed then
          if cfg.uniformSpread then do
            let v ← readUnsigned 7
            let sw ← fill c.sw 0 n v
            pure (sw, c.sh, c.sd)
          else spread3 n start (c.sw, c.sh, c.sd)
        else do
          let com ← flag
          if com then
            if cfg.uniformSpread then do
              let v ← readUnsigned 7
              let sw ← fill c.sw start n v
              pure (sw, c.sh, c.sd)
            else spread3 n start (c.sw, c.sh, c.sd)
          else if cfg.uniformSpread then do
            let sw ← foldN (fun i t => do
              let v ← readUnsigned 7
              setAt t (start + i) v) n 0 c.sw
            pure (sw, c.sh, c.sd)
          else foldN (fun i t => spread3 1 (start + i) t) n 0 (c.sw, c.sh, c.sd)) >>= f)
        (m.sw.rest (twos 7) ++ l) =
      run (f (writeAt c.sw start (m.sw.vals n), c.sh, c.sd)) l := by
    intro f l
    have hsw := hm.sw
    have hlen : start + n ≤ c.sw.length := by rw [hc.sw]; exact h
    simp only [hu, if_true]
    revert hsw hs
    cases m.sw with
    | fixed v =>
      intro hs hsw
      rcases hs with rfl | hs
      · simp only [Way.isFixed, if_true, Way.rest, Way.vals]
        rw [run_bind, run_then (hU 7 (by omega) v l hsw), run_then (run_fill _ _ _ _ _ (by omega))]
        rfl
      · simp [Way.isFixed] at hs
    | common v =>
      intro hs hsw
      simp only [Way.isFixed, Bool.false_eq_true, if_false, Way.rest, Way.vals, List.cons_append]
      rw [run_bind, run_flag_bind]
      simp only [if_true]
      rw [run_then (hU 7 (by omega) v l hsw), run_then (run_fill _ _ _ _ _ hlen)]
      rfl
    | each vs =>
      intro hs hsw
      have := run_param (n := n) (.each vs) (readUnsigned 7) (twos 7) (FitsU 7) (hU 7 (by omega)) c.sw start
        hsw hlen l
      simp only [param, Way.isFixed, Bool.false_eq_true, if_false, Way.rest, List.cons_append] at this ⊢
      rw [run_flag_bind] at this
      simp only [Bool.false_eq_true, if_false] at this
      rw [run_bind, run_flag_bind]
      simp only [Bool.false_eq_true, if_false]
      rw [run_then this]
      rfl
  rw [hspread]
  simp only
  cases hd : cfg.dynPriority with
  | false =>
    simp only [Bool.false_eq_true, if_false, List.nil_append]
    rw [run_then (run_pure _ _)]
    simp [putMany, fixedOf]
  | true =>
    simp only [if_true, List.cons_append]
    have : run (do
          let fpri ← flag
          let pri ← param fpri (readUnsigned 3) c.pri start n
          pure (pri, fpri)) (m.pri.isFixed :: (m.pri.rest (twos 3) ++ l)) =
        .ok ((writeAt c.pri start (m.pri.vals n), m.pri.isFixed), l) := by
      rw [run_flag_bind, run_then (run_param m.pri _ _ _ (hU 3 (by omega)) _ _ hm.pri
        (by rw [hc.pri]; exact h) _)]
      rfl
    rw [run_then this]
    simp [putMany, fixedOf]

/-- Two objects; all parameters fixed but the azimuth. -/
def exMany : Many :=
  ⟨.each [5, -7], .common 3, .fixed 2, .fixed (-1), .fixed 40, .fixed 0⟩

theorem exMany_ok : exMany.Ok 2 := by
  constructor <;> (simp only [exMany, Way.Ok]; first | (unfold FitsS; decide) | (unfold FitsU; decide))

example : (run (intraMany ⟨true, false, 512⟩ 0 2 init.coded noneFixed) (intraBits false exMany)).map
    (fun r => (r.1.1.az.take 3, r.1.1.sw.take 3, r.2)) = .ok ([5, -7, 0], [40, 40, 0], []) := by
  decide +kernel

/-- **C64** (refuted) A fixed spread in the second sub-frame (objects 2 and 3 of the arrays) is
written to the objects of the first. -/
theorem C64_refuted : ∃ m : Many, m.Ok 2 ∧
    (run (intraMany ⟨true, false, 512⟩ 2 2 init.coded noneFixed) (intraBits false m)).map
      (fun r => (r.1.1.az.take 4, r.1.1.sw.take 4, r.2)) =
      .ok ([0, 0, 5, -7], [40, 40, 0, 0], []) :=
  ⟨exMany, exMany_ok, by decide +kernel⟩

end Verif.Oam
