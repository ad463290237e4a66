import Verif.Props.OamIntra
import Verif.Proofs.Post

/-! # Fixed parameters and descaled values of objects (C114, C115) -/

namespace Verif.Oam

open Prog ObjMd

/-- The values of an object in absolutely coded dynamic data with a uniform spread: parameters that
are fixed are not written. -/
def absoluteRest (fx : Fixed) (v : Vals) : List Bool :=
  (if fx.az then [] else twos 8 v.az) ++ ((if fx.el then [] else twos 6 v.el) ++
    ((if fx.rad then [] else twos 4 v.rad) ++ ((if fx.gain then [] else twos 7 v.gain) ++
      (if fx.sp then [] else twos 7 v.sw))))

/-- **C114** (partial) Absolutely coded dynamic data with a uniform spread and without dynamic
priority: exactly the parameters that are not fixed are read, into their own entries.  A fixed
parameter does not keep its value but becomes 0. -/
theorem C114_absolute_partial (cfg : Cfg) (hu : cfg.uniformSpread = true) (hd : cfg.dynPriority = false)
    (fx : Fixed) (i : Nat) (c : Coded) (hc : Sized c) (hi : i < 96) (v : Vals) (hv : v.Fits) (l : List Bool) :
    run (singleAbs cfg fx i c) (absoluteRest fx v ++ l) =
      .ok (⟨c.az.set i (if fx.az then 0 else v.az), c.el.set i (if fx.el then 0 else v.el),
        c.rad.set i (if fx.rad then 0 else v.rad), c.gain.set i (if fx.gain then 0 else v.gain),
        c.sw.set i (if fx.sp then 0 else v.sw), if fx.sp then c.sh.set i 0 else c.sh,
        if fx.sp then c.sd.set i 0 else c.sd, c.pri⟩, l) := by
  have hs : ∀ (f : Bool) (n : Nat) (t : List Int) (x : Int) (l : List Bool), 1 ≤ n → n ≤ 24 → FitsS n x →
      i < t.length → run (if f then setAt t i 0 else do let v ← readSigned n; setAt t i v)
        ((if f then [] else twos n x) ++ l) = .ok (t.set i (if f then 0 else x), l) := by
    intro f n t x l h1 h2 h3 h4
    cases f
    · simp only [Bool.false_eq_true, if_false]
      rw [run_then (run_readSigned n x l h1 h2 h3), run_setAt _ _ _ _ h4]
    · simp only [if_true, List.nil_append]
      rw [run_setAt _ _ _ _ h4]
  have hus : ∀ (f : Bool) (n : Nat) (t : List Int) (x : Int) (l : List Bool), n ≤ 24 → FitsU n x →
      i < t.length → run (if f then setAt t i 0 else do let v ← readUnsigned n; setAt t i v)
        ((if f then [] else twos n x) ++ l) = .ok (t.set i (if f then 0 else x), l) := by
    intro f n t x l h2 h3 h4
    cases f
    · simp only [Bool.false_eq_true, if_false]
      rw [run_then (run_readUnsigned n x l h2 h3), run_setAt _ _ _ _ h4]
    · simp only [if_true, List.nil_append]
      rw [run_setAt _ _ _ _ h4]
  unfold singleAbs absoluteRest
  simp only [List.append_assoc, hu, hd, Bool.false_eq_true, if_false, if_true]
  rw [run_then (hs fx.az 8 _ _ _ (by omega) (by omega) hv.az (by rw [hc.az]; exact hi)),
    run_then (hs fx.el 6 _ _ _ (by omega) (by omega) hv.el (by rw [hc.el]; exact hi)),
    run_then (hus fx.rad 4 _ _ _ (by omega) hv.rad (by rw [hc.rad]; exact hi)),
    run_then (hs fx.gain 7 _ _ _ (by omega) (by omega) hv.gain (by rw [hc.gain]; exact hi))]
  cases fx.sp
  · simp only [Bool.false_eq_true, if_false]
    have : run (do let v ← readUnsigned 7; let sw ← setAt c.sw i v; pure (sw, c.sh, c.sd))
        (twos 7 v.sw ++ l) = .ok ((c.sw.set i v.sw, c.sh, c.sd), l) := by
      rw [run_then (run_readUnsigned 7 _ _ (by omega) hv.sw),
        run_setAt_bind _ _ _ _ _ (by rw [hc.sw]; exact hi)]
      rfl
    rw [run_then this]
    rfl
  · simp only [if_true, List.nil_append]
    have : run (do
        let sw ← setAt c.sw i 0
        let sh ← setAt c.sh i 0
        let sd ← setAt c.sd i 0
        pure (sw, sh, sd)) l = .ok ((c.sw.set i 0, c.sh.set i 0, c.sd.set i 0), l) := by
      rw [run_setAt_bind _ _ _ _ _ (by rw [hc.sw]; exact hi), run_setAt_bind _ _ _ _ _ (by rw [hc.sh]; exact hi),
        run_setAt_bind _ _ _ _ _ (by rw [hc.sd]; exact hi)]
      rfl
    rw [run_then this]
    rfl

example : (run (singleAbs ⟨true, false, 1024⟩ ⟨true, false, false, true, false, false⟩ 0 init.coded)
    (absoluteRest ⟨true, false, false, true, false, false⟩ exVals)).map
      (fun r => (r.1.az[0]?, r.1.el[0]?, r.1.rad[0]?, r.1.gain[0]?, r.2)) =
    .ok (some 0, some 2, some 7, some 0, []) := by decide +kernel

/-- A parameter that is fixed: nothing is read for it. -/
theorem run_fixed_bind {α : Type} (t : List Int) (p : Prog (List Int)) (f : List Int → Prog α) (l : List Bool) :
    run ((if true then pure t else p) >>= f) l = run (f t) l := rfl

/-- **C114** (partial) In differentially coded dynamic data the fixed position parameters and the
fixed gain keep their values, whatever is coded. -/
theorem C114_differences_partial (cfg : Cfg) (fx : Fixed) (i : Nat) (c c' : Coded) (l l' : List Bool)
    (h : run (singleDiff cfg fx i c) l = .ok (c', l')) :
    (fx.az = true → c'.az = c.az) ∧ (fx.el = true → c'.el = c.el) ∧
    (fx.rad = true → c'.rad = c.rad) ∧ (fx.gain = true → c'.gain = c.gain) := by
  unfold singleDiff at h
  rw [run_bind] at h
  obtain ⟨⟨nb, l1⟩, -, h⟩ := Res.bind_eq_ok.1 h
  dsimp only at h
  rw [run_bind] at h
  obtain ⟨⟨az, l2⟩, haz, h⟩ := Res.bind_eq_ok.1 h
  dsimp only at h
  rw [run_bind] at h
  obtain ⟨⟨el, l3⟩, hel, h⟩ := Res.bind_eq_ok.1 h
  dsimp only at h
  rw [run_bind] at h
  obtain ⟨⟨rad, l4⟩, hrad, h⟩ := Res.bind_eq_ok.1 h
  dsimp only at h
  rw [run_bind] at h
  obtain ⟨⟨gain, l5⟩, hgain, h⟩ := Res.bind_eq_ok.1 h
  dsimp only at h
  rw [run_bind] at h
  obtain ⟨⟨⟨sw, sh, sd⟩, l6⟩, -, h⟩ := Res.bind_eq_ok.1 h
  dsimp only at h
  rw [run_bind] at h
  obtain ⟨⟨pri, l7⟩, -, h⟩ := Res.bind_eq_ok.1 h
  simp only [run_pure, Res.ok.injEq, Prod.mk.injEq] at h
  obtain ⟨rfl, -⟩ := h
  refine ⟨fun hf => ?_, fun hf => ?_, fun hf => ?_, fun hf => ?_⟩
  · rw [hf] at haz
    simp only [if_true, run_pure, Res.ok.injEq, Prod.mk.injEq] at haz
    exact haz.1.symm
  · rw [hf] at hel
    simp only [if_true, run_pure, Res.ok.injEq, Prod.mk.injEq] at hel
    exact hel.1.symm
  · rw [hf] at hrad
    simp only [if_true, run_pure, Res.ok.injEq, Prod.mk.injEq] at hrad
    exact hrad.1.symm
  · rw [hf] at hgain
    simp only [if_true, run_pure, Res.ok.injEq, Prod.mk.injEq] at hgain
    exact hgain.1.symm

example : (run (singleDiff ⟨true, false, 1024⟩ ⟨true, false, true, true, true, false⟩ 0 init.coded)
    (natBits 3 0 ++ [true] ++ twos 2 1)).map (fun r => (r.1.az[0]?, r.1.el[0]?, r.2)) =
    .ok (some 0, some 1, []) := by decide +kernel

/-- Two frames of two objects: first intra data in which azimuth 20 and spread 30 are the same for all and for
all dynamic data that follow, then dynamic data. -/
def fixedFrames (second : List Bool) : Res (Option Int × Option Int × Option Int × Option Int) := do
  let r ← run (lowDelay noPow ⟨true, false, 1024⟩ 2 0 init)
    ([true] ++ ([true] ++ twos 8 20) ++ ([true] ++ twos 6 0) ++ ([true] ++ twos 4 3) ++ ([true] ++ twos 7 0) ++
      ([true] ++ twos 7 30))
  let q ← run (lowDelay noPow ⟨true, false, 1024⟩ 2 0 r.1) second
  .ok (r.1.coded.az[0]?, r.1.coded.sw[0]?, q.1.coded.az[0]?, q.1.coded.sw[0]?)

/-- **C114** (refuted) In absolutely coded dynamic data fixed parameters are set to 0; in
differentially coded data that happens to a fixed spread. -/
theorem C114_refuted :
    fixedFrames [false, true, true, false] = .ok (some 20, some 30, some 0, some 0) ∧
    fixedFrames ([false, false, true] ++ natBits 3 0 ++ [false]) = .ok (some 20, some 30, some 20, some 0) := by
  decide +kernel

/-! ## Descaled values -/

theorem overwrite_post {α : Type} (tbl : List α) (a b : Nat) (f : Nat → α → α) :
    Post 0 (overwrite tbl a b f) (fun t => t = tbl.mapIdx (fun i x => if a ≤ i ∧ i < b then f i x else x)) := by
  unfold overwrite
  exact Post.ite (fun _ => Post.pure rfl) (fun _ => by intro l a l1 h _; simp at h)

theorem overwrite_get {α : Type} (tbl : List α) (a b : Nat) (f : Nat → α → α) (i : Nat) :
    (tbl.mapIdx (fun i x => if a ≤ i ∧ i < b then f i x else x))[i]? =
      if a ≤ i ∧ i < b then tbl[i]?.map (f i) else tbl[i]? := by
  rw [List.getElem?_mapIdx]
  cases tbl[i]? <;> split <;> simp_all

/-- What becomes of entry `i` of a descaled table: a new value in the entries of the sub-frame, then
the limits in the first `n` entries. -/
def descaled (n sub i : Nat) (lo hi new : Rat) (old : Option Rat) : Option Rat :=
  (if sub * n ≤ i ∧ i < sub * n + n then old.map (fun _ => new) else old).map
    fun x => if i < n then max lo (min hi x) else x

theorem limit_eq (lo hi x : Rat) (h : lo ≤ hi) : limit lo hi x = max lo (min hi x) := by
  unfold limit
  dsimp only
  rcases lt_or_ge lo x with h1 | h1
  · rw [if_pos h1]
    rcases lt_or_ge x hi with h2 | h2
    · rw [if_pos h2, min_eq_right h2.le, max_eq_right h1.le]
    · rw [if_neg (not_lt.2 h2), min_eq_left h2, max_eq_right h]
  · rw [if_neg (not_lt.2 h1)]
    rw [min_eq_right (by linarith), max_eq_left h1]
    rcases lt_or_ge lo hi with h2 | h2
    · rw [if_pos h2]
    · rw [if_neg (not_lt.2 h2)]; linarith

theorem descaled_get (tbl : List Rat) (n sub i : Nat) (new : Nat → Rat) (lo hi : Rat) (h : lo ≤ hi) :
    ((tbl.mapIdx (fun j x => if sub * n ≤ j ∧ j < sub * n + n then new j else x)).mapIdx
      (fun j x => if 0 ≤ j ∧ j < n then limit lo hi x else x))[i]? = descaled n sub i lo hi (new i) tbl[i]? := by
  rw [overwrite_get (f := fun _ x => limit lo hi x), overwrite_get (f := fun j _ => new j)]
  unfold descaled
  simp only [limit_eq _ _ _ h, Nat.zero_le, true_and]
  by_cases h1 : i < n
  · simp only [h1, if_true]
  · simp only [h1, if_false, Option.map_id']

theorem dynamic_desc (cfg : Cfg) (start n : Nat) (s : State) :
    Post 0 (dynamic cfg start n s) (fun t => t.desc = s.desc) := by
  unfold dynamic
  refine Post.bind Post.triv fun ab _ => ?_
  refine Post.foldN (fun _ (t : State) => t.desc = s.desc) n 0 s rfl ?_
  intro j t _ _ ht
  refine Post.bind Post.triv fun p _ => ?_
  refine Post.bind Post.triv fun hm _ => ?_
  exact Post.ite (fun _ => Post.bind Post.triv fun c _ => Post.pure ht) (fun _ => Post.pure ht)

/-- **C115** After the metadata of a sub-frame have been read, the values handed to the renderer are
the coded ones in the published steps in the entries of the sub-frame, and the others are as before;
the limits apply to the entries of the first sub-frame. -/
theorem C115_descaled (m : Libm) (cfg : Cfg) (n sub : Nat) (s s' : State) (l l' : List Bool)
    (h : run (lowDelay m cfg n sub s) l = .ok (s', l')) (i : Nat) :
    s'.desc.az[i]? = descaled n sub i (-180) 180 ((s'.coded.az.getD i 0 : Rat) * (3 / 2)) s.desc.az[i]? ∧
    s'.desc.el[i]? = descaled n sub i (-90) 90 ((s'.coded.el.getD i 0 : Rat) * 3) s.desc.el[i]? ∧
    s'.desc.rad[i]? = descaled n sub i (1 / 2) 16 (m.rad (s'.coded.rad.getD i 0) / 2) s.desc.rad[i]? ∧
    s'.desc.gain[i]? = descaled n sub i (4 / 1000) (5957 / 1000) (m.gain (s'.coded.gain.getD i 0)) s.desc.gain[i]? ∧
    s'.desc.sw[i]? = descaled n sub i 0 180 ((s'.coded.sw.getD i 0 : Rat) * (3 / 2)) s.desc.sw[i]? ∧
    s'.desc.pri[i]? = descaled n sub i 0 7 (s'.coded.pri.getD i 0 : Rat) s.desc.pri[i]? := by
  have key : Post 0 (lowDelay m cfg n sub s) (fun s' =>
    s'.desc.az[i]? = descaled n sub i (-180) 180 ((s'.coded.az.getD i 0 : Rat) * (3 / 2)) s.desc.az[i]? ∧
    s'.desc.el[i]? = descaled n sub i (-90) 90 ((s'.coded.el.getD i 0 : Rat) * 3) s.desc.el[i]? ∧
    s'.desc.rad[i]? = descaled n sub i (1 / 2) 16 (m.rad (s'.coded.rad.getD i 0) / 2) s.desc.rad[i]? ∧
    s'.desc.gain[i]? = descaled n sub i (4 / 1000) (5957 / 1000) (m.gain (s'.coded.gain.getD i 0)) s.desc.gain[i]? ∧
    s'.desc.sw[i]? = descaled n sub i 0 180 ((s'.coded.sw.getD i 0 : Rat) * (3 / 2)) s.desc.sw[i]? ∧
    s'.desc.pri[i]? = descaled n sub i 0 7 (s'.coded.pri.getD i 0 : Rat) s.desc.pri[i]?) := by
    unfold lowDelay
    refine Post.bind Post.triv fun ip _ => ?_
    refine Post.bind (R := fun t => t.desc = s.desc) (Post.ite (fun _ => Post.bind Post.triv fun r _ => Post.pure rfl)
      (fun _ => dynamic_desc cfg _ n s)) fun s1 h1 => ?_
    refine Post.bind (R := fun d =>
        d.az = s.desc.az.mapIdx (fun j x => if sub * n ≤ j ∧ j < sub * n + n then (s1.coded.az.getD j 0 : Rat) * (3 / 2) else x) ∧
        d.el = s.desc.el.mapIdx (fun j x => if sub * n ≤ j ∧ j < sub * n + n then (s1.coded.el.getD j 0 : Rat) * 3 else x) ∧
        d.rad = s.desc.rad.mapIdx (fun j x => if sub * n ≤ j ∧ j < sub * n + n then m.rad (s1.coded.rad.getD j 0) / 2 else x) ∧
        d.gain = s.desc.gain.mapIdx (fun j x => if sub * n ≤ j ∧ j < sub * n + n then m.gain (s1.coded.gain.getD j 0) else x) ∧
        d.sw = s.desc.sw.mapIdx (fun j x => if sub * n ≤ j ∧ j < sub * n + n then (s1.coded.sw.getD j 0 : Rat) * (3 / 2) else x) ∧
        d.pri = s.desc.pri.mapIdx (fun j x => if sub * n ≤ j ∧ j < sub * n + n then (s1.coded.pri.getD j 0 : Rat) else x))
      ?_ fun d hd => ?_
    · unfold descale
      rw [h1]
      refine Post.bind (overwrite_post _ _ _ _) fun pri hpri => ?_
      refine Post.bind (overwrite_post _ _ _ _) fun sw hsw => ?_
      refine Post.bind Post.triv fun shd _ => ?_
      obtain ⟨sh, sd⟩ := shd
      refine Post.bind (overwrite_post _ _ _ _) fun rad hrad => ?_
      refine Post.bind (overwrite_post _ _ _ _) fun el hel => ?_
      refine Post.bind (overwrite_post _ _ _ _) fun az haz => ?_
      refine Post.bind (overwrite_post _ _ _ _) fun gain hgain => ?_
      exact Post.pure ⟨haz, hel, hrad, hgain, hsw, hpri⟩
    · refine Post.bind (R := fun e =>
        e.az = d.az.mapIdx (fun j x => if 0 ≤ j ∧ j < n then limit (-180) 180 x else x) ∧
        e.el = d.el.mapIdx (fun j x => if 0 ≤ j ∧ j < n then limit (-90) 90 x else x) ∧
        e.rad = d.rad.mapIdx (fun j x => if 0 ≤ j ∧ j < n then limit (1 / 2) 16 x else x) ∧
        e.gain = d.gain.mapIdx (fun j x => if 0 ≤ j ∧ j < n then limit (4 / 1000) (5957 / 1000) x else x) ∧
        e.sw = d.sw.mapIdx (fun j x => if 0 ≤ j ∧ j < n then limit 0 180 x else x) ∧
        e.pri = d.pri.mapIdx (fun j x => if 0 ≤ j ∧ j < n then limit 0 7 x else x)) ?_ fun e he => ?_
      · unfold limitRange
        refine Post.bind (overwrite_post _ _ _ _) fun rad hrad => ?_
        refine Post.bind (overwrite_post _ _ _ _) fun el hel => ?_
        refine Post.bind (overwrite_post _ _ _ _) fun az haz => ?_
        refine Post.bind (overwrite_post _ _ _ _) fun gain hgain => ?_
        refine Post.bind (overwrite_post _ _ _ _) fun sw hsw => ?_
        refine Post.bind Post.triv fun shd _ => ?_
        obtain ⟨sd, sh⟩ := shd
        refine Post.bind (overwrite_post _ _ _ _) fun pri hpri => ?_
        exact Post.pure ⟨haz, hel, hrad, hgain, hsw, hpri⟩
      · refine Post.bind Post.triv fun sm _ => ?_
        obtain ⟨d1, d2, d3, d4, d5, d6⟩ := hd
        obtain ⟨e1, e2, e3, e4, e5, e6⟩ := he
        refine Post.pure ⟨?_, ?_, ?_, ?_, ?_, ?_⟩
        · simp only; rw [e1, d1]; exact descaled_get _ _ _ _ (fun j => (s1.coded.az.getD j 0 : Rat) * (3 / 2)) _ _ (by norm_num)
        · simp only; rw [e2, d2]; exact descaled_get _ _ _ _ (fun j => (s1.coded.el.getD j 0 : Rat) * 3) _ _ (by norm_num)
        · simp only; rw [e3, d3]; exact descaled_get _ _ _ _ (fun j => m.rad (s1.coded.rad.getD j 0) / 2) _ _ (by norm_num)
        · simp only; rw [e4, d4]; exact descaled_get _ _ _ _ (fun j => m.gain (s1.coded.gain.getD j 0)) _ _ (by norm_num)
        · simp only; rw [e5, d5]; exact descaled_get _ _ _ _ (fun j => (s1.coded.sw.getD j 0 : Rat) * (3 / 2)) _ _ (by norm_num)
        · simp only; rw [e6, d6]; exact descaled_get _ _ _ _ (fun j => (s1.coded.pri.getD j 0 : Rat)) _ _ (by norm_num)
  exact key l s' l' h (Nat.zero_le _)

example : (run (lowDelay noPow ⟨true, false, 1024⟩ 1 0 init)
    ([true] ++ twos 8 20 ++ twos 6 (-7) ++ List.replicate 18 false)).map
      (fun r => (r.1.desc.az[0]?, r.1.desc.el[0]?)) = .ok (some (30 : Rat), some (-21 : Rat)) := by
  decide +kernel

end Verif.Oam
