import Mathlib.Tactic.Ring
import Mathlib.Tactic.Linarith
import Verif.Spec.DrcLoud
import Verif.Model.DrcLoud
import Verif.Proofs.Pair
import Verif.Proofs.Post
import Verif.Props.DrcParse

/-! # Loudness information is decoded as coded; the size of the arrays -/

namespace Verif.DrcLoud

open Prog DrcGain Spec

/-! ## What the decoder should hold -/

/-- A level together with the flag that says whether there is one. -/
def shown (present : Bool) (v : Rat) : Option Rat := if present then some v else none

/-- The decoder holds a measurement. -/
structure IsMeas (m : Loud.Meas) (x : Measure) : Prop where
  meth : x.meth = m.meth
  value : x.value = Loud.value m.meth m.code
  system : x.system = m.system
  reliability : x.reliability = m.reliability

/-- The decoder holds a loudness information. -/
structure IsInfo (i : Loud.Info) (x : Info) : Prop where
  setId : x.setId = i.setId
  dmxId : x.dmxId = i.dmxId
  sample : shown x.samplePresent x.sample = i.sample.bind Loud.level
  truePeak : shown x.truePresent x.truePeak = (i.truePeak.map (·.1)).bind Loud.level
  trueSystem : ∀ p ∈ i.truePeak, x.trueSystem = p.2.1 ∧ x.trueReliability = p.2.2
  count : x.count = i.meas.length
  meas : ∀ (j : Nat) (m : Loud.Meas), i.meas[j]? = some m → ∃ y, x.measures[j]? = some y ∧ IsMeas m y

/-- The decoder holds what an information is about. -/
def IsKind (k : Loud.Kind) (x : Info) : Prop :=
  x.kind = k.num ∧ match k with
    | .whole => x.group = -1 ∧ x.preset = -1
    | .group g => x.group = g
    | .groupInPreset g => x.group = g
    | .preset p => x.preset = p

/-! ## Reading back -/

theorem run_methodValue (meth code : Nat) (h : meth ≤ 9) (hc : code < 2 ^ Loud.width meth) (l : List Bool) :
    run (methodValue meth) (natBits (Loud.width meth) code ++ l) = .ok (Loud.value meth code, l) := by
  have key : ∀ n (v : Rat), code < 2 ^ n → n ≤ 24 → ∀ f : Nat → Prog Rat, run (f code) l = .ok (v, l) →
      run (bits n >>= f) (natBits n code ++ l) = .ok (v, l) := by
    intro n v h1 h2 f h3
    rw [run_bits_bind n code f l h2 h1, h3]
  unfold methodValue
  by_cases h9 : meth = 9
  · subst h9
    rw [if_pos rfl]
    refine key 8 _ hc (by omega) _ ?_
    simp only [run_pure, Loud.value]
    norm_num
    ring
  by_cases h8 : meth = 8
  · subst h8
    rw [if_neg (by omega), if_pos rfl]
    refine key 2 _ hc (by omega) _ ?_
    simp [Loud.value]
  by_cases h7 : meth = 7
  · subst h7
    rw [if_neg (by omega), if_neg (by omega), if_pos rfl]
    refine key 5 _ hc (by omega) _ ?_
    simp only [run_pure, Loud.value]
    norm_num
    ring
  by_cases h6 : meth = 6
  · subst h6
    rw [if_neg (by omega), if_neg (by omega), if_neg (by omega), if_pos rfl]
    refine key 8 _ hc (by omega) _ ?_
    simp only [Loud.value, if_true]
    by_cases c0 : code = 0
    · subst c0
      simp
    rw [if_neg c0]
    by_cases c1 : code ≤ 128
    · rw [if_pos c1, if_pos c1, run_pure]
    rw [if_neg c1, if_neg c1]
    by_cases c2 : code ≤ 204
    · rw [if_pos c2, if_pos c2, run_pure]
      congr 2
      ring
    · rw [if_neg c2, if_neg c2, run_pure]
      congr 2
      ring
  · rw [if_neg h9, if_neg h8, if_neg h7, if_neg h6, if_pos (by omega)]
    have hw : Loud.width meth = 8 := by simp [Loud.width, h7, h8]
    rw [hw] at hc ⊢
    refine key 8 _ hc (by omega) _ ?_
    simp only [run_pure, Loud.value, h6, h7, h8, h9, if_false]
    congr 2
    ring

theorem run_readMeasure (m : Loud.Meas) (hm : m.Valid) (l : List Bool) :
    ∃ x, IsMeas m x ∧ run readMeasure (m.bits ++ l) = .ok (x, l) := by
  obtain ⟨h1, h2, h3, h4⟩ := hm
  refine ⟨⟨m.meth, Loud.value m.meth m.code, m.system, m.reliability⟩, ⟨rfl, rfl, rfl, rfl⟩, ?_⟩
  unfold readMeasure Loud.Meas.bits
  simp only [List.append_assoc]
  rw [run_bits_bind 4 _ _ _ (by omega) (by omega), run_bind, run_methodValue _ _ h1 h2]
  simp only [Res.ok_bind]
  rw [run_pair_bind 4 2 _ _ _ _ (by omega) (by omega) (by omega)]
  rw [if_neg (by omega), run_pure]
  congr 3 <;> omega

theorem shown_peak (v : Nat) : shown (peak v).1 (peak v).2 = Loud.level v := by
  unfold peak Loud.level shown
  by_cases h : v = 0 <;> simp [h]

theorem run_readInfo (i : Loud.Info) (hi : i.Valid) (o : Info) (ho : o.measures.length = measureMax) (l : List Bool) :
    ∃ x, IsInfo i x ∧ x.measures.length = measureMax ∧ x.kind = o.kind ∧ x.group = o.group ∧ x.preset = o.preset ∧
      run (readInfo o) (i.bits ++ l) = .ok (x, l) := by
  obtain ⟨h1, h2, h3, h4, h5, h6⟩ := hi
  obtain ⟨ms, hr, hl, hms⟩ := run_foldN_items (fun k ms => do
      let m ← readMeasure
      setAt ms k m) Loud.Meas.bits 0 i.meas
    (fun pre ms => ms.length = measureMax ∧ ∀ (j : Nat) (m : Loud.Meas), pre[j]? = some m → ∃ y, ms[j]? = some y ∧ IsMeas m y) (by
      rintro pre m post ms hall ⟨hl, hms⟩
      have hlen : pre.length < i.meas.length := by rw [hall]; simp
      have hlt : pre.length < ms.length := by unfold measureMax at hl; omega
      obtain ⟨x, hx, _⟩ := run_readMeasure m (h6 m (by rw [hall]; simp)) []
      refine ⟨ms.set pre.length x, fun l => ?_, by simp [hl], fun j m' hj => ?_⟩
      · obtain ⟨y, hy, hr⟩ := run_readMeasure m (h6 m (by rw [hall]; simp)) l
        have : y = x := by
          obtain ⟨a1, a2, a3, a4⟩ := hx
          obtain ⟨b1, b2, b3, b4⟩ := hy
          cases x; cases y
          simp_all
        rw [run_bind, hr, Res.ok_bind, Nat.zero_add, run_setAt _ _ _ _ hlt, this]
      · by_cases hjl : j < pre.length
        · rw [List.getElem?_append_left hjl] at hj
          rw [List.getElem?_set_ne (by omega)]
          exact hms j m' hj
        · rw [List.getElem?_append_right (by omega)] at hj
          have : j = pre.length := by
            rcases Nat.lt_or_ge (j - pre.length) 1 with h | h
            · omega
            · rw [List.getElem?_eq_none (by simpa using h)] at hj
              simp at hj
          subst this
          simp at hj
          subst hj
          exact ⟨x, List.getElem?_set_self hlt, hx⟩) i.meas [] o.measures (by simp) ⟨ho, by simp⟩
  simp only [List.length_nil, Nat.add_zero] at hr
  -- the peak levels
  obtain ⟨b, sp, hb, hsp, hsr⟩ : ∃ (b : Nat) (sp : Bool × Rat), b < 2 ∧ shown sp.1 sp.2 = i.sample.bind Loud.level ∧
      ∀ (f : Nat → Bool × Rat → Prog Info) l, run (do
        let t ← bits 8
        let sp ← (if t % 2 = 1 then do
            let v ← bits 12
            pure (peak v)
          else pure (false, o.sample))
        f t sp) (natBits 7 i.dmxId ++ (Loud.sampleBits i.sample ++ l)) = run (f (i.dmxId * 2 + b) sp) l := by
    cases hs : i.sample with
    | none =>
      refine ⟨0, (false, o.sample), by omega, by simp [shown], fun f l => ?_⟩
      have := run_pair_bind 7 1 i.dmxId 0 (fun t => do
        let sp ← (if t % 2 = 1 then do
            let v ← bits 12
            pure (peak v)
          else pure (false, o.sample))
        f t sp) l (by omega) (by omega) (by omega)
      refine this.trans ?_
      rw [if_neg (by omega)]
      rfl
    | some v =>
      refine ⟨1, peak v, by omega, by simp [shown_peak], fun f l => ?_⟩
      have := run_pair_bind 7 1 i.dmxId 1 (fun t => do
        let sp ← (if t % 2 = 1 then do
            let v ← bits 12
            pure (peak v)
          else pure (false, o.sample))
        f t sp) (natBits 12 v ++ l) (by omega) (by omega) (by omega)
      refine this.trans ?_
      rw [if_pos (by omega), run_bind, run_bits_bind 12 v _ _ (by omega) (h3 v (by simp [hs]))]
      rfl
  obtain ⟨tp, htp, hts, htr⟩ : ∃ tp : (Bool × Rat) × Nat × Nat,
      shown tp.1.1 tp.1.2 = (i.truePeak.map (·.1)).bind Loud.level ∧
      (∀ p ∈ i.truePeak, tp.2.1 = p.2.1 ∧ tp.2.2 = p.2.2) ∧
      ∀ (f : (Bool × Rat) × Nat × Nat → Prog Info) l, run (do
        let tf ← bits 1
        let tp ← (if tf = 1 then do
            let v ← bits 12
            let u ← bits 6
            pure (peak v, u / 4, u % 4)
          else pure ((false, o.truePeak), o.trueSystem, o.trueReliability))
        f tp) (Loud.trueBits i.truePeak ++ l) = run (f tp) l := by
    cases hs : i.truePeak with
    | none =>
      refine ⟨((false, o.truePeak), o.trueSystem, o.trueReliability), by simp [shown], by simp, fun f l => ?_⟩
      refine (run_one_bind false _ l).trans ?_
      rw [if_neg (by decide)]
      rfl
    | some x =>
      obtain ⟨v, s, r⟩ := x
      obtain ⟨k1, k2, k3⟩ := h4 (v, s, r) (by simp [hs])
      dsimp only at k1 k2 k3
      refine ⟨(peak v, s, r), by simp [shown_peak], by simp, fun f l => ?_⟩
      simp only [Loud.trueBits, List.cons_append, List.append_assoc]
      refine (run_one_bind true _ _).trans ?_
      rw [if_pos (show true.toNat = 1 from rfl), run_bind, run_bits_bind 12 v _ _ (by omega) k1, run_pair_bind 4 2 _ _ _ _ (by omega) k2 k3, run_pure]
      simp only [Res.ok_bind]
      congr 4 <;> omega
  refine ⟨{ o with
      setId := i.setId, dmxId := (i.dmxId * 2 + b) / 2, samplePresent := sp.1, sample := sp.2
      truePresent := tp.1.1, truePeak := tp.1.2, trueSystem := tp.2.1, trueReliability := tp.2.2
      count := i.meas.length, measures := ms }, ⟨rfl, by dsimp only; omega, hsp, htp, hts, rfl, hms⟩, hl, rfl, rfl, rfl, ?_⟩
  unfold readInfo Loud.Info.bits
  simp only [List.append_assoc]
  rw [run_bits_bind 6 _ _ _ (by omega) (by omega), hsr, htr, run_bits_bind 4 _ _ _ (by omega) (by omega), run_bind, hr]
  rfl

/-- Every entry has room for `MEASUREMENT_COUNT_MAX` measurements. -/
def Room (xs : List Info) : Prop := ∀ x ∈ xs, x.measures.length = measureMax

theorem Room.set {xs : List Info} (h : Room xs) (k : Nat) (x : Info) (hx : x.measures.length = measureMax) :
    Room (xs.set k x) := by
  intro y hy
  rcases List.mem_or_eq_of_mem_set hy with h' | rfl
  · exact h y h'
  · exact hx

/-- Entry `j` of a list, after one more entry has been handled. -/
theorem getElem?_snoc {α : Type} {pre : List α} {a b : α} {j : Nat} (h : (pre ++ [a])[j]? = some b) :
    (j < pre.length ∧ pre[j]? = some b) ∨ (j = pre.length ∧ b = a) := by
  by_cases hj : j < pre.length
  · rw [List.getElem?_append_left hj] at h
    exact Or.inl ⟨hj, h⟩
  · rw [List.getElem?_append_right (by omega)] at h
    have : j = pre.length := by
      rcases Nat.lt_or_ge (j - pre.length) 1 with h' | h'
      · omega
      · rw [List.getElem?_eq_none (by simpa using h')] at h
        simp at h
    subst this
    simp at h
    exact Or.inr ⟨rfl, h.symm⟩

theorem run_infoStep (k : Loud.Kind) (hk : k.Valid) (i : Loud.Info) (hi : i.Valid) (xs : List Info) (hx : Room xs) (n : Nat)
    (hn : n < xs.length) (l : List Bool) :
    ∃ x, IsKind k x ∧ IsInfo i x ∧ x.measures.length = measureMax ∧
      run (infoStep n xs) ((k.bits ++ i.bits) ++ l) = .ok (xs.set n x, l) := by
  have hg : xs[n]? = some xs[n] := List.getElem?_eq_getElem hn
  have hm : xs[n].measures.length = measureMax := hx _ (List.getElem_mem hn)
  unfold infoStep
  simp only [List.append_assoc]
  cases k with
  | whole =>
    obtain ⟨x, h1, h2, h3, h4, h5, h6⟩ := run_readInfo i hi { xs[n] with kind := 0, group := -1, preset := -1 } hm l
    refine ⟨x, ⟨h3, h4, h5⟩, h1, h2, ?_⟩
    simp only [Loud.Kind.bits]
    rw [run_bits_bind 2 0 _ _ (by omega) (by omega), run_getAt_bind _ _ _ _ _ hg, if_neg (by omega), if_neg (by omega)]
    rw [pure_bind_eq, run_bind, h6, Res.ok_bind, run_setAt _ _ _ _ hn]
  | group g =>
    obtain ⟨x, h1, h2, h3, h4, h5, h6⟩ := run_readInfo i hi { xs[n] with kind := 1, group := g } hm l
    refine ⟨x, ⟨h3, h4⟩, h1, h2, ?_⟩
    simp only [Loud.Kind.bits, List.append_assoc]
    rw [run_bits_bind 2 1 _ _ (by omega) (by omega), run_getAt_bind _ _ _ _ _ hg, if_neg (by omega), if_pos (by omega)]
    rw [run_bind, run_bits_bind 7 g _ _ (by omega) hk, run_pure, Res.ok_bind, run_bind, h6, Res.ok_bind, run_setAt _ _ _ _ hn]
  | groupInPreset g =>
    obtain ⟨x, h1, h2, h3, h4, h5, h6⟩ := run_readInfo i hi { xs[n] with kind := 2, group := g } hm l
    refine ⟨x, ⟨h3, h4⟩, h1, h2, ?_⟩
    simp only [Loud.Kind.bits, List.append_assoc]
    rw [run_bits_bind 2 2 _ _ (by omega) (by omega), run_getAt_bind _ _ _ _ _ hg, if_neg (by omega), if_pos (by omega)]
    rw [run_bind, run_bits_bind 7 g _ _ (by omega) hk, run_pure, Res.ok_bind, run_bind, h6, Res.ok_bind, run_setAt _ _ _ _ hn]
  | preset g =>
    obtain ⟨x, h1, h2, h3, h4, h5, h6⟩ := run_readInfo i hi { xs[n] with kind := 3, preset := g } hm l
    refine ⟨x, ⟨h3, h5⟩, h1, h2, ?_⟩
    simp only [Loud.Kind.bits, List.append_assoc]
    rw [run_bits_bind 2 3 _ _ (by omega) (by omega), run_getAt_bind _ _ _ _ _ hg, if_pos (by omega)]
    rw [run_bind, run_bits_bind 5 g _ _ (by omega) hk, run_pure, Res.ok_bind, run_bind, h6, Res.ok_bind, run_setAt _ _ _ _ hn]

theorem IsMeas.unique {m : Loud.Meas} {x y : Measure} (hx : IsMeas m x) (hy : IsMeas m y) : x = y := by
  obtain ⟨a1, a2, a3, a4⟩ := hx
  obtain ⟨b1, b2, b3, b4⟩ := hy
  cases x; cases y
  simp_all

/-- The entries of the programme. -/
theorem run_infos (all : List (Loud.Kind × Loud.Info)) (hv : ∀ x ∈ all, x.1.Valid ∧ x.2.Valid) (xs : List Info)
    (hx : Room xs) (hn : all.length ≤ xs.length) (l : List Bool) :
    ∃ ys, run (foldN infoStep all.length 0 xs) (all.flatMap (fun x => x.1.bits ++ x.2.bits) ++ l) = .ok (ys, l) ∧
      ys.length = xs.length ∧ Room ys ∧
      ∀ (j : Nat) (a : Loud.Kind × Loud.Info), all[j]? = some a → ∃ y, ys[j]? = some y ∧ IsKind a.1 y ∧ IsInfo a.2 y := by
  have step : ∀ (rest : List (Loud.Kind × Loud.Info)) (pre : List (Loud.Kind × Loud.Info)) (ys : List Info),
      all = pre ++ rest → ys.length = xs.length → Room ys →
      (∀ (j : Nat) (a : Loud.Kind × Loud.Info), pre[j]? = some a → ∃ y, ys[j]? = some y ∧ IsKind a.1 y ∧ IsInfo a.2 y) →
      ∃ zs, run (foldN infoStep rest.length pre.length ys) (rest.flatMap (fun x => x.1.bits ++ x.2.bits) ++ l) = .ok (zs, l) ∧
        zs.length = xs.length ∧ Room zs ∧
        ∀ (j : Nat) (a : Loud.Kind × Loud.Info), all[j]? = some a → ∃ y, zs[j]? = some y ∧ IsKind a.1 y ∧ IsInfo a.2 y := by
    intro rest
    induction rest with
    | nil =>
      intro pre ys hall h1 h2 h3
      rw [List.append_nil] at hall
      subst hall
      exact ⟨ys, rfl, h1, h2, h3⟩
    | cons a rest ih =>
      intro pre ys hall h1 h2 h3
      have hlen : pre.length < all.length := by rw [hall]; simp
      obtain ⟨v1, v2⟩ := hv a (by rw [hall]; simp)
      simp only [List.flatMap_cons, List.append_assoc, List.length_cons, foldN]
      obtain ⟨x, k1, k2, k3, k4⟩ := run_infoStep a.1 v1 a.2 v2 ys h2 pre.length (by omega)
        (rest.flatMap (fun x => x.1.bits ++ x.2.bits) ++ l)
      simp only [List.append_assoc] at k4
      rw [run_bind, k4, Res.ok_bind]
      obtain ⟨zs, z1, z2⟩ := ih (pre ++ [a]) (ys.set pre.length x) (by simp [hall]) (by simp [h1]) (h2.set _ _ k3) (by
        intro j b hj
        rcases getElem?_snoc hj with ⟨hj1, hj2⟩ | ⟨rfl, rfl⟩
        · rw [List.getElem?_set_ne (by omega)]
          exact h3 j b hj2
        · exact ⟨x, List.getElem?_set_self (by omega), k1, k2⟩)
      rw [List.length_append, List.length_singleton] at z1
      exact ⟨zs, z1, z2⟩
  have := step all [] xs (by simp) rfl hx (by simp)
  exact this

/-- The entries of the album. -/
theorem run_album (all : List Loud.Info) (hv : ∀ x ∈ all, x.Valid) (xs as : List Info) (hx : Room as)
    (hn : all.length ≤ xs.length) (ha : all.length ≤ as.length) (l : List Bool) :
    ∃ zs bs, run (foldN albumStep all.length 0 (xs, as)) (all.flatMap Loud.Info.bits ++ l) = .ok ((zs, bs), l) ∧
      zs = xs.mapIdx (fun j x => if j < all.length then { x with kind := 0 } else x) ∧
      ∀ (j : Nat) (a : Loud.Info), all[j]? = some a → ∃ y, bs[j]? = some y ∧ IsInfo a y := by
  have step : ∀ (rest pre : List Loud.Info) (zs bs : List Info), all = pre ++ rest →
      zs = xs.mapIdx (fun j x => if j < pre.length then { x with kind := 0 } else x) → bs.length = as.length → Room bs →
      (∀ (j : Nat) (a : Loud.Info), pre[j]? = some a → ∃ y, bs[j]? = some y ∧ IsInfo a y) →
      ∃ zs' bs', run (foldN albumStep rest.length pre.length (zs, bs)) (rest.flatMap Loud.Info.bits ++ l) = .ok ((zs', bs'), l) ∧
        zs' = xs.mapIdx (fun j x => if j < all.length then { x with kind := 0 } else x) ∧
        ∀ (j : Nat) (a : Loud.Info), all[j]? = some a → ∃ y, bs'[j]? = some y ∧ IsInfo a y := by
    intro rest
    induction rest with
    | nil =>
      intro pre zs bs hall h1 _ _ h3
      rw [List.append_nil] at hall
      subst hall
      exact ⟨zs, bs, rfl, h1, h3⟩
    | cons a rest ih =>
      intro pre zs bs hall h1 h2 hr h3
      have hlen : pre.length < all.length := by rw [hall]; simp
      have v := hv a (by rw [hall]; simp)
      have hz : zs.length = xs.length := by rw [h1]; simp
      have hzn : pre.length < zs.length := by omega
      have hbn : pre.length < bs.length := by omega
      simp only [List.flatMap_cons, List.append_assoc, List.length_cons, foldN]
      obtain ⟨x, k1, k2, _, _, _, k3⟩ := run_readInfo a v bs[pre.length] (hr _ (List.getElem_mem hbn))
        (rest.flatMap Loud.Info.bits ++ l)
      have hstep : run (albumStep pre.length (zs, bs)) (a.bits ++ (rest.flatMap Loud.Info.bits ++ l)) =
          .ok ((zs.set pre.length { zs[pre.length] with kind := 0 }, bs.set pre.length x), rest.flatMap Loud.Info.bits ++ l) := by
        unfold albumStep
        dsimp only
        rw [getAt_eq hzn, pure_bind_eq, setAt_eq hzn, pure_bind_eq, getAt_eq hbn, pure_bind_eq, run_bind, k3, Res.ok_bind,
          setAt_eq hbn, pure_bind_eq, run_pure]
      rw [run_bind, hstep, Res.ok_bind]
      obtain ⟨zs', bs', z1, z2⟩ := ih (pre ++ [a]) (zs.set pre.length { zs[pre.length] with kind := 0 }) (bs.set pre.length x)
        (by simp [hall]) (by
          apply List.ext_getElem?
          intro j
          rw [List.getElem?_set, List.getElem?_mapIdx, List.length_append, List.length_singleton]
          by_cases hj : pre.length = j
          · subst hj
            rw [if_pos rfl, if_pos hzn]
            simp only [h1, List.getElem_mapIdx, Nat.lt_irrefl, if_false]
            rw [List.getElem?_eq_getElem (by omega)]
            simp
          · rw [if_neg hj, h1, List.getElem?_mapIdx]
            congr 1
            funext y
            by_cases hlt : j < pre.length
            · rw [if_pos hlt, if_pos (by omega)]
            · rw [if_neg hlt, if_neg (by omega)]) (by simp [h2]) (hr.set _ _ k2) (by
          intro j b hj
          rcases getElem?_snoc hj with ⟨hj1, hj2⟩ | ⟨rfl, rfl⟩
          · rw [List.getElem?_set_ne (by omega)]
            exact h3 j b hj2
          · exact ⟨x, List.getElem?_set_self (by omega), k1⟩)
      rw [List.length_append, List.length_singleton] at z1
      exact ⟨zs', bs', z1, z2⟩
  exact step all [] xs as (by simp) (by
    apply List.ext_getElem?
    intro j
    simp [List.getElem?_mapIdx]) rfl hx (by simp)

/-- The decoder's memory is a loudness information set with arrays of the size they have. -/
structure Sized (s : InfoSet) : Prop where
  infos : s.infos.length = infoMax
  album : s.album.length = infoMax
  room : Room s.infos
  albumRoom : Room s.album

theorem run_skipBits : ∀ (xs l : List Bool), run (skipBits xs.length) (xs ++ l) = .ok ((), l) := by
  suffices h : ∀ (xs l : List Bool) (i : Nat), run (foldN (fun _ _ => do
      let _ ← bits 1
      pure ()) xs.length i ()) (xs ++ l) = .ok ((), l) from fun xs l => h xs l 0
  intro xs
  induction xs with
  | nil => exact fun l i => rfl
  | cons b xs ih =>
    intro l i
    rw [List.length_cons, foldN, run_bind, List.cons_append, run_one_bind]
    exact ih l (i + 1)

/-- An extension is skipped. -/
theorem run_ext {α : Type} (ext : Option Loud.Ext) (he : ∀ e ∈ ext, e.Valid) (x : α) (l : List Bool) :
    run (do
      let e ← bits 1
      if e = 1 then do
        setExt
        pure x
      else pure x) (Loud.extBits ext ++ l) = .ok (x, l) := by
  cases ext with
  | none =>
    simp only [Loud.extBits, List.cons_append, List.nil_append]
    rw [run_one_bind]
    rfl
  | some e =>
    obtain ⟨h1, h2, h3, h4, h5⟩ := he e rfl
    simp only [Loud.extBits, List.cons_append, List.append_assoc]
    rw [run_one_bind, if_pos (by decide), run_bind]
    unfold setExt
    rw [run_bits_bind 4 _ _ _ (by omega) h2, if_neg (by omega), run_bits_bind 4 _ _ _ (by omega) h3,
      run_bits_bind (e.width + 4) _ _ _ (by omega) (by omega), Nat.sub_add_cancel h4, run_bind, run_skipBits, Res.ok_bind]
    dsimp only
    rw [run_bits_bind 4 0 _ _ (by omega) (by omega), if_pos rfl]
    rfl

/-- **C116** (part: no album, or all but the kinds of the entries that have an album entry of the same
number).  A loudness information set with at most 36 entries of each sort is decoded as it is coded, whether or not
an extension follows. -/
theorem C116_decoded_partial (xs : List (Loud.Kind × Loud.Info)) (hv : ∀ x ∈ xs, x.1.Valid ∧ x.2.Valid)
    (hn : xs.length ≤ 36) (album : Option (List Loud.Info)) (ha : ∀ ys ∈ album, ys.length ≤ 36 ∧ ∀ y ∈ ys, y.Valid)
    (ext : Option Loud.Ext) (he : ∀ e ∈ ext, e.Valid) (s : InfoSet) (hs : Sized s) (l : List Bool) :
    ∃ t, run (readSet s) (Loud.setBits xs album ext ++ l) = .ok (t, l) ∧ t.count = xs.length ∧
      t.albumCount = (album.getD []).length ∧
      (∀ (j : Nat) (a : Loud.Kind × Loud.Info), xs[j]? = some a →
        ∃ y, t.infos[j]? = some y ∧ IsInfo a.2 y ∧ ((album.getD []).length ≤ j → IsKind a.1 y)) ∧
      ∀ (j : Nat) (a : Loud.Info), (album.getD [])[j]? = some a → ∃ y, t.album[j]? = some y ∧ IsInfo a y := by
  have h1 := hs.infos
  have h2 := hs.album
  unfold infoMax at h1 h2
  unfold readSet Loud.setBits
  simp only [List.append_assoc]
  cases album with
  | none =>
    obtain ⟨ys, k1, k2, k3, k4⟩ := run_infos xs hv s.infos hs.room (by omega) ([false] ++ (Loud.extBits ext ++ l))
    refine ⟨⟨xs.length, ys, 0, s.album⟩, ?_, rfl, rfl, ?_, by simp⟩
    · rw [run_bits_bind 6 _ _ _ (by omega) (by omega), run_bind, k1, Res.ok_bind]
      exact run_ext ext he _ l
    · intro j a hj
      obtain ⟨y, y1, y2, y3⟩ := k4 j a hj
      exact ⟨y, y1, y3, fun _ => y2⟩
  | some as =>
    obtain ⟨a1, a2⟩ := ha as rfl
    obtain ⟨ys, k1, k2, k3, k4⟩ := run_infos xs hv s.infos hs.room (by omega)
      (true :: (natBits 6 as.length ++ (as.flatMap Loud.Info.bits ++ (Loud.extBits ext ++ l))))
    obtain ⟨zs, bs, b1, b2, b3⟩ := run_album as a2 ys s.album hs.albumRoom (by omega) (by omega) (Loud.extBits ext ++ l)
    refine ⟨⟨xs.length, zs, as.length, bs⟩, ?_, rfl, rfl, ?_, b3⟩
    · simp only [List.cons_append, List.append_assoc, List.nil_append]
      rw [run_bits_bind 6 _ _ _ (by omega) (by omega), run_bind, k1, Res.ok_bind]
      dsimp only
      rw [run_one_bind, if_pos (show true.toNat = 1 from rfl), run_bind, run_bits_bind 6 _ _ _ (by omega) (by omega), run_bind, b1]
      exact run_ext ext he _ l
    · intro j a hj
      obtain ⟨y, y1, y2, y3⟩ := k4 j a hj
      dsimp only
      rw [b2, List.getElem?_mapIdx, y1]
      refine ⟨_, rfl, ?_, fun hle => ?_⟩
      · split
        · exact ⟨y3.1, y3.2, y3.3, y3.4, y3.5, y3.6, y3.7⟩
        · exact y3
      · dsimp only
        rw [if_neg (show ¬ j < as.length by simp at hle; omega)]
        exact y2

/-- The memory after it has been cleared. -/
def cleared : InfoSet :=
  let i : Info := ⟨0, 0, false, 0, false, 0, 0, 0, 0, List.replicate measureMax ⟨0, 0, 0, 0⟩, 0, 0, 0⟩
  ⟨0, List.replicate infoMax i, 0, List.replicate infoMax i⟩

theorem cleared_sized : Sized cleared := by
  refine ⟨by simp [cleared], by simp [cleared], ?_, ?_⟩ <;>
  · intro x hx
    simp only [cleared, List.mem_replicate] at hx
    rw [hx.2]
    simp

/-- A set with an information about group 5, with a programme loudness of -23, and an album entry. -/
def sampleInfo : Loud.Info := ⟨1, 0, some 64, some (96, 2, 3), [⟨1, 139, 2, 3⟩, ⟨6, 150, 2, 3⟩]⟩

example : ∃ t, run (readSet cleared) (Loud.setBits [(.group 5, sampleInfo)] none (some ⟨3, 0, [true, false]⟩) ++ [true]) = .ok (t, [true]) ∧
    ∃ y, t.infos[0]? = some y ∧ IsInfo sampleInfo y ∧ IsKind (.group 5) y := by
  obtain ⟨t, h1, _, _, h2, _⟩ := C116_decoded_partial [(.group 5, sampleInfo)]
    (by simp [Loud.Kind.Valid, Loud.Info.Valid, sampleInfo, Loud.Meas.Valid, Loud.width]) (by simp) none (by simp)
    (some ⟨3, 0, [true, false]⟩) (by simp [Loud.Ext.Valid]) cleared cleared_sized [true]
  obtain ⟨y, y1, y2, y3⟩ := h2 0 (.group 5, sampleInfo) rfl
  exact ⟨t, h1, y, y1, y2, y3 (by simp)⟩

/-- **C116**, refuted: the entry about group 5 becomes one about the whole programme when there is an
album. -/
theorem C116_refuted : ∃ (xs : List (Loud.Kind × Loud.Info)) (ys : List Loud.Info) (t : InfoSet) (y : Info),
    (∀ x ∈ xs, x.1.Valid ∧ x.2.Valid) ∧ (∀ y ∈ ys, y.Valid) ∧ xs.length ≤ 36 ∧ ys.length ≤ 36 ∧
      run (readSet cleared) (Loud.setBits xs (some ys) none) = .ok (t, []) ∧ t.infos[0]? = some y ∧
      ∀ a, xs[0]? = some a → a.1 = .group 5 ∧ ¬ IsKind a.1 y ∧ IsKind .whole { y with group := -1, preset := -1 } := by
  have hval : Loud.Info.Valid ⟨0, 0, none, none, []⟩ := by simp [Loud.Info.Valid]
  obtain ⟨ys, k1, k2, k3, k4⟩ := run_infos [(.group 5, ⟨0, 0, none, none, []⟩)]
    (by simpa [Loud.Kind.Valid] using hval) cleared.infos cleared_sized.room (by simp [cleared, infoMax])
    (true :: (natBits 6 1 ++ ((Loud.Info.bits ⟨0, 0, none, none, []⟩) ++ [false])))
  obtain ⟨zs, bs, b1, b2, b3⟩ := run_album [⟨0, 0, none, none, []⟩] (by simpa using hval) ys cleared.album
    cleared_sized.albumRoom (by rw [k2]; simp [cleared, infoMax]) (by simp [cleared, infoMax]) [false]
  obtain ⟨y, y1, y2, y3⟩ := k4 0 _ rfl
  refine ⟨[(.group 5, ⟨0, 0, none, none, []⟩)], [⟨0, 0, none, none, []⟩], ⟨1, zs, 1, bs⟩, { y with kind := 0 },
    by simpa [Loud.Kind.Valid] using hval, by simpa using hval, by simp, by simp, ?_, ?_, ?_⟩
  · unfold readSet Loud.setBits Loud.extBits
    simp only [List.append_assoc, List.cons_append, List.length_singleton]
    simp only [List.length_singleton] at k1 b1
    rw [run_bits_bind 6 _ _ _ (by omega) (by omega), run_bind]
    simp only [List.flatMap_singleton] at k1 b1 ⊢
    rw [k1, Res.ok_bind]
    dsimp only
    rw [run_one_bind, if_pos (show true.toNat = 1 from rfl), run_bind, run_bits_bind 6 _ _ _ (by omega) (by omega), run_bind, b1]
    rfl
  · dsimp only
    rw [b2, List.getElem?_mapIdx, y1]
    rfl
  · intro a ha
    simp at ha
    subst ha
    refine ⟨rfl, fun h => ?_, rfl, rfl, rfl⟩
    have := h.1
    simp [Loud.Kind.num] at this

/-! ## Bounds of the arrays -/

/-- The program takes at least `w` bits. -/
def Eats {α : Type} (w : Nat) (p : Prog α) : Prop := ∀ l a r, run p l = .ok (a, r) → r.length + w ≤ l.length

theorem Eats.zero {α : Type} (p : Prog α) : Eats 0 p := fun l a r h => by
  have := run_length_le _ _ h
  simpa using this

theorem Eats.bits (n : Nat) : Eats n (Prog.bits n) := by
  intro l a r h
  simp only [run_bits] at h
  split at h
  · simp at h
  · split at h
    · simp at h
    · simp at h
      rw [← h.2, List.length_drop]
      omega

theorem Eats.bind {α β : Type} {v w : Nat} {p : Prog α} {f : α → Prog β} (hp : Eats v p) (hf : ∀ a, Eats w (f a)) :
    Eats (v + w) (p >>= f) := by
  intro l b r h
  rw [run_bind] at h
  obtain ⟨⟨a, l1⟩, h1, h2⟩ := Res.bind_eq_ok.mp h
  have e1 := hp _ _ _ h1
  have e2 := hf a _ _ _ h2
  dsimp only at e1 e2
  omega

theorem Eats.mono {α : Type} {v w : Nat} {p : Prog α} (hp : Eats w p) (h : v ≤ w) : Eats v p := fun l a r e => by
  have := hp l a r e
  omega

/-- A loop whose rounds take at least `w` bits and are well defined before round `cap`: the loop is well
defined on short inputs. -/
theorem foldN_ub {σ : Type} (f : Nat → σ → Prog σ) (w cap : Nat) (I : σ → Prop)
    (h1 : ∀ i s, I s → Eats w (f i s)) (h2 : ∀ i s, I s → i < cap → Safe (f i s) I) (k i : Nat) (s : σ) (hs : I s)
    (l : List Bool) (hu : run (foldN f k i s) l = .ub) : w * (cap - i) ≤ l.length := by
  induction k generalizing i s l with
  | zero => simp [foldN] at hu
  | succ k ih =>
    by_cases hi : i < cap
    · unfold foldN at hu
      rw [run_bind] at hu
      have hsafe := h2 i s hs hi l
      cases hr : run (f i s) l with
      | ok x =>
        obtain ⟨s', l'⟩ := x
        rw [hr] at hu
        simp only [Res.ok_bind] at hu
        have e1 := ih (i + 1) s' (hsafe.2 _ _ hr) l' hu
        have e2 := h1 i s hs _ _ _ hr
        rw [show cap - i = (cap - (i + 1)) + 1 by omega, Nat.mul_succ]
        omega
      | jump => rw [hr] at hu; simp at hu
      | err c => rw [hr] at hu; simp at hu
      | ub => exact absurd hr hsafe.1
    · rw [show cap - i = 0 by omega]
      simp

theorem methodValue_safe (m : Nat) : Safe (methodValue m) (fun _ => True) := by
  unfold methodValue
  repeat' first
    | exact Safe.fail
    | exact Safe.pure trivial
    | refine Safe.ite (fun _ => ?_) fun _ => ?_
    | refine Safe.bits_bind (by omega) fun _ _ => ?_

theorem readMeasure_safe : Safe readMeasure (fun _ => True) := by
  unfold readMeasure
  refine Safe.bits_bind (by omega) fun m _ => Safe.bind (methodValue_safe m) fun _ _ => Safe.bits_bind (by omega) fun _ _ => ?_
  exact Safe.ite (fun _ => Safe.fail) fun _ => Safe.pure trivial

theorem readInfo_safe (o : Info) (ho : o.measures.length = measureMax) :
    Safe (readInfo o) (fun x => x.measures.length = measureMax) := by
  unfold readInfo
  refine Safe.bits_bind (by omega) fun _ _ => Safe.bits_bind (by omega) fun t _ => ?_
  refine Safe.bind (R := fun _ => True) (Safe.ite (fun _ => Safe.bits_bind (by omega) fun _ _ => Safe.pure trivial)
    fun _ => Safe.pure trivial) fun _ _ => ?_
  refine Safe.bits_bind (by omega) fun tf _ => ?_
  refine Safe.bind (R := fun _ => True) (Safe.ite (fun _ => Safe.bits_bind (by omega) fun _ _ =>
    Safe.bits_bind (by omega) fun _ _ => Safe.pure trivial) fun _ => Safe.pure trivial) fun _ _ => ?_
  refine Safe.bits_bind (by omega) fun n hn => ?_
  refine Safe.bind (Safe.foldN (fun _ ms => ms.length = measureMax) n 0 o.measures ho fun j t _ hj ht => ?_) fun ms hms =>
    Safe.pure hms
  refine Safe.bind readMeasure_safe fun m _ => (Safe.setAt (by unfold measureMax at ht; omega)).mono fun ms h => ?_
  rw [h, List.length_set, ht]

theorem readInfo_eats (o : Info) : Eats 19 (readInfo o) := by
  unfold readInfo
  refine (Eats.bind (Eats.bits 6) fun _ => Eats.bind (Eats.bits 8) fun _ => Eats.bind (Eats.zero _) fun _ =>
    Eats.bind (Eats.bits 1) fun _ => Eats.bind (Eats.zero _) fun _ => Eats.bind (Eats.bits 4) fun _ => Eats.zero _).mono (by omega)

theorem infoStep_safe (n k : Nat) (xs : List Info) (hk : k < n) (hx : xs.length = n ∧ Room xs) :
    Safe (infoStep k xs) (fun ys => ys.length = n ∧ Room ys) := by
  unfold infoStep
  have hkx : k < xs.length := by omega
  refine Safe.bits_bind (by omega) fun kind _ => ?_
  rw [getAt_eq hkx, pure_bind_eq]
  have hm : xs[k].measures.length = measureMax := hx.2 _ (List.getElem_mem hkx)
  refine Safe.bind (R := fun o => o.measures.length = measureMax) ?_ fun o ho => ?_
  · exact Safe.ite (fun _ => Safe.bits_bind (by omega) fun _ _ => Safe.pure hm) fun _ => Safe.ite
      (fun _ => Safe.bits_bind (by omega) fun _ _ => Safe.pure hm) fun _ => Safe.pure hm
  · refine Safe.bind (readInfo_safe o ho) fun x hx' => (Safe.setAt (by omega)).mono fun ys h => ?_
    rw [h, List.length_set]
    exact ⟨hx.1, hx.2.set _ _ hx'⟩

theorem infoStep_eats (k : Nat) (xs : List Info) : Eats 21 (infoStep k xs) := by
  unfold infoStep
  refine (Eats.bind (Eats.bits 2) fun _ => Eats.bind (Eats.zero _) fun _ => Eats.bind (Eats.zero _) fun _ =>
    Eats.bind (readInfo_eats _) fun _ => Eats.zero _).mono (by omega)

theorem infoStep_post (k : Nat) (xs : List Info) (hx : xs.length = 36 ∧ Room xs) :
    Post 0 (infoStep k xs) (fun ys => ys.length = 36 ∧ Room ys) := by
  by_cases hk : k < 36
  · exact (infoStep_safe 36 k xs hk hx).post
  · unfold infoStep
    refine Post.bind Post.triv fun _ _ => Post.bind Post.getAt fun o ho => ?_
    rw [List.getElem?_eq_none (by omega)] at ho
    simp at ho

/-- Both arrays have `n` elements. -/
def Both (n : Nat) (s : List Info × List Info) : Prop := s.1.length = n ∧ s.2.length = n ∧ Room s.2

theorem albumStep_safe (n k : Nat) (s : List Info × List Info) (hk : k < n) (hs : Both n s) :
    Safe (albumStep k s) (Both n) := by
  unfold albumStep
  obtain ⟨h1, h2, h3⟩ := hs
  have k1 : k < s.1.length := by omega
  have k2 : k < s.2.length := by omega
  rw [getAt_eq k1, pure_bind_eq, setAt_eq k1, pure_bind_eq, getAt_eq k2, pure_bind_eq]
  refine Safe.bind (readInfo_safe _ (h3 _ (List.getElem_mem k2))) fun x hx => ?_
  rw [setAt_eq k2, pure_bind_eq]
  exact Safe.pure ⟨by simp [h1], by simp [h2], h3.set _ _ hx⟩

theorem albumStep_eats (k : Nat) (s : List Info × List Info) : Eats 19 (albumStep k s) := by
  unfold albumStep
  refine (Eats.bind (Eats.zero _) fun _ => Eats.bind (Eats.zero _) fun _ => Eats.bind (Eats.zero _) fun _ =>
    Eats.bind (readInfo_eats _) fun _ => Eats.zero _).mono (by omega)

theorem skipBits_safe (n : Nat) : Safe (skipBits n) (fun _ => True) :=
  Safe.foldN (fun _ _ => True) n 0 () trivial fun _ _ _ _ _ => Safe.bits_bind (by omega) fun _ _ => Safe.pure trivial

theorem setExt_safe : Safe setExt (fun _ => True) := by
  unfold setExt
  refine Safe.bits_bind (by omega) fun t _ => Safe.ite (fun _ => Safe.pure trivial) fun _ => ?_
  refine Safe.bits_bind (by omega) fun w hw => Safe.bits_bind (by omega) fun n _ => Safe.bind (skipBits_safe _) fun _ _ => ?_
  refine Safe.bits_bind (by omega) fun t _ => Safe.ite (fun _ => Safe.pure trivial) fun _ => ?_
  exact Safe.bits_bind (by omega) fun w hw => Safe.bits_bind (by omega) fun _ _ => Safe.fail

/-- What follows the entries of the programme. -/
theorem tail_safe {α : Type} (e : Nat) (x : α) : Safe (if e = 1 then (do
    setExt
    pure x) else pure x : Prog α) (fun _ => True) :=
  Safe.ite (fun _ => Safe.bind setExt_safe fun _ _ => Safe.pure trivial) fun _ => Safe.pure trivial

/-- **C117** (part).  With arrays of 63 entries, no payload makes the decoder write outside them: the two
counts are the only ones that are not checked. -/
theorem C117_sixty_three_partial (s : InfoSet) (h1 : s.infos.length = 63) (h2 : s.album.length = 63)
    (h3 : Room s.infos) (h4 : Room s.album) (l : List Bool) : run (readSet s) l ≠ .ub := by
  have : Safe (readSet s) (fun _ => True) := by
    unfold readSet
    refine Safe.bits_bind (by omega) fun n hn => ?_
    refine Safe.bind (Safe.foldN (fun _ xs => xs.length = 63 ∧ Room xs) n 0 s.infos ⟨h1, h3⟩ fun j t _ hj ht =>
      infoStep_safe 63 j t (by omega) ht) fun xs hxs => ?_
    refine Safe.bits_bind (by omega) fun a _ => ?_
    refine Safe.bind (R := fun _ => True) (Safe.ite (fun _ => Safe.bits_bind (by omega) fun m hm => ?_)
      fun _ => Safe.pure trivial) fun r _ => Safe.bits_bind (by omega) fun e _ => tail_safe e _
    exact Safe.bind (Safe.foldN (fun _ p => Both 63 p) m 0 (xs, s.album) ⟨hxs.1, h2, h4⟩ fun j t _ hj ht =>
      albumStep_safe 63 j t (by omega) ht) fun _ _ => Safe.pure trivial
  exact (this l).1

/-- **C117** (part).  A payload of less than 697 bits never makes the decoder write outside its arrays of 36
entries. -/
theorem C117_short_partial (s : InfoSet) (hs : Sized s) (l : List Bool) (hl : l.length < 697) :
    run (readSet s) l ≠ .ub := by
  intro hu
  unfold readSet at hu
  rw [run_bind] at hu
  rcases Res.bind_eq_ub.mp hu with hu | ⟨⟨n, l1⟩, e1, hu⟩
  · exact ((Safe.bits (n := 6) (by omega)) l).1 hu
  have w1 := Eats.bits 6 _ _ _ e1
  dsimp only at hu
  rw [run_bind] at hu
  rcases Res.bind_eq_ub.mp hu with hu | ⟨⟨xs, l2⟩, e2, hu⟩
  · have := foldN_ub infoStep 21 36 (fun xs => xs.length = 36 ∧ Room xs) (fun i s _ => infoStep_eats i s)
      (fun i s hs hi => infoStep_safe 36 i s hi hs) n 0 s.infos ⟨hs.infos, hs.room⟩ l1 hu
    omega
  have w2 := run_length_le _ _ e2
  dsimp only at hu
  have hxs : xs.length = 36 ∧ Room xs :=
    (Post.foldN (k := 0) (fun _ xs => xs.length = 36 ∧ Room xs) n 0 s.infos ⟨hs.infos, hs.room⟩ fun j t _ _ ht =>
      infoStep_post j t ht) l1 xs l2 e2 (Nat.zero_le _)
  rw [run_bind] at hu
  rcases Res.bind_eq_ub.mp hu with hu | ⟨⟨a, l3⟩, e3, hu⟩
  · exact ((Safe.bits (n := 1) (by omega)) l2).1 hu
  have w3 := Eats.bits 1 _ _ _ e3
  dsimp only at hu
  rw [run_bind] at hu
  rcases Res.bind_eq_ub.mp hu with hu | ⟨⟨r, l4⟩, e4, hu⟩
  · by_cases ha : a = 1
    · rw [if_pos ha, run_bind] at hu
      rcases Res.bind_eq_ub.mp hu with hu | ⟨⟨m, l5⟩, e5, hu⟩
      · exact ((Safe.bits (n := 6) (by omega)) l3).1 hu
      have w5 := Eats.bits 6 _ _ _ e5
      dsimp only at hu
      rw [run_bind] at hu
      rcases Res.bind_eq_ub.mp hu with hu | ⟨p, e6, hu⟩
      · have := foldN_ub albumStep 19 36 (Both 36) (fun i s _ => albumStep_eats i s)
          (fun i s hs hi => albumStep_safe 36 i s hi hs) m 0 (xs, s.album) ⟨hxs.1, hs.album, hs.albumRoom⟩ l5 hu
        omega
      · simp at hu
    · rw [if_neg ha] at hu
      simp at hu
  · dsimp only at hu
    exact ((Safe.bits_bind (n := 1) (by omega) fun e _ => tail_safe e _) l4).1 hu

example : ∃ i : Info, run (readSet ⟨0, List.replicate 63 i, 0, List.replicate 63 i⟩)
    (natBits 6 37 ++ List.replicate 800 false) ≠ .ub :=
  ⟨⟨0, 0, false, 0, false, 0, 0, 0, 0, List.replicate measureMax ⟨0, 0, 0, 0⟩, 0, 0, 0⟩,
    C117_sixty_three_partial _ (by simp) (by simp)
      (fun x hx => by rw [(List.mem_replicate.mp hx).2]; simp)
      (fun x hx => by rw [(List.mem_replicate.mp hx).2]; simp) _⟩

example : run (readSet cleared) (natBits 6 36 ++ List.replicate 690 false) ≠ .ub :=
  C117_short_partial cleared cleared_sized _ (by decide +kernel)

/-- **C117**, refuted: 37 entries, or 37 album entries, are written into arrays of 36. -/
theorem C117_refuted :
    run (readSet cleared) (natBits 6 37 ++ List.replicate 800 false) = .ub ∧
      run (readSet cleared) (natBits 6 0 ++ true :: (natBits 6 37 ++ List.replicate 800 false)) = .ub := by
  decide +kernel

/-! ## Known measurements -/

/-- All measurements of an entry are of a defined method and measurement system. -/
def Known (x : Info) : Prop := ∀ k < x.count, ∃ m, x.measures[k]? = some m ∧ m.meth ≤ 9 ∧ m.system ≤ 11

theorem methodValue_known (m : Nat) : Post 0 (methodValue m) (fun _ => m ≤ 9) := by
  unfold methodValue
  refine Post.ite (fun h => Post.triv.mono fun _ _ => by omega) fun h9 => ?_
  refine Post.ite (fun h => Post.triv.mono fun _ _ => by omega) fun h8 => ?_
  refine Post.ite (fun h => Post.triv.mono fun _ _ => by omega) fun h7 => ?_
  refine Post.ite (fun h => Post.triv.mono fun _ _ => by omega) fun h6 => ?_
  exact Post.ite (fun h => Post.triv.mono fun _ _ => by omega) fun _ => Post.fail

theorem readMeasure_known : Post 0 readMeasure (fun m => m.meth ≤ 9 ∧ m.system ≤ 11) := by
  unfold readMeasure
  refine Post.bind Post.triv fun m _ => Post.bind (methodValue_known m) fun v hm => Post.bind Post.triv fun t _ => ?_
  exact Post.ite (fun _ => Post.fail) fun h => Post.pure ⟨hm, by dsimp only; omega⟩

theorem readInfo_known (o : Info) : Post 0 (readInfo o) Known := by
  unfold readInfo
  refine Post.bind Post.triv fun _ _ => Post.bind Post.triv fun t _ => Post.bind Post.triv fun sp _ => Post.bind Post.triv fun tf _ =>
    Post.bind Post.triv fun tp _ => Post.bind Post.triv fun n _ => ?_
  have loop := Post.foldN (k := 0) (f := fun k ms => do
      let m ← readMeasure
      setAt ms k m) (fun j (ms : List Measure) => ∀ k < j, ∃ m, ms[k]? = some m ∧ m.meth ≤ 9 ∧ m.system ≤ 11) n 0 o.measures
    (by simp) ?_
  · rw [Nat.zero_add] at loop
    exact Post.bind loop fun ms h => Post.pure h
  · intro j ms _ hj hms
    refine Post.bind readMeasure_known fun m hm => Post.setAt.mono fun t ht k hk => ?_
    rw [ht.1]
    by_cases e : k = j
    · subst e
      exact ⟨m, List.getElem?_set_self ht.2, hm⟩
    · rw [List.getElem?_set_ne (by omega)]
      exact hms k (by omega)

theorem infoStep_known (j : Nat) (xs : List Info) (h : ∀ k < j, ∃ x, xs[k]? = some x ∧ Known x) :
    Post 0 (infoStep j xs) (fun ys => ∀ k < j + 1, ∃ x, ys[k]? = some x ∧ Known x) := by
  unfold infoStep
  refine Post.bind Post.triv fun _ _ => Post.bind Post.triv fun _ _ => Post.bind Post.triv fun o _ =>
    Post.bind (readInfo_known _) fun x hx => Post.setAt.mono fun ys hy k hk => ?_
  rw [hy.1]
  by_cases e : k = j
  · subst e
    exact ⟨x, List.getElem?_set_self hy.2, hx⟩
  · rw [List.getElem?_set_ne (by omega)]
    exact h k (by omega)

theorem albumStep_known (n j : Nat) (s : List Info × List Info) (h : ∀ k < n, ∃ x, s.1[k]? = some x ∧ Known x)
    (ha : ∀ k < j, ∃ x, s.2[k]? = some x ∧ Known x) :
    Post 0 (albumStep j s) (fun t => (∀ k < n, ∃ x, t.1[k]? = some x ∧ Known x) ∧ ∀ k < j + 1, ∃ x, t.2[k]? = some x ∧ Known x) := by
  unfold albumStep
  refine Post.bind Post.getAt fun o ho => Post.bind Post.setAt fun xs hxs => Post.bind Post.triv fun a _ =>
    Post.bind (readInfo_known _) fun x hx => Post.bind Post.setAt fun ys hys => Post.pure ⟨fun k hk => ?_, fun k hk => ?_⟩
  · dsimp only
    rw [hxs.1]
    obtain ⟨y, y1, y2⟩ := h k hk
    by_cases e : k = j
    · subst e
      rw [ho] at y1
      rw [List.getElem?_set_self hxs.2]
      exact ⟨_, rfl, Option.some.inj y1 ▸ y2⟩
    · rw [List.getElem?_set_ne (by omega)]
      exact ⟨y, y1, y2⟩
  · dsimp only
    rw [hys.1]
    by_cases e : k = j
    · subst e
      exact ⟨x, List.getElem?_set_self hys.2, hx⟩
    · rw [List.getElem?_set_ne (by omega)]
      exact ha k (by omega)

/-- **C129.**  All measurements of an accepted loudness information set are of a defined method and measurement
system. -/
theorem C129_known (s t : InfoSet) (l l' : List Bool) (h : run (readSet s) l = .ok (t, l')) :
    (∀ k < t.count, ∃ x, t.infos[k]? = some x ∧ Known x) ∧ ∀ k < t.albumCount, ∃ x, t.album[k]? = some x ∧ Known x := by
  suffices hp : Post 0 (readSet s) (fun t => (∀ k < t.count, ∃ x, t.infos[k]? = some x ∧ Known x) ∧
      ∀ k < t.albumCount, ∃ x, t.album[k]? = some x ∧ Known x) from hp l t l' h (Nat.zero_le _)
  unfold readSet
  refine Post.bind Post.triv fun n _ => ?_
  have loop := Post.foldN (k := 0) (f := infoStep) (fun j (xs : List Info) => ∀ k < j, ∃ x, xs[k]? = some x ∧ Known x) n 0 s.infos
    (by simp) (fun j xs _ _ hx => infoStep_known j xs hx)
  rw [Nat.zero_add] at loop
  refine Post.bind loop fun xs hxs => Post.bind Post.triv fun a _ => ?_
  refine Post.bind (R := fun r => (∀ k < n, ∃ x, r.2.1[k]? = some x ∧ Known x) ∧ ∀ k < r.1, ∃ x, r.2.2[k]? = some x ∧ Known x) ?_
    fun r hr => Post.bind Post.triv fun e _ => Post.ite (fun _ => Post.bind Post.triv fun _ _ => Post.pure hr) fun _ => Post.pure hr
  refine Post.ite (fun _ => Post.bind Post.triv fun m _ => ?_) fun _ => Post.pure ⟨hxs, by simp⟩
  have loop2 := Post.foldN (k := 0) (f := albumStep) (fun j (r : List Info × List Info) => (∀ k < n, ∃ x, r.1[k]? = some x ∧ Known x) ∧
    ∀ k < j, ∃ x, r.2[k]? = some x ∧ Known x) m 0 (xs, s.album) ⟨hxs, by simp⟩
    (fun j r _ _ hr => albumStep_known n j r hr.1 hr.2)
  rw [Nat.zero_add] at loop2
  exact Post.bind loop2 fun p hp => Post.pure hp

/-- A set with two measurements is accepted; with the undefined method 10 it is refused. -/
example : (∃ t, run (readSet cleared) (Loud.setBits [(.group 5, sampleInfo)] none none) = .ok (t, []) ∧
      ∃ x, t.infos[0]? = some x ∧ Known x) ∧
    run (readSet cleared) (natBits 6 1 ++ natBits 2 0 ++ natBits 6 0 ++ natBits 8 0 ++ [false] ++ natBits 4 1 ++ natBits 4 10 ++
      List.replicate 50 false) = .err errMethod := by
  refine ⟨?_, by decide +kernel⟩
  obtain ⟨t, h1, h2, _⟩ := C116_decoded_partial [(.group 5, sampleInfo)]
    (by simp [Loud.Kind.Valid, Loud.Info.Valid, sampleInfo, Loud.Meas.Valid, Loud.width]) (by simp) none (by simp)
    none (by simp) cleared cleared_sized []
  rw [List.append_nil] at h1
  exact ⟨t, h1, (C129_known _ _ _ _ h1).1 0 (by rw [h2]; simp)⟩

end Verif.DrcLoud
