import Mathlib.Tactic.Ring
import Mathlib.Tactic.Linarith
import Verif.Model.DrcConfig
import Verif.Proofs.Meets
import Verif.Proofs.Pair
import Verif.Props.DrcLoud

/-! # Accepted DRC configurations are well formed; the size of the arrays -/

namespace Verif.DrcConfig

open Prog

variable {S : Prop}

/-! ## Memory -/

/-- The arrays of bands in gain sets have four elements. -/
def SetRoom (sets : List GainSet) : Prop := ∀ g ∈ sets, g.params.length = 4

/-- The arrays of an instruction have the size the decoder gives them. -/
structure InstrRoom (o : Instr) : Prop where
  dmxIds : o.dmxIds.length = 8
  gainIdx : o.gainIdx.length = 16
  mods : o.mods.length = 24
  bands : ∀ m ∈ o.mods, m.length = 4
  duck : o.duck.length = 16
  groupSet : o.groupSet.length = 24
  bandCount : o.bandCount.length = 24
  interp : o.interp.length = 24
  timeMin : o.timeMin.length = 24
  align : o.align.length = 24
  groupDuck : o.groupDuck.length = 24
  chGroup : o.chGroup.length = 16

/-- The arrays of a configuration, with room for `n` gain sets and `m` instructions. -/
structure Sized (n m : Nat) (c : Config) : Prop where
  coeffs : c.coeffs.length = 4
  sets : ∀ o ∈ c.coeffs, o.sets.length = n ∧ SetRoom o.sets
  instrs : c.instrs.length = m
  room : ∀ o ∈ c.instrs, InstrRoom o

/-! ## Coefficients -/

/-- A gain set that is accepted. -/
structure SetOk (g : GainSet) : Prop where
  flag : g.timeFlag = 0
  interp : g.interp = 1
  bands : g.bands ≤ 4
  params : g.params.length = 4
  seqs : g.profile ≠ 3 → ∀ k < g.bands, ∃ p, g.params[k]? = some p ∧ 0 ≤ p.seq ∧ p.seq < 24

theorem SetRoom.set {sets : List GainSet} (h : SetRoom sets) (k : Nat) (g : GainSet) (hg : g.params.length = 4) :
    SetRoom (sets.set k g) := by
  intro y hy
  rcases List.mem_or_eq_of_mem_set hy with h' | rfl
  · exact h y h'
  · exact hg

theorem readGainSet_meets (seq : Int) (o : GainSet) (h : o.params.length = 4) (h1 : -1 ≤ seq) :
    Meets S (readGainSet seq o) (fun r => r.2.params.length = 4 ∧ r.2.bands ≤ 4 ∧ -1 ≤ r.1 ∧
      (r.2.profile ≠ 3 → ∀ k < r.2.bands, ∃ p, r.2.params[k]? = some p ∧ 0 ≤ p.seq ∧ p.seq < 24)) := by
  unfold readGainSet
  refine Meets.bits_bind (by omega) fun t _ => ?_
  refine Meets.bind (R := fun _ => True) ?_ fun tmin _ => ?_
  · refine Meets.ite (fun _ => Meets.bits_bind (by omega) fun _ _ => Meets.pure trivial) fun _ => Meets.pure trivial
  refine Meets.ite (fun _ => ?_) fun h3 => Meets.pure ⟨h, show 1 ≤ 4 by omega, by dsimp only; omega, fun h => absurd ?_ h⟩
  swap
  · dsimp only
    omega
  refine Meets.bits_bind (by omega) fun n _ => ?_
  refine Meets.ite (fun _ => Meets.fail) fun hn => ?_
  refine Meets.bind (R := fun _ => True) ?_ fun bt _ => ?_
  · refine Meets.ite (fun _ => (Safe.bits (by omega)).meets.mono fun _ _ => trivial) fun _ => Meets.pure trivial
  refine Meets.bind (R := fun r => r.2.length = 4 ∧ -1 ≤ r.1 ∧ ∀ k < n, ∃ p, r.2[k]? = some p ∧ 0 ≤ p.seq ∧ p.seq < 24) ?_
    fun r ⟨hr, hr1, hr2⟩ => ?_
  · have := Meets.foldN (S := S) (f := seqStep) (fun j (r : Int × List Param) => r.2.length = 4 ∧ -1 ≤ r.1 ∧
      ∀ k < j, ∃ p, r.2[k]? = some p ∧ 0 ≤ p.seq ∧ p.seq < 24) n 0 (seq, o.params) ⟨h, h1, by simp⟩ ?_
    · rwa [Nat.zero_add] at this
    intro j s _ hj ⟨hs, hs1, hs2⟩
    unfold seqStep
    refine Meets.ite (fun _ => Meets.fail) fun h24 => ?_
    refine Meets.bind (Meets.getAt fun _ => by omega) fun p _ => ?_
    refine Meets.bits_bind (by omega) fun c _ => ?_
    refine Meets.bind (Meets.setAt fun _ => by omega) fun ps hps => Meets.pure ⟨by simp [hps.1, hs], by dsimp only; omega, ?_⟩
    intro k hk
    dsimp only
    rw [hps.1]
    by_cases e : k = j
    · subst e
      exact ⟨_, List.getElem?_set_self hps.2, by dsimp only; omega, by dsimp only; omega⟩
    · rw [List.getElem?_set_ne (by omega)]
      exact hs2 k (by omega)
  refine Meets.bind (R := fun (ps : List Param) => ps.length = 4 ∧ ∀ k < n, ∃ p, ps[k]? = some p ∧ 0 ≤ p.seq ∧ p.seq < 24) ?_
    fun ps hps => Meets.pure ⟨hps.1, by dsimp only; omega, hr1, fun _ => hps.2⟩
  refine Meets.foldN (fun _ (ps : List Param) => ps.length = 4 ∧ ∀ k < n, ∃ p, ps[k]? = some p ∧ 0 ≤ p.seq ∧ p.seq < 24) (n - 1) 1 _
    ⟨hr, hr2⟩ fun j ps _ hj ⟨hs, hs2⟩ => ?_
  unfold borderStep
  refine Meets.bind (Meets.getAt fun _ => by omega) fun p hp => ?_
  have keep : ∀ q : Param, q.seq = p.seq → ∀ k < n, ∃ p, (ps.set j q)[k]? = some p ∧ 0 ≤ p.seq ∧ p.seq < 24 := by
    intro q hq k hk
    obtain ⟨x, x1, x2⟩ := hs2 k hk
    by_cases e : k = j
    · subst e
      rw [hp] at x1
      have x1 := Option.some.inj x1
      subst x1
      exact ⟨q, List.getElem?_set_self (by omega), by rw [hq]; exact x2⟩
    · rw [List.getElem?_set_ne (by omega)]
      exact ⟨x, x1, x2⟩
  refine Meets.ite (fun _ => ?_) fun _ => ?_ <;>
  · refine Meets.bits_bind (by omega) fun v _ => ?_
    refine (Meets.setAt fun _ => by omega).mono fun ps hps => ?_
    rw [hps.1]
    exact ⟨by simpa using hs, keep _ rfl⟩

/-- Coefficients that are accepted. -/
structure CoeffsOk (o : Coeffs) : Prop where
  loc : o.loc < 16
  sets : ∀ k < o.count, ∃ g, o.sets[k]? = some g ∧ SetOk g

theorem readCoeffs_meets (n : Nat) (o : Coeffs) (hn : o.sets.length = n) (h : SetRoom o.sets) :
    Meets (63 ≤ n) (readCoeffs o) (fun r => CoeffsOk r ∧ r.sets.length = n ∧ SetRoom r.sets) := by
  unfold readCoeffs
  refine Meets.bits_bind (by omega) fun t ht => ?_
  refine Meets.ite (fun _ => Meets.fail) fun _ => ?_
  refine Meets.bits_bind (by omega) fun m hm => ?_
  refine Meets.bind (R := fun (r : Int × List GainSet) => (∀ k < m, ∃ g, r.2[k]? = some g ∧ SetOk g) ∧ r.2.length = n ∧
    SetRoom r.2) ?_ fun r hr => Meets.pure ⟨⟨by dsimp only; omega, hr.1⟩, hr.2⟩
  have := Meets.foldN (S := 63 ≤ n) (f := gainSetStep)
    (fun j (r : Int × List GainSet) => -1 ≤ r.1 ∧ (∀ k < j, ∃ g, r.2[k]? = some g ∧ SetOk g) ∧ r.2.length = n ∧ SetRoom r.2)
    m 0 (-1, o.sets) ⟨by simp, by simp, hn, h⟩ ?_
  · rw [Nat.zero_add] at this
    exact this.mono fun r hr => hr.2
  intro j s _ hj hs
  obtain ⟨s0, s1, s2, s3⟩ := hs
  unfold gainSetStep
  refine Meets.bind (Meets.getAt fun _ => by omega) fun g hg => ?_
  have hgl : g.params.length = 4 := s3 g (List.mem_of_getElem? hg)
  refine Meets.bind (readGainSet_meets s.1 g hgl s0) fun r hr => ?_
  refine Meets.bind (Meets.setAt fun _ => by omega) fun t ht => ?_
  refine Meets.ite (fun _ => Meets.fail) fun hf => Meets.pure ?_
  simp only [not_or, not_not] at hf
  refine ⟨hr.2.2.1, ?_, by simp [ht.1, s2], ?_⟩
  · intro k hk
    dsimp only
    rw [ht.1]
    by_cases hkj : k = j
    · subst hkj
      exact ⟨r.2, by simp [ht.2], ⟨hf.1, hf.2, hr.2.1, hr.1, hr.2.2.2⟩⟩
    · obtain ⟨g', g1, g2⟩ := s1 k (by omega)
      exact ⟨g', by rw [List.getElem?_set_ne (by omega)]; exact g1, g2⟩
  · dsimp only
    rw [ht.1]
    exact s3.set j r.2 hr.1

/-! ## Loops over channels -/

theorem fillFrom_meets {α : Type} (n ch : Nat) (v : α) (xs : List α) (L : Nat) (hx : xs.length = L) (h : ch + n ≤ L) :
    Meets S (fillFrom n ch v xs) (fun t => t.length = L ∧ (∀ i < ch, t[i]? = xs[i]?) ∧
      ∀ i, ch ≤ i → i < ch + n → t[i]? = some v) := by
  unfold fillFrom
  have := Meets.foldN (S := S) (f := fun k xs => setAt xs k v)
    (fun j (t : List α) => t.length = L ∧ (∀ i < ch, t[i]? = xs[i]?) ∧ ∀ i, ch ≤ i → i < j → t[i]? = some v)
    n ch xs ⟨hx, by simp, by omega⟩ ?_
  · exact this
  intro j t hj1 hj2 ⟨t1, t2, t3⟩
  refine (Meets.setAt fun _ => by omega).mono fun u hu => ?_
  rw [hu.1]
  refine ⟨by simp [t1], ?_, ?_⟩
  · intro i hi
    rw [List.getElem?_set_ne (by omega)]
    exact t2 i hi
  · intro i h1 h2
    by_cases hij : i = j
    · subst hij
      simp [hu.2]
    · rw [List.getElem?_set_ne (by omega)]
      exact t3 i h1 (by omega)

/-- The first `n` entries are indices of gain sets, or -1. -/
def IdxOk (n : Nat) (xs : List Int) : Prop := ∀ i < n, ∃ v, xs[i]? = some v ∧ -1 ≤ v ∧ v < 24

theorem IdxOk.set {n : Nat} {xs : List Int} {v : Int} (h : IdxOk n xs) (hn : n < xs.length) (h1 : -1 ≤ v) (h2 : v < 24) :
    IdxOk (n + 1) (xs.set n v) := by
  intro i hi
  by_cases e : i = n
  · subst e
    exact ⟨v, by simp [hn], h1, h2⟩
  · obtain ⟨w, w1, w2⟩ := h i (by omega)
    exact ⟨w, by rw [List.getElem?_set_ne (by omega)]; exact w1, w2⟩

theorem IdxOk.fill {n m : Nat} {xs t : List Int} {v : Int} (h : IdxOk n xs) (h1 : -1 ≤ v) (h2 : v < 24)
    (a : ∀ i < n, t[i]? = xs[i]?) (b : ∀ i, n ≤ i → i < n + m → t[i]? = some v) : IdxOk (n + m) t := by
  intro i hi
  by_cases e : i < n
  · rw [a i e]
    exact h i e
  · exact ⟨v, b i (by omega) hi, h1, h2⟩

theorem idxLoop_meets (cnt : Nat) (hc : cnt ≤ 16) (fuel ch : Nat) (hf : cnt ≤ ch + fuel) (xs : List Int)
    (hx : xs.length = 16) (hi : IdxOk ch xs) :
    Meets S (idxLoop cnt fuel ch xs) (fun r => cnt ≤ r.1 ∧ r.2.length = 16 ∧ IdxOk r.1 r.2) := by
  induction fuel generalizing ch xs with
  | zero => exact Meets.pure ⟨by simpa using hf, hx, hi⟩
  | succ fuel ih =>
    unfold idxLoop
    refine Meets.ite (fun hlt => ?_) fun hge => Meets.pure ⟨by simpa using hge, hx, hi⟩
    refine Meets.bits_bind (by omega) fun t _ => ?_
    refine Meets.ite (fun _ => Meets.fail) fun ht => ?_
    refine Meets.bind (Meets.setAt fun _ => by omega) fun ys hys => ?_
    have hyi : IdxOk (ch + 1) ys := by
      rw [hys.1]
      exact hi.set hys.2 (by omega) (by omega)
    have hyl : ys.length = 16 := by rw [hys.1]; simpa using hx
    refine Meets.ite (fun _ => ?_) fun _ => ih (ch + 1) (by omega) ys hyl hyi
    refine Meets.bits_bind (by omega) fun n _ => ?_
    refine Meets.ite (fun _ => Meets.fail) fun hn => ?_
    refine Meets.bind (fillFrom_meets (n + 1) (ch + 1) _ ys 16 hyl (by omega)) fun zs hzs => ?_
    exact ih _ (by omega) zs hzs.1 (hyi.fill (by omega) (by omega) hzs.2.1 hzs.2.2)

theorem readDuck_meets : Meets S readDuck (fun _ => True) := by
  unfold readDuck
  refine Meets.bits_bind (by omega) fun f _ => ?_
  exact Meets.ite (fun _ => Meets.bits_bind (by omega) fun _ _ => Meets.pure trivial) fun _ => Meets.pure trivial

theorem duckLoop_meets (cnt : Nat) (hc : cnt ≤ 16) (fuel ch : Nat) (hf : cnt ≤ ch + fuel) (s : List Int × List (Nat × Rat))
    (hx : s.1.length = 16) (hd : s.2.length = 16) (hi : IdxOk ch s.1) :
    Meets S (duckLoop cnt fuel ch s)
      (fun r => cnt ≤ r.1 ∧ r.2.1.length = 16 ∧ r.2.2.length = 16 ∧ IdxOk r.1 r.2.1) := by
  induction fuel generalizing ch s with
  | zero => exact Meets.pure ⟨by simpa using hf, hx, hd, hi⟩
  | succ fuel ih =>
    unfold duckLoop
    refine Meets.ite (fun hlt => ?_) fun hge => Meets.pure ⟨by simpa using hge, hx, hd, hi⟩
    refine Meets.bits_bind (by omega) fun t _ => ?_
    refine Meets.ite (fun _ => Meets.fail) fun ht => ?_
    refine Meets.bind (Meets.setAt fun _ => by omega) fun ys hys => ?_
    have hyi : IdxOk (ch + 1) ys := by
      rw [hys.1]
      exact hi.set hys.2 (by omega) (by omega)
    have hyl : ys.length = 16 := by rw [hys.1]; simpa using hx
    refine Meets.bind readDuck_meets fun d _ => ?_
    refine Meets.bind (Meets.setAt fun _ => by omega) fun ds hds => ?_
    have hdl : ds.length = 16 := by rw [hds.1]; simpa using hd
    refine Meets.bits_bind (by omega) fun rp _ => ?_
    refine Meets.ite (fun _ => ?_) fun _ => ih (ch + 1) (by omega) (ys, ds) hyl hdl hyi
    refine Meets.bits_bind (by omega) fun n _ => ?_
    refine Meets.ite (fun _ => Meets.fail) fun hn => ?_
    refine Meets.bind (fillFrom_meets (n + 1) (ch + 1) _ ys 16 hyl (by omega)) fun zs hzs => ?_
    refine Meets.bind (fillFrom_meets (n + 1) (ch + 1) _ ds 16 hdl (by omega)) fun es hes => ?_
    exact ih _ (by omega) (zs, es) hzs.1 hes.1 (hyi.fill (by omega) (by omega) hzs.2.1 hzs.2.2)

/-! ## Groups -/

/-- Groups of channels by a key: channels without key are in no group (-1), others are in the same group
exactly when they have the same key, and there are no other groups. -/
structure Grouped {K : Type} (key : Nat → Option K) (n : Nat) (of : List Int) (groups : Nat) : Prop where
  free : ∀ i < n, key i = none → of[i]? = some (-1)
  member : ∀ i < n, ∀ k, key i = some k → ∃ g < groups, of[i]? = some (g : Int)
  same : ∀ i < n, ∀ j < n, ∀ a b, key i = some a → key j = some b → (of[i]? = of[j]? ↔ a = b)
  used : ∀ g < groups, ∃ i < n, of[i]? = some (g : Int)

/-- What holds of the groups after `ch` channels. -/
structure Inv {K : Type} (proj : Int × Rat → K) (P : Int × Rat → Prop) (key : Nat → Option K) (ch : Nat) (g : Groups) :
    Prop where
  uniq : g.uniq.length = 16
  of : g.of.length = 16
  le : g.n ≤ ch
  free : ∀ i < ch, key i = none → g.of[i]? = some (-1)
  member : ∀ i < ch, ∀ k, key i = some k → ∃ m u, m < g.n ∧ g.of[i]? = some (m : Int) ∧ g.uniq[m]? = some u ∧ proj u = k
  distinct : ∀ a < g.n, ∀ b < g.n, ∀ u v, g.uniq[a]? = some u → g.uniq[b]? = some v → proj u = proj v → a = b
  used : ∀ m < g.n, ∃ i < ch, g.of[i]? = some (m : Int)
  holds : ∀ m < g.n, ∀ u, g.uniq[m]? = some u → P u

theorem Inv.grouped {K : Type} {proj : Int × Rat → K} {P : Int × Rat → Prop} {key : Nat → Option K} {ch : Nat} {g : Groups}
    (h : Inv proj P key ch g) : Grouped key ch g.of g.n := by
  refine ⟨h.free, ?_, ?_, h.used⟩
  · intro i hi k hk
    obtain ⟨m, u, m1, m2, _⟩ := h.member i hi k hk
    exact ⟨m, m1, m2⟩
  · intro i hi j hj a b ha hb
    obtain ⟨m, u, m1, m2, m3, m4⟩ := h.member i hi a ha
    obtain ⟨m', u', n1, n2, n3, n4⟩ := h.member j hj b hb
    rw [m2, n2]
    constructor
    · intro e
      have e : m = m' := by simpa using e
      subst e
      rw [m3] at n3
      rw [← m4, ← n4, Option.some.inj n3]
    · intro e
      have := h.distinct m m1 m' n1 u u' m3 n3 (by rw [m4, n4, e])
      rw [this]

theorem inv_start {K : Type} (proj : Int × Rat → K) (P : Int × Rat → Prop) (key : Nat → Option K) (of : List Int)
    (h : of.length = 16) : Inv proj P key 0 (noGroups of) := by
  refine ⟨by simp [noGroups], h, by simp [noGroups], by simp, by simp, ?_, ?_, ?_⟩ <;> simp [noGroups]

/-- A channel in no group. -/
theorem Inv.skip {K : Type} {proj : Int × Rat → K} {P : Int × Rat → Prop} {key : Nat → Option K} {ch : Nat} {g : Groups}
    (h : Inv proj P key ch g) (hch : ch < 16) (hk : key ch = none) :
    Inv proj P key (ch + 1) { g with of := g.of.set ch (-1) } := by
  have hl := h.of
  refine ⟨h.uniq, by simpa using h.of, by have := h.le; dsimp only; omega, ?_, ?_, h.distinct, ?_, h.holds⟩
  · intro i hi k
    dsimp only
    by_cases e : i = ch
    · subst e
      simp [hl, hch]
    · rw [List.getElem?_set_ne (by omega)]
      exact h.free i (by omega) k
  · intro i hi k hk'
    dsimp only
    by_cases e : i = ch
    · subst e
      rw [hk] at hk'
      exact absurd hk' (by simp)
    · rw [List.getElem?_set_ne (by omega)]
      exact h.member i (by omega) k hk'
  · intro m hm
    dsimp only
    obtain ⟨i, i1, i2⟩ := h.used m hm
    exact ⟨i, by omega, by rw [List.getElem?_set_ne (by omega)]; exact i2⟩

theorem join_meets {K : Type} [DecidableEq K] (proj : Int × Rat → K) (P : Int × Rat → Prop) (key : Nat → Option K)
    (ch : Nat) (g : Groups) (h : Inv proj P key ch g) (hch : ch < 16) (idx : Int) (factor : Rat) (k : K)
    (hk : key ch = some k) (hp : proj (idx, factor) = k) (hP : P (idx, factor)) (same : Int × Rat → Bool)
    (hs : ∀ u, same u = true ↔ proj u = k) :
    Meets S (join same ch idx factor g) (Inv proj P key (ch + 1)) := by
  have hl := h.of
  have hu := h.uniq
  have hle := h.le
  unfold join
  split
  · rename_i n hn
    obtain ⟨hn1, hn2, _⟩ := List.findIdx?_eq_some_iff_getElem.mp hn
    rw [List.length_take] at hn1
    have hnu : g.uniq[n]? = some (g.uniq[n]'(by omega)) := List.getElem?_eq_getElem (by omega)
    have hproj : proj (g.uniq[n]'(by omega)) = k := by
      rw [List.getElem_take] at hn2
      exact (hs _).mp hn2
    refine Meets.bind (Meets.setAt fun _ => by omega) fun of' hof => Meets.pure ?_
    rw [hof.1]
    refine ⟨hu, by simpa using hl, by dsimp only; omega, ?_, ?_, h.distinct, ?_, h.holds⟩
    · intro i hi hk'
      dsimp only
      by_cases e : i = ch
      · subst e
        rw [hk] at hk'
        exact absurd hk' (by simp)
      · rw [List.getElem?_set_ne (by omega)]
        exact h.free i (by omega) hk'
    · intro i hi k' hk'
      dsimp only
      by_cases e : i = ch
      · subst e
        rw [hk] at hk'
        refine ⟨n, _, by omega, by simp [hl, hch], hnu, ?_⟩
        rw [hproj]
        exact Option.some.inj hk'
      · rw [List.getElem?_set_ne (by omega)]
        exact h.member i (by omega) k' hk'
    · intro m hm
      dsimp only
      obtain ⟨i, i1, i2⟩ := h.used m hm
      exact ⟨i, by omega, by rw [List.getElem?_set_ne (by omega)]; exact i2⟩
  · rename_i hn
    have hnew : ∀ a < g.n, ∀ u, g.uniq[a]? = some u → proj u ≠ k := by
      intro a ha u hu' hp'
      have hmem : u ∈ g.uniq.take g.n := by
        refine List.mem_of_getElem? (i := a) ?_
        rw [List.getElem?_take, if_pos ha]
        exact hu'
      have := List.findIdx?_eq_none_iff.mp hn u hmem
      rw [(hs u).mpr hp'] at this
      exact absurd this (by simp)
    refine Meets.bind (Meets.setAt fun _ => by omega) fun u' hu' => ?_
    refine Meets.bind (Meets.setAt fun _ => by omega) fun of' hof => Meets.pure ?_
    rw [hof.1, hu'.1]
    refine ⟨by simpa using hu, by simpa using hl, by dsimp only; omega, ?_, ?_, ?_, ?_, ?_⟩
    · intro i hi hk'
      dsimp only
      by_cases e : i = ch
      · subst e
        rw [hk] at hk'
        exact absurd hk' (by simp)
      · rw [List.getElem?_set_ne (by omega)]
        exact h.free i (by omega) hk'
    · intro i hi k' hk'
      dsimp only
      by_cases e : i = ch
      · subst e
        rw [hk] at hk'
        refine ⟨g.n, (idx, factor), by omega, by simp [hl, hch], by simp [hu'.2], ?_⟩
        rw [hp]
        exact Option.some.inj hk'
      · rw [List.getElem?_set_ne (by omega)]
        obtain ⟨m, u, m1, m2, m3, m4⟩ := h.member i (by omega) k' hk'
        exact ⟨m, u, by omega, m2, by rw [List.getElem?_set_ne (by omega)]; exact m3, m4⟩
    · intro a ha b hb u v hu1 hv1 huv
      dsimp only at ha hb hu1 hv1
      by_cases ea : a = g.n
      · by_cases eb : b = g.n
        · omega
        · exfalso
          rw [List.getElem?_set_ne (by omega)] at hv1
          rw [ea, List.getElem?_set_self hu'.2] at hu1
          refine hnew b (by omega) v hv1 ?_
          rw [← huv, ← Option.some.inj hu1, hp]
      · rw [List.getElem?_set_ne (by omega)] at hu1
        by_cases eb : b = g.n
        · exfalso
          rw [eb, List.getElem?_set_self hu'.2] at hv1
          refine hnew a (by omega) u hu1 ?_
          rw [huv, ← Option.some.inj hv1, hp]
        · rw [List.getElem?_set_ne (by omega)] at hv1
          exact h.distinct a (by omega) b (by omega) u v hu1 hv1 huv
    · intro m hm
      dsimp only at hm ⊢
      by_cases em : m = g.n
      · exact ⟨ch, by omega, by simp [hl, hch, em]⟩
      · obtain ⟨i, i1, i2⟩ := h.used m (by omega)
        exact ⟨i, by omega, by rw [List.getElem?_set_ne (by omega)]; exact i2⟩
    · intro m hm u hu1
      dsimp only at hm hu1
      by_cases em : m = g.n
      · rw [em, List.getElem?_set_self hu'.2] at hu1
        rw [← Option.some.inj hu1]
        exact hP
      · rw [List.getElem?_set_ne (by omega)] at hu1
        exact h.holds m (by omega) u hu1

/-- The gain set of a channel, if it has one. -/
def setKey (xs : List Int) (i : Nat) : Option Int := (xs[i]?).bind fun v => if v < 0 then none else some v

/-- The gain set and the ducking factor of a channel that has a gain set. -/
def selfKey (xs : List Int) (ds : List (Nat × Rat)) (i : Nat) : Option (Int × Rat) :=
  (xs[i]?).bind fun v => if v < 0 then none else (ds[i]?).map fun d => (v, d.2)

/-- The ducking factor of a channel that has no gain set. -/
def otherKey (xs : List Int) (ds : List (Nat × Rat)) (i : Nat) : Option Rat :=
  (xs[i]?).bind fun v => if v < 0 then (ds[i]?).map fun d => d.2 else none

/-- The entries of `unique_idx` that stand for gain sets. -/
def IsSet (u : Int × Rat) : Prop := 0 ≤ u.1 ∧ u.1 < 24

theorem plainGroups_meets (cnt : Nat) (hc : cnt ≤ 16) (xs of : List Int) (hx : xs.length = 16) (hi : IdxOk cnt xs)
    (ho : of.length = 16) :
    Meets S (foldN (groupStep xs) cnt 0 (noGroups of)) (Inv Prod.fst IsSet (setKey xs) cnt) := by
  have := Meets.foldN (S := S) (f := groupStep xs) (fun j g => Inv Prod.fst IsSet (setKey xs) j g) cnt 0 (noGroups of)
    (inv_start _ _ _ of ho) ?_
  · rwa [Nat.zero_add] at this
  intro j g _ hj hg
  unfold groupStep
  refine Meets.bind (Meets.getAt fun _ => by omega) fun idx hidx => ?_
  obtain ⟨v, v1, _, v3⟩ := hi j (by omega)
  rw [hidx] at v1
  have v1 := Option.some.inj v1
  refine Meets.ite (fun hneg => ?_) fun hpos => ?_
  · refine Meets.bind (Meets.setAt fun _ => by rw [hg.of]; omega) fun of' hof => Meets.pure ?_
    rw [hof.1]
    exact hg.skip (by omega) (by simp [setKey, hidx, hneg])
  · exact join_meets Prod.fst IsSet _ j g hg (by omega) idx (-10) idx (by simp [setKey, hidx]; omega) rfl
      ⟨by dsimp only; omega, by dsimp only; omega⟩ _ (by simp)

theorem selfGroups_meets (cnt : Nat) (hc : cnt ≤ 16) (xs of : List Int) (ds : List (Nat × Rat)) (hx : xs.length = 16)
    (hd : ds.length = 16) (hi : IdxOk cnt xs) (ho : of.length = 16) :
    Meets S (foldN (selfStep xs ds) cnt 0 (noGroups of)) (Inv id IsSet (selfKey xs ds) cnt) := by
  have := Meets.foldN (S := S) (f := selfStep xs ds) (fun j g => Inv id IsSet (selfKey xs ds) j g) cnt 0 (noGroups of)
    (inv_start _ _ _ of ho) ?_
  · rwa [Nat.zero_add] at this
  intro j g _ hj hg
  unfold selfStep
  refine Meets.bind (Meets.getAt fun _ => by omega) fun idx hidx => ?_
  refine Meets.bind (Meets.getAt fun _ => by omega) fun d hdd => ?_
  obtain ⟨v, v1, _, v3⟩ := hi j (by omega)
  rw [hidx] at v1
  have v1 := Option.some.inj v1
  refine Meets.ite (fun hneg => ?_) fun hpos => ?_
  · refine Meets.bind (Meets.setAt fun _ => by rw [hg.of]; omega) fun of' hof => Meets.pure ?_
    rw [hof.1]
    exact hg.skip (by omega) (by simp [selfKey, hidx, hneg])
  · exact join_meets id IsSet _ j g hg (by omega) idx d.2 (idx, d.2) (by simp [selfKey, hidx, hdd]; omega) rfl
      ⟨by dsimp only; omega, by dsimp only; omega⟩ _ (by simp)

/-- What holds of `ducking_seq` after `ch` channels. -/
structure Driver (xs : List Int) (ch : Nat) (seq : Int) : Prop where
  range : -1 ≤ seq ∧ seq < 24
  found : 0 ≤ seq → ∃ i < ch, xs[i]? = some seq
  last : ∀ i < ch, ∀ a, xs[i]? = some a → 0 < a → seq = a
  earlier : ∀ i j a b, i < j → j < ch → xs[i]? = some a → xs[j]? = some b → 0 < a → 0 ≤ b → a = b

theorem otherGroups_meets (cnt : Nat) (hc : cnt ≤ 16) (xs of : List Int) (ds : List (Nat × Rat)) (hx : xs.length = 16)
    (hd : ds.length = 16) (hi : IdxOk cnt xs) (ho : of.length = 16) :
    Meets S (foldN (otherStep xs ds) cnt 0 (-1, noGroups of))
      (fun r => Driver xs cnt r.1 ∧ Inv Prod.snd (fun _ => True) (otherKey xs ds) cnt r.2) := by
  have := Meets.foldN (S := S) (f := otherStep xs ds)
    (fun j r => Driver xs j r.1 ∧ Inv Prod.snd (fun _ => True) (otherKey xs ds) j r.2) cnt 0 (-1, noGroups of)
    ⟨⟨⟨by simp, by simp⟩, by simp, by simp, by omega⟩, inv_start _ _ _ of ho⟩ ?_
  · rwa [Nat.zero_add] at this
  intro j s _ hj ⟨hs, hg⟩
  unfold otherStep
  refine Meets.bind (Meets.getAt fun _ => by omega) fun idx hidx => ?_
  refine Meets.bind (Meets.getAt fun _ => by omega) fun d hdd => ?_
  obtain ⟨v, v1, v2, v3⟩ := hi j (by omega)
  rw [hidx] at v1
  have v1 := Option.some.inj v1
  refine Meets.ite (fun hpos => ?_) fun hneg => ?_
  · refine Meets.ite (fun _ => Meets.fail) fun hok => ?_
    refine Meets.bind (Meets.setAt fun _ => by rw [hg.of]; omega) fun of' hof => Meets.pure ⟨⟨?_, ?_, ?_, ?_⟩, ?_⟩
    · dsimp only; omega
    · intro _
      exact ⟨j, by omega, hidx⟩
    · intro i hi' a ha h0
      dsimp only
      by_cases e : i = j
      · subst e
        rw [hidx] at ha
        exact Option.some.inj ha
      · have := hs.last i (by omega) a ha h0
        omega
    · intro i k a b h1 h2 ha hb h0 hb0
      by_cases e : k = j
      · subst e
        rw [hidx] at hb
        have hb := Option.some.inj hb
        have := hs.last i h1 a ha h0
        omega
      · exact hs.earlier i k a b h1 (by omega) ha hb h0 hb0
    · rw [hof.1]
      exact hg.skip (by omega) (by simp [otherKey, hidx]; omega)
  · refine Meets.bind (join_meets Prod.snd (fun _ => True) _ j s.2 hg (by omega) idx d.2 d.2
      (by simp [otherKey, hidx, hdd]; omega) rfl trivial _ (by simp)) fun g' hg' => Meets.pure ⟨⟨hs.range, ?_, ?_, ?_⟩, hg'⟩
    · intro h0
      obtain ⟨i, i1, i2⟩ := hs.found h0
      exact ⟨i, by omega, i2⟩
    · intro i hi' a ha h0
      by_cases e : i = j
      · subst e
        rw [hidx] at ha
        have := Option.some.inj ha
        omega
      · exact hs.last i (by omega) a ha h0
    · intro i k a b h1 h2 ha hb h0 hb0
      by_cases e : k = j
      · subst e
        rw [hidx] at hb
        have hb := Option.some.inj hb
        omega
      · exact hs.earlier i k a b h1 (by omega) ha hb h0 hb0

/-! ## The body of an instruction -/

theorem readMods_meets (bands : Nat) (hb : bands ≤ 4) (ms : List BandMod) (hm : ms.length = 4) :
    Meets S (readMods bands ms) (fun r => r.length = 4 ∧ ∃ x, ∀ b < bands, r[b]? = some x) := by
  unfold readMods
  refine Meets.bits_bind (by omega) fun sf _ => ?_
  refine Meets.bind (R := fun _ => True) ?_ fun s _ => ?_
  · exact Meets.ite (fun _ => Meets.bits_bind (by omega) fun _ _ => Meets.pure trivial) fun _ => Meets.pure trivial
  refine Meets.bits_bind (by omega) fun of _ => ?_
  refine Meets.bind (R := fun _ => True) ?_ fun g _ => ?_
  · exact Meets.ite (fun _ => Meets.bits_bind (by omega) fun _ _ => Meets.pure trivial) fun _ => Meets.pure trivial
  have := Meets.foldN (S := S) (f := fun k ms => setAt ms k (⟨sf, s.1, s.2, of, g⟩ : BandMod))
    (fun j (ms : List BandMod) => ms.length = 4 ∧ ∀ b < j, ms[b]? = some ⟨sf, s.1, s.2, of, g⟩) bands 0 ms ⟨hm, by simp⟩ ?_
  · rw [Nat.zero_add] at this
    exact this.mono fun r hr => ⟨hr.1, _, hr.2⟩
  intro j t _ hj ht
  refine (Meets.setAt fun _ => by omega).mono fun u hu => ⟨by simp [hu.1, ht.1], fun b hb => ?_⟩
  rw [hu.1]
  by_cases e : b = j
  · subst e
    rw [List.getElem?_set_self (by omega)]
  · rw [List.getElem?_set_ne (by omega)]
    exact ht.2 b (by omega)

/-- The modifiers of a group have been read for all bands of its gain set. -/
def Modded (c : Coeffs) (n : Nat) (gs : List Int) (ms : List (List BandMod)) : Prop :=
  ∀ k < n, ∃ v m x, gs[k]? = some v ∧ ms[k]? = some m ∧
    ∀ g, v < c.count → c.sets[v.toNat]? = some g → ∀ b < g.bands, m[b]? = some x

theorem modStep_meets (c : Coeffs) (hc : CoeffsOk c) (uniq : List (Int × Rat)) (hu : uniq.length = 16) (n : Nat) (hn : n ≤ 16)
    (gs : List Int) (ms : List (List BandMod)) (hgs : gs.length = 24) (hms : ms.length = 24) (hm : ∀ m ∈ ms, m.length = 4) :
    Meets S (foldN (modStep c uniq) n 0 (gs, ms)) (fun s => s.1.length = 24 ∧ s.2.length = 24 ∧ (∀ m ∈ s.2, m.length = 4) ∧
      (∀ i < n, ∀ u, uniq[i]? = some u → s.1[i]? = some u.1) ∧ Modded c n s.1 s.2) := by
  have := Meets.foldN (S := S) (f := modStep c uniq)
    (fun j s => s.1.length = 24 ∧ s.2.length = 24 ∧ (∀ m ∈ s.2, m.length = 4) ∧
      (∀ i < j, ∀ u, uniq[i]? = some u → s.1[i]? = some u.1) ∧ Modded c j s.1 s.2) n 0 (gs, ms)
    ⟨hgs, hms, hm, by simp, by intro k hk; omega⟩ ?_
  · rwa [Nat.zero_add] at this
  intro j s _ hj ⟨s1, s2, s3, s4, s5⟩
  unfold modStep
  refine Meets.bind (Meets.getAt fun _ => by omega) fun u hu' => ?_
  refine Meets.ite (fun _ => Meets.fail) fun hneg => ?_
  refine Meets.bind (Meets.setAt fun _ => by omega) fun gs' hgs' => ?_
  refine Meets.bind (R := fun b => b ≤ 4 ∧ ∀ g, u.1 < c.count → c.sets[u.1.toNat]? = some g → b = g.bands) ?_ fun bands hb => ?_
  · refine Meets.ite (fun hlt => ?_) fun hge => Meets.pure ⟨by omega, fun g h => absurd h hge⟩
    obtain ⟨g, g1, g2⟩ := hc.sets u.1.toNat (by omega)
    refine Meets.bind (Meets.getAt fun _ => (List.getElem?_eq_some_iff.mp g1).1) fun g' hg' => Meets.pure ?_
    refine ⟨?_, fun g'' _ h'' => ?_⟩
    · rw [g1] at hg'
      rw [← Option.some.inj hg']
      exact g2.bands
    · rw [hg'] at h''
      rw [Option.some.inj h'']
  refine Meets.bind (Meets.getAt fun _ => by omega) fun m hm' => ?_
  refine Meets.bind (readMods_meets bands hb.1 m (s3 m (List.mem_of_getElem? hm'))) fun m' ⟨hm'', x, hx⟩ => ?_
  refine Meets.bind (Meets.setAt fun _ => by omega) fun ms' hms' => Meets.pure ⟨?_, ?_, ?_, ?_, ?_⟩
  · simp [hgs'.1, s1]
  · simp [hms'.1, s2]
  · dsimp only
    rw [hms'.1]
    intro x hx
    rcases List.mem_or_eq_of_mem_set hx with h | rfl
    · exact s3 x h
    · exact hm''
  · intro i hi u' hu''
    dsimp only
    rw [hgs'.1]
    by_cases e : i = j
    · subst e
      rw [hu'] at hu''
      rw [List.getElem?_set_self (by omega), Option.some.inj hu'']
    · rw [List.getElem?_set_ne (by omega)]
      exact s4 i (by omega) u' hu''
  · intro i hi
    dsimp only
    rw [hgs'.1, hms'.1]
    by_cases e : i = j
    · subst e
      refine ⟨u.1, m', x, by rw [List.getElem?_set_self (by omega)], by rw [List.getElem?_set_self (by omega)], ?_⟩
      intro g h1 h2 b hb'
      rw [← hb.2 g h1 h2] at hb'
      exact hx b hb'
    · rw [List.getElem?_set_ne (by omega), List.getElem?_set_ne (by omega)]
      exact s5 i (by omega)

/-- Every group of an instruction has a gain set. -/
def HasSets (n : Nat) (gs : List Int) : Prop := ∀ k < n, ∃ v, gs[k]? = some v ∧ 0 ≤ v ∧ v < 24

/-- Channels have the gain set of their group. -/
def Follows (n : Nat) (of gs xs : List Int) : Prop := ∀ i < n, ∀ g : Nat, of[i]? = some (g : Int) → gs[g]? = xs[i]?

/-- How many channels an instruction without ducking is about. -/
def Covers (env : Env) (channels : Nat) (d : Int) (n : Nat) : Prop :=
  n ≤ 16 ∧ (d = 0 → n = channels) ∧ (d ≠ 0 → (d, n) ∈ env.dmx)

theorem channelCount_meets (env : Env) (d : Int) (k cnt : Nat) :
    Meets S (channelCount env d k cnt) (fun n => n ≤ 16 ∧ (¬ (d = 127 ∨ 1 < k) → 1 ≤ k → Covers env cnt d n) ∧
      (d = 127 ∨ 1 < k → n = 1)) := by
  unfold channelCount
  refine Meets.bind (R := fun n => (¬ (d = 127 ∨ 1 < k) → 1 ≤ k → (d = 0 → n = cnt) ∧ (d ≠ 0 → (d, n) ∈ env.dmx)) ∧
    (d = 127 ∨ 1 < k → n = 1)) ?_ fun n hn => ?_
  · refine Meets.ite (fun h => ?_) fun h => ?_
    · split
      · exact Meets.fail
      · rename_i x hx
        refine Meets.pure ⟨fun _ _ => ⟨fun h0 => absurd h0 h.1, fun _ => ?_⟩, fun h' => by omega⟩
        have h1 := List.mem_of_find?_eq_some hx
        have h2 := List.find?_some hx
        have h2 : x.1 = d := by simpa using h2
        rw [← h2]
        exact h1
    · refine Meets.ite (fun h' => Meets.pure ⟨fun hn => absurd h' hn, fun _ => rfl⟩) fun h' =>
        Meets.pure ⟨fun _ h1 => ⟨fun _ => rfl, fun h0 => ?_⟩, fun h => absurd h h'⟩
      exfalso
      omega
  · refine Meets.ite (fun _ => Meets.fail) fun h => Meets.pure ⟨by omega, fun a b => ?_, hn.2⟩
    exact ⟨by omega, hn.1 a b⟩

theorem Inv.follows_set {K : Type} {proj : Int × Rat → K} {P : Int × Rat → Prop} {key : Nat → Option K} {ch : Nat} {g : Groups}
    (h : Inv proj P key ch g) {gs xs : List Int} (hgs : ∀ i < g.n, ∀ u, g.uniq[i]? = some u → gs[i]? = some u.1)
    (hk : ∀ i < ch, ∀ k, key i = some k → ∀ u, proj u = k → xs[i]? = some u.1) : Follows ch g.of gs xs := by
  intro i hi m hm
  cases hkey : key i with
  | none =>
    rw [h.free i hi hkey] at hm
    have := Option.some.inj hm
    omega
  | some k =>
    obtain ⟨m', u, m1, m2, m3, m4⟩ := h.member i hi k hkey
    rw [hm] at m2
    have e : m = m' := by simpa using m2
    subst e
    rw [hgs m m1 u m3, hk i hi k hkey u m4]

theorem Inv.hasSets {K : Type} {proj : Int × Rat → K} {key : Nat → Option K} {ch : Nat} {g : Groups}
    (h : Inv proj IsSet key ch g) (hch : ch ≤ 16) {gs : List Int} (hgs : ∀ i < g.n, ∀ u, g.uniq[i]? = some u → gs[i]? = some u.1) :
    HasSets g.n gs := by
  intro k hk
  have hu := h.uniq
  have hle := h.le
  have hget : g.uniq[k]? = some (g.uniq[k]'(by omega)) := List.getElem?_eq_getElem (by omega)
  exact ⟨_, hgs k hk _ hget, h.holds k hk _ hget⟩

/-- What an instruction without ducking becomes. -/
theorem plainBody_meets (env : Env) (c : Coeffs) (hc : CoeffsOk c) (cnt : Nat) (o : Instr) (ho : InstrRoom o)
    (h1 : 1 ≤ o.dmxCount) :
    Meets S (plainBody env c cnt o) (fun o' => ∃ xs of n gs ms d,
      o' = { o with gainIdx := xs, chGroup := of, groups := n, groupSet := gs, mods := ms } ∧ InstrRoom o' ∧ n ≤ 16 ∧ HasSets n gs ∧ Modded c n gs ms ∧ o.dmxIds[0]? = some d ∧
      (¬ (d = 127 ∨ 1 < o.dmxCount) → ∃ m, Covers env cnt d m ∧ Grouped (setKey xs) m of n ∧ Follows m of gs xs) ∧
      (d = 127 ∨ 1 < o.dmxCount → n ≤ 1 ∧ (n = 1 → gs[0]? = xs[0]?))) := by
  unfold plainBody
  refine Meets.bind (Meets.getAt fun _ => by rw [ho.dmxIds]; omega) fun d hd => ?_
  refine Meets.bind (channelCount_meets env d o.dmxCount cnt) fun m ⟨hm1, hm2, hm3⟩ => ?_
  refine Meets.bind (idxLoop_meets m hm1 m 0 (by omega) o.gainIdx ho.gainIdx (by intro i hi; omega)) fun r ⟨r1, r2, r3⟩ => ?_
  refine Meets.ite (fun _ => Meets.fail) fun hr => ?_
  have hrm : r.1 = m := by omega
  rw [hrm] at r3
  have room : ∀ (of : List Int) (n : Nat) (gs : List Int) (ms : List (List BandMod)), of.length = 16 → gs.length = 24 →
      ms.length = 24 → (∀ x ∈ ms, x.length = 4) →
      InstrRoom { o with gainIdx := r.2, chGroup := of, groups := n, groupSet := gs, mods := ms } := by
    intro of n gs ms a1 a2 a3 a4
    exact ⟨ho.dmxIds, r2, a3, a4, ho.duck, a2, ho.bandCount, ho.interp, ho.timeMin, ho.align, ho.groupDuck, a1⟩
  by_cases hany : d = 127 ∨ 1 < o.dmxCount
  · have hm : m = 1 := hm3 hany
    subst hm
    obtain ⟨v, v1, v2, v3⟩ := r3 0 (by omega)
    refine Meets.bind (R := fun g => g.uniq.length = 16 ∧ g.of.length = 16 ∧ g.n ≤ 1 ∧
      (g.n = 1 → 0 ≤ v ∧ g.uniq[0]? = some ((v, -10) : Int × Rat))) ?_ fun g ⟨g1, g2, g3, g4⟩ => ?_
    · unfold formGroups
      rw [if_pos hany]
      refine Meets.bind (Meets.getAt fun _ => by omega) fun idx hidx => ?_
      rw [v1] at hidx
      have hidx := Option.some.inj hidx
      refine Meets.ite (fun h0 => ?_) fun _ => Meets.pure ⟨by simp [noGroups], ho.chGroup, by simp [noGroups], by simp [noGroups]⟩
      refine Meets.bind (Meets.setAt fun _ => by simp [noGroups]) fun u hu => Meets.pure ⟨by simp [hu.1, noGroups], ho.chGroup,
        by simp, fun _ => ⟨by omega, ?_⟩⟩
      simp [hu.1, noGroups, hidx]
    refine Meets.ite (fun _ => Meets.fail) fun _ => ?_
    refine Meets.bind (modStep_meets c hc g.uniq g1 g.n (by omega) o.groupSet o.mods ho.groupSet ho.mods ho.bands)
      fun s ⟨s1, s2, s3, s4, s5⟩ => Meets.pure ?_
    refine ⟨r.2, g.of, g.n, s.1, s.2, d, rfl, room _ _ _ _ g2 s1 s2 s3, by omega, ?_, s5, hd, fun h => absurd hany h, fun _ => ⟨g3, ?_⟩⟩
    · intro k hk
      have : k = 0 := by omega
      subst this
      obtain ⟨w1, w2⟩ := g4 (by omega)
      exact ⟨v, s4 0 hk _ w2, w1, v3⟩
    · intro hn
      rw [s4 0 (by omega) _ (g4 hn).2, v1]
  · refine Meets.bind (R := Inv Prod.fst IsSet (setKey r.2) m) ?_ fun g hg => ?_
    · unfold formGroups
      rw [if_neg hany]
      exact plainGroups_meets m hm1 r.2 o.chGroup r2 r3 ho.chGroup
    refine Meets.ite (fun _ => Meets.fail) fun hg16 => ?_
    refine Meets.bind (modStep_meets c hc g.uniq hg.uniq g.n (by omega) o.groupSet o.mods ho.groupSet ho.mods ho.bands)
      fun s ⟨s1, s2, s3, s4, s5⟩ => Meets.pure ?_
    refine ⟨r.2, g.of, g.n, s.1, s.2, d, rfl, room _ _ _ _ hg.of s1 s2 s3, by omega, hg.hasSets hm1 s4, s5, hd, fun h =>
      ⟨m, hm2 h h1, hg.grouped, hg.follows_set s4 ?_⟩, fun h => absurd h hany⟩
    intro i hi k hk u hu
    obtain ⟨v, v1, _⟩ := r3 i hi
    simp only [setKey, v1, Option.bind_some] at hk
    split at hk
    · simp at hk
    · rw [v1, Option.some.inj hk, ← hu]

/-- Every group has the ducking factor of its channels, and is marked as ducked unless that is 1. -/
def Ducked (n : Nat) (of : List Int) (ds gd : List (Nat × Rat)) : Prop :=
  ∀ i < n, ∀ k : Nat, of[i]? = some (k : Int) → ∀ d, ds[i]? = some d → ∃ f, gd[k]? = some (f, d.2) ∧ (f = 0 ↔ d.2 = 1)

/-- What an instruction with ducking becomes. -/
theorem duckBody_meets (cnt : Nat) (hcnt : cnt ≤ 16) (o : Instr) (ho : InstrRoom o)
    (hduck : duckSelf o.effect = false → duckOther o.effect = true) :
    Meets S (duckBody cnt o) (fun o' => ∃ xs ds of n gs gd bs,
      o' = { o with gainIdx := xs, duck := ds, chGroup := of, groups := n, groupSet := gs, groupDuck := gd, bandCount := bs } ∧
      InstrRoom o' ∧ n ≤ 16 ∧ HasSets n gs ∧ (∀ k < n, bs[k]? = some 1) ∧
      (duckSelf o.effect = true → Grouped (selfKey xs ds) cnt of n ∧ Follows cnt of gs xs) ∧
      (duckSelf o.effect = false → duckOther o.effect = true → Grouped (otherKey xs ds) cnt of n ∧
        ∃ v, 0 ≤ v ∧ Driver xs cnt v ∧ ∀ k < n, gs[k]? = some v) ∧ Ducked cnt of ds gd) := by
  unfold duckBody
  refine Meets.bind (duckLoop_meets cnt hcnt cnt 0 (by omega) (o.gainIdx, o.duck) ho.gainIdx ho.duck (by intro i hi; omega))
    fun r ⟨r1, r2, r3, r4⟩ => ?_
  refine Meets.ite (fun _ => Meets.fail) fun hr => ?_
  have hrc : r.1 = cnt := by omega
  rw [hrc] at r4
  refine Meets.bind (R := fun g => g.2.uniq.length = 16 ∧ g.2.of.length = 16 ∧ g.2.n ≤ 16 ∧
    (duckSelf o.effect = true → g.1 = -1 ∧ Inv id IsSet (selfKey r.2.1 r.2.2) cnt g.2) ∧
    (duckSelf o.effect = false → 0 ≤ g.1 ∧ Driver r.2.1 cnt g.1 ∧
      Inv Prod.snd (fun _ => True) (otherKey r.2.1 r.2.2) cnt g.2)) ?_ fun g ⟨g1, g2, g3, g4, g5⟩ => ?_
  · unfold duckGroups
    refine Meets.ite (fun hs => ?_) fun hs => ?_
    · refine Meets.bind (selfGroups_meets cnt hcnt r.2.1 o.chGroup r.2.2 r2 r3 r4 ho.chGroup) fun g hg => Meets.pure ?_
      exact ⟨hg.uniq, hg.of, by have := hg.le; dsimp only; omega, fun _ => ⟨rfl, hg⟩, fun h => by rw [hs] at h; simp at h⟩
    · refine Meets.bind (otherGroups_meets cnt hcnt r.2.1 o.chGroup r.2.2 r2 r3 r4 ho.chGroup) fun g ⟨hg1, hg2⟩ => ?_
      refine Meets.ite (fun _ => Meets.fail) fun hne => Meets.pure ?_
      refine ⟨hg2.uniq, hg2.of, by have := hg2.le; omega, fun h => absurd h hs, fun _ => ⟨?_, hg1, hg2⟩⟩
      have := hg1.range
      omega
  refine Meets.ite (fun _ => Meets.fail) fun _ => ?_
  have loop := Meets.foldN (S := S) (f := duckStep o.effect g.1 g.2.uniq)
    (fun j s => s.1.length = 24 ∧ s.2.1.length = 24 ∧ s.2.2.length = 24 ∧ ∀ i < j, s.2.2[i]? = some 1 ∧
      ∀ u, g.2.uniq[i]? = some u → s.1[i]? = some (if duckOther o.effect then g.1 else u.1) ∧
        0 ≤ (if duckOther o.effect then g.1 else u.1) ∧ s.2.1[i]? = some ((if u.2 = 1 then 0 else 1), u.2))
    g.2.n 0 (o.groupSet, o.groupDuck, o.bandCount) ⟨ho.groupSet, ho.groupDuck, ho.bandCount, by simp⟩ ?_
  · rw [Nat.zero_add] at loop
    refine Meets.bind loop fun s ⟨s1, s2, s3, s4⟩ => Meets.pure ?_
    refine ⟨r.2.1, r.2.2, g.2.of, g.2.n, s.1, s.2.1, s.2.2, rfl, ⟨ho.dmxIds, r2, ho.mods, ho.bands, r3, s1, s3, ho.interp,
      ho.timeMin, ho.align, s2, g2⟩, g3, ?_, fun k hk => (s4 k hk).1, ?_, ?_, ?_⟩
    · intro k hk
      have hget : g.2.uniq[k]? = some (g.2.uniq[k]'(by omega)) := List.getElem?_eq_getElem (by omega)
      obtain ⟨a1, a2, _⟩ := (s4 k hk).2 _ hget
      refine ⟨_, a1, a2, ?_⟩
      cases hs : duckSelf o.effect with
      | true =>
        obtain ⟨b1, b2⟩ := g4 hs
        split
        · omega
        · exact (b2.holds k hk _ hget).2
      | false =>
        obtain ⟨b1, b2, b3⟩ := g5 hs
        split
        · exact b2.range.2
        · rename_i hno
          exact absurd (hduck hs) hno
    · intro hs
      obtain ⟨b1, b2⟩ := g4 hs
      refine ⟨b2.grouped, ?_⟩
      cases ho' : duckOther o.effect with
      | true =>
        intro i hi m hm
        exfalso
        cases hkey : selfKey r.2.1 r.2.2 i with
        | none =>
          rw [b2.free i hi hkey] at hm
          have := Option.some.inj hm
          omega
        | some k =>
          obtain ⟨m', u, m1, m2, m3, _⟩ := b2.member i hi k hkey
          have := ((s4 m' m1).2 u m3).2.1
          rw [ho', if_pos rfl] at this
          omega
      | false =>
        refine b2.follows_set (fun i hi u hu => ?_) ?_
        · have := ((s4 i hi).2 u hu).1
          rwa [ho', if_neg (by simp)] at this
        · intro i hi k hk u hu
          obtain ⟨v, v1, _⟩ := r4 i hi
          simp only [selfKey, v1, Option.bind_some] at hk
          split at hk
          · simp at hk
          · rw [Option.map_eq_some_iff] at hk
            obtain ⟨d, _, hk⟩ := hk
            have hu : u = k := hu
            rw [v1, hu, ← hk]
    · intro hs ho'
      obtain ⟨b1, b2, b3⟩ := g5 hs
      refine ⟨b3.grouped, g.1, b1, b2, fun k hk => ?_⟩
      have hget : g.2.uniq[k]? = some (g.2.uniq[k]'(by omega)) := List.getElem?_eq_getElem (by omega)
      have := ((s4 k hk).2 _ hget).1
      rwa [ho', if_pos rfl] at this
    · intro i hi k hk d hd
      have put : ∀ (m : Nat) (u : Int × Rat), m < g.2.n → g.2.uniq[m]? = some u → u.2 = d.2 → m = k →
          ∃ f, s.2.1[k]? = some (f, d.2) ∧ (f = 0 ↔ d.2 = 1) := by
        rintro m u hm hu e rfl
        refine ⟨_, by rw [((s4 m hm).2 u hu).2.2, e], ?_⟩
        split <;> simp_all
      cases hs : duckSelf o.effect with
      | true =>
        obtain ⟨b1, b2⟩ := g4 hs
        cases hkey : selfKey r.2.1 r.2.2 i with
        | none =>
          rw [b2.free i hi hkey] at hk
          have := Option.some.inj hk
          omega
        | some x =>
          obtain ⟨m, u, m1, m2, m3, m4⟩ := b2.member i hi x hkey
          rw [m2] at hk
          have hk := Option.some.inj hk
          refine put m u m1 m3 ?_ (by omega)
          obtain ⟨v, v1, _⟩ := r4 i hi
          simp only [selfKey, v1, Option.bind_some, hd, Option.map_some] at hkey
          split at hkey
          · simp at hkey
          · have hu : u = x := m4
            rw [hu, ← Option.some.inj hkey]
      | false =>
        obtain ⟨b1, b2, b3⟩ := g5 hs
        cases hkey : otherKey r.2.1 r.2.2 i with
        | none =>
          rw [b3.free i hi hkey] at hk
          have := Option.some.inj hk
          omega
        | some x =>
          obtain ⟨m, u, m1, m2, m3, m4⟩ := b3.member i hi x hkey
          rw [m2] at hk
          have hk := Option.some.inj hk
          refine put m u m1 m3 ?_ (by omega)
          obtain ⟨v, v1, _⟩ := r4 i hi
          simp only [otherKey, v1, Option.bind_some, hd, Option.map_some] at hkey
          split at hkey
          · rw [m4, ← Option.some.inj hkey]
          · simp at hkey
  intro j s _ hj ⟨s1, s2, s3, s4⟩
  unfold duckStep
  refine Meets.bind (Meets.getAt fun _ => by omega) fun u hu => ?_
  refine Meets.ite (fun _ => Meets.fail) fun hneg => ?_
  refine Meets.bind (Meets.setAt fun _ => by omega) fun gs hgs => ?_
  refine Meets.bind (Meets.setAt fun _ => by omega) fun gd hgd => ?_
  refine Meets.bind (Meets.setAt fun _ => by omega) fun bs hbs => Meets.pure ⟨?_, ?_, ?_, ?_⟩
  · simp [hgs.1, s1]
  · simp [hgd.1, s2]
  · simp [hbs.1, s3]
  · intro i hi
    dsimp only
    rw [hbs.1, hgs.1, hgd.1]
    by_cases e : i = j
    · subst e
      refine ⟨by rw [List.getElem?_set_self (by omega)], fun u' hu' => ?_⟩
      rw [hu] at hu'
      rw [← Option.some.inj hu', List.getElem?_set_self (by omega), List.getElem?_set_self (by omega)]
      exact ⟨rfl, by omega, rfl⟩
    · rw [List.getElem?_set_ne (by omega), List.getElem?_set_ne (by omega), List.getElem?_set_ne (by omega)]
      exact s4 i (by omega)

/-! ## Instructions -/

theorem InstrRoom.congr {o o' : Instr} (h : InstrRoom o) (h1 : o'.dmxIds = o.dmxIds) (h2 : o'.gainIdx = o.gainIdx)
    (h3 : o'.mods = o.mods) (h4 : o'.duck = o.duck) (h5 : o'.groupSet = o.groupSet) (h6 : o'.bandCount = o.bandCount)
    (h7 : o'.interp = o.interp) (h8 : o'.timeMin = o.timeMin) (h9 : o'.align = o.align) (h10 : o'.groupDuck = o.groupDuck)
    (h11 : o'.chGroup = o.chGroup) : InstrRoom o' :=
  ⟨h1 ▸ h.dmxIds, h2 ▸ h.gainIdx, h3 ▸ h.mods, h3 ▸ h.bands, h4 ▸ h.duck, h5 ▸ h.groupSet, h6 ▸ h.bandCount, h7 ▸ h.interp,
    h8 ▸ h.timeMin, h9 ▸ h.align, h10 ▸ h.groupDuck, h11 ▸ h.chGroup⟩

/-- What holds after the first part of an instruction. -/
structure HeadOk (o : Instr) : Prop where
  room : InstrRoom o
  id : 0 ≤ o.setId ∧ o.setId < 32
  count : 1 ≤ o.dmxCount
  dmx : ∃ d, o.dmxIds[0]? = some d ∧ (d = 0 → o.depends = 0)

theorem readDmxIds_meets (o : Instr) (ho : InstrRoom o) :
    Meets S (readDmxIds o) (fun o' => ∃ ids a n, o' = { o with dmxIds := ids, applyDmx := a, dmxCount := n } ∧
      ids.length = 8 ∧ 1 ≤ n) := by
  have hl := ho.dmxIds
  unfold readDmxIds
  refine Meets.bits_bind (by omega) fun d _ => ?_
  refine Meets.bind (Meets.setAt fun _ => by omega) fun ids hids => ?_
  have hil : ids.length = 8 := by rw [hids.1]; simpa using hl
  refine Meets.bits_bind (by omega) fun f _ => ?_
  refine Meets.ite (fun _ => Meets.pure ⟨ids, _, 1, rfl, hil, by omega⟩) fun _ => ?_
  refine Meets.bits_bind (by omega) fun n hn => ?_
  refine Meets.bind (R := fun (t : List Int) => t.length = 8) ?_ fun t ht => Meets.pure ⟨t, _, 1 + n, rfl, ht, by omega⟩
  refine Meets.foldN (fun _ (t : List Int) => t.length = 8) n 0 _ hil fun j t _ hj ht => ?_
  refine Meets.bits_bind (by omega) fun v _ => ?_
  exact (Meets.setAt fun _ => by omega).mono fun u hu => by simp [hu.1, ht]

theorem readTarget_meets (o : Instr) : Meets S (readTarget o) (fun o' => ∃ a b c d,
    o' = { o with targetPresent := a, upper := b, lowerPresent := c, lower := d }) := by
  unfold readTarget
  refine Meets.bits_bind (by omega) fun p _ => ?_
  refine Meets.ite (fun _ => ?_) fun _ => Meets.pure ⟨_, _, _, _, rfl⟩
  refine Meets.bits_bind (by omega) fun u _ => ?_
  refine Meets.bits_bind (by omega) fun lp _ => ?_
  exact Meets.ite (fun _ => Meets.bits_bind (by omega) fun v _ => Meets.pure ⟨_, _, _, _, rfl⟩) fun _ =>
    Meets.pure ⟨_, _, _, _, rfl⟩

theorem readHead_meets (o : Instr) (ho : InstrRoom o) : Meets S (readHead o) HeadOk := by
  unfold readHead
  refine Meets.bits_bind (by omega) fun id _ => ?_
  refine Meets.ite (fun _ => Meets.fail) fun hid => ?_
  refine Meets.bits_bind (by omega) fun loc _ => ?_
  refine Meets.bind (readDmxIds_meets _ (ho.congr rfl rfl rfl rfl rfl rfl rfl rfl rfl rfl rfl)) fun o1 ⟨ids, a, n, e1, hids, hn⟩ => ?_
  subst e1
  refine Meets.bits_bind (by omega) fun e _ => ?_
  refine Meets.bind (R := fun o' => ∃ p v, o' = { o with setId := id, loc := loc, dmxIds := ids, applyDmx := a, dmxCount := n, effect := e, peakPresent := p, peak := v }) ?_
    fun o2 ⟨p, v, e2⟩ => ?_
  · refine Meets.ite (fun _ => ?_) fun _ => Meets.pure ⟨_, _, rfl⟩
    refine Meets.bits_bind (by omega) fun p _ => ?_
    exact Meets.ite (fun _ => Meets.bits_bind (by omega) fun v _ => Meets.pure ⟨_, _, rfl⟩) fun _ => Meets.pure ⟨_, _, rfl⟩
  subst e2
  refine Meets.bind (readTarget_meets _) fun o3 ⟨t1, t2, t3, t4, e3⟩ => ?_
  subst e3
  refine Meets.bits_bind (by omega) fun dep _ => ?_
  refine Meets.bind (Meets.getAt fun _ => by dsimp only; omega) fun d hd => ?_
  dsimp only at hd
  have room : ∀ x y z, InstrRoom { o with setId := id, loc := loc, dmxIds := ids, applyDmx := a, dmxCount := n, effect := e, peakPresent := p, peak := v, targetPresent := t1, upper := t2, lowerPresent := t3, lower := t4, depends := x, noIndep := y, dependsOn := z } := by
    intro x y z
    exact ⟨hids, ho.gainIdx, ho.mods, ho.bands, ho.duck, ho.groupSet, ho.bandCount, ho.interp, ho.timeMin, ho.align, ho.groupDuck,
      ho.chGroup⟩
  refine Meets.ite (fun _ => Meets.fail) fun hdep => ?_
  refine Meets.ite (fun h0 => ?_) fun h0 => ?_
  · refine Meets.bits_bind (by omega) fun ni _ => Meets.pure ?_
    exact ⟨room _ _ _, ⟨by dsimp only; omega, by dsimp only; omega⟩, hn, d, hd, fun _ => h0⟩
  · refine Meets.bits_bind (by omega) fun on _ => Meets.pure ?_
    refine ⟨room _ _ _, ⟨by dsimp only; omega, by dsimp only; omega⟩, hn, d, hd, fun hz => ?_⟩
    exact absurd ⟨hz, h0⟩ hdep

/-- An instruction is about ducking. -/
def Ducks (o : Instr) : Prop := o.effect.testBit 10 = true ∨ o.effect.testBit 11 = true

instance (o : Instr) : Decidable (Ducks o) := inferInstanceAs (Decidable (_ ∨ _))

/-- An instruction that is accepted, but for what is taken from the coefficients. -/
structure InstrOk (env : Env) (cs : List Coeffs) (channels : Nat) (o : Instr) : Prop where
  id : 0 ≤ o.setId ∧ o.setId < 32
  groups : o.groups ≤ 16
  sets : HasSets o.groups o.groupSet
  dmx : ∃ d, o.dmxIds[0]? = some d ∧ (d ≠ 0 → o.groups = 1) ∧ (d = 0 → o.depends = 0)
  bands : Ducks o → ∀ k < o.groups, o.bandCount[k]? = some 1
  plain : ¬ Ducks o → ∀ d, o.dmxIds[0]? = some d → d ≠ 127 → o.dmxCount ≤ 1 →
    ∃ m, Covers env channels d m ∧ Grouped (setKey o.gainIdx) m o.chGroup o.groups ∧ Follows m o.chGroup o.groupSet o.gainIdx
  mods : ¬ Ducks o → ∃ m c, cs[m]? = some c ∧ c.loc = o.loc ∧
    (∀ (m' : Nat) (c' : Coeffs), m < m' → cs[m']? = some c' → c'.loc ≠ o.loc) ∧ Modded c o.groups o.groupSet o.mods
  any : ¬ Ducks o → ∀ d, o.dmxIds[0]? = some d → (d = 127 ∨ 1 < o.dmxCount) →
    o.groups ≤ 1 ∧ (o.groups = 1 → o.groupSet[0]? = o.gainIdx[0]?)
  self : o.effect.testBit 11 = true →
    Grouped (selfKey o.gainIdx o.duck) channels o.chGroup o.groups ∧ Follows channels o.chGroup o.groupSet o.gainIdx
  other : o.effect.testBit 11 = false → o.effect.testBit 10 = true →
    Grouped (otherKey o.gainIdx o.duck) channels o.chGroup o.groups ∧
      ∃ v, 0 ≤ v ∧ Driver o.gainIdx channels v ∧ ∀ k < o.groups, o.groupSet[k]? = some v
  factor : Ducks o → Ducked channels o.chGroup o.duck o.groupDuck

theorem lastAt_spec {cs : List Coeffs} {loc : Nat} {c : Coeffs} (h : lastAt cs loc = some c) :
    ∃ m, cs[m]? = some c ∧ c.loc = loc ∧ ∀ (m' : Nat) (c' : Coeffs), m < m' → cs[m']? = some c' → c'.loc ≠ loc := by
  obtain ⟨h1, m, hm, hmc, hfirst⟩ := List.find?_eq_some_iff_getElem.mp h
  have hm' : m < cs.length := by simpa using hm
  refine ⟨cs.length - 1 - m, ?_, by simpa using h1, ?_⟩
  · rw [← hmc, List.getElem_reverse]
    exact List.getElem?_eq_getElem _
  · intro m' c' h2 h3
    obtain ⟨w, hw⟩ := List.getElem?_eq_some_iff.mp h3
    have := hfirst (cs.length - 1 - m') (by omega)
    rw [List.getElem_reverse] at this
    have e : cs.length - 1 - (cs.length - 1 - m') = m' := by omega
    simp only [e, hw] at this
    simpa using this

theorem readInstr_meets (env : Env) (cs : List Coeffs) (hcs : ∀ c ∈ cs, CoeffsOk c) (channels : Nat) (o : Instr) (ho : InstrRoom o) :
    Meets S (readInstr env cs channels o) (fun o' => InstrRoom o' ∧ InstrOk env cs channels o' ∧ channels ≤ 16) := by
  unfold readInstr
  refine Meets.bind (readHead_meets o ho) fun h hh => ?_
  split
  · exact Meets.fail
  rename_i c hc
  have hlast := lastAt_spec hc
  have hc : CoeffsOk c := hcs c (by simpa using List.mem_of_find?_eq_some hc)
  refine Meets.ite (fun _ => Meets.fail) fun hch => ?_
  obtain ⟨d, hd, hdep⟩ := hh.dmx
  by_cases hduck : (!duckOther h.effect && !duckSelf h.effect) = true
  · rw [if_pos hduck]
    have hnot : h.effect.testBit 10 = false ∧ h.effect.testBit 11 = false := by
      simpa [duckOther, duckSelf] using hduck
    refine Meets.bind (plainBody_meets env c hc channels h hh.room hh.count) fun o' ⟨xs, of, n, gs, ms, d', e, room, hn, hs, hmod, hd', p1, p2⟩ => ?_
    subst e
    rw [hd] at hd'
    have hd' := Option.some.inj hd'
    subst hd'
    refine Meets.bind (Meets.getAt fun _ => by rw [room.dmxIds]; omega) fun d2 hd2 => ?_
    dsimp only at hd2
    rw [hd] at hd2
    have hd2 := Option.some.inj hd2
    subst hd2
    refine Meets.ite (fun _ => Meets.fail) fun hone => Meets.pure ⟨room, ⟨hh.id, hn, hs, ⟨d, hd, ?_, hdep⟩, ?_, ?_, ?_, ?_, ?_, ?_, ?_⟩, by omega⟩
    · intro h0
      by_contra h1
      exact hone ⟨h0, h1⟩
    · intro hdk
      exact absurd hdk (by simp [Ducks, hnot])
    · intro _ d3 hd3 h127 hcount
      dsimp only at hd3 hcount
      rw [hd] at hd3
      have hd3 := Option.some.inj hd3
      subst hd3
      exact p1 (by omega)
    · intro _
      obtain ⟨m, m1, m2, m3⟩ := hlast
      exact ⟨m, c, m1, m2, m3, hmod⟩
    · intro _ d3 hd3 hany
      dsimp only at hd3 hany
      rw [hd] at hd3
      have hd3 := Option.some.inj hd3
      subst hd3
      exact p2 hany
    · intro h'
      dsimp only at h'
      rw [hnot.2] at h'
      simp at h'
    · intro _ h'
      dsimp only at h'
      rw [hnot.1] at h'
      simp at h'
    · intro hdk
      exact absurd hdk (by simp [Ducks, hnot])
  · rw [if_neg hduck]
    have hsome : duckSelf h.effect = false → duckOther h.effect = true := by
      intro hs
      simpa [hs] using hduck
    refine Meets.bind (duckBody_meets channels (by omega) h hh.room hsome) fun o' ⟨xs, ds, of, n, gs, gd, bs, e, room, hn, hs, hb, p1, p2, p3⟩ => ?_
    subst e
    refine Meets.bind (Meets.getAt fun _ => by rw [room.dmxIds]; omega) fun d2 hd2 => ?_
    dsimp only at hd2
    rw [hd] at hd2
    have hd2 := Option.some.inj hd2
    subst hd2
    have hdk : h.effect.testBit 10 = true ∨ h.effect.testBit 11 = true := by
      cases hs : duckSelf h.effect with
      | true => exact Or.inr hs
      | false => exact Or.inl (hsome hs)
    refine Meets.ite (fun _ => Meets.fail) fun hone => Meets.pure ⟨room, ⟨hh.id, hn, hs, ⟨d, hd, ?_, hdep⟩, fun _ => hb, ?_, ?_, ?_, p1, p2, fun _ => p3⟩, by omega⟩
    · intro h0
      by_contra h1
      exact hone ⟨h0, h1⟩
    · intro hno
      exact absurd hdk hno
    · intro hno
      exact absurd hdk hno
    · intro hno
      exact absurd hdk hno

/-! ## What is taken from the coefficients -/

/-- An instruction agrees with the first coefficients of its location. -/
structure Derived (env : Env) (cs : List Coeffs) (o : Instr) : Prop where
  coeffs : ∃ m c, cs[m]? = some c ∧ c.loc = o.loc ∧ (∀ (m' : Nat) (c' : Coeffs), m' < m → cs[m']? = some c' → c'.loc ≠ o.loc) ∧
    ∀ k < o.groups, ∃ v s, o.groupSet[k]? = some v ∧ 0 ≤ v ∧ v < c.count ∧ c.sets[v.toNat]? = some s ∧
      o.interp[k]? = some 1 ∧ o.timeMin[k]? = some env.dt ∧ o.align[k]? = some s.align ∧
      o.bandCount[k]? = some (if Ducks o then 1 else s.bands) ∧ s.bands ≤ 4
  elements : o.elements = ((List.range o.groups).map fun k => (o.bandCount[k]?).getD 0).sum

theorem derive_meets (env : Env) (cs : List Coeffs) (hcs : ∀ c ∈ cs, CoeffsOk c) (channels : Nat) (o : Instr) (ho : InstrRoom o)
    (hk : InstrOk env cs channels o) :
    Meets S (derive env cs o) (fun o' => InstrRoom o' ∧ InstrOk env cs channels o' ∧ Derived env cs o') := by
  unfold derive
  split
  · exact Meets.fail
  rename_i c hc
  have hcok : CoeffsOk c := hcs c (List.mem_of_find?_eq_some hc)
  obtain ⟨hloc, m, hm, hmc, hfirst⟩ := List.find?_eq_some_iff_getElem.mp hc
  have hloc : c.loc = o.loc := by simpa using hloc
  have hgl := ho.groupSet
  have hg16 := hk.groups
  have loop := Meets.foldN (S := S) (f := deriveStep env c o.groupSet)
    (fun j s => s.1.length = 24 ∧ s.2.1.length = 24 ∧ s.2.2.length = 24 ∧ ∀ i < j, ∃ v g, o.groupSet[i]? = some v ∧ 0 ≤ v ∧
      v < c.count ∧ c.sets[v.toNat]? = some g ∧ s.1[i]? = some 1 ∧ s.2.1[i]? = some env.dt ∧ s.2.2[i]? = some g.align ∧ g.bands ≤ 4)
    o.groups 0 (o.interp, o.timeMin, o.align) ⟨ho.interp, ho.timeMin, ho.align, by simp⟩ ?_
  · rw [Nat.zero_add] at loop
    refine Meets.bind loop fun s ⟨s1, s2, s3, s4⟩ => ?_
    by_cases hd : (duckOther o.effect || duckSelf o.effect) = true
    · rw [if_pos hd]
      have hdk : Ducks o := by simpa [Ducks, duckOther, duckSelf] using hd
      refine Meets.pure ⟨⟨ho.dmxIds, ho.gainIdx, ho.mods, ho.bands, ho.duck, ho.groupSet, ho.bandCount, s1, s2, s3, ho.groupDuck,
        ho.chGroup⟩, ⟨hk.id, hk.groups, hk.sets, hk.dmx, hk.bands, hk.plain, hk.mods, hk.any, hk.self, hk.other, hk.factor⟩, ⟨m, c, ?_, hloc, ?_, ?_⟩, ?_⟩
      · rw [List.getElem?_eq_getElem hm, hmc]
      · intro m' c' h1 h2
        have := hfirst m' h1
        obtain ⟨w, hw⟩ := List.getElem?_eq_some_iff.mp h2
        rw [hw] at this
        simpa using this
      · intro k hk'
        obtain ⟨v, g, a1, a2, a3, a4, a5, a6, a7, a8⟩ := s4 k hk'
        refine ⟨v, g, a1, a2, a3, a4, a5, a6, a7, ?_, a8⟩
        exact (hk.bands hdk k hk').trans (congrArg some (if_pos hdk).symm)
      · dsimp only
        have : ∀ n ≤ o.groups, n = ((List.range n).map fun k => (o.bandCount[k]?).getD 0).sum := by
          intro n hn
          induction n with
          | zero => simp
          | succ n ih =>
            rw [List.range_succ, List.map_append, List.sum_append, ← ih (by omega)]
            simp [hk.bands hdk n (by omega)]
        exact this _ (Nat.le_refl _)
    · rw [if_neg hd]
      have hdk : ¬ Ducks o := by simpa [Ducks, duckOther, duckSelf] using hd
      let bandsAt : Nat → Nat := fun i => (((o.groupSet[i]?).bind fun v => c.sets[v.toNat]?).map GainSet.bands).getD 0
      have hbands : ∀ i < o.groups, ∃ v g, o.groupSet[i]? = some v ∧ 0 ≤ v ∧ c.sets[v.toNat]? = some g ∧ bandsAt i = g.bands := by
        intro i hi
        obtain ⟨v, g, a1, a2, a3, a4, _⟩ := s4 i hi
        exact ⟨v, g, a1, a2, a4, by simp [bandsAt, a1, a4]⟩
      have loop2 := Meets.foldN (S := S) (f := bandsStep c o.groupSet)
        (fun j t => t.1.length = 24 ∧ (∀ i < j, t.1[i]? = some (bandsAt i)) ∧ t.2 = ((List.range j).map bandsAt).sum)
        o.groups 0 (o.bandCount, 0) ⟨ho.bandCount, by simp, by simp⟩ ?_
      · rw [Nat.zero_add] at loop2
        refine Meets.bind loop2 fun t ⟨t1, t2, t3⟩ => Meets.pure ⟨⟨ho.dmxIds, ho.gainIdx, ho.mods, ho.bands, ho.duck, ho.groupSet,
          t1, s1, s2, s3, ho.groupDuck, ho.chGroup⟩, ⟨hk.id, hk.groups, hk.sets, hk.dmx, fun h => absurd h hdk, hk.plain, hk.mods, hk.any,
          hk.self, hk.other, hk.factor⟩, ⟨m, c, ?_, hloc, ?_, ?_⟩, ?_⟩
        · rw [List.getElem?_eq_getElem hm, hmc]
        · intro m' c' h1 h2
          have := hfirst m' h1
          obtain ⟨w, hw⟩ := List.getElem?_eq_some_iff.mp h2
          rw [hw] at this
          simpa using this
        · intro k hk'
          obtain ⟨v, g, a1, a2, a3, a4, a5, a6, a7, a8⟩ := s4 k hk'
          refine ⟨v, g, a1, a2, a3, a4, a5, a6, a7, ?_, a8⟩
          refine ((t2 k hk').trans ?_).trans (congrArg some (if_neg hdk).symm)
          simp [bandsAt, a1, a4]
        · dsimp only
          rw [t3]
          congr 1
          refine List.map_congr_left fun k hk' => ?_
          rw [t2 k (by simpa using hk')]
          rfl
      intro j t _ hj ⟨t1, t2, t3⟩
      unfold bandsStep
      obtain ⟨v, g, a1, a2, a3, a4⟩ := hbands j (by omega)
      refine Meets.bind (Meets.getAt fun _ => by omega) fun seq hseq => ?_
      rw [a1] at hseq
      have hseq := Option.some.inj hseq
      subst hseq
      rw [if_neg (by omega)]
      refine Meets.bind (Meets.getAt fun _ => (List.getElem?_eq_some_iff.mp a3).1) fun g' hg' => ?_
      rw [a3] at hg'
      have hg' := Option.some.inj hg'
      subst hg'
      refine Meets.bind (Meets.setAt fun _ => by omega) fun bs hbs => Meets.pure ⟨by simp [hbs.1, t1], ?_, ?_⟩
      · intro i hi
        dsimp only
        rw [hbs.1]
        by_cases e : i = j
        · subst e
          rw [List.getElem?_set_self (by omega), a4]
        · rw [List.getElem?_set_ne (by omega)]
          exact t2 i (by omega)
      · dsimp only
        rw [List.range_succ, List.map_append, List.sum_append, t3]
        simp [a4]
  intro j s _ hj ⟨s1, s2, s3, s4⟩
  unfold deriveStep
  obtain ⟨v, a1, a2, a3⟩ := hk.sets j (by omega)
  refine Meets.bind (Meets.getAt fun _ => by omega) fun seq hseq => ?_
  rw [a1] at hseq
  have hseq := Option.some.inj hseq
  subst hseq
  refine Meets.ite (fun _ => Meets.fail) fun hlt => ?_
  rw [if_neg (by omega)]
  obtain ⟨g, g1, g2⟩ := hcok.sets v.toNat (by omega)
  refine Meets.bind (Meets.getAt fun _ => (List.getElem?_eq_some_iff.mp g1).1) fun g' hg' => ?_
  rw [g1] at hg'
  have hg' := Option.some.inj hg'
  subst hg'
  refine Meets.bind (Meets.setAt fun _ => by omega) fun a ha => ?_
  refine Meets.bind (Meets.setAt fun _ => by omega) fun b hb => ?_
  refine Meets.bind (Meets.setAt fun _ => by omega) fun d hd => Meets.pure ⟨by simp [ha.1, s1], by simp [hb.1, s2], by simp [hd.1, s3], ?_⟩
  intro i hi
  dsimp only
  rw [ha.1, hb.1, hd.1]
  by_cases e : i = j
  · subst e
    rw [List.getElem?_set_self (by omega), List.getElem?_set_self (by omega), List.getElem?_set_self (by omega), g2.interp, g2.flag]
    exact ⟨v, g, a1, a2, by omega, g1, rfl, rfl, rfl, g2.bands⟩
  · rw [List.getElem?_set_ne (by omega), List.getElem?_set_ne (by omega), List.getElem?_set_ne (by omega)]
    exact s4 i (by omega)

/-! ## The configuration -/

theorem readKind_meets (o : Instr) : Meets S (readKind o) (fun o' => ∃ a b c, o' = { o with kind := a, group := b, preset := c }) := by
  unfold readKind
  refine Meets.bits_bind (by omega) fun k _ => ?_
  refine Meets.ite (fun _ => Meets.pure ⟨_, _, _, rfl⟩) fun _ => ?_
  refine Meets.bits_bind (by omega) fun k _ => ?_
  exact Meets.ite (fun _ => Meets.bits_bind (by omega) fun v _ => Meets.pure ⟨_, _, _, rfl⟩) fun _ =>
    Meets.bits_bind (by omega) fun v _ => Meets.pure ⟨_, _, _, rfl⟩

theorem readExt_meets : Meets S readExt (fun _ => True) := by
  unfold readExt
  refine Meets.bits_bind (by omega) fun t _ => ?_
  refine Meets.ite (fun _ => Meets.pure trivial) fun _ => ?_
  refine Meets.bits_bind (by omega) fun w hw => ?_
  refine Meets.bits_bind (by omega) fun n _ => ?_
  refine Meets.bind (DrcLoud.skipBits_safe _).meets fun _ _ => ?_
  refine Meets.bits_bind (by omega) fun t _ => ?_
  exact Meets.ite (fun _ => Meets.pure trivial) fun _ => Meets.fail

/-- An instruction that stands for no DRC. -/
structure IsOff (id dmx : Int) (o : Instr) : Prop where
  id : o.setId = id
  dmx : o.dmxIds[0]? = some dmx
  count : o.dmxCount = 1
  groups : o.groups = 0
  elements : o.elements = 0
  depends : o.depends = 0
  use : o.noIndep = 0

/-- A configuration that is accepted. -/
structure ConfigOk (env : Env) (c : Config) : Prop where
  coeffCount : c.coeffCount ≤ 4
  coeffs : ∀ k < c.coeffCount, ∃ o, c.coeffs[k]? = some o ∧ CoeffsOk o
  instrs : ∀ k < c.instrCount, ∃ o, c.instrs[k]? = some o ∧ InstrOk env (c.coeffs.take c.coeffCount) c.channels o ∧
    Derived env (c.coeffs.take c.coeffCount) o
  channels : 0 < c.instrCount → c.channels ≤ 16
  plus : c.plus = c.instrCount + 2 ∧ c.plus ≤ c.instrs.length
  off : ∃ a b, c.instrs[c.instrCount]? = some a ∧ IsOff (-1) 0 a ∧ c.instrs[c.instrCount + 1]? = some b ∧ IsOff (-2) (-1) b

theorem readConfig_meets (env : Env) (n m : Nat) (c : Config) (hc : Sized n m c) :
    Meets (63 ≤ n ∧ 33 ≤ m) (readConfig env c) (ConfigOk env) := by
  unfold readConfig
  refine Meets.bits_bind (by omega) fun nc _ => ?_
  refine Meets.ite (fun _ => Meets.fail) fun hnc => ?_
  refine Meets.bits_bind (by omega) fun ni _ => ?_
  refine Meets.ite (fun _ => Meets.fail) fun hni => ?_
  refine Meets.bits_bind (by omega) fun ch _ => ?_
  have loop1 := Meets.foldN (S := 63 ≤ n ∧ 33 ≤ m) (f := fun k cs => do
        let o ← getAt cs k
        let o ← readCoeffs o
        setAt cs k o)
    (fun j cs => cs.length = 4 ∧ (∀ o ∈ cs, o.sets.length = n ∧ SetRoom o.sets) ∧
      ∀ k < j, ∃ o, cs[k]? = some o ∧ CoeffsOk o) nc 0 c.coeffs ⟨hc.coeffs, hc.sets, by simp⟩ ?_
  swap
  · intro j cs _ hj ⟨c1, c2, c3⟩
    refine Meets.bind (Meets.getAt fun _ => by omega) fun o ho => ?_
    obtain ⟨o1, o2⟩ := c2 o (List.mem_of_getElem? ho)
    have hread : Meets (63 ≤ n ∧ 33 ≤ m) (readCoeffs o) (fun r => CoeffsOk r ∧ r.sets.length = n ∧ SetRoom r.sets) :=
      fun l => ⟨fun s => (readCoeffs_meets n o o1 o2 l).1 s.1, (readCoeffs_meets n o o1 o2 l).2⟩
    refine Meets.bind hread fun r ⟨r1, r2, r3⟩ => ?_
    refine (Meets.setAt fun _ => by omega).mono fun t ht => ?_
    rw [ht.1]
    refine ⟨by simpa using c1, ?_, ?_⟩
    · intro x hx
      rcases List.mem_or_eq_of_mem_set hx with h | rfl
      · exact c2 x h
      · exact ⟨r2, r3⟩
    · intro k hk
      by_cases e : k = j
      · subst e
        exact ⟨r, by rw [List.getElem?_set_self (by omega)], r1⟩
      · rw [List.getElem?_set_ne (by omega)]
        exact c3 k (by omega)
  rw [Nat.zero_add] at loop1
  refine Meets.bind loop1 fun cs ⟨c1, c2, c3⟩ => ?_
  have hcs : ∀ x ∈ cs.take nc, CoeffsOk x := by
    intro x hx
    obtain ⟨k, hk⟩ := List.mem_iff_getElem?.mp hx
    rw [List.getElem?_take] at hk
    split at hk
    · obtain ⟨o, o1, o2⟩ := c3 k ‹_›
      rw [hk] at o1
      rw [Option.some.inj o1]
      exact o2
    · simp at hk
  have loop2 := Meets.foldN (S := 63 ≤ n ∧ 33 ≤ m) (f := instrStep env (cs.take nc) ch)
    (fun j is => is.length = m ∧ (∀ o ∈ is, InstrRoom o) ∧ (0 < j → ch ≤ 16) ∧
      ∀ k < j, ∃ o, is[k]? = some o ∧ InstrOk env (cs.take nc) ch o) ni 0 c.instrs ⟨hc.instrs, hc.room, by simp, by simp⟩ ?_
  swap
  · intro j is _ hj ⟨i1, i2, _, i4⟩
    unfold instrStep
    refine Meets.bind (Meets.getAt fun _ => by omega) fun o ho => ?_
    refine Meets.bind (readKind_meets o) fun o1 ⟨a, b, d, e⟩ => ?_
    subst e
    have hroom : InstrRoom o := i2 o (List.mem_of_getElem? ho)
    refine Meets.bind (readInstr_meets env _ hcs ch _ (hroom.congr rfl rfl rfl rfl rfl rfl rfl rfl rfl rfl rfl))
      fun r ⟨r1, r2, r3⟩ => ?_
    refine (Meets.setAt fun _ => by omega).mono fun t ht => ?_
    rw [ht.1]
    refine ⟨by simpa using i1, ?_, fun _ => r3, ?_⟩
    · intro x hx
      rcases List.mem_or_eq_of_mem_set hx with h | rfl
      · exact i2 x h
      · exact r1
    · intro k hk
      by_cases e : k = j
      · subst e
        exact ⟨r, by rw [List.getElem?_set_self ht.2], r2⟩
      · rw [List.getElem?_set_ne (by omega)]
        exact i4 k (by omega)
  rw [Nat.zero_add] at loop2
  refine Meets.bind loop2 fun is ⟨i1, i2, i3, i4⟩ => ?_
  refine Meets.bits_bind (by omega) fun e _ => ?_
  refine Meets.bind (R := fun _ => True) ?_ fun _ _ => ?_
  · unfold Prog.when
    exact Meets.ite (fun _ => readExt_meets) fun _ => Meets.pure trivial
  refine Meets.bits_bind (by omega) fun li _ => ?_
  refine Meets.ite (fun _ => Meets.fail) fun _ => ?_
  have loop3 := Meets.foldN (S := 63 ≤ n ∧ 33 ≤ m) (f := derivedStep env (cs.take nc))
    (fun j is => is.length = m ∧ (∀ k < ni, ∃ o, is[k]? = some o ∧ InstrRoom o ∧ InstrOk env (cs.take nc) ch o) ∧
      ∀ k < j, ∃ o, is[k]? = some o ∧ InstrOk env (cs.take nc) ch o ∧ Derived env (cs.take nc) o) ni 0 is
    ⟨i1, fun k hk => ?_, by simp⟩ ?_
  · rw [Nat.zero_add] at loop3
    refine Meets.bind loop3 fun is' ⟨j1, _, j3⟩ => ?_
    refine Meets.ite (fun _ => Meets.fail) fun h32 => ?_
    unfold drcOff
    refine Meets.bind (Meets.setAt fun _ => by dsimp only; omega) fun t1 ht1 => ?_
    refine Meets.bind (Meets.setAt fun _ => by rw [ht1.1, List.length_set]; dsimp only; omega) fun t2 ht2 => Meets.pure ?_
    have ht1' := ht1.1
    have h1l := ht1.2
    have h2l := ht2.2
    rw [ht1.1, List.length_set] at h2l
    dsimp only at ht1' h1l h2l
    refine ⟨by dsimp only; omega, c3, ?_, i3, ⟨rfl, ?_⟩, ?_⟩
    · intro k hk
      dsimp only at hk ⊢
      obtain ⟨o, o1, o2⟩ := j3 k hk
      refine ⟨o, ?_, o2⟩
      rw [ht2.1, ht1', List.getElem?_set_ne (by dsimp only; omega), List.getElem?_set_ne (by omega)]
      exact o1
    · dsimp only
      rw [ht2.1, ht1', List.length_set, List.length_set]
      omega
    · refine ⟨offInstr (-1) 0, offInstr (-2) (-1), ?_, ⟨rfl, rfl, rfl, rfl, rfl, rfl, rfl⟩, ?_, ⟨rfl, rfl, rfl, rfl, rfl, rfl, rfl⟩⟩
      · dsimp only
        rw [ht2.1, ht1', List.getElem?_set_ne (by dsimp only; omega), List.getElem?_set_self h1l]
      · dsimp only
        rw [ht2.1, List.getElem?_set_self ht2.2]
  · obtain ⟨o, o1, o2⟩ := i4 k hk
    exact ⟨o, o1, i2 o (List.mem_of_getElem? o1), o2⟩
  · intro j is _ hj ⟨j1, j2, j3⟩
    unfold derivedStep
    obtain ⟨o, o1, o2, o3⟩ := j2 j (by omega)
    refine Meets.bind (Meets.getAt fun _ => (List.getElem?_eq_some_iff.mp o1).1) fun o' ho' => ?_
    rw [o1] at ho'
    have ho' := Option.some.inj ho'
    subst ho'
    refine Meets.bind (derive_meets env _ hcs ch o o2 o3) fun r ⟨r1, r2, r3⟩ => ?_
    refine (Meets.setAt fun _ => (List.getElem?_eq_some_iff.mp o1).1).mono fun t ht => ?_
    rw [ht.1]
    refine ⟨by simpa using j1, ?_, ?_⟩
    · intro k hk
      by_cases e : k = j
      · subst e
        exact ⟨r, by rw [List.getElem?_set_self ht.2], r1, r2⟩
      · rw [List.getElem?_set_ne (by omega)]
        exact j2 k hk
    · intro k hk
      by_cases e : k = j
      · subst e
        exact ⟨r, by rw [List.getElem?_set_self ht.2], r2, r3⟩
      · rw [List.getElem?_set_ne (by omega)]
        exact j3 k (by omega)

end Verif.DrcConfig
