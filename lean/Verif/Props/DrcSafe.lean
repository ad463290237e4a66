import Mathlib.Tactic.Ring
import Verif.Spec.DrcGain
import Verif.Model.DrcGain
import Verif.Proofs.Safe
import Verif.Props.Huff
import Verif.Props.TimeCode

/-! # What the gain parser returns -/

namespace Verif.DrcGain

open Prog Huff

/-! ## Time differences -/

/-- A time table from entry 1 on: it ends with an unused entry and time differences are positive. -/
structure Ended (t : List Code) : Prop where
  val : ∀ e ∈ t, e.size = 0 ∨ 1 ≤ e.val
  last : ∃ r z, t = r ++ [z] ∧ z.size = 0

theorem matchRun_ended (n code : Nat) (hn : 0 < n) (t : List Code) (h : Ended t) :
    (∃ v, matchRun n code t = .value v ∧ 1 ≤ v) ∨ ∃ t', matchRun n code t = .more t' ∧ Ended t' := by
  induction t with
  | nil =>
    obtain ⟨r, z, hz, _⟩ := h.last
    simp at hz
  | cons e t ih =>
    unfold matchRun
    by_cases h1 : n = e.size
    · rw [if_pos h1]
      by_cases h2 : code = e.code
      · rw [if_pos h2]
        refine Or.inl ⟨_, rfl, ?_⟩
        rcases h.val e (by simp) with h3 | h3
        · omega
        · exact h3
      · rw [if_neg h2]
        refine ih ⟨fun x hx => h.val x (by simp [hx]), ?_⟩
        obtain ⟨r, z, hz, hz0⟩ := h.last
        cases r with
        | nil =>
          simp at hz
          rw [← hz.1] at hz0
          omega
        | cons r0 r =>
          simp at hz
          exact ⟨r, z, hz.2, hz0⟩
    · rw [if_neg h1]
      exact Or.inr ⟨_, rfl, h⟩

theorem readHalf_safe (m n code : Nat) :
    Safe (readHalf m n code) (fun r => n ≤ r.1 ∧ (0 < m → n < r.1)) := by
  induction m using Nat.strongRecOn generalizing n code with
  | ind m ih =>
    match m with
    | 0 => exact Safe.pure ⟨Nat.le_refl _, by omega⟩
    | 1 => exact Safe.bits_bind (by omega) fun b _ => Safe.pure ⟨by omega, by omega⟩
    | m + 2 =>
      unfold readHalf
      exact Safe.bits_bind (by omega) fun b _ => (ih m (by omega) (n + 1) _).mono fun r hr => ⟨by omega, by omega⟩

theorem updateLoop_safe (fuel : Nat) (n code : Nat) (t : List Code) (h : Ended t)
    (hn : 0 < n ∨ ∃ e r, t = e :: r ∧ 0 < e.size) : Safe (updateLoop true fuel n code t) (fun v => 1 ≤ v) := by
  induction fuel generalizing n code t with
  | zero => exact Safe.fail
  | succ fuel ih =>
    cases t with
    | nil => exact Safe.fail
    | cons e t =>
      unfold updateLoop
      refine Safe.bind (readHalf_safe _ _ _) fun r hr => ?_
      obtain ⟨n', code'⟩ := r
      have hpos : 0 < n' := by
        rcases hn with hn | ⟨e', r', he, hs⟩
        · have := hr.1; dsimp only at this; omega
        · simp at he
          rw [← he.1] at hs
          have := hr.1
          have := hr.2
          dsimp only at *
          omega
      dsimp only
      rcases matchRun_ended n' code' hpos _ h with ⟨v, hv, h1⟩ | ⟨t', ht, he⟩
      · rw [hv]
        exact Safe.pure h1
      · rw [ht]
        exact ih n' code' t' he (Or.inl hpos)

/-- The parameters of the gain parser are in order: decoding a time difference is well defined and
gives at least 1. -/
structure Timed (p : Par) : Prop where
  dt : 1 ≤ p.dt
  dt_le : p.dt ≤ 1024
  time : Safe (updateValue p.table true) (fun v => 1 ≤ v)

theorem timed_of_ended (p : Par) (h1 : 1 ≤ p.dt) (h2 : p.dt ≤ 1024) (he : Ended (p.table.drop 1))
    (hs : ∃ e r, p.table.drop 1 = e :: r ∧ 0 < e.size) : Timed p :=
  ⟨h1, h2, by
    unfold updateValue
    rw [if_pos rfl]
    exact updateLoop_safe _ _ _ _ he (Or.inr hs)⟩

/-- The parameters the decoder has at a sampling rate: the memory for the table is cleared at first. -/
def parAt (rate : Nat) : Res Par :=
  (initTimeTable (List.replicate timeEntries ⟨0, 0, 0⟩) rate 1024).map fun t => ⟨deltaTmin rate, t⟩

open TimeCode in
/-- At every sampling rate from 3000 Hz on the parameters are in order, if the decoder accepts the rate. -/
theorem parAt_timed (rate : Nat) (h : 3000 ≤ rate) (p : Par) (hp : parAt rate = .ok p) : Timed p ∧
    p.dt = deltaTmin rate ∧ ∃ e0 j, p.table = e0 :: ((List.range' 1 (maxDelta (1024 / p.dt))).map
      (entry (Nat.clog 2 (2 * (1024 / p.dt)))) ++ j) ∧ 1 ≤ 1024 / p.dt ∧ 2 * (1024 / p.dt) ≤ 2 ^ 22 := by
  have hd : 4 ≤ deltaTmin rate := four_le h
  unfold parAt initTimeTable at hp
  split at hp
  · simp [Res.map] at hp
  split at hp
  · simp [Res.map] at hp
  split at hp
  · simp [Res.map] at hp
  rename_i h1 h2 h3
  have hn : 1 ≤ 1024 / deltaTmin rate := Nat.div_pos (by omega) (by omega)
  have hn' : 1024 / deltaTmin rate ≤ 256 := by
    have := Nat.div_le_div (Nat.le_refl 1024) hd (by omega)
    omega
  generalize hv : 1024 / deltaTmin rate = v at hn hn'
  rw [hv, createTimeTable_full _ v hn (by omega) (by rw [List.length_replicate]; unfold maxDelta timeEntries; omega)] at hp
  simp only [Res.map, Res.ok.injEq] at hp
  subst hp
  dsimp only
  rw [hv]
  refine ⟨timed_of_ended _ (by dsimp only; omega) (by dsimp only; omega) ⟨?_, ?_⟩ ?_, rfl, _, _, rfl, hn, by omega⟩
  · simp only [List.drop_one, List.tail_cons]
    intro e he
    rcases List.mem_append.mp he with he | he
    · obtain ⟨d, hd, rfl⟩ := List.mem_map.mp he
      have := List.mem_range'_1.mp hd
      right
      unfold entry
      split
      · simp
      · split
        · simp; omega
        · split <;> simp <;> omega
    · rw [List.drop_replicate] at he
      left
      rw [(List.mem_replicate.mp he).2]
  · simp only [List.drop_one, List.tail_cons, List.drop_replicate]
    have hm : maxDelta v ≤ 512 := by unfold maxDelta; omega
    obtain ⟨k, hk⟩ : ∃ k, timeEntries - (maxDelta v + 1) = k + 1 :=
      ⟨timeEntries - (maxDelta v + 1) - 1, by unfold timeEntries; omega⟩
    rw [hk, List.replicate_succ', ← List.append_assoc]
    exact ⟨_, _, rfl, rfl⟩
  · simp only [List.drop_one, List.tail_cons]
    obtain ⟨k, hk⟩ : ∃ k, maxDelta v = k + 1 := ⟨maxDelta v - 1, by unfold maxDelta; omega⟩
    rw [hk, List.range'_succ, List.map_cons, List.cons_append]
    exact ⟨_, _, rfl, by simp [entry]⟩

/-! ## Gain differences -/

theorem gain_safe (profile : Nat) : Safe (updateValue (gainTable profile) false) (fun _ => True) := by
  intro l
  refine ⟨?_, fun _ _ _ => trivial⟩
  unfold gainTable
  obtain ⟨h1, h2, _⟩ := C46_drc l
  split
  · rcases h2 with ⟨e, _, r, _, h⟩ | ⟨_, h⟩ <;> rw [h] <;> simp
  · rcases h1 with ⟨e, _, r, _, h⟩ | ⟨_, h⟩ <;> rw [h] <;> simp

theorem safe_flag : Safe flag (fun _ => True) := by
  unfold flag
  exact Safe.bits_bind (by omega) fun _ _ => Safe.pure trivial

/-! ## Nodes -/

/-- `pstr_node[k].time = t` as a function. -/
def upd (nodes : List Node) (k : Nat) (t : Int) : List Node := nodes.modify k fun c => { c with time := t }

/-- Times and gains of the nodes. -/
abbrev times (nodes : List Node) : List Int := nodes.map (·.time)
abbrev gains (nodes : List Node) : List Int := nodes.map (·.gain)

theorem upd_length (nodes : List Node) (k : Nat) (t : Int) : (upd nodes k t).length = nodes.length := by
  simp [upd]

theorem upd_times (nodes : List Node) (k : Nat) (t : Int) : times (upd nodes k t) = (times nodes).set k t := by
  apply List.ext_getElem?
  intro i
  simp only [times, upd, List.getElem?_map, List.getElem?_modify, List.getElem?_set, List.length_map]
  by_cases h : k = i
  · subst h
    by_cases h2 : k < nodes.length
    · simp [h2]
    · simp [List.getElem?_eq_none (by omega : nodes.length ≤ k), h2]
  · simp [h]

theorem upd_gains (nodes : List Node) (k : Nat) (t : Int) : gains (upd nodes k t) = gains nodes := by
  apply List.ext_getElem?
  intro i
  simp only [gains, upd, List.getElem?_map, List.getElem?_modify]
  cases nodes[i]? with
  | none => rfl
  | some c => by_cases h : k = i <;> simp [h]

theorem getAt_eq {α : Type} {tbl : List α} {i : Nat} (h : i < tbl.length) : getAt tbl i = pure tbl[i] := by
  simp [getAt, List.getElem?_eq_getElem h]

theorem setAt_eq {α : Type} {tbl : List α} {i : Nat} {v : α} (h : i < tbl.length) :
    setAt tbl i v = pure (tbl.set i v) := by simp [setAt, h]

theorem pure_bind_eq {α β : Type} (a : α) (f : α → Prog β) : (pure a >>= f) = f a := rfl

theorem setTime_eq (nodes : List Node) (k : Nat) (t : Int) (h : k < nodes.length) :
    setTime nodes k t = pure (upd nodes k t) := by
  unfold setTime
  rw [getAt_eq h, pure_bind_eq, setAt_eq h]
  congr 1
  apply List.ext_getElem?
  intro i
  simp only [upd, List.getElem?_modify, List.getElem?_set]
  by_cases hk : k = i
  · subst hk
    simp [h]
  · simp [hk]

theorem take_set_succ {α : Type} (l : List α) (k : Nat) (a : α) (h : k < l.length) :
    (l.set k a).take (k + 1) = l.take k ++ [a] := by
  rw [List.take_succ_eq_append_getElem (by simpa using h)]
  simp [List.take_set_of_le]

/-! ## Decoding times -/

theorem sums_append (dt : Nat) (off : Int) (ds : List Nat) (d : Nat) :
    sums dt off (ds ++ [d]) = sums dt off ds ++ [off + (ds.sum : Nat) * dt + d * dt] := by
  induction ds generalizing off with
  | nil => simp [sums]
  | cons e ds ih =>
    simp only [List.cons_append, sums, ih, List.sum_cons, List.cons.injEq, true_and]
    congr 2
    push_cast
    ring

theorem sums_length (dt : Nat) (off : Int) (ds : List Nat) : (sums dt off ds).length = ds.length := by
  induction ds generalizing off with
  | nil => rfl
  | cons e ds ih => simp [sums, ih]

theorem sums_ge (dt : Nat) (off : Int) (ds : List Nat) (h : ∀ d ∈ ds, 1 ≤ d) :
    ∀ t ∈ sums dt off ds, off + dt ≤ t := by
  induction ds generalizing off with
  | nil => simp [sums]
  | cons e ds ih =>
    intro t ht
    have he := h e (by simp)
    have hmul : (dt : Int) ≤ e * dt := by
      have : (1 : Int) * dt ≤ e * dt := Int.mul_le_mul_of_nonneg_right (by omega) (by omega)
      omega
    rcases List.mem_cons.mp ht with rfl | ht
    · omega
    · have := ih (off + e * dt) (fun d hd => h d (by simp [hd])) t ht
      omega

/-- The loop body of `endStep` after the time has been decoded. -/
def endPure (e t : Int) (k : Nat) (s : TimeState) : TimeState :=
  if t ≤ e then ⟨t, s.res, upd s.nodes k t⟩
  else ⟨t, true, if s.res then upd s.nodes (k + 1) t else upd (upd s.nodes (k + 1) t) k e⟩

theorem endStep_eq (p : Par) (off0 : Int) (k : Nat) (s : TimeState) (h : k + 1 < s.nodes.length) :
    endStep p off0 k s = updateValue p.table true >>= fun d => pure (endPure (1024 + off0) (s.off + d * p.dt) k s) := by
  unfold endStep
  congr 1
  funext d
  dsimp only
  unfold endPure
  by_cases h1 : s.off + d * p.dt ≤ 1024 + off0
  · rw [if_pos h1, if_pos h1, setTime_eq _ _ _ (by omega), pure_bind_eq]
  · rw [if_neg h1, if_neg h1, setTime_eq _ _ _ h, pure_bind_eq]
    cases s.res
    · rw [if_neg (by simp), if_neg (by simp), setTime_eq _ _ _ (by rw [upd_length]; omega), pure_bind_eq]
    · rw [if_pos rfl, if_pos rfl]

/-- What the loop has done after the differences `ds`. -/
structure EndInv (dt : Nat) (off0 : Int) (nodes0 : List Node) (ds : List Nat) (s : TimeState) : Prop where
  off : s.off = off0 + (ds.sum : Nat) * dt
  len : s.nodes.length = nodes0.length
  gains : gains s.nodes = gains nodes0
  late : s.res = true → 1024 + off0 < s.off ∧
    (times s.nodes).take (ds.length + 1) = withEnd (1024 + off0) (sums dt off0 ds)
  early : s.res = false → (∀ t ∈ sums dt off0 ds, t ≤ 1024 + off0) ∧
    (times s.nodes).take ds.length = sums dt off0 ds

theorem endInv_step (dt : Nat) (off0 : Int) (nodes0 : List Node) (ds : List Nat) (s : TimeState)
    (h : EndInv dt off0 nodes0 ds s) (hl : ds.length + 1 < nodes0.length) (d : Nat) :
    EndInv dt off0 nodes0 (ds ++ [d]) (endPure (1024 + off0) (s.off + (d : Int) * dt) ds.length s) := by
  have hpos : (0 : Int) ≤ (d : Int) * dt := Int.mul_nonneg (by omega) (by omega)
  have hoff : s.off + (d : Int) * dt = off0 + ((ds ++ [d]).sum : Nat) * dt := by
    rw [h.off]
    simp
    ring
  have hlast : off0 + (ds.sum : Nat) * dt + (d : Int) * dt = s.off + (d : Int) * dt := by rw [h.off]
  have hlen := h.len
  unfold endPure
  by_cases h1 : s.off + (d : Int) * dt ≤ 1024 + off0
  · rw [if_pos h1]
    have hres : s.res = false := by
      cases hr : s.res with
      | false => rfl
      | true =>
        have := (h.late hr).1
        omega
    refine ⟨hoff, by rw [upd_length, hlen], by rw [upd_gains, h.gains], by simp [hres], fun _ => ?_⟩
    obtain ⟨ha, hb⟩ := h.early hres
    rw [sums_append, hlast]
    refine ⟨fun t ht => ?_, ?_⟩
    · rcases List.mem_append.mp ht with ht | ht
      · exact ha t ht
      · simp at ht
        omega
    · dsimp only
      rw [upd_times, List.length_append, List.length_singleton, take_set_succ _ _ _ (by simp; omega), hb]
  · rw [if_neg h1]
    refine ⟨hoff, ?_, ?_, fun _ => ⟨by dsimp only; omega, ?_⟩, by simp⟩
    · dsimp only
      split <;> simp [upd_length, hlen]
    · dsimp only
      split <;> simp [upd_gains, h.gains]
    · dsimp only
      rw [sums_append, hlast, List.length_append, List.length_singleton]
      have hwe : ∀ ts : List Int, withEnd (1024 + off0) (ts ++ [s.off + (d : Int) * dt]) =
          withEnd (1024 + off0) ts ++ [s.off + (d : Int) * dt] := by
        intro ts
        unfold withEnd
        simp only [List.filter_append, List.filter_cons, List.filter_nil]
        rw [if_neg (by simpa using h1), if_pos (by simp; omega)]
        simp
      rw [hwe]
      cases hr : s.res with
      | true =>
        rw [if_pos rfl, upd_times, take_set_succ _ _ _ (by simp; omega), (h.late hr).2]
      | false =>
        rw [if_neg (by simp), upd_times, upd_times]
        obtain ⟨ha, hb⟩ := h.early hr
        rw [List.set_comm _ _ (by omega), take_set_succ _ _ _ (by simp; omega), take_set_succ _ _ _ (by simp; omega), hb]
        congr 1
        unfold withEnd
        rw [List.filter_eq_self.mpr (by simpa using ha), List.filter_eq_nil_iff.mpr (by simpa using ha)]

/-- The same without a node at the frame end. -/
structure FreeInv (dt : Nat) (off0 : Int) (nodes0 : List Node) (ds : List Nat) (s : TimeState) : Prop where
  off : s.off = off0 + (ds.sum : Nat) * dt
  len : s.nodes.length = nodes0.length
  gains : gains s.nodes = gains nodes0
  time : (∀ t ∈ sums dt off0 ds, t < 1024) ∧ (times s.nodes).take ds.length = sums dt off0 ds

theorem freeStep_eq (p : Par) (k : Nat) (s : TimeState) (h : k < s.nodes.length) :
    freeStep p k s = updateValue p.table true >>= fun d =>
      if s.off + d * p.dt ≥ 1024 then fail .drcUnexpected
      else pure ⟨s.off + d * p.dt, s.res, upd s.nodes k (s.off + d * p.dt)⟩ := by
  unfold freeStep
  congr 1
  funext d
  dsimp only
  split
  · rfl
  · rw [setTime_eq _ _ _ h, pure_bind_eq]

theorem freeInv_step (dt : Nat) (off0 : Int) (nodes0 : List Node) (ds : List Nat) (s : TimeState)
    (h : FreeInv dt off0 nodes0 ds s) (hl : ds.length < nodes0.length) (d : Nat)
    (hd : s.off + (d : Int) * dt < 1024) :
    FreeInv dt off0 nodes0 (ds ++ [d]) ⟨s.off + (d : Int) * dt, s.res, upd s.nodes ds.length (s.off + (d : Int) * dt)⟩ := by
  have hoff : s.off + (d : Int) * dt = off0 + ((ds ++ [d]).sum : Nat) * dt := by
    rw [h.off]
    simp
    ring
  have hlast : off0 + (ds.sum : Nat) * dt + (d : Int) * dt = s.off + (d : Int) * dt := by rw [h.off]
  have hlen := h.len
  refine ⟨hoff, by rw [upd_length, hlen], by rw [upd_gains, h.gains], ?_⟩
  obtain ⟨ha, hb⟩ := h.time
  rw [sums_append, hlast]
  refine ⟨fun t ht => ?_, ?_⟩
  · rcases List.mem_append.mp ht with ht | ht
    · exact ha t ht
    · simp at ht
      omega
  · dsimp only
    rw [upd_times, List.length_append, List.length_singleton, take_set_succ _ _ _ (by simp; omega), hb]

/-- The times of a coded frame of `n` nodes. -/
inductive Coded (dt : Nat) (off0 : Int) (n : Nat) : List Int → Prop
  | ends (ds : List Nat) (h : ∀ d ∈ ds, 1 ≤ d) (hn : ds.length + 1 = n) :
    Coded dt off0 n (withEnd (1024 + off0) (sums dt off0 ds))
  | free (ds : List Nat) (h : ∀ d ∈ ds, 1 ≤ d) (hn : ds.length = n) (hlt : ∀ t ∈ sums dt off0 ds, t < 1024) :
    Coded dt off0 n (sums dt off0 ds)

theorem decodeTimes_safe (p : Par) (hp : Timed p) (full : Bool) (n : Nat) (hn : 1 ≤ n) (off0 : Int)
    (nodes : List Node) (hl : n ≤ nodes.length) :
    Safe (decodeTimes p full n off0 nodes) fun ns =>
      ns.length = nodes.length ∧ gains ns = gains nodes ∧ Coded p.dt off0 n ((times ns).take n) := by
  unfold decodeTimes
  refine Safe.bind (R := fun _ => True) ?_ fun fe _ => ?_
  · split
    · exact Safe.pure trivial
    · exact safe_flag
  refine Safe.ite (fun _ => ?_) fun _ => ?_
  · refine Safe.bind (Safe.foldN (fun k s => ∃ ds, (∀ d ∈ ds, 1 ≤ d) ∧ ds.length = k ∧ EndInv p.dt off0 nodes ds s)
      _ _ _ ⟨[], by simp, rfl, ⟨by simp, rfl, rfl, by simp, fun _ => ⟨by simp [sums], by simp [sums]⟩⟩⟩ ?_) ?_
    · rintro k s - hk ⟨ds, hds, rfl, hi⟩
      rw [endStep_eq _ _ _ _ (by have := hi.len; omega)]
      refine Safe.bind hp.time fun d hd => Safe.pure ⟨ds ++ [d.toNat], ?_, by simp, ?_⟩
      · intro x hx
        rcases List.mem_append.mp hx with hx | hx
        · exact hds x hx
        · simp at hx
          omega
      · have := endInv_step p.dt off0 nodes ds s hi (by omega) d.toNat
        rwa [show ((d.toNat : Nat) : Int) = d by omega] at this
    · rintro s ⟨ds, hds, hlen, hi⟩
      rw [Nat.zero_add] at hlen
      have hsl := hi.len
      refine Safe.ite (fun hr => ?_) fun hr => ?_
      · refine Safe.pure ⟨hsl, hi.gains, ?_⟩
        have := (hi.late hr).2
        rw [show n = ds.length + 1 by omega, this]
        exact .ends ds hds rfl
      · rw [setTime_eq _ _ _ (by omega)]
        obtain ⟨ha, hb⟩ := hi.early (by simpa using hr)
        refine Safe.pure ⟨by rw [upd_length, hsl], by rw [upd_gains, hi.gains], ?_⟩
        rw [upd_times]
        have htk := take_set_succ (times s.nodes) (n - 1) (1024 + off0) (by simp; omega)
        rw [Nat.sub_add_cancel hn] at htk
        rw [htk, ← hlen, hb]
        have : sums p.dt off0 ds ++ [1024 + off0] = withEnd (1024 + off0) (sums p.dt off0 ds) := by
          unfold withEnd
          rw [List.filter_eq_self.mpr (by simpa using ha), List.filter_eq_nil_iff.mpr (by simpa using ha)]
        rw [this]
        exact .ends ds hds (by omega)
  · refine Safe.bind (Safe.foldN (fun k s => ∃ ds, (∀ d ∈ ds, 1 ≤ d) ∧ ds.length = k ∧ FreeInv p.dt off0 nodes ds s)
      _ _ _ ⟨[], by simp, rfl, ⟨by simp, rfl, rfl, ⟨by simp [sums], by simp [sums]⟩⟩⟩ ?_) ?_
    · rintro k s - hk ⟨ds, hds, rfl, hi⟩
      rw [freeStep_eq _ _ _ (by have := hi.len; omega)]
      refine Safe.bind hp.time fun d hd => Safe.ite (fun _ => Safe.fail) fun hlt => Safe.pure ⟨ds ++ [d.toNat], ?_, by simp, ?_⟩
      · intro x hx
        rcases List.mem_append.mp hx with hx | hx
        · exact hds x hx
        · simp at hx
          omega
      · have := freeInv_step p.dt off0 nodes ds s hi (by omega) d.toNat
        rw [show ((d.toNat : Nat) : Int) = d by omega] at this
        exact this (by omega)
    · rintro s ⟨ds, hds, hlen, hi⟩
      rw [Nat.zero_add] at hlen
      refine Safe.pure ⟨hi.len, hi.gains, ?_⟩
      rw [← hlen, hi.time.2]
      exact .free ds hds rfl hi.time.1

/-! ## Decoding gains -/

theorem setGain_times (nodes : List Node) (k : Nat) (g : Int) (h : k < nodes.length) :
    times (nodes.set k { nodes[k] with gain := g }) = times nodes := by
  apply List.ext_getElem?
  intro i
  simp only [times, List.getElem?_map, List.getElem?_set]
  by_cases hk : k = i
  · subst hk
    simp [h]
  · simp [hk]

theorem initialGain_safe (profile : Nat) (h : profile ≤ 3) : Safe (initialGain profile) (fun _ => True) := by
  unfold initialGain
  refine Safe.ite (fun _ => Safe.pure trivial) fun _ => Safe.ite (fun _ => ?_) fun _ => Safe.ite (fun _ => ?_) fun _ =>
    Safe.ite (fun _ => ?_) fun _ => Safe.fail
  · exact Safe.bind safe_flag fun _ _ => Safe.ite (fun _ => Safe.bits_bind (by omega) fun _ _ => Safe.pure trivial)
      fun _ => Safe.pure trivial
  · exact Safe.bind safe_flag fun _ _ => Safe.ite (fun _ => Safe.bits_bind (by omega) fun _ _ => Safe.pure trivial)
      fun _ => Safe.pure trivial
  · exact Safe.bind safe_flag fun _ _ => Safe.bits_bind (by omega) fun _ _ => Safe.pure trivial

theorem decodeGains_safe (profile n : Nat) (nodes : List Node) (hp : profile ≤ 3) (hn : 1 ≤ n) (hl : n ≤ nodes.length) :
    Safe (decodeGains profile n nodes) fun ns => times ns = times nodes := by
  unfold decodeGains
  refine Safe.bind (initialGain_safe profile hp) fun g _ => ?_
  rw [getAt_eq (by omega), pure_bind_eq, setAt_eq (by omega), pure_bind_eq]
  refine (Safe.foldN (fun _ ns => times ns = times nodes) _ _ _ (setGain_times _ _ _ (by omega)) ?_).mono fun _ h => h
  intro k ns hk1 hk2 hns
  have hlen : ns.length = nodes.length := by
    have := congrArg List.length hns
    simpa using this
  unfold gainStep
  refine Safe.bind (gain_safe profile) fun d _ => ?_
  rw [getAt_eq (by omega), pure_bind_eq, getAt_eq (by omega), pure_bind_eq, setAt_eq (by omega)]
  refine Safe.pure ?_
  rw [setGain_times _ _ _ (by omega), hns]

/-! ## One gain sequence -/

theorem countNodes_safe (fuel node : Nat) : Safe (countNodes fuel node) (fun n => 1 ≤ n) := by
  induction fuel generalizing node with
  | zero => exact Safe.bits_bind (by omega) fun _ _ => Safe.pure (by omega)
  | succ fuel ih =>
    unfold countNodes
    exact Safe.bind safe_flag fun _ _ => Safe.ite (fun _ => Safe.pure (by omega)) fun _ => ih _

theorem nodeCount_safe : Safe nodeCount (fun n => 1 ≤ n ∧ n ≤ 32) := by
  unfold nodeCount
  refine Safe.bind Safe.avail fun a _ => Safe.bind (countNodes_safe _ _) fun n hn => ?_
  exact Safe.ite (fun _ => Safe.fail) fun _ => Safe.ite (fun _ => Safe.fail) fun _ => Safe.pure ⟨hn, by omega⟩

/-- What `impd_drc_read_spline_nodes` returns: up to 32 nodes, at times in and after the frame, at least
one of them in the frame. -/
structure Raw (s : Spline) : Prop where
  len : s.nodes.length = 128
  pos : 1 ≤ s.n
  le : s.n ≤ 32
  time : ∀ t ∈ (times s.nodes).take s.n.toNat, 0 ≤ t
  inside : ∃ t ∈ (times s.nodes).take s.n.toNat, t < 1024

theorem timeOffset_range (p : Par) (hp : Timed p) (align : Bool) :
    -1024 ≤ timeOffset p align ∧ timeOffset p align ≤ -1 ∧ 0 ≤ timeOffset p align + p.dt := by
  have h1 := hp.dt
  have h2 := hp.dt_le
  unfold timeOffset
  split
  · rw [Int.tdiv_eq_ediv_of_nonneg (by omega)]
    omega
  · omega

theorem Coded.bounds {dt : Nat} {off0 : Int} {n : Nat} {ts : List Int} (h : Coded dt off0 n ts) (hn : 1 ≤ n)
    (h1 : -1024 ≤ off0) (h2 : off0 ≤ -1) (h3 : 0 ≤ off0 + dt) : (∀ t ∈ ts, 0 ≤ t) ∧ ∃ t ∈ ts, t < 1024 := by
  cases h with
  | ends ds hd hlen =>
    refine ⟨fun t ht => ?_, 1024 + off0, by simp [withEnd], by omega⟩
    unfold withEnd at ht
    rcases List.mem_append.mp ht with ht | ht
    · have := sums_ge dt off0 ds hd t (List.mem_filter.mp ht).1
      omega
    · rcases List.mem_cons.mp ht with ht | ht
      · omega
      · have := sums_ge dt off0 ds hd t (List.mem_filter.mp ht).1
        omega
  | free ds hd hlen hlt =>
    refine ⟨fun t ht => ?_, ?_⟩
    · have := sums_ge dt off0 ds hd t ht
      omega
    · cases ds with
      | nil => simp at hlen; omega
      | cons d ds =>
        exact ⟨_, by simp only [sums]; exact List.mem_cons_self, hlt _ (by simp only [sums]; exact List.mem_cons_self)⟩

theorem readSimple_safe (p : Par) (hp : Timed p) (g : GainSet) (hg : g.profile ≤ 3) (s : Spline)
    (hs : s.nodes.length = 128) : Safe (readSimple p g s) Raw := by
  unfold readSimple
  refine Safe.bind (initialGain_safe _ hg) fun v _ => ?_
  rw [setAt_eq (by omega), pure_bind_eq]
  obtain ⟨h1, h2, h3⟩ := timeOffset_range p hp g.align
  obtain ⟨c, cs, hc⟩ : ∃ c cs, s.nodes = c :: cs := by
    cases hh : s.nodes with
    | nil => rw [hh] at hs; simp at hs
    | cons c cs => exact ⟨c, cs, rfl⟩
  refine Safe.pure ⟨by simp [hs], by simp, by simp, ?_, ?_⟩
  · simp [hc]
    omega
  · simp [hc]
    omega

theorem readCoded_safe (p : Par) (hp : Timed p) (g : GainSet) (hg : g.profile ≤ 3) (s : Spline)
    (hs : s.nodes.length = 128) : Safe (readCoded p g s) Raw := by
  unfold readCoded
  refine Safe.bind nodeCount_safe fun n hn => ?_
  obtain ⟨h1, h2, h3⟩ := timeOffset_range p hp g.align
  refine Safe.bind (decodeTimes_safe p hp g.full n hn.1 _ s.nodes (by omega)) fun ns hns => ?_
  refine Safe.bind (decodeGains_safe _ n ns hg hn.1 (by omega)) fun ms hms => ?_
  obtain ⟨ha, hb⟩ := hns.2.2.bounds hn.1 h1 h2 h3
  have hlen : ms.length = ns.length := by
    have := congrArg List.length hms
    simpa using this
  have htn : ((n : Int)).toNat = n := by omega
  refine Safe.pure ⟨by dsimp only; omega, by dsimp only; omega, by dsimp only; omega, ?_, ?_⟩
  · dsimp only
    rw [htn, hms]
    exact ha
  · dsimp only
    rw [htn, hms]
    exact hb

theorem readSpline_safe (p : Par) (hp : Timed p) (g : GainSet) (hg : g.profile ≤ 3) (s : Spline)
    (hs : s.nodes.length = 128) : Safe (readSpline p g s) Raw := by
  unfold readSpline
  refine Safe.bind Safe.avail fun a _ => Safe.ite (fun _ => Safe.ite (fun _ => Safe.fail) fun h => ?_) fun _ => ?_
  · unfold nodeMax at h
    rw [getAt_eq (by omega), pure_bind_eq, setAt_eq (by omega), pure_bind_eq]
    exact readSimple_safe p hp g hg _ (by simp [hs])
  · exact Safe.bind safe_flag fun _ _ => Safe.ite (fun _ => readCoded_safe p hp g hg s hs)
      fun _ => readSimple_safe p hp g hg s hs

/-! ## Node reservoir -/

theorem putCurrent_length (ts : List Int) (k : Nat) (nodes : List Node) : (putCurrent ts k nodes).length = nodes.length := by
  induction ts generalizing k nodes with
  | nil => rfl
  | cons t ts ih => rw [putCurrent, ih]; simp

theorem putCurrent_gains (ts : List Int) (k : Nat) (nodes : List Node) : gains (putCurrent ts k nodes) = gains nodes := by
  induction ts generalizing k nodes with
  | nil => rfl
  | cons t ts ih =>
    rw [putCurrent, ih]
    exact upd_gains nodes k t

theorem putCurrent_times (ts : List Int) (k : Nat) (nodes : List Node) (h : k + ts.length ≤ nodes.length) :
    (times (putCurrent ts k nodes)).take (k + ts.length) = (times nodes).take k ++ ts := by
  induction ts generalizing k nodes with
  | nil => simp [putCurrent]
  | cons t ts ih =>
    rw [List.length_cons] at h
    have h2 := ih (k + 1) (upd nodes k t) (by rw [upd_length]; omega)
    rw [upd_times, take_set_succ _ _ _ (by simp; omega)] at h2
    rw [putCurrent, List.length_cons, show k + (ts.length + 1) = k + 1 + ts.length by omega]
    refine Eq.trans h2 ?_
    simp

theorem putReservoir_eq (ts : List Int) (k : Nat) (nodes : List Node) :
    (putReservoir ts k nodes).2.length = nodes.length ∧
      ((putReservoir ts k nodes).1 = false → (∀ t ∈ ts, t < 3072) ∧
        (putReservoir ts k nodes).2 = putCurrent (ts.map (· - 2048)) k nodes) ∧
      ((∀ t ∈ ts, t < 3072) → (putReservoir ts k nodes).1 = false) := by
  induction ts generalizing k nodes with
  | nil => exact ⟨rfl, fun _ => ⟨by simp, rfl⟩, fun _ => rfl⟩
  | cons t ts ih =>
    unfold putReservoir
    split
    · exact ⟨rfl, by simp, fun h => by have := h t (by simp); omega⟩
    · rename_i ht
      obtain ⟨h1, h2, h3⟩ := ih (k + 1) (upd nodes k (t - 2048))
      refine ⟨by rw [upd_length] at h1; exact h1, fun hb => ?_, fun h => h3 fun x hx => h x (by simp [hx])⟩
      obtain ⟨h4, h5⟩ := h2 hb
      refine ⟨fun x hx => ?_, h5⟩
      rcases List.mem_cons.mp hx with rfl | hx
      · omega
      · exact h4 x hx

theorem reorder_len (s : Spline) : (reorder s).2.nodes.length = s.nodes.length ∧ (reorder s).2.n = s.n := by
  unfold reorder
  dsimp only
  split
  · exact ⟨(putReservoir_eq _ _ _).1, rfl⟩
  · exact ⟨by rw [putCurrent_length]; exact (putReservoir_eq _ _ _).1, rfl⟩

/-- The node reservoir puts the times in their place and leaves the gains alone. -/
theorem reorder_ok (s : Spline) (hn : s.n.toNat ≤ s.nodes.length)
    (h : ∀ t ∈ (times s.nodes).take s.n.toNat, t < 3072) :
    (reorder s).1 = false ∧ (times (reorder s).2.nodes).take s.n.toNat = placed ((times s.nodes).take s.n.toNat) ∧
      gains (reorder s).2.nodes = gains s.nodes := by
  have hlate : ∀ t ∈ (((s.nodes.take s.n.toNat).map (·.time)).filter (fun t => ¬ t < 1024)), t < 3072 := by
    intro t ht
    have := (List.mem_filter.mp ht).1
    rw [List.map_take] at this
    exact h t this
  unfold reorder
  dsimp only
  obtain ⟨h1, h2, h3⟩ := putReservoir_eq (((s.nodes.take s.n.toNat).map (·.time)).filter (fun t => ¬ t < 1024)) 0 s.nodes
  have hb := h3 hlate
  obtain ⟨_, h4⟩ := h2 hb
  rw [if_neg (by rw [hb]; simp), h4]
  refine ⟨rfl, ?_, by rw [putCurrent_gains, putCurrent_gains]⟩
  dsimp only
  generalize hts : (s.nodes.take s.n.toNat).map (·.time) = ts
  have hts' : (times s.nodes).take s.n.toNat = ts := by rw [← hts, List.map_take]
  have htl : ts.length = s.n.toNat := by rw [← hts]; simp; omega
  have hsum : (ts.filter (fun t => ¬ t < 1024)).length + (ts.filter (fun t => t < 1024)).length = ts.length := by
    clear * -
    induction ts with
    | nil => rfl
    | cons t ts ih =>
      by_cases ht : t < 1024
      · rw [List.filter_cons_of_neg (by simpa using ht), List.filter_cons_of_pos (by simpa using ht)]
        simp only [List.length_cons]
        omega
      · rw [List.filter_cons_of_pos (by simpa using ht), List.filter_cons_of_neg (by simpa using ht)]
        simp only [List.length_cons]
        omega
  have hl1 : (ts.filter (fun t => ¬ t < 1024)).length ≤ s.nodes.length := by omega
  have e1 := putCurrent_times ((ts.filter (fun t => ¬ t < 1024)).map (· - 2048)) 0 s.nodes (by simp only [List.length_map]; omega)
  have e2 := putCurrent_times (ts.filter (fun t => t < 1024)) (ts.filter (fun t => ¬ t < 1024)).length
    (putCurrent ((ts.filter (fun t => ¬ t < 1024)).map (· - 2048)) 0 s.nodes) (by rw [putCurrent_length]; omega)
  rw [List.length_map, Nat.zero_add, List.take_zero, List.nil_append] at e1
  rw [hsum, htl, e1] at e2
  rw [hts', e2]
  unfold placed
  congr 3
  funext t
  by_cases ht : t < 1024 <;> simp [ht]
  omega

theorem reorder_false (s : Spline) (h : (reorder s).1 = false) :
    ∀ t ∈ (times s.nodes).take s.n.toNat, t < 3072 := by
  intro t ht
  by_cases h1 : t < 1024
  · omega
  · unfold reorder at h
    dsimp only at h
    split at h
    · simp at h
    · rename_i hb
      have hm : t ∈ (s.nodes.take s.n.toNat).map (·.time) := by
        rw [List.map_take]
        exact ht
      exact ((putReservoir_eq ((s.nodes.take s.n.toNat).map (·.time) |>.filter (fun t => ¬ t < 1024)) 0 s.nodes).2.1
        (by simpa using hb)).1 t (List.mem_filter.mpr ⟨hm, by simpa using h1⟩)

/-- Nodes the gain buffers can be filled from: 1 to 32 of them, in the previous and in this frame, the
last one in this frame. -/
structure Fine (s : Spline) : Prop where
  len : s.nodes.length = 128
  pos : 1 ≤ s.n
  le : s.n ≤ 32
  time : ∀ c ∈ s.nodes.take s.n.toNat, -1024 ≤ c.time ∧ c.time < 1024
  last : ∀ c, (s.nodes.take s.n.toNat).getLast? = some c → 0 ≤ c.time

theorem Raw.fine {s : Spline} (h : Raw s) (hb : (reorder s).1 = false) : Fine (reorder s).2 := by
  obtain ⟨hl, hn⟩ := reorder_len s
  have hs := h.len
  have h1 := h.pos
  have h2 := h.le
  obtain ⟨_, ht, _⟩ := reorder_ok s (by omega) (reorder_false s hb)
  have hlt := reorder_false s hb
  refine ⟨by omega, by omega, by omega, ?_, ?_⟩
  · intro c hc
    have hm : c.time ∈ (times (reorder s).2.nodes).take s.n.toNat := by
      rw [← List.map_take]
      rw [hn] at hc
      exact List.mem_map_of_mem (f := fun c : Node => c.time) hc
    rw [ht] at hm
    unfold placed at hm
    rcases List.mem_append.mp hm with hm | hm
    · obtain ⟨t, ht', he⟩ := List.mem_map.mp hm
      have ha := (List.mem_filter.mp ht')
      have := hlt t ha.1
      have := ha.2
      simp at this
      omega
    · have ha := List.mem_filter.mp hm
      have := h.time _ ha.1
      have := ha.2
      simp at this
      omega
  · intro c hc
    have hm : ((times (reorder s).2.nodes).take s.n.toNat).getLast? = some c.time := by
      rw [← List.map_take, List.getLast?_map, ← hn, hc]
      rfl
    rw [ht] at hm
    unfold placed at hm
    have hne : ((times s.nodes).take s.n.toNat).filter (· < 1024) ≠ [] := by
      obtain ⟨t, ht1, ht2⟩ := h.inside
      exact List.ne_nil_of_mem (List.mem_filter.mpr ⟨ht1, by simpa using ht2⟩)
    rw [List.getLast?_append, List.getLast?_eq_some_getLast hne, Option.some_or, Option.some.injEq] at hm
    have := List.getLast_mem hne
    rw [hm] at this
    have ha := List.mem_filter.mp this
    exact h.time _ ha.1

/-! ## The whole payload -/

/-- The arrays have their sizes: `drc_gain_sequence[24]`, `str_spline_nodes[4]`, `str_node[128]`. -/
structure Dims (seqs : List (List Spline)) : Prop where
  sets : seqs.length = 24
  bands : ∀ q ∈ seqs, q.length = 4 ∧ ∀ s ∈ q, s.nodes.length = 128

/-- What the configuration parser makes sure of: at most four bands; that there are at most 24 gain sets
it does not. -/
structure Sets (sets : List GainSet) : Prop where
  count : sets.length ≤ 24
  bands : ∀ g ∈ sets, g.bands ≤ 4 ∧ g.profile ≤ 3

/-- Number of bands for which a gain set has nodes. -/
def GainSet.live (g : GainSet) : Nat := if g.profile = 3 then 1 else g.bands

/-- Every band of the first `k` gain sets has usable nodes. -/
def AllFine (sets : List GainSet) (seqs : List (List Spline)) (k : Nat) : Prop :=
  ∀ i g, i < k → sets[i]? = some g → ∀ j, j < g.live → ∃ q s, seqs[i]? = some q ∧ q[j]? = some s ∧ Fine s

theorem bandStep_safe (p : Par) (hp : Timed p) (g : GainSet) (hg : g.profile ≤ 3) (hb : g.bands ≤ 4)
    (q : List Spline) (hq : q.length = 4 ∧ ∀ s ∈ q, s.nodes.length = 128) :
    Safe (foldN (bandStep p g) g.bands 0 (false, q)) fun r => (r.2.length = 4 ∧ ∀ s ∈ r.2, s.nodes.length = 128) ∧
      (r.1 = false → ∀ j, j < g.bands → ∃ s, r.2[j]? = some s ∧ Fine s) := by
  refine (Safe.foldN (fun k r => (r.2.length = 4 ∧ ∀ s ∈ r.2, s.nodes.length = 128) ∧
      (r.1 = false → ∀ j, j < k → ∃ s, r.2[j]? = some s ∧ Fine s)) _ _ _ ⟨hq, fun _ j hj => by omega⟩ ?_).mono
        fun r h => by rwa [Nat.zero_add] at h
  rintro k ⟨bad, r⟩ - hk ⟨⟨hl, hs⟩, hf⟩
  dsimp only at hl hs hf
  unfold bandStep
  refine Safe.ite (fun h1 => Safe.pure ⟨⟨hl, hs⟩, fun h2 => ?_⟩) fun h1 => ?_
  · dsimp only at h1 h2
    rw [h1] at h2
    simp at h2
  dsimp only at h1 ⊢
  rw [getAt_eq (by omega), pure_bind_eq]
  refine Safe.bind (readSpline_safe p hp g hg _ (hs _ (List.getElem_mem _))) fun s' hs' => ?_
  rw [setAt_eq (by omega), pure_bind_eq]
  refine Safe.pure ⟨⟨by simp [hl], fun s hsm => ?_⟩, fun hb j hj => ?_⟩
  · rcases List.mem_or_eq_of_mem_set hsm with h | h
    · exact hs s h
    · rw [h, (reorder_len s').1, hs'.len]
  · dsimp only at hb ⊢
    rw [List.getElem?_set]
    by_cases hjk : k = j
    · rw [if_pos hjk, if_pos (by omega)]
      exact ⟨_, rfl, hs'.fine hb⟩
    · rw [if_neg hjk]
      exact hf (by simpa using h1) j (by omega)

theorem constant_fine (s : Spline) (h : s.nodes.length = 128) : Fine ⟨1, s.nodes.set 0 ⟨0, 1023⟩⟩ := by
  obtain ⟨c, cs, hc⟩ : ∃ c cs, s.nodes = c :: cs := by
    cases hh : s.nodes with
    | nil => rw [hh] at h; simp at h
    | cons c cs => exact ⟨c, cs, rfl⟩
  exact ⟨by simp [h], by simp, by simp, by simp [hc], by simp [hc]⟩

theorem setStep_safe (p : Par) (hp : Timed p) (sets : List GainSet) (hS : Sets sets) (k : Nat) (hk : k < sets.length)
    (r : Parsed) (hd : Dims r.seqs) (hf : r.bad = false → AllFine sets r.seqs k) :
    Safe (setStep p sets k r) fun r' => Dims r'.seqs ∧ (r'.bad = false → AllFine sets r'.seqs (k + 1)) := by
  have hd1 := hd.sets
  have hc := hS.count
  unfold setStep
  refine Safe.ite (fun h1 => Safe.pure ⟨hd, fun h2 => ?_⟩) fun h1 => ?_
  · rw [h1] at h2
    simp at h2
  have hf := hf (by simpa using h1)
  rw [getAt_eq hk, pure_bind_eq, getAt_eq (by omega), pure_bind_eq]
  obtain ⟨hb, hpr⟩ := hS.bands _ (List.getElem_mem hk)
  have hq := hd.bands _ (List.getElem_mem (show k < r.seqs.length by omega))
  have key : ∀ q' : List Spline, (q'.length = 4 ∧ ∀ s ∈ q', s.nodes.length = 128) →
      Dims (r.seqs.set k q') ∧ ((∀ j, j < (sets[k]'hk).live → ∃ s, q'[j]? = some s ∧ Fine s) →
        AllFine sets (r.seqs.set k q') (k + 1)) := by
    intro q' hq'
    refine ⟨⟨by simp [hd1], fun x hx => ?_⟩, fun hq i g hi hg j hj => ?_⟩
    · rcases List.mem_or_eq_of_mem_set hx with h | h
      · exact hd.bands x h
      · rw [h]; exact hq'
    · rw [List.getElem?_set]
      by_cases hik : k = i
      · subst hik
        rw [List.getElem?_eq_getElem hk] at hg
        simp only [Option.some.injEq] at hg
        subst hg
        obtain ⟨s, h1, h2⟩ := hq j hj
        exact ⟨q', s, by simp; omega, h1, h2⟩
      · rw [if_neg hik]
        exact hf i g (by omega) hg j hj
  refine Safe.ite (fun h3 => ?_) fun h3 => ?_
  · refine Safe.bind (bandStep_safe p hp _ hpr hb _ hq) fun b hb' => ?_
    rw [setAt_eq (by omega), pure_bind_eq]
    obtain ⟨h4, h5⟩ := key b.2 hb'.1
    refine Safe.pure ⟨h4, fun hbad => h5 ?_⟩
    intro j hj
    unfold GainSet.live at hj
    rw [if_neg h3] at hj
    exact hb'.2 hbad j hj
  · rw [getAt_eq (by omega), pure_bind_eq, setAt_eq (by rw [hq.2 _ (List.getElem_mem _)]; omega), pure_bind_eq,
      setAt_eq (by omega), pure_bind_eq, setAt_eq (by omega), pure_bind_eq]
    have hfine := constant_fine _ (hq.2 (r.seqs[k]'(by omega))[0] (List.getElem_mem (by omega)))
    obtain ⟨h4, h5⟩ := key ((r.seqs[k]'(by omega)).set 0 ⟨1, ((r.seqs[k]'(by omega))[0]'(by omega)).nodes.set 0 ⟨0, 1023⟩⟩)
      ⟨by simp [hq.1], fun s hs => by
        rcases List.mem_or_eq_of_mem_set hs with h | h
        · exact hq.2 s h
        · rw [h]; exact hfine.len⟩
    refine Safe.pure ⟨h4, fun _ => h5 fun j hj => ?_⟩
    unfold GainSet.live at hj
    rw [if_pos (by simpa using h3)] at hj
    have : j = 0 := by omega
    subst this
    exact ⟨_, by rw [List.getElem?_set, if_pos rfl, if_pos (by omega)], hfine⟩

theorem gainExt_safe : Safe gainExt (fun _ => True) := by
  unfold gainExt
  refine Safe.bits_bind (by omega) fun t _ => Safe.ite (fun _ => ?_) fun _ => Safe.pure trivial
  refine Safe.bits_bind (by omega) fun w hw => Safe.bits_bind (by omega) fun n _ => ?_
  refine Safe.bind (Safe.drop (by omega)) fun _ _ => Safe.bits_bind (by omega) fun _ _ => ?_
  exact Safe.ite (fun _ => Safe.fail) fun _ => Safe.pure trivial

/-- Parsing a gain payload touches no memory outside the arrays; unless a time is refused, every band of
every gain set then has usable nodes. -/
theorem readGain_safe (p : Par) (hp : Timed p) (sets : List GainSet) (hS : Sets sets) (seqs : List (List Spline))
    (hd : Dims seqs) : Safe (readGain p sets seqs) fun r =>
      Dims r.seqs ∧ (r.bad = false → AllFine sets r.seqs sets.length) := by
  unfold readGain
  refine Safe.bind (Safe.foldN (fun k r => Dims r.seqs ∧ (r.bad = false → AllFine sets r.seqs k)) _ _ _
    ⟨hd, fun _ i g hi => by omega⟩ ?_) fun r hr => ?_
  · rintro k r - hk ⟨h1, h2⟩
    exact setStep_safe p hp sets hS k (by omega) r h1 h2
  · rw [Nat.zero_add] at hr
    refine Safe.ite (fun _ => Safe.pure hr) fun _ => Safe.bind safe_flag fun e _ => ?_
    exact Safe.ite (fun _ => Safe.bind gainExt_safe fun _ _ => Safe.pure hr) fun _ => Safe.pure hr

end Verif.DrcGain
