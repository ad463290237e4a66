import Verif.Props.DrcGain

/-! # C111, C112: the DRC gain payload -/

namespace Verif.DrcGain

open Prog Huff

/-- A loop that reads one coded item in every round. -/
theorem run_foldN_items {σ α : Type} (f : Nat → σ → Prog σ) (enc : α → List Bool) (i0 : Nat) (all : List α)
    (I : List α → σ → Prop)
    (step : ∀ pre a post s, all = pre ++ a :: post → I pre s →
      ∃ s', (∀ l, run (f (i0 + pre.length) s) (enc a ++ l) = .ok (s', l)) ∧ I (pre ++ [a]) s') :
    ∀ xs pre s, all = pre ++ xs → I pre s →
      ∃ s', (∀ l, run (foldN f xs.length (i0 + pre.length) s) (xs.flatMap enc ++ l) = .ok (s', l)) ∧ I all s' := by
  intro xs
  induction xs with
  | nil =>
    intro pre s ha hi
    rw [List.append_nil] at ha
    subst ha
    exact ⟨s, fun l => rfl, hi⟩
  | cons x xs ih =>
    intro pre s ha hi
    obtain ⟨s1, h1, hi1⟩ := step pre x xs s ha hi
    obtain ⟨s2, h2, hi2⟩ := ih (pre ++ [x]) s1 (by simp [ha]) hi1
    refine ⟨s2, fun l => ?_, hi2⟩
    rw [List.length_cons, foldN, List.flatMap_cons, List.append_assoc, run_bind, h1, Res.ok_bind]
    have := h2 l
    rw [List.length_append, List.length_singleton] at this
    exact this

/-- The time code table decodes the codewords of the standard. -/
def TimeCoded (p : Par) : Prop := ∀ d, 1 ≤ d → d ≤ 2 * (1024 / p.dt) → ∀ l,
  run (updateValue p.table true) (TimeCode.timeWord (1024 / p.dt) d ++ l) = .ok ((d : Int), l)

theorem parAt_coded (rate : Nat) (h : 3000 ≤ rate) (p : Par) (hp : parAt rate = .ok p) : TimeCoded p := by
  obtain ⟨_, _, e0, j, ht, h1, h2⟩ := parAt_timed rate h p hp
  intro d hd1 hd2 l
  have hm : d ≤ maxDelta (1024 / p.dt) := by unfold maxDelta; omega
  have := update_time e0 _ j (entry_good (1024 / p.dt) h1 h2)
    (Huff.entry (Nat.clog 2 (2 * (1024 / p.dt))) d) (List.mem_map.mpr ⟨d, by
      rw [List.mem_range'_1]
      omega, rfl⟩) l
  rw [ht, ← timeWord_entry _ d hd1 hm, this]
  congr 2
  unfold Huff.entry
  split
  · simp; omega
  · split
    · rfl
    · split <;> rfl

/-! ## Times -/

theorem run_decodeTimes_end (p : Par) (hc : TimeCoded p) (off0 : Int) (nodes : List Node) (ds : List Nat)
    (hl : ds.length < nodes.length) (hd : ∀ d ∈ ds, 1 ≤ d ∧ d ≤ 2 * (1024 / p.dt)) :
    ∃ ns, (∀ l, run (do
      let s ← foldN (endStep p off0) ds.length 0 ⟨off0, false, nodes⟩
      if s.res then pure s.nodes
      else setTime s.nodes ds.length (1024 + off0)) (ds.flatMap (TimeCode.timeWord (1024 / p.dt)) ++ l) = .ok (ns, l)) ∧
      ns.length = nodes.length ∧ gains ns = gains nodes ∧
      (times ns).take (ds.length + 1) = withEnd (1024 + off0) (sums p.dt off0 ds) := by
  obtain ⟨s, hs, hi⟩ := run_foldN_items (endStep p off0) (TimeCode.timeWord (1024 / p.dt)) 0 ds
    (EndInv p.dt off0 nodes) (by
      intro pre d post s hall hi
      have hlen : pre.length < ds.length := by rw [hall]; simp
      refine ⟨endPure (1024 + off0) (s.off + (d : Int) * p.dt) pre.length s, fun l => ?_,
        endInv_step _ _ _ _ _ hi (by omega) d⟩
      rw [Nat.zero_add, endStep_eq _ _ _ _ (by have := hi.len; omega), run_bind]
      have hdd := hd d (by rw [hall]; simp)
      rw [hc d hdd.1 hdd.2]
      rfl) ds [] ⟨off0, false, nodes⟩ (by simp)
    ⟨by simp, rfl, rfl, by simp, fun _ => ⟨by simp [sums], by simp [sums]⟩⟩
  have hsl := hi.len
  cases hr : s.res with
  | true =>
    refine ⟨s.nodes, fun l => ?_, hsl, hi.gains, (hi.late hr).2⟩
    rw [run_bind, show (0 : Nat) = 0 + ([] : List Nat).length from rfl, hs, Res.ok_bind]
    dsimp only
    rw [if_pos hr]
    rfl
  | false =>
    obtain ⟨ha, hb⟩ := hi.early hr
    refine ⟨upd s.nodes ds.length (1024 + off0), fun l => ?_, by rw [upd_length, hsl], by rw [upd_gains, hi.gains], ?_⟩
    · rw [run_bind, show (0 : Nat) = 0 + ([] : List Nat).length from rfl, hs, Res.ok_bind]
      dsimp only
      rw [if_neg (by simp [hr]), setTime_eq _ _ _ (by omega)]
      rfl
    · rw [upd_times, take_set_succ _ _ _ (by simp; omega), hb]
      unfold withEnd
      rw [List.filter_eq_self.mpr (by simpa using ha), List.filter_eq_nil_iff.mpr (by simpa using ha)]

theorem run_decodeTimes_free (p : Par) (hc : TimeCoded p) (off0 : Int) (nodes : List Node) (ds : List Nat)
    (hl : ds.length ≤ nodes.length) (hd : ∀ d ∈ ds, 1 ≤ d ∧ d ≤ 2 * (1024 / p.dt))
    (ht : ∀ t ∈ sums p.dt off0 ds, t < 1024) :
    ∃ s, (∀ l, run (foldN (freeStep p) ds.length 0 ⟨off0, false, nodes⟩)
        (ds.flatMap (TimeCode.timeWord (1024 / p.dt)) ++ l) = .ok (s, l)) ∧
      s.nodes.length = nodes.length ∧ gains s.nodes = gains nodes ∧
      (times s.nodes).take ds.length = sums p.dt off0 ds := by
  obtain ⟨s, hs, hi⟩ := run_foldN_items (freeStep p) (TimeCode.timeWord (1024 / p.dt)) 0 ds
    (FreeInv p.dt off0 nodes) (by
      intro pre d post s hall hi
      have hlen : pre.length < ds.length := by rw [hall]; simp
      have hlt : s.off + (d : Int) * p.dt < 1024 := by
        refine ht _ ?_
        rw [hall, show pre ++ d :: post = (pre ++ [d]) ++ post by simp, hi.off]
        have hsplit : ∀ (a b : List Nat) (o : Int), ∀ t ∈ sums p.dt o a, t ∈ sums p.dt o (a ++ b) := by
          intro a b
          induction a with
          | nil => simp [sums]
          | cons x a ih =>
            intro o t ht
            rw [List.cons_append]
            simp only [sums, List.mem_cons] at ht ⊢
            rcases ht with ht | ht
            · exact Or.inl ht
            · exact Or.inr (ih _ t ht)
        refine hsplit _ _ _ _ ?_
        rw [sums_append]
        simp
      refine ⟨_, fun l => ?_, freeInv_step _ _ _ _ _ hi (by omega) d hlt⟩
      rw [Nat.zero_add, freeStep_eq _ _ _ (by have := hi.len; omega), run_bind]
      have hdd := hd d (by rw [hall]; simp)
      rw [hc d hdd.1 hdd.2, Res.ok_bind]
      dsimp only
      rw [if_neg (by omega)]
      rfl) ds [] ⟨off0, false, nodes⟩ (by simp)
    ⟨by simp, rfl, rfl, ⟨by simp [sums], by simp [sums]⟩⟩
  exact ⟨s, hs, hi.len, hi.gains, hi.time.2⟩

/-! ## Gains -/

/-- Gain differences of a profile. -/
def GainCode (profile : Nat) (g : List Bool × Int) : Prop :=
  ∃ e ∈ (if profile = 2 then gainTable2 else gainTable01), g = (word e, e.val)

theorem run_initialGain (profile : Nat) (h : profile < 3) (v : Int) (hv : InitOk profile v) (l : List Bool) :
    run (initialGain profile) (initWord profile v ++ l) = .ok (1250 * v, l) := by
  unfold initialGain InitOk initWord at *
  by_cases h0 : profile = 0
  · subst h0
    rw [if_neg (by omega), if_neg (by omega), if_neg (by omega), if_pos rfl]
    rw [if_pos rfl] at hv
    rw [if_pos rfl, List.cons_append, run_bind, run_flag]
    dsimp only
    rw [Res.ok_bind, run_bits_bind 8 _ _ _ (by omega) hv, run_pure]
    congr 2
    by_cases hn : v < 0
    · rw [decide_eq_true hn, if_pos rfl]; omega
    · rw [decide_eq_false hn, if_neg (by simp)]; omega
  · rw [if_neg h0] at hv ⊢
    rw [if_neg (by omega)]
    have key : ∀ w, w ≤ 24 → v.natAbs ≤ 2 ^ w → run (do
        let s ← flag
        if s then do
          let m ← bits w
          pure (-((m : Int) + 1) * 1250)
        else pure 0) ((if v = 0 then [false] else true :: natBits w (v.natAbs - 1)) ++ l) = .ok (1250 * v, l) := by
      intro w hw hle
      by_cases hz : v = 0
      · rw [if_pos hz, List.cons_append, run_bind, run_flag]
        dsimp only
        rw [Res.ok_bind, if_neg (by simp), hz]
        rfl
      · have hp : 0 < 2 ^ w := Nat.two_pow_pos w
        rw [if_neg hz, List.cons_append, run_bind, run_flag]
        dsimp only
        rw [Res.ok_bind, if_pos rfl, run_bits_bind w _ _ _ hw (by omega), run_pure]
        congr 2
        omega
    by_cases h1 : profile = 1
    · subst h1
      rw [if_neg (by omega), if_pos rfl]
      rw [if_pos rfl] at hv
      rw [if_pos rfl]
      exact key 10 (by omega) hv.2
    · have h2 : profile = 2 := by omega
      subst h2
      rw [if_pos rfl]
      rw [if_neg (by omega)] at hv
      rw [if_neg (by omega : ¬ 2 = 1)]
      exact key 8 (by omega) hv.2

theorem levels_append (g : Int) (ds : List Int) (d : Int) : levels g (ds ++ [d]) = levels g ds ++ [g + ds.sum + d] := by
  induction ds generalizing g with
  | nil => simp [levels]
  | cons e ds ih =>
    rw [List.cons_append, levels, ih, levels]
    simp only [List.cons_append, List.sum_cons]
    congr 3
    omega

theorem levels_length (g : Int) (ds : List Int) : (levels g ds).length = ds.length + 1 := by
  induction ds generalizing g with
  | nil => rfl
  | cons e ds ih => simp [levels, ih]

theorem levels_last (g : Int) (ds : List Int) : (levels g ds)[ds.length]? = some (g + ds.sum) := by
  induction ds generalizing g with
  | nil => simp [levels]
  | cons e ds ih =>
    rw [levels, List.length_cons, List.getElem?_cons_succ, ih, List.sum_cons]
    congr 1
    omega

theorem setGain_gains (nodes : List Node) (k : Nat) (g : Int) (h : k < nodes.length) :
    gains (nodes.set k { nodes[k] with gain := g }) = (gains nodes).set k g := by
  rw [gains, gains, List.map_set]

theorem run_decodeGains (profile : Nat) (h : profile < 3) (v : Int) (hv : InitOk profile v)
    (gs : List (List Bool × Int)) (hg : ∀ g ∈ gs, GainCode profile g) (nodes : List Node)
    (hl : gs.length < nodes.length) :
    ∃ ns, (∀ l, run (decodeGains profile (gs.length + 1) nodes) (initWord profile v ++ gs.flatMap (·.1) ++ l) = .ok (ns, l)) ∧
      ns.length = nodes.length ∧ times ns = times nodes ∧
      (gains ns).take (gs.length + 1) = levels (1250 * v) (gs.map (·.2)) := by
  have hgood : Huff.Good (gainTable profile) := by
    unfold gainTable
    split
    · exact gain2_good
    · exact gain01_good
  obtain ⟨ns, hs, h1, h2, h3⟩ := run_foldN_items (gainStep profile) (fun g : List Bool × Int => g.1) 1 gs
    (fun pre ns => ns.length = nodes.length ∧ times ns = times nodes ∧
      (gains ns).take (pre.length + 1) = levels (1250 * v) (pre.map (·.2))) (by
      rintro pre g post ns hall ⟨h1, h2, h3⟩
      have hlen : pre.length < gs.length := by rw [hall]; simp
      obtain ⟨e, he, rfl⟩ := hg g (by rw [hall]; simp)
      have hlt : pre.length < ns.length := by omega
      have hlt1 : 1 + pre.length < ns.length := by omega
      have hlast : ns[pre.length].gain = 1250 * v + (pre.map (·.2)).sum := by
        have := levels_last (1250 * v) (pre.map (·.2))
        rw [← h3, List.length_map, List.getElem?_take_of_lt (by omega), List.getElem?_map,
          List.getElem?_eq_getElem hlt, Option.map_some, Option.some.injEq] at this
        exact this
      refine ⟨ns.set (1 + pre.length) { ns[1 + pre.length] with gain := ns[pre.length].gain + e.val }, fun l => ?_, ?_, ?_, ?_⟩
      · unfold gainStep
        rw [run_bind]
        dsimp only
        rw [C46_update_value _ hgood e he, Res.ok_bind]
        dsimp only
        rw [getAt_eq (by omega : 1 + pre.length - 1 < ns.length), pure_bind_eq, getAt_eq hlt1, pure_bind_eq, setAt_eq hlt1]
        simp only [Nat.add_sub_cancel_left]
        rfl
      · simp [h1]
      · rw [setGain_times _ _ _ hlt1, h2]
      · rw [setGain_gains _ _ _ hlt1, List.length_append, List.length_singleton, Nat.add_comm 1 pre.length,
          take_set_succ _ _ _ (by simp; omega), h3, List.map_append, List.map_singleton, levels_append, hlast]) gs []
    (nodes.set 0 { nodes[0] with gain := 1250 * v }) (by simp) ⟨by simp, setGain_times _ _ _ _, by
      rw [setGain_gains]
      cases hn : nodes with
      | nil => rw [hn] at hl; simp at hl
      | cons c cs => simp [levels]⟩
  refine ⟨ns, fun l => ?_, h1, h2, h3⟩
  unfold decodeGains
  rw [List.append_assoc, run_bind, run_initialGain profile h v hv, Res.ok_bind]
  dsimp only
  rw [getAt_eq (by omega : 0 < nodes.length), pure_bind_eq, setAt_eq (by omega : 0 < nodes.length), pure_bind_eq,
    Nat.add_sub_cancel]
  exact hs l

/-! ## Nodes of a band -/

theorem run_countNodes (m fuel node : Nat) (h : m ≤ fuel) (l : List Bool) :
    run (countNodes fuel node) (List.replicate m false ++ [true] ++ l) = .ok (node + m + 1, l) := by
  induction m generalizing fuel node with
  | zero =>
    cases fuel with
    | zero =>
      unfold countNodes
      have := run_bits_bind 1 1 (fun _ => (pure (node + 1) : Prog Nat)) l (by omega) (by omega)
      exact this
    | succ fuel =>
      unfold countNodes
      rw [run_bind]
      rfl
  | succ m ih =>
    obtain ⟨k, rfl⟩ : ∃ k, fuel = k + 1 := ⟨fuel - 1, by omega⟩
    unfold countNodes
    rw [List.replicate_succ, List.cons_append, List.cons_append, run_bind, run_flag]
    dsimp only
    rw [Res.ok_bind, if_neg (by simp), ih k (node + 1) (by omega)]
    congr 2
    omega

theorem run_nodeCount (m : Nat) (h : m < 32) (l : List Bool) :
    run nodeCount (List.replicate m false ++ [true] ++ l) = .ok (m + 1, l) := by
  unfold nodeCount
  rw [run_bind, run_avail, Res.ok_bind]
  dsimp only
  rw [run_bind, run_countNodes m _ 0 (by simp only [List.length_append, List.length_replicate]; omega), Res.ok_bind]
  dsimp only
  rw [if_neg (by unfold nodeMax; omega), if_neg (by omega), Nat.zero_add]
  rfl

theorem timeOffset_eq (p : Par) (h : 1 ≤ p.dt) (align : Bool) : timeOffset p align = gridStart p.dt align := by
  unfold timeOffset gridStart
  split
  · congr 1
    rw [show (p.dt : Int) - 1 = ((p.dt - 1 : Nat) : Int) by omega]
    rfl
  · rfl

/-- Number of nodes of a band. -/
def Band.count : Band → Nat
  | .simple _ => 1
  | .nodes _ _ _ gs => gs.length + 1

theorem withEnd_lt (e : Int) (ts : List Int) (m : Int) (h : ∀ t ∈ ts, t < m) (he : e < m) : ∀ t ∈ withEnd e ts, t < m := by
  intro t ht
  unfold withEnd at ht
  rcases List.mem_append.mp ht with ht | ht
  · exact h t (List.mem_filter.mp ht).1
  · rcases List.mem_cons.mp ht with ht | ht
    · omega
    · exact h t (List.mem_filter.mp ht).1

/-- **C111** A coded band decodes to its nodes. -/
theorem C111_band (p : Par) (hp : Timed p) (hc : TimeCoded p) (g : GainSet) (hg : g.profile < 3) (s : Spline)
    (hs : s.nodes.length = 128) (b : Band)
    (hb : b.Ok g.profile g.full p.dt (gridStart p.dt g.align) (GainCode g.profile)) :
    ∃ s', (∀ l, run (readSpline p g s) (b.bits g.profile g.full (1024 / p.dt) ++ l) = .ok (s', l)) ∧
      (reorder s').1 = false ∧ (reorder s').2.n = b.count ∧ (reorder s').2.nodes.length = 128 ∧
      (times (reorder s').2.nodes).take b.count = b.times p.dt (gridStart p.dt g.align) ∧
      (gains (reorder s').2.nodes).take b.count = b.gains := by
  obtain ⟨hr1, hr2, hr3⟩ := timeOffset_range p hp g.align
  rw [timeOffset_eq p hp.dt] at hr1 hr2 hr3
  have entry : ∀ (m : Bool) (r l : List Bool), run (readSpline p g s) (m :: r ++ l) =
      run (if m then readCoded p g s else readSimple p g s) (r ++ l) := by
    intro m r l
    unfold readSpline
    rw [run_bind, run_avail, Res.ok_bind]
    dsimp only
    rw [if_neg (by simp; omega), List.cons_append, run_bind, run_flag]
    rfl
  cases b with
  | simple v =>
    have hw : ∀ l, run (readSpline p g s) ((Band.simple v).bits g.profile g.full (1024 / p.dt) ++ l) =
        .ok (⟨1, s.nodes.set 0 ⟨1250 * v, 1024 + gridStart p.dt g.align⟩⟩, l) := by
      intro l
      unfold Band.bits
      rw [entry, if_neg (by simp)]
      unfold readSimple
      rw [run_bind, run_initialGain g.profile hg v hb, Res.ok_bind]
      dsimp only
      rw [setAt_eq (by omega), timeOffset_eq p hp.dt]
      rfl
    obtain ⟨c, cs, hcs⟩ : ∃ c cs, s.nodes = c :: cs := by
      cases hh : s.nodes with
      | nil => rw [hh] at hs; simp at hs
      | cons c cs => exact ⟨c, cs, rfl⟩
    have htk : (times (s.nodes.set 0 ⟨1250 * v, 1024 + gridStart p.dt g.align⟩)).take 1 = [1024 + gridStart p.dt g.align] := by
      simp [hcs]
    have hgk : (gains (s.nodes.set 0 ⟨1250 * v, 1024 + gridStart p.dt g.align⟩)).take 1 = [1250 * v] := by
      simp [hcs]
    obtain ⟨r1, r2⟩ := reorder_len ⟨1, s.nodes.set 0 ⟨1250 * v, 1024 + gridStart p.dt g.align⟩⟩
    obtain ⟨r3, r4, r5⟩ := reorder_ok ⟨1, s.nodes.set 0 ⟨1250 * v, 1024 + gridStart p.dt g.align⟩⟩
      (by simp [hs]) (by
        intro t ht
        change t ∈ (times (s.nodes.set 0 ⟨1250 * v, 1024 + gridStart p.dt g.align⟩)).take 1 at ht
        rw [htk] at ht
        simp at ht
        omega)
    refine ⟨_, hw, r3, r2, by rw [r1]; simp [hs], ?_, ?_⟩
    · change (times (reorder ⟨1, _⟩).2.nodes).take 1 = _ at r4
      rw [Band.count, r4]
      change placed ((times (s.nodes.set 0 ⟨1250 * v, 1024 + gridStart p.dt g.align⟩)).take 1) = _
      rw [htk]
      unfold placed Band.times
      simp only [List.filter_cons, List.filter_nil]
      rw [if_neg (by simp; omega), if_pos (by simp; omega)]
      rfl
    · rw [Band.count, r5]
      exact hgk
  | nodes ends ds v gs =>
    obtain ⟨hv, hgs, h32, hfull, hlen, hds, hts⟩ := hb
    -- the times
    have ht : ∃ ns, (∀ l, run (decodeTimes p g.full (gs.length + 1) (gridStart p.dt g.align) s.nodes)
        ((if g.full then [] else [ends]) ++ ds.flatMap (TimeCode.timeWord (1024 / p.dt)) ++ l) = .ok (ns, l)) ∧
        ns.length = 128 ∧ (times ns).take (gs.length + 1) =
          (if ends then withEnd (1024 + gridStart p.dt g.align) (sums p.dt (gridStart p.dt g.align) ds)
            else sums p.dt (gridStart p.dt g.align) ds) := by
      have hflag : ∀ (k : Bool → Prog (List Node)) (l : List Bool),
          run ((if g.full then pure true else flag) >>= k) ((if g.full then [] else [ends]) ++ l) = run (k ends) l := by
        intro k l
        cases hf : g.full with
        | true =>
          rw [if_pos rfl, if_pos rfl, hfull hf]
          rfl
        | false =>
          rw [if_neg (by simp), if_neg (by simp), List.singleton_append, run_bind, run_flag]
          rfl
      unfold decodeTimes
      cases ends with
      | true =>
        rw [if_pos rfl] at hlen
        obtain ⟨ns, h1, h2, h3, h4⟩ := run_decodeTimes_end p hc (gridStart p.dt g.align) s.nodes ds (by omega) hds
        refine ⟨ns, fun l => ?_, by omega, by rw [if_pos rfl, ← hlen, h4]⟩
        rw [List.append_assoc, hflag, if_pos rfl, Nat.add_sub_cancel, ← hlen]
        exact h1 l
      | false =>
        rw [if_neg (by simp)] at hlen
        obtain ⟨st, h1, h2, h3, h4⟩ := run_decodeTimes_free p hc (gridStart p.dt g.align) s.nodes ds (by omega) hds
          (by simpa using hts)
        refine ⟨st.nodes, fun l => ?_, by omega, by rw [if_neg (by simp), ← hlen, h4]⟩
        rw [List.append_assoc, hflag, if_neg (by simp), run_bind, ← hlen, h1 l]
        rfl
    obtain ⟨ns, hn1, hn2, hn3⟩ := ht
    obtain ⟨ns2, hm1, hm2, hm3, hm4⟩ := run_decodeGains g.profile hg v hv gs hgs ns (by omega)
    have hw : ∀ l, run (readSpline p g s) ((Band.nodes ends ds v gs).bits g.profile g.full (1024 / p.dt) ++ l) =
        .ok (⟨(gs.length + 1 : Nat), ns2⟩, l) := by
      intro l
      unfold Band.bits
      rw [entry, if_pos rfl]
      unfold readCoded
      have e : List.replicate gs.length false ++ [true] ++ (if g.full then [] else [ends]) ++
          ds.flatMap (TimeCode.timeWord (1024 / p.dt)) ++ initWord g.profile v ++ gs.flatMap (·.1) ++ l =
          List.replicate gs.length false ++ [true] ++ (((if g.full then [] else [ends]) ++
            ds.flatMap (TimeCode.timeWord (1024 / p.dt))) ++ (initWord g.profile v ++ gs.flatMap (·.1) ++ l)) := by
        simp only [List.append_assoc]
      rw [e, run_bind, run_nodeCount _ h32, Res.ok_bind]
      dsimp only
      rw [run_bind, timeOffset_eq p hp.dt, hn1, Res.ok_bind]
      dsimp only
      rw [run_bind, hm1, Res.ok_bind]
      rfl
    have htk := hn3
    rw [← hm3] at htk
    obtain ⟨r1, r2⟩ := reorder_len ⟨(gs.length + 1 : Nat), ns2⟩
    obtain ⟨r3, r4, r5⟩ := reorder_ok ⟨(gs.length + 1 : Nat), ns2⟩ (by
        change ((gs.length + 1 : Nat) : Int).toNat ≤ ns2.length
        omega) (by
        intro t ht
        change t ∈ (times ns2).take ((gs.length + 1 : Nat) : Int).toNat at ht
        rw [Int.toNat_natCast, htk] at ht
        cases ends with
        | true =>
          rw [if_pos rfl] at ht
          exact withEnd_lt _ _ 3072 (by simpa using hts) (by omega) t ht
        | false =>
          rw [if_neg (by simp)] at ht
          have := hts t ht
          rw [if_neg (by simp)] at this
          omega)
    refine ⟨_, hw, r3, r2, by rw [r1]; exact hm2.trans hn2, ?_, ?_⟩
    · change (times (reorder ⟨(gs.length + 1 : Nat), ns2⟩).2.nodes).take ((gs.length + 1 : Nat) : Int).toNat = _ at r4
      rw [Int.toNat_natCast] at r4
      rw [Band.count, r4]
      change placed ((times ns2).take ((gs.length + 1 : Nat) : Int).toNat) = _
      rw [Int.toNat_natCast, htk]
      rfl
    · rw [Band.count, r5]
      exact hm4

/-! ## The whole payload -/

/-- The nodes `s` are those of the coded band `b`. -/
structure IsBand (p : Par) (g : GainSet) (b : Band) (s : Spline) : Prop where
  count : s.n = b.count
  times : (times s.nodes).take b.count = b.times p.dt (gridStart p.dt g.align)
  gains : (gains s.nodes).take b.count = b.gains

/-- The bits of a gain set; nothing is coded for constant gain. -/
def setBits (p : Par) (x : GainSet × List Band) : List Bool :=
  if x.1.profile = 3 then [] else x.2.flatMap (Band.bits x.1.profile x.1.full (1024 / p.dt))

/-- What an encoder may write for a gain set. -/
def SetOk (p : Par) (x : GainSet × List Band) : Prop :=
  x.1.profile = 3 ∨ (x.1.profile < 3 ∧ x.2.length = x.1.bands ∧ x.1.bands ≤ 4 ∧
    ∀ b ∈ x.2, b.Ok x.1.profile x.1.full p.dt (gridStart p.dt x.1.align) (GainCode x.1.profile))

/-- The nodes `q` are those of a gain set: those of its bands, or 0 dB at the end of the frame. -/
def IsSet (p : Par) (x : GainSet × List Band) (q : List Spline) : Prop :=
  (x.1.profile = 3 → ∃ s, q[0]? = some s ∧ s.n = 1 ∧ s.nodes[0]? = some ⟨0, 1023⟩) ∧
  (x.1.profile ≠ 3 → ∀ (j : Nat) (b : Band), x.2[j]? = some b → ∃ s, q[j]? = some s ∧ IsBand p x.1 b s)

theorem getElem?_split {α : Type} {all pre post : List α} {a : α} (h : all = pre ++ a :: post) :
    all[pre.length]? = some a := by
  rw [h, List.getElem?_append_right (Nat.le_refl _)]
  simp

theorem run_bands (p : Par) (hp : Timed p) (hc : TimeCoded p) (g : GainSet) (hg : g.profile < 3) (bs : List Band)
    (hl : bs.length ≤ 4) (hb : ∀ b ∈ bs, b.Ok g.profile g.full p.dt (gridStart p.dt g.align) (GainCode g.profile))
    (q : List Spline) (hq : q.length = 4 ∧ ∀ s ∈ q, s.nodes.length = 128) :
    ∃ q', (∀ l, run (foldN (bandStep p g) bs.length 0 (false, q))
        (bs.flatMap (Band.bits g.profile g.full (1024 / p.dt)) ++ l) = .ok ((false, q'), l)) ∧
      (q'.length = 4 ∧ ∀ s ∈ q', s.nodes.length = 128) ∧
      ∀ (j : Nat) (b : Band), bs[j]? = some b → ∃ s, q'[j]? = some s ∧ IsBand p g b s := by
  obtain ⟨⟨o, q'⟩, h1, h2, h3, h4⟩ := run_foldN_items (bandStep p g) (Band.bits g.profile g.full (1024 / p.dt)) 0 bs
    (fun pre r => r.1 = false ∧ (r.2.length = 4 ∧ ∀ s ∈ r.2, s.nodes.length = 128) ∧
      ∀ (j : Nat) (b : Band), pre[j]? = some b → ∃ s, r.2[j]? = some s ∧ IsBand p g b s) (by
      rintro pre b post ⟨o, r⟩ hall ⟨ho, hr, hd⟩
      dsimp only at ho hr hd
      subst ho
      have hlen : pre.length < bs.length := by rw [hall]; simp
      have hlt : pre.length < r.length := by omega
      obtain ⟨s', k1, k2, k3, k4, k5, k6⟩ := C111_band p hp hc g hg r[pre.length] (hr.2 _ (List.getElem_mem _)) b
        (hb b (by rw [hall]; simp))
      refine ⟨(false, r.set pre.length (reorder s').2), fun l => ?_, rfl, ⟨by simp [hr.1], ?_⟩, ?_⟩
      · unfold bandStep
        dsimp only
        rw [if_neg (by simp), Nat.zero_add, getAt_eq hlt, pure_bind_eq, run_bind, k1, Res.ok_bind]
        dsimp only
        rw [setAt_eq hlt, pure_bind_eq, k2]
        rfl
      · intro s hs
        rcases List.mem_or_eq_of_mem_set hs with hs | rfl
        · exact hr.2 s hs
        · exact k4
      · intro j b' hj
        by_cases hjl : j < pre.length
        · rw [List.getElem?_append_left hjl] at hj
          obtain ⟨s, hs, hsb⟩ := hd j b' hj
          exact ⟨s, by dsimp only; rw [List.getElem?_set_ne (by omega)]; exact hs, hsb⟩
        · rw [List.getElem?_append_right (by omega)] at hj
          obtain ⟨rfl, hj2⟩ : j = pre.length ∧ b = b' := by
            cases hx : j - pre.length with
            | zero => rw [hx] at hj; simp at hj; exact ⟨by omega, hj⟩
            | succ m => rw [hx] at hj; simp at hj
          subst hj2
          exact ⟨(reorder s').2, by dsimp only; rw [List.getElem?_set_self hlt], ⟨k3, k5, k6⟩⟩) bs [] (false, q) (by simp)
    ⟨rfl, hq, by simp⟩
  dsimp only at h2
  subst h2
  exact ⟨q', h1, h3, h4⟩

theorem run_sets (p : Par) (hp : Timed p) (hc : TimeCoded p) (xs : List (GainSet × List Band)) (hx : ∀ x ∈ xs, SetOk p x)
    (hl : xs.length ≤ 24) (seqs : List (List Spline)) (hd : Dims seqs) :
    ∃ seqs', (∀ l, run (foldN (setStep p (xs.map (·.1))) xs.length 0 ⟨false, seqs⟩) (xs.flatMap (setBits p) ++ l) =
        .ok (⟨false, seqs'⟩, l)) ∧ Dims seqs' ∧
      ∀ (i : Nat) (x : GainSet × List Band), xs[i]? = some x → ∃ q, seqs'[i]? = some q ∧ IsSet p x q := by
  obtain ⟨⟨o, seqs'⟩, h1, h2, h3, h4⟩ := run_foldN_items (setStep p (xs.map (·.1))) (setBits p) 0 xs
    (fun pre r => r.bad = false ∧ Dims r.seqs ∧ ∀ (i : Nat) (x : GainSet × List Band), pre[i]? = some x → ∃ q, r.seqs[i]? = some q ∧ IsSet p x q) (by
      rintro pre ⟨g, bs⟩ post ⟨o, r⟩ hall ⟨ho, hr, hdd⟩
      dsimp only at ho hr hdd
      subst ho
      have hlen : pre.length < xs.length := by rw [hall]; simp
      have hr24 := hr.sets
      have hlt : pre.length < r.length := by omega
      have hgk : (xs.map (·.1))[pre.length]'(by simpa using hlen) = g := by
        have := getElem?_split hall
        rw [List.getElem?_eq_getElem hlen, Option.some.injEq] at this
        rw [List.getElem_map, this]
      obtain ⟨hq4, hq128⟩ := hr.bands r[pre.length] (List.getElem_mem _)
      have hdims : ∀ q', (q'.length = 4 ∧ ∀ s ∈ q', s.nodes.length = 128) → Dims (r.set pre.length q') := by
        intro q' hq'
        refine ⟨by simp [hr24], fun q hq => ?_⟩
        rcases List.mem_or_eq_of_mem_set hq with hq | rfl
        · exact hr.bands q hq
        · exact hq'
      have hnext : ∀ q', IsSet p (g, bs) q' → ∀ (i : Nat) (x : GainSet × List Band), (pre ++ [(g, bs)])[i]? = some x →
          ∃ q, (r.set pre.length q')[i]? = some q ∧ IsSet p x q := by
        intro q' hq' j x hj
        by_cases hjl : j < pre.length
        · rw [List.getElem?_append_left hjl] at hj
          obtain ⟨s, hs, hsb⟩ := hdd j x hj
          exact ⟨s, by rw [List.getElem?_set_ne (by omega)]; exact hs, hsb⟩
        · rw [List.getElem?_append_right (by omega)] at hj
          obtain ⟨rfl, hj2⟩ : j = pre.length ∧ (g, bs) = x := by
            cases hx : j - pre.length with
            | zero => rw [hx] at hj; simp at hj; exact ⟨by omega, hj⟩
            | succ m => rw [hx] at hj; simp at hj
          subst hj2
          exact ⟨q', by rw [List.getElem?_set_self hlt], hq'⟩
      rcases hx (g, bs) (by rw [hall]; simp) with h3 | ⟨hg3, hbl, hb4, hbo⟩
      · dsimp only at h3
        have h0 : 0 < r[pre.length].length := by omega
        have h00 := hq128 r[pre.length][0] (List.getElem_mem _)
        refine ⟨⟨false, r.set pre.length (r[pre.length].set 0 ⟨1, r[pre.length][0].nodes.set 0 ⟨0, 1023⟩⟩)⟩,
          fun l => ?_, rfl, hdims _ ⟨by simp [hq4], ?_⟩, hnext _ ⟨fun _ => ?_, fun h => absurd h3 h⟩⟩
        · unfold setStep setBits
          dsimp only
          rw [if_neg (by simp), if_pos h3, Nat.zero_add, getAt_eq (by simpa using hlen), pure_bind_eq, getAt_eq hlt, pure_bind_eq,
            hgk, if_neg (by simp [h3]), getAt_eq h0, pure_bind_eq, setAt_eq (by omega), pure_bind_eq, setAt_eq h0, pure_bind_eq,
            setAt_eq hlt, pure_bind_eq]
          rfl
        · intro s hs
          rcases List.mem_or_eq_of_mem_set hs with hs | rfl
          · exact hq128 s hs
          · rw [List.length_set]
            exact h00
        · exact ⟨_, List.getElem?_set_self h0, rfl, List.getElem?_set_self (by omega)⟩
      · dsimp only at hg3 hbl hb4 hbo
        obtain ⟨q', k1, k2, k3⟩ := run_bands p hp hc g hg3 bs (by omega) hbo r[pre.length] ⟨hq4, hq128⟩
        refine ⟨⟨false, r.set pre.length q'⟩, fun l => ?_, rfl, hdims _ k2, hnext _ ⟨fun h => ?_, fun _ => k3⟩⟩
        · unfold setStep setBits
          dsimp only
          rw [if_neg (by simp), if_neg (by omega), Nat.zero_add, getAt_eq (by simpa using hlen), pure_bind_eq, getAt_eq hlt, pure_bind_eq,
            hgk, if_pos (by omega), ← hbl, run_bind, k1, Res.ok_bind]
          dsimp only
          rw [setAt_eq hlt, pure_bind_eq]
          rfl
        · dsimp only at h
          omega) xs [] ⟨false, seqs⟩ (by simp) ⟨rfl, hd, by simp⟩
  dsimp only at h2
  subst h2
  exact ⟨seqs', h1, h3, h4⟩

/-- One extension. -/
theorem run_ext (e : Ext) (he : e.Ok) (k : Prog Unit) (l : List Bool) :
    run (do
      let w ← bits 3
      let n ← bits (w + 4)
      drop (n + 1)
      k) (natBits 3 e.width ++ natBits (e.width + 4) (e.data.length - 1) ++ e.data ++ l) = run k l := by
  obtain ⟨h1, h2, h3, h4, h5⟩ := he
  rw [List.append_assoc, List.append_assoc, run_bits_bind 3 _ _ _ (by omega) (by omega),
    run_bits_bind (e.width + 4) _ _ _ (by omega) (by omega), run_bind, run_drop, if_neg (by omega), if_neg (by simp; omega),
    Res.ok_bind]
  dsimp only
  congr 1
  rw [show ((e.data.length - 1 : Nat) : Int) + 1 = (e.data.length : Int) by omega, Int.toNat_natCast,
    List.drop_left]

/-- **C111** A payload without extensions decodes to the coded nodes of all bands of all gain sets, and
exactly its bits are read. -/
theorem C111_payload (p : Par) (hp : Timed p) (hc : TimeCoded p) (xs : List (GainSet × List Band))
    (hx : ∀ x ∈ xs, SetOk p x) (hl : xs.length ≤ 24) (seqs : List (List Spline)) (hd : Dims seqs) :
    ∃ seqs', (∀ l, run (readGain p (xs.map (·.1)) seqs) (xs.flatMap (setBits p) ++ extBits [] ++ l) =
        .ok (⟨false, seqs'⟩, l)) ∧ ∀ (i : Nat) (x : GainSet × List Band), xs[i]? = some x → ∃ q, seqs'[i]? = some q ∧ IsSet p x q := by
  obtain ⟨seqs', h1, _, h2⟩ := run_sets p hp hc xs hx hl seqs hd
  refine ⟨seqs', fun l => ?_, h2⟩
  unfold readGain
  rw [List.append_assoc, run_bind, List.length_map, h1, Res.ok_bind]
  dsimp only
  rw [if_neg (by simp)]
  unfold extBits
  rw [if_pos rfl, List.singleton_append, run_bind, run_flag]
  rfl

/-- **C112 (partial)** One extension, whatever its type and data, changes nothing and is skipped. -/
theorem C112_partial (p : Par) (hp : Timed p) (hc : TimeCoded p) (xs : List (GainSet × List Band))
    (hx : ∀ x ∈ xs, SetOk p x) (hl : xs.length ≤ 24) (seqs : List (List Spline)) (hd : Dims seqs) (e : Ext) (he : e.Ok) :
    ∃ seqs', (∀ l, run (readGain p (xs.map (·.1)) seqs) (xs.flatMap (setBits p) ++ extBits [] ++ l) =
        .ok (⟨false, seqs'⟩, l)) ∧
      ∀ l, run (readGain p (xs.map (·.1)) seqs) (xs.flatMap (setBits p) ++ extBits [e] ++ l) = .ok (⟨false, seqs'⟩, l) := by
  obtain ⟨seqs', h1, _, _⟩ := run_sets p hp hc xs hx hl seqs hd
  obtain ⟨h2, h3, _⟩ := id he
  refine ⟨seqs', fun l => ?_, fun l => ?_⟩
  · unfold readGain extBits
    rw [List.append_assoc, run_bind, List.length_map, h1, Res.ok_bind]
    dsimp only
    rw [if_neg (by simp), if_pos rfl, List.singleton_append, run_bind, run_flag]
    rfl
  · unfold readGain extBits
    rw [List.append_assoc, run_bind, List.length_map, h1, Res.ok_bind]
    dsimp only
    rw [if_neg (by simp), if_neg (by simp), List.cons_append, run_bind, run_flag]
    dsimp only
    rw [Res.ok_bind, if_pos rfl, run_bind]
    unfold gainExt
    rw [show ([e].flatMap Ext.bits ++ natBits 4 0 ++ l) = natBits 4 e.type ++ (natBits 3 e.width ++
      natBits (e.width + 4) (e.data.length - 1) ++ e.data ++ (natBits 4 0 ++ l)) by simp [Ext.bits],
      run_bits_bind 4 _ _ _ (by omega) (by omega), if_pos (by omega), run_ext e he,
      run_bits_bind 4 _ _ _ (by omega) (by omega)]
    rfl

/-- **C112 (refuted)** Two or more extensions are always refused. -/
theorem C112_refuted (p : Par) (hp : Timed p) (hc : TimeCoded p) (xs : List (GainSet × List Band))
    (hx : ∀ x ∈ xs, SetOk p x) (hl : xs.length ≤ 24) (seqs : List (List Spline)) (hd : Dims seqs) (e1 e2 : Ext)
    (h1 : e1.Ok) (h2 : e2.Ok) (es : List Ext) (l : List Bool) :
    run (readGain p (xs.map (·.1)) seqs) (xs.flatMap (setBits p) ++ extBits (e1 :: e2 :: es) ++ l) =
      .err .drcUnexpected := by
  obtain ⟨seqs', hs, _, _⟩ := run_sets p hp hc xs hx hl seqs hd
  obtain ⟨h3, h4, _⟩ := id h1
  obtain ⟨h5, h6, _⟩ := id h2
  unfold readGain extBits
  rw [List.append_assoc, run_bind, List.length_map, hs, Res.ok_bind]
  dsimp only
  rw [if_neg (by simp), if_neg (by simp), List.cons_append, run_bind, run_flag]
  dsimp only
  rw [Res.ok_bind, if_pos rfl, run_bind]
  unfold gainExt
  rw [show ((e1 :: e2 :: es).flatMap Ext.bits ++ natBits 4 0 ++ l) = natBits 4 e1.type ++ (natBits 3 e1.width ++
    natBits (e1.width + 4) (e1.data.length - 1) ++ e1.data ++ (natBits 4 e2.type ++ (natBits 3 e2.width ++
    natBits (e2.width + 4) (e2.data.length - 1) ++ e2.data ++ (es.flatMap Ext.bits ++ natBits 4 0 ++ l)))) by simp [Ext.bits],
    run_bits_bind 4 _ _ _ (by omega) (by omega), if_pos (by omega), run_ext e1 h1,
    run_bits_bind 4 _ _ _ (by omega) (by omega), if_pos (by omega)]
  rfl

/-- Hypotheses: at 48 kHz a gain set with three nodes, one of them after the end of the frame, and one
with constant gain; an extension with 16 bits. -/
example : ∃ p, parAt 48000 = .ok p ∧ Timed p ∧ TimeCoded p ∧ Dims clear ∧
    (∀ x ∈ [((⟨0, true, false, 1⟩ : GainSet), [Band.nodes true [4, 40] (-8) [([false, false, false, false], -20000),
      ([true, true], -1250)]]), (⟨3, false, false, 1⟩, [])], SetOk p x) ∧ Ext.Ok ⟨3, 2, List.replicate 16 true⟩ := by
  have h : ((parAt 48000).map fun p => decide (p.dt = 32)) = .ok true := by decide +kernel
  cases hp : parAt 48000 with
  | ok p =>
    rw [hp] at h
    simp only [Res.map, Res.ok.injEq, decide_eq_true_eq] at h
    refine ⟨p, rfl, (parAt_timed 48000 (by omega) p hp).1, parAt_coded 48000 (by omega) p hp, clear_dims, ?_,
      by decide, by decide, by decide, by decide, by decide⟩
    intro x hx
    simp only [List.mem_cons, List.not_mem_nil, or_false] at hx
    rcases hx with rfl | rfl
    · refine Or.inr ⟨by decide, rfl, by decide, ?_⟩
      intro b hb
      simp only [List.mem_singleton] at hb
      subst hb
      refine ⟨by simp [InitOk], ?_, by decide, by decide, by decide, ?_, ?_⟩
      · intro g hg
        simp only [List.mem_cons, List.not_mem_nil, or_false] at hg
        rcases hg with rfl | rfl
        · exact ⟨⟨4, 0x0, -20000⟩, by decide, by decide⟩
        · exact ⟨⟨2, 0x3, -1250⟩, by decide, by decide⟩
      · rw [h]
        decide
      · rw [h]
        decide
    · exact Or.inl rfl
  | _ => rw [hp] at h; simp [Res.map] at h

end Verif.DrcGain
