import Verif.Props.DrcConfigOk
import Verif.Props.DrcFd
import Verif.Props.DrcFilters
import Verif.Props.DrcWeights

/-! # C150 to C153: setting up gain decoders -/

namespace Verif.DrcApply

open DrcConfig DrcSel Res

/-! ## Steps of the set-up -/

theorem softRows_length (c : Curve) (ps : List Param) (n : Nat) : ∀ (t band : Nat) (l : Rat),
    Gives (softRows c ps n t band l) (fun rows : List (Nat → Rat) => rows.length = t)
  | 0, _, _ => Gives.ok rfl
  | t + 1, band, l => by
    unfold softRows
    refine Gives.bind (Q := fun _ => True) (fun _ _ => trivial) fun h _ => ?_
    exact Gives.bind (softRows_length c ps n t (band + 1) h) fun rest hrest => Gives.ok (by simp [hrest])

theorem weights_length (c : Curve) (bt n : Nat) (ps : List Param) :
    Gives (weights c bt n ps) (fun rows : List (Nat → Rat) => rows.length = n) := by
  unfold weights
  refine Gives.ite (fun _ => (hardRows_gives ps n n 0 0 (by omega)).mono fun _ h => h.1) fun _ => ?_
  exact Gives.bind (softRows_length c ps n n 0 0) fun rows h => Gives.ok (by simpa using h)

theorem groupWeights_gives (c : Curve) (cf : Coeffs) (o : Instr) : Gives (groupWeights c cf o) (HasWeights o) := by
  unfold groupWeights
  refine (gives_range (I := fun n (ws : List (List (Nat → Rat))) => ws.length = n ∧ ∀ g < n, 1 < bands o g →
    ∃ w, ws[g]? = some w ∧ bands o g ≤ w.length) ?_ ⟨rfl, by omega⟩).mono fun ws h => h.2
  intro i hi ws hws
  refine Gives.bind (gives_at _ _) fun n hn => ?_
  have hb : bands o i = n := by unfold bands; rw [hn]; rfl
  have old : ∀ w : List (Nat → Rat), (1 < n → n ≤ w.length) → (ws ++ [w]).length = i + 1 ∧ ∀ g < i + 1, 1 < bands o g →
      ∃ v, (ws ++ [w])[g]? = some v ∧ bands o g ≤ v.length := by
    intro w hw
    refine ⟨by simp [hws.1], fun g hg h1 => ?_⟩
    rcases Nat.lt_succ_iff_lt_or_eq.mp hg with hlt | rfl
    · rw [List.getElem?_append_left (by omega)]
      exact hws.2 g hlt h1
    · refine ⟨w, ?_, by rw [hb] at h1 ⊢; exact hw h1⟩
      rw [List.getElem?_append_right (by omega), hws.1]
      simp
  refine Gives.ite (fun h1 => ?_) fun h1 => Gives.ok (old [] fun h => absurd h h1)
  refine Gives.bind (Q := fun _ => True) (fun _ _ => trivial) fun s _ => ?_
  refine Gives.ite (fun _ => Gives.ub) fun _ => ?_
  refine Gives.bind (Q := fun _ => True) (fun _ _ => trivial) fun gs _ => ?_
  refine Gives.bind (weights_length _ _ _ _) fun w hw => Gives.ok (old w fun _ => by omega)

theorem initBanks_length {cf : Coeffs} {o : Instr} {chans : Nat} {banks : List Bank} (hb : banks.length = 8) :
    Gives (initBanks cf o chans banks) (fun bs => bs.length = 8 ∧ o.groups ≤ 7) := by
  unfold initBanks
  refine Gives.bind (Q := fun bs : List Bank => bs.length = 8) ?_ fun bs hbs => ?_
  · refine gives_each (fun g _ bs hbs => ?_) hb
    refine Gives.bind (Q := fun _ => True) (fun _ _ => trivial) fun fs _ => ?_
    match fs with
    | none => exact Gives.ok hbs
    | some fs => exact Gives.bind (Q := fun _ => True) (fun _ _ => trivial) fun b _ => Gives.ok (by simpa using hbs)
  refine Gives.bind (Q := fun _ => True) (fun _ _ => trivial) fun l1 _ => ?_
  refine Gives.bind (Q := fun _ => True) (fun _ _ => trivial) fun l2 _ => ?_
  refine Gives.bind (Q := fun bs : List Bank => bs.length = 8) ?_ fun bs' hbs' => ?_
  · unfold setCascades
    refine gives_each (fun x _ bs hbs => ?_) hbs
    refine Gives.ite (fun _ => Gives.ok hbs) fun _ => ?_
    refine Gives.ite (fun _ => Gives.ub) fun _ => ?_
    exact Gives.bind (Q := fun _ => True) (fun _ _ => trivial) fun b _ => Gives.ok (by simpa using hbs)
  refine Gives.ite (fun _ => Gives.ub) fun h => Gives.ok ⟨hbs', ?_⟩
  have : o.groups ≤ aligned o chans := by unfold aligned; split <;> omega
  omega

/-- Where all channels are given the group of the first gain set, there is such a group. -/
def AnyOk (o : Instr) : Prop :=
  ∀ d i, o.dmxIds[0]? = some d → (d = 127 ∨ 1 < o.dmxCount) → o.gainIdx[0]? = some i → 0 ≤ i → 0 < o.groups

theorem groupInfo_gives {o : Instr} {chans : Nat} (h : Ready o chans) (ha : AnyOk o) :
    Gives (groupInfo o chans) (fun o' => Ready o' chans ∧ o'.setId = o.setId ∧ o'.elements = o.elements ∧ o'.groups = o.groups ∧ o'.bandCount = o.bandCount) := by
  unfold groupInfo
  refine Gives.bind (gives_at _ _) fun d hd => ?_
  refine Gives.bind (Q := fun o' : Instr => Ready o' chans ∧ o'.setId = o.setId ∧ o'.elements = o.elements ∧ o'.groups = o.groups ∧
    o'.bandCount = o.bandCount) ?_ fun o' ho' =>
    Gives.ite (fun _ => Gives.ub) fun _ => Gives.ok ho'
  refine Gives.ite (fun hc => ?_) fun _ => Gives.ok ⟨h, rfl, rfl, rfl, rfl⟩
  refine Gives.bind (gives_at _ _) fun i hi => ?_
  refine Gives.bind (Q := fun of : List Int => of.length = o.chGroup.length ∧
    ∀ ch < chans, of[ch]? = some (if 0 ≤ i then 0 else -1)) ?_ fun of hof => Gives.ok ⟨?_, rfl, rfl, rfl, rfl⟩
  · refine gives_range (I := fun n (of : List Int) => of.length = o.chGroup.length ∧
      ∀ ch < n, of[ch]? = some (if 0 ≤ i then 0 else -1)) ?_ ⟨rfl, by omega⟩
    intro n hn of hof
    refine Gives.ite (fun hl => Gives.ok ⟨by simpa using hof.1, fun ch hch => ?_⟩) fun _ => Gives.ub
    by_cases he : ch = n
    · subst he
      rw [List.getElem?_set_self hl]
    · rw [List.getElem?_set_ne (by omega)]
      exact hof.2 ch (by omega)
  · have hg : ∀ ch < chans, group { o with chGroup := of } ch = if 0 ≤ i then 0 else -1 := by
      intro ch hch
      show (of[ch]?).getD (-1) = _
      rw [hof.2 ch hch]
      rfl
    have hpos : 0 ≤ i → 0 < o.groups := ha d i hd hc hi
    refine ⟨h.id, h.most, by show chans ≤ of.length; rw [hof.1]; exact h.length, ?_, h.groups, h.count, h.ducks, h.elements⟩
    intro ch hch
    rw [hg ch hch]
    show _ ∧ _ < ((o.groups : Nat) : Int)
    by_cases h0 : 0 ≤ i
    · have := hpos h0
      rw [if_pos h0]
      omega
    · rw [if_neg h0]
      omega

theorem Ready.group_lt {o : Instr} {n : Nat} (h : Ready o n) {ch : Nat} (hc : ch < n) (hg : ¬ group o ch < 0) :
    (group o ch).toNat < o.groups := by
  have := (h.member ch hc).2
  omega

theorem firstSig_ones {o : Instr} {n : Nat} (h : Ready o n) (h1 : ∀ g < o.groups, bands o g = 1) :
    ∀ ch ≤ n, firstSig o ch = ch
  | 0, _ => rfl
  | ch + 1, hch => by
    rw [firstSig_succ, firstSig_ones h h1 ch (by omega)]
    unfold sigs
    split
    · rfl
    · rename_i hg
      rw [h1 _ (h.group_lt (by omega) hg)]

theorem countSignals_gives {o : Instr} {n : Nat} (h : Ready o n) : Gives (countSignals o n) (fun k => k = firstSig o n) := by
  unfold countSignals
  refine Gives.ite (fun hd => Gives.ok ?_) fun _ => ?_
  · exact (firstSig_ones h (h.ducks (by simpa using hd)) n (Nat.le_refl n)).symm
  refine gives_range (I := fun i k => k = firstSig o i) ?_ rfl
  intro i hi k hk
  refine Gives.bind (Q := fun b => b = sigs o i) ?_ fun b hb => Gives.ok (by rw [firstSig_succ, hk, hb])
  unfold signals
  refine Gives.bind (gives_at _ _) fun g hg => ?_
  have he : group o i = g := by unfold group; rw [hg]; rfl
  unfold sigs
  rw [he]
  refine Gives.ite (fun h0 => Gives.ok (by rw [if_pos h0])) fun h0 => ?_
  intro b hb
  rw [if_neg h0]
  unfold bands
  rw [at_ok.mp hb]
  rfl

theorem hasBands_gives (o : Instr) (multi : Int) : Gives (hasBands o multi) (fun b =>
    (b = false → ∀ g < o.groups, bands o g ≤ 1) ∧ (b = true → multi = -1 ∧ ∃ g < o.groups, 1 < bands o g)) := by
  unfold hasBands
  refine (gives_range (I := fun n (b : Bool) => (b = false → ∀ g < n, bands o g ≤ 1) ∧
    (b = true → multi = -1 ∧ ∃ g < n, 1 < bands o g)) ?_ ⟨by simp, by simp⟩)
  intro i hi b hb
  refine Gives.bind (gives_at _ _) fun n hn => ?_
  have he : bands o i = n := by unfold bands; rw [hn]; rfl
  refine Gives.ite (fun h1 => ?_) fun h1 => Gives.ok ⟨fun hf g hg => ?_, fun ht => ?_⟩
  · refine Gives.ite (fun _ => Gives.err) fun hm => Gives.ok ⟨by simp, fun _ => ⟨by simpa using hm, i, by omega, by omega⟩⟩
  · rcases Nat.lt_succ_iff_lt_or_eq.mp hg with hlt | rfl
    · exact hb.1 hf g hlt
    · omega
  · obtain ⟨a, g, hg, h2⟩ := hb.2 ht
    exact ⟨a, g, by omega, h2⟩

/-! ## All sets of a decoder -/

/-- The set at index `j` of a gain decoder, `x`, is that of `set` for its channels. -/
structure Taken (c : Config) (dmxs : List (Int × Nat)) (audio : Nat) (d : Dec) (j : Nat) (set : Int × Int) (x : Inst) : Prop where
  id : x.o.setId = set.1
  chans : channelsFor c dmxs audio set.2 = .ok x.chans
  ready : Ready x.o x.chans
  sigs : x.sigs = firstSig x.o x.chans
  multi : d.multi = j → x.o.groups ≤ 7 ∧ HasWeights x.o d.weights ∧ ∃ g < x.o.groups, 1 < bands x.o g
  single : d.multi ≠ j → ∀ g < x.o.groups, bands x.o g = 1

/-- After the sets `done`. -/
structure Reached (c : Config) (dmxs : List (Int × Nat)) (audio : Nat) (is : List Inst) (done : List (Int × Int))
    (s : List Inst × Dec) : Prop where
  count : s.2.sel.length = done.length
  taken : ∀ (j k : Nat), s.2.sel[j]? = some k → ∃ x set, s.1[k]? = some x ∧ done[j]? = some set ∧ Taken c dmxs audio s.2 j set x
  multi : s.2.multi = -1 ∨ (0 ≤ s.2.multi ∧ s.2.multi < s.2.sel.length)
  banks : s.2.banks.length = 8
  others : ∀ (k : Nat) (x : Inst), s.1[k]? = some x → x.o.setId ∉ done.map (·.1) → is[k]? = some x

theorem initSet_gives {cv : Curve} {c : Config} {dmxs : List (Int × Nat)} {audio : Nat} {is : List Inst}
    {done : List (Int × Int)} {set : Int × Int} {s : List Inst × Dec} (h : Reached c dmxs audio is done s)
    (hnew : set.1 ∉ done.map (·.1))
    (hr : ∀ x ∈ is.take c.plus, x.o.setId = set.1 → ∀ n, channelsFor c dmxs audio set.2 = .ok n → Ready x.o n ∧ AnyOk x.o) :
    Gives (initSet cv c dmxs audio set s) (Reached c dmxs audio is (done ++ [set])) := by
  obtain ⟨ls, d⟩ := s
  unfold initSet
  dsimp only
  refine Gives.ite (fun _ => Gives.err) fun hlen => ?_
  refine Gives.ite (fun _ => Gives.ub) fun _ => ?_
  generalize hidx : (ls.take c.plus).findIdx (·.o.setId == set.1) = i at hlen ⊢
  have hi : i < (ls.take c.plus).length := by omega
  have hid : ∃ y, ls[i]? = some y ∧ y.o.setId = set.1 := by
    have := List.findIdx_getElem (w := by rw [hidx]; exact hi)
    have hi' : i < ls.length := by rw [List.length_take] at hi; omega
    refine ⟨ls[i], List.getElem?_eq_getElem hi', ?_⟩
    simp only [hidx, List.getElem_take] at this
    simpa using this
  obtain ⟨y, hy, hyid⟩ := hid
  have hi' : i < ls.length := (List.getElem?_eq_some_iff.mp hy).1
  refine Gives.bind (gives_at _ _) fun x hx => ?_
  rw [hy] at hx
  cases hx
  have hin : is[i]? = some y := h.others i y hy (by rw [hyid]; exact hnew)
  refine Gives.bind (Q := fun n => channelsFor c dmxs audio set.2 = .ok n) (fun n hn => hn) fun n hn => ?_
  obtain ⟨hready, hany⟩ := hr y (List.mem_of_getElem? (i := i) (by
    rw [List.getElem?_take_of_lt (by rw [List.length_take] at hi; omega)]; exact hin)) hyid n hn
  refine Gives.bind (groupInfo_gives hready hany) fun o ho => ?_
  obtain ⟨ho1, ho2, ho3, _⟩ := ho
  refine Gives.bind (countSignals_gives ho1) fun sg hsg => ?_
  refine Gives.bind (hasBands_gives o d.multi) fun m hm => ?_
  -- the other sets
  have hne : ∀ (j k : Nat), d.sel[j]? = some k → k ≠ i := by
    intro j k hk he
    obtain ⟨z, st, hz, hst, ht⟩ := h.taken j k hk
    subst he
    rw [hy] at hz
    cases hz
    exact hnew (List.mem_map.mpr ⟨st, List.mem_of_getElem? hst, by rw [← ht.id, hyid]⟩)
  have hoth : ∀ (k : Nat) (x : Inst), (ls.set i ⟨o, n, sg⟩)[k]? = some x → x.o.setId ∉ (done ++ [set]).map (·.1) → is[k]? = some x := by
    intro k x hk hno
    by_cases he : k = i
    · subst he
      rw [List.getElem?_set_self hi'] at hk
      cases hk
      exact absurd (List.mem_map.mpr ⟨set, by simp, by rw [ho2, hyid]⟩) hno
    · rw [List.getElem?_set_ne (by omega)] at hk
      exact h.others k x hk fun hmem => hno (by rw [List.map_append]; exact List.mem_append_left _ hmem)
  have fin : ∀ d' : Dec, d'.sel = d.sel ++ [i] → d'.banks.length = 8 →
      ((m = true ∧ d'.multi = (d.sel.length : Int) ∧ o.groups ≤ 7 ∧ HasWeights o d'.weights) ∨
        (m = false ∧ d'.multi = d.multi ∧ d'.weights = d.weights)) →
      Reached c dmxs audio is (done ++ [set]) (ls.set i ⟨o, n, sg⟩, d') := by
    intro d' hsel hbank hmw
    have hmulti := h.multi
    dsimp only at hmulti
    refine ⟨by show d'.sel.length = _; rw [hsel]; simp [h.count], ?_, ?_, hbank, hoth⟩
    · intro j k hk
      change d'.sel[j]? = some k at hk
      rw [hsel] at hk
      by_cases hj : j < d.sel.length
      · rw [List.getElem?_append_left hj] at hk
        obtain ⟨z, st, hz, hst, ht⟩ := h.taken j k hk
        refine ⟨z, st, ?_, ?_, ht.id, ht.chans, ht.ready, ht.sigs, ?_, ?_⟩
        · show (ls.set i _)[k]? = some z
          rw [List.getElem?_set_ne (fun e => hne j k hk e.symm)]
          exact hz
        · rw [List.getElem?_append_left (by have := h.count; dsimp only at this; omega)]
          exact hst
        · intro hmj
          rcases hmw with ⟨_, h2, _⟩ | ⟨_, h2, h3⟩
          · exfalso
            change d'.multi = j at hmj
            omega
          · show _ ∧ HasWeights z.o d'.weights ∧ _
            rw [h3]
            exact ht.multi (by show d.multi = j; rw [← h2]; exact hmj)
        · intro hmj
          refine ht.single ?_
          show d.multi ≠ j
          rcases hmw with ⟨hmt, h2, _⟩ | ⟨_, h2, h3⟩
          · have := (hm.2 hmt).1
            omega
          · rw [← h2]
            exact hmj
      · have hj' : j = d.sel.length := by
          have := (List.getElem?_eq_some_iff.mp hk).1
          simp at this
          omega
        subst hj'
        rw [List.getElem?_append_right (Nat.le_refl _)] at hk
        simp only [Nat.sub_self, List.getElem?_cons_zero, Option.some.injEq] at hk
        subst hk
        refine ⟨⟨o, n, sg⟩, set, ?_, ?_, ?_, hn, ho1, hsg, ?_, ?_⟩
        · exact List.getElem?_set_self hi'
        · have := h.count
          dsimp only at this
          rw [List.getElem?_append_right (by omega), this]
          simp
        · show o.setId = set.1
          rw [ho2, hyid]
        · intro hmj
          change d'.multi = _ at hmj
          rcases hmw with ⟨hmt, _, h3, h4⟩ | ⟨_, h2, h3⟩
          · exact ⟨h3, h4, (hm.2 hmt).2⟩
          · exfalso
            omega
        · intro hmj
          change d'.multi ≠ _ at hmj
          rcases hmw with ⟨_, h2, _⟩ | ⟨hmf, h2, h3⟩
          · exact absurd h2 hmj
          · intro g hg
            have h1 := hm.1 hmf g hg
            have h2 := (ho1.count g hg).1
            show bands o g = 1
            omega
    · show d'.multi = -1 ∨ (0 ≤ d'.multi ∧ d'.multi < (d'.sel.length : Int))
      rw [hsel]
      simp only [List.length_append, List.length_singleton]
      rcases hmw with ⟨_, h2, _⟩ | ⟨hmf, h2, h3⟩
      · right; omega
      · rw [h2]; omega
  cases m with
  | true =>
    rw [if_pos rfl]
    split
    · exact Gives.ub
    · rename_i cf hcf
      refine Gives.bind (initBanks_length h.banks) fun bs hbs => ?_
      refine Gives.bind (groupWeights_gives cv cf o) fun w hw => Gives.ok ?_
      exact fin _ rfl hbs.1 (.inl ⟨rfl, rfl, hbs.2, hw⟩)
  | false =>
    rw [if_neg (by simp)]
    exact Gives.ok (fin _ rfl h.banks (.inr ⟨rfl, rfl, rfl⟩))

/-- Sets of a gain decoder that is set up. -/
theorem initDec_gives {cv : Curve} {c : Config} {dmxs : List (Int × Nat)} {audio frame mem : Nat} {sets : List (Int × Int)}
    {is : List Inst} {banks : List Bank} (h8 : banks.length = 8) (hn : (sets.map (·.1)).Nodup)
    (hr : ∀ set ∈ sets, ∀ x ∈ is.take c.plus, x.o.setId = set.1 → ∀ n, channelsFor c dmxs audio set.2 = .ok n → Ready x.o n ∧ AnyOk x.o) :
    Gives (initDec cv c dmxs audio frame sets (is, newDec banks) mem) (fun r =>
      r.2.1.sel.length = sets.length ∧ (r.2.1.multi = -1 ∨ (0 ≤ r.2.1.multi ∧ r.2.1.multi < sets.length)) ∧
      r.2.1.chans = audio ∧ ∀ j k, r.2.1.sel[j]? = some k → ∃ x set, r.1[k]? = some x ∧ sets.reverse[j]? = some set ∧
        Taken c dmxs audio r.2.1 j set x ∧ r.2.1.gains[j]? = some x.o.elements ∧ x.sigs ≤ r.2.1.rows) := by
  unfold initDec
  refine Gives.bind (Q := Reached c dmxs audio is sets.reverse) ?_ fun s hs => ?_
  · refine gives_eachAll (I := Reached c dmxs audio is) ?_ ?_
    · intro pre x post he s hs
      refine initSet_gives hs ?_ fun y hy => hr x ?_ y hy
      · have : (sets.reverse.map (·.1)).Nodup := by rw [List.map_reverse]; exact List.nodup_reverse.mpr hn
        rw [he, List.map_append, List.map_cons] at this
        intro hmem
        exact (List.nodup_append.mp this).2.2 _ hmem _ (by simp) rfl
      · rw [← List.mem_reverse, he]
        simp
    · exact ⟨rfl, by simp [newDec], .inl rfl, h8, fun k x hk _ => hk⟩
  obtain ⟨ls, d⟩ := s
  dsimp only
  refine Gives.bind (Q := fun _ => True) (fun _ _ => trivial) fun mem' _ => ?_
  refine Gives.bind (Q := fun ns : List Nat => ∀ (j k : Nat), d.sel[j]? = some k → ∀ x : Inst, ls[k]? = some x → ns[j]? = some x.o.elements) ?_
    fun gains hg => ?_
  · refine (gives_eachAll (I := fun pre (ns : List Nat) => ns.length = pre.length ∧ ∀ (j k : Nat), pre[j]? = some k → ∀ x : Inst, ls[k]? = some x →
      ns[j]? = some x.o.elements) ?_ ⟨rfl, by simp⟩).mono fun ns h => h.2
    intro pre k post he ns hns
    refine Gives.bind (gives_at _ _) fun x hx => Gives.ok ⟨by simp [hns.1], ?_⟩
    intro j k' hk' y hy
    by_cases hj : j < pre.length
    · rw [List.getElem?_append_left hj] at hk'
      rw [List.getElem?_append_left (by omega)]
      exact hns.2 j k' hk' y hy
    · have hj' : j = pre.length := by
        have := (List.getElem?_eq_some_iff.mp hk').1
        simp at this
        omega
      subst hj'
      rw [List.getElem?_append_right (Nat.le_refl _)] at hk'
      simp only [Nat.sub_self, List.getElem?_cons_zero, Option.some.injEq] at hk'
      subst hk'
      rw [hx] at hy
      cases hy
      rw [List.getElem?_append_right (by omega), hns.1]
      simp
  refine Gives.bind (Q := fun n => ∀ k ∈ d.sel, ∀ x : Inst, ls[k]? = some x → x.sigs ≤ n) ?_ fun rows hrows => ?_
  · refine (gives_eachAll (I := fun pre n => ∀ k ∈ pre, ∀ x : Inst, ls[k]? = some x → x.sigs ≤ n) ?_ (by simp)).mono fun n h k hk =>
      h k (List.mem_reverse.mpr hk)
    intro pre k post he n hn
    refine Gives.bind (gives_at _ _) fun x hx => Gives.ok ?_
    intro k' hk' y hy
    rcases List.mem_append.mp hk' with h1 | h1
    · have := hn k' h1 y hy
      omega
    · simp only [List.mem_singleton] at h1
      subst h1
      rw [hx] at hy
      cases hy
      omega
  refine Gives.ite (fun _ => Gives.ub) fun _ => Gives.ok ⟨by simpa using hs.count, ?_, rfl, ?_⟩
  · have h1 := hs.multi
    have h2 := hs.count
    simp only [List.length_reverse] at h2
    rw [← h2]
    exact h1
  · intro j k hk
    obtain ⟨x, set, hx, hset, ht⟩ := hs.taken j k hk
    exact ⟨x, set, hx, hset, ⟨ht.id, ht.chans, ht.ready, ht.sigs, ht.multi, ht.single⟩, hg j k hk x hx,
      hrows k (List.mem_of_getElem? hk) x hx⟩

/-- A set that is set up fits the gain decoder. -/
theorem Taken.fits {c : Config} {dmxs : List (Int × Nat)} {audio : Nat} {d : Dec} {j : Nat} {set : Int × Int} {x : Inst}
    (h : Taken c dmxs audio d j set x) (hrows : x.sigs ≤ d.rows) {q : Par} (hc : q.chans ≤ x.chans) (hw : q.delay ≤ 1536 ∧ origin q + q.frame ≤ 3584)
    (hq : q.rows = d.rows) {gains : List (Nat → Rat)} (hg : gains.length = x.o.elements) :
    Fits q (decide (d.multi = j)) x gains ∧ HasWeights x.o d.weights := by
  have hr := h.ready
  refine ⟨⟨⟨hr.id, hc, hr.length, hr.member, hr.groups, hr.count, by rw [hg, hr.elements], hw⟩, hr.most,
    fun hm => h.single (by simpa using hm), fun hm => (h.multi (by simpa using hm)).1, ?_⟩, ?_⟩
  · rw [hq]
    have := firstSig_mono x.o hc
    have := h.sigs
    omega
  · by_cases hm : d.multi = j
    · exact (h.multi hm).2.1
    · intro g hg h1
      have := h.single hm g hg
      omega

/-! ## From configurations to samples -/

theorem grouped_members {K : Type} {key : Nat → Option K} {n groups : Nat} {o : Instr} (h : Grouped key n o.chGroup groups) :
    n ≤ o.chGroup.length ∧ ∀ ch < n, -1 ≤ group o ch ∧ group o ch < (groups : Int) := by
  have each : ∀ ch < n, ∃ v, o.chGroup[ch]? = some v ∧ -1 ≤ v ∧ v < (groups : Int) := by
    intro ch hch
    cases hk : key ch with
    | none => exact ⟨-1, h.free ch hch hk, by omega, by omega⟩
    | some k =>
      obtain ⟨g, hg, hv⟩ := h.member ch hch k hk
      exact ⟨g, hv, by omega, by omega⟩
  refine ⟨?_, fun ch hch => ?_⟩
  · by_contra hno
    obtain ⟨v, hv, _⟩ := each o.chGroup.length (by omega)
    simp at hv
  · obtain ⟨v, hv, h1⟩ := each ch hch
    unfold group
    rw [hv]
    exact h1

/-- An accepted instruction for the channels of the stream, whose gain sets have bands, is as it should be. -/
theorem ready_of_ok {env : Env} {cs : List Coeffs} {n : Nat} {o : Instr} (h : InstrOk env cs n o) (hd : Derived env cs o)
    (hid : 0 < o.setId) (hn : n ≤ 16) (h0 : o.dmxIds[0]? = some 0) (h1 : o.dmxCount ≤ 1) (hb : ∀ g < o.groups, 1 ≤ bands o g) :
    Ready o n := by
  have hband : ∀ g < o.groups, ∃ v, o.bandCount[g]? = some v ∧ v ≤ 4 := by
    obtain ⟨_, _, _, _, _, hk⟩ := hd.coeffs
    intro g hg
    obtain ⟨v, s, _, _, _, _, _, _, _, h5, h6⟩ := hk g hg
    refine ⟨_, h5, ?_⟩
    split <;> omega
  have hmem : n ≤ o.chGroup.length ∧ ∀ ch < n, -1 ≤ group o ch ∧ group o ch < (o.groups : Int) := by
    by_cases h11 : o.effect.testBit 11 = true
    · exact grouped_members (h.self h11).1
    · by_cases h10 : o.effect.testBit 10 = true
      · exact grouped_members (h.other (by simpa using h11) h10).1
      · obtain ⟨m, hm, hg, _⟩ := h.plain (fun hk => by rcases hk with e | e <;> contradiction) 0 h0 (by decide) h1
        rw [hm.2.1 rfl] at hg
        exact grouped_members hg
  refine ⟨hid, hn, hmem.1, hmem.2, ⟨?_, by have := h.groups; omega⟩, ?_, ?_, ?_⟩
  · by_contra hno
    obtain ⟨v, hv, _⟩ := hband o.bandCount.length (by omega)
    simp at hv
  · intro g hg
    refine ⟨hb g hg, ?_⟩
    obtain ⟨v, hv, h4⟩ := hband g hg
    unfold bands
    rw [hv]
    exact h4
  · intro hk g hg
    unfold bands
    rw [h.bands hk g hg]
    rfl
  · rw [hd.elements]
    unfold firstGain
    refine congrArg List.sum (List.map_congr_left fun g hg => ?_)
    obtain ⟨v, hv, _⟩ := hband g (List.mem_range.mp hg)
    unfold bands
    rw [hv]
    rfl

/-- The sets of a gain decoder with gains, as many as the decoder has for each. -/
def Loaded (is : List Inst) (d : Dec) (xs : List (Inst × List (Nat → Rat))) : Prop :=
  xs.length = d.sel.length ∧ ∀ (j : Nat) (y : Inst × List (Nat → Rat)), xs[j]? = some y →
    ∃ k, d.sel[j]? = some k ∧ is[k]? = some y.1 ∧ d.gains[j]? = some y.2.length

/-- **C151**: from an accepted configuration to samples.  The gain decoder for the channels of the stream is set up for
active sets of the configuration that are for these channels, without other downmixes, and whose gain sets have at
least one band.  When set-up succeeds then, whatever the gains, processing in the time domain and in the subband domain
reads and writes inside its buffers and applies the sets as it should. -/
theorem C151_partial {env : Env} {c : Config} (hc : ConfigOk env c) {cv : Curve} {dmxs : List (Int × Nat)} {audio frame mem : Nat}
    {sets : List (Int × Int)} {is : List Inst} (his : is.map (·.o) = c.instrs) {banks : List Bank} (h8 : banks.length = 8)
    (hn : (sets.map (·.1)).Nodup) (hb : ∀ set ∈ sets, 0 < set.1 ∧ set.2 = 0) (ha : audio ≤ c.channels)
    (hs : ∀ o ∈ c.instrs.take c.plus, o.setId ∈ sets.map (·.1) → o.dmxIds[0]? = some 0 ∧ o.dmxCount ≤ 1 ∧ ∀ g < o.groups, 1 ≤ bands o g)
    {is' : List Inst} {d : Dec} {mem' : Nat} (h : initDec cv c dmxs audio frame sets (is, newDec banks) mem = .ok (is', d, mem'))
    {xs : List (Inst × List (Nat → Rat))} (hx : Loaded is' d xs) {delay len : Nat} {low : Bool} (hd : delay ≤ 1536)
    (hw : 1536 - delay + (if low then len else 0) + len ≤ 3584) (k : Banks) (s t : Buf × Buf) :
    (xs.map (·.1.o.setId) = sets.reverse.map (·.1)) ∧
    (∃ r, tdProcess ⟨delay, low, len, d.chans, d.multi, d.rows⟩ k xs s = .ok r ∧
      r.2 = xs.zipIdx.foldr (fun y a => setOut ⟨delay, low, len, d.chans, d.multi, d.rows⟩ k (decide (d.multi = y.2)) y.1.1.o y.1.2 a) s.2) ∧
    fdProcess ⟨delay, low, len, d.chans, d.multi, d.rows⟩ true d.weights xs t = .ok
      (xs.foldr (fun y a => realOut ⟨delay, low, len, d.chans, d.multi, d.rows⟩ y.1.o y.2 d.weights a) t.1,
       xs.foldr (fun y a => imagOut ⟨delay, low, len, d.chans, d.multi, d.rows⟩ y.1.o y.2 d.weights a) t.2) := by
  have hready : ∀ set ∈ sets, ∀ x ∈ is.take c.plus, x.o.setId = set.1 → ∀ n, channelsFor c dmxs audio set.2 = .ok n →
      Ready x.o n ∧ AnyOk x.o := by
    intro set hset x hx he n hcn
    obtain ⟨hpos, hz⟩ := hb set hset
    have hxo : x.o ∈ c.instrs.take c.plus := by
      rw [← his, ← List.map_take]
      exact List.mem_map.mpr ⟨x, hx, rfl⟩
    obtain ⟨h1, h2, h3⟩ := hs x.o hxo (List.mem_map.mpr ⟨set, hset, he.symm⟩)
    have hcn' : n = c.channels := by
      unfold channelsFor at hcn
      rw [if_pos hz] at hcn
      cases hcn
      rfl
    obtain ⟨i, hi⟩ := List.getElem?_of_mem hxo
    obtain ⟨_, _, oa, fa, ob, fb⟩ := hc.off
    have hi2 : i < c.plus ∧ c.instrs[i]? = some x.o := by
      have := (List.getElem?_eq_some_iff.mp hi).1
      rw [List.length_take] at this
      refine ⟨by omega, ?_⟩
      rw [List.getElem?_take_of_lt (by omega)] at hi
      exact hi
    have hplus := hc.plus.1
    have hlt : i < c.instrCount := by
      by_contra hno
      rcases (show i = c.instrCount ∨ i = c.instrCount + 1 by omega) with e | e
      · rw [e, oa] at hi2
        have := fa.id
        rw [Option.some.inj hi2.2] at this
        omega
      · rw [e, ob] at hi2
        have := fb.id
        rw [Option.some.inj hi2.2] at this
        omega
    obtain ⟨o, ho, hok, hder⟩ := hc.instrs i hlt
    rw [hi2.2] at ho
    cases ho
    rw [hcn']
    refine ⟨ready_of_ok hok hder (by omega) (hc.channels (by omega)) h1 h2 h3, ?_⟩
    intro d' j hd' hor
    rw [h1] at hd'
    cases hd'
    omega
  obtain ⟨hcnt, _, hchans, htaken⟩ := initDec_gives h8 hn hready _ h
  dsimp only at hcnt hchans htaken
  have all : ∀ (j : Nat) (y : Inst × List (Nat → Rat)), xs[j]? = some y →
      (∃ set, sets.reverse[j]? = some set ∧ y.1.o.setId = set.1) ∧
      Fits ⟨delay, low, len, d.chans, d.multi, d.rows⟩ (decide (d.multi = j)) y.1 y.2 ∧ HasWeights y.1.o d.weights := by
    intro j y hy
    obtain ⟨i, h1, h2, h3⟩ := hx.2 j y hy
    obtain ⟨x, set, h4, h5, ht, h6, h7⟩ := htaken j i h1
    rw [h2] at h4
    cases h4
    have hch : y.1.chans = c.channels := by
      have := ht.chans
      unfold channelsFor at this
      rw [if_pos (hb set (List.mem_reverse.mp (List.mem_of_getElem? h5))).2] at this
      exact (Res.ok.inj this).symm
    refine ⟨⟨set, h5, ht.id⟩, ht.fits (q := ⟨delay, low, len, d.chans, d.multi, d.rows⟩) h7 (by show d.chans ≤ _; omega) ⟨hd, hw⟩ rfl ?_⟩
    rw [h3] at h6
    exact Option.some.inj h6
  refine ⟨?_, ?_, ?_⟩
  · refine List.ext_getElem? fun j => ?_
    rw [List.getElem?_map, List.getElem?_map]
    by_cases hj : j < xs.length
    · obtain ⟨⟨set, h1, h2⟩, _⟩ := all j xs[j] (List.getElem?_eq_getElem hj)
      rw [List.getElem?_eq_getElem hj, h1]
      simp [h2]
    · rw [List.getElem?_eq_none (by omega), List.getElem?_eq_none (by have := hx.1; simp; omega)]
      rfl
  · exact C146_time_domain _ k xs (fun j y hy => (all j y hy).2.1) s
  · refine C147_subbands _ d.weights xs (fun y hy => ?_) t
    obtain ⟨j, hj⟩ := List.getElem?_of_mem hy
    obtain ⟨_, h1, h2⟩ := all j y hj
    exact ⟨h1.toShape, h2⟩

/-! ## What goes wrong with gain sets without bands -/

open Spec

/-- A gain set without bands: the number of bands is coded as 0. -/
def noBands : Drc.GSet := ⟨0, false, false, true, []⟩

/-- Two channels: the first has a gain set without bands, the other one of one band. -/
def silent : List Bool := configBits 2 [⟨1, [noBands, crossing []]⟩] [forChannels 1 [1, 2] 2]

/-- The gain decoder for the channels of the stream after a configuration, for these sets. -/
def decoderOf (c : Config) (sets : List (Int × Int)) : Res (List Inst × Dec × Nat) :=
  initDec ⟨fun _ => 1, fun _ => 1⟩ c [] c.channels 1024 sets (c.instrs.map fun o => ⟨o, 0, 0⟩, newDec fresh) 0

/-- The sets of a decoder with gains 1. -/
def unity (is : List Inst) (d : Dec) : List (Inst × List (Nat → Rat)) :=
  d.sel.filterMap fun k => (is[k]?).map fun x => (x, List.replicate x.o.elements fun _ => 1)

/-- **C151**, refuted for gain sets without bands: the configuration is accepted and set up, and there is one row for
two channels. -/
theorem C151_refuted : noBands.Valid ∧ ∃ c is d mem, Prog.run (readConfig ⟨32, []⟩ clearedConfig) silent = .ok (c, []) ∧
    decoderOf c [(1, 0)] = .ok (is, d, mem) ∧
    ∀ (k : Banks) (s : Buf × Buf), tdProcess ⟨0, false, 1024, d.chans, d.multi, d.rows⟩ k (unity is d) s = .ub := by
  refine ⟨⟨by decide, by decide, by decide, by decide, by decide⟩, ?_⟩
  have h : (match Prog.run (readConfig ⟨32, []⟩ clearedConfig) silent with
      | .ok (c, []) => (match decoderOf c [(1, 0)] with
        | .ok (is, d, _) => (d.chans == 2) && (d.multi == -1) && (d.rows == 1) && (d.sel == [0]) &&
            decide ((is[0]?).map (·.chans) = some 2)
        | _ => false)
      | _ => false) = true := by decide +kernel
  split at h
  · rename_i c hc
    split at h
    · rename_i is d mem hd
      simp only [Bool.and_eq_true, beq_iff_eq, decide_eq_true_eq] at h
      obtain ⟨⟨⟨⟨h1, h2⟩, h3⟩, h4⟩, h5⟩ := h
      refine ⟨c, is, d, mem, hc, hd, fun k s => ?_⟩
      rw [h1, h2, h3]
      unfold unity
      rw [h4]
      cases hx : is[0]? with
      | none => rw [hx] at h5; simp at h5
      | some x =>
        rw [hx] at h5
        simp only [Option.map_some, Option.some.injEq] at h5
        simp only [List.filterMap_cons, hx, Option.map_some, List.filterMap_nil]
        unfold tdProcess
        simp only [List.zipIdx_cons, List.zipIdx_nil, List.reverse_cons, List.reverse_nil, List.nil_append, each]
        unfold tdSet
        rw [if_neg (by show ¬ x.chans < 2; omega)]
        have : each (filterStep ⟨0, false, 1024, 2, -1, 1⟩ k x.o (decide ((-1 : Int) = ((0 : Nat) : Int)))) (List.range 2) (0, s.1, s.2) = .ub := by
          rw [show List.range 2 = [0, 1] from rfl]
          simp [each, filterStep]
        rw [this]
        rfl
    · simp at h
  · simp at h

/-- A configuration to which `C151_partial` applies: two channels, the first in a group of two bands. -/
example : ∃ c is d mem, Prog.run (readConfig ⟨32, []⟩ clearedConfig)
      (configBits 2 [⟨1, [crossing [5], crossing []]⟩] [forChannels 1 [1, 2] 2]) = .ok (c, []) ∧
    (∀ o ∈ c.instrs.take c.plus, o.setId ∈ [(1, 0)].map (·.1) → o.dmxIds[0]? = some 0 ∧ o.dmxCount ≤ 1 ∧ ∀ g < o.groups, 1 ≤ bands o g) ∧
    decoderOf c [(1, 0)] = .ok (is, d, mem) ∧ d.multi = 0 ∧ d.rows = 3 ∧ d.gains = [3] := by
  have h : (match Prog.run (readConfig ⟨32, []⟩ clearedConfig)
      (configBits 2 [⟨1, [crossing [5], crossing []]⟩] [forChannels 1 [1, 2] 2]) with
      | .ok (c, []) => decide (∀ o ∈ c.instrs.take c.plus, o.setId ∈ [(1, 0)].map (·.1) → o.dmxIds[0]? = some 0 ∧ o.dmxCount ≤ 1 ∧
          ∀ g < o.groups, 1 ≤ bands o g) && (match decoderOf c [(1, 0)] with
        | .ok (_, d, _) => (d.multi == 0) && (d.rows == 3) && (d.gains == [3])
        | _ => false)
      | _ => false) = true := by decide +kernel
  split at h
  · rename_i c hc
    rw [Bool.and_eq_true, decide_eq_true_eq] at h
    obtain ⟨h0, h⟩ := h
    split at h
    · rename_i is d mem hd
      simp only [Bool.and_eq_true, beq_iff_eq] at h
      exact ⟨c, is, d, mem, hc, h0, hd, h.1.1, h.1.2, h.2⟩
    · simp at h
  · simp at h

/-! ## Handing out sets -/

theorem matching_does (dec : Nat) (sets : List (Int × Int)) (h : sets.length ≤ 3) :
    matching dec sets = .ok (sets.filter fun s => matchDmx s.2 dec) := by
  unfold matching
  obtain ⟨r, hr, hq⟩ := does_eachAll (f := fun (s : Int × Int) xs => if matchDmx s.2 dec then push 3 xs s else .ok xs)
    (I := fun pre (xs : List (Int × Int)) => xs = pre.filter fun s => matchDmx s.2 dec) (xs := sets) (s := []) (by
      intro pre x post he xs hxs
      have hlen : xs.length ≤ pre.length := by rw [hxs]; exact List.length_filter_le _ _
      have hpre : pre.length < 3 := by
        have := congrArg List.length he
        simp at this
        omega
      refine Does.ite (fun hm => does_push (by omega) ?_) fun hm => Does.ok ?_
      · rw [List.filter_append, hxs]; simp [hm]
      · rw [List.filter_append, hxs]; simp [hm]) rfl
  rw [hr, hq]

/-- An instruction for any downmix, and one for a certain downmix. -/
def forAny (o : Instr) : Bool := (o.dmxIds[0]?).any (fun d => d == 127) && o.applyDmx != 0
def forOne (o : Instr) : Bool := (o.dmxIds[0]?).any (fun d => d != 0 && d != 127) && o.applyDmx != 0

theorem countSets_gives (os : List Instr) (n : Counts) : Gives (countSets os n) (fun m =>
    m.any = n.any + os.countP forAny ∧ m.own = n.own + os.countP forOne) := by
  unfold countSets
  refine gives_eachAll (I := fun (pre : List Instr) (m : Counts) =>
    m.any = n.any + pre.countP forAny ∧ m.own = n.own + pre.countP forOne) ?_ ⟨rfl, rfl⟩
  intro pre o post _ m hm
  refine Gives.bind (gives_at _ _) fun d hd => ?_
  simp only [List.countP_append, List.countP_cons, List.countP_nil, forAny, forOne, hd, Option.any_some]
  obtain ⟨h1, h2⟩ := hm
  refine Gives.ite (fun h0 => Gives.ok ?_) fun h0 => Gives.ite (fun h3 => Gives.ok ?_) fun h3 => Gives.ok ?_
  · dsimp only
    rcases h0 with h0 | h0
    · subst h0; simp [h1, h2]
    · simp [h0, h1, h2]
  · subst h3
    have : o.applyDmx ≠ 0 := fun e => h0 (.inr e)
    dsimp only
    simp [this, h1, h2]
    omega
  · have : o.applyDmx ≠ 0 := fun e => h0 (.inr e)
    have : d ≠ 0 := fun e => h0 (.inl e)
    dsimp only
    simp [*]
    omega

/-- **C150**: every active set is handed to one gain decoder: sets for the channels of the stream to the first and the
others to the second.  The configuration is the first, sets for downmixes are of an instruction that is applied to
downmixes, and sets for any downmix are not mixed with instructions for certain downmixes. -/
theorem C150_partial {os : List Instr} {n : Counts} (hn : countSets os ⟨0, 0, 0⟩ = .ok n) {sets : List (Int × Int)}
    (h3 : sets.length ≤ 3)
    (hof : ∀ s ∈ sets, s.2 ≠ 0 → ∃ o ∈ os, o.dmxIds[0]? = some s.2 ∧ o.applyDmx ≠ 0)
    (hmix : (∃ s ∈ sets, s.2 = 127) → ∀ o ∈ os, ∀ d, o.dmxIds[0]? = some d → o.applyDmx ≠ 0 → d = 0 ∨ d = 127) :
    handOut n sets = .ok (sets.filter fun s => s.2 == 0, sets.filter fun s => !(s.2 == 0)) ∧
      ((sets.filter fun s => s.2 == 0) ++ (sets.filter fun s => !(s.2 == 0))).Perm sets := by
  refine ⟨?_, List.filter_append_perm _ _⟩
  obtain ⟨ha, ho⟩ := countSets_gives os _ _ hn
  simp only [Nat.zero_add] at ha ho
  have own : ∀ o ∈ os, ∀ d, o.dmxIds[0]? = some d → o.applyDmx ≠ 0 → d ≠ 0 → d ≠ 127 → 0 < n.own := by
    intro o hmo d hd h1 h2 h4
    rw [ho]
    exact List.countP_pos_iff.mpr ⟨o, hmo, by simp [forOne, hd, h1, h2, h4]⟩
  have any : ∀ o ∈ os, o.dmxIds[0]? = some 127 → o.applyDmx ≠ 0 → 0 < n.any := by
    intro o hmo hd h1
    rw [ha]
    exact List.countP_pos_iff.mpr ⟨o, hmo, by simp [forAny, hd, h1]⟩
  unfold handOut
  rw [matching_does 0 sets h3, ok_bind]
  have h0 : (sets.filter fun s => matchDmx s.2 0) = sets.filter fun s => s.2 == 0 := rfl
  rw [h0]
  by_cases hall : ∀ s ∈ sets, s.2 = 0
  · have he : (sets.filter fun s => !(s.2 == 0)) = [] := by
      rw [List.filter_eq_nil_iff]
      intro s hs
      simp [hall s hs]
    have hm : ∀ k, k = 3 ∨ k = 2 → (sets.filter fun s => matchDmx s.2 k) = [] := by
      intro k hk
      rw [List.filter_eq_nil_iff]
      intro s hs
      rw [hall s hs]
      rcases hk with rfl | rfl <;> decide
    rw [he]
    by_cases hc : 0 < n.any ∨ 0 < n.own
    · rw [if_pos hc, matching_does _ sets h3, ok_bind, hm _ (by split <;> simp)]
    · rw [if_neg hc, ok_bind]
  · push Not at hall
    obtain ⟨s0, hs0, hne⟩ := hall
    obtain ⟨o0, ho0, hd0, ha0⟩ := hof s0 hs0 hne
    by_cases h127 : ∃ s ∈ sets, s.2 = 127
    · obtain ⟨s1, hs1, he1⟩ := h127
      obtain ⟨o1, ho1, hd1, ha1⟩ := hof s1 hs1 (by omega)
      have hz : n.own = 0 := by
        rw [ho, List.countP_eq_zero]
        intro o hmo
        cases hd : o.dmxIds[0]? with
        | none => simp [forOne, hd]
        | some d =>
          by_cases hap : o.applyDmx = 0
          · simp [forOne, hap]
          · rcases hmix ⟨s1, hs1, he1⟩ o hmo d hd hap with e | e <;> simp [forOne, hd, e]
      rw [if_pos (.inl (any o1 ho1 (by rw [hd1, he1]) ha1)), if_neg (by omega), matching_does _ sets h3, ok_bind]
      congr 2
      refine List.filter_congr fun s hs => ?_
      by_cases hs2 : s.2 = 0
      · simp [hs2, matchDmx]
      · obtain ⟨o, hmo, hd, hap⟩ := hof s hs hs2
        rcases hmix ⟨s1, hs1, he1⟩ o hmo _ hd hap with e | e
        · exact absurd e hs2
        · simp [e, matchDmx]
    · have hown : 0 < n.own := own o0 ho0 _ hd0 ha0 hne fun e => h127 ⟨s0, hs0, e⟩
      rw [if_pos (.inr hown), if_pos hown, matching_does _ sets h3, ok_bind]
      congr 2
      refine List.filter_congr fun s hs => ?_
      have : s.2 ≠ 127 := fun e => h127 ⟨s, hs, e⟩
      show (s.2 != 0 && s.2 != 127) = !(s.2 == 0)
      rw [show (s.2 != 127) = true by simpa using this, Bool.and_true]
      rfl

example : (do
    let n ← countSets [{ zeroInstr with dmxIds := [0] }, { zeroInstr with dmxIds := [5], applyDmx := 1 }] ⟨0, 0, 0⟩
    handOut n [(1, 0), (2, 5)]) = .ok ([(1, 0)], [(2, 5)]) := by decide +kernel

/-- **C150**, refuted for the rest: with a set for downmix 5 in the configuration, an active set for any downmix is
handed to neither decoder. -/
theorem C150_refuted : (do
    let n ← countSets [{ zeroInstr with dmxIds := [5], applyDmx := 1 }, { zeroInstr with dmxIds := [127], applyDmx := 1 }] ⟨0, 0, 0⟩
    handOut n [(2, 127)]) = .ok ([], []) := by decide +kernel

/-- The same happens when the set for downmix 5 was in an earlier configuration: counts are not cleared. -/
theorem C150_stale_refuted : (do
    let n ← countSets [{ zeroInstr with dmxIds := [5], applyDmx := 1 }] ⟨0, 0, 0⟩
    let n ← countSets [{ zeroInstr with dmxIds := [127], applyDmx := 1 }] n
    handOut n [(1, 127)]) = .ok ([], []) ∧
  (do
    let n ← countSets [{ zeroInstr with dmxIds := [127], applyDmx := 1 }] ⟨0, 0, 0⟩
    handOut n [(1, 127)]) = .ok ([], [(1, 127)]) := by decide +kernel

end Verif.DrcApply
