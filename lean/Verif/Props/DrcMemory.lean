import Verif.Props.DrcSetUp

/-! # C152 and C153: memory of gain decoders -/

namespace Verif.DrcApply

open DrcConfig DrcSel Res

/-- Bytes for sets with so many gains each, `rows` rows and frames of `frame` samples: 14360 bytes for each gain, 32 for
each set with gains, and a pointer and the samples for each row. -/
def bytes (gains : List Nat) (rows frame : Nat) : Nat :=
  (gains.map fun n => if n = 0 then 0 else n * 14360 + 32).sum + rows * (8 + 4 * frame)

/-- **C152**: a gain decoder that is set up is handed the bytes it needs, no more and no less. -/
theorem C152_bytes {cv : Curve} {c : Config} {dmxs : List (Int × Nat)} {audio frame mem : Nat} {sets : List (Int × Int)}
    {s : List Inst × Dec} {is : List Inst} {d : Dec} {mem' : Nat}
    (h : initDec cv c dmxs audio frame sets s mem = .ok (is, d, mem')) : mem' = mem + bytes d.gains d.rows frame := by
  unfold initDec at h
  obtain ⟨⟨ls, e⟩, hs, h⟩ := bind_eq_ok.mp h
  dsimp only at h
  obtain ⟨m, hm, h⟩ := bind_eq_ok.mp h
  obtain ⟨gains, hg, h⟩ := bind_eq_ok.mp h
  obtain ⟨rows, hr, h⟩ := bind_eq_ok.mp h
  have need : ∀ k, ∀ x : Inst, ls[k]? = some x → (fun k : Nat => (fun n => if n = 0 then 0 else n * 14360 + 32)
      (((ls[k]?).map fun x => x.o.elements).getD 0)) k = if x.o.elements = 0 then 0 else x.o.elements * 14360 + 32 := by
    intro k x hx
    dsimp only
    rw [hx]
    rfl
  have h1 : m = mem + (e.sel.reverse.map fun k : Nat => (fun n => if n = 0 then 0 else n * 14360 + 32)
      (((ls[k]?).map fun x => x.o.elements).getD 0)).sum := by
    refine gives_eachAll (f := initGains ls) (I := fun (pre : List Nat) n => n = mem + (pre.map fun k : Nat =>
      (fun n => if n = 0 then 0 else n * 14360 + 32) (((ls[k]?).map fun x => x.o.elements).getD 0)).sum) ?_ (by simp) m hm
    intro pre k post _ n hn
    unfold initGains
    refine Gives.bind (gives_at _ _) fun x hx => ?_
    rw [List.map_append, List.sum_append, List.map_singleton, List.sum_singleton, need k x hx]
    refine Gives.ite (fun hp => ?_) fun hp => Gives.ok ?_
    · refine Gives.ite (fun _ => Gives.ub) fun _ => Gives.ok ?_
      rw [if_neg (show ¬ x.o.elements = 0 by omega)]
      unfold interpSize
      omega
    · rw [if_pos (by omega)]
      omega
  have h2 : gains = e.sel.map fun k => ((ls[k]?).map fun x => x.o.elements).getD 0 := by
    refine gives_eachAll (I := fun (pre : List Nat) (ns : List Nat) => ns = pre.map fun k =>
      ((ls[k]?).map fun x => x.o.elements).getD 0) ?_ rfl gains hg
    intro pre k post _ ns hns
    refine Gives.bind (gives_at _ _) fun x hx => Gives.ok ?_
    rw [hns]
    simp [hx]
  split at h
  · cases h
  · cases h
    dsimp only
    unfold bytes
    rw [h1, h2, List.map_map, List.map_reverse, List.sum_reverse]
    have : ∀ r f : Nat, r * (8 + 4 * f) = r * 8 + r * (f * 4) := by intro r f; ring
    rw [this]
    simp only [Function.comp_def]
    omega

theorem sum_le {xs : List Nat} : (xs.map fun n => if n = 0 then 0 else n * 14360 + 32).sum ≤ xs.sum * 14360 + 32 * xs.length := by
  induction xs with
  | nil => simp
  | cons x xs ih =>
    simp only [List.map_cons, List.sum_cons, List.length_cons]
    split <;> omega

/-- **C152**: a first gain decoder for at most 3 sets has room if there are at most 47 gains for 16 rows, or at most 33
for 64 rows. -/
theorem C152_partial {gains : List Nat} {rows : Nat} (h3 : gains.length ≤ 3)
    (h : (gains.sum ≤ 47 ∧ rows ≤ 16) ∨ (gains.sum ≤ 33 ∧ rows ≤ 64)) : bytes gains rows 1024 ≤ memSize := by
  have := @sum_le gains
  unfold bytes memSize
  omega

example : bytes [1, 1] 2 1024 = 36992 := by decide

open Spec

/-- Three sets of 16 channels with a gain set each. -/
def threeSets : List Bool :=
  configBits 16 [⟨1, List.replicate 16 (crossing [])⟩] ([1, 2, 3].map fun i => forChannels i ((List.range 16).map (· + 1)) 16)

/-- **C152**, refuted for more: with three active sets of 16 groups each the rows end 8328 bytes behind the buffer. -/
theorem C152_refuted : ∃ c is d mem, Prog.run (readConfig ⟨32, []⟩ clearedConfig) threeSets = .ok (c, []) ∧
    decoderOf c [(1, 0), (2, 0), (3, 0)] = .ok (is, d, mem) ∧ mem = memSize + 8328 := by
  have h : (match Prog.run (readConfig ⟨32, []⟩ clearedConfig) threeSets with
      | .ok (c, []) => (match decoderOf c [(1, 0), (2, 0), (3, 0)] with
        | .ok (_, _, mem) => mem == memSize + 8328
        | _ => false)
      | _ => false) = true := by decide +kernel
  split at h
  · rename_i c hc
    split at h
    · rename_i is d mem hd
      exact ⟨c, is, d, mem, hc, hd, by simpa using h⟩
    · simp at h
  · simp at h

/-! ## Output layouts -/

/-- A set for any downmix, all channels having the first gain set. -/
def forAll : Coded :=
  ⟨⟨1, 1, 127, none, 1, none, none, .alone false⟩, [⟨1, none⟩], [⟨none, none⟩]⟩

def anyDmx : List Bool := configBits 2 [⟨1, [crossing []]⟩] [forAll]

/-- Both gain decoders after a configuration of two channels, for output layout `layout` and the set with identifier 1
for any downmix. -/
def bothOf (c : Config) (layout : Nat) : Res (List Inst × Dec × Dec × Nat) := do
  let n ← countSets (c.instrs.take c.instrCount) ⟨0, 0, 0⟩
  setUp ⟨fun _ => 1, fun _ => 1⟩ c [] 2 layout 2 false false n [(1, 127)] fresh fresh (c.instrs.map fun o => ⟨o, 0, 0⟩)

/-- The channels of a layout that are set up, none if this is undefined. -/
def setUpFor (layout : Nat) : Option Nat :=
  match Prog.run (readConfig ⟨32, []⟩ clearedConfig) anyDmx with
  | .ok (c, []) => match bothOf c layout with
    | .ok (_, _, d, _) => some d.chans
    | _ => none
  | _ => none

/-- **C153**, refuted for output layout 13: it has 24 loudspeakers, and there is room for the groups of 16 channels. -/
theorem C153_refuted : ∃ c, Prog.run (readConfig ⟨32, []⟩ clearedConfig) anyDmx = .ok (c, []) ∧ bothOf c 13 = .ub := by
  have h : (match Prog.run (readConfig ⟨32, []⟩ clearedConfig) anyDmx with
      | .ok (c, []) => isUb (bothOf c 13)
      | _ => false) = true := by decide +kernel
  split at h
  · rename_i c hc
    refine ⟨c, hc, ?_⟩
    cases hr : bothOf c 13 <;> rw [hr] at h <;> simp_all [isUb]
  · simp at h

/-- All other layouts are set up for the same stream. -/
example : ∀ l < 21, l ≠ 13 → (setUpFor l).isSome = true := by decide +kernel

/-- An instruction that is set up for `n` channels without filters. -/
structure Plain (o : Instr) (n : Nat) : Prop extends Ready o n where
  any : AnyOk o
  ids : o.dmxIds ≠ []
  idx : o.gainIdx ≠ []
  single : ∀ g < o.groups, bands o g = 1
  few : o.groups ≤ 15

theorem groupInfo_defined {o : Instr} {n : Nat} (h : Plain o n) : groupInfo o n ≠ .ub := by
  suffices hs : Sound (groupInfo o n) (fun _ => True) from hs.1
  unfold groupInfo
  refine Sound.bind (sound_at (List.length_pos_iff.mpr h.ids)) fun d _ => ?_
  refine Sound.bind (Q := fun o' : Instr => n ≤ o'.chGroup.length) ?_ fun o' ho' => by
    rw [if_neg (by omega)]
    exact Sound.ok trivial
  refine Sound.ite (fun _ => ?_) fun _ => Sound.ok h.length
  refine Sound.bind (sound_at (List.length_pos_iff.mpr h.idx)) fun i _ => ?_
  refine Sound.bind (Q := fun of : List Int => n ≤ of.length) ?_ fun of hof => Sound.ok hof
  refine sound_each (I := fun of : List Int => n ≤ of.length) (fun ch hch of hof => ?_) h.length
  rw [List.mem_range] at hch
  rw [if_pos (by omega)]
  exact Sound.ok (by simpa using hof)

theorem countSignals_defined {o : Instr} {n : Nat} (h : Ready o n) : countSignals o n ≠ .ub := by
  suffices hs : Sound (countSignals o n) (fun _ => True) from hs.1
  unfold countSignals
  refine Sound.ite (fun _ => Sound.ok trivial) fun _ => ?_
  refine sound_each (I := fun _ => True) (fun ch hch k _ => ?_) trivial
  rw [List.mem_range] at hch
  refine Sound.bind (Q := fun _ => True) ?_ fun _ _ => Sound.ok trivial
  unfold signals
  have hl := h.length
  rw [at_group (by omega), ok_bind]
  refine Sound.ite (fun _ => Sound.ok trivial) fun hg => ?_
  have h1 := h.group_lt hch hg
  have h2 := h.groups.1
  exact (sound_at (by omega)).mono fun _ _ => trivial

theorem hasBands_single {o : Instr} {n : Nat} (h : Ready o n) (h1 : ∀ g < o.groups, bands o g = 1) (multi : Int) :
    hasBands o multi = .ok false := by
  unfold hasBands
  obtain ⟨r, hr, hq⟩ := does_range (n := o.groups) (f := fun g b => do
    let n ← at_ o.bandCount g
    if 1 < n then (if multi ≠ -1 then .err errUnexpected else .ok true) else .ok b) (I := fun _ (b : Bool) => b = false) (by
      intro i hi b hb
      have := h.groups.1
      rw [at_bands (by omega), ok_bind, if_neg (by rw [h1 i hi]; omega)]
      exact Does.ok hb) (s := false) rfl
  rw [hr, hq]

/-- What each set brings to the memory. -/
structure Small (is : List Inst) (s : List Inst × Dec) : Prop where
  sel : ∀ k ∈ s.2.sel, ∃ x, s.1[k]? = some x ∧ x.o.elements ≤ 15 ∧ x.sigs ≤ 16

theorem Plain.elements_le {o : Instr} {n : Nat} (h : Plain o n) : o.elements ≤ 15 := by
  have hs : ∀ g ≤ o.groups, firstGain o g = g := by
    intro g
    induction g with
    | zero => intro _; rfl
    | succ g ih =>
      intro hg
      rw [firstGain_succ, ih (by omega), h.single g (by omega)]
  rw [h.elements, hs _ (Nat.le_refl _)]
  exact h.few

theorem initSet_defined {cv : Curve} {c : Config} {dmxs : List (Int × Nat)} {audio : Nat} {is : List Inst}
    {done : List (Int × Int)} {set : Int × Int} {s : List Inst × Dec} (h : Reached c dmxs audio is done s) (hsm : Small is s)
    (hnew : set.1 ∉ done.map (·.1)) (h3 : done.length < 3)
    (hr : ∀ x ∈ is.take c.plus, x.o.setId = set.1 → ∀ n, channelsFor c dmxs audio set.2 = .ok n → Plain x.o n)
    (hd : channelsFor c dmxs audio set.2 ≠ .ub) :
    Sound (initSet cv c dmxs audio set s) (fun s' => Reached c dmxs audio is (done ++ [set]) s' ∧ Small is s') := by
  have hg := initSet_gives (cv := cv) h hnew fun x hx he n hn => ⟨(hr x hx he n hn).toReady, (hr x hx he n hn).any⟩
  suffices hs : Sound (initSet cv c dmxs audio set s) (Small is) from ⟨hs.1, fun a ha => ⟨hg a ha, hs.2 a ha⟩⟩
  clear hg
  obtain ⟨ls, d⟩ := s
  unfold initSet
  dsimp only
  refine Sound.ite (fun _ => Sound.err) fun hlen => ?_
  have hcount := h.count
  dsimp only at hcount
  rw [if_neg (by omega)]
  generalize hidx : (ls.take c.plus).findIdx (·.o.setId == set.1) = i at hlen ⊢
  have hi : i < (ls.take c.plus).length := by omega
  have hi' : i < ls.length := by rw [List.length_take] at hi; omega
  obtain ⟨y, hy, hyid⟩ : ∃ y, ls[i]? = some y ∧ y.o.setId = set.1 := by
    have := List.findIdx_getElem (w := by rw [hidx]; exact hi)
    refine ⟨ls[i], List.getElem?_eq_getElem hi', ?_⟩
    simp only [hidx, List.getElem_take] at this
    simpa using this
  refine Sound.bind (sound_at hi') fun x hx => ?_
  rw [hy] at hx
  cases hx
  have hin : is[i]? = some y := h.others i y hy (by rw [hyid]; exact hnew)
  refine Sound.bind (Q := fun n => channelsFor c dmxs audio set.2 = .ok n) ⟨hd, fun n hn => hn⟩ fun n hn => ?_
  have hp : Plain y.o n := hr y (List.mem_of_getElem? (i := i) (by
    rw [List.getElem?_take_of_lt (by rw [List.length_take] at hi; omega)]; exact hin)) hyid n hn
  refine Sound.bind ⟨groupInfo_defined hp, groupInfo_gives hp.toReady hp.any⟩ fun o ho => ?_
  obtain ⟨ho1, ho2, ho3, ho4, ho5⟩ := ho
  have h1 : ∀ g < o.groups, bands o g = 1 := by
    intro g hg
    rw [ho4] at hg
    unfold bands
    rw [ho5]
    exact hp.single g hg
  refine Sound.bind ⟨countSignals_defined ho1, countSignals_gives ho1⟩ fun sg hsg => ?_
  rw [hasBands_single ho1 h1, ok_bind, if_neg (by simp)]
  refine Sound.ok ⟨fun k hk => ?_⟩
  change k ∈ d.sel ++ [i] at hk
  by_cases he : k = i
  · subst he
    refine ⟨⟨o, n, sg⟩, List.getElem?_set_self hi', ?_, ?_⟩
    · show o.elements ≤ 15
      rw [ho3]
      exact hp.elements_le
    · show sg ≤ 16
      rw [hsg, firstSig_ones ho1 h1 n (Nat.le_refl n)]
      exact ho1.most
  · obtain ⟨x, hx, h4⟩ := hsm.sel k (by
      rcases List.mem_append.mp hk with e | e
      · exact e
      · exact absurd (by simpa using e) he)
    exact ⟨x, by show (ls.set i _)[k]? = _; rw [List.getElem?_set_ne (by omega)]; exact hx, h4⟩

theorem memSize_eq : memSize = 746712 := by simp [memSize]

theorem interpSize_eq : interpSize = 14360 := by simp [interpSize]

theorem sum_le_of {xs : List Nat} (h : ∀ n ∈ xs, n ≤ 15) : xs.sum ≤ 15 * xs.length := by
  induction xs with
  | nil => simp
  | cons x xs ih =>
    have := h x (by simp)
    have := ih fun n hn => h n (by simp [hn])
    simp only [List.sum_cons, List.length_cons]
    omega

/-- **C153**: a gain decoder in memory that is not used yet is set up, or an error is returned, and nothing is read or
written outside its array, when there are at most 3 sets of at most 15 groups of one band, for at most 16 channels. -/
theorem C153_partial {cv : Curve} {c : Config} {dmxs : List (Int × Nat)} {audio : Nat} {sets : List (Int × Int)}
    {is : List Inst} {banks : List Bank} (h8 : banks.length = 8) (hn : (sets.map (·.1)).Nodup) (h3 : sets.length ≤ 3)
    (hr : ∀ set ∈ sets, ∀ x ∈ is.take c.plus, x.o.setId = set.1 → ∀ n, channelsFor c dmxs audio set.2 = .ok n → Plain x.o n) :
    Sound (initDec cv c dmxs audio 1024 sets (is, newDec banks) 0) (fun r => r.2.2 ≤ memSize) := by
  have hdef : ∀ dmx, channelsFor c dmxs audio dmx ≠ .ub := by
    intro dmx
    unfold channelsFor
    split
    · simp
    · split
      · simp
      · split <;> simp
  have hbytes : ∀ r, initDec cv c dmxs audio 1024 sets (is, newDec banks) 0 = .ok r → r.2.2 = 0 + bytes r.2.1.gains r.2.1.rows 1024 :=
    fun r hr => C152_bytes (is := r.1) (d := r.2.1) (mem' := r.2.2) hr
  suffices hs : Sound (initDec cv c dmxs audio 1024 sets (is, newDec banks) 0)
      (fun r => r.2.1.gains.length ≤ 3 ∧ (∀ n ∈ r.2.1.gains, n ≤ 15) ∧ r.2.1.rows ≤ 16) by
    refine ⟨hs.1, fun r hr => ?_⟩
    obtain ⟨h1, h2, h4⟩ := hs.2 r hr
    rw [hbytes r hr, Nat.zero_add]
    refine C152_partial h1 (.inl ⟨?_, h4⟩)
    have := sum_le_of h2
    omega
  unfold initDec
  refine Sound.bind (Q := fun s => Reached c dmxs audio is sets.reverse s ∧ Small is s) ?_ fun s hs => ?_
  · refine sound_eachAll (I := fun pre s => Reached c dmxs audio is pre s ∧ Small is s) ?_ ?_
    · intro pre x post he s hs
      have hlen := congrArg List.length he
      simp only [List.length_reverse, List.length_append, List.length_cons] at hlen
      refine initSet_defined hs.1 hs.2 ?_ (by omega) (fun y hy => hr x ?_ y hy) (hdef _)
      · have : (sets.reverse.map (·.1)).Nodup := by rw [List.map_reverse]; exact List.nodup_reverse.mpr hn
        rw [he, List.map_append, List.map_cons] at this
        intro hmem
        exact (List.nodup_append.mp this).2.2 _ hmem _ (by simp) rfl
      · rw [← List.mem_reverse, he]
        simp
    · exact ⟨⟨rfl, by simp [newDec], .inl rfl, h8, fun k x hk _ => hk⟩, ⟨by simp [newDec]⟩⟩
  obtain ⟨ls, d⟩ := s
  obtain ⟨hreach, hsmall⟩ := hs
  have hlen : d.sel.length ≤ 3 := by
    have := hreach.count
    simp only [List.length_reverse] at this
    omega
  have hget : ∀ k ∈ d.sel, ∃ x : Inst, ls[k]? = some x ∧ x.o.elements ≤ 15 ∧ x.sigs ≤ 16 := hsmall.sel
  dsimp only
  obtain ⟨N, hN⟩ : ∃ N, N = 215432 := ⟨_, rfl⟩
  refine Sound.bind (Q := fun m => m ≤ d.sel.reverse.length * N) ?_ fun m hm => ?_
  · refine sound_eachAll (I := fun (pre : List Nat) m => m ≤ pre.length * N) ?_ (Nat.zero_le _)
    intro pre k post he m hm
    have hk : k ∈ d.sel := by rw [← List.mem_reverse, he]; simp
    have hl := congrArg List.length he
    simp only [List.length_reverse, List.length_append, List.length_cons] at hl
    obtain ⟨x, hx, h1, _⟩ := hget k hk
    have hm2 : m ≤ 2 * N := Nat.le_trans hm (Nat.mul_le_mul_right N (by omega))
    have hx2 : x.o.elements * 14360 + 32 ≤ N := by omega
    unfold initGains
    refine Sound.bind (Q := fun y => y = x) ⟨by rw [at_ok.mpr hx]; simp, fun y hy => by rw [at_ok.mpr hx] at hy; cases hy; rfl⟩ fun y hy => ?_
    subst hy
    have hsucc : (pre ++ [k]).length * N = pre.length * N + N := by
      rw [List.length_append, List.length_singleton, Nat.succ_mul]
    rw [hsucc, interpSize_eq, memSize_eq]
    refine Sound.ite (fun _ => ?_) fun _ => Sound.ok (Nat.le_trans hm (Nat.le_add_right _ _))
    have hno : ¬ 746712 < m + y.o.elements * 14360 := by omega
    rw [if_neg hno, Nat.add_assoc]
    exact Sound.ok (Nat.add_le_add hm hx2)
  refine Sound.bind (Q := fun ns : List Nat => ns.length = d.sel.length ∧ ∀ n ∈ ns, n ≤ 15) ?_ fun ns hns => ?_
  · refine sound_eachAll (I := fun (pre : List Nat) (ns : List Nat) => ns.length = pre.length ∧ ∀ n ∈ ns, n ≤ 15) ?_ (by simp)
    intro pre k post he ns hns
    obtain ⟨x, hx, h1, _⟩ := hget k (by rw [he]; simp)
    refine Sound.bind (Q := fun y => y = x) ⟨by rw [at_ok.mpr hx]; simp, fun y hy => by rw [at_ok.mpr hx] at hy; cases hy; rfl⟩ fun y hy => ?_
    subst hy
    refine Sound.ok ⟨by simp [hns.1], fun n hn => ?_⟩
    rcases List.mem_append.mp hn with e | e
    · exact hns.2 n e
    · rw [List.mem_singleton] at e
      omega
  refine Sound.bind (Q := fun n => n ≤ 16) ?_ fun rows hrows => ?_
  · refine sound_eachAll (I := fun (_ : List Nat) n => n ≤ 16) ?_ (by omega)
    intro pre k post he n hn'
    obtain ⟨x, hx, _, h1⟩ := hget k (by rw [← List.mem_reverse, he]; simp)
    refine Sound.bind (Q := fun y => y = x) ⟨by rw [at_ok.mpr hx]; simp, fun y hy => by rw [at_ok.mpr hx] at hy; cases hy; rfl⟩ fun y hy => ?_
    subst hy
    exact Sound.ok (by omega)
  have hm3 : m ≤ 3 * N := Nat.le_trans hm (Nat.mul_le_mul_right N (by simpa using hlen))
  rw [memSize_eq]
  have hno : ¬ 746712 < m + rows * 8 := by omega
  rw [if_neg hno]
  exact Sound.ok ⟨by show ns.length ≤ 3; omega, hns.2, hrows⟩

/-- Two channels in one group of one band. -/
example : Plain { zeroInstr with setId := 1, groups := 1, bandCount := [1], chGroup := [0, 0], elements := 1 } 2 := by
  refine ⟨⟨by decide, by decide, by decide, by decide, by decide, by decide, by decide, by decide⟩, ?_, by decide, by decide,
    by decide, by decide⟩
  intro d i _ _ _ _
  decide

end Verif.DrcApply
