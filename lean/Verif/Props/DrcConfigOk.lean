import Verif.Props.DrcConfig

/-! # C118 to C122: accepted DRC configurations -/

namespace Verif.DrcConfig

open Prog

/-! ## Memory for the examples -/

theorem zeroInstr_room : InstrRoom zeroInstr := by
  refine ⟨by decide, by decide, by decide, ?_, by decide, by decide, by decide, by decide, by decide, by decide, by decide, by decide⟩
  intro m hm
  rw [(List.mem_replicate.mp hm).2]
  decide

theorem cleared_sized : Sized 24 32 clearedConfig := by
  refine ⟨by decide, ?_, by decide, ?_⟩
  · intro o ho
    rw [(List.mem_replicate.mp ho).2]
    refine ⟨by decide, fun g hg => ?_⟩
    rw [(List.mem_replicate.mp hg).2]
    decide
  · intro o ho
    rw [(List.mem_replicate.mp ho).2]
    exact zeroInstr_room

/-- Numbers of coefficients, of instructions and of channels. -/
def startBits (nc ni ch : Nat) : List Bool := natBits 3 nc ++ natBits 6 ni ++ natBits 7 ch

/-- Coefficients at location 1 with `n` gain sets of constant gain. -/
def constBits (n : Nat) : List Bool := natBits 4 1 ++ false :: (natBits 6 n ++ (List.replicate n (natBits 6 56)).flatten)

/-- An instruction for the programme at location 1 and the base layout, up to the gain sets of the channels;
`peak` is whether it has a flag for a limiter. -/
def headBits (id effect : Nat) (peak : Bool) : List Bool :=
  false :: (natBits 6 id ++ natBits 4 1 ++ natBits 7 0 ++ false :: (natBits 16 effect ++ (if peak then [false] else []) ++
    [false, false, false]))

/-- An instruction that gives the only channel the first gain set. -/
def simpleBits (id : Nat) : List Bool := headBits id 0 true ++ natBits 6 1 ++ [false, false, false]

/-- One set of coefficients and `n` such instructions. -/
def simpleConfig (n : Nat) : List Bool := startBits 1 n 1 ++ constBits 1 ++ (List.replicate n (simpleBits 1)).flatten ++ [false, false]

/-! ## Array bounds -/

/-- **C118**, refuted: coefficients with 25 gain sets are written into an array of 24, and 31 instructions
together with the two that stand for no DRC into an array of 32. -/
theorem C118_refuted :
    run (readConfig ⟨32, []⟩ clearedConfig) (startBits 1 0 2 ++ constBits 25) = .ub ∧
      run (readConfig ⟨32, []⟩ clearedConfig) (simpleConfig 31) = .ub := by
  decide +kernel

/-- **C118** (part).  With room for 63 gain sets and 33 instructions, reading a configuration has no undefined
behaviour, whatever the payload and whatever was in memory. -/
theorem C118_enlarged_partial (env : Env) (n m : Nat) (c : Config) (hc : Sized n m c) (hn : 63 ≤ n) (hm : 33 ≤ m)
    (l : List Bool) : run (readConfig env c) l ≠ .ub :=
  (readConfig_meets env n m c hc l).1 ⟨hn, hm⟩

/-- Memory with room for more gain sets and instructions. -/
def largeConfig : Config :=
  ⟨0, 0, 0, 0, 0, List.replicate 4 ⟨0, 0, List.replicate 63 ⟨0, 0, 0, 0, 0, 0, 0, 0, List.replicate 4 ⟨0, 0, 0, 0⟩⟩⟩,
    List.replicate 33 zeroInstr⟩

example : run (readConfig ⟨32, []⟩ largeConfig) (simpleConfig 31) ≠ .ub := by
  refine C118_enlarged_partial _ 63 33 _ ⟨by decide, ?_, by decide, ?_⟩ (by omega) (by omega) _
  · intro o ho
    rw [(List.mem_replicate.mp ho).2]
    refine ⟨by decide, fun g hg => ?_⟩
    rw [(List.mem_replicate.mp hg).2]
    decide
  · intro o ho
    rw [(List.mem_replicate.mp ho).2]
    exact zeroInstr_room

/-! ## Accepted configurations -/

/-- **C119**.  Every configuration the decoder accepts is well formed: see `ConfigOk`, `CoeffsOk`, `SetOk`,
`InstrOk` and `Derived`. -/
theorem C119_accepted (env : Env) (n m : Nat) (c : Config) (hc : Sized n m c) (l : List Bool) (c' : Config) (l' : List Bool)
    (h : run (readConfig env c) l = .ok (c', l')) : ConfigOk env c' :=
  (readConfig_meets env n m c hc l).2 c' l' h

/-- The result of a run, if there is one, as a test. -/
def outcome (l : List Bool) (test : Config × List Bool → Bool) : Bool :=
  match run (readConfig ⟨32, []⟩ clearedConfig) l with
  | .ok x => test x
  | _ => false

theorem of_outcome {l : List Bool} {test : Config × List Bool → Bool} (h : outcome l test = true) :
    ∃ c l', run (readConfig ⟨32, []⟩ clearedConfig) l = .ok (c, l') ∧ test (c, l') = true := by
  unfold outcome at h
  split at h
  · rename_i x hx
    exact ⟨x.1, x.2, hx, h⟩
  · simp at h

/-- With 30 instructions a configuration is accepted. -/
example : ∃ c l', run (readConfig ⟨32, []⟩ clearedConfig) (simpleConfig 30) = .ok (c, l') ∧ c.instrCount = 30 ∧ c.plus = 32 ∧
    ConfigOk ⟨32, []⟩ c := by
  obtain ⟨c, l', h1, h2⟩ := of_outcome (l := simpleConfig 30) (test := fun x => decide (x.1.instrCount = 30 ∧ x.1.plus = 32))
    (by decide +kernel)
  have h2 := of_decide_eq_true h2
  exact ⟨c, l', h1, h2.1, h2.2, C119_accepted _ 24 32 _ cleared_sized _ _ _ h1⟩

/-! ## Groups of channels -/

/-- **C120**.  In every accepted configuration and every instruction the channels are grouped as coded.
Without ducking, channels are in one group exactly when they have the same gain set, and the group has that
gain set; channels without gain set are in no group.  With ducking of the channels themselves, gain set and
ducking factor decide.  With ducking of other channels, those without gain set are grouped by their ducking
factor, and all groups have the gain set of a channel that has one. -/
theorem C120_groups (env : Env) (n m : Nat) (c : Config) (hc : Sized n m c) (l : List Bool) (c' : Config) (l' : List Bool)
    (h : run (readConfig env c) l = .ok (c', l')) (k : Nat) (hk : k < c'.instrCount) :
    ∃ o, c'.instrs[k]? = some o ∧
      (¬ Ducks o → o.dmxIds[0]? = some 0 → o.dmxCount ≤ 1 →
        Grouped (setKey o.gainIdx) c'.channels o.chGroup o.groups ∧ Follows c'.channels o.chGroup o.groupSet o.gainIdx) ∧
      (o.effect.testBit 11 = true →
        Grouped (selfKey o.gainIdx o.duck) c'.channels o.chGroup o.groups ∧ Follows c'.channels o.chGroup o.groupSet o.gainIdx) ∧
      (o.effect.testBit 11 = false → o.effect.testBit 10 = true →
        Grouped (otherKey o.gainIdx o.duck) c'.channels o.chGroup o.groups ∧
          ∃ v i, 0 ≤ v ∧ i < c'.channels ∧ o.gainIdx[i]? = some v ∧ ∀ g < o.groups, o.groupSet[g]? = some v) := by
  obtain ⟨o, o1, o2, _⟩ := (C119_accepted env n m c hc l c' l' h).instrs k hk
  refine ⟨o, o1, ?_, o2.self, ?_⟩
  · intro hd h0 h1
    obtain ⟨m, m1, m2⟩ := o2.plain hd 0 h0 (by decide) h1
    rw [m1.2.1 rfl] at m2
    exact m2
  · intro hs ho
    obtain ⟨a, v, v1, v2, v3⟩ := o2.other hs ho
    obtain ⟨i, i1, i2⟩ := v2.found v1
    exact ⟨a, v, i, v1, i1, i2, v3⟩

/-- Channels with the gain sets 0, 5 and none, the third ducked by the others. -/
def duckBits : List Bool :=
  startBits 1 1 3 ++ constBits 6 ++ headBits 1 1024 false ++ (natBits 6 1 ++ [false, false]) ++ (natBits 6 6 ++ [false, false]) ++
    (natBits 6 0 ++ [false, false]) ++ [false, false]

/-- Four channels of which the first and the third share a gain set and the last has none. -/
def groupBits : List Bool :=
  startBits 1 1 4 ++ constBits 6 ++ headBits 1 0 true ++ (natBits 6 2 ++ [false]) ++ (natBits 6 5 ++ [false]) ++
    (natBits 6 2 ++ [false]) ++ (natBits 6 0 ++ [false]) ++ [false, false, false, false] ++ [false, false]

example : ∃ c l' o, run (readConfig ⟨32, []⟩ clearedConfig) groupBits = .ok (c, l') ∧ 0 < c.instrCount ∧ c.instrs[0]? = some o ∧
    ¬ Ducks o ∧ o.dmxIds[0]? = some 0 ∧ o.dmxCount = 1 ∧ o.chGroup.take 4 = [0, 1, 0, -1] ∧ o.groupSet.take 2 = [1, 4] := by
  obtain ⟨c, l', h1, h2⟩ := of_outcome (l := groupBits) (test := fun x => decide (0 < x.1.instrCount) && match x.1.instrs[0]? with
    | some o => decide (¬ Ducks o ∧ o.dmxIds[0]? = some 0 ∧ o.dmxCount = 1 ∧ o.chGroup.take 4 = [0, 1, 0, -1] ∧
        o.groupSet.take 2 = [1, 4])
    | none => false) (by decide +kernel)
  rw [Bool.and_eq_true] at h2
  obtain ⟨h2, h3⟩ := h2
  dsimp only at h2 h3
  split at h3
  · rename_i o ho
    exact ⟨c, l', o, h1, of_decide_eq_true h2, ho, of_decide_eq_true h3⟩
  · simp at h3

/-! ## One ducking sequence -/

/-- **C121**, refuted: an instruction that ducks other channels is accepted though its driving channels have
the gain sets 0 and 5. -/
theorem C121_refuted : ∃ l c l' o, run (readConfig ⟨32, []⟩ clearedConfig) l = .ok (c, l') ∧ 0 < c.instrCount ∧
    c.instrs[0]? = some o ∧ o.effect.testBit 11 = false ∧ o.effect.testBit 10 = true ∧ 2 ≤ c.channels ∧
    o.gainIdx[0]? = some 0 ∧ o.gainIdx[1]? = some 5 := by
  obtain ⟨c, l', h1, h2⟩ := of_outcome (l := duckBits) (test := fun x => decide (0 < x.1.instrCount) && match x.1.instrs[0]? with
    | some o => decide (o.effect.testBit 11 = false ∧ o.effect.testBit 10 = true ∧ 2 ≤ x.1.channels ∧
        o.gainIdx[0]? = some 0 ∧ o.gainIdx[1]? = some 5)
    | none => false) (by decide +kernel)
  rw [Bool.and_eq_true] at h2
  obtain ⟨h2, h3⟩ := h2
  dsimp only at h2 h3
  split at h3
  · rename_i o ho
    exact ⟨duckBits, c, l', o, h1, of_decide_eq_true h2, ho, of_decide_eq_true h3⟩
  · simp at h3

/-- **C121** (part: no driving channel after the first has gain set 0 before it).  In an accepted instruction
that ducks other channels, a driving channel has the gain set of every earlier driving channel whose gain set
is not the first one. -/
theorem C121_sequence_partial (env : Env) (n m : Nat) (c : Config) (hc : Sized n m c) (l : List Bool) (c' : Config) (l' : List Bool)
    (h : run (readConfig env c) l = .ok (c', l')) (k : Nat) (hk : k < c'.instrCount) :
    ∃ o, c'.instrs[k]? = some o ∧ (o.effect.testBit 11 = false → o.effect.testBit 10 = true →
      ∀ i j a b, i < j → j < c'.channels → o.gainIdx[i]? = some a → o.gainIdx[j]? = some b → 0 < a → 0 ≤ b → a = b) := by
  obtain ⟨o, o1, o2, _⟩ := (C119_accepted env n m c hc l c' l' h).instrs k hk
  refine ⟨o, o1, fun hs ho => ?_⟩
  obtain ⟨_, v, _, v2, _⟩ := o2.other hs ho
  exact v2.earlier

/-! ## Modifiers for all bands -/

/-- Two sets of coefficients at one location: the first has four bands, the second one. -/
def twoBits : List Bool :=
  startBits 2 1 1 ++ (natBits 4 1 ++ false :: (natBits 6 1 ++ natBits 6 8 ++ natBits 4 4 ++ true :: (natBits 7 0 ++ natBits 7 0 ++
    natBits 7 0 ++ natBits 7 0 ++ natBits 4 1 ++ natBits 4 2 ++ natBits 4 3))) ++ constBits 1 ++ headBits 1 0 true ++
    (natBits 6 1 ++ [false]) ++ (true :: natBits 8 136) ++ [false] ++ [false, false]

/-- **C122**, refuted: with two sets of coefficients at one location the modifiers are read for the bands of
the last, while the first is used; its further bands have no modifiers. -/
theorem C122_refuted : ∃ l c l' o ms x y, run (readConfig ⟨32, []⟩ clearedConfig) l = .ok (c, l') ∧ 0 < c.instrCount ∧
    c.instrs[0]? = some o ∧ ¬ Ducks o ∧ 0 < o.groups ∧ o.bandCount[0]? = some 4 ∧ o.mods[0]? = some ms ∧
    ms[0]? = some x ∧ ms[1]? = some y ∧ x.attn = 1 ∧ y.attn = 0 := by
  obtain ⟨c, l', h1, h2⟩ := of_outcome (l := twoBits) (test := fun x => decide (0 < x.1.instrCount) && match x.1.instrs[0]? with
    | some o => decide (¬ Ducks o ∧ 0 < o.groups ∧ o.bandCount[0]? = some 4) && match o.mods[0]? with
      | some [x, y, _, _] => decide (x.attn = 1 ∧ y.attn = 0)
      | _ => false
    | none => false) (by decide +kernel)
  rw [Bool.and_eq_true] at h2
  obtain ⟨h2, h3⟩ := h2
  dsimp only at h2 h3
  split at h3
  · rename_i o ho
    rw [Bool.and_eq_true] at h3
    obtain ⟨h3, h4⟩ := h3
    have h3 := of_decide_eq_true h3
    split at h4
    · rename_i x y z w hm
      have h4 := of_decide_eq_true h4
      exact ⟨twoBits, c, l', o, _, x, y, h1, of_decide_eq_true h2, ho, h3.1, h3.2.1, h3.2.2, hm, rfl, rfl, h4.1, h4.2⟩
    · simp at h4
  · simp at h3

/-- **C122** (part: every location has one set of coefficients).  In an accepted instruction without ducking all
bands of a group have the modifiers that were read for it. -/
theorem C122_modifiers_partial (env : Env) (n m : Nat) (c : Config) (hc : Sized n m c) (l : List Bool) (c' : Config) (l' : List Bool)
    (h : run (readConfig env c) l = .ok (c', l'))
    (hloc : ∀ (a b : Nat) (x y : Coeffs), a < c'.coeffCount → b < c'.coeffCount → c'.coeffs[a]? = some x → c'.coeffs[b]? = some y →
      x.loc = y.loc → a = b) (k : Nat) (hk : k < c'.instrCount) :
    ∃ o, c'.instrs[k]? = some o ∧ (¬ Ducks o → ∀ g < o.groups, ∃ ms x bands, o.mods[g]? = some ms ∧ o.bandCount[g]? = some bands ∧
      ∀ b < bands, ms[b]? = some x) := by
  obtain ⟨o, o1, o2, o3⟩ := (C119_accepted env n m c hc l c' l' h).instrs k hk
  refine ⟨o, o1, fun hd g hg => ?_⟩
  obtain ⟨a, ca, a1, a2, _, a4⟩ := o2.mods hd
  obtain ⟨b, cb, b1, b2, _, b4⟩ := o3.coeffs
  rw [List.getElem?_take] at a1 b1
  split at a1
  · split at b1
    · have hab := hloc a b ca cb ‹_› ‹_› a1 b1 (by rw [a2, b2])
      subst hab
      rw [a1] at b1
      have := Option.some.inj b1
      subst this
      obtain ⟨v, ms, x, m1, m2, m3⟩ := a4 g hg
      obtain ⟨v', s, s1, s2, s3, s4, _, _, _, s8, _⟩ := b4 g hg
      rw [m1] at s1
      have := Option.some.inj s1
      subst this
      rw [if_neg hd] at s8
      exact ⟨ms, x, s.bands, m2, s8, m3 s s3 s4⟩
    · simp at b1
  · simp at a1

example : ∃ c l', run (readConfig ⟨32, []⟩ clearedConfig) groupBits = .ok (c, l') ∧ c.coeffCount = 1 ∧ c.instrCount = 1 ∧
    ∀ (a b : Nat) (x y : Coeffs), a < c.coeffCount → b < c.coeffCount → c.coeffs[a]? = some x → c.coeffs[b]? = some y →
      x.loc = y.loc → a = b := by
  obtain ⟨c, l', h1, h2⟩ := of_outcome (l := groupBits) (test := fun x => decide (x.1.coeffCount = 1 ∧ x.1.instrCount = 1))
    (by decide +kernel)
  have h2 := of_decide_eq_true h2
  dsimp only at h2
  refine ⟨c, l', h1, h2.1, h2.2, fun a b _ _ ha hb _ _ _ => ?_⟩
  rw [h2.1] at ha hb
  omega

end Verif.DrcConfig
