import Verif.Model.DrcSel

/-! # What loudness control and DRC set selection are to give

Stated for the types of the configuration and of the loudness information only. -/

namespace Verif.DrcSel

open DrcConfig DrcLoud

/-- The entry has a program or anchor loudness. -/
def Usable (l : Info) : Prop := ∃ m ∈ l.measures.take l.count, m.meth = 1 ∨ m.meth = 2

/-- The entry is for the whole programme, for a requested group or for a requested preset. -/
def Applies (p : Request) (l : Info) : Prop :=
  l.kind = 0 ∨ (l.kind = 2 ∧ l.group ∈ p.groups) ∨ (l.kind = 3 ∧ ∃ n, (l.preset, n) ∈ p.presets)

/-- The entry can be used for the downmix and the set. -/
def Serves (p : Request) (infos : List Info) (a : Int × Int) (l : Info) : Prop :=
  l ∈ infos ∧ (l.dmxId : Int) = a.1 ∧ (l.setId : Int) = a.2 ∧ Usable l ∧ Applies p l

/-- The order in which downmix and set are tried: 127 is any downmix, 63 any set, 0 the base layout and no
DRC. -/
def searchOrder (dmx set : Int) : List (Int × Int) :=
  [(dmx, set), (127, set), (dmx, 63), (dmx, 0), (127, 63), (127, 0), (0, set), (0, 63), (0, 0)]

/-- The group an instruction is for, if it is for a group and DRC is on. -/
def OwnGroup (p : Request) (o : Instr) (g : Int) : Prop := p.drcOn = true ∧ o.kind = 2 ∧ o.group = g

/-- Of the entries that serve, those for presets come before those for groups, and these before those for the
whole programme.  Of those for groups the instruction's group comes before the largest. -/
def Preferred (p : Request) (infos : List Info) (o : Instr) (a : Int × Int) (l : Info) : Prop :=
  Serves p infos a l ∧ (∀ l', Serves p infos a l' → l'.kind ≤ l.kind) ∧
    (l.kind = 2 → (∀ l', Serves p infos a l' → l'.kind = 2 → OwnGroup p o l'.group → l.group = l'.group) ∧
      ((¬ ∃ l', Serves p infos a l' ∧ l'.kind = 2 ∧ OwnGroup p o l'.group) →
        ∀ l', Serves p infos a l' → l'.kind = 2 → l'.group ≤ l.group))

/-- What holds of the requests and the loudness information of a stream with distinct groups: identifiers and
numbers of members are not negative and at most one preset is requested. -/
structure Plain (p : Request) (infos : List Info) : Prop where
  groups : p.groups.Nodup
  presets : p.presets.length ≤ 1
  members : ∀ g ∈ p.presets, 0 ≤ g.2
  group : ∀ l ∈ infos, l.kind = 2 → 0 ≤ l.group
  preset : ∀ l ∈ infos, l.kind = 3 → 0 ≤ l.preset

/-- Measurement systems in order of preference; the others come last. -/
def systemOrder : List Nat := [2, 9, 8, 7, 10, 5, 11, 4]

/-- How early a measurement system comes. -/
def systemRank (s : Nat) : Nat := systemOrder.length - systemOrder.idxOf s

/-- The loudness of an entry: the first program loudness with the most preferred system, or anchor loudness if
there is no program loudness. -/
def Measured (l : Info) (v : Rat) : Prop :=
  ∃ pre m post, l.measures.take l.count = pre ++ m :: post ∧ m.value = v ∧
    (m.meth = 1 ∨ m.meth = 2 ∧ ∀ m' ∈ l.measures.take l.count, m'.meth ≠ 1) ∧
    (∀ m' ∈ pre, m'.meth = m.meth → systemRank m'.system < systemRank m.system) ∧
    (∀ m' ∈ post, m'.meth = m.meth → systemRank m'.system ≤ systemRank m.system)

/-- Gains and loudness for an instruction: of the first downmix and set in the order that loudness information
serves for, the preferred one; no gain and an undefined loudness if there is none. -/
def Levelled (p : Request) (infos : List Info) (o : Instr) (gs : List (Rat × Rat)) : Prop :=
  (gs = [(0, 1000)] ∧ ∀ a ∈ searchOrder p.dmx (max o.setId 0), ∀ l, ¬ Serves p infos a l) ∨
  ∃ pre a post ls, searchOrder p.dmx (max o.setId 0) = pre ++ a :: post ∧
    (∀ b ∈ pre, ∀ l, ¬ Serves p infos b l) ∧ ls ≠ [] ∧ ls.Sublist infos ∧
    (∀ l, l ∈ ls ↔ Preferred p infos o a l) ∧ gs.length = ls.length ∧
    ∀ (i : Nat) (l : Info) (g : Rat × Rat), ls[i]? = some l → gs[i]? = some g →
      Measured l g.2 ∧ g.1 = p.target - g.2

/-- Gain and loudness of the output: for some set of the configuration that is active unless it stands for no DRC
the loudness is the target and the gain is what is missing to it from the preferred loudness information. -/
def Normalised (p : Request) (c : Config) (infos : List Info) (out : Output) : Prop :=
  ∃ u ∈ c.instrs, (0 < u.setId → ∃ d, (u.setId, d) ∈ out.sets) ∧
    ((out.gain = 0 ∧ out.loud = 1000 ∧ ∀ a ∈ searchOrder p.dmx (max u.setId 0), ∀ l, ¬ Serves p infos a l) ∨
     (out.loud = p.target ∧ ∃ pre a post l, searchOrder p.dmx (max u.setId 0) = pre ++ a :: post ∧
        (∀ b ∈ pre, ∀ l, ¬ Serves p infos b l) ∧ Preferred p infos u a l ∧ Measured l (p.target - out.gain)))

/-- Both are for the whole programme, for the same group or for the same preset. -/
def SamePart (o : Instr) (l : Info) : Prop :=
  (o.kind = 0 ∧ l.kind = 0) ∨ (o.kind = 2 ∧ l.kind = 2 ∧ o.group = l.group) ∨ (o.kind = 3 ∧ l.kind = 3 ∧ o.preset = l.preset)

/-- The peak level is one of the loudness information, for the set or all sets and for the downmix, explicitly, or for
the base layout. -/
def PeakOf (o : Instr) (dmx : Int) (l : Info) (pk : Peak) : Prop :=
  (((l.dmxId : Int) = dmx ∧ pk.explicit = 1) ∨ (l.dmxId = 0 ∧ pk.explicit = 0)) ∧
  ((l.setId : Int) = max o.setId 0 ∨ l.setId = 63) ∧
  ((l.truePresent = true ∧ pk.level = l.truePeak) ∨ (l.samplePresent = true ∧ pk.level = l.sample))

/-- The peak level is the limiter target of the set. -/
def Limited (instrs : List Instr) (o : Instr) (dmx : Int) (pk : Peak) : Prop :=
  (o.peakPresent ≠ 0 ∧ pk.level = o.peak ∧ pk.explicit = 1) ∨
  (dmx ≠ 0 ∧ ∃ t ∈ instrs, t.setId = max o.setId 0 ∧ t.peakPresent ≠ 0 ∧ pk.level = t.peak ∧ pk.explicit = 0)

/-- The gain sets of the first `n` channel groups have at most four bands. -/
def FewBands (sets : List GainSet) (n : Nat) (groupSet : List Int) : Prop :=
  ∀ j < n, ∃ g : Nat, groupSet[j]? = some (g : Int) ∧ ∃ gs, sets[g]? = some gs ∧ gs.bands ≤ 4

/-- The target loudness is in the range of the set, which includes its upper end only; without normalisation any
range will do. -/
def InRange (p : Request) (o : Instr) : Prop :=
  o.targetPresent ≠ 0 ∧ (p.normOn = true → (o.lower : Rat) < p.target ∧ p.target ≤ o.upper)

/-- There is an explicit peak level for the set: a limiter target, or a peak in loudness information for the downmix. -/
def HasPeak (p : Request) (infos : List Info) (o : Instr) : Prop :=
  o.peakPresent ≠ 0 ∨ ∃ l ∈ infos, (l.dmxId : Int) = p.dmx ∧ ((l.setId : Int) = max o.setId 0 ∨ l.setId = 63) ∧
    (l.truePresent = true ∨ l.samplePresent = true)

/-- The set may be selected: it compresses, may be used alone or with the one it depends on, that is there, and none
of its gain sets has too many bands. -/
structure Fits (p : Request) (c : Config) (o : Instr) : Prop where
  effect : o.effect ≠ 0 ∨ o.setId < 0
  special : o.effect ≠ 0x200 ∧ o.effect ≠ 0x400 ∧ o.effect ≠ 0x800
  alone : o.depends = 1 ∨ (o.depends = 0 ∧ o.noIndep = 0)
  bands : ∀ cf, lastAt (c.coeffs.take c.coeffCount) 1 = some cf → FewBands cf.sets o.groups o.groupSet
  other : 0 < o.dependsOn → ∃ t ∈ c.instrs.take c.instrCount, t.setId = o.dependsOn ∧
    ∀ cf, lastAt (c.coeffs.take c.coeffCount) 1 = some cf → FewBands cf.sets o.groups t.groupSet

/-- The set is for the requested downmix, any downmix or the base layout. -/
def ForDownmix (p : Request) (o : Instr) : Prop :=
  ∃ d ∈ o.dmxIds.take o.dmxCount, d = p.dmx ∨ d = 127 ∨ (d = 0 ∧ 0 < o.setId)

/-- Whether a candidate has an effect, 0 being none of the eight effects that compress: its instruction has it or
depends on one, among the first `n`, that has it. -/
def offers (instrs : List Instr) (n e : Nat) (x : Cand) : Bool :=
  match instrs[x.instr]? with
  | none => false
  | some o =>
    if e = 0 then (List.range 8).all (!o.effect.testBit ·)
    else o.effect.testBit (e - 1) || (o.depends == 1 &&
      (((instrs.take n).find? (fun t => t.setId == (o.dependsOn : Int))).map (·.effect.testBit (e - 1))).getD false)

/-- The set is for a requested group, for a requested preset or for all. -/
def ForRequest (p : Request) (o : Instr) : Prop :=
  (o.kind = 2 → o.group ∈ p.groups) ∧ (o.kind = 3 → ∃ n, (o.preset, n) ∈ p.presets)

/-- Fading sets are for any downmix. -/
def IsFade (p : Request) (o : Instr) : Prop :=
  o.effect.testBit 9 = true ∧ o.dmxIds.headD 0 = 127 ∧ ForRequest p o

/-- Ducking sets are for the base layout. -/
def IsDuck (p : Request) (o : Instr) : Prop :=
  (o.effect.testBit 10 = true ∨ o.effect.testBit 11 = true) ∧ 0 ∈ o.dmxIds.take o.dmxCount ∧ ForRequest p o

/-- How many effects other than general compression a set has with the one it depends on. -/
def effectsOf (instrs : List Instr) (n : Nat) (o : Instr) : Nat :=
  ([0, 1, 2, 3, 4, 6, 7].filter fun b => o.effect.testBit b || (o.depends == 1 &&
    (((instrs.take n).find? (fun t => t.setId == (o.dependsOn : Int))).map (·.effect.testBit b)).getD false)).length

/-- The entries with the least value. -/
def least {α β : Type} [LE β] [DecidableLE β] (v : α → β) (xs : List α) : List α :=
  xs.filter fun x => xs.all fun y => decide (v x ≤ v y)

/-- The entries with the highest value. -/
def most {α : Type} (v : α → Rat) (xs : List α) : List α := least (fun x => - v x) xs

/-- The entries that `P` holds of, or all if it holds of none. -/
def prefer {α : Type} (P : α → Bool) (xs : List α) : List α := if xs.filter P = [] then xs else xs.filter P

/-- Sets for presets come first and only the first of them is considered; then those for groups. -/
def groupRule (xs : List (Cand × Instr)) : List (Cand × Instr) :=
  if xs.filter (·.2.kind == 3) = [] then prefer (·.2.kind == 2) xs else (xs.filter (·.2.kind == 3)).take 1

/-- Sets that do not meet the target loudness come first; otherwise those with the lowest upper end. -/
def targetRule (xs : List (Cand × Instr)) : List (Cand × Instr) :=
  if xs.filter (!·.1.target) = [] then least (fun x : Cand × Instr => x.2.upper) xs else xs.filter (!·.1.target)

/-- The rules of the final selection but the last. -/
def finalRules (instrs : List Instr) (n : Nat) (dmx : Int) (all : List (Cand × Instr)) : List (Cand × Instr) :=
  if all.filter (·.1.peak ≤ 0) = [] then least (fun x : Cand × Instr => x.1.peak) all
  else most (fun x : Cand × Instr => x.1.peak) (targetRule (least (fun x : Cand × Instr => effectsOf instrs n x.2)
    (prefer (fun x => (x.2.dmxIds.take x.2.dmxCount).contains dmx) (groupRule (all.filter (·.1.peak ≤ 0))))))

end Verif.DrcSel
