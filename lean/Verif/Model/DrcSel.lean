import Verif.Model.DrcConfig
import Verif.Model.DrcLoud

/-! # Loudness control and DRC set selection

`impd_drc_loudness_control.c`, `impd_drc_selection_process_drcset_selection.c` and the part of
`impd_drc_selection_process.c` that chooses the active sets, for the parameters this decoder can set: no album
mode, no allowed loudness deviation, an output peak limit of 0, a gain limit of 1000, four bands, the default
measurement method and system, no preprocessing, one downmix request and, with DRC on, one effect request
(impd_drc_selection_process_init.c 66-120, impd_drc_host_params.c 75-98, ia_core_coder_decode_main.c
3225-3260).  `FLOAT32` values are rational numbers: all of them are sums of multiples of 1/32 and whole numbers
and are exact.

Compactions that copy an entry of an array to an earlier place of the same array read the entry before it can
be overwritten as long as the place is not behind the entry; they are written as functions from list to list.
Where the place can get behind the entry the array is modelled. -/

namespace Verif.DrcSel

open DrcConfig
open DrcLoud hiding errUnexpected

/-- What the selection is asked for: the reachable part of `ia_drc_sel_proc_params_struct`. -/
structure Request where
  /-- `dynamic_range_control_on` -/
  drcOn : Bool
  /-- `loudness_normalization_on` -/
  normOn : Bool
  /-- `target_loudness` -/
  target : Rat
  /-- `requested_dwnmix_id[0]` -/
  dmx : Int
  /-- `requested_drc_effect_type[0]` -/
  effects : List Nat
  /-- `desired_num_drc_effects_of_requested[0]` -/
  desired : Nat
  /-- `group_id_requested` -/
  groups : List Int
  /-- `group_preset_id_requested` with `num_members_group_preset_ids_requested` -/
  presets : List (Int × Int)
  /-- `group_preset_id_requested_preference` -/
  prefer : Int
  deriving DecidableEq, Repr

/-- `ia_drc_selection_candidate_info_struct` without the index of the downmix request, which is 0. -/
structure Cand where
  instr : Nat
  gain : Rat
  peak : Rat
  loud : Rat
  target : Bool
  explicit : Bool
  deriving DecidableEq, Repr

/-- One entry of `eq_set_id_Peak`, `signal_peak_level` and `explicit_peak_information_present`
(impd_drc_selection_process_drcset_selection.c 818-831). -/
structure Peak where
  eq : Int
  level : Rat
  explicit : Int
  deriving DecidableEq, Repr

/-- `ID_FOR_ANY_DOWNMIX` -/
def anyDmx : Int := 0x7F
/-- `ID_FOR_ANY_DRC` -/
def anyDrc : Int := 0x3F
/-- `UNDEFINED_LOUDNESS_VALUE` -/
def undefinedLoudness : Rat := 1000
/-- `loudness_norm_gain_db_max` -/
def gainMax : Rat := 1000

/-- A read of an array. -/
def at_ {α : Type} (xs : List α) (i : Nat) : Res α :=
  match xs[i]? with
  | some x => .ok x
  | none => .ub

/-- A write behind the entries written so far of an array of `cap` entries. -/
def push {α : Type} (cap : Nat) (xs : List α) (x : α) : Res (List α) :=
  if xs.length < cap then .ok (xs ++ [x]) else .ub

/-- A write to entry `n` of an array of `cap` entries of which those of `xs` have been written. -/
def put {α : Type} (cap : Nat) (xs : List α) (n : Nat) (x : α) : Res (List α) :=
  if n < xs.length then .ok (xs.set n x) else if n < cap then .ok (xs ++ [x]) else .ub

/-- A loop over the entries of an array. -/
def each {α σ : Type} (f : α → σ → Res σ) : List α → σ → Res σ
  | [], s => .ok s
  | x :: xs, s => do
    let s ← f x s
    each f xs s

/-! ## Peak levels -/

/-- `impd_drc_check_if_match`, impd_drc_loudness_control.c 67-83. -/
def isMatch (o : Instr) (l : Info) : Bool :=
  (o.kind == 3 && l.kind == 3 && o.preset == l.preset) ||
  (o.kind == 2 && l.kind == 2 && o.group == l.group) ||
  (o.kind == 0 && l.kind == 0)

/-- The three arrays, `peak_cnt` and `found_match`. -/
structure Peaks where
  slots : List Peak
  cnt : Nat
  found : Bool
  deriving DecidableEq, Repr

/-- A peak level is written to the current entry, which is kept if the group matches: for instance
impd_drc_loudness_control.c 181-189. -/
def notePeak (o : Instr) (l : Info) (level : Rat) (explicit : Int) (s : Peaks) : Res Peaks := do
  let slots ← (if s.cnt < s.slots.length then Res.ok (s.slots.set s.cnt ⟨0, level, explicit⟩) else .ub)
  if isMatch o l then .ok ⟨slots, s.cnt + 1, true⟩ else .ok { s with slots := slots }

/-- One of the loops over the loudness information, for entries that `which` holds of:
impd_drc_loudness_control.c 165-209, 212-257, 297-341 and 344-387. -/
def infoPeak (o : Instr) (which : Info → Bool) (explicit : Int) (l : Info) (s : Peaks) : Res Peaks :=
  if which l then do
    let s ← (if l.truePresent then notePeak o l l.truePeak explicit s else Res.ok s)
    if !s.found && l.samplePresent then notePeak o l l.sample explicit s else .ok s
  else .ok s

/-- A limiter peak target is written and kept: impd_drc_loudness_control.c 267-271, 283-287 and 399-404. -/
def limitPeak (eq : Int) (level : Rat) (explicit : Int) (s : Peaks) : Res Peaks :=
  if s.cnt < s.slots.length then .ok ⟨s.slots.set s.cnt ⟨eq, level, explicit⟩, s.cnt + 1, true⟩ else .ub

/-- The set the peak levels are looked up for: impd_drc_loudness_control.c 145-152. -/
def lookedUp (o : Instr) : Int := if 0 ≤ o.setId then o.setId else 0

/-- The loops after the first are run only while nothing has been found. -/
def unlessFound (f : Peaks → Res Peaks) (s : Peaks) : Res Peaks := if s.found then .ok s else f s

/-- `impd_drc_signal_peak_level_info`, impd_drc_loudness_control.c 105-420: how many peak levels there are,
and the arrays.  `slots` is what the arrays hold before. -/
def peakLevels (instrs : List Instr) (infos : List Info) (o : Instr) (dmx : Int) (slots : List Peak) :
    Res (Nat × List Peak) := do
  let s : Peaks := ⟨slots.set 0 ⟨0, 0, 0⟩, 0, false⟩
  let s ← each (infoPeak o (fun l => dmx == l.dmxId && lookedUp o == l.setId) 1) infos s
  let s ← unlessFound (each (infoPeak o (fun l => anyDrc == l.setId && dmx == l.dmxId) 1) infos) s
  let ids := o.dmxIds.take o.dmxCount
  let s ← unlessFound (each (fun _ s =>
    if (dmx == o.dmxIds.headD 0 || anyDmx == o.dmxIds.headD 0) && o.peakPresent != 0 then
      limitPeak 0 o.peak 1 s else .ok s) ids) s
  let s ← unlessFound (each (fun d s =>
    if dmx == d && o.peakPresent != 0 then limitPeak 0 o.peak 1 s else .ok s) ids.tail) s
  let s ← (if dmx = 0 then Res.ok s else do
    let s ← unlessFound (each (infoPeak o (fun l => lookedUp o == l.setId && 0 == l.dmxId) 0) infos) s
    let s ← unlessFound (each (infoPeak o (fun l => anyDrc == l.setId && 0 == l.dmxId) 0) infos) s
    unlessFound (each (fun (t : Instr) s =>
      if lookedUp o == t.setId && t.dmxIds.headD 0 == 0 && t.peakPresent != 0 then
        limitPeak (-1) t.peak 0 s else .ok s) instrs) s)
  .ok (if s.cnt = 0 then 1 else s.cnt, s.slots)

/-! ## Loudness information -/

/-- `impd_drc_chk_loudness_info_present`, impd_drc_loudness_control.c 601-616. -/
def hasLoudness (l : Info) : Bool := (l.measures.take l.count).any fun m => m.meth == 1 || m.meth == 2

/-- The group and the preset the instruction asks for, impd_drc_loudness_control.c 642-670. -/
def asked (p : Request) (o : Instr) : Int × Int :=
  if p.drcOn then
    if o.kind = 2 then (o.group, -1) else if o.kind = 3 then (-1, o.preset) else (-1, -1)
  else if o.setId < 0 then (-1, -1) else (0, 0)

/-- The places of the entries without group, with a requested group and with a requested preset:
impd_drc_loudness_control.c 684-728. -/
structure Sorted where
  plain : List Nat
  group : List Nat
  preset : List (Nat × Int)
  deriving DecidableEq, Repr

/-- The loop body of impd_drc_loudness_control.c 695-727. -/
def sortStep (p : Request) (l : Info) (s : Nat × Sorted) : Res (Nat × Sorted) := do
  if l.kind = 0 then do
    let xs ← push infoMax s.2.plain s.1
    .ok (s.1 + 1, { s.2 with plain := xs })
  else if l.kind = 2 then do
    let xs ← each (fun g xs => if l.group = g then push infoMax xs s.1 else .ok xs) p.groups.reverse s.2.group
    .ok (s.1 + 1, { s.2 with group := xs })
  else if l.kind = 3 then do
    let xs ← each (fun (g : Int × Int) xs => if l.preset = g.1 then push infoMax xs (s.1, g.2) else .ok xs)
      p.presets.reverse s.2.preset
    .ok (s.1 + 1, { s.2 with preset := xs })
  else .ok (s.1 + 1, s.2)

/-- `loudness_info_matching` has 16 entries (impd_drc_loudness_control.c 1183). -/
def matchMax : Nat := 16

/-- A loop that copies entries of `loudness_info_matching` that `keep` holds of to its beginning, as in
impd_drc_loudness_control.c 735-744: the array and the number of entries copied. -/
def copyIf (keep : Info → Bool) (i : Nat) (s : List Info × Nat) : Res (List Info × Nat) := do
  let l ← at_ s.1 i
  if keep l then do
    let arr ← put matchMax s.1 s.2 l
    .ok (arr, s.2 + 1)
  else .ok s

/-- The loop of impd_drc_loudness_control.c 764-789: entries with the most members and, of these, the largest
preset. The state holds the array, the number, the most members and the largest preset so far. -/
def copyMost (i : Nat × Int) (s : (List Info × Nat) × Int × Int) : Res ((List Info × Nat) × Int × Int) := do
  if s.2.1 ≤ i.2 then do
    let n := if s.2.1 < i.2 then 0 else s.1.2
    let most := if s.2.1 < i.2 then i.2 else s.2.1
    let l ← at_ s.1.1 i.1
    if s.2.2 ≤ l.preset then do
      let n := if s.2.2 < l.preset then 0 else n
      let arr ← put matchMax s.1.1 n l
      .ok ((arr, n + 1), most, max s.2.2 l.preset)
    else .ok ((s.1.1, n), most, s.2.2)
  else .ok s

/-- The loop of impd_drc_loudness_control.c 810-823: entries with the largest group. -/
def copyLargest (i : Nat) (s : (List Info × Nat) × Int) : Res ((List Info × Nat) × Int) := do
  let l ← at_ s.1.1 i
  if s.2 ≤ l.group then do
    let n := if s.2 < l.group then 0 else s.1.2
    let arr ← put matchMax s.1.1 n l
    .ok ((arr, n + 1), max s.2 l.group)
  else .ok s

/-- The entries for a downmix and a set that have a loudness, impd_drc_loudness_control.c 672-681. -/
def collect (infos : List Info) (dmx set : Int) : Res (List Info) :=
  each (fun l xs => if dmx = l.dmxId ∧ set = l.setId ∧ hasLoudness l then push matchMax xs l else .ok xs)
    infos []

/-- The choice among the entries with a preset, impd_drc_loudness_control.c 731-791. -/
def choosePreset (p : Request) (req : Int) (t3 : List (Nat × Int)) (arr : List Info) :
    Res (List Info × Nat) := do
  let s ← (if req ≠ -1 then each (copyIf (·.preset == req)) (t3.map (·.1)) (arr, 0) else Res.ok (arr, 0))
  let s ← (if s.2 = 0 ∧ p.prefer ≠ -1 then each (copyIf (·.preset == p.prefer)) (t3.map (·.1)) (s.1, 0)
    else Res.ok s)
  if s.2 = 0 then do
    let r ← each copyMost t3 ((s.1, 0), 0, 0)
    .ok r.1
  else .ok s

/-- The choice among the entries with a group, impd_drc_loudness_control.c 793-825. -/
def chooseGroup (req : Int) (t2 : List Nat) (arr : List Info) : Res (List Info × Nat) := do
  let s ← (if req ≠ -1 then each (copyIf (·.group == req)) t2 (arr, 0) else Res.ok (arr, 0))
  if s.2 = 0 then do
    let r ← each copyLargest t2 ((s.1, 0), 0)
    .ok r.1
  else .ok s

/-- `impd_drc_check_loudness_info`, impd_drc_loudness_control.c 635-838. -/
def checkInfo (p : Request) (infos : List Info) (o : Instr) (dmx set : Int) : Res (List Info) := do
  let arr ← collect infos dmx set
  let t ← each (sortStep p) arr (0, ⟨[], [], []⟩)
  let s ← (if t.2.preset.isEmpty then Res.ok (arr, 0) else choosePreset p (asked p o).2 t.2.preset arr)
  let s ← (if s.2 = 0 ∧ !t.2.group.isEmpty then chooseGroup (asked p o).1 t.2.group s.1 else Res.ok s)
  let s ← (if s.2 = 0 then each (copyIf (fun _ => true)) t.2.plain s else Res.ok s)
  .ok (s.1.take s.2)

/-- The order in which downmix and set are tried, impd_drc_loudness_control.c 867-913. -/
def attempts (dmx set : Int) : List (Int × Int) :=
  [(dmx, set), (anyDmx, set), (dmx, anyDrc), (dmx, 0), (anyDmx, anyDrc), (anyDmx, 0), (0, set), (0, anyDrc),
    (0, 0)]

/-- The first attempt that gives anything. -/
def firstOf (f : Int × Int → Res (List Info)) : List (Int × Int) → Res (List Info)
  | [] => .ok []
  | a :: as => do
    let xs ← f a
    if xs.isEmpty then firstOf f as else .ok xs

/-- `impd_drc_check_loudness_payload`, impd_drc_loudness_control.c 856-917, after the instruction's set
identifier has been changed. -/
def findInfo (p : Request) (infos : List Info) (o : Instr) : Res (List Info) :=
  firstOf (fun a => checkInfo p infos o a.1 a.2) (attempts p.dmx o.setId)

/-- `ia_drc_ameasurement_system_bs1770_3_tbl`, impd_drc_rom.c 102. -/
def bonus : List Int := [0, 0, 8, 0, 1, 3, 0, 5, 6, 7, 4, 2]

/-- The loop over the measurements for a method, impd_drc_loudness_control.c 1264-1275 and 1278-1289: the best
bonus and the value. -/
def bestStep (meth : Nat) (m : Measure) (s : Int × Rat) : Res (Int × Rat) :=
  if m.meth = meth then do
    let b ← at_ bonus m.system
    if s.1 < b then .ok (b, m.value) else .ok s
  else .ok s

/-- The loudness of an entry, impd_drc_loudness_control.c 1263-1290. `v` is the value of the entry before. -/
def loudnessOf (l : Info) (v : Rat) : Res Rat := do
  let s ← each (bestStep 1) (l.measures.take l.count) (-1, v)
  let s ← (if s.1 = -1 then each (bestStep 2) (l.measures.take l.count) s else Res.ok s)
  .ok s.2

/-- The loop of impd_drc_loudness_control.c 1261-1311: gain and loudness for each entry. -/
def gainsOf (target : Rat) : List Info → Rat → Res (List (Rat × Rat))
  | [], _ => .ok []
  | l :: ls, v => do
    let v ← loudnessOf l v
    let rest ← gainsOf target ls v
    .ok ((target - v, v) :: rest)

/-- `impd_drc_init_loudness_control`, impd_drc_loudness_control.c 1145-1324: the instruction, whose set
identifier is changed if it is negative (863-866), and gain and loudness for each entry found. -/
def loudnessControl (p : Request) (infos : List Info) (o : Instr) : Res (Instr × List (Rat × Rat)) := do
  if p.normOn then do
    let o : Instr := if o.setId < 0 then { o with setId := 0 } else o
    let ls ← findInfo p infos o
    let gs ← gainsOf p.target ls 0
    .ok (o, if gs.isEmpty then [(0, undefinedLoudness)] else gs)
  else .ok (o, [(0, undefinedLoudness)])

/-! ## Pre-selection -/

/-- What the loops of the pre-selection change: the instructions, the peak level arrays, the candidates and
`loudness_gain_db` of the configuration. -/
structure Pre where
  instrs : List Instr
  slots : List Peak
  cands : List Cand
  gain : Rat
  deriving DecidableEq, Repr

/-- `SELECTION_CANDIDATE_COUNT_MAX` -/
def candMax : Nat := 32

/-- Whether an instruction is for the requested downmix,
impd_drc_selection_process_drcset_selection.c 848-857. -/
def forDmx (o : Instr) (dmx : Int) : Bool :=
  (o.dmxIds.take o.dmxCount).any fun d => (d == 0 && decide (0 < o.setId)) || d == dmx || d == anyDmx

/-- The place of the first peak level, impd_drc_selection_process_drcset_selection.c 883-890 and 1049-1056:
the number of peak levels if there is none that is not bound to an equaliser. -/
def peakPlace (n : Nat) (slots : List Peak) : Nat := (slots.take n).findIdx (·.eq == 0)

/-- Loudness of the output. -/
def outLoud (loud gain : Rat) : Rat := if loud = undefinedLoudness then undefinedLoudness else loud + gain

/-- The loop body with DRC off, impd_drc_selection_process_drcset_selection.c 877-934. The adjustment (893-898)
is the minimum of a number that is not negative and the allowed deviation, which is 0. -/
def offCand (i n : Nat) (slots : List Peak) (g : Rat × Rat) (s : List Cand × Rat) : Res (List Cand × Rat) := do
  if candMax ≤ s.1.length then .err errUnexpected
  else if peakPlace n slots < n then do
    let pk ← at_ slots (peakPlace n slots)
    let gain := min g.1 gainMax
    .ok (s.1 ++ [⟨i, gain, pk.level + gain, outLoud g.2 gain, false, pk.explicit == 1⟩], gain)
  else .ok s

/-- Whether the target loudness of the instruction is met,
impd_drc_selection_process_drcset_selection.c 1079-1085. -/
def meetsTarget (p : Request) (o : Instr) : Bool :=
  o.targetPresent != 0 &&
    ((p.normOn && decide (p.target ≤ (o.upper : Rat)) && decide ((o.lower : Rat) < p.target)) || !p.normOn)

/-- The loop body with DRC on, impd_drc_selection_process_drcset_selection.c 1022-1112. -/
def onCand (p : Request) (o : Instr) (i n : Nat) (slots : List Peak) (g : Rat × Rat) (s : List Cand × Rat) :
    Res (List Cand × Rat) := do
  if candMax ≤ s.1.length then .err errUnexpected
  else do
    let gain := min g.1 gainMax
    let place := peakPlace n slots
    let pk ← at_ slots place
    let peak := if place < n then pk.level + gain else gain
    let meets := meetsTarget p o
    let peak := if meets ∧ pk.explicit = 0 then (if p.normOn then p.target - o.upper else 0) else peak
    if meets ∨ pk.explicit = 1 ∨ o.targetPresent = 0 then
      .ok (s.1 ++ [⟨i, gain, peak, outLoud g.2 gain, meets, pk.explicit == 1⟩], gain)
    else .ok (s.1, gain)

/-- The conditions of impd_drc_selection_process_drcset_selection.c 939-946. -/
def eligible (o : Instr) : Bool :=
  (o.effect != 0 || decide (o.setId < 0)) &&
  ((o.depends == 0 && o.noIndep == 0) || o.depends == 1) &&
  o.effect != 0x200 && o.effect != 0x400 && o.effect != 0x800

/-- Whether the first `n` channel groups of an instruction have at most four bands,
impd_drc_selection_process_drcset_selection.c 969-979 and 985-995. -/
def fewBands (sets : List GainSet) (n : Nat) (groupSet : List Int) : Res Bool :=
  each (fun j ok => do
    let g ← at_ groupSet j
    if g < 0 then .ub
    else do
      let gs ← at_ sets g.toNat
      .ok (ok && decide (gs.bands ≤ 4))) (List.range n) true

/-- The permission of impd_drc_selection_process_drcset_selection.c 948-996: an instruction that depends on a
set that is not there ends the selection. `coeffs` is the last coefficient block at location 1 (761-787). -/
def permitted (c : Config) (coeffs : Option Coeffs) (instrs : List Instr) (o : Instr) : Res Bool := do
  let a ← (if 0 < o.dependsOn then
      match (instrs.take c.instrCount).find? (fun t => (o.dependsOn : Int) == t.setId) with
      | none => Res.err errUnexpected
      | some t =>
        match coeffs with
        | none => Res.ok true
        | some cf => fewBands cf.sets o.groups t.groupSet
    else Res.ok true)
  let b ← (match coeffs with
    | none => Res.ok true
    | some cf => fewBands cf.sets o.groups o.groupSet)
  .ok (a && b)

/-- The loop body of the first loop of `impd_drc_set_pre_selection`,
impd_drc_selection_process_drcset_selection.c 843-1117, for instruction `i`. -/
def preStep (p : Request) (c : Config) (infos : List Info) (i : Nat) (s : Pre) : Res Pre := do
  let o ← at_ s.instrs i
  if !forDmx o p.dmx then .ok s
  else if !p.drcOn then
    if o.setId < 0 then do
      let (o, gs) ← loudnessControl p infos o
      let is := s.instrs.set i o
      let (n, slots) ← peakLevels (is.take c.plus) infos o p.dmx s.slots
      let (cands, gain) ← each (offCand i n slots) gs (s.cands, s.gain)
      .ok ⟨is, slots, cands, gain⟩
    else .ok s
  else if eligible o then do
    let ok ← permitted c (lastAt (c.coeffs.take c.coeffCount) 1) s.instrs o
    if ok then do
      let (o, gs) ← loudnessControl p infos o
      let is := s.instrs.set i o
      let (n, slots) ← peakLevels (is.take c.plus) infos o p.dmx s.slots
      let (cands, gain) ← each (onCand p o i n slots) gs (s.cands, s.gain)
      .ok ⟨is, slots, cands, gain⟩
    else .ok s
  else .ok s

/-- Whether the group or the preset of an instruction is requested; instructions without are always. -/
def wanted (p : Request) (o : Instr) : Bool :=
  if o.kind = 2 then p.groups.contains o.group
  else if o.kind = 3 then (p.presets.map (·.1)).contains o.preset
  else true

/-- The loop of impd_drc_selection_process_drcset_selection.c 1127-1189: the candidates within the peak limit
or meeting the target without explicit peak, and the lowest peak level of the others. -/
def limitStep (p : Request) (instrs : List Instr) (x : Cand) (s : List Cand × Rat) : Res (List Cand × Rat) := do
  if x.target && !x.explicit then do
    let xs ← push candMax s.1 x
    .ok (xs, s.2)
  else do
    let xs ← (if x.peak ≤ 0 then push candMax s.1 x else Res.ok s.1)
    if x.peak < s.2 then do
      let o ← at_ instrs x.instr
      .ok (xs, if wanted p o then x.peak else s.2)
    else .ok (xs, s.2)

/-- How many candidates are left by the peak limit and its fallbacks,
impd_drc_selection_process_drcset_selection.c 1126-1228. What is left is not used, see `presetStep`. The last
fallback compares an entry of the cleared second array (1211). -/
def withinLimit (p : Request) (instrs : List Instr) (cands : List Cand) : Res Nat := do
  let (xs, lowest) ← each (limitStep p instrs) cands ([], 1000)
  if xs.length ≠ 0 then .ok xs.length
  else
    let ys := cands.filter fun x => x.target && x.explicit
    if ys.length ≠ 0 then .ok ys.length
    else .ok (if (0 : Rat) < lowest + 1 then cands.length else 0)

/-- The loop body of impd_drc_selection_process_drcset_selection.c 1232-1258. The entry is taken from the
candidates before the peak limit. An entry behind them is not written by this function. -/
def presetStep (p : Request) (instrs : List Instr) (cands : List Cand) (k : Nat) (s : List Cand × Bool) :
    Res (List Cand × Bool) := do
  let x ← at_ cands k
  let o ← at_ instrs x.instr
  if o.kind = 3 then
    each (fun (g : Int × Int) s => if o.preset = g.1 then do
        let xs ← push candMax s.1 x
        .ok (xs, true)
      else .ok s) p.presets s
  else if o.kind = 0 ∨ o.kind = 2 then do
    let xs ← push candMax s.1 x
    .ok (xs, s.2)
  else .ok s

/-- The loop body of impd_drc_selection_process_drcset_selection.c 1263-1287. -/
def groupStep (p : Request) (instrs : List Instr) (cands : List Cand) (k : Nat) (xs : List Cand) :
    Res (List Cand) := do
  let x ← at_ cands k
  let o ← at_ instrs x.instr
  if o.kind = 0 then push candMax xs x
  else if o.kind = 2 then
    each (fun g xs => if o.group = g then push candMax xs x else .ok xs) p.groups xs
  else .ok xs

/-- The loop body of impd_drc_selection_process_drcset_selection.c 1293-1305. -/
def noGroupStep (instrs : List Instr) (cands : List Cand) (k : Nat) (xs : List Cand) : Res (List Cand) := do
  let x ← at_ cands k
  let o ← at_ instrs x.instr
  if o.kind = 0 ∨ o.kind = 3 then push candMax xs x else .ok xs

/-- `impd_drc_set_pre_selection`, impd_drc_selection_process_drcset_selection.c 805-1345: the instructions, the
candidates and `loudness_gain_db`.  `slots` is what the peak level arrays, which are not cleared, hold. -/
def preSelect (p : Request) (c : Config) (infos : List Info) (slots : List Peak) : Res Pre := do
  let s ← each (preStep p c infos) (List.range c.plus) ⟨c.instrs, slots, [], 0⟩
  if p.drcOn then do
    let n ← withinLimit p s.instrs s.cands
    let (xs, preset) ← each (presetStep p s.instrs s.cands) (List.range n) ([], false)
    let ys ← (if preset then each (noGroupStep s.instrs s.cands) (List.range xs.length) []
      else each (groupStep p s.instrs s.cands) (List.range xs.length) [])
    .ok { s with cands := ys }
  else .ok s

/-! ## Effects -/

/-- `effect_types_request_table`, impd_drc_selection_process_drcset_selection.c 63-66: the places of the bits. -/
def effectBits : List Nat := [0, 1, 2, 3, 4, 5, 6, 7]

/-- `impd_drc_get_dependent_drc_instructions`, impd_drc_selection_process_drcset_selection.c 125-149. -/
def dependent (c : Config) (instrs : List Instr) (o : Instr) : Res Instr :=
  match (instrs.take c.instrCount).find? (fun t => t.setId == (o.dependsOn : Int)) with
  | none => .err errUnexpected
  | some t => if t.depends = 1 then .err errUnexpected else .ok t

/-- `impd_drc_select_drcs_without_compr_effects`, impd_drc_selection_process_drcset_selection.c 165-222. -/
def withoutEffects (instrs : List Instr) (cands : List Cand) : Res (List Cand) :=
  each (fun x xs => do
    let o ← at_ instrs x.instr
    if effectBits.any (o.effect.testBit ·) then .ok xs else push candMax xs x) cands []

/-- The loop of `impd_drc_match_effect_type_attempt`, impd_drc_selection_process_drcset_selection.c 270-331,
which is only called with `state_requested` 1. -/
def withEffect (c : Config) (instrs : List Instr) (bit : Nat) (cands : List Cand) : Res (List Cand) :=
  each (fun x xs => do
    let o ← at_ instrs x.instr
    if o.depends ≠ 1 then
      if o.effect.testBit bit then push candMax xs x else .ok xs
    else do
      let t ← dependent c instrs o
      if o.effect.testBit bit || t.effect.testBit bit then push candMax xs x else .ok xs) cands []

/-- `impd_drc_match_effect_type_attempt`, impd_drc_selection_process_drcset_selection.c 239-358: the candidates
with the effect, or all of them and false. -/
def attempt (c : Config) (instrs : List Instr) (e : Nat) (cands : List Cand) : Res (List Cand × Bool) := do
  if 9 ≤ e then .err errUnexpected
  else do
    let xs ← (if e = 0 then withoutEffects instrs cands else withEffect c instrs (e - 1) cands)
    .ok (if xs.isEmpty then (cands, false) else (xs, true))

/-- The first loop of `impd_drc_match_effect_types`,
impd_drc_selection_process_drcset_selection.c 387-404: candidates, whether any attempt and whether the last
attempt matched. -/
def desiredLoop (c : Config) (instrs : List Instr) : List Nat → List Cand × Bool × Bool → Res (List Cand × Bool × Bool)
  | [], s => .ok s
  | e :: es, s => do
    let (xs, ok) ← attempt c instrs e s.1
    desiredLoop c instrs es (xs, s.2.1 || ok, ok)

/-- The second loop of `impd_drc_match_effect_types`,
impd_drc_selection_process_drcset_selection.c 405-419. -/
def otherLoop (c : Config) (instrs : List Instr) : List Nat → List Cand × Bool → Res (List Cand)
  | [], s => .ok s.1
  | e :: es, s => if s.2 then .ok s.1 else do
    let r ← attempt c instrs e s.1
    otherLoop c instrs es r

/-- `impd_drc_match_effect_types`, impd_drc_selection_process_drcset_selection.c 375-422. -/
def matchEffects (c : Config) (instrs : List Instr) (p : Request) (cands : List Cand) : Res (List Cand) := do
  let (xs, any, last) ← desiredLoop c instrs (p.effects.take p.desired) (cands, false, false)
  if any then .ok xs else otherLoop c instrs (p.effects.drop p.desired) (xs, last)

/-! ## Final selection -/

/-- A loop that keeps the entries with the least value below `start`: for instance
impd_drc_selection_process_drcset_selection.c 1386-1399.  The state holds the entries and the least value. -/
def leastStep {α β : Type} [LT β] [LE β] [DecidableLT β] [DecidableLE β] (v : α → β) (x : α) (s : List α × β) :
    List α × β :=
  if v x ≤ s.2 then (if v x < s.2 then [x] else s.1 ++ [x], if v x < s.2 then v x else s.2) else s

/-- The candidates with the instructions they refer to. -/
def looked (instrs : List Instr) : List Cand → Res (List (Cand × Instr))
  | [] => .ok []
  | x :: xs => do
    let o ← at_ instrs x.instr
    let r ← looked instrs xs
    .ok ((x, o) :: r)

/-- How many members a requested preset has; otherwise the number for the entry before,
impd_drc_selection_process_drcset_selection.c 1490-1499. -/
def members (p : Request) (o : Instr) (before : Int) : Int :=
  match p.presets.find? (fun g => g.1 == o.preset) with
  | some g => g.2
  | none => before

/-- The loop of impd_drc_selection_process_drcset_selection.c 1483-1512 over the entries with a preset. The
state holds the entries kept, the number of members of the entry before and the most members. -/
def mostMembers (p : Request) : List (Cand × Instr) → List (Cand × Instr) × Int × Int → List (Cand × Instr)
  | [], s => s.1
  | x :: xs, s =>
    let m := members p x.2 s.2.1
    if s.2.2 ≤ m then mostMembers p xs (if s.2.2 < m then [x] else s.1 ++ [x], m, max s.2.2 m)
    else mostMembers p xs (s.1, m, s.2.2)

/-- The loop of impd_drc_selection_process_drcset_selection.c 1516-1528. `n` counts up to `k`, which is set to
1 when an entry is taken. -/
def lowestLoop (xs : List (Cand × Instr)) : (fuel n k : Nat) → Int → Option (Cand × Instr) → Nat × Option (Cand × Instr)
  | 0, _, k, _, best => (k, best)
  | fuel + 1, n, k, lowest, best =>
    if n < k then
      match xs[n]? with
      | none => (k, best)
      | some x =>
        if x.2.preset < lowest then lowestLoop xs fuel (n + 1) 1 x.2.preset (some x)
        else lowestLoop xs fuel (n + 1) k lowest best
    else (k, best)

/-- The choice between presets and groups, impd_drc_selection_process_drcset_selection.c 1418-1531. -/
def byGroup (p : Request) (xs : List (Cand × Instr)) : List (Cand × Instr) :=
  let t3 := xs.filter (·.2.kind == 3)
  if t3.isEmpty then
    let t2 := xs.filter (·.2.kind == 2)
    if t2.isEmpty then xs else t2
  else
    match t3.find? (·.2.preset == p.prefer) with
    | some x => [x]
    | none =>
      let ys := mostMembers p t3 ([], 0, 0)
      if 1 < ys.length then
        match lowestLoop ys ys.length 0 ys.length 1000 none with
        | (k, some x) => x :: (ys.take k).tail
        | (k, none) => ys.take k
      else ys

/-- The loop body of impd_drc_selection_process_drcset_selection.c 1534-1552 for entry `i`: it is copied once
for each identifier that is the requested one, to places that can be behind it. -/
def dmxStep (dmx : Int) (i : Nat) (s : List (Cand × Instr) × Nat) : Res (List (Cand × Instr) × Nat) := do
  let x ← at_ s.1 i
  each (fun d s => if dmx = d then
      if candMax ≤ s.2 then .err errUnexpected
      else do
        -- entry `i` is read again for each copy
        let x ← at_ s.1 i
        let arr ← put candMax s.1 s.2 x
        .ok (arr, s.2 + 1)
    else .ok s) (x.2.dmxIds.take x.2.dmxCount) s

/-- impd_drc_selection_process_drcset_selection.c 1533-1556. -/
def byDmx (dmx : Int) (xs : List (Cand × Instr)) : Res (List (Cand × Instr)) := do
  let s ← each (dmxStep dmx) (List.range xs.length) (xs, 0)
  .ok (if s.2 = 0 then xs else s.1.take s.2)

/-- How many effects other than general compression an instruction has with the one it depends on,
impd_drc_selection_process_drcset_selection.c 1566-1603. -/
def effectCount (c : Config) (instrs : List Instr) (o : Instr) : Res Nat := do
  if o.depends ≠ 1 then .ok ((effectBits.filter (· ≠ 5)).countP (o.effect.testBit ·))
  else if 0 < c.instrCount then do
    let t ← dependent c instrs o
    .ok ((effectBits.filter (· ≠ 5)).countP fun b => o.effect.testBit b || t.effect.testBit b)
  else .ok 0

/-- The loop of impd_drc_selection_process_drcset_selection.c 1561-1615. -/
def fewestStep (c : Config) (instrs : List Instr) (x : Cand × Instr) (s : List (Cand × Instr) × Nat) :
    Res (List (Cand × Instr) × Nat) := do
  let n ← effectCount c instrs x.2
  .ok (if n ≤ s.2 then (if n < s.2 then [x] else s.1 ++ [x], n) else s)

/-- The choice by target loudness, impd_drc_selection_process_drcset_selection.c 1618-1671. -/
def byTarget (xs : List (Cand × Instr)) : Res (List (Cand × Instr)) :=
  let k := xs.countP (·.1.target)
  if k ≠ 0 ∧ k ≠ xs.length then .ok (xs.filter (!·.1.target))
  else if k = xs.length then do
    let s ← each (fun (x : Cand × Instr) s => if x.2.targetPresent ≠ 1 then .err errUnexpected
      else .ok (leastStep (fun y : Cand × Instr => y.2.upper) x s)) xs ([], 100)
    .ok s.1
  else .ok xs

/-- The loop of impd_drc_selection_process_drcset_selection.c 1676-1690: the entries with the highest peak level
not above 0. -/
def highestStep (x : Cand × Instr) (s : List (Cand × Instr) × Rat) : List (Cand × Instr) × Rat :=
  if x.1.peak ≤ 0 ∧ s.2 ≤ x.1.peak then (if s.2 < x.1.peak then [x] else s.1 ++ [x], x.1.peak) else s

/-- The loop of impd_drc_selection_process_drcset_selection.c 1695-1706: the first entry with the highest set
identifier above −1000. -/
def lastStep (x : Cand × Instr) (s : Option (Cand × Instr) × Int) : Option (Cand × Instr) × Int :=
  if s.2 < x.2.setId then (some x, x.2.setId) else s

/-- A candidate of the cleared second array. -/
def zeroCand : Cand := ⟨0, 0, 0, 0, false, false⟩

/-- `impd_drc_set_final_selection`, impd_drc_selection_process_drcset_selection.c 1361-1712. If no entry is left
the first entry of the second array is copied; it is never needed and not modelled beyond `zeroCand`. -/
def finalSelect (p : Request) (c : Config) (instrs : List Instr) (cands : List Cand) : Res Cand := do
  let all ← looked instrs cands
  let (least, level) := all.foldl (fun s x => leastStep (fun y : Cand × Instr => y.1.peak) x s) ([], (10000 : Rat))
  let xs ← (if level ≤ 0 then do
      let xs ← byDmx p.dmx (byGroup p (all.filter (·.1.peak ≤ 0)))
      let (xs, _) ← each (fewestStep c instrs) xs ([], 100)
      let xs ← byTarget xs
      Res.ok (xs.foldl (fun s x => highestStep x s) ([], (-1000 : Rat))).1
    else Res.ok least)
  match (xs.foldl (fun s x => lastStep x s) (none, (-1000 : Int))).1 with
  | some x => .ok x.1
  | none => .ok ((xs.head?.map (·.1)).getD zeroCand)

/-! ## The active sets -/

/-- `impd_select_drc_set`, impd_drc_selection_process.c 198-355: the state after the pre-selection and the
candidate chosen. -/
def selectSet (p : Request) (c : Config) (infos : List Info) (slots : List Peak) : Res (Pre × Cand) := do
  let s ← preSelect p c infos slots
  match s.cands with
  | [] => .err errUnexpected
  | x :: _ =>
    if (p.effects.take p.desired).contains 0 && decide (1 < p.desired) then .err errUnexpected
    else if p.drcOn then do
      let xs ← matchEffects c s.instrs p s.cands
      if xs.isEmpty then .err errUnexpected
      else do
        let y ← finalSelect p c s.instrs xs
        .ok (s, y)
    else .ok (s, x)

/-- `impd_get_selected_drc_set`, impd_drc_selection_process.c 368-386, and the search of
`impd_get_dependent_drc_set`, 414-423. -/
def firstWith (c : Config) (instrs : List Instr) (id : Int) : Res Nat :=
  let i := (instrs.take c.plus).findIdx (·.setId == id)
  if i < (instrs.take c.plus).length then .ok i else .err errUnexpected

/-- `impd_get_dependent_drc_set`, impd_drc_selection_process.c 398-427. -/
def getDependent (c : Config) (instrs : List Instr) (o : Instr) : Res (Option Nat) :=
  if o.depends = 1 then do
    let i ← firstWith c instrs o.dependsOn
    .ok (some i)
  else .ok none

/-- `impd_get_fading_drc_set`, impd_drc_selection_process.c 439-498. Kinds other than 0, 2 and 3 do not occur. -/
def getFading (p : Request) : List Instr → Nat → Option Nat → Res (Option Nat)
  | [], _, r => .ok r
  | o :: os, n, r =>
    if o.effect.testBit 9 then
      if o.dmxIds.headD 0 = anyDmx then getFading p os (n + 1) (if wanted p o then some n else r)
      else .err errUnexpected
    else getFading p os (n + 1) r

/-- The loop of `impd_get_ducking_drc_set`, impd_drc_selection_process.c 510-580. -/
def getDucking (p : Request) : List Instr → Nat → Option Nat → Option Nat
  | [], _, r => r
  | o :: os, n, r =>
    getDucking p os (n + 1)
      (if (o.effect.testBit 10 || o.effect.testBit 11) && (o.dmxIds.take o.dmxCount).contains 0 && wanted p o
        then some n else r)

/-- What the selection gives: the active sets with their downmix, and the gains. -/
structure Output where
  /-- `sel_drc_set_ids` with `sel_downmix_ids`, `num_sel_drc_sets` of them -/
  sets : List (Int × Int)
  /-- `loud_norm_gain_db` of the selected candidate -/
  gain : Rat
  /-- `output_peak_level_db` -/
  peak : Rat
  /-- `output_loudness` -/
  loud : Rat
  /-- `loudness_gain_db` of the configuration, which is the gain applied to the output
  (ia_core_coder_decode_main.c 2861-2863) -/
  applied : Rat
  deriving DecidableEq, Repr

/-- The loop body of impd_drc_selection_process.c 882-915; `duck` for index 3. -/
def activeStep (instrs : List Instr) (x : Bool × Option Nat) (s : List (Int × Int)) : Res (List (Int × Int)) :=
  match x.2 with
  | none => .ok s
  | some i => do
    let o ← at_ instrs i
    if 0 < o.setId then
      push 4 s (o.setId, if x.1 && (o.effect.testBit 10 || o.effect.testBit 11) then 0
        else if o.applyDmx = 1 then o.dmxIds.headD 0 else 0)
    else .ok s

/-- The write of the requested downmix identifier to the last instruction,
impd_drc_selection_process.c 830-847: index −1 if there is none. -/
def noteDmx (p : Request) (c : Config) : Res Config := do
  if c.plus = 0 then .ub
  else do
    let o ← at_ c.instrs (c.plus - 1)
    .ok { c with instrs := c.instrs.set (c.plus - 1) { o with dmxIds := o.dmxIds.set 0 (if p.dmx = 0 then -1 else p.dmx) } }

/-- `impd_drc_uni_sel_proc_process`, impd_drc_selection_process.c 764-975, for a changed configuration, without
the downmix matrix and the loudness of the groups. -/
def select (p : Request) (c : Config) (infos : List Info) (slots : List Peak) : Res Output := do
  let c ← noteDmx p c
  let (s, x) ← selectSet p c infos slots
  let o ← at_ s.instrs x.instr
  let sel ← firstWith c s.instrs o.setId
  let so ← at_ s.instrs sel
  let dep ← getDependent c s.instrs so
  let fade ← getFading p (s.instrs.take c.instrCount) 0 none
  let duck := getDucking p (s.instrs.take c.instrCount) 0 none
  let fade := if duck.isSome then none else fade
  let sets ← each (activeStep s.instrs) [(true, duck), (false, fade), (false, dep), (false, some sel)] []
  if 3 < sets.length then .err errUnexpected
  else .ok ⟨sets, x.gain, x.peak, x.loud, s.gain⟩

end Verif.DrcSel
