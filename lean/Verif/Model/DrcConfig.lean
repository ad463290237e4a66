import Mathlib.Algebra.Order.Ring.Rat
import Verif.Model.Loop
import Verif.Model.DrcLoud

/-! # The DRC configuration

`impd_drc_parse_config` and the functions it calls (impd_drc_static_payload.c 66-243 and 580-1656).  The
decoder is built without `LC_LEVEL_4`, so that `MAX_CHANNEL_COUNT` is 16 and `SEQUENCE_COUNT_MAX`,
`GAIN_SET_COUNT_MAX` and `CHANNEL_GROUP_COUNT_MAX` are 24.  `version` is always 0 (1553).  Factors and
offsets are multiples of 1/8 and are rational numbers here.  The arrays of the decoder are lists; their
length is the size of the array.  After an error nothing of the configuration is used. -/

namespace Verif.DrcConfig

open Prog

/-- `ia_drc_gain_params_struct`; all fields are `WORD8`. -/
structure Param where
  seq : Int
  characteristic : Int
  crossover : Int
  startBand : Int
  deriving DecidableEq, Repr

/-- `ia_drc_gain_set_params_struct` without the tables for other time differences. -/
structure GainSet where
  profile : Nat
  interp : Nat
  full : Nat
  align : Nat
  timeFlag : Nat
  timeMin : Nat
  bands : Nat
  bandType : Nat
  params : List Param
  deriving DecidableEq, Repr

/-- `ia_drc_uni_drc_coeffs_struct`; `version` and `drc_frame_size_present` are 0. -/
structure Coeffs where
  loc : Nat
  count : Nat
  sets : List GainSet
  deriving DecidableEq, Repr

/-- One entry of the arrays of `ia_drc_gain_modifiers_struct`. -/
structure BandMod where
  scaling : Nat
  attn : Rat
  ampl : Rat
  offFlag : Nat
  off : Rat
  deriving DecidableEq, Repr

/-- `ia_drc_instructions_struct` as far as this parser fills it. -/
structure Instr where
  setId : Int
  loc : Nat
  applyDmx : Nat
  dmxCount : Nat
  dmxIds : List Int
  depends : Nat
  dependsOn : Nat
  noIndep : Nat
  effect : Nat
  gainIdx : List Int
  mods : List (List BandMod)
  duck : List (Nat × Rat)
  peakPresent : Nat
  peak : Rat
  targetPresent : Nat
  upper : Int
  lowerPresent : Nat
  lower : Int
  kind : Nat
  group : Int
  preset : Int
  groups : Nat
  groupSet : List Int
  bandCount : List Nat
  interp : List Nat
  timeMin : List Nat
  align : List Nat
  groupDuck : List (Nat × Rat)
  chGroup : List Int
  elements : Nat
  deriving DecidableEq, Repr

/-- `ia_drc_config` as far as this parser fills it. -/
structure Config where
  dwnCount : Nat
  coeffCount : Nat
  instrCount : Nat
  plus : Nat
  channels : Nat
  coeffs : List Coeffs
  instrs : List Instr
  deriving DecidableEq, Repr

/-- What the parser is given: `delta_tmin_def` and, of the downmix instructions of the stream, identifier and
number of channels. -/
structure Env where
  dt : Nat
  dmx : List (Int × Nat)

/-- `IA_MPEGD_DRC_INIT_NONFATAL_UNEXPECTED_ERROR` -/
def errUnexpected : ErrCode := .other 0x00001101
/-- `IA_MPEGD_DRC_INIT_NONFATAL_UNSUPPORTED_CH_GROUPS` -/
def errGroups : ErrCode := .other 0x00001103
/-- `IA_MPEGD_DRC_INIT_NONFATAL_COEFF_MAX_EXCEEDED` -/
def errCoeffs : ErrCode := .other 0x00001104
/-- `IA_MPEGD_DRC_INIT_NONFATAL_UNSUPPORTED_DUCKING_SEQUENCE` -/
def errDucking : ErrCode := .other 0x00001106
/-- `IA_MPEGD_DRC_INIT_NONFATAL_DRC_INSTR_MAX_EXCEEDED` -/
def errInstrs : ErrCode := .other 0x00001107
/-- `IA_MPEGD_DRC_INIT_FATAL_INVALID_GAIN_SET_INDEX` -/
def errSetIndex : ErrCode := .other 0xFFFF9101
/-- `IA_MPEGD_DRC_INIT_FATAL_UNEXPECTED_ERROR` -/
def errFatal : ErrCode := .other 0xFFFF9103
/-- `IA_MPEGD_DRC_INIT_FATAL_INVALID_DRC_PARAM_FOR_LC_PROFILE` -/
def errProfile : ErrCode := .other 0xFFFF910C

/-! ## Coefficients -/

/-- The first loop over the bands of a gain set, impd_drc_static_payload.c 616-648, with
`*gain_seq_index`.  It is counted up at most once for each of the at most 63 gain sets of constant gain and
refused at 24, so that it stays in `WORD8`. -/
def seqStep (k : Nat) (s : Int × List Param) : Prog (Int × List Param) := do
  let seq := s.1 + 1
  if 24 ≤ seq then fail errUnexpected
  else do
    let p ← getAt s.2 k
    let c ← bits 7
    let ps ← setAt s.2 k { p with seq := seq, characteristic := c }
    pure (seq, ps)

/-- The second loop, impd_drc_static_payload.c 650-665; the 10 bits of a start subband are stored in a
`WORD8`. -/
def borderStep (bandType k : Nat) (ps : List Param) : Prog (List Param) := do
  let p ← getAt ps k
  if bandType = 0 then do
    let v ← bits 10
    setAt ps k { p with startBand := toI8 v }
  else do
    let v ← bits 4
    setAt ps k { p with crossover := v }

/-- `impd_drc_parse_gain_set_params`, impd_drc_static_payload.c 580-674. -/
def readGainSet (seq : Int) (o : GainSet) : Prog (Int × GainSet) := do
  let t ← bits 6
  let tmin ← (if t % 2 = 1 then do
      let v ← bits 11
      pure (v + 1)
    else pure o.timeMin)
  let o := { o with
    profile := t / 16, interp := t / 8 % 2, full := t / 4 % 2, align := t / 2 % 2, timeFlag := t % 2
    timeMin := tmin }
  if t / 16 ≠ 3 then do
    let n ← bits 4
    if 4 < n then fail errUnexpected
    else do
      let bt ← (if 1 < n then bits 1 else pure o.bandType)
      let r ← foldN seqStep n 0 (seq, o.params)
      let ps ← foldN (borderStep bt) (n - 1) 1 r.2
      pure (r.1, { o with bands := n, bandType := bt, params := ps })
  else pure (seq + 1, { o with bands := 1 })

/-- The loop over the gain sets, impd_drc_static_payload.c 721-753; the rest of the body is not reached. -/
def gainSetStep (k : Nat) (s : Int × List GainSet) : Prog (Int × List GainSet) := do
  let o ← getAt s.2 k
  let r ← readGainSet s.1 o
  let sets ← setAt s.2 k r.2
  if r.2.timeFlag ≠ 0 ∨ r.2.interp ≠ 1 then fail errProfile
  else pure (r.1, sets)

/-- `impd_drc_parse_coeff`, impd_drc_static_payload.c 689-756. -/
def readCoeffs (o : Coeffs) : Prog Coeffs := do
  let t ← bits 5
  if t % 2 ≠ 0 then fail errProfile
  else do
    let n ← bits 6
    let r ← foldN gainSetStep n 0 (-1, o.sets)
    pure ⟨t / 2, n, r.2⟩

/-! ## Instructions -/

/-- `impd_drc_parse_target_loudness`, impd_drc_static_payload.c 769-796. -/
def readTarget (o : Instr) : Prog Instr := do
  let p ← bits 1
  if p = 1 then do
    let u ← bits 6
    let lp ← bits 1
    if lp = 1 then do
      let v ← bits 6
      pure { o with targetPresent := p, upper := (u : Int) - 63, lowerPresent := lp, lower := (v : Int) - 63 }
    else pure { o with targetPresent := p, upper := (u : Int) - 63, lowerPresent := lp, lower := -63 }
  else pure { o with targetPresent := p, upper := 0, lower := -63 }

/-- `impd_drc_update_uni_drc_coeff`, impd_drc_static_payload.c 811-836: the last coefficients of a location. -/
def lastAt (cs : List Coeffs) (loc : Nat) : Option Coeffs := cs.reverse.find? (·.loc = loc)

/-- impd_drc_static_payload.c 181-194: the first coefficients of a location. -/
def firstAt (cs : List Coeffs) (loc : Nat) : Option Coeffs := cs.find? (·.loc = loc)

/-- `impd_drc_parse_downmix_id`, impd_drc_static_payload.c 850-885. -/
def readDmxIds (o : Instr) : Prog Instr := do
  let d ← bits 7
  let ids ← setAt o.dmxIds 0 (d : Int)
  let o := { o with dmxIds := ids, applyDmx := if d ≠ 0 then 1 else 0 }
  let f ← bits 1
  if f = 0 then pure { o with dmxCount := 1 }
  else do
    let n ← bits 3
    let ids ← foldN (fun k ids => do
      let v ← bits 7
      setAt ids (k + 1) (v : Int)) n 0 o.dmxIds
    pure { o with dmxIds := ids, dmxCount := 1 + n }

/-- `impd_drc_update_ch_count`, impd_drc_static_payload.c 899-931; `d` is `downmix_id[0]`. -/
def channelCount (env : Env) (d : Int) (dmxCount cnt : Nat) : Prog Nat := do
  let n ← (if d ≠ 0 ∧ d ≠ 127 ∧ dmxCount = 1 then
      match env.dmx.find? (·.1 = d) with
      | none => fail errUnexpected
      | some x => pure x.2
    else if d = 127 ∨ 1 < dmxCount then pure 1
    else pure cnt)
  if 16 < n then fail errUnexpected else pure n

/-- `impd_drc_decode_gain_modifiers`, impd_drc_static_payload.c 945-985.  The order in which the bands are
filled makes no difference. -/
def readMods (bands : Nat) (ms : List BandMod) : Prog (List BandMod) := do
  let sf ← bits 1
  let s ← (if sf = 1 then do
      let t ← bits 8
      pure ((t / 16 : Nat) / (8 : Rat), (t % 16 : Nat) / (8 : Rat))
    else pure (1, 1))
  let of ← bits 1
  let g ← (if of = 1 then do
      let t ← bits 6
      pure (if t / 32 = 1 then -((1 + t % 32 : Nat) / (4 : Rat)) else (1 + t % 32 : Nat) / (4 : Rat))
    else pure (0 : Rat))
  foldN (fun k ms => setAt ms k ⟨sf, s.1, s.2, of, g⟩) bands 0 ms

/-- `gain_set_index[ch + idx] = …` for `n` channels. -/
def fillFrom {α : Type} (n ch : Nat) (v : α) (xs : List α) : Prog (List α) :=
  foldN (fun k xs => setAt xs k v) n ch xs

/-- `while (ch < *ch_cnt)`, impd_drc_static_payload.c 1014-1047.  Every round counts `ch` up, so that `cnt`
rounds suffice. -/
def idxLoop (cnt : Nat) : (fuel ch : Nat) → List Int → Prog (Nat × List Int)
  | 0, ch, xs => pure (ch, xs)
  | fuel + 1, ch, xs =>
    if ch < cnt then do
      let t ← bits 7
      if 24 < t / 2 then fail errUnexpected
      else do
        let xs ← setAt xs ch ((t / 2 : Nat) - 1 : Int)
        if t % 2 = 1 then do
          let n ← bits 5
          if 16 < ch + 1 + (n + 1) then fail errUnexpected
          else do
            let xs ← fillFrom (n + 1) (ch + 1) ((t / 2 : Nat) - 1 : Int) xs
            idxLoop cnt fuel (ch + 1 + (n + 1)) xs
        else idxLoop cnt fuel (ch + 1) xs
    else pure (ch, xs)

/-- State of the loops that form channel groups: the number of groups, `unique_idx` together with
`unique_scaling`, and `channel_group_of_ch`. -/
structure Groups where
  n : Nat
  uniq : List (Int × Rat)
  of : List Int
  deriving DecidableEq, Repr

/-- A channel joins the first group that `same` accepts, or a new group: impd_drc_static_payload.c 1076-1093,
1207-1223 and 1266-1281. -/
def join (same : Int × Rat → Bool) (ch : Nat) (idx : Int) (factor : Rat) (g : Groups) : Prog Groups :=
  match (g.uniq.take g.n).findIdx? same with
  | some n => do
    let of ← setAt g.of ch (n : Int)
    pure { g with of := of }
  | none => do
    let u ← setAt g.uniq g.n (idx, factor)
    let of ← setAt g.of ch (g.n : Int)
    pure ⟨g.n + 1, u, of⟩

/-- The loop of impd_drc_static_payload.c 1066-1096; `unique_scaling` is not used and stays -10. -/
def groupStep (xs : List Int) (ch : Nat) (g : Groups) : Prog Groups := do
  let idx ← getAt xs ch
  if idx < 0 then do
    let of ← setAt g.of ch (-1)
    pure { g with of := of }
  else join (fun u => u.1 = idx) ch idx (-10) g

/-- `unique_idx` and `unique_scaling` at first, impd_drc_static_payload.c 1498-1502. -/
def noGroups (of : List Int) : Groups := ⟨0, List.replicate 16 (-10, -10), of⟩

/-- The groups of an instruction without ducking, impd_drc_static_payload.c 1053-1101. -/
def formGroups (d : Int) (dmxCount cnt : Nat) (xs : List Int) (g : Groups) : Prog Groups :=
  if d = 127 ∨ 1 < dmxCount then do
    let idx ← getAt xs 0
    if 0 ≤ idx then do
      let u ← setAt g.uniq 0 (idx, -10)
      pure ⟨1, u, g.of⟩
    else pure g
  else foldN (groupStep xs) cnt 0 g

/-- The loop over the groups, impd_drc_static_payload.c 1102-1126.  `c` are the last coefficients of the
location. -/
def modStep (c : Coeffs) (uniq : List (Int × Rat)) (k : Nat) (s : List Int × List (List BandMod)) :
    Prog (List Int × List (List BandMod)) := do
  let u ← getAt uniq k
  if u.1 < 0 then fail errUnexpected
  else do
    let gs ← setAt s.1 k u.1
    let bands ← (if u.1 < c.count then do
        let g ← getAt c.sets u.1.toNat
        pure g.bands
      else pure 1)
    let m ← getAt s.2 k
    let m ← readMods bands m
    let ms ← setAt s.2 k m
    pure (gs, ms)

/-- `impd_drc_parse_instrns_effect_not_self_other`, impd_drc_static_payload.c 1002-1128. -/
def plainBody (env : Env) (c : Coeffs) (cnt : Nat) (o : Instr) : Prog Instr := do
  let d ← getAt o.dmxIds 0
  let cnt ← channelCount env d o.dmxCount cnt
  let r ← idxLoop cnt cnt 0 o.gainIdx
  if cnt < r.1 then fail errUnexpected
  else do
    let g ← formGroups d o.dmxCount cnt r.2 (noGroups o.chGroup)
    if 16 < g.n then fail errGroups
    else do
      let s ← foldN (modStep c g.uniq) g.n 0 (o.groupSet, o.mods)
      pure { o with gainIdx := r.2, chGroup := g.of, groups := g.n, groupSet := s.1, mods := s.2 }

/-- `impd_drc_decode_ducking_scaling`, impd_drc_static_payload.c 1142-1172. -/
def readDuck : Prog (Nat × Rat) := do
  let f ← bits 1
  if f ≠ 0 then do
    let t ← bits 4
    pure (1, if t / 8 ≠ 0 then 1 - (1 + (t % 8 : Nat)) / 8 else 1 + (1 + (t % 8 : Nat)) / 8)
  else pure (0, 1)

/-- `while (ch < *ch_cnt)`, impd_drc_static_payload.c 1316-1357. -/
def duckLoop (cnt : Nat) : (fuel ch : Nat) → List Int × List (Nat × Rat) → Prog (Nat × List Int × List (Nat × Rat))
  | 0, ch, s => pure (ch, s)
  | fuel + 1, ch, s =>
    if ch < cnt then do
      let t ← bits 6
      if 24 < t then fail errUnexpected
      else do
        let xs ← setAt s.1 ch ((t : Int) - 1)
        let d ← readDuck
        let ds ← setAt s.2 ch d
        let r ← bits 1
        if r = 1 then do
          let n ← bits 5
          if 16 < ch + 1 + (n + 1) then fail errUnexpected
          else do
            let xs ← fillFrom (n + 1) (ch + 1) ((t : Int) - 1) xs
            let ds ← fillFrom (n + 1) (ch + 1) d ds
            duckLoop cnt fuel (ch + 1 + (n + 1)) (xs, ds)
        else duckLoop cnt fuel (ch + 1) (xs, ds)
    else pure (ch, s)

/-- Loop of `impd_drc_update_ch_group_info_duck_self`, impd_drc_static_payload.c 1195-1224. -/
def selfStep (xs : List Int) (ds : List (Nat × Rat)) (ch : Nat) (g : Groups) : Prog Groups := do
  let idx ← getAt xs ch
  let d ← getAt ds ch
  if idx < 0 then do
    let of ← setAt g.of ch (-1)
    pure { g with of := of }
  else join (fun u => u = (idx, d.2)) ch idx d.2 g

/-- Loop of `impd_drc_update_ch_group_info_duck_other`, impd_drc_static_payload.c 1249-1283, with
`*ducking_seq`. -/
def otherStep (xs : List Int) (ds : List (Nat × Rat)) (ch : Nat) (s : Int × Groups) : Prog (Int × Groups) := do
  let idx ← getAt xs ch
  let d ← getAt ds ch
  if 0 ≤ idx then
    if idx ≠ s.1 ∧ 0 < s.1 then fail errDucking
    else do
      let of ← setAt s.2.of ch (-1)
      pure (idx, { s.2 with of := of })
  else do
    let g ← join (fun u => u.2 = d.2) ch idx d.2 s.2
    pure (s.1, g)

/-- `IA_DRC_EFFECT_BIT_DUCK_OTHER` is set. -/
def duckOther (effect : Nat) : Bool := effect.testBit 10
/-- `IA_DRC_EFFECT_BIT_DUCK_SELF` is set. -/
def duckSelf (effect : Nat) : Bool := effect.testBit 11

/-- The groups of an instruction with ducking, impd_drc_static_payload.c 1363-1375. -/
def duckGroups (effect cnt : Nat) (xs : List Int) (ds : List (Nat × Rat)) (g : Groups) : Prog (Int × Groups) :=
  if duckSelf effect then do
    let g ← foldN (selfStep xs ds) cnt 0 g
    pure (-1, g)
  else do
    let r ← foldN (otherStep xs ds) cnt 0 (-1, g)
    if r.1 = -1 then fail errDucking else pure r

/-- The loop over the groups, impd_drc_static_payload.c 1382-1405. -/
def duckStep (effect : Nat) (seq : Int) (uniq : List (Int × Rat)) (k : Nat)
    (s : List Int × List (Nat × Rat) × List Nat) : Prog (List Int × List (Nat × Rat) × List Nat) := do
  let u ← getAt uniq k
  let set := if duckOther effect then seq else u.1
  if set < 0 then fail errUnexpected
  else do
    let gs ← setAt s.1 k set
    let ds ← setAt s.2.1 k ((if u.2 = 1 then 0 else 1), u.2)
    let bs ← setAt s.2.2 k 1
    pure (gs, ds, bs)

/-- `impd_drc_parse_instrns_effect_self_other`, impd_drc_static_payload.c 1306-1407. -/
def duckBody (cnt : Nat) (o : Instr) : Prog Instr := do
  let r ← duckLoop cnt cnt 0 (o.gainIdx, o.duck)
  if cnt < r.1 then fail errUnexpected
  else do
    let g ← duckGroups o.effect cnt r.2.1 r.2.2 (noGroups o.chGroup)
    if 16 < g.2.n then fail errGroups
    else do
      let s ← foldN (duckStep o.effect g.1 g.2.uniq) g.2.n 0 (o.groupSet, o.groupDuck, o.bandCount)
      pure { o with
        gainIdx := r.2.1, duck := r.2.2, chGroup := g.2.of, groups := g.2.n
        groupSet := s.1, groupDuck := s.2.1, bandCount := s.2.2 }

/-- The first part of `impd_drc_parse_drc_instructions`, impd_drc_static_payload.c 1434-1485. -/
def readHead (o : Instr) : Prog Instr := do
  let id ← bits 6
  if 32 ≤ id then fail errUnexpected
  else do
    let loc ← bits 4
    let o ← readDmxIds { o with setId := id, loc := loc }
    let e ← bits 16
    let o := { o with effect := e }
    let o ← (if !duckOther e && !duckSelf e then do
        let p ← bits 1
        if p = 1 then do
          let v ← bits 8
          pure { o with peakPresent := p, peak := -(v : Rat) / 8 }
        else pure { o with peakPresent := p }
      else pure o)
    let o ← readTarget o
    let dep ← bits 1
    let d ← getAt o.dmxIds 0
    if d = 0 ∧ dep ≠ 0 then fail errProfile
    else if dep = 0 then do
      let ni ← bits 1
      pure { o with depends := dep, noIndep := ni }
    else do
      let on ← bits 6
      pure { o with depends := dep, noIndep := 0, dependsOn := on }

/-- `impd_drc_parse_drc_instructions`, impd_drc_static_payload.c 1422-1531; `cs` are the coefficients that
have been read. -/
def readInstr (env : Env) (cs : List Coeffs) (channels : Nat) (o : Instr) : Prog Instr := do
  let o ← readHead o
  match lastAt cs o.loc with
  | none => fail errFatal
  | some c =>
    if 16 < channels then fail errUnexpected
    else do
      let o ← (if !duckOther o.effect && !duckSelf o.effect then plainBody env c channels o else duckBody channels o)
      let d ← getAt o.dmxIds 0
      if d ≠ 0 ∧ o.groups ≠ 1 then fail errProfile else pure o

/-- What an instruction is about, impd_drc_static_payload.c 1584-1607. -/
def readKind (o : Instr) : Prog Instr := do
  let k ← bits 1
  if k = 0 then pure { o with kind := 0, group := -1, preset := -1 }
  else do
    let k ← bits 1
    if k = 1 then do
      let v ← bits 5
      pure { o with kind := 3, preset := v }
    else do
      let v ← bits 7
      pure { o with kind := 2, group := v }

/-- The loop over the groups of `impd_drc_gen_instructions_derived_data`, impd_drc_static_payload.c
196-220; the state is the interpolation types, smallest time differences and time alignments. -/
def deriveStep (env : Env) (c : Coeffs) (groupSet : List Int) (k : Nat) (s : List Nat × List Nat × List Nat) :
    Prog (List Nat × List Nat × List Nat) := do
  let seq ← getAt groupSet k
  if (c.count : Int) ≤ seq then fail errSetIndex
  else if seq < 0 then undef
  else do
    let g ← getAt c.sets seq.toNat
    let a ← setAt s.1 k g.interp
    let b ← setAt s.2.1 k (if g.timeFlag = 0 then env.dt else g.timeMin)
    let d ← setAt s.2.2 k g.align
    pure (a, b, d)

/-- The loop of impd_drc_static_payload.c 229-240: the numbers of bands and their sum. -/
def bandsStep (c : Coeffs) (groupSet : List Int) (k : Nat) (s : List Nat × Nat) : Prog (List Nat × Nat) := do
  let seq ← getAt groupSet k
  if seq < 0 then undef
  else do
    let g ← getAt c.sets seq.toNat
    let bs ← setAt s.1 k g.bands
    pure (bs, s.2 + g.bands)

/-- `impd_drc_gen_instructions_derived_data`, impd_drc_static_payload.c 172-243. -/
def derive (env : Env) (cs : List Coeffs) (o : Instr) : Prog Instr := do
  match firstAt cs o.loc with
  | none => fail errFatal
  | some c => do
    let s ← foldN (deriveStep env c o.groupSet) o.groups 0 (o.interp, o.timeMin, o.align)
    let o := { o with interp := s.1, timeMin := s.2.1, align := s.2.2 }
    if duckOther o.effect || duckSelf o.effect then pure { o with elements := o.groups }
    else do
      let b ← foldN (bandsStep c o.groupSet) o.groups 0 (o.bandCount, 0)
      pure { o with bandCount := b.1, elements := b.2 }

/-! ## The configuration -/

/-- `impd_drc_parse_config_ext`, impd_drc_static_payload.c 125-158. -/
def readExt : Prog Unit := do
  let t ← bits 4
  if t = 0 then pure ()
  else do
    let w ← bits 4
    let n ← bits (w + 4)
    DrcLoud.skipBits (n + 1)
    let t ← bits 4
    if t = 0 then pure () else fail errUnexpected

/-- An instruction after `memset`. -/
def zeroInstr : Instr :=
  ⟨0, 0, 0, 0, List.replicate 8 0, 0, 0, 0, 0, List.replicate 16 0, List.replicate 24 (List.replicate 4 ⟨0, 0, 0, 0, 0⟩),
    List.replicate 16 (0, 0), 0, 0, 0, 0, 0, 0, 0, 0, 0, 0, List.replicate 24 0, List.replicate 24 0, List.replicate 24 0,
    List.replicate 24 0, List.replicate 24 0, List.replicate 24 (0, 0), List.replicate 16 0, 0⟩

/-- The instruction that stands for no DRC, for a downmix identifier. -/
def offInstr (id dmx : Int) : Instr :=
  { zeroInstr with setId := id, dmxIds := dmx :: List.replicate 7 0, dmxCount := 1 }

/-- `impd_drc_gen_instructions_for_drc_off`, impd_drc_static_payload.c 66-112. -/
def drcOff (c : Config) : Prog Config := do
  let is ← setAt c.instrs c.instrCount (offInstr (-1) 0)
  let is ← setAt is (c.instrCount + 1) (offInstr (-2) (-1))
  pure { c with dwnCount := 1, instrs := is, plus := c.instrCount + 1 + 1 }

/-- The loop over the instructions, impd_drc_static_payload.c 1582-1613. -/
def instrStep (env : Env) (cs : List Coeffs) (channels k : Nat) (is : List Instr) : Prog (List Instr) := do
  let o ← getAt is k
  let o ← readKind o
  let o ← readInstr env cs channels o
  setAt is k o

/-- The loop of impd_drc_static_payload.c 1641-1647. -/
def derivedStep (env : Env) (cs : List Coeffs) (k : Nat) (is : List Instr) : Prog (List Instr) := do
  let o ← getAt is k
  let o ← derive env cs o
  setAt is k o

/-- `impd_drc_parse_config`, impd_drc_static_payload.c 1546-1656. -/
def readConfig (env : Env) (c : Config) : Prog Config := do
  let nc ← bits 3
  if 4 < nc then fail errCoeffs
  else do
    let ni ← bits 6
    if 32 < ni then fail errInstrs
    else do
      let ch ← bits 7
      let cs ← foldN (fun k cs => do
        let o ← getAt cs k
        let o ← readCoeffs o
        setAt cs k o) nc 0 c.coeffs
      let is ← foldN (instrStep env (cs.take nc) ch) ni 0 c.instrs
      let e ← bits 1
      when (e == 1) readExt
      let li ← bits 1
      if li ≠ 0 then fail errProfile
      else do
        let is ← foldN (derivedStep env (cs.take nc)) ni 0 is
        if 32 ≤ ni + c.dwnCount then fail errInstrs
        else drcOff { c with coeffCount := nc, instrCount := ni, channels := ch, coeffs := cs, instrs := is }

/-- The memory before the configuration is read: `memset` in `impeghd_uni_drc_dec_init`
(ia_core_coder_decode_main.c 3267).  What `impd_drc_init_bitstream_config` then puts into it is overwritten
or not used. -/
def clearedConfig : Config :=
  ⟨0, 0, 0, 0, 0, List.replicate 4 ⟨0, 0, List.replicate 24 ⟨0, 0, 0, 0, 0, 0, 0, 0, List.replicate 4 ⟨0, 0, 0, 0⟩⟩⟩,
    List.replicate 32 zeroInstr⟩

end Verif.DrcConfig
