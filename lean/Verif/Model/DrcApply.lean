import Verif.Model.DrcSel

/-! # The active DRC sets at work

How the active sets are handed to the two gain decoders (ia_core_coder_decode_main.c 152-190 and 3370-3514), how a
gain decoder is set up (impd_drc_init.c 345-749, impd_drc_multiband.c 66-255 and impd_drc_filter_bank.c 127-351) and how gains are applied
(impd_drc_process.c 68-650).  The decoder is built without `LC_LEVEL_4`.  Samples, gains and weights are rational
numbers.  A buffer is a function from row and sample; how many rows there are is checked at each access.  The
innermost loops over the samples of a row treat each sample alone and are done at once. -/

namespace Verif.DrcApply

open DrcConfig Res
open DrcSel (at_ push each)

/-- `IA_MPEGD_DRC_INIT_FATAL_UNSUPPORTED_CH_COUNT` -/
def errChannels : ErrCode := .other 0xFFFF9106
/-- `IA_MPEGD_DRC_INIT_FATAL_UNSUPPORTED_SUBBAND_DOMAIN_MODE` -/
def errMode : ErrCode := .other 0xFFFF910A
/-- `IA_MPEGD_DRC_INIT_NONFATAL_PARAM_ERROR` -/
def errParam : ErrCode := .other 0x00001102
/-- `IA_MPEGD_DRC_INIT_FATAL_UNSUPPORTED_NUM_SUBBAND` -/
def errBands : ErrCode := .other 0xFFFF910B

/-! ## Weights of the bands -/

/-- `freq_cross_norm` of `ia_drc_normal_cross_freq`, impd_drc_rom.c 324-341. -/
def crossFreq : List Rat :=
  [2 / 1024, 3 / 1024, 4 / 1024, 5 / 1024, 6 / 1024, 2 / 256, 3 / 256, 2 / 128, 3 / 128, 2 / 64, 3 / 64, 2 / 32,
    3 / 32, 2 / 16, 3 / 16, 2 / 8]

/-- The function `pow(·, norm)` of impd_drc_multiband.c 72-74 and the finite entries, all but the first, of
`ia_drc_impd_drc_table` (impd_drc_rom.c 343).  Both are arbitrary. -/
structure Curve where
  pow : Rat → Rat
  tab : Nat → Rat

/-- `impd_drc_generate_slope` for subband `k`, impd_drc_multiband.c 66-93.  The frequency is `k / 512`, so that the
index is `k`.  Entry 0 of the table is infinite: divided by it a number is 0, and it is not divided since `h` is
above 0. -/
def slope (c : Curve) (l h : Rat) (k : Nat) : Rat :=
  if (k : Rat) / 512 < l then (if k = 0 then 0 else c.pow l / c.tab k)
  else if (k : Rat) / 512 < h then 1
  else c.tab k / c.pow h

/-- The loop of impd_drc_multiband.c 147-171, from band `band` on, `t` bands. -/
def hardRows (ps : List Param) (n : Nat) : (t band : Nat) → Int → Res (List (Nat → Rat))
  | 0, _, _ => .ok []
  | t + 1, band, start => do
    let stop ← (if band + 1 = n then Res.ok 255 else do
      let p ← at_ ps (band + 1)
      Res.ok (p.startBand - 1))
    let rest ← hardRows ps n t (band + 1) (stop + 1)
    .ok ((fun k => if start ≤ (k : Int) ∧ (k : Int) ≤ stop then 1 else 0) :: rest)

/-- The loop of impd_drc_multiband.c 175-194, from band `band` on, `t` bands. -/
def softRows (c : Curve) (ps : List Param) (n : Nat) : (t band : Nat) → Rat → Res (List (Nat → Rat))
  | 0, _, _ => .ok []
  | t + 1, band, l => do
    let h ← (if band + 1 = n then Res.ok (1 / 2) else do
      let p ← at_ ps (band + 1)
      if p.crossover < 0 then .ub else at_ crossFreq p.crossover.toNat)
    let rest ← softRows c ps n t (band + 1) h
    .ok (slope c l h :: rest)

/-- The sum of weights, impd_drc_multiband.c 195-203. -/
def total (rows : List (Nat → Rat)) (k : Nat) : Rat := (rows.map (· k)).sum

/-- The weights of the `n` bands of a gain set for 256 subbands, impd_drc_multiband.c 109-217, for
`SUBBAND_DOMAIN_MODE_STFT256`, which its caller has just set. -/
def weights (c : Curve) (bandType n : Nat) (ps : List Param) : Res (List (Nat → Rat)) :=
  if bandType ≠ 1 then hardRows ps n n 0 0
  else do
    let rows ← softRows c ps n n 0 0
    .ok (rows.map fun r k => r k / total rows k)

/-- `impd_drc_init_overlap_weight`, impd_drc_multiband.c 233-255: the weights of the channel groups, none for groups
of one band. -/
def groupWeights (c : Curve) (cf : Coeffs) (o : Instr) : Res (List (List (Nat → Rat))) :=
  each (fun g ws => do
    let n ← at_ o.bandCount g
    if 1 < n then do
      let s ← at_ o.groupSet g
      if s < 0 then .ub
      else do
        let gs ← at_ cf.sets s.toNat
        let w ← weights c gs.bandType n gs.params
        .ok (ws ++ [w])
    else .ok (ws ++ [[]])) (List.range o.groups) []

/-! ## Filters -/

/-- `impd_drc_initialize_filt_bank`, impd_drc_filter_bank.c 127-179: the crossover frequencies of a bank. -/
def ownFreqs (n : Nat) (ps : List Param) : Res (List Int) :=
  if n = 0 ∨ 4 < n then .err errBands
  else each (fun k xs => do
    let p ← at_ ps (k + 1)
    if p.crossover < 0 ∨ 16 ≤ p.crossover then .ub else .ok (xs ++ [p.crossover])) (List.range (n - 1)) []

/-- The crossover frequencies of a group, none without a gain set (impd_drc_filter_bank.c 225 and 250). -/
def freqsOf (cf : Coeffs) (o : Instr) (g : Nat) : Res (Option (List Int)) := do
  let s ← at_ o.groupSet g
  if s < 0 then .ok none
  else do
    let gs ← at_ cf.sets s.toNat
    let fs ← ownFreqs gs.bands gs.params
    .ok (some fs)

/-- `num_ph_align_ch_grps`, impd_drc_filter_bank.c 204-216, with the counts of impd_drc_init.c 400-410: one more than
the groups if there are channels in none. -/
def aligned (o : Instr) (chans : Nat) : Nat :=
  if ((List.range o.groups).map fun g : Nat => (o.chGroup.take chans).countP (· == (g : Int))).sum < chans then o.groups + 1
  else o.groups

/-- One crossover frequency of group `g` is noted for the others, impd_drc_filter_bank.c 259-275; there is room for 72,
so that the error that follows the write is not met. -/
def noteFreq (g : Nat) (f : Int) (lists : List (List Int)) : Res (List (List Int)) :=
  if lists.zipIdx.any (fun x => x.2 != g && decide (72 ≤ x.1.length)) then .ub
  else .ok (lists.mapIdx fun j xs => if j = g then xs else xs ++ [f])

/-- The loop of impd_drc_filter_bank.c 282-323: frequencies that are in all lists are taken out of all.  `fuel` bounds
the number of rounds; that it is enough is part of what is proved. -/
def cancel : (fuel idx : Nat) → List (List Int) → Res (List (List Int))
  | 0, _, _ => .ub
  | fuel + 1, idx, lists =>
    match lists with
    | [] => .ok []
    | l :: rest =>
      match l[idx]? with
      | none => .ok (l :: rest)
      | some f =>
        if rest ≠ [] ∧ rest.all (·.contains f) then cancel fuel 0 ((l :: rest).map (·.erase f))
        else cancel fuel (idx + 1) (l :: rest)

/-- The filters of a bank: its own crossover frequencies and those of its all-pass filters. -/
structure Bank where
  own : List Int
  cascade : List Int
  deriving DecidableEq, Repr

/-- The loop of impd_drc_filter_bank.c 325-342: there is room for 9 all-pass filters, and a bank without new ones keeps
those it has. -/
def setCascades (lists : List (List Int)) (banks : List Bank) : Res (List Bank) :=
  each (fun (x : List Int × Nat) bs => do
    if x.1 = [] then .ok bs
    else if 9 < x.1.length then .ub
    else do
      let b ← at_ bs x.2
      Res.ok (bs.set x.2 { b with cascade := x.1 })) lists.zipIdx banks

/-- `impd_drc_init_all_filter_banks`, impd_drc_filter_bank.c 193-351, with coefficients.  There are 8 banks; the sum of
347 reads the one behind the last aligned group. -/
def initBanks (cf : Coeffs) (o : Instr) (chans : Nat) (banks : List Bank) : Res (List Bank) := do
  let bs ← each (fun g bs => do
    let fs ← freqsOf cf o g
    match fs with
    | none => Res.ok bs
    | some fs => do
      let b ← at_ bs g
      Res.ok (bs.set g { b with own := fs })) (List.range o.groups) banks
  let lists ← each (fun g ls => do
    let fs ← freqsOf cf o g
    each (noteFreq g) (fs.getD []) ls) (List.range o.groups) (List.replicate (aligned o chans) [])
  let lists ← cancel (((lists.headD []).length + 1) * ((lists.headD []).length + 1) + 1) 0 lists
  let bs ← setCascades lists bs
  if 0 < aligned o chans ∧ bs.length ≤ aligned o chans then .ub else .ok bs

/-! ## Setting up a gain decoder -/

/-- An instruction with `audio_num_chan` and `multiband_audio_sig_count`. -/
structure Inst where
  o : Instr
  chans : Nat
  sigs : Nat

/-- What belongs to one gain decoder. -/
structure Dec where
  /-- `drc_instrns_idx` of `sel_drc_array`, `drc_set_counter` of them -/
  sel : List Nat
  /-- `multiband_sel_drc_idx` -/
  multi : Int
  /-- `sub_band_domain_mode` is `SUBBAND_DOMAIN_MODE_STFT256` and not off -/
  stft : Bool
  /-- the filters, for the set with more than one band -/
  banks : List Bank
  /-- the weights, for the same set -/
  weights : List (List (Nat → Rat))
  /-- `buf_interp_cnt` of the sets -/
  gains : List Nat
  /-- `multiband_audio_sig_count` of `audio_band_buffer` -/
  rows : Nat
  /-- `num_ch_process`; `channel_offset` is 0 -/
  chans : Nat

/-- `impd_drc_select_coefficients`, impd_drc_init.c 345-374: the last block at location 1.  The version is 0. -/
def selectCoeffs (c : Config) : Option Coeffs := lastAt (c.coeffs.take c.coeffCount) 1

/-- `impd_drc_set_channel_group_info`, impd_drc_init.c 386-411.  What is counted is used for the filters only. -/
def groupInfo (o : Instr) (chans : Nat) : Res Instr := do
  let d ← at_ o.dmxIds 0
  let o ← (if d = 127 ∨ 1 < o.dmxCount then do
      let i ← at_ o.gainIdx 0
      let of ← each (fun ch of => if ch < of.length then Res.ok (of.set ch (if 0 ≤ i then 0 else -1)) else .ub)
        (List.range chans) o.chGroup
      Res.ok { o with chGroup := of }
    else Res.ok o)
  if 0 < o.groups ∧ o.chGroup.length < chans then .ub else .ok o

/-- The number of signals of a channel: the bands of its group, 1 without a group. -/
def signals (o : Instr) (ch : Nat) : Res Nat := do
  let g ← at_ o.chGroup ch
  if g < 0 then .ok 1 else at_ o.bandCount g.toNat

/-- The first half of `impd_drc_set_multiband`, impd_drc_init.c 431-453. -/
def countSignals (o : Instr) (chans : Nat) : Res Nat :=
  if o.effect.testBit 10 || o.effect.testBit 11 then .ok chans
  else each (fun ch n => do
    let b ← signals o ch
    .ok (n + b)) (List.range chans) 0

/-- The second half, impd_drc_init.c 455-466: whether there is more than one band. -/
def hasBands (o : Instr) (multi : Int) : Res Bool :=
  each (fun g b => do
    let n ← at_ o.bandCount g
    if 1 < n then (if multi ≠ -1 then .err errUnexpected else .ok true) else .ok b) (List.range o.groups) false

/-- The number of channels, impd_drc_init.c 529-551. -/
def channelsFor (c : Config) (dmxs : List (Int × Nat)) (audio : Nat) (dmx : Int) : Res Nat :=
  if dmx = 0 then .ok c.channels
  else if dmx = 127 then .ok audio
  else match dmxs.find? (fun d => d.1 == dmx) with
    | some d => .ok d.2
    | none => .err errFatal

/-- `impd_drc_init_selected_drc_set`, impd_drc_init.c 485-601.  `drc_frame_size_present` is 0. -/
def initSet (cv : Curve) (c : Config) (dmxs : List (Int × Nat)) (audio : Nat)
    (set : Int × Int) (s : List Inst × Dec) : Res (List Inst × Dec) := do
  let i := (s.1.take c.plus).findIdx (·.o.setId == set.1)
  if (s.1.take c.plus).length ≤ i then .err errFatal
  else if 3 ≤ s.2.sel.length then .ub
  else do
    let x ← at_ s.1 i
    let chans ← channelsFor c dmxs audio set.2
    let o ← groupInfo x.o chans
    let sigs ← countSignals o chans
    let m ← hasBands o s.2.multi
    let is := s.1.set i ⟨o, chans, sigs⟩
    let d := { s.2 with sel := s.2.sel ++ [i] }
    if m then
      match (if x.o.setId ≤ 0 then none else selectCoeffs c) with
      | none => .ub
      | some cf => do
        let bs ← initBanks cf o chans s.2.banks
        let w ← groupWeights cv cf o
        .ok (is, { d with multi := s.2.sel.length, stft := true, banks := bs, weights := w })
    else .ok (is, d)

/-- Bytes of `drc_persistent_buf`, ia_core_coder_config.h 281-287, for pointers of 8 bytes. -/
def memSize : Nat := 15 * 3 * (2 * 12 + (2 * 1024 + 1536) * 4 + 32) + 4 * 24 * (1024 + 8)

/-- Bytes of `ia_drc_interp_buf_struct`, impd_drc_gain_dec.h 42-48. -/
def interpSize : Nat := 2 * 12 + (2 * 1024 + 1536) * 4

/-- The gain buffers of a set, impd_drc_init.c 672-712: they are filled with 1.  `mem` is the part of the buffer that
has been handed out. -/
def initGains (is : List Inst) (i : Nat) (mem : Nat) : Res Nat := do
  let x ← at_ is i
  if 0 < x.o.elements then
    if memSize < mem + x.o.elements * interpSize then .ub else .ok (mem + x.o.elements * interpSize + 32)
  else .ok mem

/-- `impd_drc_init_decode_post_config`, impd_drc_init.c 644-749.  Sets are taken from last to first.  The pointers to
the rows are written to the buffer; the rows of `frame` samples are only handed out. -/
def initDec (cv : Curve) (c : Config) (dmxs : List (Int × Nat)) (audio frame : Nat)
    (sets : List (Int × Int)) (s : List Inst × Dec) (mem : Nat) : Res (List Inst × Dec × Nat) := do
  let (is, d) ← each (initSet cv c dmxs audio) sets.reverse s
  let mem ← each (initGains is) d.sel.reverse mem
  let gains ← each (fun i ns => do
    let x ← at_ is i
    .ok (ns ++ [x.o.elements])) d.sel []
  let rows ← each (fun i n => do
    let x ← at_ is i
    .ok (max n x.sigs)) d.sel.reverse 0
  if memSize < mem + rows * 8 then .ub
  else .ok (is, { d with gains := gains, rows := rows, chans := audio }, mem + rows * 8 + rows * (frame * 4))

/-! ## Handing sets to the gain decoders -/

/-- `impd_match_downmix`, ia_core_coder_decode_main.c 152-190. -/
def matchDmx (id : Int) (dec : Nat) : Bool :=
  match dec with
  | 4 => id != 0
  | 3 => id != 0 && id != 127
  | 2 => id == 127
  | 1 => id == 0 || id == 127
  | 0 => id == 0
  | _ => false

/-- `num_sets` -/
structure Counts where
  base : Nat
  any : Nat
  own : Nat

/-- The loop of ia_core_coder_decode_main.c 3408-3422.  The counts are those of earlier configurations at first: they
are only cleared when the decoder is created (ia_core_coder_create.c 581). -/
def countSets (os : List Instr) (n : Counts) : Res Counts :=
  each (fun o n => do
    let d ← at_ o.dmxIds 0
    if d = 0 ∨ o.applyDmx = 0 then Res.ok { n with base := n.base + 1 }
    else if d = 127 then Res.ok { n with any := n.any + 1 }
    else Res.ok { n with own := n.own + 1 }) os n

/-- Sets that match, ia_core_coder_decode_main.c 3377-3389 and 3474-3486; there is room for 3. -/
def matching (dec : Nat) (sets : List (Int × Int)) : Res (List (Int × Int)) :=
  each (fun s xs => if matchDmx s.2 dec then push 3 xs s else .ok xs) sets []

/-- The sets of the two gain decoders, ia_core_coder_decode_main.c 3377-3389 and 3461-3486.  The second is neither set
up nor run without sets for downmixes (2766-2783). -/
def handOut (n : Counts) (sets : List (Int × Int)) : Res (List (Int × Int) × List (Int × Int)) := do
  let a ← matching 0 sets
  let b ← (if 0 < n.any ∨ 0 < n.own then matching (if 0 < n.own then 3 else 2) sets else Res.ok [])
  .ok (a, b)

/-- A gain decoder after `impd_drc_init_decode`, impd_drc_init.c 618-624, with the filters it has.  The mode is kept
(ia_core_coder_decode_main.c 3172-3180) and off for a new decoder. -/
def newDec (banks : List Bank) : Dec := ⟨[], -1, false, banks, [], [], 0, 0⟩

/-- The number of loudspeakers of a layout, impeghd_cicp_2_geometry_rom.c 107-108. -/
def speakers : List Nat := [0, 1, 2, 3, 4, 5, 6, 8, 0, 3, 4, 7, 8, 24, 8, 12, 10, 12, 14, 12, 14]

/-- The channels of the second gain decoder, ia_core_coder_decode_main.c 3487-3497: `layout` is the layout asked for,
0 for none, `ref` the layout of the stream, `others` whether there are objects or ambisonics. -/
def outChans (input layout ref : Nat) (others : Bool) : Res Nat := do
  let a ← (if layout ≠ 0 then at_ speakers layout else Res.ok input)
  if others then at_ speakers ref else .ok a

/-- Both gain decoders are set up for the active sets, ia_core_coder_decode_main.c 3370-3403 and 3451-3513. `frame` is
1024 (3098).  `bands` says whether any instruction has more than one band (3423-3447). -/
def setUp (cv : Curve) (c : Config) (dmxs : List (Int × Nat)) (input layout ref : Nat)
    (others bands : Bool) (n : Counts) (sets : List (Int × Int)) (b0 b1 : List Bank) (is : List Inst) :
    Res (List Inst × Dec × Dec × Nat) := do
  let (a, b) ← handOut n sets
  let (is, d0, mem) ← (if sets.isEmpty then Res.ok (is, newDec b0, 0)
    else initDec cv c dmxs input 1024 a (is, newDec b0) 0)
  let d0 := { d0 with stft := d0.stft || bands }
  let chans ← outChans input layout ref others
  let (is, d1, mem) ← (if sets.isEmpty ∨ (n.any = 0 ∧ n.own = 0) then Res.ok (is, newDec b1, mem)
    else initDec cv c dmxs chans 1024 b (is, newDec b1) mem)
  .ok (is, d0, d1, mem)

/-! ## Applying gains -/

/-- Samples by row. -/
abbrev Buf := Nat → Nat → Rat

/-- What is the same for all sets of a gain decoder. -/
structure Par where
  /-- `gain_delay_samples` -/
  delay : Nat
  /-- `delay_mode` is `DELAY_MODE_LOW` -/
  low : Bool
  /-- `drc_frame_size` -/
  frame : Nat
  /-- `num_ch_process`; `channel_offset` is 0 -/
  chans : Nat
  /-- `multiband_sel_drc_idx` -/
  multi : Int
  /-- `multiband_audio_sig_count` of `audio_band_buffer` -/
  rows : Nat

/-- The filters of the set with more than one band: for bank, channel and number of bands what a signal is split into,
and the all-pass filters of a bank.  They are arbitrary. -/
structure Banks where
  split : (bank ch bands : Nat) → (Nat → Rat) → Nat → Nat → Rat
  allPass : (bank ch : Nat) → (Nat → Rat) → Nat → Rat

/-- `gain_idx_grp`, impd_drc_process.c 99-106 and 295-305. -/
def gainIdx (o : Instr) : Res (List Nat) :=
  each (fun g xs => do
    let x ← at_ xs g
    let b ← at_ o.bandCount g
    push 24 xs (x + b)) (List.range (o.groups - 1)) [0]

/-- `sig_idx_ch`, impd_drc_process.c 108-122. -/
def sigIdx (x : Inst) : Res (List Nat) :=
  each (fun ch xs => do
    let i ← at_ xs ch
    let b ← signals x.o ch
    push 16 xs (i + b)) (List.range (x.chans - 1)) [0]

/-- `lpcm_gain`, impd_drc_process.c 131-133: the gains for the samples of the frame; none may be behind the 3584 of the
buffer. -/
def frameGains (q : Par) (gains : List (Nat → Rat)) (e : Nat) : Res (Nat → Rat) := do
  let g ← at_ gains e
  let first := 1536 - q.delay + (if q.low then q.frame else 0)
  if 1536 < q.delay ∨ 3584 < first + q.frame then .ub else .ok fun n => g (first + n)

/-- Gains times a row, impd_drc_process.c 169-174. -/
def mulRow (frame r : Nat) (g : Nat → Rat) (b : Buf) : Buf := fun i n => if i = r ∧ n < frame then b i n * g n else b i n

/-- The body of the loop over groups, impd_drc_process.c 127-179, with `impd_apply_gains` 1. -/
def mulGroup (q : Par) (x : Inst) (gains : List (Nat → Rat)) (gi si : List Nat) (g : Nat) (b : Buf) : Res Buf := do
  let n ← at_ x.o.bandCount g
  each (fun k b => do
    let e ← at_ gi g
    let lg ← frameGains q gains (e + k)
    each (fun ch b => do
      let h ← at_ x.o.chGroup ch
      if h = (g : Int) then do
        let i ← at_ si ch
        if i + k < q.rows then Res.ok (mulRow q.frame (i + k) lg b) else .ub
      else .ok b) (List.range q.chans) b) (List.range n).reverse b

/-- One channel of the sum, impd_drc_process.c 199-222: the next signal and the channels. -/
def sumStep (q : Par) (o : Instr) (b : Buf) (ch : Nat) (s : Nat × Buf) : Res (Nat × Buf) := do
  let g ← at_ o.chGroup ch
  if g < 0 then .ok (s.1 + 1, s.2)
  else do
    let n ← at_ o.bandCount g.toNat
    if q.rows < s.1 + n then .ub
    else .ok (s.1 + n, fun i t => if i = ch ∧ t < q.frame then ((List.range n).map fun k => b (s.1 + k) t).sum else s.2 i t)

/-- `impd_drc_apply_gains_and_add`, impd_drc_process.c 68-226, for an instruction index that is not negative. -/
def applyGains (q : Par) (x : Inst) (gains : List (Nat → Rat)) (b : Buf) (audio : Buf) : Res (Buf × Buf) :=
  if 0 < x.o.setId then do
    let gi ← gainIdx x.o
    let si ← sigIdx x
    let b ← each (mulGroup q x gains gi si) (List.range x.o.groups).reverse b
    let s ← each (sumStep q x.o b) (List.range q.chans) (0, audio)
    .ok (b, s.2)
  else if q.rows < q.chans then .ub
  else .ok (b, fun i t => if i < q.chans ∧ t < q.frame then b i t else audio i t)

/-- Rows from `e` on are filled, impd_drc_process.c 474-505. -/
def setRows (frame e n : Nat) (v : Nat → Nat → Rat) (b : Buf) : Buf :=
  fun i t => if e ≤ i ∧ i < e + n ∧ t < frame then v (i - e) t else b i t

/-- One channel of `impd_drc_filter_banks_process`, impd_drc_process.c 435-506: the next row, the rows and the channels,
which the all-pass filters change. -/
def filterStep (q : Par) (k : Banks) (o : Instr) (multi : Bool) (ch : Nat) (s : Nat × Buf × Buf) : Res (Nat × Buf × Buf) := do
  let (n, audio, bank) ← (if multi && decide (0 ≤ o.setId) then do
      let g ← at_ o.chGroup ch
      let (n, bank) ← (if g ≠ -1 then
          if g < 0 then .ub
          else do
            let n ← at_ o.bandCount g.toNat
            Res.ok (n, g.toNat)
        else Res.ok (1, o.groups))
      if 8 ≤ bank then .ub
      else Res.ok (n, (fun i t => if i = ch ∧ t < q.frame then k.allPass bank ch (s.2.2 ch) t else s.2.2 i t : Buf), bank)
    else Res.ok (1, s.2.2, 0))
  if n = 0 ∨ 4 < n then .err errParam
  else if q.rows < s.1 + n then .ub
  else .ok (s.1 + n,
    setRows q.frame s.1 n (if n = 1 then fun _ => audio ch else k.split bank ch n (audio ch)) s.2.1, audio)

/-- One set of `impd_drc_td_process`, impd_drc_process.c 557-585; `i` is its index, `num_ch_process` is not −1. -/
def tdSet (q : Par) (k : Banks) (i : Nat) (x : Inst) (gains : List (Nat → Rat)) (s : Buf × Buf) : Res (Buf × Buf) := do
  if x.chans < q.chans then .err errChannels
  else do
    let r ← each (filterStep q k x.o (decide (q.multi = i))) (List.range q.chans) (0, s.1, s.2)
    applyGains q x gains r.2.1 r.2.2

/-- The second loop of `impd_drc_td_process`, impd_drc_process.c 555-587, for sets with their gains (`impd_drc_get_gain`,
545-552, is in `Model/DrcGain.lean`): from last to first. -/
def tdProcess (q : Par) (k : Banks) (sets : List (Inst × List (Nat → Rat))) (s : Buf × Buf) : Res (Buf × Buf) :=
  each (fun (x : (Inst × List (Nat → Rat)) × Nat) s => tdSet q k x.2 x.1.1 x.1.2 s) sets.zipIdx.reverse s

/-- The gain of a time slot, impd_drc_process.c 328-332 and 349-354: a slot has 256 samples. -/
def slotGain (q : Par) (gains : List (Nat → Rat)) (e t : Nat) : Res Rat := do
  let g ← at_ gains e
  let i := 1536 - q.delay + (if q.low then q.frame else 0) + (t * 256 + 127)
  if 1536 < q.delay ∨ 3584 ≤ i then .ub else .ok (g i)

/-- The gain of each subband of a slot, impd_drc_process.c 342-361. -/
def bandGain (q : Par) (gains : List (Nat → Rat)) (ws : List (List (Nat → Rat))) (g e n t : Nat) : Res (Nat → Rat) :=
  each (fun b acc => do
    let v ← slotGain q gains (e + b) t
    let w ← at_ ws g
    let r ← at_ w b
    .ok fun k => acc k + r k * v) (List.range n) fun _ => 0

/-- The gains `v` times the 256 subbands of slot `t` of a channel, impd_drc_process.c 333-338 and 362-373.  With
`packed` the first imaginary part, which holds the last real one, is multiplied with the gain of the last subband. -/
def mulSlot (packed : Bool) (ch t : Nat) (v : Nat → Rat) (s : Buf × Buf) : Buf × Buf :=
  (fun i j => if i = ch ∧ j / 256 = t then s.1 i j * v (j % 256) else s.1 i j,
   fun i j => if i = ch ∧ j / 256 = t then s.2 i j * v (if packed ∧ j % 256 = 0 then 255 else j % 256) else s.2 i j)

/-- One channel of `impd_drc_apply_gains_subband`, impd_drc_process.c 320-378. -/
def subbandStep (q : Par) (o : Instr) (gains : List (Nat → Rat)) (gi : List Nat) (ws : List (List (Nat → Rat))) (ch : Nat)
    (s : Buf × Buf) : Res (Buf × Buf) := do
  let g ← at_ o.chGroup ch
  if g < 0 then .ok s
  else each (fun t s => do
    let n ← at_ o.bandCount g.toNat
    let e ← at_ gi g.toNat
    if n ≤ 1 then do
      let v ← slotGain q gains e t
      Res.ok (mulSlot false ch t (fun _ => v) s)
    else do
      let v ← bandGain q gains ws g.toNat e n t
      Res.ok (mulSlot true ch t v s)) (List.range (q.frame / 256)).reverse s

/-- `impd_drc_apply_gains_subband`, impd_drc_process.c 242-384.  The mode is off or `SUBBAND_DOMAIN_MODE_STFT256`, and
`num_ch_process` is not −1. -/
def fdSet (q : Par) (stft : Bool) (ws : List (List (Nat → Rat))) (x : Inst) (gains : List (Nat → Rat)) (s : Buf × Buf) :
    Res (Buf × Buf) :=
  if !stft then .err errMode
  else if 0 < x.o.setId then do
    let gi ← gainIdx x.o
    if x.chans < q.chans then .err errChannels
    else each (subbandStep q x.o gains gi ws) (List.range q.chans) s
  else .ok s

/-- The second loop of `impd_drc_fd_process`, impd_drc_process.c 636-646. -/
def fdProcess (q : Par) (stft : Bool) (ws : List (List (Nat → Rat))) (sets : List (Inst × List (Nat → Rat))) (s : Buf × Buf) :
    Res (Buf × Buf) :=
  each (fun (x : Inst × List (Nat → Rat)) s => fdSet q stft ws x.1 x.2 s) sets.reverse s

end Verif.DrcApply
