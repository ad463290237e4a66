import Mathlib.Algebra.Order.Ring.Rat
import Verif.Model.Huff

/-! # DRC gains: the gain payload and the gain buffers

`impd_drc_dynamic_payload.c`, `impd_drc_gain_dec.c`, the gain part of `impd_drc_process.c` and
`impeghd_uni_drc_dec_process` of `ia_core_coder_decode_main.c`.

The decoder runs the DRC tool with frames of 1024 samples (`drc_frame_size`) and in regular delay mode
(`impeghd_uni_drc_dec_init`, ia_core_coder_decode_main.c 3098-3101); the configuration parser insists on
linear interpolation and on the default smallest time difference (impd_drc_static_payload.c 730-736), so
slopes are 0 and only the default time code table is used.  Gains are kept in 1/10000 dB: all coded values
are multiples of 1/8 dB, which `FLOAT32` holds exactly.  `lpcm_gains` holds rational numbers; the
conversion to linear gain (`pow`) is an arbitrary function. -/

namespace Verif.DrcGain

open Prog Huff

/-- `ia_drc_node_struct` without the slope. -/
structure Node where
  gain : Int
  time : Int
  deriving DecidableEq, Repr

/-- `ia_drc_spline_nodes_struct`: `no_of_nodes` and `str_node[NODE_COUNT_MAX]`. -/
structure Spline where
  n : Int
  nodes : List Node
  deriving DecidableEq, Repr

/-- What the gain parser uses of `ia_drc_gain_set_params_struct`. -/
structure GainSet where
  profile : Nat
  full : Bool
  align : Bool
  bands : Nat
  deriving DecidableEq, Repr

/-- What the gain parser uses of `ia_drc_bits_dec_struct`: `delta_tmin_def` and the time code table. -/
structure Par where
  dt : Nat
  table : List Code

/-- `NODE_COUNT_MAX` -/
def nodeMax : Nat := 128

/-- `impd_drc_get_initial_gain`, impd_drc_dynamic_payload.c 65-101; 1/8 dB is 1250. -/
def initialGain (profile : Nat) : Prog Int :=
  if profile = 3 then pure 0
  else if profile = 2 then do
    let s ← flag
    if s then do
      let m ← bits 8
      pure (-((m : Int) + 1) * 1250)
    else pure 0
  else if profile = 1 then do
    let s ← flag
    if s then do
      let m ← bits 10
      pure (-((m : Int) + 1) * 1250)
    else pure 0
  else if profile = 0 then do
    let s ← flag
    let m ← bits 8
    pure (if s then -((m : Int) * 1250) else (m : Int) * 1250)
  else fail .drcUnexpected

/-- `impd_drc_create_delta_gain_code_tbl`, impd_drc_extr_delta_coded_info.c 78-92. -/
def gainTable (profile : Nat) : List Code := if profile = 2 then gainTable2 else gainTable01

/-- Loop of `impd_drc_decode_gains`, impd_drc_dynamic_payload.c 197-207. -/
def gainStep (profile k : Nat) (nodes : List Node) : Prog (List Node) := do
  let d ← updateValue (gainTable profile) false
  let p ← getAt nodes (k - 1)
  let c ← getAt nodes k
  setAt nodes k { c with gain := p.gain + d }

/-- `impd_drc_decode_gains`, impd_drc_dynamic_payload.c 181-209. -/
def decodeGains (profile n : Nat) (nodes : List Node) : Prog (List Node) := do
  let g ← initialGain profile
  let c ← getAt nodes 0
  let nodes ← setAt nodes 0 { c with gain := g }
  foldN (gainStep profile) (n - 1) 1 nodes

/-- `while (end_marker_flag != 1)`, impd_drc_dynamic_payload.c 235-239.  The loop ends when the payload
does (the read then jumps), so the number of bits left bounds the rounds. -/
def countNodes : (fuel node : Nat) → Prog Nat
  | 0, node => do
    let _ ← bits 1
    pure (node + 1)
  | fuel + 1, node => do
    let e ← flag
    if e then pure (node + 1) else countNodes fuel (node + 1)

/-- `impd_drc_decode_slopes` for linear interpolation, impd_drc_dynamic_payload.c 224-280: the number of
nodes. -/
def nodeCount : Prog Nat := do
  let a ← avail
  let n ← countNodes a.toNat 0
  if n > nodeMax then fail .drcUnexpected
  else if n > 32 then fail .drcUnexpectedFatal
  else pure n

/-- State of the loops of `impd_drc_decode_times`: `time_off`, `node_res`, the nodes. -/
structure TimeState where
  off : Int
  res : Bool
  nodes : List Node

/-- `pstr_node[k].time = t` -/
def setTime (nodes : List Node) (k : Nat) (t : Int) : Prog (List Node) := do
  let c ← getAt nodes k
  setAt nodes k { c with time := t }

/-- Loop body when the frame end is a node, impd_drc_dynamic_payload.c 325-349. -/
def endStep (p : Par) (off0 : Int) (k : Nat) (s : TimeState) : Prog TimeState := do
  let d ← updateValue p.table true
  let t := s.off + d * p.dt
  if t ≤ 1024 + off0 then do
    let nodes ← setTime s.nodes k t
    pure ⟨t, s.res, nodes⟩
  else do
    let nodes ← setTime s.nodes (k + 1) t
    if s.res then pure ⟨t, true, nodes⟩
    else do
      let nodes ← setTime nodes k (1024 + off0)
      pure ⟨t, true, nodes⟩

/-- Loop body otherwise, impd_drc_dynamic_payload.c 357-371. -/
def freeStep (p : Par) (k : Nat) (s : TimeState) : Prog TimeState := do
  let d ← updateValue p.table true
  let t := s.off + d * p.dt
  if t ≥ 1024 then fail .drcUnexpected
  else do
    let nodes ← setTime s.nodes k t
    pure ⟨t, s.res, nodes⟩

/-- `impd_drc_decode_times`, impd_drc_dynamic_payload.c 299-374. -/
def decodeTimes (p : Par) (full : Bool) (n : Nat) (off0 : Int) (nodes : List Node) : Prog (List Node) := do
  let frameEnd ← (if full then pure true else flag)
  if frameEnd then do
    let s ← foldN (endStep p off0) (n - 1) 0 ⟨off0, false, nodes⟩
    if s.res then pure s.nodes
    else setTime s.nodes (n - 1) (1024 + off0)
  else do
    let s ← foldN (freeStep p) n 0 ⟨off0, false, nodes⟩
    pure s.nodes

/-- `time_off` of `impd_drc_read_spline_nodes`, impd_drc_dynamic_payload.c 504-520. -/
def timeOffset (p : Par) (align : Bool) : Int :=
  if align then -(p.dt : Int) + ((p.dt : Int) - 1).tdiv 2 else -1

/-- The part of `impd_drc_read_spline_nodes` for coding mode 0, impd_drc_dynamic_payload.c 582-592. -/
def readSimple (p : Par) (g : GainSet) (s : Spline) : Prog Spline := do
  let v ← initialGain g.profile
  let nodes ← setAt s.nodes 0 ⟨v, 1024 + timeOffset p g.align⟩
  pure ⟨1, nodes⟩

/-- The part of `impd_drc_read_spline_nodes` for coding mode 1, impd_drc_dynamic_payload.c 544-562. -/
def readCoded (p : Par) (g : GainSet) (s : Spline) : Prog Spline := do
  let n ← nodeCount
  let nodes ← decodeTimes p g.full n (timeOffset p g.align) s.nodes
  let nodes ← decodeGains g.profile n nodes
  pure ⟨n, nodes⟩

/-- `impd_drc_read_spline_nodes`, impd_drc_dynamic_payload.c 495-620; the buffer pointer is never null, so
595-617 is not reached. -/
def readSpline (p : Par) (g : GainSet) (s : Spline) : Prog Spline := do
  let a ← avail
  if a < 1 then
    if s.n < 1 ∨ s.n > nodeMax then fail .drcUnexpected
    else do
      let last ← getAt s.nodes (s.n - 1).toNat
      let nodes ← setAt s.nodes 0 ⟨last.gain, 1024 + timeOffset p g.align⟩
      readSimple p g ⟨1, nodes⟩
  else do
    let mode ← flag
    if mode then readCoded p g s else readSimple p g s

/-- `for (node = 0; node < node_reservoir_nodes; node++)`, impd_drc_dynamic_payload.c 677-687: the times
of the nodes from `k` on are replaced; `true` if a time is refused. -/
def putReservoir : List Int → (k : Nat) → List Node → Bool × List Node
  | [], _, nodes => (false, nodes)
  | t :: ts, k, nodes =>
    if t - 2048 ≥ 1024 then (true, nodes)
    else putReservoir ts (k + 1) (nodes.modify k fun c => { c with time := t - 2048 })

/-- `for (cur_node = 0; cur_node < cur_nodes; …)`, impd_drc_dynamic_payload.c 688-692. -/
def putCurrent : List Int → (k : Nat) → List Node → List Node
  | [], _, nodes => nodes
  | t :: ts, k, nodes => putCurrent ts (k + 1) (nodes.modify k fun c => { c with time := t })

/-- The node reservoir, impd_drc_dynamic_payload.c 658-692: nodes after the end of the frame belong to the
previous frame and come first.  `no_of_nodes` is at most 32 here.  The result says whether a time was
refused; the nodes are left as they are then. -/
def reorder (s : Spline) : Bool × Spline :=
  let times := (s.nodes.take s.n.toNat).map (·.time)
  let late := times.filter (fun t => ¬ t < 1024)
  let r := putReservoir late 0 s.nodes
  if r.1 then (true, ⟨s.n, r.2⟩)
  else (false, ⟨s.n, putCurrent (times.filter (fun t => t < 1024)) late.length r.2⟩)

/-- State of the gain parser: whether a time was refused (the parser returns at once then) and
`drc_gain_sequence[].str_spline_nodes[]`. -/
structure Parsed where
  bad : Bool
  seqs : List (List Spline)

/-- Loop of `impd_drc_read_drc_gain_sequence`, impd_drc_dynamic_payload.c 650-693. -/
def bandStep (p : Par) (g : GainSet) (band : Nat) (r : Bool × List Spline) : Prog (Bool × List Spline) :=
  if r.1 then pure r
  else do
    let s ← getAt r.2 band
    let s' ← readSpline p g s
    let bands ← setAt r.2 band (reorder s').2
    pure ((reorder s').1, bands)

/-- Loop of `impd_drc_read_uni_drc_gain`, impd_drc_dynamic_payload.c 442-467. -/
def setStep (p : Par) (sets : List GainSet) (k : Nat) (r : Parsed) : Prog Parsed :=
  if r.bad then pure r
  else do
    let g ← getAt sets k
    let q ← getAt r.seqs k
    if g.profile ≠ 3 then do
      let b ← foldN (bandStep p g) g.bands 0 (false, q)
      let seqs ← setAt r.seqs k b.2
      pure ⟨b.1, seqs⟩
    else do
      let s ← getAt q 0
      let nodes ← setAt s.nodes 0 ⟨0, 1023⟩
      let q ← setAt q 0 ⟨1, nodes⟩
      let seqs ← setAt r.seqs k q
      pure ⟨false, seqs⟩

/-- `impd_drc_read_uni_drc_gain_ext`, impd_drc_dynamic_payload.c 387-416 (`EXT_COUNT_MAX` is 2). -/
def gainExt : Prog Unit := do
  let t ← bits 4
  if t ≠ 0 then do
    let w ← bits 3
    let n ← bits (w + 4)
    drop (n + 1)
    let t ← bits 4
    if t ≠ 0 then fail .drcUnexpected else pure ()
  else pure ()

/-- `impd_drc_read_uni_drc_gain`, impd_drc_dynamic_payload.c 431-480.  `sets` is `gain_set_params` of the
first coefficients with `gain_set_count` elements. -/
def readGain (p : Par) (sets : List GainSet) (seqs : List (List Spline)) : Prog Parsed := do
  let r ← foldN (setStep p sets) sets.length 0 ⟨false, seqs⟩
  if r.bad then pure r
  else do
    let e ← flag
    if e then do
      let _ ← gainExt
      pure r
    else pure r

/-! ## Gain buffers -/

/-- `ia_drc_interp_buf_struct`: `str_node`, `prev_node` and `lpcm_gains` (3584 entries; the function's
other values are never used). -/
structure Buf where
  str : Node
  prev : Node
  gains : Int → Rat

/-- Size of `lpcm_gains`. -/
def bufSize : Int := 3584

/-- The linear branch of `impd_drc_interpolate_drc_gain`, impd_drc_gain_dec.c 158-297, writing from index
`base` on; `none` is the error return. -/
def interpolate (gains : Int → Rat) (base dur : Int) (a b : Rat) : Res (Option (Int → Rat)) :=
  if dur ≤ 0 then .ok none
  else if base < 0 ∨ base + dur ≥ bufSize then .ub
  else .ok (some fun i =>
    if base < i ∧ i < base + dur then (b - a) / dur * (i - base : Int) + a
    else if i = base + dur then b
    else if i = base then a
    else gains i)

/-- `impd_drc_advance_buf`, impd_drc_gain_dec.c 310-324. -/
def advance (b : Buf) : Buf :=
  { b with
    prev := { b.str with time := b.str.time - 1024 }
    gains := fun i => if i < 2560 then b.gains (i + 1024) else b.gains i }

/-- Loop of `impd_drc_concatenate_segments`, impd_drc_gain_dec.c 353-368; `prev` is the node before. -/
def segments (lin : Int → Rat) : List Node → (prev : Node) → (Int → Rat) → Res (Bool × Node × (Int → Rat))
  | [], prev, gains => .ok (true, prev, gains)
  | c :: cs, prev, gains => do
    let r ← interpolate gains (2560 + prev.time) (c.time - prev.time) (lin prev.gain) (lin c.gain)
    match r with
    | none => .ok (false, prev, gains)
    | some gains => segments lin cs c gains

/-- `impd_drc_concatenate_segments`, impd_drc_gain_dec.c 340-374; `false` is the error return, which leaves
`str_node` as it is.  Without nodes the gain of `str_node` becomes 0. -/
def concat (lin : Int → Rat) (s : Spline) (b : Buf) : Res (Bool × Buf) :=
  if s.n > s.nodes.length then .ub
  else do
    let r ← segments lin (s.nodes.take s.n.toNat) b.prev b.gains
    if r.1 then .ok (true, { b with str := if s.n ≤ 0 then ⟨0, r.2.1.time⟩ else r.2.1, gains := r.2.2 })
    else .ok (false, { b with gains := r.2.2 })

/-- One gain element of a DRC set: the gain set and the band it takes its nodes from, and the conversion
of its gains (`impd_drc_conv_gain_db_to_linear_domain` with the modifiers of the group and the band). -/
structure Elem where
  set : Nat
  band : Nat
  lin : Int → Rat

/-- `drc_gain_sequence[gainSet].str_spline_nodes[band]` -/
def splineAt (seqs : List (List Spline)) (e : Elem) : Res Spline :=
  match seqs[e.set]? with
  | none => .ub
  | some q =>
    match q[e.band]? with
    | none => .ub
    | some s => .ok s

/-- The loops over groups and bands of `impd_drc_get_gain`, impd_drc_gain_dec.c 453-479, for gain buffers
that belong to the gain elements one by one. -/
def elemLoop (seqs : List (List Spline)) : List (Elem × Buf) → Res (Bool × List (Elem × Buf))
  | [] => .ok (true, [])
  | (e, b) :: es => do
    let s ← splineAt seqs e
    let r ← concat e.lin s b
    if r.1 then do
      let t ← elemLoop seqs es
      .ok (t.1, (e, r.2) :: t.2)
    else .ok (false, (e, r.2) :: es)

/-- `impd_drc_get_gain`, impd_drc_gain_dec.c 394-482, for one selected DRC set. -/
def getGain (seqs : List (List Spline)) (es : List (Elem × Buf)) : Res (Bool × List (Elem × Buf)) :=
  elemLoop seqs (es.map fun x => (x.1, advance x.2))

/-- The loop over the selected DRC sets of `impd_drc_td_process`, impd_drc_process.c 542-551 and of
`impd_drc_fd_process` 623-632; the sets are listed in the order of processing. -/
def setLoop (seqs : List (List Spline)) : List (List (Elem × Buf)) → Res (Bool × List (List (Elem × Buf)))
  | [] => .ok (true, [])
  | s :: ss => do
    let r ← getGain seqs s
    if r.1 then do
      let t ← setLoop seqs ss
      .ok (t.1, r.2 :: t.2)
    else .ok (false, r.2 :: ss)

/-- State of a DRC decoder instance: `apply_drc`, the nodes and the gain buffers. -/
structure St where
  apply : Bool
  seqs : List (List Spline)
  sets : List (List (Elem × Buf))

/-- Outcome of a frame. -/
inductive Out where
  | fine
  | badPayload
  | badProcess
  deriving DecidableEq, Repr

/-- `impeghd_uni_drc_dec_process`, ia_core_coder_decode_main.c 1568-1646, up to the application of the
gains.  `payload` are the bits of the gain payload of this frame, none if its length is 0.  A payload that
is refused other than by the node reservoir ends with `err` or `jump`: what it leaves behind is not
modelled. -/
def frame (p : Par) (sets : List GainSet) (payload : List Bool) (st : St) : Res (Out × St) := do
  let r ← (if payload = [] then .ok (Parsed.mk false st.seqs, [])
    else run (readGain p sets st.seqs) payload)
  if r.1.bad then .ok (.badPayload, { st with seqs := r.1.seqs })
  else do
    let apply := st.apply || !payload.isEmpty
    if apply then do
      let t ← setLoop r.1.seqs st.sets
      .ok (if t.1 then .fine else .badProcess, ⟨apply, r.1.seqs, t.2⟩)
    else .ok (.fine, ⟨apply, r.1.seqs, st.sets⟩)

/-- Sample `i` of the frame after the single-band gain has been applied (`impd_drc_apply_gains_and_add`,
impd_drc_process.c 131-133 and 169-174). -/
def applyGain (b : Buf) (delay : Int) (audio : Int → Rat) (i : Int) : Rat :=
  audio i * b.gains (1536 - delay + i)

/-- Gain buffers are set up by impd_drc_init.c 686-710. -/
def newBuf : Buf := ⟨⟨0, 0⟩, ⟨0, -1⟩, fun _ => 1⟩

/-! ## Conversion to linear gain -/

/-- The interpolation parameters (`ia_drc_interp_params_struct`) and modifiers of one band that the
conversion uses. -/
structure Mod where
  modify : Bool
  boost : Rat
  compress : Rat
  scaling : Bool
  ampl : Rat
  attn : Rat
  ducking : Bool
  duckScaling : Rat
  offset : Bool
  offsetDb : Rat
  clipping : Bool
  peakTarget : Rat
  loudNorm : Rat

/-- `impd_drc_conv_gain_db_to_linear_domain`, impd_drc_gain_dec.c 70-137, over exact rationals; `pow2` is
`pow(2.0, ·)`.  `ducking` and `clipping` stand for both conditions of lines 103-104 and 122-123. -/
def toLinear (pow2 : Rat → Rat) (m : Mod) (db : Rat) : Rat :=
  let r : Rat := 1
  let r := if m.modify then (if db ≥ 0 then r * m.boost else r * m.compress) else r
  let r := if m.scaling then (if db ≥ 0 then r * m.ampl else r * m.attn) else r
  let r := if m.ducking then r * m.duckScaling else r
  let out := pow2 (r * (db / 6))
  let out := if m.offset then out * pow2 (m.offsetDb / 6) else out
  if m.clipping then
    let out := out * pow2 (max 0 (-m.peakTarget - m.loudNorm) / 6)
    if out ≥ 1 then 1 else out
  else out

end Verif.DrcGain
