import Verif.Model.HoaSide

/-!
# Synthesis of the coefficients of higher order ambisonics

What the signals of the transported channels become: ambience, vectors, directions and predictions.  Single precision is replaced by exact numbers of
a field.  Signals are functions of the channel and the sample, coefficients functions of their number (from 0 on) and the sample; samples are those of
a frame.  There are at most 16 channels.
-/

namespace Verif.Hoa

variable {α : Type} [Field α]

/-- The windows, the matrix of the fine grid (direction, coefficient), that of the coarse grid (coefficient, direction) and that of the low orders:
impeghd_hoa_spatial_decoder_struct.h 38-41, 53, 70-73, 94. -/
structure Setup (α : Type) where
  inVec : Nat → α
  outVec : Nat → α
  inDir : Nat → α
  outDir : Nat → α
  grid : Nat → Nat → α
  mode : Nat → Nat → α
  low : Nat → Nat → α

/-- What is kept from frame to frame.  Entries of directions are pairs of the direction (from 1 on, 0 for none) and the channel (from 1 on). -/
structure Syn (α : Type) where
  /-- active_and_grid_dir_indices, impeghd_hoa_frame_params.h 40 -/
  active : Nat → Nat × Nat
  /-- last_active_dir_and_grid_dir_indices and num_prev_dir_predom_sounds, impeghd_hoa_spatial_decoder_struct.h 65, 63 -/
  last : Nat → Nat × Nat
  numLast : Nat
  /-- prediction_type_vec, prediction_indices_mat, quant_pred_fact_mat, impeghd_hoa_frame_params.h 46, 59, 60 -/
  preds : Preds
  /-- the same of the frame before; the factors are kept as they are coded, as the number of their bits does not change -/
  lastPreds : Preds
  /-- the channels of vectors[], impeghd_hoa_frame_params.h 42 -/
  vecIdx : Nat → Nat
  /-- the first num_prev_vec of map_prev_vec with their channels, impeghd_hoa_spatial_decoder_struct.h 47-48 -/
  prevVecs : List (Nat × (Nat → α))
  /-- prev_ps_sig_indices_set, impeghd_hoa_spatial_decoder_struct.h 46 -/
  prevSet : Nat → Nat
  /-- amb_hoa_assign, impeghd_hoa_frame_params.h 57 -/
  assigned : Nat → Nat

/-- The state after `impeghd_hoa_spatial_init`, impeghd_hoa_dec_init.c 87-115, 134-155, 178-186, in cleared memory. -/
def Syn.zero : Syn α :=
  ⟨fun _ => (0, 0), fun _ => (0, 0), 0, ⟨fun _ => 0, fun _ _ => 0, fun _ _ => 0⟩, ⟨fun _ => 0, fun _ _ => 0, fun _ _ => 0⟩, fun _ => 0, [], fun _ => 4294967295, fun _ => 0⟩

/-! ## Ambience -/

/-- The signal of a coefficient: impeghd_hoa_amb_syn.c 98-109. -/
def ambIn (from_ : Nat → Option Nat) (sig : Nat → Nat → α) (k n : Nat) : α := match from_ k with | none => 0 | some ch => sig ch n

/-- `impeghd_hoa_ambience_synthesis_process`, impeghd_hoa_amb_syn.c 76-147, for the channels that coefficients are taken from. -/
def ambField (u : Setup α) (c : Config) (from_ : Nat → Option Nat) (sig : Nat → Nat → α) : Nat → Nat → α := fun k n =>
  if k < c.minCoeffs then ((List.range c.minCoeffs).map (fun j => u.low k j * ambIn from_ sig j n)).sum else ambIn from_ sig k n

/-- `impeghd_hoa_ch_reassignment_process`, impeghd_hoa_ch_reassignment.c 71-106: additional channels without a vector or a direction are cleared. -/
def cleared (c : Config) (s : Frame) (sig : Nat → Nat → α) : Nat → Nat → α := fun ch n =>
  if ch < c.extra ∧ s.ctype ch ≠ 0 ∧ s.ctype ch ≠ 1 then 0 else sig ch n

/-! ## Directions -/

/-- The list of directions of the frame; entries behind it stay: impeghd_hoa_spatial_decoder.c 600-607, 611. -/
def storeDirs (c : Config) (s : Frame) (old : Nat → Nat × Nat) : Nat → Nat × Nat := fun i => (directions c s).getD i (old i)

/-- The first of `n` entries for a channel, or `n`: impeghd_hoa_dir_based_pre_dom_sound_syn.c 180-184 and 237-242. -/
def findCh (l : Nat → Nat × Nat) (n ch : Nat) : Nat := ((List.range n).find? (fun i => decide ((l i).2 = ch))).getD n

/-- The window of a direction that is or was in channel `ch`, from the entries of the other frame: impeghd_hoa_dir_based_pre_dom_sound_syn.c 185-201
and 234, 243-259.  The branch for 49 entries is left out: there are at most 16. -/
def dirWin (l : Nat → Nat × Nat) (n : Nat) (win : Nat → α) (ch : Nat) : Nat → α := if (l (findCh l n ch)).1 ≠ 0 then win else fun _ => 1

/-- The part of one direction: impeghd_hoa_dir_based_pre_dom_sound_syn.c 202-222 and 261-279. -/
def dirTerm (u : Setup α) (sig : Nat → Nat → α) (w : Nat → α) (d : Nat × Nat) (k n : Nat) : α :=
  if d.1 = 0 then 0 else sig (d.2 - 1) n * u.grid (d.1 - 1) k * w n

/-- `impeghd_hoa_compute_hoa_repr_of_dir_sigs`, impeghd_hoa_dir_based_pre_dom_sound_syn.c 145-282. -/
def dirField (u : Setup α) (sig : Nat → Nat → α) (cur : Nat → Nat × Nat) (num : Nat) (last : Nat → Nat × Nat) (numLast : Nat) : Nat → Nat → α := fun k n =>
  ((List.range numLast).map (fun i => dirTerm u sig (dirWin cur num u.outDir (last i).2) (last i) k n)).sum +
    ((List.range num).map (fun i => dirTerm u sig (dirWin last numLast u.inDir (cur i).2) (cur i) k n)).sum

/-- The directions of a frame with what is kept of the frame before. -/
def dirPart (u : Setup α) (c : Config) (s : Frame) (y : Syn α) (x : Nat → Nat → α) : Nat → Nat → α :=
  dirField u x (storeDirs c s y.active) (directions c s).length y.last y.numLast

/-! ## Vectors -/

/-- Whether one of the 16 entries of a list is a channel. -/
def listed (l : Nat → Nat) (ch : Nat) : Bool := (List.range 16).any (fun i => decide (l i = ch))

/-- The window of a vector of the frame before: impeghd_hoa_vector_based_predom_sound_syn.c 104-124, 129. -/
def oldWin (u : Setup α) (c : Config) (set vecIdx : Nat → Nat) (ch : Nat) : Nat → α := fun n =>
  if listed set ch then (if listed vecIdx ch then (if n < c.interpTime then u.outVec n else 0) else u.outDir n) else 0

/-- The window of a vector of this frame: impeghd_hoa_vector_based_predom_sound_syn.c 141, 145-154. -/
def newWin (u : Setup α) (prevSet : Nat → Nat) (ch : Nat) : Nat → α := fun n => if listed prevSet ch then u.inVec n else 1

/-- The part of one vector: impeghd_hoa_vector_based_predom_sound_syn.c 125-136 and 156-168. -/
def vecTerm (sig : Nat → Nat → α) (w : Nat → α) (v : Nat × (Nat → α)) (e n : Nat) : α := v.2 e * w n * sig (v.1 - 1) n

/-- All vectors: impeghd_hoa_vector_based_predom_sound_syn.c 96-169. -/
def vecField (u : Setup α) (c : Config) (set vecIdx prevSet : Nat → Nat) (sig : Nat → Nat → α) (old new : List (Nat × (Nat → α))) : Nat → Nat → α := fun k n =>
  if k < c.start then 0
  else (old.map (fun v => vecTerm sig (oldWin u c set vecIdx v.1) v (k - c.start) n)).sum + (new.map (fun v => vecTerm sig (newWin u prevSet v.1) v (k - c.start) n)).sum

/-- Coefficients (from 1 on) multiplied by a window: impeghd_hoa_vector_based_predom_sound_syn.c 182-205, impeghd_hoa_dir_based_pre_dom_sound_syn.c 455-488. -/
def fade (win : Nat → α) (l : List Nat) (x : Nat → Nat → α) : Nat → Nat → α :=
  l.foldl (fun x i => fun k n => if k + 1 = i then x k n * win n else x k n) x

/-- The channels of vectors; entries behind the vectors of the frame stay: impeghd_hoa_spatial_decoder.c 565. -/
def storeVecs (vs : List (Nat × (Nat → α))) (old : Nat → Nat) : Nat → Nat := fun i => (vs.map Prod.fst).getD i (old i)

/-- `impeghd_hoa_vector_based_predom_sound_syn_process`, impeghd_hoa_vector_based_predom_sound_syn.c 76-224, without what is kept. -/
def vecPart (u : Setup α) (c : Config) (s : Frame) (vs : List (Nat × (Nat → α))) (y : Syn α) (x : Nat → Nat → α) : Nat → Nat → α :=
  let f := vecField u c (soundSet ((directions c s).map Prod.snd) (vs.map Prod.fst)) (storeVecs vs y.vecIdx) y.prevSet x y.prevVecs vs
  if c.vecKind = 1 then fade u.inDir (sortSet (inState c s 2)) (fade u.outDir (sortSet (inState c s 1)) f) else f

/-- The vectors kept: impeghd_hoa_vector_based_predom_sound_syn.c 172-178 and 207-220. -/
def keepVecs (c : Config) (en : List Nat) (vs : List (Nat × (Nat → α))) : List (Nat × (Nat → α)) :=
  if c.vecKind = 1 then vs.map (fun v => (v.1, fun e => if e + c.start + 1 ∈ en then 0 else v.2 e)) else vs

/-! ## Predictions -/

/-- The factor of a coded gain: impeghd_hoa_dir_based_pre_dom_sound_syn.c 389, 393-401. -/
def factor (c : Config) (q : Nat) : α := 2 ^ (1 - (c.gainBits : Int)) * ((q : α) + 1 / 2)

/-- The signals in use, up to the first that is missing: impeghd_hoa_dir_based_pre_dom_sound_syn.c 563-575. -/
def used (c : Config) (p : Preds) (d : Nat) : Nat := ((List.range c.predSigs).find? (fun r => decide (p.ids r d = 0))).getD c.predSigs

/-- The predicted signal of a direction of the coarse grid: impeghd_hoa_dir_based_pre_dom_sound_syn.c 577-591 without the window. -/
def predSignal (c : Config) (p : Preds) (sig : Nat → Nat → α) (d n : Nat) : α :=
  ((List.range (used c p d)).map (fun r => factor c (p.facts r d) * sig (p.ids r d - 1) n)).sum

/-- `impeghd_hoa_compute_hoa_representation_of_spat_pred`, impeghd_hoa_dir_based_pre_dom_sound_syn.c 523-610. -/
def predField (u : Setup α) (c : Config) (p : Preds) (win : Nat → α) (sig : Nat → Nat → α) : Nat → Nat → α := fun k n =>
  ((List.range c.coeffs).map (fun d => if p.kind d ≠ 0 then predSignal c p sig d n * win n * u.mode k d else 0)).sum

/-- Whether there are predictions: impeghd_hoa_dir_based_pre_dom_sound_syn.c 549-554. -/
def predicted (c : Config) (p : Preds) : Bool := (List.range c.coeffs).any (fun d => decide (p.kind d ≠ 0))

/-- `impeghd_hoa_compute_smoothed_hoa_representation_of_spat_pred_sigs`, impeghd_hoa_dir_based_pre_dom_sound_syn.c 361-505, without what is kept: `on` are
the coefficients that the ambience sends without a change, `en` and `dis` those that it starts and ends to send. -/
def predPart (u : Setup α) (c : Config) (p q : Preds) (on en dis : List Nat) (sig : Nat → Nat → α) : Nat → Nat → α :=
  let x := fun k n => if k + 1 ∈ on then 0 else if c.extra = 0 then 0 else predField u c p u.inDir sig k n + predField u c q u.outDir sig k n
  let y := if c.extra ≠ 0 ∧ predicted c p = true then fade u.outDir en x else x
  if c.extra ≠ 0 ∧ predicted c q = true then fade u.inDir dis y else y

/-! ## Frames -/

/-- What is kept for the next frame: impeghd_hoa_dir_based_pre_dom_sound_syn.c 281-287 and 489-501, impeghd_hoa_vector_based_predom_sound_syn.c 172-223,
and what stays in the parameters of the frame. -/
def keepSyn (c : Config) (s : Frame) (vs : List (Nat × (Nat → α))) (y : Syn α) : Syn α :=
  let dirs := directions c s
  let active := storeDirs c s y.active
  let p := sidePreds c s y.preds
  ⟨active, fun i => if i < dirs.length then active i else y.last i, dirs.length, p, p, storeVecs vs y.vecIdx, keepVecs c (sortSet (inState c s 1)) vs,
    soundSet (dirs.map Prod.snd) (vs.map Prod.fst), assign c s y.assigned⟩

/-- Whether a coefficient outside of the buffers, which are for 49 coefficients, is multiplied by a window.  For vectors the coefficients are in the
scratch memory (impeghd_hoa_decoder.c 183-184), where the product may also go to other data; it counts as undefined as well. -/
def outside (c : Config) (s : Frame) (y : Syn α) : Bool :=
  let en := (sortSet (inState c s 1)).any (fun i => decide (49 < i))
  let dis := (sortSet (inState c s 2)).any (fun i => decide (49 < i))
  decide (c.vecKind = 1) && (en || dis) || predicted c (sidePreds c s y.preds) && en || predicted c y.lastPreds && dis

/-- The sum of all parts: impeghd_hoa_dir_based_pre_dom_sound_syn.c 330-346, from signals with their gains and the channels that coefficients are taken
from.  The ambience is computed before channels are cleared, impeghd_hoa_spatial_decoder.c 705-715. -/
def outField (u : Setup α) (c : Config) (s : Frame) (vs : List (Nat × (Nat → α))) (y : Syn α) (f : Nat → Option Nat) (sig : Nat → Nat → α) : Nat → Nat → α :=
  let x := cleared c s sig
  let pred := predPart u c (sidePreds c s y.preds) y.lastPreds (sortSet (inState c s 0)) (sortSet (inState c s 1)) (sortSet (inState c s 2)) x
  fun k n => vecPart u c s vs y x k n + (ambField u c f sig k n + pred k n + dirPart u c s y x k n)

/-- The coefficients of a frame and what is kept: `impeghd_hoa_spatial_process`, impeghd_hoa_spatial_decoder.c 690-719, after the gains, with
`impeghd_hoa_pre_dom_sound_syn_process`, impeghd_hoa_pre_dom_sound_syn.c 73-106, and `impeghd_hoa_dir_based_pre_dom_sound_syn_process`,
impeghd_hoa_dir_based_pre_dom_sound_syn.c 303-347.  `vs` are the vectors of the frame with their channels. -/
def synth (u : Setup α) (c : Config) (s : Frame) (vs : List (Nat × (Nat → α))) (y : Syn α) (sig : Nat → Nat → α) : Res ((Nat → Nat → α) × Syn α) := do
  let f ← reassign (assign c s y.assigned) c.transport 0 (fun _ => none)
  if outside c s y = true then .ub else .ok (outField u c s vs y f sig, keepSyn c s vs y)

/-- What is kept of the stream of frames: the frame, the nominators and the synthesis. -/
structure Stream (α : Type) where
  frame : Frame
  noms : Noms α
  syn : Syn α

/-- The state before the first frame: impeghd_hoa_spatial_decoder.c 197-200 and cleared memory. -/
def Stream.zero : Stream α := ⟨Frame.zero, ⟨fun _ => none, fun _ _ => 0⟩, Syn.zero⟩

/-- One frame: part of `impeghd_hoa_dec_decode`, impeghd_hoa_decoder.c 170-212, with `impeghd_hoa_spatial_process`, impeghd_hoa_spatial_decoder.c
674-719, for signals that have their gains; any error of it becomes IA_MPEGH_HOA_EXE_FATAL_SPATIAL_PROCESS_FAILED (190-194, 203-207).  The bits of the frame are those up to its end. -/
def process (root floor : α → α) (b : Books α) (u : Setup α) (c : Config) (st : Stream α) (bits : List Bool) (sig : Nat → Nat → α) :
    Res ((Nat → Nat → α) × Stream α) := do
  let (s, _) ← (frame c st.frame).run bits
  if assignOk c s = false then .err (.other 0xFFFF9A00)
  else do
    let (vs, o) ← vectorsOf root floor c b st.noms s
    let (out, y) ← synth u c s (vs.map (fun v => (v.1, fun e => v.2.getD e 0))) st.syn sig
    pure (out, ⟨s, o, y⟩)

/-- A sequence of frames; the coefficients are those of the last. -/
def play (root floor : α → α) (b : Books α) (u : Setup α) (c : Config) : Stream α → List (List Bool × (Nat → Nat → α)) → Res ((Nat → Nat → α) × Stream α)
  | st, [] => .ok (fun _ _ => 0, st)
  | st, [f] => process root floor b u c st f.1 f.2
  | st, f :: g :: l => do
    let (_, st') ← process root floor b u c st f.1 f.2
    play root floor b u c st' (g :: l)

end Verif.Hoa
