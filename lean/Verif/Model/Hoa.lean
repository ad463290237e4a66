import Verif.Model.Loop
import Verif.Model.HoaTables

/-!
# Configuration and frames of higher order ambisonics (HOA)

Arrays of the frame structure are functions of the index; accesses outside their sizes (impeghd_hoa_dec_struct.h 38-95) are undefined behaviour and
are tested where they happen (`inside`).  When a function returns an error, what it has written before is not kept in the model.
-/

namespace Verif.Hoa

open Prog

/-- `impeghd_hoa_get_ceil_log2`, impeghd_hoa_common_functions.c 290-299. -/
def ceilLog2 (n : Nat) : Nat := ((List.range 32).find? (fun c => decide (n ≤ 2 ^ c))).getD 32

/-- What impeghd_hoa_config.c 100-281 stores.  `amb1` is the minimal ambience order plus 1, which is at least 0, and `max1` the maximal transmitted
order plus 1. -/
structure Config where
  /-- num_transport_ch, set by the caller: ia_core_coder_init_config.c 1389-1391 -/
  transport : Nat
  order : Nat
  screen : Nat
  /-- the four bytes of the reference distance -/
  nfc : List Nat
  amb1 : Nat
  single : Nat
  interpTime : Nat
  method : Nat
  /-- coded_v_vec_length -/
  vecKind : Nat
  maxExp : Nat
  frameInd : Nat
  max1 : Nat
  /-- num_v_vec_vq_elements_bits -/
  vqBits : Nat
  predSigs : Nat
  gainBits : Nat
  deriving DecidableEq, Repr

namespace Config

/-- num_coeffs, impeghd_hoa_config.c 115 -/
def coeffs (c : Config) : Nat := (c.order + 1) * (c.order + 1)
/-- min_coeffs_for_amb, impeghd_hoa_config.c 151-152 -/
def minCoeffs (c : Config) : Nat := c.amb1 * c.amb1
/-- num_addnl_coders, impeghd_hoa_config.c 154-157 -/
def extra (c : Config) : Nat := c.transport - c.minCoeffs
/-- max_num_add_active_amb_coeffs, impeghd_hoa_config.c 214-219 -/
def maxAdd (c : Config) : Nat := c.max1 * c.max1 - c.minCoeffs
/-- amb_asign_m_bits, impeghd_hoa_config.c 263-264 -/
def ambBits (c : Config) : Nat := ceilLog2 c.maxAdd
/-- active_pred_ids_bits and index_length, impeghd_hoa_config.c 265 and 86 -/
def idBits (c : Config) : Nat := ceilLog2 c.coeffs
/-- num_active_pred_ids_bits, impeghd_hoa_config.c 267-273: `k + 1` is the `i` at which the loop ends; with at most 49 coefficients it is below 64. -/
def countBits (c : Config) : Nat :=
  ceilLog2 (max 1 (((List.range 64).find? (fun k => decide (c.coeffs ≤ (k + 1) * c.idBits + ceilLog2 (k + 1)))).getD 64))
/-- `impeghd_hoa_get_ceil_log2((WORD32)(1.5f * num_coeffs))`, impeghd_hoa_config.c 276 -/
def expBias (c : Config) : Nat := ceilLog2 (3 * c.coeffs / 2)
/-- gain_corr_prev_amp_exp_bits, impeghd_hoa_config.c 275-277 -/
def expBits (c : Config) : Nat := ceilLog2 (c.expBias + c.maxExp + 1)
/-- idx_offset, `impeghd_hoa_v_vec_len_and_coeff_calc`, impeghd_hoa_config.c 75-83 -/
def offset (c : Config) : Nat := if c.vecKind = 1 ∨ c.vecKind = 2 then c.minCoeffs + 1 else 1
/-- v_vec_length_used, impeghd_hoa_config.c 84-85; the sum in another order, as the difference may pass -1 -/
def vecLength (c : Config) : Nat := c.coeffs + 1 - c.offset

end Config

/-- A value of 3 bits, with 5 more added if it is 7: impeghd_hoa_config.c 104-108 and 136-140. -/
def escaped : Prog Nat := do
  let v ← bits 3
  if v = 7 then do
    let w ← bits 5
    pure (v + w)
  else pure v

/-- `ia_hoa_spat_interp_time_code_table`, impeghd_hoa_rom.c 940. -/
def interpTimes : List Nat := [0, 64, 128, 256, 384, 512, 768, 1024]

/-- The maximal transmitted order plus 1: impeghd_hoa_config.c 199-212.  `min_amb_order >= order` is `amb1 ≥ order + 1`. -/
def maxOrder (order amb1 : Nat) : Prog Nat :=
  if order + 1 ≤ amb1 then pure (order + 1)
  else do
    let d ← bits (ceilLog2 (order + 2 - amb1))
    pure (d + amb1)

/-- `impeghd_fill_config`, impeghd_hoa_config.c 100-281, for `transport` channels and frames of `core` samples.  The test of 145-146 is
written without the square root, which is exact enough for so small numbers.  The test of 220-221 never holds and is left out. -/
def config (transport core : Nat) : Prog Config := do
  let order ← escaped
  if 6 < order then fail (.other 0x1201)
  else do
    let screen ← bits 1
    let n ← bits 1
    let nfc ← (if n = 0 then pure [] else forN (fun _ => bits 8) 4 0)
    let amb1 ← escaped
    if transport < amb1 * amb1 ∨ order + 1 < amb1 then fail (.other 0xFFFF9207)
    else do
      let single ← bits 1
      let time ← bits 3
      let method ← bits 1
      let kind ← bits 2
      if 3 ≤ kind then fail (.other 0xFFFF9208)
      else do
        let maxExp ← bits 3
        let ind ← bits 2
        if 3 ≤ ind then fail (.other 0xFFFF9203)
        else if core ≠ 1024 then fail (.other 0x1203)
        else do
          let max1 ← maxOrder order amb1
          let vq ← bits (ceilLog2 (ceilLog2 ((order + 1) * (order + 1) + 1)))
          if 7 < vq then fail (.other 0xFFFF920A)
          else do
            let phase ← (if amb1 = 2 then bits 1 else pure 0)
            if phase ≠ 0 then fail (.other 0xFFFF9212)
            else do
              let sigs ← bits 2
              let gain ← bits 4
              let sub ← bits 2
              if 0 < sub then fail (.other 0x1206)
              else do
                let par ← bits 2
                if 0 < par then fail (.other 0x1206)
                else pure ⟨transport, order, screen, nfc, amb1, single, interpTimes.getD time 0, method, kind, maxExp, ind, max1, vq,
                  sigs + 1, gain + 1⟩

/-- Access to element `i` of an array of `size` elements. -/
def inside (size i : Nat) : Prog Unit := if i < size then pure () else undef

/-- `f[i] = v` -/
def upd {α : Type} (f : Nat → α) (i : Nat) (v : α) : Nat → α := fun j => if j = i then v else f j

/-- `f[i][j] = v` -/
def upd2 {α : Type} (f : Nat → Nat → α) (i j : Nat) (v : α) : Nat → Nat → α := fun a b => if a = i ∧ b = j then v else f a b

/-- `ia_hoa_frame_struct`, impeghd_hoa_dec_struct.h 38-95.  The channels of vectors (vec_sig_channel_ids, numbers from 1) are a list as long as
num_of_vec_sigs. -/
structure Frame where
  indep : Bool
  ctype : Nat → Nat
  prevType : Nat → Nat
  trans : Nat → Nat
  ambIdx : Nat → Nat
  fadeIn : Nat → Nat
  nonTrans : Nat → Nat
  newVec : Nat → Nat
  nbits : Nat → Nat
  prevNbits : Nat → Nat
  book : Nat → Nat
  prevBook : Nat → Nat
  num : Nat → Nat
  prevNum : Nat → Nat
  pFlag : Nat → Nat
  prevP : Nat → Nat
  cbFlag : Nat → Nat
  prevCb : Nat → Nat
  dirId : Nat → Nat
  prevExp : Nat → Int
  coded : Nat → Nat
  exc : Nat → Nat
  vecs : List Nat
  numDir : Nat
  dirCh : Nat → Nat
  sgnSize : Nat → Nat
  prevSgnSize : Nat → Nat
  sgn : Nat → Nat → Nat
  weight : Nat → Nat
  vvec : Nat → Nat
  addInfo : Nat → Nat → Nat
  word8 : Nat → Nat → Nat
  mask : Nat → Nat → Nat
  huff : Nat → Nat → Nat
  addVal : Nat → Nat → Nat
  predOn : Nat
  predKind : Nat
  numActive : Nat
  active : Nat → Nat
  numGains : Nat
  predIds : Nat → Nat
  gains : Nat → Nat

/-- The structure before the first frame: it is cleared with the memory of the decoder. -/
def Frame.zero : Frame :=
  ⟨false, fun _ => 0, fun _ => 0, fun _ => 0, fun _ => 0, fun _ => 0, fun _ => 0, fun _ => 0, fun _ => 0, fun _ => 0, fun _ => 0, fun _ => 0,
   fun _ => 0, fun _ => 0, fun _ => 0, fun _ => 0, fun _ => 0, fun _ => 0, fun _ => 0, fun _ => 0, fun _ => 0, fun _ => 0, [], 0, fun _ => 0,
   fun _ => 0, fun _ => 0, fun _ _ => 0, fun _ => 0, fun _ => 0, fun _ _ => 0, fun _ _ => 0, fun _ _ => 0, fun _ _ => 0, fun _ _ => 0, 0, 0, 0,
   fun _ => 0, 0, fun _ => 0, fun _ => 0⟩

/-- A channel with an additional ambience coefficient: impeghd_hoa_frame.c 164-217. -/
def ambience (c : Config) (i : Nat) (s : Frame) : Prog Frame := do
  let s ← (if s.indep then do
      let t ← bits 2
      if t = 3 then fail (.other 0xFFFF920D)
      else do
        let k ← bits c.ambBits
        if c.maxAdd ≤ k then fail (.other 0xFFFF920E)
        else pure { s with trans := upd s.trans i t, ambIdx := upd s.ambIdx i (k + 1 + c.minCoeffs) }
    else do
      let m ← bits 1
      if m ≠ 1 then pure { s with trans := upd s.trans i 0 }
      else if s.trans i ≤ 1 then pure { s with trans := upd s.trans i 2 }
      else do
        let k ← bits c.ambBits
        pure { s with trans := upd s.trans i 1, ambIdx := upd s.ambIdx i (k + 1 + c.minCoeffs) })
  if c.vecKind = 1 then
    if s.trans i = 1 then do
      inside 49 (s.ambIdx i)
      pure { s with fadeIn := upd s.fadeIn (s.ambIdx i) 1 }
    else if s.trans i = 0 then do
      inside 50 (s.ambIdx i)
      pure { s with nonTrans := upd s.nonTrans (s.ambIdx i) 1 }
    else pure s
  else pure s

/-- The kind of coding of a vector for `n` bits: impeghd_hoa_frame.c 234-246 and 272-283. -/
def quant (c : Config) (i n : Nat) (s : Frame) : Prog Frame := do
  let s := { s with nbits := upd s.nbits i n }
  if n = 4 then do
    let k ← bits 3
    let m ← bits c.vqBits
    pure { s with book := upd s.book i k, num := upd s.num i (m + 1) }
  else if 6 ≤ n then do
    let p ← (if s.indep then pure 0 else bits 1)
    let b ← bits 1
    pure { s with pFlag := upd s.pFlag i p, cbFlag := upd s.cbFlag i b }
  else pure s

/-- A channel with a vector: impeghd_hoa_frame.c 222-284. -/
def vector (c : Config) (i : Nat) (s : Frame) : Prog Frame :=
  if s.indep then do
    let s ← (if c.vecKind = 1 then do
        let v ← bits 1
        pure { s with newVec := upd s.newVec i v }
      else pure s)
    let n ← bits 4
    if n / 4 = 0 then fail (.other 0xFFFF920C) else quant c i n s
  else do
    let s := if c.vecKind = 1 ∧ s.prevType i ≠ 1 then { s with newVec := upd s.newVec i 1 } else s
    let a ← bits 1
    let b ← bits 1
    if a + b ≠ 0 then do
      let k ← bits 2
      quant c i (8 * a + 4 * b + k) s
    else pure { s with
      num := upd s.num i (s.prevNum i), book := upd s.book i (s.prevBook i), cbFlag := upd s.cbFlag i (s.prevCb i),
      pFlag := upd s.pFlag i (s.prevP i), nbits := upd s.nbits i (s.prevNbits i) }

/-- A channel with a direction: impeghd_hoa_frame.c 288-293. -/
def direction (i : Nat) (s : Frame) : Prog Frame := do
  let d ← bits 10
  if 900 < d then fail (.other 0xFFFF9206) else pure { s with dirId := upd s.dirId i d }

/-- Zeros up to a one, counted with the one: impeghd_hoa_frame.c 308-312 and 342-346.  The counter has 32 bits; an input with as many bits does not
occur and counts as undefined. -/
def unary : (fuel k : Nat) → Prog Nat
  | 0, _ => undef
  | f + 1, k => do
    let b ← bits 1
    if b = 1 then pure (k + 1) else unary f (k + 1)

/-- The counter of `unary` wraps around after so many bits. -/
def unaryFuel : Nat := 4294967295

/-- The gain exponent of the frame before an independent frame: impeghd_hoa_frame.c 302-306 and 336-340. -/
def prevGain (c : Config) (i : Nat) (s : Frame) : Prog Frame := do
  let e ← bits c.expBits
  pure { s with prevExp := upd s.prevExp i ((e : Int) - (c.expBias : Int)) }

/-- The channel at the end of one round of the loop: impeghd_hoa_frame.c 320-330. -/
def enlist (i : Nat) (s : Frame) : Frame :=
  if s.ctype i = 1 then { s with vecs := s.vecs ++ [i + 1] }
  else if s.ctype i = 0 then { s with dirCh := upd s.dirCh s.numDir (i + 1), numDir := s.numDir + 1 }
  else s

/-- A channel of the additional ones: impeghd_hoa_frame.c 161-330. -/
def channel (c : Config) (i : Nat) (s : Frame) : Prog Frame := do
  inside 49 i
  let t ← bits 2
  let s := { s with ctype := upd s.ctype i t }
  let s ← (if t = 2 then ambience c i s else if t = 1 then vector c i s else if t = 0 then direction i s else pure s)
  let s ← (if s.indep then prevGain c i s else pure { s with prevExp := upd s.prevExp i 0 })
  let g ← unary unaryFuel 0
  if 65 < g then fail (.other 0xFFFF9A02)
  else do
    let e ← bits 1
    pure (enlist i { s with coded := upd s.coded i g, exc := upd s.exc i e })

/-- A channel of the ambience that is always sent: impeghd_hoa_frame.c 334-348. -/
def restChannel (c : Config) (i : Nat) (s : Frame) : Prog Frame := do
  inside 49 i
  let s ← (if s.indep then prevGain c i s else pure s)
  let g ← unary unaryFuel 0
  let e ← bits 1
  pure { s with coded := upd s.coded i g, exc := upd s.exc i e }

/-- The table that a coefficient uses: `impeghd_hoa_get_sub_idx`, impeghd_hoa_frame.c 73-91. -/
def subIdx (k : Nat) : Nat :=
  if 50 ≤ k ∨ k = 0 then 0 else if 10 ≤ k then 3 else if 5 ≤ k then 2 else 1

/-- The symbol of a code word of a given length in a table: impeghd_hoa_frame.c 120-127. -/
def findWord (table : List (Nat × Nat × Nat)) (word len : Nat) : Option Nat :=
  (table.find? (fun e => decide (word = e.2.2 ∧ len = e.2.1))).map (fun e => e.1)

/-- The bits of a word are read until the table holds it: impeghd_hoa_frame.c 112-128.  A word of more than 31 bits does not fit the variable. -/
def huffLoop (table : List (Nat × Nat × Nat)) : (fuel word len : Nat) → Prog Nat
  | 0, _, _ => undef
  | f + 1, word, len => do
    let b ← bits 1
    match findWord table (2 * word + b) (len + 1) with
    | some v => pure v
    | none => huffLoop table f (2 * word + b) (len + 1)

/-- The table for `n` bits and a table number from 1 on: impeghd_hoa_frame.c 109. -/
def huffTable (n idx : Nat) : List (Nat × Nat × Nat) := (huffTables.getD (n - 6) []).getD (idx - 1) []

/-- `impeghd_hoa_huffman_decode`, impeghd_hoa_frame.c 105-130. -/
def huffDecode (n idx : Nat) : Prog Nat :=
  if 6 ≤ n ∧ n < 16 ∧ 1 ≤ idx ∧ idx < 6 then huffLoop (huffTable n idx) 31 0 0 else undef

/-- Whether the element of a vector for coefficient `k` is not sent: impeghd_hoa_frame.c 570-572, 587-589, 613-615.  The flag of a new vector is
taken at the number of the vector, `idx`. -/
def skipped (s : Frame) (idx k : Nat) : Prog Bool := do
  inside 50 k
  if s.nonTrans k ≠ 0 then pure true
  else do
    inside 49 idx
    if s.newVec idx = 1 then do
      inside 49 k
      pure (decide (s.fadeIn k = 1))
    else pure false

/-- The bits of the index of a codebook: impeghd_hoa_frame.c 483-502. -/
def indexBits (c : Config) (book : Nat) : Nat := if book = 0 then 10 else if book ≤ 3 then 6 else c.idBits

/-- The largest index of a codebook that is accepted: impeghd_hoa_frame.c 522-565; codebooks 4 to 6 are not tested. -/
def indexLimit (c : Config) (book : Nat) : Option Nat :=
  if book = 0 then some 900
  else if book = 1 ∨ book = 2 then some 34
  else if book = 3 then some 64
  else if book = 7 then (if c.order = 4 then some 32 else some c.coeffs)
  else none

/-- One index and its sign: impeghd_hoa_frame.c 508-510 and 515-517. -/
def indexPair (c : Config) (ch idx j : Nat) (s : Frame) : Prog Frame := do
  let v ← bits (indexBits c (s.book ch))
  let g ← bits 1
  inside 128 j
  pure { s with sgn := upd2 s.sgn idx j g, vvec := upd s.vvec j (v + 1) }

/-- The test of one index, impeghd_hoa_frame.c 522-565, with the codebook of channel `j`. -/
def checkIndex (c : Config) (j : Nat) (s : Frame) : Prog Unit := do
  inside 49 j
  match indexLimit c (s.book j) with
  | some m => if m < s.vvec j then fail (.other 0xFFFF920F) else pure ()
  | none => pure ()

/-- A row of signs filled from one index up to another: impeghd_hoa_frame.c 477-481 and 605-609. -/
def fillSgn (f : Nat → Nat → Nat) (idx a b v : Nat) : Nat → Nat → Nat := fun i j => if i = idx ∧ a ≤ j ∧ j < b then v else f i j

/-- Vectors coded with indices of a codebook: impeghd_hoa_frame.c 475-580. -/
def vqData (c : Config) (ch idx : Nat) (s : Frame) : Prog Frame := do
  inside 16 idx
  let s := { s with sgn := fillSgn s.sgn idx (s.sgnSize idx) (s.num ch) 0, sgnSize := upd s.sgnSize idx (s.num ch) }
  let s ← (if s.num ch ≠ 1 then do
      let w ← bits 8
      foldN (fun j s => indexPair c ch idx j s) (s.num ch) 0 { s with weight := upd s.weight ch w }
    else indexPair c ch idx 0 s)
  foldN (fun j (_ : Unit) => checkIndex c j s) (s.num ch) 0 ()
  foldN (fun k s => do
    let b ← skipped s idx (c.offset + k)
    inside 49 k
    pure { s with addInfo := upd2 s.addInfo idx k (if b then 0 else 1) }) c.vecLength 0 s

/-- Vectors with elements of 8 bits: impeghd_hoa_frame.c 584-598. -/
def wordData (c : Config) (idx : Nat) (s : Frame) : Prog Frame := do
  foldN (fun k s => do
    let b ← skipped s idx (c.offset + k)
    let v ← (if b then pure 128 else bits 8)
    inside 16 idx
    inside 49 k
    pure { s with word8 := upd2 s.word8 idx k v }) c.vecLength 0 s

/-- The Huffman table of an element: impeghd_hoa_frame.c 626-630. -/
def huffIdx (s : Frame) (ch k : Nat) : Nat := if s.cbFlag ch = 1 then subIdx k else if s.pFlag ch = 1 then 4 else 5

/-- One element coded with a Huffman table: impeghd_hoa_frame.c 613-646. -/
def huffElement (c : Config) (ch idx k : Nat) (s : Frame) : Prog Frame := do
  let b ← skipped s idx (c.offset + k)
  inside 16 ch
  inside 49 k
  if b then pure { s with mask := upd2 s.mask ch k 0, huff := upd2 s.huff ch k 0, addVal := upd2 s.addVal ch k 0 }
  else do
    let cid ← huffDecode (s.nbits ch) (huffIdx s ch (c.offset + k))
    let s := { s with mask := upd2 s.mask ch k 1, huff := upd2 s.huff ch k cid }
    if 0 < cid then do
      let g ← bits 1
      let s := { s with addVal := upd2 s.addVal ch k 0, sgn := upd2 s.sgn idx k g }
      if 1 < cid then do
        let v ← bits (cid - 1)
        pure { s with addVal := upd2 s.addVal ch k v }
      else pure s
    else pure s

/-- Vectors with Huffman coded elements: impeghd_hoa_frame.c 602-648. -/
def huffData (c : Config) (ch idx : Nat) (s : Frame) : Prog Frame := do
  inside 16 idx
  let s := { s with sgn := fillSgn s.sgn idx (s.sgnSize idx) c.vecLength 1 }
  let s ← foldN (fun k s => huffElement c ch idx k s) c.vecLength 0 s
  pure { s with sgnSize := upd s.sgnSize idx c.vecLength }

/-- `impeghd_hoa_frame_v_vector_data`, impeghd_hoa_frame.c 464-651, for the vector with number `idx` of channel `ch`. -/
def vectorData (c : Config) (ch idx : Nat) (s : Frame) : Prog Frame :=
  if s.nbits ch = 4 then vqData c ch idx s
  else if s.nbits ch = 5 then wordData c idx s
  else if 6 ≤ s.nbits ch then huffData c ch idx s
  else pure s

/-- The coefficients that are predicted: impeghd_hoa_frame.c 379-407. -/
def activePreds (c : Config) (s : Frame) : Prog Frame := do
  let kind ← bits 1
  let s := { s with numActive := 0, predKind := kind, active := fun i => if i < c.coeffs then 0 else s.active i }
  if kind = 0 then
    foldN (fun i s => do
      let v ← bits 1
      pure { s with active := upd s.active i v, numActive := s.numActive + (if v ≠ 0 then 1 else 0) }) c.coeffs 0 s
  else do
    let n ← bits c.countBits
    let s := { s with numActive := n + 1 }
    foldN (fun _ s => do
      let k ← bits c.idBits
      inside 49 k
      pure { s with active := upd s.active k 1 }) (n + 1) 0 s

/-- One signal to predict from: impeghd_hoa_frame.c 413-420. -/
def predId (w i : Nat) (s : Frame) : Prog Frame := do
  let v ← bits w
  inside 512 i
  if 0 < v then do
    inside 49 (v - 1)
    pure { s with predIds := upd s.predIds i (s.dirCh (v - 1)), numGains := s.numGains + 1 }
  else pure { s with predIds := upd s.predIds i 0 }

/-- One gain: impeghd_hoa_frame.c 424-429. -/
def predGain (c : Config) (i : Nat) (s : Frame) : Prog Frame := do
  inside 512 i
  if 0 < s.predIds i then do
    let v ← bits c.gainBits
    pure { s with gains := upd s.gains i v }
  else pure s

/-- The prediction of directional signals: impeghd_hoa_frame.c 370-433. -/
def prediction (c : Config) (s : Frame) : Prog Frame :=
  if c.single = 1 ∧ 0 < s.numDir then do
    let on ← bits 1
    let s := { s with predOn := on }
    if on ≠ 0 then do
      let s ← activePreds c s
      let s ← foldN (predId (ceilLog2 (s.numDir + 1))) (s.numActive * c.predSigs) 0 { s with numGains := 0 }
      foldN (predGain c) s.numGains 0 s
    else pure s
  else pure s

/-- The vectors one after the other: impeghd_hoa_frame.c 356-364. -/
def vectors (c : Config) : List Nat → Nat → Frame → Prog Frame
  | [], _, s => pure s
  | ch1 :: l, idx, s => do
    let s ← vectorData c (ch1 - 1) idx s
    vectors c l (idx + 1) s

/-- What is kept for the next frame: impeghd_hoa_frame.c 436-447. -/
def keep (s : Frame) : Frame :=
  { s with prevNum := s.num, prevBook := s.book, prevCb := s.cbFlag, prevP := s.pFlag, prevNbits := s.nbits, prevType := s.ctype }

/-- `impeghd_hoa_frame`, impeghd_hoa_frame.c 143-449. -/
def frame (c : Config) (s : Frame) : Prog Frame := do
  let f ← bits 1
  let s := { s with indep := f != 0, vecs := [], numDir := 0, newVec := fun _ => 0, fadeIn := fun _ => 0, nonTrans := fun _ => 0 }
  let s ← foldN (channel c) c.extra 0 s
  let s ← foldN (restChannel c) (c.transport - c.extra) c.extra s
  let s := { s with sgnSize := fun i => if i < s.vecs.length then s.prevSgnSize i else s.sgnSize i }
  let s ← vectors c s.vecs 0 s
  let s := { s with prevSgnSize := fun i => if i < s.vecs.length then s.sgnSize i else s.prevSgnSize i }
  let s ← prediction c s
  pure (keep s)

end Verif.Hoa
