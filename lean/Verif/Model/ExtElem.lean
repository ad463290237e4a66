import Verif.Model.Loop

/-!
# Extension elements of an access unit

`ia_core_coder_read_ext_element` (ia_core_coder_process.c 276-359), the element loop of
`ia_core_coder_usac_process` (813-911) and the clearing of the payload lengths in
`impeghd_dec_execute` (impeghd_api.c 1394-1405).
-/

namespace Verif.ExtElem

open Prog

/-- `MAX_AUDIO_PREROLLS * MAX_EXT_ELE_PAYLOAD`, ia_core_coder_config.h 277-278: the size of one row of
`usac_ext_gain_payload_buf` (532). -/
def rowSize : Nat := 1536

/-- What the configuration says about an extension element: `usac_ext_ele_payload_present`, whether its
type is `ID_EXT_ELE_UNI_DRC`, `usac_ext_elem_pld_frag` and `usac_ext_eleme_def_len`. -/
structure Cfg where
  known : Bool
  drc : Bool
  frag : Bool
  defLen : Nat
  deriving DecidableEq, Repr

/-- `usac_ext_gain_payload_len[i]` and row `i` of `usac_ext_gain_payload_buf`. -/
structure Slot where
  len : Int
  buf : List Nat
  deriving DecidableEq, Repr

/-- `pay_load_length`, ia_core_coder_process.c 290-305. -/
def readLen (c : Cfg) : Prog Nat := do
  let dft ← flag
  if dft then pure c.defLen
  else do
    let a ← bits 8
    if a = 255 then do
      let b ← bits 16
      pure (b + 255 - 2)
    else pure a

/-- `for (i = 0; i < pay_load_length; i++) buf[i] = read(8)`, 326-330 and 338-342. -/
def fill (n : Nat) (buf : List Nat) : Prog (List Nat) :=
  foldN (fun i b => do
    let v ← bits 8
    setAt b i v) n 0 buf

/-- `ia_core_coder_read_ext_element`, ia_core_coder_process.c 276-359.  `preroll_counter` of the decoder
configuration is cleared for every call (impeghd_api.c 1393, 1409) and never counted up, so
`payload_buffer_offeset` is 0.  The errors are `INSUFFICIENT_INPUT_BYTES` and
`DECODE_FRAME_ERROR`.  The jump at 349-351 repeats the test of 306. -/
def readExt (c : Cfg) (s : Slot) : Prog Slot := do
  let present ← flag
  if present then do
    let n ← readLen c
    let left ← avail
    if left / 8 < n then fail (.other 0x00001800)
    else if n = 0 then pure s
    else do
      when c.frag (drop 2)
      if c.known then
        if rowSize < n then fail (.other 0xFFFF9816)
        else do
          let b ← fill n s.buf
          pure { len := if c.drc then toI32 (s.len + n) else n, buf := b }
      else do
        drop (8 * n)
        pure s
  else pure s

/-- An element of the access unit: a channel element, whose parser is arbitrary here, or an extension
element. -/
inductive Elem where
  | core (p : Prog Unit)
  | ext (c : Cfg)

/-- The element loop of `ia_core_coder_usac_process`, ia_core_coder_process.c 813-911. -/
def readElems : List Elem → List Slot → Prog (List Slot)
  | [], ss => pure ss
  | _ :: _, [] => undef
  | .core p :: es, s :: ss => do
    p
    let ss ← readElems es ss
    pure (s :: ss)
  | .ext c :: es, s :: ss => do
    let s ← readExt c s
    let ss ← readElems es ss
    pure (s :: ss)

/-- One access unit: the independency flag (811) and the elements. -/
def readUnit (es : List Elem) (ss : List Slot) : Prog (List Slot) := do
  let _ ← bits 1
  readElems es ss

/-- impeghd_api.c 1396-1405: the lengths of elements 0 .. `MAX_AUDIO_PREROLLS` are cleared. -/
def clear : List Slot → List Slot
  | a :: b :: ss => { a with len := 0 } :: { b with len := 0 } :: ss
  | [a] => [{ a with len := 0 }]
  | [] => []

/-- The access units of one call of the decoder, one after the other: pre-roll units and the frame
itself (ia_core_coder_decode_main.c 2619-2925). -/
def units (es : List Elem) : List (List Bool) → List Slot → Res (List Slot)
  | [], ss => .ok ss
  | u :: us, ss => do
    let r ← run (readUnit es ss) u
    units es us r.1

/-- One call of the decoder. -/
def call (es : List Elem) (us : List (List Bool)) (ss : List Slot) : Res (List Slot) :=
  units es us (clear ss)

/-- A sequence of successful calls. -/
def calls (es : List Elem) : List (List (List Bool)) → List Slot → Res (List Slot)
  | [], ss => .ok ss
  | c :: cs, ss => do
    let ss ← call es c ss
    calls es cs ss

/-- The decoder's memory when it is created: everything 0. -/
def init (n : Nat) : List Slot := List.replicate n ⟨0, List.replicate rowSize 0⟩

end Verif.ExtElem
