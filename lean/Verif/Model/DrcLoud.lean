import Mathlib.Algebra.Order.Ring.Rat
import Verif.Model.Loop

/-! # Loudness information

The loudness part of `impd_drc_static_payload.c` (257-544).  The values are multiples of 1/4 and the peak
levels multiples of 1/32 below 128, which `FLOAT32` holds exactly: they are rational numbers here.  The
arrays of the decoder are lists; their length is the size of the array. -/

namespace Verif.DrcLoud

open Prog

/-- `ia_drc_loudness_measure_struct` -/
structure Measure where
  meth : Nat
  value : Rat
  system : Nat
  reliability : Nat
  deriving DecidableEq, Repr

/-- `ia_drc_loudness_info_struct` -/
structure Info where
  setId : Nat
  dmxId : Nat
  samplePresent : Bool
  sample : Rat
  truePresent : Bool
  truePeak : Rat
  trueSystem : Nat
  trueReliability : Nat
  count : Nat
  measures : List Measure
  kind : Nat
  group : Int
  preset : Int
  deriving DecidableEq, Repr

/-- `ia_drc_loudness_info_set_struct` without the sizes of the extensions. -/
structure InfoSet where
  count : Nat
  infos : List Info
  albumCount : Nat
  album : List Info
  deriving DecidableEq, Repr

/-- `LOUDNESS_INFO_COUNT_MAX`: the length of both arrays (impd_drc_struct.h 332-333). -/
def infoMax : Nat := 36

/-- `MEASUREMENT_COUNT_MAX`: the length of `loudness_measure` (impd_drc_struct.h 280). -/
def measureMax : Nat := 16

/-- `IA_MPEGD_DRC_INIT_NONFATAL_UNEXPECTED_ERROR` -/
def errUnexpected : ErrCode := .other 0x00001101
/-- `IA_MPEGD_DRC_INIT_FATAL_UNSUPPORTED_METHOD_DEFINITION` -/
def errMethod : ErrCode := .other 0xFFFF9102

/-- `impd_drc_decode_method_value`, impd_drc_static_payload.c 257-305. -/
def methodValue (meth : Nat) : Prog Rat :=
  if meth = 9 then do
    let t ← bits 8
    pure (-116 + (t : Rat) / 2)
  else if meth = 8 then do
    let t ← bits 2
    pure t
  else if meth = 7 then do
    let t ← bits 5
    pure ((t : Rat) + 80)
  else if meth = 6 then do
    let t ← bits 8
    if t = 0 then pure 0
    else if t ≤ 128 then pure ((t : Rat) / 4)
    else if t ≤ 204 then pure ((t : Rat) / 2 - 32)
    else pure ((t : Rat) - 134)
  else if meth ≤ 5 then do
    let t ← bits 8
    pure (-231 / 4 + (t : Rat) / 4)
  else fail errMethod

/-- `impd_drc_parse_loudness_measure`, impd_drc_static_payload.c 318-343. -/
def readMeasure : Prog Measure := do
  let m ← bits 4
  let v ← methodValue m
  let t ← bits 6
  if 11 < t / 4 then fail errUnexpected
  else pure ⟨m, v, t / 4, t % 4⟩

/-- A peak level, impd_drc_static_payload.c 373-381 and 390-398: code 0 stands for no level. -/
def peak (v : Nat) : Bool × Rat :=
  if v ≠ 0 then (true, 20 - (v : Rat) / 32) else (false, 0)

/-- `impd_drc_parse_loudness_info`, impd_drc_static_payload.c 356-416; `o` is what the entry holds before. -/
def readInfo (o : Info) : Prog Info := do
  let s ← bits 6
  let t ← bits 8
  let sp ← (if t % 2 = 1 then do
      let v ← bits 12
      pure (peak v)
    else pure (false, o.sample))
  let tf ← bits 1
  let tp ← (if tf = 1 then do
      let v ← bits 12
      let u ← bits 6
      pure (peak v, u / 4, u % 4)
    else pure ((false, o.truePeak), o.trueSystem, o.trueReliability))
  let n ← bits 4
  let ms ← foldN (fun k ms => do
    let m ← readMeasure
    setAt ms k m) n 0 o.measures
  pure { o with
    setId := s, dmxId := t / 2, samplePresent := sp.1, sample := sp.2
    truePresent := tp.1.1, truePeak := tp.1.2, trueSystem := tp.2.1, trueReliability := tp.2.2
    count := n, measures := ms }

/-- Body of the loop of `impd_drc_mpegh3da_parse_loudness_info_set`, impd_drc_static_payload.c 489-511. -/
def infoStep (k : Nat) (xs : List Info) : Prog (List Info) := do
  let kind ← bits 2
  let o ← getAt xs k
  let o := { o with kind := kind }
  let o ← (if kind = 3 then do
      let v ← bits 5
      pure { o with preset := v }
    else if kind = 2 ∨ kind = 1 then do
      let v ← bits 7
      pure { o with group := v }
    else pure { o with group := -1, preset := -1 })
  let o ← readInfo o
  setAt xs k o

/-- Body of the loop over the album's entries, impd_drc_static_payload.c 525-529: the kind of the entry of
the same number outside the album is cleared. -/
def albumStep (k : Nat) (s : List Info × List Info) : Prog (List Info × List Info) := do
  let o ← getAt s.1 k
  let xs ← setAt s.1 k { o with kind := 0 }
  let a ← getAt s.2 k
  let a ← readInfo a
  let ys ← setAt s.2 k a
  pure (xs, ys)

/-- The loop that reads `n` single bits, impd_drc_static_payload.c 454-458 and 147-150. -/
def skipBits (n : Nat) : Prog Unit := foldN (fun _ _ => do
  let _ ← bits 1
  pure ()) n 0 ()

/-- `impd_drc_parse_loudness_info_set_ext`, impd_drc_static_payload.c 429-465; the arrays have room for one
extension (`EXT_COUNT_MAX` is 2) and a second one is refused after its size has been read. -/
def setExt : Prog Unit := do
  let t ← bits 4
  if t = 0 then pure ()
  else do
    let w ← bits 4
    let n ← bits (w + 4)
    skipBits (n + 1)
    let t ← bits 4
    if t = 0 then pure ()
    else do
      let w ← bits 4
      let _ ← bits (w + 4)
      fail errUnexpected

/-- `impd_drc_mpegh3da_parse_loudness_info_set`, impd_drc_static_payload.c 478-544. -/
def readSet (s : InfoSet) : Prog InfoSet := do
  let n ← bits 6
  let xs ← foldN infoStep n 0 s.infos
  let a ← bits 1
  let r ← (if a = 1 then do
      let m ← bits 6
      let p ← foldN albumStep m 0 (xs, s.album)
      pure (m, p)
    else pure (0, xs, s.album))
  let e ← bits 1
  if e = 1 then do
    setExt
    pure ⟨n, r.2.1, r.1, r.2.2⟩
  else pure ⟨n, r.2.1, r.1, r.2.2⟩

end Verif.DrcLoud
