import Verif.Model.Loop

/-!
# Audio pre-roll and configuration changes

`ia_core_coder_audio_preroll_parsing` (ia_core_coder_decode_main.c 817-904), the configuration
packet comparison (2504-2552) and the pre-roll configuration comparison (2622-2645) of
`ia_core_coder_dec_main`, and the pre-roll part of `ia_mpegh_dec_execute` (impeghd_api.c 1062-1093).
-/

namespace Verif.Preroll

open Prog

/-- `MAX_AUDIO_PREROLLS` -/
def maxPrerolls : Nat := 1

/-- What the parser leaves: the bytes of `config[288]`, `config_len`, `preroll_frame_offset[4]`, and
the number of pre-roll units (`none` if `*preroll_units` is not written). -/
structure Out where
  config : List Nat := List.replicate 288 0
  configLen : Nat := 0
  offsets : List Int := List.replicate 4 0
  units : Option Nat := none
  deriving DecidableEq, Repr

/-- `config_len`, ia_core_coder_decode_main.c 851-861. -/
def configLen : Prog Nat := do
  let a ← bits 4
  if a = 15 then do
    let b ← bits 4
    if b = 15 then do
      let c ← bits 8
      pure (c + 15 + 15)
    else pure (b + 15)
  else pure a

/-- One access unit of the loop of ia_core_coder_decode_main.c 881-899. The read pointer is moved before the length is checked; the
model checks first (the pointer is not used again after the error return). -/
def auLoop (size : Int) (frame : Nat) (offs : List Int) : Prog (List Int) := do
  let a ← bits 16
  let ext ← optBits (a == 65535) 16
  let auLen := a + ext
  let c ← avail
  let offs ← setAt offs frame (size - c)
  if 8 * (auLen : Int) > c then fail .initFatal
  else do
    drop (8 * (auLen : Int))
    pure offs

/-- `ia_core_coder_audio_preroll_parsing`, ia_core_coder_decode_main.c 817-904, with `isExt` the test of the first element's type
and `size` the bit buffer's size. The payload length read at 844-850 is not used. -/
def parse (isExt : Bool) (size : Int) : Prog Out := do
  if isExt then do
    let w ← look 3
    if (w / 2) % 2 = 1 then
      if w % 2 ≠ 0 then pure {}
      else do
        drop 3
        let pl ← bits 8
        let _ ← optBits (pl == 255) 16
        let len ← configLen
        let cfg ← foldN (fun i cfg => do let b ← bits 8; setAt cfg i b) len 0
          (List.replicate 288 0)
        drop 2
        let n ← bits 2
        let ext ← optBits (n == 3) 4
        if n + ext > maxPrerolls then fail (.other 40)
        else do
          let offs ← foldN (auLoop size) (n + ext) 0 (List.replicate 4 0)
          pure { config := cfg, configLen := len, offsets := offs, units := some (n + ext) }
    else pure { units := some 0 }
  else pure { units := some 0 }

/-- The caller, ia_core_coder_decode_main.c 2603-2612: `preroll_units = -1` becomes 0 and the last offset is that of the frame. -/
def setLast (o : Out) (mhasOffset : Int) : Res Out :=
  let u := o.units.getD 0
  if u < o.offsets.length then .ok { o with offsets := o.offsets.set u mhasOffset, units := some u }
  else .ub

/-! ## Configuration packets -/

/-- `MAX_CFG_DATA_LENGTH` -/
def maxCfg : Nat := 768

/-- `prev_cfg_data`, `prev_cfg_len` of the decoder state. -/
structure CfgState where
  data : List Nat := List.replicate maxCfg 0
  len : Nat := 0
  deriving DecidableEq, Repr

/-- Copy `src` to the start of `dst`. -/
def copyTo (dst src : List Nat) : List Nat := src ++ dst.drop src.length

/-- A configuration packet during decoding, ia_core_coder_decode_main.c 2504-2552: new state and whether the decoder is flushed.
`new` is the packet's payload, as read byte by byte. Storing more than `MAX_CFG_DATA_LENGTH` bytes
is undefined. -/
def configPacket (s : CfgState) (new : List Nat) : Res (CfgState × Bool) :=
  if s.len ≠ 0 then
    if new.length ≤ maxCfg then
      if new.length ≠ s.len ∨ new ≠ s.data.take new.length then
        .ok ({ data := copyTo s.data new, len := new.length }, true)
      else .ok (s, false)
    else .ub
  else
    if new.length ≤ maxCfg then
      .ok ({ data := copyTo s.data new, len := new.length }, false)
    else .ub

/-- Pre-roll configuration: `preroll_config_prev[288]`, `preroll_config_present`. -/
structure PreState where
  prev : List Nat := List.replicate 288 0
  present : Bool := false
  deriving DecidableEq, Repr

/-- ia_core_coder_decode_main.c 2622-2645 for `config_len ≠ 0`: new state and `config_change`. -/
def prerollConfig (s : PreState) (config : List Nat) : PreState × Bool :=
  if s.present then
    if s.prev ≠ config then ({ s with prev := config }, true) else (s, false)
  else ({ prev := config, present := true }, false)

/-! ## Discarding the pre-roll output -/

/-- impeghd_api.c 1062-1068: index of the first zero among the first `MAX_AUDIO_PREROLLS + 1` byte counts. -/
def countLoop (pb : List Nat) : (k idx : Nat) → Nat
  | 0, idx => idx
  | k + 1, idx => if pb[idx]?.getD 0 = 0 then idx else countLoop pb k (idx + 1)

/-- impeghd_api.c 1077-1082 -/
def offsetLoop (pb : List Nat) : Nat → Nat → Nat
  | 0, off => off
  | k + 1, off => offsetLoop pb k (off + pb[k + 1]?.getD 0)

/-- impeghd_api.c 1062-1093 with `discard_au_preroll == 1`: `num_preroll`, the bytes reported and the offset of the
bytes moved to the start of the output buffer. `pb` is `preroll_bytes[MAX_AUDIO_PREROLLS + 2]`. -/
def discard (pb : List Nat) : Nat × Nat × Nat :=
  let n := countLoop pb (maxPrerolls + 1) 0
  let b0 := pb[0]?.getD 0
  (n, b0, offsetLoop pb n b0 - b0)

/-- The output bytes the application sees, from the decoder's output buffer. -/
def visible (buf : List Nat) (pb : List Nat) : List Nat :=
  let (_, n, off) := discard pb
  (buf.drop off).take n

end Verif.Preroll
