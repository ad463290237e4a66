import Verif.Prelude
import Mathlib.Data.Rat.Floor

/-!
# PCM output: `ia_core_coder_samples_sat`, ia_core_coder_decode_main.c 209-316

A finite `FLOAT32` is a rational number. Comparison, multiplication by 256 or 65536 and truncation
are exact on finite floats (a product that overflows to infinity is clipped like the exact product),
so nothing is rounded in this function. Not-a-number is not modelled. 16-bit samples are stored
through a `WORD16` pointer; the model stores them low byte first (little-endian machine).
-/

namespace Verif.Pcm

/-- Conversion of a float to an integer type drops the fraction. -/
def truncZ (x : ℚ) : Int := if 0 ≤ x then ⌊x⌋ else ⌈x⌉

/-- `(WORD16)x` / `(WORD32)x` for a float `x`: undefined if the truncated value is not representable. -/
def castInt (n : Nat) (x : ℚ) : Res Int :=
  if -(2 : Int) ^ (n - 1) ≤ truncZ x ∧ truncZ x < (2 : Int) ^ (n - 1) then .ok (truncZ x) else .ub

/-- The two comparisons with `MIN_FLT_VAL_*`, `MAX_FLT_VAL_*`. -/
def clip (lo hi x : ℚ) : ℚ := if x < lo then lo else if hi < x then hi else x

/-- `(x >> s) & 0xff` stored in a byte -/
def byteAt (x : Int) (s : Nat) : Nat := ((x / 2 ^ s) % 256).toNat

/-- 16-bit case, ia_core_coder_decode_main.c 266-286. Constants `ia_core_coder_cnst.h` 47-48. -/
def write16 (x : ℚ) : Res (List Nat) := do
  let v ← castInt 16 (clip (-32768) 32767 x)
  .ok [byteAt v 0, byteAt v 8]

/-- 24-bit case, ia_core_coder_decode_main.c 240-265. Constants `ia_core_coder_cnst.h` 42-44. -/
def write24 (x : ℚ) : Res (List Nat) := do
  let v ← castInt 32 (clip (-8388608) 8388607 (x * 256))
  .ok [byteAt v 0, byteAt v 8, byteAt v 16]

/-- 32-bit case, ia_core_coder_decode_main.c 287-313. `2147483647.0f` (`ia_core_coder_cnst.h` 51-52) is not a `FLOAT32` value, the
compiler rounds it to 2147483648. -/
def write32 (x : ℚ) : Res (List Nat) := do
  let v ← castInt 32 (clip (-2147483648) 2147483648 (x * 65536))
  .ok [byteAt v 0, byteAt v 8, byteAt v 16, byteAt v 24]

/-- `MAX_NUM_CHANNELS` -/
def maxChannels : Nat := 24

/-- The loop of ia_core_coder_decode_main.c 231-236 that completes the channel map and inverts it, from channel `ch` on. -/
def posLoop : (k ch : Nat) → List Int → List Nat → Res (List Int × List Nat)
  | 0, _, map, pos => .ok (map, pos)
  | k + 1, ch, map, pos =>
    match map[ch]? with
    | none => .ub
    | some m =>
      let v := if m = -1 then (ch : Int) else m
      let map := map.set ch v
      if 0 ≤ v ∧ v < pos.length then posLoop k (ch + 1) map (pos.set v.toNat ch) else .ub

/-- `out_samples[channel_pos[ch]][sample]` -/
def fetch (smp : List (List ℚ)) (pos : List Nat) (ch s : Nat) : Res ℚ :=
  match pos[ch]? with
  | none => .ub
  | some p =>
    match smp[p]? with
    | none => .ub
    | some row =>
      match row[s]? with
      | none => .ub
      | some x => .ok x

/-- The loop over the channels of one sample. -/
def chLoop (f : ℚ → Res (List Nat)) (smp : List (List ℚ)) (pos : List Nat) (s : Nat) :
    (k ch : Nat) → Res (List Nat)
  | 0, _ => .ok []
  | k + 1, ch => do
    let x ← fetch smp pos ch s
    let b ← f x
    let bs ← chLoop f smp pos s k (ch + 1)
    .ok (b ++ bs)

/-- The loop over the samples. -/
def smpLoop (f : ℚ → Res (List Nat)) (smp : List (List ℚ)) (pos : List Nat) (nch : Nat) :
    (k s : Nat) → Res (List Nat)
  | 0, _ => .ok []
  | k + 1, s => do
    let b ← chLoop f smp pos s nch 0
    let bs ← smpLoop f smp pos nch k (s + 1)
    .ok (b ++ bs)

/-- What one call leaves: bytes written, channel map, delay still to trim, bytes reported. -/
structure SatOut where
  bytes : List Nat
  map : List Int
  delay : Nat
  outBytes : Nat
  deriving DecidableEq, Repr

/-- `ia_core_coder_samples_sat`, ia_core_coder_decode_main.c 209-316. -/
def samplesSat (n pcm : Nat) (smp : List (List ℚ)) (map : List Int) (delay nch : Nat) :
    Res SatOut := do
  let (num, delay') := if delay ≤ n then (nch * (n - delay), 0) else (0, delay - n)
  let (map, pos) ← posLoop nch 0 map (List.replicate maxChannels 0)
  let f := if pcm = 24 then write24 else if pcm = 16 then write16 else write32
  let bytes ← smpLoop f smp pos nch (n - delay) delay
  .ok { bytes := bytes, map := map, delay := delay', outBytes := num * (pcm / 8) }

end Verif.Pcm
