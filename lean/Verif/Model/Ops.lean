import Verif.Model.Loop

/-!
# Fixed point operators: `ia_core_coder_basic_ops32.h`, `ia_core_coder_basic_ops40.h`

Values of type `WORD32`/`WORD64` are integers in range. An intermediate result that leaves the
range of its C type in `+ - *` or in unary minus is `ub`; a shift count outside `0 .. width-1` is
`ub`; a left shift of a signed value that leaves the range wraps, and `>>` is the arithmetic shift
(gcc and clang).
-/

namespace Verif.Ops

def MAX_32 : Int := 2147483647
def MIN_32 : Int := -2147483648
def MAX_64 : Int := 9223372036854775807
def MIN_64 : Int := -9223372036854775808

/-- The result of a `WORD32` operation. -/
def i32 (x : Int) : Res Int := if MIN_32 ≤ x ∧ x ≤ MAX_32 then .ok x else .ub
/-- The result of a `WORD64` operation. -/
def i64 (x : Int) : Res Int := if MIN_64 ≤ x ∧ x ≤ MAX_64 then .ok x else .ub
/-- Conversion to `WORD64`. -/
def toI64 (x : Int) : Int := (x + 9223372036854775808) % 18446744073709551616 - 9223372036854775808

/-- `a << b` on a `WORD32`. -/
def shl32 (a b : Int) : Res Int := if 0 ≤ b ∧ b ≤ 31 then .ok (toI32 (a * 2 ^ b.toNat)) else .ub
/-- `a >> b` on a `WORD32`. -/
def shr32 (a b : Int) : Res Int := if 0 ≤ b ∧ b ≤ 31 then .ok (a / 2 ^ b.toNat) else .ub
/-- `a >> b` on a `WORD64`. -/
def shr64 (a b : Int) : Res Int := if 0 ≤ b ∧ b ≤ 63 then .ok (a / 2 ^ b.toNat) else .ub

/-- `ia_core_coder_mul32_sh_sat`, ia_core_coder_basic_ops32.h 38-52. -/
def mul32ShSat (a b sh : Int) : Res Int := do
  let t ← i64 (a * b)
  let s ← shr64 t sh
  if s ≥ MAX_32 then .ok MAX_32
  else if s ≤ MIN_32 then .ok MIN_32
  else .ok (toI32 s)

/-- `ia_core_coder_shl32_sat`, ia_core_coder_basic_ops32.h 104-114. -/
def shl32Sat (a b : Int) : Res Int := do
  let hi ← shr32 MAX_32 b
  if a > hi then .ok MAX_32
  else do
    let lo ← shr32 MIN_32 b
    if a < lo then .ok MIN_32
    else shl32 a b

/-- `ia_core_coder_add32_sat`, ia_core_coder_basic_ops32.h 255-267. -/
def add32Sat (a b : Int) : Res Int := do
  let s ← i64 (a + b)
  if s ≥ MAX_32 then .ok MAX_32
  else if s ≤ MIN_32 then .ok MIN_32
  else .ok (toI32 s)

/-- `ia_core_coder_add32_sat3`, ia_core_coder_basic_ops32.h 269-287. -/
def add32Sat3 (a b c : Int) : Res Int := do
  let s ← i64 (a + b)
  let s ← i64 (s + c)
  let s := if s > MAX_32 then MAX_32 else s
  let s := if s < MIN_32 then MIN_32 else s
  .ok (toI32 s)

/-- `ia_core_coder_sub32_sat`, ia_core_coder_basic_ops32.h 289-301. -/
def sub32Sat (a b : Int) : Res Int := do
  let s ← i64 (a - b)
  if s ≥ MAX_32 then .ok MAX_32
  else if s ≤ MIN_32 then .ok MIN_32
  else .ok (toI32 s)

/-- `ia_core_coder_negate32_sat`, ia_core_coder_basic_ops32.h 416-429. -/
def negate32Sat (a : Int) : Res Int := if a = MIN_32 then .ok MAX_32 else i32 (-a)

/-- `ia_core_coder_abs32_sat`, ia_core_coder_basic_ops32.h 389-405. -/
def abs32Sat (a : Int) : Res Int :=
  if a = MIN_32 then .ok MAX_32 else if a < 0 then i32 (-a) else .ok a

/-- The loop of `ia_core_coder_norm32`, ia_core_coder_basic_ops32.h 323-326. `a <<= 1` wraps; the loop is `ub` when it
has run 32 times (it would run for ever: the value is then 0). -/
def normLoop : (fuel : Nat) → (a norm : Int) → Res Int
  | 0, _, _ => .ub
  | f + 1, a, norm => if a < 0x40000000 then normLoop f (toI32 (a * 2)) (norm + 1) else .ok norm

/-- `ia_core_coder_norm32`, ia_core_coder_basic_ops32.h 303-331; `~a` is `-a - 1`. -/
def norm32 (a : Int) : Res Int :=
  if a = 0 then .ok 31
  else if a = -1 then .ok 31
  else
    let a := if a < 0 then -a - 1 else a
    normLoop 32 a 0

/-- `ia_core_coder_mult64_sat`, ia_core_coder_basic_ops40.h 380-395; `/` truncates, `MIN_64 / -1` does not occur
(the divisor is positive there). -/
def mult64Sat (a b : Int) : Res Int :=
  if a > 0 ∧ b > 0 ∧ a > MAX_64.tdiv b then .ok MAX_64
  else if a < 0 ∧ b > 0 ∧ a < MIN_64.tdiv b then .ok MIN_64
  else if a > 0 ∧ b < 0 ∧ b < MIN_64.tdiv a then .ok MIN_64
  else if a < 0 ∧ b < 0 ∧ a < MAX_64.tdiv b then .ok MAX_64
  else i64 (a * b)

/-- `ia_core_coder_add64_sat`, ia_core_coder_basic_ops40.h 397-406. -/
def add64Sat (a b : Int) : Res Int := do
  let result := if a < 0 then MIN_64 else MAX_64
  let comp ← i64 (result - a)
  if decide (a < 0) = decide (b > comp) then i64 (a + b) else .ok result

/-- `ia_core_coder_sat64_32`, ia_core_coder_basic_ops40.h 408-423. -/
def sat64To32 (a : Int) : Int :=
  if a ≥ MAX_32 then MAX_32 else if a ≤ MIN_32 then MIN_32 else toI32 a

/-- `ia_core_coder_sub64_sat`, ia_core_coder_basic_ops40.h 441-456; `(x ^ y) & MIN_64` tests whether the signs of
`x` and `y` differ. The subtraction comes first. -/
def sub64Sat (a b : Int) : Res Int := do
  let diff ← i64 (a - b)
  if decide (a < 0) ≠ decide (b < 0) then
    if decide (diff < 0) ≠ decide (a < 0) then
      .ok (if a < 0 then MIN_64 else MAX_64)
    else .ok diff
  else .ok diff

/-- `while (bit_set > num) bit_set >>= 2;` ia_core_coder_basic_ops40.h 474-477; runs for ever (`ub`) when `num` is
negative. `bit_set` is `2^(2k)`, `k` going 31, 30, ..., 0 and then `bit_set` is 0: the state is
`k + 1`, 0 standing for `bit_set = 0`. -/
def bitSet : Nat → Int
  | 0 => 0
  | k + 1 => 4 ^ k

/-- Skip loop. -/
def sqrtSkip (num : Int) : (k : Nat) → Res Nat
  | 0 => if bitSet 0 > num then .ub else .ok 0
  | k + 1 => if bitSet (k + 1) > num then sqrtSkip num k else .ok (k + 1)

/-- `while (bit_set)` loop, ia_core_coder_basic_ops40.h 478-487. -/
def sqrtLoop : (k : Nat) → (num value : Int) → Res Int
  | 0, _, value => .ok value
  | k + 1, num, value => do
    let bs := bitSet (k + 1)
    let t ← i64 (value + bs)
    if num ≥ t then do
      let num ← i64 (num - t)
      let v ← i64 (value + toI64 (bs * 2))
      sqrtLoop k num (v / 2)
    else sqrtLoop k num (value / 2)

/-- `ia_core_coder_rounded_sqrt64`, ia_core_coder_basic_ops40.h 469-494. -/
def roundedSqrt64 (pos : Int) : Res Int := do
  let k ← sqrtSkip pos 32
  let value ← sqrtLoop k pos 0
  let num ← i64 (value + 1)
  let sq1 ← i64 (num * num)
  let d1 ← i64 (sq1 - pos)
  let sq0 ← i64 (value * value)
  let d0 ← i64 (pos - sq0)
  if d1 < d0 then .ok num else .ok value

end Verif.Ops
