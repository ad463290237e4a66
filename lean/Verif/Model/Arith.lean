import Verif.Model.ArithTables
import Verif.Model.Loop
import Verif.Model.Ops

/-!
# The arithmetic decoder

`/repo/decoder/ia_core_coder_arith_dec.c`.  All integers are `WORD32`; every operation whose
exact result could leave that range goes through `Ops.i32` and is undefined if it does.
The loops whose exit depends on data (`for (;;)`, `while`) carry a counter; running out of it
counts as `ub` as well, so that a proof of "not `ub`" includes termination.  The escape loop of
the spectrum has no constant bound; its counter is an argument and running out of it is the
separate outcome `stillRunning`.
-/

namespace Verif.Arith

open Prog

/-- `ia_state_arith`, ia_core_coder_arith_dec.h 41-46: the three registers. -/
structure St where
  low : Int
  high : Int
  value : Int
  deriving DecidableEq, Repr

/-- `WORD32` arithmetic inside a parser. -/
def w32 (x : Int) : Prog Int := lift (Ops.i32 x)

/-- `ia_core_coder_arith_first_symbol`, ia_core_coder_arith_dec.c 134-153; the bit count returned is 16. -/
def firstSymbol : Prog St := do
  let c ← avail
  if 16 ≤ c then do
    let v ← bits 16
    pure ⟨0, 65535, v⟩
  else do
    let v ← bits c.toNat
    let v ← w32 (v * 2 ^ (16 - c).toNat)
    pure ⟨0, 65535, v⟩

/-- The loop of `ia_core_coder_arith_get_pk`, ia_core_coder_arith_dec.c 171-188. -/
def getPkLoop (c : Nat) : (fuel : Nat) → (idxMin idxMax : Int) → Res Nat
  | 0, _, _ => .ub
  | fuel + 1, idxMin, idxMax =>
    if 1 < idxMax - idxMin then
      let idx := idxMin + (idxMax - idxMin) / 2
      if idx < 0 then .ub
      else match hashM[idx.toNat]? with
        | none => .ub
        | some j =>
          if j < c then getPkLoop c fuel idx idxMax
          else if c < j then getPkLoop c fuel idxMin idx
          else match hashM1[idx.toNat]? with
            | none => .ub
            | some v => .ok v
    else if idxMax < 0 then .ub
    else match lookupM[idxMax.toNat]? with
      | none => .ub
      | some v => .ok v

/-- `ia_core_coder_arith_get_pk`, ia_core_coder_arith_dec.c 165-189. -/
def getPk (c : Nat) : Res Nat := getPkLoop c 742 (-1) (742 - 1)

/-- The symbol search of `ia_core_coder_arith_decode`, ia_core_coder_arith_dec.c 226-239: `p` is the pointer
as an index relative to `cum_freq`. -/
def search (tbl : List Nat) (cum : Int) : (fuel : Nat) → (p : Int) → (cfl : Nat) → Res Int
  | 0, _, _ => .ub
  | fuel + 1, p, cfl =>
    let q := p + (cfl / 2 : Nat)
    if q < 0 then .ub
    else match tbl[q.toNat]? with
      | none => .ub
      | some v =>
        let p' := if cum < (v : Int) then q else p
        let cfl' := (if cum < (v : Int) then cfl + 1 else cfl) / 2
        if 1 < cfl' then search tbl cum fuel p' cfl' else .ok p'

/-- One bit of the input, 0 when there is none, ia_core_coder_arith_dec.c 272-279. -/
def nextBit : Prog Int := do
  let c ← avail
  if c ≤ 0 then pure 0 else do
    let b ← bits 1
    pure b

/-- The doubling at the end of the renormalisation loop, ia_core_coder_arith_dec.c 255-279, after `off` has
been subtracted from the three registers; `(value << 1) | bit` is a sum because the last bit of
`value << 1` is 0. -/
def shift (s : St) (off : Int) : Prog St := do
  let v ← w32 (s.value - off)
  let l ← w32 (s.low - off)
  let h ← w32 (s.high - off)
  let h ← w32 (h + (h + 1))
  let l ← w32 (l + l)
  let b ← nextBit
  let v ← w32 (2 * v + b)
  pure ⟨l, h, v⟩

/-- The renormalisation loop of `ia_core_coder_arith_decode`, ia_core_coder_arith_dec.c 248-281. -/
def renorm : (fuel : Nat) → St → (bitCount : Int) → Prog (St × Int)
  | 0, _, _ => undef
  | fuel + 1, s, bc =>
    if s.high < 32768 then do
      let s ← shift s 0
      let bc ← w32 (bc + 1)
      renorm fuel s bc
    else if 32768 ≤ s.low then do
      let s ← shift s 32768
      let bc ← w32 (bc + 1)
      renorm fuel s bc
    else if 16384 ≤ s.low ∧ s.high < 49152 then do
      let s ← shift s 16384
      let bc ← w32 (bc + 1)
      renorm fuel s bc
    else pure (s, bc)

/-- `ia_core_coder_arith_decode`, ia_core_coder_arith_dec.c 207-288.  `none` stands for `INVALID_BIT_COUNT`
(the state and `*m` keep their values); otherwise the symbol, the state and the bit count. -/
def decode (tbl : List Nat) (cfl : Nat) (s : St) (bc : Int) : Prog (Option (Nat × St × Int)) := do
  let range ← w32 (s.high - s.low + 1)
  let d ← w32 (s.value - s.low + 1)
  let d ← w32 (d * 16384)
  let d ← w32 (d - 1)
  if range = 0 then undef else do
  let cum ← w32 (d.tdiv range)
  let cnt ← avail
  if cnt = 0 ∧ cum ≤ 0 then pure none else do
  let p ← lift (search tbl cum (cfl + 1) (-1) cfl)
  let symbol := (p + 1).toNat
  let high ← (if symbol ≠ 0 then do
      let f ← getAt tbl (symbol - 1)
      let x ← w32 (range * f)
      w32 (s.low + x / 16384 - 1)
    else pure s.high)
  let f ← getAt tbl symbol
  let x ← w32 (range * f)
  let low ← w32 (s.low + x / 16384)
  let r ← renorm 17 ⟨low, high, s.value⟩ bc
  pure (some (symbol, r.1, r.2))

/-- `ia_core_coder_arith_get_context`, ia_core_coder_arith_dec.c 303-321: `q1 = c_prev[1]` and
`p1, p2, p3 = c_pres[-1], c_pres[-2], c_pres[-3]`; returns the context and the new `*c_val`.
`x & 0xFFF0` is written with remainders of two's complement numbers. -/
def getContext (q1 p1 p2 p3 c i : Int) : Int × Int :=
  let c := c / 16
  let c := c + q1 * 4096
  let c := (c % 65536 - c % 16) + p1
  if 3 < i ∧ p1 + p2 + p3 < 5 then (c + 65536, c) else (c, c)

/-- Not an error of the decoder: the loop counter of the model ran out, the loop is still going. -/
def stillRunning : ErrCode := .other 0

/-- The escape loop of `ia_core_coder_arth_decoding_level2`, ia_core_coder_arith_dec.c 368-388: the symbol, the
number of escapes, the state and the bit count. -/
def escLoop (s1 : Int) : (fuel lev : Nat) → St → Int → Prog (Nat × Nat × St × Int)
  | 0, _, _, _ => fail stillRunning
  | fuel + 1, lev, st, bc => do
    let off ← getAt escNbOffset (min lev 7)
    let pki ← lift (getPk ((s1 + off) % 4294967296).toNat)
    let tbl ← getAt cfM pki
    let r ← decode tbl 17 st bc
    match r with
    | none => fail .arithDecodeFailed
    | some (m, st, bc) => if m < 16 then pure (m, lev, st, bc) else escLoop s1 fuel (lev + 1) st bc

/-- `if (a > (MAX_32 >> 1)) a = MAX_32; else a = (a << 1) | bit`, ia_core_coder_arith_dec.c 404-420. -/
def addBit (a bit : Int) : Int := if 1073741823 < a then 2147483647 else 2 * a + bit

/-- The loop over the least significant bits, ia_core_coder_arith_dec.c 395-421. -/
def lsbLoop : (k : Nat) → (a b : Int) → St → Int → Prog (Int × Int × St × Int)
  | 0, a, b, st, bc => pure (a, b, st, bc)
  | k + 1, a, b, st, bc => do
    let tbl ← getAt cfR (if a = 0 then 1 else if b = 0 then 0 else 2)
    let r ← decode tbl 4 st bc
    match r with
    | none => fail .arithDecodeFailed
    | some (m, st, bc) =>
      lsbLoop k (addBit a (m % 2 : Nat)) (addBit b (m / 2 % 2 : Nat)) st bc

/-- The variables of the tuple loop of `ia_core_coder_arth_decoding_level2`; `cPres` and `quant`
are the arrays the arguments point into, starting at the pointer minus 2 for `cPres`. -/
structure Tup where
  cPres : List Int
  quant : List Int
  c : Int
  st : St
  bc : Int
  deriving DecidableEq, Repr

/-- `c_pres[i]` of a tuple, ia_core_coder_arith_dec.c 425-437. -/
def neighbour (a b : Int) : Prog Int := do
  let temp ← (if 1073741823 < a ∧ 1073741823 < b then pure 2147483647 else do
    let t ← w32 (a + b)
    w32 (t + 1))
  pure (if 15 < temp then 15 else toI8 temp)

/-- The tuple loop of `ia_core_coder_arth_decoding_level2`, ia_core_coder_arith_dec.c 364-449, from index `i`
with `k` tuples to go; `cPrev` starts at the pointer minus 2. -/
def tuples (fuel : Nat) (cPrev : List Int) : (k i : Nat) → Tup → Prog Tup
  | 0, _, t => pure t
  | k + 1, i, t => do
    let q1 ← getAt cPrev (i + 3)
    let p1 ← getAt t.cPres (i + 1)
    let p2 ← getAt t.cPres i
    let p3 ← (if 3 < i then getAt t.cPres (i - 1) else pure 0)
    let (s1, c) := getContext q1 p1 p2 p3 t.c i
    let (m, lev, st, bc) ← escLoop s1 fuel 0 t.st t.bc
    if m ≠ 0 then do
      let (a, b, st, bc) ← lsbLoop lev (m % 4 : Nat) (m / 4 : Nat) st bc
      let q ← setAt t.quant (2 * i) a
      let q ← setAt q (2 * i + 1) b
      let v ← neighbour a b
      let cp ← setAt t.cPres (i + 2) v
      tuples fuel cPrev k (i + 1) ⟨cp, q, c, st, bc⟩
    else if 0 < lev then pure ⟨t.cPres, t.quant, c, st, bc⟩
    else do
      let q ← setAt t.quant (2 * i) 0
      let q ← setAt q (2 * i + 1) 0
      let cp ← setAt t.cPres (i + 2) 1
      tuples fuel cPrev k (i + 1) ⟨cp, q, c, st, bc⟩

/-- The copy at the start of `ia_core_coder_arth_decoding_level2`, ia_core_coder_arith_dec.c 355-359:
`presN` entries of `c_pres` go to `c_prev` and become 1. -/
def rollContext (cPrev cPres : List Int) (presN : Nat) : List Int × List Int :=
  (cPrev.take 2 ++ (cPres.drop 2).take presN ++ cPrev.drop (2 + presN),
   cPres.take 2 ++ List.replicate presN 1 ++ cPres.drop (2 + presN))

/-- The arithmetic decoding part of `ia_core_coder_arth_decoding_level2`, ia_core_coder_arith_dec.c 351-449,
executed on a copy of the bit buffer.  The arrays hold 516 entries from the pointer minus 2. -/
def level2Arith (fuel n presN : Nat) (cPrev cPres quant : List Int) : Prog (List Int × Tup) := do
  if cPrev.length < 2 + presN ∨ cPres.length < 2 + presN then undef else do
  let (cPrev, cPres) := rollContext cPrev cPres presN
  let st ← firstSymbol
  let q0 ← getAt cPrev 2
  let t ← tuples fuel cPrev n 0 ⟨cPres, quant, q0 * 4096, st, 16⟩
  pure (cPrev, t)

/-- The sign of a value, ia_core_coder_arith_dec.c 466-480 and 482-496. -/
def applySign (t0 : Int) : Prog Int :=
  if t0 ≠ 0 then do
    let m ← bits 1
    if 1073741823 < (m : Int) ∨ t0 = 2147483647 then w32 (2147483647 - 2147483647)
    else do
      let x ← lift (Ops.shl32Sat m 1)
      let x ← lift (Ops.mul32ShSat x t0 0)
      w32 (x - t0)
  else pure t0

/-- The sign loop, ia_core_coder_arith_dec.c 462-499. -/
def signs : (k : Nat) → List Int → Prog (List Int)
  | 0, q => pure q
  | k + 1, a :: b :: q => do
    let a ← applySign a
    let b ← applySign b
    let q ← signs k q
    pure (a :: b :: q)
  | _ + 1, _ => undef

/-- The rest of `ia_core_coder_arth_decoding_level2`, ia_core_coder_arith_dec.c 451-500, executed on the
original bit buffer.  `(x >> 5) * 32 + (x & 31)` is `x`. -/
def level2Signs (presN : Nat) (bc : Int) (quant : List Int) : Prog (List Int) := do
  let bc ← w32 (bc - 14)
  let cnt ← avail
  if cnt < bc then fail (.other 0x1800) else do
  if 0 < bc then drop bc else pure ()
  signs presN quant

/-- `ia_core_coder_arth_decoding_level2`, ia_core_coder_arith_dec.c 338-501, on the list of remaining bits:
the new `c_prev`, `c_pres` and `quant`. -/
def level2 (fuel n presN : Nat) (cPrev cPres quant : List Int) (l : List Bool) :
    Res ((List Int × List Int × List Int) × List Bool) := do
  let r ← run (level2Arith fuel n presN cPrev cPres quant) l
  let q ← run (level2Signs presN r.1.2.bc r.1.2.quant) l
  pure ((r.1.1, r.1.2.cPres, q.1), q.2)

/-- The same on the pointer representation of the bit buffer. -/
def level2C (fuel n presN : Nat) (cPrev cPres quant : List Int) (s : BitBuf) :
    Res ((List Int × List Int × List Int) × BitBuf) := do
  let r ← runC (level2Arith fuel n presN cPrev cPres quant) s
  let q ← runC (level2Signs presN r.1.2.bc r.1.2.quant) s
  pure ((r.1.1, r.1.2.cPres, q.1), q.2)

end Verif.Arith
