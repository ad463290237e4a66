import Verif.Model.BitBuf
import Verif.Spec.Bits

/-!
# Parser programs

The decoder's syntax parsers touch the input only through the routines of
`ia_core_coder_bitbuffer.c` (read, show, skip) and the public counter `cnt_bits`.  A parser is
modelled as a `Prog`, a tree of such requests, with two interpretations:

* `runC` executes the requests with the pointer code of `Model/BitBuf.lean`;
* `run` executes them on the list of remaining bits.

`Proofs/Prog.lean` shows that they agree whenever `run` is not `ub`.
-/

namespace Verif

/-- A parser program delivering a value of type `α`. -/
inductive Prog (α : Type) : Type
  /-- finish with a value -/
  | protected pure (a : α)
  /-- `ia_core_coder_read_bits_buf(buf, n)` -/
  | protected read (n : Nat) (k : Nat → Prog α)
  /-- `ia_core_coder_show_bits_buf(buf, n)` -/
  | protected peek (n : Nat) (k : Nat → Prog α)
  /-- `ia_core_coder_skip_bits_buf(buf, n)`; the count is a C `WORD` and may be negative -/
  | protected skip (n : Int) (k : Prog α)
  /-- the value of `cnt_bits` -/
  | protected left (k : Int → Prog α)
  /-- return an error code -/
  | protected err (c : ErrCode)
  /-- undefined behaviour in the parser itself -/
  | protected ub

namespace Prog

protected def bind {α β : Type} (p : Prog α) (f : α → Prog β) : Prog β :=
  match p with
  | .pure a => f a
  | .read n k => .read n (fun v => (k v).bind f)
  | .peek n k => .peek n (fun v => (k v).bind f)
  | .skip n k => .skip n (k.bind f)
  | .left k => .left (fun v => (k v).bind f)
  | .err c => .err c
  | .ub => .ub

instance : Monad Prog where
  pure := Prog.pure
  bind := Prog.bind

/-- Read an `n`-bit field. -/
def bits (n : Nat) : Prog Nat := .read n .pure
/-- Look at the next `n` bits. -/
def look (n : Nat) : Prog Nat := .peek n .pure
/-- Skip `n` bits. -/
def drop (n : Int) : Prog Unit := .skip n (.pure ())
/-- Number of bits left (`cnt_bits`). -/
def avail : Prog Int := .left .pure
/-- Read a one-bit flag. -/
def flag : Prog Bool := .read 1 (fun v => .pure (v != 0))
/-- Return an error. -/
def fail {α : Type} (c : ErrCode) : Prog α := .err c
/-- Undefined behaviour. -/
def undef {α : Type} : Prog α := .ub
/-- Embed a pure outcome (pure code never jumps on short input). -/
def lift {α : Type} : Res α → Prog α
  | .ok a => .pure a
  | .jump => .ub
  | .err c => .err c
  | .ub => .ub

/-- Interpretation by the pointer code. -/
def runC {α : Type} : Prog α → BitBuf → Res (α × BitBuf)
  | .pure a, s => .ok (a, s)
  | .read n k, s => match s.read n with
    | .ok (v, s') => runC (k v) s'
    | .jump => .jump
    | .err c => .err c
    | .ub => .ub
  | .peek n k, s => match s.peek n with
    | .ok v => runC (k v) s
    | .jump => .jump
    | .err c => .err c
    | .ub => .ub
  | .skip n k, s => match s.skip n with
    | .ok s' => runC k s'
    | .jump => .jump
    | .err c => .err c
    | .ub => .ub
  | .left k, s => runC (k s.cnt) s
  | .err c, _ => .err c
  | .ub, _ => .ub

/-- Interpretation on the list of remaining bits. Fields wider than 24 bits and backward
skips, whose effect depends on more than the remaining bits, count as `ub`. -/
def run {α : Type} : Prog α → List Bool → Res (α × List Bool)
  | .pure a, l => .ok (a, l)
  | .read n k, l =>
    if l.length < n then .jump
    else if 24 < n then .ub
    else run (k (bitsVal (l.take n))) (l.drop n)
  | .peek n k, l =>
    if l.length < n then .jump
    else if 24 < n then .ub
    else run (k (bitsVal (l.take n))) l
  | .skip n k, l =>
    if n < 0 then .ub
    else if (l.length : Int) < n then .jump
    else run k (l.drop n.toNat)
  | .left k, l => run (k l.length) l
  | .err c, _ => .err c
  | .ub, _ => .ub

end Prog
end Verif
