import Verif.Spec.BitStream

/-!
# Histories of requests to the bit reader

`serve` runs a history against the pointer code, `answer` is the independent
specification on the list of remaining bits.
-/

namespace Verif

/-- A request to the bit reader. -/
inductive Req
  | read (n : Nat)
  | peek (n : Nat)
  | skip (n : Nat)
  deriving DecidableEq, Repr

/-- What the requester sees. -/
inductive Ans
  /-- a value was returned -/
  | value (v : Nat)
  /-- the skip succeeded -/
  | done
  /-- insufficient input -/
  | short
  /-- undefined behaviour (memory outside the buffer, bad shift), or any other error -/
  | broken
  deriving DecidableEq, Repr

/-- Number of bits a request is about. -/
def Req.width : Req → Nat
  | .read n => n
  | .peek n => n
  | .skip n => n

/-- Requests the decoder's parsers make: fields of at most 24 bits, any skip. -/
def Req.small : Req → Prop
  | .read n => n ≤ 24
  | .peek n => n ≤ 24
  | .skip _ => True

namespace BitBuf

/-- One request against the pointer code. A failing request leaves the state as the C code
leaves it: the check of the bit count comes before any store (ia_core_coder_bitbuffer.c 69-71, 113-117,
164-168), and a skip by a count that is not negative passes the second check of a skip. -/
def serve1 (s : BitBuf) : Req → Ans × BitBuf
  | .read n => match s.read n with
    | .ok (v, s') => (.value v, s')
    | .jump => (.short, s)
    | _ => (.broken, s)
  | .peek n => match s.peek n with
    | .ok v => (.value v, s)
    | .jump => (.short, s)
    | _ => (.broken, s)
  | .skip n => match s.skip n with
    | .ok s' => (.done, s')
    | .jump => (.short, s)
    | _ => (.broken, s)

/-- A history of requests against the pointer code. -/
def serve (s : BitBuf) : List Req → List Ans
  | [] => []
  | r :: rs => (s.serve1 r).1 :: serve (s.serve1 r).2 rs

end BitBuf

/-- Specification: the same history on the list of remaining bits. -/
def answer (bits : List Bool) : List Req → List Ans
  | [] => []
  | .read n :: rs =>
    if bits.length < n then .short :: answer bits rs
    else .value (bitsVal (bits.take n)) :: answer (bits.drop n) rs
  | .peek n :: rs =>
    if bits.length < n then .short :: answer bits rs
    else .value (bitsVal (bits.take n)) :: answer bits rs
  | .skip n :: rs =>
    if bits.length < n then .short :: answer bits rs
    else .done :: answer (bits.drop n) rs

end Verif
