import Verif.Model.Huff

/-! # How scale factors are coded

Each group of windows has one scale factor per coded band.  The first one of all is the global gain; every other one is coded as the
difference from the one before it, in the order of the groups and bands. -/

namespace Verif.Scf

open Huff (Code sclTable)

/-- The codeword of a difference. -/
def diffCode (d : Int) : List Bool :=
  match sclTable.find? fun c => decide (c.val = d + 60) with
  | some c => natBits c.size c.code
  | none => []

/-- The codewords of a sequence of scale factors after `prev`. -/
def diffs : (prev : Int) → List Int → List Bool
  | _, [] => []
  | prev, x :: xs => diffCode (x - prev) ++ diffs x xs

/-- A sequence of scale factors after `prev` that can be coded: differences of at most 60, no scale factor above 255. -/
def Codable : (prev : Int) → List Int → Prop
  | _, [] => True
  | prev, x :: xs => -60 ≤ x - prev ∧ x - prev ≤ 60 ∧ x ≤ 255 ∧ -32768 ≤ x ∧ Codable x xs

/-- What is stored: the row of each group for each of its windows, zeros in the bands that are not coded. -/
def stored (bands : Nat) : (lens : List Nat) → (rows : List (List Int)) → List (List Int)
  | n :: lens, r :: rows => List.replicate n (r ++ List.replicate (bands - r.length) 0) ++ stored bands lens rows
  | _, _ => []

/-- The ends of groups of given lengths. -/
def groupEnds : (start : Nat) → List Nat → List Nat
  | _, [] => []
  | start, n :: lens => (start + n) :: groupEnds (start + n) lens

end Verif.Scf
