import Mathlib.Algebra.BigOperators.Group.List.Basic
import Mathlib.Algebra.Order.Ring.Int

/-! # The lattice RE8 and its codes -/

namespace Verif.Avq

/-- The points of RE8: eight integers, all even or all odd, whose sum is a multiple of 4. -/
def Lattice (x : List Int) : Prop :=
  x.length = 8 ∧ ((∀ a ∈ x, a % 2 = 0) ∨ ∀ a ∈ x, a % 2 = 1) ∧ x.sum % 4 = 0

/-- The square of the distance of two points. -/
def dist (x y : List Int) : Int := ((List.range 8).map fun i => (x.getD i 0 - y.getD i 0) ^ 2).sum

/-- The number of bits of each Voronoi index of codebook `qn`. -/
def extension (qn : Nat) : Nat := if 4 < qn then (qn - 3) / 2 else 0

/-- The number of the base codebook of codebook `qn`. -/
def baseNumber (qn : Nat) : Nat := qn - 2 * extension qn

/-- A code of codebook `qn`: an index of four bits for each unit of the base number and eight Voronoi indices. -/
structure IsCode (qn c : Nat) (kv : List Int) : Prop where
  index : c < 16 ^ baseNumber qn
  length : kv.length = 8
  range : ∀ k ∈ kv, 0 ≤ k ∧ k < 2 ^ extension qn

/-- The point of Voronoi indices `kv`, before it is moved to the middle: `kv` in the basis of the lattice. -/
def combine (kv : List Int) : List Int :=
  let k := fun i => kv.getD i 0
  [4 * k 0 + 2 * (k 1 + k 2 + k 3 + k 4 + k 5 + k 6) + k 7, 2 * k 1 + k 7, 2 * k 2 + k 7, 2 * k 3 + k 7, 2 * k 4 + k 7,
    2 * k 5 + k 7, 2 * k 6 + k 7, k 7]

/-- `a - m b` for points `a` and `b`. -/
def reduce (a : List Int) (m : Int) (b : List Int) : List Int := (List.range 8).map fun i => a.getD i 0 - m * b.getD i 0

/-- `m b + r` for points `b` and `r`. -/
def extend (m : Int) (b r : List Int) : List Int := (List.range 8).map fun i => m * b.getD i 0 + r.getD i 0

/-- The middle of the Voronoi regions. -/
def middle : List Int := [2, 0, 0, 0, 0, 0, 0, 0]

/-- `r` is `y` less `m` times a point of the lattice, and no other choice of the point is nearer to the middle. -/
def Nearest (m : Int) (y r : List Int) : Prop :=
  (∃ v, Lattice v ∧ r = reduce y m v) ∧ ∀ u, Lattice u → dist r middle ≤ dist (reduce y m u) middle

end Verif.Avq
