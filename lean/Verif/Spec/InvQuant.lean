import Verif.Model.InvQuant

/-! # What the lines of a spectrum are to be -/

namespace Verif.Spec.InvQuant

open Verif.InvQuant (Cfg)

/-- Line `i` is in band `b`, which starts at `lo`. -/
def InBand (ends : List Nat) (b lo i : Nat) : Prop :=
  ((b = 0 ∧ lo = 0) ∨ (b ≠ 0 ∧ ends[b - 1]? = some lo)) ∧ lo ≤ i ∧ ∃ hi, ends[b]? = some hi ∧ i < hi

/-- Window `w` is in the group that starts with window `first` and has `len` windows. -/
def InGroup (lens : List Nat) (w first len : Nat) : Prop :=
  ∃ g, lens[g]? = some len ∧ first = (lens.take g).sum ∧ first ≤ w ∧ w < first + len

/-- All lines of the band are 0 in all windows of the group. -/
def Zero (ends : List Nat) (q : Nat → Nat → Int) (b first len : Nat) : Prop :=
  ∀ w lo i, first ≤ w → w < first + len → InBand ends b lo i → q w i = 0

/-- The exponent of a band in quarters. -/
def Exponent (c : Cfg) (factors q : Nat → Nat → Int) (b first len : Nat) (x : Int) : Prop :=
  (c.noise = true → Zero c.ends q b first len → x = factors first b - 100 + (c.level % 32 : Nat) - 16) ∧
  (¬ (c.noise = true ∧ Zero c.ends q b first len) → x = factors first b - 100)

/-- The value of a line in a coded band that starts at line `lo`. -/
def Value (c : Cfg) (factors q : Nat → Nat → Int) (b lo first len : Nat) (q0 : Int) (v : ℚ) : Prop :=
  ∃ x, Exponent c factors q b first len x ∧
    (0 < q0 → v = c.iq (min q0.toNat 8191) * c.pw x) ∧
    (q0 < 0 → v = -c.iq (min (-q0).toNat 8191) * c.pw x) ∧
    (q0 = 0 → c.noise = true → (if c.long then 160 else 20) ≤ lo → b < c.maxNoise →
      v = c.nl (c.level / 32) * c.pw x ∨ v = -c.nl (c.level / 32) * c.pw x) ∧
    (q0 = 0 → ¬ (c.noise = true ∧ (if c.long then 160 else 20) ≤ lo ∧ b < c.maxNoise) → v = c.iq 0 * c.pw x)

end Verif.Spec.InvQuant
