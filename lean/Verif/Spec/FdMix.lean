import Verif.Model.FdMix

/-! # Stereo processing: what is meant -/

namespace Verif.FdMix

/-- Bin `i` belongs to band `b` of a window of group `g`: windows follow each other, bands follow each other in a window. -/
def At (lens ws : List Nat) (i g b : Nat) : Prop :=
  ∃ len w j k, lens[g]? = some len ∧ j < len ∧ ws[b]? = some w ∧ k < w ∧ i = ((lens.take g).sum + j) * ws.sum + (ws.take b).sum + k

/-- Indices outside a window of `len` bins are mirrored at its borders. -/
def mirror (len : Nat) (m : Int) : Nat := if m < 0 then (-1 - m).toNat else if (len : Int) ≤ m then (2 * len - 1 - m).toNat else m.toNat

/-- A filter with seven taps around bin `k`; the first coefficient belongs to the highest bin. -/
def fir (f x : Nat → ℚ) (len k : Nat) : ℚ :=
  ((List.range 7).map fun j => f j * x (mirror len (k + 3 - j))).sum

/-- Sign of the filtered window before at bin `k`. -/
def sign (k : Nat) : ℚ := if k % 2 = 0 then -1 else 1

/-- The estimated imaginary part in bin `k` of window `w` from the windows `win`, with the window before the first one, if there is one. -/
def imag (cur last : Nat → ℚ) (width : Nat) (win : Nat → Nat → ℚ) : (prev : Option (Nat → ℚ)) → (w k : Nat) → ℚ
  | none, 0, k => fir cur (win 0) width k
  | some p, 0, k => fir cur (win 0) width k + sign k * fir last p width k
  | _, w + 1, k => fir cur (win (w + 1)) width k + sign k * fir last (win w) width k

/-- Middle and side. -/
def mid (x : ℚ × ℚ) : ℚ := (x.1 + x.2) / 2
/-- See `mid`. -/
def side (x : ℚ × ℚ) : ℚ := (x.1 - x.2) / 2

/-- The channel that is coded and predicts the other: the middle, or the side if the direction is set. -/
def basis (dir : Bool) (x : ℚ × ℚ) : ℚ := if dir then side x else mid x
/-- The channel that is predicted. -/
def other (dir : Bool) (x : ℚ × ℚ) : ℚ := if dir then mid x else side x

/-- `y` is what an encoder makes from the spectra `x`: where prediction is used, the basis and the rest of the other channel that is left when the
prediction (tenths of the coefficients times real and imaginary part of the basis) has been taken away, with the sign that the decoder removes
the prediction again; elsewhere `x` itself. -/
def Encoded (u : Up) (x y : Nat → ℚ × ℚ) : Prop :=
  ∀ i g b, At u.lens u.ws i g b →
    y i = if u.used g b = 0 then x i else
      (basis u.dir (x i), other u.dir (x i) + u.re g b / 10 * basis u.dir (x i) +
        if u.complex = true then
          u.im g b / 10 * imag u.cur u.last u.width (fun w k => basis u.dir (x (w * u.width + k))) u.prev (i / u.width) (i % u.width)
        else 0)

end Verif.FdMix
