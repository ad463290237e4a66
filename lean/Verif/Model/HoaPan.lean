import Mathlib.Data.Matrix.Mul
import Mathlib.Data.Matrix.Diagonal
import Verif.Model.HoaPos

/-! # Robust panning of the HOA renderer

`impeghd_hoa_robust_pan.c` 82-508

Single- and double-precision numbers are reals and rounding is not modelled. Matrices are those of Mathlib,
and the products of `impeghd_hoa_ren_simple_mtrx_mult` (`mult` of `Model/HoaPerm.lean`) and
`impeghd_hoa_ren_simple_mtrx_transpose_keep` are its products and transposes. The pseudo-inverse
(`svdInit` and `pinv` of `Model/HoaSvd.lean`) is a parameter. Sizes of arrays are not modelled. -/

namespace Verif.HoaPan

open Verif.HoaPos Matrix

/-- `ia_render_hoa_robust_pan_str`, impeghd_hoa_robust_pan.h 41-55, without the gains; `hr` and `hi` are
`sm_hml_r` and `sm_hml_i`, microphone first. -/
structure Pan where
  clip : Bool
  cart : Pos
  sp : Pos
  mic : Pos
  maxInc : ℝ
  minInc : ℝ
  k : ℝ
  hr : ℕ → ℕ → ℝ
  hi : ℕ → ℕ → ℝ

/-- `imag`, impeghd_hoa_robust_pan.c 130-145 and 317-329 -/
noncomputable def phase (k : ℝ) (m p : ℝ × ℝ × ℝ) : ℝ :=
  (m.2.2 * p.2.2 + (m.2.1 * p.2.1 + m.1 * p.1)) * k

/-- `ia_render_hoa_robust_pan_init`, impeghd_hoa_robust_pan.c 82-153; `theta` and `phi` are the angles
of the 256 microphones in the tables `ia_hoa_spk_incl_m1_theta` and `ia_hoa_spk_azimuth_m1_phi`. -/
noncomputable def init (theta phi : ℕ → ℝ) (clip : Bool) (cart : Pos) (maxInc minInc k radius : ℝ) : Res Pan :=
  (toSph cart).bind fun sp =>
  let radius := if radius = 0 then (Real.sqrt cart.n - 1) / k * 0.4667 else radius
  (toCart ⟨1, 256, fun i => (radius, theta i, phi i)⟩ false).bind fun mic =>
  .ok ⟨clip, cart, sp, mic, maxInc, minInc, k,
    fun s l => Real.cos (phase k (mic.at_ s) (cart.at_ l)),
    fun s l => Real.sin (phase k (mic.at_ s) (cart.at_ l))⟩

/-- `ia_render_hoa_robust_pan_init_with_spc_positions`, impeghd_hoa_robust_pan.c 171-234, for positions of
the types 1 and 2, for which the conversions, whose errors are ignored, have none. `is_2d` is not read
anywhere. -/
noncomputable def initSpc (theta phi : ℕ → ℝ) (spc : Pos) (freq radius : ℝ) (clip : Bool) : Res Pan :=
  let k := 2 * (Real.pi * (freq / 340))
  (toSph spc).bind fun sp =>
  (toCart spc true).bind fun c =>
  let inc := if spc.type ≠ 1 then maxMin sp else maxMin spc
  init theta phi clip (initPos c) inc.1 inc.2 k radius

/-- The height of the source is clipped, impeghd_hoa_robust_pan.c 272-281 -/
noncomputable def clipSrc (p : Pan) (a : Pos) : Pos :=
  if p.clip then ⟨a.type, a.n, fun i => ((a.at_ i).1, min (max (a.at_ i).2.1 p.minInc) p.maxInc, (a.at_ i).2.2)⟩
  else a

/-- One element of the diagonal of `bb`, impeghd_hoa_robust_pan.c 337-350; `l` is the position of the
loudspeaker, `s` that of the source. -/
noncomputable def weight (beta : ℝ) (l s : ℝ × ℝ × ℝ) : ℝ :=
  let cg := Real.cos (s.2.2 - l.2.2) * Real.sin l.2.1 * Real.sin s.2.1 + Real.cos l.2.1 * Real.cos s.2.1
  let tmp := 0.5 + 0.5 * cg
  let tmp := 1 - tmp * tmp
  let tmp := tmp * tmp
  tmp * beta

/-- The gains of one source, impeghd_hoa_robust_pan.c 352-483: `hr` and `hi` are `sm_hml_r` and `sm_hml_i`,
`sr` and `si` are `hms_r` and `hms_i`, `bb` is the diagonal of `bb`. -/
noncomputable def solve {m n : ℕ} (inv : Matrix (Fin n) (Fin n) ℝ → Matrix (Fin n) (Fin n) ℝ)
    (hr hi : Matrix (Fin m) (Fin n) ℝ) (sr si : Fin m → ℝ) (bb : Fin n → ℝ) : Fin n → ℝ :=
  let a2 := hiᵀ * hi
  let a1 := hrᵀ * hr
  let a := diagonal bb + (a2 + a1)
  let c2 := hiᵀ * hr
  let c1 := hrᵀ * hi
  let c := c1 - c2
  let b := hrᵀ *ᵥ sr + hiᵀ *ᵥ si
  let d := hrᵀ *ᵥ si - hiᵀ *ᵥ sr
  let r0 := inv a * c
  let t := a + c * r0
  let y00 := inv t
  let y01 := r0 * y00
  y00 *ᵥ b + y01 *ᵥ d

/-- The source `s` of `ia_render_hoa_robust_pan_calculate_gains_pre` with `is_norm` 0,
impeghd_hoa_robust_pan.c 251-508: the gain of each loudspeaker. -/
noncomputable def gains (inv : (n : ℕ) → Matrix (Fin n) (Fin n) ℝ → Matrix (Fin n) (Fin n) ℝ) (p : Pan) (src : Pos)
    (beta : ℝ) (s : ℕ) : Res (Fin p.sp.n → ℝ) :=
  (toSph src).bind fun sp0 =>
  let sp := clipSrc p sp0
  (toCart sp true).bind fun ca =>
  .ok (solve (m := 256) (inv p.sp.n) (fun i l => p.hr i l) (fun i l => p.hi i l)
    (fun i => Real.cos (phase p.k (p.mic.at_ i) (ca.at_ s)))
    (fun i => Real.sin (phase p.k (p.mic.at_ i) (ca.at_ s)))
    (fun l => weight beta (p.sp.at_ l) (sp.at_ s)))

open Classical in
/-- The normalisation of the gains with `is_norm` 1, impeghd_hoa_robust_pan.c 485-503; `none`: not numbers, as
0 is multiplied by infinity. -/
noncomputable def normGains {n : ℕ} (g : Fin n → ℝ) : Option (Fin n → ℝ) :=
  let g' : Fin n → ℝ := fun l => if g l < 1 / 1000000 then 0 else g l
  let gn := ∑ l, g' l * g' l
  if gn = 0 ∧ 0 < n then none else some fun l => g' l * (1 / Real.sqrt gn)

end Verif.HoaPan
