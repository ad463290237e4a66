import Mathlib.Data.Complex.BigOperators
import Mathlib.LinearAlgebra.Matrix.ConjTranspose
import Mathlib.LinearAlgebra.Matrix.ToLin
import Mathlib.LinearAlgebra.Matrix.NonsingularInverse
import Verif.Props.HoaPos
import Verif.Model.HoaPan

/-!
# Robust panning of the HOA renderer

What the loudspeakers make at 256 microphones on a sphere is to be what a plane wave makes there.
-/

namespace Verif.Props.HoaPan

open Verif Verif.HoaPos Verif.HoaPan Matrix
open Verif.Props.HoaPos (Same Range)

/-! ## Specification -/

/-- The unit vector of an inclination and an azimuth. -/
noncomputable def dir (t f : ℝ) : ℝ × ℝ × ℝ := (Real.sin t * Real.cos f, Real.sin t * Real.sin f, Real.cos t)

def dot (a b : ℝ × ℝ × ℝ) : ℝ := a.1 * b.1 + a.2.1 * b.2.1 + a.2.2 * b.2.2

/-- A plane wave with the wave number `k` from direction `e` at distance `r` in direction `d`. -/
noncomputable def wave (k r : ℝ) (d e : ℝ × ℝ × ℝ) : ℂ := Complex.exp ((k * (r * dot d e) : ℝ) * Complex.I)

/-- The wave number at a frequency, at 340 m/s. -/
noncomputable def wavenum (freq : ℝ) : ℝ := 2 * Real.pi * freq / 340

/-- The radius of the sphere of microphones. -/
noncomputable def sphere (k : ℝ) (n : ℕ) (radius : ℝ) : ℝ :=
  if radius = 0 then 0.4667 * (Real.sqrt n - 1) / k else radius

/-! ## Microphones -/

theorem phase_eq (k : ℝ) (m p : ℝ × ℝ × ℝ) : phase k m p = k * dot m p := by
  unfold phase dot; ring

theorem cos_add_sin (x : ℝ) : ((Real.cos x : ℝ) : ℂ) + (Real.sin x : ℝ) * Complex.I = Complex.exp (x * Complex.I) := by
  rw [Complex.exp_mul_I, Complex.ofReal_cos, Complex.ofReal_sin]

/-- What is set up for loudspeakers that are given by distance and angles. -/
structure Setup (theta phi : ℕ → ℝ) (spc : Pos) (freq radius : ℝ) (clip : Bool) (p : Pan) : Prop where
  clip : p.clip = clip
  n : p.sp.n = spc.n
  k : p.k = wavenum freq
  sp : ∀ l < spc.n, dir (p.sp.at_ l).2.1 (p.sp.at_ l).2.2 = dir (spc.at_ l).2.1 (spc.at_ l).2.2
  mic : ∀ s < 256, ∀ e, p.k * dot (p.mic.at_ s) e =
    wavenum freq * (sphere (wavenum freq) spc.n radius * dot (dir (theta s) (phi s)) e)
  h : ∀ s < 256, ∀ l < spc.n, (p.hr s l : ℂ) + p.hi s l * Complex.I =
    wave (wavenum freq) (sphere (wavenum freq) spc.n radius) (dir (theta s) (phi s))
      (dir (spc.at_ l).2.1 (spc.at_ l).2.2)

theorem initSpc_spec (theta phi : ℕ → ℝ) (spc : Pos) (freq radius : ℝ) (clip : Bool) (ht : spc.type = 1) :
    ∃ p, initSpc theta phi spc freq radius clip = .ok p ∧ Setup theta phi spc freq radius clip p := by
  have hk : 2 * (Real.pi * (freq / 340)) = wavenum freq := by unfold wavenum; ring
  have hc : toCart spc true = .ok ⟨2, spc.n, fun i => if i < spc.n then cart1 true (spc.at_ i) else (0, 0, 0)⟩ := by
    unfold toCart; rw [if_neg (by omega), if_pos ht]
  have hs : toSph spc = .ok (initPos spc) := by
    unfold toSph; rw [if_neg (by omega), if_neg (by omega), if_pos ht]
  let c : Pos := initPos ⟨2, spc.n, fun i => if i < spc.n then cart1 true (spc.at_ i) else (0, 0, 0)⟩
  let mic : Pos := ⟨2, 256, fun i => if i < 256 then cart1 false ((if radius = 0 then
    (Real.sqrt spc.n - 1) / (2 * (Real.pi * (freq / 340))) * 0.4667 else radius), theta i, phi i) else (0, 0, 0)⟩
  have hp : initSpc theta phi spc freq radius clip = .ok ⟨clip, c,
      ⟨1, spc.n, fun i => if i < spc.n then sph1 (c.at_ i) else (0, 0, 0)⟩, mic, (maxMin spc).1, (maxMin spc).2,
      2 * (Real.pi * (freq / 340)),
      fun s l => Real.cos (phase (2 * (Real.pi * (freq / 340))) (mic.at_ s) (c.at_ l)),
      fun s l => Real.sin (phase (2 * (Real.pi * (freq / 340))) (mic.at_ s) (c.at_ l))⟩ := by
    unfold initSpc
    rw [hs, hc]
    simp only [Res.bind, ht, ne_eq, not_true_eq_false, if_false]
    rfl
  refine ⟨_, hp, ?_⟩
  have hd : ∀ l < spc.n, cart1 true (spc.at_ l) = dir (spc.at_ l).2.1 (spc.at_ l).2.2 := by
    intro l _
    unfold cart1 dir
    rw [if_neg (by simp)]
  have hmic : ∀ s < 256, ∀ e, (2 * (Real.pi * (freq / 340))) * dot ((if s < 256 then cart1 false
      ((if radius = 0 then (Real.sqrt spc.n - 1) / (2 * (Real.pi * (freq / 340))) * 0.4667 else radius), theta s, phi s)
        else (0, 0, 0)) : ℝ × ℝ × ℝ) e =
      wavenum freq * (sphere (wavenum freq) spc.n radius * dot (dir (theta s) (phi s)) e) := by
    intro s hs e
    rw [if_pos hs, hk]
    have : (if radius = 0 then (Real.sqrt spc.n - 1) / wavenum freq * 0.4667 else radius) =
        sphere (wavenum freq) spc.n radius := by
      unfold sphere
      split
      · ring
      · rfl
    rw [this]
    unfold cart1 dot dir
    rw [if_pos rfl]
    ring
  refine ⟨rfl, rfl, hk, fun l hl => ?_, hmic, fun s hs l hl => ?_⟩
  · simp only [c, initPos, if_pos hl]
    rw [hd l hl]
    have h1 := Verif.Props.HoaPos.sph1_same (dir (spc.at_ l).2.1 (spc.at_ l).2.2)
    have h2 : (sph1 (dir (spc.at_ l).2.1 (spc.at_ l).2.2)).1 = 1 := by
      unfold sph1 dir
      simp only
      rw [Real.sqrt_eq_one]
      have s1 := Real.sin_sq_add_cos_sq (spc.at_ l).2.1
      have s2 := Real.sin_sq_add_cos_sq (spc.at_ l).2.2
      linear_combination s1 + Real.sin (spc.at_ l).2.1 ^ 2 * s2
    obtain ⟨x, y, z⟩ := h1
    rw [h2, one_mul] at x y z
    exact (Prod.ext x (Prod.ext y z)).symm
  · have e1 : (initPos ⟨2, spc.n, fun i => if i < spc.n then cart1 true (spc.at_ i) else (0, 0, 0)⟩).at_ l =
        dir (spc.at_ l).2.1 (spc.at_ l).2.2 := by
      simp only [initPos, if_pos hl]
      exact hd l hl
    have e2 := hmic s hs (dir (spc.at_ l).2.1 (spc.at_ l).2.2)
    simp only
    rw [cos_add_sin, phase_eq, e1]
    unfold wave
    rw [← e2]

/-- C356: the matrix of the loudspeakers holds plane waves from the loudspeakers at the microphones. -/
theorem C356_waves (theta phi : ℕ → ℝ) (spc : Pos) (freq radius : ℝ) (clip : Bool) (ht : spc.type = 1) :
    ∃ p, initSpc theta phi spc freq radius clip = .ok p ∧ ∀ s < 256, ∀ l < spc.n,
      (p.hr s l : ℂ) + p.hi s l * Complex.I = wave (wavenum freq) (sphere (wavenum freq) spc.n radius)
        (dir (theta s) (phi s)) (dir (spc.at_ l).2.1 (spc.at_ l).2.2) := by
  obtain ⟨p, h1, h2⟩ := initSpc_spec theta phi spc freq radius clip ht
  exact ⟨p, h1, h2.h⟩

/-! ## Gains -/

/-- The matrix of the equations for the gains. -/
noncomputable def gram {m n : ℕ} (h : Matrix (Fin m) (Fin n) ℂ) (bb : Fin n → ℝ) : Matrix (Fin n) (Fin n) ℂ :=
  hᴴ * h + diagonal fun l => (bb l : ℂ)

/-- `inv` inverts what it has to invert for the equations. -/
def Inverts {n : ℕ} (inv : Matrix (Fin n) (Fin n) ℝ → Matrix (Fin n) (Fin n) ℝ) (g : Matrix (Fin n) (Fin n) ℂ) :
    Prop :=
  let a := g.map Complex.re
  let c := g.map Complex.im
  a * inv a = 1 ∧ (a + c * inv a * c) * inv (a + c * inv a * c) = 1

/-- `inv` gives pseudo-inverses of these matrices, of which the equations of C348 are enough. -/
def PseudoInverts {n : ℕ} (inv : Matrix (Fin n) (Fin n) ℝ → Matrix (Fin n) (Fin n) ℝ)
    (g : Matrix (Fin n) (Fin n) ℂ) : Prop :=
  let a := g.map Complex.re
  let c := g.map Complex.im
  let t := a + c * inv a * c
  a * inv a * a = a ∧ t * inv t * t = t

theorem gram_re {m n : ℕ} (h : Matrix (Fin m) (Fin n) ℂ) (bb : Fin n → ℝ) : (gram h bb).map Complex.re =
    diagonal bb + ((h.map Complex.im)ᵀ * h.map Complex.im + (h.map Complex.re)ᵀ * h.map Complex.re) := by
  ext j k
  simp only [gram, Matrix.map_apply, Matrix.add_apply, Matrix.mul_apply, Complex.add_re, Complex.re_sum,
    Matrix.conjTranspose_apply, Matrix.transpose_apply, Complex.mul_re, Matrix.diagonal_apply]
  rw [← Finset.sum_add_distrib, add_comm]
  congr 1
  · split <;> simp
  · refine Finset.sum_congr rfl fun i _ => ?_
    simp
    ring

theorem gram_im {m n : ℕ} (h : Matrix (Fin m) (Fin n) ℂ) (bb : Fin n → ℝ) : (gram h bb).map Complex.im =
    (h.map Complex.re)ᵀ * h.map Complex.im - (h.map Complex.im)ᵀ * h.map Complex.re := by
  ext j k
  simp only [gram, Matrix.map_apply, Matrix.add_apply, Matrix.sub_apply, Matrix.mul_apply, Complex.add_im, Complex.im_sum,
    Matrix.conjTranspose_apply, Matrix.transpose_apply, Complex.mul_im, Matrix.diagonal_apply]
  rw [← Finset.sum_sub_distrib]
  have : (if j = k then (bb j : ℂ) else 0).im = 0 := by split <;> simp
  rw [this, add_zero]
  refine Finset.sum_congr rfl fun i _ => ?_
  simp
  ring

theorem solve_spec {m n : ℕ} (inv : Matrix (Fin n) (Fin n) ℝ → Matrix (Fin n) (Fin n) ℝ)
    (h : Matrix (Fin m) (Fin n) ℂ) (s : Fin m → ℂ) (bb : Fin n → ℝ) (hi : Inverts inv (gram h bb)) :
    ∃ g : Fin n → ℂ, gram h bb *ᵥ g = hᴴ *ᵥ s ∧
      ∀ l, solve inv (h.map Complex.re) (h.map Complex.im) (fun i => (s i).re) (fun i => (s i).im) bb l = (g l).re := by
  obtain ⟨h1, h2⟩ := hi
  have er := gram_re h bb
  have ei := gram_im h bb
  have eb : ∀ l, ((hᴴ *ᵥ s) l).re = ((h.map Complex.re)ᵀ *ᵥ (fun i => (s i).re) +
      (h.map Complex.im)ᵀ *ᵥ fun i => (s i).im) l := by
    intro l
    simp only [Matrix.mulVec, dotProduct, Pi.add_apply, Complex.re_sum, Complex.mul_re, Matrix.conjTranspose_apply,
      Matrix.transpose_apply, Matrix.map_apply]
    rw [← Finset.sum_add_distrib]
    refine Finset.sum_congr rfl fun i _ => ?_
    simp
  have ed : ∀ l, ((hᴴ *ᵥ s) l).im = ((h.map Complex.re)ᵀ *ᵥ (fun i => (s i).im) -
      (h.map Complex.im)ᵀ *ᵥ fun i => (s i).re) l := by
    intro l
    simp only [Matrix.mulVec, dotProduct, Pi.sub_apply, Complex.im_sum, Complex.mul_im, Matrix.conjTranspose_apply,
      Matrix.transpose_apply, Matrix.map_apply]
    rw [← Finset.sum_sub_distrib]
    refine Finset.sum_congr rfl fun i _ => ?_
    simp
    ring
  unfold solve
  rw [← er, ← ei]
  generalize (h.map Complex.re)ᵀ *ᵥ (fun i => (s i).re) + (h.map Complex.im)ᵀ *ᵥ (fun i => (s i).im) = b at *
  generalize (h.map Complex.re)ᵀ *ᵥ (fun i => (s i).im) - (h.map Complex.im)ᵀ *ᵥ (fun i => (s i).re) = d at *
  generalize ea : (gram h bb).map Complex.re = a at *
  generalize ec : (gram h bb).map Complex.im = c at *
  generalize eA : inv a = A at *
  have e3 : c * (A * c) = c * A * c := (Matrix.mul_assoc _ _ _).symm
  rw [e3]
  generalize eT : inv (a + c * A * c) = T at *
  have e4 : a * (A * c) = c := by rw [← Matrix.mul_assoc, h1, Matrix.one_mul]
  let x : Fin n → ℝ := T *ᵥ b + (A * c * T) *ᵥ d
  let y : Fin n → ℝ := T *ᵥ d - (A * c * T) *ᵥ b
  have f1 : a *ᵥ x - c *ᵥ y = b := by
    show a *ᵥ (T *ᵥ b + (A * c * T) *ᵥ d) - c *ᵥ (T *ᵥ d - (A * c * T) *ᵥ b) = b
    rw [Matrix.mulVec_add, Matrix.mulVec_sub]
    simp only [Matrix.mulVec_mulVec]
    have g1 : a * (A * c * T) = c * T := by rw [← Matrix.mul_assoc, e4]
    have g2 : a * T + c * (A * c * T) = 1 := by
      rw [← h2, Matrix.add_mul]
      simp only [Matrix.mul_assoc]
    rw [g1]
    have : a *ᵥ T *ᵥ b = (a * T) *ᵥ b := Matrix.mulVec_mulVec _ _ _
    calc _ = (a * T + c * (A * c * T)) *ᵥ b := by rw [Matrix.add_mulVec]; abel
      _ = b := by rw [g2, Matrix.one_mulVec]
  have f2 : c *ᵥ x + a *ᵥ y = d := by
    show c *ᵥ (T *ᵥ b + (A * c * T) *ᵥ d) + a *ᵥ (T *ᵥ d - (A * c * T) *ᵥ b) = d
    rw [Matrix.mulVec_add, Matrix.mulVec_sub]
    simp only [Matrix.mulVec_mulVec]
    have g1 : a * (A * c * T) = c * T := by rw [← Matrix.mul_assoc, e4]
    have g2 : a * T + c * (A * c * T) = 1 := by
      rw [← h2, Matrix.add_mul]
      simp only [Matrix.mul_assoc]
    rw [g1]
    calc _ = (a * T + c * (A * c * T)) *ᵥ d := by rw [Matrix.add_mulVec]; abel
      _ = d := by rw [g2, Matrix.one_mulVec]
  refine ⟨fun l => ⟨x l, y l⟩, ?_, fun l => rfl⟩
  funext l
  apply Complex.ext
  · rw [eb, ← f1]
    subst ea ec
    simp only [Matrix.mulVec, dotProduct, Pi.sub_apply, Complex.re_sum, Complex.mul_re, Matrix.map_apply,
      Finset.sum_sub_distrib]
  · rw [ed, ← f2]
    subst ea ec
    simp only [Matrix.mulVec, dotProduct, Pi.add_apply, Complex.im_sum, Complex.mul_im, Matrix.map_apply,
      Finset.sum_add_distrib]
    rw [add_comm]

/-- How much a loudspeaker is to be avoided, which depends on the angle to the source. -/
noncomputable def avoid (beta : ℝ) (l s : ℝ × ℝ × ℝ) : ℝ := beta * (1 - ((1 + dot l s) / 2) ^ 2) ^ 2

theorem weight_eq (beta : ℝ) (l s : ℝ × ℝ × ℝ) :
    weight beta l s = avoid beta (dir l.2.1 l.2.2) (dir s.2.1 s.2.2) := by
  unfold weight avoid dot dir
  simp only
  rw [Real.cos_sub]
  ring

/-- C357: the gains for a source are the real parts of a solution of the equations for the weighted least
squares. -/
theorem C357_equations (inv : (n : ℕ) → Matrix (Fin n) (Fin n) ℝ → Matrix (Fin n) (Fin n) ℝ) (theta phi : ℕ → ℝ)
    (spc src : Pos) (freq radius beta : ℝ) (ht : spc.type = 1) (ht' : src.type = 1) (s : ℕ) (hs : s < src.n)
    (h : Matrix (Fin 256) (Fin spc.n) ℂ)
    (eh : ∀ i l, h i l = wave (wavenum freq) (sphere (wavenum freq) spc.n radius) (dir (theta i) (phi i))
      (dir (spc.at_ l).2.1 (spc.at_ l).2.2))
    (w : Fin 256 → ℂ)
    (ew : ∀ i, w i = wave (wavenum freq) (sphere (wavenum freq) spc.n radius) (dir (theta i) (phi i))
      (dir (src.at_ s).2.1 (src.at_ s).2.2))
    (bb : Fin spc.n → ℝ)
    (ebb : ∀ l, bb l = avoid beta (dir (spc.at_ l).2.1 (spc.at_ l).2.2) (dir (src.at_ s).2.1 (src.at_ s).2.2))
    (hi : Inverts (inv spc.n) (gram h bb)) :
    ∃ p, initSpc theta phi spc freq radius false = .ok p ∧ ∃ (e : p.sp.n = spc.n) (gn : Fin p.sp.n → ℝ),
      gains inv p src beta s = .ok gn ∧ ∃ g : Fin spc.n → ℂ, gram h bb *ᵥ g = hᴴ *ᵥ w ∧
        ∀ l, gn l = (g (Fin.cast e l)).re := by
  obtain ⟨p, hp, sp⟩ := initSpc_spec theta phi spc freq radius false ht
  obtain ⟨c1, c2, c3, sp4, sp5, sp6⟩ := sp
  obtain ⟨pc, pcart, ⟨pt, pn, pat⟩, pmic, pmax, pmin, pk, phr, phi'⟩ := p
  change pn = spc.n at c2
  subst c2
  refine ⟨_, hp, rfl, ?_⟩
  obtain ⟨g, hg, hl⟩ := solve_spec (inv spc.n) h w bb hi
  have q1 : toSph src = .ok (initPos src) := by
    unfold toSph; rw [if_neg (by omega), if_neg (by omega), if_pos ht']
  have q2 : clipSrc ⟨pc, pcart, ⟨pt, spc.n, pat⟩, pmic, pmax, pmin, pk, phr, phi'⟩ (initPos src) = initPos src := by
    unfold clipSrc; rw [c1]; rfl
  have q3 : (initPos src).at_ s = src.at_ s := by simp only [initPos, if_pos hs]
  have q4 : toCart (initPos src) true = .ok ⟨2, src.n, fun i => if i < src.n then cart1 true ((initPos src).at_ i)
      else (0, 0, 0)⟩ := by
    unfold toCart; rw [if_neg (by show src.type ≠ 0; omega), if_pos (show (initPos src).type = 1 from ht')]; rfl
  have q5 : (if s < src.n then cart1 true ((initPos src).at_ s) else (0, 0, 0)) =
      dir (src.at_ s).2.1 (src.at_ s).2.2 := by
    rw [if_pos hs, q3]; unfold cart1 dir; rw [if_neg (by simp)]
  unfold gains
  rw [q1]
  simp only [Res.bind, q2, q4]
  refine ⟨_, rfl, g, hg, ?_⟩
  intro l
  rw [show Fin.cast rfl l = l from rfl, ← hl l]
  have z1 : (fun i l => phr i l : Matrix (Fin 256) (Fin spc.n) ℝ) = h.map Complex.re := by
    funext i l
    rw [Matrix.map_apply, eh, ← sp6 i i.2 l l.2]
    simp
  have z2 : (fun i l => phi' i l : Matrix (Fin 256) (Fin spc.n) ℝ) = h.map Complex.im := by
    funext i l
    rw [Matrix.map_apply, eh, ← sp6 i i.2 l l.2]
    simp
  have z3 : ∀ i : Fin 256, w i = Complex.exp ((phase pk (pmic.at_ i) (if s < src.n then cart1 true ((initPos src).at_ s)
      else (0, 0, 0)) : ℝ) * Complex.I) := by
    intro i
    rw [ew, q5, phase_eq, sp5 i i.2]
    rfl
  rw [z1, z2]
  congr 1
  · funext i; rw [z3]; simp [Complex.exp_ofReal_mul_I_re]
  · funext i; rw [z3]; simp [Complex.exp_ofReal_mul_I_im]
  · funext l; rw [ebb, weight_eq, sp4 l l.2, q3]

/-- The squares of the errors at the microphones, and the squares of the gains as far as they are to be
avoided. -/
noncomputable def cost {m n : ℕ} (h : Matrix (Fin m) (Fin n) ℂ) (w : Fin m → ℂ) (bb : Fin n → ℝ) (g : Fin n → ℂ) : ℝ :=
  ∑ i, Complex.normSq (w i - (h *ᵥ g) i) + ∑ l, bb l * Complex.normSq (g l)

/-- C357: solutions of the equations have the least cost, and when every loudspeaker is to be avoided a little,
only they have. -/
theorem C357_least {m n : ℕ} (h : Matrix (Fin m) (Fin n) ℂ) (w : Fin m → ℂ) (bb : Fin n → ℝ) (hb : ∀ l, 0 ≤ bb l)
    (g : Fin n → ℂ) (hg : gram h bb *ᵥ g = hᴴ *ᵥ w) (g' : Fin n → ℂ) :
    cost h w bb g ≤ cost h w bb g' ∧ ((∀ l, 0 < bb l) → cost h w bb g' = cost h w bb g → g' = g) := by
  obtain ⟨e, rfl⟩ : ∃ e, g' = g + e := ⟨g' - g, by abel⟩
  obtain ⟨r, hr⟩ : ∃ r, r = w - h *ᵥ g := ⟨_, rfl⟩
  have k1 : hᴴ *ᵥ r = fun l => (bb l : ℂ) * g l := by
    rw [hr, Matrix.mulVec_sub, ← hg]
    unfold gram
    rw [Matrix.add_mulVec, Matrix.mulVec_mulVec]
    funext l
    simp [Matrix.mulVec_diagonal]
  have k2 : ∑ i, r i * (starRingEnd ℂ) ((h *ᵥ e) i) = ∑ l, (starRingEnd ℂ) (e l) * ((bb l : ℂ) * g l) := by
    have : r ⬝ᵥ star (h *ᵥ e) = star e ⬝ᵥ (hᴴ *ᵥ r) := by
      rw [Matrix.star_mulVec, dotProduct_comm, Matrix.dotProduct_mulVec]
    rw [k1] at this
    exact this
  have k3 : (∑ i, (r i * (starRingEnd ℂ) ((h *ᵥ e) i)).re) = ∑ l, bb l * (g l * (starRingEnd ℂ) (e l)).re := by
    rw [← Complex.re_sum, k2, Complex.re_sum]
    refine Finset.sum_congr rfl fun l _ => ?_
    simp
    ring
  have k4 : cost h w bb (g + e) = cost h w bb g + (∑ i, Complex.normSq ((h *ᵥ e) i) + ∑ l, bb l * Complex.normSq (e l)) := by
    have t1 : ∀ i, Complex.normSq (w i - (h *ᵥ (g + e)) i) = Complex.normSq (w i - (h *ᵥ g) i) +
        Complex.normSq ((h *ᵥ e) i) - 2 * (r i * (starRingEnd ℂ) ((h *ᵥ e) i)).re := by
      intro i
      rw [Matrix.mulVec_add, hr]
      have : w i - (h *ᵥ g + h *ᵥ e) i = (w i - (h *ᵥ g) i) - (h *ᵥ e) i := by
        rw [Pi.add_apply]; ring
      rw [this, Complex.normSq_sub]
      rfl
    have t2 : ∀ l, bb l * Complex.normSq ((g + e) l) = bb l * Complex.normSq (g l) + bb l * Complex.normSq (e l) +
        2 * (bb l * (g l * (starRingEnd ℂ) (e l)).re) := by
      intro l
      rw [Pi.add_apply, Complex.normSq_add]
      ring
    unfold cost
    simp only [t1, t2, Finset.sum_add_distrib, Finset.sum_sub_distrib, ← Finset.mul_sum]
    rw [k3]
    ring
  have n1 : 0 ≤ ∑ i, Complex.normSq ((h *ᵥ e) i) := Finset.sum_nonneg fun i _ => Complex.normSq_nonneg _
  have n2 : 0 ≤ ∑ l, bb l * Complex.normSq (e l) :=
    Finset.sum_nonneg fun l _ => mul_nonneg (hb l) (Complex.normSq_nonneg _)
  refine ⟨by rw [k4]; linarith, fun hp hc => ?_⟩
  rw [k4] at hc
  have z : ∑ l, bb l * Complex.normSq (e l) = 0 := by linarith
  have z' := (Finset.sum_eq_zero_iff_of_nonneg fun l _ => mul_nonneg (hb l) (Complex.normSq_nonneg _)).mp z
  have : e = 0 := by
    funext l
    have := z' l (Finset.mem_univ _)
    rcases mul_eq_zero.mp this with h' | h'
    · exact absurd h' (hp l).ne'
    · exact Complex.normSq_eq_zero.mp h'
  rw [this, add_zero]

/-- C357: a loudspeaker in the direction of the source is not avoided, one in the opposite direction is
avoided most. -/
theorem C357_avoid (beta : ℝ) (hb : 0 ≤ beta) (t f t' f' : ℝ) :
    0 ≤ avoid beta (dir t f) (dir t' f') ∧ avoid beta (dir t f) (dir t' f') ≤ beta ∧
    avoid beta (dir t f) (dir t f) = 0 ∧ avoid beta (dir t f) (dir (Real.pi - t) (f + Real.pi)) = beta := by
  have s1 := Real.sin_sq_add_cos_sq t
  have s2 := Real.sin_sq_add_cos_sq f
  have u : ∀ t f, dot (dir t f) (dir t f) = 1 := by
    intro t f
    have s1 := Real.sin_sq_add_cos_sq t
    have s2 := Real.sin_sq_add_cos_sq f
    unfold dot dir
    linear_combination s1 + Real.sin t ^ 2 * s2
  have o : dot (dir t f) (dir (Real.pi - t) (f + Real.pi)) = -1 := by
    rw [← u t f]
    unfold dot dir
    simp only [Real.sin_pi_sub, Real.cos_pi_sub, Real.sin_add_pi, Real.cos_add_pi]
    ring
  have b1 : -1 ≤ dot (dir t f) (dir t' f') ∧ dot (dir t f) (dir t' f') ≤ 1 := by
    have h1 := u t f
    have h2 := u t' f'
    generalize dir t f = a at *
    generalize dir t' f' = b at *
    unfold dot at *
    constructor
    · nlinarith [sq_nonneg (a.1 + b.1), sq_nonneg (a.2.1 + b.2.1), sq_nonneg (a.2.2 + b.2.2)]
    · nlinarith [sq_nonneg (a.1 - b.1), sq_nonneg (a.2.1 - b.2.1), sq_nonneg (a.2.2 - b.2.2)]
  refine ⟨mul_nonneg hb (sq_nonneg _), ?_, ?_, ?_⟩
  · unfold avoid
    generalize dot (dir t f) (dir t' f') = x at *
    have c1 : 0 ≤ (1 + x) / 2 := by linarith [b1.1]
    have c2 : (1 + x) / 2 ≤ 1 := by linarith [b1.2]
    have c3 : ((1 + x) / 2) ^ 2 ≤ 1 := pow_le_one₀ c1 c2
    have c4 : (1 - ((1 + x) / 2) ^ 2) ^ 2 ≤ 1 := pow_le_one₀ (by linarith) (by nlinarith [sq_nonneg ((1 + x) / 2)])
    nlinarith
  · unfold avoid; rw [u]; norm_num
  · unfold avoid; rw [o]; norm_num

/-! ## Solvability -/

/-- The cost of gains other than 0 for no source is not 0. -/
def Definite {m n : ℕ} (h : Matrix (Fin m) (Fin n) ℂ) (bb : Fin n → ℝ) : Prop :=
  ∀ z : Fin n → ℂ, h *ᵥ z = 0 → (∀ l, bb l = 0 ∨ z l = 0) → z = 0

theorem gram_inj {m n : ℕ} (h : Matrix (Fin m) (Fin n) ℂ) (bb : Fin n → ℝ) (hb : ∀ l, 0 ≤ bb l) (hd : Definite h bb)
    (z : Fin n → ℂ) (hz : gram h bb *ᵥ z = 0) : z = 0 := by
  have h1 := (C357_least h 0 bb hb z (by rw [hz, Matrix.mulVec_zero]) 0).1
  have h2 : cost h 0 bb 0 = 0 := by simp [cost]
  rw [h2] at h1
  unfold cost at h1
  have n1 : 0 ≤ ∑ i, Complex.normSq ((0 : Fin m → ℂ) i - (h *ᵥ z) i) := Finset.sum_nonneg fun i _ => Complex.normSq_nonneg _
  have n2 : 0 ≤ ∑ l, bb l * Complex.normSq (z l) :=
    Finset.sum_nonneg fun l _ => mul_nonneg (hb l) (Complex.normSq_nonneg _)
  have z1 : ∑ i, Complex.normSq ((0 : Fin m → ℂ) i - (h *ᵥ z) i) = 0 := by linarith
  have z2 : ∑ l, bb l * Complex.normSq (z l) = 0 := by linarith
  refine hd z ?_ fun l => ?_
  · funext i
    have := (Finset.sum_eq_zero_iff_of_nonneg fun i _ => Complex.normSq_nonneg _).mp z1 i (Finset.mem_univ _)
    have := Complex.normSq_eq_zero.mp this
    simpa using this
  · have := (Finset.sum_eq_zero_iff_of_nonneg fun l _ => mul_nonneg (hb l) (Complex.normSq_nonneg _)).mp z2 l
      (Finset.mem_univ _)
    rcases mul_eq_zero.mp this with h' | h'
    · exact Or.inl h'
    · exact Or.inr (Complex.normSq_eq_zero.mp h')

theorem cancel {n : ℕ} (a p : Matrix (Fin n) (Fin n) ℝ) (hp : a * p * a = a) (hi : ∀ x, a *ᵥ x = 0 → x = 0) : a * p = 1 := by
  have hu : IsUnit a := by
    rw [← Matrix.mulVec_injective_iff_isUnit]
    intro x y hxy
    have : a *ᵥ (x - y) = 0 := by rw [Matrix.mulVec_sub]; exact sub_eq_zero.mpr hxy
    exact sub_eq_zero.mp (hi _ this)
  have : a * p * a = 1 * a := by rw [hp, Matrix.one_mul]
  exact hu.mul_right_cancel this

theorem re_inj {m n : ℕ} (h : Matrix (Fin m) (Fin n) ℂ) (bb : Fin n → ℝ) (hb : ∀ l, 0 ≤ bb l) (hd : Definite h bb)
    (x : Fin n → ℝ) (hx : (gram h bb).map Complex.re *ᵥ x = 0) : x = 0 := by
  have q : x ⬝ᵥ ((gram h bb).map Complex.re *ᵥ x) = 0 := by rw [hx, dotProduct_zero]
  have p1 : ∀ u : Matrix (Fin m) (Fin n) ℝ, x ⬝ᵥ ((uᵀ * u) *ᵥ x) = ∑ i, (u *ᵥ x) i * (u *ᵥ x) i := by
    intro u
    rw [← Matrix.mulVec_mulVec, Matrix.dotProduct_mulVec, Matrix.vecMul_transpose]
    rfl
  rw [gram_re, Matrix.add_mulVec, Matrix.add_mulVec, dotProduct_add, dotProduct_add, p1, p1] at q
  have p2 : x ⬝ᵥ (diagonal bb *ᵥ x) = ∑ l, bb l * (x l * x l) := by
    unfold dotProduct
    refine Finset.sum_congr rfl fun l _ => ?_
    rw [Matrix.mulVec_diagonal]
    ring
  rw [p2] at q
  have n1 : ∀ u : Matrix (Fin m) (Fin n) ℝ, 0 ≤ ∑ i, (u *ᵥ x) i * (u *ᵥ x) i :=
    fun u => Finset.sum_nonneg fun i _ => mul_self_nonneg _
  have n2 : 0 ≤ ∑ l, bb l * (x l * x l) := Finset.sum_nonneg fun l _ => mul_nonneg (hb l) (mul_self_nonneg _)
  have z0 : ∑ l, bb l * (x l * x l) = 0 := by
    linarith [n1 (h.map Complex.re), n1 (h.map Complex.im)]
  have z1 : ∑ i, (h.map Complex.re *ᵥ x) i * (h.map Complex.re *ᵥ x) i = 0 := by
    linarith [n1 (h.map Complex.re), n1 (h.map Complex.im)]
  have z2 : ∑ i, (h.map Complex.im *ᵥ x) i * (h.map Complex.im *ᵥ x) i = 0 := by
    linarith [n1 (h.map Complex.re), n1 (h.map Complex.im)]
  have w0 := (Finset.sum_eq_zero_iff_of_nonneg fun l _ => mul_nonneg (hb l) (mul_self_nonneg (x l))).mp z0
  have w1 := (Finset.sum_eq_zero_iff_of_nonneg fun i _ => mul_self_nonneg ((h.map Complex.re *ᵥ x) i)).mp z1
  have w2 := (Finset.sum_eq_zero_iff_of_nonneg fun i _ => mul_self_nonneg ((h.map Complex.im *ᵥ x) i)).mp z2
  have := hd (fun l => (x l : ℂ)) (by
    funext i
    have a1 := mul_self_eq_zero.mp (w1 i (Finset.mem_univ _))
    have a2 := mul_self_eq_zero.mp (w2 i (Finset.mem_univ _))
    apply Complex.ext
    · rw [Pi.zero_apply, Complex.zero_re, ← a1]
      simp [Matrix.mulVec, dotProduct]
    · rw [Pi.zero_apply, Complex.zero_im, ← a2]
      simp [Matrix.mulVec, dotProduct]) (by
    intro l
    rcases mul_eq_zero.mp (w0 l (Finset.mem_univ _)) with h' | h'
    · exact Or.inl h'
    · right; rw [mul_self_eq_zero.mp h']; rfl)
  funext l
  have e := congrFun this l
  simpa using e

theorem inverts {m n : ℕ} (inv : Matrix (Fin n) (Fin n) ℝ → Matrix (Fin n) (Fin n) ℝ) (h : Matrix (Fin m) (Fin n) ℂ)
    (bb : Fin n → ℝ) (hb : ∀ l, 0 ≤ bb l) (hd : Definite h bb) (hp : PseudoInverts inv (gram h bb)) :
    Inverts inv (gram h bb) := by
  have h1 := cancel _ _ hp.1 (re_inj h bb hb hd)
  refine ⟨h1, cancel _ _ hp.2 fun x hx => ?_⟩
  clear hp
  generalize ea : (gram h bb).map Complex.re = a at *
  generalize ec : (gram h bb).map Complex.im = c at *
  generalize inv a = A at *
  have k := gram_inj h bb hb hd (fun l => ⟨x l, (-((A * c) *ᵥ x)) l⟩) (by
    have e4 : a * (A * c) = c := by rw [← Matrix.mul_assoc, h1, Matrix.one_mul]
    have r1 : a *ᵥ x - c *ᵥ (-((A * c) *ᵥ x)) = 0 := by
      rw [Matrix.mulVec_neg, Matrix.mulVec_mulVec, sub_neg_eq_add, ← Matrix.add_mulVec, ← Matrix.mul_assoc]
      exact hx
    have r2 : c *ᵥ x + a *ᵥ (-((A * c) *ᵥ x)) = 0 := by
      rw [Matrix.mulVec_neg, Matrix.mulVec_mulVec, e4, add_neg_cancel]
    funext l
    apply Complex.ext
    · rw [Pi.zero_apply, Complex.zero_re, ← Pi.zero_apply (M := fun _ : Fin n => ℝ) l, ← r1]
      subst ea ec
      simp only [Matrix.mulVec, dotProduct, Pi.sub_apply, Complex.re_sum, Complex.mul_re, Matrix.map_apply,
        Finset.sum_sub_distrib]
    · rw [Pi.zero_apply, Complex.zero_im, ← Pi.zero_apply (M := fun _ : Fin n => ℝ) l, ← r2]
      subst ea ec
      simp only [Matrix.mulVec, dotProduct, Pi.add_apply, Complex.im_sum, Complex.mul_im, Matrix.map_apply,
        Finset.sum_add_distrib]
      rw [add_comm])
  funext l
  exact congrArg Complex.re (congrFun k l)

theorem dot_eq_one (t f t' f' : ℝ) (h : dot (dir t f) (dir t' f') = 1) : dir t f = dir t' f' := by
  have u : ∀ t f, dot (dir t f) (dir t f) = 1 := by
    intro t f
    have s1 := Real.sin_sq_add_cos_sq t
    have s2 := Real.sin_sq_add_cos_sq f
    unfold dot dir
    linear_combination s1 + Real.sin t ^ 2 * s2
  have h1 := u t f
  have h2 := u t' f'
  generalize dir t f = a at *
  generalize dir t' f' = b at *
  unfold dot at *
  have e : (a.1 - b.1) ^ 2 + (a.2.1 - b.2.1) ^ 2 + (a.2.2 - b.2.2) ^ 2 = 0 := by linear_combination h1 + h2 - 2 * h
  have e1 : (a.1 - b.1) ^ 2 = 0 := by nlinarith [sq_nonneg (a.1 - b.1), sq_nonneg (a.2.1 - b.2.1), sq_nonneg (a.2.2 - b.2.2)]
  have e2 : (a.2.1 - b.2.1) ^ 2 = 0 := by nlinarith [sq_nonneg (a.1 - b.1), sq_nonneg (a.2.1 - b.2.1), sq_nonneg (a.2.2 - b.2.2)]
  have e3 : (a.2.2 - b.2.2) ^ 2 = 0 := by nlinarith [sq_nonneg (a.1 - b.1), sq_nonneg (a.2.1 - b.2.1), sq_nonneg (a.2.2 - b.2.2)]
  exact Prod.ext (sub_eq_zero.mp (pow_eq_zero_iff two_ne_zero |>.mp e1))
    (Prod.ext (sub_eq_zero.mp (pow_eq_zero_iff two_ne_zero |>.mp e2)) (sub_eq_zero.mp (pow_eq_zero_iff two_ne_zero |>.mp e3)))

theorem dot_bound (t f t' f' : ℝ) : -1 ≤ dot (dir t f) (dir t' f') ∧ dot (dir t f) (dir t' f') ≤ 1 := by
  have u : ∀ t f, dot (dir t f) (dir t f) = 1 := by
    intro t f
    have s1 := Real.sin_sq_add_cos_sq t
    have s2 := Real.sin_sq_add_cos_sq f
    unfold dot dir
    linear_combination s1 + Real.sin t ^ 2 * s2
  have h1 := u t f
  have h2 := u t' f'
  generalize dir t f = a at *
  generalize dir t' f' = b at *
  unfold dot at *
  constructor
  · nlinarith [sq_nonneg (a.1 + b.1), sq_nonneg (a.2.1 + b.2.1), sq_nonneg (a.2.2 + b.2.2)]
  · nlinarith [sq_nonneg (a.1 - b.1), sq_nonneg (a.2.1 - b.2.1), sq_nonneg (a.2.2 - b.2.2)]

theorem avoid_eq_zero (beta : ℝ) (hb : 0 < beta) (t f t' f' : ℝ) (h : avoid beta (dir t f) (dir t' f') = 0) :
    dir t f = dir t' f' := by
  obtain ⟨b1, b2⟩ := dot_bound t f t' f'
  apply dot_eq_one
  unfold avoid at h
  rcases mul_eq_zero.mp h with h | h
  · exact absurd h hb.ne'
  · have h' := (pow_eq_zero_iff two_ne_zero).mp h
    nlinarith

/-- C359: when no two loudspeakers are in the same direction, the matrices that are inverted for the gains of a
source are invertible, whatever the source, the microphones and the frequency. -/
theorem C359_invertible {n : ℕ} (inv : Matrix (Fin n) (Fin n) ℝ → Matrix (Fin n) (Fin n) ℝ)
    (k r beta : ℝ) (hb : 0 < beta) (mic : Fin 256 → ℝ × ℝ) (spk : Fin n → ℝ × ℝ)
    (src : ℝ × ℝ) (hd : ∀ i j, dir (spk i).1 (spk i).2 = dir (spk j).1 (spk j).2 → i = j)
    (hp : PseudoInverts inv (gram (fun i l => wave k r (dir (mic i).1 (mic i).2) (dir (spk l).1 (spk l).2))
      fun l => avoid beta (dir (spk l).1 (spk l).2) (dir src.1 src.2))) :
    Inverts inv (gram (fun i l => wave k r (dir (mic i).1 (mic i).2) (dir (spk l).1 (spk l).2))
      fun l => avoid beta (dir (spk l).1 (spk l).2) (dir src.1 src.2)) := by
  refine inverts inv _ _ (fun l => (C357_avoid beta hb.le _ _ _ _).1) (fun z h1 h2 => ?_) hp
  funext l
  by_contra hl
  have e : ∀ j, j ≠ l → z j = 0 := by
    intro j hj
    rcases h2 j with h | h
    · rcases h2 l with h' | h'
      · exact absurd (hd j l ((avoid_eq_zero beta hb _ _ _ _ h).trans (avoid_eq_zero beta hb _ _ _ _ h').symm)) hj
      · exact absurd h' hl
    · exact h
  have h3 := congrFun h1 0
  unfold Matrix.mulVec dotProduct at h3
  rw [Finset.sum_eq_single l (fun j _ hj => by rw [e j hj, mul_zero]) (fun h => absurd (Finset.mem_univ _) h)] at h3
  rcases mul_eq_zero.mp h3 with h | h
  · exact Complex.exp_ne_zero _ h
  · exact hl h

/-! ## Normalisation -/

/-- C358: when one gain is at least a millionth, the normalised gains are not negative, their squares sum up
to 1, and gains that are at least a millionth keep their proportions. -/
theorem C358_norm_partial {n : ℕ} (g : Fin n → ℝ) (h : ∃ l, 1 / 1000000 ≤ g l) : ∃ g' c, normGains g = some g' ∧ 0 < c ∧
    (∑ l, g' l ^ 2 = 1) ∧ ∀ l, g' l = if 1 / 1000000 ≤ g l then c * g l else 0 := by
  obtain ⟨l0, h0⟩ := h
  unfold normGains
  simp only
  generalize hf : (fun l => if g l < 1 / 1000000 then 0 else g l) = f
  have hfl : ∀ l, f l = if 1 / 1000000 ≤ g l then g l else 0 := by
    intro l
    rw [← hf]
    simp only
    by_cases hl : g l < 1 / 1000000
    · rw [if_pos hl, if_neg (not_le.mpr hl)]
    · rw [if_neg hl, if_pos (not_lt.mp hl)]
  have hpos : 0 < ∑ l, f l * f l := by
    refine Finset.sum_pos' (fun l _ => mul_self_nonneg _) ⟨l0, Finset.mem_univ _, ?_⟩
    rw [hfl, if_pos h0]
    have : 0 < g l0 := lt_of_lt_of_le (by norm_num) h0
    exact mul_pos this this
  have hf' : ∀ l, (if g l < 1 / 1000000 then 0 else g l) = f l := fun l => by rw [← hf]
  simp only [hf']
  rw [if_neg (fun hc => hpos.ne' hc.1)]
  refine ⟨_, 1 / Real.sqrt (∑ l, f l * f l), rfl, by positivity, ?_, fun l => ?_⟩
  · have : ∀ l, (f l * (1 / Real.sqrt (∑ l, f l * f l))) ^ 2 = f l * f l * (∑ l, f l * f l)⁻¹ := by
      intro l
      rw [mul_pow, div_pow, Real.sq_sqrt hpos.le]
      ring
    simp only [this]
    rw [← Finset.sum_mul, mul_inv_cancel₀ hpos.ne']
  · rw [hfl l]
    split
    · ring
    · ring

/-- C358, refuted: gains that are all below a millionth are not numbers afterwards. -/
theorem C358_refuted {n : ℕ} (hn : 0 < n) (g : Fin n → ℝ) (h : ∀ l, g l < 1 / 1000000) : normGains g = none := by
  unfold normGains
  simp only [h, if_true, mul_zero, Finset.sum_const_zero]
  rw [if_pos ⟨trivial, hn⟩]

/-! ## Examples -/

/-- One loudspeaker in the direction of the source. -/
example : Inverts (fun m => Matrix.of fun _ _ => (m 0 0)⁻¹)
    (gram (Matrix.of fun _ _ => 1 : Matrix (Fin 256) (Fin 1) ℂ) fun _ => 0) := by
  have e : gram (Matrix.of fun _ _ => 1 : Matrix (Fin 256) (Fin 1) ℂ) (fun _ => 0) = Matrix.of fun _ _ => 256 := by
    ext i j
    fin_cases i; fin_cases j
    simp [gram, Matrix.mul_apply]
  rw [e]
  constructor <;> ext i j <;> fin_cases i <;> fin_cases j <;> simp [Matrix.mul_apply]

/-- Loudspeakers above and in front. -/
example (i j : Fin 2) (h : dir (if i = 0 then 0 else Real.pi / 2) 0 = dir (if j = 0 then 0 else Real.pi / 2) 0) : i = j := by
  fin_cases i <;> fin_cases j <;> simp [dir] at h ⊢

example : ∃ l : Fin 2, (1 / 1000000 : ℝ) ≤ (fun l : Fin 2 => if l = 0 then (-1 : ℝ) else 2) l := ⟨1, by norm_num⟩

end Verif.Props.HoaPan
