import Mathlib.LinearAlgebra.Matrix.Notation
import Mathlib.Data.Matrix.Diagonal
import Mathlib.Data.Matrix.Mul
import Mathlib.Tactic.Linarith
import Verif.Model.HoaSvd

/-!
# The rendering matrix from singular values

The decomposition itself is not modelled: what is stated here holds whenever it is right.
-/

namespace Verif.Props.HoaSvd

open Verif Verif.HoaSvd Matrix
open Verif.HoaPerm (Mtx mult)

/-! ## Specification -/

/-- The matrix of the first `m` rows and `n` columns. -/
def mat (a : Mtx) (m n : ℕ) : Matrix (Fin m) (Fin n) ℝ := fun r c => a.at_ r c

/-- `a = u diag(w) vᵀ`, and the columns of `u` and `v` are orthonormal. -/
structure Decomp {m n k : ℕ} (a : Matrix (Fin m) (Fin n) ℝ) (u : Matrix (Fin m) (Fin k) ℝ)
    (w : Fin k → ℝ) (v : Matrix (Fin n) (Fin k) ℝ) : Prop where
  eq : a = u * diagonal w * vᵀ
  u_orth : uᵀ * u = 1
  v_orth : vᵀ * v = 1

/-- The decomposition that the code uses is right for the matrix `a`. -/
def Right (dsvd : Mtx → Option (Mtx × (ℕ → ℝ) × Mtx)) (a : Mtx) : Prop :=
  ∃ u w v, dsvd a = some (u, w, v) ∧ u.rows = a.rows ∧ u.cols = a.cols ∧ v.rows = a.cols ∧
    v.cols = a.cols ∧
    Decomp (mat a a.rows a.cols) (mat u a.rows a.cols) (fun i => w i) (mat v a.cols a.cols)

/-- The matrix, turned if it has more columns than rows. -/
def tall (a : Mtx) : Mtx := if a.rows < a.cols then ⟨a.cols, a.rows, fun r c => a.at_ c r⟩ else a

/-! ## Sorting -/

/-- `idx` is a permutation of the numbers below `n`. -/
def Perm (n : ℕ) (idx : ℕ → ℕ) : Prop :=
  (∀ i < n, idx i < n) ∧ ∀ i < n, ∀ j < n, idx i = idx j → i = j

theorem exchange_perm (n : ℕ) (idx : ℕ → ℕ) (h : Perm n idx) (i j : ℕ) (hi : i < n) (hj : j < n) :
    Perm n (exchange idx i j) := by
  obtain ⟨h1, h2⟩ := h
  constructor
  · intro k hk
    unfold exchange
    split
    · exact h1 i hi
    split
    · exact h1 j hj
    · exact h1 k hk
  · intro k hk l hl he
    unfold exchange at he
    split_ifs at he <;> have := h2 _ (by assumption) _ (by assumption) he <;> omega

/-- What holds after `m` rounds of the inner loop. -/
theorem sortIn_inv (arr : ℕ → ℝ) (n i : ℕ) (idx : ℕ → ℕ) (hp : Perm n idx)
    (hs : ∀ a < i, ∀ b, a < b → b < n → arr (idx b) ≤ arr (idx a)) (m : ℕ) (hm : i + m < n) :
    Perm n (sortIn arr i m idx) ∧ (∀ a < i, sortIn arr i m idx a = idx a) ∧
      (∀ a < i, ∀ b, a < b → b < n → arr (sortIn arr i m idx b) ≤ arr (sortIn arr i m idx a)) ∧
      ∀ b, i < b → b ≤ i + m → arr (sortIn arr i m idx b) ≤ arr (sortIn arr i m idx i) := by
  induction m with
  | zero => exact ⟨hp, fun _ _ => rfl, hs, fun b _ _ => by omega⟩
  | succ m ih =>
    obtain ⟨h1, h2, h3, h4⟩ := ih (by omega)
    simp only [sortIn]
    generalize sortIn arr i m idx = id' at *
    split
    · rename_i hlt
      refine ⟨exchange_perm n id' h1 i (i + 1 + m) (by omega) (by omega), ?_, ?_, ?_⟩
      · intro a ha
        unfold exchange
        rw [if_neg (by omega), if_neg (by omega)]
        exact h2 a ha
      · intro a ha b hab hb
        unfold exchange
        rw [if_neg (show a ≠ i + 1 + m by omega), if_neg (show a ≠ i by omega)]
        split
        · exact h3 a ha i (by omega) (by omega)
        split
        · exact h3 a ha (i + 1 + m) (by omega) (by omega)
        · exact h3 a ha b hab hb
      · intro b hb1 hb2
        unfold exchange
        rw [if_neg (show i ≠ i + 1 + m by omega), if_pos (rfl : i = i)]
        split
        · exact hlt.le
        · rw [if_neg (by omega)]
          exact (h4 b hb1 (by omega)).trans hlt.le
    · rename_i hlt
      refine ⟨h1, h2, h3, fun b hb1 hb2 => ?_⟩
      by_cases hb : b = i + 1 + m
      · rw [hb]; exact not_lt.mp hlt
      · exact h4 b hb1 (by omega)

theorem sortOut_inv (arr : ℕ → ℝ) (n i : ℕ) (hi : i ≤ n) : Perm n (sortOut arr n i) ∧
    ∀ a < i, ∀ b, a < b → b < n → arr (sortOut arr n i b) ≤ arr (sortOut arr n i a) := by
  induction i with
  | zero => exact ⟨⟨fun i hi => hi, fun i _ j _ h => h⟩, fun a ha => by omega⟩
  | succ i ih =>
    obtain ⟨h1, h2⟩ := ih (by omega)
    obtain ⟨a1, -, a3, a4⟩ := sortIn_inv arr n i _ h1 h2 (n - (i + 1)) (by omega)
    refine ⟨a1, fun a ha b hab hb => ?_⟩
    by_cases h : a < i
    · exact a3 a h b hab hb
    · have : a = i := by omega
      subst this
      exact a4 b hab (by omega)

/-- C345: the numbers found are a permutation, in which the values do not increase. -/
theorem C345_sorted (arr : ℕ → ℝ) (n : ℕ) : Perm n (sortIdx arr n) ∧
    ∀ a b, a ≤ b → b < n → arr (sortIdx arr n b) ≤ arr (sortIdx arr n a) := by
  obtain ⟨h1, h2⟩ := sortOut_inv arr n n (le_refl _)
  refine ⟨h1, fun a b hab hb => ?_⟩
  rcases Nat.eq_or_lt_of_le hab with rfl | h
  · exact le_refl _
  · exact h2 a (by omega) b h hb

/-! ## The decomposition -/

theorem Decomp.permute {m n k : ℕ} {a : Matrix (Fin m) (Fin n) ℝ} {u : Matrix (Fin m) (Fin k) ℝ}
    {w : Fin k → ℝ} {v : Matrix (Fin n) (Fin k) ℝ} (h : Decomp a u w v) (σ : Fin k ≃ Fin k) :
    Decomp a (u.submatrix id σ) (w ∘ σ) (v.submatrix id σ) := by
  refine ⟨?_, ?_, ?_⟩
  · rw [h.eq]
    ext r c
    rw [Matrix.mul_apply, Matrix.mul_apply]
    simp only [Matrix.mul_diagonal, Matrix.transpose_apply, Matrix.submatrix_apply, Function.comp, id]
    exact (Equiv.sum_comp σ fun j => u r j * w j * v c j).symm
  · rw [Matrix.transpose_submatrix, Matrix.submatrix_mul _ _ _ id _ Function.bijective_id |>.symm, h.u_orth]
    exact Matrix.submatrix_one_equiv σ
  · rw [Matrix.transpose_submatrix, Matrix.submatrix_mul _ _ _ id _ Function.bijective_id |>.symm, h.v_orth]
    exact Matrix.submatrix_one_equiv σ

theorem Decomp.swap {m n k : ℕ} {a : Matrix (Fin m) (Fin n) ℝ} {u : Matrix (Fin m) (Fin k) ℝ}
    {w : Fin k → ℝ} {v : Matrix (Fin n) (Fin k) ℝ} (h : Decomp a u w v) : Decomp aᵀ v w u := by
  refine ⟨?_, h.v_orth, h.u_orth⟩
  rw [h.eq, Matrix.transpose_mul, Matrix.transpose_mul, Matrix.transpose_transpose,
    Matrix.diagonal_transpose, Matrix.mul_assoc]

/-- The permutation of `Perm`. -/
noncomputable def Perm.equiv {n : ℕ} {idx : ℕ → ℕ} (h : Perm n idx) : Fin n ≃ Fin n :=
  Equiv.ofBijective (fun i : Fin n => ⟨idx i, h.1 i i.2⟩) (Finite.injective_iff_bijective.mp
    fun i j hij => Fin.ext (h.2 i i.2 j j.2 (congrArg Fin.val hij)))

/-- The result of `svdInit` for a matrix with `m` rows and `n` columns. -/
structure Good (og : Mtx) (d : Svd) : Prop where
  n : d.n = min og.rows og.cols
  u_rows : d.u.rows = og.rows
  u_cols : d.u.cols = d.n
  v_rows : d.v.rows = og.cols
  v_cols : d.v.cols = d.n
  s_rows : d.s.rows = d.n
  s_cols : d.s.cols = d.n
  decomp : Decomp (mat og og.rows og.cols) (mat d.u og.rows d.n) (fun i => d.w i) (mat d.v og.cols d.n)
  sorted : ∀ a b, a ≤ b → b < d.n → d.w b ≤ d.w a
  diag : ∀ i < d.n, d.s.at_ i i = d.w i

/-- C346: from a right decomposition of the matrix, or of the turned matrix, comes a right decomposition of
the matrix, with singular values that do not increase. -/
theorem C346_decomposed (dsvd : Mtx → Option (Mtx × (ℕ → ℝ) × Mtx)) (og : Mtx) (s0 : ℕ → ℕ → ℝ) (d : Svd)
    (hd : Right dsvd (tall og)) (hok : svdInit dsvd og s0 = .ok d) : Good og d := by
  unfold svdInit at hok
  by_cases ht : og.rows < og.cols
  · have et : tall og = Verif.HoaSvd.transpose og := if_pos ht
    obtain ⟨u, w, v, e, h1, h2, h3, h4, h5⟩ := et ▸ hd
    simp only [if_pos ht, e] at hok
    split at hok
    · exact absurd hok (by simp)
    split at hok
    · exact absurd hok (by simp)
    obtain ⟨hp, hs⟩ := C345_sorted w (Verif.HoaSvd.transpose og).cols
    have hq := (h5.permute hp.equiv).swap
    simp only [Res.ok.injEq] at hok
    subst hok
    exact ⟨by show og.rows = _; omega, h3, h4, h1, h2, rfl, rfl, hq, hs, fun i _ => by simp⟩
  · have et : tall og = og := if_neg ht
    obtain ⟨u, w, v, e, h1, h2, h3, h4, h5⟩ := et ▸ hd
    simp only [if_neg ht, e] at hok
    split at hok
    · exact absurd hok (by simp)
    split at hok
    · exact absurd hok (by simp)
    obtain ⟨hp, hs⟩ := C345_sorted w og.cols
    have hq := h5.permute hp.equiv
    simp only [Res.ok.injEq] at hok
    subst hok
    exact ⟨by show og.cols = _; omega, h1, h2, h3, h4, rfl, rfl, hq, hs, fun i _ => by simp⟩

/-! ## Sizes -/

/-- C347: matrices of at most 576 elements are decomposed. -/
theorem C347_fits_partial (dsvd : Mtx → Option (Mtx × (ℕ → ℝ) × Mtx)) (og : Mtx) (s0 : ℕ → ℕ → ℝ)
    (hd : Right dsvd (tall og)) (h : og.rows * og.cols ≤ 576) :
    ∃ d, svdInit dsvd og s0 = .ok d := by
  unfold svdInit
  by_cases ht : og.rows < og.cols
  · have et : tall og = Verif.HoaSvd.transpose og := if_pos ht
    obtain ⟨u, w, v, e, -⟩ := et ▸ hd
    have h1 : ¬ 576 < (Verif.HoaSvd.transpose og).cols * (Verif.HoaSvd.transpose og).cols := by
      show ¬ 576 < og.rows * og.rows
      have := Nat.mul_le_mul_left og.rows ht.le
      omega
    have h2 : ¬ 576 < (Verif.HoaSvd.transpose og).rows * (Verif.HoaSvd.transpose og).cols := by
      show ¬ 576 < og.cols * og.rows
      rw [Nat.mul_comm]
      omega
    simp only [if_pos ht, e, if_neg h1, if_neg h2]
    exact ⟨_, rfl⟩
  · have et : tall og = og := if_neg ht
    obtain ⟨u, w, v, e, -⟩ := et ▸ hd
    have h1 : ¬ 576 < og.cols * og.cols := by
      have := Nat.mul_le_mul_right og.cols (not_lt.mp ht)
      omega
    have h2 : ¬ 576 < og.rows * og.cols := by omega
    simp only [if_neg ht, e, if_neg h1, if_neg h2]
    exact ⟨_, rfl⟩

/-- C347, refuted: for 49 coefficients and 22 loudspeakers the matrix is written behind its array. -/
theorem C347_refuted (dsvd : Mtx → Option (Mtx × (ℕ → ℝ) × Mtx)) (og : Mtx) (s0 : ℕ → ℕ → ℝ)
    (hr : og.rows = 49) (hc : og.cols = 22) (hd : dsvd og ≠ none) : svdInit dsvd og s0 = .ub := by
  unfold svdInit
  have ht : ¬ og.rows < og.cols := by omega
  obtain ⟨⟨u, w, v⟩, e⟩ := Option.ne_none_iff_exists'.mp hd
  have h1 : ¬ 576 < og.cols * og.cols := by rw [hc]; omega
  have h2 : 576 < og.rows * og.cols := by rw [hc, hr]; omega
  simp only [if_neg ht, e, if_neg h1, if_pos h2]

/-! ## The pseudo-inverse -/

theorem mult_mat (a b c : Mtx) (h : mult a b = some c) :
    c.rows = a.rows ∧ c.cols = b.cols ∧
      ∀ m n : ℕ, mat c m n = mat a m a.cols * mat b a.cols n := by
  unfold mult at h
  split at h
  · exact absurd h (by simp)
  simp only [Option.some.injEq] at h
  subst h
  refine ⟨rfl, rfl, fun m n => ?_⟩
  ext r j
  simp only [mat, Matrix.mul_apply]
  rw [Finset.sum_range]
  exact Finset.sum_congr rfl fun i _ => mul_comm _ _

/-- C348: when no singular value is between 0 and the limit, which comes from the second one, the result
is the pseudo-inverse. -/
theorem C348_inverse_partial (og : Mtx) (d : Svd) (hg : Good og d) (threshold stale : ℝ) (hn : 2 ≤ d.n)
    (hs : ∀ r < d.n, ∀ c < d.n, r ≠ c → d.s.at_ r c = 0)
    (hw : ∀ i < d.n, 0 ≤ d.w i) (ht : ∀ i < d.n, d.w i = 0 ∨ threshold * d.w 1 < d.w i) (h0 : 0 ≤ threshold) :
    ∃ p, pinv d threshold stale = some p ∧ p.rows = og.cols ∧ p.cols = og.rows ∧
      mat og og.rows og.cols * mat p og.cols og.rows * mat og og.rows og.cols = mat og og.rows og.cols ∧
      mat p og.cols og.rows * mat og og.rows og.cols * mat p og.cols og.rows = mat p og.cols og.rows := by
  unfold pinv
  simp only
  generalize hsi : (⟨d.s.rows, d.s.cols, _⟩ : Mtx) = si
  have e1 : si.rows = d.n := by rw [← hsi]; exact hg.s_rows
  have e2 : si.cols = d.n := by rw [← hsi]; exact hg.s_cols
  have e3 : mat si d.n d.n = diagonal fun i : Fin d.n => if d.w i = 0 then 0 else (d.w i)⁻¹ := by
    ext r c
    rw [← hsi]
    unfold mat
    simp only
    by_cases hrc : r = c
    · subst hrc
      rw [if_pos rfl, Matrix.diagonal_apply_eq, if_neg (show ¬ d.s.cols < 2 by rw [hg.s_cols]; omega), hg.diag r r.2,
        hg.diag 1 (by omega)]
      rcases ht r r.2 with h | h
      · rw [if_pos h, h, if_neg]
        exact not_lt.mpr (mul_nonneg (hw 1 (by omega)) h0)
      · have : d.w r ≠ 0 := by
          have := mul_nonneg h0 (hw 1 (by omega))
          exact (lt_of_le_of_lt this h).ne'
        rw [if_neg this, if_pos (by rw [mul_comm]; exact h), one_div]
    · rw [Matrix.diagonal_apply_ne _ hrc, if_neg (fun h => hrc (Fin.ext h))]
      exact hs r r.2 c c.2 (fun h => hrc (Fin.ext h))
  have m1 : ∃ q, mult d.v si = some q := by
    unfold mult
    rw [if_neg (by rw [hg.v_cols, e1]; simp)]
    exact ⟨_, rfl⟩
  obtain ⟨q, hq⟩ := m1
  obtain ⟨q1, q2, q3⟩ := mult_mat _ _ _ hq
  have m2 : ∃ p, mult q (Verif.HoaSvd.transpose d.u) = some p := by
    unfold mult
    rw [if_neg (by rw [q2, e2]; show ¬ d.n ≠ d.u.cols; rw [hg.u_cols]; simp)]
    exact ⟨_, rfl⟩
  obtain ⟨p, hp⟩ := m2
  obtain ⟨p1, p2, p3⟩ := mult_mat _ _ _ hp
  rw [hq]
  refine ⟨p, hp, by rw [p1, q1, hg.v_rows], by rw [p2]; exact hg.u_rows, ?_⟩
  have ep : mat p og.cols og.rows = mat d.v og.cols d.n *
      diagonal (fun i : Fin d.n => if d.w i = 0 then 0 else (d.w i)⁻¹) * (mat d.u og.rows d.n)ᵀ := by
    rw [p3, q2, e2, q3, hg.v_cols, e3]
    rfl
  have hu := hg.decomp.u_orth
  have hv := hg.decomp.v_orth
  rw [ep, hg.decomp.eq]
  generalize mat d.u og.rows d.n = U at *
  generalize mat d.v og.cols d.n = V at *
  have k1 : ∀ x y z : Fin d.n → ℝ, U * diagonal x * Vᵀ * (V * diagonal y * Uᵀ) * (U * diagonal z * Vᵀ) =
      U * diagonal (fun i => x i * y i * z i) * Vᵀ := by
    intro x y z
    calc _ = U * diagonal x * (Vᵀ * V) * diagonal y * (Uᵀ * U) * diagonal z * Vᵀ := by
          simp only [Matrix.mul_assoc]
      _ = U * (diagonal x * diagonal y * diagonal z) * Vᵀ := by
          rw [hv, hu, Matrix.mul_one, Matrix.mul_one]
          simp only [Matrix.mul_assoc]
      _ = _ := by rw [Matrix.diagonal_mul_diagonal, Matrix.diagonal_mul_diagonal]
  have k2 : ∀ x y z : Fin d.n → ℝ, V * diagonal x * Uᵀ * (U * diagonal y * Vᵀ) * (V * diagonal z * Uᵀ) =
      V * diagonal (fun i => x i * y i * z i) * Uᵀ := by
    intro x y z
    calc _ = V * diagonal x * (Uᵀ * U) * diagonal y * (Vᵀ * V) * diagonal z * Uᵀ := by
          simp only [Matrix.mul_assoc]
      _ = V * (diagonal x * diagonal y * diagonal z) * Uᵀ := by
          rw [hv, hu, Matrix.mul_one, Matrix.mul_one]
          simp only [Matrix.mul_assoc]
      _ = _ := by rw [Matrix.diagonal_mul_diagonal, Matrix.diagonal_mul_diagonal]
  rw [k1, k2]
  constructor
  · congr 3
    funext i
    split
    · rename_i h; rw [h]; ring
    · rename_i h; field_simp
  · congr 3
    funext i
    split
    · ring
    · rename_i h; field_simp

/-- A matrix with the singular values 1 and 1/1000000, and its decomposition. -/
noncomputable def small : Mtx :=
  ⟨2, 2, fun r c => if r = c then (if r = 0 then 1 else 1 / 1000000) else 0⟩

noncomputable def smallSvd : Svd :=
  ⟨2, fun i => if i = 0 then 1 else 1 / 1000000, ⟨2, 2, fun r c => if r = c then 1 else 0⟩, small,
    ⟨2, 2, fun r c => if r = c then 1 else 0⟩⟩

theorem unit_mat (n : ℕ) : mat ⟨n, n, fun r c => if r = c then 1 else 0⟩ n n = 1 := by
  ext r c
  by_cases h : r = c
  · subst h
    rw [Matrix.one_apply_eq]
    exact if_pos rfl
  · rw [Matrix.one_apply_ne h]
    exact if_neg fun e => h (Fin.ext e)

theorem small_mat : mat small 2 2 = diagonal fun i : Fin 2 => smallSvd.w i := by
  ext r c
  by_cases h : r = c
  · subst h
    rw [Matrix.diagonal_apply_eq]
    exact if_pos rfl
  · rw [Matrix.diagonal_apply_ne _ h]
    exact if_neg fun e => h (Fin.ext e)

theorem small_good : Good small smallSvd := by
  have hd : Decomp (mat small 2 2) (mat smallSvd.u 2 2) (fun i : Fin 2 => smallSvd.w i)
      (mat smallSvd.v 2 2) := by
    have hu : mat smallSvd.u 2 2 = 1 := unit_mat 2
    have hv : mat smallSvd.v 2 2 = 1 := unit_mat 2
    rw [hu, hv, small_mat]
    exact ⟨by rw [Matrix.one_mul, Matrix.transpose_one, Matrix.mul_one],
      by rw [Matrix.transpose_one, Matrix.mul_one], by rw [Matrix.transpose_one, Matrix.mul_one]⟩
  refine ⟨rfl, rfl, rfl, rfl, rfl, rfl, rfl, hd, ?_, ?_⟩
  · intro a b hab hb
    simp only [smallSvd]
    split <;> split <;> first | omega | norm_num
  · intro i _
    simp [smallSvd, small]

/-- C348, refuted: a singular value is inverted although it is less than the threshold times the largest
one. -/
theorem C348_refuted (stale : ℝ) : ∃ (og : Mtx) (d : Svd) (p : Mtx), Good og d ∧
    d.w 1 < 1 / 100000 * d.w 0 ∧ pinv d (1 / 100000) stale = some p ∧ p.at_ 1 1 = 1 / d.w 1 := by
  refine ⟨small, smallSvd, _, small_good, by norm_num [smallSvd], rfl, ?_⟩
  norm_num [smallSvd, small, Verif.HoaSvd.transpose, Finset.sum_range_succ]

/-! ## The singular values that are kept -/

theorem keepLoop_eq (w : ℕ → ℝ) (t : ℝ) (f cnt : ℕ) (p : ℕ → ℝ) : ∃ m, cnt ≤ m ∧ m ≤ cnt + f ∧
    (∀ k, keepLoop w t f cnt p k = if cnt ≤ k ∧ k < m then 1 else p k) ∧
    (∀ k, cnt ≤ k → k + 1 < m → t ≤ w k) ∧ (m < cnt + f → cnt < m ∧ w (m - 1) < t) := by
  induction f generalizing cnt p with
  | zero =>
    refine ⟨cnt, le_refl _, le_refl _, fun k => ?_, fun k _ _ => by omega, fun h => by omega⟩
    rw [if_neg (by omega)]
    rfl
  | succ f ih =>
    simp only [keepLoop]
    split
    · rename_i hlt
      refine ⟨cnt + 1, by omega, by omega, fun k => ?_, fun k _ _ => by omega, fun _ => ⟨by omega, hlt⟩⟩
      simp only
      by_cases hk : k = cnt
      · rw [if_pos hk, if_pos (by omega)]
      · rw [if_neg hk, if_neg (by omega)]
    · rename_i hlt
      obtain ⟨m, h1, h2, h3, h4, h5⟩ := ih (cnt + 1) fun k => if k = cnt then 1 else p k
      refine ⟨m, by omega, by omega, fun k => ?_, fun k hk hm => ?_, fun h => ?_⟩
      · rw [h3 k]
        by_cases hk : k = cnt
        · rw [if_neg (by omega), if_pos hk, if_pos (by omega)]
        · by_cases hk' : cnt + 1 ≤ k ∧ k < m
          · rw [if_pos hk', if_pos (by omega)]
          · rw [if_neg hk', if_neg hk, if_neg (by omega)]
      · by_cases hk' : k = cnt
        · rw [hk']; exact not_lt.mp hlt
        · exact h4 k (by omega) hm
      · have := h5 (by omega)
        exact ⟨by omega, this.2⟩

/-- `kept` is the number of the first singular vectors that are used: all whose values are at least a
thousandth of the largest one, and at most one more. -/
structure Kept (w : ℕ → ℝ) (n kept : ℕ) : Prop where
  le : kept ≤ n
  pos : 0 < n → 0 < kept
  all : ∀ k < n, w 0 / 1000 ≤ w k → k < kept
  few : ∀ k, 0 < k → k + 1 < kept → w 0 / 1000 ≤ w k

/-- C349: at most one of the singular vectors below the limit is used. -/
theorem C349_kept_partial (w : ℕ → ℝ) (n : ℕ) (hn : 0 < n)
    (hw : ∀ a b, a ≤ b → b < n → w b ≤ w a) :
    ∃ kept, Kept w n kept ∧ ∀ k, isCol w n k = if k < kept then 1 else 0 := by
  unfold isCol
  obtain ⟨m, h1, h2, h3, h4, h5⟩ := keepLoop_eq w (1 / 1000 * w 0) (n - 1) 1 fun k => if k = 0 then 1 else 0
  refine ⟨m, ⟨by omega, fun _ => by omega, fun k hk hle => ?_, fun k hk hm => ?_⟩, fun k => ?_⟩
  · by_contra hc
    obtain ⟨a1, a2⟩ := h5 (by omega)
    have := hw (m - 1) k (by omega) hk
    linarith
  · have := h4 k hk hm
    linarith
  · rw [h3 k]
    by_cases hk : k = 0
    · rw [if_neg (by omega), if_pos hk, if_pos (by omega)]
    · by_cases hm : k < m
      · rw [if_pos (by omega), if_pos hm]
      · rw [if_neg (by omega), if_neg hk, if_neg hm]

/-- C349, refuted: a singular vector is used although its value is less than a thousandth of the largest
one. -/
theorem C349_refuted : ∃ w : ℕ → ℝ, (∀ a b, a ≤ b → b < 2 → w b ≤ w a) ∧ w 1 < w 0 / 1000 ∧
    isCol w 2 1 = 1 := by
  refine ⟨fun i => if i = 0 then 1 else 0, fun a b hab hb => ?_, by norm_num, ?_⟩
  · simp only
    split <;> split <;> first | omega | norm_num
  · unfold isCol
    simp [keepLoop]

/-! ## The rendering matrix -/

/-- The sum of the squares. -/
noncomputable def energy (a : Mtx) : ℝ := ∑ r ∈ Finset.range a.rows, ∑ c ∈ Finset.range a.cols, a.at_ r c ^ 2

theorem normFro_eq (a : Mtx) : normFro a = Real.sqrt (energy a) := by
  unfold normFro energy
  simp only [sq]

theorem energy_nonneg (a : Mtx) : 0 ≤ energy a :=
  Finset.sum_nonneg fun _ _ => Finset.sum_nonneg fun _ _ => sq_nonneg _

theorem energy_normalise (a : Mtx) (h : ∃ r c, (normalise a).at_ r c ≠ 0) : energy (normalise a) = 1 := by
  have h0 : normFro a ≠ 0 := by
    intro h0
    obtain ⟨r, c, h⟩ := h
    apply h
    simp [normalise, h0]
  have hp : 0 < energy a := by
    rcases (energy_nonneg a).lt_or_eq with h | h
    · exact h
    · rw [normFro_eq, ← h, Real.sqrt_zero] at h0
      exact absurd rfl h0
  have : energy (normalise a) = energy a * (1 / normFro a) ^ 2 := by
    unfold energy normalise
    simp only [mul_pow, ← Finset.sum_mul]
  rw [this, normFro_eq, one_div, inv_pow, Real.sq_sqrt hp.le, mul_inv_cancel₀ hp.ne']

theorem normalise_scale (a : Mtx) (h : ∃ r c, (normalise a).at_ r c ≠ 0) :
    ∃ g > 0, ∀ r c, (normalise a).at_ r c = g * a.at_ r c := by
  refine ⟨1 / normFro a, ?_, fun r c => by simp only [normalise]; ring⟩
  have h0 : normFro a ≠ 0 := by
    intro h0
    obtain ⟨r, c, h⟩ := h
    apply h
    simp [normalise, h0]
  rw [normFro_eq] at *
  exact one_div_pos.mpr (lt_of_le_of_ne (Real.sqrt_nonneg _) h0.symm)

/-- C350: the squares of the elements of the rendering matrix sum up to 1. -/
theorem C350_energy (d : Svd) (ew : ℕ → ℝ) (k l : ℕ) (poles : Bool) (m : Mtx)
    (h : render d ew k l poles = some m) (h0 : ∃ r c, m.at_ r c ≠ 0) : energy m = 1 := by
  unfold render at h
  obtain ⟨x, -, rfl⟩ := Option.map_eq_some_iff.mp h
  simp only at h0 ⊢
  split
  · rename_i hp
    rw [if_pos hp] at h0
    exact energy_normalise _ h0
  · rename_i hp
    rw [if_neg hp] at h0
    exact energy_normalise _ h0

/-- C350: up to a positive factor the matrix is V Uᵀ with the singular vectors that are kept and the weights
of the coefficients, where the poles are spread over the loudspeakers of a plane. -/
theorem C350_matrix (og : Mtx) (d : Svd) (hg : Good og d) (ew : ℕ → ℝ) (l : ℕ) (poles : Bool) (m : Mtx)
    (hl : l = og.cols) (hn : 0 < d.n)
    (h : render d ew og.rows l poles = some m) (h0 : ∃ r c, m.at_ r c ≠ 0) :
    ∃ (kept : ℕ) (x : ℕ → ℕ → ℝ) (g : ℝ), Kept d.w d.n kept ∧ 0 < g ∧
      (∀ r, ∀ c < og.rows, x r c = ew c * ∑ j ∈ Finset.range kept, d.v.at_ r j * d.u.at_ c j) ∧
      m.cols = og.rows ∧
      (poles = false → m.rows = l ∧ ∀ r, ∀ c < og.rows, m.at_ r c = g * x r c) ∧
      (poles = true → m.rows = l - 2 ∧ ∀ r, ∀ c < og.rows, m.at_ r c =
        g * (x r c + (x (l - 2) c + x (l - 2 + 1) c) / Real.sqrt (l - 2 : ℕ))) := by
  obtain ⟨kept, hk, hi⟩ := C349_kept_partial d.w d.n hn hg.sorted
  unfold render at h
  obtain ⟨y, hy, rfl⟩ := Option.map_eq_some_iff.mp h
  unfold mult at hy
  split at hy
  · exact absurd hy (by simp)
  simp only [Option.some.injEq] at hy
  have hx : ∀ r, ∀ c < og.rows, (diagMult y ew og.rows).at_ r c =
      ew c * ∑ j ∈ Finset.range kept, d.v.at_ r j * d.u.at_ c j := by
    intro r c hc
    subst hy
    simp only [diagMult, Verif.HoaSvd.transpose, if_pos hc]
    rw [mul_comm]
    congr 1
    rw [hg.v_cols, ← Finset.sum_subset (Finset.range_subset_range.mpr hk.le)]
    · refine Finset.sum_congr rfl fun j hj => ?_
      rw [Finset.mem_range] at hj
      rw [if_pos (by have := hk.le; omega), hi, if_pos hj]
      ring
    · intro j hj hj'
      rw [Finset.mem_range] at hj hj'
      rw [if_pos hj, hi, if_neg hj']
      ring
  have ec : y.cols = og.rows := by subst hy; exact hg.u_rows
  have er : y.rows = l := by subst hy; rw [hl]; exact hg.v_rows
  simp only at h0 ⊢
  cases poles with
  | false =>
    simp only [Bool.false_eq_true, if_false] at h0 ⊢
    obtain ⟨g, hg0, hgm⟩ := normalise_scale _ h0
    exact ⟨kept, (diagMult y ew og.rows).at_, g, hk, hg0, hx, ec, fun _ => ⟨er, fun r c _ => hgm r c⟩,
      fun h => absurd h (by simp)⟩
  | true =>
    simp only [if_true] at h0 ⊢
    obtain ⟨g, hg0, hgm⟩ := normalise_scale _ h0
    have h1 : ∃ r c, (normalise (diagMult y ew og.rows)).at_ r c ≠ 0 := by
      by_contra hc
      push Not at hc
      obtain ⟨r, c, h0⟩ := h0
      apply h0
      rw [hgm]
      simp only [foldPoles, hc]
      ring
    obtain ⟨g', hg0', hgm'⟩ := normalise_scale _ h1
    refine ⟨kept, (diagMult y ew og.rows).at_, g * g', hk, mul_pos hg0 hg0', hx, ec,
      fun h => absurd h (by simp), fun _ => ⟨rfl, fun r c _ => ?_⟩⟩
    rw [hgm]
    simp only [foldPoles, hgm']
    ring

/-! ## Examples -/

/-- The decomposition of the unit matrices is right. -/
example (n : ℕ) : Right (fun a => some (a, fun _ => 1, a)) ⟨n, n, fun r c => if r = c then 1 else 0⟩ := by
  refine ⟨_, _, _, rfl, rfl, rfl, rfl, rfl, ?_⟩
  show Decomp (mat _ n n) (mat _ n n) _ (mat _ n n)
  rw [unit_mat n]
  exact ⟨by simp, by simp, by simp⟩

/-- A matrix whose pseudo-inverse is right. -/
example : ∃ p, pinv smallSvd (1 / 100000) 0 = some p ∧ mat small 2 2 * mat p 2 2 * mat small 2 2 = mat small 2 2 := by
  obtain ⟨p, h1, -, -, h2, -⟩ := C348_inverse_partial small smallSvd small_good (1 / 100000) 0 (le_refl 2)
    (fun r _ c _ hrc => if_neg hrc) (fun i _ => by simp only [smallSvd]; split <;> norm_num)
    (fun i _ => Or.inr (by simp only [smallSvd]; rw [if_neg one_ne_zero]; split <;> norm_num)) (by norm_num)
  exact ⟨p, h1, h2⟩

/-- The rendering matrix of that matrix. -/
example : ∃ m, render smallSvd (fun _ => 1) 2 2 false = some m ∧ m.at_ 0 0 ≠ 0 := by
  refine ⟨_, rfl, ?_⟩
  have h : (diagMult ⟨2, 2, fun r c => ∑ i ∈ Finset.range 2, (Verif.HoaSvd.transpose smallSvd.u).at_ i c *
      (diagMult smallSvd.v (isCol smallSvd.w smallSvd.n) smallSvd.n).at_ r i⟩ (fun _ => 1) 2).at_ 0 0 = 1 := by
    simp [diagMult, Verif.HoaSvd.transpose, smallSvd, Finset.sum_range_succ, isCol, keepLoop]
  intro hc
  simp only [normalise, Bool.false_eq_true, if_false] at hc
  rcases mul_eq_zero.mp hc with h' | h'
  · exact absurd (h.symm.trans h') one_ne_zero
  · rw [one_div, inv_eq_zero, normFro_eq, Real.sqrt_eq_zero (energy_nonneg _)] at h'
    have h2 := (Finset.sum_eq_zero_iff_of_nonneg fun r _ => Finset.sum_nonneg fun c _ => sq_nonneg _).mp h' 0
      (by show 0 ∈ Finset.range 2; simp)
    have h3 := (Finset.sum_eq_zero_iff_of_nonneg fun c _ => sq_nonneg _).mp h2 0
      (by show 0 ∈ Finset.range 2; simp)
    have h4 := pow_eq_zero_iff (two_ne_zero) |>.mp h3
    exact absurd (h.symm.trans h4) one_ne_zero

end Verif.Props.HoaSvd
