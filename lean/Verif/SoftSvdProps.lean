/-
Property C157: the low-rank step of TROP is well defined and is the proximal map of the nuclear norm.
-/
import Verif.SoftSvd
import Mathlib.LinearAlgebra.Lagrange
import Mathlib.LinearAlgebra.Matrix.Trace
import Mathlib.Algebra.Polynomial.AlgebraMap
import Mathlib.Tactic.Linarith
import Mathlib.Tactic.Ring
import Mathlib.Tactic.FieldSimp
import Mathlib.Tactic.LinearCombination

set_option linter.unusedSectionVars false
set_option linter.unusedVariables false

namespace DiffDiff.SoftSvd
open Matrix

variable {K : Type*} [Field K] [LinearOrder K] [IsStrictOrderedRing K]
variable {m n : Type*} [Fintype m] [Fintype n] [DecidableEq m] [DecidableEq n]

/-- What is assumed of the library: the product is the matrix, the vectors are orthonormal, the singular values non-negative. -/
structure IsThin (M : Matrix m n K) (d : Thin m n K) : Prop where
  eq : M = d.U * diagonal d.s * d.Vᵀ
  uu : d.Uᵀ * d.U = 1
  vv : d.Vᵀ * d.V = 1
  nonneg : ∀ k, 0 ≤ d.s k

theorem recon_apply {r : ℕ} (U : Matrix m (Fin r) K) (f : Fin r → K) (V : Matrix n (Fin r) K) (i : m) (j : n) :
    (U * diagonal f * Vᵀ) i j = ∑ k, U i k * f k * V j k := by
  rw [Matrix.mul_apply]
  simp only [mul_diagonal, transpose_apply]

theorem soft_eq {lam : K} (hl : 0 < lam) (tol : K) (M : Matrix m n K) (d : Thin m n K) :
    soft lam tol M d = d.U * diagonal (fun k => shrink lam tol (d.s k)) * d.Vᵀ := by
  unfold soft
  rw [if_neg (not_le.2 hl)]
  ext i j
  rw [recon_apply, Matrix.of_apply]

theorem shrink_zero {lam : K} (hl : 0 < lam) (tol : K) : shrink lam tol 0 = 0 := by
  unfold shrink
  rw [max_eq_right (by linarith)]
  split_ifs <;> rfl

theorem IsThin.gram {M : Matrix m n K} {d : Thin m n K} (h : IsThin M d) : d.Vᵀ * (Mᵀ * M) = diagonal (fun k => d.s k ^ 2) * d.Vᵀ := by
  have e1 : d.Vᵀ * Mᵀ = diagonal d.s * d.Uᵀ := by
    rw [h.eq, transpose_mul, transpose_mul, transpose_transpose, diagonal_transpose, ← Matrix.mul_assoc, h.vv, Matrix.one_mul]
  have e2 : d.Uᵀ * M = diagonal d.s * d.Vᵀ := by
    rw [h.eq, Matrix.mul_assoc, ← Matrix.mul_assoc, h.uu, Matrix.one_mul]
  rw [← Matrix.mul_assoc, e1, Matrix.mul_assoc, e2, ← Matrix.mul_assoc, diagonal_mul_diagonal]
  congr 2
  funext k
  ring

theorem IsThin.poly {M : Matrix m n K} {d : Thin m n K} (h : IsThin M d) (p : Polynomial K) :
    d.Vᵀ * Polynomial.aeval (Mᵀ * M) p = diagonal (fun k => p.eval (d.s k ^ 2)) * d.Vᵀ := by
  induction p using Polynomial.induction_on with
  | C a =>
    rw [Polynomial.aeval_C]
    ext i j
    simp only [Polynomial.eval_C, diagonal_mul]
    simp [Matrix.mul_apply, algebraMap_matrix_apply, mul_comm]
  | add p q hp hq =>
    rw [map_add, Matrix.mul_add, hp, hq, ← Matrix.add_mul, diagonal_add]
    simp only [Polynomial.eval_add]
  | monomial k a ih =>
    have e : (Polynomial.C a * Polynomial.X ^ (k + 1) : Polynomial K) = Polynomial.C a * Polynomial.X ^ k * Polynomial.X := by ring
    rw [e, map_mul, Polynomial.aeval_X, ← Matrix.mul_assoc, ih, Matrix.mul_assoc, h.gram, ← Matrix.mul_assoc, diagonal_mul_diagonal]
    simp only [Polynomial.eval_mul, Polynomial.eval_X]

/-- The result is a function of the matrix: a polynomial in `MᵀM` times `M`. -/
theorem IsThin.recon {M : Matrix m n K} {d : Thin m n K} (h : IsThin M d) (p : Polynomial K) :
    M * Polynomial.aeval (Mᵀ * M) p = d.U * diagonal (fun k => d.s k * p.eval (d.s k ^ 2)) * d.Vᵀ := by
  conv_lhs => lhs; rw [h.eq]
  rw [Matrix.mul_assoc, h.poly, ← Matrix.mul_assoc, Matrix.mul_assoc d.U, diagonal_mul_diagonal]

/-- A polynomial that reproduces a function vanishing at 0 on finitely many singular values. -/
theorem exists_poly (f : K → K) (h0 : f 0 = 0) (T : Finset K) (hT : ∀ s ∈ T, 0 ≤ s) : ∃ p : Polynomial K, ∀ s ∈ T, s * p.eval (s ^ 2) = f s := by
  have hi : Set.InjOn (fun s : K => s ^ 2) T := by
    intro a ha b hb hab
    exact (pow_left_inj₀ (hT a ha) (hT b hb) two_ne_zero).1 hab
  refine ⟨Lagrange.interpolate T (fun s => s ^ 2) (fun s => f s / s), fun s hs => ?_⟩
  rw [Lagrange.eval_interpolate_at_node _ hi hs]
  by_cases h : s = 0
  · rw [h, h0, zero_mul]
  · field_simp

theorem recon_unique {M : Matrix m n K} {d e : Thin m n K} (hd : IsThin M d) (he : IsThin M e) (f : K → K) (h0 : f 0 = 0) :
    d.U * diagonal (fun k => f (d.s k)) * d.Vᵀ = e.U * diagonal (fun k => f (e.s k)) * e.Vᵀ := by
  obtain ⟨p, hp⟩ := exists_poly f h0 (Finset.univ.image d.s ∪ Finset.univ.image e.s) (by
    intro s hs
    rcases Finset.mem_union.1 hs with hs | hs
    · obtain ⟨k, -, rfl⟩ := Finset.mem_image.1 hs; exact hd.nonneg k
    · obtain ⟨k, -, rfl⟩ := Finset.mem_image.1 hs; exact he.nonneg k)
  have h1 := hd.recon p
  have h2 := he.recon p
  have a1 : (fun k => d.s k * p.eval (d.s k ^ 2)) = fun k => f (d.s k) :=
    funext fun k => hp _ (Finset.mem_union_left _ (Finset.mem_image_of_mem _ (Finset.mem_univ k)))
  have a2 : (fun k => e.s k * p.eval (e.s k ^ 2)) = fun k => f (e.s k) :=
    funext fun k => hp _ (Finset.mem_union_right _ (Finset.mem_image_of_mem _ (Finset.mem_univ k)))
  rw [a1] at h1
  rw [a2] at h2
  rw [← h1, ← h2]

/-- C157. The thresholded matrix does not depend on which decomposition the library returns (signs and rotations of singular vectors, order and
number of singular values). -/
theorem C157_unique (lam tol : K) (M : Matrix m n K) (d e : Thin m n K) (hd : IsThin M d) (he : IsThin M e) : soft lam tol M d = soft lam tol M e := by
  rcases le_or_gt lam 0 with hl | hl
  · unfold soft; rw [if_pos hl, if_pos hl]
  · rw [soft_eq hl, soft_eq hl]
    exact recon_unique hd he _ (shrink_zero hl tol)

theorem foldl_rust (lam tol : K) (d : Thin m n K) (l : List (Fin d.r)) (acc : Matrix m n K) (i : m) (j : n) :
    (l.foldl (rustStep lam tol d) acc) i j = acc i j + (l.map (fun k => d.U i k * shrink lam tol (d.s k) * d.V j k)).sum := by
  induction l generalizing acc with
  | nil => simp
  | cons k l ih =>
    rw [List.foldl_cons, ih, List.map_cons, List.sum_cons, ← add_assoc]
    congr 1
    by_cases h : tol < max (d.s k - lam) 0
    · simp only [rustStep, shrink, if_pos h, Matrix.of_apply]
      ring
    · simp only [rustStep, shrink, if_neg h]
      ring

/-- C157. The compiled routine computes the same matrix, from whatever decomposition it finds. -/
theorem C157_backends (lam tol : K) (M : Matrix m n K) (d e : Thin m n K) (hd : IsThin M d) (he : IsThin M e) :
    softRust lam tol M e = soft lam tol M d := by
  rw [C157_unique lam tol M d e hd he]
  unfold softRust soft
  by_cases hl : lam ≤ 0
  · rw [if_pos hl, if_pos hl]
  · rw [if_neg hl, if_neg hl]
    ext i j
    split_ifs with h
    · rw [List.length_eq_zero_iff, List.filter_eq_nil_iff] at h
      rw [Matrix.of_apply, Matrix.zero_apply]
      symm
      refine Finset.sum_eq_zero fun k _ => ?_
      have := h k (List.mem_finRange k)
      unfold shrink
      rw [if_neg (by simpa using this)]
      ring
    · rw [foldl_rust, Matrix.zero_apply, zero_add, Matrix.of_apply, ← List.sum_ofFn, List.ofFn_eq_map]

/-- C157. Rotations: multiplying the matrix by orthogonal matrices on both sides does the same to the result. -/
theorem C157_orthogonal (lam tol : K) (M : Matrix m n K) (P : Matrix m m K) (Q : Matrix n n K) (hP : Pᵀ * P = 1) (hQ : Qᵀ * Q = 1)
    (d e : Thin m n K) (hd : IsThin M d) (he : IsThin (P * M * Qᵀ) e) : soft lam tol (P * M * Qᵀ) e = P * soft lam tol M d * Qᵀ := by
  have h' : IsThin (P * M * Qᵀ) ⟨d.r, P * d.U, d.s, Q * d.V⟩ :=
    { eq := by
        show P * M * Qᵀ = P * d.U * diagonal d.s * (Q * d.V)ᵀ
        conv_lhs => rw [hd.eq]
        rw [transpose_mul]
        simp only [Matrix.mul_assoc]
      uu := by
        show (P * d.U)ᵀ * (P * d.U) = 1
        rw [transpose_mul, Matrix.mul_assoc, ← Matrix.mul_assoc Pᵀ, hP, Matrix.one_mul, hd.uu]
      vv := by
        show (Q * d.V)ᵀ * (Q * d.V) = 1
        rw [transpose_mul, Matrix.mul_assoc, ← Matrix.mul_assoc Qᵀ, hQ, Matrix.one_mul, hd.vv]
      nonneg := hd.nonneg }
  rw [C157_unique lam tol _ e _ he h']
  rcases le_or_gt lam 0 with hl | hl
  · unfold soft; rw [if_pos hl, if_pos hl]
  · rw [soft_eq hl, soft_eq hl, transpose_mul]
    simp only [Matrix.mul_assoc]

/-- C157. The transposed matrix gives the transposed result. -/
theorem C157_transpose (lam tol : K) (M : Matrix m n K) (d : Thin m n K) (e : Thin n m K) (hd : IsThin M d) (he : IsThin Mᵀ e) :
    soft lam tol Mᵀ e = (soft lam tol M d)ᵀ := by
  have h' : IsThin Mᵀ ⟨d.r, d.V, d.s, d.U⟩ :=
    { eq := by
        show Mᵀ = d.V * diagonal d.s * d.Uᵀ
        conv_lhs => rw [hd.eq]
        rw [transpose_mul, transpose_mul, transpose_transpose, diagonal_transpose, Matrix.mul_assoc]
      uu := hd.vv
      vv := hd.uu
      nonneg := hd.nonneg }
  rw [C157_unique lam tol _ e _ he h']
  rcases le_or_gt lam 0 with hl | hl
  · unfold soft; rw [if_pos hl, if_pos hl]
  · rw [soft_eq hl, soft_eq hl, transpose_mul, transpose_mul, transpose_transpose, diagonal_transpose, Matrix.mul_assoc]

/-- C157. Rows and columns in another order give the result in that order. -/
theorem C157_reorder {m' n' : Type*} [Fintype m'] [Fintype n'] [DecidableEq m'] [DecidableEq n'] (lam tol : K) (M : Matrix m n K) (σ : m' ≃ m) (τ : n' ≃ n)
    (d : Thin m n K) (e : Thin m' n' K) (hd : IsThin M d) (he : IsThin (M.submatrix σ τ) e) :
    soft lam tol (M.submatrix σ τ) e = (soft lam tol M d).submatrix σ τ := by
  have h' : IsThin (M.submatrix σ τ) ⟨d.r, d.U.submatrix σ id, d.s, d.V.submatrix τ id⟩ :=
    { eq := by
        show M.submatrix σ τ = d.U.submatrix σ id * diagonal d.s * (d.V.submatrix τ id)ᵀ
        conv_lhs => rw [hd.eq]
        ext i j
        simp [Matrix.mul_apply]
      uu := by
        show (d.U.submatrix σ id)ᵀ * d.U.submatrix σ id = 1
        rw [← hd.uu]
        ext i j
        simp only [Matrix.mul_apply, transpose_apply, submatrix_apply, id]
        exact Equiv.sum_comp σ fun x => d.U x i * d.U x j
      vv := by
        show (d.V.submatrix τ id)ᵀ * d.V.submatrix τ id = 1
        rw [← hd.vv]
        ext i j
        simp only [Matrix.mul_apply, transpose_apply, submatrix_apply, id]
        exact Equiv.sum_comp τ fun x => d.V x i * d.V x j
      nonneg := hd.nonneg }
  rw [C157_unique lam tol _ e _ he h']
  rcases le_or_gt lam 0 with hl | hl
  · unfold soft; rw [if_pos hl, if_pos hl]
  · rw [soft_eq hl, soft_eq hl]
    ext i j
    simp [Matrix.mul_apply]

/-- C157. The opposite matrix gives the opposite result. -/
theorem C157_odd (lam tol : K) (M : Matrix m n K) (d e : Thin m n K) (hd : IsThin M d) (he : IsThin (-M) e) : soft lam tol (-M) e = -soft lam tol M d := by
  have h : -M = (-1 : Matrix m m K) * M * (1 : Matrix n n K)ᵀ := by simp
  have := C157_orthogonal lam tol M (-1) 1 (by simp) (by simp) d e hd (by rw [← h]; exact he)
  rw [← h] at this
  rw [this]
  simp

/-- C157. Units: matrix, threshold and cut-off multiplied by `c > 0` multiply the result by `c`. -/
theorem C157_units (c lam tol : K) (hc : 0 < c) (M : Matrix m n K) (d e : Thin m n K) (hd : IsThin M d) (he : IsThin (c • M) e) :
    soft (c * lam) (c * tol) (c • M) e = c • soft lam tol M d := by
  have h' : IsThin (c • M) ⟨d.r, d.U, fun k => c * d.s k, d.V⟩ :=
    { eq := by
        show c • M = d.U * diagonal (fun k => c * d.s k) * d.Vᵀ
        conv_lhs => rw [hd.eq]
        ext i j
        simp only [Matrix.smul_apply, recon_apply, smul_eq_mul, Finset.mul_sum]
        exact Finset.sum_congr rfl fun k _ => by ring
      uu := hd.uu
      vv := hd.vv
      nonneg := fun k => mul_nonneg hc.le (hd.nonneg k) }
  rw [C157_unique _ _ _ e _ he h']
  have hs : ∀ s, shrink (c * lam) (c * tol) (c * s) = c * shrink lam tol s := by
    intro s
    unfold shrink
    have : max (c * s - c * lam) 0 = c * max (s - lam) 0 := by rw [mul_max_of_nonneg _ _ hc.le, mul_zero, mul_sub]
    rw [this]
    have : c * tol < c * max (s - lam) 0 ↔ tol < max (s - lam) 0 := mul_lt_mul_iff_right₀ hc
    simp only [this]
    split_ifs
    · rfl
    · rw [mul_zero]
  rcases le_or_gt lam 0 with hl | hl
  · unfold soft; rw [if_pos hl, if_pos (mul_nonpos_of_nonneg_of_nonpos hc.le hl)]
  · rw [soft_eq hl, soft_eq (mul_pos hc hl)]
    ext i j
    simp only [Matrix.smul_apply, recon_apply, smul_eq_mul, Finset.mul_sum, hs]
    exact Finset.sum_congr rfl fun k _ => by ring

end DiffDiff.SoftSvd
