import Verif.Svd
import Verif.OlsProps
import Verif.VcovProps
import Mathlib.LinearAlgebra.Matrix.NonsingularInverse
import Mathlib.LinearAlgebra.Matrix.Block
import Mathlib.Tactic.FieldSimp
import Mathlib.Tactic.NormNum
import Mathlib.Tactic.FinCases

set_option linter.unusedSectionVars false

namespace DiffDiff.Svd
open Matrix DiffDiff.Ols DiffDiff.Vcov

variable {K : Type*} [Field K] [LinearOrder K] [IsStrictOrderedRing K]
variable {n k : ℕ} {C : Type*} [DecidableEq C]

/-! ### Specification -/

/-- `d` is a thin singular value decomposition of `X`: `X = U diag(s) Vᵀ` with orthonormal columns in `U` and `V` and
nonnegative singular values, in any order. -/
structure IsSvd (X : Matrix (Fin n) (Fin k) K) (d : Dec n k K) : Prop where
  eq : X = d.U * diagonal d.s * d.Vᵀ
  uu : d.Uᵀ * d.U = 1
  vv : d.Vᵀ * d.V = 1
  nonneg : ∀ i, 0 ≤ d.s i

/-- `M` is the largest singular value. -/
def IsLargest (s : Fin k → K) (M : K) : Prop := (∀ i, s i ≤ M) ∧ ∃ i, s i = M

/-- Sum of squares of a vector. -/
def sq {m : ℕ} (v : Fin m → K) : K := ∑ i, v i ^ 2

/-! ### Helper lemmas -/

theorem foldl_max_le (l : List K) : ∀ a M : K, (l.foldl max a ≤ M ↔ a ≤ M ∧ ∀ x ∈ l, x ≤ M) := by
  induction l with
  | nil => intro a M; simp
  | cons x l ih =>
    intro a M
    rw [List.foldl_cons, ih]
    constructor
    · rintro ⟨h1, h2⟩
      exact ⟨(le_max_left _ _).trans h1, by
        intro z hz; rcases List.mem_cons.mp hz with rfl | hz
        · exact (le_max_right _ _).trans h1
        · exact h2 z hz⟩
    · rintro ⟨h1, h2⟩
      exact ⟨max_le h1 (h2 x (by simp)), fun z hz => h2 z (List.mem_cons_of_mem _ hz)⟩

theorem sMax_le (s : Fin k → K) (M : K) : sMax s ≤ M ↔ 0 ≤ M ∧ ∀ i, s i ≤ M := by
  unfold sMax
  rw [foldl_max_le]
  simp [List.mem_ofFn]

theorem sMax_nonneg (s : Fin k → K) : 0 ≤ sMax s := ((sMax_le s (sMax s)).mp le_rfl).1
theorem le_sMax (s : Fin k → K) (i : Fin k) : s i ≤ sMax s := ((sMax_le s (sMax s)).mp le_rfl).2 i

theorem sMax_eq {s : Fin k → K} {M : K} (h0 : ∀ i, 0 ≤ s i) (hM : IsLargest s M) : sMax s = M := by
  obtain ⟨h1, i, hi⟩ := hM
  apply le_antisymm
  · exact (sMax_le s M).mpr ⟨hi ▸ h0 i, h1⟩
  · exact hi ▸ le_sMax s i

theorem threshold_nonneg {rcond : K} (hr : 0 ≤ rcond) (s : Fin k → K) : 0 ≤ threshold rcond s :=
  mul_nonneg (sMax_nonneg s) hr

theorem threshold_eq {rcond : K} {s : Fin k → K} {M : K} (h0 : ∀ i, 0 ≤ s i) (hM : IsLargest s M) :
    threshold rcond s = rcond * M := by
  rw [threshold, sMax_eq h0 hM, mul_comm]

theorem coef_eq (rcond : K) (d : Dec n k K) (y : Fin n → K) : coef rcond d y = d.V *ᵥ sInvUty rcond d y := rfl

theorem IsSvd.vv' {X : Matrix (Fin n) (Fin k) K} {d : Dec n k K} (h : IsSvd X d) : d.V * d.Vᵀ = 1 :=
  mul_eq_one_comm.mp h.vv

theorem IsSvd.gram {X : Matrix (Fin n) (Fin k) K} {d : Dec n k K} (h : IsSvd X d) :
    Xᵀ * X = d.V * diagonal (fun i => d.s i ^ 2) * d.Vᵀ := by
  have hd : diagonal d.s * diagonal d.s = diagonal (fun i => d.s i ^ 2) := by
    rw [diagonal_mul_diagonal]; congr 1; funext i; ring
  rw [h.eq]
  simp only [transpose_mul, transpose_transpose, diagonal_transpose]
  calc d.V * (diagonal d.s * d.Uᵀ) * (d.U * diagonal d.s * d.Vᵀ)
      = d.V * (diagonal d.s * (d.Uᵀ * d.U) * diagonal d.s) * d.Vᵀ := by simp only [Matrix.mul_assoc]
    _ = _ := by rw [h.uu, Matrix.mul_one, hd]

/-- Coordinates of `Xᵀ y` in the right singular basis. -/
theorem IsSvd.vxy {X : Matrix (Fin n) (Fin k) K} {d : Dec n k K} (h : IsSvd X d) (y : Fin n → K) :
    d.Vᵀ *ᵥ (Xᵀ *ᵥ y) = fun i => d.s i * (d.Uᵀ *ᵥ y) i := by
  have : d.Vᵀ * Xᵀ = diagonal d.s * d.Uᵀ := by
    rw [h.eq]
    simp only [transpose_mul, transpose_transpose, diagonal_transpose]
    rw [← Matrix.mul_assoc, h.vv, Matrix.one_mul]
  rw [mulVec_mulVec, this, ← mulVec_mulVec]
  funext i
  rw [mulVec_diagonal]

theorem IsSvd.vgv {X : Matrix (Fin n) (Fin k) K} {d : Dec n k K} (h : IsSvd X d) (b : Fin k → K) :
    d.Vᵀ *ᵥ ((Xᵀ * X) *ᵥ b) = fun i => d.s i ^ 2 * (d.Vᵀ *ᵥ b) i := by
  have : d.Vᵀ * (Xᵀ * X) = diagonal (fun i => d.s i ^ 2) * d.Vᵀ := by
    rw [h.gram, ← Matrix.mul_assoc, ← Matrix.mul_assoc, h.vv, Matrix.one_mul]
  rw [mulVec_mulVec, this, ← mulVec_mulVec]
  funext i
  rw [mulVec_diagonal]

theorem IsSvd.v_inj {X : Matrix (Fin n) (Fin k) K} {d : Dec n k K} (h : IsSvd X d) {a b : Fin k → K}
    (e : d.Vᵀ *ᵥ a = d.Vᵀ *ᵥ b) : a = b := by
  have := congrArg (d.V *ᵥ ·) e
  simpa only [mulVec_mulVec, h.vv', one_mulVec] using this

theorem IsSvd.vcoef {X : Matrix (Fin n) (Fin k) K} {d : Dec n k K} (h : IsSvd X d) (rcond : K) (y : Fin n → K) :
    d.Vᵀ *ᵥ coef rcond d y = sInvUty rcond d y := by
  rw [coef_eq, mulVec_mulVec, h.vv, one_mulVec]

theorem sInv_apply (rcond : K) (d : Dec n k K) (y : Fin n → K) (i : Fin k) :
    sInvUty rcond d y i = if threshold rcond d.s < d.s i then (d.Uᵀ *ᵥ y) i / d.s i else 0 := rfl

theorem isOls_iff (X : Matrix (Fin n) (Fin k) K) (y : Fin n → K) (b : Fin k → K) :
    IsOls X y b ↔ Xᵀ *ᵥ resid X y b = 0 := by
  constructor
  · intro h; funext j; exact h j
  · intro h j; exact congrFun h j

theorem xtr (X : Matrix (Fin n) (Fin k) K) (y : Fin n → K) (b : Fin k → K) :
    Xᵀ *ᵥ resid X y b = Xᵀ *ᵥ y - (Xᵀ * X) *ᵥ b := by
  have : resid X y b = y - X *ᵥ b := rfl
  rw [this, mulVec_sub, mulVec_mulVec]

theorem sq_eq {m : ℕ} (v : Fin m → K) : sq v = v ⬝ᵥ v := by
  simp only [sq, dotProduct, pow_two]

theorem sq_mulVec {a b : ℕ} (A : Matrix (Fin a) (Fin b) K) (hA : Aᵀ * A = 1) (v : Fin b → K) : sq (A *ᵥ v) = sq v := by
  rw [sq_eq, sq_eq, dotProduct_mulVec, vecMul_mulVec, hA, vecMul_one]

theorem sq_nonneg' {m : ℕ} (v : Fin m → K) : 0 ≤ sq v := Finset.sum_nonneg (fun i _ => pow_two_nonneg (v i))

theorem sq_eq_zero {m : ℕ} {v : Fin m → K} (h : sq v = 0) : v = 0 := by
  funext i
  have := (Finset.sum_eq_zero_iff_of_nonneg (fun i _ => pow_two_nonneg (v i))).mp h i (Finset.mem_univ _)
  simpa using this

/-- Bessel's inequality for orthonormal columns. -/
theorem bessel {a b : ℕ} (A : Matrix (Fin a) (Fin b) K) (hA : Aᵀ * A = 1) (y : Fin a → K) : sq (Aᵀ *ᵥ y) ≤ sq y := by
  have h := sq_nonneg' (y - A *ᵥ (Aᵀ *ᵥ y))
  have e : sq (y - A *ᵥ (Aᵀ *ᵥ y)) = sq y - sq (Aᵀ *ᵥ y) := by
    have h1 : y ⬝ᵥ (A *ᵥ (Aᵀ *ᵥ y)) = sq (Aᵀ *ᵥ y) := by
      rw [sq_eq, dotProduct_mulVec, ← mulVec_transpose]
    have h2 : (A *ᵥ (Aᵀ *ᵥ y)) ⬝ᵥ y = sq (Aᵀ *ᵥ y) := by rw [dotProduct_comm, h1]
    have h3 := sq_mulVec A hA (Aᵀ *ᵥ y)
    rw [sq_eq (A *ᵥ _)] at h3
    rw [sq_eq, sub_dotProduct, dotProduct_sub, dotProduct_sub, h1, h2, h3, sq_eq y]
    ring
  linarith

/-- Two decompositions of the same matrix: the change of basis only mixes equal singular values. -/
theorem mix {X : Matrix (Fin n) (Fin k) K} {d e : Dec n k K} (hd : IsSvd X d) (he : IsSvd X e) (i j : Fin k)
    (h : (d.Vᵀ * e.V) i j ≠ 0) : d.s i = e.s j := by
  have h1 : diagonal (fun i => d.s i ^ 2) * (d.Vᵀ * e.V) = (d.Vᵀ * e.V) * diagonal (fun i => e.s i ^ 2) := by
    have a : d.Vᵀ * (Xᵀ * X) * e.V = diagonal (fun i => d.s i ^ 2) * (d.Vᵀ * e.V) := by
      rw [hd.gram]
      calc d.Vᵀ * (d.V * diagonal (fun i => d.s i ^ 2) * d.Vᵀ) * e.V
          = (d.Vᵀ * d.V) * (diagonal (fun i => d.s i ^ 2) * (d.Vᵀ * e.V)) := by simp only [Matrix.mul_assoc]
        _ = _ := by rw [hd.vv, Matrix.one_mul]
    have b : d.Vᵀ * (Xᵀ * X) * e.V = (d.Vᵀ * e.V) * diagonal (fun i => e.s i ^ 2) := by
      rw [he.gram]
      calc d.Vᵀ * (e.V * diagonal (fun i => e.s i ^ 2) * e.Vᵀ) * e.V
          = (d.Vᵀ * e.V) * diagonal (fun i => e.s i ^ 2) * (e.Vᵀ * e.V) := by simp only [Matrix.mul_assoc]
        _ = _ := by rw [he.vv, Matrix.mul_one]
    rw [← a, b]
  have h2 := congrFun (congrFun h1 i) j
  rw [diagonal_mul, mul_diagonal, mul_comm] at h2
  have h3 : d.s i ^ 2 = e.s j ^ 2 := mul_left_cancel₀ h h2
  exact (pow_left_inj₀ (hd.nonneg i) (he.nonneg j) (by norm_num)).mp h3

theorem mix_orth {X : Matrix (Fin n) (Fin k) K} {d e : Dec n k K} (hd : IsSvd X d) (he : IsSvd X e) :
    (d.Vᵀ * e.V) * (d.Vᵀ * e.V)ᵀ = 1 := by
  rw [transpose_mul, transpose_transpose]
  calc d.Vᵀ * e.V * (e.Vᵀ * d.V) = d.Vᵀ * (e.V * e.Vᵀ) * d.V := by simp only [Matrix.mul_assoc]
    _ = 1 := by rw [he.vv', Matrix.mul_one, hd.vv]

theorem mix_row {X : Matrix (Fin n) (Fin k) K} {d e : Dec n k K} (hd : IsSvd X d) (he : IsSvd X e) (i : Fin k) :
    ∑ j, (d.Vᵀ * e.V) i j ^ 2 = 1 := by
  have := congrFun (congrFun (mix_orth hd he) i) i
  rw [Matrix.mul_apply, Matrix.one_apply_eq] at this
  rw [← this]
  apply Finset.sum_congr rfl
  intro j _; rw [transpose_apply, pow_two]

theorem mix_exists {X : Matrix (Fin n) (Fin k) K} {d e : Dec n k K} (hd : IsSvd X d) (he : IsSvd X e) (i : Fin k) :
    ∃ j, d.s i = e.s j := by
  by_contra hc
  push Not at hc
  have h0 : ∀ j, (d.Vᵀ * e.V) i j = 0 := fun j => by
    by_contra h; exact hc j (mix hd he i j h)
  have := mix_row hd he i
  simp [h0] at this

theorem sMax_unique {X : Matrix (Fin n) (Fin k) K} {d e : Dec n k K} (hd : IsSvd X d) (he : IsSvd X e) :
    sMax d.s = sMax e.s := by
  apply le_antisymm
  · refine (sMax_le _ _).mpr ⟨sMax_nonneg _, fun i => ?_⟩
    obtain ⟨j, hj⟩ := mix_exists hd he i
    exact hj ▸ le_sMax _ j
  · refine (sMax_le _ _).mpr ⟨sMax_nonneg _, fun i => ?_⟩
    obtain ⟨j, hj⟩ := mix_exists he hd i
    exact hj ▸ le_sMax _ j

theorem threshold_unique {X : Matrix (Fin n) (Fin k) K} {d e : Dec n k K} (hd : IsSvd X d) (he : IsSvd X e) (rcond : K) :
    threshold rcond d.s = threshold rcond e.s := by rw [threshold, threshold, sMax_unique hd he]

theorem effRank_card (rcond : K) (s : Fin k → K) :
    effRank rcond s = (Finset.univ.filter (fun i => threshold rcond s < s i)).card := by
  unfold effRank
  rw [← List.toFinset_card_of_nodup ((List.nodup_finRange k).filter _)]
  congr 1; ext i; simp

theorem effRank_lt (rcond : K) (s : Fin k → K) : effRank rcond s < k ↔ ∃ i, s i ≤ threshold rcond s := by
  rw [effRank_card]
  constructor
  · intro h
    by_contra hc
    push Not at hc
    have : Finset.univ.filter (fun i => threshold rcond s < s i) = Finset.univ := by
      ext i; simp [hc i]
    rw [this] at h; simp at h
  · rintro ⟨i, hi⟩
    have h := Finset.card_lt_card (Finset.filter_ssubset (s := (Finset.univ : Finset (Fin k)))
      (p := fun i => threshold rcond s < s i) |>.mpr ⟨i, Finset.mem_univ _, not_lt.mpr hi⟩)
    simpa using h

/-! ### C143: the solution does not depend on the decomposition, hence not on the library -/

/-- C143. Whatever singular value decomposition the two libraries compute (order of the singular values, signs, choice of basis
inside an eigenspace), the truncated solution and the effective rank are the same. No condition on the matrix: this includes
rank-deficient and ill-conditioned designs. -/
theorem C143_same_solution (X : Matrix (Fin n) (Fin k) K) (d e : Dec n k K) (hd : IsSvd X d) (he : IsSvd X e)
    (rcond : K) (hr : 0 ≤ rcond) (y : Fin n → K) :
    coef rcond d y = coef rcond e y ∧ effRank rcond d.s = effRank rcond e.s := by
  have ht := threshold_unique hd he rcond
  constructor
  · apply hd.v_inj
    rw [hd.vcoef, coef_eq, mulVec_mulVec]
    funext i
    rw [sInv_apply]
    have key : d.s i * (d.Uᵀ *ᵥ y) i = ∑ j, (d.Vᵀ * e.V) i j * (e.s j * (e.Uᵀ *ᵥ y) j) := by
      have h1 := congrFun (hd.vxy y) i
      have h2 : d.Vᵀ *ᵥ (Xᵀ *ᵥ y) = (d.Vᵀ * e.V) *ᵥ (e.Vᵀ *ᵥ (Xᵀ *ᵥ y)) := by
        rw [mulVec_mulVec (Xᵀ *ᵥ y) (d.Vᵀ * e.V) e.Vᵀ, Matrix.mul_assoc, he.vv', Matrix.mul_one]
      rw [← h1, h2, he.vxy y]
      rfl
    show _ = ∑ j, (d.Vᵀ * e.V) i j * sInvUty rcond e y j
    by_cases hi : threshold rcond d.s < d.s i
    · rw [if_pos hi]
      have hpos : 0 < d.s i := lt_of_le_of_lt (threshold_nonneg hr _) hi
      have : ∀ j, (d.Vᵀ * e.V) i j * sInvUty rcond e y j =
          ((d.Vᵀ * e.V) i j * (e.s j * (e.Uᵀ *ᵥ y) j)) / d.s i ^ 2 := by
        intro j
        by_cases hj : (d.Vᵀ * e.V) i j = 0
        · rw [hj]; simp
        · have hs := mix hd he i j hj
          rw [sInv_apply, ← ht, ← hs, if_pos hi]
          field_simp
      rw [Finset.sum_congr rfl (fun j _ => this j), ← Finset.sum_div, ← key]
      field_simp
    · rw [if_neg hi]
      symm
      apply Finset.sum_eq_zero
      intro j _
      by_cases hj : (d.Vᵀ * e.V) i j = 0
      · rw [hj, zero_mul]
      · rw [sInv_apply, ← ht, ← mix hd he i j hj, if_neg hi, mul_zero]
  · have hK : (effRank rcond d.s : K) = (effRank rcond e.s : K) := by
      rw [effRank_card, effRank_card, Finset.card_filter, Finset.card_filter]
      push_cast
      have h1 : ∀ i, (if threshold rcond d.s < d.s i then (1 : K) else 0) =
          ∑ j, (d.Vᵀ * e.V) i j ^ 2 * (if threshold rcond e.s < e.s j then 1 else 0) := by
        intro i
        have : ∀ j, (d.Vᵀ * e.V) i j ^ 2 * (if threshold rcond e.s < e.s j then (1 : K) else 0) =
            (d.Vᵀ * e.V) i j ^ 2 * (if threshold rcond d.s < d.s i then 1 else 0) := by
          intro j
          by_cases hj : (d.Vᵀ * e.V) i j = 0
          · rw [hj]; simp
          · rw [ht, mix hd he i j hj]
        rw [Finset.sum_congr rfl (fun j _ => this j), ← Finset.sum_mul, mix_row hd he, one_mul]
      have h2 : ∀ j, ∑ i, (d.Vᵀ * e.V) i j ^ 2 = 1 := by
        intro j
        have := mix_row he hd j
        rw [← this]
        apply Finset.sum_congr rfl
        intro i _
        rw [← transpose_apply (d.Vᵀ * e.V) , transpose_mul, transpose_transpose]
      rw [Finset.sum_congr rfl (fun i _ => h1 i), Finset.sum_comm]
      apply Finset.sum_congr rfl
      intro j _
      rw [← Finset.sum_mul, h2, one_mul]
    exact_mod_cast hK

/-! ### C143: how far the solution is from least squares -/

/-- Coordinates of `Xᵀ (y - X b)` in the right singular basis, for the truncated solution. -/
theorem vxtr {X : Matrix (Fin n) (Fin k) K} {d : Dec n k K} (hd : IsSvd X d) (rcond : K) (hr : 0 ≤ rcond) (y : Fin n → K) (i : Fin k) :
    (d.Vᵀ *ᵥ (Xᵀ *ᵥ resid X y (coef rcond d y))) i =
      if threshold rcond d.s < d.s i then 0 else d.s i * (d.Uᵀ *ᵥ y) i := by
  rw [xtr, mulVec_sub, hd.vxy, hd.vgv, hd.vcoef]
  show d.s i * (d.Uᵀ *ᵥ y) i - d.s i ^ 2 * sInvUty rcond d y i = _
  rw [sInv_apply]
  by_cases hi : threshold rcond d.s < d.s i
  · have hpos : 0 < d.s i := lt_of_le_of_lt (threshold_nonneg hr _) hi
    rw [if_pos hi, if_pos hi]; field_simp; ring
  · rw [if_neg hi, if_neg hi]; ring

/-- C143. The returned coefficients are a least-squares solution exactly when the outcome has no component along the left vectors
of the nonzero singular values that were cut off. -/
theorem C143_least_squares_iff (X : Matrix (Fin n) (Fin k) K) (d : Dec n k K) (hd : IsSvd X d) (rcond : K) (hr : 0 ≤ rcond)
    (M : K) (hM : IsLargest d.s M) (y : Fin n → K) :
    IsOls X y (coef rcond d y) ↔ ∀ i, d.s i ≤ rcond * M → d.s i = 0 ∨ ∑ r, d.U r i * y r = 0 := by
  rw [isOls_iff]
  have ht := threshold_eq (rcond := rcond) hd.nonneg hM
  constructor
  · intro h i hi
    have h1 := vxtr hd rcond hr y i
    rw [h, mulVec_zero, ht, if_neg (not_lt.mpr hi)] at h1
    exact mul_eq_zero.mp h1.symm
  · intro h
    apply hd.v_inj
    funext i
    rw [vxtr hd rcond hr y i, mulVec_zero, ht]
    by_cases hi : rcond * M < d.s i
    · rw [if_pos hi]; rfl
    · rw [if_neg hi]
      exact mul_eq_zero.mpr (h i (not_lt.mp hi))

/-- C143. The first-order conditions fail by a bounded amount at most: the vector of inner products of the residuals with the
regressors has length at most `rcond` times the largest singular value times the length of the outcome. -/
theorem C143_normal_equations_bound (X : Matrix (Fin n) (Fin k) K) (d : Dec n k K) (hd : IsSvd X d) (rcond : K) (hr : 0 ≤ rcond)
    (M : K) (hM : IsLargest d.s M) (y : Fin n → K) :
    sq (fun j => ∑ i, X i j * resid X y (coef rcond d y) i) ≤ (rcond * M) ^ 2 * sq y := by
  have ht := threshold_eq (rcond := rcond) hd.nonneg hM
  have hV : (d.Vᵀ)ᵀ * d.Vᵀ = 1 := by rw [transpose_transpose]; exact hd.vv'
  have e : sq (fun j => ∑ i, X i j * resid X y (coef rcond d y) i) =
      sq (d.Vᵀ *ᵥ (Xᵀ *ᵥ resid X y (coef rcond d y))) := (sq_mulVec d.Vᵀ hV _).symm
  rw [e]
  calc sq (d.Vᵀ *ᵥ (Xᵀ *ᵥ resid X y (coef rcond d y)))
      ≤ (rcond * M) ^ 2 * sq (d.Uᵀ *ᵥ y) := by
        unfold sq
        rw [Finset.mul_sum]
        apply Finset.sum_le_sum
        intro i _
        rw [vxtr hd rcond hr y i, ht]
        by_cases hi : rcond * M < d.s i
        · rw [if_pos hi, zero_pow two_ne_zero]
          exact mul_nonneg (pow_two_nonneg _) (pow_two_nonneg _)
        · rw [if_neg hi, mul_pow]
          exact mul_le_mul_of_nonneg_right (pow_le_pow_left₀ (hd.nonneg i) (not_lt.mp hi) 2) (pow_two_nonneg _)
    _ ≤ (rcond * M) ^ 2 * sq y := mul_le_mul_of_nonneg_left (bessel d.U hd.uu y) (pow_two_nonneg _)

/-- Sum of squared residuals of the truncated solution. -/
theorem rss_coef {X : Matrix (Fin n) (Fin k) K} {d : Dec n k K} (hd : IsSvd X d) (rcond : K) (hr : 0 ≤ rcond) (y : Fin n → K) :
    rss X y (coef rcond d y) = sq y - ∑ i, if threshold rcond d.s < d.s i then (d.Uᵀ *ᵥ y) i ^ 2 else 0 := by
  have hres : resid X y (coef rcond d y) = y - d.U *ᵥ (fun i => d.s i * sInvUty rcond d y i) := by
    have : resid X y (coef rcond d y) = y - X *ᵥ coef rcond d y := rfl
    have hx : X * d.V = d.U * diagonal d.s := by
      conv_lhs => rw [hd.eq]
      rw [Matrix.mul_assoc, hd.vv, Matrix.mul_one]
    rw [this, coef_eq, mulVec_mulVec, hx, ← mulVec_mulVec]
    congr 2
    funext i; rw [mulVec_diagonal]
  set w : Fin k → K := fun i => d.s i * sInvUty rcond d y i with hw
  have hwi : ∀ i, w i = if threshold rcond d.s < d.s i then (d.Uᵀ *ᵥ y) i else 0 := by
    intro i
    simp only [hw, sInv_apply]
    by_cases hi : threshold rcond d.s < d.s i
    · have hpos : 0 < d.s i := lt_of_le_of_lt (threshold_nonneg hr _) hi
      rw [if_pos hi, if_pos hi]; field_simp
    · rw [if_neg hi, if_neg hi, mul_zero]
  have e : rss X y (coef rcond d y) = sq (y - d.U *ᵥ w) := by
    unfold rss sq; rw [hres]
  have h1 : y ⬝ᵥ (d.U *ᵥ w) = ∑ i, if threshold rcond d.s < d.s i then (d.Uᵀ *ᵥ y) i ^ 2 else 0 := by
    rw [dotProduct_mulVec, ← mulVec_transpose]
    apply Finset.sum_congr rfl
    intro i _
    rw [hwi]
    split_ifs <;> ring
  have h2 : (d.U *ᵥ w) ⬝ᵥ (d.U *ᵥ w) = ∑ i, if threshold rcond d.s < d.s i then (d.Uᵀ *ᵥ y) i ^ 2 else 0 := by
    rw [← sq_eq, sq_mulVec d.U hd.uu]
    apply Finset.sum_congr rfl
    intro i _
    rw [hwi]
    split_ifs <;> ring
  have h3 := h1
  rw [dotProduct_comm] at h3
  rw [e, sq_eq, sub_dotProduct, dotProduct_sub, dotProduct_sub, h1, h2, h3, sq_eq]
  ring

/-- C143. The loss of fit is exactly the squared length of the outcome's projection on the directions cut off although their singular
value is not zero; it can be all of the explained variation. -/
theorem C143_loss_of_fit (X : Matrix (Fin n) (Fin k) K) (d : Dec n k K) (hd : IsSvd X d) (rcond : K) (hr : 0 ≤ rcond)
    (M : K) (hM : IsLargest d.s M) (y : Fin n → K) (c : Fin k → K) (hc : IsOls X y c) :
    rss X y (coef rcond d y) = rss X y c + ∑ i, if 0 < d.s i ∧ d.s i ≤ rcond * M then (∑ r, d.U r i * y r) ^ 2 else 0 := by
  have ht := threshold_eq (rcond := rcond) hd.nonneg hM
  have h0 : IsOls X y (coef 0 d y) := by
    rw [C143_least_squares_iff X d hd 0 le_rfl M hM y]
    intro i hi
    left
    rw [zero_mul] at hi
    exact le_antisymm hi (hd.nonneg i)
  have hcc : rss X y c = rss X y (coef 0 d y) := by
    unfold rss resid
    apply Finset.sum_congr rfl
    intro i _
    have h : fitted X c i = fitted X (coef 0 d y) i := C11_fitted_unique X y c _ hc h0 i
    rw [h]
  have hz : threshold 0 d.s = 0 := by rw [threshold, mul_zero]
  rw [hcc, rss_coef hd rcond hr, rss_coef hd 0 le_rfl, ht, hz, sub_add, sub_right_inj, ← Finset.sum_sub_distrib]
  apply Finset.sum_congr rfl
  intro i _
  have e : (d.Uᵀ *ᵥ y) i = ∑ r, d.U r i * y r := rfl
  have hM0 : 0 ≤ rcond * M := mul_nonneg hr ((hd.nonneg i).trans (hM.1 i))
  rw [e]
  by_cases hi : rcond * M < d.s i
  · rw [if_pos hi, if_pos (lt_of_le_of_lt hM0 hi), if_neg (fun h => absurd hi (not_lt.mpr h.2))]; ring
  · rw [if_neg hi]
    by_cases hp : 0 < d.s i
    · rw [if_pos hp, if_pos ⟨hp, not_lt.mp hi⟩]; ring
    · rw [if_neg hp, if_neg (fun h => hp h.1)]; ring

/-- C143. When no nonzero singular value is cut off, the coefficients are the least-squares solution of smallest norm, and the only
one of that norm. -/
theorem C143_minimum_norm (X : Matrix (Fin n) (Fin k) K) (d : Dec n k K) (hd : IsSvd X d) (rcond : K) (hr : 0 ≤ rcond)
    (M : K) (hM : IsLargest d.s M) (hgap : ∀ i, d.s i = 0 ∨ rcond * M < d.s i) (y : Fin n → K) :
    IsOls X y (coef rcond d y) ∧ ∀ b, IsOls X y b → sq (coef rcond d y) ≤ sq b ∧ (sq b = sq (coef rcond d y) → b = coef rcond d y) := by
  have ht := threshold_eq (rcond := rcond) hd.nonneg hM
  refine ⟨(C143_least_squares_iff X d hd rcond hr M hM y).mpr (fun i hi => Or.inl ?_), fun b hb => ?_⟩
  · rcases hgap i with h | h
    · exact h
    · exact absurd h (not_lt.mpr hi)
  have hV : (d.Vᵀ)ᵀ * d.Vᵀ = 1 := by rw [transpose_transpose]; exact hd.vv'
  set v := d.Vᵀ *ᵥ b with hv
  set w := sInvUty rcond d y with hw
  have hvw : ∀ i, w i = v i ∨ w i = 0 := by
    intro i
    rw [hw, sInv_apply, ht]
    by_cases hi : rcond * M < d.s i
    · left
      rw [if_pos hi]
      have hpos : 0 < d.s i := lt_of_le_of_lt (mul_nonneg hr ((hd.nonneg i).trans (hM.1 i))) hi
      have h1 : d.Vᵀ *ᵥ (Xᵀ *ᵥ resid X y b) = 0 := by rw [(isOls_iff X y b).mp hb, mulVec_zero]
      rw [xtr, mulVec_sub, hd.vxy, hd.vgv] at h1
      have h2 := congrFun h1 i
      have h3 : d.s i * (d.Uᵀ *ᵥ y) i - d.s i ^ 2 * v i = 0 := h2
      have h4 : d.s i * ((d.Uᵀ *ᵥ y) i - d.s i * v i) = 0 := by linear_combination h3
      rcases mul_eq_zero.mp h4 with h | h
      · exact absurd h hpos.ne'
      · field_simp; linear_combination h
    · right; rw [if_neg hi]
  have e1 : sq (coef rcond d y) = sq w := by rw [← sq_mulVec d.Vᵀ hV, hd.vcoef]
  have e2 : sq b = sq v := by rw [← sq_mulVec d.Vᵀ hV]
  have hdiff : sq v = sq w + sq (v - w) := by
    unfold sq
    rw [← Finset.sum_add_distrib]
    apply Finset.sum_congr rfl
    intro i _
    simp only [Pi.sub_apply]
    rcases hvw i with h | h <;> rw [h] <;> ring
  have hn := sq_nonneg' (v - w)
  refine ⟨by rw [e1, e2]; linarith, fun he => ?_⟩
  have hz : sq (v - w) = 0 := by rw [e1, e2] at he; linarith
  have := sq_eq_zero hz
  apply hd.v_inj
  rw [hd.vcoef, ← hv, ← hw]
  exact sub_eq_zero.mp this

/-! ### C143: the two backends -/

/-- What is assumed about the libraries for the design `X`: both factorizations succeed and are singular value decompositions of `X`;
iterating over a hash map visits its entries in some order. -/
structure Sound (L : Lib n C K) (X : Matrix (Fin n) (Fin k) K) : Prop where
  faer : ∃ d, L.faer X = some d ∧ IsSvd X d
  lapack : ∃ d, L.lapack X = some d ∧ IsSvd X d
  order : ∀ l : List (Option C × (Fin k → K)), (L.order l).Perm l

/-- No cluster identifier is missing. -/
def NoMissing (o : Opts n C) : Prop := ∀ f, o.ids = some f → ∀ i, f i ≠ none

theorem det_ne_zero {X : Matrix (Fin n) (Fin k) K} {d : Dec n k K} (hd : IsSvd X d) {rcond : K} (hr : 0 ≤ rcond)
    (h : ¬ effRank rcond d.s < k) : (Xᵀ * X).det ≠ 0 := by
  have hp : ∀ i, 0 < d.s i := by
    intro i
    rw [effRank_lt] at h
    push Not at h
    exact lt_of_le_of_lt (threshold_nonneg hr _) (h i)
  have h1 : d.V.det * d.Vᵀ.det = 1 := by rw [← det_mul, hd.vv', det_one]
  rw [hd.gram, det_mul, det_mul, det_diagonal]
  have h2 : (∏ i, d.s i ^ 2) ≠ 0 := Finset.prod_ne_zero_iff.mpr (fun i _ => pow_ne_zero 2 (hp i).ne')
  have h3 : d.V.det ≠ 0 := left_ne_zero_of_mul_eq_one h1
  have h4 : d.Vᵀ.det ≠ 0 := right_ne_zero_of_mul_eq_one h1
  exact mul_ne_zero (mul_ne_zero h3 h2) h4

theorem entries_length {X : Matrix (Fin n) (Fin k) K} {u : Fin n → K} {f : Fin n → Option C}
    {entries : List (Option C × (Fin k → K))} (hp : entries.Perm (hmBuild (scoreRows X u f))) :
    entries.length = nClusters f := by
  obtain ⟨h1, h2, _⟩ := hmBuild_spec (scoreRows X u f)
  rw [hp.length_eq, ← List.length_map (f := Prod.fst), ← List.toFinset_card_of_nodup h1]
  unfold nClusters
  congr 1; ext g; rw [List.mem_toFinset, h2]
  simp only [scoreRows, List.map_ofFn, List.mem_ofFn, Finset.mem_image, Finset.mem_univ, true_and,
    Function.comp, Set.mem_range]

/-- What the caller does with the answer of the compiled solver on the checked path. -/
noncomputable def after (L : Lib n C K) (rcond : K) (o : Opts n C) (X : Matrix (Fin n) (Fin k) K) (y : Fin n → K) :
    Except Err (Res n k K) :=
  match rustSolve L rcond o X y with
  | .fallback => numpySolve L rcond o [] X y
  | .raised e => .error e
  | .ok r => if o.returnVcov ∧ hasNan r then numpySolve L rcond o [] X y else .ok r

theorem hasNan_all (hk : 0 < k) (c : Fin k → Option K) (r f : Fin n → K) :
    hasNan (⟨c, r, f, some (fun _ => none)⟩ : Res n k K) = true := by
  simp only [hasNan, List.any_eq_true, List.mem_finRange, true_and]
  exact ⟨⟨0, hk⟩, ⟨0, hk⟩, rfl⟩

theorem hasNan_none (V : Matrix (Fin k) (Fin k) K) (c : Fin k → Option K) (r f : Fin n → K) :
    hasNan (⟨c, r, f, some (fun p => some (V p.1 p.2))⟩ : Res n k K) = false := by
  simp [hasNan]

theorem after_eq (L : Lib n C K) (rcond : K) (hr : 0 ≤ rcond) (o : Opts n C) (X : Matrix (Fin n) (Fin k) K) (hk : 0 < k)
    (hnk : k ≤ n) (hL : Sound L X) (ho : NoMissing o) (y : Fin n → K) :
    after L rcond o X y = numpySolve L rcond o [] X y := by
  obtain ⟨d, hd1, hd⟩ := hL.faer
  obtain ⟨e, he1, he⟩ := hL.lapack
  obtain ⟨hb, hrank⟩ := C143_same_solution X d e hd he rcond hr y
  by_cases hv : o.returnVcov = true
  · by_cases hrk : effRank rcond d.s < k
    · simp only [after, rustSolve, hd1, hv, if_true, if_pos hrk, hasNan_all hk, and_self]
    · have hdet := det_ne_zero hd hr hrk
      set r := resid X y (coef rcond e y) with hres
      by_cases hn : n = k
      · -- saturated design: the compiled code divides by zero
        cases hi : o.ids with
        | none =>
          have hV : vcovRust X r (none : Option (Fin n → Option C)) ([] : List (Option C × (Fin k → K))) = .error .nonFinite := by
            simp only [vcovRust, if_neg hdet, Fintype.card_fin, if_pos hn]
          simp only [after, rustSolve, hd1, hv, if_true, if_neg hrk, entries, hi, hb, ← hres, hV, hasNan_all hk, and_self]
        | some f =>
          have hp := hL.order (hmBuild (scoreRows X r f))
          have hlen := entries_length hp
          by_cases hG : nClusters f < 2
          · have hV : vcovRust X r (some f) (L.order (hmBuild (scoreRows X r f))) = .error .fewClusters := by
              simp only [vcovRust, if_neg hdet, hlen, if_pos hG]
            have hN : vcovNumpy X r (some f) = .error .fewClusters := by
              simp only [vcovNumpy, if_pos hG]
            simp only [after, rustSolve, hd1, hv, if_true, if_neg hrk, entries, hi, hb, ← hres, hV, numpySolve, he1, hN]
          · have hV : vcovRust X r (some f) (L.order (hmBuild (scoreRows X r f))) = .error .nonFinite := by
              simp only [vcovRust, if_neg hdet, hlen, if_neg hG, Fintype.card_fin, if_pos hn]
            simp only [after, rustSolve, hd1, hv, if_true, if_neg hrk, entries, hi, hb, ← hres, hV, hasNan_all hk, and_self]
      · have hlt : Fintype.card (Fin k) < n := by simp; omega
        have hag := C66_backends_agree_partial X r o.ids (entries L o X r)
          (by intro f hf; simp only [entries, hf]; exact hL.order _) ho hlt
        cases hN : vcovNumpy X r o.ids with
        | ok V =>
          have hV := (hag V).mpr hN
          simp only [after, rustSolve, hd1, hv, if_true, if_neg hrk, hb, ← hres, hV, numpySolve, he1, hN, hasNan_none,
            Bool.false_eq_true, and_false, if_false]
        | error er =>
          -- only too few clusters can go wrong here
          cases hi : o.ids with
          | none =>
            rw [hi] at hN
            have hn' : ¬ Fintype.card (Fin n) = Fintype.card (Fin k) := by simpa using hn
            simp only [vcovNumpy, if_neg hn', if_neg hdet] at hN
            cases hN
          | some f =>
            rw [hi] at hN
            have hn' : ¬ Fintype.card (Fin n) = Fintype.card (Fin k) := by simpa using hn
            by_cases hG : nClusters f < 2
            · have hp := hL.order (hmBuild (scoreRows X r f))
              have hlen := entries_length hp
              have hV : vcovRust X r (some f) (L.order (hmBuild (scoreRows X r f))) = .error .fewClusters := by
                simp only [vcovRust, if_neg hdet, hlen, if_pos hG]
              have hN : vcovNumpy X r (some f) = .error .fewClusters := by
                simp only [vcovNumpy, if_pos hG]
              simp only [after, rustSolve, hd1, hv, if_true, if_neg hrk, entries, hi, hb, ← hres, hV, numpySolve, he1, hN]
            · simp only [vcovNumpy, if_neg hG, if_neg hn', if_neg hdet] at hN
              cases hN
  · rw [Bool.not_eq_true] at hv
    simp only [after, rustSolve, hd1, hv, Bool.false_eq_true, if_false, hb, numpySolve, he1, false_and]

/-- C143. On the checked path (the default) the compiled backend makes no difference: `solve_ols` returns the same coefficients,
residuals, fitted values and covariance matrix, or fails with the same error, whether or not the compiled backend is loaded. The
design is arbitrary (rank deficient or ill-conditioned included); cluster identifiers must not be missing. -/
theorem C143_backend_independent (L : Lib n C K) (rcond : K) (hr : 0 ≤ rcond) (o : Opts n C) (X : Matrix (Fin n) (Fin k) K)
    (hk : 0 < k) (hnk : k ≤ n) (hL : Sound L X) (ho : NoMissing o) (hs : o.skip = false) (y : Fin n → K) :
    solve L rcond true o X y = solve L rcond false o X y := by
  simp only [solve, hs, Bool.false_eq_true, if_false]
  cases hdt : detect L rcond X with
  | error e => rfl
  | ok drop =>
    by_cases hdr : drop = []
    · subst hdr
      simp only [and_self, if_true, false_and, if_false]
      exact after_eq L rcond hr o X hk hnk hL ho y
    · simp only [hdr, and_false, if_false]

/-- C143. With `skip_rank_check=True` the backends still agree on coefficients, residuals and fitted values whenever both return. -/
theorem C143_skip_coefficients (L : Lib n C K) (rcond : K) (hr : 0 ≤ rcond) (o : Opts n C) (X : Matrix (Fin n) (Fin k) K)
    (hL : Sound L X) (hs : o.skip = true) (y : Fin n → K) (a b : Res n k K)
    (ha : solve L rcond true o X y = .ok a) (hb : solve L rcond false o X y = .ok b) :
    a.coef = b.coef ∧ a.resid = b.resid ∧ a.fitted = b.fitted := by
  obtain ⟨d, hd1, hd⟩ := hL.faer
  obtain ⟨e, he1, he⟩ := hL.lapack
  obtain ⟨hc, _⟩ := C143_same_solution X d e hd he rcond hr y
  simp only [solve, hs, if_true, Bool.false_eq_true, if_false] at ha hb
  have hb' : b.coef = (fun j => some (coef rcond e y j)) ∧ b.resid = resid X y (coef rcond e y) ∧
      b.fitted = fitted X (coef rcond e y) := by
    simp only [numpySolve, he1] at hb
    by_cases hv : o.returnVcov = true
    · rw [if_pos hv] at hb
      cases hN : vcovNumpy X (resid X y (coef rcond e y)) o.ids with
      | error er => rw [hN] at hb; cases hb
      | ok V => rw [hN] at hb; cases hb; exact ⟨rfl, rfl, rfl⟩
    · rw [if_neg hv] at hb; cases hb; exact ⟨rfl, rfl, rfl⟩
  have ha' : a.coef = (fun j => some (coef rcond e y j)) ∧ a.resid = resid X y (coef rcond e y) ∧
      a.fitted = fitted X (coef rcond e y) := by
    cases hR : rustSolve L rcond o X y with
    | fallback =>
      rw [hR] at ha
      have : a = b := by
        have := ha.symm.trans hb
        exact Except.ok.inj this
      rw [this]; exact hb'
    | raised er => rw [hR] at ha; cases ha
    | ok r =>
      rw [hR] at ha
      have hra : r = a := Except.ok.inj ha
      subst hra
      simp only [rustSolve, hd1, hc] at hR
      split_ifs at hR
      · cases hR; exact ⟨rfl, rfl, rfl⟩
      · split at hR
        · cases hR; exact ⟨rfl, rfl, rfl⟩
        · cases hR
        · cases hR; exact ⟨rfl, rfl, rfl⟩
        · cases hR
      · cases hR; exact ⟨rfl, rfl, rfl⟩
  exact ⟨ha'.1.trans hb'.1.symm, ha'.2.1.trans hb'.2.1.symm, ha'.2.2.trans hb'.2.2.symm⟩

/-- C143. Whatever the backend, a result without NaN coefficients is a least-squares fit when no nonzero singular value of the design is
at most `rcond` times the largest. The condition is missing from the documentation and is necessary
(`C143_not_least_squares_refuted`). -/
theorem C143_least_squares_partial (L : Lib n C K) (rcond : K) (hr : 0 ≤ rcond) (hasRust : Bool) (o : Opts n C) (X : Matrix (Fin n) (Fin k) K)
    (hk : 0 < k) (hnk : k ≤ n) (hL : Sound L X) (ho : NoMissing o) (hdt : o.skip = false → detect L rcond X = .ok [])
    (M : K) (hgap : ∀ d, IsSvd X d → IsLargest d.s M ∧ ∀ i, d.s i = 0 ∨ rcond * M < d.s i)
    (y : Fin n → K) (a : Res n k K) (ha : solve L rcond hasRust o X y = .ok a) :
    (∃ b, a.coef = (fun j => some (b j)) ∧ IsOls X y b) ∧ (∀ j, ∑ i, X i j * a.resid i = 0) ∧ ∀ i, a.fitted i + a.resid i = y i := by
  obtain ⟨d, hd1, hd⟩ := hL.faer
  obtain ⟨e, he1, he⟩ := hL.lapack
  obtain ⟨hc, _⟩ := C143_same_solution X d e hd he rcond hr y
  have hols := (C143_minimum_norm X e he rcond hr M (hgap e he).1 (hgap e he).2 y).1
  have numpy : ∀ b, numpySolve L rcond o [] X y = .ok b → b.coef = (fun j => some (coef rcond e y j)) ∧
      b.resid = resid X y (coef rcond e y) ∧ b.fitted = fitted X (coef rcond e y) := by
    intro b hb
    simp only [numpySolve, he1] at hb
    by_cases hv : o.returnVcov = true
    · rw [if_pos hv] at hb
      cases hN : vcovNumpy X (resid X y (coef rcond e y)) o.ids with
      | error er => rw [hN] at hb; cases hb
      | ok V => rw [hN] at hb; cases hb; exact ⟨rfl, rfl, rfl⟩
    · rw [if_neg hv] at hb; cases hb; exact ⟨rfl, rfl, rfl⟩
  have key : a.coef = (fun j => some (coef rcond e y j)) ∧ a.resid = resid X y (coef rcond e y) ∧
      a.fitted = fitted X (coef rcond e y) := by
    by_cases hs : o.skip = true
    · cases hasRust with
      | false =>
        simp only [solve, hs, if_true, Bool.false_eq_true, if_false] at ha
        exact numpy a ha
      | true =>
        simp only [solve, hs, if_true] at ha
        cases hR : rustSolve L rcond o X y with
        | fallback => rw [hR] at ha; exact numpy a ha
        | raised er => rw [hR] at ha; cases ha
        | ok r =>
          rw [hR] at ha
          have hra : r = a := Except.ok.inj ha
          subst hra
          simp only [rustSolve, hd1, hc] at hR
          split_ifs at hR
          · cases hR; exact ⟨rfl, rfl, rfl⟩
          · split at hR
            · cases hR; exact ⟨rfl, rfl, rfl⟩
            · cases hR
            · cases hR; exact ⟨rfl, rfl, rfl⟩
            · cases hR
          · cases hR; exact ⟨rfl, rfl, rfl⟩
    · rw [Bool.not_eq_true] at hs
      have hf : solve L rcond false o X y = .ok a := by
        cases hasRust with
        | false => exact ha
        | true => rw [← C143_backend_independent L rcond hr o X hk hnk hL ho hs y]; exact ha
      simp only [solve, hs, Bool.false_eq_true, if_false, hdt hs, false_and] at hf
      exact numpy a hf
  refine ⟨⟨coef rcond e y, key.1, hols⟩, ?_, ?_⟩
  · rw [key.2.1]; exact hols
  · intro i; rw [key.2.1, key.2.2]; simp [resid]

end DiffDiff.Svd
