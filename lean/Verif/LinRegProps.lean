/-
Property C124: regression inference does not depend on how regressors and outcome are measured.
-/
import Verif.LinReg
import Verif.OlsProps
import Verif.VcovProps
import Verif.InferenceProps
import Mathlib.Tactic.LinearCombination
import Mathlib.Tactic.FieldSimp
import Mathlib.LinearAlgebra.Matrix.Diagonal
import Mathlib.LinearAlgebra.Matrix.Rank

set_option linter.unusedSectionVars false

namespace DiffDiff.LinReg
open Matrix Ols Vcov

variable {K : Type*} [Field K] [LinearOrder K] [IsStrictOrderedRing K]
variable {ι κ C : Type*} [Fintype ι] [DecidableEq ι] [Fintype κ] [DecidableEq κ] [DecidableEq C]

/-! ### Matrix identities under a change of regressors -/

theorem gram_mul (X : Matrix ι κ K) (A : Matrix κ κ K) : (X * A)ᵀ * (X * A) = Aᵀ * (Xᵀ * X) * A := by
  rw [transpose_mul]; simp only [Matrix.mul_assoc]

theorem gram_mul_inv (X : Matrix ι κ K) (A : Matrix κ κ K) : ((X * A)ᵀ * (X * A))⁻¹ = A⁻¹ * (Xᵀ * X)⁻¹ * (A⁻¹)ᵀ := by
  rw [gram_mul, Matrix.mul_inv_rev, Matrix.mul_inv_rev, transpose_nonsing_inv, Matrix.mul_assoc]

theorem gram_mul_det (X : Matrix ι κ K) (A : Matrix κ κ K) (hA : A.det ≠ 0) : ((X * A)ᵀ * (X * A)).det = 0 ↔ (Xᵀ * X).det = 0 := by
  rw [gram_mul, det_mul, det_mul, det_transpose]
  simp [hA]

theorem hc1_mul (X : Matrix ι κ K) (A : Matrix κ κ K) (u : ι → K) : hc1Meat (X * A) u = Aᵀ * hc1Meat X u * A := by
  ext a b
  simp only [hc1Meat, mul_apply, transpose_apply, Finset.sum_mul, Finset.mul_sum]
  rw [Finset.sum_comm]
  refine Finset.sum_congr rfl fun c _ => ?_
  rw [Finset.sum_comm]
  refine Finset.sum_congr rfl fun d _ => Finset.sum_congr rfl fun i _ => ?_
  ring

theorem score_mul (X : Matrix ι κ K) (A : Matrix κ κ K) (u : ι → K) (ids : ι → Option C) (g : Option C) (a : κ) :
    score (X * A) u ids g a = ∑ c, score X u ids g c * A c a := by
  simp only [score, mul_apply, Finset.sum_mul]
  rw [Finset.sum_comm]
  refine Finset.sum_congr rfl fun c _ => Finset.sum_congr rfl fun i _ => ?_
  ring

theorem meat_mul (X : Matrix ι κ K) (A : Matrix κ κ K) (u : ι → K) (ids : ι → Option C) :
    numpyMeat (X * A) u ids = Aᵀ * numpyMeat X u ids * A := by
  ext a b
  simp only [numpyMeat, score_mul, mul_apply, transpose_apply, Finset.sum_mul, Finset.mul_sum]
  rw [Finset.sum_comm]
  refine Finset.sum_congr rfl fun c _ => ?_
  rw [Finset.sum_comm]
  refine Finset.sum_congr rfl fun d _ => Finset.sum_congr rfl fun i _ => ?_
  ring

theorem sandwich_mul (adj : K) (X : Matrix ι κ K) (A M : Matrix κ κ K) (hA : A.det ≠ 0) :
    sandwichNumpy adj ((X * A)ᵀ * (X * A)) (Aᵀ * M * A) = A⁻¹ * sandwichNumpy adj (Xᵀ * X) M * (A⁻¹)ᵀ := by
  have hu : IsUnit A.det := isUnit_iff_ne_zero.2 hA
  have hAt : (A⁻¹)ᵀ * Aᵀ = 1 := by rw [← transpose_mul, mul_nonsing_inv A hu, transpose_one]
  rw [sandwich_eq _ _ _ (gram_inv_symm _), sandwich_eq _ _ _ (gram_inv_symm _), gram_mul_inv]
  rw [Matrix.mul_smul, Matrix.smul_mul]
  congr 1
  calc A⁻¹ * (Xᵀ * X)⁻¹ * (A⁻¹)ᵀ * (Aᵀ * M * A) * (A⁻¹ * (Xᵀ * X)⁻¹ * (A⁻¹)ᵀ)
      = A⁻¹ * (Xᵀ * X)⁻¹ * ((A⁻¹)ᵀ * Aᵀ) * M * (A * A⁻¹) * (Xᵀ * X)⁻¹ * (A⁻¹)ᵀ := by simp only [Matrix.mul_assoc]
    _ = A⁻¹ * ((Xᵀ * X)⁻¹ * M * (Xᵀ * X)⁻¹) * (A⁻¹)ᵀ := by
        rw [hAt, mul_nonsing_inv A hu]; simp only [Matrix.mul_assoc, Matrix.one_mul]

/-- Robust and clustered matrices transform like the coefficients. -/
theorem vcovNumpy_mul (X : Matrix ι κ K) (A : Matrix κ κ K) (hA : A.det ≠ 0) (u : ι → K) (ids : Option (ι → Option C)) :
    vcovNumpy (X * A) u ids = (vcovNumpy X u ids).map (fun V => A⁻¹ * V * (A⁻¹)ᵀ) := by
  have hd := gram_mul_det X A hA
  cases ids with
  | none =>
    simp only [vcovNumpy, hc1_mul, hd]
    split_ifs
    · rfl
    · rfl
    · rw [sandwich_mul _ _ _ _ hA]; rfl
  | some ids =>
    simp only [vcovNumpy, meat_mul, hd]
    split_ifs
    · rfl
    · rfl
    · rfl
    · rw [sandwich_mul _ _ _ _ hA]; rfl

theorem classical_mul (pinv : Matrix κ κ K → Matrix κ κ K) (X : Matrix ι κ K) (hX : (Xᵀ * X).det ≠ 0) (A : Matrix κ κ K) (hA : A.det ≠ 0) (u : ι → K) :
    classical pinv (X * A) u = (classical pinv X u).map (fun V => A⁻¹ * V * (A⁻¹)ᵀ) := by
  unfold classical
  dsimp only
  split_ifs with h1 h2
  · rfl
  · exact absurd ((gram_mul_det X A hA).1 h2) hX
  · rw [Option.map_some, gram_mul_inv]
    congr 1
    rw [Matrix.mul_smul, Matrix.mul_smul, Matrix.mul_one, Matrix.mul_one, Matrix.mul_smul, Matrix.smul_mul]

theorem vcov_mul (pinv : Matrix κ κ K → Matrix κ κ K) (o : Opts ι C) (X : Matrix ι κ K) (hX : (Xᵀ * X).det ≠ 0) (A : Matrix κ κ K) (hA : A.det ≠ 0)
    (u : ι → K) : vcov pinv o (X * A) u = (vcov pinv o X u).map (Option.map (fun V => A⁻¹ * V * (A⁻¹)ᵀ)) := by
  unfold vcov
  split_ifs
  · rw [vcovNumpy_mul X A hA]
    cases vcovNumpy X u o.ids <;> rfl
  · rw [classical_mul pinv X hX A hA]; rfl

/-! ### Coefficients -/

/-- The solver returns a least squares solution. -/
def Solves (E : Solvers ι K) : Prop := ∀ {m : ℕ} (X : Matrix ι (Fin m) K) (y : ι → K), IsOls X y (E.lstsq X y)

/-- Such a solver exists over every ordered field. -/
theorem exists_solves : ∃ E : Solvers ι K, Solves E := by
  classical
  have key : ∀ {m : ℕ} (X : Matrix ι (Fin m) K) (y : ι → K), ∃ b, IsOls X y b := by
    intro m X y
    have hle : LinearMap.range (Xᵀ * X).mulVecLin ≤ LinearMap.range Xᵀ.mulVecLin := by
      rw [Matrix.mulVecLin_mul]; exact LinearMap.range_comp_le_range _ _
    have heq : LinearMap.range (Xᵀ * X).mulVecLin = LinearMap.range Xᵀ.mulVecLin := by
      apply Submodule.eq_of_le_of_finrank_eq hle
      have h1 : (Xᵀ * X).rank = X.rank := Matrix.rank_transpose_mul_self X
      have h2 : Xᵀ.rank = X.rank := Matrix.rank_transpose X
      show (Xᵀ * X).rank = Xᵀ.rank
      rw [h1, h2]
    have hy : Xᵀ *ᵥ y ∈ LinearMap.range (Xᵀ * X).mulVecLin := by rw [heq]; exact ⟨y, rfl⟩
    obtain ⟨b, hb⟩ := hy
    refine ⟨b, fun j => ?_⟩
    have := congrFun hb j
    rw [mulVecLin_apply, ← mulVec_mulVec] at this
    simp only [mulVec, dotProduct, transpose_apply] at this
    simp only [resid, fitted, dot, mul_sub, Finset.sum_sub_distrib]
    rw [sub_eq_zero]; exact this.symm
  exact ⟨⟨fun X y => (key X y).choose, fun V => V⟩, fun X y => (key X y).choose_spec⟩

theorem isOls_iff (X : Matrix ι κ K) (y : ι → K) (b : κ → K) : IsOls X y b ↔ (Xᵀ * X) *ᵥ b = Xᵀ *ᵥ y := by
  constructor
  · intro h
    funext j
    have := h j
    simp only [resid, fitted, dot, mul_sub, Finset.sum_sub_distrib] at this
    rw [← mulVec_mulVec]
    simp only [mulVec, dotProduct, transpose_apply]
    exact (sub_eq_zero.1 this).symm
  · intro h j
    have := congrFun h j
    rw [← mulVec_mulVec] at this
    simp only [mulVec, dotProduct, transpose_apply] at this
    simp only [resid, fitted, dot, mul_sub, Finset.sum_sub_distrib]
    rw [sub_eq_zero]; exact this.symm

theorem ols_unique {X : Matrix ι κ K} (hX : (Xᵀ * X).det ≠ 0) {y : ι → K} {b c : κ → K} (hb : IsOls X y b) (hc : IsOls X y c) : b = c := by
  have hu : IsUnit (Xᵀ * X).det := isUnit_iff_ne_zero.2 hX
  have h1 := (isOls_iff X y b).1 hb
  have h2 := (isOls_iff X y c).1 hc
  have : (Xᵀ * X)⁻¹ *ᵥ ((Xᵀ * X) *ᵥ b) = (Xᵀ * X)⁻¹ *ᵥ ((Xᵀ * X) *ᵥ c) := by rw [h1, h2]
  rwa [mulVec_mulVec, mulVec_mulVec, nonsing_inv_mul _ hu, one_mulVec, one_mulVec] at this

theorem fitted_eq (X : Matrix ι κ K) (b : κ → K) : fitted X b = X *ᵥ b := rfl

theorem ols_mul {X : Matrix ι κ K} {A : Matrix κ κ K} (hA : A.det ≠ 0) {y : ι → K} {b : κ → K} (hb : IsOls X y b) : IsOls (X * A) y (A⁻¹ *ᵥ b) := by
  have hu : IsUnit A.det := isUnit_iff_ne_zero.2 hA
  rw [isOls_iff] at hb ⊢
  have e : A *ᵥ (A⁻¹ *ᵥ b) = b := by rw [mulVec_mulVec, mul_nonsing_inv A hu, one_mulVec]
  rw [gram_mul, ← mulVec_mulVec, ← mulVec_mulVec, e, hb, transpose_mul, mulVec_mulVec]

theorem fitted_mul (X : Matrix ι κ K) {A : Matrix κ κ K} (hA : A.det ≠ 0) (b : κ → K) : fitted (X * A) (A⁻¹ *ᵥ b) = fitted X b := by
  have hu : IsUnit A.det := isUnit_iff_ne_zero.2 hA
  rw [fitted_eq, fitted_eq, mulVec_mulVec, Matrix.mul_assoc, mul_nonsing_inv A hu, Matrix.mul_one]

/-- What a change of regressors `X ↦ X A` does to the fitted object: same residuals, fitted values and degrees of freedom; old
coefficients are `A` times the new, old covariances `A V' Aᵀ`. -/
structure Changed {k : ℕ} (A : Matrix (Fin k) (Fin k) K) (f f' : Fit ι k K) : Prop where
  resid : f'.resid = f.resid
  fitted : f'.fitted = f.fitted
  sizes : f'.nObs = f.nObs ∧ f'.nParams = f.nParams ∧ f'.nEff = f.nEff
  df : f'.df = f.df
  coef : ∃ b b' : Fin k → K, (∀ j, f.coef j = some (b j)) ∧ (∀ j, f'.coef j = some (b' j)) ∧ b = A *ᵥ b'
  vcov : ((∀ p, f.vcov p = none) ∧ (∀ p, f'.vcov p = none)) ∨
    ∃ V V' : Matrix (Fin k) (Fin k) K, (∀ p, f.vcov p = some (V p.1 p.2)) ∧ (∀ p, f'.vcov p = some (V' p.1 p.2)) ∧ V = A * V' * Aᵀ

/-- C124. Any invertible linear change of the regressors (rescaling, recentering with an intercept, replacing covariates by combinations) leaves residuals,
fitted values and degrees of freedom unchanged, and coefficients and covariance matrix transform accordingly; classical, robust and clustered. Fails with
the same error if it fails. -/
theorem C124_reparametrize (E : Solvers ι K) (hE : Solves E) (o : Opts ι C) {k : ℕ} (X : Matrix ι (Fin k) K) (hX : (Xᵀ * X).det ≠ 0)
    (A : Matrix (Fin k) (Fin k) K) (hA : A.det ≠ 0) (y : ι → K) (a : ℤ) :
    match fit E o [] X y a, fit E o [] (X * A) y a with
    | .ok f, .ok f' => Changed A f f'
    | .error e, .error e' => e = e'
    | _, _ => False := by
  have hu : IsUnit A.det := isUnit_iff_ne_zero.2 hA
  have hX' : ((X * A)ᵀ * (X * A)).det ≠ 0 := fun h => hX ((gram_mul_det X A hA).1 h)
  have hb := hE X y
  have hb' : E.lstsq (X * A) y = A⁻¹ *ᵥ E.lstsq X y := ols_unique hX' (hE (X * A) y) (ols_mul hA hb)
  have hf := fitted_mul X hA (E.lstsq X y)
  have hr : resid (X * A) y (A⁻¹ *ᵥ E.lstsq X y) = resid X y (E.lstsq X y) := by
    funext i; simp only [resid, hf]
  simp only [fit]
  by_cases hk : Fintype.card ι < k
  · simp only [if_pos hk]
  · simp only [if_neg hk, hb', hr, hf, vcov_mul E.pinv o X hX A hA]
    cases vcov E.pinv o X (resid X y (E.lstsq X y)) with
    | error e => rfl
    | ok V =>
      simp only [Except.map]
      refine ⟨rfl, rfl, ⟨rfl, rfl, ?_⟩, ?_, ⟨_, _, fun _ => rfl, fun _ => rfl, ?_⟩, ?_⟩
      · simp [nParamsEffective]
      · simp [dfOf, nParamsEffective]
      · rw [mulVec_mulVec, mul_nonsing_inv A hu, one_mulVec]
      · cases V with
        | none => exact Or.inl ⟨fun _ => rfl, fun _ => rfl⟩
        | some V =>
          refine Or.inr ⟨V, A⁻¹ * V * (A⁻¹)ᵀ, fun _ => rfl, fun _ => rfl, ?_⟩
          have hAt : (A⁻¹)ᵀ * Aᵀ = 1 := by rw [← transpose_mul, mul_nonsing_inv A hu, transpose_one]
          calc V = 1 * V * 1 := by rw [Matrix.one_mul, Matrix.mul_one]
            _ = (A * A⁻¹) * V * ((A⁻¹)ᵀ * Aᵀ) := by rw [mul_nonsing_inv A hu, hAt]
            _ = A * (A⁻¹ * V * (A⁻¹)ᵀ) * Aᵀ := by simp only [Matrix.mul_assoc]

/-- C124. If regressor `j` enters only its own new column, with coefficient one (other columns are recombined in any invertible way, multiples of them may be
added to column `j`), all inference on coefficient `j` is unchanged. -/
theorem C124_treatment (E : Solvers ι K) (hE : Solves E) (o : Opts ι C) {k : ℕ} (X : Matrix ι (Fin k) K) (hX : (Xᵀ * X).det ≠ 0)
    (A : Matrix (Fin k) (Fin k) K) (hA : A.det ≠ 0) (y : ι → K) (a : ℤ) (j : Fin k) (hj : ∀ m, A j m = if m = j then 1 else 0)
    (f f' : Fit ι k K) (h : fit E o [] X y a = .ok f) (h' : fit E o [] (X * A) y a = .ok f')
    (r : K → K) (tD : ℤ → Inference.Dist K) (nD : Inference.Dist K) (al : Option K) (alpha : K) (dfArg : Option ℤ) :
    infer r tD nD f' j al alpha dfArg = infer r tD nD f j al alpha dfArg := by
  have key := C124_reparametrize E hE o X hX A hA y a
  rw [h, h'] at key
  simp only at key
  obtain ⟨b, b', hb, hb', hbb⟩ := key.coef
  have hc : f'.coef j = f.coef j := by
    rw [hb, hb', hbb]
    simp [mulVec, dotProduct, hj]
  have hv : f'.vcov (j, j) = f.vcov (j, j) := by
    rcases key.vcov with ⟨h1, h2⟩ | ⟨V, V', h1, h2, h3⟩
    · rw [h1, h2]
    · rw [h1, h2, h3]
      simp [mul_apply, hj]
  unfold infer
  rw [hc, hv, key.df]

/-! ### Rescaling -/

/-- Square root on non-negative numbers. -/
def IsSqrt (r : K → K) : Prop := ∀ v, 0 ≤ v → 0 ≤ r v ∧ r v ^ 2 = v

theorem IsSqrt.div {r : K → K} (hr : IsSqrt r) {v c : K} (hv : 0 ≤ v) : r (v / c ^ 2) = r v / |c| := by
  obtain ⟨h1, h2⟩ := hr v hv
  obtain ⟨h3, h4⟩ := hr (v / c ^ 2) (div_nonneg hv (sq_nonneg c))
  have h5 : 0 ≤ r v / |c| := div_nonneg h1 (abs_nonneg c)
  have h6 : (r v / |c|) ^ 2 = v / c ^ 2 := by rw [div_pow, h2, sq_abs]
  exact (pow_left_inj₀ h3 h5 (by norm_num)).1 (h4.trans h6.symm)

theorem IsSqrt.mul {r : K → K} (hr : IsSqrt r) {v c : K} (hv : 0 ≤ v) : r (c ^ 2 * v) = |c| * r v := by
  obtain ⟨h1, h2⟩ := hr v hv
  obtain ⟨h3, h4⟩ := hr (c ^ 2 * v) (mul_nonneg (sq_nonneg c) hv)
  have h5 : 0 ≤ |c| * r v := mul_nonneg (abs_nonneg c) h1
  have h6 : (|c| * r v) ^ 2 = c ^ 2 * v := by rw [mul_pow, h2, sq_abs]
  exact (pow_left_inj₀ h3 h5 (by norm_num)).1 (h4.trans h6.symm)

theorem IsSqrt.pos {r : K → K} (hr : IsSqrt r) {v : K} (hv : 0 < v) : 0 < r v := by
  obtain ⟨h1, h2⟩ := hr v hv.le
  rcases h1.lt_or_eq with h | h
  · exact h
  · rw [← h] at h2; norm_num at h2; exact absurd h2 hv.ne

/-- Inference on a coefficient with positive variance, field by field. -/
theorem infer_eq {k : ℕ} (r : K → K) (hr : IsSqrt r) (tD : ℤ → Inference.Dist K) (nD : Inference.Dist K) (f : Fit ι k K) (j : Fin k) (al : Option K) (alpha : K)
    (dfArg : Option ℤ) (b v : K) (hb : f.coef j = some b) (hv : f.vcov (j, j) = some v) (hp : 0 < v) :
    infer r tD nD f j al alpha dfArg =
      let D := Inference.pick tD nD (Inference.effectiveDf dfArg (some f.df))
      let q := D.ppf (1 - al.getD alpha / 2)
      { coef := .fin b, se := .fin (r v), t := .fin (b / r v), p := Ext.mul (.fin (D.sf |b / r v|)) (.fin 2)
        ci := (.fin (b - q * r v), .fin (b + q * r v)), df := Inference.effectiveDf dfArg (some f.df), alpha := al.getD alpha } := by
  unfold infer
  rw [hb, hv]
  simp only [Inference.getInference, Option.map_some, toExt, Inference.tStat_pos _ _ (hr.pos hp), Inference.confInt_fin]
  rfl

/-- C124. Measuring regressor `j` in other units (column times `c ≠ 0`) divides its coefficient by `c` and its standard error by `|c|`; the t statistic keeps
its size (and its sign if `c > 0`), p-value, degrees of freedom and level are unchanged, and the interval is divided by `c`. Every other coefficient's
inference is unchanged. -/
theorem C124_rescale (E : Solvers ι K) (hE : Solves E) (o : Opts ι C) {k : ℕ} (X : Matrix ι (Fin k) K) (hX : (Xᵀ * X).det ≠ 0)
    (j : Fin k) (c : K) (hc : c ≠ 0) (y : ι → K) (a : ℤ) (f f' : Fit ι k K) (h : fit E o [] X y a = .ok f)
    (h' : fit E o [] (fun i m => if m = j then c * X i m else X i m) y a = .ok f')
    (r : K → K) (hr : IsSqrt r) (tD : ℤ → Inference.Dist K) (nD : Inference.Dist K) (al : Option K) (alpha : K) (dfArg : Option ℤ) :
    (∀ m, m ≠ j → infer r tD nD f' m al alpha dfArg = infer r tD nD f m al alpha dfArg) ∧
    (∀ v, f.vcov (j, j) = some v → 0 < v → ∃ b s lo hi,
      (infer r tD nD f j al alpha dfArg).coef = .fin b ∧ (infer r tD nD f' j al alpha dfArg).coef = .fin (b / c) ∧
      (infer r tD nD f j al alpha dfArg).se = .fin s ∧ (infer r tD nD f' j al alpha dfArg).se = .fin (s / |c|) ∧
      (infer r tD nD f j al alpha dfArg).t = .fin (b / s) ∧ (infer r tD nD f' j al alpha dfArg).t = .fin (|c| / c * (b / s)) ∧
      (infer r tD nD f' j al alpha dfArg).p = (infer r tD nD f j al alpha dfArg).p ∧
      (infer r tD nD f j al alpha dfArg).ci = (.fin lo, .fin hi) ∧
      (infer r tD nD f' j al alpha dfArg).ci = (if 0 < c then (.fin (lo / c), .fin (hi / c)) else (.fin (hi / c), .fin (lo / c))) ∧
      (infer r tD nD f' j al alpha dfArg).df = (infer r tD nD f j al alpha dfArg).df) := by
  set A : Matrix (Fin k) (Fin k) K := Matrix.diagonal (fun m => if m = j then c else 1) with hAdef
  have hXA : (fun i m => if m = j then c * X i m else X i m) = X * A := by
    funext i m
    rw [hAdef, Matrix.mul_diagonal]
    by_cases hm : m = j
    · simp only [hm, if_true]; ring
    · simp only [hm, if_false, mul_one]
  have hA : A.det ≠ 0 := by
    rw [hAdef, det_diagonal, Finset.prod_ne_zero_iff]
    intro m _
    by_cases hm : m = j <;> simp [hm, hc]
  rw [hXA] at h'
  have key := C124_reparametrize E hE o X hX A hA y a
  rw [h, h'] at key
  simp only at key
  obtain ⟨b, b', hb, hb', hbb⟩ := key.coef
  have hrow : ∀ m, b m = (if m = j then c else 1) * b' m := by
    intro m; rw [hbb, hAdef, mulVec_diagonal]
  constructor
  · intro m hm
    refine C124_treatment E hE o X hX A hA y a m ?_ f f' h h' r tD nD al alpha dfArg
    intro l
    rw [hAdef, diagonal_apply]
    by_cases hl : l = m
    · subst hl; simp [hm]
    · rw [if_neg (fun e => hl e.symm), if_neg hl]
  · intro v hv hpos
    rcases key.vcov with ⟨h1, -⟩ | ⟨V, V', h1, h2, h3⟩
    · rw [h1] at hv; cases hv
    · have hvv : V j j = v := by rw [h1] at hv; exact Option.some.inj hv
      have e : V j j = c ^ 2 * V' j j := by
        rw [h3, hAdef, diagonal_transpose, Matrix.mul_diagonal, Matrix.diagonal_mul]
        simp only [if_true]; ring
      have hc2 : c ^ 2 ≠ 0 := pow_ne_zero 2 hc
      have hV' : V' j j = v / c ^ 2 := by rw [← hvv, e]; field_simp
      have hpos' : 0 < v / c ^ 2 := div_pos hpos (lt_of_le_of_ne (sq_nonneg c) (Ne.symm hc2))
      have hb1 : b' j = b j / c := by rw [hrow j, if_pos rfl]; field_simp
      have hf := infer_eq r hr tD nD f j al alpha dfArg (b j) v (hb j) hv hpos
      have hf' := infer_eq r hr tD nD f' j al alpha dfArg (b j / c) (v / c ^ 2) (by rw [hb' j, hb1]) (by rw [h2, hV']) hpos'
      rw [hr.div hpos.le, key.df] at hf'
      have hs := hr.pos hpos
      have hac : |c| ≠ 0 := abs_ne_zero.2 hc
      rw [hf, hf']
      refine ⟨b j, r v, _, _, rfl, rfl, rfl, rfl, rfl, ?_, ?_, rfl, ?_, rfl⟩
      · dsimp only
        congr 1
        field_simp
      · dsimp only
        have : |b j / c / (r v / |c|)| = |b j / r v| := by
          rw [abs_div, abs_div, abs_div, abs_div, abs_abs]
          field_simp
        rw [this]
      · dsimp only
        generalize (Inference.pick tD nD (Inference.effectiveDf dfArg (some f.df))).ppf (1 - al.getD alpha / 2) = q
        by_cases hcp : 0 < c
        · rw [if_pos hcp, abs_of_pos hcp]
          refine Prod.ext ?_ ?_ <;> · congr 1; field_simp
        · have hcn : c < 0 := lt_of_le_of_ne (not_lt.1 hcp) hc
          rw [if_neg hcp, abs_of_neg hcn]
          refine Prod.ext ?_ ?_ <;> · dsimp only; congr 1; field_simp; ring

/-! ### Outcome -/

theorem vcovNumpy_scale (X : Matrix ι κ K) (u : ι → K) (c : K) (ids : Option (ι → Option C)) :
    vcovNumpy X (fun i => c * u i) ids = (vcovNumpy X u ids).map (fun V => c ^ 2 • V) := by
  cases h : vcovNumpy X u ids with
  | ok V => exact C14_scale X u c V ids h
  | error e =>
    cases ids with
    | none =>
      simp only [vcovNumpy] at h ⊢
      split_ifs at h ⊢
      · cases h; rfl
      · cases h; rfl
    | some ids =>
      simp only [vcovNumpy] at h ⊢
      split_ifs at h ⊢
      · cases h; rfl
      · cases h; rfl
      · cases h; rfl

theorem classical_scale (pinv : Matrix κ κ K → Matrix κ κ K) (X : Matrix ι κ K) (u : ι → K) (c : K) :
    classical pinv X (fun i => c * u i) = (classical pinv X u).map (fun V => c ^ 2 • V) := by
  unfold classical
  dsimp only
  have e : ∑ i, (c * u i) ^ 2 = c ^ 2 * ∑ i, u i ^ 2 := by rw [Finset.mul_sum]; exact Finset.sum_congr rfl fun i _ => by ring
  rw [e, mul_div_assoc]
  split_ifs
  · rfl
  · rw [Option.map_some, smul_smul]
  · rw [Option.map_some, Matrix.mul_smul, Matrix.mul_smul, smul_smul]

theorem vcov_scale (pinv : Matrix κ κ K → Matrix κ κ K) (o : Opts ι C) (X : Matrix ι κ K) (u : ι → K) (c : K) :
    vcov pinv o X (fun i => c * u i) = (vcov pinv o X u).map (Option.map (fun V => c ^ 2 • V)) := by
  unfold vcov
  split_ifs
  · rw [vcovNumpy_scale]
    cases vcovNumpy X u o.ids <;> rfl
  · rw [classical_scale]; rfl

/-- C124. Changing the units of the outcome (times `c`) and adding any combination of the regressors to it: coefficients become `c b + β`, the covariance matrix
is multiplied by `c²`, degrees of freedom stay; errors are the same. -/
theorem C124_outcome (E : Solvers ι K) (hE : Solves E) (o : Opts ι C) {k : ℕ} (X : Matrix ι (Fin k) K) (hX : (Xᵀ * X).det ≠ 0)
    (c : K) (β : Fin k → K) (y : ι → K) (a : ℤ) :
    match fit E o [] X y a, fit E o [] X (fun i => c * y i + ∑ j, X i j * β j) a with
    | .ok f, .ok f' => (∃ b : Fin k → K, (∀ j, f.coef j = some (b j)) ∧ ∀ j, f'.coef j = some (c * b j + β j)) ∧
        (∀ p, f'.vcov p = (f.vcov p).map (c ^ 2 * ·)) ∧ (∀ i, f'.resid i = c * f.resid i) ∧ f'.df = f.df
    | .error e, .error e' => e = e'
    | _, _ => False := by
  have hb := hE X y
  have hb' : E.lstsq X (fun i => c * y i + ∑ j, X i j * β j) = fun j => c * E.lstsq X y j + β j :=
    ols_unique hX (hE X _) (C11_equivariant X y (E.lstsq X y) β c hb)
  have hr : resid X (fun i => c * y i + ∑ j, X i j * β j) (fun j => c * E.lstsq X y j + β j) = fun i => c * resid X y (E.lstsq X y) i := by
    funext i
    have : fitted X (fun j => c * E.lstsq X y j + β j) i = c * fitted X (E.lstsq X y) i + ∑ j, X i j * β j := by
      show dot _ _ = _
      rw [dot_add, dot_smul]; rfl
    simp only [resid, this]; ring
  simp only [fit]
  by_cases hk : Fintype.card ι < k
  · simp only [if_pos hk]
  · simp only [if_neg hk, hb', hr, vcov_scale]
    cases vcov E.pinv o X (resid X y (E.lstsq X y)) with
    | error e => rfl
    | ok V =>
      simp only [Except.map]
      refine ⟨⟨_, fun _ => rfl, fun _ => rfl⟩, ?_, fun _ => trivial, ?_⟩
      · intro p
        cases V with
        | none => rfl
        | some V => rfl
      · simp [dfOf, nParamsEffective]

/-- C124. Consequence for one coefficient: with a positive factor and no change along its own regressor, t statistic, p-value and degrees of freedom are
unchanged, coefficient, standard error and interval are multiplied by the factor. -/
theorem C124_units (E : Solvers ι K) (hE : Solves E) (o : Opts ι C) {k : ℕ} (X : Matrix ι (Fin k) K) (hX : (Xᵀ * X).det ≠ 0)
    (c : K) (hc : 0 < c) (β : Fin k → K) (y : ι → K) (a : ℤ) (j : Fin k) (hβ : β j = 0) (f f' : Fit ι k K) (h : fit E o [] X y a = .ok f)
    (h' : fit E o [] X (fun i => c * y i + ∑ j, X i j * β j) a = .ok f')
    (r : K → K) (hr : IsSqrt r) (tD : ℤ → Inference.Dist K) (nD : Inference.Dist K) (al : Option K) (alpha : K) (dfArg : Option ℤ)
    (v : K) (hv : f.vcov (j, j) = some v) (hpos : 0 < v) :
    ∃ b s lo hi, (infer r tD nD f j al alpha dfArg).coef = .fin b ∧ (infer r tD nD f' j al alpha dfArg).coef = .fin (c * b) ∧
      (infer r tD nD f j al alpha dfArg).se = .fin s ∧ (infer r tD nD f' j al alpha dfArg).se = .fin (c * s) ∧
      (infer r tD nD f' j al alpha dfArg).t = (infer r tD nD f j al alpha dfArg).t ∧
      (infer r tD nD f' j al alpha dfArg).p = (infer r tD nD f j al alpha dfArg).p ∧
      (infer r tD nD f j al alpha dfArg).ci = (.fin lo, .fin hi) ∧ (infer r tD nD f' j al alpha dfArg).ci = (.fin (c * lo), .fin (c * hi)) ∧
      (infer r tD nD f' j al alpha dfArg).df = (infer r tD nD f j al alpha dfArg).df := by
  have key := C124_outcome E hE o X hX c β y a
  rw [h, h'] at key
  obtain ⟨⟨b, hb, hb'⟩, hvc, -, hdf⟩ := key
  have hc2 : 0 < c ^ 2 := pow_pos hc 2
  have hf := infer_eq r hr tD nD f j al alpha dfArg (b j) v (hb j) hv hpos
  have hf' := infer_eq r hr tD nD f' j al alpha dfArg (c * b j) (c ^ 2 * v) (by rw [hb' j, hβ, add_zero]) (by rw [hvc, hv]; rfl) (mul_pos hc2 hpos)
  rw [hr.mul hpos.le, abs_of_pos hc, hdf] at hf'
  have hs := (hr.pos hpos).ne'
  have e : c * b j / (c * r v) = b j / r v := by field_simp
  rw [e] at hf'
  rw [hf, hf']
  refine ⟨b j, r v, _, _, rfl, rfl, rfl, rfl, rfl, rfl, rfl, ?_, rfl⟩
  dsimp only
  refine Prod.ext ?_ ?_ <;> · dsimp only; congr 1; ring

/-! ### Same column space -/

theorem fitted_span {κ' : Type*} [Fintype κ'] {X : Matrix ι κ K} {X' : Matrix ι κ' K} (B : κ → κ' → K) (B' : κ' → κ → K)
    (h1 : ∀ i m', X' i m' = ∑ m, X i m * B m m') (h2 : ∀ i m, X i m = ∑ m', X' i m' * B' m' m) {y : ι → K} {b : κ → K} {b' : κ' → K}
    (hb : IsOls X y b) (hb' : IsOls X' y b') : fitted X b = fitted X' b' := by
  have hc : ∀ i, ∑ m', X' i m' * ∑ m, B' m' m * b m = ∑ m, X i m * b m := by
    intro i
    simp only [h2 i, Finset.sum_mul, Finset.mul_sum]
    rw [Finset.sum_comm]
    refine Finset.sum_congr rfl fun m _ => Finset.sum_congr rfl fun m' _ => by ring
  have hr : ∀ i, resid X' y (fun m' => ∑ m, B' m' m * b m) i = resid X y b i := by
    intro i; simp only [resid, fitted, dot, hc]
  have hols : IsOls X' y (fun m' => ∑ m, B' m' m * b m) := by
    intro m'
    simp only [hr, h1, Finset.sum_mul]
    rw [Finset.sum_comm]
    refine Finset.sum_eq_zero fun m _ => ?_
    have e : ∀ i, X i m * B m m' * resid X y b i = B m m' * (X i m * resid X y b i) := fun i => by ring
    simp only [e, ← Finset.mul_sum, hb m, mul_zero]
  funext i
  have := C11_fitted_unique X' y _ b' hols hb' i
  show ∑ m, X i m * b m = ∑ m', X' i m' * b' m'
  rw [← this, hc]

/-- Every dropped column is a combination of kept columns. -/
def Redundant {k : ℕ} (X : Matrix ι (Fin k) K) (drop : List (Fin k)) : Prop :=
  ∀ d ∈ drop, ∃ a : Fin k → K, ∀ i, X i d = ∑ j, if j ∈ drop then 0 else X i j * a j

/-- The fitted values of a fit are those of a least squares solution on the full design, whatever was dropped. -/
theorem fit_isOls (E : Solvers ι K) (hE : Solves E) (o : Opts ι C) {k : ℕ} (drop : List (Fin k)) (X : Matrix ι (Fin k) K) (y : ι → K) (a : ℤ)
    (f : Fit ι k K) (h : fit E o drop X y a = .ok f) (hd : Redundant X drop) :
    ∃ b, IsOls X y b ∧ f.fitted = fitted X b ∧ f.resid = resid X y b ∧ (∀ j, (f.coef j).getD 0 = b j) := by
  cases drop with
  | nil =>
    simp only [fit] at h
    by_cases hk : Fintype.card ι < k
    · rw [if_pos hk] at h; cases h
    · rw [if_neg hk] at h
      cases hv : vcov E.pinv o X (resid X y (E.lstsq X y)) with
      | error e => rw [hv] at h; cases h
      | ok V =>
        rw [hv] at h
        cases h
        exact ⟨_, hE X y, rfl, rfl, fun _ => rfl⟩
  | cons d ds =>
    simp only [fit] at h
    by_cases hk : Fintype.card ι < k
    · rw [if_pos hk] at h; cases h
    · rw [if_neg hk] at h
      by_cases hs : o.strict = true
      · rw [if_pos hs] at h; cases h
      · rw [if_neg hs] at h
        by_cases h0 : (keptCols (d :: ds)).length = 0
        · rw [if_pos h0] at h; cases h
        · rw [if_neg h0] at h
          set kept := keptCols (d :: ds) with hkept
          have hols := C12_fit_unchanged X y (d :: ds) _ (hE (reduce X kept) y) hd
          have hfit : ∀ i, fitted X (fun i => (expandCoef kept (E.lstsq (reduce X kept) y) i).getD 0) i = fitted (reduce X kept) (E.lstsq (reduce X kept) y) i := by
            intro i
            have := C12_predict (d :: ds) (E.lstsq (reduce X kept) y) (X i)
            exact this
          cases hv : vcov E.pinv o (reduce X kept) (resid (reduce X kept) y (E.lstsq (reduce X kept) y)) with
          | error e => rw [hv] at h; cases h
          | ok V =>
            rw [hv] at h
            cases h
            refine ⟨_, hols, ?_, ?_, fun _ => rfl⟩
            · funext i; exact (hfit i).symm
            · funext i
              show y i - _ = y i - fitted X (fun i => (expandCoef kept (E.lstsq (reduce X kept) y) i).getD 0) i
              rw [hfit]

/-- C124. Two designs with the same column space, however many redundant columns each has and whichever are dropped, give the same fitted values, residuals
and R². -/
theorem C124_span (E : Solvers ι K) (hE : Solves E) (o o' : Opts ι C) {k k' : ℕ} (drop : List (Fin k)) (drop' : List (Fin k')) (X : Matrix ι (Fin k) K)
    (X' : Matrix ι (Fin k') K) (hd : Redundant X drop) (hd' : Redundant X' drop')
    (B : Fin k → Fin k' → K) (B' : Fin k' → Fin k → K) (h1 : ∀ i m', X' i m' = ∑ m, X i m * B m m') (h2 : ∀ i m, X i m = ∑ m', X' i m' * B' m' m)
    (y : ι → K) (a a' : ℤ) (f : Fit ι k K) (f' : Fit ι k' K) (h : fit E o drop X y a = .ok f) (h' : fit E o' drop' X' y a' = .ok f') :
    f'.fitted = f.fitted ∧ f'.resid = f.resid ∧ rsq f' y false = rsq f y false := by
  obtain ⟨b, hb, e1, e2, -⟩ := fit_isOls E hE o drop X y a f h hd
  obtain ⟨b', hb', e1', e2', -⟩ := fit_isOls E hE o' drop' X' y a' f' h' hd'
  have hf := fitted_span B B' h1 h2 hb hb'
  have hr : f'.resid = f.resid := by rw [e2, e2']; funext i; simp only [resid, hf]
  refine ⟨by rw [e1, e1', hf], hr, ?_⟩
  unfold rsq
  rw [hr]
  simp [rSquared]

/-- C124. Predicting on the estimation data returns the fitted values, also with dropped columns. -/
theorem C124_predict (E : Solvers ι K) (hE : Solves E) (o : Opts ι C) {k : ℕ} (drop : List (Fin k)) (X : Matrix ι (Fin k) K) (y : ι → K) (a : ℤ)
    (f : Fit ι k K) (h : fit E o drop X y a = .ok f) (hd : Redundant X drop) (i : ι) : predict f.coef (X i) = f.fitted i := by
  obtain ⟨b, -, e1, -, e3⟩ := fit_isOls E hE o drop X y a f h hd
  rw [e1]
  unfold predict
  simp only [e3]
  rfl

/-! ### Classical matrix -/

/-- C124. The classical covariance matrix is symmetric and positive semidefinite. -/
theorem C124_classical_psd (pinv : Matrix κ κ K → Matrix κ κ K) (X : Matrix ι κ K) (hX : (Xᵀ * X).det ≠ 0) (hn : Fintype.card κ < Fintype.card ι) (u : ι → K)
    (V : Matrix κ κ K) (h : classical pinv X u = some V) : Vᵀ = V ∧ ∀ v, 0 ≤ quad V v := by
  have hu : IsUnit (Xᵀ * X).det := isUnit_iff_ne_zero.2 hX
  unfold classical at h
  dsimp only at h
  rw [if_neg (by omega), if_neg hX] at h
  cases h
  set mse := (∑ i, u i ^ 2) / ((Fintype.card ι : K) - (Fintype.card κ : K)) with hm
  have hmse : 0 ≤ mse := by
    refine div_nonneg (Finset.sum_nonneg fun i _ => sq_nonneg _) ?_
    rw [sub_nonneg]; exact_mod_cast hn.le
  have e : (Xᵀ * X)⁻¹ * (mse • (1 : Matrix κ κ K)) = mse • (Xᵀ * X)⁻¹ := by rw [Matrix.mul_smul, Matrix.mul_one]
  rw [e]
  refine ⟨by rw [transpose_smul, gram_inv_symm], fun v => ?_⟩
  rw [quad_eq, smul_mulVec, dotProduct_smul, smul_eq_mul]
  refine mul_nonneg hmse ?_
  have hv : v = (Xᵀ * X) *ᵥ ((Xᵀ * X)⁻¹ *ᵥ v) := by rw [mulVec_mulVec, mul_nonsing_inv _ hu, one_mulVec]
  set w := (Xᵀ * X)⁻¹ *ᵥ v with hw
  rw [hv, ← mulVec_mulVec, dotProduct_comm, dotProduct_mulVec, vecMul_transpose]
  exact Finset.sum_nonneg fun i _ => mul_self_nonneg _

/-- C124 is false in the form "with the default action every design is accepted": if all columns are zero the rank is found to be zero, every column is
dropped, and the call fails with an IndexError instead of returning NaN coefficients. -/
theorem C124_zero_design_refuted (E : Solvers ι K) (o : Opts ι C) (ho : o.strict = false) {k : ℕ} (hk : 0 < k) (hn : k ≤ Fintype.card ι) (rcond : K)
    (pivot : List (Fin k)) (hp : pivot.Perm (List.finRange k)) (y : ι → K) (a : ℤ) :
    rankOf rcond (List.replicate k (0 : K)) = some 0 ∧ fit E o (droppedCols 0 pivot) (0 : Matrix ι (Fin k) K) y a = .error .noColumns := by
  constructor
  · obtain ⟨k, rfl⟩ : ∃ m, k = m + 1 := ⟨k - 1, by omega⟩
    simp [rankOf, List.replicate_succ]
  · obtain ⟨-, hlen, hkept, -⟩ := C12_partition 0 pivot hp (Nat.zero_le _)
    cases hd : droppedCols 0 pivot with
    | nil => rw [hd] at hlen; simp at hlen; omega
    | cons d ds =>
      rw [hd] at hkept
      simp only [fit]
      rw [if_neg (by omega), ho, if_pos hkept]
      rfl

/-- C124. With `include_intercept` the residuals add up to zero, and adding a constant to the outcome adds it to the first coefficient and
changes nothing else. -/
theorem C124_intercept (E : Solvers ι K) (hE : Solves E) (o : Opts ι C) {k : ℕ} (X : Matrix ι (Fin k) K)
    (hX : ((addIntercept X)ᵀ * addIntercept X).det ≠ 0) (y : ι → K) (c : K) (a : ℤ) :
    match fit E o [] (addIntercept X) y a, fit E o [] (addIntercept X) (fun i => y i + c) a with
    | .ok f, .ok f' => ∑ i, f.resid i = 0 ∧ f'.coef 0 = (f.coef 0).map (· + c) ∧ (∀ j : Fin k, f'.coef j.succ = f.coef j.succ) ∧
        (∀ p, f'.vcov p = f.vcov p) ∧ (∀ i, f'.resid i = f.resid i) ∧ f'.df = f.df
    | .error e, .error e' => e = e'
    | _, _ => False := by
  have key := C124_outcome E hE o (addIntercept X) hX 1 (fun j => if j = 0 then c else 0) y a
  have hy : (fun i => 1 * y i + ∑ j, addIntercept X i j * (if j = 0 then c else 0)) = fun i => y i + c := by
    funext i; simp [addIntercept]
  rw [hy] at key
  have hsum : ∑ i, resid (addIntercept X) y (E.lstsq (addIntercept X) y) i = 0 := by
    have := hE (addIntercept X) y 0
    simpa [addIntercept] using this
  cases h1 : fit E o [] (addIntercept X) y a with
  | error e =>
    cases h2 : fit E o [] (addIntercept X) (fun i => y i + c) a with
    | error e' => rw [h1, h2] at key; exact key
    | ok f' => rw [h1, h2] at key; exact key
  | ok f =>
    cases h2 : fit E o [] (addIntercept X) (fun i => y i + c) a with
    | error e' => rw [h1, h2] at key; exact key
    | ok f' =>
      rw [h1, h2] at key
      obtain ⟨⟨b, hb, hb'⟩, hv, hr, hdf⟩ := key
      refine ⟨?_, ?_, fun j => ?_, fun p => ?_, fun i => ?_, hdf⟩
      · have hres : f.resid = resid (addIntercept X) y (E.lstsq (addIntercept X) y) := by
          simp only [fit] at h1
          split_ifs at h1
          split at h1
          · cases h1
          · cases h1; rfl
        rw [hres]; exact hsum
      · rw [hb', hb]; simp
      · rw [hb', hb]; simp
      · rw [hv]; cases f.vcov p <;> simp
      · rw [hr, one_mul]

/-- C124. Cluster identifiers passed to `fit` replace those of the constructor. -/
theorem C124_call_ids (E : Solvers ι K) (robust strict : Bool) (own : Option (ι → Option C)) (ids : ι → Option C) {k : ℕ} (drop : List (Fin k))
    (X : Matrix ι (Fin k) K) (y : ι → K) (a : ℤ) :
    fit E ⟨robust, own, some ids, strict⟩ drop X y a = fit E ⟨robust, some ids, none, strict⟩ drop X y a := rfl

/-- C124. The adjusted R² divides by the number of coefficients that are numbers: columns dropped as redundant do not count. -/
theorem C124_adjusted (E : Solvers ι K) (o : Opts ι C) {k : ℕ} (drop : List (Fin k)) (X : Matrix ι (Fin k) K) (y : ι → K) (a : ℤ)
    (f : Fit ι k K) (h : fit E o drop X y a = .ok f) (m : ℕ) (hm : m = (Finset.univ.filter (fun j => (f.coef j).isSome)).card)
    (hn : m < Fintype.card ι) (hy : ∑ i, (y i - (∑ i, y i) / (Fintype.card ι : K)) ^ 2 ≠ 0) :
    1 - rsq f y true = (∑ i, f.resid i ^ 2) / (∑ i, (y i - (∑ i, y i) / (Fintype.card ι : K)) ^ 2) *
      ((Fintype.card ι : K) - 1) / ((Fintype.card ι : K) - (m : K)) ∧
    1 - rsq f y false = (∑ i, f.resid i ^ 2) / (∑ i, (y i - (∑ i, y i) / (Fintype.card ι : K)) ^ 2) := by
  have heff : f.nEff = nParamsEffective f.coef := by
    cases drop with
    | nil =>
      simp only [fit] at h
      split_ifs at h
      split at h
      · cases h
      · cases h; rfl
    | cons d ds =>
      simp only [fit] at h
      split_ifs at h
      split at h
      · cases h
      · cases h; rfl
  have hcount : f.nEff.toNat = m := by
    rw [heff, hm]
    unfold nParamsEffective
    have : (Finset.univ.filter (fun j => (f.coef j).isSome)).card + (Finset.univ.filter (fun j => (f.coef j).isNone)).card = k := by
      have h1 := Finset.card_filter_add_card_filter_not (s := (Finset.univ : Finset (Fin k))) (fun j => (f.coef j).isSome = true)
      rw [Finset.card_univ, Fintype.card_fin] at h1
      refine Eq.trans ?_ h1
      congr 2
      ext j; cases f.coef j <;> simp
    omega
  constructor
  · simp only [rsq, if_true, Vcov.rSquared, if_neg hy, hcount, if_neg (not_le.2 hn)]
    ring
  · simp only [rsq, Vcov.rSquared, if_neg hy, Bool.false_eq_true, if_false]
    ring

/-! ### Examples -/

/-- Intercept and a regressor, three observations. -/
def exX : Matrix (Fin 3) (Fin 2) ℚ := ![![1, 0], ![1, 1], ![1, 2]]
def exY : Fin 3 → ℚ := ![0, 1, 3]
def exO : Opts (Fin 3) ℕ := ⟨false, none, none, false⟩

theorem exX_gram : exXᵀ * exX = !![3, 3; 3, 5] := by
  ext i j
  rw [mul_apply]
  simp only [transpose_apply, Fin.sum_univ_three]
  fin_cases i <;> fin_cases j <;> simp [exX] <;> norm_num

theorem exX_det : (exXᵀ * exX).det ≠ 0 := by rw [exX_gram, det_fin_two]; norm_num

theorem exX_ols : IsOls exX exY ![-1/6, 3/2] := by
  intro j; fin_cases j <;> simp [resid, fitted, dot, exX, exY, Fin.sum_univ_succ] <;> norm_num

/-- The hypotheses of C124 hold: a solver exists, the fit succeeds and the slope 3/2 has variance 1/12. -/
example : ∃ E : Solvers (Fin 3) ℚ, Solves E ∧ ∃ f, fit E exO [] exX exY 0 = .ok f ∧ f.coef 1 = some (3 / 2) ∧ f.vcov (1, 1) = some (1 / 12) ∧ f.df = 1 := by
  obtain ⟨E, hE⟩ := exists_solves (ι := Fin 3) (K := ℚ)
  refine ⟨E, hE, ?_⟩
  have hb : E.lstsq exX exY = ![-1/6, 3/2] := ols_unique exX_det (hE exX exY) exX_ols
  have hinv : (exXᵀ * exX)⁻¹ = !![5/6, -1/2; -1/2, 1/2] := by
    apply inv_eq_right_inv
    rw [exX_gram]
    ext i j; fin_cases i <;> fin_cases j <;> simp [mul_apply, Fin.sum_univ_succ] <;> norm_num
  have hr : ∑ i, resid exX exY ![-1/6, 3/2] i ^ 2 = 1 / 6 := by
    simp [resid, fitted, dot, exX, exY, Fin.sum_univ_succ]; norm_num
  have hv : vcov E.pinv exO exX (resid exX exY ![-1/6, 3/2]) = .ok (some ((1 / 6 : ℚ) • !![5/6, -1/2; -1/2, 1/2])) := by
    simp only [vcov, exO, Opts.ids, Option.isSome_none, Bool.or_self, Bool.false_eq_true, if_false, classical, Fintype.card_fin, if_neg exX_det, hinv, hr]
    rw [if_neg (by norm_num)]
    congr 2
    rw [Matrix.mul_smul, Matrix.mul_one]
    congr 1
    norm_num
  refine ⟨_, by simp only [fit, hb, hv, Fintype.card_fin]; rw [if_neg (by norm_num)], ?_, ?_, ?_⟩
  · simp
  · simp; norm_num
  · simp [dfOf, nParamsEffective]

/-- The same design is a regressor with an intercept in front. -/
example : addIntercept (fun (i : Fin 3) (_ : Fin 1) => (i.val : ℚ)) = exX ∧ ∑ i, (exY i - (∑ i, exY i) / (Fintype.card (Fin 3) : ℚ)) ^ 2 ≠ 0 := by
  constructor
  · funext i j; fin_cases i <;> fin_cases j <;> simp [addIntercept, exX]
  · decide +kernel

/-- A change of regressors that recentres column 1 and keeps its coefficient: row 1 of `A` is a unit vector. -/
example : (!![1, -1; 0, 1] : Matrix (Fin 2) (Fin 2) ℚ).det ≠ 0 ∧ ∀ m, (!![1, -1; 0, 1] : Matrix (Fin 2) (Fin 2) ℚ) 1 m = if m = 1 then 1 else 0 := by
  refine ⟨by rw [det_fin_two]; norm_num, fun m => ?_⟩
  fin_cases m <;> simp

/-- A redundant column. -/
example : Redundant (fun i => ![1, exX i 1, 2 * exX i 1] : Matrix (Fin 3) (Fin 3) ℚ) [2] := by
  intro d hd
  rw [List.mem_singleton] at hd
  subst hd
  refine ⟨![0, 2, 0], fun i => ?_⟩
  simp [Fin.sum_univ_succ]; ring

end DiffDiff.LinReg
