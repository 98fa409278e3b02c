/-
Property C153 (regressions): the outcome in other units, whole fit, whatever columns are dropped.
-/
import Verif.LinRegProps
import Verif.InferenceScaleProps
import Mathlib.Analysis.Real.Sqrt
import Mathlib.LinearAlgebra.Basis.VectorSpace
import Mathlib.Tactic.Positivity
import Mathlib.Tactic.Linarith

set_option linter.unusedSectionVars false
set_option linter.unusedVariables false

namespace DiffDiff.LinReg
open Matrix Ols

variable {K : Type*} [Field K] [LinearOrder K] [IsStrictOrderedRing K]
variable {ι κ C : Type*} [Fintype ι] [DecidableEq ι] [Fintype κ] [DecidableEq κ] [DecidableEq C]

/-- A number in units multiplied by `c`; NaN and the infinities stay (`c` positive). -/
def inUnits (c : K) : Ext K → Ext K
  | .fin x => .fin (c * x)
  | e => e

/-- The least squares solver is homogeneous in the outcome. -/
def Homogeneous (E : Solvers ι K) : Prop := ∀ {m : ℕ} (X : Matrix ι (Fin m) K) (c : K) (y : ι → K), E.lstsq X (fun i => c * y i) = fun j => c * E.lstsq X y j

/-- Fitted attributes in other units. -/
def Fit.inUnits {k : ℕ} (c : K) (f : Fit ι k K) : Fit ι k K :=
  { f with coef := fun j => (f.coef j).map (c * ·), vcov := fun p => (f.vcov p).map (c ^ 2 * ·), resid := fun i => c * f.resid i
           fitted := fun i => c * f.fitted i }

theorem scatter_map {α β γ : Type*} [DecidableEq α] (f : β → γ) (w : List (α × β)) :
    ∀ a : α → β, scatter (fun i => f (a i)) (w.map (fun p => (p.1, f p.2))) = fun i => f (scatter a w i) := by
  induction w with
  | nil => intro a; rfl
  | cons p w ih =>
    intro a
    have : Function.update (fun i => f (a i)) p.1 (f p.2) = fun i => f (Function.update a p.1 p.2 i) := by
      funext i
      by_cases h : i = p.1
      · subst h; simp
      · simp [Function.update_of_ne h]
    show scatter (Function.update (fun i => f (a i)) p.1 (f p.2)) _ = _
    rw [this, ih]
    rfl

theorem expandCoef_mul {k : ℕ} (c : K) (kept : List (Fin k)) (b : Fin kept.length → K) :
    expandCoef kept (fun j => c * b j) = fun i => (expandCoef kept b i).map (c * ·) := by
  unfold expandCoef
  rw [← scatter_map (Option.map (c * ·))]
  congr 1
  rw [List.map_ofFn]
  rfl

theorem expandVcov_mul {k : ℕ} (c : K) (kept : List (Fin k)) (V : Fin kept.length → Fin kept.length → K) :
    expandVcov kept (fun a b => c * V a b) = fun p => (expandVcov kept V p).map (c * ·) := by
  unfold expandVcov
  rw [← scatter_map (Option.map (c * ·))]
  congr 1
  rw [List.map_flatMap]
  simp only [List.map_map]
  rfl

theorem effective_mul {k : ℕ} (c : K) (b : Fin k → Option K) : nParamsEffective (fun j => (b j).map (c * ·)) = nParamsEffective b := by
  unfold nParamsEffective
  simp

theorem resid_mul (X : Matrix ι κ K) (c : K) (y : ι → K) (b : κ → K) : resid X (fun i => c * y i) (fun j => c * b j) = fun i => c * resid X y b i := by
  funext i
  have : fitted X (fun j => c * b j) i = c * fitted X b i := dot_smul _ _ _
  simp only [resid, this]; ring

/-- C153. LinearRegression.fit on the outcome in other units fails with the same error or gives coefficients, fitted values and residuals in these units and the
covariance matrix in their squares, with the same missing entries and degrees of freedom; whatever columns are dropped. -/
theorem C153_regression (E : Solvers ι K) (hE : Homogeneous E) (o : Opts ι C) {k : ℕ} (drop : List (Fin k)) (X : Matrix ι (Fin k) K) (y : ι → K) (a : ℤ) (c : K) :
    fit E o drop X (fun i => c * y i) a = (fit E o drop X y a).map (Fit.inUnits c) := by
  have hfit : ∀ {m : ℕ} (X : Matrix ι (Fin m) K) (b : Fin m → K), fitted X (fun j => c * b j) = fun i => c * fitted X b i :=
    fun X b => funext fun i => dot_smul _ _ _
  unfold fit
  by_cases hn : Fintype.card ι < k
  · simp only [if_pos hn]; rfl
  · simp only [if_neg hn]
    cases drop with
    | nil =>
      simp only [hE X c y, resid_mul, hfit, vcov_scale]
      cases vcov E.pinv o X (resid X y (E.lstsq X y)) with
      | error e => rfl
      | ok V =>
        simp only [Except.map, Fit.inUnits, Except.ok.injEq, Fit.mk.injEq, true_and]
        refine ⟨rfl, ?_, ?_, ?_⟩
        · funext p
          cases V with
          | none => rfl
          | some V => rfl
        · simp [nParamsEffective]
        · simp [dfOf, nParamsEffective]
    | cons d ds =>
      by_cases hs : o.strict = true
      · simp only [hs, if_true]; rfl
      · by_cases hk : (keptCols (d :: ds)).length = 0
        · simp only [if_neg hs, if_pos hk]; rfl
        · have hr := resid_mul (reduce X (keptCols (d :: ds)) : Matrix ι (Fin (keptCols (d :: ds)).length) K) c y
          have hf := hfit (reduce X (keptCols (d :: ds)) : Matrix ι (Fin (keptCols (d :: ds)).length) K)
          have hv := vcov_scale E.pinv o (reduce X (keptCols (d :: ds)) : Matrix ι (Fin (keptCols (d :: ds)).length) K)
          simp only [if_neg hs, if_neg hk, hE (reduce X (keptCols (d :: ds)) : Matrix ι (Fin (keptCols (d :: ds)).length) K) c y, hr, hf, hv]
          cases vcov E.pinv o (reduce X (keptCols (d :: ds))) (resid (reduce X (keptCols (d :: ds))) y (E.lstsq (reduce X (keptCols (d :: ds))) y)) with
          | error e => rfl
          | ok V =>
            simp only [Except.map, Fit.inUnits, Except.ok.injEq, Fit.mk.injEq, true_and, expandCoef_mul]
            refine ⟨?_, ?_, ?_⟩
            · cases V with
              | none => rfl
              | some V =>
                simp only [Option.map_some]
                exact expandVcov_mul (c ^ 2) _ V
            · exact effective_mul c _
            · simp only [dfOf, effective_mul]

theorem toExt_mul (c : K) (x : Option K) : toExt (x.map (c * ·)) = inUnits c (toExt x) := by cases x <;> rfl

theorem rSquared_mul (c : K) (hc : c ≠ 0) (y u : ι → K) (adj : Bool) (n : ℕ) :
    Vcov.rSquared (fun i => c * y i) (fun i => c * u i) adj n = Vcov.rSquared y u adj n := by
  have h1 : ∑ i, (c * u i) ^ 2 = c ^ 2 * ∑ i, u i ^ 2 := by rw [Finset.mul_sum]; exact Finset.sum_congr rfl fun i _ => by ring
  have h2 : ∑ i, (c * y i - (∑ i, c * y i) / (Fintype.card ι : K)) ^ 2 = c ^ 2 * ∑ i, (y i - (∑ i, y i) / (Fintype.card ι : K)) ^ 2 := by
    rw [Finset.mul_sum]
    refine Finset.sum_congr rfl fun i _ => ?_
    rw [← Finset.mul_sum, mul_div_assoc]; ring
  have hc2 : c ^ 2 ≠ 0 := pow_ne_zero 2 hc
  unfold Vcov.rSquared
  simp only [h1, h2, mul_eq_zero, hc2, false_or, mul_div_mul_left _ _ hc2]

/-! ### Statistics -/

theorem infOf_sgn_mul (c : K) (hc : 0 < c) (x : K) : Ext.sgn (c * x) = Ext.sgn x := by
  unfold Ext.sgn
  have h1 : c * x < 0 ↔ x < 0 := by constructor <;> intro h <;> nlinarith
  have h2 : c * x = 0 ↔ x = 0 := by simp [hc.ne']
  simp only [h1, h2]

theorem div_inUnits (c : K) (hc : 0 < c) (a b : Ext K) : Ext.div (inUnits c a) (inUnits c b) = Ext.div a b := by
  have h0 : ∀ x : K, c * x = 0 ↔ x = 0 := fun x => by simp [hc.ne']
  have h1 : ∀ x : K, 0 ≤ c * x ↔ 0 ≤ x := fun x => by simp [hc]
  cases a <;> cases b <;> simp only [inUnits, Ext.div, h0, h1, infOf_sgn_mul c hc]
  rw [mul_div_mul_left _ _ hc.ne']

theorem add_inUnits (c : K) (a b : Ext K) : Ext.add (inUnits c a) (inUnits c b) = inUnits c (Ext.add a b) := by
  cases a <;> cases b <;> simp only [inUnits, Ext.add]
  rw [mul_add]

theorem neg_inUnits (c : K) (a : Ext K) : Ext.neg (inUnits c a) = inUnits c (Ext.neg a) := by
  cases a <;> simp only [inUnits, Ext.neg]
  rw [mul_neg]

theorem mul_inUnits (c q : K) (a : Ext K) : Ext.mul (.fin q) (inUnits c a) = inUnits c (Ext.mul (.fin q) a) := by
  have : ∀ s, inUnits c (Ext.infOf s : Ext K) = Ext.infOf s := by
    intro s; unfold Ext.infOf; split_ifs <;> rfl
  cases a with
  | nan => rfl
  | ninf => exact (this _).symm
  | pinf => exact (this _).symm
  | fin x => exact congrArg Ext.fin (by ring)

theorem confInt_inUnits (c : K) (D : Inference.Dist K) (est se : Ext K) (alpha : K) :
    Inference.confInt D (inUnits c est) (inUnits c se) alpha
      = (inUnits c (Inference.confInt D est se alpha).1, inUnits c (Inference.confInt D est se alpha).2) := by
  unfold Inference.confInt
  simp only [Ext.sub, mul_inUnits, neg_inUnits, add_inUnits]

theorem lt_inUnits (c : K) (hc : 0 < c) (a : Ext K) : Ext.lt (.fin 0) (inUnits c a) = Ext.lt (.fin 0) a := by
  cases a <;> simp only [inUnits, Ext.lt]
  simp [hc]

/-! ### A homogeneous solver -/

theorem exists_homogeneous : ∃ E : Solvers ι K, Solves E ∧ Homogeneous E := by
  classical
  have key : ∀ {m : ℕ} (X : Matrix ι (Fin m) K), ∃ g : (ι → K) →ₗ[K] (Fin m → K), ∀ y, IsOls X y (g y) := by
    intro m X
    obtain ⟨E, hE⟩ := exists_solves (ι := ι) (K := K)
    let A := (Xᵀ * X).mulVecLin
    obtain ⟨s, hs⟩ := A.rangeRestrict.exists_rightInverse_of_surjective (LinearMap.range_rangeRestrict A)
    have hmem : ∀ y, Xᵀ.mulVecLin y ∈ LinearMap.range A := fun y => ⟨E.lstsq X y, (isOls_iff X y _).1 (hE X y)⟩
    refine ⟨s ∘ₗ Xᵀ.mulVecLin.codRestrict (LinearMap.range A) hmem, fun y => ?_⟩
    rw [isOls_iff]
    have := congrArg Subtype.val (LinearMap.congr_fun hs (Xᵀ.mulVecLin.codRestrict (LinearMap.range A) hmem y))
    exact this
  refine ⟨⟨fun X y => (key X).choose y, fun V => V⟩, fun X y => (key X).choose_spec y, fun X c y => ?_⟩
  exact (key X).choose.map_smul c y

/-- Three rows, a constant and a column entered twice: in thousandths all numbers of the report are a thousand times larger. -/
example : ∃ E : Solvers (Fin 3) ℚ, Solves E ∧
    ∀ y : Fin 3 → ℚ, fit E (⟨true, none, none, false⟩ : Opts (Fin 3) ℕ) [2] (fun i => ![1, (i.val : ℚ), (i.val : ℚ)]) (fun i => 1000 * y i) 0
      = (fit E (⟨true, none, none, false⟩ : Opts (Fin 3) ℕ) [2] (fun i => ![1, (i.val : ℚ), (i.val : ℚ)]) y 0).map (Fit.inUnits 1000) := by
  obtain ⟨E, hE, hH⟩ := exists_homogeneous (ι := Fin 3) (K := ℚ)
  exact ⟨E, hE, fun y => C153_regression E hH _ _ _ y 0 1000⟩

end DiffDiff.LinReg
