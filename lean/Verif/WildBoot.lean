/-
Model of the wild cluster bootstrap.
  /repo/diff_diff/utils.py 312-520 (wild_bootstrap_se), called with null 0 by estimators.py 416-424 and twfe.py.
Simplifications: real arithmetic; cluster identifiers without missing values; the design has full column rank (a singular
design is an error here, the code drops columns with a warning); random weights are a parameter; an empty list of draws
(`n_bootstrap = 0`) makes `np.percentile` raise.
-/
import Verif.Vcov
import Verif.Ext
import Verif.BootStats
import Mathlib.Analysis.SpecialFunctions.Sqrt

namespace DiffDiff.WildBoot
open Matrix

variable {ι κ C : Type*} [Fintype ι] [Fintype κ] [DecidableEq κ] [DecidableEq C]

inductive Err | weightType | fewClusters | cov (e : Vcov.Err) | empty deriving DecidableEq, Repr

/-- Least squares coefficients (`solve_ols`, linalg.py 680, 700) for a full-rank design. -/
noncomputable def ols (X : Matrix ι κ ℝ) (y : ι → ℝ) : κ → ℝ := (Xᵀ * X)⁻¹ *ᵥ (Xᵀ *ᵥ y)

/-- Residuals. -/
noncomputable def resid (X : Matrix ι κ ℝ) (y : ι → ℝ) : ι → ℝ := fun i => y i - (X *ᵥ ols X y) i

/-- Cluster-robust covariance of a fit (`_solve_ols_linalg(..., cluster_ids, return_vcov=True)`, utils.py 440-442). -/
noncomputable def cov (X : Matrix ι κ ℝ) (y : ι → ℝ) (ids : ι → C) : Except Vcov.Err (Matrix κ κ ℝ) :=
  Vcov.vcovNumpy X (resid X y) (some (fun i => some (ids i)))

/-- Original t statistic (utils.py 443-445), a float64 division. -/
noncomputable def tOrig (b null : ℝ) (v : ℝ) : Ext ℝ := Ext.div (.fin (b - null)) (.fin (Real.sqrt v))

/-- The outcome with the hypothesised contribution removed (utils.py 450). -/
def restricted (X : Matrix ι κ ℝ) (y : ι → ℝ) (k : κ) (null : ℝ) : ι → ℝ := fun i => y i - X i k * null

/-- Bootstrap sample (utils.py 471-477): fitted values of the fit to `restricted` on all columns, plus its residuals times
the cluster weights. -/
noncomputable def sample (X : Matrix ι κ ℝ) (yr : ι → ℝ) (ids : ι → C) (w : C → ℝ) : ι → ℝ :=
  fun i => (X *ᵥ ols X yr) i + resid X yr i * w (ids i)

/-- Bootstrap t statistic (utils.py 487-490). -/
noncomputable def tStar (b null v : ℝ) : ℝ := if 0 < Real.sqrt v then (b - null) / Real.sqrt v else 0

/-- One replicate (utils.py 467-490): coefficient and t statistic. -/
noncomputable def replicate (X : Matrix ι κ ℝ) (yr : ι → ℝ) (ids : ι → C) (k : κ) (null : ℝ) (w : C → ℝ) :
    Except Err (ℝ × ℝ) :=
  match cov X (sample X yr ids w) ids with
  | .error e => .error (.cov e)
  | .ok V => .ok (ols X (sample X yr ids w) k, tStar (ols X (sample X yr ids w) k) null (V k k))

/-- Number of replicates at least as extreme (utils.py 494). -/
noncomputable def extreme (t : Ext ℝ) (ts : List ℝ) : ℕ := (ts.filter (fun s => Ext.le (Ext.abs t) (.fin |s|))).length

/-- P-value (utils.py 494-497). -/
noncomputable def pvalue (t : Ext ℝ) (ts : List ℝ) : ℝ :=
  max ((extreme t ts : ℝ) / (ts.length : ℝ)) (1 / ((ts.length : ℝ) + 1))

structure Result where
  /-- squared standard error, NaN for a single replicate -/
  se2 : Option ℝ
  p : ℝ
  t : Ext ℝ
  ci : ℝ × ℝ
  nClusters : ℕ
  coefs : List ℝ

/-- `wild_bootstrap_se` (utils.py 402-520). -/
noncomputable def wild (weightType : String) (X : Matrix ι κ ℝ) (y : ι → ℝ) (ids : ι → C) (k : κ) (null alpha : ℝ)
    (draws : List (C → ℝ)) : Except Err Result :=
  if weightType ∉ ["rademacher", "webb", "mammen"] then .error .weightType
  else if Vcov.nClusters ids < 2 then .error .fewClusters
  else
    match cov X y ids with
    | .error e => .error (.cov e)
    | .ok V =>
      match draws.mapM (replicate X (restricted X y k null) ids k null) with
      | .error e => .error e
      | .ok reps =>
        if reps = [] then .error .empty
        else .ok
          { se2 := BootStats.var1 (reps.map Prod.fst)
            p := pvalue (tOrig (ols X y k) null (V k k)) (reps.map Prod.snd)
            t := tOrig (ols X y k) null (V k k)
            ci := BootStats.percentileCI (reps.map Prod.fst) alpha
            nClusters := Vcov.nClusters ids
            coefs := reps.map Prod.fst }

/-! ### Specification: imposing the null -/

/-- A fit with the coefficient `k` fixed at `null`: it satisfies the normal equations of all other columns. -/
def IsRestricted (X : Matrix ι κ ℝ) (y : ι → ℝ) (k : κ) (null : ℝ) (b : κ → ℝ) : Prop :=
  b k = null ∧ ∀ j, j ≠ k → ∑ i, X i j * (y i - (X *ᵥ b) i) = 0

/-- The textbook bootstrap sample of a restricted fit. -/
def textbookSample (X : Matrix ι κ ℝ) (y : ι → ℝ) (b : κ → ℝ) (ids : ι → C) (w : C → ℝ) : ι → ℝ :=
  fun i => (X *ᵥ b) i + (y i - (X *ᵥ b) i) * w (ids i)

/-- Draws whose weights sum to zero in every cluster (a balanced set of mean-zero weights, e.g. all sign vectors). -/
def Balanced (draws : List (C → ℝ)) : Prop := ∀ g, (draws.map (fun w => w g)).sum = 0

/-- Designs whose rows are determined by a cell and which span every cell indicator, such as the 2x2 design. -/
def Saturated {D : Type*} [DecidableEq D] (X : Matrix ι κ ℝ) (cell : ι → D) : Prop :=
  (∀ i j, cell i = cell j → X i = X j) ∧
    ∀ c : D, ∃ b : κ → ℝ, ∀ i, (X *ᵥ b) i = if cell i = c then 1 else 0

end DiffDiff.WildBoot
