/-
Model of the propensity score regression used by CallawaySantAnna and TripleDifference.
  /repo/diff_diff/staggered.py 46-106; /repo/diff_diff/triple_diff.py 270-327 (same code)
Real numbers replace floats. `scipy.optimize.minimize(method='BFGS')` is a parameter that receives the criterion, its gradient and the starting point; the code
uses the point it returns without looking at its success flag.
-/
import Mathlib.Analysis.SpecialFunctions.Log.Basic
import Mathlib.Analysis.SpecialFunctions.Exp
import Mathlib.Algebra.BigOperators.Fin
import Mathlib.Data.Matrix.Mul

namespace DiffDiff.Logit

variable {ι : Type*} [Fintype ι]

/-- `np.clip(z, -500, 500)` (staggered.py 80, 86, 103). -/
noncomputable def clip (z : ℝ) : ℝ := max (-500) (min z 500)

/-- `X_with_intercept` (staggered.py 75; triple_diff.py 298). -/
def withIntercept {p : ℕ} (X : ι → Fin p → ℝ) : ι → Fin (p + 1) → ℝ := fun i => Fin.cons 1 (X i)

/-- `X_with_intercept @ beta` (staggered.py 78, 85, 102). -/
def index {k : ℕ} (Z : ι → Fin k → ℝ) (b : Fin k → ℝ) (i : ι) : ℝ := ∑ j, Z i j * b j

/-- `1 / (1 + np.exp(-z))` after clipping (staggered.py 86-87, 103-104). -/
noncomputable def prob (z : ℝ) : ℝ := 1 / (1 + Real.exp (-clip z))

/-- `neg_log_likelihood` (staggered.py 77-82). -/
noncomputable def negLogLik {k : ℕ} (Z : ι → Fin k → ℝ) (y : ι → ℝ) (b : Fin k → ℝ) : ℝ :=
  -∑ i, (y i * clip (index Z b i) - Real.log (1 + Real.exp (clip (index Z b i))))

/-- `gradient` (staggered.py 84-88). -/
noncomputable def gradient {k : ℕ} (Z : ι → Fin k → ℝ) (y : ι → ℝ) (b : Fin k → ℝ) (j : Fin k) : ℝ :=
  -∑ i, Z i j * (y i - prob (index Z b i))

/-- Result of `optimize.minimize`: the point and the success flag. -/
structure OptResult (k : ℕ) where
  x : Fin k → ℝ
  success : Bool

/-- The optimizer: criterion, gradient, starting point, iteration limit and tolerance. -/
abbrev Optimizer := ∀ k : ℕ, ((Fin k → ℝ) → ℝ) → ((Fin k → ℝ) → Fin k → ℝ) → (Fin k → ℝ) → ℕ → ℝ → OptResult k

/-- `_logistic_regression` (staggered.py 73-106): coefficients and predicted probabilities. -/
noncomputable def logistic (opt : Optimizer) {p : ℕ} (X : ι → Fin p → ℝ) (y : ι → ℝ) (maxIter : ℕ) (tol : ℝ) : (Fin (p + 1) → ℝ) × (ι → ℝ) :=
  let Z := withIntercept X
  let b := (opt (p + 1) (negLogLik Z y) (gradient Z y) 0 maxIter tol).x
  (b, fun i => prob (index Z b i))

end DiffDiff.Logit
