/-
Model of synthetic-control unit weights and time weights.
  /repo/diff_diff/utils.py 997-1200, /repo/rust/src/weights.rs 54-110
-/
import Verif.Simplex
import Mathlib.Analysis.SpecialFunctions.Sqrt

namespace DiffDiff.SynthWeights

open DiffDiff.Simplex Matrix

section model
variable {K : Type*} [Field K] [LinearOrder K] [IsStrictOrderedRing K] {p n : ℕ}

/-- `_project_simplex` applied to an array of length `n` (utils.py 1103). -/
def proj (v : Fin n → K) : Fin n → K :=
  fun i => (projectSimplex (List.ofFn v)).getD i 0

/-- `project_simplex_internal` applied to an array of length `n` (weights.rs 94). -/
def projRust (v : Fin n → K) : Fin n → K :=
  fun i => (projectSimplexRust (List.ofFn v)).getD i 0

/-- `np.ones(n_control) / n_control` (utils.py 1078, 1085; weights.rs 80). -/
def uniform (n : ℕ) : Fin n → K := fun _ => 1 / (n : K)

/-- `H = Y_control' Y_control + lambda I` (utils.py 1083, 1088; weights.rs 66-74). -/
def hess (Y : Matrix (Fin p) (Fin n) K) (lam : K) : Matrix (Fin n) (Fin n) K :=
  Yᵀ * Y + lam • (1 : Matrix (Fin n) (Fin n) K)

/-- `f = Y_control' Y_treated + lambda * w_uniform` (utils.py 1084, 1089). -/
def linNumpy (Y : Matrix (Fin p) (Fin n) K) (T : Fin p → K) (lam : K) : Fin n → K :=
  Yᵀ *ᵥ T + lam • uniform n

/-- `f = Y_control' Y_treated` (weights.rs 77): no `lambda * w_uniform` term. -/
def linRust (Y : Matrix (Fin p) (Fin n) K) (T : Fin p → K) : Fin n → K := Yᵀ *ᵥ T

/-- One numpy iteration, utils.py 1099-1103. `step` stands for
`1 / (norm(H, 2) + eps)` (1093); the spectral norm itself is a parameter. -/
def stepNumpy (Y : Matrix (Fin p) (Fin n) K) (T : Fin p → K) (lam step : K) (w : Fin n → K) :
    Fin n → K :=
  let grad := hess Y lam *ᵥ w - linNumpy Y T lam
  proj (w - step • grad)

/-- One Rust iteration, weights.rs 88-94. The step size is fixed (`DEFAULT_STEP_SIZE`, line 18). -/
def stepRust (Y : Matrix (Fin p) (Fin n) K) (T : Fin p → K) (lam : K) (w : Fin n → K) :
    Fin n → K :=
  let grad := hess Y lam *ᵥ w - linRust Y T
  projRust (w - ((1 : K) / 10) • grad)

/-- utils.py 1095-1107: iterate until the change is below the tolerance or the budget is used up.
`norm(...) < tol` is written `sum of squares < tol^2` (equivalent for tol >= 0). -/
def numpyLoop (f : (Fin n → K) → (Fin n → K)) (tol : K) : ℕ → (Fin n → K) → (Fin n → K)
  | 0, w => w
  | k + 1, w =>
    let old := w
    let w' := f w
    if ∑ i, (w' i - old i) ^ 2 < tol ^ 2 then w' else numpyLoop f tol k w'

/-- weights.rs 86-107 with its separate `prev_weights` variable. -/
def rustLoop (f : (Fin n → K) → (Fin n → K)) (tol : K) :
    ℕ → (Fin n → K) → (Fin n → K) → (Fin n → K)
  | 0, w, _ => w
  | k + 1, w, prev =>
    let w' := f w
    if ∑ i, (w' i - prev i) ^ 2 < tol ^ 2 then w' else rustLoop f tol k w' w'

/-- `_compute_synthetic_weights_numpy` (utils.py 1069-1109). -/
def weightsNumpy (Y : Matrix (Fin p) (Fin n) K) (T : Fin p → K) (lam step tol : K) (maxIter : ℕ) :
    Fin n → K :=
  numpyLoop (stepNumpy Y T lam step) tol maxIter (uniform n)

/-- `compute_synthetic_weights_internal` (weights.rs 54-110). -/
def weightsRust (Y : Matrix (Fin p) (Fin n) K) (T : Fin p → K) (lam tol : K) (maxIter : ℕ) :
    Fin n → K :=
  rustLoop (stepRust Y T lam) tol maxIter (uniform n) (uniform n)

/-- utils.py 1058-1066: drop small weights, renormalise, uniform fallback. -/
def cleanWeights (minWeight : K) (w : Fin n → K) : Fin n → K :=
  let w0 : Fin n → K := fun i => if w i < minWeight then 0 else w i
  if 0 < ∑ i, w0 i then fun i => w0 i / ∑ j, w0 j else uniform n

/-- Which backend computes the raw weights (utils.py 1047). -/
inductive Backend | numpy | rust

/-- `compute_synthetic_weights` (utils.py 997-1066). -/
def computeSyntheticWeights (b : Backend) (Y : Matrix (Fin p) (Fin n) K) (T : Fin p → K)
    (lam minWeight step tol : K) (maxIter : ℕ) : Fin n → K :=
  if n = 0 then fun _ => 0          -- empty array (1040-1041): no index exists
  else if n = 1 then fun _ => 1     -- 1043-1044
  else
    let raw := match b with
      | .numpy => weightsNumpy Y T lam step tol maxIter
      | .rust => weightsRust Y T lam tol maxIter
    cleanWeights minWeight raw

/-- The documented objective (utils.py 1033):
`||Y_treated - Y_control w||^2 + lambda ||w - 1/n||^2`. -/
def objective (Y : Matrix (Fin p) (Fin n) K) (T : Fin p → K) (lam : K) (w : Fin n → K) : K :=
  ∑ t, (T t - ∑ j, Y t j * w j) ^ 2 + lam * ∑ j, (w j - 1 / (n : K)) ^ 2

end model

section time
variable {p n : ℕ}

/-- `np.mean` of an array. -/
noncomputable def mean {m : ℕ} (x : Fin m → ℝ) : ℝ := (∑ i, x i) / m

/-- `np.std` (population). -/
noncomputable def std {m : ℕ} (x : Fin m → ℝ) : ℝ := Real.sqrt (mean (fun i => (x i - mean x) ^ 2))

/-- utils.py 1188-1191: distance of the treated mean from the control mean per pre-period. -/
noncomputable def gaps (Y : Matrix (Fin p) (Fin n) ℝ) (T : Fin p → ℝ) : Fin p → ℝ :=
  fun t => |T t - mean (Y t)|

/-- `compute_time_weights` (utils.py 1150-1200). -/
noncomputable def computeTimeWeights (eps : ℝ) (Y : Matrix (Fin p) (Fin n) ℝ) (T : Fin p → ℝ)
    (zeta : ℝ) : Fin p → ℝ :=
  if p ≤ 1 then fun _ => 1
  else
    let diffs := gaps Y T
    let inv : Fin p → ℝ := fun t => 1 / (diffs t + zeta * std diffs + eps)
    fun t => inv t / ∑ s, inv s

end time

/-- Specification: probability vector indexed by `Fin n`. -/
def IsProbF {K : Type*} [Field K] [LinearOrder K] {n : ℕ} (w : Fin n → K) : Prop :=
  (∀ i, 0 ≤ w i) ∧ ∑ i, w i = 1

end DiffDiff.SynthWeights
