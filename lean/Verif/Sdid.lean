/-
Model of the synthetic difference-in-differences estimator.
  /repo/diff_diff/utils.py 1203-1347, /repo/diff_diff/synthetic_did.py 158-379, 570-718
-/
import Verif.SynthWeights

namespace DiffDiff.Sdid

open DiffDiff.SynthWeights

variable {K : Type*} [Field K] [LinearOrder K] [IsStrictOrderedRing K]

/-- `np.mean` of a vector. -/
def avg {m : ℕ} (x : Fin m → K) : K := (∑ i, x i) / (m : K)

/-- `compute_sdid_estimator` (utils.py 1203-1263). Arrays are indexed (period, control unit). -/
def sdid {p q n : ℕ} (Ypc : Fin p → Fin n → K) (Yqc : Fin q → Fin n → K)
    (Ypt : Fin p → K) (Yqt : Fin q → K) (omega : Fin n → K) (lam : Fin p → K) : K :=
  let weightedPreControl : Fin n → K := fun j => ∑ t, lam t * Ypc t j
  let weightedPreTreated := ∑ t, lam t * Ypt t
  let meanPostControl : Fin n → K := fun j => avg (fun s => Yqc s j)
  let meanPostTreated := avg Yqt
  let didTreated := meanPostTreated - weightedPreTreated
  let didControl := ∑ j, omega j * (meanPostControl j - weightedPreControl j)
  didTreated - didControl

/-- The estimate reported by `SyntheticDiD.fit` without covariates (synthetic_did.py 273-300):
treated units are averaged per period, unit and time weights are computed from the pre-period data.
`m` treated units. `min_weight` is the default 1e-6 (utils.py 1001). Step size, tolerance and
iteration budget of the weight optimiser are parameters. -/
noncomputable def fitAtt {p q n m : ℕ} (b : Backend) (lambdaReg zeta eps step tol : ℝ)
    (maxIter : ℕ) (Ypc : Fin p → Fin n → ℝ) (Yqc : Fin q → Fin n → ℝ)
    (Ypt : Fin p → Fin m → ℝ) (Yqt : Fin q → Fin m → ℝ) : ℝ :=
  let preT : Fin p → ℝ := fun t => avg (Ypt t)
  let postT : Fin q → ℝ := fun s => avg (Yqt s)
  let omega := computeSyntheticWeights b (Matrix.of Ypc) preT lambdaReg (1/1000000) step tol maxIter
  let lam := computeTimeWeights eps (Matrix.of Ypc) preT zeta
  sdid Ypc Yqc preT postT omega lam

/-- One placebo replication (synthetic_did.py 644-682). The random permutation is a parameter:
`ctl` lists the pseudo-control columns, `trt` the pseudo-treated columns. -/
def placeboOnce {p q n a b : ℕ} (Ypc : Fin p → Fin n → K) (Yqc : Fin q → Fin n → K)
    (omega : Fin n → K) (lam : Fin p → K) (ctl : Fin a → Fin n) (trt : Fin b → Fin n) : K :=
  let pw : Fin a → K := fun i => omega (ctl i)
  let ws := ∑ i, pw i
  let pw' : Fin a → K := if 0 < ws then fun i => pw i / ws else fun _ => 1 / (a : K)
  sdid (fun t i => Ypc t (ctl i)) (fun s i => Yqc s (ctl i))
    (fun t => avg (fun i => Ypc t (trt i))) (fun s => avg (fun i => Yqc s (trt i))) pw' lam

/-- t statistic, p value and interval (synthetic_did.py 328-343). `pval` is the normal-approximation
fallback, `crit` the critical value used for the interval. -/
def inference (pval : K → K) (crit att se : K) (draws : List K) : K × K × (K × K) :=
  let ci := (att - crit * se, att + crit * se)
  if 0 < se then
    let t := att / se
    let p := if 0 < draws.length then
        max (((draws.filter (fun x => decide (|att| ≤ |x|))).length : K) / (draws.length : K))
          (1 / ((draws.length : K) + 1))
      else pval t
    (t, p, ci)
  else (0, 1, ci)

end DiffDiff.Sdid
