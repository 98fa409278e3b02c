/-
Model of SyntheticDiD.fit with covariates.
  /repo/diff_diff/synthetic_did.py 258-263, 417-454
Outcomes and covariates are finite (`solve_ols` raises otherwise). The least-squares solver is a parameter; theorems
assume that it minimises the residual sum of squares (see C11). Coefficients of dropped columns count as 0.
-/
import Verif.SdidFit

namespace DiffDiff.SdidCov

open DiffDiff.SdidFit (Row Weights Res sample fit)

variable {K : Type*} [Field K] [LinearOrder K] [IsStrictOrderedRing K]

/-- One row with `k` covariates. -/
structure CRow (K : Type*) (k : ℕ) where
  unit : ℤ
  time : ℤ
  d : Option ℤ
  y : K
  x : Fin k → K

/-- The row without covariates. -/
def CRow.base {k : ℕ} (r : CRow K k) : Row K := ⟨r.unit, r.time, r.d, some r.y⟩

/-- Columns of `X_full` (synthetic_did.py 433-444). -/
inductive Col (k : ℕ)
  | one | cov (i : Fin k) | unit (u : ℤ) | time (t : ℤ)
  deriving DecidableEq

/-- Entry of a column. -/
def Col.val {k : ℕ} (c : Col k) (r : CRow K k) : K :=
  match c with
  | .one => 1
  | .cov i => r.x i
  | .unit u => if r.unit = u then 1 else 0
  | .time t => if r.time = t then 1 else 0

/-- Sorted distinct labels, as `get_dummies` orders its columns. -/
def units {k : ℕ} (rows : List (CRow K k)) : List ℤ := (rows.map CRow.unit).dedup.insertionSort (· ≤ ·)

def times {k : ℕ} (rows : List (CRow K k)) : List ℤ := (rows.map CRow.time).dedup.insertionSort (· ≤ ·)

/-- `X_full`: intercept, covariates, unit and time dummies without the first (synthetic_did.py 433-444). -/
def columns {k : ℕ} (rows : List (CRow K k)) : List (Col k) :=
  [Col.one] ++ (List.finRange k).map Col.cov ++ ((units rows).drop 1).map Col.unit ++ ((times rows).drop 1).map Col.time

/-- `X_full @ coefficients` for one row; `c j` is the coefficient of column `j`. -/
def fittedAt {k : ℕ} (cols : List (Col k)) (c : ℕ → K) (r : CRow K k) : K := (cols.zipIdx.map (fun x => x.1.val r * c x.2)).sum

/-- `np.mean(y)` (synthetic_did.py 452). -/
def meanY {k : ℕ} (rows : List (CRow K k)) : K := (rows.map CRow.y).sum / (rows.length : K)

/-- `_residualize_covariates` (synthetic_did.py 417-454). `solve rows` are the coefficients returned by `solve_ols` (449). -/
def residualize {k : ℕ} (solve : List (CRow K k) → ℕ → K) (rows : List (CRow K k)) : List (Row K) :=
  rows.map (fun r => { r.base with y := some (r.y - fittedAt (columns rows) (solve rows) r + meanY rows) })

/-- Exceptions: those of `fit` and that of `solve_ols` for more columns than rows (linalg.py 455-460). -/
inductive Err
  | base (e : SdidFit.Err) | underdetermined
  deriving DecidableEq, Repr

/-- `SyntheticDiD.fit` with covariates (synthetic_did.py 217-263). An empty list of covariates means none (260). The checks up
to line 256 precede the residualisation; repeated and missing cells are noticed after it. -/
def fitCov {k : ℕ} (W : Weights K) (solve : List (CRow K k) → ℕ → K) (r pval : K → K) (crit : K)
    (boot : Bool) (draws : List (List ℕ)) (rows : List (CRow K k)) (postArg : Option (List ℤ)) : Except Err (Res K) :=
  if k = 0 then (fit W r pval crit boot draws (rows.map CRow.base) postArg).mapError .base
  else
    match sample (rows.map CRow.base) postArg with
    | .error e =>
      if (e = .duplicate ∨ e = .incomplete) ∧ rows.length < (columns rows).length then .error .underdetermined
      else .error (.base e)
    | .ok _ =>
      if rows.length < (columns rows).length then .error .underdetermined
      else (fit W r pval crit boot draws (residualize solve rows) postArg).mapError .base

end DiffDiff.SdidCov
