/-
Model of the searches over M that call `HonestDiD.fit` repeatedly: the sensitivity table and the breakdown value.
  /repo/diff_diff/honest_did.py 1285-1425
Simplifications: as in HonestDid; `fit` is the fit of one result for a given M, whose failure ends the search.
-/
import Verif.HonestDid

namespace DiffDiff.HonestDid

section
variable {K : Type*} [Field K] [LinearOrder K]

/-- `SensitivityResults` as returned by `sensitivity_analysis` (honest_did.py 1327-1336). -/
structure Sensitivity (K : Type*) where
  Ms : List K
  rows : List (Bounds K)
  breakdown : Option K
  estimate : K
  se : K

/-- Default grid of M (honest_did.py 1306-1310). -/
def defaultGrid : Method → List K
  | .relativeMagnitude => [0, 1 / 4, 1 / 2, 3 / 4, 1, 5 / 4, 3 / 2, 7 / 4, 2]
  | _ => [0, 1 / 10, 1 / 5, 3 / 10, 1 / 2, 3 / 4, 1]

/-- Fits for every M of a list, in order; the first failure is raised (honest_did.py 1316-1319). -/
def fitAll (fit : K → Except Err (Result K)) : List K → Except Err (List (Bounds K))
  | [] => .ok []
  | M :: Ms =>
    match fit M with
    | .error e => .error e
    | .ok r =>
      match fitAll fit Ms with
      | .error e => .error e
      | .ok rs => .ok (r.bounds :: rs)

/-- Whether the interval of a fit includes zero; used only after a fit for another M has succeeded, and whether a fit
succeeds does not depend on M. -/
def includes (fit : K → Except Err (Result K)) (M : K) : Bool :=
  match fit M with
  | .error _ => false
  | .ok r => includesZero r.bounds

/-- `sensitivity_analysis` (honest_did.py 1285-1336). -/
def sensitivityAnalysis (method : Method) (fit : K → Except Err (Result K)) (grid : Option (List K)) : Except Err (Sensitivity K) :=
  let Ms := grid.getD (defaultGrid method)
  match fitAll fit Ms with
  | .error e => .error e
  | .ok rows =>
    match fit 0 with
    | .error e => .error e
    | .ok first => .ok ⟨Ms, rows, findBreakdown (includes fit) Ms, first.estimate, first.se⟩

/-- `breakdown_value` (honest_did.py 1381-1425) on a result: `none` for a search still running after `fuel` tests. -/
def breakdownOf (fit : K → Except Err (Result K)) (tol : K) (fuel : ℕ) : Except Err (Option (Option K)) :=
  match fit 0 with
  | .error e => .error e
  | .ok _ => .ok (breakdownValue (includes fit) tol fuel)

end

end DiffDiff.HonestDid
