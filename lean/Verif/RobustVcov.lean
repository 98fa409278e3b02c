/-
Model of the public function `compute_robust_vcov` with its choice of backend.
  /repo/diff_diff/linalg.py 755-787, /repo/rust/src/linalg.rs 176-192, 295-386
The two computations are `vcovNumpy` and `vcovRust` of Vcov.lean.
-/
import Verif.Vcov

namespace DiffDiff.RobustVcov
open Matrix DiffDiff.Vcov

variable {K : Type*} [Field K] [LinearOrder K] {κ C : Type*} [Fintype κ] [DecidableEq κ] [DecidableEq C]

/-- What a caller sees. -/
inductive Out (κ K : Type*)
  | matrix (V : Matrix κ κ K)
  /-- a matrix without a finite entry -/
  | notFinite
  /-- ValueError "Design matrix is rank-deficient" -/
  | rankDeficient
  /-- ValueError "Need at least 2 clusters" -/
  | fewClusters
  /-- ZeroDivisionError -/
  | zeroDivision

/-- The value or exception of one backend as the caller sees it. In NumPy "Singular" is turned into a ValueError (linalg.py 863-869);
around the compiled function a failed inversion gets the same message (linalg.py 769-774) and the cluster error is raised again
(linalg.py 784). A division by `n - k = 0` raises in Python and gives infinite entries in the compiled code. -/
def seen : Except Err (Matrix κ κ K) → Out κ K
  | .ok V => .matrix V
  | .error .singular => .rankDeficient
  | .error .fewClusters => .fewClusters
  | .error .zeroDivision => .zeroDivision
  | .error .nonFinite => .notFinite

/-- Which implementation answers. `unstable` is the outcome of the accuracy check of the compiled inverse (linalg.rs 330-374),
which depends on rounding: any outcome is allowed. `order` is the order in which the hash map of cluster sums is iterated. -/
inductive Backend (κ C K : Type*)
  | numpy
  | compiled (unstable : Bool) (order : List (Option C × (κ → K)) → List (Option C × (κ → K)))

/-- The entries of the hash map in iteration order (linalg.rs 236-246, 258-260). -/
def entriesOf {n : ℕ} (order : List (Option C × (κ → K)) → List (Option C × (κ → K)))
    (X : Matrix (Fin n) κ K) (u : Fin n → K) : Option (Fin n → Option C) → List (Option C × (κ → K))
  | none => []
  | some f => order (hmBuild (scoreRows X u f))

/-- `compute_robust_vcov` (linalg.py 755-787). -/
noncomputable def compute {n : ℕ} (b : Backend κ C K) (X : Matrix (Fin n) κ K) (u : Fin n → K)
    (ids : Option (Fin n → Option C)) : Out κ K :=
  match b with
  | .numpy => seen (vcovNumpy X u ids)
  | .compiled true _ => seen (vcovNumpy X u ids)
  | .compiled false order => seen (vcovRust X u ids (entriesOf order X u ids))

end DiffDiff.RobustVcov
