/-
Model of the robust covariance estimators and of R-squared.
  /repo/diff_diff/linalg.py 790-871 (_compute_robust_vcov_numpy), 874-913 (compute_r_squared)
  /repo/rust/src/linalg.rs 193-277 (compute_robust_vcov_internal)
Exact arithmetic; `np.linalg.solve` is multiplication by the inverse matrix and fails when the matrix
is singular. A missing cluster id (NaN) is `none`.
-/
import Verif.Prelude
import Mathlib.LinearAlgebra.Matrix.NonsingularInverse

namespace DiffDiff.Vcov
open Matrix

variable {K : Type*} [Field K] [LinearOrder K]
variable {ι κ C : Type*} [Fintype ι] [Fintype κ] [DecidableEq κ] [DecidableEq C]

inductive Err
  /-- Python ZeroDivisionError, not a ValueError -/
  | zeroDivision
  | fewClusters | singular
  /-- floating point division by zero in the compiled code: entries inf or NaN -/
  | nonFinite
  deriving DecidableEq, Repr

/-- HC1 meat `X' diag(u^2) X` (linalg.py 827-829; linalg.rs 211-219). -/
def hc1Meat (X : Matrix ι κ K) (u : ι → K) : Matrix κ κ K :=
  fun a b => ∑ i, X i a * (X i b * (u i) ^ 2)

/-- Score sum of cluster `g`: `sum of X_i u_i` over its rows (linalg.py 844-850). -/
def score (X : Matrix ι κ K) (u : ι → K) (ids : ι → C) (g : C) : κ → K :=
  fun a => ∑ i ∈ Finset.univ.filter (fun i => ids i = g), X i a * u i

/-- `pd.DataFrame(scores).groupby(cluster_ids).sum()`, then `S' S` (linalg.py 848-854). pandas drops rows
whose key is missing. -/
def numpyMeat (X : Matrix ι κ K) (u : ι → K) (ids : ι → Option C) : Matrix κ κ K :=
  fun a b => ∑ g ∈ (Finset.univ.image ids).erase none,
    score X u ids g a * score X u ids g b

/-- `len(np.unique(cluster_ids))`: missing ids count as one more value (linalg.py 833-834). -/
def nClusters (ids : ι → C) : ℕ := (Finset.univ.image ids).card

/-- `solve(XtX, meat)` then `solve(XtX, temp.T).T` (linalg.py 860-861). -/
noncomputable def sandwichNumpy (adj : K) (A M : Matrix κ κ K) : Matrix κ κ K :=
  adj • (A⁻¹ * (A⁻¹ * M)ᵀ)ᵀ

/-- `_compute_robust_vcov_numpy` (linalg.py 821-871). -/
noncomputable def vcovNumpy (X : Matrix ι κ K) (u : ι → K) (ids : Option (ι → Option C)) :
    Except Err (Matrix κ κ K) :=
  let n := Fintype.card ι
  let k := Fintype.card κ
  match ids with
  | none =>
    if n = k then .error .zeroDivision
    else if (Xᵀ * X).det = 0 then .error .singular
    else .ok (sandwichNumpy ((n : K) / ((n : K) - (k : K))) (Xᵀ * X) (hc1Meat X u))
  | some ids =>
    let G := nClusters ids
    if G < 2 then .error .fewClusters
    else if n = k then .error .zeroDivision
    else if (Xᵀ * X).det = 0 then .error .singular
    else .ok (sandwichNumpy (((G : K) / ((G : K) - 1)) * (((n : K) - 1) / ((n : K) - (k : K))))
      (Xᵀ * X) (numpyMeat X u ids))

/-- One step of the hash map accumulation (linalg.rs 242-245): `entry(c).and_modify(+row).or_insert(row)`.
The map is an association list; a hash map's iteration order is unspecified. -/
def hmAdd {V : Type*} [Add V] (m : List (C × V)) (c : C) (row : V) : List (C × V) :=
  match m with
  | [] => [(c, row)]
  | e :: m => if e.1 = c then (e.1, e.2 + row) :: m else e :: hmAdd m c row

/-- `cluster_sums` after the loop over rows (linalg.rs 237-246). -/
def hmBuild {V : Type*} [Add V] (rows : List (C × V)) : List (C × V) :=
  rows.foldl (fun m r => hmAdd m r.1 r.2) []

/-- `cluster_scores.t().dot(&cluster_scores)` for the entries in iteration order (linalg.rs 256-263). -/
def rustMeat (entries : List (C × (κ → K))) : Matrix κ κ K :=
  fun a b => (entries.map (fun e => e.2 a * e.2 b)).sum

/-- Rows passed to the accumulation: cluster code and score (linalg.rs 232-241). Missing ids are coded
-1 by `pd.factorize` (linalg.py 58-77) and are ordinary keys here. -/
def scoreRows {n : ℕ} (X : Matrix (Fin n) κ K) (u : Fin n → K) (ids : Fin n → C) :
    List (C × (κ → K)) := List.ofFn (fun i => (ids i, fun a => X i a * u i))

/-- `compute_robust_vcov_internal` (linalg.rs 193-277); `entries` is the hash map in the order it is
iterated. `n - k` is unsigned; only `n ≥ k` is modelled (solve_ols rejects `n < k`). -/
noncomputable def vcovRust {n : ℕ} (X : Matrix (Fin n) κ K) (u : Fin n → K)
    (ids : Option (Fin n → Option C)) (entries : List (Option C × (κ → K))) :
    Except Err (Matrix κ κ K) :=
  let k := Fintype.card κ
  if (Xᵀ * X).det = 0 then .error .singular
  else match ids with
  | none =>
    if n = k then .error .nonFinite
    else .ok (((n : K) / ((n : K) - (k : K))) • ((Xᵀ * X)⁻¹ * hc1Meat X u * (Xᵀ * X)⁻¹))
  | some _ =>
    let G := entries.length
    if G < 2 then .error .fewClusters
    else if n = k then .error .nonFinite
    else .ok ((((G : K) / ((G : K) - 1)) * (((n : K) - 1) / ((n : K) - (k : K))))
      • ((Xᵀ * X)⁻¹ * rustMeat entries * (Xᵀ * X)⁻¹))

/-! ### R-squared -/

/-- `compute_r_squared` (linalg.py 899-913). -/
def rSquared (y r : ι → K) (adjusted : Bool) (nParams : ℕ) : K :=
  let n : ℕ := Fintype.card ι
  let mean := (∑ i, y i) / (n : K)
  let ssRes := ∑ i, (r i) ^ 2
  let ssTot := ∑ i, (y i - mean) ^ 2
  if ssTot = 0 then 0
  else
    let r2 := 1 - ssRes / ssTot
    if adjusted then
      if n ≤ nParams then r2
      else 1 - (1 - r2) * ((n : K) - 1) / ((n : K) - (nParams : K))
    else r2

end DiffDiff.Vcov
