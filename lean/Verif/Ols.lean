/-
Model of the least-squares core.
  /repo/diff_diff/linalg.py 85-146 (_detect_rank_deficiency), 191-244 (expansion with NaN),
  247-335 (_solve_ols_rust), 338-580 (solve_ols), 583-715 (_solve_ols_numpy),
  1136-1212, 1431-1463 (LinearRegression.fit / predict)
Numbers are elements of an ordered field (exact arithmetic), NaN is `none`. The LAPACK routines
(pivoted QR, `gelsd` least squares) and the compiled solver are parameters; what is assumed about
them appears as hypotheses of the theorems (`IsOls` for the solution, a permutation for the pivot).
-/
import Verif.Prelude

namespace DiffDiff.Ols

section solution
variable {K : Type*} [Field K]
variable {ι κ : Type*} [Fintype ι] [Fintype κ]

/-- `X @ b` for one row (linalg.py 690, 704). -/
def dot (x : κ → K) (b : κ → K) : K := ∑ j, x j * b j

/-- `fitted = X @ coefficients` (linalg.py 690, 704). -/
def fitted (X : ι → κ → K) (b : κ → K) : ι → K := fun i => dot (X i) b

/-- `residuals = y - fitted` (linalg.py 691, 705). -/
def resid (X : ι → κ → K) (y : ι → K) (b : κ → K) : ι → K := fun i => y i - fitted X b i

/-- What `scipy.linalg.lstsq` (linalg.py 681-683, 701) and the SVD solver (rust/src/linalg.rs 127-140)
return in exact arithmetic when no singular value is cut off: a solution of the normal equations. Both drop directions
with a singular value of at most `1e-7` times the largest; `Svd.lean` models that and C143 says when this holds. -/
def IsOls (X : ι → κ → K) (y : ι → K) (b : κ → K) : Prop :=
  ∀ j, ∑ i, X i j * resid X y b i = 0

/-- Residual sum of squares. -/
def rss (X : ι → κ → K) (y : ι → K) (b : κ → K) : K := ∑ i, (resid X y b i) ^ 2

end solution

section rank
variable {K : Type*} [Field K] [LinearOrder K]

/-- Numerical rank (linalg.py 129-137). `rdiag` is the list of diagonal entries of `R`. An empty list
(`k = 0`) makes `r_diag[0]` fail with IndexError, here `none`. -/
def rankOf (rcond : K) (rdiag : List K) : Option ℕ :=
  match rdiag.map (fun r => |r|) with
  | [] => none
  | r0 :: rs => some (if r0 = 0 then 0 else ((r0 :: rs).filter (fun r => rcond * r0 < r)).length)

/-- `dropped_cols` (linalg.py 139-144). -/
def droppedCols {k : ℕ} (rank : ℕ) (pivot : List (Fin k)) : List (Fin k) :=
  if rank < k then (pivot.drop rank).insertionSort (· ≤ ·) else []

/-- `kept_cols = [i for i in range(k) if i not in dropped_cols]` (linalg.py 676). -/
def keptCols {k : ℕ} (dropped : List (Fin k)) : List (Fin k) :=
  (List.finRange k).filter (fun i => decide (i ∉ dropped))

end rank

/-- NumPy fancy assignment `a[keys] = values`: sequential writes. -/
def scatter {α β : Type*} [DecidableEq α] (a : α → β) (w : List (α × β)) : α → β :=
  w.foldl (fun f p => Function.update f p.1 p.2) a

section expand
variable {K : Type*}

/-- `X_reduced = X[:, kept_cols]` (linalg.py 677). -/
def reduce {ι : Type*} {k : ℕ} (X : ι → Fin k → K) (kept : List (Fin k)) :
    ι → Fin kept.length → K := fun i j => X i (kept.get j)

/-- `_expand_coefficients_with_nan` (linalg.py 213-215). -/
def expandCoef {k : ℕ} (kept : List (Fin k)) (c : Fin kept.length → K) : Fin k → Option K :=
  scatter (fun _ => none) (List.ofFn (fun j => (kept.get j, some (c j))))

/-- `_expand_vcov_with_nan` (linalg.py 240-244): `np.ix_` writes the whole kept × kept block. -/
def expandVcov {k : ℕ} (kept : List (Fin k)) (V : Fin kept.length → Fin kept.length → K) :
    Fin k × Fin k → Option K :=
  scatter (fun _ => none)
    ((List.finRange kept.length).flatMap (fun a => (List.finRange kept.length).map
      (fun b => ((kept.get a, kept.get b), some (V a b)))))

/-- `LinearRegression.predict` for one row, intercept already included (linalg.py 1458-1463):
NaN coefficients are replaced by zero. -/
def predict [Field K] {k : ℕ} (coef : Fin k → Option K) (x : Fin k → K) : K :=
  ∑ i, x i * (coef i).getD 0

/-- `n_params_effective_` and `df_` (linalg.py 1208-1210). -/
def nParamsEffective {k : ℕ} (coef : Fin k → Option K) : ℤ :=
  (k : ℤ) - ((Finset.univ.filter (fun i => (coef i).isNone)).card : ℤ)

def dfOf {k : ℕ} (n : ℕ) (coef : Fin k → Option K) (dfAdjustment : ℤ) : ℤ :=
  (n : ℤ) - nParamsEffective coef - dfAdjustment

end expand

/-! ### Control flow of `solve_ols` -/

/-- Errors raised by `solve_ols` before or after a numerical routine runs. -/
inductive Err
  | ndimX | ndimY | rows | underdetermined | badAction | nonFiniteX | nonFiniteY
  | rankDeficient | rustError
  deriving DecidableEq, Repr

/-- Numerical routines in the order they are run. `lstsq d` is the NumPy solve after dropping
the columns `d`. -/
inductive Op
  | qr | rust | lstsq (dropped : List ℕ)
  deriving DecidableEq, Repr

/-- Which routine's result is returned. -/
inductive Route
  | rust | numpy (dropped : List ℕ)
  deriving DecidableEq, Repr

/-- What the compiled solver does on this input (linalg.py 301-321): success (`nanVcov` says whether
the returned matrix contains NaN), a ValueError mentioning "numerically unstable" or "singular", or
any other ValueError. -/
inductive RustOutcome
  | ok (nanVcov : Bool) | unstable | otherError
  deriving DecidableEq, Repr

/-- Arguments of `solve_ols` and facts about the environment that the control flow reads. -/
structure Call where
  ndimX : ℕ
  ndimY : ℕ
  rowsX : ℕ
  rowsY : ℕ
  k : ℕ
  action : String
  checkFinite : Bool
  finiteX : Bool
  finiteY : Bool
  skipRankCheck : Bool
  returnVcov : Bool
  hasRust : Bool
  /-- columns reported by `_detect_rank_deficiency` (deterministic, so a second call agrees) -/
  dropped : List ℕ
  rust : RustOutcome

/-- `_solve_ols_numpy` (linalg.py 637-715), given how rank information is obtained.
`rank info` is `none` when the QR must be run again (linalg.py 648-651). -/
def solveNumpy (c : Call) (trace : List Op) (skip : Bool) (precomputed : Bool) :
    List Op × Except Err Route :=
  let (dropped, trace) :=
    if skip then (([] : List ℕ), trace)
    else if precomputed then (c.dropped, trace)
    else (c.dropped, trace ++ [Op.qr])
  if dropped ≠ [] ∧ c.action = "error" then (trace, .error .rankDeficient)
  else (trace ++ [Op.lstsq dropped], .ok (.numpy dropped))

/-- The input checks at the top of `solve_ols`, in order (linalg.py 444-480). -/
def validate (c : Call) : Option Err :=
  if c.ndimX ≠ 2 then some .ndimX
  else if c.ndimY ≠ 1 then some .ndimY
  else if c.rowsX ≠ c.rowsY then some .rows
  else if c.rowsX < c.k then some .underdetermined
  else if c.action ∉ ["warn", "error", "silent"] then some .badAction
  else if c.checkFinite ∧ ¬ c.finiteX then some .nonFiniteX
  else if c.checkFinite ∧ ¬ c.finiteY then some .nonFiniteY
  else none

/-- Solver selection in `solve_ols` (linalg.py 484-580). -/
def route (c : Call) : List Op × Except Err Route :=
  if c.skipRankCheck then
    if c.hasRust then
      match c.rust with
      | .ok _ => ([Op.rust], .ok .rust)
      | .unstable => solveNumpy c [Op.rust] true false
      | .otherError => ([Op.rust], .error .rustError)
    else solveNumpy c [] true false
  else if c.hasRust ∧ ¬ (0 < c.dropped.length) then
    match c.rust with
    | .unstable => solveNumpy c [Op.qr, Op.rust] false false
    | .otherError => ([Op.qr, Op.rust], .error .rustError)
    | .ok nanVcov =>
      if c.returnVcov ∧ nanVcov then solveNumpy c [Op.qr, Op.rust] false false
      else ([Op.qr, Op.rust], .ok .rust)
  else solveNumpy c [Op.qr] false true

/-- `solve_ols` (linalg.py 440-580): checks first, an error aborts before any routine runs. -/
def solveOls (c : Call) : List Op × Except Err Route :=
  match validate c with
  | some e => ([], .error e)
  | none => route c

end DiffDiff.Ols
