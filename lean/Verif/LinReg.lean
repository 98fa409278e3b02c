/-
Model of the LinearRegression class: fit, the covariance matrices, and the inference on one coefficient.
  /repo/diff_diff/linalg.py 1107-1212 (fit), 1236-1343 (get_se, get_inference), 1404-1429 (r_squared); solve_ols enters through
  655-715 (_solve_ols_numpy) with the dropped columns found by the pivoted QR decomposition as a parameter
Exact arithmetic, NaN is `none`. The least squares solver, the square root and the pseudo-inverse are parameters. Input validation
of solve_ols other than `n < k` is in Ols.lean. The compiled backend is in Vcov.lean (vcovRust).
-/
import Verif.Ols
import Verif.Vcov
import Verif.Inference

namespace DiffDiff.LinReg
open Matrix Ols

variable {K : Type*} [Field K] [LinearOrder K]
variable {ι κ C : Type*} [Fintype ι] [DecidableEq ι] [Fintype κ] [DecidableEq κ] [DecidableEq C]

inductive Err
  | fewRows
  | rankDeficient
  /-- all columns dropped: `X[:, np.array([])]` is an IndexError (linalg.py 676-677) -/
  | noColumns
  | vcov (e : Vcov.Err)
  deriving DecidableEq

/-- Constructor arguments and the `cluster_ids` argument of `fit` (linalg.py 1081-1093, 1107-1114). -/
structure Opts (ι C : Type*) where
  robust : Bool
  /-- `self.cluster_ids` -/
  ownIds : Option (ι → Option C)
  /-- `cluster_ids` of this call -/
  callIds : Option (ι → Option C)
  /-- `rank_deficient_action == "error"` -/
  strict : Bool

/-- `effective_cluster_ids` (linalg.py 1143-1144). -/
def Opts.ids (o : Opts ι C) : Option (ι → Option C) :=
  match o.callIds with
  | some c => some c
  | none => o.ownIds

/-- A column of ones in front (linalg.py 1140-1141). -/
def addIntercept {k : ℕ} (X : Matrix ι (Fin k) K) : Matrix ι (Fin (k + 1)) K := fun i => Fin.cons 1 (X i)

/-- Classical covariance matrix `mse (X'X)^-1` (linalg.py 1178-1185, 1189-1194). `none`: division by `n - k = 0` gives a matrix of
NaN. `np.linalg.solve` on a singular matrix falls back to the pseudo-inverse. -/
noncomputable def classical (pinv : Matrix κ κ K → Matrix κ κ K) (X : Matrix ι κ K) (u : ι → K) : Option (Matrix κ κ K) :=
  let n := Fintype.card ι
  let k := Fintype.card κ
  if n = k then none
  else
    let mse := (∑ i, (u i) ^ 2) / ((n : K) - (k : K))
    some (if (Xᵀ * X).det = 0 then mse • pinv (Xᵀ * X) else (Xᵀ * X)⁻¹ * (mse • (1 : Matrix κ κ K)))

/-- Covariance matrix by the options (linalg.py 1149-1194): robust or clustered from `solve_ols`, otherwise classical. -/
noncomputable def vcov (pinv : Matrix κ κ K → Matrix κ κ K) (o : Opts ι C) (X : Matrix ι κ K) (u : ι → K) :
    Except Err (Option (Matrix κ κ K)) :=
  if o.robust || o.ids.isSome then
    match Vcov.vcovNumpy X u o.ids with
    | .error e => .error (.vcov e)
    | .ok V => .ok (some V)
  else .ok (classical pinv X u)

/-- Fitted attributes (linalg.py 1196-1210). -/
structure Fit (ι : Type*) (k : ℕ) (K : Type*) where
  coef : Fin k → Option K
  vcov : Fin k × Fin k → Option K
  resid : ι → K
  fitted : ι → K
  nObs : ℕ
  nParams : ℕ
  nEff : ℤ
  df : ℤ

/-- External routines: `scipy.linalg.lstsq` and `np.linalg.pinv`. -/
structure Solvers (ι K : Type*) where
  lstsq : ∀ {m : ℕ}, Matrix ι (Fin m) K → (ι → K) → Fin m → K
  pinv : ∀ {m : ℕ}, Matrix (Fin m) (Fin m) K → Matrix (Fin m) (Fin m) K

/-- `fit` on the final design matrix (linalg.py 1149-1212 with 639-715); `drop` are the columns found redundant. -/
noncomputable def fit (E : Solvers ι K) (o : Opts ι C) {k : ℕ} (drop : List (Fin k)) (X : Matrix ι (Fin k) K) (y : ι → K) (dfAdj : ℤ) :
    Except Err (Fit ι k K) :=
  if Fintype.card ι < k then .error .fewRows
  else match drop with
  | [] =>
    let b := E.lstsq X y
    match vcov E.pinv o X (resid X y b) with
    | .error e => .error e
    | .ok V =>
      let coef : Fin k → Option K := fun j => some (b j)
      .ok { coef := coef
            vcov := fun p => V.map (fun V => V p.1 p.2)
            resid := resid X y b, fitted := fitted X b, nObs := Fintype.card ι, nParams := k
            nEff := nParamsEffective coef, df := dfOf (Fintype.card ι) coef dfAdj }
  | _ :: _ =>
    if o.strict then .error .rankDeficient
    else if (keptCols drop).length = 0 then .error .noColumns
    else
      let Xr : Matrix ι (Fin (keptCols drop).length) K := reduce X (keptCols drop)
      let b := E.lstsq Xr y
      match vcov E.pinv o Xr (resid Xr y b) with
      | .error e => .error e
      | .ok V =>
        let coef := expandCoef (keptCols drop) b
        .ok { coef := coef
              vcov := match V with
                | none => fun _ => none
                | some V => expandVcov (keptCols drop) V
              resid := resid Xr y b, fitted := fitted Xr b, nObs := Fintype.card ι, nParams := k
              nEff := nParamsEffective coef, df := dfOf (Fintype.card ι) coef dfAdj }

/-- NaN or number. -/
def toExt : Option K → DiffDiff.Ext K
  | none => .nan
  | some x => .fin x

/-- `get_inference(index)` of a fitted object (linalg.py 1291-1343); `r` is the square root, of non-negative entries. -/
def infer (r : K → K) (tD : ℤ → Inference.Dist K) (nD : Inference.Dist K) {k : ℕ} (f : Fit ι k K) (j : Fin k) (alphaArg : Option K) (alpha : K)
    (dfArg : Option ℤ) : Inference.Result K :=
  Inference.getInference tD nD (toExt (f.coef j)) (toExt ((f.vcov (j, j)).map r)) alphaArg alpha dfArg (some f.df)

/-- `r_squared(adjusted)` (linalg.py 1424-1429). -/
def rsq {k : ℕ} (f : Fit ι k K) (y : ι → K) (adjusted : Bool) : K :=
  Vcov.rSquared y f.resid adjusted (if adjusted then f.nEff.toNat else f.nParams)

end DiffDiff.LinReg
