/-
Model of wild_bootstrap_se as the estimators reach it, with the column check and the least squares solver of solve_ols.
  /repo/diff_diff/utils.py 403-520 (wild_bootstrap_se), /repo/diff_diff/linalg.py 440-480, 639-715 (solve_ols)
  /repo/diff_diff/estimators.py 206-359 (fit with inference="wild_bootstrap"), 390-438 (_run_wild_bootstrap_inference)
  /repo/diff_diff/twfe.py 57-246 (the same branch of TwoWayFixedEffects.fit)
WildBoot.lean models the same function for full-rank designs by the inverse matrix; here a column found redundant gives NaN coefficients as in
the code. Real arithmetic; cluster identifiers without missing values; the random weights of a replicate are a function of the cluster (utils.py
460-474 assign the drawn vector to the sorted cluster labels); a fresh estimator object (C20 is about refitting); alpha in [0, 2], outside of which
`np.percentile` raises.
-/
import Verif.WildBoot
import Verif.DidFull

namespace DiffDiff.WildLin
open Matrix Ols

variable {ι C : Type*} [Fintype ι] [DecidableEq ι] [DecidableEq C]

inductive Err
  /-- unknown weight type (utils.py 404-408) -/
  | weightType
  /-- fewer than two clusters (utils.py 413-416) -/
  | fewClusters
  /-- solve_ols raises (utils.py 440-442, 480-482) -/
  | reg (e : LinReg.Err)
  /-- solve_ols refuses a bootstrap outcome with NaN (linalg.py 476-480) -/
  | notFinite
  /-- `np.percentile` of no draws (utils.py 506) -/
  | empty
  deriving DecidableEq

/-- `_solve_ols_linalg(X, y, cluster_ids=cluster_ids, return_vcov=True)` with the default `rank_deficient_action="warn"` (utils.py 440-442, 480-482). -/
noncomputable def clustered (L : TwfeFit.Lib ι ℝ) {k : ℕ} (X : Matrix ι (Fin k) ℝ) (y : ι → ℝ) (ids : ι → C) : Except LinReg.Err (LinReg.Fit ι k ℝ) :=
  LinReg.fit L.solvers (⟨true, some (fun i => some (ids i)), none, false⟩ : LinReg.Opts ι C) (L.redundant X) X y 0

/-- Coefficients and residuals of `_solve_ols_linalg(X, y, return_vcov=False)` (utils.py 455-457, linalg.py 675-705). -/
noncomputable def points (L : TwfeFit.Lib ι ℝ) {k : ℕ} (X : Matrix ι (Fin k) ℝ) (y : ι → ℝ) : (Fin k → Option ℝ) × (ι → ℝ) :=
  match L.redundant X with
  | [] => (fun j => some (L.solvers.lstsq X y j), resid X y (L.solvers.lstsq X y))
  | d :: ds =>
    let Xr : Matrix ι (Fin (keptCols (d :: ds)).length) ℝ := reduce X (keptCols (d :: ds))
    (expandCoef (keptCols (d :: ds)) (L.solvers.lstsq Xr y), resid Xr y (L.solvers.lstsq Xr y))

/-- `X @ beta` (utils.py 477): NaN in every row as soon as one coefficient is NaN. -/
def times {k : ℕ} (X : Matrix ι (Fin k) ℝ) (b : Fin k → Option ℝ) : ι → Option ℝ := fun i =>
  if ∀ j, (b j).isSome = true then some (∑ j, X i j * (b j).getD 0) else none

/-- `y_star` (utils.py 471-477). -/
def sample {k : ℕ} (X : Matrix ι (Fin k) ℝ) (b : Fin k → Option ℝ) (r : ι → ℝ) (ids : ι → C) (w : C → ℝ) : ι → Option ℝ :=
  fun i => (times X b i).map (fun v => v + r i * w (ids i))

/-- Coefficient and variance of one column; both are numbers unless the column was dropped. -/
def entry {k : ℕ} (f : LinReg.Fit ι k ℝ) (j : Fin k) : Option (ℝ × ℝ) :=
  match f.coef j, f.vcov (j, j) with
  | some b, some v => some (b, v)
  | _, _ => none

/-- One replicate (utils.py 467-490). A dropped column is NaN in the coefficients that made `y_star`, so the last case is not reached. -/
noncomputable def replicate (L : TwfeFit.Lib ι ℝ) {k : ℕ} (X : Matrix ι (Fin k) ℝ) (pr : (Fin k → Option ℝ) × (ι → ℝ)) (ids : ι → C) (j : Fin k)
    (null : ℝ) (w : C → ℝ) : Except Err (ℝ × ℝ) :=
  if ∃ i, (sample X pr.1 pr.2 ids w i).isNone = true then .error .notFinite
  else
    match clustered L X (fun i => (sample X pr.1 pr.2 ids w i).getD 0) ids with
    | .error e => .error (.reg e)
    | .ok f =>
      match entry f j with
      | some (b, v) => .ok (b, WildBoot.tStar b null v)
      | none => .error .notFinite

/-- `wild_bootstrap_se` (utils.py 403-520). -/
noncomputable def wild (L : TwfeFit.Lib ι ℝ) (weightType : String) {k : ℕ} (X : Matrix ι (Fin k) ℝ) (y : ι → ℝ) (ids : ι → C) (j : Fin k)
    (null alpha : ℝ) (draws : List (C → ℝ)) : Except Err WildBoot.Result :=
  if weightType ∉ ["rademacher", "webb", "mammen"] then .error .weightType
  else if Vcov.nClusters ids < 2 then .error .fewClusters
  else
    match clustered L X y ids with
    | .error e => .error (.reg e)
    | .ok f =>
      match draws.mapM (replicate L X (points L X (WildBoot.restricted X y j null)) ids j null) with
      | .error e => .error e
      | .ok reps =>
        if reps = [] then .error .empty
        else
          let t := match entry f j with
            | some (b, v) => WildBoot.tOrig b null v
            | none => .nan
          .ok
            { se2 := BootStats.var1 (reps.map Prod.fst)
              p := WildBoot.pvalue t (reps.map Prod.snd)
              t := t
              ci := BootStats.percentileCI (reps.map Prod.fst) alpha
              nClusters := Vcov.nClusters ids
              coefs := reps.map Prod.fst }

/-- `DiDResults` with `n_bootstrap` and `n_clusters` (estimators.py 325-353); `none` is `inference_method == "analytical"`. -/
structure Report where
  main : DidFit.Result ℝ
  boot : Option (ℕ × ℕ)

/-- The four quantities taken from the bootstrap (estimators.py 430-433, 305-307). -/
noncomputable def override (R : DidFit.Result ℝ) (B : WildBoot.Result) : Report :=
  { main := { R with
      se := LinReg.toExt (B.se2.map Real.sqrt)
      t := B.t
      p := .fin B.p
      ci := (.fin B.ci.1, .fin B.ci.2) }
    boot := some (B.coefs.length, B.nClusters) }

inductive FitErr
  | did (e : DidFull.Err)
  | boot (e : Err)
  deriving DecidableEq

/-- The columns of a call without the cluster column. -/
abbrev clusterBy (D : DidFull.Data ι C ℝ) (ids : Option (ι → C)) : DidFull.Data ι C ℝ :=
  { D with cluster := ids.map (fun g i => some (g i)) }

/-- `DifferenceInDifferences.fit` (estimators.py 206-359). `ids` is the column `self.cluster`; `boot` is `none` for analytical inference and
weight type and draws for `inference="wild_bootstrap"`. The first regression of a bootstrap fit has no cluster identifiers (285-292); without a
cluster column the bootstrap is not run (302). The covariance matrix of estimators.py 436 is not reported by the model. -/
noncomputable def fit (L : TwfeFit.Lib ι ℝ) (robust strict : Bool) (alpha : ℝ) (boot : Option (String × List (C → ℝ))) (D : DidFull.Data ι C ℝ)
    (ids : Option (ι → C)) : Except FitErr Report :=
  match boot, ids with
  | some (wt, draws), some g =>
    match DidFull.fit L robust strict alpha (clusterBy D none) with
    | .error e => .error (.did e)
    | .ok R =>
      match wild L wt (DidFull.matrix (DidFull.flag D.d) (DidFull.flag D.t) (DidFull.extras D)) (DidFull.num (DidFull.outcome D)) g
          (Fin.castAdd (DidFull.extras D).length 3) 0 alpha draws with
      | .error e => .error (.boot e)
      | .ok B => .ok (override R B)
  | _, _ =>
    match DidFull.fit L robust strict alpha (clusterBy D ids) with
    | .error e => .error (.did e)
    | .ok R => .ok ⟨R, none⟩

end DiffDiff.WildLin
