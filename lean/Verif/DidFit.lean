/-
Model of DifferenceInDifferences.fit end to end without covariates, fixed effects or absorbed effects: regression, inference on the interaction, counts.
  /repo/diff_diff/estimators.py 249-359
Treatment and time are validated 0/1 columns (218-219), hence `Bool`. The analytical inference branch is modelled (307-314); the wild bootstrap is in
WildBoot.lean. `drop` are the columns that solve_ols finds redundant (none when all four cells are occupied).
-/
import Verif.LinReg
import Verif.Did2x2

namespace DiffDiff.DidFit
open Did2x2

variable {K : Type*} [Field K] [LinearOrder K]
variable {ι C : Type*} [Fintype ι] [DecidableEq ι] [DecidableEq C]

/-- Estimator options that matter here (estimators.py 288-294). -/
structure Opts (ι C : Type*) where
  robust : Bool
  cluster : Option (ι → Option C)
  strict : Bool

/-- External routines: solver, square root, t and normal distributions. -/
structure Lib (ι K : Type*) where
  solvers : LinReg.Solvers ι K
  sqrt : K → K
  tD : ℤ → Inference.Dist K
  nD : Inference.Dist K

/-- `DiDResults` (estimators.py 335-353). -/
structure Result (K : Type*) where
  att : DiffDiff.Ext K
  se : DiffDiff.Ext K
  t : DiffDiff.Ext K
  p : DiffDiff.Ext K
  ci : DiffDiff.Ext K × DiffDiff.Ext K
  nObs : ℕ
  nTreated : ℕ
  nControl : ℕ
  r2 : K

/-- `fit` after the absorption step (estimators.py 249-359): `y` is the working outcome, `adj` the absorbed degrees of freedom. -/
noncomputable def fitCore (L : Lib ι K) (o : Opts ι C) (alpha : K) (drop : List (Fin 4)) (d t : ι → Bool) (y : ι → K) (adj : ℤ) :
    Except LinReg.Err (Result K) :=
  match LinReg.fit L.solvers (⟨o.robust, o.cluster, none, o.strict⟩ : LinReg.Opts ι C) drop (design d t) y adj with
  | .error e => .error e
  | .ok f =>
    let inf := LinReg.infer L.sqrt L.tD L.nD f 3 none alpha none
    .ok { att := LinReg.toExt (f.coef 3), se := inf.se, t := inf.t, p := inf.p, ci := inf.ci
          nObs := Fintype.card ι
          nTreated := (Finset.univ.filter (fun i => d i = true)).card
          nControl := (Finset.univ.filter (fun i => d i = false)).card
          r2 := Vcov.rSquared y f.resid false 0 }

/-- `fit(data, outcome, treatment, time)`: nothing absorbed (estimators.py 231-234). -/
noncomputable def fit (L : Lib ι K) (o : Opts ι C) (alpha : K) (drop : List (Fin 4)) (d t : ι → Bool) (y : ι → K) : Except LinReg.Err (Result K) :=
  fitCore L o alpha drop d t y 0

/-- `fit(..., absorb=[unit])` (estimators.py 236-247): the outcome is demeaned, treatment and time are not, and `nunique - 1` degrees of freedom
are passed on. -/
noncomputable def fitAbsorb {U : Type*} [DecidableEq U] (L : Lib ι K) (o : Opts ι C) (alpha : K) (drop : List (Fin 4)) (unit : ι → U)
    (d t : ι → Bool) (y : ι → K) : Except LinReg.Err (Result K) :=
  fitCore L o alpha drop d t (Within.demean unit y) (Within.nEffects unit)

end DiffDiff.DidFit
