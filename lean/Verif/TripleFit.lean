/-
Model of TripleDifference.fit end to end: validation of the eight cells, the three estimation methods with and without covariates, inference, counts.
  /repo/diff_diff/triple_diff.py 515-637 (fit), 702-717 (_compute_cell_means), 719-775 (_regression_adjustment), 777-920 (_ipw_estimation),
  922-1104 (_doubly_robust); `triple_difference` (1308-1322) passes its arguments to the constructor and to fit and adds nothing
Group, partition and time are validated 0/1 columns (triple_diff.py 666-677), hence `Bool`; numbers are exact. The point estimates and variances of the
weighting methods are those of TripleDiff.lean, the regression is that of LinReg.lean. The logistic regression (Logit.lean), the regressions inside the
cells, the column check of solve_ols, the square root and the t distribution are parameters. Warnings are not modelled.
-/
import Verif.TripleDiff
import Verif.DidFit

namespace DiffDiff.TripleFit
open TripleDiff

variable {K : Type*} [Field K] [LinearOrder K]
variable {ι C : Type*} [Fintype ι] [DecidableEq ι] [DecidableEq C]

/-- `estimation_method` (triple_diff.py 586-598). -/
inductive Method | reg | ipw | dr
  deriving DecidableEq

/-- Constructor arguments (triple_diff.py 1308-1314 with `pscore_trim`); a missing cluster label is `none`. -/
structure Opts (ι C K : Type*) where
  method : Method
  robust : Bool
  cluster : Option (ι → Option C)
  alpha : K
  trim : K
  /-- `rank_deficient_action == "error"` -/
  strict : Bool

/-- External routines. -/
structure Lib (ι K : Type*) extends DidFit.Lib ι K where
  /-- columns that solve_ols finds redundant -/
  dropped : ∀ {m : ℕ}, Matrix ι (Fin m) K → List (Fin m)
  /-- fitted probabilities of `_logistic_regression`; `none` when it raises -/
  logit : ∀ {k : ℕ}, (ι → Fin k → K) → (ι → K) → Option (ι → K)
  /-- solve_ols finds the columns 1, X, T redundant on these rows -/
  redundant : ∀ {k : ℕ}, (ι → Fin k → K) → (ι → K) → Finset ι → Bool
  /-- fitted values of the regression of the outcome on 1, X, T over these rows -/
  cellFit : ∀ {k : ℕ}, (ι → Fin k → K) → (ι → K) → Finset ι → (ι → K) → ι → K

/-- The covariate columns; an empty list counts as no covariates (triple_diff.py 569-574). -/
abbrev Cov (ι K : Type*) := Option (Σ k : ℕ, ι → Fin k → K)

/-- `len(covariates)`, zero without. -/
def nCov : Cov ι K → ℕ
  | none => 0
  | some ⟨k, _⟩ => k

inductive Err
  | emptyCell
  | regression (e : LinReg.Err)
  deriving DecidableEq

/-- `TripleDifferenceResults` (triple_diff.py 615-633). -/
structure Result (K : Type*) where
  att : DiffDiff.Ext K
  se : DiffDiff.Ext K
  t : DiffDiff.Ext K
  p : DiffDiff.Ext K
  ci : DiffDiff.Ext K × DiffDiff.Ext K
  nObs : ℕ
  nTreatedEligible : ℕ
  nTreatedIneligible : ℕ
  nControlEligible : ℕ
  nControlIneligible : ℕ
  groupMeans : Bool → Bool → Bool → K
  /-- means and variances of the clipped scores of group and partition (the code reports standard deviations) -/
  pscore : Option ((K × K) × (K × K))
  r2 : Option K
  nClusters : Option ℕ

/-- Point estimate, standard error, R squared and score summary: what each method returns. -/
structure Est (K : Type*) where
  att : DiffDiff.Ext K
  se : DiffDiff.Ext K
  r2 : Option K
  pscore : Option ((K × K) × (K × K))

/-- All eight cells have rows (triple_diff.py 684-700). -/
def Occupied (G P T : ι → Bool) : Prop := ∀ g p t, (cellT G P T g p t).card ≠ 0

instance (G P T : ι → Bool) : Decidable (Occupied G P T) := by unfold Occupied; infer_instance

/-- Design matrix with covariates behind the eight columns (triple_diff.py 751-759). -/
def designX {k : ℕ} (G P T : ι → Bool) (Z : ι → Fin k → K) : Matrix ι (Fin (8 + k)) K := fun i => Fin.append (design G P T i) (Z i)

/-- Regression and inference on coefficient `j` (triple_diff.py 761-775): no cluster ids are passed. -/
noncomputable def runReg (L : Lib ι K) (o : Opts ι C K) {m : ℕ} (X : Matrix ι (Fin m) K) (j : Fin m) (y : ι → K) : Except Err (Est K) :=
  match LinReg.fit L.solvers (⟨o.robust, none, none, o.strict⟩ : LinReg.Opts ι C) (L.dropped X) X y 0 with
  | .error e => .error (.regression e)
  | .ok f =>
    let inf := LinReg.infer L.sqrt L.tD L.nD f j none o.alpha none
    .ok { att := inf.coef, se := inf.se, r2 := some (LinReg.rsq f y false), pscore := none }

/-- `_regression_adjustment` (triple_diff.py 719-775). -/
noncomputable def regression (L : Lib ι K) (o : Opts ι C K) (y : ι → K) (G P T : ι → Bool) : Cov ι K → Except Err (Est K)
  | none => runReg L o (design G P T) 7 y
  | some ⟨k, Z⟩ => runReg L o (designX G P T Z) (Fin.castAdd k 7) y

/-- One score before clipping: the logistic fit, or the sample share when it raises (triple_diff.py 813-834, 971-979). -/
def score (L : Lib ι K) {k : ℕ} (Z : ι → Fin k → K) (A : ι → Bool) : ι → K :=
  match L.logit Z (fun i => ind (A i)) with
  | some p => p
  | none => fun _ => mean (fun i => ind (A i)) Finset.univ

/-- Cell probabilities (triple_diff.py 807-857, 970-1008). -/
def cellProbs (L : Lib ι K) (trim : K) (G P : ι → Bool) : Cov ι K → Bool → Bool → ι → K
  | none => shares G P
  | some ⟨_, Z⟩ => scores trim (score L Z G) (score L Z P)

/-- `np.mean`, `np.var` of the clipped scores (triple_diff.py 846-851, 989-994). -/
def pscoreStats (L : Lib ι K) (trim : K) (G P : ι → Bool) : Cov ι K → Option ((K × K) × (K × K))
  | none => none
  | some ⟨_, Z⟩ =>
    let s := fun A : ι → Bool =>
      let q := fun i => clip trim (1 - trim) (score L Z A i)
      (mean q Finset.univ, mean (fun i => (q i - mean q Finset.univ) ^ 2) Finset.univ)
    some (s G, s P)

/-- `_ipw_estimation` (triple_diff.py 777-920). -/
def ipw (L : Lib ι K) (o : Opts ι C K) (y : ι → K) (G P T : ι → Bool) (cov : Cov ι K) : Est K :=
  let pc := cellProbs L o.trim G P cov
  { att := .fin (ipwAtt o.trim y G P T pc), se := .fin (L.sqrt (ipwVar o.trim y G P T pc)), r2 := none, pscore := pscoreStats L o.trim G P cov }

/-- `mu_fitted` (triple_diff.py 947-968, 996-1002): with covariates a regression in each cell of more than one row. solve_ols raises when there are fewer
rows than the `k + 2` columns, or when the columns are redundant and the action is "error"; then the cell mean is used. -/
def mu (L : Lib ι K) (strict : Bool) (y : ι → K) (G P T : ι → Bool) : Cov ι K → ι → K
  | none => cellMu y G P T
  | some ⟨k, Z⟩ => fun i =>
    let S := cellT G P T (G i) (P i) (T i)
    if 1 < S.card then
      if S.card < k + 2 ∨ (strict = true ∧ L.redundant Z (fun i => ind (T i)) S = true) then mean y S
      else L.cellFit Z (fun i => ind (T i)) S y i
    else y i

/-- R squared of the cell regressions (triple_diff.py 1096-1102). -/
def rsqMu (y mu : ι → K) : K :=
  let tot := ∑ i, (y i - mean y Finset.univ) ^ 2
  if 0 < tot then 1 - (∑ i, (y i - mu i) ^ 2) / tot else 0

/-- `_doubly_robust` (triple_diff.py 922-1104). -/
def dr (L : Lib ι K) (o : Opts ι C K) (y : ι → K) (G P T : ι → Bool) (cov : Cov ι K) : Est K :=
  let m := mu L o.strict y G P T cov
  { att := .fin (drAtt o.trim y m G P T (cellProbs L o.trim G P cov))
    se := .fin (L.sqrt (drVar y G P T))
    r2 := if cov.isSome then some (rsqMu y m) else none
    pscore := pscoreStats L o.trim G P cov }

/-- Choice of the method (triple_diff.py 586-598). -/
noncomputable def estimate (L : Lib ι K) (o : Opts ι C K) (y : ι → K) (G P T : ι → Bool) (cov : Cov ι K) : Except Err (Est K) :=
  match o.method with
  | .reg => regression L o y G P T cov
  | .ipw => .ok (ipw L o y G P T cov)
  | .dr => .ok (dr L o y G P T cov)

/-- `data[cluster].nunique()`: missing labels do not count (triple_diff.py 610-613). -/
def nunique (ids : ι → Option C) : ℕ := ((Finset.univ.image ids).erase none).card

/-- Degrees of freedom (triple_diff.py 602-605). -/
def df (n k : ℕ) : ℤ := max ((n : ℤ) - 8 - k) 1

/-- `fit` (triple_diff.py 515-637). -/
noncomputable def fit (L : Lib ι K) (o : Opts ι C K) (y : ι → K) (G P T : ι → Bool) (cov : Cov ι K) : Except Err (Result K) :=
  if ¬ Occupied G P T then .error .emptyCell
  else match estimate L o y G P T cov with
  | .error e => .error e
  | .ok e =>
    let D := L.tD (df (Fintype.card ι) (nCov cov))
    let f := Inference.saFields D e.att e.se o.alpha
    .ok { att := e.att, se := e.se, t := f.1, p := f.2.1, ci := f.2.2
          nObs := Fintype.card ι
          nTreatedEligible := (cell G P true true).card
          nTreatedIneligible := (cell G P true false).card
          nControlEligible := (cell G P false true).card
          nControlIneligible := (cell G P false false).card
          groupMeans := fun g p t => mean y (cellT G P T g p t)
          pscore := e.pscore
          r2 := e.r2
          nClusters := o.cluster.map nunique }

end DiffDiff.TripleFit
