/-
Model of MultiPeriodDiD.fit end to end: classification of the periods, absorbed effects, design matrix, regression, effects by period, average effect.
  /repo/diff_diff/estimators.py 764-1018
A data frame is a finite type of rows with an outcome, a validated 0/1 treatment (783), an integer period, covariates, fixed-effect and absorbed columns
(integer labels) and possibly a cluster column. No missing values except in the cluster column. Presence of the columns (773-780, 818-826) is taken for
granted; the wild bootstrap request only warns (764-771). The coefficient dictionary, covariance matrix, residuals and fitted values of the result are left
out. Exact arithmetic, NaN and infinities as in Ext.lean.
-/
import Verif.TwfeFit
import Verif.MultiPeriod
import Mathlib.Data.Finset.Sort

namespace DiffDiff.MultiFit
open MultiPeriod

variable {K : Type*} [Field K] [LinearOrder K]
variable {ι C : Type*} [Fintype ι] [DecidableEq ι] [DecidableEq C]

/-- The columns and arguments of the call (estimators.py 716-727); `cluster` is the column `self.cluster`. -/
structure Data (ι C K : Type*) where
  y : ι → K
  d : ι → Bool
  t : ι → ℤ
  cov : List (ι → K)
  fixed : List (ι → ℤ)
  absorb : List (ι → ℤ)
  cluster : Option (ι → Option C)
  post : Option (List ℤ)
  ref : Option ℤ

inductive Err
  | periods (e : MultiPeriod.Err)
  | reg (e : LinReg.Err)
  deriving DecidableEq

/-- Distinct values of a column in increasing order. -/
def values (g : ι → ℤ) : List ℤ := (Finset.univ.image g).sort (· ≤ ·)

/-- Absorption (estimators.py 832-838): one column after the other, each time subtracting group means of the current values. -/
def absorbed (gs : List (ι → ℤ)) (x : ι → K) : ι → K := gs.foldl (fun x g => Within.demean g x) x

/-- `n_absorbed_effects` (estimators.py 830, 838). -/
def adjustment (gs : List (ι → ℤ)) : ℤ := (gs.map (fun g => Within.nEffects g)).sum

/-- `pd.get_dummies(..., drop_first=True)` (estimators.py 879-881). -/
def dummies (g : ι → ℤ) : List (ι → K) := (values g).tail.map (fun v i => if g i = v then 1 else 0)

/-- Covariates (demeaned if effects are absorbed), then the dummies of the fixed effects (estimators.py 870-882). -/
def extras (D : Data ι C K) : List (ι → K) := D.cov.map (absorbed D.absorb) ++ D.fixed.flatMap dummies

/-- Value of the extra column `j` in row `i`. -/
def extraVal (xs : List (ι → K)) (i : ι) (j : ℕ) : K :=
  match xs[j]? with
  | some x => x i
  | none => 0

/-- `sorted(data[time].unique())` (estimators.py 786). -/
def periods (D : Data ι C K) : List ℤ := allPeriods (values D.t)

/-- Columns of the design by meaning (estimators.py 845-882). -/
def cols (D : Data ι C K) (post : List ℤ) (r : ℤ) : List Col := columns (periods D) post r (extras D).length

/-- Design matrix with the given columns; treatment and time are not demeaned (estimators.py 842-847). -/
def matrix (D : Data ι C K) (cs : List Col) : Matrix ι (Fin cs.length) K := design D.d D.t (extraVal (extras D)) cs

/-- Working outcome (estimators.py 841). -/
def outcome (D : Data ι C K) : ι → K := absorbed D.absorb D.y

/-- `solve_ols` with its robust or clustered matrix (estimators.py 887-903), replaced by the classical matrix without `robust` and clusters (907-921). The
degrees of freedom subtract the absorbed effects, the classical variance does not. -/
noncomputable def regress (L : TwfeFit.Lib ι K) (robust strict : Bool) (D : Data ι C K) (cs : List Col) : Except LinReg.Err (LinReg.Fit ι cs.length K) :=
  match LinReg.fit L.solvers (⟨true, D.cluster, none, strict⟩ : LinReg.Opts ι C) (L.redundant (matrix D cs)) (matrix D cs) (outcome D)
    (adjustment D.absorb) with
  | .error e => .error e
  | .ok f =>
    if robust || D.cluster.isSome then .ok f
    else LinReg.fit L.solvers (⟨false, none, none, strict⟩ : LinReg.Opts ι C) (L.redundant (matrix D cs)) (matrix D cs) (outcome D) (adjustment D.absorb)

/-- `interaction_indices[period]` (estimators.py 862-868): a period listed twice has two columns, the dictionary keeps the last. -/
def lastIndex (all post : List ℤ) (r : ℤ) (p : ℤ) : ℕ :=
  2 + (all.filter (fun q => decide (q ≠ r))).length + (post.length - 1 - post.reverse.idxOf p)

/-- Entries of the arrays by position. -/
def at1 {k : ℕ} (f : LinReg.Fit ι k K) (j : ℕ) : Option K := if h : j < k then f.coef ⟨j, h⟩ else none

def at2 {k : ℕ} (f : LinReg.Fit ι k K) (i j : ℕ) : Option K :=
  if h : i < k ∧ j < k then f.vcov (⟨i, h.1⟩, ⟨j, h.2⟩) else none

/-- `np.sqrt` of an entry: NaN for NaN and negative numbers. -/
def root (r : K → K) : Option K → Ext K
  | none => .nan
  | some v => if v < 0 then .nan else .fin (r v)

/-- `compute_p_value(t, df=df)` (utils.py 116-143): always the t distribution, which scipy evaluates to NaN for `df <= 0`. -/
def pOf (L : DidFit.Lib ι K) (df : ℤ) (t : Ext K) : Ext K := if 0 < df then Inference.pValue (L.tD df) t else .nan

/-- `compute_confidence_interval(est, se, alpha, df=df)` (utils.py 81-113), likewise. -/
def ciOf (L : DidFit.Lib ι K) (df : ℤ) (est se : Ext K) (alpha : K) : Ext K × Ext K :=
  if 0 < df then Inference.confInt (L.tD df) est se alpha else (.nan, .nan)

/-- `PeriodEffect` (estimators.py 936-943). -/
structure Effect (K : Type*) where
  period : ℤ
  effect : Ext K
  se : Ext K
  t : Ext K
  p : Ext K
  ci : Ext K × Ext K

/-- One turn of the loop over the post periods (estimators.py 928-943). -/
def effect (L : DidFit.Lib ι K) (alpha : K) (df : ℤ) (coef : ℕ → Option K) (vcov : ℕ → ℕ → Option K) (j : ℕ) (p : ℤ) : Effect K :=
  let e := LinReg.toExt (coef j)
  let s := root L.sqrt (vcov j j)
  let t := Ext.div e s
  ⟨p, e, s, t, pOf L df t, ciOf L df e s alpha⟩

/-- Average effect, its standard error and inference (estimators.py 947-984). -/
def average (L : DidFit.Lib ι K) (alpha : K) (df : ℤ) (coef : ℕ → Option K) (vcov : ℕ → ℕ → Option K) (js : List ℕ) :
    Ext K × Ext K × Ext K × Ext K × (Ext K × Ext K) :=
  match allSome (js.map coef) with
  | none => (.nan, .nan, .nan, .nan, (.nan, .nan))
  | some es =>
    let att : Ext K := .fin (es.sum / (es.length : K))
    match allSome (js.flatMap (fun i => js.map (fun j => vcov i j))) with
    | none => (att, .nan, .nan, .nan, (.nan, .nan))
    | some vs =>
      let w := vs.sum / ((js.length : K) ^ 2)
      if w < 0 then (att, .nan, .nan, .nan, (.nan, .nan))
      else
        let s : Ext K := .fin (L.sqrt w)
        if 0 < L.sqrt w then
          let t := Ext.div att s
          (att, s, t, pOf L df t, ciOf L df att s alpha)
        else (att, s, .nan, .nan, (.nan, .nan))

/-- `MultiPeriodDiDResults` (estimators.py 994-1012). -/
structure Result (K : Type*) where
  effects : List (Effect K)
  att : Ext K
  se : Ext K
  t : Ext K
  p : Ext K
  ci : Ext K × Ext K
  nObs : ℕ
  nTreated : ℕ
  nControl : ℕ
  pre : List ℤ
  post : List ℤ
  r2 : K

/-- The report from the fitted regression (estimators.py 923-1012); the dictionary of effects has one entry per period, in order of first appearance. -/
def report (L : DidFit.Lib ι K) (alpha : K) (D : Data ι C K) (pre post : List ℤ) (r : ℤ) (coef : ℕ → Option K) (vcov : ℕ → ℕ → Option K) (df : ℤ)
    (u : ι → K) : Result K :=
  let j := lastIndex (periods D) post r
  let a := average L alpha df coef vcov (post.map j)
  { effects := post.reverse.dedup.reverse.map (fun p => effect L alpha df coef vcov (j p) p)
    att := a.1, se := a.2.1, t := a.2.2.1, p := a.2.2.2.1, ci := a.2.2.2.2
    nObs := Fintype.card ι
    nTreated := (Finset.univ.filter (fun i => D.d i = true)).card
    nControl := (Finset.univ.filter (fun i => D.d i = false)).card
    pre := pre, post := post
    r2 := Vcov.rSquared (outcome D) u false 0 }

/-- `fit` (estimators.py 764-1018). -/
noncomputable def fit (L : TwfeFit.Lib ι K) (robust strict : Bool) (alpha : K) (D : Data ι C K) : Except Err (Result K) :=
  match classify (values D.t) D.post D.ref with
  | .error e => .error (.periods e)
  | .ok (pre, post, r) =>
    match regress L robust strict D (cols D post r) with
    | .error e => .error (.reg e)
    | .ok f => .ok (report L.toLib alpha D pre post r (at1 f) (at2 f) f.df f.resid)

end DiffDiff.MultiFit
