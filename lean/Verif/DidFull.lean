/-
Model of DifferenceInDifferences.fit end to end with covariates, fixed effects and absorbed effects, from columns with missing values.
  /repo/diff_diff/estimators.py 206-359 (fit), 533-564 (_validate_data), utils.py 29-50 (validate_binary), 1389-1403 (demean_by_group)
Analytical inference only (inference="wild_bootstrap" with clusters is modelled in WildBoot.lean). The columns named in the call are distinct columns of
the frame, numeric where the code converts them (`astype(float)`); labels of fixed and absorbed effects are integers. Infinite values are not represented.
Names of the coefficients (var_names, 259-275, 323) are left out.
-/
import Verif.TwfeFit

namespace DiffDiff.DidFull

variable {K : Type*} [Field K] [LinearOrder K]
variable {ι C : Type*} [Fintype ι] [DecidableEq ι] [DecidableEq C]

/-- The columns named in the call (estimators.py 146-156, 287); a missing value is `none`. -/
structure Data (ι C K : Type*) where
  y : ι → Option K
  d : ι → Option K
  t : ι → Option K
  cov : List (ι → Option K)
  fixed : List (ι → Option ℤ)
  absorb : List (ι → Option ℤ)
  cluster : Option (ι → Option C)

inductive Err
  /-- "Column ... contains missing values" (estimators.py 558) -/
  | missing
  /-- "Treatment variable must have both 0 and 1 values" (estimators.py 562) -/
  | oneTreatment
  /-- "Time variable must have both 0 and 1 values" (estimators.py 564) -/
  | onePeriod
  /-- "treatment must be binary (0 or 1)" (estimators.py 218, utils.py 46-49) -/
  | treatmentValues
  /-- "time must be binary (0 or 1)" (estimators.py 219) -/
  | timeValues
  /-- solve_ols refuses NaN in the design or the outcome (linalg.py 470-480) -/
  | notFinite
  | reg (e : LinReg.Err)
  deriving DecidableEq

/-- `nunique()`: distinct values without the missing ones. -/
def nunique {G : Type*} [DecidableEq G] (g : ι → Option G) : ℕ := ((Finset.univ.image g).erase none).card

/-- `data[col].isna().any()`. -/
def HasMissing {G : Type*} (x : ι → Option G) : Prop := ∃ i, x i = none

instance {G : Type*} (x : ι → Option G) : Decidable (HasMissing x) :=
  decidable_of_iff (∃ i, (x i).isNone = true) (exists_congr fun _ => Option.isNone_iff_eq_none)

/-- `_validate_data` and the two checks of binary columns, in order (estimators.py 215-219, 555-564). -/
def validate (D : Data ι C K) : Option Err :=
  if ∃ x ∈ D.y :: D.d :: D.t :: D.cov, HasMissing x then some .missing
  else if nunique D.d < 2 then some .oneTreatment
  else if nunique D.t < 2 then some .onePeriod
  else if ∃ i, D.d i ≠ some 0 ∧ D.d i ≠ some 1 then some .treatmentValues
  else if ∃ i, D.t i ≠ some 0 ∧ D.t i ≠ some 1 then some .timeValues
  else none

/-- Mean of the values present in a group: `grouper[var].transform("mean")` (utils.py 1400) skips missing values. -/
def groupMean (g : ι → Option ℤ) (x : ι → Option K) (a : ℤ) : K :=
  (∑ j ∈ Finset.univ.filter (fun j => g j = some a ∧ x j ≠ none), (x j).getD 0) / ((Finset.univ.filter (fun j => g j = some a ∧ x j ≠ none)).card : K)

/-- `demean_by_group` for one variable (utils.py 1396-1401): rows whose group is missing belong to no group and become NaN. -/
def demean (g : ι → Option ℤ) (x : ι → Option K) : ι → Option K := fun i =>
  match g i with
  | none => none
  | some a => (x i).map (fun v => v - groupMean g x a)

/-- Absorption, one column after the other (estimators.py 242-247). -/
def absorbed (gs : List (ι → Option ℤ)) (x : ι → Option K) : ι → Option K := gs.foldl (fun x g => demean g x) x

/-- `n_absorbed_effects` (estimators.py 234, 246; utils.py 1393). -/
def adjustment (gs : List (ι → Option ℤ)) : ℤ := (gs.map (fun g => (nunique g : ℤ) - 1)).sum

/-- Distinct labels in increasing order, without the missing ones. -/
def levels (g : ι → Option ℤ) : List ℤ := ((Finset.univ.image g).eraseNone).sort (· ≤ ·)

/-- `pd.get_dummies(..., drop_first=True)` (estimators.py 272-274): a missing label is zero in every column. -/
def dummies (g : ι → Option ℤ) : List (ι → K) := (levels g).tail.map (fun v i => if g i = some v then 1 else 0)

/-- `.values.astype(float)` of a column without missing values. -/
def num (x : ι → Option K) : ι → K := fun i => (x i).getD 0

/-- Working outcome (estimators.py 250). -/
def outcome (D : Data ι C K) : ι → Option K := absorbed D.absorb D.y

/-- Working covariates (estimators.py 262-264): demeaned as the outcome is. -/
def covariates (D : Data ι C K) : List (ι → Option K) := D.cov.map (absorbed D.absorb)

/-- Columns behind the first four (estimators.py 261-275). -/
def extras (D : Data ι C K) : List (ι → K) := (covariates D).map num ++ D.fixed.flatMap dummies

/-- 0/1 column (estimators.py 251-252), not demeaned. -/
def flag (x : ι → Option K) : ι → Bool := fun i => decide (x i = some 1)

/-- Constant, treatment, time, interaction, further columns (estimators.py 255-275). -/
def matrix (d t : ι → Bool) (xs : List (ι → K)) : Matrix ι (Fin (4 + xs.length)) K :=
  fun i => Fin.append (Did2x2.design d t i) (fun j => xs[j] i)

/-- Regression and report (estimators.py 277-353) for given columns. -/
noncomputable def core (L : TwfeFit.Lib ι K) (o : DidFit.Opts ι C) (alpha : K) (d t : ι → Bool) (y : ι → K) (adj : ℤ) (xs : List (ι → K)) :
    Except LinReg.Err (DidFit.Result K) :=
  match LinReg.fit L.solvers (⟨o.robust, o.cluster, none, o.strict⟩ : LinReg.Opts ι C) (L.redundant (matrix d t xs)) (matrix d t xs) y adj with
  | .error e => .error e
  | .ok f =>
    let inf := LinReg.infer L.sqrt L.tD L.nD f (Fin.castAdd xs.length 3) none alpha none
    .ok { att := LinReg.toExt (f.coef (Fin.castAdd xs.length 3)), se := inf.se, t := inf.t, p := inf.p, ci := inf.ci
          nObs := Fintype.card ι
          nTreated := (Finset.univ.filter (fun i => d i = true)).card
          nControl := (Finset.univ.filter (fun i => d i = false)).card
          r2 := Vcov.rSquared y f.resid false 0 }

/-- `fit` (estimators.py 206-359). The number of rows is checked before missing values (linalg.py 455-480). -/
noncomputable def fit (L : TwfeFit.Lib ι K) (robust strict : Bool) (alpha : K) (D : Data ι C K) : Except Err (DidFit.Result K) :=
  match validate D with
  | some e => .error e
  | none =>
    if Fintype.card ι < 4 + (extras D).length then .error (.reg .fewRows)
    else if ∃ x ∈ outcome D :: covariates D, HasMissing x then .error .notFinite
    else (core L ⟨robust, D.cluster, strict⟩ alpha (flag D.d) (flag D.t) (num (outcome D)) (adjustment D.absorb) (extras D)).mapError .reg

end DiffDiff.DidFull
