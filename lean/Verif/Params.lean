/-
Model of estimator objects: constructor, get_params, set_params, and the state read by fit.
  /repo/diff_diff/estimators.py 120-144, 290-359, 390-438, 590-628 (DifferenceInDifferences)
  /repo/diff_diff/twfe.py 197-223; staggered.py 295-369, 1082-1106; sun_abraham.py 395-428, 1161-1180;
  triple_diff.py 485-513, 1177-1213; synthetic_did.py 131-156, 720-738; trop.py 451-500, 3080-3103;
  honest_did.py 996-1044; pretrends.py 440-482; bacon.py 383-400, 869-882
A Python object is its attribute dictionary; class attributes (methods) are a separate list because
`hasattr` sees them too. Python guarantees distinct keyword names; theorems state it as a hypothesis.
-/
import Verif.Prelude

namespace DiffDiff.Params

/-- Instance attributes. -/
abbrev Obj (V : Type*) := String → Option V

/-- What matters about a class. -/
structure Cls where
  /-- keys returned by `get_params` -/
  params : List String
  /-- attribute storing a parameter -/
  attrOf : String → String
  /-- further instance attributes created by `__init__` -/
  state : List String
  /-- names of methods, visible to `hasattr` -/
  methods : List String

variable {V : Type*}

/-- `hasattr(self, key)`. -/
def hasattr (c : Cls) (o : Obj V) (k : String) : Bool := (o k).isSome || decide (k ∈ c.methods)

/-- `setattr(self, key, value)`. -/
def setattr (o : Obj V) (k : String) (v : V) : Obj V := fun k' => if k' = k then some v else o k'

/-- `for key, value in params.items(): if hasattr(...): setattr(...) else: raise` (estimators.py 623-627
and the copies in the other classes). A renamed key (`power` in pretrends.py 476) is written without a
check. Returns the object afterwards and whether the loop completed without raising. -/
def setLoop (c : Cls) (o : Obj V) : List (String × V) → Obj V × Bool
  | [] => (o, true)
  | (k, v) :: rest =>
    if c.attrOf k ≠ k then setLoop c (setattr o (c.attrOf k) v) rest
    else if hasattr c o k then setLoop c (setattr o k v) rest
    else (o, false)

/-- `get_params()`: the listed keys with the stored values. -/
def getParam (c : Cls) (o : Obj V) (k : String) : Option V := o (c.attrOf k)

/-- Object right after a constructor that stores its arguments as they are: every parameter and every
state attribute exists. -/
def Constructed (c : Cls) (o : Obj V) : Prop :=
  (∀ k ∈ c.params, (o (c.attrOf k)).isSome) ∧ (∀ k ∈ c.state, (o k).isSome)

/-! ### The classes -/

def didClass : Cls where
  params := ["robust", "cluster", "alpha", "inference", "n_bootstrap", "bootstrap_weights", "seed",
    "rank_deficient_action"]
  attrOf := id
  state := ["is_fitted_", "results_", "_coefficients", "_vcov", "_bootstrap_results"]
  methods := ["fit", "predict", "get_params", "set_params", "summary", "print_summary"]

def csClass : Cls where
  params := ["control_group", "anticipation", "estimation_method", "alpha", "cluster", "n_bootstrap",
    "bootstrap_weights", "bootstrap_weight_type", "seed", "rank_deficient_action", "base_period"]
  attrOf := id
  state := ["is_fitted_", "results_"]
  methods := ["fit", "get_params", "set_params", "summary", "print_summary"]

def saClass : Cls where
  params := ["control_group", "anticipation", "alpha", "cluster", "n_bootstrap", "seed",
    "rank_deficient_action"]
  attrOf := id
  state := ["is_fitted_", "results_", "_reference_period"]
  methods := ["fit", "get_params", "set_params", "summary", "print_summary"]

def tripleClass : Cls where
  params := ["estimation_method", "robust", "cluster", "alpha", "pscore_trim", "rank_deficient_action"]
  attrOf := id
  state := ["is_fitted_", "results_"]
  methods := ["fit", "get_params", "set_params", "summary", "print_summary"]

def sdidClass : Cls where
  params := ["lambda_reg", "zeta", "alpha", "variance_method", "n_bootstrap", "seed"]
  attrOf := id
  state := ["robust", "cluster", "inference", "bootstrap_weights", "rank_deficient_action",
    "is_fitted_", "results_", "_coefficients", "_vcov", "_bootstrap_results", "_unit_weights",
    "_time_weights"]
  methods := ["fit", "predict", "get_params", "set_params", "summary", "print_summary"]

def tropClass : Cls where
  params := ["method", "lambda_time_grid", "lambda_unit_grid", "lambda_nn_grid", "max_iter", "tol",
    "alpha", "variance_method", "n_bootstrap", "max_loocv_samples", "seed"]
  attrOf := id
  state := ["results_", "is_fitted_", "_optimal_lambda", "_precomputed"]
  methods := ["fit", "get_params", "set_params"]

def honestClass : Cls where
  params := ["method", "M", "alpha", "l_vec"]
  attrOf := id
  state := []
  methods := ["fit", "get_params", "set_params", "sensitivity_analysis", "breakdown_value"]

def pretrendsClass : Cls where
  params := ["alpha", "power", "violation_type", "violation_weights"]
  attrOf := fun k => if k = "power" then "target_power" else k
  state := []
  methods := ["fit", "get_params", "set_params", "power_at", "power_curve", "sensitivity_to_honest_did"]

/-- All classes whose `set_params` is the attribute loop. -/
def loopClasses : List Cls :=
  [didClass, csClass, saClass, tripleClass, sdidClass, tropClass, honestClass, pretrendsClass]

/-- Attribute values occurring in the concrete statements. -/
inductive Val
  | none
  | bool (b : Bool)
  | num (x : ℚ)
  | str (s : String)
  deriving DecidableEq, Repr

/-- `BaconDecomposition.set_params` (bacon.py 873-882): looks only at `weights`, validates before
writing, ignores every other key. -/
def setBacon (o : Obj Val) (kws : List (String × Val)) : Obj Val × Bool :=
  match kws.lookup "weights" with
  | none => (o, true)
  | some v =>
    if v = .str "approximate" ∨ v = .str "exact" then (setattr o "weights" v, true)
    else (o, false)

/-- `HonestDiD._validate_params` (honest_did.py 1015-1025) on the attributes. -/
def honestValid (o : Obj Val) : Bool :=
  (match o "method" with
   | some (.str m) => decide (m ∈ ["smoothness", "relative_magnitude", "combined"])
   | _ => false) &&
  (match o "M" with
   | some (.num x) => decide (0 ≤ x)
   | _ => false) &&
  (match o "alpha" with
   | some (.num a) => decide (0 < a ∧ a < 1)
   | _ => false)

/-- `HonestDiD.set_params` (honest_did.py 1036-1044): loop first, validation afterwards. -/
def setHonest (o : Obj Val) (kws : List (String × Val)) : Obj Val × Bool :=
  let r := setLoop honestClass o kws
  if r.2 then (r.1, honestValid r.1) else r

/-! ### Constructors -/

/-- Keyword argument or default. -/
def arg (kws : List (String × Val)) (k : String) (d : Val) : Val := (kws.lookup k).getD d

/-- An object from a list of attribute/value pairs. -/
def ofList (l : List (String × Val)) : Obj Val := fun k => l.lookup k

/-- Constructor that stores every keyword under its own name (estimators.py 120-144 and, apart from
validation, sun_abraham.py 395-428, triple_diff.py 485-513, synthetic_did.py 131-156):
`defaults` lists parameters and state attributes with their initial values. -/
def constructDirect (defaults : List (String × Val)) (kws : List (String × Val)) : Obj Val :=
  fun k => if (defaults.lookup k).isSome then some (arg kws k ((defaults.lookup k).getD .none)) else none

/-- `CallawaySantAnna.__init__` (staggered.py 322-363), the two bootstrap weight attributes:
`bootstrap_weights`, else `bootstrap_weight_type`, else "rademacher"; stored twice. `none` = ValueError. -/
def csWeights (kws : List (String × Val)) : Option (Obj Val) :=
  let bw := arg kws "bootstrap_weights" .none
  let bwt := arg kws "bootstrap_weight_type" .none
  let bw := if bwt ≠ .none ∧ bw = .none then bwt else bw
  let bw := if bw = .none then .str "rademacher" else bw
  if bw ∈ [Val.str "rademacher", .str "mammen", .str "webb"] then
    some (ofList [("bootstrap_weights", bw), ("bootstrap_weight_type", bw)])
  else none

/-- The weight type the multiplier bootstrap uses (staggered_bootstrap.py 383). -/
def csWeightUsed (o : Obj Val) : Option Val := o "bootstrap_weight_type"

/-- `HonestDiD.__init__` (honest_did.py 996-1013). `none` = ValueError. -/
def honestNew (kws : List (String × Val)) : Option (Obj Val) :=
  let m := arg kws "method" (.str "relative_magnitude")
  let M := arg kws "M" .none
  let M' := if M = .none then (if m = .str "relative_magnitude" then .num 1 else .num 0) else M
  let o := ofList [("method", m), ("alpha", arg kws "alpha" (.num (1/20))),
    ("l_vec", arg kws "l_vec" .none), ("M", M')]
  if honestValid o then some o else none

/-! ### Refitting: the state `fit` reads -/

/-- Parameters of DifferenceInDifferences that decide the inference branch. -/
structure FitParams where
  inference : String
  cluster : Option String
  nBootstrap : ℕ
  deriving DecidableEq, Repr

/-- Object state: parameters and `_bootstrap_results` (replications, clusters). -/
structure DidObj where
  p : FitParams
  boot : Option (ℕ × ℕ)

/-- Fields of the results that describe the inference, plus the numbers `N` of the fit. -/
structure FitResult (N : Type*) where
  numbers : N
  inferenceMethod : String
  nBootstrap : Option ℕ
  nClusters : Option ℕ

/-- The branch taken (estimators.py 302). -/
def usesWild (p : FitParams) : Bool := decide (p.inference = "wild_bootstrap") && p.cluster.isSome

/-- `DifferenceInDifferences.fit` (estimators.py 290-359): `wild`/`analytic` compute the numbers for
given parameters and data, `clusters` counts the clusters of the data. -/
def fit {D N : Type*} (wild analytic : FitParams → D → N) (clusters : D → ℕ) (o : DidObj) (d : D) :
    DidObj × FitResult N :=
  let (numbers, boot) :=
    if usesWild o.p then (wild o.p d, some (o.p.nBootstrap, clusters d)) else (analytic o.p d, o.boot)
  ({ o with boot := boot },
   { numbers := numbers
     inferenceMethod := if boot.isSome then "wild_bootstrap" else "analytical"
     nBootstrap := boot.map Prod.fst
     nClusters := boot.map Prod.snd })

/-- Calls on an estimator object. -/
inductive Act (D : Type*)
  | setParams (f : FitParams → FitParams)
  | fit (d : D)

/-- State after a history of calls. -/
def runHist {D N : Type*} (wild analytic : FitParams → D → N) (clusters : D → ℕ) (o : DidObj) :
    List (Act D) → DidObj
  | [] => o
  | .setParams f :: r => runHist wild analytic clusters { o with p := f o.p } r
  | .fit d :: r => runHist wild analytic clusters (fit wild analytic clusters o d).1 r

/-- A new object (estimators.py 120-144). -/
def fresh (p : FitParams) : DidObj := { p := p, boot := none }

/-- Parameters after a history. -/
def paramsAfter {D : Type*} (p : FitParams) : List (Act D) → FitParams
  | [] => p
  | .setParams f :: r => paramsAfter (f p) r
  | .fit _ :: r => paramsAfter p r

/-- Some fit of the history took the bootstrap branch. -/
def everWild {D : Type*} (p : FitParams) : List (Act D) → Bool
  | [] => false
  | .setParams f :: r => everWild (f p) r
  | .fit _ :: r => usesWild p || everWild p r

end DiffDiff.Params
