/-
Model of the placebo tests.
  /repo/diff_diff/diagnostics.py 80-135 (PlaceboTestResults), 193-352 (run_placebo_test), 355-451 (placebo_timing_test),
  454-530 (placebo_group_test), 533-681 (permutation_test), 684-808 (leave_one_out_test), 811-927 (run_all_placebo_tests)
  and the validation of DifferenceInDifferences.fit, /repo/diff_diff/estimators.py 214-219, 533-564, utils.py 29-50.
Simplifications: period labels are integers without missing values; the regression behind a validated fit is a parameter
`reg` (it may raise); point estimates are exact numbers or NaN (`none`); the square root is a parameter; warnings are not
modelled; the random draws of the permutation test are a parameter; `alpha` is a number in [0,1] (np.percentile raises
otherwise).
-/
import Verif.Inference
import Verif.BootStats

namespace DiffDiff.Diagnostics

variable {K : Type*} [Field K] [LinearOrder K] {U E : Type*} [DecidableEq U]

/-- Exceptions, by Python class. -/
inductive Err | value | key | linalg | runtime | other deriving DecidableEq, Repr

/-- A data frame row: unit, period, treatment column, outcome, and the remaining columns. -/
structure Row (K U E : Type*) where
  unit : U
  time : ℤ
  d : Option K
  y : Option K
  extra : E

/-- The fields of `DiDResults` used by the placebo tests. -/
structure Fit (K : Type*) where
  att : Option K
  se : Ext K
  t : Ext K
  p : Ext K
  ci : Ext K × Ext K
  nObs : ℕ

/-- The regression behind a validated fit: rows with their treatment and post indicators. -/
abbrev Reg (K U E : Type*) := List (Row K U E × Bool × Bool) → Except Err (Fit K)

/-- `data[col].isna().any()` is false for outcome and treatment (estimators.py 555-558). -/
abbrev complete (rows : List (Row K U E)) (dcol : Row K U E → Option K) : Prop := ∀ r ∈ rows, r.y ≠ none ∧ dcol r ≠ none

/-- `nunique() >= 2` (estimators.py 560-564). -/
abbrev varies {α : Type*} [DecidableEq α] (col : List α) : Prop := 2 ≤ col.dedup.length

/-- `validate_binary` (utils.py 29-50) on a treatment column. -/
abbrev binaryD (rows : List (Row K U E)) (dcol : Row K U E → Option K) : Prop :=
  ∀ r ∈ rows, dcol r = none ∨ dcol r = some 0 ∨ dcol r = some 1

/-- `validate_binary` on a time column. -/
abbrev binaryT (rows : List (Row K U E)) (tcol : Row K U E → ℤ) : Prop := ∀ r ∈ rows, tcol r = 0 ∨ tcol r = 1

/-- `DifferenceInDifferences.fit` with treatment column `dcol` and time column `tcol` (estimators.py 214-219, 250-252);
every validation failure is a ValueError. -/
def didFit (reg : Reg K U E) (rows : List (Row K U E)) (dcol : Row K U E → Option K) (tcol : Row K U E → ℤ) :
    Except Err (Fit K) :=
  if ¬ complete rows dcol then .error .value
  else if ¬ varies (rows.map dcol) then .error .value
  else if ¬ varies (rows.map tcol) then .error .value
  else if ¬ binaryD rows dcol then .error .value
  else if ¬ binaryT rows tcol then .error .value
  else reg (rows.map (fun r => (r, decide (dcol r = some 1), decide (tcol r = 1))))

/-- `sorted(data[time].unique())` (diagnostics.py 396, 498). -/
def allPeriods (rows : List (Row K U E)) : List ℤ := (rows.map (fun r => r.time)).dedup.insertionSort (· ≤ ·)

/-- Post periods: given, or the second half of the periods (diagnostics.py 398-402, 500-503). -/
def resolvePost (rows : List (Row K U E)) : Option (List ℤ) → List ℤ
  | some post => post
  | none => (allPeriods rows).drop ((allPeriods rows).length / 2)

/-- Rows in pre periods (diagnostics.py 411-413). -/
def preData (rows : List (Row K U E)) (post : List ℤ) : List (Row K U E) :=
  rows.filter (fun r => decide (r.time ∈ (allPeriods rows).filter (fun p => decide (p ∉ post))))

def flag (b : Bool) : ℤ := if b then 1 else 0

/-- Placebo results (diagnostics.py 62-78); optional fields that a test does not set are dropped. -/
structure Placebo (K U : Type*) where
  effect : Option K
  se : Ext K
  t : Ext K
  p : Ext K
  ci : Ext K × Ext K
  nObs : ℕ
  significant : Bool
  alpha : K
  originalEffect : Option K
  originalSe : Ext K
  looEffects : List (U × Option K)
  draws : List K

/-- `placebo_timing_test` (diagnostics.py 396-451). -/
def timingTest (reg : Reg K U E) (rows : List (Row K U E)) (fake : ℤ) (postArg : Option (List ℤ)) (alpha : K) :
    Except Err (Placebo K U) :=
  let post := resolvePost rows postArg
  if fake ∈ post then .error .value
  else
    match didFit reg (preData rows post) (fun r => r.d) (fun r => flag (decide (fake ≤ r.time))) with
    | .error e => .error e
    | .ok f =>
      match didFit reg rows (fun r => r.d) (fun r => flag (decide (r.time ∈ post))) with
      | .error e => .error e
      | .ok g => .ok
        { effect := f.att, se := f.se, t := f.t, p := f.p, ci := f.ci, nObs := f.nObs
          significant := Ext.lt f.p (.fin alpha), alpha := alpha
          originalEffect := g.att, originalSe := g.se, looEffects := [], draws := [] }

/-- `placebo_group_test` (diagnostics.py 495-530); there is no treatment argument. -/
def groupTest (reg : Reg K U E) (rows : List (Row K U E)) (fake : List U) (postArg : Option (List ℤ))
    (alpha : K) : Except Err (Placebo K U) :=
  if fake = [] then .error .value
  else
    let post := resolvePost rows postArg
    match didFit reg rows (fun r => some (if r.unit ∈ fake then 1 else 0)) (fun r => flag (decide (r.time ∈ post))) with
    | .error e => .error e
    | .ok f => .ok
      { effect := f.att, se := f.se, t := f.t, p := f.p, ci := f.ci, nObs := f.nObs
        significant := Ext.lt f.p (.fin alpha), alpha := alpha
        originalEffect := none, originalSe := .nan, looEffects := [], draws := [] }

/-- Units in order of first appearance (`unique()`). -/
def firsts {α : Type*} [DecidableEq α] (l : List α) : List α := l.reverse.dedup.reverse

/-- `data.groupby(unit)[treatment].first()` (diagnostics.py 594-599). -/
def firstD (rows : List (Row K U E)) (u : U) : Option K := ((rows.filter (fun r => decide (r.unit = u))).head?).bind (fun r => r.d)

/-- `n_treated` (diagnostics.py 601): number of units whose first treatment value is 1, for a 0/1 column. -/
def nTreated (rows : List (Row K U E)) : ℕ :=
  ((firsts (rows.map (fun r => r.unit))).filter (fun u => decide (firstD rows u = some 1))).length

/-- Exceptions swallowed by the loops (diagnostics.py 624, 754). -/
def caught : Err → Bool
  | .value | .key | .linalg => true
  | _ => false

/-- One permutation (diagnostics.py 606-626): the refit with the drawn units treated, NaN on a caught exception. -/
def permFit (reg : Reg K U E) (rows : List (Row K U E)) (draw : List U) : Except Err (Option K) :=
  match didFit reg rows (fun r => some (if r.unit ∈ draw then 1 else 0)) (fun r => r.time) with
  | .ok f => .ok f.att
  | .error e => if caught e then .ok none else .error e

/-- Permutation p-value (diagnostics.py 653-657): share of draws at least as large in absolute value as the original,
at least 1/(n+1); comparisons with a NaN original are false. -/
def permP (orig : Option K) (valid : List K) : K :=
  let c : ℕ := match orig with
    | none => 0
    | some a => (valid.filter (fun v => decide (|a| ≤ |v|))).length
  max ((c : K) / (valid.length : K)) (1 / ((valid.length : K) + 1))

/-- `np.mean`. -/
def mean (x : List K) : K := x.sum / (x.length : K)

/-- `np.std(x, ddof=1)` through the square root `root`; NaN for fewer than two values. -/
def std1 [IsStrictOrderedRing K] [FloorSemiring K] (root : K → K) (x : List K) : Ext K :=
  match BootStats.var1 x with
  | none => .nan
  | some v => .fin (root v)

def optE : Option K → Ext K
  | none => .nan
  | some a => .fin a

/-- `a / se if se > 0 else 0.0` (diagnostics.py 665, 786). -/
def tGuard (a : Ext K) (se : Ext K) : Ext K := if Ext.lt (.fin 0) se then Ext.div a se else .fin 0

/-- The result built from the valid permutation effects (diagnostics.py 628-681). -/
def permResult [IsStrictOrderedRing K] [FloorSemiring K] (root : K → K) (g : Fit K) (nRows : ℕ) (effects : List (Option K))
    (alpha : K) : Except Err (Placebo K U) :=
  let valid := effects.filterMap id
  if valid = [] then .error .runtime
  else
    let se := std1 root valid
    let p := permP g.att valid
    let ci := BootStats.percentileCI valid alpha
    .ok
      { effect := some (mean valid), se := se, t := tGuard (optE g.att) se, p := .fin p
        ci := (.fin ci.1, .fin ci.2), nObs := nRows, significant := decide (p < alpha), alpha := alpha
        originalEffect := g.att, originalSe := g.se, looEffects := [], draws := valid }

/-- `permutation_test` (diagnostics.py 582-681) with the drawn treated units of every permutation. -/
def permutationTest [IsStrictOrderedRing K] [FloorSemiring K] (reg : Reg K U E) (root : K → K)
    (rows : List (Row K U E)) (draws : List (List U)) (alpha : K) : Except Err (Placebo K U) :=
  match didFit reg rows (fun r => r.d) (fun r => r.time) with
  | .error e => .error e
  | .ok g =>
    match draws.mapM (permFit reg rows) with
    | .error e => .error e
    | .ok effects => permResult root g rows.length effects alpha

/-- Treated units in order of appearance (diagnostics.py 732). -/
def treatedUnits (rows : List (Row K U E)) : List U :=
  firsts ((rows.filter (fun r => decide (r.d = some 1))).map (fun r => r.unit))

/-- Data without a unit (diagnostics.py 739). -/
def drop (rows : List (Row K U E)) (u : U) : List (Row K U E) := rows.filter (fun r => decide (r.unit ≠ u))

/-- One pass of the leave-one-out loop (diagnostics.py 734-756): `none` when no treated row is left. For a 0/1 treatment
column the sum of the remaining values is zero exactly when no remaining value is 1. -/
def looFit (reg : Reg K U E) (rows : List (Row K U E)) (u : U) : Except Err (Option (U × Option K)) :=
  if ∀ r ∈ drop rows u, r.d ≠ some 1 then .ok none
  else
    match didFit reg (drop rows u) (fun r => r.d) (fun r => r.time) with
    | .ok f => .ok (some (u, f.att))
    | .error e => if caught e then .ok (some (u, none)) else .error e

/-- Result from the leave-one-out effects (diagnostics.py 759-808). -/
def looResult [IsStrictOrderedRing K] [FloorSemiring K] (root : K → K) (tD : ℕ → Inference.Dist K) (g : Fit K) (nRows : ℕ)
    (loo : List (U × Option K)) (alpha : K) : Except Err (Placebo K U) :=
  let valid := loo.filterMap (fun x => x.2)
  if valid = [] then .error .runtime
  else
    let m := mean valid
    let se : Ext K := if 1 < valid.length then std1 root valid else .fin 0
    let t := tGuard (.fin m) se
    let D := tD (if 1 < valid.length then valid.length - 1 else 1)
    let p := Inference.pValue D t
    .ok
      { effect := some m, se := se, t := t, p := p, ci := Inference.confInt D (.fin m) se alpha, nObs := nRows
        significant := Ext.lt p (.fin alpha), alpha := alpha
        originalEffect := g.att, originalSe := g.se, looEffects := loo, draws := [] }

/-- `leave_one_out_test` (diagnostics.py 721-808). -/
def leaveOneOut [IsStrictOrderedRing K] [FloorSemiring K] (reg : Reg K U E) (root : K → K)
    (tD : ℕ → Inference.Dist K) (rows : List (Row K U E)) (alpha : K) : Except Err (Placebo K U) :=
  match didFit reg rows (fun r => r.d) (fun r => r.time) with
  | .error e => .error e
  | .ok g =>
    match (treatedUnits rows).mapM (looFit reg rows) with
    | .error e => .error e
    | .ok l => looResult root tD g rows.length (l.filterMap id) alpha

/-- `run_all_placebo_tests` (diagnostics.py 862-927): every exception becomes an error entry. -/
structure All (K U : Type*) where
  timing : List (ℤ × Except Err (Placebo K U))
  permutation : Except Err (Placebo K U)
  loo : Except Err (Placebo K U)

def runAll [IsStrictOrderedRing K] [FloorSemiring K] (reg : Reg K U E) (root : K → K)
    (tD : ℕ → Inference.Dist K) (rows : List (Row K U E)) (pre post : List ℤ) (draws : List (List U)) (alpha : K) :
    All K U :=
  { timing := pre.tail.map (fun p => (p, timingTest reg rows p (some post) alpha))
    permutation := permutationTest reg root rows draws alpha
    loo := leaveOneOut reg root tD rows alpha }

/-- Arguments of `run_placebo_test` after the required ones. -/
structure Args (U : Type*) where
  hasUnit : Bool
  fakePeriod : Option ℤ
  fakeGroup : Option (List U)
  post : Option (List ℤ)

/-- `run_placebo_test` (diagnostics.py 280-352). A missing fake period makes `time >= None` raise TypeError (`other`). -/
def runTest [IsStrictOrderedRing K] [FloorSemiring K] (reg : Reg K U E) (root : K → K)
    (tD : ℕ → Inference.Dist K) (rows : List (Row K U E)) (kind : String) (a : Args U) (draws : List (List U)) (alpha : K) :
    Except Err (Placebo K U) :=
  let k := kind.toLower
  if k = "fake_timing" then
    match a.fakePeriod with
    | none => .error .other
    | some f => timingTest reg rows f a.post alpha
  else if k = "fake_group" then
    if a.hasUnit = false then .error .value
    else match a.fakeGroup with
      | none => .error .value
      | some g => groupTest reg rows g a.post alpha
  else if k = "permutation" then
    if a.hasUnit = false then .error .value else permutationTest reg root rows draws alpha
  else if k = "leave_one_out" then
    if a.hasUnit = false then .error .value else leaveOneOut reg root tD rows alpha
  else .error .value

/-! ### Specification: the simple difference in differences on cell means -/

/-- Mean outcome of the rows with given treatment and post flags; `none` if there are none. -/
def cellMean (x : List (Row K U E × Bool × Bool)) (a b : Bool) : Option K :=
  let ys := (x.filter (fun r => decide (r.2.1 = a ∧ r.2.2 = b))).filterMap (fun r => r.1.y)
  if ys = [] then none else some (mean ys)

/-- Difference in differences of cell means (`C10_att_is_difference_of_means`), NaN when a cell is empty. -/
def cellDid (x : List (Row K U E × Bool × Bool)) : Option K :=
  match cellMean x true true, cellMean x true false, cellMean x false true, cellMean x false false with
  | some a, some b, some c, some d => some ((a - b) - (c - d))
  | _, _, _, _ => none

/-- A regression returning the difference of cell means and fixed inference fields; used for concrete cases. -/
def cellReg : Reg K U E := fun x => .ok { att := cellDid x, se := .fin 1, t := .nan, p := .fin (1 / 2), ci := (.nan, .nan), nObs := x.length }

end DiffDiff.Diagnostics
