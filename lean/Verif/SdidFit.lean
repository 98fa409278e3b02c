/-
Model of SyntheticDiD.fit on rows of data, with both variance methods.
  /repo/diff_diff/synthetic_did.py 158-420, 456-718
Covariates are not modelled here. The weight routines enter as a parameter; `codeWeights` are those of the code.
Random draws (sampled positions, permutations) are parameters. Unit and period labels are integers; both columns have no
missing values. Standard errors are square roots `r` of computed squares.
-/
import Verif.Sdid

namespace DiffDiff.SdidFit

open DiffDiff.Sdid (sdid avg placeboOnce inference)
open DiffDiff.SynthWeights (Backend)

/-- One row of the data; `none` is NaN. -/
structure Row (K : Type*) where
  unit : ℤ
  time : ℤ
  d : Option ℤ
  y : Option K
  deriving DecidableEq

/-- Exceptions of `fit`. `incomplete` stands for whatever happens with missing outcomes (not modelled). -/
inductive Err
  | notBinary | fewPeriods | noPost | noPre | badPost | noTreated | noControl | duplicate | incomplete
  | allFailed | zeroDivision
  deriving DecidableEq, Repr

/-- Weight routines: arguments are pre-period control outcomes (period, unit) and treated means. -/
structure Weights (K : Type*) where
  unit : {p n : ℕ} → (Fin p → Fin n → K) → (Fin p → K) → Fin n → K
  time : {p n : ℕ} → (Fin p → Fin n → K) → (Fin p → K) → Fin p → K

/-- `compute_synthetic_weights` and `compute_time_weights` as called by `fit` (synthetic_did.py 277-288). The step size of
the NumPy loop is a function of the control outcomes; the Rust loop does not use it. -/
noncomputable def codeWeights (b : Backend) (lambdaReg zeta eps : ℝ) (step : {p n : ℕ} → (Fin p → Fin n → ℝ) → ℝ) (tol : ℝ)
    (maxIter : ℕ) : Weights ℝ where
  unit := fun Y T => SynthWeights.computeSyntheticWeights b (Matrix.of Y) T lambdaReg (1/1000000) (step Y) tol maxIter
  time := fun Y T => SynthWeights.computeTimeWeights eps (Matrix.of Y) T zeta

variable {K : Type*} [Field K] [LinearOrder K] [IsStrictOrderedRing K]

/-! ### Sample -/

/-- `all_periods` (synthetic_did.py 223). -/
def allPeriods (rows : List (Row K)) : List ℤ := (rows.map Row.time).dedup.insertionSort (· ≤ ·)

/-- `pre_periods`, `post_periods` (synthetic_did.py 228-235). -/
def splitPeriods (ps : List ℤ) (postArg : Option (List ℤ)) : List ℤ × List ℤ :=
  match postArg with
  | none => (ps.take (ps.length / 2), ps.drop (ps.length / 2))
  | some post => (ps.filter (fun p => decide (p ∉ post)), post)

/-- Units in the order of `groupby` (synthetic_did.py 249). -/
def allUnits (rows : List (Row K)) : List ℤ := (rows.map Row.unit).dedup.insertionSort (· ≤ ·)

/-- `groupby(unit)[treatment].first()`: first value that is not missing (synthetic_did.py 249). -/
def firstTreat (rows : List (Row K)) (u : ℤ) : Option ℤ := (rows.filter (fun r => decide (r.unit = u))).findSome? Row.d

/-- `treated_units` (synthetic_did.py 250). -/
def treatedUnits (rows : List (Row K)) : List ℤ := (allUnits rows).filter (fun u => decide (firstTreat rows u = some 1))

/-- `control_units` (synthetic_did.py 251). -/
def controlUnits (rows : List (Row K)) : List ℤ := (allUnits rows).filter (fun u => decide (firstTreat rows u = some 0))

/-- Entry of the pivot table (synthetic_did.py 402). -/
def cell (rows : List (Row K)) (u t : ℤ) : Option K :=
  (rows.find? (fun r => decide (r.unit = u ∧ r.time = t))).bind Row.y

/-! ### Estimate -/

/-- Estimate from lists of periods and units (synthetic_did.py 265-300 and, in the bootstrap, 503-520). -/
def attOn (W : Weights K) {U T : Type*} (y : U → T → K) (pre post : List T) (trt ctl : List U) : K :=
  let Ypc : Fin pre.length → Fin ctl.length → K := fun t j => y (ctl.get j) (pre.get t)
  let Yqc : Fin post.length → Fin ctl.length → K := fun s j => y (ctl.get j) (post.get s)
  let preT : Fin pre.length → K := fun t => avg (fun i : Fin trt.length => y (trt.get i) (pre.get t))
  let postT : Fin post.length → K := fun s => avg (fun i : Fin trt.length => y (trt.get i) (post.get s))
  sdid Ypc Yqc preT postT (W.unit Ypc preT) (W.time Ypc preT)

/-- `unit_weights` of the estimate. -/
def unitW (W : Weights K) {U T : Type*} (y : U → T → K) (pre : List T) (trt ctl : List U) : Fin ctl.length → K :=
  W.unit (fun (t : Fin pre.length) j => y (ctl.get j) (pre.get t)) (fun t => avg (fun i : Fin trt.length => y (trt.get i) (pre.get t)))

/-- `time_weights` of the estimate. -/
def timeW (W : Weights K) {U T : Type*} (y : U → T → K) (pre : List T) (trt ctl : List U) : Fin pre.length → K :=
  W.time (fun (t : Fin pre.length) (j : Fin ctl.length) => y (ctl.get j) (pre.get t)) (fun t => avg (fun i : Fin trt.length => y (trt.get i) (pre.get t)))

/-- Square of `pre_fit_rmse` (synthetic_did.py 303-304). -/
def preFit2 (W : Weights K) {U T : Type*} (y : U → T → K) (pre : List T) (trt ctl : List U) : K :=
  avg (fun t : Fin pre.length => (avg (fun i : Fin trt.length => y (trt.get i) (pre.get t))
    - ∑ j, y (ctl.get j) (pre.get t) * unitW W y pre trt ctl j) ^ 2)

/-! ### Variance -/

/-- Squared `np.std(x, ddof=1)`. -/
def var1 (x : List K) : K := (x.map (fun d => (d - x.sum / (x.length : K)) ^ 2)).sum / ((x.length : K) - 1)

/-- One bootstrap iteration for the sampled units (synthetic_did.py 483-520); labels `f"{u}_{i}"` are pairs. -/
def bootEst (W : Weights K) (y : ℤ → ℤ → K) (pre post trt ctl : List ℤ) (S : List ℤ) : Option K :=
  let lab := S.zipIdx
  let bt := lab.filter (fun x => decide (x.1 ∈ trt))
  let bc := lab.filter (fun x => decide (x.1 ∈ ctl))
  if bt.length = 0 ∨ bc.length = 0 then none
  else some (attOn W (fun x t => y x.1 t) pre post bt bc)

/-- `_bootstrap_se` (synthetic_did.py 456-568): squared standard error and estimates. Each member of `draws` lists the
sampled positions in `treated_units + control_units`; their number is `n_bootstrap`. -/
def bootSe (W : Weights K) (y : ℤ → ℤ → K) (pre post trt ctl : List ℤ) (draws : List (List ℕ)) : Except Err (K × List K) :=
  let est := draws.filterMap (fun pos => bootEst W y pre post trt ctl (pos.filterMap (fun i => (trt ++ ctl)[i]?)))
  if draws.length = 0 then .error .zeroDivision
  else if est.length = 0 then .error .allFailed
  else if est.length = 1 then .ok (0, est)
  else .ok (var1 est, est)

/-- Members of a permutation as columns. -/
def cols (n : ℕ) (l : List ℕ) : List (Fin n) := l.filterMap (fun i => if h : i < n then some ⟨i, h⟩ else none)

/-- `_placebo_variance_se` (synthetic_did.py 570-718). `perms` are the permutations of the control columns; their number is
`n_bootstrap`. -/
def placeboSe {p q n : ℕ} (Ypc : Fin p → Fin n → K) (Yqc : Fin q → Fin n → K) (omega : Fin n → K) (lam : Fin p → K) (nT : ℕ)
    (perms : List (List ℕ)) : K × List K :=
  if n < nT + 1 then (0, [])
  else
    let est := perms.map (fun π => placeboOnce Ypc Yqc omega lam (cols n (π.take (n - nT))).get (cols n (π.drop (n - nT))).get)
    if est.length < 2 then (0, est)
    else (((est.length : K) - 1) / (est.length : K) * var1 est, est)

/-! ### fit -/

/-- `SyntheticDiDResults` (the numeric part). -/
structure Res (K : Type*) where
  att : K
  se : K
  t : K
  p : K
  ci : K × K
  nObs : ℕ
  nTreated : ℕ
  nControl : ℕ
  unitWeights : List (ℤ × K)
  timeWeights : List (ℤ × K)
  pre : List ℤ
  post : List ℤ
  fit2 : K
  effects : List K
  deriving DecidableEq

/-- What `fit` extracts from the data. -/
structure Sample where
  pre : List ℤ
  post : List ℤ
  trt : List ℤ
  ctl : List ℤ
  deriving DecidableEq

/-- Checks of `fit` in order (synthetic_did.py 219-256) and of the pivot (402). -/
def sample (rows : List (Row K)) (postArg : Option (List ℤ)) : Except Err Sample :=
  let ps := allPeriods rows
  let (pre, post) := splitPeriods ps postArg
  if ∃ r ∈ rows, ∃ v, r.d = some v ∧ v ≠ 0 ∧ v ≠ 1 then .error .notBinary
  else if ps.length < 2 then .error .fewPeriods
  else if post.length = 0 then .error .noPost
  else if pre.length = 0 then .error .noPre
  else if ∃ p ∈ post, p ∉ ps then .error .badPost
  else if (treatedUnits rows).length = 0 then .error .noTreated
  else if (controlUnits rows).length = 0 then .error .noControl
  else if ¬ (rows.map (fun r => (r.unit, r.time))).Nodup then .error .duplicate
  else if ∃ u ∈ treatedUnits rows ++ controlUnits rows, ∃ t ∈ ps, cell rows u t = none then .error .incomplete
  else .ok { pre := pre, post := post, trt := treatedUnits rows, ctl := controlUnits rows }

/-- Completed outcomes. -/
def outcome (rows : List (Row K)) (u t : ℤ) : K := (cell rows u t).getD 0

/-- `SyntheticDiD.fit` (synthetic_did.py 158-379) without covariates. `boot` is `variance_method == "bootstrap"`; `draws`
are the sampled positions or the permutations. -/
def fit (W : Weights K) (r pval : K → K) (crit : K) (boot : Bool) (draws : List (List ℕ)) (rows : List (Row K))
    (postArg : Option (List ℤ)) : Except Err (Res K) :=
  match sample rows postArg with
  | .error e => .error e
  | .ok s =>
    let y := outcome rows
    let att := attOn W y s.pre s.post s.trt s.ctl
    let var := if boot then bootSe W y s.pre s.post s.trt s.ctl draws
      else .ok (placeboSe (fun (t : Fin s.pre.length) (j : Fin s.ctl.length) => y (s.ctl.get j) (s.pre.get t))
        (fun (t : Fin s.post.length) j => y (s.ctl.get j) (s.post.get t)) (unitW W y s.pre s.trt s.ctl) (timeW W y s.pre s.trt s.ctl)
        s.trt.length draws)
    match var with
    | .error e => .error e
    | .ok (se2, est) =>
      let inf := inference pval crit att (r se2) est
      .ok { att := att, se := r se2, t := inf.1, p := inf.2.1, ci := inf.2.2, nObs := rows.length
            nTreated := s.trt.length, nControl := s.ctl.length
            unitWeights := List.ofFn (fun j => (s.ctl.get j, unitW W y s.pre s.trt s.ctl j))
            timeWeights := List.ofFn (fun t => (s.pre.get t, timeW W y s.pre s.trt s.ctl t))
            pre := s.pre, post := s.post, fit2 := preFit2 W y s.pre s.trt s.ctl, effects := est }

end DiffDiff.SdidFit
