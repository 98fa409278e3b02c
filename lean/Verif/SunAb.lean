/-
Model of the Sun-Abraham interaction-weighted estimator.
  /repo/diff_diff/sun_abraham.py 429-1160
A data frame is a list of rows with an integer index label. Simplifications: periods and finite cohorts are integers, no
covariates, standard errors are represented by their squares, the regression (LinearRegression.fit on the demeaned
columns) is a parameter, inference from estimate and standard error is in `Verif.Inference`.
-/
import Verif.CS
import Verif.BootStats

namespace DiffDiff.SunAb

open CS (Coh)

structure Row (K : Type*) where
  label : ℤ
  unit : ℕ
  time : ℤ
  cohort : Coh
  y : Option K
  deriving DecidableEq

/-- Columns of the saturated regression: cohort and event time. -/
abbrev Key := Coh × ℤ

/-- Result of the regression: coefficients (NaN = `none` for dropped columns) and their covariance matrix. -/
structure Reg (K : Type*) where
  coef : ℕ → Option K
  vcov : ℕ → ℕ → Option K

inductive Control | never | notYet deriving DecidableEq, Repr

inductive Err | noControl | noTreated | noInteraction | regression deriving DecidableEq, Repr

variable {K : Type*} [Field K] [LinearOrder K] [IsStrictOrderedRing K]

/-- Finite positive cohort value. -/
def finPos : Coh → Option ℤ
  | .num z => if 0 < z then some z else none
  | _ => none

/-- `treatment_groups` (sun_abraham.py 491): sorted unique values with `g > 0`; infinity passes the test. -/
def groups (df : List (Row K)) : List Coh :=
  ((df.filterMap (fun r => finPos r.cohort)).dedup.insertionSort (· ≤ ·)).map Coh.num ++
    (if df.any (fun r => decide (r.cohort = .inf)) then [Coh.inf] else [])

/-- `_rel_time` (sun_abraham.py 516-521). NaN for untreated rows and minus infinity for infinite cohorts are both
`none`: neither equals an integer event time. -/
def relTime (r : Row K) : Option ℤ := (finPos r.cohort).map (fun g => r.time - g)

/-- Unit labels in order of appearance. -/
def units (df : List (Row K)) : List ℕ := (df.map (fun r => r.unit)).dedup

/-- `groupby(unit)[first_treat].first()` (sun_abraham.py 496-501, 837): first non-missing value. -/
def unitCohort (df : List (Row K)) (u : ℕ) : Coh :=
  (((df.filter (fun r => decide (r.unit = u))).map (fun r => r.cohort)).find? (fun c => decide (c ≠ .nan))).getD .nan

/-- `unit_info["_never_treated"]` (sun_abraham.py 494, 496-501). -/
def unitNever (df : List (Row K)) (u : ℕ) : Bool :=
  ((df.filter (fun r => decide (r.unit = u))).map (fun r => r.cohort.isNever)).head?.getD false

/-- `n_treated_units` (sun_abraham.py 503). -/
def nTreated (df : List (Row K)) : ℕ := ((units df).filter (fun u => (unitCohort df u).pos)).length

/-- `n_control_units` (sun_abraham.py 504). -/
def nControl (df : List (Row K)) : ℕ := ((units df).filter (fun u => unitNever df u)).length

/-- `rel_periods_to_estimate` (sun_abraham.py 523-548). `min_rel <= e <= max_rel` is `-20 <= e <= 20` for members `e` of
the set whose minimum and maximum are capped. -/
def relPeriods (ant : ℤ) (df : List (Row K)) : List ℤ :=
  ((df.filterMap relTime).dedup.insertionSort (· ≤ ·)).filter
    (fun e => decide (-20 ≤ e) && decide (e ≤ 20) && decide (e ≠ -1 - ant))

/-- Estimation sample (sun_abraham.py 553-559). -/
def sample (c : Control) (df : List (Row K)) : List (Row K) :=
  match c with
  | .never => df.filter (fun r => r.cohort.isNever || r.cohort.pos)
  | .notYet => df

/-- Interaction dummy (sun_abraham.py 728-731). -/
def dummy (k : Key) (r : Row K) : K := if r.cohort = k.1 ∧ relTime r = some k.2 then 1 else 0

/-- `coef_index_map` as the list of keys in column order (sun_abraham.py 720-737): columns without observations are left
out. -/
def keys (gs : List Coh) (es : List ℤ) (df : List (Row K)) : List Key :=
  (gs.flatMap (fun g => es.map (fun e => (g, e)))).filter
    (fun k => df.any (fun r => decide (r.cohort = k.1) && decide (relTime r = some k.2)))

/-- `_within_transform` (sun_abraham.py 793-805, utils.py 1462-1478). -/
def within (df : List (Row K)) (x : Row K → K) (r : Row K) : K :=
  let Ru := df.filter (fun s => decide (s.unit = r.unit))
  let Rt := df.filter (fun s => decide (s.time = r.time))
  x r - (Ru.map x).sum / (Ru.length : K) - (Rt.map x).sum / (Rt.length : K) + (df.map x).sum / (df.length : K)

/-- Demeaned design: one column per key, one entry per row (sun_abraham.py 756-764). -/
def design (df : List (Row K)) (ks : List Key) : List (List K) :=
  ks.map (fun k => df.map (fun r => within df (dummy k) r))

/-- Demeaned outcome; a missing outcome makes the regression fail, so it is checked first (solve_ols raises
ValueError on non-finite values). -/
def response (df : List (Row K)) : Option (List K) :=
  if df.all (fun r => r.y.isSome) then some (df.map (fun r => within df (fun s => s.y.getD 0) r)) else none

/-- `_fit_saturated_regression` (sun_abraham.py 680-791). -/
def saturated (reg : List (List K) → List K → Option (Reg K)) (gs : List Coh) (es : List ℤ) (df : List (Row K)) :
    Except Err (List Key × Reg K) :=
  let ks := keys gs es df
  if ks = [] then .error .noInteraction
  else match response df with
    | none => .error .regression
    | some y => match reg (design df ks) y with
      | none => .error .regression
      | some f => .ok (ks, f)

/-- `cohort_sizes` (sun_abraham.py 837-838). -/
def size (df : List (Row K)) (g : Coh) : ℕ := ((units df).filter (fun u => decide (unitCohort df u = g))).length

/-- `cohorts_at_e` (sun_abraham.py 842-845). -/
def cohortsAt (gs : List Coh) (ks : List Key) (e : ℤ) : List Coh := gs.filter (fun g => decide ((g, e) ∈ ks))

/-- `total_size` (sun_abraham.py 852-856). -/
def totalSize (df : List (Row K)) (cs : List Coh) : ℕ := (cs.map (size df)).sum

/-- Interaction weights at one event time (sun_abraham.py 850-863). -/
def weights (df : List (Row K)) (cs : List Coh) : List (Coh × K) :=
  cs.map (fun g => (g, (size df g : K) / (totalSize df cs : K)))

/-- Sum with NaN propagation. -/
def osum : List (Option K) → Option K
  | [] => some 0
  | a :: as => match a, osum as with
    | some x, some s => some (x + s)
    | _, _ => none

/-- Coefficient of a key. -/
def coefOf (ks : List Key) (f : Reg K) (k : Key) : Option K := f.coef (ks.idxOf k)

/-- `w' V w` over a weighted list of keys, with NaN propagation (sun_abraham.py 875-878, 958-961). -/
def quadForm (ks : List Key) (f : Reg K) (ws : List (Key × K)) : Option K :=
  osum (ws.flatMap (fun a => ws.map (fun b => (f.vcov (ks.idxOf a.1) (ks.idxOf b.1)).map (fun v => a.2 * v * b.2))))

structure Event (K : Type*) where
  e : ℤ
  effect : Option K
  var : Option K
  nGroups : ℕ
  weights : List (Coh × K)

/-- One event time of `_compute_iw_effects` (sun_abraham.py 841-892). -/
def eventAt (df : List (Row K)) (gs : List Coh) (ks : List Key) (f : Reg K) (e : ℤ) : Option (Event K) :=
  let cs := cohortsAt gs ks e
  if cs = [] then none
  else if totalSize df cs = 0 then none
  else
    let w := weights df cs
    some
      { e := e
        effect := osum (w.map (fun p => (coefOf ks f (p.1, e)).map (fun v => p.2 * v)))
        var := (quadForm ks f (w.map (fun p => ((p.1, e), p.2)))).map (fun v => max v 0)
        nGroups := cs.length
        weights := w }

/-- `_compute_iw_effects` (sun_abraham.py 807-894). -/
def iwEffects (df : List (Row K)) (gs : List Coh) (es : List ℤ) (ks : List Key) (f : Reg K) : List (Event K) :=
  es.filterMap (eventAt df gs ks f)

/-- `max(n_at_e, 1)` (sun_abraham.py 925-926). -/
def countAt (df : List (Row K)) (e : ℤ) : ℕ := max (df.filter (fun r => decide (relTime r = some e))).length 1

/-- Normalised period weights (sun_abraham.py 929-930). -/
def postWeights (df : List (Row K)) (post : List (Event K)) : List (Event K × K) :=
  post.map (fun ev => (ev, (countAt df ev.e : K) / ((post.map (fun ev => countAt df ev.e)).sum : K)))

/-- `overall_weights_by_coef` (sun_abraham.py 938-948). Keys of different event times differ, so nothing accumulates. -/
def combined (pw : List (Event K × K)) : List (Key × K) :=
  pw.flatMap (fun p => p.1.weights.map (fun q => ((q.1, p.1.e), p.2 * q.2)))

/-- `_compute_overall_att` (sun_abraham.py 896-964): estimate and squared standard error. The fallback for an empty weight
dictionary (950-955) is not reachable because every reported event time has weights. -/
def overall (df : List (Row K)) (ks : List Key) (f : Reg K) (es : List (Event K)) : Option K × Option K :=
  let post := es.filter (fun ev => decide (0 ≤ ev.e))
  if post = [] then (some 0, some 0)
  else
    let pw := postWeights df post
    (osum (pw.map (fun p => p.1.effect.map (fun v => p.2 * v))),
      (quadForm ks f (combined pw)).map (fun v => max v 0))

structure Results (K : Type*) where
  groups : List Coh
  nTreated : ℕ
  nControl : ℕ
  nObs : ℕ
  events : List (Event K)
  overall : Option K × Option K
  cohortEffects : List (Key × Option K)

/-- `fit` without bootstrap (sun_abraham.py 429-678). -/
def fit (reg : List (List K) → List K → Option (Reg K)) (ant : ℤ) (c : Control) (df : List (Row K)) :
    Except Err (Results K) :=
  if nControl df = 0 then .error .noControl
  else if groups df = [] then .error .noTreated
  else match saturated reg (groups df) (relPeriods ant df) (sample c df) with
    | .error e => .error e
    | .ok (ks, f) =>
      let ev := iwEffects df (groups df) (relPeriods ant df) ks f
      .ok
        { groups := groups df
          nTreated := nTreated df
          nControl := nControl df
          nObs := df.length
          events := ev
          overall := overall df ks f ev
          cohortEffects := ks.map (fun k => (k, coefOf ks f k)) }

/-! ### Bootstrap -/

/-- `df.iloc[i]` for one integer position: negative positions count from the end, out of range is IndexError (`none`). -/
def iloc (df : List (Row K)) (i : ℤ) : Option (Row K) :=
  if 0 ≤ i then df[i.toNat]?
  else if -(df.length : ℤ) ≤ i then df[((df.length : ℤ) + i).toNat]?
  else none

/-- All or nothing. -/
def allSome {α : Type*} : List (Option α) → Option (List α)
  | [] => some []
  | none :: _ => none
  | some a :: as => (allSome as).map (fun l => a :: l)

/-- `boot_indices` (sun_abraham.py 1009-1012): index labels of the rows of the drawn units. -/
def bootIndices (df : List (Row K)) (draws : List ℕ) : List ℤ :=
  draws.flatMap (fun u => (df.filter (fun r => decide (r.unit = u))).map (fun r => r.label))

/-- `new_unit_ids` (sun_abraham.py 1016-1023); `i` is the next identifier. -/
def newIds (df : List (Row K)) : ℕ → List ℕ → List ℕ
  | _, [] => []
  | i, u :: us => List.replicate (df.filter (fun r => decide (r.unit = u))).length i ++ newIds df (i + 1) us

/-- One pairs-bootstrap sample (sun_abraham.py 1005-1024): `none` is an uncaught IndexError. -/
def bootSample (df : List (Row K)) (draws : List ℕ) : Option (List (Row K)) :=
  (allSome ((bootIndices df draws).map (iloc df))).map
    (fun rows => List.zipWith (fun r i => { r with unit := i }) rows (newIds df 0 draws))

/-- One replicate (sun_abraham.py 1036-1096): event-study effects and overall effect; failures and missing event times use
the original estimates. -/
def replicate (reg : List (List K) → List K → Option (Reg K)) (gs : List Coh) (es : List ℤ)
    (orig : List (Event K)) (origOverall : Option K) (dfb : List (Row K)) : List (Option K) × Option K :=
  match saturated reg gs es dfb with
  | .error _ => (orig.map (fun ev => ev.effect), origOverall)
  | .ok (ks, f) =>
    let evb := iwEffects dfb gs es ks f
    (orig.map (fun ev => match evb.find? (fun x => decide (x.e = ev.e)) with
        | some x => x.effect
        | none => ev.effect),
      (overall dfb ks f evb).1)

end DiffDiff.SunAb
