/-
Model of `CallawaySantAnna.fit` from the rows of the data, without covariates.
  /repo/diff_diff/staggered.py 371-439 (_precompute_structures), 623-733 (fit)
  /repo/diff_diff/staggered_aggregation.py 220-227 (group sizes of the standard error of the overall effect)
`CS.lean` starts from the wide panel; here the panel is built from the rows, with a first_treat column that may differ
between the rows of a unit. Simplifications: unit and time columns have no missing values, periods and finite cohorts are
integers, standard errors are represented by their squares. The bootstrap is in `CSBoot.lean`.
-/
import Verif.CS

namespace DiffDiff.CSRows

open CS

/-- One row of the data; `y = none` is a missing outcome. -/
structure Row (U K : Type*) where
  unit : U
  time : ℤ
  cohort : Coh
  y : Option K
  deriving DecidableEq

variable {U K : Type*} [LinearOrder U] [Field K] [LinearOrder K] [IsStrictOrderedRing K]

/-- Index of `groupby(unit)`: sorted distinct labels (staggered.py 397-398, 650-653). -/
def keys (rows : List (Row U K)) : List U := (rows.map Row.unit).dedup.insertionSort (· ≤ ·)

/-- `first_treat` of a unit: the first non-missing value among its rows (staggered.py 397, 651); pandas' `first` skips NaN. -/
def firstCoh (rows : List (Row U K)) (u : U) : Coh :=
  (((rows.filter (fun r => decide (r.unit = u))).map Row.cohort).find? (fun g => decide (g ≠ Coh.nan))).getD Coh.nan

/-- `_never_treated` of a unit (staggered.py 647, 652): the value in its first row, which is never missing. -/
def firstNever (rows : List (Row U K)) (u : U) : Bool :=
  match (rows.filter (fun r => decide (r.unit = u))) with
  | [] => false
  | r :: _ => r.cohort.isNever

/-- `time_periods` (staggered.py 643). -/
def times (rows : List (Row U K)) : List ℤ := (rows.map Row.time).dedup.insertionSort (· ≤ ·)

/-- `treatment_groups`: over the rows, not over the units (staggered.py 644). -/
def groupsOf (rows : List (Row U K)) : List Coh :=
  ((rows.map Row.cohort).dedup.filter Coh.pos).insertionSort (fun a b => Coh.le a b = true)

/-- `pivot` raises on repeated (unit, period) pairs (staggered.py 406). -/
def hasDup (rows : List (Row U K)) : Bool := !decide ((rows.map (fun r => (r.unit, r.time))).Nodup)

/-- A cell of the pivoted outcome (staggered.py 406-409). -/
def cell (rows : List (Row U K)) (u : U) (t : ℤ) : Option K :=
  ((rows.find? (fun r => decide (r.unit = u) && decide (r.time = t))).map Row.y).getD none

/-- The precomputed structures for the units `ks` (staggered.py 397-410). -/
def panelOf (ks : List U) (rows : List (Row U K)) : Panel ks.length K :=
  { cohort := fun i => firstCoh rows (ks.get i)
    times := times rows
    y := fun i t => cell rows (ks.get i) t }

/-- `df[df['first_treat'] == g][unit].nunique()` (staggered_aggregation.py 225). -/
def sizeOf (rows : List (Row U K)) (g : Coh) : ℕ := ((rows.filter (fun r => decide (r.cohort = g))).map Row.unit).dedup.length

/-- `group_time_effects` for given groups (staggered.py 668-708). -/
def effectsFor {n : ℕ} (c : Cfg) (P : Panel n K) (gs : List Coh) : List ((Coh × ℤ) × Entry n K) :=
  gs.flatMap (fun g => (validPeriods c P g).filterMap (fun t => (attGt c P g t).map (fun e => ((g, t), e))))

/-- Weight influence function with given group sizes (staggered_aggregation.py 284-328). -/
def wifWith {n : ℕ} (size : Coh → ℕ) (P : Panel n K) (N : ℕ) (k : List (Coh × K)) (u : Fin n) : K :=
  let p : Coh → K := fun g => (size g : K) / (N : K)
  let S := (k.map (fun x => p x.1)).sum
  let ind : Coh → K := fun g => if P.cohort u = g then 1 else 0
  let indSum := (k.map (fun x => ind x.1 - p x.1)).sum
  (k.map (fun x => ((ind x.1 - p x.1) / S - indSum * p x.1 / S ^ 2) * x.2)).sum

/-- Square of the standard error of the overall effect with given group sizes (staggered_aggregation.py 168-336). -/
def overallVarWith {n : ℕ} (size : Coh → ℕ) (ant : ℤ) (P : Panel n K) (l : List ((Coh × ℤ) × Entry n K)) : K :=
  let k := postPairs ant l
  let es := k.map Prod.snd
  let A := allUnits es
  let keep := k.map (fun x => (x.1.1, x.2.effect))
  if A.card = 0 then 0
  else if (keep.map (fun x => (size x.1 : K) / (A.card : K))).sum = 0 then 0
  else ∑ u ∈ A, (aggPsi (sizeWeights k) es u + wifWith size P A.card keep u / (A.card : K)) ^ 2

inductive Err | noNever | duplicate | noEffects deriving DecidableEq, Repr

/-- What is reported; unit `i` of the results has the label `units[i]`. -/
structure Fit (U K : Type*) where
  units : List U
  res : Results units.length K
  /-- square of the standard error of the overall effect -/
  var : K

/-- The checks and the results given the units and what is read from the rows (staggered.py 655-733). -/
def fitWith (c : Cfg) (bal : Option ℤ) (ks : List U) (P : Panel ks.length K) (never : U → Bool) (dup : Bool) (gs : List Coh)
    (size : Coh → ℕ) : Except Err (Fit U K) :=
  if (ks.filter never).length = 0 then .error .noNever
  else if dup then .error .duplicate
  else if (effectsFor c P gs).length = 0 then .error .noEffects
  else .ok
    { units := ks
      res :=
        { groups := gs
          nTreated := (Finset.univ.filter (fun u => (P.cohort u).pos = true)).card
          nControl := (ks.filter never).length
          effects := effectsFor c P gs
          overall := overall c.ant (effectsFor c P gs)
          event := eventStudy c bal (effectsFor c P gs)
          group := groupEffects c.ant gs (effectsFor c P gs) }
      var := overallVarWith size c.ant P (effectsFor c P gs) }

/-- `fit` without covariates, `aggregate="all"` (staggered.py 623-733). -/
def fit (c : Cfg) (bal : Option ℤ) (rows : List (Row U K)) : Except Err (Fit U K) :=
  fitWith c bal (keys rows) (panelOf (keys rows) rows) (firstNever rows) (hasDup rows) (groupsOf rows) (sizeOf rows)

end DiffDiff.CSRows
