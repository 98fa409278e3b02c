/-
Model of the staggered-timing check of `TwoWayFixedEffects.fit`.
  /repo/diff_diff/twfe.py 283-316 (`_check_staggered_treatment`), called at 94 before anything else is computed.
Labels and periods are of ordered types; a missing label, period or treatment value is `none`.
-/
import Mathlib.Data.List.Sort
import Mathlib.Data.List.MinMax
import Mathlib.Data.List.Dedup
import Mathlib.Algebra.Field.Basic

namespace DiffDiff.TwfeWarn

variable {U T K : Type*} [LinearOrder U] [LinearOrder T] [DecidableEq K] [One K]

/-- The columns read by the check. -/
structure Row (U T K : Type*) where
  unit : Option U
  time : Option T
  d : Option K

/-- `treated_obs` (twfe.py 297); a missing treatment is not equal to 1. -/
def treatedObs (rows : List (Row U T K)) : List (Row U T K) := rows.filter (fun r => decide (r.d = some 1))

/-- The keys of `groupby(unit)` (twfe.py 302): sorted, missing labels dropped. -/
def keys (rows : List (Row U T K)) : List U := ((treatedObs rows).filterMap Row.unit).dedup.insertionSort (· ≤ ·)

/-- `[time].min()` of one group (twfe.py 302): missing periods are skipped, `none` (NaN) when there is no other. -/
def first (rows : List (Row U T K)) (u : U) : Option T :=
  match (((treatedObs rows).filter (fun r => decide (r.unit = some u))).filterMap Row.time) with
  | [] => none
  | t :: ts => some (ts.foldl min t)

/-- `unique_treat_times` (twfe.py 302-303): distinct values in order of appearance; NaN counts as one value. -/
def cohorts (rows : List (Row U T K)) : List (Option T) := ((keys rows).map (first rows)).reverse.dedup.reverse

/-- `_check_staggered_treatment` (twfe.py 297-316): the number of cohorts named in the warning, `none` without warning. -/
def check (rows : List (Row U T K)) : Option ℕ :=
  if treatedObs rows = [] then none
  else if 1 < (cohorts rows).length then some (cohorts rows).length else none

end DiffDiff.TwfeWarn
