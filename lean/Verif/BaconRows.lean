/-
Model of `BaconDecomposition.fit` from the rows of the data.
  /repo/diff_diff/bacon.py 440-867, /repo/diff_diff/utils.py 1450-1484 (within_transform)
`Bacon.lean` starts from the wide panel, with one row per unit and period and one first_treat value per unit; here both may fail: rows may repeat and
first_treat may change within a unit. Simplifications: unit and time columns have no missing values, periods and finite cohorts are integers. The
warning about unbalanced panels is not modelled.
-/
import Verif.CSRows
import Verif.Bacon

namespace DiffDiff.BaconRows

open CS (Coh)
open CSRows (Row keys firstCoh)
open Bacon (Kind WeightMode Comp Results timingValue pairs)

variable {U K : Type*} [LinearOrder U] [Field K] [LinearOrder K] [IsStrictOrderedRing K]

/-- `df[first_treat] == g`, or the never-treated mask for `none` (bacon.py 711-712, 786-787, 622-625). -/
def inGroup (g : Option ℤ) (c : Coh) : Bool :=
  match g with
  | some z => decide (c = .num z)
  | none => c.isNever

/-- Rows of a group (bacon.py 714-715, 789-790). -/
def groupRows (rows : List (Row U K)) (g : Option ℤ) : List (Row U K) := rows.filter (fun r => inGroup g r.cohort)

/-- `df[unit].unique()` of a group (bacon.py 622-639, 743-744, 795-796). -/
def groupUnits (rows : List (Row U K)) (g : Option ℤ) : Finset U := ((groupRows rows g).map Row.unit).toFinset

/-- `time_periods` (bacon.py 461). -/
def times (rows : List (Row U K)) : Finset ℤ := (rows.map Row.time).toFinset

/-- `timing_groups`: over the rows (bacon.py 466-467). -/
def timingGroups (rows : List (Row U K)) : List ℤ := (rows.filterMap (fun r => timingValue r.cohort)).dedup.insertionSort (· ≤ ·)

/-- `n_never_treated`: over the units, by the first non-missing value of each (bacon.py 470-473). -/
def nNever (rows : List (Row U K)) : ℕ := ((keys rows).filter (fun u => (firstCoh rows u).isNever)).length

/-- Treatment indicator of a row (bacon.py 478). -/
def treat (r : Row U K) : K :=
  match r.cohort with
  | .num z => if ¬ (Coh.num z).isNever ∧ z ≤ r.time then 1 else 0
  | _ => 0

/-- `df_group[df_group[time].isin(periods)][outcome].mean()` (bacon.py 733-738, 833-837). -/
def cellMean (rows : List (Row U K)) (g : Option ℤ) (W : Finset ℤ) : Option K :=
  let R := (groupRows rows g).filter (fun r => decide (r.time ∈ W) && r.y.isSome)
  if R.length = 0 then none else some ((R.map (fun r => r.y.getD 0)).sum / (R.length : K))

/-- `len(df_22)` (bacon.py 645-652, 668): all rows of the units of both groups in the window. -/
def n22 (rows : List (Row U K)) (g c : Option ℤ) (W : Finset ℤ) : ℕ :=
  (rows.filter (fun r => (decide (r.unit ∈ groupUnits rows g) || decide (r.unit ∈ groupUnits rows c)) && decide (r.time ∈ W))).length

/-- Mean of `x` over the rows with property `p`. -/
def meanOver (rows : List (Row U K)) (p : Row U K → Bool) (x : Row U K → K) : K :=
  ((rows.filter p).map x).sum / ((rows.filter p).length : K)

/-- Two-way within transformation (utils.py 1471-1478). -/
def within (rows : List (Row U K)) (x : Row U K → K) (r : Row U K) : K :=
  x r - meanOver rows (fun s => decide (s.unit = r.unit)) x - meanOver rows (fun s => decide (s.time = r.time)) x + meanOver rows (fun _ => true) x

/-- `_compute_twfe` (bacon.py 569-594). A missing outcome makes the sum NaN. -/
def twfe (rows : List (Row U K)) : Option K :=
  let d := within rows treat
  let y := within rows (fun r => r.y.getD 0)
  let dvar := (rows.map (fun r => d r ^ 2)).sum
  if 0 < dvar then
    if rows.all (fun r => r.y.isSome) then some ((rows.map (fun r => d r * y r)).sum / dvar) else none
  else some 0

/-- Everything that is read from the rows. -/
structure View (K : Type*) where
  times : Finset ℤ
  groups : List ℤ
  nNever : ℕ
  /-- `len(df_group) == 0` -/
  empty : Option ℤ → Bool
  /-- `df_group[unit].nunique()` -/
  size : Option ℤ → ℕ
  mean : Option ℤ → Finset ℤ → Option K
  n22 : Option ℤ → Option ℤ → Finset ℤ → ℕ
  nUnits : ℕ
  nObs : ℕ
  twfe : Option K

def view (rows : List (Row U K)) : View K :=
  { times := times rows
    groups := timingGroups rows
    nNever := nNever rows
    empty := fun g => (groupRows rows g).isEmpty
    size := fun g => (groupUnits rows g).card
    mean := cellMean rows
    n22 := n22 rows
    nUnits := (rows.map Row.unit).toFinset.card
    nObs := rows.length
    twfe := twfe rows }

/-- Pre periods of a comparison (bacon.py 725, 808, 823; repeated in 619-639). -/
def pre (v : View K) (k : Kind) (g : ℤ) (c : Option ℤ) : Finset ℤ :=
  match k, c with
  | .laterVsEarlier, some e => v.times.filter (fun t => e ≤ t ∧ t < g)
  | _, _ => v.times.filter (fun t => t < g)

/-- Post periods of a comparison (bacon.py 726, 810, 825; repeated in 619-639). -/
def post (v : View K) (k : Kind) (g : ℤ) (c : Option ℤ) : Finset ℤ :=
  match k, c with
  | .earlierVsLater, some l => v.times.filter (fun t => g ≤ t ∧ t < l)
  | _, _ => v.times.filter (fun t => g ≤ t)

/-- `(treated_post - treated_pre) - (control_post - control_pre)` with NaN propagation (bacon.py 740, 844). -/
def did (v : View K) (g c : Option ℤ) (a b : Finset ℤ) : Option K :=
  match v.mean g b, v.mean g a, v.mean c b, v.mean c a with
  | some x, some y, some z, some w => some ((x - y) - (z - w))
  | _, _, _, _ => none

/-- Approximate weight (bacon.py 743-755, 847-856). -/
def approxWeight (v : View K) (k : Kind) (g : ℤ) (c : Option ℤ) : K :=
  let nT : K := v.size (some g)
  let nC : K := v.size c
  let nk := nT / (nT + nC)
  let a : K := (pre v k g c).card
  let b : K := (post v k g c).card
  match k with
  | .treatedVsNever =>
    let D := b / (v.times.card : K)
    nk * (1 - nk) * D * (1 - D)
  | _ =>
    let D := b / (a + b)
    nk * (1 - nk) * D * (1 - D) * ((a + b) / (v.times.card : K))

/-- `time_window` (bacon.py 721-722, 765, 815, 830). -/
def window (v : View K) (k : Kind) (c : Option ℤ) : WithTop ℤ × WithBot ℤ :=
  match k, c with
  | .earlierVsLater, some l => (v.times.min, ((l - 1 : ℤ) : WithBot ℤ))
  | .laterVsEarlier, some e => ((e : WithTop ℤ), v.times.max)
  | _, _ => (v.times.min, v.times.max)

/-- One comparison (bacon.py 694-867); the estimate may be missing only against the never-treated group. -/
def compare (v : View K) (k : Kind) (g : ℤ) (c : Option ℤ) : Option (Comp K) :=
  if v.empty (some g) ∨ v.empty c then none
  else if (pre v k g c).card = 0 ∨ (post v k g c).card = 0 then none
  else if c.isSome ∧ did v (some g) c (pre v k g c) (post v k g c) = none then none
  else some
    { kind := k, treated := g, control := c
      estimate := did v (some g) c (pre v k g c) (post v k g c)
      weight := approxWeight v k g c
      nTreated := v.size (some g), nControl := v.size c
      window := window v k c }

/-- The comparison list (bacon.py 483-512). -/
def comparisons (v : View K) : List (Comp K) :=
  (if 0 < v.nNever then v.groups.filterMap (fun g => compare v .treatedVsNever g none) else []) ++
  (pairs v.groups).flatMap (fun p =>
    (compare v .earlierVsLater p.1 (some p.2)).toList ++ (compare v .laterVsEarlier p.2 (some p.1)).toList)

/-- `_recompute_exact_weights` for one comparison (bacon.py 596-692). -/
def exactWeight (v : View K) (c : Comp K) : K :=
  let a := pre v c.kind c.treated c.control
  let b := post v c.kind c.treated c.control
  let n := v.n22 (some c.treated) c.control (a ∪ b)
  if a.card = 0 ∨ b.card = 0 then 0
  else if n = 0 then 0
  else if v.size (some c.treated) = 0 ∨ v.size c.control = 0 then 0
  else
    let nk : K := v.size (some c.treated)
    let nl : K := v.size c.control
    let D : K := (b.card : K) / ((a.card : K) + (b.card : K))
    (n : K) / (v.nObs : K) * (nk / (nk + nl) * D * (1 - D)) * ((nk + nl) / (v.nUnits : K))

/-- Raw weights before normalisation (bacon.py 514-518). -/
def withMode (m : WeightMode) (v : View K) (l : List (Comp K)) : List (Comp K) :=
  match m with
  | .approximate => l
  | .exact => l.map (fun c => { c with weight := exactWeight v c })

/-- The report (bacon.py 480-567); normalisation, totals and averages by type as in `Bacon.lean`. -/
def report (m : WeightMode) (v : View K) : Results K :=
  let l := Bacon.normalise (withMode m v (comparisons v))
  { twfe := v.twfe
    comparisons := l
    totalWeights := Bacon.typeWeight l
    averages := Bacon.typeAverage l
    timingGroups := v.groups
    nNever := v.nNever
    nObs := v.nObs
    error := match v.twfe, Bacon.weightedSum l with
      | some a, some b => some |a - b|
      | _, _ => none }

/-- `fit` (bacon.py 402-567). -/
def fit (m : WeightMode) (rows : List (Row U K)) : Results K := report m (view rows)

end DiffDiff.BaconRows
