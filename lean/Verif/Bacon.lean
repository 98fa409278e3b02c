/-
Model of the Goodman-Bacon decomposition.
  /repo/diff_diff/bacon.py 402-867, /repo/diff_diff/utils.py 1404-1484 (within_transform)
The data frame is a finite set of (unit, period) rows without duplicates; a unit's first_treat does not change over
time; periods and finite cohorts are integers. `none` is NaN.
-/
import Verif.CS

namespace DiffDiff.Bacon

open CS (Coh)

/-- A panel: cohort of each unit, which (unit, period) rows exist, and the outcome of a row (`none` is NaN). -/
structure Panel (n : ℕ) (K : Type*) where
  cohort : Fin n → Coh
  rows : Finset (Fin n × ℤ)
  y : Fin n → ℤ → Option K

inductive Kind | treatedVsNever | earlierVsLater | laterVsEarlier deriving DecidableEq, Repr

/-- `Comparison2x2`; `control` is `none` for "never_treated". -/
structure Comp (K : Type*) where
  kind : Kind
  treated : ℤ
  control : Option ℤ
  estimate : Option K
  weight : K
  nTreated : ℕ
  nControl : ℕ
  window : WithTop ℤ × WithBot ℤ

inductive WeightMode | approximate | exact deriving DecidableEq, Repr

variable {K : Type*} [Field K] [LinearOrder K] [IsStrictOrderedRing K]
variable {n : ℕ}

/-- `sorted(df[time].unique())` as a set (bacon.py 461). -/
def times (P : Panel n K) : Finset ℤ := P.rows.image Prod.snd

/-- Units with at least one row. -/
def units (P : Panel n K) : Finset (Fin n) := P.rows.image Prod.fst

/-- Never-treated units (bacon.py 465, 471-473). -/
def never (P : Panel n K) : Finset (Fin n) := (units P).filter (fun u => (P.cohort u).isNever = true)

/-- Units with `first_treat == g`. -/
def members (P : Panel n K) (g : ℤ) : Finset (Fin n) := (units P).filter (fun u => P.cohort u = .num g)

/-- A cohort value accepted by `g > 0 and g != np.inf` (bacon.py 466-467). -/
def timingValue : Coh → Option ℤ
  | .num z => if 0 < z then some z else none
  | _ => none

/-- `timing_groups` (bacon.py 466-467). -/
def timingGroups (P : Panel n K) : List ℤ :=
  (((List.finRange n).filter (fun u => decide (u ∈ units P))).filterMap
    (fun u => timingValue (P.cohort u))).dedup.insertionSort (· ≤ ·)

/-- Treatment indicator (bacon.py 478): not never treated and `time >= first_treat`. -/
def treat (P : Panel n K) (u : Fin n) (t : ℤ) : K :=
  match P.cohort u with
  | .num z => if ¬ (Coh.num z).isNever ∧ z ≤ t then 1 else 0
  | _ => 0

/-- `df_group[df_group[time].isin(periods)][outcome].mean()`: mean of non-missing outcomes, NaN if there are none. -/
def cellMean (P : Panel n K) (U : Finset (Fin n)) (W : Finset ℤ) : Option K :=
  let R := P.rows.filter (fun r => r.1 ∈ U ∧ r.2 ∈ W ∧ (P.y r.1 r.2).isSome = true)
  if R.card = 0 then none else some ((∑ r ∈ R, (P.y r.1 r.2).getD 0) / (R.card : K))

/-- `(treated_post - treated_pre) - (control_post - control_pre)` with NaN propagation (bacon.py 740, 844). -/
def did (P : Panel n K) (T C : Finset (Fin n)) (pre post : Finset ℤ) : Option K :=
  match cellMean P T post, cellMean P T pre, cellMean P C post, cellMean P C pre with
  | some a, some b, some c, some d => some ((a - b) - (c - d))
  | _, _, _, _ => none

/-- Pre periods of a comparison (bacon.py 725, 808, 823; repeated in 619-637). -/
def prePeriods (P : Panel n K) (k : Kind) (g : ℤ) (c : Option ℤ) : Finset ℤ :=
  match k, c with
  | .laterVsEarlier, some e => (times P).filter (fun t => e ≤ t ∧ t < g)
  | _, _ => (times P).filter (fun t => t < g)

/-- Post periods of a comparison (bacon.py 726, 810, 825; repeated in 619-637). -/
def postPeriods (P : Panel n K) (k : Kind) (g : ℤ) (c : Option ℤ) : Finset ℤ :=
  match k, c with
  | .earlierVsLater, some l => (times P).filter (fun t => g ≤ t ∧ t < l)
  | _, _ => (times P).filter (fun t => g ≤ t)

/-- Control units of a comparison. -/
def controls (P : Panel n K) (c : Option ℤ) : Finset (Fin n) :=
  match c with
  | none => never P
  | some h => members P h

/-- Approximate weight (bacon.py 743-755, 847-856): the time share is 1 for treated-vs-never. -/
def approxWeight (P : Panel n K) (k : Kind) (g : ℤ) (c : Option ℤ) : K :=
  let nT : K := (members P g).card
  let nC : K := (controls P c).card
  let nk := nT / (nT + nC)
  let a : K := (prePeriods P k g c).card
  let b : K := (postPeriods P k g c).card
  match k with
  | .treatedVsNever =>
    let D := b / ((times P).card : K)
    nk * (1 - nk) * D * (1 - D)
  | _ =>
    let D := b / (a + b)
    nk * (1 - nk) * D * (1 - D) * ((a + b) / ((times P).card : K))

/-- `time_window` (bacon.py 721-722, 765, 815, 830). -/
def window (P : Panel n K) (k : Kind) (_g : ℤ) (c : Option ℤ) : WithTop ℤ × WithBot ℤ :=
  match k, c with
  | .earlierVsLater, some l => ((times P).min, ((l - 1 : ℤ) : WithBot ℤ))
  | .laterVsEarlier, some e => ((e : WithTop ℤ), (times P).max)
  | _, _ => ((times P).min, (times P).max)

/-- `_compute_treated_vs_never` (bacon.py 694-766). No check of the estimate for NaN. -/
def treatedVsNever (P : Panel n K) (g : ℤ) : Option (Comp K) :=
  if (members P g).card = 0 ∨ (never P).card = 0 then none
  else if (prePeriods P .treatedVsNever g none).card = 0 ∨ (postPeriods P .treatedVsNever g none).card = 0 then none
  else some
    { kind := .treatedVsNever, treated := g, control := none,
      estimate := did P (members P g) (never P) (prePeriods P .treatedVsNever g none)
        (postPeriods P .treatedVsNever g none),
      weight := approxWeight P .treatedVsNever g none,
      nTreated := (members P g).card, nControl := (never P).card,
      window := window P .treatedVsNever g none }

/-- `_compute_timing_comparison` (bacon.py 768-867); `g` is the treated and `c` the control group. -/
def timingComparison (P : Panel n K) (k : Kind) (g c : ℤ) : Option (Comp K) :=
  if (members P g).card = 0 ∨ (members P c).card = 0 then none
  else if (prePeriods P k g (some c)).card = 0 ∨ (postPeriods P k g (some c)).card = 0 then none
  else match did P (members P g) (members P c) (prePeriods P k g (some c)) (postPeriods P k g (some c)) with
    | none => none
    | some est => some
      { kind := k, treated := g, control := some c, estimate := some est,
        weight := approxWeight P k g (some c),
        nTreated := (members P g).card, nControl := (members P c).card,
        window := window P k g (some c) }

/-- All pairs (earlier, later) of a sorted list, in loop order (bacon.py 496-497). -/
def pairs : List ℤ → List (ℤ × ℤ)
  | [] => []
  | g :: gs => gs.map (fun h => (g, h)) ++ pairs gs

/-- The comparison list (bacon.py 483-512). -/
def comparisons (P : Panel n K) : List (Comp K) :=
  (if 0 < (never P).card then (timingGroups P).filterMap (treatedVsNever P) else []) ++
  (pairs (timingGroups P)).flatMap (fun p =>
    (timingComparison P .earlierVsLater p.1 p.2).toList ++ (timingComparison P .laterVsEarlier p.2 p.1).toList)

/-- `_recompute_exact_weights` for one comparison (bacon.py 596-692). -/
def exactWeight (P : Panel n K) (c : Comp K) : K :=
  let pre := prePeriods P c.kind c.treated c.control
  let post := postPeriods P c.kind c.treated c.control
  let T := members P c.treated
  let C := controls P c.control
  let n22 := (P.rows.filter (fun r => (r.1 ∈ T ∨ r.1 ∈ C) ∧ (r.2 ∈ pre ∨ r.2 ∈ post))).card
  if pre.card = 0 ∨ post.card = 0 then 0
  else if n22 = 0 then 0
  else if T.card = 0 ∨ C.card = 0 then 0
  else
    let nk : K := T.card
    let nl : K := C.card
    let a : K := pre.card
    let b : K := post.card
    let sampleShare := (n22 : K) / (P.rows.card : K)
    let share := nk / (nk + nl)
    let D := b / (a + b)
    let varD := share * D * (1 - D)
    let unitShare := (nk + nl) / ((units P).card : K)
    sampleShare * varD * unitShare

/-- Raw weights before normalisation (bacon.py 514-518). -/
def withMode (m : WeightMode) (P : Panel n K) (l : List (Comp K)) : List (Comp K) :=
  match m with
  | .approximate => l
  | .exact => l.map (fun c => { c with weight := exactWeight P c })

def totalWeight (l : List (Comp K)) : K := (l.map (fun c => c.weight)).sum

/-- Normalisation (bacon.py 520-524). -/
def normalise (l : List (Comp K)) : List (Comp K) :=
  if 0 < totalWeight l then l.map (fun c => { c with weight := c.weight / totalWeight l }) else l

/-- `weight_by_type[k]` (bacon.py 526-533). -/
def typeWeight (l : List (Comp K)) (k : Kind) : K := totalWeight (l.filter (fun c => decide (c.kind = k)))

/-- `sum(c.weight * c.estimate)` with NaN propagation. -/
def weightedSum : List (Comp K) → Option K
  | [] => some 0
  | c :: cs => match c.estimate, weightedSum cs with
    | some e, some s => some (c.weight * e + s)
    | _, _ => none

/-- `avg_by_type[k]` (bacon.py 536-544): outer `none` is Python's None, inner `none` NaN. -/
def typeAverage (l : List (Comp K)) (k : Kind) : Option (Option K) :=
  if 0 < typeWeight l k then
    some ((weightedSum (l.filter (fun c => decide (c.kind = k)))).map (fun s => s / typeWeight l k))
  else none

/-- Two-way within transformation on the rows of the panel (utils.py 1462-1478). -/
def within (R : Finset (Fin n × ℤ)) (x : Fin n → ℤ → K) (u : Fin n) (t : ℤ) : K :=
  let Ru := R.filter (fun r => r.1 = u)
  let Rt := R.filter (fun r => r.2 = t)
  x u t - (∑ r ∈ Ru, x r.1 r.2) / (Ru.card : K) - (∑ r ∈ Rt, x r.1 r.2) / (Rt.card : K)
    + (∑ r ∈ R, x r.1 r.2) / (R.card : K)

/-- `_compute_twfe` (bacon.py 569-594). A missing outcome makes the sum NaN; without variation the value is 0. -/
def twfe (P : Panel n K) : Option K :=
  if ∀ r ∈ P.rows, (P.y r.1 r.2).isSome = true then
    let d := within P.rows (treat P)
    let y := within P.rows (fun u t => (P.y u t).getD 0)
    let dvar := ∑ r ∈ P.rows, d r.1 r.2 ^ 2
    some (if 0 < dvar then (∑ r ∈ P.rows, d r.1 r.2 * y r.1 r.2) / dvar else 0)
  else
    -- dvar = 0 gives 0.0 even with missing outcomes
    if 0 < ∑ r ∈ P.rows, within P.rows (treat P) r.1 r.2 ^ 2 then none else some 0

structure Results (K : Type*) where
  twfe : Option K
  comparisons : List (Comp K)
  totalWeights : Kind → K
  averages : Kind → Option (Option K)
  timingGroups : List ℤ
  nNever : ℕ
  nObs : ℕ
  error : Option K

/-- `fit` (bacon.py 402-567). -/
def fit (m : WeightMode) (P : Panel n K) : Results K :=
  let l := normalise (withMode m P (comparisons P))
  { twfe := twfe P
    comparisons := l
    totalWeights := typeWeight l
    averages := typeAverage l
    timingGroups := timingGroups P
    nNever := (never P).card
    nObs := P.rows.card
    error := match twfe P, weightedSum l with
      | some a, some b => some |a - b|
      | _, _ => none }

end DiffDiff.Bacon
