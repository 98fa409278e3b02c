/-
Model of `rank_control_units` and `_suggest_treatment_candidates`.
  /repo/diff_diff/prep.py 897-1123 and 1162-1241.
Simplifications: the named columns exist; unit and time labels are not missing; values are numbers or missing (no infinities);
square roots are a parameter `root`; `compute_synthetic_weights` is a parameter (it has its own model, `SynthWeights`); sorting is
a parameter because pandas' default sort is not stable.
-/
import Verif.Ext

namespace DiffDiff.PrepRank

/-- A row: unit, period, outcome, treatment column, covariates. `none` is a missing value. -/
structure RRow (U T C K : Type*) where
  unit : U
  time : T
  y : Option K
  d : Option K
  cov : C → Option K

/-- Arguments of `rank_control_units` (prep.py 782-798). -/
structure Opts (U T C K : Type*) where
  treatedUnits : Option (List U) := none
  useCol : Bool := false
  prePeriods : Option (List T) := none
  covs : List C := []
  ow : K
  cw : K
  exclude : List U := []
  require : List U := []
  nTop : Option ℤ := none
  suggest : Bool := false
  nCand : ℤ := 5
  lam : K

/-- A line of the ranking (prep.py 1097-1105). -/
structure Line (U K : Type*) where
  unit : U
  quality : Option K
  outcome : Option K
  covariate : Option K
  weight : Option K
  rmse : Option K
  required : Bool

/-- A line of the candidate list (prep.py 1205-1210, 1235). -/
structure Cand (U K : Type*) where
  unit : U
  score : Option K
  avg : Option K
  slope : Option K
  nSimilar : ℕ

inductive Err | value | key | linalg deriving DecidableEq, Repr

/-- Either a ranking of controls or a list of treatment candidates. -/
inductive Out (U K : Type*)
  | ranking (l : List (Line U K))
  | candidates (l : List (Cand U K))

section
variable {U T C K : Type*} [DecidableEq U] [LinearOrder T] [Field K] [LinearOrder K]

/-- Numerical routines outside the model: square root, synthetic weights (n_control, control outcomes per control and period,
treated means, penalty), the slope of `np.polyfit` and the two sorts. -/
structure Env (U K : Type*) where
  root : K → K
  synth : ℕ → List (List (Option K)) → List (Option K) → K → Except Err (ℕ → Option K)
  slope : List (Option K) → Option K
  sort : List (Line U K) → List (Line U K)
  sortC : List (Cand U K) → List (Cand U K)

/-- Mean without missing values, missing if none is left (`mean()` of pandas, `np.nanmean`). -/
def nanmean (l : List (Option K)) : Option K :=
  let v := l.filterMap id
  if v = [] then none else some (v.sum / (v.length : K))

def omap2 (f : K → K → K) : Option K → Option K → Option K
  | some a, some b => some (f a b)
  | _, _ => none

/-- Python's built-in `max` on floats: the first element, replaced by a later one that compares greater. -/
def pyMax : List (Option K) → Option K
  | [] => none
  | a :: l => l.foldl (fun m x => match m, x with
    | some p, some q => if p < q then some q else some p
    | m, _ => m) a

/-- Python's built-in `min`. -/
def pyMin : List (Option K) → Option K
  | [] => none
  | a :: l => l.foldl (fun m x => match m, x with
    | some p, some q => if q < p then some q else some p
    | m, _ => m) a

/-- `ndarray.max()`: missing as soon as one element is. -/
def npMax (l : List (Option K)) : Option K := if l.all Option.isSome then pyMax l else none

/-- `ndarray.min()`. -/
def npMin (l : List (Option K)) : Option K := if l.all Option.isSome then pyMin l else none

/-- `1 - (x - min) / range`, or all ones if the range is below 1e-10 (prep.py 1021-1028, 1056-1063). -/
def normScores (mx mn : Option K) (l : List (Option K)) : List (Option K) :=
  match omap2 (· - ·) mx mn with
  | some r =>
    if r < 1 / 10 ^ 10 then l.map (fun _ => some 1)
    else l.map (fun x => x.bind (fun x => mn.map (fun m => 1 - (x - m) / r)))
  | none => l.map (fun _ => none)

/-- First non-missing treatment value of a unit equals 1 (prep.py 946-947). -/
def firstTreated (rows : List (RRow U T C K)) (u : U) : Bool :=
  decide (((rows.filter (fun r => decide (r.unit = u))).filterMap (fun r => r.d)).head? = some 1)

/-- `Series.unique()`. -/
def unique {α : Type*} [DecidableEq α] (l : List α) : List α := l.reverse.dedup.reverse

/-- Pivot cell (prep.py 982). -/
def pivot (pre : List (RRow U T C K)) (u : U) (t : T) : Option K :=
  (pre.find? (fun r => decide (r.unit = u ∧ r.time = t))).bind (fun r => r.y)

/-- Mean of the treated units in a period (prep.py 1001). -/
def treatedMean (pre : List (RRow U T C K)) (treated : List U) (t : T) : Option K :=
  nanmean (treated.map (fun u => pivot pre u t))

/-- RMSE of a control against the treated mean (prep.py 1012-1016). -/
def rmse (root : K → K) (pre : List (RRow U T C K)) (treated : List U) (periods : List T) (c : U) : Option K :=
  (nanmean (periods.map (fun t => omap2 (fun a b => (a - b) ^ 2) (pivot pre c t) (treatedMean pre treated t)))).map root

/-- Unit mean of a covariate over pre-treatment rows (prep.py 1035). -/
def covMean (pre : List (RRow U T C K)) (u : U) (k : C) : Option K :=
  nanmean ((pre.filter (fun r => decide (r.unit = u))).map (fun r => r.cov k))

/-- `std()` without missing values, divisor n-1; missing for fewer than two values. -/
def nanstd (root : K → K) (l : List (Option K)) : Option K :=
  let v := l.filterMap id
  if v.length ≤ 1 then none
  else some (root ((v.map (fun x => (x - v.sum / (v.length : K)) ^ 2)).sum / ((v.length : K) - 1)))

/-- Standardised squared difference of a control from the treated profile in one covariate (prep.py 1041-1050). -/
def covTerm (root : K → K) (pre : List (RRow U T C K)) (units treated : List U) (c : U) (k : C) : Option K :=
  let col := units.map (fun u => covMean pre u k)
  let m := nanmean col
  let s := (nanstd root col).map (fun x => if x = 0 then 1 else x)
  let z : Option K → Option K := fun x => omap2 (· / ·) (omap2 (· - ·) x m) s
  (omap2 (· - ·) (z (covMean pre c k)) (z (nanmean (treated.map (fun u => covMean pre u k))))).map (fun x => x ^ 2)

/-- Euclidean distance (prep.py 1049-1051): missing if any covariate is. -/
def covDist (root : K → K) (pre : List (RRow U T C K)) (units treated : List U) (covs : List C) (c : U) : Option K :=
  ((covs.map (covTerm root pre units treated c)).foldl (fun a x => omap2 (· + ·) a x) (some 0)).map root

/-- Combined score (prep.py 1071-1090). -/
def combine (ow cw : K) (o c : Option K) : Option K :=
  let tot := ow + cw
  let now := if 0 < tot then ow / tot else 1
  let ncw := if 0 < tot then cw / tot else 0
  match c with
  | none => o
  | some s => o.map (fun x => now * x + ncw * s)

/-- Required lines first, then the best optional ones, sorted again (prep.py 1107-1121). -/
def applyTop (sort : List (Line U K) → List (Line U K)) (nTop : Option ℤ) (l : List (Line U K)) : List (Line U K) :=
  let res := sort l
  match nTop with
  | none => res
  | some n =>
    if n < (res.length : ℤ) then
      let req := res.filter (fun x => x.required)
      let opt := res.filter (fun x => !x.required)
      sort (req ++ opt.take (max 0 (n - (req.length : ℤ))).toNat)
    else res

/-- The lines of the ranking before sorting (prep.py 1007-1105), given controls, treated units with
data, all treated units and periods. A treated unit without pre-treatment rows is a KeyError when covariates are used (1038). -/
def buildLines (e : Env U K) (o : Opts U T C K) (pre : List (RRow U T C K)) (controls treated all : List U) (periods : List T) :
    Except Err (List (Line U K)) :=
  match e.synth controls.length (controls.map (fun c => periods.map (pivot pre c))) (periods.map (treatedMean pre treated)) o.lam with
  | .error x => .error x
  | .ok w =>
    let rm := controls.map (rmse e.root pre treated periods)
    let os := normScores (pyMax rm) (pyMin rm) rm
    let units := unique (pre.map (fun r => r.unit))
    if o.covs ≠ [] ∧ ¬ (all.all (fun u => decide (u ∈ units))) then .error .key
    else
      let ds := controls.map (covDist e.root pre units all o.covs)
      let cs := if o.covs ≠ [] then normScores (npMax ds) (npMin ds) ds else controls.map (fun _ => none)
      .ok (controls.zipIdx.map (fun p =>
        { unit := p.1, quality := combine o.ow o.cw ((os[p.2]?).join) ((cs[p.2]?).join), outcome := (os[p.2]?).join,
          covariate := (cs[p.2]?).join, weight := w p.2, rmse := (rm[p.2]?).join, required := decide (p.1 ∈ o.require) }))

/-- Pre-treatment period means of all units other than `u` (prep.py 1189-1192). -/
def otherMeans (pre : List (RRow U T C K)) (u : U) : List (Option K) :=
  (unique ((pre.filter (fun r => decide (r.unit ≠ u))).map (fun r => r.unit))).map (fun v =>
    nanmean ((pre.filter (fun r => decide (r.unit = v))).map (fun r => r.y)))

/-- Number of similar units (prep.py 1194-1203). -/
def nSimilar (root : K → K) (pre : List (RRow U T C K)) (u : U) (avg : Option K) : ℕ :=
  let om := otherMeans pre u
  match nanstd root om with
  | some s =>
    if 0 < s then (om.filter (fun m => match m, avg with
      | some m, some a => decide (|m - a| < (1 / 2) * s)
      | _, _ => false)).length
    else om.length
  | none => om.length

/-- Lines of the candidate list before scoring (prep.py 1167-1210). -/
def candInfo (e : Env U K) (rows pre : List (RRow U T C K)) : List (Cand U K) :=
  ((unique (rows.map (fun r => r.unit))).filter (fun u => decide (u ∈ pre.map (fun r => r.unit)))).map (fun u =>
    let ys := (pre.filter (fun r => decide (r.unit = u))).map (fun r => r.y)
    { unit := u, score := none, avg := nanmean ys, slope := if 1 < ys.length then e.slope ys else some 0,
      nSimilar := nSimilar e.root pre u (nanmean ys) })

/-- Score (prep.py 1221-1237). -/
def candScore (root : K → K) (all : List (Cand U K)) (c : Cand U K) : Option K :=
  let mxs := (all.map (fun c => c.nSimilar)).foldl max 0
  let sim : K := if 0 < mxs then (c.nSimilar : K) / (mxs : K) else 0
  let m := nanmean (all.map (fun c => c.avg))
  let z : Option K := match nanstd root (all.map (fun c => c.avg)) with
    | some s => if 0 < s then (omap2 (fun a b => |(a - b) / s|) c.avg m) else some 0
    | none => some 0
  z.map (fun z => max 0 (min 1 (sim - (3 / 10) * z)))

/-- `_suggest_treatment_candidates` (prep.py 1162-1241). -/
def suggest (e : Env U K) (n : ℤ) (rows pre : List (RRow U T C K)) : List (Cand U K) :=
  let info := candInfo e rows pre
  (e.sortC (info.map (fun c => { c with score := candScore e.root info c }))).take (max 0 n).toNat

/-- Pre-treatment periods: as given, or the first half of the sorted periods (prep.py 928-933). -/
def prePeriodsOf (o : Opts U T C K) (rows : List (RRow U T C K)) : List T :=
  let periods := (rows.map (fun r => r.time)).dedup.insertionSort (· ≤ ·)
  o.prePeriods.getD (periods.take (periods.length / 2))

/-- The treated set (prep.py 943-950). -/
def treatedOf (o : Opts U T C K) (rows : List (RRow U T C K)) : List U :=
  match o.treatedUnits with
  | some l => l.dedup
  | none => if o.useCol then (unique (rows.map (fun r => r.unit))).filter (firstTreated rows) else []

/-- Untreated units that are not excluded (prep.py 970-973). -/
def candidates (o : Opts U T C K) (rows : List (RRow U T C K)) (treated : List U) : List U :=
  ((unique (rows.map (fun r => r.unit))).filter (fun u => decide (u ∉ treated))).filter (fun u => decide (u ∉ o.exclude))

/-- Those with a pre-treatment row (prep.py 990, 998). -/
def inPre (pre : List (RRow U T C K)) (l : List U) : List U := l.filter (fun u => decide (u ∈ pre.map (fun r => r.unit)))

/-- The ranking part (prep.py 969-1105), before sorting. -/
def rankLines (e : Env U K) (o : Opts U T C K) (rows pre : List (RRow U T C K)) (pp : List T) (treated : List U) :
    Except Err (List (Line U K)) :=
  if candidates o rows treated = [] then .error .value
  else if ¬ (pre.map (fun r => (r.time, r.unit))).Nodup then .error .value
  else if pp.filter (fun t => decide (t ∈ pre.map (fun r => r.time))) = [] then .error .value
  else if inPre pre (candidates o rows treated) = [] then .error .value
  else if inPre pre treated = [] then .error .value
  else buildLines e o pre (inPre pre (candidates o rows treated)) (inPre pre treated) treated
    (pp.filter (fun t => decide (t ∈ pre.map (fun r => r.time))))

/-- `rank_control_units` (prep.py 897-1123). -/
def rank (e : Env U K) (o : Opts U T C K) (rows : List (RRow U T C K)) : Except Err (Out U K) :=
  if ¬ (0 ≤ o.ow ∧ o.ow ≤ 1) then .error .value
  else if ¬ (0 ≤ o.cw ∧ o.cw ≤ 1) then .error .value
  else if o.treatedUnits.isSome ∧ o.useCol = true then .error .value
  else if o.require.any (fun u => decide (u ∈ o.exclude)) = true then .error .value
  else if prePeriodsOf o rows = [] then .error .value
  else if o.treatedUnits = none ∧ o.useCol = false ∧ o.suggest = false then .error .value
  else
    let pre := rows.filter (fun r => decide (r.time ∈ prePeriodsOf o rows))
    if o.suggest = true ∧ treatedOf o rows = [] then .ok (.candidates (suggest e o.nCand rows pre))
    else if treatedOf o rows = [] then .error .value
    else
      match rankLines e o rows pre (prePeriodsOf o rows) (treatedOf o rows) with
      | .error x => .error x
      | .ok l => .ok (.ranking (applyTop e.sort o.nTop l))

end
end DiffDiff.PrepRank
