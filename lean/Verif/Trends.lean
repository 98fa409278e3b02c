/-
Model of the pre-trend checks.
  /repo/diff_diff/utils.py 523-616 (check_parallel_trends), 619-775 (check_parallel_trends_robust), 778-834 (outcome changes),
  837-994 (equivalence_test_trends).
Exact arithmetic in an ordered field; missing outcomes and NaN results are `none`. Parameters: square root `r`, two-sided normal
p-value `pv`, survival and distribution function of Student's t `sf`, `cdf`, the Wasserstein distance `wd`, the permutations drawn.
Simplifications: the group column holds integers, the time column numbers; without a unit column every period of a group has an
observed outcome; the Kolmogorov-Smirnov entries are left out.
-/
import Verif.Prelude
import Mathlib.Data.List.Sort

namespace DiffDiff.Trends

/-- A row of the data. -/
structure Row (K : Type*) where
  unit : ℕ
  time : K
  g : ℤ
  y : Option K

inductive Err | empty deriving DecidableEq, Repr

section
variable {K : Type*} [Field K] [LinearOrder K]

/-- `pre_periods`, by default the first half of the sorted distinct periods (utils.py 554-558, 698-701, 882-885). -/
def preOf (rows : List (Row K)) (pre : Option (List K)) : List K :=
  pre.getD (((rows.map Row.time).dedup.insertionSort (· ≤ ·)).take ((rows.map Row.time).dedup.length / 2))

/-- `pre_data` (utils.py 560, 703, 887). -/
def preRows (rows : List (Row K)) (pre : Option (List K)) : List (Row K) :=
  rows.filter (fun r => decide (r.time ∈ preOf rows pre))

/-- Rows of a group (utils.py 563-564). -/
def groupRows (rows : List (Row K)) (g : ℤ) : List (Row K) := rows.filter (fun r => decide (r.g = g))

/-- `np.mean`. -/
def mean (l : List K) : K := l.sum / (l.length : K)

/-- `time_norm` (utils.py 572). -/
def timeNorm (l : List (Row K)) : List K :=
  l.map (fun r => r.time - (l.map Row.time).foldr min ((l.map Row.time).headD 0))

/-- `np.sum((time_norm - mean_t) ** 2)` (utils.py 583). -/
def timeVar (ts : List K) : K := (ts.map (fun t => (t - mean ts) ^ 2)).sum

/-- Slope (utils.py 587). -/
def slopeOf (ts ys : List K) : K := (List.zipWith (fun t y => (t - mean ts) * (y - mean ys)) ts ys).sum / timeVar ts

/-- Residual sum of squares (utils.py 590-592). -/
def ssrOf (ts ys : List K) : K :=
  (List.zipWith (fun t y => (y - (mean ys + slopeOf ts ys * (t - mean ts))) ^ 2) ts ys).sum

/-- `compute_trend` (utils.py 567-595). The minimum of no values is an error; with two rows the residual variance is 0/0. -/
def computeTrend (r : K → K) (l : List (Row K)) : Except Err (Option K × Option K) :=
  if l = [] then .error .empty
  else if l.length < 2 then .ok (none, none)
  else if timeVar (timeNorm l) = 0 then .ok (none, none)
  else match (l.map Row.y).mapM id with
    | none => .ok (none, none)
    | some ys =>
      .ok (some (slopeOf (timeNorm l) ys),
        if l.length = 2 then none
        else some (r (ssrOf (timeNorm l) ys / ((l.length : K) - 2) / timeVar (timeNorm l))))

/-- The returned dictionary (utils.py 606-616). -/
structure Trend (K : Type*) where
  treated : Option K
  treatedSe : Option K
  control : Option K
  controlSe : Option K
  diff : Option K
  diffSe : Option K
  t : Option K
  p : Option K
  plausible : Option Bool
  deriving DecidableEq

/-- Comparison of two trends (utils.py 601-616). -/
def compareTrends (r pv : K → K) (a b : Option K × Option K) : Trend K :=
  let diff := a.1.bind (fun x => b.1.map (fun y => x - y))
  let se := a.2.bind (fun x => b.2.map (fun y => r (x ^ 2 + y ^ 2)))
  let t := se.bind (fun s => if 0 < s then diff.map (· / s) else none)
  let p := t.map pv
  { treated := a.1, treatedSe := a.2, control := b.1, controlSe := b.2, diff := diff, diffSe := se, t := t, p := p
    plausible := p.map (fun p => decide (1 / 20 < p)) }

/-- `check_parallel_trends` (utils.py 523-616). -/
def checkTrends (r pv : K → K) (rows : List (Row K)) (pre : Option (List K)) : Except Err (Trend K) :=
  match computeTrend r (groupRows (preRows rows pre) 1) with
  | .error e => .error e
  | .ok a => match computeTrend r (groupRows (preRows rows pre) 0) with
    | .error e => .error e
    | .ok b => .ok (compareTrends r pv a b)

/-! ### Outcome changes -/

/-- Order of `sort_values([unit, time])` (utils.py 808). -/
def rowLe (a b : Row K) : Prop := a.unit < b.unit ∨ (a.unit = b.unit ∧ a.time ≤ b.time)

instance (a b : Row K) : Decidable (rowLe a b) := inferInstanceAs (Decidable (_ ∨ _))

/-- Changes from the previous row of the same unit, with the row's group; missing differences dropped (utils.py 809-812). -/
def diffs : List (Row K) → List (ℤ × K)
  | a :: b :: l =>
    (if a.unit = b.unit then (a.y.bind (fun u => b.y.map (fun v => (b.g, v - u)))).toList else []) ++ diffs (b :: l)
  | _ => []

/-- Unit-level changes of a group (utils.py 806-820). -/
def unitChanges (rows : List (Row K)) (g : ℤ) : List K :=
  ((diffs (rows.insertionSort rowLe)).filter (fun d => decide (d.1 = g))).map Prod.snd

/-- Period mean of a group (utils.py 826-828). -/
def periodMean (rows : List (Row K)) (g : ℤ) (t : K) : K :=
  mean (((groupRows rows g).filter (fun r => decide (r.time = t))).filterMap Row.y)

/-- `np.diff`. -/
def npDiff : List K → List K
  | a :: b :: l => (b - a) :: npDiff (b :: l)
  | _ => []

/-- Periods of a group, sorted (utils.py 827-828). -/
def periodsOf (rows : List (Row K)) (g : ℤ) : List K := ((groupRows rows g).map Row.time).dedup.insertionSort (· ≤ ·)

/-- Changes of the period means of a group (utils.py 822-832). -/
def aggChanges (rows : List (Row K)) (g : ℤ) : List K := npDiff ((periodsOf rows g).map (periodMean rows g))

/-- `_compute_outcome_changes` (utils.py 778-834). -/
def changes (rows : List (Row K)) (byUnit : Bool) (g : ℤ) : List K := if byUnit then unitChanges rows g else aggChanges rows g

/-! ### Equivalence test -/

/-- `np.var(.., ddof=1)`. -/
def var1 (l : List K) : K := (l.map (fun x => (x - mean l) ^ 2)).sum / ((l.length : K) - 1)

/-- Welch-Satterthwaite degrees of freedom with the guards of utils.py 960-969. -/
def welch (vt vc : K) (nt nc : ℕ) : K :=
  let dt := if 0 < vt then (vt / nt) ^ 2 / ((nt : K) - 1) else 0
  let dc := if 0 < vc then (vc / nc) ^ 2 / ((nc : K) - 1) else 0
  if dt + dc = 0 then min ((nt : K) - 1) ((nc : K) - 1) else (vt / nt + vc / nc) ^ 2 / (dt + dc)

/-- The returned dictionary (utils.py 983-994). -/
structure Tost (K : Type*) where
  diff : Option K
  se : Option K
  margin : Option K
  tLower : Option K
  tUpper : Option K
  pLower : Option K
  pUpper : Option K
  p : Option K
  df : Option K
  equivalent : Option Bool
  deriving DecidableEq

/-- The test on two lists of changes (utils.py 894-994). -/
def tost (r : K → K) (sf cdf : K → K → K) (ct cc : List K) (margin : Option K) : Tost K :=
  if ct.length < 2 ∨ cc.length < 2 then
    { diff := none, se := none, margin := none, tLower := none, tUpper := none, pLower := none, pUpper := none, p := none, df := none,
      equivalent := none }
  else if var1 ct = 0 ∧ var1 cc = 0 then
    { diff := some (mean ct - mean cc), se := some 0, margin := none, tLower := none, tUpper := none, pLower := none, pUpper := none,
      p := none, df := none, equivalent := none }
  else if r (var1 ct / ct.length + var1 cc / cc.length) = 0 then
    { diff := some (mean ct - mean cc), se := some 0, margin := none, tLower := none, tUpper := none, pLower := none, pUpper := none,
      p := none, df := none, equivalent := none }
  else
    let d := mean ct - mean cc
    let se := r (var1 ct / ct.length + var1 cc / cc.length)
    let m := margin.getD (1 / 2 * r (var1 (ct ++ cc)))
    let df := welch (var1 ct) (var1 cc) ct.length cc.length
    let pl := sf ((d + m) / se) df
    let pu := cdf ((d - m) / se) df
    { diff := some d, se := some se, margin := some m, tLower := some ((d + m) / se), tUpper := some ((d - m) / se), pLower := some pl,
      pUpper := some pu, p := some (max pl pu), df := some df, equivalent := some (decide (max pl pu < 1 / 20)) }

/-- `equivalence_test_trends` (utils.py 837-994). -/
def equivalenceTest (r : K → K) (sf cdf : K → K → K) (rows : List (Row K)) (byUnit : Bool) (pre : Option (List K)) (margin : Option K) :
    Tost K :=
  tost r sf cdf (changes (preRows rows pre) byUnit 1) (changes (preRows rows pre) byUnit 0) margin

/-! ### Distributional test -/

/-- The returned dictionary (utils.py 762-775), without the Kolmogorov-Smirnov entries. -/
structure Robust (K : Type*) where
  dist : Option K
  normalized : Option K
  p : Option K
  diff : Option K
  ratio : Option K
  plausible : Option Bool
  deriving DecidableEq

/-- One permuted distance (utils.py 734-737): `π` is the drawn permutation of the positions. -/
def permDist (wd : List K → List K → K) (all : List K) (nt : ℕ) (π : List ℕ) : K :=
  wd ((π.take nt).map (fun i => all.getD i 0)) ((π.drop nt).map (fun i => all.getD i 0))

/-- The test on two lists of changes (utils.py 710-775); without permutations the share is NaN. -/
def robust (r : K → K) (wd : List K → List K → K) (perms : List (List ℕ)) (thr : K) (ct cc : List K) : Robust K :=
  if ct.length < 2 ∨ cc.length < 2 then { dist := none, normalized := none, p := none, diff := none, ratio := none, plausible := none }
  else
    let w := wd ct cc
    let p := if perms = [] then none
      else some (((perms.filter (fun π => decide (w ≤ permDist wd (ct ++ cc) ct.length π))).length : K) / (perms.length : K))
    let sd := r (var1 (ct ++ cc))
    let nrm := if 0 < sd then some (w / sd) else none
    { dist := some w, normalized := nrm, p := p, diff := some (mean ct - mean cc)
      ratio := if 0 < var1 cc then some (var1 ct / var1 cc) else none
      plausible := some ((match p with
        | some p => decide (1 / 20 < p)
        | none => false) && (match nrm with
        | some x => decide (x < thr)
        | none => true)) }

/-- `check_parallel_trends_robust` (utils.py 619-775). -/
def robustTest (r : K → K) (wd : List K → List K → K) (perms : List (List ℕ)) (thr : K) (rows : List (Row K)) (byUnit : Bool)
    (pre : Option (List K)) : Robust K :=
  robust r wd perms thr (changes (preRows rows pre) byUnit 1) (changes (preRows rows pre) byUnit 0)

/-- `stats.wasserstein_distance` for two samples: the area between the two empirical distribution functions (scipy; given here as the
instance of the parameter `wd`). -/
def wasserstein (u v : List K) : K :=
  let s := (u ++ v).insertionSort (· ≤ ·)
  ((s.zip s.tail).map (fun x =>
    |((u.filter (fun a => decide (a ≤ x.1))).length : K) / (u.length : K) -
      ((v.filter (fun a => decide (a ≤ x.1))).length : K) / (v.length : K)| * (x.2 - x.1))).sum

end
end DiffDiff.Trends
