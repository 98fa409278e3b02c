/-
Model of the Callaway-Sant'Anna estimator (panel data, one row per unit and period, time-invariant
first_treat).
  /repo/diff_diff/staggered.py 371-1080, /repo/diff_diff/staggered_aggregation.py 40-492
Simplifications: periods and finite cohorts are integers; a unit's first_treat is constant over time
(`groupby(...).first()`); standard errors are represented by their squares (`var`); dictionaries are
association lists in insertion order.
-/
import Verif.Prelude

namespace DiffDiff.CS

/-- Value of the first_treat column after `pd.to_numeric` (staggered.py 636): an integer, inf or NaN. -/
inductive Coh
  | num (z : ℤ)
  | inf
  | nan
  deriving DecidableEq, Repr

namespace Coh

/-- `g > 0` (staggered.py 644, 655). -/
def pos : Coh → Bool
  | num z => decide (0 < z)
  | inf => true
  | nan => false

/-- `(first_treat == 0) | (first_treat == np.inf)` (staggered.py 418, 647). -/
def isNever : Coh → Bool
  | num z => decide (z = 0)
  | inf => true
  | nan => false

/-- `unit_cohorts > t` (staggered.py 496). -/
def gtT (t : ℤ) : Coh → Bool
  | num z => decide (t < z)
  | inf => true
  | nan => false

/-- `t >= g - anticipation` (staggered.py 684, staggered_aggregation.py 71, 460). -/
def post (ant : ℤ) (g : Coh) (t : ℤ) : Bool :=
  match g with
  | num z => decide (z - ant ≤ t)
  | inf => false
  | nan => false

/-- `t < g - anticipation` (staggered.py 469, staggered_aggregation.py 71). -/
def pre (ant : ℤ) (g : Coh) (t : ℤ) : Bool :=
  match g with
  | num z => decide (t < z - ant)
  | inf => true
  | nan => false

/-- Order used by `sorted` on cohort values. NaN never reaches `sorted`. -/
def le : Coh → Coh → Bool
  | num a, num b => decide (a ≤ b)
  | num _, _ => true
  | inf, num _ => false
  | inf, _ => true
  | nan, nan => true
  | nan, _ => false

/-- `t - g` (staggered_aggregation.py 358): `-inf` (⊥) for an infinite cohort. -/
def rel (g : Coh) (t : ℤ) : WithBot ℤ :=
  match g with
  | num z => ((t - z : ℤ) : WithBot ℤ)
  | inf => ⊥
  | nan => ⊥

end Coh

inductive BaseMode | varying | universal deriving DecidableEq, Repr
inductive Ctl | never | notYet deriving DecidableEq, Repr
inductive Method | reg | ipw | dr deriving DecidableEq, Repr

structure Cfg where
  base : BaseMode
  ctl : Ctl
  ant : ℤ
  method : Method
  deriving DecidableEq

/-- The pivoted panel (staggered.py 396-409): cohort of each unit, the periods in the data in sorted order, and
the outcome matrix (`none` is NaN: missing row or missing value). -/
structure Panel (n : ℕ) (K : Type*) where
  cohort : Fin n → Coh
  times : List ℤ
  y : Fin n → ℤ → Option K

/-- What is stored for one (g,t): effect, squared standard error, counts, and the influence function per unit
(staggered.py 556-570). -/
structure Entry (n : ℕ) (K : Type*) where
  effect : K
  var : K
  nT : ℕ
  nC : ℕ
  treated : Finset (Fin n)
  control : Finset (Fin n)
  infT : Fin n → K
  infC : Fin n → K

variable {K : Type*} [Field K] [LinearOrder K] [IsStrictOrderedRing K]
variable {n : ℕ}

/-- `np.mean`. -/
def mean {ι : Type*} (S : Finset ι) (f : ι → K) : K := (∑ i ∈ S, f i) / (S.card : K)

/-- `np.var(x, ddof=1) if n > 1 else 0.0`. -/
def var1 {ι : Type*} (S : Finset ι) (f : ι → K) : K :=
  if 1 < S.card then (∑ i ∈ S, (f i - mean S f) ^ 2) / ((S.card : K) - 1) else 0

/-- Base period (staggered.py 464-474); `none` stands for the value inf, which is never a period. -/
def basePeriod (c : Cfg) (g : Coh) (t : ℤ) : Option ℤ :=
  let late : Option ℤ := match g with
    | .num z => some (z - 1 - c.ant)
    | _ => none
  match c.base with
  | .universal => late
  | .varying => if g.pre c.ant t then some (t - 1) else late

/-- Control units before the validity filter (staggered.py 490-496). -/
def controlMask (c : Cfg) (P : Panel n K) (g : Coh) (t : ℤ) (u : Fin n) : Bool :=
  match c.ctl with
  | .never => (P.cohort u).isNever
  | .notYet => (P.cohort u).isNever || ((P.cohort u).gtT t && decide (P.cohort u ≠ g))

/-- Both outcomes observed (staggered.py 506). -/
def validUnit (P : Panel n K) (b t : ℤ) (u : Fin n) : Bool := (P.y u b).isSome && (P.y u t).isSome

/-- `y_post - y_base` (staggered.py 503); only used for valid units. -/
def change (P : Panel n K) (b t : ℤ) (u : Fin n) : K := (P.y u t).getD 0 - (P.y u b).getD 0

def treatedSet (P : Panel n K) (g : Coh) (b t : ℤ) : Finset (Fin n) :=
  Finset.univ.filter (fun u => P.cohort u = g ∧ validUnit P b t u = true)

def controlSet (c : Cfg) (P : Panel n K) (g : Coh) (b t : ℤ) : Finset (Fin n) :=
  Finset.univ.filter (fun u => controlMask c P g t u = true ∧ validUnit P b t u = true)

/-- Estimation without covariates: `_outcome_regression` 880-892, `_ipw_estimation` 968-983 and
`_doubly_robust` 1064-1078. The three differ only in the variance. -/
def estimate (m : Method) (T C : Finset (Fin n)) (d : Fin n → K) : Entry n K where
  effect := mean T d - mean C d
  var :=
    let vt := var1 T d
    let vc := var1 C d
    let nt : K := T.card
    let nc : K := C.card
    match m with
    | .ipw => let p := nt / (nt + nc); vt / nt + vc * (1 - p) / (nc * p)
    | _ => vt / nt + vc / nc
  nT := T.card
  nC := C.card
  treated := T
  control := C
  infT := fun u => (d u - mean T d) / (T.card : K)
  infC := fun u => -((d u - mean C d) / (C.card : K))

/-- `_compute_att_gt_fast` without covariates (staggered.py 442-570). -/
def attGt (c : Cfg) (P : Panel n K) (g : Coh) (t : ℤ) : Option (Entry n K) :=
  match basePeriod c g t with
  | none => none
  | some b =>
    if b ∉ P.times then none
    else if t ∉ P.times then none
    else if (treatedSet P g b t).card = 0 ∨ (controlSet c P g b t).card = 0 then none
    else some (estimate c.method (treatedSet P g b t) (controlSet c P g b t) (change P b t))

/-- Treatment groups (staggered.py 644). -/
def groups (P : Panel n K) : List Coh :=
  (((List.finRange n).map P.cohort).dedup.filter Coh.pos).insertionSort (fun a b => Coh.le a b = true)

/-- Periods for which an effect of cohort g is attempted (staggered.py 672-685). `t > min_period` is written as
"some period is smaller". -/
def validPeriods (c : Cfg) (P : Panel n K) (g : Coh) : List ℤ :=
  match c.base with
  | .universal => P.times.filter (fun t =>
      match g with
      | .num z => decide (t ≠ z - 1 - c.ant)
      | _ => true)
  | .varying => P.times.filter (fun t => g.post c.ant t || P.times.any (fun s => decide (s < t)))

/-- `group_time_effects` together with the influence functions (staggered.py 668-708). -/
def effects (c : Cfg) (P : Panel n K) : List ((Coh × ℤ) × Entry n K) :=
  (groups P).flatMap (fun g => (validPeriods c P g).filterMap
    (fun t => (attGt c P g t).map (fun e => ((g, t), e))))

/-! ### Aggregation -/

/-- Weights `n_treated / sum(n_treated)` (staggered_aggregation.py 94-95, 398). -/
def sizeWeights (l : List ((Coh × ℤ) × Entry n K)) : List K :=
  l.map (fun x => (x.2.nT : K) / (l.map (fun z => (z.2.nT : K))).sum)

/-- Equal weights (staggered_aggregation.py 470). -/
def equalWeights (l : List ((Coh × ℤ) × Entry n K)) : List K := l.map (fun _ => 1 / (l.length : K))

/-- `np.sum(weights * effects)`. -/
def dot (w e : List K) : K := (List.zipWith (· * ·) w e).sum

/-- Keepers of the overall aggregation (staggered_aggregation.py 68-76). -/
def postPairs (ant : ℤ) (l : List ((Coh × ℤ) × Entry n K)) : List ((Coh × ℤ) × Entry n K) :=
  l.filter (fun x => ! x.1.1.pre ant x.1.2)

/-- `_aggregate_simple`, point estimate (staggered_aggregation.py 63-98); `none` is NaN. -/
def overall (ant : ℤ) (l : List ((Coh × ℤ) × Entry n K)) : Option K :=
  let k := postPairs ant l
  if k.length = 0 then none else some (dot (sizeWeights k) (k.map (fun x => x.2.effect)))

/-- Pairs contributing to the event study after the optional balance filter
(staggered_aggregation.py 354-387). -/
def esPairs (bal : Option ℤ) (l : List ((Coh × ℤ) × Entry n K)) : List ((Coh × ℤ) × Entry n K) :=
  match bal with
  | none => l
  | some b => l.filter (fun x => l.any (fun z => decide (z.1.1 = x.1.1) && decide (z.1.1.rel z.1.2 = (b : WithBot ℤ))))

/-- Relative times in sorted order (staggered_aggregation.py 392). -/
def relTimes (l : List ((Coh × ℤ) × Entry n K)) : List (WithBot ℤ) :=
  (l.map (fun x => x.1.1.rel x.1.2)).dedup.insertionSort (· ≤ ·)

def atRel (l : List ((Coh × ℤ) × Entry n K)) (e : WithBot ℤ) : List ((Coh × ℤ) × Entry n K) :=
  l.filter (fun x => decide (x.1.1.rel x.1.2 = e))

/-- `_aggregate_event_study`, effects and number of groups (staggered_aggregation.py 338-436). -/
def eventStudy (c : Cfg) (bal : Option ℤ) (l : List ((Coh × ℤ) × Entry n K)) : List (WithBot ℤ × (K × ℕ)) :=
  let s := esPairs bal l
  let es := (relTimes s).map (fun e =>
    (e, (dot (sizeWeights (atRel s e)) ((atRel s e).map (fun x => x.2.effect)), (atRel s e).length)))
  let ref : WithBot ℤ := ((-1 - c.ant : ℤ) : WithBot ℤ)
  match c.base with
  | .varying => es
  | .universal => if es ≠ [] ∧ ref ∉ es.map Prod.fst then es ++ [(ref, (0, 0))] else es

/-- Pairs of cohort g entering its group effect (staggered_aggregation.py 457-464). -/
def groupPairs (ant : ℤ) (l : List ((Coh × ℤ) × Entry n K)) (g : Coh) : List ((Coh × ℤ) × Entry n K) :=
  l.filter (fun x => decide (x.1.1 = g) && g.post ant x.1.2)

/-- `_aggregate_by_group` (staggered_aggregation.py 438-492). -/
def groupEffects (ant : ℤ) (gs : List Coh) (l : List ((Coh × ℤ) × Entry n K)) : List (Coh × (K × ℕ)) :=
  gs.filterMap (fun g =>
    let k := groupPairs ant l g
    if k.length = 0 then none
    else some (g, (dot (equalWeights k) (k.map (fun x => x.2.effect)), k.length)))

/-! ### Fit -/

inductive Err | noNever | noEffects deriving DecidableEq, Repr

structure Results (n : ℕ) (K : Type*) where
  groups : List Coh
  nTreated : ℕ
  nControl : ℕ
  effects : List ((Coh × ℤ) × Entry n K)
  overall : Option K
  event : List (WithBot ℤ × (K × ℕ))
  group : List (Coh × (K × ℕ))

/-- `fit` without covariates, `aggregate="all"` (staggered.py 643-733). Bootstrap and inference are modelled
separately. -/
def fit (c : Cfg) (bal : Option ℤ) (P : Panel n K) : Except Err (Results n K) :=
  let nc := (Finset.univ.filter (fun u => (P.cohort u).isNever = true)).card
  if nc = 0 then .error .noNever
  else if (effects c P).length = 0 then .error .noEffects
  else .ok
    { groups := groups P
      nTreated := (Finset.univ.filter (fun u => (P.cohort u).pos = true)).card
      nControl := nc
      effects := effects c P
      overall := overall c.ant (effects c P)
      event := eventStudy c bal (effects c P)
      group := groupEffects c.ant (groups P) (effects c P) }

/-! ### Influence functions -/

/-- Contribution of unit u to one (g,t). -/
def psi (e : Entry n K) (u : Fin n) : K :=
  (if u ∈ e.treated then e.infT u else 0) + (if u ∈ e.control then e.infC u else 0)

/-- Aggregated influence function (staggered_aggregation.py 144-162). -/
def aggPsi (w : List K) (l : List (Entry n K)) (u : Fin n) : K :=
  (List.zipWith (fun a e => a * psi e u) w l).sum

/-- Square of `_compute_aggregated_se` (staggered_aggregation.py 164-166). Units outside `all_units` contribute
zero, so the sum runs over all units. -/
def aggVar (w : List K) (l : List (Entry n K)) : K := ∑ u, aggPsi w l u ^ 2

/-- Units used by some pair (staggered_aggregation.py 200-213). -/
def allUnits (l : List (Entry n K)) : Finset (Fin n) :=
  Finset.univ.filter (fun u => ∃ e ∈ l, u ∈ e.treated ∨ u ∈ e.control)

/-- `pg` of the cohort of a keeper (staggered_aggregation.py 220-233). -/
def pg (P : Panel n K) (N : ℕ) (g : Coh) : K :=
  ((Finset.univ.filter (fun u => P.cohort u = g)).card : K) / (N : K)

/-- Weight influence function of unit u (staggered_aggregation.py 284-328). -/
def wif (P : Panel n K) (N : ℕ) (k : List (Coh × K)) (u : Fin n) : K :=
  let S := (k.map (fun x => pg (K := K) P N x.1)).sum
  let ind : Coh → K := fun g => if P.cohort u = g then 1 else 0
  let indSum := (k.map (fun x => ind x.1 - pg P N x.1)).sum
  (k.map (fun x => ((ind x.1 - pg P N x.1) / S - indSum * pg P N x.1 / S ^ 2) * x.2)).sum

/-- Square of `_compute_aggregated_se_with_wif` (staggered_aggregation.py 168-336) for the overall effect;
0 when there are no units or all group shares are 0. -/
def overallVar (ant : ℤ) (P : Panel n K) (l : List ((Coh × ℤ) × Entry n K)) : K :=
  let k := postPairs ant l
  let es := k.map Prod.snd
  let A := allUnits es
  let keep := k.map (fun x => (x.1.1, x.2.effect))
  if A.card = 0 then 0
  else if (keep.map (fun x => pg (K := K) P A.card x.1)).sum = 0 then 0
  else ∑ u ∈ A, (aggPsi (sizeWeights k) es u + wif P A.card keep u / (A.card : K)) ^ 2

/-- One bootstrap draw of ATT(g,t) (staggered_bootstrap.py 390-411). -/
def bootAtt (w : Fin n → K) (e : Entry n K) : K :=
  e.effect + (∑ u ∈ e.treated, w u * e.infT u + ∑ u ∈ e.control, w u * e.infC u)

/-- One bootstrap draw of an aggregate (staggered_bootstrap.py 420, 436, 451). -/
def bootAgg (w : Fin n → K) (a : List K) (l : List (Entry n K)) : K := dot a (l.map (bootAtt w))

/-! ### Covariate-adjusted estimation -/

/-- `X_with_intercept @ beta` for one unit; a NaN coefficient (dropped column) makes the product NaN. -/
def predict {k : ℕ} (beta : Fin (k + 1) → Option K) (x : Fin k → K) : Option K :=
  if ∀ j, (beta j).isSome then
    some ((beta 0).getD 0 + ∑ j : Fin k, x j * (beta j.succ).getD 0)
  else none

/-- `_outcome_regression` with covariates (staggered.py 850-878), point estimate. `m` are the predictions. -/
def regCov (T : Finset (Fin n)) (d m : Fin n → K) : K := mean T (fun u => d u - m u)

/-- ATT of the covariate branch of `_outcome_regression` for coefficients possibly containing NaN. -/
def regCovAtt {k : ℕ} (T : Finset (Fin n)) (d : Fin n → K) (X : Fin n → Fin k → K)
    (beta : Fin (k + 1) → Option K) : Option K :=
  if ∀ u ∈ T, (predict beta (X u)).isSome then
    some (regCov T d (fun u => (predict beta (X u)).getD 0))
  else none

/-- `np.clip(p, 0.01, 0.99)`. -/
def clip (p : K) : K := max (1/100) (min (99/100) p)

/-- `p / (1 - p)` after clipping (staggered.py 944, 949, 1040, 1043). -/
def odds (p : K) : K := clip p / (1 - clip p)

/-- Normalised weights (staggered.py 949-950). -/
def ipwWeight (C : Finset (Fin n)) (ps : Fin n → K) (u : Fin n) : K := odds (ps u) / ∑ v ∈ C, odds (ps v)

/-- `_ipw_estimation` with covariates, point estimate (staggered.py 953). `ps` are the fitted propensity scores. -/
def ipwCov (T C : Finset (Fin n)) (d ps : Fin n → K) : K :=
  mean T d - ∑ u ∈ C, ipwWeight C ps u * d u

/-- `_doubly_robust` with covariates, point estimate (staggered.py 1042-1053). -/
def drCov (T C : Finset (Fin n)) (d m ps : Fin n → K) : K :=
  mean T (fun u => d u - m u) + (∑ u ∈ C, odds (ps u) * (m u - d u)) / (T.card : K)

/-- Influence functions with covariates (staggered.py 876-879, 964-967, 1056-1065): (treated, control). -/
def infReg (T C : Finset (Fin n)) (d m : Fin n → K) : (Fin n → K) × (Fin n → K) :=
  (fun u => (d u - m u - mean T (fun v => d v - m v)) / (T.card : K), fun u => -(d u - m u) / (C.card : K))

def infIpw (T C : Finset (Fin n)) (d ps : Fin n → K) : (Fin n → K) × (Fin n → K) :=
  (fun u => (d u - mean T d) / (T.card : K),
   fun u => -(ipwWeight C ps u) * (d u - ∑ v ∈ C, ipwWeight C ps v * d v))

def infDr (T C : Finset (Fin n)) (d m ps : Fin n → K) : (Fin n → K) × (Fin n → K) :=
  (fun u => (d u - m u - drCov T C d m ps) / (T.card : K),
   fun u => odds (ps u) * (m u - d u) / (T.card : K))

end DiffDiff.CS
