/-
Model of the pre-trends power analysis.
  /repo/diff_diff/pretrends.py 205-260 (power_at on results), 435-962 (PreTrendsPower)
Simplifications: real arithmetic; the chi-square quantile `ppf`, the survival function `sf` of the non-central
chi-square, the normal quantile `zppf`, the pseudo-inverse `pinv` and the root finder `brentq` are parameters;
estimates, standard errors and covariances are finite; covariate columns named like an interaction are left out.
-/
import Verif.HonestDid
import Mathlib.Analysis.SpecialFunctions.Sqrt
import Mathlib.LinearAlgebra.Matrix.NonsingularInverse
import Mathlib.Data.Matrix.Mul
import Mathlib.LinearAlgebra.Matrix.PosDef

namespace DiffDiff.Pretrends
open MultiPeriod (Col)
open HonestDid (Multi Event)
open scoped Matrix

inductive Err | badAlpha | badPower | noWeights | weightsLength | emptyPattern | noPre | noEstimated | noEventStudy
  deriving DecidableEq, Repr

/-- `violation_type` with `violation_weights` (pretrends.py 436-462). -/
inductive Pattern | linear | constant | lastPeriod | custom (w : List ℝ)

/-- Numerical routines of scipy and numpy used here. -/
structure Routines where
  ppf : ℝ → ℕ → ℝ
  sf : ℕ → ℝ → ℝ → ℝ
  zppf : ℝ → ℝ
  brentq : (ℝ → ℝ) → ℝ → ℝ → Option ℝ
  pinv : ∀ n, Matrix (Fin n) (Fin n) ℝ → Matrix (Fin n) (Fin n) ℝ

/-- Settings of the analysis. -/
structure Settings where
  alpha : ℝ
  target : ℝ
  pattern : Pattern

/-- `__init__` (pretrends.py 443-455); an unknown violation type is not representable here. -/
noncomputable def validate (alpha target : ℝ) (p : Option Pattern) : Except Err Settings :=
  if ¬ (0 < alpha ∧ alpha < 1) then .error .badAlpha
  else if ¬ (0 < target ∧ target < 1) then .error .badPower
  else match p with
    | none => .error .noWeights
    | some p => .ok ⟨alpha, target, p⟩

/-- Weights before scaling (pretrends.py 498-519). -/
noncomputable def raw (p : Pattern) (n : ℕ) : Except Err (Fin n → ℝ) :=
  match p with
  | .custom w => if h : w.length = n then .ok (fun i => w[i.1]'(by omega)) else .error .weightsLength
  | .linear => .ok (fun i => -(-(n : ℝ) + 1 + (i.1 : ℝ)))
  | .constant => .ok (fun _ => 1)
  | .lastPeriod => if n = 0 then .error .emptyPattern else .ok (fun i => if i.1 + 1 = n then 1 else 0)

/-- Euclidean norm. -/
noncomputable def norm {n : ℕ} (w : Fin n → ℝ) : ℝ := Real.sqrt (∑ i, w i ^ 2)

/-- Scaling to unit norm (pretrends.py 521-524). -/
noncomputable def normalise {n : ℕ} (w : Fin n → ℝ) : Fin n → ℝ := if 0 < norm w then fun i => w i / norm w else w

/-- `_get_violation_weights` (pretrends.py 484-526). -/
noncomputable def weights (p : Pattern) (n : ℕ) : Except Err (Fin n → ℝ) := (raw p n).map normalise

/-- Extracted pre-period estimates: effects, standard errors, covariance. -/
structure Pre (n : ℕ) where
  effects : Fin n → ℝ
  ses : Fin n → ℝ
  vcov : Matrix (Fin n) (Fin n) ℝ

/-- Pre-periods whose interaction is among the coefficients of a MultiPeriodDiD fit (pretrends.py 556-583): the name
searched for is `treated:period_p` whatever the treatment column is called. -/
def estimated (r : Multi ℝ) (override : Option (List ℤ)) : List ℤ :=
  (override.getD r.pre).filter (fun p => decide (r.treatment = "treated" ∧ Col.inter p ∈ r.cols))

/-- `_extract_pre_period_params` for MultiPeriodDiD with coefficients and covariance (pretrends.py 555-620). -/
noncomputable def extractMulti (r : Multi ℝ) (se : ℤ → ℝ) (override : Option (List ℤ)) :
    Except Err (Σ n : ℕ, Pre n) :=
  if (override.getD r.pre).length = 0 then .error .noPre
  else if (estimated r override).length = 0 then .error .noEstimated
  else .ok ⟨(estimated r override).length,
    { effects := fun i => r.coef (.inter (estimated r override)[i])
      ses := fun i => se (estimated r override)[i]
      vcov := fun i j => r.vcov (r.cols.idxOf (.inter (estimated r override)[i]))
        (r.cols.idxOf (.inter (estimated r override)[j])) }⟩

/-- Pre-period entries of an event study (pretrends.py 658-670, 685-697). -/
def preEvents (ev : List (Event ℝ)) : List (Event ℝ) :=
  (HonestDid.keptEvents ev).filter (fun e => decide (e.t < 0))

/-- `_extract_pre_period_params` for CallawaySantAnna and SunAbraham (pretrends.py 648-704): diagonal covariance. -/
noncomputable def extractEvents (ev : Option (List (Event ℝ))) : Except Err (Σ n : ℕ, Pre n) :=
  match ev with
  | none => .error .noEventStudy
  | some ev =>
    if (preEvents ev).length = 0 then .error .noPre
    else .ok ⟨(preEvents ev).length,
      { effects := fun i => (preEvents ev)[i].effect
        ses := fun i => (preEvents ev)[i].se.getD 0
        vcov := Matrix.diagonal (fun i => ((preEvents ev)[i].se.getD 0) ^ 2) }⟩

open Classical in
/-- Inverse of the covariance, pseudo-inverse when singular (pretrends.py 753-759, 248-251). -/
noncomputable def inverse (R : Routines) {n : ℕ} (V : Matrix (Fin n) (Fin n) ℝ) : Matrix (Fin n) (Fin n) ℝ :=
  if IsUnit V.det then V⁻¹ else R.pinv n V

/-- `w @ vcov_inv @ w`. -/
noncomputable def quad (R : Routines) {n : ℕ} (w : Fin n → ℝ) (V : Matrix (Fin n) (Fin n) ℝ) : ℝ :=
  w ⬝ᵥ (inverse R V *ᵥ w)

/-- Non-centrality of the violation `M * w` (pretrends.py 748-759). -/
noncomputable def noncentrality (R : Routines) {n : ℕ} (M : ℝ) (w : Fin n → ℝ) (V : Matrix (Fin n) (Fin n) ℝ) : ℝ :=
  quad R (M • w) V

/-- Power of `_compute_power` (pretrends.py 761-768). -/
noncomputable def power (R : Routines) (alpha : ℝ) {n : ℕ} (M : ℝ) (w : Fin n → ℝ) (V : Matrix (Fin n) (Fin n) ℝ) : ℝ :=
  if 0 < noncentrality R M w V then R.sf n (R.ppf (1 - alpha) n) (noncentrality R M w V) else alpha

/-- `power_minus_target` (pretrends.py 806-809). -/
noncomputable def excess (R : Routines) (alpha target : ℝ) (n : ℕ) (nc : ℝ) : ℝ :=
  if nc ≤ 0 then alpha - target else R.sf n (R.ppf (1 - alpha) n) nc - target

/-- Doubling of the upper bound (pretrends.py 811-817), at most `k` times. -/
noncomputable def expand (f : ℝ → ℝ) : ℕ → ℝ → ℝ
  | 0, h => h
  | k + 1, h => if f h < 0 ∧ h < 1000 then expand f k (2 * h) else h

/-- Non-centrality at which the target is reached; `none` stands for the early return of infinity
(pretrends.py 811-832). Ten doublings take the bound past 1000. -/
noncomputable def targetNc (R : Routines) (alpha target : ℝ) (n : ℕ) : Option ℝ :=
  let hi := expand (excess R alpha target n) 10 1
  if 1000 ≤ hi then none
  else match R.brentq (excess R alpha target n) 0 hi with
    | some x => some x
    | none => some ((1 / 2) * (R.zppf target + Real.sqrt (2 * R.ppf (1 - alpha) n)) ^ 2)

/-- Conversion to a magnitude (pretrends.py 834-848). -/
noncomputable def magnitude (R : Routines) {n : ℕ} (w : Fin n → ℝ) (V : Matrix (Fin n) (Fin n) ℝ) (nc : ℝ) : Ext ℝ :=
  if 0 < quad R w V then .fin (Real.sqrt (nc / quad R w V)) else .pinf

/-- `_compute_mdv` (pretrends.py 775-848). -/
noncomputable def mdv (R : Routines) (alpha target : ℝ) {n : ℕ} (w : Fin n → ℝ) (V : Matrix (Fin n) (Fin n) ℝ) :
    Ext ℝ :=
  match targetNc R alpha target n with
  | none => .pinf
  | some nc => magnitude R w V nc

/-- Fields of `PreTrendsPowerResults`. -/
structure Result (n : ℕ) where
  power : ℝ
  mdv : Ext ℝ
  M : ℝ
  settings : Settings
  testStat : ℝ
  critical : ℝ
  nc : ℝ
  pre : Pre n

/-- Largest standard error. -/
noncomputable def maxSe {n : ℕ} (ses : Fin n → ℝ) : ℝ :=
  ((List.ofFn ses).tail).foldl max ((List.ofFn ses).headD 0)

/-- Violation at which power is evaluated (pretrends.py 886-888). -/
noncomputable def chosenM {n : ℕ} (M : Option ℝ) (m : Ext ℝ) (ses : Fin n → ℝ) : ℝ :=
  match M with
  | some M => M
  | none => match m with
    | .fin x => x
    | _ => maxSe ses

/-- `fit` on extracted estimates (pretrends.py 877-910). -/
noncomputable def fit (R : Routines) (s : Settings) {n : ℕ} (pre : Pre n) (M : Option ℝ) : Except Err (Result n) :=
  match weights s.pattern n with
  | .error e => .error e
  | .ok w =>
    let m := mdv R s.alpha s.target w pre.vcov
    let M' := chosenM M m pre.ses
    .ok { power := power R s.alpha M' w pre.vcov, mdv := m, M := M', settings := s
          testStat := (n : ℝ) + noncentrality R M' w pre.vcov
          critical := R.ppf (1 - s.alpha) n
          nc := noncentrality R M' w pre.vcov, pre := pre }

/-- `power_adequate` (pretrends.py 112-115). -/
def adequate {n : ℕ} (r : Result n) : Prop := r.settings.target ≤ r.power

/-- Weights rebuilt by `power_at` on results (pretrends.py 226-245): a custom pattern is replaced by equal weights. -/
noncomputable def rebuilt (p : Pattern) (n : ℕ) : Fin n → ℝ :=
  normalise (match p with
    | .linear => fun i => -(-(n : ℝ) + 1 + (i.1 : ℝ))
    | .constant => fun _ => 1
    | .lastPeriod => fun i => if i.1 + 1 = n then 1 else 0
    | .custom _ => fun _ => 1)

/-- `PreTrendsPowerResults.power_at` (pretrends.py 205-260). -/
noncomputable def Result.powerAt (R : Routines) {n : ℕ} (r : Result n) (M : ℝ) : ℝ :=
  R.sf n r.critical (M ^ 2 * quad R (rebuilt r.settings.pattern n) r.pre.vcov)

/-- `PreTrendsPower.power_at` (pretrends.py 912-936): a fresh fit. -/
noncomputable def powerAt (R : Routines) (s : Settings) {n : ℕ} (pre : Pre n) (M : ℝ) : Except Err ℝ :=
  (fit R s pre (some M)).map Result.power

/-- Largest magnitude of the automatic grid (pretrends.py 974). -/
noncomputable def maxM {n : ℕ} (m : Ext ℝ) (ses : Fin n → ℝ) : ℝ :=
  min (match m with | .fin x => (5 / 2) * x | _ => 10 * maxSe ses) 100

/-- Automatic or given grid (pretrends.py 972-977); `np.linspace(0, max, k)`, which for `k = 1` is `[0]`. -/
noncomputable def grid {n : ℕ} (g : Option (List ℝ)) (m : Ext ℝ) (ses : Fin n → ℝ) (k : ℕ) : List ℝ :=
  match g with
  | some g => g
  | none => (List.range k).map (fun i : ℕ => (i : ℝ) * (maxM m ses / ((k - 1 : ℕ) : ℝ)))

/-- `power_curve` (pretrends.py 938-992): magnitudes with their power. -/
noncomputable def curve (R : Routines) (s : Settings) {n : ℕ} (pre : Pre n) (g : Option (List ℝ)) (k : ℕ) :
    Except Err (List (ℝ × ℝ)) :=
  match weights s.pattern n with
  | .error e => .error e
  | .ok w => .ok ((grid g (mdv R s.alpha s.target w pre.vcov) pre.ses k).map
      (fun M => (M, power R s.alpha M w pre.vcov)))

end DiffDiff.Pretrends
