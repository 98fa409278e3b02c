/-
Model of the synthetic data generators.
  /repo/diff_diff/prep_dgp.py 15-777
The random generator is a parameter: `z k` is the k-th standard normal draw, consumed in the order in which the code
draws, and `rng.normal(0, sd)` is `sd * z k`. `rng.choice` results are a separate sequence. Numbers of units, periods and
observations are natural numbers; arithmetic is exact, in particular in `int(n_units * fraction)`.
-/
import Mathlib.Algebra.Order.Floor.Ring
import Mathlib.Data.List.Basic
import Mathlib.Algebra.Order.Field.Basic
import Mathlib.Data.List.Dedup
import Mathlib.Algebra.BigOperators.Group.List.Basic

namespace DiffDiff.Dgp

variable {K : Type*} [Field K] [LinearOrder K] [IsStrictOrderedRing K] [FloorRing K]

/-- `int(x)`: truncation towards zero. -/
def trunc (x : K) : ℤ := if 0 ≤ x then ⌊x⌋ else ⌈x⌉

/-- The loops `for unit in range(n_units): for period in range(n_periods)` (prep_dgp.py 93-96, 233-237, 377-380, 628-632,
745-749): the cells in the order in which the rows are appended. -/
def cells (n T : ℕ) : List (ℕ × ℕ) := (List.range n).flatMap fun u => (List.range T).map fun t => (u, t)

/-- One record of `generate_did_data`, `generate_panel_data` and `generate_event_study_data`; `eventTime` is present in
the last only. -/
structure Row (K : Type*) where
  unit : ℕ
  period : ℕ
  treated : Bool
  post : Bool
  outcome : K
  eventTime : ℤ
  trueEffect : K
  deriving DecidableEq

/-! ### generate_did_data (prep_dgp.py 15-122) -/

structure DidCfg (K : Type*) where
  nUnits : ℕ
  nPeriods : ℕ
  effect : K
  fraction : K
  treatPeriod : ℤ
  feSd : K
  trend : K
  noiseSd : K

/-- `n_treated = int(n_units * treatment_fraction)` (prep_dgp.py 85). -/
def DidCfg.nTreated (c : DidCfg K) : ℤ := trunc ((c.nUnits : K) * c.fraction)

/-- One pass of the inner loop (prep_dgp.py 94-120). All unit effects are drawn first (89), then one noise draw per row,
so row (u, t) uses draw number n_units + u * n_periods + t. -/
def didRow (c : DidCfg K) (z : ℕ → K) (x : ℕ × ℕ) : Row K :=
  let isTreated : Bool := decide ((x.1 : ℤ) < c.nTreated)
  let isPost : Bool := decide (c.treatPeriod ≤ (x.2 : ℤ))
  let y := 10 + c.feSd * z x.1 + c.trend * (x.2 : K)
  let effect := if isTreated && isPost then c.effect else 0
  let noise := c.noiseSd * z (c.nUnits + (x.1 * c.nPeriods + x.2))
  { unit := x.1, period := x.2, treated := isTreated, post := isPost, outcome := y + effect + noise,
    eventTime := 0, trueEffect := effect }

/-- `generate_did_data`. -/
def generateDid (c : DidCfg K) (z : ℕ → K) : List (Row K) := (cells c.nUnits c.nPeriods).map (didRow c z)

/-! ### generate_panel_data (prep_dgp.py 542-665) -/

structure PanelCfg (K : Type*) where
  nUnits : ℕ
  nPeriods : ℕ
  treatPeriod : ℤ
  fraction : K
  effect : K
  parallel : Bool
  violation : K
  feSd : K
  noiseSd : K

inductive Err | periodTooSmall | periodTooLarge | cohort (cp : ℤ) | noCohorts | shape | tooManyTreated | noTreated
  deriving DecidableEq, Repr

/-- `n_treated` (prep_dgp.py 625). -/
def PanelCfg.nTreated (c : PanelCfg K) : ℤ := trunc ((c.nUnits : K) * c.fraction)

/-- One pass of the inner loop (prep_dgp.py 629-663). The unit effect is drawn at the start of the unit's pass (630), so
every unit uses n_periods + 1 consecutive draws. -/
def panelRow (c : PanelCfg K) (z : ℕ → K) (x : ℕ × ℕ) : Row K :=
  let isTreated : Bool := decide ((x.1 : ℤ) < c.nTreated)
  let fe := c.feSd * z (x.1 * (c.nPeriods + 1))
  let post : Bool := decide (c.treatPeriod ≤ (x.2 : ℤ))
  let timeEffect : K := if c.parallel then (x.2 : K) * 1
    else if isTreated then (x.2 : K) * (1 + c.violation) else (x.2 : K) * 1
  let y := 10 + fe + timeEffect
  let effect := if isTreated && post then c.effect else 0
  let noise := c.noiseSd * z (x.1 * (c.nPeriods + 1) + 1 + x.2)
  { unit := x.1, period := x.2, treated := isTreated, post := post, outcome := y + effect + noise,
    eventTime := 0, trueEffect := effect }

/-- `generate_panel_data`, with its two checks (prep_dgp.py 620-623). -/
def generatePanel (c : PanelCfg K) (z : ℕ → K) : Except Err (List (Row K)) :=
  if c.treatPeriod < 1 then .error .periodTooSmall
  else if (c.nPeriods : ℤ) ≤ c.treatPeriod then .error .periodTooLarge
  else .ok ((cells c.nUnits c.nPeriods).map (panelRow c z))

/-! ### generate_event_study_data (prep_dgp.py 668-777) -/

structure EventCfg (K : Type*) where
  nUnits : ℕ
  nPre : ℕ
  nPost : ℕ
  fraction : K
  effect : K
  feSd : K
  noiseSd : K

/-- `n_treated` (prep_dgp.py 742). -/
def EventCfg.nTreated (c : EventCfg K) : ℤ := trunc ((c.nUnits : K) * c.fraction)

/-- One pass of the inner loop (prep_dgp.py 746-775). -/
def eventRow (c : EventCfg K) (z : ℕ → K) (x : ℕ × ℕ) : Row K :=
  let isTreated : Bool := decide ((x.1 : ℤ) < c.nTreated)
  let fe := c.feSd * z (x.1 * (c.nPre + c.nPost + 1))
  let post : Bool := decide (c.nPre ≤ x.2)
  let y := 10 + fe + (x.2 : K) * (1 / 2)
  let effect := if isTreated && post then c.effect else 0
  let noise := c.noiseSd * z (x.1 * (c.nPre + c.nPost + 1) + 1 + x.2)
  { unit := x.1, period := x.2, treated := isTreated, post := post, outcome := y + effect + noise,
    eventTime := (x.2 : ℤ) - (c.nPre : ℤ), trueEffect := effect }

/-- `generate_event_study_data`. -/
def generateEvent (c : EventCfg K) (z : ℕ → K) : List (Row K) := (cells c.nUnits (c.nPre + c.nPost)).map (eventRow c z)

/-! ### generate_staggered_data (prep_dgp.py 125-267) -/

structure StagCfg (K : Type*) where
  nUnits : ℕ
  nPeriods : ℕ
  cohorts : Option (List ℤ)
  neverFrac : K
  effect : K
  dynamic : Bool
  growth : K
  feSd : K
  trend : K
  noiseSd : K

/-- One record of `generate_staggered_data` (prep_dgp.py 257-265). -/
structure SRow (K : Type*) where
  unit : ℕ
  period : ℕ
  outcome : K
  firstTreat : ℤ
  treated : Bool
  treat : Bool
  trueEffect : K
  deriving DecidableEq

/-- Cohort periods with their default (prep_dgp.py 208-209). -/
def StagCfg.cohortPeriods (c : StagCfg K) : List ℤ :=
  match c.cohorts with
  | some l => l
  | none => if 8 ≤ c.nPeriods then [3, 5, 7] else [(c.nPeriods : ℤ) / 3, 2 * (c.nPeriods : ℤ) / 3]

/-- `n_never` (prep_dgp.py 219). -/
def StagCfg.nNever (c : StagCfg K) : ℤ := trunc ((c.nUnits : K) * c.neverFrac)

/-- `first_treat` (prep_dgp.py 220-226): zero for the first `n_never` units; `ch j` is the j-th index returned by
`rng.choice(len(cohort_periods), size=n_treated)`, below the number of cohorts. -/
def firstTreat (c : StagCfg K) (ch : ℕ → ℕ) (u : ℕ) : ℤ :=
  if (u : ℤ) < c.nNever then 0
  else c.cohortPeriods.getD (ch (u - c.nNever.toNat) % c.cohortPeriods.length) 0

/-- One pass of the inner loop (prep_dgp.py 234-265). -/
def stagRow (c : StagCfg K) (ch : ℕ → ℕ) (z : ℕ → K) (x : ℕ × ℕ) : SRow K :=
  let ft := firstTreat c ch x.1
  let ever : Bool := decide (0 < ft)
  let isTreated : Bool := ever && decide (ft ≤ (x.2 : ℤ))
  let y := 10 + c.feSd * z x.1 + c.trend * (x.2 : K)
  let since : ℤ := (x.2 : ℤ) - ft
  let effect : K := if isTreated then (if c.dynamic then c.effect * (1 + c.growth * (since : K)) else c.effect) else 0
  let noise := c.noiseSd * z (c.nUnits + (x.1 * c.nPeriods + x.2))
  { unit := x.1, period := x.2, outcome := y + effect + noise, firstTreat := ft, treated := isTreated, treat := ever,
    trueEffect := effect }

/-- `generate_staggered_data`. Errors: a cohort period outside 1..n_periods-1 (prep_dgp.py 212-216), `rng.choice(0, ...)`
for an empty list of cohorts with treated units (225), and the slice assignment of 226 when `n_never` is negative (the
list is then longer than the slice). -/
def generateStag (c : StagCfg K) (ch : ℕ → ℕ) (z : ℕ → K) : Except Err (List (SRow K)) :=
  match c.cohortPeriods.find? (fun cp => decide (cp < 1 ∨ (c.nPeriods : ℤ) ≤ cp)) with
  | some cp => .error (.cohort cp)
  | none =>
    if c.nNever < (c.nUnits : ℤ) ∧ c.cohortPeriods = [] then .error .noCohorts
    else if c.nNever < 0 then .error .shape
    else .ok ((cells c.nUnits c.nPeriods).map (stagRow c ch z))

/-! ### generate_factor_data (prep_dgp.py 270-407) -/

structure FactorCfg (K : Type*) where
  nUnits : ℕ
  nPre : ℕ
  nPost : ℕ
  nTreated : ℤ
  nFactors : ℕ
  effect : K
  strength : K
  shift : K
  feSd : K
  noiseSd : K

/-- One record of `generate_factor_data` (prep_dgp.py 398-405). -/
structure FRow (K : Type*) where
  unit : ℕ
  period : ℕ
  outcome : K
  treated : Bool
  treat : Bool
  trueEffect : K
  deriving DecidableEq

def FactorCfg.nPeriods (c : FactorCfg K) : ℕ := c.nPre + c.nPost

/-- `F[t, k]` (prep_dgp.py 361), filled row by row. -/
def factor (c : FactorCfg K) (z : ℕ → K) (t k : ℕ) : K := z (t * c.nFactors + k)

/-- `Lambda[k, i]` with the shift of the treated units (prep_dgp.py 365-366). -/
def loading (c : FactorCfg K) (z : ℕ → K) (k i : ℕ) : K :=
  z (c.nPeriods * c.nFactors + (k * c.nUnits + i)) + if (i : ℤ) < c.nTreated then c.shift else 0

/-- `alpha[i]` (prep_dgp.py 369-370). -/
def alpha (c : FactorCfg K) (z : ℕ → K) (i : ℕ) : K :=
  c.feSd * z (c.nPeriods * c.nFactors + c.nFactors * c.nUnits + i) + if (i : ℤ) < c.nTreated then 1 else 0

/-- `np.linspace(0, 2, n)[t]` (prep_dgp.py 373); a single point is 0. -/
def linspace (n t : ℕ) : K := if n ≤ 1 then 0 else (t : K) * (2 / ((n : K) - 1))

/-- `Lambda[:, i] @ F[t, :]` (prep_dgp.py 387). -/
def interactive (c : FactorCfg K) (z : ℕ → K) (i t : ℕ) : K :=
  ((List.range c.nFactors).map fun k => loading c z k i * factor c z t k).sum

/-- One pass of the inner loop (prep_dgp.py 378-405). -/
def factorRow (c : FactorCfg K) (z : ℕ → K) (x : ℕ × ℕ) : FRow K :=
  let ever : Bool := decide ((x.1 : ℤ) < c.nTreated)
  let post : Bool := decide (c.nPre ≤ x.2)
  let y := 10 + alpha c z x.1 + linspace c.nPeriods x.2 + c.strength * interactive c z x.1 x.2
  let effect := if ever && post then c.effect else 0
  let noise := c.noiseSd * z (c.nPeriods * c.nFactors + c.nFactors * c.nUnits + c.nUnits + (x.1 * c.nPeriods + x.2))
  { unit := x.1, period := x.2, outcome := y + effect + noise, treated := ever && post, treat := ever,
    trueEffect := effect }

/-- `generate_factor_data` with its checks (prep_dgp.py 355-358). -/
def generateFactor (c : FactorCfg K) (z : ℕ → K) : Except Err (List (FRow K)) :=
  if (c.nUnits : ℤ) < c.nTreated then .error .tooManyTreated
  else if c.nTreated < 1 then .error .noTreated
  else .ok ((cells c.nUnits c.nPeriods).map (factorRow c z))

/-! ### generate_ddd_data (prep_dgp.py 410-539) -/

structure DddCfg (K : Type*) where
  nPerCell : ℕ
  effect : K
  group : K
  partition : K
  time : K
  noiseSd : K
  covariates : Bool

/-- One record (prep_dgp.py 523-534); age and education are columns only with `add_covariates`. -/
structure DRow (K : Type*) where
  outcome : K
  group : Bool
  partition : Bool
  time : Bool
  unitId : ℕ
  trueEffect : K
  age : Option K
  education : Option K
  deriving DecidableEq

/-- 0/1 as a number. -/
def num (b : Bool) : K := if b then 1 else 0

/-- The eight cells in loop order (prep_dgp.py 495-497). -/
def dddCells : List (Bool × Bool × Bool) :=
  [false, true].flatMap fun g => [false, true].flatMap fun p => [false, true].map fun t => (g, p, t)

/-- One pass of the innermost loop (prep_dgp.py 500-534); `i` is the running `unit_id`. Age and noise are the two normal
draws of the pass, `ed i` the education returned by `rng.choice`. -/
def dddRow (c : DddCfg K) (z ed : ℕ → K) (i : ℕ) (x : Bool × Bool × Bool) : DRow K :=
  let g : K := num x.1
  let p : K := num x.2.1
  let t : K := num x.2.2
  let y := 50 + c.group * g + c.partition * p + c.time * t + 3 / 2 * g * p + 1 * g * t + 1 / 2 * p * t
  let effect := if x.1 && x.2.1 && x.2.2 then c.effect else 0
  let age := 40 + 10 * z (2 * i)
  let cov := if c.covariates then 1 / 10 * age + 1 / 2 * ed i else 0
  { outcome := y + effect + cov + c.noiseSd * z (2 * i + 1), group := x.1, partition := x.2.1, time := x.2.2,
    unitId := i, trueEffect := effect, age := if c.covariates then some age else none,
    education := if c.covariates then some (ed i) else none }

/-- `generate_ddd_data`. -/
def generateDdd (c : DddCfg K) (z ed : ℕ → K) : List (DRow K) :=
  (dddCells.flatMap fun x => List.replicate c.nPerCell x).mapIdx (fun i x => dddRow c z ed i x)

end DiffDiff.Dgp
