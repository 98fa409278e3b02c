/-
Model of simulation-based power analysis.
  /repo/diff_diff/power.py 178-235 (SimulationPowerResults), 895-1209 (simulate_power).
Simplifications: exact arithmetic in an ordered field, NaN is `none`; the data generator and the estimator are one parameter `run`
giving, for the position of a simulation in the random stream and an effect size, what happens; standard error and interval
attributes are numbers when present, so the four attributes are read before anything is recorded; progress output is left out;
`n_simulations` is not negative.
-/
import Verif.Prelude

namespace DiffDiff.SimPower

/-- The result attributes read by the loop (power.py 1129-1132). Outer `none`: the attribute does not exist. Inner `none`: NaN. -/
structure Res (K : Type*) where
  att : Option (Option K)
  avgAtt : Option (Option K)
  se : Option (Option K)
  avgSe : Option (Option K)
  p : Option (Option K)
  avgP : Option (Option K)
  ci : Option (Option K × Option K)
  avgCi : Option (Option K × Option K)

/-- What one simulation does (power.py 1058-1126). -/
inductive Run (K : Type*)
  /-- the data generator raises, outside the `try` -/
  | generatorError
  /-- the estimator raises -/
  | fitError
  | result (r : Res K)

/-- The values kept from a simulation (power.py 1134-1138). -/
structure Out (K : Type*) where
  est : Option K
  se : Option K
  p : Option K
  lo : Option K
  hi : Option K

/-- Attribute lookup `x if hasattr(..) else avg_x` (power.py 1129-1132); `none` is an AttributeError. -/
def extract {K : Type*} (r : Res K) : Option (Out K) :=
  (r.att <|> r.avgAtt).bind fun a =>
  (r.se <|> r.avgSe).bind fun s =>
  (r.p <|> r.avgP).bind fun p =>
  (r.ci <|> r.avgCi).bind fun c => some { est := a, se := s, p := p, lo := c.1, hi := c.2 }

/-- Ways `simulate_power` fails: the generator's exception (1060), `n_failures / 0` (1148), all simulations failed (1157),
no effect sizes (1041). -/
inductive Err | generator | zeroDivision | allFailed | index deriving DecidableEq, Repr

/-- Arguments of `simulate_power` (power.py 895-912) that matter here. -/
structure Input (K : Type*) where
  nSim : ℕ
  alpha : K
  effect : K
  effects : Option (List K)
  /-- position in the random stream, effect size -/
  run : ℕ → K → Run K

section
variable {K : Type*} [Field K] [LinearOrder K]

/-- `p_val < alpha`, false for NaN (power.py 1137). -/
def rejects (alpha : K) (o : Out K) : Bool := match o.p with
  | some p => decide (p < alpha)
  | none => false

/-- `ci[0] <= effect <= ci[1]`, false for NaN (power.py 1138). -/
def covers (effect : K) (o : Out K) : Bool := match o.lo, o.hi with
  | some a, some b => decide (a ≤ effect) && decide (effect ≤ b)
  | _, _ => false

/-- The values appended by one simulation: nothing when it fails (power.py 1071-1145). -/
def kept : Run K → Option (Out K)
  | .result r => extract r
  | _ => none

/-- Does the generator raise? It is called outside the `try` (power.py 1060-1069). -/
def isGenError : Run K → Bool
  | .generatorError => true
  | _ => false

/-- The simulations of one effect size (power.py 1053-1069); the random stream continues over effect sizes. -/
def runsOf (I : Input K) (idx : ℕ) (e : K) : List (Run K) := (List.range I.nSim).map (fun s => I.run (idx * I.nSim + s) e)

/-- Recorded simulations of one effect size (power.py 1134-1145). -/
def outsOf (I : Input K) (idx : ℕ) (e : K) : List (Out K) := (runsOf I idx e).filterMap kept

/-- One effect size (power.py 1046-1157). -/
def evalEffect (I : Input K) (e : K) (idx : ℕ) : Except Err (List (Out K)) :=
  if (runsOf I idx e).any isGenError then .error .generator
  else if I.nSim = 0 then .error .zeroDivision
  else if outsOf I idx e = [] then .error .allFailed
  else .ok (outsOf I idx e)

/-- `np.mean(rejections)` (power.py 1160). -/
def powerOf (alpha : K) (l : List (Out K)) : K := ((l.filter (rejects alpha)).length : K) / (l.length : K)

/-- `np.isclose(es, treatment_effect)` (power.py 1035). -/
def isClose (a b : K) : Bool := decide (|a - b| ≤ 1 / 10 ^ 8 + 1 / 10 ^ 5 * |b|)

/-- `effect_sizes` (power.py 1022-1023). -/
def effectsOf (I : Input K) : List K := I.effects.getD [I.effect]

/-- `primary_idx` (power.py 1029-1039). -/
def primaryIdx (I : Input K) : ℕ :=
  if (effectsOf I).length = 1 then 0
  else ((effectsOf I).findIdx? (fun e => isClose e I.effect)).getD ((effectsOf I).length - 1)

/-- `np.mean`; missing if an entry is (power.py 1184, 1186). -/
def meanO (l : List (Option K)) : Option K := (l.mapM id).map (fun xs => xs.sum / (xs.length : K))

/-- `np.std(.., ddof=1)`; missing for a single value (power.py 1185). -/
def stdO (r : K → K) (l : List (Option K)) : Option K :=
  (l.mapM id).bind (fun xs =>
    if xs.length = 1 then none
    else some (r ((xs.map (fun x => (x - xs.sum / (xs.length : K)) ^ 2)).sum / ((xs.length : K) - 1))))

/-- `SimulationPowerResults` (power.py 214-235). -/
structure Result (K : Type*) where
  power : K
  powerSe : K
  ciLo : K
  ciHi : K
  meanEst : Option K
  stdEst : Option K
  meanSe : Option K
  coverage : K
  nSim : ℕ
  effects : List K
  powers : List K
  trueEffect : K
  bias : Option K
  rmse : Option K
  deriving DecidableEq

/-- The loop over effect sizes (power.py 1043-1171): the first error ends it. -/
def evalAll (I : Input K) : List K → ℕ → Except Err (List (List (Out K)))
  | [], _ => .ok []
  | e :: es, k => match evalEffect I e k with
    | .error x => .error x
    | .ok o => match evalAll I es (k + 1) with
      | .error x => .error x
      | .ok os => .ok (o :: os)

/-- The summary of the primary effect (power.py 1173-1209, 232-235). `r` is the square root, `z` the 0.975 normal quantile. -/
def summarise (r : K → K) (z : K) (I : Input K) (e : K) (l : List (Out K)) (all : List (List (Out K))) : Result K :=
  let pw := powerOf I.alpha l
  let se := r (pw * (1 - pw) / (l.length : K))
  let m := meanO (l.map Out.est)
  let s := stdO r (l.map Out.est)
  { power := pw
    powerSe := se
    ciLo := max 0 (pw - z * se)
    ciHi := min 1 (pw + z * se)
    meanEst := m
    stdEst := s
    meanSe := meanO (l.map Out.se)
    coverage := ((l.filter (covers e)).length : K) / (l.length : K)
    nSim := l.length
    effects := effectsOf I
    powers := all.map (powerOf I.alpha)
    trueEffect := e
    bias := m.map (· - e)
    rmse := m.bind (fun m => s.map (fun s => r ((m - e) ^ 2 + s ^ 2))) }

/-- `simulate_power` (power.py 895-1209). An empty list of effect sizes fails at `effect_sizes[-1]`. -/
def simulate (r : K → K) (z : K) (I : Input K) : Except Err (Result K) :=
  match (effectsOf I)[primaryIdx I]? with
  | none => .error .index
  | some e => match evalAll I (effectsOf I) 0 with
    | .error x => .error x
    | .ok all => match all[primaryIdx I]? with
      | none => .error .index
      | some l => .ok (summarise r z I e l all)

/-! ### Result classes -/

/-- The kinds of result attributes of the package's estimators (results.py 42-46, 285-289, 521-525; triple_diff.py 91-95;
trop.py 148-152; staggered_results.py 97-101; sun_abraham.py 67-71). -/
inductive Kind | plain | average | overall deriving DecidableEq, Repr

/-- Attributes of a result of a given kind with the given values: `overall_*` is not looked up. -/
def ofKind (k : Kind) (o : Out K) : Res K :=
  match k with
  | .plain => { att := some o.est, avgAtt := none, se := some o.se, avgSe := none, p := some o.p, avgP := none,
                ci := some (o.lo, o.hi), avgCi := none }
  | .average => { att := none, avgAtt := some o.est, se := none, avgSe := some o.se, p := none, avgP := some o.p,
                  ci := none, avgCi := some (o.lo, o.hi) }
  | .overall => { att := none, avgAtt := none, se := none, avgSe := none, p := none, avgP := none, ci := none, avgCi := none }

end
end DiffDiff.SimPower
