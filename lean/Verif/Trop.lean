/-
Model of the panel checks and of the tuning search of `TROP.fit` (method "twostep").
  /repo/diff_diff/trop.py 694-854, 1873-1968, 2036-2120.
Simplifications: the named columns exist; unit and time labels are not missing; treatment values are finite numbers or missing;
the optional compiled grid search is absent, so the Python search always runs; the cross-validation score is a parameter here (its
model is in `TropFit`).
-/
import Verif.Ext
import Mathlib.Algebra.Order.Floor.Ring
import Mathlib.Data.Rat.Floor

namespace DiffDiff.Trop

/-- A row of the data: unit, period, outcome, treatment column. `none` is a missing value. -/
structure Row (U T K : Type*) where
  unit : U
  time : T
  y : Option K
  d : Option K

/-- The four rejections of `fit`; all are `ValueError` in Python. `duplicate` is raised by `DataFrame.pivot`. -/
inductive Err | duplicate | absorbing | noTreated | noControl | fewPre deriving DecidableEq, Repr

section Panel
variable {U T K : Type*} [LinearOrder U] [LinearOrder T] [Field K] [LinearOrder K] [IsStrictOrderedRing K] [FloorRing K]

/-- `astype(int)`: truncation towards zero (trop.py 1912). -/
def trunc (x : K) : ℤ := if 0 ≤ x then ⌊x⌋ else ⌈x⌉

/-- `sorted(data[unit].unique())` (trop.py 1885). -/
def unitsOf (rows : List (Row U T K)) : List U := (rows.map Row.unit).dedup.insertionSort (· ≤ ·)

/-- `sorted(data[time].unique())` (trop.py 1886). -/
def periodsOf (rows : List (Row U T K)) : List T := (rows.map Row.time).dedup.insertionSort (· ≤ ·)

/-- The row of a cell, if any (the pivots of trop.py 1899-1910). -/
def cell (rows : List (Row U T K)) (t : T) (u : U) : Option (Row U T K) :=
  rows.find? (fun r => decide (r.unit = u) && decide (r.time = t))

/-- `D_raw[t, u]` (trop.py 1907-1910). -/
def dRaw (rows : List (Row U T K)) (t : T) (u : U) : Option K := (cell rows t u).bind Row.d

/-- `Y[t, u]` (trop.py 1899-1903). -/
def yCell (rows : List (Row U T K)) (t : T) (u : U) : Option K := (cell rows t u).bind Row.y

/-- `D = D_raw.fillna(0).astype(int)` (trop.py 1912). -/
def dCell (rows : List (Row U T K)) (t : T) (u : U) : ℤ :=
  match dRaw rows t u with
  | some x => trunc x
  | none => 0

/-- `observed_d`: the unit's observed treatment values in period order (trop.py 1923-1924). -/
def observed (rows : List (Row U T K)) (u : U) : List ℤ :=
  (periodsOf rows).filterMap (fun t => (dRaw rows t u).map trunc)

/-- `np.any(np.diff(observed_d) < 0)` (trop.py 1927). -/
def decreases : List ℤ → Bool
  | a :: b :: l => decide (b - a < 0) || decreases (b :: l)
  | _ => false

/-- `violating_units` (trop.py 1920-1928). -/
def violating (rows : List (Row U T K)) : List U :=
  (unitsOf rows).filter (fun u => decide (1 < (observed rows u).length) && decreases (observed rows u))

/-- Duplicate (unit, time) pairs make `pivot` raise. -/
def hasDup (rows : List (Row U T K)) : Bool := !decide ((rows.map (fun r => (r.unit, r.time))).Nodup)

/-- `np.any(D[t, :] == 1)` (trop.py 1957). -/
def periodTreated (rows : List (Row U T K)) (t : T) : Bool := (unitsOf rows).any (fun u => decide (dCell rows t u = 1))

/-- `unit_ever_treated` (trop.py 1946). -/
def unitTreated (rows : List (Row U T K)) (u : U) : Bool := (periodsOf rows).any (fun t => decide (dCell rows t u = 1))

/-- The checked panel. -/
structure Panel (U T K : Type*) where
  units : List U
  periods : List T
  y : T → U → Option K
  d : T → U → ℤ
  nTreatedObs : ℕ
  treated : List U
  controls : List U
  nPre : ℕ
  nPost : ℕ

/-- `np.sum(D == 1)` (trop.py 1940). -/
def nTreatedObs (rows : List (Row U T K)) : ℕ :=
  ((periodsOf rows).map (fun t => ((unitsOf rows).filter (fun u => decide (dCell rows t u = 1))).length)).sum

/-- Checks and metadata of `fit` before the tuning search (trop.py 1885-1969).
The branch `first_treat_period is None` is unreachable once a treated cell exists and is not modelled. -/
def prepare (rows : List (Row U T K)) : Except Err (Panel U T K) :=
  if hasDup rows then .error .duplicate
  else if violating rows ≠ [] then .error .absorbing
  else if nTreatedObs rows = 0 then .error .noTreated
  else if (unitsOf rows).filter (fun u => !unitTreated rows u) = [] then .error .noControl
  else if ((periodsOf rows).takeWhile (fun t => !periodTreated rows t)).length < 2 then .error .fewPre
  else .ok
    { units := unitsOf rows
      periods := periodsOf rows
      y := yCell rows
      d := dCell rows
      nTreatedObs := nTreatedObs rows
      treated := (unitsOf rows).filter (fun u => unitTreated rows u)
      controls := (unitsOf rows).filter (fun u => !unitTreated rows u)
      nPre := ((periodsOf rows).takeWhile (fun t => !periodTreated rows t)).length
      nPost := (((periodsOf rows).dropWhile (fun t => !periodTreated rows t)).filter (fun t => periodTreated rows t)).length }

end Panel

section Search
variable {K : Type*} [Field K] [LinearOrder K]

/-- One pass of `_univariate_loocv_search` (trop.py 745-775): keep a value whose score is strictly smaller than the best so far.
`none` is a `LinAlgError`/`ValueError` raised by the score, which is skipped. -/
def step {V : Type*} (score : V → Option (Ext K)) (best : V × Ext K) (v : V) : V × Ext K :=
  match score v with
  | none => best
  | some s => if Ext.lt s best.2 then (v, s) else best

/-- `_univariate_loocv_search` over a grid (trop.py 742-777). `d` is the value `0.0` used for an empty grid. -/
def univariate {V : Type*} (d : V) (score : V → Option (Ext K)) (grid : List V) : V × Ext K :=
  grid.foldl (step score) (grid.head?.getD d, .pinf)

/-- `np.isinf`. -/
def isInf : Ext K → Bool
  | .pinf => true
  | .ninf => true
  | _ => false

/-- λ_time and λ_unit: infinity becomes 0 (trop.py 758-761, 2111-2114). -/
def conv (l : Ext K) : Ext K := if isInf l then .fin 0 else l

/-- λ_nn: infinity becomes 1e10 (trop.py 762-763, 2115-2116). -/
def convN (l : Ext K) : Ext K := if isInf l then .fin (10 ^ 10) else l

/-- A combination of tuning parameters. -/
structure Lam (K : Type*) where
  time : Ext K
  unit : Ext K
  nn : Ext K

/-- The conversion used by the search and by the final estimation (trop.py 753-763, 2111-2120). -/
def effective (l : Lam K) : Lam K := { time := conv l.time, unit := conv l.unit, nn := convN l.nn }

/-- The user's grids. -/
structure Grids (K : Type*) where
  time : List (Ext K)
  unit : List (Ext K)
  nn : List (Ext K)

/-- The score evaluated inside the univariate search, after conversion (trop.py 746-770). -/
def evalAt (score : Lam K → Option (Ext K)) (l : Lam K) : Option (Ext K) := score (effective l)

/-- Search over λ_time with the others fixed. -/
def searchTime (score : Lam K → Option (Ext K)) (g : Grids K) (l : Lam K) : Ext K × Ext K :=
  univariate (.fin 0) (fun v => evalAt score { l with time := v }) g.time

/-- Search over λ_unit with the others fixed. -/
def searchUnit (score : Lam K → Option (Ext K)) (g : Grids K) (l : Lam K) : Ext K × Ext K :=
  univariate (.fin 0) (fun v => evalAt score { l with unit := v }) g.unit

/-- Search over λ_nn with the others fixed. -/
def searchNn (score : Lam K → Option (Ext K)) (g : Grids K) (l : Lam K) : Ext K × Ext K :=
  univariate (.fin 0) (fun v => evalAt score { l with nn := v }) g.nn

/-- First step of a cycle (trop.py 824-829). -/
def afterUnit (score : Lam K → Option (Ext K)) (g : Grids K) (l : Lam K) : Lam K := { l with unit := (searchUnit score g l).1 }

/-- Second step of a cycle (trop.py 831-836). -/
def afterTime (score : Lam K → Option (Ext K)) (g : Grids K) (l : Lam K) : Lam K := { l with time := (searchTime score g l).1 }

/-- Last step of a cycle (trop.py 838-843): the new point and the score of this search. -/
def afterNn (score : Lam K → Option (Ext K)) (g : Grids K) (l : Lam K) : Lam K × Ext K :=
  ({ l with nn := (searchNn score g l).1 }, (searchNn score g l).2)

/-- One cycle of `_cycling_parameter_search` (trop.py 823-843): unit, then time, then nuclear norm. -/
def cycle (score : Lam K → Option (Ext K)) (g : Grids K) (l : Lam K) : Lam K × Ext K :=
  afterNn score g (afterTime score g (afterUnit score g l))

/-- `_cycling_parameter_search` (trop.py 820-854); the fuel is `max_cycles`. -/
def cycling (score : Lam K → Option (Ext K)) (g : Grids K) : ℕ → Ext K → Lam K → Lam K
  | 0, _, l => l
  | n + 1, prev, l =>
    let r := cycle score g l
    if Ext.lt (Ext.abs (Ext.sub r.2 prev)) (.fin (1 / 10 ^ 6)) then r.1 else cycling score g n r.2 r.1

/-- Stage 1 of the search (trop.py 2046-2068). -/
def initial (score : Lam K → Option (Ext K)) (g : Grids K) : Lam K :=
  { time := (searchTime score g { time := .fin 0, unit := .fin 0, nn := .pinf }).1
    unit := (searchUnit score g { time := .fin 0, unit := .fin 0, nn := .pinf }).1
    nn := (searchNn score g { time := .pinf, unit := .fin 0, nn := .fin 0 }).1 }

/-- Both stages (trop.py 2045-2074). -/
def search (score : Lam K → Option (Ext K)) (g : Grids K) : Lam K := cycling score g 10 .pinf (initial score g)

/-- The selected combination and the stored score (trop.py 2076-2100). The final score is evaluated at the *unconverted* values. -/
def select (score : Lam K → Option (Ext K)) (g : Grids K) : Lam K × Ext K :=
  match score (search score g) with
  | some s => if s.isFinite then (search score g, s) else ({ time := .fin 1, unit := .fin 1, nn := .fin (1 / 10) }, .nan)
  | none => ({ time := .fin 1, unit := .fin 1, nn := .fin (1 / 10) }, .nan)

end Search
end DiffDiff.Trop
