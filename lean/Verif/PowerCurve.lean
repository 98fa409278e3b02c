/-
Model of the power curves and of their plot.
  /repo/diff_diff/power.py 769-829 (power_curve), 831-893 (sample_size_curve)
  /repo/diff_diff/visualization.py 1203-1446 (plot_power_curve)
Simplifications: as in Verif/Power.lean; sample sizes are natural numbers; the plot is the data handed to matplotlib
(points of the line, horizontal and vertical line, marker, axis kind), without colours, titles and ticks; `numpy.interp`
is transcribed with the linear search numpy uses for up to four points, which finds the same interval as its bisection
for longer arrays when the abscissae are in order.
-/
import Verif.Power

namespace DiffDiff.PowerCurve

open DiffDiff.Power

/-! ### The tables -/

/-- `np.linspace(0, stop, n)` for n ≥ 2 (power.py 812). -/
noncomputable def linspace (stop : ℝ) (n : ℕ) : List ℝ :=
  (List.range n).map fun i : ℕ => stop * (i : ℝ) / ((n : ℝ) - 1)

/-- A loop collecting one power per row, stopping at the first error (power.py 814-825, 876-889). -/
noncomputable def collect {α : Type} (f : α → Except Err Result) : List α → Except Err (List (α × ℝ))
  | [] => .ok []
  | x :: xs => do
    let r ← f x
    let rest ← collect f xs
    return (x, r.power) :: rest

/-- `power_curve` (power.py 769-829). -/
noncomputable def powerCurve (N : Normal) (s : Settings) (nt nc : ℕ) (sigma : ℝ) (effects : Option (List ℝ))
    (pre post : ℕ) (rho : ℝ) : Except Err (List (ℝ × ℝ)) := do
  let m ← mde N s nt nc sigma pre post rho
  collect (fun e => power N s e nt nc sigma pre post rho) (effects.getD (linspace (5 / 2 * m.mde) 50))

/-- `list(range(lo, hi, step))` for a positive step (power.py 874). -/
def pyRange (lo hi step : ℕ) : List ℕ := (List.range ((hi - lo + step - 1) / step)).map fun i => lo + i * step

/-- Default sample sizes (power.py 871-874). A negative difference gives a step of one, as truncated subtraction does. -/
def defaultSizes (required : ℕ) : List ℕ :=
  let minN := max 10 (required / 4)
  let maxN := required * 2
  pyRange minN (maxN + 1) (max 1 ((maxN - minN) / 50))

/-- Treated units of a row (power.py 878). -/
noncomputable def rowTreated (n : ℕ) (frac : ℝ) : ℕ := max 2 ⌊(n : ℝ) * frac⌋₊

/-- Control units of a row (power.py 879). -/
noncomputable def rowControl (n : ℕ) (frac : ℝ) : ℕ := max 2 (n - rowTreated n frac)

/-- `sample_size_curve` (power.py 831-891). -/
noncomputable def sampleSizeCurve (N : Normal) (s : Settings) (effect sigma : ℝ) (sizes : Option (List ℕ))
    (pre post : ℕ) (rho frac : ℝ) : Except Err (List (ℕ × ℝ)) := do
  let req ← sampleSize N s effect sigma pre post rho frac
  collect (fun n => power N s effect (rowTreated n frac) (rowControl n frac) sigma pre post rho)
    (sizes.getD (defaultSizes req.requiredN))

/-! ### The plot -/

section Plot

variable {K : Type} [Field K] [LinearOrder K] [IsStrictOrderedRing K]

/-- The `results` argument (visualization.py 1318-1348): a table with some columns, simulation results, analytical
results, or something else. -/
inductive Results (K : Type)
  | frame (effect sample power : Option (List K))
  | simulation (effects powers : List K) (trueEffect : K)
  | analytical
  | other

inductive Axis | effect | sample deriving DecidableEq, Repr

inductive PlotErr | noColumn | keyError | analytical | typeError | missing | shape | emptyArray
  deriving DecidableEq, Repr

/-- What is drawn. -/
structure Drawing (K : Type) where
  points : List (K × K)
  axis : Axis
  target : Option K
  mdeLine : Option K
  marker : Option (K × K)
  deriving DecidableEq

/-- Abscissae, powers, marked effect and axis (visualization.py 1317-1352). -/
def extract (results : Option (Results K)) (xs ps : Option (List K)) (mde : Option K) (axis : Axis) :
    Except PlotErr (List K × List K × Option K × Axis) :=
  match results with
  | some (.frame (some e) _ (some p)) => .ok (e, p, mde, .effect)
  | some (.frame none (some n) (some p)) => .ok (n, p, mde, .sample)
  | some (.frame (some _) _ none) => .error .keyError
  | some (.frame none (some _) none) => .error .keyError
  | some (.frame none none _) => .error .noColumn
  | some (.simulation e p t) => .ok (e, p, some (mde.getD t), axis)
  | some .analytical => .error .analytical
  | some .other => .error .typeError
  | none =>
    match xs, ps with
    | some x, some p => .ok (x, p, mde, axis)
    | _, _ => .error .missing

/-- Interval found for `x`: one less than the first index from 1 on whose abscissa exceeds `x` (numpy's
`binary_search_with_guess`, called at visualization.py 1413). -/
def interpIndex (x : K) (xs : List K) : ℕ := (xs.tail.takeWhile fun a => decide (a ≤ x)).length

/-- `np.interp(x, xs, ps)` (visualization.py 1413). -/
def interp (x : K) (xs ps : List K) : K :=
  if xs.getLastD 0 < x then ps.getLastD 0
  else if x < xs.headD 0 then ps.headD 0
  else
    let j := interpIndex x xs
    if j + 1 = xs.length then ps.getD j 0
    else if xs.getD j 0 = x then ps.getD j 0
    else ps.getD j 0 + (ps.getD (j + 1) 0 - ps.getD j 0) / (xs.getD (j + 1) 0 - xs.getD j 0) * (x - xs.getD j 0)

/-- Power marked at the vertical line (visualization.py 1403-1415). -/
def powerAtMde (x : K) (xs ps : List K) : Except PlotErr (Option K) :=
  if x ∈ xs then .ok (ps[xs.idxOf x]?)
  else
    match xs with
    | [] => .error .emptyArray
    | a :: t =>
      if t.foldl min a ≤ x ∧ x ≤ t.foldl max a then .ok (some (interp x xs ps)) else .ok none

/-- `plot_power_curve` (visualization.py 1317-1446). Lists of different lengths are refused by `ax.plot`. -/
def plot (results : Option (Results K)) (xs ps : Option (List K)) (mde : Option K) (target : K) (axis : Axis)
    (showMde showTarget : Bool) : Except PlotErr (Drawing K) :=
  match extract results xs ps mde axis with
  | .error e => .error e
  | .ok (x, p, m, a) =>
    if x.length ≠ p.length then .error .shape
    else
      let drawing : Drawing K :=
        { points := x.zip p, axis := a, target := if showTarget then some target else none, mdeLine := none,
          marker := none }
      match showMde, m with
      | true, some v =>
        match powerAtMde v x p with
        | .error e => .error e
        | .ok y => .ok { drawing with mdeLine := some v, marker := y.map fun y => (v, y) }
      | _, _ => .ok drawing

end Plot

end DiffDiff.PowerCurve
