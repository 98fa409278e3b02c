/-
Model of the data behind the remaining plots and tables.
  /repo/diff_diff/visualization.py 425-532 (plot_group_effects), 535-689 (plot_sensitivity), 692-880 (plot_honest_event_study),
  883-1036 (plot_bacon), 1039-1116 (_plot_bacon_scatter), 1119-1200 (_plot_bacon_bar)
  /repo/diff_diff/honest_did.py 436-450 (SensitivityResults.to_dataframe), 452-512 (SensitivityResults.plot)
  /repo/diff_diff/bacon.py 121-219 (summary), 225-255 (_weighted_sum, _total_weight, to_dataframe)
The model returns what is handed to matplotlib (positions, heights, error bar lengths, lines, colour indices), not the rendering.
matplotlib's `errorbar` raises ValueError for a negative error bar length and accepts NaN lengths; this check is modelled.
Periods and cohorts are integers. `z` is `norm.ppf(1 - alpha/2)`.
-/
import Verif.Plot
import Verif.HonestDid
import Verif.Bacon

namespace DiffDiff.PlotMore

open Plot (Entry get sortedKeys)

variable {K : Type*} [Field K] [LinearOrder K] [IsStrictOrderedRing K]

inductive Err
  | noOriginal | notEventStudy | noneItems | keyError | negativeBar | noGroups | indexError | unknownType
  deriving DecidableEq, Repr

/-! ### Honest event study -/

/-- The `original_results` of an honest result. -/
inductive Original (K : Type*)
  /-- None -/
  | missing
  /-- has `period_effects` -/
  | multi (effects : List (ℤ × Entry K))
  /-- has `event_study_effects`, possibly None -/
  | events (effects : Option (List (ℤ × Entry K)))
  /-- neither attribute -/
  | other

/-- What the plot reads from HonestDiDResults (honest_did.py 183-196). -/
structure Honest (K : Type*) where
  original : Original K
  /-- `event_study_bounds`: per period `(ci_lb, ci_ub)` -/
  perPeriod : Option (List (ℤ × (Ext K × Ext K)))
  ciLb : Ext K
  ciUb : Ext K

/-- One plotted period: position, estimate, lengths of the two standard and of the two honest error bars, hollow marker. -/
structure Drawn (K : Type*) where
  x : ℕ
  period : ℤ
  effect : Ext K
  stdLow : Ext K
  stdUp : Ext K
  honLow : Ext K
  honUp : Ext K
  hollow : Bool

/-- The effects dictionary and the default periods (visualization.py 769-799); the keys of a dictionary are distinct. -/
def esData : Original K → Except Err (List (ℤ × Entry K) × List ℤ)
  | .missing => .error .noOriginal
  | .multi d => .ok (d, d.map Prod.fst)
  | .events none => .error .noneItems
  | .events (some d) => .ok (d, sortedKeys d)
  | .other => .error .notEventStudy

/-- The honest interval of a period (visualization.py 818-831): its own bounds if there are any per-period bounds, otherwise
the scalar interval; `none` is a KeyError. An empty dictionary counts as absent. -/
def honestInterval (h : Honest K) (p : ℤ) : Option (Ext K × Ext K) :=
  match h.perPeriod with
  | some (b :: bs) => get (b :: bs) p
  | _ => some (h.ciLb, h.ciUb)

/-- Data of one period (visualization.py 813-859). -/
def drawPeriod (z : K) (h : Honest K) (d : List (ℤ × Entry K)) (ref : Option ℤ) (x : ℕ) (p : ℤ) : Except Err (Drawn K) :=
  match get d p, honestInterval h p with
  | some en, some (lo, hi) =>
    .ok { x := x, period := p, effect := en.effect
          stdLow := Ext.sub en.effect (Ext.sub en.effect (Ext.mul (.fin z) en.se))
          stdUp := Ext.sub (Ext.add en.effect (Ext.mul (.fin z) en.se)) en.effect
          honLow := Ext.sub en.effect lo
          honUp := Ext.sub hi en.effect
          hollow := decide (some p = ref) }
  | _, _ => .error .keyError

/-- Data of all periods, in order, at positions `x, x+1, …`. -/
def drawAll (z : K) (h : Honest K) (d : List (ℤ × Entry K)) (ref : Option ℤ) : ℕ → List ℤ → Except Err (List (Drawn K))
  | _, [] => .ok []
  | x, p :: ps =>
    match drawPeriod z h d ref x p, drawAll z h d ref (x + 1) ps with
    | .ok q, .ok qs => .ok (q :: qs)
    | .error e, _ => .error e
    | _, .error e => .error e

/-- matplotlib rejects negative error bar lengths; NaN passes. -/
def barOk (a : Ext K) : Bool := !(a.lt (.fin 0))

/-- `plot_honest_event_study` (visualization.py 757-880). -/
def plotHonest (z : K) (h : Honest K) (periods : Option (List ℤ)) (ref : Option ℤ) : Except Err (List (Drawn K)) :=
  match esData h.original with
  | .error e => .error e
  | .ok (d, dflt) =>
    match drawAll z h d ref 0 (periods.getD dflt) with
    | .error e => .error e
    | .ok qs =>
      if qs.all (fun q => barOk q.stdLow && barOk q.stdUp && barOk q.honLow && barOk q.honUp) then .ok qs
      else .error .negativeBar

/-- The honest result that `HonestDiD.fit` returns for MultiPeriodDiD results (honest_did.py 1132-1144): `event_study_bounds` is
never filled in. `se` are the standard errors of the period effects, which the fit itself does not use. -/
def ofFit (r : HonestDid.Multi K) (se : ℤ → Ext K) (f : HonestDid.Result K) : Honest K :=
  { original := .multi (r.post.map (fun p => (p, { effect := .fin (r.effect p), se := se p })))
    perPeriod := none, ciLb := f.bounds.ciLb, ciUb := f.bounds.ciUb }

/-! ### Sensitivity analysis -/

/-- SensitivityResults: one row `(M, bounds)` per grid point, the breakdown value and the original estimate. -/
structure Sens (K : Type*) where
  rows : List (K × HonestDid.Bounds K)
  breakdown : Option K
  estimate : K

/-- `sensitivity_analysis` (honest_did.py 1312-1336), given the bounds that `fit` returns for each M. -/
def sensitivity (B : K → HonestDid.Bounds K) (estimate : K) (grid : List K) : Sens K :=
  { rows := grid.map (fun m => (m, B m))
    breakdown := HonestDid.findBreakdown (fun m => HonestDid.includesZero (B m)) grid
    estimate := estimate }

/-- A row of the table. -/
structure SensRow (K : Type*) where
  m : K
  lb : Ext K
  ub : Ext K
  ciLb : Ext K
  ciUb : Ext K
  significant : Bool

/-- `SensitivityResults.to_dataframe` (honest_did.py 436-450). -/
def sensTable (s : Sens K) : List (SensRow K) :=
  s.rows.map (fun r => ⟨r.1, r.2.lb, r.2.ub, r.2.ciLb, r.2.ciUb, !(r.2.ciLb.le (.fin 0) && (Ext.fin 0).le r.2.ciUb)⟩)

/-- What is drawn. -/
inductive Layer (K : Type*)
  | hline (y : K)
  | vline (x : K)
  | band (pts : List (K × Ext K × Ext K))
  | curve (pts : List (K × Ext K))

/-- `plot_sensitivity` (visualization.py 630-689). The columns of an empty grid do not exist (`np.array([])[:, 0]`, IndexError). -/
def plotSensitivity (s : Sens K) (showBounds showCi line : Bool) : Except Err (List (Layer K)) :=
  if s.rows.isEmpty ∧ (showBounds ∨ showCi) then .error .indexError
  else .ok ([.hline s.estimate, .hline 0]
    ++ (if showBounds then [.band (s.rows.map (fun r => (r.1, r.2.lb, r.2.ub)))] else [])
    ++ (if showCi then [.curve (s.rows.map (fun r => (r.1, r.2.ciLb))), .curve (s.rows.map (fun r => (r.1, r.2.ciUb)))] else [])
    ++ (if line then (s.breakdown.map Layer.vline).toList else []))

/-! ### Group effects -/

/-- One point of a cohort's line. -/
structure GroupPoint (K : Type*) where
  time : ℤ
  effect : Ext K
  low : Ext K
  up : Ext K

/-- One cohort's line with the index of its colour in the palette. -/
structure GroupLine (K : Type*) where
  group : ℤ
  colour : ℕ
  points : List (GroupPoint K)

/-- `plt.cm.tab10(np.linspace(0, 1, n))[i]` (visualization.py 491): the ten colour map looks up `10 x` truncated, the right end
being its last colour; `linspace(0, 1, 1)` is `[0]`. Rounding of `linspace` is not modelled. -/
def colour (n i : ℕ) : ℕ := min 9 (10 * i / (n - 1))

/-- The points of a cohort (visualization.py 497-512): its entries sorted by time, bars `z * se` recomputed from the ends. -/
def groupPoints (z : K) (gt : List ((ℤ × ℤ) × Entry K)) (g : ℤ) : List (GroupPoint K) :=
  ((gt.filter (fun x => decide (x.1.1 = g))).insertionSort (fun a b => a.1.2 ≤ b.1.2)).map (fun x =>
    { time := x.1.2, effect := x.2.effect
      low := Ext.sub x.2.effect (Ext.sub x.2.effect (Ext.mul (.fin z) x.2.se))
      up := Ext.sub (Ext.add x.2.effect (Ext.mul (.fin z) x.2.se)) x.2.effect })

/-- `sorted(set(g for g, t in ...))` (visualization.py 482). -/
def defaultGroups (gt : List ((ℤ × ℤ) × Entry K)) : List ℤ := (gt.map (fun x => x.1.1)).dedup.insertionSort (· ≤ ·)

/-- `plot_group_effects` (visualization.py 466-532); `gt = none` is a result without `group_time_effects` (TypeError). A cohort
without entries is skipped but keeps its place in the palette. -/
def plotGroups (z : K) (gt : Option (List ((ℤ × ℤ) × Entry K))) (groups : Option (List ℤ)) : Except Err (List (GroupLine K)) :=
  match gt with
  | none => .error .noGroups
  | some d =>
    let gs := groups.getD (defaultGroups d)
    let lines := gs.zipIdx.filterMap (fun x =>
      if (groupPoints z d x.1).isEmpty then none else some ⟨x.1, colour gs.length x.2, groupPoints z d x.1⟩)
    if lines.all (fun l => l.points.all (fun q => barOk q.low && barOk q.up)) then .ok lines else .error .negativeBar

/-! ### Goodman-Bacon decomposition -/

open Bacon (Kind Comp Results)

/-- The order of the three types in the plots. -/
def kinds : List Kind := [.treatedVsNever, .earlierVsLater, .laterVsEarlier]

/-- The scatter plot: point clouds by type, average lines by type, the TWFE line. -/
structure Scatter (K : Type*) where
  clouds : List (Kind × List (Option K × K))
  averages : List (Kind × Option K)
  twfe : Option (Option K)

/-- `by_type[k]` (visualization.py 1069-1070). -/
def cloud (r : Results K) (k : Kind) : List (Option K × K) :=
  (r.comparisons.filter (fun c => decide (c.kind = k))).map (fun c => (c.estimate, c.weight))

/-- `_plot_bacon_scatter` (visualization.py 1054-1116). `colours k` tells whether the colour dictionary has the key. -/
def scatter (r : Results K) (colours : Kind → Bool) (showAvg showTwfe : Bool) : Except Err (Scatter K) :=
  let shown := kinds.filter (fun k => !(cloud r k).isEmpty)
  if shown.all colours then
    .ok { clouds := shown.map (fun k => (k, cloud r k))
          averages := if showAvg then shown.filterMap (fun k => (r.averages k).map (fun v => (k, v))) else []
          twfe := if showTwfe then some r.twfe else none }
  else .error .keyError

/-- A bar: type, height, whether the percentage is written on it, the average written on it. -/
structure Bar (K : Type*) where
  kind : Kind
  height : K
  labelled : Bool
  effect : Option (Option K)

/-- `_plot_bacon_bar` (visualization.py 1129-1180). -/
def bars (r : Results K) (colours : Kind → Bool) : Except Err (List (Bar K)) :=
  if kinds.all colours then
    .ok (kinds.map (fun k => ⟨k, r.totalWeights k, decide (1 / 100 < r.totalWeights k),
      if 1 / 100 < r.totalWeights k then r.averages k else none⟩))
  else .error .keyError

/-- A row of the summary's table by type: weight, average, contribution. -/
structure TypeRow (K : Type*) where
  kind : Kind
  weight : K
  average : Option K
  contribution : Option K

/-- The tables of `summary` (bacon.py 151-198): one row per type with positive weight, the total weight, the weighted sum and
whether the warning about forbidden comparisons appears. -/
structure Summary (K : Type*) where
  rows : List (TypeRow K)
  totalWeight : K
  weightedSum : Option K
  warned : Bool

/-- `summary` (bacon.py 121-219); `x or 0` turns None into 0 and leaves NaN. -/
def summary (r : Results K) : Summary K :=
  { rows := (kinds.filter (fun k => decide (0 < r.totalWeights k))).map (fun k =>
      let a := (r.averages k).getD (some 0)
      ⟨k, r.totalWeights k, a, a.map (fun v => r.totalWeights k * v)⟩)
    totalWeight := Bacon.totalWeight r.comparisons
    weightedSum := Bacon.weightedSum r.comparisons
    warned := decide (1 / 100 < r.totalWeights .laterVsEarlier) }

end DiffDiff.PlotMore
