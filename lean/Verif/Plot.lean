/-
Model of the data behind the event study plot.
  /repo/diff_diff/visualization.py 30-322 (plot_event_study), 325-422 (_extract_plot_data)
Drawing itself (colours, fonts, axes) is left out: the model returns the points, error bars, positions, shaded range and marked
reference that are passed to matplotlib. Period labels are integers. `z` is `norm.ppf(1 - alpha/2)` (line 205).
-/
import Verif.Ext

namespace DiffDiff.Plot

variable {K : Type*} [Field K] [LinearOrder K] [IsStrictOrderedRing K]

/-- A dictionary built from pairs: later pairs replace earlier ones with the same key. -/
def get {α : Type*} (d : List (ℤ × α)) (p : ℤ) : Option α := (d.reverse.find? (fun x => decide (x.1 = p))).map Prod.snd

/-- `sorted(d.keys())`. -/
def sortedKeys {α : Type*} (d : List (ℤ × α)) : List ℤ := (d.map Prod.fst).dedup.insertionSort (· ≤ ·)

/-- One entry of `period_effects` or `event_study_effects`; `groups` is the `n_groups` item if present. -/
structure Entry (K : Type*) where
  effect : Ext K
  se : Ext K
  groups : Option ℕ := none

/-- What `plot_event_study` accepts. -/
inductive Source (K : Type*)
  /-- a data frame; the flags tell which of the columns period, effect, se exist -/
  | frame (hasPeriod hasEffect hasSe : Bool) (rows : List (ℤ × Ext K × Ext K))
  /-- MultiPeriodDiDResults -/
  | multi (effects : List (ℤ × Entry K)) (pre post : List ℤ)
  /-- results with `event_study_effects` that is not None -/
  | event (effects : List (ℤ × Entry K))
  /-- any other object -/
  | other
  /-- no results; `effects` and `se` given directly (or not) -/
  | direct (effects se : Option (List (ℤ × Ext K)))

inductive Err
  | noPeriodColumn | noEffectColumn | noSeColumn | notPlottable | nothingGiven | noData
  deriving DecidableEq, Repr

/-- Optional arguments. -/
structure Args where
  periods : Option (List ℤ) := none
  reference : Option ℤ := none
  pre : Option (List ℤ) := none
  post : Option (List ℤ) := none

/-- Result of `_extract_plot_data` (visualization.py 336-342). -/
structure Data (K : Type*) where
  effects : List (ℤ × Ext K)
  se : List (ℤ × Ext K)
  periods : Option (List ℤ)
  pre : Option (List ℤ)
  post : Option (List ℤ)
  reference : Option ℤ
  inferred : Bool

/-- Reference of an event study: the first entry with `n_groups == 0`, otherwise -1 (visualization.py 397-408). -/
def inferReference (effects : List (ℤ × Entry K)) : ℤ :=
  ((effects.find? (fun x => decide (x.2.groups.getD 1 = 0))).map Prod.fst).getD (-1)

/-- `_extract_plot_data` (visualization.py 344-422), preceded by the branch on `results is not None` (180-191). -/
def extract (src : Source K) (a : Args) : Except Err (Data K) :=
  match src with
  | .frame hp he hs rows =>
    if hp = false then .error .noPeriodColumn
    else if he = false then .error .noEffectColumn
    else if hs = false then .error .noSeColumn
    else .ok { effects := rows.map (fun r => (r.1, r.2.1)), se := rows.map (fun r => (r.1, r.2.2))
               periods := some (a.periods.getD (rows.map Prod.fst))
               pre := a.pre, post := a.post, reference := a.reference, inferred := false }
  | .multi effects pre post =>
    let post' := a.post.getD post
    .ok { effects := effects.map (fun x => (x.1, x.2.effect)), se := effects.map (fun x => (x.1, x.2.se))
          periods := some (a.periods.getD post')
          pre := some (a.pre.getD pre), post := some post', reference := a.reference, inferred := false }
  | .event effects =>
    let periods := a.periods.getD (sortedKeys effects)
    .ok { effects := effects.map (fun x => (x.1, x.2.effect)), se := effects.map (fun x => (x.1, x.2.se))
          periods := some periods
          pre := some (a.pre.getD (periods.filter (fun p => decide (p < 0))))
          post := some (a.post.getD (periods.filter (fun p => decide (0 ≤ p))))
          reference := some (a.reference.getD (inferReference effects))
          inferred := a.reference.isNone }
  | .other => .error .notPlottable
  | .direct (some e) (some s) =>
    .ok { effects := e, se := s, periods := a.periods, pre := a.pre, post := a.post, reference := a.reference, inferred := false }
  | .direct _ _ => .error .nothingGiven

/-- Whether the given reference counts as explicit (visualization.py 176-188). -/
def explicit (a : Args) (d : Data K) : Bool := a.reference.isSome && !d.inferred

/-- Normalised effects and standard errors (visualization.py 206-217). -/
def normalize (ex : Bool) (d : Data K) : List (ℤ × Ext K) × List (ℤ × Ext K) :=
  match d.reference with
  | none => (d.effects, d.se)
  | some ref =>
    match get d.effects ref with
    | none => (d.effects, d.se)
    | some e =>
      if ex && e.isFinite then
        (d.effects.map (fun x => (x.1, Ext.sub x.2 e)), d.se.map (fun x => (x.1, if x.1 = ref then .nan else x.2)))
      else (d.effects, d.se)

/-- One row of the plotted table. -/
structure Point (K : Type*) where
  period : ℤ
  effect : Ext K
  se : Ext K
  lower : Ext K
  upper : Ext K
  isRef : Bool
  deriving DecidableEq

/-- One iteration of the loop (visualization.py 219-243). -/
def point (z : K) (eff se : List (ℤ × Ext K)) (ref : Option ℤ) (p : ℤ) : Option (Point K) :=
  let e := (get eff p).getD .nan
  let s := (get se p).getD .nan
  if e.isNan then none
  else
    let (lo, hi) := if s.isFinite then (Ext.sub e (Ext.mul (.fin z) s), Ext.add e (Ext.mul (.fin z) s)) else (Ext.nan, Ext.nan)
    some { period := p, effect := e, se := s, lower := lo, upper := hi, isRef := decide (some p = ref) }

/-- Position on the horizontal axis: the last index of the period (visualization.py 257). -/
def position (pts : List (Point K)) (p : ℤ) : Option ℕ :=
  (pts.zipIdx.reverse.find? (fun x => decide (x.1.period = p))).map Prod.snd

/-- What is drawn. -/
structure Figure (K : Type*) where
  points : List (Point K)
  /-- positions of the points (visualization.py 258) -/
  xs : List ℕ
  /-- first and last position of the shaded range (visualization.py 260-265) -/
  shade : Option (ℕ × ℕ)
  /-- vertical reference line (visualization.py 271-275) -/
  refLine : Option ℕ

/-- `plot_event_study` with default display options (visualization.py 176-275). -/
def plot (z : K) (src : Source K) (a : Args) : Except Err (Figure K) :=
  match extract src a with
  | .error e => .error e
  | .ok d =>
    let periods := d.periods.getD (sortedKeys d.effects)
    let (eff, se) := normalize (explicit a d) d
    let pts := periods.filterMap (point z eff se d.reference)
    if pts.length = 0 then .error .noData
    else
      let pre := (d.pre.getD []).filterMap (position pts)
      .ok { points := pts
            xs := pts.filterMap (fun q => position pts q.period)
            shade := match pre.min?, pre.max? with
              | some l, some u => some (l, u)
              | _, _ => none
            refLine := d.reference.bind (position pts) }

end DiffDiff.Plot
