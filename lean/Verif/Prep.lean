/-
Model of data preparation: balancing, reshaping and indicator columns.
  /repo/diff_diff/prep.py 34-387 (make_treatment_indicator, make_post_indicator, wide_to_long, balance_panel),
  655-717 (create_event_time), 563-652 (summarize_did_data), 720-779 (aggregate_to_cohorts).
A data frame is the list of its rows. Simplifications: column lookup errors are not modelled except where stated; dtype
changes caused by merging are not modelled; in the grid methods of balance_panel unit and time labels are not missing.
-/
import Verif.Ext

namespace DiffDiff.Prep

/-! ### balance_panel -/

/-- A row with possibly missing labels: `rest` stands for all other columns. -/
structure LRow (U T R : Type*) where
  unit : Option U
  time : Option T
  rest : R
  deriving DecidableEq, Repr

section labels
variable {U T R : Type*} [DecidableEq U] [DecidableEq T]

/-- `Series.unique()`: values in order of first appearance. -/
def unique {α : Type*} [DecidableEq α] (l : List α) : List α := l.reverse.dedup.reverse

/-- `data.groupby(unit)[time].nunique()` at unit `u` (prep.py 355): missing times do not count. -/
def nunique (rows : List (LRow U T R)) (u : U) : ℕ :=
  ((rows.filter (fun r => decide (r.unit = some u))).filterMap (fun r => r.time)).dedup.length

/-- `len(sorted(data[time].unique()))` (prep.py 350-351): a missing time counts as one more period. -/
def nPeriods (rows : List (LRow U T R)) : ℕ := (unique (rows.map (fun r => r.time))).length

/-- `balance_panel(method="inner")` (prep.py 353-357). -/
def inner (rows : List (LRow U T R)) : List (LRow U T R) :=
  rows.filter (fun r => match r.unit with
    | none => false
    | some u => decide (nunique rows u = nPeriods rows))

end labels

section gridMethods
variable {U T C V : Type*} [LinearOrder U] [LinearOrder T]

/-- A row of the grid methods: labels present, other columns indexed by `C`, `none` for missing. -/
structure GRow (U T C V : Type*) where
  unit : U
  time : T
  col : C → Option V

/-- The row the left merge creates for a pair without data. -/
def blank (p : U × T) : GRow U T C V := { unit := p.1, time := p.2, col := fun _ => none }

/-- Full grid (prep.py 360-365): units in order of appearance times sorted periods. -/
def grid (rows : List (GRow U T C V)) : List (U × T) :=
  (unique (rows.map (fun r => r.unit))).flatMap (fun u =>
    ((rows.map (fun r => r.time)).dedup.insertionSort (· ≤ ·)).map (fun t => (u, t)))

/-- `full_df.merge(data, how="left")` (prep.py 368). -/
def outer (rows : List (GRow U T C V)) : List (GRow U T C V) :=
  (grid rows).flatMap (fun p =>
    let m := rows.filter (fun r => decide (r.unit = p.1 ∧ r.time = p.2))
    if m.isEmpty then [blank p] else m)

/-- `fillna(fill_value)` on the numeric columns (prep.py 374-379). -/
def fillValue (numeric : C → Bool) (v : V) (rows : List (GRow U T C V)) : List (GRow U T C V) :=
  rows.map (fun r => { r with col := fun c => match r.col c with
    | some x => some x
    | none => if numeric c then some v else none })

/-- `sort_values([unit, time])` (prep.py 382), a stable lexicographic sort. -/
def sortRows (rows : List (GRow U T C V)) : List (GRow U T C V) :=
  rows.insertionSort (fun a b => a.unit < b.unit ∨ (a.unit = b.unit ∧ a.time ≤ b.time))

/-- `groupby(unit).ffill()`: `last` is the last value seen per unit and column (prep.py 383). -/
def ffill (last : U → C → Option V) : List (GRow U T C V) → List (GRow U T C V)
  | [] => []
  | r :: rest =>
    let new : C → Option V := fun c => match r.col c with
      | some x => some x
      | none => last r.unit c
    { r with col := new } :: ffill (fun u c => if u = r.unit then new c else last u c) rest

/-- `groupby(unit).bfill()` (prep.py 385). -/
def bfill (rows : List (GRow U T C V)) : List (GRow U T C V) := (ffill (fun _ _ => none) rows.reverse).reverse

/-- `balance_panel(method="fill", fill_value=None)` (prep.py 380-385). -/
def fillNone (rows : List (GRow U T C V)) : List (GRow U T C V) :=
  bfill (ffill (fun _ _ => none) (sortRows (outer rows)))

inductive Err | value | type deriving DecidableEq, Repr

/-- `balance_panel` with grid methods (prep.py 346-387): the method name is compared exactly. -/
def balanceGrid (method : String) (fill : Option V) (numeric : C → Bool)
    (rows : List (GRow U T C V)) : Except Err (List (GRow U T C V)) :=
  if method = "outer" then .ok (outer rows)
  else if method = "fill" then
    match fill with
    | some v => .ok (fillValue numeric v (outer rows))
    | none => .ok (fillNone rows)
  else .error .value

end gridMethods

/-! ### wide_to_long -/

/-- A wide row: identifier, value per column name, all other columns. -/
structure WRow (U V R : Type*) where
  id : U
  val : String → V
  rest : R

/-- A long row. -/
structure LongRow (U V R : Type*) where
  id : U
  time : ℤ
  val : V
  rest : R
  deriving DecidableEq, Repr

variable {U V R : Type*}

/-- `dict(zip(value_columns, time_values))` then `map`: a repeated column name keeps its last time (prep.py 281-282). -/
def colTime (cols : List String) (times : List ℤ) (c : String) : Option ℤ := (cols.zip times).reverse.lookup c

/-- `pd.melt` (prep.py 272-278): column by column, rows in order. -/
def melt (cols : List String) (rows : List (WRow U V R)) : List (String × WRow U V R) :=
  cols.flatMap (fun c => rows.map (fun r => (c, r)))

/-- `wide_to_long` (prep.py 249-287); `allCols` are the columns of the frame. The time lookup always succeeds, hence the
default 0 is never used (`colTime_isSome`). -/
def wideToLong [LinearOrder U] (allCols : List String) (idCol : String) (cols : List String) (times : Option (List ℤ))
    (rows : List (WRow U V R)) : Except Err (List (LongRow U V R)) :=
  if cols = [] then .error .value
  else if idCol ∉ allCols then .error .value
  else if ¬ cols.all (fun c => decide (c ∈ allCols)) then .error .value
  else
    let ts := times.getD ((List.range cols.length).map (fun i : ℕ => (i : ℤ)))
    if ts.length ≠ cols.length then .error .value
    else .ok (((melt cols rows).map (fun p =>
        { id := p.2.id, time := (colTime cols ts p.1).getD 0, val := p.2.val p.1, rest := p.2.rest : LongRow U V R })).insertionSort
      (fun a b => a.id < b.id ∨ (a.id = b.id ∧ a.time ≤ b.time)))

/-! ### Indicator columns -/

/-- `make_treatment_indicator` (prep.py 90-113) and `make_post_indicator` (prep.py 167-189), the latter with
`above = true`: one of a value list or a threshold; a missing cell is in no list of present values and compares false. -/
def indicator {A : Type*} [DecidableEq A] [LE A] [DecidableRel (α := A) (· ≤ ·)] (hasCol : Bool) (values : Option (List A))
    (threshold : Option A) (above : Bool) (col : List (Option A)) : Except Err (List ℕ) :=
  match values, threshold with
  | some _, some _ => .error .value
  | none, none => .error .value
  | some vs, none =>
    if ¬ hasCol then .error .value
    else .ok (col.map (fun x => match x with
      | some a => if a ∈ vs then 1 else 0
      | none => 0))
  | none, some th =>
    if ¬ hasCol then .error .value
    else .ok (col.map (fun x => match x with
      | some a => if above then (if th ≤ a then 1 else 0) else (if a ≤ th then 1 else 0)
      | none => 0))

/-- `create_event_time` (prep.py 699-717) on numeric columns. -/
def eventTime {K : Type*} [Field K] [LinearOrder K] (time treat : Ext K) : Ext K :=
  let d := Ext.sub time treat
  match treat with
  | .nan => .nan
  | .pinf => .nan
  | .ninf => .nan
  | .fin _ => d

/-! ### Cell summaries -/

/-- A row of a two-group data set: treatment, period, unit and outcome. -/
structure SRow (U T K : Type*) where
  unit : U
  d : K
  t : T
  y : K

variable {U T K : Type*} [DecidableEq U] [LinearOrder T] [Field K] [LinearOrder K]

/-- `Series.mean()`, NaN for no rows. -/
def meanOf (l : List K) : Option K := if l = [] then none else some (l.sum / (l.length : K))

/-- Outcomes of a cell. -/
def cellY (rows : List (SRow U T K)) (d : K) (t : T) : List K :=
  (rows.filter (fun r => decide (r.d = d ∧ r.t = t))).map (fun r => r.y)

def osub (a b : Option K) : Option K := match a, b with
  | some x, some y => some (x - y)
  | _, _ => none

/-- The "DiD Estimate" row of `summarize_did_data` (prep.py 610-646): present for exactly two periods. -/
def summaryDid (rows : List (SRow U T K)) : Option (Option K) :=
  match (rows.map (fun r => r.t)).dedup.insertionSort (· ≤ ·) with
  | [pre, post] =>
    some (osub (osub (meanOf (cellY rows 1 post)) (meanOf (cellY rows 1 pre)))
      (osub (meanOf (cellY rows 0 post)) (meanOf (cellY rows 0 pre))))
  | _ => none

/-- A line of `aggregate_to_cohorts`. -/
structure Cohort (T K : Type*) where
  d : K
  t : T
  meanY : Option K
  nUnits : ℕ

/-- `aggregate_to_cohorts` (prep.py 765-779): groups sorted by treatment and period. -/
def cohorts (rows : List (SRow U T K)) : List (Cohort T K) :=
  (((rows.map (fun r => (r.d, r.t))).dedup.insertionSort (fun a b => a.1 < b.1 ∨ (a.1 = b.1 ∧ a.2 ≤ b.2)))).map (fun p =>
    { d := p.1, t := p.2, meanY := meanOf (cellY rows p.1 p.2)
      nUnits := ((rows.filter (fun r => decide (r.d = p.1 ∧ r.t = p.2))).map (fun r => r.unit)).dedup.length })

end DiffDiff.Prep
