/-
Model of `validate_did_data` (/repo/diff_diff/prep.py 441-560).
Message texts are reduced to the kind of problem they report. The dtype test of pandas is an attribute of the frame.
-/
import Verif.Prelude

namespace DiffDiff.PrepValidate

/-- A cell: a number (booleans count as 0/1), a string or a missing value. -/
inductive V (K : Type*)
  | num (x : K)
  | str (s : String)
  | miss
  deriving DecidableEq, Repr

/-- A data frame: column names, `is_numeric_dtype` per column, rows. -/
structure Frame (K : Type*) where
  cols : List String
  numeric : String → Bool
  rows : List (String → V K)

inductive Problem
  | column (c : String) | notNumeric | notBinary | missing (c : String) | noTreated | noControl
  | emptyCell (treated : Bool) (i : ℕ) | fewPeriods (treated : Bool)
  deriving DecidableEq, Repr

inductive Warning | timeLabels | varyingTreatment | unbalanced deriving DecidableEq, Repr

/-- `summary` of the report (prep.py 493-499). -/
structure Summary where
  nObs : ℕ
  nTreated : ℕ
  nControl : ℕ
  nPeriods : ℕ
  nUnits : Option ℕ
  deriving DecidableEq, Repr

structure Report where
  valid : Bool
  errors : List Problem
  warnings : List Warning
  summary : Option Summary
  deriving DecidableEq, Repr

inductive Exc | value | type deriving DecidableEq, Repr

variable {K : Type*} [Field K] [LinearOrder K]

/-- `dropna().unique()`. -/
def present (f : Frame K) (c : String) : List (V K) :=
  ((f.rows.map (fun r => r c)).filter (fun v => decide (v ≠ .miss))).reverse.dedup.reverse

/-- `set(vals).issubset({0, 1})`. -/
def subset01 (vals : List (V K)) : Bool := vals.all (fun v => decide (v = .num 0 ∨ v = .num 1))

def isStr : V K → Bool
  | .str _ => true
  | _ => false

/-- `sorted(vals)` raises TypeError when strings and numbers are mixed (used in the messages, prep.py 470 and 477). -/
def sortFails (vals : List (V K)) : Bool := vals.any isStr && vals.any (fun v => !isStr v)

/-- Rows with a given treatment value and time value (prep.py 512). -/
def cellCount (f : Frame K) (tr tm : String) (a v : V K) : ℕ := (f.rows.filter (fun r => decide (r tr = a ∧ r tm = v))).length

/-- `data[data[treatment] == t][time].nunique()` (prep.py 521). -/
def groupPeriods (f : Frame K) (tr tm : String) (a : V K) : ℕ :=
  (((f.rows.filter (fun r => decide (r tr = a))).map (fun r => r tm)).filter (fun v => decide (v ≠ .miss))).dedup.length

/-- `data.groupby(unit)[c].nunique()` as a list over units (prep.py 532, 542). -/
def perUnit (f : Frame K) (u c : String) : List ℕ :=
  (present f u).map (fun x => (((f.rows.filter (fun r => decide (r u = x))).map (fun r => r c)).filter
    (fun v => decide (v ≠ .miss))).dedup.length)

/-- Data checks before the cell checks (prep.py 458-488). -/
def basicProblems (f : Frame K) (y tr : String) (req : List String) : List Problem :=
  (if f.numeric y then [] else [.notNumeric]) ++ (if subset01 (present f tr) then [] else [.notBinary]) ++
  req.flatMap (fun c => if 0 < (f.rows.filter (fun r => decide (r c = .miss))).length then [.missing c] else [])

/-- Group and cell checks (prep.py 501-527). -/
def cellProblems (f : Frame K) (tr tm : String) : List Problem :=
  (if (f.rows.filter (fun r => decide (r tr = .num 1))).length = 0 then [.noTreated] else []) ++
  (if (f.rows.filter (fun r => decide (r tr = .num 0))).length = 0 then [.noControl] else []) ++
  (if (present f tm).length = 2 then
    [false, true].flatMap (fun b => (present f tm).zipIdx.flatMap (fun p =>
      if cellCount f tr tm (.num (if b then 1 else 0)) p.1 = 0 then [.emptyCell b p.2] else []))
  else [false, true].flatMap (fun b => if groupPeriods f tr tm (.num (if b then 1 else 0)) < 2 then [.fewPeriods b] else []))

/-- Panel warnings (prep.py 530-548). -/
def panelWarnings (f : Frame K) (tr tm u : String) : List Warning :=
  (if (perUnit f u tr).any (fun n => decide (1 < n)) then [.varyingTreatment] else []) ++
  (if (perUnit f u tm).any (fun n => (perUnit f u tm).any (fun m => decide (n ≠ m))) then [.unbalanced] else [])

/-- `validate_did_data` (prep.py 441-560). -/
def validate (f : Frame K) (y tr tm : String) (unit : Option String) (raiseOnError : Bool) : Except Exc Report :=
  let req := [y, tr, tm] ++ unit.toList
  let e0 := (req.filter (fun c => decide (c ∉ f.cols))).map Problem.column
  if e0 ≠ [] then
    if raiseOnError then .error .value else .ok { valid := false, errors := e0, warnings := [], summary := none }
  else if !subset01 (present f tr) && sortFails (present f tr) then .error .type
  else
    let w1 : Bool := decide ((present f tm).length = 2) && !subset01 (present f tm)
    if w1 && sortFails (present f tm) then .error .type
    else
      let e1 := basicProblems f y tr req
      let errs := if e1 = [] then cellProblems f tr tm else e1
      let sm : Option Summary := if e1 = [] then some
        { nObs := f.rows.length, nTreated := (f.rows.filter (fun r => decide (r tr = .num 1))).length,
          nControl := (f.rows.filter (fun r => decide (r tr = .num 0))).length, nPeriods := (present f tm).length,
          nUnits := unit.map (fun u => (present f u).length) } else none
      let ws := (if w1 then [.timeLabels] else []) ++ (match unit with
        | some u => if errs = [] then panelWarnings f tr tm u else []
        | none => [])
      if raiseOnError ∧ errs ≠ [] then .error .value
      else .ok { valid := decide (errs = []), errors := errs, warnings := ws, summary := sm }

end DiffDiff.PrepValidate
