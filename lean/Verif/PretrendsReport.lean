/-
Model of what is reported on top of the pre-trends power analysis.
  /repo/diff_diff/pretrends.py 99-110 (is_informative), 332-364 (plot of a curve), 994-1073 (sensitivity_to_honest_did),
    1081-1166 (compute_pretrends_power, compute_mdv)
  /repo/diff_diff/visualization.py 1449-1681 (plot_pretrends_power)
Simplifications: as in Verif/Pretrends.lean and Verif/PowerCurve.lean; the text of the interpretation is reduced to the
line that states the verdict; the results have at least one pre-period, as `fit` guarantees.
-/
import Verif.Pretrends
import Verif.PowerCurve

namespace DiffDiff.PretrendsReport
open Pretrends PowerCurve

/-- `is_informative` (pretrends.py 99-110). -/
noncomputable def isInformative {n : ℕ} (r : Result n) : Bool := Ext.lt r.mdv (.fin (2 * maxSe r.pre.ses))

/-- The lines stating the verdict (pretrends.py 1045-1066). -/
inductive Verdict | sensitive | moderate | low | never deriving DecidableEq, Repr

/-- Dictionary returned (pretrends.py 1068-1073). -/
structure Sensitivity where
  mdv : Ext ℝ
  maxSe : ℝ
  inSes : Ext ℝ
  verdict : Verdict

/-- `MDV / max(SE)` (pretrends.py 1040, 1071). -/
noncomputable def inSes (m : Ext ℝ) (se : ℝ) : Ext ℝ :=
  match m with
  | .fin x => if 0 < se then .fin (x / se) else .pinf
  | _ => .pinf

/-- The verdict (pretrends.py 1038-1066). -/
noncomputable def verdictOf (m : Ext ℝ) (se : ℝ) : Verdict :=
  match m with
  | .fin _ =>
    if Ext.lt (inSes m se) (.fin 1) then .sensitive
    else if Ext.lt (inSes m se) (.fin 2) then .moderate
    else .low
  | _ => .never

/-- `sensitivity_to_honest_did` (pretrends.py 994-1073). -/
noncomputable def sensitivity (R : Routines) (s : Settings) {n : ℕ} (pre : Pre n) : Except Err Sensitivity :=
  match fit R s pre none with
  | .error e => .error e
  | .ok r => .ok
    { mdv := r.mdv, maxSe := maxSe r.pre.ses, inSes := inSes r.mdv (maxSe r.pre.ses)
      verdict := verdictOf r.mdv (maxSe r.pre.ses) }

/-- The `violation_type` argument of the convenience functions (pretrends.py 1086, 1135). -/
inductive Kind | linear | constant | lastPeriod | custom deriving DecidableEq, Repr

/-- The pattern a convenience function hands to the constructor: it has no argument for weights
(pretrends.py 1123-1127, 1160-1164). -/
def Kind.pattern : Kind → Option Pattern
  | .linear => some .linear
  | .constant => some .constant
  | .lastPeriod => some .lastPeriod
  | .custom => none

/-- `compute_pretrends_power` (pretrends.py 1081-1128). -/
noncomputable def computePower (R : Routines) {n : ℕ} (pre : Pre n) (M : Option ℝ) (alpha target : ℝ) (k : Kind) :
    Except Err (Result n) :=
  match validate alpha target k.pattern with
  | .error e => .error e
  | .ok s => fit R s pre M

/-- `compute_mdv` (pretrends.py 1131-1166). -/
noncomputable def computeMdv (R : Routines) {n : ℕ} (pre : Pre n) (alpha target : ℝ) (k : Kind) : Except Err (Ext ℝ) :=
  match validate alpha target k.pattern with
  | .error e => .error e
  | .ok s =>
    match fit R s pre none with
    | .error e => .error e
    | .ok r => .ok r.mdv

/-! ### The plots -/

section Plot

variable {K : Type} [Field K] [LinearOrder K] [IsStrictOrderedRing K]

/-- A curve: magnitudes, powers, minimum detectable violation, target power. -/
structure Curve (K : Type) where
  Ms : List K
  powers : List K
  mdv : Ext K
  target : K

/-- The `results` argument of `plot_pretrends_power` (visualization.py 1574-1603). -/
inductive Source (K : Type)
  | frame (Ms powers : Option (List K))
  | curve (c : Curve K)
  | single (mdv : Ext K)
  | other

inductive PlotErr | noColumn | typeError | missing | shape | emptyArray deriving DecidableEq, Repr

/-- What is drawn: the line (if any), the target line, the line at the minimum detectable violation, the marker. -/
structure Picture (K : Type) where
  points : Option (List (K × K))
  target : Option K
  mdvLine : Option K
  marker : Option (K × K)
  deriving DecidableEq

/-- Data after the extraction: line, violation to mark, target power (visualization.py 1573-1607). -/
def extract (src : Option (Source K)) (Ms powers : Option (List K)) (mdv : Option (Ext K)) (target : Option K) :
    Except PlotErr (Option (List K × List K) × Option (Ext K) × Option K) :=
  match src with
  | some (.frame (some m) (some p)) => .ok (some (m, p), mdv, target)
  | some (.frame _ _) => .error .noColumn
  | some (.curve c) => .ok (some (c.Ms, c.powers), some (mdv.getD c.mdv), some (target.getD c.target))
  | some (.single m) => .ok (none, some (mdv.getD m), target)
  | some .other => .error .typeError
  | none =>
    match Ms, powers with
    | some m, some p => .ok (some (m, p), mdv, target)
    | _, _ => .error .missing

/-- Marker at a finite violation (visualization.py 1646-1658). -/
def markerAt (x : K) (line : Option (List K × List K)) : Except PlotErr (Option (K × K)) :=
  match line with
  | none => .ok none
  | some ([], _) => .error .emptyArray
  | some (a :: t, p) =>
    if t.foldl min a ≤ x ∧ x ≤ t.foldl max a then .ok (some (x, interp x (a :: t) p)) else .ok none

/-- `plot_pretrends_power` (visualization.py 1565-1681). A target of `None` cannot be formatted. -/
def plotPower (src : Option (Source K)) (Ms powers : Option (List K)) (mdv : Option (Ext K)) (target : Option K)
    (showMdv showTarget : Bool) : Except PlotErr (Picture K) :=
  match extract src Ms powers mdv target with
  | .error e => .error e
  | .ok (line, m, tg) =>
    if (line.map fun l => decide (l.1.length = l.2.length)).getD true = false then .error .shape
    else if showTarget = true ∧ tg = none then .error .typeError
    else
      let base : Picture K :=
        { points := line.map fun l => l.1.zip l.2, target := if showTarget then tg else none, mdvLine := none,
          marker := none }
      match showMdv, m with
      | true, some (.fin v) =>
        match markerAt v line with
        | .error e => .error e
        | .ok q => .ok { base with mdvLine := some v, marker := q }
      | _, _ => .ok base

/-- `PreTrendsPowerCurve.plot` (pretrends.py 332-364). -/
def plotCurve (c : Curve K) (showMdv showTarget : Bool) : Except PlotErr (Picture K) :=
  if c.Ms.length ≠ c.powers.length then .error .shape
  else .ok
    { points := some (c.Ms.zip c.powers), target := if showTarget then some c.target else none
      mdvLine := match showMdv, c.mdv with | true, .fin v => some v | _, _ => none
      marker := none }

end Plot

end DiffDiff.PretrendsReport
