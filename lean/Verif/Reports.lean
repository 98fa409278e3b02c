/-
Model of the sentences in the printed reports, as data:
  /repo/diff_diff/honest_did.py 199-205 (HonestDiDResults.__repr__), 237-313 (HonestDiDResults.summary),
    391-428 (SensitivityResults.summary)
  /repo/diff_diff/diagnostics.py 86-161 (PlaceboTestResults.summary)
  /repo/diff_diff/pretrends.py 117-178 (PreTrendsPowerResults.summary)
Layout, headings and the rounding of the printed numbers are not modelled.
-/
import Verif.HonestDid
import Verif.PlotMore
import Verif.Diagnostics
import Verif.Pretrends

namespace DiffDiff.Reports

/-! ### Honest DiD -/

/-- First interpretation sentence (honest_did.py 285-299). -/
inductive Restriction (K : Type*)
  | multiple (M : K)   -- "Post-treatment violations bounded at Mx max pre-period violation."
  | linear             -- "Violations follow linear extrapolation of pre-trends."
  | curvature (M : K)  -- "Violation curvature (second diff) bounded by M per period."
  | combined (M : K)   -- "Combined smoothness (M=...) and relative magnitude bounds."
  deriving DecidableEq

/-- Second interpretation sentence (honest_did.py 301-309), each with the M printed in it. -/
inductive Verdict (K : Type*)
  | positive (M : K)   -- "Effect remains POSITIVE even with violations up to M=..."
  | negative (M : K)   -- "Effect remains NEGATIVE even with violations up to M=..."
  | cannot (M : K)     -- "Cannot rule out zero effect when allowing violations up to M=..."
  deriving DecidableEq

/-- The lines of a HonestDiD report that say something about the effect. -/
structure HonestPage (K : Type*) where
  ci : Ext K × Ext K
  robust : Bool            -- "Effect robust to violations: Yes/No"
  restriction : Restriction K
  verdict : Verdict K
  deriving DecidableEq

section
variable {K : Type*} [Field K] [LinearOrder K]

/-- honest_did.py 285-299. -/
def restriction (method : HonestDid.Method) (M : K) : Restriction K :=
  match method with
  | .relativeMagnitude => .multiple M
  | .smoothness => if M = 0 then .linear else .curvature M
  | .combined => .combined M

/-- honest_did.py 301-309. -/
def verdict (b : HonestDid.Bounds K) (M : K) : Verdict K :=
  if HonestDid.isSignificant b then
    if (Ext.fin 0).lt b.ciLb then .positive M else .negative M
  else .cannot M

/-- `HonestDiDResults.summary` (honest_did.py 237-313): the interval, the Yes/No line (274) and the two sentences. -/
def honestPage (method : HonestDid.Method) (b : HonestDid.Bounds K) (M : K) : HonestPage K :=
  { ci := (b.ciLb, b.ciUb), robust := HonestDid.isSignificant b, restriction := restriction method M, verdict := verdict b M }

/-- The star after the interval in `HonestDiDResults.__repr__` (honest_did.py 199-205). -/
def honestStar (b : HonestDid.Bounds K) : Bool := !(b.ciLb.le (.fin 0) && (Ext.fin 0).le b.ciUb)

/-! ### Sensitivity analysis -/

/-- The breakdown lines of `SensitivityResults.summary` (honest_did.py 405-412). -/
inductive Breakdown (K : Type*)
  | robustUpTo (v : K)   -- "Result is robust to violations up to M = v"
  | always               -- "Breakdown value: None (always significant)"
  deriving DecidableEq

/-- `SensitivityResults.summary` (honest_did.py 391-428): breakdown lines and table (421-424: M, bounds, interval). -/
def sensitivityPage (s : PlotMore.Sens K) : Breakdown K × List (K × HonestDid.Bounds K) :=
  (match s.breakdown with
    | some v => .robustUpTo v
    | none => .always, s.rows)

/-! ### Placebo tests -/

/-- The interpretation of a placebo test (diagnostics.py 144-157). -/
inductive PlaceboLine
  | warning     -- "WARNING: Significant placebo effect detected (p < 0.05). This suggests potential violations ..."
  | consistent  -- "No significant placebo effect detected (p >= 0.05). This is consistent with ..."
  deriving DecidableEq

/-- diagnostics.py 144-157. -/
def placeboLine {U : Type*} (r : Diagnostics.Placebo K U) : PlaceboLine := if r.significant then .warning else .consistent

/-- Leave-one-out block (diagnostics.py 120-134): units analysed, mean, minimum and maximum of the stored effects; printed only
when effects are stored (here: a non-empty list). NumPy's mean, min and max are NaN as soon as one stored effect is NaN. The
standard deviation line is omitted. -/
def looBlock {U : Type*} (r : Diagnostics.Placebo K U) : Option (ℕ × Option (K × K × K)) :=
  match r.looEffects with
  | [] => none
  | e :: es =>
    let all := (e :: es).map (fun x => x.2)
    some (all.length,
      if all.any Option.isNone then none
      else match all.filterMap id with
        | [] => none
        | v :: vs => some (Diagnostics.mean (v :: vs), vs.foldl min v, vs.foldl max v))

end

/-! ### Pre-trends power -/

/-- The interpretation of a pre-trends power analysis (pretrends.py 153-167). -/
inductive PowerLine
  | detects (M : ℝ)          -- "Power meets target. The pre-trends test would detect violations of magnitude M."
  | needs (m : Ext ℝ) (target : ℝ)  -- "Power below target. Would need violations of m to achieve target power."

/-- The line that follows (pretrends.py 169-175): "Minimum detectable violation (MDV): m. Passing pre-trends test does NOT rule out
violations up to this size." -/
structure PowerPage where
  line : PowerLine
  notRuledOut : Ext ℝ

open Classical in
/-- `PreTrendsPowerResults.summary` (pretrends.py 117-178). -/
noncomputable def powerPage {n : ℕ} (r : Pretrends.Result n) : PowerPage :=
  { line := if Pretrends.adequate r then .detects r.M else .needs r.mdv r.settings.target
    notRuledOut := r.mdv }

end DiffDiff.Reports
