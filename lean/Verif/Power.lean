/-
Model of the analytical power calculations.
  /repo/diff_diff/power.py 31-33 (MAX_SAMPLE_SIZE), 397-893 (PowerAnalysis)
Simplifications: real arithmetic; the normal distribution function `cdf` and quantile `ppf` are parameters; unit counts
are natural numbers and a count of zero raises ZeroDivisionError as in the code; overflow of the required sample size to
infinity does not occur over the reals.
-/
import Verif.Prelude
import Mathlib.Analysis.SpecialFunctions.Sqrt
import Mathlib.Algebra.Order.Floor.Semiring

namespace DiffDiff.Power

inductive Err | badAlpha | badPower | zeroDivision deriving DecidableEq, Repr

inductive Alternative | twoSided | greater | less deriving DecidableEq, Repr

inductive Design | basic | panel deriving DecidableEq, Repr

/-- Normal distribution function and quantile function. -/
structure Normal where
  cdf : ℝ → ℝ
  ppf : ℝ → ℝ

structure Settings where
  alpha : ℝ
  target : ℝ
  alternative : Alternative

/-- `__init__` (power.py 397-412); other strings than the three alternatives are not representable. -/
noncomputable def validate (alpha target : ℝ) (a : Alternative) : Except Err Settings :=
  if ¬ (0 < alpha ∧ alpha < 1) then .error .badAlpha
  else if ¬ (0 < target ∧ target < 1) then .error .badPower
  else .ok ⟨alpha, target, a⟩

/-- Critical value for the test (power.py 416-419). -/
noncomputable def zAlpha (N : Normal) (s : Settings) : ℝ :=
  match s.alternative with
  | .twoSided => N.ppf (1 - s.alpha / 2)
  | _ => N.ppf (1 - s.alpha)

/-- `z_alpha + z_beta` (power.py 414-421, 574-577). -/
noncomputable def zSum (N : Normal) (s : Settings) : ℝ := zAlpha N s + N.ppf s.target

/-- Choice of design (power.py 528-529). -/
def design (pre post : ℕ) : Design := if 2 < pre + post then .panel else .basic

/-- `_compute_variance` (power.py 423-485), counts positive. -/
noncomputable def variance (d : Design) (nt nc pre post : ℕ) (sigma rho : ℝ) : ℝ :=
  match d with
  | .basic => sigma ^ 2 * (1 / (nt : ℝ) + 1 / (nt : ℝ) + 1 / (nc : ℝ) + 1 / (nc : ℝ))
  | .panel =>
    sigma ^ 2 * (1 / (nt : ℝ) + 1 / (nc : ℝ)) * (1 + ((pre + post : ℕ) - 1 : ℝ) * rho) / ((pre + post : ℕ) : ℝ)

noncomputable def se (nt nc pre post : ℕ) (sigma rho : ℝ) : ℝ :=
  Real.sqrt (variance (design pre post) nt nc pre post sigma rho)

/-- Power for a standard error (power.py 536-549). -/
noncomputable def powerAt (N : Normal) (s : Settings) (effect se : ℝ) : ℝ :=
  match s.alternative with
  | .twoSided => 1 - N.cdf (zAlpha N s - effect / se) + N.cdf (-zAlpha N s - effect / se)
  | .greater => 1 - N.cdf (zAlpha N s - effect / se)
  | .less => N.cdf (-zAlpha N s - effect / se)

/-- `_compute_mde_from_se` (power.py 574-577). -/
noncomputable def mdeFromSe (N : Normal) (s : Settings) (se : ℝ) : ℝ := zSum N s * se

/-- Sample size before rounding (power.py 660-689). -/
noncomputable def rawN (N : Normal) (s : Settings) (d : Design) (effect sigma : ℝ) (pre post : ℕ) (rho frac : ℝ) : ℝ :=
  match d with
  | .basic => 2 * sigma ^ 2 * zSum N s ^ 2 / (effect ^ 2 * frac * (1 - frac))
  | .panel => 2 * sigma ^ 2 * zSum N s ^ 2 * (1 + ((pre + post : ℕ) - 1 : ℝ) * rho) /
      (effect ^ 2 * frac * (1 - frac) * ((pre + post : ℕ) : ℝ))

/-- `MAX_SAMPLE_SIZE` (power.py 33). -/
def maxSampleSize : ℕ := 2 ^ 31 - 1

/-- `_compute_required_n` (power.py 646-695). -/
noncomputable def requiredN (N : Normal) (s : Settings) (d : Design) (effect sigma : ℝ) (pre post : ℕ) (rho frac : ℝ) :
    ℕ :=
  if effect = 0 then maxSampleSize else max 4 ⌈rawN N s d effect sigma pre post rho frac⌉₊

structure Result where
  power : ℝ
  mde : ℝ
  requiredN : ℕ
  effect : ℝ
  nt : ℕ
  nc : ℕ

/-- `power` (power.py 487-572). -/
noncomputable def power (N : Normal) (s : Settings) (effect : ℝ) (nt nc : ℕ) (sigma : ℝ) (pre post : ℕ) (rho : ℝ) :
    Except Err Result :=
  if nt = 0 ∨ nc = 0 then .error .zeroDivision
  else .ok
    { power := powerAt N s effect (se nt nc pre post sigma rho)
      mde := mdeFromSe N s (se nt nc pre post sigma rho)
      requiredN := requiredN N s (design pre post) effect sigma pre post rho ((nt : ℝ) / ((nt + nc : ℕ) : ℝ))
      effect := effect, nt := nt, nc := nc }

/-- `mde` (power.py 579-644). -/
noncomputable def mde (N : Normal) (s : Settings) (nt nc : ℕ) (sigma : ℝ) (pre post : ℕ) (rho : ℝ) : Except Err Result :=
  if nt = 0 ∨ nc = 0 then .error .zeroDivision
  else .ok
    { power := s.target
      mde := mdeFromSe N s (se nt nc pre post sigma rho)
      requiredN := nt + nc
      effect := mdeFromSe N s (se nt nc pre post sigma rho), nt := nt, nc := nc }

/-- Treated units allocated (power.py 742). -/
noncomputable def allocTreated (n : ℕ) (frac : ℝ) : ℕ := max 2 ⌈(n : ℝ) * frac⌉₊

/-- Control units allocated (power.py 743). -/
noncomputable def allocControl (n : ℕ) (frac : ℝ) : ℕ := max 2 (n - allocTreated n frac)

/-- `sample_size` (power.py 697-767); the code raises when the fraction is 0 or 1 and the effect is not 0. -/
noncomputable def sampleSize (N : Normal) (s : Settings) (effect sigma : ℝ) (pre post : ℕ) (rho frac : ℝ) :
    Except Err Result :=
  if effect ≠ 0 ∧ (frac = 0 ∨ frac = 1) then .error .zeroDivision
  else
    let n := requiredN N s (design pre post) effect sigma pre post rho frac
    let nt := allocTreated n frac
    let nc := allocControl n frac
    .ok
      { power := s.target
        mde := mdeFromSe N s (se nt nc pre post sigma rho)
        requiredN := nt + nc
        effect := effect, nt := nt, nc := nc }

end DiffDiff.Power
