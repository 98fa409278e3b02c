/-
Model of bootstrap statistics of the Callaway-Sant'Anna and Sun-Abraham estimators.
  /repo/diff_diff/staggered_bootstrap.py 630-753, /repo/diff_diff/sun_abraham.py 1135-1159
Standard errors are represented by their squares.
-/
import Verif.Ext
import Mathlib.Algebra.Order.Floor.Semiring
import Mathlib.Data.Rat.Floor

namespace DiffDiff.BootStats

variable {K : Type*} [Field K] [LinearOrder K] [IsStrictOrderedRing K] [FloorSemiring K]

/-- `np.percentile(x, 100*q)` on an already sorted non-empty list: linear interpolation at position q*(n-1)
(NumPy's default method). -/
def pctSorted (s : List K) (q : K) : K :=
  let h := q * ((s.length : K) - 1)
  let i := ⌊h⌋₊
  let a := s.getD i 0
  let b := s.getD (min (i + 1) (s.length - 1)) 0
  a + (b - a) * (h - (i : K))

/-- `np.percentile(x, 100*q)`. -/
def percentile (x : List K) (q : K) : K := pctSorted (x.insertionSort (· ≤ ·)) q

/-- `_compute_percentile_ci` (staggered_bootstrap.py 630-638). -/
def percentileCI (x : List K) (alpha : K) : K × K := (percentile x (alpha / 2), percentile x (1 - alpha / 2))

/-- `_compute_bootstrap_pvalue` (staggered_bootstrap.py 640-683); `nFloor` is n_valid or n_bootstrap. -/
def pvalue (orig : K) (x : List K) (nFloor : ℕ) : K :=
  let side := if 0 ≤ orig then x.filter (fun d => decide (d ≤ 0)) else x.filter (fun d => decide (0 ≤ d))
  let one : K := (side.length : K) / (x.length : K)
  max (min (2 * one) 1) (1 / ((nFloor : K) + 1))

/-- Squared `np.std(x, ddof=1)`; NaN (`none`) for fewer than two values. -/
def var1 (x : List K) : Option K :=
  if x.length ≤ 1 then none
  else some ((x.map (fun d => (d - x.sum / (x.length : K)) ^ 2)).sum / ((x.length : K) - 1))

/-- Finite members (staggered_bootstrap.py 718, 744). -/
def finites (x : List (Ext K)) : List K :=
  x.filterMap (fun d => match d with
    | .fin v => some v
    | _ => none)

/-- Result of `_compute_effect_bootstrap_stats`. -/
inductive Stats (K : Type*)
  | nan
  | ok (se2 : Option K) (ci : K × K) (p : K)
  deriving DecidableEq

/-- `_compute_effect_bootstrap_stats` (staggered_bootstrap.py 685-753), for a non-empty vector of draws
(`n_bootstrap > 0`). -/
def effectStats (alpha orig : K) (draws : List (Ext K)) : Stats K :=
  let v := finites draws
  if (v.length : K) < (draws.length : K) * (1 / 2) then .nan
  else .ok (var1 v) (percentileCI v alpha) (pvalue orig v v.length)

end DiffDiff.BootStats
