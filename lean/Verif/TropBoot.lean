/-
Model of the Python bootstrap of `TROP(method="joint")`, from the rows of the data.
  /repo/diff_diff/trop.py 1637-1693 (resampling, standard error), 1695-1744 (one replicate).
The resampling lines are those of the two-step method as well (trop.py 2849-2882).
Exact arithmetic; the routines of `TropJoint.Env` do not raise `LinAlgError`. Unit labels of the data are of one type, so that building a
NumPy array from them changes none of them. The random draws are lists of positions.
-/
import Verif.TropJoint
import Mathlib.Data.List.MinMax
import Mathlib.Data.List.Lex
import Mathlib.Data.Char

namespace DiffDiff.TropBoot

open TropFit (Data Cfg)
open Trop (Row unitsOf periodsOf yCell dCell hasDup)
open TropJoint (Env Lam3)

section
variable {U T K : Type*} [LinearOrder U] [LinearOrder T] [Field K] [LinearOrder K] [IsStrictOrderedRing K] [FloorRing K]

/-- `data.groupby(unit)[treatment].max()` (trop.py 1640): missing values are skipped; `⊥` when all are missing. -/
def everMax (rows : List (Row U T K)) (u : U) : WithBot K :=
  ((rows.filter (fun r => decide (r.unit = u))).filterMap Row.d).maximum

/-- `treated_units` (trop.py 1641). -/
def treatedOf (rows : List (Row U T K)) : List U := (unitsOf rows).filter (fun u => decide (everMax rows u = ((1 : K) : WithBot K)))

/-- `control_units` (trop.py 1642). -/
def controlOf (rows : List (Row U T K)) : List U := (unitsOf rows).filter (fun u => decide (everMax rows u = ((0 : K) : WithBot K)))

/-- `sampled_units` for the drawn positions (trop.py 1651-1666). -/
def drawn (rows : List (Row U T K)) (d : List ℕ × List ℕ) : List U :=
  d.1.filterMap (fun k => (controlOf rows)[k]?) ++ d.2.filterMap (fun k => (treatedOf rows)[k]?)

/-- What `rng.choice(..., size=n, replace=True)` returns for both strata (trop.py 1651-1664). -/
def Draw (rows : List (Row U T K)) (d : List ℕ × List ℕ) : Prop :=
  d.1.length = (controlOf rows).length ∧ d.2.length = (treatedOf rows).length ∧
  (∀ k ∈ d.1, k < (controlOf rows).length) ∧ (∀ k ∈ d.2, k < (treatedOf rows).length)

/-- `f"{u}_{idx}"` (trop.py 1670); `text` is the printed unit. -/
def label (text : U → List Char) (u : U) (k : ℕ) : List Char := text u ++ '_' :: Nat.toDigits 10 k

/-- `boot_data` (trop.py 1669-1672): the rows of each drawn unit under a new label. -/
def bootRows (text : U → List Char) (rows : List (Row U T K)) (s : List U) : List (Row (List Char) T K) :=
  s.zipIdx.flatMap (fun p => (rows.filter (fun r => decide (r.unit = p.1))).map (fun r =>
    { unit := label text p.1 p.2, time := r.time, y := r.y, d := r.d }))

/-- `Y` and `D` (trop.py 1712-1729): units and periods of the given rows, sorted. -/
def dataOf (rows : List (Row U T K)) : Data K :=
  { nT := (periodsOf rows).length
    nN := (unitsOf rows).length
    Y := fun t i => match (periodsOf rows)[t]?, (unitsOf rows)[i]? with
      | some a, some u => yCell rows a u
      | _, _ => none
    D := fun t i => match (periodsOf rows)[t]?, (unitsOf rows)[i]? with
      | some a, some u => dCell rows a u
      | _, _ => 0 }

/-- `_fit_joint_with_fixed_lambda` (trop.py 1695-1744); `none`: `ValueError`, from `pivot`, from the weights (trop.py 903-904, 935-936) or
from the solver. `tp` is `treated_periods` of the whole data. -/
def fitFixed (v : Env K) (c : Cfg K) (rows : List (Row U T K)) (tp : ℕ) (l : Lam3 K) : Option K :=
  if hasDup rows then none
  else if TropJoint.treated (dataOf rows) = [] then none
  else if (dataOf rows).nT ≤ tp then none
  else (TropJoint.fitLam v c (dataOf rows) tp l).map (fun f => f.1.tau)

/-- One replicate (trop.py 1649-1681). -/
def replicate (v : Env K) (c : Cfg K) (text : U → List Char) (rows : List (Row U T K)) (tp : ℕ) (l : Lam3 K) (d : List ℕ × List ℕ) : Option K :=
  fitFixed v c (bootRows text rows (drawn rows d)) tp l

/-- `np.std(x, ddof=1)` (trop.py 1692); `none` is NaN. -/
def std1 (v : Env K) (xs : List K) : Option K :=
  if xs.length ≤ 1 then none
  else some (v.r ((xs.map (fun x => (x - xs.sum / (xs.length : K)) ^ 2)).sum / ((xs.length : K) - 1)))

/-- `_bootstrap_variance_joint` without the compiled library (trop.py 1637-1693): standard error, replicates kept, whether a warning is
raised. `none`: `pd.concat` of no frames raises a `ValueError` that is not caught (trop.py 1669-1672). -/
def bootVar (v : Env K) (c : Cfg K) (text : U → List Char) (rows : List (Row U T K)) (tp : ℕ) (l : Lam3 K) (draws : List (List ℕ × List ℕ)) :
    Option (Option K × List K × Bool) :=
  if draws.any (fun d => (drawn rows d).isEmpty) then none
  else
    let xs := draws.filterMap (replicate v c text rows tp l)
    if xs = [] then some (some 0, [], true) else some (std1 v xs, xs, decide (xs.length < 10))

end
end DiffDiff.TropBoot
