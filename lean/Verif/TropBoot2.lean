/-
Model of the Python bootstrap of `TROP(method="twostep")`, from the rows of the data.
  /repo/diff_diff/trop.py 2841-2906 (resampling, standard error), 3005-3078 (one replicate), 2290-2324 (stored weights), 2555-2574.
The draws, labels and rows of a replicate are those of `Verif/TropBoot.lean` (the lines are the same in both methods); the estimation is
that of `Verif/TropFit.lean`. Exact arithmetic; no `LinAlgError`; the compiled library is absent.
-/
import Verif.TropBoot

namespace DiffDiff.TropBoot

open TropFit (Data Cfg Ops)
open Trop (Row hasDup)

/-- What happens to one replicate: a number (`none` is NaN) is appended, the replicate is skipped, or an exception leaves `fit`. -/
inductive Rep (N : Type*) where
  | value (x : Option N)
  | skipped
  | raised
  deriving DecidableEq

section
variable {U T K : Type*} [LinearOrder U] [LinearOrder T] [Field K] [LinearOrder K] [IsStrictOrderedRing K] [FloorRing K]

/-- `_fit_with_fixed_lambda` (trop.py 3005-3078) with the handler of trop.py 2884-2892. `P` is the panel stored by `fit`.
`ValueError` from `pivot` on duplicates and from an empty list of treated cells is caught. The stored treatment row of the target period has
one entry per unit of the data: with `lambda_unit == 0` it indexes a vector with one entry per unit of the replicate (trop.py 2298-2307),
which raises `IndexError` if the numbers differ, and `IndexError` is not caught. The weight matrix has the periods of the data; multiplying
it with the replicate's mask (trop.py 2574) raises `ValueError` if the numbers of periods differ. Simplification: if a single period is left
NumPy repeats it instead of raising; that case is not modelled. -/
def fitStored (o : Ops K) (c : Cfg K) (P : Data K) (rows : List (Row U T K)) (l : TropFit.Lam3 K) : Rep K :=
  if hasDup rows then .skipped
  else if TropFit.treatedCells (dataOf rows) = [] then .skipped
  else if o.isZero l.unit = true ∧ (dataOf rows).nN ≠ P.nN then .raised
  else if (dataOf rows).nT ≠ P.nT then .skipped
  else .value (TropFit.att o c (some P) (dataOf rows) l)

/-- One replicate (trop.py 2856-2892). -/
def replicate2 (o : Ops K) (c : Cfg K) (text : U → List Char) (rows : List (Row U T K)) (l : TropFit.Lam3 K) (d : List ℕ × List ℕ) : Rep K :=
  fitStored o c (dataOf rows) (bootRows text rows (drawn rows d)) l

/-- The estimates appended by the loop (trop.py 2854-2894); `none`: an exception leaves the loop. An empty draw makes `pd.concat` raise
outside the `try` (trop.py 2878-2882). -/
def collect (o : Ops K) (c : Cfg K) (text : U → List Char) (rows : List (Row U T K)) (l : TropFit.Lam3 K) :
    List (List ℕ × List ℕ) → Option (List (Option K))
  | [] => some []
  | d :: ds =>
    if (drawn rows d).isEmpty then none
    else match replicate2 o c text rows l d with
      | .raised => none
      | .skipped => collect o c text rows l ds
      | .value x => (collect o c text rows l ds).map (fun xs => x :: xs)

/-- `np.std(x, ddof=1)` (trop.py 2905); `none` is NaN: fewer than two entries, or a NaN among them. -/
def stdO (o : Ops K) (xs : List (Option K)) : Option K :=
  match xs.mapM id with
  | none => none
  | some ys =>
    if ys.length ≤ 1 then none
    else some (o.sqrt ((ys.map (fun y => (y - ys.sum / (ys.length : K)) ^ 2)).sum / ((ys.length : K) - 1)))

/-- `_bootstrap_variance` without the compiled library (trop.py 2841-2906): standard error, estimates, whether a warning is raised. -/
def bootVar2 (o : Ops K) (c : Cfg K) (text : U → List Char) (rows : List (Row U T K)) (l : TropFit.Lam3 K) (draws : List (List ℕ × List ℕ)) :
    Option (Option K × List (Option K) × Bool) :=
  (collect o c text rows l draws).map (fun xs =>
    if xs = [] then (some 0, [], true) else (stdO o xs, xs, decide (xs.length < 10)))

end
end DiffDiff.TropBoot
