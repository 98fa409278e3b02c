/-
Model of the one-way and two-way within transformations and of TwoWayFixedEffects.fit.
  /repo/diff_diff/utils.py 1350-1484, /repo/diff_diff/twfe.py 57-246
A data frame is a finite type of rows `ι` with a key column and a numeric column.
Simplification: no missing keys or values (pandas would skip NaN in the means).
-/
import Verif.Prelude

namespace DiffDiff.Within

variable {K : Type*} [Field K]
variable {ι G U T : Type*} [Fintype ι] [DecidableEq G] [DecidableEq U] [DecidableEq T]

/-- Rows in the same group as row `i`. -/
def grp (g : ι → G) (a : G) : Finset ι := Finset.univ.filter (fun j => g j = a)

/-- `grouper[var].transform("mean")` (utils.py 1400, 1465-1466). -/
def groupMean (g : ι → G) (x : ι → K) (i : ι) : K :=
  (∑ j ∈ grp g (g i), x j) / ((grp g (g i)).card : K)

/-- `demean_by_group` for one variable (utils.py 1398-1401). -/
def demean (g : ι → G) (x : ι → K) : ι → K := fun i => x i - groupMean g x i

/-- `data[group_var].nunique() - 1` (utils.py 1393), an integer: -1 for an empty frame. -/
def nEffects (g : ι → G) : ℤ := ((Finset.univ.image g).card : ℤ) - 1

/-- `data[var].mean()` (utils.py 1467, 1475). -/
def grandMean (x : ι → K) : K := (∑ j, x j) / (Fintype.card ι : K)

/-- `within_transform` for one variable (utils.py 1462-1478). -/
def within (unit : ι → U) (time : ι → T) (x : ι → K) : ι → K :=
  fun i => x i - groupMean unit x i - groupMean time x i + grandMean x

/-- Normal equations of the regression of `y` on an intercept and one regressor `d`: what
`LinearRegression.fit` solves in `TwoWayFixedEffects.fit` without covariates (twfe.py 117, 142-153). -/
def IsOls1 (y d : ι → K) (b0 b1 : K) : Prop :=
  ∑ i, (y i - b0 - b1 * d i) = 0 ∧ ∑ i, d i * (y i - b0 - b1 * d i) = 0

/-- `TwoWayFixedEffects.fit` without covariates (twfe.py 100-110, 159): the outcome is within
transformed, the regressor `treatment * time` is not. `att` is reported when it is a solution of
the normal equations for some intercept (twfe.py 117-120). `period` is the numeric time column. -/
def IsTwfeAtt (unit : ι → U) (period : ι → T) (num : T → K) (treat y : ι → K) (att : K) : Prop :=
  ∃ b0, IsOls1 (within unit period y) (fun i => treat i * num (period i)) b0 att

/-! ### Specification -/

/-- Every unit is observed exactly once in every period. -/
def Balanced (unit : ι → U) (time : ι → T) : Prop :=
  Function.Bijective (fun i => (unit i, time i))

/-- Textbook definition of the two-way fixed effects coefficient on `d`: least squares with a dummy
for every unit and every period (normal equations). -/
def IsTwfeCoef (unit : ι → U) (time : ι → T) (d y : ι → K) (tau : K) : Prop :=
  ∃ (a : U → K) (b : T → K),
    (∀ u, ∑ i ∈ grp unit u, (y i - a (unit i) - b (time i) - tau * d i) = 0) ∧
    (∀ t, ∑ i ∈ grp time t, (y i - a (unit i) - b (time i) - tau * d i) = 0) ∧
    ∑ i, d i * (y i - a (unit i) - b (time i) - tau * d i) = 0

end DiffDiff.Within
