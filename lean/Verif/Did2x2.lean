/-
Model of DifferenceInDifferences.fit: design matrix, treatment effect, absorbed fixed effects.
  /repo/diff_diff/estimators.py 231-299
A data frame is a finite type of rows; treatment and time are validated to be 0/1 (lines 218-219),
hence `Bool` columns. Missing values are rejected by `_validate_data` (lines 533-564) and are not
representable here.
-/
import Verif.Ols
import Verif.Within

namespace DiffDiff.Did2x2

variable {K : Type*} [Field K] {ι U : Type*} [Fintype ι] [DecidableEq U]

/-- 0/1 column as numbers (`data[treatment].values.astype(float)`, estimators.py 250-252). -/
def ind (b : Bool) : K := if b then 1 else 0

/-- `X = np.column_stack([ones, d, t, d*t])` (estimators.py 255-258). -/
def design (d t : ι → Bool) : ι → Fin 4 → K :=
  fun i => ![1, ind (d i), ind (t i), ind (d i) * ind (t i)]

/-- The design with covariates and fixed-effect dummies appended (estimators.py 261-275). -/
def designCov {κ : Type*} (d t : ι → Bool) (Z : ι → κ → K) : ι → (Fin 4 ⊕ κ) → K :=
  fun i => Sum.elim (design d t i) (Z i)

/-- `att = coefficients[3]` of a least-squares solution (estimators.py 277-299), no covariates. -/
def IsAtt (y : ι → K) (d t : ι → Bool) (att : K) : Prop :=
  ∃ b, Ols.IsOls (design d t) y b ∧ b 3 = att

/-- `att` with covariates or dummies. -/
def IsAttCov {κ : Type*} [Fintype κ] (y : ι → K) (d t : ι → Bool) (Z : ι → κ → K) (att : K) : Prop :=
  ∃ b : Fin 4 ⊕ κ → K, Ols.IsOls (designCov d t Z) y b ∧ b (Sum.inl 3) = att

/-- `fit(..., absorb=[unit])` (estimators.py 236-247): only the outcome (and covariates) are demeaned,
the treatment, time and interaction columns are used as they are. -/
def IsAttAbsorb (unit : ι → U) (y : ι → K) (d t : ι → Bool) (att : K) : Prop :=
  IsAtt (Within.demean unit y) d t att

/-! ### Specification -/

/-- Rows of the cell (treatment = a, time = b). -/
def cell (d t : ι → Bool) (a b : Bool) : Finset ι := Finset.univ.filter (fun i => d i = a ∧ t i = b)

/-- Mean outcome of a cell. -/
def cellMean (y : ι → K) (d t : ι → Bool) (a b : Bool) : K :=
  (∑ i ∈ cell d t a b, y i) / ((cell d t a b).card : K)

/-- Difference in differences of cell means. -/
def did (y : ι → K) (d t : ι → Bool) : K :=
  (cellMean y d t true true - cellMean y d t true false)
    - (cellMean y d t false true - cellMean y d t false false)

/-- Dummies for every unit (`fixed_effects=[unit]` up to the dropped first level). -/
def unitDummies (unit : ι → U) : ι → U → K := fun i u => if unit i = u then 1 else 0

end DiffDiff.Did2x2
