/-
Model of TwoWayFixedEffects.fit end to end with analytical inference: within transformation, regression, inference on the interaction, counts.
  /repo/diff_diff/twfe.py 57-246
A data frame is a finite type of rows with a unit, a period, a treatment, an outcome, covariates and possibly a cluster column. No missing values except
in the cluster column. The staggered check only warns (twfe.py 94, TwfeWarn.lean); the wild bootstrap branch (200-204) is in WildBoot.lean.
-/
import Verif.DidFit
import Verif.Within

namespace DiffDiff.TwfeFit
open Within

variable {K : Type*} [Field K] [LinearOrder K]
variable {ι U T C : Type*} [Fintype ι] [DecidableEq ι] [DecidableEq U] [DecidableEq T] [DecidableEq C]

/-- External routines: those of the DiD estimator and the redundant columns found by the pivoted QR decomposition (linalg.py 85-146). -/
structure Lib (ι K : Type*) extends DidFit.Lib ι K where
  redundant : ∀ {m : ℕ}, Matrix ι (Fin m) K → List (Fin m)

/-- The columns named in the call (twfe.py 57-65). `num` is the numeric value of a period label; `cluster` is the column `self.cluster`. -/
structure Data (ι U T C K : Type*) (c : ℕ) where
  y : ι → K
  treat : ι → K
  time : ι → T
  num : T → K
  unit : ι → U
  cov : Fin c → ι → K
  cluster : Option (ι → Option C)

inductive Err
  | reg (e : LinReg.Err)
  /-- "Treatment effect cannot be identified due to collinearity" (twfe.py 177-186) -/
  | unidentified
  deriving DecidableEq

/-- `_treatment_post = treatment * time`, not demeaned (twfe.py 105-107). -/
def post {c : ℕ} (D : Data ι U T C K c) : ι → K := fun i => D.treat i * D.num (D.time i)

/-- Working outcome (twfe.py 100, 110). -/
def outcome {c : ℕ} (D : Data ι U T C K c) : ι → K := within D.unit D.time D.y

/-- Constant, interaction, demeaned covariates (twfe.py 111-117). -/
def design {c : ℕ} (D : Data ι U T C K c) : Matrix ι (Fin (c + 2)) K :=
  fun i => Fin.cons 1 (Fin.cons (post D i) (fun j => within D.unit D.time (D.cov j) i))

/-- `data[unit].nunique()` and `data[time].nunique()` (twfe.py 123-124). -/
def nUnique {G : Type*} [DecidableEq G] (g : ι → G) : ℕ := (Finset.univ.image g).card

/-- `n_units + n_times - 2` (twfe.py 125). -/
def adjustment {c : ℕ} (D : Data ι U T C K c) : ℤ := (nUnique D.unit : ℤ) + (nUnique D.time : ℤ) - 2

/-- The regression (twfe.py 97, 129-157): always robust, clustered by `self.cluster` if set and by the unit otherwise. -/
noncomputable def regress {c : ℕ} (L : Lib ι K) (strict : Bool) (D : Data ι U T C K c) : Except LinReg.Err (LinReg.Fit ι (c + 2) K) :=
  match D.cluster with
  | some g => LinReg.fit L.solvers (⟨true, some g, none, strict⟩ : LinReg.Opts ι C) (L.redundant (design D)) (design D) (outcome D) (adjustment D)
  | none =>
    LinReg.fit L.solvers (⟨true, some (fun i => some (D.unit i)), none, strict⟩ : LinReg.Opts ι U) (L.redundant (design D)) (design D) (outcome D)
      (adjustment D)

/-- Units with a row where treatment equals one (twfe.py 213). -/
def treatedUnits {c : ℕ} (D : Data ι U T C K c) : Finset U := (Finset.univ.filter (fun i => D.treat i = 1)).image D.unit

/-- `fit` (twfe.py 57-246). A NaN coefficient of the interaction is an error (168-186). -/
noncomputable def fit {c : ℕ} (L : Lib ι K) (strict : Bool) (alpha : K) (D : Data ι U T C K c) : Except Err (DidFit.Result K) :=
  match regress L strict D with
  | .error e => .error (.reg e)
  | .ok f =>
    match f.coef 1 with
    | none => .error .unidentified
    | some b =>
      let inf := LinReg.infer L.sqrt L.tD L.nD f 1 none alpha none
      .ok { att := .fin b, se := inf.se, t := inf.t, p := inf.p, ci := inf.ci
            nObs := Fintype.card ι
            nTreated := (treatedUnits D).card
            nControl := nUnique D.unit - (treatedUnits D).card
            r2 := LinReg.rsq f (outcome D) false }

end DiffDiff.TwfeFit
