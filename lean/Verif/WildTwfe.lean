/-
Model of TwoWayFixedEffects.fit with inference="wild_bootstrap".
  /repo/diff_diff/twfe.py 57-246, /repo/diff_diff/estimators.py 390-438 (_run_wild_bootstrap_inference), /repo/diff_diff/utils.py 403-520
Analytical inference is in TwfeFit.lean, the bootstrap itself in WildLin.lean. Real arithmetic; no missing values; a fresh estimator object; alpha in
[0, 2]; the random weights of a replicate are a function of the cluster.
-/
import Verif.WildLin

namespace DiffDiff.WildTwfe
open TwfeFit (Lib Data design outcome adjustment treatedUnits nUnique)
open WildLin (Report wild override)

variable {ι U T C : Type*} [Fintype ι] [DecidableEq ι] [DecidableEq U] [DecidableEq T] [DecidableEq C]

inductive Err
  | reg (e : LinReg.Err)
  /-- "Treatment effect cannot be identified due to collinearity" (twfe.py 177-186) -/
  | unidentified
  | boot (e : WildLin.Err)
  deriving DecidableEq

/-- `cluster_ids`: the column `self.cluster` if set, the unit otherwise (twfe.py 97, 129). -/
def labels {c : ℕ} (D : Data ι U T C ℝ c) (ids : Option (ι → C)) : ι → U ⊕ C :=
  match ids with
  | none => fun i => .inl (D.unit i)
  | some g => fun i => .inr (g i)

/-- `fit` (twfe.py 57-246) with `inference="wild_bootstrap"`. The first regression has no cluster identifiers (135-157); the bootstrap replaces standard
error, p-value, interval and t statistic (200-204). `ids` is the column `self.cluster`, the field `cluster` of the data is not used. -/
noncomputable def fit {c : ℕ} (L : Lib ι ℝ) (strict : Bool) (alpha : ℝ) (wt : String) (draws : List (U ⊕ C → ℝ)) (D : Data ι U T C ℝ c)
    (ids : Option (ι → C)) : Except Err Report :=
  match LinReg.fit L.solvers (⟨true, none, none, strict⟩ : LinReg.Opts ι C) (L.redundant (design D)) (design D) (outcome D) (adjustment D) with
  | .error e => .error (.reg e)
  | .ok f =>
    match f.coef 1 with
    | none => .error .unidentified
    | some b =>
      match wild L wt (design D) (outcome D) (labels D ids) 1 0 alpha draws with
      | .error e => .error (.boot e)
      | .ok B =>
        .ok (override
          { att := .fin b, se := .nan, t := .nan, p := .nan, ci := (.nan, .nan)
            nObs := Fintype.card ι
            nTreated := (treatedUnits D).card
            nControl := nUnique D.unit - (treatedUnits D).card
            r2 := LinReg.rsq f (outcome D) false } B)

end DiffDiff.WildTwfe
