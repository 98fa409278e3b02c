/-
An infinite unit penalty in the TROP weights is not treated as zero. `fit` and the leave-one-out search replace infinite penalties before weights
are computed (trop.py 758-763, 1427-1429, 2111-2116), so this concerns the weight routine itself.
-/
import Verif.TropFitProps

set_option linter.unusedSectionVars false
set_option linter.unusedVariables false

namespace DiffDiff.TropFit

variable {K : Type*} [Field K] [LinearOrder K] [IsStrictOrderedRing K]

/-- Given an infinite unit penalty, an untreated unit at a positive distance gets weight 0, not the weight 1 of a zero penalty. -/
theorem unitWeight_infinite (e r : K → K) (svd) (P : Data (Ext K)) (i t j : ℕ) (d : K) (hj : j ≠ i) (hD : P.D t j = 0) (hd : 0 < d)
    (h : dist (extOps e r svd) P j i t = some (.fin d)) :
    unitWeight (extOps e r svd) P .pinf i t j = .fin 0 ∧ unitWeight (extOps e r svd) P (.fin 0) i t j = .fin 1 := by
  unfold unitWeight
  rw [if_neg hj, if_pos hD, if_neg hj, if_pos hD, h]
  constructor
  · have hs : Ext.sgn d = 1 := by simp [Ext.sgn, hd.not_gt, hd.ne']
    simp [extOps, Ext.neg, Ext.mul, extExp, hs, Ext.infOf]
  · simp [extOps]

/-- Two periods, two units, outcomes 0 and 3 in the first period. -/
example : unitWeight (extOps (fun x : ℚ => x) (fun x => x) (fun _ _ _ _ _ _ => 0))
    { nT := 2, nN := 2, Y := fun _ i => some (.fin (3 * (i : ℚ))), D := fun _ _ => 0 } .pinf 0 1 1 = .fin 0 :=
  (unitWeight_infinite _ _ _ _ 0 1 1 9 (by decide) rfl (by norm_num) (by decide +kernel)).1

end DiffDiff.TropFit
