/-
Property C156 (SyntheticDiD): the sign of the outcome.
-/
import Verif.SdidScaleProps

set_option linter.unusedSectionVars false
set_option linter.unusedVariables false

namespace DiffDiff.SdidFit

open DiffDiff.Sdid (sdid avg placeboOnce inference)
open DiffDiff.SynthWeights

variable {K : Type*} [Field K] [LinearOrder K] [IsStrictOrderedRing K]

/-- The opposite outcome on every row. -/
def negRows (rows : List (Row K)) : List (Row K) := rows.map (fun r => { r with y := r.y.map (fun x => -x) })

/-- The report of the opposite effect: estimate, t statistic and draws with the other sign, the interval mirrored, the rest the same. -/
def mirror (R : Res K) : Res K :=
  { R with att := -R.att, t := -R.t, ci := (-R.ci.2, -R.ci.1), effects := R.effects.map (fun x => -x) }

/-- Weight routines that do not look at the sign of the outcome. -/
def EvenWeights (W : Weights K) : Prop :=
  ∀ {p n : ℕ} (Y : Fin p → Fin n → K) (T : Fin p → K),
    W.unit (fun t j => -Y t j) (fun t => -T t) = W.unit Y T ∧ W.time (fun t j => -Y t j) (fun t => -T t) = W.time Y T

theorem negRows_eq (rows : List (Row K)) : negRows rows = scale (-1) rows := by
  unfold negRows scale
  congr 1
  funext r
  congr 2
  funext x
  ring

theorem EvenWeights.same {W : Weights K} (h : EvenWeights W) : SameWeights (-1) W W := by
  intro p n Y T
  have := h Y T
  simp only [neg_one_mul]
  exact this

theorem inference_neg (pval : K → K) (hp : ∀ t, pval (-t) = pval t) (crit att se : K) (draws : List K) :
    inference pval crit (-att) se (draws.map (fun x => -x))
      = (-(inference pval crit att se draws).1, (inference pval crit att se draws).2.1,
        (-(inference pval crit att se draws).2.2.2, -(inference pval crit att se draws).2.2.1)) := by
  unfold inference
  dsimp only
  have e3 : ((draws.map (fun x => -x)).filter (fun x => decide (|-att| ≤ |x|))).length = (draws.filter (fun x => decide (|att| ≤ |x|))).length := by
    rw [List.filter_map, List.length_map]
    congr 1
    refine List.filter_congr fun x _ => ?_
    simp only [Function.comp, abs_neg]
  rw [e3]
  simp only [List.length_map, neg_div, hp]
  split_ifs <;> simp only [Prod.mk.injEq, neg_zero, true_and] <;> constructor <;> ring

/-- C156. SyntheticDiD: the opposite outcome gives the mirrored report, exactly and with the same settings, for every panel, both variance
methods and every sequence of draws; errors stay. `pval` is the two-sided p-value of the normal distribution. -/
theorem C156_sdid (W : Weights K) (h : EvenWeights W) (r pval : K → K) (hp : ∀ t, pval (-t) = pval t) (crit : K)
    (boot : Bool) (draws : List (List ℕ)) (rows : List (Row K)) (postArg : Option (List ℤ)) :
    fit W r pval crit boot draws (negRows rows) postArg = (fit W r pval crit boot draws rows postArg).map mirror := by
  rw [negRows_eq]
  have h : SameWeights (-1) W W := h.same
  unfold fit
  rw [sample_scale, outcome_scale]
  cases hs : sample rows postArg with
  | error e => rfl
  | ok s =>
    dsimp only
    rw [unitW_scale h, timeW_scale h, attOn_scale h, preFit2_scale h, bootSe_scale h, placeboSe_scale]
    have hlen : (scale (-1) rows).length = rows.length := by unfold scale; rw [List.length_map]
    have hv : (if boot = true then Except.map (scaleVar (-1)) (bootSe W (outcome rows) s.pre s.post s.trt s.ctl draws)
          else (.ok (scaleVar (-1) (placeboSe (fun (t : Fin s.pre.length) (j : Fin s.ctl.length) => outcome rows (s.ctl.get j) (s.pre.get t))
            (fun (t : Fin s.post.length) j => outcome rows (s.ctl.get j) (s.post.get t)) (unitW W (outcome rows) s.pre s.trt s.ctl)
            (timeW W (outcome rows) s.pre s.trt s.ctl) s.trt.length draws)) : Except Err (K × List K)))
        = Except.map (scaleVar (-1)) (if boot = true then bootSe W (outcome rows) s.pre s.post s.trt s.ctl draws
          else .ok (placeboSe (fun (t : Fin s.pre.length) (j : Fin s.ctl.length) => outcome rows (s.ctl.get j) (s.pre.get t))
            (fun (t : Fin s.post.length) j => outcome rows (s.ctl.get j) (s.post.get t)) (unitW W (outcome rows) s.pre s.trt s.ctl)
            (timeW W (outcome rows) s.pre s.trt s.ctl) s.trt.length draws)) := by
      cases boot <;> rfl
    rw [hv]
    generalize (if boot = true then bootSe W (outcome rows) s.pre s.post s.trt s.ctl draws
          else .ok (placeboSe (fun (t : Fin s.pre.length) (j : Fin s.ctl.length) => outcome rows (s.ctl.get j) (s.pre.get t))
            (fun (t : Fin s.post.length) j => outcome rows (s.ctl.get j) (s.post.get t)) (unitW W (outcome rows) s.pre s.trt s.ctl)
            (timeW W (outcome rows) s.pre s.trt s.ctl) s.trt.length draws)) = V
    cases V with
    | error e => rfl
    | ok x =>
      obtain ⟨se2, est⟩ := x
      have e1 : (-1 : K) ^ 2 = 1 := by ring
      simp only [Except.map, scaleVar, mirror, e1, one_mul, neg_one_mul, inference_neg pval hp, hlen]

/-! ### The routines of the code -/

theorem hess_neg {p n : ℕ} (lam : ℝ) (Y : Fin p → Fin n → ℝ) : hess (Matrix.of fun t j => -Y t j) lam = hess (Matrix.of Y) lam := by
  have := hess_scale (-1) lam Y
  simpa using this

theorem lin_neg {p n : ℕ} (Y : Fin p → Fin n → ℝ) (T : Fin p → ℝ) :
    (Matrix.of fun t j => -Y t j).transpose.mulVec (fun t => -T t) = (Matrix.of Y).transpose.mulVec T := by
  funext i
  simp [Matrix.mulVec, dotProduct]

theorem gaps_neg {p n : ℕ} (Y : Fin p → Fin n → ℝ) (T : Fin p → ℝ) : gaps (Matrix.of fun t j => -Y t j) (fun t => -T t) = gaps (Matrix.of Y) T := by
  funext t
  unfold gaps SynthWeights.mean
  show |-T t - (∑ j, -Y t j) / _| = |T t - (∑ j, Y t j) / _|
  rw [Finset.sum_neg_distrib, neg_div, ← neg_sub', abs_neg]

/-- C156. The weight routines of the code, NumPy and compiled, with any settings: the opposite outcomes give the same unit and time weights.
The step size is any function of the matrix the code computes it from. -/
theorem C156_sdid_weights (b : Backend) (nrm : {n : ℕ} → Matrix (Fin n) (Fin n) ℝ → ℝ) (lambdaReg zeta eps eps' tol : ℝ) (maxIter : ℕ) :
    EvenWeights (codeWeights b lambdaReg zeta eps (codeStep nrm lambdaReg eps') tol maxIter) := by
  intro p n Y T
  constructor
  · show computeSyntheticWeights b (Matrix.of fun t j => -Y t j) (fun t => -T t) lambdaReg _ (codeStep nrm lambdaReg eps' fun t j => -Y t j) tol maxIter = _
    have hstep : (codeStep nrm lambdaReg eps' fun t j => -Y t j) = codeStep nrm lambdaReg eps' Y := by
      unfold codeStep; rw [hess_neg]
    rw [hstep]
    have h1 : stepNumpy (Matrix.of fun t j => -Y t j) (fun t => -T t) lambdaReg (codeStep nrm lambdaReg eps' Y)
        = stepNumpy (Matrix.of Y) T lambdaReg (codeStep nrm lambdaReg eps' Y) := by
      funext w
      unfold stepNumpy linNumpy
      rw [hess_neg, lin_neg]
    have h2 : stepRust (Matrix.of fun t j => -Y t j) (fun t => -T t) lambdaReg = stepRust (Matrix.of Y) T lambdaReg := by
      funext w
      unfold stepRust linRust
      rw [hess_neg, lin_neg]
    unfold codeWeights computeSyntheticWeights weightsNumpy weightsRust
    dsimp only
    rw [h1, h2]
  · show computeTimeWeights eps (Matrix.of fun t j => -Y t j) (fun t => -T t) zeta = computeTimeWeights eps (Matrix.of Y) T zeta
    unfold computeTimeWeights
    rw [gaps_neg]

/-- C156. SyntheticDiD as the code computes it. -/
theorem C156_sdid_code (b : Backend) (nrm : {n : ℕ} → Matrix (Fin n) (Fin n) ℝ → ℝ) (lambdaReg zeta eps eps' tol : ℝ) (maxIter : ℕ)
    (r pval : ℝ → ℝ) (hp : ∀ t, pval (-t) = pval t) (crit : ℝ) (boot : Bool) (draws : List (List ℕ)) (rows : List (Row ℝ)) (postArg : Option (List ℤ)) :
    fit (codeWeights b lambdaReg zeta eps (codeStep nrm lambdaReg eps') tol maxIter) r pval crit boot draws (negRows rows) postArg
      = (fit (codeWeights b lambdaReg zeta eps (codeStep nrm lambdaReg eps') tol maxIter) r pval crit boot draws rows postArg).map mirror :=
  C156_sdid _ (C156_sdid_weights b nrm lambdaReg zeta eps eps' tol maxIter) r pval hp crit boot draws rows postArg

/-- The demonstration panel has the estimate 7/2, and its opposite −7/2. -/
example : EvenWeights equalWeights ∧ attOn equalWeights (outcome demo) [1, 2] [3, 4] [3] [1, 2] = 7 / 2 ∧
    attOn equalWeights (outcome (negRows demo)) [1, 2] [3, 4] [3] [1, 2] = -(7 / 2) :=
  ⟨fun _ _ => ⟨rfl, rfl⟩, by decide +kernel, by decide +kernel⟩

/-- The compiled weights with the settings of the code. -/
example (draws : List (List ℕ)) (rows : List (Row ℝ)) (postArg : Option (List ℤ)) :
    fit (codeWeights .rust 0 1 (1 / 10000000000) (codeStep (fun H => ∑ i, ∑ j, |H i j|) 0 (1 / 10000000000)) (1 / 100000000) 1000)
        Real.sqrt (fun t => 1 / (1 + t ^ 2)) 1.96 true draws (negRows rows) postArg
      = (fit (codeWeights .rust 0 1 (1 / 10000000000) (codeStep (fun H => ∑ i, ∑ j, |H i j|) 0 (1 / 10000000000)) (1 / 100000000) 1000)
        Real.sqrt (fun t => 1 / (1 + t ^ 2)) 1.96 true draws rows postArg).map mirror :=
  C156_sdid_code .rust _ 0 1 _ _ _ _ _ _ (fun t => by rw [neg_sq]) _ _ _ _ _

end DiffDiff.SdidFit
