/-
Property C153 (SyntheticDiD): the outcome in other units.
-/
import Verif.SdidVarProps
import Mathlib.Tactic.Positivity
import Mathlib.Tactic.FieldSimp
import Mathlib.Tactic.Linarith

set_option linter.unusedSectionVars false
set_option linter.unusedVariables false

namespace DiffDiff.SdidFit

open DiffDiff.Sdid (sdid avg placeboOnce inference)
open DiffDiff.SynthWeights

variable {K : Type*} [Field K] [LinearOrder K] [IsStrictOrderedRing K]

/-- Multiply every outcome by `c`. -/
def scale (c : K) (rows : List (Row K)) : List (Row K) := rows.map (fun r => { r with y := r.y.map (c * ·) })

/-- Two weight routines that give the same weights, the second on outcomes multiplied by `c`. -/
def SameWeights (c : K) (W W' : Weights K) : Prop :=
  ∀ {p n : ℕ} (Y : Fin p → Fin n → K) (T : Fin p → K),
    W'.unit (fun t j => c * Y t j) (fun t => c * T t) = W.unit Y T ∧ W'.time (fun t j => c * Y t j) (fun t => c * T t) = W.time Y T

/-- A report in other units. -/
def scaleRes (c : K) (R : Res K) : Res K :=
  { R with att := c * R.att, se := c * R.se, ci := (c * R.ci.1, c * R.ci.2), fit2 := c ^ 2 * R.fit2, effects := R.effects.map (c * ·) }

theorem cell_scale (c : K) (rows : List (Row K)) (u t : ℤ) : cell (scale c rows) u t = (cell rows u t).map (c * ·) := by
  unfold cell scale
  rw [List.find?_map]
  have : ((fun r : Row K => decide (r.unit = u ∧ r.time = t)) ∘ fun r : Row K => { r with y := r.y.map (c * ·) })
      = fun r => decide (r.unit = u ∧ r.time = t) := rfl
  rw [this]
  cases hf : rows.find? (fun r => decide (r.unit = u ∧ r.time = t)) with
  | none => rfl
  | some r => rfl

theorem sample_scale (c : K) (rows : List (Row K)) (postArg : Option (List ℤ)) : sample (scale c rows) postArg = sample rows postArg := by
  have e1 : allPeriods (scale c rows) = allPeriods rows := by
    unfold allPeriods scale; rw [List.map_map]; rfl
  have e0 : allUnits (scale c rows) = allUnits rows := by
    unfold allUnits scale; rw [List.map_map]; rfl
  have ef : firstTreat (scale c rows) = firstTreat rows := by
    funext u
    unfold firstTreat scale
    rw [List.filter_map, List.findSome?_map]
    rfl
  have e2 : treatedUnits (scale c rows) = treatedUnits rows := by unfold treatedUnits; rw [e0, ef]
  have e3 : controlUnits (scale c rows) = controlUnits rows := by unfold controlUnits; rw [e0, ef]
  have e4 : (∃ r ∈ scale c rows, ∃ v, r.d = some v ∧ v ≠ 0 ∧ v ≠ 1) ↔ (∃ r ∈ rows, ∃ v, r.d = some v ∧ v ≠ 0 ∧ v ≠ 1) := by
    constructor
    · rintro ⟨r, hr, q⟩
      obtain ⟨r', hr', rfl⟩ := List.mem_map.1 hr
      exact ⟨r', hr', q⟩
    · rintro ⟨r, hr, q⟩
      exact ⟨_, List.mem_map_of_mem hr, q⟩
  have e5 : (scale c rows).map (fun r => (r.unit, r.time)) = rows.map (fun r => (r.unit, r.time)) := by
    unfold scale; rw [List.map_map]; rfl
  have e6 : ∀ u t, cell (scale c rows) u t = none ↔ cell rows u t = none := by
    intro u t; rw [cell_scale]; simp
  unfold sample
  simp only [e1, e2, e3, e4, e5, e6]

theorem outcome_scale (c : K) (rows : List (Row K)) : outcome (scale c rows) = fun u t => c * outcome rows u t := by
  funext u t
  unfold outcome
  rw [cell_scale]
  cases cell rows u t <;> simp

theorem avg_mul {m : ℕ} (c : K) (x : Fin m → K) : avg (fun i => c * x i) = c * avg x := by
  unfold avg; rw [← Finset.mul_sum, mul_div_assoc]

theorem sdid_mul (c : K) {p q n : ℕ} (Ypc : Fin p → Fin n → K) (Yqc : Fin q → Fin n → K) (Ypt : Fin p → K) (Yqt : Fin q → K)
    (omega : Fin n → K) (lam : Fin p → K) :
    sdid (fun t j => c * Ypc t j) (fun s j => c * Yqc s j) (fun t => c * Ypt t) (fun s => c * Yqt s) omega lam
      = c * sdid Ypc Yqc Ypt Yqt omega lam := by
  unfold sdid
  dsimp only
  simp only [avg_mul, mul_left_comm _ c, ← Finset.mul_sum, ← mul_sub]

section scaled
variable {c : K} {W W' : Weights K} (h : SameWeights c W W')
include h

theorem unitW_scale {U T : Type*} (y : U → T → K) (pre : List T) (trt ctl : List U) :
    unitW W' (fun u t => c * y u t) pre trt ctl = unitW W y pre trt ctl := by
  unfold unitW
  simp only [avg_mul]
  exact (h _ _).1

theorem timeW_scale {U T : Type*} (y : U → T → K) (pre : List T) (trt ctl : List U) :
    timeW W' (fun u t => c * y u t) pre trt ctl = timeW W y pre trt ctl := by
  unfold timeW
  simp only [avg_mul]
  exact (h _ _).2

theorem attOn_scale {U T : Type*} (y : U → T → K) (pre post : List T) (trt ctl : List U) :
    attOn W' (fun u t => c * y u t) pre post trt ctl = c * attOn W y pre post trt ctl := by
  unfold attOn
  dsimp only
  simp only [avg_mul]
  rw [(h _ _).1, (h _ _).2]
  exact sdid_mul c _ _ _ _ _ _

theorem preFit2_scale {U T : Type*} (y : U → T → K) (pre : List T) (trt ctl : List U) :
    preFit2 W' (fun u t => c * y u t) pre trt ctl = c ^ 2 * preFit2 W y pre trt ctl := by
  unfold preFit2
  rw [unitW_scale h, ← avg_mul]
  congr 1
  funext t
  simp only [avg_mul, mul_assoc, ← Finset.mul_sum]
  ring

theorem bootEst_scale (y : ℤ → ℤ → K) (pre post trt ctl S : List ℤ) :
    bootEst W' (fun u t => c * y u t) pre post trt ctl S = (bootEst W y pre post trt ctl S).map (c * ·) := by
  unfold bootEst
  dsimp only
  split_ifs
  · rfl
  · rw [attOn_scale h (fun (x : ℤ × ℕ) t => y x.1 t)]; rfl

end scaled

theorem var1_scale (c : K) (l : List K) : var1 (l.map (c * ·)) = c ^ 2 * var1 l := by
  unfold var1
  rw [List.length_map, List.map_map, ← mul_div_assoc]
  congr 1
  rw [show l.map (c * ·) = l.map (fun x => c * id x) from by simp, List.sum_map_mul_left, List.map_id, ← List.sum_map_mul_left]
  congr 1
  refine List.map_congr_left fun x _ => ?_
  simp only [Function.comp]
  rw [mul_div_assoc]
  ring

/-- Estimates and squared standard error in other units. -/
def scaleVar (c : K) (x : K × List K) : K × List K := (c ^ 2 * x.1, x.2.map (c * ·))

theorem bootSe_scale {c : K} {W W' : Weights K} (h : SameWeights c W W') (y : ℤ → ℤ → K) (pre post trt ctl : List ℤ) (draws : List (List ℕ)) :
    bootSe W' (fun u t => c * y u t) pre post trt ctl draws = (bootSe W y pre post trt ctl draws).map (scaleVar c) := by
  unfold bootSe
  dsimp only
  have e : draws.filterMap (fun pos => bootEst W' (fun u t => c * y u t) pre post trt ctl (pos.filterMap (fun i => (trt ++ ctl)[i]?)))
      = (draws.filterMap (fun pos => bootEst W y pre post trt ctl (pos.filterMap (fun i => (trt ++ ctl)[i]?)))).map (c * ·) := by
    rw [List.map_filterMap]
    simp only [bootEst_scale h]
  rw [e, List.length_map]
  split_ifs
  · rfl
  · rfl
  · simp [Except.map, scaleVar]
  · simp [Except.map, scaleVar, var1_scale]

theorem placeboOnce_scale (c : K) {p q n a b : ℕ} (Ypc : Fin p → Fin n → K) (Yqc : Fin q → Fin n → K)
    (omega : Fin n → K) (lam : Fin p → K) (ctl : Fin a → Fin n) (trt : Fin b → Fin n) :
    placeboOnce (fun t j => c * Ypc t j) (fun s j => c * Yqc s j) omega lam ctl trt = c * placeboOnce Ypc Yqc omega lam ctl trt := by
  unfold placeboOnce
  dsimp only
  simp only [avg_mul]
  exact sdid_mul c _ _ _ _ _ _

theorem placeboSe_scale (c : K) {p q n : ℕ} (Ypc : Fin p → Fin n → K) (Yqc : Fin q → Fin n → K) (omega : Fin n → K) (lam : Fin p → K) (nT : ℕ)
    (perms : List (List ℕ)) :
    placeboSe (fun t j => c * Ypc t j) (fun s j => c * Yqc s j) omega lam nT perms = scaleVar c (placeboSe Ypc Yqc omega lam nT perms) := by
  unfold placeboSe
  dsimp only
  simp only [placeboOnce_scale]
  have e : perms.map (fun π => c * placeboOnce Ypc Yqc omega lam (cols n (π.take (n - nT))).get (cols n (π.drop (n - nT))).get)
      = (perms.map (fun π => placeboOnce Ypc Yqc omega lam (cols n (π.take (n - nT))).get (cols n (π.drop (n - nT))).get)).map (c * ·) := by
    rw [List.map_map]; rfl
  rw [e, List.length_map]
  split_ifs
  · simp [scaleVar]
  · simp [scaleVar]
  · simp only [scaleVar, var1_scale, List.length_map]
    congr 1
    ring

theorem inference_scale {c : K} (hc : 0 < c) (pval : K → K) (crit att se : K) (draws : List K) :
    inference pval crit (c * att) (c * se) (draws.map (c * ·))
      = ((inference pval crit att se draws).1, (inference pval crit att se draws).2.1,
        (c * (inference pval crit att se draws).2.2.1, c * (inference pval crit att se draws).2.2.2)) := by
  unfold inference
  dsimp only
  have e1 : (0 < c * se) ↔ 0 < se := by constructor <;> intro h <;> first | exact (pos_iff_pos_of_mul_pos h).1 hc | exact mul_pos hc h
  have e2 : c * att / (c * se) = att / se := mul_div_mul_left _ _ hc.ne'
  have e3 : ((draws.map (c * ·)).filter (fun x => decide (|c * att| ≤ |x|))).length = (draws.filter (fun x => decide (|att| ≤ |x|))).length := by
    rw [List.filter_map, List.length_map]
    congr 1
    refine List.filter_congr fun x _ => ?_
    simp only [Function.comp, abs_mul, abs_of_pos hc]
    have : c * |att| ≤ c * |x| ↔ |att| ≤ |x| := mul_le_mul_iff_right₀ hc
    simp only [this]
  simp only [e1, e2, e3, List.length_map]
  split_ifs <;> simp only [Prod.mk.injEq, true_and] <;> constructor <;> ring

/-- C153. SyntheticDiD with weight routines that do not depend on the units (`SameWeights`): the outcome times `c > 0` gives the
report times `c` — estimate, standard error, interval and every bootstrap or placebo estimate; the weights, the t statistic, the
p-value, the periods and the counts stay, and errors stay. `r` is the square root. -/
theorem C153_sdid (c : K) (hc : 0 < c) (W W' : Weights K) (h : SameWeights c W W') (r pval : K → K) (hr : ∀ x, r (c ^ 2 * x) = c * r x) (crit : K)
    (boot : Bool) (draws : List (List ℕ)) (rows : List (Row K)) (postArg : Option (List ℤ)) :
    fit W' r pval crit boot draws (scale c rows) postArg = (fit W r pval crit boot draws rows postArg).map (scaleRes c) := by
  unfold fit
  rw [sample_scale, outcome_scale]
  cases hs : sample rows postArg with
  | error e => rfl
  | ok s =>
    dsimp only
    rw [unitW_scale h, timeW_scale h, attOn_scale h, preFit2_scale h, bootSe_scale h, placeboSe_scale]
    have hlen : (scale c rows).length = rows.length := by unfold scale; rw [List.length_map]
    have hv : (if boot = true then Except.map (scaleVar c) (bootSe W (outcome rows) s.pre s.post s.trt s.ctl draws)
          else (.ok (scaleVar c (placeboSe (fun (t : Fin s.pre.length) (j : Fin s.ctl.length) => outcome rows (s.ctl.get j) (s.pre.get t))
            (fun (t : Fin s.post.length) j => outcome rows (s.ctl.get j) (s.post.get t)) (unitW W (outcome rows) s.pre s.trt s.ctl)
            (timeW W (outcome rows) s.pre s.trt s.ctl) s.trt.length draws)) : Except Err (K × List K)))
        = Except.map (scaleVar c) (if boot = true then bootSe W (outcome rows) s.pre s.post s.trt s.ctl draws
          else .ok (placeboSe (fun (t : Fin s.pre.length) (j : Fin s.ctl.length) => outcome rows (s.ctl.get j) (s.pre.get t))
            (fun (t : Fin s.post.length) j => outcome rows (s.ctl.get j) (s.post.get t)) (unitW W (outcome rows) s.pre s.trt s.ctl)
            (timeW W (outcome rows) s.pre s.trt s.ctl) s.trt.length draws)) := by
      cases boot <;> rfl
    rw [hv]
    generalize (if boot = true then bootSe W (outcome rows) s.pre s.post s.trt s.ctl draws
          else .ok (placeboSe (fun (t : Fin s.pre.length) (j : Fin s.ctl.length) => outcome rows (s.ctl.get j) (s.pre.get t))
            (fun (t : Fin s.post.length) j => outcome rows (s.ctl.get j) (s.post.get t)) (unitW W (outcome rows) s.pre s.trt s.ctl)
            (timeW W (outcome rows) s.pre s.trt s.ctl) s.trt.length draws)) = V
    cases V with
    | error e => rfl
    | ok x =>
      obtain ⟨se2, est⟩ := x
      simp only [Except.map, scaleVar, scaleRes, hr, inference_scale hc, hlen]

/-! ### The routines of the code -/

/-- The step size `1 / (norm(H, 2) + eps)` with `H` from the control outcomes (utils.py 1083, 1093); the norm is a parameter. -/
noncomputable def codeStep (nrm : {n : ℕ} → Matrix (Fin n) (Fin n) ℝ → ℝ) (lam eps : ℝ) {p n : ℕ} (Y : Fin p → Fin n → ℝ) : ℝ :=
  1 / (nrm (hess (Matrix.of Y) lam) + eps)

theorem hess_scale {p n : ℕ} (c lam : ℝ) (Y : Fin p → Fin n → ℝ) :
    hess (Matrix.of fun t j => c * Y t j) (c ^ 2 * lam) = c ^ 2 • hess (Matrix.of Y) lam := by
  ext i j
  simp only [hess, Matrix.add_apply, Matrix.mul_apply, Matrix.transpose_apply, Matrix.of_apply, Matrix.smul_apply, smul_eq_mul, mul_add,
    Finset.mul_sum]
  congr 1
  · exact Finset.sum_congr rfl fun t _ => by ring
  · ring

theorem linNumpy_scale {p n : ℕ} (c lam : ℝ) (Y : Fin p → Fin n → ℝ) (T : Fin p → ℝ) :
    linNumpy (Matrix.of fun t j => c * Y t j) (fun t => c * T t) (c ^ 2 * lam) = c ^ 2 • linNumpy (Matrix.of Y) T lam := by
  funext i
  simp only [linNumpy, Matrix.mulVec, dotProduct, Pi.add_apply, Pi.smul_apply, smul_eq_mul, Matrix.transpose_apply, Matrix.of_apply, mul_add,
    Finset.mul_sum]
  congr 1
  · exact Finset.sum_congr rfl fun t _ => by ring
  · ring

theorem gaps_scale {p n : ℕ} {c : ℝ} (hc : 0 < c) (Y : Fin p → Fin n → ℝ) (T : Fin p → ℝ) (t : Fin p) :
    gaps (Matrix.of fun t j => c * Y t j) (fun t => c * T t) t = c * gaps (Matrix.of Y) T t := by
  have : SynthWeights.mean (fun j => c * Y t j) = c * SynthWeights.mean (fun j => Y t j) := by
    unfold SynthWeights.mean; rw [← Finset.mul_sum, mul_div_assoc]
  unfold gaps
  show |c * T t - SynthWeights.mean (fun j => c * Y t j)| = c * |T t - SynthWeights.mean (fun j => Y t j)|
  rw [this, ← mul_sub, abs_mul, abs_of_pos hc]

theorem std_scale {m : ℕ} {c : ℝ} (hc : 0 < c) (x : Fin m → ℝ) : SynthWeights.std (fun i => c * x i) = c * SynthWeights.std x := by
  have hm : ∀ z : Fin m → ℝ, SynthWeights.mean (fun i => c * z i) = c * SynthWeights.mean z := by
    intro z; unfold SynthWeights.mean; rw [← Finset.mul_sum, mul_div_assoc]
  unfold SynthWeights.std
  rw [hm]
  have : (fun i => (c * x i - c * SynthWeights.mean x) ^ 2) = fun i => c * (c * (x i - SynthWeights.mean x) ^ 2) := by funext i; ring
  rw [this, hm, hm, show ∀ z : ℝ, c * (c * z) = c ^ 2 * z from fun z => by ring, Real.sqrt_mul (by positivity), Real.sqrt_sq hc.le]

/-- C153. The NumPy routines: the outcome times `c` gives the same unit and time weights if `lambda_reg` is multiplied by `c²` and the
constants that guard the divisions (both 1e-10 in the code) by `c²` and `c`. With the default `lambda_reg = 0` the guards are all that
depends on the units. The norm is any function with `norm (c² H) = c² norm H`. -/
theorem C153_sdid_numpy (c : ℝ) (hc : 0 < c) (nrm : {n : ℕ} → Matrix (Fin n) (Fin n) ℝ → ℝ)
    (hn : ∀ {n : ℕ} (H : Matrix (Fin n) (Fin n) ℝ), nrm (c ^ 2 • H) = c ^ 2 * nrm H) (lambdaReg zeta eps eps' tol : ℝ) (maxIter : ℕ) :
    SameWeights c (codeWeights .numpy lambdaReg zeta eps (codeStep nrm lambdaReg eps') tol maxIter)
      (codeWeights .numpy (c ^ 2 * lambdaReg) zeta (c * eps) (codeStep nrm (c ^ 2 * lambdaReg) (c ^ 2 * eps')) tol maxIter) := by
  intro p n Y T
  have hc0 := hc.ne'
  constructor
  · unfold codeWeights computeSyntheticWeights weightsNumpy
    have hstep : codeStep nrm (c ^ 2 * lambdaReg) (c ^ 2 * eps') (fun t j => c * Y t j) = codeStep nrm lambdaReg eps' Y / c ^ 2 := by
      unfold codeStep
      rw [hess_scale]
      show 1 / (nrm (c ^ 2 • hess (Matrix.of Y) lambdaReg) + c ^ 2 * eps') = 1 / (nrm (hess (Matrix.of Y) lambdaReg) + eps') / c ^ 2
      rw [hn, ← mul_add, one_div, mul_inv, one_div, div_eq_inv_mul]
    have hf : stepNumpy (Matrix.of fun t j => c * Y t j) (fun t => c * T t) (c ^ 2 * lambdaReg)
        (codeStep nrm (c ^ 2 * lambdaReg) (c ^ 2 * eps') (fun t j => c * Y t j))
        = stepNumpy (Matrix.of Y) T lambdaReg (codeStep nrm lambdaReg eps' Y) := by
      funext w
      unfold stepNumpy
      dsimp only
      rw [hstep, hess_scale, linNumpy_scale, Matrix.smul_mulVec, ← smul_sub, smul_smul, div_mul_cancel₀ _ (pow_ne_zero 2 hc0)]
    dsimp only
    rw [hf]
  · show computeTimeWeights _ _ _ _ = computeTimeWeights _ _ _ _
    unfold computeTimeWeights
    split_ifs with h1
    · rfl
    · have hg : gaps (Matrix.of fun t j => c * Y t j) (fun t => c * T t) = fun t => c * gaps (Matrix.of Y) T t := by
        funext t; exact gaps_scale hc Y T t
      dsimp only
      rw [hg, std_scale hc]
      have hi : ∀ t, 1 / (c * gaps (Matrix.of Y) T t + zeta * (c * std (gaps (Matrix.of Y) T)) + c * eps)
          = c⁻¹ * (1 / (gaps (Matrix.of Y) T t + zeta * std (gaps (Matrix.of Y) T) + eps)) := by
        intro t
        rw [show c * gaps (Matrix.of Y) T t + zeta * (c * std (gaps (Matrix.of Y) T)) + c * eps
          = c * (gaps (Matrix.of Y) T t + zeta * std (gaps (Matrix.of Y) T) + eps) from by ring, one_div, mul_inv, one_div]
      simp only [hi, ← Finset.mul_sum]
      funext t
      exact mul_div_mul_left _ _ (inv_ne_zero hc0)

/-- Two of the estimator's own runs: same data in other units, default penalty, guards of the same relative size. -/
example (draws : List (List ℕ)) (rows : List (Row ℝ)) (postArg : Option (List ℤ)) (pval : ℝ → ℝ) :
    fit (codeWeights .numpy (100 ^ 2 * 0) 1 (100 * (1 / 10000000000)) (codeStep (fun H => ∑ i, ∑ j, |H i j|) (100 ^ 2 * 0) (100 ^ 2 * (1 / 10000000000)))
        (1 / 100000000) 1000) Real.sqrt pval 1.96 true draws (scale 100 rows) postArg
      = (fit (codeWeights .numpy 0 1 (1 / 10000000000) (codeStep (fun H => ∑ i, ∑ j, |H i j|) 0 (1 / 10000000000)) (1 / 100000000) 1000)
        Real.sqrt pval 1.96 true draws rows postArg).map (scaleRes 100) :=
  C153_sdid 100 (by norm_num) _ _
    (C153_sdid_numpy 100 (by norm_num) _ (by intro n H; simp [abs_mul, Finset.mul_sum]) 0 1 _ _ _ _)
    Real.sqrt pval (fun x => by rw [Real.sqrt_mul (by norm_num), Real.sqrt_sq (by norm_num)]) _ _ _ _ _

/-! ### The compiled backend -/

/-- Control outcomes 0 and 1/10, treated outcome 0: in 1000 steps the weight of the second unit falls from 1/2 to no less than 1/4. -/
theorem slow_loop (tol : ℝ) : ∀ (k : ℕ) (w prev : Fin 2 → ℝ), w 0 + w 1 = 1 → 1 / 4 + (k : ℝ) / 4000 ≤ w 1 → w 1 ≤ 1 / 2 →
    (rustLoop (stepRust (Matrix.of fun (_ : Fin 1) (j : Fin 2) => if j = 0 then 0 else (1 / 10 : ℝ)) (fun _ => 0) 0) tol k w prev) 0
      + (rustLoop (stepRust (Matrix.of fun (_ : Fin 1) (j : Fin 2) => if j = 0 then 0 else (1 / 10 : ℝ)) (fun _ => 0) 0) tol k w prev) 1 = 1 ∧
    1 / 4 ≤ (rustLoop (stepRust (Matrix.of fun (_ : Fin 1) (j : Fin 2) => if j = 0 then 0 else (1 / 10 : ℝ)) (fun _ => 0) 0) tol k w prev) 1 ∧
    (rustLoop (stepRust (Matrix.of fun (_ : Fin 1) (j : Fin 2) => if j = 0 then 0 else (1 / 10 : ℝ)) (fun _ => 0) 0) tol k w prev) 1 ≤ 1 / 2 := by
  intro k
  induction k with
  | zero => intro w prev h1 h2 h3; refine ⟨h1, ?_, h3⟩; show 1 / 4 ≤ w 1; simpa using h2
  | succ k ih =>
    intro w prev h1 h2 h3
    push_cast at h2
    have hk : (0 : ℝ) ≤ k := Nat.cast_nonneg k
    have hs : stepRust (Matrix.of fun (_ : Fin 1) (j : Fin 2) => if j = 0 then 0 else (1 / 10 : ℝ)) (fun _ => 0) 0 w
        = ![w 0 + 1 / 2000 * w 1, w 1 - 1 / 2000 * w 1] := by
      have m0 : max (w 0 - -(1 / 2000 * w 1)) 0 = w 0 + 1 / 2000 * w 1 := by rw [max_eq_left (by linarith)]; ring
      have m1 : max (w 1 - 1 / 10 * (1 / 10 * (1 / 10 * w 1)) - -(1 / 2000 * w 1)) 0 = w 1 - 1 / 2000 * w 1 := by
        rw [max_eq_left (by linarith)]; ring
      exact stepRust_two (1 / 10) w _ (-(1 / 2000 * w 1)) (by rw [m0, m1]; linarith) m0.symm m1.symm
    have g1 : (![w 0 + 1 / 2000 * w 1, w 1 - 1 / 2000 * w 1] : Fin 2 → ℝ) 0 + (![w 0 + 1 / 2000 * w 1, w 1 - 1 / 2000 * w 1] : Fin 2 → ℝ) 1 = 1 := by
      show w 0 + 1 / 2000 * w 1 + (w 1 - 1 / 2000 * w 1) = 1
      linarith
    have g2 : 1 / 4 + (k : ℝ) / 4000 ≤ (![w 0 + 1 / 2000 * w 1, w 1 - 1 / 2000 * w 1] : Fin 2 → ℝ) 1 := by
      show 1 / 4 + (k : ℝ) / 4000 ≤ w 1 - 1 / 2000 * w 1
      linarith
    have g3 : (![w 0 + 1 / 2000 * w 1, w 1 - 1 / 2000 * w 1] : Fin 2 → ℝ) 1 ≤ 1 / 2 := by
      show w 1 - 1 / 2000 * w 1 ≤ 1 / 2
      linarith
    unfold rustLoop
    dsimp only
    rw [hs]
    split_ifs
    · exact ⟨g1, by linarith, g3⟩
    · exact ih _ _ g1 g2 g3

/-- The estimate on one pre period, one post period, one treated unit without change, and two control units of which the second starts at
`c` and changes by `d`, when the cleaned unit weights are `v`. -/
theorem attOn_pair (zeta eps tol : ℝ) (step : {p n : ℕ} → (Fin p → Fin n → ℝ) → ℝ) (k : ℕ) (he : 0 < eps) (hz : 0 ≤ zeta)
    (c d : ℝ) (v : Fin 2 → ℝ) (y : ℤ → ℤ → ℝ) (hpre : y 0 0 = 0 ∧ y 1 0 = 0 ∧ y 2 0 = c) (hpost : y 0 1 = 0 ∧ y 1 1 = 0 ∧ y 2 1 = c + d)
    (hv : cleanWeights (1 / 1000000) (weightsRust (Matrix.of fun (_ : Fin 1) (j : Fin 2) => if j = 0 then 0 else c) (fun _ => 0) 0 tol k) = v) :
    attOn (codeWeights .rust 0 zeta eps step tol k) y [0] [1] [0] [1, 2] = - (d * v 1) := by
  have hW := codeWeights_prob .rust 0 zeta eps step tol k he hz
  have hT : timeW (codeWeights .rust 0 zeta eps step tol k) y [0] [0] [1, 2] 0 = 1 := by
    have := (hW.2 (fun (t : Fin ([0] : List ℤ).length) (j : Fin ([1, 2] : List ℤ).length) => y (([1, 2] : List ℤ).get j) (([0] : List ℤ).get t))
      (fun t => avg (fun i : Fin ([0] : List ℤ).length => y (([0] : List ℤ).get i) (([0] : List ℤ).get t))) (by simp)).2
    simpa [timeW] using this
  have hU : unitW (codeWeights .rust 0 zeta eps step tol k) y [0] [0] [1, 2] = v := by
    unfold unitW
    have e1 : (fun (t : Fin ([0] : List ℤ).length) (j : Fin ([1, 2] : List ℤ).length) => y (([1, 2] : List ℤ).get j) (([0] : List ℤ).get t))
        = fun (_ : Fin 1) (j : Fin 2) => if j = 0 then 0 else c := by
      funext t j
      fin_cases t
      fin_cases j
      · exact hpre.2.1
      · exact hpre.2.2
    have e2 : (fun t : Fin ([0] : List ℤ).length => avg (fun i : Fin ([0] : List ℤ).length => y (([0] : List ℤ).get i) (([0] : List ℤ).get t)))
        = fun (_ : Fin 1) => 0 := by
      funext t
      fin_cases t
      show avg (fun i : Fin 1 => _) = 0
      simp [avg, hpre.1]
    rw [e1, e2]
    show computeSyntheticWeights .rust (Matrix.of fun (_ : Fin 1) (j : Fin 2) => if j = 0 then 0 else c) (fun _ => 0) 0 (1 / 1000000)
      (step fun (_ : Fin 1) (j : Fin 2) => if j = 0 then 0 else c) tol k = v
    unfold computeSyntheticWeights
    rw [if_neg (by norm_num), if_neg (by norm_num)]
    exact hv
  rw [attOn_eq]
  rw [hU]
  have f1 : ∀ (w : Fin ([0] : List ℤ).length → ℝ) (g : Fin ([0] : List ℤ).length → ℝ), w 0 = 1 → ∑ t, w t * g t = g 0 := by
    intro w g h
    show ∑ t : Fin 1, w t * g t = g 0
    rw [Fin.sum_univ_one]
    show w 0 * g 0 = g 0
    rw [h, one_mul]
  simp only [f1 _ _ hT]
  have f2 : ∀ g : Fin ([1, 2] : List ℤ).length → ℝ, ∑ j, g j = g 0 + g 1 := fun g => Fin.sum_univ_two (fun j : Fin 2 => g j)
  rw [f2]
  simp [avg, hpre.1, hpre.2.1, hpre.2.2, hpost.1, hpost.2.1, hpost.2.2]
  ring

/-- C153 is false for the compiled weight routine, whose step size is fixed: with the default `lambda_reg = 0` and 1000 iterations, the same
data give the estimate 0 when the outcome is recorded in percentage points and at most -0.025 when it is recorded as a fraction (1/100 of
that). In the small units the 1000 steps hardly leave the equal weights, so that the change of the second control unit is subtracted with a
weight of at least 1/4; in the large units its weight is 0. Any tolerance. -/
theorem C153_sdid_compiled_refuted (zeta eps tol : ℝ) (step : {p n : ℕ} → (Fin p → Fin n → ℝ) → ℝ) (he : 0 < eps) (hz : 0 ≤ zeta) :
    ∃ y : ℤ → ℤ → ℝ, attOn (codeWeights .rust 0 zeta eps step tol 1000) y [0] [1] [0] [1, 2] ≤ -(1 / 40) ∧
      attOn (codeWeights .rust 0 zeta eps step tol 1000) (fun u t => 100 * y u t) [0] [1] [0] [1, 2] = 0 := by
  have hu0 : ∀ i : Fin 2, (uniform 2 : Fin 2 → ℝ) i = 1 / 2 := fun i => by simp [uniform]
  refine ⟨fun u t => if u = 2 then (if t = 0 then 1 / 10 else 2 / 10) else 0, ?_, ?_⟩
  · obtain ⟨h1, h2, h3⟩ := slow_loop tol 1000 (uniform 2) (uniform 2) (by rw [hu0, hu0]; norm_num) (by rw [hu0]; norm_num) (by rw [hu0])
    have hc := clean_two _ h1 (Or.inr (by linarith)) (Or.inr (by linarith))
    rw [attOn_pair zeta eps tol step 1000 he hz (1 / 10) (1 / 10) _ _ (by norm_num) (by norm_num) hc]
    linarith
  · have := attOn_two zeta eps tol step 999 he hz 10 10 ![1, 0] (fun u t => 100 * (if u = 2 then (if t = 0 then 1 / 10 else 2 / 10) else 0))
      (by norm_num) (by norm_num)
      (stepRust_two 10 _ _ (-1 / 2) (by rw [hu0, hu0]; norm_num) (by rw [hu0]; norm_num) (by rw [hu0]; norm_num))
      (stepRust_two 10 _ _ 0 (by norm_num) (by norm_num) (by norm_num))
      (clean_two _ (by norm_num) (by norm_num) (by norm_num))
    rw [this]; norm_num

end DiffDiff.SdidFit
