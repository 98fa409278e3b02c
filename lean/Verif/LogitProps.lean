/-
Property C126: propensity scores.
-/
import Verif.Logit
import Verif.CS
import Mathlib.Tactic.Linarith
import Mathlib.Tactic.Ring
import Mathlib.Tactic.FieldSimp
import Mathlib.Tactic.Positivity
import Mathlib.Tactic.NormNum
import Mathlib.Analysis.Convex.SpecificFunctions.Basic
import Mathlib.Data.Fintype.BigOperators
import Mathlib.Analysis.Complex.ExponentialBounds
import Mathlib.Analysis.SpecialFunctions.Log.Deriv
import Mathlib.Analysis.SpecialFunctions.ExpDeriv

set_option linter.unusedSectionVars false

namespace DiffDiff.Logit

variable {ι : Type*} [Fintype ι]

theorem clip_mono {a b : ℝ} (h : a ≤ b) : clip a ≤ clip b := by
  unfold clip; exact max_le_max le_rfl (min_le_min h le_rfl)

theorem clip_mem (z : ℝ) : -500 ≤ clip z ∧ clip z ≤ 500 := by
  unfold clip
  exact ⟨le_max_left _ _, max_le (by norm_num) (min_le_right _ _)⟩

theorem clip_eq {z : ℝ} (h : |z| ≤ 500) : clip z = z := by
  obtain ⟨h1, h2⟩ := abs_le.1 h
  unfold clip
  rw [min_eq_left h2, max_eq_right h1]

theorem prob_mono {a b : ℝ} (h : a ≤ b) : prob a ≤ prob b := by
  unfold prob
  have := Real.exp_le_exp.2 (neg_le_neg (clip_mono h))
  have h0 := Real.exp_pos (-clip b)
  exact one_div_le_one_div_of_le (by linarith) (by linarith)

theorem prob_pos (z : ℝ) : 0 < prob z := by
  unfold prob; have := Real.exp_pos (-clip z); positivity

theorem prob_lt_one (z : ℝ) : prob z < 1 := by
  unfold prob
  have := Real.exp_pos (-clip z)
  rw [div_lt_one (by linarith)]; linarith

/-! ### Specification -/

/-- The optimizer stopped at a point where every component of the gradient is at most `eps` in absolute value (BFGS: `gtol`). -/
def Converged {k : ℕ} (Z : ι → Fin k → ℝ) (y : ι → ℝ) (eps : ℝ) (b : Fin k → ℝ) : Prop := ∀ j, |gradient Z y b j| ≤ eps

/-- Exact convergence. -/
def Stationary {k : ℕ} (Z : ι → Fin k → ℝ) (y : ι → ℝ) (b : Fin k → ℝ) : Prop := ∀ j, ∑ i, Z i j * (y i - prob (index Z b i)) = 0

theorem converged_zero {k : ℕ} {Z : ι → Fin k → ℝ} {y : ι → ℝ} {b : Fin k → ℝ} : Converged Z y 0 b ↔ Stationary Z y b := by
  unfold Converged Stationary gradient
  simp only [abs_neg, abs_nonpos_iff]

/-- Along any combination of the regressors. -/
theorem stationary_dir {k : ℕ} {Z : ι → Fin k → ℝ} {y : ι → ℝ} {b : Fin k → ℝ} (h : Stationary Z y b) (v : Fin k → ℝ) :
    ∑ i, index Z v i * (y i - prob (index Z b i)) = 0 := by
  unfold index
  simp only [Finset.sum_mul]
  rw [Finset.sum_comm]
  refine Finset.sum_eq_zero fun j _ => ?_
  have := h j
  unfold index at this
  rw [← mul_zero (v j), ← this, Finset.mul_sum]
  exact Finset.sum_congr rfl fun i _ => by ring

theorem index_line {k : ℕ} (Z : ι → Fin k → ℝ) (b v : Fin k → ℝ) (s : ℝ) (i : ι) :
    index Z (fun j => b j + s * v j) i = index Z b i + s * index Z v i := by
  unfold index
  rw [Finset.mul_sum, ← Finset.sum_add_distrib]
  exact Finset.sum_congr rfl fun j _ => by ring

/-- The gradient handed to the optimizer is the derivative of the criterion in every direction, at every point where no index is clipped. -/
theorem C126_gradient {k : ℕ} (Z : ι → Fin k → ℝ) (y : ι → ℝ) (b v : Fin k → ℝ) (hr : ∀ i, |index Z b i| < 500) :
    HasDerivAt (fun s : ℝ => negLogLik Z y (fun j => b j + s * v j)) (∑ j, gradient Z y b j * v j) 0 := by
  have hlin : ∀ i, HasDerivAt (fun s : ℝ => index Z b i + s * index Z v i) (index Z v i) 0 := by
    intro i
    simpa using ((hasDerivAt_id (0 : ℝ)).mul_const (index Z v i)).const_add (index Z b i)
  have hterm : ∀ i, HasDerivAt (fun s : ℝ => y i * clip (index Z (fun j => b j + s * v j) i) - Real.log (1 + Real.exp (clip (index Z (fun j => b j + s * v j) i))))
      (index Z v i * (y i - prob (index Z b i))) 0 := by
    intro i
    have hev : ∀ᶠ s : ℝ in nhds 0, clip (index Z (fun j => b j + s * v j) i) = index Z b i + s * index Z v i := by
      have hc : Filter.Tendsto (fun s : ℝ => |index Z b i + s * index Z v i|) (nhds 0) (nhds |index Z b i|) := by
        have := ((hlin i).continuousAt.abs).tendsto
        simpa using this
      filter_upwards [hc.eventually (Iio_mem_nhds (hr i))] with s hs
      rw [index_line]
      exact clip_eq (le_of_lt hs)
    have he := (hlin i).exp.const_add 1
    have hpos : (1 + Real.exp (index Z b i + 0 * index Z v i)) ≠ 0 := by positivity
    have hd := ((hlin i).const_mul (y i)).sub (he.log hpos)
    refine (hd.congr_deriv ?_).congr_of_eventuallyEq ?_
    · unfold prob
      rw [clip_eq (le_of_lt (hr i)), Real.exp_neg]
      have := Real.exp_pos (index Z b i)
      simp only [zero_mul, add_zero]
      field_simp
      ring
    · filter_upwards [hev] with s hs
      rw [hs]; rfl
  have := (HasDerivAt.fun_sum (u := Finset.univ) fun i _ => hterm i).neg
  unfold negLogLik
  refine this.congr_deriv ?_
  unfold gradient
  simp only [neg_mul, Finset.sum_neg_distrib, Finset.sum_mul]
  rw [Finset.sum_comm]
  congr 1
  refine Finset.sum_congr rfl fun i _ => ?_
  conv_lhs => unfold index
  rw [Finset.sum_mul]
  exact Finset.sum_congr rfl fun j _ => by rw [show (∑ j, Z i j * b j) = index Z b i from rfl]; ring

/-- C126. Whatever the optimizer returns, predicted probabilities are strictly between 0 and 1, at least `1/(1 + exp 500)` from either end. -/
theorem C126_range (opt : Optimizer) {p : ℕ} (X : ι → Fin p → ℝ) (y : ι → ℝ) (n : ℕ) (tol : ℝ) (i : ι) :
    0 < (logistic opt X y n tol).2 i ∧ (logistic opt X y n tol).2 i < 1 ∧
    1 / (1 + Real.exp 500) ≤ (logistic opt X y n tol).2 i ∧ (logistic opt X y n tol).2 i ≤ 1 / (1 + Real.exp (-500)) := by
  refine ⟨prob_pos _, prob_lt_one _, ?_, ?_⟩
  · simp only [logistic, prob]
    have h := (clip_mem (index (withIntercept X) (opt (p + 1) (negLogLik (withIntercept X) y) (gradient (withIntercept X) y) 0 n tol).x i)).1
    have h0 := Real.exp_le_exp.2 (show -clip (index (withIntercept X) (opt (p + 1) (negLogLik (withIntercept X) y) (gradient (withIntercept X) y) 0 n tol).x i) ≤ 500 by linarith)
    have h1 := Real.exp_pos (-clip (index (withIntercept X) (opt (p + 1) (negLogLik (withIntercept X) y) (gradient (withIntercept X) y) 0 n tol).x i))
    exact one_div_le_one_div_of_le (by linarith) (by linarith)
  · simp only [logistic, prob]
    have h := (clip_mem (index (withIntercept X) (opt (p + 1) (negLogLik (withIntercept X) y) (gradient (withIntercept X) y) 0 n tol).x i)).2
    have h0 := Real.exp_le_exp.2 (show -500 ≤ -clip (index (withIntercept X) (opt (p + 1) (negLogLik (withIntercept X) y) (gradient (withIntercept X) y) 0 n tol).x i) by linarith)
    have h1 := Real.exp_pos (-500)
    exact one_div_le_one_div_of_le (by linarith) (by linarith)

/-- C126. At convergence with tolerance `eps` the predicted number of treated rows matches the actual one, and so do the covariate totals of the treated,
each within `eps`. -/
theorem C126_moments (opt : Optimizer) {p : ℕ} (X : ι → Fin p → ℝ) (y : ι → ℝ) (n : ℕ) (tol eps : ℝ)
    (hc : Converged (withIntercept X) y eps (logistic opt X y n tol).1) :
    |∑ i, y i - ∑ i, (logistic opt X y n tol).2 i| ≤ eps ∧
    ∀ j, |∑ i, X i j * y i - ∑ i, X i j * (logistic opt X y n tol).2 i| ≤ eps := by
  constructor
  · have := hc 0
    unfold gradient at this
    rw [abs_neg] at this
    rw [← Finset.sum_sub_distrib]
    simpa [withIntercept, logistic] using this
  · intro j
    have := hc j.succ
    unfold gradient at this
    rw [abs_neg] at this
    rw [← Finset.sum_sub_distrib]
    simpa [withIntercept, logistic, mul_sub] using this

/-- Two stationary points on designs with the same span give the same probabilities. -/
theorem probs_unique {k k' : ℕ} (Z : ι → Fin k → ℝ) (Z' : ι → Fin k' → ℝ) (B : Fin k → Fin k' → ℝ) (B' : Fin k' → Fin k → ℝ)
    (h1 : ∀ i m, Z' i m = ∑ j, Z i j * B j m) (h2 : ∀ i m, Z i m = ∑ j, Z' i j * B' j m) (y : ι → ℝ) (b : Fin k → ℝ) (c : Fin k' → ℝ)
    (hb : Stationary Z y b) (hc : Stationary Z' y c) (i : ι) : prob (index Z b i) = prob (index Z' c i) := by
  have e1 : ∀ i, index Z' c i = index Z (fun j => ∑ m, B j m * c m) i := by
    intro i; unfold index; simp only [h1 i, Finset.sum_mul, Finset.mul_sum]; rw [Finset.sum_comm]
    exact Finset.sum_congr rfl fun j _ => Finset.sum_congr rfl fun m _ => by ring
  have e2 : ∀ i, index Z b i = index Z' (fun j => ∑ m, B' j m * b m) i := by
    intro i; unfold index; simp only [h2 i, Finset.sum_mul, Finset.mul_sum]; rw [Finset.sum_comm]
    exact Finset.sum_congr rfl fun j _ => Finset.sum_congr rfl fun m _ => by ring
  -- gradients along the difference of the indices
  have d1 : ∑ i, index Z b i * (y i - prob (index Z b i)) = 0 := stationary_dir hb b
  have d2 : ∑ i, index Z' c i * (y i - prob (index Z b i)) = 0 := by simp only [e1]; exact stationary_dir hb _
  have d3 : ∑ i, index Z b i * (y i - prob (index Z' c i)) = 0 := by simp only [e2]; exact stationary_dir hc _
  have d4 : ∑ i, index Z' c i * (y i - prob (index Z' c i)) = 0 := stationary_dir hc c
  have key : ∑ i, (index Z b i - index Z' c i) * (prob (index Z b i) - prob (index Z' c i)) = 0 := by
    have : ∀ i, (index Z b i - index Z' c i) * (prob (index Z b i) - prob (index Z' c i)) =
        (index Z b i * (y i - prob (index Z' c i)) - index Z b i * (y i - prob (index Z b i))) -
        (index Z' c i * (y i - prob (index Z' c i)) - index Z' c i * (y i - prob (index Z b i))) := fun i => by ring
    simp only [this, Finset.sum_sub_distrib, d1, d2, d3, d4]; ring
  have hnn : ∀ i ∈ Finset.univ, 0 ≤ (index Z b i - index Z' c i) * (prob (index Z b i) - prob (index Z' c i)) := by
    intro i _
    rcases le_total (index Z b i) (index Z' c i) with h | h
    · exact mul_nonneg_of_nonpos_of_nonpos (by linarith) (by linarith [prob_mono h])
    · exact mul_nonneg (by linarith) (by linarith [prob_mono h])
  have hz := (Finset.sum_eq_zero_iff_of_nonneg hnn).1 key i (Finset.mem_univ i)
  rcases mul_eq_zero.1 hz with h | h
  · rw [sub_eq_zero.1 h]
  · exact sub_eq_zero.1 h

/-- C126. The propensity scores do not depend on the optimizer, its limits, or on how the covariates are coded: two exactly converged fits on covariates that
are affine functions of each other give the same score to every row. -/
theorem C126_recode (opt opt' : Optimizer) {p q : ℕ} (X : ι → Fin p → ℝ) (X' : ι → Fin q → ℝ) (A : Fin p → Fin q → ℝ) (a : Fin q → ℝ) (A' : Fin q → Fin p → ℝ)
    (a' : Fin p → ℝ) (h1 : ∀ i m, X' i m = a m + ∑ j, X i j * A j m) (h2 : ∀ i m, X i m = a' m + ∑ j, X' i j * A' j m) (y : ι → ℝ)
    (n n' : ℕ) (tol tol' : ℝ) (hc : Stationary (withIntercept X) y (logistic opt X y n tol).1)
    (hc' : Stationary (withIntercept X') y (logistic opt' X' y n' tol').1) : (logistic opt X y n tol).2 = (logistic opt' X' y n' tol').2 := by
  funext i
  refine probs_unique (withIntercept X) (withIntercept X')
    (fun j m => Fin.cases (motive := fun _ => ℝ) (Fin.cases (motive := fun _ => ℝ) 1 (fun m => a m) m) (fun j => Fin.cases (motive := fun _ => ℝ) 0 (fun m => A j m) m) j)
    (fun j m => Fin.cases (motive := fun _ => ℝ) (Fin.cases (motive := fun _ => ℝ) 1 (fun m => a' m) m) (fun j => Fin.cases (motive := fun _ => ℝ) 0 (fun m => A' j m) m) j)
    ?_ ?_ y _ _ hc hc' i
  · intro i m
    rw [Fin.sum_univ_succ]
    refine Fin.cases ?_ (fun m => ?_) m
    · simp [withIntercept]
    · simp [withIntercept, h1]
  · intro i m
    rw [Fin.sum_univ_succ]
    refine Fin.cases ?_ (fun m => ?_) m
    · simp [withIntercept]
    · simp [withIntercept, h2]

/-- C126. Separation: if some combination of the covariates is non-negative on all treated rows, non-positive on all comparison rows and not zero throughout, no
exactly converged fit exists: the coefficients returned depend on where the optimizer gives up. -/
theorem C126_separation {p : ℕ} (X : ι → Fin p → ℝ) (y : ι → ℝ) (hy : ∀ i, y i = 0 ∨ y i = 1) (v : Fin (p + 1) → ℝ)
    (h1 : ∀ i, y i = 1 → 0 ≤ index (withIntercept X) v i) (h0 : ∀ i, y i = 0 → index (withIntercept X) v i ≤ 0)
    (hs : ∃ i, index (withIntercept X) v i ≠ 0) (b : Fin (p + 1) → ℝ) : ¬ Stationary (withIntercept X) y b := by
  intro hb
  have hd := stationary_dir hb v
  have hnn : ∀ i ∈ Finset.univ, 0 ≤ index (withIntercept X) v i * (y i - prob (index (withIntercept X) b i)) := by
    intro i _
    rcases hy i with h | h
    · rw [h]; exact mul_nonneg_of_nonpos_of_nonpos (h0 i h) (by linarith [prob_pos (index (withIntercept X) b i)])
    · rw [h]; exact mul_nonneg (h1 i h) (by linarith [prob_lt_one (index (withIntercept X) b i)])
  obtain ⟨i, hi⟩ := hs
  have hz := (Finset.sum_eq_zero_iff_of_nonneg hnn).1 hd i (Finset.mem_univ i)
  rcases mul_eq_zero.1 hz with h | h
  · exact hi h
  · rcases hy i with h' | h'
    · rw [h'] at h; linarith [prob_pos (index (withIntercept X) b i)]
    · rw [h'] at h; linarith [prob_lt_one (index (withIntercept X) b i)]

/-! ### The stationary point is the maximum likelihood estimate -/

/-- Negative log-likelihood of the logit model, without clipping. -/
noncomputable def deviance {k : ℕ} (Z : ι → Fin k → ℝ) (y : ι → ℝ) (b : Fin k → ℝ) : ℝ :=
  ∑ i, (Real.log (1 + Real.exp (index Z b i)) - y i * index Z b i)

/-- Tangent inequality of `log (1 + exp z)`. -/
theorem softplus_tangent (z w : ℝ) : Real.log (1 + Real.exp z) + (1 / (1 + Real.exp (-z))) * (w - z) ≤ Real.log (1 + Real.exp w) := by
  have hz := Real.exp_pos z
  have hw := Real.exp_pos w
  -- weighted arithmetic-geometric mean through log concavity: log(1+e^w) - log(1+e^z) = log((1-s) + s e^(w-z)) ≥ s (w-z)
  set s := 1 / (1 + Real.exp (-z)) with hs
  have hs' : s = Real.exp z / (1 + Real.exp z) := by
    rw [hs, Real.exp_neg]; field_simp; ring
  have h1s : 1 - s = 1 / (1 + Real.exp z) := by rw [hs']; field_simp; ring
  have hs0 : 0 ≤ s := by rw [hs']; positivity
  have hs1 : 0 ≤ 1 - s := by rw [h1s]; positivity
  have hratio : (1 + Real.exp w) / (1 + Real.exp z) = (1 - s) + s * Real.exp (w - z) := by
    rw [h1s, hs', Real.exp_sub]; field_simp
  have hexp : Real.exp (s * (w - z)) ≤ (1 - s) + s * Real.exp (w - z) := by
    have := convexOn_exp.2 (Set.mem_univ 0) (Set.mem_univ (w - z)) hs1 hs0 (by ring)
    simpa using this
  have hlog : s * (w - z) ≤ Real.log ((1 + Real.exp w) / (1 + Real.exp z)) := by
    rw [hratio, Real.le_log_iff_exp_le]
    · exact hexp
    · exact lt_of_lt_of_le (Real.exp_pos _) hexp
  rw [Real.log_div (by positivity) (by positivity)] at hlog
  linarith

/-- C126. An exactly converged fit inside the clipping range is a maximum likelihood estimate of the logit model. -/
theorem C126_mle {k : ℕ} (Z : ι → Fin k → ℝ) (y : ι → ℝ) (b : Fin k → ℝ) (hb : Stationary Z y b) (hr : ∀ i, |index Z b i| ≤ 500) (c : Fin k → ℝ) :
    deviance Z y b ≤ deviance Z y c := by
  have h1 := stationary_dir hb b
  have h2 := stationary_dir hb c
  have key : ∀ i, Real.log (1 + Real.exp (index Z b i)) - y i * index Z b i ≤
      Real.log (1 + Real.exp (index Z c i)) - y i * index Z c i + (index Z c i * (y i - prob (index Z b i)) - index Z b i * (y i - prob (index Z b i))) := by
    intro i
    have := softplus_tangent (index Z b i) (index Z c i)
    have hp : prob (index Z b i) = 1 / (1 + Real.exp (-index Z b i)) := by unfold prob; rw [clip_eq (hr i)]
    rw [← hp] at this
    linarith
  unfold deviance
  calc _ ≤ ∑ i, (Real.log (1 + Real.exp (index Z c i)) - y i * index Z c i + (index Z c i * (y i - prob (index Z b i)) - index Z b i * (y i - prob (index Z b i)))) :=
        Finset.sum_le_sum fun i _ => key i
    _ = _ := by rw [Finset.sum_add_distrib, Finset.sum_sub_distrib (f := fun i => index Z c i * _), h1, h2]; ring

/-- The criterion handed to the optimizer is the negative log-likelihood inside the clipping range. -/
theorem negLogLik_eq {k : ℕ} (Z : ι → Fin k → ℝ) (y : ι → ℝ) (b : Fin k → ℝ) (hr : ∀ i, |index Z b i| ≤ 500) : negLogLik Z y b = deviance Z y b := by
  unfold negLogLik deviance
  rw [← Finset.sum_neg_distrib]
  exact Finset.sum_congr rfl fun i _ => by rw [clip_eq (hr i)]; ring

/-! ### Discrete covariates -/

/-- The regressors are (a coding of) the stratum: every stratum indicator is a combination of them, and they only depend on the stratum. -/
structure Saturated {S : Type*} [DecidableEq S] {k : ℕ} (Z : ι → Fin k → ℝ) (s : ι → S) : Prop where
  span : ∀ g, ∃ v, ∀ i, index Z v i = if s i = g then 1 else 0
  only : ∀ i j, s i = s j → Z i = Z j

/-- C126. With a saturated discrete covariate an exactly converged fit gives every row the treated share of its stratum. -/
theorem C126_strata {S : Type*} [DecidableEq S] {k : ℕ} (Z : ι → Fin k → ℝ) (s : ι → S) (hs : Saturated Z s) (y : ι → ℝ) (b : Fin k → ℝ)
    (hb : Stationary Z y b) (i : ι) :
    prob (index Z b i) = (∑ j ∈ Finset.univ.filter (fun j => s j = s i), y j) / ((Finset.univ.filter (fun j => s j = s i)).card : ℝ) := by
  obtain ⟨v, hv⟩ := hs.span (s i)
  have h := stationary_dir hb v
  simp only [hv, ite_mul, one_mul, zero_mul] at h
  rw [← Finset.sum_filter, Finset.sum_sub_distrib] at h
  have e : ∀ j ∈ Finset.univ.filter (fun j => s j = s i), prob (index Z b j) = prob (index Z b i) := by
    intro j hj
    have : Z j = Z i := hs.only j i (Finset.mem_filter.1 hj).2
    unfold index; rw [this]
  rw [Finset.sum_congr rfl e, Finset.sum_const, nsmul_eq_mul] at h
  have hpos : (0 : ℝ) < ((Finset.univ.filter (fun j => s j = s i)).card : ℝ) := by
    exact_mod_cast Finset.card_pos.2 ⟨i, by simp⟩
  rw [eq_div_iff hpos.ne']
  linarith

section cs
variable {n : ℕ}

/-- Propensity scores of a comparison of treated units `T` with comparison units `C` (staggered.py 923-945): fitted on the stacked units, 0 elsewhere. -/
noncomputable def pscore (opt : Optimizer) {p : ℕ} (T C : Finset (Fin n)) (X : Fin n → Fin p → ℝ) (maxIter : ℕ) (tol : ℝ) (u : Fin n) : ℝ :=
  if h : u ∈ T ∪ C then
    (logistic opt (fun w : {w // w ∈ T ∪ C} => X w.1) (fun w => if w.1 ∈ T then 1 else 0) maxIter tol).2 ⟨u, h⟩
  else 0

variable {S : Type*} [DecidableEq S] [Fintype S]

/-- Members of a stratum. -/
def inS (s : Fin n → S) (A : Finset (Fin n)) (g : S) : Finset (Fin n) := A.filter (fun u => s u = g)

/-- Stratified comparison: mean difference inside each stratum, weighted by the treated share. -/
noncomputable def stratified (s : Fin n → S) (T C : Finset (Fin n)) (d : Fin n → ℝ) : ℝ :=
  ∑ g, ((inS s T g).card : ℝ) / (T.card : ℝ) * ((∑ u ∈ inS s T g, d u) / ((inS s T g).card : ℝ) - (∑ u ∈ inS s C g, d u) / ((inS s C g).card : ℝ))

/-- Both kinds of units in every stratum, in proportions that the clipping at 0.01 and 0.99 does not touch. -/
def Overlap (s : Fin n → S) (T C : Finset (Fin n)) : Prop :=
  ∀ u ∈ T ∪ C, (1 : ℝ) / 100 ≤ ((inS s T (s u)).card : ℝ) / (((inS s T (s u)).card : ℝ) + ((inS s C (s u)).card : ℝ)) ∧
    ((inS s T (s u)).card : ℝ) / (((inS s T (s u)).card : ℝ) + ((inS s C (s u)).card : ℝ)) ≤ 99 / 100

theorem pscore_strata (opt : Optimizer) {p : ℕ} (T C : Finset (Fin n)) (hd : Disjoint T C) (X : Fin n → Fin p → ℝ) (maxIter : ℕ) (tol : ℝ) (s : Fin n → S)
    (hs : Saturated (withIntercept (fun w : {w // w ∈ T ∪ C} => X w.1)) (fun w => s w.1))
    (hc : Stationary (withIntercept (fun w : {w // w ∈ T ∪ C} => X w.1)) (fun w => if w.1 ∈ T then 1 else 0)
      (logistic opt (fun w : {w // w ∈ T ∪ C} => X w.1) (fun w => if w.1 ∈ T then 1 else 0) maxIter tol).1) (u : Fin n) (hu : u ∈ T ∪ C) :
    pscore opt T C X maxIter tol u = ((inS s T (s u)).card : ℝ) / (((inS s T (s u)).card : ℝ) + ((inS s C (s u)).card : ℝ)) := by
  unfold pscore
  rw [dif_pos hu]
  have key := C126_strata _ _ hs _ _ hc ⟨u, hu⟩
  refine Eq.trans key ?_
  have e1 : ∀ f : Fin n → ℝ, ∑ j ∈ (Finset.univ : Finset {w // w ∈ T ∪ C}).filter (fun j => s j.1 = s u), f j.1 = ∑ j ∈ inS s (T ∪ C) (s u), f j := by
    intro f
    unfold inS
    rw [Finset.sum_filter, Finset.sum_filter, ← Finset.sum_attach (T ∪ C)]
    rfl
  have hU : inS s (T ∪ C) (s u) = inS s T (s u) ∪ inS s C (s u) := Finset.filter_union _ _ _
  have hD : Disjoint (inS s T (s u)) (inS s C (s u)) := Finset.disjoint_filter_filter hd
  have e2 : ∑ j ∈ (Finset.univ : Finset {w // w ∈ T ∪ C}).filter (fun j => s j.1 = s u), (if j.1 ∈ T then (1 : ℝ) else 0) = ((inS s T (s u)).card : ℝ) := by
    rw [e1 (fun w => if w ∈ T then (1 : ℝ) else 0), hU, Finset.sum_union hD]
    have a1 : ∑ x ∈ inS s T (s u), (if x ∈ T then (1 : ℝ) else 0) = ∑ x ∈ inS s T (s u), 1 :=
      Finset.sum_congr rfl fun x hx => if_pos (Finset.mem_filter.1 hx).1
    have a2 : ∑ x ∈ inS s C (s u), (if x ∈ T then (1 : ℝ) else 0) = 0 :=
      Finset.sum_eq_zero fun x hx => if_neg fun hT => Finset.disjoint_left.1 hd hT (Finset.mem_filter.1 hx).1
    rw [a1, a2]; simp
  have e3 : (((Finset.univ : Finset {w // w ∈ T ∪ C}).filter (fun j => s j.1 = s u)).card : ℝ) = ((inS s T (s u)).card : ℝ) + ((inS s C (s u)).card : ℝ) := by
    have := e1 (fun _ => 1)
    rw [Finset.sum_const, Finset.sum_const, nsmul_eq_mul, nsmul_eq_mul, mul_one, mul_one] at this
    rw [this, hU, Finset.card_union_of_disjoint hD]; push_cast; ring
  rw [e2, e3]

theorem odds_strata {s : Fin n → S} {T C : Finset (Fin n)} (ho : Overlap s T C) {ps : Fin n → ℝ} {u : Fin n} (hu : u ∈ T ∪ C)
    (hp : ps u = ((inS s T (s u)).card : ℝ) / (((inS s T (s u)).card : ℝ) + ((inS s C (s u)).card : ℝ))) :
    ((inS s C (s u)).card : ℝ) ≠ 0 ∧ CS.odds (ps u) = ((inS s T (s u)).card : ℝ) / ((inS s C (s u)).card : ℝ) := by
  obtain ⟨h1, h2⟩ := ho u hu
  rw [← hp] at h1 h2
  have hclip : CS.clip (ps u) = ps u := by unfold CS.clip; rw [min_eq_right h2, max_eq_right h1]
  have hT0 : (0 : ℝ) ≤ ((inS s T (s u)).card : ℝ) := Nat.cast_nonneg _
  have hC0 : (0 : ℝ) ≤ ((inS s C (s u)).card : ℝ) := Nat.cast_nonneg _
  have hne : ((inS s T (s u)).card : ℝ) + ((inS s C (s u)).card : ℝ) ≠ 0 := by
    intro h0; rw [hp, h0, div_zero] at h1; norm_num at h1
  have hC : ((inS s C (s u)).card : ℝ) ≠ 0 := by
    intro h0; rw [hp, h0, add_zero, div_self (by rw [h0, add_zero] at hne; exact hne)] at h2; norm_num at h2
  refine ⟨hC, ?_⟩
  unfold CS.odds
  rw [hclip, hp]
  have e : 1 - ((inS s T (s u)).card : ℝ) / (((inS s T (s u)).card : ℝ) + ((inS s C (s u)).card : ℝ)) =
      ((inS s C (s u)).card : ℝ) / (((inS s T (s u)).card : ℝ) + ((inS s C (s u)).card : ℝ)) := by
    rw [eq_div_iff hne, sub_mul, div_mul_cancel₀ _ hne]; ring
  rw [e, div_div_div_cancel_right₀ hne]

theorem sum_strata (s : Fin n → S) (A : Finset (Fin n)) (f : Fin n → ℝ) : ∑ u ∈ A, f u = ∑ g, ∑ u ∈ inS s A g, f u := by
  unfold inS
  exact (Finset.sum_fiberwise A s f).symm

/-- Control sums weighted by the odds. -/
theorem sum_odds {s : Fin n → S} {T C : Finset (Fin n)} (ho : Overlap s T C) {ps : Fin n → ℝ}
    (hp : ∀ u ∈ T ∪ C, ps u = ((inS s T (s u)).card : ℝ) / (((inS s T (s u)).card : ℝ) + ((inS s C (s u)).card : ℝ))) (f : Fin n → ℝ) :
    ∑ u ∈ C, CS.odds (ps u) * f u = ∑ g, ((inS s T g).card : ℝ) * ((∑ u ∈ inS s C g, f u) / ((inS s C g).card : ℝ)) := by
  rw [sum_strata s C]
  refine Finset.sum_congr rfl fun g _ => ?_
  have e : ∀ u ∈ inS s C g, CS.odds (ps u) * f u = ((inS s T g).card : ℝ) / ((inS s C g).card : ℝ) * f u := by
    intro u hu
    have hg : s u = g := (Finset.mem_filter.1 hu).2
    have hm : u ∈ T ∪ C := Finset.mem_union_right _ (Finset.mem_filter.1 hu).1
    rw [(odds_strata ho hm (hp u hm)).2, hg]
  rw [Finset.sum_congr rfl e, ← Finset.mul_sum]
  ring

theorem card_C_pos {s : Fin n → S} {T C : Finset (Fin n)} (ho : Overlap s T C) {g : S} (h : ((inS s T g).card : ℝ) ≠ 0) : ((inS s C g).card : ℝ) ≠ 0 := by
  obtain ⟨u, hu⟩ : (inS s T g).Nonempty := by
    rw [← Finset.card_pos]; exact Nat.pos_of_ne_zero (by exact_mod_cast h)
  have hg : s u = g := (Finset.mem_filter.1 hu).2
  have hm : u ∈ T ∪ C := Finset.mem_union_left _ (Finset.mem_filter.1 hu).1
  have := (odds_strata ho hm (ps := fun w => ((inS s T (s w)).card : ℝ) / (((inS s T (s w)).card : ℝ) + ((inS s C (s w)).card : ℝ))) rfl).1
  rwa [hg] at this

/-- C126. Inverse probability weighting on a discrete covariate with overlap is exact stratification. -/
theorem C126_ipw_strata (opt : Optimizer) {p : ℕ} (T C : Finset (Fin n)) (hd : Disjoint T C) (hT : T.Nonempty) (X : Fin n → Fin p → ℝ) (maxIter : ℕ) (tol : ℝ)
    (s : Fin n → S) (hs : Saturated (withIntercept (fun w : {w // w ∈ T ∪ C} => X w.1)) (fun w => s w.1)) (ho : Overlap s T C)
    (hc : Stationary (withIntercept (fun w : {w // w ∈ T ∪ C} => X w.1)) (fun w => if w.1 ∈ T then 1 else 0)
      (logistic opt (fun w : {w // w ∈ T ∪ C} => X w.1) (fun w => if w.1 ∈ T then 1 else 0) maxIter tol).1) (d : Fin n → ℝ) :
    CS.ipwCov T C d (pscore opt T C X maxIter tol) = stratified s T C d := by
  have hp := pscore_strata opt T C hd X maxIter tol s hs hc
  have hT' : (T.card : ℝ) ≠ 0 := by exact_mod_cast (Finset.card_pos.2 hT).ne'
  have h1 : ∑ u ∈ C, CS.odds (pscore opt T C X maxIter tol u) = (T.card : ℝ) := by
    have := sum_odds ho hp (fun _ => 1)
    simp only [mul_one] at this
    rw [this]
    have e : ∀ g, ((inS s T g).card : ℝ) * ((∑ u ∈ inS s C g, (1 : ℝ)) / ((inS s C g).card : ℝ)) = ∑ u ∈ inS s T g, (1 : ℝ) := by
      intro g
      rw [Finset.sum_const, Finset.sum_const, nsmul_eq_mul, nsmul_eq_mul, mul_one, mul_one]
      by_cases h0 : ((inS s T g).card : ℝ) = 0
      · rw [h0, zero_mul]
      · rw [div_self (card_C_pos ho h0), mul_one]
    simp only [e]
    rw [← sum_strata s T]; simp
  have h2 : ∑ u ∈ C, CS.ipwWeight C (pscore opt T C X maxIter tol) u * d u = ∑ g, ((inS s T g).card : ℝ) / (T.card : ℝ) * ((∑ u ∈ inS s C g, d u) / ((inS s C g).card : ℝ)) := by
    have e : ∀ u, CS.ipwWeight C (pscore opt T C X maxIter tol) u * d u = (CS.odds (pscore opt T C X maxIter tol u) * d u) / (T.card : ℝ) := by
      intro u; unfold CS.ipwWeight; rw [h1]; ring
    simp only [e]
    rw [← Finset.sum_div, sum_odds ho hp, Finset.sum_div]
    exact Finset.sum_congr rfl fun g _ => by ring
  have h3 : CS.mean T d = ∑ g, ((inS s T g).card : ℝ) / (T.card : ℝ) * ((∑ u ∈ inS s T g, d u) / ((inS s T g).card : ℝ)) := by
    unfold CS.mean
    rw [sum_strata s T, Finset.sum_div]
    refine Finset.sum_congr rfl fun g _ => ?_
    by_cases h0 : ((inS s T g).card : ℝ) = 0
    · have : inS s T g = ∅ := Finset.card_eq_zero.1 (by exact_mod_cast h0)
      rw [this]; simp
    · field_simp
  unfold CS.ipwCov stratified
  rw [h2, h3, ← Finset.sum_sub_distrib]
  exact Finset.sum_congr rfl fun g _ => by ring

/-- C126. Doubly robust estimation on a discrete covariate with overlap is the same stratified comparison, whatever the outcome predictions, as long as they
only depend on the stratum. -/
theorem C126_dr_strata (opt : Optimizer) {p : ℕ} (T C : Finset (Fin n)) (hd : Disjoint T C) (hT : T.Nonempty) (X : Fin n → Fin p → ℝ) (maxIter : ℕ) (tol : ℝ)
    (s : Fin n → S) (hs : Saturated (withIntercept (fun w : {w // w ∈ T ∪ C} => X w.1)) (fun w => s w.1)) (ho : Overlap s T C)
    (hc : Stationary (withIntercept (fun w : {w // w ∈ T ∪ C} => X w.1)) (fun w => if w.1 ∈ T then 1 else 0)
      (logistic opt (fun w : {w // w ∈ T ∪ C} => X w.1) (fun w => if w.1 ∈ T then 1 else 0) maxIter tol).1) (d : Fin n → ℝ) (m : S → ℝ) :
    CS.drCov T C d (fun u => m (s u)) (pscore opt T C X maxIter tol) = stratified s T C d := by
  have hp := pscore_strata opt T C hd X maxIter tol s hs hc
  unfold CS.drCov stratified CS.mean
  rw [sum_odds ho hp, sum_strata s T, ← add_div, ← Finset.sum_add_distrib, Finset.sum_div]
  refine Finset.sum_congr rfl fun g _ => ?_
  have c1 : ∑ u ∈ inS s T g, (d u - m (s u)) = ∑ u ∈ inS s T g, d u - ((inS s T g).card : ℝ) * m g := by
    rw [Finset.sum_sub_distrib]
    congr 1
    have : ∀ u ∈ inS s T g, m (s u) = m g := fun u hu => by rw [(Finset.mem_filter.1 hu).2]
    rw [Finset.sum_congr rfl this, Finset.sum_const, nsmul_eq_mul]
  have c2 : ∑ u ∈ inS s C g, (m (s u) - d u) = ((inS s C g).card : ℝ) * m g - ∑ u ∈ inS s C g, d u := by
    rw [Finset.sum_sub_distrib]
    congr 1
    have : ∀ u ∈ inS s C g, m (s u) = m g := fun u hu => by rw [(Finset.mem_filter.1 hu).2]
    rw [Finset.sum_congr rfl this, Finset.sum_const, nsmul_eq_mul]
  rw [c1, c2]
  by_cases h0 : ((inS s T g).card : ℝ) = 0
  · have : inS s T g = ∅ := Finset.card_eq_zero.1 (by exact_mod_cast h0)
    rw [this]; simp
  · have hC := card_C_pos ho h0
    have hT' : (T.card : ℝ) ≠ 0 := by exact_mod_cast (Finset.card_pos.2 hT).ne'
    field_simp
    ring

end cs

/-! ### The clipped criterion -/

/-- `2m` ordinary rows and two outliers. -/
abbrev Rows (m : ℕ) := (Fin m × Bool) ⊕ Bool

/-- Covariate: 1 for treated, -1 for comparison rows; the outliers have it the other way round, `m` times as large. -/
def outX (m : ℕ) : Rows m → Fin 1 → ℝ
  | .inl (_, true), _ => 1
  | .inl (_, false), _ => -1
  | .inr true, _ => -(m : ℝ)
  | .inr false, _ => (m : ℝ)

def outY (m : ℕ) : Rows m → ℝ
  | .inl (_, t) => if t then 1 else 0
  | .inr t => if t then 1 else 0

theorem index_out (m : ℕ) (b : Fin 2 → ℝ) (i : Rows m) : index (withIntercept (outX m)) b i = b 0 + outX m i 0 * b 1 := by
  simp [index, withIntercept, Fin.sum_univ_two]

theorem out_stationary (m : ℕ) : Stationary (withIntercept (outX m)) (outY m) 0 := by
  have hp : prob 0 = 1 / 2 := by unfold prob; rw [clip_eq (by norm_num)]; norm_num
  intro j
  have h0 : ∀ i, index (withIntercept (outX m)) 0 i = 0 := fun i => by simp [index]
  simp only [h0, hp]
  rw [Fintype.sum_sum_type, Fintype.sum_prod_type]
  fin_cases j
  · simp [Fintype.sum_bool, withIntercept, outY]
    try ring
  · simp [Fintype.sum_bool, withIntercept, outX, outY]
    try ring

/-- Refuted reading of C126: the converged point does not minimise the criterion the code hands to the optimizer, although it is the maximum likelihood
estimate. The criterion clips the index at 500, so a misclassified row never costs more than about 500: with 2000 ordinary rows and two outliers the
criterion is lower far away, at a slope of 500, than at the maximum likelihood estimate 0. -/
theorem C126_criterion_refuted (m : ℕ) (hm : 1000 ≤ m) :
    Stationary (withIntercept (outX m)) (outY m) 0 ∧ (∀ i, |index (withIntercept (outX m)) 0 i| ≤ 500) ∧
    (∀ c, deviance (withIntercept (outX m)) (outY m) 0 ≤ deviance (withIntercept (outX m)) (outY m) c) ∧
    negLogLik (withIntercept (outX m)) (outY m) ![0, 500] < negLogLik (withIntercept (outX m)) (outY m) 0 := by
  have h0 : ∀ i, |index (withIntercept (outX m)) 0 i| ≤ 500 := fun i => by simp [index]
  refine ⟨out_stationary m, h0, C126_mle _ _ _ (out_stationary m) h0, ?_⟩
  have e0 : negLogLik (withIntercept (outX m)) (outY m) 0 = (2 * m + 2) * Real.log 2 := by
    have hi : ∀ i, index (withIntercept (outX m)) 0 i = 0 := fun i => by simp [index]
    have hc : clip 0 = 0 := clip_eq (by norm_num)
    unfold negLogLik
    simp only [hi, hc, Real.exp_zero, mul_zero, zero_sub]
    rw [Finset.sum_neg_distrib, neg_neg, Finset.sum_const, Finset.card_univ]
    simp only [Rows, Fintype.card_sum, Fintype.card_prod, Fintype.card_fin, Fintype.card_bool, nsmul_eq_mul]
    push_cast
    norm_num
    ring
  have hm1 : (1 : ℝ) ≤ (m : ℝ) := by exact_mod_cast (le_trans (by norm_num) hm)
  have c1 : clip 500 = 500 := clip_eq (by norm_num)
  have c2 : clip (-500) = -500 := clip_eq (by norm_num)
  have c3 : clip ((m : ℝ) * 500) = 500 := by
    unfold clip; rw [min_eq_right (by linarith)]; norm_num
  have c4 : clip (-((m : ℝ) * 500)) = -500 := by
    unfold clip; rw [min_eq_left (by linarith), max_eq_left (by linarith)]
  set q := Real.log (1 + Real.exp (-500)) with hq
  have hl : Real.log (1 + Real.exp 500) = 500 + q := by
    rw [hq, ← Real.log_exp 500, ← Real.log_mul (by positivity) (by positivity), Real.log_exp, mul_add, mul_one, ← Real.exp_add]
    norm_num; rw [add_comm]
  have e1 : negLogLik (withIntercept (outX m)) (outY m) ![0, 500] = 1000 + (2 * m + 2) * q := by
    unfold negLogLik
    simp only [index_out]
    rw [Fintype.sum_sum_type, Fintype.sum_prod_type]
    simp [Fintype.sum_bool, outX, outY, c1, c2, c3, c4, hl, ← hq]
    ring
  have hq1 : q ≤ Real.exp (-500) := by
    have := Real.log_le_sub_one_of_pos (show 0 < 1 + Real.exp (-500) by positivity)
    rw [hq]; linarith
  have hq2 : Real.exp (-500) ≤ 1 / 100 := by
    have h5 : Real.exp (-500) ≤ Real.exp (-99) := Real.exp_le_exp.2 (by norm_num)
    have h6 : (100 : ℝ) ≤ Real.exp 99 := by have := Real.add_one_le_exp (99 : ℝ); linarith
    have h7 : Real.exp (-99) = 1 / Real.exp 99 := by rw [Real.exp_neg]; simp
    rw [h7] at h5
    exact h5.trans (one_div_le_one_div_of_le (by norm_num) h6)
  have hl2 : (0.6931471803 : ℝ) < Real.log 2 := Real.log_two_gt_d9
  have hm2 : (1000 : ℝ) ≤ (m : ℝ) := by exact_mod_cast hm
  rw [e0, e1]
  have : (2 * (m : ℝ) + 2) * q ≤ (2 * (m : ℝ) + 2) * (1 / 100) := mul_le_mul_of_nonneg_left (hq1.trans hq2) (by linarith)
  nlinarith

/-! ### Examples -/

/-- An optimizer that stops at once. -/
def stay : Optimizer := fun _ _ _ b0 _ _ => ⟨b0, true⟩

/-- One of three treated, no covariates: the log odds of 1/3 is an exactly converged fit. -/
example : Stationary (withIntercept (fun (_ : Fin 3) (j : Fin 0) => j.elim0)) ![1, 0, 0] (fun _ => Real.log (1 / 2)) := by
  have hi : ∀ i, index (withIntercept (fun (_ : Fin 3) (j : Fin 0) => j.elim0)) (fun _ => Real.log (1 / 2)) i = Real.log (1 / 2) := by
    intro i; simp [index, withIntercept]
  have hb : |Real.log (1 / 2)| ≤ 500 := by
    rw [one_div, Real.log_inv, abs_neg, abs_of_pos (Real.log_pos (by norm_num))]
    have := Real.log_two_lt_d9; linarith
  have hp : prob (Real.log (1 / 2)) = 1 / 3 := by
    unfold prob
    rw [clip_eq hb, Real.exp_neg, Real.exp_log (by norm_num)]; norm_num
  intro j
  simp only [hi, hp]
  fin_cases j
  simp [withIntercept, Fin.sum_univ_three]
  try norm_num

/-- Two strata with one treated and one comparison unit each. -/
def exX : Fin 4 → Fin 1 → ℝ := ![fun _ => 0, fun _ => 0, fun _ => 1, fun _ => 1]
def exS : Fin 4 → Bool := ![false, false, true, true]
def exT : Finset (Fin 4) := {0, 2}
def exC : Finset (Fin 4) := {1, 3}

example (d : Fin 4 → ℝ) : CS.ipwCov exT exC d (pscore stay exT exC exX 100 1) = ((d 0 - d 1) + (d 2 - d 3)) / 2 := by
  have hsat : Saturated (withIntercept (fun w : {w // w ∈ exT ∪ exC} => exX w.1)) (fun w => exS w.1) := by
    refine ⟨fun g => ?_, fun i j h => ?_⟩
    · refine ⟨if g then ![0, 1] else ![1, -1], fun ⟨i, hi⟩ => ?_⟩
      fin_cases i <;> cases g <;> simp [index, withIntercept, exX, exS, Fin.sum_univ_two]
    · obtain ⟨i, hi⟩ := i
      obtain ⟨j, hj⟩ := j
      fin_cases i <;> fin_cases j <;> first | rfl | (simp [exS] at h)
  have hov : Overlap exS exT exC := by
    have c1 : ∀ g, (inS exS exT g).card = 1 := by decide
    have c2 : ∀ g, (inS exS exC g).card = 1 := by decide
    intro u _
    rw [c1, c2]; norm_num
  have hst : Stationary (withIntercept (fun w : {w // w ∈ exT ∪ exC} => exX w.1)) (fun w => if w.1 ∈ exT then 1 else 0)
      (logistic stay (fun w : {w // w ∈ exT ∪ exC} => exX w.1) (fun w => if w.1 ∈ exT then 1 else 0) 100 1).1 := by
    have hp : prob 0 = 1 / 2 := by unfold prob; rw [clip_eq (by norm_num)]; norm_num
    have hsum : ∀ f : Fin 4 → ℝ, ∑ w : {w // w ∈ exT ∪ exC}, f w.1 = f 0 + f 1 + f 2 + f 3 := by
      intro f
      rw [Finset.sum_coe_sort (exT ∪ exC) f]
      have : (exT ∪ exC) = Finset.univ := by decide
      rw [this, Fin.sum_univ_four]
    intro j
    have h0 : ∀ w, index (withIntercept (fun w : {w // w ∈ exT ∪ exC} => exX w.1)) (logistic stay (fun w : {w // w ∈ exT ∪ exC} => exX w.1) (fun w => if w.1 ∈ exT then 1 else 0) 100 1).1 w = 0 := by
      intro w; simp [index, logistic, stay]
    simp only [h0, hp]
    refine (hsum (fun u => withIntercept exX u j * ((if u ∈ exT then 1 else 0) - 1 / 2))).trans ?_
    fin_cases j <;> simp [withIntercept, exX, exT] <;> norm_num
  rw [C126_ipw_strata stay _ _ (by decide) (by decide) exX 100 1 exS hsat hov hst]
  have i1 : inS exS exT true = {2} := by decide
  have i2 : inS exS exT false = {0} := by decide
  have i3 : inS exS exC true = {3} := by decide
  have i4 : inS exS exC false = {1} := by decide
  have i5 : exT.card = 2 := by decide
  unfold stratified
  rw [Fintype.sum_bool, i1, i2, i3, i4, i5]
  simp
  ring

/-- Separation occurs: the covariate is 1 for the treated row and 0 for the other. -/
example (b : Fin 2 → ℝ) : ¬ Stationary (withIntercept (fun (i : Fin 2) (_ : Fin 1) => ![1, 0] i)) ![1, 0] b := by
  refine C126_separation _ _ (fun i => by fin_cases i <;> simp) ![-1, 2] (fun i h => ?_) (fun i h => ?_) ⟨0, ?_⟩ b
  · fin_cases i <;> simp [index, withIntercept, Fin.sum_univ_two] at h ⊢ <;> norm_num
  · fin_cases i <;> simp [index, withIntercept, Fin.sum_univ_two] at h ⊢
  · simp [index, withIntercept, Fin.sum_univ_two]; norm_num

/-- The derivative at the starting point of the search, for two rows with covariate 1 and 0 and the first treated. -/
example : HasDerivAt (fun s : ℝ => negLogLik (withIntercept (fun (i : Fin 2) (_ : Fin 1) => ![1, 0] i)) ![1, 0] (fun j => 0 + s * ![0, 1] j)) (-(1 / 2)) 0 := by
  have h := C126_gradient (withIntercept (fun (i : Fin 2) (_ : Fin 1) => ![(1 : ℝ), 0] i)) ![1, 0] (fun _ => 0) ![0, 1] (fun i => by simp [index])
  refine h.congr_deriv ?_
  have hc : clip 0 = 0 := clip_eq (by norm_num)
  simp [gradient, withIntercept, index, prob, hc, Fin.sum_univ_two]
  norm_num

end DiffDiff.Logit
