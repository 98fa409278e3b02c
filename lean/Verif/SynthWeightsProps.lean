/-
Properties C04, C05, C61, C62: synthetic-control unit weights and time weights.
-/
import Verif.SynthWeights
import Verif.SimplexProps

set_option linter.unusedSectionVars false

namespace DiffDiff.SynthWeights

open DiffDiff.Simplex Matrix

variable {K : Type*} [Field K] [LinearOrder K] [IsStrictOrderedRing K] {p n : ℕ}

/-! ### Helper lemmas -/

theorem ofFn_getD (l : List K) (h : l.length = n) :
    List.ofFn (fun i : Fin n => l.getD i 0) = l := by
  subst h
  apply List.ext_getElem
  · simp
  · intro i h1 h2
    simp

theorem isProb_ofFn (w : Fin n → K) : IsProb (List.ofFn w) ↔ IsProbF w := by
  simp [IsProb, IsProbF, List.sum_ofFn]

theorem sqDist_ofFn (a b : Fin n → K) :
    sqDist (List.ofFn a) (List.ofFn b) = ∑ i, (a i - b i) ^ 2 := by
  induction n with
  | zero => simp [sqDist]
  | succ m ih => rw [List.ofFn_succ, List.ofFn_succ, sqDist, ih, Fin.sum_univ_succ]

theorem ofFn_proj (v : Fin n → K) (h : 0 < n) :
    List.ofFn (proj v) = projectSimplex (List.ofFn v) := by
  have hne : List.ofFn v ≠ [] := by
    intro hh; have := congrArg List.length hh; simp at this; omega
  apply ofFn_getD
  rw [(C01_projection_isProb _ hne).1, List.length_ofFn]

theorem proj_isProb (v : Fin n → K) (h : 0 < n) : IsProbF (proj v) := by
  have hne : List.ofFn v ≠ [] := by
    intro hh; have := congrArg List.length hh; simp at this; omega
  rw [← isProb_ofFn, ofFn_proj v h]
  exact (C01_projection_isProb _ hne).2

theorem projRust_eq (v : Fin n → K) : projRust v = proj v := by
  funext i; simp only [projRust, proj, C03_backends_agree]

/-- Obtuse angle property of the projection in coordinates. -/
theorem proj_obtuse (v q : Fin n → K) (h : 0 < n) (hq : IsProbF q) :
    ∑ i, (proj v i - v i) ^ 2 + ∑ i, (q i - proj v i) ^ 2 ≤ ∑ i, (q i - v i) ^ 2 := by
  have hne : List.ofFn v ≠ [] := by
    intro hh; have := congrArg List.length hh; simp at this; omega
  have := C02_projection_obtuse (List.ofFn v) (List.ofFn q) hne (by simp) ((isProb_ofFn q).2 hq)
  rw [← ofFn_proj v h, sqDist_ofFn, sqDist_ofFn, sqDist_ofFn] at this
  exact this

theorem proj_inner (v q : Fin n → K) (h : 0 < n) (hq : IsProbF q) :
    ∑ i, (v i - proj v i) * (q i - proj v i) ≤ 0 := by
  have h1 := proj_obtuse v q h hq
  have e : ∑ i, (q i - v i) ^ 2 = ∑ i, (proj v i - v i) ^ 2 + ∑ i, (q i - proj v i) ^ 2
      - 2 * ∑ i, (v i - proj v i) * (q i - proj v i) := by
    rw [Finset.mul_sum, ← Finset.sum_add_distrib, ← Finset.sum_sub_distrib]
    apply Finset.sum_congr rfl; intro i _; ring
  linarith

theorem proj_unique (v q : Fin n → K) (h : 0 < n) (hq : IsProbF q)
    (hle : ∑ i, (q i - v i) ^ 2 ≤ ∑ i, (proj v i - v i) ^ 2) : q = proj v := by
  have h1 := proj_obtuse v q h hq
  have h2 : ∑ i, (q i - proj v i) ^ 2 ≤ 0 := by linarith
  have h3 := (Finset.sum_eq_zero_iff_of_nonneg (fun i _ => sq_nonneg (q i - proj v i))).1
    (le_antisymm h2 (Finset.sum_nonneg (fun i _ => sq_nonneg _)))
  funext i
  have := h3 i (Finset.mem_univ i)
  exact sub_eq_zero.1 (pow_eq_zero_iff two_ne_zero |>.1 this)

theorem proj_shift (v : Fin n → K) (c : K) : proj (fun i => v i + c) = proj v := by
  have : List.ofFn (fun i => v i + c) = (List.ofFn v).map (· + c) := by
    rw [List.map_ofFn]; rfl
  funext i
  rw [proj, proj, this, C02_projection_shift]

theorem uniform_isProb (h : 0 < n) : IsProbF (uniform n : Fin n → K) := by
  have hn : (0 : K) < n := by exact_mod_cast h
  refine ⟨fun i => by unfold uniform; positivity, ?_⟩
  simp [uniform, hn.ne']

theorem numpyLoop_inv (P : (Fin n → K) → Prop) (f : (Fin n → K) → (Fin n → K)) (tol : K)
    (hf : ∀ w, P w → P (f w)) (k : ℕ) (w : Fin n → K) (hw : P w) : P (numpyLoop f tol k w) := by
  induction k generalizing w with
  | zero => exact hw
  | succ k ih =>
    rw [numpyLoop]
    split_ifs
    · exact hf w hw
    · exact ih _ (hf w hw)

theorem rustLoop_inv (P : (Fin n → K) → Prop) (f : (Fin n → K) → (Fin n → K)) (tol : K)
    (hf : ∀ w, P w → P (f w)) (k : ℕ) (w prev : Fin n → K) (hw : P w) :
    P (rustLoop f tol k w prev) := by
  induction k generalizing w prev with
  | zero => exact hw
  | succ k ih =>
    rw [rustLoop]
    split_ifs
    · exact hf w hw
    · exact ih _ _ (hf w hw)

/-- The Rust loop with its `prev_weights` variable is the numpy loop. -/
theorem rustLoop_eq (f : (Fin n → K) → (Fin n → K)) (tol : K) (k : ℕ) (w : Fin n → K) :
    rustLoop f tol k w w = numpyLoop f tol k w := by
  induction k generalizing w with
  | zero => rfl
  | succ k ih => simp only [rustLoop, numpyLoop, ih]

theorem cleanWeights_isProb (m : K) (w : Fin n → K) (h : 0 < n) (hw : ∀ i, 0 ≤ w i) :
    IsProbF (cleanWeights m w) := by
  simp only [cleanWeights]
  set w0 : Fin n → K := fun i => if w i < m then 0 else w i with hw0
  have h0 : ∀ i, 0 ≤ w0 i := by
    intro i; simp only [hw0]; split_ifs
    · exact le_rfl
    · exact hw i
  split_ifs with hs
  · refine ⟨fun i => div_nonneg (h0 i) hs.le, ?_⟩
    rw [← Finset.sum_div, div_self hs.ne']
  · exact uniform_isProb h

/-! ### C04 -/

/-- C04. For every input, backend, regularisation, threshold, step size, tolerance and iteration
budget the unit weights are a probability vector. -/
theorem C04_unit_weights_isProb (b : Backend) (Y : Matrix (Fin p) (Fin n) K) (T : Fin p → K)
    (lam minWeight step tol : K) (maxIter : ℕ) (h : 0 < n) :
    IsProbF (computeSyntheticWeights b Y T lam minWeight step tol maxIter) := by
  unfold computeSyntheticWeights
  rw [if_neg (by omega)]
  split_ifs with h1
  · subst h1; exact ⟨fun _ => zero_le_one, by simp⟩
  · apply cleanWeights_isProb _ _ h
    cases b with
    | numpy =>
      exact (numpyLoop_inv IsProbF _ tol (fun w _ => proj_isProb _ h) maxIter _ (uniform_isProb h)).1
    | rust =>
      refine (rustLoop_inv IsProbF _ tol (fun w _ => ?_) maxIter _ _ (uniform_isProb h)).1
      unfold stepRust; rw [projRust_eq]; exact proj_isProb _ h

/-- C04. A single control unit gets weight one. -/
theorem C04_single_control (b : Backend) (Y : Matrix (Fin p) (Fin 1) K) (T : Fin p → K)
    (lam minWeight step tol : K) (maxIter : ℕ) :
    computeSyntheticWeights b Y T lam minWeight step tol maxIter = fun _ => 1 := by
  simp [computeSyntheticWeights]

/-- C04. When the threshold is at most `1/n` every reported weight is either zero or at least the
threshold (renormalisation never pushes a kept weight below it), and the uniform fallback is not
what produced the result. -/
theorem C04_min_weight_respected (b : Backend) (Y : Matrix (Fin p) (Fin n) K) (T : Fin p → K)
    (lam minWeight step tol : K) (maxIter : ℕ) (h : 1 < n) (hm0 : 0 ≤ minWeight)
    (hm : minWeight ≤ 1 / (n : K)) (i : Fin n) :
    computeSyntheticWeights b Y T lam minWeight step tol maxIter i = 0 ∨
      minWeight ≤ computeSyntheticWeights b Y T lam minWeight step tol maxIter i := by
  have hn : 0 < n := by omega
  have key : ∀ w : Fin n → K, IsProbF w → cleanWeights minWeight w i = 0 ∨
      minWeight ≤ cleanWeights minWeight w i := by
    intro w hw
    simp only [cleanWeights]
    set w0 : Fin n → K := fun i => if w i < minWeight then 0 else w i with hw0
    have hle : ∑ j, w0 j ≤ 1 := by
      rw [← hw.2]
      apply Finset.sum_le_sum
      intro j _
      simp only [hw0]; split_ifs
      · exact hw.1 j
      · exact le_rfl
    split_ifs with hs
    · by_cases hi : w i < minWeight
      · left; simp [hw0, hi]
      · right
        rw [le_div_iff₀ hs, if_neg hi]
        calc minWeight * ∑ j, w0 j ≤ minWeight * 1 := mul_le_mul_of_nonneg_left hle hm0
          _ ≤ w i := by rw [mul_one]; exact not_lt.1 hi
    · right; exact hm
  unfold computeSyntheticWeights
  rw [if_neg (by omega), if_neg (by omega)]
  cases b with
  | numpy =>
    exact key _ (numpyLoop_inv IsProbF _ tol (fun w _ => proj_isProb _ hn) maxIter _ (uniform_isProb hn))
  | rust =>
    refine key _ (rustLoop_inv IsProbF _ tol (fun w _ => ?_) maxIter _ _ (uniform_isProb hn))
    unfold stepRust; rw [projRust_eq]; exact proj_isProb _ hn

/-- C04 non-vacuity: three controls, one pre-period, one numpy iteration. -/
example : computeSyntheticWeights .numpy (!![0, 10, 4] : Matrix (Fin 1) (Fin 3) ℚ) ![4] 0 (1/1000)
    (1/116) (1/100000000) 1 = ![94/261, 79/261, 88/261] := by
  funext i; fin_cases i <;> decide +kernel

/-! ### C61: descent and optimality of the interpreted backend -/

/-- Expansion of the documented objective along a direction. -/
theorem objective_expand (Y : Matrix (Fin p) (Fin n) K) (T : Fin p → K) (lam : K)
    (w d : Fin n → K) :
    objective Y T lam (w + d) = objective Y T lam w
      + 2 * ∑ i, (hess Y lam *ᵥ w - linNumpy Y T lam) i * d i
      + (∑ t, (∑ j, Y t j * d j) ^ 2 + lam * ∑ j, d j ^ 2) := by
  have hlin : ∀ t, ∑ j, Y t j * (w + d) j = ∑ j, Y t j * w j + ∑ j, Y t j * d j := by
    intro t; rw [← Finset.sum_add_distrib]
    apply Finset.sum_congr rfl; intro j _; simp only [Pi.add_apply]; ring
  have hgrad : ∑ i, (hess Y lam *ᵥ w - linNumpy Y T lam) i * d i
      = ∑ t, (∑ j, Y t j * w j - T t) * (∑ j, Y t j * d j)
        + lam * ∑ j, (w j - 1 / (n : K)) * d j := by
    have e1 : ∀ i, (hess Y lam *ᵥ w - linNumpy Y T lam) i
        = ∑ t, Y t i * (∑ j, Y t j * w j - T t) + lam * (w i - 1 / (n : K)) := by
      intro i
      simp only [hess, linNumpy, add_mulVec, ← mulVec_mulVec, smul_mulVec, one_mulVec,
        Pi.sub_apply, Pi.add_apply, Pi.smul_apply, smul_eq_mul, uniform, mulVec, dotProduct,
        transpose_apply]
      rw [show ∑ t, Y t i * (∑ j, Y t j * w j - T t)
        = ∑ t, Y t i * (∑ j, Y t j * w j) - ∑ t, Y t i * T t by
          rw [← Finset.sum_sub_distrib]; apply Finset.sum_congr rfl; intro t _; ring]
      ring
    simp only [e1, add_mul, Finset.sum_add_distrib, Finset.sum_mul]
    rw [Finset.sum_comm]
    congr 1
    · apply Finset.sum_congr rfl; intro t _
      rw [Finset.mul_sum]
      apply Finset.sum_congr rfl; intro i _; ring
    · rw [Finset.mul_sum]; apply Finset.sum_congr rfl; intro i _; ring
  rw [hgrad]
  unfold objective
  simp only [hlin]
  simp only [Pi.add_apply]
  have e2 : ∑ t, (T t - (∑ j, Y t j * w j + ∑ j, Y t j * d j)) ^ 2
      = ∑ t, (T t - ∑ j, Y t j * w j) ^ 2
        + 2 * ∑ t, (∑ j, Y t j * w j - T t) * (∑ j, Y t j * d j)
        + ∑ t, (∑ j, Y t j * d j) ^ 2 := by
    rw [Finset.mul_sum, ← Finset.sum_add_distrib, ← Finset.sum_add_distrib]
    apply Finset.sum_congr rfl; intro t _; ring
  have e3 : ∑ j, (w j + d j - 1 / (n : K)) ^ 2
      = ∑ j, (w j - 1 / (n : K)) ^ 2 + 2 * ∑ j, (w j - 1 / (n : K)) * d j + ∑ j, d j ^ 2 := by
    rw [Finset.mul_sum, ← Finset.sum_add_distrib, ← Finset.sum_add_distrib]
    apply Finset.sum_congr rfl; intro j _; ring
  rw [e2, e3]; ring

/-- The step size is small enough for the curvature of the objective: `step * d'Hd <= d'd`.
This is what `step = 1/(norm(H,2)+eps)` guarantees (definition of the spectral norm). -/
def StepOk (Y : Matrix (Fin p) (Fin n) K) (lam step : K) : Prop :=
  0 < step ∧ ∀ d : Fin n → K, step * (∑ t, (∑ j, Y t j * d j) ^ 2 + lam * ∑ j, d j ^ 2) ≤ ∑ j, d j ^ 2

/-- One numpy iteration never increases the documented objective. -/
theorem stepNumpy_descent (Y : Matrix (Fin p) (Fin n) K) (T : Fin p → K) (lam step : K)
    (hn : 0 < n) (hs : StepOk Y lam step) (w : Fin n → K) (hw : IsProbF w) :
    objective Y T lam (stepNumpy Y T lam step w) ≤ objective Y T lam w := by
  set g := hess Y lam *ᵥ w - linNumpy Y T lam with hg
  set w' := stepNumpy Y T lam step w with hw'
  have hproj : w' = proj (w - step • g) := rfl
  have h1 := proj_inner (w - step • g) w hn hw
  rw [← hproj] at h1
  set d : Fin n → K := w' - w with hd
  have hww : w' = w + d := by rw [hd]; abel
  have h2 : ∑ i, ((w - step • g) i - w' i) * (w i - w' i) = ∑ i, d i ^ 2 + step * ∑ i, g i * d i := by
    rw [Finset.mul_sum, ← Finset.sum_add_distrib]
    apply Finset.sum_congr rfl; intro i _
    simp only [hd, Pi.sub_apply, Pi.smul_apply, smul_eq_mul]; ring
  rw [h2] at h1
  have h3 := hs.2 d
  have h4 : 0 ≤ ∑ i, d i ^ 2 := Finset.sum_nonneg (fun i _ => sq_nonneg _)
  rw [hww, objective_expand Y T lam w d, ← hg]
  have h5 : step * (2 * ∑ i, g i * d i + (∑ t, (∑ j, Y t j * d j) ^ 2 + lam * ∑ j, d j ^ 2)) ≤ 0 := by
    nlinarith
  have h6 : 2 * ∑ i, g i * d i + (∑ t, (∑ j, Y t j * d j) ^ 2 + lam * ∑ j, d j ^ 2) ≤ 0 := by
    by_contra hc
    have := mul_pos hs.1 (not_le.1 hc)
    linarith
  linarith

/-- C61. With the interpreted backend, for every iteration budget and tolerance, the weights before
the final clean-up fit the treated pre-period path at least as well (penalised objective) as equal
weights do. -/
theorem C61_numpy_not_worse_than_uniform (Y : Matrix (Fin p) (Fin n) K) (T : Fin p → K)
    (lam step tol : K) (maxIter : ℕ) (hn : 0 < n) (hs : StepOk Y lam step) :
    objective Y T lam (weightsNumpy Y T lam step tol maxIter)
      ≤ objective Y T lam (fun _ => 1 / (n : K)) := by
  have := numpyLoop_inv
    (fun w => IsProbF w ∧ objective Y T lam w ≤ objective Y T lam (uniform n))
    (stepNumpy Y T lam step) tol
    (fun w hw => ⟨proj_isProb _ hn, le_trans (stepNumpy_descent Y T lam step hn hs w hw.1) hw.2⟩)
    maxIter (uniform n) ⟨uniform_isProb hn, le_rfl⟩
  exact this.2

/-- C61. More iterations never hurt: the objective is monotone along the iterates. -/
theorem C61_numpy_iterates_monotone (Y : Matrix (Fin p) (Fin n) K) (T : Fin p → K)
    (lam step : K) (hn : 0 < n) (hs : StepOk Y lam step) (k : ℕ) :
    objective Y T lam ((stepNumpy Y T lam step)^[k + 1] (uniform n))
      ≤ objective Y T lam ((stepNumpy Y T lam step)^[k] (uniform n)) := by
  rw [Function.iterate_succ_apply']
  apply stepNumpy_descent Y T lam step hn hs
  cases k with
  | zero => exact uniform_isProb hn
  | succ k => rw [Function.iterate_succ_apply']; exact proj_isProb _ hn

/-- C61. If the iteration has really converged (a step leaves the weights unchanged), the weights
solve the documented quadratic program: no probability vector has a smaller objective. -/
theorem C61_fixed_point_optimal (Y : Matrix (Fin p) (Fin n) K) (T : Fin p → K)
    (lam step : K) (hn : 0 < n) (hlam : 0 ≤ lam) (hstep : 0 < step) (w : Fin n → K)
    (hfix : stepNumpy Y T lam step w = w) (q : Fin n → K) (hq : IsProbF q) :
    objective Y T lam w ≤ objective Y T lam q := by
  set g := hess Y lam *ᵥ w - linNumpy Y T lam with hg
  have hproj : proj (w - step • g) = w := hfix
  have h1 := proj_inner (w - step • g) q hn hq
  rw [hproj] at h1
  have h2 : ∑ i, ((w - step • g) i - w i) * (q i - w i) = - (step * ∑ i, g i * (q i - w i)) := by
    rw [Finset.mul_sum, ← Finset.sum_neg_distrib]
    apply Finset.sum_congr rfl; intro i _
    simp only [Pi.sub_apply, Pi.smul_apply, smul_eq_mul]; ring
  rw [h2] at h1
  have h3 : 0 ≤ ∑ i, g i * (q i - w i) := by
    by_contra hc
    have := mul_neg_of_pos_of_neg hstep (not_le.1 hc)
    linarith
  have hqq : q = w + (q - w) := by abel
  rw [hqq, objective_expand Y T lam w (q - w), ← hg]
  have h4 : 0 ≤ ∑ t, (∑ j, Y t j * (q - w) j) ^ 2 := Finset.sum_nonneg (fun _ _ => sq_nonneg _)
  have h5 : 0 ≤ lam * ∑ j, ((q - w) j) ^ 2 :=
    mul_nonneg hlam (Finset.sum_nonneg (fun _ _ => sq_nonneg _))
  have h6 : ∑ i, g i * (q - w) i = ∑ i, g i * (q i - w i) := rfl
  rw [h6]; linarith

/-- C61 non-vacuity: one pre-period, two controls with outcomes 0 and 10, treated 4, step 1/100. -/
def exY : Matrix (Fin 1) (Fin 2) ℚ := !![0, 10]
def exT : Fin 1 → ℚ := ![4]

example : StepOk exY 0 (1/100) := by
  refine ⟨by norm_num, ?_⟩
  intro d
  simp [exY, Fin.sum_univ_two]
  nlinarith [sq_nonneg (d 0)]

/-! ### C62: the two backends -/

/-- C62 (partial). If both backends used the same step size, every iterate would be the same: the
`lambda * w_uniform` term that the compiled code leaves out shifts the gradient by a constant, which
the projection ignores. What is missing for the full claim is the step size (next theorem). -/
theorem C62_backends_same_step_partial (Y : Matrix (Fin p) (Fin n) K) (T : Fin p → K) (lam : K)
    (w : Fin n → K) : stepRust Y T lam w = stepNumpy Y T lam (1/10) w := by
  unfold stepRust stepNumpy
  rw [projRust_eq]
  have : w - ((1 : K) / 10) • (hess Y lam *ᵥ w - linNumpy Y T lam)
      = fun i => (w - ((1 : K) / 10) • (hess Y lam *ᵥ w - linRust Y T)) i + (1/10) * (lam * (1 / (n : K))) := by
    funext i
    simp only [linNumpy, linRust, uniform, Pi.sub_apply, Pi.add_apply, Pi.smul_apply, smul_eq_mul]
    ring
  simp only [this]
  rw [proj_shift]

theorem exStep1 : stepRust exY exT 0 (uniform 2) = ![1, 0] := by
  funext i; fin_cases i <;> decide +kernel

theorem exStep2 : stepRust exY exT 0 ![1, 0] = ![0, 1] := by
  funext i; fin_cases i <;> decide +kernel

theorem exStep3 : stepRust exY exT 0 ![0, 1] = ![1, 0] := by
  funext i; fin_cases i <;> decide +kernel

theorem exRustCycle (tol : ℚ) (k : ℕ) :
    weightsRust exY exT 0 tol (k + 1) = ![1, 0] ∨ weightsRust exY exT 0 tol (k + 1) = ![0, 1] := by
  unfold weightsRust
  rw [rustLoop]
  have main : ∀ k w, (w = ![1, 0] ∨ w = ![0, 1]) → ∀ prev,
      rustLoop (stepRust exY exT 0) tol k w prev = ![1, 0] ∨
      rustLoop (stepRust exY exT 0) tol k w prev = ![0, 1] := by
    intro k
    induction k with
    | zero => intro w hw prev; exact hw
    | succ k ih =>
      intro w hw prev
      have hw' : stepRust exY exT 0 w = ![1, 0] ∨ stepRust exY exT 0 w = ![0, 1] := by
        rcases hw with rfl | rfl
        · right; exact exStep2
        · left; exact exStep3
      rw [rustLoop]
      split_ifs
      · exact hw'
      · exact ih _ hw' _
  split_ifs
  · left; exact exStep1
  · exact main k _ (Or.inl exStep1) _

/-- C62/C61 refuted for the compiled backend: with its fixed step size 0.1 there is an input (one
pre-period, controls 0 and 10, treated 4, no penalty) for which *every* positive iteration budget
and tolerance gives weights whose fit is at least 16 times worse than equal weights, which have
objective 1. -/
theorem C62_rust_worse_than_uniform_refuted :
    ¬ ∀ (p n : ℕ) (Y : Matrix (Fin p) (Fin n) ℚ) (T : Fin p → ℚ) (lam tol : ℚ) (k : ℕ), 0 < n →
      0 ≤ lam → objective Y T lam (weightsRust Y T lam tol (k + 1))
        ≤ objective Y T lam (fun _ => 1 / (n : ℚ)) := by
  intro h
  have h1 := h 1 2 exY exT 0 (1/100000000) 999 (by norm_num) le_rfl
  rcases exRustCycle (1/100000000) 999 with e | e <;> rw [e] at h1 <;>
    simp [objective, exY, exT, Fin.sum_univ_two] at h1 <;> norm_num at h1

/-- The same input, for every budget and tolerance. -/
theorem C62_rust_worse_every_budget (tol : ℚ) (k : ℕ) :
    16 * objective exY exT 0 (fun _ => 1 / ((2 : ℕ) : ℚ))
      ≤ objective exY exT 0 (weightsRust exY exT 0 tol (k + 1)) := by
  rcases exRustCycle tol k with e | e <;> rw [e] <;>
    simp [objective, exY, exT, Fin.sum_univ_two] <;> norm_num

/-- C62 refuted: the two backends do not return the same weights. The interpreted backend (with any
valid step size) is at least as good as equal weights on this input, the compiled one is not. -/
theorem C62_backends_differ_refuted (step tol : ℚ) (k : ℕ) (hs : StepOk exY 0 step) :
    weightsNumpy exY exT 0 step tol (k + 1) ≠ weightsRust exY exT 0 tol (k + 1) := by
  intro h
  have h1 := C61_numpy_not_worse_than_uniform exY exT 0 step tol (k + 1) (by norm_num) hs
  have h2 := C62_rust_worse_every_budget tol k
  rw [h] at h1
  have h3 : objective exY exT 0 (fun _ => 1 / ((2 : ℕ) : ℚ)) = 1 := by
    simp [objective, exY, exT, Fin.sum_univ_two]; norm_num
  rw [h3] at h1 h2
  linarith

/-! ### C05: time weights -/

section time

theorem std_nonneg {m : ℕ} (x : Fin m → ℝ) : 0 ≤ std x := Real.sqrt_nonneg _

theorem denom_pos {eps : ℝ} (he : 0 < eps) (Y : Matrix (Fin p) (Fin n) ℝ) (T : Fin p → ℝ)
    {zeta : ℝ} (hz : 0 ≤ zeta) (t : Fin p) :
    0 < gaps Y T t + zeta * std (gaps Y T) + eps := by
  have h1 : 0 ≤ gaps Y T t := abs_nonneg _
  have h2 := mul_nonneg hz (std_nonneg (gaps Y T))
  linarith

/-- C05. For every input with at least one pre-period and `zeta >= 0`, all time weights are
strictly positive and they sum to one. -/
theorem C05_time_weights_isProb {eps : ℝ} (he : 0 < eps) (Y : Matrix (Fin p) (Fin n) ℝ)
    (T : Fin p → ℝ) {zeta : ℝ} (hz : 0 ≤ zeta) (hp : 0 < p) :
    (∀ t, 0 < computeTimeWeights eps Y T zeta t) ∧ ∑ t, computeTimeWeights eps Y T zeta t = 1 := by
  unfold computeTimeWeights
  split_ifs with h
  · have : p = 1 := by omega
    subst this; simp
  · have hpos : ∀ t, 0 < 1 / (gaps Y T t + zeta * std (gaps Y T) + eps) :=
      fun t => one_div_pos.2 (denom_pos he Y T hz t)
    have hne : (Finset.univ : Finset (Fin p)).Nonempty := ⟨⟨0, hp⟩, Finset.mem_univ _⟩
    have hsum := Finset.sum_pos (fun t (_ : t ∈ Finset.univ) => hpos t) hne
    refine ⟨fun t => div_pos (hpos t) hsum, ?_⟩
    rw [← Finset.sum_div, div_self hsum.ne']

/-- C05. A pre-period in which the treated mean is closer to the control mean never gets a smaller
weight. -/
theorem C05_time_weights_order {eps : ℝ} (he : 0 < eps) (Y : Matrix (Fin p) (Fin n) ℝ)
    (T : Fin p → ℝ) {zeta : ℝ} (hz : 0 ≤ zeta) (s t : Fin p)
    (hst : |T s - (∑ j, Y s j) / n| ≤ |T t - (∑ j, Y t j) / n|) :
    computeTimeWeights eps Y T zeta t ≤ computeTimeWeights eps Y T zeta s := by
  unfold computeTimeWeights
  split_ifs with h
  · exact le_rfl
  · have hpos : ∀ t, 0 < 1 / (gaps Y T t + zeta * std (gaps Y T) + eps) :=
      fun t => one_div_pos.2 (denom_pos he Y T hz t)
    have hsum : 0 ≤ ∑ r, 1 / (gaps Y T r + zeta * std (gaps Y T) + eps) :=
      Finset.sum_nonneg (fun r _ => (hpos r).le)
    have hg : gaps Y T s ≤ gaps Y T t := hst
    exact div_le_div_of_nonneg_right (one_div_le_one_div_of_le (denom_pos he Y T hz s) (by linarith)) hsum

/-- C05. Larger `zeta` makes the weights more equal: for any two periods the ratio of the larger to
the smaller weight does not grow with `zeta` (cross-multiplied form). -/
theorem C05_time_weights_more_uniform {eps : ℝ} (he : 0 < eps) (Y : Matrix (Fin p) (Fin n) ℝ)
    (T : Fin p → ℝ) {z z' : ℝ} (hz : 0 ≤ z) (hzz : z ≤ z') (s t : Fin p)
    (hst : computeTimeWeights eps Y T z t ≤ computeTimeWeights eps Y T z s) :
    computeTimeWeights eps Y T z' s * computeTimeWeights eps Y T z t
      ≤ computeTimeWeights eps Y T z s * computeTimeWeights eps Y T z' t := by
  have hz' : 0 ≤ z' := le_trans hz hzz
  by_cases h : p ≤ 1
  · simp [computeTimeWeights, h]
  · simp only [computeTimeWeights, if_neg h] at hst ⊢
    have hA := denom_pos he Y T hz s
    have hB := denom_pos he Y T hz t
    have hA' := denom_pos he Y T hz' s
    have hB' := denom_pos he Y T hz' t
    have hne : (Finset.univ : Finset (Fin p)).Nonempty := ⟨s, Finset.mem_univ _⟩
    have hS := Finset.sum_pos (fun r (_ : r ∈ Finset.univ) => one_div_pos.2 (denom_pos he Y T hz r)) hne
    have hS' := Finset.sum_pos (fun r (_ : r ∈ Finset.univ) => one_div_pos.2 (denom_pos he Y T hz' r)) hne
    have hsd := std_nonneg (gaps Y T)
    set S := ∑ r, 1 / (gaps Y T r + z * std (gaps Y T) + eps)
    set S' := ∑ r, 1 / (gaps Y T r + z' * std (gaps Y T) + eps)
    have hg : gaps Y T s ≤ gaps Y T t := by
      have := (div_le_div_iff_of_pos_right hS).1 hst
      have := (one_div_le_one_div hB hA).1 this
      linarith
    have e1 : ∀ a b c d : ℝ, 1 / a / b * (1 / c / d) = 1 / (a * c) / (b * d) := by
      intro a b c d; rw [div_mul_div_comm, one_div_mul_one_div]
    rw [e1, e1, mul_comm S S']
    apply div_le_div_of_nonneg_right _ (mul_pos hS' hS).le
    apply one_div_le_one_div_of_le (mul_pos hA hB')
    · have : 0 ≤ (z' - z) * std (gaps Y T) * (gaps Y T t - gaps Y T s) :=
        mul_nonneg (mul_nonneg (by linarith) hsd) (by linarith)
      nlinarith

/-- C05, hypothesis is needed: `zeta` is not validated (utils.py 1153, synthetic_did.py), and a
negative value can give negative weights. -/
theorem C05_negative_zeta_refuted :
    ¬ ∀ (Y : Matrix (Fin 2) (Fin 1) ℝ) (T : Fin 2 → ℝ) (zeta : ℝ) (t : Fin 2),
      0 ≤ computeTimeWeights (1/100) Y T zeta t := by
  intro h
  have hgap : gaps (p := 2) (n := 1) (fun _ _ => 0) ![0, 4] = ![0, 4] := by
    funext t; fin_cases t <;> simp [gaps, mean]
  have hstd : std (![0, 4] : Fin 2 → ℝ) = 2 := by
    have : mean (fun i => ((![0, 4] : Fin 2 → ℝ) i - mean ![0, 4]) ^ 2) = 2 ^ 2 := by
      simp [mean, Fin.sum_univ_two]; norm_num
    rw [std, this, Real.sqrt_sq (by norm_num)]
  have h1 := h (fun _ _ => 0) ![0, 4] (-1) 1
  simp only [computeTimeWeights, hgap, hstd, Fin.sum_univ_two] at h1
  norm_num at h1

example : (∀ t, 0 < computeTimeWeights (p := 2) (n := 1) (1/100) (fun _ _ => 0) ![0, 4] 1 t) :=
  (C05_time_weights_isProb (by norm_num) _ _ zero_le_one (by norm_num)).1

end time

end DiffDiff.SynthWeights
