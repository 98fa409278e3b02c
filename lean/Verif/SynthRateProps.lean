/-
Property C160: how close the synthetic-control weights of the NumPy backend come to the best weights, and when the iteration limit stops mattering.
-/
import Verif.SynthWeightsProps
import Mathlib.Algebra.Order.BigOperators.Ring.Finset
import Mathlib.Tactic.FieldSimp

set_option linter.unusedSectionVars false
set_option linter.unusedVariables false

namespace DiffDiff.SynthWeights
open Matrix

variable {K : Type*} [Field K] [LinearOrder K] [IsStrictOrderedRing K] {p n : ℕ}

/-- The curvature of the objective along `d`. -/
def curv (Y : Matrix (Fin p) (Fin n) K) (lam : K) (d : Fin n → K) : K := ∑ t, (∑ j, Y t j * d j) ^ 2 + lam * ∑ j, d j ^ 2

theorem curv_nonneg (Y : Matrix (Fin p) (Fin n) K) (lam : K) (hl : 0 ≤ lam) (d : Fin n → K) : 0 ≤ curv Y lam d :=
  add_nonneg (Finset.sum_nonneg fun _ _ => sq_nonneg _) (mul_nonneg hl (Finset.sum_nonneg fun _ _ => sq_nonneg _))

theorem objective_nonneg (Y : Matrix (Fin p) (Fin n) K) (T : Fin p → K) (lam : K) (hl : 0 ≤ lam) (w : Fin n → K) : 0 ≤ objective Y T lam w :=
  add_nonneg (Finset.sum_nonneg fun _ _ => sq_nonneg _) (mul_nonneg hl (Finset.sum_nonneg fun _ _ => sq_nonneg _))

/-- One step against any competing weights. -/
theorem step_key (Y : Matrix (Fin p) (Fin n) K) (T : Fin p → K) (lam step : K) (hl : 0 ≤ lam) (hn : 0 < n) (hs : StepOk Y lam step) (w q : Fin n → K)
    (hq : IsProbF q) :
    step * (objective Y T lam (stepNumpy Y T lam step w) - objective Y T lam q)
      ≤ ∑ i, (w i - q i) ^ 2 - ∑ i, (stepNumpy Y T lam step w i - q i) ^ 2 := by
  set g := hess Y lam *ᵥ w - linNumpy Y T lam with hg
  set w' := stepNumpy Y T lam step w with hw'
  have hproj : w' = proj (w - step • g) := rfl
  have h1 := proj_inner (w - step • g) q hn hq
  rw [← hproj] at h1
  have e1 : objective Y T lam w' = objective Y T lam w + 2 * ∑ i, g i * (w' - w) i + curv Y lam (w' - w) := by
    have := objective_expand Y T lam w (w' - w)
    rw [add_sub_cancel] at this
    exact this
  have e2 : objective Y T lam q = objective Y T lam w + 2 * ∑ i, g i * (q - w) i + curv Y lam (q - w) := by
    have := objective_expand Y T lam w (q - w)
    rw [add_sub_cancel] at this
    exact this
  have h2 : step * curv Y lam (w' - w) ≤ ∑ i, (w' - w) i ^ 2 := hs.2 (w' - w)
  have h3 := mul_nonneg hs.1.le (curv_nonneg Y lam hl (q - w))
  have e3 : ∑ i, ((w - step • g) i - w' i) * (q i - w' i)
      = ∑ i, (w i - w' i) * (q i - w' i) + step * (∑ i, g i * (w' - w) i - ∑ i, g i * (q - w) i) := by
    rw [← Finset.sum_sub_distrib, Finset.mul_sum, ← Finset.sum_add_distrib]
    exact Finset.sum_congr rfl fun i _ => by simp only [Pi.sub_apply, Pi.smul_apply, smul_eq_mul]; ring
  have e4 : ∑ i, (w i - q i) ^ 2 - ∑ i, (w' i - q i) ^ 2 = ∑ i, (w' - w) i ^ 2 - 2 * ∑ i, (w i - w' i) * (q i - w' i) := by
    rw [Finset.mul_sum, ← Finset.sum_sub_distrib, ← Finset.sum_sub_distrib]
    exact Finset.sum_congr rfl fun i _ => by simp only [Pi.sub_apply]; ring
  rw [e4]
  rw [e3] at h1
  have e5 : step * (objective Y T lam w' - objective Y T lam q)
      = 2 * (step * (∑ i, g i * (w' - w) i - ∑ i, g i * (q - w) i)) + step * curv Y lam (w' - w) - step * curv Y lam (q - w) := by
    rw [e1, e2]; ring
  rw [e5]
  linarith

/-- One step lowers the objective by the squared change over the step size. -/
theorem step_progress (Y : Matrix (Fin p) (Fin n) K) (T : Fin p → K) (lam step : K) (hl : 0 ≤ lam) (hn : 0 < n) (hs : StepOk Y lam step) (w : Fin n → K)
    (hw : IsProbF w) :
    step * objective Y T lam (stepNumpy Y T lam step w) + ∑ i, (stepNumpy Y T lam step w i - w i) ^ 2 ≤ step * objective Y T lam w := by
  have h := step_key Y T lam step hl hn hs w w hw
  have z : ∑ i, (w i - w i) ^ 2 = 0 := Finset.sum_eq_zero fun i _ => by ring
  rw [z] at h
  linarith

/-- Two probability vectors and a third: the squared distance of their sum from twice the third is at most 8. -/
theorem spread (w w' q : Fin n → K) (h : IsProbF w) (h' : IsProbF w') (hq : IsProbF q) : ∑ i, (w i + w' i - 2 * q i) ^ 2 ≤ 8 := by
  have hle : ∀ (v : Fin n → K), IsProbF v → ∀ i, v i ≤ 1 := fun v hv i => by
    rw [← hv.2]
    exact Finset.single_le_sum (f := v) (fun j _ => hv.1 j) (Finset.mem_univ i)
  have : ∀ i, (w i + w' i - 2 * q i) ^ 2 ≤ 2 * (w i + w' i + 2 * q i) := by
    intro i
    have a1 := h.1 i; have a2 := h'.1 i; have a3 := hq.1 i
    have b1 := hle w h i; have b2 := hle w' h' i; have b3 := hle q hq i
    have c1 : |w i + w' i - 2 * q i| ≤ 2 := by rw [abs_le]; constructor <;> linarith
    have c2 : |w i + w' i - 2 * q i| ≤ w i + w' i + 2 * q i := by rw [abs_le]; constructor <;> linarith
    rw [← sq_abs, pow_two]
    exact mul_le_mul c1 c2 (abs_nonneg _) (by norm_num)
  calc ∑ i, (w i + w' i - 2 * q i) ^ 2 ≤ ∑ i, 2 * (w i + w' i + 2 * q i) := Finset.sum_le_sum fun i _ => this i
    _ = 2 * (∑ i, w i + ∑ i, w' i + 2 * ∑ i, q i) := by
      rw [← Finset.mul_sum, Finset.sum_add_distrib, Finset.sum_add_distrib, ← Finset.mul_sum]
    _ = 8 := by rw [h.2, h'.2, hq.2]; norm_num

/-- When the convergence test passes, the weights are within `3 tol / step` of the best. -/
theorem stop_gap (Y : Matrix (Fin p) (Fin n) K) (T : Fin p → K) (lam step tol : K) (hl : 0 ≤ lam) (hn : 0 < n) (ht : 0 ≤ tol) (hs : StepOk Y lam step)
    (w q : Fin n → K) (hw : IsProbF w) (hq : IsProbF q) (hstop : ∑ i, (stepNumpy Y T lam step w i - w i) ^ 2 < tol ^ 2) :
    step * (objective Y T lam (stepNumpy Y T lam step w) - objective Y T lam q) ≤ 3 * tol := by
  have h := step_key Y T lam step hl hn hs w q hq
  have hw' : IsProbF (stepNumpy Y T lam step w) := proj_isProb _ hn
  generalize stepNumpy Y T lam step w = w' at h hw' hstop ⊢
  refine h.trans ?_
  have e : ∑ i, (w i - q i) ^ 2 - ∑ i, (w' i - q i) ^ 2 = ∑ i, (w i - w' i) * (w i + w' i - 2 * q i) := by
    rw [← Finset.sum_sub_distrib]
    exact Finset.sum_congr rfl fun i _ => by ring
  rw [e]
  have cs := Finset.sum_mul_sq_le_sq_mul_sq Finset.univ (fun i => w i - w' i) (fun i => w i + w' i - 2 * q i)
  have e2 : ∑ i, (w i - w' i) ^ 2 = ∑ i, (w' i - w i) ^ 2 := Finset.sum_congr rfl fun i _ => by ring
  rw [e2] at cs
  have h8 := spread w w' q hw hw' hq
  have h0 : 0 ≤ ∑ i, (w i + w' i - 2 * q i) ^ 2 := Finset.sum_nonneg fun i _ => sq_nonneg _
  have h9 : (∑ i, (w i - w' i) * (w i + w' i - 2 * q i)) ^ 2 ≤ (3 * tol) ^ 2 := by
    have := mul_le_mul hstop.le h8 h0 (sq_nonneg tol)
    nlinarith [sq_nonneg tol]
  exact (abs_le_of_sq_le_sq' h9 (by linarith)).2

/-- The loop from `w`: either the test has passed, or all `k` iterations have been used. -/
theorem loop_gap (Y : Matrix (Fin p) (Fin n) K) (T : Fin p → K) (lam step tol : K) (hl : 0 ≤ lam) (hn : 0 < n) (ht : 0 ≤ tol) (hs : StepOk Y lam step)
    (q : Fin n → K) (hq : IsProbF q) (k : ℕ) (w : Fin n → K) (hw : IsProbF w) :
    step * (objective Y T lam (numpyLoop (stepNumpy Y T lam step) tol k w) - objective Y T lam q) ≤ 3 * tol ∨
    ((k : K) * (step * (objective Y T lam (numpyLoop (stepNumpy Y T lam step) tol k w) - objective Y T lam q)) ≤ ∑ i, (w i - q i) ^ 2 ∧
      objective Y T lam (numpyLoop (stepNumpy Y T lam step) tol k w) ≤ objective Y T lam w) := by
  induction k generalizing w with
  | zero =>
    right
    refine ⟨?_, le_refl _⟩
    rw [Nat.cast_zero, zero_mul]
    exact Finset.sum_nonneg fun i _ => sq_nonneg _
  | succ k ih =>
    have hw' : IsProbF (stepNumpy Y T lam step w) := proj_isProb _ hn
    have hd := stepNumpy_descent Y T lam step hn hs w hw
    have hk := step_key Y T lam step hl hn hs w q hq
    simp only [numpyLoop]
    split_ifs with hc
    · exact Or.inl (stop_gap Y T lam step tol hl hn ht hs w q hw hq hc)
    · rcases ih (stepNumpy Y T lam step w) hw' with h | ⟨h1, h2⟩
      · exact Or.inl h
      · right
        refine ⟨?_, h2.trans hd⟩
        generalize numpyLoop (stepNumpy Y T lam step) tol k (stepNumpy Y T lam step w) = v at h1 h2 ⊢
        have h3 : step * (objective Y T lam v - objective Y T lam q) ≤ step * (objective Y T lam (stepNumpy Y T lam step w) - objective Y T lam q) :=
          mul_le_mul_of_nonneg_left (by linarith) hs.1.le
        push_cast
        linarith

theorem uniform_dist (q : Fin n → K) (hn : 0 < n) (hq : IsProbF q) : ∑ i, ((uniform n : Fin n → K) i - q i) ^ 2 ≤ 1 := by
  have hle : ∀ i, q i ≤ 1 := fun i => by
    rw [← hq.2]
    exact Finset.single_le_sum (f := q) (fun j _ => hq.1 j) (Finset.mem_univ i)
  have hu : ∑ i, (uniform n : Fin n → K) i = 1 := (uniform_isProb hn).2
  have hN : (0 : K) < n := Nat.cast_pos.2 hn
  have e : ∑ i, ((uniform n : Fin n → K) i - q i) ^ 2 = ∑ i, q i ^ 2 - 1 / n := by
    have : ∀ i, ((uniform n : Fin n → K) i - q i) ^ 2 = q i ^ 2 + 1 / n * uniform n i - 2 * (1 / n) * q i := fun i => by
      unfold uniform; ring
    simp only [this]
    rw [Finset.sum_sub_distrib, Finset.sum_add_distrib, ← Finset.mul_sum, ← Finset.mul_sum, hu, hq.2]
    ring
  rw [e]
  have h1 : ∑ i, q i ^ 2 ≤ ∑ i, q i := Finset.sum_le_sum fun i _ => by
    have := hq.1 i
    have := hle i
    nlinarith
  rw [hq.2] at h1
  have : (0 : K) ≤ 1 / n := by positivity
  linarith

/-- C160. Accuracy: with the step size of the NumPy backend the penalised pre-period fit of the returned weights (before small ones are dropped) is within
`1 / (step * max_iter)` of the best probability weights, or, if the loop stopped by its test, within `3 tol / step`. -/
theorem C160_accuracy (Y : Matrix (Fin p) (Fin n) K) (T : Fin p → K) (lam step tol : K) (maxIter : ℕ) (hl : 0 ≤ lam) (hn : 0 < n) (ht : 0 ≤ tol)
    (hm : 0 < maxIter) (hs : StepOk Y lam step) (q : Fin n → K) (hq : IsProbF q) :
    objective Y T lam (weightsNumpy Y T lam step tol maxIter) ≤ objective Y T lam q + max (1 / (step * maxIter)) (3 * tol / step) := by
  have hM : (0 : K) < maxIter := Nat.cast_pos.2 hm
  rcases loop_gap Y T lam step tol hl hn ht hs q hq maxIter (uniform n) (uniform_isProb hn) with h | ⟨h, -⟩
  · have : objective Y T lam (weightsNumpy Y T lam step tol maxIter) - objective Y T lam q ≤ 3 * tol / step := by
      rw [le_div_iff₀ hs.1, mul_comm]
      exact h
    have := le_max_right (1 / (step * maxIter)) (3 * tol / step)
    linarith
  · have h1 := h.trans (uniform_dist q hn hq)
    have : objective Y T lam (weightsNumpy Y T lam step tol maxIter) - objective Y T lam q ≤ 1 / (step * maxIter) := by
      rw [le_div_iff₀ (mul_pos hs.1 hM)]
      refine le_trans (le_of_eq ?_) h1
      unfold weightsNumpy
      ring
    have := le_max_left (1 / (step * maxIter)) (3 * tol / step)
    linarith

/-- Best probability weights. -/
def Best (Y : Matrix (Fin p) (Fin n) K) (T : Fin p → K) (lam : K) (q : Fin n → K) : Prop := IsProbF q ∧ ∀ v, IsProbF v → objective Y T lam q ≤ objective Y T lam v

/-- Growth of the objective away from the best weights. -/
theorem growth (Y : Matrix (Fin p) (Fin n) K) (T : Fin p → K) (lam : K) (hl : 0 ≤ lam) (q w : Fin n → K) (hq : Best Y T lam q) (hw : IsProbF w) :
    lam * ∑ i, (w i - q i) ^ 2 ≤ objective Y T lam w - objective Y T lam q := by
  set g := hess Y lam *ᵥ q - linNumpy Y T lam with hg
  set a := ∑ i, g i * (w - q) i with ha
  have hc0 := curv_nonneg Y lam hl (w - q)
  have hline : ∀ c : K, 0 ≤ c → c ≤ 1 → 0 ≤ 2 * (c * a) + c ^ 2 * curv Y lam (w - q) := by
    intro c h0 h1
    have hv : IsProbF (q + c • (w - q)) := by
      constructor
      · intro i
        have b1 := mul_nonneg (sub_nonneg.2 h1) (hq.1.1 i)
        have b2 := mul_nonneg h0 (hw.1 i)
        simp only [Pi.add_apply, Pi.smul_apply, Pi.sub_apply, smul_eq_mul]
        linarith
      · simp only [Pi.add_apply, Pi.smul_apply, Pi.sub_apply, smul_eq_mul]
        rw [Finset.sum_add_distrib, ← Finset.mul_sum, Finset.sum_sub_distrib, hq.1.2, hw.2]
        ring
    have h := hq.2 _ hv
    rw [objective_expand, ← hg] at h
    have e1 : ∑ i, g i * (c • (w - q)) i = c * a := by
      rw [ha, Finset.mul_sum]
      exact Finset.sum_congr rfl fun i _ => by simp only [Pi.smul_apply, smul_eq_mul]; ring
    have e2 : ∑ t, (∑ j, Y t j * (c • (w - q)) j) ^ 2 + lam * ∑ j, (c • (w - q)) j ^ 2 = c ^ 2 * curv Y lam (w - q) := by
      unfold curv
      have e3 : ∀ t, ∑ j, Y t j * (c • (w - q)) j = c * ∑ j, Y t j * (w - q) j := fun t => by
        rw [Finset.mul_sum]
        exact Finset.sum_congr rfl fun j _ => by simp only [Pi.smul_apply, smul_eq_mul]; ring
      have e4 : ∑ j, (c • (w - q)) j ^ 2 = c ^ 2 * ∑ j, (w - q) j ^ 2 := by
        rw [Finset.mul_sum]
        exact Finset.sum_congr rfl fun j _ => by simp only [Pi.smul_apply, smul_eq_mul]; ring
      simp only [e3, e4, mul_pow]
      rw [← Finset.mul_sum]
      ring
    rw [e1, e2] at h
    linarith
  have ha0 : 0 ≤ a := by
    by_contra hc
    push Not at hc
    set C := curv Y lam (w - q) with hC
    have hp : 0 < C - a + 1 := by linarith
    have h := hline (-a / (C - a + 1)) (div_nonneg (by linarith) hp.le) (by rw [div_le_one hp]; linarith)
    have e : 2 * (-a / (C - a + 1) * a) + (-a / (C - a + 1)) ^ 2 * C = -(a ^ 2 * (C - 2 * a + 2)) / (C - a + 1) ^ 2 := by
      field_simp
      ring
    rw [e] at h
    have h1 : 0 < a ^ 2 * (C - 2 * a + 2) := mul_pos (by nlinarith) (by linarith)
    have : -(a ^ 2 * (C - 2 * a + 2)) / (C - a + 1) ^ 2 < 0 := div_neg_of_neg_of_pos (by linarith) (by positivity)
    linarith
  have e : objective Y T lam w = objective Y T lam q + 2 * a + curv Y lam (w - q) := by
    have := objective_expand Y T lam q (w - q)
    rw [add_sub_cancel] at this
    exact this
  have hcl : lam * ∑ i, (w i - q i) ^ 2 ≤ curv Y lam (w - q) := by
    unfold curv
    have : 0 ≤ ∑ t, (∑ j, Y t j * (w - q) j) ^ 2 := Finset.sum_nonneg fun _ _ => sq_nonneg _
    simp only [Pi.sub_apply] at this ⊢
    linarith
  linarith

/-- C160. With a positive penalty the best weights are unique, and the returned weights are close to them. -/
theorem C160_weights (Y : Matrix (Fin p) (Fin n) K) (T : Fin p → K) (lam step tol : K) (maxIter : ℕ) (hl : 0 < lam) (hn : 0 < n) (ht : 0 ≤ tol)
    (hm : 0 < maxIter) (hs : StepOk Y lam step) (q : Fin n → K) (hq : Best Y T lam q) :
    (∀ q', Best Y T lam q' → q' = q) ∧
    ∑ i, (weightsNumpy Y T lam step tol maxIter i - q i) ^ 2 ≤ max (1 / (step * maxIter)) (3 * tol / step) / lam := by
  constructor
  · intro q' hq'
    have h := growth Y T lam hl.le q q' hq hq'.1
    have h1 := hq'.2 q hq.1
    have h2 : ∑ i, (q' i - q i) ^ 2 ≤ 0 := by
      by_contra hc
      have := mul_pos hl (not_le.1 hc)
      linarith
    have h3 := (Finset.sum_eq_zero_iff_of_nonneg (fun i _ => sq_nonneg (q' i - q i))).1 (le_antisymm h2 (Finset.sum_nonneg fun i _ => sq_nonneg _))
    funext i
    exact sub_eq_zero.1 (pow_eq_zero_iff two_ne_zero |>.1 (h3 i (Finset.mem_univ i)))
  · have hw : IsProbF (weightsNumpy Y T lam step tol maxIter) :=
      numpyLoop_inv IsProbF _ tol (fun w _ => proj_isProb _ hn) maxIter _ (uniform_isProb hn)
    have h := growth Y T lam hl.le q _ hq hw
    have h1 := C160_accuracy Y T lam step tol maxIter hl.le hn ht hm hs q hq.1
    rw [le_div_iff₀ hl]
    linarith

theorem loop_limit (Y : Matrix (Fin p) (Fin n) K) (T : Fin p → K) (lam step tol : K) (hl : 0 ≤ lam) (hn : 0 < n) (hs : StepOk Y lam step)
    (m k : ℕ) (w : Fin n → K) (hw : IsProbF w) (h : step * objective Y T lam w < k * tol ^ 2) :
    numpyLoop (stepNumpy Y T lam step) tol (k + m) w = numpyLoop (stepNumpy Y T lam step) tol k w := by
  induction k generalizing w with
  | zero =>
    rw [Nat.cast_zero, zero_mul] at h
    exact absurd h (not_lt.2 (mul_nonneg hs.1.le (objective_nonneg Y T lam hl w)))
  | succ k ih =>
    have hp := step_progress Y T lam step hl hn hs w hw
    rw [Nat.succ_add]
    simp only [numpyLoop]
    split_ifs with hc
    · rfl
    · refine ih _ (proj_isProb _ hn) ?_
      push_cast at h
      have := not_lt.1 hc
      linarith

/-- C160. The iteration limit stops mattering: once it exceeds `step * (fit of equal weights) / tol²`, a larger limit gives the same weights, so the loop
has ended by its convergence test. -/
theorem C160_settles (Y : Matrix (Fin p) (Fin n) K) (T : Fin p → K) (lam step tol : K) (maxIter : ℕ) (hl : 0 ≤ lam) (hn : 0 < n) (hs : StepOk Y lam step)
    (h : step * objective Y T lam (fun _ => 1 / (n : K)) < maxIter * tol ^ 2) (m : ℕ) (minWeight : K) :
    computeSyntheticWeights .numpy Y T lam minWeight step tol (maxIter + m) = computeSyntheticWeights .numpy Y T lam minWeight step tol maxIter := by
  have e : weightsNumpy Y T lam step tol (maxIter + m) = weightsNumpy Y T lam step tol maxIter :=
    loop_limit Y T lam step tol hl hn hs m maxIter (uniform n) (uniform_isProb hn) h
  unfold computeSyntheticWeights
  simp only [e]

theorem exStep : StepOk exY 0 (1 / 100) :=
  ⟨by norm_num, fun d => by simp [exY, Fin.sum_univ_two]; nlinarith [sq_nonneg (d 0)]⟩

/-- The bounds apply: one pre-period, two controls, step 1/100, ten iterations. -/
example : objective exY exT 0 (weightsNumpy exY exT 0 (1 / 100) (1 / 1000) 10)
    ≤ objective exY exT 0 ![3 / 5, 2 / 5] + max (1 / (1 / 100 * ((10 : ℕ) : ℚ))) (3 * (1 / 1000) / (1 / 100)) := by
  have hq : IsProbF (![3 / 5, 2 / 5] : Fin 2 → ℚ) := ⟨fun i => by fin_cases i <;> norm_num, by norm_num [Fin.sum_univ_two]⟩
  have h := C160_accuracy exY exT 0 (1 / 100) (1 / 1000) 10 (by norm_num) (by norm_num) (by norm_num) (by norm_num) exStep _ hq
  exact h

/-- With penalty 1 the best weights are 61/102 and 41/102, and the step 1/101 is allowed. -/
theorem exBest : Best exY exT 1 (![61 / 102, 41 / 102] : Fin 2 → ℚ) := by
  refine ⟨⟨fun i => by fin_cases i <;> norm_num, by norm_num [Fin.sum_univ_two]⟩, fun v hv => ?_⟩
  have h := hv.2
  rw [Fin.sum_univ_two] at h
  have h0 : v 0 = 1 - v 1 := by linarith
  simp only [objective, exY, exT, Fin.sum_univ_two, Fin.sum_univ_one]
  simp [h0]
  nlinarith [sq_nonneg (v 1 - 41 / 102)]

theorem exStep' : StepOk exY 1 (1 / 101) := by
  refine ⟨by norm_num, fun d => ?_⟩
  simp [exY, Fin.sum_univ_two]
  nlinarith [sq_nonneg (d 0)]

/-- The distance bound applies to it. -/
example : ∑ i, (weightsNumpy exY exT 1 (1 / 101) (1 / 1000) 1000 i - (![61 / 102, 41 / 102] : Fin 2 → ℚ) i) ^ 2
    ≤ max (1 / (1 / 101 * ((1000 : ℕ) : ℚ))) (3 * (1 / 1000) / (1 / 101)) / 1 := by
  have h := (C160_weights exY exT 1 (1 / 101) (1 / 1000) 1000 (by norm_num) (by norm_num) (by norm_num) (by norm_num) exStep' _ exBest).2
  exact h

/-- The limit bound applies: fit of equal weights 1, step 1/100, tolerance 1/100, more than 100 iterations. -/
example (m : ℕ) : computeSyntheticWeights .numpy exY exT 0 (1 / 1000) (1 / 100) (1 / 100) (101 + m)
    = computeSyntheticWeights .numpy exY exT 0 (1 / 1000) (1 / 100) (1 / 100) 101 := by
  have h1 : objective exY exT 0 (fun _ => 1 / ((2 : ℕ) : ℚ)) = 1 := by
    simp [objective, exY, exT, Fin.sum_univ_two]; norm_num
  exact C160_settles exY exT 0 (1 / 100) (1 / 100) 101 (by norm_num) (by norm_num) exStep (by rw [h1]; norm_num) m (1 / 1000)

end DiffDiff.SynthWeights
