/-
Properties C06 and C63: synthetic difference-in-differences.
-/
import Verif.Sdid
import Verif.SynthWeightsProps

set_option linter.unusedSectionVars false

namespace DiffDiff.Sdid

open DiffDiff.SynthWeights

variable {K : Type*} [Field K] [LinearOrder K] [IsStrictOrderedRing K]

theorem avg_add {m : ℕ} (x y : Fin m → K) : avg (fun i => x i + y i) = avg x + avg y := by
  simp only [avg, Finset.sum_add_distrib, add_div]

theorem avg_const {m : ℕ} (hm : 0 < m) (c : K) : avg (fun _ : Fin m => c) = c := by
  have : (m : K) ≠ 0 := by exact_mod_cast hm.ne'
  simp [avg, this]

theorem sum_weight_const {m : ℕ} (w : Fin m → K) (hw : ∑ i, w i = 1) (c : K) :
    ∑ i, w i * c = c := by rw [← Finset.sum_mul, hw, one_mul]

/-- Linearity of the estimator in all outcomes jointly (weights fixed). -/
theorem sdid_add {p q n : ℕ} (Ypc Ypc' : Fin p → Fin n → K) (Yqc Yqc' : Fin q → Fin n → K)
    (Ypt Ypt' : Fin p → K) (Yqt Yqt' : Fin q → K) (omega : Fin n → K) (lam : Fin p → K) :
    sdid (fun t j => Ypc t j + Ypc' t j) (fun s j => Yqc s j + Yqc' s j)
      (fun t => Ypt t + Ypt' t) (fun s => Yqt s + Yqt' s) omega lam
    = sdid Ypc Yqc Ypt Yqt omega lam + sdid Ypc' Yqc' Ypt' Yqt' omega lam := by
  simp only [sdid, avg_add, mul_add, Finset.sum_add_distrib]
  have : ∀ (A B C D : Fin n → K), ∑ j, omega j * (A j + B j - (C j + D j))
      = ∑ j, omega j * (A j - C j) + ∑ j, omega j * (B j - D j) := by
    intro A B C D
    rw [← Finset.sum_add_distrib]; apply Finset.sum_congr rfl; intro j _; ring
  rw [this]; ring

/-- The estimator on a purely additive panel (no effect) is zero. -/
theorem sdid_additive_zero {p q n : ℕ} (a : Fin n → K) (A : K) (b : Fin p → K) (c : Fin q → K)
    (omega : Fin n → K) (lam : Fin p → K) (hq : 0 < q)
    (hom : ∑ j, omega j = 1) (hlam : ∑ t, lam t = 1) :
    sdid (fun t j => a j + b t) (fun s j => a j + c s) (fun t => A + b t) (fun s => A + c s)
      omega lam = 0 := by
  have e1 : ∀ j, ∑ t, lam t * (a j + b t) = a j + ∑ t, lam t * b t := by
    intro j; simp only [mul_add, Finset.sum_add_distrib, sum_weight_const lam hlam]
  have e2 : ∑ t, lam t * (A + b t) = A + ∑ t, lam t * b t := by
    simp only [mul_add, Finset.sum_add_distrib, sum_weight_const lam hlam]
  have e3 : ∀ x : K, avg (fun s => x + c s) = x + avg c := by
    intro x; rw [avg_add (fun _ => x) c, avg_const hq]
  simp only [sdid, e1, e2, e3]
  have e4 : ∑ j, omega j * (a j + avg c - (a j + ∑ t, lam t * b t))
      = avg c - ∑ t, lam t * b t := by
    rw [← sum_weight_const omega hom (avg c - ∑ t, lam t * b t)]
    apply Finset.sum_congr rfl; intro j _; ring
  rw [e4]; ring

/-- C06. In an additive panel (unit effect + period effect, plus an arbitrary effect `tau s` on the
treated in post period `s`) the SDID estimate is exactly the average post-period effect, for any
unit and time weights that sum to one. -/
theorem C06_recovers_average_effect {p q n : ℕ} (a : Fin n → K) (A : K) (b : Fin p → K)
    (c tau : Fin q → K) (omega : Fin n → K) (lam : Fin p → K) (hq : 0 < q)
    (hom : ∑ j, omega j = 1) (hlam : ∑ t, lam t = 1) :
    sdid (fun t j => a j + b t) (fun s j => a j + c s) (fun t => A + b t)
      (fun s => A + c s + tau s) omega lam = (∑ s, tau s) / (q : K) := by
  have h := sdid_add (fun t j => a j + b t) (fun _ _ => 0) (fun s j => a j + c s) (fun _ _ => 0)
    (fun t => A + b t) (fun _ => 0) (fun s => A + c s) tau omega lam
  simp only [add_zero] at h
  rw [h, sdid_additive_zero a A b c omega lam hq hom hlam]
  simp [sdid, avg]

/-- C06. Constant effect. -/
theorem C06_recovers_constant_effect {p q n : ℕ} (a : Fin n → K) (A : K) (b : Fin p → K)
    (c : Fin q → K) (tau : K) (omega : Fin n → K) (lam : Fin p → K) (hq : 0 < q)
    (hom : ∑ j, omega j = 1) (hlam : ∑ t, lam t = 1) :
    sdid (fun t j => a j + b t) (fun s j => a j + c s) (fun t => A + b t)
      (fun s => A + c s + tau) omega lam = tau := by
  rw [C06_recovers_average_effect a A b c (fun _ => tau) omega lam hq hom hlam]
  have : (q : K) ≠ 0 := by exact_mod_cast hq.ne'
  simp [this]

example : (∑ j, (![1/4, 3/4] : Fin 2 → ℚ) j = 1) ∧ (∑ t, (![1/3, 2/3] : Fin 2 → ℚ) t = 1) ∧
    sdid (fun t j => (![5, 7] : Fin 2 → ℚ) j + (![1, 2] : Fin 2 → ℚ) t)
      (fun s j => (![5, 7] : Fin 2 → ℚ) j + (![9] : Fin 1 → ℚ) s)
      (fun t => 20 + (![1, 2] : Fin 2 → ℚ) t) (fun s => 20 + (![9] : Fin 1 → ℚ) s + 3)
      ![1/4, 3/4] ![1/3, 2/3] = 3 := by
  have h1 : ∑ j, (![1/4, 3/4] : Fin 2 → ℚ) j = 1 := by simp [Fin.sum_univ_two]; norm_num
  have h2 : ∑ t, (![1/3, 2/3] : Fin 2 → ℚ) t = 1 := by simp [Fin.sum_univ_two]; norm_num
  exact ⟨h1, h2, C06_recovers_constant_effect _ _ _ _ _ _ _ (by norm_num) h1 h2⟩

/-- C06. Adding unit effects and period effects to arbitrary outcomes does not change the estimate. -/
theorem C06_fixed_effect_invariant {p q n : ℕ} (Ypc : Fin p → Fin n → K) (Yqc : Fin q → Fin n → K)
    (Ypt : Fin p → K) (Yqt : Fin q → K) (a : Fin n → K) (A : K) (b : Fin p → K) (c : Fin q → K)
    (omega : Fin n → K) (lam : Fin p → K) (hq : 0 < q)
    (hom : ∑ j, omega j = 1) (hlam : ∑ t, lam t = 1) :
    sdid (fun t j => Ypc t j + (a j + b t)) (fun s j => Yqc s j + (a j + c s))
      (fun t => Ypt t + (A + b t)) (fun s => Yqt s + (A + c s)) omega lam
    = sdid Ypc Yqc Ypt Yqt omega lam := by
  rw [sdid_add Ypc (fun t j => a j + b t) Yqc (fun s j => a j + c s) Ypt (fun t => A + b t)
    Yqt (fun s => A + c s), sdid_additive_zero a A b c omega lam hq hom hlam, add_zero]

/-- C06. Raising treated post outcomes by `tau s` raises the estimate by exactly their mean. -/
theorem C06_affine_in_treated_post {p q n : ℕ} (Ypc : Fin p → Fin n → K) (Yqc : Fin q → Fin n → K)
    (Ypt : Fin p → K) (Yqt tau : Fin q → K) (omega : Fin n → K) (lam : Fin p → K) :
    sdid Ypc Yqc Ypt (fun s => Yqt s + tau s) omega lam
    = sdid Ypc Yqc Ypt Yqt omega lam + (∑ s, tau s) / (q : K) := by
  have h := sdid_add Ypc (fun _ _ => 0) Yqc (fun _ _ => 0) Ypt (fun _ => 0) Yqt tau omega lam
  simp only [add_zero] at h
  rw [h]; simp [sdid, avg]

/-- C06, end to end: for either backend, any penalty, `zeta >= 0`, step, tolerance and iteration
budget, `SyntheticDiD.fit` reports exactly the average treated post-period effect when outcomes
are additive in unit and period effects and treated unit `i` gets effect `tau s i` in post period
`s`. -/
theorem C06_fit_recovers_effect {p q n m : ℕ} (bk : Backend) (lambdaReg zeta eps step tol : ℝ)
    (maxIter : ℕ) (hp : 0 < p) (hq : 0 < q) (hn : 0 < n) (hm : 0 < m) (heps : 0 < eps)
    (hz : 0 ≤ zeta) (a : Fin n → ℝ) (A : Fin m → ℝ) (b : Fin p → ℝ) (c : Fin q → ℝ)
    (tau : Fin q → Fin m → ℝ) :
    fitAtt bk lambdaReg zeta eps step tol maxIter (fun t j => a j + b t) (fun s j => a j + c s)
      (fun t i => A i + b t) (fun s i => A i + c s + tau s i)
    = (∑ s, (∑ i, tau s i) / (m : ℝ)) / (q : ℝ) := by
  have e1 : (fun t => avg (fun i => A i + b t)) = fun t => avg A + b t := by
    funext t; rw [avg_add A (fun _ => b t), avg_const hm]
  have e2 : (fun s => avg (fun i => A i + c s + tau s i)) = fun s => avg A + c s + avg (tau s) := by
    funext s
    rw [avg_add (fun i => A i + c s) (tau s), avg_add A (fun _ => c s), avg_const hm]
  simp only [fitAtt]
  rw [e1, e2]
  rw [C06_recovers_average_effect a (avg A) b c (fun s => avg (tau s)) _ _ hq
    (C04_unit_weights_isProb bk _ _ lambdaReg _ step tol maxIter hn).2
    (C05_time_weights_isProb heps _ _ hz hp).2]
  rfl

/-- C06. Placebo replications on an additive control panel are exactly zero, for every split of the
controls (so the placebo standard error is then zero). -/
theorem C06_placebo_zero {p q n k l : ℕ} (a : Fin n → K) (b : Fin p → K) (c : Fin q → K)
    (omega : Fin n → K) (lam : Fin p → K) (ctl : Fin k → Fin n) (trt : Fin l → Fin n)
    (hk : 0 < k) (hl : 0 < l) (hq : 0 < q) (hlam : ∑ t, lam t = 1) :
    placeboOnce (fun t j => a j + b t) (fun s j => a j + c s) omega lam ctl trt = 0 := by
  have hk' : (k : K) ≠ 0 := by exact_mod_cast hk.ne'
  have e1 : ∀ x : K, avg (fun i => a (trt i) + x) = avg (fun i => a (trt i)) + x := by
    intro x; rw [avg_add (fun i => a (trt i)) (fun _ => x), avg_const hl]
  simp only [placeboOnce, e1]
  apply sdid_additive_zero (fun i => a (ctl i)) (avg (fun i => a (trt i))) b c _ lam hq _ hlam
  split_ifs with h
  · rw [← Finset.sum_div, div_self h.ne']
  · simp [hk']

/-! ### C63: the bootstrap p-value -/

theorem filter_map_count (att : K) (ds : List K) (h : 0 ≤ att) :
    ds.length ≤ ((ds.map (att + ·) ++ ds.map (att - ·)).filter
      (fun x => decide (|att| ≤ |x|))).length := by
  rw [List.filter_append, List.length_append]
  induction ds with
  | nil => simp
  | cons d ds ih =>
    simp only [List.map_cons, List.filter_cons, List.length_cons]
    have h1 : |att| ≤ |att + d| ∨ |att| ≤ |att - d| := by
      rw [abs_of_nonneg h]
      rcases le_total 0 d with hd | hd
      · left; exact le_trans (by linarith) (le_abs_self _)
      · right; exact le_trans (by linarith) (le_abs_self _)
    rcases h1 with h1 | h1
    · simp only [h1, decide_true, if_true, List.length_cons]
      split_ifs <;> (try simp only [List.length_cons]) <;> omega
    · simp only [h1, decide_true, if_true, List.length_cons]
      split_ifs <;> (try simp only [List.length_cons]) <;> omega

/-- C63 (negative result). With bootstrap inference the reported p-value is at least 1/2 whenever
the bootstrap draws are symmetric around a non-negative estimate, no matter how large the estimate
is relative to its standard error. -/
theorem C63_bootstrap_pvalue_at_least_half (pval : K → K) (crit att se : K) (ds : List K)
    (hse : 0 < se) (hatt : 0 ≤ att) (hne : ds ≠ []) :
    1 / 2 ≤ (inference pval crit att se (ds.map (att + ·) ++ ds.map (att - ·))).2.1 := by
  have hl : (ds.map (att + ·) ++ ds.map (att - ·)).length = 2 * ds.length := by
    simp; ring
  have hpos : 0 < ds.length := List.length_pos_of_ne_nil hne
  have hposK : (0 : K) < ds.length := by exact_mod_cast hpos
  simp only [inference, if_pos hse, hl]
  rw [if_pos (by omega)]
  apply le_trans _ (le_max_left _ _)
  have h1 : (ds.length : K) ≤ (((ds.map (att + ·) ++ ds.map (att - ·)).filter
      (fun x => decide (|att| ≤ |x|))).length : K) := by
    exact_mod_cast filter_map_count att ds hatt
  rw [le_div_iff₀ (by push_cast; linarith)]
  push_cast
  linarith

/-- C63 refuted: "an effect at least 100 standard errors from zero has a p-value below 0.05" fails
for the bootstrap method. Witness: estimate 100, draws 99 and 101. -/
theorem C63_large_effect_significant_refuted :
    ¬ ∀ (pval : ℚ → ℚ) (crit att se : ℚ) (draws : List ℚ), 0 < se → 100 * se ≤ |att| →
      draws ≠ [] → (∀ x ∈ draws, |x - att| ≤ se) →
      (inference pval crit att se draws).2.1 < 1/20 := by
  intro h
  have h1 := h (fun _ => 0) 2 100 1 [101, 99] (by norm_num) (by norm_num) (by simp)
    (by intro x hx; simp at hx; rcases hx with rfl | rfl <;> norm_num [abs_le])
  have h2 := C63_bootstrap_pvalue_at_least_half (K := ℚ) (fun _ => 0) 2 100 1 [1] (by norm_num)
    (by norm_num) (by simp)
  norm_num at h2
  linarith

/-- C63 (partial): what does hold. The p-value is a number in `[1/(B+1), 1]` for every non-empty
list of draws. -/
theorem C63_pvalue_range_partial (pval : K → K) (crit att se : K) (draws : List K)
    (hse : 0 < se) (hne : draws ≠ []) :
    1 / ((draws.length : K) + 1) ≤ (inference pval crit att se draws).2.1 ∧
    (inference pval crit att se draws).2.1 ≤ 1 := by
  have hpos : 0 < draws.length := List.length_pos_of_ne_nil hne
  have hposK : (0 : K) < draws.length := by exact_mod_cast hpos
  simp only [inference, if_pos hse, if_pos hpos]
  refine ⟨le_max_right _ _, max_le ?_ ?_⟩
  · rw [div_le_one hposK]
    exact_mod_cast List.length_filter_le _ _
  · rw [div_le_one (by linarith)]; linarith

example : ([101, 99] : List ℚ) ≠ [] ∧ (0 : ℚ) < 1 := by simp

/-- C16. The reported interval is ordered, contains the estimate and is centred at it, whether or not the
standard error is positive. -/
theorem C16_sdid_interval (pval : K → K) (crit att se : K) (draws : List K) (hc : 0 ≤ crit)
    (hs : 0 ≤ se) :
    let ci := (inference pval crit att se draws).2.2
    ci.1 ≤ att ∧ att ≤ ci.2 ∧ ci.1 + ci.2 = 2 * att := by
  have h := mul_nonneg hc hs
  by_cases hse : 0 < se
  · simp only [inference, if_pos hse]; refine ⟨by linarith, by linarith, by ring⟩
  · simp only [inference, if_neg hse]; refine ⟨by linarith, by linarith, by ring⟩

example : (inference (fun _ => (0:ℚ)) 2 5 1 []).2.2 = (3, 7) := by decide +kernel

/-- With a zero standard error (for example an exactly additive control panel, `C06_placebo_zero`)
the interval is the single point `att`, which excludes zero for a non-zero estimate, while the
reported p-value is 1: the two inference fields contradict each other. -/
theorem C63_zero_se_contradiction (pval : K → K) (crit att : K) (draws : List K) (hatt : att ≠ 0) :
    (inference pval crit att 0 draws).2.1 = 1 ∧
    (inference pval crit att 0 draws).2.2 = (att, att) ∧ ¬ (att ≤ 0 ∧ 0 ≤ att) := by
  refine ⟨by simp [inference], by simp [inference], ?_⟩
  rintro ⟨h1, h2⟩
  exact hatt (le_antisymm h1 h2)

end DiffDiff.Sdid
