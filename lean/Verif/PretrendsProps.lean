/-
Property C43 (and C78): pre-trends power analysis.
-/
import Verif.Pretrends
import Verif.HonestDidProps
import Mathlib.Topology.Order.IntermediateValue
import Mathlib.Algebra.Order.Star.Real

set_option linter.unusedSectionVars false

namespace DiffDiff.Pretrends
open MultiPeriod (Col)
open HonestDid (Multi Event)
open scoped Matrix

/-! ### Specification of the numerical routines -/

/-- What is used of the non-central chi-square law: at the `1 - α` quantile the central law leaves `α`, and the
survival function rises strictly and continuously with the non-centrality. -/
structure NonCentral (R : Routines) (alpha : ℝ) : Prop where
  size : ∀ n, 1 ≤ n → R.sf n (R.ppf (1 - alpha) n) 0 = alpha
  mono : ∀ n, 1 ≤ n → StrictMonoOn (R.sf n (R.ppf (1 - alpha) n)) (Set.Ici 0)
  cont : ∀ n, 1 ≤ n → ContinuousOn (R.sf n (R.ppf (1 - alpha) n)) (Set.Ici 0)

/-- A bracketing root finder: on a continuous function with a sign change it returns a root in the bracket, and it
refuses a bracket without sign change. -/
def RootFinder (b : (ℝ → ℝ) → ℝ → ℝ → Option ℝ) : Prop :=
  ∀ f lo hi, lo ≤ hi → ContinuousOn f (Set.Icc lo hi) →
    (f lo * f hi ≤ 0 → ∃ x, b f lo hi = some x ∧ x ∈ Set.Icc lo hi ∧ f x = 0) ∧
    (0 < f lo * f hi → b f lo hi = none)

/-- Routines for which the hypotheses hold: a survival function `1 - c / (1 + nc)` at quantile `c`. -/
noncomputable def demo : Routines where
  ppf q _ := q
  sf _ c nc := 1 - c / (1 + nc)
  zppf _ := 0
  brentq f lo hi :=
    haveI := Classical.propDecidable (∃ x, x ∈ Set.Icc lo hi ∧ f x = 0)
    haveI := Classical.propDecidable (0 < f lo * f hi)
    if 0 < f lo * f hi then none
    else if h : ∃ x, x ∈ Set.Icc lo hi ∧ f x = 0 then some h.choose else none
  pinv _ _ := 0

theorem demo_nonCentral {alpha : ℝ} (h1 : alpha < 1) : NonCentral demo alpha where
  size n _ := by simp [demo]
  mono n _ := by
    intro a ha b hb hab
    have ha' : (0 : ℝ) ≤ a := ha
    simp only [demo]
    have : (1 - alpha) / (1 + b) < (1 - alpha) / (1 + a) := by
      apply div_lt_div_of_pos_left (by linarith) (by linarith) (by linarith)
    linarith
  cont n _ := by
    simp only [demo]
    apply ContinuousOn.sub continuousOn_const
    apply ContinuousOn.div continuousOn_const (by fun_prop)
    intro x hx
    have : (0 : ℝ) ≤ x := hx
    linarith

theorem demo_rootFinder : RootFinder demo.brentq := by
  intro f lo hi hle hc
  constructor
  · intro h
    have hex : ∃ x, x ∈ Set.Icc lo hi ∧ f x = 0 := by
      rcases mul_nonpos_iff.mp h with ⟨h0, h1⟩ | ⟨h0, h1⟩
      · obtain ⟨x, hx, hfx⟩ := intermediate_value_Icc' hle hc ⟨h1, h0⟩
        exact ⟨x, hx, hfx⟩
      · obtain ⟨x, hx, hfx⟩ := intermediate_value_Icc hle hc ⟨h0, h1⟩
        exact ⟨x, hx, hfx⟩
    refine ⟨hex.choose, ?_, hex.choose_spec.1, hex.choose_spec.2⟩
    simp only [demo]
    rw [if_neg (not_lt.mpr h), dif_pos hex]
  · intro h
    simp only [demo]
    rw [if_pos h]

/-! ### Weights -/

theorem norm_sq {n : ℕ} (w : Fin n → ℝ) : norm w ^ 2 = ∑ i, w i ^ 2 :=
  Real.sq_sqrt (Finset.sum_nonneg fun i _ => sq_nonneg _)

theorem norm_pos {n : ℕ} {w : Fin n → ℝ} {i : Fin n} (h : w i ≠ 0) : 0 < norm w := by
  apply Real.sqrt_pos.mpr
  apply Finset.sum_pos' (fun j _ => sq_nonneg _) ⟨i, Finset.mem_univ _, by positivity⟩

theorem normalise_unit {n : ℕ} {w : Fin n → ℝ} {i : Fin n} (h : w i ≠ 0) : ∑ j, normalise w j ^ 2 = 1 := by
  have hp := norm_pos h
  simp only [normalise, if_pos hp, div_pow]
  rw [← Finset.sum_div, ← norm_sq, div_self (by positivity)]

theorem normalise_direction {n : ℕ} (w : Fin n → ℝ) : ∃ c > 0, ∀ i, w i = c * normalise w i := by
  by_cases hp : 0 < norm w
  · refine ⟨norm w, hp, fun i => ?_⟩
    simp only [normalise, if_pos hp]
    field_simp
  · exact ⟨1, one_pos, fun i => by simp [normalise, hp]⟩

/-- The pattern the documentation promises, up to scale: violations growing linearly with the distance from the last
pre-period, equal violations, a violation in the last pre-period only, or the user's own. -/
def Shape (p : Pattern) (n : ℕ) (v : Fin n → ℝ) : Prop :=
  match p with
  | .linear => ∀ i, v i = ((n - 1 - i.1 : ℕ) : ℝ)
  | .constant => ∀ i, v i = 1
  | .lastPeriod => ∀ i, v i = if i.1 = n - 1 then 1 else 0
  | .custom w => w = List.ofFn v

/-- Some entry of the pattern is non-zero. -/
def Nonzero (p : Pattern) (n : ℕ) : Prop :=
  match p with
  | .linear => 2 ≤ n
  | .constant => 1 ≤ n
  | .lastPeriod => 1 ≤ n
  | .custom w => w.length = n ∧ ∃ x ∈ w, x ≠ 0

theorem raw_ok {p : Pattern} {n : ℕ} (h : Nonzero p n) : ∃ v, raw p n = .ok v ∧ Shape p n v ∧ ∃ i, v i ≠ 0 := by
  cases p with
  | linear =>
    refine ⟨_, rfl, fun i => ?_, ⟨⟨0, by have : 2 ≤ n := h; omega⟩, ?_⟩⟩
    · have := i.2
      have e : ((n - 1 - i.1 : ℕ) : ℝ) = (n : ℝ) - 1 - i.1 := by
        rw [Nat.sub_sub, Nat.cast_sub (by omega)]; push_cast; ring
      rw [e]; ring
    · have h2 : (2 : ℝ) ≤ n := by exact_mod_cast h
      simp only [Nat.cast_zero]
      intro h0; linarith
  | constant => exact ⟨_, rfl, fun i => rfl, ⟨⟨0, h⟩, one_ne_zero⟩⟩
  | lastPeriod =>
    have h1 : 1 ≤ n := h
    refine ⟨_, if_neg (by omega), fun i => ?_, ⟨⟨n - 1, by omega⟩, ?_⟩⟩
    · have := i.2
      by_cases hi : i.1 = n - 1
      · rw [if_pos hi]; exact if_pos (by omega)
      · rw [if_neg hi]; exact if_neg (by omega)
    · simp only []
      rw [if_pos (by omega)]; exact one_ne_zero
  | custom w =>
    obtain ⟨hl, x, hx, hx0⟩ := h
    obtain ⟨i, hi, rfl⟩ := List.getElem_of_mem hx
    refine ⟨_, dif_pos hl, ?_, ⟨⟨i, by omega⟩, hx0⟩⟩
    subst hl
    show w = List.ofFn _
    exact (List.ofFn_getElem).symm

/-- Unit length: for every pattern with some violation in it, the weights are the promised pattern scaled to
Euclidean norm one. -/
theorem C43_unit_partial (p : Pattern) (n : ℕ) (h : Nonzero p n) :
    ∃ w, weights p n = .ok w ∧ ∑ i, w i ^ 2 = 1 ∧ ∃ v, Shape p n v ∧ ∃ c > 0, ∀ i, v i = c * w i := by
  obtain ⟨v, hv, hs, i, hi⟩ := raw_ok h
  refine ⟨normalise v, by simp [weights, hv, Except.map], normalise_unit hi, v, hs, normalise_direction v⟩

example : Nonzero (.custom [1, 0, -2]) 3 := ⟨rfl, 1, by simp, one_ne_zero⟩

/-- With a single estimated pre-period the linear pattern is the zero vector, not a unit vector. -/
theorem C43_unit_refuted : ∃ w, weights .linear 1 = .ok w ∧ ∀ i, w i = 0 := by
  have h0 : (fun i : Fin 1 => -(-((1 : ℕ) : ℝ) + 1 + (i.1 : ℝ))) = fun _ => 0 := by
    funext i
    have : i.1 = 0 := by omega
    simp [this]
  refine ⟨fun _ => 0, ?_, fun _ => rfl⟩
  simp only [weights, raw, Except.map, h0]
  simp [normalise, norm]

/-- A custom pattern of the wrong length is refused. -/
theorem C43_length (w : List ℝ) (n : ℕ) : weights (.custom w) n = .error .weightsLength ↔ w.length ≠ n := by
  simp only [weights, raw]
  by_cases h : w.length = n
  · simp [h, Except.map]
  · simp [h, Except.map]

/-! ### Non-centrality and power -/

theorem quad_smul (R : Routines) {n : ℕ} (M : ℝ) (w : Fin n → ℝ) (V : Matrix (Fin n) (Fin n) ℝ) :
    quad R (M • w) V = M ^ 2 * quad R w V := by
  simp only [quad, Matrix.mulVec_smul, dotProduct_smul, smul_dotProduct, smul_eq_mul]
  ring

/-- A positive definite covariance gives every non-zero pattern positive information. -/
theorem quad_pos (R : Routines) {n : ℕ} {w : Fin n → ℝ} {V : Matrix (Fin n) (Fin n) ℝ} (hV : V.PosDef) (hw : w ≠ 0) :
    0 < quad R w V := by
  have hu : IsUnit V.det := (Matrix.isUnit_iff_isUnit_det V).mp hV.isUnit
  simp only [quad, inverse, if_pos hu]
  simpa using hV.inv.dotProduct_mulVec_pos hw

theorem unit_ne_zero {n : ℕ} {w : Fin n → ℝ} (h : ∑ i, w i ^ 2 = 1) : w ≠ 0 := by
  rintro rfl
  simp at h

/-- The power of the test at non-centrality `nc`. -/
noncomputable def testPower (R : Routines) (alpha : ℝ) (n : ℕ) (nc : ℝ) : ℝ := R.sf n (R.ppf (1 - alpha) n) nc

theorem power_eq {R : Routines} {alpha : ℝ} (hR : NonCentral R alpha) {n : ℕ} (hn : 1 ≤ n) (M : ℝ) (w : Fin n → ℝ)
    (V : Matrix (Fin n) (Fin n) ℝ) (hq : 0 ≤ quad R w V) :
    power R alpha M w V = testPower R alpha n (M ^ 2 * quad R w V) := by
  simp only [power, noncentrality, quad_smul, testPower]
  by_cases h : 0 < M ^ 2 * quad R w V
  · rw [if_pos h]
  · rw [if_neg h]
    have : M ^ 2 * quad R w V = 0 := le_antisymm (not_lt.mp h) (by positivity)
    rw [this, hR.size n hn]

/-- A test of a violation of size zero rejects with probability `alpha`. -/
theorem C43_size {R : Routines} {alpha : ℝ} {n : ℕ} (w : Fin n → ℝ) (V : Matrix (Fin n) (Fin n) ℝ) :
    power R alpha 0 w V = alpha := by
  simp only [power, noncentrality, quad_smul]
  simp

/-- Power rises strictly with the size of the violation. -/
theorem C43_monotone {R : Routines} {alpha : ℝ} (hR : NonCentral R alpha) {n : ℕ} (hn : 1 ≤ n) {w : Fin n → ℝ}
    {V : Matrix (Fin n) (Fin n) ℝ} (hV : V.PosDef) (hw : w ≠ 0) {M M' : ℝ} (h : |M| < |M'|) :
    power R alpha M w V < power R alpha M' w V := by
  have hq := quad_pos R hV hw
  rw [power_eq hR hn _ _ _ hq.le, power_eq hR hn _ _ _ hq.le]
  have h2 : M ^ 2 < M' ^ 2 := sq_lt_sq.mpr h
  exact hR.mono n hn (Set.mem_Ici.mpr (by positivity)) (Set.mem_Ici.mpr (by positivity))
    (mul_lt_mul_of_pos_right h2 hq)

/-! ### The minimum detectable violation -/

theorem excess_eq {R : Routines} {alpha target : ℝ} (hR : NonCentral R alpha) {n : ℕ} (hn : 1 ≤ n) {x : ℝ}
    (hx : 0 ≤ x) : excess R alpha target n x = testPower R alpha n x - target := by
  simp only [excess, testPower]
  by_cases h : x ≤ 0
  · have : x = 0 := le_antisymm h hx
    rw [if_pos h, this, hR.size n hn]
  · rw [if_neg h]

theorem expand_spec (f : ℝ → ℝ) (k : ℕ) : ∀ h : ℝ, ∃ j ≤ k, expand f k h = 2 ^ j * h ∧
    (∀ i < j, f (2 ^ i * h) < 0 ∧ 2 ^ i * h < 1000) ∧ (j < k → 0 ≤ f (2 ^ j * h) ∨ 1000 ≤ 2 ^ j * h) := by
  induction k with
  | zero => intro h; exact ⟨0, le_refl _, by simp [expand], by simp, by simp⟩
  | succ k ih =>
    intro h
    simp only [expand]
    by_cases hc : f h < 0 ∧ h < 1000
    · obtain ⟨j, hj, he, hb, ha⟩ := ih (2 * h)
      refine ⟨j + 1, by omega, by rw [if_pos hc, he]; ring, ?_, ?_⟩
      · intro i hi
        rcases i with _ | i
        · simpa using hc
        · have := hb i (by omega)
          have e : (2 : ℝ) ^ (i + 1) * h = 2 ^ i * (2 * h) := by ring
          rwa [e]
      · intro hjk
        have e : (2 : ℝ) ^ (j + 1) * h = 2 ^ j * (2 * h) := by ring
        rw [e]; exact ha (by omega)
    · refine ⟨0, by omega, by rw [if_neg hc]; simp, by simp, fun _ => ?_⟩
      simp only [pow_zero, one_mul]
      by_contra hcon
      push Not at hcon
      exact hc ⟨hcon.1, hcon.2⟩

/-- The bound returned by the doubling loop, when power is a rising function: either the target is reached at it, or it
is 1024 and the target is not reached at 512. -/
theorem expand_cases (f : ℝ → ℝ) :
    (0 ≤ f (expand f 10 1) ∧ 1 ≤ expand f 10 1 ∧ expand f 10 1 ≤ 512) ∨ (expand f 10 1 = 1024 ∧ f 512 < 0) := by
  obtain ⟨j, hj, he, hb, ha⟩ := expand_spec f 10 1
  simp only [mul_one] at he hb ha
  by_cases h10 : j = 10
  · right
    subst h10
    refine ⟨by rw [he]; norm_num, ?_⟩
    have := (hb 9 (by norm_num)).1
    norm_num at this
    exact this
  · left
    have hj9 : j ≤ 9 := by omega
    have hle : (2 : ℝ) ^ j ≤ 512 := by
      calc (2 : ℝ) ^ j ≤ 2 ^ 9 := pow_le_pow_right₀ (by norm_num) hj9
        _ = 512 := by norm_num
    rcases ha (by omega) with h | h
    · exact ⟨by rw [he]; exact h, by rw [he]; exact one_le_pow₀ (by norm_num), by rw [he]; exact hle⟩
    · linarith

theorem excess_cont {R : Routines} {alpha target : ℝ} (hR : NonCentral R alpha) {n : ℕ} (hn : 1 ≤ n) (hi : ℝ) :
    ContinuousOn (excess R alpha target n) (Set.Icc 0 hi) := by
  have h1 : ContinuousOn (fun x => testPower R alpha n x - target) (Set.Icc 0 hi) :=
    ((hR.cont n hn).mono (fun x hx => hx.1)).sub continuousOn_const
  exact h1.congr (fun x hx => excess_eq hR hn hx.1)

/-- The search for the target non-centrality gives the one at which the test has the target power, or nothing when
that needs more than 512. -/
theorem targetNc_spec {R : Routines} {alpha target : ℝ} (hR : NonCentral R alpha) (hb : RootFinder R.brentq) {n : ℕ}
    (hn : 1 ≤ n) (hat : alpha < target) :
    (∃ x, targetNc R alpha target n = some x ∧ 0 < x ∧ x ≤ 512 ∧ testPower R alpha n x = target) ∨
    (targetNc R alpha target n = none ∧ testPower R alpha n 512 < target) := by
  simp only [targetNc]
  rcases expand_cases (excess R alpha target n) with ⟨h0, h1, h2⟩ | ⟨he, h5⟩
  · left
    rw [if_neg (by linarith)]
    generalize expand (excess R alpha target n) 10 1 = hi at *
    have hlo : excess R alpha target n 0 = alpha - target := by simp [excess]
    obtain ⟨x, hx, hxm, hx0⟩ := (hb _ 0 hi (by linarith) (excess_cont hR hn hi)).1 (by
      rw [hlo]; exact mul_nonpos_of_nonpos_of_nonneg (by linarith) h0)
    refine ⟨x, by rw [hx], ?_, by linarith [hxm.2], ?_⟩
    · rcases hxm.1.lt_or_eq with h | h
      · exact h
      · rw [← h, hlo] at hx0
        linarith
    · rw [excess_eq hR hn hxm.1] at hx0
      linarith
  · right
    rw [if_pos (by rw [he]; norm_num)]
    refine ⟨rfl, ?_⟩
    rw [excess_eq hR hn (by norm_num)] at h5
    linarith

/-- The minimum detectable violation: power there is exactly the target, and every smaller violation is detected with
less than the target power. -/
theorem C43_mdv_power {R : Routines} {alpha target : ℝ} (hR : NonCentral R alpha) (hb : RootFinder R.brentq) {n : ℕ}
    (hn : 1 ≤ n) (hat : alpha < target) {w : Fin n → ℝ} {V : Matrix (Fin n) (Fin n) ℝ} {m : ℝ}
    (hm : mdv R alpha target w V = .fin m) :
    0 < m ∧ power R alpha m w V = target ∧ ∀ M, |M| < m → power R alpha M w V < target := by
  simp only [mdv] at hm
  rcases targetNc_spec hR hb hn hat with ⟨x, hx, hx0, -, hxp⟩ | ⟨hx, -⟩
  · rw [hx] at hm
    simp only [magnitude] at hm
    by_cases hq : 0 < quad R w V
    · rw [if_pos hq] at hm
      have hm' : m = Real.sqrt (x / quad R w V) := (Ext.fin.inj hm).symm
      have hpos : 0 < m := by rw [hm']; exact Real.sqrt_pos.mpr (div_pos hx0 hq)
      have hsq : m ^ 2 * quad R w V = x := by
        rw [hm', Real.sq_sqrt (div_pos hx0 hq).le, div_mul_cancel₀ _ hq.ne']
      refine ⟨hpos, by rw [power_eq hR hn _ _ _ hq.le, hsq, hxp], fun M hM => ?_⟩
      rw [power_eq hR hn _ _ _ hq.le, ← hxp, ← hsq]
      have h2 : M ^ 2 < m ^ 2 := sq_lt_sq.mpr (by rwa [abs_of_pos hpos])
      exact hR.mono n hn (Set.mem_Ici.mpr (by positivity)) (Set.mem_Ici.mpr (by positivity))
        (mul_lt_mul_of_pos_right h2 hq)
    · rw [if_neg hq] at hm
      exact absurd hm (by simp)
  · rw [hx] at hm
    exact absurd hm (by simp)

/-- With a positive definite covariance and a non-zero pattern the minimum detectable violation is finite exactly when
non-centrality 512 suffices for the target. -/
theorem C43_mdv_finite {R : Routines} {alpha target : ℝ} (hR : NonCentral R alpha) (hb : RootFinder R.brentq) {n : ℕ}
    (hn : 1 ≤ n) (hat : alpha < target) {w : Fin n → ℝ} {V : Matrix (Fin n) (Fin n) ℝ} (hV : V.PosDef) (hw : w ≠ 0) :
    (∃ m, mdv R alpha target w V = .fin m) ↔ target ≤ testPower R alpha n 512 := by
  have hq := quad_pos R hV hw
  simp only [mdv]
  rcases targetNc_spec hR hb hn hat with ⟨x, hx, hx0, hx5, hxp⟩ | ⟨hx, h5⟩
  · rw [hx]
    simp only [magnitude, if_pos hq]
    refine ⟨fun _ => ?_, fun _ => ⟨_, rfl⟩⟩
    rw [← hxp]
    exact (hR.mono n hn).monotoneOn (Set.mem_Ici.mpr hx0.le) (Set.mem_Ici.mpr (by norm_num)) hx5
  · rw [hx]
    refine ⟨fun ⟨m, h⟩ => absurd h (by simp), fun h => absurd h5 (not_lt.mpr h)⟩

/-- The hypotheses of the two theorems above can be met. -/
example : ∃ m, mdv demo (1 / 20) (4 / 5) (fun _ : Fin 1 => 1) (1 : Matrix (Fin 1) (Fin 1) ℝ) = .fin m := by
  apply (C43_mdv_finite (demo_nonCentral (by norm_num)) demo_rootFinder le_rfl (by norm_num) Matrix.PosDef.one
    (fun h => one_ne_zero (congrFun h 0))).mpr
  norm_num [testPower, demo]

/-- The promise of a finite answer whenever some violation reaches the target fails: the search stops doubling at 512,
so a target that needs a non-centrality between 512 and 1000 is reported as out of reach. -/
theorem C43_mdv_finite_refuted : ∃ (R : Routines) (alpha target : ℝ) (w : Fin 1 → ℝ) (V : Matrix (Fin 1) (Fin 1) ℝ),
    NonCentral R alpha ∧ RootFinder R.brentq ∧ V.PosDef ∧ (∑ i, w i ^ 2 = 1) ∧ mdv R alpha target w V = .pinf ∧
    ∃ M, power R alpha M w V = target := by
  refine ⟨demo, 1 / 2, 1 - 1 / 1400, fun _ => 1, 1, demo_nonCentral (by norm_num), demo_rootFinder, Matrix.PosDef.one,
    by simp, ?_, Real.sqrt 699, ?_⟩
  · have hR : NonCentral demo (1 / 2) := demo_nonCentral (by norm_num)
    simp only [mdv]
    rcases targetNc_spec hR demo_rootFinder (le_refl 1) (target := 1 - 1 / 1400) (by norm_num) with
      ⟨x, hx, hx0, hx5, hxp⟩ | ⟨hx, -⟩
    · exfalso
      have h1 := (hR.mono 1 le_rfl).monotoneOn (Set.mem_Ici.mpr hx0.le) (Set.mem_Ici.mpr (by norm_num)) hx5
      have h2 : testPower demo (1 / 2) 1 x ≤ testPower demo (1 / 2) 1 512 := h1
      rw [hxp] at h2
      norm_num [testPower, demo] at h2
    · rw [hx]
  · have hR : NonCentral demo (1 / 2) := demo_nonCentral (by norm_num)
    have hq : quad demo (fun _ : Fin 1 => (1 : ℝ)) (1 : Matrix (Fin 1) (Fin 1) ℝ) = 1 := by
      simp [quad, inverse, dotProduct]
    rw [power_eq hR le_rfl _ _ _ (by rw [hq]; norm_num), hq, Real.sq_sqrt (by norm_num)]
    norm_num [testPower, demo]

/-- With the linear pattern and a single estimated pre-period the minimum detectable violation is infinite and the power
is `alpha` at every magnitude, whatever the data. -/
theorem C43_single_linear {R : Routines} {alpha target : ℝ} (V : Matrix (Fin 1) (Fin 1) ℝ) {w : Fin 1 → ℝ}
    (hw : weights .linear 1 = .ok w) :
    mdv R alpha target w V = .pinf ∧ ∀ M, power R alpha M w V = alpha := by
  obtain ⟨w', h', h0⟩ := C43_unit_refuted
  rw [h'] at hw
  obtain rfl : w' = w := Except.ok.inj hw
  have hz : w' = 0 := funext h0
  have hq : ∀ M : ℝ, quad R (M • w') V = 0 := by intro M; simp [quad, hz]
  have hq1 : quad R w' V = 0 := by simp [quad, hz]
  refine ⟨?_, fun M => ?_⟩
  · simp only [mdv]
    cases targetNc R alpha target 1 with
    | none => rfl
    | some x => simp [magnitude, hq1]
  · simp [power, noncentrality, hq]

/-! ### Results -/

/-- Built-in patterns. -/
def BuiltIn (p : Pattern) : Prop := match p with | .custom _ => False | _ => True

theorem rebuilt_eq {p : Pattern} (hp : BuiltIn p) {n : ℕ} (hn : 1 ≤ n) : weights p n = .ok (rebuilt p n) := by
  cases p with
  | custom w => exact absurd hp (by simp [BuiltIn])
  | linear => rfl
  | constant => rfl
  | lastPeriod =>
    simp only [weights, raw, if_neg (by omega : ¬ n = 0)]
    rfl

theorem fit_ok {R : Routines} {s : Settings} {n : ℕ} {pre : Pre n} {M : Option ℝ} {r : Result n}
    (h : fit R s pre M = .ok r) : ∃ w, weights s.pattern n = .ok w ∧ r.mdv = mdv R s.alpha s.target w pre.vcov ∧
      r.M = chosenM M r.mdv pre.ses ∧ r.power = power R s.alpha r.M w pre.vcov ∧ r.settings = s ∧ r.pre = pre ∧
      r.critical = R.ppf (1 - s.alpha) n := by
  simp only [fit] at h
  cases hw : weights s.pattern n with
  | error e => rw [hw] at h; exact absurd h (by simp)
  | ok w =>
    rw [hw] at h
    obtain rfl := (Except.ok.inj h).symm
    exact ⟨w, rfl, rfl, rfl, rfl, rfl, rfl, rfl⟩

/-- `power_at` on stored results agrees with a fresh fit at the same violation, for the built-in patterns. -/
theorem C43_power_at_partial {R : Routines} {s : Settings} (hR : NonCentral R s.alpha) (hp : BuiltIn s.pattern) {n : ℕ}
    (hn : 1 ≤ n) {pre : Pre n} (hV : pre.vcov.PosDef) {M0 : Option ℝ} {r : Result n} (h : fit R s pre M0 = .ok r)
    (M : ℝ) : powerAt R s pre M = .ok (r.powerAt R M) := by
  obtain ⟨w, hw, -, -, -, hs, hpre, hcrit⟩ := fit_ok h
  have hw' := rebuilt_eq hp hn
  rw [hw] at hw'
  obtain rfl := Except.ok.inj hw'
  simp only [powerAt, fit, hw, Except.map, chosenM]
  rw [power_eq hR hn]
  · simp only [Result.powerAt, testPower, hs, hpre, hcrit]
  · by_cases h0 : rebuilt s.pattern n = 0
    · simp [quad, h0]
    · exact (quad_pos R hV h0).le

/-- For a custom pattern it does not: the weights are forgotten and equal weights used. -/
theorem C43_power_at_refuted : ∃ (R : Routines) (s : Settings) (pre : Pre 2) (r : Result 2),
    NonCentral R s.alpha ∧ pre.vcov.PosDef ∧ fit R s pre (some 1) = .ok r ∧ r.powerAt R 1 ≠ r.power := by
  let s : Settings := ⟨1 / 2, 4 / 5, .custom [1, 0]⟩
  let V : Matrix (Fin 2) (Fin 2) ℝ := Matrix.diagonal ![1, 1 / 3]
  have hV : V.PosDef := Matrix.posDef_diagonal_iff.mpr (by intro i; fin_cases i <;> simp)
  have hu : IsUnit V.det := (Matrix.isUnit_iff_isUnit_det V).mp hV.isUnit
  have hinv : V⁻¹ = Matrix.diagonal ![1, 3] := by
    apply Matrix.inv_eq_right_inv
    simp only [V, Matrix.diagonal_mul_diagonal]
    rw [← Matrix.diagonal_one]
    congr 1
    funext i
    fin_cases i <;> simp
  let pre : Pre 2 := ⟨fun _ => 0, fun _ => 1, V⟩
  have hR : NonCentral demo s.alpha := demo_nonCentral (by norm_num [s])
  have hquad : ∀ w : Fin 2 → ℝ, quad demo w V = w 0 ^ 2 + 3 * w 1 ^ 2 := by
    intro w
    simp only [quad, inverse, if_pos hu, hinv, Matrix.mulVec_diagonal, dotProduct, Fin.sum_univ_two]
    simp
    ring
  have hw : weights s.pattern 2 = .ok ![1, 0] := by
    have e : (fun i : Fin 2 => ([1, 0] : List ℝ)[i.1]'(by simp; omega)) = ![1, 0] := by
      funext i; fin_cases i <;> rfl
    simp only [weights, raw, s]
    rw [dif_pos (by rfl)]
    simp only [Except.map]
    rw [e]
    congr 1
    funext i
    fin_cases i <;> simp [normalise, norm, Fin.sum_univ_two]
  cases hf : fit demo s pre (some 1) with
  | error e => simp only [fit, hw] at hf; exact absurd hf (by simp)
  | ok r =>
    refine ⟨demo, s, pre, r, hR, hV, hf, ?_⟩
    obtain ⟨w, hw', -, hM, hpow, hs, hpre, hcrit⟩ := fit_ok hf
    rw [hw] at hw'
    obtain rfl := Except.ok.inj hw'
    have hM1 : r.M = 1 := by rw [hM]; rfl
    have hq1 : quad demo ![1, 0] V = 1 := by rw [hquad]; simp
    have hp1 : r.power = 3 / 4 := by
      rw [hpow, hM1, power_eq hR (by norm_num) _ _ _ (by show 0 ≤ quad demo ![1, 0] V; rw [hq1]; norm_num)]
      show testPower demo (1 / 2) 2 (1 ^ 2 * quad demo ![1, 0] V) = 3 / 4
      rw [hq1]
      norm_num [testPower, demo]
    have hone : normalise (fun _ : Fin 2 => (1 : ℝ)) = fun _ => 1 / Real.sqrt 2 := by
      have hn : norm (fun _ : Fin 2 => (1 : ℝ)) = Real.sqrt 2 := by
        simp [norm]
      funext i
      have : 0 < Real.sqrt 2 := Real.sqrt_pos.mpr (by norm_num)
      simp only [normalise, hn, if_pos this]
    have hp2 : r.powerAt demo 1 = 5 / 6 := by
      simp only [Result.powerAt, hs, hpre, hcrit]
      show demo.sf 2 (demo.ppf (1 - 1 / 2) 2) (1 ^ 2 * quad demo (rebuilt (.custom [1, 0]) 2) V) = 5 / 6
      have : quad demo (rebuilt (.custom [1, 0]) 2) V = 2 := by
        simp only [rebuilt, hone, hquad]
        rw [div_pow, Real.sq_sqrt (by norm_num)]
        norm_num
      rw [this]
      norm_num [demo]
    rw [hp1, hp2]
    norm_num

/-- Fitting without a magnitude evaluates at the minimum detectable violation: reported power is the target, and the
result says power is adequate. -/
theorem C43_default_fit {R : Routines} {s : Settings} (hR : NonCentral R s.alpha) (hb : RootFinder R.brentq)
    (hat : s.alpha < s.target) {n : ℕ} (hn : 1 ≤ n) {pre : Pre n} {r : Result n} (h : fit R s pre none = .ok r) {m : ℝ}
    (hm : r.mdv = .fin m) : r.M = m ∧ r.power = s.target ∧ adequate r := by
  obtain ⟨w, hw, hmd, hM, hpow, hs, -, -⟩ := fit_ok h
  have hMm : r.M = m := by rw [hM, hm]; rfl
  have hp : r.power = s.target := by
    rw [hpow, hMm]
    exact (C43_mdv_power hR hb hn hat (by rw [← hmd, hm])).2.1
  exact ⟨hMm, hp, by rw [adequate, hs, hp]⟩

/-- A violation is reported as adequately powered exactly when it is at least the minimum detectable violation. -/
theorem C43_adequate_iff {R : Routines} {s : Settings} (hR : NonCentral R s.alpha) (hb : RootFinder R.brentq)
    (hat : s.alpha < s.target) {n : ℕ} (hn : 1 ≤ n) {pre : Pre n} (hV : pre.vcov.PosDef) {M : ℝ} {r : Result n}
    (h : fit R s pre (some M) = .ok r) {m : ℝ} (hm : r.mdv = .fin m) : adequate r ↔ m ≤ |M| := by
  obtain ⟨w, hw, hmd, hM, hpow, hs, -, -⟩ := fit_ok h
  have hMm : r.M = M := by rw [hM]; rfl
  have hspec := C43_mdv_power hR hb hn hat (w := w) (V := pre.vcov) (m := m) (by rw [← hmd, hm])
  rw [adequate, hs, hpow, hMm]
  constructor
  · intro ha
    by_contra hlt
    exact absurd (hspec.2.2 M (not_le.mp hlt)) (not_lt.mpr ha)
  · intro hle
    have hw0 : w ≠ 0 := by
      rintro rfl
      have := hspec.2.1
      simp [power, noncentrality, quad] at this
      linarith
    rw [← hspec.2.1]
    rcases hle.lt_or_eq with h1 | h1
    · exact (C43_monotone hR hn hV hw0 (by rwa [abs_of_pos hspec.1])).le
    · have hsq : M ^ 2 = m ^ 2 := by rw [← sq_abs, ← h1]
      simp only [power, noncentrality, quad_smul, hsq]
      exact le_refl _

/-- The power curve lists, at each magnitude of the grid, the power a fit at that magnitude reports. -/
theorem C43_curve {R : Routines} {s : Settings} {n : ℕ} {pre : Pre n} {g : Option (List ℝ)} {k : ℕ}
    {c : List (ℝ × ℝ)} (h : curve R s pre g k = .ok c) : ∀ e ∈ c, powerAt R s pre e.1 = .ok e.2 := by
  simp only [curve] at h
  cases hw : weights s.pattern n with
  | error e => rw [hw] at h; exact absurd h (by simp)
  | ok w =>
    rw [hw] at h
    obtain rfl := (Except.ok.inj h).symm
    intro e he
    obtain ⟨M, -, rfl⟩ := List.mem_map.mp he
    simp [powerAt, fit, hw, Except.map, chosenM]

/-- The magnitudes of the curve are the given grid in order, or `k` evenly spaced points starting at zero. -/
theorem C43_curve_grid {R : Routines} {s : Settings} {n : ℕ} {pre : Pre n} {k : ℕ} {c : List (ℝ × ℝ)} :
    (∀ g : List ℝ, curve R s pre (some g) k = .ok c → c.map Prod.fst = g) ∧
    (curve R s pre none k = .ok c → c.length = k ∧ ∃ top, ∀ i (hi : i < c.length),
      (c[i]).1 = (i : ℝ) * (top / ((k - 1 : ℕ) : ℝ))) := by
  simp only [curve]
  cases hw : weights s.pattern n with
  | error e => exact ⟨fun g h => (nomatch h), fun h => (nomatch h)⟩
  | ok w =>
    refine ⟨fun g h => ?_, fun h => ?_⟩
    · obtain rfl := (Except.ok.inj h).symm
      simp [grid, List.map_map, Function.comp_def]
    · obtain rfl := (Except.ok.inj h).symm
      refine ⟨by simp [grid], maxM (mdv R s.alpha s.target w pre.vcov) pre.ses, fun i hi => ?_⟩
      simp [grid]

/-! ### Extraction -/

/-- The covariance used for a MultiPeriodDiD fit is, entry by entry, that of the interaction coefficients of the
estimated pre-periods, in their order; the reference period does not enter. -/
theorem C43_extract_multi {r : Multi ℝ} {se : ℤ → ℝ} {o : Option (List ℤ)} {x : Σ n : ℕ, Pre n}
    (h : extractMulti r se o = .ok x) : ∃ ps : List ℤ, ∃ hl : x.1 = ps.length, 1 ≤ ps.length ∧
      ps = (o.getD r.pre).filter (fun p => decide (Col.inter p ∈ r.cols)) ∧
      (∀ i : Fin x.1, x.2.effects i = r.coef (.inter (ps[i.1]'(hl ▸ i.2)))) ∧
      ∀ i j : Fin x.1, ∃ a b : ℕ, r.cols[a]? = some (.inter (ps[i.1]'(hl ▸ i.2))) ∧
        r.cols[b]? = some (.inter (ps[j.1]'(hl ▸ j.2))) ∧ x.2.vcov i j = r.vcov a b := by
  simp only [extractMulti] at h
  by_cases h0 : (o.getD r.pre).length = 0
  · rw [if_pos h0] at h; exact absurd h (by simp)
  rw [if_neg h0] at h
  by_cases h1 : (estimated r o).length = 0
  · rw [if_pos h1] at h; exact absurd h (by simp)
  rw [if_neg h1] at h
  obtain rfl := (Except.ok.inj h).symm
  have hmem : ∀ p ∈ estimated r o, r.treatment = "treated" ∧ Col.inter p ∈ r.cols := by
    intro p hp
    exact of_decide_eq_true (List.mem_filter.mp hp).2
  have ht : r.treatment = "treated" := by
    obtain ⟨p, hp⟩ := List.exists_mem_of_length_pos (Nat.pos_of_ne_zero h1)
    exact (hmem p hp).1
  refine ⟨estimated r o, rfl, by omega, by simp [estimated, ht], fun i => rfl, fun i j => ?_⟩
  refine ⟨_, _, ?_, ?_, rfl⟩
  · have := (hmem _ (List.getElem_mem i.2)).2
    show r.cols[List.idxOf (Col.inter (estimated r o)[i.1]) r.cols]? = _
    rw [List.getElem?_eq_getElem (List.idxOf_lt_length_iff.mpr this), List.getElem_idxOf]
  · have := (hmem _ (List.getElem_mem j.2)).2
    show r.cols[List.idxOf (Col.inter (estimated r o)[j.1]) r.cols]? = _
    rw [List.getElem?_eq_getElem (List.idxOf_lt_length_iff.mpr this), List.getElem_idxOf]

/-- A plain MultiPeriodDiD fit is always refused: it has interactions for post periods only, so none of its pre-periods
counts as estimated. -/
theorem C78_refuted (r : Multi ℝ) (times : List ℤ) (ref : ℤ) (extra : ℕ) (h : HonestDid.Fitted r times ref extra)
    (se : ℤ → ℝ) : extractMulti r se none = .error .noEstimated := by
  have h1 : estimated r none = [] := by
    apply List.filter_eq_nil_iff.mpr
    intro p hp hc
    have hp' : p ∈ r.pre := hp
    rw [h.pre, List.mem_filter] at hp'
    have hp2 : p ∉ r.post := by simpa using hp'.2
    have hc2 := (of_decide_eq_true hc).2
    rw [h.cols, MultiPeriod.columns] at hc2
    simp at hc2
    exact hp2 hc2
  have h2 : ((none : Option (List ℤ)).getD r.pre).length ≠ 0 := by
    intro h0
    exact h.preNe (List.length_eq_zero_iff.mp h0)
  simp only [extractMulti, if_neg h2, h1, List.length_nil, if_true]

/-- Naming estimated periods as pre-periods does not help unless the treatment column is literally called `treated`. -/
theorem C78_name_refuted (r : Multi ℝ) (ht : r.treatment ≠ "treated") (se : ℤ → ℝ) (ps : List ℤ) (hps : ps ≠ []) :
    extractMulti r se (some ps) = .error .noEstimated := by
  have h1 : estimated r (some ps) = [] := by simp [estimated, ht]
  have h2 : ((some ps).getD r.pre).length ≠ 0 := by simpa using hps
  simp only [extractMulti, if_neg h2, h1, List.length_nil, if_true]

/-- With that name, the analysis accepts exactly the requests that name at least one estimated period, and uses the named
estimated periods in the order given. -/
theorem C78_partial (r : Multi ℝ) (times : List ℤ) (ref : ℤ) (extra : ℕ) (h : HonestDid.Fitted r times ref extra)
    (ht : r.treatment = "treated") (se : ℤ → ℝ) (ps : List ℤ) :
    (∃ x, extractMulti r se (some ps) = .ok x) ↔ ∃ p ∈ ps, p ∈ r.post := by
  have hest : estimated r (some ps) = ps.filter (fun p => decide (p ∈ r.post)) := by
    simp only [estimated, Option.getD_some, ht, true_and]
    apply List.filter_congr
    intro p _
    rw [h.cols, MultiPeriod.columns]
    simp
  constructor
  · rintro ⟨x, hx⟩
    obtain ⟨qs, -, hq1, hq2, -, -⟩ := C43_extract_multi hx
    obtain ⟨p, hp⟩ := List.exists_mem_of_length_pos hq1
    rw [hq2] at hp
    have hp' := List.mem_filter.mp hp
    refine ⟨p, hp'.1, ?_⟩
    have hc2 := of_decide_eq_true hp'.2
    rw [h.cols, MultiPeriod.columns] at hc2
    simpa using hc2
  · rintro ⟨p, hp, hpp⟩
    have hm : p ∈ estimated r (some ps) := by rw [hest]; exact List.mem_filter.mpr ⟨hp, by simpa using hpp⟩
    have h1 : (estimated r (some ps)).length ≠ 0 := by
      intro h0; rw [List.length_eq_zero_iff.mp h0] at hm; simp at hm
    have h2 : ((some ps).getD r.pre).length ≠ 0 := by
      intro h0
      rw [Option.getD_some] at h0
      rw [List.length_eq_zero_iff.mp h0] at hp; simp at hp
    exact ⟨_, by simp only [extractMulti, if_neg h1, if_neg h2]; rfl⟩

/-- A fit with four periods, the first two treated as pre-periods although estimated. -/
example : HonestDid.Fitted (K := ℝ) ⟨"treated", [1], [2, 3, 4], fun _ => 0, 8, fun _ _ => 1, some 1,
    MultiPeriod.columns (MultiPeriod.allPeriods [1, 2, 3, 4]) [2, 3, 4] 1 0, fun _ => 0⟩ [1, 2, 3, 4] 1 0 :=
  ⟨by decide, by decide, by decide, by decide, by decide, by decide, rfl, by decide⟩

/-- What enters from an event study: exactly the estimated periods before treatment with a finite standard error, in
order of time, with the squared standard errors on the diagonal of the covariance and zeros elsewhere. -/
theorem C43_extract_events {ev : List (Event ℝ)} {x : Σ n : ℕ, Pre n} (h : extractEvents (some ev) = .ok x) :
    ∃ es : List (Event ℝ), ∃ hl : x.1 = es.length, 1 ≤ es.length ∧
      (∀ e, e ∈ es ↔ e ∈ ev ∧ 0 < e.nGroups ∧ e.se ≠ none ∧ e.t < 0) ∧ es.Pairwise (fun a b => a.t ≤ b.t) ∧
      (∀ i : Fin x.1, x.2.effects i = (es[i.1]'(hl ▸ i.2)).effect ∧
        (es[i.1]'(hl ▸ i.2)).se = some (x.2.ses i) ∧ x.2.vcov i i = x.2.ses i ^ 2) ∧
      ∀ i j : Fin x.1, i ≠ j → x.2.vcov i j = 0 := by
  simp only [extractEvents] at h
  by_cases h0 : (preEvents ev).length = 0
  · rw [if_pos h0] at h; exact absurd h (by simp)
  rw [if_neg h0] at h
  obtain rfl := (Except.ok.inj h).symm
  have hmem : ∀ e, e ∈ preEvents ev ↔ e ∈ ev ∧ 0 < e.nGroups ∧ e.se ≠ none ∧ e.t < 0 := by
    intro e
    simp only [preEvents, HonestDid.keptEvents, List.mem_filter, List.mem_insertionSort, Bool.and_eq_true,
      decide_eq_true_eq, ← Option.isSome_iff_ne_none]
    tauto
  refine ⟨preEvents ev, rfl, by omega, hmem, ?_, fun i => ⟨rfl, ?_, ?_⟩, fun i j hij => ?_⟩
  · apply List.Pairwise.filter
    haveI : Std.Total (fun a b : Event ℝ => a.t ≤ b.t) := ⟨fun a b => le_total _ _⟩
    haveI : IsTrans (Event ℝ) (fun a b => a.t ≤ b.t) := ⟨fun a b c => le_trans⟩
    exact List.pairwise_insertionSort _ _
  · have := ((hmem _).mp (List.getElem_mem i.2)).2.2.1
    obtain ⟨y, hy⟩ := Option.ne_none_iff_exists'.mp this
    show (preEvents ev)[i.1].se = some ((preEvents ev)[i.1].se.getD 0)
    rw [hy]; rfl
  · exact Matrix.diagonal_apply_eq _ _
  · exact Matrix.diagonal_apply_ne _ hij

/-- A fit meeting the hypotheses of the theorems on results: two pre-periods, equal violations, unit covariance. -/
example : ∃ r : Result 2, fit demo ⟨1 / 2, 4 / 5, .constant⟩ ⟨fun _ => 0, fun _ => 1, 1⟩ none = .ok r ∧
    ∃ m, r.mdv = .fin m := by
  obtain ⟨w, hw, hu, -⟩ := C43_unit_partial .constant 2 (by norm_num [Nonzero])
  have hR : NonCentral demo (1 / 2) := demo_nonCentral (by norm_num)
  obtain ⟨m, hm⟩ := (C43_mdv_finite hR demo_rootFinder (by norm_num) (target := 4 / 5) (by norm_num)
    (V := (1 : Matrix (Fin 2) (Fin 2) ℝ)) Matrix.PosDef.one (unit_ne_zero hu)).mpr (by norm_num [testPower, demo])
  refine ⟨_, by simp only [fit, hw]; rfl, m, hm⟩

/-- Constructor arguments are accepted exactly when both levels are strictly between 0 and 1 and a pattern is
available, and are then stored unchanged. -/
theorem C43_validate (alpha target : ℝ) (p : Option Pattern) (s : Settings) :
    validate alpha target p = .ok s ↔
      (0 < alpha ∧ alpha < 1) ∧ (0 < target ∧ target < 1) ∧ p = some s.pattern ∧ s.alpha = alpha ∧ s.target = target := by
  unfold validate
  by_cases h1 : 0 < alpha ∧ alpha < 1
  · by_cases h2 : 0 < target ∧ target < 1
    · rw [if_neg (not_not.mpr h1), if_neg (not_not.mpr h2)]
      cases p with
      | none => simp
      | some p =>
        obtain ⟨a, t, q⟩ := s
        simp only [Except.ok.injEq, Settings.mk.injEq, Option.some.injEq]
        constructor
        · rintro ⟨rfl, rfl, rfl⟩; exact ⟨h1, h2, rfl, rfl, rfl⟩
        · rintro ⟨-, -, rfl, rfl, rfl⟩; exact ⟨rfl, rfl, rfl⟩
    · rw [if_neg (not_not.mpr h1), if_pos h2]
      constructor
      · intro h; cases h
      · rintro ⟨-, h, -⟩; exact absurd h h2
  · rw [if_pos h1]
    constructor
    · intro h; cases h
    · rintro ⟨h, -⟩; exact absurd h h1

example : validate 0.05 0.8 (some .linear) = .ok ⟨0.05, 0.8, .linear⟩ :=
  (C43_validate _ _ _ _).mpr ⟨by norm_num, by norm_num, rfl, rfl, rfl⟩

end DiffDiff.Pretrends
