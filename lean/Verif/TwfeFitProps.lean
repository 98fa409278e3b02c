/-
Property C146: what TwoWayFixedEffects.fit reports, end to end.
-/
import Verif.TwfeFit
import Verif.WithinProps
import Verif.DidFitProps
import Mathlib.Tactic.Positivity
import Mathlib.Analysis.SpecialFunctions.Sqrt

set_option linter.unusedSectionVars false
set_option linter.unusedVariables false

namespace DiffDiff.TwfeFit
open Matrix Within Vcov
open Ols (IsOls resid fitted dot)
open DidFit (arm change meanChange spread Isolates)

variable {K : Type*} [Field K] [LinearOrder K] [IsStrictOrderedRing K]
variable {ι U T C : Type*} [Fintype ι] [DecidableEq ι] [DecidableEq U] [DecidableEq T] [DecidableEq C]

/-! ### Specification -/

/-- The column check drops nothing from independent columns. -/
def Keeps (L : Lib ι K) : Prop := ∀ {m : ℕ} (X : Matrix ι (Fin m) K), (Xᵀ * X).det ≠ 0 → L.redundant X = []

/-- Working routines. -/
structure Works (L : Lib ι K) : Prop where
  solves : LinReg.Solves L.solvers
  keeps : Keeps L
  sqrt : LinReg.IsSqrt L.sqrt

/-- Rows of the cluster that the standard errors use: the cluster column if given, the unit otherwise. -/
def clusters {c : ℕ} (D : Data ι U T C K c) : ℕ :=
  match D.cluster with
  | some g => nClusters g
  | none => (Finset.univ.image D.unit).card

/-! ### Counts -/

/-- C146. Observations are the rows; treated units are those with a row of treatment one; treated and control units add up to all units. -/
theorem C146_counts {c : ℕ} (L : Lib ι K) (strict : Bool) (alpha : K) (D : Data ι U T C K c) (R : DidFit.Result K) (h : fit L strict alpha D = .ok R) :
    R.nObs = Fintype.card ι ∧ R.nTreated = {u | ∃ i, D.unit i = u ∧ D.treat i = 1}.ncard ∧
    R.nTreated + R.nControl = (Set.range D.unit).ncard := by
  have e1 : ((treatedUnits D : Finset U) : Set U) = {u | ∃ i, D.unit i = u ∧ D.treat i = 1} := by
    ext u
    simp only [treatedUnits, Finset.coe_image, Finset.coe_filter, Finset.mem_univ, true_and, Set.mem_image, Set.mem_setOf_eq]
    exact ⟨fun ⟨i, a, b⟩ => ⟨i, b, a⟩, fun ⟨i, a, b⟩ => ⟨i, b, a⟩⟩
  have e2 : ((Finset.univ.image D.unit : Finset U) : Set U) = Set.range D.unit := by simp
  have hle : (treatedUnits D).card ≤ nUnique D.unit := Finset.card_le_card (Finset.image_subset_image (Finset.subset_univ _))
  unfold fit at h
  split at h
  · cases h
  · split at h
    · cases h
    · cases h
      refine ⟨rfl, ?_, ?_⟩
      · rw [← e1, Set.ncard_coe_finset]
      · rw [← e2, Set.ncard_coe_finset]
        show (treatedUnits D).card + (nUnique D.unit - (treatedUnits D).card) = nUnique D.unit
        omega

/-! ### Fixed effects -/

/-- C146. On balanced panels, unit effects and period effects of any size added to the outcome and to every covariate change nothing in the report. -/
theorem C146_fixed_effects [Fintype U] [Fintype T] {c : ℕ} (L : Lib ι K) (strict : Bool) (alpha : K) (D : Data ι U T C K c) (hB : Balanced D.unit D.time)
    (a : U → K) (b : T → K) (ac : Fin c → U → K) (bc : Fin c → T → K) :
    fit L strict alpha { D with y := fun i => D.y i + (a (D.unit i) + b (D.time i)),
                                cov := fun j i => D.cov j i + (ac j (D.unit i) + bc j (D.time i)) } = fit L strict alpha D := by
  have h1 : outcome { D with y := fun i => D.y i + (a (D.unit i) + b (D.time i)),
                             cov := fun j i => D.cov j i + (ac j (D.unit i) + bc j (D.time i)) } = outcome D :=
    C08_absorbs_effects_partial hB D.y a b
  have h2 : design { D with y := fun i => D.y i + (a (D.unit i) + b (D.time i)),
                            cov := fun j i => D.cov j i + (ac j (D.unit i) + bc j (D.time i)) } = design D := by
    funext i
    unfold design
    congr 2
    funext j
    exact congrFun (C08_absorbs_effects_partial hB (D.cov j) (ac j) (bc j)) i
  unfold fit regress
  rw [h1, h2]
  rfl

/-! ### Fits on independent columns -/

theorem regress_ok {c : ℕ} {L : Lib ι K} (hL : Works L) {strict : Bool} {D : Data ι U T C K c} (hX : ((design D)ᵀ * design D).det ≠ 0)
    {f : LinReg.Fit ι (c + 2) K} (h : regress L strict D = .ok f) :
    ∃ (b : Fin (c + 2) → K) (V : Matrix (Fin (c + 2)) (Fin (c + 2)) K), IsOls (design D) (outcome D) b ∧
      (match D.cluster with
        | some g => vcovNumpy (design D) (resid (design D) (outcome D) b) (some g) = .ok V
        | none => vcovNumpy (design D) (resid (design D) (outcome D) b) (some (fun i => some (D.unit i))) = .ok V) ∧
      (∀ j, f.coef j = some (b j)) ∧ (∀ p, f.vcov p = some (V p.1 p.2)) ∧ f.resid = resid (design D) (outcome D) b ∧
      f.df = (Fintype.card ι : ℤ) - (c + 2) - adjustment D ∧ c + 2 ≤ Fintype.card ι := by
  have hdf : ∀ b : Fin (c + 2) → K, Ols.dfOf (Fintype.card ι) (fun j => some (b j)) (adjustment D) = (Fintype.card ι : ℤ) - (c + 2) - adjustment D := by
    intro b; simp [Ols.dfOf, Ols.nParamsEffective]
  refine ⟨L.solvers.lstsq (design D) (outcome D), ?_⟩
  unfold regress at h
  cases hc : D.cluster with
  | some g =>
    rw [hc] at h
    simp only [hL.keeps _ hX, LinReg.fit] at h
    split at h
    · cases h
    · rename_i hkn
      simp only [LinReg.vcov, LinReg.Opts.ids, Bool.true_or, if_true] at h
      cases hv : vcovNumpy (design D) (resid (design D) (outcome D) (L.solvers.lstsq (design D) (outcome D))) (some g) with
      | error e => rw [hv] at h; cases h
      | ok V =>
        rw [hv] at h
        cases h
        exact ⟨V, hL.solves _ _, hv, fun _ => rfl, fun _ => rfl, rfl, hdf _, not_lt.1 hkn⟩
  | none =>
    rw [hc] at h
    simp only [hL.keeps _ hX, LinReg.fit] at h
    split at h
    · cases h
    · rename_i hkn
      simp only [LinReg.vcov, LinReg.Opts.ids, Bool.true_or, if_true] at h
      cases hv : vcovNumpy (design D) (resid (design D) (outcome D) (L.solvers.lstsq (design D) (outcome D))) (some (fun i => some (D.unit i))) with
      | error e => rw [hv] at h; cases h
      | ok V =>
        rw [hv] at h
        cases h
        exact ⟨V, hL.solves _ _, rfl, fun _ => rfl, fun _ => rfl, rfl, hdf _, not_lt.1 hkn⟩

theorem fit_ok {c : ℕ} {L : Lib ι K} {strict : Bool} {alpha : K} {D : Data ι U T C K c} {R : DidFit.Result K} (h : fit L strict alpha D = .ok R) :
    ∃ f b, regress L strict D = .ok f ∧ f.coef 1 = some b ∧ R.att = .fin b ∧
      R.se = (LinReg.infer L.sqrt L.tD L.nD f 1 none alpha none).se ∧ R.t = (LinReg.infer L.sqrt L.tD L.nD f 1 none alpha none).t ∧
      R.p = (LinReg.infer L.sqrt L.tD L.nD f 1 none alpha none).p ∧ R.ci = (LinReg.infer L.sqrt L.tD L.nD f 1 none alpha none).ci ∧
      R.r2 = LinReg.rsq f (outcome D) false := by
  unfold fit at h
  split at h
  · cases h
  · rename_i f hf
    split at h
    · cases h
    · rename_i b hb
      cases h
      exact ⟨f, b, hf, hb, rfl, rfl, rfl, rfl, rfl, rfl⟩

/-- C146. With independent columns the fit succeeds unless there are too few rows or fewer than two clusters. -/
theorem C146_errors {c : ℕ} (L : Lib ι K) (hL : Works L) (strict : Bool) (alpha : K) (D : Data ι U T C K c) (hX : ((design D)ᵀ * design D).det ≠ 0)
    (e : Err) :
    fit L strict alpha D = .error e ↔
      (Fintype.card ι < c + 2 ∧ e = .reg .fewRows) ∨
      (c + 2 ≤ Fintype.card ι ∧ clusters D < 2 ∧ e = .reg (.vcov .fewClusters)) ∨
      (Fintype.card ι = c + 2 ∧ 2 ≤ clusters D ∧ e = .reg (.vcov .zeroDivision)) := by
  have hu : nClusters (fun i => some (D.unit i)) = (Finset.univ.image D.unit).card := by
    unfold nClusters
    rw [show (fun i => some (D.unit i)) = some ∘ D.unit from rfl, ← Finset.image_image, Finset.card_image_of_injective _ (Option.some_injective U)]
  unfold fit regress clusters
  cases hc : D.cluster with
  | some g =>
    simp only [hL.keeps _ hX, LinReg.fit, LinReg.vcov, LinReg.Opts.ids, Bool.true_or, if_true, vcovNumpy, Fintype.card_fin, hX, if_false]
    by_cases h1 : Fintype.card ι < c + 2
    · simp only [h1, if_true]
      constructor
      · intro h; cases h; exact .inl ⟨trivial, rfl⟩
      · rintro (⟨_, rfl⟩ | ⟨h2, _⟩ | ⟨h2, _⟩)
        · rfl
        · omega
        · omega
    · simp only [h1, if_false]
      by_cases h2 : nClusters g < 2
      · simp only [h2, if_true]
        constructor
        · intro h; cases h; exact .inr (.inl ⟨by omega, trivial, rfl⟩)
        · rintro (⟨h3, _⟩ | ⟨_, _, rfl⟩ | ⟨_, h3, _⟩)
          · exact h3.elim
          · rfl
          · omega
      · by_cases h4 : Fintype.card ι = c + 2
        · simp only [h2, if_false, h4, if_true]
          constructor
          · intro h; cases h; exact .inr (.inr ⟨trivial, by omega, rfl⟩)
          · rintro (⟨h3, _⟩ | ⟨_, h3, _⟩ | ⟨_, _, rfl⟩)
            · exact h3.elim
            · exact h3.elim
            · rfl
        · simp only [h2, if_false, h4]
          constructor
          · intro h; cases h
          · rintro (⟨h3, _⟩ | ⟨_, h3, _⟩ | ⟨h3, _⟩) <;> exact h3.elim
  | none =>
    simp only [hL.keeps _ hX, LinReg.fit, LinReg.vcov, LinReg.Opts.ids, Bool.true_or, if_true, vcovNumpy, Fintype.card_fin, hX, if_false, hu]
    by_cases h1 : Fintype.card ι < c + 2
    · simp only [h1, if_true]
      constructor
      · intro h; cases h; exact .inl ⟨trivial, rfl⟩
      · rintro (⟨_, rfl⟩ | ⟨h2, _⟩ | ⟨h2, _⟩)
        · rfl
        · omega
        · omega
    · simp only [h1, if_false]
      by_cases h2 : (Finset.univ.image D.unit).card < 2
      · simp only [h2, if_true]
        constructor
        · intro h; cases h; exact .inr (.inl ⟨by omega, trivial, rfl⟩)
        · rintro (⟨h3, _⟩ | ⟨_, _, rfl⟩ | ⟨_, h3, _⟩)
          · exact h3.elim
          · rfl
          · omega
      · by_cases h4 : Fintype.card ι = c + 2
        · simp only [h2, if_false, h4, if_true]
          constructor
          · intro h; cases h; exact .inr (.inr ⟨trivial, by omega, rfl⟩)
          · rintro (⟨h3, _⟩ | ⟨_, h3, _⟩ | ⟨_, _, rfl⟩)
            · exact h3.elim
            · exact h3.elim
            · rfl
        · simp only [h2, if_false, h4]
          constructor
          · intro h; cases h
          · rintro (⟨h3, _⟩ | ⟨_, h3, _⟩ | ⟨h3, _⟩) <;> exact h3.elim

theorem fit_exists {c : ℕ} {L : Lib ι K} (hL : Works L) {strict : Bool} {alpha : K} {D : Data ι U T C K c} (hX : ((design D)ᵀ * design D).det ≠ 0)
    (hn : c + 2 < Fintype.card ι) (hg : 2 ≤ clusters D) : ∃ R, fit L strict alpha D = .ok R := by
  cases h : fit L strict alpha D with
  | ok R => exact ⟨R, rfl⟩
  | error e =>
    rcases (C146_errors L hL strict alpha D hX e).1 h with ⟨h1, _⟩ | ⟨_, h1, _⟩ | ⟨h1, _⟩ <;> omega

/-! ### Inference -/

theorem ncard_range {G : Type*} [DecidableEq G] (g : ι → G) : (Set.range g).ncard = nUnique g := by
  have : ((Finset.univ.image g : Finset G) : Set G) = Set.range g := by simp
  rw [← this, Set.ncard_coe_finset]; rfl

/-- C146. The test uses `n - n_units - n_periods - c` degrees of freedom (those of the regression with unit and period dummies), the normal distribution if
that is not positive; t statistic, p-value and interval follow from the reported effect and standard error. -/
theorem C146_inference {c : ℕ} (L : Lib ι K) (hL : Works L) (strict : Bool) (alpha : K) (D : Data ι U T C K c) (hX : ((design D)ᵀ * design D).det ≠ 0)
    (R : DidFit.Result K) (h : fit L strict alpha D = .ok R) (b s : K) (hb : R.att = .fin b) (hs : R.se = .fin s) (hp : 0 < s)
    (df : ℤ) (hdf : df = (Fintype.card ι : ℤ) - (Set.range D.unit).ncard - (Set.range D.time).ncard - c) (Q : Inference.Dist K)
    (hQ : Q = if 0 < df then L.tD df else L.nD) :
    R.t = .fin (b / s) ∧ R.p = .fin (2 * Q.sf |b / s|) ∧ R.ci = (.fin (b - Q.ppf (1 - alpha / 2) * s), .fin (b + Q.ppf (1 - alpha / 2) * s)) := by
  obtain ⟨f, b', hf, hb', ha, hse, ht, hpv, hci, -⟩ := fit_ok h
  obtain ⟨β, V, -, -, hcf, hv, -, hd, -⟩ := regress_ok hL hX hf
  have hfd : f.df = df := by
    rw [hd, hdf, ncard_range, ncard_range]; unfold adjustment; ring
  rw [hb] at ha
  cases ha
  have hs' : (LinReg.infer L.sqrt L.tD L.nD f 1 none alpha none).se = .fin s := by rw [← hse, hs]
  have hcf1 : f.coef 1 = some b := hb'
  simp only [LinReg.infer, Inference.getInference, hcf1, hv, Option.map_some, LinReg.toExt] at hs' ht hpv hci
  have hsq : L.sqrt (V 1 1) = s := by simpa using hs'
  have hpick : Inference.pick L.tD L.nD (Inference.effectiveDf none (some f.df)) = Q := by
    rw [hQ, hfd]
    simp only [Inference.pick, Inference.effectiveDf]
    by_cases h0 : 0 < df
    · simp [h0, not_le.2 h0]
    · simp [h0, not_lt.1 h0]
  rw [hsq, Inference.tStat_pos _ _ hp] at ht
  rw [hsq, Inference.tStat_pos _ _ hp, hpick] at hpv
  rw [hsq, hpick, Inference.confInt_fin] at hci
  refine ⟨ht, ?_, hci⟩
  rw [hpv]
  simp only [Inference.pValue, Inference.Dist.sfE, Ext.abs, Ext.mul]
  rw [mul_comm]

/-! ### Treatment that the fixed effects explain -/

theorem sum_effects_within [Fintype U] [Fintype T] {u : ι → U} {t : ι → T} (h : Balanced u t) (a : U → K) (b : T → K) (x : ι → K) :
    ∑ i, (a (u i) + b (t i)) * within u t x i = 0 := by
  simp only [add_mul, Finset.sum_add_distrib]
  have k1 : ∑ i, a (u i) * within u t x i = 0 := by
    rw [← Finset.sum_fiberwise_of_maps_to (fun i _ => Finset.mem_univ (u i))]
    refine Finset.sum_eq_zero fun w _ => ?_
    have : ∀ i ∈ Finset.univ.filter (fun i => u i = w), a (u i) * within u t x i = a w * within u t x i := by
      intro i hi; rw [(Finset.mem_filter.1 hi).2]
    rw [Finset.sum_congr rfl this, ← Finset.mul_sum, C08_unit_sums_zero_partial h, mul_zero]
  have k2 : ∑ i, b (t i) * within u t x i = 0 := by
    rw [← Finset.sum_fiberwise_of_maps_to (fun i _ => Finset.mem_univ (t i))]
    refine Finset.sum_eq_zero fun w _ => ?_
    have : ∀ i ∈ Finset.univ.filter (fun i => t i = w), b (t i) * within u t x i = b w * within u t x i := by
      intro i hi; rw [(Finset.mem_filter.1 hi).2]
    rw [Finset.sum_congr rfl this, ← Finset.mul_sum, C08_time_sums_zero_partial h, mul_zero]
  rw [k1, k2, add_zero]

/-- Two solutions of the normal equations with independent columns agree. -/
theorem ols_eq {c : ℕ} {X : Matrix ι (Fin c) K} (hX : (Xᵀ * X).det ≠ 0) {y : ι → K} {b b' : Fin c → K} (h : IsOls X y b) (h' : IsOls X y b') : b = b' :=
  LinReg.ols_unique hX h h'

/-- C146. If on a balanced panel the interaction is a unit effect plus a period effect, so that no treatment effect can be told apart from the fixed effects,
the estimator does not notice: whatever the outcome and the covariates, an effect of exactly zero is reported. -/
theorem C146_absorbed_treatment [Fintype U] [Fintype T] {c : ℕ} (L : Lib ι K) (hL : Works L) (strict : Bool) (alpha : K) (D : Data ι U T C K c)
    (hB : Balanced D.unit D.time) (a : U → K) (b : T → K) (hD : ∀ i, D.treat i * D.num (D.time i) = a (D.unit i) + b (D.time i))
    (hX : ((design D)ᵀ * design D).det ≠ 0) (R : DidFit.Result K) (h : fit L strict alpha D = .ok R) : R.att = .fin 0 := by
  obtain ⟨f, b', hf, hb', ha, -⟩ := fit_ok h
  obtain ⟨β, V, hβ, -, hcf, -⟩ := regress_ok hL hX hf
  -- regression on the demeaned covariates alone
  obtain ⟨E, hE⟩ := LinReg.exists_solves (K := K) (ι := ι)
  let Z : Matrix ι (Fin c) K := fun i j => within D.unit D.time (D.cov j) i
  let g := E.lstsq Z (outcome D)
  have hg : IsOls Z (outcome D) g := hE Z (outcome D)
  let β0 : Fin (c + 2) → K := Fin.cons 0 (Fin.cons 0 g)
  have hfit : ∀ i, fitted (design D) β0 i = fitted Z g i := by
    intro i
    simp only [fitted, dot, Fin.sum_univ_succ, β0, design, Fin.cons_zero, Fin.cons_succ, mul_zero, zero_add]
    rfl
  have hres : ∀ i, resid (design D) (outcome D) β0 i = resid Z (outcome D) g i := by
    intro i; unfold resid; rw [hfit]
  have horth : ∀ (a' : U → K) (b' : T → K), ∑ i, (a' (D.unit i) + b' (D.time i)) * resid Z (outcome D) g i = 0 := by
    intro a' b'
    simp only [resid, mul_sub, Finset.sum_sub_distrib, fitted, dot, Finset.mul_sum]
    rw [show ∑ i, (a' (D.unit i) + b' (D.time i)) * outcome D i = 0 from sum_effects_within hB a' b' D.y, zero_sub, neg_eq_zero, Finset.sum_comm]
    refine Finset.sum_eq_zero fun j _ => ?_
    have e : ∀ i, (a' (D.unit i) + b' (D.time i)) * (Z i j * g j) = (a' (D.unit i) + b' (D.time i)) * within D.unit D.time (D.cov j) i * g j := fun i => by
      simp only [Z]; ring
    simp only [e, ← Finset.sum_mul, sum_effects_within hB a' b', zero_mul]
  have h0 : IsOls (design D) (outcome D) β0 := by
    intro j
    simp only [hres]
    refine Fin.cases ?_ (fun j => Fin.cases ?_ (fun j => ?_) j) j
    · have := horth (fun _ => 1) (fun _ => 0)
      simpa [design] using this
    · have := horth a b
      simp only [← hD] at this
      simpa [design, post] using this
    · have := hg j
      simpa [design, Z] using this
  have hbe := ols_eq hX hβ h0
  have e1 : b' = 0 := by
    have := hcf 1
    rw [hb', hbe] at this
    have e : β0 1 = 0 := rfl
    rw [e] at this
    exact Option.some.inj this
  rw [ha, e1]

/-! ### Units of the outcome -/

/-- C146. Measuring the outcome in other units (times `k > 0`) multiplies effect, standard error and interval by `k` and leaves t statistic, p-value and
counts unchanged. -/
theorem C146_units {c : ℕ} (L : Lib ι K) (hL : Works L) (strict : Bool) (alpha k : K) (hk : 0 < k) (D : Data ι U T C K c)
    (hX : ((design D)ᵀ * design D).det ≠ 0) (R R' : DidFit.Result K) (h : fit L strict alpha D = .ok R)
    (h' : fit L strict alpha { D with y := fun i => k * D.y i } = .ok R') (s : K) (hs : R.se = .fin s) (hp : 0 < s) :
    ∃ b lo hi, R.att = .fin b ∧ R'.att = .fin (k * b) ∧ R'.se = .fin (k * s) ∧ R'.t = R.t ∧ R'.p = R.p ∧
      R.ci = (.fin lo, .fin hi) ∧ R'.ci = (.fin (k * lo), .fin (k * hi)) ∧ R'.nTreated = R.nTreated ∧ R'.nControl = R.nControl := by
  have hdes : design { D with y := fun i => k * D.y i } = design D := rfl
  have hout : outcome { D with y := fun i => k * D.y i } = fun i => k * outcome D i := within_smul D.unit D.time k D.y
  obtain ⟨f, b, hf, hb, ha, hse, -⟩ := fit_ok h
  obtain ⟨f', b', hf', hb', ha', hse', -⟩ := fit_ok h'
  obtain ⟨β, V, hβ, hV, hcf, hv, -, -, hkn⟩ := regress_ok hL hX hf
  obtain ⟨β', V', hβ', hV', hcf', hv', -⟩ := regress_ok hL (by rw [hdes]; exact hX) hf'
  rw [hdes, hout] at hβ'
  have hkb : β' = fun j => k * β j := by
    have := Ols.C11_equivariant (design D) (outcome D) β (fun _ => 0) k hβ
    simp only [mul_zero, Finset.sum_const_zero, add_zero] at this
    exact ols_eq hX hβ' this
  have hr : resid (design D) (fun i => k * outcome D i) β' = fun i => k * resid (design D) (outcome D) β i := by
    funext i
    rw [hkb]
    show _ - dot _ _ = _
    rw [Ols.dot_smul]
    simp only [resid, fitted]; ring
  have hVV : V' = k ^ 2 • V := by
    simp only [hdes, hout, hr] at hV'
    cases hc : D.cluster with
    | some g =>
      simp only [hc] at hV hV'
      rw [LinReg.vcovNumpy_scale, hV] at hV'
      exact (Except.ok.inj hV').symm
    | none =>
      simp only [hc] at hV hV'
      rw [LinReg.vcovNumpy_scale, hV] at hV'
      exact (Except.ok.inj hV').symm
  have hlt : c + 2 < Fintype.card ι := by
    refine lt_of_le_of_ne hkn fun e => ?_
    by_cases hcl : clusters D < 2
    · have := (C146_errors L hL strict alpha D hX (.reg (.vcov .fewClusters))).2 (.inr (.inl ⟨hkn, hcl, rfl⟩))
      rw [this] at h; cases h
    · have := (C146_errors L hL strict alpha D hX (.reg (.vcov .zeroDivision))).2 (.inr (.inr ⟨e.symm, not_lt.1 hcl, rfl⟩))
      rw [this] at h; cases h
  have hnn : 0 ≤ V 1 1 := by
    cases hc : D.cluster with
    | some g =>
      simp only [hc] at hV
      exact C14_variances_nonneg _ _ _ V hV (by simpa using hlt) 1
    | none =>
      simp only [hc] at hV
      exact C14_variances_nonneg _ _ _ V hV (by simpa using hlt) 1
  have hsq : L.sqrt (V 1 1) = s := by
    rw [hse] at hs
    simp only [LinReg.infer, Inference.getInference, hv, Option.map_some, LinReg.toExt] at hs
    simpa using hs
  have hs' : R'.se = .fin (k * s) := by
    rw [hse']
    simp only [LinReg.infer, Inference.getInference, hv', Option.map_some, LinReg.toExt, hVV, Matrix.smul_apply, smul_eq_mul]
    rw [hL.sqrt.mul hnn, abs_of_pos hk, hsq]
  have hbb : b' = k * b := by
    have e1 := hcf 1
    have e2 := hcf' 1
    rw [hb] at e1
    rw [hb', hkb] at e2
    rw [Option.some.inj e1, Option.some.inj e2]
  rw [hbb] at ha'
  obtain ⟨t1, p1, c1⟩ := C146_inference L hL strict alpha D hX R h b s ha hs hp _ rfl _ rfl
  obtain ⟨t2, p2, c2⟩ := C146_inference L hL strict alpha _ (by rw [hdes]; exact hX) R' h' (k * b) (k * s) ha' hs' (mul_pos hk hp) _ rfl _ rfl
  have ediv : k * b / (k * s) = b / s := by field_simp
  rw [ediv] at t2 p2
  obtain ⟨-, n1, n2⟩ := C146_counts L strict alpha D R h
  obtain ⟨-, n3, n4⟩ := C146_counts L strict alpha _ R' h'
  refine ⟨b, _, _, ha, ha', hs', t2.trans t1.symm, p2.trans p1.symm, c1, ?_, n3.trans n1.symm, ?_⟩
  · rw [c2]; refine Prod.ext ?_ ?_ <;> · dsimp only; congr 1; ring
  · have : R'.nTreated = R.nTreated := n3.trans n1.symm
    have e : (Set.range ({ D with y := fun i => k * D.y i } : Data ι U T C K c).unit).ncard = (Set.range D.unit).ncard := rfl
    omega

/-! ### Names of units and periods -/

theorem groupMean_rename {G G' : Type*} [DecidableEq G] [DecidableEq G'] (g : ι → G) (f : G → G') (hf : Function.Injective f) (x : ι → K) :
    groupMean (fun i => f (g i)) x = groupMean g x := by
  funext i
  have e : grp (fun i => f (g i)) (f (g i)) = grp g (g i) := by
    ext j; simp only [grp, Finset.mem_filter, Finset.mem_univ, true_and]; exact ⟨fun h => hf h, fun h => by rw [h]⟩
  unfold groupMean
  rw [e]

theorem linreg_congr {C C' : Type*} [DecidableEq C] [DecidableEq C'] (E : LinReg.Solvers ι K) (o : LinReg.Opts ι C) (o' : LinReg.Opts ι C')
    (hs : o'.strict = o.strict)
    (h : ∀ {m : ℕ} (X : Matrix ι (Fin m) K) (u : ι → K), LinReg.vcov E.pinv o' X u = LinReg.vcov E.pinv o X u)
    {k : ℕ} (drop : List (Fin k)) (X : Matrix ι (Fin k) K) (y : ι → K) (a : ℤ) : LinReg.fit E o' drop X y a = LinReg.fit E o drop X y a := by
  unfold LinReg.fit
  cases drop with
  | nil => simp only [h]
  | cons x xs =>
    have h2 := h (Ols.reduce X (Ols.keptCols (x :: xs)) : Matrix ι (Fin (Ols.keptCols (x :: xs)).length) K)
      (resid (Ols.reduce X (Ols.keptCols (x :: xs))) y (E.lstsq (Ols.reduce X (Ols.keptCols (x :: xs))) y))
    simp only [hs]
    rw [h2]

/-- C146. The names of the units, and those of the periods as long as their numeric values stay, do not matter: the whole report is unchanged. Nor do the
names of the clusters. -/
theorem C146_names {U' T' C' : Type*} [DecidableEq U'] [DecidableEq T'] [DecidableEq C'] {c : ℕ} (L : Lib ι K) (strict : Bool) (alpha : K)
    (D : Data ι U T C K c) (D' : Data ι U' T' C' K c) (f : U → U') (hf : Function.Injective f) (g : T → T') (hg : Function.Injective g)
    (q : C → C') (hq : Function.Injective q) (hu : ∀ i, D'.unit i = f (D.unit i)) (ht : ∀ i, D'.time i = g (D.time i))
    (hnum : ∀ t, D'.num (g t) = D.num t) (hy : D'.y = D.y) (htr : D'.treat = D.treat) (hcov : D'.cov = D.cov)
    (hc : D'.cluster = D.cluster.map (fun ids i => (ids i).map q)) : fit L strict alpha D' = fit L strict alpha D := by
  have hu' : D'.unit = fun i => f (D.unit i) := funext hu
  have ht' : D'.time = fun i => g (D.time i) := funext ht
  have hw : ∀ x : ι → K, within D'.unit D'.time x = within D.unit D.time x := by
    intro x
    funext i
    unfold within
    rw [hu', ht', groupMean_rename _ f hf, groupMean_rename _ g hg]
  have hout : outcome D' = outcome D := by unfold outcome; rw [hw, hy]
  have hdes : design D' = design D := by
    funext i
    unfold design post
    simp only [hw, htr, hcov, ht, hnum]
  have hadj : adjustment D' = adjustment D := by
    unfold adjustment nUnique
    rw [hu', ht', show (fun i => f (D.unit i)) = f ∘ D.unit from rfl, show (fun i => g (D.time i)) = g ∘ D.time from rfl, ← Finset.image_image,
      Finset.card_image_of_injective _ hf, ← Finset.image_image, Finset.card_image_of_injective _ hg]
  have htu : treatedUnits D' = (treatedUnits D).image f := by
    unfold treatedUnits
    rw [htr, hu', Finset.image_image]; rfl
  have htc : (treatedUnits D').card = (treatedUnits D).card := by rw [htu, Finset.card_image_of_injective _ hf]
  have hnU : nUnique D'.unit = nUnique D.unit := by
    unfold nUnique
    rw [hu', show (fun i => f (D.unit i)) = f ∘ D.unit from rfl, ← Finset.image_image, Finset.card_image_of_injective _ hf]
  have hreg : regress L strict D' = regress L strict D := by
    unfold regress
    cases hcl : D.cluster with
    | none =>
      rw [hcl] at hc
      rw [hc]
      simp only [Option.map_none, hdes, hout, hadj]
      refine linreg_congr L.solvers (⟨true, some (fun i => some (D.unit i)), none, strict⟩ : LinReg.Opts ι U)
        (⟨true, some (fun i => some (D'.unit i)), none, strict⟩ : LinReg.Opts ι U') rfl (fun X u => ?_) _ _ _ _
      simp only [LinReg.vcov, LinReg.Opts.ids, Bool.true_or, if_true, hu]
      rw [show (fun i => some (f (D.unit i))) = fun i => (some (D.unit i)).map f from rfl, C14_label_invariant X u (fun i => some (D.unit i)) f hf]
    | some ids =>
      rw [hcl] at hc
      rw [hc]
      simp only [Option.map_some, hdes, hout, hadj]
      refine linreg_congr L.solvers (⟨true, some ids, none, strict⟩ : LinReg.Opts ι C)
        (⟨true, some (fun i => (ids i).map q), none, strict⟩ : LinReg.Opts ι C') rfl (fun X u => ?_) _ _ _ _
      simp only [LinReg.vcov, LinReg.Opts.ids, Bool.true_or, if_true]
      rw [C14_label_invariant X u ids q hq]
  unfold fit
  rw [hreg, hout, htc, hnU]

/-! ### Collinear columns -/

theorem coef_none_iff {C : Type*} [DecidableEq C] (E : LinReg.Solvers ι K) (o : LinReg.Opts ι C) {k : ℕ} (drop : List (Fin k)) (X : Matrix ι (Fin k) K)
    (y : ι → K) (a : ℤ) (f : LinReg.Fit ι k K) (h : LinReg.fit E o drop X y a = .ok f) (j : Fin k) : f.coef j = none ↔ j ∈ drop := by
  unfold LinReg.fit at h
  split at h
  · cases h
  · split at h
    · rename_i hd
      simp only at h
      split at h
      · cases h
      · cases h; simp
    · rename_i x xs hd
      split at h
      · cases h
      · split at h
        · cases h
        · simp only at h
          split at h
          · cases h
          · cases h
            exact (Ols.C12_nan_iff_dropped _ _ j).1

theorem fit_not_deficient {C : Type*} [DecidableEq C] (E : LinReg.Solvers ι K) (o : LinReg.Opts ι C) (ho : o.strict = false) {k : ℕ} (drop : List (Fin k))
    (X : Matrix ι (Fin k) K) (y : ι → K) (a : ℤ) : LinReg.fit E o drop X y a ≠ .error .rankDeficient := by
  have hv : ∀ {m : ℕ} (X : Matrix ι (Fin m) K) (u : ι → K), LinReg.vcov E.pinv o X u ≠ .error .rankDeficient := by
    intro m X u h
    unfold LinReg.vcov at h
    split_ifs at h <;> (try split at h) <;> cases h
  intro h
  unfold LinReg.fit at h
  split at h
  · cases h
  · split at h
    · simp only at h
      split at h
      · rename_i e he
        cases h; exact hv _ _ he
      · cases h
    · simp only [ho, Bool.false_eq_true, if_false] at h
      split at h
      · cases h
      · split at h
        · rename_i e he
          cases h; exact hv _ _ he
        · cases h

/-- C146. The estimator raises its own "cannot be identified" error only when the column check removed the interaction, and then it always raises some error;
removing only other columns never produces that error. The error about dependent columns is raised exactly under `rank_deficient_action="error"`. -/
theorem C146_unidentified {c : ℕ} (L : Lib ι K) (strict : Bool) (alpha : K) (D : Data ι U T C K c) :
    (fit L strict alpha D = .error .unidentified → (1 : Fin (c + 2)) ∈ L.redundant (design D)) ∧
    ((1 : Fin (c + 2)) ∈ L.redundant (design D) → ∃ e, fit L strict alpha D = .error e) ∧
    (strict = true → L.redundant (design D) ≠ [] → Fintype.card ι ≥ c + 2 → fit L strict alpha D = .error (.reg .rankDeficient)) ∧
    (strict = false → fit L strict alpha D ≠ .error (.reg .rankDeficient)) := by
  have key2 : ∀ f, regress L strict D = .ok f → (f.coef 1 = none ↔ (1 : Fin (c + 2)) ∈ L.redundant (design D)) := by
    intro f h
    unfold regress at h
    cases hc : D.cluster with
    | none => rw [hc] at h; exact coef_none_iff _ _ _ _ _ _ f h 1
    | some g => rw [hc] at h; exact coef_none_iff _ _ _ _ _ _ f h 1
  refine ⟨fun h => ?_, fun h => ?_, fun hs hne hn => ?_, fun hs h => ?_⟩
  · unfold fit at h
    split at h
    · cases h
    · rename_i f hf
      split at h
      · rename_i hn
        exact (key2 f hf).1 hn
      · cases h
  · unfold fit
    cases hr : regress L strict D with
    | error e => exact ⟨_, rfl⟩
    | ok f =>
      simp only [(key2 f hr).2 h]
      exact ⟨_, rfl⟩
  · have hlt : ¬ Fintype.card ι < c + 2 := by omega
    have e : regress L strict D = .error .rankDeficient := by
      unfold regress
      cases hd : L.redundant (design D) with
      | nil => exact absurd hd hne
      | cons x xs =>
        cases D.cluster <;> simp [LinReg.fit, hlt, hs]
    unfold fit
    rw [e]
  · have hr : regress L strict D ≠ .error .rankDeficient := by
      unfold regress
      cases D.cluster with
      | none => exact fit_not_deficient _ _ hs _ _ _ _
      | some g => exact fit_not_deficient _ _ hs _ _ _ _
    unfold fit at h
    cases hq : regress L strict D with
    | error e =>
      rw [hq] at h
      cases h
      exact hr hq
    | ok f =>
      rw [hq] at h
      simp only at h
      cases hf : f.coef 1 with
      | none => simp only [hf] at h; cases h
      | some b => simp only [hf] at h; cases h

/-! ### Two-period panels -/

section panel
variable {U : Type*} [Fintype U] [DecidableEq U]

/-- A balanced panel of periods coded 0 and 1, treatment constant within unit, default clustering, no covariates. -/
def panel (tr : U → Bool) (y : U × Bool → K) : Data (U × Bool) U Bool U K 0 :=
  { y := y, treat := fun p => if tr p.1 then 1 else 0, time := fun p => p.2, num := fun b => if b then 1 else 0, unit := fun p => p.1
    cov := fun j => j.elim0, cluster := none }

/-- Mean change over all units. -/
def overall (y : U × Bool → K) : K := (∑ u, change y u) / (Fintype.card U : K)

theorem filter_unit (u : U) : Finset.univ.filter (fun i : U × Bool => i.1 = u) = {(u, true), (u, false)} := by
  ext ⟨w, b⟩
  simp only [Finset.mem_filter, Finset.mem_univ, true_and, Finset.mem_insert, Finset.mem_singleton, Prod.mk.injEq]
  cases b <;> simp

theorem filter_time (b : Bool) : Finset.univ.filter (fun i : U × Bool => i.2 = b) = Finset.univ.map ⟨fun u => (u, b), fun _ _ h => (Prod.mk.inj h).1⟩ := by
  ext ⟨w, c⟩
  simp only [Finset.mem_filter, Finset.mem_univ, true_and, Finset.mem_map]
  constructor
  · rintro rfl; exact ⟨w, rfl⟩
  · rintro ⟨u, hu⟩; cases hu; rfl

theorem sum_time (b : Bool) (f : U × Bool → K) : ∑ i ∈ Finset.univ.filter (fun i : U × Bool => i.2 = b), f i = ∑ u, f (u, b) := by
  rw [filter_time, Finset.sum_map]; rfl

theorem card_time (b : Bool) : (Finset.univ.filter (fun i : U × Bool => i.2 = b)).card = Fintype.card U := by
  rw [filter_time, Finset.card_map, Finset.card_univ]

theorem outcome_panel [Nonempty U] (tr : U → Bool) (y : U × Bool → K) (u : U) (b : Bool) :
    outcome (panel tr y) (u, b) = (if b then 1 else -1) * (change y u - overall y) / 2 := by
  have hN : (Fintype.card U : K) ≠ 0 := by exact_mod_cast Fintype.card_ne_zero
  unfold outcome within groupMean grandMean grp panel overall
  simp only [filter_unit, sum_time, card_time]
  rw [Finset.sum_pair (by simp), Finset.card_pair (by simp), Fintype.sum_prod_type, Fintype.card_prod, Fintype.card_bool]
  simp only [Fintype.sum_bool, Finset.sum_add_distrib, change, Finset.sum_sub_distrib]
  push_cast
  cases b <;> simp <;> field_simp <;> ring

/-- Row weights of the regression on the interaction alone. -/
def pull (tr : U → Bool) (p : U × Bool) : K :=
  let m : K := ((arm tr true).card : K)
  let N : K := (Fintype.card U : K)
  ((if tr p.1 then 1 else 0) * (if p.2 then 1 else 0) - m / (2 * N)) * (2 * N / (m * (2 * N - m)))

theorem card_arms (tr : U → Bool) : (Fintype.card U : K) = (arm tr true).card + (arm tr false).card := by
  have := DidFit.sum_arms tr (fun _ => (1 : K))
  simpa using this

theorem design_panel (tr : U → Bool) (y : U × Bool → K) (p : U × Bool) (v : Fin (0 + 2) → K) :
    ∑ m, design (panel tr y) p m * v m = v 0 + (if tr p.1 then 1 else 0) * (if p.2 then 1 else 0) * v 1 := by
  show ∑ m : Fin 2, design (panel tr y) p m * v m = _
  rw [Fin.sum_univ_two]
  have e0 : design (panel tr y) p 0 = 1 := rfl
  have e1 : design (panel tr y) p 1 = (if tr p.1 then 1 else 0) * (if p.2 then 1 else 0) := rfl
  rw [show ((0 : Fin 2) : Fin (0 + 2)) = 0 from rfl, show ((1 : Fin 2) : Fin (0 + 2)) = 1 from rfl, e0, e1, one_mul]

theorem sum_post (tr : U → Bool) (f : U → K) : ∑ u, (if tr u then 1 else 0) * f u = ∑ u ∈ arm tr true, f u := by
  rw [DidFit.sum_arms tr]
  have h1 : ∀ u ∈ arm tr true, (if tr u then (1 : K) else 0) * f u = f u := by
    intro u hu; have : tr u = true := by simpa [arm] using hu
    simp [this]
  have h2 : ∀ u ∈ arm tr false, (if tr u then (1 : K) else 0) * f u = 0 := by
    intro u hu; have : tr u = false := by simpa [arm] using hu
    simp [this]
  rw [Finset.sum_congr rfl h1, Finset.sum_eq_zero h2, add_zero]

theorem sizes {tr : U → Bool} (h : ∃ u, tr u = true) :
    (0 : K) < ((arm tr true).card : K) ∧ (0 : K) < (Fintype.card U : K) ∧ (0 : K) < 2 * (Fintype.card U : K) - ((arm tr true).card : K) := by
  obtain ⟨u, hu⟩ := h
  have h1 : 0 < (arm tr true).card := Finset.card_pos.2 ⟨u, by simp [arm, hu]⟩
  have h2 : (arm tr true).card ≤ Fintype.card U := Finset.card_le_univ _
  have h1' : (0 : K) < (arm tr true).card := by exact_mod_cast h1
  have h2' : ((arm tr true).card : K) ≤ Fintype.card U := by exact_mod_cast h2
  exact ⟨h1', by linarith, by linarith⟩

theorem pull_isolates {tr : U → Bool} (h : ∃ u, tr u = true) (y : U × Bool → K) :
    ∃ v : Fin (0 + 2) → K, Isolates (design (panel tr y)) 1 v (pull tr) := by
  obtain ⟨hm, hN, hd⟩ := sizes (K := K) h
  have hm' := hm.ne'; have hN' := hN.ne'; have hd' := hd.ne'
  set m : K := ((arm tr true).card : K) with hmdef
  set N : K := (Fintype.card U : K) with hNdef
  refine ⟨fun j => if j = 0 then -(m / (2 * N)) * (2 * N / (m * (2 * N - m))) else 2 * N / (m * (2 * N - m)), ⟨fun p => ?_, fun j => ?_⟩⟩
  · rw [design_panel]
    simp only [pull, if_true]
    rw [if_neg (by decide : ¬ (1 : Fin (0 + 2)) = 0)]
    ring
  · have s1 : ∑ u : U, (if tr u then (1 : K) else 0) = m := by
      have := sum_post tr (fun _ => (1 : K))
      simp only [mul_one] at this
      rw [this]; simp [hmdef]
    have hj : j = 0 ∨ j = 1 := by
      have : ∀ j : Fin (0 + 2), j = 0 ∨ j = 1 := by decide
      exact this j
    rcases hj with rfl | rfl
    · have e0 : ∀ p, design (panel tr y) p 0 = 1 := fun _ => rfl
      simp only [e0, one_mul, if_neg (by decide : ¬ (0 : Fin (0 + 2)) = 1)]
      unfold pull
      rw [← Finset.sum_mul, Fintype.sum_prod_type]
      simp only [Fintype.sum_bool, Finset.sum_add_distrib, Finset.sum_sub_distrib, if_true, mul_one, Bool.false_eq_true, if_false, mul_zero, Finset.sum_const,
        Finset.card_univ, nsmul_eq_mul, s1, Fintype.card_bool, Nat.cast_ofNat]
      rw [← hNdef, ← hmdef]
      field_simp
      ring
    · have e1 : ∀ p, design (panel tr y) p 1 = (if tr p.1 then 1 else 0) * (if p.2 then 1 else 0) := fun _ => rfl
      simp only [e1, if_true]
      unfold pull
      rw [Fintype.sum_prod_type]
      simp only [Fintype.sum_bool, if_true, mul_one, Bool.false_eq_true, if_false, mul_zero, zero_mul, add_zero]
      rw [sum_post]
      have : ∀ u ∈ arm tr true, ((if tr u = true then (1 : K) else 0) - m / (2 * N)) * (2 * N / (m * (2 * N - m))) =
          (1 - m / (2 * N)) * (2 * N / (m * (2 * N - m))) := by
        intro u hu; have : tr u = true := by simpa [arm] using hu
        simp [this]
      rw [← hNdef, ← hmdef, Finset.sum_congr rfl this, Finset.sum_const, nsmul_eq_mul, ← hmdef]
      field_simp

theorem panel_det {tr : U → Bool} (h : ∃ u, tr u = true) (y : U × Bool → K) : ((design (panel tr y))ᵀ * design (panel tr y)).det ≠ 0 := by
  refine DidFit.det_of_injective _ fun v hv => ?_
  obtain ⟨u, hu⟩ := h
  have h0 := hv (u, false)
  have h1 := hv (u, true)
  rw [design_panel] at h0 h1
  simp [hu] at h0 h1
  have : ∀ j : Fin (0 + 2), j = 0 ∨ j = 1 := by decide
  funext j
  rcases this j with rfl | rfl
  · exact h0
  · rw [h0, zero_add] at h1; exact h1

theorem overall_arms {tr : U → Bool} (h : ∀ a, ∃ u, tr u = a) (y : U × Bool → K) :
    (Fintype.card U : K) * overall y = (arm tr true).card * meanChange tr y true + (arm tr false).card * meanChange tr y false := by
  have hN : (Fintype.card U : K) ≠ 0 := (sizes (K := K) (h true)).2.1.ne'
  unfold overall meanChange
  rw [mul_div_cancel₀ _ hN, mul_div_cancel₀ _ (DidFit.arm_card h true), mul_div_cancel₀ _ (DidFit.arm_card h false), DidFit.sum_arms tr]

/-- C146. In the textbook two-period panel with `m` treated and `n` control units, the reported effect is the difference in differences times
`n / (m + 2 n)` (a third of it with equally many treated and controls); its standard error, clustered by unit, is built from the changes of the treated
units and the reported effect alone. -/
theorem C146_panel_partial (L : Lib (U × Bool) K) (hL : Works L) (strict : Bool) (alpha : K) (tr : U → Bool) (h : ∀ a, ∃ u, tr u = a) (y : U × Bool → K)
    (R : DidFit.Result K) (hR : fit L strict alpha (panel tr y) = .ok R) (m n N b : K) (hm : m = (arm tr true).card) (hn : n = (arm tr false).card)
    (hN : N = Fintype.card U) (hb : b = n / (m + 2 * n) * (meanChange tr y true - meanChange tr y false)) :
    R.att = .fin b ∧
    R.se = .fin (L.sqrt (N / (N - 1) * ((2 * N - 1) / (2 * N - 2)) * ((N / (m * (m + 2 * n))) ^ 2 * (spread tr y true + m ^ 3 * n / N ^ 3 * b ^ 2)))) := by
  obtain ⟨hm0, hN0, hd0⟩ := sizes (K := K) (h true)
  have hn0 : (0 : K) < ((arm tr false).card : K) := by
    obtain ⟨u, hu⟩ := h false
    exact_mod_cast Finset.card_pos.2 ⟨u, by simp [arm, hu]⟩
  have hNmn : N = m + n := by rw [hN, hm, hn]; exact card_arms tr
  rw [← hm] at hm0; rw [← hN] at hN0; rw [← hn] at hn0; rw [← hN, ← hm] at hd0
  have hm' := hm0.ne'; have hN' := hN0.ne'; have hn' := hn0.ne'
  have hmn : m + 2 * n ≠ 0 := by have : 0 < m + 2 * n := by linarith
                                 exact this.ne'
  have h2N : 2 * N - m = m + 2 * n := by rw [hNmn]; ring
  have : Nonempty U := ⟨(h true).choose⟩
  obtain ⟨f, b', hf, hb', ha, hse, -⟩ := fit_ok hR
  have hX := panel_det (K := K) (h true) y
  obtain ⟨β, V, hβ, hV, hcf, hv, -⟩ := regress_ok hL hX hf
  obtain ⟨v, H⟩ := pull_isolates (K := K) (h true) y
  set D := meanChange tr y true - meanChange tr y false with hD
  have hov : N * overall y = m * meanChange tr y true + n * meanChange tr y false := by rw [hN, hm, hn]; exact overall_arms h y
  have hpT : ∀ u, tr u = true → (pull tr (u, true) : K) = (1 - m / (2 * N)) * (2 * N / (m * (m + 2 * n))) := by
    intro u hu; simp only [pull, hu, if_true, ← hm, ← hN, mul_one, h2N]
  have hpF : ∀ u, (pull tr (u, false) : K) = - (m / (2 * N)) * (2 * N / (m * (m + 2 * n))) := by
    intro u; simp only [pull, Bool.false_eq_true, if_false, mul_zero, ← hm, ← hN, h2N]; ring
  have hpC : ∀ u, tr u = false → (pull tr (u, true) : K) = - (m / (2 * N)) * (2 * N / (m * (m + 2 * n))) := by
    intro u hu; simp only [pull, hu, Bool.false_eq_true, if_false, zero_mul, ← hm, ← hN, h2N]; ring
  have hsT : ∑ u ∈ arm tr true, change y u = m * meanChange tr y true := by
    unfold meanChange; rw [← hm, mul_div_cancel₀ _ hm']
  -- coefficient
  have hβ1 : β 1 = b := by
    rw [DidFit.C125_coefficient _ _ _ _ H _ _ hβ, Fintype.sum_prod_type]
    simp only [Fintype.sum_bool, outcome_panel, if_true, Bool.false_eq_true, if_false]
    rw [DidFit.sum_arms tr]
    have e1 : ∀ u ∈ arm tr true, (pull tr (u, true) : K) * (1 * (change y u - overall y) / 2) +
        pull tr (u, false) * (-1 * (change y u - overall y) / 2) = N / (m * (m + 2 * n)) * (change y u - overall y) := by
      intro u hu
      have hu' : tr u = true := by simpa [arm] using hu
      rw [hpT u hu', hpF u]
      field_simp
      ring
    have e2 : ∀ u ∈ arm tr false, (pull tr (u, true) : K) * (1 * (change y u - overall y) / 2) +
        pull tr (u, false) * (-1 * (change y u - overall y) / 2) = 0 := by
      intro u hu
      have hu' : tr u = false := by simpa [arm] using hu
      rw [hpC u hu', hpF u]
      ring
    rw [Finset.sum_congr rfl e1, Finset.sum_eq_zero e2, add_zero, ← Finset.mul_sum, Finset.sum_sub_distrib, hsT, Finset.sum_const, nsmul_eq_mul, ← hm, hb]
    have : overall y = (m * meanChange tr y true + n * meanChange tr y false) / N := by rw [← hov]; field_simp
    rw [this, hD]
    field_simp
    rw [hNmn]; ring
  have hbb : b' = b := by
    have := hcf 1
    rw [hb', hβ1] at this
    exact Option.some.inj this
  -- intercept
  have hres : ∀ u c, resid (design (panel tr y)) (outcome (panel tr y)) β (u, c) =
      (if c then 1 else -1) * (change y u - overall y) / 2 - (β 0 + (if tr u then 1 else 0) * (if c then 1 else 0) * b) := by
    intro u c
    have e : fitted (design (panel tr y)) β (u, c) = _ := design_panel tr y (u, c) β
    unfold resid
    rw [e, outcome_panel, hβ1]
  have hβ0 : β 0 = - (m / (2 * N)) * b := by
    have h0 := hβ 0
    have e0 : ∀ p, design (panel tr y) p 0 = 1 := fun _ => rfl
    simp only [e0, one_mul] at h0
    rw [Fintype.sum_prod_type] at h0
    simp only [Fintype.sum_bool, hres, if_true, Bool.false_eq_true, if_false, mul_zero, zero_mul, add_zero, mul_one] at h0
    have e1 : ∀ u, (1 * (change y u - overall y) / 2 - (β 0 + (if tr u = true then 1 else 0) * b) + (-1 * (change y u - overall y) / 2 - β 0)) =
        - (2 * β 0) - (if tr u = true then 1 else 0) * b := by intro u; ring
    simp only [e1, one_mul] at h0
    have e2 : ∀ u, ((change y u - overall y) / 2 - (β 0 + (if tr u = true then 1 else 0) * b) + (-1 * (change y u - overall y) / 2 - β 0)) =
        - (2 * β 0) - (if tr u = true then 1 else 0) * b := by intro u; ring
    simp only [e2] at h0
    rw [Finset.sum_sub_distrib, Finset.sum_const, Finset.card_univ, nsmul_eq_mul, ← hN, sum_post tr (fun _ => b), Finset.sum_const, nsmul_eq_mul, ← hm] at h0
    field_simp
    linarith
  refine ⟨by rw [ha, hbb], ?_⟩
  -- variance
  have hV' : vcovNumpy (design (panel tr y)) (resid (design (panel tr y)) (outcome (panel tr y)) β) (some (fun i : U × Bool => some i.1)) = .ok V := hV
  have hcl := DidFit.C125_cluster _ hX _ _ _ H _ _ _ hV'
  have himg : Finset.univ.image (fun p : U × Bool => p.1) = Finset.univ := by ext u; simp
  have hsc : ∀ u, (∑ i ∈ Finset.univ.filter (fun i : U × Bool => i.1 = u), pull tr i * resid (design (panel tr y)) (outcome (panel tr y)) β i) =
      if tr u then 2 * N / (m * (m + 2 * n)) * ((change y u - meanChange tr y true) / 2 + b * m * n / (2 * N ^ 2))
      else - (2 * N / (m * (m + 2 * n))) * (b * m ^ 2 / (2 * N ^ 2)) := by
    intro u
    rw [filter_unit, Finset.sum_pair (by simp), hres, hres, hpF u, hβ0]
    have hovb : overall y = meanChange tr y true - (m + 2 * n) / N * b := by
      rw [hb]
      have : overall y = (m * meanChange tr y true + n * meanChange tr y false) / N := by rw [← hov]; field_simp
      rw [this, hD]
      field_simp
      rw [hNmn]; ring
    cases hu : tr u
    · rw [hpC u hu]
      simp
      field_simp
      ring
    · rw [hpT u hu, hovb]
      simp
      field_simp
      rw [hNmn]
      ring
  rw [hse]
  simp only [LinReg.infer, Inference.getInference, hv, Option.map_some, LinReg.toExt]
  rw [hcl, himg, Finset.card_univ, Fintype.card_prod, Fintype.card_bool, Fintype.card_fin, ← hN]
  have hcast : ((Fintype.card U * 2 : ℕ) : K) = 2 * N := by push_cast; rw [hN]; ring
  have hcast2 : ((0 + 2 : ℕ) : K) = 2 := by norm_num
  rw [hcast, hcast2]
  simp only [hsc]
  rw [DidFit.sum_arms tr]
  have e1 : ∀ u ∈ arm tr true, (if tr u = true then 2 * N / (m * (m + 2 * n)) * ((change y u - meanChange tr y true) / 2 + b * m * n / (2 * N ^ 2))
      else - (2 * N / (m * (m + 2 * n))) * (b * m ^ 2 / (2 * N ^ 2))) ^ 2 =
      (N / (m * (m + 2 * n))) ^ 2 * ((change y u - meanChange tr y true) ^ 2 + 2 * (b * m * n / N ^ 2) * (change y u - meanChange tr y true) +
        (b * m * n / N ^ 2) ^ 2) := by
    intro u hu
    have hu' : tr u = true := by simpa [arm] using hu
    rw [if_pos hu']
    field_simp
    ring
  have e2 : ∀ u ∈ arm tr false, (if tr u = true then 2 * N / (m * (m + 2 * n)) * ((change y u - meanChange tr y true) / 2 + b * m * n / (2 * N ^ 2))
      else - (2 * N / (m * (m + 2 * n))) * (b * m ^ 2 / (2 * N ^ 2))) ^ 2 = (N / (m * (m + 2 * n))) ^ 2 * (b * m ^ 2 / N ^ 2) ^ 2 := by
    intro u hu
    have hu' : tr u = false := by simpa [arm] using hu
    rw [hu', if_neg (by simp)]
    field_simp
  rw [Finset.sum_congr rfl e1, Finset.sum_congr rfl e2, ← Finset.mul_sum, Finset.sum_const, nsmul_eq_mul, ← hn, Finset.sum_add_distrib, Finset.sum_add_distrib,
    ← Finset.mul_sum, DidFit.sum_dev h y true, Finset.sum_const, nsmul_eq_mul, ← hm]
  rw [show ∑ u ∈ arm tr true, (change y u - meanChange tr y true) ^ 2 = spread tr y true from rfl]
  congr 3
  field_simp
  rw [hNmn]
  ring

/-- Refuted reading of C146: in the textbook panel the reported effect is the difference in differences. It never is, unless that is zero. -/
theorem C146_did_refuted (L : Lib (U × Bool) K) (hL : Works L) (strict : Bool) (alpha : K) (tr : U → Bool) (h : ∀ a, ∃ u, tr u = a) (y : U × Bool → K)
    (R : DidFit.Result K) (hR : fit L strict alpha (panel tr y) = .ok R) (hD : meanChange tr y true - meanChange tr y false ≠ 0) :
    R.att ≠ .fin (meanChange tr y true - meanChange tr y false) := by
  rw [(C146_panel_partial L hL strict alpha tr h y R hR _ _ _ _ rfl rfl rfl rfl).1]
  intro e
  have e := (Ext.fin.inj e)
  have hm := (sizes (K := K) (h true)).1
  have hn0 : (0 : K) < ((arm tr false).card : K) := by
    obtain ⟨u, hu⟩ := h false
    exact_mod_cast Finset.card_pos.2 ⟨u, by simp [arm, hu]⟩
  have h1 := mul_right_cancel₀ hD (e.trans (one_mul _).symm)
  have hpos : (0 : K) < ((arm tr true).card : K) + 2 * ((arm tr false).card : K) := by linarith
  rw [div_eq_one_iff_eq hpos.ne'] at h1
  linarith

/-- Refuted reading of C146: the standard error measures the noise of both arms. Two panels with the same changes of the treated units and the same mean
change of the controls get the same effect, standard error, t statistic, p-value and interval, however differently the individual controls behave. -/
theorem C146_control_noise_refuted (L : Lib (U × Bool) K) (hL : Works L) (strict : Bool) (alpha : K) (tr : U → Bool) (h : ∀ a, ∃ u, tr u = a)
    (y y' : U × Bool → K) (hT : ∀ u, tr u = true → change y' u = change y u) (hC : meanChange tr y' false = meanChange tr y false)
    (R R' : DidFit.Result K) (hR : fit L strict alpha (panel tr y) = .ok R) (hR' : fit L strict alpha (panel tr y') = .ok R') :
    R'.att = R.att ∧ R'.se = R.se ∧ ∀ s, R.se = .fin s → 0 < s → R'.t = R.t ∧ R'.p = R.p ∧ R'.ci = R.ci := by
  have hT' : ∀ u ∈ arm tr true, change y' u = change y u := fun u hu => hT u (by simpa [arm] using hu)
  have hm : meanChange tr y' true = meanChange tr y true := by
    unfold meanChange; rw [Finset.sum_congr rfl hT']
  have hs : spread tr y' true = spread tr y true := by
    unfold spread; exact Finset.sum_congr rfl fun u hu => by rw [hT' u hu, hm]
  obtain ⟨a1, s1⟩ := C146_panel_partial L hL strict alpha tr h y R hR _ _ _ _ rfl rfl rfl rfl
  obtain ⟨a2, s2⟩ := C146_panel_partial L hL strict alpha tr h y' R' hR' _ _ _ _ rfl rfl rfl rfl
  rw [hm, hC] at a2 s2
  rw [hs] at s2
  refine ⟨a2.trans a1.symm, s2.trans s1.symm, fun s hse hp => ?_⟩
  have hse' : R'.se = .fin s := (s2.trans s1.symm).trans hse
  obtain ⟨t1, p1, c1⟩ := C146_inference L hL strict alpha _ (panel_det (h true) y) R hR _ s a1 hse hp _ rfl _ rfl
  obtain ⟨t2, p2, c2⟩ := C146_inference L hL strict alpha _ (panel_det (h true) y') R' hR' _ s a2 hse' hp _ rfl _ rfl
  exact ⟨t2.trans t1.symm, p2.trans p1.symm, c2.trans c1.symm⟩

/-- Refuted reading of C146: noisy data give a positive standard error. Whenever the treated units all change by the mean change of the controls, the reported
standard error is zero and the interval a point, however dispersed the controls are. -/
theorem C146_zero_se_refuted (L : Lib (U × Bool) K) (hL : Works L) (strict : Bool) (alpha : K) (tr : U → Bool) (h : ∀ a, ∃ u, tr u = a) (y : U × Bool → K)
    (hT : ∀ u, tr u = true → change y u = meanChange tr y false) (R : DidFit.Result K) (hR : fit L strict alpha (panel tr y) = .ok R) :
    R.att = .fin 0 ∧ R.se = .fin 0 := by
  have hT' : ∀ u ∈ arm tr true, change y u = meanChange tr y false := fun u hu => hT u (by simpa [arm] using hu)
  have hm : meanChange tr y true = meanChange tr y false := by
    have h1 := DidFit.arm_card (K := K) h true
    unfold meanChange at hT' ⊢
    rw [Finset.sum_congr rfl hT', Finset.sum_const, nsmul_eq_mul]
    field_simp
  have hs : spread tr y true = 0 := by
    unfold spread; exact Finset.sum_eq_zero fun u hu => by rw [hT' u hu, hm, sub_self]; ring
  obtain ⟨a1, s1⟩ := C146_panel_partial L hL strict alpha tr h y R hR _ _ _ _ rfl rfl rfl rfl
  rw [hm, sub_self, mul_zero] at a1 s1
  refine ⟨a1, ?_⟩
  rw [s1, hs]
  have hz : L.sqrt 0 = 0 := by
    obtain ⟨_, h2⟩ := hL.sqrt 0 le_rfl
    exact pow_eq_zero_iff (two_ne_zero) |>.1 h2
  norm_num
  exact hz

/-- Refuted reading of C146: without control units no effect is reported. If every unit is treated, the interaction is the post dummy, which the period
effects absorb; the estimator nevertheless returns a result, with effect zero. -/
theorem C146_no_controls_refuted (L : Lib (U × Bool) K) (hL : Works L) (strict : Bool) (alpha : K) (h2 : 2 ≤ Fintype.card U) (y : U × Bool → K) :
    ∃ R, fit L strict alpha (panel (fun _ => true) y) = .ok R ∧ R.att = .fin 0 ∧ R.nControl = 0 := by
  have hne : Nonempty U := Fintype.card_pos_iff.1 (by omega)
  have hX := panel_det (K := K) (tr := fun _ : U => true) ⟨hne.some, rfl⟩ y
  have himg : Finset.univ.image (fun p : U × Bool => p.1) = Finset.univ := by ext u; simp
  obtain ⟨R, hR⟩ := fit_exists (strict := strict) (alpha := alpha) hL hX (by rw [Fintype.card_prod, Fintype.card_bool]; omega)
    (by show 2 ≤ (Finset.univ.image (fun p : U × Bool => p.1)).card; rw [himg, Finset.card_univ]; exact h2)
  refine ⟨R, hR, ?_, ?_⟩
  · exact C146_absorbed_treatment L hL strict alpha (panel (fun _ => true) y) Function.bijective_id (fun _ => 0) (fun b => if b then 1 else 0)
      (fun i => by simp [panel]) hX R hR
  · obtain ⟨-, n1, n2⟩ := C146_counts L strict alpha _ R hR
    have e : {u | ∃ i, (panel (fun _ => true) y).unit i = u ∧ (panel (fun _ => true) y).treat i = 1} = Set.range (panel (fun _ : U => true) y).unit := by
      ext u; simp [panel]
    rw [e] at n1
    omega

end panel

/-! ### Hypotheses can be met -/

/-- Routines over the reals. -/
theorem exists_works : ∃ L : Lib ι ℝ, Works L := by
  obtain ⟨E, hE⟩ := LinReg.exists_solves (K := ℝ) (ι := ι)
  classical
  exact ⟨⟨⟨E, Real.sqrt, fun _ => ⟨fun x => x, fun x => x⟩, ⟨fun x => x, fun x => x⟩⟩, fun X => if (Xᵀ * X).det = 0 then [] else []⟩, hE,
    fun X h => by simp, fun v hv => ⟨Real.sqrt_nonneg v, Real.sq_sqrt hv⟩⟩

/-- Two treated and two control units; the controls change by 1 and -1, the treated not at all. -/
def noisy : Fin 4 × Bool → ℝ := fun p => if p = (2, true) then 1 else if p = (3, true) then -1 else 0

/-- The panel meets the hypotheses of the last theorems: a result with standard error zero while the controls scatter. -/
example : ∃ (L : Lib (Fin 4 × Bool) ℝ) (R : DidFit.Result ℝ), Works L ∧
    fit L true (1 / 20) (panel (fun u : Fin 4 => decide (u < 2)) noisy) = .ok R ∧ R.att = .fin 0 ∧ R.se = .fin 0 ∧
    0 < spread (fun u : Fin 4 => decide (u < 2)) noisy false := by
  obtain ⟨L, hL⟩ := exists_works (ι := Fin 4 × Bool)
  have h : ∀ a, ∃ u : Fin 4, decide (u < 2) = a := by decide
  have hX := panel_det (K := ℝ) (h true) noisy
  have himg : Finset.univ.image (fun p : Fin 4 × Bool => p.1) = Finset.univ := by ext u; simp
  obtain ⟨R, hR⟩ := fit_exists (strict := true) (alpha := 1 / 20) hL hX (by simp)
    (by show 2 ≤ (Finset.univ.image (fun p : Fin 4 × Bool => p.1)).card; rw [himg]; simp)
  have ef : arm (fun u : Fin 4 => decide (u < 2)) false = {2, 3} := by decide
  have hc : ∀ u : Fin 4, change noisy u = if u = 2 then 1 else if u = 3 then -1 else 0 := by
    intro u; fin_cases u <;> simp [change, noisy]
  have hmc : meanChange (fun u : Fin 4 => decide (u < 2)) noisy false = 0 := by
    unfold meanChange; rw [ef, Finset.sum_pair (by decide), hc, hc]; simp
  obtain ⟨a, s⟩ := C146_zero_se_refuted L hL true (1 / 20) _ h noisy (fun u hu => by rw [hmc, hc]; fin_cases u <;> simp_all) R hR
  refine ⟨L, R, hL, hR, a, s, ?_⟩
  unfold spread
  rw [ef, Finset.sum_pair (by decide), hmc, hc, hc]
  norm_num

end DiffDiff.TwfeFit
