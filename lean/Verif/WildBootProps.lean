/-
C60: wild cluster bootstrap.
-/
import Verif.WildBoot
import Verif.VcovProps
import Verif.BootStatsProps

set_option linter.unusedSectionVars false

namespace DiffDiff.WildBoot
open Matrix

variable {ι κ C : Type*} [Fintype ι] [Fintype κ] [DecidableEq κ] [DecidableEq C]

/-! ### Least squares algebra -/

theorem ols_mulVec (X : Matrix ι κ ℝ) (h : (Xᵀ * X).det ≠ 0) (b : κ → ℝ) : ols X (X *ᵥ b) = b := by
  unfold ols
  rw [mulVec_mulVec, mulVec_mulVec, Matrix.mul_assoc, Matrix.nonsing_inv_mul _ (isUnit_iff_ne_zero.2 h), one_mulVec]

theorem ols_add (X : Matrix ι κ ℝ) (u v : ι → ℝ) : ols X (u + v) = ols X u + ols X v := by
  unfold ols; rw [mulVec_add, mulVec_add]

theorem ols_neg (X : Matrix ι κ ℝ) (u : ι → ℝ) : ols X (-u) = -ols X u := by
  unfold ols; rw [mulVec_neg, mulVec_neg]

theorem ols_smul (X : Matrix ι κ ℝ) (a : ℝ) (u : ι → ℝ) : ols X (a • u) = a • ols X u := by
  unfold ols; rw [mulVec_smul, mulVec_smul]

theorem normal_eq (X : Matrix ι κ ℝ) (h : (Xᵀ * X).det ≠ 0) (y : ι → ℝ) : Xᵀ *ᵥ resid X y = 0 := by
  have : resid X y = y - X *ᵥ ols X y := by funext i; simp [resid]
  rw [this, mulVec_sub]
  unfold ols
  rw [mulVec_mulVec, mulVec_mulVec, Matrix.mul_nonsing_inv _ (isUnit_iff_ne_zero.2 h), one_mulVec, sub_self]

theorem ols_resid (X : Matrix ι κ ℝ) (h : (Xᵀ * X).det ≠ 0) (y : ι → ℝ) : ols X (resid X y) = 0 := by
  unfold ols; rw [normal_eq X h, mulVec_zero]

theorem restricted_eq (X : Matrix ι κ ℝ) (y : ι → ℝ) (k : κ) (null : ℝ) :
    restricted X y k null = y + X *ᵥ (Pi.single k (-null)) := by
  funext i
  simp [restricted, mulVec, dotProduct_single]
  ring

theorem ols_restricted (X : Matrix ι κ ℝ) (h : (Xᵀ * X).det ≠ 0) (y : ι → ℝ) (k : κ) (null : ℝ) :
    ols X (restricted X y k null) = ols X y + Pi.single k (-null) := by
  rw [restricted_eq, ols_add, ols_mulVec X h]

theorem resid_restricted (X : Matrix ι κ ℝ) (h : (Xᵀ * X).det ≠ 0) (y : ι → ℝ) (k : κ) (null : ℝ) :
    resid X (restricted X y k null) = resid X y := by
  funext i
  unfold resid
  rw [ols_restricted X h, mulVec_add, restricted_eq]
  simp only [Pi.add_apply]
  ring

/-- Weighted residuals. -/
noncomputable def wres (X : Matrix ι κ ℝ) (y : ι → ℝ) (ids : ι → C) (w : C → ℝ) : ι → ℝ := fun i => resid X y i * w (ids i)

theorem sample_eq (X : Matrix ι κ ℝ) (h : (Xᵀ * X).det ≠ 0) (y : ι → ℝ) (ids : ι → C) (k : κ) (null : ℝ) (w : C → ℝ) :
    sample X (restricted X y k null) ids w = X *ᵥ (ols X y + Pi.single k (-null)) + wres X y ids w := by
  funext i
  unfold sample
  rw [ols_restricted X h, resid_restricted X h]
  rfl

theorem ols_sample (X : Matrix ι κ ℝ) (h : (Xᵀ * X).det ≠ 0) (y : ι → ℝ) (ids : ι → C) (k : κ) (null : ℝ) (w : C → ℝ) :
    ols X (sample X (restricted X y k null) ids w) k = ols X y k - null + ols X (wres X y ids w) k := by
  rw [sample_eq X h, ols_add, ols_mulVec X h]
  simp [sub_eq_add_neg]

theorem resid_sample (X : Matrix ι κ ℝ) (h : (Xᵀ * X).det ≠ 0) (y : ι → ℝ) (ids : ι → C) (k : κ) (null : ℝ) (w : C → ℝ) :
    resid X (sample X (restricted X y k null) ids w) = resid X (wres X y ids w) := by
  funext i
  unfold resid
  rw [sample_eq X h, ols_add, ols_mulVec X h]
  simp only [mulVec_add, Pi.add_apply]
  ring

theorem wres_neg (X : Matrix ι κ ℝ) (y : ι → ℝ) (ids : ι → C) (w : C → ℝ) : wres X y ids (-w) = -wres X y ids w := by
  funext i; simp [wres]

theorem resid_neg (X : Matrix ι κ ℝ) (u : ι → ℝ) : resid X (-u) = -resid X u := by
  funext i
  unfold resid
  rw [ols_neg, mulVec_neg]
  simp only [Pi.neg_apply]
  ring

theorem cov_det {X : Matrix ι κ ℝ} {y : ι → ℝ} {ids : ι → C} {V : Matrix κ κ ℝ} (h : cov X y ids = .ok V) :
    (Xᵀ * X).det ≠ 0 := by
  unfold cov Vcov.vcovNumpy at h
  intro h0
  simp only [h0, if_true] at h
  split_ifs at h

/-- Whether a covariance is returned depends on the design and the clusters only. -/
theorem cov_defined {X : Matrix ι κ ℝ} {y : ι → ℝ} {ids : ι → C} {V : Matrix κ κ ℝ} (h : cov X y ids = .ok V) (z : ι → ℝ) :
    ∃ W, cov X z ids = .ok W := by
  unfold cov Vcov.vcovNumpy at h ⊢
  simp only at h ⊢
  split_ifs at h ⊢
  exact ⟨_, rfl⟩

theorem mapM_ok {α β : Type*} {f : α → Except Err β} {l : List α} {r : List β} (h : l.mapM f = .ok r) :
    List.Forall₂ (fun a b => f a = .ok b) l r := by
  induction l generalizing r with
  | nil => simp only [List.mapM_nil] at h; cases h; exact .nil
  | cons a l ih =>
    rw [List.mapM_cons] at h
    cases h1 : f a with
    | error e => rw [h1] at h; cases h
    | ok b =>
      rw [h1] at h
      cases h2 : l.mapM f with
      | error e => rw [h2] at h; cases h
      | ok r' => rw [h2] at h; cases h; exact .cons h1 (ih h2)

theorem mapM_def {α β : Type*} {f : α → Except Err β} {g : α → β} {l : List α} (h : ∀ a ∈ l, f a = .ok (g a)) :
    l.mapM f = .ok (l.map g) := by
  induction l with
  | nil => rfl
  | cons a l ih =>
    rw [List.mapM_cons, h a (by simp), ih fun x hx => h x (List.mem_cons_of_mem _ hx)]
    rfl

/-- Variance of coefficient `k` of a fit, as a total function (zero when no covariance is returned). -/
noncomputable def varK (X : Matrix ι κ ℝ) (y : ι → ℝ) (ids : ι → C) (k : κ) : ℝ :=
  match cov X y ids with
  | .ok V => V k k
  | .error _ => 0

theorem replicate_eq {X : Matrix ι κ ℝ} {y z : ι → ℝ} {ids : ι → C} {V : Matrix κ κ ℝ} (h : cov X y ids = .ok V) (k : κ)
    (null : ℝ) (w : C → ℝ) :
    replicate X z ids k null w =
      .ok (ols X (sample X z ids w) k, tStar (ols X (sample X z ids w) k) null (varK X (sample X z ids w) ids k)) := by
  obtain ⟨W, hW⟩ := cov_defined h (sample X z ids w)
  unfold replicate varK
  rw [hW]

/-- All replicates: coefficients and t statistics. -/
theorem wild_ok {wt : String} {X : Matrix ι κ ℝ} {y : ι → ℝ} {ids : ι → C} {k : κ} {null alpha : ℝ} {draws : List (C → ℝ)}
    {r : Result} (h : wild wt X y ids k null alpha draws = .ok r) :
    (wt = "rademacher" ∨ wt = "webb" ∨ wt = "mammen") ∧ 2 ≤ Vcov.nClusters ids ∧ draws ≠ [] ∧ (Xᵀ * X).det ≠ 0 ∧
    (∃ V, cov X y ids = .ok V) ∧
    r.coefs = draws.map (fun w => ols X y k - null + ols X (wres X y ids w) k) ∧
    r.t = tOrig (ols X y k) null (varK X y ids k) ∧
    r.p = pvalue r.t (draws.map (fun w => tStar (ols X y k - null + ols X (wres X y ids w) k) null
      (varK X (sample X (restricted X y k null) ids w) ids k))) ∧
    r.se2 = BootStats.var1 r.coefs ∧ r.ci = BootStats.percentileCI r.coefs alpha ∧ r.nClusters = Vcov.nClusters ids := by
  unfold wild at h
  by_cases h1 : wt ∉ ["rademacher", "webb", "mammen"]
  · rw [if_pos h1] at h; cases h
  · rw [if_neg h1] at h
    by_cases h2 : Vcov.nClusters ids < 2
    · rw [if_pos h2] at h; cases h
    · rw [if_neg h2] at h
      cases hc : cov X y ids with
      | error e => rw [hc] at h; cases h
      | ok V =>
        have hdet := cov_det hc
        rw [hc] at h
        simp only at h
        rw [mapM_def (g := fun w => (ols X (sample X (restricted X y k null) ids w) k,
          tStar (ols X (sample X (restricted X y k null) ids w) k) null
            (varK X (sample X (restricted X y k null) ids w) ids k))) (fun w _ => replicate_eq hc k null w)] at h
        simp only at h
        by_cases h3 : draws = []
        · subst h3; simp at h
        · rw [if_neg (by simpa using h3)] at h
          injection h with h
          subst h
          refine ⟨by simpa [or_iff_not_imp_left] using h1, by omega, h3, hdet, ⟨V, rfl⟩, ?_, ?_, ?_, rfl, rfl, rfl⟩
          · simp only [List.map_map, Function.comp_def, ols_sample X hdet]
          · simp only [varK, hc]
          · simp only [List.map_map, Function.comp_def, ols_sample X hdet]

/-! ### C60 -/

/-- Inputs are validated: a known weight type and at least two clusters. -/
theorem C60_validates (wt : String) (X : Matrix ι κ ℝ) (y : ι → ℝ) (ids : ι → C) (k : κ) (null alpha : ℝ)
    (draws : List (C → ℝ)) (r : Result) (h : wild wt X y ids k null alpha draws = .ok r) :
    (wt = "rademacher" ∨ wt = "webb" ∨ wt = "mammen") ∧ 2 ≤ r.nClusters ∧ r.coefs.length = draws.length ∧
      draws ≠ [] := by
  obtain ⟨h1, h2, h3, -, -, h4, -, -, -, -, h5⟩ := wild_ok h
  exact ⟨h1, by rw [h5]; exact h2, by rw [h4, List.length_map], h3⟩

/-- The p-value lies in [1/(B+1), 1]. -/
theorem C60_range (wt : String) (X : Matrix ι κ ℝ) (y : ι → ℝ) (ids : ι → C) (k : κ) (null alpha : ℝ) (draws : List (C → ℝ))
    (r : Result) (h : wild wt X y ids k null alpha draws = .ok r) :
    1 / ((draws.length : ℝ) + 1) ≤ r.p ∧ r.p ≤ 1 := by
  obtain ⟨-, -, h3, -, -, -, -, h4, -⟩ := wild_ok h
  have hpos : (0 : ℝ) < draws.length := by exact_mod_cast List.length_pos_iff.2 h3
  rw [h4]
  unfold pvalue
  rw [List.length_map]
  refine ⟨le_max_right _ _, max_le ?_ ?_⟩
  · rw [div_le_one hpos]
    unfold extreme
    have := List.length_filter_le (fun s => Ext.le (Ext.abs r.t) (.fin |s|))
      (draws.map (fun w => tStar (ols X y k - null + ols X (wres X y ids w) k) null
        (varK X (sample X (restricted X y k null) ids w) ids k)))
    rw [List.length_map] at this
    exact_mod_cast this
  · rw [div_le_one (by linarith)]; linarith

/-- What the p-value counts: the share of replicates whose recomputed statistic is at least as large as the observed one, where a
replicate with no estimated variance counts only if the observed statistic is zero. -/
theorem C60_share (wt : String) (X : Matrix ι κ ℝ) (y : ι → ℝ) (ids : ι → C) (k : κ) (null alpha : ℝ) (draws : List (C → ℝ))
    (r : Result) (h : wild wt X y ids k null alpha draws = .ok r) (t : ℝ) (ht : r.t = .fin t) :
    ∃ ext : (C → ℝ) → Bool,
      r.p = max ((draws.countP ext : ℝ) / (draws.length : ℝ)) (1 / ((draws.length : ℝ) + 1)) ∧
      ∀ w, (ext w = true ↔
        (0 < varK X (sample X (restricted X y k null) ids w) ids k ∧
          |t| * Real.sqrt (varK X (sample X (restricted X y k null) ids w) ids k) ≤
            |ols X (sample X (restricted X y k null) ids w) k - null|) ∨
        (varK X (sample X (restricted X y k null) ids w) ids k ≤ 0 ∧ t = 0)) := by
  obtain ⟨-, -, h3, hdet, -, -, -, h4, -⟩ := wild_ok h
  refine ⟨fun w => Ext.le (Ext.abs r.t) (.fin |tStar (ols X y k - null + ols X (wres X y ids w) k) null
        (varK X (sample X (restricted X y k null) ids w) ids k)|), ?_, ?_⟩
  · rw [h4]
    unfold pvalue extreme
    rw [List.length_map, List.countP_eq_length_filter, List.filter_map, List.length_map]
    rfl
  · intro w
    rw [ols_sample X hdet, ht]
    simp only [Ext.abs, Ext.le, decide_eq_true_eq]
    unfold tStar
    by_cases hv : 0 < varK X (sample X (restricted X y k null) ids w) ids k
    · have hs := Real.sqrt_pos.2 hv
      rw [if_pos hs, abs_div, abs_of_pos hs, le_div_iff₀ hs]
      constructor
      · intro h; exact Or.inl ⟨hv, h⟩
      · rintro (h | h)
        · exact h.2
        · exact absurd hv (not_lt.2 h.1)
    · have hs : ¬ 0 < Real.sqrt (varK X (sample X (restricted X y k null) ids w) ids k) := by rwa [Real.sqrt_pos]
      rw [if_neg hs, abs_zero, abs_nonpos_iff]
      constructor
      · intro h; exact Or.inr ⟨not_lt.1 hv, h⟩
      · rintro (h | h)
        · exact absurd h.1 hv
        · exact h.2

theorem ols_sum (X : Matrix ι κ ℝ) (l : List (ι → ℝ)) (k : κ) : (l.map (fun u => ols X u k)).sum = ols X l.sum k := by
  induction l with
  | nil => simp [ols]
  | cons a l ih => rw [List.map_cons, List.sum_cons, ih, List.sum_cons, ols_add]; rfl

theorem wres_sum (X : Matrix ι κ ℝ) (y : ι → ℝ) (ids : ι → C) (draws : List (C → ℝ)) (h : Balanced draws) :
    (draws.map (wres X y ids)).sum = 0 := by
  funext i
  have h1 : ∀ l : List (ι → ℝ), l.sum i = (l.map (fun u => u i)).sum := by
    intro l
    induction l with
    | nil => rfl
    | cons a l ih => simp [ih]
  rw [h1, List.map_map]
  have : ((fun u : ι → ℝ => u i) ∘ wres X y ids) = fun w => resid X y i * w (ids i) := by
    funext w; rfl
  rw [this, List.sum_map_mul_left, h (ids i), mul_zero]
  rfl

/-- False of the code: bootstrap samples are generated with coefficient `estimate - null` instead of `null`. Averaged over
balanced weights the bootstrap coefficient is `estimate - null`, so the numerator of the bootstrap t statistic is centred at
`estimate - 2 null`; for the default null of zero it is centred at the estimate itself. -/
theorem C60_refuted (wt : String) (X : Matrix ι κ ℝ) (y : ι → ℝ) (ids : ι → C) (k : κ) (null alpha : ℝ)
    (draws : List (C → ℝ)) (hb : Balanced draws) (r : Result) (h : wild wt X y ids k null alpha draws = .ok r) :
    r.coefs.sum / (draws.length : ℝ) = ols X y k - null ∧
      (r.coefs.map (fun b => b - null)).sum / (draws.length : ℝ) = ols X y k - 2 * null ∧
      (null = 0 → ols X y k ≠ 0 → (r.coefs.map (fun b => b - null)).sum ≠ 0) := by
  obtain ⟨-, -, h3, -, -, h4, -⟩ := wild_ok h
  have hpos : (0 : ℝ) < draws.length := by exact_mod_cast List.length_pos_iff.2 h3
  have hs : r.coefs.sum = (draws.length : ℝ) * (ols X y k - null) := by
    rw [h4, List.sum_map_add]
    have : (draws.map (fun w => ols X (wres X y ids w) k)).sum = 0 := by
      have := ols_sum X (draws.map (wres X y ids)) k
      rw [List.map_map, wres_sum X y ids draws hb] at this
      simpa [Function.comp_def, ols] using this
    rw [this]
    simp
  have hs2 : (r.coefs.map (fun b => b - null)).sum = (draws.length : ℝ) * (ols X y k - 2 * null) := by
    have hl : r.coefs.length = draws.length := by rw [h4, List.length_map]
    have : ∀ l : List ℝ, (l.map (fun b => b - null)).sum = l.sum - (l.length : ℝ) * null := by
      intro l
      induction l with
      | nil => simp
      | cons a l ih => rw [List.map_cons, List.sum_cons, ih, List.sum_cons, List.length_cons]; push_cast; ring
    rw [this, hs, hl]
    ring
  refine ⟨?_, ?_, ?_⟩
  · rw [hs]; field_simp
  · rw [hs2]; field_simp
  · rintro rfl hne
    rw [hs2]
    simp only [mul_zero, sub_zero]
    positivity

/-- For comparison, samples from a fit that does impose the null are centred at the null for every data set. -/
theorem C60_textbook (X : Matrix ι κ ℝ) (hdet : (Xᵀ * X).det ≠ 0) (y : ι → ℝ) (ids : ι → C) (k : κ) (null : ℝ)
    (b : κ → ℝ) (hr : IsRestricted X y k null b) (draws : List (C → ℝ)) (hb : Balanced draws) (hd : draws ≠ []) :
    (draws.map (fun w => ols X (textbookSample X y b ids w) k)).sum / (draws.length : ℝ) = null := by
  have hpos : (0 : ℝ) < draws.length := by exact_mod_cast List.length_pos_iff.2 hd
  have h1 : ∀ w : C → ℝ, textbookSample X y b ids w = X *ᵥ b + fun i => (y i - (X *ᵥ b) i) * w (ids i) := fun w => rfl
  simp only [h1, ols_add, ols_mulVec X hdet, Pi.add_apply, hr.1]
  rw [List.sum_map_add]
  have h2 : (draws.map (fun w => ols X (fun i => (y i - (X *ᵥ b) i) * w (ids i)) k)).sum = 0 := by
    have := ols_sum X (draws.map (fun w => fun i => (y i - (X *ᵥ b) i) * w (ids i))) k
    rw [List.map_map] at this
    have hz : (draws.map (fun (w : C → ℝ) (i : ι) => (y i - (X *ᵥ b) i) * w (ids i))).sum = 0 := by
      funext i
      have h1 : ∀ l : List (ι → ℝ), l.sum i = (l.map (fun u => u i)).sum := by
        intro l
        induction l with
        | nil => rfl
        | cons a l ih => simp [ih]
      rw [h1, List.map_map]
      have : ((fun u : ι → ℝ => u i) ∘ fun (w : C → ℝ) (i : ι) => (y i - (X *ᵥ b) i) * w (ids i)) =
          fun w => (y i - (X *ᵥ b) i) * w (ids i) := by funext w; rfl
      rw [this, List.sum_map_mul_left, hb (ids i), mul_zero]
      rfl
    rw [hz] at this
    simpa [Function.comp_def, ols] using this
  rw [h2]
  simp
  field_simp

/-- What does hold: for the default null of zero the bootstrap coefficients are centred at the estimate, so their standard
deviation and percentile interval describe the estimate; the interval lies within the range of the bootstrap coefficients
and is ordered. -/
theorem C60_partial (wt : String) (X : Matrix ι κ ℝ) (y : ι → ℝ) (ids : ι → C) (k : κ) (alpha : ℝ) (h0 : 0 ≤ alpha)
    (h1 : alpha ≤ 1) (draws : List (C → ℝ)) (r : Result) (h : wild wt X y ids k 0 alpha draws = .ok r) :
    (Balanced draws → r.coefs.sum / (draws.length : ℝ) = ols X y k) ∧
    r.se2 = BootStats.var1 r.coefs ∧ r.ci.1 ≤ r.ci.2 ∧
    (∀ w ∈ draws, (∀ g, w g = 1) → ols X y k ∈ r.coefs) := by
  obtain ⟨-, -, h3, hdet, -, h4, -, -, h5, h6, -⟩ := wild_ok h
  refine ⟨fun hb => ?_, h5, ?_, ?_⟩
  · have := (C60_refuted wt X y ids k 0 alpha draws hb r h).1
    simpa using this
  · rw [h6]
    refine BootStats.C27_interval_ordered r.coefs ?_ alpha h0 h1
    rw [h4]; simpa using h3
  · intro w hw hone
    rw [h4, List.mem_map]
    refine ⟨w, hw, ?_⟩
    have : wres X y ids w = resid X y := by funext i; simp [wres, hone]
    rw [this, ols_resid X hdet]
    simp

/-! ### Consequence for power -/

theorem neg_resid_cov (X : Matrix ι κ ℝ) (y : ι → ℝ) (u : ι → ℝ) (ids : ι → Option C) :
    Vcov.vcovNumpy X (-u) (some ids) = Vcov.vcovNumpy X u (some ids) := by
  have : Vcov.numpyMeat X (-u) ids = Vcov.numpyMeat X u ids := by
    funext a b
    unfold Vcov.numpyMeat
    refine Finset.sum_congr rfl fun g _ => ?_
    have : ∀ a, Vcov.score X (-u) ids g a = -Vcov.score X u ids g a := by
      intro a; unfold Vcov.score; simp
    rw [this, this]; ring
  simp only [Vcov.vcovNumpy, this]

theorem varK_neg (X : Matrix ι κ ℝ) (h : (Xᵀ * X).det ≠ 0) (y : ι → ℝ) (ids : ι → C) (k : κ) (null : ℝ) (w : C → ℝ) :
    varK X (sample X (restricted X y k null) ids (-w)) ids k = varK X (sample X (restricted X y k null) ids w) ids k := by
  unfold varK cov
  rw [resid_sample X h, resid_sample X h, wres_neg, resid_neg, neg_resid_cov X y]

/-- Entries of `X (X'X)^-1 e_k`: the weights with which outcomes enter coefficient `k`. -/
noncomputable def lever (X : Matrix ι κ ℝ) (k : κ) : ι → ℝ := X *ᵥ ((Xᵀ * X)⁻¹ *ᵥ Pi.single k 1)

/-- Variance of coefficient `k` with singleton clusters, as a weighted sum of squared residuals. -/
theorem varK_singletons {X : Matrix ι κ ℝ} {z : ι → ℝ} {ids : ι → C} (hinj : Function.Injective ids) {V : Matrix κ κ ℝ}
    (hV : cov X z ids = .ok V) (k : κ) :
    varK X z ids k = ((Fintype.card ι : ℝ) / ((Fintype.card ι : ℝ) - (Fintype.card κ : ℝ))) *
      ∑ i, (lever X k i * resid X z i) ^ 2 := by
  have h2 : 2 ≤ Fintype.card ι := by
    unfold cov Vcov.vcovNumpy at hV
    simp only at hV
    split_ifs at hV with h1
    have hi : Function.Injective (fun i => some (ids i)) := fun a b h => hinj (Option.some.inj h)
    unfold Vcov.nClusters at h1
    rw [Finset.card_image_of_injective _ hi, Finset.card_univ] at h1
    omega
  unfold varK
  rw [hV]
  unfold cov at hV
  rw [Vcov.C14_singleton_clusters X _ ids hinj h2] at hV
  unfold Vcov.vcovNumpy at hV
  simp only at hV
  split_ifs at hV
  injection hV with hV
  subst hV
  simp only
  have hq := Vcov.quad_sandwich ((Fintype.card ι : ℝ) / ((Fintype.card ι : ℝ) - (Fintype.card κ : ℝ))) (Xᵀ * X)
    (Vcov.hc1Meat X (resid X z)) (Vcov.gram_inv_symm X) (Pi.single k 1)
  have hk : ∀ M : Matrix κ κ ℝ, Vcov.quad M (Pi.single k 1) = M k k := by
    intro M
    rw [Vcov.quad_eq]
    simp
  rw [hk] at hq
  rw [hq, Vcov.quad_hc1]
  rfl

section saturated
variable {D : Type*} [DecidableEq D] [Fintype D]

theorem lever_cell {X : Matrix ι κ ℝ} {cell : ι → D} (hs : Saturated X cell) (b : κ → ℝ) {i j : ι} (h : cell i = cell j) :
    (X *ᵥ b) i = (X *ᵥ b) j := by
  simp only [mulVec, hs.1 i j h]

/-- Residuals of a saturated design sum to zero in every cell. -/
theorem resid_cell {X : Matrix ι κ ℝ} {cell : ι → D} (hs : Saturated X cell) (hdet : (Xᵀ * X).det ≠ 0) (z : ι → ℝ) (c : D) :
    ∑ i ∈ Finset.univ.filter (fun i => cell i = c), resid X z i = 0 := by
  obtain ⟨b, hb⟩ := hs.2 c
  have h1 : resid X z ⬝ᵥ (X *ᵥ b) = 0 := by
    rw [dotProduct_mulVec, ← mulVec_transpose, normal_eq X hdet, zero_dotProduct]
  rw [Finset.sum_filter]
  refine Eq.trans (Finset.sum_congr rfl fun i _ => ?_) h1
  rw [hb i]
  split_ifs <;> simp

/-- In a saturated design the residuals of `z` have, in every cell, no more squares than `z`. -/
theorem resid_sq_le {X : Matrix ι κ ℝ} {cell : ι → D} (hs : Saturated X cell) (hdet : (Xᵀ * X).det ≠ 0) (z : ι → ℝ)
    (a : ι → ℝ) (ha : ∀ i j, cell i = cell j → a i = a j) :
    ∑ i, (a i * resid X z i) ^ 2 ≤ ∑ i, (a i * z i) ^ 2 := by
  rw [← Finset.sum_fiberwise Finset.univ cell, ← Finset.sum_fiberwise Finset.univ cell (fun i => (a i * z i) ^ 2)]
  refine Finset.sum_le_sum fun c _ => ?_
  have hz : ∀ i, z i = resid X z i + (X *ᵥ ols X z) i := by intro i; unfold resid; ring
  rcases (Finset.univ.filter (fun i => cell i = c)).eq_empty_or_nonempty with he | ⟨i0, hi0⟩
  · rw [he]; simp
  · have h0 : cell i0 = c := (Finset.mem_filter.1 hi0).2
    have key : ∀ i ∈ Finset.univ.filter (fun i => cell i = c), (a i * z i) ^ 2 =
        (a i * resid X z i) ^ 2 + 2 * (a i0) ^ 2 * (X *ᵥ ols X z) i0 * resid X z i + (a i0 * (X *ᵥ ols X z) i0) ^ 2 := by
      intro i hi
      have hi' : cell i = cell i0 := by rw [(Finset.mem_filter.1 hi).2, h0]
      have hzi := hz i
      rw [lever_cell hs _ hi'] at hzi
      rw [ha i i0 hi', hzi]
      generalize resid X z i = u
      ring
    rw [Finset.sum_congr rfl key, Finset.sum_add_distrib, Finset.sum_add_distrib, ← Finset.mul_sum, resid_cell hs hdet]
    have : 0 ≤ ∑ i ∈ Finset.univ.filter (fun i => cell i = c), (a i0 * (X *ᵥ ols X z) i0) ^ 2 :=
      Finset.sum_nonneg fun _ _ => sq_nonneg _
    linarith

/-- For a saturated design with singleton clusters and sign weights, no bootstrap sample has a larger variance than the
data. -/
theorem varK_le {X : Matrix ι κ ℝ} {y : ι → ℝ} {ids : ι → C} {cell : ι → D} (hs : Saturated X cell)
    (hinj : Function.Injective ids) {V : Matrix κ κ ℝ} (hV : cov X y ids = .ok V) (hcard : Fintype.card κ < Fintype.card ι)
    (k : κ) (null : ℝ) (w : C → ℝ) (hw : ∀ g, w g = 1 ∨ w g = -1) :
    varK X (sample X (restricted X y k null) ids w) ids k ≤ varK X y ids k := by
  have hdet := cov_det hV
  obtain ⟨W, hW⟩ := cov_defined hV (sample X (restricted X y k null) ids w)
  rw [varK_singletons hinj hV k, varK_singletons hinj hW k]
  have hc : (0 : ℝ) < (Fintype.card ι : ℝ) - (Fintype.card κ : ℝ) := by
    have : (Fintype.card κ : ℝ) < (Fintype.card ι : ℝ) := by exact_mod_cast hcard
    linarith
  refine mul_le_mul_of_nonneg_left ?_ (by positivity)
  rw [resid_sample X hdet]
  refine (resid_sq_le hs hdet (wres X y ids w) (lever X k) (fun i j h => lever_cell hs _ h)).trans (le_of_eq ?_)
  refine Finset.sum_congr rfl fun i _ => ?_
  unfold wres
  rcases hw (ids i) with h | h <;> rw [h] <;> ring

end saturated

theorem countP_pairs {α : Type*} (p q : α → Bool) (neg : α → α) (l : List α) (hperm : (l.map neg).Perm l)
    (h : ∀ a ∈ l, q a = true → p a = true ∨ p (neg a) = true) : l.countP q ≤ 2 * l.countP p := by
  have h1 : l.countP p = l.countP (p ∘ neg) := by rw [← List.countP_map, hperm.countP_eq]
  have h2 : l.countP q ≤ l.countP p + l.countP (p ∘ neg) := by
    clear h1 hperm
    induction l with
    | nil => simp
    | cons a l ih =>
      have := ih fun x hx => h x (List.mem_cons_of_mem _ hx)
      have ha := h a (by simp)
      simp only [List.countP_cons, Function.comp_apply]
      by_cases hq : q a = true
      · rcases ha hq with hp | hp <;> simp only [hq, hp, if_true] <;> split_ifs <;> omega
      · simp only [hq]
        split_ifs <;> first | omega | simp_all
  omega

/-- Consequence for the default null of zero: with one observation per cluster, a saturated design such as the 2x2 design and
sign weights drawn in pairs `w`, `-w` (for example all sign vectors), the p-value is at least half the share of replicates with
a positive standard error, however large the true effect is. A true effect is therefore never detected. -/
theorem C60_no_power_refuted {D : Type*} [DecidableEq D] [Fintype D] (wt : String) (X : Matrix ι κ ℝ) (y : ι → ℝ)
    (ids : ι → C) (hinj : Function.Injective ids) (cell : ι → D) (hs : Saturated X cell)
    (hcard : Fintype.card κ < Fintype.card ι) (k : κ) (alpha : ℝ)
    (draws : List (C → ℝ)) (hw : ∀ w ∈ draws, ∀ g, w g = 1 ∨ w g = -1) (hperm : (draws.map (fun w => -w)).Perm draws)
    (r : Result) (h : wild wt X y ids k 0 alpha draws = .ok r) (hpos : 0 < varK X y ids k) :
    ((draws.filter (fun w => decide (0 < varK X (sample X (restricted X y k 0) ids w) ids k))).length : ℝ) /
      (2 * (draws.length : ℝ)) ≤ r.p := by
  classical
  obtain ⟨-, -, h3, hdet, ⟨V, hV⟩, -, ht, hp, -⟩ := wild_ok h
  have hlen : (0 : ℝ) < draws.length := by exact_mod_cast List.length_pos_iff.2 h3
  have hse : 0 < Real.sqrt (varK X y ids k) := Real.sqrt_pos.2 hpos
  have ht' : r.t = .fin (ols X y k / Real.sqrt (varK X y ids k)) := by
    rw [ht]; simp [tOrig, Ext.div, hse.ne']
  rw [hp]
  refine le_trans ?_ (le_max_left _ _)
  rw [List.length_map]
  set ts : (C → ℝ) → ℝ := fun w => tStar (ols X y k - 0 + ols X (wres X y ids w) k) 0
    (varK X (sample X (restricted X y k 0) ids w) ids k) with hts
  have hcount := countP_pairs (fun w => decide (|ols X y k / Real.sqrt (varK X y ids k)| ≤ |ts w|))
    (fun w => decide (0 < varK X (sample X (restricted X y k 0) ids w) ids k)) (fun w => -w) draws hperm (by
      intro w hmem hq
      have hq := of_decide_eq_true hq
      have hq2 : 0 < varK X (sample X (restricted X y k 0) ids (-w)) ids k := by rw [varK_neg X hdet]; exact hq
      have hle := varK_le hs hinj hV hcard k 0 w (hw w hmem)
      have hs1 : 0 < Real.sqrt (varK X (sample X (restricted X y k 0) ids w) ids k) := Real.sqrt_pos.2 hq
      have hs2 := Real.sqrt_le_sqrt hle
      have e1 : ts w = (ols X y k + ols X (wres X y ids w) k) /
          Real.sqrt (varK X (sample X (restricted X y k 0) ids w) ids k) := by
        simp only [hts, tStar, if_pos hs1, sub_zero]
      have e2 : ts (-w) = (ols X y k - ols X (wres X y ids w) k) /
          Real.sqrt (varK X (sample X (restricted X y k 0) ids w) ids k) := by
        simp only [hts, varK_neg X hdet, tStar, if_pos hs1, sub_zero, wres_neg, ols_neg, Pi.neg_apply]
        ring
      have hbig : |ols X y k| ≤ |ols X y k + ols X (wres X y ids w) k| ∨
          |ols X y k| ≤ |ols X y k - ols X (wres X y ids w) k| := by
        by_contra hc
        push Not at hc
        have := abs_add_le (ols X y k + ols X (wres X y ids w) k) (ols X y k - ols X (wres X y ids w) k)
        have e : (ols X y k + ols X (wres X y ids w) k) + (ols X y k - ols X (wres X y ids w) k) = 2 * ols X y k := by ring
        rw [e, abs_mul, abs_two] at this
        linarith [hc.1, hc.2]
      have hdiv : ∀ b : ℝ, |ols X y k| ≤ |b| → |ols X y k / Real.sqrt (varK X y ids k)| ≤
          |b / Real.sqrt (varK X (sample X (restricted X y k 0) ids w) ids k)| := by
        intro b hb
        rw [abs_div, abs_div, abs_of_pos hse, abs_of_pos hs1]
        exact div_le_div₀ (abs_nonneg _) hb hs1 hs2
      rcases hbig with hb | hb
      · left; rw [e1]; exact decide_eq_true (hdiv _ hb)
      · right; rw [e2]; exact decide_eq_true (hdiv _ hb))
  have hext : extreme r.t (draws.map ts) =
      draws.countP (fun w => decide (|ols X y k / Real.sqrt (varK X y ids k)| ≤ |ts w|)) := by
    unfold extreme
    rw [ht', ← List.countP_eq_length_filter, List.countP_map]
    refine List.countP_congr fun w _ => ?_
    simp [Ext.abs, Ext.le]
  rw [hext, ← List.countP_eq_length_filter, div_le_div_iff₀ (by positivity) hlen]
  have : ((draws.countP (fun w => decide (0 < varK X (sample X (restricted X y k 0) ids w) ids k)) : ℕ) : ℝ) ≤
      2 * (draws.countP (fun w => decide (|ols X y k / Real.sqrt (varK X y ids k)| ≤ |ts w|)) : ℕ) := by
    exact_mod_cast hcount
  nlinarith

/-- A perfect fit whose coefficient equals the null has an undefined t statistic; comparisons with it are false, so the
p-value reported is the smallest possible. -/
theorem C60_perfect_fit_refuted (wt : String) (X : Matrix ι κ ℝ) (b : κ → ℝ) (ids : ι → C) (k : κ) (alpha : ℝ)
    (draws : List (C → ℝ)) (r : Result) (h : wild wt X (X *ᵥ b) ids k (b k) alpha draws = .ok r) :
    r.t = .nan ∧ r.p = 1 / ((draws.length : ℝ) + 1) := by
  obtain ⟨-, -, h3, hdet, ⟨V, hV⟩, -, ht, hp, -⟩ := wild_ok h
  have hr : resid X (X *ᵥ b) = 0 := by
    funext i; unfold resid; rw [ols_mulVec X hdet]; simp
  have hv : varK X (X *ᵥ b) ids k = 0 := by
    unfold varK
    rw [hV]
    unfold cov Vcov.vcovNumpy at hV
    simp only at hV
    split_ifs at hV
    injection hV with hV
    subst hV
    have hm : Vcov.numpyMeat X (resid X (X *ᵥ b)) (fun i => some (ids i)) = 0 := by
      rw [hr]
      funext a c
      unfold Vcov.numpyMeat
      refine Finset.sum_eq_zero fun g _ => ?_
      simp [Vcov.score]
    simp only [hm, Vcov.sandwichNumpy]
    simp
  have htn : r.t = .nan := by
    rw [ht, hv, ols_mulVec X hdet]
    simp [tOrig, Ext.div, Ext.infOf, Ext.sgn]
  refine ⟨htn, ?_⟩
  rw [hp, htn]
  unfold pvalue extreme
  rw [List.length_map]
  have : ∀ l : List ℝ, l.filter (fun s => Ext.le (Ext.abs (Ext.nan : Ext ℝ)) (.fin |s|)) = [] := by
    intro l; simp [Ext.abs, Ext.le]
  rw [this]
  simp
  positivity

/-- Few clusters and unknown weight types are rejected, and nothing else is for a full-rank design with more rows than
columns and at least one draw. -/
theorem C60_defined (wt : String) (X : Matrix ι κ ℝ) (y : ι → ℝ) (ids : ι → C) (k : κ) (null alpha : ℝ)
    (draws : List (C → ℝ)) (hdet : (Xᵀ * X).det ≠ 0) (hcard : Fintype.card ι ≠ Fintype.card κ) (hd : draws ≠ []) :
    (∃ r, wild wt X y ids k null alpha draws = .ok r) ↔
      (wt = "rademacher" ∨ wt = "webb" ∨ wt = "mammen") ∧ 2 ≤ Vcov.nClusters ids := by
  constructor
  · rintro ⟨r, h⟩
    exact ⟨(wild_ok h).1, (wild_ok h).2.1⟩
  · rintro ⟨h1, h2⟩
    have hn : Vcov.nClusters (fun i => some (ids i)) = Vcov.nClusters ids := by
      unfold Vcov.nClusters
      have : Finset.univ.image (fun i => some (ids i)) = (Finset.univ.image ids).image some := by
        rw [Finset.image_image]; rfl
      rw [this, Finset.card_image_of_injective _ (Option.some_injective C)]
    obtain ⟨V, hV⟩ : ∃ V, cov X y ids = .ok V := by
      unfold cov Vcov.vcovNumpy
      simp only [hn]
      rw [if_neg (by omega), if_neg hcard, if_neg hdet]
      exact ⟨_, rfl⟩
    unfold wild
    rw [if_neg (by rcases h1 with h | h | h <;> simp [h]), if_neg (by omega), hV]
    simp only
    rw [mapM_def (g := fun w => (ols X (sample X (restricted X y k null) ids w) k,
      tStar (ols X (sample X (restricted X y k null) ids w) k) null
        (varK X (sample X (restricted X y k null) ids w) ids k))) (fun w _ => replicate_eq hV k null w)]
    simp only
    rw [if_neg (by simpa using hd)]
    exact ⟨_, rfl⟩

/-- The 2x2 design (constant, treated, post, interaction) is saturated, so `C60_no_power_refuted` applies to it. -/
theorem C60_did_saturated (d t : ι → Bool) :
    Saturated (Matrix.of fun i => ![(1 : ℝ), if d i then 1 else 0, if t i then 1 else 0, (if d i then 1 else 0) * (if t i then 1 else 0)])
      (fun i => (d i, t i)) := by
  constructor
  · intro i j h
    have h1 : d i = d j := congrArg Prod.fst h
    have h2 : t i = t j := congrArg Prod.snd h
    funext c
    simp [h1, h2]
  · rintro ⟨a, b⟩
    refine ⟨![(if a then 0 else 1) * (if b then 0 else 1), (if a then 1 else -1) * (if b then 0 else 1),
      (if a then 0 else 1) * (if b then 1 else -1), (if a then 1 else -1) * (if b then 1 else -1)], fun i => ?_⟩
    cases a <;> cases b <;> cases hd : d i <;> cases ht : t i <;>
      simp [mulVec, dotProduct, Fin.sum_univ_four, hd, ht]

/-! ### A concrete case -/

section example_
/-- Three observations, a constant as only regressor. -/
def exX : Matrix (Fin 3) (Fin 1) ℝ := Matrix.of fun _ _ => 1
def exY : Fin 3 → ℝ := ![100, 101, 103]
def exW : List (Fin 3 → ℝ) := [![1, -1, 1], ![-1, 1, -1]]

theorem exX_gram : exXᵀ * exX = Matrix.of fun _ _ => 3 := by
  ext i j; simp [exX, Matrix.mul_apply]

theorem exX_det : (exXᵀ * exX).det ≠ 0 := by rw [exX_gram]; simp

theorem exX_inv : (exXᵀ * exX)⁻¹ = Matrix.of fun _ _ => 1 / 3 := by
  refine Matrix.inv_eq_left_inv ?_
  rw [exX_gram]
  ext i j
  have : i = j := Subsingleton.elim _ _
  subst this
  simp [Matrix.mul_apply]

theorem exX_ols (y : Fin 3 → ℝ) : ols exX y = fun _ => (y 0 + y 1 + y 2) / 3 := by
  unfold ols
  rw [exX_inv]
  funext c
  simp [mulVec, dotProduct, exX, Fin.sum_univ_three]
  ring

theorem ex_lever : lever exX 0 = fun _ => 1 / 3 := by
  unfold lever
  rw [exX_inv]
  funext i
  simp [mulVec, dotProduct, exX]

theorem ex_varK (z : Fin 3 → ℝ) : varK exX z (id : Fin 3 → Fin 3) 0 =
    3 / 2 * ∑ i, (1 / 3 * (z i - (z 0 + z 1 + z 2) / 3)) ^ 2 := by
  have : ∃ V, cov exX z (id : Fin 3 → Fin 3) = .ok V := by
    unfold cov Vcov.vcovNumpy
    simp only
    rw [if_neg (by decide), if_neg (by decide), if_neg exX_det]
    exact ⟨_, rfl⟩
  obtain ⟨V, hV⟩ := this
  rw [varK_singletons Function.injective_id hV, ex_lever]
  have : ∀ i, resid exX z i = z i - (z 0 + z 1 + z 2) / 3 := by
    intro i; unfold resid; rw [exX_ols]; simp [mulVec, dotProduct, exX]
  simp only [this]
  norm_num

/-- An estimate of 304/3 with a standard error below 1 gets a p-value of at least 1/2. -/
example : ∃ r, wild "rademacher" exX exY (id : Fin 3 → Fin 3) 0 0 (1 / 20) exW = .ok r ∧ Balanced exW ∧
    ols exX exY 0 = 304 / 3 ∧ varK exX exY (id : Fin 3 → Fin 3) 0 < 1 ∧ 1 / 2 ≤ r.p := by
  obtain ⟨r, hr⟩ := (C60_defined "rademacher" exX exY (id : Fin 3 → Fin 3) 0 0 (1 / 20) exW exX_det (by decide)
    (by simp [exW])).2 ⟨Or.inl rfl, by decide⟩
  have hv : varK exX exY (id : Fin 3 → Fin 3) 0 = 7 / 9 := by
    rw [ex_varK]; simp [exY, Fin.sum_univ_three]; norm_num
  have hsat : Saturated exX (fun _ => ()) := by
    refine ⟨fun _ _ _ => rfl, fun c => ⟨fun _ => 1, fun i => ?_⟩⟩
    simp [exX, mulVec, dotProduct]
  refine ⟨r, hr, ?_, by rw [exX_ols]; simp [exY]; norm_num, by rw [hv]; norm_num, ?_⟩
  · intro g
    fin_cases g <;> simp [exW]
  · have := C60_no_power_refuted "rademacher" exX exY (id : Fin 3 → Fin 3) Function.injective_id (fun _ => ()) hsat
      (by decide) 0 (1 / 20) exW (by
        intro w hw g
        simp only [exW, List.mem_cons, List.not_mem_nil, or_false] at hw
        rcases hw with rfl | rfl <;> fin_cases g <;> simp) (by
        have h1 : (-![1, -1, 1] : Fin 3 → ℝ) = ![-1, 1, -1] := by funext i; fin_cases i <;> simp
        have h2 : (-![-1, 1, -1] : Fin 3 → ℝ) = ![1, -1, 1] := by funext i; fin_cases i <;> simp
        simp only [exW, List.map_cons, List.map_nil, h1, h2]
        exact List.Perm.swap _ _ _) r hr (by rw [hv]; norm_num)
    refine le_trans ?_ this
    have hres : ∀ i, resid exX exY i = exY i - 304 / 3 := by
      intro i; unfold resid; rw [exX_ols]; simp [mulVec, dotProduct, exX, exY]; norm_num
    have hk : ∀ w ∈ exW, 0 < varK exX (sample exX (restricted exX exY 0 0) (id : Fin 3 → Fin 3) w) (id : Fin 3 → Fin 3) 0 := by
      intro w hw
      have hsam : sample exX (restricted exX exY 0 0) (id : Fin 3 → Fin 3) w = fun i => 304 / 3 + (exY i - 304 / 3) * w i := by
        funext i
        unfold sample
        rw [resid_restricted exX exX_det, hres, ols_restricted exX exX_det, exX_ols]
        simp [mulVec, dotProduct, exX, exY]
        norm_num
      rw [hsam, ex_varK]
      simp only [exW, List.mem_cons, List.not_mem_nil, or_false] at hw
      rcases hw with rfl | rfl <;> simp [exY, Fin.sum_univ_three] <;> norm_num
    rw [List.filter_eq_self.2 (fun w hw => decide_eq_true (hk w hw))]
    simp [exW]

/-- A restricted fit exists: fixing the only coefficient at 0. -/
example : IsRestricted exX exY 0 0 (fun _ => 0) := ⟨rfl, fun j hj => absurd (Subsingleton.elim j 0) hj⟩

/-- Perfect fit with the hypothesised coefficient: the call succeeds, so the reported p-value is 1/3 with two draws. -/
example : ∃ r, wild "webb" exX (exX *ᵥ fun _ => 5) (id : Fin 3 → Fin 3) 0 5 (1 / 20) exW = .ok r ∧ r.p = 1 / 3 := by
  obtain ⟨r, hr⟩ := (C60_defined "webb" exX (exX *ᵥ fun _ => 5) (id : Fin 3 → Fin 3) 0 5 (1 / 20) exW exX_det (by decide)
    (by simp [exW])).2 ⟨Or.inr (Or.inl rfl), by decide⟩
  refine ⟨r, hr, ?_⟩
  rw [(C60_perfect_fit_refuted "webb" exX (fun _ => 5) (id : Fin 3 → Fin 3) 0 (1 / 20) exW r hr).2]
  simp [exW]
  norm_num

end example_

end DiffDiff.WildBoot
