/-
Properties of TwoWayFixedEffects.fit with the wild bootstrap (WildTwfe.lean): C152.
-/
import Verif.WildTwfe
import Verif.WildLinMore
import Verif.TwfeFitRank

set_option linter.unusedSectionVars false
set_option linter.unusedVariables false

namespace DiffDiff.WildTwfe
open Matrix
open TwfeFit (Lib Works Data design outcome adjustment treatedUnits nUnique design_sum)
open WildLin (Report wild override clusterVar coefOf tOf tOrigOf bootOf)
open Within (within Balanced)
open WildBoot (ols resid lever)
open RowOrder (movedData)

variable {ι ι' U T C C' G G' : Type*} [Fintype ι] [DecidableEq ι] [Fintype ι'] [DecidableEq ι'] [DecidableEq U] [DecidableEq T] [DecidableEq C] [DecidableEq C']
  [DecidableEq G] [DecidableEq G']

/-! ### Specification -/

/-- A combination of constant, treatment times period (coefficient `e`) and demeaned covariates. -/
def Span {c : ℕ} (D : Data ι U T C ℝ c) (e : ℝ) (f : ι → ℝ) : Prop :=
  ∃ (a : ℝ) (γ : Fin c → ℝ), ∀ i, f i = a + e * (D.treat i * D.num (D.time i)) + ∑ j, γ j * within D.unit D.time (D.cov j) i

/-- Orthogonal to constant and demeaned covariates; the product with treatment times period is `e`. -/
structure Perp {c : ℕ} (D : Data ι U T C ℝ c) (r : ι → ℝ) (e : ℝ) : Prop where
  const : ∑ i, r i = 0
  post : ∑ i, D.treat i * D.num (D.time i) * r i = e
  cov : ∀ j, ∑ i, within D.unit D.time (D.cov j) i * r i = 0

/-- No regressor is a combination of the others. -/
def Indep {c : ℕ} (D : Data ι U T C ℝ c) : Prop :=
  ∀ (a b : ℝ) (γ : Fin c → ℝ), (∀ i, a + b * (D.treat i * D.num (D.time i)) + ∑ j, γ j * within D.unit D.time (D.cov j) i = 0) → a = 0 ∧ b = 0 ∧ ∀ j, γ j = 0

theorem span_iff {c : ℕ} {D : Data ι U T C ℝ c} {e : ℝ} {f : ι → ℝ} : Span D e f ↔ ∃ v : Fin (c + 2) → ℝ, v 1 = e ∧ ∀ i, f i = ∑ m, design D i m * v m := by
  constructor
  · rintro ⟨a, γ, h⟩
    refine ⟨Fin.cons a (Fin.cons e γ), rfl, fun i => ?_⟩
    rw [design_sum, h i]
    show _ = a + _ * e + _
    rw [mul_comm e]
    rfl
  · rintro ⟨v, rfl, h⟩
    refine ⟨v 0, fun j => v j.succ.succ, fun i => ?_⟩
    rw [h i, design_sum, mul_comm (v 1)]

theorem perp_iff {c : ℕ} {D : Data ι U T C ℝ c} {r : ι → ℝ} {e : ℝ} : Perp D r e ↔ ∀ m, ∑ i, design D i m * r i = if m = 1 then e else 0 := by
  constructor
  · intro h m
    refine Fin.cases ?_ (fun m => Fin.cases ?_ (fun j => ?_) m) m
    · rw [if_neg (by simp)]
      simpa [design] using h.const
    · rw [if_pos (by rfl)]
      simpa [design, TwfeFit.post] using h.post
    · rw [if_neg (by simp [Fin.ext_iff])]
      simpa [design] using h.cov j
  · intro h
    refine ⟨?_, ?_, fun j => ?_⟩
    · have := h 0
      rw [if_neg (by simp)] at this
      simpa [design] using this
    · have := h 1
      rw [if_pos rfl] at this
      exact this
    · have := h j.succ.succ
      rw [if_neg (by simp [Fin.ext_iff])] at this
      simpa [design] using this

theorem indep_iff {c : ℕ} {D : Data ι U T C ℝ c} : Indep D ↔ ((design D)ᵀ * design D).det ≠ 0 := by
  constructor
  · intro h
    refine DidFit.det_of_injective _ fun v hv => ?_
    obtain ⟨h0, h1, h2⟩ := h (v 0) (v 1) (fun j => v j.succ.succ) fun i => by
      have := hv i
      rw [design_sum, mul_comm _ (v 1)] at this
      exact this
    funext m
    refine Fin.cases h0 (fun m => Fin.cases h1 h2 m) m
  · intro hX a b γ h
    have hz : ((design D)ᵀ * design D) *ᵥ (Fin.cons a (Fin.cons b γ) : Fin (c + 2) → ℝ) = 0 := by
      rw [← mulVec_mulVec]
      have : design D *ᵥ (Fin.cons a (Fin.cons b γ) : Fin (c + 2) → ℝ) = 0 := by
        funext i
        show ∑ m, design D i m * _ = 0
        rw [design_sum, mul_comm _ ((Fin.cons a (Fin.cons b γ) : Fin (c + 2) → ℝ) 1)]
        exact h i
      rw [this, mulVec_zero]
    have hv := eq_zero_of_mulVec_eq_zero hX hz
    exact ⟨congrFun hv 0, congrFun hv 1, fun j => congrFun hv j.succ.succ⟩

theorem isolates_iff {c : ℕ} {D : Data ι U T C ℝ c} {w : ι → ℝ} : (∃ v, DidFit.Isolates (design D) 1 v w) ↔ (∃ e, Span D e w) ∧ Perp D w 1 := by
  constructor
  · rintro ⟨v, H⟩
    exact ⟨⟨_, span_iff.2 ⟨v, rfl, H.comb⟩⟩, perp_iff.2 H.unit⟩
  · rintro ⟨⟨e, h⟩, h2⟩
    obtain ⟨v, -, hv⟩ := span_iff.1 h
    exact ⟨v, hv, perp_iff.1 h2⟩

/-! ### Least squares of a full-rank design -/

section Ls
variable {k : ℕ} {X : Matrix ι (Fin k) ℝ}

theorem isolates_lever (hX : (Xᵀ * X).det ≠ 0) (j : Fin k) : DidFit.Isolates X j ((Xᵀ * X)⁻¹ *ᵥ Pi.single j 1) (lever X j) := by
  refine ⟨fun i => rfl, fun m => ?_⟩
  have : Xᵀ *ᵥ lever X j = Pi.single j 1 := by
    unfold WildBoot.lever
    rw [mulVec_mulVec, mulVec_mulVec, mul_nonsing_inv _ (isUnit_iff_ne_zero.2 hX), one_mulVec]
  have h := congrFun this m
  simp only [mulVec, dotProduct, transpose_apply] at h
  rw [h, Pi.single_apply]

theorem ols_shift (hX : (Xᵀ * X).det ≠ 0) (y : ι → ℝ) (β : Fin k → ℝ) : ols X (fun i => y i + (X *ᵥ β) i) = ols X y + β := by
  unfold WildBoot.ols
  rw [show (fun i => y i + (X *ᵥ β) i) = y + X *ᵥ β from rfl, mulVec_add, mulVec_add, mulVec_mulVec β Xᵀ X,
    mulVec_mulVec β _ (Xᵀ * X), nonsing_inv_mul _ (isUnit_iff_ne_zero.2 hX), one_mulVec]

theorem resid_shift (hX : (Xᵀ * X).det ≠ 0) (y : ι → ℝ) (β : Fin k → ℝ) : resid X (fun i => y i + (X *ᵥ β) i) = resid X y := by
  unfold WildBoot.resid
  rw [ols_shift hX, mulVec_add]
  funext i
  simp only [Pi.add_apply]
  ring

theorem ols_scale (c : ℝ) (y : ι → ℝ) : ols X (fun i => c * y i) = fun j => c * ols X y j := by
  unfold WildBoot.ols
  rw [show (fun i => c * y i) = c • y from rfl, mulVec_smul, mulVec_smul]
  rfl

theorem resid_scale (c : ℝ) (y : ι → ℝ) : resid X (fun i => c * y i) = fun i => c * resid X y i := by
  unfold WildBoot.resid
  rw [ols_scale, show (fun j => c * ols X y j) = c • ols X y from rfl, mulVec_smul]
  funext i
  show c * y i - c * _ = _
  ring

theorem gram_comp (e : ι' ≃ ι) : (X.submatrix e id)ᵀ * X.submatrix e id = Xᵀ * X := by
  ext a b
  simp only [mul_apply, transpose_apply, submatrix_apply, id]
  exact Equiv.sum_comp e (fun i => X i a * X i b)

theorem ols_comp (e : ι' ≃ ι) (y : ι → ℝ) : ols (X.submatrix e id) (fun i => y (e i)) = ols X y := by
  unfold WildBoot.ols
  rw [gram_comp]
  congr 1
  funext a
  simp only [mulVec, dotProduct, transpose_apply, submatrix_apply, id]
  exact Equiv.sum_comp e (fun i => X i a * y i)

theorem resid_comp (e : ι' ≃ ι) (y : ι → ℝ) : resid (X.submatrix e id) (fun i => y (e i)) = fun i => resid X y (e i) := by
  unfold WildBoot.resid
  rw [ols_comp]
  rfl

theorem lever_comp (e : ι' ≃ ι) (j : Fin k) : lever (X.submatrix e id) j = fun i => lever X j (e i) := by
  unfold WildBoot.lever
  rw [gram_comp]
  rfl

end Ls

/-- The bootstrap of a full-rank design, in closed form. -/
noncomputable def boot {k : ℕ} (X : Matrix ι (Fin k) ℝ) (y : ι → ℝ) (g : ι → G) (j : Fin k) (alpha : ℝ) (draws : List (G → ℝ)) : WildBoot.Result :=
  bootOf k g (lever X j) (resid X y) (ols X y j) (fun s => resid X (fun i => resid X y i * s (g i))) alpha draws

/-- The report, in closed form. -/
noncomputable def closed {c : ℕ} (D : Data ι U T C ℝ c) (g : ι → G) (alpha : ℝ) (draws : List (G → ℝ)) : Report :=
  override
    { att := .fin (ols (design D) (outcome D) 1), se := .nan, t := .nan, p := .nan, ci := (.nan, .nan), nObs := Fintype.card ι, nTreated := (treatedUnits D).card
      nControl := nUnique D.unit - (treatedUnits D).card, r2 := Vcov.rSquared (outcome D) (resid (design D) (outcome D)) false 0 }
    (boot (design D) (outcome D) g 1 alpha draws)

theorem rsq_p (y u : ι → ℝ) (p q : ℕ) : Vcov.rSquared y u false p = Vcov.rSquared y u false q := by
  unfold Vcov.rSquared; simp

/-- The first regression with independent columns. -/
theorem first {c : ℕ} {L : Lib ι ℝ} (hL : Works L) {strict : Bool} {D : Data ι U T C ℝ c} (hX : ((design D)ᵀ * design D).det ≠ 0) (hn : c + 2 < Fintype.card ι) :
    ∃ f, LinReg.fit L.solvers (⟨true, none, none, strict⟩ : LinReg.Opts ι C) (L.redundant (design D)) (design D) (outcome D) (adjustment D) = .ok f ∧
      f.coef 1 = some (ols (design D) (outcome D) 1) ∧ f.resid = resid (design D) (outcome D) := by
  unfold LinReg.fit
  rw [if_neg (by omega), hL.keeps _ hX]
  simp only [LinReg.vcov, LinReg.Opts.ids, Bool.true_or, if_true, WildLin.lstsq_eq hL hX, WildLin.resid_eq]
  cases hv : Vcov.vcovNumpy (design D) (resid (design D) (outcome D)) (none : Option (ι → Option C)) with
  | error e =>
    exfalso
    unfold Vcov.vcovNumpy at hv
    simp only [Fintype.card_fin] at hv
    rw [if_neg (by omega), if_neg hX] at hv
    cases hv
  | ok V => exact ⟨_, rfl, rfl, rfl⟩

theorem fit_ok {c : ℕ} {L : Lib ι ℝ} {strict : Bool} {alpha : ℝ} {wt : String} {draws : List (U ⊕ C → ℝ)} {D : Data ι U T C ℝ c} {ids : Option (ι → C)} {R : Report}
    (h : fit L strict alpha wt draws D ids = .ok R) : ∃ B, wild L wt (design D) (outcome D) (labels D ids) 1 0 alpha draws = .ok B := by
  unfold fit at h
  split at h
  · cases h
  · split at h
    · cases h
    · split at h
      · cases h
      · rename_i B hB
        exact ⟨B, hB⟩

/-- A call returns the closed form, and only under these conditions. -/
theorem fit_iff {c : ℕ} {L : Lib ι ℝ} (hL : Works L) (hP : LinReg.Prunes L) {strict : Bool} {alpha : ℝ} {wt : String} {draws : List (U ⊕ C → ℝ)} {D : Data ι U T C ℝ c}
    {ids : Option (ι → C)} {R : Report} : fit L strict alpha wt draws D ids = .ok R ↔ ((design D)ᵀ * design D).det ≠ 0 ∧ c + 2 < Fintype.card ι ∧
      (wt = "rademacher" ∨ wt = "webb" ∨ wt = "mammen") ∧ 2 ≤ (Finset.univ.image (labels D ids)).card ∧ draws ≠ [] ∧ R = closed D (labels D ids) alpha draws := by
  have key : ∀ B, ((design D)ᵀ * design D).det ≠ 0 → c + 2 < Fintype.card ι → wild L wt (design D) (outcome D) (labels D ids) 1 0 alpha draws = .ok B →
      fit L strict alpha wt draws D ids = .ok (closed D (labels D ids) alpha draws) := by
    intro B hX hn hB
    obtain ⟨f, h1, h2, h3⟩ := first (strict := strict) hL hX hn
    have hc := WildLin.wild_closed (isolates_lever hX 1) ((WildLin.wild_ok_iff hL hX).1 hB)
    rw [← WildLin.ols_weights hX (isolates_lever hX 1)] at hc
    unfold fit
    rw [h1]
    simp only [h2, hB]
    unfold closed boot
    rw [← hc]
    unfold LinReg.rsq
    rw [h3, rsq_p _ _ _ 0]
  constructor
  · intro h
    obtain ⟨B, hB⟩ := fit_ok h
    have hne : Nonempty ι := by
      by_contra hempty
      rw [not_nonempty_iff] at hempty
      unfold wild at hB
      by_cases h1 : wt ∉ ["rademacher", "webb", "mammen"]
      · rw [if_pos h1] at hB; cases hB
      · rw [if_neg h1, if_pos (by unfold Vcov.nClusters; simp)] at hB
        cases hB
    have hX := WildLin.wild_det hP hB
    obtain ⟨b1, b2, b3, -, ⟨V, hV⟩, -⟩ := WildBoot.wild_ok ((WildLin.wild_ok_iff hL hX).1 hB)
    have hn : c + 2 < Fintype.card ι := by
      refine lt_of_le_of_ne (WildLin.card_le hX) fun hne => ?_
      unfold WildBoot.cov Vcov.vcovNumpy at hV
      simp only [WildLin.nClusters_some, Fintype.card_fin] at hV
      rw [if_neg (show ¬ (Finset.univ.image (labels D ids)).card < 2 from not_lt.2 b2), if_pos hne.symm] at hV
      cases hV
    rw [key B hX hn hB] at h
    cases h
    exact ⟨hX, hn, b1, b2, b3, rfl⟩
  · rintro ⟨hX, hn, h5, h6, h7, rfl⟩
    obtain ⟨B, hB⟩ := (WildBoot.C60_defined wt _ (outcome D) (labels D ids) 1 0 alpha draws hX (by rw [Fintype.card_fin]; exact hn.ne') h7).2 ⟨h5, h6⟩
    exact key B hX hn ((WildLin.wild_ok_iff hL hX).2 hB)

/-! ### C152 -/

theorem card_labels {c : ℕ} (D : Data ι U T C ℝ c) (ids : Option (ι → C)) :
    (Finset.univ.image (labels D ids)).card = match ids with
      | none => (Finset.univ.image D.unit).card
      | some g => (Finset.univ.image g).card := by
  cases ids with
  | none =>
    rw [show labels D none = Sum.inl ∘ D.unit from rfl, ← Finset.image_image, Finset.card_image_of_injective _ Sum.inl_injective]
  | some g =>
    rw [show labels D (some g) = Sum.inr ∘ g from rfl, ← Finset.image_image, Finset.card_image_of_injective _ Sum.inr_injective]

/-- C152. A wild bootstrap call of TwoWayFixedEffects returns a result exactly if constant, treatment times period and demeaned covariates are independent, there are
more rows than coefficients, the weight type is known, there are two clusters or more (units if no cluster column is given), and one replication or more. -/
theorem C152_runs {c : ℕ} (L : Lib ι ℝ) (hL : Works L) (hP : LinReg.Prunes L) (strict : Bool) (alpha : ℝ) (wt : String) (draws : List (U ⊕ C → ℝ))
    (D : Data ι U T C ℝ c) (ids : Option (ι → C)) :
    (∃ R, fit L strict alpha wt draws D ids = .ok R) ↔ Indep D ∧ c + 2 < Fintype.card ι ∧ (wt = "rademacher" ∨ wt = "webb" ∨ wt = "mammen") ∧
      (match ids with
        | none => 2 ≤ (Finset.univ.image D.unit).card
        | some g => 2 ≤ (Finset.univ.image g).card) ∧ draws ≠ [] := by
  have hl := card_labels D ids
  rw [indep_iff]
  constructor
  · rintro ⟨R, h⟩
    obtain ⟨h1, h2, h3, h4, h5, -⟩ := (fit_iff hL hP).1 h
    refine ⟨h1, h2, h3, ?_, h5⟩
    rw [hl] at h4
    cases ids <;> exact h4
  · rintro ⟨h1, h2, h3, h4, h5⟩
    refine ⟨_, (fit_iff hL hP).2 ⟨h1, h2, h3, ?_, h5, rfl⟩⟩
    rw [hl]
    cases ids <;> exact h4

theorem span_fitted {c : ℕ} {D : Data ι U T C ℝ c} (y : ι → ℝ) : Span D (ols (design D) y 1) (fun i => y i - resid (design D) y i) :=
  span_iff.2 ⟨ols (design D) y, rfl, fun i => by
    show y i - (y i - (design D *ᵥ _) i) = _
    rw [sub_sub_cancel]
    rfl⟩

theorem perp_resid {c : ℕ} {D : Data ι U T C ℝ c} (hX : ((design D)ᵀ * design D).det ≠ 0) (y : ι → ℝ) : Perp D (resid (design D) y) 0 :=
  perp_iff.2 fun m => by
    have := congrFun (WildBoot.normal_eq _ hX y) m
    simp only [mulVec, dotProduct, transpose_apply, Pi.zero_apply] at this
    rw [this]
    simp

/-- C152. What a wild bootstrap call reports. `w` are weights that are a combination of the regressors, orthogonal to constant and demeaned covariates, with product one
with treatment times period; `u` are the residuals of the demeaned outcome; `rs s` are the residuals times the draws `s`, projected off the regressors again. -/
theorem C152_report {c : ℕ} (L : Lib ι ℝ) (hL : Works L) (hP : LinReg.Prunes L) (strict : Bool) (alpha : ℝ) (wt : String) (draws : List (U ⊕ C → ℝ))
    (D : Data ι U T C ℝ c) (ids : Option (ι → C)) (R : Report) (h : fit L strict alpha wt draws D ids = .ok R) (g : ι → U ⊕ C)
    (hg : ∀ i, g i = match ids with
      | none => .inl (D.unit i)
      | some k => .inr (k i)) :
    ∃ (w u : ι → ℝ) (x : ℝ) (rs : (U ⊕ C → ℝ) → ι → ℝ), (∃ e, Span D e w) ∧ Perp D w 1 ∧
      Span D x (fun i => within D.unit D.time D.y i - u i) ∧ Perp D u 0 ∧ x = ∑ i, w i * within D.unit D.time D.y i ∧
      (∀ s, (∃ e, Span D e (fun i => u i * s (g i) - rs s i)) ∧ Perp D (rs s) 0) ∧
      R.main.att = .fin x ∧
      R.main.se = LinReg.toExt ((BootStats.var1 (draws.map (coefOf g w u x))).map Real.sqrt) ∧
      R.main.t = tOrigOf (c + 2) g w u x ∧
      R.main.p = .fin (max ((((draws.map (tOf (c + 2) g w u x rs)).filter (fun b => Ext.le (Ext.abs R.main.t) (.fin |b|))).length : ℝ) / draws.length)
        (1 / ((draws.length : ℝ) + 1))) ∧
      R.main.ci = (.fin (BootStats.percentile (draws.map (coefOf g w u x)) (alpha / 2)), .fin (BootStats.percentile (draws.map (coefOf g w u x)) (1 - alpha / 2))) ∧
      R.main.nObs = Fintype.card ι ∧ R.main.nTreated = {v | ∃ i, D.unit i = v ∧ D.treat i = 1}.ncard ∧
      R.main.nTreated + R.main.nControl = (Set.range D.unit).ncard ∧ R.main.r2 = Vcov.rSquared (within D.unit D.time D.y) u false 0 ∧
      R.boot = some (draws.length, (Set.range g).ncard) := by
  have hgl : g = labels D ids := by
    funext i
    rw [hg]
    cases ids <;> rfl
  subst hgl
  obtain ⟨hX, hn, h5, h6, h7, rfl⟩ := (fit_iff hL hP).1 h
  obtain ⟨hw1, hw2⟩ := isolates_iff.1 ⟨_, isolates_lever hX 1⟩
  have e1 : ((treatedUnits D : Finset U) : Set U) = {u | ∃ i, D.unit i = u ∧ D.treat i = 1} := by
    ext u
    simp only [treatedUnits, Finset.coe_image, Finset.coe_filter, Finset.mem_univ, true_and, Set.mem_image, Set.mem_ofPred_eq]
    exact ⟨fun ⟨i, a, b⟩ => ⟨i, b, a⟩, fun ⟨i, a, b⟩ => ⟨i, b, a⟩⟩
  have e2 : ((Finset.univ.image D.unit : Finset U) : Set U) = Set.range D.unit := by simp
  have e3 : ((Finset.univ.image (labels D ids) : Finset (U ⊕ C)) : Set (U ⊕ C)) = Set.range (labels D ids) := by simp
  have hle : (treatedUnits D).card ≤ nUnique D.unit := Finset.card_le_card (Finset.image_subset_image (Finset.subset_univ _))
  refine ⟨lever (design D) 1, resid (design D) (outcome D), ols (design D) (outcome D) 1, fun s => resid (design D) (fun i => resid (design D) (outcome D) i * s (labels D ids i)),
    hw1, hw2, span_fitted (outcome D), perp_resid hX _, WildLin.ols_weights hX (isolates_lever hX 1) _,
    fun s => ⟨⟨_, span_fitted _⟩, perp_resid hX _⟩, rfl, rfl, rfl, ?_, rfl, rfl, ?_, ?_, rfl, ?_⟩
  · show Ext.fin _ = _
    congr 1
    simp only [boot, bootOf, WildBoot.pvalue, WildBoot.extreme, List.length_map]
    rfl
  · rw [← e1, Set.ncard_coe_finset]; rfl
  · rw [← e2, Set.ncard_coe_finset]
    show (treatedUnits D).card + (nUnique D.unit - (treatedUnits D).card) = nUnique D.unit
    omega
  · rw [← e3, Set.ncard_coe_finset]
    show some (_, _) = _
    simp only [boot, bootOf, List.length_map]

/-- C152. The parts of the report are determined by the data: two weight vectors as in `C152_report` agree, and so do two residual vectors. -/
theorem C152_report_unique {c : ℕ} (D : Data ι U T C ℝ c) :
    (∀ w w' e e', Span D e w → Perp D w 1 → Span D e' w' → Perp D w' 1 → w = w') ∧
      ∀ (y u u' : ι → ℝ) (x x' : ℝ), Span D x (fun i => y i - u i) → Perp D u 0 → Span D x' (fun i => y i - u' i) → Perp D u' 0 → u = u' := by
  have key : ∀ (f : ι → ℝ) (v : Fin (c + 2) → ℝ), (∀ i, f i = ∑ m, design D i m * v m) → (∀ m, ∑ i, design D i m * f i = 0) → f = 0 := by
    intro f v hf ho
    have hz : ∑ i, f i * f i = 0 := by
      have : ∀ i, f i * f i = ∑ m, v m * (design D i m * f i) := by
        intro i
        have e : ∑ m, v m * (design D i m * f i) = (∑ m, design D i m * v m) * f i := by
          rw [Finset.sum_mul]
          exact Finset.sum_congr rfl fun m _ => by ring
        rw [e, ← hf i]
      simp only [this]
      rw [Finset.sum_comm]
      refine Finset.sum_eq_zero fun m _ => ?_
      rw [← Finset.mul_sum, ho, mul_zero]
    funext i
    have := (Finset.sum_eq_zero_iff_of_nonneg fun i _ => mul_self_nonneg (f i)).1 hz i (Finset.mem_univ i)
    exact mul_self_eq_zero.1 this
  constructor
  · intro w w' e e' h1 h2 h3 h4
    obtain ⟨v, -, hv⟩ := span_iff.1 h1
    obtain ⟨v', -, hv'⟩ := span_iff.1 h3
    have := key (fun i => w i - w' i) (fun m => v m - v' m) (fun i => by simp only [mul_sub, Finset.sum_sub_distrib]; rw [← hv i, ← hv' i]) fun m => by
      simp only [mul_sub, Finset.sum_sub_distrib]
      rw [perp_iff.1 h2, perp_iff.1 h4, sub_self]
    funext i
    exact sub_eq_zero.1 (congrFun this i)
  · intro y u u' x x' h1 h2 h3 h4
    obtain ⟨v, -, hv⟩ := span_iff.1 h1
    obtain ⟨v', -, hv'⟩ := span_iff.1 h3
    have := key (fun i => u i - u' i) (fun m => v' m - v m) (fun i => by
      simp only [mul_sub, Finset.sum_sub_distrib]; rw [← hv i, ← hv' i]; ring) fun m => by
      simp only [mul_sub, Finset.sum_sub_distrib]
      rw [perp_iff.1 h2, perp_iff.1 h4, sub_self]
    funext i
    exact sub_eq_zero.1 (congrFun this i)

/-- C152. The choice of inference does not move the estimate: ATT, R-squared and the counts are those of the analytical call, whatever its clusters. -/
theorem C152_estimate {c : ℕ} (L : Lib ι ℝ) (hL : Works L) (hP : LinReg.Prunes L) (strict : Bool) (alpha : ℝ) (wt : String) (draws : List (U ⊕ C → ℝ))
    (D : Data ι U T C ℝ c) (ids : Option (ι → C)) (R : Report) (h : fit L strict alpha wt draws D ids = .ok R) (A : DidFit.Result ℝ)
    (hA : TwfeFit.fit L strict alpha D = .ok A) :
    R.main.att = A.att ∧ R.main.r2 = A.r2 ∧ R.main.nObs = A.nObs ∧ R.main.nTreated = A.nTreated ∧ R.main.nControl = A.nControl := by
  obtain ⟨hX, hn, h5, h6, h7, rfl⟩ := (fit_iff hL hP).1 h
  obtain ⟨f, b, hf, hb, -⟩ := TwfeFit.fit_ok hA
  rw [TwfeFit.fit_ok_iff hf hb] at hA
  cases hA
  obtain ⟨v, V, hv, -, g1, -, g2, -⟩ := TwfeFit.regress_ok hL hX hf
  have hvo : v = ols (design D) (outcome D) := by
    have h := (LinReg.isOls_iff _ _ _).1 hv
    unfold WildBoot.ols
    rw [← h, mulVec_mulVec, nonsing_inv_mul _ (isUnit_iff_ne_zero.2 hX), one_mulVec]
  subst hvo
  refine ⟨?_, ?_, rfl, rfl, rfl⟩
  · rw [g1] at hb
    cases hb
    rfl
  · show _ = LinReg.rsq f (outcome D) false
    unfold LinReg.rsq
    rw [g2, rsq_p _ _ _ 0]
    rfl

/-- C152. Bounds: the p-value lies between 1/(B+1) and 1 and the interval is ordered. -/
theorem C152_range {c : ℕ} (L : Lib ι ℝ) (hL : Works L) (hP : LinReg.Prunes L) (strict : Bool) (alpha : ℝ) (h0 : 0 ≤ alpha) (h1 : alpha ≤ 1) (wt : String)
    (draws : List (U ⊕ C → ℝ)) (D : Data ι U T C ℝ c) (ids : Option (ι → C)) (R : Report) (h : fit L strict alpha wt draws D ids = .ok R) :
    (∃ p, R.main.p = .fin p ∧ 1 / ((draws.length : ℝ) + 1) ≤ p ∧ p ≤ 1) ∧ ∃ lo hi, R.main.ci = (.fin lo, .fin hi) ∧ lo ≤ hi := by
  obtain ⟨B, hB⟩ := fit_ok h
  obtain ⟨hX, hn, h5, h6, h7, rfl⟩ := (fit_iff hL hP).1 h
  have hB' := (WildLin.wild_ok_iff hL hX).1 hB
  have hc := WildLin.wild_closed (isolates_lever hX 1) hB'
  rw [← WildLin.ols_weights hX (isolates_lever hX 1)] at hc
  have hc' : boot (design D) (outcome D) (labels D ids) 1 alpha draws = B := hc.symm
  unfold closed
  rw [hc']
  exact ⟨⟨B.p, rfl, WildBoot.C60_range _ _ _ _ _ _ _ _ _ hB'⟩, B.ci.1, B.ci.2, rfl, (WildBoot.C60_partial _ _ _ _ _ _ h0 h1 _ _ hB').2.2.1⟩

/-- C152. On balanced panels, unit effects and period effects of any size added to the outcome and to every covariate change nothing in the report. -/
theorem C152_fixed_effects [Fintype U] [Fintype T] {c : ℕ} (L : Lib ι ℝ) (strict : Bool) (alpha : ℝ) (wt : String) (draws : List (U ⊕ C → ℝ)) (D : Data ι U T C ℝ c)
    (hB : Balanced D.unit D.time) (ids : Option (ι → C)) (a : U → ℝ) (b : T → ℝ) (ac : Fin c → U → ℝ) (bc : Fin c → T → ℝ) :
    fit L strict alpha wt draws { D with y := fun i => D.y i + (a (D.unit i) + b (D.time i)),
                                         cov := fun j i => D.cov j i + (ac j (D.unit i) + bc j (D.time i)) } ids = fit L strict alpha wt draws D ids := by
  have h1 : outcome { D with y := fun i => D.y i + (a (D.unit i) + b (D.time i)),
                             cov := fun j i => D.cov j i + (ac j (D.unit i) + bc j (D.time i)) } = outcome D :=
    Within.C08_absorbs_effects_partial hB D.y a b
  have h2 : design { D with y := fun i => D.y i + (a (D.unit i) + b (D.time i)),
                            cov := fun j i => D.cov j i + (ac j (D.unit i) + bc j (D.time i)) } = design D := by
    funext i
    unfold design
    congr 2
    funext j
    exact congrFun (Within.C08_absorbs_effects_partial hB (D.cov j) (ac j) (bc j)) i
  have h3 : labels { D with y := fun i => D.y i + (a (D.unit i) + b (D.time i)),
                            cov := fun j i => D.cov j i + (ac j (D.unit i) + bc j (D.time i)) } ids = labels D ids := by
    cases ids <;> rfl
  unfold fit
  rw [h1, h2, h3]
  rfl

/-- C152. The covariates are controlled for: adding any combination of them to the outcome changes nothing in the report but the R squared. -/
theorem C152_controls {c : ℕ} (L : Lib ι ℝ) (hL : Works L) (hP : LinReg.Prunes L) (strict : Bool) (alpha : ℝ) (wt : String) (draws : List (U ⊕ C → ℝ))
    (D : Data ι U T C ℝ c) (ids : Option (ι → C)) (β : Fin c → ℝ) (R : Report) (h : fit L strict alpha wt draws D ids = .ok R) :
    ∃ r, fit L strict alpha wt draws { D with y := fun i => D.y i + ∑ j, β j * D.cov j i } ids = .ok ⟨{ R.main with r2 := r }, R.boot⟩ := by
  set D' : Data ι U T C ℝ c := { D with y := fun i => D.y i + ∑ j, β j * D.cov j i } with hD'
  obtain ⟨hX, hn, h5, h6, h7, rfl⟩ := (fit_iff hL hP).1 h
  have hl : labels D' ids = labels D ids := by cases ids <;> rfl
  have hd : design D' = design D := rfl
  have hy : outcome D' = fun i => outcome D i + (design D *ᵥ (Fin.cons 0 (Fin.cons 0 β) : Fin (c + 2) → ℝ)) i := by
    funext i
    show within D.unit D.time (fun i => D.y i + ∑ j, β j * D.cov j i) i = _ + ∑ m, design D i m * _
    rw [TwfeFit.within_combination, design_sum]
    simp only [Fin.cons_succ, Fin.cons_zero]
    show _ = outcome D i + (0 + _ * 0 + _)
    rw [mul_zero, add_zero, zero_add]
    rfl
  refine ⟨Vcov.rSquared (outcome D') (resid (design D') (outcome D')) false 0, (fit_iff hL hP).2 ⟨hX, hn, h5, by rw [hl]; exact h6, h7, ?_⟩⟩
  have hb : boot (design D') (outcome D') (labels D' ids) 1 alpha draws = boot (design D) (outcome D) (labels D ids) 1 alpha draws := by
    unfold boot
    rw [hl, hd, hy, ols_shift hX, resid_shift hX]
    congr 1
    show ols (design D) (outcome D) 1 + 0 = _
    rw [add_zero]
  have ha : ols (design D') (outcome D') 1 = ols (design D) (outcome D) 1 := by
    rw [hd, hy, ols_shift hX]
    show ols (design D) (outcome D) 1 + 0 = _
    rw [add_zero]
  unfold closed
  rw [hb, ha]
  rfl

theorem pvalue_congr {t t' : Ext ℝ} {l l' : List ℝ} (h1 : t = t') (h2 : l = l') : WildBoot.pvalue t l = WildBoot.pvalue t' l' := by rw [h1, h2]

/-- C152. Units of the outcome: with the outcome multiplied by `c > 0`, the ATT, the standard error and the interval are multiplied by `c`; t statistic, p-value,
R-squared and the counts stay. -/
theorem C152_units {k : ℕ} (L : Lib ι ℝ) (hL : Works L) (hP : LinReg.Prunes L) (strict : Bool) (alpha : ℝ) (h0 : 0 ≤ alpha) (h1 : alpha ≤ 1) (wt : String)
    (draws : List (U ⊕ C → ℝ)) (D : Data ι U T C ℝ k) (ids : Option (ι → C)) (R : Report) (h : fit L strict alpha wt draws D ids = .ok R) (c : ℝ) (hc : 0 < c) :
    ∃ R', fit L strict alpha wt draws { D with y := fun i => c * D.y i } ids = .ok R' ∧
      (∃ x lo hi, R.main.att = .fin x ∧ R'.main.att = .fin (c * x) ∧ R.main.ci = (.fin lo, .fin hi) ∧ R'.main.ci = (.fin (c * lo), .fin (c * hi))) ∧
      (R.main.se = .nan → R'.main.se = .nan) ∧ (∀ s, R.main.se = .fin s → R'.main.se = .fin (c * s)) ∧
      R'.main.t = R.main.t ∧ R'.main.p = R.main.p ∧ R'.main.r2 = R.main.r2 ∧ R'.main.nObs = R.main.nObs ∧ R'.main.nTreated = R.main.nTreated ∧
      R'.main.nControl = R.main.nControl ∧ R'.boot = R.boot := by
  set D' : Data ι U T C ℝ k := { D with y := fun i => c * D.y i } with hD'
  obtain ⟨hX, hn, h5, h6, hne, rfl⟩ := (fit_iff hL hP).1 h
  have hl : labels D' ids = labels D ids := by cases ids <;> rfl
  have hd : design D' = design D := rfl
  have hy : outcome D' = fun i => c * outcome D i := Within.within_smul D.unit D.time c D.y
  set g := labels D ids with hg
  set w := lever (design D) 1 with hw
  set u := resid (design D) (outcome D) with hu
  set x := ols (design D) (outcome D) 1 with hx
  have hb : boot (design D') (outcome D') (labels D' ids) 1 alpha draws =
      bootOf (k + 2) g w (fun i => c * u i) (c * x) (fun s i => c * resid (design D) (fun i => u i * s (g i)) i) alpha draws := by
    unfold boot
    rw [hl, hd, hy, ols_scale, resid_scale]
    refine congrArg (fun r => bootOf (k + 2) g w (fun i => c * u i) (c * x) r alpha draws) ?_
    funext s
    have := resid_scale (X := design D) c (fun i => u i * s (g i))
    refine Eq.trans ?_ this
    congr 1
    funext i
    ring
  have hmap : draws.map (coefOf g w u x) ≠ [] := by simpa using hne
  have hcs : draws.map (coefOf g w (fun i => c * u i) (c * x)) = (draws.map (coefOf g w u x)).map (fun v => c * v + 0) := by
    rw [List.map_map]
    exact List.map_congr_left fun s _ => WildLin.coefOf_scale g w u x c s
  have ht := WildLin.tOrig_scale (k + 2) g w u x hc
  have hts : draws.map (tOf (k + 2) g w (fun i => c * u i) (c * x) (fun s i => c * resid (design D) (fun i => u i * s (g i)) i)) =
      draws.map (tOf (k + 2) g w u x (fun s => resid (design D) (fun i => u i * s (g i)))) :=
    List.map_congr_left fun s _ => WildLin.tOf_scale (k + 2) g w u x (fun s => resid (design D) (fun i => u i * s (g i))) hc s
  have hse : LinReg.toExt ((BootStats.var1 (draws.map (coefOf g w (fun i => c * u i) (c * x)))).map Real.sqrt) =
      LinReg.toExt ((BootStats.var1 (draws.map (coefOf g w u x))).map (fun v => c * Real.sqrt v)) := by
    rw [hcs, WildLin.var1_affine, Option.map_map]
    congr 2
    funext v
    exact WildLin.sqrt_scale hc
  refine ⟨closed D' (labels D' ids) alpha draws, (fit_iff hL hP).2 ⟨hX, hn, h5, by rw [hl]; exact h6, hne, rfl⟩, ⟨x, _, _, rfl, ?_, rfl, ?_⟩, fun hn => ?_, fun s hs => ?_,
    ?_, ?_, ?_, rfl, rfl, rfl, ?_⟩
  · show Ext.fin (ols (design D') (outcome D') 1) = _
    rw [hd, hy, ols_scale]
  · show (Ext.fin (boot (design D') (outcome D') (labels D' ids) 1 alpha draws).ci.1, Ext.fin (boot (design D') (outcome D') (labels D' ids) 1 alpha draws).ci.2) = _
    rw [hb]
    show (Ext.fin (BootStats.percentile (draws.map (coefOf g w (fun i => c * u i) (c * x))) (alpha / 2)),
      Ext.fin (BootStats.percentile (draws.map (coefOf g w (fun i => c * u i) (c * x))) (1 - alpha / 2))) = _
    rw [hcs, WildLin.percentile_affine c 0 hc _ hmap _ (by linarith) (by linarith), WildLin.percentile_affine c 0 hc _ hmap _ (by linarith) (by linarith), add_zero, add_zero]
    rfl
  · show LinReg.toExt ((boot (design D') (outcome D') (labels D' ids) 1 alpha draws).se2.map Real.sqrt) = _
    rw [hb]
    refine hse.trans ?_
    have hn' : LinReg.toExt ((BootStats.var1 (draws.map (coefOf g w u x))).map Real.sqrt) = .nan := hn
    cases hv : BootStats.var1 (draws.map (coefOf g w u x)) with
    | none => rfl
    | some v => rw [hv] at hn'; cases hn'
  · show LinReg.toExt ((boot (design D') (outcome D') (labels D' ids) 1 alpha draws).se2.map Real.sqrt) = _
    rw [hb]
    refine hse.trans ?_
    have hs' : LinReg.toExt ((BootStats.var1 (draws.map (coefOf g w u x))).map Real.sqrt) = .fin s := hs
    cases hv : BootStats.var1 (draws.map (coefOf g w u x)) with
    | none => rw [hv] at hs'; cases hs'
    | some v => rw [hv] at hs'; cases hs'; rfl
  · show (boot (design D') (outcome D') (labels D' ids) 1 alpha draws).t = _
    rw [hb]
    exact ht
  · show Ext.fin (boot (design D') (outcome D') (labels D' ids) 1 alpha draws).p = _
    rw [hb]
    exact congrArg Ext.fin (pvalue_congr ht hts)
  · show Vcov.rSquared (outcome D') (resid (design D') (outcome D')) false 0 = Vcov.rSquared (outcome D) u false 0
    rw [hd, hy, resid_scale]
    have hc2 : c ^ 2 ≠ 0 := pow_ne_zero _ hc.ne'
    have e1 : ∑ i, (c * outcome D i - (∑ i, c * outcome D i) / (Fintype.card ι : ℝ)) ^ 2 =
        c ^ 2 * ∑ i, (outcome D i - (∑ i, outcome D i) / (Fintype.card ι : ℝ)) ^ 2 := by
      simp only [← Finset.mul_sum, mul_div_assoc, ← mul_sub, mul_pow]
    have e2 : ∑ i, (c * u i) ^ 2 = c ^ 2 * ∑ i, u i ^ 2 := by simp only [mul_pow, Finset.mul_sum]
    unfold Vcov.rSquared
    simp only [← hu, e1, e2, mul_eq_zero, hc2, false_or, mul_div_mul_left _ _ hc2]
  · show some ((boot (design D') (outcome D') (labels D' ids) 1 alpha draws).coefs.length, (boot (design D') (outcome D') (labels D' ids) 1 alpha draws).nClusters) = _
    rw [hb]
    show some (_, _) = some (_, _)
    simp only [bootOf, boot, List.length_map]

/-! ### Order of the rows, names of the clusters -/

theorem boot_comp (e : ι' ≃ ι) {k : ℕ} (X : Matrix ι (Fin k) ℝ) (y : ι → ℝ) (g : ι → G) (j : Fin k) (alpha : ℝ) (draws : List (G → ℝ)) :
    boot (X.submatrix e id) (fun i => y (e i)) (fun i => g (e i)) j alpha draws = boot X y g j alpha draws := by
  unfold boot
  rw [lever_comp, resid_comp, ols_comp]
  have hr : (fun s : G → ℝ => resid (X.submatrix e id) (fun i => resid X y (e i) * s (g (e i)))) = fun s i => resid X (fun i => resid X y i * s (g i)) (e i) := by
    funext s
    exact resid_comp e (fun i => resid X y i * s (g i))
  rw [hr]
  have h1 : ∀ s, coefOf (fun i => g (e i)) (fun i => lever X j (e i)) (fun i => resid X y (e i)) (ols X y j) s = coefOf g (lever X j) (resid X y) (ols X y j) s :=
    fun s => WildLin.coefOf_comp e g (lever X j) (resid X y) _ s
  have h2 : ∀ u : ι → ℝ, clusterVar k (fun i => g (e i)) (fun i => lever X j (e i)) (fun i => u (e i)) = clusterVar k g (lever X j) u :=
    fun u => WildLin.clusterVar_comp e k g (lever X j) u
  have h3 : (Finset.univ.image (fun i => g (e i))).card = (Finset.univ.image g).card := by rw [show (fun i => g (e i)) = g ∘ e from rfl, DidFull.image_comp]
  have h4 : tOrigOf k (fun i => g (e i)) (fun i => lever X j (e i)) (fun i => resid X y (e i)) (ols X y j) = tOrigOf k g (lever X j) (resid X y) (ols X y j) := by
    unfold tOrigOf
    rw [h2]
  have h5 : ∀ s, tOf k (fun i => g (e i)) (fun i => lever X j (e i)) (fun i => resid X y (e i)) (ols X y j) (fun s i => resid X (fun i => resid X y i * s (g i)) (e i)) s =
      tOf k g (lever X j) (resid X y) (ols X y j) (fun s => resid X (fun i => resid X y i * s (g i))) s := by
    intro s
    unfold tOf
    rw [h1, h2 (resid X (fun i => resid X y i * s (g i)))]
  unfold bootOf
  rw [h3, h4, funext h1, funext h5]

/-- C152. The order of the rows is irrelevant. -/
theorem C152_row_order {c : ℕ} (L : Lib ι ℝ) (hL : Works L) (hP : LinReg.Prunes L) (L' : Lib ι' ℝ) (hL' : Works L') (hP' : LinReg.Prunes L') (e : ι' ≃ ι)
    (strict : Bool) (alpha : ℝ) (wt : String) (draws : List (U ⊕ C → ℝ)) (D : Data ι U T C ℝ c) (ids : Option (ι → C)) (R : Report)
    (h : fit L strict alpha wt draws D ids = .ok R) : fit L' strict alpha wt draws (movedData e D) (ids.map (fun g i => g (e i))) = .ok R := by
  obtain ⟨hX, hn, h5, h6, h7, rfl⟩ := (fit_iff hL hP).1 h
  have hout : outcome (movedData e D) = fun i => outcome D (e i) := RowOrder.within_moved e D.unit D.time D.y
  have hdes : design (movedData e D) = (design D).submatrix e id := by
    funext i
    unfold design
    show Fin.cons 1 (Fin.cons _ _) = Fin.cons 1 (Fin.cons _ _)
    congr 2
    funext j
    exact congrFun (RowOrder.within_moved e D.unit D.time (D.cov j)) i
  have hl : labels (movedData e D) (ids.map (fun g i => g (e i))) = fun i => labels D ids (e i) := by cases ids <;> rfl
  have hnu : nUnique (movedData e D).unit = nUnique D.unit := by
    unfold nUnique
    show (Finset.univ.image (fun i => D.unit (e i))).card = _
    rw [RowOrder.image_moved]
  have htu : treatedUnits (movedData e D) = treatedUnits D := by
    unfold treatedUnits movedData
    ext u
    simp only [Finset.mem_image, Finset.mem_filter, Finset.mem_univ, true_and]
    exact ⟨fun ⟨i, a, b⟩ => ⟨e i, a, b⟩, fun ⟨i, a, b⟩ => ⟨e.symm i, by simpa using a, by simpa using b⟩⟩
  refine (fit_iff hL' hP').2 ⟨by rw [hdes, gram_comp]; exact hX, by rw [Fintype.card_congr e]; exact hn, h5, ?_, h7, ?_⟩
  · rw [hl, show (fun i => labels D ids (e i)) = labels D ids ∘ e from rfl, DidFull.image_comp]
    exact h6
  · unfold closed
    rw [hl, hdes, hout, boot_comp, ols_comp, resid_comp, hnu, htu, Fintype.card_congr e]
    have := RowOrder.rsq_moved e (outcome D) (resid (design D) (outcome D)) false 0
    rw [show Vcov.rSquared (fun i => outcome D (e i)) (fun i => resid (design D) (outcome D) (e i)) false 0 = _ from this]

theorem boot_names {f : G → G'} (hf : Function.Injective f) {k : ℕ} (X : Matrix ι (Fin k) ℝ) (y : ι → ℝ) (g : ι → G) (j : Fin k) (alpha : ℝ) (draws : List (G' → ℝ)) :
    boot X y (fun i => f (g i)) j alpha draws = boot X y g j alpha (draws.map (· ∘ f)) := by
  unfold boot
  set w := lever X j
  set u := resid X y
  set x := ols X y j
  have hi : (Finset.univ.image (fun i => f (g i))).card = (Finset.univ.image g).card := by
    rw [show Finset.univ.image (fun i => f (g i)) = (Finset.univ.image g).image f by rw [Finset.image_image]; rfl, Finset.card_image_of_injective _ hf]
  have h1 : (draws.map (· ∘ f)).map (coefOf g w u x) = draws.map (coefOf (fun i => f (g i)) w u x) := by rw [List.map_map]; rfl
  have h2 : (draws.map (· ∘ f)).map (tOf k g w u x (fun s => resid X (fun i => u i * s (g i)))) =
      draws.map (tOf k (fun i => f (g i)) w u x (fun s => resid X (fun i => u i * s (f (g i))))) := by
    rw [List.map_map]
    refine List.map_congr_left fun s _ => ?_
    unfold tOf
    rw [show (fun i => f (g i)) = f ∘ g from rfl, WildLin.clusterVar_names hf]
    rfl
  have h3 : tOrigOf k (fun i => f (g i)) w u x = tOrigOf k g w u x := by
    unfold tOrigOf
    rw [show (fun i => f (g i)) = f ∘ g from rfl, WildLin.clusterVar_names hf]
  unfold bootOf
  rw [h1, h2, hi, h3]

/-- C152. The names of the clusters are irrelevant: a renamed cluster column with the renamed draws gives the same report. -/
theorem C152_names {c : ℕ} (L : Lib ι ℝ) (hL : Works L) (hP : LinReg.Prunes L) (f : C → C') (hf : Function.Injective f) (strict : Bool) (alpha : ℝ) (wt : String)
    (draws : List (U ⊕ C' → ℝ)) (D : Data ι U T C ℝ c) (g : ι → C) (R : Report)
    (h : fit L strict alpha wt (draws.map (· ∘ Sum.map id f)) D (some g) = .ok R) :
    fit L strict alpha wt draws (⟨D.y, D.treat, D.time, D.num, D.unit, D.cov, none⟩ : Data ι U T C' ℝ c) (some (fun i => f (g i))) = .ok R := by
  obtain ⟨hX, hn, h5, h6, h7, rfl⟩ := (fit_iff hL hP).1 h
  have hs : Function.Injective (Sum.map id f : U ⊕ C → U ⊕ C') := Function.Injective.sumMap Function.injective_id hf
  have hl : labels (⟨D.y, D.treat, D.time, D.num, D.unit, D.cov, none⟩ : Data ι U T C' ℝ c) (some (fun i => f (g i))) = fun i => Sum.map id f (labels D (some g) i) := rfl
  refine (fit_iff hL hP).2 ⟨hX, hn, h5, ?_, by simpa using h7, ?_⟩
  · rw [hl, show Finset.univ.image (fun i => Sum.map id f (labels D (some g) i)) = (Finset.univ.image (labels D (some g))).image (Sum.map id f) by
      rw [Finset.image_image]; rfl, Finset.card_image_of_injective _ hs]
    exact h6
  · unfold closed
    rw [hl, boot_names hs]
    rfl

/-- C152. Without a cluster column the units are the clusters: the call equals the call with the unit column as cluster column. -/
theorem C152_default_clusters {c : ℕ} (L : Lib ι ℝ) (hL : Works L) (hP : LinReg.Prunes L) (strict : Bool) (alpha : ℝ) (wt : String) (draws : List (U ⊕ U → ℝ))
    (D : Data ι U T U ℝ c) (R : Report) :
    fit L strict alpha wt (draws.map (· ∘ Sum.swap)) D none = .ok R ↔ fit L strict alpha wt draws D (some D.unit) = .ok R := by
  have hs : Function.Injective (Sum.swap : U ⊕ U → U ⊕ U) := Sum.swap_leftInverse.injective
  have hl : labels D (some D.unit) = fun i => Sum.swap (labels D none i) := rfl
  have hi : (Finset.univ.image (labels D (some D.unit))).card = (Finset.univ.image (labels D none)).card := by rw [card_labels, card_labels]
  have hr : closed D (labels D (some D.unit)) alpha draws = closed D (labels D none) alpha (draws.map (· ∘ Sum.swap)) := by
    unfold closed
    rw [hl, boot_names hs]
  rw [fit_iff hL hP, fit_iff hL hP, hi, hr]
  simp only [ne_eq, List.map_eq_nil_iff]

/-! ### What the bootstrap does not give -/

/-- C152, refutation. "Data without an effect do not look significant" is false: on a balanced panel whose outcome is exactly unit effects plus period effects plus a
linear function of the covariates, the call reports effect 0 with the t statistic undefined and the smallest possible p-value. -/
theorem C152_no_effect_refuted [Fintype U] [Fintype T] {c : ℕ} (L : Lib ι ℝ) (hL : Works L) (hP : LinReg.Prunes L) (strict : Bool) (alpha : ℝ) (wt : String)
    (draws : List (U ⊕ C → ℝ)) (D : Data ι U T C ℝ c) (hB : Balanced D.unit D.time) (ids : Option (ι → C)) (R : Report)
    (h : fit L strict alpha wt draws D ids = .ok R) (a : U → ℝ) (b : T → ℝ) (β : Fin c → ℝ) (hy : ∀ i, D.y i = a (D.unit i) + b (D.time i) + ∑ j, β j * D.cov j i) :
    R.main.att = .fin 0 ∧ R.main.t = .nan ∧ R.main.p = .fin (1 / ((draws.length : ℝ) + 1)) := by
  obtain ⟨hX, hn, h5, h6, h7, rfl⟩ := (fit_iff hL hP).1 h
  have h0 : ∀ i, within D.unit D.time (fun i => a (D.unit i) + b (D.time i)) i = 0 := by
    intro i
    rw [Within.within_add, Within.within_unit_effect hB, Within.within_time_effect hB]
    exact add_zero 0
  have ho : outcome D = fun i => 0 + (design D *ᵥ (Fin.cons 0 (Fin.cons 0 β) : Fin (c + 2) → ℝ)) i := by
    funext i
    unfold outcome
    rw [show D.y = fun i => a (D.unit i) + b (D.time i) + ∑ j, β j * D.cov j i from funext hy]
    rw [TwfeFit.within_combination, h0]
    show _ = 0 + ∑ m, design D i m * _
    rw [design_sum]
    simp only [Fin.cons_succ, Fin.cons_zero]
    show _ = (0 : ℝ) + (0 + _ * 0 + _)
    rw [mul_zero, add_zero, zero_add, zero_add]
  have hz1 : ols (design D) (fun _ => 0) = 0 := by
    unfold WildBoot.ols
    rw [show (fun _ : ι => (0 : ℝ)) = 0 from rfl, mulVec_zero, mulVec_zero]
  have hz2 : resid (design D) (fun _ => 0) = 0 := by
    unfold WildBoot.resid
    rw [hz1, mulVec_zero]
    funext i
    simp
  have hx : ols (design D) (outcome D) 1 = 0 := by
    rw [ho, ols_shift hX, hz1]
    show (0 : ℝ) + 0 = 0
    rw [add_zero]
  have hu : resid (design D) (outcome D) = 0 := by rw [ho, resid_shift hX, hz2]
  have ht : tOrigOf (c + 2) (labels D ids) (lever (design D) 1) 0 0 = .nan := by
    have hz : clusterVar (c + 2) (labels D ids) (lever (design D) 1) 0 = 0 := by unfold clusterVar; simp
    unfold tOrigOf
    rw [hz, Real.sqrt_zero]
    simp [Ext.div, Ext.sgn, Ext.infOf]
  unfold closed boot
  rw [hx, hu]
  refine ⟨rfl, ht, ?_⟩
  show Ext.fin (WildBoot.pvalue _ _) = _
  rw [ht]
  unfold WildBoot.pvalue WildBoot.extreme
  rw [List.filter_eq_nil_iff.2 fun b _ => by simp [Ext.le, Ext.abs]]
  congr 1
  simp only [List.length_nil, Nat.cast_zero, zero_div, List.length_map]
  exact max_eq_right (by positivity)

/-- C152, refutation. "A call that works with analytical inference works with the wild bootstrap" is false: on a balanced panel, a further covariate that only depends on
the unit and the period (a region code, a trend) is dropped by the analytical call with a warning and leaves its report, while every wild bootstrap call fails. -/
theorem C152_redundant_refuted [Fintype U] [Fintype T] {c : ℕ} (L : Lib ι ℝ) (hL : Works L) (hP : LinReg.Prunes L) (alpha : ℝ) (D : Data ι U T C ℝ c)
    (hB : Balanced D.unit D.time) (hid : TwfeFit.Separate D) (hn : c + 3 ≤ Fintype.card ι) (a : U → ℝ) (b : T → ℝ) (A : DidFit.Result ℝ)
    (h : TwfeFit.fit L false alpha D = .ok A) :
    TwfeFit.fit L false alpha (⟨D.y, D.treat, D.time, D.num, D.unit, Fin.cons (fun i => a (D.unit i) + b (D.time i)) D.cov, D.cluster⟩ : Data ι U T C ℝ (c + 1)) = .ok A ∧
      ∀ strict wt (draws : List (U ⊕ C → ℝ)) ids, ∃ e, fit L strict alpha wt draws
        (⟨D.y, D.treat, D.time, D.num, D.unit, Fin.cons (fun i => a (D.unit i) + b (D.time i)) D.cov, D.cluster⟩ : Data ι U T C ℝ (c + 1)) ids = .error e := by
  refine ⟨TwfeFit.C146_constant_covariate L hL hP alpha D hB hid hn a b A h, fun strict wt draws ids => ?_⟩
  cases hf : fit L strict alpha wt draws
        (⟨D.y, D.treat, D.time, D.num, D.unit, Fin.cons (fun i => a (D.unit i) + b (D.time i)) D.cov, D.cluster⟩ : Data ι U T C ℝ (c + 1)) ids with
  | error e => exact ⟨e, rfl⟩
  | ok R =>
    exfalso
    obtain ⟨hX, -⟩ := (fit_iff hL hP).1 hf
    obtain ⟨-, -, hγ⟩ := indep_iff.2 hX 0 0 (Fin.cons 1 (fun _ => 0)) fun i => by
      rw [Fin.sum_univ_succ]
      simp only [Fin.cons_zero, Fin.cons_succ, zero_mul, Finset.sum_const_zero, add_zero, one_mul, zero_add]
      rw [Within.within_add, Within.within_unit_effect hB, Within.within_time_effect hB]
      exact add_zero 0
    exact one_ne_zero (hγ 0)

/-! ### Hypotheses can be met -/

open TwfeFit (spiked spiked_balanced spiked_separate spike noisy)

/-- Two draws of the units of the panel; the second summand (a cluster column) draws the same. -/
def signs : List (Fin 4 ⊕ Fin 4 → ℝ) := [Sum.elim (fun a => if a = 0 then 1 else -1) (fun a => if a = 0 then 1 else -1), fun _ => 1]

theorem spiked_indep (y : Fin 4 × Bool → ℝ) : Indep { spiked with y := y } := by
  intro a b γ h
  have h1 := h (2, false)
  have h2 := h (3, false)
  have h3 := h (0, true)
  simp only [Fin.sum_univ_one] at h1 h2 h3
  rw [show within (Data.unit { spiked with y := y }) (Data.time { spiked with y := y }) (Data.cov { spiked with y := y } 0) = within spiked.unit spiked.time (spiked.cov 0) from rfl,
    show Data.treat { spiked with y := y } = spiked.treat from rfl, show Data.num { spiked with y := y } = spiked.num from rfl,
    show Data.time { spiked with y := y } = spiked.time from rfl, TwfeFit.spiked_cov, TwfeFit.spiked_post] at h1 h2 h3
  norm_num at h1 h2 h3
  simp at h1 h2 h3
  refine ⟨by linarith, by linarith, fun j => ?_⟩
  have hj : j = 0 := Subsingleton.elim (α := Fin 1) j 0
  subst hj
  linarith

theorem spiked_runs (L : Lib (Fin 4 × Bool) ℝ) (hL : Works L) (hP : LinReg.Prunes L) (y : Fin 4 × Bool → ℝ) :
    ∃ R, fit L false (1 / 20) "webb" signs { spiked with y := y } none = .ok R :=
  (C152_runs L hL hP false (1 / 20) "webb" signs { spiked with y := y } none).2
    ⟨spiked_indep y, by simp, Or.inr (Or.inl rfl), by
      show 2 ≤ (Finset.univ.image (fun p : Fin 4 × Bool => p.1)).card
      decide, by simp [signs]⟩

/-- A panel with a covariate, clusters by unit: bounds, fixed effects, controls, units, order of the rows, the unit column as cluster column, comparison with the
analytical call. -/
example : ∃ (L : Lib (Fin 4 × Bool) ℝ) (R : Report) (A : DidFit.Result ℝ) (x lo hi p : ℝ), fit L false (1 / 20) "webb" signs spiked none = .ok R ∧
    TwfeFit.fit L false (1 / 20) spiked = .ok A ∧ A.att = .fin x ∧ R.main.att = .fin x ∧ R.main.ci = (.fin lo, .fin hi) ∧ lo ≤ hi ∧ R.main.p = .fin p ∧
    1 / ((2 : ℕ) + 1) ≤ p ∧ p ≤ 1 ∧ R.boot = some (2, 4) ∧
    fit L false (1 / 20) "webb" signs { spiked with y := fun i => spiked.y i + ((spiked.unit i).val + if spiked.time i then 5 else 0),
                                                    cov := fun j i => spiked.cov j i + (3 * (spiked.unit i).val + if spiked.time i then 1 else 0) } none = .ok R ∧
    (∃ r, fit L false (1 / 20) "webb" signs { spiked with y := fun i => spiked.y i + ∑ j, (fun _ => 7) j * spiked.cov j i } none = .ok ⟨{ R.main with r2 := r }, R.boot⟩) ∧
    (∃ R', fit L false (1 / 20) "webb" signs { spiked with y := fun i => 3 * spiked.y i } none = .ok R' ∧ R'.main.att = .fin (3 * x) ∧ R'.main.p = R.main.p ∧
      R'.main.ci = (.fin (3 * lo), .fin (3 * hi))) ∧
    fit L false (1 / 20) "webb" signs (movedData ((Equiv.swap (0 : Fin 4) 3).prodCongr (Equiv.refl Bool)) spiked) none = .ok R ∧
    fit L false (1 / 20) "webb" signs spiked (some spiked.unit) = .ok R := by
  obtain ⟨L, hL, hP⟩ := LinReg.exists_prunes (ι := Fin 4 × Bool)
  obtain ⟨R, hR⟩ : ∃ R, fit L false (1 / 20) "webb" signs spiked none = .ok R := spiked_runs L hL hP spiked.y
  have hX := ((fit_iff hL hP).1 hR).1
  obtain ⟨A, hA⟩ : ∃ A, TwfeFit.fit L false (1 / 20) spiked = .ok A := by
    cases hf : TwfeFit.fit L false (1 / 20) spiked with
    | ok A => exact ⟨A, rfl⟩
    | error e =>
      exfalso
      have h4 : TwfeFit.clusters spiked = 4 := by
        show (Finset.univ.image (fun p : Fin 4 × Bool => p.1)).card = 4
        decide
      have h8 : Fintype.card (Fin 4 × Bool) = 8 := by simp
      rcases (TwfeFit.C146_errors L hL false (1 / 20) spiked hX e).1 hf with ⟨h, -⟩ | ⟨-, h, -⟩ | ⟨h, -⟩ <;> omega
  obtain ⟨⟨p, hp1, hp2, hp3⟩, lo, hi, hci, hle⟩ := C152_range L hL hP false (1 / 20) (by norm_num) (by norm_num) _ _ _ _ R hR
  obtain ⟨R2, k1, ⟨x, lo2, hi2, b1, b2, b3, b4⟩, -, -, -, k2, -⟩ := C152_units L hL hP false (1 / 20) (by norm_num) (by norm_num) _ _ _ _ R hR 3 (by norm_num)
  rw [hci] at b3
  cases b3
  obtain ⟨ea, -⟩ := C152_estimate L hL hP false (1 / 20) _ _ _ _ R hR A hA
  have hboot : R.boot = some (2, 4) := by
    obtain ⟨-, -, -, -, -, rfl⟩ := (fit_iff hL hP).1 hR
    show some (_, _) = _
    simp only [boot, bootOf, List.length_map, card_labels]
    show some (signs.length, (Finset.univ.image (fun p : Fin 4 × Bool => p.1)).card) = _
    rw [show (Finset.univ.image (fun p : Fin 4 × Bool => p.1)).card = 4 by decide]
    rfl
  refine ⟨L, R, A, x, _, _, p, hR, hA, by rw [← ea]; exact b1, b1, hci, hle, hp1, hp2, hp3, hboot, ?_, C152_controls L hL hP false (1 / 20) _ _ spiked none (fun _ => 7) R hR,
    ⟨R2, k1, b2, k2, b4⟩, C152_row_order L hL hP L hL hP _ false (1 / 20) _ _ spiked none R hR, ?_⟩
  · rw [← hR]
    exact C152_fixed_effects L false (1 / 20) "webb" signs spiked spiked_balanced none (fun u => (u.val : ℝ)) (fun b => if b then 5 else 0) (fun _ u => 3 * (u.val : ℝ))
      (fun _ b => if b then 1 else 0)
  · refine (C152_default_clusters L hL hP false (1 / 20) "webb" signs spiked R).1 ?_
    have : signs.map (· ∘ Sum.swap) = signs := by
      unfold signs
      simp only [List.map_cons, List.map_nil]
      congr 1
      funext a
      cases a <;> rfl
    rw [this]
    exact hR

/-- Renamed clusters. -/
example : ∃ (L : Lib (Fin 4 × Bool) ℝ) (R : Report), fit L false (1 / 20) "webb" ([(fun _ => 1 : Fin 4 ⊕ ℕ → ℝ)].map (· ∘ Sum.map id (fun a : Fin 4 => a.val + 10))) spiked
      (some spiked.unit) = .ok R ∧
    fit L false (1 / 20) "webb" [(fun _ => 1 : Fin 4 ⊕ ℕ → ℝ)] (⟨spiked.y, spiked.treat, spiked.time, spiked.num, spiked.unit, spiked.cov, none⟩ : Data _ _ _ ℕ ℝ 1)
      (some (fun i => (spiked.unit i).val + 10)) = .ok R := by
  obtain ⟨L, hL, hP⟩ := LinReg.exists_prunes (ι := Fin 4 × Bool)
  obtain ⟨R, hR⟩ := (C152_runs L hL hP false (1 / 20) "webb" ([(fun _ => 1 : Fin 4 ⊕ ℕ → ℝ)].map (· ∘ Sum.map id (fun a : Fin 4 => a.val + 10))) spiked (some spiked.unit)).2
    ⟨spiked_indep spiked.y, by simp, Or.inr (Or.inl rfl), by
      show 2 ≤ (Finset.univ.image (fun p : Fin 4 × Bool => p.1)).card
      decide, by simp⟩
  exact ⟨L, R, hR, C152_names L hL hP (fun a : Fin 4 => a.val + 10) (fun a b h => by simpa [Fin.ext_iff] using h) false (1 / 20) "webb" _ spiked spiked.unit R hR⟩

/-- An outcome of unit effects only: p-value 1/3 with two draws, the smallest possible. A covariate that numbers the units makes the bootstrap fail. -/
example : ∃ (L : Lib (Fin 4 × Bool) ℝ) (R : Report) (A : DidFit.Result ℝ), fit L false (1 / 20) "webb" signs { spiked with y := fun i => (i.1.val : ℝ) } none = .ok R ∧
    R.main.att = .fin 0 ∧ R.main.t = .nan ∧ R.main.p = .fin (1 / ((2 : ℕ) + 1)) ∧
    TwfeFit.fit L false (1 / 20) (⟨spiked.y, spiked.treat, spiked.time, spiked.num, spiked.unit, Fin.cons (fun i => ((spiked.unit i).val : ℝ) + 0) spiked.cov, spiked.cluster⟩ :
      Data _ _ _ _ ℝ 2) = .ok A ∧
    ∃ e, fit L false (1 / 20) "webb" signs (⟨spiked.y, spiked.treat, spiked.time, spiked.num, spiked.unit, Fin.cons (fun i => ((spiked.unit i).val : ℝ) + 0) spiked.cov,
      spiked.cluster⟩ : Data _ _ _ _ ℝ 2) none = .error e := by
  obtain ⟨L, A, hL, hP, hA⟩ := TwfeFit.spiked_runs
  obtain ⟨R, hR⟩ := spiked_runs L hL hP (fun i => (i.1.val : ℝ))
  obtain ⟨q1, q2⟩ := C152_redundant_refuted L hL hP (1 / 20) spiked spiked_balanced spiked_separate (by simp) (fun u => (u.val : ℝ)) (fun _ => 0) A hA
  obtain ⟨r1, r2, r3⟩ := C152_no_effect_refuted L hL hP false (1 / 20) "webb" signs { spiked with y := fun i => (i.1.val : ℝ) } spiked_balanced none R hR
    (fun u => (u.val : ℝ)) (fun _ => 0) (fun _ => 0) fun i => by
      show (i.1.val : ℝ) = (i.1.val : ℝ) + 0 + _
      simp
  exact ⟨L, R, A, hR, r1, r2, r3, q1, q2 false "webb" signs none⟩

end DiffDiff.WildTwfe
