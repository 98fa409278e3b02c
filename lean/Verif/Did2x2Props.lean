/-
Properties C10 (two-by-two difference in differences) and C64 (absorbed fixed effects).
-/
import Verif.Did2x2
import Verif.OlsProps
import Verif.WithinProps

set_option linter.unusedSectionVars false

namespace DiffDiff.Did2x2

section basic
variable {K : Type*} [Field K] [LinearOrder K] [IsStrictOrderedRing K]
variable {ι U : Type*} [Fintype ι] [DecidableEq U]

theorem mem_cell {d t : ι → Bool} {a b : Bool} {i : ι} : i ∈ cell d t a b ↔ d i = a ∧ t i = b := by
  simp [cell]

theorem sum_cells (d t : ι → Bool) (f : ι → K) : ∑ i, f i =
    ∑ i ∈ cell d t true true, f i + ∑ i ∈ cell d t true false, f i
    + ∑ i ∈ cell d t false true, f i + ∑ i ∈ cell d t false false, f i := by
  simp only [cell, Finset.sum_filter, ← Finset.sum_add_distrib]
  refine Finset.sum_congr rfl (fun i _ => ?_)
  cases d i <;> cases t i <;> simp

theorem sum_ind (d t : ι → Bool) (f : ι → K) :
    (∑ i, ind (d i) * f i = ∑ i ∈ cell d t true true, f i + ∑ i ∈ cell d t true false, f i) ∧
    (∑ i, ind (t i) * f i = ∑ i ∈ cell d t true true, f i + ∑ i ∈ cell d t false true, f i) ∧
    (∑ i, ind (d i) * ind (t i) * f i = ∑ i ∈ cell d t true true, f i) := by
  simp only [cell, Finset.sum_filter, ← Finset.sum_add_distrib]
  refine ⟨Finset.sum_congr rfl (fun i _ => ?_), Finset.sum_congr rfl (fun i _ => ?_),
    Finset.sum_congr rfl (fun i _ => ?_)⟩ <;> cases d i <;> cases t i <;> simp [ind]

theorem fitted_design (d t : ι → Bool) (b : Fin 4 → K) (i : ι) :
    Ols.fitted (design d t) b i = b 0 + ind (d i) * b 1 + ind (t i) * b 2
      + ind (d i) * ind (t i) * b 3 := by
  simp [Ols.fitted, Ols.dot, design, Fin.sum_univ_four]

/-- Normal equations of the saturated design: residuals sum to zero in every cell. -/
theorem isOls_iff_cells (y : ι → K) (d t : ι → Bool) (b : Fin 4 → K) :
    Ols.IsOls (design d t) y b ↔ ∀ a c, ∑ i ∈ cell d t a c, Ols.resid (design d t) y b i = 0 := by
  set r := Ols.resid (design d t) y b with hr
  obtain ⟨s1, s2, s3⟩ := sum_ind d t r
  have s0 := sum_cells d t r
  have e0 : ∑ i, design d t i 0 * r i = ∑ i, r i := by simp [design]
  have e1 : ∑ i, design d t i 1 * r i = ∑ i, ind (d i) * r i := by simp [design]
  have e2 : ∑ i, design d t i 2 * r i = ∑ i, ind (t i) * r i := by simp [design]
  have e3 : ∑ i, design d t i 3 * r i = ∑ i, ind (d i) * ind (t i) * r i := by simp [design]
  constructor
  · intro h
    have h0 := h 0; have h1 := h 1; have h2 := h 2; have h3 := h 3
    rw [← hr] at h0 h1 h2 h3
    rw [e0, s0] at h0; rw [e1, s1] at h1; rw [e2, s2] at h2; rw [e3, s3] at h3
    intro a c
    cases a <;> cases c <;> linarith
  · intro h j
    rw [← hr]
    have a1 := h true true; have a2 := h true false; have a3 := h false true; have a4 := h false false
    fin_cases j
    · show ∑ i, design d t i 0 * r i = 0
      rw [e0, s0]; linarith
    · show ∑ i, design d t i 1 * r i = 0
      rw [e1, s1]; linarith
    · show ∑ i, design d t i 2 * r i = 0
      rw [e2, s2]; linarith
    · show ∑ i, design d t i 3 * r i = 0
      rw [e3, s3]; linarith

theorem cell_resid (y : ι → K) (d t : ι → Bool) (b : Fin 4 → K) (a c : Bool) :
    ∑ i ∈ cell d t a c, Ols.resid (design d t) y b i
      = ∑ i ∈ cell d t a c, y i - (cell d t a c).card
          * (b 0 + ind a * b 1 + ind c * b 2 + ind a * ind c * b 3) := by
  have : ∀ i ∈ cell d t a c, Ols.resid (design d t) y b i
      = y i - (b 0 + ind a * b 1 + ind c * b 2 + ind a * ind c * b 3) := by
    intro i hi
    rw [Ols.resid, fitted_design, (mem_cell.1 hi).1, (mem_cell.1 hi).2]
  rw [Finset.sum_congr rfl this, Finset.sum_sub_distrib, Finset.sum_const, nsmul_eq_mul]

/-- In a non-empty cell the fitted value is the cell mean. -/
theorem fitted_cell (y : ι → K) (d t : ι → Bool) (b : Fin 4 → K) (h : Ols.IsOls (design d t) y b)
    (a c : Bool) (hne : (cell d t a c).Nonempty) :
    b 0 + ind a * b 1 + ind c * b 2 + ind a * ind c * b 3 = cellMean y d t a c := by
  have := (isOls_iff_cells y d t b).1 h a c
  rw [cell_resid] at this
  have hc : ((cell d t a c).card : K) ≠ 0 := by exact_mod_cast (Finset.card_pos.2 hne).ne'
  rw [cellMean, eq_div_iff hc]; linarith

/-- C10. Whatever least-squares solution the solver returns, `att` is the difference in differences of
the four cell means, for any number of rows and any cell sizes, as long as no cell is empty. -/
theorem C10_att_is_difference_of_means (y : ι → K) (d t : ι → Bool) (att : K)
    (hne : ∀ a c, ∃ i, d i = a ∧ t i = c) (h : IsAtt y d t att) : att = did y d t := by
  obtain ⟨b, hb, rfl⟩ := h
  have f := fun a c => fitted_cell y d t b hb a c
    ((hne a c).imp (fun i hi => mem_cell.2 hi))
  have f11 := f true true; have f10 := f true false; have f01 := f false true; have f00 := f false false
  simp only [ind] at f11 f10 f01 f00
  simp at f11 f10 f01 f00
  unfold did; rw [← f11, ← f10, ← f01, ← f00]; ring

/-- C10. Conversely the difference in differences of means is always attained by a least-squares
solution, so the previous theorem is about an estimate that exists. -/
theorem C10_att_exists (y : ι → K) (d t : ι → Bool) (hne : ∀ a c, ∃ i, d i = a ∧ t i = c) :
    IsAtt y d t (did y d t) := by
  refine ⟨![cellMean y d t false false,
    cellMean y d t true false - cellMean y d t false false,
    cellMean y d t false true - cellMean y d t false false, did y d t], ?_, rfl⟩
  rw [isOls_iff_cells]
  intro a c
  rw [cell_resid]
  have hc : ((cell d t a c).card : K) ≠ 0 := by
    obtain ⟨i, hi⟩ := hne a c
    exact_mod_cast (Finset.card_pos.2 ⟨i, mem_cell.2 hi⟩).ne'
  have : (![cellMean y d t false false,
    cellMean y d t true false - cellMean y d t false false,
    cellMean y d t false true - cellMean y d t false false, did y d t] : Fin 4 → K) 0
    + ind a * (cellMean y d t true false - cellMean y d t false false)
    + ind c * (cellMean y d t false true - cellMean y d t false false)
    + ind a * ind c * did y d t = cellMean y d t a c := by
    cases a <;> cases c <;> simp [ind, did]
  show ∑ i ∈ cell d t a c, y i - _ * _ = 0
  have e : (∑ i ∈ cell d t a c, y i) = (cell d t a c).card * cellMean y d t a c := by
    rw [cellMean]; field_simp
  rw [e, ← mul_sub]
  apply mul_eq_zero_of_right
  rw [← this]; simp

/-- C10. The fit is exact at cell level: fitted values are cell means. -/
theorem C10_fitted_are_cell_means (y : ι → K) (d t : ι → Bool) (b : Fin 4 → K)
    (h : Ols.IsOls (design d t) y b) (i : ι) :
    ∑ j, design d t i j * b j = cellMean y d t (d i) (t i) := by
  rw [← fitted_cell y d t b h (d i) (t i) ⟨i, mem_cell.2 ⟨rfl, rfl⟩⟩]
  exact fitted_design d t b i

/-- C10. When a cell is empty the effect is not identified: for every value there is a least-squares
solution reporting it. -/
theorem C10_empty_cell_not_identified (y : ι → K) (d t : ι → Bool) (a c : Bool)
    (he : ∀ i, ¬ (d i = a ∧ t i = c)) (att b0 : K) (h : IsAtt y d t b0) : IsAtt y d t att := by
  obtain ⟨b, hb, rfl⟩ := h
  have hc : cell d t a c = ∅ := by
    ext i; simp only [mem_cell, Finset.notMem_empty, iff_false]; exact he i
  -- shift along the null direction that changes only the empty cell
  set s := att - b 3 with hs
  have key : ∀ v : Fin 4 → K, (∀ a' c', (a' ≠ a ∨ c' ≠ c) →
      v 0 + ind a' * v 1 + ind c' * v 2 + ind a' * ind c' * v 3 = 0) →
      Ols.IsOls (design d t) y (fun j => b j + v j) := by
    intro v hv
    rw [isOls_iff_cells]
    intro a' c'
    by_cases hac : a' = a ∧ c' = c
    · rw [hac.1, hac.2, hc]; simp
    · have h1 := (isOls_iff_cells y d t b).1 hb a' c'
      rw [cell_resid] at h1 ⊢
      have h2 := hv a' c' (by by_contra hh; push Not at hh; exact hac hh)
      rw [← h1]
      have : (b 0 + v 0 + ind a' * (b 1 + v 1) + ind c' * (b 2 + v 2) + ind a' * ind c' * (b 3 + v 3))
        = (b 0 + ind a' * b 1 + ind c' * b 2 + ind a' * ind c' * b 3)
          + (v 0 + ind a' * v 1 + ind c' * v 2 + ind a' * ind c' * v 3) := by ring
      rw [this, h2, add_zero]
  cases a <;> cases c
  · refine ⟨_, key ![s, -s, -s, s] ?_, by simp [hs]⟩
    intro a' c' hh; cases a' <;> cases c' <;> simp [ind] at hh ⊢
  · refine ⟨_, key ![0, 0, -s, s] ?_, by simp [hs]⟩
    intro a' c' hh; cases a' <;> cases c' <;> simp [ind] at hh ⊢
  · refine ⟨_, key ![0, -s, 0, s] ?_, by simp [hs]⟩
    intro a' c' hh; cases a' <;> cases c' <;> simp [ind] at hh ⊢
  · refine ⟨_, key ![0, 0, 0, s] ?_, by simp [hs]⟩
    intro a' c' hh; cases a' <;> cases c' <;> simp [ind] at hh ⊢

/-- C10. Adding group effects, period effects and a constant effect on treated-post rows to any outcome
shifts `att` by exactly that effect. -/
theorem C10_additive_effect (y : ι → K) (d t : ι → Bool) (g p : Bool → K) (tau : K)
    (hne : ∀ a c, ∃ i, d i = a ∧ t i = c) :
    did (fun i => y i + g (d i) + p (t i) + if d i ∧ t i then tau else 0) d t = did y d t + tau := by
  have hm : ∀ a c, cellMean (fun i => y i + g (d i) + p (t i) + if d i ∧ t i then tau else 0) d t a c
      = cellMean y d t a c + g a + p c + if a ∧ c then tau else 0 := by
    intro a c
    have hc : ((cell d t a c).card : K) ≠ 0 := by
      obtain ⟨i, hi⟩ := hne a c
      exact_mod_cast (Finset.card_pos.2 ⟨i, mem_cell.2 hi⟩).ne'
    have e : ∑ i ∈ cell d t a c, (y i + g (d i) + p (t i) + if d i ∧ t i then tau else 0)
        = ∑ i ∈ cell d t a c, y i + (cell d t a c).card * (g a + p c + if a ∧ c then tau else 0) := by
      rw [← nsmul_eq_mul, ← Finset.sum_const, ← Finset.sum_add_distrib]
      refine Finset.sum_congr rfl (fun i hi => ?_)
      rw [(mem_cell.1 hi).1, (mem_cell.1 hi).2]; ring
    rw [cellMean, cellMean, e]; field_simp
    try ring
  unfold did
  simp only [hm]; simp; ring

/-- C10. Swapping the roles of the groups, or of the periods, flips the sign of the effect. -/
theorem C10_antisymmetric (y : ι → K) (d t : ι → Bool) :
    did y (fun i => !d i) t = - did y d t ∧ did y d (fun i => !t i) = - did y d t := by
  have e1 : ∀ a c, cell (fun i => !d i) t a c = cell d t (!a) c := by
    intro a c; ext i; simp only [mem_cell]; cases d i <;> cases a <;> simp
  have e2 : ∀ a c, cell d (fun i => !t i) a c = cell d t a (!c) := by
    intro a c; ext i; simp only [mem_cell]; cases t i <;> cases c <;> simp
  constructor
  · simp only [did, cellMean, e1]; simp
  · simp only [did, cellMean, e2]; simp; ring

/-- C10. With covariates or fixed-effect dummies: if the outcome follows the model exactly and the columns
are linearly independent, `att` is the true effect. -/
theorem C10_covariates_recover {κ : Type*} [Fintype κ] (y : ι → K) (d t : ι → Bool) (Z : ι → κ → K)
    (b0 b1 b2 tau : K) (gam : κ → K) (att : K)
    (hy : ∀ i, y i = b0 + b1 * ind (d i) + b2 * ind (t i) + tau * (ind (d i) * ind (t i))
      + ∑ m, Z i m * gam m)
    (indep : ∀ v : Fin 4 ⊕ κ → K, (∀ i, ∑ j, designCov d t Z i j * v j = 0) → v = 0)
    (h : IsAttCov y d t Z att) : att = tau := by
  obtain ⟨b, hb, rfl⟩ := h
  have hex : Ols.IsOls (designCov d t Z) y (Sum.elim ![b0, b1, b2, tau] gam) := by
    intro j
    refine Finset.sum_eq_zero (fun i _ => ?_)
    have : Ols.resid (designCov d t Z) y (Sum.elim ![b0, b1, b2, tau] gam) i = 0 := by
      simp only [Ols.resid, Ols.fitted, Ols.dot, Fintype.sum_sum_type, designCov, Sum.elim_inl,
        Sum.elim_inr, Fin.sum_univ_four, design, hy]
      simp; ring
    rw [this, mul_zero]
  have := Ols.C11_coefficients_unique _ y b _ hb hex indep
  rw [this]; rfl

/-! ### C64: absorbed fixed effects -/

/-- C64. Absorbing unit effects recovers the effect of an additive model when treatment is constant
within units and every unit has the same share of post-period rows. -/
theorem C64_absorb_recovers_partial (unit : ι → U) (y : ι → K) (d t : ι → Bool) (alpha : U → K)
    (c tau : K) (share : K) (att : K)
    (hd : ∀ i j, unit i = unit j → d i = d j)
    (hshare : ∀ u, ((Finset.univ.filter (fun i => unit i = u ∧ t i = true)).card : K)
      = share * ((Finset.univ.filter (fun i => unit i = u)).card : K))
    (hy : ∀ i, y i = alpha (unit i) + c * ind (t i) + tau * (ind (d i) * ind (t i)))
    (hne : ∀ a c, ∃ i, d i = a ∧ t i = c)
    (h : IsAttAbsorb unit y d t att) : att = tau := by
  have hdm : Within.demean unit y = fun i => (0 : K) + (fun a => - (c + tau * ind a) * share) (d i)
      + (fun p => c * ind p) (t i) + (if d i ∧ t i then tau else 0) := by
    funext i
    have hc := Within.card_grp_ne (K := K) unit i
    have e : ∑ j ∈ Within.grp unit (unit i), y j
        = (Within.grp unit (unit i)).card * (alpha (unit i) + (c + tau * ind (d i)) * share) := by
      have h1 : ∀ j ∈ Within.grp unit (unit i), y j
          = alpha (unit i) + (c + tau * ind (d i)) * (if t j = true then 1 else 0) := by
        intro j hj
        have hj' := Within.mem_grp.1 hj
        rw [hy j, hj', hd j i hj']
        unfold ind
        split_ifs <;> ring
      rw [Finset.sum_congr rfl h1, Finset.sum_add_distrib, ← Finset.mul_sum, Finset.sum_boole,
        Finset.sum_const, nsmul_eq_mul]
      have h2 : ((Within.grp unit (unit i)).filter (fun j => t j = true))
          = Finset.univ.filter (fun j => unit j = unit i ∧ t j = true) := by
        ext j; simp [Within.grp]
      rw [h2, hshare]
      unfold Within.grp; ring
    simp only [Within.demean, Within.groupMean, e, hy i]
    rw [mul_div_cancel_left₀ _ hc]
    cases d i <;> cases t i <;> simp [ind] <;> ring
  have ha := C10_att_is_difference_of_means _ d t att hne h
  rw [ha, hdm]
  refine (C10_additive_effect (fun _ => (0 : K)) d t (fun a => - (c + tau * ind a) * share)
    (fun p => c * ind p) tau hne).trans ?_
  simp [did, cellMean]

end basic

/-! ### Witnesses -/

/-- 6 rows: treated-post 5, 7; treated-pre 1; control-post 4; control-pre 1, 3. -/
def exD : Fin 6 → Bool := ![true, true, true, false, false, false]
def exT : Fin 6 → Bool := ![true, true, false, true, false, false]
def exYs : Fin 6 → ℚ := ![5, 7, 1, 4, 1, 3]
example : (∀ a c, ∃ i, exD i = a ∧ exT i = c) ∧ did exYs exD exT = 3 := by
  constructor <;> decide +kernel

/-- Covariate case: columns 1, d, t, dt and one covariate on 6 rows, linearly independent. -/
def exZ : Fin 6 → Fin 1 → ℚ := fun i => ![![0, 1, 0, 2, 5, 0] i]
example : ∀ v : Fin 4 ⊕ Fin 1 → ℚ, (∀ i, ∑ j, designCov exD exT exZ i j * v j = 0) → v = 0 := by
  intro v h
  have h0 := h 0; have h1 := h 1; have h2 := h 2; have h3 := h 3; have h5 := h 5
  simp [Fintype.sum_sum_type, designCov, Fin.sum_univ_four, design, exD, exT, exZ, ind] at h0 h1 h2 h3 h5
  funext j
  rcases j with j | j
  · fin_cases j <;> simp <;> linarith
  · fin_cases j; simp; linarith

/-- Balanced panel meeting the hypotheses of `C64_absorb_recovers_partial`: two units, two periods. -/
example : (∀ u : Bool, ((Finset.univ.filter (fun i : Bool × Bool => i.1 = u ∧ i.2 = true)).card : ℚ)
      = (1/2) * ((Finset.univ.filter (fun i : Bool × Bool => i.1 = u)).card : ℚ)) ∧
    (∀ a c, ∃ i : Bool × Bool, i.1 = a ∧ i.2 = c) := by constructor <;> decide +kernel

/-- Unbalanced panel: unit 0 treated (pre, post), unit 1 treated (pre only), unit 2 control (pre, post). -/
def ubUnit : Fin 5 → Fin 3 := ![0, 0, 1, 2, 2]
def ubD : Fin 5 → Bool := ![true, true, true, false, false]
def ubT : Fin 5 → Bool := ![false, true, false, false, true]
/-- Outcome with unit effects 0 and a treatment effect of 1, no noise. -/
def ubY : Fin 5 → ℚ := ![0, 1, 0, 0, 0]

/-- C64 is false on unbalanced panels: for a noiseless additive outcome with effect 1, `absorb=['unit']`
reports 3/4, while including the unit dummies (`fixed_effects=['unit']`) reports 1 whichever
least-squares solution is returned. -/
theorem C64_absorb_unbalanced_refuted :
    (∀ i, ubY i = 0 + 1 * (ind (ubD i) * ind (ubT i))) ∧
    (∀ i j, ubUnit i = ubUnit j → ubD i = ubD j) ∧
    (∀ a c, ∃ i, ubD i = a ∧ ubT i = c) ∧
    (∃ att, IsAttAbsorb ubUnit ubY ubD ubT att) ∧
    (∀ att, IsAttAbsorb ubUnit ubY ubD ubT att → att = 3 / 4) ∧
    (∀ att, IsAttCov ubY ubD ubT (unitDummies ubUnit) att → att = 1) := by
  have hne : ∀ a c, ∃ i, ubD i = a ∧ ubT i = c := by decide +kernel
  refine ⟨by decide +kernel, by decide +kernel, hne, ⟨_, C10_att_exists _ _ _ hne⟩, ?_, ?_⟩
  · intro att h
    rw [C10_att_is_difference_of_means _ _ _ _ hne h]
    decide +kernel
  · rintro att ⟨b, hb, rfl⟩
    have hex : Ols.IsOls (designCov ubD ubT (unitDummies ubUnit)) ubY
        (Sum.elim ![0, 0, 0, 1] (fun _ => 0)) := by
      intro j
      rcases j with j | j <;> fin_cases j <;> decide +kernel
    have f := Ols.C11_fitted_unique _ ubY b _ hb hex
    have f0 := f 0; have f1 := f 1; have f3 := f 3; have f4 := f 4
    simp [Fintype.sum_sum_type, designCov, Fin.sum_univ_four, Fin.sum_univ_three, design, ubD, ubT,
      ubUnit, unitDummies, ind] at f0 f1 f3 f4
    linarith

end DiffDiff.Did2x2
