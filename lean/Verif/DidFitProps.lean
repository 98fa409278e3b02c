/-
Property C125: closed forms of the DiD standard errors.
-/
import Verif.DidFit
import Verif.Did2x2Props
import Verif.LinRegProps
import Mathlib.LinearAlgebra.Matrix.ToLinearEquiv

set_option linter.unusedSectionVars false

namespace DiffDiff.DidFit
open Matrix Did2x2 Vcov
open Ols (IsOls resid fitted dot)

variable {K : Type*} [Field K] [LinearOrder K] [IsStrictOrderedRing K]
variable {ι κ C : Type*} [Fintype ι] [DecidableEq ι] [Fintype κ] [DecidableEq κ] [DecidableEq C]

/-! ### Variance of one coefficient through its weights -/

/-- `h` is the combination of the regressors that isolates coefficient `j`: `h = X v` and `X' h = e_j`. -/
structure Isolates (X : Matrix ι κ K) (j : κ) (v : κ → K) (h : ι → K) : Prop where
  comb : ∀ i, h i = ∑ m, X i m * v m
  unit : ∀ m, ∑ i, X i m * h i = if m = j then 1 else 0

theorem Isolates.inv {X : Matrix ι κ K} {j : κ} {v : κ → K} {h : ι → K} (H : Isolates X j v h) (hX : (Xᵀ * X).det ≠ 0) :
    (Xᵀ * X)⁻¹ *ᵥ (fun m => if m = j then 1 else 0) = v := by
  have hu : IsUnit (Xᵀ * X).det := isUnit_iff_ne_zero.2 hX
  have e : (Xᵀ * X) *ᵥ v = fun m => if m = j then 1 else 0 := by
    funext m
    rw [← mulVec_mulVec]
    simp only [mulVec, dotProduct, transpose_apply]
    rw [← H.unit m]
    exact Finset.sum_congr rfl fun i _ => by rw [H.comb i]
  rw [← e, mulVec_mulVec, nonsing_inv_mul _ hu, one_mulVec]

theorem quad_unit (V : Matrix κ κ K) (j : κ) : quad V (fun m => if m = j then 1 else 0) = V j j := by
  simp [quad]

/-- C125. Any coefficient is the `h`-weighted sum of the outcomes. -/
theorem C125_coefficient (X : Matrix ι κ K) (j : κ) (v : κ → K) (h : ι → K) (H : Isolates X j v h) (y : ι → K) (b : κ → K) (hb : IsOls X y b) :
    b j = ∑ i, h i * y i := by
  have h1 : ∑ i, h i * resid X y b i = 0 := by
    simp only [H.comb, Finset.sum_mul]
    rw [Finset.sum_comm]
    refine Finset.sum_eq_zero fun m _ => ?_
    have e : ∀ i, X i m * v m * resid X y b i = v m * (X i m * resid X y b i) := fun i => by ring
    simp only [e, ← Finset.mul_sum, hb m, mul_zero]
  have h2 : ∑ i, h i * fitted X b i = b j := by
    simp only [fitted, dot, Finset.mul_sum]
    rw [Finset.sum_comm]
    have e : ∀ m, ∑ i, h i * (X i m * b m) = (if m = j then 1 else 0) * b m := by
      intro m; rw [← H.unit m, Finset.sum_mul]; exact Finset.sum_congr rfl fun i _ => by ring
    simp only [e]
    simp
  have h3 : ∑ i, h i * y i = ∑ i, h i * resid X y b i + ∑ i, h i * fitted X b i := by
    rw [← Finset.sum_add_distrib]
    exact Finset.sum_congr rfl fun i _ => by unfold resid; ring
  rw [h3, h1, h2, zero_add]

/-- C125. Heteroskedasticity-robust variance of any coefficient. -/
theorem C125_robust (X : Matrix ι κ K) (hX : (Xᵀ * X).det ≠ 0) (j : κ) (v : κ → K) (h : ι → K) (H : Isolates X j v h) (u : ι → K)
    (V : Matrix κ κ K) (hV : vcovNumpy (C := C) X u none = .ok V) :
    V j j = (Fintype.card ι : K) / ((Fintype.card ι : K) - Fintype.card κ) * ∑ i, (h i * u i) ^ 2 := by
  simp only [vcovNumpy] at hV
  split_ifs at hV
  cases hV
  rw [← quad_unit (sandwichNumpy _ _ _) j, quad_sandwich _ _ _ (gram_inv_symm X), H.inv hX, quad_hc1]
  congr 1
  exact Finset.sum_congr rfl fun i _ => by rw [H.comb i]

/-- C125. Clustered variance of any coefficient, no missing cluster ids. -/
theorem C125_cluster (X : Matrix ι κ K) (hX : (Xᵀ * X).det ≠ 0) (j : κ) (v : κ → K) (h : ι → K) (H : Isolates X j v h) (u : ι → K)
    (ids : ι → C) (V : Matrix κ κ K) (hV : vcovNumpy X u (some (fun i => some (ids i))) = .ok V) :
    V j j = (((Finset.univ.image ids).card : K) / (((Finset.univ.image ids).card : K) - 1)) *
        (((Fintype.card ι : K) - 1) / ((Fintype.card ι : K) - Fintype.card κ)) *
      ∑ g ∈ Finset.univ.image ids, (∑ i ∈ Finset.univ.filter (fun i => ids i = g), h i * u i) ^ 2 := by
  have hinj : Function.Injective (some : C → Option C) := Option.some_injective C
  have himg : Finset.univ.image (fun i => some (ids i)) = (Finset.univ.image ids).image some := by
    rw [Finset.image_image]; rfl
  have hG : nClusters (fun i => some (ids i)) = (Finset.univ.image ids).card := by
    unfold nClusters; rw [himg, Finset.card_image_of_injective _ hinj]
  simp only [vcovNumpy, hG] at hV
  split_ifs at hV
  cases hV
  rw [← quad_unit (sandwichNumpy _ _ _) j, quad_sandwich _ _ _ (gram_inv_symm X), H.inv hX, quad_numpyMeat]
  congr 1
  have he : (Finset.univ.image (fun i => some (ids i))).erase none = (Finset.univ.image ids).image some := by
    rw [himg]; ext x; cases x <;> simp
  rw [he, Finset.sum_image (fun x _ y _ e => hinj e)]
  refine Finset.sum_congr rfl fun g _ => ?_
  congr 1
  have e : ∀ m, score X u (fun i => some (ids i)) (some g) m * v m = ∑ i ∈ Finset.univ.filter (fun i => ids i = g), X i m * v m * u i := by
    intro m
    simp only [score, Finset.sum_mul, Option.some.injEq]
    exact Finset.sum_congr rfl fun i _ => by ring
  simp only [e]
  rw [Finset.sum_comm]
  exact Finset.sum_congr rfl fun i _ => by rw [H.comb i, Finset.sum_mul]

/-- C125. Classical variance of any coefficient. -/
theorem C125_classical (pinv : Matrix κ κ K → Matrix κ κ K) (X : Matrix ι κ K) (hX : (Xᵀ * X).det ≠ 0) (j : κ) (v : κ → K) (h : ι → K)
    (H : Isolates X j v h) (u : ι → K) (V : Matrix κ κ K) (hV : LinReg.classical pinv X u = some V) :
    V j j = (∑ i, u i ^ 2) / ((Fintype.card ι : K) - Fintype.card κ) * ∑ i, h i ^ 2 := by
  unfold LinReg.classical at hV
  dsimp only at hV
  split_ifs at hV with h1 h2
  · cases hV
    rw [Matrix.mul_smul, Matrix.mul_one, Matrix.smul_apply, smul_eq_mul]
    congr 1
    have e1 : (Xᵀ * X)⁻¹ j j = v j := by
      rw [← H.inv hX]
      simp [mulVec, dotProduct]
    have e2 : ∑ i, h i ^ 2 = v j := by
      have : ∀ i, h i ^ 2 = ∑ m, v m * (X i m * h i) := by
        intro i; rw [pow_two]; nth_rw 1 [H.comb i]; rw [Finset.sum_mul]
        exact Finset.sum_congr rfl fun m _ => by ring
      simp only [this]
      rw [Finset.sum_comm]
      simp only [← Finset.mul_sum, H.unit]
      simp
    rw [e1, e2]

/-! ### The saturated 2x2 design -/

/-- Sign of a cell in the difference in differences. -/
def sgn (a b : Bool) : K := if a = b then 1 else -1

/-- Weight of a row in the difference in differences of cell means. -/
def weight (d t : ι → Bool) (i : ι) : K := sgn (d i) (t i) / ((cell d t (d i) (t i)).card : K)

/-- Squared deviations from the cell mean. -/
def within (y : ι → K) (d t : ι → Bool) (a b : Bool) : K := ∑ i ∈ cell d t a b, (y i - cellMean y d t a b) ^ 2

/-- All four cells have a row. -/
def Occupied (d t : ι → Bool) : Prop := ∀ a c, ∃ i, d i = a ∧ t i = c

theorem Occupied.card {d t : ι → Bool} (h : Occupied d t) (a c : Bool) : ((cell d t a c).card : K) ≠ 0 := by
  obtain ⟨i, hi⟩ := h a c
  exact_mod_cast (Finset.card_pos.2 ⟨i, mem_cell.2 hi⟩).ne'

theorem sum_weight {d t : ι → Bool} (h : Occupied d t) (a c : Bool) : ∑ i ∈ cell d t a c, (weight d t i : K) = sgn a c := by
  have e : ∀ i ∈ cell d t a c, (weight d t i : K) = sgn a c / ((cell d t a c).card : K) := by
    intro i hi; unfold weight; rw [(mem_cell.1 hi).1, (mem_cell.1 hi).2]
  rw [Finset.sum_congr rfl e, Finset.sum_const, nsmul_eq_mul, mul_div_cancel₀ _ (h.card a c)]

theorem weight_isolates {d t : ι → Bool} (h : Occupied d t) :
    ∃ v : Fin 4 → K, Isolates (design d t) 3 v (weight d t) := by
  have c : ∀ a b, ∃ x : K, x = sgn a b / ((cell d t a b).card : K) := fun a b => ⟨_, rfl⟩
  obtain ⟨c11, h11⟩ := c true true
  obtain ⟨c10, h10⟩ := c true false
  obtain ⟨c01, h01⟩ := c false true
  obtain ⟨c00, h00⟩ := c false false
  refine ⟨![c00, c10 - c00, c01 - c00, c11 - c10 - c01 + c00], ⟨fun i => ?_, fun m => ?_⟩⟩
  · simp only [Fin.sum_univ_four, design, weight]
    cases hd : d i <;> cases ht : t i <;> simp [ind, h11, h10, h01, h00]
    ring
  · obtain ⟨s1, s2, s3⟩ := sum_ind d t (weight d t : ι → K)
    have s0 := sum_cells d t (weight d t : ι → K)
    simp only [sum_weight h] at s0 s1 s2 s3
    fin_cases m
    · simp [design, s0, sgn]
    · simp [design, s1, sgn]
    · simp [design, s2, sgn]
    · simp [design, s3, sgn]

theorem design_det {d t : ι → Bool} (h : Occupied d t) (X : Matrix ι (Fin 4) K) (hX : X = design d t) : (Xᵀ * X).det ≠ 0 := by
  intro h0
  obtain ⟨v, hv, h1⟩ := Matrix.exists_mulVec_eq_zero_iff.2 h0
  apply hv
  have h2 : ∀ i, fitted X v i = 0 := by
    have e : ∑ i, fitted X v i ^ 2 = 0 := by
      have : v ⬝ᵥ ((Xᵀ * X) *ᵥ v) = 0 := by rw [h1, dotProduct_zero]
      rw [← mulVec_mulVec, dotProduct_mulVec, vecMul_transpose] at this
      rw [← this]
      exact Finset.sum_congr rfl fun i _ => by rw [pow_two]; rfl
    intro i
    have := (Finset.sum_eq_zero_iff_of_nonneg (fun i _ => sq_nonneg (fitted X v i))).1 e i (Finset.mem_univ i)
    exact pow_eq_zero_iff (two_ne_zero) |>.1 this
  have f : ∀ a c, v 0 + ind a * v 1 + ind c * v 2 + ind a * ind c * v 3 = 0 := by
    intro a c
    obtain ⟨i, hi1, hi2⟩ := h a c
    rw [← h2 i, hX, fitted_design, hi1, hi2]
  have f11 := f true true; have f10 := f true false; have f01 := f false true; have f00 := f false false
  simp only [ind] at f11 f10 f01 f00
  simp at f11 f10 f01 f00
  have g1 : v 1 = 0 := by linarith
  have g2 : v 2 = 0 := by linarith
  have g3 : v 3 = 0 := by linarith
  funext m; fin_cases m
  · exact f00
  · exact g1
  · exact g2
  · exact g3

/-- Residuals are deviations from the cell means. -/
theorem resid_cell (y : ι → K) (d t : ι → Bool) (b : Fin 4 → K) (hb : IsOls (design d t) y b) (i : ι) :
    resid (design d t) y b i = y i - cellMean y d t (d i) (t i) := by
  unfold resid
  rw [fitted_design, fitted_cell y d t b hb (d i) (t i) ⟨i, mem_cell.2 ⟨rfl, rfl⟩⟩]

theorem sum_sq_weight {d t : ι → Bool} (h : Occupied d t) (y : ι → K) :
    ∑ i, (weight d t i * (y i - cellMean y d t (d i) (t i))) ^ 2 = ∑ a, ∑ c, within y d t a c / ((cell d t a c).card : K) ^ 2 := by
  rw [sum_cells d t]
  have e : ∀ a c, ∑ i ∈ cell d t a c, (weight d t i * (y i - cellMean y d t (d i) (t i))) ^ 2 = within y d t a c / ((cell d t a c).card : K) ^ 2 := by
    intro a c
    unfold within
    rw [Finset.sum_div]
    refine Finset.sum_congr rfl fun i hi => ?_
    unfold weight
    rw [(mem_cell.1 hi).1, (mem_cell.1 hi).2, mul_pow, div_pow]
    have : (sgn a c : K) ^ 2 = 1 := by unfold sgn; split_ifs <;> ring
    rw [this]; ring
  simp only [e, Fintype.sum_bool]
  ring

theorem sum_sq {d t : ι → Bool} (h : Occupied d t) : ∑ i, (weight d t i : K) ^ 2 = ∑ a, ∑ c, 1 / ((cell d t a c).card : K) := by
  rw [sum_cells d t]
  have e : ∀ a c, ∑ i ∈ cell d t a c, (weight d t i : K) ^ 2 = 1 / ((cell d t a c).card : K) := by
    intro a c
    have e1 : ∀ i ∈ cell d t a c, (weight d t i : K) ^ 2 = 1 / ((cell d t a c).card : K) ^ 2 := by
      intro i hi
      unfold weight
      rw [(mem_cell.1 hi).1, (mem_cell.1 hi).2, div_pow]
      have : (sgn a c : K) ^ 2 = 1 := by unfold sgn; split_ifs <;> ring
      rw [this]
    rw [Finset.sum_congr rfl e1, Finset.sum_const, nsmul_eq_mul]
    have := h.card (K := K) a c
    field_simp
  simp only [e, Fintype.sum_bool]
  ring

theorem sum_within (y : ι → K) (d t : ι → Bool) : ∑ i, (y i - cellMean y d t (d i) (t i)) ^ 2 = ∑ a, ∑ c, within y d t a c := by
  rw [sum_cells d t]
  have e : ∀ a c, ∑ i ∈ cell d t a c, (y i - cellMean y d t (d i) (t i)) ^ 2 = within y d t a c := by
    intro a c
    unfold within
    exact Finset.sum_congr rfl fun i hi => by rw [(mem_cell.1 hi).1, (mem_cell.1 hi).2]
  simp only [e, Fintype.sum_bool]
  ring

/-! ### The reported fit -/

/-- The pieces of a successful fit on occupied cells. -/
theorem core_ok {L : Lib ι K} (hL : LinReg.Solves L.solvers) {o : Opts ι C} {alpha : K} {d t : ι → Bool} (h : Occupied d t) {y : ι → K} {adj : ℤ}
    {R : Result K} (hR : fitCore L o alpha [] d t y adj = .ok R) :
    ∃ (b : Fin 4 → K) (V : Option (Matrix (Fin 4) (Fin 4) K)) (f : LinReg.Fit ι 4 K), IsOls (design d t) y b ∧
      LinReg.vcov L.solvers.pinv (⟨o.robust, o.cluster, none, o.strict⟩ : LinReg.Opts ι C) (design d t : Matrix ι (Fin 4) K)
        (fun i => y i - cellMean y d t (d i) (t i)) = .ok V ∧
      b 3 = did y d t ∧ f.coef 3 = some (did y d t) ∧ f.vcov (3, 3) = V.map (fun V => V 3 3) ∧ f.df = (Fintype.card ι : ℤ) - 4 - adj ∧
      f.resid = (fun i => y i - cellMean y d t (d i) (t i)) ∧
      R.att = .fin (did y d t) ∧ R.se = (LinReg.infer L.sqrt L.tD L.nD f 3 none alpha none).se ∧
      R.t = (LinReg.infer L.sqrt L.tD L.nD f 3 none alpha none).t ∧ R.p = (LinReg.infer L.sqrt L.tD L.nD f 3 none alpha none).p ∧
      R.ci = (LinReg.infer L.sqrt L.tD L.nD f 3 none alpha none).ci ∧ R.nObs = Fintype.card ι ∧
      R.nTreated = (Finset.univ.filter (fun i => d i = true)).card ∧ R.nControl = (Finset.univ.filter (fun i => d i = false)).card ∧
      R.r2 = rSquared y f.resid false 0 := by
  have hb := hL (design d t : Matrix ι (Fin 4) K) y
  have hr : resid (design d t) y (L.solvers.lstsq (design d t : Matrix ι (Fin 4) K) y) = fun i => y i - cellMean y d t (d i) (t i) := by
    funext i; exact resid_cell y d t _ hb i
  have h3 : L.solvers.lstsq (design d t : Matrix ι (Fin 4) K) y 3 = did y d t := C10_att_is_difference_of_means y d t _ h ⟨_, hb, rfl⟩
  simp only [fitCore, LinReg.fit, hr] at hR
  by_cases hk : Fintype.card ι < 4
  · simp [hk] at hR
  · rw [if_neg hk] at hR
    cases hv : LinReg.vcov L.solvers.pinv (⟨o.robust, o.cluster, none, o.strict⟩ : LinReg.Opts ι C) (design d t : Matrix ι (Fin 4) K)
        (fun i => y i - cellMean y d t (d i) (t i)) with
    | error e => rw [hv] at hR; cases hR
    | ok V =>
      rw [hv] at hR
      cases hR
      refine ⟨_, V, _, hb, rfl, h3, congrArg some h3, rfl, ?_, rfl, ?_, rfl, rfl, rfl, rfl, rfl, rfl, rfl, rfl⟩
      · simp [Ols.dfOf, Ols.nParamsEffective]
      · simp only [LinReg.toExt, h3]

/-- C125. The point estimate, the counts and the fitted quality: difference in differences of the four cell means, rows, treated and untreated rows, and
the share of the outcome's variation between cells. -/
theorem C125_point (L : Lib ι K) (hL : LinReg.Solves L.solvers) (o : Opts ι C) (alpha : K) (d t : ι → Bool) (h : Occupied d t) (y : ι → K)
    (R : Result K) (hR : fit L o alpha [] d t y = .ok R) :
    R.att = .fin ((cellMean y d t true true - cellMean y d t true false) - (cellMean y d t false true - cellMean y d t false false)) ∧
    R.nObs = Fintype.card ι ∧ R.nTreated + R.nControl = R.nObs ∧
    R.nTreated = (cell d t true true).card + (cell d t true false).card ∧
    ((∃ i j, y i ≠ y j) → R.r2 = 1 - (∑ a, ∑ c, within y d t a c) / ∑ i, (y i - (∑ j, y j) / (Fintype.card ι : K)) ^ 2) := by
  obtain ⟨b, V, f, hb, hV, h3, hc, hv, hdf, hres, ha, hse, ht, hp, hci, hn, hnt, hnc, hr2⟩ := core_ok hL h hR
  refine ⟨ha, hn, ?_, ?_, ?_⟩
  · rw [hnt, hnc, hn]
    have := Finset.card_filter_add_card_filter_not (s := (Finset.univ : Finset ι)) (fun i => d i = true)
    simpa using this
  · rw [hnt]
    have e : Finset.univ.filter (fun i => d i = true) = cell d t true true ∪ cell d t true false := by
      ext i; simp only [Finset.mem_filter, Finset.mem_univ, true_and, Finset.mem_union, mem_cell]
      cases d i <;> cases t i <;> simp
    rw [e, Finset.card_union_of_disjoint]
    rw [Finset.disjoint_left]
    intro i h1 h2
    have := (mem_cell.1 h1).2
    rw [(mem_cell.1 h2).2] at this; cases this
  · rintro ⟨i, j, hij⟩
    rw [hr2, hres]
    unfold rSquared
    dsimp only
    rw [if_neg]
    · simp [sum_within]
    · intro h0
      have hz := (Finset.sum_eq_zero_iff_of_nonneg (fun i _ => sq_nonneg (y i - (∑ j, y j) / (Fintype.card ι : K)))).1 h0
      have z1 := pow_eq_zero_iff (two_ne_zero) |>.1 (hz i (Finset.mem_univ i))
      have z2 := pow_eq_zero_iff (two_ne_zero) |>.1 (hz j (Finset.mem_univ j))
      exact hij (by linarith)

theorem infer_se {k : ℕ} (r : K → K) (tD : ℤ → Inference.Dist K) (nD : Inference.Dist K) (f : LinReg.Fit ι k K) (j : Fin k) (al : Option K) (alpha : K)
    (dfArg : Option ℤ) : (LinReg.infer r tD nD f j al alpha dfArg).se = LinReg.toExt ((f.vcov (j, j)).map r) := rfl

/-- C125. Default (heteroskedasticity-robust) standard error, in terms of the four cells. -/
theorem C125_se_robust (L : Lib ι K) (hL : LinReg.Solves L.solvers) (o : Opts ι C) (ho : o.robust = true) (hc : o.cluster = none) (alpha : K)
    (d t : ι → Bool) (h : Occupied d t) (y : ι → K) (adj : ℤ) (R : Result K) (hR : fitCore L o alpha [] d t y adj = .ok R) :
    R.se = .fin (L.sqrt ((Fintype.card ι : K) / ((Fintype.card ι : K) - 4) * ∑ a, ∑ c, within y d t a c / ((cell d t a c).card : K) ^ 2)) := by
  obtain ⟨b, V, f, hb, hV, h3, hcf, hv, hdf, hres, ha, hse, -⟩ := core_ok hL h hR
  obtain ⟨v, H⟩ := weight_isolates (K := K) h
  simp only [LinReg.vcov, ho, Bool.true_or, if_true, LinReg.Opts.ids, hc] at hV
  cases hn : vcovNumpy (C := C) (design d t : Matrix ι (Fin 4) K) (fun i => y i - cellMean y d t (d i) (t i)) none with
  | error e => rw [hn] at hV; cases hV
  | ok W =>
    rw [hn] at hV
    cases hV
    have key := C125_robust (C := C) _ (design_det h _ rfl) 3 v _ H _ W hn
    rw [sum_sq_weight h] at key
    rw [hse, infer_se, hv]
    simp only [Option.map_some, LinReg.toExt, key, Fintype.card_fin]
    norm_num

/-- C125. Classical standard error (`robust=False`): pooled within-cell variance times the sum of reciprocal cell sizes; undefined with one row per cell. -/
theorem C125_se_classical (L : Lib ι K) (hL : LinReg.Solves L.solvers) (o : Opts ι C) (ho : o.robust = false) (hc : o.cluster = none) (alpha : K)
    (d t : ι → Bool) (h : Occupied d t) (y : ι → K) (adj : ℤ) (R : Result K) (hR : fitCore L o alpha [] d t y adj = .ok R) :
    (Fintype.card ι = 4 → R.se = .nan) ∧
    (Fintype.card ι ≠ 4 → R.se = .fin (L.sqrt ((∑ a, ∑ c, within y d t a c) / ((Fintype.card ι : K) - 4) * ∑ a, ∑ c, 1 / ((cell d t a c).card : K)))) := by
  obtain ⟨b, V, f, hb, hV, h3, hcf, hv, hdf, hres, ha, hse, -⟩ := core_ok hL h hR
  obtain ⟨v, H⟩ := weight_isolates (K := K) h
  simp only [LinReg.vcov, ho, LinReg.Opts.ids, hc, Option.isSome_none, Bool.or_false, Bool.false_eq_true, if_false] at hV
  cases hV
  constructor
  · intro h4
    have : LinReg.classical L.solvers.pinv (design d t : Matrix ι (Fin 4) K) (fun i => y i - cellMean y d t (d i) (t i)) = none := by
      simp [LinReg.classical, h4]
    rw [hse, infer_se, hv, this]
    rfl
  · intro h4
    cases hn : LinReg.classical L.solvers.pinv (design d t : Matrix ι (Fin 4) K) (fun i => y i - cellMean y d t (d i) (t i)) with
    | none => simp [LinReg.classical, h4] at hn
    | some W =>
      have key := C125_classical _ _ (design_det h _ rfl) 3 v _ H _ W hn
      rw [sum_within, sum_sq h] at key
      rw [hse, infer_se, hv, hn]
      simp only [Option.map_some, LinReg.toExt, key, Fintype.card_fin]
      norm_num

/-- C125. Clustered standard error: weighted deviations from the cell means, summed inside each cluster, then squared. -/
theorem C125_se_cluster (L : Lib ι K) (hL : LinReg.Solves L.solvers) (o : Opts ι C) (ids : ι → C) (hc : o.cluster = some (fun i => some (ids i))) (alpha : K)
    (d t : ι → Bool) (h : Occupied d t) (y : ι → K) (adj : ℤ) (R : Result K) (hR : fitCore L o alpha [] d t y adj = .ok R) :
    R.se = .fin (L.sqrt ((((Finset.univ.image ids).card : K) / (((Finset.univ.image ids).card : K) - 1)) *
        (((Fintype.card ι : K) - 1) / ((Fintype.card ι : K) - 4)) *
      ∑ g ∈ Finset.univ.image ids, (∑ i ∈ Finset.univ.filter (fun i => ids i = g), weight d t i * (y i - cellMean y d t (d i) (t i))) ^ 2)) := by
  obtain ⟨b, V, f, hb, hV, h3, hcf, hv, hdf, hres, ha, hse, -⟩ := core_ok hL h hR
  obtain ⟨v, H⟩ := weight_isolates (K := K) h
  simp only [LinReg.vcov, LinReg.Opts.ids, hc, Option.isSome_some, Bool.or_true, if_true] at hV
  cases hn : vcovNumpy (design d t : Matrix ι (Fin 4) K) (fun i => y i - cellMean y d t (d i) (t i)) (some (fun i => some (ids i))) with
  | error e => rw [hn] at hV; cases hV
  | ok W =>
    rw [hn] at hV
    cases hV
    have key := C125_cluster _ (design_det h _ rfl) 3 v _ H _ ids W hn
    rw [hse, infer_se, hv]
    simp only [Option.map_some, LinReg.toExt, key, Fintype.card_fin]
    norm_num

/-- C125. Test and interval built from the estimate and its standard error with `n - 4` degrees of freedom, whatever the kind of standard error. -/
theorem C125_inference (L : Lib ι K) (hL : LinReg.Solves L.solvers) (o : Opts ι C) (alpha : K) (d t : ι → Bool) (h : Occupied d t) (y : ι → K)
    (adj : ℤ) (R : Result K) (hR : fitCore L o alpha [] d t y adj = .ok R) (s : K) (hs : R.se = .fin s) (hp : 0 < s) (D : Inference.Dist K)
    (hD : D = if 0 < (Fintype.card ι : ℤ) - 4 - adj then L.tD ((Fintype.card ι : ℤ) - 4 - adj) else L.nD) :
    R.t = .fin (did y d t / s) ∧ R.p = .fin (2 * D.sf |did y d t / s|) ∧
    R.ci = (.fin (did y d t - D.ppf (1 - alpha / 2) * s), .fin (did y d t + D.ppf (1 - alpha / 2) * s)) := by
  obtain ⟨b, V, f, hb, hV, h3, hcf, hv, hdf, hres, ha, hse, ht, hpv, hci, -⟩ := core_ok hL h hR
  have hpick : Inference.pick L.tD L.nD (Inference.effectiveDf none (some f.df)) = D := by
    rw [hD, hdf]
    simp only [Inference.effectiveDf]
    by_cases h0 : (Fintype.card ι : ℤ) - 4 - adj ≤ 0
    · rw [if_pos h0, if_neg (not_lt.2 h0)]; rfl
    · rw [if_neg h0, if_pos (not_le.1 h0)]; simp only [Inference.pick, if_pos (not_le.1 h0)]
  rw [hse, infer_se] at hs
  rw [ht, hpv, hci]
  have h1 : LinReg.toExt (some (did y d t)) = .fin (did y d t) := rfl
  simp only [LinReg.infer, Inference.getInference, hcf, hs, h1, Inference.tStat_pos _ _ hp, hpick, Option.getD_none, Inference.confInt_fin]
  refine ⟨trivial, ?_, trivial⟩
  simp [Inference.pValue, Inference.Dist.sfE, Ext.abs, Ext.mul, mul_comm]

/-- C125. When all cells are occupied the fit fails only for one row per cell with robust or clustered errors, or for fewer than two clusters. -/
theorem C125_fails (L : Lib ι K) (o : Opts ι C) (alpha : K) (d t : ι → Bool) (h : Occupied d t) (y : ι → K) (adj : ℤ) (e : LinReg.Err) :
    fitCore L o alpha [] d t y adj = .error e ↔
      (o.cluster = none ∧ o.robust = true ∧ Fintype.card ι = 4 ∧ e = .vcov .zeroDivision) ∨
      (∃ ids, o.cluster = some ids ∧ ((nClusters ids < 2 ∧ e = .vcov .fewClusters) ∨
        (2 ≤ nClusters ids ∧ Fintype.card ι = 4 ∧ e = .vcov .zeroDivision))) := by
  have hdet := design_det h (design d t : Matrix ι (Fin 4) K) rfl
  have hk : ¬ Fintype.card ι < 4 := by
    obtain ⟨i1, a1, b1⟩ := h true true
    obtain ⟨i2, a2, b2⟩ := h true false
    obtain ⟨i3, a3, b3⟩ := h false true
    obtain ⟨i4, a4, b4⟩ := h false false
    have hs : ({i1, i2, i3, i4} : Finset ι).card = 4 := by
      rw [Finset.card_insert_of_notMem, Finset.card_insert_of_notMem, Finset.card_insert_of_notMem, Finset.card_singleton]
      · rw [Finset.mem_singleton]; rintro rfl; rw [b3] at b4; cases b4
      · simp only [Finset.mem_insert, Finset.mem_singleton, not_or]
        constructor <;> rintro rfl
        · rw [a2] at a3; cases a3
        · rw [a2] at a4; cases a4
      · simp only [Finset.mem_insert, Finset.mem_singleton, not_or]
        refine ⟨?_, ?_, ?_⟩ <;> rintro rfl
        · rw [b1] at b2; cases b2
        · rw [a1] at a3; cases a3
        · rw [a1] at a4; cases a4
    have := Finset.card_le_univ ({i1, i2, i3, i4} : Finset ι)
    omega
  simp only [fitCore, LinReg.fit, if_neg hk, LinReg.vcov, LinReg.Opts.ids]
  cases hc : o.cluster with
  | none =>
    cases hr : o.robust with
    | false => simp
    | true =>
      simp only [Bool.true_or, if_true, vcovNumpy, Fintype.card_fin, hdet, if_false]
      by_cases h4 : Fintype.card ι = 4
      · simp only [h4, if_true]
        constructor
        · intro hh; cases hh; exact .inl ⟨trivial, trivial, trivial, rfl⟩
        · rintro (⟨_, _, _, rfl⟩ | ⟨_, hi, _⟩)
          · rfl
          · cases hi
      · simp [h4]
  | some ids =>
    simp only [Option.isSome_some, Bool.or_true, if_true, vcovNumpy, Fintype.card_fin, hdet, if_false]
    by_cases h2 : nClusters ids < 2
    · simp only [h2, if_true]
      constructor
      · intro hh; cases hh; exact .inr ⟨ids, rfl, .inl ⟨h2, rfl⟩⟩
      · rintro (⟨hi, _⟩ | ⟨ids', hi, ⟨_, rfl⟩ | ⟨h3, _⟩⟩)
        · cases hi
        · rfl
        · cases hi; omega
    · by_cases h4 : Fintype.card ι = 4
      · simp only [h2, if_false, h4, if_true]
        constructor
        · intro hh; cases hh; exact .inr ⟨ids, rfl, .inr ⟨not_lt.1 h2, trivial, rfl⟩⟩
        · rintro (⟨hi, _⟩ | ⟨ids', hi, ⟨h3, _⟩ | ⟨_, _, rfl⟩⟩)
          · cases hi
          · cases hi; exact absurd h3 h2
          · rfl
      · simp only [h2, if_false, h4]
        constructor
        · intro hh; cases hh
        · rintro (⟨hi, _⟩ | ⟨ids', hi, ⟨h3, _⟩ | ⟨_, h5, _⟩⟩)
          · cases hi
          · cases hi; exact absurd h3 h2
          · exact h5.elim

/-! ### Two-period panels -/

section panel
variable {U : Type*} [Fintype U] [DecidableEq U]

/-- Change of a unit's outcome. -/
def change (y : U × Bool → K) (u : U) : K := y (u, true) - y (u, false)

/-- Units of an arm. -/
def arm (tr : U → Bool) (a : Bool) : Finset U := Finset.univ.filter (fun u => tr u = a)

/-- Mean change of an arm. -/
def meanChange (tr : U → Bool) (y : U × Bool → K) (a : Bool) : K := (∑ u ∈ arm tr a, change y u) / ((arm tr a).card : K)

/-- Squared deviations of the changes from the arm mean. -/
def spread (tr : U → Bool) (y : U × Bool → K) (a : Bool) : K := ∑ u ∈ arm tr a, (change y u - meanChange tr y a) ^ 2

/-- Treatment column of the panel. -/
def dP (tr : U → Bool) : U × Bool → Bool := fun p => tr p.1

/-- Post column of the panel. -/
def tP : U × Bool → Bool := fun p => p.2

theorem cell_panel (tr : U → Bool) (a b : Bool) : cell (dP tr) tP a b = (arm tr a).map ⟨fun u => (u, b), fun _ _ h => (Prod.mk.inj h).1⟩ := by
  ext ⟨u, c⟩
  simp only [mem_cell, dP, tP, arm, Finset.mem_map, Finset.mem_filter, Finset.mem_univ, true_and, Function.Embedding.coeFn_mk, Prod.mk.injEq]
  constructor
  · rintro ⟨h1, rfl⟩; exact ⟨u, h1, rfl⟩
  · rintro ⟨w, h1, hw⟩; cases hw; exact ⟨h1, rfl⟩

theorem sum_cell_panel (tr : U → Bool) (a b : Bool) (f : U × Bool → K) : ∑ i ∈ cell (dP tr) tP a b, f i = ∑ u ∈ arm tr a, f (u, b) := by
  rw [cell_panel, Finset.sum_map]; rfl

theorem card_cell_panel (tr : U → Bool) (a b : Bool) : (cell (dP tr) tP a b).card = (arm tr a).card := by
  rw [cell_panel, Finset.card_map]

theorem occupied_panel {tr : U → Bool} (h : ∀ a, ∃ u, tr u = a) : Occupied (dP tr) tP := fun a c => by
  obtain ⟨u, hu⟩ := h a
  exact ⟨(u, c), hu, rfl⟩

theorem arm_card {tr : U → Bool} (h : ∀ a, ∃ u, tr u = a) (a : Bool) : ((arm tr a).card : K) ≠ 0 := by
  obtain ⟨u, hu⟩ := h a
  exact_mod_cast (Finset.card_pos.2 ⟨u, by simp [arm, hu]⟩).ne'

theorem meanChange_cells (tr : U → Bool) (y : U × Bool → K) (a : Bool) :
    meanChange tr y a = cellMean y (dP tr) tP a true - cellMean y (dP tr) tP a false := by
  unfold meanChange cellMean change
  rw [card_cell_panel, card_cell_panel, sum_cell_panel, sum_cell_panel, Finset.sum_sub_distrib, sub_div]

/-- C125. In a two-period panel the estimate is the difference of mean changes, and with standard errors clustered by unit its variance is that of a
difference of two independent means of changes, times the small-sample factor. -/
theorem C125_panel (L : Lib (U × Bool) K) (hL : LinReg.Solves L.solvers) (o : Opts (U × Bool) U) (hc : o.cluster = some (fun p => some p.1)) (alpha : K)
    (tr : U → Bool) (h : ∀ a, ∃ u, tr u = a) (y : U × Bool → K) (R : Result K) (hR : fit L o alpha [] (dP tr) tP y = .ok R) :
    R.att = .fin (meanChange tr y true - meanChange tr y false) ∧
    R.se = .fin (L.sqrt ((Fintype.card U : K) / ((Fintype.card U : K) - 1) * ((2 * (Fintype.card U : K) - 1) / (2 * (Fintype.card U : K) - 4)) *
      ∑ a, spread tr y a / ((arm tr a).card : K) ^ 2)) := by
  have hocc := occupied_panel h
  constructor
  · rw [(C125_point L hL o alpha _ _ hocc y R hR).1, meanChange_cells, meanChange_cells]
  · rw [C125_se_cluster L hL o (fun p => p.1) hc alpha _ _ hocc y 0 R hR]
    have himg : Finset.univ.image (fun p : U × Bool => p.1) = Finset.univ := by
      ext u; simp
    rw [himg, Finset.card_univ, Fintype.card_prod, Fintype.card_bool]
    have hn : ((Fintype.card U * 2 : ℕ) : K) = 2 * (Fintype.card U : K) := by push_cast; ring
    rw [hn]
    congr 3
    have e : ∀ g : U, (∑ i ∈ Finset.univ.filter (fun i : U × Bool => i.1 = g), weight (dP tr) tP i * (y i - cellMean y (dP tr) tP (dP tr i) (tP i))) ^ 2
        = ((change y g - meanChange tr y (tr g)) ^ 2) / ((arm tr (tr g)).card : K) ^ 2 := by
      intro g
      have hf : Finset.univ.filter (fun i : U × Bool => i.1 = g) = {(g, true), (g, false)} := by
        ext ⟨u, b⟩
        simp only [Finset.mem_filter, Finset.mem_univ, true_and, Finset.mem_insert, Finset.mem_singleton, Prod.mk.injEq]
        cases b <;> simp
      rw [hf, Finset.sum_pair (by simp)]
      simp only [weight, dP, tP]
      have hc1 := card_cell_panel tr (tr g)
      rw [hc1, hc1, meanChange_cells]
      unfold change
      have hne := arm_card (K := K) h (tr g)
      cases tr g <;> simp only [sgn] <;> simp <;> field_simp <;> ring
    simp only [e]
    have hs : ∀ f : U → K, ∑ u, f u = ∑ a, ∑ u ∈ arm tr a, f u := by
      intro f
      rw [Fintype.sum_bool]
      unfold arm
      rw [← Finset.sum_filter_add_sum_filter_not Finset.univ (fun u => tr u = true) f]
      simp
    rw [hs]
    refine Finset.sum_congr rfl fun a _ => ?_
    unfold spread
    rw [Finset.sum_div]
    refine Finset.sum_congr rfl fun u hu => ?_
    have : tr u = a := by simpa [arm] using hu
    rw [this]

/-! ### Absorbed unit effects against unit dummies -/

/-- One dummy per unit, the post dummy (`inr false`) and its interaction with treatment (`inr true`). -/
def dummies (tr : U → Bool) : Matrix (U × Bool) (U ⊕ Bool) K := fun p m =>
  match m with
  | .inl w => if p.1 = w then 1 else 0
  | .inr false => ind p.2
  | .inr true => ind (tr p.1) * ind p.2

theorem sum_dummies (tr : U → Bool) (p : U × Bool) (v : U ⊕ Bool → K) :
    ∑ m, dummies tr p m * v m = v (.inl p.1) + ind p.2 * v (.inr false) + ind (tr p.1) * ind p.2 * v (.inr true) := by
  rw [Fintype.sum_sum_type, Fintype.sum_bool]
  simp [dummies]
  ring

theorem sum_arms (tr : U → Bool) (f : U → K) : ∑ u, f u = ∑ u ∈ arm tr true, f u + ∑ u ∈ arm tr false, f u := by
  unfold arm
  rw [← Finset.sum_filter_add_sum_filter_not Finset.univ (fun u => tr u = true) f]
  simp

/-- Columns of the dummy design against a row function. -/
theorem dummies_col (tr : U → Bool) (f : U × Bool → K) :
    (∀ w, ∑ p, dummies tr p (.inl w) * f p = f (w, true) + f (w, false)) ∧
    ∑ p, dummies tr p (.inr false) * f p = ∑ u ∈ arm tr true, f (u, true) + ∑ u ∈ arm tr false, f (u, true) ∧
    ∑ p, dummies tr p (.inr true) * f p = ∑ u ∈ arm tr true, f (u, true) := by
  refine ⟨fun w => ?_, ?_, ?_⟩
  · rw [Fintype.sum_prod_type]
    simp only [Fintype.sum_bool, dummies]
    rw [Finset.sum_eq_single w]
    · simp
    · intro u _ hu; simp [hu]
    · simp
  · rw [Fintype.sum_prod_type, ← sum_arms tr (fun u => f (u, true))]
    simp [Fintype.sum_bool, dummies, ind]
  · rw [Fintype.sum_prod_type]
    simp only [Fintype.sum_bool, dummies, arm, Finset.sum_filter]
    refine Finset.sum_congr rfl fun u _ => ?_
    cases tr u <;> simp [ind]

theorem weight_panel (tr : U → Bool) (u : U) (b : Bool) : (weight (dP tr) tP (u, b) : K) = sgn (tr u) b / ((arm tr (tr u)).card : K) := by
  unfold weight
  rw [show dP tr (u, b) = tr u from rfl, show tP (u, b) = b from rfl, card_cell_panel]

theorem dummies_isolates {tr : U → Bool} (h : ∀ a, ∃ u, tr u = a) : ∃ v : U ⊕ Bool → K, Isolates (dummies tr) (.inr true) v (weight (dP tr) tP) := by
  have hT := arm_card (K := K) h true
  have hF := arm_card (K := K) h false
  refine ⟨Sum.elim (fun u => weight (dP tr) tP (u, false))
    (fun b => if b then 2 / ((arm tr true).card : K) + 2 / ((arm tr false).card : K) else - (2 / ((arm tr false).card : K))), ⟨?_, ?_⟩⟩
  · rintro ⟨u, b⟩
    rw [sum_dummies]
    simp only [Sum.elim_inl, Sum.elim_inr, weight_panel]
    cases b <;> cases tr u <;> simp [ind, sgn] <;> ring
  · obtain ⟨h1, h2, h3⟩ := dummies_col tr (weight (dP tr) tP : U × Bool → K)
    have e : ∀ a, ∑ u ∈ arm tr a, (weight (dP tr) tP (u, true) : K) = sgn a true := by
      intro a; rw [← sum_cell_panel tr a true, sum_weight (occupied_panel h)]
    rintro (w | b)
    · rw [h1, weight_panel, weight_panel]
      cases tr w <;> simp [sgn] <;> ring
    · cases b
      · rw [h2, e, e]; simp [sgn]
      · rw [h3, e]; simp [sgn]

theorem det_of_injective {κ : Type*} [Fintype κ] [DecidableEq κ] (X : Matrix ι κ K) (h : ∀ v : κ → K, (∀ i, ∑ m, X i m * v m = 0) → v = 0) :
    (Xᵀ * X).det ≠ 0 := by
  intro h0
  obtain ⟨v, hv, h1⟩ := Matrix.exists_mulVec_eq_zero_iff.2 h0
  apply hv
  apply h
  have e : ∑ i, fitted X v i ^ 2 = 0 := by
    have : v ⬝ᵥ ((Xᵀ * X) *ᵥ v) = 0 := by rw [h1, dotProduct_zero]
    rw [← mulVec_mulVec, dotProduct_mulVec, vecMul_transpose] at this
    rw [← this]
    exact Finset.sum_congr rfl fun i _ => by rw [pow_two]; rfl
  intro i
  have := (Finset.sum_eq_zero_iff_of_nonneg (fun i _ => sq_nonneg (fitted X v i))).1 e i (Finset.mem_univ i)
  exact pow_eq_zero_iff (two_ne_zero) |>.1 this

theorem dummies_det {tr : U → Bool} (h : ∀ a, ∃ u, tr u = a) : ((dummies tr : Matrix (U × Bool) (U ⊕ Bool) K)ᵀ * dummies tr).det ≠ 0 := by
  refine det_of_injective _ fun v hv => ?_
  have h0 : ∀ u, v (.inl u) = 0 := by
    intro u; have := hv (u, false); rw [sum_dummies] at this; simpa [ind] using this
  obtain ⟨u, hu⟩ := h false
  obtain ⟨w, hw⟩ := h true
  have h1 : v (.inr false) = 0 := by
    have := hv (u, true); rw [sum_dummies] at this; simpa [ind, hu, h0] using this
  have h2 : v (.inr true) = 0 := by
    have := hv (w, true); rw [sum_dummies] at this; simpa [ind, hw, h0, h1] using this
  funext m
  rcases m with u | b
  · exact h0 u
  · cases b
    · exact h1
    · exact h2

/-- Residual with unit effects: half the deviation of the unit's change from the arm's mean change. -/
def halfDev (tr : U → Bool) (y : U × Bool → K) (p : U × Bool) : K :=
  (if p.2 then 1 else -1) * (change y p.1 - meanChange tr y (tr p.1)) / 2

theorem sum_dev {tr : U → Bool} (h : ∀ a, ∃ u, tr u = a) (y : U × Bool → K) (a : Bool) : ∑ u ∈ arm tr a, (change y u - meanChange tr y a) = 0 := by
  rw [Finset.sum_sub_distrib, Finset.sum_const, nsmul_eq_mul]
  unfold meanChange
  rw [mul_div_cancel₀ _ (arm_card h a), sub_self]

theorem dummies_resid {tr : U → Bool} (h : ∀ a, ∃ u, tr u = a) (y : U × Bool → K) (b : U ⊕ Bool → K) (hb : IsOls (dummies tr) y b) :
    resid (dummies tr) y b = halfDev tr y := by
  let b0 : U ⊕ Bool → K := Sum.elim (fun u => (y (u, true) + y (u, false)) / 2 - meanChange tr y (tr u) / 2)
    (fun c => if c then meanChange tr y true - meanChange tr y false else meanChange tr y false)
  have hr : resid (dummies tr) y b0 = halfDev tr y := by
    funext ⟨u, c⟩
    have e : fitted (dummies tr) b0 (u, c) = _ := sum_dummies tr (u, c) b0
    unfold resid
    rw [e]
    simp only [b0, Sum.elim_inl, Sum.elim_inr, halfDev, change]
    cases c <;> cases tr u <;> simp [ind] <;> ring
  have h0 : IsOls (dummies tr) y b0 := by
    obtain ⟨h1, h2, h3⟩ := dummies_col tr (halfDev tr y)
    have e : ∀ a, ∑ u ∈ arm tr a, halfDev tr y (u, true) = 0 := by
      intro a
      have e1 : ∀ u ∈ arm tr a, halfDev tr y (u, true) = (change y u - meanChange tr y a) / 2 := by
        intro u hu
        have : tr u = a := by simpa [arm] using hu
        simp [halfDev, this]
      rw [Finset.sum_congr rfl e1, ← Finset.sum_div, sum_dev h, zero_div]
    intro m
    rw [hr]
    rcases m with w | c
    · rw [h1]; simp [halfDev]; ring
    · cases c
      · rw [h2, e, e, add_zero]
      · rw [h3, e]
  funext p
  rw [← hr]
  have := Ols.C11_fitted_unique (dummies tr) y b b0 hb h0 p
  unfold resid
  congr 1

theorem demean_panel (y : U × Bool → K) (u : U) (b : Bool) :
    Within.demean (fun p : U × Bool => p.1) y (u, b) = (if b then 1 else -1) * change y u / 2 := by
  have hf : Finset.univ.filter (fun i : U × Bool => i.1 = u) = {(u, true), (u, false)} := by
    ext ⟨w, b⟩
    simp only [Finset.mem_filter, Finset.mem_univ, true_and, Finset.mem_insert, Finset.mem_singleton, Prod.mk.injEq]
    cases b <;> simp
  unfold Within.demean Within.groupMean Within.grp
  simp only [hf]
  rw [Finset.sum_pair (by simp), Finset.card_pair (by simp)]
  unfold change
  cases b <;> simp <;> ring

theorem demean_dev {tr : U → Bool} (y : U × Bool → K) (p : U × Bool) :
    Within.demean (fun p : U × Bool => p.1) y p - cellMean (Within.demean (fun p : U × Bool => p.1) y) (dP tr) tP (dP tr p) (tP p) = halfDev tr y p := by
  obtain ⟨u, b⟩ := p
  have hm : ∀ a, cellMean (Within.demean (fun p : U × Bool => p.1) y) (dP tr) tP a b = (if b then 1 else -1) * meanChange tr y a / 2 := by
    intro a
    unfold cellMean meanChange
    rw [sum_cell_panel, card_cell_panel]
    simp only [demean_panel]
    rw [← Finset.sum_div, ← Finset.mul_sum]
    ring
  rw [show tP (u, b) = b from rfl, hm, demean_panel]
  simp only [halfDev, dP]
  ring

/-- Refuted reading of C125: absorbing the unit effects of a two-period panel is not the regression on unit dummies. The estimate agrees, but the
reported variance, robust or classical, is exactly half of the one from the same regression with explicit dummies (whose residuals are the same), because
the absorbed effects are not counted in `n - k`; the degrees of freedom used for the test are one too few. -/
theorem C125_absorb_refuted (L : Lib (U × Bool) K) (hL : LinReg.Solves L.solvers) (o : Opts (U × Bool) C) (hc : o.cluster = none) (alpha : K)
    (tr : U → Bool) (h : ∀ a, ∃ u, tr u = a) (h2 : 2 < Fintype.card U) (y : U × Bool → K) (R : Result K)
    (hR : fitAbsorb L o alpha [] (fun p : U × Bool => p.1) (dP tr) tP y = .ok R)
    (b : U ⊕ Bool → K) (hb : IsOls (dummies tr) y b) (pinv : Matrix (U ⊕ Bool) (U ⊕ Bool) K → Matrix (U ⊕ Bool) (U ⊕ Bool) K)
    (V : Matrix (U ⊕ Bool) (U ⊕ Bool) K)
    (hV : LinReg.vcov pinv (⟨o.robust, none, none, o.strict⟩ : LinReg.Opts (U × Bool) C) (dummies tr) (resid (dummies tr) y b) = .ok (some V)) :
    R.att = .fin (b (.inr true)) ∧ R.se = .fin (L.sqrt (V (.inr true) (.inr true) / 2)) ∧
    ∀ s, R.se = .fin s → 0 < s → 3 < Fintype.card U →
      R.p = .fin (2 * (L.tD (((Fintype.card (U × Bool) : ℤ) - Fintype.card (U ⊕ Bool)) - 1)).sf |b (.inr true) / s|) := by
  have hocc := occupied_panel h
  have hG : (Fintype.card U : K) - 2 ≠ 0 := by
    have : (2 : K) < (Fintype.card U : K) := by exact_mod_cast h2
    linarith
  have hn : (Fintype.card (U × Bool) : K) = 2 * (Fintype.card U : K) := by rw [Fintype.card_prod, Fintype.card_bool]; push_cast; ring
  have hk : (Fintype.card (U ⊕ Bool) : K) = (Fintype.card U : K) + 2 := by rw [Fintype.card_sum, Fintype.card_bool]; push_cast; ring
  have hn4 : Fintype.card (U × Bool) ≠ 4 := by rw [Fintype.card_prod, Fintype.card_bool]; omega
  obtain ⟨v, H⟩ := dummies_isolates (K := K) h
  obtain ⟨v4, H4⟩ := weight_isolates (K := K) hocc
  have hdev : (fun i => Within.demean (fun p : U × Bool => p.1) y i -
      cellMean (Within.demean (fun p : U × Bool => p.1) y) (dP tr) tP (dP tr i) (tP i)) = halfDev tr y := funext (demean_dev y)
  obtain ⟨b4, V4, f, hb4, hV4, h3, hcf, hv, hdf, hres, ha, hse, -⟩ := core_ok hL hocc hR
  rw [hdev] at hV4
  rw [dummies_resid h y b hb] at hV
  have hatt : R.att = .fin (b (.inr true)) := by
    rw [ha, ← h3, C125_coefficient _ _ _ _ H4 _ _ hb4, C125_coefficient _ _ _ _ H _ _ hb]
    congr 1
    rw [Fintype.sum_prod_type, Fintype.sum_prod_type]
    refine Finset.sum_congr rfl fun u _ => ?_
    simp only [Fintype.sum_bool, demean_panel, weight_panel]
    unfold change
    cases tr u <;> simp [sgn] <;> ring
  refine ⟨hatt, ?_, ?_⟩
  · rw [hse, infer_se, hv]
    cases hr : o.robust with
    | true =>
      simp only [LinReg.vcov, hr, Bool.true_or, if_true, LinReg.Opts.ids, hc] at hV hV4
      cases hn1 : vcovNumpy (C := C) (dummies tr) (halfDev tr y) none with
      | error e => rw [hn1] at hV; cases hV
      | ok W =>
        rw [hn1] at hV; cases hV
        cases hn2 : vcovNumpy (C := C) (design (dP tr) tP : Matrix (U × Bool) (Fin 4) K) (halfDev tr y) none with
        | error e => rw [hn2] at hV4; cases hV4
        | ok W4 =>
          rw [hn2] at hV4; cases hV4
          have k1 := C125_robust (C := C) _ (dummies_det h) _ v _ H _ _ hn1
          have k2 := C125_robust (C := C) _ (design_det hocc _ rfl) _ v4 _ H4 _ _ hn2
          simp only [Option.map_some, LinReg.toExt, k1, k2, hn, hk, Fintype.card_fin]
          congr 2
          generalize (∑ i, (weight (dP tr) tP i * halfDev tr y i) ^ 2 : K) = S
          have hG2 : 2 * (Fintype.card U : K) - ((4 : ℕ) : K) = 2 * ((Fintype.card U : K) - 2) := by push_cast; ring
          have hG3 : 2 * (Fintype.card U : K) - ((Fintype.card U : K) + 2) = (Fintype.card U : K) - 2 := by ring
          rw [hG2, hG3]
          field_simp
    | false =>
      simp only [LinReg.vcov, hr, LinReg.Opts.ids, hc, Option.isSome_none, Bool.or_false, Bool.false_eq_true, if_false, Except.ok.injEq] at hV hV4
      cases hn2 : LinReg.classical L.solvers.pinv (design (dP tr) tP : Matrix (U × Bool) (Fin 4) K) (halfDev tr y) with
      | none => simp [LinReg.classical] at hn2; exact absurd hn2 (by omega)
      | some W4 =>
        rw [hn2] at hV4; cases hV4
        have k1 := C125_classical _ _ (dummies_det h) _ v _ H _ _ hV
        have k2 := C125_classical _ _ (design_det hocc _ rfl) _ v4 _ H4 _ _ hn2
        simp only [Option.map_some, LinReg.toExt, k1, k2, hn, hk, Fintype.card_fin]
        congr 2
        generalize (∑ i, (halfDev tr y i) ^ 2 : K) = S
        have hG2 : 2 * (Fintype.card U : K) - ((4 : ℕ) : K) = 2 * ((Fintype.card U : K) - 2) := by push_cast; ring
        have hG3 : 2 * (Fintype.card U : K) - ((Fintype.card U : K) + 2) = (Fintype.card U : K) - 2 := by ring
        rw [hG2, hG3]
        field_simp
  · intro s hs hp h3G
    have hdf' : (Fintype.card (U × Bool) : ℤ) - 4 - Within.nEffects (fun p : U × Bool => p.1) =
        ((Fintype.card (U × Bool) : ℤ) - Fintype.card (U ⊕ Bool)) - 1 := by
      unfold Within.nEffects
      have himg : Finset.univ.image (fun p : U × Bool => p.1) = Finset.univ := by ext u; simp
      rw [himg, Finset.card_univ, Fintype.card_prod, Fintype.card_sum, Fintype.card_bool]
      push_cast
      ring
    have hpos : 0 < ((Fintype.card (U × Bool) : ℤ) - Fintype.card (U ⊕ Bool)) - 1 := by
      rw [Fintype.card_prod, Fintype.card_sum, Fintype.card_bool]; omega
    have k := (C125_inference L hL o alpha (dP tr) tP hocc _ _ R hR s hs hp _ rfl).2.1
    rw [hdf', if_pos hpos] at k
    rw [k]
    have hb3 : b (.inr true) = did (Within.demean (fun p : U × Bool => p.1) y) (dP tr) tP := by
      have := hatt.symm.trans ha
      exact Ext.fin.inj this
    rw [hb3]

end panel

/-! ### Examples -/

/-- Seven rows, all cells occupied. -/
def exD : Fin 7 → Bool := ![true, true, true, false, false, false, false]
def exT : Fin 7 → Bool := ![true, true, false, true, true, false, false]
def exY : Fin 7 → ℚ := ![9, 11, 3, 4, 6, 1, 3]

theorem exOcc : Occupied exD exT := by unfold Occupied; decide

/-- Such data can be fitted: robust errors, the formula of C125_se_robust gives 7/3 * (2/4 + 2/4 + 2/4) = 7/2. -/
example : ∃ (L : Lib (Fin 7) ℚ) (R : Result ℚ), LinReg.Solves L.solvers ∧ fit L (⟨true, none, false⟩ : Opts (Fin 7) ℕ) (1 / 20) [] exD exT exY = .ok R ∧
    R.att = .fin 4 ∧ R.se = .fin (L.sqrt (7 / 2)) ∧ R.nTreated = 3 := by
  obtain ⟨E, hE⟩ := LinReg.exists_solves (ι := Fin 7) (K := ℚ)
  let L : Lib (Fin 7) ℚ := ⟨E, id, fun _ => ⟨fun _ => 0, fun _ => 2⟩, ⟨fun _ => 0, fun _ => 2⟩⟩
  cases hR : fit L (⟨true, none, false⟩ : Opts (Fin 7) ℕ) (1 / 20) [] exD exT exY with
  | error e =>
    rcases (C125_fails L (⟨true, none, false⟩ : Opts (Fin 7) ℕ) (1 / 20) exD exT exOcc exY 0 e).1 hR with ⟨_, _, h, _⟩ | ⟨_, h, _⟩
    · simp at h
    · cases h
  | ok R =>
    have h1 := C125_point L hE _ _ _ _ exOcc _ R hR
    have h2 := C125_se_robust L hE (⟨true, none, false⟩ : Opts (Fin 7) ℕ) rfl rfl (1 / 20) _ _ exOcc exY 0 R hR
    refine ⟨L, R, hE, hR, ?_, ?_, ?_⟩
    · rw [h1.1]; congr 1; decide +kernel
    · rw [h2]
      congr 2
      decide +kernel
    · rw [h1.2.2.2.1]; decide +kernel

/-- One row per cell: robust errors fail, so does a single cluster. -/
example (L : Lib (Bool × Bool) ℚ) (y : Bool × Bool → ℚ) :
    fit L (⟨true, none, false⟩ : Opts (Bool × Bool) ℕ) (1 / 20) [] Prod.fst Prod.snd y = .error (.vcov .zeroDivision) ∧
    fit L (⟨true, some (fun _ => some 3), false⟩ : Opts (Bool × Bool) ℕ) (1 / 20) [] Prod.fst Prod.snd y = .error (.vcov .fewClusters) := by
  have ho : Occupied (Prod.fst : Bool × Bool → Bool) Prod.snd := fun a c => ⟨(a, c), rfl, rfl⟩
  exact ⟨(C125_fails L _ _ _ _ ho y 0 _).2 (.inl ⟨rfl, rfl, by decide, rfl⟩),
    (C125_fails L _ _ _ _ ho y 0 _).2 (.inr ⟨_, rfl, .inl ⟨by decide, rfl⟩⟩)⟩

/-- Four units over two periods. -/
def exTr : Fin 4 → Bool := ![true, true, false, false]
def exP : Fin 4 × Bool → ℚ := fun p => if p.2 then ![5, 9, 2, 4] p.1 else ![1, 1, 1, 1] p.1

/-- The panel formula: mean changes 6 and 2, variance 4/3 * 7/4 * (8/4 + 2/4) = 35/6. -/
example : ∃ (L : Lib (Fin 4 × Bool) ℚ) (R : Result ℚ), LinReg.Solves L.solvers ∧
    fit L (⟨true, some (fun p => some p.1), false⟩ : Opts (Fin 4 × Bool) (Fin 4)) (1 / 20) [] (dP exTr) tP exP = .ok R ∧
    R.att = .fin 4 ∧ R.se = .fin (L.sqrt (35 / 6)) := by
  have ha : ∀ a, ∃ u, exTr u = a := by decide
  obtain ⟨E, hE⟩ := LinReg.exists_solves (ι := Fin 4 × Bool) (K := ℚ)
  let L : Lib (Fin 4 × Bool) ℚ := ⟨E, id, fun _ => ⟨fun _ => 0, fun _ => 2⟩, ⟨fun _ => 0, fun _ => 2⟩⟩
  cases hR : fit L (⟨true, some (fun p => some p.1), false⟩ : Opts (Fin 4 × Bool) (Fin 4)) (1 / 20) [] (dP exTr) tP exP with
  | error e =>
    rcases (C125_fails L _ _ _ _ (occupied_panel ha) exP 0 e).1 hR with ⟨h, _⟩ | ⟨ids, h, h' | ⟨_, h', _⟩⟩
    · cases h
    · cases h; exact absurd h'.1 (by decide)
    · simp at h'
  | ok R =>
    have h1 := C125_panel L hE _ rfl (1 / 20) exTr ha exP R hR
    refine ⟨L, R, hE, hR, ?_, ?_⟩
    · rw [h1.1]; congr 1; decide +kernel
    · rw [h1.2]; congr 2; decide +kernel

/-- The absorb comparison is about fits that exist: absorbed classical fit succeeds, and the dummy regression has a variance. -/
example : ∃ (L : Lib (Fin 4 × Bool) ℚ) (R : Result ℚ) (b : Fin 4 ⊕ Bool → ℚ) (V : Matrix (Fin 4 ⊕ Bool) (Fin 4 ⊕ Bool) ℚ), LinReg.Solves L.solvers ∧
    fitAbsorb L (⟨false, none, false⟩ : Opts (Fin 4 × Bool) ℕ) (1 / 20) [] (fun p => p.1) (dP exTr) tP exP = .ok R ∧ IsOls (dummies exTr) exP b ∧
    LinReg.vcov id (⟨false, none, none, false⟩ : LinReg.Opts (Fin 4 × Bool) ℕ) (dummies exTr) (resid (dummies exTr) exP b) = .ok (some V) ∧
    V (.inr true) (.inr true) = 5 ∧ R.se = .fin (L.sqrt (5 / 2)) := by
  have ha : ∀ a, ∃ u, exTr u = a := by decide
  obtain ⟨E, hE⟩ := LinReg.exists_solves (ι := Fin 4 × Bool) (K := ℚ)
  let L : Lib (Fin 4 × Bool) ℚ := ⟨E, id, fun _ => ⟨fun _ => 0, fun _ => 2⟩, ⟨fun _ => 0, fun _ => 2⟩⟩
  obtain ⟨b, hb⟩ : ∃ b, IsOls (dummies exTr) exP b := by
    refine ⟨((dummies exTr : Matrix (Fin 4 × Bool) (Fin 4 ⊕ Bool) ℚ)ᵀ * dummies exTr)⁻¹ *ᵥ (dummies exTr)ᵀ *ᵥ exP, (LinReg.isOls_iff _ _ _).2 ?_⟩
    rw [mulVec_mulVec, mul_nonsing_inv _ (isUnit_iff_ne_zero.2 (dummies_det ha)), one_mulVec]
  cases hR : fitAbsorb L (⟨false, none, false⟩ : Opts (Fin 4 × Bool) ℕ) (1 / 20) [] (fun p => p.1) (dP exTr) tP exP with
  | error e =>
    rcases (C125_fails L _ _ _ _ (occupied_panel ha) _ _ e).1 hR with ⟨_, h, _⟩ | ⟨ids, h, _⟩
    · cases h
    · cases h
  | ok R =>
    have hV : ∃ V, LinReg.vcov id (⟨false, none, none, false⟩ : LinReg.Opts (Fin 4 × Bool) ℕ) (dummies exTr) (resid (dummies exTr) exP b) = .ok (some V) := by
      simp [LinReg.vcov, LinReg.Opts.ids, LinReg.classical]
    obtain ⟨V, hV⟩ := hV
    have key := C125_absorb_refuted L hE _ rfl (1 / 20) exTr ha (by decide) exP R hR b hb id V hV
    have hv : V (.inr true) (.inr true) = 5 := by
      obtain ⟨v, H⟩ := dummies_isolates (K := ℚ) ha
      have hV' : LinReg.classical id (dummies exTr) (resid (dummies exTr) exP b) = some V := by
        simpa [LinReg.vcov, LinReg.Opts.ids] using hV
      rw [C125_classical _ _ (dummies_det ha) _ v _ H _ _ hV', dummies_resid ha exP b hb]
      decide +kernel
    refine ⟨L, R, b, V, hE, hR, hb, hV, hv, ?_⟩
    rw [key.2.1, hv]

end DiffDiff.DidFit
