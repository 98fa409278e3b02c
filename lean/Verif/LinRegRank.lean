/-
Property C124, continued: coefficient, variance and degrees of freedom of an identified regressor in a design with redundant columns.
-/
import Verif.RowOrderFit
import Mathlib.LinearAlgebra.Matrix.Rank
import Mathlib.LinearAlgebra.Basis.VectorSpace

set_option linter.unusedSectionVars false
set_option linter.unusedVariables false

namespace DiffDiff.LinReg
open Matrix Vcov
open Ols (IsOls resid fitted dot keptCols reduce expandCoef expandVcov)
open DidFit (Isolates)
open RowOrder (Independent)

variable {K : Type*} [Field K] [LinearOrder K] [IsStrictOrderedRing K]
variable {ι κ C : Type*} [Fintype ι] [DecidableEq ι] [Fintype κ] [DecidableEq κ] [DecidableEq C]

/-! ### Specification -/

/-- The kept columns are independent and the dropped ones are combinations of them. -/
structure Pruned {k : ℕ} (X : Matrix ι (Fin k) K) (drop : List (Fin k)) : Prop where
  redundant : Redundant X drop
  indep : Independent X drop

/-- No combination of the other columns equals column `j`. -/
def Identified {k : ℕ} (X : Matrix ι (Fin k) K) (j : Fin k) : Prop := ∀ a : Fin k → K, a j = 0 → ¬ ∀ i, X i j = ∑ m, X i m * a m

/-- Variance of a coefficient with weights `h` and residuals `u` in a design of rank `r`. -/
def variance (o : Opts ι C) (r : ℕ) (h u : ι → K) : Option K :=
  match o.ids with
  | some ids => some (((nClusters ids : K) / ((nClusters ids : K) - 1)) * (((Fintype.card ι : K) - 1) / ((Fintype.card ι : K) - r)) *
      ∑ g ∈ (Finset.univ.image ids).erase none, (∑ i ∈ Finset.univ.filter (fun i => ids i = g), h i * u i) ^ 2)
  | none =>
    if o.robust then some ((Fintype.card ι : K) / ((Fintype.card ι : K) - r) * ∑ i, (h i * u i) ^ 2)
    else if Fintype.card ι = r then none
    else some ((∑ i, u i ^ 2) / ((Fintype.card ι : K) - r) * ∑ i, h i ^ 2)

/-! ### Weights -/

theorem isolates_unique {X : Matrix ι κ K} {j : κ} {v v' : κ → K} {h h' : ι → K} (H : Isolates X j v h) (H' : Isolates X j v' h') : h = h' := by
  have hz : ∀ i, h i - h' i = ∑ m, X i m * (v m - v' m) := by
    intro i; rw [H.comb, H'.comb, ← Finset.sum_sub_distrib]; exact Finset.sum_congr rfl fun m _ => by ring
  have h0 : ∑ i, (h i - h' i) ^ 2 = 0 := by
    have : ∀ i, (h i - h' i) ^ 2 = ∑ m, (v m - v' m) * (X i m * h i - X i m * h' i) := by
      intro i; rw [pow_two]; nth_rw 1 [hz i]; rw [Finset.sum_mul]
      exact Finset.sum_congr rfl fun m _ => by ring
    simp only [this]
    rw [Finset.sum_comm]
    refine Finset.sum_eq_zero fun m _ => ?_
    rw [← Finset.mul_sum, Finset.sum_sub_distrib, H.unit, H'.unit, sub_self, mul_zero]
  funext i
  have := (Finset.sum_eq_zero_iff_of_nonneg (fun i _ => sq_nonneg (h i - h' i))).1 h0 i (Finset.mem_univ i)
  exact sub_eq_zero.1 (pow_eq_zero_iff two_ne_zero |>.1 this)

theorem exists_isolates {X : Matrix ι κ K} (hX : (Xᵀ * X).det ≠ 0) (j : κ) : ∃ v h, Isolates X j v h := by
  have hu : IsUnit (Xᵀ * X).det := isUnit_iff_ne_zero.2 hX
  refine ⟨(Xᵀ * X)⁻¹ *ᵥ (fun m => if m = j then 1 else 0), X *ᵥ ((Xᵀ * X)⁻¹ *ᵥ (fun m => if m = j then 1 else 0)), fun i => rfl, fun m => ?_⟩
  have : (Xᵀ *ᵥ (X *ᵥ ((Xᵀ * X)⁻¹ *ᵥ (fun m => if m = j then (1 : K) else 0)))) m = if m = j then 1 else 0 := by
    rw [mulVec_mulVec, mulVec_mulVec, mul_nonsing_inv _ hu, one_mulVec]
  exact this

theorem vcov_entry {pinv : Matrix κ κ K → Matrix κ κ K} {o : Opts ι C} {X : Matrix ι κ K} (hX : (Xᵀ * X).det ≠ 0) {u : ι → K} {V : Option (Matrix κ κ K)}
    (hV : vcov pinv o X u = .ok V) {j : κ} {v : κ → K} {h : ι → K} (H : Isolates X j v h) : V.map (fun V => V j j) = variance o (Fintype.card κ) h u := by
  unfold vcov at hV
  unfold variance
  cases hi : o.ids with
  | none =>
    rw [hi] at hV
    by_cases hr : o.robust = true
    · simp only [hr, Bool.true_or, if_true] at hV
      cases hn : vcovNumpy (C := C) X u none with
      | error e => rw [hn] at hV; cases hV
      | ok W =>
        rw [hn] at hV
        cases hV
        simp only [hr, if_true, Option.map_some]
        rw [DidFit.C125_robust X hX j v h H u W hn]
    · simp only [hr, Bool.false_or, Option.isSome_none] at hV
      have hV : (Except.ok (classical pinv X u) : Except Err _) = Except.ok V := by simpa using hV
      cases hV
      simp only [hr]
      by_cases hk : Fintype.card ι = Fintype.card κ
      · simp [classical, hk]
      · cases hc : classical pinv X u with
        | none => unfold classical at hc; dsimp only at hc; rw [if_neg hk] at hc; cases hc
        | some W =>
          simp only [if_neg hk, Option.map_some]
          rw [DidFit.C125_classical pinv X hX j v h H u W hc]
          simp
  | some ids =>
    rw [hi] at hV
    simp only [Option.isSome_some, Bool.or_true, if_true] at hV
    cases hn : vcovNumpy X u (some ids) with
    | error e => rw [hn] at hV; cases hV
    | ok W =>
      rw [hn] at hV
      cases hV
      simp only [Option.map_some, Option.some.injEq]
      simp only [vcovNumpy] at hn
      split_ifs at hn
      cases hn
      rw [← DidFit.quad_unit (sandwichNumpy _ _ _) j, quad_sandwich _ _ _ (gram_inv_symm X), H.inv hX, quad_numpyMeat]
      congr 1
      refine Finset.sum_congr rfl fun g _ => ?_
      congr 1
      have e : ∀ m, score X u ids g m * v m = ∑ i ∈ Finset.univ.filter (fun i => ids i = g), X i m * v m * u i := by
        intro m
        simp only [score, Finset.sum_mul]
        exact Finset.sum_congr rfl fun i _ => by ring
      simp only [e]
      rw [Finset.sum_comm]
      exact Finset.sum_congr rfl fun i _ => by rw [H.comb i, Finset.sum_mul]

/-! ### Kept columns -/

/-- `σ` lists the kept columns. -/
structure Lists {k r : ℕ} (drop : List (Fin k)) (σ : Fin r → Fin k) : Prop where
  inj : Function.Injective σ
  mem : ∀ j, j ∉ drop ↔ ∃ p, σ p = j

theorem Lists.sum {k r : ℕ} {drop : List (Fin k)} {σ : Fin r → Fin k} (h : Lists drop σ) (F : Fin k → K) :
    ∑ j, (if j ∈ drop then 0 else F j) = ∑ p, F (σ p) := by
  rw [← Finset.sum_image (s := Finset.univ) (g := σ) (fun a _ b _ e => h.inj e)]
  rw [← Finset.sum_subset (Finset.subset_univ (Finset.univ.image σ))]
  · refine Finset.sum_congr rfl fun j hj => ?_
    obtain ⟨p, -, rfl⟩ := Finset.mem_image.1 hj
    rw [if_neg ((h.mem _).2 ⟨p, rfl⟩)]
  · intro j _ hj
    rw [if_pos]
    by_contra hd
    obtain ⟨p, rfl⟩ := (h.mem j).1 hd
    exact hj (Finset.mem_image.2 ⟨p, Finset.mem_univ _, rfl⟩)

/-- Extension by zero. -/
def extend {k r : ℕ} (σ : Fin r → Fin k) (v : Fin r → K) : Fin k → K := fun j => ∑ p, if σ p = j then v p else 0

theorem extend_at {k r : ℕ} {drop : List (Fin k)} {σ : Fin r → Fin k} (h : Lists drop σ) (v : Fin r → K) (p : Fin r) : extend σ v (σ p) = v p := by
  unfold extend
  simp [h.inj.eq_iff]

theorem extend_drop {k r : ℕ} {drop : List (Fin k)} {σ : Fin r → Fin k} (h : Lists drop σ) (v : Fin r → K) {j : Fin k} (hj : j ∈ drop) : extend σ v j = 0 := by
  unfold extend
  refine Finset.sum_eq_zero fun p _ => if_neg ?_
  intro e
  exact (h.mem j).2 ⟨p, e⟩ hj

theorem extend_sum {k r : ℕ} {drop : List (Fin k)} {σ : Fin r → Fin k} (h : Lists drop σ) (v : Fin r → K) (F : Fin k → K) :
    ∑ j, F j * extend σ v j = ∑ p, F (σ p) * v p := by
  have : ∀ j, F j * extend σ v j = if j ∈ drop then 0 else F j * extend σ v j := by
    intro j
    split_ifs with hj
    · rw [extend_drop h v hj, mul_zero]
    · rfl
  rw [Finset.sum_congr rfl fun j _ => this j]
  rw [h.sum (fun j => F j * extend σ v j)]
  exact Finset.sum_congr rfl fun p _ => by rw [extend_at h]

/-- The kept columns as a matrix. -/
abbrev pick {k r : ℕ} (X : Matrix ι (Fin k) K) (σ : Fin r → Fin k) : Matrix ι (Fin r) K := fun i p => X i (σ p)

theorem pick_det {k r : ℕ} {X : Matrix ι (Fin k) K} {drop : List (Fin k)} {σ : Fin r → Fin k} (h : Lists drop σ) (hX : Independent X drop) :
    ((pick X σ)ᵀ * pick X σ).det ≠ 0 := by
  refine DidFit.det_of_injective _ fun v hv => ?_
  have hz := hX (extend σ v) (fun j hj => extend_drop h v hj) (fun i => by rw [extend_sum h]; exact hv i)
  funext p
  rw [← extend_at h v p, hz]
  rfl

theorem pick_rank {k r : ℕ} {X : Matrix ι (Fin k) K} {drop : List (Fin k)} {σ : Fin r → Fin k} (h : Lists drop σ) (hX : Pruned X drop) : X.rank = r := by
  rw [Matrix.rank_eq_finrank_span_cols]
  have hli : LinearIndependent K (fun p => X.col (σ p)) := by
    rw [Fintype.linearIndependent_iff]
    intro g hg p
    have hz := hX.indep (extend σ g) (fun j hj => extend_drop h g hj) (fun i => by
      rw [extend_sum h]
      have := congrFun hg i
      simp only [Finset.sum_apply, Pi.smul_apply, smul_eq_mul, Pi.zero_apply, Matrix.col_apply] at this
      rw [← this]
      exact Finset.sum_congr rfl fun p _ => mul_comm _ _)
    rw [← extend_at h g p, hz]
    rfl
  have hspan : Submodule.span K (Set.range X.col) = Submodule.span K (Set.range (fun p => X.col (σ p))) := by
    apply le_antisymm
    · rw [Submodule.span_le]
      rintro _ ⟨j, rfl⟩
      by_cases hj : j ∈ drop
      · obtain ⟨a, ha⟩ := hX.redundant j hj
        have : X.col j = ∑ p, a (σ p) • X.col (σ p) := by
          funext i
          simp only [Finset.sum_apply, Pi.smul_apply, smul_eq_mul, Matrix.col_apply]
          rw [ha i, h.sum (fun m => X i m * a m)]
          exact Finset.sum_congr rfl fun p _ => mul_comm _ _
        rw [this]
        exact Submodule.sum_mem _ fun p _ => Submodule.smul_mem _ _ (Submodule.subset_span ⟨p, rfl⟩)
      · obtain ⟨p, rfl⟩ := (h.mem j).1 hj
        exact Submodule.subset_span ⟨p, rfl⟩
    · rw [Submodule.span_le]
      rintro _ ⟨p, rfl⟩
      exact Submodule.subset_span ⟨σ p, rfl⟩
  rw [hspan, finrank_span_eq_card hli, Fintype.card_fin]

theorem identified_kept {k : ℕ} {X : Matrix ι (Fin k) K} {drop : List (Fin k)} {j : Fin k} (hd : Redundant X drop) (hj : Identified X j) : j ∉ drop := by
  intro hm
  obtain ⟨a, ha⟩ := hd j hm
  refine hj (fun m => if m ∈ drop then 0 else a m) (if_pos hm) fun i => ?_
  rw [ha i]
  exact Finset.sum_congr rfl fun m _ => by split_ifs <;> simp

theorem pick_isolates {k r : ℕ} {X : Matrix ι (Fin k) K} {drop : List (Fin k)} {σ : Fin r → Fin k} (h : Lists drop σ) (hd : Redundant X drop) {p : Fin r}
    (hj : Identified X (σ p)) {v : Fin r → K} {w : ι → K} (H : Isolates (pick X σ) p v w) : Isolates X (σ p) (extend σ v) w := by
  refine ⟨fun i => by rw [extend_sum h]; exact H.comb i, fun m => ?_⟩
  by_cases hm : m ∈ drop
  · obtain ⟨a, ha⟩ := hd m hm
    have hne : m ≠ σ p := fun e => (h.mem m).2 ⟨p, e.symm⟩ hm
    have hsum : ∑ i, X i m * w i = a (σ p) := by
      have e : ∀ i, X i m * w i = ∑ q, a (σ q) * (pick X σ i q * w i) := by
        intro i
        rw [ha i, h.sum (fun j => X i j * a j), Finset.sum_mul]
        exact Finset.sum_congr rfl fun q _ => by ring
      simp only [e]
      rw [Finset.sum_comm]
      simp only [← Finset.mul_sum, H.unit]
      simp
    rw [hsum, if_neg hne]
    by_contra h0
    refine hj (fun j => if j = σ p then 0 else if j = m then 1 / a (σ p) else if j ∈ drop then 0 else -(a j / a (σ p))) (if_pos rfl) fun i => ?_
    have e : ∀ j, X i j * (if j = σ p then 0 else if j = m then 1 / a (σ p) else if j ∈ drop then 0 else -(a j / a (σ p))) =
        (if j = m then X i m / a (σ p) else 0) - (if j ∈ drop then 0 else X i j * a j) / a (σ p) + (if j = σ p then X i (σ p) else 0) := by
      intro j
      by_cases h1 : j = σ p
      · subst h1
        rw [if_pos rfl, if_neg (Ne.symm hne), if_neg ((h.mem _).2 ⟨p, rfl⟩), if_pos rfl]
        field_simp; ring
      · by_cases h2 : j = m
        · subst h2; rw [if_neg h1, if_pos rfl, if_pos rfl, if_pos hm, if_neg h1]; ring
        · rw [if_neg h1, if_neg h2, if_neg h2, if_neg h1]
          split_ifs
          · ring
          · ring
    simp only [e, Finset.sum_add_distrib, Finset.sum_sub_distrib, ← Finset.sum_div, ← ha i]
    simp
  · obtain ⟨q, rfl⟩ := (h.mem m).1 hm
    rw [show (∑ i, X i (σ q) * w i) = ∑ i, pick X σ i q * w i from rfl, H.unit]
    simp [h.inj.eq_iff]

/-! ### The fit -/

theorem lists_nil {k : ℕ} : Lists ([] : List (Fin k)) (id : Fin k → Fin k) := ⟨Function.injective_id, fun j => by simp⟩

theorem lists_kept {k : ℕ} (drop : List (Fin k)) : Lists drop (keptCols drop).get :=
  ⟨List.nodup_iff_injective_get.1 (Ols.keptCols_nodup drop), fun j => by
    rw [← Ols.mem_keptCols]
    exact ⟨fun h => List.get_of_mem h, fun ⟨p, e⟩ => e ▸ List.get_mem _ p⟩⟩

theorem kept_card {k : ℕ} (drop : List (Fin k)) : (Finset.univ.filter (fun i => i ∉ drop)).card = (keptCols drop).length := by
  rw [← List.toFinset_card_of_nodup (Ols.keptCols_nodup drop)]
  congr 1
  ext i
  simp [Ols.mem_keptCols]

theorem fit_form {E : Solvers ι K} (hE : Solves E) {o : Opts ι C} {k : ℕ} {drop : List (Fin k)} {X : Matrix ι (Fin k) K} {y : ι → K} {a : ℤ}
    {f : Fit ι k K} (hf : fit E o drop X y a = .ok f) :
    ∃ (r : ℕ) (σ : Fin r → Fin k) (b : Fin r → K) (V : Option (Matrix (Fin r) (Fin r) K)), Lists drop σ ∧ IsOls (pick X σ) y b ∧
      vcov E.pinv o (pick X σ) (resid (pick X σ) y b) = .ok V ∧ (∀ p, f.coef (σ p) = some (b p)) ∧
      (∀ p q, f.vcov (σ p, σ q) = V.map (fun V => V p q)) ∧ f.resid = resid (pick X σ) y b ∧ f.df = (Fintype.card ι : ℤ) - r - a ∧ k ≤ Fintype.card ι ∧
      (∀ j ∈ drop, f.coef j = none ∧ f.vcov (j, j) = none) := by
  cases drop with
  | nil =>
    simp only [fit] at hf
    by_cases hk : Fintype.card ι < k
    · rw [if_pos hk] at hf; cases hf
    · rw [if_neg hk] at hf
      cases hv : vcov E.pinv o X (resid X y (E.lstsq X y)) with
      | error e => rw [hv] at hf; cases hf
      | ok V =>
        rw [hv] at hf
        cases hf
        refine ⟨k, id, _, V, lists_nil, hE X y, hv, fun _ => rfl, fun _ _ => rfl, rfl, ?_, not_lt.1 hk, fun j hj => absurd hj List.not_mem_nil⟩
        simp [Ols.dfOf, Ols.nParamsEffective]
  | cons d ds =>
    simp only [fit] at hf
    by_cases hk : Fintype.card ι < k
    · rw [if_pos hk] at hf; cases hf
    · rw [if_neg hk] at hf
      by_cases hs : o.strict = true
      · rw [if_pos hs] at hf; cases hf
      · rw [if_neg hs] at hf
        by_cases h0 : (keptCols (d :: ds)).length = 0
        · rw [if_pos h0] at hf; cases hf
        · rw [if_neg h0] at hf
          cases hv : vcov E.pinv o (reduce X (keptCols (d :: ds)) : Matrix ι (Fin (keptCols (d :: ds)).length) K)
              (resid (reduce X (keptCols (d :: ds))) y (E.lstsq (reduce X (keptCols (d :: ds))) y)) with
          | error e => rw [hv] at hf; cases hf
          | ok V =>
            rw [hv] at hf
            cases hf
            refine ⟨_, _, _, V, lists_kept (d :: ds), hE _ y, hv, fun p => Ols.expandCoef_get _ (Ols.keptCols_nodup _) _ p, fun p q => ?_, rfl, ?_,
              not_lt.1 hk, fun j hj => ⟨(Ols.C12_nan_iff_dropped _ _ j).1.2 hj, ?_⟩⟩
            · cases V with
              | none => rfl
              | some W => exact (Ols.C12_vcov_nan (d :: ds) W).2 p q
            · show Ols.dfOf _ _ _ = _
              rw [Ols.C12_degrees_of_freedom, kept_card]
            · cases V with
              | none => rfl
              | some W => exact ((Ols.C12_vcov_nan (d :: ds) W).1 j j).2 (Or.inl hj)

/-- C124. In a design with redundant columns, whichever the column check drops, the coefficient of an identified column is the sum of the outcomes with the
only weights that are a combination of the columns, orthogonal to every other column and have product one with this one; its variance has the usual form in
these weights, with the rank of the design in place of the number of columns; degrees of freedom are rows minus rank minus adjustment. -/
theorem C124_identified (E : Solvers ι K) (hE : Solves E) (o : Opts ι C) {k : ℕ} (drop : List (Fin k)) (X : Matrix ι (Fin k) K) (hX : Pruned X drop)
    (y : ι → K) (a : ℤ) (f : Fit ι k K) (hf : fit E o drop X y a = .ok f) (j : Fin k) (hj : Identified X j) :
    ∃ v h b, Isolates X j v h ∧ IsOls X y b ∧ f.coef j = some (b j) ∧ b j = ∑ i, h i * y i ∧ f.resid = resid X y b ∧
      f.vcov (j, j) = variance o X.rank h (resid X y b) ∧ f.df = (Fintype.card ι : ℤ) - X.rank - a := by
  obtain ⟨b0, hb0, -, hr0, hc0⟩ := fit_isOls E hE o drop X y a f hf hX.redundant
  obtain ⟨r, σ, b, V, hσ, hb, hV, hc, hv, hres, hdf, -, -⟩ := fit_form hE hf
  obtain ⟨p, rfl⟩ := (hσ.mem j).1 (identified_kept hX.redundant hj)
  have hdet := pick_det hσ hX.indep
  obtain ⟨v, h, H⟩ := exists_isolates hdet p
  have H' := pick_isolates hσ hX.redundant hj H
  have hbp : b0 (σ p) = b p := by rw [← hc0, hc]; rfl
  refine ⟨_, h, b0, H', hb0, by rw [hc, hbp], DidFit.C125_coefficient X _ _ _ H' y b0 hb0, hr0, ?_, ?_⟩
  · rw [hv p p, vcov_entry hdet hV H, Fintype.card_fin, pick_rank hσ hX, ← hres, hr0]
  · rw [hdf, pick_rank hσ hX]

/-- C124. Which of the redundant columns are dropped changes neither coefficient, variance and degrees of freedom of an identified column nor residuals. -/
theorem C124_pruning (E : Solvers ι K) (hE : Solves E) (o : Opts ι C) {k : ℕ} (drop drop' : List (Fin k)) (X : Matrix ι (Fin k) K) (hX : Pruned X drop)
    (hX' : Pruned X drop') (y : ι → K) (a : ℤ) (f f' : Fit ι k K) (hf : fit E o drop X y a = .ok f) (hf' : fit E o drop' X y a = .ok f') :
    f'.resid = f.resid ∧ f'.df = f.df ∧ ∀ j, Identified X j → f'.coef j = f.coef j ∧ f'.vcov (j, j) = f.vcov (j, j) := by
  obtain ⟨b, hb, -, hr, -⟩ := fit_isOls E hE o drop X y a f hf hX.redundant
  obtain ⟨b', hb', -, hr', -⟩ := fit_isOls E hE o drop' X y a f' hf' hX'.redundant
  have hre : f'.resid = f.resid := by
    rw [hr, hr']; funext i; simp only [resid]
    rw [show fitted X b' i = fitted X b i from (Ols.C11_fitted_unique X y b' b hb' hb i)]
  obtain ⟨r, σ, -, -, hσ, -, -, -, -, -, hdf, -⟩ := fit_form hE hf
  obtain ⟨r', σ', -, -, hσ', -, -, -, -, -, hdf', -⟩ := fit_form hE hf'
  refine ⟨hre, by rw [hdf, hdf', ← pick_rank hσ hX, ← pick_rank hσ' hX'], fun j hj => ?_⟩
  obtain ⟨v, h, c, H, hc, h1, h2, h3, h4, -⟩ := C124_identified E hE o drop X hX y a f hf j hj
  obtain ⟨v', h', c', H', hc', h1', h2', h3', h4', -⟩ := C124_identified E hE o drop' X hX' y a f' hf' j hj
  have e := isolates_unique H H'
  subst e
  refine ⟨by rw [h1, h1', h2, h2'], ?_⟩
  rw [h4, h4', ← h3, ← h3', hre]

/-- C124. Every design has a pruning, so the hypotheses of the theorems above can be met. -/
theorem exists_pruned {k : ℕ} (X : Matrix ι (Fin k) K) : ∃ drop, Pruned X drop := by
  obtain ⟨β, s, hs, hspan, hli⟩ := exists_linearIndependent' K X.col
  classical
  have : Finite β := Finite.of_injective s hs
  have : Fintype β := Fintype.ofFinite β
  refine ⟨(List.finRange k).filter (fun j => j ∉ Set.range s), ?_, ?_⟩
  · intro d hd
    have hm : X.col d ∈ Submodule.span K (Set.range (X.col ∘ s)) := by rw [hspan]; exact Submodule.subset_span ⟨d, rfl⟩
    obtain ⟨c, hc⟩ := (Submodule.mem_span_range_iff_exists_fun K).1 hm
    refine ⟨fun j => ∑ p, if s p = j then c p else 0, fun i => ?_⟩
    have hi := congrFun hc i
    simp only [Finset.sum_apply, Pi.smul_apply, smul_eq_mul, Function.comp, Matrix.col_apply] at hi
    rw [← hi]
    have e : ∀ j, (if j ∈ (List.finRange k).filter (fun j => j ∉ Set.range s) then 0 else X i j * ∑ p, if s p = j then c p else 0) =
        ∑ p, if s p = j then c p * X i j else 0 := by
      intro j
      by_cases hj : j ∈ Set.range s
      · rw [if_neg (by simpa using hj), Finset.mul_sum]
        exact Finset.sum_congr rfl fun p _ => by split_ifs <;> ring
      · rw [if_pos (by simpa using hj)]
        exact (Finset.sum_eq_zero fun p _ => if_neg fun e => hj ⟨p, e⟩).symm
    simp only [e]
    rw [Finset.sum_comm]
    simp
  · intro v hv hz
    rw [Fintype.linearIndependent_iff] at hli
    have hv0 : ∀ j, j ∉ Set.range s → v j = 0 := fun j hj => hv j (by simpa using hj)
    have hg := hli (fun p => v (s p)) (by
      funext i
      simp only [Finset.sum_apply, Pi.smul_apply, smul_eq_mul, Function.comp, Matrix.col_apply, Pi.zero_apply]
      rw [← hz i, ← Finset.sum_image (s := Finset.univ) (g := s) (f := fun j => v j * X i j) (fun a _ b _ e => hs e)]
      rw [← Finset.sum_subset (Finset.subset_univ (Finset.univ.image s))]
      · exact Finset.sum_congr rfl fun j _ => mul_comm _ _
      · intro j _ hj
        rw [hv0 j (fun ⟨p, e⟩ => hj (Finset.mem_image.2 ⟨p, Finset.mem_univ _, e⟩)), mul_zero])
    funext j
    by_cases hj : j ∈ Set.range s
    · obtain ⟨p, rfl⟩ := hj; exact hg p
    · exact hv0 j hj

/-- C124. With a pruned design the fit returns a result exactly if there are as many rows as columns, a column is kept, nothing is dropped under
"error", and robust or clustered errors have more rows than the rank and, if clustered, two clusters. -/
theorem C124_runs (E : Solvers ι K) (hE : Solves E) (o : Opts ι C) {k : ℕ} (drop : List (Fin k)) (X : Matrix ι (Fin k) K) (hX : Pruned X drop) (hk : 0 < X.rank)
    (y : ι → K) (a : ℤ) : (∃ f, fit E o drop X y a = .ok f) ↔ k ≤ Fintype.card ι ∧ (o.strict = true → X.rank = k) ∧
      (o.robust = true ∨ o.ids ≠ none → X.rank < Fintype.card ι) ∧ ∀ ids, o.ids = some ids → 2 ≤ nClusters ids := by
  have hn : X.rank ≤ Fintype.card ι := X.rank_le_card_height
  have hvc : ∀ {r : ℕ} (Z : Matrix ι (Fin r) K), (Zᵀ * Z).det ≠ 0 → r = X.rank → ∀ u, (∃ V, vcov E.pinv o Z u = .ok V) ↔
      (o.robust = true ∨ o.ids ≠ none → X.rank < Fintype.card ι) ∧ ∀ ids, o.ids = some ids → 2 ≤ nClusters ids := by
    intro r Z hZ hr u
    unfold vcov
    cases hi : o.ids with
    | none =>
      by_cases hro : o.robust = true
      · simp only [hro, Bool.true_or, if_true, vcovNumpy, Fintype.card_fin, if_neg hZ, true_or, true_implies]
        by_cases he : Fintype.card ι = r
        · simp [he]; omega
        · simp [he]; omega
      · simp [hro]
    | some ids =>
      simp only [Option.isSome_some, Bool.or_true, if_true, vcovNumpy, Fintype.card_fin, if_neg hZ]
      by_cases h2 : nClusters ids < 2
      · simp [h2]
      · by_cases he : Fintype.card ι = r
        · simp [h2, he]; omega
        · simp [h2, he]; omega
  have hrk := pick_rank (lists_kept drop) hX
  cases drop with
  | nil =>
    have hrk' := pick_rank (lists_nil (k := k)) hX
    simp only [fit]
    by_cases hlt : Fintype.card ι < k
    · rw [if_pos hlt]
      constructor
      · rintro ⟨f, hf⟩; cases hf
      · rintro ⟨h, -⟩; omega
    · rw [if_neg hlt]
      have := hvc X (pick_det lists_nil hX.indep) hrk'.symm (resid X y (E.lstsq X y))
      constructor
      · rintro ⟨f, hf⟩
        refine ⟨not_lt.1 hlt, fun _ => hrk', this.1 ?_⟩
        cases hv : vcov E.pinv o X (resid X y (E.lstsq X y)) with
        | error e => rw [hv] at hf; cases hf
        | ok V => exact ⟨V, rfl⟩
      · rintro ⟨-, -, h⟩
        obtain ⟨V, hV⟩ := this.2 h
        exact ⟨_, by rw [hV]⟩
  | cons d ds =>
    simp only [fit]
    by_cases hlt : Fintype.card ι < k
    · rw [if_pos hlt]
      constructor
      · rintro ⟨f, hf⟩; cases hf
      · rintro ⟨h, -⟩; omega
    · rw [if_neg hlt]
      have hlen : (keptCols (d :: ds)).length < k := by
        have h1 := Finset.card_lt_card (s := Finset.univ.filter (fun i => i ∉ d :: ds)) (t := Finset.univ) ⟨Finset.subset_univ _, fun h =>
          (Finset.mem_filter.1 (h (Finset.mem_univ d))).2 (by simp)⟩
        rwa [kept_card, Finset.card_univ, Fintype.card_fin] at h1
      by_cases hs : o.strict = true
      · rw [if_pos hs]
        constructor
        · rintro ⟨f, hf⟩; cases hf
        · rintro ⟨-, h, -⟩; have := h hs; omega
      · rw [if_neg hs, if_neg (by omega)]
        have := hvc _ (pick_det (lists_kept (d :: ds)) hX.indep) hrk.symm
          (resid (reduce X (keptCols (d :: ds))) y (E.lstsq (reduce X (keptCols (d :: ds))) y))
        constructor
        · rintro ⟨f, hf⟩
          refine ⟨not_lt.1 hlt, fun h => absurd h hs, this.1 ?_⟩
          cases hv : vcov E.pinv o (pick X (keptCols (d :: ds)).get) (resid (reduce X (keptCols (d :: ds))) y (E.lstsq (reduce X (keptCols (d :: ds))) y)) with
          | error e =>
            have hv' : vcov E.pinv o (reduce X (keptCols (d :: ds)) : Matrix ι (Fin (keptCols (d :: ds)).length) K)
              (resid (reduce X (keptCols (d :: ds))) y (E.lstsq (reduce X (keptCols (d :: ds))) y)) = .error e := hv
            rw [hv'] at hf; cases hf
          | ok V => exact ⟨V, rfl⟩
        · rintro ⟨-, -, h⟩
          obtain ⟨V, hV⟩ := this.2 h
          have hv' : vcov E.pinv o (reduce X (keptCols (d :: ds)) : Matrix ι (Fin (keptCols (d :: ds)).length) K)
              (resid (reduce X (keptCols (d :: ds))) y (E.lstsq (reduce X (keptCols (d :: ds))) y)) = .ok V := hV
          exact ⟨_, by rw [hv']⟩

/-- The column check of `solve_ols` finds a pruning of every design. -/
def Prunes (L : TwfeFit.Lib ι K) : Prop := ∀ {m : ℕ} (X : Matrix ι (Fin m) K), Pruned X (L.redundant X)

theorem Pruned.nil {k : ℕ} {X : Matrix ι (Fin k) K} {drop : List (Fin k)} (h : Pruned X drop) (hX : (Xᵀ * X).det ≠ 0) : drop = [] := by
  cases drop with
  | nil => rfl
  | cons d ds =>
    exfalso
    have hfull : ∀ v : Fin k → K, (∀ i, ∑ m, X i m * v m = 0) → v = 0 := by
      intro v hv
      by_contra hne
      apply hX
      apply Matrix.exists_mulVec_eq_zero_iff.1
      exact ⟨v, hne, by rw [← mulVec_mulVec, show X *ᵥ v = 0 from funext hv, mulVec_zero]⟩
    obtain ⟨a, ha⟩ := h.redundant d (by simp)
    have hz := hfull (fun m => if m ∈ d :: ds then (if m = d then 1 else 0) else -a m) (fun i => by
      have e : ∀ m, X i m * (if m ∈ d :: ds then (if m = d then 1 else 0) else -a m) =
          (if m = d then X i d else 0) - (if m ∈ d :: ds then 0 else X i m * a m) := by
        intro m
        by_cases h1 : m = d
        · subst h1; simp
        · by_cases h2 : m ∈ d :: ds
          · simp [h1, h2]
          · rw [if_neg h2, if_neg h1, if_neg h2]; ring
      rw [Finset.sum_congr rfl fun m _ => e m, Finset.sum_sub_distrib, ← ha i]
      simp)
    have := congrFun hz d
    simp at this

/-- Routines meeting all hypotheses exist. -/
theorem exists_prunes : ∃ L : TwfeFit.Lib ι ℝ, TwfeFit.Works L ∧ Prunes L := by
  obtain ⟨E, hE⟩ := exists_solves (K := ℝ) (ι := ι)
  have hP : ∀ {m : ℕ} (X : Matrix ι (Fin m) ℝ), Pruned X (Classical.choose (exists_pruned X)) := fun X => Classical.choose_spec (exists_pruned X)
  exact ⟨⟨⟨E, Real.sqrt, fun _ => ⟨fun x => x, fun x => x⟩, ⟨fun x => x, fun x => x⟩⟩, fun X => Classical.choose (exists_pruned X)⟩,
    ⟨hE, fun X h => (hP X).nil h, fun v hv => ⟨Real.sqrt_nonneg v, Real.sq_sqrt hv⟩⟩, fun X => hP X⟩

/-! ### Instances -/

/-- A constant and one regressor entered twice, in different units. -/
def twice : Matrix (Fin 4) (Fin 3) ℚ := fun i => ![1, (i.val : ℚ), 2 * (i.val : ℚ)]

theorem twice_pruned (d : Fin 3) (hd : d = 1 ∨ d = 2) : Pruned twice [d] := by
  refine ⟨?_, ?_⟩
  · intro e he
    rw [List.mem_singleton] at he
    subst he
    rcases hd with rfl | rfl
    · exact ⟨![0, 0, 1 / 2], fun i => by simp [twice, Fin.sum_univ_succ]; ring⟩
    · exact ⟨![0, 2, 0], fun i => by simp [twice, Fin.sum_univ_succ]; ring⟩
  · intro v hv hz
    have h0 := hz 0
    have h1 := hz 1
    have hd0 := hv d (by simp)
    simp [twice, Fin.sum_univ_succ] at h0 h1
    rcases hd with rfl | rfl
    · funext m
      fin_cases m
      · exact h0
      · exact hd0
      · show v 2 = 0
        rw [h0, hd0] at h1; linarith
    · funext m
      fin_cases m
      · exact h0
      · show v 1 = 0
        rw [h0, hd0] at h1; linarith
      · exact hd0

/-- C124_identified, C124_pruning, C124_runs: the intercept is identified although the other two columns are redundant, either of which may be dropped; the rank
is two; the fit runs. -/
example : Identified twice 0 ∧ twice.rank = 2 ∧ ∃ (E : Solvers (Fin 4) ℚ) (f f' : Fit (Fin 4) 3 ℚ), Solves E ∧
    fit E (⟨true, none, none, false⟩ : Opts (Fin 4) ℕ) [1] twice (fun i => (i.val : ℚ) ^ 2) 0 = .ok f ∧
    fit E (⟨true, none, none, false⟩ : Opts (Fin 4) ℕ) [2] twice (fun i => (i.val : ℚ) ^ 2) 0 = .ok f' ∧ f'.coef 0 = f.coef 0 ∧ f.coef 1 = none ∧
    f'.coef 2 = none := by
  have hid : Identified twice 0 := by
    intro a ha h
    have h0 := h 0
    simp [twice, Fin.sum_univ_succ, ha] at h0
  have hrk : twice.rank = 2 := by
    rw [pick_rank (lists_kept [(1 : Fin 3)]) (twice_pruned 1 (Or.inl rfl))]; rfl
  obtain ⟨E, hE⟩ := exists_solves (K := ℚ) (ι := Fin 4)
  have hrun : ∀ d : Fin 3, d = 1 ∨ d = 2 → ∃ f, fit E (⟨true, none, none, false⟩ : Opts (Fin 4) ℕ) [d] twice (fun i => (i.val : ℚ) ^ 2) 0 = .ok f := by
    intro d hd
    refine (C124_runs E hE _ [d] twice (twice_pruned d hd) (by omega) _ 0).2 ⟨by simp, by simp, fun _ => by rw [hrk]; simp, fun ids h => by cases h⟩
  obtain ⟨f, hf⟩ := hrun 1 (Or.inl rfl)
  obtain ⟨f', hf'⟩ := hrun 2 (Or.inr rfl)
  obtain ⟨_, _, _, _, _, _, _, _, _, _, _, _, hn⟩ := fit_form hE hf
  obtain ⟨_, _, _, _, _, _, _, _, _, _, _, _, hn'⟩ := fit_form hE hf'
  exact ⟨hid, hrk, E, f, f', hE, hf, hf', ((C124_pruning E hE _ [1] [2] twice (twice_pruned 1 (Or.inl rfl)) (twice_pruned 2 (Or.inr rfl)) _ 0 f f' hf hf').2.2 0 hid).1,
    (hn 1 (by simp)).1, (hn' 2 (by simp)).1⟩

end DiffDiff.LinReg
