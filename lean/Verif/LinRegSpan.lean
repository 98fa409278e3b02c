/-
Property C124, continued: inference on an identified coefficient depends on the span of the columns only, for designs of any rank, any number of columns and
any order of the rows.
-/
import Verif.LinRegRank

set_option linter.unusedSectionVars false
set_option linter.unusedVariables false

namespace DiffDiff.LinReg
open Matrix Vcov
open Ols (IsOls resid fitted dot keptCols reduce)
open DidFit (Isolates)
open RowOrder (movedOpts)

variable {K : Type*} [Field K] [LinearOrder K] [IsStrictOrderedRing K]
variable {ι ι' C : Type*} [Fintype ι] [DecidableEq ι] [Fintype ι'] [DecidableEq ι'] [DecidableEq C]

/-- Rows of `X'` are those of `X` in the order given by `e`, and both designs have the same combinations of columns: to every coefficient vector of one there is
one of the other with the same value for the coefficient of interest and the same fitted values. -/
structure SameSpan (e : ι' ≃ ι) {k k' : ℕ} (X : Matrix ι (Fin k) K) (j : Fin k) (X' : Matrix ι' (Fin k') K) (j' : Fin k') : Prop where
  forth : ∀ v : Fin k → K, ∃ v' : Fin k' → K, v' j' = v j ∧ ∀ i, ∑ m, X' i m * v' m = ∑ m, X (e i) m * v m
  back : ∀ v' : Fin k' → K, ∃ v : Fin k → K, v j = v' j' ∧ ∀ i, ∑ m, X' i m * v' m = ∑ m, X (e i) m * v m

theorem SameSpan.symm {e : ι' ≃ ι} {k k' : ℕ} {X : Matrix ι (Fin k) K} {j : Fin k} {X' : Matrix ι' (Fin k') K} {j' : Fin k'} (h : SameSpan e X j X' j') :
    SameSpan e.symm X' j' X j := by
  refine ⟨fun v' => ?_, fun v => ?_⟩
  · obtain ⟨v, h1, h2⟩ := h.back v'
    exact ⟨v, h1, fun i => by rw [h2 (e.symm i), Equiv.apply_symm_apply]⟩
  · obtain ⟨v', h1, h2⟩ := h.forth v
    exact ⟨v', h1, fun i => by rw [h2 (e.symm i), Equiv.apply_symm_apply]⟩

theorem sum_unit {k : ℕ} (F : Fin k → K) (m : Fin k) : ∑ l, F l * (if l = m then 1 else 0) = F m := by simp

theorem SameSpan.identified {e : ι' ≃ ι} {k k' : ℕ} {X : Matrix ι (Fin k) K} {j : Fin k} {X' : Matrix ι' (Fin k') K} {j' : Fin k'} (h : SameSpan e X j X' j')
    (hj : Identified X j) : Identified X' j' := by
  intro a ha hc
  -- the difference of unit vector and `a` is fitted to zero
  obtain ⟨v, h1, h2⟩ := h.back (fun m => (if m = j' then 1 else 0) - a m)
  have hz : ∀ i, ∑ m, X i m * v m = 0 := by
    intro i
    have := h2 (e.symm i)
    rw [Equiv.apply_symm_apply] at this
    rw [← this]
    simp only [mul_sub, Finset.sum_sub_distrib, sum_unit, ← hc (e.symm i), sub_self]
  have hvj : v j = 1 := by rw [h1, ha]; simp
  refine hj (fun m => (if m = j then 1 else 0) - v m) (by simp [hvj]) fun i => ?_
  simp only [mul_sub, Finset.sum_sub_distrib, sum_unit, hz i, sub_zero]

theorem pair_sum {k : ℕ} (X : Matrix ι (Fin k) K) (h : ι → K) (v : Fin k → K) : ∑ i, (∑ m, X i m * v m) * h i = ∑ m, v m * ∑ i, X i m * h i := by
  simp only [Finset.sum_mul, Finset.mul_sum]
  rw [Finset.sum_comm]
  exact Finset.sum_congr rfl fun m _ => Finset.sum_congr rfl fun i _ => by ring

theorem SameSpan.isolates {e : ι' ≃ ι} {k k' : ℕ} {X : Matrix ι (Fin k) K} {j : Fin k} {X' : Matrix ι' (Fin k') K} {j' : Fin k'} (h : SameSpan e X j X' j')
    {v : Fin k → K} {w : ι → K} (H : Isolates X j v w) : ∃ v', Isolates X' j' v' (fun i => w (e i)) := by
  obtain ⟨v', -, h2⟩ := h.forth v
  refine ⟨v', fun i => by rw [h2, H.comb], fun m => ?_⟩
  obtain ⟨a, h3, h4⟩ := h.back (fun l => if l = m then 1 else 0)
  have e1 : ∀ i, X' i m = ∑ l, X (e i) l * a l := fun i => by rw [← h4, sum_unit]
  simp only [e1]
  rw [Equiv.sum_comp e (fun i => (∑ l, X i l * a l) * w i), pair_sum]
  simp only [H.unit]
  rw [sum_unit, h3]
  by_cases hm : m = j'
  · simp [hm]
  · simp [hm, Ne.symm hm]

theorem SameSpan.isOls {e : ι' ≃ ι} {k k' : ℕ} {X : Matrix ι (Fin k) K} {j : Fin k} {X' : Matrix ι' (Fin k') K} {j' : Fin k'} (h : SameSpan e X j X' j')
    {y : ι → K} {b : Fin k → K} (hb : IsOls X y b) : ∃ b', IsOls X' (fun i => y (e i)) b' ∧ ∀ i, resid X' (fun i => y (e i)) b' i = resid X y b (e i) := by
  obtain ⟨b', -, h2⟩ := h.forth b
  have hr : ∀ i, resid X' (fun i => y (e i)) b' i = resid X y b (e i) := fun i => by
    simp only [resid, fitted, dot]
    rw [h2]
  refine ⟨b', fun m => ?_, hr⟩
  obtain ⟨a, -, h4⟩ := h.back (fun l => if l = m then 1 else 0)
  have e1 : ∀ i, X' i m = ∑ l, X (e i) l * a l := fun i => by rw [← h4, sum_unit]
  simp only [e1, hr]
  rw [Equiv.sum_comp e (fun i => (∑ l, X i l * a l) * resid X y b i), pair_sum]
  exact Finset.sum_eq_zero fun l _ => by rw [hb l, mul_zero]

theorem SameSpan.rank {e : ι' ≃ ι} {k k' : ℕ} {X : Matrix ι (Fin k) K} {j : Fin k} {X' : Matrix ι' (Fin k') K} {j' : Fin k'} (h : SameSpan e X j X' j') :
    X'.rank = X.rank := by
  have hmap : LinearMap.range X'.mulVecLin = (LinearMap.range X.mulVecLin).map (LinearEquiv.funCongrLeft K K e : (ι → K) →ₗ[K] (ι' → K)) := by
    ext f
    rw [Submodule.mem_map]
    constructor
    · rintro ⟨v', rfl⟩
      obtain ⟨v, -, h2⟩ := h.back v'
      exact ⟨_, ⟨v, rfl⟩, funext fun i => (h2 i).symm⟩
    · rintro ⟨g, ⟨v, rfl⟩, rfl⟩
      obtain ⟨v', -, h2⟩ := h.forth v
      exact ⟨v', funext h2⟩
  unfold Matrix.rank
  rw [hmap]
  exact LinearEquiv.finrank_map_eq (LinearEquiv.funCongrLeft K K e) _

theorem nClusters_moved {G : Type*} [DecidableEq G] (e : ι' ≃ ι) (ids : ι → G) : nClusters (fun i => ids (e i)) = nClusters ids := by
  unfold nClusters
  rw [RowOrder.image_moved]

theorem variance_moved (e : ι' ≃ ι) (o : Opts ι C) (r : ℕ) (w u : ι → K) :
    variance (movedOpts e o) r (fun i => w (e i)) (fun i => u (e i)) = variance o r w u := by
  have hc : Fintype.card ι' = Fintype.card ι := Fintype.card_congr e
  have hids : (movedOpts e o).ids = o.ids.map (fun f i => f (e i)) := by
    cases o with
    | mk rb own call st => cases call <;> cases own <;> rfl
  unfold variance
  rw [hids]
  cases hi : o.ids with
  | none =>
    have h1 := Equiv.sum_comp e (fun i => (w i * u i) ^ 2)
    have h2 := Equiv.sum_comp e (fun i => (u i) ^ 2)
    have h3 := Equiv.sum_comp e (fun i => (w i) ^ 2)
    simp only [Option.map_none, hc, h1, h2, h3]
    rfl
  | some ids =>
    have h1 : ∀ g, ∑ i ∈ Finset.univ.filter (fun i => ids (e i) = g), w (e i) * u (e i) = ∑ i ∈ Finset.univ.filter (fun i => ids i = g), w i * u i := by
      intro g
      rw [Finset.sum_filter, Finset.sum_filter]
      exact Equiv.sum_comp e (fun i => if ids i = g then w i * u i else 0)
    simp only [Option.map_some, nClusters_moved, RowOrder.image_moved, hc, h1]

/-- C124. Inference on an identified coefficient depends on the span of the columns, the outcome and the clusters only: for two designs with the same combinations
(rows in any order, any number of columns, other redundant columns, other choices of the columns dropped) coefficient, variance, degrees of freedom and
residuals are the same. -/
theorem C124_same_span (E : Solvers ι K) (hE : Solves E) (E' : Solvers ι' K) (hE' : Solves E') (o : Opts ι C) (e : ι' ≃ ι) {k k' : ℕ} (drop : List (Fin k))
    (drop' : List (Fin k')) (X : Matrix ι (Fin k) K) (X' : Matrix ι' (Fin k') K) (hX : Pruned X drop) (hX' : Pruned X' drop') (j : Fin k) (j' : Fin k')
    (hs : SameSpan e X j X' j') (hj : Identified X j) (y : ι → K) (a : ℤ) (f : Fit ι k K) (f' : Fit ι' k' K) (hf : fit E o drop X y a = .ok f)
    (hf' : fit E' (movedOpts e o) drop' X' (fun i => y (e i)) a = .ok f') :
    f'.coef j' = f.coef j ∧ f'.vcov (j', j') = f.vcov (j, j) ∧ f'.df = f.df ∧ (∀ i, f'.resid i = f.resid (e i)) ∧
      ∀ (r : K → K) (tD : ℤ → Inference.Dist K) (nD : Inference.Dist K) (al : Option K) (alpha : K) (d : Option ℤ),
        infer r tD nD f' j' al alpha d = infer r tD nD f j al alpha d := by
  obtain ⟨v, w, b, H, hb, h1, h2, h3, h4, h5⟩ := C124_identified E hE o drop X hX y a f hf j hj
  obtain ⟨v', w', b', H', hb', l1, l2, l3, l4, l5⟩ := C124_identified E' hE' _ drop' X' hX' _ a f' hf' j' (hs.identified hj)
  obtain ⟨v'', H''⟩ := hs.isolates H
  have hw : w' = fun i => w (e i) := isolates_unique H' H''
  obtain ⟨c, hc, hcr⟩ := hs.isOls hb
  have hr : resid X' (fun i => y (e i)) b' = fun i => resid X y b (e i) := by
    funext i
    rw [← hcr i]
    simp only [resid]
    rw [show fitted X' b' i = fitted X' c i from Ols.C11_fitted_unique X' _ b' c hb' hc i]
  have g1 : f'.coef j' = f.coef j := by
    rw [l1, h1, l2, h2, hw, Equiv.sum_comp e (fun i => w i * y i)]
  have g2 : f'.vcov (j', j') = f.vcov (j, j) := by
    rw [l4, h4, hw, hr, hs.rank, variance_moved]
  have g3 : f'.df = f.df := by rw [l5, h5, hs.rank, Fintype.card_congr e]
  refine ⟨g1, g2, g3, fun i => by rw [l3, h3, hr], fun r tD nD al alpha d => ?_⟩
  unfold infer
  rw [g1, g2, g3]

/-- C124. Two designs with the same combinations and equally many columns run or fail together. -/
theorem C124_same_runs (E : Solvers ι K) (hE : Solves E) (E' : Solvers ι' K) (hE' : Solves E') (o : Opts ι C) (e : ι' ≃ ι) {k k' : ℕ} (drop : List (Fin k))
    (drop' : List (Fin k')) (X : Matrix ι (Fin k) K) (X' : Matrix ι' (Fin k') K) (hX : Pruned X drop) (hX' : Pruned X' drop') (j : Fin k) (j' : Fin k')
    (hs : SameSpan e X j X' j') (hj : Identified X j) (hk : k' = k ∨ (o.strict = false ∧ k' ≤ Fintype.card ι)) (y y' : _) (a a' : ℤ) (f : Fit ι k K)
    (hf : fit E o drop X y a = .ok f) : ∃ f', fit E' (movedOpts e o) drop' X' y' a' = .ok f' := by
  have hpos : 0 < X.rank := by
    rw [Nat.pos_iff_ne_zero]
    intro h0
    have hr : Module.finrank K (LinearMap.range X.mulVecLin) = 0 := h0
    have hbot := Submodule.finrank_eq_zero.1 hr
    have hz : ∀ v, X *ᵥ v = 0 := fun v => by
      have : X.mulVecLin v ∈ LinearMap.range X.mulVecLin := ⟨v, rfl⟩
      rw [hbot] at this
      exact (Submodule.mem_bot K).1 this
    refine hj 0 rfl fun i => ?_
    have := congrFun (hz (fun m => if m = j then 1 else 0)) i
    simpa [Matrix.mulVec, dotProduct] using this
  obtain ⟨q1, q2, q3, q4⟩ := (C124_runs E hE o drop X hX hpos y a).1 ⟨f, hf⟩
  have hids : (movedOpts e o).ids = o.ids.map (fun f i => f (e i)) := by
    cases o with
    | mk rb own call st => cases call <;> cases own <;> rfl
  refine (C124_runs E' hE' _ drop' X' hX' (by rw [hs.rank]; exact hpos) y' a').2 ⟨?_, fun hst => ?_, fun h => ?_, fun ids hi => ?_⟩
  · rw [Fintype.card_congr e]
    rcases hk with hk | hk
    · omega
    · exact hk.2
  · rcases hk with hk | hk
    · rw [hs.rank, hk]; exact q2 hst
    · rw [show (movedOpts e o).strict = o.strict from rfl, hk.1] at hst; cases hst
  · rw [hs.rank, Fintype.card_congr e]
    refine q3 (h.imp id fun h h' => h ?_)
    rw [hids, h']
    rfl
  · rw [hids] at hi
    obtain ⟨ids0, h0, rfl⟩ := Option.map_eq_some_iff.1 hi
    rw [nClusters_moved]
    exact q4 ids0 h0

/-! ### Linear changes of the outcome -/

theorem variance_scale (o : Opts ι C) (r : ℕ) (w u : ι → K) (c : K) : variance o r w (fun i => c * u i) = (variance o r w u).map (c ^ 2 * ·) := by
  unfold variance
  cases hi : o.ids with
  | none =>
    dsimp only
    split_ifs
    · simp only [Option.map_some, Option.some.injEq]
      have : ∀ i, (w i * (c * u i)) ^ 2 = c ^ 2 * (w i * u i) ^ 2 := fun i => by ring
      simp only [this, ← Finset.mul_sum]
      ring
    · rfl
    · simp only [Option.map_some, Option.some.injEq]
      have : ∀ i, (c * u i) ^ 2 = c ^ 2 * (u i) ^ 2 := fun i => by ring
      simp only [this, ← Finset.mul_sum]
      ring
  | some ids =>
    simp only [Option.map_some, Option.some.injEq]
    have : ∀ g, (∑ i ∈ Finset.univ.filter (fun i => ids i = g), w i * (c * u i)) ^ 2 = c ^ 2 * (∑ i ∈ Finset.univ.filter (fun i => ids i = g), w i * u i) ^ 2 := by
      intro g
      rw [← mul_pow, Finset.mul_sum]
      congr 1
      exact Finset.sum_congr rfl fun i _ => by ring
    simp only [this, ← Finset.mul_sum]
    ring

/-- C124. Multiplying the outcome by `c` and adding a combination of the columns multiplies an identified coefficient by `c` and adds its part of the combination;
its variance is multiplied by `c ^ 2`, the residuals by `c`; redundant columns allowed. -/
theorem C124_outcome_rank (E : Solvers ι K) (hE : Solves E) (o : Opts ι C) {k : ℕ} (drop : List (Fin k)) (X : Matrix ι (Fin k) K) (hX : Pruned X drop) (j : Fin k)
    (hj : Identified X j) (y : ι → K) (a : ℤ) (c : K) (δ : Fin k → K) (f f' : Fit ι k K) (hf : fit E o drop X y a = .ok f)
    (hf' : fit E o drop X (fun i => c * y i + ∑ m, X i m * δ m) a = .ok f') :
    f'.coef j = (f.coef j).map (fun x => c * x + δ j) ∧ f'.vcov (j, j) = (f.vcov (j, j)).map (c ^ 2 * ·) ∧ f'.df = f.df ∧
      ∀ i, f'.resid i = c * f.resid i := by
  obtain ⟨v, w, b, H, hb, h1, h2, h3, h4, h5⟩ := C124_identified E hE o drop X hX y a f hf j hj
  obtain ⟨v', w', b', H', hb', l1, l2, l3, l4, l5⟩ := C124_identified E hE o drop X hX _ a f' hf' j hj
  have hw : w' = w := isolates_unique H' H
  have hB : IsOls X (fun i => c * y i + ∑ m, X i m * δ m) (fun m => c * b m + δ m) ∧
      ∀ i, resid X (fun i => c * y i + ∑ m, X i m * δ m) (fun m => c * b m + δ m) i = c * resid X y b i := by
    have hr : ∀ i, resid X (fun i => c * y i + ∑ m, X i m * δ m) (fun m => c * b m + δ m) i = c * resid X y b i := fun i => by
      simp only [resid, fitted, dot]
      rw [mul_sub, Finset.mul_sum, show ∑ m, X i m * (c * b m + δ m) = ∑ m, c * (X i m * b m) + ∑ m, X i m * δ m by
        rw [← Finset.sum_add_distrib]; exact Finset.sum_congr rfl fun m _ => by ring]
      ring
    refine ⟨fun m => ?_, hr⟩
    simp only [hr]
    have : ∀ i, X i m * (c * resid X y b i) = c * (X i m * resid X y b i) := fun i => by ring
    rw [Finset.sum_congr rfl fun i _ => this i, ← Finset.mul_sum, hb m, mul_zero]
  have hr : resid X (fun i => c * y i + ∑ m, X i m * δ m) b' = fun i => c * resid X y b i := by
    funext i
    rw [← hB.2 i]
    simp only [resid]
    rw [show fitted X b' i = fitted X (fun m => c * b m + δ m) i from Ols.C11_fitted_unique X _ b' _ hb' hB.1 i]
  refine ⟨?_, ?_, by rw [l5, h5], fun i => by rw [l3, h3, hr]⟩
  · rw [l1, h1, DidFit.C125_coefficient X j v w H _ b' hb', ← DidFit.C125_coefficient X j v w H _ _ hB.1]
    rfl
  · rw [l4, h4, hw, hr, variance_scale]

/-- The three columns of `twice` and a permuted design with four columns span the same. -/
example : SameSpan (Equiv.refl (Fin 4)) twice 0 (fun i => ![2 * (i.val : ℚ), 1, (i.val : ℚ), 3 * (i.val : ℚ)]) 1 := by
  refine ⟨fun v => ⟨![v 2, v 0, v 1, 0], rfl, fun i => ?_⟩, fun v => ⟨![v 1, v 2 + 2 * v 0 + 3 * v 3, 0], rfl, fun i => ?_⟩⟩
  · simp [Fin.sum_univ_succ, twice]; ring
  · simp [Fin.sum_univ_succ, twice]; ring

end DiffDiff.LinReg
