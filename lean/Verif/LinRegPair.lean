/-
Property C124, continued: covariance of two identified coefficients in a design with redundant columns.
-/
import Verif.LinRegSpan

set_option linter.unusedSectionVars false
set_option linter.unusedVariables false

namespace DiffDiff.LinReg
open Matrix Vcov
open Ols (IsOls resid fitted dot keptCols reduce)
open DidFit (Isolates)
open RowOrder (movedOpts)

variable {K : Type*} [Field K] [LinearOrder K] [IsStrictOrderedRing K]
variable {ι ι' κ C : Type*} [Fintype ι] [DecidableEq ι] [Fintype ι'] [DecidableEq ι'] [Fintype κ] [DecidableEq κ] [DecidableEq C]

/-- Covariance of two coefficients with weights `h`, `h'` and residuals `u` in a design of rank `r`. -/
def covariance (o : Opts ι C) (r : ℕ) (h h' u : ι → K) : Option K :=
  match o.ids with
  | some ids => some (((nClusters ids : K) / ((nClusters ids : K) - 1)) * (((Fintype.card ι : K) - 1) / ((Fintype.card ι : K) - r)) *
      ∑ g ∈ (Finset.univ.image ids).erase none,
        (∑ i ∈ Finset.univ.filter (fun i => ids i = g), h i * u i) * ∑ i ∈ Finset.univ.filter (fun i => ids i = g), h' i * u i)
  | none =>
    if o.robust then some ((Fintype.card ι : K) / ((Fintype.card ι : K) - r) * ∑ i, (h i * u i) * (h' i * u i))
    else if Fintype.card ι = r then none
    else some ((∑ i, u i ^ 2) / ((Fintype.card ι : K) - r) * ∑ i, h i * h' i)

theorem covariance_self (o : Opts ι C) (r : ℕ) (h u : ι → K) : covariance o r h h u = variance o r h u := by
  unfold covariance variance
  cases o.ids <;> simp only [pow_two]

theorem bilin {α : Type*} (s : Finset α) (p q : α → κ → K) (v w : κ → K) :
    ∑ a, ∑ b, v a * (∑ g ∈ s, p g a * q g b) * w b = ∑ g ∈ s, (∑ a, p g a * v a) * ∑ b, q g b * w b := by
  simp only [Finset.sum_mul_sum]
  rw [Finset.sum_comm (s := s)]
  refine Finset.sum_congr rfl fun a _ => ?_
  rw [Finset.sum_comm (s := s)]
  refine Finset.sum_congr rfl fun b _ => ?_
  rw [Finset.mul_sum, Finset.sum_mul]
  exact Finset.sum_congr rfl fun g _ => by ring

theorem sandwich_pair (adj : K) {X : Matrix ι κ K} (hX : (Xᵀ * X).det ≠ 0) (M : Matrix κ κ K) {j l : κ} {v v' : κ → K} {h h' : ι → K}
    (H : Isolates X j v h) (H' : Isolates X l v' h') : sandwichNumpy adj (Xᵀ * X) M j l = adj * ∑ a, ∑ b, v a * M a b * v' b := by
  have e1 : ∀ {j : κ} {v : κ → K} {h : ι → K}, Isolates X j v h → ∀ a, (Xᵀ * X)⁻¹ a j = v a := by
    intro j v h H a
    rw [← H.inv hX]
    simp [mulVec, dotProduct]
  have e2 : ∀ a, (Xᵀ * X)⁻¹ j a = v a := by
    intro a
    rw [← e1 H a]
    have := congrFun (congrFun (gram_inv_symm X) j) a
    rw [transpose_apply] at this
    exact this.symm
  rw [sandwich_eq adj _ M (gram_inv_symm X), Matrix.smul_apply, smul_eq_mul, Matrix.mul_assoc]
  congr 1
  simp only [Matrix.mul_apply, e2, e1 H', Finset.mul_sum, mul_assoc]

theorem vcov_pair {pinv : Matrix κ κ K → Matrix κ κ K} {o : Opts ι C} {X : Matrix ι κ K} (hX : (Xᵀ * X).det ≠ 0) {u : ι → K} {V : Option (Matrix κ κ K)}
    (hV : vcov pinv o X u = .ok V) {j l : κ} {v v' : κ → K} {h h' : ι → K} (H : Isolates X j v h) (H' : Isolates X l v' h') :
    V.map (fun V => V j l) = covariance o (Fintype.card κ) h h' u := by
  unfold vcov at hV
  unfold covariance
  cases hi : o.ids with
  | none =>
    rw [hi] at hV
    by_cases hr : o.robust = true
    · simp only [hr, Bool.true_or, if_true] at hV
      cases hn : vcovNumpy (C := C) X u none with
      | error e => rw [hn] at hV; cases hV
      | ok W =>
        rw [hn] at hV
        cases hV
        simp only [hr, if_true, Option.map_some]
        simp only [vcovNumpy] at hn
        split_ifs at hn
        cases hn
        rw [sandwich_pair _ hX _ H H']
        refine congrArg some (congrArg₂ (· * ·) rfl ?_)
        have e0 : hc1Meat X u = fun a b => ∑ i, (X i a * u i) * (X i b * u i) := by
          funext a b
          exact Finset.sum_congr rfl fun i _ => by ring
        rw [e0, bilin]
        refine Finset.sum_congr rfl fun i _ => ?_
        have e : ∀ {v : κ → K} {h : ι → K} {j : κ}, Isolates X j v h → ∑ a, X i a * u i * v a = h i * u i := by
          intro v h j H
          rw [H.comb i, Finset.sum_mul]
          exact Finset.sum_congr rfl fun m _ => by ring
        rw [e H, e H']
    · simp only [hr, Bool.false_or, Option.isSome_none] at hV
      have hV : (Except.ok (classical pinv X u) : Except Err _) = Except.ok V := by simpa using hV
      cases hV
      simp only [hr]
      by_cases hk : Fintype.card ι = Fintype.card κ
      · simp [classical, hk]
      · have e1 : (Xᵀ * X)⁻¹ j l = v' j := by
          rw [← H'.inv hX]
          simp [mulVec, dotProduct]
        have e2 : ∑ i, h i * h' i = v' j := by
          have : ∀ i, h i * h' i = ∑ m, v' m * (X i m * h i) := by
            intro i; rw [H'.comb i, Finset.mul_sum]
            exact Finset.sum_congr rfl fun m _ => by ring
          simp only [this]
          rw [Finset.sum_comm]
          simp only [← Finset.mul_sum, H.unit]
          simp
        unfold classical
        simp only [if_neg hk, if_neg hX, Option.map_some, Bool.false_eq_true, if_false]
        rw [Matrix.mul_smul, Matrix.mul_one, Matrix.smul_apply, smul_eq_mul, e1, e2]
  | some ids =>
    rw [hi] at hV
    simp only [Option.isSome_some, Bool.or_true, if_true] at hV
    cases hn : vcovNumpy X u (some ids) with
    | error e => rw [hn] at hV; cases hV
    | ok W =>
      rw [hn] at hV
      cases hV
      simp only [Option.map_some, Option.some.injEq]
      simp only [vcovNumpy] at hn
      split_ifs at hn
      cases hn
      rw [sandwich_pair _ hX _ H H']
      refine congrArg₂ (· * ·) rfl ?_
      have e : ∀ {v : κ → K} {h : ι → K} {j : κ}, Isolates X j v h → ∀ g, ∑ i ∈ Finset.univ.filter (fun i => ids i = g), h i * u i = ∑ m, score X u ids g m * v m := by
        intro v h j H g
        have e : ∀ m, score X u ids g m * v m = ∑ i ∈ Finset.univ.filter (fun i => ids i = g), X i m * v m * u i := by
          intro m
          simp only [score, Finset.sum_mul]
          exact Finset.sum_congr rfl fun i _ => by ring
        simp only [e]
        rw [Finset.sum_comm]
        exact Finset.sum_congr rfl fun i _ => by rw [H.comb i, Finset.sum_mul]
      simp only [e H, e H', numpyMeat]
      exact bilin _ _ _ v v'

/-- C124. Covariance of two identified coefficients in a design with redundant columns, whichever the column check drops. -/
theorem C124_pair (E : Solvers ι K) (hE : Solves E) (o : Opts ι C) {k : ℕ} (drop : List (Fin k)) (X : Matrix ι (Fin k) K) (hX : Pruned X drop)
    (y : ι → K) (a : ℤ) (f : Fit ι k K) (hf : fit E o drop X y a = .ok f) (j l : Fin k) (hj : Identified X j) (hl : Identified X l) :
    ∃ v h v' h', Isolates X j v h ∧ Isolates X l v' h' ∧ f.vcov (j, l) = covariance o X.rank h h' f.resid := by
  obtain ⟨r, σ, b, V, hσ, hb, hV, hc, hv, hres, hdf, -, -⟩ := fit_form hE hf
  obtain ⟨p, rfl⟩ := (hσ.mem j).1 (identified_kept hX.redundant hj)
  obtain ⟨q, rfl⟩ := (hσ.mem l).1 (identified_kept hX.redundant hl)
  have hdet := pick_det hσ hX.indep
  obtain ⟨v, h, H⟩ := exists_isolates hdet p
  obtain ⟨v', h', H'⟩ := exists_isolates hdet q
  refine ⟨_, h, _, h', pick_isolates hσ hX.redundant hj H, pick_isolates hσ hX.redundant hl H', ?_⟩
  rw [hv p q, vcov_pair hdet hV H H', Fintype.card_fin, pick_rank hσ hX, hres]

theorem covariance_moved (e : ι' ≃ ι) (o : Opts ι C) (r : ℕ) (w w' u : ι → K) :
    covariance (movedOpts e o) r (fun i => w (e i)) (fun i => w' (e i)) (fun i => u (e i)) = covariance o r w w' u := by
  have hc : Fintype.card ι' = Fintype.card ι := Fintype.card_congr e
  have hids : (movedOpts e o).ids = o.ids.map (fun f i => f (e i)) := by
    cases o with
    | mk rb own call st => cases call <;> cases own <;> rfl
  unfold covariance
  rw [hids]
  cases hi : o.ids with
  | none =>
    have h1 := Equiv.sum_comp e (fun i => (w i * u i) * (w' i * u i))
    have h2 := Equiv.sum_comp e (fun i => (u i) ^ 2)
    have h3 := Equiv.sum_comp e (fun i => w i * w' i)
    simp only [Option.map_none, hc, h1, h2, h3]
    rfl
  | some ids =>
    have h1 : ∀ (w : ι → K) g, ∑ i ∈ Finset.univ.filter (fun i => ids (e i) = g), w (e i) * u (e i) = ∑ i ∈ Finset.univ.filter (fun i => ids i = g), w i * u i := by
      intro w g
      rw [Finset.sum_filter, Finset.sum_filter]
      exact Equiv.sum_comp e (fun i => if ids i = g then w i * u i else 0)
    simp only [Option.map_some, nClusters_moved, RowOrder.image_moved, hc, h1]

/-- C124. Likewise the covariance of two identified coefficients depends on the span of the columns only. -/
theorem C124_pair_span (E : Solvers ι K) (hE : Solves E) (E' : Solvers ι' K) (hE' : Solves E') (o : Opts ι C) (e : ι' ≃ ι) {k k' : ℕ} (drop : List (Fin k))
    (drop' : List (Fin k')) (X : Matrix ι (Fin k) K) (X' : Matrix ι' (Fin k') K) (hX : Pruned X drop) (hX' : Pruned X' drop') (j l : Fin k) (j' l' : Fin k')
    (hs : SameSpan e X j X' j') (hs' : SameSpan e X l X' l') (hj : Identified X j) (hl : Identified X l) (y : ι → K) (a : ℤ) (f : Fit ι k K) (f' : Fit ι' k' K)
    (hf : fit E o drop X y a = .ok f) (hf' : fit E' (movedOpts e o) drop' X' (fun i => y (e i)) a = .ok f') : f'.vcov (j', l') = f.vcov (j, l) := by
  obtain ⟨v1, w1, v2, w2, H1, H2, h⟩ := C124_pair E hE o drop X hX y a f hf j l hj hl
  obtain ⟨v1', w1', v2', w2', H1', H2', h'⟩ := C124_pair E' hE' _ drop' X' hX' _ a f' hf' j' l' (hs.identified hj) (hs'.identified hl)
  obtain ⟨-, -, -, hr, -⟩ := C124_same_span E hE E' hE' o e drop drop' X X' hX hX' j j' hs hj y a f f' hf hf'
  obtain ⟨x1, J1⟩ := hs.isolates H1
  obtain ⟨x2, J2⟩ := hs'.isolates H2
  rw [h', h, isolates_unique H1' J1, isolates_unique H2' J2, hs.rank, show f'.resid = fun i => f.resid (e i) from funext hr, covariance_moved]

theorem covariance_scale (o : Opts ι C) (r : ℕ) (w w' u : ι → K) (c : K) : covariance o r w w' (fun i => c * u i) = (covariance o r w w' u).map (c ^ 2 * ·) := by
  unfold covariance
  cases hi : o.ids with
  | none =>
    dsimp only
    split_ifs
    · simp only [Option.map_some, Option.some.injEq]
      have : ∀ i, w i * (c * u i) * (w' i * (c * u i)) = c ^ 2 * (w i * u i * (w' i * u i)) := fun i => by ring
      simp only [this, ← Finset.mul_sum]
      ring
    · rfl
    · simp only [Option.map_some, Option.some.injEq]
      have : ∀ i, (c * u i) ^ 2 = c ^ 2 * (u i) ^ 2 := fun i => by ring
      simp only [this, ← Finset.mul_sum]
      ring
  | some ids =>
    simp only [Option.map_some, Option.some.injEq]
    have : ∀ (w : ι → K) g, ∑ i ∈ Finset.univ.filter (fun i => ids i = g), w i * (c * u i) = c * ∑ i ∈ Finset.univ.filter (fun i => ids i = g), w i * u i := by
      intro w g
      rw [Finset.mul_sum]
      exact Finset.sum_congr rfl fun i _ => by ring
    have e : ∀ x y : K, c * x * (c * y) = c ^ 2 * (x * y) := fun x y => by ring
    simp only [this, e, ← Finset.mul_sum]
    ring

/-- C124. An outcome in other units and shifted by a combination of the columns multiplies covariances by the square. -/
theorem C124_pair_outcome (E : Solvers ι K) (hE : Solves E) (o : Opts ι C) {k : ℕ} (drop : List (Fin k)) (X : Matrix ι (Fin k) K) (hX : Pruned X drop) (j l : Fin k)
    (hj : Identified X j) (hl : Identified X l) (y : ι → K) (a : ℤ) (c : K) (δ : Fin k → K) (f f' : Fit ι k K) (hf : fit E o drop X y a = .ok f)
    (hf' : fit E o drop X (fun i => c * y i + ∑ m, X i m * δ m) a = .ok f') : f'.vcov (j, l) = (f.vcov (j, l)).map (c ^ 2 * ·) := by
  obtain ⟨v1, w1, v2, w2, H1, H2, h⟩ := C124_pair E hE o drop X hX y a f hf j l hj hl
  obtain ⟨v1', w1', v2', w2', H1', H2', h'⟩ := C124_pair E hE o drop X hX _ a f' hf' j l hj hl
  obtain ⟨-, -, -, hr⟩ := C124_outcome_rank E hE o drop X hX j hj y a c δ f f' hf hf'
  rw [h', h, isolates_unique H1' H1, isolates_unique H2' H2, show f'.resid = fun i => c * f.resid i from funext hr, covariance_scale]

/-- A constant, one regressor entered twice, and its square. -/
def doubled : Matrix (Fin 6) (Fin 4) ℚ := fun i => ![1, (i.val : ℚ), 2 * (i.val : ℚ), (i.val : ℚ) ^ 2]

theorem doubled_pruned : Pruned doubled [1] := by
  refine ⟨?_, ?_⟩
  · intro e he
    rw [List.mem_singleton] at he
    subst he
    exact ⟨![0, 0, 1 / 2, 0], fun i => by simp [doubled, Fin.sum_univ_succ]; ring⟩
  · intro v hv hz
    have h0 := hz 0
    have h1 := hz 1
    have h2 := hz 2
    have hd := hv 1 (by simp)
    simp [doubled, Fin.sum_univ_succ] at h0 h1 h2
    rw [h0, hd] at h1 h2
    have e2 : v 2 = 0 := by linarith
    have e3 : v 3 = 0 := by linarith
    funext m
    fin_cases m
    · exact h0
    · exact hd
    · exact e2
    · exact e3

theorem doubled_identified : Identified doubled 0 ∧ Identified doubled 3 := by
  constructor
  · intro a ha h
    have h0 := h 0
    simp [doubled, Fin.sum_univ_succ, ha] at h0
  · intro a ha h
    have h0 := h 0
    have h1 := h 1
    have h2 := h 2
    simp [doubled, Fin.sum_univ_succ, ha] at h0 h1 h2
    rw [← h0] at h1 h2
    linarith

/-- C124_pair, C124_pair_outcome: the covariance of the intercept and the coefficient of the square; tripling the outcome makes it nine times as large. -/
example : ∃ (E : Solvers (Fin 6) ℚ) (f f' : Fit (Fin 6) 4 ℚ), Solves E ∧
    fit E (⟨true, none, none, false⟩ : Opts (Fin 6) ℕ) [1] doubled (fun i => (i.val : ℚ) ^ 3) 0 = .ok f ∧
    fit E (⟨true, none, none, false⟩ : Opts (Fin 6) ℕ) [1] doubled (fun i => 3 * (i.val : ℚ) ^ 3 + ∑ m, doubled i m * ![7, 0, 5, 0] m) 0 = .ok f' ∧
    f'.vcov (0, 3) = (f.vcov (0, 3)).map (3 ^ 2 * ·) := by
  obtain ⟨E, hE⟩ := exists_solves (K := ℚ) (ι := Fin 6)
  have hrk : doubled.rank = 3 := by
    rw [pick_rank (lists_kept [(1 : Fin 4)]) doubled_pruned]; rfl
  have hrun : ∀ y, ∃ f, fit E (⟨true, none, none, false⟩ : Opts (Fin 6) ℕ) [1] doubled y 0 = .ok f := by
    intro y
    exact (C124_runs E hE _ [1] doubled doubled_pruned (by omega) _ 0).2 ⟨by simp, by simp, fun _ => by rw [hrk]; simp, fun ids h => by cases h⟩
  obtain ⟨f, hf⟩ := hrun (fun i => (i.val : ℚ) ^ 3)
  obtain ⟨f', hf'⟩ := hrun (fun i => 3 * (i.val : ℚ) ^ 3 + ∑ m, doubled i m * ![7, 0, 5, 0] m)
  exact ⟨E, f, f', hE, hf, hf', C124_pair_outcome E hE _ [1] doubled doubled_pruned 0 3 doubled_identified.1 doubled_identified.2 _ 0 3 _ f f' hf hf'⟩

end DiffDiff.LinReg
