/-
C145: the order of the rows does not change a regression. `solve_ols` on both backends, with the factorizations as far as C143 assumes them.
-/
import Verif.SvdProps
import Verif.SvdExists

set_option linter.unusedSectionVars false
set_option linter.unusedVariables false

namespace DiffDiff.RowOrder
open Matrix DiffDiff.Ols DiffDiff.Vcov DiffDiff.Svd

variable {K : Type*} [Field K] [LinearOrder K] [IsStrictOrderedRing K]
variable {n k : ℕ} {C : Type*} [DecidableEq C]

/-! ### Specification -/

/-- The same rows in another order. -/
def shuffle {α : Type*} (e : Equiv.Perm (Fin n)) (v : Fin n → α) : Fin n → α := fun i => v (e i)

/-- The same options for the rows in another order: cluster identifiers move with their rows. -/
def shuffleOpts (e : Equiv.Perm (Fin n)) (o : Svd.Opts n C) : Svd.Opts n C :=
  { o with ids := o.ids.map (shuffle e) }

/-- The same result for the rows in another order: residuals and fitted values move with their rows, coefficients and covariances
stay. -/
def shuffleRes (e : Equiv.Perm (Fin n)) (r : Res n k K) : Res n k K :=
  { r with resid := shuffle e r.resid, fitted := shuffle e r.fitted }

/-- The column-pivoted QR decomposition reports the same diagonal and pivots for designs with the same matrix of cross products. This
is so in exact arithmetic when the triangular factor is normalized in a fixed way and ties between columns are broken by position:
lengths and inner products of the columns determine each step. -/
def ByCrossProducts (L : Lib n C K) : Prop :=
  ∀ {k : ℕ} (X X' : Matrix (Fin n) (Fin k) K), Xᵀ * X = X'ᵀ * X' → L.rdiag X = L.rdiag X' ∧ L.pivot X = L.pivot X'

/-- Both factorizations succeed on every design with at least as many rows as columns. -/
def Works (L : Lib n C K) : Prop := ∀ {k : ℕ} (X : Matrix (Fin n) (Fin k) K), k ≤ n → Sound L X

/-! ### Lemmas -/

theorem gram_shuffle (e : Equiv.Perm (Fin n)) (X : Matrix (Fin n) (Fin k) K) :
    (X.submatrix e id)ᵀ * X.submatrix e id = Xᵀ * X := by
  ext a b
  simp only [mul_apply, transpose_apply, submatrix_apply, id]
  exact Equiv.sum_comp e (fun i => X i a * X i b)

theorem svd_shuffle (e : Equiv.Perm (Fin n)) {X : Matrix (Fin n) (Fin k) K} {d : Dec n k K} (hd : IsSvd X d) :
    IsSvd (X.submatrix e id) ⟨d.U.submatrix e id, d.s, d.V⟩ := by
  refine ⟨?_, ?_, hd.vv, hd.nonneg⟩
  · conv_lhs => rw [hd.eq]
    ext i j
    simp only [mul_apply, submatrix_apply, id]
  · show (d.U.submatrix e id)ᵀ * d.U.submatrix e id = 1
    rw [gram_shuffle, hd.uu]

theorem coef_shuffle (e : Equiv.Perm (Fin n)) (rcond : K) (d : Dec n k K) (y : Fin n → K) :
    coef rcond ⟨d.U.submatrix e id, d.s, d.V⟩ (shuffle e y) = coef rcond d y := by
  funext j
  unfold coef
  refine Finset.sum_congr rfl (fun i _ => ?_)
  congr 1
  unfold sInvUty
  have : ∑ r, (d.U.submatrix e id) r i * shuffle e y r = ∑ r, d.U r i * y r := by
    simp only [submatrix_apply, id, shuffle]
    exact Equiv.sum_comp e (fun r => d.U r i * y r)
  simp only [this]

theorem resid_shuffle (e : Equiv.Perm (Fin n)) (X : Matrix (Fin n) (Fin k) K) (y : Fin n → K) (b : Fin k → K) :
    resid (X.submatrix e id) (shuffle e y) b = shuffle e (resid X y b) := rfl

theorem fitted_shuffle (e : Equiv.Perm (Fin n)) (X : Matrix (Fin n) (Fin k) K) (b : Fin k → K) :
    fitted (X.submatrix e id) b = shuffle e (fitted X b) := rfl

theorem vcov_shuffle (e : Equiv.Perm (Fin n)) (X : Matrix (Fin n) (Fin k) K) (u : Fin n → K) (ids : Option (Fin n → Option C)) :
    vcovNumpy (X.submatrix e id) (shuffle e u) (ids.map (shuffle e)) = vcovNumpy X u ids :=
  C14_row_order e X u ids

theorem lapack_shuffle (L : Lib n C K) (hL : Works L) (rcond : K) (hr : 0 ≤ rcond) (e : Equiv.Perm (Fin n))
    (X : Matrix (Fin n) (Fin k) K) (hk : k ≤ n) (y : Fin n → K) :
    ∃ d d', L.lapack X = some d ∧ L.lapack (X.submatrix e id) = some d' ∧
      coef rcond d' (shuffle e y) = coef rcond d y := by
  obtain ⟨d, h1, hd⟩ := (hL X hk).lapack
  obtain ⟨d', h2, hd'⟩ := (hL (X.submatrix e id) hk).lapack
  refine ⟨d, d', h1, h2, ?_⟩
  rw [(C143_same_solution _ d' _ hd' (svd_shuffle e hd) rcond hr (shuffle e y)).1, coef_shuffle]

theorem kept_le (drop : List (Fin k)) : (keptCols drop).length ≤ k := by
  unfold keptCols
  exact (List.length_filter_le _ _).trans (by simp)

theorem numpySolve_shuffle (L : Lib n C K) (hL : Works L) (rcond : K) (hr : 0 ≤ rcond) (e : Equiv.Perm (Fin n)) (o : Svd.Opts n C)
    (drop : List (Fin k)) (X : Matrix (Fin n) (Fin k) K) (hk : k ≤ n) (y : Fin n → K) :
    numpySolve L rcond (shuffleOpts e o) drop (X.submatrix e id) (shuffle e y) =
      (numpySolve L rcond o drop X y).map (shuffleRes e) := by
  cases drop with
  | nil =>
    obtain ⟨d, d', h1, h2, hc⟩ := lapack_shuffle L hL rcond hr e X hk y
    simp only [numpySolve, h1, h2, hc, shuffleOpts, resid_shuffle, vcov_shuffle, fitted_shuffle]
    by_cases hv : o.returnVcov = true
    · simp only [hv, if_true]
      cases vcovNumpy X (resid X y (coef rcond d y)) o.ids <;> rfl
    · simp only [hv]; rfl
  | cons a l =>
    by_cases hs : o.strict = true
    · simp only [numpySolve, shuffleOpts, hs, if_true]; rfl
    by_cases h0 : (keptCols (a :: l)).length = 0
    · simp only [numpySolve, shuffleOpts, hs, h0, if_true]; rfl
    have hred : (reduce (X.submatrix e id) (keptCols (a :: l)) : Matrix (Fin n) (Fin (keptCols (a :: l)).length) K) =
      Matrix.submatrix (reduce X (keptCols (a :: l))) e id := rfl
    obtain ⟨d, d', h1, h2, hc⟩ := lapack_shuffle L hL rcond hr e
      (reduce X (keptCols (a :: l)) : Matrix (Fin n) (Fin (keptCols (a :: l)).length) K) ((kept_le (a :: l)).trans hk) y
    have hV : vcovNumpy (Matrix.submatrix (reduce X (keptCols (a :: l))) e id)
        (resid (Matrix.submatrix (reduce X (keptCols (a :: l))) e id) (shuffle e y) (coef rcond d y)) (o.ids.map (shuffle e)) =
        vcovNumpy (reduce X (keptCols (a :: l)) : Matrix (Fin n) (Fin (keptCols (a :: l)).length) K)
          (resid (reduce X (keptCols (a :: l))) y (coef rcond d y)) o.ids :=
      vcov_shuffle e (reduce X (keptCols (a :: l)) : Matrix (Fin n) (Fin (keptCols (a :: l)).length) K)
        (resid (reduce X (keptCols (a :: l))) y (coef rcond d y)) o.ids
    simp only [numpySolve, shuffleOpts, if_neg hs, if_neg h0, hred, h1, h2, hc, hV]
    by_cases hv : o.returnVcov = true
    · simp only [hv, if_true]
      cases vcovNumpy (reduce X (keptCols (a :: l)) : Matrix (Fin n) (Fin (keptCols (a :: l)).length) K)
        (resid (reduce X (keptCols (a :: l)) : Matrix (Fin n) (Fin (keptCols (a :: l)).length) K) y (coef rcond d y)) o.ids <;> rfl
    · simp only [hv]; rfl

theorem numpy_shuffle (L : Lib n C K) (hL : Works L) (hG : ByCrossProducts L) (rcond : K) (hr : 0 ≤ rcond) (e : Equiv.Perm (Fin n))
    (o : Svd.Opts n C) (X : Matrix (Fin n) (Fin k) K) (hk : k ≤ n) (y : Fin n → K) :
    solve L rcond false (shuffleOpts e o) (X.submatrix e id) (shuffle e y) =
      (solve L rcond false o X y).map (shuffleRes e) := by
  have hdt : detect L rcond (X.submatrix e id) = detect L rcond X := by
    obtain ⟨h1, h2⟩ := hG _ _ (gram_shuffle e X)
    unfold detect
    rw [h1, h2]
  unfold solve
  by_cases hs : o.skip = true
  · have hs' : (shuffleOpts e o).skip = true := hs
    simp only [hs, hs', if_true, Bool.false_eq_true, if_false]
    exact numpySolve_shuffle L hL rcond hr e o [] X hk y
  · have hs' : ¬ (shuffleOpts e o).skip = true := hs
    simp only [if_neg hs, if_neg hs', hdt]
    cases detect L rcond X with
    | error er => rfl
    | ok drop =>
      simp only [Bool.false_eq_true, false_and, if_false]
      exact numpySolve_shuffle L hL rcond hr e o drop X hk y

/-! ### C145 -/

/-- C145. Sorting or shuffling the rows of a regression problem, with the outcome and the cluster identifiers moved along, changes
neither coefficients nor covariance matrix nor which columns are reported as NaN nor the error raised, on either backend; residuals
and fitted values move with their rows. The design is arbitrary, rank deficiency included. -/
theorem C145_solve_ols (L : Lib n C K) (hL : Works L) (hG : ByCrossProducts L) (rcond : K) (hr : 0 ≤ rcond) (e : Equiv.Perm (Fin n))
    (hasRust : Bool) (o : Svd.Opts n C) (ho : hasRust = true → o.skip = false ∧ NoMissing o) (X : Matrix (Fin n) (Fin k) K)
    (h0 : 0 < k) (hk : k ≤ n) (y : Fin n → K) :
    solve L rcond hasRust (shuffleOpts e o) (X.submatrix e id) (shuffle e y) =
      (solve L rcond hasRust o X y).map (shuffleRes e) := by
  cases hasRust with
  | false => exact numpy_shuffle L hL hG rcond hr e o X hk y
  | true =>
    obtain ⟨hs, hm⟩ := ho rfl
    have hm' : NoMissing (shuffleOpts e o) := by
      intro f hf i
      simp only [shuffleOpts] at hf
      cases hi : o.ids with
      | none => rw [hi] at hf; simp at hf
      | some g =>
        rw [hi] at hf
        simp only [Option.map_some, Option.some.injEq] at hf
        subst hf
        exact hm g hi (e i)
    rw [C143_backend_independent L rcond hr _ _ h0 hk (hL _ hk) hm' hs, C143_backend_independent L rcond hr _ _ h0 hk (hL _ hk) hm hs]
    exact numpy_shuffle L hL hG rcond hr e o X hk y

/-- The assumptions can be met: for every number of rows there are factorizations of all real designs whose diagonal and pivots
depend on the cross products only. -/
example (n : ℕ) : ∃ L : Lib n Unit ℝ, Works L ∧ ByCrossProducts L := by
  obtain ⟨L, h1, h2⟩ := exists_sound (C := Unit) n (fun {k} X => (List.finRange k).map (fun j => (Xᵀ * X) j j))
    (fun {k} _ => List.finRange k)
  refine ⟨L, h1, ?_⟩
  intro k X X' h
  rw [(h2 X).1, (h2 X').1, (h2 X).2, (h2 X').2, h]
  exact ⟨rfl, rfl⟩

end DiffDiff.RowOrder
