/-
Properties C11-C13: least squares, rank-deficient designs, control flow of solve_ols.
-/
import Verif.Ols
import Mathlib.Data.List.Nodup
import Mathlib.Data.List.FinRange

set_option linter.unusedSectionVars false

namespace DiffDiff.Ols

section solution
variable {K : Type*} [Field K] [LinearOrder K] [IsStrictOrderedRing K]
variable {ι κ : Type*} [Fintype ι] [Fintype κ]

theorem dot_add (x b c : κ → K) : dot x (fun j => b j + c j) = dot x b + dot x c := by
  simp [dot, mul_add, Finset.sum_add_distrib]

theorem dot_smul (x b : κ → K) (a : K) : dot x (fun j => a * b j) = a * dot x b := by
  simp only [dot, Finset.mul_sum]; exact Finset.sum_congr rfl (fun j _ => by ring)

theorem dot_sub (x b c : κ → K) : dot x (fun j => b j - c j) = dot x b - dot x c := by
  simp [dot, mul_sub, Finset.sum_sub_distrib]

/-- C11. The residuals of a fit are orthogonal to every linear combination of the regressors,
in particular to the fitted values. -/
theorem C11_residuals_orthogonal (X : ι → κ → K) (y : ι → K) (b : κ → K) (h : IsOls X y b)
    (c : κ → K) : ∑ i, (∑ j, X i j * c j) * (y i - ∑ j, X i j * b j) = 0 := by
  have e : ∀ i, (∑ j, X i j * c j) * (y i - ∑ j, X i j * b j)
      = ∑ j, c j * (X i j * resid X y b i) := by
    intro i; rw [Finset.sum_mul]
    exact Finset.sum_congr rfl (fun j _ => by simp only [resid, fitted, dot]; ring)
  simp only [e]
  rw [Finset.sum_comm]
  simp only [← Finset.mul_sum]
  exact Finset.sum_eq_zero (fun j _ => by rw [h j, mul_zero])

theorem rss_decomp (X : ι → κ → K) (y : ι → K) (b : κ → K) (h : IsOls X y b) (c : κ → K) :
    rss X y c = rss X y b + ∑ i, (fitted X b i - fitted X c i) ^ 2 := by
  have o := C11_residuals_orthogonal X y b h (fun j => b j - c j)
  have o' : ∑ i, (fitted X b i - fitted X c i) * resid X y b i = 0 := by
    rw [← o]; refine Finset.sum_congr rfl (fun i _ => ?_)
    have : (∑ j, X i j * (b j - c j)) = fitted X b i - fitted X c i := dot_sub (X i) b c
    rw [this]; rfl
  have e : ∀ i, (resid X y c i) ^ 2 = (resid X y b i) ^ 2 + (fitted X b i - fitted X c i) ^ 2
      + 2 * ((fitted X b i - fitted X c i) * resid X y b i) := by
    intro i; simp only [resid]; ring
  simp only [rss, e, Finset.sum_add_distrib, ← Finset.mul_sum, o']; ring

/-- C11. Coefficients solve the normal equations exactly when they minimise the residual sum of
squares over all coefficient vectors. -/
theorem C11_iff_minimises (X : ι → κ → K) (y : ι → K) (b : κ → K) :
    IsOls X y b ↔ ∀ c : κ → K,
      ∑ i, (y i - ∑ j, X i j * b j) ^ 2 ≤ ∑ i, (y i - ∑ j, X i j * c j) ^ 2 := by
  classical
  constructor
  · intro h c
    have := rss_decomp X y b h c
    have p : 0 ≤ ∑ i, (fitted X b i - fitted X c i) ^ 2 :=
      Finset.sum_nonneg (fun i _ => sq_nonneg _)
    have e1 : rss X y c = ∑ i, (y i - ∑ j, X i j * c j) ^ 2 := rfl
    have e2 : rss X y b = ∑ i, (y i - ∑ j, X i j * b j) ^ 2 := rfl
    rw [← e1, ← e2]; linarith
  · intro h j
    set g := ∑ i, X i j * resid X y b i with hg
    set q := ∑ i, (X i j) ^ 2 with hq
    have q0 : 0 ≤ q := Finset.sum_nonneg (fun i _ => sq_nonneg _)
    have key : ∀ t : K, rss X y (fun m => b m + t * (if m = j then 1 else 0))
        = rss X y b - 2 * t * g + t ^ 2 * q := by
      intro t
      have f : ∀ i, fitted X (fun m => b m + t * (if m = j then 1 else 0)) i
          = fitted X b i + t * X i j := by
        intro i; simp only [fitted, dot_add, dot_smul]; simp [dot]
      have : ∀ i, (resid X y (fun m => b m + t * (if m = j then 1 else 0)) i) ^ 2
          = (resid X y b i) ^ 2 - 2 * t * (X i j * resid X y b i) + t ^ 2 * (X i j) ^ 2 := by
        intro i; simp only [resid, f]; ring
      simp only [rss, this, Finset.sum_add_distrib, Finset.sum_sub_distrib, ← Finset.mul_sum]
      rfl
    have h1 := h (fun m => b m + (g / (q + 1)) * (if m = j then 1 else 0))
    have h2 : rss X y b ≤ rss X y b - 2 * (g / (q + 1)) * g + (g / (q + 1)) ^ 2 * q := by
      rw [← key]; exact h1
    have hp : 0 < q + 1 := by linarith
    have h3 : 2 * (g / (q + 1)) * g - (g / (q + 1)) ^ 2 * q = g ^ 2 * (q + 2) / (q + 1) ^ 2 := by
      field_simp; ring
    have h4 : g ^ 2 * (q + 2) / (q + 1) ^ 2 ≤ 0 := by rw [← h3]; linarith
    by_contra hne
    have : 0 < g ^ 2 * (q + 2) / (q + 1) ^ 2 := by
      have : 0 < g ^ 2 := by positivity
      positivity
    linarith

/-- C11. Fitted values do not depend on which least-squares solution the solver returns (minimum norm,
pivoted, ...), for every design, including rank-deficient ones. -/
theorem C11_fitted_unique (X : ι → κ → K) (y : ι → K) (b c : κ → K) (hb : IsOls X y b)
    (hc : IsOls X y c) (i : ι) : ∑ j, X i j * b j = ∑ j, X i j * c j := by
  have h1 := rss_decomp X y b hb c
  have h2 := rss_decomp X y c hc b
  have p1 : 0 ≤ ∑ i, (fitted X c i - fitted X b i) ^ 2 := Finset.sum_nonneg (fun i _ => sq_nonneg _)
  have p2 : 0 ≤ ∑ i, (fitted X b i - fitted X c i) ^ 2 := Finset.sum_nonneg (fun i _ => sq_nonneg _)
  have z : ∑ i, (fitted X b i - fitted X c i) ^ 2 = 0 := by linarith
  have := (Finset.sum_eq_zero_iff_of_nonneg (fun i _ => sq_nonneg _)).1 z i (Finset.mem_univ i)
  have : fitted X b i - fitted X c i = 0 := by simpa using this
  exact sub_eq_zero.1 this

/-- C11. If the columns are linearly independent the coefficients themselves are unique. -/
theorem C11_coefficients_unique (X : ι → κ → K) (y : ι → K) (b c : κ → K) (hb : IsOls X y b)
    (hc : IsOls X y c) (indep : ∀ v : κ → K, (∀ i, ∑ j, X i j * v j = 0) → v = 0) : b = c := by
  have := indep (fun j => b j - c j) (fun i => by
    have := C11_fitted_unique X y b c hb hc i
    simp only [mul_sub, Finset.sum_sub_distrib]; linarith)
  funext j; have := congrFun this j; simpa [sub_eq_zero] using this

/-- C11. Rescaling the outcome and adding any combination of the regressors to it changes the
coefficients correspondingly. -/
theorem C11_equivariant (X : ι → κ → K) (y : ι → K) (b c : κ → K) (a : K) (h : IsOls X y b) :
    IsOls X (fun i => a * y i + ∑ j, X i j * c j) (fun j => a * b j + c j) := by
  intro j
  have e : ∀ i, X i j * resid X (fun i => a * y i + ∑ j, X i j * c j) (fun j => a * b j + c j) i
      = a * (X i j * resid X y b i) := by
    intro i
    have : fitted X (fun j => a * b j + c j) i = a * fitted X b i + ∑ j, X i j * c j := by
      show dot _ _ = _
      rw [dot_add, dot_smul]; rfl
    simp only [resid, this]; ring
  simp only [e, ← Finset.mul_sum, h j, mul_zero]

/-- C11. The order of the observations is irrelevant. -/
theorem C11_row_order {ι' : Type*} [Fintype ι'] (e : ι' ≃ ι) (X : ι → κ → K) (y : ι → K) (b : κ → K) :
    IsOls (fun i => X (e i)) (fun i => y (e i)) b ↔ IsOls X y b := by
  have : ∀ j, ∑ i, X (e i) j * resid (fun i => X (e i)) (fun i => y (e i)) b i
      = ∑ i, X i j * resid X y b i := fun j =>
    Equiv.sum_comp e (fun i => X i j * resid X y b i)
  constructor <;> intro h j
  · rw [← this]; exact h j
  · rw [this]; exact h j

/-- C11. The order of the columns is irrelevant up to the same reordering of the coefficients. -/
theorem C11_column_order {κ' : Type*} [Fintype κ'] (e : κ' ≃ κ) (X : ι → κ → K) (y : ι → K)
    (b : κ → K) : IsOls (fun i j => X i (e j)) y (fun j => b (e j)) ↔ IsOls X y b := by
  have f : ∀ i, resid (fun i j => X i (e j)) y (fun j => b (e j)) i = resid X y b i := by
    intro i; simp only [resid, fitted, dot]
    rw [Equiv.sum_comp e (fun j => X i j * b j)]
  constructor <;> intro h j
  · have := h (e.symm j); simp only [f, Equiv.apply_symm_apply] at this; exact this
  · simp only [IsOls, f]; exact h (e j)

end solution

/-- A rank-deficient design with two different solutions and a non-trivial residual. -/
def exX : Fin 3 → Fin 2 → ℚ := ![![1, 2], ![1, 2], ![1, 2]]
def exY : Fin 3 → ℚ := ![1, 2, 6]
example : IsOls exX exY ![3, 0] ∧ IsOls exX exY ![1, 1] := by
  constructor <;> (intro j; fin_cases j <;> decide +kernel)
example : ∑ i, (exY i - ∑ j, exX i j * (![3, 0] : Fin 2 → ℚ) j) ^ 2 = 14 := by decide +kernel

/-! ### C12: rank deficiency -/

section scatter
variable {α β : Type*} [DecidableEq α]

theorem scatter_not_mem (w : List (α × β)) : ∀ (a : α → β) (i : α), i ∉ w.map Prod.fst →
    scatter a w i = a i := by
  induction w with
  | nil => intro a i _; rfl
  | cons p w ih =>
    intro a i h
    simp only [List.map_cons, List.mem_cons, not_or] at h
    have := ih (Function.update a p.1 p.2) i h.2
    simp only [scatter, List.foldl_cons] at this ⊢
    rw [this, Function.update_of_ne h.1]

theorem scatter_mem (w : List (α × β)) : ∀ (a : α → β) (i : α) (v : β), (w.map Prod.fst).Nodup →
    (i, v) ∈ w → scatter a w i = v := by
  induction w with
  | nil => intro a i v _ h; simp at h
  | cons p w ih =>
    intro a i v hn h
    simp only [List.map_cons, List.nodup_cons] at hn
    rcases List.mem_cons.1 h with h | h
    · subst h
      have := scatter_not_mem w (Function.update a i v) i hn.1
      simp only [scatter, List.foldl_cons] at this ⊢
      rw [this, Function.update_self]
    · have := ih (Function.update a p.1 p.2) i v hn.2 h
      simpa only [scatter, List.foldl_cons] using this

end scatter

section rank
variable {k : ℕ}

theorem mem_keptCols (d : List (Fin k)) (i : Fin k) : i ∈ keptCols d ↔ i ∉ d := by
  simp [keptCols]

theorem keptCols_nodup (d : List (Fin k)) : (keptCols d).Nodup :=
  (List.nodup_finRange k).filter _

theorem expandCoef_get {K : Type*} (kept : List (Fin k)) (hn : kept.Nodup)
    (c : Fin kept.length → K) (j : Fin kept.length) :
    expandCoef kept c (kept.get j) = some (c j) := by
  apply scatter_mem
  · have : (List.ofFn (fun j => (kept.get j, some (c j)))).map Prod.fst = kept := by
      rw [List.map_ofFn]; exact List.ofFn_get kept
    rw [this]; exact hn
  · exact List.mem_ofFn.2 ⟨j, rfl⟩

theorem expandCoef_none {K : Type*} (kept : List (Fin k)) (c : Fin kept.length → K) (i : Fin k)
    (h : i ∉ kept) : expandCoef kept c i = none := by
  apply scatter_not_mem
  have : (List.ofFn (fun j => (kept.get j, some (c j)))).map Prod.fst = kept := by
    rw [List.map_ofFn]; exact List.ofFn_get kept
  rw [this]; exact h

/-- C12. The reported coefficient is NaN exactly at the dropped columns, and the other coefficients
are those of the reduced regression, in column order. -/
theorem C12_nan_iff_dropped {K : Type*} (dropped : List (Fin k))
    (c : Fin (keptCols dropped).length → K) (i : Fin k) :
    (expandCoef (keptCols dropped) c i = none ↔ i ∈ dropped) ∧
    (∀ j, (keptCols dropped).get j = i → expandCoef (keptCols dropped) c i = some (c j)) := by
  refine ⟨⟨fun h => ?_, fun h => ?_⟩, fun j hj => ?_⟩
  · by_contra hd
    obtain ⟨j, hj⟩ := List.get_of_mem ((mem_keptCols dropped i).2 hd)
    rw [← hj, expandCoef_get _ (keptCols_nodup _)] at h; simp at h
  · exact expandCoef_none _ _ _ (fun h' => (mem_keptCols dropped i).1 h' h)
  · rw [← hj]; exact expandCoef_get _ (keptCols_nodup _) _ _

/-- C12. Kept columns appear in increasing order, so a coefficient cannot be reported under another
column's position. -/
theorem C12_order_preserved (dropped : List (Fin k)) :
    (keptCols dropped).Pairwise (· < ·) := by
  unfold keptCols
  exact (List.pairwise_lt_finRange k).filter _

/-- C12. The reported variance matrix has NaN exactly in the rows and columns of dropped regressors,
and the reduced matrix elsewhere. -/
theorem C12_vcov_nan {K : Type*} (dropped : List (Fin k))
    (V : Fin (keptCols dropped).length → Fin (keptCols dropped).length → K) :
    (∀ i j, expandVcov (keptCols dropped) V (i, j) = none ↔ i ∈ dropped ∨ j ∈ dropped) ∧
    (∀ a b, expandVcov (keptCols dropped) V ((keptCols dropped).get a, (keptCols dropped).get b)
      = some (V a b)) := by
  have hkm := mem_keptCols dropped
  have hn : (keptCols dropped).Nodup := keptCols_nodup dropped
  generalize keptCols dropped = kept at V hkm hn ⊢
  let w := (List.finRange kept.length).flatMap (fun a => (List.finRange kept.length).map
      (fun b => ((kept.get a, kept.get b), some (V a b))))
  have hw : w.map Prod.fst = (List.finRange kept.length).flatMap (fun a =>
      (List.finRange kept.length).map (fun b => (kept.get a, kept.get b))) := by
    simp only [w, List.map_flatMap, List.map_map]; rfl
  have hwn : (w.map Prod.fst).Nodup := by
    rw [hw, List.nodup_flatMap]
    constructor
    · intro a _
      refine (List.nodup_finRange _).map ?_
      intro b b' h
      exact (List.nodup_iff_injective_get.1 hn) (Prod.mk.inj h).2
    · refine (List.nodup_finRange _).imp ?_
      intro a a' hne
      simp only [Function.onFun, List.disjoint_left, List.mem_map]
      rintro x ⟨b, _, rfl⟩ ⟨b', _, h⟩
      exact hne ((List.nodup_iff_injective_get.1 hn) (Prod.mk.inj h).1).symm
  have hget : ∀ a b, expandVcov kept V (kept.get a, kept.get b) = some (V a b) := by
    intro a b
    refine scatter_mem w _ _ _ hwn ?_
    simp only [w, List.mem_flatMap, List.mem_map]
    exact ⟨a, List.mem_finRange a, b, List.mem_finRange b, rfl⟩
  refine ⟨fun i j => ⟨fun h => ?_, fun h => ?_⟩, hget⟩
  · by_contra hd
    rw [not_or] at hd
    obtain ⟨a, ha⟩ := List.get_of_mem ((hkm i).2 hd.1)
    obtain ⟨b, hb⟩ := List.get_of_mem ((hkm j).2 hd.2)
    rw [← ha, ← hb] at h
    have := hget a b
    rw [h] at this; simp at this
  · refine scatter_not_mem w _ _ ?_
    rw [hw]
    simp only [List.mem_flatMap, List.mem_map, not_exists, not_and]
    intro a _ b _ he
    have h1 := (Prod.mk.inj he).1
    have h2 := (Prod.mk.inj he).2
    rcases h with h | h
    · exact (hkm i).1 (h1 ▸ List.get_mem kept a) h
    · exact (hkm j).1 (h2 ▸ List.get_mem kept b) h

variable {K : Type*} [Field K]

theorem sum_kept (kept : List (Fin k)) (hn : kept.Nodup) (f : Fin k → K) (h : ∀ i, i ∉ kept → f i = 0) :
    ∑ i, f i = ∑ j : Fin kept.length, f (kept.get j) := by
  have h1 : ∑ i, f i = ∑ i ∈ kept.toFinset, f i := by
    symm; apply Finset.sum_subset (Finset.subset_univ _)
    intro i _ hi; exact h i (by simpa using hi)
  rw [h1, List.sum_toFinset _ hn, ← Fin.sum_univ_getElem]
  simp only [List.getElem_map]
  refine Fintype.sum_equiv (finCongr (by simp)) _ _ (fun j => ?_)
  rfl

/-- C12. Predictions use exactly the kept columns: for every row they equal the reduced design times
the reduced coefficients, so predicting on the training design returns the reported fitted values. -/
theorem C12_predict (dropped : List (Fin k)) (c : Fin (keptCols dropped).length → K) (x : Fin k → K) :
    predict (expandCoef (keptCols dropped) c) x
      = ∑ j : Fin (keptCols dropped).length, x ((keptCols dropped).get j) * c j := by
  unfold predict
  rw [sum_kept (keptCols dropped) (keptCols_nodup _)]
  · refine Finset.sum_congr rfl (fun j _ => ?_)
    rw [expandCoef_get _ (keptCols_nodup _)]; rfl
  · intro i hi; rw [expandCoef_none _ _ _ hi]; simp

/-- C12. Values of dropped columns never influence a prediction. -/
theorem C12_predict_ignores_dropped (dropped : List (Fin k))
    (c : Fin (keptCols dropped).length → K) (x x' : Fin k → K) (h : ∀ i, i ∉ dropped → x i = x' i) :
    predict (expandCoef (keptCols dropped) c) x = predict (expandCoef (keptCols dropped) c) x' := by
  rw [C12_predict, C12_predict]
  refine Finset.sum_congr rfl (fun j _ => ?_)
  rw [h _ ((mem_keptCols _ _).1 (List.get_mem _ j))]

/-- C12. If every dropped column is a linear combination of the kept columns, then the fit after
dropping is a least-squares fit of the full design: nothing of the fit is lost, whichever columns
the pivoting chooses. -/
theorem C12_fit_unchanged {ι : Type*} [Fintype ι] (X : ι → Fin k → K)
    (y : ι → K) (dropped : List (Fin k)) (c : Fin (keptCols dropped).length → K)
    (hc : IsOls (reduce X (keptCols dropped)) y c)
    (span : ∀ d ∈ dropped, ∃ a : Fin k → K, ∀ i, X i d = ∑ j, if j ∈ dropped then 0 else X i j * a j) :
    IsOls X y (fun i => (expandCoef (keptCols dropped) c i).getD 0) := by
  have hf : ∀ i, resid X y (fun i => (expandCoef (keptCols dropped) c i).getD 0) i
      = resid (reduce X (keptCols dropped)) y c i := by
    intro i
    simp only [resid, fitted, dot]
    have := C12_predict dropped c (X i)
    unfold predict at this
    rw [this]; rfl
  have hk : ∀ j, j ∉ dropped →
      ∑ i, X i j * resid (reduce X (keptCols dropped)) y c i = 0 := by
    intro j hj
    obtain ⟨a, ha⟩ := List.get_of_mem ((mem_keptCols dropped j).2 hj)
    have := hc a
    simp only [reduce] at this ⊢
    rw [ha] at this; exact this
  intro j
  simp only [hf]
  by_cases hj : j ∈ dropped
  · obtain ⟨a, ha⟩ := span j hj
    simp only [ha, Finset.sum_mul]
    rw [Finset.sum_comm]
    refine Finset.sum_eq_zero (fun m _ => ?_)
    by_cases hm : m ∈ dropped
    · simp [hm]
    · simp only [hm, if_false]
      have := hk m hm
      have e : ∀ i, X i m * a m * resid (reduce X (keptCols dropped)) y c i
          = a m * (X i m * resid (reduce X (keptCols dropped)) y c i) := fun i => by ring
      simp only [e, ← Finset.mul_sum, this, mul_zero]
  · exact hk j hj

/-- C12. For every pivot order and every tolerance, dropped and kept columns partition the columns,
and as many columns are kept as the detected rank. -/
theorem C12_partition (rank : ℕ) (pivot : List (Fin k)) (hp : pivot.Perm (List.finRange k))
    (hr : rank ≤ k) :
    (∀ i, i ∈ keptCols (droppedCols rank pivot) ↔ i ∉ droppedCols rank pivot) ∧
    (droppedCols rank pivot).length = k - rank ∧
    (keptCols (droppedCols rank pivot)).length = rank ∧
    (∀ i, i ∈ keptCols (droppedCols rank pivot) ↔ i ∈ pivot.take rank) := by
  have hnp : pivot.Nodup := hp.nodup_iff.2 (List.nodup_finRange k)
  have hlp : pivot.length = k := by simpa using hp.length_eq
  have hmem : ∀ i, i ∈ droppedCols rank pivot ↔ i ∈ pivot.drop rank := by
    intro i
    unfold droppedCols
    split_ifs with h
    · simp
    · have : pivot.drop rank = [] := List.drop_eq_nil_of_le (by omega)
      simp [this]
  have hlen : (droppedCols rank pivot).length = k - rank := by
    unfold droppedCols
    split_ifs with h
    · simp [List.length_insertionSort, hlp]
    · simp; omega
  have hsplit : ∀ i, i ∈ pivot.take rank ↔ i ∉ pivot.drop rank := by
    intro i
    have hi : i ∈ pivot := hp.mem_iff.2 (List.mem_finRange i)
    have hd : (pivot.take rank ++ pivot.drop rank).Nodup := by rw [List.take_append_drop]; exact hnp
    have hdis := (List.nodup_append.1 hd).2.2
    rw [← List.take_append_drop rank pivot, List.mem_append] at hi
    constructor
    · intro h h'; exact hdis _ h _ h' rfl
    · intro h; exact hi.resolve_right h
  have hkt : ∀ i, i ∈ keptCols (droppedCols rank pivot) ↔ i ∈ pivot.take rank := by
    intro i; rw [mem_keptCols, hmem, hsplit]
  refine ⟨fun i => mem_keptCols _ i, hlen, ?_, hkt⟩
  have : (keptCols (droppedCols rank pivot)).Perm (pivot.take rank) :=
    (List.perm_ext_iff_of_nodup (keptCols_nodup _) (hnp.sublist (List.take_sublist _ _))).2 hkt
  rw [this.length_eq, List.length_take, hlp]; omega

/-- C12. Degrees of freedom charge only the identified coefficients. -/
theorem C12_degrees_of_freedom (n : ℕ) (dropped : List (Fin k)) (c : Fin (keptCols dropped).length → K)
    (adj : ℤ) : dfOf n (expandCoef (keptCols dropped) c) adj
      = n - ((Finset.univ.filter (fun i => i ∉ dropped)).card : ℤ) - adj := by
  unfold dfOf nParamsEffective
  have e : (Finset.univ.filter (fun i => (expandCoef (keptCols dropped) c i).isNone = true))
      = Finset.univ.filter (fun i => i ∈ dropped) := by
    ext i; simp only [Finset.mem_filter, Finset.mem_univ, true_and, Option.isNone_iff_eq_none]
    exact (C12_nan_iff_dropped dropped c i).1
  rw [e]
  have := Finset.card_filter_add_card_filter_not (s := (Finset.univ : Finset (Fin k))) (fun i => i ∈ dropped)
  rw [Finset.card_univ, Fintype.card_fin] at this
  have h2 : ((Finset.univ.filter (fun i : Fin k => i ∈ dropped)).card : ℤ)
    + ((Finset.univ.filter (fun i : Fin k => i ∉ dropped)).card : ℤ) = k := by exact_mod_cast this
  linarith

end rank

section rankval
variable {K : Type*} [Field K] [LinearOrder K] [IsStrictOrderedRing K]

/-- C12. With the default positive tolerance below one, the detected rank is zero exactly for a zero
leading diagonal entry, never exceeds the number of columns, and a column whose diagonal entry is
zero is never counted. -/
theorem C12_rank_bounds (rcond : K) (h0 : 0 < rcond) (h1 : rcond < 1) (r0 : K) (rs : List K) (r : ℕ)
    (h : rankOf rcond (r0 :: rs) = some r) :
    (r = 0 ↔ r0 = 0) ∧ r ≤ ((r0 :: rs).filter (fun x => x ≠ 0)).length := by
  simp only [rankOf, List.map_cons, Option.some.injEq] at h
  by_cases hz : r0 = 0
  · subst hz; simp only [abs_zero, if_true] at h; subst h; simp
  · have hp : 0 < |r0| := abs_pos.2 hz
    rw [if_neg (abs_ne_zero.2 hz)] at h
    subst h
    have hm : rcond * |r0| < |r0| := by nlinarith
    refine ⟨⟨fun h => ?_, fun h => absurd h hz⟩, ?_⟩
    · simp [List.filter_cons, hm] at h
    · rw [← List.map_cons (f := fun r : K => |r|), List.filter_map, List.length_map]
      apply List.Sublist.length_le
      apply List.monotone_filter_right
      intro x hx
      simp only [Function.comp, decide_eq_true_eq] at hx ⊢
      intro hx0; subst hx0
      simp only [abs_zero] at hx
      nlinarith [mul_pos h0 hp]

end rankval

example : rankOf (1/10 : ℚ) [4, -2, 1/5] = some 2 := by decide +kernel
example : droppedCols 2 ([2, 0, 1] : List (Fin 3)) = [1] := by decide +kernel
example : keptCols ([1] : List (Fin 3)) = [0, 2] := by decide +kernel
/-- Column 1 is twice column 0: it is dropped, the fit is kept. -/
example : expandCoef (K := ℚ) (keptCols ([1] : List (Fin 3))) ![5, 7] 0 = some 5 ∧
    expandCoef (K := ℚ) (keptCols ([1] : List (Fin 3))) ![5, 7] 1 = none ∧
    expandCoef (K := ℚ) (keptCols ([1] : List (Fin 3))) ![5, 7] 2 = some 7 := by decide +kernel
example : IsOls (reduce exX (keptCols [1])) exY (fun _ => 3) ∧
    (∀ d ∈ ([1] : List (Fin 2)), ∃ a : Fin 2 → ℚ, ∀ i, exX i d
      = ∑ j, if j ∈ ([1] : List (Fin 2)) then 0 else exX i j * a j) := by
  refine ⟨by intro j; fin_cases j; decide +kernel, ?_⟩
  intro d hd; simp at hd; subst hd
  exact ⟨![2, 0], fun i => by fin_cases i <;> decide +kernel⟩

/-! ### C13: validation and routing -/

/-- Documented checks in order (specification). -/
def checks (c : Call) : List (Prop × Err) :=
  [(c.ndimX ≠ 2, .ndimX), (c.ndimY ≠ 1, .ndimY), (c.rowsX ≠ c.rowsY, .rows),
   (c.rowsX < c.k, .underdetermined),
   (c.action ≠ "warn" ∧ c.action ≠ "error" ∧ c.action ≠ "silent", .badAction),
   (c.checkFinite = true ∧ c.finiteX = false, .nonFiniteX),
   (c.checkFinite = true ∧ c.finiteY = false, .nonFiniteY)]

/-- `e` is the error of the first check that fires. -/
def FirstError (l : List (Prop × Err)) (e : Err) : Prop :=
  ∃ l1 p l2, l = l1 ++ (p, e) :: l2 ∧ p ∧ ∀ q ∈ l1, ¬ q.1

/-- The arguments pass every documented check. -/
def Valid (c : Call) : Prop := ∀ q ∈ checks c, ¬ q.1

theorem not_mem_actions (s : String) : s ∉ ["warn", "error", "silent"] ↔
    (s ≠ "warn" ∧ s ≠ "error" ∧ s ≠ "silent") := by simp

/-- C13. An invalid call is rejected with the first applicable error, before any numerical routine
has run. -/
theorem C13_invalid_rejected (c : Call) (e : Err) (h : FirstError (checks c) e) :
    solveOls c = ([], .error e) := by
  suffices hv : validate c = some e by simp [solveOls, hv]
  obtain ⟨l1, p, l2, hl, hp, hq⟩ := h
  unfold checks at hl
  have na := not_mem_actions c.action
  rcases l1 with _ | ⟨q1, _ | ⟨q2, _ | ⟨q3, _ | ⟨q4, _ | ⟨q5, _ | ⟨q6, _ | ⟨q7, l1⟩⟩⟩⟩⟩⟩⟩ <;>
    simp only [List.nil_append, List.cons_append, List.cons.injEq, Prod.mk.injEq] at hl
  · obtain ⟨⟨rfl, rfl⟩, _⟩ := hl
    simp [validate, hp]
  · obtain ⟨rfl, ⟨rfl, rfl⟩, _⟩ := hl
    simp only [List.mem_cons, List.not_mem_nil, or_false, forall_eq_or_imp, forall_eq] at hq
    simp only [validate, if_neg hq, if_pos hp]
  · obtain ⟨rfl, rfl, ⟨rfl, rfl⟩, _⟩ := hl
    simp only [List.mem_cons, List.not_mem_nil, or_false, forall_eq_or_imp, forall_eq] at hq
    simp only [validate, if_neg hq.1, if_neg hq.2, if_pos hp]
  · obtain ⟨rfl, rfl, rfl, ⟨rfl, rfl⟩, _⟩ := hl
    simp only [List.mem_cons, List.not_mem_nil, or_false, forall_eq_or_imp, forall_eq] at hq
    simp only [validate, if_neg hq.1, if_neg hq.2.1, if_neg hq.2.2, if_pos hp]
  · obtain ⟨rfl, rfl, rfl, rfl, ⟨rfl, rfl⟩, _⟩ := hl
    simp only [List.mem_cons, List.not_mem_nil, or_false, forall_eq_or_imp, forall_eq] at hq
    simp only [validate, if_neg hq.1, if_neg hq.2.1, if_neg hq.2.2.1, if_neg hq.2.2.2,
      if_pos (na.2 hp)]
  · obtain ⟨rfl, rfl, rfl, rfl, rfl, ⟨rfl, rfl⟩, _⟩ := hl
    simp only [List.mem_cons, List.not_mem_nil, or_false, forall_eq_or_imp, forall_eq] at hq
    have h5 : ¬ (c.action ∉ ["warn", "error", "silent"]) := by rw [na]; exact hq.2.2.2.2
    rw [← Bool.not_eq_true] at hp
    simp only [validate, if_neg hq.1, if_neg hq.2.1, if_neg hq.2.2.1, if_neg hq.2.2.2.1, if_neg h5,
      if_pos hp]
  · obtain ⟨rfl, rfl, rfl, rfl, rfl, rfl, ⟨rfl, rfl⟩, _⟩ := hl
    simp only [List.mem_cons, List.not_mem_nil, or_false, forall_eq_or_imp, forall_eq] at hq
    have h5 : ¬ (c.action ∉ ["warn", "error", "silent"]) := by rw [na]; exact hq.2.2.2.2.1
    have h6 := hq.2.2.2.2.2
    rw [← Bool.not_eq_true] at hp h6
    simp only [validate, if_neg hq.1, if_neg hq.2.1, if_neg hq.2.2.1, if_neg hq.2.2.2.1, if_neg h5,
      if_neg h6, if_pos hp]
  · simp at hl

/-- The part of `solve_ols` after validation. -/
theorem solveOls_valid (c : Call) (h : Valid c) : solveOls c = route c := by
  unfold Valid checks at h
  simp only [List.mem_cons, List.not_mem_nil, or_false, forall_eq_or_imp, forall_eq] at h
  obtain ⟨h1, h2, h3, h4, h5, h6, h7⟩ := h
  rw [← Bool.not_eq_true] at h6 h7
  have : validate c = none := by
    unfold validate
    rw [if_neg h1, if_neg h2, if_neg h3, if_neg h4, if_neg (by rw [not_mem_actions]; exact h5),
      if_neg h6, if_neg h7]
  simp [solveOls, this]

theorem solveOls_cases (c : Call) : solveOls c = route c ∨ ∃ e, solveOls c = ([], .error e) := by
  unfold solveOls
  cases validate c with
  | none => exact Or.inl rfl
  | some e => exact Or.inr ⟨e, rfl⟩

/-- C13. A valid call never fails validation: whatever the configuration, some routine is run and the
only possible errors are the documented rank-deficiency error and an error of the compiled solver. -/
theorem C13_valid_accepted (c : Call) (h : Valid c) :
    (solveOls c).1 ≠ [] ∧
    (∀ e, (solveOls c).2 = .error e → e = .rankDeficient ∨ e = .rustError) := by
  rw [solveOls_valid c h]
  cases hr : c.rust <;> by_cases hs : c.skipRankCheck <;> by_cases hh : c.hasRust <;>
    by_cases hd : c.dropped = [] <;> by_cases ha : c.action = "error" <;> by_cases hv : c.returnVcov <;>
    simp [route, solveNumpy, hr, hs, hh, hd, ha] <;> (try split_ifs) <;> simp

/-- C13. With `rank_deficient_action="error"` a design found rank deficient is always rejected, on every
backend; no coefficients are returned. -/
theorem C13_error_action (c : Call) (h : Valid c) (hs : c.skipRankCheck = false)
    (ha : c.action = "error") (hd : c.dropped ≠ []) :
    (solveOls c).2 = .error .rankDeficient ∧ ∀ d, Op.lstsq d ∉ (solveOls c).1 := by
  have : 0 < c.dropped.length := List.length_pos_iff.2 hd
  rw [solveOls_valid c h]
  simp [route, solveNumpy, hs, ha, hd]

/-- C13. With "warn" or "silent" a rank-deficient design is solved on the columns that were kept. -/
theorem C13_drop_action (c : Call) (h : Valid c) (hs : c.skipRankCheck = false)
    (ha : c.action ≠ "error") (hd : c.dropped ≠ []) :
    (solveOls c).2 = .ok (.numpy c.dropped) := by
  rw [solveOls_valid c h]
  simp [route, solveNumpy, hs, ha, hd]

/-- C13. The compiled solver never sees a design found rank deficient, unless the caller asked for the
rank check to be skipped. -/
theorem C13_rust_only_full_rank (c : Call) (hr : Op.rust ∈ (solveOls c).1) :
    c.hasRust = true ∧ (c.skipRankCheck = true ∨ c.dropped = []) := by
  rcases solveOls_cases c with h | ⟨e, h⟩ <;> rw [h] at hr
  · cases hs : c.skipRankCheck <;> cases hh : c.hasRust <;> by_cases hd : c.dropped = [] <;>
      by_cases ha : c.action = "error" <;> simp [route, solveNumpy, hs, hh, hd, ha] at hr ⊢
  · simp at hr

/-- C13. Numerical trouble in the compiled solver is never visible to the caller: if it reports
instability the interpreted solver is used; only other errors propagate. -/
theorem C13_fallback (c : Call) (h : Valid c) (hr : c.rust ≠ .otherError) (e : Err)
    (he : (solveOls c).2 = .error e) : e = .rankDeficient ∧ c.skipRankCheck = false ∧
      c.action = "error" ∧ c.dropped ≠ [] := by
  rw [solveOls_valid c h] at he
  cases hru : c.rust <;> by_cases hs : c.skipRankCheck <;> by_cases hh : c.hasRust <;>
    by_cases hd : c.dropped = [] <;> by_cases ha : c.action = "error" <;> by_cases hv : c.returnVcov <;>
    simp [route, solveNumpy, hru, hs, hh, hd, ha] at he hr ⊢ <;> (try split_ifs at he) <;> simp_all

/-- C13. The compiled result is used whenever it is usable: valid input, no dependent column, compiled solver
available and successful, and either no variance matrix requested or one without NaN. -/
theorem C13_compiled_used (c : Call) (h : Valid c) (hh : c.hasRust = true) (hd : c.dropped = [])
    (b : Bool) (hr : c.rust = .ok b) (hb : c.returnVcov = true → b = false) :
    (solveOls c).2 = .ok .rust := by
  rw [solveOls_valid c h]
  cases hs : c.skipRankCheck <;> cases hv : c.returnVcov <;> cases b <;>
    simp [route, hs, hh, hd, hr, hv] at hb ⊢

/-- C13. Unless the rank check is skipped, a variance matrix with NaN from the compiled solver is never
returned when a variance matrix was requested. -/
theorem C13_no_nan_vcov_partial (c : Call) (hs : c.skipRankCheck = false) (hv : c.returnVcov = true)
    (hr : (solveOls c).2 = .ok .rust) : c.rust = .ok false := by
  rcases solveOls_cases c with h | ⟨e, h⟩ <;> rw [h] at hr
  · cases hh : c.hasRust <;> by_cases hd : c.dropped = [] <;>
      by_cases ha : c.action = "error" <;> rcases hu : c.rust with (_ | _) | _ | _ <;>
      simp [route, solveNumpy, hs, hh, hd, ha, hv, hu] at hr ⊢
  · simp at hr

/-- The claim fails on the fast path: with `skip_rank_check=True` the compiled solver's NaN matrix is
returned as is, although without the compiled backend the same call returns a solved result. -/
theorem C13_skip_returns_nan_refuted : ∃ c : Call, Valid c ∧ c.returnVcov = true ∧
    c.rust = .ok true ∧ (solveOls c).2 = .ok .rust ∧
    (solveOls { c with hasRust := false }).2 = .ok (.numpy []) := by
  refine ⟨⟨2, 1, 10, 10, 2, "warn", true, true, true, true, true, true, [], .ok true⟩, ?_, rfl, rfl, ?_, ?_⟩
  · intro q hq
    simp only [checks, List.mem_cons, List.not_mem_nil, or_false] at hq
    rcases hq with rfl | rfl | rfl | rfl | rfl | rfl | rfl <;> simp
  · decide
  · decide

/-- Columns dropped by a returned result. -/
def Route.dropped : Route → List ℕ
  | .rust => []
  | .numpy d => d

/-- C13. Which columns are dropped does not depend on whether the compiled backend is installed. -/
theorem C13_backend_same_columns (c : Call) (b : Bool) (r r' : Route)
    (h : (solveOls c).2 = .ok r) (h' : (solveOls { c with hasRust := b }).2 = .ok r') :
    r.dropped = r'.dropped := by
  have key : ∀ c : Call, ∀ r, (solveOls c).2 = .ok r →
      r.dropped = if c.skipRankCheck then [] else c.dropped := by
    intro c r h
    rcases solveOls_cases c with h' | ⟨e, h'⟩ <;> rw [h'] at h
    · cases hs : c.skipRankCheck <;> cases hh : c.hasRust <;> by_cases hd : c.dropped = [] <;>
        by_cases ha : c.action = "error" <;> rcases hu : c.rust with (_ | _) | _ | _ <;>
        cases hv : c.returnVcov <;>
        simp [route, solveNumpy, hs, hh, hd, ha, hv, hu] at h ⊢ <;> subst h <;>
        simp [Route.dropped]
    · simp at h
  rw [key _ _ h, key _ _ h']

example : FirstError (checks ⟨2, 1, 5, 6, 9, "oops", true, false, true, false, true, true, [], .unstable⟩)
    .rows := by
  refine ⟨[(_, .ndimX), (_, .ndimY)], _, _, rfl, by decide, ?_⟩
  intro q hq; simp at hq; rcases hq with rfl | rfl <;> simp
example : solveOls ⟨2, 1, 5, 6, 9, "oops", true, false, true, false, true, true, [], .unstable⟩
    = ([], .error .rows) := by decide
example : solveOls ⟨2, 1, 10, 10, 3, "warn", true, true, true, false, true, true, [], .unstable⟩
    = ([.qr, .rust, .qr, .lstsq []], .ok (.numpy [])) := by decide
example : solveOls ⟨2, 1, 10, 10, 3, "error", true, true, true, false, true, true, [2], .ok false⟩
    = ([.qr], .error .rankDeficient) := by decide

end DiffDiff.Ols
