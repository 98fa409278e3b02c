/-
Properties C27 (bootstrap p-values and percentile intervals) and C72 (agreement of the two).
-/
import Verif.BootStats

set_option linter.unusedSectionVars false

namespace DiffDiff.BootStats

variable {K : Type*} [Field K] [LinearOrder K] [IsStrictOrderedRing K] [FloorSemiring K]

/-! ### Percentiles -/

theorem getD_mono {s : List K} (hs : s.Pairwise (· ≤ ·)) {i j : ℕ} (hij : i ≤ j) (hj : j < s.length) :
    s.getD i 0 ≤ s.getD j 0 := by
  rw [List.getD_eq_getElem _ _ (lt_of_le_of_lt hij hj), List.getD_eq_getElem _ _ hj]
  rcases Nat.lt_or_eq_of_le hij with h | rfl
  · exact (List.pairwise_iff_getElem.1 hs) i j _ hj h
  · exact le_refl _

/-- Position of a percentile and the bracketing order statistics. -/
theorem pct_between {s : List K} (hs : s.Pairwise (· ≤ ·)) (hne : s ≠ []) {q : K} (h0 : 0 ≤ q) (h1 : q ≤ 1) :
    let i := ⌊q * ((s.length : K) - 1)⌋₊
    i ≤ s.length - 1 ∧ s.getD i 0 ≤ pctSorted s q ∧ pctSorted s q ≤ s.getD (min (i + 1) (s.length - 1)) 0 := by
  intro i
  have hlen : 0 < s.length := List.length_pos_iff.2 hne
  have hl1 : ((s.length - 1 : ℕ) : K) = (s.length : K) - 1 := by
    rw [Nat.cast_sub hlen, Nat.cast_one]
  have hnn : 0 ≤ (s.length : K) - 1 := by rw [← hl1]; exact Nat.cast_nonneg _
  have hh0 : 0 ≤ q * ((s.length : K) - 1) := mul_nonneg h0 hnn
  have hh1 : q * ((s.length : K) - 1) ≤ ((s.length - 1 : ℕ) : K) := by
    rw [hl1]; exact mul_le_of_le_one_left hnn h1
  have hi : i ≤ s.length - 1 := Nat.floor_le_of_le hh1
  have hfl : (i : K) ≤ q * ((s.length : K) - 1) := Nat.floor_le hh0
  have hfu : q * ((s.length : K) - 1) < (i : K) + 1 := Nat.lt_floor_add_one _
  have hab : s.getD i 0 ≤ s.getD (min (i + 1) (s.length - 1)) 0 :=
    getD_mono hs (by omega) (by omega)
  refine ⟨hi, ?_, ?_⟩
  · show s.getD i 0 ≤ s.getD i 0 + (s.getD (min (i + 1) (s.length - 1)) 0 - s.getD i 0) *
      (q * ((s.length : K) - 1) - (i : K))
    have : 0 ≤ (s.getD (min (i + 1) (s.length - 1)) 0 - s.getD i 0) * (q * ((s.length : K) - 1) - (i : K)) :=
      mul_nonneg (by linarith) (by linarith)
    linarith
  · show s.getD i 0 + (s.getD (min (i + 1) (s.length - 1)) 0 - s.getD i 0) *
      (q * ((s.length : K) - 1) - (i : K)) ≤ _
    have : (s.getD (min (i + 1) (s.length - 1)) 0 - s.getD i 0) * (q * ((s.length : K) - 1) - (i : K)) ≤
        (s.getD (min (i + 1) (s.length - 1)) 0 - s.getD i 0) * 1 :=
      mul_le_mul_of_nonneg_left (by linarith) (by linarith)
    linarith

theorem pct_mono {s : List K} (hs : s.Pairwise (· ≤ ·)) (hne : s ≠ []) {q r : K} (h0 : 0 ≤ q) (hqr : q ≤ r)
    (h1 : r ≤ 1) : pctSorted s q ≤ pctSorted s r := by
  have hlen : 0 < s.length := List.length_pos_iff.2 hne
  have hl1 : ((s.length - 1 : ℕ) : K) = (s.length : K) - 1 := by
    rw [Nat.cast_sub hlen, Nat.cast_one]
  have hnn : 0 ≤ (s.length : K) - 1 := by rw [← hl1]; exact Nat.cast_nonneg _
  obtain ⟨hi, _, hqu⟩ := pct_between hs hne h0 (hqr.trans h1)
  obtain ⟨hj, hrl, _⟩ := pct_between hs hne (h0.trans hqr) h1
  have hle : q * ((s.length : K) - 1) ≤ r * ((s.length : K) - 1) := mul_le_mul_of_nonneg_right hqr hnn
  have hij : ⌊q * ((s.length : K) - 1)⌋₊ ≤ ⌊r * ((s.length : K) - 1)⌋₊ := Nat.floor_mono hle
  rcases Nat.lt_or_eq_of_le hij with h | h
  · refine hqu.trans (le_trans ?_ hrl)
    exact getD_mono hs (by omega) (by omega)
  · have hab : s.getD ⌊q * ((s.length : K) - 1)⌋₊ 0 ≤ s.getD (min (⌊q * ((s.length : K) - 1)⌋₊ + 1) (s.length - 1)) 0 :=
      getD_mono hs (by omega) (by omega)
    unfold pctSorted
    simp only
    rw [← h]
    have : (s.getD (min (⌊q * ((s.length : K) - 1)⌋₊ + 1) (s.length - 1)) 0 - s.getD ⌊q * ((s.length : K) - 1)⌋₊ 0) *
        (q * ((s.length : K) - 1) - (⌊q * ((s.length : K) - 1)⌋₊ : K)) ≤
        (s.getD (min (⌊q * ((s.length : K) - 1)⌋₊ + 1) (s.length - 1)) 0 - s.getD ⌊q * ((s.length : K) - 1)⌋₊ 0) *
        (r * ((s.length : K) - 1) - (⌊q * ((s.length : K) - 1)⌋₊ : K)) :=
      mul_le_mul_of_nonneg_left (by linarith) (by linarith)
    linarith

theorem sorted (x : List K) : (x.insertionSort (· ≤ ·)).Pairwise (· ≤ ·) := List.pairwise_insertionSort _ _

theorem sort_ne {x : List K} (hx : x ≠ []) : x.insertionSort (· ≤ ·) ≠ [] := by
  intro h
  apply hx
  rw [← List.length_eq_zero_iff, ← List.length_insertionSort (r := (· ≤ ·)) (l := x), h]
  rfl

/-! ### C27 -/

/-- C27: percentile intervals are ordered, for every level between 0 and 1 and every non-empty vector of draws. -/
theorem C27_interval_ordered (x : List K) (hx : x ≠ []) (alpha : K) (h0 : 0 ≤ alpha) (h1 : alpha ≤ 1) :
    (percentileCI x alpha).1 ≤ (percentileCI x alpha).2 :=
  pct_mono (sorted x) (sort_ne hx) (by linarith) (by linarith) (by linarith)

/-- C27: a smaller alpha gives a wider interval. -/
theorem C27_interval_nested (x : List K) (hx : x ≠ []) (a b : K) (h0 : 0 ≤ a) (hab : a ≤ b) (h1 : b ≤ 1) :
    (percentileCI x a).1 ≤ (percentileCI x b).1 ∧ (percentileCI x b).2 ≤ (percentileCI x a).2 :=
  ⟨pct_mono (sorted x) (sort_ne hx) (by linarith) (by linarith) (by linarith),
   pct_mono (sorted x) (sort_ne hx) (by linarith) (by linarith) (by linarith)⟩

/-- C27: both bounds lie between the smallest and the largest draw. -/
theorem C27_interval_range (x : List K) (hx : x ≠ []) (alpha m M : K) (h0 : 0 ≤ alpha) (h1 : alpha ≤ 1)
    (hm : ∀ d ∈ x, m ≤ d ∧ d ≤ M) :
    m ≤ (percentileCI x alpha).1 ∧ (percentileCI x alpha).2 ≤ M := by
  have hmem : ∀ i, i < (x.insertionSort (· ≤ ·)).length → m ≤ (x.insertionSort (· ≤ ·)).getD i 0 ∧
      (x.insertionSort (· ≤ ·)).getD i 0 ≤ M := by
    intro i hi
    rw [List.getD_eq_getElem _ _ hi]
    exact hm _ ((List.mem_insertionSort _).1 (List.getElem_mem hi))
  have hlen := List.length_pos_iff.2 (sort_ne hx)
  constructor
  · obtain ⟨hi, h, _⟩ := pct_between (sorted x) (sort_ne hx) (q := alpha / 2) (by linarith) (by linarith)
    exact (hmem _ (by omega)).1.trans h
  · obtain ⟨hi, _, h⟩ := pct_between (sorted x) (sort_ne hx) (q := 1 - alpha / 2) (by linarith) (by linarith)
    exact h.trans (hmem _ (by omega)).2

/-- C27: the order of the draws does not matter for the interval. -/
theorem C27_interval_perm (x y : List K) (h : x.Perm y) (alpha : K) : percentileCI x alpha = percentileCI y alpha := by
  have : x.insertionSort (· ≤ ·) = y.insertionSort (· ≤ ·) := by
    refine List.Perm.eq_of_pairwise (fun a b _ _ => le_antisymm) (sorted x) (sorted y) ?_
    exact (List.perm_insertionSort _ x).trans (h.trans (List.perm_insertionSort _ y).symm)
  unfold percentileCI percentile
  rw [this]

/-- C27: p-values lie in [1/(n+1), 1]. -/
theorem C27_pvalue_range (orig : K) (x : List K) (k : ℕ) : 1 / ((k : K) + 1) ≤ pvalue orig x k ∧ pvalue orig x k ≤ 1 := by
  have hk : (0 : K) ≤ k := Nat.cast_nonneg _
  unfold pvalue
  refine ⟨le_max_right _ _, max_le (min_le_right _ _) ?_⟩
  rw [div_le_one (by linarith)]
  linarith

/-- C27: away from zero the p-value is symmetric under changing the sign of estimate and draws. Missing: an estimate
of exactly zero (refuted below). -/
theorem C27_pvalue_symmetric_partial (orig : K) (horig : orig ≠ 0) (x : List K) (k : ℕ) :
    pvalue (-orig) (x.map (fun d => -d)) k = pvalue orig x k := by
  have e1 : ∀ l : List K, ((l.map (fun d => -d)).filter (fun d => decide (d ≤ 0))).length =
      (l.filter (fun d => decide (0 ≤ d))).length := by
    intro l
    rw [List.filter_map, List.length_map]
    congr 1
    exact List.filter_congr (fun d _ => by simp)
  have e2 : ∀ l : List K, ((l.map (fun d => -d)).filter (fun d => decide (0 ≤ d))).length =
      (l.filter (fun d => decide (d ≤ 0))).length := by
    intro l
    rw [List.filter_map, List.length_map]
    congr 1
    exact List.filter_congr (fun d _ => by simp)
  unfold pvalue
  rcases lt_or_gt_of_ne horig with h | h
  · rw [if_pos (by linarith : (0 : K) ≤ -orig), if_neg (by linarith : ¬ (0 : K) ≤ orig)]
    simp only [e1, List.length_map]
  · rw [if_neg (by linarith : ¬ (0 : K) ≤ -orig), if_pos h.le]
    simp only [e2, List.length_map]

/-- C27 is false at an estimate of exactly zero: the p-value depends on the sign convention. -/
theorem C27_zero_estimate_refuted :
    pvalue (0 : ℚ) [1, 2, 3, -1] 4 = 1/2 ∧ pvalue (-0 : ℚ) ([1, 2, 3, -1].map (fun d => -d)) 4 = 1 := by
  constructor <;> decide +kernel

/-- C27: p-values and standard errors do not depend on the order of draws either. -/
theorem C27_pvalue_perm (orig : K) (x y : List K) (h : x.Perm y) (k : ℕ) : pvalue orig x k = pvalue orig y k := by
  unfold pvalue
  have h1 := (h.filter (fun d => decide (d ≤ 0))).length_eq
  have h2 := (h.filter (fun d => decide (0 ≤ d))).length_eq
  have h3 := h.length_eq
  split_ifs
  · simp only [h1, h3]
  · simp only [h2, h3]

theorem finites_map (v : List K) : finites (v.map Ext.fin) = v := by
  unfold finites
  induction v with
  | nil => rfl
  | cons a v ih => rw [List.map_cons, List.filterMap_cons]; simp only [ih]

theorem finites_length (draws : List (Ext K)) : (finites draws).length = (draws.filter Ext.isFinite).length := by
  unfold finites
  induction draws with
  | nil => rfl
  | cons a l ih =>
    rw [List.filterMap_cons, List.filter_cons]
    cases a <;> simp [Ext.isFinite, ih]

theorem finites_length_le (x : List (Ext K)) : (finites x).length ≤ x.length := List.length_filterMap_le _ _

/-- C27: when fewer than half of the draws are finite, all statistics are NaN; otherwise statistics are reported. -/
theorem C27_too_few_finite (alpha orig : K) (draws : List (Ext K)) :
    effectStats alpha orig draws = .nan ↔ 2 * (draws.filter Ext.isFinite).length < draws.length := by
  have hlen := finites_length draws
  unfold effectStats
  simp only
  rw [hlen]
  have : ((draws.filter Ext.isFinite).length : K) < (draws.length : K) * (1 / 2) ↔
      2 * (draws.filter Ext.isFinite).length < draws.length := by
    rw [← Nat.cast_lt (α := K), Nat.cast_mul]
    constructor
    · intro h; push_cast; linarith
    · intro h; push_cast at h; linarith
  split_ifs with h
  · simp [this.1 h]
  · exact iff_of_false (by simp) (fun h' => h (this.2 h'))

/-- C27: non-finite draws never influence the statistics: if any are reported, they are those of the finite draws
alone. -/
theorem C27_nonfinite_ignored (alpha orig : K) (draws : List (Ext K)) (h : effectStats alpha orig draws ≠ .nan) :
    effectStats alpha orig draws = effectStats alpha orig ((finites draws).map Ext.fin) := by
  unfold effectStats at h ⊢
  simp only [finites_map, List.length_map] at h ⊢
  split_ifs at h ⊢ with h1 h2
  · exact absurd rfl h
  · exact absurd rfl h
  · exfalso
    have : (0 : K) ≤ (finites draws).length := Nat.cast_nonneg _
    linarith
  · rfl

/-- C27: reported statistics: p-value range with the number of finite draws, and ordered interval. -/
theorem C27_reported (alpha orig : K) (h0 : 0 ≤ alpha) (h1 : alpha ≤ 1) (draws : List (Ext K)) (hd : draws ≠ [])
    (se2 : Option K) (ci : K × K) (p : K) (h : effectStats alpha orig draws = .ok se2 ci p) :
    ci.1 ≤ ci.2 ∧ 1 / (((draws.filter Ext.isFinite).length : K) + 1) ≤ p ∧ p ≤ 1 ∧
    (∀ v, se2 = some v → 0 ≤ v) := by
  have hlen := finites_length draws
  unfold effectStats at h
  simp only at h
  split_ifs at h with hc
  simp only [Stats.ok.injEq] at h
  obtain ⟨h2, h3, h4⟩ := h
  have hne : finites draws ≠ [] := by
    intro hn
    apply hc
    rw [hn]
    have : (0 : K) < draws.length := Nat.cast_pos.2 (List.length_pos_iff.2 hd)
    simp only [List.length_nil, Nat.cast_zero]
    linarith
  refine ⟨?_, ?_, ?_, ?_⟩
  · rw [← h3]; exact C27_interval_ordered _ hne alpha h0 h1
  · rw [← h4, ← hlen]; exact (C27_pvalue_range _ _ _).1
  · rw [← h4]; exact (C27_pvalue_range _ _ _).2
  · intro v hv
    rw [← h2] at hv
    unfold var1 at hv
    split_ifs at hv with hl
    rw [← Option.some.inj hv]
    apply div_nonneg
    · apply List.sum_nonneg
      intro y hy
      obtain ⟨d, _, rfl⟩ := List.mem_map.1 hy
      exact sq_nonneg _
    · have : (1 : K) < (finites draws).length := by exact_mod_cast Nat.lt_of_not_le hl
      linarith

example : effectStats (1/5 : ℚ) 2 [.fin 1, .fin 3, .nan, .fin (-1), .pinf, .fin 2] =
    .ok (some (35/12)) (-2/5, 27/10) (1/2) := by decide +kernel
example : effectStats (1/20 : ℚ) 2 [.fin 1, .nan, .pinf] = .nan := by decide +kernel

/-! ### C72: p-value and interval need not agree -/

theorem take_nonpos {s : List K} (hs : s.Pairwise (· ≤ ·)) (i : ℕ) (hi : i < s.length)
    (h : (s.filter (fun d => decide (d ≤ 0))).length ≤ i) : 0 < s.getD i 0 := by
  by_contra hc
  push Not at hc
  have : i + 1 ≤ (s.filter (fun d => decide (d ≤ 0))).length := by
    have hsub : ((s.take (i + 1)).filter (fun d => decide (d ≤ 0))).length ≤ (s.filter (fun d => decide (d ≤ 0))).length :=
      ((List.take_sublist (i + 1) s).filter _).length_le
    have hall : (s.take (i + 1)).filter (fun d => decide (d ≤ 0)) = s.take (i + 1) := by
      rw [List.filter_eq_self]
      intro d hd
      rw [List.mem_take_iff_getElem] at hd
      obtain ⟨j, hj, rfl⟩ := hd
      have hjl : j < s.length := by omega
      have := getD_mono hs (i := j) (j := i) (by omega) hi
      rw [List.getD_eq_getElem _ _ hjl] at this
      simpa using this.trans hc
    rw [hall, List.length_take, min_eq_left (by omega)] at hsub
    exact hsub
  omega

/-- C72, the part that holds: if the number of draws on the wrong side of zero is at most (n-1)·alpha/2, the interval
excludes zero (estimate non-negative). Missing: p < alpha only bounds that number by n·alpha/2, and intervals may
exclude zero at larger p (refuted below). -/
theorem C72_small_p_excludes_zero_partial (x : List K) (hx : x ≠ []) (alpha : K) (h0 : 0 ≤ alpha) (h1 : alpha ≤ 1)
    (h : ((x.filter (fun d => decide (d ≤ 0))).length : K) ≤ alpha / 2 * ((x.length : K) - 1)) :
    0 < (percentileCI x alpha).1 := by
  obtain ⟨hi, hl, _⟩ := pct_between (sorted x) (sort_ne hx) (q := alpha / 2) (by linarith) (by linarith)
  refine lt_of_lt_of_le ?_ hl
  have hlen := List.length_pos_iff.2 (sort_ne hx)
  apply take_nonpos (sorted x) _ (by omega)
  rw [((List.perm_insertionSort _ x).filter _).length_eq, List.length_insertionSort]
  exact Nat.le_floor h

/-- C72 is false in both directions: draws whose percentile interval at level 1/2 excludes zero while p = 1, and draws
with p < alpha whose interval contains zero. -/
theorem C72_refuted :
    (pvalue (1 : ℚ) [-1, 100] 2 = 1 ∧ 0 < (percentileCI [(-1 : ℚ), 100] (1/2)).1) ∧
    (pvalue (1 : ℚ) [-40, 1, 1, 1, 1] 5 = 2/5 ∧ (percentileCI [(-40 : ℚ), 1, 1, 1, 1] (21/50)).1 < 0 ∧
      0 < (percentileCI [(-40 : ℚ), 1, 1, 1, 1] (21/50)).2) := by
  refine ⟨⟨?_, ?_⟩, ?_, ?_, ?_⟩ <;> decide +kernel

end DiffDiff.BootStats
