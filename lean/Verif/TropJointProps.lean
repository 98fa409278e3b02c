/-
Properties of `TROP(method="joint")`: the solver solves the documented weighted least-squares problem, effects are recovered exactly
and do not depend on the origin of the outcome.
-/
import Verif.TropJoint
import Verif.TropShiftProps
import Verif.OlsProps
import Mathlib.LinearAlgebra.Matrix.Rank
import Mathlib.Analysis.SpecialFunctions.Log.Basic
import Mathlib.Analysis.SpecialFunctions.Sqrt

set_option linter.unusedSectionVars false
set_option linter.unusedVariables false

namespace DiffDiff.TropJoint

open TropFit (Data Cfg)
open Finset

variable {K : Type*} [Field K] [LinearOrder K] [IsStrictOrderedRing K]

/-! ### What is assumed of the outside routines -/

/-- The least-squares routine returns a minimiser of the residual sum of squares. -/
def LeastSquares (f : ℕ → ℕ → (ℕ → ℕ → K) → (ℕ → K) → (ℕ → K)) : Prop :=
  ∀ (m n : ℕ) (A : ℕ → ℕ → K) (b c : ℕ → K), ∑ k ∈ range m, (b k - ∑ j ∈ range n, A k j * f m n A b j) ^ 2 ≤ ∑ k ∈ range m, (b k - ∑ j ∈ range n, A k j * c j) ^ 2

/-- Such a routine exists over every ordered field. -/
theorem exists_leastSquares : ∃ f : ℕ → ℕ → (ℕ → ℕ → K) → (ℕ → K) → (ℕ → K), LeastSquares f := by
  classical
  have key : ∀ (m n : ℕ) (A : ℕ → ℕ → K) (b : ℕ → K), ∃ x : ℕ → K, ∀ c : ℕ → K,
      ∑ k ∈ range m, (b k - ∑ j ∈ range n, A k j * x j) ^ 2 ≤ ∑ k ∈ range m, (b k - ∑ j ∈ range n, A k j * c j) ^ 2 := by
    intro m n A b
    let M : Matrix (Fin m) (Fin n) K := Matrix.of fun i j => A i j
    have hle : LinearMap.range (M.transpose * M).mulVecLin ≤ LinearMap.range M.transpose.mulVecLin := by
      rw [Matrix.mulVecLin_mul]; exact LinearMap.range_comp_le_range _ _
    have heq : LinearMap.range (M.transpose * M).mulVecLin = LinearMap.range M.transpose.mulVecLin := by
      refine Submodule.eq_of_le_of_finrank_eq hle ?_
      have := Matrix.rank_transpose_mul_self M
      rw [← Matrix.rank_transpose M] at this
      exact this
    obtain ⟨x, hx⟩ : M.transpose.mulVec (fun i => b i) ∈ LinearMap.range (M.transpose * M).mulVecLin := by
      rw [heq]; exact ⟨_, rfl⟩
    have hx' : M.transpose.mulVec (fun i => b i) = M.transpose.mulVec (M.mulVec x) := by
      rw [← hx, Matrix.mulVec_mulVec]; rfl
    have ho : Ols.IsOls (fun (i : Fin m) (j : Fin n) => A i j) (fun i => b i) x := by
      intro j
      have := congrFun hx' j
      simp only [Matrix.mulVec, dotProduct, Matrix.transpose_apply, M, Matrix.of_apply] at this
      simp only [Ols.resid, Ols.fitted, Ols.dot, mul_sub, sum_sub_distrib]
      rw [this, sub_self]
    refine ⟨fun j => if h : j < n then x ⟨j, h⟩ else 0, fun c => ?_⟩
    have := (Ols.C11_iff_minimises _ _ _).1 ho (fun j => c j)
    simpa [Finset.sum_range] using this
  choose f hf using key
  exact ⟨f, hf⟩

/-- The square root is a square root. -/
def SqrtLike (r : K → K) : Prop := ∀ x, 0 ≤ x → r x * r x = x

/-- Soft-thresholding reads the matrix it is given. -/
def SvdLocal (svd : K → ℕ → ℕ → (ℕ → ℕ → K) → (ℕ → ℕ → K)) : Prop :=
  ∀ thr nT nN M M', (∀ t < nT, ∀ i < nN, M t i = M' t i) → ∀ t < nT, ∀ i < nN, svd thr nT nN M t i = svd thr nT nN M' t i

/-! ### The least-squares problem -/

/-- `Y - mu - alpha - beta - tau * D`. -/
def res (y : ℕ → ℕ → K) (D : ℕ → ℕ → ℤ) (s : Sol K) (t i : ℕ) : K := y t i - s.mu - s.alpha i - s.beta t - s.tau * (D t i : K)

/-- The documented objective (trop.py 1047-1050). -/
def obj (nT nN : ℕ) (W y : ℕ → ℕ → K) (D : ℕ → ℕ → ℤ) (s : Sol K) : K :=
  ∑ t ∈ range nT, ∑ i ∈ range nN, W t i * (y t i - s.mu - s.alpha i - s.beta t - s.tau * (D t i : K)) ^ 2

/-- Sums over the rows `t * n + i`. -/
theorem sum_rows (f : ℕ → ℕ → K) (m n : ℕ) (hn : 0 < n) : ∑ k ∈ range (m * n), f (k / n) (k % n) = ∑ t ∈ range m, ∑ i ∈ range n, f t i := by
  induction m with
  | zero => simp
  | succ m ih =>
    rw [Nat.succ_mul, Finset.sum_range_add, ih, Finset.sum_range_succ]
    congr 1
    refine Finset.sum_congr rfl fun i hi => ?_
    have hi := Finset.mem_range.1 hi
    rw [mul_comm m n, Nat.mul_add_div hn, Nat.mul_add_mod, Nat.div_eq_of_lt hi, Nat.mod_eq_of_lt hi, add_zero]

/-- A row of the design matrix times a coefficient vector. -/
theorem design_dot (nT nN : ℕ) (hT : 0 < nT) (hN : 0 < nN) (D : ℕ → ℕ → ℤ) (c : ℕ → K) (t i : ℕ) (ht : t < nT) (hi : i < nN) (row : ℕ)
    (h1 : row / nN = t) (h2 : row % nN = i) :
    ∑ j ∈ range (nN + nT), design nT nN D row j * c j
      = (extract nT nN c).mu + (extract nT nN c).alpha i + (extract nT nN c).beta t + (extract nT nN c).tau * (D t i : K) := by
  obtain ⟨a, rfl⟩ : ∃ a, nN = a + 1 := ⟨nN - 1, by omega⟩
  obtain ⟨b, rfl⟩ : ∃ b, nT = b + 1 := ⟨nT - 1, by omega⟩
  have e1 : a + 1 + (b + 1) = (a + 1 + b) + 1 := by omega
  rw [e1, Finset.sum_range_succ, Finset.sum_range_add, Finset.sum_range_succ']
  have hlast : design (K := K) (b + 1) (a + 1) D row (a + 1 + b) = (D t i : K) := by
    unfold design; rw [if_neg (by omega), if_pos (by omega), h1, h2]
  have hzero : design (K := K) (b + 1) (a + 1) D row 0 = 1 := by unfold design; rw [if_pos rfl]
  have hu : ∑ k ∈ range a, design (b + 1) (a + 1) D row (k + 1) * c (k + 1) = if i = 0 then 0 else c i := by
    have : ∀ k ∈ range a, design (b + 1) (a + 1) D row (k + 1) * c (k + 1) = if k + 1 = i then c i else 0 := by
      intro k hk
      have hk := Finset.mem_range.1 hk
      unfold design
      rw [if_neg (by omega), if_neg (by omega), if_pos (by omega), h2]
      by_cases h : i = k + 1
      · rw [if_pos h, if_pos h.symm, h, one_mul]
      · rw [if_neg h, if_neg (fun h' => h h'.symm), zero_mul]
    rw [Finset.sum_congr rfl this]
    by_cases h : i = 0
    · rw [if_pos h]; refine Finset.sum_eq_zero fun k _ => if_neg (by omega)
    · rw [if_neg h, Finset.sum_eq_single (i - 1)]
      · rw [if_pos (by omega)]
      · intro k _ hk; exact if_neg (by omega)
      · intro hk; exact absurd (Finset.mem_range.2 (by omega)) hk
  have hp : ∑ k ∈ range b, design (b + 1) (a + 1) D row (a + 1 + k) * c (a + 1 + k) = if t = 0 then 0 else c (a + 1 + (t - 1)) := by
    have : ∀ k ∈ range b, design (b + 1) (a + 1) D row (a + 1 + k) * c (a + 1 + k) = if k + 1 = t then c (a + 1 + (t - 1)) else 0 := by
      intro k hk
      have hk := Finset.mem_range.1 hk
      unfold design
      rw [if_neg (by omega), if_neg (by omega), if_neg (by omega), h1]
      by_cases h : k + 1 = t
      · rw [if_pos (by omega), if_pos h, one_mul]; congr 1; omega
      · rw [if_neg (by omega), if_neg h, zero_mul]
    rw [Finset.sum_congr rfl this]
    by_cases h : t = 0
    · rw [if_pos h]; refine Finset.sum_eq_zero fun k _ => if_neg (by omega)
    · rw [if_neg h, Finset.sum_eq_single (t - 1)]
      · rw [if_pos (by omega)]
      · intro k _ hk; exact if_neg (by omega)
      · intro hk; exact absurd (Finset.mem_range.2 (by omega)) hk
  rw [hlast, hzero, hu, hp]
  simp only [extract]
  have e2 : a + 1 + (b + 1) - 1 = a + 1 + b := by omega
  rw [e2]; ring

/-- The weighted residual sum of squares of the regression is the documented objective. -/
theorem sse_eq (v : Env K) (hr : SqrtLike v.r) (nT nN : ℕ) (hT : 0 < nT) (hN : 0 < nN) (Y : ℕ → ℕ → Option K) (D : ℕ → ℕ → ℤ)
    (W : ℕ → ℕ → K) (hW : ∀ t < nT, ∀ i < nN, 0 ≤ W t i) (c : ℕ → K) :
    ∑ k ∈ range (nT * nN), ((Y (k / nN) (k % nN)).getD 0 * v.r (max (mask Y W (k / nN) (k % nN)) 0)
      - ∑ j ∈ range (nN + nT), design nT nN D k j * v.r (max (mask Y W (k / nN) (k % nN)) 0) * c j) ^ 2
    = obj nT nN (mask Y W) (fun t i => (Y t i).getD 0) D (extract nT nN c) := by
  unfold obj
  rw [← sum_rows _ nT nN hN]
  refine Finset.sum_congr rfl fun k hk => ?_
  have hk := Finset.mem_range.1 hk
  have ht : k / nN < nT := Nat.div_lt_of_lt_mul (by rwa [mul_comm] at hk)
  have hi : k % nN < nN := Nat.mod_lt _ hN
  have hd := design_dot nT nN hT hN D c _ _ ht hi k rfl rfl
  have hm : 0 ≤ mask Y W (k / nN) (k % nN) := by
    unfold mask; split_ifs
    · exact hW _ ht _ hi
    · exact le_refl _
  rw [max_eq_left hm]
  have hs := hr _ hm
  have : ∑ j ∈ range (nN + nT), design nT nN D k j * v.r (mask Y W (k / nN) (k % nN)) * c j
      = v.r (mask Y W (k / nN) (k % nN)) * ∑ j ∈ range (nN + nT), design nT nN D k j * c j := by
    rw [Finset.mul_sum]; exact Finset.sum_congr rfl fun j _ => by ring
  rw [this, hd]
  have hsq : ∀ x : K, (x * v.r (mask Y W (k / nN) (k % nN))) ^ 2 = mask Y W (k / nN) (k % nN) * x ^ 2 := by
    intro x; rw [mul_pow, sq (v.r _), hs]; ring
  rw [← hsq]; ring

/-- Every set of parameters is a coefficient vector with the first unit and period as reference. -/
theorem obj_extract (nT nN : ℕ) (hT : 0 < nT) (hN : 0 < nN) (W y : ℕ → ℕ → K) (D : ℕ → ℕ → ℤ) (s : Sol K) :
    ∃ c, obj nT nN W y D (extract nT nN c) = obj nT nN W y D s := by
  refine ⟨fun j => if j = 0 then s.mu + s.alpha 0 + s.beta 0 else if j = nN + nT - 1 then s.tau
    else if j < nN then s.alpha j - s.alpha 0 else s.beta (j - (nN - 1)) - s.beta 0, ?_⟩
  unfold obj
  refine Finset.sum_congr rfl fun t ht => Finset.sum_congr rfl fun i hi => ?_
  have ht := Finset.mem_range.1 ht
  have hi := Finset.mem_range.1 hi
  have e1 : (extract nT nN (fun j => if j = 0 then s.mu + s.alpha 0 + s.beta 0 else if j = nN + nT - 1 then s.tau
    else if j < nN then s.alpha j - s.alpha 0 else s.beta (j - (nN - 1)) - s.beta 0)).alpha i = s.alpha i - s.alpha 0 := by
    simp only [extract]
    by_cases h : i = 0
    · rw [if_pos h, h, sub_self]
    · rw [if_neg h, if_neg h, if_neg (by omega), if_pos hi]
  have e2 : (extract nT nN (fun j => if j = 0 then s.mu + s.alpha 0 + s.beta 0 else if j = nN + nT - 1 then s.tau
    else if j < nN then s.alpha j - s.alpha 0 else s.beta (j - (nN - 1)) - s.beta 0)).beta t = s.beta t - s.beta 0 := by
    simp only [extract]
    by_cases h : t = 0
    · rw [if_pos h, h, sub_self]
    · rw [if_neg h, if_neg (by omega), if_neg (by omega), if_neg (by omega)]
      congr 2; omega
  rw [e1, e2]
  have e3 : (extract nT nN (fun j => if j = 0 then s.mu + s.alpha 0 + s.beta 0 else if j = nN + nT - 1 then s.tau
    else if j < nN then s.alpha j - s.alpha 0 else s.beta (j - (nN - 1)) - s.beta 0)).tau = s.tau := by
    simp only [extract]; rw [if_neg (by omega), if_pos trivial]
  have e4 : (extract nT nN (fun j => if j = 0 then s.mu + s.alpha 0 + s.beta 0 else if j = nN + nT - 1 then s.tau
    else if j < nN then s.alpha j - s.alpha 0 else s.beta (j - (nN - 1)) - s.beta 0)).mu = s.mu + s.alpha 0 + s.beta 0 := by
    simp only [extract]; rw [if_pos trivial]
  rw [e3, e4]; ring_nf

/-- C96. The joint solver without factor matrix returns parameters that minimise the documented weighted sum of squared residuals over
observed cells among all intercepts, unit effects, period effects and treatment effects; the first unit and period are the reference. -/
theorem C96_least_squares (v : Env K) (hl : LeastSquares v.lstsq) (hr : SqrtLike v.r) (nT nN : ℕ) (hT : 0 < nT) (hN : 0 < nN)
    (Y : ℕ → ℕ → Option K) (D : ℕ → ℕ → ℤ) (W : ℕ → ℕ → K) (hW : ∀ t < nT, ∀ i < nN, 0 ≤ W t i) (s : Sol K)
    (h : solve v nT nN Y D W = some s) :
    s.alpha 0 = 0 ∧ s.beta 0 = 0 ∧ ∀ (m : K) (a b : ℕ → K) (x : K),
      ∑ t ∈ range nT, ∑ i ∈ range nN, (if (Y t i).isSome then W t i else 0) *
        ((Y t i).getD 0 - s.mu - s.alpha i - s.beta t - s.tau * (D t i : K)) ^ 2
      ≤ ∑ t ∈ range nT, ∑ i ∈ range nN, (if (Y t i).isSome then W t i else 0) *
        ((Y t i).getD 0 - m - a i - b t - x * (D t i : K)) ^ 2 := by
  unfold solve at h
  split_ifs at h with h0
  have h := Option.some.inj h
  refine ⟨by rw [← h]; simp [extract], by rw [← h]; simp [extract], fun m a b x => ?_⟩
  obtain ⟨c, hc⟩ := obj_extract nT nN hT hN (mask Y W) (fun t i => (Y t i).getD 0) D { mu := m, alpha := a, beta := b, tau := x }
  have := hl (nT * nN) (nN + nT) (fun row col => design nT nN D row col * v.r (max (mask Y W (row / nN) (row % nN)) 0))
    (fun row => (Y (row / nN) (row % nN)).getD 0 * v.r (max (mask Y W (row / nN) (row % nN)) 0)) c
  rw [sse_eq v hr nT nN hT hN Y D W hW, sse_eq v hr nT nN hT hN Y D W hW, h, hc] at this
  exact this

/-- A minimiser of the objective. -/
def IsMin (nT nN : ℕ) (W y : ℕ → ℕ → K) (D : ℕ → ℕ → ℤ) (s : Sol K) : Prop := ∀ s', obj nT nN W y D s ≤ obj nT nN W y D s'

theorem solve_isMin (v : Env K) (hl : LeastSquares v.lstsq) (hr : SqrtLike v.r) (nT nN : ℕ) (hT : 0 < nT) (hN : 0 < nN)
    (Y : ℕ → ℕ → Option K) (D : ℕ → ℕ → ℤ) (W : ℕ → ℕ → K) (hW : ∀ t < nT, ∀ i < nN, 0 ≤ W t i) (s : Sol K)
    (h : solve v nT nN Y D W = some s) : IsMin nT nN (mask Y W) (fun t i => (Y t i).getD 0) D s :=
  fun s' => (C96_least_squares v hl hr nT nN hT hN Y D W hW s h).2.2 s'.mu s'.alpha s'.beta s'.tau

/-- The objective reads only cells with weight. -/
theorem obj_congr (nT nN : ℕ) (W y y' : ℕ → ℕ → K) (D : ℕ → ℕ → ℤ) (s s' : Sol K)
    (h : ∀ t < nT, ∀ i < nN, W t i ≠ 0 → res y D s t i = res y' D s' t i) : obj nT nN W y D s = obj nT nN W y' D s' := by
  unfold obj
  refine Finset.sum_congr rfl fun t ht => Finset.sum_congr rfl fun i hi => ?_
  by_cases h0 : W t i = 0
  · rw [h0, zero_mul, zero_mul]
  · have := h t (Finset.mem_range.1 ht) i (Finset.mem_range.1 hi) h0
    simp only [res] at this; rw [this]

/-- The residuals of two minimisers agree where there is weight. -/
theorem isMin_unique (nT nN : ℕ) (W y : ℕ → ℕ → K) (D : ℕ → ℕ → ℤ) (hW : ∀ t < nT, ∀ i < nN, 0 ≤ W t i) (s s' : Sol K)
    (h : IsMin nT nN W y D s) (h' : IsMin nT nN W y D s') (t i : ℕ) (ht : t < nT) (hi : i < nN) (hw : W t i ≠ 0) :
    res y D s t i = res y D s' t i := by
  let m : Sol K := { mu := (s.mu + s'.mu) / 2, alpha := fun i => (s.alpha i + s'.alpha i) / 2,
                     beta := fun t => (s.beta t + s'.beta t) / 2, tau := (s.tau + s'.tau) / 2 }
  have e : 4 * obj nT nN W y D m + ∑ t ∈ range nT, ∑ i ∈ range nN, W t i * (res y D s t i - res y D s' t i) ^ 2
      = 2 * obj nT nN W y D s + 2 * obj nT nN W y D s' := by
    simp only [obj, Finset.mul_sum, ← Finset.sum_add_distrib]
    refine Finset.sum_congr rfl fun t _ => Finset.sum_congr rfl fun i _ => ?_
    simp only [res, m]; ring
  have h1 := h m
  have h2 := h' m
  have hs : ∑ t ∈ range nT, ∑ i ∈ range nN, W t i * (res y D s t i - res y D s' t i) ^ 2 ≤ 0 := by linarith
  have nn : ∀ t ∈ range nT, 0 ≤ ∑ i ∈ range nN, W t i * (res y D s t i - res y D s' t i) ^ 2 := fun t ht =>
    Finset.sum_nonneg fun i hi => mul_nonneg (hW t (Finset.mem_range.1 ht) i (Finset.mem_range.1 hi)) (sq_nonneg _)
  have z1 := (Finset.sum_eq_zero_iff_of_nonneg nn).1 (le_antisymm hs (Finset.sum_nonneg nn)) t (Finset.mem_range.2 ht)
  have z2 := (Finset.sum_eq_zero_iff_of_nonneg (fun i hi => mul_nonneg (hW t ht i (Finset.mem_range.1 hi)) (sq_nonneg _))).1 z1 i
    (Finset.mem_range.2 hi)
  rcases mul_eq_zero.1 z2 with h | h
  · exact absurd h hw
  · exact sub_eq_zero.1 (pow_eq_zero_iff (two_ne_zero) |>.1 h)

/-- A minimiser fits data that can be fitted exactly. -/
theorem isMin_exact (nT nN : ℕ) (W y : ℕ → ℕ → K) (D : ℕ → ℕ → ℤ) (hW : ∀ t < nT, ∀ i < nN, 0 ≤ W t i) (s s0 : Sol K)
    (h : IsMin nT nN W y D s) (h0 : ∀ t < nT, ∀ i < nN, W t i ≠ 0 → res y D s0 t i = 0) (t i : ℕ) (ht : t < nT) (hi : i < nN)
    (hw : W t i ≠ 0) : res y D s t i = 0 := by
  have hz : obj nT nN W y D s0 = 0 := by
    unfold obj
    refine Finset.sum_eq_zero fun t ht => Finset.sum_eq_zero fun i hi => ?_
    by_cases hw : W t i = 0
    · rw [hw, zero_mul]
    · have := h0 t (Finset.mem_range.1 ht) i (Finset.mem_range.1 hi) hw
      simp only [res] at this; rw [this]; ring
  have hm : IsMin nT nN W y D s0 := fun s' => by
    rw [hz]; exact Finset.sum_nonneg fun t ht => Finset.sum_nonneg fun i hi =>
      mul_nonneg (hW t (Finset.mem_range.1 ht) i (Finset.mem_range.1 hi)) (sq_nonneg _)
  rw [isMin_unique nT nN W y D hW s s0 h hm t i ht hi hw, h0 t ht i hi hw]

/-! ### Weights -/

theorem mask_some (y W : ℕ → ℕ → K) : mask (fun t i => some (y t i)) W = W := by funext t i; simp [mask]

theorem mask_nonneg {Y : ℕ → ℕ → Option K} {W : ℕ → ℕ → K} {nT nN : ℕ} (hW : ∀ t < nT, ∀ i < nN, 0 ≤ W t i) :
    ∀ t < nT, ∀ i < nN, 0 ≤ mask Y W t i := by
  intro t ht i hi; unfold mask; split_ifs
  · exact hW t ht i hi
  · exact le_refl _

theorem unitW_nonneg (v : Env K) (he : ∀ x, 0 < v.e x) (P : Data K) (tp : ℕ) (lamU : K) (i : ℕ) : 0 ≤ unitW v P tp lamU i := by
  unfold unitW; split
  · exact le_refl _
  · exact (he _).le

theorem unitW_pos (v : Env K) (he : ∀ x, 0 < v.e x) (P : Data K) (tp : ℕ) (lamU : K) (i : ℕ) (h : gaps P tp i ≠ []) :
    0 < unitW v P tp lamU i := by
  unfold unitW; split
  · next h' => exact absurd h' h
  · exact he _

theorem delta_nonneg (v : Env K) (he : ∀ x, 0 < v.e x) (P : Data K) (tp : ℕ) (lamT lamU : K) (t i : ℕ) :
    0 ≤ delta v P tp lamT lamU t i := mul_nonneg (he _).le (unitW_nonneg v he P tp lamU i)

/-- A cell that takes part in the estimation: it is observed and its unit can be compared with the treated average before treatment. -/
def Usable (P : Data K) (tp t i : ℕ) : Prop := t < P.nT ∧ i < P.nN ∧ (P.Y t i).isSome = true ∧ gaps P tp i ≠ []

theorem Usable.mask_ne {v : Env K} (he : ∀ x, 0 < v.e x) {P : Data K} {tp t i : ℕ} (h : Usable P tp t i) (lamT lamU : K) :
    mask P.Y (delta v P tp lamT lamU) t i ≠ 0 := by
  unfold mask; rw [if_pos h.2.2.1]
  exact (mul_pos (he _) (unitW_pos v he P tp lamU i h.2.2.2)).ne'

/-- Four usable cells, two units in two periods, whose treatment values do not add up to unit plus period effects. -/
def HasRect (P : Data K) (tp : ℕ) : Prop := ∃ t0 t1 i0 i1, Usable P tp t0 i0 ∧ Usable P tp t0 i1 ∧ Usable P tp t1 i0 ∧ Usable P tp t1 i1 ∧
  P.D t1 i1 - P.D t1 i0 - P.D t0 i1 + P.D t0 i0 ≠ 0

/-! ### Exact recovery -/

/-- Soft-thresholding maps zero to zero. -/
def SvdZero (svd : K → ℕ → ℕ → (ℕ → ℕ → K) → (ℕ → ℕ → K)) : Prop :=
  ∀ thr nT nN M, (∀ t < nT, ∀ i < nN, M t i = 0) → ∀ t < nT, ∀ i < nN, svd thr nT nN M t i = 0

theorem lowLoop_exact (v : Env K) (hl : LeastSquares v.lstsq) (hr : SqrtLike v.r) (hz : SvdZero v.svd) (tol : K) (nT nN : ℕ)
    (hT : 0 < nT) (hN : 0 < nN) (y W : ℕ → ℕ → K) (D : ℕ → ℕ → ℤ) (hW : ∀ t < nT, ∀ i < nN, 0 ≤ W t i) (lam : K) (s0 : Sol K)
    (h0 : ∀ t < nT, ∀ i < nN, W t i ≠ 0 → res y D s0 t i = 0) (n : ℕ) :
    ∀ (L : ℕ → ℕ → K) (f : Sol K × (ℕ → ℕ → K)), (∀ t < nT, ∀ i < nN, L t i = 0) → lowLoop v tol nT nN y D W lam n L = some f →
      ∀ t < nT, ∀ i < nN, W t i ≠ 0 → res y D f.1 t i = 0 := by
  have main : ∀ (L : ℕ → ℕ → K) (s : Sol K), (∀ t < nT, ∀ i < nN, L t i = 0) →
      solve v nT nN (fun t i => some (y t i - L t i)) D W = some s → ∀ t < nT, ∀ i < nN, W t i ≠ 0 → res y D s t i = 0 := by
    intro L s hL hs t ht i hi hw
    have hm := solve_isMin v hl hr nT nN hT hN _ D W hW s hs
    rw [mask_some] at hm
    have e := isMin_exact nT nN W _ D hW s s0 hm (fun t ht i hi hw => by
      have := h0 t ht i hi hw
      simp only [res, Option.getD_some, hL t ht i hi, sub_zero] at this ⊢; exact this) t i ht hi hw
    simpa only [res, Option.getD_some, hL t ht i hi, sub_zero] using e
  have low : ∀ (L : ℕ → ℕ → K) (s : Sol K), (∀ t < nT, ∀ i < nN, L t i = 0) → (∀ t < nT, ∀ i < nN, W t i ≠ 0 → res y D s t i = 0) →
      ∀ t < nT, ∀ i < nN, lowStep v nT nN y W D lam s L t i = 0 := by
    intro L s hL hs
    refine hz _ _ _ _ (fun t ht i hi => ?_)
    rw [hL t ht i hi, sub_zero, zero_add]
    by_cases hw : W t i = 0
    · simp [hw]
    · have := hs t ht i hi hw
      simp only [res] at this; rw [this, mul_zero]
  induction n with
  | zero =>
    intro L f hL h
    rw [lowLoop] at h
    split at h
    · cases h
    · next s hs => cases h; exact main L s hL hs
  | succ n ih =>
    intro L f hL h
    rw [lowLoop] at h
    split at h
    · cases h
    · next s hs =>
      split_ifs at h with hc
      · cases h; exact main L s hL hs
      · exact ih _ f (low L s hL (main L s hL hs)) h

/-- The treatment effect from four cells fitted exactly. -/
theorem tau_of_rect {W y : ℕ → ℕ → K} {D : ℕ → ℕ → ℤ} {s s0 : Sol K} {t0 t1 i0 i1 : ℕ}
    (h00 : res y D s t0 i0 = res y D s0 t0 i0) (h01 : res y D s t0 i1 = res y D s0 t0 i1) (h10 : res y D s t1 i0 = res y D s0 t1 i0)
    (h11 : res y D s t1 i1 = res y D s0 t1 i1) (hd : D t1 i1 - D t1 i0 - D t0 i1 + D t0 i0 ≠ 0) : s.tau = s0.tau := by
  have hd' : ((D t1 i1 : K) - D t1 i0 - D t0 i1 + D t0 i0) ≠ 0 := by exact_mod_cast hd
  simp only [res] at h00 h01 h10 h11
  have : (s.tau - s0.tau) * ((D t1 i1 : K) - D t1 i0 - D t0 i1 + D t0 i0) = 0 := by
    linear_combination h10 + h01 - h00 - h11
  rcases mul_eq_zero.1 this with h | h
  · exact sub_eq_zero.1 h
  · exact absurd h hd'

/-- C97. If every observed outcome is a unit effect plus a period effect plus `x` times the treatment, and some two units are observed in
two periods with treatment changing for one of them only, the joint fit returns exactly `x` — for any tuning parameters, with or
without factor matrix, after any number of iterations. -/
theorem C97_fixed_tuning (v : Env K) (hl : LeastSquares v.lstsq) (hr : SqrtLike v.r) (hz : SvdZero v.svd) (he : ∀ x, 0 < v.e x)
    (c : Cfg K) (P : Data K) (tp : ℕ) (l : Lam3 K) (a b : ℕ → K) (x : K)
    (hP : ∀ t < P.nT, ∀ i < P.nN, ∀ y, P.Y t i = some y → y = a i + b t + x * (P.D t i : K)) (hR : HasRect P tp)
    (f : Sol K × (ℕ → ℕ → K)) (h : fitLam v c P tp l = some f) : f.1.tau = x := by
  obtain ⟨t0, t1, i0, i1, u00, u01, u10, u11, hd⟩ := hR
  have hT : 0 < P.nT := lt_of_le_of_lt (Nat.zero_le _) u00.1
  have hN : 0 < P.nN := lt_of_le_of_lt (Nat.zero_le _) u00.2.1
  let W := mask P.Y (delta v P tp l.time l.unit)
  have hW : ∀ t < P.nT, ∀ i < P.nN, 0 ≤ W t i := mask_nonneg fun t _ i _ => delta_nonneg v he P tp _ _ t i
  let s0 : Sol K := { mu := 0, alpha := a, beta := b, tau := x }
  have h0 : ∀ t < P.nT, ∀ i < P.nN, W t i ≠ 0 → res (fun t i => (P.Y t i).getD 0) P.D s0 t i = 0 := by
    intro t ht i hi hw
    cases hy : P.Y t i with
    | none => exact absurd (by simp [W, mask, hy]) hw
    | some y => simp only [res, hy, Option.getD_some, s0]; rw [hP t ht i hi y hy]; ring
  have key : ∀ t < P.nT, ∀ i < P.nN, W t i ≠ 0 → res (fun t i => (P.Y t i).getD 0) P.D f.1 t i = 0 := by
    unfold fitLam fitW at h
    split_ifs at h with hn
    · rw [Option.map_eq_some_iff] at h
      obtain ⟨s, hs, rfl⟩ := h
      exact fun t ht i hi => isMin_exact P.nT P.nN W _ P.D hW s s0
        (solve_isMin v hl hr _ _ hT hN _ _ _ (fun t _ i _ => delta_nonneg v he P tp _ _ t i) s hs) h0 t i ht hi
    · exact lowLoop_exact v hl hr hz c.tol _ _ hT hN _ W P.D hW l.nn s0 h0 _ _ f (fun _ _ _ _ => rfl) h
  have g : ∀ t i, Usable P tp t i → res (fun t i => (P.Y t i).getD 0) P.D f.1 t i = res (fun t i => (P.Y t i).getD 0) P.D s0 t i := by
    intro t i hu
    have hw := hu.mask_ne he l.time l.unit
    rw [key t hu.1 i hu.2.1 hw, h0 t hu.1 i hu.2.1 hw]
  exact tau_of_rect (W := W) (s0 := s0) (g _ _ u00) (g _ _ u01) (g _ _ u10) (g _ _ u11) hd

/-- C97. The same for the whole fit, whatever the grids, the subsample of cells and the tuning parameters selected. -/
theorem C97_recovery (v : Env K) (hl : LeastSquares v.lstsq) (hr : SqrtLike v.r) (hz : SvdZero v.svd) (he : ∀ x, 0 < v.e x)
    (c : Cfg K) (pick : List (ℕ × ℕ) → List (ℕ × ℕ)) (P : Data K) (tp : ℕ) (gt gu gn : List (Option K)) (a b : ℕ → K) (x : K)
    (hP : ∀ t < P.nT, ∀ i < P.nN, ∀ y, P.Y t i = some y → y = a i + b t + x * (P.D t i : K)) (hR : HasRect P tp)
    (y : K) (h : (fitData v c pick P tp gt gu gn).2 = some y) : y = x := by
  unfold fitData at h
  rw [Option.map_eq_some_iff] at h
  obtain ⟨f, hf, rfl⟩ := h
  exact C97_fixed_tuning v hl hr hz he c P tp _ a b x hP hR f hf

/-! ### When a fit fails -/

theorem list_sum (f : ℕ → K) (n : ℕ) : ((List.range n).map f).sum = ∑ i ∈ range n, f i := by
  induction n with
  | zero => simp
  | succ n ih => rw [List.range_succ, List.map_append, List.sum_append, ih, Finset.sum_range_succ]; simp

theorem solve_none (v : Env K) (nT nN : ℕ) (Y : ℕ → ℕ → Option K) (D : ℕ → ℕ → ℤ) (W : ℕ → ℕ → K) :
    solve v nT nN Y D W = none ↔ ∑ t ∈ range nT, ∑ i ∈ range nN, mask Y W t i < 1 / 10 ^ 10 := by
  have e : ((List.range nT).map (fun t => ((List.range nN).map (fun i => mask Y W t i)).sum)).sum
      = ∑ t ∈ range nT, ∑ i ∈ range nN, mask Y W t i := by
    simp only [list_sum]
  unfold solve; rw [e]; split_ifs with h
  · exact ⟨fun _ => h, fun _ => rfl⟩
  · exact ⟨fun h' => absurd h' (by simp), fun h' => absurd h' h⟩

theorem lowLoop_none (v : Env K) (tol : K) (nT nN : ℕ) (y W : ℕ → ℕ → K) (D : ℕ → ℕ → ℤ) (lam : K) (n : ℕ) :
    ∀ L, lowLoop v tol nT nN y D W lam n L = none ↔ ∑ t ∈ range nT, ∑ i ∈ range nN, W t i < 1 / 10 ^ 10 := by
  have hs : ∀ L : ℕ → ℕ → K, solve v nT nN (fun t i => some (y t i - L t i)) D W = none ↔
      ∑ t ∈ range nT, ∑ i ∈ range nN, W t i < 1 / 10 ^ 10 := fun L => by rw [solve_none, mask_some]
  induction n with
  | zero =>
    intro L; rw [lowLoop, ← hs L]
    split
    · next h => simp [h]
    · next s h => simp [h]
  | succ n ih =>
    intro L; rw [lowLoop]
    split
    · next h => exact ⟨fun _ => (hs L).1 h, fun _ => rfl⟩
    · next s h =>
      split_ifs
      · rw [← hs L]; simp [h]
      · exact ih _

/-- C96. A joint fit fails exactly when the weights of the observed cells add up to less than `1e-10`. -/
theorem C96_fails_iff (v : Env K) (c : Cfg K) (P : Data K) (W : ℕ → ℕ → K) (lamN : K) :
    fitW v c P W lamN = none ↔ ∑ t ∈ range P.nT, ∑ i ∈ range P.nN, (if (P.Y t i).isSome then W t i else 0) < 1 / 10 ^ 10 := by
  unfold fitW; split_ifs
  · rw [Option.map_eq_none_iff]; exact solve_none v _ _ _ _ _
  · exact lowLoop_none v _ _ _ _ _ _ _ _ _

end DiffDiff.TropJoint
