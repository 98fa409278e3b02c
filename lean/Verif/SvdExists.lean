/-
The contract `IsSvd` of the factorization routines can be met for every real matrix with at least as many rows as columns, so the
hypotheses of the theorems of `SvdProps` are satisfiable for every design.
-/
import Verif.SvdProps
import Mathlib.Analysis.Matrix.Spectrum
import Mathlib.Analysis.InnerProductSpace.PiL2

namespace DiffDiff.Svd
open Matrix

variable {n k : ℕ}

/-- Every real `n × k` matrix with `k ≤ n` has a thin singular value decomposition. -/
theorem exists_svd (X : Matrix (Fin n) (Fin k) ℝ) (hnk : k ≤ n) : ∃ d, IsSvd X d := by
  have hG : (Xᵀ * X).IsHermitian := by
    have := Matrix.isHermitian_conjTranspose_mul_self X
    rwa [conjTranspose_eq_transpose_of_trivial] at this
  set V : Matrix (Fin k) (Fin k) ℝ := (hG.eigenvectorUnitary : Matrix (Fin k) (Fin k) ℝ) with hVdef
  have hVV : Vᵀ * V = 1 := by
    have := Unitary.coe_star_mul_self hG.eigenvectorUnitary
    rwa [star_eq_conjTranspose, conjTranspose_eq_transpose_of_trivial] at this
  have hVV' : V * Vᵀ = 1 := mul_eq_one_comm.mp hVV
  set lam := hG.eigenvalues with hlam
  have hWW : (X * V)ᵀ * (X * V) = diagonal lam := by
    have hcol : ∀ j, (Xᵀ * X) *ᵥ (fun i => V i j) = fun i => lam j * V i j := by
      intro j
      have h := hG.mulVec_eigenvectorBasis j
      have e : (fun i => V i j) = (⇑(hG.eigenvectorBasis j) : Fin k → ℝ) := by
        funext i; exact hG.eigenvectorUnitary_apply i j
      rw [e, h]
      funext i
      simp [← e]
      left; rfl
    have hm : (Xᵀ * X) * V = V * diagonal lam := by
      ext i j
      rw [mul_diagonal]
      have := congrFun (hcol j) i
      rw [mul_comm]
      exact this
    calc (X * V)ᵀ * (X * V) = Vᵀ * ((Xᵀ * X) * V) := by rw [transpose_mul]; simp only [Matrix.mul_assoc]
      _ = diagonal lam := by rw [hm, ← Matrix.mul_assoc, hVV, Matrix.one_mul]
  set W := X * V with hW
  have hdot : ∀ i j, ∑ r, W r i * W r j = if i = j then lam i else 0 := by
    intro i j
    have := congrFun (congrFun hWW i) j
    rw [Matrix.mul_apply, diagonal_apply] at this
    simpa only [transpose_apply] using this
  have hl0 : ∀ i, 0 ≤ lam i := by
    intro i
    have := hdot i i
    rw [if_pos rfl] at this
    rw [← this]
    exact Finset.sum_nonneg (fun r _ => mul_self_nonneg _)
  set s : Fin k → ℝ := fun i => Real.sqrt (lam i) with hs
  have hs2 : ∀ i, s i * s i = lam i := fun i => Real.mul_self_sqrt (hl0 i)
  -- normalised left vectors, placed among the first `k` of `n` positions
  let v : Fin n → EuclideanSpace ℝ (Fin n) := fun j =>
    if h : j.val < k then WithLp.toLp 2 (fun r => W r ⟨j, h⟩ / s ⟨j, h⟩) else 0
  let S : Set (Fin n) := {j | ∃ h : j.val < k, s ⟨j, h⟩ ≠ 0}
  have hv : Orthonormal ℝ (S.domRestrict v) := by
    rw [orthonormal_iff_ite]
    rintro ⟨a, ha, hsa⟩ ⟨b, hb, hsb⟩
    have e : inner ℝ (S.domRestrict v ⟨a, ha, hsa⟩) (S.domRestrict v ⟨b, hb, hsb⟩) =
        (∑ r, W r ⟨a, ha⟩ * W r ⟨b, hb⟩) / (s ⟨a, ha⟩ * s ⟨b, hb⟩) := by
      simp only [Set.domRestrict, v, dif_pos ha, dif_pos hb, PiLp.inner_apply, RCLike.inner_apply, conj_trivial]
      rw [Finset.sum_div]
      apply Finset.sum_congr rfl
      intro r _
      rw [div_mul_div_comm, mul_comm (W r ⟨b, hb⟩), mul_comm (s ⟨b, hb⟩)]
    rw [e, hdot]
    by_cases hab : a = b
    · subst hab
      rw [if_pos rfl, if_pos rfl, hs2, div_self]
      rw [← hs2]; exact mul_ne_zero hsa hsa
    · rw [if_neg (fun h => hab (Fin.ext (by simpa using congrArg Fin.val h))),
        if_neg (fun h => hab (congrArg Subtype.val h)), zero_div]
  obtain ⟨b, hb⟩ := hv.exists_orthonormalBasis_extension_of_card_eq (by simp)
  let U : Matrix (Fin n) (Fin k) ℝ := fun r i => b (Fin.castLE hnk i) r
  refine ⟨⟨U, s, V⟩, ?_, ?_, hVV, fun i => Real.sqrt_nonneg _⟩
  · have hU : U * diagonal s = W := by
      ext r i
      rw [mul_diagonal]
      show b (Fin.castLE hnk i) r * s i = W r i
      by_cases hsi : s i = 0
      · rw [hsi, mul_zero]
        have h0 := hdot i i
        rw [if_pos rfl, ← hs2, hsi, mul_zero] at h0
        have := (Finset.sum_eq_zero_iff_of_nonneg (fun r _ => mul_self_nonneg (W r i))).mp h0 r (Finset.mem_univ _)
        exact (mul_self_eq_zero.mp this).symm
      · have hmem : Fin.castLE hnk i ∈ S := ⟨i.isLt, hsi⟩
        rw [hb _ hmem]
        have hlt : (Fin.castLE hnk i).val < k := i.isLt
        simp only [v, dif_pos hlt]
        exact div_mul_cancel₀ _ hsi
    show X = _ * diagonal s * Vᵀ
    rw [hU, hW, Matrix.mul_assoc, hVV', Matrix.mul_one]
  · ext i j
    rw [Matrix.mul_apply]
    have h := orthonormal_iff_ite.mp b.orthonormal (Fin.castLE hnk i) (Fin.castLE hnk j)
    simp only [PiLp.inner_apply, RCLike.inner_apply, conj_trivial] at h
    rw [one_apply]
    have hij : (Fin.castLE hnk i = Fin.castLE hnk j) ↔ i = j := (Fin.castLE_injective hnk).eq_iff
    simp only [hij] at h
    rw [← h]
    exact Finset.sum_congr rfl (fun r _ => mul_comm _ _)

/-- The assumptions on the libraries in C143 can be met for every real design with at least as many rows as columns. -/
theorem exists_sound {C : Type*} (n : ℕ) (rdiag : ∀ {k : ℕ}, Matrix (Fin n) (Fin k) ℝ → List ℝ)
    (pivot : ∀ {k : ℕ}, Matrix (Fin n) (Fin k) ℝ → List (Fin k)) :
    ∃ L : Lib n C ℝ, (∀ {k : ℕ} (X : Matrix (Fin n) (Fin k) ℝ), k ≤ n → Sound L X) ∧
      (∀ {k : ℕ} (X : Matrix (Fin n) (Fin k) ℝ), L.rdiag X = rdiag X ∧ L.pivot X = pivot X) := by
  classical
  let f : ∀ {k : ℕ}, Matrix (Fin n) (Fin k) ℝ → Option (Dec n k ℝ) := fun {k} X =>
    if h : k ≤ n then some (exists_svd X h).choose else none
  have hf : ∀ {k : ℕ} (X : Matrix (Fin n) (Fin k) ℝ), k ≤ n → ∃ d, f X = some d ∧ IsSvd X d := by
    intro k X h
    exact ⟨(exists_svd X h).choose, by simp only [f, dif_pos h], (exists_svd X h).choose_spec⟩
  exact ⟨⟨f, f, rdiag, pivot, fun l => l⟩, fun X h => ⟨hf X h, hf X h, fun l => List.Perm.refl l⟩, fun X => ⟨rfl, rfl⟩⟩

end DiffDiff.Svd
