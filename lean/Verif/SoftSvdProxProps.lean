/-
Property C157: the low-rank step minimises the penalised least squares problem it stands for.
-/
import Verif.SoftSvdUseProps

set_option linter.unusedSectionVars false
set_option linter.unusedVariables false

namespace DiffDiff.SoftSvd
open Matrix

variable {K : Type*} [Field K] [LinearOrder K] [IsStrictOrderedRing K]
variable {m n : Type*} [Fintype m] [Fintype n] [DecidableEq m] [DecidableEq n]

/-- Sum of the products of the entries. -/
def ip (A B : Matrix m n K) : K := ∑ i, ∑ j, A i j * B i j

/-- The nuclear norm: the sum of the singular values (of any decomposition, `nuc_unique`). -/
def nuc (d : Thin m n K) : K := ∑ k, d.s k

/-- `½‖M − L‖² + λ‖L‖_*`, with `e` a decomposition of `L`. -/
def objective (lam : K) (M L : Matrix m n K) (e : Thin m n K) : K := ip (M - L) (M - L) / 2 + lam * nuc e

theorem ip_recon {r : ℕ} (G : Matrix m n K) (U : Matrix m (Fin r) K) (f : Fin r → K) (V : Matrix n (Fin r) K) :
    ip G (U * diagonal f * Vᵀ) = ∑ k, f k * ((fun i => U i k) ⬝ᵥ (G *ᵥ fun j => V j k)) := by
  unfold ip
  simp only [recon_apply, Finset.mul_sum]
  calc ∑ i, ∑ j, ∑ k, G i j * (U i k * f k * V j k) = ∑ i, ∑ k, ∑ j, G i j * (U i k * f k * V j k) := by
        exact Finset.sum_congr rfl fun i _ => Finset.sum_comm
    _ = ∑ k, ∑ i, ∑ j, G i j * (U i k * f k * V j k) := Finset.sum_comm
    _ = _ := by
        refine Finset.sum_congr rfl fun k _ => ?_
        simp only [dotProduct, mulVec, Finset.mul_sum]
        exact Finset.sum_congr rfl fun i _ => Finset.sum_congr rfl fun j _ => by ring

/-- Bessel's inequality. -/
theorem bessel {r : ℕ} {U : Matrix m (Fin r) K} (hU : Uᵀ * U = 1) (x : m → K) : (Uᵀ *ᵥ x) ⬝ᵥ (Uᵀ *ᵥ x) ≤ x ⬝ᵥ x := by
  set c := Uᵀ *ᵥ x with hc
  have h1 : x ⬝ᵥ (U *ᵥ c) = c ⬝ᵥ c := by rw [dotProduct_mulVec, ← mulVec_transpose]
  have h2 : (U *ᵥ c) ⬝ᵥ (U *ᵥ c) = c ⬝ᵥ c := by
    rw [dotProduct_mulVec, ← mulVec_transpose, mulVec_mulVec, hU, one_mulVec]
  have h3 : 0 ≤ (x - U *ᵥ c) ⬝ᵥ (x - U *ᵥ c) := Finset.sum_nonneg fun i _ => mul_self_nonneg _
  rw [sub_dotProduct, dotProduct_sub, dotProduct_sub, h1, h2, dotProduct_comm (U *ᵥ c) x, h1] at h3
  linarith

/-- A matrix with singular values at most `b` has no bilinear value above `b` on unit vectors. -/
theorem bilinear_le {r : ℕ} {U : Matrix m (Fin r) K} {V : Matrix n (Fin r) K} (hU : Uᵀ * U = 1) (hV : Vᵀ * V = 1) (g : Fin r → K) (b : K) (h0 : ∀ k, 0 ≤ g k)
    (hb : ∀ k, g k ≤ b) (hb0 : 0 ≤ b) (x : m → K) (y : n → K) (hx : x ⬝ᵥ x = 1) (hy : y ⬝ᵥ y = 1) : x ⬝ᵥ ((U * diagonal g * Vᵀ) *ᵥ y) ≤ b := by
  have e : x ⬝ᵥ ((U * diagonal g * Vᵀ) *ᵥ y) = ∑ k, g k * ((Uᵀ *ᵥ x) k * (Vᵀ *ᵥ y) k) := by
    rw [← mulVec_mulVec, ← mulVec_mulVec, dotProduct_mulVec, ← mulVec_transpose]
    simp only [dotProduct, mulVec_diagonal]
    exact Finset.sum_congr rfl fun k _ => by ring
  rw [e]
  have h1 := bessel hU x
  have h2 := bessel hV y
  rw [hx] at h1
  rw [hy] at h2
  calc ∑ k, g k * ((Uᵀ *ᵥ x) k * (Vᵀ *ᵥ y) k) ≤ ∑ k, b * (((Uᵀ *ᵥ x) k * (Uᵀ *ᵥ x) k + (Vᵀ *ᵥ y) k * (Vᵀ *ᵥ y) k) / 2) := by
        refine Finset.sum_le_sum fun k _ => ?_
        have q : ∀ a c : K, a * c ≤ (a * a + c * c) / 2 := fun a c => by nlinarith [mul_self_nonneg (a - c)]
        have q0 : ∀ a c : K, 0 ≤ (a * a + c * c) / 2 := fun a c => by nlinarith [mul_self_nonneg a, mul_self_nonneg c]
        calc g k * ((Uᵀ *ᵥ x) k * (Vᵀ *ᵥ y) k) ≤ g k * (((Uᵀ *ᵥ x) k * (Uᵀ *ᵥ x) k + (Vᵀ *ᵥ y) k * (Vᵀ *ᵥ y) k) / 2) :=
              mul_le_mul_of_nonneg_left (q _ _) (h0 k)
          _ ≤ _ := mul_le_mul_of_nonneg_right (hb k) (q0 _ _)
    _ = b * (((Uᵀ *ᵥ x) ⬝ᵥ (Uᵀ *ᵥ x) + (Vᵀ *ᵥ y) ⬝ᵥ (Vᵀ *ᵥ y)) / 2) := by
        rw [← Finset.mul_sum, ← Finset.sum_div, Finset.sum_add_distrib]
        rfl
    _ ≤ b * 1 := mul_le_mul_of_nonneg_left (by linarith) hb0
    _ = b := mul_one b

theorem unit_col {m' : Type*} [Fintype m'] [DecidableEq m'] {r : ℕ} {U : Matrix m' (Fin r) K} (hU : Uᵀ * U = 1) (k : Fin r) : (fun i => U i k) ⬝ᵥ (fun i => U i k) = 1 := by
  have := congrFun (congrFun hU k) k
  rw [Matrix.mul_apply, one_apply_eq] at this
  exact this

/-- Trace duality. -/
theorem ip_le_nuc {r : ℕ} {U : Matrix m (Fin r) K} {V : Matrix n (Fin r) K} (hU : Uᵀ * U = 1) (hV : Vᵀ * V = 1) (g : Fin r → K) (b : K) (h0 : ∀ k, 0 ≤ g k)
    (hb : ∀ k, g k ≤ b) (hb0 : 0 ≤ b) {L : Matrix m n K} {e : Thin m n K} (he : IsThin L e) : ip (U * diagonal g * Vᵀ) L ≤ b * nuc e := by
  conv_lhs => rw [he.eq]
  rw [ip_recon, nuc, Finset.mul_sum]
  refine Finset.sum_le_sum fun k _ => ?_
  rw [mul_comm b]
  exact mul_le_mul_of_nonneg_left (bilinear_le hU hV g b h0 hb hb0 _ _ (unit_col he.uu k) (unit_col he.vv k)) (he.nonneg k)

theorem ip_same {r : ℕ} {U : Matrix m (Fin r) K} {V : Matrix n (Fin r) K} (hU : Uᵀ * U = 1) (hV : Vᵀ * V = 1) (g f : Fin r → K) :
    ip (U * diagonal g * Vᵀ) (U * diagonal f * Vᵀ) = ∑ k, f k * g k := by
  rw [ip_recon]
  refine Finset.sum_congr rfl fun k _ => ?_
  congr 1
  have e1 : Uᵀ * (U * diagonal g * Vᵀ) * V = diagonal g := by
    rw [← Matrix.mul_assoc, ← Matrix.mul_assoc, hU, Matrix.one_mul, Matrix.mul_assoc, hV, Matrix.mul_one]
  have e2 := congrFun (congrFun e1 k) k
  rw [diagonal_apply_eq, Matrix.mul_assoc, Matrix.mul_apply] at e2
  rw [← e2]
  rfl

/-- C157. The sum of the singular values does not depend on the decomposition. -/
theorem C157_nuclear_norm {L : Matrix m n K} {d e : Thin m n K} (hd : IsThin L d) (he : IsThin L e) : nuc d = nuc e := by
  have key : ∀ {d e : Thin m n K}, IsThin L d → IsThin L e → nuc d ≤ nuc e := by
    intro d e hd he
    have h1 := ip_le_nuc hd.uu hd.vv (fun _ => 1) 1 (fun _ => zero_le_one) (fun _ => le_refl _) zero_le_one he
    have h2 : ip (d.U * diagonal (fun _ => (1 : K)) * d.Vᵀ) L = nuc d := by
      conv_lhs => rw [hd.eq]
      rw [ip_same hd.uu hd.vv]
      exact Finset.sum_congr rfl fun k _ => mul_one _
    rw [h2, one_mul] at h1
    exact h1
  exact le_antisymm (key hd he) (key he hd)

theorem shrink_nonneg (lam tol s : K) : 0 ≤ shrink lam tol s := by
  unfold shrink
  split_ifs
  · exact le_max_right _ _
  · exact le_refl _

/-- The decomposition of the result. -/
def softThin (lam tol : K) (d : Thin m n K) : Thin m n K := ⟨d.r, d.U, fun k => shrink lam tol (d.s k), d.V⟩

theorem soft_thin {lam : K} (hl : 0 < lam) (tol : K) {M : Matrix m n K} {d : Thin m n K} (hd : IsThin M d) : IsThin (soft lam tol M d) (softThin lam tol d) where
  eq := soft_eq hl tol M d
  uu := hd.uu
  vv := hd.vv
  nonneg _ := shrink_nonneg _ _ _

theorem ip_self_nonneg (A : Matrix m n K) : 0 ≤ ip A A := Finset.sum_nonneg fun i _ => Finset.sum_nonneg fun j _ => mul_self_nonneg _

/-- C157. The low-rank step is the proximal map of the nuclear norm: with the cut-off 0 no matrix `L` has a smaller value of
`½‖M − L‖² + λ‖L‖_*`, and the excess of any other matrix is at least half its squared distance, so the minimiser is unique. -/
theorem C157_proximal {lam : K} (hl : 0 < lam) (M : Matrix m n K) (d : Thin m n K) (hd : IsThin M d) (L : Matrix m n K) (e f : Thin m n K) (he : IsThin L e)
    (hf : IsThin (soft lam 0 M d) f) :
    objective lam M (soft lam 0 M d) f + ip (soft lam 0 M d - L) (soft lam 0 M d - L) / 2 ≤ objective lam M L e := by
  have hn : nuc f = ∑ k, shrink lam 0 (d.s k) := C157_nuclear_norm hf (soft_thin hl 0 hd)
  set R := soft lam 0 M d with hR
  have hG : M - R = d.U * diagonal (fun k => d.s k - shrink lam 0 (d.s k)) * d.Vᵀ := by
    rw [hR, soft_eq hl]
    conv_lhs => lhs; rw [hd.eq]
    rw [← Matrix.sub_mul, ← Matrix.mul_sub, diagonal_sub]
  have hs : ∀ s : K, 0 ≤ s → 0 ≤ s - shrink lam 0 s ∧ s - shrink lam 0 s ≤ lam ∧ shrink lam 0 s * (s - shrink lam 0 s) = shrink lam 0 s * lam := by
    intro s h0
    unfold shrink
    rcases le_or_gt s lam with h | h
    · rw [max_eq_right (by linarith), if_neg (lt_irrefl _)]
      exact ⟨by linarith, by linarith, by ring⟩
    · rw [max_eq_left (by linarith), if_pos (by linarith)]
      exact ⟨by linarith, by linarith, by ring⟩
  have h1 : ip (M - R) L ≤ lam * nuc e := by
    rw [hG]
    exact ip_le_nuc hd.uu hd.vv _ lam (fun k => (hs _ (hd.nonneg k)).1) (fun k => (hs _ (hd.nonneg k)).2.1) hl.le he
  have h2 : ip (M - R) R = lam * nuc f := by
    rw [hG, hR, soft_eq hl, ip_same hd.uu hd.vv, hn, Finset.mul_sum]
    exact Finset.sum_congr rfl fun k _ => by rw [(hs _ (hd.nonneg k)).2.2, mul_comm]
  have h3 : ip (M - L) (M - L) = ip (M - R) (M - R) + 2 * ip (M - R) R - 2 * ip (M - R) L + ip (R - L) (R - L) := by
    unfold ip
    simp only [Finset.mul_sum, ← Finset.sum_add_distrib, ← Finset.sum_sub_distrib, Matrix.sub_apply]
    exact Finset.sum_congr rfl fun i _ => Finset.sum_congr rfl fun j _ => by ring
  unfold objective
  rw [h3, h2]
  linarith

/-- C157. The cut-off (1e-10 in the code) moves the result by no more than the cut-off in each retained direction: the squared distance from the
exact minimiser is at most the number of singular values times its square. -/
theorem C157_cutoff {lam tol : K} (hl : 0 < lam) (ht : 0 ≤ tol) (M : Matrix m n K) (d : Thin m n K) (hd : IsThin M d) :
    ip (soft lam 0 M d - soft lam tol M d) (soft lam 0 M d - soft lam tol M d) ≤ d.r * tol ^ 2 := by
  have hG : soft lam 0 M d - soft lam tol M d = d.U * diagonal (fun k => shrink lam 0 (d.s k) - shrink lam tol (d.s k)) * d.Vᵀ := by
    rw [soft_eq hl, soft_eq hl, ← Matrix.sub_mul, ← Matrix.mul_sub, diagonal_sub]
  rw [hG, ip_same hd.uu hd.vv]
  calc ∑ k, (shrink lam 0 (d.s k) - shrink lam tol (d.s k)) * (shrink lam 0 (d.s k) - shrink lam tol (d.s k)) ≤ ∑ _k : Fin d.r, tol ^ 2 := by
        refine Finset.sum_le_sum fun k _ => ?_
        have h0 : 0 ≤ shrink lam 0 (d.s k) - shrink lam tol (d.s k) ∧ shrink lam 0 (d.s k) - shrink lam tol (d.s k) ≤ tol := by
          unfold shrink
          by_cases h : tol < max (d.s k - lam) 0
          · rw [if_pos h, if_pos (lt_of_le_of_lt ht h)]; simp [ht]
          · rw [if_neg h]
            split_ifs with h'
            · rw [sub_zero]; exact ⟨h'.le, not_lt.1 h⟩
            · rw [sub_zero]; exact ⟨le_refl _, ht⟩
        nlinarith [h0.1, h0.2]
    _ = d.r * tol ^ 2 := by simp

/-- A matrix that is not diagonal: `[[3, 0], [4, 0]]` has the singular value 5; the threshold 2 leaves 3/5 of it. -/
example : IsThin (!![3, 0; 4, 0] : Matrix (Fin 2) (Fin 2) ℚ) ⟨1, !![3/5; 4/5], ![5], !![1; 0]⟩ ∧
    soft 2 (1/10000000000) (!![3, 0; 4, 0] : Matrix (Fin 2) (Fin 2) ℚ) ⟨1, !![3/5; 4/5], ![5], !![1; 0]⟩ = !![9/5, 0; 12/5, 0] := by
  refine ⟨⟨?_, ?_, ?_, ?_⟩, ?_⟩
  all_goals decide +kernel

/-- Two decompositions of the identity by different vectors. -/
example : IsThin (1 : Matrix (Fin 2) (Fin 2) ℚ) ⟨2, 1, ![1, 1], 1⟩ ∧
    IsThin (1 : Matrix (Fin 2) (Fin 2) ℚ) ⟨2, !![3/5, -4/5; 4/5, 3/5], ![1, 1], !![3/5, -4/5; 4/5, 3/5]⟩ := by
  refine ⟨⟨?_, ?_, ?_, ?_⟩, ⟨?_, ?_, ?_, ?_⟩⟩
  all_goals decide +kernel

/-- C157. Both backends return the same matrix when every entry is finite. -/
theorem C157_finite (lam tol : K) (M : Matrix m n (Option K)) (hM : ∀ i j, M i j ≠ none) (d e : Thin m n K) (hd : IsThin (cleaned M) d) (he : IsThin (cleaned M) e) :
    softRs lam tol M e = softPy lam tol M d := by
  have : ¬ ∃ i j, (M i j).isNone := by rintro ⟨i, j, h⟩; exact hM i j (Option.isNone_iff_eq_none.1 h)
  unfold softRs softPy
  rw [if_neg this, C157_backends lam tol _ d e hd he]

/-- "Both backends return the same matrix" is false when an entry is not finite: Python replaces that entry by 0 and goes on, the compiled routine
returns the zero matrix. Here the entries are NaN and 5 and the threshold is 2: `[0, 3]` against `[0, 0]`, from any decomposition. -/
theorem C157_backends_nonfinite_refuted (d e : Thin (Fin 1) (Fin 2) ℚ) (hd : IsThin (cleaned (!![none, some 5] : Matrix (Fin 1) (Fin 2) (Option ℚ))) d) :
    softPy 2 (1/10000000000) !![none, some 5] d = !![some 0, some 3] ∧ softRs 2 (1/10000000000) !![none, some 5] e = !![some 0, some 0] := by
  have h0 : IsThin (cleaned (!![none, some 5] : Matrix (Fin 1) (Fin 2) (Option ℚ))) ⟨1, !![1], ![5], !![0; 1]⟩ := by
    refine ⟨?_, ?_, ?_, ?_⟩
    all_goals decide +kernel
  constructor
  · unfold softPy
    rw [C157_unique 2 _ _ d _ hd h0]
    decide +kernel
  · unfold softRs
    rw [if_neg (by norm_num), if_pos ⟨0, 0, rfl⟩]
    decide +kernel

end DiffDiff.SoftSvd
