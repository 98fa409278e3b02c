/-
Property C158: what the alternating minimisation of TROP minimises.
-/
import Verif.SoftSvdProxProps
import Mathlib.LinearAlgebra.Matrix.Rank

set_option linter.unusedSectionVars false
set_option linter.unusedVariables false

namespace DiffDiff.TropDescent
open Matrix SoftSvd
open TropFit (Fit Data Cfg)

variable {K : Type*} [Field K] [LinearOrder K] [IsStrictOrderedRing K]

/-! ### The problem -/

/-- Weighted sum of squared residuals of `Y = α + β + L`. -/
def loss (nT nN : ℕ) (W Y : ℕ → ℕ → K) (f : Fit K) : K :=
  ∑ t ∈ Finset.range nT, ∑ i ∈ Finset.range nN, W t i * (Y t i - f.alpha i - f.beta t - f.L t i) ^ 2

/-- Nuclear norm of the panel part of a matrix. -/
def norm (lib : {p q : ℕ} → Matrix (Fin p) (Fin q) K → Thin (Fin p) (Fin q) K) (nT nN : ℕ) (L : ℕ → ℕ → K) : K :=
  nuc (lib (Matrix.of fun (t : Fin nT) (i : Fin nN) => L t i))

/-- `½ Σ W (Y − α − β − L)² + λ‖L‖_*`. -/
def target (lib : {p q : ℕ} → Matrix (Fin p) (Fin q) K → Thin (Fin p) (Fin q) K) (lam : K) (nT nN : ℕ) (W Y : ℕ → ℕ → K) (f : Fit K) : K :=
  loss nT nN W Y f / 2 + lam * norm lib nT nN f.L

/-- The same on the panel. -/
def On (nT nN : ℕ) (A B : ℕ → ℕ → K) : Prop := ∀ t < nT, ∀ i < nN, A t i = B t i

/-! ### Steps -/

section
variable {nT nN : ℕ} {W Y : ℕ → ℕ → K}

/-- A weighted mean minimises. -/
theorem mean_min (n : ℕ) (w z : ℕ → K) (hw : ∀ i < n, 0 ≤ w i) (m a : K)
    (hm : 0 < ∑ i ∈ Finset.range n, w i → m = (∑ i ∈ Finset.range n, w i * z i) / ∑ i ∈ Finset.range n, w i) :
    ∑ i ∈ Finset.range n, w i * (z i - m) ^ 2 ≤ ∑ i ∈ Finset.range n, w i * (z i - a) ^ 2 := by
  have h0 : 0 ≤ ∑ i ∈ Finset.range n, w i := Finset.sum_nonneg fun i hi => hw i (Finset.mem_range.1 hi)
  have h1 : ∑ i ∈ Finset.range n, w i * (z i - m) = 0 := by
    rcases h0.eq_or_lt with h | h
    · have := (Finset.sum_eq_zero_iff_of_nonneg fun i hi => hw i (Finset.mem_range.1 hi)).1 h.symm
      exact Finset.sum_eq_zero fun i hi => by rw [this i hi, zero_mul]
    · simp only [mul_sub, Finset.sum_sub_distrib, ← Finset.sum_mul]
      rw [hm h, mul_div_cancel₀ _ h.ne', sub_self]
  have h2 : ∑ i ∈ Finset.range n, w i * (z i - a) ^ 2
      = ∑ i ∈ Finset.range n, w i * (z i - m) ^ 2 + 2 * (m - a) * ∑ i ∈ Finset.range n, w i * (z i - m) + (m - a) ^ 2 * ∑ i ∈ Finset.range n, w i := by
    rw [Finset.mul_sum, Finset.mul_sum, ← Finset.sum_add_distrib, ← Finset.sum_add_distrib]
    exact Finset.sum_congr rfl fun i _ => by ring
  rw [h2, h1]
  nlinarith [mul_nonneg (sq_nonneg (m - a)) h0]

theorem loss_alpha (hW : ∀ t < nT, ∀ i < nN, 0 ≤ W t i) (f : Fit K) (a : ℕ → K)
    (ha : ∀ i < nN, 0 < ∑ t ∈ Finset.range nT, W t i →
      a i = (∑ t ∈ Finset.range nT, W t i * (Y t i - f.L t i - f.beta t)) / ∑ t ∈ Finset.range nT, W t i) :
    loss nT nN W Y { f with alpha := a } ≤ loss nT nN W Y f := by
  unfold loss
  rw [Finset.sum_comm]
  conv_rhs => rw [Finset.sum_comm]
  refine Finset.sum_le_sum fun i hi => ?_
  have hi := Finset.mem_range.1 hi
  have := mean_min nT (fun t => W t i) (fun t => Y t i - f.L t i - f.beta t) (fun t ht => hW t ht i hi) (a i) (f.alpha i) (ha i hi)
  calc _ = ∑ t ∈ Finset.range nT, W t i * (Y t i - f.L t i - f.beta t - a i) ^ 2 := Finset.sum_congr rfl fun t _ => by ring
    _ ≤ _ := this
    _ = _ := Finset.sum_congr rfl fun t _ => by ring

theorem loss_beta (hW : ∀ t < nT, ∀ i < nN, 0 ≤ W t i) (f : Fit K) (b : ℕ → K)
    (hb : ∀ t < nT, 0 < ∑ i ∈ Finset.range nN, W t i →
      b t = (∑ i ∈ Finset.range nN, W t i * (Y t i - f.L t i - f.alpha i)) / ∑ i ∈ Finset.range nN, W t i) :
    loss nT nN W Y { f with beta := b } ≤ loss nT nN W Y f := by
  unfold loss
  refine Finset.sum_le_sum fun t ht => ?_
  have ht := Finset.mem_range.1 ht
  have := mean_min nN (fun i => W t i) (fun i => Y t i - f.L t i - f.alpha i) (fun i hi => hW t ht i hi) (b t) (f.beta t) (hb t ht)
  calc _ = ∑ i ∈ Finset.range nN, W t i * (Y t i - f.L t i - f.alpha i - b t) ^ 2 := Finset.sum_congr rfl fun t _ => by ring
    _ ≤ _ := this
    _ = _ := Finset.sum_congr rfl fun t _ => by ring

theorem loss_mul (c : K) (f : Fit K) : loss nT nN (fun t i => c * W t i) Y f = c * loss nT nN W Y f := by
  unfold loss
  simp only [Finset.mul_sum, mul_assoc]

end

theorem sum_fin (p q : ℕ) (g : ℕ → ℕ → K) : ∑ t : Fin p, ∑ i : Fin q, g t i = ∑ t ∈ Finset.range p, ∑ i ∈ Finset.range q, g t i := by
  rw [Finset.sum_range]
  exact Finset.sum_congr rfl fun t _ => by rw [Finset.sum_range]

/-- The number of singular values of a decomposition is at most the number of rows. -/
theorem thin_rank {p q : ℕ} {M : Matrix (Fin p) (Fin q) K} {d : Thin (Fin p) (Fin q) K} (hd : IsThin M d) : d.r ≤ p := by
  have h1 : (1 : Matrix (Fin d.r) (Fin d.r) K).rank ≤ d.U.rank := by rw [← hd.uu]; exact rank_mul_le_right _ _
  have h2 : d.U.rank ≤ Fintype.card (Fin p) := rank_le_card_height _
  rw [rank_one, Fintype.card_fin] at h1
  rw [Fintype.card_fin] at h2
  exact h1.trans h2

/-- The cut-off raises the penalised distance by at most half its square for each singular value. -/
theorem cutoff_objective {p q : ℕ} {lam tol : K} (hl : 0 < lam) (ht : 0 ≤ tol) (M : Matrix (Fin p) (Fin q) K) (d : Thin (Fin p) (Fin q) K) (hd : IsThin M d) :
    objective lam M (soft lam tol M d) (softThin lam tol d) ≤ objective lam M (soft lam 0 M d) (softThin lam 0 d) + p * tol ^ 2 / 2 := by
  have key : ∀ τ : K, objective lam M (soft lam τ M d) (softThin lam τ d) = ∑ k, ((d.s k - shrink lam τ (d.s k)) ^ 2 / 2 + lam * shrink lam τ (d.s k)) := by
    intro τ
    have hG : M - soft lam τ M d = d.U * diagonal (fun k => d.s k - shrink lam τ (d.s k)) * d.Vᵀ := by
      rw [soft_eq hl]
      conv_lhs => lhs; rw [hd.eq]
      rw [← Matrix.sub_mul, ← Matrix.mul_sub, diagonal_sub]
    unfold objective nuc
    rw [hG, ip_same hd.uu hd.vv, Finset.sum_add_distrib, Finset.mul_sum, Finset.sum_div]
    congr 1
    exact Finset.sum_congr rfl fun k _ => by ring
  rw [key, key]
  have hr : (d.r : K) ≤ p := by exact_mod_cast thin_rank hd
  calc _ ≤ ∑ k, ((d.s k - shrink lam 0 (d.s k)) ^ 2 / 2 + lam * shrink lam 0 (d.s k) + tol ^ 2 / 2) := by
        refine Finset.sum_le_sum fun k _ => ?_
        have hs := hd.nonneg k
        unfold shrink
        by_cases h : tol < max (d.s k - lam) 0
        · rw [if_pos h, if_pos (lt_of_le_of_lt ht h)]
          nlinarith [sq_nonneg tol]
        · rw [if_neg h]
          by_cases h' : 0 < max (d.s k - lam) 0
          · rw [if_pos h']
            have h2 : max (d.s k - lam) 0 = d.s k - lam := by
              rcases le_total (d.s k - lam) 0 with q | q
              · rw [max_eq_right q] at h'; exact absurd h' (lt_irrefl _)
              · exact max_eq_left q
            rw [h2] at h h' ⊢
            have h3 : d.s k - lam ≤ tol := not_lt.1 h
            nlinarith
          · rw [if_neg h']
            nlinarith [sq_nonneg tol]
    _ = ∑ k, ((d.s k - shrink lam 0 (d.s k)) ^ 2 / 2 + lam * shrink lam 0 (d.s k)) + d.r * (tol ^ 2 / 2) := by
        rw [Finset.sum_add_distrib]; simp
    _ ≤ _ := by
        have := mul_le_mul_of_nonneg_right hr (show (0 : K) ≤ tol ^ 2 / 2 by positivity)
        linarith

variable {lib : {p q : ℕ} → Matrix (Fin p) (Fin q) K → Thin (Fin p) (Fin q) K} (hg : Good lib)
include hg

theorem norm_congr {nT nN : ℕ} {A B : ℕ → ℕ → K} (h : On nT nN A B) : norm lib nT nN A = norm lib nT nN B := by
  unfold norm
  have : (Matrix.of fun (t : Fin nT) (i : Fin nN) => A t i) = Matrix.of fun (t : Fin nT) (i : Fin nN) => B t i := by
    ext t i; exact h t t.2 i i.2
  rw [this]

theorem code_of {tol lam : K} (hl : 0 < lam) (nT nN : ℕ) (M : ℕ → ℕ → K) :
    (Matrix.of fun (t : Fin nT) (i : Fin nN) => code lib tol lam nT nN M t i)
      = soft lam tol (Matrix.of fun (t : Fin nT) (i : Fin nN) => M t i) (lib (Matrix.of fun (t : Fin nT) (i : Fin nN) => M t i)) := by
  ext t i
  rw [Matrix.of_apply]
  unfold code
  rw [if_neg (not_le.2 hl)]
  dsimp only
  rw [dif_pos ⟨t.2, i.2⟩]

/-- The proximal inequality on the panel. -/
theorem prox_ineq {tol lam : K} (hl : 0 < lam) (ht : 0 ≤ tol) (nT nN : ℕ) (G L : ℕ → ℕ → K) :
    (∑ t ∈ Finset.range nT, ∑ i ∈ Finset.range nN, (G t i - code lib tol lam nT nN G t i) ^ 2) / 2 + lam * norm lib nT nN (code lib tol lam nT nN G)
      + (∑ t ∈ Finset.range nT, ∑ i ∈ Finset.range nN, (code lib 0 lam nT nN G t i - L t i) ^ 2) / 2
      ≤ (∑ t ∈ Finset.range nT, ∑ i ∈ Finset.range nN, (G t i - L t i) ^ 2) / 2 + lam * norm lib nT nN L + nT * tol ^ 2 / 2 := by
  set M : Matrix (Fin nT) (Fin nN) K := Matrix.of fun (t : Fin nT) (i : Fin nN) => G t i with hM
  set B : Matrix (Fin nT) (Fin nN) K := Matrix.of fun (t : Fin nT) (i : Fin nN) => L t i with hB
  have hd := hg M
  have h1 := C157_proximal hl M (lib M) hd B (lib B) (softThin lam 0 (lib M)) (hg B) (soft_thin hl 0 hd)
  have h2 := cutoff_objective hl ht M (lib M) hd
  have hn : norm lib nT nN (code lib tol lam nT nN G) = nuc (softThin lam tol (lib M)) := by
    unfold norm
    rw [code_of hg hl]
    exact C157_nuclear_norm (hg _) (soft_thin hl tol hd)
  have e1 : ip (M - soft lam tol M (lib M)) (M - soft lam tol M (lib M))
      = ∑ t ∈ Finset.range nT, ∑ i ∈ Finset.range nN, (G t i - code lib tol lam nT nN G t i) ^ 2 := by
    rw [← sum_fin, ← code_of hg hl]
    exact Finset.sum_congr rfl fun t _ => Finset.sum_congr rfl fun i _ => by
      rw [Matrix.sub_apply, Matrix.of_apply, hM, Matrix.of_apply]; ring
  have e2 : ip (soft lam 0 M (lib M) - B) (soft lam 0 M (lib M) - B)
      = ∑ t ∈ Finset.range nT, ∑ i ∈ Finset.range nN, (code lib 0 lam nT nN G t i - L t i) ^ 2 := by
    rw [← sum_fin, ← code_of hg hl]
    exact Finset.sum_congr rfl fun t _ => Finset.sum_congr rfl fun i _ => by
      rw [Matrix.sub_apply, Matrix.of_apply, hB, Matrix.of_apply]; ring
  have e3 : ip (M - B) (M - B) = ∑ t ∈ Finset.range nT, ∑ i ∈ Finset.range nN, (G t i - L t i) ^ 2 := by
    rw [← sum_fin]
    exact Finset.sum_congr rfl fun t _ => Finset.sum_congr rfl fun i _ => by
      rw [Matrix.sub_apply, hM, hB, Matrix.of_apply, Matrix.of_apply]; ring
  have h3 : objective lam M (soft lam tol M (lib M)) (softThin lam tol (lib M))
      = (∑ t ∈ Finset.range nT, ∑ i ∈ Finset.range nN, (G t i - code lib tol lam nT nN G t i) ^ 2) / 2 + lam * norm lib nT nN (code lib tol lam nT nN G) := by
    unfold objective; rw [e1, hn]
  have h4 : objective lam M B (lib B) = (∑ t ∈ Finset.range nT, ∑ i ∈ Finset.range nN, (G t i - L t i) ^ 2) / 2 + lam * norm lib nT nN L := by
    unfold objective; rw [e3]; rfl
  rw [h4, e2] at h1
  rw [h3] at h2
  linarith

/-- One step on the low-rank part lowers the penalised weighted distance (weights at most 1). -/
theorem step_descent {tol lam : K} (hl : 0 < lam) (ht : 0 ≤ tol) (nT nN : ℕ) (w R L : ℕ → ℕ → K) (hw : ∀ t < nT, ∀ i < nN, w t i ≤ 1) :
    (∑ t ∈ Finset.range nT, ∑ i ∈ Finset.range nN, w t i * (R t i - code lib tol lam nT nN (fun t i => L t i + w t i * (R t i - L t i)) t i) ^ 2) / 2
        + lam * norm lib nT nN (code lib tol lam nT nN (fun t i => L t i + w t i * (R t i - L t i)))
        + (∑ t ∈ Finset.range nT, ∑ i ∈ Finset.range nN, (code lib 0 lam nT nN (fun t i => L t i + w t i * (R t i - L t i)) t i - L t i) ^ 2) / 2
      ≤ (∑ t ∈ Finset.range nT, ∑ i ∈ Finset.range nN, w t i * (R t i - L t i) ^ 2) / 2 + lam * norm lib nT nN L + nT * tol ^ 2 / 2 := by
  have h := prox_ineq hg hl ht nT nN (fun t i => L t i + w t i * (R t i - L t i)) L
  set A := code lib tol lam nT nN (fun t i => L t i + w t i * (R t i - L t i)) with hA
  have hm : ∑ t ∈ Finset.range nT, ∑ i ∈ Finset.range nN, w t i * (R t i - A t i) ^ 2
        + ∑ t ∈ Finset.range nT, ∑ i ∈ Finset.range nN, (L t i + w t i * (R t i - L t i) - L t i) ^ 2
      ≤ ∑ t ∈ Finset.range nT, ∑ i ∈ Finset.range nN, w t i * (R t i - L t i) ^ 2
        + ∑ t ∈ Finset.range nT, ∑ i ∈ Finset.range nN, (L t i + w t i * (R t i - L t i) - A t i) ^ 2 := by
    simp only [← Finset.sum_add_distrib]
    refine Finset.sum_le_sum fun t ht => Finset.sum_le_sum fun i hi => ?_
    have := hw t (Finset.mem_range.1 ht) i (Finset.mem_range.1 hi)
    have h2 : 0 ≤ (1 - w t i) * (L t i - A t i) ^ 2 := mul_nonneg (by linarith) (sq_nonneg _)
    nlinarith [h2]
  linarith

/-! ### Sweeps -/

section
variable (e r : K → K) {tol lam : K} (ptol : K) {nT nN : ℕ} {W Y : ℕ → ℕ → K}

omit hg in
theorem wNorm_eq (svd : K → ℕ → ℕ → (ℕ → ℕ → K) → (ℕ → ℕ → K)) (t i : ℕ) :
    TropFit.wNorm (TropFit.fieldOps e r svd) nT nN W t i = TropRust.eta nT nN W * W t i := by
  unfold TropFit.wNorm TropRust.eta
  have : TropFit.maxL (TropFit.fieldOps e r svd) (TropFit.entries nT nN W) = TropRust.wMax nT nN W := rfl
  rw [this]
  by_cases h : 0 < TropRust.wMax nT nN W
  · rw [if_pos h, if_pos (by simp [TropFit.fieldOps, h])]
    show W t i / _ = _
    rw [one_div, div_eq_inv_mul]
  · rw [if_neg h, if_neg (by simp [TropFit.fieldOps, not_lt.1 h]), one_mul]

omit hg in
theorem eta_pos : 0 < TropRust.eta nT nN W := by
  unfold TropRust.eta
  split_ifs with h
  · exact one_div_pos.2 h
  · exact zero_lt_one

theorem inner_descent (hl : 0 < lam) (ht : 0 ≤ tol) (w R : ℕ → ℕ → K) (hw : ∀ t < nT, ∀ i < nN, w t i ≤ 1) (n : ℕ) : ∀ L : ℕ → ℕ → K,
    (∑ t ∈ Finset.range nT, ∑ i ∈ Finset.range nN, w t i * (R t i - TropFit.inner (TropFit.fieldOps e r (code lib tol)) ptol nT nN lam w R n L t i) ^ 2) / 2
        + lam * norm lib nT nN (TropFit.inner (TropFit.fieldOps e r (code lib tol)) ptol nT nN lam w R n L)
      ≤ (∑ t ∈ Finset.range nT, ∑ i ∈ Finset.range nN, w t i * (R t i - L t i) ^ 2) / 2 + lam * norm lib nT nN L + n * (nT * tol ^ 2 / 2) := by
  have hs : 0 ≤ (nT : K) * tol ^ 2 / 2 := by positivity
  induction n with
  | zero => intro L; simp [TropFit.inner]
  | succ n ih =>
    intro L
    have h1 := step_descent hg hl ht nT nN w R L hw
    have h0 : 0 ≤ (∑ t ∈ Finset.range nT, ∑ i ∈ Finset.range nN, (code lib 0 lam nT nN (fun t i => L t i + w t i * (R t i - L t i)) t i - L t i) ^ 2) / 2 :=
      div_nonneg (Finset.sum_nonneg fun t _ => Finset.sum_nonneg fun i _ => sq_nonneg _) (by norm_num)
    have hn : (0 : K) ≤ n * (nT * tol ^ 2 / 2) := mul_nonneg (Nat.cast_nonneg n) hs
    have ec : ((n + 1 : ℕ) : K) * (nT * tol ^ 2 / 2) = n * (nT * tol ^ 2 / 2) + nT * tol ^ 2 / 2 := by push_cast; ring
    have ep : TropFit.proxStep (TropFit.fieldOps e r (code lib tol)) nT nN lam w R L = code lib tol lam nT nN (fun t i => L t i + w t i * (R t i - L t i)) := rfl
    rw [ec]
    unfold TropFit.inner
    rw [ep]
    by_cases hc : (TropFit.fieldOps e r (code lib tol)).lt (TropFit.matDiff (TropFit.fieldOps e r (code lib tol)) nT nN
        (code lib tol lam nT nN (fun t i => L t i + w t i * (R t i - L t i))) L) ptol = true
    · rw [if_pos hc]
      linarith
    · rw [if_neg hc]
      have h2 := ih (code lib tol lam nT nN (fun t i => L t i + w t i * (R t i - L t i)))
      linarith

omit hg in
/-- On cells with weight the target of the inner problem is the residual. -/
theorem masked_loss (hW : ∀ t < nT, ∀ i < nN, 0 ≤ W t i) (svd : K → ℕ → ℕ → (ℕ → ℕ → K) → (ℕ → ℕ → K)) (al be : ℕ → K) (L0 X : ℕ → ℕ → K) (c : K) :
    ∑ t ∈ Finset.range nT, ∑ i ∈ Finset.range nN, c * W t i * (TropFit.rMasked (TropFit.fieldOps e r svd) Y W al be L0 t i - X t i) ^ 2
      = loss nT nN (fun t i => c * W t i) Y ⟨al, be, X⟩ := by
  unfold loss
  refine Finset.sum_congr rfl fun t ht => Finset.sum_congr rfl fun i hi => ?_
  rw [TropFit.rMasked_eq]
  split_ifs with h
  · rfl
  · have : W t i = 0 := le_antisymm (not_lt.1 h) (hW t (Finset.mem_range.1 ht) i (Finset.mem_range.1 hi))
    dsimp only
    rw [this, mul_zero, zero_mul, zero_mul]

/-- The effects of units and periods after one sweep do not raise the loss. -/
theorem effects_descent (hW : ∀ t < nT, ∀ i < nN, 0 ≤ W t i) (svd : K → ℕ → ℕ → (ℕ → ℕ → K) → (ℕ → ℕ → K)) (f : Fit K) :
    loss nT nN W Y ⟨TropFit.alphaStep (TropFit.fieldOps e r svd) nT Y W f,
      TropFit.betaStep (TropFit.fieldOps e r svd) nN Y W (TropFit.alphaStep (TropFit.fieldOps e r svd) nT Y W f) f.L, f.L⟩ ≤ loss nT nN W Y f := by
  have h1 := loss_alpha (Y := Y) hW f (TropFit.alphaStep (TropFit.fieldOps e r svd) nT Y W f) (fun i _ hp => by rw [TropFit.alphaStep_eq, if_pos hp])
  have h2 := loss_beta (Y := Y) hW { f with alpha := TropFit.alphaStep (TropFit.fieldOps e r svd) nT Y W f }
    (TropFit.betaStep (TropFit.fieldOps e r svd) nN Y W (TropFit.alphaStep (TropFit.fieldOps e r svd) nT Y W f) f.L)
    (fun t _ hp => by rw [TropFit.betaStep_eq, if_pos hp])
  exact h2.trans h1

/-- C158. One sweep of the alternating minimisation (Python) does not raise `½ Σ (W / max W)(Y − α − β − L)² + λ‖L‖_*`, up to the cut-off of the
thresholding (10 inner steps, 1e-10 in the code; nothing for the cut-off 0). -/
theorem C158_sweep (hl : 0 < lam) (ht : 0 ≤ tol) (hW : ∀ t < nT, ∀ i < nN, 0 ≤ W t i) (f : Fit K) :
    target lib lam nT nN (fun t i => TropRust.eta nT nN W * W t i) Y (TropFit.sweep (TropFit.fieldOps e r (code lib tol)) ptol nT nN lam Y W f)
      ≤ target lib lam nT nN (fun t i => TropRust.eta nT nN W * W t i) Y f + 10 * (nT * tol ^ 2 / 2) := by
  set o := TropFit.fieldOps e r (code lib tol) with ho
  set al := TropFit.alphaStep o nT Y W f with hal
  set be := TropFit.betaStep o nN Y W al f.L with hbe
  have hnn : TropFit.nnSolve o ptol nT nN lam Y W al be f.L
      = TropFit.inner o ptol nT nN lam (fun t i => TropRust.eta nT nN W * W t i) (TropFit.rMasked o Y W al be f.L) 10 f.L := by
    unfold TropFit.nnSolve
    rw [if_neg (by simp [ho, TropFit.fieldOps, hl])]
    congr 1
    funext t i
    exact wNorm_eq e r _ t i
  have h1 := inner_descent hg e r ptol hl ht (fun t i => TropRust.eta nT nN W * W t i) (TropFit.rMasked o Y W al be f.L)
    (fun t ht i hi => (TropRust.eta_mul W ht hi (hW t ht i hi)).2) 10 f.L
  rw [masked_loss e r hW, masked_loss e r hW] at h1
  have h2 := effects_descent hg e r hW (code lib tol) f (Y := Y)
  unfold target TropFit.sweep
  show loss nT nN _ Y ⟨al, be, TropFit.nnSolve o ptol nT nN lam Y W al be f.L⟩ / 2 + lam * norm lib nT nN (TropFit.nnSolve o ptol nT nN lam Y W al be f.L) ≤ _
  rw [hnn]
  have h3 := mul_le_mul_of_nonneg_left h2 (eta_pos (nT := nT) (nN := nN) (W := W)).le
  rw [← loss_mul, ← loss_mul] at h3
  push_cast at h1
  linarith

/-- C158. The whole fit for a target cell (Python): after any number of sweeps, stopped early or not, the penalised objective is at most its value
at zero effects and zero low-rank part, up to the cut-off. -/
theorem C158_loop (hl : 0 < lam) (ht : 0 ≤ tol) (hW : ∀ t < nT, ∀ i < nN, 0 ≤ W t i) (n : ℕ) : ∀ f : Fit K,
    target lib lam nT nN (fun t i => TropRust.eta nT nN W * W t i) Y (TropFit.loop (TropFit.fieldOps e r (code lib tol)) ptol nT nN lam Y W n f)
      ≤ target lib lam nT nN (fun t i => TropRust.eta nT nN W * W t i) Y f + n * (10 * (nT * tol ^ 2 / 2)) := by
  have hs : (0 : K) ≤ 10 * (nT * tol ^ 2 / 2) := by positivity
  induction n with
  | zero => intro f; simp [TropFit.loop]
  | succ n ih =>
    intro f
    have h1 := C158_sweep hg e r ptol hl ht hW f (Y := Y)
    have hn : (0 : K) ≤ n * (10 * (nT * tol ^ 2 / 2)) := mul_nonneg (Nat.cast_nonneg n) hs
    have ec : ((n + 1 : ℕ) : K) * (10 * (nT * tol ^ 2 / 2)) = n * (10 * (nT * tol ^ 2 / 2)) + 10 * (nT * tol ^ 2 / 2) := by push_cast; ring
    rw [ec]
    unfold TropFit.loop
    split_ifs
    · linarith
    · have h2 := ih (TropFit.sweep (TropFit.fieldOps e r (code lib tol)) ptol nT nN lam Y W f)
      linarith

/-- C158. The compiled sweep does not raise `½ Σ W (Y − α − β − L)² + λ‖L‖_*` (stated after division by the largest weight), up to the cut-off. -/
theorem C158_rust_sweep (hl : 0 < lam) (ht : 0 ≤ tol) (hW : ∀ t < nT, ∀ i < nN, 0 ≤ W t i) (f : Fit K) :
    TropRust.eta nT nN W * target lib lam nT nN W Y (TropRust.sweep ⟨e, r, code lib tol⟩ nT nN lam Y W f)
      ≤ TropRust.eta nT nN W * target lib lam nT nN W Y f + nT * tol ^ 2 / 2 := by
  have he := eta_pos (nT := nT) (nN := nN) (W := W)
  have hsum : ∀ (m : ℕ) (g : ℕ → K), ((List.range m).map g).sum = ∑ t ∈ Finset.range m, g t := fun m g => by
    rw [Finset.sum_eq_multiset_sum]; rfl
  unfold TropRust.sweep
  have h1 := loss_alpha (Y := Y) hW f (TropRust.alphaStep nT Y W f) (fun i _ hp => by
    unfold TropRust.alphaStep; rw [hsum, hsum, if_pos hp])
  generalize TropRust.alphaStep nT Y W f = al at h1 ⊢
  have h2 := loss_beta (Y := Y) hW { f with alpha := al } (TropRust.betaStep nN Y W al f) (fun t _ hp => by
    unfold TropRust.betaStep; rw [hsum, hsum, if_pos hp])
  generalize TropRust.betaStep nN Y W al f = be at h2 ⊢
  have h3 := step_descent hg (mul_pos he hl) ht nT nN (fun t i => TropRust.eta nT nN W * W t i) (fun t i => Y t i - al i - be t) f.L
    (fun t ht i hi => (TropRust.eta_mul W ht hi (hW t ht i hi)).2)
  have h0 : 0 ≤ (∑ t ∈ Finset.range nT, ∑ i ∈ Finset.range nN, (code lib 0 (TropRust.eta nT nN W * lam) nT nN
      (fun t i => f.L t i + TropRust.eta nT nN W * W t i * (Y t i - al i - be t - f.L t i)) t i - f.L t i) ^ 2) / 2 :=
    div_nonneg (Finset.sum_nonneg fun t _ => Finset.sum_nonneg fun i _ => sq_nonneg _) (by norm_num)
  have h3' := le_trans (le_add_of_nonneg_right h0) h3
  have hL : TropRust.lStep ⟨e, r, code lib tol⟩ nT nN lam Y W al be f.L
      = code lib tol (TropRust.eta nT nN W * lam) nT nN (fun t i => f.L t i + TropRust.eta nT nN W * W t i * (Y t i - al i - be t - f.L t i)) := by
    unfold TropRust.lStep TropRust.soft
    rw [if_neg (not_le.2 (mul_pos he hl))]
  rw [← hL] at h3'
  generalize TropRust.lStep ⟨e, r, code lib tol⟩ nT nN lam Y W al be f.L = A at h3' ⊢
  have e1 : ∀ X : ℕ → ℕ → K, ∑ t ∈ Finset.range nT, ∑ i ∈ Finset.range nN, TropRust.eta nT nN W * W t i * (Y t i - al i - be t - X t i) ^ 2
      = TropRust.eta nT nN W * loss nT nN W Y ⟨al, be, X⟩ := fun X =>
    loss_mul (nT := nT) (nN := nN) (W := W) (Y := Y) (TropRust.eta nT nN W) ⟨al, be, X⟩
  rw [e1, e1] at h3'
  have h5 : TropRust.eta nT nN W * loss nT nN W Y ⟨al, be, f.L⟩ ≤ TropRust.eta nT nN W * loss nT nN W Y f := mul_le_mul_of_nonneg_left (h2.trans h1) he.le
  unfold target
  dsimp only
  generalize loss nT nN W Y ⟨al, be, A⟩ = x1 at h3' ⊢
  generalize loss nT nN W Y ⟨al, be, f.L⟩ = x2 at h3' h5
  generalize loss nT nN W Y f = x3 at h5 ⊢
  generalize norm lib nT nN A = n1 at h3' ⊢
  generalize norm lib nT nN f.L = n2 at h3' ⊢
  linarith

/-! ### Fixed points -/

/-- At a fixed point of the low-rank step the nuclear norm has the residuals as subgradient. -/
theorem fixed_subgradient (hl : 0 < lam) (w R L : ℕ → ℕ → K)
    (hf : On nT nN (code lib 0 lam nT nN (fun t i => L t i + w t i * (R t i - L t i))) L) (L' : ℕ → ℕ → K) :
    lam * norm lib nT nN L ≤ lam * norm lib nT nN L'
      + ∑ t ∈ Finset.range nT, ∑ i ∈ Finset.range nN, w t i * (R t i - L t i) * (L t i - L' t i) := by
  have h := prox_ineq hg hl (le_refl (0 : K)) nT nN (fun t i => L t i + w t i * (R t i - L t i)) L'
  have e0 : norm lib nT nN (code lib 0 lam nT nN (fun t i => L t i + w t i * (R t i - L t i))) = norm lib nT nN L := norm_congr hg hf
  have e1 : ∑ t ∈ Finset.range nT, ∑ i ∈ Finset.range nN,
        (L t i + w t i * (R t i - L t i) - code lib 0 lam nT nN (fun t i => L t i + w t i * (R t i - L t i)) t i) ^ 2
      = ∑ t ∈ Finset.range nT, ∑ i ∈ Finset.range nN, (w t i * (R t i - L t i)) ^ 2 :=
    Finset.sum_congr rfl fun t ht => Finset.sum_congr rfl fun i hi => by rw [hf t (Finset.mem_range.1 ht) i (Finset.mem_range.1 hi)]; ring
  have e2 : ∑ t ∈ Finset.range nT, ∑ i ∈ Finset.range nN, (code lib 0 lam nT nN (fun t i => L t i + w t i * (R t i - L t i)) t i - L' t i) ^ 2
      = ∑ t ∈ Finset.range nT, ∑ i ∈ Finset.range nN, (L t i - L' t i) ^ 2 :=
    Finset.sum_congr rfl fun t ht => Finset.sum_congr rfl fun i hi => by rw [hf t (Finset.mem_range.1 ht) i (Finset.mem_range.1 hi)]
  have e3 : ∑ t ∈ Finset.range nT, ∑ i ∈ Finset.range nN, (L t i + w t i * (R t i - L t i) - L' t i) ^ 2
      = ∑ t ∈ Finset.range nT, ∑ i ∈ Finset.range nN, (w t i * (R t i - L t i)) ^ 2
        + 2 * ∑ t ∈ Finset.range nT, ∑ i ∈ Finset.range nN, w t i * (R t i - L t i) * (L t i - L' t i)
        + ∑ t ∈ Finset.range nT, ∑ i ∈ Finset.range nN, (L t i - L' t i) ^ 2 := by
    simp only [Finset.mul_sum, ← Finset.sum_add_distrib]
    exact Finset.sum_congr rfl fun t _ => Finset.sum_congr rfl fun i _ => by ring
  rw [e0, e1, e2, e3] at h
  have : (nT : K) * 0 ^ 2 / 2 = 0 := by ring
  rw [this] at h
  linarith

/-- Normal equations and the subgradient condition give a minimum over all fits. -/
theorem global_min (w : ℕ → ℕ → K) (hw : ∀ t < nT, ∀ i < nN, 0 ≤ w t i) (f : Fit K)
    (ha : ∀ i < nN, ∑ t ∈ Finset.range nT, w t i * (Y t i - f.alpha i - f.beta t - f.L t i) = 0)
    (hb : ∀ t < nT, ∑ i ∈ Finset.range nN, w t i * (Y t i - f.alpha i - f.beta t - f.L t i) = 0)
    (hs : ∀ L' : ℕ → ℕ → K, lam * norm lib nT nN f.L ≤ lam * norm lib nT nN L'
      + ∑ t ∈ Finset.range nT, ∑ i ∈ Finset.range nN, w t i * (Y t i - f.alpha i - f.beta t - f.L t i) * (f.L t i - L' t i)) (g : Fit K) :
    target lib lam nT nN w Y f ≤ target lib lam nT nN w Y g := by
  have h1 := hs g.L
  have e : ∑ t ∈ Finset.range nT, ∑ i ∈ Finset.range nN, w t i * (Y t i - f.alpha i - f.beta t - f.L t i)
        * ((f.alpha i - g.alpha i) + (f.beta t - g.beta t) + (f.L t i - g.L t i))
      = ∑ t ∈ Finset.range nT, ∑ i ∈ Finset.range nN, w t i * (Y t i - f.alpha i - f.beta t - f.L t i) * (f.L t i - g.L t i) := by
    simp only [mul_add, Finset.sum_add_distrib]
    have z1 : ∑ t ∈ Finset.range nT, ∑ i ∈ Finset.range nN, w t i * (Y t i - f.alpha i - f.beta t - f.L t i) * (f.alpha i - g.alpha i) = 0 := by
      rw [Finset.sum_comm]
      refine Finset.sum_eq_zero fun i hi => ?_
      rw [← Finset.sum_mul, ha i (Finset.mem_range.1 hi), zero_mul]
    have z2 : ∑ t ∈ Finset.range nT, ∑ i ∈ Finset.range nN, w t i * (Y t i - f.alpha i - f.beta t - f.L t i) * (f.beta t - g.beta t) = 0 := by
      refine Finset.sum_eq_zero fun t ht => ?_
      rw [← Finset.sum_mul, hb t (Finset.mem_range.1 ht), zero_mul]
    rw [z1, z2, zero_add, zero_add]
  have hc : loss nT nN w Y f + 2 * ∑ t ∈ Finset.range nT, ∑ i ∈ Finset.range nN, w t i * (Y t i - f.alpha i - f.beta t - f.L t i)
        * ((f.alpha i - g.alpha i) + (f.beta t - g.beta t) + (f.L t i - g.L t i)) ≤ loss nT nN w Y g := by
    unfold loss
    simp only [Finset.mul_sum, ← Finset.sum_add_distrib]
    refine Finset.sum_le_sum fun t ht => Finset.sum_le_sum fun i hi => ?_
    have := mul_nonneg (hw t (Finset.mem_range.1 ht) i (Finset.mem_range.1 hi))
      (sq_nonneg ((f.alpha i - g.alpha i) + (f.beta t - g.beta t) + (f.L t i - g.L t i)))
    nlinarith [this]
  rw [e] at hc
  unfold target
  linarith

/-- Steps that do not change the objective do not change the matrix. -/
theorem inner_fixed (hl : 0 < lam) (w R : ℕ → ℕ → K) (hw : ∀ t < nT, ∀ i < nN, w t i ≤ 1) (n : ℕ) (L : ℕ → ℕ → K)
    (hf : On nT nN (TropFit.inner (TropFit.fieldOps e r (code lib 0)) ptol nT nN lam w R (n + 1) L) L) :
    On nT nN (code lib 0 lam nT nN (fun t i => L t i + w t i * (R t i - L t i))) L := by
  have ep : TropFit.proxStep (TropFit.fieldOps e r (code lib 0)) nT nN lam w R L = code lib 0 lam nT nN (fun t i => L t i + w t i * (R t i - L t i)) := rfl
  unfold TropFit.inner at hf
  rw [ep] at hf
  by_cases hc : (TropFit.fieldOps e r (code lib 0)).lt (TropFit.matDiff (TropFit.fieldOps e r (code lib 0)) nT nN
        (code lib 0 lam nT nN (fun t i => L t i + w t i * (R t i - L t i))) L) ptol = true
  · rwa [if_pos hc] at hf
  · rw [if_neg hc] at hf
    have h1 := step_descent hg hl (le_refl (0 : K)) nT nN w R L hw
    have h2 := inner_descent hg e r ptol hl (le_refl (0 : K)) w R hw n (code lib 0 lam nT nN (fun t i => L t i + w t i * (R t i - L t i)))
    rw [norm_congr hg hf] at h2
    have e2 : ∑ t ∈ Finset.range nT, ∑ i ∈ Finset.range nN, w t i * (R t i - TropFit.inner (TropFit.fieldOps e r (code lib 0)) ptol nT nN lam w R n
          (code lib 0 lam nT nN (fun t i => L t i + w t i * (R t i - L t i))) t i) ^ 2
        = ∑ t ∈ Finset.range nT, ∑ i ∈ Finset.range nN, w t i * (R t i - L t i) ^ 2 :=
      Finset.sum_congr rfl fun t ht => Finset.sum_congr rfl fun i hi => by rw [hf t (Finset.mem_range.1 ht) i (Finset.mem_range.1 hi)]
    rw [e2] at h2
    generalize code lib 0 lam nT nN (fun t i => L t i + w t i * (R t i - L t i)) = A at h1 h2 ⊢
    have z : (nT : K) * 0 ^ 2 / 2 = 0 := by ring
    rw [z] at h1 h2
    have h3 : ∑ t ∈ Finset.range nT, ∑ i ∈ Finset.range nN, (A t i - L t i) ^ 2 ≤ 0 := by linarith
    have h4 : ∑ t ∈ Finset.range nT, ∑ i ∈ Finset.range nN, (A t i - L t i) ^ 2 = 0 :=
      le_antisymm h3 (Finset.sum_nonneg fun t _ => Finset.sum_nonneg fun i _ => sq_nonneg _)
    intro t ht i hi
    have h5 := (Finset.sum_eq_zero_iff_of_nonneg fun t _ => Finset.sum_nonneg fun i _ => sq_nonneg _).1 h4 t (Finset.mem_range.2 ht)
    have h6 := (Finset.sum_eq_zero_iff_of_nonneg fun i _ => sq_nonneg _).1 h5 i (Finset.mem_range.2 hi)
    exact sub_eq_zero.1 (pow_eq_zero_iff two_ne_zero |>.1 h6)

omit hg in
/-- The normal equation of a weighted mean. -/
theorem mean_normal (n : ℕ) (w z : ℕ → K) (hw : ∀ i < n, 0 ≤ w i) (m : K)
    (hm : 0 < ∑ i ∈ Finset.range n, w i → m = (∑ i ∈ Finset.range n, w i * z i) / ∑ i ∈ Finset.range n, w i) :
    ∑ i ∈ Finset.range n, w i * (z i - m) = 0 := by
  have h0 : 0 ≤ ∑ i ∈ Finset.range n, w i := Finset.sum_nonneg fun i hi => hw i (Finset.mem_range.1 hi)
  rcases h0.eq_or_lt with h | h
  · have := (Finset.sum_eq_zero_iff_of_nonneg fun i hi => hw i (Finset.mem_range.1 hi)).1 h.symm
    exact Finset.sum_eq_zero fun i hi => by rw [this i hi, zero_mul]
  · simp only [mul_sub, Finset.sum_sub_distrib, ← Finset.sum_mul]
    rw [hm h, mul_div_cancel₀ _ h.ne', sub_self]

/-- C158. If a sweep (Python, cut-off 0) leaves the fit on the panel unchanged, the fit minimises `½ Σ (W / max W)(Y − α − β − L)² + λ‖L‖_*` over all
effects and all matrices: the alternating minimisation has no spurious resting points. -/
theorem C158_fixed_point (hl : 0 < lam) (hW : ∀ t < nT, ∀ i < nN, 0 ≤ W t i) (f : Fit K)
    (hfa : ∀ i < nN, (TropFit.sweep (TropFit.fieldOps e r (code lib 0)) ptol nT nN lam Y W f).alpha i = f.alpha i)
    (hfb : ∀ t < nT, (TropFit.sweep (TropFit.fieldOps e r (code lib 0)) ptol nT nN lam Y W f).beta t = f.beta t)
    (hfl : On nT nN (TropFit.sweep (TropFit.fieldOps e r (code lib 0)) ptol nT nN lam Y W f).L f.L) (g : Fit K) :
    target lib lam nT nN (fun t i => TropRust.eta nT nN W * W t i) Y f ≤ target lib lam nT nN (fun t i => TropRust.eta nT nN W * W t i) Y g := by
  have he := eta_pos (nT := nT) (nN := nN) (W := W)
  have ha : ∀ i < nN, TropFit.alphaStep (TropFit.fieldOps e r (code lib 0)) nT Y W f i = f.alpha i := hfa
  have hb : ∀ t < nT, TropFit.betaStep (TropFit.fieldOps e r (code lib 0)) nN Y W (TropFit.alphaStep (TropFit.fieldOps e r (code lib 0)) nT Y W f) f.L t
      = f.beta t := hfb
  have hL : On nT nN (TropFit.nnSolve (TropFit.fieldOps e r (code lib 0)) ptol nT nN lam Y W (TropFit.alphaStep (TropFit.fieldOps e r (code lib 0)) nT Y W f)
      (TropFit.betaStep (TropFit.fieldOps e r (code lib 0)) nN Y W (TropFit.alphaStep (TropFit.fieldOps e r (code lib 0)) nT Y W f) f.L) f.L) f.L := hfl
  have na : ∀ i < nN, ∑ t ∈ Finset.range nT, W t i * (Y t i - f.alpha i - f.beta t - f.L t i) = 0 := by
    intro i hi
    have := mean_normal nT (fun t => W t i) (fun t => Y t i - f.L t i - f.beta t) (fun t ht => hW t ht i hi) (f.alpha i) (fun hp => by
      rw [← ha i hi, TropFit.alphaStep_eq, if_pos hp])
    rw [← this]
    exact Finset.sum_congr rfl fun t _ => by ring
  have nb : ∀ t < nT, ∑ i ∈ Finset.range nN, W t i * (Y t i - f.alpha i - f.beta t - f.L t i) = 0 := by
    intro t ht
    have := mean_normal nN (fun i => W t i) (fun i => Y t i - f.L t i - f.alpha i) (fun i hi => hW t ht i hi) (f.beta t) (fun hp => by
      rw [← hb t ht, TropFit.betaStep_eq, if_pos hp]
      congr 1
      exact Finset.sum_congr rfl fun i hi => by rw [ha i (Finset.mem_range.1 hi)])
    rw [← this]
    exact Finset.sum_congr rfl fun t _ => by ring
  generalize TropFit.alphaStep (TropFit.fieldOps e r (code lib 0)) nT Y W f = al at ha hb hL
  generalize TropFit.betaStep (TropFit.fieldOps e r (code lib 0)) nN Y W al f.L = be at hb hL
  have hnn : TropFit.nnSolve (TropFit.fieldOps e r (code lib 0)) ptol nT nN lam Y W al be f.L
      = TropFit.inner (TropFit.fieldOps e r (code lib 0)) ptol nT nN lam (fun t i => TropRust.eta nT nN W * W t i)
        (TropFit.rMasked (TropFit.fieldOps e r (code lib 0)) Y W al be f.L) (9 + 1) f.L := by
    unfold TropFit.nnSolve
    rw [if_neg (by simp [TropFit.fieldOps, hl])]
    congr 1
    funext t i
    exact wNorm_eq e r _ t i
  rw [hnn] at hL
  have hfix := inner_fixed hg e r ptol hl _ _ (fun t ht i hi => (TropRust.eta_mul W ht hi (hW t ht i hi)).2) 9 f.L hL
  have hsub := fixed_subgradient hg hl _ _ _ hfix
  refine global_min hg (fun t i => TropRust.eta nT nN W * W t i) (fun t ht i hi => mul_nonneg he.le (hW t ht i hi)) f ?_ ?_ ?_ g
  · intro i hi
    simp only [mul_assoc]
    rw [← Finset.mul_sum, na i hi, mul_zero]
  · intro t ht
    simp only [mul_assoc]
    rw [← Finset.mul_sum, nb t ht, mul_zero]
  · intro L'
    refine (hsub L').trans (le_of_eq ?_)
    congr 1
    refine Finset.sum_congr rfl fun t ht => Finset.sum_congr rfl fun i hi => ?_
    have ht := Finset.mem_range.1 ht
    have hi := Finset.mem_range.1 hi
    rw [TropFit.rMasked_eq]
    split_ifs with h
    · rw [ha i hi, hb t ht]
    · have : W t i = 0 := le_antisymm (not_lt.1 h) (hW t ht i hi)
      rw [this, mul_zero, zero_mul, zero_mul, zero_mul, zero_mul]

/-- C158. If a sweep of the compiled code (cut-off 0) leaves the fit on the panel unchanged, the fit minimises `½ Σ W (Y − α − β − L)² + λ‖L‖_*`. -/
theorem C158_rust_fixed_point (hl : 0 < lam) (hW : ∀ t < nT, ∀ i < nN, 0 ≤ W t i) (f : Fit K)
    (hfa : ∀ i < nN, (TropRust.sweep ⟨e, r, code lib 0⟩ nT nN lam Y W f).alpha i = f.alpha i)
    (hfb : ∀ t < nT, (TropRust.sweep ⟨e, r, code lib 0⟩ nT nN lam Y W f).beta t = f.beta t)
    (hfl : On nT nN (TropRust.sweep ⟨e, r, code lib 0⟩ nT nN lam Y W f).L f.L) (g : Fit K) :
    target lib lam nT nN W Y f ≤ target lib lam nT nN W Y g := by
  have he := eta_pos (nT := nT) (nN := nN) (W := W)
  have hsum : ∀ (m : ℕ) (g : ℕ → K), ((List.range m).map g).sum = ∑ t ∈ Finset.range m, g t := fun m g => by
    rw [Finset.sum_eq_multiset_sum]; rfl
  have ha : ∀ i < nN, TropRust.alphaStep nT Y W f i = f.alpha i := hfa
  have hb : ∀ t < nT, TropRust.betaStep nN Y W (TropRust.alphaStep nT Y W f) f t = f.beta t := hfb
  have hL : On nT nN (TropRust.lStep ⟨e, r, code lib 0⟩ nT nN lam Y W (TropRust.alphaStep nT Y W f)
      (TropRust.betaStep nN Y W (TropRust.alphaStep nT Y W f) f) f.L) f.L := hfl
  have na : ∀ i < nN, ∑ t ∈ Finset.range nT, W t i * (Y t i - f.alpha i - f.beta t - f.L t i) = 0 := by
    intro i hi
    have := mean_normal nT (fun t => W t i) (fun t => Y t i - f.L t i - f.beta t) (fun t ht => hW t ht i hi) (f.alpha i) (fun hp => by
      rw [← ha i hi]; unfold TropRust.alphaStep; rw [hsum, hsum, if_pos hp])
    rw [← this]
    exact Finset.sum_congr rfl fun t _ => by ring
  have nb : ∀ t < nT, ∑ i ∈ Finset.range nN, W t i * (Y t i - f.alpha i - f.beta t - f.L t i) = 0 := by
    intro t ht
    have := mean_normal nN (fun i => W t i) (fun i => Y t i - f.L t i - f.alpha i) (fun i hi => hW t ht i hi) (f.beta t) (fun hp => by
      rw [← hb t ht]; unfold TropRust.betaStep; rw [hsum, hsum, if_pos hp]
      congr 1
      exact Finset.sum_congr rfl fun i hi => by rw [ha i (Finset.mem_range.1 hi)])
    rw [← this]
    exact Finset.sum_congr rfl fun t _ => by ring
  generalize TropRust.alphaStep nT Y W f = al at ha hb hL
  generalize TropRust.betaStep nN Y W al f = be at hb hL
  have hfix : On nT nN (code lib 0 (TropRust.eta nT nN W * lam) nT nN
      (fun t i => f.L t i + TropRust.eta nT nN W * W t i * (Y t i - al i - be t - f.L t i))) f.L := by
    have e1 : TropRust.lStep ⟨e, r, code lib 0⟩ nT nN lam Y W al be f.L = code lib 0 (TropRust.eta nT nN W * lam) nT nN
        (fun t i => f.L t i + TropRust.eta nT nN W * W t i * (Y t i - al i - be t - f.L t i)) := by
      unfold TropRust.lStep TropRust.soft
      rw [if_neg (not_le.2 (mul_pos he hl))]
    rw [← e1]
    exact hL
  have hsub := fixed_subgradient hg (mul_pos he hl) (fun t i => TropRust.eta nT nN W * W t i) (fun t i => Y t i - al i - be t) f.L hfix
  have h := global_min hg (lam := TropRust.eta nT nN W * lam) (fun t i => TropRust.eta nT nN W * W t i)
    (fun t ht i hi => mul_nonneg he.le (hW t ht i hi)) f (Y := Y) (by
      intro i hi
      simp only [mul_assoc]
      rw [← Finset.mul_sum, na i hi, mul_zero]) (by
      intro t ht
      simp only [mul_assoc]
      rw [← Finset.mul_sum, nb t ht, mul_zero]) (by
      intro L'
      refine (hsub L').trans (le_of_eq ?_)
      congr 1
      refine Finset.sum_congr rfl fun t ht => Finset.sum_congr rfl fun i hi => ?_
      rw [ha i (Finset.mem_range.1 hi), hb t (Finset.mem_range.1 ht)]) g
  have e2 : ∀ f : Fit K, target lib (TropRust.eta nT nN W * lam) nT nN (fun t i => TropRust.eta nT nN W * W t i) Y f
      = TropRust.eta nT nN W * target lib lam nT nN W Y f := by
    intro f
    unfold target
    rw [loss_mul]
    ring
  rw [e2, e2] at h
  exact le_of_mul_le_mul_left h he

end

/-- C158. The fit of TROP for a target cell (Python), as `fit` computes it: its penalised objective is at most that of the fit by zeros,
`½ Σ (W / max W) Y²`, up to the cut-off. -/
theorem C158_estimate (e r : K → K) {tol : K} (ht : 0 ≤ tol) (c : Cfg K) (P : Data K) (W : ℕ → ℕ → K) (hW : ∀ t < P.nT, ∀ i < P.nN, 0 ≤ W t i) (lam : K) (hl : 0 < lam)
    (ex : Option (ℕ × ℕ)) (V : ℕ → ℕ → K) (hV : V = TropFit.wMasked (TropFit.fieldOps e r (code lib tol)) P ex W) :
    target lib lam P.nT P.nN (fun t i => TropRust.eta P.nT P.nN V * V t i) (TropFit.ySafe (TropFit.fieldOps e r (code lib tol)) P)
        (TropFit.estimate (TropFit.fieldOps e r (code lib tol)) c P W lam ex)
      ≤ (∑ t ∈ Finset.range P.nT, ∑ i ∈ Finset.range P.nN,
          TropRust.eta P.nT P.nN V * V t i * (TropFit.ySafe (TropFit.fieldOps e r (code lib tol)) P t i) ^ 2) / 2 + c.maxIter * (10 * (P.nT * tol ^ 2 / 2)) := by
  have hV0 : ∀ t < P.nT, ∀ i < P.nN, 0 ≤ V t i := by
    intro t ht i hi
    rw [hV]
    show 0 ≤ W t i * (if TropFit.valid P ex t i then (1 : K) else 0)
    split_ifs
    · rw [mul_one]; exact hW t ht i hi
    · rw [mul_zero]
  have h := C158_loop hg e r c.tol hl ht hV0 c.maxIter (Y := TropFit.ySafe (TropFit.fieldOps e r (code lib tol)) P)
    (TropFit.start (TropFit.fieldOps e r (code lib tol)))
  have hn : norm lib P.nT P.nN (fun _ _ => (0 : K)) = 0 := by
    unfold norm
    have h0 : IsThin (Matrix.of fun (_ : Fin P.nT) (_ : Fin P.nN) => (0 : K)) ⟨0, Matrix.of fun _ k => k.elim0, fun k => k.elim0, Matrix.of fun _ k => k.elim0⟩ :=
      { eq := by ext t i; simp [Matrix.mul_apply]
        uu := by ext k; exact k.elim0
        vv := by ext k; exact k.elim0
        nonneg := fun k => k.elim0 }
    rw [C157_nuclear_norm (hg _) h0]
    exact Finset.sum_empty
  have e1 : target lib lam P.nT P.nN (fun t i => TropRust.eta P.nT P.nN V * V t i) (TropFit.ySafe (TropFit.fieldOps e r (code lib tol)) P)
      (TropFit.start (TropFit.fieldOps e r (code lib tol)))
      = (∑ t ∈ Finset.range P.nT, ∑ i ∈ Finset.range P.nN,
          TropRust.eta P.nT P.nN V * V t i * (TropFit.ySafe (TropFit.fieldOps e r (code lib tol)) P t i) ^ 2) / 2 := by
    unfold target loss
    have : (TropFit.start (TropFit.fieldOps e r (code lib tol))).L = fun _ _ => (0 : K) := rfl
    rw [this, hn, mul_zero, add_zero]
    congr 1
    refine Finset.sum_congr rfl fun t _ => Finset.sum_congr rfl fun i _ => ?_
    show _ * (_ - (0 : K) - 0 - 0) ^ 2 = _
    rw [sub_zero, sub_zero, sub_zero]
  rw [e1, hV] at h
  rw [hV]
  exact h

end DiffDiff.TropDescent

namespace DiffDiff.TropDescent
open Matrix SoftSvd
open TropFit (Fit)

/-- One cell with outcome `x ≥ 0`: the nuclear norm is `x`. -/
theorem norm_one {lib : {p q : ℕ} → Matrix (Fin p) (Fin q) ℝ → Thin (Fin p) (Fin q) ℝ} (hg : Good lib) (L : ℕ → ℕ → ℝ) (h : 0 ≤ L 0 0) : norm lib 1 1 L = L 0 0 := by
  have hd : IsThin (Matrix.of fun (t : Fin 1) (i : Fin 1) => L t i) ⟨1, 1, fun _ => L 0 0, 1⟩ :=
    { eq := by ext t i; fin_cases t; fin_cases i; simp
      uu := by simp
      vv := by simp
      nonneg := fun _ => h }
  unfold norm
  rw [C157_nuclear_norm (hg _) hd]
  exact Fin.sum_univ_one _

theorem code_one {lib : {p q : ℕ} → Matrix (Fin p) (Fin q) ℝ → Thin (Fin p) (Fin q) ℝ} (hg : Good lib) (M : ℕ → ℕ → ℝ) (h : M 0 0 = 3)
    (thr : ℝ) (h0 : 0 < thr) (h1 : thr ≤ 2) : code lib (1 / 10000000000) thr 1 1 M 0 0 = 3 - thr := by
  have hd : IsThin (Matrix.of fun (t : Fin 1) (i : Fin 1) => M t i) ⟨1, 1, fun _ => M 0 0, 1⟩ :=
    { eq := by ext t i; fin_cases t; fin_cases i; simp
      uu := by simp
      vv := by simp
      nonneg := fun _ => by show 0 ≤ M 0 0; rw [h]; norm_num }
  unfold code
  rw [if_neg (not_le.2 h0)]
  dsimp only
  rw [dif_pos ⟨Nat.one_pos, Nat.one_pos⟩, C157_unique _ _ _ _ _ (hg _) hd, soft_eq h0, recon_apply]
  show ∑ k : Fin 1, _ = _
  rw [Fin.sum_univ_one]
  show (1 : Matrix (Fin 1) (Fin 1) ℝ) 0 0 * shrink thr (1 / 10000000000) (M 0 0) * (1 : Matrix (Fin 1) (Fin 1) ℝ) 0 0 = 3 - thr
  rw [one_apply_eq, one_mul, mul_one, h]
  unfold shrink
  rw [max_eq_left (by linarith), if_pos (by linarith)]

/-- One cell of weight `w > 0` and residual 3: the Python routine returns 2, whatever the weight. -/
theorem nnSolve_one {lib : {p q : ℕ} → Matrix (Fin p) (Fin q) ℝ → Thin (Fin p) (Fin q) ℝ} (hg : Good lib) (e r : ℝ → ℝ) (ptol : ℝ) (w : ℝ) (hw : 0 < w) :
    TropFit.nnSolve (TropFit.fieldOps e r (code lib (1 / 10000000000))) ptol 1 1 1 (fun _ _ => 3) (fun _ _ => w) (fun _ => 0) (fun _ => 0) (fun _ _ => 0) 0 0 = 2 := by
  have heta : TropRust.eta 1 1 (fun _ _ => w) * w = 1 := by
    have : TropRust.wMax 1 1 (fun _ _ => w) = w := by
      unfold TropRust.wMax
      simp [hw.le]
    unfold TropRust.eta
    rw [this, if_pos hw]
    field_simp
  have hin : ∀ (n : ℕ) (L : ℕ → ℕ → ℝ), TropFit.inner (TropFit.fieldOps e r (code lib (1 / 10000000000))) ptol 1 1 1 (fun _ _ => 1) (fun _ _ => 3) (n + 1) L 0 0 = 2 := by
    intro n
    induction n with
    | zero =>
      intro L
      have hp : TropFit.proxStep (TropFit.fieldOps e r (code lib (1 / 10000000000))) 1 1 1 (fun _ _ => 1) (fun _ _ => 3) L 0 0 = 2 := by
        have h := code_one hg (fun t i => L t i + 1 * (3 - L t i)) (by ring) 1 one_pos (by norm_num)
        rw [show (2 : ℝ) = 3 - 1 by norm_num, ← h]
        rfl
      unfold TropFit.inner
      split_ifs
      · exact hp
      · exact hp
    | succ n ih =>
      intro L
      have hp : TropFit.proxStep (TropFit.fieldOps e r (code lib (1 / 10000000000))) 1 1 1 (fun _ _ => 1) (fun _ _ => 3) L 0 0 = 2 := by
        have h := code_one hg (fun t i => L t i + 1 * (3 - L t i)) (by ring) 1 one_pos (by norm_num)
        rw [show (2 : ℝ) = 3 - 1 by norm_num, ← h]
        rfl
      unfold TropFit.inner
      split_ifs
      · exact hp
      · exact ih _
  unfold TropFit.nnSolve
  rw [if_neg (by simp [TropFit.fieldOps])]
  have e1 : TropFit.wNorm (TropFit.fieldOps e r (code lib (1 / 10000000000))) 1 1 (fun _ _ => w) = fun _ _ => 1 := by
    funext t i
    rw [wNorm_eq, heta]
  have e2 : TropFit.rMasked (TropFit.fieldOps e r (code lib (1 / 10000000000))) (fun _ _ => (3 : ℝ)) (fun _ _ => w) (fun _ => 0) (fun _ => 0) (fun _ _ => 0) = fun _ _ => 3 := by
    funext t i
    rw [TropFit.rMasked_eq, if_pos hw]
    norm_num
  rw [e1, e2]
  exact hin 9 _

/-- The documented objective `Σ W (R − L)² + λ‖L‖_*` (trop.py 2436-2437, 2498; trop.rs 628) is not what the low-rank step minimises: on one cell with
weight 1, residual 3 and λ = 1 the routine returns 2, where the documented objective is 3, while the value 5/2 gives 11/4. The routine minimises
`½ Σ (W / max W)(R − L)² + λ‖L‖_*` (`C158_fixed_point`): twice the documented penalty, and relative to the largest weight. -/
theorem C158_documented_objective_refuted (lib : {p q : ℕ} → Matrix (Fin p) (Fin q) ℝ → Thin (Fin p) (Fin q) ℝ) (hg : Good lib) (e r : ℝ → ℝ) (ptol : ℝ)
    (A : ℕ → ℕ → ℝ) (hA : A = TropFit.nnSolve (TropFit.fieldOps e r (code lib (1 / 10000000000))) ptol 1 1 1 (fun _ _ => 3) (fun _ _ => 1) (fun _ => 0) (fun _ => 0)
      (fun _ _ => 0)) :
    A 0 0 = 2 ∧ loss 1 1 (fun _ _ => 1) (fun _ _ => 3) ⟨fun _ => 0, fun _ => 0, fun _ _ => 5 / 2⟩ + 1 * norm lib 1 1 (fun _ _ => 5 / 2)
      < loss 1 1 (fun _ _ => 1) (fun _ _ => 3) ⟨fun _ => 0, fun _ => 0, A⟩ + 1 * norm lib 1 1 A := by
  have h2 : A 0 0 = 2 := by rw [hA]; exact nnSolve_one hg e r ptol 1 one_pos
  refine ⟨h2, ?_⟩
  rw [norm_one hg A (by rw [h2]; norm_num), norm_one hg _ (by norm_num), h2]
  unfold loss
  simp only [Finset.sum_range_one]
  rw [h2]
  norm_num

/-- The two backends penalise differently: on one cell of weight 1/2, residual 3 and λ = 1 the Python routine stays at 2 and the compiled step at 1,
because Python divides the weights by their maximum and keeps λ, while the compiled code thresholds at λ / max W. -/
theorem C158_backends_refuted (lib : {p q : ℕ} → Matrix (Fin p) (Fin q) ℝ → Thin (Fin p) (Fin q) ℝ) (hg : Good lib) (e r : ℝ → ℝ) (ptol : ℝ) (L : ℕ → ℕ → ℝ) :
    TropFit.nnSolve (TropFit.fieldOps e r (code lib (1 / 10000000000))) ptol 1 1 1 (fun _ _ => 3) (fun _ _ => 1 / 2) (fun _ => 0) (fun _ => 0) (fun _ _ => 0) 0 0 = 2 ∧
    TropRust.lStep ⟨e, r, code lib (1 / 10000000000)⟩ 1 1 1 (fun _ _ => 3) (fun _ _ => 1 / 2) (fun _ => 0) (fun _ => 0) L 0 0 = 1 := by
  refine ⟨nnSolve_one hg e r ptol _ (by norm_num), ?_⟩
  have heta : TropRust.eta 1 1 (fun _ _ => (1 / 2 : ℝ)) = 2 := by
    unfold TropRust.eta TropRust.wMax
    norm_num
  unfold TropRust.lStep TropRust.soft
  rw [heta, if_neg (by norm_num)]
  have := code_one hg (fun t i => L t i + 2 * (1 / 2) * (3 - 0 - 0 - L t i)) (by ring) (2 * 1) (by norm_num) (by norm_num)
  exact this.trans (by norm_num)

/-- The hypotheses can be met: a library over the reals and the weights of a panel with a treated cell. -/
example : ∃ lib : {p q : ℕ} → Matrix (Fin p) (Fin q) ℝ → Thin (Fin p) (Fin q) ℝ, Good lib ∧ ∀ (e r : ℝ → ℝ) (ptol : ℝ) (Y : ℕ → ℕ → ℝ) (f : Fit ℝ),
    target lib 1 3 2 (fun t i => TropRust.eta 3 2 (fun t i => if t = 2 ∧ i = 0 then 0 else 1) * (if t = 2 ∧ i = 0 then 0 else 1)) Y
        (TropFit.sweep (TropFit.fieldOps e r (code lib 0)) ptol 3 2 1 Y (fun t i => if t = 2 ∧ i = 0 then 0 else 1) f)
      ≤ target lib 1 3 2 (fun t i => TropRust.eta 3 2 (fun t i => if t = 2 ∧ i = 0 then 0 else 1) * (if t = 2 ∧ i = 0 then 0 else 1)) Y f := by
  obtain ⟨lib, hg⟩ := C157_library
  refine ⟨lib, hg, fun e r ptol Y f => ?_⟩
  have := C158_sweep hg e r ptol one_pos (le_refl (0 : ℝ)) (nT := 3) (nN := 2) (W := fun t i => if t = 2 ∧ i = 0 then 0 else 1) (Y := Y)
    (fun t _ i _ => by show (0 : ℝ) ≤ if t = 2 ∧ i = 0 then 0 else 1; split_ifs <;> norm_num) f
  simpa using this

/-- Zero outcomes: the fit by zeros is unchanged by a sweep. -/
example : ∃ lib : {p q : ℕ} → Matrix (Fin p) (Fin q) ℝ → Thin (Fin p) (Fin q) ℝ, Good lib ∧ code lib 0 1 3 2 (fun _ _ => (0 : ℝ)) = fun _ _ => 0 := by
  obtain ⟨lib, hg⟩ := C157_library
  exact ⟨lib, hg, C157_code_zero hg 0 1 3 2⟩

end DiffDiff.TropDescent
