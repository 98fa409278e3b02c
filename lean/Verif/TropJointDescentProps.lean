/-
Property C158 for the joint method of TROP: the penalised objective over intercept, unit effects, period effects, treatment effect and low-rank part.
-/
import Verif.TropDescentProps
import Verif.TropJointProps

set_option linter.unusedSectionVars false
set_option linter.unusedVariables false

namespace DiffDiff.TropJointDescent
open Matrix SoftSvd TropJoint
open TropDescent (norm On)

variable {K : Type*} [Field K] [LinearOrder K] [IsStrictOrderedRing K]

/-- `½ Σ W (Y − μ − α − β − τ D − L)² + λ‖L‖_*`. -/
def target (lib : {p q : ℕ} → Matrix (Fin p) (Fin q) K → Thin (Fin p) (Fin q) K) (lam : K) (nT nN : ℕ) (W Y : ℕ → ℕ → K) (D : ℕ → ℕ → ℤ) (s : Sol K)
    (L : ℕ → ℕ → K) : K :=
  (∑ t ∈ Finset.range nT, ∑ i ∈ Finset.range nN, W t i * (Y t i - s.mu - s.alpha i - s.beta t - s.tau * (D t i : K) - L t i) ^ 2) / 2 + lam * norm lib nT nN L

variable {lib : {p q : ℕ} → Matrix (Fin p) (Fin q) K → Thin (Fin p) (Fin q) K} (hg : Good lib) {tol lam : K} {nT nN : ℕ} {W Y : ℕ → ℕ → K} {D : ℕ → ℕ → ℤ}

theorem obj_sub (L : ℕ → ℕ → K) (s : Sol K) : obj nT nN W (fun t i => Y t i - L t i) D s
    = ∑ t ∈ Finset.range nT, ∑ i ∈ Finset.range nN, W t i * (Y t i - s.mu - s.alpha i - s.beta t - s.tau * (D t i : K) - L t i) ^ 2 := by
  unfold obj
  exact Finset.sum_congr rfl fun t _ => Finset.sum_congr rfl fun i _ => by ring

theorem isMin_sub (v : Env K) (hl : LeastSquares v.lstsq) (hr : SqrtLike v.r) (hT : 0 < nT) (hN : 0 < nN) (hW : ∀ t < nT, ∀ i < nN, 0 ≤ W t i)
    (L : ℕ → ℕ → K) (s : Sol K) (h : solve v nT nN (fun t i => some (Y t i - L t i)) D W = some s) :
    IsMin nT nN W (fun t i => Y t i - L t i) D s := by
  have := solve_isMin v hl hr nT nN hT hN _ D W hW s h
  have e : mask (fun t i => some (Y t i - L t i)) W = W := by
    funext t i
    simp [mask]
  rw [e] at this
  exact this

/-- The low-rank step as soft-thresholding with the step of the two-step method. -/
theorem lowStep_eq (v : Env K) (hv : v.svd = code lib tol) (s : Sol K) (L : ℕ → ℕ → K) : lowStep v nT nN Y W D lam s L
    = code lib tol (TropRust.eta nT nN W * lam) nT nN (fun t i => L t i + TropRust.eta nT nN W * W t i * (Y t i - s.mu - s.alpha i - s.beta t - s.tau * (D t i : K) - L t i)) := by
  unfold lowStep
  rw [hv]
  have e0 : (if 0 < wMax nT nN W then 1 / wMax nT nN W else 1) = TropRust.eta nT nN W := rfl
  rw [e0]
  congr 1
  funext t i
  have e1 : (if 0 < wMax nT nN W then W t i / wMax nT nN W else W t i) = TropRust.eta nT nN W * W t i := by
    rw [← e0]
    split_ifs
    · rw [div_eq_mul_one_div, mul_comm]
    · rw [one_mul]
  rw [e1]

include hg

/-- C158. One iteration of the joint method does not raise the objective, whatever parameters the low-rank part came with: the least-squares solve for
(μ, α, β, τ) and the low-rank step together. -/
theorem C158_joint_step (v : Env K) (hl : LeastSquares v.lstsq) (hr : SqrtLike v.r) (hv : v.svd = code lib tol) (ht : 0 ≤ tol) (hlam : 0 < lam)
    (hT : 0 < nT) (hN : 0 < nN) (hW : ∀ t < nT, ∀ i < nN, 0 ≤ W t i) (L : ℕ → ℕ → K) (s : Sol K)
    (h : solve v nT nN (fun t i => some (Y t i - L t i)) D W = some s) (s0 : Sol K) :
    TropRust.eta nT nN W * target lib lam nT nN W Y D s (lowStep v nT nN Y W D lam s L)
      ≤ TropRust.eta nT nN W * target lib lam nT nN W Y D s0 L + nT * tol ^ 2 / 2 := by
  have he := TropDescent.eta_pos (nT := nT) (nN := nN) (W := W)
  have hm := isMin_sub v hl hr hT hN hW L s h s0
  rw [obj_sub, obj_sub] at hm
  rw [lowStep_eq v hv]
  have h3 := TropDescent.step_descent hg (mul_pos he hlam) ht nT nN (fun t i => TropRust.eta nT nN W * W t i)
    (fun t i => Y t i - s.mu - s.alpha i - s.beta t - s.tau * (D t i : K)) L (fun t ht i hi => (TropRust.eta_mul W ht hi (hW t ht i hi)).2)
  have h0 : 0 ≤ (∑ t ∈ Finset.range nT, ∑ i ∈ Finset.range nN, (code lib 0 (TropRust.eta nT nN W * lam) nT nN (fun t i => L t i + TropRust.eta nT nN W * W t i
      * (Y t i - s.mu - s.alpha i - s.beta t - s.tau * (D t i : K) - L t i)) t i - L t i) ^ 2) / 2 :=
    div_nonneg (Finset.sum_nonneg fun t _ => Finset.sum_nonneg fun i _ => sq_nonneg _) (by norm_num)
  have h3' := le_trans (le_add_of_nonneg_right h0) h3
  generalize code lib tol (TropRust.eta nT nN W * lam) nT nN (fun t i => L t i + TropRust.eta nT nN W * W t i
      * (Y t i - s.mu - s.alpha i - s.beta t - s.tau * (D t i : K) - L t i)) = A at h3' ⊢
  have e1 : ∀ X : ℕ → ℕ → K, ∑ t ∈ Finset.range nT, ∑ i ∈ Finset.range nN, TropRust.eta nT nN W * W t i
        * (Y t i - s.mu - s.alpha i - s.beta t - s.tau * (D t i : K) - X t i) ^ 2
      = TropRust.eta nT nN W * ∑ t ∈ Finset.range nT, ∑ i ∈ Finset.range nN, W t i * (Y t i - s.mu - s.alpha i - s.beta t - s.tau * (D t i : K) - X t i) ^ 2 := by
    intro X
    simp only [Finset.mul_sum, mul_assoc]
  rw [e1, e1] at h3'
  have h5 := mul_le_mul_of_nonneg_left hm he.le
  unfold target
  generalize (∑ t ∈ Finset.range nT, ∑ i ∈ Finset.range nN, W t i * (Y t i - s.mu - s.alpha i - s.beta t - s.tau * (D t i : K) - A t i) ^ 2) = x1 at h3' ⊢
  generalize (∑ t ∈ Finset.range nT, ∑ i ∈ Finset.range nN, W t i * (Y t i - s.mu - s.alpha i - s.beta t - s.tau * (D t i : K) - L t i) ^ 2) = x2 at h3' h5
  generalize (∑ t ∈ Finset.range nT, ∑ i ∈ Finset.range nN, W t i * (Y t i - s0.mu - s0.alpha i - s0.beta t - s0.tau * (D t i : K) - L t i) ^ 2) = x3 at h5 ⊢
  generalize norm lib nT nN A = n1 at h3' ⊢
  generalize norm lib nT nN L = n2 at h3' ⊢
  generalize TropRust.eta nT nN W = η at h3' h5 ⊢
  nlinarith [h3', h5]

/-- Progress of one iteration (cut-off 0): the objective falls by at least half the squared change of the low-rank part. -/
theorem joint_progress (v : Env K) (hl : LeastSquares v.lstsq) (hr : SqrtLike v.r) (hv : v.svd = code lib 0) (hlam : 0 < lam)
    (hT : 0 < nT) (hN : 0 < nN) (hW : ∀ t < nT, ∀ i < nN, 0 ≤ W t i) (L : ℕ → ℕ → K) (s : Sol K)
    (h : solve v nT nN (fun t i => some (Y t i - L t i)) D W = some s) (s0 : Sol K) :
    TropRust.eta nT nN W * target lib lam nT nN W Y D s (lowStep v nT nN Y W D lam s L)
        + (∑ t ∈ Finset.range nT, ∑ i ∈ Finset.range nN, (lowStep v nT nN Y W D lam s L t i - L t i) ^ 2) / 2
      ≤ TropRust.eta nT nN W * target lib lam nT nN W Y D s0 L := by
  have he := TropDescent.eta_pos (nT := nT) (nN := nN) (W := W)
  have hm := isMin_sub v hl hr hT hN hW L s h s0
  rw [obj_sub, obj_sub] at hm
  rw [lowStep_eq v hv]
  have h3 := TropDescent.step_descent hg (mul_pos he hlam) (le_refl (0 : K)) nT nN (fun t i => TropRust.eta nT nN W * W t i)
    (fun t i => Y t i - s.mu - s.alpha i - s.beta t - s.tau * (D t i : K)) L (fun t ht i hi => (TropRust.eta_mul W ht hi (hW t ht i hi)).2)
  have z : (nT : K) * 0 ^ 2 / 2 = 0 := by ring
  rw [z, add_zero] at h3
  have h3' := h3
  generalize code lib 0 (TropRust.eta nT nN W * lam) nT nN (fun t i => L t i + TropRust.eta nT nN W * W t i
      * (Y t i - s.mu - s.alpha i - s.beta t - s.tau * (D t i : K) - L t i)) = A at h3' ⊢
  have e1 : ∀ X : ℕ → ℕ → K, ∑ t ∈ Finset.range nT, ∑ i ∈ Finset.range nN, TropRust.eta nT nN W * W t i
        * (Y t i - s.mu - s.alpha i - s.beta t - s.tau * (D t i : K) - X t i) ^ 2
      = TropRust.eta nT nN W * ∑ t ∈ Finset.range nT, ∑ i ∈ Finset.range nN, W t i * (Y t i - s.mu - s.alpha i - s.beta t - s.tau * (D t i : K) - X t i) ^ 2 := by
    intro X
    simp only [Finset.mul_sum, mul_assoc]
  rw [e1, e1] at h3'
  have h5 := mul_le_mul_of_nonneg_left hm he.le
  unfold target
  generalize (∑ t ∈ Finset.range nT, ∑ i ∈ Finset.range nN, W t i * (Y t i - s.mu - s.alpha i - s.beta t - s.tau * (D t i : K) - A t i) ^ 2) = x1 at h3' ⊢
  generalize (∑ t ∈ Finset.range nT, ∑ i ∈ Finset.range nN, W t i * (Y t i - s.mu - s.alpha i - s.beta t - s.tau * (D t i : K) - L t i) ^ 2) = x2 at h3' h5
  generalize (∑ t ∈ Finset.range nT, ∑ i ∈ Finset.range nN, W t i * (Y t i - s0.mu - s0.alpha i - s0.beta t - s0.tau * (D t i : K) - L t i) ^ 2) = x3 at h5 ⊢
  generalize (∑ t ∈ Finset.range nT, ∑ i ∈ Finset.range nN, (A t i - L t i) ^ 2) = x4 at h3' ⊢
  generalize norm lib nT nN A = n1 at h3' ⊢
  generalize norm lib nT nN L = n2 at h3' ⊢
  generalize TropRust.eta nT nN W = η at h3' h5 ⊢
  nlinarith [h3', h5]

theorem joint_loop (v : Env K) (hl : LeastSquares v.lstsq) (hr : SqrtLike v.r) (hv : v.svd = code lib tol) (ht : 0 ≤ tol) (hlam : 0 < lam)
    (hT : 0 < nT) (hN : 0 < nN) (hW : ∀ t < nT, ∀ i < nN, 0 ≤ W t i) (stop : K) (n : ℕ) (L A : ℕ → ℕ → K) (s : Sol K)
    (h : lowLoop v stop nT nN Y D W lam n L = some (s, A)) (s0 : Sol K) :
    TropRust.eta nT nN W * target lib lam nT nN W Y D s A
      ≤ TropRust.eta nT nN W * target lib lam nT nN W Y D s0 L + (n + 1 : ℕ) * (nT * tol ^ 2 / 2) := by
  have hs : (0 : K) ≤ nT * tol ^ 2 / 2 := div_nonneg (mul_nonneg (Nat.cast_nonneg _) (sq_nonneg _)) (by norm_num)
  induction n generalizing L s0 with
  | zero =>
    unfold lowLoop at h
    cases h1 : solve v nT nN (fun t i => some (Y t i - L t i)) D W with
    | none => rw [h1] at h; cases h
    | some s1 =>
      rw [h1] at h
      cases h
      have := C158_joint_step hg v hl hr hv ht hlam hT hN hW L s h1 s0
      push_cast
      linarith
  | succ n ih =>
    unfold lowLoop at h
    cases h1 : solve v nT nN (fun t i => some (Y t i - L t i)) D W with
    | none => rw [h1] at h; cases h
    | some s1 =>
      rw [h1] at h
      simp only at h
      have h2 := C158_joint_step hg v hl hr hv ht hlam hT hN hW L s1 h1 s0
      have hn : (0 : K) ≤ (n + 1 : ℕ) * (nT * tol ^ 2 / 2) := mul_nonneg (Nat.cast_nonneg _) hs
      have ec : ((n + 1 + 1 : ℕ) : K) * (nT * tol ^ 2 / 2) = (n + 1 : ℕ) * (nT * tol ^ 2 / 2) + nT * tol ^ 2 / 2 := by push_cast; ring
      rw [ec]
      split_ifs at h with hc
      · cases h
        linarith
      · have h3 := ih (lowStep v nT nN Y W D lam s1 L) h s1
        linarith

theorem target_zero (Ys : ℕ → ℕ → K) (s0 : Sol K) : target lib lam nT nN W Ys D s0 (fun _ _ => 0)
    = (∑ t ∈ Finset.range nT, ∑ i ∈ Finset.range nN, W t i * (Ys t i - s0.mu - s0.alpha i - s0.beta t - s0.tau * (D t i : K)) ^ 2) / 2 := by
  have hn : norm lib nT nN (fun _ _ => (0 : K)) = 0 := by
    unfold TropDescent.norm
    have h0 : IsThin (Matrix.of fun (_ : Fin nT) (_ : Fin nN) => (0 : K)) ⟨0, Matrix.of fun _ k => k.elim0, fun k => k.elim0, Matrix.of fun _ k => k.elim0⟩ :=
      { eq := by ext t i; simp [Matrix.mul_apply]
        uu := by ext k; exact k.elim0
        vv := by ext k; exact k.elim0
        nonneg := fun k => k.elim0 }
    rw [C157_nuclear_norm (hg _) h0]
    exact Finset.sum_empty
  unfold target
  rw [hn, mul_zero, add_zero]
  simp only [sub_zero]

/-- C158. The joint method: the returned fit is at least as good in the penalised objective as every fit of intercept, unit, period and treatment effects
without a low-rank part, up to the cut-off. -/
theorem C158_joint (v : Env K) (hl : LeastSquares v.lstsq) (hr : SqrtLike v.r) (hv : v.svd = code lib tol) (ht : 0 ≤ tol) (hlam : 0 < lam) (c : TropFit.Cfg K)
    (P : TropFit.Data K) (hT : 0 < P.nT) (hN : 0 < P.nN) (V : ℕ → ℕ → K) (hV : ∀ t < P.nT, ∀ i < P.nN, 0 ≤ V t i) (s : Sol K) (A : ℕ → ℕ → K)
    (h : solveLow v c P V lam = some (s, A)) (s0 : Sol K) :
    TropRust.eta P.nT P.nN (mask P.Y V) * target lib lam P.nT P.nN (mask P.Y V) (fun t i => (P.Y t i).getD 0) P.D s A
      ≤ TropRust.eta P.nT P.nN (mask P.Y V) * ((∑ t ∈ Finset.range P.nT, ∑ i ∈ Finset.range P.nN,
          mask P.Y V t i * ((P.Y t i).getD 0 - s0.mu - s0.alpha i - s0.beta t - s0.tau * (P.D t i : K)) ^ 2) / 2)
        + (c.maxIter - 1 + 1 : ℕ) * (P.nT * tol ^ 2 / 2) := by
  have hW : ∀ t < P.nT, ∀ i < P.nN, 0 ≤ mask P.Y V t i := by
    intro t ht i hi
    unfold mask
    split_ifs
    · exact hV t ht i hi
    · exact le_refl _
  have h1 := joint_loop hg v hl hr hv ht hlam hT hN hW c.tol (c.maxIter - 1) (fun _ _ => 0) A s h s0
  rw [target_zero hg] at h1
  exact h1

theorem target_nonneg (hlam : 0 < lam) (hW : ∀ t < nT, ∀ i < nN, 0 ≤ W t i) (s : Sol K) (L : ℕ → ℕ → K) : 0 ≤ target lib lam nT nN W Y D s L := by
  unfold target
  refine add_nonneg (div_nonneg (Finset.sum_nonneg fun t ht => Finset.sum_nonneg fun i hi =>
    mul_nonneg (hW t (Finset.mem_range.1 ht) i (Finset.mem_range.1 hi)) (sq_nonneg _)) (by norm_num)) (mul_nonneg hlam.le ?_)
  unfold TropDescent.norm nuc
  exact Finset.sum_nonneg fun k _ => (hg _).nonneg k

omit hg in
/-- An update that does not pass the convergence test changes some entry by at least the tolerance. -/
theorem big_of_not_settled (stop : K) (hs : 0 < stop) (A B : ℕ → ℕ → K) (h : settled nT nN stop A B = false) :
    stop ^ 2 ≤ ∑ t ∈ Finset.range nT, ∑ i ∈ Finset.range nN, (A t i - B t i) ^ 2 := by
  unfold settled at h
  rw [decide_eq_false_iff_not, not_lt] at h
  have key : ∀ l : List K, stop ≤ l.foldr max 0 → ∃ x ∈ l, stop ≤ x := by
    intro l
    induction l with
    | nil => intro h; exact absurd h (not_le.2 hs)
    | cons x l ih =>
      intro h
      rcases le_max_iff.1 (show stop ≤ max x (l.foldr max 0) from h) with h | h
      · exact ⟨x, List.mem_cons_self .., h⟩
      · obtain ⟨y, hy, h⟩ := ih h
        exact ⟨y, List.mem_cons_of_mem _ hy, h⟩
  obtain ⟨x, hx, hsx⟩ := key _ h
  obtain ⟨t, ht, hx⟩ := List.mem_flatMap.1 hx
  obtain ⟨i, hi, rfl⟩ := List.mem_map.1 hx
  have h1 : stop ^ 2 ≤ (A t i - B t i) ^ 2 := by
    rw [← sq_abs (A t i - B t i)]
    exact pow_le_pow_left₀ hs.le hsx 2
  have h2 : (A t i - B t i) ^ 2 ≤ ∑ i ∈ Finset.range nN, (A t i - B t i) ^ 2 :=
    Finset.single_le_sum (f := fun i => (A t i - B t i) ^ 2) (fun i _ => sq_nonneg _) (Finset.mem_range.2 (List.mem_range.1 hi))
  have h3 : ∑ i ∈ Finset.range nN, (A t i - B t i) ^ 2 ≤ ∑ t ∈ Finset.range nT, ∑ i ∈ Finset.range nN, (A t i - B t i) ^ 2 :=
    Finset.single_le_sum (f := fun t => ∑ i ∈ Finset.range nN, (A t i - B t i) ^ 2) (fun t _ => Finset.sum_nonneg fun i _ => sq_nonneg _)
      (Finset.mem_range.2 (List.mem_range.1 ht))
  exact h1.trans (h2.trans h3)

theorem joint_limit (v : Env K) (hl : LeastSquares v.lstsq) (hr : SqrtLike v.r) (hv : v.svd = code lib 0) (hlam : 0 < lam)
    (hT : 0 < nT) (hN : 0 < nN) (hW : ∀ t < nT, ∀ i < nN, 0 ≤ W t i) (stop : K) (hs : 0 < stop) (m n : ℕ) (L : ℕ → ℕ → K) (s0 : Sol K)
    (hn : 2 * (TropRust.eta nT nN W * target lib lam nT nN W Y D s0 L) < (n + 1 : ℕ) * stop ^ 2) :
    lowLoop v stop nT nN Y D W lam (n + m) L = lowLoop v stop nT nN Y D W lam n L := by
  have he := TropDescent.eta_pos (nT := nT) (nN := nN) (W := W)
  induction n generalizing L s0 with
  | zero =>
    cases m with
    | zero => rfl
    | succ m =>
      rw [Nat.zero_add]
      unfold lowLoop
      cases h1 : solve v nT nN (fun t i => some (Y t i - L t i)) D W with
      | none => rfl
      | some s1 =>
        simp only
        have h2 := joint_progress hg v hl hr hv hlam hT hN hW L s1 h1 s0
        have h3 := mul_nonneg he.le (target_nonneg hg (Y := Y) (D := D) hlam hW s1 (lowStep v nT nN Y W D lam s1 L))
        rw [if_pos]
        by_contra hc
        have h4 := big_of_not_settled stop hs _ _ (by simpa using hc)
        push_cast at hn
        linarith
  | succ n ih =>
    rw [Nat.succ_add]
    unfold lowLoop
    cases h1 : solve v nT nN (fun t i => some (Y t i - L t i)) D W with
    | none => rfl
    | some s1 =>
      simp only
      have h2 := joint_progress hg v hl hr hv hlam hT hN hW L s1 h1 s0
      split_ifs with hc
      · rfl
      · have h4 := big_of_not_settled stop hs _ _ (by simpa using hc)
        refine ih _ s1 ?_
        push_cast at hn ⊢
        linarith

/-- C158. The joint method settles (cut-off 0): once the iteration limit exceeds `Σ (W / max W)(Y − μ − α − β − τ D)² / tol²`, for any parameters, a larger limit
gives the same result, so the loop has stopped by its convergence test and not by the limit. -/
theorem C158_joint_settles (v : Env K) (hl : LeastSquares v.lstsq) (hr : SqrtLike v.r) (hv : v.svd = code lib 0) (hlam : 0 < lam) (c : TropFit.Cfg K) (hc : 0 < c.tol)
    (P : TropFit.Data K) (hT : 0 < P.nT) (hN : 0 < P.nN) (V : ℕ → ℕ → K) (hV : ∀ t < P.nT, ∀ i < P.nN, 0 ≤ V t i) (s0 : Sol K) (h0 : 0 < c.maxIter)
    (hn : TropRust.eta P.nT P.nN (mask P.Y V) * (∑ t ∈ Finset.range P.nT, ∑ i ∈ Finset.range P.nN,
          mask P.Y V t i * ((P.Y t i).getD 0 - s0.mu - s0.alpha i - s0.beta t - s0.tau * (P.D t i : K)) ^ 2) < c.maxIter * c.tol ^ 2) (m : ℕ) :
    solveLow v { c with maxIter := c.maxIter + m } P V lam = solveLow v c P V lam := by
  have hW : ∀ t < P.nT, ∀ i < P.nN, 0 ≤ mask P.Y V t i := by
    intro t ht i hi
    unfold mask
    split_ifs
    · exact hV t ht i hi
    · exact le_refl _
  have e1 : c.maxIter + m - 1 = (c.maxIter - 1) + m := by omega
  have e2 : c.maxIter - 1 + 1 = c.maxIter := by omega
  unfold solveLow
  simp only
  rw [e1]
  refine joint_limit hg v hl hr hv hlam hT hN hW c.tol hc m (c.maxIter - 1) _ s0 ?_
  rw [e2, target_zero hg]
  refine lt_of_eq_of_lt ?_ hn
  ring

omit hg in
/-- At a least-squares solution the weighted residuals are orthogonal to every direction. -/
theorem orth_of_isMin (y : ℕ → ℕ → K) (hW : ∀ t < nT, ∀ i < nN, 0 ≤ W t i) (s : Sol K) (h : IsMin nT nN W y D s) (d : Sol K) :
    ∑ t ∈ Finset.range nT, ∑ i ∈ Finset.range nN, W t i * (y t i - s.mu - s.alpha i - s.beta t - s.tau * (D t i : K))
      * (d.mu + d.alpha i + d.beta t + d.tau * (D t i : K)) = 0 := by
  set A := ∑ t ∈ Finset.range nT, ∑ i ∈ Finset.range nN, W t i * (y t i - s.mu - s.alpha i - s.beta t - s.tau * (D t i : K))
      * (d.mu + d.alpha i + d.beta t + d.tau * (D t i : K)) with hA
  set B := ∑ t ∈ Finset.range nT, ∑ i ∈ Finset.range nN, W t i * (d.mu + d.alpha i + d.beta t + d.tau * (D t i : K)) ^ 2 with hB
  have hB0 : 0 ≤ B := Finset.sum_nonneg fun t ht => Finset.sum_nonneg fun i hi =>
    mul_nonneg (hW t (Finset.mem_range.1 ht) i (Finset.mem_range.1 hi)) (sq_nonneg _)
  have key : ∀ c : K, 0 ≤ -2 * c * A + c ^ 2 * B := by
    intro c
    have h1 := h ⟨s.mu + c * d.mu, fun i => s.alpha i + c * d.alpha i, fun t => s.beta t + c * d.beta t, s.tau + c * d.tau⟩
    have e : obj nT nN W y D ⟨s.mu + c * d.mu, fun i => s.alpha i + c * d.alpha i, fun t => s.beta t + c * d.beta t, s.tau + c * d.tau⟩
        = obj nT nN W y D s + (-2 * c * A + c ^ 2 * B) := by
      rw [hA, hB]
      unfold obj
      simp only [Finset.mul_sum, ← Finset.sum_add_distrib]
      exact Finset.sum_congr rfl fun t _ => Finset.sum_congr rfl fun i _ => by ring
    rw [e] at h1
    linarith
  have h2 := key (A / (B + 1))
  have hp : 0 < B + 1 := by linarith
  have e2 : -2 * (A / (B + 1)) * A + (A / (B + 1)) ^ 2 * B = -(A ^ 2 * (B + 2)) / (B + 1) ^ 2 := by
    field_simp
    ring
  rw [e2] at h2
  have h3 : A ^ 2 * (B + 2) ≤ 0 := by
    by_contra hc
    push Not at hc
    have : -(A ^ 2 * (B + 2)) / (B + 1) ^ 2 < 0 := div_neg_of_neg_of_pos (by linarith) (by positivity)
    linarith
  have h4 : A ^ 2 = 0 := by nlinarith [sq_nonneg A]
  exact pow_eq_zero_iff (two_ne_zero) |>.1 h4

/-- C158. A resting point of the joint method (cut-off 0): if the low-rank step at the least-squares parameters for `L` returns `L`, then parameters and `L`
minimise the penalised objective over all intercepts, unit, period and treatment effects and all low-rank parts. -/
theorem C158_joint_fixed_point (v : Env K) (hl : LeastSquares v.lstsq) (hr : SqrtLike v.r) (hv : v.svd = code lib 0) (hlam : 0 < lam)
    (hT : 0 < nT) (hN : 0 < nN) (hW : ∀ t < nT, ∀ i < nN, 0 ≤ W t i) (L : ℕ → ℕ → K) (s : Sol K)
    (h : solve v nT nN (fun t i => some (Y t i - L t i)) D W = some s) (hf : On nT nN (lowStep v nT nN Y W D lam s L) L) (s' : Sol K) (L' : ℕ → ℕ → K) :
    target lib lam nT nN W Y D s L ≤ target lib lam nT nN W Y D s' L' := by
  have he := TropDescent.eta_pos (nT := nT) (nN := nN) (W := W)
  rw [lowStep_eq v hv] at hf
  have hs := TropDescent.fixed_subgradient hg (mul_pos he hlam) (fun t i => TropRust.eta nT nN W * W t i)
    (fun t i => Y t i - s.mu - s.alpha i - s.beta t - s.tau * (D t i : K)) L hf L'
  have ho := orth_of_isMin (fun t i => Y t i - L t i) hW s (isMin_sub v hl hr hT hN hW L s h)
    ⟨s.mu - s'.mu, fun i => s.alpha i - s'.alpha i, fun t => s.beta t - s'.beta t, s.tau - s'.tau⟩
  have e1 : ∑ t ∈ Finset.range nT, ∑ i ∈ Finset.range nN, TropRust.eta nT nN W * W t i
        * (Y t i - s.mu - s.alpha i - s.beta t - s.tau * (D t i : K) - L t i) * (L t i - L' t i)
      = TropRust.eta nT nN W * ∑ t ∈ Finset.range nT, ∑ i ∈ Finset.range nN, W t i
        * (Y t i - s.mu - s.alpha i - s.beta t - s.tau * (D t i : K) - L t i) * (L t i - L' t i) := by
    simp only [Finset.mul_sum, mul_assoc]
  rw [e1, mul_assoc, mul_assoc, ← mul_add] at hs
  have hs := le_of_mul_le_mul_left hs he
  have hc : ∑ t ∈ Finset.range nT, ∑ i ∈ Finset.range nN, W t i * (Y t i - s.mu - s.alpha i - s.beta t - s.tau * (D t i : K) - L t i) ^ 2
        + 2 * (∑ t ∈ Finset.range nT, ∑ i ∈ Finset.range nN, W t i * (Y t i - L t i - s.mu - s.alpha i - s.beta t - s.tau * (D t i : K))
            * ((s.mu - s'.mu) + (s.alpha i - s'.alpha i) + (s.beta t - s'.beta t) + (s.tau - s'.tau) * (D t i : K)))
        + 2 * (∑ t ∈ Finset.range nT, ∑ i ∈ Finset.range nN, W t i
            * (Y t i - s.mu - s.alpha i - s.beta t - s.tau * (D t i : K) - L t i) * (L t i - L' t i))
      ≤ ∑ t ∈ Finset.range nT, ∑ i ∈ Finset.range nN, W t i * (Y t i - s'.mu - s'.alpha i - s'.beta t - s'.tau * (D t i : K) - L' t i) ^ 2 := by
    simp only [Finset.mul_sum, ← Finset.sum_add_distrib]
    refine Finset.sum_le_sum fun t ht => Finset.sum_le_sum fun i hi => ?_
    have := mul_nonneg (hW t (Finset.mem_range.1 ht) i (Finset.mem_range.1 hi))
      (sq_nonneg ((s.mu - s'.mu) + (s.alpha i - s'.alpha i) + (s.beta t - s'.beta t) + (s.tau - s'.tau) * (D t i : K) + (L t i - L' t i)))
    nlinarith [this]
  rw [ho] at hc
  unfold target
  linarith

end DiffDiff.TropJointDescent

namespace DiffDiff.TropJointDescent
open SoftSvd TropJoint

/-- The hypotheses on the routines can be met over the reals, with weights of a panel of three periods and two units. -/
example : ∃ (lib : {p q : ℕ} → Matrix (Fin p) (Fin q) ℝ → Thin (Fin p) (Fin q) ℝ) (v : Env ℝ), Good lib ∧ LeastSquares v.lstsq ∧ SqrtLike v.r ∧ v.svd = code lib 0 ∧
    ∃ s, solve v 3 2 (fun _ _ => some (0 : ℝ)) (fun t i => if t = 2 ∧ i = 0 then 1 else 0) (fun _ _ => 1) = some s := by
  obtain ⟨lib, hg⟩ := C157_library
  obtain ⟨f, hf⟩ := exists_leastSquares (K := ℝ)
  refine ⟨lib, { e := id, r := Real.sqrt, svd := code lib 0, lstsq := f }, hg, hf, fun x hx => Real.mul_self_sqrt hx, rfl, ?_⟩
  unfold solve
  rw [if_neg (by norm_num [mask, List.range_succ])]
  exact ⟨_, rfl⟩

end DiffDiff.TropJointDescent
