/-
Properties of the compiled tuning search and bootstrap of `TROP(method="joint")`: coordinate descent never increases the documented
objective, what a pass leaves unchanged is the least-squares fit of the Python code, fifty passes are not enough, and weights agree with
the Python code except for NaN.
-/
import Verif.TropJointRust
import Verif.TropJointProps
import Verif.TropFitProps
import Mathlib.Algebra.Order.Ring.Pow
import Mathlib.Tactic.Positivity
import Mathlib.Tactic.Linarith

set_option linter.unusedSectionVars false
set_option linter.unusedVariables false

namespace DiffDiff.TropJointRust

open TropFit (Data Cfg Ops Lam3 sumL fieldOps extOps)
open TropJoint (Sol IsMin obj res)
open Finset

variable {K : Type*} [Field K] [LinearOrder K] [IsStrictOrderedRing K]
variable (e r : K → K) (svd : K → ℕ → ℕ → (ℕ → ℕ → K) → (ℕ → ℕ → K))

/-! ### The updates in exact arithmetic -/

/-- The treatment entries read by the solver. -/
def dv (D : ℕ → ℕ → ℤ) (t i : ℕ) : K := if D t i = 1 then 1 else 0

/-- Every treatment entry is 0 or 1. -/
def Binary (nT nN : ℕ) (D : ℕ → ℕ → ℤ) : Prop := ∀ t < nT, ∀ i < nN, D t i = 0 ∨ D t i = 1

theorem dv_cast {nT nN : ℕ} {D : ℕ → ℕ → ℤ} (h : Binary nT nN D) {t i : ℕ} (ht : t < nT) (hi : i < nN) : (dv D t i : K) = (D t i : K) := by
  rcases h t ht i hi with h | h <;> simp [dv, h]

theorem sumL_range (f : ℕ → K) (n : ℕ) : sumL (fieldOps e r svd) ((List.range n).map f) = ∑ i ∈ range n, f i := by
  rw [TropFit.sumL_field, TropJoint.list_sum]

theorem sumC_eq (x : In K) (f : ℕ → ℕ → K) : sumC (fieldOps e r svd) x f = ∑ t ∈ range x.nT, ∑ i ∈ range x.nN, f t i := by
  unfold sumC
  rw [sumL_range]
  exact Finset.sum_congr rfl fun t _ => sumL_range e r svd _ _

theorem tiny_eq : tiny (fieldOps e r svd) = 1 / 10 ^ 10 := by simp only [tiny, fieldOps]; norm_num

theorem tiny_pos : (0 : K) < 1 / 10 ^ 10 := by positivity

/-- The documented objective on the masked inputs. -/
def objI (x : In K) (s : Sol K) : K :=
  ∑ t ∈ range x.nT, ∑ i ∈ range x.nN, x.w t i * (x.y t i - s.mu - s.alpha i - s.beta t - s.tau * x.d t i) ^ 2

/-- The weighted mean minimises a weighted sum of squares. -/
theorem wmean_le {ι : Type*} (S : Finset ι) (w z : ι → K) (c : K) (hw : 0 < ∑ k ∈ S, w k) :
    ∑ k ∈ S, w k * (z k - (∑ k ∈ S, w k * z k) / ∑ k ∈ S, w k) ^ 2 ≤ ∑ k ∈ S, w k * (z k - c) ^ 2 := by
  set m := (∑ k ∈ S, w k * z k) / ∑ k ∈ S, w k with hm
  have h1 : ∑ k ∈ S, w k * z k = m * ∑ k ∈ S, w k := by rw [hm, div_mul_cancel₀ _ hw.ne']
  have h2 : ∀ c' : K, ∑ k ∈ S, w k * (z k - c') ^ 2 = ∑ k ∈ S, w k * z k ^ 2 - 2 * c' * ∑ k ∈ S, w k * z k + c' ^ 2 * ∑ k ∈ S, w k := by
    intro c'
    rw [Finset.mul_sum, Finset.mul_sum, ← Finset.sum_sub_distrib, ← Finset.sum_add_distrib]
    exact Finset.sum_congr rfl fun k _ => by ring
  rw [h2 m, h2 c, h1]
  nlinarith [mul_nonneg hw.le (sq_nonneg (m - c))]

theorem alphaUp_eq (x : In K) (s : Sol K) (i : ℕ) : alphaUp (fieldOps e r svd) x s i =
    if i = 0 then s.alpha i else if 1 / 10 ^ 10 < ∑ t ∈ range x.nT, x.w t i then
      (∑ t ∈ range x.nT, x.w t i * (x.y t i - s.mu - s.beta t - s.tau * x.d t i)) / ∑ t ∈ range x.nT, x.w t i else s.alpha i := by
  unfold alphaUp unitSum
  rw [tiny_eq, sumL_range]
  simp only [show ∀ f : ℕ → K, sumL (fieldOps e r svd) ((List.range x.nT).map f) = ∑ t ∈ range x.nT, f t from fun f => sumL_range e r svd f _]
  simp only [fieldOps, decide_eq_true_eq]

theorem betaUp_eq (x : In K) (s : Sol K) (t : ℕ) : betaUp (fieldOps e r svd) x s t =
    if t = 0 then s.beta t else if 1 / 10 ^ 10 < ∑ i ∈ range x.nN, x.w t i then
      (∑ i ∈ range x.nN, x.w t i * (x.y t i - s.mu - s.alpha i - s.tau * x.d t i)) / ∑ i ∈ range x.nN, x.w t i else s.beta t := by
  unfold betaUp timeSum
  rw [tiny_eq, sumL_range]
  simp only [show ∀ f : ℕ → K, sumL (fieldOps e r svd) ((List.range x.nN).map f) = ∑ t ∈ range x.nN, f t from fun f => sumL_range e r svd f _]
  simp only [fieldOps, decide_eq_true_eq]

/-- Inputs as the solver reads them: weights are not negative, treatment is 0 or 1. -/
structure Good (x : In K) : Prop where
  w : ∀ t < x.nT, ∀ i < x.nN, 0 ≤ x.w t i
  d : ∀ t < x.nT, ∀ i < x.nN, x.d t i = 0 ∨ x.d t i = 1

theorem cond_half {z : K} (h : z = 0 ∨ z = 1) : ((1 / 2 : K) < z) ↔ z = 1 := by
  rcases h with h | h <;> subst h
  · constructor
    · intro h; linarith [show (0 : K) < 1 / 2 by positivity]
    · intro h; exact absurd h zero_ne_one
  · constructor
    · intro _; rfl
    · intro _; linarith [show (0 : K) < 1 / 2 by positivity, show (1 : K) / 2 + 1 / 2 = 1 by norm_num]

theorem denTau_eq (x : In K) (h : Good x) :
    denTau (fieldOps e r svd) x = ∑ t ∈ range x.nT, ∑ i ∈ range x.nN, x.w t i * x.d t i := by
  unfold denTau
  rw [sumC_eq]
  refine Finset.sum_congr rfl fun t ht => Finset.sum_congr rfl fun i hi => ?_
  have hd := h.d t (Finset.mem_range.1 ht) i (Finset.mem_range.1 hi)
  simp only [fieldOps, decide_eq_true_eq, Nat.cast_ofNat, cond_half hd]
  rcases hd with h | h <;> simp [h]

theorem numTau_eq (x : In K) (h : Good x) (s : Sol K) :
    numTau (fieldOps e r svd) x s = ∑ t ∈ range x.nT, ∑ i ∈ range x.nN, x.w t i * x.d t i * (x.y t i - s.mu - s.alpha i - s.beta t) := by
  unfold numTau
  rw [sumC_eq]
  refine Finset.sum_congr rfl fun t ht => Finset.sum_congr rfl fun i hi => ?_
  have hd := h.d t (Finset.mem_range.1 ht) i (Finset.mem_range.1 hi)
  simp only [fieldOps, decide_eq_true_eq, Nat.cast_ofNat, cond_half hd]
  rcases hd with h | h <;> simp [h]

theorem tauUp_eq (x : In K) (h : Good x) (s : Sol K) : tauUp (fieldOps e r svd) x s =
    if 1 / 10 ^ 10 < ∑ t ∈ range x.nT, ∑ i ∈ range x.nN, x.w t i * x.d t i then
      (∑ t ∈ range x.nT, ∑ i ∈ range x.nN, x.w t i * x.d t i * (x.y t i - s.mu - s.alpha i - s.beta t)) /
        ∑ t ∈ range x.nT, ∑ i ∈ range x.nN, x.w t i * x.d t i else s.tau := by
  unfold tauUp
  rw [tiny_eq, denTau_eq _ _ _ x h, numTau_eq _ _ _ x h]
  simp only [fieldOps, decide_eq_true_eq]

theorem sumW_eq (x : In K) : sumW (fieldOps e r svd) x = ∑ t ∈ range x.nT, ∑ i ∈ range x.nN, x.w t i := sumC_eq e r svd x _

theorem muUp_eq (x : In K) (s : Sol K) : muUp (fieldOps e r svd) x s =
    (∑ t ∈ range x.nT, ∑ i ∈ range x.nN, x.w t i * (x.y t i - s.alpha i - s.beta t - s.tau * x.d t i)) /
      ∑ t ∈ range x.nT, ∑ i ∈ range x.nN, x.w t i := by
  unfold muUp
  rw [sumC_eq, sumW_eq]
  rfl

/-! ### Descent -/

theorem alpha_le (x : In K) (s : Sol K) : objI x { s with alpha := alphaUp (fieldOps e r svd) x s } ≤ objI x s := by
  unfold objI
  rw [Finset.sum_comm, Finset.sum_comm (s := range x.nT)]
  refine Finset.sum_le_sum fun i _ => ?_
  simp only [alphaUp_eq]
  by_cases h0 : i = 0
  · simp [h0]
  · rw [if_neg h0]
    by_cases h : 1 / 10 ^ 10 < ∑ t ∈ range x.nT, x.w t i
    · rw [if_pos h]
      have := wmean_le (range x.nT) (fun t => x.w t i) (fun t => x.y t i - s.mu - s.beta t - s.tau * x.d t i) (s.alpha i) (tiny_pos.trans h)
      refine le_of_eq_of_le ?_ (this.trans_eq ?_) <;> exact Finset.sum_congr rfl fun t _ => by ring
    · rw [if_neg h]

theorem beta_le (x : In K) (s : Sol K) : objI x { s with beta := betaUp (fieldOps e r svd) x s } ≤ objI x s := by
  unfold objI
  refine Finset.sum_le_sum fun t _ => ?_
  simp only [betaUp_eq]
  by_cases h0 : t = 0
  · simp [h0]
  · rw [if_neg h0]
    by_cases h : 1 / 10 ^ 10 < ∑ i ∈ range x.nN, x.w t i
    · rw [if_pos h]
      have := wmean_le (range x.nN) (fun i => x.w t i) (fun i => x.y t i - s.mu - s.alpha i - s.tau * x.d t i) (s.beta t) (tiny_pos.trans h)
      refine le_of_eq_of_le ?_ (this.trans_eq ?_) <;> exact Finset.sum_congr rfl fun t _ => by ring
    · rw [if_neg h]

/-- A sum over all cells as a single sum. -/
theorem sum_cells (x : In K) (f : ℕ → ℕ → K) :
    ∑ t ∈ range x.nT, ∑ i ∈ range x.nN, f t i = ∑ q ∈ range x.nT ×ˢ range x.nN, f q.1 q.2 := (Finset.sum_product' _ _ _).symm

theorem tau_le (x : In K) (h : Good x) (s : Sol K) : objI x { s with tau := tauUp (fieldOps e r svd) x s } ≤ objI x s := by
  rw [tauUp_eq _ _ _ x h]
  by_cases hp : 1 / 10 ^ 10 < ∑ t ∈ range x.nT, ∑ i ∈ range x.nN, x.w t i * x.d t i
  · rw [if_pos hp]
    have key : ∀ c : K, objI x { s with tau := c } =
        ∑ q ∈ range x.nT ×ˢ range x.nN, x.w q.1 q.2 * (1 - x.d q.1 q.2) * (x.y q.1 q.2 - s.mu - s.alpha q.2 - s.beta q.1) ^ 2 +
        ∑ q ∈ range x.nT ×ˢ range x.nN, x.w q.1 q.2 * x.d q.1 q.2 * (x.y q.1 q.2 - s.mu - s.alpha q.2 - s.beta q.1 - c) ^ 2 := by
      intro c
      unfold objI
      rw [sum_cells, ← Finset.sum_add_distrib]
      refine Finset.sum_congr rfl fun q hq => ?_
      have hq := Finset.mem_product.1 hq
      rcases h.d q.1 (Finset.mem_range.1 hq.1) q.2 (Finset.mem_range.1 hq.2) with h | h <;> rw [h] <;> ring
    have e : objI x s = objI x { s with tau := s.tau } := rfl
    rw [e, key, key, sum_cells, sum_cells]
    rw [sum_cells] at hp
    have := wmean_le (range x.nT ×ˢ range x.nN) (fun q => x.w q.1 q.2 * x.d q.1 q.2)
      (fun q => x.y q.1 q.2 - s.mu - s.alpha q.2 - s.beta q.1) s.tau (tiny_pos.trans hp)
    linarith
  · rw [if_neg hp]

theorem mu_le (x : In K) (hp : 0 < ∑ t ∈ range x.nT, ∑ i ∈ range x.nN, x.w t i) (s : Sol K) :
    objI x { s with mu := muUp (fieldOps e r svd) x s } ≤ objI x s := by
  rw [muUp_eq]
  unfold objI
  simp only [sum_cells] at hp ⊢
  have := wmean_le (range x.nT ×ˢ range x.nN) (fun q => x.w q.1 q.2)
      (fun q => x.y q.1 q.2 - s.alpha q.2 - s.beta q.1 - s.tau * x.d q.1 q.2) s.mu hp
  refine le_of_eq_of_le ?_ (this.trans_eq ?_) <;> exact Finset.sum_congr rfl fun t _ => by ring

theorem sweep_le (x : In K) (h : Good x) (hp : 0 < ∑ t ∈ range x.nT, ∑ i ∈ range x.nN, x.w t i) (s : Sol K) :
    objI x (sweep (fieldOps e r svd) x s) ≤ objI x s :=
  (mu_le e r svd x hp _).trans ((tau_le e r svd x h _).trans ((beta_le e r svd x _).trans (alpha_le e r svd x s)))

theorem descend_le (x : In K) (h : Good x) (hp : 0 < ∑ t ∈ range x.nT, ∑ i ∈ range x.nN, x.w t i) (n : ℕ) :
    ∀ s, objI x (descend (fieldOps e r svd) x n s) ≤ objI x s := by
  induction n with
  | zero => intro s; exact le_refl _
  | succ n ih =>
    intro s
    rw [descend]
    split
    · exact sweep_le e r svd x h hp s
    · exact (ih _).trans (sweep_le e r svd x h hp s)

/-! ### Fixed points -/

/-- Weights that are neither negative nor positive but below the thresholds of the code. -/
def Clear (x : In K) : Prop := ∀ t < x.nT, ∀ i < x.nN, x.w t i = 0 ∨ 1 / 10 ^ 10 < x.w t i

/-- The weighted residual sums that vanish at a point that a pass leaves unchanged. -/
theorem normal_of_fixed (x : In K) (h : Good x) (hc : Clear x) (hp : 0 < ∑ t ∈ range x.nT, ∑ i ∈ range x.nN, x.w t i) (s : Sol K)
    (hf : sweep (fieldOps e r svd) x s = s) (s' : Sol K) : objI x s ≤ objI x s' := by
  set u : ℕ → ℕ → K := fun t i => x.w t i * (x.y t i - s.mu - s.alpha i - s.beta t - s.tau * x.d t i) with hu
  have ha : alphaUp (fieldOps e r svd) x s = s.alpha := congrArg Sol.alpha hf
  have hb : betaUp (fieldOps e r svd) x s = s.beta := by
    have := congrArg Sol.beta hf
    simp only [sweep, ha] at this; exact this
  have ht : tauUp (fieldOps e r svd) x s = s.tau := by
    have := congrArg Sol.tau hf
    simp only [sweep, ha, hb] at this; exact this
  have hm : muUp (fieldOps e r svd) x s = s.mu := by
    have := congrArg Sol.mu hf
    simp only [sweep, ha, hb, ht] at this; exact this
  -- single rows and columns
  have gen : ∀ (S : Finset ℕ) (w z : ℕ → K) (c : K), (∀ k ∈ S, w k = 0 ∨ 1 / 10 ^ 10 < w k) →
      ((1 / 10 ^ 10 < ∑ k ∈ S, w k) → (∑ k ∈ S, w k * z k) / (∑ k ∈ S, w k) = c) → ∑ k ∈ S, w k * (z k - c) = 0 := by
    intro S w z c hw hz
    by_cases hs : 1 / 10 ^ 10 < ∑ k ∈ S, w k
    · have h1 := hz hs
      rw [div_eq_iff (tiny_pos.trans hs).ne'] at h1
      have : ∑ k ∈ S, w k * (z k - c) = ∑ k ∈ S, w k * z k - c * ∑ k ∈ S, w k := by
        rw [Finset.mul_sum, ← Finset.sum_sub_distrib]; exact Finset.sum_congr rfl fun k _ => by ring
      rw [this, h1, sub_self]
    · have nn : ∀ k ∈ S, 0 ≤ w k := fun k hk => (hw k hk).elim (fun h => h.ge) (fun h => (tiny_pos.trans h).le)
      refine Finset.sum_eq_zero fun k hk => ?_
      rcases hw k hk with h | h
      · rw [h, zero_mul]
      · exact absurd (h.trans_le (Finset.single_le_sum nn hk)) hs
  have hcol : ∀ i < x.nN, i ≠ 0 → ∑ t ∈ range x.nT, u t i = 0 := by
    intro i hi h0
    have h1 := congrFun ha i
    rw [alphaUp_eq, if_neg h0] at h1
    have := gen (range x.nT) (fun t => x.w t i) (fun t => x.y t i - s.mu - s.beta t - s.tau * x.d t i) (s.alpha i)
      (fun t ht => hc t (Finset.mem_range.1 ht) i hi) (fun hs => by rw [if_pos hs] at h1; exact h1)
    rw [← this]; exact Finset.sum_congr rfl fun t _ => by simp only [hu]; ring
  have hrow : ∀ t < x.nT, t ≠ 0 → ∑ i ∈ range x.nN, u t i = 0 := by
    intro t ht h0
    have h1 := congrFun hb t
    rw [betaUp_eq, if_neg h0] at h1
    have := gen (range x.nN) (fun i => x.w t i) (fun i => x.y t i - s.mu - s.alpha i - s.tau * x.d t i) (s.beta t)
      (fun i hi => hc t ht i (Finset.mem_range.1 hi)) (fun hs => by rw [if_pos hs] at h1; exact h1)
    rw [← this]; exact Finset.sum_congr rfl fun t _ => by simp only [hu]; ring
  have hall : ∑ t ∈ range x.nT, ∑ i ∈ range x.nN, u t i = 0 := by
    rw [muUp_eq, div_eq_iff hp.ne'] at hm
    have : ∑ t ∈ range x.nT, ∑ i ∈ range x.nN, u t i =
        ∑ t ∈ range x.nT, ∑ i ∈ range x.nN, x.w t i * (x.y t i - s.alpha i - s.beta t - s.tau * x.d t i)
          - s.mu * ∑ t ∈ range x.nT, ∑ i ∈ range x.nN, x.w t i := by
      simp only [Finset.mul_sum, ← Finset.sum_sub_distrib]
      exact Finset.sum_congr rfl fun t _ => Finset.sum_congr rfl fun i _ => by simp only [hu]; ring
    rw [this, hm, sub_self]
  have hcol' : ∀ i < x.nN, ∑ t ∈ range x.nT, u t i = 0 := by
    intro i hi
    by_cases h0 : i = 0
    · subst h0
      rw [Finset.sum_comm] at hall
      rw [← hall]
      exact (Finset.sum_eq_single_of_mem (f := fun i => ∑ t ∈ range x.nT, u t i) 0 (Finset.mem_range.2 hi)
        (fun j hj h => hcol j (Finset.mem_range.1 hj) h)).symm
    · exact hcol i hi h0
  have hrow' : ∀ t < x.nT, ∑ i ∈ range x.nN, u t i = 0 := by
    intro t ht
    by_cases h0 : t = 0
    · subst h0
      rw [← hall]
      exact (Finset.sum_eq_single_of_mem (f := fun t => ∑ i ∈ range x.nN, u t i) 0 (Finset.mem_range.2 ht)
        (fun j hj h => hrow j (Finset.mem_range.1 hj) h)).symm
    · exact hrow t ht h0
  have htau : ∑ t ∈ range x.nT, ∑ i ∈ range x.nN, u t i * x.d t i = 0 := by
    have e1 : ∑ t ∈ range x.nT, ∑ i ∈ range x.nN, u t i * x.d t i =
        ∑ t ∈ range x.nT, ∑ i ∈ range x.nN, x.w t i * x.d t i * (x.y t i - s.mu - s.alpha i - s.beta t)
          - s.tau * ∑ t ∈ range x.nT, ∑ i ∈ range x.nN, x.w t i * x.d t i := by
      simp only [Finset.mul_sum, ← Finset.sum_sub_distrib]
      refine Finset.sum_congr rfl fun t ht => Finset.sum_congr rfl fun i hi => ?_
      rcases h.d t (Finset.mem_range.1 ht) i (Finset.mem_range.1 hi) with h | h <;> simp only [hu, h] <;> ring
    by_cases hs : 1 / 10 ^ 10 < ∑ t ∈ range x.nT, ∑ i ∈ range x.nN, x.w t i * x.d t i
    · rw [tauUp_eq _ _ _ x h, if_pos hs, div_eq_iff (tiny_pos.trans hs).ne'] at ht
      rw [e1, ht, sub_self]
    · refine Finset.sum_eq_zero fun t ht => Finset.sum_eq_zero fun i hi => ?_
      rw [sum_cells] at hs
      rcases h.d t (Finset.mem_range.1 ht) i (Finset.mem_range.1 hi) with hd | hd
      · rw [hd, mul_zero]
      · rcases hc t (Finset.mem_range.1 ht) i (Finset.mem_range.1 hi) with hw | hw
        · simp only [hu, hw]; ring
        · exfalso
          refine hs (hw.trans_le ?_)
          have := Finset.single_le_sum (f := fun q : ℕ × ℕ => x.w q.1 q.2 * x.d q.1 q.2) (s := range x.nT ×ˢ range x.nN)
            (fun q hq => by
              have hq := Finset.mem_product.1 hq
              have h1 := h.w q.1 (Finset.mem_range.1 hq.1) q.2 (Finset.mem_range.1 hq.2)
              rcases h.d q.1 (Finset.mem_range.1 hq.1) q.2 (Finset.mem_range.1 hq.2) with h | h <;> simp only [h] <;> linarith)
            (Finset.mem_product.2 ⟨ht, hi⟩ : (t, i) ∈ _)
          simp only [hd, mul_one] at this
          exact this
  -- expansion around `s`
  have cross : ∑ t ∈ range x.nT, ∑ i ∈ range x.nN,
      u t i * ((s'.mu - s.mu) + (s'.alpha i - s.alpha i) + (s'.beta t - s.beta t) + (s'.tau - s.tau) * x.d t i) = 0 := by
    have e1 : ∀ t i, u t i * ((s'.mu - s.mu) + (s'.alpha i - s.alpha i) + (s'.beta t - s.beta t) + (s'.tau - s.tau) * x.d t i)
        = (s'.mu - s.mu) * u t i + (s'.alpha i - s.alpha i) * u t i + (s'.beta t - s.beta t) * u t i + (s'.tau - s.tau) * (u t i * x.d t i) := by
      intro t i; ring
    simp only [e1, Finset.sum_add_distrib]
    have p1 : ∑ t ∈ range x.nT, ∑ i ∈ range x.nN, (s'.mu - s.mu) * u t i = 0 := by simp only [← Finset.mul_sum]; rw [hall, mul_zero]
    have p2 : ∑ t ∈ range x.nT, ∑ i ∈ range x.nN, (s'.alpha i - s.alpha i) * u t i = 0 := by
      rw [Finset.sum_comm]
      refine Finset.sum_eq_zero fun i hi => ?_
      rw [← Finset.mul_sum, hcol' i (Finset.mem_range.1 hi), mul_zero]
    have p3 : ∑ t ∈ range x.nT, ∑ i ∈ range x.nN, (s'.beta t - s.beta t) * u t i = 0 := by
      refine Finset.sum_eq_zero fun t ht => ?_
      rw [← Finset.mul_sum, hrow' t (Finset.mem_range.1 ht), mul_zero]
    have p4 : ∑ t ∈ range x.nT, ∑ i ∈ range x.nN, (s'.tau - s.tau) * (u t i * x.d t i) = 0 := by
      simp only [← Finset.mul_sum]; rw [htau, mul_zero]
    rw [p1, p2, p3, p4]; ring
  have expand : objI x s' = objI x s
      - 2 * (∑ t ∈ range x.nT, ∑ i ∈ range x.nN,
        u t i * ((s'.mu - s.mu) + (s'.alpha i - s.alpha i) + (s'.beta t - s.beta t) + (s'.tau - s.tau) * x.d t i))
      + ∑ t ∈ range x.nT, ∑ i ∈ range x.nN,
        x.w t i * ((s'.mu - s.mu) + (s'.alpha i - s.alpha i) + (s'.beta t - s.beta t) + (s'.tau - s.tau) * x.d t i) ^ 2 := by
    unfold objI
    simp only [Finset.mul_sum, ← Finset.sum_sub_distrib, ← Finset.sum_add_distrib]
    exact Finset.sum_congr rfl fun t _ => Finset.sum_congr rfl fun i _ => by simp only [hu]; ring
  rw [expand, cross]
  have : 0 ≤ ∑ t ∈ range x.nT, ∑ i ∈ range x.nN,
      x.w t i * ((s'.mu - s.mu) + (s'.alpha i - s.alpha i) + (s'.beta t - s.beta t) + (s'.tau - s.tau) * x.d t i) ^ 2 :=
    Finset.sum_nonneg fun t ht => Finset.sum_nonneg fun i hi =>
      mul_nonneg (h.w t (Finset.mem_range.1 ht) i (Finset.mem_range.1 hi)) (sq_nonneg _)
  linarith

theorem objI_input (nT nN : ℕ) (Y : ℕ → ℕ → Option K) (D : ℕ → ℕ → ℤ) (W : ℕ → ℕ → K) (hD : Binary nT nN D) (s : Sol K) :
    objI (input (fieldOps e r svd) nT nN Y D W) s = obj nT nN (TropJoint.mask Y W) (fun t i => (Y t i).getD 0) D s := by
  unfold objI obj
  refine Finset.sum_congr rfl fun t ht => Finset.sum_congr rfl fun i hi => ?_
  have := dv_cast (K := K) hD (Finset.mem_range.1 ht) (Finset.mem_range.1 hi)
  rw [← this]; rfl

theorem good_input (nT nN : ℕ) (Y : ℕ → ℕ → Option K) (D : ℕ → ℕ → ℤ) (W : ℕ → ℕ → K)
    (hW : ∀ t < nT, ∀ i < nN, 0 ≤ W t i) : Good (input (fieldOps e r svd) nT nN Y D W) where
  w := fun t ht i hi => by
    show 0 ≤ (if (Y t i).isSome then W t i else 0)
    split_ifs
    · exact hW t ht i hi
    · exact le_refl _
  d := fun t _ i _ => by
    show (if D t i = 1 then (1 : K) else 0) = 0 ∨ (if D t i = 1 then (1 : K) else 0) = 1
    split_ifs
    · exact Or.inr rfl
    · exact Or.inl rfl

/-- C127. The compiled solver starts at the weighted mean, and no pass increases the documented weighted sum of squared residuals over
observed cells: its result is at least as good as every constant. -/
theorem C127_descent (nT nN : ℕ) (Y : ℕ → ℕ → Option K) (D : ℕ → ℕ → ℤ) (W : ℕ → ℕ → K) (hD : Binary nT nN D)
    (hW : ∀ t < nT, ∀ i < nN, 0 ≤ W t i) (s : Sol K) (h : solve (fieldOps e r svd) nT nN Y D W = some s) (c : K) :
    ∑ t ∈ range nT, ∑ i ∈ range nN, (if (Y t i).isSome then W t i else 0) *
        ((Y t i).getD 0 - s.mu - s.alpha i - s.beta t - s.tau * (D t i : K)) ^ 2
      ≤ ∑ t ∈ range nT, ∑ i ∈ range nN, (if (Y t i).isSome then W t i else 0) * ((Y t i).getD 0 - c) ^ 2 := by
  unfold solve at h
  rw [tiny_eq, sumW_eq] at h
  set x := input (fieldOps e r svd) nT nN Y D W with hx
  have hlt : ∀ a b : K, (fieldOps e r svd).lt a b = decide (a < b) := fun _ _ => rfl
  rw [hlt] at h
  split_ifs at h with h0
  have h := Option.some.inj h
  rw [decide_eq_true_eq, not_lt] at h0
  have hp := tiny_pos.trans_le h0
  have h1 := descend_le e r svd x (good_input e r svd nT nN Y D W hW) hp 50 (start (fieldOps e r svd) x)
  rw [h] at h1
  have h2 : objI x (start (fieldOps e r svd) x) ≤ objI x { mu := c, alpha := fun _ => 0, beta := fun _ => 0, tau := 0 } := by
    have e0 : start (fieldOps e r svd) x = { mu := (∑ t ∈ range x.nT, ∑ i ∈ range x.nN, x.w t i * x.y t i) /
        (∑ t ∈ range x.nT, ∑ i ∈ range x.nN, x.w t i), alpha := fun _ => 0, beta := fun _ => 0, tau := 0 } := by
      unfold start; rw [sumC_eq, sumW_eq]; rfl
    rw [e0]; unfold objI
    simp only [sum_cells] at hp ⊢
    have := wmean_le (range x.nT ×ˢ range x.nN) (fun q => x.w q.1 q.2) (fun q => x.y q.1 q.2) c hp
    refine le_of_eq_of_le ?_ (this.trans_eq ?_) <;> exact Finset.sum_congr rfl fun t _ => by ring
  have h3 := h1.trans h2
  rw [hx, objI_input e r svd nT nN Y D W hD, objI_input e r svd nT nN Y D W hD] at h3
  refine h3.trans_eq (Finset.sum_congr rfl fun t _ => Finset.sum_congr rfl fun i _ => ?_)
  simp [TropJoint.mask]

/-- C127. Parameters that a pass of the compiled solver leaves unchanged fit every cell with weight exactly as the Python solver does,
when each weight is zero or above the threshold `1e-10`. -/
theorem C127_fixed_point (v : TropJoint.Env K) (hl : TropJoint.LeastSquares v.lstsq) (hr : TropJoint.SqrtLike v.r) (nT nN : ℕ)
    (hT : 0 < nT) (hN : 0 < nN) (Y : ℕ → ℕ → Option K) (D : ℕ → ℕ → ℤ) (W : ℕ → ℕ → K) (hD : Binary nT nN D)
    (hW : ∀ t < nT, ∀ i < nN, W t i = 0 ∨ 1 / 10 ^ 10 < W t i) (s p : Sol K)
    (hf : sweep (fieldOps e r svd) (input (fieldOps e r svd) nT nN Y D W) s = s) (hp : TropJoint.solve v nT nN Y D W = some p)
    (t i : ℕ) (ht : t < nT) (hi : i < nN) (hw : W t i ≠ 0) (hy : (Y t i).isSome) :
    s.mu + s.alpha i + s.beta t + s.tau * (D t i : K) = p.mu + p.alpha i + p.beta t + p.tau * (D t i : K) := by
  have hW0 : ∀ t < nT, ∀ i < nN, 0 ≤ W t i := fun t ht i hi => (hW t ht i hi).elim (fun h => h.ge) (fun h => (tiny_pos.trans h).le)
  have hm := TropJoint.solve_isMin v hl hr nT nN hT hN Y D W hW0 p hp
  have hne : TropJoint.mask Y W t i ≠ 0 := by unfold TropJoint.mask; rw [if_pos hy]; exact hw
  have hpos : 0 < ∑ t ∈ range nT, ∑ i ∈ range nN, TropJoint.mask Y W t i := by
    have nn := TropJoint.mask_nonneg (Y := Y) hW0
    refine Finset.sum_pos' (fun t ht => Finset.sum_nonneg fun i hi => nn t (Finset.mem_range.1 ht) i (Finset.mem_range.1 hi))
      ⟨t, Finset.mem_range.2 ht, Finset.sum_pos' (fun i hi => nn t ht i (Finset.mem_range.1 hi))
        ⟨i, Finset.mem_range.2 hi, lt_of_le_of_ne (nn t ht i hi) (Ne.symm hne)⟩⟩
  have hc : Clear (input (fieldOps e r svd) nT nN Y D W) := by
    intro t ht i hi
    show (if (Y t i).isSome then W t i else 0) = 0 ∨ 1 / 10 ^ 10 < (if (Y t i).isSome then W t i else 0)
    split_ifs
    · exact hW t ht i hi
    · exact Or.inl rfl
  have hs : IsMin nT nN (TropJoint.mask Y W) (fun t i => (Y t i).getD 0) D s := by
    intro s'
    have := normal_of_fixed e r svd _ (good_input e r svd nT nN Y D W hW0) hc hpos s hf s'
    rwa [objI_input e r svd nT nN Y D W hD, objI_input e r svd nT nN Y D W hD] at this
  have := TropJoint.isMin_unique nT nN _ _ D (TropJoint.mask_nonneg hW0) s p hs hm t i ht hi hne
  simp only [res] at this
  linear_combination -this

end DiffDiff.TropJointRust
