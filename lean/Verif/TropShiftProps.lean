/-
Properties of the TROP estimation, continued: C56 (stored score), C57 (variance replicates), C91 (level shifts), C92 (missing values),
C94 (alternating minimisation), C95 (exactness for unit levels).
-/
import Verif.TropFitProps

set_option linter.unusedSectionVars false

namespace DiffDiff.TropFit

section
variable {K : Type*} [Field K] [LinearOrder K] [IsStrictOrderedRing K]
variable (e r : K → K) (svd : K → ℕ → ℕ → (ℕ → ℕ → K) → (ℕ → ℕ → K))

/-! ### C94: the alternating steps -/

/-- Weighted sum of squared residuals of a two-way fit, given the factor matrix. -/
def wsse (nT nN : ℕ) (Y W L : ℕ → ℕ → K) (al be : ℕ → K) : K :=
  ∑ t ∈ Finset.range nT, ∑ i ∈ Finset.range nN, W t i * (Y t i - L t i - al i - be t) ^ 2

theorem wsse_comm (nT nN : ℕ) (Y W L : ℕ → ℕ → K) (al be : ℕ → K) :
    wsse nT nN Y W L al be = ∑ i ∈ Finset.range nN, ∑ t ∈ Finset.range nT, W t i * (Y t i - L t i - al i - be t) ^ 2 := by
  unfold wsse; exact Finset.sum_comm

/-- A weighted mean minimises the weighted sum of squares around it. -/
theorem mean_min (n : ℕ) (w z : ℕ → K) (hw : ∀ t, 0 ≤ w t) (a : K) :
    ∑ t ∈ Finset.range n, w t * (z t - (if 0 < ∑ t ∈ Finset.range n, w t then
      (∑ t ∈ Finset.range n, w t * z t) / ∑ t ∈ Finset.range n, w t else 0)) ^ 2 ≤ ∑ t ∈ Finset.range n, w t * (z t - a) ^ 2 := by
  by_cases h : 0 < ∑ t ∈ Finset.range n, w t
  · rw [if_pos h]
    set m := (∑ t ∈ Finset.range n, w t * z t) / ∑ t ∈ Finset.range n, w t with hm
    have h0 : ∑ t ∈ Finset.range n, w t * (z t - m) = 0 := by
      have : ∑ t ∈ Finset.range n, w t * (z t - m) = ∑ t ∈ Finset.range n, w t * z t - m * ∑ t ∈ Finset.range n, w t := by
        rw [Finset.mul_sum, ← Finset.sum_sub_distrib]
        exact Finset.sum_congr rfl (fun t _ => by ring)
      rw [this, hm]
      field_simp
      ring
    have h1 : ∑ t ∈ Finset.range n, w t * (z t - a) ^ 2 = ∑ t ∈ Finset.range n, w t * (z t - m) ^ 2 +
        2 * (m - a) * ∑ t ∈ Finset.range n, w t * (z t - m) + (m - a) ^ 2 * ∑ t ∈ Finset.range n, w t := by
      rw [Finset.mul_sum, Finset.mul_sum, ← Finset.sum_add_distrib, ← Finset.sum_add_distrib]
      exact Finset.sum_congr rfl (fun t _ => by ring)
    rw [h1, h0]
    have := mul_nonneg (sq_nonneg (m - a)) h.le
    linarith
  · have h0 : ∀ t ∈ Finset.range n, w t = 0 := by
      have : ∑ t ∈ Finset.range n, w t = 0 := le_antisymm (not_lt.1 h) (Finset.sum_nonneg (fun t _ => hw t))
      exact (Finset.sum_eq_zero_iff_of_nonneg (fun t _ => hw t)).1 this
    rw [Finset.sum_eq_zero (fun t ht => by rw [h0 t ht, zero_mul])]
    exact Finset.sum_nonneg (fun t _ => mul_nonneg (hw t) (sq_nonneg _))

/-- **C94.** The unit-effects update minimises the weighted sum of squares over all unit effects (time effects and factors fixed). -/
theorem C94_alpha_step (nT nN : ℕ) (Y W : ℕ → ℕ → K) (hW : ∀ t i, 0 ≤ W t i) (f : Fit K) (a : ℕ → K) :
    wsse nT nN Y W f.L (alphaStep (fieldOps e r svd) nT Y W f) f.beta ≤ wsse nT nN Y W f.L a f.beta := by
  rw [wsse_comm, wsse_comm]
  apply Finset.sum_le_sum
  intro i _
  have h := mean_min nT (fun t => W t i) (fun t => Y t i - f.L t i - f.beta t) (fun t => hW t i) (a i)
  rw [alphaStep_eq]
  refine le_trans (le_of_eq ?_) (h.trans (le_of_eq ?_))
  · exact Finset.sum_congr rfl (fun t _ => by ring)
  · exact Finset.sum_congr rfl (fun t _ => by ring)

/-- **C94.** The time-effects update minimises the weighted sum of squares over all time effects. -/
theorem C94_beta_step (nT nN : ℕ) (Y W L : ℕ → ℕ → K) (hW : ∀ t i, 0 ≤ W t i) (al b : ℕ → K) :
    wsse nT nN Y W L al (betaStep (fieldOps e r svd) nN Y W al L) ≤ wsse nT nN Y W L al b := by
  unfold wsse
  apply Finset.sum_le_sum
  intro t _
  have h := mean_min nN (fun i => W t i) (fun i => Y t i - L t i - al i) (fun i => hW t i) (b t)
  rw [betaStep_eq]
  exact h

/-- **C94.** Hence the fixed-effects part of a sweep never increases the weighted sum of squares. -/
theorem C94_descent (tol : K) (nT nN : ℕ) (lam : K) (Y W : ℕ → ℕ → K) (hW : ∀ t i, 0 ≤ W t i) (f : Fit K) :
    wsse nT nN Y W f.L (sweep (fieldOps e r svd) tol nT nN lam Y W f).alpha (sweep (fieldOps e r svd) tol nT nN lam Y W f).beta ≤
      wsse nT nN Y W f.L f.alpha f.beta :=
  (C94_beta_step e r svd nT nN Y W f.L hW _ f.beta).trans (C94_alpha_step e r svd nT nN Y W hW f f.alpha)

/-- **C94.** If a sweep leaves the fixed effects of the estimated units and periods unchanged, they solve the weighted two-way least
squares problem given the factor matrix: no other unit and time effects have a smaller weighted sum of squares. -/
theorem C94_fixed_point (tol : K) (nT nN : ℕ) (lam : K) (Y W : ℕ → ℕ → K) (hW : ∀ t i, 0 ≤ W t i) (f : Fit K)
    (hα : ∀ i < nN, (sweep (fieldOps e r svd) tol nT nN lam Y W f).alpha i = f.alpha i)
    (hβ : ∀ t < nT, (sweep (fieldOps e r svd) tol nT nN lam Y W f).beta t = f.beta t) (a b : ℕ → K) :
    wsse nT nN Y W f.L f.alpha f.beta ≤ wsse nT nN Y W f.L a b := by
  have foc1 : ∀ i < nN, ∑ t ∈ Finset.range nT, W t i * (Y t i - f.L t i - f.alpha i - f.beta t) = 0 := by
    intro i hi
    have h : alphaStep (fieldOps e r svd) nT Y W f i = f.alpha i := hα i hi
    rw [alphaStep_eq] at h
    by_cases hp : 0 < ∑ t ∈ Finset.range nT, W t i
    · rw [if_pos hp, div_eq_iff hp.ne'] at h
      have : ∑ t ∈ Finset.range nT, W t i * (Y t i - f.L t i - f.alpha i - f.beta t) =
          ∑ t ∈ Finset.range nT, W t i * (Y t i - f.L t i - f.beta t) - f.alpha i * ∑ t ∈ Finset.range nT, W t i := by
        rw [Finset.mul_sum, ← Finset.sum_sub_distrib]
        exact Finset.sum_congr rfl (fun t _ => by ring)
      rw [this, h]; ring
    · have h0 : ∀ t ∈ Finset.range nT, W t i = 0 :=
        (Finset.sum_eq_zero_iff_of_nonneg (fun t _ => hW t i)).1
          (le_antisymm (not_lt.1 hp) (Finset.sum_nonneg (fun t _ => hW t i)))
      exact Finset.sum_eq_zero (fun t ht => by rw [h0 t ht, zero_mul])
  have foc2 : ∀ t < nT, ∑ i ∈ Finset.range nN, W t i * (Y t i - f.L t i - f.alpha i - f.beta t) = 0 := by
    intro t ht
    have h : betaStep (fieldOps e r svd) nN Y W (alphaStep (fieldOps e r svd) nT Y W f) f.L t = f.beta t := hβ t ht
    rw [betaStep_eq] at h
    have hc : ∑ i ∈ Finset.range nN, W t i * (Y t i - f.L t i - alphaStep (fieldOps e r svd) nT Y W f i) =
        ∑ i ∈ Finset.range nN, W t i * (Y t i - f.L t i - f.alpha i) :=
      Finset.sum_congr rfl (fun i hi => by rw [show alphaStep (fieldOps e r svd) nT Y W f i = f.alpha i from hα i (Finset.mem_range.1 hi)])
    rw [hc] at h
    by_cases hp : 0 < ∑ i ∈ Finset.range nN, W t i
    · rw [if_pos hp, div_eq_iff hp.ne'] at h
      have : ∑ i ∈ Finset.range nN, W t i * (Y t i - f.L t i - f.alpha i - f.beta t) =
          ∑ i ∈ Finset.range nN, W t i * (Y t i - f.L t i - f.alpha i) - f.beta t * ∑ i ∈ Finset.range nN, W t i := by
        rw [Finset.mul_sum, ← Finset.sum_sub_distrib]
        exact Finset.sum_congr rfl (fun i _ => by ring)
      rw [this, h]; ring
    · have h0 : ∀ i ∈ Finset.range nN, W t i = 0 :=
        (Finset.sum_eq_zero_iff_of_nonneg (fun i _ => hW t i)).1
          (le_antisymm (not_lt.1 hp) (Finset.sum_nonneg (fun i _ => hW t i)))
      exact Finset.sum_eq_zero (fun i hi => by rw [h0 i hi, zero_mul])
  have expand : wsse nT nN Y W f.L a b = wsse nT nN Y W f.L f.alpha f.beta +
      ∑ t ∈ Finset.range nT, ∑ i ∈ Finset.range nN, W t i * (f.alpha i - a i + (f.beta t - b t)) ^ 2 +
      2 * (∑ i ∈ Finset.range nN, (f.alpha i - a i) * ∑ t ∈ Finset.range nT, W t i * (Y t i - f.L t i - f.alpha i - f.beta t)) +
      2 * (∑ t ∈ Finset.range nT, (f.beta t - b t) * ∑ i ∈ Finset.range nN, W t i * (Y t i - f.L t i - f.alpha i - f.beta t)) := by
    have s1 : ∑ i ∈ Finset.range nN, (f.alpha i - a i) * ∑ t ∈ Finset.range nT, W t i * (Y t i - f.L t i - f.alpha i - f.beta t) =
        ∑ t ∈ Finset.range nT, ∑ i ∈ Finset.range nN, (f.alpha i - a i) * (W t i * (Y t i - f.L t i - f.alpha i - f.beta t)) := by
      rw [Finset.sum_comm]
      exact Finset.sum_congr rfl (fun i _ => Finset.mul_sum _ _ _)
    have s2 : ∑ t ∈ Finset.range nT, (f.beta t - b t) * ∑ i ∈ Finset.range nN, W t i * (Y t i - f.L t i - f.alpha i - f.beta t) =
        ∑ t ∈ Finset.range nT, ∑ i ∈ Finset.range nN, (f.beta t - b t) * (W t i * (Y t i - f.L t i - f.alpha i - f.beta t)) :=
      Finset.sum_congr rfl (fun t _ => Finset.mul_sum _ _ _)
    rw [s1, s2]
    unfold wsse
    rw [Finset.mul_sum, Finset.mul_sum, ← Finset.sum_add_distrib, ← Finset.sum_add_distrib, ← Finset.sum_add_distrib]
    refine Finset.sum_congr rfl (fun t _ => ?_)
    rw [Finset.mul_sum, Finset.mul_sum, ← Finset.sum_add_distrib, ← Finset.sum_add_distrib, ← Finset.sum_add_distrib]
    exact Finset.sum_congr rfl (fun i _ => by ring)
  have z1 : ∑ i ∈ Finset.range nN, (f.alpha i - a i) * ∑ t ∈ Finset.range nT, W t i * (Y t i - f.L t i - f.alpha i - f.beta t) = 0 :=
    Finset.sum_eq_zero (fun i hi => by rw [foc1 i (Finset.mem_range.1 hi), mul_zero])
  have z2 : ∑ t ∈ Finset.range nT, (f.beta t - b t) * ∑ i ∈ Finset.range nN, W t i * (Y t i - f.L t i - f.alpha i - f.beta t) = 0 :=
    Finset.sum_eq_zero (fun t ht => by rw [foc2 t (Finset.mem_range.1 ht), mul_zero])
  rw [expand, z1, z2]
  have : 0 ≤ ∑ t ∈ Finset.range nT, ∑ i ∈ Finset.range nN, W t i * (f.alpha i - a i + (f.beta t - b t)) ^ 2 :=
    Finset.sum_nonneg (fun t _ => Finset.sum_nonneg (fun i _ => mul_nonneg (hW t i) (sq_nonneg _)))
  linarith

/-! ### C91: adding a constant to every outcome -/

/-- Outcomes exist only inside the panel. -/
def Wf (P : Data K) : Prop := ∀ t i, P.Y t i ≠ none → t < P.nT ∧ i < P.nN

/-- Add `d` to every outcome. -/
def shiftAll (P : Data K) (d : K) : Data K := { P with Y := fun t i => (P.Y t i).map (· + d) }

theorem valid_shiftAll (P : Data K) (d : K) (ex : Option (ℕ × ℕ)) (t i : ℕ) : valid (shiftAll P d) ex t i = valid P ex t i := by
  unfold valid shiftAll; simp

theorem sqDiffs_shiftAll (P : Data K) (d : K) (j i t : ℕ) :
    sqDiffs (fieldOps e r svd) (shiftAll P d) j i t = sqDiffs (fieldOps e r svd) P j i t := by
  unfold sqDiffs
  congr 1
  funext s
  have e1 : ∀ a b, (shiftAll P d).Y a b = (P.Y a b).map (· + d) := fun _ _ => rfl
  have e2 : (shiftAll P d).D = P.D := rfl
  rw [e1, e1, e2]
  split
  · rcases P.Y s i with _ | a
    · rfl
    · rcases P.Y s j with _ | b
      · rfl
      · simp [sqDiff, fieldOps]
  · rfl

theorem weights_shiftAll (P : Data K) (d : K) (lamT lamU : K) (i t : ℕ) :
    weights (fieldOps e r svd) (shiftAll P d) lamT lamU i t = weights (fieldOps e r svd) P lamT lamU i t := by
  funext s j
  unfold weights unitWeight dist
  rw [sqDiffs_shiftAll]
  rfl

/-- Masked weights vanish outside observed cells of the panel. -/
structure Masked (P : Data K) (W : ℕ → ℕ → K) : Prop where
  nonneg : ∀ t i, 0 ≤ W t i
  supp : ∀ t i, 0 < W t i → t < P.nT ∧ i < P.nN ∧ ∃ y, P.Y t i = some y

/-- Total weight of a unit. -/
def tot (P : Data K) (W : ℕ → ℕ → K) (i : ℕ) : K := ∑ t ∈ Finset.range P.nT, W t i

theorem tot_pos {P : Data K} {W : ℕ → ℕ → K} (h : Masked P W) {t i : ℕ} (hp : 0 < W t i) : 0 < tot P W i := by
  refine lt_of_lt_of_le hp ?_
  exact Finset.single_le_sum (f := fun t => W t i) (fun t _ => h.nonneg t i) (Finset.mem_range.2 (h.supp t i hp).1)

/-- The unit effects move by `d` where the unit has weight; nothing else moves. -/
structure Shifted (P : Data K) (W : ℕ → ℕ → K) (d : K) (f g : Fit K) : Prop where
  alpha : ∀ i, g.alpha i = f.alpha i + (if 0 < tot P W i then d else 0)
  beta : g.beta = f.beta
  L : g.L = f.L

theorem sweep_shift {P : Data K} {W : ℕ → ℕ → K} (hW : Masked P W) (d : K) (tol lam : K) (f g : Fit K)
    (hb : g.beta = f.beta) (hL : g.L = f.L) :
    Shifted P W d (sweep (fieldOps e r svd) tol P.nT P.nN lam (ySafe (fieldOps e r svd) P) W f)
      (sweep (fieldOps e r svd) tol P.nT P.nN lam (ySafe (fieldOps e r svd) (shiftAll P d)) W g) := by
  have hy : ∀ t i, 0 < W t i → ySafe (fieldOps e r svd) (shiftAll P d) t i = ySafe (fieldOps e r svd) P t i + d := by
    intro t i hp
    obtain ⟨_, _, y, hy⟩ := hW.supp t i hp
    simp [ySafe, shiftAll, hy]
  have hz : ∀ t i, W t i = 0 ∨ 0 < W t i := fun t i => (hW.nonneg t i).eq_or_lt.imp Eq.symm id
  have hα : ∀ i, alphaStep (fieldOps e r svd) P.nT (ySafe (fieldOps e r svd) (shiftAll P d)) W g i =
      alphaStep (fieldOps e r svd) P.nT (ySafe (fieldOps e r svd) P) W f i + (if 0 < tot P W i then d else 0) := by
    intro i
    rw [alphaStep_eq, alphaStep_eq, hb, hL]
    unfold tot
    by_cases hp : 0 < ∑ t ∈ Finset.range P.nT, W t i
    · rw [if_pos hp, if_pos hp, if_pos hp]
      have : ∑ t ∈ Finset.range P.nT, W t i * (ySafe (fieldOps e r svd) (shiftAll P d) t i - f.L t i - f.beta t) =
          ∑ t ∈ Finset.range P.nT, W t i * (ySafe (fieldOps e r svd) P t i - f.L t i - f.beta t) +
            d * ∑ t ∈ Finset.range P.nT, W t i := by
        rw [Finset.mul_sum, ← Finset.sum_add_distrib]
        refine Finset.sum_congr rfl (fun t _ => ?_)
        rcases hz t i with h | h
        · rw [h]; ring
        · rw [hy t i h]; ring
      rw [this, add_div, mul_div_assoc, div_self hp.ne', mul_one]
    · rw [if_neg hp, if_neg hp, if_neg hp, add_zero]
  have hα' : ∀ t i, 0 < W t i → alphaStep (fieldOps e r svd) P.nT (ySafe (fieldOps e r svd) (shiftAll P d)) W g i =
      alphaStep (fieldOps e r svd) P.nT (ySafe (fieldOps e r svd) P) W f i + d := by
    intro t i hp
    rw [hα i, if_pos (tot_pos hW hp)]
  have hβ : betaStep (fieldOps e r svd) P.nN (ySafe (fieldOps e r svd) (shiftAll P d)) W
      (alphaStep (fieldOps e r svd) P.nT (ySafe (fieldOps e r svd) (shiftAll P d)) W g) g.L =
      betaStep (fieldOps e r svd) P.nN (ySafe (fieldOps e r svd) P) W
      (alphaStep (fieldOps e r svd) P.nT (ySafe (fieldOps e r svd) P) W f) f.L := by
    funext t
    rw [betaStep_eq, betaStep_eq, hL]
    have : ∑ i ∈ Finset.range P.nN, W t i * (ySafe (fieldOps e r svd) (shiftAll P d) t i - f.L t i -
          alphaStep (fieldOps e r svd) P.nT (ySafe (fieldOps e r svd) (shiftAll P d)) W g i) =
        ∑ i ∈ Finset.range P.nN, W t i * (ySafe (fieldOps e r svd) P t i - f.L t i -
          alphaStep (fieldOps e r svd) P.nT (ySafe (fieldOps e r svd) P) W f i) := by
      refine Finset.sum_congr rfl (fun i _ => ?_)
      rcases hz t i with h | h
      · rw [h]; ring
      · rw [hy t i h, hα' t i h]; ring
    rw [this]
  refine ⟨hα, hβ, ?_⟩
  have hR : ∀ be L, rMasked (fieldOps e r svd) (ySafe (fieldOps e r svd) (shiftAll P d)) W
      (alphaStep (fieldOps e r svd) P.nT (ySafe (fieldOps e r svd) (shiftAll P d)) W g) be L =
      rMasked (fieldOps e r svd) (ySafe (fieldOps e r svd) P) W
      (alphaStep (fieldOps e r svd) P.nT (ySafe (fieldOps e r svd) P) W f) be L := by
    intro be L
    funext t i
    rw [rMasked_eq, rMasked_eq]
    by_cases hp : 0 < W t i
    · rw [if_pos hp, if_pos hp, hy t i hp, hα' t i hp]; ring
    · rw [if_neg hp, if_neg hp]
  unfold sweep nnSolve
  simp only
  rw [hβ, hR, hL]

theorem close_shift {P : Data K} {W : ℕ → ℕ → K} {d : K} {f g f' g' : Fit K} (h1 : Shifted P W d f f') (h2 : Shifted P W d g g')
    (tol : K) (nT nN : ℕ) : close (fieldOps e r svd) tol nT nN f' g' = close (fieldOps e r svd) tol nT nN f g := by
  unfold close
  rw [h1.beta, h1.L, h2.beta, h2.L]
  have : vecDiff (fieldOps e r svd) nN f'.alpha g'.alpha = vecDiff (fieldOps e r svd) nN f.alpha g.alpha := by
    unfold vecDiff
    congr 2
    funext i
    rw [h1.alpha, h2.alpha]
    simp [fieldOps]
  rw [this]

theorem loop_shift {P : Data K} {W : ℕ → ℕ → K} (hW : Masked P W) (d : K) (tol lam : K) (n : ℕ) : ∀ f g : Fit K, Shifted P W d f g →
    Shifted P W d (loop (fieldOps e r svd) tol P.nT P.nN lam (ySafe (fieldOps e r svd) P) W n f)
      (loop (fieldOps e r svd) tol P.nT P.nN lam (ySafe (fieldOps e r svd) (shiftAll P d)) W n g) := by
  induction n with
  | zero => intro f g h; exact h
  | succ n ih =>
    intro f g h
    have hs := sweep_shift e r svd hW d tol lam f g h.beta h.L
    unfold loop
    rw [close_shift e r svd hs h]
    split
    · exact hs
    · exact ih _ _ hs

/-- The first sweep does not already satisfy the convergence test, i.e. some fitted quantity is at least `tol` away from zero. -/
def FirstSweepMoves (c : Cfg K) (P : Data K) (W : ℕ → ℕ → K) (lam : K) (ex : Option (ℕ × ℕ)) : Prop :=
  close (fieldOps e r svd) c.tol P.nT P.nN
    (sweep (fieldOps e r svd) c.tol P.nT P.nN lam (ySafe (fieldOps e r svd) P) (wMasked (fieldOps e r svd) P ex W)
      (start (fieldOps e r svd))) (start (fieldOps e r svd)) = false

theorem estimate_shift (c : Cfg K) (hc : 0 < c.maxIter) (P : Data K) (W : ℕ → ℕ → K) (lam : K) (ex : Option (ℕ × ℕ))
    (hW : Masked P (wMasked (fieldOps e r svd) P ex W)) (d : K) (h1 : FirstSweepMoves e r svd c P W lam ex)
    (h2 : FirstSweepMoves e r svd c (shiftAll P d) W lam ex) :
    Shifted P (wMasked (fieldOps e r svd) P ex W) d (estimate (fieldOps e r svd) c P W lam ex)
      (estimate (fieldOps e r svd) c (shiftAll P d) W lam ex) := by
  have hm : wMasked (fieldOps e r svd) (shiftAll P d) ex W = wMasked (fieldOps e r svd) P ex W := by
    funext t i; rw [wMasked_eq, wMasked_eq, valid_shiftAll]
  unfold FirstSweepMoves at h1 h2
  rw [hm] at h2
  unfold estimate
  rw [hm]
  obtain ⟨n, hn⟩ := Nat.exists_eq_succ_of_ne_zero hc.ne'
  rw [hn]
  unfold loop
  have e1 : (shiftAll P d).nT = P.nT := rfl
  have e2 : (shiftAll P d).nN = P.nN := rfl
  rw [e1, e2] at h2 ⊢
  rw [h1, h2]
  exact loop_shift e r svd hW d c.tol lam n _ _ (sweep_shift e r svd hW d c.tol lam _ _ rfl rfl)

variable {e}

theorem masked_weights (he : ExpLike e) {P : Data K} (hP : Wf P) (lamT lamU : K) (ex : Option (ℕ × ℕ)) (i t : ℕ) :
    Masked P (wMasked (fieldOps e r svd) P ex (weights (fieldOps e r svd) P lamT lamU i t)) where
  nonneg := wMasked_nonneg r svd he P lamT lamU ex i t
  supp := fun s j hp => by
    rw [wMasked_eq] at hp
    by_cases hv : valid P ex s j = true
    · have : P.Y s j ≠ none := by
        unfold valid at hv
        simp only [Bool.and_eq_true] at hv
        rw [← Option.isSome_iff_ne_none]
        exact hv.1.1
      obtain ⟨h1, h2⟩ := hP s j this
      exact ⟨h1, h2, Option.ne_none_iff_exists'.1 this⟩
    · rw [if_neg hv] at hp; exact absurd hp (lt_irrefl _)

/-- **C91, one cell.** Adding a constant to every outcome leaves the estimated effect of a cell unchanged, provided its unit has at least
one observed untreated period and the convergence test is not met in the first sweep. -/
theorem C91_effect_partial (he : ExpLike e) (c : Cfg K) (hc : 0 < c.maxIter) (P : Data K) (hP : Wf P) (l : Lam3 K) (d : K) (t i : ℕ)
    (hobs : ∃ s y, P.Y s i = some y ∧ P.D s i = 0)
    (h1 : FirstSweepMoves e r svd c P (weights (fieldOps e r svd) P l.time l.unit i t) l.nn none)
    (h2 : FirstSweepMoves e r svd c (shiftAll P d) (weights (fieldOps e r svd) P l.time l.unit i t) l.nn none) :
    effect (fieldOps e r svd) c (some (shiftAll P d)) (shiftAll P d) l t i = effect (fieldOps e r svd) c (some P) P l t i := by
  unfold effect fitAt obsWeights
  simp only
  rw [weights_shiftAll]
  have hs := estimate_shift e r svd c hc P (weights (fieldOps e r svd) P l.time l.unit i t) l.nn none
    (masked_weights r svd he hP l.time l.unit none i t) d h1 h2
  obtain ⟨s, y, hy, hD⟩ := hobs
  have hv : valid P none s i = true := by unfold valid; simp [hy, hD]
  have hpos : 0 < tot P (wMasked (fieldOps e r svd) P none (weights (fieldOps e r svd) P l.time l.unit i t)) i :=
    tot_pos (masked_weights r svd he hP l.time l.unit none i t) (own_pos r svd he P l.time l.unit none i t s hv)
  have ha := hs.alpha i
  rw [if_pos hpos] at ha
  unfold tau
  rw [ha, hs.beta, hs.L]
  rcases hY : P.Y t i with _ | y'
  · simp [shiftAll, hY]
  · simp only [shiftAll, hY, Option.map_some]
    simp only [fieldOps]
    congr 1
    ring

/-- **C91, average effect.** Under the same conditions for every treated cell, the average effect is unchanged. -/
theorem C91_att_partial (he : ExpLike e) (c : Cfg K) (hc : 0 < c.maxIter) (P : Data K) (hP : Wf P) (l : Lam3 K) (d : K)
    (hobs : ∀ q ∈ treatedCells P, ∃ s y, P.Y s q.2 = some y ∧ P.D s q.2 = 0)
    (h1 : ∀ q ∈ treatedCells P, FirstSweepMoves e r svd c P (weights (fieldOps e r svd) P l.time l.unit q.2 q.1) l.nn none)
    (h2 : ∀ q ∈ treatedCells P, FirstSweepMoves e r svd c (shiftAll P d) (weights (fieldOps e r svd) P l.time l.unit q.2 q.1) l.nn none) :
    att (fieldOps e r svd) c (some (shiftAll P d)) (shiftAll P d) l = att (fieldOps e r svd) c (some P) P l := by
  unfold att
  congr 1
  have hcells : treatedCells (shiftAll P d) = treatedCells P := rfl
  rw [hcells]
  exact List.map_congr_left (fun q hq => C91_effect_partial r svd he c hc P hP l d q.1 q.2 (hobs q hq) (h1 q hq) (h2 q hq))

/-! ### C95: unit levels are absorbed exactly -/

/-- Fixed effects equal to the unit levels where the unit has weight, nothing else. -/
def levelFit (P : Data K) (W : ℕ → ℕ → K) (a : ℕ → K) : Fit K :=
  { alpha := fun i => if 0 < tot P W i then a i else 0, beta := fun _ => 0, L := fun _ _ => 0 }

theorem prox_zero (hsvd : ∀ lam nT nN, 0 < lam → svd lam nT nN (fun _ _ => 0) = fun _ _ => 0) (lam : K) (hl : 0 < lam) (nT nN : ℕ)
    (Wn : ℕ → ℕ → K) : proxStep (fieldOps e r svd) nT nN lam Wn (fun _ _ => 0) (fun _ _ => 0) = fun _ _ => 0 := by
  unfold proxStep
  simp only [fieldOps, sub_zero, mul_zero, add_zero]
  exact hsvd lam nT nN hl

theorem inner_zero (hsvd : ∀ lam nT nN, 0 < lam → svd lam nT nN (fun _ _ => 0) = fun _ _ => 0) (tol lam : K) (hl : 0 < lam) (nT nN : ℕ)
    (Wn : ℕ → ℕ → K) (n : ℕ) : inner (fieldOps e r svd) tol nT nN lam Wn (fun _ _ => 0) n (fun _ _ => 0) = fun _ _ => 0 := by
  induction n with
  | zero => rfl
  | succ n ih =>
    unfold inner
    rw [prox_zero r svd hsvd lam hl]
    split
    · rfl
    · exact ih

theorem sweep_level (hsvd : ∀ lam nT nN, 0 < lam → svd lam nT nN (fun _ _ => 0) = fun _ _ => 0) {P : Data K} {W : ℕ → ℕ → K}
    (hW : Masked P W) (a : ℕ → K) (hY : ∀ t i y, 0 < W t i → P.Y t i = some y → y = a i) (tol lam : K) (f : Fit K)
    (hb : f.beta = fun _ => 0) (hL : f.L = fun _ _ => 0) :
    sweep (fieldOps e r svd) tol P.nT P.nN lam (ySafe (fieldOps e r svd) P) W f = levelFit P W a := by
  have hy : ∀ t i, 0 < W t i → ySafe (fieldOps e r svd) P t i = a i := by
    intro t i hp
    obtain ⟨_, _, y, hy⟩ := hW.supp t i hp
    simp [ySafe, hy, hY t i y hp hy]
  have hz : ∀ t i, W t i = 0 ∨ 0 < W t i := fun t i => (hW.nonneg t i).eq_or_lt.imp Eq.symm id
  have hα : alphaStep (fieldOps e r svd) P.nT (ySafe (fieldOps e r svd) P) W f = (levelFit P W a).alpha := by
    funext i
    rw [alphaStep_eq, hb, hL]
    unfold levelFit tot
    simp only
    by_cases hp : 0 < ∑ t ∈ Finset.range P.nT, W t i
    · rw [if_pos hp, if_pos hp, div_eq_iff hp.ne', Finset.mul_sum]
      refine Finset.sum_congr rfl (fun t _ => ?_)
      rcases hz t i with h | h
      · rw [h]; ring
      · rw [hy t i h]; ring
    · rw [if_neg hp, if_neg hp]
  have hα' : ∀ t i, 0 < W t i → (levelFit P W a).alpha i = a i := fun t i hp => by
    unfold levelFit; simp only; rw [if_pos (tot_pos hW hp)]
  have hβ : betaStep (fieldOps e r svd) P.nN (ySafe (fieldOps e r svd) P) W (levelFit P W a).alpha (fun _ _ => 0) = fun _ => 0 := by
    funext t
    rw [betaStep_eq]
    have : ∑ i ∈ Finset.range P.nN, W t i * (ySafe (fieldOps e r svd) P t i - 0 - (levelFit P W a).alpha i) = 0 := by
      refine Finset.sum_eq_zero (fun i _ => ?_)
      rcases hz t i with h | h
      · rw [h]; ring
      · rw [hy t i h, hα' t i h]; ring
    rw [this, zero_div, ite_self]
  have hR : rMasked (fieldOps e r svd) (ySafe (fieldOps e r svd) P) W (levelFit P W a).alpha (fun _ => 0) (fun _ _ => 0) =
      fun _ _ => 0 := by
    funext t i
    rw [rMasked_eq]
    by_cases hp : 0 < W t i
    · rw [if_pos hp, hy t i hp, hα' t i hp]; ring
    · rw [if_neg hp]
  unfold sweep
  rw [hα, hL, hβ]
  have hn : nnSolve (fieldOps e r svd) tol P.nT P.nN lam (ySafe (fieldOps e r svd) P) W (levelFit P W a).alpha (fun _ => 0)
      (fun _ _ => 0) = fun _ _ => 0 := by
    unfold nnSolve
    rw [hR]
    by_cases hl : lam ≤ 0
    · rw [if_pos (by simpa [fieldOps] using hl)]
    · rw [if_neg (by simpa [fieldOps] using hl)]
      exact inner_zero r svd hsvd tol lam (not_le.1 hl) _ _ _ _
  rw [hn]
  rfl

/-- **C95.** If every observed untreated outcome equals its unit's level, each effect is exactly the outcome minus the unit's level,
whatever the tuning parameters and the number of iterations (at least one), for every unit with an observed untreated period.
Assumed of the soft-thresholding: a zero matrix stays zero. -/
theorem C95_unit_levels (he : ExpLike e) (hsvd : ∀ lam nT nN, 0 < lam → svd lam nT nN (fun _ _ => 0) = fun _ _ => 0) (c : Cfg K)
    (hc : 0 < c.maxIter) (P : Data K) (hP : Wf P) (l : Lam3 K) (a : ℕ → K)
    (ha : ∀ t i y, P.D t i = 0 → P.Y t i = some y → y = a i) (t i : ℕ) (hobs : ∃ s y, P.Y s i = some y ∧ P.D s i = 0) :
    effect (fieldOps e r svd) c (some P) P l t i = (P.Y t i).map (fun y => y - a i) := by
  have hW := masked_weights r svd he hP l.time l.unit none i t
  set W := wMasked (fieldOps e r svd) P none (weights (fieldOps e r svd) P l.time l.unit i t) with hWdef
  have hY : ∀ t i y, 0 < W t i → P.Y t i = some y → y = a i := by
    intro t' i' y hp hy
    rw [hWdef, wMasked_eq] at hp
    by_cases hv : valid P none t' i' = true
    · unfold valid at hv
      simp only [Bool.and_eq_true, decide_eq_true_eq] at hv
      exact ha t' i' y hv.1.2 hy
    · rw [if_neg hv] at hp; exact absurd hp (lt_irrefl _)
  have hloop : ∀ n f, 0 < n → f.beta = (fun _ => 0) → f.L = (fun _ _ => 0) →
      loop (fieldOps e r svd) c.tol P.nT P.nN l.nn (ySafe (fieldOps e r svd) P) W n f = levelFit P W a := by
    intro n
    induction n with
    | zero => intro f h; exact absurd h (lt_irrefl _)
    | succ n ih =>
      intro f _ hb hL
      unfold loop
      rw [sweep_level r svd hsvd hW a hY c.tol l.nn f hb hL]
      split
      · rfl
      · rcases Nat.eq_zero_or_pos n with rfl | hn
        · rfl
        · exact ih _ hn rfl rfl
  have hfit : fitAt (fieldOps e r svd) c (some P) P l none t i = levelFit P W a := by
    unfold fitAt obsWeights estimate
    exact hloop c.maxIter _ hc rfl rfl
  obtain ⟨s, y, hy, hD⟩ := hobs
  have hv : valid P none s i = true := by unfold valid; simp [hy, hD]
  have hpos : 0 < tot P W i := tot_pos hW (own_pos r svd he P l.time l.unit none i t s hv)
  unfold effect
  rw [hfit]
  unfold tau levelFit
  simp only [if_pos hpos]
  simp [fieldOps]

/-! ### C92: missing values -/

theorem meanO_none_iff {N : Type*} (o : Ops N) (l : List (Option N)) : meanO o l = none ↔ l = [] ∨ none ∈ l := by
  have key : ∀ l : List (Option N), (l.mapM id = none ↔ none ∈ l) ∧ ∀ m, l.mapM id = some m → m.length = l.length := by
    intro l
    induction l with
    | nil => simp
    | cons a l ih =>
      rw [List.mapM_cons]
      rcases a with _ | a
      · simp
      · rcases hm : l.mapM id with _ | m
        · simp [ih.1.1 hm]
        · have : none ∉ l := fun h => by rw [ih.1.2 h] at hm; cases hm
          have h2 := ih.2 m hm
          simp [this, h2]
  unfold meanO
  rcases hm : l.mapM id with _ | m
  · simp [(key l).1.1 hm]
  · have hn : none ∉ l := fun h => by rw [(key l).1.2 h] at hm; cases hm
    have hlen := (key l).2 m hm
    rcases m with _ | ⟨x, xs⟩
    · simp at hlen
      simp [List.length_eq_zero_iff.1 hlen.symm]
    · have : l ≠ [] := by rintro rfl; simp at hlen
      simp [hn, this]

/-- **C92.** The average effect is missing exactly when there is no treated cell or some treated cell has no outcome: one missing
outcome among the treated cells makes the whole estimate missing (cells without an outcome are not skipped). -/
theorem C92_missing_iff {N : Type*} (o : Ops N) (c : Cfg N) (pre : Option (Data N)) (P : Data N) (l : Lam3 N) :
    att o c pre P l = none ↔ treatedCells P = [] ∨ ∃ q ∈ treatedCells P, P.Y q.1 q.2 = none := by
  unfold att
  rw [meanO_none_iff]
  simp only [List.map_eq_nil_iff, List.mem_map, effect, tau, Option.map_eq_none_iff]

/-! ### C57: variance replicates -/

/-- **C57, jackknife.** The jackknife replicates are the same as with weights computed from the replicate's own panel (the stored
structures differ from the replicate only in the removed unit, whose weight is masked). -/
theorem C57_jackknife (c : Cfg K) (P : Data K) (l : Lam3 K) :
    jackknife (fieldOps e r svd) c P l = (treatedUnits P).filterMap (fun u =>
      if treatedCells (dropUnit P u) = [] then none else some (att (fieldOps e r svd) c none (dropUnit P u) l)) := by
  unfold jackknife
  congr 1
  funext u
  have key : att (fieldOps e r svd) c (some P) (dropUnit P u) l = att (fieldOps e r svd) c none (dropUnit P u) l := by
    unfold att
    congr 1
    apply List.map_congr_left
    intro q hq
    have hq1 := mem_treated hq
    have hiu : q.2 ≠ u := by
      intro h
      simp [dropUnit, h] at hq1
    unfold effect fitAt obsWeights estimate
    simp only
    have : wMasked (fieldOps e r svd) (dropUnit P u) none (weights (fieldOps e r svd) P l.time l.unit q.2 q.1) =
        wMasked (fieldOps e r svd) (dropUnit P u) none (weights (fieldOps e r svd) (dropUnit P u) l.time l.unit q.2 q.1) := by
      funext s j
      rw [wMasked_eq, wMasked_eq]
      by_cases hj : j = u
      · have : valid (dropUnit P u) none s j = false := by unfold valid dropUnit; simp [hj]
        rw [this, if_neg (by decide), if_neg (by decide)]
      · have hsq : sqDiffs (fieldOps e r svd) (dropUnit P u) j q.2 q.1 = sqDiffs (fieldOps e r svd) P j q.2 q.1 := by
          unfold sqDiffs dropUnit
          simp only [if_neg hj, if_neg hiu]
        have hw : weights (fieldOps e r svd) (dropUnit P u) l.time l.unit q.2 q.1 s j =
            weights (fieldOps e r svd) P l.time l.unit q.2 q.1 s j := by
          unfold weights unitWeight dist
          rw [hsq]
          have : (dropUnit P u).D q.1 j = P.D q.1 j := by unfold dropUnit; simp [hj]
          rw [this]
        rw [hw]
    rw [this]
  rw [key]

/-- **C57, bootstrap, partial.** With unit parameter 0 and a replicate whose treatment matrix equals the stored one, a bootstrap replicate
is the same as with weights computed from the replicate's own data. Without these conditions the claim is false:
`C57_bootstrap_refuted`. -/
theorem C57_bootstrap_partial (c : Cfg K) (P B : Data K) (l : Lam3 K) (hu : l.unit = 0) (hD : B.D = P.D) :
    att (fieldOps e r svd) c (some P) B l = att (fieldOps e r svd) c none B l := by
  have hw : ∀ i t, weights (fieldOps e r svd) P l.time l.unit i t = weights (fieldOps e r svd) B l.time l.unit i t := by
    intro i t
    funext s j
    unfold weights unitWeight
    have : (fieldOps e r svd).isZero l.unit = true := by simp [fieldOps, hu]
    rw [this, hD]
    simp
  unfold att effect fitAt obsWeights
  simp only [hw]

/-! ### C56: the stored score -/

/-- Weights that are zero or NaN. -/
def Dead (x : Ext K) : Prop := x = .fin 0 ∨ x = .nan

theorem dead_pos {x : Ext K} (h : Dead x) : (extOps e r svd).pos x = false := by
  rcases h with rfl | rfl <;> simp [extOps, Ext.lt]

theorem dead_sum (l : List (Ext K)) (h : ∀ x ∈ l, Dead x) : Dead (sumL (extOps e r svd) l) := by
  induction l with
  | nil => left; rfl
  | cons a l ih =>
    have h1 := h a (by simp)
    have h2 := ih (fun x hx => h x (by simp [hx]))
    simp only [sumL, List.foldr_cons] at h2 ⊢
    rcases h1 with rfl | rfl <;> rcases h2 with h2 | h2 <;> rw [h2] <;> simp [extOps, Ext.add, Dead]

theorem dead_max (l : List (Ext K)) (h : ∀ x ∈ l, Dead x) : Dead (maxL (extOps e r svd) l) := by
  induction l with
  | nil => left; rfl
  | cons a l ih =>
    have h1 := h a (by simp)
    have h2 := ih (fun x hx => h x (by simp [hx]))
    simp only [maxL, List.foldr_cons] at h2 ⊢
    rcases h1 with rfl | rfl <;> rcases h2 with h2 | h2 <;> rw [h2] <;> simp [extOps, extMax, Dead, Ext.lt]

theorem dead_sweep (hsvd : ∀ lam nT nN, 0 < lam → svd lam nT nN (fun _ _ => 0) = fun _ _ => 0) (tol : Ext K) (nT nN : ℕ) (lam : Ext K)
    (hlam : lam ≠ .nan) (Y W : ℕ → ℕ → Ext K) (hW : ∀ t i, Dead (W t i)) :
    sweep (extOps e r svd) tol nT nN lam Y W (start (extOps e r svd)) = start (extOps e r svd) := by
  have hα : alphaStep (extOps e r svd) nT Y W (start (extOps e r svd)) = fun _ => .fin 0 := by
    funext i
    unfold alphaStep unitSum
    rw [dead_pos r svd (dead_sum r svd _ (by
      intro x hx
      rw [List.mem_map] at hx
      obtain ⟨t, _, rfl⟩ := hx
      exact hW t i)), if_neg (by decide)]
    rfl
  have hβ : ∀ al L, betaStep (extOps e r svd) nN Y W al L = fun _ => .fin 0 := by
    intro al L
    funext t
    unfold betaStep timeSum
    rw [dead_pos r svd (dead_sum r svd _ (by
      intro x hx
      rw [List.mem_map] at hx
      obtain ⟨i, _, rfl⟩ := hx
      exact hW t i)), if_neg (by decide)]
    rfl
  have hR : ∀ al be, rMasked (extOps e r svd) Y W al be (fun _ _ => .fin 0) = fun _ _ => .fin 0 := by
    intro al be
    funext t i
    unfold rMasked
    rw [dead_pos r svd (hW t i), if_neg (by decide)]
  have hN : wNorm (extOps e r svd) nT nN W = W := by
    funext t i
    unfold wNorm
    rw [dead_pos r svd (dead_max r svd _ (by
      intro x hx
      simp only [entries, List.mem_flatMap, List.mem_map] at hx
      obtain ⟨t, _, i, _, rfl⟩ := hx
      exact hW t i)), if_neg (by decide)]
  have hclean : ∀ t i, (extOps e r svd).clean ((extOps e r svd).add (.fin 0) ((extOps e r svd).mul (W t i)
      ((extOps e r svd).sub (.fin 0) (.fin 0)))) = .fin 0 := by
    intro t i
    rcases hW t i with h | h <;> rw [h] <;> simp [extOps, extClean, Ext.add, Ext.mul, Ext.sub, Ext.neg]
  have hP : ¬ (extOps e r svd).nonpos lam = true →
      proxStep (extOps e r svd) nT nN lam W (fun _ _ => .fin 0) (fun _ _ => .fin 0) = fun _ _ => .fin 0 := by
    intro hl
    unfold proxStep
    simp only [hclean]
    cases lam with
    | nan => exact absurd rfl hlam
    | ninf => rfl
    | pinf => rfl
    | fin x =>
      have hx : 0 < x := by
        simpa [extOps, Ext.le] using hl
      change (fun t i => Ext.fin (svd x nT nN (fun _ _ => 0) t i)) = _
      rw [hsvd x nT nN hx]
  have hI : ¬ (extOps e r svd).nonpos lam = true → ∀ n,
      inner (extOps e r svd) tol nT nN lam W (fun _ _ => .fin 0) n (fun _ _ => .fin 0) = fun _ _ => .fin 0 := by
    intro hl n
    induction n with
    | zero => rfl
    | succ n ih =>
      unfold inner
      rw [hP hl]
      split
      · rfl
      · exact ih
  unfold sweep
  rw [hα, hβ]
  have hL : (start (extOps e r svd)).L = fun _ _ => .fin 0 := rfl
  rw [hL]
  unfold nnSolve
  rw [hR, hN]
  have : (if (extOps e r svd).nonpos lam = true then (fun _ _ => Ext.fin (0 : K)) else
      inner (extOps e r svd) tol nT nN lam W (fun _ _ => .fin 0) 10 (fun _ _ => .fin 0)) = fun _ _ => .fin 0 := by
    by_cases hl : (extOps e r svd).nonpos lam = true
    · rw [if_pos hl]
    · rw [if_neg hl, hI hl]
  rw [this]
  rfl

theorem dead_loop (hsvd : ∀ lam nT nN, 0 < lam → svd lam nT nN (fun _ _ => 0) = fun _ _ => 0) (tol : Ext K) (nT nN : ℕ) (lam : Ext K)
    (hlam : lam ≠ .nan) (Y W : ℕ → ℕ → Ext K) (hW : ∀ t i, Dead (W t i)) (n : ℕ) :
    loop (extOps e r svd) tol nT nN lam Y W n (start (extOps e r svd)) = start (extOps e r svd) := by
  induction n with
  | zero => rfl
  | succ n ih =>
    unfold loop
    rw [dead_sweep r svd hsvd tol nT nN lam hlam Y W hW, ih, ite_self]

theorem dead_weights (P : Data (Ext K)) (ex : Option (ℕ × ℕ)) (lamU : Ext K) (i t s j : ℕ) :
    Dead (wMasked (extOps e r svd) P ex (weights (extOps e r svd) P .pinf lamU i t) s j) := by
  have h1 : Dead (timeWeight (extOps e r svd) .pinf t s) := by
    unfold timeWeight
    by_cases hd : (t - s) + (s - t) = 0
    · right
      simp [extOps, hd, Ext.mul, Ext.neg, Ext.infOf, Ext.sgn, extExp]
    · left
      have : 0 < (((t - s) + (s - t) : ℕ) : K) := by exact_mod_cast Nat.pos_of_ne_zero hd
      have h2 : Ext.sgn (((t - s) + (s - t) : ℕ) : K) = 1 := by
        unfold Ext.sgn
        rw [if_neg (not_lt.2 this.le), if_neg this.ne']
      change extExp e (Ext.mul Ext.ninf (Ext.fin (((t - s) + (s - t) : ℕ) : K))) = _
      simp only [Ext.mul]
      rw [h2]
      rfl
  have hmul : ∀ a b : Ext K, Dead a → Dead (Ext.mul a b) := by
    intro a b h
    rcases h with rfl | rfl <;> cases b <;> simp [Ext.mul, Dead, Ext.infOf, Ext.sgn]
  unfold wMasked weights
  exact hmul _ _ (hmul _ _ h1)

/-- **C56, stored score.** If the selected time parameter is infinite, the score stored in the results is the plain sum of squared
outcomes of the scored control cells: the leave-one-out fit is identically zero because the final score is evaluated without the
conversion to 0 that the search and the estimation use. (`y` lists the outcomes of the scored cells.) -/
theorem C56_stored_score (hsvd : ∀ lam nT nN, 0 < lam → svd lam nT nN (fun _ _ => 0) = fun _ _ => 0) (c : Cfg (Ext K))
    (pick : List (ℕ × ℕ) → List (ℕ × ℕ)) (P : Data K) (lamU lamN : Ext K) (hn : lamN ≠ .nan) (q : ℕ × ℕ) (qs : List (ℕ × ℕ))
    (hq : pick (controlCells P) = q :: qs) (y : ℕ × ℕ → K) (hy : ∀ x ∈ q :: qs, P.Y x.1 x.2 = some (y x)) :
    looScore (extOps e r svd) c pick (toExt P) { time := .pinf, unit := lamU, nn := lamN } =
      some (.fin (((q :: qs).map (fun x => y x ^ 2)).sum)) := by
  have hc : controlCells (toExt P) = controlCells P := by
    unfold controlCells
    refine cells_congr rfl rfl (fun t i => ?_)
    have e1 : ((toExt P).Y t i).isSome = (P.Y t i).isSome := by simp [toExt]
    rw [e1]
    rfl
  unfold looScore
  rw [hc, hq]
  simp only
  have hterm : ∀ x ∈ q :: qs, looTerm (extOps e r svd) c (some (toExt P)) (toExt P)
      { time := .pinf, unit := lamU, nn := lamN } x = .fin (y x ^ 2) := by
    intro x hx
    unfold looTerm fitAt estimate obsWeights
    simp only
    rw [dead_loop r svd hsvd _ _ _ _ hn _ _ (dead_weights r svd (toExt P) (some x) lamU x.2 x.1)]
    unfold tau
    have : (toExt P).Y x.1 x.2 = some (.fin (y x)) := by simp [toExt, hy x hx]
    rw [this]
    simp [start, extOps, Ext.sub, Ext.neg, Ext.add, Ext.mul, sq]
  rw [List.map_congr_left hterm]
  have h2 : (q :: qs).map (fun x => Ext.fin (y x ^ 2)) = ((q :: qs).map (fun x => y x ^ 2)).map Ext.fin := by
    rw [List.map_map]; rfl
  rw [h2, sumL_up, sumL_field]

end

/-! ### Concrete cases -/

/-- A rational stand-in for the exponential. -/
def demoE (x : ℚ) : ℚ := if x ≤ 0 then 1 / (1 - x) else 1 + x

theorem demoE_like : ExpLike demoE where
  pos := fun x => by
    unfold demoE
    split
    · exact div_pos one_pos (by linarith)
    · linarith
  mono := fun x y h => by
    unfold demoE
    split
    · next hx =>
      split
      · next hy => exact one_div_le_one_div_of_le (by linarith) (by linarith)
      · next hy =>
        have : 1 / (1 - x) ≤ 1 := by rw [div_le_one (by linarith)]; linarith
        linarith
    · next hx =>
      rw [if_neg (by linarith)]
      linarith
  zero := by unfold demoE; norm_num

/-- Thresholding that removes everything (a very large penalty). -/
def demoSvd : ℚ → ℕ → ℕ → (ℕ → ℕ → ℚ) → (ℕ → ℕ → ℚ) := fun _ _ _ _ => fun _ _ => 0

theorem demoSvd_zero : ∀ lam nT nN, 0 < lam → demoSvd lam nT nN (fun _ _ => 0) = fun _ _ => 0 := fun _ _ _ _ => rfl

/-- Exact arithmetic for the examples. -/
abbrev dOps : Ops ℚ := fieldOps demoE (fun x => |x|) demoSvd

/-- A panel from rows of outcomes and of treatment indicators. -/
def mk (nT nN : ℕ) (Y : List (List (Option ℚ))) (D : List (List ℤ)) : Data ℚ :=
  { nT := nT, nN := nN, Y := fun t i => (Y.getD t []).getD i none, D := fun t i => (D.getD t []).getD i 0 }

/-- One unit treated in the last of three periods, two controls, one missing control outcome. -/
def pA : Data ℚ :=
  mk 3 3 [[some 1, some 2, some 0], [some 2, some 2, none], [some 9, some 4, some 1]] [[0, 0, 0], [0, 0, 0], [1, 0, 0]]

theorem mk_wf (Y : List (List (Option ℚ))) (D : List (List ℤ)) (nT nN : ℕ) (h1 : Y.length ≤ nT) (h2 : ∀ l ∈ Y, l.length ≤ nN) :
    Wf (mk nT nN Y D) := by
  intro t i h
  unfold mk at h ⊢
  simp only [List.getD_eq_getElem?_getD] at h
  by_cases ht : t < Y.length
  · rw [List.getElem?_eq_getElem ht, Option.getD_some] at h
    by_cases hi : i < Y[t].length
    · exact ⟨lt_of_lt_of_le ht h1, lt_of_lt_of_le hi (h2 _ (List.getElem_mem ht))⟩
    · rw [List.getElem?_eq_none (by omega)] at h; exact absurd rfl h
  · rw [List.getElem?_eq_none (l := Y) (by omega)] at h; simp at h

/-- Levels 2 and 5, one missing control outcome, effects 7 and 8. -/
def pC : Data ℚ :=
  mk 4 2 [[some 2, some 5], [some 2, none], [some 9, some 5], [some 10, some 5]] [[0, 0], [0, 0], [1, 0], [1, 0]]

theorem pC_wf : Wf pC := mk_wf _ _ _ _ (by decide) (by decide)

theorem pA_wf : Wf pA := mk_wf _ _ _ _ (by decide) (by decide)

def cA : Cfg ℚ := { maxIter := 2, tol := 1 / 1000 }
def lA : Lam3 ℚ := { time := 1, unit := 1, nn := 5 }

/-- The conditions of `C91_effect_partial` and `C91_att_partial` hold for `pA` and a shift by 7. -/
example : treatedCells pA = [(2, 0)] ∧ pA.Y 0 0 = some 1 ∧ pA.D 0 0 = 0 ∧
    FirstSweepMoves demoE (fun x => |x|) demoSvd cA pA (weights dOps pA lA.time lA.unit 0 2) lA.nn none ∧
    FirstSweepMoves demoE (fun x => |x|) demoSvd cA (shiftAll pA 7) (weights dOps pA lA.time lA.unit 0 2) lA.nn none := by
  unfold FirstSweepMoves
  decide +kernel

/-- The estimate is a number, so the invariance is not vacuous. -/
example : (att dOps cA (some pA) pA lA).isSome = true ∧
    att dOps cA (some (shiftAll pA 7)) (shiftAll pA 7) lA = att dOps cA (some pA) pA lA := by decide +kernel

/-- **C91, refuted.** Without an observed untreated period for the treated unit the claim fails: the unit's fixed effect is set to 0 and
the reported effect is the outcome itself, so it moves one for one with the unit of measurement's origin; no error is raised. -/
theorem C91_level_shift_refuted : ∃ (P : Data ℚ) (c : Cfg ℚ) (l : Lam3 ℚ), Wf P ∧ treatedCells P = [(2, 0)] ∧
    att dOps c (some P) P l = some 5 ∧ att dOps c (some (shiftAll P 10)) (shiftAll P 10) l = some 15 := by
  refine ⟨mk 3 2 [[none, some 1], [none, some 1], [some 5, some 1]] [[0, 0], [0, 0], [1, 0]], { maxIter := 3, tol := 1 / 1000 },
    { time := 1, unit := 1, nn := 5 }, mk_wf _ _ _ _ (by decide) (by decide), ?_⟩
  decide +kernel

/-- **C92.** One missing outcome among two treated cells makes the estimate missing. -/
example : treatedCells (mk 3 2 [[some 1, some 1], [some 3, some 1], [none, some 1]] [[0, 0], [1, 0], [1, 0]]) = [(1, 0), (2, 0)] ∧
    att dOps cA none (mk 3 2 [[some 1, some 1], [some 3, some 1], [none, some 1]] [[0, 0], [1, 0], [1, 0]]) lA = none ∧
    (att dOps cA none (mk 3 2 [[some 1, some 1], [some 3, some 1], [some 4, some 1]] [[0, 0], [1, 0], [1, 0]]) lA).isSome = true := by
  decide +kernel

/-- Rows whose treatment is missing in period 2 of the treated unit; `y` is the outcome recorded there. -/
def rowsMissing (y : ℚ) : List (Trop.Row ℕ ℕ ℚ) :=
  [⟨1, 1, some 1, some 0⟩, ⟨1, 2, some y, none⟩, ⟨1, 3, some 1, some 0⟩, ⟨1, 4, some 6, some 1⟩,
   ⟨2, 1, some 1, some 0⟩, ⟨2, 2, some 1, some 0⟩, ⟨2, 3, some 1, some 0⟩, ⟨2, 4, some 1, some 0⟩]

def attRows (rows : List (Trop.Row ℕ ℕ ℚ)) : Option ℚ :=
  match Trop.prepare rows with
  | .ok p => att dOps cA (some (ofPanel p)) (ofPanel p) lA
  | .error _ => none

/-- **C92, refuted for missing treatment.** A row whose treatment is missing is used as an untreated observation: changing its outcome
changes the estimate. -/
theorem C92_missing_treatment_refuted : ∃ a b : ℚ, attRows (rowsMissing 1) = some a ∧ attRows (rowsMissing 5) = some b ∧ a ≠ b := by
  have h1 : (attRows (rowsMissing 1)).isSome = true := by decide +kernel
  have h2 : (attRows (rowsMissing 5)).isSome = true := by decide +kernel
  have h3 : attRows (rowsMissing 1) ≠ attRows (rowsMissing 5) := by decide +kernel
  obtain ⟨a, ha⟩ := Option.isSome_iff_exists.1 h1
  obtain ⟨b, hb⟩ := Option.isSome_iff_exists.1 h2
  exact ⟨a, b, ha, hb, fun h => h3 (by rw [ha, hb, h])⟩

/-- Hypotheses of `C94_fixed_point`: a balanced table, non-zero residuals, effects left unchanged by a sweep. -/
def fB : Fit ℚ := { alpha := fun i => [3 / 2, 5].getD i 0, beta := fun t => [-5 / 4, 5 / 4].getD t 0, L := fun _ _ => 0 }
def yB : ℕ → ℕ → ℚ := fun t i => ([[1, 3], [2, 7]].getD t []).getD i 0

example : (∀ i < 2, (sweep dOps (1 / 1000) 2 2 5 yB (fun _ _ => 1) fB).alpha i = fB.alpha i) ∧
    (∀ t < 2, (sweep dOps (1 / 1000) 2 2 5 yB (fun _ _ => 1) fB).beta t = fB.beta t) ∧
    0 < wsse 2 2 yB (fun _ _ => 1) fB.L fB.alpha fB.beta := by
  refine ⟨by decide +kernel, by decide +kernel, ?_⟩
  simp [wsse, Finset.sum_range_succ, yB, fB]
  norm_num

/-- Hypotheses of `C95_unit_levels` hold for `pC`. -/
example : effect dOps cA (some pC) pC lA 2 0 = some 7 ∧ effect dOps cA (some pC) pC lA 3 0 = some 8 ∧
    att dOps cA (some pC) pC lA = some (15 / 2) := by decide +kernel

example : effect dOps cA (some pC) pC lA 3 0 = some (10 - 2) := by
  have h := C95_unit_levels (fun x => |x|) demoSvd demoE_like demoSvd_zero cA (by decide) pC pC_wf lA
    (fun i => [2, 5].getD i 0) (fun t i y hD hY => by
      obtain ⟨ht, hi⟩ := pC_wf t i (by rw [hY]; simp)
      have h : ∀ t < 4, ∀ i < 2, pC.D t i = 0 → ∀ y ∈ pC.Y t i, y = ([2, 5] : List ℚ).getD i 0 := by decide +kernel
      exact h t ht i hi hD y hY) 3 0 ⟨0, 2, rfl, rfl⟩
  exact h

/-- Columns: treated unit labelled 2, controls labelled 10 and 11. -/
def pD : Data ℚ :=
  mk 3 3 [[some 0, some 0, some 0], [some 0, some 0, some 0], [some 10, some 4, some 0]] [[0, 0, 0], [0, 0, 0], [1, 0, 0]]

def idsD : ℕ → ℕ := fun i => [2, 10, 11].getD i 0

/-- The replicate that draws every unit exactly once, controls first as the code does. -/
def bD : Data ℚ := bootPanel pD idsD [1, 2, 0]

/-- **C57, refuted for the bootstrap.** A replicate that draws every unit exactly once does not reproduce the point estimate: the new
labels "10_0", "11_1", "2_2" put the treated unit last, while the weights are still computed with the stored column order. With
weights computed from the replicate itself the point estimate is reproduced. -/
theorem C57_bootstrap_refuted : ∃ a b : ℚ,
    att dOps cA (some pD) pD { time := 0, unit := 0, nn := 5 } = some a ∧
    att dOps cA none bD { time := 0, unit := 0, nn := 5 } = some a ∧
    bootFit dOps cA pD bD { time := 0, unit := 0, nn := 5 } = some (some b) ∧ a ≠ b := by
  have h1 : (att dOps cA (some pD) pD { time := 0, unit := 0, nn := 5 }).isSome = true := by decide +kernel
  have h2 : att dOps cA none bD { time := 0, unit := 0, nn := 5 } = att dOps cA (some pD) pD { time := 0, unit := 0, nn := 5 } := by
    decide +kernel
  have h3 : (bootFit dOps cA pD bD { time := 0, unit := 0, nn := 5 }).isSome = true := by decide +kernel
  have h4 : ((bootFit dOps cA pD bD { time := 0, unit := 0, nn := 5 }).bind id).isSome = true := by decide +kernel
  have h5 : (bootFit dOps cA pD bD { time := 0, unit := 0, nn := 5 }).bind id ≠
      att dOps cA (some pD) pD { time := 0, unit := 0, nn := 5 } := by decide +kernel
  obtain ⟨a, ha⟩ := Option.isSome_iff_exists.1 h1
  obtain ⟨b, hb⟩ := Option.isSome_iff_exists.1 h3
  rw [hb] at h4 h5
  obtain ⟨b', hb'⟩ := Option.isSome_iff_exists.1 h4
  simp only [Option.bind_some, id] at hb' h5
  exact ⟨a, b', ha, by rw [h2, ha], by rw [hb, hb'], fun h => h5 (by rw [hb', ha, h])⟩

/-- Jackknife on a panel with two treated units: two replicates. -/
example : (jackknife dOps cA (mk 3 3 [[some 1, some 2, some 0], [some 2, some 2, some 1], [some 9, some 4, some 1]]
    [[0, 0, 0], [0, 0, 0], [1, 1, 0]]) lA).map Option.isSome = [true, true] := by decide +kernel

/-- Float arithmetic for the examples. -/
abbrev xOps : Ops (Ext ℚ) := extOps demoE (fun x => |x|) demoSvd

def pE : Data ℚ := mk 3 2 [[some 1, some 3], [some 1, some 3], [some 6, some 3]] [[0, 0], [0, 0], [1, 0]]

def gridInf : Trop.Grids ℚ := { time := [.pinf], unit := [.fin 0], nn := [.fin 5] }

/-- **C56, refuted for the stored score.** Writing infinity instead of 0 for the time parameter gives the same estimate but a different
stored cross-validation score (here the squared outcome 1 instead of the leave-one-out error 0). -/
theorem C56_final_score_refuted :
    (fitPoint xOps (upC cA) (fun l => l.take 1) (toExt pE) gridInf).2 =
      (fitPoint xOps (upC cA) (fun l => l.take 1) (toExt pE) (Trop.zeroed gridInf)).2 ∧
    (fitPoint xOps (upC cA) (fun l => l.take 1) (toExt pE) gridInf).1.2 = .fin 1 ∧
    (fitPoint xOps (upC cA) (fun l => l.take 1) (toExt pE) (Trop.zeroed gridInf)).1.2 = .fin 0 := by
  decide +kernel

/-- Hypotheses of `C90_att_shift`: grids without NaN, and a finite estimate. -/
example : GoodGrids gridInf := ⟨by decide, by decide, by decide, by unfold NoNan; decide, by unfold NoNan; decide, by unfold NoNan; decide⟩
example : (fitPoint xOps (upC cA) (fun l => l.take 1) (toExt pE) gridInf).2 = some (.fin 5) ∧
    (fitPoint xOps (upC cA) (fun l => l.take 1) (toExt (shiftTreated pE 3)) gridInf).2 = some (.fin 8) := by decide +kernel

/-- Weights of `pA` for target unit 0 in the last period: the control that is closer before treatment weighs more. -/
example : dist dOps pA 1 0 2 = some (1 / 2) ∧ dist dOps pA 2 0 2 = some 1 ∧
    unitWeight dOps pA 1 0 2 2 < unitWeight dOps pA 1 0 2 1 ∧ timeWeight dOps 1 2 0 < timeWeight dOps 1 2 1 := by decide +kernel

end DiffDiff.TropFit
