/-
`TROP(method="joint")`: concrete panels over the reals, and the held-out outcome in leave-one-out fits.
-/
import Verif.TropJointMoreProps

set_option linter.unusedSectionVars false
set_option linter.unusedVariables false

namespace DiffDiff.TropJoint

open TropFit (Data Cfg)
open Finset

section
variable {K : Type*} [Field K] [LinearOrder K] [IsStrictOrderedRing K]

/-- Parameters whose weighted residuals are orthogonal to every fit are optimal. -/
theorem isMin_of_orth (nT nN : ℕ) (W y : ℕ → ℕ → K) (D : ℕ → ℕ → ℤ) (hW : ∀ t < nT, ∀ i < nN, 0 ≤ W t i) (s : Sol K)
    (h : ∀ s' : Sol K, ∑ t ∈ range nT, ∑ i ∈ range nN, W t i * res y D s t i * (s'.mu + s'.alpha i + s'.beta t + s'.tau * (D t i : K)) = 0) :
    IsMin nT nN W y D s := by
  intro s'
  let d : Sol K := { mu := s.mu - s'.mu, alpha := fun i => s.alpha i - s'.alpha i, beta := fun t => s.beta t - s'.beta t, tau := s.tau - s'.tau }
  have e : obj nT nN W y D s' = obj nT nN W y D s
      + ∑ t ∈ range nT, ∑ i ∈ range nN, W t i * (d.mu + d.alpha i + d.beta t + d.tau * (D t i : K)) ^ 2
      + 2 * ∑ t ∈ range nT, ∑ i ∈ range nN, W t i * res y D s t i * (d.mu + d.alpha i + d.beta t + d.tau * (D t i : K)) := by
    simp only [obj, Finset.mul_sum, ← Finset.sum_add_distrib]
    refine Finset.sum_congr rfl fun t _ => Finset.sum_congr rfl fun i _ => ?_
    simp only [res, d]; ring
  have nn : 0 ≤ ∑ t ∈ range nT, ∑ i ∈ range nN, W t i * (d.mu + d.alpha i + d.beta t + d.tau * (D t i : K)) ^ 2 :=
    Finset.sum_nonneg fun t ht => Finset.sum_nonneg fun i hi => mul_nonneg (hW t (Finset.mem_range.1 ht) i (Finset.mem_range.1 hi)) (sq_nonneg _)
  rw [e, h d]; linarith

theorem obj_weights (nT nN : ℕ) (W W' y y' : ℕ → ℕ → K) (D : ℕ → ℕ → ℤ) (s : Sol K) (h : ∀ t < nT, ∀ i < nN, W t i = W' t i)
    (hy : ∀ t < nT, ∀ i < nN, y t i = y' t i) : obj nT nN W y D s = obj nT nN W' y' D s := by
  unfold obj
  refine Finset.sum_congr rfl fun t ht => Finset.sum_congr rfl fun i hi => ?_
  rw [h t (Finset.mem_range.1 ht) i (Finset.mem_range.1 hi), hy t (Finset.mem_range.1 ht) i (Finset.mem_range.1 hi)]

/-! ### The held-out outcome -/

open TropFit in
/-- C103. Two-step method: the leave-one-out fit for an untreated cell — weights and fitted values — does not use the outcome of that
cell. -/
theorem C103_two_step (e r : K → K) (svd) (c : Cfg (Ext K)) (l : TropFit.Lam3 (Ext K)) (P P' : Data (Ext K)) (t i : ℕ)
    (hT : P.nT = P'.nT) (hN : P.nN = P'.nN) (hD : P.D = P'.D) (hY : ∀ s j, (s, j) ≠ (t, i) → P.Y s j = P'.Y s j)
    (hg : ∀ s j y, P.Y s j = some y → y.isFinite = true) (hg' : ∀ s j y, P'.Y s j = some y → y.isFinite = true) :
    fitAt (extOps e r svd) c (some P) P l (some (t, i)) t i = fitAt (extOps e r svd) c (some P') P' l (some (t, i)) t i := by
  have ha := absorb_ext e r svd
  have hw : weights (extOps e r svd) P l.time l.unit i t = weights (extOps e r svd) P' l.time l.unit i t := by
    have hs : ∀ j, sqDiffs (extOps e r svd) P j i t = sqDiffs (extOps e r svd) P' j i t := by
      intro j
      unfold sqDiffs
      rw [hT, hD]
      refine List.filterMap_congr fun s _ => ?_
      split_ifs with h
      · have h1 : ∀ k, (s, k) ≠ (t, i) := fun k hk => h.1 (by simpa using (Prod.mk.inj hk).1)
        rw [hY s i (h1 i), hY s j (h1 j)]
      · rfl
    funext s j
    unfold weights unitWeight TropFit.dist
    rw [hs, hD]
  have hv : ∀ s j, valid P (some (t, i)) s j = valid P' (some (t, i)) s j := by
    intro s j
    unfold valid
    by_cases h : (s, j) = (t, i)
    · rw [h]; simp
    · rw [hY s j h, hD]
  have hW : wMasked (extOps e r svd) P (some (t, i)) (weights (extOps e r svd) P' l.time l.unit i t)
      = wMasked (extOps e r svd) P' (some (t, i)) (weights (extOps e r svd) P' l.time l.unit i t) := by
    funext s j; unfold wMasked; rw [hv]
  unfold fitAt obsWeights
  simp only
  rw [hw]
  unfold estimate
  rw [hT, hN, hW]
  refine Near.loop ha (fun s j => ?_) _ _ _ _ _ _
  by_cases h : (s, j) = (t, i)
  · right
    refine ⟨⟨weights (extOps e r svd) P' l.time l.unit i t s j, ?_⟩, ?_, ?_⟩
    · unfold wMasked valid; rw [h]; simp
    · unfold ySafe
      rcases hy : P.Y s j with _ | y
      · exact ha.zero
      · exact hg s j y hy
    · unfold ySafe
      rcases hy : P'.Y s j with _ | y
      · exact ha.zero
      · exact hg' s j y hy
  · left; unfold ySafe; rw [hY s j h]

/-- C103. Joint method: given the weights, the leave-one-out fit does not use the outcome of the held-out cell; with no decay over units the
weights do not use it either (as long as it is observed). -/
theorem C103_joint_partial (v : Env K) (hr : SqrtLike v.r) (cf : Cfg K) (P P' : Data K) (tp : ℕ) (l : Lam3 K) (q : ℕ × ℕ)
    (hT : P.nT = P'.nT) (hN : P.nN = P'.nN) (hD : P.D = P'.D) (hY : ∀ s j, (s, j) ≠ q → P.Y s j = P'.Y s j)
    (hs : (P.Y q.1 q.2).isSome = true) (hs' : (P'.Y q.1 q.2).isSome = true)
    (h : (delta v P tp l.time l.unit = delta v P' tp l.time l.unit) ∨ l.unit = 0) :
    looFit v cf P tp l q = looFit v cf P' tp l q := by
  have hδ : delta v P tp l.time l.unit = delta v P' tp l.time l.unit := by
    rcases h with h | h
    · exact h
    · have hsome : ∀ s j, (P.Y s j).isSome = (P'.Y s j).isSome := by
        intro s j
        by_cases hq : (s, j) = q
        · subst hq; rw [hs, hs']
        · rw [hY s j hq]
      have htr : treated P = treated P' := by unfold treated TropFit.treatedUnits; rw [hT, hN, hD]
      have hnone : ∀ s j, P.Y s j = none ↔ P'.Y s j = none := by
        intro s j; have := hsome s j
        cases h1 : P.Y s j <;> cases h2 : P'.Y s j <;> simp_all
      have hav : ∀ s, avgTreated P s = none ↔ avgTreated P' s = none := by
        intro s
        have e : ((treated P).filterMap (fun i => P.Y s i) = []) ↔ (treated P').filterMap (fun i => P'.Y s i) = [] := by
          rw [htr, List.filterMap_eq_nil_iff, List.filterMap_eq_nil_iff]
          simp only [hnone]
        unfold avgTreated
        constructor
        · intro h; split at h
          · next h' => rw [e.1 h']
          · cases h
        · intro h; split at h
          · next h' => rw [e.2 h']
          · cases h
      have hg : ∀ i, gaps P tp i = [] ↔ gaps P' tp i = [] := by
        intro i
        rw [gaps_eq, gaps_eq, hT, List.filterMap_eq_nil_iff, List.filterMap_eq_nil_iff]
        refine forall₂_congr fun s _ => ?_
        cases h1 : avgTreated P s with
        | none => rw [(hav s).1 h1]; simp
        | some x =>
          cases h2 : avgTreated P' s with
          | none => rw [(hav s).2 h2] at h1; cases h1
          | some x' => simp [hnone]
      funext s i
      unfold delta
      have : unitW v P tp l.unit i = unitW v P' tp l.unit i := by
        rw [h]
        unfold unitW
        cases h1 : gaps P tp i with
        | nil => rw [(hg i).1 h1]
        | cons x xs =>
          cases h2 : gaps P' tp i with
          | nil => rw [(hg i).2 h2] at h1; cases h1
          | cons x' xs' => simp
      rw [this, hT]
  unfold looFit
  rw [hδ]
  refine fitW_ignores v hr cf P P' _ l.nn hT hN hD (fun s j => ?_)
  by_cases hq : (s, j) = q
  · left; unfold without; rw [if_pos hq]
  · right; exact hY s j hq

/-! ### Score and standard error -/

theorem mapM_getD {A B : Type*} (f : A → Option B) (d : B) (l : List A) (r : List B) :
    l.mapM f = some r ↔ (∀ a ∈ l, (f a).isSome = true) ∧ r = l.map (fun a => (f a).getD d) := by
  induction l generalizing r with
  | nil =>
    rw [List.mapM_nil]
    exact ⟨fun h => ⟨fun _ h' => absurd h' List.not_mem_nil, (Option.some.inj h).symm⟩, fun h => by rw [h.2]; rfl⟩
  | cons a l ih =>
    rw [List.mapM_cons]
    cases h : f a with
    | none => simp [h, bind]
    | some b =>
      cases h2 : l.mapM f with
      | none =>
        simp only [h, h2, List.map_cons, Option.getD_some, List.mem_cons, forall_eq_or_imp, Option.isSome_some, true_and]
        refine iff_of_false (by simp [bind]) ?_
        rintro ⟨h3, _⟩
        have := (ih _).2 ⟨h3, rfl⟩
        rw [h2] at this; cases this
      | some bs =>
        have := (ih bs).1 h2
        simp only [h, h2, List.map_cons, Option.getD_some, List.mem_cons, forall_eq_or_imp, Option.isSome_some, true_and]
        constructor
        · intro h3
          simp [bind, pure] at h3
          exact ⟨this.1, by rw [← h3, this.2]⟩
        · rintro ⟨_, rfl⟩
          simp [bind, pure, this.2]

/-- C99. The score of a combination exists exactly if there is a control cell and every leave-one-out fit exists; it is then the sum over
the sampled cells of the squared gap between outcome and prediction. -/
theorem C99_score (v : Env K) (cf : Cfg K) (P : Data K) (tp : ℕ) (obs : List (ℕ × ℕ)) (l : Lam3 K) (s : K) :
    score v cf P tp obs l = some s ↔ obs ≠ [] ∧ ∃ f : ℕ × ℕ → Sol K × (ℕ → ℕ → K), (∀ q ∈ obs, looFit v cf P tp l q = some (f q)) ∧
      s = (obs.map (fun q => ((P.Y q.1 q.2).getD 0 - ((f q).1.mu + (f q).1.alpha q.2 + (f q).1.beta q.1 + (f q).2 q.1 q.2)) ^ 2)).sum := by
  have hsc : score v cf P tp obs l = if obs = [] then none else (obs.mapM (looTerm v cf P tp l)).map List.sum := by
    cases obs <;> simp [score]
  rw [hsc]
  by_cases ho : obs = []
  · simp [ho]
  rw [if_neg ho, Option.map_eq_some_iff]
  simp only [mapM_getD (looTerm v cf P tp l) 0]
  constructor
  · rintro ⟨xs, ⟨h1, rfl⟩, rfl⟩
    refine ⟨ho, fun q => (looFit v cf P tp l q).getD ({ mu := 0, alpha := fun _ => 0, beta := fun _ => 0, tau := 0 }, fun _ _ => 0), ?_, ?_⟩
    · intro q hq
      have := h1 q hq
      unfold looTerm at this
      cases hf : looFit v cf P tp l q with
      | none => rw [hf] at this; simp at this
      | some f => simp only [hf, Option.getD_some]
    · congr 1
      refine List.map_congr_left fun q hq => ?_
      have := h1 q hq
      unfold looTerm at this ⊢
      cases hf : looFit v cf P tp l q with
      | none => rw [hf] at this; simp at this
      | some f => simp only [hf, Option.map_some, Option.getD_some]; ring
  · rintro ⟨_, f, h1, rfl⟩
    refine ⟨_, ⟨fun q hq => ?_, rfl⟩, ?_⟩
    · unfold looTerm; rw [h1 q hq]; rfl
    · congr 1
      refine List.map_congr_left fun q hq => ?_
      unfold looTerm; rw [h1 q hq]; simp only [Option.map_some, Option.getD_some]; ring

/-- C102. With fewer than two replicates the standard error is zero, whatever the square root does. -/
theorem C102_few (v : Env K) (cf : Cfg K) (P : Data K) (tp : ℕ) (l : Lam3 K) (se : K) (est : List K)
    (h : jackknife v cf P tp l = (se, est)) (hn : est.length < 2) : se = 0 := by
  unfold jackknife at h
  have he : (treated P).filterMap (jackOne v cf P tp l) = est := by
    dsimp only at h; split_ifs at h <;> exact (Prod.mk.inj h).2
  dsimp only at h
  rw [he, if_pos hn] at h
  exact (Prod.mk.inj h).1.symm

/-- C102. With two or more replicates the squared standard error is `(n - 1) / n` times the sum of squared deviations from their
mean; in particular it is zero exactly when all replicates agree. -/
theorem C102_variance (v : Env K) (hr : SqrtLike v.r) (cf : Cfg K) (P : Data K) (tp : ℕ) (l : Lam3 K) (se : K) (est : List K)
    (h : jackknife v cf P tp l = (se, est)) (hn : 2 ≤ est.length) :
    (est.length : K) * (se * se) = ((est.length : K) - 1) * (est.map (fun x => (x - est.sum / (est.length : K)) ^ 2)).sum ∧
    (se = 0 ↔ ∀ x ∈ est, ∀ y ∈ est, x = y) := by
  unfold jackknife at h
  have he : (treated P).filterMap (jackOne v cf P tp l) = est := by
    dsimp only at h; split_ifs at h <;> exact (Prod.mk.inj h).2
  dsimp only at h
  rw [he, if_neg (by omega)] at h
  have hse := (Prod.mk.inj h).1
  have hn' : (2 : K) ≤ (est.length : K) := by exact_mod_cast hn
  have h0 : (est.length : K) ≠ 0 := by positivity
  let m := est.sum / (est.length : K)
  have hnn : 0 ≤ (est.map (fun x => (x - m) ^ 2)).sum := List.sum_nonneg fun y hy => by
    obtain ⟨x, _, rfl⟩ := List.mem_map.1 hy; exact sq_nonneg _
  have hc : 0 < ((est.length : K) - 1) / (est.length : K) := div_pos (by linarith) (by linarith)
  have hsq : se * se = ((est.length : K) - 1) / (est.length : K) * (est.map (fun x => (x - m) ^ 2)).sum := by
    rw [← hse]; exact hr _ (mul_nonneg hc.le hnn)
  refine ⟨?_, ?_⟩
  · show (est.length : K) * (se * se) = ((est.length : K) - 1) * (est.map (fun x => (x - m) ^ 2)).sum
    rw [hsq, ← mul_assoc, mul_div_cancel₀ _ h0]
  · have hz : se = 0 ↔ (est.map (fun x => (x - m) ^ 2)).sum = 0 := by
      rw [← mul_self_eq_zero, hsq, mul_eq_zero, or_iff_right hc.ne']
    rw [hz]
    constructor
    · intro h x hx y hy
      have hall : ∀ z ∈ est, z = m := by
        intro z hz
        have hpos : ∀ y ∈ est.map (fun x => (x - m) ^ 2), 0 ≤ y := by
          intro y hy; obtain ⟨x, _, rfl⟩ := List.mem_map.1 hy; exact sq_nonneg _
        have hle := List.single_le_sum hpos ((z - m) ^ 2) (List.mem_map.2 ⟨z, hz, rfl⟩)
        have this : (z - m) ^ 2 = 0 := le_antisymm (h ▸ hle) (sq_nonneg _)
        exact sub_eq_zero.1 (pow_eq_zero_iff (two_ne_zero) |>.1 this)
      rw [hall x hx, hall y hy]
    · intro h
      obtain ⟨a, tl, rfl⟩ : ∃ a tl, est = a :: tl := by
        cases est with
        | nil => simp at hn
        | cons a tl => exact ⟨a, tl, rfl⟩
      have ha : ∀ z ∈ a :: tl, z = a := fun z hz => h z hz a List.mem_cons_self
      have hrep : a :: tl = List.replicate (a :: tl).length a := List.eq_replicate_of_mem ha
      have hm : m = a := by
        show (a :: tl).sum / ((a :: tl).length : K) = a
        have : (a :: tl).sum = ((a :: tl).length : K) * a := by
          conv_lhs => rw [hrep]
          rw [List.sum_replicate, nsmul_eq_mul]
        rw [this]; field_simp
      refine List.sum_eq_zero fun y hy => ?_
      obtain ⟨x, hx, rfl⟩ := List.mem_map.1 hy
      rw [ha x hx, hm]; ring

end

/-! ### Panels over the reals -/

/-- Outside routines: exact exponential and square root. -/
noncomputable def vR (ls : ℕ → ℕ → (ℕ → ℕ → ℝ) → (ℕ → ℝ) → (ℕ → ℝ)) : Env ℝ :=
  { e := Real.exp, r := Real.sqrt, svd := fun _ _ _ M => M, lstsq := ls }

theorem vR_sqrt (ls) : SqrtLike (vR ls).r := fun x hx => Real.mul_self_sqrt hx
theorem vR_local (ls) : SvdLocal (vR ls).svd := fun _ _ _ _ _ h => h
theorem vR_zero (ls) : SvdZero (vR ls).svd := fun _ _ _ _ h => h
theorem vR_pos (ls) : ∀ x, 0 < (vR ls).e x := Real.exp_pos

/-- Three periods, three units; unit 0 is treated in the last period. -/
def d3 (t i : ℕ) : ℤ := if t = 2 ∧ i = 0 then 1 else 0

/-- A panel with outcomes `(0, a, 0), (0, b, 0), (0, c, 0)`. -/
noncomputable def p3 (a b c : ℝ) : Data ℝ :=
  { nT := 3, nN := 3, D := d3
    Y := fun t i => some (if i = 1 then (if t = 0 then a else if t = 1 then b else c) else 0) }

theorem p3_treated (a b c : ℝ) : treated (p3 a b c) = [0] := by
  show (List.range 3).filter (fun i => (List.range 3).any (fun t => decide (d3 t i = 1))) = [0]
  decide

theorem p3_avg (a b c : ℝ) (t : ℕ) : avgTreated (p3 a b c) t = some 0 := by
  unfold avgTreated; rw [p3_treated]; simp [p3]

theorem p3_unitW (ls) (a b c lam : ℝ) (i : ℕ) :
    unitW (vR ls) (p3 a b c) 1 lam i = if i = 1 then Real.exp (-lam * Real.sqrt ((a ^ 2 + b ^ 2) / 2)) else 1 := by
  have hg : gaps (p3 a b c) 1 i = if i = 1 then [a ^ 2, b ^ 2] else [0, 0] := by
    rw [gaps_eq]
    have : (p3 a b c).nT - 1 = 2 := rfl
    rw [this]
    simp only [p3_avg, show List.range 2 = [0, 1] from rfl]
    by_cases h : i = 1
    · simp [p3, h]
    · simp [p3, h]
  unfold unitW
  rw [hg]
  by_cases h : i = 1
  · simp [h, vR]
  · simp [h, vR]

theorem p3_delta (ls) (a b c lam : ℝ) (t i : ℕ) :
    delta (vR ls) (p3 a b c) 1 0 lam t i = if i = 1 then Real.exp (-lam * Real.sqrt ((a ^ 2 + b ^ 2) / 2)) else 1 := by
  unfold delta; rw [p3_unitW]; simp [timeW, vR]

/-- Weights of the leave-one-out fit of cell `(0, 1)`. -/
noncomputable def w3 (w : ℝ) (t i : ℕ) : ℝ := if (t, i) = (0, 1) then 0 else if i = 1 then w else 1

/-- The optimal parameters of that fit for outcomes `(0, ·, 0), (0, 1, 0), (0, 0, 0)`. -/
noncomputable def s3 (w : ℝ) : Sol ℝ :=
  { mu := -w / (8 + 7 * w)
    alpha := fun i => if i = 1 then (4 + 6 * w) / (8 + 7 * w) else if i = 2 then 2 * w / (8 + 7 * w) else 0
    beta := fun t => if t = 1 then 2 * w / (8 + 7 * w) else if t = 2 then -5 * w / (8 + 7 * w) else 0
    tau := 6 * w / (8 + 7 * w) }

theorem s3_min (w : ℝ) (hw : 0 < w) (a : ℝ) : IsMin 3 3 (w3 w) (fun t i => if i = 1 then (if t = 0 then a else if t = 1 then 1 else 0) else 0) d3 (s3 w) := by
  refine isMin_of_orth 3 3 _ _ _ ?_ _ ?_
  · intro t _ i _; unfold w3; split_ifs
    · exact le_refl _
    · exact hw.le
    · exact zero_le_one
  · intro s'
    have h8 : 8 + 7 * w ≠ 0 := by positivity
    simp only [Finset.sum_range_succ, Finset.sum_range_zero, w3, res, s3, d3]
    simp
    field_simp
    ring

/-- The counterfactual that the leave-one-out fit predicts for the held-out cell. -/
def prediction {K : Type*} [Field K] (f : Sol K × (ℕ → ℕ → K)) (q : ℕ × ℕ) : K := f.1.mu + f.1.alpha q.2 + f.1.beta q.1 + f.2 q.1 q.2

theorem loo_prediction (ls) (hl : LeastSquares ls) (cf : Cfg ℝ) (a lam : ℝ) :
    ∃ f, looFit (vR ls) cf (p3 a 1 0) 1 { time := 0, unit := lam, nn := 10 ^ 10 } (0, 1) = some f ∧
      prediction f (0, 1) = (4 + 5 * Real.exp (-lam * Real.sqrt ((a ^ 2 + 1) / 2))) / (8 + 7 * Real.exp (-lam * Real.sqrt ((a ^ 2 + 1) / 2))) := by
  let w := Real.exp (-lam * Real.sqrt ((a ^ 2 + 1) / 2))
  have hw : 0 < w := Real.exp_pos _
  have hW : ∀ t i, without (delta (vR ls) (p3 a 1 0) 1 0 lam) (0, 1) t i = w3 w t i := by
    intro t i
    unfold without w3
    rw [p3_delta]
    split_ifs with h1 h2
    · rfl
    · simp only [w]; norm_num
    · rfl
  have hW' : without (delta (vR ls) (p3 a 1 0) 1 0 lam) (0, 1) = w3 w := by funext t i; exact hW t i
  unfold looFit fitW
  rw [if_pos le_rfl]
  dsimp only
  rw [hW']
  have hm : mask (p3 a 1 0).Y (w3 w) = w3 w := by funext t i; simp [mask, p3]
  cases h : solve (vR ls) (p3 a 1 0).nT (p3 a 1 0).nN (p3 a 1 0).Y (p3 a 1 0).D (w3 w) with
  | none =>
    exfalso
    rw [solve_none, hm] at h
    have : (p3 a 1 0).nT = 3 := rfl
    have h' : (p3 a 1 0).nN = 3 := rfl
    rw [this, h'] at h
    simp [Finset.sum_range_succ, w3] at h
    have : (10 ^ 10 : ℝ)⁻¹ ≤ 1 := by norm_num
    linarith
  | some s =>
    refine ⟨(s, fun _ _ => 0), rfl, ?_⟩
    have hW0 : ∀ t < 3, ∀ i < 3, 0 ≤ w3 w t i := by
      intro t _ i _; unfold w3; split_ifs
      · exact le_refl _
      · exact hw.le
      · exact zero_le_one
    have h1 := solve_isMin (vR ls) hl (vR_sqrt ls) 3 3 (by decide) (by decide) (p3 a 1 0).Y d3 (w3 w) hW0 s h
    rw [hm] at h1
    have hy : (fun t i => ((p3 a 1 0).Y t i).getD 0) = (fun t i => if i = 1 then (if t = 0 then a else if t = 1 then 1 else 0) else 0) := by
      funext t i; simp [p3]
    rw [hy] at h1
    have u := isMin_unique 3 3 (w3 w) _ d3 hW0 s (s3 w) h1 (s3_min w hw a)
    have e1 := u 0 0 (by decide) (by decide) (by simp [w3])
    have e2 := u 1 0 (by decide) (by decide) (by simp [w3])
    have e3 := u 1 1 (by decide) (by decide) (by simp [w3, hw.ne'])
    simp [res, s3, d3] at e1 e2 e3
    have h8 : 8 + 7 * w ≠ 0 := by positivity
    show s.mu + s.alpha 1 + s.beta 0 + 0 = (4 + 5 * w) / (8 + 7 * w)
    have : s.mu + s.alpha 1 + s.beta 0 = -w / (8 + 7 * w) + (4 + 6 * w) / (8 + 7 * w) := by linear_combination e2 - e1 - e3
    rw [add_zero, this]; field_simp; ring

/-- C103, refuted for the joint method. The weights are computed once from the full panel, so the outcome of the held-out cell enters the
fit that is supposed to leave it out: for every positive unit decay, two panels that differ only in the held-out outcome give
different predictions for it. -/
theorem C103_joint_refuted (ls) (hl : LeastSquares ls) (cf : Cfg ℝ) (lam : ℝ) (hlam : 0 < lam) :
    ∃ P P' : Data ℝ, P.nT = P'.nT ∧ P.nN = P'.nN ∧ P.D = P'.D ∧ (∀ s j, (s, j) ≠ (0, 1) → P.Y s j = P'.Y s j) ∧
      ∃ f f', looFit (vR ls) cf P 1 { time := 0, unit := lam, nn := 10 ^ 10 } (0, 1) = some f ∧
        looFit (vR ls) cf P' 1 { time := 0, unit := lam, nn := 10 ^ 10 } (0, 1) = some f' ∧ prediction f (0, 1) ≠ prediction f' (0, 1) := by
  obtain ⟨f, h1, h2⟩ := loo_prediction ls hl cf 1 lam
  obtain ⟨f', h1', h2'⟩ := loo_prediction ls hl cf 7 lam
  refine ⟨p3 1 1 0, p3 7 1 0, rfl, rfl, rfl, ?_, f, f', h1, h1', ?_⟩
  · intro s j h
    simp only [p3]
    by_cases hj : j = 1
    · have : s ≠ 0 := fun hs => h (by rw [hs, hj])
      simp [hj, this]
    · simp [hj]
  · rw [h2, h2']
    have e1 : Real.sqrt (((1 : ℝ) ^ 2 + 1) / 2) = 1 := by norm_num
    have e2 : Real.sqrt (((7 : ℝ) ^ 2 + 1) / 2) = 5 := by
      rw [show ((7 : ℝ) ^ 2 + 1) / 2 = 5 ^ 2 by norm_num]; exact Real.sqrt_sq (by norm_num)
    rw [e1, e2]
    have hlt : Real.exp (-lam * 5) < Real.exp (-lam * 1) := Real.exp_lt_exp.2 (by linarith)
    have p1 := Real.exp_pos (-lam * 5)
    have p2 := Real.exp_pos (-lam * 1)
    intro h
    rw [div_eq_div_iff (by positivity) (by positivity)] at h
    nlinarith

/-- The optimal parameters for outcomes `(0, k, 0), (0, k, 0), (0, k - 1, 0)` and unit weights `1, w, 1`. -/
noncomputable def s4 (w k : ℝ) : Sol ℝ :=
  { mu := 0
    alpha := fun i => if i = 1 then k - 1 / (3 * (1 + w)) else if i = 2 then w / (3 * (1 + w)) else 0
    beta := fun t => if t = 2 then -w / (1 + w) else 0
    tau := w / (1 + w) }

theorem s4_min (w k : ℝ) (hw : 0 < w) : IsMin 3 3 (fun _ i => if i = 1 then w else 1)
    (fun t i => if i = 1 then (if t = 0 then k else if t = 1 then k else k - 1) else 0) d3 (s4 w k) := by
  refine isMin_of_orth 3 3 _ _ _ ?_ _ ?_
  · intro t _ i _; split_ifs
    · exact hw.le
    · exact zero_le_one
  · intro s'
    have h8 : 1 + w ≠ 0 := by positivity
    simp only [Finset.sum_range_succ, Finset.sum_range_zero, res, s4, d3]
    simp
    field_simp
    ring

theorem unit_level_effect (ls) (hl : LeastSquares ls) (cf : Cfg ℝ) (k lam : ℝ) (hk : 0 ≤ k) :
    (fitLam (vR ls) cf (p3 k k (k - 1)) 1 { time := 0, unit := lam, nn := 10 ^ 10 }).map (fun f => f.1.tau)
      = some (Real.exp (-lam * k) / (1 + Real.exp (-lam * k))) := by
  let w := Real.exp (-lam * k)
  have hw : 0 < w := Real.exp_pos _
  have hsq : Real.sqrt ((k ^ 2 + k ^ 2) / 2) = k := by
    rw [show (k ^ 2 + k ^ 2) / 2 = k ^ 2 by ring]; exact Real.sqrt_sq hk
  have hW : delta (vR ls) (p3 k k (k - 1)) 1 0 lam = (fun _ i => if i = 1 then w else 1) := by
    funext t i; rw [p3_delta, hsq]
  unfold fitLam fitW
  rw [if_pos le_rfl]
  dsimp only
  rw [hW]
  have hm : mask (p3 k k (k - 1)).Y (fun _ i => if i = 1 then w else 1) = (fun _ i => if i = 1 then w else 1) := by funext t i; simp [mask, p3]
  have hW0 : ∀ t < 3, ∀ i < 3, 0 ≤ (fun (_ i : ℕ) => if i = 1 then w else (1 : ℝ)) t i := by
    intro t _ i _; dsimp only; split_ifs
    · exact hw.le
    · exact zero_le_one
  cases h : solve (vR ls) (p3 k k (k - 1)).nT (p3 k k (k - 1)).nN (p3 k k (k - 1)).Y (p3 k k (k - 1)).D (fun _ i => if i = 1 then w else 1) with
  | none =>
    exfalso
    rw [solve_none, hm] at h
    have : (p3 k k (k - 1)).nT = 3 := rfl
    have h' : (p3 k k (k - 1)).nN = 3 := rfl
    rw [this, h'] at h
    simp [Finset.sum_range_succ] at h
    have : (10 ^ 10 : ℝ)⁻¹ ≤ 1 := by norm_num
    linarith
  | some s =>
    have h1 := solve_isMin (vR ls) hl (vR_sqrt ls) 3 3 (by decide) (by decide) (p3 k k (k - 1)).Y d3 _ hW0 s h
    rw [hm] at h1
    have hy : (fun t i => ((p3 k k (k - 1)).Y t i).getD 0) = (fun t i => if i = 1 then (if t = 0 then k else if t = 1 then k else k - 1) else 0) := by
      funext t i; simp [p3]
    rw [hy] at h1
    have u := isMin_unique 3 3 _ _ d3 hW0 s (s4 w k) h1 (s4_min w k hw)
    have := tau_of_rect (W := fun _ _ => (0 : ℝ)) (u 0 2 (by decide) (by decide) (by simp)) (u 0 0 (by decide) (by decide) (by simp))
      (u 2 2 (by decide) (by decide) (by simp)) (u 2 0 (by decide) (by decide) (by simp)) (by decide)
    simp only [Option.map_some]
    rw [this]; rfl

/-- C98, refuted for unit levels. With decay over units the joint estimate depends on the level of the units, although the model has unit
effects: for every positive unit decay, adding a constant to the outcomes of one never-treated unit changes the effect. -/
theorem C98_unit_levels_refuted (ls) (hl : LeastSquares ls) (cf : Cfg ℝ) (lam : ℝ) (hlam : 0 < lam) :
    ∃ (P : Data ℝ) (a : ℕ → ℝ) (x y : ℝ), (∀ t, P.D t 1 = 0) ∧ (∀ i, i ≠ 1 → a i = 0) ∧ x ≠ y ∧
      (fitLam (vR ls) cf P 1 { time := 0, unit := lam, nn := 10 ^ 10 }).map (fun f => f.1.tau) = some x ∧
      (fitLam (vR ls) cf (shift P a (fun _ => 0) 0) 1 { time := 0, unit := lam, nn := 10 ^ 10 }).map (fun f => f.1.tau) = some y := by
  refine ⟨p3 1 1 (1 - 1), fun i => if i = 1 then 4 else 0, _, Real.exp (-lam * 5) / (1 + Real.exp (-lam * 5)), ?_, ?_, ?_,
    unit_level_effect ls hl cf 1 lam (by norm_num), ?_⟩
  · intro t; simp [p3, d3]
  · intro i hi; simp [hi]
  · have hlt : Real.exp (-lam * 5) < Real.exp (-lam * 1) := Real.exp_lt_exp.2 (by linarith)
    have p1 := Real.exp_pos (-lam * 5)
    have p2 := Real.exp_pos (-lam * 1)
    intro h
    rw [div_eq_div_iff (by positivity) (by positivity)] at h
    nlinarith
  · have e : shift (p3 1 1 (1 - 1)) (fun i => if i = 1 then 4 else 0) (fun _ => 0) 0 = p3 5 5 (5 - 1) := by
      unfold shift p3
      congr 1
      funext t i
      by_cases hi : i = 1
      · simp [hi]; split_ifs <;> norm_num
      · simp [hi]
    rw [e]; exact unit_level_effect ls hl cf 5 lam (by norm_num)

/-! ### Concrete cases -/

/-- The hypotheses of `C98_fit`, `C97_recovery` and `C96_least_squares` are met by a complete three-by-three panel: the fit exists and is
the effect built into the data. -/
example : ∃ ls, LeastSquares ls ∧ ∀ cf : Cfg ℝ,
    HasRect (p3 4 4 4) 1 ∧ (∀ q ∈ TropFit.controlCells (p3 4 4 4), HasPred (p3 4 4 4) 1 q) ∧ PreClean (p3 4 4 4) 1 ∧
    (fitLam (vR ls) cf (shift (p3 4 4 4) (fun _ => 0) (fun t => t) 7) 1 { time := 0, unit := 0, nn := 1 }).map (fun f => f.1.tau) = some 7 := by
  obtain ⟨ls, hl⟩ := exists_leastSquares (K := ℝ)
  refine ⟨ls, hl, fun cf => ?_⟩
  have hp : PreClean (p3 4 4 4) 1 := by
    intro t ht i
    have : (p3 4 4 4).nT = 3 := rfl
    rw [this] at ht
    simp only [p3, d3]; rw [if_neg (by omega)]
  have hc := complete_panel (p3 4 4 4) 1 (fun _ _ _ _ => rfl) hp (by decide) 1 2 (by decide) (by decide) (by decide)
    (fun t => by simp [p3, d3]) (fun t => by simp [p3, d3]) ⟨2, by decide, 0, by decide, by simp [p3, d3]⟩
  refine ⟨hc.1, hc.2, hp, ?_⟩
  rw [C98_fixed_tuning (vR ls) hl (vR_sqrt ls) (vR_local ls) (vR_pos ls) cf (p3 4 4 4) 1 _ hc.1 _ _ 7 (Or.inr ⟨hp, fun _ => rfl⟩)]
  cases h : fitLam (vR ls) cf (p3 4 4 4) 1 { time := 0, unit := 0, nn := 1 } with
  | none =>
    exfalso
    have h' := (C96_fails_iff (vR ls) cf (p3 4 4 4) (delta (vR ls) (p3 4 4 4) 1 0 0) 1).1 h
    have e1 : (p3 4 4 4).nT = 3 := rfl
    have e2 : (p3 4 4 4).nN = 3 := rfl
    rw [e1, e2] at h'
    simp [Finset.sum_range_succ, p3_delta] at h'
    simp [p3] at h'
    norm_num at h'
  | some f =>
    have := C97_fixed_tuning (vR ls) hl (vR_sqrt ls) (vR_zero ls) (vR_pos ls) cf (p3 4 4 4) 1 { time := 0, unit := 0, nn := 1 }
      (fun i => if i = 1 then 4 else 0) (fun _ => 0) 0 (by
        intro t ht i hi y hy
        simp only [p3, Option.some.injEq] at hy
        rw [← hy]; split_ifs <;> simp) hc.1 f h
    simp [this]

/-- Hypotheses of `C101_shape` and `C101_center_refuted`. -/
example : TropFit.ExpLike Real.exp ∧ (∀ x, 0 ≤ Real.sqrt x) ∧ (∀ x y, 0 ≤ x → x ≤ y → Real.sqrt x ≤ Real.sqrt y) ∧
    (∀ x y : ℝ, x < y → Real.exp x < Real.exp y) :=
  ⟨⟨Real.exp_pos, fun _ _ h => Real.exp_le_exp.2 h, Real.exp_zero⟩, Real.sqrt_nonneg, fun _ _ _ h => Real.sqrt_le_sqrt h,
    fun _ _ h => Real.exp_lt_exp.2 h⟩

/-- A search with a tie, an infinity and a combination that cannot be scored. -/
example : search (fun l : Lam3 ℚ => if l.unit = 3 then none else some ((l.time - 1) ^ 2 + l.nn)) [some 0, some 2, none, some 1] [some 3, none] [some 5, some 2] =
    ((some 1, none, some 2), some 2) := by decide +kernel

/-- Two panels that differ in the left-out unit only. -/
example : ∃ P P' : Data ℝ, P.nT = P'.nT ∧ P.nN = P'.nN ∧ P.D = P'.D ∧ (∀ t i, i ≠ 1 → P.Y t i = P'.Y t i) ∧ P.Y 0 1 ≠ P'.Y 0 1 :=
  ⟨p3 1 1 0, p3 7 1 0, rfl, rfl, rfl, fun t i hi => by simp [p3, hi], by simp [p3]⟩

/-- One treated unit. -/
example : ∀ t < (p3 1 2 3).nT, ∀ i < (p3 1 2 3).nN, (p3 1 2 3).D t i = 1 → i = 0 := by
  intro t _ i _ h
  simp only [p3, d3] at h
  split_ifs at h with hc
  · exact hc.2
  · omega

/-- Hypotheses of `C103_two_step`: two finite panels that differ in the held-out cell only. -/
example : ∃ P P' : Data (Ext ℚ), P.nT = P'.nT ∧ P.nN = P'.nN ∧ P.D = P'.D ∧ (∀ s j, (s, j) ≠ (0, 1) → P.Y s j = P'.Y s j) ∧
    (∀ s j y, P.Y s j = some y → y.isFinite = true) ∧ (∀ s j y, P'.Y s j = some y → y.isFinite = true) ∧ P.Y 0 1 ≠ P'.Y 0 1 := by
  let P : ℚ → Data (Ext ℚ) := fun x => { nT := 3, nN := 3, D := d3, Y := fun s j => some (.fin (if (s, j) = (0, 1) then x else (s : ℚ) + 2 * j)) }
  have hf : ∀ x s j y, (P x).Y s j = some y → y.isFinite = true := by
    intro x s j y h; simp only [P, Option.some.injEq] at h; rw [← h]; rfl
  exact ⟨P 1, P 7, rfl, rfl, rfl, fun s j h => by simp only [P]; rw [if_neg h, if_neg h], hf 1, hf 7, by simp [P]⟩

def rowsOk : List (Trop.Row ℕ ℕ ℚ) :=
  [⟨1, 1, some 1, some 0⟩, ⟨1, 2, some 2, some 0⟩, ⟨1, 3, some 3, some 1⟩, ⟨2, 1, some 1, some 0⟩, ⟨2, 2, some 1, some 0⟩, ⟨2, 3, some 1, some 1⟩,
   ⟨3, 1, some 1, some 0⟩, ⟨3, 2, some 1, some 0⟩, ⟨3, 3, some 1, some 0⟩]

/-- Both treated units adopt in period 3; unit 2 has no row for period 3. -/
def rowsGap : List (Trop.Row ℕ ℕ ℚ) :=
  [⟨1, 1, some 1, some 0⟩, ⟨1, 2, some 2, some 0⟩, ⟨1, 3, some 3, some 1⟩, ⟨1, 4, some 3, some 1⟩,
   ⟨2, 1, some 1, some 0⟩, ⟨2, 2, some 1, some 0⟩, ⟨2, 4, some 1, some 1⟩,
   ⟨3, 1, some 1, some 0⟩, ⟨3, 2, some 1, some 0⟩, ⟨3, 3, some 1, some 0⟩, ⟨3, 4, some 1, some 0⟩]

def isStag : Except Err (Trop.Panel ℕ ℕ ℚ) → Bool
  | .error .staggered => true
  | _ => false

def isOk : Except Err (Trop.Panel ℕ ℕ ℚ) → Bool
  | .ok _ => true
  | _ => false

example : Trop.Binary rowsOk ∧ isOk (prepare rowsOk) = true := by decide +kernel

/-- C100, refuted for unbalanced panels. A panel in which every row agrees with one common adoption date is rejected as staggered when
a treated unit has no row for that date. -/
theorem C100_missing_adoption_refuted : ∃ rows : List (Trop.Row ℕ ℕ ℚ), Trop.Binary rows ∧
    (∀ r ∈ rows, r.unit = 1 ∨ r.unit = 2 → (r.d = some 1 ↔ 3 ≤ r.time)) ∧ (∀ r ∈ rows, ¬ (r.unit = 1 ∨ r.unit = 2) → r.d = some 0) ∧
    isStag (prepare rows) = true := ⟨rowsGap, by decide +kernel⟩

end DiffDiff.TropJoint
