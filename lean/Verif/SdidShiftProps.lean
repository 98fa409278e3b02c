/-
Property C120: transformations of the data and the order of units in SyntheticDiD.
-/
import Verif.SdidFitProps
import Verif.SimplexProps
import Mathlib.Logic.Equiv.Fin.Basic
import Mathlib.Data.List.FinRange
import Mathlib.GroupTheory.Perm.Basic

set_option linter.unusedSectionVars false

namespace DiffDiff.SdidFit

open DiffDiff.Sdid (sdid avg placeboOnce inference)
open DiffDiff.SynthWeights

variable {K : Type*} [Field K] [LinearOrder K] [IsStrictOrderedRing K]

/-! ### Dependence on the cells used -/

theorem unitW_congr (W : Weights K) {U T : Type*} {y y' : U → T → K} {pre : List T} {trt ctl : List U}
    (h : ∀ u, u ∈ trt ∨ u ∈ ctl → ∀ t ∈ pre, y u t = y' u t) : unitW W y pre trt ctl = unitW W y' pre trt ctl := by
  unfold unitW
  have e1 : (fun (t : Fin pre.length) (j : Fin ctl.length) => y (ctl.get j) (pre.get t)) = fun t j => y' (ctl.get j) (pre.get t) := by
    funext t j; exact h _ (Or.inr (List.get_mem _ _)) _ (List.get_mem _ _)
  have e2 : (fun t : Fin pre.length => avg (fun i : Fin trt.length => y (trt.get i) (pre.get t)))
      = fun t => avg (fun i : Fin trt.length => y' (trt.get i) (pre.get t)) := by
    funext t; congr 1; funext i; exact h _ (Or.inl (List.get_mem _ _)) _ (List.get_mem _ _)
  rw [e1, e2]

theorem timeW_congr (W : Weights K) {U T : Type*} {y y' : U → T → K} {pre : List T} {trt ctl : List U}
    (h : ∀ u, u ∈ trt ∨ u ∈ ctl → ∀ t ∈ pre, y u t = y' u t) : timeW W y pre trt ctl = timeW W y' pre trt ctl := by
  unfold timeW
  have e1 : (fun (t : Fin pre.length) (j : Fin ctl.length) => y (ctl.get j) (pre.get t)) = fun t j => y' (ctl.get j) (pre.get t) := by
    funext t j; exact h _ (Or.inr (List.get_mem _ _)) _ (List.get_mem _ _)
  have e2 : (fun t : Fin pre.length => avg (fun i : Fin trt.length => y (trt.get i) (pre.get t)))
      = fun t => avg (fun i : Fin trt.length => y' (trt.get i) (pre.get t)) := by
    funext t; congr 1; funext i; exact h _ (Or.inl (List.get_mem _ _)) _ (List.get_mem _ _)
  rw [e1, e2]

/-- C120. An effect that changes only post-period outcomes of treated units leaves unit and time weights alone and moves the
estimate by its average over treated units and post periods. -/
theorem C120_effect (W : Weights K) {U T : Type*} (y y' : U → T → K) (tau : U → T → K) (pre post : List T) (trt ctl : List U)
    (hpre : ∀ u, u ∈ trt ∨ u ∈ ctl → ∀ t ∈ pre, y' u t = y u t) (hctl : ∀ u ∈ ctl, ∀ t ∈ post, y' u t = y u t)
    (htrt : ∀ u ∈ trt, ∀ t ∈ post, y' u t = y u t + tau u t) :
    unitW W y' pre trt ctl = unitW W y pre trt ctl ∧ timeW W y' pre trt ctl = timeW W y pre trt ctl ∧
    attOn W y' pre post trt ctl = attOn W y pre post trt ctl
      + (post.map (fun s => (trt.map (fun u => tau u s)).sum / (trt.length : K))).sum / (post.length : K) := by
  have w1 := unitW_congr W hpre
  have w2 := timeW_congr W hpre
  refine ⟨w1, w2, ?_⟩
  rw [attOn_eq, attOn_eq, w1, w2]
  have e1 : post.map (fun s => avg (fun i : Fin trt.length => y' (trt.get i) s))
      = post.map (fun s => avg (fun i : Fin trt.length => y (trt.get i) s) + (trt.map (fun u => tau u s)).sum / (trt.length : K)) := by
    refine List.map_congr_left fun s hs => ?_
    rw [← avg_eq_sum trt (fun u => tau u s), ← Sdid.avg_add]
    congr 1
    funext i
    exact htrt _ (List.get_mem _ _) s hs
  have e2 : ∀ j : Fin ctl.length, post.map (fun s => y' (ctl.get j) s) = post.map (fun s => y (ctl.get j) s) := fun j =>
    List.map_congr_left fun s hs => hctl _ (List.get_mem _ _) s hs
  have e3 : ∀ t : Fin pre.length, avg (fun i : Fin trt.length => y' (trt.get i) (pre.get t)) = avg (fun i : Fin trt.length => y (trt.get i) (pre.get t)) := by
    intro t; congr 1; funext i; exact hpre _ (Or.inl (List.get_mem _ _)) _ (List.get_mem _ _)
  have e4 : ∀ (j : Fin ctl.length) (t : Fin pre.length), y' (ctl.get j) (pre.get t) = y (ctl.get j) (pre.get t) := fun j t =>
    hpre _ (Or.inr (List.get_mem _ _)) _ (List.get_mem _ _)
  have e5 : ∀ (f g : T → K), (post.map (fun s => f s + g s)).sum = (post.map f).sum + (post.map g).sum := by
    intro f g
    induction post with
    | nil => simp
    | cons a l ih =>
      simp only [List.map_cons, List.sum_cons]
      have := ih (fun u hu t ht => hctl u hu t (List.mem_cons_of_mem _ ht)) (fun u hu t ht => htrt u hu t (List.mem_cons_of_mem _ ht))
        (List.map_congr_left fun s hs => by
          rw [← avg_eq_sum trt (fun u => tau u s), ← Sdid.avg_add]
          congr 1
          funext i
          exact htrt _ (List.get_mem _ _) s (List.mem_cons_of_mem _ hs))
        (fun j => List.map_congr_left fun s hs => hctl _ (List.get_mem _ _) s (List.mem_cons_of_mem _ hs))
      rw [this]; ring
  rw [e1, e5, add_div]
  simp only [e2, e3, e4]
  ring

/-! ### Period effects -/

/-- Weight routines that ignore a time series added to all units. -/
def Weights.TimeInv (W : Weights K) : Prop :=
  ∀ {p n : ℕ} (Y : Fin p → Fin n → K) (T b : Fin p → K), 0 < n →
    W.unit (fun t j => Y t j + b t) (fun t => T t + b t) = W.unit Y T ∧ W.time (fun t j => Y t j + b t) (fun t => T t + b t) = W.time Y T

section loops
variable {p n : ℕ}

theorem numpyLoop_congr {f g : (Fin n → K) → (Fin n → K)} (P : (Fin n → K) → Prop) (tol : K) (h : ∀ w, P w → f w = g w ∧ P (g w)) :
    ∀ k w, P w → numpyLoop f tol k w = numpyLoop g tol k w := by
  intro k
  induction k with
  | zero => intro w _; rfl
  | succ k ih =>
    intro w hw
    obtain ⟨h1, h2⟩ := h w hw
    unfold numpyLoop
    dsimp only
    rw [h1, ih _ h2]

theorem rustLoop_congr {f g : (Fin n → K) → (Fin n → K)} (P : (Fin n → K) → Prop) (tol : K) (h : ∀ w, P w → f w = g w ∧ P (g w)) :
    ∀ k w prev, P w → rustLoop f tol k w prev = rustLoop g tol k w prev := by
  intro k
  induction k with
  | zero => intro w _ _; rfl
  | succ k ih =>
    intro w prev hw
    obtain ⟨h1, h2⟩ := h w hw
    unfold rustLoop
    dsimp only
    rw [h1, ih _ _ h2]

/-- Adding a constant to every entry does not change the projection. -/
theorem proj_shift (v : Fin n → K) (c : K) : proj (fun i => v i + c) = proj v := by
  unfold proj
  have : List.ofFn (fun i => v i + c) = (List.ofFn v).map (· + c) := by rw [List.map_ofFn]; rfl
  rw [this, Simplex.C02_projection_shift]

theorem grad_shift (Y : Fin p → Fin n → K) (T b : Fin p → K) (lam : K) (w : Fin n → K) (hw : ∑ j, w j = 1) (i : Fin n) :
    (hess (Matrix.of fun t j => Y t j + b t) lam).mulVec w i - (Matrix.of (fun t j => Y t j + b t)).transpose.mulVec (fun t => T t + b t) i
    = ((hess (Matrix.of Y) lam).mulVec w i - (Matrix.of Y).transpose.mulVec T i) + ∑ t, b t * (∑ j, Y t j * w j - T t) := by
  have key : ∀ (Z : Fin p → Fin n → K) (S : Fin p → K), (hess (Matrix.of Z) lam).mulVec w i - (Matrix.of Z).transpose.mulVec S i
      = ∑ t, Z t i * (∑ j, Z t j * w j - S t) + lam * w i := by
    intro Z S
    unfold hess
    rw [Matrix.add_mulVec, Matrix.smul_mulVec, Matrix.one_mulVec, ← Matrix.mulVec_mulVec]
    simp only [Pi.add_apply, Pi.smul_apply, smul_eq_mul, Matrix.mulVec, dotProduct, Matrix.transpose_apply, Matrix.of_apply, mul_sub,
      Finset.sum_sub_distrib]
    ring
  rw [key, key]
  have hin : ∀ t, ∑ j, (Y t j + b t) * w j - (T t + b t) = ∑ j, Y t j * w j - T t := by
    intro t
    simp only [add_mul, Finset.sum_add_distrib, ← Finset.mul_sum, hw]
    ring
  simp only [hin]
  simp only [add_mul, Finset.sum_add_distrib]
  ring

theorem stepRust_shift (Y : Fin p → Fin n → K) (T b : Fin p → K) (lam : K) (w : Fin n → K) (hw : ∑ j, w j = 1) :
    stepRust (Matrix.of fun t j => Y t j + b t) (fun t => T t + b t) lam w = stepRust (Matrix.of Y) T lam w := by
  unfold stepRust linRust
  dsimp only
  rw [projRust_eq, projRust_eq]
  rw [← proj_shift _ (1 / 10 * ∑ t, b t * (∑ j, Y t j * w j - T t))]
  congr 1
  funext i
  have := grad_shift Y T b lam w hw i
  simp only [Pi.sub_apply, Pi.smul_apply, smul_eq_mul] at this ⊢
  rw [this]
  ring

theorem stepNumpy_shift (Y : Fin p → Fin n → K) (T b : Fin p → K) (lam st : K) (w : Fin n → K) (hw : ∑ j, w j = 1) :
    stepNumpy (Matrix.of fun t j => Y t j + b t) (fun t => T t + b t) lam st w = stepNumpy (Matrix.of Y) T lam st w := by
  unfold stepNumpy linNumpy
  dsimp only
  rw [← proj_shift _ (st * ∑ t, b t * (∑ j, Y t j * w j - T t))]
  congr 1
  funext i
  have := grad_shift Y T b lam w hw i
  simp only [Pi.sub_apply, Pi.add_apply, Pi.smul_apply, smul_eq_mul] at this ⊢
  linear_combination -st * this
end loops

theorem mean_shift {n : ℕ} (hn : 0 < n) (x : Fin n → ℝ) (c : ℝ) : SynthWeights.mean (fun j => x j + c) = SynthWeights.mean x + c := by
  have : (n : ℝ) ≠ 0 := by exact_mod_cast hn.ne'
  unfold SynthWeights.mean
  rw [Finset.sum_add_distrib, Finset.sum_const, Finset.card_univ, Fintype.card_fin, nsmul_eq_mul]
  field_simp

/-- The weight routines of the code ignore period effects: with the Rust backend always, with NumPy for a step size that does
not change. -/
theorem codeWeights_timeInv (bk : Backend) (lambdaReg zeta eps : ℝ) (step : {p n : ℕ} → (Fin p → Fin n → ℝ) → ℝ) (tol : ℝ) (maxIter : ℕ)
    (hstep : bk = .numpy → ∀ {p n : ℕ} (Y : Fin p → Fin n → ℝ) (b : Fin p → ℝ), step (fun t j => Y t j + b t) = step Y) :
    (codeWeights bk lambdaReg zeta eps step tol maxIter).TimeInv := by
  intro p n Y T b hn
  constructor
  · show computeSyntheticWeights _ _ _ _ _ _ _ _ = computeSyntheticWeights _ _ _ _ _ _ _ _
    unfold computeSyntheticWeights
    have hn0 : n ≠ 0 := by omega
    by_cases h1 : n = 1
    · simp only [if_neg hn0, if_pos h1]
    · simp only [if_neg hn0, if_neg h1]
      cases bk with
      | numpy =>
        dsimp only
        rw [hstep rfl]
        unfold weightsNumpy
        rw [numpyLoop_congr (fun w => ∑ j, w j = 1) tol (fun w hw => ⟨stepNumpy_shift Y T b _ _ w hw, (proj_isProb _ hn).2⟩) _ _
          (uniform_isProb hn).2]
      | rust =>
        dsimp only
        unfold weightsRust
        have hp : ∀ w, ∑ j, stepRust (Matrix.of Y) T lambdaReg w j = 1 := by
          intro w
          unfold stepRust
          rw [projRust_eq]
          exact (proj_isProb _ hn).2
        rw [rustLoop_congr (fun w => ∑ j, w j = 1) tol (fun w hw => ⟨stepRust_shift Y T b _ w hw, hp w⟩) _ _ _ (uniform_isProb hn).2]
  · show computeTimeWeights _ _ _ _ = computeTimeWeights _ _ _ _
    unfold computeTimeWeights
    have : gaps (Matrix.of fun t j => Y t j + b t) (fun t => T t + b t) = gaps (Matrix.of Y) T := by
      funext t
      unfold gaps
      have := mean_shift hn (fun j => Y t j) (b t)
      rw [show (Matrix.of (fun t j => Y t j + b t) t) = fun j => Y t j + b t from rfl, this,
        show (Matrix.of Y t) = fun j => Y t j from rfl]
      congr 1
      ring
    rw [this]

theorem sum_map_add {α : Type*} (l : List α) (f g : α → K) : (l.map (fun x => f x + g x)).sum = (l.map f).sum + (l.map g).sum := by
  induction l with
  | nil => simp
  | cons a l ih => simp only [List.map_cons, List.sum_cons, ih]; ring

/-- Period effects cancel. -/
theorem attOn_time (W : Weights K) (hW : W.Prob) (hT : W.TimeInv) {U T : Type*} (y y' : U → T → K) (b : T → K) (pre post : List T) (trt ctl : List U)
    (ht0 : trt ≠ []) (hc0 : ctl ≠ []) (hp0 : pre ≠ [])
    (h : ∀ u, u ∈ trt ∨ u ∈ ctl → ∀ t, t ∈ pre ∨ t ∈ post → y' u t = y u t + b t) :
    unitW W y' pre trt ctl = unitW W y pre trt ctl ∧ timeW W y' pre trt ctl = timeW W y pre trt ctl ∧
    attOn W y' pre post trt ctl = attOn W y pre post trt ctl := by
  have hn : 0 < ctl.length := List.length_pos_of_ne_nil hc0
  have hm : 0 < trt.length := List.length_pos_of_ne_nil ht0
  have hp : 0 < pre.length := List.length_pos_of_ne_nil hp0
  have a1 : (fun (t : Fin pre.length) (j : Fin ctl.length) => y' (ctl.get j) (pre.get t)) = fun t j => y (ctl.get j) (pre.get t) + b (pre.get t) := by
    funext t j; exact h _ (Or.inr (List.get_mem _ _)) _ (Or.inl (List.get_mem _ _))
  have a2 : (fun t : Fin pre.length => avg (fun i : Fin trt.length => y' (trt.get i) (pre.get t)))
      = fun t => avg (fun i : Fin trt.length => y (trt.get i) (pre.get t)) + b (pre.get t) := by
    funext t
    rw [← Sdid.avg_const hm (b (pre.get t)), ← Sdid.avg_add]
    congr 1; funext i; exact h _ (Or.inl (List.get_mem _ _)) _ (Or.inl (List.get_mem _ _))
  have w1 : unitW W y' pre trt ctl = unitW W y pre trt ctl := by
    unfold unitW; rw [a1, a2]; exact (hT _ _ _ hn).1
  have w2 : timeW W y' pre trt ctl = timeW W y pre trt ctl := by
    unfold timeW; rw [a1, a2]; exact (hT _ _ _ hn).2
  refine ⟨w1, w2, ?_⟩
  rw [attOn_eq, attOn_eq, w1, w2]
  have s1 : ∑ j, unitW W y pre trt ctl j = 1 := (hW.1 _ _ hn).2
  have s2 : ∑ t, timeW W y pre trt ctl t = 1 := (hW.2 _ _ hp).2
  have e1 : post.map (fun s => avg (fun i : Fin trt.length => y' (trt.get i) s))
      = post.map (fun s => avg (fun i : Fin trt.length => y (trt.get i) s) + b s) := by
    refine List.map_congr_left fun s hs => ?_
    rw [← Sdid.avg_const hm (b s), ← Sdid.avg_add]
    congr 1; funext i; exact h _ (Or.inl (List.get_mem _ _)) _ (Or.inr hs)
  have e2 : ∀ j : Fin ctl.length, post.map (fun s => y' (ctl.get j) s) = post.map (fun s => y (ctl.get j) s + b s) := fun j =>
    List.map_congr_left fun s hs => h _ (Or.inr (List.get_mem _ _)) s (Or.inr hs)
  have e3 : ∀ t, avg (fun i : Fin trt.length => y' (trt.get i) (pre.get t)) = avg (fun i : Fin trt.length => y (trt.get i) (pre.get t)) + b (pre.get t) :=
    fun t => congrFun a2 t
  have e4 : ∀ (j : Fin ctl.length) (t : Fin pre.length), y' (ctl.get j) (pre.get t) = y (ctl.get j) (pre.get t) + b (pre.get t) := fun j t =>
    congrFun (congrFun a1 t) j
  rw [e1, sum_map_add]
  simp only [e2, e3, e4, sum_map_add, mul_add, Finset.sum_add_distrib, add_div]
  have e6 : ∀ (B C : K) (f g : Fin ctl.length → K), ∑ j, unitW W y pre trt ctl j * (f j + B - (g j + C)) = ∑ j, unitW W y pre trt ctl j * (f j - g j) + (B - C) := by
    intro B C f g
    have : ∀ j, unitW W y pre trt ctl j * (f j + B - (g j + C)) = unitW W y pre trt ctl j * (f j - g j) + unitW W y pre trt ctl j * (B - C) := fun j => by ring
    simp only [this, Finset.sum_add_distrib, ← Finset.sum_mul, s1, one_mul]
  rw [e6]
  ring

/-! ### Rows with period effects -/

/-- Add a number per period to all outcomes. -/
def addTime (b : ℤ → K) (rows : List (Row K)) : List (Row K) := rows.map (fun r => { r with y := r.y.map (· + b r.time) })

theorem cell_addTime (b : ℤ → K) (rows : List (Row K)) (u t : ℤ) : cell (addTime b rows) u t = (cell rows u t).map (· + b t) := by
  unfold cell addTime
  rw [List.find?_map]
  have : ((fun r : Row K => decide (r.unit = u ∧ r.time = t)) ∘ fun r : Row K => { r with y := r.y.map (· + b r.time) })
      = fun r => decide (r.unit = u ∧ r.time = t) := rfl
  rw [this]
  cases hf : rows.find? (fun r => decide (r.unit = u ∧ r.time = t)) with
  | none => rfl
  | some r =>
    have h' := List.find?_some hf
    simp only [decide_eq_true_eq] at h'
    simp only [Option.map_some, Option.bind_some, h'.2]

theorem sample_addTime (b : ℤ → K) (rows : List (Row K)) (postArg : Option (List ℤ)) : sample (addTime b rows) postArg = sample rows postArg := by
  have e1 : allPeriods (addTime b rows) = allPeriods rows := by
    unfold allPeriods addTime; rw [List.map_map]; rfl
  have e0 : allUnits (addTime b rows) = allUnits rows := by
    unfold allUnits addTime; rw [List.map_map]; rfl
  have ef : firstTreat (addTime b rows) = firstTreat rows := by
    funext u
    unfold firstTreat addTime
    rw [List.filter_map, List.findSome?_map]
    rfl
  have e2 : treatedUnits (addTime b rows) = treatedUnits rows := by unfold treatedUnits; rw [e0, ef]
  have e3 : controlUnits (addTime b rows) = controlUnits rows := by unfold controlUnits; rw [e0, ef]
  have e4 : (∃ r ∈ addTime b rows, ∃ v, r.d = some v ∧ v ≠ 0 ∧ v ≠ 1) ↔ (∃ r ∈ rows, ∃ v, r.d = some v ∧ v ≠ 0 ∧ v ≠ 1) := by
    constructor
    · rintro ⟨r, hr, q⟩
      obtain ⟨r', hr', rfl⟩ := List.mem_map.1 hr
      exact ⟨r', hr', q⟩
    · rintro ⟨r, hr, q⟩
      exact ⟨_, List.mem_map_of_mem hr, q⟩
  have e5 : (addTime b rows).map (fun r => (r.unit, r.time)) = rows.map (fun r => (r.unit, r.time)) := by
    unfold addTime; rw [List.map_map]; rfl
  have e6 : ∀ u t, cell (addTime b rows) u t = none ↔ cell rows u t = none := by
    intro u t; rw [cell_addTime]; simp
  unfold sample
  simp only [e1, e2, e3, e4, e5, e6]

theorem outcome_addTime (b : ℤ → K) {rows : List (Row K)} {postArg : Option (List ℤ)} {s : Sample} (h : sample rows postArg = .ok s) (u t : ℤ)
    (hu : u ∈ s.trt ∨ u ∈ s.ctl) (ht : t ∈ s.pre ∨ t ∈ s.post) : outcome (addTime b rows) u t = outcome rows u t + b t := by
  have ha := (C119_accepts rows postArg).1 ⟨s, h⟩
  have hs := sample_eq h
  have hu' : firstTreat rows u = some 0 ∨ firstTreat rows u = some 1 := by
    subst hs
    rcases hu with hu | hu
    · exact Or.inr (mem_treated.1 hu)
    · exact Or.inl (mem_control.1 hu)
  have ht' : ∃ r ∈ rows, r.time = t := by
    rw [← mem_allPeriods]
    subst hs
    cases postArg with
    | none =>
      rcases ht with ht | ht
      · exact List.mem_of_mem_take ht
      · exact List.mem_of_mem_drop ht
    | some l =>
      rcases ht with ht | ht
      · exact (List.mem_filter.1 ht).1
      · exact mem_allPeriods.2 ((ha.post l rfl).2.1 t ht)
  obtain ⟨r, hr, rfl⟩ := ht'
  obtain ⟨v, hv⟩ := ha.complete u hu' r hr
  unfold outcome
  rw [cell_addTime, hv]
  rfl

theorem cols_length {n k : ℕ} {π : List ℕ} (h : ∀ i ∈ π, i < n) : (cols n π).length = π.length := by
  clear k
  induction π with
  | nil => rfl
  | cons a π ih =>
    have ha : a < n := h a (List.mem_cons_self)
    have := ih (fun i hi => h i (List.mem_cons_of_mem _ hi))
    unfold cols at this ⊢
    rw [List.filterMap_cons]
    simp only [ha, dif_pos, List.length_cons, this]

/-- Adding a number per period to all outcomes does not change a placebo estimate. -/
theorem placeboOnce_time {p q n a c : ℕ} (Ypc : Fin p → Fin n → K) (Yqc : Fin q → Fin n → K) (omega : Fin n → K) (lam : Fin p → K)
    (ctl : Fin a → Fin n) (trt : Fin c → Fin n) (b : Fin p → K) (d : Fin q → K) (ha : 0 < a) (hc : 0 < c) (hq : 0 < q) (hl : ∑ t, lam t = 1) :
    placeboOnce (fun t j => Ypc t j + b t) (fun s j => Yqc s j + d s) omega lam ctl trt = placeboOnce Ypc Yqc omega lam ctl trt := by
  have ha' : (a : K) ≠ 0 := by exact_mod_cast ha.ne'
  unfold placeboOnce
  dsimp only
  have e1 : ∀ t, avg (fun i => Ypc t (trt i) + b t) = avg (fun i => Ypc t (trt i)) + b t := by
    intro t; rw [Sdid.avg_add (fun i => Ypc t (trt i)) (fun _ => b t), Sdid.avg_const hc]
  have e2 : ∀ s, avg (fun i => Yqc s (trt i) + d s) = avg (fun i => Yqc s (trt i)) + d s := by
    intro s; rw [Sdid.avg_add (fun i => Yqc s (trt i)) (fun _ => d s), Sdid.avg_const hc]
  simp only [e1, e2]
  have hw : ∑ i, (if 0 < ∑ i, omega (ctl i) then fun i => omega (ctl i) / ∑ i, omega (ctl i) else fun _ => 1 / (a : K)) i = 1 := by
    split_ifs with h
    · rw [← Finset.sum_div, div_self h.ne']
    · simp [ha']
  have := Sdid.C06_fixed_effect_invariant (fun t i => Ypc t (ctl i)) (fun s i => Yqc s (ctl i)) (fun t => avg (fun i => Ypc t (trt i)))
    (fun s => avg (fun i => Yqc s (trt i))) (fun _ => 0) 0 b d _ lam hq hw hl
  simpa only [zero_add] using this

theorem placeboSe_time {p q n : ℕ} (Ypc : Fin p → Fin n → K) (Yqc : Fin q → Fin n → K) (omega : Fin n → K) (lam : Fin p → K)
    (nT : ℕ) (perms : List (List ℕ)) (b : Fin p → K) (d : Fin q → K) (hT : 0 < nT) (hq : 0 < q) (hl : ∑ t, lam t = 1)
    (hp : ∀ π ∈ perms, π.Perm (List.range n)) :
    placeboSe (fun t j => Ypc t j + b t) (fun s j => Yqc s j + d s) omega lam nT perms = placeboSe Ypc Yqc omega lam nT perms := by
  unfold placeboSe
  split_ifs with h
  · rfl
  have e : perms.map (fun π => placeboOnce (fun t j => Ypc t j + b t) (fun s j => Yqc s j + d s) omega lam (cols n (π.take (n - nT))).get
        (cols n (π.drop (n - nT))).get)
      = perms.map (fun π => placeboOnce Ypc Yqc omega lam (cols n (π.take (n - nT))).get (cols n (π.drop (n - nT))).get) := by
    refine List.map_congr_left fun π hπ => ?_
    have hb : ∀ i ∈ π, i < n := fun i hi => List.mem_range.1 ((hp π hπ).subset hi)
    have hlen : π.length = n := by rw [(hp π hπ).length_eq, List.length_range]
    refine placeboOnce_time Ypc Yqc omega lam _ _ b d ?_ ?_ hq hl
    · rw [cols_length (k := 0) (fun i hi => hb i (List.mem_of_mem_take hi)), List.length_take]; omega
    · rw [cols_length (k := 0) (fun i hi => hb i (List.mem_of_mem_drop hi)), List.length_drop]; omega
  simp only [e]

theorem bootEst_time (W : Weights K) (hW : W.Prob) (hT : W.TimeInv) (y y' : ℤ → ℤ → K) (b : ℤ → K) (pre post trt ctl : List ℤ) (hp0 : pre ≠ [])
    (hy : ∀ u, (u ∈ trt ∨ u ∈ ctl) → ∀ t, (t ∈ pre ∨ t ∈ post) → y' u t = y u t + b t) (S : List ℤ) :
    bootEst W y' pre post trt ctl S = bootEst W y pre post trt ctl S := by
  have m1 : ∀ x ∈ S.zipIdx.filter (fun x => decide (x.1 ∈ trt)), x.1 ∈ trt := fun x hx => of_decide_eq_true (List.mem_filter.1 hx).2
  have m2 : ∀ x ∈ S.zipIdx.filter (fun x => decide (x.1 ∈ ctl)), x.1 ∈ ctl := fun x hx => of_decide_eq_true (List.mem_filter.1 hx).2
  unfold bootEst
  dsimp only
  generalize S.zipIdx.filter (fun x => decide (x.1 ∈ trt)) = bt at m1 ⊢
  generalize S.zipIdx.filter (fun x => decide (x.1 ∈ ctl)) = bc at m2 ⊢
  by_cases hne : bt.length = 0 ∨ bc.length = 0
  · simp only [if_pos hne]
  simp only [if_neg hne]
  have k1 : bt ≠ [] := fun h => hne (Or.inl (by rw [h]; rfl))
  have k2 : bc ≠ [] := fun h => hne (Or.inr (by rw [h]; rfl))
  have := (attOn_time W hW hT (fun x t => y x.1 t) (fun x t => y' x.1 t) b pre post bt bc k1 k2 hp0
    (fun u hu t ht => hy u.1 (hu.imp (m1 u) (m2 u)) t ht)).2.2
  rw [this]

theorem preFit2_time (W : Weights K) (hW : W.Prob) (hT : W.TimeInv) (y y' : ℤ → ℤ → K) (b : ℤ → K) (pre trt ctl : List ℤ) (ht0 : trt ≠ []) (hc0 : ctl ≠ [])
    (h1 : unitW W y' pre trt ctl = unitW W y pre trt ctl)
    (hy : ∀ u, (u ∈ trt ∨ u ∈ ctl) → ∀ t, t ∈ pre → y' u t = y u t + b t) :
    preFit2 W y' pre trt ctl = preFit2 W y pre trt ctl := by
  have hm : 0 < trt.length := List.length_pos_of_ne_nil ht0
  have s1 : ∑ j, unitW W y pre trt ctl j = 1 := (hW.1 _ _ (List.length_pos_of_ne_nil hc0)).2
  unfold preFit2
  rw [h1]
  congr 1
  funext t
  have e1 : avg (fun i : Fin trt.length => y' (trt.get i) (pre.get t)) = avg (fun i : Fin trt.length => y (trt.get i) (pre.get t)) + b (pre.get t) := by
    rw [← Sdid.avg_const hm (b (pre.get t)), ← Sdid.avg_add]
    congr 1; funext i; exact hy _ (Or.inl (List.get_mem _ _)) _ (List.get_mem _ _)
  have e2 : ∀ j : Fin ctl.length, y' (ctl.get j) (pre.get t) = y (ctl.get j) (pre.get t) + b (pre.get t) :=
    fun j => hy _ (Or.inr (List.get_mem _ _)) _ (List.get_mem _ _)
  rw [e1]
  have e3 : ∑ j, y' (ctl.get j) (pre.get t) * unitW W y pre trt ctl j = ∑ j, y (ctl.get j) (pre.get t) * unitW W y pre trt ctl j + b (pre.get t) := by
    rw [Finset.sum_congr rfl (fun j _ => by rw [e2 j, add_mul]), Finset.sum_add_distrib, ← Finset.mul_sum, s1, mul_one]
  rw [e3]
  ring

/-- C120. Adding a number per period to the outcomes of all units changes nothing that `fit` reports: estimate, weights, fit,
every bootstrap or placebo estimate, standard error, p-value and interval. -/
theorem C120_period_effects (W : Weights K) (hW : W.Prob) (hT : W.TimeInv) (r pval : K → K) (crit : K) (boot : Bool) (draws : List (List ℕ))
    (rows : List (Row K)) (postArg : Option (List ℤ)) (b : ℤ → K) (hc : Constant rows)
    (hp : boot = false → ∀ s, sample rows postArg = .ok s → ∀ π ∈ draws, π.Perm (List.range s.ctl.length)) :
    fit W r pval crit boot draws (addTime b rows) postArg = fit W r pval crit boot draws rows postArg := by
  unfold fit
  rw [sample_addTime]
  cases hs : sample rows postArg with
  | error e => rfl
  | ok s =>
    obtain ⟨_, _, _, _, _, _, _, _, ht0, hc0, hp0, hq0, _⟩ := C119_sample rows postArg s hs hc
    have hy := outcome_addTime b hs
    have hy' : ∀ u, (u ∈ s.trt ∨ u ∈ s.ctl) → ∀ t, (t ∈ s.pre ∨ t ∈ s.post) → outcome (addTime b rows) u t = outcome rows u t + b t :=
      fun u hu t ht => hy u t hu ht
    obtain ⟨h1, h2, h3⟩ := attOn_time W hW hT (outcome rows) (outcome (addTime b rows)) b s.pre s.post s.trt s.ctl ht0 hc0 hp0 hy'
    have hn : 0 < s.ctl.length := List.length_pos_of_ne_nil hc0
    have hm : 0 < s.trt.length := List.length_pos_of_ne_nil ht0
    have s1 : ∑ j, unitW W (outcome rows) s.pre s.trt s.ctl j = 1 := (hW.1 _ _ hn).2
    have s2 : ∑ t, timeW W (outcome rows) s.pre s.trt s.ctl t = 1 := (hW.2 _ _ (List.length_pos_of_ne_nil hp0)).2
    have h4 : bootSe W (outcome (addTime b rows)) s.pre s.post s.trt s.ctl draws = bootSe W (outcome rows) s.pre s.post s.trt s.ctl draws := by
      unfold bootSe
      simp only [bootEst_time W hW hT _ _ b s.pre s.post s.trt s.ctl hp0 hy']
    have h5 : boot = false → placeboSe (fun (t : Fin s.pre.length) (j : Fin s.ctl.length) => outcome (addTime b rows) (s.ctl.get j) (s.pre.get t))
        (fun (t : Fin s.post.length) j => outcome (addTime b rows) (s.ctl.get j) (s.post.get t)) (unitW W (outcome rows) s.pre s.trt s.ctl)
        (timeW W (outcome rows) s.pre s.trt s.ctl) s.trt.length draws
      = placeboSe (fun (t : Fin s.pre.length) (j : Fin s.ctl.length) => outcome rows (s.ctl.get j) (s.pre.get t))
        (fun (t : Fin s.post.length) j => outcome rows (s.ctl.get j) (s.post.get t)) (unitW W (outcome rows) s.pre s.trt s.ctl)
        (timeW W (outcome rows) s.pre s.trt s.ctl) s.trt.length draws := by
      intro hb
      have e1 : (fun (t : Fin s.pre.length) (j : Fin s.ctl.length) => outcome (addTime b rows) (s.ctl.get j) (s.pre.get t))
          = fun t j => outcome rows (s.ctl.get j) (s.pre.get t) + b (s.pre.get t) := by
        funext t j; exact hy _ _ (Or.inr (List.get_mem _ _)) (Or.inl (List.get_mem _ _))
      have e2 : (fun (t : Fin s.post.length) (j : Fin s.ctl.length) => outcome (addTime b rows) (s.ctl.get j) (s.post.get t))
          = fun t j => outcome rows (s.ctl.get j) (s.post.get t) + b (s.post.get t) := by
        funext t j; exact hy _ _ (Or.inr (List.get_mem _ _)) (Or.inr (List.get_mem _ _))
      rw [e1, e2]
      exact placeboSe_time _ _ _ _ _ _ _ _ hm (List.length_pos_of_ne_nil hq0) s2 (hp hb s hs)
    have h6 : preFit2 W (outcome (addTime b rows)) s.pre s.trt s.ctl = preFit2 W (outcome rows) s.pre s.trt s.ctl :=
      preFit2_time W hW hT _ _ b s.pre s.trt s.ctl ht0 hc0 h1 (fun u hu t ht => hy' u hu t (Or.inl ht))
    have hlen : (addTime b rows).length = rows.length := by unfold addTime; rw [List.length_map]
    dsimp only
    cases boot with
    | true => simp only [h1, h2, h3, h4, h6, hlen, if_true]
    | false => simp only [h1, h2, h3, h5 rfl, h6, hlen, Bool.false_eq_true, if_false]

/-! ### Order of units -/

/-- Weight routines that treat control units alike. -/
def Weights.Sym (W : Weights K) : Prop :=
  ∀ {p n : ℕ} (Y : Fin p → Fin n → K) (T : Fin p → K) (σ : Equiv.Perm (Fin n)),
    W.unit (fun t j => Y t (σ j)) T = (fun j => W.unit Y T (σ j)) ∧ W.time (fun t j => Y t (σ j)) T = W.time Y T

section sym
variable {p n : ℕ}

theorem proj_sym (v : Fin n → K) (σ : Equiv.Perm (Fin n)) : proj (fun i => v (σ i)) = fun i => proj v (σ i) := by
  have hp : (List.ofFn (fun i => v (σ i))).Perm (List.ofFn v) := Equiv.Perm.ofFn_comp_perm σ v
  obtain ⟨f, h1, h2⟩ := Simplex.C02_projection_perm _ _ hp
  funext i
  unfold proj
  rw [h1, h2]
  simp [List.map_ofFn]

theorem numpyLoop_sym {f g : (Fin n → K) → (Fin n → K)} (σ : Equiv.Perm (Fin n)) (tol : K) (h : ∀ w, f (fun i => w (σ i)) = fun i => g w (σ i)) :
    ∀ k w, numpyLoop f tol k (fun i => w (σ i)) = fun i => numpyLoop g tol k w (σ i) := by
  intro k
  induction k with
  | zero => intro w; rfl
  | succ k ih =>
    intro w
    unfold numpyLoop
    dsimp only
    rw [h]
    have : ∑ i, (g w (σ i) - w (σ i)) ^ 2 = ∑ i, (g w i - w i) ^ 2 := Equiv.sum_comp σ (fun i => (g w i - w i) ^ 2)
    rw [this, ih]
    split_ifs <;> rfl

theorem rustLoop_sym {f g : (Fin n → K) → (Fin n → K)} (σ : Equiv.Perm (Fin n)) (tol : K) (h : ∀ w, f (fun i => w (σ i)) = fun i => g w (σ i)) :
    ∀ k w prev, rustLoop f tol k (fun i => w (σ i)) (fun i => prev (σ i)) = fun i => rustLoop g tol k w prev (σ i) := by
  intro k
  induction k with
  | zero => intro w _; rfl
  | succ k ih =>
    intro w prev
    unfold rustLoop
    dsimp only
    rw [h]
    have : ∑ i, (g w (σ i) - prev (σ i)) ^ 2 = ∑ i, (g w i - prev i) ^ 2 := Equiv.sum_comp σ (fun i => (g w i - prev i) ^ 2)
    rw [this, ih]
    split_ifs <;> rfl

theorem grad_sym (Y : Fin p → Fin n → K) (T : Fin p → K) (lam : K) (w : Fin n → K) (σ : Equiv.Perm (Fin n)) (i : Fin n) :
    (hess (Matrix.of fun t j => Y t (σ j)) lam).mulVec (fun i => w (σ i)) i - (Matrix.of (fun t j => Y t (σ j))).transpose.mulVec T i
    = (hess (Matrix.of Y) lam).mulVec w (σ i) - (Matrix.of Y).transpose.mulVec T (σ i) := by
  have key : ∀ (Z : Fin p → Fin n → K) (v : Fin n → K) (i : Fin n), (hess (Matrix.of Z) lam).mulVec v i - (Matrix.of Z).transpose.mulVec T i
      = ∑ t, Z t i * (∑ j, Z t j * v j - T t) + lam * v i := by
    intro Z v i
    unfold hess
    rw [Matrix.add_mulVec, Matrix.smul_mulVec, Matrix.one_mulVec, ← Matrix.mulVec_mulVec]
    simp only [Pi.add_apply, Pi.smul_apply, smul_eq_mul, Matrix.mulVec, dotProduct, Matrix.transpose_apply, Matrix.of_apply, mul_sub,
      Finset.sum_sub_distrib]
    ring
  rw [key, key]
  congr 1
  refine Finset.sum_congr rfl fun t _ => ?_
  rw [Equiv.sum_comp σ (fun j => Y t j * w j)]

theorem stepRust_sym (Y : Fin p → Fin n → K) (T : Fin p → K) (lam : K) (w : Fin n → K) (σ : Equiv.Perm (Fin n)) :
    stepRust (Matrix.of fun t j => Y t (σ j)) T lam (fun i => w (σ i)) = fun i => stepRust (Matrix.of Y) T lam w (σ i) := by
  unfold stepRust linRust
  dsimp only
  rw [projRust_eq, projRust_eq, ← proj_sym]
  congr 1
  funext i
  have := grad_sym Y T lam w σ i
  simp only [Pi.sub_apply, Pi.smul_apply, smul_eq_mul] at this ⊢
  rw [this]

theorem stepNumpy_sym (Y : Fin p → Fin n → K) (T : Fin p → K) (lam st : K) (w : Fin n → K) (σ : Equiv.Perm (Fin n)) :
    stepNumpy (Matrix.of fun t j => Y t (σ j)) T lam st (fun i => w (σ i)) = fun i => stepNumpy (Matrix.of Y) T lam st w (σ i) := by
  unfold stepNumpy linNumpy
  dsimp only
  rw [← proj_sym]
  congr 1
  funext i
  have := grad_sym Y T lam w σ i
  simp only [Pi.sub_apply, Pi.add_apply, Pi.smul_apply, smul_eq_mul, uniform] at this ⊢
  linear_combination -st * this

theorem cleanWeights_sym (m : K) (w : Fin n → K) (σ : Equiv.Perm (Fin n)) :
    cleanWeights m (fun i => w (σ i)) = fun i => cleanWeights m w (σ i) := by
  unfold cleanWeights
  dsimp only
  rw [Equiv.sum_comp σ (fun i => if w i < m then 0 else w i)]
  split_ifs <;> rfl
end sym

/-- The weight routines of the code treat control units alike (for NumPy: if the step size does). -/
theorem codeWeights_sym (bk : Backend) (lambdaReg zeta eps : ℝ) (step : {p n : ℕ} → (Fin p → Fin n → ℝ) → ℝ) (tol : ℝ) (maxIter : ℕ)
    (hstep : bk = .numpy → ∀ {p n : ℕ} (Y : Fin p → Fin n → ℝ) (σ : Equiv.Perm (Fin n)), step (fun t j => Y t (σ j)) = step Y) :
    (codeWeights bk lambdaReg zeta eps step tol maxIter).Sym := by
  intro p n Y T σ
  constructor
  · show computeSyntheticWeights _ _ _ _ _ _ _ _ = fun j => computeSyntheticWeights _ _ _ _ _ _ _ _ (σ j)
    unfold computeSyntheticWeights
    by_cases hn0 : n = 0
    · simp only [if_pos hn0]
    by_cases h1 : n = 1
    · simp only [if_neg hn0, if_pos h1]
    simp only [if_neg hn0, if_neg h1]
    rw [← cleanWeights_sym]
    congr 1
    cases bk with
    | numpy =>
      dsimp only
      rw [hstep rfl]
      exact numpyLoop_sym σ tol (fun w => stepNumpy_sym Y T _ _ w σ) maxIter (uniform n)
    | rust => exact rustLoop_sym σ tol (fun w => stepRust_sym Y T _ w σ) maxIter (uniform n) (uniform n)
  · show computeTimeWeights _ _ _ _ = computeTimeWeights _ _ _ _
    unfold computeTimeWeights
    have : gaps (Matrix.of fun t j => Y t (σ j)) T = gaps (Matrix.of Y) T := by
      funext t
      unfold gaps SynthWeights.mean
      congr 3
      exact Equiv.sum_comp σ (fun j => Y t j)
    rw [this]

theorem perm_equiv {α : Type*} {l l' : List α} (h : l.Perm l') : ∃ e : Fin l'.length ≃ Fin l.length, ∀ i, l.get (e i) = l'.get i := by
  induction h with
  | nil => exact ⟨Equiv.refl _, fun i => i.elim0⟩
  | @cons x l l' h ih =>
    obtain ⟨e, he⟩ := ih
    refine ⟨⟨Fin.cases 0 (fun i => (e i).succ), Fin.cases 0 (fun i => (e.symm i).succ), ?_, ?_⟩, ?_⟩
    · intro i; refine Fin.cases rfl (fun i => ?_) i; simp
    · intro i; refine Fin.cases rfl (fun i => ?_) i; simp
    · intro i
      refine Fin.cases rfl (fun i => ?_) i
      simpa using he i
  | swap x y l =>
    refine ⟨Equiv.swap ⟨0, by simp⟩ ⟨1, by simp⟩, ?_⟩
    intro i
    by_cases h0 : i = ⟨0, by simp⟩
    · subst h0; rw [Equiv.swap_apply_left]; rfl
    · by_cases h1 : i = ⟨1, by simp⟩
      · subst h1; rw [Equiv.swap_apply_right]; rfl
      · rw [Equiv.swap_apply_of_ne_of_ne h0 h1]
        match i, h0, h1 with
        | ⟨0, _⟩, h0, _ => exact absurd rfl h0
        | ⟨1, _⟩, _, h1 => exact absurd rfl h1
        | ⟨k + 2, _⟩, _, _ => rfl
  | trans _ _ ih1 ih2 =>
    obtain ⟨e1, h1⟩ := ih1
    obtain ⟨e2, h2⟩ := ih2
    exact ⟨e2.trans e1, fun i => by rw [Equiv.trans_apply, h1, h2]⟩

/-- Symmetry across index types of equal size. -/
theorem Weights.Sym.equiv {W : Weights K} (hW : W.Sym) {p n m : ℕ} (Y : Fin p → Fin n → K) (T : Fin p → K) (e : Fin m ≃ Fin n) :
    W.unit (fun t j => Y t (e j)) T = (fun j => W.unit Y T (e j)) ∧ W.time (fun t j => Y t (e j)) T = W.time Y T := by
  have h : m = n := by simpa using Fintype.card_congr e
  subst h
  exact hW Y T e

/-- C120. The order of the units does not matter: the estimate is the same, and every control unit keeps its weight. -/
theorem C120_unit_order (W : Weights K) (hW : W.Sym) {U T : Type*} (y : U → T → K) (pre post : List T) (trt trt' ctl ctl' : List U)
    (ht : trt.Perm trt') (hc : ctl.Perm ctl') :
    attOn W y pre post trt ctl = attOn W y pre post trt' ctl' ∧
    (List.ofFn (fun j => (ctl.get j, unitW W y pre trt ctl j))).Perm (List.ofFn (fun j => (ctl'.get j, unitW W y pre trt' ctl' j))) ∧
    timeW W y pre trt ctl = timeW W y pre trt' ctl' := by
  obtain ⟨e, he⟩ := perm_equiv hc
  have hm : ∀ t, avg (fun i : Fin trt.length => y (trt.get i) t) = avg (fun i : Fin trt'.length => y (trt'.get i) t) := by
    intro t
    rw [avg_eq_sum trt (fun u => y u t), avg_eq_sum trt' (fun u => y u t), (ht.map _).sum_eq, ht.length_eq]
  have hu : unitW W y pre trt' ctl' = fun j => unitW W y pre trt ctl (e j) := by
    unfold unitW
    simp only [← hm, ← he]
    exact (hW.equiv (fun (t : Fin pre.length) j => y (ctl.get j) (pre.get t)) _ e).1
  have hw : timeW W y pre trt ctl = timeW W y pre trt' ctl' := by
    unfold timeW
    simp only [← hm, ← he]
    exact (hW.equiv (fun (t : Fin pre.length) j => y (ctl.get j) (pre.get t)) _ e).2.symm
  refine ⟨?_, ?_, hw⟩
  · rw [attOn_eq, attOn_eq, ← hw, hu]
    simp only [hm]
    congr 1
    rw [← Equiv.sum_comp e]
    refine Finset.sum_congr rfl fun j _ => ?_
    rw [he]
  · rw [hu]
    have hlen : ctl'.length = ctl.length := hc.length_eq.symm
    have e1 : List.ofFn (fun j => (ctl'.get j, unitW W y pre trt ctl (e j))) = List.ofFn (fun j => (fun k => (ctl.get k, unitW W y pre trt ctl k)) (e j)) := by
      congr 1; funext j; rw [← he]
    rw [e1]
    have gen : ∀ (n m : ℕ) (e : Fin m ≃ Fin n) (f : Fin n → U × K), (List.ofFn f).Perm (List.ofFn (fun j => f (e j))) := by
      intro n m e f
      have h : m = n := by simpa using Fintype.card_congr e
      subst h
      exact (Equiv.Perm.ofFn_comp_perm e f).symm
    exact gen _ _ e _

end DiffDiff.SdidFit
