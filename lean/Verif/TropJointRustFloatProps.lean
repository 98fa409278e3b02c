/-
The compiled joint search on floats: runs on finite weights are exact runs, weights agree with the Python code except when a unit without
pre-treatment data meets `lambda_unit = 0`, where they are NaN.
-/
import Verif.TropJointRustProps

set_option linter.unusedSectionVars false
set_option linter.unusedVariables false

namespace DiffDiff.TropJointRust

open TropFit (Data Cfg Ops Lam3 sumL fieldOps extOps up toExt upC)
open TropJoint (Sol IsMin obj res)
open Finset

variable {K : Type*} [Field K] [LinearOrder K] [IsStrictOrderedRing K]
variable (e r : K → K) (svd : K → ℕ → ℕ → (ℕ → ℕ → K) → (ℕ → ℕ → K))

/-! ### Float runs on finite weights are exact runs -/

/-- Parameters as floats. -/
def upS (s : Sol K) : Sol (Ext K) := { mu := .fin s.mu, alpha := fun i => .fin (s.alpha i), beta := fun t => .fin (s.beta t), tau := .fin s.tau }

/-- Inputs as floats. -/
def upI (x : In K) : In (Ext K) := { nT := x.nT, nN := x.nN, y := up x.y, w := up x.w, d := up x.d }

theorem sumL_upf (f : ℕ → K) (n : ℕ) :
    sumL (extOps e r svd) ((List.range n).map (fun i => .fin (f i))) = .fin (sumL (fieldOps e r svd) ((List.range n).map f)) := by
  rw [← TropFit.sumL_up, List.map_map]; rfl

theorem sumC_up (x : In K) (f : ℕ → ℕ → K) :
    sumC (extOps e r svd) (upI x) (fun t i => .fin (f t i)) = .fin (sumC (fieldOps e r svd) x f) := by
  unfold sumC upI
  simp only [sumL_upf]

theorem div_up' (a b : K) (h : b ≠ 0) : (extOps e r svd).div (.fin a) (.fin b) = .fin ((fieldOps e r svd).div a b) := TropFit.div_up e r svd a b h
theorem sub_up' (a b : K) : (extOps e r svd).sub (.fin a) (.fin b) = .fin ((fieldOps e r svd).sub a b) := TropFit.sub_up e r svd a b
theorem mul_up' (a b : K) : (extOps e r svd).mul (.fin a) (.fin b) = .fin ((fieldOps e r svd).mul a b) := rfl
theorem abs_up' (a : K) : (extOps e r svd).abs (.fin a) = .fin ((fieldOps e r svd).abs a) := rfl
theorem lt_up' (a b : K) : (extOps e r svd).lt (.fin a) (.fin b) = (fieldOps e r svd).lt a b := rfl

theorem const_up (n : ℕ) (h : n ≠ 0) : (extOps e r svd).div (extOps e r svd).one ((extOps e r svd).ofNat n) =
    .fin ((fieldOps e r svd).div (fieldOps e r svd).one ((fieldOps e r svd).ofNat n)) := by
  show (extOps e r svd).div (.fin 1) (.fin (n : K)) = _
  rw [div_up' _ _ _ _ _ (by exact_mod_cast h)]; rfl

theorem tiny_up : tiny (extOps e r svd) = .fin (tiny (fieldOps e r svd)) := const_up e r svd _ (by norm_num)
theorem small_up : small (extOps e r svd) = .fin (small (fieldOps e r svd)) := const_up e r svd _ (by norm_num)

theorem ne_of_lt_tiny {a : K} (h : (fieldOps e r svd).lt (tiny (fieldOps e r svd)) a = true) : a ≠ 0 := by
  rw [tiny_eq] at h
  exact (tiny_pos.trans (of_decide_eq_true h)).ne'

theorem unitSum_up (x : In K) (i : ℕ) : unitSum (extOps e r svd) (upI x) i = .fin (unitSum (fieldOps e r svd) x i) := sumL_upf e r svd _ _
theorem timeSum_up (x : In K) (t : ℕ) : timeSum (extOps e r svd) (upI x) t = .fin (timeSum (fieldOps e r svd) x t) := sumL_upf e r svd _ _
theorem sumW_up (x : In K) : sumW (extOps e r svd) (upI x) = .fin (sumW (fieldOps e r svd) x) := sumC_up e r svd x _

theorem alphaUp_up (x : In K) (s : Sol K) (i : ℕ) :
    alphaUp (extOps e r svd) (upI x) (upS s) i = .fin (alphaUp (fieldOps e r svd) x s i) := by
  unfold alphaUp
  by_cases h0 : i = 0
  · simp only [if_pos h0]; rfl
  · simp only [if_neg h0]
    rw [unitSum_up, tiny_up, lt_up']
    by_cases h : (fieldOps e r svd).lt (tiny (fieldOps e r svd)) (unitSum (fieldOps e r svd) x i) = true
    · rw [if_pos h, if_pos h]
      rw [← div_up' e r svd _ _ (ne_of_lt_tiny e r svd h)]
      congr 1
      rw [← sumL_upf]
      congr 1
      simp only [upI, upS, up, sub_up', mul_up']
    · rw [if_neg h, if_neg h]; rfl

theorem betaUp_up (x : In K) (s : Sol K) (t : ℕ) :
    betaUp (extOps e r svd) (upI x) (upS s) t = .fin (betaUp (fieldOps e r svd) x s t) := by
  unfold betaUp
  by_cases h0 : t = 0
  · simp only [if_pos h0]; rfl
  · simp only [if_neg h0]
    rw [timeSum_up, tiny_up, lt_up']
    by_cases h : (fieldOps e r svd).lt (tiny (fieldOps e r svd)) (timeSum (fieldOps e r svd) x t) = true
    · rw [if_pos h, if_pos h]
      rw [← div_up' e r svd _ _ (ne_of_lt_tiny e r svd h)]
      congr 1
      rw [← sumL_upf]
      congr 1
      simp only [upI, upS, up, sub_up', mul_up']
    · rw [if_neg h, if_neg h]; rfl

theorem denTau_up (x : In K) : denTau (extOps e r svd) (upI x) = .fin (denTau (fieldOps e r svd) x) := by
  unfold denTau
  rw [← sumC_up]
  congr 1
  funext t i
  rw [const_up _ _ _ _ (by norm_num)]
  show (if (extOps e r svd).lt _ (.fin (x.d t i)) then _ else _) = _
  rw [lt_up']
  split_ifs <;> rfl

theorem numTau_up (x : In K) (s : Sol K) : numTau (extOps e r svd) (upI x) (upS s) = .fin (numTau (fieldOps e r svd) x s) := by
  unfold numTau
  rw [← sumC_up]
  congr 1
  funext t i
  rw [const_up _ _ _ _ (by norm_num)]
  show (if (extOps e r svd).lt _ (.fin (x.d t i)) then _ else _) = _
  rw [lt_up']
  split_ifs
  · simp only [upI, upS, up, sub_up', mul_up']
  · rfl

theorem tauUp_up (x : In K) (s : Sol K) : tauUp (extOps e r svd) (upI x) (upS s) = .fin (tauUp (fieldOps e r svd) x s) := by
  unfold tauUp
  rw [denTau_up, numTau_up, tiny_up, lt_up']
  by_cases h : (fieldOps e r svd).lt (tiny (fieldOps e r svd)) (denTau (fieldOps e r svd) x) = true
  · rw [if_pos h, if_pos h, div_up' _ _ _ _ _ (ne_of_lt_tiny e r svd h)]
  · rw [if_neg h, if_neg h]; rfl

theorem muUp_up (x : In K) (hw : sumW (fieldOps e r svd) x ≠ 0) (s : Sol K) :
    muUp (extOps e r svd) (upI x) (upS s) = .fin (muUp (fieldOps e r svd) x s) := by
  unfold muUp
  rw [sumW_up, ← div_up' e r svd _ _ hw]
  congr 1
  rw [← sumC_up]
  congr 1
  funext t i
  simp only [upI, upS, up, sub_up', mul_up']

/-- The four parts of a pass, for rewriting (trop.rs 1223-1284). -/
def stepA {N : Type*} (o : Ops N) (x : In N) (s : Sol N) : Sol N := { s with alpha := alphaUp o x s }
/-- See `stepA` (trop.rs 1223-1284). -/
def stepB {N : Type*} (o : Ops N) (x : In N) (s : Sol N) : Sol N := { s with beta := betaUp o x s }
/-- See `stepA` (trop.rs 1223-1284). -/
def stepT {N : Type*} (o : Ops N) (x : In N) (s : Sol N) : Sol N := { s with tau := tauUp o x s }
/-- See `stepA` (trop.rs 1223-1284). -/
def stepM {N : Type*} (o : Ops N) (x : In N) (s : Sol N) : Sol N := { s with mu := muUp o x s }

theorem sweep_steps {N : Type*} (o : Ops N) (x : In N) (s : Sol N) : sweep o x s = stepM o x (stepT o x (stepB o x (stepA o x s))) := rfl

theorem sweep_up (x : In K) (hw : sumW (fieldOps e r svd) x ≠ 0) (s : Sol K) :
    sweep (extOps e r svd) (upI x) (upS s) = upS (sweep (fieldOps e r svd) x s) := by
  have ha : ∀ s : Sol K, stepA (extOps e r svd) (upI x) (upS s) = upS (stepA (fieldOps e r svd) x s) := by
    intro s
    simp only [stepA, upS, Sol.mk.injEq, true_and, and_true]
    funext i; exact alphaUp_up e r svd x s i
  have hb : ∀ s : Sol K, stepB (extOps e r svd) (upI x) (upS s) = upS (stepB (fieldOps e r svd) x s) := by
    intro s
    simp only [stepB, upS, Sol.mk.injEq, true_and, and_true]
    funext i; exact betaUp_up e r svd x s i
  have ht : ∀ s : Sol K, stepT (extOps e r svd) (upI x) (upS s) = upS (stepT (fieldOps e r svd) x s) := by
    intro s; unfold stepT; rw [tauUp_up]; rfl
  have hm : ∀ s : Sol K, stepM (extOps e r svd) (upI x) (upS s) = upS (stepM (fieldOps e r svd) x s) := by
    intro s; unfold stepM; rw [muUp_up e r svd x hw]; rfl
  rw [sweep_steps, sweep_steps, ha, hb, ht, hm]

theorem stop_up (s s' : Sol K) : stop (extOps e r svd) (upS s) (upS s') = stop (fieldOps e r svd) s s' := by
  unfold stop
  rw [small_up]
  simp only [upS, sub_up', abs_up', lt_up']

theorem descend_up (x : In K) (hw : sumW (fieldOps e r svd) x ≠ 0) (n : ℕ) : ∀ s,
    descend (extOps e r svd) (upI x) n (upS s) = upS (descend (fieldOps e r svd) x n s) := by
  induction n with
  | zero => intro s; rfl
  | succ n ih =>
    intro s
    rw [descend, descend, sweep_up e r svd x hw, stop_up]
    split_ifs
    · rfl
    · exact ih _

theorem start_up (x : In K) (hw : sumW (fieldOps e r svd) x ≠ 0) : start (extOps e r svd) (upI x) = upS (start (fieldOps e r svd) x) := by
  unfold start
  rw [sumW_up]
  have : sumC (extOps e r svd) (upI x) (fun t i => (extOps e r svd).mul ((upI x).w t i) ((upI x).y t i)) =
      .fin (sumC (fieldOps e r svd) x (fun t i => (fieldOps e r svd).mul (x.w t i) (x.y t i))) := by
    rw [← sumC_up]; rfl
  rw [this, div_up' _ _ _ _ _ hw]
  rfl

theorem input_up (nT nN : ℕ) (Y : ℕ → ℕ → Option K) (D : ℕ → ℕ → ℤ) (W : ℕ → ℕ → K) :
    input (extOps e r svd) nT nN (fun t i => (Y t i).map .fin) D (up W) = upI (input (fieldOps e r svd) nT nN Y D W) := by
  unfold input upI
  simp only [In.mk.injEq, true_and]
  refine ⟨?_, ?_, ?_⟩
  · funext t i; simp only [up]; cases Y t i <;> rfl
  · funext t i; simp only [up, Option.isSome_map]; split_ifs <;> rfl
  · funext t i; simp only [up]; split_ifs <;> rfl

/-- Float runs of the solver on finite weights are exact runs. -/
theorem solve_up (nT nN : ℕ) (Y : ℕ → ℕ → Option K) (D : ℕ → ℕ → ℤ) (W : ℕ → ℕ → K) :
    solve (extOps e r svd) nT nN (fun t i => (Y t i).map .fin) D (up W) = (solve (fieldOps e r svd) nT nN Y D W).map upS := by
  unfold solve
  rw [input_up, sumW_up, tiny_up, lt_up']
  by_cases h : (fieldOps e r svd).lt (sumW (fieldOps e r svd) (input (fieldOps e r svd) nT nN Y D W)) (tiny (fieldOps e r svd)) = true
  · rw [if_pos h, if_pos h]; rfl
  · rw [if_neg h, if_neg h]
    have hw : sumW (fieldOps e r svd) (input (fieldOps e r svd) nT nN Y D W) ≠ 0 := by
      intro h0
      rw [h0, tiny_eq] at h
      exact h (decide_eq_true tiny_pos)
    rw [start_up e r svd _ hw, descend_up e r svd _ hw]; rfl

/-! ### Weights -/

theorem gaps_eq (P : Data K) (tp i : ℕ) : gaps P tp i = TropJoint.gaps P tp i := by
  unfold gaps TropJoint.gaps
  have hav : ∀ t, avgTreated P t = TropJoint.avgTreated P t := fun t => rfl
  have hf : ∀ t, ((P.Y t i).bind (fun y => (avgTreated P t).map (fun a => (a - y) * (a - y)))) =
      (TropJoint.avgTreated P t).bind (fun a => (P.Y t i).map (fun y => (a - y) ^ 2)) := by
    intro t
    rw [hav]
    cases P.Y t i <;> cases TropJoint.avgTreated P t <;> simp [sq]
  simp only [hf]
  by_cases h : tp ≤ P.nT
  · conv_rhs => rw [show P.nT = (P.nT - tp) + tp by omega]
    rw [List.range_add, List.filterMap_append]
    have h1 : List.filterMap (fun t => if TropJoint.isPre P tp t = true then
        (TropJoint.avgTreated P t).bind (fun a => (P.Y t i).map (fun y => (a - y) ^ 2)) else none)
        ((List.range tp).map (fun x => P.nT - tp + x)) = [] := by
      rw [List.filterMap_eq_nil_iff]
      intro t ht
      obtain ⟨k, hk, rfl⟩ := List.mem_map.1 ht
      rw [if_neg]
      simp only [TropJoint.isPre, decide_eq_true_eq]; omega
    rw [h1, List.append_nil]
    refine List.filterMap_congr fun t ht => ?_
    have := List.mem_range.1 ht
    rw [if_pos]
    simp only [TropJoint.isPre, decide_eq_true_eq]; omega
  · rw [show P.nT - tp = 0 by omega]
    symm
    rw [List.range_zero, List.filterMap_nil, List.filterMap_eq_nil_iff]
    intro t ht
    rw [if_neg]
    simp only [TropJoint.isPre, decide_eq_true_eq]; omega

theorem gaps_nonneg (P : Data K) (tp i : ℕ) : ∀ x ∈ gaps P tp i, 0 ≤ x := by
  intro x hx
  unfold gaps at hx
  obtain ⟨t, -, ht⟩ := List.mem_filterMap.1 hx
  cases hy : P.Y t i with
  | none => rw [hy] at ht; cases ht
  | some y =>
    rw [hy] at ht
    cases ha : avgTreated P t with
    | none => rw [ha] at ht; cases ht
    | some a => rw [ha] at ht; cases ht; exact mul_self_nonneg _

theorem dist_some (P : Data K) (tp i : ℕ) (h : gaps P tp i ≠ []) :
    dist r P tp i = .fin (r ((gaps P tp i).sum / ((gaps P tp i).length : K))) := by
  have hn := gaps_nonneg P tp i
  unfold dist
  cases hg : gaps P tp i with
  | nil => exact absurd hg h
  | cons a l =>
    rw [hg] at hn
    have hlen : (((a :: l).length : ℕ) : K) ≠ 0 := by simp; positivity
    simp only [Ext.div, if_neg hlen, TropFit.extSqrt]
    rw [if_neg (not_lt.2 (div_nonneg (List.sum_nonneg hn) (Nat.cast_nonneg _)))]

/-- C127. The compiled code and the Python code give a cell the same weight whenever its unit has a pre-treatment period in which it can
be compared with the treated average, or `lambda_unit` is positive. -/
theorem C127_weights (v : TropJoint.Env K) (P : Data K) (tp : ℕ) (htp : tp < P.nT) (lamT lamU : K) (t i : ℕ)
    (h : TropJoint.gaps P tp i ≠ [] ∨ 0 < lamU) :
    weights v.e v.r P tp (.fin lamT) (.fin lamU) t i = .fin (TropJoint.delta v P tp lamT lamU t i) := by
  have hu : unitW v.e v.r P tp (.fin lamU) i = .fin (TropJoint.unitW v P tp lamU i) := by
    unfold unitW TropJoint.unitW
    rw [if_pos (by omega)]
    cases hg : TropJoint.gaps P tp i with
    | nil =>
      have hl : 0 < lamU := h.resolve_left (fun h => h hg)
      have hd : dist v.r P tp i = .pinf := by unfold dist; rw [gaps_eq, hg]
      rw [hd]
      simp only [Ext.neg, Ext.mul, Ext.sgn, if_pos (neg_lt_zero.2 hl), Ext.infOf]
      rfl
    | cons a l =>
      rw [dist_some v.r P tp i (by rw [gaps_eq, hg]; simp), gaps_eq, hg]
      rfl
  unfold weights
  rw [hu]
  rfl

/-- The remaining case: a unit that cannot be compared with the treated average and `lambda_unit = 0` gives NaN (Python: 0). -/
theorem weights_nan (v : TropJoint.Env K) (P : Data K) (tp : ℕ) (htp : tp < P.nT) (lamT : K) (t i : ℕ) (h : TropJoint.gaps P tp i = []) :
    weights v.e v.r P tp (.fin lamT) (.fin 0) t i = .nan ∧ TropJoint.delta v P tp lamT 0 t i = 0 := by
  constructor
  · have hu : unitW v.e v.r P tp (.fin 0) i = .nan := by
      unfold unitW
      have hd : dist v.r P tp i = .pinf := by unfold dist; rw [gaps_eq, h]
      rw [if_pos (by omega), hd]
      simp [Ext.neg, Ext.mul, Ext.sgn, Ext.infOf, TropFit.extExp]
    unfold weights
    rw [hu]
    unfold timeW
    simp [Ext.neg, Ext.mul, TropFit.extExp]
  · unfold TropJoint.delta TropJoint.unitW
    rw [h, mul_zero]

/-! ### NaN spreads -/

theorem add_nan (x : Ext K) : Ext.add x .nan = .nan := by cases x <;> rfl
theorem nan_add (x : Ext K) : Ext.add .nan x = .nan := by cases x <;> rfl
theorem div_nan (x : Ext K) : Ext.div x .nan = .nan := by cases x <;> rfl

theorem sumL_nan (l : List (Ext K)) (h : Ext.nan ∈ l) : sumL (extOps e r svd) l = .nan := by
  induction l with
  | nil => cases h
  | cons a l ih =>
    show Ext.add a (sumL (extOps e r svd) l) = .nan
    rcases List.mem_cons.1 h with h | h
    · rw [← h]; exact nan_add _
    · rw [ih h]; exact add_nan _

theorem sumC_nan (x : In (Ext K)) (f : ℕ → ℕ → Ext K) (t i : ℕ) (ht : t < x.nT) (hi : i < x.nN) (h : f t i = .nan) :
    sumC (extOps e r svd) x f = .nan := by
  unfold sumC
  refine sumL_nan _ _ _ _ (List.mem_map.2 ⟨t, List.mem_range.2 ht, ?_⟩)
  exact sumL_nan _ _ _ _ (List.mem_map.2 ⟨i, List.mem_range.2 hi, h⟩)

theorem sweep_nan (x : In (Ext K)) (h : sumW (extOps e r svd) x = .nan) (s : Sol (Ext K)) : (sweep (extOps e r svd) x s).mu = .nan := by
  simp only [sweep, muUp, h]
  exact div_nan _

theorem descend_nan (x : In (Ext K)) (h : sumW (extOps e r svd) x = .nan) (n : ℕ) : ∀ s : Sol (Ext K), s.mu = .nan →
    (descend (extOps e r svd) x n s).mu = .nan := by
  induction n with
  | zero => intro s hs; exact hs
  | succ n ih =>
    intro s hs
    rw [descend]
    split_ifs
    · exact sweep_nan e r svd x h s
    · exact ih _ (sweep_nan e r svd x h s)

theorem solve_nan (nT nN : ℕ) (Y : ℕ → ℕ → Option (Ext K)) (D : ℕ → ℕ → ℤ) (W : ℕ → ℕ → Ext K) (t i : ℕ) (ht : t < nT) (hi : i < nN)
    (hy : (Y t i).isSome) (hw : W t i = .nan) : ∃ s, solve (extOps e r svd) nT nN Y D W = some s ∧ s.mu = .nan := by
  have hs : sumW (extOps e r svd) (input (extOps e r svd) nT nN Y D W) = .nan :=
    sumC_nan _ _ _ _ _ t i ht hi (by show (if (Y t i).isSome then W t i else _) = _; rw [if_pos hy, hw])
  unfold solve
  rw [hs, if_neg (by simp [extOps, Ext.lt])]
  refine ⟨_, rfl, descend_nan _ _ _ _ hs _ _ ?_⟩
  unfold start
  rw [hs]; exact div_nan _

theorem lowLoop_nan (tol : Ext K) (nT nN : ℕ) (Y : ℕ → ℕ → Option (Ext K)) (D : ℕ → ℕ → ℤ) (W : ℕ → ℕ → Ext K) (lam : Ext K) (t i : ℕ)
    (ht : t < nT) (hi : i < nN) (hy : (Y t i).isSome) (hw : W t i = .nan) (n : ℕ) :
    ∀ L, ∃ L', lowLoop (extOps e r svd) tol nT nN Y D W lam n L = some L' := by
  induction n with
  | zero => intro L; exact ⟨L, rfl⟩
  | succ n ih =>
    intro L
    obtain ⟨s, hs, -⟩ := solve_nan e r svd nT nN (adj (extOps e r svd) Y L) D W t i ht hi (by unfold adj; rw [Option.isSome_map]; exact hy) hw
    rw [lowLoop, hs]
    simp only
    split_ifs
    · exact ⟨_, rfl⟩
    · exact ih _

theorem fitW_nan (c : Cfg (Ext K)) (P : Data (Ext K)) (W : ℕ → ℕ → Ext K) (lamN : Ext K) (t i : ℕ) (ht : t < P.nT) (hi : i < P.nN)
    (hy : (P.Y t i).isSome) (hw : W t i = .nan) : ∃ f, fitW (extOps e r svd) c P W lamN = some f ∧ f.1.mu = .nan := by
  unfold fitW
  split_ifs
  · unfold solveLow
    obtain ⟨L, hL⟩ := lowLoop_nan e r svd c.tol P.nT P.nN P.Y P.D W lamN t i ht hi hy hw c.maxIter (fun _ _ => (extOps e r svd).zero)
    rw [hL]
    obtain ⟨s, hs, hm⟩ := solve_nan e r svd P.nT P.nN (adj (extOps e r svd) P.Y L) P.D W t i ht hi
      (by unfold adj; rw [Option.isSome_map]; exact hy) hw
    exact ⟨(s, L), by simp only [hs]; rfl, hm⟩
  · obtain ⟨s, hs, hm⟩ := solve_nan e r svd P.nT P.nN P.Y P.D W t i ht hi hy hw
    exact ⟨(s, _), by rw [hs]; rfl, hm⟩

theorem sub_nan (x : Ext K) : Ext.sub x .nan = .nan := add_nan x
theorem nan_sub (x : Ext K) : Ext.sub .nan x = .nan := nan_add _

theorem score_nan (c : Cfg (Ext K)) (P : Data (Ext K)) (W : ℕ → ℕ → Ext K) (lamN : Ext K) (obs : List (ℕ × ℕ)) (q : ℕ × ℕ) (hq : q ∈ obs)
    (hqy : (P.Y q.1 q.2).isSome) (t i : ℕ) (ht : t < P.nT) (hi : i < P.nN) (hy : (P.Y t i).isSome) (hw : W t i = .nan) (hne : (t, i) ≠ q) :
    (score (extOps e r svd) c P W lamN obs).getD .pinf = .nan ∨ (score (extOps e r svd) c P W lamN obs).getD .pinf = .pinf := by
  obtain ⟨f, hf, hm⟩ := fitW_nan e r svd c P (without (extOps e r svd) W q) lamN t i ht hi hy (by unfold without; rw [if_neg hne, hw])
  have hterm : looTerm (extOps e r svd) c P W lamN q = some (some .nan) := by
    unfold looTerm
    rw [hf]
    obtain ⟨y, hy'⟩ := Option.isSome_iff_exists.1 hqy
    rw [hy']
    simp only [Option.map_some, Option.some.injEq]
    show Ext.sub (Ext.sub (Ext.sub (Ext.sub y f.1.mu) _) _) _ = _
    rw [hm, sub_nan, nan_sub, nan_sub, nan_sub]
  unfold score
  cases hl : obs.mapM (looTerm (extOps e r svd) c P W lamN) with
  | none => exact Or.inr rfl
  | some l =>
    have hmem : some Ext.nan ∈ l := by
      clear hf hm hqy
      induction obs generalizing l with
      | nil => cases hq
      | cons a obs ih =>
        rw [List.mapM_cons] at hl
        cases ha : looTerm (extOps e r svd) c P W lamN a with
        | none => rw [ha] at hl; cases hl
        | some z =>
          rw [ha] at hl
          cases hr' : obs.mapM (looTerm (extOps e r svd) c P W lamN) with
          | none => rw [hr'] at hl; cases hl
          | some l' =>
            rw [hr'] at hl
            cases hl
            rcases List.mem_cons.1 hq with h | h
            · rw [← h, hterm] at ha; cases ha; exact List.mem_cons_self
            · exact List.mem_cons_of_mem _ (ih h l' hr')
    simp only
    split
    · exact Or.inr rfl
    · next x xs hx =>
      have : Ext.nan ∈ x :: xs := by rw [← hx]; exact List.mem_filterMap.2 ⟨_, hmem, rfl⟩
      have h2 : sumL (extOps e r svd) ((x :: xs).map (fun z => (extOps e r svd).mul z z)) = .nan :=
        sumL_nan _ _ _ _ (List.mem_map.2 ⟨_, this, rfl⟩)
      simp only [Option.getD_some]
      exact Or.inl h2

/-! ### Search -/

theorem search_mem_aux (l : List (Comb K × Ext K)) : ∀ b : Comb K × Ext K,
    (l.foldl (fun best p => if Ext.lt p.2 best.2 then p else best) b = b ∧ ∀ p ∈ l, Ext.lt p.2 b.2 = false) ∨
    (l.foldl (fun best p => if Ext.lt p.2 best.2 then p else best) b ∈ l ∧
      Ext.lt (l.foldl (fun best p => if Ext.lt p.2 best.2 then p else best) b).2 b.2 = true ∧
      ∀ p ∈ l, Ext.lt p.2 (l.foldl (fun best p => if Ext.lt p.2 best.2 then p else best) b).2 = false) := by
  have irr : ∀ a : Ext K, Ext.lt a a = false := by intro a; cases a <;> simp [Ext.lt]
  have tr : ∀ a b c : Ext K, Ext.lt a b = true → Ext.lt b c = true → Ext.lt a c = true := by
    intro a b c h1 h2
    cases a <;> cases b <;> cases c <;> simp_all [Ext.lt]
    exact h1.trans h2
  induction l with
  | nil => intro b; exact Or.inl ⟨rfl, by simp⟩
  | cons a l ih =>
    intro b
    rw [List.foldl_cons]
    by_cases h : Ext.lt a.2 b.2 = true
    · rw [if_pos h]
      right
      rcases ih a with ⟨h1, h2⟩ | ⟨h1, h2, h3⟩
      · rw [h1]
        refine ⟨List.mem_cons_self, h, fun p hp => ?_⟩
        rcases List.mem_cons.1 hp with rfl | hp
        · exact irr _
        · exact h2 p hp
      · refine ⟨List.mem_cons_of_mem _ h1, tr _ _ _ h2 h, fun p hp => ?_⟩
        rcases List.mem_cons.1 hp with rfl | hp
        · by_contra hc
          rw [Bool.not_eq_false] at hc
          have := tr _ _ _ h2 hc
          rw [irr] at this; cases this
        · exact h3 p hp
    · rw [if_neg h]
      rcases ih b with ⟨h1, h2⟩ | ⟨h1, h2, h3⟩
      · left
        refine ⟨h1, fun p hp => ?_⟩
        rcases List.mem_cons.1 hp with rfl | hp
        · exact Bool.eq_false_iff.2 h
        · exact h2 p hp
      · right
        refine ⟨List.mem_cons_of_mem _ h1, h2, fun p hp => ?_⟩
        rcases List.mem_cons.1 hp with rfl | hp
        · by_contra hc
          rw [Bool.not_eq_false] at hc
          exact h (tr _ _ _ hc h2)
        · exact h3 p hp

/-- C127. When `fit` accepts the compiled search, the selected combination is on the grid, the stored score is its score, and no combination
of the grid has a smaller one. -/
theorem C127_selected (sc : Comb K → Ext K) (gt gu gn : List (Option K)) (x : K) (h : (search sc gt gu gn).2 = .fin x) (py : Comb K × Option K) :
    select sc py gt gu gn = ((search sc gt gu gn).1, some x) ∧ (search sc gt gu gn).1 ∈ TropJoint.combos gt gu gn ∧
    sc (search sc gt gu gn).1 = .fin x ∧ ∀ l ∈ TropJoint.combos gt gu gn, Ext.lt (sc l) (.fin x) = false := by
  refine ⟨by unfold select; rw [h], ?_⟩
  rcases search_mem_aux ((TropJoint.combos gt gu gn).map (fun l => (l, sc l)))
    ((gt.head?.getD (some 0), gu.head?.getD (some 0), gn.head?.getD (some 0)), .pinf) with ⟨h1, h2⟩ | ⟨h1, h2, h3⟩
  · have : (search sc gt gu gn).2 = .pinf := by unfold search; rw [h1]
    rw [this] at h; cases h
  · obtain ⟨l, hl, he⟩ := List.mem_map.1 h1
    have e1 : (search sc gt gu gn) = (l, sc l) := he.symm
    rw [e1] at h ⊢
    refine ⟨hl, h, fun l' hl' => ?_⟩
    have := h3 _ (List.mem_map.2 ⟨l', hl', rfl⟩)
    rw [← he] at this
    rw [← h]; exact this

/-- C127. A unit that cannot be compared with the treated average before treatment but is observed somewhere makes the compiled search reject
every combination with `lambda_unit` 0 or infinite: such a combination is never selected, whatever its Python score. -/
theorem C127_zero_unit_rejected (v : TropJoint.Env K) (c : Cfg K) (P : Data K) (tp : ℕ) (htp : tp < P.nT) (obs : List (ℕ × ℕ))
    (t i : ℕ) (ht : t < P.nT) (hi : i < P.nN) (hy : (P.Y t i).isSome) (hg : TropJoint.gaps P tp i = [])
    (q : ℕ × ℕ) (hq : q ∈ obs) (hqy : (P.Y q.1 q.2).isSome) (hne : (t, i) ≠ q) (py : Comb K × Option K) (gt gu gn : List (Option K)) (x : K)
    (h : (search (scoreAt v.e v.r v.svd c P tp obs) gt gu gn).2 = .fin x) :
    (TropJoint.conv (select (scoreAt v.e v.r v.svd c P tp obs) py gt gu gn).1).unit ≠ 0 := by
  obtain ⟨h1, h2, h3, -⟩ := C127_selected (scoreAt v.e v.r v.svd c P tp obs) gt gu gn x h py
  rw [h1]
  intro h0
  have hw := (weights_nan v P tp htp (TropJoint.conv (search (scoreAt v.e v.r v.svd c P tp obs) gt gu gn).1).time t i hg).1
  have := score_nan v.e v.r v.svd { maxIter := c.maxIter, tol := .fin c.tol } (toExt P)
    (weights v.e v.r P tp (.fin (TropJoint.conv (search (scoreAt v.e v.r v.svd c P tp obs) gt gu gn).1).time) (.fin 0))
    (.fin (TropJoint.conv (search (scoreAt v.e v.r v.svd c P tp obs) gt gu gn).1).nn) obs q hq
    (by show ((P.Y q.1 q.2).map _).isSome; rw [Option.isSome_map]; exact hqy) t i ht hi
    (by show ((P.Y t i).map _).isSome; rw [Option.isSome_map]; exact hy) hw hne
  rw [← h0] at this
  have h4 : (scoreAt v.e v.r v.svd c P tp obs (search (scoreAt v.e v.r v.svd c P tp obs) gt gu gn).1) = .nan ∨
      (scoreAt v.e v.r v.svd c P tp obs (search (scoreAt v.e v.r v.svd c P tp obs) gt gu gn).1) = .pinf := this
  rw [h3] at h4
  rcases h4 with h4 | h4 <;> cases h4

end DiffDiff.TropJointRust
