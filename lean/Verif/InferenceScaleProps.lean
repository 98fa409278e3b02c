/-
Property C140: what a change of units does to test statistics, p-values and confidence intervals.
-/
import Verif.Inference
import Mathlib.Tactic.Ring
import Mathlib.Tactic.FieldSimp
import Mathlib.Tactic.NormNum
import Mathlib.Algebra.Order.Field.Basic

set_option linter.unusedSectionVars false

namespace DiffDiff.Inference

variable {K : Type*} [Field K] [LinearOrder K] [IsStrictOrderedRing K]

/-- Interval in units multiplied by `a`: the end points swap when `a` is negative. -/
def scaledInterval (a : K) (ci : Ext K × Ext K) : Ext K × Ext K :=
  if 0 < a then (Ext.mul (.fin a) ci.1, Ext.mul (.fin a) ci.2) else (Ext.mul (.fin a) ci.2, Ext.mul (.fin a) ci.1)

theorem conf_scaled (D : Dist K) (a est se alpha : K) (ha : a ≠ 0) :
    confInt D (.fin (a * est)) (.fin (|a| * se)) alpha = scaledInterval a (confInt D (.fin est) (.fin se) alpha) := by
  unfold confInt scaledInterval
  rcases lt_or_gt_of_ne ha with h | h
  · rw [if_neg (not_lt.2 h.le), abs_of_neg h]
    simp only [Ext.sub, Ext.add, Ext.mul, Ext.neg, Prod.mk.injEq, Ext.fin.injEq]
    constructor <;> ring
  · rw [if_pos h, abs_of_pos h]
    simp only [Ext.sub, Ext.add, Ext.mul, Ext.neg, Prod.mk.injEq, Ext.fin.injEq]
    constructor <;> ring

theorem p_neg (D : Dist K) (t : Ext K) : pValue D (Ext.neg t) = pValue D t := by
  unfold pValue
  cases t <;> simp [Ext.neg, Ext.abs]

theorem cs_t (D : Dist K) (est se alpha : K) :
    (csFields D (.fin est) (.fin se) alpha).1 = if 0 < se then .fin (est / se) else .nan := by
  unfold csFields
  simp only [Ext.isFinite, Ext.lt, true_and, decide_eq_true_eq]
  split_ifs with h
  · simp [Ext.div, h.ne']
  · rfl

theorem sa_t (D : Dist K) (est se alpha : K) :
    (saFields D (.fin est) (.fin se) alpha).1 = if 0 < se then .fin (est / se) else .fin 0 := by
  unfold saFields
  simp only [Ext.lt, decide_eq_true_eq]
  split_ifs with h
  · simp [Ext.div, h.ne']
  · rfl

/-- **C140 (inference).** With the standard error in the new units, the p-value and its direction are unchanged and the interval is the old
one in the new units, for the rules of CallawaySantAnna (first) and of SunAbraham and TripleDifference (second). Reversing the outcome
reverses the sign of the statistic. -/
theorem C140_inference (D : Dist K) (a est se alpha : K) (ha : a ≠ 0) :
    (csFields D (.fin (a * est)) (.fin (|a| * se)) alpha).2.1 = (csFields D (.fin est) (.fin se) alpha).2.1 ∧
    (csFields D (.fin (a * est)) (.fin (|a| * se)) alpha).2.2 = scaledInterval a (csFields D (.fin est) (.fin se) alpha).2.2 ∧
    (saFields D (.fin (a * est)) (.fin (|a| * se)) alpha).2.1 = (saFields D (.fin est) (.fin se) alpha).2.1 ∧
    (saFields D (.fin (a * est)) (.fin (|a| * se)) alpha).2.2 = scaledInterval a (saFields D (.fin est) (.fin se) alpha).2.2 ∧
    (0 < a → (csFields D (.fin (a * est)) (.fin (|a| * se)) alpha).1 = (csFields D (.fin est) (.fin se) alpha).1 ∧
      (saFields D (.fin (a * est)) (.fin (|a| * se)) alpha).1 = (saFields D (.fin est) (.fin se) alpha).1) ∧
    (a < 0 → (csFields D (.fin (a * est)) (.fin (|a| * se)) alpha).1 = Ext.neg (csFields D (.fin est) (.fin se) alpha).1 ∧
      (saFields D (.fin (a * est)) (.fin (|a| * se)) alpha).1 = Ext.neg (saFields D (.fin est) (.fin se) alpha).1) := by
  have hpos : 0 < |a| * se ↔ 0 < se := by
    constructor
    · exact fun h => (mul_pos_iff_of_pos_left (abs_pos.2 ha)).1 h
    · exact fun h => mul_pos (abs_pos.2 ha) h
  have ht : (0 < a → (csFields D (.fin (a * est)) (.fin (|a| * se)) alpha).1 = (csFields D (.fin est) (.fin se) alpha).1 ∧
      (saFields D (.fin (a * est)) (.fin (|a| * se)) alpha).1 = (saFields D (.fin est) (.fin se) alpha).1) ∧
    (a < 0 → (csFields D (.fin (a * est)) (.fin (|a| * se)) alpha).1 = Ext.neg (csFields D (.fin est) (.fin se) alpha).1 ∧
      (saFields D (.fin (a * est)) (.fin (|a| * se)) alpha).1 = Ext.neg (saFields D (.fin est) (.fin se) alpha).1) := by
    simp only [cs_t, sa_t, hpos]
    refine ⟨fun h => ?_, fun h => ?_⟩
    · rw [abs_of_pos h, mul_div_mul_left _ _ h.ne']
      exact ⟨rfl, rfl⟩
    · rw [abs_of_neg h, neg_mul, div_neg, mul_div_mul_left _ _ h.ne]
      split_ifs
      · exact ⟨rfl, rfl⟩
      · exact ⟨rfl, by simp [Ext.neg]⟩
  have hp : ∀ e s : K, (csFields D (.fin e) (.fin s) alpha).2.1 = pValue D (csFields D (.fin e) (.fin s) alpha).1 ∧
      (saFields D (.fin e) (.fin s) alpha).2.1 = pValue D (saFields D (.fin e) (.fin s) alpha).1 := fun _ _ => ⟨rfl, rfl⟩
  refine ⟨?_, conf_scaled D a est se alpha ha, ?_, conf_scaled D a est se alpha ha, ht⟩
  · rw [(hp _ _).1, (hp _ _).1]
    rcases lt_or_gt_of_ne ha with h | h
    · rw [(ht.2 h).1, p_neg]
    · rw [(ht.1 h).1]
  · rw [(hp _ _).2, (hp _ _).2]
    rcases lt_or_gt_of_ne ha with h | h
    · rw [(ht.2 h).2, p_neg]
    · rw [(ht.1 h).2]

/-- Outcome in cents instead of dollars, and with reversed sign. -/
example (D : Dist ℚ) : (csFields D (.fin (100 * 3)) (.fin (|(100 : ℚ)| * 2)) (1/20)).2.1 = (csFields D (.fin 3) (.fin 2) (1/20)).2.1 ∧
    (csFields D (.fin (-1 * 3)) (.fin (|(-1 : ℚ)| * 2)) (1/20)).2.2 = scaledInterval (-1) (csFields D (.fin 3) (.fin 2) (1/20)).2.2 :=
  ⟨(C140_inference D 100 3 2 (1/20) (by norm_num)).1, (C140_inference D (-1) 3 2 (1/20) (by norm_num)).2.1⟩

end DiffDiff.Inference
