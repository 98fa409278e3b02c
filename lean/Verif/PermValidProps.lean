/-
C45: validity of the permutation p-value under exchangeability.
Specification: a probability measure on the vectors (original effect, permuted effects) that is invariant under every
permutation of the coordinates.
-/
import Verif.DiagnosticsProps
import Mathlib.MeasureTheory.Measure.Typeclasses.Probability
import Mathlib.MeasureTheory.Measure.Dirac
import Mathlib.MeasureTheory.Integral.Lebesgue.Add
import Mathlib.MeasureTheory.Constructions.BorelSpace.Order
import Mathlib.MeasureTheory.Constructions.BorelSpace.Real
import Mathlib.Data.List.OfFn
import Mathlib.MeasureTheory.Measure.Real
import Mathlib.MeasureTheory.Integral.Lebesgue.Countable
import Mathlib.Data.Fintype.Perm

set_option linter.unusedSectionVars false

namespace DiffDiff.Diagnostics

open MeasureTheory

/-- The code's p-value of the first coordinate against the others. -/
noncomputable def codeP {n : ℕ} (v : Fin (n + 1) → ℝ) : ℝ := permP (some (v 0)) (List.ofFn (fun j : Fin n => v j.succ))

/-- Exchangeable laws. -/
def Exchangeable {n : ℕ} (mu : Measure (Fin (n + 1) → ℝ)) : Prop :=
  ∀ s : Equiv.Perm (Fin (n + 1)), mu.map (fun v => v ∘ s) = mu

/-- How many other coordinates are at least as large as coordinate `i` in absolute value. -/
noncomputable def larger {n : ℕ} (v : Fin (n + 1) → ℝ) (i : Fin (n + 1)) : ℕ :=
  (Finset.univ.filter (fun j => j ≠ i ∧ |v i| ≤ |v j|)).card

/-! ### Lemmas -/

theorem larger_count {n : ℕ} (v : Fin (n + 1) → ℝ) (k : ℕ) :
    (Finset.univ.filter (fun i => larger v i ≤ k)).card ≤ k + 1 := by
  classical
  set S := Finset.univ.filter (fun i => larger v i ≤ k) with hS
  rcases S.eq_empty_or_nonempty with h | h
  · rw [h]; simp
  · obtain ⟨i, hi, hmin⟩ := S.exists_min_image (fun i => |v i|) h
    have h1 : S.erase i ⊆ Finset.univ.filter (fun j => j ≠ i ∧ |v i| ≤ |v j|) := by
      intro j hj
      rw [Finset.mem_erase] at hj
      exact Finset.mem_filter.2 ⟨Finset.mem_univ _, hj.1, hmin j hj.2⟩
    have h2 := Finset.card_le_card h1
    rw [Finset.card_erase_of_mem hi] at h2
    have h3 : larger v i ≤ k := (Finset.mem_filter.1 hi).2
    unfold larger at h3
    omega

theorem filter_ofFn_length {n : ℕ} (f : Fin n → ℝ) (p : ℝ → Prop) [DecidablePred p] :
    ((List.ofFn f).filter (fun x => decide (p x))).length = (Finset.univ.filter (fun j => p (f j))).card := by
  rw [← List.countP_eq_length_filter, List.ofFn_eq_map, List.countP_map]
  rw [List.countP_eq_length_filter]
  rw [← Multiset.coe_card]
  rfl

theorem larger_zero {n : ℕ} (v : Fin (n + 1) → ℝ) :
    larger v 0 = (Finset.univ.filter (fun j : Fin n => |v 0| ≤ |v j.succ|)).card := by
  classical
  unfold larger
  rw [Fin.univ_succ, Finset.filter_cons, if_neg (fun h => h.1 rfl), Finset.filter_map, Finset.card_map]
  congr 1
  refine Finset.filter_congr fun j _ => ?_
  simp [Fin.succ_ne_zero]

theorem codeP_eq {n : ℕ} (v : Fin (n + 1) → ℝ) : codeP v = max ((larger v 0 : ℝ) / n) (1 / ((n : ℝ) + 1)) := by
  unfold codeP permP
  rw [List.length_ofFn, larger_zero]
  simp only
  rw [filter_ofFn_length]

theorem larger_comp {n : ℕ} (v : Fin (n + 1) → ℝ) (s : Equiv.Perm (Fin (n + 1))) (i : Fin (n + 1)) :
    larger (v ∘ s) i = larger v (s i) := by
  classical
  unfold larger
  refine Finset.card_bij (fun j _ => s j) ?_ ?_ ?_
  · intro j hj
    simp only [Finset.mem_filter, Finset.mem_univ, true_and, Function.comp] at hj ⊢
    exact ⟨fun h => hj.1 (s.injective h), hj.2⟩
  · intro a _ b _ h
    exact s.injective h
  · intro b hb
    simp only [Finset.mem_filter, Finset.mem_univ, true_and, Function.comp] at hb ⊢
    refine ⟨s.symm b, ⟨?_, ?_⟩, s.apply_symm_apply b⟩
    · rintro rfl
      exact hb.1 (s.apply_symm_apply b).symm
    · rw [s.apply_symm_apply]; exact hb.2

theorem larger_measurable {n : ℕ} (i : Fin (n + 1)) : Measurable (fun v : Fin (n + 1) → ℝ => larger v i) := by
  classical
  unfold larger
  simp only [Finset.card_filter]
  refine Finset.measurable_sum _ fun j _ => ?_
  refine Measurable.ite ?_ measurable_const measurable_const
  by_cases hj : j = i
  · simp [hj]
  · simp only [ne_eq, hj, not_false_eq_true, true_and]
    exact measurableSet_le (continuous_abs.measurable.comp (measurable_pi_apply i))
      (continuous_abs.measurable.comp (measurable_pi_apply j))

theorem comp_measurable {n : ℕ} (s : Equiv.Perm (Fin (n + 1))) :
    Measurable (fun v : Fin (n + 1) → ℝ => v ∘ s) :=
  measurable_pi_lambda _ fun i => measurable_pi_apply (s i)

theorem larger_set {n : ℕ} (k : ℕ) (i : Fin (n + 1)) : MeasurableSet {v : Fin (n + 1) → ℝ | larger v i ≤ k} :=
  measurableSet_le (larger_measurable i) measurable_const

/-- Under an exchangeable law the probability that at most `k` other coordinates are as large as the first is the expected
number of such coordinates over n + 1. -/
theorem exch_mean {n : ℕ} (mu : Measure (Fin (n + 1) → ℝ)) (h : Exchangeable mu) (k : ℕ) :
    ((n : ENNReal) + 1) * mu {v | larger v 0 ≤ k} =
      ∫⁻ v, ((Finset.univ.filter (fun i => larger v i ≤ k)).card : ENNReal) ∂mu := by
  classical
  have heq : ∀ i : Fin (n + 1), mu {v | larger v i ≤ k} = mu {v | larger v 0 ≤ k} := by
    intro i
    conv_rhs => rw [← h (Equiv.swap 0 i)]
    rw [Measure.map_apply (comp_measurable _) (larger_set k 0)]
    congr 1
    ext v
    simp only [Set.mem_setOf_eq, Set.mem_preimage, larger_comp, Equiv.swap_apply_left]
  have h1 : ∀ v : Fin (n + 1) → ℝ, ((Finset.univ.filter (fun i => larger v i ≤ k)).card : ENNReal) =
      ∑ i, Set.indicator {v : Fin (n + 1) → ℝ | larger v i ≤ k} (fun _ => (1 : ENNReal)) v := by
    intro v
    rw [Finset.card_filter]
    push_cast
    refine Finset.sum_congr rfl fun i _ => ?_
    simp [Set.indicator]
  simp only [h1]
  rw [lintegral_finsetSum _ (fun i _ => measurable_const.indicator (larger_set k i))]
  have h2 : ∀ i : Fin (n + 1), ∫⁻ v, Set.indicator {v : Fin (n + 1) → ℝ | larger v i ≤ k} (fun _ => (1 : ENNReal)) v ∂mu =
      mu {v | larger v 0 ≤ k} := by
    intro i
    rw [lintegral_indicator (larger_set k i), lintegral_const, Measure.restrict_apply_univ, one_mul, heq]
  simp only [h2, Finset.sum_const, Finset.card_univ, Fintype.card_fin, nsmul_eq_mul]
  push_cast
  ring

theorem exch_bound {n : ℕ} (mu : Measure (Fin (n + 1) → ℝ)) [IsProbabilityMeasure mu] (h : Exchangeable mu) (k : ℕ) :
    mu.real {v | larger v 0 ≤ k} ≤ ((k : ℝ) + 1) / ((n : ℝ) + 1) := by
  have h1 := exch_mean mu h k
  have h2 : ∫⁻ v, ((Finset.univ.filter (fun i => larger v i ≤ k)).card : ENNReal) ∂mu ≤ (k : ENNReal) + 1 := by
    calc _ ≤ ∫⁻ _, ((k : ENNReal) + 1) ∂mu := lintegral_mono fun v => (by
        have := larger_count v k
        have h : ((Finset.univ.filter (fun i => larger v i ≤ k)).card : ENNReal) ≤ ((k + 1 : ℕ) : ENNReal) := by
          exact Nat.cast_le.2 this
        simpa using h)
      _ = _ := by simp
  rw [← h1] at h2
  have h3 : (((n : ENNReal) + 1) * mu {v | larger v 0 ≤ k}).toReal ≤ ((k : ENNReal) + 1).toReal :=
    ENNReal.toReal_mono (by simp) h2
  rw [ENNReal.toReal_mul, ENNReal.toReal_add (by simp) (by simp), ENNReal.toReal_add (by simp) (by simp)] at h3
  simp only [ENNReal.toReal_natCast, ENNReal.toReal_one] at h3
  rw [le_div_iff₀ (by positivity)]
  unfold Measure.real
  linarith

/-! ### C45 -/

/-- The textbook p-value `(1 + #larger)/(n + 1)` is valid under exchangeability. -/
theorem C45_textbook_valid {n : ℕ} (mu : Measure (Fin (n + 1) → ℝ)) [IsProbabilityMeasure mu] (h : Exchangeable mu)
    (a : ℝ) (ha : 0 ≤ a) : mu.real {v | ((larger v 0 : ℝ) + 1) / ((n : ℝ) + 1) ≤ a} ≤ a := by
  have hn : (0 : ℝ) < (n : ℝ) + 1 := by positivity
  by_cases h1 : a * ((n : ℝ) + 1) < 1
  · have : {v : Fin (n + 1) → ℝ | ((larger v 0 : ℝ) + 1) / ((n : ℝ) + 1) ≤ a} = ∅ := by
      ext v
      simp only [Set.mem_setOf_eq, Set.mem_empty_iff_false, iff_false, not_le]
      rw [lt_div_iff₀ hn]
      have : (0 : ℝ) ≤ larger v 0 := by positivity
      linarith
    rw [this]
    simpa using ha
  · push Not at h1
    have hsub : {v : Fin (n + 1) → ℝ | ((larger v 0 : ℝ) + 1) / ((n : ℝ) + 1) ≤ a} ⊆
        {v | larger v 0 ≤ ⌊a * ((n : ℝ) + 1) - 1⌋₊} := by
      intro v hv
      simp only [Set.mem_setOf_eq] at hv ⊢
      rw [div_le_iff₀ hn] at hv
      exact Nat.le_floor (by linarith)
    refine (measureReal_mono hsub (by simp)).trans ((exch_bound mu h _).trans ?_)
    rw [div_le_iff₀ hn]
    have := Nat.floor_le (show 0 ≤ a * ((n : ℝ) + 1) - 1 by linarith)
    linarith

/-- What holds for the reported p-value: under exchangeability it exceeds its nominal level by less than 1/(n+1); below
the floor 1/(n+1) it is never reported. -/
theorem C45_valid_partial {n : ℕ} (hn0 : 0 < n) (mu : Measure (Fin (n + 1) → ℝ)) [IsProbabilityMeasure mu]
    (h : Exchangeable mu) (a : ℝ) (ha : 0 ≤ a) :
    mu.real {v | codeP v ≤ a} ≤ (a * n + 1) / ((n : ℝ) + 1) ∧
    (a < 1 / ((n : ℝ) + 1) → mu.real {v | codeP v ≤ a} = 0) := by
  have hn : (0 : ℝ) < (n : ℝ) + 1 := by positivity
  have hn' : (0 : ℝ) < (n : ℝ) := by exact_mod_cast hn0
  constructor
  · have hsub : {v : Fin (n + 1) → ℝ | codeP v ≤ a} ⊆ {v | larger v 0 ≤ ⌊a * n⌋₊} := by
      intro v hv
      simp only [Set.mem_setOf_eq, codeP_eq] at hv ⊢
      have := (le_max_left _ _).trans hv
      rw [div_le_iff₀ hn'] at this
      exact Nat.le_floor this
    refine (measureReal_mono hsub (by simp)).trans ((exch_bound mu h _).trans ?_)
    gcongr
    exact Nat.floor_le (by positivity)
  · intro hlt
    have : {v : Fin (n + 1) → ℝ | codeP v ≤ a} = ∅ := by
      ext v
      simp only [Set.mem_setOf_eq, Set.mem_empty_iff_false, iff_false, not_le, codeP_eq]
      exact hlt.trans_le (le_max_right _ _)
    rw [this]; simp

/-- The reported p-value is at most the textbook one, and smaller by at most 1/(n+1). -/
theorem C45_vs_textbook {n : ℕ} (hn0 : 0 < n) (v : Fin (n + 1) → ℝ) :
    codeP v ≤ ((larger v 0 : ℝ) + 1) / ((n : ℝ) + 1) ∧
      ((larger v 0 : ℝ) + 1) / ((n : ℝ) + 1) ≤ codeP v + 1 / ((n : ℝ) + 1) := by
  have hn : (0 : ℝ) < (n : ℝ) + 1 := by positivity
  have hn' : (0 : ℝ) < (n : ℝ) := by exact_mod_cast hn0
  have hle : larger v 0 ≤ n := by
    rw [larger_zero]
    exact (Finset.card_filter_le _ _).trans (by simp)
  have hle' : (larger v 0 : ℝ) ≤ n := by exact_mod_cast hle
  have h0 : (0 : ℝ) ≤ larger v 0 := by positivity
  rw [codeP_eq]
  constructor
  · refine max_le ?_ ?_
    · rw [div_le_div_iff₀ hn' hn]; nlinarith
    · gcongr; linarith
  · rw [add_div]
    gcongr
    refine le_trans ?_ (le_max_left _ _)
    gcongr
    linarith

/-- The law of a uniformly random reordering of given values. -/
noncomputable def shuffled {n : ℕ} (v : Fin (n + 1) → ℝ) : Measure (Fin (n + 1) → ℝ) :=
  ((Nat.factorial (n + 1) : ENNReal))⁻¹ • ∑ s : Equiv.Perm (Fin (n + 1)), Measure.dirac (v ∘ s)

theorem shuffled_prob {n : ℕ} (v : Fin (n + 1) → ℝ) : IsProbabilityMeasure (shuffled v) := by
  constructor
  unfold shuffled
  rw [Measure.smul_apply, Measure.finsetSum_apply]
  simp only [measure_univ, Finset.sum_const, Finset.card_univ, Fintype.card_perm, Fintype.card_fin, nsmul_eq_mul, mul_one,
    smul_eq_mul]
  refine ENNReal.inv_mul_cancel ?_ (ENNReal.natCast_ne_top _)
  exact_mod_cast Nat.factorial_ne_zero _

theorem shuffled_exch {n : ℕ} (v : Fin (n + 1) → ℝ) : Exchangeable (shuffled v) := by
  intro s
  unfold shuffled
  rw [Measure.map_smul, Measure.map_finset_sum (comp_measurable s).aemeasurable]
  congr 1
  simp only [Measure.map_dirac' (comp_measurable s)]
  exact Fintype.sum_equiv (Equiv.mulRight s) _ _ fun t => rfl

theorem shuffled_value {n : ℕ} (v : Fin (n + 1) → ℝ) (k : ℕ) :
    ((n : ENNReal) + 1) * (shuffled v) {v | larger v 0 ≤ k} =
      ((Finset.univ.filter (fun i => larger v i ≤ k)).card : ENNReal) := by
  classical
  rw [exch_mean _ (shuffled_exch v)]
  have hmeas : Measurable (fun v : Fin (n + 1) → ℝ => ((Finset.univ.filter (fun i => larger v i ≤ k)).card : ENNReal)) := by
    simp only [Finset.card_filter]
    push_cast
    refine Finset.measurable_sum _ fun i _ => ?_
    exact Measurable.ite (larger_set k i) measurable_const measurable_const
  have hconst : ∀ s : Equiv.Perm (Fin (n + 1)), (Finset.univ.filter (fun i => larger (v ∘ s) i ≤ k)).card =
      (Finset.univ.filter (fun i => larger v i ≤ k)).card := by
    intro s
    refine Finset.card_bij (fun j _ => s j) ?_ (fun a _ b _ h => s.injective h) ?_
    · intro j hj
      simpa [larger_comp] using hj
    · intro b hb
      refine ⟨s.symm b, ?_, s.apply_symm_apply b⟩
      simpa [larger_comp] using hb
  unfold shuffled
  rw [lintegral_smul_measure, lintegral_finsetSum_measure]
  simp only [lintegral_dirac' _ hmeas, hconst, Finset.sum_const, Finset.card_univ, Fintype.card_perm, Fintype.card_fin,
    nsmul_eq_mul, smul_eq_mul]
  rw [← mul_assoc, ENNReal.inv_mul_cancel (by exact_mod_cast Nat.factorial_ne_zero _) (ENNReal.natCast_ne_top _), one_mul]

/-- Distinct values 1, 2, ..., n + 1. -/
noncomputable def ladder (n : ℕ) : Fin (n + 1) → ℝ := fun i => (i.1 : ℝ) + 1

theorem larger_ladder {n : ℕ} (i : Fin (n + 1)) : larger (ladder n) i = n - i.1 := by
  classical
  unfold larger ladder
  have : (Finset.univ.filter (fun j : Fin (n + 1) => j ≠ i ∧ |(i.1 : ℝ) + 1| ≤ |(j.1 : ℝ) + 1|)) = Finset.Ioi i := by
    ext j
    simp only [Finset.mem_filter, Finset.mem_univ, true_and, Finset.mem_Ioi]
    rw [abs_of_pos (by positivity), abs_of_pos (by positivity)]
    constructor
    · rintro ⟨h1, h2⟩
      have : (i.1 : ℝ) ≤ j.1 := by linarith
      have : i.1 ≤ j.1 := by exact_mod_cast this
      exact lt_of_le_of_ne this (Ne.symm h1)
    · intro h
      refine ⟨ne_of_gt h, ?_⟩
      have : (i.1 : ℝ) ≤ j.1 := by exact_mod_cast h.le
      linarith
  rw [this, Fin.card_Ioi]
  omega

/-- False of the code: the reported p-value is not valid. For every number n ≥ 2 of permutations there is an exchangeable
law (n + 1 distinct effects in random order) under which p ≤ 1/n has probability 2/(n+1), more than 1/n. -/
theorem C45_valid_refuted (n : ℕ) (hn : 2 ≤ n) :
    ∃ mu : Measure (Fin (n + 1) → ℝ), IsProbabilityMeasure mu ∧ Exchangeable mu ∧
      mu.real {v | codeP v ≤ 1 / (n : ℝ)} = 2 / ((n : ℝ) + 1) ∧ 1 / (n : ℝ) < 2 / ((n : ℝ) + 1) := by
  classical
  have hn' : (2 : ℝ) ≤ n := by exact_mod_cast hn
  refine ⟨shuffled (ladder n), shuffled_prob _, shuffled_exch _, ?_, ?_⟩
  · have hset : {v : Fin (n + 1) → ℝ | codeP v ≤ 1 / (n : ℝ)} = {v | larger v 0 ≤ 1} := by
      ext v
      simp only [Set.mem_setOf_eq, codeP_eq]
      rw [max_le_iff, div_le_div_iff_of_pos_right (by linarith)]
      constructor
      · rintro ⟨h, -⟩
        exact_mod_cast h
      · intro h
        exact ⟨by exact_mod_cast h, by gcongr; linarith⟩
    have hv := shuffled_value (ladder n) 1
    have hcard : (Finset.univ.filter (fun i => larger (ladder n) i ≤ 1)).card = 2 := by
      have : (Finset.univ.filter (fun i : Fin (n + 1) => larger (ladder n) i ≤ 1)) =
          {⟨n - 1, by omega⟩, ⟨n, by omega⟩} := by
        ext i
        simp only [Finset.mem_filter, Finset.mem_univ, true_and, larger_ladder, Finset.mem_insert, Finset.mem_singleton,
          Fin.ext_iff]
        have := i.2
        omega
      rw [this, Finset.card_pair]
      intro h
      simp only [Fin.mk.injEq] at h
      omega
    rw [hcard] at hv
    rw [hset]
    unfold Measure.real
    have h2 := congrArg ENNReal.toReal hv
    rw [ENNReal.toReal_mul, ENNReal.toReal_add (by simp) (by simp)] at h2
    simp only [ENNReal.toReal_natCast, ENNReal.toReal_one] at h2
    rw [eq_div_iff (by positivity)]
    push_cast at h2
    linarith
  · rw [div_lt_div_iff₀ (by linarith) (by linarith)]
    linarith

/-- The hypotheses of the validity theorems are met, e.g. by ten distinct effects in random order. -/
example : (shuffled (ladder 9)).real {v | ((larger v 0 : ℝ) + 1) / (((9 : ℕ) : ℝ) + 1) ≤ 1 / 5} ≤ 1 / 5 :=
  haveI := shuffled_prob (ladder 9)
  C45_textbook_valid _ (shuffled_exch _) _ (by norm_num)

end DiffDiff.Diagnostics
