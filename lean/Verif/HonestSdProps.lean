/-
Property C40: smoothness bounds. The linear programme solved by the code is analysed for every number of periods,
every weight vector and every correct solver.
-/
import Verif.HonestDidProps
import Mathlib.Algebra.BigOperators.Intervals
import Mathlib.Order.Bounds.Basic

set_option linter.unusedSectionVars false

namespace DiffDiff.HonestDid

section
variable {K : Type*} [Field K] [LinearOrder K] [IsStrictOrderedRing K]

/-- Value of a linear form on the first `T` coordinates. -/
def form (T : ℕ) (c d : ℕ → K) : K := ∑ j ∈ Finset.range T, c j * d j

/-- Feasible points of a linear programme. -/
def Feasible (p : Lp K) (d : ℕ → K) : Prop := ∀ r ∈ p.rows, form p.T r d ≤ p.b

/-- A solver that is right: a returned value is the minimum, and it fails only if there is none. -/
def Correct (solve : Lp K → Option K) : Prop :=
  ∀ p, (∀ v, solve p = some v → IsLeast {x | ∃ d, Feasible p d ∧ x = form p.T p.c d} v) ∧
    (solve p = none → ¬ ∃ v, IsLeast {x | ∃ d, Feasible p d ∧ x = form p.T p.c d} v)

/-! ### Second differences -/

/-- Second difference at `i`. -/
def dd (d : ℕ → K) (i : ℕ) : K := d i - 2 * d (i + 1) + d (i + 2)

theorem first_diff (d : ℕ → K) (t : ℕ) : d (t + 1) - d t = (d 1 - d 0) + ∑ i ∈ Finset.range t, dd d i := by
  induction t with
  | zero => simp
  | succ t ih =>
    rw [Finset.sum_range_succ, ← add_assoc, ← ih, dd]
    ring

theorem cast_sub_step (t i : ℕ) : (((t + 1 - 1 - i : ℕ) : K)) = ((t - 1 - i : ℕ) : K) + if i < t then 1 else 0 := by
  split_ifs with h
  · have : t + 1 - 1 - i = (t - 1 - i) + 1 := by omega
    rw [this]; push_cast; ring
  · have : t + 1 - 1 - i = t - 1 - i := by omega
    rw [this, add_zero]

/-- A sequence is determined by its first two values and its second differences. -/
theorem expand (d : ℕ → K) (N t : ℕ) (h : t ≤ N + 1) :
    d t = d 0 + (t : K) * (d 1 - d 0) + ∑ i ∈ Finset.range N, ((t - 1 - i : ℕ) : K) * dd d i := by
  induction t with
  | zero => simp
  | succ t ih =>
    have h1 := first_diff d t
    have h2 := ih (by omega)
    have h3 : ∑ i ∈ Finset.range N, ((t + 1 - 1 - i : ℕ) : K) * dd d i =
        ∑ i ∈ Finset.range N, ((t - 1 - i : ℕ) : K) * dd d i + ∑ i ∈ Finset.range t, dd d i := by
      simp only [cast_sub_step, add_mul, Finset.sum_add_distrib, ite_mul, one_mul, zero_mul]
      congr 1
      rw [← Finset.sum_filter]
      congr 1
      ext i
      simp only [Finset.mem_filter, Finset.mem_range]
      omega
    rw [h3]
    push_cast
    linarith

/-- Weight of the `i`-th second difference in the value of the form. -/
def ddWeight (T : ℕ) (c : ℕ → K) (i : ℕ) : K := ∑ t ∈ Finset.range T, c t * ((t - 1 - i : ℕ) : K)

/-- Summation by parts. -/
theorem form_expand (T : ℕ) (c d : ℕ → K) :
    form T c d = d 0 * (∑ t ∈ Finset.range T, c t) + (d 1 - d 0) * (∑ t ∈ Finset.range T, c t * (t : K))
      + ∑ i ∈ Finset.range (T - 2), ddWeight T c i * dd d i := by
  unfold form ddWeight
  have : ∀ t ∈ Finset.range T, c t * d t = d 0 * c t + (d 1 - d 0) * (c t * (t : K))
      + ∑ i ∈ Finset.range (T - 2), c t * ((t - 1 - i : ℕ) : K) * dd d i := by
    intro t ht
    rw [Finset.mem_range] at ht
    rcases Nat.lt_or_ge T 2 with hT | hT
    · have h0 : t = 0 := by omega
      have h1 : T - 2 = 0 := by omega
      subst h0
      simp [h1]
      ring
    · conv_lhs => rw [expand d (T - 2) t (by omega)]
      rw [mul_add, Finset.mul_sum]
      congr 1
      · ring
      · exact Finset.sum_congr rfl (fun i _ => by ring)
  rw [Finset.sum_congr rfl this, Finset.sum_add_distrib, Finset.sum_add_distrib, ← Finset.mul_sum, ← Finset.mul_sum, Finset.sum_comm]
  congr 1
  exact Finset.sum_congr rfl (fun i _ => by rw [Finset.sum_mul])

/-- A sequence with prescribed second differences. -/
def ofDd (N : ℕ) (e : ℕ → K) (t : ℕ) : K := ∑ i ∈ Finset.range N, ((t - 1 - i : ℕ) : K) * e i

theorem dd_ofDd (N : ℕ) (e : ℕ → K) (j : ℕ) (h : j < N) : dd (ofDd N e) j = e j := by
  unfold dd ofDd
  rw [Finset.mul_sum, ← Finset.sum_sub_distrib, ← Finset.sum_add_distrib]
  rw [Finset.sum_eq_single j]
  · have h1 : j - 1 - j = 0 := by omega
    have h2 : j + 1 - 1 - j = 0 := by omega
    have h3 : j + 2 - 1 - j = 1 := by omega
    rw [h1, h2, h3]
    push_cast
    ring
  · intro i _ hij
    rcases Nat.lt_or_gt_of_ne hij with h | h
    · have h1 : ((j + 1 - 1 - i : ℕ) : K) = ((j - 1 - i : ℕ) : K) + 1 := by
        rw [cast_sub_step, if_pos h]
      have h2 : ((j + 2 - 1 - i : ℕ) : K) = ((j - 1 - i : ℕ) : K) + 2 := by
        have e : j + 2 - 1 - i = (j - 1 - i) + 2 := by omega
        rw [e]; push_cast; ring
      rw [h1, h2]; ring
    · have h1 : j - 1 - i = 0 := by omega
      have h2 : j + 1 - 1 - i = 0 := by omega
      have h3 : j + 2 - 1 - i = 0 := by omega
      rw [h1, h2, h3]; simp
  · intro hn; exact absurd (Finset.mem_range.2 h) hn

theorem ofDd_zero (N : ℕ) (e : ℕ → K) : ofDd N e 0 = 0 := by simp [ofDd]
theorem ofDd_one (N : ℕ) (e : ℕ → K) : ofDd N e 1 = 0 := by simp [ofDd]

/-! ### The constraint set of the code -/

theorem row_form (T i : ℕ) (h : i + 2 < T) (d : ℕ → K) :
    form T (fun j => if j = i then 1 else if j = i + 1 then -2 else if j = i + 2 then 1 else 0) d = dd d i := by
  unfold form dd
  have e : ∀ j, (if j = i then (1 : K) else if j = i + 1 then -2 else if j = i + 2 then 1 else 0) * d j =
      (if j = i then d i else 0) + (if j = i + 1 then -2 * d (i + 1) else 0) + (if j = i + 2 then d (i + 2) else 0) := by
    intro j
    by_cases h1 : j = i
    · subst h1; simp
    · by_cases h2 : j = i + 1
      · subst h2; simp
      · by_cases h3 : j = i + 2
        · subst h3; simp
        · simp [h1, h2, h3]
  simp only [e, Finset.sum_add_distrib, Finset.sum_ite_eq', Finset.mem_range]
  rw [if_pos (by omega), if_pos (by omega), if_pos h]
  ring

theorem form_neg (T : ℕ) (c d : ℕ → K) : form T (fun j => -c j) d = -form T c d := by
  unfold form
  rw [← Finset.sum_neg_distrib]
  exact Finset.sum_congr rfl (fun j _ => by ring)

theorem rowsSd_length (nPre nPost : ℕ) : (rowsSd (K := K) nPre nPost).length = 0 ↔ nPre + nPost < 3 := by
  unfold rowsSd secondDiff
  split_ifs with h
  · simp at h ⊢; omega
  · simp at h ⊢; omega

theorem feasible_iff (nPre nPost : ℕ) (c : ℕ → K) (M : K) (d : ℕ → K) :
    Feasible ⟨nPre + nPost, c, rowsSd nPre nPost, M⟩ d ↔ ∀ i, i + 2 < nPre + nPost → |dd d i| ≤ M := by
  unfold Feasible rowsSd
  simp only
  split_ifs with h
  · simp [secondDiff] at h
    constructor
    · intro _ i hi; omega
    · intro _ r hr; cases hr
  · constructor
    · intro hf i hi
      have m1 : (fun j => if j = i then (1 : K) else if j = i + 1 then -2 else if j = i + 2 then 1 else 0) ∈
          secondDiff (K := K) (nPre + nPost) := List.mem_map.2 ⟨i, List.mem_range.2 (by omega), rfl⟩
      have a := hf _ (List.mem_append_left _ m1)
      have b := hf _ (List.mem_append_right _ (List.mem_map.2 ⟨_, m1, rfl⟩))
      rw [form_neg, row_form _ _ hi] at b
      rw [row_form _ _ hi] at a
      rw [abs_le]; constructor <;> linarith
    · intro hf r hr
      rcases List.mem_append.1 hr with hr | hr
      · obtain ⟨i, hi, rfl⟩ := List.mem_map.1 hr
        have hi := List.mem_range.1 hi
        rw [row_form _ _ (by omega)]
        exact (abs_le.1 (hf i (by omega))).2
      · obtain ⟨q, hq, rfl⟩ := List.mem_map.1 hr
        obtain ⟨i, hi, rfl⟩ := List.mem_map.1 hq
        have hi := List.mem_range.1 hi
        rw [form_neg, row_form _ _ (by omega)]
        linarith [(abs_le.1 (hf i (by omega))).1]

theorem dd_add (d e : ℕ → K) (i : ℕ) : dd (fun t => d t + e t) i = dd d i + dd e i := by unfold dd; ring
theorem dd_const (a : K) (i : ℕ) : dd (fun _ => a) i = 0 := by unfold dd; ring
theorem dd_linear (a : K) (i : ℕ) : dd (fun t => a * (t : K)) i = 0 := by unfold dd; push_cast; ring

theorem form_add (T : ℕ) (c d e : ℕ → K) : form T c (fun t => d t + e t) = form T c d + form T c e := by
  unfold form
  rw [← Finset.sum_add_distrib]
  exact Finset.sum_congr rfl (fun j _ => by ring)

/-- Values a form takes on the constraint set. -/
def Values (T : ℕ) (c : ℕ → K) (M : K) : Set K := {x | ∃ d : ℕ → K, (∀ i, i + 2 < T → |dd d i| ≤ M) ∧ x = form T c d}

theorem no_least (T : ℕ) (c : ℕ → K) (M : K)
    (h : (∑ t ∈ Finset.range T, c t) ≠ 0 ∨ (∑ t ∈ Finset.range T, c t * (t : K)) ≠ 0) : ¬ ∃ v, IsLeast (Values T c M) v := by
  rintro ⟨v, ⟨d, hd, rfl⟩, hmin⟩
  have key : ∀ e : ℕ → K, (∀ i, dd e i = 0) → form T c e ≠ 0 → False := by
    intro e he hne
    have := hmin ⟨fun t => d t + (-(1 / form T c e)) * e t, ?_, rfl⟩
    · rw [form_add] at this
      have e2 : form T c (fun t => (-(1 / form T c e)) * e t) = -1 := by
        have : form T c (fun t => (-(1 / form T c e)) * e t) = (-(1 / form T c e)) * form T c e := by
          unfold form
          rw [Finset.mul_sum]
          exact Finset.sum_congr rfl (fun j _ => by ring)
        rw [this]
        field_simp
      rw [e2] at this
      linarith
    · intro i hi
      rw [dd_add]
      have : dd (fun t => (-(1 / form T c e)) * e t) i = (-(1 / form T c e)) * dd e i := by unfold dd; ring
      rw [this, he i, mul_zero, add_zero]
      exact hd i hi
  rcases h with h | h
  · refine key (fun _ => 1) (dd_const 1) ?_
    unfold form
    simpa using h
  · refine key (fun t => 1 * (t : K)) (dd_linear 1) ?_
    unfold form
    simpa using h

theorem is_least (T : ℕ) (c : ℕ → K) (M : K) (hM : 0 ≤ M)
    (h0 : ∑ t ∈ Finset.range T, c t = 0) (h1 : ∑ t ∈ Finset.range T, c t * (t : K) = 0) :
    IsLeast (Values T c M) (-(M * ∑ i ∈ Finset.range (T - 2), |ddWeight T c i|)) := by
  constructor
  · refine ⟨ofDd (T - 2) (fun i => if 0 ≤ ddWeight T c i then -M else M), ?_, ?_⟩
    · intro i hi
      rw [dd_ofDd _ _ _ (by omega)]
      split_ifs <;> simp [abs_of_nonneg hM]
    · rw [form_expand, h0, h1, mul_zero, mul_zero, zero_add, zero_add, Finset.mul_sum, ← Finset.sum_neg_distrib]
      refine Finset.sum_congr rfl (fun i hi => ?_)
      rw [dd_ofDd _ _ _ (Finset.mem_range.1 hi)]
      split_ifs with h
      · rw [abs_of_nonneg h]; ring
      · rw [abs_of_neg (not_le.1 h)]; ring
  · rintro x ⟨d, hd, rfl⟩
    rw [form_expand, h0, h1, mul_zero, mul_zero, zero_add, zero_add, Finset.mul_sum, ← Finset.sum_neg_distrib]
    refine Finset.sum_le_sum (fun i hi => ?_)
    have hi := Finset.mem_range.1 hi
    have h2 := hd i (by omega)
    have h3 : |ddWeight T c i * dd d i| ≤ M * |ddWeight T c i| := by
      rw [abs_mul, mul_comm]
      exact mul_le_mul_of_nonneg_right h2 (abs_nonneg _)
    linarith [(abs_le.1 h3).1]

/-! ### Bounds reported -/

theorem values_eq (nPre nPost : ℕ) (c : ℕ → K) (M : K) :
    {x | ∃ d, Feasible ⟨nPre + nPost, c, rowsSd nPre nPost, M⟩ d ∧ x = form (nPre + nPost) c d} = Values (nPre + nPost) c M := by
  ext x
  simp only [Values, Set.mem_setOf_eq, feasible_iff]

/-- Weights on all periods: zero before treatment. -/
def padded (nPre : ℕ) (l : List K) (j : ℕ) : K := if nPre ≤ j then l.getD (j - nPre) 0 else 0

theorem objective_eq (nPre : ℕ) (l : List K) : objective nPre l = fun j => -padded nPre l j := by
  funext j
  unfold objective padded
  split_ifs <;> simp

theorem padded_sum (nPre : ℕ) (l : List K) : ∑ t ∈ Finset.range (nPre + l.length), padded nPre l t = l.sum := by
  rw [Finset.sum_range_add]
  have h1 : ∑ t ∈ Finset.range nPre, padded nPre l t = 0 := by
    apply Finset.sum_eq_zero
    intro t ht
    rw [padded, if_neg (by rw [Finset.mem_range] at ht; omega)]
  rw [h1, zero_add]
  have h2 : ∀ t, padded nPre l (nPre + t) = l.getD t 0 := by
    intro t
    rw [padded, if_pos (by omega), Nat.add_sub_cancel_left]
  simp only [h2]
  induction l with
  | nil => simp
  | cons a l ih =>
    rw [List.length_cons, Finset.sum_range_succ', List.sum_cons]
    have ih' : ∑ t ∈ Finset.range l.length, l.getD t 0 = l.sum := ih (by
      apply Finset.sum_eq_zero
      intro t ht
      rw [padded, if_neg (by rw [Finset.mem_range] at ht; omega)]) (by
      intro t
      rw [padded, if_pos (by omega), Nat.add_sub_cancel_left])
    simp only [List.getD_cons_succ, List.getD_cons_zero, ih']
    ring

/-- C40 is false: for every number of periods, every M (including 0), all coefficients and every weight vector with
non-zero sum (in particular the default), a correct solver leads to an infinite identified set. -/
theorem C40_refuted (solve : Lp K → Option K) (hc : Correct solve) (beta l : List K) (hl : l.length = beta.length)
    (nPre : ℕ) (M : K) (hs : l.sum ≠ 0) :
    solveBounds solve beta l (rowsSd nPre beta.length) M nPre = (.ninf, .pinf) := by
  have hsum : ∑ t ∈ Finset.range (nPre + beta.length), padded nPre l t ≠ 0 := by
    rw [← hl, padded_sum]; exact hs
  unfold solveBounds
  split_ifs with h0
  · rfl
  · have a : solve ⟨nPre + beta.length, objective nPre l, rowsSd nPre beta.length, M⟩ = none := by
      cases hv : solve ⟨nPre + beta.length, objective nPre l, rowsSd nPre beta.length, M⟩ with
      | none => rfl
      | some v =>
        exfalso
        have := (hc _).1 v hv
        simp only [values_eq] at this
        refine no_least _ _ _ (Or.inl ?_) ⟨v, this⟩
        rw [objective_eq, Finset.sum_neg_distrib]
        exact neg_ne_zero.2 hsum
    have b : solve ⟨nPre + beta.length, fun j => -objective nPre l j, rowsSd nPre beta.length, M⟩ = none := by
      cases hv : solve ⟨nPre + beta.length, fun j => -objective nPre l j, rowsSd nPre beta.length, M⟩ with
      | none => rfl
      | some v =>
        exfalso
        have := (hc _).1 v hv
        simp only [values_eq] at this
        refine no_least _ _ _ (Or.inl ?_) ⟨v, this⟩
        rw [objective_eq]
        simp only [neg_neg]
        exact hsum
    simp only [a, b]
    rfl

/-- C40, what holds: weight vectors orthogonal to constants and linear trends give finite bounds, namely the exact range
over all violations whose second differences are at most M. -/
theorem C40_finite_partial (solve : Lp K → Option K) (hc : Correct solve) (beta l : List K) (hl : l.length = beta.length)
    (nPre : ℕ) (M : K) (hM : 0 ≤ M) (hT : 3 ≤ nPre + beta.length) (h0 : l.sum = 0)
    (h1 : ∑ t ∈ Finset.range (nPre + l.length), padded nPre l t * (t : K) = 0) :
    let r := M * ∑ i ∈ Finset.range (nPre + beta.length - 2), |ddWeight (nPre + beta.length) (padded nPre l) i|
    solveBounds solve beta l (rowsSd nPre beta.length) M nPre = (.fin (dot l beta - r), .fin (dot l beta + r)) ∧
      (∀ d : ℕ → K, (∀ i, i + 2 < nPre + beta.length → |dd d i| ≤ M) →
        dot l beta - r ≤ dot l beta - form (nPre + beta.length) (padded nPre l) d ∧
        dot l beta - form (nPre + beta.length) (padded nPre l) d ≤ dot l beta + r) := by
  intro r
  set T := nPre + beta.length with hTd
  have hsum : ∑ t ∈ Finset.range T, padded nPre l t = 0 := by rw [hTd, ← hl, padded_sum, h0]
  have hlin : ∑ t ∈ Finset.range T, padded nPre l t * (t : K) = 0 := by rw [hTd, ← hl]; exact h1
  have wneg : ∀ i, ddWeight T (fun j => -padded nPre l j) i = -ddWeight T (padded nPre l) i := by
    intro i
    unfold ddWeight
    rw [← Finset.sum_neg_distrib]
    exact Finset.sum_congr rfl (fun t _ => by ring)
  have l1 : IsLeast (Values T (objective nPre l) M) (-r) := by
    rw [objective_eq]
    have := is_least T (fun j => -padded nPre l j) M hM (by rw [Finset.sum_neg_distrib, hsum, neg_zero])
      (by
        have e : ∀ t ∈ Finset.range T, -padded nPre l t * (t : K) = -(padded nPre l t * (t : K)) := fun t _ => by ring
        rw [Finset.sum_congr rfl e, Finset.sum_neg_distrib, hlin, neg_zero])
    simp only [wneg, abs_neg] at this
    exact this
  have l2 : IsLeast (Values T (fun j => -objective nPre l j) M) (-r) := by
    have := is_least T (padded nPre l) M hM hsum hlin
    rw [objective_eq]
    simp only [neg_neg]
    exact this
  have s1 : solve ⟨T, objective nPre l, rowsSd nPre beta.length, M⟩ = some (-r) := by
    have hcc := hc ⟨T, objective nPre l, rowsSd nPre beta.length, M⟩
    simp only [hTd, values_eq] at hcc
    cases hv : solve ⟨T, objective nPre l, rowsSd nPre beta.length, M⟩ with
    | none => exact absurd ⟨_, l1⟩ (hcc.2 hv)
    | some v => rw [(hcc.1 v hv).unique l1]
  have s2 : solve ⟨T, fun j => -objective nPre l j, rowsSd nPre beta.length, M⟩ = some (-r) := by
    have hcc := hc ⟨T, fun j => -objective nPre l j, rowsSd nPre beta.length, M⟩
    simp only [hTd, values_eq] at hcc
    cases hv : solve ⟨T, fun j => -objective nPre l j, rowsSd nPre beta.length, M⟩ with
    | none => exact absurd ⟨_, l2⟩ (hcc.2 hv)
    | some v => rw [(hcc.1 v hv).unique l2]
  constructor
  · unfold solveBounds
    rw [if_neg (by rw [rowsSd_length]; omega)]
    simp only [← hTd, s1, s2, Ext.add, neg_neg, ← sub_eq_add_neg]
  · intro d hd
    have a := l1.2 ⟨d, hd, rfl⟩
    have b := l2.2 ⟨d, hd, rfl⟩
    rw [form_neg] at b
    rw [objective_eq, form_neg] at a b
    constructor <;> linarith

/-- C40: the set that is promised. With at least two pre periods whose violations are pinned down by their estimates, the
target moves by at most M times a constant around the linear extrapolation of the first two of them; at M = 0 it is a
single value. -/
theorem C40_promised_set_bounded (nPre : ℕ) (l : List K) (M : K) (d d' : ℕ → K)
    (hd : ∀ i, i + 2 < nPre + l.length → |dd d i| ≤ M) (hd' : ∀ i, i + 2 < nPre + l.length → |dd d' i| ≤ M)
    (hpre : 2 ≤ nPre) (hpin : ∀ t < nPre, d t = d' t) :
    |form (nPre + l.length) (padded nPre l) d - form (nPre + l.length) (padded nPre l) d'| ≤
      2 * M * ∑ i ∈ Finset.range (nPre + l.length - 2), |ddWeight (nPre + l.length) (padded nPre l) i| := by
  set T := nPre + l.length
  rw [form_expand T _ d, form_expand T _ d', hpin 0 (by omega), hpin 1 (by omega), add_sub_add_left_eq_sub,
    ← Finset.sum_sub_distrib, Finset.mul_sum]
  refine (Finset.abs_sum_le_sum_abs _ _).trans (Finset.sum_le_sum (fun i hi => ?_))
  have hi := Finset.mem_range.1 hi
  rw [← mul_sub, abs_mul, mul_comm]
  apply mul_le_mul_of_nonneg_right _ (abs_nonneg _)
  have a := hd i (by omega)
  have b := hd' i (by omega)
  calc |dd d i - dd d' i| ≤ |dd d i| + |dd d' i| := abs_sub _ _
    _ ≤ 2 * M := by linarith

/-- C40 consequence: no smoothness analysis with default weights is ever significant, and its breakdown value is zero,
however precise and large the effects. -/
theorem C40_never_significant (solve : Lp K → Option K) (hc : Correct solve) (z se : K) (hse : 0 < se) (beta l : List K)
    (hl : l.length = beta.length) (nPre : ℕ) (M : K) (hs : l.sum ≠ 0) :
    ∃ b, smoothBounds solve z se beta l nPre M = .ok b ∧ isSignificant b = false := by
  refine ⟨⟨.ninf, .pinf, .ninf, .pinf⟩, ?_, ?_⟩
  · unfold smoothBounds
    rw [C40_refuted solve hc beta l hl nPre M hs]
    simp only [flci]
    rw [if_neg (not_le.2 hse)]
    rfl
  · simp [isSignificant, includesZero, Ext.le]

/-- C40 consequence: the combined method ignores the smoothness restriction; its identified set is the relative-magnitude
set, and its interval the relative-magnitude interval. -/
theorem C40_combined (solve : Lp K → Option K) (hc : Correct solve) (z se : K) (hse : 0 < se) (beta l : List K)
    (hl : l.length = beta.length) (nPre : ℕ) (M m : K) (hM : 0 ≤ M) (hm : 0 ≤ m) (hs : l.sum ≠ 0) :
    combinedBounds solve z se beta l nPre (some m) M = .ok (rmBounds z se beta l (some m) M) := by
  have h2 : 0 ≤ M * m := mul_nonneg hM hm
  have hsm : smoothBounds solve z se beta l nPre M = .ok ⟨.ninf, .pinf, .ninf, .pinf⟩ := by
    unfold smoothBounds
    rw [C40_refuted solve hc beta l hl nPre M hs]
    simp only [flci]
    rw [if_neg (not_le.2 hse)]
    rfl
  unfold combinedBounds
  rw [hsm]
  by_cases h : m = 0
  · simp [rmBounds, h, pyMax, pyMin, Ext.lt, Ext.sub, Ext.add, Ext.neg, flci, not_le.2 hse, sub_eq_add_neg]
  · have : ¬ (dot l beta + M * m < dot l beta - M * m) := by linarith
    simp only [rmBounds, h, pyMax, pyMin, Ext.lt, if_true, decide_eq_true_eq, this, if_false]
    simp [Ext.sub, Ext.add, Ext.neg, flci, not_le.2 hse, sub_eq_add_neg]

/-- Standard errors that are not positive are refused by the smoothness and combined methods. -/
theorem C40_zero_se (solve : Lp K → Option K) (z se : K) (hse : se ≤ 0) (beta l : List K) (nPre : ℕ) (M : K) (mp : Option K) :
    smoothBounds solve z se beta l nPre M = .error .nonPositiveSe ∧
      combinedBounds solve z se beta l nPre mp M = .error .nonPositiveSe := by
  have : smoothBounds solve z se beta l nPre M = .error .nonPositiveSe := by
    unfold smoothBounds
    simp only [flci]
    rw [if_pos hse]
  exact ⟨this, by unfold combinedBounds; rw [this]⟩

/-- Two pre and three post periods, second difference of the post effects (weights 1, -2, 1): hypotheses of the finite
case. -/
example : ([1, -2, 1] : List ℚ).sum = 0 ∧
    ∑ t ∈ Finset.range (2 + 3), padded 2 ([1, -2, 1] : List ℚ) t * (t : ℚ) = 0 ∧
    ∑ i ∈ Finset.range 3, |ddWeight 5 (padded 2 ([1, -2, 1] : List ℚ)) i| = 1 := by decide +kernel

/-- Default weights sum to one. -/
example : ((List.replicate 4 (1 / 4) : List ℚ)).sum ≠ 0 := by decide +kernel

end

/-- A correct solver exists. -/
theorem C40_solver_exists {K : Type*} [Field K] [LinearOrder K] [IsStrictOrderedRing K] : ∃ solve : Lp K → Option K, Correct solve := by
  classical
  refine ⟨fun p => if h : ∃ v, IsLeast {x | ∃ d, Feasible p d ∧ x = form p.T p.c d} v then some h.choose else none, ?_⟩
  intro p
  constructor
  · intro v hv
    simp only at hv
    split_ifs at hv with h
    cases hv
    exact h.choose_spec
  · intro hv
    simp only at hv
    split_ifs at hv with h
    exact h

end DiffDiff.HonestDid
