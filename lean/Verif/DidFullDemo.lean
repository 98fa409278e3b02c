/-
Property C150, continued: absorbed effects in unbalanced panels, missing labels, instances of the theorems.
-/
import Verif.DidFullRows

set_option linter.unusedSectionVars false
set_option linter.unusedVariables false

namespace DiffDiff.DidFull
open Matrix Vcov Did2x2
open TwfeFit (Works)
open scoped List

section
variable {K : Type*} [Field K] [LinearOrder K] [IsStrictOrderedRing K]
variable {ι C : Type*} [Fintype ι] [DecidableEq ι] [DecidableEq C]

theorem demean_some (g : ι → ℤ) (x : ι → K) :
    demean (fun i => some (g i)) (fun i => some (x i)) = fun i => some (x i - (∑ j, if g j = g i then x j else 0) / (∑ j, if g j = g i then (1 : K) else 0)) := by
  funext i
  simp only [demean, groupMean, Option.map_some, Option.getD_some, Option.some.injEq, ne_eq, reduceCtorEq, not_false_eq_true, and_true, Finset.sum_filter,
    Finset.card_filter, Nat.cast_sum, Nat.cast_ite, Nat.cast_one, Nat.cast_zero]

theorem levels_eq {g : ι → Option ℤ} {l : List ℤ} (hl : l.Pairwise (· < ·)) (h : ∀ a, a ∈ l ↔ ∃ i, g i = some a) : levels g = l := by
  have hn : l.Nodup := hl.imp (fun h => ne_of_lt h)
  have hp : levels g ~ l := (List.perm_ext_iff_of_nodup (levels_nodup g) hn).2 fun a => by rw [mem_levels, h]
  exact hp.eq_of_pairwise (fun a b _ _ h1 h2 => le_antisymm h1 h2) (Finset.pairwise_sort _ _) (hl.imp le_of_lt)

/-- When every further column has difference in differences zero, the ATT is the one of the working outcome. -/
theorem att_did {L : TwfeFit.Lib ι K} (hL : Works L) (hP : LinReg.Prunes L) {robust strict : Bool} {alpha : K} {D : Data ι C K}
    (ho : DidFit.Occupied (flag D.d) (flag D.t)) (hid : Identified (flag D.d) (flag D.t) (extras D)) {R : DidFit.Result K}
    (h : fit L robust strict alpha D = .ok R) (hx : ∀ x ∈ extras D, did x (flag D.d) (flag D.t) = 0) :
    R.att = .fin (did (num (outcome D)) (flag D.d) (flag D.t)) := by
  obtain ⟨x, a, b, c, γ, u, h1, h2, h3, h4⟩ := C150_adjusted L hL hP robust strict alpha D ho hid R h
  rw [h1, h4, Finset.sum_eq_zero fun j _ => ?_, sub_zero]
  rw [hx ((extras D)[j]) (List.getElem_mem _), mul_zero]

end

/-! ### A panel: unit 0 treated in both periods, unit 1 treated and seen in the second period only, unit 2 never treated; two rows each -/

def unit : Fin 10 → ℤ := ![0, 0, 0, 0, 1, 1, 2, 2, 2, 2]
def period : Fin 10 → Bool := ![false, false, true, true, true, true, false, false, true, true]
def treated : Fin 10 → Bool := ![true, true, true, true, true, true, false, false, false, false]
def level (b : Bool) : ℝ := if b then 1 else 0

/-- Rows of the panel with outcome `y`. -/
def panel (y : Fin 10 → ℝ) (cov : List (Fin 10 → Option ℝ)) (fixed absorb : List (Fin 10 → Option ℤ)) : Data (Fin 10) ℕ ℝ :=
  ⟨fun i => some (y i), fun i => some (level (treated i)), fun i => some (level (period i)), cov, fixed, absorb, none⟩

theorem flag_level (b : Fin 10 → Bool) : flag (fun i => some (level (b i))) = b := by
  funext i
  show decide (some (level (b i)) = some 1) = b i
  cases b i <;> simp [level]

theorem panel_binary (b : Fin 10 → Bool) (h0 : ∃ i, b i = false) (h1 : ∃ i, b i = true) : Binary (fun i => some (level (b i))) := by
  refine ⟨fun i => ?_, ?_, ?_⟩
  · cases h : b i <;> simp [level]
  · obtain ⟨i, hi⟩ := h0; exact ⟨i, by simp [level, hi]⟩
  · obtain ⟨i, hi⟩ := h1; exact ⟨i, by simp [level, hi]⟩

theorem panel_valid (y : Fin 10 → ℝ) (cov : List (Fin 10 → Option ℝ)) (fixed absorb : List (Fin 10 → Option ℤ)) (hc : ∀ x ∈ cov, ∀ i, x i ≠ none) :
    Valid (panel y cov fixed absorb) :=
  ⟨fun i => by simp [panel], hc, panel_binary treated ⟨6, rfl⟩ ⟨0, rfl⟩, panel_binary period ⟨0, rfl⟩ ⟨2, rfl⟩⟩

theorem panel_occupied : DidFit.Occupied treated period := by unfold DidFit.Occupied; decide

/-- Every call on the panel with few enough columns returns a result. -/
theorem panel_runs (L : TwfeFit.Lib (Fin 10) ℝ) (hL : Works L) (hP : LinReg.Prunes L) (alpha : ℝ) (y : Fin 10 → ℝ) (cov : List (Fin 10 → Option ℝ))
    (fixed absorb : List (Fin 10 → Option ℤ)) (hc : ∀ x ∈ cov, ∀ i, x i ≠ none) (ha : ∀ g ∈ absorb, ∀ i, g i ≠ none)
    (hn : (extras (panel y cov fixed absorb)).length < 6) : ∃ R, fit L true false alpha (panel y cov fixed absorb) = .ok R := by
  have hl := length_extras (panel y cov fixed absorb)
  refine (C150_runs L hL hP true false alpha _).2 ⟨panel_valid y cov fixed absorb hc, ha, ?_, fun h => by simp at h, fun _ => ?_, fun ids h => by simp [panel] at h⟩
  · rw [← hl, Fintype.card_fin]; omega
  · refine lt_of_le_of_lt (Matrix.rank_le_width _) ?_
    rw [Fintype.card_fin]; omega

theorem panel_extras (y : Fin 10 → ℝ) (absorb : List (Fin 10 → Option ℤ)) : extras (panel y [] [] absorb) = [] := rfl

theorem units_levels : levels (fun i => some (unit i)) = [0, 1, 2] := by
  refine levels_eq (by decide) fun a => ?_
  constructor
  · intro h
    simp only [List.mem_cons, List.not_mem_nil, or_false] at h
    rcases h with rfl | rfl | rfl
    · exact ⟨0, rfl⟩
    · exact ⟨4, rfl⟩
    · exact ⟨6, rfl⟩
  · rintro ⟨i, hi⟩
    cases hi
    revert i
    decide

/-- Difference in differences on the panel. -/
theorem panel_did (f : Fin 10 → ℝ) : did f treated period = (f 2 + f 3 + f 4 + f 5) / 4 - (f 0 + f 1) / 2 - ((f 8 + f 9) / 2 - (f 6 + f 7) / 2) := by
  have h1 : cell treated period true true = {2, 3, 4, 5} := by decide
  have h2 : cell treated period true false = {0, 1} := by decide
  have h3 : cell treated period false true = {8, 9} := by decide
  have h4 : cell treated period false false = {6, 7} := by decide
  unfold did cellMean
  rw [h1, h2, h3, h4]
  rw [Finset.sum_insert (by decide), Finset.sum_insert (by decide), Finset.sum_insert (by decide), Finset.sum_singleton, Finset.sum_pair (by decide),
    Finset.sum_pair (by decide), Finset.sum_pair (by decide), show ({2, 3, 4, 5} : Finset (Fin 10)).card = 4 by decide,
    show ({0, 1} : Finset (Fin 10)).card = 2 by decide, show ({8, 9} : Finset (Fin 10)).card = 2 by decide, show ({6, 7} : Finset (Fin 10)).card = 2 by decide]
  norm_num
  ring

/-- Without covariates and fixed effects the ATT on the panel is the difference in differences of the working outcome. -/
theorem panel_att (L : TwfeFit.Lib (Fin 10) ℝ) (hL : Works L) (hP : LinReg.Prunes L) (alpha : ℝ) (y : Fin 10 → ℝ) (absorb : List (Fin 10 → Option ℤ))
    (ha : ∀ g ∈ absorb, ∀ i, g i ≠ none) :
    ∃ R, fit L true false alpha (panel y [] [] absorb) = .ok R ∧ R.att = .fin (did (num (outcome (panel y [] [] absorb))) treated period) := by
  obtain ⟨R, hR⟩ := panel_runs L hL hP alpha y [] [] absorb (by simp) ha (by rw [panel_extras]; simp)
  have hd : flag (panel y [] [] absorb).d = treated := flag_level treated
  have ht : flag (panel y [] [] absorb).t = period := flag_level period
  have ho : DidFit.Occupied (flag (panel y [] [] absorb).d) (flag (panel y [] [] absorb).t) := by rw [hd, ht]; exact panel_occupied
  refine ⟨R, hR, ?_⟩
  have := att_did hL hP ho ?_ hR (by rw [panel_extras]; simp)
  · rw [this, hd, ht]
  · rw [hd, ht, panel_extras]
    rintro ⟨a, b, c, γ, h⟩
    have h0 := h 0
    have h2 := h 2
    have h6 := h 6
    have h8 := h 8
    simp [treated, period, ind] at h0 h2 h6 h8
    linarith

theorem unit_outcome (τ : ℝ) : num (absorbed [fun i => some (unit i)] (fun i => some (τ * (level (treated i) * level (period i))))) =
    ![-τ/2, -τ/2, τ/2, τ/2, 0, 0, 0, 0, 0, 0] := by
  unfold absorbed
  rw [List.foldl_cons, List.foldl_nil, demean_some]
  funext i
  unfold num
  fin_cases i <;> · simp [-Finset.sum_boole, Fin.sum_univ_succ, unit, level, treated, period]; try ring

theorem unit_time_outcome (τ : ℝ) : num (absorbed [fun i => some (unit i), fun i => some (if period i then 1 else 0)]
    (fun i => some (τ * (level (treated i) * level (period i))))) =
    ![-τ/4, -τ/4, τ/3, τ/3, -τ/6, -τ/6, τ/4, τ/4, -τ/6, -τ/6] := by
  have h1 := unit_outcome τ
  unfold absorbed at h1 ⊢
  rw [List.foldl_cons, List.foldl_nil] at h1
  rw [List.foldl_cons, List.foldl_cons, List.foldl_nil, demean_some]
  rw [demean_some] at h1
  have h2 : (fun i => some (τ * (level (treated i) * level (period i)) - (∑ j, if unit j = unit i then τ * (level (treated j) * level (period j)) else 0) /
      (∑ j, if unit j = unit i then (1 : ℝ) else 0))) = fun i => some ((![-τ/2, -τ/2, τ/2, τ/2, 0, 0, 0, 0, 0, 0] : Fin 10 → ℝ) i) := by
    funext i
    rw [← congrFun h1 i]
    rfl
  rw [h2, demean_some]
  funext i
  unfold num
  fin_cases i <;> · simp [-Finset.sum_boole, Fin.sum_univ_succ, period]; try ring

theorem time_unit_outcome (τ : ℝ) : num (absorbed [fun i => some (if period i then 1 else 0), fun i => some (unit i)]
    (fun i => some (τ * (level (treated i) * level (period i))))) =
    ![-τ/6, -τ/6, τ/6, τ/6, 0, 0, τ/3, τ/3, -τ/3, -τ/3] := by
  unfold absorbed
  rw [List.foldl_cons, List.foldl_cons, List.foldl_nil, demean_some]
  have h2 : (fun i => some (τ * (level (treated i) * level (period i)) - (∑ j, if (if period j then (1 : ℤ) else 0) = (if period i then 1 else 0) then
      τ * (level (treated j) * level (period j)) else 0) / (∑ j, if (if period j then (1 : ℤ) else 0) = (if period i then 1 else 0) then (1 : ℝ) else 0))) =
      fun i => some ((![0, 0, τ/3, τ/3, τ/3, τ/3, 0, 0, -2*τ/3, -2*τ/3] : Fin 10 → ℝ) i) := by
    funext i
    fin_cases i <;> · simp [-Finset.sum_boole, Fin.sum_univ_succ, level, treated, period]; try ring
  rw [h2, demean_some]
  funext i
  unfold num
  fin_cases i <;> · simp [-Finset.sum_boole, Fin.sum_univ_succ, unit]; try ring

theorem panel_identified (y : Fin 10 → ℝ) (x : Fin 10 → ℝ) (hx : x 0 ≠ x 1) :
    Identified treated period (extras (panel y [fun i => some (x i)] [fun i => some (unit i)] [])) := by
  have he : extras (panel y [fun i => some (x i)] [fun i => some (unit i)] []) =
      [x, fun i => if unit i = 1 then 1 else 0, fun i => if unit i = 2 then 1 else 0] := by
    unfold extras covariates panel dummies
    simp only [List.flatMap_cons, List.flatMap_nil, units_levels]
    simp [absorbed, num]
    rfl
  rw [he]
  rintro ⟨a, b, c, γ, h⟩
  have h0 := h 0
  have h1 := h 1
  have h2 := h 2
  have h6 := h 6
  have h8 := h 8
  simp [treated, period, ind, Fin.sum_univ_succ, unit] at h0 h1 h2 h6 h8
  have hg : γ 0 = 0 := by
    have : γ 0 * (x 0 - x 1) = 0 := by linarith
    exact (mul_eq_zero.1 this).resolve_right (sub_ne_zero.2 hx)
  rw [hg] at h0 h2 h6 h8
  simp at h0 h2 h6 h8
  linarith

theorem panel_identified' (y : Fin 10 → ℝ) : Identified treated period (extras (panel y [] [fun i => some (unit i)] [])) := by
  have he : extras (panel y [] [fun i => some (unit i)] []) = [fun i => if unit i = 1 then 1 else 0, fun i => if unit i = 2 then 1 else 0] := by
    unfold extras covariates panel dummies
    simp only [List.flatMap_cons, List.flatMap_nil, units_levels]
    simp
  rw [he]
  rintro ⟨a, b, c, γ, h⟩
  have h0 := h 0
  have h2 := h 2
  have h6 := h 6
  have h8 := h 8
  simp [treated, period, ind, Fin.sum_univ_succ, unit] at h0 h2 h6 h8
  linarith

/-- C150, refutation. Absorbing the units is not the regression with unit effects when the panel is unbalanced: for an outcome that is exactly an effect `τ` of the
treatment (no other difference between units or periods), `fixed_effects=["unit"]` reports `τ` and `absorb=["unit"]` reports `3τ/4`. -/
theorem C150_absorb_refuted (L : TwfeFit.Lib (Fin 10) ℝ) (hL : Works L) (hP : LinReg.Prunes L) (alpha τ : ℝ) :
    (∃ R, fit L true false alpha (panel (fun i => τ * (level (treated i) * level (period i))) [] [fun i => some (unit i)] []) = .ok R ∧ R.att = .fin τ) ∧
    (∃ R, fit L true false alpha (panel (fun i => τ * (level (treated i) * level (period i))) [] [] [fun i => some (unit i)]) = .ok R ∧
      R.att = .fin (3 * τ / 4)) := by
  constructor
  · set D := panel (fun i => τ * (level (treated i) * level (period i))) [] [fun i => some (unit i)] [] with hD
    have hd : flag D.d = treated := flag_level treated
    have ht : flag D.t = period := flag_level period
    have hlen : (extras D).length < 6 := by
      have : (extras D).length = 2 := by
        show (([] : List (Fin 10 → ℝ)) ++ [fun i => some (unit i)].flatMap dummies).length = 2
        unfold dummies
        simp [units_levels]
      omega
    obtain ⟨R, hR⟩ := panel_runs L hL hP alpha (fun i => τ * (level (treated i) * level (period i))) [] [fun i => some (unit i)] [] (by simp) (by simp) hlen
    refine ⟨R, hR, C150_recovers L hL hP true false alpha D rfl (by simp [hD, panel]) (by rw [hd, ht]; exact panel_identified' _) R hR 0 0 0 τ (fun _ => 0)
      (fun _ _ => 0) fun i => ?_⟩
    unfold shift
    rw [hd, ht]
    show some (τ * (level (treated i) * level (period i))) = _
    refine congrArg some ?_
    simp only [Finset.sum_const_zero, zero_mul, add_zero, zero_add]
    cases treated i <;> cases period i <;> simp [level, ind]
  · obtain ⟨R, h1, h2⟩ := panel_att L hL hP alpha (fun i => τ * (level (treated i) * level (period i))) [fun i => some (unit i)] (by simp)
    refine ⟨R, h1, ?_⟩
    rw [h2, show outcome (panel (fun i => τ * (level (treated i) * level (period i))) [] [] [fun i => some (unit i)]) =
      absorbed [fun i => some (unit i)] (fun i => some (τ * (level (treated i) * level (period i)))) from rfl, unit_outcome, panel_did]
    refine congrArg Ext.fin ?_
    simp
    ring

/-- C150, refutation. The order of the absorbed columns matters in an unbalanced panel: on the same data `absorb=["unit", "time"]` reports `3τ/4` and
`absorb=["time", "unit"]` reports `11τ/12`. -/
theorem C150_absorb_order_refuted (L : TwfeFit.Lib (Fin 10) ℝ) (hL : Works L) (hP : LinReg.Prunes L) (alpha τ : ℝ) :
    (∃ R, fit L true false alpha (panel (fun i => τ * (level (treated i) * level (period i))) [] []
      [fun i => some (unit i), fun i => some (if period i then 1 else 0)]) = .ok R ∧ R.att = .fin (3 * τ / 4)) ∧
    (∃ R, fit L true false alpha (panel (fun i => τ * (level (treated i) * level (period i))) [] []
      [fun i => some (if period i then 1 else 0), fun i => some (unit i)]) = .ok R ∧ R.att = .fin (11 * τ / 12)) := by
  constructor
  · obtain ⟨R, h1, h2⟩ := panel_att L hL hP alpha (fun i => τ * (level (treated i) * level (period i)))
      [fun i => some (unit i), fun i => some (if period i then 1 else 0)] (by simp)
    refine ⟨R, h1, ?_⟩
    rw [h2, show outcome (panel (fun i => τ * (level (treated i) * level (period i))) [] [] [fun i => some (unit i), fun i => some (if period i then 1 else 0)]) =
      absorbed [fun i => some (unit i), fun i => some (if period i then 1 else 0)] (fun i => some (τ * (level (treated i) * level (period i)))) from rfl,
      unit_time_outcome, panel_did]
    refine congrArg Ext.fin ?_
    simp
    ring
  · obtain ⟨R, h1, h2⟩ := panel_att L hL hP alpha (fun i => τ * (level (treated i) * level (period i)))
      [fun i => some (if period i then 1 else 0), fun i => some (unit i)] (by simp)
    refine ⟨R, h1, ?_⟩
    rw [h2, show outcome (panel (fun i => τ * (level (treated i) * level (period i))) [] [] [fun i => some (if period i then 1 else 0), fun i => some (unit i)]) =
      absorbed [fun i => some (if period i then 1 else 0), fun i => some (unit i)] (fun i => some (τ * (level (treated i) * level (period i)))) from rfl,
      time_unit_outcome, panel_did]
    refine congrArg Ext.fin ?_
    simp
    ring

/-- Labels of the units, those of unit 0 missing. -/
def gappy : Fin 10 → Option ℤ := ![none, none, none, none, some 1, some 1, some 2, some 2, some 2, some 2]

theorem gappy_levels : levels gappy = [1, 2] := by
  refine levels_eq (by decide) fun a => ?_
  constructor
  · intro h
    simp only [List.mem_cons, List.not_mem_nil, or_false] at h
    rcases h with rfl | rfl
    · exact ⟨4, rfl⟩
    · exact ⟨6, rfl⟩
  · rintro ⟨i, hi⟩
    fin_cases i <;> simp [gappy] at hi <;> subst hi <;> simp

/-- C150, refutation. Missing labels of a fixed effect are not rejected, and the report can be wrong: with an effect `τ` of the treatment and a difference `δ` between
unit 1 and the other units the complete labels give `τ`; when the labels of unit 0 are missing the call returns `τ + δ/2`. -/
theorem C150_missing_label_refuted (L : TwfeFit.Lib (Fin 10) ℝ) (hL : Works L) (hP : LinReg.Prunes L) (alpha τ δ : ℝ) :
    (∃ R, fit L true false alpha (panel (fun i => τ * (level (treated i) * level (period i)) + if unit i = 1 then δ else 0) [] [fun i => some (unit i)] []) = .ok R ∧
      R.att = .fin τ) ∧
    (∃ R, fit L true false alpha (panel (fun i => τ * (level (treated i) * level (period i)) + if unit i = 1 then δ else 0) [] [gappy] []) = .ok R ∧
      R.att = .fin (τ + δ / 2)) := by
  constructor
  · set D := panel (fun i => τ * (level (treated i) * level (period i)) + if unit i = 1 then δ else 0) [] [fun i => some (unit i)] [] with hD
    have hd : flag D.d = treated := flag_level treated
    have ht : flag D.t = period := flag_level period
    have hlen : (extras D).length < 6 := by
      have : (extras D).length = 2 := by
        show (([] : List (Fin 10 → ℝ)) ++ [fun i => some (unit i)].flatMap dummies).length = 2
        unfold dummies
        simp [units_levels]
      omega
    obtain ⟨R, hR⟩ := panel_runs L hL hP alpha (fun i => τ * (level (treated i) * level (period i)) + if unit i = 1 then δ else 0) [] [fun i => some (unit i)] []
      (by simp) (by simp) hlen
    refine ⟨R, hR, C150_recovers L hL hP true false alpha D rfl (by simp [hD, panel]) (by rw [hd, ht]; exact panel_identified' _) R hR 0 0 0 τ (fun _ => 0)
      (fun _ a => if a = 1 then δ else 0) fun i => ?_⟩
    unfold shift
    rw [hd, ht]
    show some (τ * (level (treated i) * level (period i)) + if unit i = 1 then δ else 0) = _
    refine congrArg some ?_
    have hs : ∑ j : Fin D.fixed.length, (if ((D.fixed[j] i).getD 0) = 1 then δ else 0) = if unit i = 1 then δ else 0 := by
      show ∑ j : Fin 1, _ = _
      rw [Fin.sum_univ_one]
      rfl
    rw [hs]
    simp only [Finset.sum_const_zero, zero_mul, add_zero, zero_add]
    cases treated i <;> cases period i <;> simp [level, ind]
  · set D := panel (fun i => τ * (level (treated i) * level (period i)) + if unit i = 1 then δ else 0) [] [gappy] [] with hD
    have hd : flag D.d = treated := flag_level treated
    have ht : flag D.t = period := flag_level period
    have he : extras D = [fun i => if gappy i = some 2 then 1 else 0] := by
      show ([] : List (Fin 10 → ℝ)) ++ [gappy].flatMap dummies = _
      unfold dummies
      simp [gappy_levels]
    obtain ⟨R, hR⟩ := panel_runs L hL hP alpha (fun i => τ * (level (treated i) * level (period i)) + if unit i = 1 then δ else 0) [] [gappy] []
      (by simp) (by simp) (by rw [← hD, he]; simp)
    refine ⟨R, hR, ?_⟩
    have ho : DidFit.Occupied (flag D.d) (flag D.t) := by rw [hd, ht]; exact panel_occupied
    have := att_did hL hP ho ?_ hR ?_
    · rw [this, hd, ht, panel_did]
      refine congrArg Ext.fin ?_
      simp [hD, panel, outcome, absorbed, num, level, treated, period, unit]
      ring
    · rw [hd, ht, he]
      rintro ⟨a, b, c, γ, h⟩
      have h0 := h 0
      have h2 := h 2
      have h6 := h 6
      have h8 := h 8
      simp [treated, period, ind, gappy] at h0 h2 h6 h8
      linarith
    · rw [he, hd, ht]
      intro x hx
      rw [List.mem_singleton.1 hx, panel_did]
      simp [gappy]

/-! ### Instances of the theorems: a covariate, twice the same covariate (redundant) and unit effects -/

def demo (y : Fin 10 → ℝ) : Data (Fin 10) ℕ ℝ := panel y [fun i => some (i.val : ℝ), fun i => some (2 * (i.val : ℝ))] [fun i => some (unit i)] []

theorem demo_extras (y : Fin 10 → ℝ) :
    extras (demo y) = [fun i => (i.val : ℝ), fun i => 2 * (i.val : ℝ), fun i => if unit i = 1 then 1 else 0, fun i => if unit i = 2 then 1 else 0] := by
  unfold demo extras covariates panel dummies
  simp only [List.flatMap_cons, List.flatMap_nil, units_levels]
  simp [absorbed]
  exact ⟨rfl, rfl⟩

theorem demo_identified (y : Fin 10 → ℝ) : Identified (flag (demo y).d) (flag (demo y).t) (extras (demo y)) := by
  rw [show flag (demo y).d = treated from flag_level treated, show flag (demo y).t = period from flag_level period, demo_extras]
  rintro ⟨a, b, c, γ, h⟩
  have h0 := h 0
  have h1 := h 1
  have h2 := h 2
  have h6 := h 6
  have h8 := h 8
  simp [treated, period, ind, Fin.sum_univ_succ, unit] at h0 h1 h2 h6 h8
  linarith

theorem demo_runs (L : TwfeFit.Lib (Fin 10) ℝ) (hL : Works L) (hP : LinReg.Prunes L) (y : Fin 10 → ℝ) : ∃ R, fit L true false (1 / 20) (demo y) = .ok R :=
  panel_runs L hL hP (1 / 20) y _ _ _ (by simp) (by simp) (by
    show (extras (demo y)).length < 6
    rw [demo_extras]
    simp)

theorem demo_occupied (y : Fin 10 → ℝ) : DidFit.Occupied (flag (demo y).d) (flag (demo y).t) := by
  rw [show flag (demo y).d = treated from flag_level treated, show flag (demo y).t = period from flag_level period]
  exact panel_occupied

/-- Report, covariate adjustment, units, controls, listing, order of the rows on the same data. -/
example : ∃ L : TwfeFit.Lib (Fin 10) ℝ, ∃ R x s, fit L true false (1 / 20) (demo (fun i => (i.val : ℝ) ^ 2)) = .ok R ∧ R.att = .fin x ∧ R.se = .fin s ∧
    (∃ R', fit L true false (1 / 20) ((demo (fun i => (i.val : ℝ) ^ 2)).withY (fun i => some (3 * (i.val : ℝ) ^ 2))) = .ok R' ∧ R'.att = .fin (3 * x) ∧
      R'.se = .fin (3 * s)) ∧
    (∃ R', fit L true false (1 / 20) ((demo (fun i => (i.val : ℝ) ^ 2)).withY
        (fun i => some ((i.val : ℝ) ^ 2 + shift (demo (fun i => (i.val : ℝ) ^ 2)) 1 2 3 4 (fun _ => 5) (fun _ a => (a : ℝ) ^ 3) i))) = .ok R' ∧
      R'.att = .fin (x + 4) ∧ R'.se = .fin s) ∧
    fit L true false (1 / 20) (panel (fun i => (i.val : ℝ) ^ 2) [fun i => some (2 * (i.val : ℝ)), fun i => some (i.val : ℝ)] [fun i => some (unit i)] []) = .ok R ∧
    fit L true false (1 / 20) (panel (fun i => (i.val : ℝ) ^ 2) [fun i => some (i.val : ℝ), fun i => some (2 * (i.val : ℝ))]
      [fun i => some (10 - unit i)] []) = .ok R ∧
    fit L true false (1 / 20) ((demo (fun i => (i.val : ℝ) ^ 2)).moved Fin.revPerm) = .ok R := by
  obtain ⟨L, hL, hP⟩ := LinReg.exists_prunes (ι := Fin 10)
  obtain ⟨R, hR⟩ := demo_runs L hL hP (fun i => (i.val : ℝ) ^ 2)
  have hid := demo_identified (fun i => (i.val : ℝ) ^ 2)
  obtain ⟨w, u, x, h1, h2, h3, h4, h5, h6, h7, -⟩ := C150_report L hL hP true false (1 / 20) _ hid R hR _ _ rfl rfl _ rfl
  have hse := h7 rfl rfl
  refine ⟨L, R, x, _, hR, h5, hse, ?_, ?_, ?_, ?_, ?_⟩
  · obtain ⟨R', g1, ⟨x', g2, g3⟩, g4, g5, -⟩ := C150_units L hL hP true false (1 / 20) _ hid R hR 3 (by norm_num)
    rw [h5] at g2
    cases g2
    exact ⟨R', g1, g3, g5 _ hse⟩
  · obtain ⟨R', g1, ⟨x', g2, g3⟩, g4, -⟩ := C150_controls L hL hP true false (1 / 20) _ rfl (by simp [demo, panel]) hid R hR 1 2 3 4 (fun _ => 5)
      (fun _ a => (a : ℝ) ^ 3)
    rw [h5] at g2
    cases g2
    exact ⟨R', g1, g3, g4.trans hse⟩
  · exact (C150_listing L hL hP true false (1 / 20) _ [fun i => some (2 * (i.val : ℝ)), fun i => some (i.val : ℝ)] [fun i => some (unit i)]
      (List.Perm.swap _ _ _) (List.Perm.refl _) hid R).1 hR
  · exact (C150_levels L hL hP true false (1 / 20) _ [fun i => some (10 - unit i)] [] (.cons ⟨by simp, by simp, fun i j => by simp⟩ .nil) .nil hid R).1 hR
  · exact (C150_row_order L hL hP L hL hP rfl rfl rfl Fin.revPerm true false (1 / 20) _ hid R).2 hR

/-- Refused calls: a missing covariate value; a period column with the values 0 and 2. -/
example (L : TwfeFit.Lib (Fin 10) ℝ) :
    fit L true false (1 / 20) (panel (fun _ => 0) [fun i => if i = 3 then none else some 1] [] []) = .error .missing := by
  refine (C150_errors L true false (1 / 20) _ _ Iff.rfl).1.2 ⟨fun i => if i = 3 then none else some 1, by simp [panel], 3, by simp⟩

/-- Absorbed units: a unit effect added to the outcome changes nothing. -/
example : ∃ L : TwfeFit.Lib (Fin 10) ℝ, ∃ R, fit L true false (1 / 20) (panel (fun i => (i.val : ℝ) ^ 2) [] [] [fun i => some (unit i)]) = .ok R ∧
    fit L true false (1 / 20) (panel (fun i => (i.val : ℝ) ^ 2 + 100 * (unit i : ℝ)) [] [] [fun i => some (unit i)]) = .ok R ∧
    (DidFit.fitCore L.toLib (⟨true, none, false⟩ : DidFit.Opts (Fin 10) ℕ) (1 / 20) [] treated period
      (num (outcome (panel (fun i => (i.val : ℝ) ^ 2) [] [] [fun i => some (unit i)]))) (adjustment [fun i => some (unit i)])) = .ok R := by
  obtain ⟨L, hL, hP⟩ := LinReg.exists_prunes (ι := Fin 10)
  obtain ⟨R, hR, -⟩ := panel_att L hL hP (1 / 20) (fun i => (i.val : ℝ) ^ 2) [fun i => some (unit i)] (by simp)
  refine ⟨L, R, hR, ?_, ?_⟩
  · rw [← hR]
    exact C150_absorb L true false (1 / 20) (panel (fun i => (i.val : ℝ) ^ 2) [] [] [fun i => some (unit i)]) _ [] rfl
      (fun i => some ((i.val : ℝ) ^ 2 + 100 * (unit i : ℝ))) [] (fun a => 100 * ((a.getD 0 : ℤ) : ℝ)) (fun i => rfl) .nil
  · have hd : flag (panel (fun i => (i.val : ℝ) ^ 2) [] [] [fun i => some (unit i)]).d = treated := flag_level treated
    have ht : flag (panel (fun i => (i.val : ℝ) ^ 2) [] [] [fun i => some (unit i)]).t = period := flag_level period
    have := C150_plain L hL true false (1 / 20) (panel (fun i => (i.val : ℝ) ^ 2) [] [] [fun i => some (unit i)]) (panel_valid _ _ _ _ (by simp)) (by simp [panel]) rfl rfl
      (by rw [hd, ht]; exact panel_occupied)
    rw [hR, hd, ht] at this
    cases hf : DidFit.fitCore L.toLib (⟨true, none, false⟩ : DidFit.Opts (Fin 10) ℕ) (1 / 20) [] treated period
      (num (outcome (panel (fun i => (i.val : ℝ) ^ 2) [] [] [fun i => some (unit i)]))) (adjustment [fun i => some (unit i)]) with
    | error e =>
      have h' : (Except.ok R : Except Err _) = (Except.error e : Except LinReg.Err (DidFit.Result ℝ)).mapError .reg := by rw [← hf]; exact this
      cases h'
    | ok R' =>
      have h' : (Except.ok R : Except Err _) = (Except.ok R' : Except LinReg.Err (DidFit.Result ℝ)).mapError .reg := by rw [← hf]; exact this
      cases h'
      rfl

/-- The interaction given a second time as a covariate: not identified. -/
example : ∃ L : TwfeFit.Lib (Fin 10) ℝ, ∃ R, fit L true false (1 / 20)
    (panel (fun i => (i.val : ℝ) ^ 2) [fun i => some (level (treated i) * level (period i))] [] []) = .ok R ∧ ∃ u : Fin 10 → ℝ, ∀ z,
      Comb treated period [fun i => level (treated i) * level (period i)] z (fun i => (i.val : ℝ) ^ 2 - u i) := by
  obtain ⟨L, hL, hP⟩ := LinReg.exists_prunes (ι := Fin 10)
  set D := panel (fun i => (i.val : ℝ) ^ 2) [fun i => some (level (treated i) * level (period i))] [] [] with hD
  have he : extras D = [fun i => level (treated i) * level (period i)] := rfl
  have hd : flag D.d = treated := flag_level treated
  have ht : flag D.t = period := flag_level period
  obtain ⟨R, hR⟩ := panel_runs L hL hP (1 / 20) (fun i => (i.val : ℝ) ^ 2) [fun i => some (level (treated i) * level (period i))] [] [] (by simp) (by simp)
    (by rw [← hD, he]; simp)
  refine ⟨L, R, hR, ?_⟩
  obtain ⟨-, u, -, -, h, -⟩ := C150_unidentified L hL hP true false (1 / 20) D (by
    rw [hd, ht, he]
    have hf : (fun i => ind (treated i) * ind (period i) : Fin 10 → ℝ) = fun i => level (treated i) * level (period i) := by
      funext i
      cases treated i <;> cases period i <;> simp [level, ind]
    refine not_not.2 ?_
    rw [hf]
    exact comb_mem (by simp)) R hR
  rw [hd, ht, he] at h
  exact ⟨u, h⟩

/-- Pooling of missing labels. -/
example (L : TwfeFit.Lib (Fin 10) ℝ) (y : Fin 10 → ℝ) : fit L true false (1 / 20) (panel y [] [gappy] []) =
    fit L true false (1 / 20) (panel y [] [fun i => some ((gappy i).getD 1)] []) :=
  C150_missing_level L true false (1 / 20) (panel y [] [] []) [] [] gappy 1 ⟨4, rfl⟩ (fun i a h => by
    have : a ∈ levels gappy := mem_levels.2 ⟨i, h⟩
    rw [gappy_levels] at this
    simp at this
    omega)

end DiffDiff.DidFull
