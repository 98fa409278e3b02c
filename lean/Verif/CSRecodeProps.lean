/-
Properties of the Callaway-Sant'Anna model: C30 (coding of never-treated units) and C71 (covariate-adjusted
estimators).
-/
import Verif.CSAggProps

set_option linter.unusedSectionVars false

namespace DiffDiff.CS

variable {K : Type*} [Field K] [LinearOrder K] [IsStrictOrderedRing K]
variable {n : ℕ}

/-! ### C30 -/

/-- Code never-treated units by infinity instead of 0. -/
def recode (P : Panel n K) : Panel n K :=
  { P with cohort := fun u => if P.cohort u = .num 0 then .inf else P.cohort u }

theorem recode_isNever (P : Panel n K) (u : Fin n) : ((recode P).cohort u).isNever = (P.cohort u).isNever := by
  show (if P.cohort u = .num 0 then Coh.inf else P.cohort u).isNever = _
  split_ifs with h
  · rw [h]; rfl
  · rfl

theorem recode_eq (P : Panel n K) (u : Fin n) (z : ℤ) (hz : z ≠ 0) :
    (recode P).cohort u = .num z ↔ P.cohort u = .num z := by
  show (if P.cohort u = .num 0 then Coh.inf else P.cohort u) = _ ↔ _
  split_ifs with h
  · rw [h]
    refine iff_of_false (by simp) ?_
    intro h'
    cases h'
    exact hz rfl
  · rfl

/-- C30: every effect of a dated cohort is unchanged (value, variance, units, influence function). -/
theorem C30_cs_effect (c : Cfg) (P : Panel n K) (z t : ℤ) (hz : z ≠ 0) :
    attGt c (recode P) (.num z) t = attGt c P (.num z) t := by
  have hT : ∀ b, treatedSet (recode P) (.num z) b t = treatedSet P (.num z) b t := by
    intro b
    ext u
    rw [mem_treatedSet, mem_treatedSet, recode_eq P u z hz]
    rfl
  have hC : ∀ b, controlSet c (recode P) (.num z) b t = controlSet c P (.num z) b t := by
    intro b
    ext u
    rw [mem_controlSet, mem_controlSet]
    refine and_congr ?_ Iff.rfl
    unfold controlMask
    cases c.ctl with
    | never => simp only; rw [recode_isNever]
    | notYet =>
      simp only [Bool.or_eq_true, Bool.and_eq_true, decide_eq_true_eq, recode_isNever]
      by_cases h0 : P.cohort u = .num 0
      · simp [h0, Coh.isNever]
      · have : (recode P).cohort u = P.cohort u := if_neg h0
        rw [this]
  unfold attGt
  cases basePeriod c (.num z) t with
  | none => rfl
  | some b =>
    simp only [hT, hC]
    rfl

theorem le_total' (a b : Coh) : Coh.le a b = true ∨ Coh.le b a = true := by
  cases a <;> cases b <;> simp [Coh.le]
  exact Int.le_total _ _

theorem le_trans' (a b c : Coh) (h1 : Coh.le a b = true) (h2 : Coh.le b c = true) : Coh.le a c = true := by
  cases a <;> cases b <;> cases c <;> simp_all [Coh.le]
  exact Int.le_trans h1 h2

theorem le_antisymm' (a b : Coh) (h1 : Coh.le a b = true) (h2 : Coh.le b a = true) : a = b := by
  cases a <;> cases b <;> simp_all [Coh.le]
  exact Int.le_antisymm h1 h2

instance : Std.Total (fun a b : Coh => Coh.le a b = true) := ⟨le_total'⟩
instance : IsTrans Coh (fun a b : Coh => Coh.le a b = true) := ⟨le_trans'⟩

theorem groups_sorted (P : Panel n K) : (groups P).Pairwise (fun a b => Coh.le a b = true) :=
  List.pairwise_insertionSort _ _

theorem groups_nodup (P : Panel n K) : (groups P).Nodup :=
  (List.perm_insertionSort _ _).nodup_iff.2 ((List.nodup_dedup _).filter _)

theorem mem_groups {P : Panel n K} {g : Coh} : g ∈ groups P ↔ (∃ u, P.cohort u = g) ∧ g.pos = true := by
  rw [groups, List.mem_insertionSort, List.mem_filter, List.mem_dedup, List.mem_map]
  simp

/-- A cohort with a date. -/
def dated : Coh → Bool
  | .num _ => true
  | _ => false

theorem sorted_unique (l l' : List Coh) (h1 : l.Nodup) (h2 : l'.Nodup)
    (s1 : l.Pairwise (fun a b => Coh.le a b = true)) (s2 : l'.Pairwise (fun a b => Coh.le a b = true))
    (h : ∀ g, g ∈ l ↔ g ∈ l') : l = l' := by
  have hp : l.Perm l' := (List.perm_ext_iff_of_nodup h1 h2).2 h
  exact hp.eq_of_pairwise (fun a b _ _ => le_antisymm' a b) s1 s2

/-- C30: the dated groups are unchanged. -/
theorem C30_cs_groups (P : Panel n K) : (groups (recode P)).filter dated = (groups P).filter dated := by
  apply sorted_unique
  · exact (groups_nodup _).filter _
  · exact (groups_nodup _).filter _
  · exact (groups_sorted _).filter _
  · exact (groups_sorted _).filter _
  · intro g
    rw [List.mem_filter, List.mem_filter, mem_groups, mem_groups]
    refine and_congr_left (fun hd => ?_)
    cases g with
    | num z =>
      refine and_congr_left (fun hp => ?_)
      have : z ≠ 0 := by simp only [Coh.pos, decide_eq_true_eq] at hp; omega
      exact exists_congr (fun u => recode_eq P u z this)
    | inf => simp [dated] at hd
    | nan => simp [dated] at hd

theorem flatMap_filter {α β : Type*} (f : α → List β) (p : α → Bool) (q : β → Bool) (l : List α)
    (h : ∀ a ∈ l, ∀ b ∈ f a, q b = p a) : (l.flatMap f).filter q = (l.filter p).flatMap f := by
  induction l with
  | nil => rfl
  | cons a l ih =>
    rw [List.flatMap_cons, List.filter_append, ih (fun x hx => h x (List.mem_cons_of_mem _ hx)), List.filter_cons]
    split_ifs with hp
    · rw [List.flatMap_cons]
      congr 1
      rw [List.filter_eq_self]
      intro b hb
      rw [h a (by simp) b hb, hp]
    · have : (f a).filter q = [] := by
        rw [List.filter_eq_nil_iff]
        intro b hb
        rw [h a (by simp) b hb]
        exact hp
      rw [this, List.nil_append]

theorem effects_dated (c : Cfg) (P : Panel n K) : (effects c P).filter (fun x => dated x.1.1) =
    ((groups P).filter dated).flatMap (fun g => (validPeriods c P g).filterMap
      (fun t => (attGt c P g t).map (fun e => ((g, t), e)))) := by
  rw [effects]
  apply flatMap_filter
  intro g _ x hx
  rw [List.mem_filterMap] at hx
  obtain ⟨t, _, h⟩ := hx
  rw [Option.map_eq_some_iff] at h
  obtain ⟨e, _, rfl⟩ := h
  rfl

/-- C30, the part that holds for Callaway-Sant'Anna: the list of effects of dated cohorts is unchanged. Missing: with
the varying base, entries for an infinite "cohort" appear as well; see the refutation below. -/
theorem C30_cs_effects_partial (c : Cfg) (P : Panel n K) :
    (effects c (recode P)).filter (fun x => dated x.1.1) = (effects c P).filter (fun x => dated x.1.1) := by
  rw [effects_dated, effects_dated, C30_cs_groups]
  refine flatMap_congr' _ _ _ (fun g hg => ?_)
  rw [List.mem_filter, mem_groups] at hg
  cases g with
  | num z =>
    have hz : z ≠ 0 := by
      have := hg.1.2
      simp only [Coh.pos, decide_eq_true_eq] at this
      omega
    have hv : validPeriods c (recode P) (.num z) = validPeriods c P (.num z) := rfl
    rw [hv]
    exact filterMap_congr' _ _ _ (fun t _ => by rw [C30_cs_effect c P z t hz])
  | inf => simp [dated] at hg
  | nan => simp [dated] at hg

/-- C30: the overall effect is unchanged. -/
theorem C30_cs_overall (c : Cfg) (P : Panel n K) :
    overall c.ant (effects c (recode P)) = overall c.ant (effects c P) := by
  have key : ∀ Q : Panel n K, postPairs c.ant (effects c Q) =
      ((effects c Q).filter (fun x => dated x.1.1)).filter (fun x => ! x.1.1.pre c.ant x.1.2) := by
    intro Q
    rw [List.filter_filter]
    refine List.filter_congr (fun x hx => ?_)
    have := groups_ne_nan (mem_effects hx).1
    cases hq : x.1.1 with
    | num z => simp [dated]
    | inf => simp [dated, Coh.pre]
    | nan => exact absurd hq this
  simp only [overall, key, C30_cs_effects_partial]

/-- C30: the number of control units is unchanged, and fit fails for lack of controls in the same cases. -/
theorem C30_cs_control_count (P : Panel n K) :
    (Finset.univ.filter (fun u => ((recode P).cohort u).isNever = true)).card =
    (Finset.univ.filter (fun u => (P.cohort u).isNever = true)).card := by
  congr 1
  ext u
  rw [Finset.mem_filter, Finset.mem_filter, recode_isNever]

theorem universal_dated (c : Cfg) (hc : c.base = .universal) (P : Panel n K) :
    (effects c P).filter (fun x => dated x.1.1) = effects c P := by
  rw [List.filter_eq_self]
  intro x hx
  obtain ⟨_, _, h⟩ := mem_effects hx
  obtain ⟨b, hb, _⟩ := attGt_some h
  unfold basePeriod at hb
  rw [hc] at hb
  cases hq : x.1.1 with
  | num z => rfl
  | inf => rw [hq] at hb; simp at hb
  | nan => rw [hq] at hb; simp at hb

/-- C30: with the universal base the effects, the overall effect and the event study do not depend on the coding. -/
theorem C30_cs_universal (c : Cfg) (bal : Option ℤ) (hc : c.base = .universal) (P : Panel n K) :
    effects c (recode P) = effects c P ∧
    eventStudy c bal (effects c (recode P)) = eventStudy c bal (effects c P) := by
  have : effects c (recode P) = effects c P := by
    rw [← universal_dated c hc P, ← C30_cs_effects_partial, universal_dated c hc]
  exact ⟨this, by rw [this]⟩

/-- Two dated units and two never-treated units coded 0. -/
def demo3 : Panel 4 ℚ where
  cohort := ![.num 2, .num 3, .num 0, .num 0]
  times := [1, 2, 3]
  y := fun u t => some ((u.val : ℚ) * 2 + t + if u = 0 ∧ 2 ≤ t then 1 else 0)

/-- Reported (treated, control) unit counts, keys of the effects, relative times of the event study. -/
def summaryOf (r : Except Err (Results n K)) : Option (ℕ × ℕ) × List (Coh × ℤ) × List (WithBot ℤ) :=
  match r with
  | .error _ => (none, [], [])
  | .ok r => (some (r.nTreated, r.nControl), r.effects.map Prod.fst, r.event.map Prod.fst)

/-- C30 is false for Callaway-Sant'Anna: coding never-treated units by infinity adds a group "inf", counts these
units as treated *and* as controls, adds effects ATT(inf, t), and adds an event-study entry at -infinity. -/
theorem C30_cs_refuted :
    groups demo3 = [.num 2, .num 3] ∧ groups (recode demo3) = [.num 2, .num 3, .inf] ∧
    summaryOf (fit ⟨.varying, .never, 0, .dr⟩ none demo3) =
      (some (2, 2), [(.num 2, 2), (.num 2, 3), (.num 3, 2), (.num 3, 3)],
        [((-1 : ℤ) : WithBot ℤ), ((0 : ℤ) : WithBot ℤ), ((1 : ℤ) : WithBot ℤ)]) ∧
    summaryOf (fit ⟨.varying, .never, 0, .dr⟩ none (recode demo3)) =
      (some (4, 2), [(.num 2, 2), (.num 2, 3), (.num 3, 2), (.num 3, 3), (.inf, 2), (.inf, 3)],
        [⊥, ((-1 : ℤ) : WithBot ℤ), ((0 : ℤ) : WithBot ℤ), ((1 : ℤ) : WithBot ℤ)]) := by
  refine ⟨?_, ?_, ?_, ?_⟩ <;> decide +kernel

/-- C30: the number of treated units reported is inflated by exactly the number of recoded units. -/
theorem C30_cs_treated_count (P : Panel n K) :
    (Finset.univ.filter (fun u => ((recode P).cohort u).pos = true)).card =
    (Finset.univ.filter (fun u => (P.cohort u).pos = true)).card +
    (Finset.univ.filter (fun u => P.cohort u = .num 0)).card := by
  rw [← Finset.card_union_of_disjoint]
  · congr 1
    ext u
    simp only [Finset.mem_filter, Finset.mem_univ, true_and, Finset.mem_union]
    show (if P.cohort u = .num 0 then Coh.inf else P.cohort u).pos = true ↔ _
    split_ifs with h
    · simp [h, Coh.pos]
    · simp [h]
  · rw [Finset.disjoint_left]
    intro u h1 h2
    rw [Finset.mem_filter] at h1 h2
    rw [h2.2] at h1
    simp [Coh.pos] at h1

/-! ### C71: covariates -/

theorem clip_bounds (p : K) : 1/100 ≤ clip p ∧ clip p ≤ 99/100 := by
  unfold clip
  constructor
  · exact le_max_left _ _
  · apply max_le
    · norm_num
    · exact min_le_left _ _

theorem odds_pos (p : K) : 0 < odds p := by
  have := clip_bounds p
  unfold odds
  apply div_pos <;> linarith

/-- C71: whatever propensity scores are supplied (even outside [0,1]), the odds weights are between 1/99 and 99. -/
theorem C71_odds_bounded (p : K) : 1/99 ≤ odds p ∧ odds p ≤ 99 := by
  have := clip_bounds p
  unfold odds
  constructor
  · rw [le_div_iff₀ (by linarith)]; linarith
  · rw [div_le_iff₀ (by linarith)]; linarith

/-- C71: IPW weights on controls are positive and sum to one. -/
theorem C71_ipw_weights (C : Finset (Fin n)) (hC : C.Nonempty) (ps : Fin n → K) :
    (∀ u ∈ C, 0 < ipwWeight C ps u) ∧ ∑ u ∈ C, ipwWeight C ps u = 1 := by
  have hs : 0 < ∑ v ∈ C, odds (ps v) := Finset.sum_pos (fun v _ => odds_pos _) hC
  constructor
  · intro u _; exact div_pos (odds_pos _) hs
  · unfold ipwWeight
    rw [← Finset.sum_div, div_self hs.ne']

/-- C71: if the control change is the same for all controls (parallel trends without effect among controls), IPW
returns the average treated change minus it, for any propensity scores. -/
theorem C71_ipw_identifies (T C : Finset (Fin n)) (hT : T.card ≠ 0) (hC : C.Nonempty) (d ps tau : Fin n → K) (δ : K)
    (h1 : ∀ u ∈ T, d u = δ + tau u) (h0 : ∀ u ∈ C, d u = δ) : ipwCov T C d ps = mean T tau := by
  unfold ipwCov
  rw [mean_congr T d (fun u => δ + tau u) h1, mean_add T (fun _ => δ) tau, mean_const T hT,
    Finset.sum_congr rfl (fun u hu => by rw [h0 u hu]), ← Finset.sum_mul, (C71_ipw_weights C hC ps).2]
  ring

/-- C71: IPW is invariant to a common change (period effect). -/
theorem C71_ipw_shift (T C : Finset (Fin n)) (hT : T.card ≠ 0) (hC : C.Nonempty) (d ps : Fin n → K) (k : K) :
    ipwCov T C (fun u => d u + k) ps = ipwCov T C d ps := by
  unfold ipwCov
  rw [mean_add T d (fun _ => k), mean_const T hT]
  simp only [mul_add, Finset.sum_add_distrib]
  rw [← Finset.sum_mul, (C71_ipw_weights C hC ps).2]
  ring

/-- C71 (outcome model right): if the control changes are exactly the predicted ones, the doubly robust estimate is
the average treated change in excess of the prediction, for any propensity scores, and equals the regression
estimate. -/
theorem C71_dr_outcome_model (T C : Finset (Fin n)) (d m ps : Fin n → K) (h0 : ∀ u ∈ C, d u = m u) :
    drCov T C d m ps = mean T (fun u => d u - m u) ∧ drCov T C d m ps = regCov T d m := by
  have : ∑ u ∈ C, odds (ps u) * (m u - d u) = 0 :=
    Finset.sum_eq_zero (fun u hu => by rw [h0 u hu]; ring)
  constructor
  · unfold drCov; rw [this, zero_div, add_zero]
  · unfold drCov regCov; rw [this, zero_div, add_zero]

/-- C71 (propensity model right): if the odds weights balance the predictions — the weighted control sum of m equals
the treated sum — the doubly robust estimate does not depend on the outcome model at all. -/
theorem C71_dr_propensity_model (T C : Finset (Fin n)) (d m ps : Fin n → K)
    (hbal : ∑ u ∈ C, odds (ps u) * m u = ∑ u ∈ T, m u) :
    drCov T C d m ps = mean T d - (∑ u ∈ C, odds (ps u) * d u) / (T.card : K) := by
  unfold drCov mean
  have e1 : ∑ u ∈ C, odds (ps u) * (m u - d u) = ∑ u ∈ T, m u - ∑ u ∈ C, odds (ps u) * d u := by
    rw [← hbal, ← Finset.sum_sub_distrib]
    exact Finset.sum_congr rfl (fun u _ => by ring)
  rw [e1, Finset.sum_sub_distrib]
  ring

/-- C71: regression and doubly robust estimates are invariant to a common change when the predictions shift with it
(as least squares with an intercept does). -/
theorem C71_reg_dr_shift (T C : Finset (Fin n)) (d m ps : Fin n → K) (k : K) :
    regCov T (fun u => d u + k) (fun u => m u + k) = regCov T d m ∧
    drCov T C (fun u => d u + k) (fun u => m u + k) ps = drCov T C d m ps := by
  have h1 : (fun u => d u + k - (m u + k)) = fun u => d u - m u := by funext u; ring
  have h2 : ∀ u, m u + k - (d u + k) = m u - d u := by intro u; ring
  unfold regCov drCov
  constructor
  · rw [h1]
  · rw [h1]; simp only [h2]

/-- C71: influence functions of the covariate-adjusted estimators sum to zero. For regression this needs that control
residuals sum to zero (least squares with an intercept). -/
theorem C71_centred (T C : Finset (Fin n)) (hT : T.card ≠ 0) (hC : C.Nonempty) (d m ps : Fin n → K)
    (hres : ∑ u ∈ C, (d u - m u) = 0) :
    (∑ u ∈ T, (infReg T C d m).1 u + ∑ u ∈ C, (infReg T C d m).2 u = 0) ∧
    (∑ u ∈ T, (infIpw T C d ps).1 u + ∑ u ∈ C, (infIpw T C d ps).2 u = 0) ∧
    (∑ u ∈ T, (infDr T C d m ps).1 u + ∑ u ∈ C, (infDr T C d m ps).2 u = 0) := by
  have hTK : (T.card : K) ≠ 0 := Nat.cast_ne_zero.2 hT
  refine ⟨?_, ?_, ?_⟩
  · simp only [infReg]
    rw [← Finset.sum_div, sum_dev T (fun u => d u - m u) hT, ← Finset.sum_div, Finset.sum_neg_distrib, hres]
    simp
  · simp only [infIpw]
    rw [← Finset.sum_div, sum_dev T d hT, zero_div, zero_add]
    have e : ∀ u ∈ C, -(ipwWeight C ps u) * (d u - ∑ v ∈ C, ipwWeight C ps v * d v) =
        ipwWeight C ps u * (∑ v ∈ C, ipwWeight C ps v * d v) - ipwWeight C ps u * d u := by
      intro u _; ring
    rw [Finset.sum_congr rfl e, Finset.sum_sub_distrib, ← Finset.sum_mul, (C71_ipw_weights C hC ps).2]
    ring
  · simp only [infDr]
    rw [← Finset.sum_div, ← Finset.sum_div, ← add_div]
    have : ∑ u ∈ T, (d u - m u - drCov T C d m ps) + ∑ u ∈ C, odds (ps u) * (m u - d u) = 0 := by
      rw [Finset.sum_sub_distrib, Finset.sum_const, nsmul_eq_mul]
      unfold drCov mean
      field_simp
      ring
    rw [this, zero_div]

/-- C71: without NaN coefficients the regression estimate is the average treated change minus its linear
prediction. -/
theorem C71_reg_value {k : ℕ} (T : Finset (Fin n)) (d : Fin n → K) (X : Fin n → Fin k → K) (beta : Fin (k + 1) → K) :
    regCovAtt T d X (fun j => some (beta j)) =
      some (mean T (fun u => d u - (beta 0 + ∑ j : Fin k, X u j * beta j.succ))) := by
  simp [regCovAtt, predict, regCov]

/-- C71 is false for collinear covariates: least squares reports NaN for the dropped column, and then the
covariate-adjusted effect of a non-empty cohort is NaN instead of the effect computed from the kept columns. -/
theorem C71_collinear_refuted {k : ℕ} (T : Finset (Fin n)) (hT : T.Nonempty) (d : Fin n → K) (X : Fin n → Fin k → K)
    (beta : Fin (k + 1) → Option K) (j : Fin (k + 1)) (hj : beta j = none) : regCovAtt T d X beta = none := by
  have hp : ∀ x : Fin k → K, predict beta x = none := by
    intro x
    unfold predict
    rw [if_neg]
    intro h
    have := h j
    rw [hj] at this
    exact absurd this (by simp)
  unfold regCovAtt
  rw [if_neg]
  obtain ⟨u, hu⟩ := hT
  intro h
  have := h u hu
  rw [hp] at this
  exact absurd this (by simp)

example : ipwCov ({0, 1} : Finset (Fin 4)) {2, 3} (![5, 7, 1, 3] : Fin 4 → ℚ) ![0, 0, 1/2, 3/4] = 7/2 := by decide +kernel
example : drCov ({0, 1} : Finset (Fin 4)) {2, 3} (![5, 7, 1, 3] : Fin 4 → ℚ) ![1, 2, 1, 3] ![0, 0, 1/2, 3/4] = 9/2 := by
  decide +kernel
example : regCovAtt ({0} : Finset (Fin 2)) (![3, 1] : Fin 2 → ℚ) (fun _ => ![1, 1]) ![some 1, some 1, none] = none := by
  decide +kernel

end DiffDiff.CS
