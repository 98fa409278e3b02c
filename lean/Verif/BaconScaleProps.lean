/-
Property C140 for the Goodman-Bacon decomposition.
-/
import Verif.BaconTwfeProps

set_option linter.unusedSectionVars false

namespace DiffDiff.Bacon

open CS (Coh)

variable {K : Type*} [Field K] [LinearOrder K] [IsStrictOrderedRing K]
variable {n : ℕ}

/-! ### Specification -/

/-- The panel whose outcome is measured in other units (`a`), with a constant added per unit and per period. Missing stays missing. -/
def transformed (a : K) (α : Fin n → K) (τ : ℤ → K) (P : Panel n K) : Panel n K :=
  { P with y := fun u t => (P.y u t).map (fun v => a * v + α u + τ t) }

/-- A comparison whose estimate is multiplied by `a`. -/
def scaledComp (a : K) (c : Comp K) : Comp K := { c with estimate := c.estimate.map (a * ·) }

/-- Results whose estimates are multiplied by `a`; weights, counts and labels are unchanged. -/
def scaledResults (a : K) (r : Results K) : Results K where
  twfe := r.twfe.map (a * ·)
  comparisons := r.comparisons.map (scaledComp a)
  totalWeights := r.totalWeights
  averages k := (r.averages k).map (Option.map (a * ·))
  timingGroups := r.timingGroups
  nNever := r.nNever
  nObs := r.nObs
  error := r.error.map (|a| * ·)

/-! ### Lemmas -/

/-- What the rest of the computation needs to know about the estimates. -/
structure ScaledPanel (a : K) (P P' : Panel n K) : Prop where
  cohort : P'.cohort = P.cohort
  rows : P'.rows = P.rows
  did : ∀ T C pre post, T ⊆ units P → C ⊆ units P → pre ⊆ times P → post ⊆ times P → 0 < T.card → 0 < C.card → 0 < pre.card → 0 < post.card →
    did P' T C pre post = (did P T C pre post).map (a * ·)
  twfe : twfe P' = (twfe P).map (a * ·)

section scaled
variable {a : K} {P : Panel n K} {y' : Fin n → ℤ → Option K}

theorem controls_sub (P : Panel n K) (c : Option ℤ) : controls P c ⊆ units P := by
  cases c with
  | none => exact Finset.filter_subset _ _
  | some h => exact Finset.filter_subset _ _

theorem pre_sub (P : Panel n K) (k : Kind) (g : ℤ) (c : Option ℤ) : prePeriods P k g c ⊆ times P := by
  unfold prePeriods
  cases k <;> cases c <;> exact Finset.filter_subset _ _

theorem post_sub (P : Panel n K) (k : Kind) (g : ℤ) (c : Option ℤ) : postPeriods P k g c ⊆ times P := by
  unfold postPeriods
  cases k <;> cases c <;> exact Finset.filter_subset _ _

theorem scaled_tvn (h : ScaledPanel a P { P with y := y' }) (g : ℤ) :
    treatedVsNever { P with y := y' } g = (treatedVsNever P g).map (scaledComp a) := by
  show (if (members P g).card = 0 ∨ (never P).card = 0 then (none : Option (Comp K))
    else if (prePeriods P .treatedVsNever g none).card = 0 ∨ (postPeriods P .treatedVsNever g none).card = 0 then none
    else some
      { kind := .treatedVsNever, treated := g, control := none,
        estimate := Bacon.did { P with y := y' } (members P g) (never P) (prePeriods P .treatedVsNever g none)
          (postPeriods P .treatedVsNever g none),
        weight := approxWeight P .treatedVsNever g none,
        nTreated := (members P g).card, nControl := (never P).card,
        window := window P .treatedVsNever g none }) = _
  unfold treatedVsNever
  by_cases h1 : (members P g).card = 0 ∨ (never P).card = 0
  · rw [if_pos h1, if_pos h1]; rfl
  · by_cases h2 : (prePeriods P .treatedVsNever g none).card = 0 ∨ (postPeriods P .treatedVsNever g none).card = 0
    · rw [if_neg h1, if_neg h1, if_pos h2, if_pos h2]; rfl
    · rw [if_neg h1, if_neg h1, if_neg h2, if_neg h2]
      rw [not_or] at h1 h2
      rw [h.did (members P g) (never P) _ _ (Finset.filter_subset _ _) (Finset.filter_subset _ _) (pre_sub ..) (post_sub ..) (Nat.pos_of_ne_zero h1.1) (Nat.pos_of_ne_zero h1.2)
        (Nat.pos_of_ne_zero h2.1) (Nat.pos_of_ne_zero h2.2)]
      rfl

theorem scaled_tc (h : ScaledPanel a P { P with y := y' }) (k : Kind) (g c : ℤ) :
    timingComparison { P with y := y' } k g c = (timingComparison P k g c).map (scaledComp a) := by
  show (if (members P g).card = 0 ∨ (members P c).card = 0 then (none : Option (Comp K))
    else if (prePeriods P k g (some c)).card = 0 ∨ (postPeriods P k g (some c)).card = 0 then none
    else match Bacon.did { P with y := y' } (members P g) (members P c) (prePeriods P k g (some c)) (postPeriods P k g (some c)) with
      | none => none
      | some est => some
        { kind := k, treated := g, control := some c, estimate := some est,
          weight := approxWeight P k g (some c),
          nTreated := (members P g).card, nControl := (members P c).card,
          window := window P k g (some c) }) = _
  unfold timingComparison
  by_cases h1 : (members P g).card = 0 ∨ (members P c).card = 0
  · rw [if_pos h1, if_pos h1]; rfl
  · by_cases h2 : (prePeriods P k g (some c)).card = 0 ∨ (postPeriods P k g (some c)).card = 0
    · rw [if_neg h1, if_neg h1, if_pos h2, if_pos h2]; rfl
    · rw [if_neg h1, if_neg h1, if_neg h2, if_neg h2]
      rw [not_or] at h1 h2
      rw [h.did (members P g) (members P c) _ _ (Finset.filter_subset _ _) (Finset.filter_subset _ _) (pre_sub ..) (post_sub ..) (Nat.pos_of_ne_zero h1.1) (Nat.pos_of_ne_zero h1.2)
        (Nat.pos_of_ne_zero h2.1) (Nat.pos_of_ne_zero h2.2)]
      cases Bacon.did P (members P g) (members P c) (prePeriods P k g (some c)) (postPeriods P k g (some c)) <;> rfl

theorem toList_map' {α β : Type*} (f : α → β) (o : Option α) : (o.map f).toList = o.toList.map f := by cases o <;> rfl

theorem scaled_comparisons (h : ScaledPanel a P { P with y := y' }) : comparisons { P with y := y' } = (comparisons P).map (scaledComp a) := by
  show (if 0 < (never P).card then (timingGroups P).filterMap (treatedVsNever { P with y := y' }) else []) ++
    (pairs (timingGroups P)).flatMap (fun p => (timingComparison { P with y := y' } .earlierVsLater p.1 p.2).toList ++
      (timingComparison { P with y := y' } .laterVsEarlier p.2 p.1).toList) = _
  unfold comparisons
  rw [List.map_append, List.map_flatMap]
  congr 1
  · split_ifs
    · rw [List.map_filterMap]
      exact List.filterMap_congr fun g _ => scaled_tvn h g
    · rfl
  · refine List.flatMap_congr fun p _ => ?_
    rw [scaled_tc h, scaled_tc h, toList_map', toList_map', List.map_append]

theorem total_scaled (a : K) (l : List (Comp K)) : totalWeight (l.map (scaledComp a)) = totalWeight l := by
  unfold totalWeight; rw [List.map_map]; rfl

theorem normalise_scaled (a : K) (l : List (Comp K)) : normalise (l.map (scaledComp a)) = (normalise l).map (scaledComp a) := by
  unfold normalise
  rw [total_scaled]
  split_ifs
  · rw [List.map_map, List.map_map]; rfl
  · rfl

theorem type_scaled (a : K) (l : List (Comp K)) (k : Kind) : typeWeight (l.map (scaledComp a)) k = typeWeight l k := by
  unfold typeWeight
  rw [List.filter_map, total_scaled]; rfl

theorem weightedSum_scaled (a : K) (l : List (Comp K)) : weightedSum (l.map (scaledComp a)) = (weightedSum l).map (a * ·) := by
  induction l with
  | nil => simp [weightedSum]
  | cons c l ih =>
    rw [List.map_cons]
    unfold weightedSum
    rw [ih]
    show (match c.estimate.map (a * ·), (weightedSum l).map (a * ·) with
      | some e, some s => some (c.weight * e + s)
      | _, _ => none) = _
    cases c.estimate <;> cases weightedSum l <;> simp only [Option.map_some, Option.map_none]
    rw [Option.some.injEq]; ring

theorem average_scaled (a : K) (l : List (Comp K)) (k : Kind) : typeAverage (l.map (scaledComp a)) k = (typeAverage l k).map (Option.map (a * ·)) := by
  have hf : (l.map (scaledComp a)).filter (fun c => decide (c.kind = k)) = (l.filter (fun c => decide (c.kind = k))).map (scaledComp a) := by
    rw [List.filter_map]; rfl
  unfold typeAverage
  rw [type_scaled, hf, weightedSum_scaled]
  split_ifs
  · rw [Option.map_some, Option.map_map, Option.map_map]
    congr 2
    funext s
    simp only [Function.comp]; ring
  · rfl

theorem scaled_fit (h : ScaledPanel a P { P with y := y' }) (m : WeightMode) : fit m { P with y := y' } = scaledResults a (fit m P) := by
  have hm : withMode m { P with y := y' } (comparisons { P with y := y' }) = (withMode m P (comparisons P)).map (scaledComp a) := by
    rw [scaled_comparisons h]
    cases m with
    | approximate => rfl
    | exact =>
      simp only [withMode, List.map_map]
      rfl
  have h1 := funext (type_scaled a (normalise (withMode m P (comparisons P))))
  have h2 := funext (average_scaled a (normalise (withMode m P (comparisons P))))
  unfold fit scaledResults
  simp only [hm, normalise_scaled, h.twfe, h1, h2, weightedSum_scaled]
  congr 1
  cases twfe P <;> cases weightedSum (normalise (withMode m P (comparisons P))) <;> simp only [Option.map_some, Option.map_none]
  rw [← mul_sub, abs_mul]

end scaled

/-! Scaling and one constant: any panel. -/

theorem cell_affine (a c : K) (P : Panel n K) (U : Finset (Fin n)) (W : Finset ℤ) :
    cellMean (transformed a (fun _ => c) (fun _ => 0) P) U W = (cellMean P U W).map (fun v => a * v + c) := by
  unfold cellMean
  have hR : (transformed a (fun _ => c) (fun _ => 0) P).rows.filter
      (fun r => r.1 ∈ U ∧ r.2 ∈ W ∧ ((transformed a (fun _ => c) (fun _ => 0) P).y r.1 r.2).isSome = true) =
      P.rows.filter (fun r => r.1 ∈ U ∧ r.2 ∈ W ∧ (P.y r.1 r.2).isSome = true) :=
    Finset.filter_congr fun r _ => by simp [transformed]
  simp only [hR]
  by_cases h0 : (P.rows.filter (fun r => r.1 ∈ U ∧ r.2 ∈ W ∧ (P.y r.1 r.2).isSome = true)).card = 0
  · rw [if_pos h0, if_pos h0]; rfl
  · rw [if_neg h0, if_neg h0, Option.map_some, Option.some.injEq]
    have hc : ((P.rows.filter (fun r => r.1 ∈ U ∧ r.2 ∈ W ∧ (P.y r.1 r.2).isSome = true)).card : K) ≠ 0 := Nat.cast_ne_zero.2 h0
    have hs : ∀ r ∈ P.rows.filter (fun r => r.1 ∈ U ∧ r.2 ∈ W ∧ (P.y r.1 r.2).isSome = true),
        ((transformed a (fun _ => c) (fun _ => 0) P).y r.1 r.2).getD 0 = a * (P.y r.1 r.2).getD 0 + c := by
      intro r hr
      obtain ⟨v, hv⟩ := Option.isSome_iff_exists.1 (Finset.mem_filter.1 hr).2.2.2
      simp [transformed, hv]
    rw [Finset.sum_congr rfl hs, Finset.sum_add_distrib, ← Finset.mul_sum, Finset.sum_const, nsmul_eq_mul]
    field_simp

theorem did_affine (a c : K) (P : Panel n K) (T C : Finset (Fin n)) (A B : Finset ℤ) :
    did (transformed a (fun _ => c) (fun _ => 0) P) T C A B = (did P T C A B).map (a * ·) := by
  unfold did
  simp only [cell_affine]
  cases cellMean P T B <;> cases cellMean P T A <;> cases cellMean P C B <;> cases cellMean P C A <;> simp only [Option.map_some, Option.map_none]
  rw [Option.some.injEq]; ring

theorem within_affine (R : Finset (Fin n × ℤ)) (a c : K) (x y : Fin n → ℤ → K) (h : ∀ r ∈ R, y r.1 r.2 = a * x r.1 r.2 + c) {r : Fin n × ℤ} (hr : r ∈ R) :
    within R y r.1 r.2 = a * within R x r.1 r.2 := by
  have key : ∀ S : Finset (Fin n × ℤ), S ⊆ R → r ∈ S → (∑ q ∈ S, y q.1 q.2) / (S.card : K) = a * ((∑ q ∈ S, x q.1 q.2) / (S.card : K)) + c := by
    intro S hS hrS
    have hc : (S.card : K) ≠ 0 := Nat.cast_ne_zero.2 (Finset.card_ne_zero_of_mem hrS)
    rw [Finset.sum_congr rfl (fun q hq => h q (hS hq)), Finset.sum_add_distrib, ← Finset.mul_sum, Finset.sum_const, nsmul_eq_mul]
    field_simp
  unfold within
  simp only
  rw [key (R.filter (fun q => q.1 = r.1)) (Finset.filter_subset _ _) (Finset.mem_filter.2 ⟨hr, rfl⟩),
    key (R.filter (fun q => q.2 = r.2)) (Finset.filter_subset _ _) (Finset.mem_filter.2 ⟨hr, rfl⟩), key R (Finset.Subset.refl _) hr, h r hr]
  ring

theorem twfe_scaled {a : K} {P : Panel n K} {y' : Fin n → ℤ → Option K} (hs : ∀ r ∈ P.rows, (y' r.1 r.2).isSome = (P.y r.1 r.2).isSome)
    (hw : (∀ r ∈ P.rows, (P.y r.1 r.2).isSome = true) → ∀ r ∈ P.rows,
      within P.rows (fun u t => (y' u t).getD 0) r.1 r.2 = a * within P.rows (fun u t => (P.y u t).getD 0) r.1 r.2) :
    twfe { P with y := y' } = (twfe P).map (a * ·) := by
  have ht : treat { P with y := y' } = treat P := rfl
  unfold twfe
  simp only [ht]
  have hall : (∀ r ∈ P.rows, (y' r.1 r.2).isSome = true) ↔ ∀ r ∈ P.rows, (P.y r.1 r.2).isSome = true :=
    forall₂_congr fun r hr => by rw [hs r hr]
  by_cases h : ∀ r ∈ P.rows, (P.y r.1 r.2).isSome = true
  · rw [if_pos (hall.2 h), if_pos h, Option.map_some, Option.some.injEq]
    split_ifs
    · rw [mul_div_assoc', Finset.mul_sum]
      congr 1
      refine Finset.sum_congr rfl fun r hr => ?_
      rw [hw h r hr]; ring
    · ring
  · rw [if_neg (fun h' => h (hall.1 h')), if_neg h]
    split_ifs
    · rfl
    · simp

/-- **C140 (BaconDecomposition), units and origin.** On any panel, with gaps and missing outcomes, measuring the outcome in other units
and from another origin multiplies every estimate by the factor and leaves weights, counts and labels as they are. -/
theorem C140_bacon (a c : K) (m : WeightMode) (P : Panel n K) :
    fit m (transformed a (fun _ => c) (fun _ => 0) P) = scaledResults a (fit m P) := by
  refine scaled_fit (y' := (transformed a (fun _ => c) (fun _ => 0) P).y) ⟨rfl, rfl, ?_, ?_⟩ m
  · intro T C A B _ _ _ _ _ _ _ _
    exact did_affine a c P T C A B
  · refine twfe_scaled (fun r _ => by simp [transformed]) fun h r hr => ?_
    refine within_affine P.rows a c _ _ (fun q hq => ?_) hr
    obtain ⟨v, hv⟩ := Option.isSome_iff_exists.1 (h q hq)
    simp [transformed, hv]

/-! Unit and period constants: balanced panels. -/

theorem within_effects {U : Finset (Fin n)} {T : Finset ℤ} (a : K) (α : Fin n → K) (τ : ℤ → K) (x : Fin n → ℤ → K) {u : Fin n} {t : ℤ} (hu : u ∈ U) (ht : t ∈ T) :
    within (U ×ˢ T) (fun u t => a * x u t + α u + τ t) u t = a * within (U ×ˢ T) x u t := by
  have hN : (U.card : K) ≠ 0 := Nat.cast_ne_zero.2 (Finset.card_ne_zero_of_mem hu)
  have hM : (T.card : K) ≠ 0 := Nat.cast_ne_zero.2 (Finset.card_ne_zero_of_mem ht)
  rw [within_grid _ _ _ hu ht, within_grid _ _ _ hu ht]
  simp only [Finset.sum_add_distrib, ← Finset.mul_sum, Finset.sum_const, nsmul_eq_mul]
  field_simp
  ring

theorem balanced_transformed {a : K} {α : Fin n → K} {τ : ℤ → K} {P : Panel n K} (hB : Balanced P) : Balanced (transformed a α τ P) :=
  ⟨hB.1, fun r hr => by simpa [transformed] using hB.2 r hr⟩

theorem yv_transformed {a : K} {α : Fin n → K} {τ : ℤ → K} {P : Panel n K} (hB : Balanced P) {u : Fin n} {t : ℤ} (hu : u ∈ units P) (ht : t ∈ times P) :
    yv (transformed a α τ P) u t = a * yv P u t + α u + τ t := by
  have hr : (u, t) ∈ P.rows := by rw [hB.1]; exact Finset.mem_product.2 ⟨hu, ht⟩
  obtain ⟨v, hv⟩ := Option.isSome_iff_exists.1 (hB.2 _ hr)
  simp only at hv
  simp [yv, transformed, hv]

theorem did_effects {a : K} {α : Fin n → K} {τ : ℤ → K} {P : Panel n K} (hB : Balanced P) {T C : Finset (Fin n)} {A B : Finset ℤ}
    (hT : T ⊆ units P) (hC : C ⊆ units P) (hA : A ⊆ times P) (hBs : B ⊆ times P) (h1 : 0 < T.card) (h2 : 0 < C.card) (h3 : 0 < A.card) (h4 : 0 < B.card) :
    did (transformed a α τ P) T C A B = (did P T C A B).map (a * ·) := by
  have hB' : Balanced (transformed a α τ P) := balanced_transformed hB
  have hc : ∀ {U : Finset (Fin n)} {W : Finset ℤ}, U ⊆ units P → W ⊆ times P → 0 < U.card → 0 < W.card →
      cellMean (transformed a α τ P) U W =
        some (a * ((∑ u ∈ U, ∑ t ∈ W, yv P u t) / ((U.card : K) * (W.card : K))) + (∑ u ∈ U, α u) / (U.card : K) + (∑ t ∈ W, τ t) / (W.card : K)) := by
    intro U W hU hW hU0 hW0
    have hN : (U.card : K) ≠ 0 := Nat.cast_ne_zero.2 hU0.ne'
    have hM : (W.card : K) ≠ 0 := Nat.cast_ne_zero.2 hW0.ne'
    rw [cellMean_balanced hB' hU hW hU0 hW0, Option.some.injEq]
    rw [Finset.sum_congr rfl (fun u hu => Finset.sum_congr rfl (fun t ht => yv_transformed hB (hU hu) (hW ht)))]
    simp only [Finset.sum_add_distrib, ← Finset.mul_sum, Finset.sum_const, nsmul_eq_mul]
    field_simp
  unfold did
  rw [hc hT hBs h1 h4, hc hT hA h1 h3, hc hC hBs h2 h4, hc hC hA h2 h3, cellMean_balanced hB hT hBs h1 h4, cellMean_balanced hB hT hA h1 h3,
    cellMean_balanced hB hC hBs h2 h4, cellMean_balanced hB hC hA h2 h3]
  simp only [Option.map_some, Option.some.injEq]
  ring

/-- **C140 (BaconDecomposition), unit and period effects.** On a balanced panel any constants per unit and per period may be added as
well. -/
theorem C140_bacon_effects (a : K) (α : Fin n → K) (τ : ℤ → K) (m : WeightMode) (P : Panel n K) (hB : Balanced P) :
    fit m (transformed a α τ P) = scaledResults a (fit m P) := by
  refine scaled_fit (y' := (transformed a α τ P).y) ⟨rfl, rfl, ?_, ?_⟩ m
  · intro T C A B hT hC hA hBs h1 h2 h3 h4
    exact did_effects hB hT hC hA hBs h1 h2 h3 h4
  · refine twfe_scaled (fun r _ => by simp [transformed]) fun _ r hr => ?_
    have hr' := hr
    rw [hB.1] at hr' ⊢
    obtain ⟨hu, ht⟩ := Finset.mem_product.1 hr'
    rw [← within_effects a α τ _ hu ht, within_grid _ _ _ hu ht, within_grid _ _ _ hu ht]
    have hv : ∀ u ∈ units P, ∀ t ∈ times P, ((transformed a α τ P).y u t).getD 0 = a * (P.y u t).getD 0 + α u + τ t := fun u hu t ht =>
      yv_transformed hB hu ht
    rw [hv _ hu _ ht, Finset.sum_congr rfl (fun s hs => hv _ hu s hs), Finset.sum_congr (s₁ := units P) rfl (fun v hv' => hv v hv' _ ht),
      Finset.sum_congr (s₁ := units P) rfl (fun v hv' => Finset.sum_congr rfl (fun s hs => hv v hv' s hs))]

/-- Three units, two periods; the second treated unit is observed in the first period only. -/
def demoGap : Panel 3 ℚ where
  cohort := ![.num 2, .num 2, .num 0]
  rows := {(0, 1), (0, 2), (1, 1), (2, 1), (2, 2)}
  y _ _ := some 0

/-- C140, balance is needed: on a panel with a gap, adding a constant to the outcomes of one unit changes the comparison (0 to -1/2) and
the two-way coefficient. -/
theorem C140_bacon_effects_refuted :
    (fit .exact demoGap).comparisons.map (fun c => c.estimate) = [some 0] ∧
    (fit .exact (transformed 1 ![0, 1, 0] (fun _ => 0) demoGap)).comparisons.map (fun c => c.estimate) = [some (-1/2)] ∧
    (fit .exact demoGap).twfe = some 0 ∧ (fit .exact (transformed 1 ![0, 1, 0] (fun _ => 0) demoGap)).twfe = some (-1/9) := by
  decide +kernel

example : Balanced (⟨![.num 2, .num 0], Finset.univ ×ˢ {1, 2}, fun _ _ => some 0⟩ : Panel 2 ℚ) :=
  ⟨by decide +kernel, fun _ _ => rfl⟩

end DiffDiff.Bacon
