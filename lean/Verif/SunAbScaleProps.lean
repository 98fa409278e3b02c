/-
Property C140 for the Sun-Abraham estimator.
-/
import Verif.SunAbIdProps

set_option linter.unusedSectionVars false

namespace DiffDiff.SunAb

open CS (Coh)

variable {K : Type*} [Field K] [LinearOrder K] [IsStrictOrderedRing K]

/-! ### Specification -/

/-- A row whose outcome is measured in other units (`a`), with a constant added per unit and per period. Missing stays missing. -/
def transformedRow (a : K) (α : ℕ → K) (τ : ℤ → K) (r : Row K) : Row K := { r with y := r.y.map (fun v => a * v + α r.unit + τ r.time) }

/-- Regression output in units multiplied by `a`. -/
def scaledReg (a : K) (f : Reg K) : Reg K where
  coef j := (f.coef j).map (a * ·)
  vcov i j := (f.vcov i j).map (a ^ 2 * ·)

/-- The regression routine respects the units of the response: coefficients times `a`, covariances times `a²`. -/
def Equivariant (a : K) (reg : List (List K) → List K → Option (Reg K)) : Prop :=
  ∀ X y, reg X (y.map (a * ·)) = (reg X y).map (scaledReg a)

def scaledEvent (a : K) (ev : Event K) : Event K := { ev with effect := ev.effect.map (a * ·), var := ev.var.map (a ^ 2 * ·) }

/-- Results whose effects are multiplied by `a` and whose variances by `a²`; everything else is unchanged. -/
def scaledResults (a : K) (r : Results K) : Results K :=
  { r with
    events := r.events.map (scaledEvent a)
    overall := (r.overall.1.map (a * ·), r.overall.2.map (a ^ 2 * ·))
    cohortEffects := r.cohortEffects.map (fun p => (p.1, p.2.map (a * ·))) }

/-! ### Lemmas -/

section rows
variable (f : Row K → Row K) (hu : ∀ r, (f r).unit = r.unit) (ht : ∀ r, (f r).time = r.time) (hc : ∀ r, (f r).cohort = r.cohort)
include hu ht hc

theorem same_rel (r : Row K) : relTime (f r) = relTime r := by unfold relTime; rw [hc, ht]

theorem same_groups (df : List (Row K)) : groups (df.map f) = groups df := by
  unfold groups
  simp only [List.filterMap_map, List.any_map, Function.comp_def, hc]

theorem same_units (df : List (Row K)) : units (df.map f) = units df := by
  unfold units
  simp only [List.map_map, Function.comp_def, hu]

theorem same_unitCohort (df : List (Row K)) (u : ℕ) : unitCohort (df.map f) u = unitCohort df u := by
  unfold unitCohort
  simp only [List.filter_map, List.map_map, Function.comp_def, hu, hc]

theorem same_unitNever (df : List (Row K)) (u : ℕ) : unitNever (df.map f) u = unitNever df u := by
  unfold unitNever
  simp only [List.filter_map, List.map_map, Function.comp_def, hu, hc]

theorem same_nTreated (df : List (Row K)) : nTreated (df.map f) = nTreated df := by
  unfold nTreated
  simp only [same_units f hu ht hc, same_unitCohort f hu ht hc]

theorem same_nControl (df : List (Row K)) : nControl (df.map f) = nControl df := by
  unfold nControl
  simp only [same_units f hu ht hc, same_unitNever f hu ht hc]

theorem same_relPeriods (ant : ℤ) (df : List (Row K)) : relPeriods ant (df.map f) = relPeriods ant df := by
  unfold relPeriods
  simp only [List.filterMap_map, Function.comp_def, same_rel f hu ht hc]

theorem same_sample (c : Control) (df : List (Row K)) : sample c (df.map f) = (sample c df).map f := by
  cases c with
  | notYet => rfl
  | never => simp only [sample, List.filter_map, Function.comp_def, hc]

theorem same_keys (gs : List Coh) (es : List ℤ) (df : List (Row K)) : keys gs es (df.map f) = keys gs es df := by
  unfold keys
  simp only [List.any_map, Function.comp_def, hc, same_rel f hu ht hc]

theorem same_within (df : List (Row K)) (x y : Row K → K) (h : ∀ r ∈ df, x (f r) = y r) {r : Row K} (hr : r ∈ df) :
    within (df.map f) x (f r) = within df y r := by
  have hm : ∀ l : List (Row K), (∀ q ∈ l, q ∈ df) → (l.map f).map x = l.map y := by
    intro l hl
    rw [List.map_map]
    exact List.map_congr_left fun q hq => h q (hl q hq)
  unfold within
  simp only [List.filter_map, Function.comp_def, hu, ht, List.length_map]
  rw [hm _ (fun q hq => (List.mem_filter.1 hq).1), hm _ (fun q hq => (List.mem_filter.1 hq).1), hm _ (fun q hq => hq), h r hr]

theorem same_design (df : List (Row K)) (ks : List Key) : design (df.map f) ks = design df ks := by
  unfold design
  refine List.map_congr_left fun k _ => ?_
  rw [List.map_map]
  refine List.map_congr_left fun r hr => same_within f hu ht hc df (dummy k) (dummy k) (fun q _ => ?_) hr
  unfold dummy
  rw [hc, same_rel f hu ht hc]

theorem same_size (df : List (Row K)) (g : Coh) : size (df.map f) g = size df g := by
  unfold size
  simp only [same_units f hu ht hc, same_unitCohort f hu ht hc]

theorem same_total (df : List (Row K)) (cs : List Coh) : totalSize (df.map f) cs = totalSize df cs := by
  unfold totalSize
  congr 1
  exact List.map_congr_left fun g _ => same_size f hu ht hc df g

theorem same_weights (df : List (Row K)) (cs : List Coh) : weights (df.map f) cs = weights df cs := by
  unfold weights
  simp only [same_size f hu ht hc, same_total f hu ht hc]

theorem same_count (df : List (Row K)) (e : ℤ) : countAt (df.map f) e = countAt df e := by
  unfold countAt
  simp only [List.filter_map, List.length_map, Function.comp_def, same_rel f hu ht hc]

end rows

theorem osum_scale (a : K) (l : List (Option K)) : osum (l.map (Option.map (a * ·))) = (osum l).map (a * ·) := by
  induction l with
  | nil => simp [osum]
  | cons x l ih =>
    rw [List.map_cons]
    unfold osum
    rw [ih]
    cases x <;> cases osum l <;> simp only [Option.map_some, Option.map_none]
    rw [mul_add]

theorem coef_scale (a : K) (ks : List Key) (f : Reg K) (k : Key) : coefOf ks (scaledReg a f) k = (coefOf ks f k).map (a * ·) := rfl

theorem quad_scale (a : K) (ks : List Key) (f : Reg K) (ws : List (Key × K)) :
    quadForm ks (scaledReg a f) ws = (quadForm ks f ws).map (a ^ 2 * ·) := by
  unfold quadForm
  rw [← osum_scale, List.map_flatMap]
  congr 1
  refine List.flatMap_congr fun p _ => ?_
  rw [List.map_map]
  refine List.map_congr_left fun q _ => ?_
  simp only [Function.comp, scaledReg, Option.map_map]
  congr 1
  funext v
  simp only [Function.comp]; ring

theorem max_scale (a v : K) : max (a ^ 2 * v) 0 = a ^ 2 * max v 0 := by
  rw [mul_max_of_nonneg _ _ (sq_nonneg a), mul_zero]

section agg
variable (a : K) (g : Row K → Row K) (hu : ∀ r, (g r).unit = r.unit) (ht : ∀ r, (g r).time = r.time) (hc : ∀ r, (g r).cohort = r.cohort)
include hu ht hc

theorem scaled_eventAt (df : List (Row K)) (gs : List Coh) (ks : List Key) (f : Reg K) (e : ℤ) :
    eventAt (df.map g) gs ks (scaledReg a f) e = (eventAt df gs ks f e).map (scaledEvent a) := by
  unfold eventAt
  simp only [same_total g hu ht hc, same_weights g hu ht hc, coef_scale, quad_scale]
  split_ifs
  · rfl
  · rfl
  · simp only [Option.map_some, scaledEvent, Option.map_map]
    rw [← osum_scale, List.map_map]
    congr 2
    · congr 1
      refine List.map_congr_left fun p _ => ?_
      simp only [Function.comp, Option.map_map]
      congr 1
      funext v
      simp only [Function.comp]; ring
    · congr 1
      funext v
      simp only [Function.comp, max_scale]

theorem scaled_iw (df : List (Row K)) (gs : List Coh) (es : List ℤ) (ks : List Key) (f : Reg K) :
    iwEffects (df.map g) gs es ks (scaledReg a f) = (iwEffects df gs es ks f).map (scaledEvent a) := by
  unfold iwEffects
  rw [List.map_filterMap]
  exact List.filterMap_congr fun e _ => scaled_eventAt a g hu ht hc df gs ks f e

theorem scaled_overall (df : List (Row K)) (ks : List Key) (f : Reg K) (es : List (Event K)) :
    overall (df.map g) ks (scaledReg a f) (es.map (scaledEvent a)) = ((overall df ks f es).1.map (a * ·), (overall df ks f es).2.map (a ^ 2 * ·)) := by
  have hf : (es.map (scaledEvent a)).filter (fun ev => decide (0 ≤ ev.e)) = (es.filter (fun ev => decide (0 ≤ ev.e))).map (scaledEvent a) := by
    rw [List.filter_map]; rfl
  have hp : ∀ l : List (Event K), postWeights (df.map g) (l.map (scaledEvent a)) = (postWeights df l).map (fun p => (scaledEvent a p.1, p.2)) := by
    intro l
    unfold postWeights
    simp only [List.map_map, same_count g hu ht hc]
    rfl
  have hcb : ∀ l : List (Event K × K), combined (l.map (fun p => (scaledEvent a p.1, p.2))) = combined l := by
    intro l
    unfold combined
    rw [List.flatMap_map]
    rfl
  unfold overall
  simp only [hf, List.map_eq_nil_iff, hp, List.map_map, hcb, quad_scale]
  split_ifs
  · simp
  · simp only [Option.map_map]
    rw [← osum_scale, List.map_map]
    congr 1
    · congr 1
      refine List.map_congr_left fun p _ => ?_
      simp only [Function.comp, scaledEvent, Option.map_map]
      congr 1
      funext v
      simp only [Function.comp]; ring
    · congr 1
      funext v
      simp only [Function.comp, max_scale]

theorem scaled_fit (reg : List (List K) → List K → Option (Reg K)) (hreg : Equivariant a reg) (ant : ℤ) (c : Control) (df : List (Row K))
    (hy : response ((sample c df).map g) = (response (sample c df)).map (List.map (a * ·))) :
    fit reg ant c (df.map g) = (fit reg ant c df).map (scaledResults a) := by
  unfold fit
  simp only [same_nControl g hu ht hc, same_groups g hu ht hc, same_relPeriods g hu ht hc, same_sample g hu ht hc, same_nTreated g hu ht hc, List.length_map]
  split_ifs
  · rfl
  · rfl
  · unfold saturated
    simp only [same_keys g hu ht hc, hy, same_design g hu ht hc]
    split_ifs
    · rfl
    · cases response (sample c df) with
      | none => rfl
      | some y =>
        have hq := hreg (design (sample c df) (keys (groups df) (relPeriods ant df) (sample c df))) y
        simp only [Option.map_some, hq]
        cases reg (design (sample c df) (keys (groups df) (relPeriods ant df) (sample c df))) y with
        | none => rfl
        | some f =>
          simp only [Option.map_some, Except.map, scaledResults, scaled_iw a g hu ht hc, scaled_overall a g hu ht hc, List.map_map]
          rfl

end agg

theorem response_scaled (a : K) (g : Row K → Row K) (df : List (Row K)) (hs : ∀ r ∈ df, (g r).y.isSome = r.y.isSome)
    (hw : (∀ r ∈ df, r.y.isSome = true) → ∀ r ∈ df, within (df.map g) (fun s => s.y.getD 0) (g r) = a * within df (fun s => s.y.getD 0) r) :
    response (df.map g) = (response df).map (List.map (a * ·)) := by
  have h1 : (df.map g).all (fun r => r.y.isSome) = df.all (fun r => r.y.isSome) := by
    rw [List.all_map, Bool.eq_iff_iff, List.all_eq_true, List.all_eq_true]
    exact forall₂_congr fun r hr => by simp only [Function.comp, hs r hr]
  unfold response
  rw [h1]
  split_ifs with h
  · rw [Option.map_some, List.map_map, List.map_map]
    congr 1
    refine List.map_congr_left fun r hr => ?_
    exact hw (List.all_eq_true.1 h) r hr
  · rfl

/-- **C140 (SunAbraham), units and origin.** On any data, with gaps and missing outcomes, measuring the outcome in other units and from
another origin multiplies all effects by the factor and all variances by its square, if the regression routine respects units (as least
squares does). -/
theorem C140_sunab (a c : K) (reg : List (List K) → List K → Option (Reg K)) (hreg : Equivariant a reg) (ant : ℤ) (ct : Control) (df : List (Row K)) :
    fit reg ant ct (df.map (transformedRow a (fun _ => c) (fun _ => 0))) = (fit reg ant ct df).map (scaledResults a) := by
  refine scaled_fit a (transformedRow a (fun _ => c) (fun _ => 0)) (fun _ => rfl) (fun _ => rfl) (fun _ => rfl) reg hreg ant ct df ?_
  refine response_scaled a _ _ (fun r _ => by simp [transformedRow]) fun hall r hr => ?_
  generalize hdf : sample ct df = D at hall hr
  rw [same_within (transformedRow a (fun _ => c) (fun _ => 0)) (fun _ => rfl) (fun _ => rfl) (fun _ => rfl) D _
    (fun q => a * q.y.getD 0 + c) (fun q hq => by
      obtain ⟨v, hv⟩ := Option.isSome_iff_exists.1 (hall q hq)
      simp [transformedRow, hv]) hr]
  have key : ∀ l : List (Row K), r ∈ l → (l.map (fun q => a * q.y.getD 0 + c)).sum / (l.length : K) = a * ((l.map (fun q => q.y.getD 0)).sum / (l.length : K)) + c := by
    intro l hl
    have hc : (l.length : K) ≠ 0 := Nat.cast_ne_zero.2 (List.length_pos_of_mem hl).ne'
    have : (l.map (fun q => a * q.y.getD 0 + c)).sum = a * (l.map (fun q => q.y.getD 0)).sum + (l.length : K) * c := by
      induction l with
      | nil => simp
      | cons q l ih =>
        clear hl hc
        have ih' : (l.map (fun q => a * q.y.getD 0 + c)).sum = a * (l.map (fun q => q.y.getD 0)).sum + (l.length : K) * c := by
          clear ih
          induction l with
          | nil => simp
          | cons q l ih => simp only [List.map_cons, List.sum_cons, ih, List.length_cons]; push_cast; ring
        simp only [List.map_cons, List.sum_cons, ih', List.length_cons]; push_cast; ring
    rw [this]
    field_simp
  unfold within
  simp only
  rw [key _ (List.mem_filter.2 ⟨hr, by simp⟩), key _ (List.mem_filter.2 ⟨hr, by simp⟩), key D hr]
  ring

/-- **C140 (SunAbraham), unit and period effects.** If the estimation sample is balanced, any constants per unit and per period may be
added as well. -/
theorem C140_sunab_effects (a : K) (α : ℕ → K) (τ : ℤ → K) (reg : List (List K) → List K → Option (Reg K)) (hreg : Equivariant a reg) (ant : ℤ) (ct : Control)
    (df : List (Row K)) (U : List ℕ) (T : List ℤ) (hG : Grid (sample ct df) U T) :
    fit reg ant ct (df.map (transformedRow a α τ)) = (fit reg ant ct df).map (scaledResults a) := by
  refine scaled_fit a (transformedRow a α τ) (fun _ => rfl) (fun _ => rfl) (fun _ => rfl) reg hreg ant ct df ?_
  refine response_scaled a _ _ (fun r _ => by simp [transformedRow]) fun hall r hr => ?_
  generalize hdf : sample ct df = D at hall hr hG
  rw [same_within (transformedRow a α τ) (fun _ => rfl) (fun _ => rfl) (fun _ => rfl) D _
    (fun q => a * q.y.getD 0 + (α q.unit + τ q.time)) (fun q hq => by
      obtain ⟨v, hv⟩ := Option.isSome_iff_exists.1 (hall q hq)
      simp [transformedRow, hv, add_assoc]) hr]
  rw [within_add, within_smul, within_fixed hG α τ hr, add_zero]

/-! ### Instances and counterexample -/

def dotL (x y : List K) : K := (List.zipWith (· * ·) x y).sum

/-- Least squares on one column with its conventional variance (one lost degree of freedom). -/
def olsOne (X : List (List K)) (y : List K) : Option (Reg K) :=
  match X with
  | [x] => if dotL x x = 0 then none else
      some ⟨fun _ => some (dotL x y / dotL x x),
        fun _ _ => some ((dotL y y - dotL x y ^ 2 / dotL x x) / (((y.length : K) - 1) * dotL x x))⟩
  | _ => none

theorem dotL_right (a : K) (x y : List K) : dotL x (y.map (a * ·)) = a * dotL x y := by
  unfold dotL
  induction x generalizing y with
  | nil => simp
  | cons v x ih =>
    cases y with
    | nil => simp
    | cons w y => simp only [List.map_cons, List.zipWith_cons_cons, List.sum_cons, ih]; ring

theorem dotL_self (a : K) (y : List K) : dotL (y.map (a * ·)) (y.map (a * ·)) = a ^ 2 * dotL y y := by
  unfold dotL
  induction y with
  | nil => simp
  | cons w y ih => simp only [List.map_cons, List.zipWith_cons_cons, List.sum_cons, ih]; ring

/-- Least squares respects units. -/
theorem olsOne_equivariant (a : K) : Equivariant a (olsOne (K := K)) := by
  intro X y
  match X with
  | [] => rfl
  | [x] =>
    unfold olsOne
    rw [dotL_self]
    simp only [dotL_right, List.length_map]
    split_ifs
    · rfl
    · rw [Option.map_some, scaledReg]
      congr 2
      · funext j
        rw [Option.map_some]; congr 1; ring
      · funext i j
        rw [Option.map_some]; congr 1; ring
  | _ :: _ :: _ => rfl

/-- One treated unit and two never-treated units in periods 1 and 2. -/
def demoUnits : List (Row ℚ) :=
  [⟨0, 0, 1, .num 2, some 1⟩, ⟨1, 0, 2, .num 2, some 4⟩, ⟨2, 1, 1, .num 0, some 1⟩, ⟨3, 1, 2, .num 0, some 2⟩,
    ⟨4, 2, 1, .num 0, some 3⟩, ⟨5, 2, 2, .num 0, some 5⟩]

theorem demoUnits_grid : Grid (sample .never demoUnits) [0, 1, 2] [1, 2] := by
  refine ⟨by decide, ?_, ?_, ?_⟩ <;> decide +kernel

/-- Changing to other units, unit levels and period levels only rescales the results. -/
example (a : ℚ) (α : ℕ → ℚ) (τ : ℤ → ℚ) :
    fit olsOne 0 .never (demoUnits.map (transformedRow a α τ)) = (fit olsOne 0 .never demoUnits).map (scaledResults a) :=
  C140_sunab_effects a α τ olsOne (olsOne_equivariant a) 0 .never demoUnits _ _ demoUnits_grid

/-- The same data without the last row. -/
def demoUnitsGap : List (Row ℚ) := demoUnits.dropLast

def overallOf {ε : Type*} (r : Except ε (Results ℚ)) : Option ℚ := match r with
  | .ok r => r.overall.1
  | .error _ => none

/-- C140, balance is needed: if one row is missing, adding a constant to the outcomes of one unit changes the estimate. -/
theorem C140_sunab_effects_refuted :
    overallOf (fit olsOne 0 .never demoUnits) = some (3/2) ∧ overallOf (fit olsOne 0 .never (demoUnits.map (transformedRow 1 (fun u => if u = 2 then 9 else 0) (fun _ => 0)))) = some (3/2) ∧
    overallOf (fit olsOne 0 .never demoUnitsGap) = some (19/9) ∧
    overallOf (fit olsOne 0 .never (demoUnitsGap.map (transformedRow 1 (fun u => if u = 2 then 9 else 0) (fun _ => 0)))) = some (10/9) := by
  decide +kernel

end DiffDiff.SunAb
