/-
Property C140: units and origin of the outcome (Callaway-Sant'Anna).
-/
import Verif.CSRecodeProps
import Mathlib.Tactic.Ring
import Mathlib.Tactic.FieldSimp
import Mathlib.Tactic.Linarith

set_option linter.unusedSectionVars false

namespace DiffDiff.CS

variable {K : Type*} [Field K] [LinearOrder K] [IsStrictOrderedRing K]
variable {n : ℕ}

/-! ### Specification -/

/-- The panel whose outcome is measured in other units (`a`), with a constant added per unit and per period. Missing stays missing. -/
def transformed (a : K) (α : Fin n → K) (τ : ℤ → K) (P : Panel n K) : Panel n K :=
  { P with y := fun u t => (P.y u t).map (fun v => a * v + α u + τ t) }

/-- `e'` is `e` in units multiplied by `a`: effect and influence function times `a`, variance times `a²`, same units. -/
structure Rescaled (a : K) (e e' : Entry n K) : Prop where
  effect : e'.effect = a * e.effect
  var : e'.var = a ^ 2 * e.var
  nT : e'.nT = e.nT
  nC : e'.nC = e.nC
  treated : e'.treated = e.treated
  control : e'.control = e.control
  infT : ∀ u ∈ e.treated, e'.infT u = a * e.infT u
  infC : ∀ u ∈ e.control, e'.infC u = a * e.infC u

/-- Two lists of labelled effects: same labels, second in units multiplied by `a`. -/
def RescaledList (a : K) (l l' : List ((Coh × ℤ) × Entry n K)) : Prop :=
  List.Forall₂ (fun x x' => x'.1 = x.1 ∧ Rescaled a x.2 x'.2) l l'

/-- Results: all effects multiplied by `a`, everything else the same. -/
structure RescaledResults (a : K) (r r' : Results n K) : Prop where
  groups : r'.groups = r.groups
  nTreated : r'.nTreated = r.nTreated
  nControl : r'.nControl = r.nControl
  effects : RescaledList a r.effects r'.effects
  overall : r'.overall = r.overall.map (a * ·)
  event : r'.event = r.event.map (fun x => (x.1, (a * x.2.1, x.2.2)))
  group : r'.group = r.group.map (fun x => (x.1, (a * x.2.1, x.2.2)))

/-! ### Lemmas -/

theorem mean_affine {ι : Type*} {S : Finset ι} (hS : S.card ≠ 0) {f g : ι → K} {a c : K} (h : ∀ i ∈ S, g i = a * f i + c) :
    mean S g = a * mean S f + c := by
  have hc : (S.card : K) ≠ 0 := Nat.cast_ne_zero.2 hS
  unfold mean
  rw [Finset.sum_congr rfl h, Finset.sum_add_distrib, ← Finset.mul_sum, Finset.sum_const, nsmul_eq_mul]
  field_simp

theorem var1_affine {ι : Type*} {S : Finset ι} (hS : S.card ≠ 0) {f g : ι → K} {a c : K} (h : ∀ i ∈ S, g i = a * f i + c) :
    var1 S g = a ^ 2 * var1 S f := by
  unfold var1
  split_ifs
  · rw [mean_affine hS h, mul_div_assoc', Finset.mul_sum]
    congr 1
    refine Finset.sum_congr rfl fun i hi => ?_
    rw [h i hi]; ring
  · ring

theorem estimate_rescaled (m : Method) {T C : Finset (Fin n)} (hT : T.card ≠ 0) (hC : C.card ≠ 0) {d d' : Fin n → K} {a c : K}
    (h1 : ∀ u ∈ T, d' u = a * d u + c) (h2 : ∀ u ∈ C, d' u = a * d u + c) : Rescaled a (estimate m T C d) (estimate m T C d') where
  effect := by
    show mean T d' - mean C d' = a * (mean T d - mean C d)
    rw [mean_affine hT h1, mean_affine hC h2]; ring
  var := by
    unfold estimate
    simp only [var1_affine hT h1, var1_affine hC h2]
    cases m <;> simp only <;> ring
  nT := rfl
  nC := rfl
  treated := rfl
  control := rfl
  infT u hu := by
    show (d' u - mean T d') / (T.card : K) = a * ((d u - mean T d) / (T.card : K))
    rw [mean_affine hT h1, h1 u hu]; ring
  infC u hu := by
    show -((d' u - mean C d') / (C.card : K)) = a * -((d u - mean C d) / (C.card : K))
    rw [mean_affine hC h2, h2 u hu]; ring

theorem transformed_treated (a : K) (α : Fin n → K) (τ : ℤ → K) (P : Panel n K) (g : Coh) (b t : ℤ) :
    treatedSet (transformed a α τ P) g b t = treatedSet P g b t := by
  ext u
  rw [mem_treatedSet, mem_treatedSet]
  simp [transformed]

theorem transformed_control (c : Cfg) (a : K) (α : Fin n → K) (τ : ℤ → K) (P : Panel n K) (g : Coh) (b t : ℤ) :
    controlSet c (transformed a α τ P) g b t = controlSet c P g b t := by
  ext u
  rw [mem_controlSet, mem_controlSet]
  have : controlMask c (transformed a α τ P) g t u = controlMask c P g t u := rfl
  rw [this]
  simp [transformed]

theorem transformed_change (a : K) (α : Fin n → K) (τ : ℤ → K) (P : Panel n K) (b t : ℤ) (u : Fin n)
    (hb : (P.y u b).isSome = true) (ht : (P.y u t).isSome = true) :
    change (transformed a α τ P) b t u = a * change P b t u + (τ t - τ b) := by
  obtain ⟨x, hx⟩ := Option.isSome_iff_exists.1 hb
  obtain ⟨z, hz⟩ := Option.isSome_iff_exists.1 ht
  simp only [change, transformed, hx, hz, Option.map_some, Option.getD_some]
  ring

/-- Same presence, rescaled values. -/
def OptRescaled (a : K) : Option (Entry n K) → Option (Entry n K) → Prop
  | none, none => True
  | some e, some e' => Rescaled a e e'
  | _, _ => False

theorem transformed_att (a : K) (α : Fin n → K) (τ : ℤ → K) (c : Cfg) (P : Panel n K) (g : Coh) (t : ℤ) :
    OptRescaled a (attGt c P g t) (attGt c (transformed a α τ P) g t) := by
  unfold attGt
  cases basePeriod c g t with
  | none => trivial
  | some b =>
    have htm : (transformed a α τ P).times = P.times := rfl
    simp only [htm, transformed_treated, transformed_control]
    by_cases h1 : b ∉ P.times
    · simp only [if_pos h1]; trivial
    · by_cases h2 : t ∉ P.times
      · simp only [if_neg h1, if_pos h2]; trivial
      · by_cases h3 : (treatedSet P g b t).card = 0 ∨ (controlSet c P g b t).card = 0
        · simp only [if_neg h1, if_neg h2, if_pos h3]; trivial
        · simp only [if_neg h1, if_neg h2, if_neg h3]
          rw [not_or] at h3
          refine estimate_rescaled c.method h3.1 h3.2 (c := τ t - τ b) (fun u hu => ?_) (fun u hu => ?_)
          · obtain ⟨-, hb, ht⟩ := mem_treatedSet.1 hu
            exact transformed_change a α τ P b t u hb ht
          · obtain ⟨-, hb, ht⟩ := mem_controlSet.1 hu
            exact transformed_change a α τ P b t u hb ht

theorem forall₂_flatMap {α β : Type*} {R : β → β → Prop} {f g : α → List β} (l : List α) (h : ∀ x ∈ l, List.Forall₂ R (f x) (g x)) :
    List.Forall₂ R (l.flatMap f) (l.flatMap g) := by
  induction l with
  | nil => exact .nil
  | cons x l ih =>
    rw [List.flatMap_cons, List.flatMap_cons]
    exact List.rel_append (h x (List.mem_cons_self ..)) (ih fun y hy => h y (List.mem_cons_of_mem _ hy))

theorem transformed_effects (a : K) (α : Fin n → K) (τ : ℤ → K) (c : Cfg) (P : Panel n K) :
    RescaledList a (effects c P) (effects c (transformed a α τ P)) := by
  refine forall₂_flatMap (groups P) fun g _ => ?_
  have hv : validPeriods c (transformed a α τ P) g = validPeriods c P g := rfl
  rw [hv]
  induction validPeriods c P g with
  | nil => exact .nil
  | cons t l ih =>
    have := transformed_att a α τ c P g t
    rw [List.filterMap_cons, List.filterMap_cons]
    cases h1 : attGt c P g t with
    | none =>
      cases h2 : attGt c (transformed a α τ P) g t with
      | none => exact ih
      | some e' => rw [h1, h2] at this; exact absurd this id
    | some e =>
      cases h2 : attGt c (transformed a α τ P) g t with
      | none => rw [h1, h2] at this; exact absurd this id
      | some e' =>
        rw [h1, h2] at this
        exact .cons ⟨rfl, this⟩ ih

/-! Aggregation of rescaled lists. -/

section agg
variable {a : K} {l l' : List ((Coh × ℤ) × Entry n K)}

theorem RescaledList.filter (h : RescaledList a l l') (p : (Coh × ℤ) → Bool) :
    RescaledList a (l.filter (fun x => p x.1)) (l'.filter (fun x => p x.1)) := by
  induction h with
  | nil => exact .nil
  | @cons x x' l l' hx _ ih =>
    rw [List.filter_cons, List.filter_cons, hx.1]
    split_ifs
    · exact .cons hx ih
    · exact ih

theorem RescaledList.length (h : RescaledList a l l') : l'.length = l.length := (List.Forall₂.length_eq h).symm

theorem RescaledList.map {β : Type*} (h : RescaledList a l l') (f f' : (Coh × ℤ) × Entry n K → β)
    (hf : ∀ x x', x'.1 = x.1 → Rescaled a x.2 x'.2 → f' x' = f x) : l'.map f' = l.map f := by
  induction h with
  | nil => rfl
  | cons hx _ ih => rw [List.map_cons, List.map_cons, ih, hf _ _ hx.1 hx.2]

theorem RescaledList.size (h : RescaledList a l l') : sizeWeights l' = sizeWeights l := by
  unfold sizeWeights
  have h1 : l'.map (fun z => (z.2.nT : K)) = l.map (fun z => (z.2.nT : K)) := h.map _ _ fun _ _ _ hr => by rw [hr.nT]
  rw [h1]
  exact h.map _ _ fun _ _ _ hr => by rw [hr.nT]

theorem RescaledList.equal (h : RescaledList a l l') : equalWeights l' = equalWeights l := by
  unfold equalWeights
  rw [h.length]
  exact h.map _ _ fun _ _ _ _ => rfl

theorem RescaledList.effect (h : RescaledList a l l') : l'.map (fun x => x.2.effect) = (l.map (fun x => x.2.effect)).map (a * ·) := by
  rw [List.map_map]
  exact h.map _ _ fun _ _ _ hr => hr.effect

theorem dot_scale (a : K) (w e : List K) : dot w (e.map (a * ·)) = a * dot w e := by
  unfold dot
  induction w generalizing e with
  | nil => simp
  | cons x w ih =>
    cases e with
    | nil => simp
    | cons y e => simp only [List.map_cons, List.zipWith_cons_cons, List.sum_cons, ih]; ring

theorem RescaledList.post (h : RescaledList a l l') (ant : ℤ) : RescaledList a (postPairs ant l) (postPairs ant l') :=
  h.filter (fun k => ! k.1.pre ant k.2)

theorem RescaledList.overall (h : RescaledList a l l') (ant : ℤ) : overall ant l' = (overall ant l).map (a * ·) := by
  have hp := h.post ant
  unfold CS.overall
  simp only [hp.length, hp.size, hp.effect, dot_scale]
  split_ifs <;> rfl

theorem RescaledList.any (h : RescaledList a l l') (p : (Coh × ℤ) → Bool) : l'.any (fun x => p x.1) = l.any (fun x => p x.1) := by
  induction h with
  | nil => rfl
  | cons hx _ ih => rw [List.any_cons, List.any_cons, ih, hx.1]

theorem RescaledList.es (h : RescaledList a l l') (bal : Option ℤ) : RescaledList a (esPairs bal l) (esPairs bal l') := by
  cases bal with
  | none => exact h
  | some b =>
    unfold esPairs
    have : ∀ x : (Coh × ℤ) × Entry n K, l'.any (fun z => decide (z.1.1 = x.1.1) && decide (z.1.1.rel z.1.2 = (b : WithBot ℤ))) =
        l.any (fun z => decide (z.1.1 = x.1.1) && decide (z.1.1.rel z.1.2 = (b : WithBot ℤ))) :=
      fun x => h.any (fun k => decide (k.1 = x.1.1) && decide (k.1.rel k.2 = (b : WithBot ℤ)))
    simp only [this]
    exact h.filter (fun k => l.any (fun z => decide (z.1.1 = k.1) && decide (z.1.1.rel z.1.2 = (b : WithBot ℤ))))

theorem RescaledList.rels (h : RescaledList a l l') : relTimes l' = relTimes l := by
  unfold relTimes
  congr 2
  exact h.map _ _ fun _ _ hk _ => by rw [hk]

theorem RescaledList.atRel (h : RescaledList a l l') (e : WithBot ℤ) : RescaledList a (atRel l e) (atRel l' e) :=
  h.filter (fun k => decide (k.1.rel k.2 = e))

theorem RescaledList.event (h : RescaledList a l l') (c : Cfg) (bal : Option ℤ) :
    eventStudy c bal l' = (eventStudy c bal l).map (fun x => (x.1, (a * x.2.1, x.2.2))) := by
  have hs := h.es bal
  have he : (relTimes (esPairs bal l')).map (fun e =>
      (e, (dot (sizeWeights (CS.atRel (esPairs bal l') e)) ((CS.atRel (esPairs bal l') e).map (fun x => x.2.effect)), (CS.atRel (esPairs bal l') e).length))) =
      ((relTimes (esPairs bal l)).map (fun e =>
      (e, (dot (sizeWeights (CS.atRel (esPairs bal l) e)) ((CS.atRel (esPairs bal l) e).map (fun x => x.2.effect)), (CS.atRel (esPairs bal l) e).length)))).map
        (fun x => (x.1, (a * x.2.1, x.2.2))) := by
    rw [hs.rels, List.map_map]
    refine List.map_congr_left fun e _ => ?_
    have ha := hs.atRel e
    simp only [Function.comp, ha.size, ha.effect, ha.length, dot_scale]
  unfold eventStudy
  simp only [he]
  generalize (relTimes (esPairs bal l)).map (fun e =>
      (e, (dot (sizeWeights (CS.atRel (esPairs bal l) e)) ((CS.atRel (esPairs bal l) e).map (fun x => x.2.effect)), (CS.atRel (esPairs bal l) e).length))) = es
  cases c.base with
  | varying => rfl
  | universal =>
    simp only [ne_eq, List.map_eq_nil_iff, List.map_map]
    have : (es.map (Prod.fst ∘ fun x : WithBot ℤ × (K × ℕ) => (x.1, (a * x.2.1, x.2.2)))) = es.map Prod.fst := rfl
    rw [this]
    split_ifs
    · rw [List.map_append, List.map_cons, List.map_nil, mul_zero]
    · rfl

theorem RescaledList.group (h : RescaledList a l l') (ant : ℤ) (gs : List Coh) :
    groupEffects ant gs l' = (groupEffects ant gs l).map (fun x => (x.1, (a * x.2.1, x.2.2))) := by
  unfold groupEffects
  rw [List.map_filterMap]
  refine List.filterMap_congr fun g _ => ?_
  have hg : RescaledList a (groupPairs ant l g) (groupPairs ant l' g) := h.filter (fun k => decide (k.1 = g) && g.post ant k.2)
  simp only [hg.length, hg.equal, hg.effect, dot_scale]
  split_ifs <;> rfl

theorem psi_rescaled {e e' : Entry n K} (h : Rescaled a e e') (u : Fin n) : psi e' u = a * psi e u := by
  unfold psi
  rw [h.treated, h.control, mul_add]
  congr 1
  · split_ifs with hu
    · exact h.infT u hu
    · ring
  · split_ifs with hu
    · exact h.infC u hu
    · ring

theorem RescaledList.aggPsi (h : RescaledList a l l') (w : List K) (u : Fin n) :
    aggPsi w (l'.map Prod.snd) u = a * aggPsi w (l.map Prod.snd) u := by
  unfold CS.aggPsi
  induction h generalizing w with
  | nil => simp
  | cons hx _ ih =>
    cases w with
    | nil => simp
    | cons y w => simp only [List.map_cons, List.zipWith_cons_cons, List.sum_cons, ih, psi_rescaled hx.2]; ring

theorem RescaledList.allUnits (h : RescaledList a l l') : allUnits (l'.map Prod.snd) = allUnits (l.map Prod.snd) := by
  unfold CS.allUnits
  ext u
  simp only [Finset.mem_filter, Finset.mem_univ, true_and]
  induction h with
  | nil => rfl
  | cons hx _ ih => simp only [List.map_cons, List.exists_mem_cons_iff, ih, hx.2.treated, hx.2.control]

theorem RescaledList.keep (h : RescaledList a l l') :
    l'.map (fun x => (x.1.1, x.2.effect)) = (l.map (fun x => (x.1.1, x.2.effect))).map (fun x => (x.1, a * x.2)) := by
  rw [List.map_map]
  exact h.map _ _ fun _ _ hk hr => by simp only [Function.comp, hk, hr.effect]

theorem wif_scale (P P' : Panel n K) (hc : P'.cohort = P.cohort) (a : K) (N : ℕ) (k : List (Coh × K)) (u : Fin n) :
    wif P' N (k.map (fun x => (x.1, a * x.2))) u = a * wif P N k u := by
  have hpg : ∀ g, pg (K := K) P' N g = pg P N g := fun g => by unfold pg; rw [hc]
  unfold wif
  simp only [List.map_map, Function.comp_def, hpg, hc]
  generalize (k.map (fun x => pg (K := K) P N x.1)).sum = S
  generalize (k.map (fun x => (if P.cohort u = x.1 then (1 : K) else 0) - pg P N x.1)).sum = V
  rw [← List.sum_map_mul_left]
  congr 1
  exact List.map_congr_left fun x _ => by ring

end agg

/-! ### The property -/

/-- **C140 (CallawaySantAnna).** Measuring the outcome in other units and adding any constants per unit and per period multiplies all
effects and influence functions by the factor of the units, and the variances by its square; missing values may occur anywhere. Which
effects are reported, the counts and the errors do not change. -/
theorem C140_cs (a : K) (α : Fin n → K) (τ : ℤ → K) (c : Cfg) (bal : Option ℤ) (P : Panel n K) :
    match fit c bal P, fit c bal (transformed a α τ P) with
    | .error e, .error e' => e' = e
    | .ok r, .ok r' => RescaledResults a r r'
    | _, _ => False := by
  have h := transformed_effects a α τ c P
  have hl := h.length
  have hco : (transformed a α τ P).cohort = P.cohort := rfl
  unfold fit
  simp only [hco, hl]
  by_cases h1 : (Finset.univ.filter (fun u => (P.cohort u).isNever = true)).card = 0
  · simp only [if_pos h1]
  · by_cases h2 : (effects c P).length = 0
    · simp only [if_neg h1, if_pos h2]
    · simp only [if_neg h1, if_neg h2]
      exact
        { groups := rfl
          nTreated := rfl
          nControl := rfl
          effects := h
          overall := h.overall c.ant
          event := h.event c bal
          group := h.group c.ant (groups P) }

/-- **C140 (CallawaySantAnna), standard errors of aggregates.** The variance of the overall effect and of every weighted aggregate is
multiplied by the square of the factor. -/
theorem C140_cs_aggregate_var (a : K) (α : Fin n → K) (τ : ℤ → K) (c : Cfg) (P : Panel n K) :
    overallVar c.ant (transformed a α τ P) (effects c (transformed a α τ P)) = a ^ 2 * overallVar c.ant P (effects c P) ∧
    ∀ (w : List K) (p : Coh × ℤ → Bool),
      aggVar w (((effects c (transformed a α τ P)).filter (fun x => p x.1)).map Prod.snd) =
        a ^ 2 * aggVar w (((effects c P).filter (fun x => p x.1)).map Prod.snd) := by
  have h := transformed_effects a α τ c P
  refine ⟨?_, fun w p => ?_⟩
  · have hp := h.post c.ant
    unfold overallVar
    simp only [hp.allUnits, hp.keep, hp.size, hp.aggPsi, wif_scale P (transformed a α τ P) rfl]
    have hs : ∀ k : List (Coh × K), ((k.map (fun x => (x.1, a * x.2))).map
        (fun x => pg (K := K) (transformed a α τ P) (CS.allUnits ((postPairs c.ant (effects c P)).map Prod.snd)).card x.1)).sum =
        (k.map (fun x => pg (K := K) P (CS.allUnits ((postPairs c.ant (effects c P)).map Prod.snd)).card x.1)).sum := by
      intro k
      rw [List.map_map]
      rfl
    rw [hs]
    split_ifs
    · ring
    · ring
    · rw [Finset.mul_sum]
      exact Finset.sum_congr rfl fun u _ => by ring
  · have hf := h.filter p
    unfold aggVar
    rw [Finset.mul_sum]
    refine Finset.sum_congr rfl fun u _ => ?_
    rw [hf.aggPsi]; ring

/-- C140, bootstrap: with the same multipliers, every draw of every effect is multiplied by the factor. -/
theorem C140_cs_bootstrap (a : K) (α : Fin n → K) (τ : ℤ → K) (c : Cfg) (P : Panel n K) (w : Fin n → K) :
    (effects c (transformed a α τ P)).map (fun x => (x.1, bootAtt w x.2)) = (effects c P).map (fun x => (x.1, a * bootAtt w x.2)) := by
  refine (transformed_effects a α τ c P).map _ _ fun x x' hk hr => ?_
  rw [hk]
  congr 1
  unfold bootAtt
  rw [hr.effect, hr.treated, hr.control, Finset.sum_congr rfl (fun u hu => by rw [hr.infT u hu]), Finset.sum_congr (s₁ := x.2.control) rfl (fun u hu => by rw [hr.infC u hu]),
    mul_add, mul_add, Finset.mul_sum, Finset.mul_sum]
  congr 2 <;> exact Finset.sum_congr rfl fun u _ => by ring

/-- Two cohorts and two never-treated units, one outcome missing. -/
def demoUnits : Panel 4 ℚ where
  cohort := ![.num 2, .num 3, .num 0, .num 0]
  times := [1, 2, 3]
  y u t := if u = 3 ∧ t = 2 then none else some (![![1, 5, 8], ![2, 2, 6], ![0, 1, 1], ![1, 2, 4]] u (if t = 1 then 0 else if t = 2 then 1 else 2))

/-- Cents instead of dollars, with a different level in each unit and period: the effects are multiplied by 100. -/
example :
    (effects ⟨.varying, .never, 0, .reg⟩ demoUnits).map (fun x => (x.1, x.2.effect)) =
      [((.num 2, 2), 3), ((.num 2, 3), 5), ((.num 3, 2), -1), ((.num 3, 3), 4)] ∧
    (effects ⟨.varying, .never, 0, .reg⟩ (transformed 100 ![7, -2, 5, 1] (fun t => 3 * (t : ℚ)) demoUnits)).map (fun x => (x.1, x.2.effect)) =
      [((.num 2, 2), 300), ((.num 2, 3), 500), ((.num 3, 2), -100), ((.num 3, 3), 400)] := by
  decide +kernel

end DiffDiff.CS
