/-
Property C141: which data a Callaway-Sant'Anna effect depends on; later data and other cohorts do not matter.
-/
import Verif.CSScaleProps

set_option linter.unusedSectionVars false

namespace DiffDiff.CS

variable {K : Type*} [Field K] [LinearOrder K] [IsStrictOrderedRing K]
variable {n : ℕ}

/-! ### Specification -/

/-- The panel with periods up to `T` only. -/
def upTo (T : ℤ) (P : Panel n K) : Panel n K := { P with times := P.times.filter (fun t => decide (t ≤ T)) }

/-- The first period of a comparison: the period before `t` for effects before treatment (varying base), otherwise the last period
before treatment and anticipation. Written without reference to the model's base period. -/
def FirstPeriod (c : Cfg) (z t b : ℤ) : Prop :=
  (c.base = .varying ∧ t < z - c.ant ∧ b = t - 1) ∨ ((c.base = .universal ∨ z - c.ant ≤ t) ∧ b = z - 1 - c.ant)

/-- Units allowed as controls for cohort `z` in period `t`: never treated, or (if asked for) treated after `t` and of another cohort. -/
def MayControl (c : Cfg) (z t : ℤ) (co : Coh) : Prop :=
  co = .num 0 ∨ co = .inf ∨ (c.ctl = .notYet ∧ co ≠ .num z ∧ ∃ w, co = .num w ∧ t < w)

/-- Two entries agree in everything reported about them: effect, variance, counts, units and their influence functions. -/
def SameEntry (e e' : Entry n K) : Prop := Rescaled 1 e e'

def SameOpt (o o' : Option (Entry n K)) : Prop := OptRescaled 1 o o'

/-! ### Lemmas -/

theorem base_first (c : Cfg) (z t b : ℤ) : basePeriod c (.num z) t = some b ↔ FirstPeriod c z t b := by
  unfold basePeriod FirstPeriod
  cases c.base with
  | varying =>
    simp only [Coh.pre, true_and, reduceCtorEq, false_or]
    by_cases h : t < z - c.ant
    · simp only [h, decide_true, if_true, Option.some.injEq, true_and]
      constructor
      · intro h'; exact Or.inl h'.symm
      · rintro (h' | ⟨h', -⟩)
        · exact h'.symm
        · exact absurd h' (not_le.2 h)
    · simp only [h, decide_false, Bool.false_eq_true, if_false, Option.some.injEq, false_and, false_or]
      constructor
      · intro h'; exact ⟨not_lt.1 h, h'.symm⟩
      · exact fun h' => h'.2.symm
  | universal => simp [eq_comm]

theorem mask_may (c : Cfg) (P : Panel n K) (z t : ℤ) (u : Fin n) : controlMask c P (.num z) t u = true ↔ MayControl c z t (P.cohort u) := by
  unfold controlMask MayControl
  cases c.ctl with
  | never => cases P.cohort u <;> simp [Coh.isNever]
  | notYet =>
    cases P.cohort u with
    | num w =>
      simp only [Coh.isNever, Coh.gtT, Bool.or_eq_true, Bool.and_eq_true, decide_eq_true_eq, true_and, Coh.num.injEq, reduceCtorEq, false_or, ne_eq,
        exists_eq_left']
      constructor
      · rintro (h | ⟨h1, h2⟩)
        · exact Or.inl h
        · exact Or.inr ⟨h2, h1⟩
      · rintro (h | ⟨h1, h2⟩)
        · exact Or.inl h
        · exact Or.inr ⟨h2, h1⟩
    | inf => simp [Coh.isNever]
    | nan => simp [Coh.isNever, Coh.gtT]

theorem estimate_same (m : Method) {T C : Finset (Fin n)} (hT : T.card ≠ 0) (hC : C.card ≠ 0) {d d' : Fin n → K}
    (h1 : ∀ u ∈ T, d' u = d u) (h2 : ∀ u ∈ C, d' u = d u) : SameEntry (estimate m T C d) (estimate m T C d') :=
  estimate_rescaled m hT hC (a := 1) (c := 0) (fun u hu => by rw [h1 u hu]; ring) (fun u hu => by rw [h2 u hu]; ring)

/-! ### The property -/

/-- **C141, data used.** The effect of cohort `z` in period `t` depends only on the outcomes, in the first period and in `t`, of the units
of that cohort and of the admissible controls: two panels with the same cohorts and periods which agree there give the same effect,
variance, counts and influence function. -/
theorem C141_data_used (c : Cfg) (P P' : Panel n K) (hc : P'.cohort = P.cohort) (ht : P'.times = P.times) (z t : ℤ)
    (h : ∀ u b, FirstPeriod c z t b → P.cohort u = .num z ∨ MayControl c z t (P.cohort u) → P'.y u b = P.y u b ∧ P'.y u t = P.y u t) :
    SameOpt (attGt c P (.num z) t) (attGt c P' (.num z) t) := by
  unfold attGt
  cases hb : basePeriod c (.num z) t with
  | none => trivial
  | some b =>
    have hf := (base_first c z t b).1 hb
    have hm : ∀ u, controlMask c P' (.num z) t u = controlMask c P (.num z) t u := by
      intro u
      rw [Bool.eq_iff_iff, mask_may, mask_may, hc]
    have hT : treatedSet P' (.num z) b t = treatedSet P (.num z) b t := by
      ext u
      rw [mem_treatedSet, mem_treatedSet, hc]
      refine and_congr_right fun hu => ?_
      rw [(h u b hf (Or.inl hu)).1, (h u b hf (Or.inl hu)).2]
    have hC : controlSet c P' (.num z) b t = controlSet c P (.num z) b t := by
      ext u
      rw [mem_controlSet, mem_controlSet, hm]
      refine and_congr_right fun hu => ?_
      have := h u b hf (Or.inr ((mask_may c P z t u).1 hu))
      rw [this.1, this.2]
    simp only [ht, hT, hC]
    by_cases h1 : b ∉ P.times
    · simp only [if_pos h1]; trivial
    · by_cases h2 : t ∉ P.times
      · simp only [if_neg h1, if_pos h2]; trivial
      · by_cases h3 : (treatedSet P (.num z) b t).card = 0 ∨ (controlSet c P (.num z) b t).card = 0
        · simp only [if_neg h1, if_neg h2, if_pos h3]; trivial
        · simp only [if_neg h1, if_neg h2, if_neg h3]
          rw [not_or] at h3
          refine estimate_same c.method h3.1 h3.2 (fun u hu => ?_) (fun u hu => ?_)
          · have := h u b hf (Or.inl (mem_treatedSet.1 hu).1)
            unfold change
            rw [this.1, this.2]
          · have := h u b hf (Or.inr ((mask_may c P z t u).1 (mem_controlSet.1 hu).1))
            unfold change
            rw [this.1, this.2]

/-- **C141, other cohorts.** With never-treated controls, changing or deleting outcomes of units of other treated cohorts, in any period,
leaves the effects of a cohort unchanged. -/
theorem C141_other_cohorts (c : Cfg) (hctl : c.ctl = .never) (P P' : Panel n K) (hc : P'.cohort = P.cohort) (ht : P'.times = P.times) (z t : ℤ)
    (h : ∀ u s, (P.cohort u = .num z ∨ P.cohort u = .num 0 ∨ P.cohort u = .inf) → P'.y u s = P.y u s) :
    SameOpt (attGt c P (.num z) t) (attGt c P' (.num z) t) := by
  refine C141_data_used c P P' hc ht z t fun u b _ hu => ?_
  have : P.cohort u = .num z ∨ P.cohort u = .num 0 ∨ P.cohort u = .inf := by
    rcases hu with hu | hu | hu | ⟨hu, -⟩
    · exact Or.inl hu
    · exact Or.inr (Or.inl hu)
    · exact Or.inr (Or.inr hu)
    · rw [hctl] at hu; cases hu
  exact ⟨h u b this, h u t this⟩

/-- Without finite-cohort restriction the base period of a post-treatment or varying-base effect is not after `t`. -/
theorem base_le {c : Cfg} (ha : 0 ≤ c.ant) (hv : c.base = .varying) {g : Coh} {t b : ℤ} (h : basePeriod c g t = some b) : b ≤ t := by
  unfold basePeriod at h
  rw [hv] at h
  simp only at h
  by_cases hp : g.pre c.ant t = true
  · rw [if_pos hp] at h
    obtain rfl := Option.some.inj h
    omega
  · rw [if_neg hp] at h
    cases g with
    | num z =>
      simp only [Option.some.injEq] at h
      simp only [Coh.pre, decide_eq_true_eq, not_lt] at hp
      omega
    | _ => simp at h

theorem att_upTo {c : Cfg} {P : Panel n K} {T : ℤ} {g : Coh} {t : ℤ} (ht : t ≤ T) (hb : ∀ b, basePeriod c g t = some b → b ≤ T) :
    attGt c (upTo T P) g t = attGt c P g t := by
  unfold attGt
  cases h : basePeriod c g t with
  | none => rfl
  | some b =>
    have hb := hb b h
    have e1 : b ∈ (upTo T P).times ↔ b ∈ P.times := by simp [upTo, hb]
    have e2 : t ∈ (upTo T P).times ↔ t ∈ P.times := by simp [upTo, ht]
    simp only [e1, e2]
    rfl

theorem filterMap_filter_keys {β : Type*} (f : ℤ → Option β) (p : ℤ → Bool) (l : List ℤ) (q : β → Bool) (h : ∀ t ∈ l, ∀ b, f t = some b → q b = p t) :
    (l.filterMap f).filter q = (l.filter p).filterMap f := by
  induction l with
  | nil => rfl
  | cons t l ih =>
    have ih := ih (fun s hs => h s (List.mem_cons_of_mem _ hs))
    rw [List.filterMap_cons, List.filter_cons]
    cases hf : f t with
    | none =>
      simp only
      rw [ih]
      split_ifs
      · rw [List.filterMap_cons, hf]
      · rfl
    | some b =>
      simp only
      rw [List.filter_cons, h t (List.mem_cons_self ..) b hf, ih]
      split_ifs
      · rw [List.filterMap_cons, hf]
      · rfl

theorem filter_flatMap_local {α β : Type*} (l : List α) (f : α → List β) (q : β → Bool) : (l.flatMap f).filter q = l.flatMap (fun a => (f a).filter q) := by
  induction l with
  | nil => rfl
  | cons a l ih => rw [List.flatMap_cons, List.flatMap_cons, List.filter_append, ih]

/-- **C141, later data.** With the default (varying) base period, estimating on the data up to period `T` gives exactly the effects up to
`T` of the whole data set, with the same variances and influence functions: nothing observed later influences them, whatever the control
group. -/
theorem C141_later_data (c : Cfg) (ha : 0 ≤ c.ant) (hv : c.base = .varying) (P : Panel n K) (T : ℤ) :
    effects c (upTo T P) = (effects c P).filter (fun x => decide (x.1.2 ≤ T)) := by
  unfold effects
  have hg : groups (upTo T P) = groups P := rfl
  rw [hg, filter_flatMap_local]
  refine List.flatMap_congr fun g _ => ?_
  rw [filterMap_filter_keys _ (fun t => decide (t ≤ T)) (validPeriods c P g) _ (fun t _ b hb => by
    obtain ⟨e, -, rfl⟩ := Option.map_eq_some_iff.1 hb
    rfl)]
  have hval : validPeriods c (upTo T P) g = (validPeriods c P g).filter (fun t => decide (t ≤ T)) := by
    unfold validPeriods
    rw [hv]
    simp only [upTo, List.filter_filter]
    refine List.filter_congr fun t _ => ?_
    by_cases h : t ≤ T
    · have : (P.times.filter (fun t => decide (t ≤ T))).any (fun s => decide (s < t)) = P.times.any (fun s => decide (s < t)) := by
        rw [Bool.eq_iff_iff, List.any_eq_true, List.any_eq_true]
        constructor
        · rintro ⟨s, hs, h'⟩
          exact ⟨s, (List.mem_filter.1 hs).1, h'⟩
        · rintro ⟨s, hs, h'⟩
          have : s < t := by simpa using h'
          exact ⟨s, List.mem_filter.2 ⟨hs, by simp; omega⟩, h'⟩
      simp [h, this]
    · simp [h]
  rw [hval]
  refine List.filterMap_congr fun t ht => ?_
  have ht' : t ≤ T := by simpa using (List.mem_filter.1 ht).2
  rw [att_upTo ht' (fun b hb => le_trans (base_le ha hv hb) ht')]

/-- With a universal base period the same holds for cohorts whose base period is not after `T`. -/
theorem C141_later_data_universal (c : Cfg) (P : Panel n K) (T z t : ℤ) (hu : c.base = .universal) (hz : z - 1 - c.ant ≤ T) (ht : t ≤ T) :
    attGt c (upTo T P) (.num z) t = attGt c P (.num z) t := by
  refine att_upTo ht fun b hb => ?_
  rcases (base_first c z t b).1 hb with ⟨h, -⟩ | ⟨-, rfl⟩
  · rw [hu] at h; cases h
  · exact hz

/-- C141, not-yet-treated controls are read with hindsight: units that are later treated serve as controls before their treatment, so
with that option the effect does depend on other cohorts. Here, changing the outcome of the unit treated in period 4 changes the effect of
the cohort treated in period 2 from 3 to 5/2. -/
theorem C141_other_cohorts_refuted :
    let P : (Fin 3 → ℤ → ℚ) → Panel 3 ℚ := fun y => ⟨![.num 2, .num 4, .num 0], [1, 2, 3, 4], fun u t => some (y u t)⟩
    let y : Fin 3 → ℤ → ℚ := fun u t => if u = 0 ∧ t = 2 then 3 else 0
    let y' : Fin 3 → ℤ → ℚ := fun u t => if u = 1 ∧ t = 2 then 1 else y u t
    (attGt ⟨.varying, .notYet, 0, .reg⟩ (P y) (.num 2) 2).map (fun e => e.effect) = some 3 ∧
    (attGt ⟨.varying, .notYet, 0, .reg⟩ (P y') (.num 2) 2).map (fun e => e.effect) = some (5/2) := by
  decide +kernel

/-- The first two periods of a panel with three periods. -/
example : (effects ⟨.varying, .never, 0, .reg⟩ (upTo 2 demoUnits)).map (fun x => (x.1, x.2.effect)) = [((.num 2, 2), 3), ((.num 3, 2), -1)] := by
  decide +kernel

example : FirstPeriod ⟨.varying, .never, 0, .reg⟩ 5 3 2 ∧ FirstPeriod ⟨.varying, .never, 0, .reg⟩ 5 7 4 ∧ FirstPeriod ⟨.universal, .never, 1, .reg⟩ 5 2 3 ∧
    MayControl ⟨.varying, .notYet, 0, .reg⟩ 5 6 (.num 7) := by
  refine ⟨Or.inl (by decide), Or.inr (by decide), Or.inr (by decide), Or.inr (Or.inr ⟨rfl, by decide, 7, rfl, by decide⟩)⟩

end DiffDiff.CS
