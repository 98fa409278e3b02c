/-
Properties C30 (Sun-Abraham part), C34, C35, C73 and C74.
-/
import Verif.SunAb
import Verif.BootStatsProps
import Mathlib.Tactic.IntervalCases

set_option linter.unusedSectionVars false

namespace DiffDiff.SunAb

open CS (Coh)

variable {K : Type*} [Field K] [LinearOrder K] [IsStrictOrderedRing K]

/-! ### Sums with missing values -/

theorem osum_some {α : Type*} (l : List α) (f : α → Option K) (g : α → K) (h : ∀ a ∈ l, f a = some (g a)) :
    osum (l.map f) = some ((l.map g).sum) := by
  induction l with
  | nil => rfl
  | cons a as ih =>
    have h1 := h a (List.mem_cons_self ..)
    have h2 := ih (fun b hb => h b (List.mem_cons_of_mem _ hb))
    simp only [List.map_cons, osum, h1, h2, List.sum_cons]

/-- A sum with a missing term is missing. -/
theorem osum_none {l : List (Option K)} (h : none ∈ l) : osum l = none := by
  induction l with
  | nil => cases h
  | cons a as ih =>
    rcases List.mem_cons.1 h with h | h
    · subst h; rfl
    · have h' := ih h
      cases a with
      | none => rfl
      | some x => unfold osum; rw [h']

theorem osum_cons_some (x : K) (as : List (Option K)) : osum (some x :: as) = (osum as).map (fun s => x + s) := by
  conv_lhs => unfold osum
  cases osum as <;> rfl

theorem osum_append (l m : List (Option K)) : osum (l ++ m) = (osum l).bind (fun a => (osum m).map (fun b => a + b)) := by
  induction l with
  | nil => cases h : osum m <;> simp [osum, h]
  | cons a as ih =>
    rw [List.cons_append]
    cases a with
    | none => rfl
    | some x =>
      rw [osum_cons_some, osum_cons_some, ih]
      cases osum as <;> cases osum m <;> simp [add_assoc]

theorem osum_flatMap {α : Type*} (l : List α) (f : α → List (Option K)) :
    osum (l.flatMap f) = osum (l.map (fun a => osum (f a))) := by
  induction l with
  | nil => rfl
  | cons a as ih =>
    rw [List.flatMap_cons, osum_append, List.map_cons, ih]
    conv_rhs => unfold osum
    cases osum (f a) <;> cases osum (as.map (fun a => osum (f a))) <;> rfl

theorem osum_map_mul {α : Type*} (l : List α) (f : α → Option K) (c : K) :
    osum (l.map (fun a => (f a).map (fun v => c * v))) = (osum (l.map f)).map (fun v => c * v) := by
  induction l with
  | nil => simp [osum]
  | cons a as ih =>
    simp only [List.map_cons]
    unfold osum
    rw [ih]
    cases f a <;> cases osum (as.map f) <;> simp [mul_add]

theorem sum_le_of_weights {α : Type*} (l : List α) (w v : α → K) (hi : K) (hw : ∀ a ∈ l, 0 ≤ w a)
    (hv : ∀ a ∈ l, v a ≤ hi) : (l.map (fun a => w a * v a)).sum ≤ (l.map w).sum * hi := by
  induction l with
  | nil => simp
  | cons a as ih =>
    simp only [List.map_cons, List.sum_cons, add_mul]
    exact add_le_add (mul_le_mul_of_nonneg_left (hv a (List.mem_cons_self ..)) (hw a (List.mem_cons_self ..)))
      (ih (fun b hb => hw b (List.mem_cons_of_mem _ hb)) (fun b hb => hv b (List.mem_cons_of_mem _ hb)))

theorem le_sum_of_weights {α : Type*} (l : List α) (w v : α → K) (lo : K) (hw : ∀ a ∈ l, 0 ≤ w a)
    (hv : ∀ a ∈ l, lo ≤ v a) : (l.map w).sum * lo ≤ (l.map (fun a => w a * v a)).sum := by
  induction l with
  | nil => simp
  | cons a as ih =>
    simp only [List.map_cons, List.sum_cons, add_mul]
    exact add_le_add (mul_le_mul_of_nonneg_left (hv a (List.mem_cons_self ..)) (hw a (List.mem_cons_self ..)))
      (ih (fun b hb => hw b (List.mem_cons_of_mem _ hb)) (fun b hb => hv b (List.mem_cons_of_mem _ hb)))

theorem cast_list_sum {α : Type*} (l : List α) (f : α → ℕ) : (((l.map f).sum : ℕ) : K) = (l.map (fun a => (f a : K))).sum := by
  induction l with
  | nil => simp
  | cons a as ih => simp [ih]

theorem sum_div_list {α : Type*} (l : List α) (f : α → K) (c : K) :
    (l.map (fun a => f a / c)).sum = (l.map f).sum / c := by
  induction l with
  | nil => simp
  | cons a as ih => simp [ih, add_div]

/-! ### Weights -/

theorem weights_nonneg (df : List (Row K)) (cs : List Coh) : ∀ p ∈ weights df cs, 0 ≤ p.2 := by
  intro p hp
  obtain ⟨g, _, rfl⟩ := List.mem_map.1 hp
  positivity

theorem weights_sum (df : List (Row K)) (cs : List Coh) (h : totalSize df cs ≠ 0) :
    ((weights df cs).map (fun p => p.2)).sum = 1 := by
  unfold weights
  rw [List.map_map]
  show (cs.map (fun g => (size df g : K) / (totalSize df cs : K))).sum = 1
  rw [sum_div_list, ← cast_list_sum]
  exact div_self (by exact_mod_cast h)

/-- What is known of a reported event time. -/
theorem eventAt_some {df : List (Row K)} {gs : List Coh} {ks : List Key} {f : Reg K} {e : ℤ} {ev : Event K}
    (h : eventAt df gs ks f e = some ev) :
    ev.e = e ∧ ev.weights = weights df (cohortsAt gs ks e) ∧ cohortsAt gs ks e ≠ [] ∧
      totalSize df (cohortsAt gs ks e) ≠ 0 ∧
      ev.effect = osum (ev.weights.map (fun p => (coefOf ks f (p.1, e)).map (fun v => p.2 * v))) ∧
      ev.var = (quadForm ks f (ev.weights.map (fun p => ((p.1, e), p.2)))).map (fun v => max v 0) ∧
      ev.nGroups = (cohortsAt gs ks e).length := by
  unfold eventAt at h
  simp only at h
  split_ifs at h with h1 h2
  cases h
  exact ⟨rfl, rfl, h1, h2, rfl, rfl, rfl⟩

theorem mem_iw {df : List (Row K)} {gs : List Coh} {es : List ℤ} {ks : List Key} {f : Reg K} {ev : Event K}
    (h : ev ∈ iwEffects df gs es ks f) : ev.e ∈ es ∧ eventAt df gs ks f ev.e = some ev := by
  obtain ⟨e, he, h1⟩ := List.mem_filterMap.1 h
  have := (eventAt_some h1).1
  subst this
  exact ⟨he, h1⟩

/-- Unfolding of a successful fit. -/
theorem fit_ok {reg : List (List K) → List K → Option (Reg K)} {ant : ℤ} {c : Control} {df : List (Row K)}
    {R : Results K} (h : fit reg ant c df = .ok R) :
    nControl df ≠ 0 ∧ groups df ≠ [] ∧ ∃ f, saturated reg (groups df) (relPeriods ant df) (sample c df) =
        .ok (keys (groups df) (relPeriods ant df) (sample c df), f) ∧
      R.events = iwEffects df (groups df) (relPeriods ant df) (keys (groups df) (relPeriods ant df) (sample c df)) f ∧
      R.overall = overall df (keys (groups df) (relPeriods ant df) (sample c df)) f R.events ∧
      R.cohortEffects = (keys (groups df) (relPeriods ant df) (sample c df)).map
        (fun k => (k, coefOf (keys (groups df) (relPeriods ant df) (sample c df)) f k)) ∧
      R.groups = groups df ∧ R.nTreated = nTreated df ∧ R.nControl = nControl df ∧ R.nObs = df.length := by
  unfold fit at h
  split_ifs at h with h1 h2
  split at h
  · cases h
  · rename_i ks f hs
    have hk : ks = keys (groups df) (relPeriods ant df) (sample c df) := by
      unfold saturated at hs
      simp only at hs
      split_ifs at hs
      split at hs
      · cases hs
      · split at hs
        · cases hs
        · cases hs; rfl
    subst hk
    cases h
    exact ⟨h1, h2, f, hs, rfl, rfl, rfl, rfl, rfl, rfl, rfl⟩

theorem mem_relPeriods {ant : ℤ} {df : List (Row K)} {e : ℤ} (h : e ∈ relPeriods ant df) :
    -20 ≤ e ∧ e ≤ 20 ∧ e ≠ -1 - ant ∧ ∃ r ∈ df, relTime r = some e := by
  obtain ⟨h1, h2⟩ := List.mem_filter.1 h
  simp only [Bool.and_eq_true, decide_eq_true_eq] at h2
  rw [List.mem_insertionSort, List.mem_dedup, List.mem_filterMap] at h1
  exact ⟨h2.1.1, h2.1.2, h2.2, h1⟩

theorem mem_keys {gs : List Coh} {es : List ℤ} {df : List (Row K)} {k : Key} :
    k ∈ keys gs es df ↔ k.1 ∈ gs ∧ k.2 ∈ es ∧ ∃ r ∈ df, r.cohort = k.1 ∧ relTime r = some k.2 := by
  unfold keys
  rw [List.mem_filter, List.mem_flatMap, List.any_eq_true]
  simp only [Bool.and_eq_true, decide_eq_true_eq, List.mem_map]
  constructor
  · rintro ⟨⟨g, hg, e, he, rfl⟩, hr⟩
    exact ⟨hg, he, hr⟩
  · rintro ⟨hg, he, hr⟩
    exact ⟨⟨k.1, hg, k.2, he, rfl⟩, hr⟩

/-- C34: at every reported event time the interaction weights are non-negative, sum to one, and are proportional to the
number of units of the cohort. -/
theorem C34_weights (reg : List (List K) → List K → Option (Reg K)) (ant : ℤ) (c : Control) (df : List (Row K))
    (R : Results K) (h : fit reg ant c df = .ok R) (ev : Event K) (hev : ev ∈ R.events) :
    (∀ p ∈ ev.weights, 0 ≤ p.2) ∧ (ev.weights.map (fun p => p.2)).sum = 1 ∧
    (∀ p ∈ ev.weights, ∀ q ∈ ev.weights, p.2 * (size df q.1 : K) = q.2 * (size df p.1 : K)) ∧
    ev.weights.length = ev.nGroups := by
  obtain ⟨_, _, f, _, he, _⟩ := fit_ok h
  rw [he] at hev
  obtain ⟨_, hw, _, ht, _, _, hn⟩ := eventAt_some (mem_iw hev).2
  refine ⟨?_, ?_, ?_, ?_⟩
  · rw [hw]; exact weights_nonneg _ _
  · rw [hw]; exact weights_sum _ _ ht
  · rw [hw]
    intro p hp q hq
    obtain ⟨g, _, rfl⟩ := List.mem_map.1 hp
    obtain ⟨g', _, rfl⟩ := List.mem_map.1 hq
    simp only
    ring
  · rw [hw, hn]; simp [weights]

/-- Cohort effect reported for a key. -/
def Reported (R : Results K) (g : Coh) (e : ℤ) (v : Option K) : Prop := ((g, e), v) ∈ R.cohortEffects

/-- C34: the effect at an event time is the weighted average of the reported cohort effects at that event time, so it lies
between the smallest and the largest of them. -/
theorem C34_bounds (reg : List (List K) → List K → Option (Reg K)) (ant : ℤ) (c : Control) (df : List (Row K))
    (R : Results K) (h : fit reg ant c df = .ok R) (ev : Event K) (hev : ev ∈ R.events) (lo hi : K)
    (hb : ∀ p ∈ ev.weights, ∀ v, Reported R p.1 ev.e v → ∃ x, v = some x ∧ lo ≤ x ∧ x ≤ hi) :
    ∃ x, ev.effect = some x ∧ lo ≤ x ∧ x ≤ hi := by
  obtain ⟨hw0, hw1, _, _⟩ := C34_weights reg ant c df R h ev hev
  obtain ⟨_, _, f, _, he, _, hce, _⟩ := fit_ok h
  rw [he] at hev
  obtain ⟨_, hw, _, _, heff, _, _⟩ := eventAt_some (mem_iw hev).2
  set ks := keys (groups df) (relPeriods ant df) (sample c df)
  have hrep : ∀ p ∈ ev.weights, Reported R p.1 ev.e (coefOf ks f (p.1, ev.e)) := by
    intro p hp
    rw [hw] at hp
    obtain ⟨g, hg, rfl⟩ := List.mem_map.1 hp
    have hk := (List.mem_filter.1 hg).2
    rw [decide_eq_true_eq] at hk
    unfold Reported
    rw [hce]
    exact List.mem_map.2 ⟨_, hk, rfl⟩
  have hval : ∀ p ∈ ev.weights, ∃ x, coefOf ks f (p.1, ev.e) = some x ∧ lo ≤ x ∧ x ≤ hi :=
    fun p hp => hb p hp _ (hrep p hp)
  have hsum := osum_some ev.weights (fun p => (coefOf ks f (p.1, ev.e)).map (fun v => p.2 * v))
    (fun p => p.2 * (coefOf ks f (p.1, ev.e)).getD 0) (fun p hp => by
      obtain ⟨x, hx, _⟩ := hval p hp
      rw [hx]; rfl)
  rw [← heff] at hsum
  refine ⟨_, hsum, ?_, ?_⟩
  · have := le_sum_of_weights ev.weights (fun p => p.2) (fun p => (coefOf ks f (p.1, ev.e)).getD 0) lo hw0
      (fun p hp => by obtain ⟨x, hx, h1, _⟩ := hval p hp; rw [hx]; exact h1)
    rwa [hw1, one_mul] at this
  · have := sum_le_of_weights ev.weights (fun p => p.2) (fun p => (coefOf ks f (p.1, ev.e)).getD 0) hi hw0
      (fun p hp => by obtain ⟨x, hx, _, h2⟩ := hval p hp; rw [hx]; exact h2)
    rwa [hw1, one_mul] at this

/-- C34: a missing (dropped) cohort coefficient makes the event-time effect missing; nothing is imputed. -/
theorem C34_missing_propagates (reg : List (List K) → List K → Option (Reg K)) (ant : ℤ) (c : Control)
    (df : List (Row K)) (R : Results K) (h : fit reg ant c df = .ok R) (ev : Event K) (hev : ev ∈ R.events)
    (p : Coh × K) (hp : p ∈ ev.weights) (hm : ∀ v, Reported R p.1 ev.e v → v = none) : ev.effect = none := by
  obtain ⟨_, _, f, _, he, _, hce, _⟩ := fit_ok h
  rw [he] at hev
  obtain ⟨_, hw, _, _, heff, _, _⟩ := eventAt_some (mem_iw hev).2
  have hn : coefOf (keys (groups df) (relPeriods ant df) (sample c df)) f (p.1, ev.e) = none := by
    apply hm
    rw [hw] at hp
    obtain ⟨g, hg, rfl⟩ := List.mem_map.1 hp
    have hk := (List.mem_filter.1 hg).2
    rw [decide_eq_true_eq] at hk
    unfold Reported
    rw [hce]
    exact List.mem_map.2 ⟨_, hk, rfl⟩
  rw [heff]
  apply osum_none
  exact List.mem_map.2 ⟨p, hp, by rw [hn]; rfl⟩

/-- C34: the reference period enters neither the regression nor the event study, every reported event time is observed
for the cohorts contributing to it and lies within 20 periods of treatment. -/
theorem C34_reference (reg : List (List K) → List K → Option (Reg K)) (ant : ℤ) (c : Control) (df : List (Row K))
    (R : Results K) (h : fit reg ant c df = .ok R) :
    (∀ k ∈ R.cohortEffects, k.1.2 ≠ -1 - ant ∧ -20 ≤ k.1.2 ∧ k.1.2 ≤ 20 ∧
      ∃ r ∈ df, ∃ z, r.cohort = .num z ∧ 0 < z ∧ k.1.1 = .num z ∧ r.time - z = k.1.2) ∧
    (∀ ev ∈ R.events, ev.e ≠ -1 - ant) := by
  obtain ⟨_, _, f, _, he, _, hce, _⟩ := fit_ok h
  constructor
  · intro k hk
    rw [hce] at hk
    obtain ⟨key, hkey, rfl⟩ := List.mem_map.1 hk
    obtain ⟨_, h2, r, hr, hc, hrel⟩ := mem_keys.1 hkey
    obtain ⟨a1, a2, a3, _⟩ := mem_relPeriods h2
    refine ⟨a3, a1, a2, r, ?_, ?_⟩
    · cases c with
      | never => exact (List.mem_filter.1 hr).1
      | notYet => exact hr
    · unfold relTime finPos at hrel
      cases hcc : r.cohort with
      | num z =>
        rw [hcc] at hrel hc
        by_cases hz : 0 < z
        · simp only [if_pos hz, Option.map_some, Option.some.injEq] at hrel
          exact ⟨z, rfl, hz, hc.symm, hrel⟩
        · simp [hz] at hrel
      | inf => rw [hcc] at hrel; simp at hrel
      | nan => rw [hcc] at hrel; simp at hrel
  · intro ev hev
    rw [he] at hev
    exact (mem_relPeriods (mem_iw hev).1).2.2.1

/-! ### Overall effect -/

theorem postWeights_sum (df : List (Row K)) (post : List (Event K)) (h : post ≠ []) :
    ((postWeights df post).map (fun p => p.2)).sum = 1 ∧ ∀ p ∈ postWeights df post, 0 < p.2 := by
  have hpos : ∀ ev : Event K, (0 : K) < (countAt df ev.e : K) := by
    intro ev
    have : 0 < countAt df ev.e := lt_of_lt_of_le one_pos (le_max_right _ _)
    exact_mod_cast this
  have hs : (0 : K) < (((post.map (fun ev => countAt df ev.e)).sum : ℕ) : K) := by
    rw [cast_list_sum]
    apply List.sum_pos
    · intro x hx
      obtain ⟨ev, _, rfl⟩ := List.mem_map.1 hx
      exact hpos ev
    · simpa using h
  constructor
  · unfold postWeights
    rw [List.map_map]
    show (post.map (fun ev => (countAt df ev.e : K) / _)).sum = 1
    rw [sum_div_list, ← cast_list_sum]
    exact div_self hs.ne'
  · intro p hp
    obtain ⟨ev, _, rfl⟩ := List.mem_map.1 hp
    exact div_pos (hpos ev) hs

theorem combined_sum (pw : List (Event K × K)) (h : ∀ p ∈ pw, (p.1.weights.map (fun q => q.2)).sum = 1) :
    ((combined pw).map (fun q => q.2)).sum = (pw.map (fun p => p.2)).sum := by
  induction pw with
  | nil => rfl
  | cons p ps ih =>
    have ih' := ih (fun q hq => h q (List.mem_cons_of_mem _ hq))
    unfold combined at ih' ⊢
    rw [List.flatMap_cons, List.map_append, List.sum_append, ih', List.map_cons, List.sum_cons]
    congr 1
    rw [List.map_map]
    show (p.1.weights.map (fun q => p.2 * q.2)).sum = p.2
    rw [List.sum_map_mul_left, h p (List.mem_cons_self ..), mul_one]

theorem osum_map_eq {α : Type*} (l : List α) {f g : α → Option K} (h : ∀ a ∈ l, f a = g a) :
    osum (l.map f) = osum (l.map g) := by
  rw [List.map_congr_left h]

/-- C34: the overall effect and its standard error use the same convex weights on the cohort-by-event-time effects, all
with non-negative event time. Without such event times both are zero. -/
theorem C34_overall (reg : List (List K) → List K → Option (Reg K)) (ant : ℤ) (c : Control) (df : List (Row K))
    (R : Results K) (h : fit reg ant c df = .ok R) :
    ((∀ ev ∈ R.events, ev.e < 0) → R.overall = (some 0, some 0)) ∧
    ((∃ ev ∈ R.events, 0 ≤ ev.e) → ∃ (f : Reg K) (W : List (Key × K)),
      (∀ w ∈ W, 0 ≤ w.2 ∧ 0 ≤ w.1.2 ∧ w.1 ∈ R.cohortEffects.map (fun x => x.1)) ∧ (W.map (fun w => w.2)).sum = 1 ∧
      R.cohortEffects = (R.cohortEffects.map (fun x => x.1)).map
        (fun k => (k, f.coef ((R.cohortEffects.map (fun x => x.1)).idxOf k))) ∧
      R.overall.1 = osum (W.map (fun w => (f.coef ((R.cohortEffects.map (fun x => x.1)).idxOf w.1)).map
        (fun v => w.2 * v))) ∧
      R.overall.2 = (osum (W.flatMap (fun a => W.map (fun b =>
        (f.vcov ((R.cohortEffects.map (fun x => x.1)).idxOf a.1) ((R.cohortEffects.map (fun x => x.1)).idxOf b.1)).map
          (fun v => a.2 * v * b.2))))).map (fun v => max v 0)) := by
  obtain ⟨_, _, f, _, he, ho, hce, _⟩ := fit_ok h
  set ks := keys (groups df) (relPeriods ant df) (sample c df) with hks
  have hkeys : R.cohortEffects.map (fun x => x.1) = ks := by
    rw [hce, List.map_map]
    exact List.map_id ks
  constructor
  · intro hneg
    rw [ho]
    unfold overall
    have : R.events.filter (fun ev => decide (0 ≤ ev.e)) = [] := by
      rw [List.filter_eq_nil_iff]
      intro ev hev
      have := hneg ev hev
      simp only [decide_eq_true_eq]
      omega
    simp only
    rw [if_pos this]
  · rintro ⟨ev0, hev0, hpos0⟩
    have hne : R.events.filter (fun ev => decide (0 ≤ ev.e)) ≠ [] := by
      intro h0
      rw [List.filter_eq_nil_iff] at h0
      exact h0 ev0 hev0 (by simpa using hpos0)
    set post := R.events.filter (fun ev => decide (0 ≤ ev.e)) with hpost
    have hov : R.overall = (osum ((postWeights df post).map (fun p => p.1.effect.map (fun v => p.2 * v))),
        (quadForm ks f (combined (postWeights df post))).map (fun v => max v 0)) := by
      rw [ho]
      unfold overall
      simp only
      rw [if_neg hne]
    obtain ⟨hps, hpp⟩ := postWeights_sum df post hne
    have hmem : ∀ p ∈ postWeights df post, p.1 ∈ R.events ∧ 0 ≤ p.1.e := by
      intro p hp
      obtain ⟨ev, hev, rfl⟩ := List.mem_map.1 hp
      have := List.mem_filter.1 hev
      exact ⟨this.1, by simpa using this.2⟩
    have hevent : ∀ p ∈ postWeights df post, eventAt df (groups df) ks f p.1.e = some p.1 := by
      intro p hp
      have := (hmem p hp).1
      rw [he] at this
      exact (mem_iw this).2
    refine ⟨f, combined (postWeights df post), ?_, ?_, ?_, ?_, ?_⟩
    · intro w hw
      obtain ⟨p, hp, hq⟩ := List.mem_flatMap.1 hw
      obtain ⟨q, hq', rfl⟩ := List.mem_map.1 hq
      obtain ⟨_, hwt, _⟩ := eventAt_some (hevent p hp)
      rw [hwt] at hq'
      refine ⟨mul_nonneg (hpp p hp).le (weights_nonneg _ _ q hq'), (hmem p hp).2, ?_⟩
      rw [hkeys]
      obtain ⟨g, hg, rfl⟩ := List.mem_map.1 hq'
      have hk := (List.mem_filter.1 hg).2
      rw [decide_eq_true_eq] at hk
      exact hk
    · rw [combined_sum _ (fun p hp => (C34_weights reg ant c df R h p.1 (hmem p hp).1).2.1), hps]
    · rw [hkeys, hce]; rfl
    · rw [hov, hkeys]
      show osum _ = osum _
      unfold combined
      rw [List.map_flatMap, osum_flatMap]
      apply osum_map_eq
      intro p hp
      obtain ⟨_, _, _, _, heff, _, _⟩ := eventAt_some (hevent p hp)
      rw [heff, ← osum_map_mul, List.map_map]
      apply osum_map_eq
      intro q _
      show Option.map _ (Option.map _ (coefOf ks f (q.1, p.1.e))) = Option.map _ (coefOf ks f (q.1, p.1.e))
      cases coefOf ks f (q.1, p.1.e) with
      | none => rfl
      | some v => simp [mul_assoc]
    · rw [hov, hkeys]
      rfl

/-! ### C74: the control-group option -/

/-- C74: when every `first_treat` value is zero, positive or infinite, the two control-group options give the same
results: the option only decides whether rows with other values (missing, negative) stay in the regression. -/
theorem C74_control_option_inert (reg : List (List K) → List K → Option (Reg K)) (ant : ℤ) (df : List (Row K))
    (h : ∀ r ∈ df, r.cohort = .inf ∨ ∃ z : ℤ, r.cohort = .num z ∧ 0 ≤ z) :
    fit reg ant .never df = fit reg ant .notYet df := by
  have : sample .never df = sample .notYet df := by
    unfold sample
    rw [List.filter_eq_self]
    intro r hr
    rcases h r hr with h | ⟨z, h, hz⟩
    · rw [h]; rfl
    · rw [h]
      simp only [Coh.isNever, Coh.pos, Bool.or_eq_true, decide_eq_true_eq]
      omega
  unfold fit
  rw [this]

/-! ### C30: recoding never-treated units -/

/-- Recode `first_treat = 0` as infinity. -/
def recodeRow (r : Row K) : Row K := if r.cohort = .num 0 then { r with cohort := .inf } else r

def recode (df : List (Row K)) : List (Row K) := df.map recodeRow

theorem rc_cohort (r : Row K) : (recodeRow r).cohort = if r.cohort = .num 0 then .inf else r.cohort := by
  unfold recodeRow
  split_ifs <;> rfl

theorem rc_unit (r : Row K) : (recodeRow r).unit = r.unit := by unfold recodeRow; split_ifs <;> rfl
theorem rc_time (r : Row K) : (recodeRow r).time = r.time := by unfold recodeRow; split_ifs <;> rfl
theorem rc_y (r : Row K) : (recodeRow r).y = r.y := by unfold recodeRow; split_ifs <;> rfl

theorem rc_finPos (r : Row K) : finPos (recodeRow r).cohort = finPos r.cohort := by
  rw [rc_cohort]
  split_ifs with h
  · rw [h]; simp [finPos]
  · rfl

theorem rc_relTime (r : Row K) : relTime (recodeRow r) = relTime r := by
  unfold relTime
  rw [rc_finPos, rc_time]

theorem rc_never (r : Row K) : (recodeRow r).cohort.isNever = r.cohort.isNever := by
  rw [rc_cohort]
  split_ifs with h
  · rw [h]; rfl
  · rfl

theorem rc_valid (r : Row K) : ((recodeRow r).cohort.isNever || (recodeRow r).cohort.pos) =
    (r.cohort.isNever || r.cohort.pos) := by
  rw [rc_never, rc_cohort]
  split_ifs with h
  · rw [h]; rfl
  · rfl

theorem rc_eq {r : Row K} {z : ℤ} (hz : 0 < z) : (recodeRow r).cohort = .num z ↔ r.cohort = .num z := by
  rw [rc_cohort]
  split_ifs with h
  · rw [h]
    constructor
    · intro h'; cases h'
    · intro h'; cases h'; omega
  · rfl

theorem filter_recode (df : List (Row K)) (p q : Row K → Bool) (h : ∀ r, p (recodeRow r) = q r) :
    (recode df).filter p = recode (df.filter q) := by
  unfold recode
  rw [List.filter_map]
  congr 1
  apply List.filter_congr
  intro r _
  exact h r

theorem rc_groups_fin (df : List (Row K)) : (recode df).filterMap (fun r => finPos r.cohort) =
    df.filterMap (fun r => finPos r.cohort) := by
  unfold recode
  rw [List.filterMap_map]
  apply List.filterMap_congr
  intro r _
  exact rc_finPos r

theorem rc_relPeriods (ant : ℤ) (df : List (Row K)) : relPeriods ant (recode df) = relPeriods ant df := by
  unfold relPeriods
  have : (recode df).filterMap relTime = df.filterMap relTime := by
    unfold recode
    rw [List.filterMap_map]
    apply List.filterMap_congr
    intro r _
    exact rc_relTime r
  rw [this]

theorem rc_sample (c : Control) (df : List (Row K)) : sample c (recode df) = recode (sample c df) := by
  cases c with
  | never => exact filter_recode df _ _ rc_valid
  | notYet => rfl

/-- A row observed at an event time has a finite positive cohort. -/
theorem relTime_some {r : Row K} {e : ℤ} (h : relTime r = some e) : ∃ z, 0 < z ∧ r.cohort = .num z ∧ e = r.time - z := by
  unfold relTime finPos at h
  cases hcc : r.cohort with
  | num z =>
    rw [hcc] at h
    by_cases hz : 0 < z
    · simp only [if_pos hz, Option.map_some, Option.some.injEq] at h
      exact ⟨z, hz, rfl, h.symm⟩
    · simp [hz] at h
  | inf => rw [hcc] at h; simp at h
  | nan => rw [hcc] at h; simp at h

theorem groups_split (df : List (Row K)) : ∃ L : List ℤ, (∀ z ∈ L, 0 < z) ∧
    L = (df.filterMap (fun r => finPos r.cohort)).dedup.insertionSort (· ≤ ·) := by
  refine ⟨_, ?_, rfl⟩
  intro z hz
  rw [List.mem_insertionSort, List.mem_dedup, List.mem_filterMap] at hz
  obtain ⟨r, _, h⟩ := hz
  unfold finPos at h
  split at h
  · split_ifs at h with h1
    cases h; exact h1
  · cases h

/-- Infinity contributes no column. -/
theorem keys_inf (es : List ℤ) (df : List (Row K)) (L : List ℤ) (b : Bool) :
    keys (L.map Coh.num ++ (if b then [Coh.inf] else [])) es df = keys (L.map Coh.num) es df := by
  unfold keys
  rw [List.flatMap_append, List.filter_append]
  have : ((if b then [Coh.inf] else []).flatMap (fun g => es.map (fun e => (g, e)))).filter
      (fun k => df.any (fun r => decide (r.cohort = k.1) && decide (relTime r = some k.2))) = [] := by
    rw [List.filter_eq_nil_iff]
    intro k hk hany
    obtain ⟨g, hg, hk⟩ := List.mem_flatMap.1 hk
    have hg' : g = .inf := by
      cases b with
      | true => simpa using hg
      | false => simp at hg
    obtain ⟨e, _, rfl⟩ := List.mem_map.1 hk
    obtain ⟨r, _, hr⟩ := List.any_eq_true.1 hany
    simp only [Bool.and_eq_true, decide_eq_true_eq] at hr
    obtain ⟨z, _, hz, _⟩ := relTime_some hr.2
    rw [hz, hg'] at hr
    cases hr.1
  rw [this, List.append_nil]

theorem rc_keys (es : List ℤ) (df : List (Row K)) (L : List ℤ) (hL : ∀ z ∈ L, 0 < z) :
    keys (L.map Coh.num) es (recode df) = keys (L.map Coh.num) es df := by
  unfold keys
  apply List.filter_congr
  intro k hk
  obtain ⟨g, hg, hk⟩ := List.mem_flatMap.1 hk
  obtain ⟨z, hz, rfl⟩ := List.mem_map.1 hg
  obtain ⟨e, _, rfl⟩ := List.mem_map.1 hk
  unfold recode
  rw [List.any_map]
  congr 1
  funext r
  simp only [Function.comp]
  rw [rc_relTime]
  congr 1
  exact decide_eq_decide.2 (rc_eq (hL z hz))

theorem within_recode (df : List (Row K)) (x x' : Row K → K) (h : ∀ r, x (recodeRow r) = x' r) (r : Row K) :
    within (recode df) x (recodeRow r) = within df x' r := by
  unfold within
  simp only
  rw [filter_recode df (fun s => decide (s.unit = (recodeRow r).unit)) (fun s => decide (s.unit = r.unit))
      (fun s => by rw [rc_unit, rc_unit]),
    filter_recode df (fun s => decide (s.time = (recodeRow r).time)) (fun s => decide (s.time = r.time))
      (fun s => by rw [rc_time, rc_time])]
  have e : ∀ l : List (Row K), ((recode l).map x) = l.map x' := by
    intro l
    unfold recode
    rw [List.map_map]
    exact List.map_congr_left (fun s _ => h s)
  have el : ∀ l : List (Row K), (recode l).length = l.length := fun l => by simp [recode]
  rw [e, e, e, el, el, el, h]

theorem rc_design (df : List (Row K)) (ks : List Key) (h : ∀ k ∈ ks, ∃ z, 0 < z ∧ k.1 = .num z) :
    design (recode df) ks = design df ks := by
  unfold design
  apply List.map_congr_left
  intro k hk
  obtain ⟨z, hz, hkz⟩ := h k hk
  have hd : ∀ r : Row K, (dummy k (recodeRow r) : K) = dummy k r := by
    intro r
    unfold dummy
    rw [rc_relTime, hkz]
    by_cases hr : r.cohort = .num z ∧ relTime r = some k.2
    · rw [if_pos hr, if_pos ⟨(rc_eq hz).2 hr.1, hr.2⟩]
    · rw [if_neg hr, if_neg (fun h' => hr ⟨(rc_eq hz).1 h'.1, h'.2⟩)]
  show (df.map recodeRow).map _ = _
  rw [List.map_map]
  exact List.map_congr_left (fun r _ => within_recode df _ _ hd r)

theorem rc_response (df : List (Row K)) : response (recode df) = response df := by
  unfold response
  have h1 : (recode df).all (fun r => r.y.isSome) = df.all (fun r => r.y.isSome) := by
    unfold recode
    rw [List.all_map]
    congr 1
    funext r
    simp [rc_y]
  rw [h1]
  have h2 : (recode df).map (fun r => within (recode df) (fun s => s.y.getD 0) r) =
      df.map (fun r => within df (fun s => s.y.getD 0) r) := by
    show (df.map recodeRow).map _ = _
    rw [List.map_map]
    exact List.map_congr_left (fun r _ => within_recode df (fun s => s.y.getD 0)
      (fun s => s.y.getD 0) (fun s => by rw [rc_y]) r)
  rw [h2]

theorem rc_units (df : List (Row K)) : units (recode df) = units df := by
  unfold units recode
  rw [List.map_map]
  congr 1
  exact List.map_congr_left (fun r _ => rc_unit r)

theorem rc_unitNever (df : List (Row K)) (u : ℕ) : unitNever (recode df) u = unitNever df u := by
  unfold unitNever
  rw [filter_recode df _ (fun r => decide (r.unit = u)) (fun r => by rw [rc_unit])]
  unfold recode
  rw [List.map_map]
  congr 2
  exact List.map_congr_left (fun r _ => rc_never r)

theorem rc_nControl (df : List (Row K)) : nControl (recode df) = nControl df := by
  unfold nControl
  rw [rc_units]
  congr 1
  apply List.filter_congr
  intro u _
  rw [rc_unitNever]

theorem rc_unitCohort (df : List (Row K)) (u : ℕ) : unitCohort (recode df) u =
    if unitCohort df u = .num 0 then .inf else unitCohort df u := by
  unfold unitCohort
  rw [filter_recode df _ (fun r => decide (r.unit = u)) (fun r => by rw [rc_unit])]
  generalize df.filter (fun r => decide (r.unit = u)) = l
  induction l with
  | nil => rfl
  | cons r rs ih =>
    have hm : (recode (r :: rs)).map (fun r => r.cohort) = (recodeRow r).cohort :: (recode rs).map (fun r => r.cohort) := rfl
    rw [hm, List.map_cons, List.find?_cons, List.find?_cons, rc_cohort]
    by_cases h0 : r.cohort = .num 0
    · rw [if_pos h0, h0]
      rfl
    · rw [if_neg h0]
      by_cases hn : r.cohort = .nan
      · simp only [hn, ne_eq, not_true_eq_false, decide_false]
        exact ih
      · simp only [ne_eq, hn, not_false_eq_true, decide_true]
        show r.cohort = if r.cohort = .num 0 then .inf else r.cohort
        rw [if_neg h0]

theorem rc_size (df : List (Row K)) {z : ℤ} (hz : 0 < z) : size (recode df) (.num z) = size df (.num z) := by
  unfold size
  rw [rc_units]
  congr 1
  apply List.filter_congr
  intro u _
  rw [rc_unitCohort]
  apply decide_eq_decide.2
  split_ifs with h
  · rw [h]
    constructor
    · intro h'; cases h'
    · intro h'; cases h'; omega
  · rfl

theorem rc_eventAt (df : List (Row K)) (L : List ℤ) (hL : ∀ z ∈ L, 0 < z) (b b' : Bool) (ks : List Key)
    (hk : ∀ k ∈ ks, ∃ z, 0 < z ∧ k.1 = .num z) (f : Reg K) (e : ℤ) :
    eventAt (recode df) (L.map Coh.num ++ (if b' then [Coh.inf] else [])) ks f e =
      eventAt df (L.map Coh.num ++ (if b then [Coh.inf] else [])) ks f e := by
  have hc : ∀ b : Bool, cohortsAt (L.map Coh.num ++ (if b then [Coh.inf] else [])) ks e = cohortsAt (L.map Coh.num) ks e := by
    intro b
    unfold cohortsAt
    rw [List.filter_append]
    have : (if b then [Coh.inf] else []).filter (fun g => decide ((g, e) ∈ ks)) = [] := by
      rw [List.filter_eq_nil_iff]
      intro g hg hm
      have hg' : g = .inf := by
        cases b with
        | true => simpa using hg
        | false => simp at hg
      rw [decide_eq_true_eq] at hm
      obtain ⟨z, _, hz⟩ := hk _ hm
      rw [hg'] at hz
      cases hz
    rw [this, List.append_nil]
  have hcs : ∀ g ∈ cohortsAt (L.map Coh.num) ks e, size (recode df) g = size df g := by
    intro g hg
    obtain ⟨z, hz, rfl⟩ := List.mem_map.1 (List.mem_filter.1 hg).1
    exact rc_size df (hL z hz)
  have ht : totalSize (recode df) (cohortsAt (L.map Coh.num) ks e) = totalSize df (cohortsAt (L.map Coh.num) ks e) := by
    unfold totalSize
    rw [List.map_congr_left hcs]
  have hw : weights (recode df) (cohortsAt (L.map Coh.num) ks e) = weights df (cohortsAt (L.map Coh.num) ks e) := by
    unfold weights
    rw [ht]
    exact List.map_congr_left (fun g hg => by rw [hcs g hg])
  unfold eventAt
  simp only
  rw [hc b, hc b', ht, hw]

theorem rc_countAt (df : List (Row K)) (e : ℤ) : countAt (recode df) e = countAt df e := by
  unfold countAt
  rw [filter_recode df _ (fun r => decide (relTime r = some e)) (fun r => by rw [rc_relTime])]
  simp [recode]

theorem rc_overall (df : List (Row K)) (ks : List Key) (f : Reg K) (es : List (Event K)) :
    overall (recode df) ks f es = overall df ks f es := by
  have : ∀ p : List (Event K), postWeights (recode df) p = postWeights df p := by
    intro p
    unfold postWeights
    simp only [rc_countAt]
  unfold overall
  simp only [this]

/-- C30, proved part: coding never-treated units as infinity instead of 0 changes neither the event study nor the overall
effect nor the cohort effects nor the number of control units. -/
theorem C30_sunab_partial (reg : List (List K) → List K → Option (Reg K)) (ant : ℤ) (c : Control) (df : List (Row K))
    (R : Results K) (h : fit reg ant c df = .ok R) :
    ∃ R', fit reg ant c (recode df) = .ok R' ∧ R'.events = R.events ∧ R'.overall = R.overall ∧
      R'.cohortEffects = R.cohortEffects ∧ R'.nControl = R.nControl ∧ R'.nObs = R.nObs := by
  obtain ⟨h1, h2, f, hs, he, ho, hce, _, _, hnc, hno⟩ := fit_ok h
  obtain ⟨L, hL, hLdef⟩ := groups_split df
  set b := df.any (fun r => decide (r.cohort = .inf)) with hb
  set b' := (recode df).any (fun r => decide (r.cohort = .inf)) with hb'
  have hg : groups df = L.map Coh.num ++ (if b then [Coh.inf] else []) := by unfold groups; rw [hLdef]
  have hg' : groups (recode df) = L.map Coh.num ++ (if b' then [Coh.inf] else []) := by
    unfold groups; rw [hLdef, rc_groups_fin]
  -- there are columns, hence finite groups
  have hks : keys (groups (recode df)) (relPeriods ant (recode df)) (sample c (recode df)) =
      keys (groups df) (relPeriods ant df) (sample c df) := by
    rw [hg, hg', keys_inf, keys_inf, rc_relPeriods, rc_sample, rc_keys _ _ _ hL]
  have hkpos : ∀ k ∈ keys (groups df) (relPeriods ant df) (sample c df), ∃ z, 0 < z ∧ k.1 = .num z := by
    intro k hk
    obtain ⟨_, _, r, _, hc, hr⟩ := mem_keys.1 hk
    obtain ⟨z, hz, hrz, _⟩ := relTime_some hr
    exact ⟨z, hz, hc.symm.trans hrz⟩
  have hsat : saturated reg (groups (recode df)) (relPeriods ant (recode df)) (sample c (recode df)) =
      saturated reg (groups df) (relPeriods ant df) (sample c df) := by
    unfold saturated
    simp only
    rw [hks, rc_sample, rc_response, rc_design _ _ hkpos]
  have hne : groups (recode df) ≠ [] := by
    intro h0
    rw [h0] at hks
    have hk0 : keys (groups df) (relPeriods ant df) (sample c df) = [] := by rw [← hks]; rfl
    have herr : saturated reg (groups df) (relPeriods ant df) (sample c df) = .error .noInteraction := by
      unfold saturated
      simp only
      rw [if_pos hk0]
    rw [herr] at hs
    cases hs
  have hev : iwEffects (recode df) (groups (recode df)) (relPeriods ant (recode df))
      (keys (groups df) (relPeriods ant df) (sample c df)) f = R.events := by
    rw [he]
    unfold iwEffects
    rw [rc_relPeriods, hg']
    apply List.filterMap_congr
    intro e _
    conv_rhs => rw [hg]
    rw [← hg]
    exact (rc_eventAt df L hL b b' _ hkpos f e).trans (by rw [← hg])
  refine ⟨{ groups := groups (recode df), nTreated := nTreated (recode df), nControl := nControl (recode df),
            nObs := (recode df).length, events := R.events, overall := R.overall, cohortEffects := R.cohortEffects },
    ?_, rfl, rfl, rfl, ?_, ?_⟩
  · unfold fit
    rw [rc_nControl, if_neg h1, if_neg hne, hsat, hs]
    simp only
    rw [hev, rc_overall, ← ho, ← hce]
  · rw [hnc]; exact rc_nControl df
  · rw [hno]; simp [recode]

/-- Demo data: two cohorts, units coded 0 and infinity, three periods. -/
def demo : List (Row ℚ) :=
  [⟨0, 1, 1, .num 2, some 1⟩, ⟨1, 1, 2, .num 2, some 4⟩, ⟨2, 1, 3, .num 2, some 7⟩,
   ⟨3, 2, 1, .num 3, some 2⟩, ⟨4, 2, 2, .num 3, some 3⟩, ⟨5, 2, 3, .num 3, some 9⟩,
   ⟨6, 3, 1, .num 0, some 5⟩, ⟨7, 3, 2, .num 0, some 6⟩, ⟨8, 3, 3, .num 0, some 7⟩,
   ⟨9, 4, 1, .num 2, some 1⟩, ⟨10, 4, 2, .num 2, some 5⟩, ⟨11, 4, 3, .num 2, some 7⟩]

/-- C30 is false of the Sun-Abraham results: coding never-treated units as infinity adds infinity to the treatment groups
and counts those units as treated as well as control. -/
theorem C30_sunab_refuted : ∃ df : List (Row ℚ), ∀ reg : List (List ℚ) → List ℚ → Option (Reg ℚ),
    (∀ X y, (reg X y).isSome) → ∃ R R', fit reg 0 .never df = .ok R ∧ fit reg 0 .never (recode df) = .ok R' ∧
      R.nTreated = 3 ∧ R'.nTreated = 4 ∧ R'.nControl = 1 ∧ R.groups = [.num 2, .num 3] ∧
      R'.groups = [.num 2, .num 3, .inf] := by
  refine ⟨demo, fun reg hreg => ?_⟩
  have hfit : ∃ R, fit reg 0 .never demo = .ok R := by
    unfold fit
    rw [if_neg (by decide +kernel), if_neg (by decide +kernel)]
    unfold saturated
    simp only
    rw [if_neg (by decide +kernel)]
    have hr : ∃ y, response (sample .never demo) = some y := by
      unfold response
      rw [if_pos (by decide +kernel)]
      exact ⟨_, rfl⟩
    obtain ⟨y, hy⟩ := hr
    rw [hy]
    simp only
    obtain ⟨f, hf⟩ := Option.isSome_iff_exists.1 (hreg (design (sample .never demo)
      (keys (groups demo) (relPeriods 0 demo) (sample .never demo))) y)
    rw [hf]
    exact ⟨_, rfl⟩
  obtain ⟨R, hR⟩ := hfit
  obtain ⟨R', hR', _⟩ := C30_sunab_partial reg 0 .never demo R hR
  obtain ⟨_, _, _, _, _, _, _, g1, t1, _, _⟩ := fit_ok hR
  obtain ⟨_, _, _, _, _, _, _, g2, t2, c2, _⟩ := fit_ok hR'
  refine ⟨R, R', hR, hR', ?_, ?_, ?_, ?_, ?_⟩
  · rw [t1]; decide +kernel
  · rw [t2]; decide +kernel
  · rw [c2]; decide +kernel
  · rw [g1]; decide +kernel
  · rw [g2]; decide +kernel

/-- A regression result for the demo data: coefficient `j + 1` and a diagonal covariance. -/
def demoReg : List (List ℚ) → List ℚ → Option (Reg ℚ) :=
  fun _ _ => some ⟨fun j => some (j + 1), fun i j => some (if i = j then 2 else 0)⟩

/-- Event times and weights of a fit, for examples. -/
def eventWeights (r : Except Err (Results ℚ)) : List (ℤ × List (Coh × ℚ)) :=
  match r with
  | .error _ => []
  | .ok R => R.events.map (fun ev => (ev.e, ev.weights))

/-- Effects, squared standard errors and the overall pair of a fit, for examples. -/
def effects (r : Except Err (Results ℚ)) : List (Option ℚ) :=
  match r with
  | .error _ => []
  | .ok R => R.events.map (fun ev => ev.effect) ++ R.events.map (fun ev => ev.var) ++ [R.overall.1, R.overall.2]

/-- Cohort 2 (two units) and cohort 3 (one unit) share event time 0 with weights 2/3 and 1/3; -1 is not reported. -/
example : eventWeights (fit demoReg 0 .never demo) =
    [(-2, [(.num 3, 1)]), (0, [(.num 2, 2/3), (.num 3, 1/3)]), (1, [(.num 2, 1)])] := by decide +kernel

example : effects (fit demoReg 0 .never demo) =
    [some 3, some 2, some 2, some 2, some (10/9), some 2, some 2, some (18/25)] := by decide +kernel

/-! ### C35: bootstrap samples -/

/-- Specification: the rows of each drawn unit, in order, with a fresh unit identifier per draw. -/
def expected (df : List (Row K)) (draws : List ℕ) : List (Row K) :=
  draws.zipIdx.flatMap (fun d => (df.filter (fun r => decide (r.unit = d.1))).map (fun r => { r with unit := d.2 }))

/-- The index labels are the positions (default index). -/
def DefaultIndex (df : List (Row K)) : Prop := ∀ i (h : i < df.length), (df[i]).label = (i : ℤ)

theorem allSome_map {α β : Type*} (l : List α) (f : α → Option β) (g : α → β) (h : ∀ a ∈ l, f a = some (g a)) :
    allSome (l.map f) = some (l.map g) := by
  induction l with
  | nil => rfl
  | cons a as ih =>
    rw [List.map_cons, h a (List.mem_cons_self ..)]
    unfold allSome
    rw [ih (fun b hb => h b (List.mem_cons_of_mem _ hb))]
    rfl

theorem zip_replicate (l : List (Row K)) (i : ℕ) (m : List (Row K)) (ids : List ℕ) :
    List.zipWith (fun r i => ({ r with unit := i } : Row K)) (l ++ m) (List.replicate l.length i ++ ids) =
      l.map (fun r => { r with unit := i }) ++ List.zipWith (fun r i => ({ r with unit := i } : Row K)) m ids := by
  induction l with
  | nil => rfl
  | cons r rs ih =>
    simp only [List.cons_append, List.length_cons, List.replicate_succ, List.zipWith_cons_cons, List.map_cons, ih]

theorem zip_ids (df : List (Row K)) (draws : List ℕ) (i : ℕ) :
    List.zipWith (fun r i => ({ r with unit := i } : Row K))
      (draws.flatMap (fun u => df.filter (fun r => decide (r.unit = u)))) (newIds df i draws) =
    (draws.zipIdx i).flatMap (fun d => (df.filter (fun r => decide (r.unit = d.1))).map (fun r => { r with unit := d.2 })) := by
  induction draws generalizing i with
  | nil => rfl
  | cons u us ih =>
    rw [List.flatMap_cons, newIds, zip_replicate, ih, List.zipIdx_cons, List.flatMap_cons]

/-- C35, proved part: with a default index (labels equal positions in the estimation sample) every replicate consists of
exactly the rows of the drawn units, for every vector of draws. -/
theorem C35_default_index_partial (df : List (Row K)) (h : DefaultIndex df) (draws : List ℕ) :
    bootSample df draws = some (expected df draws) := by
  have hil : ∀ r ∈ df, iloc df r.label = some r := by
    intro r hr
    obtain ⟨i, hi, rfl⟩ := List.getElem_of_mem hr
    rw [h i hi]
    unfold iloc
    rw [if_pos (Int.natCast_nonneg i), Int.toNat_natCast]
    exact List.getElem?_eq_getElem hi
  have e1 : (bootIndices df draws).map (iloc df) =
      (draws.flatMap (fun u => df.filter (fun r => decide (r.unit = u)))).map (fun r => iloc df r.label) := by
    unfold bootIndices
    rw [List.map_flatMap, List.map_flatMap]
    apply List.flatMap_congr
    intro u _
    rw [List.map_map]
    rfl
  have e2 : allSome ((bootIndices df draws).map (iloc df)) =
      some ((draws.flatMap (fun u => df.filter (fun r => decide (r.unit = u)))).map (fun r => r)) := by
    rw [e1]
    apply allSome_map
    intro r hr
    obtain ⟨u, _, hu⟩ := List.mem_flatMap.1 hr
    exact hil r (List.mem_filter.1 hu).1
  unfold bootSample
  rw [e2, List.map_id', Option.map_some, zip_ids]
  rfl

/-- The demo sample with its index reversed, as after sorting in descending order. -/
def demoRev : List (Row ℚ) := demo.zipIdx.map (fun p => { p.1 with label := 11 - p.2 })

/-- C35 is false for other indices: with a reversed index, drawing units 3, 1, 2, 4 gives a sample in which the rows
filed under the first draw (unit 3, never treated) are the rows of unit 2 (cohort 3), and with labels beyond the number
of rows the bootstrap stops with an IndexError. -/
theorem C35_refuted :
    (∃ rows, bootSample demoRev [3, 1, 2, 4] = some rows ∧ rows ≠ expected demoRev [3, 1, 2, 4] ∧
      (rows.filter (fun r => decide (r.unit = 0))).map (fun r => r.cohort) = [.num 3, .num 3, .num 3] ∧
      (expected demoRev [3, 1, 2, 4]).filter (fun r => decide (r.unit = 0)) ≠ [] ∧
      ∀ r ∈ (expected demoRev [3, 1, 2, 4]).filter (fun r => decide (r.unit = 0)), r.cohort = .num 0) ∧
    bootSample (demo.map (fun r => { r with label := r.label + 100 })) [1, 2, 3, 4] = none := by
  refine ⟨⟨(bootSample demoRev [3, 1, 2, 4]).getD [], by decide +kernel, by decide +kernel, by decide +kernel,
    by decide +kernel, by decide +kernel⟩, by decide +kernel⟩

/-- C35 is also false of default indices: the default option removes rows with a missing cohort before resampling, which
leaves gaps in the index, so the positions no longer match the labels. -/
theorem C35_filtered_refuted : ∃ df : List (Row ℚ), DefaultIndex df ∧
    bootSample (sample .never df) [1, 2, 3, 4] = none := by
  refine ⟨⟨0, 9, 1, .nan, some 0⟩ :: demo.map (fun r => { r with label := r.label + 1 }), ?_, by decide +kernel⟩
  intro i h
  have h' : i < 13 := h
  interval_cases i <;> rfl

example : DefaultIndex demo := by
  intro i h
  have h' : i < 12 := h
  interval_cases i <;> rfl

/-! ### C73: failed replicates -/

/-- A replicate in which the regression cannot be run counts as a draw equal to the original estimate. -/
theorem replicate_failed (reg : List (List K) → List K → Option (Reg K)) (gs : List Coh) (es : List ℤ)
    (orig : List (Event K)) (o : Option K) (dfb : List (Row K)) (e : Err) (h : saturated reg gs es dfb = .error e) :
    replicate reg gs es orig o dfb = (orig.map (fun ev => ev.effect), o) := by
  unfold replicate
  rw [h]

/-- A sample without treated units cannot be fitted, whatever the regression routine. -/
theorem saturated_no_treated (reg : List (List K) → List K → Option (Reg K)) (gs : List Coh) (es : List ℤ)
    (dfb : List (Row K)) (h : ∀ r ∈ dfb, relTime r = none) : saturated reg gs es dfb = .error .noInteraction := by
  unfold saturated
  simp only
  rw [if_pos]
  unfold keys
  rw [List.filter_eq_nil_iff]
  intro k _ hany
  obtain ⟨r, hr, hh⟩ := List.any_eq_true.1 hany
  simp only [Bool.and_eq_true, decide_eq_true_eq] at hh
  rw [h r hr] at hh
  cases hh.2

/-- C73 is false: if no replicate contains a treated unit, none can be estimated, yet the bootstrap reports standard error
0, a one-point confidence interval and the smallest possible p-value for every non-zero estimate. -/
theorem C73_failed_replicates_refuted [FloorSemiring K] (reg : List (List K) → List K → Option (Reg K))
    (gs : List Coh) (es : List ℤ) (orig : List (Event K)) (v alpha : K) (hv : v ≠ 0) (h0 : 0 ≤ alpha) (h1 : alpha ≤ 1)
    (samples : List (List (Row K))) (hB : 2 ≤ samples.length) (hs : ∀ dfb ∈ samples, ∀ r ∈ dfb, relTime r = none) :
    let draws := samples.map (fun dfb => ((replicate reg gs es orig (some v) dfb).2).getD 0)
    BootStats.var1 draws = some 0 ∧ BootStats.percentileCI draws alpha = (v, v) ∧
    BootStats.pvalue v draws samples.length = 1 / ((samples.length : K) + 1) := by
  intro draws
  have hd : draws = List.replicate samples.length v := by
    show samples.map _ = _
    rw [List.eq_replicate_iff]
    refine ⟨by simp, ?_⟩
    intro b hb
    obtain ⟨dfb, hdfb, rfl⟩ := List.mem_map.1 hb
    rw [replicate_failed reg gs es orig (some v) dfb _ (saturated_no_treated reg gs es dfb (hs dfb hdfb))]
    rfl
  have hne : draws ≠ [] := by
    rw [hd]; intro h; rw [List.replicate_eq_nil_iff] at h; omega
  refine ⟨?_, ?_, ?_⟩
  · rw [hd]
    unfold BootStats.var1
    rw [List.length_replicate, if_neg (by omega)]
    congr 1
    have hm : (List.replicate samples.length v).sum / (samples.length : K) = v := by
      rw [List.sum_replicate, nsmul_eq_mul]
      have : (samples.length : K) ≠ 0 := by
        have : samples.length ≠ 0 := by omega
        exact_mod_cast this
      field_simp
    rw [hm, List.map_replicate, List.sum_replicate]
    simp
  · have hr := BootStats.C27_interval_range draws hne alpha v v h0 h1 (by
      intro d hdm
      rw [hd] at hdm
      rw [List.eq_of_mem_replicate hdm]
      exact ⟨le_refl _, le_refl _⟩)
    have ho := BootStats.C27_interval_ordered draws hne alpha h0 h1
    exact Prod.ext (le_antisymm (ho.trans hr.2) hr.1) (le_antisymm hr.2 (hr.1.trans ho))
  · unfold BootStats.pvalue
    simp only
    have hz : (if 0 ≤ v then draws.filter (fun d => decide (d ≤ 0)) else draws.filter (fun d => decide (0 ≤ d))) = [] := by
      split_ifs with h
      · rw [List.filter_eq_nil_iff]
        intro d hdm
        rw [hd] at hdm
        rw [List.eq_of_mem_replicate hdm, decide_eq_true_eq]
        exact not_le.2 (lt_of_le_of_ne h (Ne.symm hv))
      · rw [List.filter_eq_nil_iff]
        intro d hdm
        rw [hd] at hdm
        rw [List.eq_of_mem_replicate hdm, decide_eq_true_eq]
        exact h
    rw [hz]
    simp only [List.length_nil, Nat.cast_zero, zero_div, mul_zero]
    rw [min_eq_left zero_le_one, max_eq_right]
    positivity

/-- Drawing only the never-treated unit of the demo data gives such a sample. -/
example : ∃ rows, bootSample demo [3, 3, 3, 3] = some rows ∧ rows.length = 12 ∧ ∀ r ∈ rows, relTime r = none := by
  refine ⟨(bootSample demo [3, 3, 3, 3]).getD [], by decide +kernel, by decide +kernel, by decide +kernel⟩

end DiffDiff.SunAb
