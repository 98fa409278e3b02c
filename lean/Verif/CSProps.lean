/-
Properties of the Callaway-Sant'Anna model: C22-C24 (base period, control group, identification).
-/
import Verif.CS

set_option linter.unusedSectionVars false

namespace DiffDiff.CS

variable {K : Type*} [Field K] [LinearOrder K] [IsStrictOrderedRing K]
variable {n : ℕ}

/-! ### Lemmas -/

theorem attGt_some {c : Cfg} {P : Panel n K} {g : Coh} {t : ℤ} {e : Entry n K} (h : attGt c P g t = some e) :
    ∃ b, basePeriod c g t = some b ∧ b ∈ P.times ∧ t ∈ P.times ∧
      (treatedSet P g b t).card ≠ 0 ∧ (controlSet c P g b t).card ≠ 0 ∧
      e = estimate c.method (treatedSet P g b t) (controlSet c P g b t) (change P b t) := by
  unfold attGt at h
  split at h
  · exact absurd h (by simp)
  · rename_i b hb
    split_ifs at h with h1 h2 h3
    refine ⟨b, hb, by simpa using h1, by simpa using h2, ?_, ?_, by simpa using h.symm⟩
    · exact fun h' => h3 (Or.inl h')
    · exact fun h' => h3 (Or.inr h')

theorem mem_treatedSet {P : Panel n K} {g : Coh} {b t : ℤ} {u : Fin n} :
    u ∈ treatedSet P g b t ↔ P.cohort u = g ∧ (P.y u b).isSome ∧ (P.y u t).isSome := by
  simp [treatedSet, validUnit]

theorem mem_controlSet {c : Cfg} {P : Panel n K} {g : Coh} {b t : ℤ} {u : Fin n} :
    u ∈ controlSet c P g b t ↔ controlMask c P g t u = true ∧ (P.y u b).isSome ∧ (P.y u t).isSome := by
  simp [controlSet, validUnit]

theorem basePeriod_num (c : Cfg) (z t : ℤ) : basePeriod c (.num z) t =
    some (if c.base = .varying ∧ t < z - c.ant then t - 1 else z - 1 - c.ant) := by
  unfold basePeriod
  cases hb : c.base
  · simp only [Coh.pre, decide_eq_true_eq, true_and]
    split_ifs <;> rfl
  · simp

/-! ### C22 -/

/-- C22: for a dated cohort a base period always exists, and it lies strictly before the first treated (or, with
anticipation, affected) period. -/
theorem C22_before_treatment (c : Cfg) (z t b : ℤ) (h : basePeriod c (.num z) t = some b) : b < z - c.ant := by
  rw [basePeriod_num] at h
  have := Option.some.inj h
  split_ifs at this with h1 <;> omega

/-- C22: 'varying' compares a pre-treatment period with the immediately preceding one. -/
theorem C22_varying_pre (c : Cfg) (z t : ℤ) (hb : c.base = .varying) (ht : t < z - c.ant) :
    basePeriod c (.num z) t = some (t - 1) := by
  rw [basePeriod_num, if_pos ⟨hb, ht⟩]

/-- C22: from the treatment date (less anticipation) on both settings use the last unaffected period. -/
theorem C22_post_base (c : Cfg) (z t : ℤ) (ht : z - c.ant ≤ t) :
    basePeriod c (.num z) t = some (z - 1 - c.ant) := by
  rw [basePeriod_num, if_neg (by omega)]

/-- C22: hence post-treatment effects, variances, counts and influence functions are identical under both
settings. -/
theorem C22_post_same (c : Cfg) (P : Panel n K) (z t : ℤ) (ht : z - c.ant ≤ t) :
    attGt { c with base := .varying } P (.num z) t = attGt { c with base := .universal } P (.num z) t := by
  unfold attGt
  rw [C22_post_base _ z t (by simpa using ht), C22_post_base _ z t (by simpa using ht)]
  rfl

/-- C22: an effect is reported only if both the base period and t are in the data, and then it is computed from
units observed in both. -/
theorem C22_observed (c : Cfg) (P : Panel n K) (g : Coh) (t : ℤ) (e : Entry n K) (h : attGt c P g t = some e) :
    ∃ b, basePeriod c g t = some b ∧ b ∈ P.times ∧ t ∈ P.times ∧
      ∀ u, u ∈ e.treated ∨ u ∈ e.control → (P.y u b).isSome ∧ (P.y u t).isSome := by
  obtain ⟨b, hb, h1, h2, _, _, rfl⟩ := attGt_some h
  refine ⟨b, hb, h1, h2, ?_⟩
  rintro u (hu | hu)
  · exact (mem_treatedSet.1 hu).2
  · exact (mem_controlSet.1 hu).2

/-- C22: conversely an effect is reported whenever both periods are in the data and both sides have at least one
unit observed in both. -/
theorem C22_reported (c : Cfg) (P : Panel n K) (g : Coh) (t b : ℤ) (hb : basePeriod c g t = some b)
    (h1 : b ∈ P.times) (h2 : t ∈ P.times)
    (hT : ∃ u, P.cohort u = g ∧ (P.y u b).isSome ∧ (P.y u t).isSome)
    (hC : ∃ u, controlMask c P g t u = true ∧ (P.y u b).isSome ∧ (P.y u t).isSome) :
    (attGt c P g t).isSome := by
  obtain ⟨u, hu⟩ := hT
  obtain ⟨v, hv⟩ := hC
  have hT' : (treatedSet P g b t).card ≠ 0 := Finset.card_ne_zero.2 ⟨u, mem_treatedSet.2 hu⟩
  have hC' : (controlSet c P g b t).card ≠ 0 := Finset.card_ne_zero.2 ⟨v, mem_controlSet.2 hv⟩
  unfold attGt
  rw [hb]
  simp [h1, h2, hT', hC']

/-- A dated, post-treatment pair: the specification of "t is a treated or anticipation period of cohort g". -/
def IsPost (ant : ℤ) (g : Coh) (t : ℤ) : Prop := ∃ z, g = .num z ∧ z - ant ≤ t

instance (ant : ℤ) (g : Coh) (t : ℤ) : Decidable (IsPost ant g t) :=
  match g with
  | .num z => if h : z - ant ≤ t then isTrue ⟨z, rfl, h⟩
      else isFalse (by rintro ⟨z', hz, hz'⟩; cases hz; exact h hz')
  | .inf => isFalse (by rintro ⟨z', hz, _⟩; cases hz)
  | .nan => isFalse (by rintro ⟨z', hz, _⟩; cases hz)

theorem post_iff (ant : ℤ) (g : Coh) (t : ℤ) : g.post ant t = true ↔ IsPost ant g t := by
  cases g with
  | num z =>
    constructor
    · intro h; exact ⟨z, rfl, by simpa [Coh.post] using h⟩
    · rintro ⟨z', hz, h⟩; cases hz; simpa [Coh.post] using h
  | inf => constructor
           · intro h; simp [Coh.post] at h
           · rintro ⟨z', hz, _⟩; cases hz
  | nan => constructor
           · intro h; simp [Coh.post] at h
           · rintro ⟨z', hz, _⟩; cases hz

theorem groups_ne_nan {P : Panel n K} {g : Coh} (h : g ∈ groups P) : g ≠ .nan := by
  rw [groups, List.mem_insertionSort, List.mem_filter] at h
  rintro rfl
  simp [Coh.pos] at h

theorem not_pre_iff {ant : ℤ} {g : Coh} (hg : g ≠ .nan) (t : ℤ) : (! g.pre ant t) = true ↔ IsPost ant g t := by
  rw [← post_iff]
  cases g with
  | num z => simp [Coh.pre, Coh.post]
  | inf => simp [Coh.pre, Coh.post]
  | nan => exact absurd rfl hg

theorem filter_filterMap {α β : Type*} (p : β → Bool) (q : α → Bool) (f : α → Option β) (l : List α)
    (h : ∀ a ∈ l, ∀ b, f a = some b → p b = q a) :
    (l.filterMap f).filter p = (l.filter q).filterMap f := by
  induction l with
  | nil => rfl
  | cons a l ih =>
    have ih' := ih (fun x hx => h x (List.mem_cons_of_mem _ hx))
    cases hf : f a with
    | none =>
      rw [List.filterMap_cons_none hf, ih', List.filter_cons]
      split_ifs
      · rw [List.filterMap_cons_none hf]
      · rfl
    | some b =>
      have hp := h a (by simp) b hf
      rw [List.filterMap_cons_some hf, List.filter_cons, List.filter_cons, hp, ih']
      split_ifs
      · rw [List.filterMap_cons_some hf]
      · rfl

theorem filterMap_congr' {α β : Type*} (f g : α → Option β) (l : List α) (h : ∀ a ∈ l, f a = g a) :
    l.filterMap f = l.filterMap g := by
  induction l with
  | nil => rfl
  | cons a l ih =>
    rw [List.filterMap_cons, List.filterMap_cons, h a (by simp),
      ih (fun x hx => h x (List.mem_cons_of_mem _ hx))]

theorem filter_flatMap' {α β : Type*} (p : β → Bool) (f : α → List β) (l : List α) :
    (l.flatMap f).filter p = l.flatMap (fun a => (f a).filter p) := by
  induction l with
  | nil => rfl
  | cons a l ih => rw [List.flatMap_cons, List.flatMap_cons, List.filter_append, ih]

theorem flatMap_congr' {α β : Type*} (f g : α → List β) (l : List α) (h : ∀ a ∈ l, f a = g a) :
    l.flatMap f = l.flatMap g := by
  induction l with
  | nil => rfl
  | cons a l ih =>
    rw [List.flatMap_cons, List.flatMap_cons, h a (by simp), ih (fun x hx => h x (List.mem_cons_of_mem _ hx))]

/-- The post-treatment part of `group_time_effects`, in terms of single effects. -/
theorem effects_post (c : Cfg) (P : Panel n K) :
    (effects c P).filter (fun x => decide (IsPost c.ant x.1.1 x.1.2)) =
      (groups P).flatMap (fun g => (P.times.filter (fun t => decide (IsPost c.ant g t))).filterMap
        (fun t => (attGt c P g t).map (fun e => ((g, t), e)))) := by
  rw [effects, filter_flatMap']
  refine flatMap_congr' _ _ _ (fun g _ => ?_)
  rw [filter_filterMap _ (fun t => decide (IsPost c.ant g t))]
  · congr 1
    unfold validPeriods
    cases c.base with
    | varying =>
      simp only [List.filter_filter]
      refine List.filter_congr (fun t _ => ?_)
      by_cases h : IsPost c.ant g t
      · simp [h, (post_iff _ _ _).2 h]
      · simp [h]
    | universal =>
      simp only [List.filter_filter]
      refine List.filter_congr (fun t _ => ?_)
      by_cases h : IsPost c.ant g t
      · obtain ⟨z, rfl, hz⟩ := h
        have : t ≠ z - 1 - c.ant := by omega
        simp [this]
      · simp [h]
  · rintro t _ x hx
    rw [Option.map_eq_some_iff] at hx
    obtain ⟨e, _, rfl⟩ := hx
    rfl

/-- C22: the whole list of reported post-treatment effects is the same under both base-period settings. -/
theorem C22_post_effects_same (c : Cfg) (P : Panel n K) :
    (effects { c with base := .varying } P).filter (fun x => decide (IsPost c.ant x.1.1 x.1.2)) =
    (effects { c with base := .universal } P).filter (fun x => decide (IsPost c.ant x.1.1 x.1.2)) := by
  have h1 := effects_post { c with base := .varying } P
  have h2 := effects_post { c with base := .universal } P
  simp only at h1 h2
  rw [h1, h2]
  refine flatMap_congr' _ _ _ (fun g _ => filterMap_congr' _ _ _ (fun t ht => ?_))
  rw [List.mem_filter, decide_eq_true_eq] at ht
  obtain ⟨_, z, rfl, hz⟩ := ht
  rw [C22_post_same c P z t hz]

theorem mem_effects {c : Cfg} {P : Panel n K} {x : (Coh × ℤ) × Entry n K} (h : x ∈ effects c P) :
    x.1.1 ∈ groups P ∧ x.1.2 ∈ validPeriods c P x.1.1 ∧ attGt c P x.1.1 x.1.2 = some x.2 := by
  rw [effects, List.mem_flatMap] at h
  obtain ⟨g, hg, h⟩ := h
  rw [List.mem_filterMap] at h
  obtain ⟨t, ht, h⟩ := h
  rw [Option.map_eq_some_iff] at h
  obtain ⟨e, he, rfl⟩ := h
  exact ⟨hg, ht, he⟩

theorem postPairs_eq (c : Cfg) (P : Panel n K) : postPairs c.ant (effects c P) =
    (effects c P).filter (fun x => decide (IsPost c.ant x.1.1 x.1.2)) := by
  refine List.filter_congr (fun x hx => ?_)
  rw [Bool.eq_iff_iff, not_pre_iff (groups_ne_nan (mem_effects hx).1), decide_eq_true_eq]

/-- C22: so the overall effect does not depend on the base-period setting. -/
theorem C22_overall_same (c : Cfg) (P : Panel n K) :
    overall c.ant (effects { c with base := .varying } P) = overall c.ant (effects { c with base := .universal } P) := by
  have h1 := postPairs_eq { c with base := .varying } P
  have h2 := postPairs_eq { c with base := .universal } P
  simp only at h1 h2
  simp only [overall, h1, h2, C22_post_effects_same]

/-- C22: nor do the group effects. -/
theorem C22_group_same (c : Cfg) (P : Panel n K) :
    groupEffects c.ant (groups P) (effects { c with base := .varying } P) =
      groupEffects c.ant (groups P) (effects { c with base := .universal } P) := by
  have key : ∀ (c' : Cfg), c'.ant = c.ant → ∀ g, groupPairs c.ant (effects c' P) g =
      ((effects c' P).filter (fun x => decide (IsPost c.ant x.1.1 x.1.2))).filter (fun x => decide (x.1.1 = g)) := by
    intro c' _ g
    rw [List.filter_filter]
    refine List.filter_congr (fun x _ => ?_)
    by_cases hg : x.1.1 = g
    · subst hg
      rw [Bool.eq_iff_iff]
      simp [post_iff]
    · simp [hg]
  unfold groupEffects
  refine filterMap_congr' _ _ _ (fun g _ => ?_)
  rw [key { c with base := .varying } rfl, key { c with base := .universal } rfl, C22_post_effects_same]

/-! ### C23 -/

/-- C23: treated and control units of an effect never overlap (for cohorts that are not the never-treated code). -/
theorem C23_disjoint (c : Cfg) (P : Panel n K) (g : Coh) (t : ℤ) (e : Entry n K) (h : attGt c P g t = some e)
    (hg : g.isNever = false) : Disjoint e.treated e.control := by
  obtain ⟨b, _, _, _, _, _, rfl⟩ := attGt_some h
  rw [Finset.disjoint_left]
  intro u hu hc
  have h1 := (mem_treatedSet.1 hu).1
  have h2 := (mem_controlSet.1 hc).1
  unfold controlMask at h2
  cases hc : c.ctl <;> simp [hc, h1, hg] at h2

/-- C23: every never-treated unit observed in both periods is a control. -/
theorem C23_never_included (c : Cfg) (P : Panel n K) (g : Coh) (t b : ℤ) (e : Entry n K)
    (h : attGt c P g t = some e) (hb : basePeriod c g t = some b) (u : Fin n)
    (hu : P.cohort u = .num 0 ∨ P.cohort u = .inf) (h1 : (P.y u b).isSome) (h2 : (P.y u t).isSome) :
    u ∈ e.control := by
  obtain ⟨b', hb', _, _, _, _, rfl⟩ := attGt_some h
  rw [hb] at hb'
  cases hb'
  refine mem_controlSet.2 ⟨?_, h1, h2⟩
  unfold controlMask
  rcases hu with hu | hu <;> cases c.ctl <;> simp [hu, Coh.isNever]

/-- C23: the treated side is exactly the units of cohort g observed in both periods. -/
theorem C23_treated_exact (c : Cfg) (P : Panel n K) (g : Coh) (t b : ℤ) (e : Entry n K)
    (h : attGt c P g t = some e) (hb : basePeriod c g t = some b) (u : Fin n) :
    u ∈ e.treated ↔ P.cohort u = g ∧ (P.y u b).isSome ∧ (P.y u t).isSome := by
  obtain ⟨b', hb', _, _, _, _, rfl⟩ := attGt_some h
  rw [hb] at hb'
  cases hb'
  exact mem_treatedSet

/-- C23: with control_group="never_treated" all controls are never treated. -/
theorem C23_never_only (c : Cfg) (P : Panel n K) (g : Coh) (t : ℤ) (e : Entry n K) (h : attGt c P g t = some e)
    (hc : c.ctl = .never) (u : Fin n) (hu : u ∈ e.control) : P.cohort u = .num 0 ∨ P.cohort u = .inf := by
  obtain ⟨b, _, _, _, _, _, rfl⟩ := attGt_some h
  have := (mem_controlSet.1 hu).1
  unfold controlMask at this
  rw [hc] at this
  cases hq : P.cohort u <;> simp [hq, Coh.isNever] at this
  · subst this; exact Or.inl rfl
  · exact Or.inr rfl

/-- C23: a control is never treated, or first treated strictly after t and not in cohort g; with
control_group="not_yet_treated" all such observed units are used. -/
theorem C23_not_yet_exact (c : Cfg) (P : Panel n K) (g : Coh) (t b : ℤ) (e : Entry n K)
    (h : attGt c P g t = some e) (hb : basePeriod c g t = some b) (hc : c.ctl = .notYet) (u : Fin n) :
    u ∈ e.control ↔ ((P.cohort u = .num 0 ∨ P.cohort u = .inf) ∨ (∃ z, P.cohort u = .num z ∧ t < z ∧ g ≠ .num z)) ∧
      (P.y u b).isSome ∧ (P.y u t).isSome := by
  obtain ⟨b', hb', _, _, _, _, rfl⟩ := attGt_some h
  rw [hb] at hb'
  cases hb'
  refine mem_controlSet.trans (and_congr ?_ Iff.rfl)
  unfold controlMask
  rw [hc]
  cases hq : P.cohort u with
  | num z =>
    simp only [Coh.isNever, Coh.gtT, Bool.or_eq_true, decide_eq_true_eq, Bool.and_eq_true, Coh.num.injEq,
      reduceCtorEq, or_false]
    constructor
    · rintro (h | ⟨h1, h2⟩)
      · exact Or.inl h
      · exact Or.inr ⟨z, rfl, h1, fun h => h2 h.symm⟩
    · rintro (h | ⟨z', rfl, h1, h2⟩)
      · exact Or.inl h
      · exact Or.inr ⟨h1, fun h => h2 h.symm⟩
  | inf => simp [Coh.isNever]
  | nan => simp [Coh.isNever, Coh.gtT]

/-- Unit u is unaffected by treatment at date s: never treated, or s precedes its treatment date less
anticipation. -/
def Clean (ant : ℤ) (q : Coh) (s : ℤ) : Prop := q = .num 0 ∨ q = .inf ∨ ∃ z, q = .num z ∧ s < z - ant

/-- C23, the part that holds: controls are unaffected at both dates when controls are never-treated units, or
without anticipation unless the base period lies after t (universal base, pre-treatment t). Missing: with
not-yet-treated controls the code ignores anticipation and the base period (refuted below). -/
theorem C23_controls_clean_partial (c : Cfg) (P : Panel n K) (z t b : ℤ) (e : Entry n K)
    (h : attGt c P (.num z) t = some e) (hb : basePeriod c (.num z) t = some b)
    (hc : c.ctl = .never ∨ (c.ant = 0 ∧ (c.base = .varying ∨ z ≤ t))) (u : Fin n) (hu : u ∈ e.control) :
    Clean c.ant (P.cohort u) t ∧ Clean c.ant (P.cohort u) b := by
  have never : P.cohort u = .num 0 ∨ P.cohort u = .inf →
      Clean c.ant (P.cohort u) t ∧ Clean c.ant (P.cohort u) b := by
    rintro (h | h)
    · exact ⟨Or.inl h, Or.inl h⟩
    · exact ⟨Or.inr (Or.inl h), Or.inr (Or.inl h)⟩
  cases hctl : c.ctl with
  | never => exact never (C23_never_only c P _ t e h hctl u hu)
  | notYet =>
    rw [hctl] at hc
    obtain ⟨ha, hv⟩ := hc.resolve_left (by simp)
    rcases ((C23_not_yet_exact c P _ t b e h hb hctl u).1 hu).1 with h | ⟨q, hq, htq, _⟩
    · exact never h
    · have hbt : b < q := by
        rw [basePeriod_num] at hb
        have := Option.some.inj hb
        rcases hv with hv | hv
        · split_ifs at this with hh
          · omega
          · have : ¬ t < z - c.ant := fun h' => hh ⟨hv, h'⟩
            omega
        · rw [if_neg (by omega)] at this
          omega
      exact ⟨Or.inr (Or.inr ⟨q, hq, by omega⟩), Or.inr (Or.inr ⟨q, hq, by omega⟩)⟩

/-- Three units over periods 1..6: cohort 4, cohort 6, never treated; outcomes all observed. -/
def demo : Panel 3 ℚ where
  cohort := ![.num 4, .num 6, .num 0]
  times := [1, 2, 3, 4, 5, 6]
  y := fun u t => some ((u.val : ℚ) + t)

/-- C23 is false with anticipation: with a = 1 the unit treated in 6 is affected from 5 on, but is a control
for cohort 4 in period 5. -/
theorem C23_anticipation_refuted :
    ∃ e, attGt ⟨.varying, .notYet, 1, .dr⟩ demo (.num 4) 5 = some e ∧ (1 : Fin 3) ∈ e.control ∧
      ¬ Clean 1 (demo.cohort 1) 5 := by
  have hh : (attGt ⟨.varying, .notYet, 1, .dr⟩ demo (.num 4) 5).isSome = true := by decide +kernel
  obtain ⟨e, he⟩ := Option.isSome_iff_exists.1 hh
  refine ⟨e, he, ?_, ?_⟩
  · exact (C23_not_yet_exact _ _ _ _ 2 _ he (by decide) rfl 1).2 ⟨Or.inr ⟨6, rfl, by decide, by decide⟩, rfl, rfl⟩
  · rintro (h | h | ⟨z, h, hz⟩)
    · exact absurd h (by decide)
    · exact absurd h (by decide)
    · have : z = 6 := by
        have h' : demo.cohort 1 = .num 6 := rfl
        rw [h'] at h
        cases h; rfl
      omega

/-- C23 is false for a universal base before treatment: for cohort 6 and t = 2 the base is 5; the unit treated
in 4 is a control although it is treated at the base period. -/
theorem C23_universal_refuted :
    ∃ e, attGt ⟨.universal, .notYet, 0, .dr⟩ demo (.num 6) 2 = some e ∧ (0 : Fin 3) ∈ e.control ∧
      basePeriod ⟨.universal, .notYet, 0, .dr⟩ (.num 6) 2 = some 5 ∧ ¬ Clean 0 (demo.cohort 0) 5 := by
  have hh : (attGt ⟨.universal, .notYet, 0, .dr⟩ demo (.num 6) 2).isSome = true := by decide +kernel
  obtain ⟨e, he⟩ := Option.isSome_iff_exists.1 hh
  refine ⟨e, he, ?_, by decide, ?_⟩
  · exact (C23_not_yet_exact _ _ _ _ 5 _ he (by decide) rfl 0).2 ⟨Or.inr ⟨4, rfl, by decide, by decide⟩, rfl, rfl⟩
  · rintro (h | h | ⟨z, h, hz⟩)
    · exact absurd h (by decide)
    · exact absurd h (by decide)
    · have : z = 4 := by
        have h' : demo.cohort 0 = .num 4 := rfl
        rw [h'] at h
        cases h; rfl
      omega

/-- Not-yet-treated controls are of no use when no unit is never treated: `fit` refuses such data although valid
comparisons exist. -/
theorem C23_no_never_rejected (c : Cfg) (bal : Option ℤ) (P : Panel n K)
    (h : ∀ u, P.cohort u ≠ .num 0 ∧ P.cohort u ≠ .inf) : fit c bal P = .error .noNever := by
  have : (Finset.univ.filter (fun u => (P.cohort u).isNever = true)).card = 0 := by
    rw [Finset.card_eq_zero, Finset.filter_eq_empty_iff]
    intro u _
    cases hq : P.cohort u with
    | num z => have := (h u).1; rw [hq] at this; simpa [Coh.isNever] using this
    | inf => exact absurd hq (h u).2
    | nan => simp [Coh.isNever]
  simp [fit, this]

example : (attGt ⟨.varying, .notYet, 0, .dr⟩ demo (.num 4) 5).isSome = true := by decide +kernel
example : basePeriod ⟨.varying, .notYet, 0, .dr⟩ (.num 4) 5 = some 3 ∧
    basePeriod ⟨.varying, .notYet, 0, .dr⟩ (.num 4) 3 = some 2 := by decide
example : ((effects ⟨.universal, .never, 0, .reg⟩ demo).map Prod.fst) =
    [(.num 4, 1), (.num 4, 2), (.num 4, 4), (.num 4, 5), (.num 4, 6),
     (.num 6, 1), (.num 6, 2), (.num 6, 3), (.num 6, 4), (.num 6, 6)] := by decide +kernel

/-! ### C24 -/

theorem mean_add (S : Finset (Fin n)) (f g : Fin n → K) : mean S (fun i => f i + g i) = mean S f + mean S g := by
  unfold mean; rw [Finset.sum_add_distrib, add_div]

theorem mean_const (S : Finset (Fin n)) (hS : S.card ≠ 0) (c : K) : mean S (fun _ => c) = c := by
  unfold mean
  rw [Finset.sum_const, nsmul_eq_mul, mul_div_cancel_left₀ _ (Nat.cast_ne_zero.2 hS)]

theorem mean_congr (S : Finset (Fin n)) (f g : Fin n → K) (h : ∀ u ∈ S, f u = g u) : mean S f = mean S g := by
  unfold mean; rw [Finset.sum_congr rfl h]

/-- The data follow unit effects + period effects + treatment effects `tau`; cells may be missing. -/
def ParallelTrends (P : Panel n K) (alpha : Fin n → K) (delta : ℤ → K) (tau : Fin n → ℤ → K) : Prop :=
  ∀ u t, P.y u t = none ∨ P.y u t = some (alpha u + delta t + tau u t)

theorem change_pt {P : Panel n K} {alpha : Fin n → K} {delta : ℤ → K} {tau : Fin n → ℤ → K}
    (h : ParallelTrends P alpha delta tau) {b t : ℤ} {u : Fin n} (hb : (P.y u b).isSome) (ht : (P.y u t).isSome) :
    change P b t u = (delta t - delta b) + (tau u t - tau u b) := by
  have h1 : P.y u b = some (alpha u + delta b + tau u b) := by
    rcases h u b with h' | h'
    · rw [h'] at hb; exact absurd hb (by simp)
    · exact h'
  have h2 : P.y u t = some (alpha u + delta t + tau u t) := by
    rcases h u t with h' | h'
    · rw [h'] at ht; exact absurd ht (by simp)
    · exact h'
  unfold change
  rw [h1, h2]
  simp only [Option.getD_some]
  ring

/-- C24: whenever the controls actually used are unaffected at t and at the base period, the reported effect is
the average over the treated units of (effect at t minus effect at the base period). -/
theorem C24_identifies (c : Cfg) (P : Panel n K) (alpha : Fin n → K) (delta : ℤ → K) (tau : Fin n → ℤ → K)
    (hpt : ParallelTrends P alpha delta tau) (g : Coh) (t b : ℤ) (e : Entry n K) (h : attGt c P g t = some e)
    (hb : basePeriod c g t = some b) (hclean : ∀ u ∈ e.control, tau u t = 0 ∧ tau u b = 0) :
    e.effect = (∑ u ∈ e.treated, (tau u t - tau u b)) / (e.treated.card : K) ∧ e.treated.Nonempty := by
  obtain ⟨b', hb', _, _, hT, hC, rfl⟩ := attGt_some h
  rw [hb] at hb'
  cases hb'
  refine ⟨?_, Finset.card_ne_zero.1 hT⟩
  have e1 : mean (treatedSet P g b t) (change P b t) =
      (delta t - delta b) + mean (treatedSet P g b t) (fun u => tau u t - tau u b) := by
    rw [← mean_const (treatedSet P g b t) hT (delta t - delta b), ← mean_add]
    refine mean_congr _ _ _ (fun u hu => ?_)
    have := mem_treatedSet.1 hu
    rw [change_pt hpt this.2.1 this.2.2]
  have e2 : mean (controlSet c P g b t) (change P b t) = delta t - delta b := by
    conv_rhs => rw [← mean_const (controlSet c P g b t) hC (delta t - delta b)]
    refine mean_congr _ _ _ (fun u hu => ?_)
    have := mem_controlSet.1 hu
    have hz := hclean u hu
    rw [change_pt hpt this.2.1 this.2.2, hz.1, hz.2, sub_zero, add_zero]
  show mean (treatedSet P g b t) (change P b t) - mean (controlSet c P g b t) (change P b t) = _
  rw [e1, e2, add_sub_cancel_left]
  rfl

/-- No effect before treatment (less anticipation), and none for never-treated units. -/
def NoAnticipation (ant : ℤ) (P : Panel n K) (tau : Fin n → ℤ → K) : Prop :=
  ∀ u s, Clean ant (P.cohort u) s → tau u s = 0

/-- C24: with never-treated controls ATT(g,t) is the average effect of the observed cohort-g units in every
post-treatment period, and zero in every pre-treatment period, for heterogeneous dynamic effects. -/
theorem C24_never_treated (c : Cfg) (P : Panel n K) (alpha : Fin n → K) (delta : ℤ → K) (tau : Fin n → ℤ → K)
    (hpt : ParallelTrends P alpha delta tau) (hna : NoAnticipation c.ant P tau) (z t : ℤ) (e : Entry n K)
    (h : attGt c P (.num z) t = some e) (hc : c.ctl = .never) :
    (z - c.ant ≤ t → e.effect = (∑ u ∈ e.treated, tau u t) / (e.treated.card : K)) ∧
    (t < z - c.ant → e.effect = 0) := by
  obtain ⟨b, hb, _⟩ := attGt_some h
  have hid := C24_identifies c P alpha delta tau hpt (.num z) t b e h hb (fun u hu => by
    have := C23_controls_clean_partial c P z t b e h hb (Or.inl hc) u hu
    exact ⟨hna _ _ this.1, hna _ _ this.2⟩)
  have hT : ∀ u ∈ e.treated, P.cohort u = .num z := fun u hu => ((C23_treated_exact c P _ t b e h hb u).1 hu).1
  have hbase : ∀ u ∈ e.treated, tau u b = 0 := fun u hu =>
    hna u b (Or.inr (Or.inr ⟨z, hT u hu, C22_before_treatment c z t b hb⟩))
  constructor
  · intro _
    rw [hid.1]
    congr 1
    exact Finset.sum_congr rfl (fun u hu => by rw [hbase u hu, sub_zero])
  · intro ht
    rw [hid.1, Finset.sum_eq_zero, zero_div]
    intro u hu
    rw [hbase u hu, hna u t (Or.inr (Or.inr ⟨z, hT u hu, ht⟩)), sub_zero]

/-- C24: with not-yet-treated controls the same holds without anticipation (for the universal base: in
post-treatment periods only). -/
theorem C24_not_yet_treated (c : Cfg) (P : Panel n K) (alpha : Fin n → K) (delta : ℤ → K) (tau : Fin n → ℤ → K)
    (hpt : ParallelTrends P alpha delta tau) (hna : NoAnticipation c.ant P tau) (z t : ℤ) (e : Entry n K)
    (h : attGt c P (.num z) t = some e) (ha : c.ant = 0) (hv : c.base = .varying ∨ z ≤ t) :
    (z ≤ t → e.effect = (∑ u ∈ e.treated, tau u t) / (e.treated.card : K)) ∧ (t < z → e.effect = 0) := by
  obtain ⟨b, hb, _⟩ := attGt_some h
  have hid := C24_identifies c P alpha delta tau hpt (.num z) t b e h hb (fun u hu => by
    have := C23_controls_clean_partial c P z t b e h hb (Or.inr ⟨ha, hv⟩) u hu
    exact ⟨hna _ _ this.1, hna _ _ this.2⟩)
  have hT : ∀ u ∈ e.treated, P.cohort u = .num z := fun u hu => ((C23_treated_exact c P _ t b e h hb u).1 hu).1
  have hbase : ∀ u ∈ e.treated, tau u b = 0 := fun u hu =>
    hna u b (Or.inr (Or.inr ⟨z, hT u hu, C22_before_treatment c z t b hb⟩))
  constructor
  · intro _
    rw [hid.1]
    congr 1
    exact Finset.sum_congr rfl (fun u hu => by rw [hbase u hu, sub_zero])
  · intro ht
    rw [hid.1, Finset.sum_eq_zero, zero_div]
    intro u hu
    rw [hbase u hu, hna u t (Or.inr (Or.inr ⟨z, hT u hu, by omega⟩)), sub_zero]

/-- Add unit and period effects to all observed outcomes. -/
def addEffects (P : Panel n K) (alpha : Fin n → K) (delta : ℤ → K) : Panel n K :=
  { P with y := fun u t => (P.y u t).map (fun v => v + alpha u + delta t) }

theorem estimate_shift (m : Method) (T C : Finset (Fin n)) (hT : T.card ≠ 0) (hC : C.card ≠ 0) (d d' : Fin n → K)
    (k : K) (h : ∀ u, u ∈ T ∨ u ∈ C → d' u = d u + k) :
    (estimate m T C d').effect = (estimate m T C d).effect ∧ (estimate m T C d').var = (estimate m T C d).var ∧
    (∀ u ∈ T, (estimate m T C d').infT u = (estimate m T C d).infT u) ∧
    (∀ u ∈ C, (estimate m T C d').infC u = (estimate m T C d).infC u) := by
  have mT : mean T d' = mean T d + k := by
    rw [← mean_const T hT k, ← mean_add]
    exact mean_congr _ _ _ (fun u hu => by rw [h u (Or.inl hu)])
  have mC : mean C d' = mean C d + k := by
    rw [← mean_const C hC k, ← mean_add]
    exact mean_congr _ _ _ (fun u hu => by rw [h u (Or.inr hu)])
  have vT : var1 T d' = var1 T d := by
    unfold var1
    rw [mT]
    congr 2
    exact Finset.sum_congr rfl (fun u hu => by rw [h u (Or.inl hu)]; ring)
  have vC : var1 C d' = var1 C d := by
    unfold var1
    rw [mC]
    congr 2
    exact Finset.sum_congr rfl (fun u hu => by rw [h u (Or.inr hu)]; ring)
  refine ⟨?_, ?_, ?_, ?_⟩
  · show mean T d' - mean C d' = mean T d - mean C d
    rw [mT, mC]; ring
  · simp only [estimate, vT, vC]
  · intro u hu
    show (d' u - mean T d') / _ = (d u - mean T d) / _
    rw [mT, h u (Or.inl hu)]; congr 1; ring
  · intro u hu
    show -((d' u - mean C d') / _) = -((d u - mean C d) / _)
    rw [mC, h u (Or.inr hu)]; congr 2; ring

/-- C24: adding any unit effects and any period effects changes neither which effects are reported, nor their
value, variance, units or influence functions. -/
theorem C24_invariant (c : Cfg) (P : Panel n K) (alpha : Fin n → K) (delta : ℤ → K) (g : Coh) (t : ℤ) :
    match attGt c P g t, attGt c (addEffects P alpha delta) g t with
    | none, none => True
    | some e, some e' => e'.effect = e.effect ∧ e'.var = e.var ∧ e'.treated = e.treated ∧ e'.control = e.control ∧
        (∀ u ∈ e.treated, e'.infT u = e.infT u) ∧ (∀ u ∈ e.control, e'.infC u = e.infC u)
    | _, _ => False := by
  cases hb : basePeriod c g t with
  | none => simp [attGt, hb]
  | some b =>
    have hTs : treatedSet (addEffects P alpha delta) g b t = treatedSet P g b t := by
      ext u; rw [mem_treatedSet, mem_treatedSet]; simp [addEffects]
    have hCs : controlSet c (addEffects P alpha delta) g b t = controlSet c P g b t := by
      ext u
      have hm : controlMask c (addEffects P alpha delta) g t u = controlMask c P g t u := rfl
      rw [mem_controlSet, mem_controlSet, hm]; simp [addEffects]
    have htm : (addEffects P alpha delta).times = P.times := rfl
    by_cases h1 : b ∈ P.times
    · by_cases h2 : t ∈ P.times
      · by_cases h3 : (treatedSet P g b t).card = 0 ∨ (controlSet c P g b t).card = 0
        · simp only [attGt, hb, htm, hTs, hCs, h1, h2, h3, not_true_eq_false, if_false, if_true]
        · simp only [attGt, hb, htm, hTs, hCs, h1, h2, h3, not_true_eq_false, if_false]
          rw [not_or] at h3
          have := estimate_shift c.method _ _ h3.1 h3.2 (change P b t) (change (addEffects P alpha delta) b t)
            (delta t - delta b) (by
              intro u hu
              have hv : (P.y u b).isSome ∧ (P.y u t).isSome := by
                rcases hu with hu | hu
                · exact (mem_treatedSet.1 hu).2
                · exact (mem_controlSet.1 hu).2
              obtain ⟨p, hp⟩ := Option.isSome_iff_exists.1 hv.1
              obtain ⟨q, hq⟩ := Option.isSome_iff_exists.1 hv.2
              simp only [change, addEffects, hp, hq, Option.map_some, Option.getD_some]
              ring)
          exact ⟨this.1, this.2.1, rfl, rfl, this.2.2.1, this.2.2.2⟩
      · simp [attGt, hb, htm, h1, h2]
    · simp [attGt, hb, htm, h1]

/-- C24 fails for not-yet-treated controls under anticipation: parallel trends and limited anticipation hold, the
effect of the treated unit is 0, but the reported effect is -7. -/
theorem C24_anticipation_refuted :
    let P : Panel 2 ℚ := ⟨![.num 4, .num 6], [2, 5], fun u t => some (if u = 1 ∧ 5 ≤ t then 7 else 0)⟩
    let tau : Fin 2 → ℤ → ℚ := fun u t => if u = 1 ∧ 5 ≤ t then 7 else 0
    ParallelTrends P (fun _ => 0) (fun _ => 0) tau ∧ NoAnticipation 1 P tau ∧
    (attGt ⟨.varying, .notYet, 1, .dr⟩ P (.num 4) 5).map (fun e => e.effect) = some (-7) := by
  refine ⟨?_, ?_, by decide +kernel⟩
  · intro u t
    right
    simp
  · rintro u s hcl
    fin_cases u
    · simp
    · rcases hcl with h | h | ⟨z, h, hz⟩
      · exact absurd h (by decide)
      · exact absurd h (by decide)
      · have h' : (.num 6 : Coh) = .num z := h
        cases h'
        exact if_neg (by omega)

/-- Non-vacuity: three units, effects 5 and 7 in the two treated periods of the treated unit. -/
example :
    let P : Panel 3 ℚ := ⟨![.num 2, .num 0, .inf], [1, 2, 3],
      fun u t => some ((u.val : ℚ) * 10 + t ^ 2 + if u = 0 ∧ 2 ≤ t then 2 * t + 1 else 0)⟩
    (attGt ⟨.varying, .never, 0, .dr⟩ P (.num 2) 2).map (fun e => e.effect) = some 5 ∧
    (attGt ⟨.varying, .never, 0, .dr⟩ P (.num 2) 3).map (fun e => e.effect) = some 7 := by
  constructor <;> decide +kernel

end DiffDiff.CS
