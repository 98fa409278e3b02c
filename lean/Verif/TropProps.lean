/-
Properties of the TROP panel checks and tuning search: C54, C55, C56 (search part).
-/
import Verif.Trop
import Mathlib.Data.List.TakeWhile

set_option linter.unusedSectionVars false

namespace DiffDiff.Trop

section Panel
variable {U T K : Type*} [LinearOrder U] [LinearOrder T] [Field K] [LinearOrder K] [IsStrictOrderedRing K] [FloorRing K]

/-! ### Specification, in terms of the rows of the data -/

/-- No two rows describe the same unit and period. -/
abbrev OneRowPerCell (rows : List (Row U T K)) : Prop := (rows.map (fun r => (r.unit, r.time))).Nodup

/-- Observed treatment values are 0 or 1. -/
abbrev Binary (rows : List (Row U T K)) : Prop := ∀ r ∈ rows, r.d = none ∨ r.d = some 0 ∨ r.d = some 1

/-- Some unit is observed treated and, later, observed untreated. -/
abbrev TurnsOff (rows : List (Row U T K)) : Prop :=
  ∃ r ∈ rows, ∃ s ∈ rows, r.unit = s.unit ∧ r.time < s.time ∧ r.d = some 1 ∧ s.d = some 0

/-! ### Helper lemmas -/

theorem mem_unitsOf {rows : List (Row U T K)} {u : U} : u ∈ unitsOf rows ↔ ∃ r ∈ rows, r.unit = u := by
  simp [unitsOf, List.mem_insertionSort]

theorem mem_periodsOf {rows : List (Row U T K)} {t : T} : t ∈ periodsOf rows ↔ ∃ r ∈ rows, r.time = t := by
  simp [periodsOf, List.mem_insertionSort]

theorem sorted_lt {α : Type*} [LinearOrder α] (l : List α) : (l.dedup.insertionSort (· ≤ ·)).Pairwise (· < ·) := by
  have h1 : (l.dedup.insertionSort (· ≤ ·)).Pairwise (· ≤ ·) := List.pairwise_insertionSort _ _
  have h2 : (l.dedup.insertionSort (· ≤ ·)).Nodup := (List.perm_insertionSort _ _).nodup_iff.2 (List.nodup_dedup l)
  exact (h1.and h2).imp (fun h => lt_of_le_of_ne h.1 h.2)

theorem periodsOf_sorted (rows : List (Row U T K)) : (periodsOf rows).Pairwise (· < ·) := sorted_lt _

theorem unitsOf_sorted (rows : List (Row U T K)) : (unitsOf rows).Pairwise (· < ·) := sorted_lt _

theorem cell_some {rows : List (Row U T K)} {t : T} {u : U} {r : Row U T K} (h : cell rows t u = some r) :
    r ∈ rows ∧ r.unit = u ∧ r.time = t := by
  have h1 := List.find?_some h
  have h2 := List.mem_of_find?_eq_some h
  simp at h1
  exact ⟨h2, h1.1, h1.2⟩

theorem cell_row {rows : List (Row U T K)} (hnd : OneRowPerCell rows) {r : Row U T K} (hr : r ∈ rows) :
    cell rows r.time r.unit = some r := by
  have hex : ∃ s, cell rows r.time r.unit = some s := by
    rw [← Option.isSome_iff_exists]
    unfold cell
    rw [List.find?_isSome]
    exact ⟨r, hr, by simp⟩
  obtain ⟨s, hs⟩ := hex
  obtain ⟨h1, h2, h3⟩ := cell_some hs
  have := List.inj_on_of_nodup_map hnd h1 hr (by simp [h2, h3])
  rw [hs, this]

theorem dRaw_row {rows : List (Row U T K)} (hnd : OneRowPerCell rows) {r : Row U T K} (hr : r ∈ rows) :
    dRaw rows r.time r.unit = r.d := by
  simp [dRaw, cell_row hnd hr]

theorem dRaw_some {rows : List (Row U T K)} {t : T} {u : U} {x : K} (h : dRaw rows t u = some x) :
    ∃ r ∈ rows, r.unit = u ∧ r.time = t ∧ r.d = some x := by
  unfold dRaw at h
  rw [Option.bind_eq_some_iff] at h
  obtain ⟨r, hr, hd⟩ := h
  obtain ⟨h1, h2, h3⟩ := cell_some hr
  exact ⟨r, h1, h2, h3, hd⟩

theorem trunc_zero : trunc (0 : K) = 0 := by simp [trunc]
theorem trunc_one : trunc (1 : K) = 1 := by simp [trunc]

theorem decreases_iff (l : List ℤ) : decreases l = true ↔ ¬ l.Pairwise (· ≤ ·) := by
  have key : ∀ l : List ℤ, decreases l = false ↔ l.IsChain (· ≤ ·) := by
    intro l
    induction l with
    | nil => simp [decreases]
    | cons a l ih =>
      cases l with
      | nil => simp [decreases]
      | cons b l => simp [decreases, ih]
  rw [← List.isChain_iff_pairwise, ← key]
  cases decreases l <;> simp

theorem pairwise_sorted {α : Type*} [LinearOrder α] {l : List α} (hl : l.Pairwise (· < ·)) (P : α → α → Prop) :
    l.Pairwise P ↔ ∀ a ∈ l, ∀ b ∈ l, a < b → P a b := by
  induction l with
  | nil => simp
  | cons x l ih =>
    rw [List.pairwise_cons] at hl ⊢
    rw [ih hl.2]
    constructor
    · rintro ⟨h1, h2⟩ a ha b hb hab
      rcases List.mem_cons.1 ha with ha' | ha' <;> rcases List.mem_cons.1 hb with hb' | hb'
      · rw [ha', hb'] at hab; exact absurd hab (lt_irrefl _)
      · rw [ha']; exact h1 b hb'
      · rw [hb'] at hab; exact absurd hab (not_lt.2 (hl.1 a ha').le)
      · exact h2 a ha' b hb' hab
    · intro h
      exact ⟨fun b hb => h x (by simp) b (by simp [hb]) (hl.1 b hb),
        fun a ha b hb hab => h a (by simp [ha]) b (by simp [hb]) hab⟩

/-- The units reported as violating are those observed with a larger (truncated) treatment value and, later, with a smaller one. -/
theorem mem_violating {rows : List (Row U T K)} (hnd : OneRowPerCell rows) {u : U} :
    u ∈ violating rows ↔ ∃ r ∈ rows, ∃ s ∈ rows, r.unit = u ∧ s.unit = u ∧ r.time < s.time ∧
      ∃ x y, r.d = some x ∧ s.d = some y ∧ trunc y < trunc x := by
  have hobs : (observed rows u).Pairwise (· ≤ ·) ↔ ∀ t ∈ periodsOf rows, ∀ t' ∈ periodsOf rows, t < t' →
      ∀ x, dRaw rows t u = some x → ∀ y, dRaw rows t' u = some y → trunc x ≤ trunc y := by
    unfold observed
    rw [List.pairwise_filterMap, pairwise_sorted (periodsOf_sorted rows)]
    constructor
    · intro h t ht t' ht' hlt x hx y hy
      exact h t ht t' ht' hlt (trunc x) (by rw [hx]; rfl) (trunc y) (by rw [hy]; rfl)
    · intro h t ht t' ht' hlt b hb b' hb'
      rw [Option.map_eq_some_iff] at hb hb'
      obtain ⟨x, hx, rfl⟩ := hb
      obtain ⟨y, hy, rfl⟩ := hb'
      exact h t ht t' ht' hlt x hx y hy
  have hlen : decreases (observed rows u) = true → 1 < (observed rows u).length := by
    intro h
    rcases ho : observed rows u with _ | ⟨a, _ | ⟨b, l⟩⟩
    · rw [ho] at h; simp [decreases] at h
    · rw [ho] at h; simp [decreases] at h
    · simp
  unfold violating
  rw [List.mem_filter, Bool.and_eq_true, decide_eq_true_eq]
  constructor
  · rintro ⟨_, _, hdec⟩
    rw [decreases_iff, hobs] at hdec
    push Not at hdec
    obtain ⟨t, _, t', _, hlt, x, hx, y, hy, hxy⟩ := hdec
    obtain ⟨r, hr, hru, hrt, hrd⟩ := dRaw_some hx
    obtain ⟨s, hs, hsu, hst, hsd⟩ := dRaw_some hy
    exact ⟨r, hr, s, hs, hru, hsu, by rw [hrt, hst]; exact hlt, x, y, hrd, hsd, hxy⟩
  · rintro ⟨r, hr, s, hs, rfl, hsu, hlt, x, y, hx, hy, hxy⟩
    have hdec : decreases (observed rows r.unit) = true := by
      rw [decreases_iff, hobs]
      intro hall
      have h2 : dRaw rows s.time r.unit = some y := by rw [← hsu, dRaw_row hnd hs, hy]
      have := hall r.time (mem_periodsOf.2 ⟨r, hr, rfl⟩) s.time (mem_periodsOf.2 ⟨s, hs, rfl⟩) hlt x
        (by rw [dRaw_row hnd hr, hx]) y h2
      omega
    exact ⟨mem_unitsOf.2 ⟨r, hr, rfl⟩, hlen hdec, hdec⟩

theorem trunc_binary {rows : List (Row U T K)} (hb : Binary rows) {r : Row U T K} (hr : r ∈ rows) {x : K}
    (hx : r.d = some x) : (x = 0 ∧ trunc x = 0) ∨ (x = 1 ∧ trunc x = 1) := by
  rcases hb r hr with h | h | h
  · rw [hx] at h; cases h
  · rw [hx] at h; cases h; exact Or.inl ⟨rfl, trunc_zero⟩
  · rw [hx] at h; cases h; exact Or.inr ⟨rfl, trunc_one⟩

theorem violating_iff {rows : List (Row U T K)} (hnd : OneRowPerCell rows) (hb : Binary rows) :
    violating rows ≠ [] ↔ TurnsOff rows := by
  constructor
  · intro hne
    obtain ⟨u, hu⟩ := List.exists_mem_of_ne_nil _ hne
    obtain ⟨r, hr, s, hs, hru, hsu, hlt, x, y, hx, hy, hxy⟩ := (mem_violating hnd).1 hu
    refine ⟨r, hr, s, hs, by rw [hru, hsu], hlt, ?_⟩
    rcases trunc_binary hb hr hx with ⟨h1, h1'⟩ | ⟨h1, h1'⟩ <;> rcases trunc_binary hb hs hy with ⟨h2, h2'⟩ | ⟨h2, h2'⟩ <;>
      first | omega | exact ⟨by rw [hx, h1], by rw [hy, h2]⟩
  · rintro ⟨r, hr, s, hs, hrs, hlt, hx, hy⟩
    exact List.ne_nil_of_mem ((mem_violating (u := r.unit) hnd).2 ⟨r, hr, s, hs, rfl, hrs.symm, hlt, 1, 0, hx, hy, by rw [trunc_zero, trunc_one]; decide⟩)

theorem hasDup_iff {rows : List (Row U T K)} : hasDup rows = false ↔ OneRowPerCell rows := by
  unfold hasDup
  rw [Bool.not_eq_false', decide_eq_true_eq]

theorem dCell_one {rows : List (Row U T K)} (hnd : OneRowPerCell rows) (hb : Binary rows) {t : T} {u : U} :
    dCell rows t u = 1 ↔ ∃ r ∈ rows, r.unit = u ∧ r.time = t ∧ r.d = some 1 := by
  constructor
  · intro h
    unfold dCell at h
    rcases hd : dRaw rows t u with _ | x
    · rw [hd] at h; simp at h
    · rw [hd] at h
      obtain ⟨r, hr, h1, h2, h3⟩ := dRaw_some hd
      refine ⟨r, hr, h1, h2, ?_⟩
      rcases trunc_binary hb hr h3 with ⟨_, h'⟩ | ⟨h', _⟩
      · simp only at h; omega
      · rw [h3, h']
  · rintro ⟨r, hr, rfl, rfl, hd⟩
    unfold dCell
    rw [dRaw_row hnd hr, hd]
    exact trunc_one

theorem periodTreated_iff {rows : List (Row U T K)} (hnd : OneRowPerCell rows) (hb : Binary rows) {t : T} :
    periodTreated rows t = true ↔ ∃ r ∈ rows, r.time = t ∧ r.d = some 1 := by
  unfold periodTreated
  rw [List.any_eq_true]
  simp only [decide_eq_true_eq, dCell_one hnd hb]
  constructor
  · rintro ⟨u, _, r, hr, _, h2, h3⟩; exact ⟨r, hr, h2, h3⟩
  · rintro ⟨r, hr, h2, h3⟩; exact ⟨r.unit, mem_unitsOf.2 ⟨r, hr, rfl⟩, r, hr, rfl, h2, h3⟩

theorem unitTreated_iff {rows : List (Row U T K)} (hnd : OneRowPerCell rows) (hb : Binary rows) {u : U} :
    unitTreated rows u = true ↔ ∃ r ∈ rows, r.unit = u ∧ r.d = some 1 := by
  unfold unitTreated
  rw [List.any_eq_true]
  simp only [decide_eq_true_eq, dCell_one hnd hb]
  constructor
  · rintro ⟨u, _, r, hr, h1, _, h3⟩; exact ⟨r, hr, h1, h3⟩
  · rintro ⟨r, hr, h2, h3⟩; exact ⟨r.time, mem_periodsOf.2 ⟨r, hr, rfl⟩, r, hr, h2, rfl, h3⟩

/-- Number of treated cells = number of treated rows. -/
theorem nTreatedObs_eq {rows : List (Row U T K)} (hnd : OneRowPerCell rows) (hb : Binary rows) :
    nTreatedObs rows = (rows.filter (fun r => decide (r.d = some 1))).length := by
  have h1 : nTreatedObs rows = ((periodsOf rows).flatMap (fun t =>
      ((unitsOf rows).filter (fun u => decide (dCell rows t u = 1))).map (fun u => (u, t)))).length := by
    simp [nTreatedObs, List.length_flatMap]
  have h2 : (rows.filter (fun r => decide (r.d = some 1))).length =
      ((rows.filter (fun r => decide (r.d = some 1))).map (fun r => (r.unit, r.time))).length := by simp
  rw [h1, h2]
  apply List.Perm.length_eq
  rw [List.perm_ext_iff_of_nodup]
  · rintro ⟨u, t⟩
    simp only [List.mem_flatMap, List.mem_map, List.mem_filter, decide_eq_true_eq, Prod.mk.injEq, dCell_one hnd hb]
    constructor
    · rintro ⟨t', _, u', ⟨_, r, hr, h1, h2, h3⟩, rfl, rfl⟩; exact ⟨r, ⟨hr, h3⟩, h1, h2⟩
    · rintro ⟨r, ⟨hr, h3⟩, rfl, rfl⟩
      exact ⟨r.time, mem_periodsOf.2 ⟨r, hr, rfl⟩, r.unit, ⟨mem_unitsOf.2 ⟨r, hr, rfl⟩, r, hr, rfl, rfl, h3⟩, rfl, rfl⟩
  · rw [List.nodup_flatMap]
    refine ⟨fun t _ => ?_, ?_⟩
    · have hu : (unitsOf rows).Nodup := (unitsOf_sorted rows).imp (fun h => ne_of_lt h)
      exact (hu.filter _).map (fun a b hab => by simpa using hab)
    · refine (periodsOf_sorted rows).imp (fun {a b} hab => ?_)
      intro x hx hy
      simp only [List.mem_map] at hx hy
      obtain ⟨_, _, rfl⟩ := hx
      obtain ⟨_, _, hxy⟩ := hy
      simp at hxy
      exact absurd hxy.2 (ne_of_gt hab)
  · exact (List.Sublist.map _ List.filter_sublist).nodup hnd

theorem takeWhile_two {α : Type*} [LinearOrder α] {l : List α} (hl : l.Pairwise (· < ·)) (p : α → Bool) :
    2 ≤ (l.takeWhile (fun t => !p t)).length ↔
      ∃ a ∈ l, ∃ b ∈ l, a < b ∧ ∀ t ∈ l, p t = true → b < t := by
  constructor
  · intro h
    rcases l with _ | ⟨x, _ | ⟨y, l⟩⟩
    · simp at h
    · have := (List.takeWhile_sublist (l := [x]) (fun t => !p t)).length_le
      simp only [List.length_singleton] at this; omega
    · rcases hx : p x with _ | _
      · rcases hy : p y with _ | _
        · refine ⟨x, by simp, y, by simp, ?_, ?_⟩
          · exact (List.pairwise_cons.1 hl).1 y (by simp)
          · intro t ht hp
            rcases List.mem_cons.1 ht with rfl | ht
            · rw [hx] at hp; cases hp
            · rcases List.mem_cons.1 ht with rfl | ht
              · rw [hy] at hp; cases hp
              · exact (List.pairwise_cons.1 (List.pairwise_cons.1 hl).2).1 t ht
        · simp [List.takeWhile_cons, hx, hy] at h
      · simp [List.takeWhile_cons, hx] at h
  · rintro ⟨a, ha, b, hb, hab, hall⟩
    have hnp : ∀ t ∈ l, t ≤ b → p t = false := by
      intro t ht htb
      by_contra hp
      exact absurd (hall t ht (by simpa using hp)) (not_lt.2 htb)
    have hpre : ∀ l : List α, l.Pairwise (· < ·) → (∀ t ∈ l, t ≤ b → p t = false) → ∀ x ∈ l, x ≤ b →
        x ∈ l.takeWhile (fun t => !p t) := by
      intro l
      induction l with
      | nil => simp
      | cons y l ih =>
        intro hl hn x hx hxb
        have hy : p y = false := by
          refine hn y (by simp) ?_
          rcases List.mem_cons.1 hx with rfl | hx
          · exact hxb
          · exact (((List.pairwise_cons.1 hl).1 x hx).le).trans hxb
        rw [List.takeWhile_cons, hy]
        simp only [Bool.not_false, if_true, List.mem_cons]
        rcases List.mem_cons.1 hx with rfl | hx
        · exact Or.inl rfl
        · exact Or.inr (ih (List.pairwise_cons.1 hl).2 (fun t ht => hn t (by simp [ht])) x hx hxb)
    have h1 := hpre l hl hnp a ha hab.le
    have h2 := hpre l hl hnp b hb le_rfl
    by_contra hlt
    push Not at hlt
    rcases hm : l.takeWhile (fun t => !p t) with _ | ⟨x, _ | ⟨y, m⟩⟩
    · rw [hm] at h1; simp at h1
    · rw [hm] at h1 h2
      simp at h1 h2
      rw [h1, h2] at hab; exact lt_irrefl _ hab
    · rw [hm] at hlt; simp at hlt; omega

/-! ### C54 -/

/-- **C54.** On data with 0/1 (or missing) treatment values and one row per cell, the absorbing-state error is raised exactly when some
unit is observed treated and, at a later period (however many periods are missing in between), observed untreated. -/
theorem C54_rejects_iff (rows : List (Row U T K)) (hnd : OneRowPerCell rows) (hb : Binary rows) :
    prepare rows = .error .absorbing ↔ TurnsOff rows := by
  unfold prepare
  rw [if_neg (by rw [hasDup_iff.2 hnd]; decide)]
  by_cases h1 : violating rows ≠ []
  · rw [if_pos h1]
    exact iff_of_true rfl ((violating_iff hnd hb).1 h1)
  · rw [if_neg h1]
    refine iff_of_false ?_ (fun h => h1 ((violating_iff hnd hb).2 h))
    intro h
    split_ifs at h <;> cases h

/-- **C54.** Exactly which 0/1 panels are accepted: one row per cell, nobody switches off, someone is treated, someone is never
treated, and two observed periods precede every treated row. -/
theorem C54_accepts_iff (rows : List (Row U T K)) (hb : Binary rows) :
    (∃ p, prepare rows = .ok p) ↔
      OneRowPerCell rows ∧ ¬ TurnsOff rows ∧ (∃ r ∈ rows, r.d = some 1) ∧
      (∃ r ∈ rows, ∀ s ∈ rows, s.unit = r.unit → s.d ≠ some 1) ∧
      (∃ a ∈ rows, ∃ b ∈ rows, a.time < b.time ∧ ∀ r ∈ rows, r.d = some 1 → b.time < r.time) := by
  by_cases hnd : OneRowPerCell rows
  swap
  · refine iff_of_false ?_ (fun h => hnd h.1)
    rintro ⟨p, hp⟩
    unfold prepare at hp
    rw [if_pos (by unfold hasDup; simpa using hnd)] at hp
    cases hp
  have hnd' := hnd
  have e1 : violating rows ≠ [] ↔ TurnsOff rows := violating_iff hnd hb
  have e2 : nTreatedObs rows = 0 ↔ ¬ ∃ r ∈ rows, r.d = some 1 := by
    rw [nTreatedObs_eq hnd hb, List.length_eq_zero_iff, List.filter_eq_nil_iff]
    push Not
    simp
  have e3 : (unitsOf rows).filter (fun u => !unitTreated rows u) = [] ↔
      ¬ ∃ r ∈ rows, ∀ s ∈ rows, s.unit = r.unit → s.d ≠ some 1 := by
    rw [List.filter_eq_nil_iff]
    push Not
    constructor
    · intro h r hr
      have := h r.unit (mem_unitsOf.2 ⟨r, hr, rfl⟩)
      simp only [Bool.not_eq_true, Bool.not_eq_false', unitTreated_iff hnd hb] at this
      obtain ⟨s, hs, h1, h2⟩ := this
      exact ⟨s, hs, h1, h2⟩
    · intro h u hu
      obtain ⟨r, hr, rfl⟩ := mem_unitsOf.1 hu
      obtain ⟨s, hs, h1, h2⟩ := h r hr
      simp only [Bool.not_eq_true, Bool.not_eq_false', unitTreated_iff hnd hb]
      exact ⟨s, hs, h1, h2⟩
  have e4 : ((periodsOf rows).takeWhile (fun t => !periodTreated rows t)).length < 2 ↔
      ¬ ∃ a ∈ rows, ∃ b ∈ rows, a.time < b.time ∧ ∀ r ∈ rows, r.d = some 1 → b.time < r.time := by
    rw [← not_le, takeWhile_two (periodsOf_sorted rows), not_iff_not]
    constructor
    · rintro ⟨a, ha, b, hb', hab, h⟩
      obtain ⟨ra, hra, rfl⟩ := mem_periodsOf.1 ha
      obtain ⟨rb, hrb, rfl⟩ := mem_periodsOf.1 hb'
      exact ⟨ra, hra, rb, hrb, hab, fun r hr hd => h r.time (mem_periodsOf.2 ⟨r, hr, rfl⟩)
        ((periodTreated_iff hnd hb).2 ⟨r, hr, rfl, hd⟩)⟩
    · rintro ⟨a, ha, b, hb', hab, h⟩
      refine ⟨a.time, mem_periodsOf.2 ⟨a, ha, rfl⟩, b.time, mem_periodsOf.2 ⟨b, hb', rfl⟩, hab, ?_⟩
      intro t _ hp
      obtain ⟨r, hr, rfl, hd⟩ := (periodTreated_iff hnd hb).1 hp
      exact h r hr hd
  have hdup : hasDup rows = false := hasDup_iff.2 hnd
  unfold prepare
  rw [hdup, if_neg (by decide)]
  by_cases c1 : violating rows ≠ []
  · rw [if_pos c1]
    exact iff_of_false (by rintro ⟨p, hp⟩; cases hp) (fun h => h.2.1 (e1.1 c1))
  rw [if_neg c1]
  by_cases c2 : nTreatedObs rows = 0
  · rw [if_pos c2]
    exact iff_of_false (by rintro ⟨p, hp⟩; cases hp) (fun h => e2.1 c2 h.2.2.1)
  rw [if_neg c2]
  by_cases c3 : (unitsOf rows).filter (fun u => !unitTreated rows u) = []
  · rw [if_pos c3]
    exact iff_of_false (by rintro ⟨p, hp⟩; cases hp) (fun h => e3.1 c3 h.2.2.2.1)
  rw [if_neg c3]
  by_cases c4 : ((periodsOf rows).takeWhile (fun t => !periodTreated rows t)).length < 2
  · rw [if_pos c4]
    exact iff_of_false (by rintro ⟨p, hp⟩; cases hp) (fun h => e4.1 c4 h.2.2.2.2)
  rw [if_neg c4]
  exact iff_of_true ⟨_, rfl⟩ ⟨hnd', fun h => c1 (e1.2 h), not_not.1 (fun h => c2 (e2.2 h)),
    not_not.1 (fun h => c3 (e3.2 h)), not_not.1 (fun h => c4 (e4.2 h))⟩

/-- **C54.** Accepted 0/1 panels are zero before a start date and one from it on, on the observed cells of each unit (`⊤`: never). -/
theorem C54_zero_then_one (rows : List (Row U T K)) (hb : Binary rows) (p : Panel U T K) (h : prepare rows = .ok p) (u : U) :
    ∃ start : WithTop T, ∀ r ∈ rows, r.unit = u → r.d ≠ none → (r.d = some 1 ↔ start ≤ (r.time : WithTop T)) := by
  obtain ⟨hnd, hoff, _⟩ := (C54_accepts_iff rows hb).1 ⟨p, h⟩
  by_cases hex : ∃ r ∈ rows, r.unit = u ∧ r.d = some 1
  · have hne : (((rows.filter (fun r => decide (r.unit = u ∧ r.d = some 1))).map Row.time).toFinset).Nonempty := by
      obtain ⟨r, hr, h1, h2⟩ := hex
      exact ⟨r.time, by simp only [List.mem_toFinset, List.mem_map, List.mem_filter, decide_eq_true_eq]; exact ⟨r, ⟨hr, h1, h2⟩, rfl⟩⟩
    obtain ⟨m, hm, hmin⟩ := Finset.exists_min_image _ (fun t : T => t) hne
    simp only [List.mem_toFinset, List.mem_map, List.mem_filter, decide_eq_true_eq] at hm hmin
    obtain ⟨r0, ⟨hr0, hu0, hd0⟩, rfl⟩ := hm
    refine ⟨(r0.time : WithTop T), fun r hr hru hrd => ?_⟩
    rw [WithTop.coe_le_coe]
    constructor
    · intro hd; exact hmin r.time ⟨r, ⟨hr, hru, hd⟩, rfl⟩
    · intro hle
      rcases hb r hr with h' | h' | h'
      · exact absurd h' hrd
      · exfalso
        rcases hle.lt_or_eq with hlt | heq
        · exact hoff ⟨r0, hr0, r, hr, by rw [hu0, hru], hlt, hd0, h'⟩
        · have := List.inj_on_of_nodup_map hnd hr0 hr (by simp [hu0, hru, heq])
          rw [this, h'] at hd0
          simp at hd0
      · exact h'
  · refine ⟨⊤, fun r hr hru _ => ?_⟩
    simp only [top_le_iff, WithTop.coe_ne_top, iff_false]
    exact fun hd => hex ⟨r, hr, hru, hd⟩

/-- **C54.** The reported counts: treated cells are the rows with treatment 1, treated units and post periods the distinct units and
periods of those rows, controls the remaining units. -/
theorem C54_counts (rows : List (Row U T K)) (hb : Binary rows) (p : Panel U T K) (h : prepare rows = .ok p) :
    p.nTreatedObs = (rows.filter (fun r => decide (r.d = some 1))).length ∧
    p.treated.length = ((rows.filter (fun r => decide (r.d = some 1))).map Row.unit).toFinset.card ∧
    p.nPost = ((rows.filter (fun r => decide (r.d = some 1))).map Row.time).toFinset.card ∧
    p.treated.length + p.controls.length = (rows.map Row.unit).toFinset.card := by
  obtain ⟨hnd, _, _⟩ := (C54_accepts_iff rows hb).1 ⟨p, h⟩
  unfold prepare at h
  split_ifs at h
  cases h
  have hU : (unitsOf rows).Nodup := (unitsOf_sorted rows).imp (fun h => ne_of_lt h)
  have hP : (periodsOf rows).Nodup := (periodsOf_sorted rows).imp (fun h => ne_of_lt h)
  refine ⟨nTreatedObs_eq hnd hb, ?_, ?_, ?_⟩
  · rw [← List.toFinset_card_of_nodup (hU.filter _)]
    congr 1
    ext u
    simp only [List.mem_toFinset, List.mem_filter, List.mem_map, decide_eq_true_eq, unitTreated_iff hnd hb]
    constructor
    · rintro ⟨_, r, hr, h1, h2⟩; exact ⟨r, ⟨hr, h2⟩, h1⟩
    · rintro ⟨r, ⟨hr, h2⟩, h1⟩; exact ⟨mem_unitsOf.2 ⟨r, hr, h1⟩, r, hr, h1, h2⟩
  · have hD : ((periodsOf rows).dropWhile (fun t => !periodTreated rows t)).Nodup := hP.sublist (List.dropWhile_sublist _)
    simp only
    rw [← List.toFinset_card_of_nodup (hD.filter _)]
    congr 1
    ext t
    simp only [List.mem_toFinset, List.mem_filter, List.mem_map, decide_eq_true_eq, periodTreated_iff hnd hb]
    constructor
    · rintro ⟨_, r, hr, h1, h2⟩; exact ⟨r, ⟨hr, h2⟩, h1⟩
    · rintro ⟨r, ⟨hr, h2⟩, h1⟩
      refine ⟨?_, r, hr, h1, h2⟩
      have hm : t ∈ periodsOf rows := mem_periodsOf.2 ⟨r, hr, h1⟩
      rw [← List.takeWhile_append_dropWhile (p := fun t => !periodTreated rows t) (l := periodsOf rows)] at hm
      rcases List.mem_append.1 hm with hm | hm
      · have := List.mem_takeWhile_imp hm
        rw [(periodTreated_iff hnd hb).2 ⟨r, hr, h1, h2⟩] at this
        cases this
      · exact hm
  · simp only
    rw [← List.length_eq_length_filter_add, ← List.toFinset_card_of_nodup hU]
    congr 1
    ext u
    simp [mem_unitsOf]

end Panel

/-! Concrete cases: unit 1 treated from period 3 (row of period 4 missing), unit 2 never; the same with a switch back in period 5. -/

def panelOk : List (Row ℕ ℕ ℚ) :=
  [⟨1, 1, some 1, some 0⟩, ⟨1, 2, some 2, some 0⟩, ⟨1, 3, some 3, some 1⟩, ⟨1, 5, some 3, some 1⟩,
   ⟨2, 1, some 1, some 0⟩, ⟨2, 2, some 1, none⟩, ⟨2, 3, some 1, some 0⟩, ⟨2, 4, none, some 0⟩]

def panelOff : List (Row ℕ ℕ ℚ) :=
  [⟨1, 1, some 1, some 0⟩, ⟨1, 2, some 2, some 0⟩, ⟨1, 3, some 3, some 1⟩, ⟨1, 5, some 3, some 0⟩,
   ⟨2, 1, some 1, some 0⟩, ⟨2, 4, none, some 0⟩]

def viewP : Except Err (Panel ℕ ℕ ℚ) → List ℕ := fun x => match x with
  | .ok p => [p.nTreatedObs, p.nPre, p.nPost] ++ p.treated ++ p.controls
  | .error _ => []

def errP : Except Err (Panel ℕ ℕ ℚ) → Option Err := fun x => match x with
  | .ok _ => none
  | .error e => some e

example : OneRowPerCell panelOk ∧ Binary panelOk ∧ viewP (prepare panelOk) = [2, 2, 2, 1, 2] := by decide +kernel
example : OneRowPerCell panelOff ∧ Binary panelOff ∧ TurnsOff panelOff ∧ errP (prepare panelOff) = some .absorbing := by
  decide +kernel

def panelNB : List (Row ℕ ℕ ℚ) :=
  [⟨1, 1, some 1, some 0⟩, ⟨1, 2, some 2, some 0⟩, ⟨1, 3, some 3, some 1⟩,
   ⟨2, 1, some 1, some 0⟩, ⟨2, 2, some 1, some 0⟩, ⟨2, 3, some 1, some (1 / 2)⟩, ⟨3, 1, some 1, some 0⟩,
   ⟨4, 1, some 1, some 0⟩, ⟨4, 3, some 1, some 2⟩]

def viewD : Except Err (Panel ℕ ℕ ℚ) → List ℕ × List ℤ := fun x => match x with
  | .ok p => (p.controls, [p.d 3 2, p.d 3 4])
  | .error _ => ([], [])

/-- **C54, refuted for values other than 0 and 1.** The treatment column is not checked to be binary: a unit whose indicator is 0.5
from period 3 on is accepted and counted as a control (truncation), and a unit at level 2 is accepted and counted as a control too,
although the panel treats it as neither treated nor untreated. -/
theorem C54_nonbinary_refuted :
    ∃ rows : List (Row ℕ ℕ ℚ), OneRowPerCell rows ∧ (∃ r ∈ rows, r.d = some (1 / 2)) ∧ (∃ r ∈ rows, r.d = some 2) ∧
      ∃ p, prepare rows = .ok p ∧ p.controls = [2, 3, 4] ∧ p.d 3 2 = 0 ∧ p.d 3 4 = 2 := by
  refine ⟨panelNB, by decide +kernel, by decide +kernel, by decide +kernel, ?_⟩
  have h : viewD (prepare panelNB) = ([2, 3, 4], [0, 2]) := by decide +kernel
  rcases hp : prepare panelNB with e | p
  · rw [hp] at h; simp [viewD] at h
  · rw [hp] at h
    simp [viewD] at h
    exact ⟨p, rfl, h.1, h.2.1, h.2.2⟩

/-! ### The tuning search -/

section Search
variable {K : Type*} [Field K] [LinearOrder K] [IsStrictOrderedRing K] {V : Type*}

theorem lt_irrefl_ext (a : Ext K) : Ext.lt a a = false := by cases a <;> simp [Ext.lt]

theorem lt_trans_ext {a b c : Ext K} (h1 : Ext.lt a b = true) (h2 : Ext.lt b c = true) : Ext.lt a c = true := by
  cases a <;> cases b <;> cases c <;> simp_all [Ext.lt]
  exact lt_trans h1 h2

/-- If `a` is not below `b` and `c` is below `b` then `c` is not above `a`, for comparable scores. -/
theorem not_lt_of_lt {a b c : Ext K} (h1 : Ext.lt a b = false) (h2 : Ext.lt c b = true) : Ext.lt a c = false := by
  rw [← Bool.not_eq_true] at h1 ⊢
  exact fun h => h1 (lt_trans_ext h h2)

theorem lt_of_not_lt {a b c : Ext K} (h1 : Ext.lt c b = true) (h2 : Ext.lt c a = false) (h3 : a ≠ .nan) :
    Ext.lt a b = true := by
  cases a <;> cases b <;> cases c <;> simp_all [Ext.lt]
  exact lt_of_le_of_lt h2 h1

/-- Loop invariant: the running best is the starting pair or the first of the elements seen whose score is minimal. -/
theorem fold_inv (score : V → Option (Ext K)) (d : V) (grid : List V) :
    (grid.foldl (step score) (d, .pinf) = (d, .pinf) ∧ ∀ w ∈ grid, ∀ s, score w = some s → Ext.lt s .pinf = false) ∨
    (∃ pre v suf b, grid = pre ++ v :: suf ∧ grid.foldl (step score) (d, .pinf) = (v, b) ∧ score v = some b ∧
      Ext.lt b .pinf = true ∧ (∀ w ∈ grid, ∀ s, score w = some s → Ext.lt s b = false) ∧
      (∀ w ∈ pre, ∀ s, score w = some s → s ≠ .nan → Ext.lt b s = true)) := by
  induction grid using List.reverseRecOn with
  | nil => left; simp
  | append_singleton l x ih =>
    rw [List.foldl_append, List.foldl_cons, List.foldl_nil]
    rcases ih with ⟨he, hall⟩ | ⟨pre, v, suf, b, hl, he, hv, hb, hall, hpre⟩
    · rw [he]
      unfold step
      rcases hx : score x with _ | s
      · left
        refine ⟨rfl, fun w hw s hs => ?_⟩
        rcases List.mem_append.1 hw with hw | hw
        · exact hall w hw s hs
        · rw [List.mem_singleton.1 hw, hx] at hs; cases hs
      · simp only
        rcases hlt : Ext.lt s .pinf with _ | _
        · left
          refine ⟨by simp, fun w hw s' hs' => ?_⟩
          rcases List.mem_append.1 hw with hw | hw
          · exact hall w hw s' hs'
          · rw [List.mem_singleton.1 hw, hx] at hs'; cases hs'; exact hlt
        · right
          refine ⟨l, x, [], s, rfl, by simp, hx, hlt, fun w hw s' hs' => ?_, fun w hw s' hs' hn => ?_⟩
          · rcases List.mem_append.1 hw with hw | hw
            · have := hall w hw s' hs'
              exact not_lt_of_lt this hlt
            · rw [List.mem_singleton.1 hw, hx] at hs'; cases hs'; exact lt_irrefl_ext _
          · have := hall w hw s' hs'
            cases s' <;> simp_all [Ext.lt]
    · rw [he]
      unfold step
      rcases hx : score x with _ | s
      · right
        refine ⟨pre, v, suf ++ [x], b, by rw [hl]; simp, rfl, hv, hb, fun w hw s hs => ?_, hpre⟩
        rcases List.mem_append.1 hw with hw | hw
        · exact hall w hw s hs
        · rw [List.mem_singleton.1 hw, hx] at hs; cases hs
      · simp only
        rcases hlt : Ext.lt s b with _ | _
        · right
          refine ⟨pre, v, suf ++ [x], b, by rw [hl]; simp, by simp, hv, hb, fun w hw s' hs' => ?_, hpre⟩
          rcases List.mem_append.1 hw with hw | hw
          · exact hall w hw s' hs'
          · rw [List.mem_singleton.1 hw, hx] at hs'; cases hs'; exact hlt
        · right
          refine ⟨l, x, [], s, rfl, by simp, hx, lt_trans_ext hlt hb, fun w hw s' hs' => ?_, fun w hw s' hs' hn => ?_⟩
          · rcases List.mem_append.1 hw with hw | hw
            · exact not_lt_of_lt (hall w hw s' hs') hlt
            · rw [List.mem_singleton.1 hw, hx] at hs'; cases hs'; exact lt_irrefl_ext _
          · have h1 := hall w hw s' hs'
            have hbn : b ≠ .nan := by rintro rfl; simp [Ext.lt] at hb
            by_contra hcon
            rw [Bool.not_eq_true] at hcon
            have := lt_of_not_lt hlt hcon hn
            rw [h1] at this; cases this

/-- **C55.** The univariate search returns the first grid value whose score is smallest: its score is attained, no other grid value
has a smaller score, and every earlier value scores strictly higher (or its score failed or is NaN). It returns the first grid value
with an infinite score exactly when no grid value has a score below infinity. -/
theorem C55_univariate (score : V → Option (Ext K)) (d : V) (g : V) (gs : List V) :
    (∃ pre v suf b, g :: gs = pre ++ v :: suf ∧ univariate d score (g :: gs) = (v, b) ∧ score v = some b ∧
      (∀ w ∈ g :: gs, ∀ s, score w = some s → Ext.lt s b = false) ∧
      (∀ w ∈ pre, ∀ s, score w = some s → s ≠ .nan → Ext.lt b s = true)) ∨
    (univariate d score (g :: gs) = (g, .pinf) ∧ ∀ w ∈ g :: gs, ∀ s, score w = some s → Ext.lt s .pinf = false) := by
  unfold univariate
  rw [show (g :: gs).head?.getD d = g from rfl]
  rcases fold_inv score g (g :: gs) with h | ⟨pre, v, suf, b, h1, h2, h3, _, h5, h6⟩
  · exact Or.inr h
  · exact Or.inl ⟨pre, v, suf, b, h1, h2, h3, h5, h6⟩

/-- **C55.** The value returned by a univariate search over a non-empty grid is a member of the grid. -/
theorem C55_in_grid (score : V → Option (Ext K)) (d : V) (grid : List V) (hne : grid ≠ []) :
    (univariate d score grid).1 ∈ grid := by
  rcases grid with _ | ⟨g, gs⟩
  · exact absurd rfl hne
  · rcases C55_univariate score d g gs with ⟨pre, v, suf, b, h1, h2, _⟩ | ⟨h, _⟩
    · rw [h2, h1]; simp
    · rw [h]; simp

/-- `a` scores no worse than `b`: both have scores and the first is not above the second. -/
def NotWorse (a b : Option (Ext K)) : Prop := ∃ x y, a = some x ∧ b = some y ∧ x ≠ .nan ∧ y ≠ .nan ∧ Ext.le x y = true

theorem le_trans_ext {a b c : Ext K} (h1 : Ext.le a b = true) (h2 : Ext.le b c = true) : Ext.le a c = true := by
  cases a <;> cases b <;> cases c <;> simp_all [Ext.le]
  exact le_trans h1 h2

theorem NotWorse.trans {a b c : Option (Ext K)} (h1 : NotWorse a b) (h2 : NotWorse b c) : NotWorse a c := by
  obtain ⟨x, y, rfl, rfl, hx, _, hxy⟩ := h1
  obtain ⟨y', z, h, rfl, _, hz, hyz⟩ := h2
  cases h
  exact ⟨x, z, rfl, rfl, hx, hz, le_trans_ext hxy hyz⟩

/-- A search over a grid that contains the current value does not make a (below infinity) score worse. -/
theorem univariate_notWorse (score : V → Option (Ext K)) (d : V) (grid : List V) (v : V) (hv : v ∈ grid) (s : Ext K)
    (hs : score v = some s) (hlt : Ext.lt s .pinf = true) :
    NotWorse (score (univariate d score grid).1) (some s) ∧ score (univariate d score grid).1 = some (univariate d score grid).2 := by
  rcases grid with _ | ⟨g, gs⟩
  · simp at hv
  · rcases C55_univariate score d g gs with ⟨pre, w, suf, b, h1, h2, h3, h4, _⟩ | ⟨_, h⟩
    · rw [h2]
      refine ⟨⟨b, s, h3, rfl, ?_, ?_, ?_⟩, h3⟩
      · rintro rfl
        have hi : univariate d score (g :: gs) = (w, .nan) := h2
        unfold univariate at hi
        rw [show (g :: gs).head?.getD d = g from rfl] at hi
        rcases fold_inv score g (g :: gs) with ⟨h, _⟩ | ⟨_, _, _, b', _, h', _, hb, _⟩
        · rw [h] at hi; cases hi
        · rw [h'] at hi; cases hi; simp [Ext.lt] at hb
      · rintro rfl; simp [Ext.lt] at hlt
      · have := h4 v hv s hs
        have hb : b ≠ .nan := by
          rintro rfl
          have hi : univariate d score (g :: gs) = (w, .nan) := h2
          unfold univariate at hi
          rw [show (g :: gs).head?.getD d = g from rfl] at hi
          rcases fold_inv score g (g :: gs) with ⟨h, _⟩ | ⟨_, _, _, b', _, h', _, hb, _⟩
          · rw [h] at hi; cases hi
          · rw [h'] at hi; cases hi; simp [Ext.lt] at hb
        cases s <;> cases b <;> simp_all [Ext.lt, Ext.le]
    · rw [h v hv s hs] at hlt; cases hlt

/-- The parameters belong to the grids. -/
abbrev InGrids (g : Grids K) (l : Lam K) : Prop := l.time ∈ g.time ∧ l.unit ∈ g.unit ∧ l.nn ∈ g.nn

theorem NotWorse.below {a : Option (Ext K)} {s : Ext K} (h : NotWorse a (some s)) (hs : Ext.lt s .pinf = true) :
    ∃ x, a = some x ∧ Ext.lt x .pinf = true := by
  obtain ⟨x, y, rfl, hy, hx, hy', hxy⟩ := h
  cases hy
  refine ⟨x, rfl, ?_⟩
  cases x <;> cases s <;> simp_all [Ext.lt, Ext.le]

/-- **C55.** One coordinate-descent cycle, started at a grid point whose score is below infinity, ends at a grid point whose score is
not larger; the score it reports is the score of the point it returns. -/
theorem C55_cycle (score : Lam K → Option (Ext K)) (g : Grids K) (l : Lam K) (hin : InGrids g l) (s : Ext K)
    (hs : score (effective l) = some s) (hlt : Ext.lt s .pinf = true) :
    InGrids g (cycle score g l).1 ∧ NotWorse (score (effective (cycle score g l).1)) (some s) ∧
      score (effective (cycle score g l).1) = some (cycle score g l).2 := by
  obtain ⟨ht, hu, hn⟩ := hin
  have hc : cycle score g l = afterNn score g (afterTime score g (afterUnit score g l)) := rfl
  have s1 := univariate_notWorse (fun v => evalAt score { l with unit := v }) (.fin 0) g.unit l.unit hu s hs hlt
  have w1 : NotWorse (score (effective (afterUnit score g l))) (some s) := s1.1
  obtain ⟨x1, hx1, hx1'⟩ := w1.below hlt
  have s2 := univariate_notWorse (fun v => evalAt score { afterUnit score g l with time := v }) (.fin 0) g.time l.time ht x1 hx1 hx1'
  have w2 : NotWorse (score (effective (afterTime score g (afterUnit score g l)))) (some x1) := s2.1
  obtain ⟨x2, hx2, hx2'⟩ := w2.below hx1'
  have s3 := univariate_notWorse (fun v => evalAt score { afterTime score g (afterUnit score g l) with nn := v }) (.fin 0) g.nn l.nn hn x2 hx2 hx2'
  rw [hc]
  refine ⟨⟨?_, ?_, ?_⟩, ?_, s3.2⟩
  · exact C55_in_grid _ _ _ (List.ne_nil_of_mem ht)
  · exact C55_in_grid _ _ _ (List.ne_nil_of_mem hu)
  · exact C55_in_grid _ _ _ (List.ne_nil_of_mem hn)
  · exact (s3.1.trans (hx2 ▸ w2)).trans (hx1 ▸ w1)

theorem cycling_spec (score : Lam K → Option (Ext K)) (g : Grids K) (n : ℕ) : ∀ (prev : Ext K) (l : Lam K), InGrids g l →
    ∀ s, score (effective l) = some s → Ext.lt s .pinf = true →
    InGrids g (cycling score g n prev l) ∧ NotWorse (score (effective (cycling score g n prev l))) (some s) := by
  induction n with
  | zero =>
    intro prev l hin s hs hlt
    refine ⟨hin, s, s, hs, rfl, ?_, ?_, ?_⟩
    · rintro rfl; simp [Ext.lt] at hlt
    · rintro rfl; simp [Ext.lt] at hlt
    · cases s <;> simp [Ext.le] at hlt ⊢
      simp [Ext.lt] at hlt
  | succ n ih =>
    intro prev l hin s hs hlt
    obtain ⟨h1, h2, h3⟩ := C55_cycle score g l hin s hs hlt
    simp only [cycling]
    split
    · exact ⟨h1, h2⟩
    · obtain ⟨x, hx, hx'⟩ := h2.below hlt
      obtain ⟨h4, h5⟩ := ih (cycle score g l).2 (cycle score g l).1 h1 x hx hx'
      exact ⟨h4, h5.trans (hx ▸ h2)⟩

theorem cycling_mem (score : Lam K → Option (Ext K)) (g : Grids K) (n : ℕ) : ∀ (prev : Ext K) (l : Lam K), InGrids g l →
    InGrids g (cycling score g n prev l) := by
  induction n with
  | zero => intro _ l h; exact h
  | succ n ih =>
    intro prev l h
    have hc : InGrids g (cycle score g l).1 :=
      ⟨C55_in_grid _ _ _ (List.ne_nil_of_mem h.1), C55_in_grid _ _ _ (List.ne_nil_of_mem h.2.1),
        C55_in_grid _ _ _ (List.ne_nil_of_mem h.2.2)⟩
    simp only [cycling]
    split
    · exact hc
    · exact ih _ _ hc

theorem initial_mem (score : Lam K → Option (Ext K)) (g : Grids K) (ht : g.time ≠ []) (hu : g.unit ≠ []) (hn : g.nn ≠ []) :
    InGrids g (initial score g) :=
  ⟨C55_in_grid _ _ _ ht, C55_in_grid _ _ _ hu, C55_in_grid _ _ _ hn⟩

/-- **C55.** The parameters stored in the results are members of the user's (non-empty) grids, unless the final score was not a finite
number, in which case they are the documented defaults and the stored score is NaN. -/
theorem C55_selected_in_grids (score : Lam K → Option (Ext K)) (g : Grids K) (ht : g.time ≠ []) (hu : g.unit ≠ [])
    (hn : g.nn ≠ []) :
    (InGrids g (select score g).1 ∧ (select score g).2.isFinite = true ∧
      score (select score g).1 = some (select score g).2) ∨
    (select score g = ({ time := .fin 1, unit := .fin 1, nn := .fin (1 / 10) }, .nan) ∧
      ∀ s, score (search score g) = some s → s.isFinite = false) := by
  unfold select
  rcases h : score (search score g) with _ | s
  · right; exact ⟨rfl, fun s hs => by cases hs⟩
  · simp only
    rcases hf : s.isFinite with _ | _
    · right; refine ⟨by simp, fun s' hs' => ?_⟩; cases hs'; exact hf
    · left
      rw [if_pos rfl]
      exact ⟨cycling_mem score g 10 .pinf _ (initial_mem score g ht hu hn), hf, h⟩

/-- **C55.** Coordinate descent never ends worse than it started: if the first-stage point has a score below infinity, the final
point's score (under the conversion used by search and estimation) is not larger. -/
theorem C55_never_worse (score : Lam K → Option (Ext K)) (g : Grids K) (ht : g.time ≠ []) (hu : g.unit ≠ [])
    (hn : g.nn ≠ []) (s : Ext K) (hs : score (effective (initial score g)) = some s) (hlt : Ext.lt s .pinf = true) :
    NotWorse (score (effective (search score g))) (some s) :=
  (cycling_spec score g 10 .pinf _ (initial_mem score g ht hu hn) s hs hlt).2

/-- **C55.** If the search stopped because two successive cycles scored exactly the same (a fixed point: one more cycle does not move),
the returned point cannot be improved by changing any single parameter within its grid. -/
theorem C55_fixed_point (score : Lam K → Option (Ext K)) (g : Grids K) (l : Lam K) (hin : InGrids g l) (s : Ext K)
    (hs : score (effective l) = some s) (hlt : Ext.lt s .pinf = true) (hfix : (cycle score g l).1 = l) :
    (∀ v ∈ g.unit, ∀ x, score (effective { l with unit := v }) = some x → Ext.lt x s = false) ∧
    (∀ v ∈ g.time, ∀ x, score (effective { l with time := v }) = some x → Ext.lt x s = false) ∧
    (∀ v ∈ g.nn, ∀ x, score (effective { l with nn := v }) = some x → Ext.lt x s = false) := by
  obtain ⟨ht, hu, hn⟩ := hin
  have hmin : ∀ (q : Ext K → Option (Ext K)) (grid : List (Ext K)) (d v0 : Ext K), v0 ∈ grid → q v0 = some s →
      (univariate d q grid).1 = v0 → ∀ v ∈ grid, ∀ x, q v = some x → Ext.lt x s = false := by
    intro q grid d v0 hv0 hq hr v hv x hx
    rcases grid with _ | ⟨a, as⟩
    · simp at hv
    · rcases C55_univariate q d a as with ⟨pre, w, suf, b, h1, h2, h3, h4, _⟩ | ⟨_, h⟩
      · rw [h2] at hr
        simp only at hr
        rw [hr, hq] at h3
        cases h3
        exact h4 v hv x hx
      · rw [h v0 hv0 s hq] at hlt; cases hlt
  have hunit : (searchUnit score g l).1 = l.unit := congrArg Lam.unit hfix
  have h1 : afterUnit score g l = l := by unfold afterUnit; rw [hunit]
  unfold cycle at hfix
  rw [h1] at hfix
  have htime : (searchTime score g l).1 = l.time := congrArg Lam.time hfix
  have h2 : afterTime score g l = l := by unfold afterTime; rw [htime]
  rw [h2] at hfix
  have hnn : (searchNn score g l).1 = l.nn := congrArg Lam.nn hfix
  exact ⟨hmin _ g.unit _ l.unit hu hs hunit, hmin _ g.time _ l.time ht hs htime, hmin _ g.nn _ l.nn hn hs hnn⟩

/-! ### C56, search part -/

/-- Replace infinities in the time and unit grids by 0. -/
def zeroed (g : Grids K) : Grids K := { time := g.time.map conv, unit := g.unit.map conv, nn := g.nn }

theorem conv_idem (x : Ext K) : conv (conv x) = conv x := by cases x <;> rfl

theorem step_map {W : Type*} (f : V → W) (q : V → Option (Ext K)) (q' : W → Option (Ext K)) (h : ∀ v, q' (f v) = q v)
    (l : List V) : ∀ b : V × Ext K, (l.map f).foldl (step q') (f b.1, b.2) =
      (f (l.foldl (step q) b).1, (l.foldl (step q) b).2) := by
  induction l with
  | nil => intro b; rfl
  | cons v l ih =>
    intro b
    rw [List.map_cons, List.foldl_cons, List.foldl_cons]
    have : step q' (f b.1, b.2) (f v) = (f (step q b v).1, (step q b v).2) := by
      unfold step
      rw [h v]
      rcases q v with _ | s
      · rfl
      · simp only
        split <;> rfl
    rw [this]
    exact ih _

theorem univariate_map (f : Ext K → Ext K) (hf : f (.fin 0) = .fin 0) (q q' : Ext K → Option (Ext K)) (h : ∀ v, q' (f v) = q v)
    (l : List (Ext K)) : univariate (.fin 0) q' (l.map f) = (f (univariate (.fin 0) q l).1, (univariate (.fin 0) q l).2) := by
  unfold univariate
  have : (l.map f).head?.getD (.fin 0) = f (l.head?.getD (.fin 0)) := by
    cases l with
    | nil => simp [hf]
    | cons a l => rfl
  rw [this]
  exact step_map f q q' h l (l.head?.getD (.fin 0), .pinf)

/-- Convert the time and unit entries only. -/
def zeroedLam (l : Lam K) : Lam K := { time := conv l.time, unit := conv l.unit, nn := l.nn }

theorem effective_zeroed (l : Lam K) : effective (zeroedLam l) = effective l := by
  simp [effective, zeroedLam, conv_idem]

theorem evalAt_zeroed (score : Lam K → Option (Ext K)) (l : Lam K) : evalAt score (zeroedLam l) = evalAt score l := by
  unfold evalAt
  rw [effective_zeroed]

theorem conv_zero : conv (.fin 0 : Ext K) = .fin 0 := rfl

theorem searchUnit_zeroed (score : Lam K → Option (Ext K)) (g : Grids K) (l : Lam K) :
    searchUnit score (zeroed g) (zeroedLam l) = (conv (searchUnit score g l).1, (searchUnit score g l).2) :=
  univariate_map conv conv_zero _ _ (fun v => evalAt_zeroed score { l with unit := v }) g.unit

theorem searchTime_zeroed (score : Lam K → Option (Ext K)) (g : Grids K) (l : Lam K) :
    searchTime score (zeroed g) (zeroedLam l) = (conv (searchTime score g l).1, (searchTime score g l).2) :=
  univariate_map conv conv_zero _ _ (fun v => evalAt_zeroed score { l with time := v }) g.time

theorem searchNn_zeroed (score : Lam K → Option (Ext K)) (g : Grids K) (l : Lam K) :
    searchNn score (zeroed g) (zeroedLam l) = searchNn score g l := by
  have := univariate_map (K := K) id rfl (fun v => evalAt score { l with nn := v })
    (fun v => evalAt score { zeroedLam l with nn := v }) (fun v => evalAt_zeroed score { l with nn := v }) g.nn
  rw [List.map_id] at this
  exact this

theorem afterUnit_zeroed (score : Lam K → Option (Ext K)) (g : Grids K) (l : Lam K) :
    afterUnit score (zeroed g) (zeroedLam l) = zeroedLam (afterUnit score g l) := by
  unfold afterUnit; rw [searchUnit_zeroed]; rfl

theorem afterTime_zeroed (score : Lam K → Option (Ext K)) (g : Grids K) (l : Lam K) :
    afterTime score (zeroed g) (zeroedLam l) = zeroedLam (afterTime score g l) := by
  unfold afterTime; rw [searchTime_zeroed]; rfl

theorem cycle_zeroed (score : Lam K → Option (Ext K)) (g : Grids K) (l : Lam K) :
    cycle score (zeroed g) (zeroedLam l) = (zeroedLam (cycle score g l).1, (cycle score g l).2) := by
  unfold cycle
  rw [afterUnit_zeroed, afterTime_zeroed]
  unfold afterNn
  rw [searchNn_zeroed]
  rfl

theorem cycling_zeroed (score : Lam K → Option (Ext K)) (g : Grids K) (n : ℕ) : ∀ (prev : Ext K) (l : Lam K),
    cycling score (zeroed g) n prev (zeroedLam l) = zeroedLam (cycling score g n prev l) := by
  induction n with
  | zero => intro _ _; rfl
  | succ n ih =>
    intro prev l
    simp only [cycling]
    rw [cycle_zeroed]
    simp only
    split
    · rfl
    · exact ih _ _

theorem initial_zeroed (score : Lam K → Option (Ext K)) (g : Grids K) :
    initial score (zeroed g) = zeroedLam (initial score g) := by
  have h1 := searchTime_zeroed score g { time := .fin 0, unit := .fin 0, nn := .pinf }
  have h2 := searchUnit_zeroed score g { time := .fin 0, unit := .fin 0, nn := .pinf }
  have h3 := searchNn_zeroed score g { time := .pinf, unit := .fin 0, nn := .fin 0 }
  have e3 : searchNn score (zeroed g) { time := .pinf, unit := .fin 0, nn := .fin 0 } =
      searchNn score (zeroed g) (zeroedLam { time := .pinf, unit := .fin 0, nn := .fin 0 }) := rfl
  unfold initial
  rw [e3, h3]
  change ({ time := (searchTime score (zeroed g) (zeroedLam { time := .fin 0, unit := .fin 0, nn := .pinf })).1,
            unit := (searchUnit score (zeroed g) (zeroedLam { time := .fin 0, unit := .fin 0, nn := .pinf })).1,
            nn := _ } : Lam K) = _
  rw [h1, h2]
  rfl

/-- **C56, search part.** Writing infinity instead of 0 in the time or unit grid changes nothing in the search: the selected combination
has the same effective values, entry by entry, and it is the infinity-free one with the infinities put back. -/
theorem C56_search (score : Lam K → Option (Ext K)) (g : Grids K) :
    effective (search score (zeroed g)) = effective (search score g) ∧
      search score (zeroed g) = zeroedLam (search score g) := by
  have : search score (zeroed g) = zeroedLam (search score g) := by
    unfold search
    rw [initial_zeroed, cycling_zeroed]
  exact ⟨by rw [this, effective_zeroed], this⟩

/-- **C56, estimation and variance, partial.** If the final scores with and without infinities are both finite numbers, the parameters
used for the point estimate and for the variance are the same. The stored score itself is not the same: see
`C56_final_score_refuted` in `TropShiftProps`. -/
theorem C56_effective_partial (score : Lam K → Option (Ext K)) (g : Grids K) (a b : Ext K)
    (h1 : score (search score g) = some a) (h2 : score (search score (zeroed g)) = some b)
    (ha : a.isFinite = true) (hb : b.isFinite = true) :
    effective (select score (zeroed g)).1 = effective (select score g).1 := by
  have e1 : (select score g).1 = search score g := by
    unfold select; rw [h1]; simp [ha]
  have e2 : (select score (zeroed g)).1 = search score (zeroed g) := by
    unfold select; rw [h2]; simp [hb]
  rw [e1, e2]
  exact (C56_search score g).1

end Search

/-! Concrete cases for the search. -/

/-- A separable score with minimum at λ = (1, 0, 1e10 or more); a failing evaluation at λ_time = 5. -/
def bowl (l : Lam ℚ) : Option (Ext ℚ) := match l.time, l.unit, l.nn with
  | .fin t, .fin u, .fin n => if t = 5 then none else some (.fin ((t - 1) ^ 2 + u ^ 2 + (if n < 100 then 1 else 0)))
  | _, _, _ => some .nan

def grids : Grids ℚ := { time := [.fin 5, .fin 2, .fin 1, .fin 0], unit := [.fin 1, .pinf, .fin 0], nn := [.fin 0, .pinf] }

def viewL (l : Lam ℚ) : List (Ext ℚ) := [l.time, l.unit, l.nn]

example : viewL (search bowl grids) = [.fin 1, .pinf, .pinf] ∧ viewL (initial bowl grids) = [.fin 1, .pinf, .pinf] ∧
    bowl (effective (initial bowl grids)) = some (.fin 0) := by decide +kernel

example : univariate (.fin 0) (fun v => bowl { time := v, unit := .fin 0, nn := .fin 7 }) [.fin 5, .fin 2, .fin 0, .fin 1, .fin 1] =
    (.fin 1, .fin 1) := by decide +kernel

/-- Hypotheses of `C56_effective_partial`: a score that is finite everywhere. -/
def flat (l : Lam ℚ) : Option (Ext ℚ) := some (.fin (if l.time = .fin 1 then 0 else 1))

example : flat (search flat grids) = some (.fin 0) ∧ flat (search flat (zeroed grids)) = some (.fin 0) ∧
    viewL (search flat grids) = [.fin 1, .fin 1, .fin 0] := by decide +kernel

/-- **C55, refuted as a global claim.** The search is coordinate descent: it can stop at a combination that is beaten by another
combination of the user's grid values. -/
theorem C55_global_refuted :
    ∃ (score : Lam ℚ → Option (Ext ℚ)) (g : Grids ℚ) (l : Lam ℚ), InGrids g l ∧ InGrids g (search score g) ∧
      score (effective l) = some (.fin 0) ∧ score (effective (search score g)) = some (.fin 1) := by
  refine ⟨fun l => some (if l.time = .fin 1 ∧ l.unit = .fin 1 ∧ l.nn = .fin 1 then .fin 0
    else if l.time = .fin 0 ∧ l.unit = .fin 0 then .fin 1 else .fin 2),
    { time := [.fin 0, .fin 1], unit := [.fin 0, .fin 1], nn := [.fin 1] },
    { time := .fin 1, unit := .fin 1, nn := .fin 1 }, ?_⟩
  refine ⟨by decide +kernel, by decide +kernel, by decide +kernel, by decide +kernel⟩

end DiffDiff.Trop
