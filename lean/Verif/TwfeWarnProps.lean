/-
Properties of the staggered-timing check: C135.
-/
import Verif.TwfeWarn
import Mathlib.Data.Finset.Card
import Mathlib.Data.Finset.Image
import Mathlib.Data.List.Perm.Basic
import Mathlib.Data.Rat.Defs
import Mathlib.Algebra.Field.Rat
import Mathlib.Tactic.Linarith

set_option linter.unusedSectionVars false

namespace DiffDiff.TwfeWarn

open scoped List

variable {U T K : Type*} [LinearOrder U] [LinearOrder T] [DecidableEq K] [One K]

/-! ### Specification -/

/-- Period `t` is the first one in which unit `u` has a treated row. -/
def StartsAt (rows : List (Row U T K)) (u : U) (t : T) : Prop :=
  (∃ r ∈ rows, r.unit = some u ∧ r.time = some t ∧ r.d = some 1) ∧
  ∀ r ∈ rows, r.unit = some u → r.d = some 1 → ∀ s, r.time = some s → t ≤ s

/-- Unit and period are recorded in every row. -/
def Complete (rows : List (Row U T K)) : Prop := ∀ r ∈ rows, r.unit ≠ none ∧ r.time ≠ none

/-! ### Lemmas -/

theorem mem_keys {rows : List (Row U T K)} {u : U} : u ∈ keys rows ↔ ∃ r ∈ rows, r.unit = some u ∧ r.d = some 1 := by
  unfold keys treatedObs
  rw [List.mem_insertionSort, List.mem_dedup, List.mem_filterMap]
  simp only [List.mem_filter, decide_eq_true_eq]
  exact ⟨fun ⟨r, ⟨h1, h2⟩, h3⟩ => ⟨r, h1, h3, h2⟩, fun ⟨r, h1, h3, h2⟩ => ⟨r, ⟨h1, h2⟩, h3⟩⟩

theorem foldl_min (ts : List T) : ∀ t : T, ts.foldl min t ∈ t :: ts ∧ ∀ s ∈ t :: ts, ts.foldl min t ≤ s := by
  induction ts with
  | nil => intro t; simp
  | cons a ts ih =>
    intro t
    obtain ⟨h1, h2⟩ := ih (min t a)
    rw [List.foldl_cons]
    constructor
    · rcases List.mem_cons.1 h1 with h | h
      · rw [h]; rcases min_choice t a with h | h <;> simp [h]
      · simp [h]
    · intro s hs
      have hm := h2 (min t a) (by simp)
      rcases List.mem_cons.1 hs with rfl | hs
      · exact hm.trans (min_le_left _ _)
      · rcases List.mem_cons.1 hs with rfl | hs
        · exact hm.trans (min_le_right _ _)
        · exact h2 s (by simp [hs])

theorem mem_times {rows : List (Row U T K)} {u : U} {t : T} :
    t ∈ ((treatedObs rows).filter (fun r => decide (r.unit = some u))).filterMap Row.time ↔ ∃ r ∈ rows, r.unit = some u ∧ r.time = some t ∧ r.d = some 1 := by
  rw [List.mem_filterMap]
  simp only [treatedObs, List.mem_filter, decide_eq_true_eq]
  exact ⟨fun ⟨r, ⟨⟨h1, h2⟩, h3⟩, h4⟩ => ⟨r, h1, h3, h4, h2⟩, fun ⟨r, h1, h3, h4, h2⟩ => ⟨r, ⟨⟨h1, h2⟩, h3⟩, h4⟩⟩

theorem first_some {rows : List (Row U T K)} {u : U} {t : T} : first rows u = some t ↔ StartsAt rows u t := by
  unfold first
  cases h : ((treatedObs rows).filter (fun r => decide (r.unit = some u))).filterMap Row.time with
  | nil =>
    refine ⟨fun h => (by cases h), fun hs => ?_⟩
    have := mem_times.2 hs.1
    rw [h] at this; cases this
  | cons a ts =>
    have hm : ∀ s, s ∈ a :: ts ↔ ∃ r ∈ rows, r.unit = some u ∧ r.time = some s ∧ r.d = some 1 := fun s => by rw [← h]; exact mem_times
    obtain ⟨h1, h2⟩ := foldl_min ts a
    have e : StartsAt rows u (ts.foldl min a) := ⟨(hm _).1 h1, fun r hr hu hd s hs => h2 s ((hm s).2 ⟨r, hr, hu, hs, hd⟩)⟩
    constructor
    · intro h; rw [← Option.some.inj h]; exact e
    · intro hs
      refine congrArg some (le_antisymm ?_ ?_)
      · exact h2 t ((hm t).2 hs.1)
      · obtain ⟨r, hr, hu, ht, hd⟩ := e.1
        exact hs.2 r hr hu hd _ ht

theorem first_none {rows : List (Row U T K)} {u : U} : first rows u = none ↔ ∀ r ∈ rows, r.unit = some u → r.d = some 1 → r.time = none := by
  constructor
  · intro h r hr hu hd
    cases ht : r.time with
    | none => rfl
    | some t =>
      have := mem_times.2 ⟨r, hr, hu, ht, hd⟩
      unfold first at h
      split at h
      · rename_i e; rw [e] at this; cases this
      · cases h
  · intro h
    cases hf : first rows u with
    | none => rfl
    | some t =>
      obtain ⟨⟨r, hr, hu, ht, hd⟩, _⟩ := first_some.1 hf
      rw [h r hr hu hd] at ht; cases ht

theorem starts_unique {rows : List (Row U T K)} {u : U} {t s : T} (h : StartsAt rows u t) (h' : StartsAt rows u s) : t = s := by
  have := (first_some.2 h).symm.trans (first_some.2 h')
  exact Option.some.inj this

theorem mem_cohorts {rows : List (Row U T K)} {x : Option T} : x ∈ cohorts rows ↔ ∃ u, (∃ r ∈ rows, r.unit = some u ∧ r.d = some 1) ∧ first rows u = x := by
  unfold cohorts
  rw [List.mem_reverse, List.mem_dedup, List.mem_reverse, List.mem_map]
  exact ⟨fun ⟨u, h, e⟩ => ⟨u, mem_keys.1 h, e⟩, fun ⟨u, h, e⟩ => ⟨u, mem_keys.2 h, e⟩⟩

theorem cohorts_nodup (rows : List (Row U T K)) : (cohorts rows).Nodup := by
  unfold cohorts
  rw [List.nodup_reverse]; exact List.nodup_dedup _

theorem two_of_length {α : Type*} {l : List α} (h : l.Nodup) : 1 < l.length ↔ ∃ x ∈ l, ∃ y ∈ l, x ≠ y := by
  constructor
  · intro hl
    match l, h, hl with
    | x :: y :: _, h, _ => exact ⟨x, by simp, y, by simp, fun e => by simp [e] at h⟩
  · rintro ⟨x, hx, y, hy, e⟩
    match l, hx, hy with
    | [z], hx, hy => simp at hx hy; exact absurd (hx.trans hy.symm) e
    | _ :: _ :: _, _, _ => simp

/-! ### C135 -/

/-- C135. With unit and period recorded in every row, `fit` warns exactly when two units start treatment in different periods. -/
theorem C135_warns_iff (rows : List (Row U T K)) (hc : Complete rows) :
    check rows ≠ none ↔ ∃ u v s t, StartsAt rows u s ∧ StartsAt rows v t ∧ s ≠ t := by
  have hs : ∀ u, (∃ r ∈ rows, r.unit = some u ∧ r.d = some 1) → ∃ t, first rows u = some t := by
    rintro u ⟨r, hr, hu, hd⟩
    cases hf : first rows u with
    | some t => exact ⟨t, rfl⟩
    | none => exact absurd (first_none.1 hf r hr hu hd) (hc r hr).2
  have key : check rows ≠ none ↔ 1 < (cohorts rows).length := by
    unfold check
    by_cases h1 : treatedObs rows = []
    · rw [if_pos h1]
      have : cohorts rows = [] := by simp [cohorts, keys, h1]
      simp [this]
    · rw [if_neg h1]
      by_cases h2 : 1 < (cohorts rows).length
      · rw [if_pos h2]; simp [h2]
      · rw [if_neg h2]; simp [h2]
  rw [key, two_of_length (cohorts_nodup rows)]
  constructor
  · rintro ⟨x, hx, y, hy, hne⟩
    obtain ⟨u, hu, rfl⟩ := mem_cohorts.1 hx
    obtain ⟨v, hv, rfl⟩ := mem_cohorts.1 hy
    obtain ⟨s, es⟩ := hs u hu
    obtain ⟨t, et⟩ := hs v hv
    exact ⟨u, v, s, t, first_some.1 es, first_some.1 et, fun e => hne (by rw [es, et, e])⟩
  · rintro ⟨u, v, s, t, h1, h2, hne⟩
    obtain ⟨r, hr, hu, _, hd⟩ := h1.1
    obtain ⟨r', hr', hu', _, hd'⟩ := h2.1
    exact ⟨some s, mem_cohorts.2 ⟨u, ⟨r, hr, hu, hd⟩, first_some.2 h1⟩, some t, mem_cohorts.2 ⟨v, ⟨r', hr', hu', hd'⟩, first_some.2 h2⟩,
      fun e => hne (Option.some.inj e)⟩

/-- C135. The number in the warning is the number of distinct starting periods. -/
theorem C135_count (rows : List (Row U T K)) (hc : Complete rows) (n : ℕ) (h : check rows = some n) (S : Finset T)
    (hS : ∀ t, t ∈ S ↔ ∃ u, StartsAt rows u t) : n = S.card := by
  unfold check at h
  by_cases h1 : treatedObs rows = []
  · rw [if_pos h1] at h; cases h
  rw [if_neg h1] at h
  by_cases h2 : 1 < (cohorts rows).length
  · rw [if_pos h2] at h
    rw [← Option.some.inj h, ← List.toFinset_card_of_nodup (cohorts_nodup rows), ← Finset.card_image_of_injective S (Option.some_injective T)]
    congr 1
    ext x
    rw [List.mem_toFinset, mem_cohorts, Finset.mem_image]
    constructor
    · rintro ⟨u, ⟨r, hr, hu, hd⟩, rfl⟩
      cases hf : first rows u with
      | some t => exact ⟨t, (hS t).2 ⟨u, first_some.1 hf⟩, rfl⟩
      | none => exact absurd (first_none.1 hf r hr hu hd) (hc r hr).2
    · rintro ⟨t, ht, rfl⟩
      obtain ⟨u, hu⟩ := (hS t).1 ht
      obtain ⟨r, hr, h', _, hd⟩ := hu.1
      exact ⟨u, ⟨r, hr, h', hd⟩, first_some.2 hu⟩
  · rw [if_neg h2] at h; cases h

/-- C135. With an absorbing treatment and every unit observed in every period, `fit` warns exactly when two units adopt at different dates among the periods
of the data. -/
theorem C135_adoption [Zero K] [NeZero (1 : K)] (rows : List (Row U T K)) (hc : Complete rows) (g : U → T)
    (hb : ∀ r ∈ rows, ∀ r' ∈ rows, ∃ q ∈ rows, q.unit = r.unit ∧ q.time = r'.time)
    (hd : ∀ r ∈ rows, ∀ u t, r.unit = some u → r.time = some t → r.d = some (if g u ≤ t then 1 else 0))
    (hg : ∀ r ∈ rows, ∀ u, r.unit = some u → ∀ q ∈ rows, ∀ t, q.time = some t → g u ≤ t → ∃ q' ∈ rows, q'.time = some (g u)) :
    check rows ≠ none ↔ ∃ u v, (∃ r ∈ rows, r.unit = some u ∧ r.d = some 1) ∧ (∃ r ∈ rows, r.unit = some v ∧ r.d = some 1) ∧ g u ≠ g v := by
  rw [C135_warns_iff rows hc]
  have treatedAt : ∀ r ∈ rows, ∀ u t, r.unit = some u → r.time = some t → r.d = some 1 → g u ≤ t := by
    intro r hr u t hu ht h1
    have := hd r hr u t hu ht
    rw [h1] at this
    by_contra hlt
    rw [if_neg hlt] at this
    exact one_ne_zero (Option.some.inj this)
  have start : ∀ u, (∃ r ∈ rows, r.unit = some u ∧ r.d = some 1) → StartsAt rows u (g u) := by
    rintro u ⟨r, hr, hu, h1⟩
    obtain ⟨t, ht⟩ := Option.ne_none_iff_exists'.1 (hc r hr).2
    obtain ⟨q, hq, hqt⟩ := hg r hr u hu r hr t ht (treatedAt r hr u t hu ht h1)
    obtain ⟨q', hq', hu', ht'⟩ := hb r hr q hq
    rw [hu] at hu'; rw [hqt] at ht'
    have := hd q' hq' u (g u) hu' ht'
    rw [if_pos le_rfl] at this
    exact ⟨⟨q', hq', hu', ht', this⟩, fun r' hr' hu'' hd' s hs => treatedAt r' hr' u s hu'' hs hd'⟩
  constructor
  · rintro ⟨u, v, s, t, h1, h2, hne⟩
    have tu : ∃ r ∈ rows, r.unit = some u ∧ r.d = some 1 := by obtain ⟨r, hr, h, _, h'⟩ := h1.1; exact ⟨r, hr, h, h'⟩
    have tv : ∃ r ∈ rows, r.unit = some v ∧ r.d = some 1 := by obtain ⟨r, hr, h, _, h'⟩ := h2.1; exact ⟨r, hr, h, h'⟩
    refine ⟨u, v, tu, tv, ?_⟩
    rw [← starts_unique h1 (start u tu), ← starts_unique h2 (start v tv)]; exact hne
  · rintro ⟨u, v, tu, tv, hne⟩
    exact ⟨u, v, g u, g v, start u tu, start v tv, hne⟩

/-- C135. The order of the rows does not matter. -/
theorem C135_row_order (rows rows' : List (Row U T K)) (h : rows ~ rows') : check rows = check rows' := by
  have hk : keys rows = keys rows' := by
    have h1 : (treatedObs rows).filterMap Row.unit ~ (treatedObs rows').filterMap Row.unit := (h.filter _).filterMap _
    refine List.Perm.eq_of_pairwise (le := (· ≤ ·)) (fun a b _ _ h1 h2 => le_antisymm h1 h2) (List.pairwise_insertionSort _ _) (List.pairwise_insertionSort _ _) ?_
    exact (List.perm_insertionSort _ _).trans ((h1.dedup).trans (List.perm_insertionSort _ _).symm)
  have hf : first rows = first rows' := by
    funext u
    have st : ∀ t, StartsAt rows u t ↔ StartsAt rows' u t := fun t => by unfold StartsAt; simp only [h.mem_iff]
    cases e : first rows' u with
    | some t => exact first_some.2 ((st t).2 (first_some.1 e))
    | none => exact first_none.2 fun r hr => first_none.1 e r (h.mem_iff.1 hr)
  have hco : cohorts rows = cohorts rows' := by unfold cohorts; rw [hk, hf]
  have ht : treatedObs rows = [] ↔ treatedObs rows' = [] := by
    have h1 : treatedObs rows ~ treatedObs rows' := h.filter _
    exact ⟨fun e => List.nil_perm.1 (e ▸ h1), fun e => List.perm_nil.1 (e ▸ h1)⟩
  unfold check
  rw [hco]
  by_cases h0 : treatedObs rows = []
  · rw [if_pos h0, if_pos (ht.1 h0)]
  · rw [if_neg h0, if_neg (fun e => h0 (ht.2 e))]

/-- C135. Group indicators: `fit` multiplies the treatment column by the period column, so the column is meant to mark the treated group. With such a
column and every unit observed in every period the check can never warn, however adoption was staggered. -/
theorem C135_group_silent (rows : List (Row U T K)) (hc : Complete rows)
    (hb : ∀ r ∈ rows, ∀ r' ∈ rows, ∃ q ∈ rows, q.unit = r.unit ∧ q.time = r'.time)
    (hg : ∀ r ∈ rows, ∀ r' ∈ rows, r.unit = r'.unit → r.d = r'.d) : check rows = none := by
  by_contra hne
  obtain ⟨u, v, s, t, h1, h2, hst⟩ := (C135_warns_iff rows hc).1 hne
  have le : ∀ {u v : U} {s t : T}, StartsAt rows u s → StartsAt rows v t → t ≤ s := by
    intro u v s t h1 h2
    obtain ⟨r, hr, hu, hrs, _⟩ := h1.1
    obtain ⟨r', hr', hv, _, hd'⟩ := h2.1
    obtain ⟨q, hq, hqu, hqt⟩ := hb r' hr' r hr
    exact h2.2 q hq (hqu.trans hv) ((hg q hq r' hr' hqu).trans hd') s (hqt.trans hrs)
  exact hst (le_antisymm (le h2 h1) (le h1 h2))

/-- Two groups, treated group adopting at once; unit 2 enters in period 1. -/
def late : List (Row ℕ ℕ ℚ) :=
  [⟨some 0, some 0, some 0⟩, ⟨some 0, some 1, some 0⟩, ⟨some 1, some 0, some 1⟩, ⟨some 1, some 1, some 1⟩, ⟨some 2, some 1, some 1⟩]

/-- C135, refuted: a treated unit that enters the panel late is reported as a second treatment cohort although no unit changes its treatment status. -/
theorem C135_late_entry_refuted : check late = some 2 ∧ Complete late ∧ ∀ r ∈ late, ∀ r' ∈ late, r.unit = r'.unit → r.d = r'.d := by
  refine ⟨by decide +kernel, ?_, by decide +kernel⟩
  unfold Complete; decide +kernel

/-! ### Instances -/

/-- Hypotheses of `C135_adoption`, `C135_warns_iff` and `C135_count`: three units over three periods, adopting in periods 1 and 2 and never. -/
example : ∃ (rows : List (Row ℕ ℕ ℚ)) (g : ℕ → ℕ), Complete rows ∧ check rows = some 2 ∧
    (∀ r ∈ rows, ∀ r' ∈ rows, ∃ q ∈ rows, q.unit = r.unit ∧ q.time = r'.time) ∧
    (∀ r ∈ rows, ∀ u t, r.unit = some u → r.time = some t → r.d = some (if g u ≤ t then 1 else 0)) ∧
    (∀ r ∈ rows, ∀ u, r.unit = some u → ∀ q ∈ rows, ∀ t, q.time = some t → g u ≤ t → ∃ q' ∈ rows, q'.time = some (g u)) ∧ StartsAt rows 0 1 ∧ StartsAt rows 1 2 := by
  refine ⟨[⟨some 0, some 0, some 0⟩, ⟨some 0, some 1, some 1⟩, ⟨some 0, some 2, some 1⟩, ⟨some 1, some 0, some 0⟩, ⟨some 1, some 1, some 0⟩, ⟨some 1, some 2, some 1⟩,
    ⟨some 2, some 0, some 0⟩, ⟨some 2, some 1, some 0⟩, ⟨some 2, some 2, some 0⟩], fun u => if u = 0 then 1 else if u = 1 then 2 else 9, ?_⟩
  refine ⟨by unfold Complete; decide +kernel, by decide +kernel, by decide +kernel, ?_, ?_, ?_, ?_⟩
  · intro r hr u t hu ht
    simp only [List.mem_cons, List.not_mem_nil, or_false] at hr
    rcases hr with rfl | rfl | rfl | rfl | rfl | rfl | rfl | rfl | rfl <;> (cases hu; cases ht; decide +kernel)
  · intro r hr u hu q hq t ht hle
    simp only [List.mem_cons, List.not_mem_nil, or_false] at hr hq
    rcases hr with rfl | rfl | rfl | rfl | rfl | rfl | rfl | rfl | rfl <;> cases hu <;>
      first
      | exact ⟨⟨some 0, some 1, some 1⟩, by simp, rfl⟩
      | exact ⟨⟨some 0, some 2, some 1⟩, by simp, rfl⟩
      | (exfalso; rcases hq with rfl | rfl | rfl | rfl | rfl | rfl | rfl | rfl | rfl <;> cases ht <;> simp at hle)
  · exact first_some.1 (by decide +kernel)
  · exact first_some.1 (by decide +kernel)

/-- Hypotheses of `C135_group_silent`: two treated units and a control, balanced. -/
example : ∃ rows : List (Row ℕ ℕ ℚ), Complete rows ∧ (∀ r ∈ rows, ∀ r' ∈ rows, ∃ q ∈ rows, q.unit = r.unit ∧ q.time = r'.time) ∧
    (∀ r ∈ rows, ∀ r' ∈ rows, r.unit = r'.unit → r.d = r'.d) ∧ (∃ r ∈ rows, r.d = some 1) := by
  refine ⟨[⟨some 0, some 0, some 0⟩, ⟨some 0, some 1, some 0⟩, ⟨some 1, some 0, some 1⟩, ⟨some 1, some 1, some 1⟩, ⟨some 2, some 0, some 1⟩, ⟨some 2, some 1, some 1⟩], ?_⟩
  refine ⟨by unfold Complete; decide +kernel, by decide +kernel, by decide +kernel, by decide +kernel⟩

/-- A missing period counts as a cohort of its own: why `Complete` is assumed. -/
example : check ([⟨some 0, some 0, some 1⟩, ⟨some 1, none, some 1⟩, ⟨none, some 5, some 1⟩] : List (Row ℕ ℕ ℚ)) = some 2 := by decide +kernel

end DiffDiff.TwfeWarn
