/-
C47-C49, C83-C86: data preparation.
-/
import Verif.Prep
import Verif.Did2x2Props
import Mathlib.Data.List.ProdSigma

set_option linter.unusedSectionVars false

namespace DiffDiff.Prep

theorem mem_unique {α : Type*} [DecidableEq α] {l : List α} {a : α} : a ∈ unique l ↔ a ∈ l := by simp [unique]

theorem nodup_unique {α : Type*} [DecidableEq α] (l : List α) : (unique l).Nodup :=
  List.nodup_reverse.2 (List.nodup_dedup _)

theorem length_unique {α : Type*} [DecidableEq α] (l : List α) : (unique l).length = l.toFinset.card := by
  unfold unique
  rw [List.length_reverse, ← List.card_toFinset]
  congr 1
  ext a; simp

/-! ### C47: inner -/

section labels
variable {U T R : Type*} [DecidableEq U] [DecidableEq T]

/-- Specification: unit `u` is observed in every labelled period of the data. -/
def Complete (rows : List (LRow U T R)) (u : U) : Prop :=
  ∀ t, (∃ r ∈ rows, r.time = some t) → ∃ r ∈ rows, r.unit = some u ∧ r.time = some t

/-- Labelled periods of the data, and of a unit. -/
def times (rows : List (LRow U T R)) : Finset T := (rows.filterMap (fun r => r.time)).toFinset
def timesOf (rows : List (LRow U T R)) (u : U) : Finset T :=
  ((rows.filter (fun r => decide (r.unit = some u))).filterMap (fun r => r.time)).toFinset

theorem mem_times {rows : List (LRow U T R)} {t : T} : t ∈ times rows ↔ ∃ r ∈ rows, r.time = some t := by
  simp [times]

theorem mem_timesOf {rows : List (LRow U T R)} {u : U} {t : T} :
    t ∈ timesOf rows u ↔ ∃ r ∈ rows, r.unit = some u ∧ r.time = some t := by
  simp [timesOf, and_assoc]

theorem timesOf_subset (rows : List (LRow U T R)) (u : U) : timesOf rows u ⊆ times rows := by
  intro t h
  obtain ⟨r, hr, -, ht⟩ := mem_timesOf.1 h
  exact mem_times.2 ⟨r, hr, ht⟩

theorem nunique_eq (rows : List (LRow U T R)) (u : U) : nunique rows u = (timesOf rows u).card := by
  unfold nunique timesOf
  rw [List.card_toFinset]

theorem nPeriods_eq (rows : List (LRow U T R)) :
    nPeriods rows = (times rows).card + if none ∈ rows.map (fun r => r.time) then 1 else 0 := by
  classical
  unfold nPeriods
  rw [length_unique]
  have : (rows.map (fun r => r.time)).toFinset =
      (times rows).image some ∪ (if none ∈ rows.map (fun r => r.time) then {none} else ∅) := by
    ext o
    cases o with
    | none => split_ifs with h <;> simpa using h
    | some t =>
      split_ifs <;> simp [times]
  rw [this]
  split_ifs with h
  · rw [Finset.card_union_of_disjoint (by simp), Finset.card_image_of_injective _ (Option.some_injective T)]
    simp
  · rw [Finset.union_empty, Finset.card_image_of_injective _ (Option.some_injective T)]
    simp

theorem nunique_iff (rows : List (LRow U T R)) (hT : ∀ r ∈ rows, r.time ≠ none) (u : U) :
    nunique rows u = nPeriods rows ↔ Complete rows u := by
  have h0 : none ∉ rows.map (fun r => r.time) := by
    intro h
    obtain ⟨r, hr, he⟩ := List.mem_map.1 h
    exact hT r hr he
  rw [nunique_eq, nPeriods_eq, if_neg h0, Nat.add_zero]
  constructor
  · intro h t ht
    have := Finset.eq_of_subset_of_card_le (timesOf_subset rows u) (le_of_eq h.symm)
    exact mem_timesOf.1 (this ▸ mem_times.2 ht)
  · intro h
    congr 1
    refine Finset.Subset.antisymm (timesOf_subset rows u) fun t ht => ?_
    exact mem_timesOf.2 (h t (mem_times.1 ht))

open Classical in
/-- Without missing period labels, the rows kept are exactly those of the units observed in every period, in the original
order and multiplicity. -/
theorem C47_exact (rows : List (LRow U T R)) (hT : ∀ r ∈ rows, r.time ≠ none) :
    inner rows = rows.filter (fun r => decide (∃ u, r.unit = some u ∧ Complete rows u)) := by
  unfold inner
  refine List.filter_congr fun r _ => ?_
  cases h : r.unit with
  | none => simp
  | some u => simp [nunique_iff rows hT]

/-- False of the code for missing period labels: one row without a period empties the result, although units may be complete
over all labelled periods. -/
theorem C47_missing_period_refuted (rows : List (LRow U T R)) (r0 : LRow U T R) (h0 : r0 ∈ rows) (ht : r0.time = none) :
    inner rows = [] := by
  unfold inner
  rw [List.filter_eq_nil_iff]
  intro r _
  cases h : r.unit with
  | none => simp
  | some u =>
    simp only [decide_eq_true_eq]
    rw [nunique_eq, nPeriods_eq, if_pos (List.mem_map.2 ⟨r0, h0, ht⟩)]
    have := Finset.card_le_card (timesOf_subset rows u)
    omega

/-- The result is balanced: every unit in it has a row in every period of the data. -/
theorem C47_balanced (rows : List (LRow U T R)) (u : U) (t : Option T) (hu : ∃ r ∈ inner rows, r.unit = some u)
    (ht : ∃ r ∈ rows, r.time = t) : ∃ r ∈ inner rows, r.unit = some u ∧ r.time = t := by
  by_cases hT : ∀ r ∈ rows, r.time ≠ none
  · obtain ⟨r, hr, hru⟩ := hu
    have hc : nunique rows u = nPeriods rows := by
      have := (List.mem_filter.1 hr).2
      rw [hru] at this
      exact of_decide_eq_true this
    obtain ⟨q, hq, hqt⟩ := ht
    cases t with
    | none => exact absurd hqt (hT q hq)
    | some t =>
      obtain ⟨s, hs, hsu, hst⟩ := (nunique_iff rows hT u).1 hc t ⟨q, hq, hqt⟩
      refine ⟨s, List.mem_filter.2 ⟨hs, ?_⟩, hsu, hst⟩
      rw [hsu]
      exact decide_eq_true hc
  · push Not at hT
    obtain ⟨r0, h0, h1⟩ := hT
    rw [C47_missing_period_refuted rows r0 h0 h1] at hu
    obtain ⟨r, hr, -⟩ := hu
    simp at hr

/-- Balancing twice changes nothing. -/
theorem C47_idempotent (rows : List (LRow U T R)) : inner (inner rows) = inner rows := by
  by_cases hT : ∀ r ∈ rows, r.time ≠ none
  · refine List.filter_eq_self.2 fun r hr => ?_
    have hr' := (List.mem_filter.1 hr).2
    cases hu : r.unit with
    | none => rw [hu] at hr'; exact hr'
    | some u =>
      have hT' : ∀ r ∈ inner rows, r.time ≠ none := fun r h => hT r (List.mem_filter.1 h).1
      refine decide_eq_true ((nunique_iff _ hT' u).2 fun t ht => ?_)
      obtain ⟨q, hq, hqt⟩ := ht
      exact C47_balanced rows u (some t) ⟨r, hr, hu⟩ ⟨q, (List.mem_filter.1 hq).1, hqt⟩
  · push Not at hT
    obtain ⟨r0, h0, h1⟩ := hT
    rw [C47_missing_period_refuted rows r0 h0 h1]
    rfl

/-- Three units, unit 2 lacks period 3: its rows are dropped. -/
example :
    let row := fun (u t : ℕ) => ({ unit := some u, time := some t, rest := () } : LRow ℕ ℕ Unit)
    inner [row 1 1, row 2 1, row 1 2, row 2 2, row 1 3, row 3 3, row 3 1, row 3 2] =
      [row 1 1, row 1 2, row 1 3, row 3 3, row 3 1, row 3 2] := by decide +kernel

/-- A single unlabelled row removes everything. -/
example :
    let row := fun (u : ℕ) (t : Option ℕ) => ({ unit := some u, time := t, rest := () } : LRow ℕ ℕ Unit)
    inner [row 1 (some 1), row 1 (some 2), row 2 none] = [] := by decide +kernel

end labels

/-! ### C48: grid methods -/

section grid
variable {U T C V : Type*} [LinearOrder U] [LinearOrder T]

theorem grid_eq (rows : List (GRow U T C V)) :
    grid rows = (unique (rows.map (fun r => r.unit))) ×ˢ ((rows.map (fun r => r.time)).dedup.insertionSort (· ≤ ·)) := rfl

theorem mem_grid {rows : List (GRow U T C V)} {p : U × T} :
    p ∈ grid rows ↔ (∃ r ∈ rows, r.unit = p.1) ∧ ∃ r ∈ rows, r.time = p.2 := by
  rw [grid_eq, List.mem_product, mem_unique, List.mem_insertionSort, List.mem_dedup]
  simp

theorem nodup_sorted (l : List T) : (l.dedup.insertionSort (· ≤ ·)).Nodup :=
  (List.perm_insertionSort _ _).nodup_iff.2 (List.nodup_dedup _)

theorem nodup_grid (rows : List (GRow U T C V)) : (grid rows).Nodup := by
  rw [grid_eq]
  exact (nodup_unique _).product (nodup_sorted _)

theorem flatMap_filter_perm {α β : Type*} [DecidableEq β] (key : α → β) (l : List β) (hl : l.Nodup) (rows : List α)
    (h : ∀ r ∈ rows, key r ∈ l) : (l.flatMap (fun p => rows.filter (fun r => decide (key r = p)))).Perm rows := by
  induction l generalizing rows with
  | nil =>
    cases rows with
    | nil => simp
    | cons a _ => exact absurd (h a (by simp)) (by simp)
  | cons p l ih =>
    rw [List.flatMap_cons]
    have hp : p ∉ l := (List.nodup_cons.1 hl).1
    have h1 := ih (List.nodup_cons.1 hl).2 (rows.filter (fun r => !decide (key r = p))) (by
      intro r hr
      obtain ⟨hr1, hr2⟩ := List.mem_filter.1 hr
      rcases List.mem_cons.1 (h r hr1) with h' | h'
      · simp [h'] at hr2
      · exact h')
    have h2 : l.flatMap (fun q => (rows.filter (fun r => !decide (key r = p))).filter (fun r => decide (key r = q))) =
        l.flatMap (fun q => rows.filter (fun r => decide (key r = q))) := by
      rw [List.flatMap_congr]
      intro q hq
      rw [List.filter_filter]
      refine List.filter_congr fun r _ => ?_
      by_cases hr : key r = q
      · have : q ≠ p := fun e => hp (e ▸ hq)
        simp [hr, this]
      · simp [hr]
    rw [h2] at h1
    exact (List.Perm.append_left _ h1).trans (List.filter_append_perm _ rows)

theorem flatMap_blank_perm {α β : Type*} (m : β → List α) (b : β → α) (l : List β) :
    (l.flatMap (fun p => if (m p).isEmpty then [b p] else m p)).Perm
      (l.flatMap m ++ (l.filter (fun p => (m p).isEmpty)).map b) := by
  induction l with
  | nil => simp
  | cons p l ih =>
    rw [List.flatMap_cons, List.flatMap_cons, List.filter_cons]
    by_cases h : (m p).isEmpty
    · rw [if_pos h, if_pos h]
      have : m p = [] := List.isEmpty_iff.1 h
      rw [this, List.nil_append, List.map_cons]
      exact (List.Perm.cons _ ih).trans List.perm_middle.symm
    · rw [if_neg h, if_neg h, List.append_assoc]
      exact List.Perm.append_left _ ih

/-- Every original row survives unchanged with its multiplicity, and the only other rows are one all-missing row for each
unit-period pair without data. -/
theorem C48_rows_survive (rows : List (GRow U T C V)) :
    (outer rows).Perm (rows ++
      ((grid rows).filter (fun p => decide (∀ r ∈ rows, ¬ (r.unit = p.1 ∧ r.time = p.2)))).map blank) := by
  unfold outer
  refine (flatMap_blank_perm (fun p => rows.filter (fun r => decide (r.unit = p.1 ∧ r.time = p.2))) blank _).trans ?_
  have h1 : (fun p : U × T => rows.filter (fun r => decide (r.unit = p.1 ∧ r.time = p.2))) =
      fun p => rows.filter (fun r => decide ((r.unit, r.time) = p)) := by
    funext p
    refine List.filter_congr fun r _ => ?_
    simp [Prod.ext_iff]
  have h2 : (grid rows).filter (fun p => (rows.filter (fun r => decide (r.unit = p.1 ∧ r.time = p.2))).isEmpty) =
      (grid rows).filter (fun p => decide (∀ r ∈ rows, ¬ (r.unit = p.1 ∧ r.time = p.2))) := by
    refine List.filter_congr fun p _ => ?_
    rw [Bool.eq_iff_iff, List.isEmpty_iff, List.filter_eq_nil_iff]
    simp
  rw [h2]
  refine List.Perm.append_right _ ?_
  rw [h1]
  exact flatMap_filter_perm (fun r => (r.unit, r.time)) _ (nodup_grid rows) rows
    (fun r hr => mem_grid.2 ⟨⟨r, hr, rfl⟩, ⟨r, hr, rfl⟩⟩)

theorem mem_outer {rows : List (GRow U T C V)} {r : GRow U T C V} :
    r ∈ outer rows ↔ r ∈ rows ∨ ∃ p ∈ grid rows, (∀ q ∈ rows, ¬ (q.unit = p.1 ∧ q.time = p.2)) ∧ r = blank p := by
  rw [(C48_rows_survive rows).mem_iff, List.mem_append, List.mem_map]
  refine or_congr Iff.rfl ⟨?_, ?_⟩
  · rintro ⟨p, hp, rfl⟩
    obtain ⟨h1, h2⟩ := List.mem_filter.1 hp
    exact ⟨p, h1, of_decide_eq_true h2, rfl⟩
  · rintro ⟨p, h1, h2, rfl⟩
    exact ⟨p, List.mem_filter.2 ⟨h1, decide_eq_true h2⟩, rfl⟩

/-- Every unit-period pair appears and no other; if the data have no duplicate pairs, each appears exactly once, units in
order of first appearance and periods ascending. -/
theorem C48_grid (rows : List (GRow U T C V)) :
    (∀ u t, (∃ r ∈ outer rows, r.unit = u ∧ r.time = t) ↔ (∃ r ∈ rows, r.unit = u) ∧ ∃ r ∈ rows, r.time = t) ∧
    ((rows.map (fun r => (r.unit, r.time))).Nodup →
      (outer rows).map (fun r => (r.unit, r.time)) =
        (unique (rows.map (fun r => r.unit))) ×ˢ ((rows.map (fun r => r.time)).dedup.insertionSort (· ≤ ·)) ∧
      (outer rows).length = (rows.map (fun r => r.unit)).toFinset.card * (rows.map (fun r => r.time)).toFinset.card) := by
  have hlen : (grid rows).length = (rows.map (fun r => r.unit)).toFinset.card * (rows.map (fun r => r.time)).toFinset.card := by
    rw [grid_eq, List.length_product, length_unique, List.length_insertionSort, List.card_toFinset, List.card_toFinset]
  refine ⟨fun u t => ⟨?_, ?_⟩, fun hnd => ?_⟩
  · rintro ⟨r, hr, rfl, rfl⟩
    rcases mem_outer.1 hr with h | ⟨p, hp, -, rfl⟩
    · exact ⟨⟨r, h, rfl⟩, ⟨r, h, rfl⟩⟩
    · exact mem_grid.1 hp
  · rintro ⟨hu, ht⟩
    by_cases h : ∃ r ∈ rows, r.unit = u ∧ r.time = t
    · obtain ⟨r, hr, h1⟩ := h
      exact ⟨r, mem_outer.2 (Or.inl hr), h1⟩
    · push Not at h
      exact ⟨blank (u, t), mem_outer.2 (Or.inr ⟨(u, t), mem_grid.2 ⟨hu, ht⟩, fun q hq he => h q hq he.1 he.2, rfl⟩), rfl, rfl⟩
  · have key : (outer rows).map (fun r => (r.unit, r.time)) = grid rows := by
      unfold outer
      rw [List.map_flatMap]
      have : ∀ p ∈ grid rows, (List.map (fun r : GRow U T C V => (r.unit, r.time))
          (let m := rows.filter (fun r => decide (r.unit = p.1 ∧ r.time = p.2)); if m.isEmpty then [blank p] else m)) = [p] := by
        intro p _
        simp only
        have hsub : ((rows.filter (fun r => decide (r.unit = p.1 ∧ r.time = p.2))).map (fun r => (r.unit, r.time))).Nodup :=
          hnd.sublist (List.Sublist.map _ List.filter_sublist)
        have hall : ∀ q ∈ (rows.filter (fun r => decide (r.unit = p.1 ∧ r.time = p.2))).map (fun r => (r.unit, r.time)), q = p := by
          intro q hq
          obtain ⟨r, hr, rfl⟩ := List.mem_map.1 hq
          have := of_decide_eq_true (List.mem_filter.1 hr).2
          exact Prod.ext this.1 this.2
        split_ifs with h
        · rfl
        · generalize rows.filter (fun r => decide (r.unit = p.1 ∧ r.time = p.2)) = m at *
          match m, h with
          | [], h => simp at h
          | [a], _ => simpa using hall
          | a :: b :: m, _ =>
            have ha := hall (a.unit, a.time) (by simp)
            have hb := hall (b.unit, b.time) (by simp)
            rw [List.map_cons, List.map_cons, List.nodup_cons, ha, hb] at hsub
            exact absurd (by simp) hsub.1
      rw [List.flatMap_congr this]
      exact List.flatMap_singleton' _
    refine ⟨by rw [key, grid_eq], ?_⟩
    rw [← hlen, ← key, List.length_map]

/-- `fill` with a value: rows and labels are those of `outer`, present values are unchanged, missing values of numeric columns
become the fill value, other missing values stay missing. -/
theorem C48_fill_value (numeric : C → Bool) (v : V) (rows : List (GRow U T C V)) :
    ∃ out, balanceGrid "fill" (some v) numeric rows = .ok out ∧
      List.Forall₂ (fun r r' : GRow U T C V => r'.unit = r.unit ∧ r'.time = r.time ∧
        ∀ c, (∀ x, r.col c = some x → r'.col c = some x) ∧
          (r.col c = none → r'.col c = if numeric c then some v else none)) (outer rows) out := by
  refine ⟨fillValue numeric v (outer rows), by simp [balanceGrid], ?_⟩
  unfold fillValue
  rw [List.forall₂_map_right_iff, List.forall₂_same]
  intro r _
  refine ⟨rfl, rfl, fun c => ⟨fun x hx => ?_, fun hx => ?_⟩⟩ <;> simp only [hx]

/-- Method names other than the documented ones are rejected. -/
theorem C48_methods (method : String) (fill : Option V) (numeric : C → Bool) (rows : List (GRow U T C V)) :
    (∃ out, balanceGrid method fill numeric rows = .ok out) ↔ method = "outer" ∨ method = "fill" := by
  unfold balanceGrid
  by_cases h1 : method = "outer"
  · simp [h1]
  · by_cases h2 : method = "fill"
    · cases fill <;> simp [h2]
    · simp [h1, h2]

/-! Forward and backward fill -/

/-- Specification: last and first present value of a unit in a list of rows. -/
def lastOf (rows : List (GRow U T C V)) (u : U) (c : C) : Option V :=
  ((rows.filter (fun r => decide (r.unit = u))).filterMap (fun r => r.col c)).getLast?
def firstOf (rows : List (GRow U T C V)) (u : U) (c : C) : Option V :=
  ((rows.filter (fun r => decide (r.unit = u))).filterMap (fun r => r.col c)).head?

theorem lastOf_eq (rows : List (GRow U T C V)) (u : U) (c : C) : lastOf rows u c = firstOf rows.reverse u c := by
  unfold lastOf firstOf
  rw [List.filter_reverse, List.filterMap_reverse, List.head?_reverse]

theorem firstOf_cons (r : GRow U T C V) (rows : List (GRow U T C V)) (u : U) (c : C) :
    firstOf (r :: rows) u c = if r.unit = u then (r.col c).or (firstOf rows u c) else firstOf rows u c := by
  unfold firstOf
  rw [List.filter_cons]
  by_cases h : r.unit = u
  · simp only [h, decide_true, if_true]
    cases hc : r.col c with
    | none => rw [List.filterMap_cons_none (by exact hc)]; rfl
    | some x => rw [List.filterMap_cons_some (by exact hc)]; rfl
  · simp [h]

theorem firstOf_append (a b : List (GRow U T C V)) (u : U) (c : C) :
    firstOf (a ++ b) u c = (firstOf a u c).or (firstOf b u c) := by
  unfold firstOf
  rw [List.filter_append, List.filterMap_append, List.head?_append]

theorem lastOf_cons (r : GRow U T C V) (rows : List (GRow U T C V)) (u : U) (c : C) :
    lastOf (r :: rows) u c = (lastOf rows u c).or (if r.unit = u then r.col c else none) := by
  rw [lastOf_eq, lastOf_eq, List.reverse_cons, firstOf_append, firstOf_cons]
  congr 1
  simp [firstOf]

theorem ffill_append (last : U → C → Option V) (a b : List (GRow U T C V)) :
    ffill last (a ++ b) = ffill last a ++ ffill (fun u c => (lastOf a u c).or (last u c)) b := by
  induction a generalizing last with
  | nil => simp [ffill, lastOf]
  | cons r a ih =>
    rw [List.cons_append]
    simp only [ffill, List.cons_append]
    rw [ih]
    congr 3
    funext u c
    rw [lastOf_cons]
    by_cases h : r.unit = u
    · subst h
      simp only [if_true]
      cases r.col c <;> cases lastOf a r.unit c <;> rfl
    · have : u ≠ r.unit := fun e => h e.symm
      simp [h, this]

theorem ffill_length (last : U → C → Option V) (a : List (GRow U T C V)) : (ffill last a).length = a.length := by
  induction a generalizing last with
  | nil => rfl
  | cons r a ih => simp [ffill, ih]

theorem firstOf_ffill (last : U → C → Option V) (rows : List (GRow U T C V)) (u : U) (c : C) (h : last u c = none) :
    firstOf (ffill last rows) u c = firstOf rows u c := by
  induction rows generalizing last with
  | nil => rfl
  | cons r rows ih =>
    simp only [ffill]
    rw [firstOf_cons, firstOf_cons]
    by_cases hu : r.unit = u
    · subst hu
      rw [if_pos rfl, if_pos rfl]
      cases hc : r.col c with
      | none =>
        simp only [hc, h, Option.none_or]
        exact ih _ (by simp [hc, h])
      | some x => simp [hc]
    · rw [if_neg hu, if_neg hu]
      refine ih _ ?_
      rw [if_neg (fun e => hu e.symm)]
      exact h

/-- The row of the filled table at a position. -/
theorem fill_split (L pre post : List (GRow U T C V)) (r : GRow U T C V) (h : L = pre ++ r :: post) :
    ∃ P r' Q, bfill (ffill (fun _ _ => none) L) = P ++ r' :: Q ∧ P.length = pre.length ∧ r'.unit = r.unit ∧ r'.time = r.time ∧
      ∀ c, r'.col c = ((r.col c).or (lastOf pre r.unit c)).or (firstOf post r.unit c) := by
  subst h
  rw [ffill_append]
  simp only [ffill]
  set P0 := ffill (fun _ _ => none) pre with hP0
  set r0 : GRow U T C V := { r with col := fun c => match r.col c with
    | some x => some x
    | none => (lastOf pre r.unit c).or none } with hr0
  set s : U → C → Option V := fun u c => if u = r.unit then (match r.col c with
    | some x => some x
    | none => (lastOf pre r.unit c).or none) else (lastOf pre u c).or none with hs
  unfold bfill
  rw [List.reverse_append, List.reverse_cons, List.append_assoc, List.singleton_append, ffill_append]
  simp only [ffill]
  rw [List.reverse_append, List.reverse_cons, List.append_assoc, List.singleton_append]
  refine ⟨_, _, _, rfl, ?_, rfl, rfl, fun c => ?_⟩
  · rw [List.length_reverse, ffill_length, List.length_reverse, hP0, ffill_length]
  · have hl : lastOf (ffill s post).reverse r.unit c = firstOf (ffill s post) r.unit c := by
      rw [lastOf_eq, List.reverse_reverse]
    show (match r0.col c with
      | some x => some x
      | none => (lastOf (ffill s post).reverse r.unit c).or none) = _
    rw [hl]
    cases hc : r.col c with
    | some x => simp [hr0, hc]
    | none =>
      cases hp : lastOf pre r.unit c with
      | some x => simp [hr0, hc, hp]
      | none =>
        rw [firstOf_ffill _ _ _ _ (by simp [hs, hc, hp])]
        simp [hr0, hc, hp]

theorem firstOf_none {rows : List (GRow U T C V)} {u : U} {c : C} :
    firstOf rows u c = none ↔ ∀ q ∈ rows, q.unit = u → q.col c = none := by
  unfold firstOf
  rw [List.head?_eq_none_iff, List.filterMap_eq_nil_iff]
  simp only [List.mem_filter, decide_eq_true_eq, and_imp]

theorem firstOf_some {rows : List (GRow U T C V)} {u : U} {c : C} {x : V} (h : firstOf rows u c = some x) :
    ∃ p1 q p2, rows = p1 ++ q :: p2 ∧ q.unit = u ∧ q.col c = some x ∧ ∀ s ∈ p1, s.unit = u → s.col c = none := by
  induction rows with
  | nil => simp [firstOf] at h
  | cons r rows ih =>
    rw [firstOf_cons] at h
    by_cases hu : r.unit = u
    · rw [if_pos hu] at h
      cases hc : r.col c with
      | some y =>
        rw [hc] at h
        injection h with h
        exact ⟨[], r, rows, rfl, hu, by rw [hc, ← h], by simp⟩
      | none =>
        rw [hc, Option.none_or] at h
        obtain ⟨p1, q, p2, h1, h2, h3, h4⟩ := ih h
        refine ⟨r :: p1, q, p2, by rw [h1]; rfl, h2, h3, ?_⟩
        intro s hs hsu
        rcases List.mem_cons.1 hs with rfl | hs
        · exact hc
        · exact h4 s hs hsu
    · rw [if_neg hu] at h
      obtain ⟨p1, q, p2, h1, h2, h3, h4⟩ := ih h
      refine ⟨r :: p1, q, p2, by rw [h1]; rfl, h2, h3, ?_⟩
      intro s hs hsu
      rcases List.mem_cons.1 hs with rfl | hs
      · exact absurd hsu hu
      · exact h4 s hs hsu

theorem lastOf_some {rows : List (GRow U T C V)} {u : U} {c : C} {x : V} (h : lastOf rows u c = some x) :
    ∃ p1 q p2, rows = p1 ++ q :: p2 ∧ q.unit = u ∧ q.col c = some x ∧ ∀ s ∈ p2, s.unit = u → s.col c = none := by
  rw [lastOf_eq] at h
  obtain ⟨p1, q, p2, h1, h2, h3, h4⟩ := firstOf_some h
  refine ⟨p2.reverse, q, p1.reverse, ?_, h2, h3, fun s hs => h4 s (List.mem_reverse.1 hs)⟩
  have := congrArg List.reverse h1
  rw [List.reverse_reverse] at this
  rw [this]
  simp

theorem lastOf_none {rows : List (GRow U T C V)} {u : U} {c : C} :
    lastOf rows u c = none ↔ ∀ q ∈ rows, q.unit = u → q.col c = none := by
  rw [lastOf_eq, firstOf_none]
  simp


/-- The order used by the sort. -/
abbrev RowLe (a b : GRow U T C V) : Prop := a.unit < b.unit ∨ (a.unit = b.unit ∧ a.time ≤ b.time)

theorem sortRows_pairwise (rows : List (GRow U T C V)) : (sortRows rows).Pairwise RowLe := by
  haveI : Std.Total (α := GRow U T C V) RowLe := ⟨fun a b => by
    rcases lt_trichotomy a.unit b.unit with h | h | h
    · exact Or.inl (Or.inl h)
    · rcases le_total a.time b.time with h' | h'
      · exact Or.inl (Or.inr ⟨h, h'⟩)
      · exact Or.inr (Or.inr ⟨h.symm, h'⟩)
    · exact Or.inr (Or.inl h)⟩
  haveI : IsTrans (GRow U T C V) RowLe := ⟨fun a b c h1 h2 => by
    rcases h1 with h1 | ⟨h1, h1'⟩ <;> rcases h2 with h2 | ⟨h2, h2'⟩
    · exact Or.inl (h1.trans h2)
    · exact Or.inl (h2 ▸ h1)
    · exact Or.inl (h1 ▸ h2)
    · exact Or.inr ⟨h1.trans h2, h1'.trans h2'⟩⟩
  exact List.pairwise_insertionSort (r := RowLe) rows

theorem same_unit_le {a b : GRow U T C V} (h : RowLe a b) (hu : a.unit = b.unit) : a.time ≤ b.time := by
  rcases h with h | h
  · exact absurd hu h.ne
  · exact h.2

/-- `fill` without a value, cell by cell: the table is the sorted grid; a present value is unchanged; a missing one becomes the
latest earlier value of the same unit in that column, else its earliest later value; it stays missing exactly when the unit
has no value at all in that column. Values never cross units. -/
theorem C48_fill_none (numeric : C → Bool) (rows : List (GRow U T C V)) :
    ∃ out, balanceGrid "fill" none numeric rows = .ok out ∧ out.length = (outer rows).length ∧
      ∃ sorted : List (GRow U T C V), sorted.Perm (outer rows) ∧ sorted.Pairwise RowLe ∧
        List.Forall₂ (fun r r' : GRow U T C V => r'.unit = r.unit ∧ r'.time = r.time ∧ ∀ c,
          (∀ x, r.col c = some x → r'.col c = some x) ∧
          (r'.col c = none ↔ ∀ q ∈ rows, q.unit = r.unit → q.col c = none) ∧
          (∀ x, r.col c = none → r'.col c = some x → ∃ q ∈ rows, q.unit = r.unit ∧ q.col c = some x ∧
            ((q.time ≤ r.time ∧ ∀ s ∈ rows, s.unit = r.unit → s.col c ≠ none → s.time ≤ q.time ∨ r.time ≤ s.time) ∨
              (r.time ≤ q.time ∧ ∀ s ∈ rows, s.unit = r.unit → s.col c ≠ none → q.time ≤ s.time))))
          sorted out := by
  have hperm : (sortRows (outer rows)).Perm (outer rows) := List.perm_insertionSort _ _
  have hsorted := sortRows_pairwise (outer rows)
  have hlen : (fillNone rows).length = (sortRows (outer rows)).length := by
    unfold fillNone bfill
    rw [List.length_reverse, ffill_length, List.length_reverse, ffill_length]
  refine ⟨fillNone rows, by simp [balanceGrid], by rw [hlen, hperm.length_eq], sortRows (outer rows), hperm, hsorted, ?_⟩
  -- values come from original rows
  have horig : ∀ q ∈ sortRows (outer rows), ∀ c x, q.col c = some x → q ∈ rows := by
    intro q hq c x hx
    rcases mem_outer.1 (hperm.mem_iff.1 hq) with h | ⟨p, -, -, rfl⟩
    · exact h
    · simp [blank] at hx
  have hmem : ∀ q ∈ rows, q ∈ sortRows (outer rows) := fun q hq => hperm.mem_iff.2 (mem_outer.2 (Or.inl hq))
  rw [List.forall₂_iff_get]
  refine ⟨hlen.symm, fun i h1 h2 => ?_⟩
  set L := sortRows (outer rows) with hL
  have hsplit : L = L.take i ++ L.get ⟨i, h1⟩ :: L.drop (i + 1) := by
    rw [List.get_eq_getElem, List.getElem_cons_drop, List.take_append_drop]
  obtain ⟨P, r', Q, hout, hP, hu, ht, hcol⟩ := fill_split L _ _ _ hsplit
  have hget : (fillNone rows).get ⟨i, h2⟩ = r' := by
    have e : fillNone rows = P ++ r' :: Q := hout
    rw [List.get_eq_getElem]
    have hPi : P.length = i := by rw [hP, List.length_take]; omega
    simp only [e]
    rw [List.getElem_append_right (by omega)]
    simp [hPi]
  rw [hget]
  set r := L.get ⟨i, h1⟩ with hr
  set pre := L.take i with hpre
  set post := L.drop (i + 1) with hpost
  have hpw : (pre ++ r :: post).Pairwise RowLe := hsplit ▸ hsorted
  rw [List.pairwise_append, List.pairwise_cons] at hpw
  obtain ⟨hpp, ⟨hrp, hpostp⟩, hcross⟩ := hpw
  have hin : ∀ q, q ∈ L ↔ q ∈ pre ∨ q = r ∨ q ∈ post := by
    intro q; rw [hsplit, List.mem_append, List.mem_cons]
  refine ⟨hu, ht, fun c => ⟨fun x hx => by rw [hcol, hx]; rfl, ⟨?_, ?_⟩, ?_⟩⟩
  · intro hn q hq hqu
    rw [hcol, Option.or_eq_none_iff, Option.or_eq_none_iff] at hn
    obtain ⟨⟨n1, n2⟩, n3⟩ := hn
    rcases (hin q).1 (hmem q hq) with h | rfl | h
    · exact lastOf_none.1 n2 q h hqu
    · exact n1
    · exact firstOf_none.1 n3 q h hqu
  · intro hall
    have hall' : ∀ q ∈ L, q.unit = r.unit → q.col c = none := by
      intro q hq hqu
      cases hx : q.col c with
      | none => rfl
      | some x => rw [← hx]; exact hall q (horig q hq c x hx) hqu
    rw [hcol, Option.or_eq_none_iff, Option.or_eq_none_iff]
    exact ⟨⟨hall' r ((hin r).2 (Or.inr (Or.inl rfl))) rfl,
      lastOf_none.2 fun q hq hqu => hall' q ((hin q).2 (Or.inl hq)) hqu⟩,
      firstOf_none.2 fun q hq hqu => hall' q ((hin q).2 (Or.inr (Or.inr hq))) hqu⟩
  · intro x hn hx
    rw [hcol, hn, Option.none_or] at hx
    cases hl : lastOf pre r.unit c with
    | some y =>
      rw [hl, Option.some_or] at hx
      injection hx with hx
      subst hx
      obtain ⟨p1, q, p2, e1, e2, e3, e4⟩ := lastOf_some hl
      have hqpre : q ∈ pre := by rw [e1]; simp
      refine ⟨q, horig q ((hin q).2 (Or.inl hqpre)) c y e3, e2, e3, Or.inl ⟨same_unit_le (hcross q hqpre r (by simp)) e2, ?_⟩⟩
      intro s hs hsu hsc
      rcases (hin s).1 (hmem s hs) with h | rfl | h
      · rw [e1, List.mem_append, List.mem_cons] at h
        rw [e1, List.pairwise_append] at hpp
        rcases h with h | rfl | h
        · exact Or.inl (same_unit_le (hpp.2.2 s h q (by simp)) (hsu.trans e2.symm))
        · exact Or.inl le_rfl
        · exact absurd (e4 s h hsu) hsc
      · exact absurd hn hsc
      · exact Or.inr (same_unit_le (hrp s h) hsu.symm)
    | none =>
      rw [hl, Option.none_or] at hx
      obtain ⟨p1, q, p2, e1, e2, e3, e4⟩ := firstOf_some hx
      have hqpost : q ∈ post := by rw [e1]; simp
      refine ⟨q, horig q ((hin q).2 (Or.inr (Or.inr hqpost))) c x e3, e2, e3,
        Or.inr ⟨same_unit_le (hrp q hqpost) e2.symm, ?_⟩⟩
      intro s hs hsu hsc
      rcases (hin s).1 (hmem s hs) with h | rfl | h
      · exact absurd (lastOf_none.1 hl s h hsu) hsc
      · exact absurd hn hsc
      · rw [e1, List.mem_append, List.mem_cons] at h
        rw [e1, List.pairwise_append, List.pairwise_cons] at hpostp
        rcases h with h | rfl | h
        · exact absurd (e4 s h hsu) hsc
        · exact le_rfl
        · exact same_unit_le (hpostp.2.1.1 s h) (e2.trans hsu.symm)

end grid

/-- Labels and values of one column, for the concrete cases. -/
def view (c : Bool) (l : List (GRow ℕ ℕ Bool ℕ)) : List (ℕ × ℕ × Option ℕ) := l.map (fun r => (r.unit, r.time, r.col c))

/-- Unit 7 lacks periods 1 and 4, unit 3 lacks period 2; column `true` is missing once in the data. -/
def gaps : List (GRow ℕ ℕ Bool ℕ) :=
  [⟨7, 2, fun _ => some 20⟩, ⟨7, 3, fun c => if c then none else some 30⟩, ⟨3, 1, fun _ => some 1⟩, ⟨3, 3, fun _ => some 3⟩,
   ⟨3, 4, fun _ => some 4⟩]

example : view true (outer gaps) = [(7, 1, none), (7, 2, some 20), (7, 3, none), (7, 4, none),
    (3, 1, some 1), (3, 2, none), (3, 3, some 3), (3, 4, some 4)] := by decide +kernel
example : view true (fillNone gaps) = [(3, 1, some 1), (3, 2, some 1), (3, 3, some 3), (3, 4, some 4),
    (7, 1, some 20), (7, 2, some 20), (7, 3, some 20), (7, 4, some 20)] := by decide +kernel
example : view false (fillNone gaps) = [(3, 1, some 1), (3, 2, some 1), (3, 3, some 3), (3, 4, some 4),
    (7, 1, some 20), (7, 2, some 20), (7, 3, some 30), (7, 4, some 30)] := by decide +kernel
example : (gaps.map (fun r => (r.unit, r.time))).Nodup := by decide +kernel

/-! ### C49: wide_to_long -/

section wide
variable {U V R : Type*} [LinearOrder U]

theorem lookup_of_mem {l : List (String × ℤ)} (h : (l.map Prod.fst).Nodup) {c : String} {t : ℤ} (hm : (c, t) ∈ l) :
    l.lookup c = some t := by
  induction l with
  | nil => simp at hm
  | cons a l ih =>
    obtain ⟨c', t'⟩ := a
    rw [List.map_cons, List.nodup_cons] at h
    rcases List.mem_cons.1 hm with he | hm'
    · cases he; simp [List.lookup_cons]
    · have hne : c ≠ c' := by
        rintro rfl
        exact h.1 (List.mem_map.2 ⟨(c, t), hm', rfl⟩)
      rw [List.lookup_cons, beq_false_of_ne hne]
      exact ih h.2 hm'

theorem colTime_of_mem {cols : List String} {ts : List ℤ} (hc : cols.Nodup) (hl : ts.length = cols.length) {c : String} {t : ℤ}
    (hm : (c, t) ∈ cols.zip ts) : colTime cols ts c = some t := by
  unfold colTime
  refine lookup_of_mem ?_ (List.mem_reverse.2 hm)
  rw [List.map_reverse, List.nodup_reverse, List.map_fst_zip (by omega)]
  exact hc

/-- The default of the time lookup is never used. -/
theorem colTime_isSome {cols : List String} {ts : List ℤ} (hl : ts.length = cols.length) {c : String} (hc : c ∈ cols) :
    (colTime cols ts c).isSome := by
  unfold colTime
  rw [← List.map_fst_zip (l₁ := cols) (l₂ := ts) (by omega)] at hc
  obtain ⟨p, hp, rfl⟩ := List.mem_map.1 hc
  rw [List.lookup_isSome_iff]
  exact ⟨p, List.mem_reverse.2 hp, by simp⟩

/-- The order of the result. -/
abbrev LongLe (a b : LongRow U V R) : Prop := a.id < b.id ∨ (a.id = b.id ∧ a.time ≤ b.time)

theorem wide_ok {allCols : List String} {idCol : String} {cols : List String} {times : Option (List ℤ)}
    {rows : List (WRow U V R)} {out : List (LongRow U V R)} (h : wideToLong allCols idCol cols times rows = .ok out) :
    cols ≠ [] ∧ idCol ∈ allCols ∧ (∀ c ∈ cols, c ∈ allCols) ∧
    (times.getD ((List.range cols.length).map (fun i : ℕ => (i : ℤ)))).length = cols.length ∧
    out = ((melt cols rows).map (fun p =>
        { id := p.2.id, time := (colTime cols (times.getD ((List.range cols.length).map (fun i : ℕ => (i : ℤ)))) p.1).getD 0,
          val := p.2.val p.1, rest := p.2.rest : LongRow U V R })).insertionSort LongLe := by
  unfold wideToLong at h
  by_cases h1 : cols = []
  · rw [if_pos h1] at h; cases h
  · rw [if_neg h1] at h
    by_cases h2 : idCol ∉ allCols
    · rw [if_pos h2] at h; cases h
    · rw [if_neg h2] at h
      by_cases h3 : ¬ cols.all (fun c => decide (c ∈ allCols)) = true
      · rw [if_pos h3] at h; cases h
      · rw [if_neg h3] at h
        simp only at h
        by_cases h4 : (times.getD ((List.range cols.length).map (fun i : ℕ => (i : ℤ)))).length ≠ cols.length
        · rw [if_pos h4] at h; cases h
        · rw [if_neg h4] at h
          injection h with h
          exact ⟨h1, not_not.1 h2, by simpa using h3, not_not.1 h4, h.symm⟩

/-- Accepted exactly when there is a value column, all named columns exist and the number of period labels matches. -/
theorem C49_accepts (allCols : List String) (idCol : String) (cols : List String) (times : Option (List ℤ))
    (rows : List (WRow U V R)) :
    (∃ out, wideToLong allCols idCol cols times rows = .ok out) ↔
      cols ≠ [] ∧ idCol ∈ allCols ∧ (∀ c ∈ cols, c ∈ allCols) ∧ ∀ ts, times = some ts → ts.length = cols.length := by
  constructor
  · rintro ⟨out, h⟩
    obtain ⟨h1, h2, h3, h4, -⟩ := wide_ok h
    refine ⟨h1, h2, h3, fun ts hts => ?_⟩
    rw [hts] at h4
    exact h4
  · rintro ⟨h1, h2, h3, h4⟩
    have h5 : (times.getD ((List.range cols.length).map (fun i : ℕ => (i : ℤ)))).length = cols.length := by
      cases times with
      | none => simp
      | some ts => exact h4 ts rfl
    unfold wideToLong
    rw [if_neg h1, if_neg (not_not.2 h2), if_neg (not_not.2 (by simpa using h3))]
    simp only
    rw [if_neg (not_not.2 h5)]
    exact ⟨_, rfl⟩

/-- Lossless: up to order the result consists of one row per wide row and value column, holding the value of that column, the
period label at the same position (0, 1, 2, ... when no labels are given) and the other columns. -/
theorem C49_lossless (allCols : List String) (idCol : String) (cols : List String) (hc : cols.Nodup) (times : Option (List ℤ))
    (rows : List (WRow U V R)) (out : List (LongRow U V R)) (h : wideToLong allCols idCol cols times rows = .ok out) :
    ∃ ts : List ℤ, (times = some ts ∨ times = none ∧ ts = (List.range cols.length).map (fun i : ℕ => (i : ℤ))) ∧
      ts.length = cols.length ∧ out.length = rows.length * cols.length ∧
      out.Perm ((cols.zip ts).flatMap (fun p => rows.map (fun w =>
        ({ id := w.id, time := p.2, val := w.val p.1, rest := w.rest } : LongRow U V R)))) := by
  obtain ⟨-, -, -, h4, h5⟩ := wide_ok h
  set ts := times.getD ((List.range cols.length).map (fun i : ℕ => (i : ℤ))) with hts
  have hperm : out.Perm ((cols.zip ts).flatMap (fun p => rows.map (fun w =>
        ({ id := w.id, time := p.2, val := w.val p.1, rest := w.rest } : LongRow U V R)))) := by
    rw [h5]
    refine (List.perm_insertionSort _ _).trans (List.Perm.of_eq ?_)
    unfold melt
    rw [List.map_flatMap]
    conv_lhs => rw [← List.map_fst_zip (l₁ := cols) (l₂ := ts) (by omega), List.flatMap_map]
    refine List.flatMap_congr fun p hp => ?_
    rw [List.map_map]
    refine List.map_congr_left fun w _ => ?_
    have := colTime_of_mem hc h4 (c := p.1) (t := p.2) hp
    simp only [Function.comp]
    rw [List.map_fst_zip (by omega), this]
    rfl
  refine ⟨ts, ?_, h4, ?_, hperm⟩
  · cases times with
    | none => exact Or.inr ⟨rfl, rfl⟩
    | some l => exact Or.inl rfl
  · rw [h5, List.length_insertionSort, List.length_map]
    unfold melt
    rw [List.length_flatMap]
    simp [Nat.mul_comm]

/-- Reading back: with distinct identifiers, columns and labels, the result has at (unit, label j) the value of column j of
that unit's row and nothing else. -/
theorem C49_read_back (allCols : List String) (idCol : String) (cols : List String) (hc : cols.Nodup) (ts : List ℤ) (ht : ts.Nodup)
    (rows : List (WRow U V R)) (hid : (rows.map (fun w => w.id)).Nodup) (out : List (LongRow U V R))
    (h : wideToLong allCols idCol cols (some ts) rows = .ok out) (w : WRow U V R) (hw : w ∈ rows) (c : String) (t : ℤ)
    (hct : (c, t) ∈ cols.zip ts) :
    (∃ x ∈ out, x.id = w.id ∧ x.time = t) ∧
      ∀ x ∈ out, x.id = w.id → x.time = t → x.val = w.val c ∧ x.rest = w.rest := by
  obtain ⟨ts', h1, h2, -, hp⟩ := C49_lossless allCols idCol cols hc (some ts) rows out h
  have e : ts' = ts := by
    rcases h1 with h1 | h1
    · exact (Option.some.inj h1).symm
    · cases h1.1
  subst e
  refine ⟨⟨⟨w.id, t, w.val c, w.rest⟩, hp.mem_iff.2 (List.mem_flatMap.2 ⟨(c, t), hct, List.mem_map.2 ⟨w, hw, rfl⟩⟩), rfl, rfl⟩, ?_⟩
  intro x hx hxi hxt
  obtain ⟨p, hpz, hx2⟩ := List.mem_flatMap.1 (hp.mem_iff.1 hx)
  obtain ⟨w', hw', rfl⟩ := List.mem_map.1 hx2
  have hw2 : w' = w := List.inj_on_of_nodup_map hid hw' hw hxi
  subst hw2
  have hz : ((cols.zip ts').map Prod.snd).Nodup := by rw [List.map_snd_zip (by omega)]; exact ht
  have : p = (c, t) := List.inj_on_of_nodup_map hz hpz hct hxt
  subst this
  exact ⟨rfl, rfl⟩

/-- The result is sorted by unit, then time. -/
theorem C49_sorted (allCols : List String) (idCol : String) (cols : List String) (times : Option (List ℤ))
    (rows : List (WRow U V R)) (out : List (LongRow U V R)) (h : wideToLong allCols idCol cols times rows = .ok out) :
    out.Pairwise (fun a b => a.id < b.id ∨ (a.id = b.id ∧ a.time ≤ b.time)) := by
  obtain ⟨-, -, -, -, h5⟩ := wide_ok h
  haveI : Std.Total (α := LongRow U V R) LongLe := ⟨fun a b => by
    rcases lt_trichotomy a.id b.id with h | h | h
    · exact Or.inl (Or.inl h)
    · rcases le_total a.time b.time with h' | h'
      · exact Or.inl (Or.inr ⟨h, h'⟩)
      · exact Or.inr (Or.inr ⟨h.symm, h'⟩)
    · exact Or.inr (Or.inl h)⟩
  haveI : IsTrans (LongRow U V R) LongLe := ⟨fun a b c h1 h2 => by
    rcases h1 with h1 | ⟨h1, h1'⟩ <;> rcases h2 with h2 | ⟨h2, h2'⟩
    · exact Or.inl (h1.trans h2)
    · exact Or.inl (h2 ▸ h1)
    · exact Or.inl (h1 ▸ h2)
    · exact Or.inr ⟨h1.trans h2, h1'.trans h2'⟩⟩
  rw [h5]
  exact List.pairwise_insertionSort (r := LongLe) _

/-- False when a value column is listed twice: the call is accepted, but every row of that column carries the later label and
the earlier label does not occur. -/
theorem C49_repeated_column_refuted (rows : List (WRow U V R)) :
    ∃ out, wideToLong ["id", "a"] "id" ["a", "a"] (some [1, 2]) rows = .ok out ∧ ∀ x ∈ out, x.time = 2 := by
  obtain ⟨out, h⟩ := (C49_accepts ["id", "a"] "id" ["a", "a"] (some [1, 2]) rows).2
    ⟨by simp, by simp, by simp, by rintro ts h; cases h; rfl⟩
  refine ⟨out, h, fun x hx => ?_⟩
  obtain ⟨-, -, -, -, h5⟩ := wide_ok h
  rw [h5, List.mem_insertionSort] at hx
  obtain ⟨p, hp, rfl⟩ := List.mem_map.1 hx
  have hc : p.1 = "a" := by
    unfold melt at hp
    obtain ⟨c, hc, hp⟩ := List.mem_flatMap.1 hp
    obtain ⟨w, -, rfl⟩ := List.mem_map.1 hp
    simpa using hc
  simp only [hc]
  decide +kernel

end wide

/-- Two firms, two years, given out of order. -/
def firms : List (WRow ℕ ℕ Unit) := [⟨2, fun c => if c = "y19" then 150 else 160, ()⟩, ⟨1, fun c => if c = "y19" then 100 else 110, ()⟩]

example : wideToLong ["firm", "y20", "y19"] "firm" ["y20", "y19"] (some [2020, 2019]) firms =
    .ok [⟨1, 2019, 100, ()⟩, ⟨1, 2020, 110, ()⟩, ⟨2, 2019, 150, ()⟩, ⟨2, 2020, 160, ()⟩] := by decide +kernel
example : wideToLong ["firm", "y20", "y19"] "firm" ["y20", "y19"] (some [2020]) firms = .error .value := by decide +kernel
example : (firms.map (fun w => w.id)).Nodup ∧ ["y20", "y19"].Nodup ∧ [(2020 : ℤ), 2019].Nodup := by decide +kernel

/-! ### C83: indicator columns -/

/-- Specification of an indicator rule. -/
def Rule {A : Type*} [LE A] (values : Option (List A)) (threshold : Option A) (above : Bool) (a : A) : Prop :=
  (∃ vs, values = some vs ∧ a ∈ vs) ∨ (∃ th, threshold = some th ∧ (above = true → th ≤ a) ∧ (above = false → a ≤ th))

/-- A result is returned exactly when one of the two rules is given and the column exists; it has one entry per row, every
entry is 0 or 1, a present value gets 1 exactly if it satisfies the rule. -/
theorem C83_indicator {A : Type*} [DecidableEq A] [LE A] [DecidableRel (α := A) (· ≤ ·)] (hasCol : Bool)
    (values : Option (List A)) (threshold : Option A) (above : Bool) (col : List (Option A)) :
    ((∃ out, indicator hasCol values threshold above col = .ok out) ↔
      (values.isSome = !threshold.isSome) ∧ hasCol = true) ∧
    ∀ out, indicator hasCol values threshold above col = .ok out →
      List.Forall₂ (fun x i => (i = 0 ∨ i = 1) ∧ ∀ a, x = some a → (i = 1 ↔ Rule values threshold above a)) col out := by
  cases values <;> cases threshold <;> cases hasCol <;> simp [indicator, Rule]
  · intro x _
    cases x with
    | none => simp
    | some a => cases above <;> simp [or_comm, em]
  · intro x _
    cases x with
    | none => simp
    | some a => simp [or_comm, em]

/-- Missing cells are silently classified: they get 0 under either rule and either direction, so a unit with unknown status
becomes a control. -/
theorem C83_missing_is_control_refuted {A : Type*} [DecidableEq A] [LE A] [DecidableRel (α := A) (· ≤ ·)]
    (values : Option (List A)) (threshold : Option A) (above : Bool) (col : List (Option A)) (out : List ℕ)
    (h : indicator true values threshold above col = .ok out) :
    List.Forall₂ (fun x i => x = none → i = 0) col out := by
  cases values <;> cases threshold <;> simp [indicator] at h
  all_goals
    subst h
    rw [List.forall₂_map_right_iff, List.forall₂_same]
    intro x _ hx
    simp [hx]

example : indicator true none (some (75 : ℚ)) true [some 10, some 75, none, some 200] = .ok [0, 1, 0, 1] := by decide +kernel
example : indicator true none (some (75 : ℚ)) false [some 10, some 75, none, some 200] = .ok [1, 1, 0, 0] := by decide +kernel
example : indicator true (some ["A"]) none true [some "A", some "B", none] = .error .value ∨
    indicator true (some ["A"]) none true [some "A", some "B", none] = .ok [1, 0, 0] := by right; decide +kernel

/-! ### C84: event time -/

section event
variable {K : Type*} [Field K] [LinearOrder K] [IsStrictOrderedRing K]

/-- Event time is missing exactly for never-treated units (missing or infinite treatment date) or a missing period; otherwise,
for finite periods, it is the number of periods since treatment, negative before, zero at and positive after the date. -/
theorem C84_event_time (time treat : Ext K) :
    ((treat = .nan ∨ treat = .pinf ∨ treat = .ninf) → eventTime time treat = .nan) ∧
    (time = .nan → eventTime time treat = .nan) ∧
    (∀ t g, time = .fin t → treat = .fin g → ∃ e, eventTime time treat = .fin e ∧ g + e = t ∧ (e < 0 ↔ t < g) ∧
      (e = 0 ↔ t = g) ∧ (0 < e ↔ g < t)) := by
  refine ⟨?_, ?_, ?_⟩
  · rintro (rfl | rfl | rfl) <;> rfl
  · rintro rfl
    cases treat <;> simp [eventTime, Ext.sub, Ext.add, Ext.neg]
  · rintro t g rfl rfl
    refine ⟨t - g, by simp [eventTime, Ext.sub, Ext.add, Ext.neg, sub_eq_add_neg], by ring, sub_neg, sub_eq_zero, sub_pos⟩

/-- The staggered estimators of the same package also accept 0 as "never treated"; here 0 is a date like any other, so such
units get the calendar time instead of a missing value. -/
theorem C84_zero_refuted (t : K) : eventTime (.fin t) (.fin 0) = .fin t := by
  simp [eventTime, Ext.sub, Ext.add, Ext.neg]

example : eventTime (.fin 2018) (.fin (2020 : ℚ)) = .fin (-2) := by decide +kernel
end event

/-! ### C85, C86: summaries agree with the estimator -/

section cells
variable {U T K : Type*} [DecidableEq U] [LinearOrder T] [Field K] [LinearOrder K] [IsStrictOrderedRing K]

theorem sum_filter_get {α : Type*} (l : List α) (p : α → Bool) (f : α → K) :
    ((l.filter p).map f).sum = ∑ i : Fin l.length, if p l[i] then f l[i] else 0 := by
  have h1 : ((l.filter p).map f).sum = (l.map (fun a => if p a then f a else 0)).sum := by
    induction l with
    | nil => rfl
    | cons a l ih =>
      rw [List.filter_cons, List.map_cons, List.sum_cons, ← ih]
      split_ifs <;> simp
  rw [h1, ← Fin.sum_univ_fun_getElem]
  rfl

theorem meanOf_cell (rows : List (SRow U T K)) (d t : Fin rows.length → Bool) (a : K) (x : T) (b c : Bool)
    (h : ∀ i : Fin rows.length, (rows[i].d = a ∧ rows[i].t = x) ↔ (d i = b ∧ t i = c)) :
    meanOf (cellY rows a x) = if (Did2x2.cell d t b c).Nonempty then
      some (Did2x2.cellMean (fun i => rows[i].y) d t b c) else none := by
  have hsum : (cellY rows a x).sum = ∑ i ∈ Did2x2.cell d t b c, rows[i].y := by
    unfold cellY Did2x2.cell
    rw [sum_filter_get, Finset.sum_filter]
    refine Finset.sum_congr rfl fun i _ => ?_
    by_cases hi : d i = b ∧ t i = c
    · rw [if_pos hi, if_pos (decide_eq_true ((h i).2 hi))]
    · rw [if_neg hi, if_neg (by simpa using fun h1 h2 => hi ((h i).1 ⟨h1, h2⟩))]
  have hcard : ((cellY rows a x).length : K) = ((Did2x2.cell d t b c).card : K) := by
    have h1 : ((cellY rows a x).length : K) = ((rows.filter (fun r => decide (r.d = a ∧ r.t = x))).map (fun _ => (1 : K))).sum := by
      unfold cellY; simp
    rw [h1, sum_filter_get]
    unfold Did2x2.cell
    rw [Finset.card_eq_sum_ones, Finset.sum_filter]
    push_cast
    refine Finset.sum_congr rfl fun i _ => ?_
    by_cases hi : d i = b ∧ t i = c
    · rw [if_pos hi, if_pos (decide_eq_true ((h i).2 hi))]
    · rw [if_neg hi, if_neg (by simpa using fun h1 h2 => hi ((h i).1 ⟨h1, h2⟩))]
  have hlen : (cellY rows a x).length = (Did2x2.cell d t b c).card := by exact_mod_cast hcard
  unfold meanOf
  by_cases he : cellY rows a x = []
  · have : ¬ (Did2x2.cell d t b c).Nonempty := by
      rw [Finset.not_nonempty_iff_eq_empty, ← Finset.card_eq_zero, ← hlen, he]; rfl
    rw [if_pos he, if_neg this]
  · have : (Did2x2.cell d t b c).Nonempty := by
      rw [← Finset.card_pos, ← hlen]; exact List.length_pos_iff.2 he
    rw [if_neg he, if_pos this, hsum, hcard]
    rfl

/-- On two-period data with a 0/1 treatment column, the "DiD Estimate" line is defined exactly when all four cells have data,
and it then equals the interaction coefficient of the least squares regression that `DifferenceInDifferences` runs, with the
later of the two labels as the post period. -/
theorem C85_summary_is_estimate (rows : List (SRow U T K)) (pre post : T) (hlt : pre < post)
    (hT : ∀ x, (∃ r ∈ rows, r.t = x) ↔ x = pre ∨ x = post) (hD : ∀ r ∈ rows, r.d = 0 ∨ r.d = 1) :
    ∃ o, summaryDid rows = some o ∧
      (o.isSome ↔ ∀ a ∈ [(0 : K), 1], ∀ x ∈ [pre, post], ∃ r ∈ rows, r.d = a ∧ r.t = x) ∧
      ∀ v, o = some v → ∀ att, Did2x2.IsAtt (fun i : Fin rows.length => rows[i].y)
        (fun i => decide (rows[i].d = 1)) (fun i => decide (rows[i].t = post)) att ↔ att = v := by
  have hl : (rows.map (fun r => r.t)).dedup.insertionSort (· ≤ ·) = [pre, post] := by
    have hp : ((rows.map (fun r => r.t)).dedup).Perm [pre, post] := by
      refine (List.perm_ext_iff_of_nodup (List.nodup_dedup _) (by simp [hlt.ne])).2 fun x => ?_
      rw [List.mem_dedup, List.mem_map]
      simpa using hT x
    refine List.Perm.eq_of_pairwise' (r := (· ≤ ·)) ?_ ?_ ((List.perm_insertionSort _ _).trans hp)
    · exact List.pairwise_insertionSort (r := (· ≤ ·)) _
    · simp [hlt.le]
  set d : Fin rows.length → Bool := fun i => decide (rows[i].d = 1) with hd
  set t : Fin rows.length → Bool := fun i => decide (rows[i].t = post) with htd
  have hcell : ∀ (b c : Bool) (i : Fin rows.length), (rows[i].d = (if b then 1 else 0) ∧ rows[i].t = (if c then post else pre)) ↔
      (d i = b ∧ t i = c) := by
    intro b c i
    have h1 := hD rows[i] (List.getElem_mem _)
    have h2 := (hT rows[i].t).1 ⟨rows[i], List.getElem_mem _, rfl⟩
    have e1 : rows[i].d = (if b then 1 else 0) ↔ d i = b := by
      rcases h1 with h | h <;> cases b <;> simp only [hd, h] <;> simp
    have e2 : rows[i].t = (if c then post else pre) ↔ t i = c := by
      rcases h2 with h | h <;> cases c <;> simp only [htd, h] <;> simp [hlt.ne, hlt.ne']
    rw [e1, e2]
  have hne : ∀ b c : Bool, (Did2x2.cell d t b c).Nonempty ↔ ∃ r ∈ rows, r.d = (if b then 1 else 0) ∧ r.t = (if c then post else pre) := by
    intro b c
    constructor
    · rintro ⟨i, hi⟩
      exact ⟨rows[i], List.getElem_mem _, (hcell b c i).2 (Did2x2.mem_cell.1 hi)⟩
    · rintro ⟨r, hr, h⟩
      obtain ⟨i, hi, rfl⟩ := List.mem_iff_getElem.1 hr
      exact ⟨⟨i, hi⟩, Did2x2.mem_cell.2 ((hcell b c ⟨i, hi⟩).1 h)⟩
  have hm : ∀ b c : Bool, meanOf (cellY rows (if b then 1 else 0) (if c then post else pre)) =
      if (Did2x2.cell d t b c).Nonempty then some (Did2x2.cellMean (fun i => rows[i].y) d t b c) else none :=
    fun b c => meanOf_cell rows d t _ _ b c (hcell b c)
  have h11 := hm true true; have h10 := hm true false; have h01 := hm false true; have h00 := hm false false
  simp only [if_true, Bool.false_eq_true, if_false] at h11 h10 h01 h00
  refine ⟨_, by unfold summaryDid; rw [hl], ?_, ?_⟩
  · rw [h11, h10, h01, h00]
    have n11 := hne true true; have n10 := hne true false; have n01 := hne false true; have n00 := hne false false
    simp only [if_true, Bool.false_eq_true, if_false] at n11 n10 n01 n00
    simp only [List.mem_cons, List.not_mem_nil, or_false, forall_eq_or_imp, forall_eq, ← n11, ← n10, ← n01, ← n00]
    by_cases q1 : (Did2x2.cell d t true true).Nonempty <;> by_cases q2 : (Did2x2.cell d t true false).Nonempty <;>
      by_cases q3 : (Did2x2.cell d t false true).Nonempty <;> by_cases q4 : (Did2x2.cell d t false false).Nonempty <;>
      simp [osub, q1, q2, q3, q4]
  · intro v hv att
    rw [h11, h10, h01, h00] at hv
    have hall : ∀ b c, (Did2x2.cell d t b c).Nonempty := by
      intro b c
      cases b <;> cases c <;> (by_contra hcon; simp only [hcon, if_false] at hv; split_ifs at hv <;> simp [osub] at hv)
    rw [if_pos (hall _ _), if_pos (hall _ _), if_pos (hall _ _), if_pos (hall _ _)] at hv
    have hv' : Did2x2.did (fun i : Fin rows.length => rows[i].y) d t = v := by
      simpa [osub, Did2x2.did] using hv
    have hex : ∀ a c, ∃ i, d i = a ∧ t i = c := fun a c => (hall a c).imp fun i hi => Did2x2.mem_cell.1 hi
    constructor
    · intro h
      rw [Did2x2.C10_att_is_difference_of_means _ d t att hex h, hv']
    · rintro rfl
      rw [← hv']
      exact Did2x2.C10_att_exists _ d t hex

/-- The "DiD Estimate" line appears exactly when the data have two distinct periods. -/
theorem C85_line_present (rows : List (SRow U T K)) :
    (summaryDid rows).isSome ↔ ∃ pre post : T, pre < post ∧ ∀ x, (∃ r ∈ rows, r.t = x) ↔ x = pre ∨ x = post := by
  have hp := List.perm_insertionSort (· ≤ ·) (rows.map (fun r => r.t)).dedup
  have hs := List.pairwise_insertionSort (r := (· ≤ ·)) (rows.map (fun r => r.t)).dedup
  have hnd := hp.nodup_iff.2 (List.nodup_dedup _)
  have hmem : ∀ x, x ∈ (rows.map (fun r => r.t)).dedup.insertionSort (· ≤ ·) ↔ ∃ r ∈ rows, r.t = x := by
    intro x; rw [hp.mem_iff, List.mem_dedup, List.mem_map]
  unfold summaryDid
  generalize (rows.map (fun r => r.t)).dedup.insertionSort (· ≤ ·) = S at hs hnd hmem
  match S with
  | [] =>
    refine iff_of_false (by simp) ?_
    rintro ⟨pre, post, -, h⟩
    exact absurd ((hmem pre).2 ((h pre).2 (Or.inl rfl))) (by simp)
  | [a] =>
    refine iff_of_false (by simp) ?_
    rintro ⟨pre, post, hlt, h⟩
    have h1 := (hmem pre).2 ((h pre).2 (Or.inl rfl))
    have h2 := (hmem post).2 ((h post).2 (Or.inr rfl))
    simp only [List.mem_singleton] at h1 h2
    exact absurd (h1.trans h2.symm) hlt.ne
  | [a, b] =>
    refine iff_of_true rfl ⟨a, b, ?_, fun x => by rw [← hmem]; simp⟩
    simp only [List.nodup_cons, List.mem_singleton] at hnd
    simp only [List.pairwise_cons, List.mem_singleton, forall_eq] at hs
    exact lt_of_le_of_ne hs.1 hnd.1
  | a :: b :: c :: l =>
    refine iff_of_false (by simp) ?_
    rintro ⟨pre, post, -, h⟩
    have ha := (h a).1 ((hmem a).1 (by simp))
    have hb := (h b).1 ((hmem b).1 (by simp))
    have hc := (h c).1 ((hmem c).1 (by simp))
    simp only [List.nodup_cons, List.mem_cons, not_or] at hnd
    rcases ha with rfl | rfl <;> rcases hb with rfl | rfl <;> rcases hc with rfl | rfl <;> simp_all

/-- `aggregate_to_cohorts`: exactly one line per treatment-period combination in the data, in ascending order, with the mean
outcome (always defined) and the number of distinct units of that combination. -/
theorem C86_cohorts (rows : List (SRow U T K)) :
    (∀ a x, (∃ c ∈ cohorts rows, c.d = a ∧ c.t = x) ↔ ∃ r ∈ rows, r.d = a ∧ r.t = x) ∧
    ((cohorts rows).map (fun c => (c.d, c.t))).Nodup ∧
    ((cohorts rows).map (fun c => (c.d, c.t))).Pairwise (fun a b => a.1 < b.1 ∨ (a.1 = b.1 ∧ a.2 < b.2)) ∧
    ∀ c ∈ cohorts rows,
      (∃ m, c.meanY = some m ∧
        m * ((rows.filter (fun r => decide (r.d = c.d ∧ r.t = c.t))).length : K) =
          ((rows.filter (fun r => decide (r.d = c.d ∧ r.t = c.t))).map (fun r => r.y)).sum) ∧
      c.nUnits = ((rows.filter (fun r => decide (r.d = c.d ∧ r.t = c.t))).map (fun r => r.unit)).toFinset.card ∧
      1 ≤ c.nUnits := by
  let le : K × T → K × T → Prop := fun a b => a.1 < b.1 ∨ (a.1 = b.1 ∧ a.2 ≤ b.2)
  have hkeys : (cohorts rows).map (fun c => (c.d, c.t)) = (rows.map (fun r => (r.d, r.t))).dedup.insertionSort le := by
    unfold cohorts
    rw [List.map_map]
    exact List.map_id _
  have hnd : ((rows.map (fun r => (r.d, r.t))).dedup.insertionSort le).Nodup :=
    (List.perm_insertionSort _ _).nodup_iff.2 (List.nodup_dedup _)
  have hmem : ∀ a x, (a, x) ∈ (cohorts rows).map (fun c => (c.d, c.t)) ↔ ∃ r ∈ rows, r.d = a ∧ r.t = x := by
    intro a x
    rw [hkeys, List.mem_insertionSort, List.mem_dedup, List.mem_map]
    simp
  refine ⟨fun a x => ?_, by rw [hkeys]; exact hnd, ?_, ?_⟩
  · rw [← hmem, List.mem_map]
    simp
  · rw [hkeys]
    haveI : Std.Total (α := K × T) le := ⟨fun a b => by
      rcases lt_trichotomy a.1 b.1 with h | h | h
      · exact Or.inl (Or.inl h)
      · rcases le_total a.2 b.2 with h' | h'
        · exact Or.inl (Or.inr ⟨h, h'⟩)
        · exact Or.inr (Or.inr ⟨h.symm, h'⟩)
      · exact Or.inr (Or.inl h)⟩
    haveI : IsTrans (K × T) le := ⟨fun a b c h1 h2 => by
      rcases h1 with h1 | ⟨h1, h1'⟩ <;> rcases h2 with h2 | ⟨h2, h2'⟩
      · exact Or.inl (h1.trans h2)
      · exact Or.inl (h2 ▸ h1)
      · exact Or.inl (h1 ▸ h2)
      · exact Or.inr ⟨h1.trans h2, h1'.trans h2'⟩⟩
    refine ((List.pairwise_insertionSort (r := le) _).and hnd).imp ?_
    rintro a b ⟨h | ⟨h, h'⟩, hne⟩
    · exact Or.inl h
    · exact Or.inr ⟨h, lt_of_le_of_ne h' fun e => hne (Prod.ext h e)⟩
  · intro c hc
    have hex := (hmem c.d c.t).1 (List.mem_map.2 ⟨c, hc, rfl⟩)
    have hne : rows.filter (fun r => decide (r.d = c.d ∧ r.t = c.t)) ≠ [] := by
      obtain ⟨r, hr, h1, h2⟩ := hex
      intro he
      have := List.filter_eq_nil_iff.1 he r hr
      simp [h1, h2] at this
    unfold cohorts at hc
    obtain ⟨p, hp, rfl⟩ := List.mem_map.1 hc
    simp only at hne ⊢
    have hu : (((rows.filter (fun r => decide (r.d = p.1 ∧ r.t = p.2))).map (fun r => r.unit)).dedup.length) =
        ((rows.filter (fun r => decide (r.d = p.1 ∧ r.t = p.2))).map (fun r => r.unit)).toFinset.card := (List.card_toFinset _).symm
    refine ⟨⟨_, if_neg (by unfold cellY; simpa using hne), ?_⟩, hu, ?_⟩
    · have : ((rows.filter (fun r => decide (r.d = p.1 ∧ r.t = p.2))).length : K) ≠ 0 := by
        exact_mod_cast (List.length_pos_iff.2 hne).ne'
      unfold cellY
      rw [List.length_map]
      field_simp
    · rw [hu, Finset.one_le_card, List.toFinset_nonempty_iff]
      simpa using hne

end cells

/-- Two groups, years 2019 and 2020, two treated and one control unit. -/
def small : List (SRow ℕ ℕ ℚ) :=
  [⟨1, 1, 2019, 10⟩, ⟨1, 1, 2020, 15⟩, ⟨2, 1, 2019, 12⟩, ⟨2, 1, 2020, 17⟩, ⟨3, 0, 2019, 8⟩, ⟨3, 0, 2020, 10⟩]

example : summaryDid small = some (some 3) := by decide +kernel
example : (cohorts small).map (fun c => (c.d, c.t, c.meanY, c.nUnits)) =
    [(0, 2019, some 8, 1), (0, 2020, some 10, 1), (1, 2019, some 11, 2), (1, 2020, some 16, 2)] := by decide +kernel
example : (∀ x ∈ [2018, 2019, 2020, 2021], (∃ r ∈ small, r.t = x) ↔ x = 2019 ∨ x = 2020) ∧
    ∀ r ∈ small, r.d = 0 ∨ r.d = 1 := by decide +kernel

end DiffDiff.Prep
