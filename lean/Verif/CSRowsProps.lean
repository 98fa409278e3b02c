/-
Properties of `CallawaySantAnna.fit` as a function of the rows of the data: order of rows, labels of units, repeated rows,
missing outcomes, and a first_treat column that changes within units.
-/
import Verif.CSRows
import Verif.CSRecodeProps
import Mathlib.Data.List.NodupEquivFin
import Mathlib.Data.Rat.Defs
import Mathlib.Tactic.Linarith
import Mathlib.Tactic.NormNum
import Mathlib.Tactic.FinCases

set_option linter.unusedSectionVars false
set_option linter.unusedVariables false

namespace DiffDiff.CSRows

open CS
open scoped List

variable {U K : Type*} [LinearOrder U] [Field K] [LinearOrder K] [IsStrictOrderedRing K]

/-! ### Specification -/

/-- All rows of a unit carry the same first_treat value. -/
def Constant (rows : List (Row U K)) : Prop := ∀ r ∈ rows, ∀ s ∈ rows, r.unit = s.unit → r.cohort = s.cohort

/-- No (unit, period) pair occurs twice. -/
def NoRepeat (rows : List (Row U K)) : Prop := (rows.map (fun r => (r.unit, r.time))).Nodup

/-- The panel with the units renamed by a bijection. -/
def renamed {n m : ℕ} (σ : Fin n ≃ Fin m) (P : Panel n K) : Panel m K :=
  { cohort := fun u => P.cohort (σ.symm u), times := P.times, y := fun u t => P.y (σ.symm u) t }

/-- The stored effect with the units renamed by a bijection. -/
def renamedEntry {n m : ℕ} (σ : Fin n ≃ Fin m) (e : Entry n K) : Entry m K :=
  { effect := e.effect, var := e.var, nT := e.nT, nC := e.nC
    treated := e.treated.map σ.toEmbedding, control := e.control.map σ.toEmbedding
    infT := fun u => e.infT (σ.symm u), infC := fun u => e.infC (σ.symm u) }

/-- The results with the units renamed by a bijection: all numbers are the same. -/
def renamedResults {n m : ℕ} (σ : Fin n ≃ Fin m) (r : Results n K) : Results m K :=
  { groups := r.groups, nTreated := r.nTreated, nControl := r.nControl
    effects := r.effects.map (fun x => (x.1, renamedEntry σ x.2))
    overall := r.overall, event := r.event, group := r.group }

/-! ### What is read from the rows -/

theorem mem_keys {rows : List (Row U K)} {u : U} : u ∈ keys rows ↔ ∃ r ∈ rows, r.unit = u := by
  simp [keys, List.mem_insertionSort]

theorem keys_nodup (rows : List (Row U K)) : (keys rows).Nodup :=
  (List.perm_insertionSort _ _).nodup_iff.2 (List.nodup_dedup _)

theorem keys_sorted (rows : List (Row U K)) : (keys rows).Pairwise (· ≤ ·) := List.pairwise_insertionSort _ _

theorem sorted_ext {α : Type*} [LinearOrder α] {l l' : List α} (h1 : l.Nodup) (h2 : l'.Nodup) (s1 : l.Pairwise (· ≤ ·)) (s2 : l'.Pairwise (· ≤ ·))
    (h : ∀ x, x ∈ l ↔ x ∈ l') : l = l' :=
  ((List.perm_ext_iff_of_nodup h1 h2).2 h).eq_of_pairwise (fun a b _ _ h h' => le_antisymm h h') s1 s2

theorem keys_congr {rows rows' : List (Row U K)} (h : ∀ u, (∃ r ∈ rows, r.unit = u) ↔ ∃ r ∈ rows', r.unit = u) : keys rows = keys rows' :=
  sorted_ext (keys_nodup _) (keys_nodup _) (keys_sorted _) (keys_sorted _) (fun u => by rw [mem_keys, mem_keys, h])

theorem mem_times {rows : List (Row U K)} {t : ℤ} : t ∈ times rows ↔ ∃ r ∈ rows, r.time = t := by
  simp [times, List.mem_insertionSort]

theorem times_congr {U' : Type*} [LinearOrder U'] {rows : List (Row U K)} {rows' : List (Row U' K)}
    (h : ∀ t, (∃ r ∈ rows, r.time = t) ↔ ∃ r ∈ rows', r.time = t) : times rows = times rows' :=
  sorted_ext ((List.perm_insertionSort _ _).nodup_iff.2 (List.nodup_dedup _)) ((List.perm_insertionSort _ _).nodup_iff.2 (List.nodup_dedup _))
    (List.pairwise_insertionSort _ _) (List.pairwise_insertionSort _ _) (fun u => by rw [mem_times, mem_times, h])

theorem mem_groupsOf {rows : List (Row U K)} {g : Coh} : g ∈ groupsOf rows ↔ (∃ r ∈ rows, r.cohort = g) ∧ g.pos = true := by
  simp [groupsOf, List.mem_insertionSort]

theorem groupsOf_nodup (rows : List (Row U K)) : (groupsOf rows).Nodup :=
  (List.perm_insertionSort _ _).nodup_iff.2 ((List.nodup_dedup _).filter _)

theorem groupsOf_sorted (rows : List (Row U K)) : (groupsOf rows).Pairwise (fun a b => Coh.le a b = true) :=
  List.pairwise_insertionSort _ _

theorem groupsOf_congr {U' : Type*} [LinearOrder U'] {rows : List (Row U K)} {rows' : List (Row U' K)}
    (h : ∀ g, (∃ r ∈ rows, r.cohort = g) ↔ ∃ r ∈ rows', r.cohort = g) : groupsOf rows = groupsOf rows' :=
  sorted_unique _ _ (groupsOf_nodup _) (groupsOf_nodup _) (groupsOf_sorted _) (groupsOf_sorted _)
    (fun g => by rw [mem_groupsOf, mem_groupsOf, h])

theorem firstCoh_const {rows : List (Row U K)} (h : Constant rows) {r : Row U K} (hr : r ∈ rows) : firstCoh rows r.unit = r.cohort := by
  unfold firstCoh
  have hall : ∀ g ∈ (rows.filter (fun s => decide (s.unit = r.unit))).map Row.cohort, g = r.cohort := by
    intro g hg
    obtain ⟨s, hs, rfl⟩ := List.mem_map.1 hg
    obtain ⟨hs, hu⟩ := List.mem_filter.1 hs
    exact h s hs r hr (of_decide_eq_true hu)
  have hmem : r.cohort ∈ (rows.filter (fun s => decide (s.unit = r.unit))).map Row.cohort :=
    List.mem_map.2 ⟨r, List.mem_filter.2 ⟨hr, decide_eq_true rfl⟩, rfl⟩
  cases hf : ((rows.filter (fun s => decide (s.unit = r.unit))).map Row.cohort).find? (fun g => decide (g ≠ Coh.nan)) with
  | some g => exact hall g (List.mem_of_find?_eq_some hf)
  | none =>
    have := List.find?_eq_none.1 hf _ hmem
    simpa using (not_not.1 (by simpa using this) : r.cohort = Coh.nan).symm

theorem firstNever_const {rows : List (Row U K)} (h : Constant rows) {r : Row U K} (hr : r ∈ rows) : firstNever rows r.unit = r.cohort.isNever := by
  unfold firstNever
  cases hf : rows.filter (fun s => decide (s.unit = r.unit)) with
  | nil =>
    have : r ∈ rows.filter (fun s => decide (s.unit = r.unit)) := List.mem_filter.2 ⟨hr, decide_eq_true rfl⟩
    rw [hf] at this
    cases this
  | cons s l =>
    have hs : s ∈ rows.filter (fun s => decide (s.unit = r.unit)) := by rw [hf]; exact List.mem_cons_self
    obtain ⟨hs, hu⟩ := List.mem_filter.1 hs
    show s.cohort.isNever = _
    rw [h s hs r hr (of_decide_eq_true hu)]

theorem unique_row {rows : List (Row U K)} (h : NoRepeat rows) {r s : Row U K} (hr : r ∈ rows) (hs : s ∈ rows) (hu : r.unit = s.unit) (ht : r.time = s.time) :
    r = s := by
  exact List.inj_on_of_nodup_map h hr hs (by rw [hu, ht])

theorem cell_eq {rows : List (Row U K)} (h : NoRepeat rows) {r : Row U K} (hr : r ∈ rows) : cell rows r.unit r.time = r.y := by
  unfold cell
  cases hf : rows.find? (fun s => decide (s.unit = r.unit) && decide (s.time = r.time)) with
  | none =>
    have := List.find?_eq_none.1 hf r hr
    simp at this
  | some s =>
    have h1 := List.find?_some hf
    have h2 := List.mem_of_find?_eq_some hf
    simp only [Bool.and_eq_true, decide_eq_true_eq] at h1
    rw [unique_row h h2 hr h1.1 h1.2]
    rfl

theorem cell_some_iff {rows : List (Row U K)} (h : NoRepeat rows) (u : U) (t : ℤ) (v : K) :
    cell rows u t = some v ↔ ∃ r ∈ rows, r.unit = u ∧ r.time = t ∧ r.y = some v := by
  constructor
  · intro hc
    unfold cell at hc
    cases hf : rows.find? (fun s => decide (s.unit = u) && decide (s.time = t)) with
    | none => rw [hf] at hc; cases hc
    | some s =>
      rw [hf] at hc
      have h1 := List.find?_some hf
      simp only [Bool.and_eq_true, decide_eq_true_eq] at h1
      exact ⟨s, List.mem_of_find?_eq_some hf, h1.1, h1.2, hc⟩
  · rintro ⟨r, hr, rfl, rfl, hy⟩
    rw [cell_eq h hr, hy]

theorem sizeOf_congr {rows rows' : List (Row U K)} (g : Coh) (h : ∀ u, (∃ r ∈ rows, r.cohort = g ∧ r.unit = u) ↔ ∃ r ∈ rows', r.cohort = g ∧ r.unit = u) :
    sizeOf rows g = sizeOf rows' g := by
  unfold sizeOf
  refine ((List.perm_ext_iff_of_nodup (List.nodup_dedup _) (List.nodup_dedup _)).2 ?_).length_eq
  intro u
  simpa [and_assoc] using h u

/-- Equal inputs of `fitWith`. -/
theorem fit_congr (c : Cfg) (bal : Option ℤ) {rows rows' : List (Row U K)} (hk : keys rows = keys rows')
    (hc : ∀ u ∈ keys rows, firstCoh rows u = firstCoh rows' u) (hn : ∀ u ∈ keys rows, firstNever rows u = firstNever rows' u)
    (hd : hasDup rows = hasDup rows') (ht : times rows = times rows') (hg : groupsOf rows = groupsOf rows')
    (hy : hasDup rows = false → ∀ u ∈ keys rows, ∀ t, cell rows u t = cell rows' u t) (hs : ∀ g ∈ groupsOf rows, sizeOf rows g = sizeOf rows' g) :
    fit c bal rows = fit c bal rows' := by
  unfold fit
  rw [← hk, ← hd, ← hg]
  have hf : (keys rows).filter (firstNever rows) = (keys rows).filter (firstNever rows') := List.filter_congr hn
  cases hdup : hasDup rows with
  | true =>
    unfold fitWith
    rw [hf]
    simp
  | false =>
    have hP : panelOf (keys rows) rows = panelOf (keys rows) rows' := by
      unfold panelOf
      congr 1
      · funext i; exact hc _ (List.get_mem _ _)
      · funext i t; exact hy hdup _ (List.get_mem _ _) t
    have hv : ∀ l : List ((Coh × ℤ) × Entry (keys rows).length K), (∀ x ∈ l, x.1.1 ∈ groupsOf rows) →
        overallVarWith (sizeOf rows) c.ant (panelOf (keys rows) rows') l = overallVarWith (sizeOf rows') c.ant (panelOf (keys rows) rows') l := by
      intro l hl
      have hmap : ∀ {β : Type _} (f f' : Coh → K → β), (∀ g ∈ groupsOf rows, ∀ v, f g v = f' g v) →
          (((postPairs c.ant l).map (fun x => (x.1.1, x.2.effect))).map (fun x => f x.1 x.2)) =
          (((postPairs c.ant l).map (fun x => (x.1.1, x.2.effect))).map (fun x => f' x.1 x.2)) := by
        intro β f f' h
        apply List.map_congr_left
        intro x hx
        obtain ⟨z, hz, rfl⟩ := List.mem_map.1 hx
        exact h _ (hl z (List.mem_filter.1 hz).1) _
      unfold overallVarWith wifWith
      simp only
      generalize hN : ((allUnits ((postPairs c.ant l).map Prod.snd)).card : K) = N
      have e1 := hmap (fun g _ => (sizeOf rows g : K) / N) (fun g _ => (sizeOf rows' g : K) / N) (fun g hg v => by rw [hs g hg])
      rw [e1]
      congr 2
      apply Finset.sum_congr rfl
      intro u _
      have e2 := hmap (fun g _ => (if (panelOf (keys rows) rows').cohort u = g then (1 : K) else 0) - (sizeOf rows g : K) / N)
        (fun g _ => (if (panelOf (keys rows) rows').cohort u = g then (1 : K) else 0) - (sizeOf rows' g : K) / N) (fun g hg v => by rw [hs g hg])
      rw [e2]
      congr 3
      apply congrArg List.sum
      exact hmap (fun g v => ((((if (panelOf (keys rows) rows').cohort u = g then (1 : K) else 0) - (sizeOf rows g : K) / N) / _) - _ * ((sizeOf rows g : K) / N) / _) * v)
        (fun g v => ((((if (panelOf (keys rows) rows').cohort u = g then (1 : K) else 0) - (sizeOf rows' g : K) / N) / _) - _ * ((sizeOf rows' g : K) / N) / _) * v)
        (fun g hg v => by rw [hs g hg])
    have hmem : ∀ x ∈ effectsFor c (panelOf (keys rows) rows') (groupsOf rows), x.1.1 ∈ groupsOf rows := by
      intro x hx
      unfold effectsFor at hx
      obtain ⟨g, hg, hx⟩ := List.mem_flatMap.1 hx
      obtain ⟨t, _, hx⟩ := List.mem_filterMap.1 hx
      cases ha : attGt c (panelOf (keys rows) rows') g t with
      | none => rw [ha] at hx; cases hx
      | some e => rw [ha] at hx; cases hx; exact hg
    unfold fitWith
    rw [hf, hP, hv _ hmem]

/-! ### Order of the rows, missing outcomes -/

/-- Rows over the same units, periods and cohorts with the same outcomes give the same results. -/
theorem fit_same (c : Cfg) (bal : Option ℤ) {rows rows' : List (Row U K)} (hc : Constant rows) (hc' : Constant rows')
    (hu : ∀ u g, (∃ r ∈ rows, r.unit = u ∧ r.cohort = g) ↔ ∃ r ∈ rows', r.unit = u ∧ r.cohort = g)
    (ht : ∀ t, (∃ r ∈ rows, r.time = t) ↔ ∃ r ∈ rows', r.time = t) (hd : NoRepeat rows ↔ NoRepeat rows')
    (hy : NoRepeat rows → ∀ u t v, (∃ r ∈ rows, r.unit = u ∧ r.time = t ∧ r.y = some v) ↔ ∃ r ∈ rows', r.unit = u ∧ r.time = t ∧ r.y = some v) :
    fit c bal rows = fit c bal rows' := by
  have hdup : hasDup rows = hasDup rows' := by
    unfold hasDup
    congr 1
    exact decide_eq_decide.2 hd
  apply fit_congr
  · apply keys_congr
    intro u
    constructor
    · rintro ⟨r, hr, rfl⟩
      obtain ⟨s, hs, h1, _⟩ := (hu r.unit r.cohort).1 ⟨r, hr, rfl, rfl⟩
      exact ⟨s, hs, h1⟩
    · rintro ⟨r, hr, rfl⟩
      obtain ⟨s, hs, h1, _⟩ := (hu r.unit r.cohort).2 ⟨r, hr, rfl, rfl⟩
      exact ⟨s, hs, h1⟩
  · intro u hk
    obtain ⟨r, hr, rfl⟩ := mem_keys.1 hk
    obtain ⟨s, hs, h1, h2⟩ := (hu r.unit r.cohort).1 ⟨r, hr, rfl, rfl⟩
    rw [firstCoh_const hc hr, ← h1, firstCoh_const hc' hs, h2]
  · intro u hk
    obtain ⟨r, hr, rfl⟩ := mem_keys.1 hk
    obtain ⟨s, hs, h1, h2⟩ := (hu r.unit r.cohort).1 ⟨r, hr, rfl, rfl⟩
    rw [firstNever_const hc hr, ← h1, firstNever_const hc' hs, h2]
  · exact hdup
  · exact times_congr ht
  · apply groupsOf_congr
    intro g
    constructor
    · rintro ⟨r, hr, rfl⟩
      obtain ⟨s, hs, _, h1⟩ := (hu r.unit r.cohort).1 ⟨r, hr, rfl, rfl⟩
      exact ⟨s, hs, h1⟩
    · rintro ⟨r, hr, rfl⟩
      obtain ⟨s, hs, _, h1⟩ := (hu r.unit r.cohort).2 ⟨r, hr, rfl, rfl⟩
      exact ⟨s, hs, h1⟩
  · intro h0 u _ t
    have h1 : NoRepeat rows := by unfold hasDup at h0; unfold NoRepeat; simpa using h0
    have h2 := hd.1 h1
    cases h3 : cell rows' u t with
    | some v =>
      rw [cell_some_iff h1, hy h1, ← cell_some_iff h2]
      exact h3
    | none =>
      cases h4 : cell rows u t with
      | none => rfl
      | some v =>
        rw [cell_some_iff h1, hy h1, ← cell_some_iff h2, h3] at h4
        cases h4
  · intro g _
    apply sizeOf_congr
    intro u
    have := hu u g
    constructor
    · rintro ⟨r, hr, h1, h2⟩
      obtain ⟨s, hs, h3, h4⟩ := this.1 ⟨r, hr, h2, h1⟩
      exact ⟨s, hs, h4, h3⟩
    · rintro ⟨r, hr, h1, h2⟩
      obtain ⟨s, hs, h3, h4⟩ := this.2 ⟨r, hr, h2, h1⟩
      exact ⟨s, hs, h4, h3⟩

/-- C144. If first_treat is constant within units, the order of the rows has no effect on anything reported, including the error raised. -/
theorem C144_row_order (c : Cfg) (bal : Option ℤ) (rows rows' : List (Row U K)) (hp : rows ~ rows') (hc : Constant rows) :
    fit c bal rows' = fit c bal rows := by
  refine (fit_same c bal hc ?_ ?_ ?_ ?_ ?_).symm
  · intro r hr s hs
    exact hc r (hp.mem_iff.2 hr) s (hp.mem_iff.2 hs)
  · intro u g
    exact exists_congr (fun r => and_congr_left' hp.mem_iff)
  · intro t
    exact exists_congr (fun r => and_congr_left' hp.mem_iff)
  · exact (hp.map _).nodup_iff
  · intro _ u t v
    exact exists_congr (fun r => and_congr_left' hp.mem_iff)

/-- C144. A row without outcome counts only through its unit, first_treat and period: leaving out any such rows changes nothing as long as
every unit and every period keeps a row. -/
theorem C144_missing_outcomes (c : Cfg) (bal : Option ℤ) (rows rows' : List (Row U K)) (hs : rows' <+ rows) (hc : Constant rows) (hn : NoRepeat rows)
    (hm : ∀ r ∈ rows, r ∉ rows' → r.y = none) (hu : ∀ r ∈ rows, ∃ s ∈ rows', s.unit = r.unit) (ht : ∀ r ∈ rows, ∃ s ∈ rows', s.time = r.time) :
    fit c bal rows' = fit c bal rows := by
  have hsub := hs.subset
  refine (fit_same c bal hc ?_ ?_ ?_ ?_ ?_).symm
  · intro r hr s hs
    exact hc r (hsub hr) s (hsub hs)
  · intro u g
    constructor
    · rintro ⟨r, hr, rfl, rfl⟩
      obtain ⟨s, hs, h1⟩ := hu r hr
      exact ⟨s, hs, h1, hc s (hsub hs) r hr h1⟩
    · rintro ⟨r, hr, h⟩
      exact ⟨r, hsub hr, h⟩
  · intro t
    constructor
    · rintro ⟨r, hr, rfl⟩
      exact ht r hr
    · rintro ⟨r, hr, h⟩
      exact ⟨r, hsub hr, h⟩
  · exact iff_of_true hn (hn.sublist (hs.map _))
  · intro _ u t v
    constructor
    · rintro ⟨r, hr, h1, h2, h3⟩
      refine ⟨r, ?_, h1, h2, h3⟩
      by_contra h
      rw [hm r hr h] at h3
      cases h3
    · rintro ⟨r, hr, h⟩
      exact ⟨r, hsub hr, h⟩

/-! ### The panel -/

theorem wif_eq {n : ℕ} (P : Panel n K) (N : ℕ) (k : List (Coh × K)) (u : Fin n) :
    wifWith (fun g => (Finset.univ.filter (fun u => P.cohort u = g)).card) P N k u = wif P N k u := rfl

theorem overallVar_eq {n : ℕ} (ant : ℤ) (P : Panel n K) (l : List ((Coh × ℤ) × Entry n K)) :
    overallVarWith (fun g => (Finset.univ.filter (fun u => P.cohort u = g)).card) ant P l = overallVar ant P l := rfl

theorem card_filter_get {α : Type*} (l : List α) (p : α → Bool) : (Finset.univ.filter (fun i : Fin l.length => p (l.get i) = true)).card = (l.filter p).length := by
  have h : Fintype.card {i : Fin l.length // p (l.get i) = true} = (l.filter p).length := by
    rw [← List.countP_eq_length_filter]
    induction l with
    | nil => simp
    | cons a l ih =>
      rw [List.countP_cons, ← ih, Fintype.card_subtype, Fintype.card_subtype]
      show (Finset.univ.filter (fun i : Fin (l.length + 1) => p ((a :: l).get i) = true)).card = _
      rw [Fin.card_filter_univ_succ]
      by_cases h : p a = true
      · simp [h]
      · simp [h]
  rw [← h, Fintype.card_subtype]

/-- What the wide panel of a data set contains: the distinct units in increasing order, the distinct periods in increasing order, the outcome of
the row of a unit and period if there is one, and the first_treat value of the rows of each unit. -/
def IsWide (rows : List (Row U K)) (ks : List U) (P : Panel ks.length K) : Prop :=
  ks.Pairwise (· < ·) ∧ (∀ u, u ∈ ks ↔ ∃ r ∈ rows, r.unit = u) ∧
    P.times.Pairwise (· < ·) ∧ (∀ t, t ∈ P.times ↔ ∃ r ∈ rows, r.time = t) ∧
    (∀ i t v, P.y i t = some v ↔ ∃ r ∈ rows, r.unit = ks.get i ∧ r.time = t ∧ r.y = some v) ∧
    ∀ i, ∀ r ∈ rows, r.unit = ks.get i → P.cohort i = r.cohort

theorem strict {α : Type*} [LinearOrder α] (l : List α) : (l.dedup.insertionSort (· ≤ ·)).Pairwise (· < ·) := by
  have h1 : (l.dedup.insertionSort (· ≤ ·)).Pairwise (· ≤ ·) := List.pairwise_insertionSort _ _
  have h2 : (l.dedup.insertionSort (· ≤ ·)).Nodup := (List.perm_insertionSort _ _).nodup_iff.2 (List.nodup_dedup _)
  exact (h1.and h2).imp (fun h => lt_of_le_of_ne h.1 h.2)

/-- C144. If first_treat is constant within units and no (unit, period) pair is repeated, `fit` returns what the panel model computes from the wide
panel of the data, so everything proved about that model holds for the rows. -/
theorem C144_wide (c : Cfg) (bal : Option ℤ) (rows : List (Row U K)) (hc : Constant rows) (hn : NoRepeat rows) :
    ∃ (ks : List U) (P : Panel ks.length K), IsWide rows ks P ∧
      fit c bal rows = match CS.fit c bal P with
        | .ok r => .ok ⟨ks, r, overallVar c.ant P r.effects⟩
        | .error .noNever => .error .noNever
        | .error .noEffects => .error .noEffects := by
  have hco : ∀ i, ∀ r ∈ rows, r.unit = (keys rows).get i → (panelOf (keys rows) rows).cohort i = r.cohort := by
    intro i r hr hu
    show firstCoh rows ((keys rows).get i) = _
    rw [← hu, firstCoh_const hc hr]
  refine ⟨keys rows, panelOf (keys rows) rows, ⟨strict _, fun u => mem_keys, strict _, fun t => mem_times, ?_, hco⟩, ?_⟩
  · intro i t v
    exact cell_some_iff hn _ _ _
  have hg : groupsOf rows = groups (panelOf (keys rows) rows) := by
    refine sorted_unique _ _ (groupsOf_nodup _) (groups_nodup _) (groupsOf_sorted _) (groups_sorted _) (fun g => ?_)
    rw [mem_groupsOf, mem_groups]
    refine and_congr_left' ⟨?_, ?_⟩
    · rintro ⟨r, hr, rfl⟩
      obtain ⟨i, hi, hik⟩ := List.getElem_of_mem (mem_keys.2 ⟨r, hr, rfl⟩)
      exact ⟨⟨i, hi⟩, hco ⟨i, hi⟩ r hr hik.symm⟩
    · rintro ⟨i, rfl⟩
      obtain ⟨r, hr, hu⟩ := mem_keys.1 (List.get_mem (keys rows) i)
      exact ⟨r, hr, (hco i r hr hu).symm⟩
  have hnev : ((keys rows).filter (firstNever rows)).length =
      (Finset.univ.filter (fun u => ((panelOf (keys rows) rows).cohort u).isNever = true)).card := by
    rw [← card_filter_get]
    congr 1
    apply Finset.filter_congr
    intro i _
    obtain ⟨r, hr, hu⟩ := mem_keys.1 (List.get_mem (keys rows) i)
    rw [hco i r hr hu, ← hu, firstNever_const hc hr]
  have hsize : ∀ g, sizeOf rows g = (Finset.univ.filter (fun u => (panelOf (keys rows) rows).cohort u = g)).card := by
    intro g
    have : (Finset.univ.filter (fun u => (panelOf (keys rows) rows).cohort u = g)) =
        Finset.univ.filter (fun i => (fun u => decide (firstCoh rows u = g)) ((keys rows).get i) = true) := by
      apply Finset.filter_congr
      intro i _
      simp [panelOf]
    rw [this, card_filter_get (keys rows) (fun u => decide (firstCoh rows u = g))]
    unfold sizeOf
    refine ((List.perm_ext_iff_of_nodup (List.nodup_dedup _) ((keys_nodup rows).filter _)).2 ?_).length_eq
    intro u
    rw [List.mem_dedup, List.mem_map, List.mem_filter, mem_keys]
    constructor
    · rintro ⟨r, hr, rfl⟩
      obtain ⟨hr, h⟩ := List.mem_filter.1 hr
      exact ⟨⟨r, hr, rfl⟩, by rw [firstCoh_const hc hr]; exact h⟩
    · rintro ⟨⟨r, hr, rfl⟩, h⟩
      rw [firstCoh_const hc hr] at h
      exact ⟨r, List.mem_filter.2 ⟨hr, h⟩, rfl⟩
  have hsf : sizeOf rows = fun g => (Finset.univ.filter (fun u => (panelOf (keys rows) rows).cohort u = g)).card := funext hsize
  have hdup : hasDup rows = false := by unfold hasDup; unfold NoRepeat at hn; simpa using hn
  have hE : effectsFor c (panelOf (keys rows) rows) (groupsOf rows) = effects c (panelOf (keys rows) rows) := by rw [hg]; rfl
  unfold fit fitWith CS.fit
  rw [hE, hdup, hnev, hsf, hg]
  simp only [overallVar_eq]
  by_cases h1 : (Finset.univ.filter (fun u => ((panelOf (keys rows) rows).cohort u).isNever = true)).card = 0
  · rw [if_pos h1, if_pos h1]
  · rw [if_neg h1, if_neg h1]
    by_cases h2 : (effects c (panelOf (keys rows) rows)).length = 0
    · rw [if_neg (by simp), if_pos h2, if_pos h2]
    · rw [if_neg (by simp), if_neg h2, if_neg h2]

/-- C144. Repeated (unit, period) pairs are rejected: whenever the first row of some unit says "never treated", and only then with this error. -/
theorem C144_duplicates (c : Cfg) (bal : Option ℤ) (rows : List (Row U K)) :
    fit c bal rows = .error .duplicate ↔
      (∃ r ∈ rows, r.cohort.isNever = true ∧ ∃ a b, rows = a ++ r :: b ∧ ∀ s ∈ a, s.unit ≠ r.unit) ∧ ¬ NoRepeat rows := by
  have hA : ((keys rows).filter (firstNever rows)).length ≠ 0 ↔
      ∃ r ∈ rows, r.cohort.isNever = true ∧ ∃ a b, rows = a ++ r :: b ∧ ∀ s ∈ a, s.unit ≠ r.unit := by
    rw [Ne, List.length_eq_zero_iff, List.filter_eq_nil_iff]
    constructor
    · intro h
      push Not at h
      obtain ⟨u, hu, h⟩ := h
      unfold firstNever at h
      cases hf : rows.filter (fun r => decide (r.unit = u)) with
      | nil => rw [hf] at h; simp at h
      | cons r l =>
        rw [hf] at h
        obtain ⟨a, b, h1, h2, h3, -⟩ := List.filter_eq_cons_iff.1 hf
        have h3 : r.unit = u := by simpa using h3
        refine ⟨r, by rw [h1]; simp, by simpa using h, a, b, h1, fun s hs => ?_⟩
        rw [h3]
        simpa using h2 s hs
    · rintro ⟨r, hr, h1, a, b, h2, h3⟩ h
      refine h r.unit (mem_keys.2 ⟨r, hr, rfl⟩) ?_
      have hf : rows.filter (fun s => decide (s.unit = r.unit)) = r :: b.filter (fun s => decide (s.unit = r.unit)) := by
        conv_lhs => rw [h2]
        rw [List.filter_append, List.filter_eq_nil_iff.2 (fun s hs => by simpa using h3 s hs)]
        simp
      unfold firstNever
      rw [hf]
      exact h1
  rw [← hA]
  have hB : hasDup rows = true ↔ ¬ NoRepeat rows := by unfold hasDup NoRepeat; simp
  rw [← hB]
  unfold fit fitWith
  by_cases h1 : ((keys rows).filter (firstNever rows)).length = 0
  · rw [if_pos h1]; simp [h1]
  · rw [if_neg h1]
    by_cases h2 : hasDup rows = true
    · rw [if_pos h2]; exact iff_of_true rfl ⟨h1, h2⟩
    · rw [if_neg h2]
      refine iff_of_false ?_ (fun h => h2 h.2)
      by_cases h3 : (effectsFor c (panelOf (keys rows) rows) (groupsOf rows)).length = 0
      · rw [if_pos h3]; simp
      · rw [if_neg h3]; simp

/-! ### Labels of units -/

section
variable {n m : ℕ} (σ : Fin n ≃ Fin m)

theorem mean_map (T : Finset (Fin n)) (d : Fin n → K) : mean (T.map σ.toEmbedding) (fun u => d (σ.symm u)) = mean T d := by
  unfold mean
  rw [Finset.sum_map, Finset.card_map]
  simp

theorem var1_map (T : Finset (Fin n)) (d : Fin n → K) : var1 (T.map σ.toEmbedding) (fun u => d (σ.symm u)) = var1 T d := by
  unfold var1
  rw [mean_map, Finset.card_map, Finset.sum_map]
  simp

theorem estimate_renamed (k : Method) (T C : Finset (Fin n)) (d : Fin n → K) :
    estimate k (T.map σ.toEmbedding) (C.map σ.toEmbedding) (fun u => d (σ.symm u)) = renamedEntry σ (estimate k T C d) := by
  unfold estimate renamedEntry
  simp only [mean_map, var1_map, Finset.card_map]

theorem filter_renamed (p : Fin m → Prop) [DecidablePred p] :
    Finset.univ.filter p = (Finset.univ.filter (fun u => p (σ u))).map σ.toEmbedding := by
  ext u
  simp only [Finset.mem_filter, Finset.mem_univ, true_and, Finset.mem_map, Equiv.coe_toEmbedding]
  constructor
  · intro h
    exact ⟨σ.symm u, by simpa using h, by simp⟩
  · rintro ⟨v, hv, rfl⟩
    exact hv

theorem att_renamed (c : Cfg) (P : Panel n K) (g : Coh) (t : ℤ) : attGt c (renamed σ P) g t = (attGt c P g t).map (renamedEntry σ) := by
  unfold attGt
  cases basePeriod c g t with
  | none => rfl
  | some b =>
    have hT : treatedSet (renamed σ P) g b t = (treatedSet P g b t).map σ.toEmbedding := by
      unfold treatedSet
      rw [filter_renamed σ]
      simp [renamed, validUnit]
    have hC : controlSet c (renamed σ P) g b t = (controlSet c P g b t).map σ.toEmbedding := by
      unfold controlSet
      rw [filter_renamed σ]
      simp [renamed, validUnit, controlMask]
    have hd : change (renamed σ P) b t = fun u => change P b t (σ.symm u) := rfl
    have ht : (renamed σ P).times = P.times := rfl
    dsimp only
    rw [hT, hC, ht, hd, Finset.card_map, Finset.card_map, estimate_renamed]
    by_cases h1 : b ∉ P.times
    · rw [if_pos h1, if_pos h1]; rfl
    · rw [if_neg h1, if_neg h1]
      by_cases h2 : t ∉ P.times
      · rw [if_pos h2, if_pos h2]; rfl
      · rw [if_neg h2, if_neg h2]
        by_cases h3 : (treatedSet P g b t).card = 0 ∨ (controlSet c P g b t).card = 0
        · rw [if_pos h3, if_pos h3]; rfl
        · rw [if_neg h3, if_neg h3]; rfl

/-- The list of effects with the units renamed. -/
def renamedList (l : List ((Coh × ℤ) × Entry n K)) : List ((Coh × ℤ) × Entry m K) := l.map (fun x => (x.1, renamedEntry σ x.2))

theorem effects_renamed (c : Cfg) (P : Panel n K) (gs : List Coh) : effectsFor c (renamed σ P) gs = renamedList σ (effectsFor c P gs) := by
  unfold effectsFor renamedList
  rw [List.map_flatMap]
  congr 1
  funext g
  rw [List.map_filterMap]
  show (validPeriods c P g).filterMap _ = _
  congr 1
  funext t
  rw [att_renamed]
  cases attGt c P g t <;> rfl

variable (l : List ((Coh × ℤ) × Entry n K))

theorem renamedList_filter (p : Coh × ℤ → Bool) : (renamedList σ l).filter (fun x => p x.1) = renamedList σ (l.filter (fun x => p x.1)) := by
  unfold renamedList
  rw [List.filter_map]
  rfl

theorem renamedList_length : (renamedList σ l).length = l.length := List.length_map _

theorem renamedList_map {β : Type*} (f : (Coh × ℤ) × Entry n K → β) (f' : (Coh × ℤ) × Entry m K → β)
    (h : ∀ x, f' (x.1, renamedEntry σ x.2) = f x) : (renamedList σ l).map f' = l.map f := by
  unfold renamedList
  rw [List.map_map]
  exact List.map_congr_left (fun x _ => h x)

theorem renamedList_size : sizeWeights (renamedList σ l) = sizeWeights l := by
  unfold sizeWeights
  rw [renamedList_map σ l (fun z => (z.2.nT : K)) (fun z => (z.2.nT : K)) (fun _ => rfl)]
  exact renamedList_map σ l _ _ (fun _ => rfl)

theorem renamedList_equal : equalWeights (renamedList σ l) = equalWeights l := by
  unfold equalWeights
  rw [renamedList_length]
  exact renamedList_map σ l _ _ (fun _ => rfl)

theorem renamedList_effect : (renamedList σ l).map (fun x => x.2.effect) = l.map (fun x => x.2.effect) := renamedList_map σ l _ _ (fun _ => rfl)

theorem renamedList_post (ant : ℤ) : postPairs ant (renamedList σ l) = renamedList σ (postPairs ant l) :=
  renamedList_filter σ l (fun k => ! k.1.pre ant k.2)

theorem renamedList_overall (ant : ℤ) : overall ant (renamedList σ l) = overall ant l := by
  unfold overall
  simp only [renamedList_post, renamedList_length, renamedList_size, renamedList_effect]

theorem renamedList_es (bal : Option ℤ) : esPairs bal (renamedList σ l) = renamedList σ (esPairs bal l) := by
  cases bal with
  | none => rfl
  | some b =>
    unfold esPairs
    have : ∀ k : Coh × ℤ, (renamedList σ l).any (fun z => decide (z.1.1 = k.1) && decide (z.1.1.rel z.1.2 = (b : WithBot ℤ))) =
        l.any (fun z => decide (z.1.1 = k.1) && decide (z.1.1.rel z.1.2 = (b : WithBot ℤ))) := by
      intro k
      unfold renamedList
      rw [List.any_map]
      rfl
    simp only [this]
    exact renamedList_filter σ l (fun k => l.any (fun z => decide (z.1.1 = k.1) && decide (z.1.1.rel z.1.2 = (b : WithBot ℤ))))

theorem renamedList_event (c : Cfg) (bal : Option ℤ) : eventStudy c bal (renamedList σ l) = eventStudy c bal l := by
  unfold eventStudy
  rw [renamedList_es]
  have h1 : relTimes (renamedList σ (esPairs bal l)) = relTimes (esPairs bal l) := by
    unfold relTimes
    rw [renamedList_map σ _ (fun x => x.1.1.rel x.1.2) (fun x => x.1.1.rel x.1.2) (fun _ => rfl)]
  have h2 : ∀ e, atRel (renamedList σ (esPairs bal l)) e = renamedList σ (atRel (esPairs bal l) e) :=
    fun e => renamedList_filter σ _ (fun k => decide (k.1.rel k.2 = e))
  simp only [h1, h2, renamedList_size, renamedList_effect, renamedList_length]

theorem renamedList_group (ant : ℤ) (gs : List Coh) : groupEffects ant gs (renamedList σ l) = groupEffects ant gs l := by
  unfold groupEffects
  have h2 : ∀ g, groupPairs ant (renamedList σ l) g = renamedList σ (groupPairs ant l g) :=
    fun g => renamedList_filter σ _ (fun k => decide (k.1 = g) && g.post ant k.2)
  simp only [h2, renamedList_equal, renamedList_effect, renamedList_length]

theorem psi_renamed (e : Entry n K) (u : Fin n) : psi (renamedEntry σ e) (σ u) = psi e u := by
  unfold psi renamedEntry
  simp

theorem aggPsi_renamed (w : List K) (u : Fin n) : aggPsi w ((renamedList σ l).map Prod.snd) (σ u) = aggPsi w (l.map Prod.snd) u := by
  unfold aggPsi renamedList
  congr 1
  induction l generalizing w with
  | nil => simp
  | cons x l ih =>
    cases w with
    | nil => rfl
    | cons a w =>
      simp only [List.map_cons, List.zipWith_cons_cons, psi_renamed]
      rw [ih]

theorem allUnits_renamed : allUnits ((renamedList σ l).map Prod.snd) = (allUnits (l.map Prod.snd)).map σ.toEmbedding := by
  unfold allUnits
  rw [filter_renamed σ]
  congr 1
  apply Finset.filter_congr
  intro u _
  unfold renamedList
  simp only [List.map_map, List.mem_map, Function.comp]
  constructor
  · rintro ⟨e, ⟨x, hx, rfl⟩, h⟩
    refine ⟨x.2, ⟨x, hx, rfl⟩, ?_⟩
    simpa [renamedEntry] using h
  · rintro ⟨e, ⟨x, hx, rfl⟩, h⟩
    refine ⟨renamedEntry σ x.2, ⟨x, hx, rfl⟩, ?_⟩
    simpa [renamedEntry] using h

theorem overallVar_renamed (size : Coh → ℕ) (ant : ℤ) (P : Panel n K) :
    overallVarWith size ant (renamed σ P) (renamedList σ l) = overallVarWith size ant P l := by
  unfold overallVarWith
  have hk : (renamedList σ (postPairs ant l)).map (fun x => (x.1.1, x.2.effect)) = (postPairs ant l).map (fun x => (x.1.1, x.2.effect)) :=
    renamedList_map σ _ _ _ (fun _ => rfl)
  have hw : ∀ (N : ℕ) (k : List (Coh × K)) (u : Fin n), wifWith size (renamed σ P) N k (σ u) = wifWith size P N k u := by
    intro N k u
    unfold wifWith renamed
    simp
  simp only [renamedList_post, renamedList_size, allUnits_renamed, hk, Finset.card_map]
  congr 2
  rw [Finset.sum_map]
  apply Finset.sum_congr rfl
  intro u _
  rw [Equiv.coe_toEmbedding, aggPsi_renamed, hw]

theorem fitWith_renamed {U' : Type*} [LinearOrder U'] (c : Cfg) (bal : Option ℤ) (ks : List U) (ks' : List U') (τ : Fin ks.length ≃ Fin ks'.length)
    (P : Panel ks.length K) (never : U → Bool) (never' : U' → Bool) (hn : (ks'.filter never').length = (ks.filter never).length) (dup : Bool)
    (gs : List Coh) (size : Coh → ℕ) :
    fitWith c bal ks' (renamed τ P) never' dup gs size = match fitWith c bal ks P never dup gs size with
      | .error e => .error e
      | .ok _ => .ok
        { units := ks'
          res := renamedResults τ
            { groups := gs
              nTreated := (Finset.univ.filter (fun u => (P.cohort u).pos = true)).card
              nControl := (ks.filter never).length
              effects := effectsFor c P gs
              overall := overall c.ant (effectsFor c P gs)
              event := eventStudy c bal (effectsFor c P gs)
              group := groupEffects c.ant gs (effectsFor c P gs) }
          var := overallVarWith size c.ant P (effectsFor c P gs) } := by
  have hpos : (Finset.univ.filter (fun u => ((renamed τ P).cohort u).pos = true)).card = (Finset.univ.filter (fun u => (P.cohort u).pos = true)).card := by
    rw [filter_renamed τ, Finset.card_map]
    simp [renamed]
  unfold fitWith
  rw [hn, effects_renamed, renamedList_length, hpos, renamedList_overall, renamedList_event, renamedList_group, overallVar_renamed]
  by_cases h1 : (ks.filter never).length = 0
  · rw [if_pos h1, if_pos h1]
  · rw [if_neg h1, if_neg h1]
    by_cases h2 : dup = true
    · rw [if_pos h2, if_pos h2]
    · rw [if_neg h2, if_neg h2]
      by_cases h3 : (effectsFor c P gs).length = 0
      · rw [if_pos h3, if_pos h3]
      · rw [if_neg h3, if_neg h3]; rfl

end

/-- The same rows with other unit labels. -/
def relabel {U' : Type*} (f : U → U') (rows : List (Row U K)) : List (Row U' K) := rows.map (fun r => ⟨f r.unit, r.time, r.cohort, r.y⟩)

/-- C144. The labels of the units carry no information: under an injective renaming, in any order, the same error is raised or the same numbers are
reported, effect by effect, with the renamed units. Nothing is assumed about first_treat. -/
theorem C144_labels {U' : Type*} [LinearOrder U'] (f : U → U') (hf : Function.Injective f) (c : Cfg) (bal : Option ℤ) (rows : List (Row U K)) :
    (∀ e, fit c bal rows = .error e → fit c bal (relabel f rows) = .error e) ∧
    ∀ F, fit c bal rows = .ok F → ∃ (F' : Fit U' K) (σ : Fin F.units.length ≃ Fin F'.units.length), fit c bal (relabel f rows) = .ok F' ∧
      (∀ i, F'.units.get (σ i) = f (F.units.get i)) ∧ F'.res = renamedResults σ F.res ∧ F'.var = F.var := by
  have hmemk : ∀ v, v ∈ keys (relabel f rows) ↔ ∃ u ∈ keys rows, f u = v := by
    intro v
    rw [mem_keys]
    constructor
    · rintro ⟨r, hr, rfl⟩
      obtain ⟨s, hs, rfl⟩ := List.mem_map.1 hr
      exact ⟨s.unit, mem_keys.2 ⟨s, hs, rfl⟩, rfl⟩
    · rintro ⟨u, hu, rfl⟩
      obtain ⟨s, hs, rfl⟩ := mem_keys.1 hu
      exact ⟨_, List.mem_map.2 ⟨s, hs, rfl⟩, rfl⟩
  have hfil : ∀ u, (relabel f rows).filter (fun r => decide (r.unit = f u)) = relabel f (rows.filter (fun r => decide (r.unit = u))) := by
    intro u
    unfold relabel
    rw [List.filter_map]
    congr 1
    apply List.filter_congr
    intro r _
    simp [hf.eq_iff]
  have hcoh : ∀ u, firstCoh (relabel f rows) (f u) = firstCoh rows u := by
    intro u
    unfold firstCoh
    rw [hfil]
    unfold relabel
    rw [List.map_map]
    rfl
  have hnev : ∀ u, firstNever (relabel f rows) (f u) = firstNever rows u := by
    intro u
    unfold firstNever
    rw [hfil]
    cases rows.filter (fun r => decide (r.unit = u)) <;> rfl
  have hcell : ∀ u t, cell (relabel f rows) (f u) t = cell rows u t := by
    intro u t
    unfold cell relabel
    rw [List.find?_map]
    have : ((fun r : Row U' K => decide (r.unit = f u) && decide (r.time = t)) ∘ fun r : Row U K => (⟨f r.unit, r.time, r.cohort, r.y⟩ : Row U' K)) =
        fun r => decide (r.unit = u) && decide (r.time = t) := by
      funext r
      simp [hf.eq_iff]
    rw [this, Option.map_map]
    rfl
  have hdup : hasDup (relabel f rows) = hasDup rows := by
    unfold hasDup relabel
    congr 1
    apply decide_eq_decide.2
    rw [List.map_map]
    have : ((fun r : Row U' K => (r.unit, r.time)) ∘ fun r : Row U K => (⟨f r.unit, r.time, r.cohort, r.y⟩ : Row U' K)) =
        Prod.map f id ∘ fun r => (r.unit, r.time) := rfl
    rw [this, ← List.map_map]
    exact List.nodup_map_iff (hf.prodMap Function.injective_id)
  have htimes : times (relabel f rows) = times rows := by unfold times relabel; rw [List.map_map]; rfl
  have hgroups : groupsOf (relabel f rows) = groupsOf rows := by unfold groupsOf relabel; rw [List.map_map]; rfl
  have hsize : sizeOf (relabel f rows) = sizeOf rows := by
    funext g
    unfold sizeOf relabel
    rw [List.filter_map, List.map_map]
    have : (Row.unit ∘ fun r : Row U K => (⟨f r.unit, r.time, r.cohort, r.y⟩ : Row U' K)) = f ∘ Row.unit := rfl
    rw [this, ← List.map_map, List.dedup_map_of_injective hf, List.length_map]
    rfl
  let e1 : {u // u ∈ keys rows} ≃ {v // v ∈ keys (relabel f rows)} :=
    Equiv.ofBijective (fun u => ⟨f u.1, (hmemk _).2 ⟨u.1, u.2, rfl⟩⟩)
      ⟨fun a b h => Subtype.ext (hf (congrArg Subtype.val h)), fun v => by
        obtain ⟨u, hu, h⟩ := (hmemk v.1).1 v.2
        exact ⟨⟨u, hu⟩, Subtype.ext h⟩⟩
  let σ : Fin (keys rows).length ≃ Fin (keys (relabel f rows)).length :=
    ((List.Nodup.getEquiv _ (keys_nodup rows)).trans e1).trans (List.Nodup.getEquiv _ (keys_nodup (relabel f rows))).symm
  have hσ : ∀ i, (keys (relabel f rows)).get (σ i) = f ((keys rows).get i) := by
    intro i
    have : (List.Nodup.getEquiv _ (keys_nodup (relabel f rows))) (σ i) = e1 (List.Nodup.getEquiv _ (keys_nodup rows) i) := by
      simp [σ]
    exact congrArg Subtype.val this
  have hP : panelOf (keys (relabel f rows)) (relabel f rows) = renamed σ (panelOf (keys rows) rows) := by
    have hs : ∀ v, (keys (relabel f rows)).get v = f ((keys rows).get (σ.symm v)) := by
      intro v
      rw [← hσ]
      simp
    unfold panelOf renamed
    congr 1
    · funext v; rw [hs, hcoh]
    · funext v t; rw [hs, hcell]
  have hfn : ((keys (relabel f rows)).filter (firstNever (relabel f rows))).length = ((keys rows).filter (firstNever rows)).length := by
    have hp : keys (relabel f rows) ~ (keys rows).map f :=
      (List.perm_ext_iff_of_nodup (keys_nodup _) ((keys_nodup rows).map hf)).2 (fun v => by rw [hmemk, List.mem_map])
    rw [(hp.filter _).length_eq, List.filter_map, List.length_map]
    congr 1
    apply List.filter_congr
    intro u _
    exact hnev u
  have key := fitWith_renamed c bal (keys rows) (keys (relabel f rows)) σ (panelOf (keys rows) rows) (firstNever rows) (firstNever (relabel f rows)) hfn
    (hasDup rows) (groupsOf rows) (sizeOf rows)
  have hfit : fit c bal (relabel f rows) = fitWith c bal (keys (relabel f rows)) (renamed σ (panelOf (keys rows) rows)) (firstNever (relabel f rows))
      (hasDup rows) (groupsOf rows) (sizeOf rows) := by
    unfold fit
    rw [hP, hdup, hgroups, hsize]
  rw [hfit, key]
  constructor
  · intro e he
    unfold fit at he
    rw [he]
  · intro F hF
    have hF' := hF
    unfold fit at hF'
    rw [hF']
    unfold fitWith at hF'
    split_ifs at hF' with h1 h2 h3
    cases hF'
    exact ⟨_, σ, rfl, hσ, rfl, rfl⟩

/-! ### first_treat that changes within a unit -/

/-- The reported overall effect; `none` is an exception or NaN. -/
def overallOf : Except Err (Fit U K) → Option K
  | .ok F => F.res.overall
  | .error _ => none

/-- The exception raised. -/
def errorOf : Except Err (Fit U K) → Option Err
  | .ok _ => none
  | .error e => some e

/-- Unit 1 has first_treat 2 in its first row and 0 in its second. -/
def changing : List (Row ℕ ℚ) :=
  [⟨0, 1, .num 0, some 0⟩, ⟨0, 2, .num 0, some 0⟩, ⟨1, 1, .num 2, some 0⟩, ⟨1, 2, .num 0, some 10⟩, ⟨2, 1, .num 2, some 0⟩, ⟨2, 2, .num 2, some 4⟩]

/-- The default options without covariates. -/
def plain : Cfg := { base := .varying, ctl := .never, ant := 0, method := .dr }

/-- C144. Claim refuted: "the results do not depend on the order of the rows". A first_treat column that changes within a unit is accepted without
a message, the first row decides, and reversing the rows turns an overall effect of 7 into -1. -/
theorem C144_row_order_refuted : changing ~ changing.reverse ∧ overallOf (fit plain none changing) = some 7 ∧
    overallOf (fit plain none changing.reverse) = some (-1) :=
  ⟨(List.reverse_perm _).symm, by decide +kernel, by decide +kernel⟩

/-- Unit 0 is never treated; its first row lacks the value. -/
def lateNever : List (Row ℕ ℚ) :=
  [⟨0, 1, .nan, some 0⟩, ⟨0, 2, .num 0, some 0⟩, ⟨1, 1, .num 2, some 0⟩, ⟨1, 2, .num 2, some 10⟩]

/-- C144. Claim refuted: "data with a never-treated unit are not rejected for lack of one". Cohorts are read from the first row with a value, the
check from the first row: if that lacks the value, `fit` says there are no never-treated units, and the reversed rows are estimated. -/
theorem C144_never_refuted : errorOf (fit plain none lateNever) = some .noNever ∧ firstCoh lateNever 0 = .num 0 ∧
    overallOf (fit plain none lateNever.reverse) = some 10 := by
  refine ⟨by decide +kernel, by decide +kernel, by decide +kernel⟩

/-! ### Examples -/

/-- Three units, one of them without an outcome in period 2. -/
def demo : List (Row ℕ ℚ) :=
  [⟨5, 2, .num 2, some 4⟩, ⟨5, 1, .num 2, some 0⟩, ⟨3, 1, .num 0, some 1⟩, ⟨3, 2, .num 0, some 2⟩, ⟨7, 1, .inf, some 1⟩, ⟨7, 2, .inf, none⟩]

theorem demo_constant : Constant demo := by unfold Constant; decide +kernel
theorem demo_noRepeat : NoRepeat demo := by unfold NoRepeat; decide +kernel

/-- `C144_row_order`, `C144_wide`: `demo` meets the hypotheses and has an overall effect of 3. -/
example : Constant demo ∧ NoRepeat demo ∧ overallOf (fit plain none demo) = some 3 ∧ keys demo = [3, 5, 7] :=
  ⟨demo_constant, demo_noRepeat, by decide +kernel, by decide +kernel⟩

/-- `C144_missing_outcomes`: the last row of `demo` may be left out. -/
example : fit plain none demo.dropLast = fit plain none demo := by
  refine C144_missing_outcomes plain none demo demo.dropLast (List.dropLast_sublist _) demo_constant demo_noRepeat ?_ ?_ ?_ <;> decide +kernel

/-- `C144_duplicates`: repeating a row is rejected. -/
example : errorOf (fit plain none (demo ++ [⟨3, 1, .num 0, some 9⟩])) = some .duplicate := by decide +kernel

/-- `C144_labels`: reversing the order of the labels. -/
example : Function.Injective (fun u : ℕ => -(u : ℤ)) ∧ overallOf (fit plain none (relabel (fun u : ℕ => -(u : ℤ)) demo)) = some 3 :=
  ⟨fun a b h => by simpa using h, by decide +kernel⟩

end DiffDiff.CSRows
