/-
Properties of `BaconDecomposition.fit` as a function of the rows of the data: order and repetition of rows, labels of units, agreement with the
decomposition of the wide panel, and data that do not form a panel.
-/
import Verif.BaconRows
import Verif.BaconProps
import Verif.CSRowsProps
import Mathlib.Data.List.Perm.Basic
import Mathlib.Tactic.FieldSimp
import Mathlib.Tactic.Ring

set_option linter.unusedSectionVars false
set_option linter.unusedVariables false

namespace DiffDiff.BaconRows

open CS (Coh)
open CSRows (Row keys firstCoh Constant NoRepeat firstCoh_const mem_keys keys_congr keys_nodup sorted_ext unique_row)
open Bacon (Kind WeightMode Comp Results timingValue pairs)
open scoped List

variable {U K : Type*} [LinearOrder U] [Field K] [LinearOrder K] [IsStrictOrderedRing K]

/-! ### Specification -/

/-- `rows'` has every row of `rows` `k` times, in any order. -/
def Repeats (k : ℕ) (rows rows' : List (Row U K)) : Prop := ∀ r, rows'.count r = k * rows.count r

/-- The wide panel of the rows: `ks` lists the units, unit `i` of the panel has the label `ks[i]`. -/
structure IsWide (rows : List (Row U K)) (ks : List U) (P : Bacon.Panel ks.length K) : Prop where
  nodup : ks.Nodup
  units : ∀ u, u ∈ ks ↔ ∃ r ∈ rows, r.unit = u
  cohort : ∀ r ∈ rows, ∀ i, ks.get i = r.unit → P.cohort i = r.cohort
  present : ∀ i t, (i, t) ∈ P.rows ↔ ∃ r ∈ rows, r.unit = ks.get i ∧ r.time = t
  outcome : ∀ r ∈ rows, ∀ i, ks.get i = r.unit → P.y i r.time = r.y

/-- The rows with other unit labels. -/
def relabel {U' : Type*} (f : U → U') (rows : List (Row U K)) : List (Row U' K) := rows.map (fun r => ⟨f r.unit, r.time, r.cohort, r.y⟩)

/-! ### Lemmas on views -/

/-- Same view up to the number of times that each row occurs. -/
structure Like (k : ℕ) (v v' : View K) : Prop where
  times : v'.times = v.times
  groups : v'.groups = v.groups
  nNever : v'.nNever = v.nNever
  empty : v'.empty = v.empty
  size : v'.size = v.size
  mean : v'.mean = v.mean
  n22 : ∀ g c W, v'.n22 g c W = k * v.n22 g c W
  nUnits : v'.nUnits = v.nUnits
  nObs : v'.nObs = k * v.nObs
  twfe : v'.twfe = v.twfe

theorem report_like {k : ℕ} (hk : k ≠ 0) {v v' : View K} (h : Like k v v') (m : WeightMode) :
    report m v' = { report m v with nObs := k * v.nObs } := by
  have hkK : (k : K) ≠ 0 := Nat.cast_ne_zero.2 hk
  have hpre : ∀ a g c, pre v' a g c = pre v a g c := fun a g c => by unfold pre; rw [h.times]
  have hpost : ∀ a g c, post v' a g c = post v a g c := fun a g c => by unfold post; rw [h.times]
  have hdid : ∀ g c a b, did v' g c a b = did v g c a b := fun g c a b => by unfold did; rw [h.mean]
  have haw : ∀ a g c, approxWeight v' a g c = approxWeight v a g c := fun a g c => by
    unfold approxWeight; simp only [h.size, hpre, hpost, h.times]
  have hcmp : ∀ a g c, compare v' a g c = compare v a g c := fun a g c => by
    unfold compare window
    simp only [hpre, hpost, hdid, haw, h.empty, h.size, h.times]
  have hcs : comparisons v' = comparisons v := by
    unfold comparisons; simp only [hcmp, h.nNever, h.groups]
  have hex : ∀ c, exactWeight v' c = exactWeight v c := by
    intro c
    unfold exactWeight
    simp only [hpre, hpost, h.n22, h.size, h.nUnits, h.nObs, mul_eq_zero, hk, false_or, Nat.cast_mul, mul_div_mul_left _ _ hkK]
  have hm : withMode m v' (comparisons v') = withMode m v (comparisons v) := by
    rw [hcs]
    unfold withMode
    simp only [hex]
  unfold report
  rw [hm, h.twfe, h.groups, h.nNever, h.nObs]

/-! ### Repetition and order -/

/-- What follows from repetition: sums and counts are multiplied. -/
structure Rep (k : ℕ) (rows rows' : List (Row U K)) : Prop where
  mem : ∀ r, r ∈ rows' ↔ r ∈ rows
  sum : ∀ (p : Row U K → Bool) (f : Row U K → K), ((rows'.filter p).map f).sum = k * ((rows.filter p).map f).sum
  len : ∀ p : Row U K → Bool, (rows'.filter p).length = k * (rows.filter p).length

theorem Repeats.rep {k : ℕ} (hk : k ≠ 0) {rows rows' : List (Row U K)} (h : Repeats k rows rows') : Rep k rows rows' := by
  have hp : rows' ~ (List.replicate k rows).flatten := by
    rw [List.perm_iff_count]
    intro r
    rw [h r, List.count_flatten]
    simp
  refine ⟨fun r => ?_, fun p f => ?_, fun p => ?_⟩
  · rw [hp.mem_iff]
    simp [hk]
  · rw [((hp.filter p).map f).sum_eq]
    clear hp h hk
    induction k with
    | zero => simp
    | succ k ih => rw [List.replicate_succ, List.flatten_cons, List.filter_append, List.map_append, List.sum_append, ih]; push_cast; ring
  · rw [(hp.filter p).length_eq]
    clear hp h hk
    induction k with
    | zero => simp
    | succ k ih => rw [List.replicate_succ, List.flatten_cons, List.filter_append, List.length_append, ih]; ring

theorem Rep.sumAll {k : ℕ} {rows rows' : List (Row U K)} (h : Rep k rows rows') (f : Row U K → K) : (rows'.map f).sum = k * (rows.map f).sum := by
  simpa using h.sum (fun _ => true) f

theorem Rep.meanOver {k : ℕ} (hk : k ≠ 0) {rows rows' : List (Row U K)} (h : Rep k rows rows') (p : Row U K → Bool) (x : Row U K → K) :
    meanOver rows' p x = meanOver rows p x := by
  unfold BaconRows.meanOver
  rw [h.sum, h.len]
  push_cast
  exact mul_div_mul_left _ _ (Nat.cast_ne_zero.2 hk)

theorem Rep.twfe {k : ℕ} (hk : k ≠ 0) {rows rows' : List (Row U K)} (h : Rep k rows rows') : twfe rows' = twfe rows := by
  have hkK : (0 : K) < k := Nat.cast_pos.2 (Nat.pos_of_ne_zero hk)
  have hw : ∀ x, within rows' x = within rows x := fun x => by
    funext r; unfold within; simp only [h.meanOver hk]
  have hall : rows'.all (fun r => r.y.isSome) = rows.all (fun r => r.y.isSome) := by
    rw [Bool.eq_iff_iff, List.all_eq_true, List.all_eq_true]
    exact forall_congr' fun r => by rw [h.mem]
  unfold BaconRows.twfe
  simp only [hw, h.sumAll, hall, mul_pos_iff_of_pos_left hkK, mul_div_mul_left _ _ hkK.ne']

theorem Rep.groupUnits {k : ℕ} {rows rows' : List (Row U K)} (h : Rep k rows rows') (g : Option ℤ) : groupUnits rows' g = groupUnits rows g := by
  ext u
  simp [BaconRows.groupUnits, groupRows, h.mem]

theorem Rep.cellMean {k : ℕ} (hk : k ≠ 0) {rows rows' : List (Row U K)} (h : Rep k rows rows') (g : Option ℤ) (W : Finset ℤ) :
    cellMean rows' g W = cellMean rows g W := by
  unfold BaconRows.cellMean groupRows
  simp only [List.filter_filter, h.sum, h.len, mul_eq_zero, hk, false_or, Nat.cast_mul, mul_div_mul_left _ _ (Nat.cast_ne_zero.2 hk : (k : K) ≠ 0)]

theorem mem_timingGroups {U : Type*} {rows : List (Row U K)} {g : ℤ} :
    g ∈ timingGroups rows ↔ ∃ r ∈ rows, timingValue r.cohort = some g := by
  simp [timingGroups, List.mem_insertionSort]

theorem timingGroups_congr {U U' : Type*} {rows : List (Row U K)} {rows' : List (Row U' K)}
    (h : ∀ g, (∃ r ∈ rows, timingValue r.cohort = some g) ↔ ∃ r ∈ rows', timingValue r.cohort = some g) : timingGroups rows = timingGroups rows' :=
  sorted_ext ((List.perm_insertionSort _ _).nodup_iff.2 (List.nodup_dedup _)) ((List.perm_insertionSort _ _).nodup_iff.2 (List.nodup_dedup _))
    (List.pairwise_insertionSort _ _) (List.pairwise_insertionSort _ _) (fun u => by rw [mem_timingGroups, mem_timingGroups, h])

theorem Rep.nNever {k : ℕ} {rows rows' : List (Row U K)} (h : Rep k rows rows') (hc : Constant rows) : nNever rows' = nNever rows := by
  have hc' : Constant rows' := fun r hr s hs => hc r ((h.mem r).1 hr) s ((h.mem s).1 hs)
  have hk : keys rows' = keys rows := keys_congr fun u => exists_congr fun r => by rw [h.mem]
  unfold BaconRows.nNever
  rw [hk]
  congr 1
  refine List.filter_congr fun u hu => ?_
  obtain ⟨r, hr, rfl⟩ := mem_keys.1 hu
  rw [firstCoh_const hc hr, firstCoh_const hc' ((h.mem r).2 hr)]

/-- C149. Repeating every row of the data `k` times, in any order, changes only the number of observations reported: comparisons, estimates, weights,
the regression estimate and the decomposition error stay. -/
theorem C149_repeats (m : WeightMode) (k : ℕ) (hk : k ≠ 0) (rows rows' : List (Row U K)) (h : Repeats k rows rows') (hc : Constant rows) :
    fit m rows' = { fit m rows with nObs := k * rows.length } := by
  have hr := h.rep hk
  refine report_like hk ⟨?_, ?_, hr.nNever hc, ?_, ?_, ?_, ?_, ?_, ?_, hr.twfe hk⟩ m
  · ext t; simp [view, times, hr.mem]
  · exact timingGroups_congr fun g => exists_congr fun r => by rw [hr.mem]
  · funext g
    show (groupRows rows' g).isEmpty = (groupRows rows g).isEmpty
    rw [Bool.eq_iff_iff, List.isEmpty_iff_length_eq_zero, List.isEmpty_iff_length_eq_zero]
    unfold groupRows
    rw [hr.len, mul_eq_zero]
    simp [hk]
  · funext g
    show (groupUnits rows' g).card = _
    rw [hr.groupUnits]; rfl
  · funext g W; exact hr.cellMean hk g W
  · intro g c W
    show n22 rows' g c W = k * n22 rows g c W
    unfold n22
    simp only [hr.groupUnits]
    exact hr.len _
  · show (rows'.map Row.unit).toFinset.card = (rows.map Row.unit).toFinset.card
    congr 1
    ext u; simp [hr.mem]
  · show rows'.length = k * rows.length
    simpa using hr.len (fun _ => true)

/-- C149. The order of the rows does not matter, if no unit has two first treatment periods. -/
theorem C149_row_order (m : WeightMode) (rows rows' : List (Row U K)) (h : rows' ~ rows) (hc : Constant rows) : fit m rows' = fit m rows := by
  have := C149_repeats m 1 one_ne_zero rows rows' (fun r => by rw [one_mul]; exact h.count_eq r) hc
  rw [one_mul] at this
  exact this

/-- What a comparison reports apart from its weight. -/
def facts (c : Comp K) : Kind × ℤ × Option ℤ × Option K × ℕ × ℕ × (WithTop ℤ × WithBot ℤ) :=
  (c.kind, c.treated, c.control, c.estimate, c.nTreated, c.nControl, c.window)

theorem facts_normalise (l : List (Comp K)) : (Bacon.normalise l).map facts = l.map facts := by
  unfold Bacon.normalise
  split_ifs
  · rw [List.map_map]; rfl
  · rfl

theorem facts_withMode (m : WeightMode) (v : View K) (l : List (Comp K)) : (withMode m v l).map facts = l.map facts := by
  cases m with
  | approximate => rfl
  | exact => show (l.map _).map _ = _; rw [List.map_map]; rfl

theorem facts_fit (m : WeightMode) (rows : List (Row U K)) : (fit m rows).comparisons.map facts = (comparisons (view rows)).map facts := by
  show (Bacon.normalise (withMode m (view rows) (comparisons (view rows)))).map facts = _
  rw [facts_normalise, facts_withMode]

theorem compare_kind {v : View K} {k : Kind} {g : ℤ} {c : Option ℤ} {x : Comp K} (h : compare v k g c = some x) : x.kind = k := by
  unfold compare at h
  split_ifs at h
  rw [← Option.some.inj h]

theorem filter_tvn (v : View K) (l : List ℤ) :
    ((l.filterMap (fun g => compare v .treatedVsNever g none)).map facts).filter (fun x => decide (x.1 ≠ Kind.treatedVsNever)) = [] := by
  rw [List.filter_eq_nil_iff]
  intro x hx
  obtain ⟨c, hc, rfl⟩ := List.mem_map.1 hx
  obtain ⟨g, -, hg⟩ := List.mem_filterMap.1 hc
  simp [facts, compare_kind hg]

/-- C149. Whatever the first_treat column, the order of the rows changes neither the regression estimate nor the timing groups, the number of
observations, nor what is reported for comparisons between timing groups, apart from their weights. -/
theorem C149_row_order_any (m : WeightMode) (rows rows' : List (Row U K)) (h : rows' ~ rows) :
    (fit m rows').twfe = (fit m rows).twfe ∧ (fit m rows').timingGroups = (fit m rows).timingGroups ∧ (fit m rows').nObs = (fit m rows).nObs ∧
    ((fit m rows').comparisons.map facts).filter (fun x => decide (x.1 ≠ Kind.treatedVsNever)) =
      ((fit m rows).comparisons.map facts).filter (fun x => decide (x.1 ≠ Kind.treatedVsNever)) := by
  have hR : Repeats 1 rows rows' := fun r => by rw [one_mul]; exact h.count_eq r
  have hr := hR.rep one_ne_zero
  have hg : timingGroups rows' = timingGroups rows := timingGroups_congr fun g => exists_congr fun r => by rw [hr.mem]
  refine ⟨hr.twfe one_ne_zero, hg, h.length_eq, ?_⟩
  have hcmp : ∀ k g c, compare (view rows') k g c = compare (view rows) k g c := by
    intro k g c
    have e1 : (view rows').times = (view rows).times := by ext t; simp [view, times, hr.mem]
    have e2 : (view rows').empty = (view rows).empty := by
      funext g
      show (groupRows rows' g).isEmpty = (groupRows rows g).isEmpty
      rw [Bool.eq_iff_iff, List.isEmpty_iff_length_eq_zero, List.isEmpty_iff_length_eq_zero]
      unfold groupRows
      rw [hr.len, one_mul]
    have e3 : (view rows').size = (view rows).size := by
      funext g
      show (groupUnits rows' g).card = _
      rw [hr.groupUnits]; rfl
    have e4 : (view rows').mean = (view rows).mean := by funext g W; exact hr.cellMean one_ne_zero g W
    unfold compare approxWeight did window pre post
    simp only [e1, e2, e3, e4]
  have key : ∀ rs : List (Row U K), ((fit m rs).comparisons.map facts).filter (fun x => decide (x.1 ≠ Kind.treatedVsNever)) =
      (((pairs (timingGroups rs)).flatMap (fun p => (compare (view rs) .earlierVsLater p.1 (some p.2)).toList ++
        (compare (view rs) .laterVsEarlier p.2 (some p.1)).toList)).map facts).filter (fun x => decide (x.1 ≠ Kind.treatedVsNever)) := by
    intro rs
    rw [facts_fit]
    unfold comparisons
    rw [List.map_append, List.filter_append]
    have : ((if 0 < (view rs).nNever then (view rs).groups.filterMap (fun g => compare (view rs) .treatedVsNever g none) else []).map facts).filter
        (fun x => decide (x.1 ≠ Kind.treatedVsNever)) = [] := by
      split_ifs
      · exact filter_tvn _ _
      · rfl
    rw [this, List.nil_append]
    rfl
  rw [key, key, hg]
  simp only [hcmp]

/-! ### The wide panel -/

section wide
variable {ks : List U} {rows : List (Row U K)} {P : Bacon.Panel ks.length K}

theorem IsWide.index (h : IsWide rows ks P) {r : Row U K} (hr : r ∈ rows) : ∃ i, ks.get i = r.unit := by
  obtain ⟨i, hi⟩ := List.mem_iff_get.1 ((h.units r.unit).2 ⟨r, hr, rfl⟩)
  exact ⟨i, hi⟩

theorem IsWide.sum (h : IsWide rows ks P) (hn : NoRepeat rows) {M : Type*} [AddCommMonoid M] (p : Row U K → Bool) (q : Fin ks.length × ℤ → Prop)
    [DecidablePred q] (f : Row U K → M) (F : Fin ks.length × ℤ → M) (hpq : ∀ r ∈ rows, ∀ i, ks.get i = r.unit → (p r = true ↔ q (i, r.time)))
    (hfF : ∀ r ∈ rows, ∀ i, ks.get i = r.unit → f r = F (i, r.time)) : ((rows.filter p).map f).sum = ∑ x ∈ P.rows.filter q, F x := by
  classical
  have hnd : (rows.filter p).Nodup := (List.Nodup.of_map _ hn).filter _
  rw [← List.sum_toFinset f hnd]
  have hi : ∀ r ∈ (rows.filter p).toFinset, ∃ i, ks.get i = r.unit := fun r hr => h.index (List.mem_filter.1 (List.mem_toFinset.1 hr)).1
  refine Finset.sum_bij (fun r hr => ((hi r hr).choose, r.time)) ?_ ?_ ?_ ?_
  · intro r hr
    have hm := List.mem_filter.1 (List.mem_toFinset.1 hr)
    have hs := (hi r hr).choose_spec
    exact Finset.mem_filter.2 ⟨(h.present _ _).2 ⟨r, hm.1, hs.symm, rfl⟩, (hpq r hm.1 _ hs).1 hm.2⟩
  · intro r hr s hs e
    have hr' := (List.mem_filter.1 (List.mem_toFinset.1 hr)).1
    have hs' := (List.mem_filter.1 (List.mem_toFinset.1 hs)).1
    have e1 := (Prod.ext_iff.1 e).1
    have e2 := (Prod.ext_iff.1 e).2
    refine unique_row hn hr' hs' ?_ e2
    rw [← (hi r hr).choose_spec, ← (hi s hs).choose_spec]
    exact congrArg ks.get e1
  · intro x hx
    obtain ⟨hx1, hx2⟩ := Finset.mem_filter.1 hx
    obtain ⟨r, hr, hu, ht⟩ := (h.present x.1 x.2).1 hx1
    have hx' : x = (x.1, r.time) := by rw [ht]
    have hp : p r = true := (hpq r hr x.1 hu.symm).2 (by rw [← hx']; exact hx2)
    have hmem : r ∈ (rows.filter p).toFinset := List.mem_toFinset.2 (List.mem_filter.2 ⟨hr, hp⟩)
    refine ⟨r, hmem, ?_⟩
    have hs := (hi r hmem).choose_spec
    have : (hi r hmem).choose = x.1 := (List.nodup_iff_injective_get.1 h.nodup) (hs.trans hu)
    rw [this, ht]
  · intro r hr
    exact hfF r (List.mem_filter.1 (List.mem_toFinset.1 hr)).1 _ (hi r hr).choose_spec

theorem IsWide.len (h : IsWide rows ks P) (hn : NoRepeat rows) (p : Row U K → Bool) (q : Fin ks.length × ℤ → Prop)
    [DecidablePred q] (hpq : ∀ r ∈ rows, ∀ i, ks.get i = r.unit → (p r = true ↔ q (i, r.time))) : (rows.filter p).length = (P.rows.filter q).card := by
  have := h.sum hn p q (fun _ => 1) (fun _ => (1 : ℕ)) hpq (fun _ _ _ _ => rfl)
  simpa using this

theorem IsWide.mem_units (h : IsWide rows ks P) (i : Fin ks.length) : i ∈ Bacon.units P := by
  obtain ⟨r, hr, hu⟩ := (h.units (ks.get i)).1 (List.get_mem _ _)
  exact Finset.mem_image.2 ⟨(i, r.time), (h.present _ _).2 ⟨r, hr, hu, rfl⟩, rfl⟩

/-- The units of a group in the panel. -/
def panelGroup {n : ℕ} (P : Bacon.Panel n K) (g : Option ℤ) : Finset (Fin n) := (Bacon.units P).filter (fun u => inGroup g (P.cohort u) = true)

theorem panelGroup_none {n : ℕ} (P : Bacon.Panel n K) : panelGroup P none = Bacon.never P := rfl

theorem panelGroup_some {n : ℕ} (P : Bacon.Panel n K) (g : ℤ) : panelGroup P (some g) = Bacon.members P g := by
  unfold panelGroup Bacon.members inGroup
  simp

theorem panelGroup_controls {n : ℕ} (P : Bacon.Panel n K) (g : Option ℤ) : panelGroup P g = Bacon.controls P g := by
  cases g with
  | none => rfl
  | some g => exact panelGroup_some P g

theorem IsWide.mem_group (h : IsWide rows ks P) (hc : Constant rows) {r : Row U K} (hr : r ∈ rows) {i : Fin ks.length} (hi : ks.get i = r.unit)
    (g : Option ℤ) : i ∈ panelGroup P g ↔ inGroup g r.cohort = true := by
  unfold panelGroup
  rw [Finset.mem_filter, h.cohort r hr i hi]
  exact ⟨fun x => x.2, fun x => ⟨h.mem_units i, x⟩⟩

theorem IsWide.mem_groupUnits (h : IsWide rows ks P) (hc : Constant rows) {r : Row U K} (hr : r ∈ rows) {i : Fin ks.length} (hi : ks.get i = r.unit)
    (g : Option ℤ) : r.unit ∈ groupUnits rows g ↔ i ∈ panelGroup P g := by
  rw [h.mem_group hc hr hi]
  unfold groupUnits groupRows
  rw [List.mem_toFinset, List.mem_map]
  constructor
  · rintro ⟨s, hs, hu⟩
    obtain ⟨hs, hg⟩ := List.mem_filter.1 hs
    rw [← hc s hs r hr hu]; exact hg
  · intro hg
    exact ⟨r, List.mem_filter.2 ⟨hr, hg⟩, rfl⟩

theorem IsWide.size (h : IsWide rows ks P) (hc : Constant rows) (g : Option ℤ) : (groupUnits rows g).card = (panelGroup P g).card := by
  symm
  refine Finset.card_bij (fun i _ => ks.get i) ?_ ?_ ?_
  · intro i hi
    obtain ⟨r, hr, hu⟩ := (h.units (ks.get i)).1 (List.get_mem _ _)
    rw [← hu]
    exact (h.mem_groupUnits hc hr hu.symm g).2 hi
  · intro i _ j _ e
    exact (List.nodup_iff_injective_get.1 h.nodup) e
  · intro u hu
    obtain ⟨r, hr, rfl⟩ := List.mem_map.1 (List.mem_toFinset.1 hu)
    have hr' := (List.mem_filter.1 hr).1
    obtain ⟨i, hi⟩ := h.index hr'
    exact ⟨i, (h.mem_groupUnits hc hr' hi g).1 hu, hi⟩

theorem nNever_eq (hc : Constant rows) : nNever rows = (groupUnits rows none).card := by
  unfold nNever
  rw [← List.toFinset_card_of_nodup ((keys_nodup rows).filter _)]
  congr 1
  ext u
  rw [List.mem_toFinset, List.mem_filter, mem_keys]
  unfold groupUnits groupRows inGroup
  rw [List.mem_toFinset, List.mem_map]
  constructor
  · rintro ⟨⟨r, hr, rfl⟩, hn⟩
    rw [firstCoh_const hc hr] at hn
    exact ⟨r, List.mem_filter.2 ⟨hr, hn⟩, rfl⟩
  · rintro ⟨r, hr, rfl⟩
    obtain ⟨hr, hn⟩ := List.mem_filter.1 hr
    exact ⟨⟨r, hr, rfl⟩, by rw [firstCoh_const hc hr]; exact hn⟩

theorem IsWide.cellMean (h : IsWide rows ks P) (hn : NoRepeat rows) (hc : Constant rows) (g : Option ℤ) (W : Finset ℤ) :
    cellMean rows g W = Bacon.cellMean P (panelGroup P g) W := by
  have hpq : ∀ r ∈ rows, ∀ i, ks.get i = r.unit → (((decide (r.time ∈ W) && r.y.isSome) && inGroup g r.cohort) = true ↔
      (i ∈ panelGroup P g ∧ r.time ∈ W ∧ (P.y i r.time).isSome = true)) := by
    intro r hr i hi
    rw [h.mem_group hc hr hi, h.outcome r hr i hi]
    simp only [Bool.and_eq_true, decide_eq_true_eq]
    tauto
  have e1 := h.len hn _ (fun x => x.1 ∈ panelGroup P g ∧ x.2 ∈ W ∧ (P.y x.1 x.2).isSome = true) hpq
  have e2 := h.sum hn _ (fun x => x.1 ∈ panelGroup P g ∧ x.2 ∈ W ∧ (P.y x.1 x.2).isSome = true) (fun r => r.y.getD 0)
    (fun x => (P.y x.1 x.2).getD 0) hpq (fun r hr i hi => by rw [h.outcome r hr i hi])
  unfold BaconRows.cellMean Bacon.cellMean groupRows
  simp only [List.filter_filter, e1, e2]

theorem IsWide.within (h : IsWide rows ks P) (hn : NoRepeat rows) (f : Row U K → K) (F : Fin ks.length → ℤ → K)
    (hfF : ∀ r ∈ rows, ∀ i, ks.get i = r.unit → f r = F i r.time) {r : Row U K} (hr : r ∈ rows) {i : Fin ks.length} (hi : ks.get i = r.unit) :
    within rows f r = Bacon.within P.rows F i r.time := by
  have hu : ∀ s ∈ rows, ∀ j, ks.get j = s.unit → (decide (s.unit = r.unit) = true ↔ (j, s.time).1 = i) := by
    intro s hs j hj
    rw [decide_eq_true_eq, ← hj, ← hi]
    exact (List.nodup_iff_injective_get.1 h.nodup).eq_iff
  have ht : ∀ s ∈ rows, ∀ j, ks.get j = s.unit → (decide (s.time = r.time) = true ↔ (j, s.time).2 = r.time) := by
    intro s hs j hj
    rw [decide_eq_true_eq]
  have ha : ∀ s ∈ rows, ∀ j, ks.get j = s.unit → ((fun _ => true : Row U K → Bool) s = true ↔ (fun _ => True : Fin ks.length × ℤ → Prop) (j, s.time)) := by
    intro s hs j hj; simp
  have hF : ∀ s ∈ rows, ∀ j, ks.get j = s.unit → f s = (fun x : Fin ks.length × ℤ => F x.1 x.2) (j, s.time) := hfF
  unfold BaconRows.within Bacon.within meanOver
  rw [h.sum hn _ (fun x => x.1 = i) f (fun x => F x.1 x.2) hu hF, h.len hn _ (fun x => x.1 = i) hu,
    h.sum hn _ (fun x => x.2 = r.time) f (fun x => F x.1 x.2) ht hF, h.len hn _ (fun x => x.2 = r.time) ht,
    h.sum hn (fun _ => true) (fun _ => True) f (fun x => F x.1 x.2) ha hF, h.len hn (fun _ => true) (fun _ => True) ha, hfF r hr i hi]
  simp only [Finset.filter_true]

theorem IsWide.twfe (h : IsWide rows ks P) (hn : NoRepeat rows) : twfe rows = Bacon.twfe P := by
  have htr : ∀ r ∈ rows, ∀ i, ks.get i = r.unit → treat r = Bacon.treat P i r.time := by
    intro r hr i hi
    unfold treat Bacon.treat
    rw [h.cohort r hr i hi]
    cases r.cohort <;> rfl
  have hy : ∀ r ∈ rows, ∀ i, ks.get i = r.unit → r.y.getD 0 = (P.y i r.time).getD 0 := fun r hr i hi => by rw [h.outcome r hr i hi]
  have ha : ∀ s ∈ rows, ∀ j, ks.get j = s.unit → ((fun _ => true : Row U K → Bool) s = true ↔ (fun _ => True : Fin ks.length × ℤ → Prop) (j, s.time)) := by
    intro s hs j hj; simp
  have e1 := h.sum hn (fun _ => true) (fun _ => True) (fun r => BaconRows.within rows treat r ^ 2) (fun x => Bacon.within P.rows (Bacon.treat P) x.1 x.2 ^ 2) ha
    (fun r hr i hi => by rw [h.within hn treat (Bacon.treat P) htr hr hi])
  have e2 := h.sum hn (fun _ => true) (fun _ => True) (fun r => BaconRows.within rows treat r * BaconRows.within rows (fun r => r.y.getD 0) r)
    (fun x => Bacon.within P.rows (Bacon.treat P) x.1 x.2 * Bacon.within P.rows (fun u t => (P.y u t).getD 0) x.1 x.2) ha
    (fun r hr i hi => by rw [h.within hn treat (Bacon.treat P) htr hr hi, h.within hn _ (fun u t => (P.y u t).getD 0) hy hr hi])
  simp only [List.filter_true, Finset.filter_true] at e1 e2
  have e3 : rows.all (fun r => r.y.isSome) = true ↔ ∀ r ∈ P.rows, (P.y r.1 r.2).isSome = true := by
    rw [List.all_eq_true]
    constructor
    · rintro hall ⟨i, t⟩ hx
      obtain ⟨r, hr, hu, rfl⟩ := (h.present i t).1 hx
      show (P.y i r.time).isSome = true
      rw [h.outcome r hr i hu.symm]; exact hall r hr
    · intro hall r hr
      obtain ⟨i, hi⟩ := h.index hr
      have := hall (i, r.time) ((h.present _ _).2 ⟨r, hr, hi.symm, rfl⟩)
      rwa [h.outcome r hr i hi] at this
  unfold BaconRows.twfe Bacon.twfe
  simp only [e1, e2, e3]
  split_ifs <;> rfl

end wide

/-- The view of a panel. -/
def panelView {n : ℕ} (P : Bacon.Panel n K) : View K :=
  { times := Bacon.times P
    groups := Bacon.timingGroups P
    nNever := (Bacon.never P).card
    empty := fun g => decide ((panelGroup P g).card = 0)
    size := fun g => (panelGroup P g).card
    mean := fun g W => Bacon.cellMean P (panelGroup P g) W
    n22 := fun g c W => (P.rows.filter (fun r => (r.1 ∈ panelGroup P g ∨ r.1 ∈ panelGroup P c) ∧ r.2 ∈ W)).card
    nUnits := (Bacon.units P).card
    nObs := P.rows.card
    twfe := Bacon.twfe P }

theorem panel_report {n : ℕ} (m : WeightMode) (P : Bacon.Panel n K) : Bacon.fit m P = report m (panelView P) := by
  have hpre : ∀ a g c, pre (panelView P) a g c = Bacon.prePeriods P a g c := fun a g c => rfl
  have hpost : ∀ a g c, post (panelView P) a g c = Bacon.postPeriods P a g c := fun a g c => rfl
  have hs : ∀ g, (panelView P).size g = (Bacon.controls P g).card := fun g => by rw [← panelGroup_controls]; rfl
  have hs' : ∀ g, (panelView P).size (some g) = (Bacon.members P g).card := fun g => by rw [← panelGroup_some]; rfl
  have he : ∀ g, (panelView P).empty g = decide ((Bacon.controls P g).card = 0) := fun g => by rw [← panelGroup_controls]; rfl
  have he' : ∀ g, (panelView P).empty (some g) = decide ((Bacon.members P g).card = 0) := fun g => by rw [← panelGroup_some]; rfl
  have hd : ∀ g c a b, did (panelView P) (some g) c a b = Bacon.did P (Bacon.members P g) (Bacon.controls P c) a b := fun g c a b => by
    rw [← panelGroup_controls, ← panelGroup_some]; rfl
  have haw : ∀ a g c, approxWeight (panelView P) a g c = Bacon.approxWeight P a g c := fun a g c => by
    unfold approxWeight Bacon.approxWeight
    simp only [hs', hs]; rfl
  have htvn : ∀ g, compare (panelView P) .treatedVsNever g none = Bacon.treatedVsNever P g := by
    intro g
    unfold compare Bacon.treatedVsNever
    simp only [he', he, hd, haw, hs', hs, hpre, hpost]
    simp only [decide_eq_true_eq, Option.isSome_none, Bool.false_eq_true, false_and, if_false]
    rfl
  have htc : ∀ k g c, compare (panelView P) k g (some c) = Bacon.timingComparison P k g c := by
    intro k g c
    unfold compare Bacon.timingComparison
    simp only [he', hd, haw, hs', hpre, hpost]
    simp only [decide_eq_true_eq, Option.isSome_some, true_and]
    show _ = if _ then _ else if _ then _ else match Bacon.did P (Bacon.members P g) (Bacon.controls P (some c)) _ _ with | none => _ | some est => _
    cases Bacon.did P (Bacon.members P g) (Bacon.controls P (some c)) (Bacon.prePeriods P k g (some c)) (Bacon.postPeriods P k g (some c)) with
    | none => simp
    | some e => simp only [reduceCtorEq, if_false]; rfl
  have hc : comparisons (panelView P) = Bacon.comparisons P := by
    unfold comparisons Bacon.comparisons
    simp only [htvn, htc]
    rfl
  have hex : ∀ c, exactWeight (panelView P) c = Bacon.exactWeight P c := by
    intro c
    have hn : (panelView P).n22 (some c.treated) c.control (Bacon.prePeriods P c.kind c.treated c.control ∪ Bacon.postPeriods P c.kind c.treated c.control) =
        (P.rows.filter (fun r => (r.1 ∈ Bacon.members P c.treated ∨ r.1 ∈ Bacon.controls P c.control) ∧
          (r.2 ∈ Bacon.prePeriods P c.kind c.treated c.control ∨ r.2 ∈ Bacon.postPeriods P c.kind c.treated c.control))).card := by
      rw [← panelGroup_controls, ← panelGroup_some]
      show (P.rows.filter _).card = _
      simp only [Finset.mem_union]
    unfold exactWeight Bacon.exactWeight
    simp only [hpre, hpost, hn, hs', hs]
    rfl
  have hm : withMode m (panelView P) (comparisons (panelView P)) = Bacon.withMode m P (Bacon.comparisons P) := by
    rw [hc]
    unfold withMode Bacon.withMode
    simp only [hex]
    cases m <;> rfl
  unfold Bacon.fit report
  rw [hm]
  rfl

/-- C149. When every unit has one first treatment period and no unit has two rows for a period, the decomposition of the rows is that of the wide
panel, whatever the listing of the units. -/
theorem C149_wide (m : WeightMode) (rows : List (Row U K)) (hc : Constant rows) (hn : NoRepeat rows) (ks : List U) (P : Bacon.Panel ks.length K)
    (h : IsWide rows ks P) : fit m rows = Bacon.fit m P := by
  rw [panel_report]
  unfold fit
  congr 1
  unfold view panelView
  congr 1
  · ext t
    simp only [times, Bacon.times, List.mem_toFinset, List.mem_map, Finset.mem_image]
    constructor
    · rintro ⟨r, hr, rfl⟩
      obtain ⟨i, hi⟩ := h.index hr
      exact ⟨(i, r.time), (h.present _ _).2 ⟨r, hr, hi.symm, rfl⟩, rfl⟩
    · rintro ⟨⟨i, t⟩, hx, rfl⟩
      obtain ⟨r, hr, -, ht⟩ := (h.present i t).1 hx
      exact ⟨r, hr, ht⟩
  · refine sorted_ext ((List.perm_insertionSort _ _).nodup_iff.2 (List.nodup_dedup _)) ((List.perm_insertionSort _ _).nodup_iff.2 (List.nodup_dedup _))
      (List.pairwise_insertionSort _ _) (List.pairwise_insertionSort _ _) (fun g => ?_)
    unfold Bacon.timingGroups
    rw [mem_timingGroups, List.mem_insertionSort, List.mem_dedup, List.mem_filterMap]
    constructor
    · rintro ⟨r, hr, hg⟩
      obtain ⟨i, hi⟩ := h.index hr
      exact ⟨i, List.mem_filter.2 ⟨List.mem_finRange _, decide_eq_true (h.mem_units i)⟩, by rw [h.cohort r hr i hi]; exact hg⟩
    · rintro ⟨i, -, hg⟩
      obtain ⟨r, hr, hu⟩ := (h.units (ks.get i)).1 (List.get_mem _ _)
      rw [h.cohort r hr i hu.symm] at hg
      exact ⟨r, hr, hg⟩
  · rw [nNever_eq hc, h.size hc]; rfl
  · funext g
    rw [Bool.eq_iff_iff, decide_eq_true_eq, ← h.size hc g, Finset.card_eq_zero, List.isEmpty_iff]
    unfold groupUnits
    rw [List.toFinset_eq_empty_iff, List.map_eq_nil_iff]
  · funext g; exact h.size hc g
  · funext g W; exact h.cellMean hn hc g W
  · funext g c W
    refine h.len hn _ _ fun r hr i hi => ?_
    simp only [Bool.and_eq_true, Bool.or_eq_true, decide_eq_true_eq, h.mem_groupUnits hc hr hi]
  · have : (rows.map Row.unit).toFinset.card = ks.toFinset.card := by
      congr 1
      ext u
      simp only [List.mem_toFinset, List.mem_map, h.units]
    rw [this, List.toFinset_card_of_nodup h.nodup]
    have hu : Bacon.units P = Finset.univ := Finset.eq_univ_iff_forall.2 h.mem_units
    rw [hu, Finset.card_univ, Fintype.card_fin]
  · have := h.len hn (fun _ => true) (fun _ => True) (fun _ _ _ _ => by simp)
    simpa using this
  · exact h.twfe hn

/-- The wide panel of the rows. -/
def panelOf (ks : List U) (rows : List (Row U K)) : Bacon.Panel ks.length K :=
  { cohort := fun i => firstCoh rows (ks.get i)
    rows := ((Finset.univ : Finset (Fin ks.length)) ×ˢ times rows).filter (fun x => ∃ r ∈ rows, r.unit = ks.get x.1 ∧ r.time = x.2)
    y := fun i t => CSRows.cell rows (ks.get i) t }

/-- C149. Such a panel exists. -/
theorem C149_wide_exists (rows : List (Row U K)) (hc : Constant rows) (hn : NoRepeat rows) :
    ∃ (ks : List U) (P : Bacon.Panel ks.length K), IsWide rows ks P := by
  refine ⟨keys rows, panelOf (keys rows) rows, keys_nodup rows, fun u => mem_keys, ?_, ?_, ?_⟩
  · intro r hr i hi
    show firstCoh rows _ = _
    rw [hi]; exact firstCoh_const hc hr
  · intro i t
    unfold panelOf
    rw [Finset.mem_filter, Finset.mem_product]
    constructor
    · exact fun x => x.2
    · rintro ⟨r, hr, hu, rfl⟩
      exact ⟨⟨Finset.mem_univ _, by simp only [times, List.mem_toFinset, List.mem_map]; exact ⟨r, hr, rfl⟩⟩, r, hr, hu, rfl⟩
  · intro r hr i hi
    show CSRows.cell rows _ _ = _
    rw [hi]; exact CSRows.cell_eq hn hr

/-! ### Labels of units -/

section labels
variable {U' : Type*} [LinearOrder U'] {f : U → U'}

theorem relabel_mem {rows : List (Row U K)} {s : Row U' K} :
    s ∈ relabel f rows ↔ ∃ r ∈ rows, (⟨f r.unit, r.time, r.cohort, r.y⟩ : Row U' K) = s := List.mem_map

theorem relabel_filter (rows : List (Row U K)) (p : Row U' K → Bool) :
    (relabel f rows).filter p = relabel f (rows.filter (fun r => p ⟨f r.unit, r.time, r.cohort, r.y⟩)) := List.filter_map

theorem relabel_map {M : Type*} (rows : List (Row U K)) (g : Row U' K → M) :
    (relabel f rows).map g = rows.map (fun r => g ⟨f r.unit, r.time, r.cohort, r.y⟩) := by unfold relabel; rw [List.map_map]; rfl

theorem relabel_length (rows : List (Row U K)) : (relabel f rows).length = rows.length := List.length_map _

theorem relabel_firstCoh (hf : Function.Injective f) (rows : List (Row U K)) (u : U) : firstCoh (relabel f rows) (f u) = firstCoh rows u := by
  unfold firstCoh
  rw [relabel_filter, relabel_map]
  simp only [hf.eq_iff]

theorem relabel_groupUnits (rows : List (Row U K)) (g : Option ℤ) : groupUnits (relabel f rows) g = (groupUnits rows g).image f := by
  unfold groupUnits groupRows
  rw [relabel_filter, relabel_map]
  ext u
  simp

theorem relabel_nNever (hf : Function.Injective f) (rows : List (Row U K)) : nNever (relabel f rows) = nNever rows := by
  unfold nNever
  rw [← List.toFinset_card_of_nodup ((keys_nodup _).filter _), ← List.toFinset_card_of_nodup ((keys_nodup rows).filter _),
    ← Finset.card_image_of_injective _ hf]
  congr 1
  ext v
  simp only [List.mem_toFinset, List.mem_filter, mem_keys, Finset.mem_image]
  constructor
  · rintro ⟨⟨s, hs, rfl⟩, hn⟩
    obtain ⟨r, hr, rfl⟩ := relabel_mem.1 hs
    exact ⟨r.unit, ⟨⟨r, hr, rfl⟩, by rw [← relabel_firstCoh hf]; exact hn⟩, rfl⟩
  · rintro ⟨u, ⟨⟨r, hr, rfl⟩, hn⟩, rfl⟩
    exact ⟨⟨_, relabel_mem.2 ⟨r, hr, rfl⟩, rfl⟩, by rw [relabel_firstCoh hf]; exact hn⟩

theorem relabel_meanOver (rows : List (Row U K)) (p : Row U' K → Bool) (x : Row U' K → K) :
    meanOver (relabel f rows) p x =
      meanOver rows (fun r => p ⟨f r.unit, r.time, r.cohort, r.y⟩) (fun r => x ⟨f r.unit, r.time, r.cohort, r.y⟩) := by
  unfold meanOver
  rw [relabel_filter, relabel_map, relabel_length]

theorem relabel_within (hf : Function.Injective f) (rows : List (Row U K)) (x : Row U' K → K) (r : Row U K) :
    within (relabel f rows) x ⟨f r.unit, r.time, r.cohort, r.y⟩ = within rows (fun r => x ⟨f r.unit, r.time, r.cohort, r.y⟩) r := by
  unfold within
  simp only [relabel_meanOver, hf.eq_iff]

theorem relabel_twfe (hf : Function.Injective f) (rows : List (Row U K)) : twfe (relabel f rows) = twfe rows := by
  have hall : (relabel f rows).all (fun r => r.y.isSome) = rows.all (fun r => r.y.isSome) := by
    unfold relabel; rw [List.all_map]; rfl
  unfold twfe
  simp only [relabel_map, relabel_within hf, hall]
  rfl

/-- C149. The labels of the units do not matter: any one-to-one renaming, which may also change their sorting order, leaves the whole report as it is. -/
theorem C149_labels (m : WeightMode) (f : U → U') (hf : Function.Injective f) (rows : List (Row U K)) : fit m (relabel f rows) = fit m rows := by
  unfold fit
  congr 1
  unfold view
  congr 1
  · unfold times; rw [relabel_map]
  · refine timingGroups_congr fun g => ?_
    constructor
    · rintro ⟨s, hs, hg⟩
      obtain ⟨r, hr, rfl⟩ := relabel_mem.1 hs
      exact ⟨r, hr, hg⟩
    · rintro ⟨r, hr, hg⟩
      exact ⟨_, relabel_mem.2 ⟨r, hr, rfl⟩, hg⟩
  · exact relabel_nNever hf rows
  · funext g
    unfold groupRows
    rw [relabel_filter]
    unfold relabel
    rw [List.isEmpty_map]
  · funext g
    rw [relabel_groupUnits, Finset.card_image_of_injective _ hf]
  · funext g W
    unfold cellMean groupRows
    simp only [relabel_filter, relabel_map, relabel_length]
  · funext g c W
    unfold n22
    rw [relabel_filter, relabel_length]
    simp only [relabel_groupUnits, Finset.mem_image, hf.eq_iff, exists_eq_right]
  · rw [relabel_map]
    have : (rows.map (fun r => f r.unit)).toFinset = ((rows.map Row.unit).toFinset).image f := by ext u; simp
    rw [this, Finset.card_image_of_injective _ hf]
  · exact relabel_length rows
  · exact relabel_twfe hf rows

end labels

/-! ### Data that do not form a panel -/

/-- Unit 1 is recorded as never treated in period 1 and as treated from period 2 in period 2; unit 2 is treated from period 2. -/
def mixed : List (Row ℕ ℚ) := [⟨1, 1, .num 0, some 0⟩, ⟨1, 2, .num 2, some 5⟩, ⟨2, 1, .num 2, some 0⟩, ⟨2, 2, .num 2, some 3⟩]

/-- C149. Claim refuted: "the order of the rows does not matter". With a unit recorded with two first treatment periods the first of its rows decides
whether there is a never-treated unit, and thereby whether there are comparisons at all. -/
theorem C149_row_order_refuted : mixed.reverse ~ mixed ∧ (fit .exact mixed).nNever = 1 ∧ (fit .exact mixed).comparisons.length = 1 ∧
    (fit .exact mixed.reverse).nNever = 0 ∧ (fit .exact mixed.reverse).comparisons.length = 0 :=
  ⟨List.reverse_perm _, by decide +kernel, by decide +kernel, by decide +kernel, by decide +kernel⟩

/-- Two units and two periods, and one row of the treated unit recorded again with another outcome. -/
def twice : List (Row ℕ ℚ) :=
  [⟨1, 1, .num 0, some 0⟩, ⟨1, 2, .num 0, some 1⟩, ⟨2, 1, .num 2, some 0⟩, ⟨2, 2, .num 2, some 4⟩, ⟨2, 2, .num 2, some 10⟩]

/-- C149. Claim refuted: "data with two rows for a unit and period are rejected". CallawaySantAnna rejects them; here both rows enter the means, the
comparison reports 6, the regression 85/14, and the decomposition is off by the difference. -/
theorem C149_duplicates_refuted : ¬ NoRepeat twice ∧ (fit .exact twice).comparisons.map (fun c => (c.estimate, c.weight)) = [(some 6, 1)] ∧
    (fit .exact twice).twfe = some (85 / 14) ∧ (fit .exact twice).error = some (1 / 14) := by
  refine ⟨by unfold NoRepeat; decide +kernel, by decide +kernel, by decide +kernel, by decide +kernel⟩

/-! ### Examples -/

/-- A panel of three units over three periods. -/
def demo : List (Row ℕ ℚ) :=
  [⟨7, 1, .num 2, some 1⟩, ⟨7, 2, .num 2, some 4⟩, ⟨7, 3, .num 2, some 6⟩, ⟨3, 1, .num 3, some 0⟩, ⟨3, 2, .num 3, some 0⟩, ⟨3, 3, .num 3, some 5⟩,
    ⟨9, 1, .inf, some 2⟩, ⟨9, 2, .inf, some 2⟩, ⟨9, 3, .inf, some 3⟩]

theorem demo_constant : Constant demo := by unfold Constant; decide +kernel

theorem demo_noRepeat : NoRepeat demo := by unfold NoRepeat; decide +kernel

example : fit .exact demo.reverse = fit .exact demo := C149_row_order _ _ _ (List.reverse_perm _) demo_constant

example : (fit .approximate (demo ++ demo)).nObs = 18 ∧ (fit .approximate (demo ++ demo)).comparisons = (fit .approximate demo).comparisons ∧
    (fit .approximate demo).comparisons.length = 4 := by
  have h := C149_repeats .approximate 2 two_ne_zero demo (demo ++ demo) (fun r => by rw [List.count_append]; ring) demo_constant
  refine ⟨by rw [h]; rfl, by rw [h], by decide +kernel⟩

example : fit .exact (relabel (fun u : ℕ => 100 - 3 * (u : ℤ)) demo) = fit .exact demo :=
  C149_labels _ _ (fun a b h => by have h' : 100 - 3 * (a : ℤ) = 100 - 3 * (b : ℤ) := h; omega) _

example : ∃ (ks : List ℕ) (P : Bacon.Panel ks.length ℚ), IsWide demo ks P ∧ fit .exact demo = Bacon.fit .exact P := by
  obtain ⟨ks, P, h⟩ := C149_wide_exists demo demo_constant demo_noRepeat
  exact ⟨ks, P, h, C149_wide .exact demo demo_constant demo_noRepeat ks P h⟩

end DiffDiff.BaconRows
