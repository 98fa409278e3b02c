/-
Properties C50 and C87, continued: the numbers in the ranking and in the candidate list.
-/
import Verif.PrepRankProps
import Mathlib.Tactic.Ring
import Mathlib.Tactic.FieldSimp
import Mathlib.Tactic.Linarith
import Mathlib.Tactic.Positivity
import Mathlib.Algebra.BigOperators.Field

set_option linter.unusedSectionVars false

namespace DiffDiff.PrepRank

section
variable {U T C K : Type*} [DecidableEq U] [LinearOrder T] [Field K] [LinearOrder K] [IsStrictOrderedRing K]

/-! ### Specification -/

/-- `obs` is the outcome of a unit in a pre-treatment period, missing where there is no row. -/
def Describes (o : Opts U T C K) (rows : List (RRow U T C K)) (obs : U → T → Option K) : Prop :=
  (∀ r ∈ rows, IsPre o rows r.time → obs r.unit r.time = r.y) ∧
  ∀ u t, (∀ r ∈ rows, ¬ (r.unit = u ∧ r.time = t ∧ IsPre o rows t)) → obs u t = none

/-- Arithmetic mean, missing for an empty list. -/
def average (l : List K) : Option K := if l = [] then none else some (l.sum / (l.length : K))

/-- Mean outcome of the treated units that are observed in a period. -/
def treatedAvg (obs : U → T → Option K) (Tr : Finset U) (t : T) : Option K :=
  let S := Tr.filter (fun u => (obs u t).isSome)
  if S = ∅ then none else some ((∑ u ∈ S, (obs u t).getD 0) / (S.card : K))

/-- Squared gap of a unit to the treated mean, missing unless both are observed. -/
def gap (obs : U → T → Option K) (Tr : Finset U) (c : U) (t : T) : Option K :=
  match obs c t, treatedAvg obs Tr t with
  | some a, some b => some ((a - b) ^ 2)
  | _, _ => none

/-- A unit that can be ranked. -/
def Eligible (o : Opts U T C K) (rows : List (RRow U T C K)) (c : U) : Prop :=
  (∃ r ∈ rows, r.unit = c ∧ IsPre o rows r.time) ∧ ¬ IsTreated o rows c ∧ c ∉ o.exclude

/-- Min-max similarity of a distance: 1 at the smallest, 0 at the largest, 1 for all when they do not differ. -/
def similarity (dmin dmax d : K) : K := if dmax - dmin < 1 / 10 ^ 10 then 1 else 1 - (d - dmin) / (dmax - dmin)

/-- `lo` and `hi` are the smallest and the largest value of `d` on the eligible units. -/
def Extremes (o : Opts U T C K) (rows : List (RRow U T C K)) (d : U → K) (lo hi : K) : Prop :=
  (∀ c, Eligible o rows c → lo ≤ d c ∧ d c ≤ hi) ∧ (∃ c, Eligible o rows c ∧ d c = lo) ∧ ∃ c, Eligible o rows c ∧ d c = hi

/-! ### Lemmas -/

theorem sum_filterMap {α : Type*} (f : α → Option K) (l : List α) :
    (l.filterMap f).sum = (l.map (fun u => (f u).getD 0)).sum ∧ (l.filterMap f).length = (l.filter (fun u => (f u).isSome)).length := by
  induction l with
  | nil => simp
  | cons a l ih =>
    cases h : f a with
    | none => simp [List.filterMap_cons, h, ih]
    | some v => simp [List.filterMap_cons, h, ih]

theorem nanmean_finset (f : U → Option K) (l : List U) (hl : l.Nodup) (Tr : Finset U) (hTr : ∀ u, (f u).isSome → (u ∈ l ↔ u ∈ Tr)) :
    nanmean (l.map f) = (let S := Tr.filter (fun u => (f u).isSome)
      if S = ∅ then none else some ((∑ u ∈ S, (f u).getD 0) / (S.card : K))) := by
  have hfm : (l.map f).filterMap id = l.filterMap f := by rw [List.filterMap_map]; rfl
  have hS : (l.filter (fun u => (f u).isSome)).toFinset = Tr.filter (fun u => (f u).isSome) := by
    ext u
    simp only [List.mem_toFinset, List.mem_filter, Finset.mem_filter]
    constructor
    · rintro ⟨h1, h2⟩; exact ⟨(hTr u h2).1 h1, h2⟩
    · rintro ⟨h1, h2⟩; exact ⟨(hTr u h2).2 h1, h2⟩
  have hnd : (l.filter (fun u => (f u).isSome)).Nodup := hl.filter _
  have hcard : (Tr.filter (fun u => (f u).isSome)).card = (l.filterMap f).length := by
    rw [← hS, List.toFinset_card_of_nodup hnd, (sum_filterMap f l).2]
  have hsum : ∑ u ∈ Tr.filter (fun u => (f u).isSome), (f u).getD 0 = (l.filterMap f).sum := by
    rw [← hS, List.sum_toFinset _ hnd, (sum_filterMap f l).1]
    clear hfm hS hnd hcard hTr hl
    induction l with
    | nil => rfl
    | cons a l ih =>
      cases h : f a with
      | none => simp [h, ih]
      | some v => simp [h, ih]
  have hempty : Tr.filter (fun u => (f u).isSome) = ∅ ↔ l.filterMap f = [] := by
    rw [← Finset.card_eq_zero, hcard, List.length_eq_zero_iff]
  unfold nanmean
  simp only [hfm]
  by_cases h : l.filterMap f = []
  · rw [if_pos h, if_pos (hempty.2 h)]
  · rw [if_neg h, if_neg (fun h' => h (hempty.1 h')), hsum, hcard]

theorem pivot_eq {o : Opts U T C K} {rows : List (RRow U T C K)} {obs : U → T → Option K} (h : Describes o rows obs) (u : U) (t : T) :
    pivot (rows.filter (fun r => decide (r.time ∈ prePeriodsOf o rows))) u t = obs u t := by
  unfold pivot
  cases hf : (rows.filter (fun r => decide (r.time ∈ prePeriodsOf o rows))).find? (fun r => decide (r.unit = u ∧ r.time = t)) with
  | none =>
    rw [Option.bind_none]
    symm
    apply h.2
    rintro r hr ⟨h1, h2, h3⟩
    rw [List.find?_eq_none] at hf
    have := hf r (List.mem_filter.2 ⟨hr, by rw [decide_eq_true_eq, mem_prePeriods, h2]; exact h3⟩)
    simp [h1, h2] at this
  | some r =>
    have h1 := List.mem_of_find?_eq_some hf
    have h2 := List.find?_some hf
    rw [decide_eq_true_eq] at h2
    rw [List.mem_filter, decide_eq_true_eq, mem_prePeriods] at h1
    rw [Option.bind_some, ← h2.1, ← h2.2]
    exact (h.1 r h1.1 h1.2).symm

theorem nodup_treatedOf (o : Opts U T C K) (rows : List (RRow U T C K)) : (treatedOf o rows).Nodup := by
  unfold treatedOf
  cases o.treatedUnits with
  | some l => exact List.nodup_dedup _
  | none =>
    simp only
    split_ifs
    · exact (nodup_unique _).filter _
    · exact List.nodup_nil

theorem mem_inPre {o : Opts U T C K} {rows : List (RRow U T C K)} {l : List U} {u : U} :
    u ∈ inPre (rows.filter (fun r => decide (r.time ∈ prePeriodsOf o rows))) l ↔
      u ∈ l ∧ ∃ r ∈ rows, r.unit = u ∧ IsPre o rows r.time := by
  unfold inPre
  rw [List.mem_filter, decide_eq_true_eq, List.mem_map]
  constructor
  · rintro ⟨h, r, hr, hu⟩
    rw [List.mem_filter, decide_eq_true_eq, mem_prePeriods] at hr
    exact ⟨h, r, hr.1, hu, hr.2⟩
  · rintro ⟨h, r, hr, hu, hp⟩
    exact ⟨h, r, List.mem_filter.2 ⟨hr, by rw [decide_eq_true_eq, mem_prePeriods]; exact hp⟩, hu⟩

theorem mem_controls {o : Opts U T C K} {rows : List (RRow U T C K)} (hne : treatedOf o rows ≠ []) {c : U} :
    c ∈ inPre (rows.filter (fun r => decide (r.time ∈ prePeriodsOf o rows))) (candidates o rows (treatedOf o rows)) ↔
      Eligible o rows c := by
  rw [mem_inPre]
  unfold candidates Eligible
  rw [List.mem_filter, List.mem_filter, mem_unique, List.mem_map, decide_eq_true_eq, decide_eq_true_eq, mem_treatedOf hne]
  constructor
  · rintro ⟨⟨⟨-, h2⟩, h3⟩, h4⟩; exact ⟨h4, h2, h3⟩
  · rintro ⟨⟨r, hr, hu, hp⟩, h2, h3⟩; exact ⟨⟨⟨⟨r, hr, hu⟩, h2⟩, h3⟩, r, hr, hu, hp⟩

theorem treatedMean_eq {o : Opts U T C K} {rows : List (RRow U T C K)} {obs : U → T → Option K} (h : Describes o rows obs)
    (hne : treatedOf o rows ≠ []) (Tr : Finset U) (hTr : ∀ u, u ∈ Tr ↔ IsTreated o rows u) (t : T) :
    treatedMean (rows.filter (fun r => decide (r.time ∈ prePeriodsOf o rows)))
      (inPre (rows.filter (fun r => decide (r.time ∈ prePeriodsOf o rows))) (treatedOf o rows)) t = treatedAvg obs Tr t := by
  unfold treatedMean treatedAvg
  simp only [pivot_eq h]
  refine nanmean_finset (fun u => obs u t) _ ((nodup_treatedOf o rows).filter _) Tr fun u hu => ?_
  have hmi := mem_inPre (o := o) (rows := rows) (l := treatedOf o rows) (u := u)
  unfold inPre at hmi
  rw [hmi, hTr, mem_treatedOf hne]
  refine ⟨fun h => h.1, fun h' => ⟨h', ?_⟩⟩
  by_contra hc
  rw [h.2 u t (fun r hr hh => hc ⟨r, hr, hh.1, by rw [hh.2.1]; exact hh.2.2⟩)] at hu
  cases hu

theorem prePeriods_nodup (o : Opts U T C K) (rows : List (RRow U T C K)) (h : o.prePeriods = none) : (prePeriodsOf o rows).Nodup := by
  unfold prePeriodsOf
  rw [h]
  simp only [Option.getD_none]
  refine List.Nodup.sublist (List.take_sublist _ _) ?_
  exact ((List.perm_insertionSort _ _).nodup_iff).2 (List.nodup_dedup _)

theorem line_field {α : Type*} {lines : List (Line U K)} {controls : List U} (f : Line U K → α) (g : U → α)
    (h1 : lines.map (fun x => x.unit) = controls) (h2 : lines.map f = controls.map g) : ∀ x ∈ lines, f x = g x.unit := by
  rw [← h1, List.map_map] at h2
  exact fun x hx => List.map_inj_left.1 h2 x hx

/-- **C50.** The reported RMSE of every ranked unit is the root of the mean, over the pre-treatment periods in which the unit and at
least one treated unit are observed, of the squared gap between the unit's outcome and the mean outcome of the treated units
observed in that period; it is missing exactly when there is no such period. (A period listed twice by the caller counts twice.) -/
theorem C50_rmse (e : Env U K) (hs : IsSort e.sort) (o : Opts U T C K) (rows : List (RRow U T C K)) (l : List (Line U K))
    (h : rank e o rows = .ok (.ranking l)) (obs : U → T → Option K) (hobs : Describes o rows obs) (Tr : Finset U)
    (hTr : ∀ u, u ∈ Tr ↔ IsTreated o rows u) :
    ∃ pp : List T, (∀ t, t ∈ pp ↔ IsPre o rows t) ∧ (o.prePeriods = none → pp.Nodup) ∧ (∀ q, o.prePeriods = some q → pp = q) ∧
      ∀ x ∈ l, x.rmse = (average (pp.filterMap (gap obs Tr x.unit))).map e.root := by
  obtain ⟨-, -, hne, lines, -, hb, hl, -⟩ := rank_ok h
  obtain ⟨hu, -, -, hrm, -⟩ := lines_ok hb
  refine ⟨prePeriodsOf o rows, fun t => mem_prePeriods, prePeriods_nodup o rows, ?_, ?_⟩
  · intro q hq
    simp [prePeriodsOf, hq]
  · intro x hx
    have hx' : x ∈ lines := by rw [hl] at hx; exact applyTop_mem hs _ _ x hx
    rw [line_field (fun x => x.rmse) _ hu hrm x hx']
    unfold rmse
    congr 1
    have hg : ∀ t, omap2 (fun a b => (a - b) ^ 2) (pivot (rows.filter (fun r => decide (r.time ∈ prePeriodsOf o rows))) x.unit t)
        (treatedMean (rows.filter (fun r => decide (r.time ∈ prePeriodsOf o rows)))
          (inPre (rows.filter (fun r => decide (r.time ∈ prePeriodsOf o rows))) (treatedOf o rows)) t) = gap obs Tr x.unit t := by
      intro t
      rw [pivot_eq hobs, treatedMean_eq hobs hne Tr hTr]
      unfold gap omap2
      cases obs x.unit t <;> cases treatedAvg obs Tr t <;> rfl
    simp only [hg]
    unfold nanmean average
    simp only [List.filterMap_map]
    have hff : ∀ q : List T, (∀ t ∈ q, t ∈ prePeriodsOf o rows) →
        (q.filter (fun t => decide (t ∈ (rows.filter (fun r => decide (r.time ∈ prePeriodsOf o rows))).map (fun r => r.time)))).filterMap
          (id ∘ fun t => gap obs Tr x.unit t) = q.filterMap (gap obs Tr x.unit) := by
      intro q hq
      induction q with
      | nil => rfl
      | cons t q ih =>
        have ih := ih (fun s hs => hq s (List.mem_cons_of_mem _ hs))
        by_cases ht : t ∈ (rows.filter (fun r => decide (r.time ∈ prePeriodsOf o rows))).map (fun r => r.time)
        · rw [List.filter_cons_of_pos (by simpa using ht), List.filterMap_cons, List.filterMap_cons, ih]
          rfl
        · rw [List.filter_cons_of_neg (by simpa using ht), ih, List.filterMap_cons]
          have : gap obs Tr x.unit t = none := by
            have ho : obs x.unit t = none := hobs.2 x.unit t (fun r hr hh => ht (List.mem_map.2 ⟨r, List.mem_filter.2 ⟨hr, by
              rw [decide_eq_true_eq, hh.2.1]; exact hq t (List.mem_cons_self ..)⟩, hh.2.1⟩))
            unfold gap
            rw [ho]
          rw [this]
    rw [hff _ (fun t ht => ht)]

theorem normScores_exact (l : List (Option K)) (hne : l ≠ []) (hl : ∀ x ∈ l, x.isSome) :
    ∃ lo hi, some lo ∈ l ∧ some hi ∈ l ∧ (∀ v, some v ∈ l → lo ≤ v ∧ v ≤ hi) ∧
      normScores (pyMax l) (pyMin l) l = l.map (Option.map (similarity lo hi)) := by
  obtain ⟨M, hM, hMm, hMb⟩ := pyMax_spec l hne hl
  obtain ⟨m, hm, hmm, hmb⟩ := pyMin_spec l hne hl
  refine ⟨m, M, hmm, hMm, fun v hv => ⟨hmb v hv, hMb v hv⟩, ?_⟩
  unfold normScores
  rw [hM, hm]
  simp only [omap2]
  by_cases h : M - m < 1 / 10 ^ 10
  · rw [if_pos h]
    refine List.map_congr_left fun x hx => ?_
    obtain ⟨v, rfl⟩ := Option.isSome_iff_exists.1 (hl x hx)
    simp only [Option.map_some, similarity, if_pos h]
  · rw [if_neg h]
    refine List.map_congr_left fun x hx => ?_
    obtain ⟨v, rfl⟩ := Option.isSome_iff_exists.1 (hl x hx)
    simp only [Option.bind_some, Option.map_some, similarity, if_neg h]

/-- The extremes over the eligible units, from a list of distances. -/
theorem extremes_of {o : Opts U T C K} {rows : List (RRow U T C K)} {controls : List U} (hc : ∀ c, c ∈ controls ↔ Eligible o rows c)
    (d : U → K) {lo hi : K} (h1 : some lo ∈ controls.map (fun c => some (d c))) (h2 : some hi ∈ controls.map (fun c => some (d c)))
    (h3 : ∀ v, some v ∈ controls.map (fun c => some (d c)) → lo ≤ v ∧ v ≤ hi) : Extremes o rows d lo hi := by
  refine ⟨fun c hcc => h3 _ (List.mem_map.2 ⟨c, (hc c).2 hcc, rfl⟩), ?_, ?_⟩
  · obtain ⟨c, hcc, h⟩ := List.mem_map.1 h1
    exact ⟨c, (hc c).1 hcc, Option.some.inj h⟩
  · obtain ⟨c, hcc, h⟩ := List.mem_map.1 h2
    exact ⟨c, (hc c).1 hcc, Option.some.inj h⟩

/-- **C50.** Outcome score of every ranked unit, when every eligible unit has an RMSE `d`: the min-max similarity of `d` over all
eligible units (also those cut off by `n_top`). -/
theorem C50_outcome_score (e : Env U K) (hs : IsSort e.sort) (o : Opts U T C K) (rows : List (RRow U T C K)) (l : List (Line U K))
    (h : rank e o rows = .ok (.ranking l)) (full : List (Line U K)) (hfull : rank e { o with nTop := none } rows = .ok (.ranking full))
    (d : U → K) (hd : ∀ x ∈ full, x.rmse = some (d x.unit)) :
    ∃ lo hi, Extremes o rows d lo hi ∧ ∀ x ∈ l, x.outcome = some (similarity lo hi (d x.unit)) := by
  obtain ⟨-, -, hne, lines, hcne, hb, hl, hf⟩ := rank_ok h
  obtain ⟨hu, -, -, hrm, ho, -⟩ := lines_ok hb
  rw [hf] at hfull
  have hfl : full = e.sort lines := by injection hfull with h'; injection h' with h'; exact h'.symm
  have hd' : ∀ x ∈ lines, x.rmse = some (d x.unit) := fun x hx => hd x (by rw [hfl]; exact (hs lines).1.mem_iff.2 hx)
  have hrm' : lines.map (fun x => x.rmse) = lines.map (fun x => some (d x.unit)) := List.map_congr_left hd'
  have hrc : lines.map (fun x => x.rmse) = (inPre (rows.filter (fun r => decide (r.time ∈ prePeriodsOf o rows)))
      (candidates o rows (treatedOf o rows))).map (fun c => some (d c)) := by
    rw [hrm', ← hu, List.map_map]; rfl
  rw [← hrm] at ho
  rw [hrc] at ho
  obtain ⟨lo, hi, h1, h2, h3, h4⟩ := normScores_exact ((inPre (rows.filter (fun r => decide (r.time ∈ prePeriodsOf o rows)))
      (candidates o rows (treatedOf o rows))).map (fun c => some (d c))) (fun hc => hcne (List.map_eq_nil_iff.1 hc)) (by
    intro x hx
    obtain ⟨c, -, rfl⟩ := List.mem_map.1 hx
    rfl)
  refine ⟨lo, hi, extremes_of (fun c => mem_controls hne) d h1 h2 h3, fun x hx => ?_⟩
  rw [h4, List.map_map] at ho
  have hx' : x ∈ lines := by rw [hl] at hx; exact applyTop_mem hs _ _ x hx
  exact line_field (fun x => x.outcome) _ hu ho x hx'

/-! ### Covariates -/

open Classical in
/-- `m` is the pre-treatment mean of a covariate of a unit over the rows where it is not missing. -/
def CovMean (o : Opts U T C K) (rows : List (RRow U T C K)) (u : U) (k : C) (m : K) : Prop :=
  average ((rows.filter (fun r => decide (r.unit = u ∧ IsPre o rows r.time))).filterMap (fun r => r.cov k)) = some m

/-- Standardised distance to the mean treated profile: `μ` are the unit means, `N` the units with pre-treatment rows, `Tr` the treated
units, `sd` the sample standard deviation of the unit means (1 where it is 0). -/
def distance (root : K → K) (μ : U → C → K) (N Tr : Finset U) (covs : List C) (c : U) : K :=
  let sd : C → K := fun k =>
    let s := root ((∑ u ∈ N, (μ u k - (∑ v ∈ N, μ v k) / (N.card : K)) ^ 2) / ((N.card : K) - 1))
    if s = 0 then 1 else s
  root ((covs.map (fun k => ((μ c k - (∑ u ∈ Tr, μ u k) / (Tr.card : K)) / sd k) ^ 2)).sum)

theorem covMean_eq {o : Opts U T C K} {rows : List (RRow U T C K)} {u : U} {k : C} {m : K} (h : CovMean o rows u k m) :
    covMean (rows.filter (fun r => decide (r.time ∈ prePeriodsOf o rows))) u k = some m := by
  classical
  rw [← h]
  unfold covMean nanmean average
  have : (List.map (fun r : RRow U T C K => r.cov k) (List.filter (fun r => decide (r.unit = u))
      (List.filter (fun r => decide (r.time ∈ prePeriodsOf o rows)) rows))).filterMap id =
      (rows.filter (fun r => decide (r.unit = u ∧ IsPre o rows r.time))).filterMap (fun r => r.cov k) := by
    rw [List.filterMap_map, List.filter_filter]
    have : (fun r : RRow U T C K => decide (r.unit = u) && decide (r.time ∈ prePeriodsOf o rows)) =
        fun r => decide (r.unit = u ∧ IsPre o rows r.time) := by
      funext r
      rw [Bool.decide_and]
      congr 1
      rw [decide_eq_decide]
      exact mem_prePeriods
    rw [this]
    rfl
  simp only [this]

theorem nanmean_somes (l : List U) (hl : l ≠ []) (hnd : l.Nodup) (g : U → K) :
    nanmean (l.map (fun u => some (g u))) = some ((∑ u ∈ l.toFinset, g u) / (l.toFinset.card : K)) := by
  have : (l.map (fun u => some (g u))).filterMap id = l.map g := by
    rw [List.filterMap_map, ← List.filterMap_eq_map]; rfl
  unfold nanmean
  simp only [this]
  rw [if_neg (by simpa using hl), List.length_map, List.toFinset_card_of_nodup hnd, List.sum_toFinset _ hnd]

theorem nanstd_somes (root : K → K) (l : List U) (hl : 2 ≤ l.length) (hnd : l.Nodup) (g : U → K) :
    nanstd root (l.map (fun u => some (g u))) = some (root ((∑ u ∈ l.toFinset, (g u - (∑ v ∈ l.toFinset, g v) / (l.toFinset.card : K)) ^ 2)
      / ((l.toFinset.card : K) - 1))) := by
  have : (l.map (fun u => some (g u))).filterMap id = l.map g := by
    rw [List.filterMap_map, ← List.filterMap_eq_map]; rfl
  unfold nanstd
  simp only [this]
  rw [if_neg (by rw [List.length_map]; omega), List.length_map, List.toFinset_card_of_nodup hnd, List.sum_toFinset _ hnd,
    List.sum_toFinset _ hnd, List.map_map]
  rfl

/-- **C50.** Covariate score of every ranked unit, when the covariate means `μ` of all units with pre-treatment rows are numbers: the
min-max similarity, over all eligible units, of the Euclidean distance between the unit's standardised covariate means and the mean of
the treated units'. -/
theorem C50_covariate_score (e : Env U K) (hs : IsSort e.sort) (o : Opts U T C K) (rows : List (RRow U T C K)) (l : List (Line U K))
    (h : rank e o rows = .ok (.ranking l)) (hcov : o.covs ≠ []) (N Tr : Finset U)
    (hN : ∀ u, u ∈ N ↔ ∃ r ∈ rows, r.unit = u ∧ IsPre o rows r.time) (hTr : ∀ u, u ∈ Tr ↔ IsTreated o rows u) (μ : U → C → K)
    (hμ : ∀ u ∈ N, ∀ k ∈ o.covs, CovMean o rows u k (μ u k)) :
    ∃ lo hi, Extremes o rows (distance e.root μ N Tr o.covs) lo hi ∧
      ∀ x ∈ l, x.covariate = some (similarity lo hi (distance e.root μ N Tr o.covs x.unit)) := by
  obtain ⟨-, -, hne, lines, hcne, hb, hl, -⟩ := rank_ok h
  obtain ⟨hu, -, -, -, -, -, hcs⟩ := lines_ok hb
  have hall : ∀ u ∈ treatedOf o rows, u ∈ unique ((rows.filter (fun r => decide (r.time ∈ prePeriodsOf o rows))).map (fun r => r.unit)) := by
    by_contra hc
    unfold buildLines at hb
    split at hb
    · cases hb
    · simp only at hb
      rw [if_pos ⟨hcov, by
        intro ht
        rw [List.all_eq_true] at ht
        exact hc (fun u hu => by simpa using ht u hu)⟩] at hb
      cases hb
  have hcs := hcs hcov
  simp only at hcs
  generalize hpre : rows.filter (fun r => decide (r.time ∈ prePeriodsOf o rows)) = pre at *
  generalize hun : unique (pre.map (fun r => r.unit)) = units at *
  have hund : units.Nodup := by rw [← hun]; exact nodup_unique _
  have hunN : units.toFinset = N := by
    ext u
    rw [List.mem_toFinset, ← hun, mem_unique, hN, List.mem_map, ← hpre]
    constructor
    · rintro ⟨r, hr, rfl⟩
      rw [List.mem_filter, decide_eq_true_eq, mem_prePeriods] at hr
      exact ⟨r, hr.1, rfl, hr.2⟩
    · rintro ⟨r, hr, rfl, hp⟩
      exact ⟨r, List.mem_filter.2 ⟨hr, by rw [decide_eq_true_eq, mem_prePeriods]; exact hp⟩, rfl⟩
  have htrT : (treatedOf o rows).toFinset = Tr := by
    ext u
    rw [List.mem_toFinset, hTr, mem_treatedOf hne]
  have hcm : ∀ u ∈ units, ∀ k ∈ o.covs, covMean pre u k = some (μ u k) := by
    intro u hu' k hk
    rw [← hpre]
    exact covMean_eq (hμ u (by rw [← hunN, List.mem_toFinset]; exact hu') k hk)
  have hctl : ∀ c ∈ inPre pre (candidates o rows (treatedOf o rows)), c ∈ units ∧ c ∉ treatedOf o rows := by
    intro c hc
    rw [← hpre] at hc
    have := (mem_controls hne).1 hc
    refine ⟨?_, fun h' => this.2.1 ((mem_treatedOf hne).1 h')⟩
    rw [← List.mem_toFinset, hunN, hN]
    exact this.1
  obtain ⟨c0, hc0⟩ := List.exists_mem_of_ne_nil _ hcne
  obtain ⟨t0, ht0⟩ := List.exists_mem_of_ne_nil _ hne
  have hlen : 2 ≤ units.length := by
    have hsub : ({c0, t0} : Finset U) ⊆ units.toFinset := by
      intro u hu'
      rw [Finset.mem_insert, Finset.mem_singleton] at hu'
      rw [List.mem_toFinset]
      rcases hu' with rfl | rfl
      · exact (hctl _ hc0).1
      · exact hall _ ht0
    have hne2 : c0 ≠ t0 := fun h' => (hctl _ hc0).2 (h' ▸ ht0)
    have := Finset.card_le_card hsub
    rwa [Finset.card_pair hne2, List.toFinset_card_of_nodup hund] at this
  have hune : units ≠ [] := by rintro rfl; simp at hlen
  have hterm : ∀ c ∈ units, ∀ k ∈ o.covs, covTerm e.root pre units (treatedOf o rows) c k =
      some (((μ c k - (∑ u ∈ Tr, μ u k) / (Tr.card : K)) /
        (let s := e.root ((∑ u ∈ N, (μ u k - (∑ v ∈ N, μ v k) / (N.card : K)) ^ 2) / ((N.card : K) - 1))
         if s = 0 then 1 else s)) ^ 2) := by
    intro c hc k hk
    have hcol : units.map (fun u => covMean pre u k) = units.map (fun u => some (μ u k)) :=
      List.map_congr_left fun u hu' => hcm u hu' k hk
    have htr : (treatedOf o rows).map (fun u => covMean pre u k) = (treatedOf o rows).map (fun u => some (μ u k)) :=
      List.map_congr_left fun u hu' => hcm u (hall u hu') k hk
    unfold covTerm
    simp only [hcol, htr, nanmean_somes units hune hund, nanmean_somes _ hne (nodup_treatedOf o rows), nanstd_somes e.root units hlen hund,
      hcm c hc k hk, hunN, htrT, Option.map_some, omap2]
    congr 2
    rw [← sub_div]
    congr 1
    ring
  have hdist : ∀ c ∈ units, covDist e.root pre units (treatedOf o rows) o.covs c = some (distance e.root μ N Tr o.covs c) := by
    intro c hc
    unfold covDist distance
    simp only
    have key : ∀ (q : List C) (a : K), (∀ k ∈ q, k ∈ o.covs) →
        (q.map (covTerm e.root pre units (treatedOf o rows) c)).foldl (fun a x => omap2 (· + ·) a x) (some a) =
          some (a + (q.map (fun k => ((μ c k - (∑ u ∈ Tr, μ u k) / (Tr.card : K)) /
        (let s := e.root ((∑ u ∈ N, (μ u k - (∑ v ∈ N, μ v k) / (N.card : K)) ^ 2) / ((N.card : K) - 1))
         if s = 0 then 1 else s)) ^ 2)).sum) := by
      intro q
      induction q with
      | nil => intro a _; simp
      | cons k q ih =>
        intro a hq
        rw [List.map_cons, List.foldl_cons, hterm c hc k (hq k (List.mem_cons_self ..))]
        rw [show ∀ x y : K, omap2 (· + ·) (some x) (some y) = some (x + y) from fun _ _ => rfl,
          ih _ (fun k' hk' => hq k' (List.mem_cons_of_mem _ hk')), List.map_cons, List.sum_cons, add_assoc]
    rw [key o.covs 0 (fun k hk => hk), zero_add]
    rfl
  have hds : (inPre pre (candidates o rows (treatedOf o rows))).map (covDist e.root pre units (treatedOf o rows) o.covs) =
      (inPre pre (candidates o rows (treatedOf o rows))).map (fun c => some (distance e.root μ N Tr o.covs c)) :=
    List.map_congr_left fun c hc => hdist c (hctl c hc).1
  rw [hds] at hcs
  obtain ⟨lo, hi, h1, h2, h3, h4⟩ := normScores_exact
    ((inPre pre (candidates o rows (treatedOf o rows))).map (fun c => some (distance e.root μ N Tr o.covs c)))
    (fun hc => hcne (List.map_eq_nil_iff.1 hc)) (by
    intro x hx
    obtain ⟨c, -, rfl⟩ := List.mem_map.1 hx
    rfl)
  have hsome : ((inPre pre (candidates o rows (treatedOf o rows))).map (fun c => some (distance e.root μ N Tr o.covs c))).all Option.isSome
      = true := by
    rw [List.all_eq_true]
    intro x hx
    obtain ⟨c, -, rfl⟩ := List.mem_map.1 hx
    rfl
  unfold npMax npMin at hcs
  rw [if_pos hsome, if_pos hsome, h4, List.map_map] at hcs
  refine ⟨lo, hi, extremes_of (controls := inPre pre (candidates o rows (treatedOf o rows))) (fun c => ?_) _ h1 h2 h3, fun x hx => ?_⟩
  · rw [← hpre]
    exact mem_controls hne
  · have hx' : x ∈ lines := by rw [hl] at hx; exact applyTop_mem hs _ _ x hx
    exact line_field (fun x => x.covariate) _ hu hcs x hx'

/-! ### C87: the numbers of the candidate list -/

open Classical in
/-- Outcomes of a unit in its pre-treatment rows, in the order of the rows. -/
noncomputable def preOutcomes (o : Opts U T C K) (rows : List (RRow U T C K)) (u : U) : List (Option K) :=
  (rows.filter (fun r => decide (r.unit = u ∧ IsPre o rows r.time))).map (fun r => r.y)

/-- Mean of the outcomes that are not missing. -/
noncomputable def level (o : Opts U T C K) (rows : List (RRow U T C K)) (u : U) : Option K :=
  average ((preOutcomes o rows u).filterMap id)

theorem ys_eq (o : Opts U T C K) (rows : List (RRow U T C K)) (u : U) :
    ((rows.filter (fun r => decide (r.time ∈ prePeriodsOf o rows))).filter (fun r => decide (r.unit = u))).map (fun r => r.y) =
      preOutcomes o rows u := by
  classical
  unfold preOutcomes
  rw [List.filter_filter]
  have : (fun r : RRow U T C K => decide (r.unit = u) && decide (r.time ∈ prePeriodsOf o rows)) =
      fun r => decide (r.unit = u ∧ IsPre o rows r.time) := by
    funext r
    rw [Bool.decide_and]
    congr 1
    rw [decide_eq_decide]
    exact mem_prePeriods
  rw [this]

theorem level_eq (o : Opts U T C K) (rows : List (RRow U T C K)) (u : U) : nanmean (preOutcomes o rows u) = level o rows u := rfl

theorem candidates_ok {e : Env U K} {o : Opts U T C K} {rows : List (RRow U T C K)} {l : List (Cand U K)}
    (h : rank e o rows = .ok (.candidates l)) :
    l = suggest e o.nCand rows (rows.filter (fun r => decide (r.time ∈ prePeriodsOf o rows))) := by
  unfold rank at h
  by_cases h1 : ¬ (0 ≤ o.ow ∧ o.ow ≤ 1)
  · rw [if_pos h1] at h; cases h
  rw [if_neg h1] at h
  by_cases h2 : ¬ (0 ≤ o.cw ∧ o.cw ≤ 1)
  · rw [if_pos h2] at h; cases h
  rw [if_neg h2] at h
  by_cases h3 : o.treatedUnits.isSome ∧ o.useCol = true
  · rw [if_pos h3] at h; cases h
  rw [if_neg h3] at h
  by_cases h4 : o.require.any (fun u => decide (u ∈ o.exclude)) = true
  · rw [if_pos h4] at h; cases h
  rw [if_neg h4] at h
  by_cases h5 : prePeriodsOf o rows = []
  · rw [if_pos h5] at h; cases h
  rw [if_neg h5] at h
  by_cases h6 : o.treatedUnits = none ∧ o.useCol = false ∧ o.suggest = false
  · rw [if_pos h6] at h; cases h
  rw [if_neg h6] at h
  dsimp only at h
  by_cases h7 : o.suggest = true ∧ treatedOf o rows = []
  · rw [if_pos h7] at h
    injection h with h
    injection h with h
    exact h.symm
  · exfalso
    rw [if_neg h7] at h
    revert h
    repeat' split
    all_goals intro h; first | cases h | (injection h with h; cases h)

/-- Sample standard deviation of the values of `m` on `V`. -/
def spread (root : K → K) (m : U → K) (V : Finset U) : K :=
  root ((∑ v ∈ V, (m v - (∑ w ∈ V, m w) / (V.card : K)) ^ 2) / ((V.card : K) - 1))

theorem filterMap_as_map (f : U → Option K) (l : List U) :
    l.filterMap f = (l.filter (fun u => (f u).isSome)).map (fun u => (f u).getD 0) := by
  induction l with
  | nil => rfl
  | cons a l ih =>
    cases h : f a with
    | none => simp [List.filterMap_cons, h, ih]
    | some v => simp [List.filterMap_cons, h, ih]

theorem nanstd_finset (root : K → K) (f : U → Option K) (l : List U) (hl : l.Nodup) :
    nanstd root (l.map f) = (let V := l.toFinset.filter (fun u => (f u).isSome)
      if 2 ≤ V.card then some (spread root (fun u => (f u).getD 0) V) else none) := by
  have hfm : (l.map f).filterMap id = (l.filter (fun u => (f u).isSome)).map (fun u => (f u).getD 0) := by
    rw [List.filterMap_map, ← filterMap_as_map]; rfl
  have hS : (l.filter (fun u => (f u).isSome)).toFinset = l.toFinset.filter (fun u => (f u).isSome) := List.toFinset_filter _ _
  have hnd : (l.filter (fun u => (f u).isSome)).Nodup := hl.filter _
  have hcard : (l.toFinset.filter (fun u => (f u).isSome)).card = (l.filter (fun u => (f u).isSome)).length := by
    rw [← hS, List.toFinset_card_of_nodup hnd]
  unfold nanstd
  simp only [hfm, List.length_map, hcard]
  by_cases h2 : (l.filter (fun u => (f u).isSome)).length ≤ 1
  · rw [if_pos h2, if_neg (by omega)]
  · rw [if_neg h2, if_pos (by omega)]
    unfold spread
    rw [hcard, ← hS, List.sum_toFinset _ hnd, List.sum_toFinset _ hnd, List.map_map]
    rfl

/-- **C87.** The numbers of every candidate: the mean of its observed pre-treatment outcomes, the trend over its pre-treatment rows in
the order of the rows (0 for a single row), and the number of other units whose mean is closer to its own than half a standard
deviation of the other units' means. When that deviation is not positive, or fewer than two others have a mean, all other units with
pre-treatment rows are counted. -/
theorem C87_fields (e : Env U K) (hs : IsSortC e.sortC) (o : Opts U T C K) (rows : List (RRow U T C K)) (l : List (Cand U K))
    (h : rank e o rows = .ok (.candidates l)) (N : Finset U) (hN : ∀ u, u ∈ N ↔ ∃ r ∈ rows, r.unit = u ∧ IsPre o rows r.time) :
    ∀ c ∈ l, c.avg = level o rows c.unit ∧
      c.slope = (if (preOutcomes o rows c.unit).length = 1 then some 0 else e.slope (preOutcomes o rows c.unit)) ∧
      (let V := (N.erase c.unit).filter (fun v => (level o rows v).isSome)
       let s := spread e.root (fun v => (level o rows v).getD 0) V
       c.nSimilar = if 2 ≤ V.card ∧ 0 < s then
          (V.filter (fun v => ∃ a, c.avg = some a ∧ |(level o rows v).getD 0 - a| < s / 2)).card
        else (N.erase c.unit).card) := by
  have hl := candidates_ok h
  intro c hc
  rw [hl] at hc
  unfold suggest at hc
  simp only at hc
  have hc := (hs _).1.mem_iff.1 (List.mem_of_mem_take hc)
  obtain ⟨c', hc', rfl⟩ := List.mem_map.1 hc
  unfold candInfo at hc'
  obtain ⟨u, hu, rfl⟩ := List.mem_map.1 hc'
  rw [List.mem_filter, decide_eq_true_eq] at hu
  simp only [ys_eq, level_eq]
  refine ⟨trivial, ?_, ?_⟩
  · have hpos : 0 < (preOutcomes o rows u).length := by
      rw [← ys_eq, List.length_map]
      obtain ⟨r, hr, hru⟩ := List.mem_map.1 hu.2
      exact List.length_pos_of_mem (List.mem_filter.2 ⟨hr, by simpa using hru⟩)
    by_cases h1 : (preOutcomes o rows u).length = 1
    · rw [if_pos h1, if_neg (by omega)]
    · rw [if_neg h1, if_pos (by omega)]
  · set pre := rows.filter (fun r => decide (r.time ∈ prePeriodsOf o rows)) with hpre
    have hom : otherMeans pre u = (unique ((pre.filter (fun r => decide (r.unit ≠ u))).map (fun r => r.unit))).map (level o rows) := by
      unfold otherMeans
      refine List.map_congr_left fun v _ => ?_
      rw [hpre, ys_eq, level_eq]
    have hfin : (unique ((pre.filter (fun r => decide (r.unit ≠ u))).map (fun r => r.unit))).toFinset = N.erase u := by
      ext v
      rw [List.mem_toFinset, mem_unique, Finset.mem_erase, hN, List.mem_map, hpre]
      constructor
      · rintro ⟨r, hr, rfl⟩
        rw [List.mem_filter, List.mem_filter, decide_eq_true_eq, decide_eq_true_eq, mem_prePeriods] at hr
        exact ⟨hr.2, r, hr.1.1, rfl, hr.1.2⟩
      · rintro ⟨hv, r, hr, rfl, hp⟩
        refine ⟨r, ?_, rfl⟩
        rw [List.mem_filter, List.mem_filter, decide_eq_true_eq, decide_eq_true_eq, mem_prePeriods]
        exact ⟨⟨hr, hp⟩, hv⟩
    have hnd := nodup_unique ((pre.filter (fun r => decide (r.unit ≠ u))).map (fun r => r.unit))
    generalize unique ((pre.filter (fun r => decide (r.unit ≠ u))).map (fun r => r.unit)) = os at hom hfin hnd
    unfold nSimilar
    simp only [hom, nanstd_finset e.root (level o rows) os hnd, hfin]
    have hlen : (os.map (level o rows)).length = (N.erase u).card := by
      rw [List.length_map, ← hfin, List.toFinset_card_of_nodup hnd]
    by_cases h2 : 2 ≤ ((N.erase u).filter (fun v => (level o rows v).isSome)).card
    · simp only [if_pos h2]
      by_cases h3 : 0 < spread e.root (fun v => (level o rows v).getD 0) ((N.erase u).filter (fun v => (level o rows v).isSome))
      · rw [if_pos h3, if_pos ⟨h2, h3⟩, List.filter_map, List.length_map, ← List.toFinset_card_of_nodup (hnd.filter _), List.toFinset_filter,
          hfin, Finset.filter_filter]
        congr 1
        refine Finset.filter_congr fun v _ => ?_
        cases hv : level o rows v with
        | none => simp [hv]
        | some x =>
          cases ha : level o rows u with
          | none => simp [hv]
          | some a => simp [hv, div_eq_inv_mul]
      · rw [if_neg h3, if_neg (fun hh => h3 hh.2), hlen]
    · simp only [if_neg h2]
      rw [if_neg (fun hh => h2 hh.1), hlen]

/-- Slope of the least squares line through the outcomes at 0, 1, 2, … (what `np.polyfit` on `np.arange` returns, prep.py 1180-1182);
missing when an outcome is missing. -/
def lsSlope (ys : List (Option K)) : Option K :=
  if ys.all Option.isSome then
    let n := (ys.length : K)
    let s := (ys.zipIdx.map (fun p => ((p.2 : K) - (n - 1) / 2) * p.1.getD 0)).sum
    let d := (ys.zipIdx.map (fun p => ((p.2 : K) - (n - 1) / 2) ^ 2)).sum
    some (s / d)
  else none

end

/-- A unit rising by 10 between two periods ten apart, next to a flat one. -/
def rowsT : List (RRow ℕ ℕ Unit ℚ) :=
  [⟨1, 0, some 0, none, fun _ => none⟩, ⟨1, 10, some 10, none, fun _ => none⟩,
   ⟨2, 0, some 5, none, fun _ => none⟩, ⟨2, 10, some 5, none, fun _ => none⟩]

def trends (x : Except Err (Out ℕ ℚ)) : List (ℕ × Option ℚ) := match x with
  | .ok (.candidates l) => l.map (fun x => (x.unit, x.slope))
  | _ => []

/-- **C87 refuted.** `outcome_trend` is not the trend of the outcome over time: with periods 0 and 10 a rise by 10 is reported as 10 per
period instead of 1, and the same rows listed in another order give -10. -/
theorem C87_trend_refuted :
    ∃ (o : Opts ℕ ℕ Unit ℚ) (rows rows' : List (RRow ℕ ℕ Unit ℚ)), rows.Perm rows' ∧
      (∀ r ∈ rows, r.unit = 1 → r.y = some (r.time : ℚ)) ∧
      (1, some 10) ∈ trends (rank { demoEnv ℕ ℚ with slope := lsSlope } o rows) ∧
      (1, some (-10)) ∈ trends (rank { demoEnv ℕ ℚ with slope := lsSlope } o rows') :=
  ⟨{ opts with useCol := false, suggest := true, prePeriods := some [0, 10] }, rowsT, rowsT.reverse, (List.reverse_perm _).symm,
    by decide +kernel, by decide +kernel, by decide +kernel⟩

/-! ### Concrete cases -/

theorem pre_ex (rows : List (RRow ℕ ℕ Unit ℚ)) (o : Opts ℕ ℕ Unit ℚ) (h : o.prePeriods = some [0, 1]) (t : ℕ) : IsPre o rows t ↔ t = 0 ∨ t = 1 := by
  simp [IsPre, h]

/-- Hypotheses of `C50_rmse` for `rows4`: unit `u` has the outcome `t` plus 1, 2, 1, 3. -/
def obs4 (u t : ℕ) : Option ℚ :=
  if t ≤ 1 then (match u with | 1 => some (t + 1) | 2 => some (t + 2) | 3 => some (t + 1) | 4 => some (t + 3) | _ => none) else none
example : Describes opts rows4 obs4 := by
  refine ⟨fun r hr _ => ?_, fun u t h => ?_⟩
  · exact (show ∀ r ∈ rows4, obs4 r.unit r.time = r.y by decide +kernel) r hr
  · simp only [pre_ex rows4 opts rfl] at h
    unfold obs4
    by_cases ht : t ≤ 1
    · rw [if_pos ht]
      have ht' : t = 0 ∨ t = 1 := by omega
      have h' : ∀ r ∈ rows4, ¬ (r.unit = u ∧ r.time = t) := fun r hr hh => h r hr ⟨hh.1, hh.2, ht'⟩
      split
      all_goals first | rfl | (exfalso; rcases ht' with rfl | rfl <;> revert h' <;> decide +kernel)
    · rw [if_neg ht]
example : ∀ u, u ∈ ({1} : Finset ℕ) ↔ IsTreated opts rows4 u := by
  intro u
  rw [← mem_treatedOf (by decide +kernel)]
  rw [show treatedOf opts rows4 = [1] by decide +kernel]
  simp
def numbers (x : Except Err (Out ℕ ℚ)) : List (ℕ × Option ℚ × Option ℚ × Option ℚ) := match x with
  | .ok (.ranking l) => l.map (fun x => (x.unit, x.rmse, x.outcome, x.covariate))
  | _ => []
/-- Hypotheses of `C50_outcome_score`: all units have an RMSE (with `root` the identity: squared gaps). -/
example : numbers (rank (demoEnv ℕ ℚ) { opts with nTop := some 2 } rows4) = [(3, some 0, some 1, none), (2, some 1, some (3 / 4), none)] ∧
    numbers (rank (demoEnv ℕ ℚ) { { opts with nTop := some 2 } with nTop := none } rows4) =
      [(3, some 0, some 1, none), (2, some 1, some (3 / 4), none), (4, some 4, some 0, none)] := by decide +kernel
/-- Hypotheses of `C50_covariate_score`: covariate means 0, 0 and 1 for the units 1, 2 and 4. -/
example : ∀ u ∈ ({1, 2, 4} : Finset ℕ), ∀ k ∈ ({ opts with covs := [()] } : Opts ℕ ℕ Unit ℚ).covs,
    CovMean { opts with covs := [()] } (rows4.filter (fun r => r.unit ≠ 3)) u k (if u = 4 then 1 else 0) := by
  intro u hu k _
  simp only [Finset.mem_insert, Finset.mem_singleton] at hu
  unfold CovMean
  simp only [pre_ex (rows4.filter (fun r => r.unit ≠ 3)) { opts with covs := [()] } rfl]
  rcases hu with rfl | rfl | rfl <;> simp [rows4, average]
example : numbers (rank (demoEnv ℕ ℚ) { opts with covs := [()] } (rows4.filter (fun r => r.unit ≠ 3))) =
    [(2, some 1, some 1, some 1), (4, some 4, some 0, some 0)] := by decide +kernel
/-- Hypotheses of `C87_fields`, and its numbers. -/
example : ∀ u, u ∈ ({1, 2, 3, 4} : Finset ℕ) ↔
    ∃ r ∈ rows4, r.unit = u ∧ IsPre { opts with useCol := false, suggest := true, nCand := 2 } rows4 r.time := by
  intro u
  simp only [pre_ex rows4 { opts with useCol := false, suggest := true, nCand := 2 } rfl]
  constructor
  · exact fun hu => (show ∀ u ∈ ({1, 2, 3, 4} : Finset ℕ), ∃ r ∈ rows4, r.unit = u ∧ (r.time = 0 ∨ r.time = 1) by decide +kernel) u hu
  · rintro ⟨r, hr, rfl, -⟩
    exact (show ∀ r ∈ rows4, r.unit ∈ ({1, 2, 3, 4} : Finset ℕ) by decide +kernel) r hr
example : (match rank (demoEnv ℕ ℚ) { opts with useCol := false, suggest := true, nCand := 2 } rows4 with
    | .ok (.candidates l) => l.map (fun c => (c.unit, c.avg, c.slope, c.nSimilar)) | _ => []) =
    [(1, some (3 / 2), some 0, 1), (3, some (3 / 2), some 0, 1)] := by decide +kernel

end DiffDiff.PrepRank
