/-
Property C136, continued: the overall effects of the two estimators, and where they part.
-/
import Verif.SunAbCsAggProps

set_option linter.unusedSectionVars false

namespace DiffDiff.SunAb

open CS (Coh Cfg Panel Entry attGt basePeriod treatedSet controlSet)

variable {K : Type*} [Field K] [LinearOrder K] [IsStrictOrderedRing K]
variable {ant : ℤ} {df : List (Row K)} {U : List ℕ} {T : List ℤ} {co : ℕ → Coh}

theorem Regular.size_pos (h : Regular ant df U T co) {g : Coh} {e : ℤ}
    (hk : (g, e) ∈ keys (groups df) (relPeriods ant df) df) : 0 < size df g := by
  obtain ⟨_, r, hr, hrc, _⟩ := (h.mem_keys _).1 hk
  unfold size
  apply List.length_pos_of_mem (a := r.unit)
  rw [List.mem_filter, decide_eq_true_eq]
  have hm : r.unit ∈ SunAb.units df := mem_units.2 ⟨r, hr, rfl⟩
  exact ⟨hm, by rw [h.unitCohort hm, ← h.cohort r hr]; exact hrc⟩

theorem sum_flatMap' {α : Type*} (l : List α) (F : α → List K) : (l.flatMap F).sum = (l.map (fun a => (F a).sum)).sum := by
  induction l with
  | nil => rfl
  | cons a as ih => rw [List.flatMap_cons, List.sum_append, ih, List.map_cons, List.sum_cons]

theorem mem_cohortsAt {e : ℤ} {g : Coh} : g ∈ cohortsAt (groups df) (keys (groups df) (relPeriods ant df) df) e ↔
    (g, e) ∈ keys (groups df) (relPeriods ant df) df := by
  unfold cohortsAt
  rw [List.mem_filter, decide_eq_true_eq]
  exact ⟨fun h => h.2, fun h => ⟨(SunAb.mem_keys.1 h).1, h⟩⟩

theorem Regular.total_pos (h : Regular ant df U T co) {e : ℤ}
    (hne : cohortsAt (groups df) (keys (groups df) (relPeriods ant df) df) e ≠ []) :
    0 < totalSize df (cohortsAt (groups df) (keys (groups df) (relPeriods ant df) df) e) := by
  obtain ⟨g, hg⟩ := List.exists_mem_of_ne_nil _ hne
  unfold totalSize
  have : size df g ≤ ((cohortsAt (groups df) (keys (groups df) (relPeriods ant df) df) e).map (size df)).sum :=
    List.single_le_sum (fun _ _ => Nat.zero_le _) _ (List.mem_map_of_mem hg)
  have := h.size_pos (mem_cohortsAt.1 hg)
  omega

theorem count_sum (l : List ℕ) (hl : l.Nodup) (gs : List Coh) (hg : gs.Nodup) (c : ℕ → Coh) :
    (gs.map (fun g => (l.filter (fun u => decide (c u = g))).length)).sum = (l.filter (fun u => decide (c u ∈ gs))).length := by
  induction gs with
  | nil => simp
  | cons g gs ih =>
    rw [List.nodup_cons] at hg
    rw [List.map_cons, List.sum_cons, ih hg.2]
    clear ih hl
    induction l with
    | nil => rfl
    | cons u us ihl =>
      simp only [List.filter_cons]
      by_cases h1 : c u = g
      · have h2 : c u ∉ gs := by rw [h1]; exact hg.1
        simp [h1] at ihl ⊢
        have h3 : g ∉ gs := hg.1
        simp [h3]
        omega
      · by_cases h2 : c u ∈ gs
        · simp [h1, h2] at ihl ⊢
          omega
        · simp [h1, h2] at ihl ⊢
          exact ihl

/-- In a balanced panel the number of rows at an event time is the number of units of the cohorts observed there. -/
theorem Regular.countAt (h : Regular ant df U T co) {e : ℤ}
    (hne : cohortsAt (groups df) (keys (groups df) (relPeriods ant df) df) e ≠ []) :
    countAt df e = totalSize df (cohortsAt (groups df) (keys (groups df) (relPeriods ant df) df) e) := by
  have hpos := h.total_pos hne
  set ks := keys (groups df) (relPeriods ant df) df with hks
  obtain ⟨g0, hg0⟩ := List.exists_mem_of_ne_nil _ hne
  have href : e ≠ -1 - ant := ((h.mem_keys _).1 (mem_cohortsAt.1 hg0)).1
  obtain ⟨_, r0, hr0, _, _⟩ := (h.mem_keys _).1 (mem_cohortsAt.1 hg0)
  have ht0 := (h.grid.mem r0 hr0).2
  have hlen : (df.filter (fun r => decide (relTime r = some e))).length = totalSize df (cohortsAt (groups df) ks e) := by
    have e1 : ((df.filter (fun r => decide (relTime r = some e))).length : K) =
        ∑ u ∈ U.toFinset, if (co u, e) ∈ ks then (1 : K) else 0 := by
      have : ((df.filter (fun r => decide (relTime r = some e))).length : K) =
          ((df.filter (fun r => decide (relTime r = some e))).map (fun _ => (1 : K))).sum := by
        rw [List.map_const', List.sum_replicate, nsmul_eq_mul, mul_one]
      rw [this, sum_filter_ite]
      have hcg : df.map (fun r => if decide (relTime r = some e) = true then (1 : K) else 0) =
          df.map (fun r => (fun u t => if (finPos (co u)).map (fun g => t - g) = some e then (1 : K) else 0) r.unit r.time) := by
        apply List.map_congr_left
        intro r hr
        show (if decide ((finPos r.cohort).map (fun g => r.time - g) = some e) = true then (1 : K) else 0) = _
        rw [h.cohort r hr]
        simp only [decide_eq_true_eq]
      rw [hcg, sum_all h.grid (fun u t => if (finPos (co u)).map (fun g => t - g) = some e then (1 : K) else 0),
        Finset.sum_comm]
      apply Finset.sum_congr rfl
      intro u hu
      have hu' := List.mem_toFinset.1 hu
      cases hf : finPos (co u) with
      | none =>
        have : (co u, e) ∉ ks := by
          intro hk
          obtain ⟨_, r, hr, hrc, hrel⟩ := (h.mem_keys _).1 hk
          unfold relTime at hrel
          rw [show r.cohort = co u from hrc, hf] at hrel
          cases hrel
        rw [if_neg this]
        simp
      | some g =>
        have hiff : (co u, e) ∈ ks ↔ g + e ∈ T := by
          rw [h.mem_keys]
          constructor
          · rintro ⟨_, r, hr, hrc, hrel⟩
            unfold relTime at hrel
            rw [show r.cohort = co u from hrc, hf] at hrel
            have : r.time - g = e := Option.some.inj hrel
            have : g + e = r.time := by omega
            rw [this]
            exact (h.grid.mem r hr).2
          · intro hT
            obtain ⟨r, hr, h1, h2⟩ := h.grid.cell hu' hT
            refine ⟨href, r, hr, by rw [h.cohort r hr, h1], ?_⟩
            unfold relTime
            rw [h.cohort r hr, h1, hf, h2]
            simp
        have hs : ∀ t ∈ T.toFinset, (if (some g).map (fun g => t - g) = some e then (1 : K) else 0) =
            if t = g + e then 1 else 0 := by
          intro t _
          have : ((some g).map (fun g => t - g) = some e) ↔ t = g + e := by
            simp only [Option.map_some, Option.some.injEq]
            omega
          simp only [this]
        rw [Finset.sum_congr rfl hs, Finset.sum_ite_eq']
        simp only [List.mem_toFinset, hiff]
    have e2 : (totalSize df (cohortsAt (groups df) ks e) : K) = ∑ u ∈ U.toFinset, if (co u, e) ∈ ks then (1 : K) else 0 := by
      have h1 : totalSize df (cohortsAt (groups df) ks e) =
          ((SunAb.units df).filter (fun u => decide (SunAb.unitCohort df u ∈ cohortsAt (groups df) ks e))).length :=
        count_sum _ (units_nodup df) _ ((groups_nodup df).filter _) _
      have h2 : (((SunAb.units df).filter (fun u => decide (SunAb.unitCohort df u ∈ cohortsAt (groups df) ks e))).length : K) =
          (((SunAb.units df).filter (fun u => decide (SunAb.unitCohort df u ∈ cohortsAt (groups df) ks e))).map
            (fun _ => (1 : K))).sum := by
        rw [List.map_const', List.sum_replicate, nsmul_eq_mul, mul_one]
      rw [h1, h2, sum_filter_ite, ← h.units ht0, List.sum_toFinset _ (units_nodup df)]
      apply congrArg List.sum
      apply List.map_congr_left
      intro u hu
      rw [h.unitCohort hu]
      have : (co u ∈ cohortsAt (groups df) ks e) ↔ (co u, e) ∈ ks := mem_cohortsAt
      simp only [this, decide_eq_true_eq]
    exact_mod_cast e1.trans e2.symm
  unfold SunAb.countAt
  rw [hlen]
  omega

/-- Column of an effect. -/
def toKey {n : ℕ} (x : (Coh × ℤ) × Entry n K) : Key :=
  match x.1.1 with
  | .num z => (.num z, x.1.2 - z)
  | c => (c, x.1.2)

/-- Columns from event time `a` on. -/
def keysFrom (df : List (Row K)) (ant a : ℤ) : List Key :=
  (keys (groups df) (relPeriods ant df) df).filter (fun k => decide (a ≤ k.2))

/-- Average of the differences of cell means over a list of columns, weighted by the number of units of the cohort. -/
def avg (df : List (Row K)) (ant : ℤ) (m : List Key) : K :=
  (m.map (fun k => (size df k.1 : K) * didKey df ant k.1 k.2)).sum / (m.map (fun k => (size df k.1 : K))).sum

theorem avg_perm (df : List (Row K)) (ant : ℤ) {m m' : List Key} (h : m.Perm m') : avg df ant m = avg df ant m' := by
  unfold avg
  rw [(h.map _).sum_eq, (h.map (fun k => (size df k.1 : K))).sum_eq]

/-- Sun-Abraham's overall effect averages the cells with non-negative event time. -/
theorem overall_sa (reg : List (List K) → List K → Option (Reg K)) (hreg : SolvesLS reg) (ant : ℤ) (c : Control)
    (df : List (Row K)) (U : List ℕ) (T : List ℤ) (co : ℕ → Coh) (hR : Regular ant df U T co)
    (R : Results K) (h : fit reg ant c df = .ok R) : R.overall.1 = some (avg df ant (keysFrom df ant 0)) := by
  obtain ⟨_, _, f, _, he, ho, hce, _⟩ := fit_ok h
  rw [hR.sample c] at he hce ho
  have hcoef := coef_did reg hreg ant c df U T co hR R h f hce
  set ks := keys (groups df) (relPeriods ant df) df with hks
  set post := R.events.filter (fun ev => decide (0 ≤ ev.e)) with hpost
  set m : List Key := post.flatMap (fun ev => (cohortsAt (groups df) ks ev.e).map (fun g => (g, ev.e))) with hm
  have hevent : ∀ ev ∈ post, eventAt df (groups df) ks f ev.e = some ev ∧ 0 ≤ ev.e := by
    intro ev hev
    obtain ⟨h1, h2⟩ := List.mem_filter.1 hev
    rw [he] at h1
    exact ⟨(mem_iw h1).2, by simpa using h2⟩
  have hpostnd : (post.map (fun ev => ev.e)).Nodup := by
    have h1 : (R.events.map (fun ev => ev.e)).Sublist (relPeriods ant df) := by
      rw [he]
      unfold iwEffects
      have : ∀ es : List ℤ, ((es.filterMap (eventAt df (groups df) ks f)).map (fun ev => ev.e)).Sublist es := by
        intro es
        induction es with
        | nil => exact List.Sublist.refl _
        | cons e es ih =>
          rw [List.filterMap_cons]
          cases hea : eventAt df (groups df) ks f e with
          | none => exact ih.cons e
          | some ev =>
            simp only [List.map_cons]
            rw [(eventAt_some hea).1]
            exact ih.cons_cons e
      exact this _
    exact ((relPeriods_nodup ant df).sublist h1).sublist (List.filter_sublist.map _)
  have hmem : ∀ k : Key, k ∈ m ↔ k ∈ ks ∧ 0 ≤ k.2 := by
    intro k
    rw [hm, List.mem_flatMap]
    constructor
    · rintro ⟨ev, hev, hk⟩
      obtain ⟨g, hg, rfl⟩ := List.mem_map.1 hk
      exact ⟨mem_cohortsAt.1 hg, (hevent ev hev).2⟩
    · rintro ⟨hk, h0⟩
      have hg : k.1 ∈ cohortsAt (groups df) ks k.2 := mem_cohortsAt.2 hk
      have hne : cohortsAt (groups df) ks k.2 ≠ [] := List.ne_nil_of_mem hg
      cases hea : eventAt df (groups df) ks f k.2 with
      | none =>
        unfold eventAt at hea
        simp only at hea
        rw [if_neg hne, if_neg (hR.total_pos hne).ne'] at hea
        cases hea
      | some ev =>
        have hee := (eventAt_some hea).1
        refine ⟨ev, ?_, ?_⟩
        · rw [hpost, List.mem_filter, he]
          exact ⟨List.mem_filterMap.2 ⟨k.2, (SunAb.mem_keys.1 hk).2.1, hea⟩, by rw [hee]; simpa using h0⟩
        · rw [hee]
          exact List.mem_map.2 ⟨k.1, hg, rfl⟩
  have hmnd : m.Nodup := by
    rw [hm, List.nodup_flatMap]
    constructor
    · intro ev _
      exact ((groups_nodup df).filter _).map (fun a b h => (Prod.mk.inj h).1)
    · have := List.pairwise_map.1 hpostnd
      refine this.imp ?_
      intro a b hab x hx hx'
      obtain ⟨_, _, rfl⟩ := List.mem_map.1 hx
      obtain ⟨_, _, h2⟩ := List.mem_map.1 hx'
      exact hab (Prod.mk.inj h2).2.symm
  have hperm : m.Perm (keysFrom df ant 0) := by
    rw [List.perm_ext_iff_of_nodup hmnd]
    · intro k
      unfold keysFrom
      rw [hmem, List.mem_filter, decide_eq_true_eq]
    · exact (keys_nodup (groups_nodup df) (relPeriods_nodup ant df) df).filter _
  rw [← avg_perm df ant hperm]
  by_cases hp : post = []
  · rw [ho]
    unfold overall
    simp only
    rw [← hpost, if_pos hp, hm, hp]
    simp [avg]
  · rw [ho]
    unfold overall
    simp only
    rw [← hpost, if_neg hp]
    show osum _ = some _
    set N : K := ((post.map (fun ev => countAt df ev.e)).sum : K) with hN
    have hcnt : ∀ ev ∈ post, (countAt df ev.e : K) =
        ((cohortsAt (groups df) ks ev.e).map (fun g => (size df g : K))).sum ∧ (countAt df ev.e : K) ≠ 0 := by
      intro ev hev
      obtain ⟨_, _, hcs, _⟩ := eventAt_some (hevent ev hev).1
      rw [hR.countAt hcs, totalSize, cast_list_sum]
      refine ⟨rfl, ?_⟩
      have := (hR.total_pos hcs).ne'
      rw [← cast_list_sum]
      exact_mod_cast this
    have heff : ∀ ev ∈ post, ev.effect = some (((cohortsAt (groups df) ks ev.e).map
        (fun g => (size df g : K) * didKey df ant g ev.e)).sum / (countAt df ev.e : K)) := by
      intro ev hev
      obtain ⟨_, hw, hcs, _, heff, _, _⟩ := eventAt_some (hevent ev hev).1
      rw [heff, hw, (hcnt ev hev).1, ← weights_dot df _ (fun g => didKey df ant g ev.e)]
      apply osum_some
      intro p hp
      obtain ⟨g, hg, rfl⟩ := List.mem_map.1 hp
      rw [hcoef _ (mem_cohortsAt.1 hg)]
      rfl
    unfold postWeights
    rw [List.map_map, osum_some post _ (fun ev => ((cohortsAt (groups df) ks ev.e).map
        (fun g => (size df g : K) * didKey df ant g ev.e)).sum / N)]
    · rw [CS.sum_map_div]
      congr 2
      · rw [hm, List.map_flatMap, sum_flatMap']
        apply congrArg List.sum
        apply List.map_congr_left
        intro ev _
        rw [List.map_map]
        rfl
      · rw [hN, cast_list_sum, hm, List.map_flatMap, sum_flatMap']
        apply congrArg List.sum
        apply List.map_congr_left
        intro ev hev
        rw [(hcnt ev hev).1, List.map_map]
        rfl
    · intro ev hev
      show ev.effect.map (fun v => (countAt df ev.e : K) / _ * v) = _
      rw [heff ev hev]
      have := (hcnt ev hev).2
      show some _ = some _
      congr 1
      rw [← hN]
      field_simp

/-- Callaway-Sant'Anna's overall effect averages the cells from `anticipation` periods before treatment on. -/
theorem overall_cs (hR : Regular ant df U T co) (hnr : ∃ r ∈ df, r.cohort.isNever = true) (cfg : Cfg)
    (hctl : cfg.ctl = .never) (hant : cfg.ant = ant) :
    CS.overall ant (CS.effects cfg (pivot df)) =
      if keysFrom df ant (-ant) = [] then none else some (avg df ant (keysFrom df ant (-ant))) := by
  set ks := keys (groups df) (relPeriods ant df) df with hks
  set l := CS.effects cfg (pivot df) with hldef
  set m := keysFrom df ant (-ant) with hm
  have hmnd : m.Nodup := (keys_nodup (groups_nodup df) (relPeriods_nodup ant df) df).filter _
  have hmem : ∀ k : Key, k ∈ m ↔ k ∈ ks ∧ -ant ≤ k.2 := by
    intro k
    rw [hm]
    unfold keysFrom
    rw [List.mem_filter, decide_eq_true_eq]
  have hpp : CS.postPairs ant l = l.filter (fun x => decide (CS.IsPost ant x.1.1 x.1.2)) := by
    have := CS.postPairs_eq cfg (pivot df)
    rw [hant] at this
    exact this
  have hpair : ∀ x ∈ CS.postPairs ant l, x ∈ l ∧ ∃ z, x.1.1 = .num z ∧ z - ant ≤ x.1.2 ∧ toKey x = (.num z, x.1.2 - z) ∧
      (Coh.num z, x.1.2 - z) ∈ ks ∧ x.2.effect = didKey df ant (toKey x).1 (toKey x).2 ∧ x.2.nT = size df (toKey x).1 := by
    intro x hx
    rw [hpp, List.mem_filter, decide_eq_true_eq] at hx
    obtain ⟨hx1, z, hz, hzt⟩ := hx
    refine ⟨hx1, z, hz, by omega, ?_⟩
    have hkey : toKey x = (.num z, x.1.2 - z) := by unfold toKey; rw [hz]
    have hx2 : ((Coh.num z, x.1.2), x.2) ∈ l := by rw [← hz]; exact hx1
    obtain ⟨h1, h2, h3⟩ := (hR.mem_effects cfg hctl hant hnr z x.1.2 (Or.inr (by rw [hant]; omega)) x.2).1 hx2
    refine ⟨hkey, h1, ?_, by rw [hkey]; exact h3⟩
    rw [hkey, h2]
    show _ = did df z (z - 1 - ant) (z + (x.1.2 - z))
    rw [add_sub_cancel]
  have hlnd := effects_keys_nodup cfg (pivot df) (((List.perm_insertionSort _ _).nodup_iff).2 (List.nodup_dedup _))
  have hperm : ((CS.postPairs ant l).map toKey).Perm m := by
    rw [List.perm_ext_iff_of_nodup _ hmnd]
    · intro k
      rw [hmem]
      constructor
      · intro hk
        obtain ⟨x, hx, rfl⟩ := List.mem_map.1 hk
        obtain ⟨_, z, _, hzt, hkey, hkk, _⟩ := hpair x hx
        rw [hkey]
        exact ⟨hkk, by show -ant ≤ x.1.2 - z; omega⟩
      · rintro ⟨hk, h0⟩
        obtain ⟨_, r, hr, hrc, hrel⟩ := (hR.mem_keys _).1 hk
        obtain ⟨z, hz, hcz, _⟩ := relTime_some hrel
        have hgz : k.1 = .num z := by rw [← hcz]; exact hrc.symm
        obtain ⟨kc, ke⟩ := k
        simp only at hgz h0
        subst hgz
        obtain ⟨E, hE⟩ := (hR.mem_effects cfg hctl hant hnr z (z + ke) (Or.inr (by rw [hant]; omega))
          ⟨0, 0, 0, 0, ∅, ∅, 0, 0⟩).2 (by rw [add_sub_cancel_left]; exact hk)
        refine List.mem_map.2 ⟨((.num z, z + ke), E), ?_, ?_⟩
        · rw [hpp, List.mem_filter, decide_eq_true_eq]
          exact ⟨hE, z, rfl, by show z - ant ≤ z + ke; omega⟩
        · show (Coh.num z, z + ke - z) = _
          rw [add_sub_cancel_left]
    · have h1 : ((CS.postPairs ant l).map (fun x => x.1)).Nodup := hlnd.sublist (List.filter_sublist.map _)
      rw [List.nodup_map_iff_inj_on h1.of_map]
      intro x hx y hy hxy
      obtain ⟨_, z, hz, _, hkz, _⟩ := hpair x hx
      obtain ⟨_, w, hw, _, hkw, _⟩ := hpair y hy
      apply List.inj_on_of_nodup_map h1 hx hy
      rw [hkz, hkw] at hxy
      obtain ⟨h2, h3⟩ := Prod.mk.inj hxy
      have h4 : z = w := by cases h2; rfl
      apply Prod.ext
      · rw [hz, hw, h4]
      · omega
  have hlen : (CS.postPairs ant l).length = m.length := by rw [← hperm.length_eq, List.length_map]
  unfold CS.overall
  simp only
  by_cases hm0 : m = []
  · rw [if_pos hm0, if_pos (by rw [hlen, hm0]; rfl)]
  · rw [if_neg hm0, if_neg (by rw [hlen]; exact fun h => hm0 (List.length_eq_zero_iff.1 h))]
    rw [dot_of_perm _ toKey m hperm (fun k => size df k.1) (fun k => didKey df ant k.1 k.2)
      (fun x hx => (hpair x hx).2.choose_spec.2.2.2.2.2) (fun x hx => (hpair x hx).2.choose_spec.2.2.2.2.1)]
    rfl

/-- C136: without anticipation, the overall effects of the two estimators are the same number, whichever base period
Callaway-Sant'Anna uses; when no treated cell is reported it is NaN there and zero here. -/
theorem C136_overall (reg : List (List K) → List K → Option (Reg K)) (hreg : SolvesLS reg) (c : Control)
    (df : List (Row K)) (U : List ℕ) (T : List ℤ) (co : ℕ → Coh) (hR : Regular 0 df U T co)
    (R : Results K) (h : fit reg 0 c df = .ok R) (cfg : Cfg) (hctl : cfg.ctl = .never) (hant : cfg.ant = 0) :
    R.overall.1 = some ((CS.overall 0 (CS.effects cfg (pivot df))).getD 0) ∧
    (CS.overall 0 (CS.effects cfg (pivot df)) = none ↔ ∀ k v, (k, v) ∈ R.cohortEffects → k.2 < 0) := by
  have hcs := overall_cs hR (fit_never h) cfg hctl hant
  rw [neg_zero] at hcs
  rw [hcs, overall_sa reg hreg 0 c df U T co hR R h]
  obtain ⟨_, _, f, _, _, _, hce, _⟩ := fit_ok h
  rw [hR.sample c] at hce
  constructor
  · by_cases h0 : keysFrom df 0 0 = []
    · rw [if_pos h0, h0]
      simp [avg]
    · rw [if_neg h0]
      rfl
  · have : (if keysFrom df 0 0 = [] then none else some (avg df 0 (keysFrom df 0 0))) = none ↔ keysFrom df 0 0 = [] := by
      split_ifs with h0 <;> simp [h0]
    rw [this, List.eq_nil_iff_forall_not_mem]
    unfold keysFrom
    constructor
    · intro h2 k v hk
      rw [hce] at hk
      obtain ⟨k', hk', heq⟩ := List.mem_map.1 hk
      rw [← (Prod.mk.inj heq).1]
      by_contra h3
      exact h2 k' (List.mem_filter.2 ⟨hk', by simpa using h3⟩)
    · intro h2 k hk
      obtain ⟨h3, h4⟩ := List.mem_filter.1 hk
      have := h2 k _ (by rw [hce]; exact List.mem_map.2 ⟨k, h3, rfl⟩)
      rw [decide_eq_true_eq] at h4
      omega

end DiffDiff.SunAb
