/-
Property C136, continued: the Callaway-Sant'Anna estimates of the same data frame, event studies and overall effects.
-/
import Verif.SunAbCsProps

set_option linter.unusedSectionVars false

namespace DiffDiff.SunAb

open CS (Coh Cfg Panel Entry attGt basePeriod treatedSet controlSet)

variable {K : Type*} [Field K] [LinearOrder K] [IsStrictOrderedRing K]
variable {ant : ℤ} {df : List (Row K)} {U : List ℕ} {T : List ℤ} {co : ℕ → Coh}

/-! ### The pivoted panel -/

theorem units_nodup (df : List (Row K)) : (units df).Nodup := List.nodup_dedup _

theorem mem_units {u : ℕ} : u ∈ units df ↔ ∃ r ∈ df, r.unit = u := by
  unfold units
  rw [List.mem_dedup, List.mem_map]

theorem Base.units (h : Base ant df U T co) {t : ℤ} (ht : t ∈ T) : (units df).toFinset = U.toFinset := by
  ext u
  rw [List.mem_toFinset, List.mem_toFinset, mem_units]
  constructor
  · rintro ⟨r, hr, rfl⟩
    exact (h.grid.mem r hr).1
  · intro hu
    obtain ⟨r, hr, h1, _⟩ := h.grid.cell hu ht
    exact ⟨r, hr, h1⟩

theorem Base.unitCohort (h : Base ant df U T co) {u : ℕ} (hu : u ∈ SunAb.units df) : SunAb.unitCohort df u = co u := by
  obtain ⟨r, hr, rfl⟩ := mem_units.1 hu
  unfold SunAb.unitCohort
  have hne : co r.unit ≠ .nan := by
    intro h0
    have := h.value r hr
    rw [h.cohort r hr, h0] at this
    rcases this with h | ⟨g, _, h, _⟩
    · simp [Coh.isNever] at h
    · cases h
  cases hf : ((df.filter (fun s => decide (s.unit = r.unit))).map (fun s => s.cohort)).find? (fun c => decide (c ≠ .nan)) with
  | none =>
    rw [List.find?_eq_none] at hf
    have := hf r.cohort (List.mem_map.2 ⟨r, List.mem_filter.2 ⟨hr, by simp⟩, rfl⟩)
    rw [h.cohort r hr] at this
    simp [hne] at this
  | some c =>
    obtain ⟨s, hs, rfl⟩ := List.mem_map.1 (List.mem_of_find?_eq_some hf)
    obtain ⟨hs1, hs2⟩ := List.mem_filter.1 hs
    rw [decide_eq_true_eq] at hs2
    show s.cohort = co r.unit
    rw [h.cohort s hs1, hs2]

theorem Base.times (h : Base ant df U T co) {u : ℕ} (hu : u ∈ U) (t : ℤ) : t ∈ (pivot df).times ↔ t ∈ T := by
  show t ∈ (df.map (fun r => r.time)).dedup.insertionSort (· ≤ ·) ↔ _
  rw [List.mem_insertionSort, List.mem_dedup, List.mem_map]
  constructor
  · rintro ⟨r, hr, rfl⟩
    exact (h.grid.mem r hr).2
  · intro ht
    obtain ⟨r, hr, _, h2⟩ := h.grid.cell hu ht
    exact ⟨r, hr, h2⟩

theorem Base.look_some (h : Base ant df U T co) {u : ℕ} (hu : u ∈ SunAb.units df) {t : ℤ} (ht : t ∈ T) :
    (look df u t).isSome = true := by
  obtain ⟨r, hr, rfl⟩ := mem_units.1 hu
  obtain ⟨s, hs, h1, h2⟩ := h.grid.cell (h.grid.mem r hr).1 ht
  rw [← h1, ← h2, look_row h.grid hs]
  exact h.observed s hs

/-- Sums over the units of the pivoted panel. -/
theorem Base.sum_units (h : Base ant df U T co) {t : ℤ} (ht : t ∈ T) (F : ℕ → K) :
    ∑ i : Fin (SunAb.units df).length, F ((SunAb.units df).get i) = ∑ u ∈ U.toFinset, F u := by
  rw [← h.units ht, List.sum_toFinset _ (units_nodup df)]
  exact Fin.sum_univ_fun_getElem (SunAb.units df) F

theorem Base.mean_units (h : Base ant df U T co) {t : ℤ} (ht : t ∈ T) (p : Coh → Prop) [DecidablePred p] (F : ℕ → K) :
    CS.mean (Finset.univ.filter (fun i : Fin (SunAb.units df).length => p ((pivot df).cohort i)))
      (fun i => F ((SunAb.units df).get i)) = CS.mean (U.toFinset.filter (fun u => p (co u))) F := by
  have hc : ∀ i : Fin (SunAb.units df).length, (pivot df).cohort i = co ((SunAb.units df).get i) :=
    fun i => h.unitCohort (List.get_mem _ i)
  have hs : ∀ F : ℕ → K, ∑ i ∈ Finset.univ.filter (fun i : Fin (SunAb.units df).length => p ((pivot df).cohort i)),
      F ((SunAb.units df).get i) = ∑ u ∈ U.toFinset.filter (fun u => p (co u)), F u := by
    intro F
    rw [Finset.sum_filter, Finset.sum_filter, ← h.sum_units ht]
    exact Finset.sum_congr rfl (fun i _ => by rw [hc i])
  unfold CS.mean
  congr 1
  · exact hs F
  · have := hs (fun _ => 1)
    simpa using this

theorem Base.card_units (h : Base ant df U T co) (g : Coh) :
    (Finset.univ.filter (fun i : Fin (SunAb.units df).length => (pivot df).cohort i = g)).card = size df g := by
  have h1 := Fin.sum_univ_fun_getElem (SunAb.units df) (fun u => if SunAb.unitCohort df u = g then 1 else 0)
  rw [Finset.card_filter]
  refine h1.trans ?_
  unfold size
  generalize SunAb.units df = l
  induction l with
  | nil => rfl
  | cons a as ih =>
    rw [List.map_cons, List.sum_cons, List.filter_cons, ih]
    by_cases hg : SunAb.unitCohort df a = g
    · simp [hg, add_comm]
    · simp [hg]

theorem mean_sub' {ι : Type*} (S : Finset ι) (f g : ι → K) : CS.mean S (fun i => f i - g i) = CS.mean S f - CS.mean S g := by
  unfold CS.mean
  rw [Finset.sum_sub_distrib, sub_div]

/-- The group-time effect of the pivoted panel: it exists, equals the difference of cell means, and counts the cohort. -/
theorem Base.attGt (h : Base ant df U T co) (c : Cfg) (hctl : c.ctl = .never) {g b t : ℤ}
    (hb : basePeriod c (.num g) t = some b) (hbT : b ∈ T) (htT : t ∈ T) (hgr : ∃ r ∈ df, r.cohort = .num g)
    (hnr : ∃ r ∈ df, r.cohort.isNever = true) :
    ∃ E, attGt c (pivot df) (.num g) t = some E ∧ E.effect = did df g b t ∧ E.nT = size df (.num g) := by
  obtain ⟨rg, hrg, hrgc⟩ := hgr
  obtain ⟨rn, hrn, hrnc⟩ := hnr
  have hu := (h.grid.mem rg hrg).1
  have hv : ∀ i : Fin (SunAb.units df).length, ∀ s ∈ T, ((pivot df).y i s).isSome = true :=
    fun i s hs => h.look_some (List.get_mem _ i) hs
  have hTs : treatedSet (pivot df) (.num g) b t =
      Finset.univ.filter (fun i : Fin (SunAb.units df).length => (pivot df).cohort i = .num g) := by
    ext i
    rw [CS.mem_treatedSet]
    simp [hv i b hbT, hv i t htT]
  have hCs : controlSet c (pivot df) (.num g) b t =
      Finset.univ.filter (fun i : Fin (SunAb.units df).length => ((pivot df).cohort i).isNever = true) := by
    ext i
    rw [CS.mem_controlSet]
    simp [hv i b hbT, hv i t htT, CS.controlMask, hctl]
  have hin : ∀ r ∈ df, ∃ i : Fin (SunAb.units df).length, (pivot df).cohort i = r.cohort := by
    intro r hr
    have hm : r.unit ∈ SunAb.units df := mem_units.2 ⟨r, hr, rfl⟩
    obtain ⟨i, hi⟩ := List.get_of_mem hm
    exact ⟨i, by show SunAb.unitCohort df _ = _; rw [hi, h.unitCohort hm, h.cohort r hr]⟩
  have hT0 : (treatedSet (pivot df) (.num g) b t).card ≠ 0 := by
    rw [hTs, Finset.card_ne_zero]
    obtain ⟨i, hi⟩ := hin rg hrg
    exact ⟨i, by simp [hi, hrgc]⟩
  have hC0 : (controlSet c (pivot df) (.num g) b t).card ≠ 0 := by
    rw [hCs, Finset.card_ne_zero]
    obtain ⟨i, hi⟩ := hin rn hrn
    exact ⟨i, by simp [hi, hrnc]⟩
  refine ⟨_, by
    unfold CS.attGt
    rw [hb]
    simp only
    rw [if_neg (not_not.2 ((h.times hu b).2 hbT)), if_neg (not_not.2 ((h.times hu t).2 htT)),
      if_neg (not_or.2 ⟨hT0, hC0⟩)], ?_, ?_⟩
  · show CS.mean _ _ - CS.mean _ _ = _
    have hch : CS.change (pivot df) b t = fun i => (fun u => (look df u t).getD 0 - (look df u b).getD 0)
        ((SunAb.units df).get i) := rfl
    rw [hTs, hCs, hch, h.mean_units htT (fun c => c = .num g) (fun u => (look df u t).getD 0 - (look df u b).getD 0),
      h.mean_units htT (fun c => c.isNever = true) (fun u => (look df u t).getD 0 - (look df u b).getD 0), mean_sub',
      mean_sub']
    unfold did
    rw [rowMean_cell h.grid co h.cohort _ htT, rowMean_cell h.grid co h.cohort _ hbT,
      rowMean_cell h.grid co h.cohort _ htT, rowMean_cell h.grid co h.cohort _ hbT]
    simp only [decide_eq_true_eq]
  · show (treatedSet _ _ _ _).card = _
    rw [hTs, h.card_units]

theorem Base.mem_groups (h : Base ant df U T co) (g : ℤ) :
    Coh.num g ∈ CS.groups (pivot df) ↔ 0 < g ∧ ∃ r ∈ df, r.cohort = .num g := by
  unfold CS.groups
  rw [List.mem_insertionSort, List.mem_filter, List.mem_dedup, List.mem_map, and_comm]
  refine and_congr (by simp [Coh.pos]) ?_
  constructor
  · rintro ⟨i, _, hi⟩
    have hm := List.get_mem (SunAb.units df) i
    obtain ⟨r, hr, hru⟩ := mem_units.1 hm
    refine ⟨r, hr, ?_⟩
    rw [h.cohort r hr, hru, ← h.unitCohort hm]
    exact hi
  · rintro ⟨r, hr, hrc⟩
    have hm : r.unit ∈ SunAb.units df := mem_units.2 ⟨r, hr, rfl⟩
    obtain ⟨i, hi⟩ := List.get_of_mem hm
    exact ⟨i, List.mem_finRange i, by show SunAb.unitCohort df _ = _; rw [hi, h.unitCohort hm, ← h.cohort r hr, hrc]⟩

theorem mem_effects_iff {n : ℕ} {c : Cfg} {P : Panel n K} {g : Coh} {t : ℤ} {E : Entry n K} :
    ((g, t), E) ∈ CS.effects c P ↔ g ∈ CS.groups P ∧ t ∈ CS.validPeriods c P g ∧ attGt c P g t = some E := by
  constructor
  · exact fun h => CS.mem_effects h
  · rintro ⟨h1, h2, h3⟩
    unfold CS.effects
    rw [List.mem_flatMap]
    refine ⟨g, h1, List.mem_filterMap.2 ⟨t, h2, by rw [h3]; rfl⟩⟩

/-- Effects of a cohort with its own reference period as base: all of them with a universal base period, those from
`anticipation` periods before treatment onwards with a varying one. -/
def LongBase (c : Cfg) (g t : ℤ) : Prop := c.base = .universal ∨ g - c.ant ≤ t

/-- Callaway-Sant'Anna reports exactly the cells that are columns of the Sun-Abraham regression. -/
theorem Regular.mem_effects (h : Regular ant df U T co) (c : Cfg) (hctl : c.ctl = .never) (hant : c.ant = ant)
    (hnr : ∃ r ∈ df, r.cohort.isNever = true) (g t : ℤ) (hl : LongBase c g t) (E : Entry (SunAb.units df).length K) :
    (((.num g, t), E) ∈ CS.effects c (pivot df) → (Coh.num g, t - g) ∈ keys (groups df) (relPeriods ant df) df ∧
      E.effect = did df g (g - 1 - ant) t ∧ E.nT = size df (.num g)) ∧
    ((Coh.num g, t - g) ∈ keys (groups df) (relPeriods ant df) df →
      ∃ E, ((.num g, t), E) ∈ CS.effects c (pivot df)) := by
  have hbase : basePeriod c (.num g) t = some (g - 1 - ant) := by
    rw [CS.basePeriod_num]
    rcases hl with hu | hp
    · rw [hu, if_neg (by rintro ⟨h, _⟩; cases h), hant]
    · rw [if_neg (by rintro ⟨_, h⟩; omega), hant]
  have hvalid : ∀ hu : t ∈ (pivot df).times, (t ∈ CS.validPeriods c (pivot df) (.num g) ↔ t ≠ g - 1 - ant) := by
    intro hu
    unfold CS.validPeriods
    cases hb : c.base with
    | universal =>
      simp only
      rw [List.mem_filter, hant]
      simp [hu]
    | varying =>
      rcases hl with h' | hp
      · rw [hb] at h'; cases h'
      · simp only
        rw [List.mem_filter]
        constructor
        · intro _; omega
        · intro _
          refine ⟨hu, ?_⟩
          simp [Coh.post, hp]
  obtain ⟨rn, hrn, _⟩ := id hnr
  have hu0 := (h.grid.mem rn hrn).1
  constructor
  · intro hm
    obtain ⟨h1, h2, h3⟩ := mem_effects_iff.1 hm
    obtain ⟨hg, rg, hrg, hrgc⟩ := (h.mem_groups g).1 h1
    obtain ⟨b, hb, hbT, htT, _⟩ := CS.attGt_some h3
    rw [hbase] at hb
    cases hb
    have htT' := (h.times hu0 t).1 htT
    obtain ⟨E', hE', he, hn⟩ := h.attGt c hctl hbase ((h.times hu0 _).1 hbT) htT' ⟨rg, hrg, hrgc⟩ hnr
    rw [h3] at hE'
    cases hE'
    refine ⟨(h.mem_keys _).2 ⟨?_, ?_⟩, he, hn⟩
    · have := (hvalid htT).1 h2
      show t - g ≠ -1 - ant
      omega
    · obtain ⟨r, hr, hr1, hr2⟩ := h.grid.cell (h.grid.mem rg hrg).1 htT'
      have hrc : r.cohort = .num g := by rw [h.cohort r hr, hr1, ← h.cohort rg hrg, hrgc]
      exact ⟨r, hr, hrc, by unfold relTime; rw [hrc]; simp [finPos, hg, hr2]⟩
  · intro hk
    obtain ⟨hne, r, hr, hrc, hrel⟩ := (h.mem_keys _).1 hk
    obtain ⟨z, hz, hcz, he⟩ := relTime_some hrel
    have hzg : z = g := by rw [hrc] at hcz; cases hcz; rfl
    subst hzg
    have htt : t = r.time := by
      have : t - z = r.time - z := he
      omega
    have htT : t ∈ T := htt ▸ (h.grid.mem r hr).2
    obtain ⟨E, hE, _⟩ := h.attGt c hctl hbase (h.ref hr (by rw [hrc]; simp [finPos, hz])).2.2 htT ⟨r, hr, hrc⟩ hnr
    refine ⟨E, mem_effects_iff.2 ⟨(h.mem_groups z).2 ⟨hz, r, hr, hrc⟩, (hvalid ((h.times hu0 t).2 htT)).2 ?_, hE⟩⟩
    have : t - z ≠ -1 - ant := hne
    omega

theorem fit_never {reg : List (List K) → List K → Option (Reg K)} {c : Control} {R : Results K}
    (h : fit reg ant c df = .ok R) : ∃ r ∈ df, r.cohort.isNever = true := by
  obtain ⟨hnc, _⟩ := fit_ok h
  have hne : (SunAb.units df).filter (fun u => unitNever df u) ≠ [] := by
    intro h0
    apply hnc
    unfold nControl
    rw [h0]; rfl
  obtain ⟨u, hu⟩ := List.exists_mem_of_ne_nil _ hne
  have hu2 := (List.mem_filter.1 hu).2
  unfold unitNever at hu2
  cases hl : df.filter (fun r => decide (r.unit = u)) with
  | nil => rw [hl] at hu2; simp at hu2
  | cons r rs =>
    rw [hl] at hu2
    have hr : r ∈ df.filter (fun r => decide (r.unit = u)) := by rw [hl]; exact List.mem_cons_self ..
    exact ⟨r, (List.mem_filter.1 hr).1, by simpa using hu2⟩

/-- C136: with never-treated controls, the group-time effects of Callaway-Sant'Anna on the same data frame are exactly the
Sun-Abraham cohort effects, cell by cell: all of them with a universal base period, and those from `anticipation` periods
before treatment onwards with a varying one. Outcomes are arbitrary. -/
theorem C136_group_time (reg : List (List K) → List K → Option (Reg K)) (hreg : SolvesLS reg) (ant : ℤ) (c : Control)
    (df : List (Row K)) (U : List ℕ) (T : List ℤ) (co : ℕ → Coh) (hR : Regular ant df U T co)
    (R : Results K) (h : fit reg ant c df = .ok R) (cfg : Cfg) (hctl : cfg.ctl = .never) (hant : cfg.ant = ant)
    (g t : ℤ) (hl : LongBase cfg g t) (v : K) :
    ((.num g, t - g), some v) ∈ R.cohortEffects ↔ ∃ E, ((.num g, t), E) ∈ CS.effects cfg (pivot df) ∧ E.effect = v := by
  have hnr := fit_never h
  obtain ⟨_, _, f, _, _, _, hce, _⟩ := fit_ok h
  rw [hR.sample c] at hce
  constructor
  · intro hm
    obtain ⟨g', hg', hv⟩ := C136_cohort_effects reg hreg ant c df U T co hR R h _ _ hm
    cases hg'
    have hk : (Coh.num g, t - g) ∈ keys (groups df) (relPeriods ant df) df := by
      rw [hce] at hm
      obtain ⟨k, hk, heq⟩ := List.mem_map.1 hm
      rw [← (Prod.mk.inj heq).1]
      exact hk
    obtain ⟨E, hE⟩ := (hR.mem_effects cfg hctl hant hnr g t hl ⟨0, 0, 0, 0, ∅, ∅, 0, 0⟩).2 hk
    refine ⟨E, hE, ?_⟩
    rw [((hR.mem_effects cfg hctl hant hnr g t hl E).1 hE).2.1]
    have : g + (t - g) = t := by ring
    simp only [this] at hv
    exact (Option.some.inj hv).symm
  · rintro ⟨E, hE, rfl⟩
    obtain ⟨hk, he, _⟩ := (hR.mem_effects cfg hctl hant hnr g t hl E).1 hE
    have hm : ((Coh.num g, t - g), coefOf (keys (groups df) (relPeriods ant df) df) f (.num g, t - g)) ∈ R.cohortEffects := by
      rw [hce]
      exact List.mem_map.2 ⟨_, hk, rfl⟩
    obtain ⟨g', hg', hv⟩ := C136_cohort_effects reg hreg ant c df U T co hR R h _ _ hm
    cases hg'
    have : g + (t - g) = t := by ring
    simp only [this] at hv
    rw [hv, ← he] at hm
    exact hm

/-! ### Event studies -/

theorem effects_keys_nodup {n : ℕ} (c : Cfg) (P : Panel n K) (ht : P.times.Nodup) :
    ((CS.effects c P).map (fun x => x.1)).Nodup := by
  unfold CS.effects
  rw [List.map_flatMap]
  have hg : (CS.groups P).Nodup := by
    unfold CS.groups
    exact ((List.perm_insertionSort _ _).nodup_iff).2 ((List.nodup_dedup _).filter _)
  have hv : ∀ g, (CS.validPeriods c P g).Nodup := by
    intro g
    unfold CS.validPeriods
    split <;> exact ht.filter _
  have hm : ∀ g, ((CS.validPeriods c P g).filterMap (fun t => (attGt c P g t).map (fun e => ((g, t), e)))).map (fun x => x.1) =
      ((CS.validPeriods c P g).filter (fun t => (attGt c P g t).isSome)).map (fun t => (g, t)) := by
    intro g
    induction CS.validPeriods c P g with
    | nil => rfl
    | cons t ts ih =>
      rw [List.filterMap_cons, List.filter_cons]
      cases ha : attGt c P g t with
      | none => simpa [ha] using ih
      | some E => simpa [ha] using ih
  rw [List.nodup_flatMap]
  constructor
  · intro g _
    rw [hm g]
    exact ((hv g).filter _).map (fun a b h => (Prod.mk.inj h).2)
  · refine hg.imp ?_
    intro a b hab x hx hx'
    simp only [hm] at hx hx'
    obtain ⟨_, _, rfl⟩ := List.mem_map.1 hx
    obtain ⟨_, _, h2⟩ := List.mem_map.1 hx'
    exact hab (Prod.mk.inj h2).1.symm

/-- The cells of event time `e` used by the two estimators are the same. -/
theorem Regular.atRel_perm (h : Regular ant df U T co) (c : Cfg) (hctl : c.ctl = .never) (hant : c.ant = ant)
    (hu : c.base = .universal) (hnr : ∃ r ∈ df, r.cohort.isNever = true) (e : ℤ) :
    ((CS.atRel (CS.effects c (pivot df)) (e : WithBot ℤ)).map (fun x => x.1.1)).Perm
      (cohortsAt (groups df) (keys (groups df) (relPeriods ant df) df) e) := by
  have hnd := effects_keys_nodup c (pivot df) (((List.perm_insertionSort _ _).nodup_iff).2 (List.nodup_dedup _))
  have hk : ∀ x ∈ CS.atRel (CS.effects c (pivot df)) (e : WithBot ℤ), x ∈ CS.effects c (pivot df) ∧
      ∃ g : ℤ, x.1 = (.num g, g + e) := by
    intro x hx
    unfold CS.atRel at hx
    rw [List.mem_filter, decide_eq_true_eq] at hx
    refine ⟨hx.1, ?_⟩
    obtain ⟨⟨g, t⟩, E⟩ := x
    cases g with
    | num z =>
      refine ⟨z, ?_⟩
      have : ((t - z : ℤ) : WithBot ℤ) = (e : WithBot ℤ) := hx.2
      have := WithBot.coe_inj.1 this
      show (Coh.num z, t) = _
      rw [← this]
      simp
    | inf => exact absurd hx.2 (by simp [Coh.rel])
    | nan => exact absurd hx.2 (by simp [Coh.rel])
  rw [List.perm_ext_iff_of_nodup]
  · intro g
    constructor
    · intro hg
      obtain ⟨x, hx, rfl⟩ := List.mem_map.1 hg
      obtain ⟨hx1, z, hz⟩ := hk x hx
      have hx2 : ((Coh.num z, z + e), x.2) ∈ CS.effects c (pivot df) := by rw [← hz]; exact hx1
      have := ((h.mem_effects c hctl hant hnr z (z + e) (Or.inl hu) x.2).1 hx2).1
      rw [add_sub_cancel_left] at this
      unfold cohortsAt
      rw [List.mem_filter, decide_eq_true_eq, hz]
      exact ⟨(SunAb.mem_keys.1 this).1, this⟩
    · intro hg
      unfold cohortsAt at hg
      rw [List.mem_filter, decide_eq_true_eq] at hg
      obtain ⟨_, r, hr, hrc, hrel⟩ := (h.mem_keys _).1 hg.2
      obtain ⟨z, hz, hcz, _⟩ := relTime_some hrel
      have hgz : g = .num z := by rw [← hcz]; exact hrc.symm
      subst hgz
      obtain ⟨E, hE⟩ := (h.mem_effects c hctl hant hnr z (z + e) (Or.inl hu) ⟨0, 0, 0, 0, ∅, ∅, 0, 0⟩).2
        (by rw [add_sub_cancel_left]; exact hg.2)
      refine List.mem_map.2 ⟨((.num z, z + e), E), ?_, rfl⟩
      unfold CS.atRel
      rw [List.mem_filter, decide_eq_true_eq]
      exact ⟨hE, by show ((z + e - z : ℤ) : WithBot ℤ) = _; rw [add_sub_cancel_left]⟩
  · have h1 : ((CS.atRel (CS.effects c (pivot df)) (e : WithBot ℤ)).map (fun x => x.1)).Nodup :=
      hnd.sublist (List.filter_sublist.map _)
    rw [List.nodup_map_iff_inj_on]
    · intro x hx y hy hxy
      obtain ⟨_, z, hz⟩ := hk x hx
      obtain ⟨_, w, hw⟩ := hk y hy
      apply List.inj_on_of_nodup_map h1 hx hy
      rw [hz, hw] at hxy ⊢
      cases hxy
      rfl
    · exact h1.of_map
  · exact (groups_nodup df).filter _

/-- Weighted average over keys, from a list of reported effects whose counts and effects are functions of the key. -/
theorem dot_of_perm {n : ℕ} {α : Type*} (l : List ((Coh × ℤ) × Entry n K)) (key : (Coh × ℤ) × Entry n K → α)
    (m : List α) (hp : (l.map key).Perm m) (w : α → ℕ) (d : α → K)
    (hw : ∀ x ∈ l, x.2.nT = w (key x)) (hd : ∀ x ∈ l, x.2.effect = d (key x)) :
    CS.dot (CS.sizeWeights l) (l.map (fun x => x.2.effect)) =
      (m.map (fun a => (w a : K) * d a)).sum / (m.map (fun a => (w a : K))).sum := by
  rw [CS.dot_sizeWeights]
  congr 1
  · rw [← (hp.map (fun a => (w a : K) * d a)).sum_eq, List.map_map]
    exact congrArg List.sum (List.map_congr_left (fun x hx => by simp [hw x hx, hd x hx]))
  · rw [← (hp.map (fun a => (w a : K))).sum_eq, List.map_map]
    exact congrArg List.sum (List.map_congr_left (fun x hx => by simp [hw x hx]))

theorem weights_dot (df : List (Row K)) (cs : List Coh) (d : Coh → K) :
    ((weights df cs).map (fun p => p.2 * d p.1)).sum =
      (cs.map (fun g => (size df g : K) * d g)).sum / (cs.map (fun g => (size df g : K))).sum := by
  unfold weights totalSize
  rw [cast_list_sum, List.map_map, ← CS.sum_map_div]
  apply congrArg List.sum
  apply List.map_congr_left
  intro g _
  show (size df g : K) / _ * d g = _
  ring

theorem coef_did (reg : List (List K) → List K → Option (Reg K)) (hreg : SolvesLS reg) (ant : ℤ) (c : Control)
    (df : List (Row K)) (U : List ℕ) (T : List ℤ) (co : ℕ → Coh) (hR : Regular ant df U T co)
    (R : Results K) (h : fit reg ant c df = .ok R) (f : Reg K)
    (hce : R.cohortEffects = (keys (groups df) (relPeriods ant df) df).map
      (fun k => (k, coefOf (keys (groups df) (relPeriods ant df) df) f k)))
    (k : Key) (hk : k ∈ keys (groups df) (relPeriods ant df) df) :
    coefOf (keys (groups df) (relPeriods ant df) df) f k = some (didKey df ant k.1 k.2) := by
  have hm : (k, coefOf (keys (groups df) (relPeriods ant df) df) f k) ∈ R.cohortEffects := by
    rw [hce]
    exact List.mem_map.2 ⟨_, hk, rfl⟩
  obtain ⟨g, hg, hv⟩ := C136_cohort_effects reg hreg ant c df U T co hR R h _ _ hm
  rw [hv, hg]
  rfl

/-- C136: with a universal base period and never-treated controls, the event study of Callaway-Sant'Anna on the same data
frame has the same effects and numbers of cohorts as that of Sun-Abraham; it has one more entry, the reference period. -/
theorem C136_event_study (reg : List (List K) → List K → Option (Reg K)) (hreg : SolvesLS reg) (ant : ℤ) (c : Control)
    (df : List (Row K)) (U : List ℕ) (T : List ℤ) (co : ℕ → Coh) (hR : Regular ant df U T co)
    (R : Results K) (h : fit reg ant c df = .ok R) (cfg : Cfg) (hctl : cfg.ctl = .never) (hant : cfg.ant = ant)
    (hu : cfg.base = .universal) (e : ℤ) (v : K) (m : ℕ) :
    ((e : WithBot ℤ), (v, m)) ∈ CS.eventStudy cfg none (CS.effects cfg (pivot df)) ↔
      (∃ ev ∈ R.events, ev.e = e ∧ ev.effect = some v ∧ ev.nGroups = m) ∨ (e = -1 - ant ∧ v = 0 ∧ m = 0 ∧ R.events ≠ []) := by
  have hnr := fit_never h
  obtain ⟨_, _, f, _, he, _, hce, _⟩ := fit_ok h
  rw [hR.sample c] at he hce
  have hcoef := coef_did reg hreg ant c df U T co hR R h f hce
  set ks := keys (groups df) (relPeriods ant df) df with hks
  set l := CS.effects cfg (pivot df) with hldef
  -- one event time
  have hval : ∀ e : ℤ, CS.dot (CS.sizeWeights (CS.atRel l e)) ((CS.atRel l e).map (fun x => x.2.effect)) =
        ((weights df (cohortsAt (groups df) ks e)).map (fun p => p.2 * didKey df ant p.1 e)).sum ∧
      (CS.atRel l e).length = (cohortsAt (groups df) ks e).length := by
    intro e
    have hp := hR.atRel_perm cfg hctl hant hu hnr e
    constructor
    · rw [weights_dot df _ (fun g => didKey df ant g e)]
      apply dot_of_perm _ (fun x => x.1.1) _ hp (fun g => size df g) (fun g => didKey df ant g e)
      all_goals
        intro x hx
        unfold CS.atRel at hx
        rw [List.mem_filter, decide_eq_true_eq] at hx
        obtain ⟨⟨g, t⟩, E⟩ := x
        cases g with
        | num z =>
          obtain ⟨_, h2, h3⟩ := (hR.mem_effects cfg hctl hant hnr z t (Or.inl hu) E).1 hx.1
          have ht : t - z = e := WithBot.coe_inj.1 hx.2
          have ht : z + e = t := by omega
          first
          | exact h3
          | (show E.effect = did df z (z - 1 - ant) (z + e); rw [ht]; exact h2)
        | inf => exact absurd hx.2 (by simp [Coh.rel])
        | nan => exact absurd hx.2 (by simp [Coh.rel])
    · rw [← hp.length_eq, List.length_map]
  -- reported event times
  have hsize : ∀ e, cohortsAt (groups df) ks e ≠ [] → totalSize df (cohortsAt (groups df) ks e) ≠ 0 := by
    intro e hne
    obtain ⟨g, hg⟩ := List.exists_mem_of_ne_nil _ hne
    have hgk := (List.mem_filter.1 hg).2
    rw [decide_eq_true_eq] at hgk
    obtain ⟨_, r, hr, hrc, _⟩ := (hR.mem_keys _).1 hgk
    have hpos : 0 < size df g := by
      unfold size
      apply List.length_pos_of_mem (a := r.unit)
      rw [List.mem_filter, decide_eq_true_eq]
      have hm : r.unit ∈ SunAb.units df := mem_units.2 ⟨r, hr, rfl⟩
      exact ⟨hm, by rw [hR.unitCohort hm, ← hR.cohort r hr]; exact hrc⟩
    unfold totalSize
    have : size df g ≤ ((cohortsAt (groups df) ks e).map (size df)).sum :=
      List.single_le_sum (fun _ _ => Nat.zero_le _) _ (List.mem_map_of_mem hg)
    omega
  have hev : ∀ e : ℤ, ((∃ ev ∈ R.events, ev.e = e ∧ ev.effect = some v ∧ ev.nGroups = m) ↔
      (cohortsAt (groups df) ks e ≠ [] ∧
        ((weights df (cohortsAt (groups df) ks e)).map (fun p => p.2 * didKey df ant p.1 e)).sum = v ∧
        (cohortsAt (groups df) ks e).length = m)) ∧
      ((∃ ev ∈ R.events, ev.e = e) ↔ cohortsAt (groups df) ks e ≠ []) := by
    intro e
    have hout : ∀ ev ∈ R.events, ev.e = e → cohortsAt (groups df) ks e ≠ [] ∧
        ev.effect = some (((weights df (cohortsAt (groups df) ks e)).map (fun p => p.2 * didKey df ant p.1 e)).sum) ∧
        ev.nGroups = (cohortsAt (groups df) ks e).length := by
      intro ev hevm hee
      subst hee
      rw [he] at hevm
      obtain ⟨_, hw, hne, _, heff, _, hng⟩ := eventAt_some (mem_iw hevm).2
      refine ⟨hne, ?_, hng⟩
      rw [heff, hw]
      apply osum_some
      intro p hp
      obtain ⟨g, hg, rfl⟩ := List.mem_map.1 hp
      have hk := (List.mem_filter.1 hg).2
      rw [decide_eq_true_eq] at hk
      rw [hcoef _ hk]
      rfl
    have hin : cohortsAt (groups df) ks e ≠ [] → ∃ ev ∈ R.events, ev.e = e := by
      intro hne
      obtain ⟨g, hg⟩ := List.exists_mem_of_ne_nil _ hne
      have hgk := (List.mem_filter.1 hg).2
      rw [decide_eq_true_eq] at hgk
      have hmr := (SunAb.mem_keys.1 hgk).2.1
      cases hea : eventAt df (groups df) ks f e with
      | none =>
        unfold eventAt at hea
        simp only at hea
        rw [if_neg hne, if_neg (hsize e hne)] at hea
        cases hea
      | some ev =>
        refine ⟨ev, ?_, (eventAt_some hea).1⟩
        rw [he]
        exact List.mem_filterMap.2 ⟨e, hmr, hea⟩
    refine ⟨⟨?_, ?_⟩, ?_, hin⟩
    · rintro ⟨ev, hevm, hee, hv, hn⟩
      obtain ⟨h1, h2, h3⟩ := hout ev hevm hee
      rw [h2] at hv
      exact ⟨h1, Option.some.inj hv, by rw [← h3, hn]⟩
    · rintro ⟨hne, hv, hn⟩
      obtain ⟨ev, hevm, hee⟩ := hin hne
      obtain ⟨_, h2, h3⟩ := hout ev hevm hee
      exact ⟨ev, hevm, hee, by rw [h2, hv], by rw [h3, hn]⟩
    · rintro ⟨ev, hevm, hee⟩
      exact (hout ev hevm hee).1
  -- the Callaway-Sant'Anna event study
  have hrt : ∀ e : ℤ, ((e : WithBot ℤ) ∈ CS.relTimes l ↔ cohortsAt (groups df) ks e ≠ []) := by
    intro e
    have hp := hR.atRel_perm cfg hctl hant hu hnr e
    have h1 : (CS.atRel l e) ≠ [] ↔ cohortsAt (groups df) ks e ≠ [] := by
      rw [← List.length_pos_iff, ← List.length_pos_iff, ← hp.length_eq, List.length_map]
    rw [← h1, CS.mem_relTimes]
    constructor
    · rintro ⟨x, hx, hxe⟩
      exact List.ne_nil_of_mem (List.mem_filter.2 ⟨hx, by rw [decide_eq_true_eq]; exact hxe⟩)
    · intro hne
      obtain ⟨x, hx⟩ := List.exists_mem_of_ne_nil _ hne
      obtain ⟨hx1, hx2⟩ := List.mem_filter.1 hx
      rw [decide_eq_true_eq] at hx2
      exact ⟨x, hx1, hx2⟩
  have hes : ((e : WithBot ℤ), (v, m)) ∈ (CS.relTimes l).map (fun e =>
        (e, (CS.dot (CS.sizeWeights (CS.atRel l e)) ((CS.atRel l e).map (fun x => x.2.effect)), (CS.atRel l e).length))) ↔
      ∃ ev ∈ R.events, ev.e = e ∧ ev.effect = some v ∧ ev.nGroups = m := by
    rw [(hev e).1, List.mem_map]
    constructor
    · rintro ⟨e', he', heq⟩
      obtain ⟨rfl, h2⟩ := Prod.mk.inj heq
      obtain ⟨h3, h4⟩ := Prod.mk.inj h2
      rw [(hval e).1] at h3
      rw [(hval e).2] at h4
      exact ⟨(hrt e).1 he', h3, h4⟩
    · rintro ⟨hne, hv, hn⟩
      refine ⟨e, (hrt e).2 hne, ?_⟩
      rw [(hval e).1, (hval e).2, hv, hn]
  have hrefno : ((-1 - ant : ℤ) : WithBot ℤ) ∉ CS.relTimes l := by
    rw [hrt]
    intro hne
    obtain ⟨g, hg⟩ := List.exists_mem_of_ne_nil _ hne
    have hgk := (List.mem_filter.1 hg).2
    rw [decide_eq_true_eq] at hgk
    exact ((hR.mem_keys _).1 hgk).1 rfl
  have hempty : CS.relTimes l ≠ [] ↔ R.events ≠ [] := by
    constructor
    · intro hne
      obtain ⟨e', he'⟩ := List.exists_mem_of_ne_nil _ hne
      obtain ⟨x, hx, hxe⟩ := CS.mem_relTimes.1 he'
      obtain ⟨⟨g, t⟩, E⟩ := x
      cases g with
      | num z =>
        obtain ⟨ev, hevm, _⟩ := (hev (t - z)).2.2 ((hrt (t - z)).1 (CS.mem_relTimes.2 ⟨_, hx, rfl⟩))
        exact List.ne_nil_of_mem hevm
      | inf =>
        obtain ⟨b, hb, _⟩ := CS.attGt_some (CS.mem_effects hx).2.2
        unfold basePeriod at hb
        rw [hu] at hb
        cases hb
      | nan =>
        obtain ⟨b, hb, _⟩ := CS.attGt_some (CS.mem_effects hx).2.2
        unfold basePeriod at hb
        rw [hu] at hb
        cases hb
    · intro hne
      obtain ⟨ev, hevm⟩ := List.exists_mem_of_ne_nil _ hne
      exact List.ne_nil_of_mem ((hrt ev.e).2 ((hev ev.e).2.1 ⟨ev, hevm, rfl⟩))
  have hfst : ∀ F : WithBot ℤ → K × ℕ, ((CS.relTimes l).map (fun e => (e, F e))).map Prod.fst = CS.relTimes l := by
    intro F
    rw [List.map_map]
    exact List.map_id _
  unfold CS.eventStudy
  simp only [hu, CS.esPairs, hant]
  rw [hfst]
  by_cases hne : CS.relTimes l = []
  · rw [if_neg (by rintro ⟨h1, _⟩; exact h1 (by rw [hne]; rfl)), hes]
    have : R.events = [] := by
      by_contra h0
      exact hempty.2 h0 hne
    simp [this]
  · rw [if_pos ⟨by simpa using hne, hrefno⟩, List.mem_append, hes]
    apply or_congr Iff.rfl
    rw [List.mem_singleton]
    constructor
    · intro heq
      obtain ⟨h1, h2⟩ := Prod.mk.inj heq
      obtain ⟨h3, h4⟩ := Prod.mk.inj h2
      exact ⟨WithBot.coe_inj.1 h1, h3, h4, hempty.1 hne⟩
    · rintro ⟨h1, h2, h3, _⟩
      rw [h1, h2, h3]

end DiffDiff.SunAb
