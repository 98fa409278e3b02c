/-
What CallawaySantAnna reports on generate_staggered_data (C115).
-/
import Verif.DgpDidProps
import Verif.CSAggProps

set_option linter.unusedSectionVars false

namespace DiffDiff.Dgp

open CS (Panel Cfg Coh Entry attGt effects overall)

variable {K : Type*} [Field K] [LinearOrder K] [IsStrictOrderedRing K] [FloorRing K]

/-- The panel `CallawaySantAnna.fit` builds from records with units 0..n-1 (staggered.py 396-409): cohort of a unit from its
first record, sorted distinct periods, outcomes pivoted by unit and period. -/
def pivot (n : ℕ) (rows : List (SRow K)) : Panel n K where
  cohort u := ((rows.find? (fun r => decide (r.unit = u.val))).map (fun r => Coh.num r.firstTreat)).getD Coh.nan
  times := (rows.map (fun r => (r.period : ℤ))).dedup.insertionSort (· ≤ ·)
  y u t := (rows.find? (fun r => decide (r.unit = u.val ∧ (r.period : ℤ) = t))).map SRow.outcome

theorem find_map {α β : Type*} (l : List α) (p : α → Bool) (g : α → β) (v : β) (h1 : ∃ x ∈ l, p x = true)
    (h2 : ∀ x ∈ l, p x = true → g x = v) : (l.find? p).map g = some v := by
  obtain ⟨x, hx, hp⟩ := h1
  have : (l.find? p).isSome := List.find?_isSome.2 ⟨x, hx, hp⟩
  obtain ⟨a, ha⟩ := Option.isSome_iff_exists.1 this
  rw [ha, Option.map_some, h2 a (List.mem_of_find?_eq_some ha) (List.find?_some ha)]

section
variable (n T : ℕ) (f : ℕ × ℕ → SRow K) (ft : ℕ → ℤ)
  (hu : ∀ u s, (f (u, s)).unit = u) (hs : ∀ u s, (f (u, s)).period = s) (hft : ∀ u s, (f (u, s)).firstTreat = ft u)
include hu hs hft

theorem pivot_cohort (hT : 0 < T) (u : Fin n) : (pivot n ((cells n T).map f)).cohort u = .num (ft u) := by
  unfold pivot
  dsimp only
  rw [find_map _ _ _ (Coh.num (ft u))]
  · rfl
  · exact ⟨f (u, 0), List.mem_map.2 ⟨(u.1, 0), mem_cells.2 ⟨u.2, hT⟩, rfl⟩, by simp [hu]⟩
  · intro x hx hp
    obtain ⟨⟨v, s⟩, _, rfl⟩ := List.mem_map.1 hx
    have : v = u := by simpa [hu] using hp
    rw [hft, this]

theorem pivot_y (u : Fin n) (s : ℕ) (hsT : s < T) : (pivot n ((cells n T).map f)).y u (s : ℤ) = some (f (u, s)).outcome := by
  unfold pivot
  dsimp only
  rw [find_map _ _ _ (f (u, s)).outcome]
  · exact ⟨f (u, s), List.mem_map.2 ⟨(u.1, s), mem_cells.2 ⟨u.2, hsT⟩, rfl⟩, by simp [hu, hs]⟩
  · intro x hx hp
    obtain ⟨⟨v, w⟩, _, rfl⟩ := List.mem_map.1 hx
    have : v = u ∧ w = s := by simpa [hu, hs] using hp
    rw [this.1, this.2]

theorem pivot_times (hn : 0 < n) (t : ℤ) : t ∈ (pivot n ((cells n T).map f)).times ↔ 0 ≤ t ∧ t < T := by
  unfold pivot
  dsimp only
  rw [List.mem_insertionSort, List.mem_dedup]
  simp only [List.map_map, List.mem_map, Function.comp, Prod.exists, mem_cells, hs]
  constructor
  · rintro ⟨u, s, ⟨_, h⟩, rfl⟩
    omega
  · rintro ⟨a, b⟩
    exact ⟨0, t.toNat, ⟨hn, by omega⟩, by omega⟩

end

/-- The effect the generator gives cohort g in period t. -/
def stagEffect (c : StagCfg K) (g t : ℤ) : K :=
  if g ≤ t then (if c.dynamic then c.effect * (1 + c.growth * ((t - g : ℤ) : K)) else c.effect) else 0

/-- The records with the outcome replaced by its noise. -/
def noiseOnly (c : StagCfg K) (z : ℕ → K) (r : SRow K) : SRow K :=
  { r with outcome := c.noiseSd * z (c.nUnits + (r.unit * c.nPeriods + r.period)) }

theorem generateStag_ok {c : StagCfg K} {ch : ℕ → ℕ} {z : ℕ → K} {rows : List (SRow K)} (h : generateStag c ch z = .ok rows) :
    rows = (cells c.nUnits c.nPeriods).map (stagRow c ch z) ∧ 0 ≤ c.nNever ∧
      (∀ cp ∈ c.cohortPeriods, 1 ≤ cp ∧ cp < c.nPeriods) ∧ (c.nNever < c.nUnits → c.cohortPeriods ≠ []) := by
  unfold generateStag at h
  split at h
  · cases h
  · rename_i hf
    split_ifs at h with h1 h2
    cases h
    refine ⟨rfl, by omega, fun cp hcp => ?_, fun hlt he => h1 ⟨hlt, he⟩⟩
    have := List.find?_eq_none.1 hf cp hcp
    simp at this
    omega

theorem firstTreat_mem (c : StagCfg K) (ch : ℕ → ℕ) (u : ℕ) (hne : c.cohortPeriods ≠ []) (hu : ¬ (u : ℤ) < c.nNever) :
    firstTreat c ch u ∈ c.cohortPeriods := by
  unfold firstTreat
  rw [if_neg hu]
  have : ch (u - c.nNever.toNat) % c.cohortPeriods.length < c.cohortPeriods.length :=
    Nat.mod_lt _ (List.length_pos_of_ne_nil hne)
  rw [List.getD_eq_getElem _ _ this]
  exact List.getElem_mem _

/-- Effect of unit u in period s. -/
def stagEffectOf (c : StagCfg K) (ch : ℕ → ℕ) (u : ℕ) (s : ℤ) : K :=
  if 0 < firstTreat c ch u ∧ firstTreat c ch u ≤ s then
    (if c.dynamic then c.effect * (1 + c.growth * ((s - firstTreat c ch u : ℤ) : K)) else c.effect) else 0

theorem outcome_eq (c : StagCfg K) (ch : ℕ → ℕ) (z : ℕ → K) (u s : ℕ) :
    (stagRow c ch z (u, s)).outcome = 10 + c.feSd * z u + c.trend * (s : K) + stagEffectOf c ch u (s : ℤ)
      + c.noiseSd * z (c.nUnits + (u * c.nPeriods + s)) := by
  simp [stagRow, stagEffectOf]

/-- C115. `generate_staggered_data` then `CallawaySantAnna` (no covariates, no anticipation): whatever the draws, every
reported ATT(g,t) is the effect given to cohort g in period t (zero before treatment) plus the same estimator applied to
the noise. Controls: never-treated, or not-yet-treated except for pre-treatment periods with the universal base. -/
theorem C115_att (c : StagCfg K) (ch : ℕ → ℕ) (z : ℕ → K) (rows : List (SRow K)) (h : generateStag c ch z = .ok rows)
    (cfg : Cfg) (ha : cfg.ant = 0) (g t : ℤ) (hg : 0 < g) (hc : cfg.ctl = .never ∨ cfg.base = .varying ∨ g ≤ t)
    (e : Entry c.nUnits K) (he : attGt cfg (pivot c.nUnits rows) (.num g) t = some e) :
    ∃ e' : Entry c.nUnits K, attGt cfg (pivot c.nUnits (rows.map (noiseOnly c z))) (.num g) t = some e' ∧
      e.effect = stagEffect c g t + e'.effect ∧ e'.nT = e.nT ∧ e'.nC = e.nC := by
  obtain ⟨rfl, hnn, hcp, hne⟩ := generateStag_ok h
  rw [List.map_map]
  set P := pivot c.nUnits ((cells c.nUnits c.nPeriods).map (stagRow c ch z)) with hP
  set Q := pivot c.nUnits ((cells c.nUnits c.nPeriods).map (noiseOnly c z ∘ stagRow c ch z)) with hQ
  obtain ⟨b, hb, hbm, htm, hT, hC, rfl⟩ := CS.attGt_some he
  have hn : 0 < c.nUnits := by
    by_contra h0
    have h0 : c.nUnits = 0 := by omega
    apply hT
    rw [Finset.card_eq_zero, Finset.eq_empty_iff_forall_notMem]
    intro u
    exact absurd u.2 (by omega)
  have hbT := (pivot_times c.nUnits c.nPeriods (stagRow c ch z) (firstTreat c ch) (fun _ _ => rfl) (fun _ _ => rfl) (fun _ _ => rfl) hn b).1 hbm
  have htT := (pivot_times c.nUnits c.nPeriods (stagRow c ch z) (firstTreat c ch) (fun _ _ => rfl) (fun _ _ => rfl) (fun _ _ => rfl) hn t).1 htm
  have hTpos : 0 < c.nPeriods := by omega
  have hcohP : ∀ u, P.cohort u = .num (firstTreat c ch u) :=
    pivot_cohort _ _ (stagRow c ch z) (firstTreat c ch) (fun _ _ => rfl) (fun _ _ => rfl) (fun _ _ => rfl) hTpos
  have hcohQ : ∀ u, Q.cohort u = .num (firstTreat c ch u) :=
    pivot_cohort _ _ (noiseOnly c z ∘ stagRow c ch z) (firstTreat c ch) (fun _ _ => rfl) (fun _ _ => rfl) (fun _ _ => rfl) hTpos
  have hyP : ∀ u (s : ℤ), 0 ≤ s → s < c.nPeriods → P.y u s = some (stagRow c ch z (u, s.toNat)).outcome := by
    intro u s h1 h2
    have := pivot_y c.nUnits c.nPeriods (stagRow c ch z) (firstTreat c ch) (fun _ _ => rfl) (fun _ _ => rfl) (fun _ _ => rfl) u s.toNat (by omega)
    rwa [Int.toNat_of_nonneg h1] at this
  have hyQ : ∀ u (s : ℤ), 0 ≤ s → s < c.nPeriods → Q.y u s = some (c.noiseSd * z (c.nUnits + (u * c.nPeriods + s.toNat))) := by
    intro u s h1 h2
    have := pivot_y c.nUnits c.nPeriods (noiseOnly c z ∘ stagRow c ch z) (firstTreat c ch) (fun _ _ => rfl) (fun _ _ => rfl) (fun _ _ => rfl) u s.toNat (by omega)
    rw [Int.toNat_of_nonneg h1] at this
    exact this
  have htimes : Q.times = P.times := by
    rw [hP, hQ]
    unfold pivot
    dsimp only
    congr 2
    rw [List.map_map, List.map_map]
    rfl
  have eT : CS.treatedSet Q (.num g) b t = CS.treatedSet P (.num g) b t := by
    ext u
    rw [CS.mem_treatedSet, CS.mem_treatedSet, hcohP, hcohQ, hyP u b hbT.1 hbT.2, hyP u t htT.1 htT.2, hyQ u b hbT.1 hbT.2, hyQ u t htT.1 htT.2]
    simp
  have eC : CS.controlSet cfg Q (.num g) b t = CS.controlSet cfg P (.num g) b t := by
    ext u
    rw [CS.mem_controlSet, CS.mem_controlSet, hyP u b hbT.1 hbT.2, hyP u t htT.1 htT.2, hyQ u b hbT.1 hbT.2, hyQ u t htT.1 htT.2]
    have : CS.controlMask cfg Q (.num g) t u = CS.controlMask cfg P (.num g) t u := by
      unfold CS.controlMask
      rw [hcohP, hcohQ]
    rw [this]
    simp
  refine ⟨CS.estimate cfg.method (CS.treatedSet Q (.num g) b t) (CS.controlSet cfg Q (.num g) b t) (CS.change Q b t), ?_, ?_, ?_, ?_⟩
  · unfold attGt
    rw [hb]
    dsimp only
    rw [if_neg (by rw [htimes]; simpa using hbm), if_neg (by rw [htimes]; simpa using htm), if_neg]
    rw [eT, eC]
    exact fun hor => hor.elim hT hC
  · rw [eT, eC]
    show CS.mean _ (CS.change P b t) - CS.mean _ (CS.change P b t) = stagEffect c g t + (CS.mean _ (CS.change Q b t) - CS.mean _ (CS.change Q b t))
    have hchange : ∀ u, CS.change P b t u = c.trend * ((t : K) - (b : K))
        + (stagEffectOf c ch u t - stagEffectOf c ch u b) + CS.change Q b t u := by
      intro u
      unfold CS.change
      rw [hyP u b hbT.1 hbT.2, hyP u t htT.1 htT.2, hyQ u b hbT.1 hbT.2, hyQ u t htT.1 htT.2]
      simp only [Option.getD_some]
      rw [outcome_eq, outcome_eq]
      have e1 : ((t.toNat : ℕ) : K) = (t : K) := by
        have := Int.toNat_of_nonneg htT.1
        exact_mod_cast congrArg (fun x : ℤ => (x : K)) this
      have e2 : ((b.toNat : ℕ) : K) = (b : K) := by
        have := Int.toNat_of_nonneg hbT.1
        exact_mod_cast congrArg (fun x : ℤ => (x : K)) this
      rw [e1, e2, Int.toNat_of_nonneg htT.1, Int.toNat_of_nonneg hbT.1]
      ring
    have hbase : b < g := by
      have := CS.C22_before_treatment cfg g t b hb
      omega
    have hclean : ∀ u ∈ CS.controlSet cfg P (.num g) b t, stagEffectOf c ch u t = 0 ∧ stagEffectOf c ch u b = 0 := by
      intro u hu
      have hcl := CS.C23_controls_clean_partial cfg P g t b _ he hb (hc.imp id fun hx => ⟨ha, hx⟩) u hu
      rw [hcohP, ha] at hcl
      have hz : ∀ s, CS.Clean 0 (.num (firstTreat c ch u)) s → stagEffectOf c ch u s = 0 := by
        intro s hs
        unfold stagEffectOf
        rw [if_neg]
        rintro ⟨h1, h2⟩
        rcases hs with h' | h' | ⟨w, hw, h'⟩
        · rw [Coh.num.injEq] at h'; omega
        · cases h'
        · rw [Coh.num.injEq] at hw; omega
      exact ⟨hz t hcl.1, hz b hcl.2⟩
    have htreat : ∀ u ∈ CS.treatedSet P (.num g) b t, stagEffectOf c ch u t = stagEffect c g t ∧ stagEffectOf c ch u b = 0 := by
      intro u hu
      have := (CS.mem_treatedSet.1 hu).1
      rw [hcohP, Coh.num.injEq] at this
      unfold stagEffectOf stagEffect
      rw [this]
      refine ⟨?_, if_neg (by omega)⟩
      by_cases hgt : g ≤ t
      · rw [if_pos ⟨hg, hgt⟩, if_pos hgt]
      · rw [if_neg (fun hh => hgt hh.2), if_neg hgt]
    have m1 : CS.mean (CS.treatedSet P (.num g) b t) (CS.change P b t) = (c.trend * ((t : K) - (b : K)) + stagEffect c g t)
        + CS.mean (CS.treatedSet P (.num g) b t) (CS.change Q b t) := by
      rw [← CS.mean_const (CS.treatedSet P (.num g) b t) hT (c.trend * ((t : K) - (b : K)) + stagEffect c g t), ← CS.mean_add]
      refine CS.mean_congr _ _ _ fun u hu => ?_
      rw [hchange, (htreat u hu).1, (htreat u hu).2, sub_zero]
    have m2 : CS.mean (CS.controlSet cfg P (.num g) b t) (CS.change P b t) = c.trend * ((t : K) - (b : K))
        + CS.mean (CS.controlSet cfg P (.num g) b t) (CS.change Q b t) := by
      rw [← CS.mean_const (CS.controlSet cfg P (.num g) b t) hC (c.trend * ((t : K) - (b : K))), ← CS.mean_add]
      refine CS.mean_congr _ _ _ fun u hu => ?_
      rw [hchange, (hclean u hu).1, (hclean u hu).2, sub_zero, add_zero]
    rw [m1, m2]
    ring
  · rw [eT]; rfl
  · rw [eC]; rfl

/-- C115. Without noise every reported ATT(g,t) is the effect given to the cohort, and pre-treatment estimates are zero. -/
theorem C115_exact (c : StagCfg K) (ch : ℕ → ℕ) (z : ℕ → K) (rows : List (SRow K)) (h : generateStag c ch z = .ok rows)
    (hn : c.noiseSd = 0) (cfg : Cfg) (ha : cfg.ant = 0) (g t : ℤ) (hg : 0 < g)
    (hc : cfg.ctl = .never ∨ cfg.base = .varying ∨ g ≤ t)
    (e : Entry c.nUnits K) (he : attGt cfg (pivot c.nUnits rows) (.num g) t = some e) : e.effect = stagEffect c g t := by
  obtain ⟨e', he', heff, _, _⟩ := C115_att c ch z rows h cfg ha g t hg hc e he
  obtain ⟨b, _, _, _, _, _, rfl⟩ := CS.attGt_some he'
  have hy : ∀ u s, ((pivot c.nUnits (rows.map (noiseOnly c z))).y u s).getD 0 = 0 := by
    intro u s
    unfold pivot
    dsimp only
    generalize hf : List.find? _ (rows.map (noiseOnly c z)) = o
    cases o with
    | none => rfl
    | some r =>
      have hm := List.mem_of_find?_eq_some hf
      obtain ⟨x, _, rfl⟩ := List.mem_map.1 hm
      simp [noiseOnly, hn]
  rw [heff]
  have hz : ∀ S : Finset (Fin c.nUnits), CS.mean S (CS.change (pivot c.nUnits (rows.map (noiseOnly c z))) b t) = 0 := by
    intro S
    unfold CS.mean CS.change
    simp [hy]
  show stagEffect c g t + (CS.mean _ _ - CS.mean _ _) = _
  rw [hz, hz]
  ring

/-- C115. Which ATT(g,t) are reported: with at least one never-treated unit, all of them for every cohort that received a
unit and every period whose base period exists. -/
theorem C115_reported (c : StagCfg K) (ch : ℕ → ℕ) (z : ℕ → K) (rows : List (SRow K)) (h : generateStag c ch z = .ok rows)
    (hnv : 0 < c.nNever) (cfg : Cfg) (ha : cfg.ant = 0) (u : ℕ) (hu : u < c.nUnits) (hunv : ¬ (u : ℤ) < c.nNever)
    (t : ℤ) (h0 : 0 < t) (hT : t < c.nPeriods) :
    ∃ e, attGt cfg (pivot c.nUnits rows) (.num (firstTreat c ch u)) t = some e := by
  obtain ⟨rfl, hnn, hcp, hne⟩ := generateStag_ok h
  have hfm := firstTreat_mem c ch u (hne (by omega)) hunv
  obtain ⟨hf1, hf2⟩ := hcp _ hfm
  have hTpos : 0 < c.nPeriods := by omega
  have hcoh : ∀ v, (pivot c.nUnits ((cells c.nUnits c.nPeriods).map (stagRow c ch z))).cohort v = .num (firstTreat c ch v) :=
    pivot_cohort _ _ (stagRow c ch z) (firstTreat c ch) (fun _ _ => rfl) (fun _ _ => rfl) (fun _ _ => rfl) hTpos
  have hy : ∀ v (s : ℤ), 0 ≤ s → s < c.nPeriods →
      ((pivot c.nUnits ((cells c.nUnits c.nPeriods).map (stagRow c ch z))).y v s).isSome := by
    intro v s h1 h2
    have := pivot_y c.nUnits c.nPeriods (stagRow c ch z) (firstTreat c ch) (fun _ _ => rfl) (fun _ _ => rfl) (fun _ _ => rfl) v s.toNat (by omega)
    rw [Int.toNat_of_nonneg h1] at this
    rw [this]; rfl
  have htm := pivot_times c.nUnits c.nPeriods (stagRow c ch z) (firstTreat c ch) (fun _ _ => rfl) (fun _ _ => rfl) (fun _ _ => rfl) (show 0 < c.nUnits by omega)
  unfold attGt
  rw [CS.basePeriod_num]
  dsimp only
  set b : ℤ := if cfg.base = .varying ∧ t < firstTreat c ch u - cfg.ant then t - 1 else firstTreat c ch u - 1 - cfg.ant with hbdef
  have hb : 0 ≤ b ∧ b < c.nPeriods := by
    rw [hbdef]
    split_ifs <;> omega
  rw [if_neg (by simpa using (htm b).2 hb), if_neg (by simpa using (htm t).2 ⟨h0.le, hT⟩), if_neg]
  · exact ⟨_, rfl⟩
  · rintro (hz | hz)
    · rw [Finset.card_eq_zero, Finset.eq_empty_iff_forall_notMem] at hz
      exact hz ⟨u, hu⟩ (CS.mem_treatedSet.2 ⟨hcoh _, hy _ _ hb.1 hb.2, hy _ _ h0.le hT⟩)
    · rw [Finset.card_eq_zero, Finset.eq_empty_iff_forall_notMem] at hz
      refine hz ⟨0, by omega⟩ (CS.mem_controlSet.2 ⟨?_, hy _ _ hb.1 hb.2, hy _ _ h0.le hT⟩)
      have hz0 : firstTreat c ch 0 = 0 := by
        unfold firstTreat
        rw [if_pos (by exact_mod_cast hnv)]
      have : ((pivot c.nUnits ((cells c.nUnits c.nPeriods).map (stagRow c ch z))).cohort ⟨0, by omega⟩).isNever = true := by
        rw [hcoh]
        simp [Coh.isNever, hz0]
      unfold CS.controlMask
      cases cfg.ctl
      · exact this
      · rw [this]; rfl

/-- C115. The overall effect on noise-free data: exactly the requested effect when it does not grow; with growth, between
the effect at the start and the effect after the longest exposure. -/
theorem C115_overall (c : StagCfg K) (ch : ℕ → ℕ) (z : ℕ → K) (rows : List (SRow K)) (h : generateStag c ch z = .ok rows)
    (hn : c.noiseSd = 0) (cfg : Cfg) (ha : cfg.ant = 0) (v : K)
    (hv : overall cfg.ant (effects cfg (pivot c.nUnits rows)) = some v) :
    (c.dynamic = false → v = c.effect) ∧
    (c.dynamic = true → 0 ≤ c.effect → 0 ≤ c.growth →
      c.effect ≤ v ∧ v ≤ c.effect * (1 + c.growth * ((c.nPeriods : K) - 2))) := by
  obtain ⟨hrows, hnn, hcp, hne⟩ := generateStag_ok h
  have key : ∀ x ∈ effects cfg (pivot c.nUnits rows), CS.IsPost cfg.ant x.1.1 x.1.2 →
      ∃ g t : ℤ, 1 ≤ g ∧ g ≤ t ∧ t < c.nPeriods ∧ x.2.effect = stagEffect c g t := by
    intro x hx hp
    obtain ⟨g, hg, hp⟩ := hp
    obtain ⟨hgm, _, he⟩ := CS.mem_effects hx
    rw [hg] at he hgm
    have hg0 : 0 < g := by
      rw [CS.groups, List.mem_insertionSort, List.mem_filter] at hgm
      simpa [Coh.pos] using hgm.2
    obtain ⟨b, _, _, htm, hT, _, _⟩ := CS.attGt_some he
    have hnpos : 0 < c.nUnits := by
      by_contra h0
      apply hT
      rw [Finset.card_eq_zero, Finset.eq_empty_iff_forall_notMem]
      intro u
      exact absurd u.2 (by omega)
    rw [hrows] at htm
    have ht := (pivot_times c.nUnits c.nPeriods (stagRow c ch z) (firstTreat c ch) (fun _ _ => rfl) (fun _ _ => rfl) (fun _ _ => rfl) hnpos _).1 htm
    refine ⟨g, x.1.2, hg0, by omega, ht.2, ?_⟩
    exact C115_exact c ch z rows h hn cfg ha g x.1.2 hg0 (Or.inr (Or.inr (by omega))) x.2 he
  constructor
  · intro hd
    refine CS.C25_constant cfg _ v c.effect hv fun x hx hp => ?_
    obtain ⟨g, t, _, hgt, _, he⟩ := key x hx hp
    rw [he, stagEffect, if_pos hgt, hd]
    rfl
  · intro hd he0 hg0
    refine CS.C25_overall_bounds cfg _ v _ _ hv fun x hx hp => ?_
    obtain ⟨g, t, h1, hgt, h2, he⟩ := key x hx hp
    rw [he, stagEffect, if_pos hgt, hd, if_pos rfl]
    have a1 : (0 : K) ≤ ((t - g : ℤ) : K) := by exact_mod_cast (by omega : (0 : ℤ) ≤ t - g)
    have a2 : ((t - g : ℤ) : K) ≤ (c.nPeriods : K) - 2 := by
      have : t - g ≤ (c.nPeriods : ℤ) - 2 := by omega
      exact_mod_cast this
    have b1 : 0 ≤ c.growth * ((t - g : ℤ) : K) := mul_nonneg hg0 a1
    have b2 : c.growth * ((t - g : ℤ) : K) ≤ c.growth * ((c.nPeriods : K) - 2) := mul_le_mul_of_nonneg_left a2 hg0
    constructor
    · nlinarith
    · exact mul_le_mul_of_nonneg_left (by linarith) he0

/-- C115. With the default cohorts the generator works exactly for panels of at least three periods. -/
theorem C115_default_cohorts (c : StagCfg K) (ch : ℕ → ℕ) (z : ℕ → K) (hd : c.cohorts = none) (hf : 0 ≤ c.neverFrac) :
    (∃ rows, generateStag c ch z = .ok rows) ↔ 3 ≤ c.nPeriods := by
  have hnn : 0 ≤ c.nNever := by
    unfold StagCfg.nNever trunc
    rw [if_pos (mul_nonneg (Nat.cast_nonneg _) hf)]
    exact Int.floor_nonneg.2 (mul_nonneg (Nat.cast_nonneg _) hf)
  have hcp : c.cohortPeriods = if 8 ≤ c.nPeriods then [3, 5, 7] else [(c.nPeriods : ℤ) / 3, 2 * (c.nPeriods : ℤ) / 3] := by
    unfold StagCfg.cohortPeriods
    rw [hd]
  constructor
  · rintro ⟨rows, h⟩
    obtain ⟨_, _, hall, _⟩ := generateStag_ok h
    rw [hcp] at hall
    split_ifs at hall with h8
    · omega
    · have := (hall ((c.nPeriods : ℤ) / 3) (by simp)).1
      omega
  · intro h3
    have hfind : c.cohortPeriods.find? (fun cp => decide (cp < 1 ∨ (c.nPeriods : ℤ) ≤ cp)) = none := by
      rw [List.find?_eq_none]
      intro cp hm
      rw [hcp] at hm
      simp only [decide_eq_true_eq]
      split_ifs at hm with h8
      · simp at hm
        omega
      · simp at hm
        omega
    unfold generateStag
    rw [hfind]
    dsimp only
    rw [if_neg, if_neg (by omega)]
    · exact ⟨_, rfl⟩
    · rintro ⟨_, he⟩
      rw [hcp] at he
      split_ifs at he

example : (generateStag exStag (fun j => j) (fun k => (k : ℚ))).toOption.isSome = true ∧ 0 < exStag.nNever ∧
    ¬ ((3 : ℕ) : ℤ) < exStag.nNever ∧ firstTreat exStag (fun j => j) 3 = 1 := by decide +kernel

/-- Five periods, cohorts 2 and 4, no noise, no growth. -/
def exUniversal : StagCfg ℚ := ⟨3, 5, some [2, 4], 1 / 3, 2, false, 0, 1, 1, 0⟩

/-- C115, what does not hold: with not-yet-treated controls and the universal base period, a pre-treatment estimate on
noise-free generated data is not zero (the controls include a cohort treated between the period and the base). -/
theorem C115_universal_refuted : ∃ (c : StagCfg ℚ) (ch : ℕ → ℕ) (z : ℕ → ℚ) (rows : List (SRow ℚ)) (cfg : Cfg),
    generateStag c ch z = .ok rows ∧ c.noiseSd = 0 ∧ cfg.ant = 0 ∧
      (attGt cfg (pivot c.nUnits rows) (.num 4) 1).map (fun e => e.effect) = some 1 ∧ stagEffect c 4 1 = 0 := by
  refine ⟨exUniversal, fun j => j, fun k => (k : ℚ), (cells 3 5).map (stagRow exUniversal (fun j => j) (fun k => (k : ℚ))),
    ⟨.universal, .notYet, 0, .reg⟩, ?_, rfl, rfl, ?_, ?_⟩
  · decide +kernel
  · decide +kernel
  · decide +kernel

end DiffDiff.Dgp
