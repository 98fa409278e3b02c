/-
What MultiPeriodDiD and the pre-trend check report on generated data (C113, C114).
-/
import Verif.DgpDidProps
import Verif.MultiPeriodProps
import Verif.TrendsProps

set_option linter.unusedSectionVars false

namespace DiffDiff.Dgp

variable {K : Type*} [Field K] [LinearOrder K] [IsStrictOrderedRing K] [FloorRing K]

/-! ### C113: pre-trend check -/

/-- A record as the pre-trend check reads it (`time='period'`, `treatment_group='treated'`). -/
def toTrend (r : Row K) : Trends.Row K := ⟨r.unit, (r.period : K), if r.treated then 1 else 0, some r.outcome⟩

/-- C113. `check_parallel_trends` on `generate_panel_data(parallel_trends=False)`: compared with the same draws and parallel
trends, the reported trend difference is larger by exactly the violation, and all standard errors are the same. -/
theorem C113_trends (c : PanelCfg K) (z : ℕ → K) (rows rows0 : List (Row K)) (hpar : c.parallel = false)
    (h : generatePanel c z = .ok rows) (h0 : generatePanel { c with parallel := true } z = .ok rows0)
    (r pv : K → K) (pre : Option (List K)) (R : Trends.Trend K)
    (hR : Trends.checkTrends r pv (rows0.map toTrend) pre = .ok R) :
    ∃ R', Trends.checkTrends r pv (rows.map toTrend) pre = .ok R' ∧ R'.diff = R.diff.map (· + c.violation) ∧
      R'.treated = R.treated.map (· + c.violation) ∧ R'.control = R.control ∧
      R'.treatedSe = R.treatedSe ∧ R'.controlSe = R.controlSe ∧ R'.diffSe = R.diffSe := by
  have e : rows.map toTrend = Trends.addTo (fun g t => (0 : ℤ → K) g + (fun g : ℤ => if g = 1 then c.violation else 0) g * t) (rows0.map toTrend) := by
    unfold generatePanel at h h0
    split_ifs at h h0 <;> cases h <;> cases h0
    unfold Trends.addTo
    rw [List.map_map, List.map_map, List.map_map]
    refine List.map_congr_left fun x _ => ?_
    have en : ({ c with parallel := true } : PanelCfg K).nTreated = c.nTreated := rfl
    simp only [Function.comp, toTrend, panelRow, hpar, en]
    by_cases hu : (x.1 : ℤ) < c.nTreated
    · simp [hu]; ring
    · simp [hu]
  obtain ⟨R', h1, h2, h3, h4, h5, h6, h7, _⟩ := Trends.C109_shift r pv (rows0.map toTrend) pre 0
    (fun g => if g = 1 then c.violation else 0) hR
  rw [← e] at h1
  refine ⟨R', h1, ?_, ?_, ?_, h5, h6, h7⟩
  · simpa using h4
  · simpa using h2
  · simpa using h3

/-! ### C114: event study -/

section
variable {α : Type*} (n T : ℕ) (f : ℕ × ℕ → α) (d : α → Bool) (t : α → ℤ) (D : ℕ → Bool)

theorem sum_arm (hd : ∀ u s, d (f (u, s)) = D u) (ht : ∀ u s, t (f (u, s)) = (s : ℤ)) (a : Bool) (p : ℕ) (hp : p < T) (g : α → K) :
    ∑ i ∈ MultiPeriod.arm (col ((cells n T).map f) d) (col ((cells n T).map f) t) a (p : ℤ), col ((cells n T).map f) g i
      = ∑ u ∈ grp n D a, g (f (u, p)) := by
  unfold MultiPeriod.arm grp
  rw [Finset.sum_filter]
  have h := sum_col n T f (fun r => if d r = a ∧ t r = (p : ℤ) then g r else 0)
  refine Eq.trans (Eq.trans ?_ h) ?_
  · rfl
  · rw [Finset.sum_filter]
    refine Finset.sum_congr rfl fun u _ => ?_
    by_cases hu : D u = a
    · rw [if_pos hu]
      simp only [hd, ht, hu, true_and, Nat.cast_inj]
      rw [Finset.sum_eq_single p]
      · simp
      · intro s _ hs; rw [if_neg hs]
      · intro hn; exact absurd (Finset.mem_range.2 hp) hn
    · rw [if_neg hu]
      refine Finset.sum_eq_zero fun s _ => ?_
      simp [hd, hu]

theorem card_arm (hd : ∀ u s, d (f (u, s)) = D u) (ht : ∀ u s, t (f (u, s)) = (s : ℤ)) (a : Bool) (p : ℕ) (hp : p < T) :
    ((MultiPeriod.arm (col ((cells n T).map f) d) (col ((cells n T).map f) t) a (p : ℤ)).card : K) = ((grp n D a).card : K) := by
  have h := sum_arm (K := K) n T f d t D hd ht a p hp (fun _ => 1)
  unfold col at h
  simp only [Finset.sum_const, nsmul_eq_mul, mul_one] at h
  exact h

end

/-- Period labels as the estimator reads them. -/
def per (r : Row K) : ℤ := (r.period : ℤ)

/-- Columns of the event-study regression on a list of records. -/
def eventCols (rows : List (Row K)) (po : List ℤ) (r : ℤ) : List MultiPeriod.Col :=
  MultiPeriod.columns (MultiPeriod.allPeriods (rows.map per)) po r 0

/-- `b` solves the least-squares problem of `MultiPeriodDiD.fit` (estimators.py 846-900) on a list of records. -/
def IsEventFit (rows : List (Row K)) (po : List ℤ) (r : ℤ) (b : Fin (eventCols rows po r).length → K) : Prop :=
  Ols.IsOls (MultiPeriod.design (col rows Row.treated) (col rows per) (fun _ _ => (0 : K)) (eventCols rows po r))
    (col rows Row.outcome) b

/-- Treated-control gap of a column in one period. -/
def gapCol (rows : List (Row K)) (e : Row K → K) (p : ℤ) : K :=
  MultiPeriod.gap (col rows e) (col rows Row.treated) (col rows per) p

/-- Treated-control gap of a column over all rows before treatment. -/
def preGapCol (rows : List (Row K)) (e : Row K → K) : K :=
  Did2x2.cellMean (col rows e) (col rows Row.treated) (col rows Row.post) true false
    - Did2x2.cellMean (col rows e) (col rows Row.treated) (col rows Row.post) false false

/-- C114. `generate_event_study_data` then `MultiPeriodDiD` with the true post periods: in every least-squares solution, for
every reference period, the effect reported for a post period is the requested effect plus the noise gap of that period
minus the noise gap pooled over the pre periods. -/
theorem C114_period_effect (c : EventCfg K) (z : ℕ → K) (post : Option (List ℤ)) (ref : Option ℤ) (pr po : List ℤ) (r : ℤ)
    (hcl : MultiPeriod.classify ((generateEvent c z).map per) post ref = .ok (pr, po, r))
    (hpo : ∀ p : ℤ, p ∈ po ↔ (c.nPre : ℤ) ≤ p ∧ p < c.nPre + c.nPost) (hnd : po.Nodup)
    (h1 : 0 < c.nTreated) (h2 : c.nTreated < c.nUnits)
    (b : Fin (eventCols (generateEvent c z) po r).length → K) (hb : IsEventFit (generateEvent c z) po r b) (p : ℤ) (hp : p ∈ po) :
    MultiPeriod.coefAt _ b (.inter p) = c.effect
      + (gapCol (generateEvent c z) (fun r => c.noiseSd * z (r.unit * (c.nPre + c.nPost + 1) + 1 + r.period)) p
        - preGapCol (generateEvent c z) (fun r => c.noiseSd * z (r.unit * (c.nPre + c.nPost + 1) + 1 + r.period))) := by
  obtain ⟨hcls, hpr, hpos, hprne, hpone, hrm, _, _, _⟩ := MultiPeriod.C76_classification _ _ _ _ _ _ hcl
  have hd : ∀ u s, (eventRow c z (u, s)).treated = decide ((u : ℤ) < c.nTreated) := fun _ _ => rfl
  have ht : ∀ u s, per (eventRow c z (u, s)) = (s : ℤ) := fun _ _ => rfl
  have htp : ∀ u s, (eventRow c z (u, s)).post = decide ((c.nPre : ℤ) ≤ (s : ℤ)) := fun _ _ => by simp [eventRow]
  have hgrp := grp_unit c.nUnits c.nTreated h1 h2
  have hcard : ∀ a, ((grp c.nUnits (fun u => decide ((u : ℤ) < c.nTreated)) a).card : K) ≠ 0 := fun a => by
    exact_mod_cast (Finset.card_pos.2 (hgrp a)).ne'
  have hmem : ∀ q : ℤ, q ∈ (generateEvent c z).map per ↔ 0 ≤ q ∧ q < c.nPre + c.nPost := by
    intro q
    unfold generateEvent
    simp only [List.map_map, List.mem_map, Function.comp, Prod.exists, mem_cells]
    constructor
    · rintro ⟨u, s, ⟨_, hs⟩, rfl⟩
      simp only [eventRow, per]
      omega
    · rintro ⟨a, b⟩
      refine ⟨0, q.toNat, ⟨by omega, by omega⟩, ?_⟩
      simp only [eventRow, per]
      omega
  -- the pre periods
  obtain ⟨q0, hq0⟩ := List.exists_mem_of_ne_nil _ hprne
  have hq0m := (hmem q0).1 (hpr q0 hq0)
  have hq0po : q0 ∉ po := ((hcls q0 (hpr q0 hq0)).1 hq0)
  have hpre0 : 0 < c.nPre := by
    by_contra hc
    apply hq0po
    rw [hpo]
    omega
  obtain ⟨hp1, hp2⟩ := (hpo p).1 hp
  obtain ⟨p, rfl⟩ := Int.eq_ofNat_of_zero_le (show 0 ≤ p by omega)
  have hpT : p < c.nPre + c.nPost := by exact_mod_cast hp2
  have hPost : 0 < c.nPost := by omega
  -- existence of rows
  have hex : ∀ (a : Bool) (s : ℕ), s < c.nPre + c.nPost → ∃ i, col (generateEvent c z) Row.treated i = a ∧
      col (generateEvent c z) per i = (s : ℤ) := by
    intro a s hs
    have hc := card_arm (K := K) c.nUnits (c.nPre + c.nPost) (eventRow c z) Row.treated per _ hd ht a s hs
    have hne : (MultiPeriod.arm (col (generateEvent c z) Row.treated) (col (generateEvent c z) per) a (s : ℤ)).card ≠ 0 := by
      intro h0
      have : ((MultiPeriod.arm (col (generateEvent c z) Row.treated) (col (generateEvent c z) per) a (s : ℤ)).card : K) = 0 := by
        rw [h0]; simp
      exact hcard a (hc.symm.trans this)
    obtain ⟨i, hi⟩ := Finset.card_pos.1 (Nat.pos_of_ne_zero hne)
    exact ⟨i, (Finset.mem_filter.1 hi).2⟩
  have hpreArm : ∀ a, MultiPeriod.preArm (col (generateEvent c z) Row.treated) (col (generateEvent c z) per) po a
      = Did2x2.cell (col (generateEvent c z) Row.treated) (col (generateEvent c z) Row.post) a false := by
    intro a
    ext i
    simp only [MultiPeriod.preArm, Did2x2.cell, Finset.mem_filter, Finset.mem_univ, true_and]
    refine and_congr_right fun _ => ?_
    have hi : (generateEvent c z)[i] ∈ generateEvent c z := List.getElem_mem _
    unfold generateEvent at hi
    rw [List.mem_map] at hi
    obtain ⟨⟨u, s⟩, hx, hxe⟩ := hi
    have hs := (mem_cells.1 hx).2
    have e1 : col (generateEvent c z) per i = (s : ℤ) := by
      unfold col
      show (((generateEvent c z)[i]).period : ℤ) = s
      rw [show (generateEvent c z)[i] = eventRow c z (u, s) from hxe.symm]
      rfl
    have e2 : col (generateEvent c z) Row.post i = decide ((c.nPre : ℤ) ≤ (s : ℤ)) := by
      unfold col
      rw [show (generateEvent c z)[i] = eventRow c z (u, s) from hxe.symm]
      exact htp u s
    rw [e1, e2, hpo]
    simp
    omega
  have hall : ∀ i, col (generateEvent c z) per i ∈
      MultiPeriod.allPeriods ((generateEvent c z).map per) := by
    intro i
    rw [MultiPeriod.mem_allPeriods, List.mem_map]
    exact ⟨_, List.getElem_mem _, rfl⟩
  have key := MultiPeriod.C76_period_effect _ po r (col (generateEvent c z) Row.treated)
    (col (generateEvent c z) per) (col (generateEvent c z) Row.outcome)
    (MultiPeriod.allPeriods_nodup _) hnd hall (MultiPeriod.mem_allPeriods.2 hrm) b hb (p : ℤ) hp
    (MultiPeriod.mem_allPeriods.2 ((hmem _).2 ⟨by omega, hp2⟩)) (hex true p hpT) (hex false p hpT)
    ((hex true 0 (by omega)).imp fun i hi => ⟨hi.1, by rw [hi.2, hpo]; simp; omega⟩)
    ((hex false 0 (by omega)).imp fun i hi => ⟨hi.1, by rw [hi.2, hpo]; simp; omega⟩)
    (by
      intro q hq _
      rw [MultiPeriod.mem_allPeriods, hmem] at hq
      obtain ⟨q, rfl⟩ := Int.eq_ofNat_of_zero_le hq.1
      have hqT : q < c.nPre + c.nPost := by exact_mod_cast hq.2
      have a1 := card_arm (K := K) c.nUnits (c.nPre + c.nPost) (eventRow c z) Row.treated per _ hd ht true q hqT
      have a0 := card_arm (K := K) c.nUnits (c.nPre + c.nPost) (eventRow c z) Row.treated per _ hd ht false q hqT
      have b1 := card_cell (K := K) c.nUnits (c.nPre + c.nPost) (eventRow c z) Row.treated Row.post _ _ hd htp true false
      have b0 := card_cell (K := K) c.nUnits (c.nPre + c.nPost) (eventRow c z) Row.treated Row.post _ _ hd htp false false
      rw [hpreArm, hpreArm]
      refine Eq.trans (congrArg₂ (· * ·) a1 b0) (Eq.trans ?_ (congrArg₂ (· * ·) a0 b1).symm)
      ring)
  refine Eq.trans key ?_
  have hgapsplit : ∀ a, MultiPeriod.armMean (col (generateEvent c z) Row.outcome) (col (generateEvent c z) Row.treated)
      (col (generateEvent c z) per) a (p : ℤ) =
      (∑ u ∈ grp c.nUnits (fun u => decide ((u : ℤ) < c.nTreated)) a, (10 + c.feSd * z (u * (c.nPre + c.nPost + 1)))) /
        ((grp c.nUnits (fun u => decide ((u : ℤ) < c.nTreated)) a).card : K) + (p : K) * (1 / 2) + (if a then c.effect else 0) +
      MultiPeriod.armMean (col (generateEvent c z) (fun r => c.noiseSd * z (r.unit * (c.nPre + c.nPost + 1) + 1 + r.period)))
        (col (generateEvent c z) Row.treated) (col (generateEvent c z) per) a (p : ℤ) := by
    intro a
    unfold MultiPeriod.armMean
    have s1 := sum_arm (K := K) c.nUnits (c.nPre + c.nPost) (eventRow c z) Row.treated per _ hd ht a p hpT Row.outcome
    have s2 := sum_arm (K := K) c.nUnits (c.nPre + c.nPost) (eventRow c z) Row.treated per _ hd ht a p hpT
      (fun r => c.noiseSd * z (r.unit * (c.nPre + c.nPost + 1) + 1 + r.period))
    have s3 := card_arm (K := K) c.nUnits (c.nPre + c.nPost) (eventRow c z) Row.treated per _ hd ht a p hpT
    unfold generateEvent
    rw [s1, s2, s3]
    have e1 : ∑ u ∈ grp c.nUnits (fun u => decide ((u : ℤ) < c.nTreated)) a, (eventRow c z (u, p)).outcome =
        ∑ u ∈ grp c.nUnits (fun u => decide ((u : ℤ) < c.nTreated)) a, ((10 + c.feSd * z (u * (c.nPre + c.nPost + 1))) +
          ((p : K) * (1 / 2) + (if a then c.effect else 0)) + c.noiseSd * z (u * (c.nPre + c.nPost + 1) + 1 + p)) := by
      refine Finset.sum_congr rfl fun u hu => ?_
      have hu2 := (Finset.mem_filter.1 hu).2
      have hp1' : c.nPre ≤ p := by exact_mod_cast hp1
      simp only [eventRow, hu2, hp1', decide_true, Bool.and_true]
      ring
    rw [e1, Finset.sum_add_distrib, Finset.sum_add_distrib, Finset.sum_const, nsmul_eq_mul, add_div, add_div,
      mul_div_cancel_left₀ _ (hcard a)]
    simp only [eventRow]
    ring
  have hpresplit : ∀ a, MultiPeriod.preMean (col (generateEvent c z) Row.outcome) (col (generateEvent c z) Row.treated)
      (col (generateEvent c z) per) po a =
      (∑ u ∈ grp c.nUnits (fun u => decide ((u : ℤ) < c.nTreated)) a, (10 + c.feSd * z (u * (c.nPre + c.nPost + 1)))) /
        ((grp c.nUnits (fun u => decide ((u : ℤ) < c.nTreated)) a).card : K)
      + (∑ s ∈ grp (c.nPre + c.nPost) (fun s => decide ((c.nPre : ℤ) ≤ (s : ℤ))) false, (s : K) * (1 / 2)) /
        ((grp (c.nPre + c.nPost) (fun s => decide ((c.nPre : ℤ) ≤ (s : ℤ))) false).card : K)
      + Did2x2.cellMean (col (generateEvent c z) (fun r => c.noiseSd * z (r.unit * (c.nPre + c.nPost + 1) + 1 + r.period)))
        (col (generateEvent c z) Row.treated) (col (generateEvent c z) Row.post) a false := by
    intro a
    unfold MultiPeriod.preMean
    rw [hpreArm]
    have m1 := mean_cell (K := K) c.nUnits (c.nPre + c.nPost) (eventRow c z) Row.treated Row.post _ _ hd htp a false Row.outcome
    have m2 := mean_cell (K := K) c.nUnits (c.nPre + c.nPost) (eventRow c z) Row.treated Row.post _ _ hd htp a false
      (fun r => c.noiseSd * z (r.unit * (c.nPre + c.nPost + 1) + 1 + r.period))
    refine Eq.trans m1 ?_
    unfold generateEvent
    rw [m2]
    have hM : ((grp (c.nPre + c.nPost) (fun s => decide ((c.nPre : ℤ) ≤ (s : ℤ))) false).card : K) ≠ 0 := by
      exact_mod_cast (Finset.card_pos.2 (grp_time (c.nPre + c.nPost) c.nPre (by omega) (by push_cast; omega) false)).ne'
    have e1 : ∑ u ∈ grp c.nUnits (fun u => decide ((u : ℤ) < c.nTreated)) a,
          ∑ s ∈ grp (c.nPre + c.nPost) (fun s => decide ((c.nPre : ℤ) ≤ (s : ℤ))) false, (eventRow c z (u, s)).outcome
        = ∑ u ∈ grp c.nUnits (fun u => decide ((u : ℤ) < c.nTreated)) a,
          ∑ s ∈ grp (c.nPre + c.nPost) (fun s => decide ((c.nPre : ℤ) ≤ (s : ℤ))) false,
            ((10 + c.feSd * z (u * (c.nPre + c.nPost + 1))) + (s : K) * (1 / 2)
              + c.noiseSd * z (u * (c.nPre + c.nPost + 1) + 1 + s)) := by
      refine Finset.sum_congr rfl fun u _ => Finset.sum_congr rfl fun s hs => ?_
      have hs2 := (Finset.mem_filter.1 hs).2
      have : ¬ c.nPre ≤ s := by simpa using hs2
      simp [eventRow, this]
    rw [e1]
    simp only [Finset.sum_add_distrib, Finset.sum_const, nsmul_eq_mul, eventRow]
    have := hcard a
    rw [← Finset.mul_sum]
    field_simp
  have hg : ∀ e : Row K → K, gapCol (generateEvent c z) e (p : ℤ) =
    MultiPeriod.armMean (col (generateEvent c z) e) (col (generateEvent c z) Row.treated) (col (generateEvent c z) per) true (p : ℤ)
    - MultiPeriod.armMean (col (generateEvent c z) e) (col (generateEvent c z) Row.treated) (col (generateEvent c z) per) false (p : ℤ) := fun _ => rfl
  rw [hg]
  unfold MultiPeriod.gap preGapCol
  rw [hgapsplit, hgapsplit, hpresplit, hpresplit]
  simp only [if_true, Bool.false_eq_true, if_false]
  ring

theorem gapCol_zero (rows : List (Row K)) (e : Row K → K) (he : ∀ r, e r = 0) (p : ℤ) : gapCol rows e p = 0 := by
  unfold gapCol MultiPeriod.gap MultiPeriod.armMean col
  simp [he]

theorem preGapCol_zero (rows : List (Row K)) (e : Row K → K) (he : ∀ r, e r = 0) : preGapCol rows e = 0 := by
  unfold preGapCol Did2x2.cellMean col
  simp [he]

/-- C114. Without noise every reported period effect is the requested effect, and so is the reported average. -/
theorem C114_exact (c : EventCfg K) (z : ℕ → K) (hn : c.noiseSd = 0) (post : Option (List ℤ)) (ref : Option ℤ)
    (pr po : List ℤ) (r : ℤ) (hcl : MultiPeriod.classify ((generateEvent c z).map per) post ref = .ok (pr, po, r))
    (hpo : ∀ p : ℤ, p ∈ po ↔ (c.nPre : ℤ) ≤ p ∧ p < c.nPre + c.nPost) (hnd : po.Nodup)
    (h1 : 0 < c.nTreated) (h2 : c.nTreated < c.nUnits)
    (b : Fin (eventCols (generateEvent c z) po r).length → K) (hb : IsEventFit (generateEvent c z) po r b) :
    (∀ p ∈ po, MultiPeriod.coefAt _ b (.inter p) = c.effect) ∧
    (po.map (fun p => MultiPeriod.coefAt _ b (.inter p))).sum / (po.length : K) = c.effect := by
  have h : ∀ p ∈ po, MultiPeriod.coefAt _ b (.inter p) = c.effect := by
    intro p hp
    rw [C114_period_effect c z post ref pr po r hcl hpo hnd h1 h2 b hb p hp, gapCol_zero _ _ (fun r => by rw [hn, zero_mul]),
      preGapCol_zero _ _ (fun r => by rw [hn, zero_mul])]
    ring
  refine ⟨h, ?_⟩
  have hne : po ≠ [] := (MultiPeriod.C76_classification _ _ _ _ _ _ hcl).2.2.2.2.1
  have hl : (po.length : K) ≠ 0 := by exact_mod_cast (List.length_pos_of_ne_nil hne).ne'
  rw [List.map_congr_left h]
  simp [hl]

/-- C114. With as many periods before as after treatment, the default post periods are the true ones. -/
theorem C114_default (c : EventCfg K) (z : ℕ → K) (ref : Option ℤ) (pr po : List ℤ) (r : ℤ) (hN : 0 < c.nUnits)
    (heq : c.nPre = c.nPost)
    (hcl : MultiPeriod.classify ((generateEvent c z).map per) none ref = .ok (pr, po, r)) :
    (∀ p : ℤ, p ∈ po ↔ (c.nPre : ℤ) ≤ p ∧ p < c.nPre + c.nPost) ∧ po.Nodup := by
  have hall : MultiPeriod.allPeriods ((generateEvent c z).map per) = (List.range (c.nPre + c.nPost)).map (fun s : ℕ => (s : ℤ)) := by
    unfold MultiPeriod.allPeriods
    have hp : List.Perm ((generateEvent c z).map per).dedup ((List.range (c.nPre + c.nPost)).map (fun s : ℕ => (s : ℤ))) := by
      rw [List.perm_ext_iff_of_nodup (List.nodup_dedup _) (List.Nodup.map (fun a b h => by simpa using h) List.nodup_range)]
      intro q
      rw [List.mem_dedup]
      unfold generateEvent
      simp only [List.map_map, List.mem_map, Function.comp, Prod.exists, mem_cells, List.mem_range]
      constructor
      · rintro ⟨u, s, ⟨_, hs⟩, rfl⟩
        exact ⟨s, hs, rfl⟩
      · rintro ⟨s, hs, rfl⟩
        exact ⟨0, s, ⟨hN, hs⟩, rfl⟩
    have hs : ((List.range (c.nPre + c.nPost)).map (fun s : ℕ => (s : ℤ))).Pairwise (· ≤ ·) := by
      rw [List.pairwise_map]
      exact (List.pairwise_lt_range).imp fun h => by exact_mod_cast h.le
    exact ((List.perm_insertionSort _ _).trans hp).eq_of_pairwise (fun a b _ _ h1 h2 => le_antisymm h1 h2)
      (List.pairwise_insertionSort _ _) hs
  have hpo : po = (MultiPeriod.allPeriods ((generateEvent c z).map per)).drop
      ((MultiPeriod.allPeriods ((generateEvent c z).map per)).length / 2) := by
    unfold MultiPeriod.classify at hcl
    split_ifs at hcl
    split at hcl
    · cases hcl
    · cases hcl
      rfl
  refine ⟨fun p => ?_, ?_⟩
  · rw [hpo, hall, ← List.map_drop, List.mem_map]
    constructor
    · rintro ⟨s, hs, rfl⟩
      rw [List.mem_drop_iff_getElem] at hs
      obtain ⟨j, hj, rfl⟩ := hs
      simp at hj ⊢
      omega
    · rintro ⟨a, b⟩
      refine ⟨p.toNat, ?_, by omega⟩
      rw [List.mem_drop_iff_getElem]
      refine ⟨p.toNat - c.nPre, ?_, ?_⟩ <;> simp <;> omega
  · rw [hpo]
    exact (List.drop_sublist _ _).nodup (MultiPeriod.allPeriods_nodup _)

/-- Four units, two periods before and two after. -/
def exEvent : EventCfg ℚ := ⟨4, 2, 2, 1 / 2, 5, 1, 0⟩

example : 0 < exEvent.nTreated ∧ exEvent.nTreated < exEvent.nUnits ∧ exEvent.nPre = exEvent.nPost ∧
    MultiPeriod.classify ((generateEvent exEvent (fun k => (k : ℚ))).map per) none none = .ok ([0, 1], [2, 3], 0) := by
  decide +kernel

end DiffDiff.Dgp
