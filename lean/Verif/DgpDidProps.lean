/-
What DifferenceInDifferences reports on generated data (C113).
-/
import Verif.DgpProps
import Mathlib.Tactic.LinearCombination

set_option linter.unusedSectionVars false

namespace DiffDiff.Dgp

variable {K : Type*} [Field K] [LinearOrder K] [IsStrictOrderedRing K] [FloorRing K]

/-! ### Sums over the rows of a grid -/

/-- A column of a data frame, indexed by row number. -/
def col {α β : Type*} (rows : List α) (f : α → β) : Fin rows.length → β := fun i => f rows[i]

theorem sum_cells (n T : ℕ) (g : ℕ × ℕ → K) :
    ((cells n T).map g).sum = ∑ u ∈ Finset.range n, ∑ t ∈ Finset.range T, g (u, t) := by
  unfold cells
  have hT : ∀ u T, ((List.range T).map fun t => g (u, t)).sum = ∑ t ∈ Finset.range T, g (u, t) := by
    intro u T
    induction T with
    | zero => simp
    | succ T ih => rw [List.range_succ, List.map_append, List.sum_append, ih, Finset.sum_range_succ]; simp
  induction n with
  | zero => simp
  | succ n ih =>
    rw [List.range_succ, List.flatMap_append, List.map_append, List.sum_append, ih, Finset.sum_range_succ]
    simp only [List.flatMap_cons, List.flatMap_nil, List.append_nil, List.map_map]
    rw [← hT]
    rfl

theorem sum_col {α : Type*} (n T : ℕ) (f : ℕ × ℕ → α) (g : α → K) :
    ∑ i, col ((cells n T).map f) g i = ∑ u ∈ Finset.range n, ∑ t ∈ Finset.range T, g (f (u, t)) := by
  have h : ∑ i, col ((cells n T).map f) g i = (((cells n T).map f).map g).sum := by
    rw [← Fin.sum_univ_fun_getElem]; rfl
  rw [h, List.map_map, sum_cells]
  rfl

section grid
variable {α : Type*} (n T : ℕ) (f : ℕ × ℕ → α) (d t : α → Bool) (D P : ℕ → Bool)

/-- Units of one group. -/
def grp (n : ℕ) (D : ℕ → Bool) (a : Bool) : Finset ℕ := (Finset.range n).filter (fun u => D u = a)

theorem sum_cell (hd : ∀ u s, d (f (u, s)) = D u) (ht : ∀ u s, t (f (u, s)) = P s) (a b : Bool) (g : α → K) :
    ∑ i ∈ Did2x2.cell (col ((cells n T).map f) d) (col ((cells n T).map f) t) a b, col ((cells n T).map f) g i
      = ∑ u ∈ grp n D a, ∑ s ∈ grp T P b, g (f (u, s)) := by
  unfold Did2x2.cell grp
  rw [Finset.sum_filter]
  have h := sum_col n T f (fun r => if d r = a ∧ t r = b then g r else 0)
  refine Eq.trans (Eq.trans ?_ h) ?_
  · rfl
  · rw [Finset.sum_filter]
    refine Finset.sum_congr rfl fun u _ => ?_
    rw [Finset.sum_filter]
    by_cases hu : D u = a
    · rw [if_pos hu]
      refine Finset.sum_congr rfl fun s _ => ?_
      simp [hd, ht, hu]
    · rw [if_neg hu]
      refine Finset.sum_eq_zero fun s _ => ?_
      simp [hd, ht, hu]

theorem card_cell (hd : ∀ u s, d (f (u, s)) = D u) (ht : ∀ u s, t (f (u, s)) = P s) (a b : Bool) :
    ((Did2x2.cell (col ((cells n T).map f) d) (col ((cells n T).map f) t) a b).card : K)
      = ((grp n D a).card : K) * ((grp T P b).card : K) := by
  have h := sum_cell (K := K) n T f d t D P hd ht a b (fun _ => 1)
  unfold col at h
  simp only [Finset.sum_const, nsmul_eq_mul, mul_one] at h
  exact h

/-- Mean over a cell of a function of unit and period. -/
theorem mean_cell (hd : ∀ u s, d (f (u, s)) = D u) (ht : ∀ u s, t (f (u, s)) = P s) (a b : Bool) (g : α → K) :
    Did2x2.cellMean (col ((cells n T).map f) g) (col ((cells n T).map f) d) (col ((cells n T).map f) t) a b
      = (∑ u ∈ grp n D a, ∑ s ∈ grp T P b, g (f (u, s))) / (((grp n D a).card : K) * ((grp T P b).card : K)) := by
  unfold Did2x2.cellMean
  rw [sum_cell n T f d t D P hd ht, card_cell n T f d t D P hd ht]

/-- Mean period of one side of the treatment date. -/
def meanPeriod (T : ℕ) (P : ℕ → Bool) (b : Bool) : K := (∑ s ∈ grp T P b, (s : K)) / ((grp T P b).card : K)

/-- Outcomes that are a unit effect, a period effect, a group-specific linear trend and an effect on treated post rows,
plus anything else: the difference in differences is the effect, the trend difference times the distance of the mean
periods, and the difference in differences of the rest. -/
theorem did_grid (hd : ∀ u s, d (f (u, s)) = D u) (ht : ∀ u s, t (f (u, s)) = P s) (y e : α → K)
    (A : ℕ → K) (B : ℕ → K) (v τ : K)
    (hy : ∀ u s, u < n → s < T → y (f (u, s)) = A u + B s + (if D u then v * (s : K) else 0) + (if D u && P s then τ else 0) + e (f (u, s)))
    (hD : ∀ a, (grp n D a).Nonempty) (hP : ∀ b, (grp T P b).Nonempty) :
    Did2x2.did (col ((cells n T).map f) y) (col ((cells n T).map f) d) (col ((cells n T).map f) t)
      = τ + v * (meanPeriod T P true - meanPeriod T P false)
        + Did2x2.did (col ((cells n T).map f) e) (col ((cells n T).map f) d) (col ((cells n T).map f) t) := by
  have hm : ∀ a b, Did2x2.cellMean (col ((cells n T).map f) y) (col ((cells n T).map f) d) (col ((cells n T).map f) t) a b
      = (∑ u ∈ grp n D a, A u) / ((grp n D a).card : K) + (∑ s ∈ grp T P b, B s) / ((grp T P b).card : K)
        + (if a then v * meanPeriod T P b else 0) + (if a && b then τ else 0)
        + Did2x2.cellMean (col ((cells n T).map f) e) (col ((cells n T).map f) d) (col ((cells n T).map f) t) a b := by
    intro a b
    rw [mean_cell n T f d t D P hd ht, mean_cell n T f d t D P hd ht]
    have hN : ((grp n D a).card : K) ≠ 0 := by exact_mod_cast (Finset.card_pos.2 (hD a)).ne'
    have hM : ((grp T P b).card : K) ≠ 0 := by exact_mod_cast (Finset.card_pos.2 (hP b)).ne'
    have e1 : ∑ u ∈ grp n D a, ∑ s ∈ grp T P b, y (f (u, s))
        = ∑ u ∈ grp n D a, ∑ s ∈ grp T P b, (A u + B s + (if a then v * (s : K) else 0) + (if a && b then τ else 0) + e (f (u, s))) := by
      refine Finset.sum_congr rfl fun u hu => Finset.sum_congr rfl fun s hs => ?_
      obtain ⟨hu1, hu2⟩ := Finset.mem_filter.1 hu
      obtain ⟨hs1, hs2⟩ := Finset.mem_filter.1 hs
      rw [hy u s (Finset.mem_range.1 hu1) (Finset.mem_range.1 hs1), hu2, hs2]
    rw [e1]
    simp only [Finset.sum_add_distrib, Finset.sum_const, nsmul_eq_mul]
    have e2 : ∑ s ∈ grp T P b, (if a = true then v * (s : K) else 0) = (grp T P b).card * (if a then v * meanPeriod T P b else 0) := by
      cases a
      · simp
      · simp only [if_true]
        rw [← Finset.mul_sum]
        unfold meanPeriod
        field_simp
    rw [e2, ← Finset.mul_sum]
    field_simp
  unfold Did2x2.did
  simp only [hm]
  simp
  ring

end grid

/-- Whether `_validate_data` accepts the indicator columns (estimators.py 560-564): both take two values. The columns are 0/1 by
construction, so `validate_binary` (utils.py 29-50) passes. -/
def didAccepts (rows : List (Row K)) : Bool :=
  decide (2 ≤ (rows.map Row.treated).dedup.length) && decide (2 ≤ (rows.map Row.post).dedup.length)

/-- `DifferenceInDifferences().fit(data, 'outcome', 'treated', 'post').att` (estimators.py 278-313) on a list of records. -/
def IsDidAtt (rows : List (Row K)) (att : K) : Prop :=
  didAccepts rows = true ∧ Did2x2.IsAtt (col rows Row.outcome) (col rows Row.treated) (col rows Row.post) att

/-- Difference in differences of the cell means of a column. -/
def didCol (rows : List (Row K)) (e : Row K → K) : K :=
  Did2x2.did (col rows e) (col rows Row.treated) (col rows Row.post)

theorem two_le_dedup {l : List Bool} : 2 ≤ l.dedup.length ↔ true ∈ l ∧ false ∈ l := by
  constructor
  · intro h
    by_contra hc
    have : l.dedup.length ≤ 1 := by
      have hnd := List.nodup_dedup l
      by_cases ht : true ∈ l
      · have hf : false ∉ l := fun hf => hc ⟨ht, hf⟩
        have hsub : l.dedup ⊆ [true] := by
          intro x hx
          rw [List.mem_dedup] at hx
          cases x
          · exact absurd hx hf
          · simp
        simpa using (List.Nodup.subperm hnd hsub).length_le
      · have hsub : l.dedup ⊆ [false] := by
          intro x hx
          rw [List.mem_dedup] at hx
          cases x
          · simp
          · exact absurd hx ht
        simpa using (List.Nodup.subperm hnd hsub).length_le
    omega
  · rintro ⟨h1, h2⟩
    have hsub : [true, false] ⊆ l.dedup := by
      intro x hx
      rw [List.mem_dedup]
      cases x
      · exact h2
      · exact h1
    simpa using (List.Nodup.subperm (by decide : [true, false].Nodup) hsub).length_le

section accept
variable (n T : ℕ) (f : ℕ × ℕ → Row K) (m p : ℤ)

theorem accepts_iff (hd : ∀ u s, (f (u, s)).treated = decide ((u : ℤ) < m)) (ht : ∀ u s, (f (u, s)).post = decide (p ≤ (s : ℤ))) :
    didAccepts ((cells n T).map f) = true ↔ 0 < m ∧ m < n ∧ 0 < p ∧ p < T := by
  unfold didAccepts
  rw [Bool.and_eq_true, decide_eq_true_iff, decide_eq_true_iff, two_le_dedup, two_le_dedup]
  simp only [List.map_map, List.mem_map, Function.comp, Prod.exists, mem_cells, hd, ht, decide_eq_true_eq, decide_eq_false_iff_not]
  constructor
  · rintro ⟨⟨⟨u, s, ⟨hu, hs⟩, h1⟩, ⟨u', s', ⟨hu', hs'⟩, h2⟩⟩, ⟨v, w, ⟨hv, hw⟩, h3⟩, ⟨v', w', ⟨hv', hw'⟩, h4⟩⟩
    refine ⟨by omega, by omega, by omega, by omega⟩
  · rintro ⟨h1, h2, h3, h4⟩
    refine ⟨⟨⟨0, 0, ⟨by omega, by omega⟩, by simpa using h1⟩, ⟨m.toNat, 0, ⟨by omega, by omega⟩, by omega⟩⟩,
      ⟨0, p.toNat, ⟨by omega, by omega⟩, by omega⟩, ⟨0, 0, ⟨by omega, by omega⟩, by simpa using h3⟩⟩

theorem grp_unit (h1 : 0 < m) (h2 : m < n) (a : Bool) : (grp n (fun u => decide ((u : ℤ) < m)) a).Nonempty := by
  cases a
  · exact ⟨m.toNat, by simp [grp]; omega⟩
  · exact ⟨0, by simp [grp]; omega⟩

theorem grp_time (h1 : 0 < p) (h2 : p < T) (b : Bool) : (grp T (fun s => decide (p ≤ (s : ℤ))) b).Nonempty := by
  cases b
  · exact ⟨0, by simp [grp]; omega⟩
  · exact ⟨p.toNat, by simp [grp]; omega⟩

theorem sum_range_id (k : ℕ) : 2 * ∑ s ∈ Finset.range k, (s : K) = (k : K) * (k - 1) := by
  induction k with
  | zero => simp
  | succ k ih => rw [Finset.sum_range_succ, mul_add, ih]; push_cast; ring

/-- The mean post period minus the mean pre period is half the number of periods, wherever the treatment date lies. -/
theorem mean_period_gap (h1 : 0 < p) (h2 : p < T) :
    (meanPeriod T (fun s => decide (p ≤ (s : ℤ))) true - meanPeriod T (fun s => decide (p ≤ (s : ℤ))) false : K) = (T : K) / 2 := by
  obtain ⟨q, rfl⟩ := Int.eq_ofNat_of_zero_le h1.le
  have hq1 : 0 < q := by exact_mod_cast h1
  have hq2 : q < T := by exact_mod_cast h2
  have g0 : grp T (fun s => decide ((q : ℤ) ≤ (s : ℤ))) false = Finset.range q := by
    ext s; simp [grp]; omega
  have g1 : grp T (fun s => decide ((q : ℤ) ≤ (s : ℤ))) true = Finset.Ico q T := by
    ext s; simp [grp]; omega
  have hq : (q : K) ≠ 0 := by exact_mod_cast hq1.ne'
  have hTq : ((T : K) - q) ≠ 0 := by
    rw [sub_ne_zero]; exact_mod_cast hq2.ne'
  unfold meanPeriod
  rw [g0, g1, Finset.card_range, Nat.card_Ico, Nat.cast_sub hq2.le, Finset.sum_Ico_eq_sub _ hq2.le]
  have a := sum_range_id (K := K) q
  have b := sum_range_id (K := K) T
  have a' : ∑ s ∈ Finset.range q, (s : K) = q * (q - 1) / 2 := by linarith
  have b' : ∑ s ∈ Finset.range T, (s : K) = T * (T - 1) / 2 := by linarith
  rw [a', b']
  field_simp
  ring

end accept

theorem exists_row (n T : ℕ) (f : ℕ × ℕ → Row K) (m p : ℤ) (h1 : 0 < m) (h2 : m < n) (h3 : 0 < p) (h4 : p < T)
    (hd : ∀ u s, (f (u, s)).treated = decide ((u : ℤ) < m)) (ht : ∀ u s, (f (u, s)).post = decide (p ≤ (s : ℤ))) :
    ∀ a c, ∃ i, col ((cells n T).map f) Row.treated i = a ∧ col ((cells n T).map f) Row.post i = c := by
  intro a c
  have hc := card_cell (K := K) n T f Row.treated Row.post _ _ hd ht a c
  have hne : ((Did2x2.cell (col ((cells n T).map f) Row.treated) (col ((cells n T).map f) Row.post) a c).card : K) ≠ 0 := by
    rw [hc]
    refine mul_ne_zero ?_ ?_
    · exact_mod_cast (Finset.card_pos.2 (grp_unit n m h1 h2 a)).ne'
    · exact_mod_cast (Finset.card_pos.2 (grp_time T p h3 h4 c)).ne'
  have hpos : 0 < (Did2x2.cell (col ((cells n T).map f) Row.treated) (col ((cells n T).map f) Row.post) a c).card :=
    Nat.pos_of_ne_zero fun h0 => hne (by rw [h0]; simp)
  obtain ⟨i, hi⟩ := Finset.card_pos.1 hpos
  exact ⟨i, (Finset.mem_filter.1 hi).2⟩

/-! ### C113 -/

/-- C113. `generate_did_data` then `DifferenceInDifferences`: whatever the draws, the reported effect is the requested
effect plus the same difference in differences of the noise; unit effects and the time trend drop out. -/
theorem C113_did (c : DidCfg K) (z : ℕ → K) (att : K) (h : IsDidAtt (generateDid c z) att) :
    att = c.effect + didCol (generateDid c z)
      (fun r => c.noiseSd * z (c.nUnits + (r.unit * c.nPeriods + r.period))) := by
  obtain ⟨hacc, hatt⟩ := h
  have hd : ∀ u s, (didRow c z (u, s)).treated = decide ((u : ℤ) < c.nTreated) := fun _ _ => rfl
  have ht : ∀ u s, (didRow c z (u, s)).post = decide (c.treatPeriod ≤ (s : ℤ)) := fun _ _ => rfl
  obtain ⟨h1, h2, h3, h4⟩ := (accepts_iff _ _ _ _ _ hd ht).1 hacc
  have := Did2x2.C10_att_is_difference_of_means _ _ _ att (exists_row _ _ _ _ _ h1 h2 h3 h4 hd ht) hatt
  rw [this]
  have hg := did_grid c.nUnits c.nPeriods (didRow c z) Row.treated Row.post _ _ hd ht Row.outcome
    (fun r => c.noiseSd * z (c.nUnits + (r.unit * c.nPeriods + r.period))) (fun u => 10 + c.feSd * z u)
    (fun s => c.trend * (s : K)) 0 c.effect ?_ (grp_unit _ _ h1 h2) (grp_time _ _ h3 h4)
  · simp only [zero_mul, add_zero] at hg
    exact hg
  · intro u s _ _
    simp only [didRow, Bool.and_eq_true, decide_eq_true_eq]
    simp

/-- C113. The data are accepted exactly when at least one unit is treated, at least one is not, and the treatment date
leaves periods on both sides; then an estimate exists. -/
theorem C113_accepted (c : DidCfg K) (z : ℕ → K) :
    (∃ att, IsDidAtt (generateDid c z) att) ↔
      1 ≤ (c.nUnits : K) * c.fraction ∧ (c.nUnits : K) * c.fraction < c.nUnits ∧ 0 < c.treatPeriod ∧
        c.treatPeriod < c.nPeriods := by
  have hd : ∀ u s, (didRow c z (u, s)).treated = decide ((u : ℤ) < c.nTreated) := fun _ _ => rfl
  have ht : ∀ u s, (didRow c z (u, s)).post = decide (c.treatPeriod ≤ (s : ℤ)) := fun _ _ => rfl
  have hm : (0 < c.nTreated ↔ 1 ≤ (c.nUnits : K) * c.fraction) := by
    unfold DidCfg.nTreated trunc
    split_ifs with hx
    · rw [Int.lt_iff_add_one_le, zero_add, Int.le_floor]; simp
    · constructor
      · intro h
        rw [Int.lt_ceil] at h
        exact absurd (by simpa using h.le) hx
      · intro h
        exact absurd (zero_le_one.trans h) hx
  have hm2 : 0 < c.nTreated → (c.nTreated < c.nUnits ↔ (c.nUnits : K) * c.fraction < c.nUnits) := by
    intro h0
    have hx : 0 ≤ (c.nUnits : K) * c.fraction := zero_le_one.trans (hm.1 h0)
    unfold DidCfg.nTreated trunc
    rw [if_pos hx, Int.floor_lt]
    simp
  constructor
  · rintro ⟨att, hacc, _⟩
    obtain ⟨h1, h2, h3, h4⟩ := (accepts_iff _ _ _ _ _ hd ht).1 hacc
    exact ⟨hm.1 h1, (hm2 h1).1 h2, h3, h4⟩
  · rintro ⟨a, b, h3, h4⟩
    have h1 := hm.2 a
    have h2 := (hm2 h1).2 b
    exact ⟨_, (accepts_iff _ _ _ _ _ hd ht).2 ⟨h1, h2, h3, h4⟩,
      Did2x2.C10_att_exists _ _ _ (exists_row _ _ _ _ _ h1 h2 h3 h4 hd ht)⟩

theorem didCol_zero (rows : List (Row K)) (e : Row K → K) (he : ∀ r, e r = 0) : didCol rows e = 0 := by
  unfold didCol Did2x2.did Did2x2.cellMean col
  simp [he]

/-- C113. Without noise the effect is recovered exactly. -/
theorem C113_did_exact (c : DidCfg K) (z : ℕ → K) (att : K) (hn : c.noiseSd = 0) (h : IsDidAtt (generateDid c z) att) :
    att = c.effect := by
  rw [C113_did c z att h, didCol_zero, add_zero]
  intro r; rw [hn, zero_mul]

/-- C113. `generate_panel_data`: with parallel trends the same holds; without, the estimate is off by the trend violation
times half the number of periods, wherever the treatment date lies (the violation continues after treatment). -/
theorem C113_panel (c : PanelCfg K) (z : ℕ → K) (rows : List (Row K)) (hr : generatePanel c z = .ok rows) (att : K)
    (h : IsDidAtt rows att) :
    att = c.effect + (if c.parallel then 0 else c.violation * ((c.nPeriods : K) / 2))
      + didCol rows (fun r => c.noiseSd * z (r.unit * (c.nPeriods + 1) + 1 + r.period)) := by
  unfold generatePanel at hr
  split_ifs at hr <;> cases hr
  obtain ⟨hacc, hatt⟩ := h
  have hd : ∀ u s, (panelRow c z (u, s)).treated = decide ((u : ℤ) < c.nTreated) := fun _ _ => rfl
  have ht : ∀ u s, (panelRow c z (u, s)).post = decide (c.treatPeriod ≤ (s : ℤ)) := fun _ _ => rfl
  obtain ⟨h1, h2, h3, h4⟩ := (accepts_iff _ _ _ _ _ hd ht).1 hacc
  have := Did2x2.C10_att_is_difference_of_means _ _ _ att (exists_row _ _ _ _ _ h1 h2 h3 h4 hd ht) hatt
  rw [this]
  have hg := did_grid c.nUnits c.nPeriods (panelRow c z) Row.treated Row.post _ _ hd ht Row.outcome
    (fun r => c.noiseSd * z (r.unit * (c.nPeriods + 1) + 1 + r.period)) (fun u => 10 + c.feSd * z (u * (c.nPeriods + 1)))
    (fun s => (s : K)) (if c.parallel then 0 else c.violation) c.effect ?_ (grp_unit _ _ h1 h2) (grp_time _ _ h3 h4)
  · rw [mean_period_gap _ _ h3 h4] at hg
    rw [hg]
    unfold didCol
    cases c.parallel <;> simp
  · intro u s _ _
    simp only [panelRow, Bool.and_eq_true, decide_eq_true_eq]
    cases c.parallel
    · by_cases hu : (u : ℤ) < c.nTreated
      · simp [hu]; ring
      · simp [hu]
    · simp

/-- C113. `generate_event_study_data` analysed as a 2x2 design. -/
theorem C113_event (c : EventCfg K) (z : ℕ → K) (att : K) (h : IsDidAtt (generateEvent c z) att) :
    att = c.effect + didCol (generateEvent c z)
      (fun r => c.noiseSd * z (r.unit * (c.nPre + c.nPost + 1) + 1 + r.period)) := by
  obtain ⟨hacc, hatt⟩ := h
  have hd : ∀ u s, (eventRow c z (u, s)).treated = decide ((u : ℤ) < c.nTreated) := fun _ _ => rfl
  have ht : ∀ u s, (eventRow c z (u, s)).post = decide ((c.nPre : ℤ) ≤ (s : ℤ)) := fun _ _ => by simp [eventRow]
  obtain ⟨h1, h2, h3, h4⟩ := (accepts_iff _ _ _ _ _ hd ht).1 hacc
  have := Did2x2.C10_att_is_difference_of_means _ _ _ att (exists_row _ _ _ _ _ h1 h2 h3 h4 hd ht) hatt
  rw [this]
  have hg := did_grid c.nUnits (c.nPre + c.nPost) (eventRow c z) Row.treated Row.post _ _ hd ht Row.outcome
    (fun r => c.noiseSd * z (r.unit * (c.nPre + c.nPost + 1) + 1 + r.period))
    (fun u => 10 + c.feSd * z (u * (c.nPre + c.nPost + 1)))
    (fun s => (s : K) * (1 / 2)) 0 c.effect ?_ (grp_unit _ _ h1 h2) (grp_time _ _ h3 h4)
  · simp only [zero_mul, add_zero] at hg
    exact hg
  · intro u s _ _
    simp only [eventRow, Bool.and_eq_true, decide_eq_true_eq]
    simp

example : (1 : ℚ) ≤ (exDid.nUnits : ℚ) * exDid.fraction ∧ (exDid.nUnits : ℚ) * exDid.fraction < exDid.nUnits ∧
    0 < exDid.treatPeriod ∧ exDid.treatPeriod < exDid.nPeriods := by decide +kernel

/-- Trend violation 1 over eight periods with effect 5 (the defaults): the noise-free estimate is 9. -/
def exPanel : PanelCfg ℚ := ⟨4, 8, 4, 1 / 2, 5, false, 1, 2, 0⟩

example : ∃ rows, generatePanel exPanel (fun k => (k : ℚ)) = .ok rows ∧ didAccepts rows = true ∧
    ∀ att, IsDidAtt rows att → att = 9 := by
  refine ⟨_, rfl, by decide +kernel, fun att h => ?_⟩
  have := C113_panel exPanel (fun k => (k : ℚ)) _ rfl att h
  rw [didCol_zero _ _ (fun r => by simp [exPanel])] at this
  rw [this]
  norm_num [exPanel]

end DiffDiff.Dgp
