/-
Property C122: SyntheticDiD with covariates.
-/
import Verif.SdidCov
import Verif.SdidVarProps
import Verif.TropJointProps

set_option linter.unusedSectionVars false

namespace DiffDiff.SdidCov

open DiffDiff.SdidFit DiffDiff.SynthWeights
open DiffDiff.Sdid (avg)

variable {K : Type*} [Field K] [LinearOrder K] [IsStrictOrderedRing K] {k : ℕ}

/-! ### Least squares -/

/-- Specification of the solver: it minimises the residual sum of squares. -/
def Solves (solve : List (CRow K k) → ℕ → K) : Prop :=
  ∀ (rows : List (CRow K k)) (c : ℕ → K), (rows.map (fun r => (r.y - fittedAt (columns rows) (solve rows) r) ^ 2)).sum
    ≤ (rows.map (fun r => (r.y - fittedAt (columns rows) c r) ^ 2)).sum

theorem fittedAt_eq (cols : List (Col k)) (c : ℕ → K) (r : CRow K k) :
    fittedAt cols c r = ∑ j ∈ Finset.range cols.length, ((cols[j]?).map (fun x => x.val r)).getD 0 * c j := by
  unfold fittedAt
  rw [Finset.sum_range, ← List.sum_ofFn]
  congr 1
  apply List.ext_getElem
  · simp
  · intro i h1 h2
    have h3 : i < cols.length := by simpa using h1
    simp [h3]

theorem fittedAt_comb (cols : List (Col k)) (a b : K) (c d : ℕ → K) (r : CRow K k) :
    fittedAt cols (fun j => a * c j + b * d j) r = a * fittedAt cols c r + b * fittedAt cols d r := by
  simp only [fittedAt_eq, Finset.mul_sum, ← Finset.sum_add_distrib]
  exact Finset.sum_congr rfl fun j _ => by ring

/-- Such a solver exists. -/
theorem exists_solves : ∃ solve : List (CRow K k) → ℕ → K, Solves solve := by
  obtain ⟨f, hf⟩ := TropJoint.exists_leastSquares (K := K)
  refine ⟨fun rows => f rows.length (columns rows).length
    (fun i j => ((rows[i]?).bind (fun r => ((columns rows)[j]?).map (fun x => x.val r))).getD 0) (fun i => ((rows[i]?).map CRow.y).getD 0), ?_⟩
  intro rows c
  have key : ∀ c : ℕ → K, (rows.map (fun r => (r.y - fittedAt (columns rows) c r) ^ 2)).sum
      = ∑ i ∈ Finset.range rows.length, (((rows[i]?).map CRow.y).getD 0
        - ∑ j ∈ Finset.range (columns rows).length, ((rows[i]?).bind (fun r => ((columns rows)[j]?).map (fun x => x.val r))).getD 0 * c j) ^ 2 := by
    intro c
    rw [Finset.sum_range, ← List.sum_ofFn]
    congr 1
    apply List.ext_getElem
    · simp
    · intro i h1 h2
      have h3 : i < rows.length := by simpa using h1
      simp [h3, fittedAt_eq]
  rw [key, key]
  exact hf _ _ _ _ _

/-- Two minimisers have the same fitted values. -/
theorem fitted_unique (rows : List (CRow K k)) (cols : List (Col k)) (b c : ℕ → K)
    (hb : ∀ e, (rows.map (fun r => (r.y - fittedAt cols b r) ^ 2)).sum ≤ (rows.map (fun r => (r.y - fittedAt cols e r) ^ 2)).sum)
    (hc : ∀ e, (rows.map (fun r => (r.y - fittedAt cols c r) ^ 2)).sum ≤ (rows.map (fun r => (r.y - fittedAt cols e r) ^ 2)).sum) :
    ∀ r ∈ rows, fittedAt cols b r = fittedAt cols c r := by
  have hm := hb (fun j => 1 / 2 * b j + 1 / 2 * c j)
  have e : (rows.map (fun r => (r.y - fittedAt cols (fun j => 1 / 2 * b j + 1 / 2 * c j) r) ^ 2)).sum
      = 1 / 2 * (rows.map (fun r => (r.y - fittedAt cols b r) ^ 2)).sum + 1 / 2 * (rows.map (fun r => (r.y - fittedAt cols c r) ^ 2)).sum
        - 1 / 4 * (rows.map (fun r => (fittedAt cols b r - fittedAt cols c r) ^ 2)).sum := by
    clear hb hc hm
    induction rows with
    | nil => simp
    | cons r rows ih =>
      simp only [List.map_cons, List.sum_cons]
      rw [ih, fittedAt_comb]
      ring
  rw [e] at hm
  have h1 := hb c
  have h2 := hc b
  have h0 : (rows.map (fun r => (fittedAt cols b r - fittedAt cols c r) ^ 2)).sum ≤ 0 := by linarith
  intro r hr
  have h3 : (fittedAt cols b r - fittedAt cols c r) ^ 2 ≤ (rows.map (fun r => (fittedAt cols b r - fittedAt cols c r) ^ 2)).sum :=
    List.single_le_sum (by intro x hx; obtain ⟨_, _, rfl⟩ := List.mem_map.1 hx; exact sq_nonneg _) _ (List.mem_map_of_mem (f := fun r => (fittedAt cols b r - fittedAt cols c r) ^ 2) hr)
  have h4 : (fittedAt cols b r - fittedAt cols c r) ^ 2 = 0 := le_antisymm (h3.trans h0) (sq_nonneg _)
  exact sub_eq_zero.1 (pow_eq_zero_iff (two_ne_zero) |>.1 h4)

theorem sum_fitted (rows : List (CRow K k)) (cols : List (Col k)) (e : ℕ → K) (g : CRow K k → K)
    (h : ∀ c ∈ cols, (rows.map (fun r => c.val r * g r)).sum = 0) : (rows.map (fun r => fittedAt cols e r * g r)).sum = 0 := by
  unfold fittedAt
  have gen : ∀ n, (rows.map (fun r => ((cols.zipIdx n).map (fun x => x.1.val r * e x.2)).sum * g r)).sum = 0 := by
    induction cols with
    | nil => intro n; simp
    | cons c cols ih =>
      intro n
      have h1 := h c List.mem_cons_self
      have h2 := ih (fun c hc => h c (List.mem_cons_of_mem _ hc)) (n + 1)
      have e1 : (rows.map (fun r => (((c :: cols).zipIdx n).map (fun x => x.1.val r * e x.2)).sum * g r))
          = rows.map (fun r => (fun r => e n * (c.val r * g r)) r + (fun r => ((cols.zipIdx (n + 1)).map (fun x => x.1.val r * e x.2)).sum * g r) r) := by
        refine List.map_congr_left fun r _ => ?_
        rw [List.zipIdx_cons, List.map_cons, List.sum_cons]
        dsimp only
        ring
      rw [e1, sum_map_add, h2, List.sum_map_mul_left, h1, mul_zero, add_zero]
  exact gen 0

/-- Residuals orthogonal to every column are those of a minimiser. -/
theorem min_of_orth (rows : List (CRow K k)) (cols : List (Col k)) (b : ℕ → K)
    (h : ∀ c ∈ cols, (rows.map (fun r => c.val r * (r.y - fittedAt cols b r))).sum = 0) (e : ℕ → K) :
    (rows.map (fun r => (r.y - fittedAt cols b r) ^ 2)).sum ≤ (rows.map (fun r => (r.y - fittedAt cols e r) ^ 2)).sum := by
  have h1 := sum_fitted rows cols (fun j => 1 * b j + (-1) * e j) _ h
  have e1 : (rows.map (fun r => (r.y - fittedAt cols e r) ^ 2)).sum
      = (rows.map (fun r => (r.y - fittedAt cols b r) ^ 2)).sum
        + 2 * (rows.map (fun r => fittedAt cols (fun j => 1 * b j + (-1) * e j) r * (r.y - fittedAt cols b r))).sum
        + (rows.map (fun r => (fittedAt cols b r - fittedAt cols e r) ^ 2)).sum := by
    have gen : ∀ l : List (CRow K k), (l.map (fun r => (r.y - fittedAt cols e r) ^ 2)).sum
        = (l.map (fun r => (r.y - fittedAt cols b r) ^ 2)).sum
        + 2 * (l.map (fun r => fittedAt cols (fun j => 1 * b j + (-1) * e j) r * (r.y - fittedAt cols b r))).sum
        + (l.map (fun r => (fittedAt cols b r - fittedAt cols e r) ^ 2)).sum := by
      intro l
      induction l with
      | nil => simp
      | cons r l ih =>
        simp only [List.map_cons, List.sum_cons]
        rw [ih, fittedAt_comb]
        ring
    exact gen rows
  rw [e1, h1]
  have : 0 ≤ (rows.map (fun r => (fittedAt cols b r - fittedAt cols e r) ^ 2)).sum :=
    List.sum_nonneg (by intro x hx; obtain ⟨_, _, rfl⟩ := List.mem_map.1 hx; exact sq_nonneg _)
  linarith

/-! ### What the columns span -/

theorem sum_indicator (l : List ℤ) (hl : l.Nodup) (u : ℤ) (hu : u ∈ l) (a : ℤ → K) :
    ((l.drop 1).map (fun v => (if u = v then (1 : K) else 0) * (a v - a (l.headD 0)))).sum = a u - a (l.headD 0) := by
  have zero : ∀ m : List ℤ, u ∉ m → ∀ c : K, (m.map (fun v => (if u = v then (1 : K) else 0) * (a v - c))).sum = 0 := by
    intro m hm c
    refine List.sum_eq_zero ?_
    intro x hx
    obtain ⟨v, hv, rfl⟩ := List.mem_map.1 hx
    rw [if_neg (by rintro rfl; exact hm hv), zero_mul]
  have one : ∀ m : List ℤ, m.Nodup → u ∈ m → ∀ c : K, (m.map (fun v => (if u = v then (1 : K) else 0) * (a v - c))).sum = a u - c := by
    intro m
    induction m with
    | nil => intro _ h; simp at h
    | cons v m ih =>
      intro hn hu c
      rw [List.map_cons, List.sum_cons]
      rw [List.nodup_cons] at hn
      rcases List.mem_cons.1 hu with rfl | hm
      · rw [zero m hn.1, if_pos rfl]; ring
      · rw [ih hn.2 hm, if_neg (fun q : u = v => hn.1 (q ▸ hm))]; ring
  cases l with
  | nil => simp at hu
  | cons v m =>
    rw [List.nodup_cons] at hl
    show (m.map _).sum = a u - a v
    rcases List.mem_cons.1 hu with rfl | hu
    · show (m.map (fun v => (if u = v then (1 : K) else 0) * (a v - a u))).sum = a u - a u
      rw [zero m hl.1]; ring
    · exact one m hl.2 hu (a v)

theorem units_nodup (rows : List (CRow K k)) : (units rows).Nodup :=
  (List.perm_insertionSort (· ≤ ·) _).nodup_iff.2 (List.nodup_dedup _)

theorem times_nodup (rows : List (CRow K k)) : (times rows).Nodup :=
  (List.perm_insertionSort (· ≤ ·) _).nodup_iff.2 (List.nodup_dedup _)

theorem mem_units {rows : List (CRow K k)} {r : CRow K k} (h : r ∈ rows) : r.unit ∈ units rows := by
  unfold units
  rw [(List.perm_insertionSort (· ≤ ·) _).mem_iff, List.mem_dedup]
  exact List.mem_map_of_mem h

theorem mem_times {rows : List (CRow K k)} {r : CRow K k} (h : r ∈ rows) : r.time ∈ times rows := by
  unfold times
  rw [(List.perm_insertionSort (· ≤ ·) _).mem_iff, List.mem_dedup]
  exact List.mem_map_of_mem h

/-- A vector of coefficients given by a function of the column. -/
def byCol (cols : List (Col k)) (g : Col k → K) (j : ℕ) : K := ((cols[j]?).map g).getD 0

theorem fittedAt_byCol (cols : List (Col k)) (g : Col k → K) (r : CRow K k) :
    fittedAt cols (byCol cols g) r = (cols.map (fun c => c.val r * g c)).sum := by
  unfold fittedAt
  congr 1
  apply List.ext_getElem
  · simp
  · intro i h1 h2
    have h3 : i < cols.length := by simpa using h1
    simp [byCol, h3]

/-- Unit effects, period effects and covariate effects are combinations of the columns. -/
theorem span (rows : List (CRow K k)) (a b : ℤ → K) (beta : Fin k → K) :
    ∃ c : ℕ → K, ∀ r ∈ rows, fittedAt (columns rows) c r = a r.unit + b r.time + ∑ i, beta i * r.x i := by
  refine ⟨byCol (columns rows) (fun col => match col with
    | .one => a ((units rows).headD 0) + b ((times rows).headD 0)
    | .cov i => beta i
    | .unit u => a u - a ((units rows).headD 0)
    | .time t => b t - b ((times rows).headD 0)), fun r hr => ?_⟩
  rw [fittedAt_byCol]
  unfold columns
  rw [List.map_append, List.map_append, List.map_append, List.sum_append, List.sum_append, List.sum_append, List.map_map, List.map_map, List.map_map]
  have h1 := sum_indicator (units rows) (units_nodup rows) r.unit (mem_units hr) a
  have h2 := sum_indicator (times rows) (times_nodup rows) r.time (mem_times hr) b
  have e1 : ((List.finRange k).map (fun i : Fin k => r.x i * beta i)).sum = ∑ i, beta i * r.x i := by
    rw [← List.ofFn_eq_map, List.sum_ofFn]
    exact Finset.sum_congr rfl fun i _ => mul_comm _ _
  have g1 : (((units rows).drop 1).map ((fun c : Col k => c.val r * (match c with
    | .one => a ((units rows).headD 0) + b ((times rows).headD 0)
    | .cov i => beta i
    | .unit u => a u - a ((units rows).headD 0)
    | .time t => b t - b ((times rows).headD 0))) ∘ Col.unit)).sum = a r.unit - a ((units rows).headD 0) := h1
  have g2 : (((times rows).drop 1).map ((fun c : Col k => c.val r * (match c with
    | .one => a ((units rows).headD 0) + b ((times rows).headD 0)
    | .cov i => beta i
    | .unit u => a u - a ((units rows).headD 0)
    | .time t => b t - b ((times rows).headD 0))) ∘ Col.time)).sum = b r.time - b ((times rows).headD 0) := h2
  have g3 : ((List.finRange k).map ((fun c : Col k => c.val r * (match c with
    | .one => a ((units rows).headD 0) + b ((times rows).headD 0)
    | .cov i => beta i
    | .unit u => a u - a ((units rows).headD 0)
    | .time t => b t - b ((times rows).headD 0))) ∘ Col.cov)).sum = ∑ i, beta i * r.x i := e1
  rw [g1, g2, g3]
  simp only [List.map_cons, List.map_nil, List.sum_cons, List.sum_nil, Col.val]
  ring

/-! ### Invariance -/

/-- Add unit effects, period effects and covariate effects to the outcomes. -/
def shift (a b : ℤ → K) (beta : Fin k → K) (rows : List (CRow K k)) : List (CRow K k) :=
  rows.map (fun r => { r with y := r.y + (a r.unit + b r.time + ∑ i, beta i * r.x i) })

theorem columns_shift (a b : ℤ → K) (beta : Fin k → K) (rows : List (CRow K k)) : columns (shift a b beta rows) = columns rows := by
  unfold columns units times shift
  rw [List.map_map, List.map_map]
  rfl

theorem fittedAt_y (cols : List (Col k)) (c : ℕ → K) (r : CRow K k) (v : K) : fittedAt cols c { r with y := v } = fittedAt cols c r := by
  unfold fittedAt
  congr 1

/-- Residuals do not see what the columns span. -/
theorem resid_shift (solve : List (CRow K k) → ℕ → K) (hs : Solves solve) (a b : ℤ → K) (beta : Fin k → K) (rows : List (CRow K k)) :
    ∀ r ∈ rows, r.y + (a r.unit + b r.time + ∑ i, beta i * r.x i) - fittedAt (columns rows) (solve (shift a b beta rows)) r
      = r.y - fittedAt (columns rows) (solve rows) r := by
  obtain ⟨c0, hc0⟩ := span rows a b beta
  have key : ∀ c : ℕ → K, ((shift a b beta rows).map (fun r => (r.y - fittedAt (columns rows) c r) ^ 2)).sum
      = (rows.map (fun r => (r.y - fittedAt (columns rows) (fun j => 1 * c j + (-1) * c0 j) r) ^ 2)).sum := by
    intro c
    unfold shift
    rw [List.map_map]
    congr 1
    refine List.map_congr_left fun r hr => ?_
    simp only [Function.comp]
    rw [fittedAt_y, fittedAt_comb, hc0 r hr]
    ring
  have hmin : ∀ e, (rows.map (fun r => (r.y - fittedAt (columns rows) (fun j => 1 * solve (shift a b beta rows) j + (-1) * c0 j) r) ^ 2)).sum
      ≤ (rows.map (fun r => (r.y - fittedAt (columns rows) e r) ^ 2)).sum := by
    intro e
    rw [← key]
    have := hs (shift a b beta rows) (fun j => 1 * e j + 1 * c0 j)
    rw [columns_shift] at this
    refine this.trans (le_of_eq ?_)
    rw [key]
    congr 1
    refine List.map_congr_left fun r _ => ?_
    rw [fittedAt_comb, fittedAt_comb]
    ring
  intro r hr
  have := fitted_unique rows (columns rows) _ _ hmin (hs rows) r hr
  rw [fittedAt_comb, hc0 r hr] at this
  linarith

theorem residualize_shift (solve : List (CRow K k) → ℕ → K) (hs : Solves solve) (a b : ℤ → K) (beta : Fin k → K) (rows : List (CRow K k)) :
    residualize solve (shift a b beta rows) = addTime (fun _ => meanY (shift a b beta rows) - meanY rows) (residualize solve rows) := by
  have key := resid_shift solve hs a b beta rows
  unfold residualize addTime
  rw [columns_shift]
  generalize solve (shift a b beta rows) = c at *
  generalize meanY (shift a b beta rows) = m at *
  unfold shift
  rw [List.map_map, List.map_map]
  refine List.map_congr_left fun r hr => ?_
  simp only [Function.comp, CRow.base, Option.map_some]
  rw [fittedAt_y, key r hr]
  congr 2
  ring

/-- `sample` sees of the outcomes only whether they are missing. -/
theorem sample_map {L : Type*} [Field L] [LinearOrder L] [IsStrictOrderedRing L] (f : Row K → K → L) (rows : List (Row K)) (postArg : Option (List ℤ)) :
    sample (rows.map (fun r => (⟨r.unit, r.time, r.d, r.y.map (f r)⟩ : Row L))) postArg = sample rows postArg := by
  set g : Row K → Row L := fun r => ⟨r.unit, r.time, r.d, r.y.map (f r)⟩ with hg
  have e1 : allPeriods (rows.map g) = allPeriods rows := by unfold allPeriods; rw [List.map_map]; rfl
  have e0 : allUnits (rows.map g) = allUnits rows := by unfold allUnits; rw [List.map_map]; rfl
  have ef : firstTreat (rows.map g) = firstTreat rows := by
    funext u
    unfold firstTreat
    rw [List.filter_map, List.findSome?_map]
    rfl
  have e2 : treatedUnits (rows.map g) = treatedUnits rows := by unfold treatedUnits; rw [e0, ef]
  have e3 : controlUnits (rows.map g) = controlUnits rows := by unfold controlUnits; rw [e0, ef]
  have e4 : (∃ r ∈ rows.map g, ∃ v, r.d = some v ∧ v ≠ 0 ∧ v ≠ 1) ↔ (∃ r ∈ rows, ∃ v, r.d = some v ∧ v ≠ 0 ∧ v ≠ 1) := by
    constructor
    · rintro ⟨r, hr, q⟩
      obtain ⟨r', hr', rfl⟩ := List.mem_map.1 hr
      exact ⟨r', hr', q⟩
    · rintro ⟨r, hr, q⟩
      exact ⟨_, List.mem_map_of_mem hr, q⟩
  have e5 : (rows.map g).map (fun r => (r.unit, r.time)) = rows.map (fun r => (r.unit, r.time)) := by
    rw [List.map_map]; rfl
  have e6 : ∀ u t, cell (rows.map g) u t = none ↔ cell rows u t = none := by
    intro u t
    unfold cell
    rw [List.find?_map]
    have : ((fun r : Row L => decide (r.unit = u ∧ r.time = t)) ∘ g) = fun r => decide (r.unit = u ∧ r.time = t) := rfl
    rw [this]
    cases rows.find? (fun r => decide (r.unit = u ∧ r.time = t)) with
    | none => simp
    | some r => simp [hg]
  unfold sample
  simp only [e1, e2, e3, e4, e5, e6]

/-- The residualised data have the units, periods and groups of the data. -/
theorem sample_residualize (solve : List (CRow K k) → ℕ → K) (rows : List (CRow K k)) (postArg : Option (List ℤ)) :
    sample (residualize solve rows) postArg = sample (rows.map CRow.base) postArg := by
  rw [← sample_map (fun _ _ => (0 : K)) (residualize solve rows), ← sample_map (fun _ _ => (0 : K)) (rows.map CRow.base)]
  congr 1
  unfold residualize
  rw [List.map_map, List.map_map]
  rfl

theorem sample_shift (a b : ℤ → K) (beta : Fin k → K) (rows : List (CRow K k)) (postArg : Option (List ℤ)) :
    sample ((shift a b beta rows).map CRow.base) postArg = sample (rows.map CRow.base) postArg := by
  rw [← sample_map (fun _ _ => (0 : K)) ((shift a b beta rows).map CRow.base), ← sample_map (fun _ _ => (0 : K)) (rows.map CRow.base)]
  congr 1
  unfold shift
  rw [List.map_map, List.map_map, List.map_map]
  rfl

/-- C122. With covariates, nothing that `fit` reports changes when unit effects, period effects or effects of the covariates are
added to the outcomes. -/
theorem C122_invariance (W : Weights K) (hW : W.Prob) (hT : W.TimeInv) (solve : List (CRow K k) → ℕ → K) (hs : Solves solve) (hk : 0 < k)
    (r pval : K → K) (crit : K) (boot : Bool) (draws : List (List ℕ)) (rows : List (CRow K k)) (postArg : Option (List ℤ))
    (a b : ℤ → K) (beta : Fin k → K)
    (hc : ∀ r ∈ rows, ∀ r' ∈ rows, r.unit = r'.unit → ∀ v v', r.d = some v → r'.d = some v' → v = v')
    (hp : boot = false → ∀ s, sample (rows.map CRow.base) postArg = .ok s → ∀ π ∈ draws, π.Perm (List.range s.ctl.length)) :
    fitCov W solve r pval crit boot draws (shift a b beta rows) postArg = fitCov W solve r pval crit boot draws rows postArg := by
  have hlen : (shift a b beta rows).length = rows.length := List.length_map _
  unfold fitCov
  rw [if_neg hk.ne', if_neg hk.ne', sample_shift, columns_shift, hlen, residualize_shift solve hs]
  rw [C120_period_effects W hW hT r pval crit boot draws (residualize solve rows) postArg]
  · intro r hr r' hr' hu v v' hv hv'
    obtain ⟨q, hq, rfl⟩ := List.mem_map.1 hr
    obtain ⟨q', hq', rfl⟩ := List.mem_map.1 hr'
    exact hc q hq q' hq' hu v v' hv hv'
  · intro hb s hsm
    rw [sample_residualize] at hsm
    exact hp hb s hsm

/-! ### What the estimate is -/

/-- Average of `f` over a list. -/
def mean (l : List ℤ) (f : ℤ → K) : K := (l.map f).sum / (l.length : K)

/-- Weighted sum. -/
def wsum (l : List (ℤ × K)) (f : ℤ → K) : K := (l.map (fun x => x.2 * f x.1)).sum

/-- Double difference of `z` with the given unit and time weights. -/
def contrast (ut tt : List (ℤ × K)) (trt post : List ℤ) (z : ℤ → ℤ → K) : K :=
  (mean post (fun t => mean trt (fun u => z u t)) - wsum tt (fun t => mean trt (fun u => z u t)))
    - wsum ut (fun u => mean post (fun t => z u t) - wsum tt (fun t => z u t))

theorem mean_add (l : List ℤ) (f g : ℤ → K) : mean l (fun x => f x + g x) = mean l f + mean l g := by
  unfold mean; rw [sum_map_add, add_div]

theorem mean_smul (l : List ℤ) (c : K) (f : ℤ → K) : mean l (fun x => c * f x) = c * mean l f := by
  unfold mean; rw [List.sum_map_mul_left, mul_div_assoc]

theorem mean_const {l : List ℤ} (hl : l ≠ []) (c : K) : mean l (fun _ => c) = c := by
  have : (l.length : K) ≠ 0 := by exact_mod_cast (List.length_pos_of_ne_nil hl).ne'
  unfold mean
  rw [List.map_const', List.sum_replicate, nsmul_eq_mul, mul_div_cancel_left₀ _ this]

theorem mean_congr {l : List ℤ} {f g : ℤ → K} (h : ∀ x ∈ l, f x = g x) : mean l f = mean l g := by
  unfold mean; rw [List.map_congr_left h]

theorem wsum_add (l : List (ℤ × K)) (f g : ℤ → K) : wsum l (fun x => f x + g x) = wsum l f + wsum l g := by
  unfold wsum; rw [← sum_map_add]; simp only [mul_add]

theorem wsum_smul (l : List (ℤ × K)) (c : K) (f : ℤ → K) : wsum l (fun x => c * f x) = c * wsum l f := by
  unfold wsum
  rw [← List.sum_map_mul_left]
  congr 1
  exact List.map_congr_left fun x _ => by ring

theorem wsum_const {l : List (ℤ × K)} (hl : (l.map Prod.snd).sum = 1) (c : K) : wsum l (fun _ => c) = c := by
  unfold wsum
  rw [List.sum_map_mul_right, hl, one_mul]

theorem wsum_congr {l : List (ℤ × K)} {f g : ℤ → K} (h : ∀ x ∈ l.map Prod.fst, f x = g x) : wsum l f = wsum l g := by
  unfold wsum
  congr 1
  exact List.map_congr_left fun x hx => by rw [h _ (List.mem_map_of_mem hx)]

theorem contrast_add (ut tt : List (ℤ × K)) (trt post : List ℤ) (z z' : ℤ → ℤ → K) :
    contrast ut tt trt post (fun u t => z u t + z' u t) = contrast ut tt trt post z + contrast ut tt trt post z' := by
  have e : ∀ u, (mean post (fun t => z u t + z' u t) - wsum tt (fun t => z u t + z' u t))
      = (mean post (fun t => z u t) - wsum tt (fun t => z u t)) + (mean post (fun t => z' u t) - wsum tt (fun t => z' u t)) := by
    intro u; rw [mean_add, wsum_add]; ring
  unfold contrast
  simp only [e]
  simp only [mean_add, wsum_add]
  ring

theorem contrast_smul (ut tt : List (ℤ × K)) (trt post : List ℤ) (c : K) (z : ℤ → ℤ → K) :
    contrast ut tt trt post (fun u t => c * z u t) = c * contrast ut tt trt post z := by
  have e : ∀ u, (mean post (fun t => c * z u t) - wsum tt (fun t => c * z u t)) = c * (mean post (fun t => z u t) - wsum tt (fun t => z u t)) := by
    intro u; rw [mean_smul, wsum_smul]; ring
  unfold contrast
  simp only [e]
  simp only [mean_smul, wsum_smul]
  ring

theorem contrast_sum (ut tt : List (ℤ × K)) (trt post : List ℤ) {ι : Type*} (S : Finset ι) (c : ι → K) (z : ι → ℤ → ℤ → K) :
    contrast ut tt trt post (fun u t => ∑ i ∈ S, c i * z i u t) = ∑ i ∈ S, c i * contrast ut tt trt post (z i) := by
  classical
  induction S using Finset.induction_on with
  | empty =>
    simp only [Finset.sum_empty]
    have := contrast_smul ut tt trt post (0 : K) (fun _ _ => 0)
    simpa using this
  | insert i S hi ih =>
    simp only [Finset.sum_insert hi]
    rw [contrast_add, contrast_smul, ih]

theorem contrast_unit (ut tt : List (ℤ × K)) (trt post : List ℤ) (hq : post ≠ []) (h2 : (tt.map Prod.snd).sum = 1) (a : ℤ → K) :
    contrast ut tt trt post (fun u _ => a u) = 0 := by
  unfold contrast
  rw [mean_const hq, wsum_const h2]
  have e : ∀ u, mean post (fun _ => a u) - wsum tt (fun _ => a u) = 0 * a u := by
    intro u; rw [mean_const hq, wsum_const h2]; ring
  simp only [e]
  rw [wsum_smul]
  ring

theorem contrast_time (ut tt : List (ℤ × K)) (trt post : List ℤ) (ht : trt ≠ []) (h1 : (ut.map Prod.snd).sum = 1) (b : ℤ → K) :
    contrast ut tt trt post (fun _ t => b t) = 0 := by
  unfold contrast
  simp only [mean_const ht]
  rw [wsum_const h1]
  ring

theorem contrast_congr {ut tt : List (ℤ × K)} {trt post : List ℤ} {z z' : ℤ → ℤ → K}
    (h : ∀ u, (u ∈ trt ∨ u ∈ ut.map Prod.fst) → ∀ t, (t ∈ post ∨ t ∈ tt.map Prod.fst) → z u t = z' u t) :
    contrast ut tt trt post z = contrast ut tt trt post z' := by
  unfold contrast
  rw [mean_congr (fun t ht => mean_congr (fun u hu => h u (.inl hu) t (.inl ht))),
    wsum_congr (fun t ht => mean_congr (fun u hu => h u (.inl hu) t (.inr ht))),
    wsum_congr (fun u hu => congrArg₂ (· - ·) (mean_congr (fun t ht => h u (.inr hu) t (.inl ht))) (wsum_congr (fun t ht => h u (.inr hu) t (.inr ht))))]

theorem contrast_effect (ut tt : List (ℤ × K)) (trt post : List ℤ) (ht : trt ≠ []) (hq : post ≠ [])
    (hu : ∀ u ∈ ut.map Prod.fst, u ∉ trt) (hp : ∀ t ∈ tt.map Prod.fst, t ∉ post) (tau : K) :
    contrast ut tt trt post (fun u t => if u ∈ trt ∧ t ∈ post then tau else 0) = tau := by
  have e1 : mean post (fun t => mean trt (fun u => if u ∈ trt ∧ t ∈ post then tau else 0)) = tau := by
    rw [← mean_const hq tau]
    refine mean_congr fun t h => ?_
    rw [mean_const hq]
    rw [← mean_const ht tau]
    refine mean_congr fun u h' => ?_
    rw [if_pos ⟨h', h⟩, mean_const ht]
  have e2 : wsum tt (fun t => mean trt (fun u => if u ∈ trt ∧ t ∈ post then tau else 0)) = 0 := by
    rw [wsum_congr (g := fun _ => 0 * (0 : K)), wsum_smul, zero_mul]
    intro t h
    rw [zero_mul, ← mean_const ht (0 : K)]
    refine mean_congr fun u h' => ?_
    rw [if_neg (fun q => hp t h q.2), mean_const ht]
  have e3 : wsum ut (fun u => mean post (fun t => if u ∈ trt ∧ t ∈ post then tau else 0) - wsum tt (fun t => if u ∈ trt ∧ t ∈ post then tau else 0)) = 0 := by
    rw [wsum_congr (g := fun _ => 0 * (0 : K)), wsum_smul, zero_mul]
    intro u h
    have n : ∀ t, ¬ (u ∈ trt ∧ t ∈ post) := fun t q => hu u h q.1
    simp only [if_neg (n _)]
    rw [mean_const hq]
    unfold wsum
    simp
  unfold contrast
  rw [e1, e2, e3]; ring

/-- The fitted values are a unit effect, a period effect and the covariates times their coefficients. -/
theorem fittedAt_parts (rows : List (CRow K k)) (c : ℕ → K) : ∃ a b : ℤ → K, ∀ r : CRow K k,
    fittedAt (columns rows) c r = a r.unit + b r.time + ∑ i : Fin k, c (i + 1) * r.x i := by
  let n1 := ([Col.one] ++ (List.finRange k).map Col.cov : List (Col k)).length
  let n2 := ([Col.one] ++ (List.finRange k).map Col.cov ++ ((units rows).drop 1).map Col.unit : List (Col k)).length
  refine ⟨fun u => c 0 + (((((units rows).drop 1).map Col.unit).zipIdx n1).map (fun x => x.1.val (⟨u, 0, none, 0, fun _ => 0⟩ : CRow K k) * c x.2)).sum,
    fun t => (((((times rows).drop 1).map Col.time).zipIdx n2).map (fun x => x.1.val (⟨0, t, none, 0, fun _ => 0⟩ : CRow K k) * c x.2)).sum, fun r => ?_⟩
  have e1 : ((((units rows).drop 1).map Col.unit).zipIdx n1).map (fun x => x.1.val r * c x.2)
      = ((((units rows).drop 1).map Col.unit).zipIdx n1).map (fun x => x.1.val (⟨r.unit, 0, none, 0, fun _ => 0⟩ : CRow K k) * c x.2) := by
    refine List.map_congr_left fun x hx => ?_
    obtain ⟨v, _, hv⟩ := List.mem_map.1 (List.fst_mem_of_mem_zipIdx hx)
    rw [← hv]; rfl
  have e2 : ((((times rows).drop 1).map Col.time).zipIdx n2).map (fun x => x.1.val r * c x.2)
      = ((((times rows).drop 1).map Col.time).zipIdx n2).map (fun x => x.1.val (⟨0, r.time, none, 0, fun _ => 0⟩ : CRow K k) * c x.2) := by
    refine List.map_congr_left fun x hx => ?_
    obtain ⟨v, _, hv⟩ := List.mem_map.1 (List.fst_mem_of_mem_zipIdx hx)
    rw [← hv]; rfl
  have e3 : ((((List.finRange k).map Col.cov).zipIdx 1).map (fun x => x.1.val r * c x.2)).sum = ∑ i : Fin k, c (i + 1) * r.x i := by
    rw [← List.sum_ofFn]
    congr 1
    apply List.ext_getElem
    · simp
    · intro i h1 h2
      simp [Col.val, mul_comm, add_comm]
  unfold fittedAt columns
  rw [List.zipIdx_append, List.zipIdx_append, List.zipIdx_append, List.map_append, List.map_append, List.map_append,
    List.sum_append, List.sum_append, List.sum_append, zero_add, zero_add, zero_add]
  show _ + _ + (((((units rows).drop 1).map Col.unit).zipIdx n1).map (fun x => x.1.val r * c x.2)).sum
    + (((((times rows).drop 1).map Col.time).zipIdx n2).map (fun x => x.1.val r * c x.2)).sum = _
  rw [e1, e2]
  have e4 : ((([Col.one] : List (Col k)).zipIdx).map (fun x => x.1.val r * c x.2)).sum = c 0 := by
    simp [Col.val]
  rw [e4]
  have e5 : ((((List.finRange k).map Col.cov).zipIdx ([Col.one] : List (Col k)).length).map (fun x => x.1.val r * c x.2)).sum
      = ∑ i : Fin k, c (i + 1) * r.x i := e3
  rw [e5]
  ring

/-- Covariate `i` of the row for a unit and a period. -/
def xval (rows : List (CRow K k)) (i : Fin k) (u t : ℤ) : K :=
  ((rows.find? (fun r => decide (r.unit = u ∧ r.time = t))).map (fun r => r.x i)).getD 0

theorem cell_some {rows : List (Row K)} {postArg : Option (List ℤ)} {s : Sample} (h : sample rows postArg = .ok s) {u t : ℤ}
    (hu : u ∈ s.trt ∨ u ∈ s.ctl) (ht : t ∈ s.pre ∨ t ∈ s.post) : ∃ v, cell rows u t = some v := by
  have ha := (C119_accepts rows postArg).1 ⟨s, h⟩
  have hs := sample_eq h
  have hu' : firstTreat rows u = some 0 ∨ firstTreat rows u = some 1 := by
    subst hs
    rcases hu with hu | hu
    · exact Or.inr (mem_treated.1 hu)
    · exact Or.inl (mem_control.1 hu)
  have ht' : ∃ r ∈ rows, r.time = t := by
    rw [← mem_allPeriods]
    subst hs
    cases postArg with
    | none =>
      rcases ht with ht | ht
      · exact List.mem_of_mem_take ht
      · exact List.mem_of_mem_drop ht
    | some l =>
      rcases ht with ht | ht
      · exact (List.mem_filter.1 ht).1
      · exact mem_allPeriods.2 ((ha.post l rfl).2.1 t ht)
  obtain ⟨r, hr, rfl⟩ := ht'
  exact ha.complete u hu' r hr

theorem find_of {rows : List (CRow K k)} {postArg : Option (List ℤ)} {s : Sample} (h : sample (rows.map CRow.base) postArg = .ok s) {u t : ℤ}
    (hu : u ∈ s.trt ∨ u ∈ s.ctl) (ht : t ∈ s.pre ∨ t ∈ s.post) :
    ∃ r ∈ rows, r.unit = u ∧ r.time = t ∧ rows.find? (fun r => decide (r.unit = u ∧ r.time = t)) = some r := by
  obtain ⟨v, hcell⟩ := cell_some h hu ht
  cases hf : rows.find? (fun r => decide (r.unit = u ∧ r.time = t)) with
  | none =>
    exfalso
    unfold cell at hcell
    rw [List.find?_map] at hcell
    have hcell' : Option.bind (Option.map CRow.base (rows.find? (fun r => decide (r.unit = u ∧ r.time = t)))) Row.y = some v := hcell
    rw [hf] at hcell'
    simp at hcell'
  | some r =>
    have h1 := List.mem_of_find?_eq_some hf
    have h2 : r.unit = u ∧ r.time = t := by
      have := List.find?_some hf
      simpa using this
    exact ⟨r, h1, h2.1, h2.2, rfl⟩

theorem outcome_residualize (solve : List (CRow K k) → ℕ → K) (rows : List (CRow K k)) {u t : ℤ} {r : CRow K k}
    (h : rows.find? (fun r => decide (r.unit = u ∧ r.time = t)) = some r) :
    outcome (residualize solve rows) u t = r.y - fittedAt (columns rows) (solve rows) r + meanY rows := by
  unfold outcome cell residualize
  rw [List.find?_map]
  show (Option.bind (Option.map _ (rows.find? (fun r => decide (r.unit = u ∧ r.time = t)))) Row.y).getD 0 = _
  rw [h]
  rfl

/-- What `fit` returns in terms of the sample. -/
theorem fit_res {W : Weights K} {r pval : K → K} {crit : K} {boot : Bool} {draws : List (List ℕ)} {rows : List (Row K)}
    {postArg : Option (List ℤ)} {s : Sample} (hsm : sample rows postArg = .ok s) {res : Res K} (h : fit W r pval crit boot draws rows postArg = .ok res) :
    res.att = attOn W (outcome rows) s.pre s.post s.trt s.ctl ∧
    res.unitWeights = List.ofFn (fun j => (s.ctl.get j, unitW W (outcome rows) s.pre s.trt s.ctl j)) ∧
    res.timeWeights = List.ofFn (fun t => (s.pre.get t, timeW W (outcome rows) s.pre s.trt s.ctl t)) ∧ res.post = s.post := by
  unfold fit at h
  rw [hsm] at h
  dsimp only at h
  split at h
  · cases h
  · cases h
    exact ⟨rfl, rfl, rfl, rfl⟩

theorem fitCov_res {W : Weights K} {solve : List (CRow K k) → ℕ → K} (hk : 0 < k) {r pval : K → K} {crit : K} {boot : Bool} {draws : List (List ℕ)}
    {rows : List (CRow K k)} {postArg : Option (List ℤ)} {res : Res K} (h : fitCov W solve r pval crit boot draws rows postArg = .ok res) :
    ∃ s, sample (rows.map CRow.base) postArg = .ok s ∧ fit W r pval crit boot draws (residualize solve rows) postArg = .ok res := by
  unfold fitCov at h
  rw [if_neg hk.ne'] at h
  split at h
  · split_ifs at h
  · rename_i s hs
    refine ⟨s, hs, ?_⟩
    split_ifs at h
    cases hf : fit W r pval crit boot draws (residualize solve rows) postArg with
    | error e => rw [hf] at h; simp [Except.mapError] at h
    | ok x => rw [hf] at h; simpa [Except.mapError] using h

theorem fitCov_placebo (W : Weights K) (solve : List (CRow K k) → ℕ → K) (hk : 0 < k) (r pval : K → K) (crit : K) (draws : List (List ℕ))
    (rows : List (CRow K k)) (postArg : Option (List ℤ)) {s : Sample} (hsm : sample (rows.map CRow.base) postArg = .ok s)
    (hl : ¬ rows.length < (columns rows).length) :
    ∃ res, fitCov W solve r pval crit false draws rows postArg = .ok res ∧ fit W r pval crit false draws (residualize solve rows) postArg = .ok res := by
  have hs' : sample (residualize solve rows) postArg = .ok s := by rw [sample_residualize]; exact hsm
  have : ∃ res, fit W r pval crit false draws (residualize solve rows) postArg = .ok res := ⟨_, by unfold fit; rw [hs']; rfl⟩
  obtain ⟨res, h⟩ := this
  refine ⟨res, ?_, h⟩
  unfold fitCov
  rw [if_neg hk.ne', hsm]
  dsimp only
  rw [if_neg hl, h]
  rfl

theorem contrast_attOn (W : Weights K) (y : ℤ → ℤ → K) (pre post trt ctl : List ℤ) :
    attOn W y pre post trt ctl = contrast (List.ofFn (fun j => (ctl.get j, unitW W y pre trt ctl j)))
      (List.ofFn (fun t => (pre.get t, timeW W y pre trt ctl t))) trt post y := by
  rw [attOn_eq]
  unfold contrast wsum
  simp only [List.map_ofFn, List.sum_ofFn, Function.comp]
  have e : ∀ t, avg (fun i : Fin trt.length => y (trt.get i) t) = mean trt (fun u => y u t) := fun t => avg_eq_sum trt (fun u => y u t)
  simp only [e]
  rfl

/-- C122. With additive outcomes (unit effect, period effect, effects `beta` of the covariates, constant treatment effect `tau`)
the estimate is `tau` plus, for each covariate, the error of its coefficient in the regression of the outcome on covariates and
dummies times the weighted double difference of the covariate, with the weights that the results report. -/
theorem C122_bias (W : Weights K) (hW : W.Prob) (solve : List (CRow K k) → ℕ → K) (hk : 0 < k)
    (r pval : K → K) (crit : K) (boot : Bool) (draws : List (List ℕ)) (rows : List (CRow K k)) (postArg : Option (List ℤ))
    (hc : Constant (rows.map CRow.base)) (res : Res K) (h : fitCov W solve r pval crit boot draws rows postArg = .ok res)
    (a b : ℤ → K) (beta : Fin k → K) (tau : K)
    (hy : ∀ q ∈ rows, q.y = a q.unit + b q.time + ∑ i, beta i * q.x i + if q.d = some 1 ∧ q.time ∈ res.post then tau else 0)
    (hd : ∀ q ∈ rows, q.d = none → q.time ∉ res.post) :
    res.att = tau + ∑ i : Fin k, (beta i - solve rows (i + 1))
      * contrast res.unitWeights res.timeWeights (((rows.filter (fun q => decide (q.d = some 1))).map CRow.unit).dedup.insertionSort (· ≤ ·)) res.post (xval rows i) := by
  obtain ⟨s, hs, hf⟩ := fitCov_res hk h
  have hs' : sample (residualize solve rows) postArg = .ok s := by rw [sample_residualize]; exact hs
  obtain ⟨e1, e2, e3, e4⟩ := fit_res hs' hf
  obtain ⟨c1, c2, c3, c4, c5, c6, c7, c8, c9, c10, c11, c12, c13, c14⟩ := C119_sample _ postArg s hs hc
  have etrt : ((rows.filter (fun q => decide (q.d = some 1))).map CRow.unit).dedup.insertionSort (· ≤ ·) = s.trt := by
    refine List.Perm.eq_of_pairwise (le := (· ≤ ·)) ?_ (List.pairwise_insertionSort (r := (· ≤ ·)) _) ?_ ?_
    · intro x y _ _ h1 h2; exact le_antisymm h1 h2
    · have := sample_eq hs
      rw [this]
      exact (List.pairwise_insertionSort (r := (· ≤ ·)) _).filter _
    · refine (List.perm_ext_iff_of_nodup ?_ c3).2 ?_
      · exact (List.perm_insertionSort (· ≤ ·) _).nodup_iff.2 (List.nodup_dedup _)
      · intro u
        rw [(List.perm_insertionSort (· ≤ ·) _).mem_iff, List.mem_dedup, c1 u, List.mem_map]
        constructor
        · rintro ⟨q, hq, rfl⟩
          obtain ⟨hq, hq'⟩ := List.mem_filter.1 hq
          exact ⟨q.base, List.mem_map_of_mem hq, rfl, of_decide_eq_true hq'⟩
        · rintro ⟨q, hq, h1, h2⟩
          obtain ⟨q', hq', rfl⟩ := List.mem_map.1 hq
          exact ⟨q', List.mem_filter.2 ⟨hq', decide_eq_true h2⟩, h1⟩
  rw [etrt, e4]
  rw [e4] at hy hd
  have su : (res.unitWeights.map Prod.snd).sum = 1 := by
    rw [e2, List.map_ofFn, List.sum_ofFn]
    exact (hW.1 _ _ (List.length_pos_of_ne_nil c10)).2
  have st : (res.timeWeights.map Prod.snd).sum = 1 := by
    rw [e3, List.map_ofFn, List.sum_ofFn]
    exact (hW.2 _ _ (List.length_pos_of_ne_nil c11)).2
  have mu : ∀ u ∈ res.unitWeights.map Prod.fst, u ∈ s.ctl := by
    rw [e2, List.map_ofFn]
    intro u hu
    obtain ⟨j, rfl⟩ := (List.mem_ofFn' _ _).1 hu
    exact List.get_mem _ _
  have mt : ∀ t ∈ res.timeWeights.map Prod.fst, t ∈ s.pre := by
    rw [e3, List.map_ofFn]
    intro u hu
    obtain ⟨j, rfl⟩ := (List.mem_ofFn' _ _).1 hu
    exact List.get_mem _ _
  obtain ⟨a', b', hfit⟩ := fittedAt_parts rows (solve rows)
  have key : res.att = contrast res.unitWeights res.timeWeights s.trt s.post
      (fun u t => ((a u - a' u) + (b t - b' t + meanY rows)) + (∑ i : Fin k, (beta i - solve rows (i + 1)) * xval rows i u t)
        + (if u ∈ s.trt ∧ t ∈ s.post then tau else 0)) := by
    rw [e1, contrast_attOn, ← e2, ← e3]
    refine contrast_congr fun u hu t ht => ?_
    have hu' : u ∈ s.trt ∨ u ∈ s.ctl := hu.imp id (mu u)
    have ht' : t ∈ s.pre ∨ t ∈ s.post := ht.symm.imp (mt t) id
    obtain ⟨q, hq, rfl, rfl, hfind⟩ := find_of hs hu' ht'
    rw [outcome_residualize solve rows hfind, hfit q, hy q hq]
    have hx : ∀ i, xval rows i q.unit q.time = q.x i := by
      intro i; unfold xval; rw [hfind]; rfl
    simp only [hx]
    have hD : (q.d = some 1 ∧ q.time ∈ s.post) ↔ (q.unit ∈ s.trt ∧ q.time ∈ s.post) := by
      constructor
      · rintro ⟨h1, h2⟩
        exact ⟨(c1 _).2 ⟨q.base, List.mem_map_of_mem hq, rfl, h1⟩, h2⟩
      · rintro ⟨h1, h2⟩
        refine ⟨?_, h2⟩
        obtain ⟨q', hq', h3, h4⟩ := (c1 _).1 h1
        cases hqd : q.d with
        | none => exact absurd h2 (hd q hq hqd)
        | some v =>
          rw [hc q' hq' q.base (List.mem_map_of_mem hq) h3 1 v h4 hqd]
    rw [if_congr hD rfl rfl]
    simp only [sub_mul, Finset.sum_sub_distrib]
    ring
  rw [key, contrast_add, contrast_add, contrast_add, contrast_unit _ _ _ _ c12 st, contrast_time _ _ _ _ c9 su, contrast_sum,
    contrast_effect _ _ _ _ c9 c12 (fun u hu hu' => c5 u hu' (mu u hu)) (fun t ht => c7 t (mt t ht))]
  ring

/-- C122. Outcomes that are unit effects, period effects and covariate effects, without treatment effect, give the estimate zero. -/
theorem C122_null (W : Weights K) (hW : W.Prob) (solve : List (CRow K k) → ℕ → K) (hs : Solves solve) (hk : 0 < k)
    (r pval : K → K) (crit : K) (boot : Bool) (draws : List (List ℕ)) (rows : List (CRow K k)) (postArg : Option (List ℤ))
    (hc : Constant (rows.map CRow.base)) (res : Res K) (h : fitCov W solve r pval crit boot draws rows postArg = .ok res)
    (a b : ℤ → K) (beta : Fin k → K) (hy : ∀ q ∈ rows, q.y = a q.unit + b q.time + ∑ i, beta i * q.x i) : res.att = 0 := by
  obtain ⟨s, hsm, hf⟩ := fitCov_res hk h
  have hs' : sample (residualize solve rows) postArg = .ok s := by rw [sample_residualize]; exact hsm
  obtain ⟨e1, -, -, -⟩ := fit_res hs' hf
  obtain ⟨c1, c2, c3, c4, c5, c6, c7, c8, c9, c10, c11, c12, c13, c14⟩ := C119_sample _ postArg s hsm hc
  obtain ⟨c, hcc⟩ := span rows a b beta
  have z : (rows.map (fun r => (r.y - fittedAt (columns rows) c r) ^ 2)).sum = 0 := by
    refine List.sum_eq_zero ?_
    intro x hx
    obtain ⟨q, hq, rfl⟩ := List.mem_map.1 hx
    rw [hcc q hq, hy q hq, sub_self]; ring
  have hu := fitted_unique rows (columns rows) c (solve rows)
    (fun e => by rw [z]; exact List.sum_nonneg (by intro x hx; obtain ⟨_, _, rfl⟩ := List.mem_map.1 hx; exact sq_nonneg _)) (hs rows)
  have key : ∀ u, (u ∈ s.trt ∨ u ∈ s.ctl) → ∀ t, (t ∈ s.pre ∨ t ∈ s.post) → outcome (residualize solve rows) u t = meanY rows := by
    intro u hu' t ht'
    obtain ⟨q, hq, rfl, rfl, hfind⟩ := find_of hsm hu' ht'
    rw [outcome_residualize solve rows hfind, ← hu q hq, hcc q hq, hy q hq]
    ring
  rw [e1]
  refine C121_additive W hW _ (fun _ => meanY rows) (fun _ => 0) 0 s.pre s.post s.trt s.ctl c9 c10 c11 c12 ?_ ?_ ?_
  · intro u hu t ht; rw [key u hu t (.inl ht), add_zero]
  · intro u hu t ht; rw [key u (.inr hu) t (.inr ht), add_zero]
  · intro u hu t ht; rw [key u (.inl hu) t (.inr ht), add_zero, add_zero]

/-- C122. A sample that `fit` accepts without covariates is refused with `k` covariates exactly when it has fewer rows than
`k` plus the number of units plus the number of periods minus one. -/
theorem C122_underdetermined (W : Weights K) (solve : List (CRow K k) → ℕ → K) (hk : 0 < k)
    (r pval : K → K) (crit : K) (boot : Bool) (draws : List (List ℕ)) (rows : List (CRow K k)) (postArg : Option (List ℤ)) (s : Sample)
    (hsm : sample (rows.map CRow.base) postArg = .ok s) :
    fitCov W solve r pval crit boot draws rows postArg = .error .underdetermined
      ↔ rows.length + 1 < k + (rows.map CRow.unit).toFinset.card + (rows.map CRow.time).toFinset.card := by
  have hne : rows ≠ [] := by
    rintro rfl
    exact absurd hsm (by simp [sample, allPeriods])
  have l1 : (units rows).length = (rows.map CRow.unit).toFinset.card := by
    unfold units
    rw [(List.perm_insertionSort (· ≤ ·) _).length_eq, List.card_toFinset]
  have l2 : (times rows).length = (rows.map CRow.time).toFinset.card := by
    unfold times
    rw [(List.perm_insertionSort (· ≤ ·) _).length_eq, List.card_toFinset]
  obtain ⟨q, hq⟩ := List.exists_mem_of_ne_nil rows hne
  have p1 := List.length_pos_of_mem (mem_units hq)
  have p2 := List.length_pos_of_mem (mem_times hq)
  have l3 : (columns rows).length = 1 + k + ((units rows).length - 1) + ((times rows).length - 1) := by
    simp [columns]
    omega
  have l4 : rows.length < (columns rows).length ↔ rows.length + 1 < k + (rows.map CRow.unit).toFinset.card + (rows.map CRow.time).toFinset.card := by
    rw [l3, ← l1, ← l2]; omega
  rw [← l4]
  unfold fitCov
  rw [if_neg hk.ne', hsm]
  dsimp only
  by_cases hl : rows.length < (columns rows).length
  · rw [if_pos hl]; simp [hl]
  · rw [if_neg hl]
    simp only [hl, iff_false]
    cases fit W r pval crit boot draws (residualize solve rows) postArg <;> simp [Except.mapError]

/-! ### What is false -/

/-- Two periods, one treated unit and two controls; additive outcomes with effect 12 and a covariate that moves with treatment. -/
def absorbed : List (CRow ℚ 1) :=
  [⟨0, 0, some 1, 0, fun _ => 0⟩, ⟨0, 1, some 1, 12, fun _ => 1⟩, ⟨1, 0, some 0, 0, fun _ => 0⟩, ⟨1, 1, some 0, 0, fun _ => 1 / 2⟩,
   ⟨2, 0, some 0, 0, fun _ => 0⟩, ⟨2, 1, some 0, 0, fun _ => 0⟩]

theorem absorbed_sample : sample (absorbed.map CRow.base) none = .ok ⟨[0], [1], [0], [1, 2]⟩ := by decide +kernel

theorem absorbed_min (solve : List (CRow ℚ 1) → ℕ → ℚ) (hs : Solves solve) : ∀ q ∈ absorbed,
    fittedAt (columns absorbed) (solve absorbed) q = fittedAt (columns absorbed) (fun j => [1, 12, -3, 0, -2].getD j 0) q :=
  fitted_unique absorbed (columns absorbed) _ _ (hs absorbed) (min_of_orth absorbed (columns absorbed) _ (by decide +kernel))

/-- C122 is false for a treatment effect in place of a covariate effect: outcomes are exactly unit effect plus period effect plus
the effect 12, the covariate has no effect on the outcome, and without covariates the estimate is 12 for any weights; with the
covariate it is at most 6. The regression on covariates leaves the treatment out, so the covariate absorbs part of the effect. -/
theorem C122_absorbed_refuted (W : Weights ℚ) (hW : W.Prob) (solve : List (CRow ℚ 1) → ℕ → ℚ) (hs : Solves solve) (r pval : ℚ → ℚ) (crit : ℚ) :
    (∃ res, fit W r pval crit false [] (absorbed.map CRow.base) none = .ok res ∧ res.att = 12) ∧
    (∃ res, fitCov W solve r pval crit false [] absorbed none = .ok res ∧ res.att ≤ 6) := by
  have hmin := absorbed_min solve hs
  constructor
  · refine ⟨_, by unfold fit; rw [absorbed_sample]; rfl, ?_⟩
    refine C121_additive W hW _ (fun _ => 0) (fun _ => 0) 12 [0] [1] [0] [1, 2] (by simp) (by simp) (by simp) (by simp) ?_ ?_ ?_
    · intro u hu t ht
      simp only [List.mem_cons, List.not_mem_nil, or_false] at hu ht
      rcases hu with rfl | rfl | rfl <;> subst ht <;> decide +kernel
    · intro u hu t ht
      simp only [List.mem_cons, List.not_mem_nil, or_false] at hu ht
      rcases hu with rfl | rfl <;> subst ht <;> decide +kernel
    · intro u hu t ht
      simp only [List.mem_cons, List.not_mem_nil, or_false] at hu ht
      subst hu ht; decide +kernel
  · have hs' : sample (residualize solve absorbed) none = .ok ⟨[0], [1], [0], [1, 2]⟩ := by rw [sample_residualize]; exact absorbed_sample
    have hl : ¬ absorbed.length < (columns absorbed).length := by decide +kernel
    have hf := fitCov_placebo W solve (by decide) r pval crit [] absorbed none absorbed_sample hl
    obtain ⟨res, h1, h2⟩ := hf
    refine ⟨res, h1, ?_⟩
    rw [(fit_res hs' h2).1]
    have val : ∀ u t q, q ∈ absorbed → absorbed.find? (fun r => decide (r.unit = u ∧ r.time = t)) = some q →
        outcome (residualize solve absorbed) u t = q.y - fittedAt (columns absorbed) (fun j => [1, 12, -3, 0, -2].getD j 0) q + meanY absorbed := by
      intro u t q hq hf
      rw [outcome_residualize solve absorbed hf, hmin q hq]
    set y := outcome (residualize solve absorbed) with hy
    have v00 : y 0 0 = 1 := (val 0 0 ⟨0, 0, some 1, 0, fun _ => 0⟩ (by simp [absorbed]) rfl).trans (by decide +kernel)
    have v01 : y 0 1 = 3 := (val 0 1 ⟨0, 1, some 1, 12, fun _ => 1⟩ (by simp [absorbed]) rfl).trans (by decide +kernel)
    have v10 : y 1 0 = 4 := (val 1 0 ⟨1, 0, some 0, 0, fun _ => 0⟩ (by simp [absorbed]) rfl).trans (by decide +kernel)
    have v11 : y 1 1 = 0 := (val 1 1 ⟨1, 1, some 0, 0, fun _ => 1 / 2⟩ (by simp [absorbed]) rfl).trans (by decide +kernel)
    have v20 : y 2 0 = 1 := (val 2 0 ⟨2, 0, some 0, 0, fun _ => 0⟩ (by simp [absorbed]) rfl).trans (by decide +kernel)
    have v21 : y 2 1 = 3 := (val 2 1 ⟨2, 1, some 0, 0, fun _ => 0⟩ (by simp [absorbed]) rfl).trans (by decide +kernel)
    clear_value y
    have hU := hW.1 (fun (t : Fin ([0] : List ℤ).length) (j : Fin ([1, 2] : List ℤ).length) => y (([1, 2] : List ℤ).get j) (([0] : List ℤ).get t))
        (fun t => avg (fun i : Fin ([0] : List ℤ).length => y (([0] : List ℤ).get i) (([0] : List ℤ).get t))) (by simp)
    have hT := hW.2 (fun (t : Fin ([0] : List ℤ).length) (j : Fin ([1, 2] : List ℤ).length) => y (([1, 2] : List ℤ).get j) (([0] : List ℤ).get t))
        (fun t => avg (fun i : Fin ([0] : List ℤ).length => y (([0] : List ℤ).get i) (([0] : List ℤ).get t))) (by simp)
    rw [attOn_eq]
    change (∀ j, 0 ≤ unitW W y [0] [0] [1, 2] j) ∧ ∑ j, unitW W y [0] [0] [1, 2] j = 1 at hU
    change (∀ j, 0 ≤ timeW W y [0] [0] [1, 2] j) ∧ ∑ j, timeW W y [0] [0] [1, 2] j = 1 at hT
    generalize unitW W y [0] [0] [1, 2] = w at *
    generalize timeW W y [0] [0] [1, 2] = l at *
    have f1 : ∀ g : Fin ([0] : List ℤ).length → ℚ, ∑ j, g j = g 0 := fun g => Fin.sum_univ_one (fun j : Fin 1 => g j)
    have f2 : ∀ g : Fin ([1, 2] : List ℤ).length → ℚ, ∑ j, g j = g 0 + g 1 := fun g => Fin.sum_univ_two (fun j : Fin 2 => g j)
    have h0 := hU.1 0
    have h1 := hU.1 1
    have hu := hU.2
    have ht := hT.2
    rw [f2] at hu
    rw [f1] at ht
    simp only [f1, f2, ht]
    simp [avg, v00, v01, v10, v11, v20, v21]
    nlinarith

/-- `C122_bias` applies to these data for any weights and any solver: the estimate is 12 minus the coefficient of the covariate times the
double difference of the covariate. -/
example (W : Weights ℚ) (hW : W.Prob) (solve : List (CRow ℚ 1) → ℕ → ℚ) (r pval : ℚ → ℚ) (crit : ℚ) :
    ∃ res, fitCov W solve r pval crit false [] absorbed none = .ok res ∧
      res.att = 12 + ∑ i : Fin 1, ((0 : Fin 1 → ℚ) i - solve absorbed (i + 1)) * contrast res.unitWeights res.timeWeights [0] res.post (xval absorbed i) := by
  obtain ⟨res, h1, h2⟩ := fitCov_placebo W solve (by decide) r pval crit [] absorbed none absorbed_sample (by decide +kernel)
  refine ⟨res, h1, ?_⟩
  have hp : res.post = [1] := (fit_res (by rw [sample_residualize]; exact absorbed_sample) h2).2.2.2
  have hc : Constant (absorbed.map CRow.base) := by
    intro q hq q' hq' hu v v' hv hv'
    simp only [absorbed, List.map_cons, List.map_nil, CRow.base, List.mem_cons, List.not_mem_nil, or_false] at hq hq'
    rcases hq with rfl | rfl | rfl | rfl | rfl | rfl <;> rcases hq' with rfl | rfl | rfl | rfl | rfl | rfl <;>
      first | (simp at hu; done) | (simp at hv hv'; omega)
  have := C122_bias W hW solve (by decide) r pval crit false [] absorbed none hc res h1 (fun _ => 0) (fun _ => 0) (fun _ => 0) 12
    (by
      intro q hq
      rw [hp]
      simp only [absorbed, List.mem_cons, List.not_mem_nil, or_false] at hq
      rcases hq with rfl | rfl | rfl | rfl | rfl | rfl <;> simp)
    (by
      intro q hq hd
      simp only [absorbed, List.mem_cons, List.not_mem_nil, or_false] at hq
      rcases hq with rfl | rfl | rfl | rfl | rfl | rfl <;> simp at hd)
  exact this

/-- Two units and two periods do not suffice for two covariates. -/
example : sample (([⟨0, 0, some 1, 0, fun _ => 0⟩, ⟨0, 1, some 1, 1, fun _ => 0⟩, ⟨1, 0, some 0, 0, fun _ => 0⟩, ⟨1, 1, some 0, 3, fun _ => 0⟩] : List (CRow ℚ 2)).map CRow.base) none
      = .ok ⟨[0], [1], [0], [1]⟩ ∧
    ([⟨0, 0, some 1, 0, fun _ => 0⟩, ⟨0, 1, some 1, 1, fun _ => 0⟩, ⟨1, 0, some 0, 0, fun _ => 0⟩, ⟨1, 1, some 0, 3, fun _ => 0⟩] : List (CRow ℚ 2)).length + 1
      < 2 + ({0, 1} : Finset ℤ).card + ({0, 1} : Finset ℤ).card := by decide +kernel

/-- `C122_null` and `C122_invariance` on shifted data: covariate effect 3 and no treatment effect. -/
example (W : Weights ℚ) (hW : W.Prob) (solve : List (CRow ℚ 1) → ℕ → ℚ) (hs : Solves solve) (r pval : ℚ → ℚ) (crit : ℚ) :
    ∃ res, fitCov W solve r pval crit false [] (absorbed.map (fun q => { q with y := 5 * (q.unit : ℚ) + 3 * q.x 0 })) none = .ok res ∧ res.att = 0 := by
  have hsm : sample ((absorbed.map (fun q => { q with y := 5 * (q.unit : ℚ) + 3 * q.x 0 })).map CRow.base) none = .ok ⟨[0], [1], [0], [1, 2]⟩ := by decide +kernel
  obtain ⟨res, h1, h2⟩ := fitCov_placebo W solve (by decide) r pval crit [] _ none hsm (by decide +kernel)
  refine ⟨res, h1, C122_null W hW solve hs (by decide) r pval crit false [] _ none ?_ res h1 (fun u => 5 * (u : ℚ)) (fun _ => 0) (fun _ => 3) ?_⟩
  · intro q hq q' hq' hu v v' hv hv'
    simp only [absorbed, List.map_cons, List.map_nil, CRow.base, List.mem_cons, List.not_mem_nil, or_false] at hq hq'
    rcases hq with rfl | rfl | rfl | rfl | rfl | rfl <;> rcases hq' with rfl | rfl | rfl | rfl | rfl | rfl <;>
      first | (simp at hu; done) | (simp at hv hv'; omega)
  · intro q hq
    obtain ⟨q', _, rfl⟩ := List.mem_map.1 hq
    simp

/-- Two periods, one treated unit and two controls, no treatment effect, a covariate that is constant. -/
noncomputable def irrelevant : List (CRow ℝ 1) :=
  [⟨0, 0, some 1, 0, fun _ => 1⟩, ⟨0, 1, some 1, 0, fun _ => 1⟩, ⟨1, 0, some 0, 0, fun _ => 1⟩, ⟨1, 1, some 0, 0, fun _ => 1⟩,
   ⟨2, 0, some 0, 0, fun _ => 1⟩, ⟨2, 1, some 0, 20, fun _ => 1⟩]

theorem irrelevant_sample : sample (irrelevant.map CRow.base) none = .ok ⟨[0], [1], [0], [1, 2]⟩ := by
  have := sample_map (fun r (_ : ℚ) => if r.unit = 2 ∧ r.time = 1 then (20 : ℝ) else 0) (absorbed.map CRow.base) none
  rw [absorbed_sample] at this
  rw [← this]
  simp [irrelevant, absorbed, CRow.base]

theorem irrelevant_columns : columns irrelevant = [Col.one, Col.cov 0, Col.unit 1, Col.unit 2, Col.time 1] := by decide +kernel

theorem irrelevant_min (solve : List (CRow ℝ 1) → ℕ → ℝ) (hs : Solves solve) : ∀ q ∈ irrelevant,
    fittedAt (columns irrelevant) (solve irrelevant) q = fittedAt (columns irrelevant) (fun j => [-10 / 3, 0, 0, 10, 20 / 3].getD j 0) q := by
  refine fitted_unique irrelevant (columns irrelevant) _ _ (hs irrelevant) (min_of_orth irrelevant (columns irrelevant) _ ?_)
  rw [irrelevant_columns]
  intro c hc
  simp only [List.mem_cons, List.not_mem_nil, or_false] at hc
  rcases hc with rfl | rfl | rfl | rfl | rfl <;> norm_num [irrelevant, fittedAt, Col.val]

/-- C122 is false for irrelevant covariates: adding a column of ones as covariate changes the estimate from -10 to 0. With a
covariate the unit effects are removed before the unit weights are computed, without covariates they are not (C120). Default
`lambda_reg`, compiled backend, any tolerance and any number of iterations. -/
theorem C122_irrelevant_refuted (zeta eps tol : ℝ) (step : {p n : ℕ} → (Fin p → Fin n → ℝ) → ℝ) (n : ℕ) (he : 0 < eps) (hz : 0 ≤ zeta)
    (solve : List (CRow ℝ 1) → ℕ → ℝ) (hs : Solves solve) (r pval : ℝ → ℝ) (crit : ℝ) :
    (∃ res, fit (codeWeights .rust 0 zeta eps step tol (n + 1)) r pval crit false [] (irrelevant.map CRow.base) none = .ok res ∧ res.att = -10) ∧
    (∃ res, fitCov (codeWeights .rust 0 zeta eps step tol (n + 1)) solve r pval crit false [] irrelevant none = .ok res ∧ res.att = 0) := by
  have hu0 : ∀ i : Fin 2, (uniform 2 : Fin 2 → ℝ) i = 1 / 2 := fun i => by simp [uniform]
  have hmin := irrelevant_min solve hs
  constructor
  · have hf : ∃ res, fit (codeWeights .rust 0 zeta eps step tol (n + 1)) r pval crit false [] (irrelevant.map CRow.base) none = .ok res :=
      ⟨_, by unfold fit; rw [irrelevant_sample]; rfl⟩
    obtain ⟨res, h⟩ := hf
    refine ⟨res, h, ?_⟩
    rw [(fit_res irrelevant_sample h).1]
    have := attOn_two zeta eps tol step n he hz 0 20 ![1 / 2, 1 / 2] (outcome (irrelevant.map CRow.base)) ⟨rfl, rfl, rfl⟩
      ⟨rfl, rfl, (show outcome (irrelevant.map CRow.base) 2 1 = 20 from rfl).trans (by norm_num)⟩
      (stepRust_two 0 _ _ 0 (by rw [hu0, hu0]; norm_num) (by rw [hu0]; norm_num) (by rw [hu0]; norm_num))
      (stepRust_two 0 _ _ 0 (by norm_num) (by norm_num) (by norm_num))
      (clean_two _ (by norm_num) (by norm_num) (by norm_num))
    rw [this]; norm_num
  · have hs' : sample (residualize solve irrelevant) none = .ok ⟨[0], [1], [0], [1, 2]⟩ := by rw [sample_residualize]; exact irrelevant_sample
    have hl : ¬ irrelevant.length < (columns irrelevant).length := by rw [irrelevant_columns]; decide
    obtain ⟨res, h1, h2⟩ := fitCov_placebo (codeWeights .rust 0 zeta eps step tol (n + 1)) solve (by decide) r pval crit [] irrelevant none irrelevant_sample hl
    refine ⟨res, h1, ?_⟩
    rw [(fit_res hs' h2).1]
    have val : ∀ u t q, q ∈ irrelevant → irrelevant.find? (fun r => decide (r.unit = u ∧ r.time = t)) = some q →
        outcome (residualize solve irrelevant) u t = q.y - fittedAt (columns irrelevant) (fun j => [-10 / 3, 0, 0, 10, 20 / 3].getD j 0) q + meanY irrelevant := by
      intro u t q hq hf
      rw [outcome_residualize solve irrelevant hf, hmin q hq]
    rw [irrelevant_columns] at val
    set y := outcome (residualize solve irrelevant) with hy
    have m : meanY irrelevant = 10 / 3 := by norm_num [meanY, irrelevant]
    rw [m] at val
    have v00 : y 0 0 = 20 / 3 := (val 0 0 ⟨0, 0, some 1, 0, fun _ => 1⟩ (by simp [irrelevant]) rfl).trans (by norm_num [fittedAt, Col.val])
    have v01 : y 0 1 = 0 := (val 0 1 ⟨0, 1, some 1, 0, fun _ => 1⟩ (by simp [irrelevant]) rfl).trans (by norm_num [fittedAt, Col.val])
    have v10 : y 1 0 = 20 / 3 := (val 1 0 ⟨1, 0, some 0, 0, fun _ => 1⟩ (by simp [irrelevant]) rfl).trans (by norm_num [fittedAt, Col.val])
    have v11 : y 1 1 = 0 := (val 1 1 ⟨1, 1, some 0, 0, fun _ => 1⟩ (by simp [irrelevant]) rfl).trans (by norm_num [fittedAt, Col.val])
    have v20 : y 2 0 = -10 / 3 := (val 2 0 ⟨2, 0, some 0, 0, fun _ => 1⟩ (by simp [irrelevant]) rfl).trans (by norm_num [fittedAt, Col.val])
    have v21 : y 2 1 = 10 := (val 2 1 ⟨2, 1, some 0, 20, fun _ => 1⟩ (by simp [irrelevant]) rfl).trans (by norm_num [fittedAt, Col.val])
    have e := attOn_time (codeWeights .rust 0 zeta eps step tol (n + 1)) (codeWeights_prob .rust 0 zeta eps step tol (n + 1) he hz)
      (codeWeights_timeInv .rust 0 zeta eps step tol (n + 1) (by simp)) y (fun u t => y u t + (if t = 0 then -20 / 3 else 0)) (fun t => if t = 0 then -20 / 3 else 0)
      [0] [1] [0] [1, 2] (by simp) (by simp) (by simp) (fun _ _ _ _ => rfl)
    have := attOn_two zeta eps tol step n he hz (-10) 20 ![1, 0] (fun u t => y u t + (if t = 0 then -20 / 3 else 0)) (by norm_num [v00, v10, v20]) (by norm_num [v01, v11, v21])
      (stepRust_two (-10) _ _ (-1 / 2) (by rw [hu0, hu0]; norm_num) (by rw [hu0]; norm_num) (by rw [hu0]; norm_num))
      (stepRust_two (-10) _ _ 0 (by norm_num) (by norm_num) (by norm_num))
      (clean_two _ (by norm_num) (by norm_num) (by norm_num))
    rw [← e.2.2, this]
    norm_num

end DiffDiff.SdidCov
