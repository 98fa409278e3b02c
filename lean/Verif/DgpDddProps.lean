/-
What TripleDifference reports on generate_ddd_data (C116).
-/
import Verif.DgpDidProps
import Verif.TripleDiffProps

set_option linter.unusedSectionVars false

namespace DiffDiff.Dgp

variable {K : Type*} [Field K] [LinearOrder K] [IsStrictOrderedRing K] [FloorRing K]

theorem card_filter_list {α : Type*} (l : List α) (p : α → Bool) :
    (Finset.univ.filter (fun i : Fin l.length => p l[i] = true)).card = l.countP p := by
  rw [Finset.card_filter]
  have h : ∑ i : Fin l.length, (if p l[i] = true then 1 else 0) = (l.map (fun a => if p a = true then 1 else 0)).sum := by
    rw [← Fin.sum_univ_fun_getElem]; rfl
  rw [h]
  induction l with
  | nil => rfl
  | cons a l ih =>
    rw [List.map_cons, List.sum_cons, List.countP_cons, ih (by rw [← Fin.sum_univ_fun_getElem]; rfl)]
    split_ifs <;> omega

theorem countP_ddd (c : DddCfg K) (z ed : ℕ → K) (q : Bool × Bool × Bool → Bool) :
    (generateDdd c z ed).countP (fun r => q (r.group, r.partition, r.time)) = c.nPerCell * dddCells.countP q := by
  have h1 : (generateDdd c z ed).countP (fun r => q (r.group, r.partition, r.time)) =
      ((generateDdd c z ed).map (fun r => (r.group, r.partition, r.time))).countP q := by
    rw [List.countP_map]; rfl
  have h2 : (generateDdd c z ed).map (fun r => (r.group, r.partition, r.time)) =
      dddCells.flatMap fun x => List.replicate c.nPerCell x := by
    unfold generateDdd
    rw [List.mapIdx_eq_zipIdx_map, List.map_map]
    have : ((fun r : DRow K => (r.group, r.partition, r.time)) ∘ fun x : (Bool × Bool × Bool) × ℕ => dddRow c z ed x.2 x.1) = Prod.fst := rfl
    conv_lhs => rw [show ((fun r : DRow K => (r.group, r.partition, r.time)) ∘ _) = Prod.fst from this]
    exact List.zipIdx_map_fst _ _
  rw [h1, h2]
  generalize dddCells = l
  induction l with
  | nil => simp
  | cons a l ih =>
    rw [List.flatMap_cons, List.countP_append, ih, List.countP_replicate, List.countP_cons]
    split_ifs <;> ring

theorem ddd_row (c : DddCfg K) (z ed : ℕ → K) (i : Fin (generateDdd c z ed).length) :
    ∃ k x, (generateDdd c z ed)[i] = dddRow c z ed k x := by
  have hi : (generateDdd c z ed)[i] ∈ generateDdd c z ed := List.getElem_mem _
  obtain ⟨k, h1, h2⟩ := List.mem_mapIdx.1 hi
  exact ⟨k, _, h2.symm⟩

/-- Indicator columns of the records. -/
abbrev gcol (rows : List (DRow K)) := col rows DRow.group
abbrev pcol (rows : List (DRow K)) := col rows DRow.partition
abbrev tcol (rows : List (DRow K)) := col rows DRow.time

/-- C116. Every one of the eight cells holds exactly `n_per_cell` rows, and unit identifiers are distinct. -/
theorem C116_cells (c : DddCfg K) (z ed : ℕ → K) (g p t : Bool) :
    (TripleDiff.cellT (gcol (generateDdd c z ed)) (pcol (generateDdd c z ed)) (tcol (generateDdd c z ed)) g p t).card = c.nPerCell ∧
      ((generateDdd c z ed).map DRow.unitId).Nodup := by
  constructor
  · have h1 := card_filter_list (generateDdd c z ed) (fun r => decide (r.group = g ∧ r.partition = p ∧ r.time = t))
    have h2 := countP_ddd c z ed (fun x => decide (x.1 = g ∧ x.2.1 = p ∧ x.2.2 = t))
    have h3 : dddCells.countP (fun x => decide (x.1 = g ∧ x.2.1 = p ∧ x.2.2 = t)) = 1 := by
      clear h1 h2; revert g p t; decide
    rw [h3, mul_one] at h2
    rw [← h2]
    refine Eq.trans ?_ h1
    unfold TripleDiff.cellT gcol pcol tcol col
    simp
  · have : (generateDdd c z ed).map DRow.unitId = List.range (generateDdd c z ed).length := by
      refine List.ext_getElem (by simp) fun i h1 h2 => ?_
      simp [generateDdd, dddRow]
    rw [this]
    exact List.nodup_range

section
variable {ι : Type*} [Fintype ι]

/-- Outcomes that are a function of the cell plus a rest. -/
theorem ddd_split (y e : ι → K) (G P T : ι → Bool) (hne : ∀ g p t, ∃ i, G i = g ∧ P i = p ∧ T i = t)
    (F : Bool → Bool → Bool → K) (hy : ∀ i, y i = F (G i) (P i) (T i) + e i) :
    TripleDiff.ddd y G P T = TripleDiff.combine F + TripleDiff.ddd e G P T := by
  have h : ∀ g p t, TripleDiff.cellMean y G P T g p t = F g p t + TripleDiff.cellMean e G P T g p t := by
    intro g p t
    rw [← TripleDiff.mean_cell, ← TripleDiff.mean_cell]
    unfold TripleDiff.mean
    have e1 : ∑ i ∈ TripleDiff.cellT G P T g p t, y i = ∑ i ∈ TripleDiff.cellT G P T g p t, (F g p t + e i) := by
      refine Finset.sum_congr rfl fun i hi => ?_
      obtain ⟨h1, h2, h3⟩ := TripleDiff.mem_cellT.1 hi
      rw [hy, h1, h2, h3]
    rw [e1, Finset.sum_add_distrib, Finset.sum_const, nsmul_eq_mul, add_div,
      mul_div_cancel_left₀ _ (TripleDiff.card_ne G P T hne g p t)]
  rw [← TripleDiff.combine_eq_ddd, ← TripleDiff.combine_eq_ddd]
  unfold TripleDiff.combine
  simp only [h]
  ring

end

/-- The part of the outcome that is not a function of the cell: covariates and noise. -/
def dddRest (c : DddCfg K) (z : ℕ → K) (r : DRow K) : K :=
  1 / 10 * r.age.getD 0 + 1 / 2 * r.education.getD 0 + c.noiseSd * z (2 * r.unitId + 1)

theorem ddd_nonempty (c : DddCfg K) (z ed : ℕ → K) (hn : 0 < c.nPerCell) (g p t : Bool) :
    ∃ i, gcol (generateDdd c z ed) i = g ∧ pcol (generateDdd c z ed) i = p ∧ tcol (generateDdd c z ed) i = t := by
  have h := (C116_cells c z ed g p t).1
  have hpos : 0 < (TripleDiff.cellT (gcol (generateDdd c z ed)) (pcol (generateDdd c z ed)) (tcol (generateDdd c z ed)) g p t).card := by
    rw [h]; exact hn
  obtain ⟨i, hi⟩ := Finset.card_pos.1 hpos
  exact ⟨i, TripleDiff.mem_cellT.1 hi⟩

theorem ddd_value (c : DddCfg K) (z ed : ℕ → K) (hn : 0 < c.nPerCell) :
    TripleDiff.ddd (col (generateDdd c z ed) DRow.outcome) (gcol (generateDdd c z ed)) (pcol (generateDdd c z ed)) (tcol (generateDdd c z ed))
      = c.effect + TripleDiff.ddd (col (generateDdd c z ed) (dddRest c z)) (gcol (generateDdd c z ed)) (pcol (generateDdd c z ed)) (tcol (generateDdd c z ed)) := by
  rw [ddd_split _ (col (generateDdd c z ed) (dddRest c z)) _ _ _ (ddd_nonempty c z ed hn)
    (fun g p t => 50 + c.group * num g + c.partition * num p + c.time * num t + 3 / 2 * num g * num p + 1 * num g * num t
      + 1 / 2 * num p * num t + if g && p && t then c.effect else 0)]
  · congr 1
    simp [TripleDiff.combine, num]
    ring
  · intro i
    obtain ⟨k, x, hx⟩ := ddd_row c z ed i
    unfold gcol pcol tcol col
    rw [hx]
    unfold dddRest dddRow
    dsimp only
    cases c.covariates <;> simp <;> ring

/-- C116. `generate_ddd_data` then `TripleDifference` without covariates (regression adjustment or inverse probability
weighting, any trimming below one): whatever the draws, the reported effect is the requested effect plus the triple
difference of the rest (noise and, if generated, the covariate contribution). -/
theorem C116_reg_ipw (c : DddCfg K) (z ed : ℕ → K) (hn : 0 < c.nPerCell) :
    (∀ att, TripleDiff.IsReg (col (generateDdd c z ed) DRow.outcome) (gcol (generateDdd c z ed)) (pcol (generateDdd c z ed)) (tcol (generateDdd c z ed)) att →
      att = c.effect + TripleDiff.ddd (col (generateDdd c z ed) (dddRest c z)) (gcol (generateDdd c z ed)) (pcol (generateDdd c z ed)) (tcol (generateDdd c z ed))) ∧
    (∀ trim, trim < 1 →
      TripleDiff.ipwAtt trim (col (generateDdd c z ed) DRow.outcome) (gcol (generateDdd c z ed)) (pcol (generateDdd c z ed)) (tcol (generateDdd c z ed))
        (TripleDiff.shares (gcol (generateDdd c z ed)) (pcol (generateDdd c z ed)))
      = c.effect + TripleDiff.ddd (col (generateDdd c z ed) (dddRest c z)) (gcol (generateDdd c z ed)) (pcol (generateDdd c z ed)) (tcol (generateDdd c z ed))) := by
  refine ⟨fun att h => ?_, fun trim ht => ?_⟩
  · rw [TripleDiff.C36_reg _ _ _ _ (ddd_nonempty c z ed hn) att h, ddd_value c z ed hn]
  · rw [TripleDiff.C36_ipw trim ht _ _ _ _ (ddd_nonempty c z ed hn), ddd_value c z ed hn]

/-- C116. The doubly robust method agrees on these data (the cells are equally large), for trimming up to 1/4. -/
theorem C116_dr (c : DddCfg K) (z ed : ℕ → K) (hn : 0 < c.nPerCell) (trim : K) (h0 : 0 < trim) (h1 : trim ≤ 1 / 4) :
    TripleDiff.drAtt trim (col (generateDdd c z ed) DRow.outcome)
      (TripleDiff.cellMu (col (generateDdd c z ed) DRow.outcome) (gcol (generateDdd c z ed)) (pcol (generateDdd c z ed)) (tcol (generateDdd c z ed)))
      (gcol (generateDdd c z ed)) (pcol (generateDdd c z ed)) (tcol (generateDdd c z ed))
      (TripleDiff.shares (gcol (generateDdd c z ed)) (pcol (generateDdd c z ed)))
    = c.effect + TripleDiff.ddd (col (generateDdd c z ed) (dddRest c z)) (gcol (generateDdd c z ed)) (pcol (generateDdd c z ed)) (tcol (generateDdd c z ed)) := by
  have hK : (c.nPerCell : K) ≠ 0 := by exact_mod_cast hn.ne'
  have hlen : Fintype.card (Fin (generateDdd c z ed).length) = c.nPerCell * 8 := by
    have h2 := countP_ddd c z ed (fun _ => true)
    have h3 : dddCells.countP (fun _ => true) = 8 := by decide
    rw [h3] at h2
    rw [Fintype.card_fin, ← h2]
    simp
  have hcell : ∀ g p, (TripleDiff.cell (gcol (generateDdd c z ed)) (pcol (generateDdd c z ed)) g p).card = c.nPerCell * 2 := by
    intro g p
    have h1 := card_filter_list (generateDdd c z ed) (fun r => decide (r.group = g ∧ r.partition = p))
    have h2 := countP_ddd c z ed (fun x => decide (x.1 = g ∧ x.2.1 = p))
    have h3 : dddCells.countP (fun x => decide (x.1 = g ∧ x.2.1 = p)) = 2 := by clear h1 h2; revert g p; decide
    rw [h3] at h2
    rw [← h2]
    refine Eq.trans ?_ h1
    unfold TripleDiff.cell gcol pcol col
    simp
  have hper : ∀ t, (TripleDiff.period (tcol (generateDdd c z ed)) t).card = c.nPerCell * 4 := by
    intro t
    have h1 := card_filter_list (generateDdd c z ed) (fun r => decide (r.time = t))
    have h2 := countP_ddd c z ed (fun x => decide (x.2.2 = t))
    have h3 : dddCells.countP (fun x => decide (x.2.2 = t)) = 4 := by clear h1 h2; revert t; decide
    rw [h3] at h2
    rw [← h2]
    refine Eq.trans ?_ h1
    unfold TripleDiff.period tcol col
    simp
  have hshare : ∀ g p i, TripleDiff.shares (K := K) (gcol (generateDdd c z ed)) (pcol (generateDdd c z ed)) g p i = 1 / 4 := by
    intro g p i
    unfold TripleDiff.shares
    rw [hcell, hlen]
    push_cast
    field_simp
    norm_num
  rw [TripleDiff.C36_dr_partial trim h0 _ _ _ _ (ddd_nonempty c z ed hn) ?_ ?_, ddd_value c z ed hn]
  · intro g p i
    rw [hshare]
    constructor <;> linarith
  · intro g p t
    rw [(C116_cells c z ed g p t).1, hper, hcell, hlen]
    push_cast
    field_simp
    norm_num

theorem dddRest_zero (c : DddCfg K) (z ed : ℕ → K) (hs : c.noiseSd = 0) (hc : c.covariates = false) :
    TripleDiff.ddd (col (generateDdd c z ed) (dddRest c z)) (gcol (generateDdd c z ed)) (pcol (generateDdd c z ed)) (tcol (generateDdd c z ed)) = 0 := by
  have h : ∀ i, col (generateDdd c z ed) (dddRest c z) i = 0 := by
    intro i
    obtain ⟨k, x, hx⟩ := ddd_row c z ed i
    unfold col
    rw [hx]
    simp [dddRest, dddRow, hc, hs]
  have h2 : col (generateDdd c z ed) (dddRest c z) = fun _ => 0 := funext h
  rw [h2]
  unfold TripleDiff.ddd TripleDiff.didIn TripleDiff.cellMean
  simp

/-- C116. Without noise and without covariates in the data, all three methods return the requested effect exactly. -/
theorem C116_exact (c : DddCfg K) (z ed : ℕ → K) (hn : 0 < c.nPerCell) (hs : c.noiseSd = 0) (hc : c.covariates = false) :
    (∀ att, TripleDiff.IsReg (col (generateDdd c z ed) DRow.outcome) (gcol (generateDdd c z ed)) (pcol (generateDdd c z ed)) (tcol (generateDdd c z ed)) att →
      att = c.effect) ∧
    (∀ trim, trim < 1 →
      TripleDiff.ipwAtt trim (col (generateDdd c z ed) DRow.outcome) (gcol (generateDdd c z ed)) (pcol (generateDdd c z ed)) (tcol (generateDdd c z ed))
        (TripleDiff.shares (gcol (generateDdd c z ed)) (pcol (generateDdd c z ed))) = c.effect) ∧
    (∀ trim, 0 < trim → trim ≤ 1 / 4 →
      TripleDiff.drAtt trim (col (generateDdd c z ed) DRow.outcome)
        (TripleDiff.cellMu (col (generateDdd c z ed) DRow.outcome) (gcol (generateDdd c z ed)) (pcol (generateDdd c z ed)) (tcol (generateDdd c z ed)))
        (gcol (generateDdd c z ed)) (pcol (generateDdd c z ed)) (tcol (generateDdd c z ed))
        (TripleDiff.shares (gcol (generateDdd c z ed)) (pcol (generateDdd c z ed))) = c.effect) := by
  have h0 := dddRest_zero c z ed hs hc
  obtain ⟨h1, h2⟩ := C116_reg_ipw c z ed hn
  refine ⟨fun att h => ?_, fun trim ht => ?_, fun trim ht ht' => ?_⟩
  · rw [h1 att h, h0, add_zero]
  · rw [h2 trim ht, h0, add_zero]
  · rw [C116_dr c z ed hn trim ht ht', h0, add_zero]

/-- The covariate columns given to the regression. -/
def dddCov (rows : List (DRow K)) (i : Fin rows.length) : Fin 2 → K := ![rows[i].age.getD 0, rows[i].education.getD 0]

/-- C116. With generated covariates and no noise, regression adjustment with both covariates recovers the effect exactly
whenever the columns are linearly independent. -/
theorem C116_covariates (c : DddCfg K) (z ed : ℕ → K) (hs : c.noiseSd = 0) (att : K)
    (indep : ∀ v : Fin 8 ⊕ Fin 2 → K, (∀ i, ∑ j, TripleDiff.designCov (gcol (generateDdd c z ed)) (pcol (generateDdd c z ed))
      (tcol (generateDdd c z ed)) (dddCov (generateDdd c z ed)) i j * v j = 0) → v = 0)
    (h : TripleDiff.IsRegCov (col (generateDdd c z ed) DRow.outcome) (gcol (generateDdd c z ed)) (pcol (generateDdd c z ed))
      (tcol (generateDdd c z ed)) (dddCov (generateDdd c z ed)) att) : att = c.effect := by
  obtain ⟨b, hb, rfl⟩ := h
  let b0 : Fin 8 ⊕ Fin 2 → K := Sum.elim ![50, c.group, c.partition, c.time, 3 / 2, 1, 1 / 2, c.effect] ![1 / 10, 1 / 2]
  have hfit : ∀ i, col (generateDdd c z ed) DRow.outcome i =
      ∑ j, TripleDiff.designCov (gcol (generateDdd c z ed)) (pcol (generateDdd c z ed)) (tcol (generateDdd c z ed)) (dddCov (generateDdd c z ed)) i j * b0 j := by
    intro i
    obtain ⟨k, ⟨g, p, t⟩, hx⟩ := ddd_row c z ed i
    rw [Fintype.sum_sum_type, Fin.sum_univ_eight, Fin.sum_univ_two]
    simp only [TripleDiff.designCov, TripleDiff.design, gcol, pcol, tcol, col, dddCov, hx, b0, Sum.elim_inl, Sum.elim_inr]
    simp only [dddRow, hs]
    cases c.covariates <;> cases g <;> cases p <;> cases t <;> simp [TripleDiff.ind, num] <;> ring
  have hb0 : Ols.IsOls (TripleDiff.designCov (gcol (generateDdd c z ed)) (pcol (generateDdd c z ed)) (tcol (generateDdd c z ed)) (dddCov (generateDdd c z ed)))
      (col (generateDdd c z ed) DRow.outcome) b0 := by
    intro j
    refine Finset.sum_eq_zero fun i _ => ?_
    have : Ols.resid (TripleDiff.designCov (gcol (generateDdd c z ed)) (pcol (generateDdd c z ed)) (tcol (generateDdd c z ed)) (dddCov (generateDdd c z ed)))
        (col (generateDdd c z ed) DRow.outcome) b0 i = 0 := by
      unfold Ols.resid Ols.fitted Ols.dot
      rw [hfit i, sub_self]
    rw [this, mul_zero]
  have := Ols.C11_coefficients_unique _ _ _ _ hb hb0 indep
  rw [this]
  rfl

/-- Two rows per cell, effect 3, covariates that vary within the first two cells only. -/
def exDdd : DddCfg ℚ := { nPerCell := 2, effect := 3, group := 2, partition := 1, time := 1 / 2, noiseSd := 0, covariates := true }
def exZ : ℕ → ℚ := fun i => if i = 0 then 1 else 0
def exEd : ℕ → ℚ := fun i => if i = 2 then 16 else 12

example : (generateDdd exDdd exZ exEd).length = 16 ∧ ((generateDdd exDdd exZ exEd).map DRow.outcome).take 4 = [61, 60, 125 / 2, 121 / 2] := by
  decide +kernel

/-- The hypothesis of `C116_covariates` is met by these data. -/
example : ∀ v : Fin 8 ⊕ Fin 2 → ℚ, (∀ i, ∑ j, TripleDiff.designCov (gcol (generateDdd exDdd exZ exEd)) (pcol (generateDdd exDdd exZ exEd))
      (tcol (generateDdd exDdd exZ exEd)) (dddCov (generateDdd exDdd exZ exEd)) i j * v j = 0) → v = 0 := by
  intro v hv
  have key : ∀ (g p t : Bool) (a b : ℚ),
      (∃ i : Fin (generateDdd exDdd exZ exEd).length, (generateDdd exDdd exZ exEd)[i].group = g ∧ (generateDdd exDdd exZ exEd)[i].partition = p ∧
        (generateDdd exDdd exZ exEd)[i].time = t ∧ (generateDdd exDdd exZ exEd)[i].age.getD 0 = a ∧ (generateDdd exDdd exZ exEd)[i].education.getD 0 = b) →
      v (.inl 0) + TripleDiff.ind g * v (.inl 1) + TripleDiff.ind p * v (.inl 2) + TripleDiff.ind t * v (.inl 3)
        + TripleDiff.ind g * TripleDiff.ind p * v (.inl 4) + TripleDiff.ind g * TripleDiff.ind t * v (.inl 5)
        + TripleDiff.ind p * TripleDiff.ind t * v (.inl 6) + TripleDiff.ind g * TripleDiff.ind p * TripleDiff.ind t * v (.inl 7)
        + a * v (.inr 0) + b * v (.inr 1) = 0 := by
    rintro g p t a b ⟨i, rfl, rfl, rfl, rfl, rfl⟩
    have h := hv i
    rw [Fintype.sum_sum_type, Fin.sum_univ_eight, Fin.sum_univ_two] at h
    simp only [TripleDiff.designCov, TripleDiff.design, Sum.elim_inl, Sum.elim_inr, dddCov, gcol, pcol, tcol, col] at h
    simp at h
    simp
    linarith
  have e1 := key false false false 50 12 (by decide +kernel)
  have e2 := key false false false 40 12 (by decide +kernel)
  have e3 := key false false true 40 16 (by decide +kernel)
  have e4 := key false false true 40 12 (by decide +kernel)
  have e5 := key false true false 40 12 (by decide +kernel)
  have e6 := key false true true 40 12 (by decide +kernel)
  have e7 := key true false false 40 12 (by decide +kernel)
  have e8 := key true false true 40 12 (by decide +kernel)
  have e9 := key true true false 40 12 (by decide +kernel)
  have e10 := key true true true 40 12 (by decide +kernel)
  simp [TripleDiff.ind] at e1 e2 e3 e4 e5 e6 e7 e8 e9 e10
  funext j
  rcases j with j | j <;> fin_cases j <;> simp <;> linarith

end DiffDiff.Dgp
