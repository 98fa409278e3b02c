/-
Properties C36-C38 and C75: triple difference estimation and validation.
-/
import Verif.TripleDiff
import Verif.OlsProps

set_option linter.unusedSectionVars false

namespace DiffDiff.TripleDiff

/-! ### Specification -/

section spec
variable {K : Type*} [Field K] {ι : Type*} [Fintype ι]

/-- Sample mean of a cell in a period. -/
def cellMean (y : ι → K) (G P T : ι → Bool) (g p t : Bool) : K :=
  (∑ i with G i = g ∧ P i = p ∧ T i = t, y i) / ((Finset.univ.filter (fun i => G i = g ∧ P i = p ∧ T i = t)).card : K)

/-- Difference in differences across groups within one partition. -/
def didIn (y : ι → K) (G P T : ι → Bool) (p : Bool) : K :=
  (cellMean y G P T true p true - cellMean y G P T true p false)
    - (cellMean y G P T false p true - cellMean y G P T false p false)

/-- Triple difference: DiD among the eligible minus DiD among the ineligible. -/
def ddd (y : ι → K) (G P T : ι → Bool) : K := didIn y G P T true - didIn y G P T false

end spec

variable {K : Type*} [Field K] [LinearOrder K] [IsStrictOrderedRing K]
variable {ι : Type*} [Fintype ι]

theorem mem_cellT {G P T : ι → Bool} {g p t : Bool} {i : ι} :
    i ∈ cellT G P T g p t ↔ G i = g ∧ P i = p ∧ T i = t := by simp [cellT]

/-- Sums of a function of the indicators times anything, cell by cell. -/
theorem sum_cells (G P T : ι → Bool) (c : Bool → Bool → Bool → K) (f : ι → K) :
    ∑ i, c (G i) (P i) (T i) * f i = ∑ g : Bool, ∑ p : Bool, ∑ t : Bool, c g p t * ∑ i ∈ cellT G P T g p t, f i := by
  simp only [cellT, Finset.sum_filter, Fintype.sum_bool, Finset.mul_sum, ← Finset.sum_add_distrib]
  refine Finset.sum_congr rfl (fun i _ => ?_)
  cases G i <;> cases P i <;> cases T i <;> simp

/-- The design as a function of the indicators. -/
def dcol (j : Fin 8) (g p t : Bool) : K :=
  (![1, ind g, ind p, ind t, ind g * ind p, ind g * ind t, ind p * ind t, ind g * ind p * ind t] : Fin 8 → K) j

def pred (b : Fin 8 → K) (g p t : Bool) : K := ∑ j, dcol j g p t * b j

theorem fitted_pred (G P T : ι → Bool) (b : Fin 8 → K) (i : ι) :
    Ols.fitted (design G P T) b i = pred b (G i) (P i) (T i) := rfl

theorem isOls_iff (y : ι → K) (G P T : ι → Bool) (b : Fin 8 → K) :
    Ols.IsOls (design G P T) y b ↔ ∀ g p t, ∑ i ∈ cellT G P T g p t, Ols.resid (design G P T) y b i = 0 := by
  set r := Ols.resid (design G P T) y b with hr
  have key : ∀ j, ∑ i, design G P T i j * r i =
      ∑ g : Bool, ∑ p : Bool, ∑ t : Bool, dcol j g p t * ∑ i ∈ cellT G P T g p t, r i :=
    fun j => sum_cells G P T (dcol j) r
  constructor
  · intro h
    have h' : ∀ j, ∑ g : Bool, ∑ p : Bool, ∑ t : Bool, dcol j g p t * ∑ i ∈ cellT G P T g p t, r i = 0 :=
      fun j => by rw [← key]; exact h j
    have h0 := h' 0; have h1 := h' 1; have h2 := h' 2; have h3 := h' 3
    have h4 := h' 4; have h5 := h' 5; have h6 := h' 6; have h7 := h' 7
    simp [dcol, ind] at h0 h1 h2 h3 h4 h5 h6 h7
    intro g p t
    cases g <;> cases p <;> cases t <;> linarith
  · intro h j
    rw [← hr, key]
    simp only [h, mul_zero, Finset.sum_const_zero]

theorem cell_resid (y : ι → K) (G P T : ι → Bool) (b : Fin 8 → K) (g p t : Bool) :
    ∑ i ∈ cellT G P T g p t, Ols.resid (design G P T) y b i =
      ∑ i ∈ cellT G P T g p t, y i - (cellT G P T g p t).card * pred b g p t := by
  have : ∀ i ∈ cellT G P T g p t, Ols.resid (design G P T) y b i = y i - pred b g p t := by
    intro i hi
    obtain ⟨h1, h2, h3⟩ := mem_cellT.1 hi
    rw [Ols.resid, fitted_pred, h1, h2, h3]
  rw [Finset.sum_congr rfl this, Finset.sum_sub_distrib, Finset.sum_const, nsmul_eq_mul]

theorem card_ne (G P T : ι → Bool) (hne : ∀ g p t, ∃ i, G i = g ∧ P i = p ∧ T i = t) (g p t : Bool) :
    ((cellT G P T g p t).card : K) ≠ 0 := by
  obtain ⟨i, hi⟩ := hne g p t
  exact_mod_cast (Finset.card_pos.2 ⟨i, mem_cellT.2 hi⟩).ne'

theorem mean_cell (y : ι → K) (G P T : ι → Bool) (g p t : Bool) :
    mean y (cellT G P T g p t) = cellMean y G P T g p t := rfl

theorem combine_eq_ddd (y : ι → K) (G P T : ι → Bool) : combine (cellMean y G P T) = ddd y G P T := by
  unfold combine ddd didIn
  ring

/-! ### C36 -/

/-- C36. Regression adjustment without covariates: every least-squares solution reports the triple difference of means. -/
theorem C36_reg (y : ι → K) (G P T : ι → Bool) (hne : ∀ g p t, ∃ i, G i = g ∧ P i = p ∧ T i = t) (att : K)
    (h : IsReg y G P T att) : att = ddd y G P T := by
  obtain ⟨b, hb, rfl⟩ := h
  have f : ∀ g p t, pred b g p t = cellMean y G P T g p t := by
    intro g p t
    have := (isOls_iff y G P T b).1 hb g p t
    rw [cell_resid] at this
    rw [← mean_cell, mean, eq_div_iff (card_ne G P T hne g p t)]
    linarith
  rw [← combine_eq_ddd]
  unfold combine
  rw [← f, ← f, ← f, ← f, ← f, ← f, ← f, ← f]
  simp [pred, dcol, ind, Fin.sum_univ_eight]
  ring

/-- C36. Such a solution exists. -/
theorem C36_reg_exists (y : ι → K) (G P T : ι → Bool) (hne : ∀ g p t, ∃ i, G i = g ∧ P i = p ∧ T i = t) :
    IsReg y G P T (ddd y G P T) := by
  set m := cellMean y G P T with hm
  let b : Fin 8 → K := ![m false false false, m true false false - m false false false,
    m false true false - m false false false, m false false true - m false false false,
    m true true false - m true false false - m false true false + m false false false,
    m true false true - m true false false - m false false true + m false false false,
    m false true true - m false true false - m false false true + m false false false,
    ddd y G P T]
  refine ⟨b, ?_, rfl⟩
  rw [isOls_iff]
  intro g p t
  rw [cell_resid]
  have : pred b g p t = m g p t := by
    rw [pred, Fin.sum_univ_eight]
    have e : ddd y G P T = combine m := (combine_eq_ddd y G P T).symm
    simp only [b, e, combine]
    cases g <;> cases p <;> cases t <;> simp [dcol, ind] <;> ring
  rw [this, hm, ← mean_cell, mean, mul_div_cancel₀ _ (card_ne G P T hne g p t), sub_self]

theorem clip_pos {lo hi p : K} (hp : 0 < p) (hhi : 0 < hi) : 0 < clip lo hi p := by
  unfold clip
  exact lt_min (lt_of_lt_of_le hp (le_max_left _ _)) hhi

theorem clip_pos' {lo hi p : K} (hlo : 0 < lo) (hhi : 0 < hi) : 0 < clip lo hi p := by
  unfold clip
  exact lt_min (lt_of_lt_of_le hlo (le_max_right _ _)) hhi

theorem shares_pos (G P T : ι → Bool) (hne : ∀ g p t, ∃ i, G i = g ∧ P i = p ∧ T i = t) (g p : Bool) (i : ι) :
    (0 : K) < shares G P g p i := by
  obtain ⟨j, h1, h2, _⟩ := hne g p true
  unfold shares
  have a : 0 < (cell G P g p).card := Finset.card_pos.2 ⟨j, by simp [cell, h1, h2]⟩
  have b : 0 < Fintype.card ι := Fintype.card_pos_iff.2 ⟨j⟩
  have a' : (0 : K) < (cell G P g p).card := by exact_mod_cast a
  have b' : (0 : K) < Fintype.card ι := by exact_mod_cast b
  positivity

/-- Sums against IPW weights are sums over the cell. -/
theorem sum_ipwWeight (v : ι → K) (G P T : ι → Bool) (q : Bool → Bool → ι → K) (g p t : Bool) :
    ∑ i, v i * ipwWeight G P T q g p t i = ∑ i ∈ cellT G P T g p t, v i * (q true true i / q g p i) := by
  unfold cellT ipwWeight
  rw [Finset.sum_filter]
  refine Finset.sum_congr rfl (fun i _ => ?_)
  split_ifs <;> simp

/-- A weighted mean with positive probabilities, in general. -/
theorem ipwMean_eq (y : ι → K) (G P T : ι → Bool) (q : Bool → Bool → ι → K) (hq : ∀ g p i, 0 < q g p i) (g p t : Bool)
    (hne : (cellT G P T g p t).Nonempty) :
    ipwMean y G P T q g p t = (∑ i ∈ cellT G P T g p t, y i * (q true true i / q g p i)) /
      ∑ i ∈ cellT G P T g p t, (q true true i / q g p i) := by
  unfold ipwMean
  split_ifs with h1 h2
  · obtain ⟨rfl, rfl⟩ := h1
    unfold mean
    have : ∀ i, q true true i / q true true i = 1 := fun i => div_self (hq true true i).ne'
    simp [this]
  · obtain ⟨rfl, rfl⟩ := h1
    exact absurd (Finset.card_pos.2 hne) h2
  · unfold weightedMean
    have e : ∑ i, ipwWeight G P T q g p t i = ∑ i ∈ cellT G P T g p t, (q true true i / q g p i) := by
      have := sum_ipwWeight (fun _ => (1 : K)) G P T q g p t
      simpa using this
    rw [e, if_neg, sum_ipwWeight]
    rw [not_le]
    exact Finset.sum_pos (fun i _ => div_pos (hq _ _ i) (hq _ _ i)) hne

/-- C36. IPW without covariates reports the triple difference of means, for every trimming value below one (whether or not
the trimming binds). -/
theorem C36_ipw (trim : K) (htrim : trim < 1) (y : ι → K) (G P T : ι → Bool)
    (hne : ∀ g p t, ∃ i, G i = g ∧ P i = p ∧ T i = t) : ipwAtt trim y G P T (shares G P) = ddd y G P T := by
  unfold ipwAtt
  rw [← combine_eq_ddd]
  congr 1
  funext g p t
  have hpos : ∀ g p (i : ι), (0 : K) < clipped trim (shares G P) g p i :=
    fun g p i => clip_pos (shares_pos G P T hne g p i) (by linarith)
  have hn : (cellT G P T g p t).Nonempty := (hne g p t).imp (fun i hi => mem_cellT.2 hi)
  rw [ipwMean_eq y G P T _ hpos g p t hn, ← mean_cell, mean]
  obtain ⟨j, _⟩ := hne true true true
  have hc : ∀ i, clipped trim (shares G P) true true i / clipped trim (shares G P) g p i =
      clipped trim (shares G P) true true j / clipped trim (shares G P) g p j := fun i => rfl
  simp only [hc]
  rw [← Finset.sum_mul, Finset.sum_const, nsmul_eq_mul]
  exact mul_div_mul_right _ _ (div_pos (hpos _ _ j) (hpos _ _ j)).ne'

/-- Shifting every outcome leaves the triple difference unchanged. -/
theorem ddd_shift (y : ι → K) (G P T : ι → Bool) (hne : ∀ g p t, ∃ i, G i = g ∧ P i = p ∧ T i = t) (c : K) :
    ddd (fun i => y i + c) G P T = ddd y G P T := by
  have : ∀ g p t, cellMean (fun i => y i + c) G P T g p t = cellMean y G P T g p t + c := by
    intro g p t
    rw [← mean_cell, ← mean_cell]
    unfold mean
    rw [Finset.sum_add_distrib, Finset.sum_const, nsmul_eq_mul, add_div, mul_div_cancel_left₀ _ (card_ne G P T hne g p t)]
  unfold ddd didIn
  simp only [this]
  ring

/-- C36. Regression adjustment, with any covariates: shifting the outcome by a constant does not change the reported
effect, and the residuals (hence the standard error) stay the same. -/
theorem C36_reg_shift {κ : Type*} [Fintype κ] (y : ι → K) (G P T : ι → Bool) (Z : ι → κ → K) (c : K)
    (b : Fin 8 ⊕ κ → K) (hb : Ols.IsOls (designCov G P T Z) y b) :
    ∃ b', Ols.IsOls (designCov G P T Z) (fun i => y i + c) b' ∧ b' (Sum.inl 7) = b (Sum.inl 7) ∧
      Ols.resid (designCov G P T Z) (fun i => y i + c) b' = Ols.resid (designCov G P T Z) y b := by
  let b' : Fin 8 ⊕ κ → K := Sum.elim (fun j => b (Sum.inl j) + if j = 0 then c else 0) (fun k => b (Sum.inr k))
  have hf : ∀ i, Ols.resid (designCov G P T Z) (fun i => y i + c) b' i = Ols.resid (designCov G P T Z) y b i := by
    intro i
    have : Ols.fitted (designCov G P T Z) b' i = Ols.fitted (designCov G P T Z) b i + c := by
      unfold Ols.fitted Ols.dot
      simp only [Fintype.sum_sum_type, b', Sum.elim_inl, Sum.elim_inr, mul_add, Finset.sum_add_distrib]
      have : ∑ j : Fin 8, designCov G P T Z i (Sum.inl j) * (if j = 0 then c else 0) = c := by
        simp [designCov, design]
      rw [this]
      ring
    unfold Ols.resid
    rw [this]
    ring
  refine ⟨b', ?_, ?_, funext hf⟩
  · intro j
    simp only [hf]
    exact hb j
  · simp [b']

/-- C36. IPW with covariates (any propensity scores, trimming strictly between 0 and 1): shift invariant. -/
theorem C36_ipw_shift (trim : K) (h0 : 0 < trim) (h1 : trim < 1) (y : ι → K) (G P T : ι → Bool)
    (pc : Bool → Bool → ι → K) (hne : ∀ g p t, ∃ i, G i = g ∧ P i = p ∧ T i = t) (c : K) :
    ipwAtt trim (fun i => y i + c) G P T pc = ipwAtt trim y G P T pc := by
  have hpos : ∀ g p (i : ι), (0 : K) < clipped trim pc g p i := fun g p i => clip_pos' h0 (by linarith)
  have : ∀ g p t, ipwMean (fun i => y i + c) G P T (clipped trim pc) g p t =
      ipwMean y G P T (clipped trim pc) g p t + c := by
    intro g p t
    have hn : (cellT G P T g p t).Nonempty := (hne g p t).imp (fun i hi => mem_cellT.2 hi)
    have hs : (∑ i ∈ cellT G P T g p t, (clipped trim pc true true i / clipped trim pc g p i)) ≠ 0 :=
      (Finset.sum_pos (fun i _ => div_pos (hpos _ _ i) (hpos _ _ i)) hn).ne'
    rw [ipwMean_eq _ G P T _ hpos g p t hn, ipwMean_eq _ G P T _ hpos g p t hn]
    simp only [add_mul, Finset.sum_add_distrib, ← Finset.mul_sum]
    rw [add_div, mul_div_cancel_right₀ _ hs]
  unfold ipwAtt combine
  simp only [this]
  ring

/-- The outcome model drops out of every influence term. -/
theorem infl_eq (y mu : ι → K) (G P : ι → Bool) (q : Bool → Bool → ι → K) (hq : ∀ i, q true true i ≠ 0) (g p : Bool) (i : ι) :
    infl y mu G P q g p i = if G i = g ∧ P i = p then y i * (q true true i / q g p i) / pRef G P else 0 := by
  unfold infl
  split_ifs with h1 h2 h3 h3 h3 h4 <;> try simp
  · obtain ⟨rfl, rfl⟩ := h1
    rw [div_self (hq i)]
    ring
  · obtain ⟨rfl, rfl⟩ := h1
    exact absurd h2 h3
  · obtain ⟨rfl, rfl⟩ := h1
    exact absurd h3 h2
  · ring

/-- Sum over a period of an influence term: the cell's rows of that period. -/
theorem mean_infl (y mu : ι → K) (G P T : ι → Bool) (q : Bool → Bool → ι → K) (hq : ∀ i, q true true i ≠ 0) (g p t : Bool) :
    mean (infl y mu G P q g p) (period T t) =
      (∑ i ∈ cellT G P T g p t, y i * (q true true i / q g p i)) / (pRef G P * (period T t).card) := by
  unfold mean
  simp only [infl_eq y mu G P q hq]
  rw [← Finset.sum_filter]
  have : (period T t).filter (fun i => G i = g ∧ P i = p) = cellT G P T g p t := by
    ext i
    simp [period, mem_cellT, and_comm, and_assoc, and_left_comm]
  rw [this, ← Finset.sum_div, div_div]

/-- C36, doubly robust without covariates, what the code computes in general: each cell mean is multiplied by the ratio of
the cell's share in the period to its share in the whole sample. -/
theorem C36_dr_formula (trim : K) (h0 : 0 < trim) (y : ι → K) (G P T : ι → Bool)
    (hne : ∀ g p t, ∃ i, G i = g ∧ P i = p ∧ T i = t)
    (hclip : ∀ g p i, trim ≤ shares G P g p i ∧ shares G P g p i ≤ 1 - trim) :
    drAtt trim y (cellMu y G P T) G P T (shares G P) =
      combine (fun g p t => cellMean y G P T g p t *
        ((((cellT G P T g p t).card : K) / (period T t).card) / (((cell G P g p).card : K) / Fintype.card ι))) := by
  have hcl : clipped trim (shares G P) = (shares G P : Bool → Bool → ι → K) := by
    funext g p i
    unfold clipped clip
    rw [max_eq_left (hclip g p i).1, min_eq_left (hclip g p i).2]
  unfold drAtt
  rw [hcl]
  congr 1
  funext g p t
  rw [mean_infl y _ G P T _ (fun i => (shares_pos G P T hne true true i).ne') g p t, ← mean_cell]
  obtain ⟨j, hj⟩ := hne true true true
  have hN : (Fintype.card ι : K) ≠ 0 := by
    have : 0 < Fintype.card ι := Fintype.card_pos_iff.2 ⟨j⟩
    exact_mod_cast this.ne'
  have hc : ∀ g p, ((cell G P g p).card : K) ≠ 0 := by
    intro g p
    obtain ⟨i, h1, h2, _⟩ := hne g p true
    have : 0 < (cell G P g p).card := Finset.card_pos.2 ⟨i, by simp [cell, h1, h2]⟩
    exact_mod_cast this.ne'
  have hp : ((period T t).card : K) ≠ 0 := by
    obtain ⟨i, _, _, h3⟩ := hne true true t
    have : 0 < (period T t).card := Finset.card_pos.2 ⟨i, by simp [period, h3]⟩
    exact_mod_cast this.ne'
  have hct := card_ne (K := K) G P T hne g p t
  unfold shares pRef mean
  rw [← Finset.sum_mul]
  have h11 := hc true true
  have hgp := hc g p
  field_simp

/-- C36, doubly robust: agrees with the other methods when every cell has the same share of the rows in both periods (as
in a balanced panel) and no cell share is trimmed. -/
theorem C36_dr_partial (trim : K) (h0 : 0 < trim) (y : ι → K) (G P T : ι → Bool)
    (hne : ∀ g p t, ∃ i, G i = g ∧ P i = p ∧ T i = t)
    (hclip : ∀ g p i, trim ≤ shares G P g p i ∧ shares G P g p i ≤ 1 - trim)
    (hbal : ∀ g p t, (((cellT G P T g p t).card : K) / (period T t).card) = ((cell G P g p).card : K) / Fintype.card ι) :
    drAtt trim y (cellMu y G P T) G P T (shares G P) = ddd y G P T := by
  rw [C36_dr_formula trim h0 y G P T hne hclip, ← combine_eq_ddd]
  congr 1
  funext g p t
  obtain ⟨j, hj⟩ := hne true true true
  have hs : ((cell G P g p).card : K) / Fintype.card ι ≠ 0 := (shares_pos (K := K) G P T hne g p j).ne'
  rw [hbal, div_self hs, mul_one]

/-- Nine rows: each cell once, the treated eligible post-period cell twice. -/
def exG : Fin 9 → Bool := ![true, true, true, true, false, false, false, false, true]
def exP : Fin 9 → Bool := ![true, true, false, false, true, true, false, false, true]
def exT : Fin 9 → Bool := ![false, true, false, true, false, true, false, true, true]

theorem ex_cells : ∀ g p t, ∃ i, exG i = g ∧ exP i = p ∧ exT i = t := by decide

/-- C36 is false of the doubly robust method: with repeated cross-sections whose cell shares change over time, constant
outcomes (no effect at all) yield a non-zero estimate, and shifting the outcome changes the estimate. -/
theorem C36_dr_refuted :
    drAtt (1 / 100 : ℚ) (fun _ => 10) (cellMu (fun _ => 10) exG exP exT) exG exP exT (shares exG exP) ≠ 0 ∧
    ddd (fun _ => (10 : ℚ)) exG exP exT = 0 ∧
    ∃ y : Fin 9 → ℚ, drAtt (1 / 100 : ℚ) (fun i => y i + 1) (cellMu (fun i => y i + 1) exG exP exT) exG exP exT
        (shares exG exP) ≠ drAtt (1 / 100 : ℚ) y (cellMu y exG exP exT) exG exP exT (shares exG exP) := by
  refine ⟨by decide +kernel, by decide +kernel, fun _ => 0, by decide +kernel⟩

/-! ### C37 -/

/-- C37. The fitted outcome model has no influence on the estimate: any two sets of fitted values give the same result. -/
theorem C37_outcome_model_ignored (trim : K) (h0 : 0 < trim) (h1 : trim < 1) (y mu mu' : ι → K) (G P T : ι → Bool)
    (pc : Bool → Bool → ι → K) : drAtt trim y mu G P T pc = drAtt trim y mu' G P T pc := by
  have hq : ∀ i, clipped trim pc true true i ≠ 0 := fun i => (clip_pos' h0 (by linarith)).ne'
  unfold drAtt
  congr 1
  funext g p t
  rw [mean_infl y mu G P T _ hq g p t, mean_infl y mu' G P T _ hq g p t]

/-- C37. With covariates the four cell probabilities form a probability distribution whose group and partition margins are
the (clipped) fitted scores. -/
theorem C37_cell_probabilities (trim : K) (h0 : 0 < trim) (h1 : trim < 1 / 2) (pG pP : ι → K) (i : ι) :
    (∀ g p, 0 < scores trim pG pP g p i) ∧
    scores trim pG pP true true i + scores trim pG pP true false i = max trim (min (pG i) (1 - trim)) ∧
    scores trim pG pP true true i + scores trim pG pP false true i = max trim (min (pP i) (1 - trim)) ∧
    scores trim pG pP true true i + scores trim pG pP true false i + scores trim pG pP false true i
      + scores trim pG pP false false i = 1 := by
  have hb : ∀ x : K, 0 < clip trim (1 - trim) x ∧ clip trim (1 - trim) x < 1 ∧
      clip trim (1 - trim) x = max trim (min x (1 - trim)) := by
    intro x
    have e : clip trim (1 - trim) x = max trim (min x (1 - trim)) := by
      unfold clip
      rcases le_total x (1 - trim) with h | h <;> rcases le_total x trim with h' | h' <;>
        simp [max_def, min_def] <;> split_ifs <;> linarith
    refine ⟨?_, ?_, e⟩
    · rw [e]; exact lt_of_lt_of_le h0 (le_max_left _ _)
    · rw [e]
      exact max_lt (by linarith) (lt_of_le_of_lt (min_le_right _ _) (by linarith))
  obtain ⟨a0, a1, ae⟩ := hb (pG i)
  obtain ⟨c0, c1, ce⟩ := hb (pP i)
  rw [← ae, ← ce]
  unfold scores
  refine ⟨?_, ?_, ?_, ?_⟩
  · intro g p
    cases g <;> cases p <;> simp <;> apply mul_pos <;> linarith
  · simp; ring
  · simp; ring
  · simp; ring

/-- C37 is false: even when the outcome model fits perfectly, the estimate moves with the propensity scores. -/
theorem C37_refuted : ∃ (y : Fin 8 → ℚ) (G P T : Fin 8 → Bool) (pG pG' pP : Fin 8 → ℚ),
    (∀ g p t, ∃ i, G i = g ∧ P i = p ∧ T i = t) ∧
    drAtt (1 / 100) y y G P T (scores (1 / 100) pG pP) ≠ drAtt (1 / 100) y y G P T (scores (1 / 100) pG' pP) := by
  refine ⟨fun _ => 1, ![true, true, true, true, false, false, false, false],
    ![true, true, false, false, true, true, false, false], ![false, true, false, true, false, true, false, true],
    fun _ => 1 / 2, ![1/2, 1/2, 1/2, 1/2, 1/2, 1/2, 1/2, 1/4], fun _ => 1 / 2, by decide, by decide +kernel⟩

section strata
variable {S : Type*} [Fintype S] [DecidableEq S]

/-- Rows of a cell, period and stratum. -/
def stratum (G P T : ι → Bool) (x : ι → S) (g p t : Bool) (s : S) : Finset ι :=
  Finset.univ.filter (fun i => G i = g ∧ P i = p ∧ T i = t ∧ x i = s)

/-- Mean outcome in a cell, period and stratum. -/
def stratumMean (y : ι → K) (G P T : ι → Bool) (x : ι → S) (g p t : Bool) (s : S) : K :=
  (∑ i ∈ stratum G P T x g p t s, y i) / ((stratum G P T x g p t s).card : K)

/-- Triple difference inside a stratum. -/
def stratumDdd (y : ι → K) (G P T : ι → Bool) (x : ι → S) (s : S) : K :=
  combine (fun g p t => stratumMean y G P T x g p t s)

theorem sum_strata (G P T : ι → Bool) (x : ι → S) (g p t : Bool) (f : ι → K) :
    ∑ i ∈ cellT G P T g p t, f i = ∑ s, ∑ i ∈ stratum G P T x g p t s, f i := by
  rw [← Finset.sum_fiberwise (cellT G P T g p t) x f]
  refine Finset.sum_congr rfl (fun s _ => ?_)
  congr 1
  ext i
  simp [stratum, mem_cellT, and_assoc]

theorem combine_sum (m : S → Bool → Bool → Bool → K) : combine (fun g p t => ∑ s, m s g p t) = ∑ s, combine (m s) := by
  unfold combine
  simp only [← Finset.sum_sub_distrib, ← Finset.sum_add_distrib]

theorem combine_smul (c : K) (m : Bool → Bool → Bool → K) : combine (fun g p t => c * m g p t) = c * combine m := by
  unfold combine
  ring

/-- C37, what the doubly robust method does deliver: with discrete covariates, untrimmed scores equal to the cell shares
inside each stratum in both periods, and strata equally frequent in both periods, the estimate is the average of the
stratum triple differences weighted by the covariate distribution of the treated eligible. -/
theorem C37_dr_strata_partial (trim : K) (h0 : 0 < trim) (h1 : trim < 1) (y mu : ι → K) (G P T : ι → Bool) (x : ι → S)
    (pc : Bool → Bool → ι → K) (π : Bool → Bool → S → K) (f : S → K)
    (hclip : ∀ g p i, clipped trim pc g p i = π g p (x i))
    (hne : ∀ t, (period T t).Nonempty) (hπ : ∀ g p s, 0 < π g p s)
    (hst : ∀ g p t s, ((stratum G P T x g p t s).card : K) = π g p s * (f s * (period T t).card))
    (hf : ∀ s, 0 < f s) :
    drAtt trim y mu G P T pc =
      ∑ s, (((cell G P true true).filter (fun i => x i = s)).card : K) / ((cell G P true true).card : K)
        * stratumDdd y G P T x s := by
  have hq : ∀ i, clipped trim pc true true i ≠ 0 := fun i => (clip_pos' h0 (by linarith)).ne'
  have hpt : ∀ t, ((period T t).card : K) ≠ 0 := fun t => by exact_mod_cast (Finset.card_pos.2 (hne t)).ne'
  have hN : ((period T true).card : K) + (period T false).card = Fintype.card ι := by
    have : (period T true).card + (period T false).card = Fintype.card ι := by
      have h := Finset.card_filter_add_card_filter_not (s := (Finset.univ : Finset ι)) (fun i => T i = true)
      simp only [Bool.not_eq_true] at h
      exact h
    exact_mod_cast this
  have hNpos : (0 : K) < Fintype.card ι := by
    obtain ⟨j, _⟩ := hne true
    have : 0 < Fintype.card ι := Fintype.card_pos_iff.2 ⟨j⟩
    exact_mod_cast this
  have hcs : ∀ s, (((cell G P true true).filter (fun i => x i = s)).card : K) = π true true s * f s * Fintype.card ι := by
    intro s
    have hsplit : ((cell G P true true).filter (fun i => x i = s)).card =
        (stratum G P T x true true true s).card + (stratum G P T x true true false s).card := by
      rw [← Finset.card_filter_add_card_filter_not (s := (cell G P true true).filter (fun i => x i = s)) (fun i => T i = true)]
      congr 2
      · ext i; simp [cell, stratum]; tauto
      · ext i; simp [cell, stratum]; tauto
    rw [hsplit]
    push_cast
    rw [hst, hst, ← hN]
    ring
  have hdr : drAtt trim y mu G P T pc =
      combine (fun g p t => ∑ s, (π true true s * f s / pRef G P) * stratumMean y G P T x g p t s) := by
    unfold drAtt
    congr 1
    funext g p t
    rw [mean_infl y mu G P T _ hq g p t, sum_strata G P T x g p t, Finset.sum_div]
    refine Finset.sum_congr rfl (fun s _ => ?_)
    have : ∀ i ∈ stratum G P T x g p t s, y i * (clipped trim pc true true i / clipped trim pc g p i) =
        y i * (π true true s / π g p s) := by
      intro i hi
      have hx : x i = s := by
        simp [stratum] at hi
        exact hi.2.2.2
      rw [hclip, hclip, hx]
    rw [Finset.sum_congr rfl this, ← Finset.sum_mul]
    unfold stratumMean
    rw [hst]
    have a1 := (hπ g p s).ne'
    have a2 := (hf s).ne'
    have a3 := hpt t
    by_cases hr : pRef G P = (0 : K)
    · rw [hr]; simp
    · field_simp
  rw [hdr, combine_sum]
  refine Finset.sum_congr rfl (fun s _ => ?_)
  rw [combine_smul, hcs]
  unfold stratumDdd pRef
  congr 1
  by_cases hc : ((cell G P true true).card : K) = 0
  · rw [hc]; simp
  · field_simp

/-- The same for IPW, with weaker conditions: the scores need only be proportional to the stratum counts in each period. -/
theorem C37_ipw_strata (trim : K) (y : ι → K) (G P T : ι → Bool) (x : ι → S) (pc : Bool → Bool → ι → K)
    (π : Bool → Bool → S → K) (N : Bool → S → K) (hclip : ∀ g p i, clipped trim pc g p i = π g p (x i))
    (hne : ∀ g p t, ∃ i, G i = g ∧ P i = p ∧ T i = t) (hπ : ∀ g p s, 0 < π g p s) (hN : ∀ t s, 0 < N t s)
    (hst : ∀ g p t s, ((stratum G P T x g p t s).card : K) = π g p s * N t s) :
    ipwAtt trim y G P T pc = combine (fun g p t => ∑ s,
      ((stratum G P T x true true t s).card : K) / ((cellT G P T true true t).card : K) * stratumMean y G P T x g p t s) := by
  unfold ipwAtt
  congr 1
  funext g p t
  have hpos : ∀ g p i, 0 < clipped trim pc g p i := fun g p i => by rw [hclip]; exact hπ _ _ _
  rw [ipwMean_eq y G P T _ hpos g p t ((hne g p t).imp (fun i hi => mem_cellT.2 hi))]
  have hnum : ∀ v : ι → K, ∑ i ∈ cellT G P T g p t, v i * (clipped trim pc true true i / clipped trim pc g p i) =
      ∑ s, (∑ i ∈ stratum G P T x g p t s, v i) * (π true true s / π g p s) := by
    intro v
    rw [sum_strata G P T x g p t]
    refine Finset.sum_congr rfl (fun s _ => ?_)
    rw [Finset.sum_mul]
    refine Finset.sum_congr rfl (fun i hi => ?_)
    have hx : x i = s := by
      simp [stratum] at hi
      exact hi.2.2.2
    rw [hclip, hclip, hx]
  have hden : ∑ i ∈ cellT G P T g p t, (clipped trim pc true true i / clipped trim pc g p i) =
      ((cellT G P T true true t).card : K) := by
    have := hnum (fun _ => 1)
    simp only [one_mul] at this
    rw [this]
    have h2 := sum_strata G P T x true true t (fun _ => (1 : K))
    simp only [Finset.sum_const, nsmul_eq_mul, mul_one] at h2 ⊢
    rw [h2]
    refine Finset.sum_congr rfl (fun s _ => ?_)
    rw [hst, hst]
    have := (hπ g p s).ne'
    field_simp
  rw [hnum, hden, Finset.sum_div]
  refine Finset.sum_congr rfl (fun s _ => ?_)
  unfold stratumMean
  rw [hst, hst]
  have a1 := (hπ g p s).ne'
  have a2 := (hN t s).ne'
  field_simp

end strata

/-! ### C38 -/

section validation
variable {L : Type*} [Field L] [DecidableEq L]

theorem nunique_lt_two {n : ℕ} {c : Fin n → Option L} (hb : ∀ i, c i = some 0 ∨ c i = some 1) :
    nunique c < 2 ↔ ¬ ((∃ i, c i = some 0) ∧ ∃ i, c i = some 1) := by
  unfold nunique
  constructor
  · rintro h ⟨⟨i, hi⟩, ⟨j, hj⟩⟩
    have : ({some 0, some 1} : Finset (Option L)) ⊆ Finset.univ.image c := by
      intro a ha
      rw [Finset.mem_insert, Finset.mem_singleton] at ha
      rcases ha with rfl | rfl
      · exact Finset.mem_image.2 ⟨i, Finset.mem_univ _, hi⟩
      · exact Finset.mem_image.2 ⟨j, Finset.mem_univ _, hj⟩
    have h2 := Finset.card_le_card this
    rw [Finset.card_pair (by simp)] at h2
    omega
  · intro h
    by_contra hlt
    rw [not_lt] at hlt
    obtain ⟨a, ha, b, hb', hab⟩ := Finset.one_lt_card.1 (show 1 < (Finset.univ.image c).card by omega)
    obtain ⟨i, _, rfl⟩ := Finset.mem_image.1 ha
    obtain ⟨j, _, rfl⟩ := Finset.mem_image.1 hb'
    apply h
    rcases hb i with h1 | h1 <;> rcases hb j with h2 | h2
    · exact absurd (h1.trans h2.symm) hab
    · exact ⟨⟨i, h1⟩, ⟨j, h2⟩⟩
    · exact ⟨⟨j, h2⟩, ⟨i, h1⟩⟩
    · exact absurd (h1.trans h2.symm) hab

theorem checkBinary_ok {n : ℕ} {name : String} {c : Fin n → Option L} :
    checkBinary name c = .ok () ↔ (∀ i, c i = some 0 ∨ c i = some 1) ∧ (∃ i, c i = some 0) ∧ ∃ i, c i = some 1 := by
  unfold checkBinary binary
  by_cases hb : ∀ i, c i = some 0 ∨ c i = some 1
  · rw [if_pos (by simpa using hb)]
    by_cases h : nunique c < 2
    · rw [if_pos h]
      have := (nunique_lt_two hb).1 h
      constructor
      · intro h; cases h
      · rintro ⟨_, h2⟩; exact absurd h2 this
    · rw [if_neg h]
      have := (nunique_lt_two hb).not.1 h
      rw [not_not] at this
      exact ⟨fun _ => ⟨hb, this⟩, fun _ => rfl⟩
  · rw [if_neg (by simpa using hb)]
    constructor
    · intro h; cases h
    · rintro ⟨h1, _⟩; exact absurd h1 hb

theorem checkMissing_ok {n : ℕ} {name : String} {c : Fin n → Option L} :
    checkMissing name c = .ok () ↔ ∀ i, c i ≠ none := by
  unfold checkMissing anyMissing
  by_cases h : ∃ i, c i = none
  · rw [if_pos (by simpa using h)]
    constructor
    · intro h; cases h
    · intro h2; obtain ⟨i, hi⟩ := h; exact absurd hi (h2 i)
  · rw [if_neg (by simpa using h)]
    push Not at h
    exact ⟨fun _ => h, fun _ => rfl⟩

theorem bind_ok {a : Except Err Unit} {b : Unit → Except Err Unit} :
    (a >>= b) = .ok () ↔ a = .ok () ∧ b () = .ok () := by
  cases a with
  | error e => constructor
               · intro h; cases h
               · rintro ⟨h, _⟩; cases h
  | ok u => exact ⟨fun h => ⟨rfl, h⟩, fun h => h.2⟩

/-- What a valid triple-difference data set is: every cell of the 2x2x2 table occurs, the indicators are 0/1 and nothing is
missing. -/
structure Valid {n : ℕ} (y g p t : Fin n → Option L) : Prop where
  outcome : ∀ i, ∃ v, y i = some v
  codes : ∀ i, (g i = some 0 ∨ g i = some 1) ∧ (p i = some 0 ∨ p i = some 1) ∧ (t i = some 0 ∨ t i = some 1)
  cells : ∀ a b c : Bool, ∃ i, g i = some (if a then 1 else 0) ∧ p i = some (if b then 1 else 0) ∧
    t i = some (if c then 1 else 0)

theorem checkColumns_ok {n : ℕ} {y g p t : Fin n → Option L} : checkColumns y g p t = .ok () ↔ Valid y g p t := by
  unfold checkColumns
  simp only [bind_ok, checkMissing_ok, checkBinary_ok]
  constructor
  · rintro ⟨hy, _, _, _, ⟨hg, _⟩, ⟨hp, _⟩, ⟨ht, _⟩, hc⟩
    refine ⟨fun i => ?_, fun i => ⟨hg i, hp i, ht i⟩, ?_⟩
    · exact Option.ne_none_iff_exists'.1 (hy i)
    · split_ifs at hc with hany
      simp only [List.any_eq_true, not_exists, not_and, Bool.not_eq_true] at hany
      have key : ∀ c ∈ (cellList : List (L × L × L)), ∃ i, g i = some c.1 ∧ p i = some c.2.1 ∧ t i = some c.2.2 := by
        intro c hcm
        have := hany c hcm
        unfold cellEmpty at this
        rw [decide_eq_false_iff_not, Finset.card_eq_zero] at this
        obtain ⟨i, hi⟩ := Finset.nonempty_iff_ne_empty.2 this
        exact ⟨i, (Finset.mem_filter.1 hi).2⟩
      intro a b c
      have := key (if a then 1 else 0, if b then 1 else 0, if c then 1 else 0) (by
        cases a <;> cases b <;> cases c <;> simp [cellList])
      exact this
  · rintro ⟨hy, hcodes, hcells⟩
    have nn : ∀ {c : Fin n → Option L}, (∀ i, c i = some 0 ∨ c i = some 1) → ∀ i, c i ≠ none := by
      intro c h i hi
      rcases h i with h | h <;> rw [hi] at h <;> cases h
    refine ⟨fun i => ?_, nn (fun i => (hcodes i).1), nn (fun i => (hcodes i).2.1), nn (fun i => (hcodes i).2.2),
      ⟨fun i => (hcodes i).1, ?_, ?_⟩, ⟨fun i => (hcodes i).2.1, ?_, ?_⟩, ⟨fun i => (hcodes i).2.2, ?_, ?_⟩, ?_⟩
    · obtain ⟨v, hv⟩ := hy i; rw [hv]; simp
    · obtain ⟨i, h, _⟩ := hcells false false false; exact ⟨i, h⟩
    · obtain ⟨i, h, _⟩ := hcells true false false; exact ⟨i, h⟩
    · obtain ⟨i, _, h, _⟩ := hcells false false false; exact ⟨i, h⟩
    · obtain ⟨i, _, h, _⟩ := hcells false true false; exact ⟨i, h⟩
    · obtain ⟨i, _, _, h⟩ := hcells false false false; exact ⟨i, h⟩
    · obtain ⟨i, _, _, h⟩ := hcells false false true; exact ⟨i, h⟩
    · rw [if_neg]
      intro hany
      rw [List.any_eq_true] at hany
      obtain ⟨c, hc, hemp⟩ := hany
      unfold cellEmpty at hemp
      rw [decide_eq_true_eq, Finset.card_eq_zero] at hemp
      have : ∃ a b d : Bool, c = (if a then 1 else 0, if b then 1 else 0, if d then 1 else 0) := by
        simp only [cellList, List.mem_cons, List.not_mem_nil, or_false] at hc
        rcases hc with rfl | rfl | rfl | rfl | rfl | rfl | rfl | rfl
        · exact ⟨true, true, false, rfl⟩
        · exact ⟨true, true, true, rfl⟩
        · exact ⟨true, false, false, rfl⟩
        · exact ⟨true, false, true, rfl⟩
        · exact ⟨false, true, false, rfl⟩
        · exact ⟨false, true, true, rfl⟩
        · exact ⟨false, false, false, rfl⟩
        · exact ⟨false, false, true, rfl⟩
      obtain ⟨a, b, d, rfl⟩ := this
      obtain ⟨i, hi⟩ := hcells a b d
      have : i ∈ (∅ : Finset (Fin n)) := by
        rw [← hemp]
        exact Finset.mem_filter.2 ⟨Finset.mem_univ _, hi⟩
      cases this

/-- C38. `fit` gets past validation exactly for valid data sets: all named columns exist, the outcome, indicators and
covariates have no missing value, the indicators are 0/1 and all eight cells occur. -/
theorem C38_validation_exact (df : Frame L) (outcome group partition time : String) (covariates : List String) :
    validate df outcome group partition time covariates = .ok () ↔
      (∃ y g p t, df.col outcome = some y ∧ df.col group = some g ∧ df.col partition = some p ∧ df.col time = some t ∧
        Valid y g p t) ∧ ∀ c ∈ covariates, ∃ x, df.col c = some x ∧ ∀ i, x i ≠ none := by
  unfold validate
  cases hy : df.col outcome with
  | none => simp
  | some y => cases hg : df.col group with
    | none => simp
    | some g => cases hp : df.col partition with
      | none => simp
      | some p => cases ht : df.col time with
        | none => simp
        | some t =>
          simp only
          by_cases h1 : covariates.any (fun c => (df.col c).isNone) = true
          · rw [if_pos h1]
            rw [List.any_eq_true] at h1
            obtain ⟨c, hc, hn⟩ := h1
            rw [Option.isNone_iff_eq_none] at hn
            constructor
            · intro h; cases h
            · rintro ⟨_, h⟩
              obtain ⟨x, hx, _⟩ := h c hc
              rw [hn] at hx; cases hx
          · rw [if_neg h1]
            have hex : ∀ c ∈ covariates, ∃ x, df.col c = some x := by
              intro c hc
              cases hcol : df.col c with
              | some x => exact ⟨x, rfl⟩
              | none => exact absurd (List.any_eq_true.2 ⟨c, hc, by rw [hcol]; rfl⟩) h1
            have hv : (∃ y' g' p' t', some y = some y' ∧ some g = some g' ∧ some p = some p' ∧ some t = some t' ∧
                Valid y' g' p' t') ↔ Valid y g p t := by
              constructor
              · rintro ⟨_, _, _, _, h1, h2, h3, h4, h⟩
                cases h1; cases h2; cases h3; cases h4
                exact h
              · intro h; exact ⟨y, g, p, t, rfl, rfl, rfl, rfl, h⟩
            rw [hv, ← checkColumns_ok]
            cases hcc : checkColumns y g p t with
            | error e => simp
            | ok u =>
              simp only [true_and]
              rw [ite_eq_right_iff]
              constructor
              · intro h c hc
                obtain ⟨x, hx⟩ := hex c hc
                refine ⟨x, hx, fun i hi => ?_⟩
                have := h (List.any_eq_true.2 ⟨c, hc, by rw [hx]; simp [anyMissing]; exact ⟨i, hi⟩⟩)
                cases this
              · intro h hany
                rw [List.any_eq_true] at hany
                obtain ⟨c, hc, hm⟩ := hany
                obtain ⟨x, hx, hall⟩ := h c hc
                rw [hx] at hm
                simp [anyMissing] at hm
                obtain ⟨i, hi⟩ := hm
                exact absurd hi (hall i)

end validation

/-! ### C75: standard errors and the level of the outcome -/

theorem mean_shift (v : ι → K) (S : Finset ι) (hS : S.Nonempty) (c : K) : mean (fun i => v i + c) S = mean v S + c := by
  have h : (S.card : K) ≠ 0 := by exact_mod_cast (Finset.card_pos.2 hS).ne'
  unfold mean
  rw [Finset.sum_add_distrib, Finset.sum_const, nsmul_eq_mul, add_div, mul_div_cancel_left₀ _ h]

/-- C75. The standard error of the doubly robust method does not depend on the level of the outcome. -/
theorem C75_dr_se_shift (y : ι → K) (G P T : ι → Bool) (c : K) : drVar (fun i => y i + c) G P T = drVar y G P T := by
  unfold drVar
  refine Finset.sum_congr rfl (fun g _ => Finset.sum_congr rfl (fun p _ => Finset.sum_congr rfl (fun t _ => ?_)))
  unfold component
  split_ifs with h
  · have hS : (cellT G P T g p t).Nonempty := Finset.card_pos.1 (by omega)
    unfold varOn
    rw [mean_shift y _ hS c]
    congr 2
    refine Finset.sum_congr rfl (fun i _ => ?_)
    ring
  · rfl

theorem C75_dr_se_nonneg (y : ι → K) (G P T : ι → Bool) : 0 ≤ drVar y G P T := by
  unfold drVar
  refine Finset.sum_nonneg (fun g _ => Finset.sum_nonneg (fun p _ => Finset.sum_nonneg (fun t _ => ?_)))
  unfold component
  split_ifs with h
  · have : (1 : K) < (cellT G P T g p t).card := by exact_mod_cast h
    unfold varOn
    have h1 : (0 : K) ≤ (cellT G P T g p t).card - 1 := by linarith
    have h2 : (0 : K) ≤ ∑ i ∈ cellT G P T g p t, (y i - mean y (cellT G P T g p t)) ^ 2 :=
      Finset.sum_nonneg (fun i _ => sq_nonneg _)
    positivity
  · simp

/-- C75 is false of the IPW method: adding a constant to every outcome leaves the estimate unchanged but changes its
standard error; with constant outcomes (no variation at all) the standard error is positive. -/
theorem C75_ipw_refuted : ∃ (y : Fin 8 → ℚ) (G P T : Fin 8 → Bool) (c : ℚ),
    (∀ g p t, ∃ i, G i = g ∧ P i = p ∧ T i = t) ∧
    ipwAtt (1 / 100) (fun i => y i + c) G P T (shares G P) = ipwAtt (1 / 100) y G P T (shares G P) ∧
    ipwVar (1 / 100) y G P T (shares G P) = 0 ∧ 0 < ipwVar (1 / 100) (fun i => y i + c) G P T (shares G P) := by
  refine ⟨fun _ => 0, ![true, true, true, true, false, false, false, false],
    ![true, true, false, false, true, true, false, false], ![false, true, false, true, false, true, false, true],
    10, by decide, by decide +kernel, by decide +kernel, by decide +kernel⟩

/-! ### Examples -/

/-- Nine rows with different cell sizes. -/
def exY : Fin 9 → ℚ := ![1, 7, 2, 3, 1, 2, 4, 4, 9]

example : ddd exY exG exP exT = 5 ∧ ipwAtt (1 / 100) exY exG exP exT (shares exG exP) = 5 ∧
    ipwAtt (3 / 10) exY exG exP exT (shares exG exP) = 5 := by decide +kernel

example : drAtt (1 / 100) exY (cellMu exY exG exP exT) exG exP exT (shares exG exP) ≠ 5 := by decide +kernel

example : ipwVar (1 / 100) exY exG exP exT (shares exG exP) = 2575 / 144 := by decide +kernel

/-- A balanced design of eight rows, for which the doubly robust estimate agrees. -/
def e8G : Fin 8 → Bool := ![true, true, true, true, false, false, false, false]
def e8P : Fin 8 → Bool := ![true, true, false, false, true, true, false, false]
def e8T : Fin 8 → Bool := ![false, true, false, true, false, true, false, true]

example : (∀ g p t, ∃ i, e8G i = g ∧ e8P i = p ∧ e8T i = t) ∧
    (∀ g p i, (1 / 100 : ℚ) ≤ shares e8G e8P g p i ∧ shares e8G e8P g p i ≤ (1 : ℚ) - 1 / 100) ∧
    (∀ g p t, (((cellT e8G e8P e8T g p t).card : ℚ) / (period e8T t).card) = ((cell e8G e8P g p).card : ℚ) / Fintype.card (Fin 8)) ∧
    drAtt (1 / 100 : ℚ) ![1, 8, 2, 3, 1, 2, 4, 4] (cellMu ![1, 8, 2, 3, 1, 2, 4, 4] e8G e8P e8T) e8G e8P e8T
      (shares e8G e8P) = 5 := by decide +kernel

/-- Two strata, sixteen rows: stratum 1 has effect 5 and stratum 0 effect 0; the strata conditions hold. -/
def e16 (f : Fin 8 → Bool) : Fin 16 → Bool := fun i => f ⟨i.1 % 8, Nat.mod_lt _ (by decide)⟩
def e16x : Fin 16 → Fin 2 := fun i => if i.1 < 8 then 0 else 1

example : (∀ g p t s, ((stratum (e16 e8G) (e16 e8P) (e16 e8T) e16x g p t s).card : ℚ) =
      1 / 4 * (1 / 2 * (period (e16 e8T) t).card)) ∧
    (∀ g p i, clipped (1 / 100 : ℚ) (scores (1 / 100) (fun _ => 1 / 2) (fun _ => 1 / 2)) g p (i : Fin 16) = 1 / 4) ∧
    drAtt (1 / 100 : ℚ) (fun i => if i = 9 then 5 else 0) (fun _ => 0) (e16 e8G) (e16 e8P) (e16 e8T)
      (scores (1 / 100) (fun _ => 1 / 2) (fun _ => 1 / 2)) = 5 / 2 := by decide +kernel

/-- A frame accepted by validation and one rejected for an empty cell. -/
def exFrame : Frame ℚ :=
  { n := 8
    col := fun s => if s = "y" then some (fun i => some (i.1 : ℚ))
      else if s = "g" then some (fun i => some (ind (e8G i))) else if s = "p" then some (fun i => some (ind (e8P i)))
      else if s = "t" then some (fun i => some (ind (e8T i)))
      else if s = "z" then some (fun i => if i = 3 then none else some 1) else none }

example : validate exFrame "y" "g" "p" "t" [] = .ok () ∧ validate exFrame "y" "g" "g" "t" [] = .error .emptyCell ∧
    validate exFrame "y" "g" "p" "t" ["z"] = .error .covariateMissing ∧
    validate exFrame "y" "g" "p" "y" [] = .error (.notBinary "time") ∧
    validate exFrame "y" "g" "p" "q" [] = .error .missingColumns := by
  refine ⟨by rfl, by rfl, by rfl, by rfl, by rfl⟩

end DiffDiff.TripleDiff
