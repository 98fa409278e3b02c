/-
Property C128: the reported result of TripleDifference.fit.
-/
import Verif.TripleFit
import Verif.TripleDiffProps
import Verif.DidFitProps
import Mathlib.Tactic.FinCases

set_option linter.unusedSectionVars false

namespace DiffDiff.TripleFit
open Matrix TripleDiff Vcov
open Ols (IsOls resid fitted dot)
open DidFit (Isolates)

variable {K : Type*} [Field K] [LinearOrder K] [IsStrictOrderedRing K]
variable {ι C : Type*} [Fintype ι] [DecidableEq ι] [DecidableEq C]

/-! ### Specification -/

/-- Number of rows in a cell. -/
def size (G P T : ι → Bool) (g p t : Bool) : ℕ := (Finset.univ.filter (fun i => G i = g ∧ P i = p ∧ T i = t)).card

/-- Squared deviations from the cell mean. -/
def within (y : ι → K) (G P T : ι → Bool) (g p t : Bool) : K :=
  ∑ i with G i = g ∧ P i = p ∧ T i = t, (y i - cellMean y G P T g p t) ^ 2

/-- Sum over the eight cells. -/
def cells (f : Bool → Bool → Bool → K) : K := ∑ g : Bool, ∑ p : Bool, ∑ t : Bool, f g p t

/-- All eight cells have a row. -/
def AllCells (G P T : ι → Bool) : Prop := ∀ g p t, ∃ i, G i = g ∧ P i = p ∧ T i = t

/-! ### The saturated design -/

theorem occupied_iff (G P T : ι → Bool) : Occupied G P T ↔ AllCells G P T := by
  unfold Occupied AllCells
  refine forall_congr' fun g => forall_congr' fun p => forall_congr' fun t => ?_
  rw [← Nat.pos_iff_ne_zero, Finset.card_pos]
  constructor
  · rintro ⟨i, hi⟩; exact ⟨i, mem_cellT.1 hi⟩
  · rintro ⟨i, hi⟩; exact ⟨i, mem_cellT.2 hi⟩

theorem sum_all (G P T : ι → Bool) (f : ι → K) : ∑ i, f i = cells (fun g p t => ∑ i ∈ cellT G P T g p t, f i) := by
  have := sum_cells G P T (fun _ _ _ => (1 : K)) f
  simpa [cells] using this

theorem cells_congr {f f' : Bool → Bool → Bool → K} (h : ∀ g p t, f g p t = f' g p t) : cells f = cells f' := by
  have : f = f' := by funext g p t; exact h g p t
  rw [this]

theorem cells_nonneg {f : Bool → Bool → Bool → K} (h : ∀ g p t, 0 ≤ f g p t) : 0 ≤ cells f :=
  Finset.sum_nonneg fun g _ => Finset.sum_nonneg fun p _ => Finset.sum_nonneg fun t _ => h g p t

theorem cells_mul (c : K) (f : Bool → Bool → Bool → K) : c * cells f = cells (fun g p t => c * f g p t) := by
  simp only [cells, Finset.mul_sum]

theorem within_nonneg (y : ι → K) (G P T : ι → Bool) (g p t : Bool) : 0 ≤ within y G P T g p t := Finset.sum_nonneg fun i _ => sq_nonneg _

theorem size_ne {G P T : ι → Bool} (h : AllCells G P T) (g p t : Bool) : (size G P T g p t : K) ≠ 0 := card_ne G P T h g p t

theorem size_pos {G P T : ι → Bool} (h : AllCells G P T) (g p t : Bool) : 0 < size G P T g p t := by
  obtain ⟨i, hi⟩ := h g p t
  exact Finset.card_pos.2 ⟨i, by simpa using hi⟩

theorem card_eq (G P T : ι → Bool) : (Fintype.card ι : K) = cells (fun g p t => (size G P T g p t : K)) := by
  have := sum_all G P T (fun _ => (1 : K))
  simp only [Finset.sum_const, nsmul_eq_mul, mul_one] at this
  exact this

/-- Sign of a cell in the triple difference. -/
def sgn (g p t : Bool) : K := (if g then 1 else -1) * (if p then 1 else -1) * (if t then 1 else -1)

theorem sgn_sq (g p t : Bool) : (sgn g p t : K) ^ 2 = 1 := by cases g <;> cases p <;> cases t <;> simp [sgn]

/-- Weight of a row in the triple difference of cell means. -/
def weight (G P T : ι → Bool) (i : ι) : K := sgn (G i) (P i) (T i) / (size G P T (G i) (P i) (T i) : K)

theorem sum_weight {G P T : ι → Bool} (h : AllCells G P T) (g p t : Bool) : ∑ i ∈ cellT G P T g p t, (weight G P T i : K) = sgn g p t := by
  have e : ∀ i ∈ cellT G P T g p t, (weight G P T i : K) = sgn g p t / (size G P T g p t : K) := by
    intro i hi; obtain ⟨h1, h2, h3⟩ := mem_cellT.1 hi; unfold weight; rw [h1, h2, h3]
  rw [Finset.sum_congr rfl e, Finset.sum_const, nsmul_eq_mul]
  exact mul_div_cancel₀ _ (size_ne h g p t)

theorem weight_isolates {G P T : ι → Bool} (h : AllCells G P T) : ∃ v : Fin 8 → K, Isolates (design G P T) 7 v (weight G P T) := by
  obtain ⟨c, hc⟩ : ∃ c : Bool → Bool → Bool → K, ∀ g p t, c g p t = sgn g p t / (size G P T g p t : K) := ⟨_, fun _ _ _ => rfl⟩
  refine ⟨![c false false false, c true false false - c false false false, c false true false - c false false false,
    c false false true - c false false false,
    c true true false - c true false false - c false true false + c false false false,
    c true false true - c true false false - c false false true + c false false false,
    c false true true - c false true false - c false false true + c false false false,
    c true true true - c true true false - c true false true - c false true true + c true false false + c false true false + c false false true
      - c false false false], ⟨fun i => ?_, fun m => ?_⟩⟩
  · have e : weight G P T i = c (G i) (P i) (T i) := (hc _ _ _).symm
    rw [e]
    simp only [Fin.sum_univ_eight, design]
    cases G i <;> cases P i <;> cases T i <;> simp [ind] <;> ring
  · have e : ∑ i, design G P T i m * weight G P T i = cells (fun g p t => (dcol m g p t * sgn g p t : K)) := by
      have := sum_cells G P T (dcol (K := K) m) (weight G P T)
      simp only [sum_weight h] at this
      exact this
    rw [e]
    fin_cases m <;> simp [cells, dcol, ind, sgn]

/-- Coefficients whose prediction vanishes in every cell are zero. -/
theorem pred_zero {v : Fin 8 → K} (f : ∀ g p t, pred v g p t = 0) : v = 0 := by
  have f0 := f false false false; have f1 := f true false false; have f2 := f false true false; have f3 := f false false true
  have f4 := f true true false; have f5 := f true false true; have f6 := f false true true; have f7 := f true true true
  simp only [pred, Fin.sum_univ_eight] at f0 f1 f2 f3 f4 f5 f6 f7
  simp [dcol, ind] at f0 f1 f2 f3 f4 f5 f6 f7
  have g1 : v 1 = 0 := by linarith
  have g2 : v 2 = 0 := by linarith
  have g3 : v 3 = 0 := by linarith
  have g4 : v 4 = 0 := by linarith
  have g5 : v 5 = 0 := by linarith
  have g6 : v 6 = 0 := by linarith
  have g7 : v 7 = 0 := by linarith
  funext m; fin_cases m
  · exact f0
  · exact g1
  · exact g2
  · exact g3
  · exact g4
  · exact g5
  · exact g6
  · exact g7

theorem design_det {G P T : ι → Bool} (h : AllCells G P T) (X : Matrix ι (Fin 8) K) (hX : X = design G P T) : (Xᵀ * X).det ≠ 0 := by
  refine DidFit.det_of_injective _ fun v hv => pred_zero fun g p t => ?_
  obtain ⟨i, a, b, c⟩ := h g p t
  have := hv i
  rw [hX] at this
  change pred v (G i) (P i) (T i) = 0 at this
  rwa [a, b, c] at this

theorem pred_cell {y : ι → K} {G P T : ι → Bool} (h : AllCells G P T) {b : Fin 8 → K} (hb : IsOls (design G P T) y b) (g p t : Bool) :
    pred b g p t = cellMean y G P T g p t := by
  have := (isOls_iff y G P T b).1 hb g p t
  rw [cell_resid] at this
  rw [← mean_cell, mean, eq_div_iff (card_ne G P T h g p t)]
  linarith

theorem resid_cell {y : ι → K} {G P T : ι → Bool} (h : AllCells G P T) {b : Fin 8 → K} (hb : IsOls (design G P T) y b) (i : ι) :
    resid (design G P T) y b i = y i - cellMean y G P T (G i) (P i) (T i) := by
  unfold resid
  rw [fitted_pred, pred_cell h hb]

theorem sum_within (y : ι → K) (G P T : ι → Bool) : ∑ i, (y i - cellMean y G P T (G i) (P i) (T i)) ^ 2 = cells (within y G P T) := by
  rw [sum_all G P T]
  refine cells_congr fun g p t => ?_
  refine Finset.sum_congr rfl fun i hi => ?_
  obtain ⟨h1, h2, h3⟩ := mem_cellT.1 hi
  rw [h1, h2, h3]

theorem sum_sq_weight (G P T : ι → Bool) (y : ι → K) :
    ∑ i, (weight G P T i * (y i - cellMean y G P T (G i) (P i) (T i))) ^ 2 =
      cells (fun g p t => within y G P T g p t / (size G P T g p t : K) ^ 2) := by
  rw [sum_all G P T]
  refine cells_congr fun g p t => ?_
  unfold within
  rw [Finset.sum_div]
  refine Finset.sum_congr rfl fun i hi => ?_
  obtain ⟨h1, h2, h3⟩ := mem_cellT.1 hi
  unfold weight
  rw [h1, h2, h3, mul_pow, div_pow, sgn_sq]
  ring

theorem sum_sq {G P T : ι → Bool} (h : AllCells G P T) : ∑ i, (weight G P T i : K) ^ 2 = cells (fun g p t => 1 / (size G P T g p t : K)) := by
  rw [sum_all G P T]
  refine cells_congr fun g p t => ?_
  have e : ∀ i ∈ cellT G P T g p t, (weight G P T i : K) ^ 2 = 1 / (size G P T g p t : K) ^ 2 := by
    intro i hi
    obtain ⟨h1, h2, h3⟩ := mem_cellT.1 hi
    unfold weight
    rw [h1, h2, h3, div_pow, sgn_sq]
  rw [Finset.sum_congr rfl e, Finset.sum_const, nsmul_eq_mul]
  have := size_ne (K := K) h g p t
  change (size G P T g p t : K) * _ = _
  field_simp

/-! ### Pieces of a successful fit -/

/-- The library's routines behave: solutions are least squares and columns are dropped only from singular designs. -/
structure Good (L : Lib ι K) : Prop where
  solves : LinReg.Solves L.solvers
  keeps : ∀ {m : ℕ} (X : Matrix ι (Fin m) K), (Xᵀ * X).det ≠ 0 → L.dropped X = []

theorem fit_ok {L : Lib ι K} {o : Opts ι C K} {y : ι → K} {G P T : ι → Bool} {cov : Cov ι K} {R : Result K} (hR : fit L o y G P T cov = .ok R) :
    AllCells G P T ∧ ∃ e, estimate L o y G P T cov = .ok e ∧ R.att = e.att ∧ R.se = e.se ∧ R.r2 = e.r2 ∧ R.pscore = e.pscore ∧
      (R.t, R.p, R.ci) = Inference.saFields (L.tD (df (Fintype.card ι) (nCov cov))) e.att e.se o.alpha ∧
      R.nObs = Fintype.card ι ∧ R.nTreatedEligible = (cell G P true true).card ∧ R.nTreatedIneligible = (cell G P true false).card ∧
      R.nControlEligible = (cell G P false true).card ∧ R.nControlIneligible = (cell G P false false).card ∧
      R.groupMeans = cellMean y G P T ∧ R.nClusters = o.cluster.map nunique := by
  unfold fit at hR
  by_cases ho : Occupied G P T
  · rw [if_neg (not_not.2 ho)] at hR
    refine ⟨(occupied_iff G P T).1 ho, ?_⟩
    cases he : estimate L o y G P T cov with
    | error e => rw [he] at hR; cases hR
    | ok e =>
      rw [he] at hR
      cases hR
      exact ⟨e, rfl, rfl, rfl, rfl, rfl, rfl, rfl, rfl, rfl, rfl, rfl, rfl, rfl⟩
  · rw [if_pos ho] at hR; cases hR

/-- The regression without covariates. -/
theorem reg_ok {L : Lib ι K} (hL : Good L) {o : Opts ι C K} {y : ι → K} {G P T : ι → Bool} (h : AllCells G P T) {e : Est K}
    (he : regression L o y G P T none = .ok e) :
    ∃ V : Option (Matrix (Fin 8) (Fin 8) K),
      LinReg.vcov L.solvers.pinv (⟨o.robust, none, none, o.strict⟩ : LinReg.Opts ι C) (design G P T : Matrix ι (Fin 8) K)
        (fun i => y i - cellMean y G P T (G i) (P i) (T i)) = .ok V ∧
      e.att = .fin (ddd y G P T) ∧ e.se = LinReg.toExt ((V.map (fun V => V 7 7)).map L.sqrt) ∧
      e.r2 = some (rSquared y (fun i => y i - cellMean y G P T (G i) (P i) (T i)) false 8) ∧ e.pscore = none := by
  have hb := hL.solves (design G P T : Matrix ι (Fin 8) K) y
  have hd := hL.keeps (design G P T : Matrix ι (Fin 8) K) (design_det h _ rfl)
  have hr : resid (design G P T) y (L.solvers.lstsq (design G P T : Matrix ι (Fin 8) K) y) = fun i => y i - cellMean y G P T (G i) (P i) (T i) := by
    funext i; exact resid_cell h hb i
  have h7 : L.solvers.lstsq (design G P T : Matrix ι (Fin 8) K) y 7 = ddd y G P T := C36_reg y G P T h _ ⟨_, hb, rfl⟩
  simp only [regression, runReg, hd, LinReg.fit, hr] at he
  by_cases hk : Fintype.card ι < 8
  · simp [hk] at he
  · rw [if_neg hk] at he
    cases hv : LinReg.vcov L.solvers.pinv (⟨o.robust, none, none, o.strict⟩ : LinReg.Opts ι C) (design G P T : Matrix ι (Fin 8) K)
        (fun i => y i - cellMean y G P T (G i) (P i) (T i)) with
    | error e => rw [hv] at he; cases he
    | ok V =>
      rw [hv] at he
      cases he
      refine ⟨V, rfl, ?_, rfl, rfl, rfl⟩
      change LinReg.toExt (some _) = _
      rw [h7]; rfl

/-! ### Results -/

/-- C128. Point estimate of "reg" and "ipw" without covariates: the triple difference of the eight reported group means. The four counts add up to the
number of rows. -/
theorem C128_point (L : Lib ι K) (hL : Good L) (o : Opts ι C K) (ht : o.trim < 1) (y : ι → K) (G P T : ι → Bool) (R : Result K)
    (hR : fit L o y G P T none = .ok R) (hm : o.method ≠ .dr) :
    R.att = .fin (((R.groupMeans true true true - R.groupMeans true true false) - (R.groupMeans false true true - R.groupMeans false true false))
      - ((R.groupMeans true false true - R.groupMeans true false false) - (R.groupMeans false false true - R.groupMeans false false false))) ∧
    (∀ g p t, R.groupMeans g p t * (size G P T g p t : K) = ∑ i with G i = g ∧ P i = p ∧ T i = t, y i) := by
  obtain ⟨h, e, he, ha, -, -, -, -, -, -, -, -, -, hg, -⟩ := fit_ok hR
  rw [hg, ha]
  constructor
  · cases hmm : o.method with
    | dr => exact absurd hmm hm
    | reg =>
      rw [estimate, hmm] at he
      obtain ⟨V, -, h1, -⟩ := reg_ok hL h he
      rw [h1]; rfl
    | ipw =>
      rw [estimate, hmm] at he
      cases he
      change Ext.fin (ipwAtt o.trim y G P T (shares G P)) = _
      rw [C36_ipw o.trim ht y G P T h]; rfl
  · intro g p t
    exact div_mul_cancel₀ _ (size_ne h g p t)

/-- C128. The same for the default method when every group-by-partition cell has the same share of the rows in both periods and no share is trimmed. -/
theorem C128_point_dr_partial (L : Lib ι K) (o : Opts ι C K) (ht : 0 < o.trim) (y : ι → K) (G P T : ι → Bool) (R : Result K)
    (hR : fit L o y G P T none = .ok R) (hm : o.method = .dr)
    (hclip : ∀ g p i, o.trim ≤ shares G P g p i ∧ shares G P g p i ≤ 1 - o.trim)
    (hbal : ∀ g p t, (((cellT G P T g p t).card : K) / (period T t).card) = ((cell G P g p).card : K) / Fintype.card ι) :
    R.att = .fin (((R.groupMeans true true true - R.groupMeans true true false) - (R.groupMeans false true true - R.groupMeans false true false))
      - ((R.groupMeans true false true - R.groupMeans true false false) - (R.groupMeans false false true - R.groupMeans false false false))) := by
  obtain ⟨h, e, he, ha, -, -, -, -, -, -, -, -, -, hg, -⟩ := fit_ok hR
  rw [hg, ha]
  rw [estimate, hm] at he
  cases he
  change Ext.fin (drAtt o.trim y (cellMu y G P T) G P T (shares G P)) = _
  rw [C36_dr_partial o.trim ht y G P T h hclip hbal]; rfl

/-- C128. Counts: the four cells add up to the rows; each count is the pre rows plus the post rows of that cell; clusters are counted over present labels. -/
theorem C128_counts (L : Lib ι K) (o : Opts ι C K) (y : ι → K) (G P T : ι → Bool) (cov : Cov ι K) (R : Result K)
    (hR : fit L o y G P T cov = .ok R) :
    R.nObs = Fintype.card ι ∧
    R.nTreatedEligible + R.nTreatedIneligible + R.nControlEligible + R.nControlIneligible = R.nObs ∧
    R.nTreatedEligible = size G P T true true false + size G P T true true true ∧
    R.nTreatedIneligible = size G P T true false false + size G P T true false true ∧
    R.nControlEligible = size G P T false true false + size G P T false true true ∧
    R.nControlIneligible = size G P T false false false + size G P T false false true ∧
    8 ≤ R.nObs ∧
    (∀ ids : ι → C, o.cluster = some (fun i => some (ids i)) → R.nClusters = some (Finset.univ.image ids).card) ∧
    (∀ (ids : ι → Option C) (S : Finset C), o.cluster = some ids → (∀ c, c ∈ S ↔ ∃ i, ids i = some c) → R.nClusters = some S.card) ∧
    (o.cluster = none → R.nClusters = none) := by
  obtain ⟨h, e, he, -, -, -, -, -, hn, h1, h2, h3, h4, -, hc⟩ := fit_ok hR
  have key : ∀ g p, (cell G P g p).card = size G P T g p false + size G P T g p true := by
    intro g p
    unfold cell size
    rw [← Finset.card_union_of_disjoint]
    · congr 1
      ext i
      simp only [Finset.mem_filter, Finset.mem_univ, true_and, Finset.mem_union]
      cases T i <;> simp
    · rw [Finset.disjoint_left]
      intro i a b
      simp only [Finset.mem_filter, Finset.mem_univ, true_and] at a b
      rw [a.2.2] at b
      exact absurd b.2.2 (by simp)
  have hsum : Fintype.card ι = ∑ g : Bool, ∑ p : Bool, ∑ t : Bool, size G P T g p t := by
    have := card_eq (K := ℚ) G P T
    simp only [cells] at this
    exact_mod_cast this
  simp only [Fintype.sum_bool] at hsum
  have hp := fun g p t => size_pos h g p t
  have p1 := hp true true true; have p2 := hp true true false; have p3 := hp true false true; have p4 := hp true false false
  have p5 := hp false true true; have p6 := hp false true false; have p7 := hp false false true; have p8 := hp false false false
  rw [h1, h2, h3, h4, hn, key, key, key, key]
  have hids : ∀ (ids : ι → Option C) (S : Finset C), o.cluster = some ids → (∀ c, c ∈ S ↔ ∃ i, ids i = some c) → R.nClusters = some S.card := by
    intro ids S hi hS
    rw [hc, hi, Option.map_some, nunique]
    congr 1
    have : (Finset.univ.image ids).erase none = S.image some := by
      ext x; cases x <;> simp [hS]
    rw [this, Finset.card_image_of_injective _ (Option.some_injective C)]
  refine ⟨rfl, by omega, rfl, rfl, rfl, rfl, by omega, ?_, hids, ?_⟩
  · intro ids hi
    exact hids _ _ hi (by simp)
  · intro hi; rw [hc, hi]; rfl

/-- C128. Standard error of "reg" with `robust=True`, no covariates. -/
theorem C128_se_robust (L : Lib ι K) (hL : Good L) (o : Opts ι C K) (hm : o.method = .reg) (hr : o.robust = true) (y : ι → K) (G P T : ι → Bool)
    (R : Result K) (hR : fit L o y G P T none = .ok R) :
    R.se = .fin (L.sqrt ((Fintype.card ι : K) / ((Fintype.card ι : K) - 8) *
      cells (fun g p t => within y G P T g p t / (size G P T g p t : K) ^ 2))) := by
  obtain ⟨h, e, he, -, hse, -⟩ := fit_ok hR
  rw [estimate, hm] at he
  obtain ⟨V, hV, -, h1, -⟩ := reg_ok hL h he
  obtain ⟨v, H⟩ := weight_isolates (K := K) h
  simp only [LinReg.vcov, hr, Bool.true_or, if_true, LinReg.Opts.ids] at hV
  cases hn : vcovNumpy (C := C) (design G P T : Matrix ι (Fin 8) K) (fun i => y i - cellMean y G P T (G i) (P i) (T i)) none with
  | error e => rw [hn] at hV; cases hV
  | ok W =>
    rw [hn] at hV
    cases hV
    have key := DidFit.C125_robust (C := C) _ (design_det h _ rfl) 7 v _ H _ W hn
    rw [sum_sq_weight] at key
    rw [hse, h1]
    simp only [Option.map_some, LinReg.toExt, key, Fintype.card_fin]
    norm_num

/-- C128. Standard error of "reg" with `robust=False`, no covariates; undefined with one row per cell. -/
theorem C128_se_classical (L : Lib ι K) (hL : Good L) (o : Opts ι C K) (hm : o.method = .reg) (hr : o.robust = false) (y : ι → K) (G P T : ι → Bool)
    (R : Result K) (hR : fit L o y G P T none = .ok R) :
    (Fintype.card ι = 8 → R.se = .nan) ∧
    (Fintype.card ι ≠ 8 → R.se = .fin (L.sqrt (cells (within y G P T) / ((Fintype.card ι : K) - 8) * cells (fun g p t => 1 / (size G P T g p t : K))))) := by
  obtain ⟨h, e, he, -, hse, -⟩ := fit_ok hR
  rw [estimate, hm] at he
  obtain ⟨V, hV, -, h1, -⟩ := reg_ok hL h he
  obtain ⟨v, H⟩ := weight_isolates (K := K) h
  simp only [LinReg.vcov, hr, LinReg.Opts.ids, Option.isSome_none, Bool.or_false, Bool.false_eq_true, if_false] at hV
  cases hV
  constructor
  · intro h8
    have : LinReg.classical L.solvers.pinv (design G P T : Matrix ι (Fin 8) K) (fun i => y i - cellMean y G P T (G i) (P i) (T i)) = none := by
      simp [LinReg.classical, h8]
    rw [hse, h1, this]
    rfl
  · intro h8
    cases hn : LinReg.classical L.solvers.pinv (design G P T : Matrix ι (Fin 8) K) (fun i => y i - cellMean y G P T (G i) (P i) (T i)) with
    | none => simp [LinReg.classical, h8] at hn
    | some W =>
      have key := DidFit.C125_classical _ _ (design_det h _ rfl) 7 v _ H _ W hn
      rw [sum_within, sum_sq h] at key
      rw [hse, h1, hn]
      simp only [Option.map_some, LinReg.toExt, key, Fintype.card_fin]
      norm_num

theorem drVar_eq {G P T : ι → Bool} (h : AllCells G P T) (y : ι → K) :
    drVar y G P T = cells (fun g p t => within y G P T g p t / ((size G P T g p t : K) * ((size G P T g p t : K) - 1))) := by
  unfold drVar
  refine cells_congr (f := fun g p t => component y (cellT G P T g p t)) fun g p t => ?_
  have hs : (cellT G P T g p t).card = size G P T g p t := rfl
  unfold component
  rw [hs]
  split_ifs with h1
  · unfold varOn
    rw [hs, div_div, mul_comm ((size G P T g p t : K) - 1)]
    rfl
  · have : size G P T g p t = 1 := by have := size_pos h g p t; omega
    simp [this]

/-- C128. Standard error of the default method: each cell's sample variance over its size, whatever the covariates, `robust` and `cluster`. A cell with one row
contributes nothing. -/
theorem C128_se_dr (L : Lib ι K) (o : Opts ι C K) (hm : o.method = .dr) (y : ι → K) (G P T : ι → Bool) (cov : Cov ι K)
    (R : Result K) (hR : fit L o y G P T cov = .ok R) :
    R.se = .fin (L.sqrt (cells (fun g p t => within y G P T g p t / ((size G P T g p t : K) * ((size G P T g p t : K) - 1))))) := by
  obtain ⟨h, e, he, -, hse, -⟩ := fit_ok hR
  rw [estimate, hm] at he
  cases he
  rw [hse, ← drVar_eq h]; rfl

/-- C128. With the same number of rows, two or more, in every cell the robust, classical and default standard errors coincide. -/
theorem C128_se_balanced (L : Lib ι K) (hL : Good L) (o : Opts ι C K) (hm : o.method ≠ .ipw) (y : ι → K) (G P T : ι → Bool) (m : ℕ) (h2 : 2 ≤ m)
    (hbal : ∀ g p t, size G P T g p t = m) (R : Result K) (hR : fit L o y G P T none = .ok R) :
    R.se = .fin (L.sqrt (cells (within y G P T) / ((m : K) * ((m : K) - 1)))) := by
  have hn : (Fintype.card ι : K) = 8 * m := by
    rw [card_eq G P T]; simp only [cells, hbal, Fintype.sum_bool]; ring
  have hm0 : (m : K) ≠ 0 := by positivity
  have hm1 : (m : K) - 1 ≠ 0 := by
    have : (2 : K) ≤ m := by exact_mod_cast h2
    intro h0; linarith
  have hcard : Fintype.card ι ≠ 8 := by
    intro h8
    have : (8 : K) * m = 8 := by rw [← hn, h8]; norm_num
    exact hm1 (by linarith)
  have e8 : (8 : K) * m - 8 ≠ 0 := by intro h0; exact hm1 (by linarith)
  cases hmm : o.method with
  | ipw => exact absurd hmm hm
  | dr =>
    rw [C128_se_dr L o hmm y G P T none R hR]
    congr 2
    simp only [hbal, cells, Finset.sum_div]
  | reg =>
    cases hr : o.robust with
    | true =>
      rw [C128_se_robust L hL o hmm hr y G P T R hR]
      congr 2
      rw [cells_mul, hn]
      rw [show cells (within y G P T) / ((m : K) * ((m : K) - 1)) = cells (fun g p t => within y G P T g p t / ((m : K) * ((m : K) - 1))) by
        simp only [cells, Finset.sum_div]]
      refine cells_congr fun g p t => ?_
      rw [hbal]
      have : (8 : K) * m - 8 = 8 * (m - 1) := by ring
      rw [this]
      field_simp
    | false =>
      rw [(C128_se_classical L hL o hmm hr y G P T R hR).2 hcard]
      congr 2
      rw [hn]
      have : (8 : K) * m - 8 = 8 * (m - 1) := by ring
      rw [this]
      simp only [hbal]
      rw [show cells (fun _ _ _ => 1 / (m : K)) = 8 / m by simp only [cells, Fintype.sum_bool]; ring]
      field_simp

/-- C128. Test and interval from the estimate and its standard error, with `max(n - 8 - k, 1)` degrees of freedom. -/
theorem C128_inference (L : Lib ι K) (o : Opts ι C K) (y : ι → K) (G P T : ι → Bool) (cov : Cov ι K) (R : Result K)
    (hR : fit L o y G P T cov = .ok R) (a s : K) (ha : R.att = .fin a) (hs : R.se = .fin s) (hp : 0 < s) (D : Inference.Dist K)
    (hD : D = L.tD (max ((Fintype.card ι : ℤ) - 8 - (match cov with | none => 0 | some c => (c.1 : ℤ))) 1)) :
    R.t = .fin (a / s) ∧ R.p = .fin (2 * D.sf |a / s|) ∧ R.ci = (.fin (a - D.ppf (1 - o.alpha / 2) * s), .fin (a + D.ppf (1 - o.alpha / 2) * s)) := by
  obtain ⟨h, e, he, ha', hs', -, -, hf, -⟩ := fit_ok hR
  have hd : L.tD (df (Fintype.card ι) (nCov cov)) = D := by
    rw [hD]; cases cov <;> rfl
  rw [← ha', ← hs', ha, hs, hd] at hf
  have h0 : Ext.lt (.fin 0) (Ext.fin s) = true := by simp [Ext.lt, hp]
  have hdiv : Ext.div (Ext.fin a) (Ext.fin s) = .fin (a / s) := by simp [Ext.div, hp.ne']
  simp only [Inference.saFields, h0, if_true, hdiv, Inference.confInt_fin, Prod.mk.injEq] at hf
  obtain ⟨h1, h2, h3⟩ := hf
  refine ⟨h1, ?_, h3⟩
  rw [h2]
  simp [Inference.pValue, Inference.Dist.sfE, Ext.abs, Ext.mul, mul_comm]

/-- C128. Without a positive standard error the p-value is one, also when the standard error is undefined; a zero standard error gives an interval of one point. -/
theorem C128_degenerate (L : Lib ι K) (o : Opts ι C K) (y : ι → K) (G P T : ι → Bool) (cov : Cov ι K) (R : Result K)
    (hR : fit L o y G P T cov = .ok R) (hD : ∀ d, (L.tD d).sf 0 = 1 / 2) :
    (R.se = .nan → R.t = .fin 0 ∧ R.p = .fin 1 ∧ R.ci = (.nan, .nan)) ∧
    (∀ a, R.att = .fin a → R.se = .fin 0 → R.t = .fin 0 ∧ R.p = .fin 1 ∧ R.ci = (.fin a, .fin a)) := by
  obtain ⟨h, e, he, ha', hs', -, -, hf, -⟩ := fit_ok hR
  rw [← ha', ← hs'] at hf
  have hp : ∀ d, Inference.pValue (L.tD d) (.fin 0) = .fin 1 := by
    intro d; simp [Inference.pValue, Inference.Dist.sfE, Ext.abs, Ext.mul, hD]
  constructor
  · intro hs
    rw [hs] at hf
    have h0 : Ext.lt (.fin 0) (Ext.nan : Ext K) = false := rfl
    simp only [Inference.saFields, h0, Bool.false_eq_true, if_false, hp, Prod.mk.injEq] at hf
    refine ⟨hf.1, hf.2.1, ?_⟩
    rw [hf.2.2]
    cases R.att <;> rfl
  · intro a ha hs
    rw [hs, ha] at hf
    have h0 : Ext.lt (.fin 0) (Ext.fin (0 : K)) = false := by simp [Ext.lt]
    simp only [Inference.saFields, h0, Bool.false_eq_true, if_false, hp, Inference.confInt_fin, mul_zero, sub_zero, add_zero, Prod.mk.injEq] at hf
    exact ⟨hf.1, hf.2.1, hf.2.2⟩

/-- C128. When the fit fails, without covariates: an empty cell, or one row per cell for the robust regression. -/
theorem C128_fails (L : Lib ι K) (hL : Good L) (o : Opts ι C K) (y : ι → K) (G P T : ι → Bool) (e : Err) :
    fit L o y G P T none = .error e ↔
      (¬ AllCells G P T ∧ e = .emptyCell) ∨
      (AllCells G P T ∧ o.method = .reg ∧ o.robust = true ∧ Fintype.card ι = 8 ∧ e = .regression (.vcov .zeroDivision)) := by
  unfold fit
  by_cases ho : Occupied G P T
  · have h := (occupied_iff G P T).1 ho
    rw [if_neg (not_not.2 ho)]
    have hk : ¬ Fintype.card ι < 8 := by
      have hsum : Fintype.card ι = ∑ g : Bool, ∑ p : Bool, ∑ t : Bool, size G P T g p t := by
        have := card_eq (K := ℚ) G P T
        simp only [cells] at this
        exact_mod_cast this
      simp only [Fintype.sum_bool] at hsum
      have hp := fun g p t => size_pos h g p t
      have p1 := hp true true true; have p2 := hp true true false; have p3 := hp true false true; have p4 := hp true false false
      have p5 := hp false true true; have p6 := hp false true false; have p7 := hp false false true; have p8 := hp false false false
      omega
    have hdet := design_det h (design G P T : Matrix ι (Fin 8) K) rfl
    cases hm : o.method with
    | ipw => simp [estimate, hm, h]
    | dr => simp [estimate, hm, h]
    | reg =>
      simp only [estimate, hm, regression, runReg, hL.keeps _ hdet, LinReg.fit, if_neg hk, LinReg.vcov, LinReg.Opts.ids]
      cases hr : o.robust with
      | false => simp [h]
      | true =>
        simp only [Bool.true_or, if_true, vcovNumpy, Fintype.card_fin, hdet, if_false]
        by_cases h8 : Fintype.card ι = 8
        · simp only [h8, if_true]
          constructor
          · intro hh; cases hh; exact .inr ⟨h, trivial, trivial, trivial, rfl⟩
          · rintro (⟨hn, _⟩ | ⟨_, _, _, _, rfl⟩)
            · exact absurd h hn
            · rfl
        · simp [h8, h]
  · have h := fun hh => ho ((occupied_iff G P T).2 hh)
    rw [if_pos ho]
    constructor
    · intro hh; cases hh; exact .inl ⟨h, rfl⟩
    · rintro (⟨_, rfl⟩ | ⟨hh, _⟩)
      · rfl
      · exact absurd hh h

/-- C128. The two weighting methods never fail on occupied cells, with or without covariates. -/
theorem C128_weighting_total (L : Lib ι K) (o : Opts ι C K) (hm : o.method ≠ .reg) (y : ι → K) (G P T : ι → Bool) (h : AllCells G P T) (cov : Cov ι K) :
    ∃ R, fit L o y G P T cov = .ok R := by
  unfold fit
  rw [if_neg (not_not.2 ((occupied_iff G P T).2 h))]
  cases hmm : o.method with
  | reg => exact absurd hmm hm
  | ipw => simp [estimate, hmm]
  | dr => simp [estimate, hmm]

/-- C128. The `cluster` argument changes the reported number of clusters and nothing else. -/
theorem C128_cluster_inert (L : Lib ι K) (o : Opts ι C K) (c : Option (ι → Option C)) (y : ι → K) (G P T : ι → Bool) (cov : Cov ι K) :
    (∀ e, fit L { o with cluster := c } y G P T cov = .error e ↔ fit L ({ o with cluster := none } : Opts ι C K) y G P T cov = .error e) ∧
    (∀ R, fit L ({ o with cluster := none } : Opts ι C K) y G P T cov = .ok R →
      fit L { o with cluster := c } y G P T cov = .ok { R with nClusters := c.map nunique }) := by
  have hest : estimate L { o with cluster := c } y G P T cov = estimate L ({ o with cluster := none } : Opts ι C K) y G P T cov := rfl
  unfold fit
  by_cases ho : Occupied G P T
  · simp only [ho, not_true_eq_false, if_false, hest]
    cases he : estimate L ({ o with cluster := none } : Opts ι C K) y G P T cov with
    | error e => simp
    | ok e =>
      refine ⟨fun e => by simp, ?_⟩
      intro R hR
      cases hR
      rfl
  · simp [ho]

/-- C128. `robust` matters for "reg" only. -/
theorem C128_robust_inert (L : Lib ι K) (o : Opts ι C K) (hm : o.method ≠ .reg) (r : Bool) (y : ι → K) (G P T : ι → Bool) (cov : Cov ι K) :
    fit L { o with robust := r } y G P T cov = fit L o y G P T cov := by
  have hest : estimate L { o with robust := r } y G P T cov = estimate L o y G P T cov := by
    cases hmm : o.method with
    | reg => exact absurd hmm hm
    | ipw => simp only [estimate, hmm]; rfl
    | dr => simp only [estimate, hmm]; rfl
  unfold fit
  rw [hest]

/-! ### Copies of the same rows -/

section copies

variable {r : ℕ}

theorem cell_copies (G P T : ι → Bool) (g p t : Bool) :
    Finset.univ.filter (fun x : ι × Fin r => G x.1 = g ∧ P x.1 = p ∧ T x.1 = t) =
      (Finset.univ.filter (fun i => G i = g ∧ P i = p ∧ T i = t)) ×ˢ (Finset.univ : Finset (Fin r)) := by
  ext x; simp

theorem size_copies (G P T : ι → Bool) (g p t : Bool) :
    size (fun x : ι × Fin r => G x.1) (fun x => P x.1) (fun x => T x.1) g p t = r * size G P T g p t := by
  unfold size
  rw [cell_copies, Finset.card_product, Finset.card_univ, Fintype.card_fin, mul_comm]

theorem sum_copies (G P T : ι → Bool) (g p t : Bool) (f : ι → K) :
    ∑ x ∈ Finset.univ.filter (fun x : ι × Fin r => G x.1 = g ∧ P x.1 = p ∧ T x.1 = t), f x.1 =
      r * ∑ i with G i = g ∧ P i = p ∧ T i = t, f i := by
  rw [cell_copies, Finset.sum_product]
  simp [Finset.mul_sum]

theorem mean_copies (hr : 0 < r) (y : ι → K) (G P T : ι → Bool) (g p t : Bool) :
    cellMean (fun x : ι × Fin r => y x.1) (fun x => G x.1) (fun x => P x.1) (fun x => T x.1) g p t = cellMean y G P T g p t := by
  have h0 : (r : K) ≠ 0 := by exact_mod_cast hr.ne'
  unfold cellMean
  have hs : ((Finset.univ.filter (fun x : ι × Fin r => G x.1 = g ∧ P x.1 = p ∧ T x.1 = t)).card : K) =
      r * ((Finset.univ.filter (fun i => G i = g ∧ P i = p ∧ T i = t)).card : K) := by
    have := size_copies (r := r) G P T g p t
    unfold size at this
    rw [this]; push_cast; rfl
  rw [sum_copies G P T g p t y, hs, mul_div_mul_left _ _ h0]

theorem within_copies (hr : 0 < r) (y : ι → K) (G P T : ι → Bool) (g p t : Bool) :
    within (fun x : ι × Fin r => y x.1) (fun x => G x.1) (fun x => P x.1) (fun x => T x.1) g p t = r * within y G P T g p t := by
  unfold within
  rw [mean_copies hr]
  exact sum_copies G P T g p t (fun i => (y i - cellMean y G P T g p t) ^ 2)

theorem allCells_copies (hr : 0 < r) {G P T : ι → Bool} (h : AllCells G P T) :
    AllCells (fun x : ι × Fin r => G x.1) (fun x => P x.1) (fun x => T x.1) := by
  intro g p t
  obtain ⟨i, hi⟩ := h g p t
  exact ⟨(i, ⟨0, hr⟩), hi⟩

/-- C128, refuted: `cluster` gives cluster-robust standard errors. If every row is present `r` times and the copies share a cluster, the squared standard error
that is reported is at most a `1/r` part of the cluster-robust variance of the same coefficient; the cluster count is right. -/
theorem C128_cluster_refuted (hr : 0 < r) (y : ι → K) (G P T : ι → Bool) (L : Lib (ι × Fin r) K) (hL : Good L) (o : Opts (ι × Fin r) ι K)
    (hm : o.method = .reg) (hrob : o.robust = true) (hc : o.cluster = some (fun x => some x.1)) (R : Result K)
    (hR : fit L o (fun x => y x.1) (fun x => G x.1) (fun x => P x.1) (fun x => T x.1) none = .ok R)
    (V : Matrix (Fin 8) (Fin 8) K)
    (hV : vcovNumpy (design (fun x : ι × Fin r => G x.1) (fun x => P x.1) (fun x => T x.1) : Matrix (ι × Fin r) (Fin 8) K)
      (fun x => y x.1 - cellMean y G P T (G x.1) (P x.1) (T x.1)) (some (fun x => some x.1)) = .ok V) :
    ∃ v, R.se = .fin (L.sqrt v) ∧ R.nClusters = some (Fintype.card ι) ∧ (r : K) * v ≤ V 7 7 ∧
      (2 ≤ r → (∃ i, y i ≠ cellMean y G P T (G i) (P i) (T i)) → r * v < V 7 7) := by
  obtain ⟨h, -⟩ := fit_ok hR
  have h' : AllCells G P T := by
    intro g p t; obtain ⟨x, hx⟩ := h g p t; exact ⟨x.1, hx⟩
  have hr0 : (0 : K) < r := by exact_mod_cast hr
  refine ⟨_, C128_se_robust L hL o hm hrob _ _ _ _ R hR, ?_, ?_⟩
  · obtain ⟨-, -, -, -, -, -, -, h1, -, -⟩ := C128_counts L o _ _ _ _ none R hR
    rw [h1 (fun x => x.1) hc]
    congr 1
    have : Finset.univ.image (fun x : ι × Fin r => x.1) = Finset.univ := by
      ext i; simp only [Finset.mem_image, Finset.mem_univ, true_and, iff_true]; exact ⟨(i, ⟨0, hr⟩), rfl⟩
    rw [this, Finset.card_univ]
  · obtain ⟨w, H⟩ := weight_isolates (K := K) h
    have key := DidFit.C125_cluster _ (design_det h _ rfl) 7 w _ H _ (fun x => x.1) V hV
    have himg : Finset.univ.image (fun x : ι × Fin r => x.1) = Finset.univ := by
      ext i; simp only [Finset.mem_image, Finset.mem_univ, true_and, iff_true]; exact ⟨(i, ⟨0, hr⟩), rfl⟩
    set S := cells (fun g p t => within y G P T g p t / (size G P T g p t : K) ^ 2) with hS
    have e1 : ∀ i : ι, ∑ x ∈ Finset.univ.filter (fun x : ι × Fin r => x.1 = i),
        weight (fun x : ι × Fin r => G x.1) (fun x => P x.1) (fun x => T x.1) x * (y x.1 - cellMean y G P T (G x.1) (P x.1) (T x.1)) =
        weight G P T i * (y i - cellMean y G P T (G i) (P i) (T i)) := by
      intro i
      have hf : Finset.univ.filter (fun x : ι × Fin r => x.1 = i) = ({i} : Finset ι) ×ˢ (Finset.univ : Finset (Fin r)) := by
        ext x; rw [Finset.mem_product]; simp
      rw [hf, Finset.sum_product, Finset.sum_singleton]
      simp only [weight, size_copies, Finset.sum_const, Finset.card_univ, Fintype.card_fin, nsmul_eq_mul]
      push_cast
      have := size_ne (K := K) h' (G i) (P i) (T i)
      field_simp
    rw [himg] at key
    simp only [e1] at key
    rw [sum_sq_weight, ← hS] at key
    have e2 : cells (fun g p t => within (fun x : ι × Fin r => y x.1) (fun x => G x.1) (fun x => P x.1) (fun x => T x.1) g p t /
        (size (fun x : ι × Fin r => G x.1) (fun x => P x.1) (fun x => T x.1) g p t : K) ^ 2) = S / r := by
      have : S / r = (1 / r) * S := by ring
      rw [this, hS, cells_mul]
      refine cells_congr fun g p t => ?_
      rw [within_copies hr, size_copies]
      push_cast
      have := size_ne (K := K) h' g p t
      field_simp
    rw [e2, key]
    simp only [Fintype.card_prod, Fintype.card_fin, Finset.card_univ]
    push_cast
    have hS0 : 0 ≤ S := cells_nonneg fun g p t => div_nonneg (within_nonneg y G P T g p t) (sq_nonneg _)
    have hG : (8 : K) ≤ (Fintype.card ι : K) := by
      obtain ⟨hn, -, -, -, -, -, h8, -⟩ := C128_counts L o _ _ _ _ none R hR
      have hsum := card_eq (K := K) G P T
      simp only [cells, Fintype.sum_bool] at hsum
      have hp := fun g p t => (Nat.one_le_cast (α := K)).2 (size_pos h' g p t)
      have p1 := hp true true true; have p2 := hp true true false; have p3 := hp true false true; have p4 := hp true false false
      have p5 := hp false true true; have p6 := hp false true false; have p7 := hp false false true; have p8 := hp false false false
      linarith
    have h1r : (1 : K) ≤ r := by exact_mod_cast hr
    have hden : (0 : K) < (Fintype.card ι : K) * r - 8 := by
      rcases (show (8 : K) ≤ (Fintype.card ι : K) * r by nlinarith).lt_or_eq with hlt | heq
      · linarith
      · exfalso
        have hne : Fintype.card (ι × Fin r) ≠ 8 := by
          intro h8
          simp only [vcovNumpy, Fintype.card_fin, h8] at hV
          split_ifs at hV <;> simp at hV
        apply hne
        rw [Fintype.card_prod, Fintype.card_fin]
        exact_mod_cast heq.symm
    have hg1 : (0 : K) < (Fintype.card ι : K) - 1 := by linarith
    have hG0 : (0 : K) < (Fintype.card ι : K) := by linarith
    set n : K := (Fintype.card ι : K) with hn
    have e3 : (r : K) * (n * r / (n * r - 8) * (S / r)) = n * r / (n * r - 8) * S := by field_simp
    have e4 : n / (n - 1) * ((n * r - 1) / (n * r - 8)) - n * r / (n * r - 8) = n * (r - 1) / ((n - 1) * (n * r - 8)) := by
      rw [div_mul_div_comm, div_sub_div _ _ (mul_pos hg1 hden).ne' hden.ne', div_eq_div_iff (mul_pos (mul_pos hg1 hden) hden).ne' (mul_pos hg1 hden).ne']
      ring
    have e5 : n / (n - 1) * ((n * r - 1) / (n * r - 8)) * S - (r : K) * (n * r / (n * r - 8) * (S / r)) = n * (r - 1) / ((n - 1) * (n * r - 8)) * S := by
      rw [e3, ← e4]; ring
    constructor
    · have : 0 ≤ n * (r - 1) / ((n - 1) * (n * r - 8)) * S :=
        mul_nonneg (div_nonneg (mul_nonneg hG0.le (by linarith)) (mul_pos hg1 hden).le) hS0
      linarith
    · intro h2 hy
      obtain ⟨i, hi⟩ := hy
      have hSpos : 0 < S := by
        rw [hS, ← sum_sq_weight]
        refine lt_of_lt_of_le ?_ (Finset.single_le_sum (f := fun i => (weight G P T i * (y i - cellMean y G P T (G i) (P i) (T i))) ^ 2)
          (fun i _ => sq_nonneg _) (Finset.mem_univ i))
        have hw : (weight G P T i : K) ≠ 0 := by
          unfold weight
          refine div_ne_zero ?_ (size_ne h' _ _ _)
          intro h0
          have := sgn_sq (K := K) (G i) (P i) (T i)
          rw [h0] at this; norm_num at this
        have : weight G P T i * (y i - cellMean y G P T (G i) (P i) (T i)) ≠ 0 := mul_ne_zero hw (sub_ne_zero.2 hi)
        positivity
      have h2r : (2 : K) ≤ r := by exact_mod_cast h2
      have : 0 < n * (r - 1) / ((n - 1) * (n * r - 8)) * S :=
        mul_pos (div_pos (mul_pos hG0 (by linarith)) (mul_pos hg1 hden)) hSpos
      linarith

/-- C128. The default method with copied rows: the squared standard error shrinks with the number of copies although `cluster` names the originals. -/
theorem C128_copies_dr (hr : 0 < r) (y : ι → K) (G P T : ι → Bool) (L : Lib (ι × Fin r) K) (o : Opts (ι × Fin r) ι K) (hm : o.method = .dr)
    (cov : Cov (ι × Fin r) K) (R : Result K)
    (hR : fit L o (fun x => y x.1) (fun x => G x.1) (fun x => P x.1) (fun x => T x.1) cov = .ok R) :
    R.se = .fin (L.sqrt (cells (fun g p t => within y G P T g p t / ((size G P T g p t : K) * (r * (size G P T g p t : K) - 1))))) := by
  rw [C128_se_dr L o hm _ _ _ _ cov R hR]
  have h0 : (r : K) ≠ 0 := by exact_mod_cast hr.ne'
  congr 2
  refine cells_congr fun g p t => ?_
  rw [within_copies hr, size_copies]
  push_cast
  rw [mul_assoc, mul_div_mul_left _ _ h0]

end copies

/-! ### One row per cell -/

/-- C128, refuted: the p-value and the interval of one fit agree about zero. With one row per cell the default method reports a zero standard error, p-value
one, and the interval that contains the estimate alone. -/
theorem C128_single_rows_refuted (L : Lib ι K) (hq : LinReg.IsSqrt L.sqrt) (hD : ∀ d, (L.tD d).sf 0 = 1 / 2) (o : Opts ι C K) (hm : o.method = .dr)
    (ht : 0 < o.trim) (ht' : o.trim ≤ 1 / 4) (y : ι → K) (G P T : ι → Bool) (h1 : ∀ g p t, size G P T g p t = 1) :
    ∃ R, fit L o y G P T none = .ok R ∧ R.att = .fin (ddd y G P T) ∧ R.se = .fin 0 ∧ R.t = .fin 0 ∧ R.p = .fin 1 ∧
      R.ci = (.fin (ddd y G P T), .fin (ddd y G P T)) := by
  have h : AllCells G P T := by
    intro g p t
    have : 0 < size G P T g p t := by rw [h1]; exact Nat.one_pos
    obtain ⟨i, hi⟩ := Finset.card_pos.1 this
    exact ⟨i, by simpa using hi⟩
  obtain ⟨R, hR⟩ := C128_weighting_total L o (by rw [hm]; decide) y G P T h none
  refine ⟨R, hR, ?_⟩
  have hn : Fintype.card ι = 8 := by
    have hsum := card_eq (K := ℚ) G P T
    simp only [cells, h1, Fintype.sum_bool] at hsum
    have : (Fintype.card ι : ℚ) = 8 := by rw [hsum]; norm_num
    exact_mod_cast this
  obtain ⟨hn', hsum, c1, c2, c3, c4, -⟩ := C128_counts L o y G P T none R hR
  obtain ⟨-, -, -, -, -, -, -, -, -, d1, d2, d3, d4, -⟩ := fit_ok hR
  have hcell : ∀ g p, (cell G P g p).card = 2 := by
    intro g p
    cases g <;> cases p
    · rw [← d4, c4, h1, h1]
    · rw [← d3, c3, h1, h1]
    · rw [← d2, c2, h1, h1]
    · rw [← d1, c1, h1, h1]
  have hsh : ∀ g p i, (shares G P g p i : K) = 1 / 4 := by
    intro g p i; unfold shares; rw [hcell, hn]; norm_num
  have hper : ∀ t, ((period T t).card : K) = 4 := by
    intro t
    have e : (period T t).card = ∑ g : Bool, ∑ p : Bool, size G P T g p t := by
      unfold period size
      simp only [Fintype.sum_bool, Finset.card_filter, ← Finset.sum_add_distrib]
      refine Finset.sum_congr rfl fun i _ => ?_
      cases G i <;> cases P i <;> cases T i <;> cases t <;> simp
    rw [e]; simp only [h1, Fintype.sum_bool]; norm_num
  have ha : R.att = .fin (ddd y G P T) := by
    have := C128_point_dr_partial L o ht y G P T R hR hm
      (fun g p i => by rw [hsh]; constructor <;> linarith)
      (fun g p t => by
        rw [hcell, hn, hper, show (cellT G P T g p t).card = 1 from h1 g p t]; norm_num)
    obtain ⟨-, -, -, -, -, -, -, -, -, -, -, -, -, hg, -⟩ := fit_ok hR
    rw [this, hg]; rfl
  have hs : R.se = .fin 0 := by
    rw [C128_se_dr L o hm y G P T none R hR]
    simp only [h1, Nat.cast_one, sub_self, mul_zero, div_zero]
    have : cells (fun _ _ _ => (0 : K)) = 0 := by simp [cells]
    rw [this]
    congr 1
    have := (hq 0 le_rfl).2
    exact pow_eq_zero_iff (two_ne_zero) |>.1 this
  exact ⟨ha, hs, (C128_degenerate L o y G P T none R hR hD).2 _ ha hs⟩

/-! ### Covariates -/

theorem isOls_append {k : ℕ} {G P T : ι → Bool} {Z : ι → Fin k → K} {y : ι → K} {b : Fin (8 + k) → K} (hb : IsOls (designX G P T Z) y b) :
    IsOls (design G P T) (fun i => y i - ∑ m, Z i m * b (Fin.natAdd 8 m)) (fun j => b (Fin.castAdd k j)) := by
  have hr : ∀ i, resid (design G P T) (fun i => y i - ∑ m, Z i m * b (Fin.natAdd 8 m)) (fun j => b (Fin.castAdd k j)) i = resid (designX G P T Z) y b i := by
    intro i
    unfold resid fitted dot
    rw [Fin.sum_univ_add]
    simp only [designX, Fin.append_left, Fin.append_right]
    ring
  intro j
  simp only [hr]
  have := hb (Fin.castAdd k j)
  simpa only [designX, Fin.append_left] using this

/-- C128. "reg" with covariates: the triple difference of the outcome net of the covariates, with the fitted covariate coefficients; so the reported effect is the raw
triple difference minus the coefficients times the triple differences of the covariates. -/
theorem C128_reg_covariates (L : Lib ι K) (hL : Good L) (o : Opts ι C K) (hm : o.method = .reg) (y : ι → K) (G P T : ι → Bool) {k : ℕ} (Z : ι → Fin k → K)
    (hdet : (((designX G P T Z)ᵀ * designX G P T Z).det) ≠ 0) (R : Result K) (hR : fit L o y G P T (some ⟨k, Z⟩) = .ok R) :
    ∃ b : Fin (8 + k) → K, IsOls (designX G P T Z) y b ∧
      R.att = .fin (ddd y G P T - ∑ m, b (Fin.natAdd 8 m) * ddd (fun i => Z i m) G P T) := by
  obtain ⟨h, e, he, ha, -⟩ := fit_ok hR
  rw [estimate, hm] at he
  have hb := hL.solves (designX G P T Z) y
  refine ⟨_, hb, ?_⟩
  have h7 := C36_reg _ G P T h _ ⟨_, isOls_append hb, rfl⟩
  have hlin : ∀ (f : ι → K) (w : Fin k → K), ddd (fun i => f i - ∑ m, Z i m * w m) G P T = ddd f G P T - ∑ m, w m * ddd (fun i => Z i m) G P T := by
    intro f w
    have hc : ∀ g p t, cellMean (fun i => f i - ∑ m, Z i m * w m) G P T g p t = cellMean f G P T g p t - ∑ m, w m * cellMean (fun i => Z i m) G P T g p t := by
      intro g p t
      unfold cellMean
      rw [Finset.sum_sub_distrib, sub_div]
      congr 1
      rw [Finset.sum_comm, Finset.sum_div]
      refine Finset.sum_congr rfl fun m _ => ?_
      rw [← Finset.sum_mul, mul_comm, mul_div_assoc]
    unfold ddd didIn
    simp only [hc, mul_sub, Finset.sum_sub_distrib]
    ring
  rw [hlin] at h7
  simp only [regression, runReg, hL.keeps _ hdet, LinReg.fit] at he
  by_cases hk : Fintype.card ι < 8 + k
  · simp [hk] at he
  · rw [if_neg hk] at he
    cases hv : LinReg.vcov L.solvers.pinv (⟨o.robust, none, none, o.strict⟩ : LinReg.Opts ι C) (designX G P T Z)
        (resid (designX G P T Z) y (L.solvers.lstsq (designX G P T Z) y)) with
    | error e => rw [hv] at he; cases he
    | ok V =>
      rw [hv] at he
      cases he
      rw [ha]
      change LinReg.toExt (some _) = _
      rw [h7]; rfl

/-- C128. Inside a cell the time column is a multiple of the constant, so the regression of the default method has redundant columns in every cell. -/
theorem C128_cell_columns (G P T : ι → Bool) (g p t : Bool) :
    ∃ a b : K, (a ≠ 0 ∨ b ≠ 0) ∧ ∀ i ∈ cellT G P T g p t, a * 1 + b * ind (T i) = 0 := by
  refine ⟨ind t, -1, .inr (by norm_num), fun i hi => ?_⟩
  rw [(mem_cellT.1 hi).2.2]; ring

/-- C128. Hence with `rank_deficient_action="error"` the covariates never reach the outcome model of the default method: R squared is the share of variation between
cells, whatever the covariates, and no error is raised. -/
theorem C128_strict_r2 (L : Lib ι K)
    (hfind : ∀ {k : ℕ} (Z : ι → Fin k → K) (x : ι → K) (S : Finset ι), (∃ a b : K, (a ≠ 0 ∨ b ≠ 0) ∧ ∀ i ∈ S, a * 1 + b * x i = 0) → L.redundant Z x S = true)
    (o : Opts ι C K) (hm : o.method = .dr) (hs : o.strict = true) (y : ι → K) (hy : ∃ i j, y i ≠ y j) (G P T : ι → Bool) (h : AllCells G P T) {k : ℕ}
    (Z : ι → Fin k → K) :
    ∃ R, fit L o y G P T (some ⟨k, Z⟩) = .ok R ∧
      R.r2 = some (1 - cells (within y G P T) / ∑ i, (y i - (∑ j, y j) / (Fintype.card ι : K)) ^ 2) := by
  obtain ⟨R, hR⟩ := C128_weighting_total L o (by rw [hm]; decide) y G P T h (some ⟨k, Z⟩)
  refine ⟨R, hR, ?_⟩
  obtain ⟨-, e, he, -, -, h2, -⟩ := fit_ok hR
  rw [estimate, hm] at he
  cases he
  rw [h2]
  have hmu : mu L o.strict y G P T (some ⟨k, Z⟩) = fun i => cellMean y G P T (G i) (P i) (T i) := by
    funext i
    simp only [mu, hs, hfind Z _ _ (C128_cell_columns G P T (G i) (P i) (T i)), and_self, or_true, if_true]
    split_ifs with h1
    · rfl
    · have h3 : (cellT G P T (G i) (P i) (T i)).card = 1 := by
        have : 0 < (cellT G P T (G i) (P i) (T i)).card := Finset.card_pos.2 ⟨i, mem_cellT.2 ⟨rfl, rfl, rfl⟩⟩
        omega
      obtain ⟨j, hj⟩ := Finset.card_eq_one.1 h3
      have hij : i = j := by
        have : i ∈ cellT G P T (G i) (P i) (T i) := mem_cellT.2 ⟨rfl, rfl, rfl⟩
        rw [hj] at this; simpa using this
      rw [← mean_cell, mean, h3, hj, Finset.sum_singleton, ← hij]; simp
  have htot : 0 < ∑ i, (y i - (∑ j, y j) / (Fintype.card ι : K)) ^ 2 := by
    obtain ⟨i, j, hij⟩ := hy
    by_contra hc
    have h0 := le_antisymm (not_lt.1 hc) (Finset.sum_nonneg fun i _ => sq_nonneg _)
    have hz := (Finset.sum_eq_zero_iff_of_nonneg (fun i _ => sq_nonneg (y i - (∑ j, y j) / (Fintype.card ι : K)))).1 h0
    have z1 := pow_eq_zero_iff (two_ne_zero) |>.1 (hz i (Finset.mem_univ i))
    have z2 := pow_eq_zero_iff (two_ne_zero) |>.1 (hz j (Finset.mem_univ j))
    exact hij (by linarith)
  change (if (true : Bool) = true then some (rsqMu y _) else none) = _
  rw [if_pos rfl, hmu]
  unfold rsqMu
  simp only [mean, Finset.card_univ]
  rw [if_pos htot, sum_within]

/-! ### Scores -/

/-- A score between the trimming bounds. -/
def trimmed (t x : K) : K := min (max x t) (1 - t)

/-- Score of an indicator: the fitted probability when the logistic fit succeeds, the sample share otherwise. -/
def IsScore (L : Lib ι K) {k : ℕ} (Z : ι → Fin k → K) (A : ι → Bool) (p : ι → K) : Prop :=
  L.logit Z (fun i => if A i then 1 else 0) = some p ∨
  (L.logit Z (fun i => if A i then 1 else 0) = none ∧ ∀ i, p i = ((Finset.univ.filter (fun i => A i = true)).card : K) / Fintype.card ι)

theorem score_of {L : Lib ι K} {k : ℕ} {Z : ι → Fin k → K} {A : ι → Bool} {p : ι → K} (h : IsScore L Z A p) : score L Z A = p := by
  have e : (fun i => (ind (A i) : K)) = fun i => if A i then 1 else 0 := rfl
  unfold score
  rw [e]
  rcases h with h | ⟨h, hp⟩
  · rw [h]
  · rw [h]
    funext i
    rw [hp]
    simp [mean]

/-- Estimated probability of a cell: product of the trimmed scores, trimmed again. -/
def cellProb (t : K) (pG pP : ι → K) (g p : Bool) (i : ι) : K :=
  trimmed t ((if g then trimmed t (pG i) else 1 - trimmed t (pG i)) * (if p then trimmed t (pP i) else 1 - trimmed t (pP i)))

/-- Triple difference of a table of eight numbers. -/
def contrast (m : Bool → Bool → Bool → K) : K :=
  ((m true true true - m true true false) - (m false true true - m false true false)) - ((m true false true - m true false false) - (m false false true - m false false false))

theorem combine_contrast (m : Bool → Bool → Bool → K) : combine m = contrast m := by unfold combine contrast; ring

/-- C128. "ipw" with covariates: triple difference of means weighted by the probability of being treated and eligible over the probability of the own cell. -/
theorem C128_ipw_covariates (L : Lib ι K) (o : Opts ι C K) (hm : o.method = .ipw) (h0 : 0 < o.trim) (h1 : o.trim < 1) (y : ι → K) (G P T : ι → Bool) {k : ℕ}
    (Z : ι → Fin k → K) (pG pP : ι → K) (hG : IsScore L Z G pG) (hP : IsScore L Z P pP) (R : Result K) (hR : fit L o y G P T (some ⟨k, Z⟩) = .ok R)
    (w : Bool → Bool → ι → K) (hw : ∀ g p i, w g p i = cellProb o.trim pG pP true true i / cellProb o.trim pG pP g p i) :
    R.att = .fin (contrast fun g p t => (∑ i with G i = g ∧ P i = p ∧ T i = t, y i * w g p i) / ∑ i with G i = g ∧ P i = p ∧ T i = t, w g p i) ∧
    R.se = .fin (L.sqrt ((∑ i, (ipwInfl y G P T (cellProb o.trim pG pP) (contrast fun g p t => (∑ i with G i = g ∧ P i = p ∧ T i = t, y i * w g p i) /
        ∑ i with G i = g ∧ P i = p ∧ T i = t, w g p i) i -
        (∑ j, ipwInfl y G P T (cellProb o.trim pG pP) (contrast fun g p t => (∑ i with G i = g ∧ P i = p ∧ T i = t, y i * w g p i) /
          ∑ i with G i = g ∧ P i = p ∧ T i = t, w g p i) j) / Fintype.card ι) ^ 2) / ((Fintype.card ι : K) - 1) / Fintype.card ι)) ∧ R.r2 = none := by
  obtain ⟨h, e, he, ha, hs, hr, -⟩ := fit_ok hR
  rw [estimate, hm] at he
  cases he
  have hpc : cellProbs L o.trim G P (some ⟨k, Z⟩) = scores o.trim pG pP := by
    simp only [cellProbs, score_of hG, score_of hP]
  have hcl : clipped o.trim (scores o.trim pG pP) = cellProb o.trim pG pP := rfl
  have hq : ∀ g p i, 0 < cellProb o.trim pG pP g p i := fun g p i => by
    rw [← hcl]; exact clip_pos' h0 (by linarith)
  have hatt : ipwAtt o.trim y G P T (scores o.trim pG pP) =
      contrast fun g p t => (∑ i with G i = g ∧ P i = p ∧ T i = t, y i * w g p i) / ∑ i with G i = g ∧ P i = p ∧ T i = t, w g p i := by
    unfold ipwAtt
    rw [combine_contrast, hcl]
    congr 1
    funext g p t
    rw [ipwMean_eq y G P T _ hq g p t ((h g p t).imp fun i hi => mem_cellT.2 hi)]
    simp only [hw]
    rfl
  refine ⟨?_, ?_, hr⟩
  · rw [ha, ← hatt, ← hpc]; rfl
  · rw [hs]
    change Ext.fin (L.sqrt (ipwVar o.trim y G P T (cellProbs L o.trim G P (some ⟨k, Z⟩)))) = _
    rw [hpc]
    unfold ipwVar varOn mean
    rw [hcl, hatt]
    simp only [Finset.card_univ]

/-- C128. The default method with covariates: the same weights, but each weighted sum is divided by the share of treated eligible rows times the rows of the period. -/
theorem C128_dr_covariates (L : Lib ι K) (o : Opts ι C K) (hm : o.method = .dr) (h0 : 0 < o.trim) (h1 : o.trim < 1) (y : ι → K) (G P T : ι → Bool) {k : ℕ}
    (Z : ι → Fin k → K) (pG pP : ι → K) (hG : IsScore L Z G pG) (hP : IsScore L Z P pP) (R : Result K) (hR : fit L o y G P T (some ⟨k, Z⟩) = .ok R)
    (w : Bool → Bool → ι → K) (hw : ∀ g p i, w g p i = cellProb o.trim pG pP true true i / cellProb o.trim pG pP g p i) :
    R.att = .fin (contrast fun g p t => (∑ i with G i = g ∧ P i = p ∧ T i = t, y i * w g p i) /
      (((Finset.univ.filter (fun i => G i = true ∧ P i = true)).card : K) / Fintype.card ι * ((Finset.univ.filter (fun i => T i = t)).card : K))) := by
  obtain ⟨h, e, he, ha, -⟩ := fit_ok hR
  rw [estimate, hm] at he
  cases he
  have hpc : cellProbs L o.trim G P (some ⟨k, Z⟩) = scores o.trim pG pP := by
    simp only [cellProbs, score_of hG, score_of hP]
  have hcl : clipped o.trim (scores o.trim pG pP) = cellProb o.trim pG pP := rfl
  have hq : ∀ g p i, 0 < cellProb o.trim pG pP g p i := fun g p i => by
    rw [← hcl]; exact clip_pos' h0 (by linarith)
  rw [ha]
  change Ext.fin (drAtt o.trim y _ G P T (cellProbs L o.trim G P (some ⟨k, Z⟩))) = _
  rw [hpc]
  unfold drAtt
  rw [combine_contrast, hcl]
  congr 2
  funext g p t
  rw [mean_infl y _ G P T _ (fun i => (hq true true i).ne') g p t]
  simp only [hw]
  rfl

/-- C128. Reported score summary of the weighting methods: means and variances of the trimmed scores, the group first; nothing for the regression or without covariates. -/
theorem C128_scores (L : Lib ι K) (o : Opts ι C K) (y : ι → K) (G P T : ι → Bool) (cov : Cov ι K) (R : Result K) (hR : fit L o y G P T cov = .ok R) :
    (cov = none ∨ o.method = .reg → R.pscore = none) ∧
    (∀ (k : ℕ) (Z : ι → Fin k → K) (pG pP : ι → K), cov = some ⟨k, Z⟩ → o.method ≠ .reg → IsScore L Z G pG → IsScore L Z P pP →
      ∃ mG vG mP vP, R.pscore = some ((mG, vG), (mP, vP)) ∧
        mG = (∑ i, trimmed o.trim (pG i)) / Fintype.card ι ∧ vG = (∑ i, (trimmed o.trim (pG i) - mG) ^ 2) / Fintype.card ι ∧
        mP = (∑ i, trimmed o.trim (pP i)) / Fintype.card ι ∧ vP = (∑ i, (trimmed o.trim (pP i) - mP) ^ 2) / Fintype.card ι) := by
  obtain ⟨h, e, he, -, -, -, hp, -⟩ := fit_ok hR
  rw [hp]
  have hreg : ∀ {m : ℕ} (X : Matrix ι (Fin m) K) (j : Fin m) (e : Est K), runReg L o X j y = .ok e → e.pscore = none := by
    intro m X j e he
    unfold runReg at he
    split at he
    · cases he
    · cases he; rfl
  constructor
  · intro hc
    cases hm : o.method with
    | reg =>
      rw [estimate, hm] at he
      cases cov with
      | none => exact hreg _ _ _ he
      | some c => obtain ⟨k, Z⟩ := c; exact hreg _ _ _ he
    | ipw =>
      rw [hm] at hc
      rcases hc with rfl | hc
      · rw [estimate, hm] at he; cases he; rfl
      · cases hc
    | dr =>
      rw [hm] at hc
      rcases hc with rfl | hc
      · rw [estimate, hm] at he; cases he; rfl
      · cases hc
  · rintro k Z pG pP rfl hm hG hP
    have : e.pscore = pscoreStats L o.trim G P (some ⟨k, Z⟩) := by
      cases hmm : o.method with
      | reg => exact absurd hmm hm
      | ipw => rw [estimate, hmm] at he; cases he; rfl
      | dr => rw [estimate, hmm] at he; cases he; rfl
    rw [this]
    simp only [pscoreStats, score_of hG, score_of hP, mean, Finset.card_univ]
    exact ⟨_, _, _, _, rfl, rfl, rfl, rfl, rfl⟩

/-- C128. R squared without covariates: none for the weighting methods; the share of variation between cells for the regression. -/
theorem C128_r2 (L : Lib ι K) (hL : Good L) (o : Opts ι C K) (y : ι → K) (hy : ∃ i j, y i ≠ y j) (G P T : ι → Bool) (R : Result K)
    (hR : fit L o y G P T none = .ok R) :
    R.r2 = if o.method = .reg then some (1 - cells (within y G P T) / ∑ i, (y i - (∑ j, y j) / (Fintype.card ι : K)) ^ 2) else none := by
  obtain ⟨h, e, he, -, -, hr, -⟩ := fit_ok hR
  rw [hr]
  cases hm : o.method with
  | reg =>
    rw [estimate, hm] at he
    obtain ⟨V, -, -, -, h2, -⟩ := reg_ok hL h he
    rw [h2, if_pos rfl]
    unfold rSquared
    dsimp only
    rw [if_neg]
    · simp [sum_within]
    · obtain ⟨i, j, hij⟩ := hy
      intro h0
      have hz := (Finset.sum_eq_zero_iff_of_nonneg (fun i _ => sq_nonneg (y i - (∑ j, y j) / (Fintype.card ι : K)))).1 h0
      have z1 := pow_eq_zero_iff (two_ne_zero) |>.1 (hz i (Finset.mem_univ i))
      have z2 := pow_eq_zero_iff (two_ne_zero) |>.1 (hz j (Finset.mem_univ j))
      exact hij (by linarith)
  | ipw => rw [estimate, hm] at he; cases he; rfl
  | dr => rw [estimate, hm] at he; cases he; rfl

/-! ### Instances -/

/-- A library meeting the hypotheses exists. -/
theorem exists_good (r : K → K) (tD : ℤ → Inference.Dist K) (nD : Inference.Dist K) :
    ∃ L : Lib ι K, Good L ∧ L.sqrt = r ∧ L.tD = tD ∧ ∀ {k : ℕ} (Z : ι → Fin k → K) (x : ι → K) (S : Finset ι), L.redundant Z x S = true := by
  obtain ⟨E, hE⟩ := LinReg.exists_solves (ι := ι) (K := K)
  classical
  exact ⟨{ solvers := E, sqrt := r, tD := tD, nD := nD
           dropped := fun {m} X => if (Xᵀ * X).det = 0 then List.finRange m else []
           logit := fun _ _ => none
           redundant := fun _ _ _ => true
           cellFit := fun _ _ _ y => y },
    ⟨hE, fun X hX => if_neg hX⟩, rfl, rfl, fun _ _ _ => rfl⟩

/-- Sixteen rows, two per cell. -/
def exG : Fin 8 × Fin 2 → Bool := fun i => i.1.val.testBit 0
def exP : Fin 8 × Fin 2 → Bool := fun i => i.1.val.testBit 1
def exT : Fin 8 × Fin 2 → Bool := fun i => i.1.val.testBit 2
def exY : Fin 8 × Fin 2 → ℚ := fun i => if i.1.val = 7 then 10 + i.2.val else i.2.val

/-- Two rows per cell: all hypotheses of the balanced case hold, and the variance is `8 * (1/2) / 2`. -/
example : (∀ g p t, size exG exP exT g p t = 2) ∧ cells (within exY exG exP exT) = 4 := by decide +kernel

example (r : ℚ → ℚ) (D : ℤ → Inference.Dist ℚ) :
    ∃ (L : Lib (Fin 8 × Fin 2) ℚ) (R : Result ℚ), Good L ∧ L.sqrt = r ∧
      fit L (⟨.reg, true, some (fun i => some i.1), 1/20, 1/100, false⟩ : Opts (Fin 8 × Fin 2) (Fin 8) ℚ) exY exG exP exT none = .ok R ∧
      R.att = .fin 10 ∧ R.se = .fin (r 2) ∧ R.nClusters = some 8 := by
  obtain ⟨L, hL, hs, -⟩ := exists_good (ι := Fin 8 × Fin 2) r D (D 0)
  cases hf : fit L (⟨.reg, true, some (fun i => some i.1), 1/20, 1/100, false⟩ : Opts (Fin 8 × Fin 2) (Fin 8) ℚ) exY exG exP exT none with
  | error e =>
    rcases (C128_fails L hL _ _ _ _ _ e).1 hf with ⟨h, -⟩ | ⟨-, -, -, h, -⟩
    · exact absurd (by unfold AllCells; decide +kernel : AllCells exG exP exT) h
    · simp at h
  | ok R =>
    refine ⟨L, R, hL, hs, hf, ?_, ?_, ?_⟩
    · obtain ⟨h, e, he, ha, -⟩ := fit_ok hf
      obtain ⟨V, -, h1, -⟩ := reg_ok hL h he
      rw [ha, h1]
      exact congrArg Ext.fin (by decide +kernel)
    · rw [C128_se_robust L hL _ rfl rfl exY exG exP exT R hf, hs]
      exact congrArg (fun v => Ext.fin (r v)) (by decide +kernel)
    · obtain ⟨-, -, -, -, -, -, -, h1, -, -⟩ := C128_counts L _ exY exG exP exT none R hf
      rw [h1 (fun i => i.1) rfl]
      exact congrArg some (by decide +kernel)

/-- The hypotheses about copied rows and clusters hold: each of the sixteen rows twice. -/
example (r : ℚ → ℚ) (D : ℤ → Inference.Dist ℚ) :
    ∃ (L : Lib ((Fin 8 × Fin 2) × Fin 2) ℚ) (R : Result ℚ) (V : Matrix (Fin 8) (Fin 8) ℚ) (v : ℚ), Good L ∧
      fit L (⟨.reg, true, some (fun x => some x.1), 1/20, 1/100, false⟩ : Opts ((Fin 8 × Fin 2) × Fin 2) (Fin 8 × Fin 2) ℚ)
        (fun x => exY x.1) (fun x => exG x.1) (fun x => exP x.1) (fun x => exT x.1) none = .ok R ∧
      vcovNumpy (design (fun x : (Fin 8 × Fin 2) × Fin 2 => exG x.1) (fun x => exP x.1) (fun x => exT x.1) : Matrix _ (Fin 8) ℚ)
        (fun x => exY x.1 - cellMean exY exG exP exT (exG x.1) (exP x.1) (exT x.1)) (some (fun x => some x.1)) = .ok V ∧
      R.se = .fin (L.sqrt v) ∧ 2 * v < V 7 7 := by
  obtain ⟨L, hL, -⟩ := exists_good (ι := (Fin 8 × Fin 2) × Fin 2) r D (D 0)
  have hall : AllCells exG exP exT := by unfold AllCells; decide +kernel
  have hdet := design_det (K := ℚ) (allCells_copies (r := 2) (by norm_num) hall) _ rfl
  have hcl : ¬ nClusters (fun x : (Fin 8 × Fin 2) × Fin 2 => some x.1) < 2 := by decide +kernel
  obtain ⟨V, hV⟩ : ∃ V, vcovNumpy (design (fun x : (Fin 8 × Fin 2) × Fin 2 => exG x.1) (fun x => exP x.1) (fun x => exT x.1) : Matrix _ (Fin 8) ℚ)
      (fun x => exY x.1 - cellMean exY exG exP exT (exG x.1) (exP x.1) (exT x.1)) (some (fun x => some x.1)) = .ok V := by
    simp only [vcovNumpy, hdet, hcl, if_false]
    simp
  cases hf : fit L (⟨.reg, true, some (fun x => some x.1), 1/20, 1/100, false⟩ : Opts ((Fin 8 × Fin 2) × Fin 2) (Fin 8 × Fin 2) ℚ)
      (fun x => exY x.1) (fun x => exG x.1) (fun x => exP x.1) (fun x => exT x.1) none with
  | error e =>
    rcases (C128_fails L hL _ _ _ _ _ e).1 hf with ⟨h, -⟩ | ⟨-, -, -, h, -⟩
    · exact absurd (allCells_copies (by norm_num) hall) h
    · simp at h
  | ok R =>
    obtain ⟨v, h1, -, -, h2⟩ := C128_cluster_refuted (by norm_num) exY exG exP exT L hL _ rfl rfl rfl R hf V hV
    exact ⟨L, R, V, v, hL, hf, hV, h1, by
      have := h2 le_rfl ⟨(0, 0), by decide +kernel⟩
      exact_mod_cast this⟩

/-- One row per cell with a triple difference of ten: p-value one, interval the point ten. -/
example : (∀ g p t, size (fun i : Fin 8 => i.val.testBit 0) (fun i => i.val.testBit 1) (fun i => i.val.testBit 2) g p t = 1) ∧
    ddd (fun i : Fin 8 => if i.val = 7 then (10 : ℚ) else 0) (fun i => i.val.testBit 0) (fun i => i.val.testBit 1) (fun i => i.val.testBit 2) = 10 := by
  decide +kernel

/-- A covariate that varies inside the cells keeps the design regular. -/
example : ((designX exG exP exT (fun i (_ : Fin 1) => (i.2.val : ℚ)))ᵀ * designX exG exP exT (fun i (_ : Fin 1) => (i.2.val : ℚ))).det ≠ 0 := by
  refine DidFit.det_of_injective _ fun v hv => ?_
  have f : ∀ i, pred (fun j => v (Fin.castAdd 1 j)) (exG i) (exP i) (exT i) + (i.2.val : ℚ) * v 8 = 0 := by
    intro i
    have := hv i
    rw [Fin.sum_univ_add] at this
    simp only [designX, Fin.append_left, Fin.append_right, Fin.sum_univ_one] at this
    exact this
  have z0 : v 8 = 0 := by
    have a := f (0, 0); have b := f (0, 1)
    have e : ∀ j, (exG (0, j) = false ∧ exP (0, j) = false) ∧ exT (0, j) = false := by decide +kernel
    simp only [e] at a b
    simp at a b
    linarith
  have hall : AllCells exG exP exT := by unfold AllCells; decide +kernel
  have hp := pred_zero (v := fun j => v (Fin.castAdd 1 j)) fun g p t => by
    obtain ⟨i, a, b, c⟩ := hall g p t
    have := f i
    rwa [z0, mul_zero, add_zero, a, b, c] at this
  funext m
  refine Fin.addCases (m := 8) (n := 1) (fun j => congrFun hp j) (fun j => ?_) m
  have : j = 0 := Subsingleton.elim _ _
  rw [this]; exact z0

end DiffDiff.TripleFit
