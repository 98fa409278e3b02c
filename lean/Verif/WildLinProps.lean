/-
Properties of the wild bootstrap as the estimators reach it (WildLin.lean): C151.
-/
import Verif.WildLin
import Verif.WildBootProps
import Verif.DidFullMore
import Verif.DidFullRows
import Verif.DidFullDemo

set_option linter.unusedSectionVars false
set_option linter.unusedVariables false

namespace DiffDiff.WildLin
open Matrix Ols TwfeFit

variable {ι C : Type*} [Fintype ι] [DecidableEq ι] [DecidableEq C]

/-! ### Full-rank designs: the model of WildBoot.lean -/

theorem lstsq_eq {L : Lib ι ℝ} (hL : Works L) {k : ℕ} {X : Matrix ι (Fin k) ℝ} (hX : (Xᵀ * X).det ≠ 0) (y : ι → ℝ) :
    L.solvers.lstsq X y = WildBoot.ols X y := by
  have h := (LinReg.isOls_iff X y _).1 (hL.solves X y)
  unfold WildBoot.ols
  rw [← h, mulVec_mulVec, nonsing_inv_mul _ (isUnit_iff_ne_zero.2 hX), one_mulVec]

theorem resid_eq {k : ℕ} (X : Matrix ι (Fin k) ℝ) (y : ι → ℝ) : resid X y (WildBoot.ols X y) = WildBoot.resid X y := rfl

theorem card_le {k : ℕ} {X : Matrix ι (Fin k) ℝ} (hX : (Xᵀ * X).det ≠ 0) : k ≤ Fintype.card ι := by
  have h1 : (Xᵀ * X).rank = k := by
    have := rank_of_isUnit (Xᵀ * X) ((Matrix.isUnit_iff_isUnit_det _).2 (isUnit_iff_ne_zero.2 hX))
    simpa using this
  calc k = (Xᵀ * X).rank := h1.symm
    _ ≤ X.rank := rank_mul_le_right _ _
    _ ≤ Fintype.card ι := rank_le_card_height X

theorem clustered_eq {L : Lib ι ℝ} (hL : Works L) {k : ℕ} {X : Matrix ι (Fin k) ℝ} (hX : (Xᵀ * X).det ≠ 0) (y : ι → ℝ) (ids : ι → C) :
    (∃ e, WildBoot.cov X y ids = .error e ∧ clustered L X y ids = .error (.vcov e)) ∨
      ∃ V f, WildBoot.cov X y ids = .ok V ∧ clustered L X y ids = .ok f ∧ ∀ j, entry f j = some (WildBoot.ols X y j, V j j) := by
  unfold clustered LinReg.fit
  rw [if_neg (by have := card_le hX; omega), hL.keeps X hX]
  simp only [LinReg.vcov, LinReg.Opts.ids, Bool.true_or, if_true, lstsq_eq hL hX, resid_eq]
  unfold WildBoot.cov
  cases h : Vcov.vcovNumpy X (WildBoot.resid X y) (some fun i => some (ids i)) with
  | error e => exact Or.inl ⟨e, rfl, rfl⟩
  | ok V => exact Or.inr ⟨V, _, rfl, rfl, fun j => rfl⟩

theorem points_eq {L : Lib ι ℝ} (hL : Works L) {k : ℕ} {X : Matrix ι (Fin k) ℝ} (hX : (Xᵀ * X).det ≠ 0) (y : ι → ℝ) :
    points L X y = (fun j => some (WildBoot.ols X y j), WildBoot.resid X y) := by
  unfold points
  rw [hL.keeps X hX]
  simp only [lstsq_eq hL hX, resid_eq]

theorem sample_eq {k : ℕ} (X : Matrix ι (Fin k) ℝ) (y : ι → ℝ) (ids : ι → C) (w : C → ℝ) (i : ι) :
    sample X (fun j => some (WildBoot.ols X y j)) (WildBoot.resid X y) ids w i = some (WildBoot.sample X y ids w i) := by
  unfold sample times WildBoot.sample
  simp only [Option.isSome_some, implies_true, if_true]
  rfl

/-- Error translation. -/
def conv : WildBoot.Err → Err
  | .weightType => .weightType
  | .fewClusters => .fewClusters
  | .cov e => .reg (.vcov e)
  | .empty => .empty

theorem replicate_eq {L : Lib ι ℝ} (hL : Works L) {k : ℕ} {X : Matrix ι (Fin k) ℝ} (hX : (Xᵀ * X).det ≠ 0) (y : ι → ℝ) (ids : ι → C) (j : Fin k)
    (null : ℝ) (w : C → ℝ) : replicate L X (points L X y) ids j null w = (WildBoot.replicate X y ids j null w).mapError conv := by
  rw [points_eq hL hX]
  unfold replicate WildBoot.replicate
  simp only [sample_eq]
  rw [if_neg (by simp)]
  simp only [Option.getD_some]
  change (match clustered L X (WildBoot.sample X y ids w) ids with
    | .error e => _
    | .ok f => _) = _
  rcases clustered_eq hL hX (WildBoot.sample X y ids w) ids with ⟨e, h1, h2⟩ | ⟨V, f, h1, h2, h3⟩
  · rw [h1, h2]; rfl
  · rw [h1, h2]
    simp only [h3 j]
    rfl

theorem mapM_mapError {α β : Type*} (l : List α) (f : α → Except Err β) (g : α → Except WildBoot.Err β) (h : ∀ a ∈ l, f a = (g a).mapError conv) :
    l.mapM f = (l.mapM g).mapError conv := by
  induction l with
  | nil => rfl
  | cons a l ih =>
    rw [List.mapM_cons, List.mapM_cons, h a (by simp), ih fun x hx => h x (List.mem_cons_of_mem _ hx)]
    cases g a with
    | error e => rfl
    | ok b => cases l.mapM g <;> rfl

/-- For full-rank designs the two models agree. -/
theorem wild_eq {L : Lib ι ℝ} (hL : Works L) {k : ℕ} {X : Matrix ι (Fin k) ℝ} (hX : (Xᵀ * X).det ≠ 0) (wt : String) (y : ι → ℝ) (ids : ι → C) (j : Fin k)
    (null alpha : ℝ) (draws : List (C → ℝ)) :
    wild L wt X y ids j null alpha draws = (WildBoot.wild wt X y ids j null alpha draws).mapError conv := by
  unfold wild WildBoot.wild
  by_cases h1 : wt ∉ ["rademacher", "webb", "mammen"]
  · rw [if_pos h1, if_pos h1]; rfl
  · rw [if_neg h1, if_neg h1]
    by_cases h2 : Vcov.nClusters ids < 2
    · rw [if_pos h2, if_pos h2]; rfl
    · rw [if_neg h2, if_neg h2]
      rcases clustered_eq hL hX y ids with ⟨e, ha, hb⟩ | ⟨V, f, ha, hb, hc⟩
      · rw [ha, hb]; rfl
      · rw [ha, hb]
        simp only
        rw [mapM_mapError draws _ _ (fun w _ => replicate_eq hL hX (WildBoot.restricted X y j null) ids j null w)]
        cases hm : List.mapM (WildBoot.replicate X (WildBoot.restricted X y j null) ids j null) draws with
        | error e => rfl
        | ok reps =>
          show (if reps = [] then _ else _) = (if reps = [] then _ else _ : Except WildBoot.Err WildBoot.Result).mapError conv
          by_cases hr : reps = []
          · rw [if_pos hr, if_pos hr]; rfl
          · rw [if_neg hr, if_neg hr]
            simp only [hc j]
            rfl

/-! ### Designs with a redundant column: no result -/

theorem expand_none {k : ℕ} (d : Fin k) (ds : List (Fin k)) (b : Fin (keptCols (d :: ds)).length → ℝ) : expandCoef (keptCols (d :: ds)) b d = none :=
  expandCoef_none _ _ _ (fun h => (mem_keptCols _ _).1 h (by simp))

theorem wild_redundant {L : Lib ι ℝ} [Nonempty ι] {k : ℕ} {X : Matrix ι (Fin k) ℝ} (hX : L.redundant X ≠ []) (wt : String) (y : ι → ℝ) (ids : ι → C) (j : Fin k)
    (null alpha : ℝ) (draws : List (C → ℝ)) : ∃ e, wild L wt X y ids j null alpha draws = .error e := by
  have hrep : ∀ z w, replicate L X (points L X z) ids j null w = .error .notFinite := by
    intro z w
    unfold replicate
    rw [if_pos]
    obtain ⟨i⟩ := ‹Nonempty ι›
    refine ⟨i, ?_⟩
    unfold sample times points
    cases hd : L.redundant X with
    | nil => exact absurd hd hX
    | cons d ds =>
      rw [if_neg]
      · rfl
      · intro h
        have := h d
        simp only [expand_none] at this
        exact absurd this (by simp)
  unfold wild
  by_cases h1 : wt ∉ ["rademacher", "webb", "mammen"]
  · rw [if_pos h1]; exact ⟨_, rfl⟩
  · rw [if_neg h1]
    by_cases h2 : Vcov.nClusters ids < 2
    · rw [if_pos h2]; exact ⟨_, rfl⟩
    · rw [if_neg h2]
      cases hc : clustered L X y ids with
      | error e => exact ⟨_, rfl⟩
      | ok f =>
        simp only
        cases draws with
        | nil => exact ⟨_, rfl⟩
        | cons w ws =>
          rw [List.mapM_cons, hrep]
          exact ⟨_, rfl⟩

/-! ### Specification of the bootstrap: weights, residuals, projected replicates -/

/-- Cluster-robust variance of `∑ h y` with residuals `u` in a regression of `k` coefficients. -/
noncomputable def clusterVar (k : ℕ) (g : ι → C) (h u : ι → ℝ) : ℝ :=
  (((Finset.univ.image g).card : ℝ) / (((Finset.univ.image g).card : ℝ) - 1)) * (((Fintype.card ι : ℝ) - 1) / ((Fintype.card ι : ℝ) - k)) *
    ∑ c ∈ Finset.univ.image g, (∑ i ∈ Finset.univ.filter (fun i => g i = c), h i * u i) ^ 2

/-- Bootstrap coefficient: the estimate plus the weighted sum of the residuals, each times the draw of its cluster. -/
def coefOf (g : ι → C) (h u : ι → ℝ) (x : ℝ) (s : C → ℝ) : ℝ := x + ∑ i, h i * (u i * s (g i))

/-- Bootstrap t statistic, `rs s` being the residuals of the replicate. -/
noncomputable def tOf (k : ℕ) (g : ι → C) (h u : ι → ℝ) (x : ℝ) (rs : (C → ℝ) → ι → ℝ) (s : C → ℝ) : ℝ :=
  if 0 < clusterVar k g h (rs s) then coefOf g h u x s / Real.sqrt (clusterVar k g h (rs s)) else 0

/-- Reported t statistic: the estimate over its clustered standard error, as floating point division. -/
noncomputable def tOrigOf (k : ℕ) (g : ι → C) (h u : ι → ℝ) (x : ℝ) : Ext ℝ := Ext.div (.fin x) (.fin (Real.sqrt (clusterVar k g h u)))

/-- All of the result. -/
noncomputable def bootOf (k : ℕ) (g : ι → C) (h u : ι → ℝ) (x : ℝ) (rs : (C → ℝ) → ι → ℝ) (alpha : ℝ) (draws : List (C → ℝ)) : WildBoot.Result :=
  { se2 := BootStats.var1 (draws.map (coefOf g h u x))
    p := WildBoot.pvalue (tOrigOf k g h u x) (draws.map (tOf k g h u x rs))
    t := tOrigOf k g h u x
    ci := BootStats.percentileCI (draws.map (coefOf g h u x)) alpha
    nClusters := (Finset.univ.image g).card
    coefs := draws.map (coefOf g h u x) }

theorem isOls_ols {k : ℕ} {X : Matrix ι (Fin k) ℝ} (hX : (Xᵀ * X).det ≠ 0) (y : ι → ℝ) : IsOls X y (WildBoot.ols X y) := by
  rw [LinReg.isOls_iff]
  unfold WildBoot.ols
  rw [mulVec_mulVec, mul_nonsing_inv _ (isUnit_iff_ne_zero.2 hX), one_mulVec]

theorem ols_weights {k : ℕ} {X : Matrix ι (Fin k) ℝ} (hX : (Xᵀ * X).det ≠ 0) {j : Fin k} {v : Fin k → ℝ} {h : ι → ℝ} (H : DidFit.Isolates X j v h) (y : ι → ℝ) :
    WildBoot.ols X y j = ∑ i, h i * y i := DidFit.C125_coefficient X j v h H y _ (isOls_ols hX y)

theorem varK_weights {k : ℕ} {X : Matrix ι (Fin k) ℝ} (hX : (Xᵀ * X).det ≠ 0) {j : Fin k} {v : Fin k → ℝ} {h : ι → ℝ} (H : DidFit.Isolates X j v h)
    {y z : ι → ℝ} {g : ι → C} {V : Matrix (Fin k) (Fin k) ℝ} (hV : WildBoot.cov X y g = .ok V) :
    WildBoot.varK X z g j = clusterVar k g h (WildBoot.resid X z) := by
  obtain ⟨W, hW⟩ := WildBoot.cov_defined hV z
  unfold WildBoot.varK
  rw [hW]
  have := DidFit.C125_cluster X hX j v h H (WildBoot.resid X z) g W hW
  rw [Fintype.card_fin] at this
  exact this

theorem tStar_eq (b v : ℝ) : WildBoot.tStar b 0 v = if 0 < v then b / Real.sqrt v else 0 := by
  unfold WildBoot.tStar
  simp only [Real.sqrt_pos, sub_zero]

theorem wild_closed {k : ℕ} {X : Matrix ι (Fin k) ℝ} {j : Fin k} {v : Fin k → ℝ} {h : ι → ℝ} (H : DidFit.Isolates X j v h)
    {wt : String} {y : ι → ℝ} {g : ι → C} {alpha : ℝ} {draws : List (C → ℝ)} {B : WildBoot.Result} (hB : WildBoot.wild wt X y g j 0 alpha draws = .ok B) :
    B = bootOf k g h (WildBoot.resid X y) (∑ i, h i * y i) (fun s => WildBoot.resid X (fun i => WildBoot.resid X y i * s (g i))) alpha draws := by
  obtain ⟨-, -, -, hX, ⟨V, hV⟩, h1, h2, h3, h4, h5, h6⟩ := WildBoot.wild_ok hB
  have hc : ∀ s, WildBoot.ols X y j - 0 + WildBoot.ols X (WildBoot.wres X y g s) j = coefOf g h (WildBoot.resid X y) (∑ i, h i * y i) s := by
    intro s
    rw [ols_weights hX H, ols_weights hX H, sub_zero]
    rfl
  have ht : B.t = tOrigOf k g h (WildBoot.resid X y) (∑ i, h i * y i) := by
    rw [h2, varK_weights hX H hV, ols_weights hX H]
    unfold WildBoot.tOrig tOrigOf
    rw [sub_zero]
  have hcs : B.coefs = draws.map (coefOf g h (WildBoot.resid X y) (∑ i, h i * y i)) := by
    rw [h1]
    simp only [hc]
  cases B with
  | mk se2 p t ci nc cs =>
    simp only at h1 h2 h3 h4 h5 h6 ht hcs
    subst h4 h5 h6 hcs ht
    unfold bootOf
    congr 1
    rw [h3]
    congr 1
    refine List.map_congr_left fun s _ => ?_
    rw [hc, varK_weights hX H hV, WildBoot.resid_sample X hX, tStar_eq]
    rfl

theorem det_of_nil {k : ℕ} {X : Matrix ι (Fin k) ℝ} (h : LinReg.Pruned X []) : (Xᵀ * X).det ≠ 0 := by
  refine DidFit.det_of_injective _ fun v hv => ?_
  exact h.indep v (fun j hj => absurd hj (by simp)) hv

/-- A run with redundant columns is an error, so a result means full column rank. -/
theorem wild_det {L : Lib ι ℝ} (hP : LinReg.Prunes L) [Nonempty ι] {k : ℕ} {X : Matrix ι (Fin k) ℝ} {wt : String} {y : ι → ℝ} {g : ι → C} {j : Fin k}
    {null alpha : ℝ} {draws : List (C → ℝ)} {B : WildBoot.Result} (hB : wild L wt X y g j null alpha draws = .ok B) : (Xᵀ * X).det ≠ 0 := by
  by_contra hX
  have hr : L.redundant X ≠ [] := by
    intro h
    have := hP X
    rw [h] at this
    exact det_of_nil this hX
  obtain ⟨e, he⟩ := wild_redundant hr wt y g j null alpha draws
  rw [he] at hB
  cases hB

theorem wild_ok_iff {L : Lib ι ℝ} (hL : Works L) {k : ℕ} {X : Matrix ι (Fin k) ℝ} (hX : (Xᵀ * X).det ≠ 0) {wt : String} {y : ι → ℝ} {g : ι → C} {j : Fin k}
    {null alpha : ℝ} {draws : List (C → ℝ)} {B : WildBoot.Result} :
    wild L wt X y g j null alpha draws = .ok B ↔ WildBoot.wild wt X y g j null alpha draws = .ok B := by
  rw [wild_eq hL hX]
  cases WildBoot.wild wt X y g j null alpha draws with
  | error e =>
    constructor
    · intro h; cases h
    · intro h; cases h
  | ok b =>
    constructor
    · intro h; cases h; rfl
    · intro h; cases h; rfl

/-! ### DifferenceInDifferences -/

open DidFull (Data Valid Comb Orth FullRank flag extras num outcome nCoef matrix)

theorem rank_of_det {k : ℕ} {X : Matrix ι (Fin k) ℝ} (hX : (Xᵀ * X).det ≠ 0) : X.rank = k := by
  have h1 : (Xᵀ * X).rank = k := by
    have := rank_of_isUnit (Xᵀ * X) ((Matrix.isUnit_iff_isUnit_det _).2 (isUnit_iff_ne_zero.2 hX))
    simpa using this
  have h2 := rank_mul_le_right Xᵀ X
  have h3 := rank_le_card_width X
  rw [Fintype.card_fin] at h3
  omega

theorem fit_boot {L : Lib ι ℝ} {robust strict : Bool} {alpha : ℝ} {wt : String} {draws : List (C → ℝ)} {D : Data ι C ℝ} {g : ι → C} {R : Report} :
    fit L robust strict alpha (some (wt, draws)) D (some g) = .ok R ↔ ∃ R0 B, DidFull.fit L robust strict alpha (clusterBy D none) = .ok R0 ∧
      wild L wt (matrix (flag D.d) (flag D.t) (extras D)) (num (outcome D)) g (Fin.castAdd (extras D).length 3) 0 alpha draws = .ok B ∧ R = override R0 B := by
  unfold fit
  cases h1 : DidFull.fit L robust strict alpha (clusterBy D none) with
  | error e =>
    constructor
    · intro h; cases h
    · rintro ⟨R0, B, h, -⟩; cases h
  | ok R0 =>
    simp only
    cases h2 : wild L wt (matrix (flag D.d) (flag D.t) (extras D)) (num (outcome D)) g (Fin.castAdd (extras D).length 3) 0 alpha draws with
    | error e =>
      constructor
      · intro h; cases h
      · rintro ⟨R0, B, -, h, -⟩; cases h
    | ok B =>
      constructor
      · intro h; cases h; exact ⟨R0, B, rfl, rfl, rfl⟩
      · rintro ⟨R0', B', ha, hb, rfl⟩; cases ha; cases hb; rfl

theorem valid_clusterBy {D : Data ι C ℝ} {c : Option (ι → C)} : Valid (clusterBy D c) ↔ Valid D :=
  ⟨fun h => ⟨h.y, h.cov, h.d, h.t⟩, fun h => ⟨h.y, h.cov, h.d, h.t⟩⟩

theorem fit_det {L : Lib ι ℝ} (hP : LinReg.Prunes L) {robust strict : Bool} {alpha : ℝ} {wt : String} {draws : List (C → ℝ)} {D : Data ι C ℝ} {g : ι → C}
    {R0 : DidFit.Result ℝ} {B : WildBoot.Result} (h0 : DidFull.fit L robust strict alpha (clusterBy D none) = .ok R0)
    (hB : wild L wt (matrix (flag D.d) (flag D.t) (extras D)) (num (outcome D)) g (Fin.castAdd (extras D).length 3) 0 alpha draws = .ok B) :
    ((matrix (flag D.d) (flag D.t) (extras D))ᵀ * matrix (flag D.d) (flag D.t) (extras D)).det ≠ 0 := by
  obtain ⟨hV, -⟩ := DidFull.fit_ok h0
  obtain ⟨i, -⟩ := hV.d.2.1
  have : Nonempty ι := ⟨i⟩
  exact wild_det hP hB

theorem nClusters_some (g : ι → C) : Vcov.nClusters (fun i => some (g i)) = (Finset.univ.image g).card := by
  unfold Vcov.nClusters
  have : Finset.univ.image (fun i => some (g i)) = (Finset.univ.image g).image some := by rw [Finset.image_image]; rfl
  rw [this, Finset.card_image_of_injective _ (Option.some_injective C)]

/-- C151. A wild bootstrap call returns a result exactly if the data are valid, absorbed labels are complete, no column is redundant, there are more rows
than coefficients, the weight type is known, there are two clusters or more, and one replication or more. -/
theorem C151_runs (L : Lib ι ℝ) (hL : Works L) (hP : LinReg.Prunes L) (robust strict : Bool) (alpha : ℝ) (wt : String) (draws : List (C → ℝ))
    (D : Data ι C ℝ) (g : ι → C) :
    (∃ R, fit L robust strict alpha (some (wt, draws)) D (some g) = .ok R) ↔ Valid D ∧ (∀ a ∈ D.absorb, ∀ i, a i ≠ none) ∧
      FullRank (flag D.d) (flag D.t) (extras D) ∧ nCoef D < Fintype.card ι ∧ (wt = "rademacher" ∨ wt = "webb" ∨ wt = "mammen") ∧
      2 ≤ (Finset.univ.image g).card ∧ draws ≠ [] := by
  constructor
  · rintro ⟨R, h⟩
    obtain ⟨R0, B, h0, hB, -⟩ := fit_boot.1 h
    have hX := fit_det hP h0 hB
    obtain ⟨a1, a2, a3, -⟩ := (DidFull.C150_runs L hL hP robust strict alpha _).1 ⟨R0, h0⟩
    have hB' := (wild_ok_iff hL hX).1 hB
    obtain ⟨b1, b2, b3, -, ⟨V, hV⟩, -⟩ := WildBoot.wild_ok hB'
    refine ⟨valid_clusterBy.1 a1, a2, DidFull.fullRank_of_det hX, ?_, b1, b2, b3⟩
    refine lt_of_le_of_ne a3 fun hne => ?_
    unfold WildBoot.cov Vcov.vcovNumpy at hV
    simp only [nClusters_some, Fintype.card_fin] at hV
    rw [if_neg (show ¬ (Finset.univ.image g).card < 2 from not_lt.2 b2), if_pos] at hV
    · cases hV
    · rw [DidFull.length_extras]; exact hne.symm
  · rintro ⟨h1, h2, h3, h4, h5, h6, h7⟩
    have hX := h3.det
    have hlen := DidFull.length_extras D
    obtain ⟨R0, h0⟩ := (DidFull.C150_runs L hL hP robust strict alpha (clusterBy D none)).2
      ⟨valid_clusterBy.2 h1, h2, h4.le, fun _ => (rank_of_det hX).trans hlen, fun _ => by
        show (matrix (flag D.d) (flag D.t) (extras D)).rank < _
        rw [rank_of_det hX, hlen]; exact h4, fun ids hi => by cases hi⟩
    obtain ⟨B, hB⟩ := (WildBoot.C60_defined wt _ (num (outcome D)) g (Fin.castAdd (extras D).length 3) 0 alpha draws hX
      (by rw [Fintype.card_fin, hlen]; exact h4.ne') h7).2 ⟨h5, h6⟩
    exact ⟨_, fit_boot.2 ⟨R0, B, h0, (wild_ok_iff hL hX).2 hB, rfl⟩⟩

theorem comb_fitted {d t : ι → Bool} {xs : List (ι → ℝ)} (y : ι → ℝ) : ∃ e, Comb d t xs e (fun i => y i - WildBoot.resid (matrix d t xs) y i) :=
  ⟨_, DidFull.comb_iff.2 ⟨WildBoot.ols (matrix d t xs) y, rfl, fun i => by
    show y i - (y i - (matrix d t xs *ᵥ _) i) = _
    rw [sub_sub_cancel]
    rfl⟩⟩

theorem orth_resid {d t : ι → Bool} {xs : List (ι → ℝ)} (hX : ((matrix d t xs)ᵀ * matrix d t xs).det ≠ 0) (y : ι → ℝ) :
    Orth d t xs (WildBoot.resid (matrix d t xs) y) 0 :=
  DidFull.orth_iff.2 fun m => by
    have := congrFun (WildBoot.normal_eq _ hX y) m
    simp only [mulVec, dotProduct, transpose_apply, Pi.zero_apply] at this
    rw [this]
    simp

/-- C151. What a wild bootstrap call reports. `w` are the only weights that are a combination of the columns, orthogonal to constant, treatment, time,
covariates and fixed effects, with product one with the interaction; `u` are the residuals; `rs s` are the residuals times the draws `s`, projected off the
columns again. -/
theorem C151_report (L : Lib ι ℝ) (hL : Works L) (hP : LinReg.Prunes L) (robust strict : Bool) (alpha : ℝ) (wt : String) (draws : List (C → ℝ))
    (D : Data ι C ℝ) (g : ι → C) (R : Report) (h : fit L robust strict alpha (some (wt, draws)) D (some g) = .ok R) :
    ∃ (w u : ι → ℝ) (x : ℝ) (rs : (C → ℝ) → ι → ℝ), (∃ e, Comb (flag D.d) (flag D.t) (extras D) e w) ∧ Orth (flag D.d) (flag D.t) (extras D) w 1 ∧
      Comb (flag D.d) (flag D.t) (extras D) x (fun i => num (outcome D) i - u i) ∧ Orth (flag D.d) (flag D.t) (extras D) u 0 ∧
      x = ∑ i, w i * num (outcome D) i ∧
      (∀ s, (∃ e, Comb (flag D.d) (flag D.t) (extras D) e (fun i => u i * s (g i) - rs s i)) ∧ Orth (flag D.d) (flag D.t) (extras D) (rs s) 0) ∧
      R.main.att = .fin x ∧
      R.main.se = LinReg.toExt ((BootStats.var1 (draws.map (coefOf g w u x))).map Real.sqrt) ∧
      R.main.t = tOrigOf (nCoef D) g w u x ∧
      R.main.p = .fin (max ((((draws.map (tOf (nCoef D) g w u x rs)).filter (fun b => Ext.le (Ext.abs R.main.t) (.fin |b|))).length : ℝ) / draws.length)
        (1 / ((draws.length : ℝ) + 1))) ∧
      R.main.ci = (.fin (BootStats.percentile (draws.map (coefOf g w u x)) (alpha / 2)), .fin (BootStats.percentile (draws.map (coefOf g w u x)) (1 - alpha / 2))) ∧
      R.main.nObs = Fintype.card ι ∧ R.main.nTreated = (Finset.univ.filter (fun i => D.d i = some 1)).card ∧
      R.main.nControl = (Finset.univ.filter (fun i => D.d i = some 0)).card ∧ R.main.r2 = Vcov.rSquared (num (outcome D)) u false 0 ∧
      R.boot = some (draws.length, (Finset.univ.image g).card) := by
  obtain ⟨R0, B, h0, hB, rfl⟩ := fit_boot.1 h
  have hX := fit_det hP h0 hB
  have hid : DidFull.Identified (flag D.d) (flag D.t) (extras D) := by
    rintro ⟨a, b, c, γ, hz⟩
    obtain ⟨-, -, -, h1, -⟩ := DidFull.fullRank_of_det hX a b c (-1) γ fun i => by
      have := hz i
      simp only at this
      linarith
    exact absurd h1 (by norm_num)
  obtain ⟨w, u, x, k1, k2, k3, k4, k5, k6, -, -, -, -, k7, k8, k9, k10⟩ := DidFull.C150_report L hL hP robust strict alpha (clusterBy D none) hid R0 h0 _ _ rfl rfl _ rfl
  obtain ⟨v, H⟩ : ∃ v, DidFit.Isolates (matrix (flag D.d) (flag D.t) (extras D)) (Fin.castAdd (extras D).length 3) v w := DidFull.isolates_iff.2 ⟨k1, k2⟩
  have hB' := (wild_ok_iff hL hX).1 hB
  have hcl := wild_closed H hB'
  have hu : WildBoot.resid (matrix (flag D.d) (flag D.t) (extras D)) (num (outcome D)) = u := by
    obtain ⟨e, he⟩ := comb_fitted (d := flag D.d) (t := flag D.t) (xs := extras D) (num (outcome D))
    exact DidFull.resid_unique he (orth_resid hX _) k3 k4
  rw [hu, ← show x = ∑ i, w i * num (outcome D) i from k6] at hcl
  rw [← DidFull.length_extras]
  subst hcl
  refine ⟨w, u, x, _, k1, k2, k3, k4, k6, fun s => ⟨comb_fitted _, orth_resid hX _⟩, k5, rfl, rfl, ?_, rfl, k7, k8, k9, k10, ?_⟩
  · show Ext.fin _ = _
    congr 1
    simp only [bootOf, WildBoot.pvalue, WildBoot.extreme, List.length_map]
    rfl
  · show some (_, _) = _
    simp only [bootOf, List.length_map]

end DiffDiff.WildLin
