/-
Property C153 (DifferenceInDifferences and TwoWayFixedEffects): the outcome in other units, with analytical and wild bootstrap inference.
-/
import Verif.TripleScaleProps
import Verif.WildTwfe

set_option linter.unusedSectionVars false
set_option linter.unusedVariables false

namespace DiffDiff.Inference
open LinReg (inUnits)

variable {K : Type*} [Field K] [LinearOrder K] [IsStrictOrderedRing K]

theorem tStat_inUnits (c : K) (hc : 0 < c) (a b : Ext K) : tStat (inUnits c a) (inUnits c b) = tStat a b := by
  have h1 : Ext.le (inUnits c b) (.fin 0) = Ext.le b (.fin 0) := by
    cases b <;> simp only [inUnits, Ext.le]
    exact decide_eq_decide.2 ⟨fun h => by nlinarith, fun h => by nlinarith⟩
  have h2 : Ext.lt (inUnits c a) (.fin 0) = Ext.lt a (.fin 0) := by
    cases a <;> simp only [inUnits, Ext.lt]
    exact decide_eq_decide.2 ⟨fun h => by nlinarith, fun h => by nlinarith⟩
  unfold tStat
  rw [h1, h2, LinReg.lt_inUnits c hc, LinReg.div_inUnits c hc]

end DiffDiff.Inference

namespace DiffDiff.DidFit
open LinReg (inUnits)

variable {K : Type*} [Field K] [LinearOrder K] [IsStrictOrderedRing K]
variable {ι C : Type*} [Fintype ι] [DecidableEq ι] [DecidableEq C]

/-- A report in other units. -/
def Result.inUnits (c : K) (R : Result K) : Result K :=
  { R with att := LinReg.inUnits c R.att, se := LinReg.inUnits c R.se, ci := (LinReg.inUnits c R.ci.1, LinReg.inUnits c R.ci.2) }

theorem infer_mul (r : K → K) (hr : ∀ c v : K, 0 < c → r (c ^ 2 * v) = c * r v) (tD : ℤ → Inference.Dist K) (nD : Inference.Dist K) {k : ℕ}
    (f : LinReg.Fit ι k K) (j : Fin k) (alpha c : K) (hc : 0 < c) :
    (LinReg.infer r tD nD (f.inUnits c) j none alpha none).se = inUnits c (LinReg.infer r tD nD f j none alpha none).se ∧
    (LinReg.infer r tD nD (f.inUnits c) j none alpha none).t = (LinReg.infer r tD nD f j none alpha none).t ∧
    (LinReg.infer r tD nD (f.inUnits c) j none alpha none).p = (LinReg.infer r tD nD f j none alpha none).p ∧
    (LinReg.infer r tD nD (f.inUnits c) j none alpha none).ci
      = (inUnits c (LinReg.infer r tD nD f j none alpha none).ci.1, inUnits c (LinReg.infer r tD nD f j none alpha none).ci.2) := by
  have hb : LinReg.toExt ((f.inUnits c).coef j) = inUnits c (LinReg.toExt (f.coef j)) := LinReg.toExt_mul c _
  have hs : LinReg.toExt (((f.inUnits c).vcov (j, j)).map r) = inUnits c (LinReg.toExt ((f.vcov (j, j)).map r)) := by
    show LinReg.toExt (((f.vcov (j, j)).map (c ^ 2 * ·)).map r) = _
    cases f.vcov (j, j) with
    | none => rfl
    | some v => exact congrArg Ext.fin (hr c v hc)
  unfold LinReg.infer Inference.getInference
  simp only [hb, hs, Inference.tStat_inUnits c hc, LinReg.confInt_inUnits]
  exact ⟨trivial, trivial, rfl, rfl⟩

end DiffDiff.DidFit

namespace DiffDiff.DidFull

variable {K : Type*} [Field K] [LinearOrder K] [IsStrictOrderedRing K]
variable {ι C : Type*} [Fintype ι] [DecidableEq ι] [DecidableEq C]

/-- The same call with the outcome in other units; missing values stay. -/
def Data.inUnits (c : K) (D : Data ι C K) : Data ι C K := { D with y := fun i => (D.y i).map (c * ·) }

theorem getD_mul (c : K) (x : Option K) : (x.map (c * ·)).getD 0 = c * x.getD 0 := by cases x <;> simp

theorem hasMissing_mul (c : K) (x : ι → Option K) : HasMissing (fun i => (x i).map (c * ·)) ↔ HasMissing x := by
  unfold HasMissing
  simp

theorem demean_mul (c : K) (g : ι → Option ℤ) (x : ι → Option K) : demean g (fun i => (x i).map (c * ·)) = fun i => (demean g x i).map (c * ·) := by
  have hm : ∀ a, groupMean g (fun i => (x i).map (c * ·)) a = c * groupMean g x a := by
    intro a
    unfold groupMean
    have hf : (Finset.univ.filter (fun j => g j = some a ∧ (x j).map (c * ·) ≠ none)) = Finset.univ.filter (fun j => g j = some a ∧ x j ≠ none) := by
      ext j; simp
    rw [hf, ← mul_div_assoc, Finset.mul_sum]
    congr 1
    refine Finset.sum_congr rfl fun j _ => ?_
    exact getD_mul c (x j)
  funext i
  unfold demean
  cases g i with
  | none => rfl
  | some a =>
    dsimp only
    rw [hm]
    cases x i with
    | none => rfl
    | some v => exact congrArg some (by ring)

theorem absorbed_mul (c : K) (gs : List (ι → Option ℤ)) :
    ∀ x : ι → Option K, absorbed gs (fun i => (x i).map (c * ·)) = fun i => (absorbed gs x i).map (c * ·) := by
  unfold absorbed
  induction gs with
  | nil => intro x; rfl
  | cons g gs ih =>
    intro x
    simp only [List.foldl_cons, demean_mul]
    exact ih _

theorem outcome_mul (c : K) (D : Data ι C K) : outcome (D.inUnits c) = fun i => (outcome D i).map (c * ·) := absorbed_mul c D.absorb D.y

theorem num_mul (c : K) (x : ι → Option K) : num (fun i => (x i).map (c * ·)) = fun i => c * num x i := by
  funext i
  exact getD_mul c (x i)

theorem validate_mul (c : K) (D : Data ι C K) : validate (D.inUnits c) = validate D := by
  have h : (∃ x ∈ (D.inUnits c).y :: (D.inUnits c).d :: (D.inUnits c).t :: (D.inUnits c).cov, HasMissing x)
      ↔ ∃ x ∈ D.y :: D.d :: D.t :: D.cov, HasMissing x := by
    simp only [List.exists_mem_cons_iff]
    exact or_congr (hasMissing_mul c D.y) Iff.rfl
  unfold validate
  by_cases hm : ∃ x ∈ D.y :: D.d :: D.t :: D.cov, HasMissing x
  · rw [if_pos hm, if_pos (h.2 hm)]
  · rw [if_neg hm, if_neg (fun hh => hm (h.1 hh))]
    rfl

theorem core_mul (L : TwfeFit.Lib ι K) (hL : MultiFit.Homogeneous L) (o : DidFit.Opts ι C) (alpha : K) (d t : ι → Bool) (y : ι → K) (adj : ℤ)
    (xs : List (ι → K)) (c : K) (hc : 0 < c) :
    core L o alpha d t (fun i => c * y i) adj xs = (core L o alpha d t y adj xs).map (DidFit.Result.inUnits c) := by
  unfold core
  rw [LinReg.C153_regression L.solvers hL.lstsq]
  cases LinReg.fit L.solvers (⟨o.robust, o.cluster, none, o.strict⟩ : LinReg.Opts ι C) (L.redundant (matrix d t xs)) (matrix d t xs) y adj with
  | error e => rfl
  | ok f =>
    obtain ⟨h1, h2, h3, h4⟩ := DidFit.infer_mul L.sqrt hL.sqrt L.tD L.nD f (Fin.castAdd xs.length 3) alpha c hc
    have hb : LinReg.toExt ((f.inUnits c).coef (Fin.castAdd xs.length 3)) = LinReg.inUnits c (LinReg.toExt (f.coef (Fin.castAdd xs.length 3))) :=
      LinReg.toExt_mul c _
    have hr : Vcov.rSquared (fun i => c * y i) (f.inUnits c).resid false 0 = Vcov.rSquared y f.resid false 0 := LinReg.rSquared_mul c hc.ne' _ _ _ _
    simp only [Except.map, h1, h2, h3, h4, hb, hr, DidFit.Result.inUnits]

/-- C153. DifferenceInDifferences.fit on outcomes multiplied by `c > 0`, with any covariates, fixed effects, absorbed effects, missing values and covariance
option: effect, standard error and interval are multiplied by `c`; t, p, R squared and counts are unchanged; errors are the same. -/
theorem C153_did (L : TwfeFit.Lib ι K) (hL : MultiFit.Homogeneous L) (robust strict : Bool) (alpha : K) (D : Data ι C K) (c : K) (hc : 0 < c) :
    fit L robust strict alpha (D.inUnits c) = (fit L robust strict alpha D).map (DidFit.Result.inUnits c) := by
  unfold fit
  rw [validate_mul]
  cases validate D with
  | some e => rfl
  | none =>
    have hx : extras (D.inUnits c) = extras D := rfl
    have hcov : covariates (D.inUnits c) = covariates D := rfl
    have h : (∃ x ∈ outcome (D.inUnits c) :: covariates (D.inUnits c), HasMissing x) ↔ ∃ x ∈ outcome D :: covariates D, HasMissing x := by
      rw [outcome_mul, hcov]
      simp only [List.exists_mem_cons_iff]
      exact or_congr (hasMissing_mul c (outcome D)) Iff.rfl
    dsimp only
    by_cases hn : Fintype.card ι < 4 + (extras D).length
    · rw [if_pos hn, if_pos (by rw [hx]; exact hn)]; rfl
    · rw [if_neg hn, if_neg (by rw [hx]; exact hn)]
      by_cases hm : ∃ x ∈ outcome D :: covariates D, HasMissing x
      · rw [if_pos hm, if_pos (h.2 hm)]; rfl
      · rw [if_neg hm, if_neg (fun hh => hm (h.1 hh)), outcome_mul, num_mul]
        show (core L ⟨robust, D.cluster, strict⟩ alpha (flag D.d) (flag D.t) (fun i => c * num (outcome D) i) (adjustment D.absorb) (extras D)).mapError Err.reg = _
        rw [core_mul L hL _ _ _ _ _ _ _ c hc]
        cases core L ⟨robust, D.cluster, strict⟩ alpha (flag D.d) (flag D.t) (num (outcome D)) (adjustment D.absorb) (extras D) <;> rfl

end DiffDiff.DidFull

namespace DiffDiff.TwfeFit
open Within

variable {K : Type*} [Field K] [LinearOrder K] [IsStrictOrderedRing K]
variable {ι U T C : Type*} [Fintype ι] [DecidableEq ι] [DecidableEq U] [DecidableEq T] [DecidableEq C]

/-- The same call with the outcome in other units. -/
def Data.inUnits {m : ℕ} (c : K) (D : Data ι U T C K m) : Data ι U T C K m := { D with y := fun i => c * D.y i }

theorem outcome_mul {m : ℕ} (c : K) (D : Data ι U T C K m) : outcome (D.inUnits c) = fun i => c * outcome D i := by
  funext i
  show within D.unit D.time (fun i => c * D.y i) i = c * within D.unit D.time D.y i
  simp only [within, groupMean, grandMean, ← Finset.mul_sum]
  ring

theorem regress_mul {m : ℕ} (L : Lib ι K) (hL : MultiFit.Homogeneous L) (strict : Bool) (D : Data ι U T C K m) (c : K) :
    regress L strict (D.inUnits c) = (regress L strict D).map (LinReg.Fit.inUnits c) := by
  have hd : design (D.inUnits c) = design D := rfl
  have ha : adjustment (D.inUnits c) = adjustment D := rfl
  have hg : (D.inUnits c).cluster = D.cluster := rfl
  unfold regress
  rw [outcome_mul, hd, ha, hg]
  cases D.cluster with
  | none => exact LinReg.C153_regression L.solvers hL.lstsq _ _ _ _ _ c
  | some g => exact LinReg.C153_regression L.solvers hL.lstsq _ _ _ _ _ c

/-- C153. TwoWayFixedEffects.fit on outcomes multiplied by `c > 0`, with any covariates and clusters: effect, standard error and interval are multiplied by
`c`; t, p, R squared and counts are unchanged; errors are the same. -/
theorem C153_twfe {m : ℕ} (L : Lib ι K) (hL : MultiFit.Homogeneous L) (strict : Bool) (alpha : K) (D : Data ι U T C K m) (c : K) (hc : 0 < c) :
    fit L strict alpha (D.inUnits c) = (fit L strict alpha D).map (DidFit.Result.inUnits c) := by
  unfold fit
  rw [regress_mul L hL]
  cases regress L strict D with
  | error e => rfl
  | ok f =>
    obtain ⟨h1, h2, h3, h4⟩ := DidFit.infer_mul L.sqrt hL.sqrt L.tD L.nD f 1 alpha c hc
    have hr : LinReg.rsq (f.inUnits c) (outcome (D.inUnits c)) false = LinReg.rsq f (outcome D) false := by
      rw [outcome_mul]; exact LinReg.rSquared_mul c hc.ne' _ _ _ _
    have hb : (f.inUnits c).coef 1 = (f.coef 1).map (c * ·) := rfl
    simp only [Except.map]
    rw [hb]
    cases f.coef 1 with
    | none => rfl
    | some b =>
      simp only [Option.map_some, h1, h2, h3, h4, hr, DidFit.Result.inUnits]
      rfl

end DiffDiff.TwfeFit

/-! ### Wild bootstrap -/

namespace DiffDiff.BootStats

theorem pctSorted_mul (c : ℝ) (s : List ℝ) (q : ℝ) : pctSorted (s.map (c * ·)) q = c * pctSorted s q := by
  have h : ∀ i, (s.map (c * ·)).getD i 0 = c * s.getD i 0 := by
    intro i
    simp only [List.getD_eq_getElem?_getD, List.getElem?_map]
    cases s[i]? <;> simp
  unfold pctSorted
  simp only [List.length_map, h]
  ring

theorem percentileCI_mul (c : ℝ) (hc : 0 < c) (x : List ℝ) (alpha : ℝ) :
    percentileCI (x.map (c * ·)) alpha = (c * (percentileCI x alpha).1, c * (percentileCI x alpha).2) := by
  have h : (x.map (c * ·)).insertionSort (· ≤ ·) = (x.insertionSort (· ≤ ·)).map (c * ·) :=
    (List.map_insertionSort (r := (· ≤ ·)) (s := (· ≤ ·)) (fun t : ℝ => c * t) _ (fun a _ b _ => (mul_le_mul_iff_right₀ hc).symm)).symm
  unfold percentileCI percentile
  simp only [h, pctSorted_mul]

theorem var1_mul (c : ℝ) (x : List ℝ) : var1 (x.map (c * ·)) = (var1 x).map (c ^ 2 * ·) := by
  unfold var1
  simp only [List.length_map]
  split_ifs
  · rfl
  · simp only [Option.map_some, Option.some.injEq, MultiFit.sum_mul_list, List.map_map]
    rw [show ((fun d => (d - c * x.sum / (x.length : ℝ)) ^ 2) ∘ (c * ·)) = (c ^ 2 * ·) ∘ (fun d => (d - x.sum / (x.length : ℝ)) ^ 2) by
      funext d; simp only [Function.comp]; ring, ← List.map_map, MultiFit.sum_mul_list]
    ring

end DiffDiff.BootStats

namespace DiffDiff.WildLin
open Matrix Ols

variable {ι C : Type*} [Fintype ι] [DecidableEq ι] [DecidableEq C]

/-- Bootstrap results in other units. -/
def Result.inUnits (c : ℝ) (B : WildBoot.Result) : WildBoot.Result :=
  { B with se2 := B.se2.map (c ^ 2 * ·), ci := (c * B.ci.1, c * B.ci.2), coefs := B.coefs.map (c * ·) }

theorem points_mul (L : TwfeFit.Lib ι ℝ) (hL : MultiFit.Homogeneous L) {k : ℕ} (X : Matrix ι (Fin k) ℝ) (y : ι → ℝ) (c : ℝ) :
    points L X (fun i => c * y i) = (fun j => ((points L X y).1 j).map (c * ·), fun i => c * (points L X y).2 i) := by
  unfold points
  cases L.redundant X with
  | nil =>
    dsimp only
    rw [hL.lstsq X c y]
    exact Prod.ext rfl (LinReg.resid_mul X c y _)
  | cons d ds =>
    dsimp only
    rw [hL.lstsq (reduce X (keptCols (d :: ds)) : Matrix ι (Fin (keptCols (d :: ds)).length) ℝ) c y]
    exact Prod.ext (LinReg.expandCoef_mul c _ _) (LinReg.resid_mul _ c y _)

theorem sample_mul {k : ℕ} (X : Matrix ι (Fin k) ℝ) (b : Fin k → Option ℝ) (r : ι → ℝ) (ids : ι → C) (w : C → ℝ) (c : ℝ) :
    sample X (fun j => (b j).map (c * ·)) (fun i => c * r i) ids w = fun i => (sample X b r ids w i).map (c * ·) := by
  have ht : ∀ i, times X (fun j => (b j).map (c * ·)) i = (times X b i).map (c * ·) := by
    intro i
    unfold times
    simp only [Option.isSome_map]
    split_ifs
    · simp only [Option.map_some, Option.some.injEq, Finset.mul_sum]
      refine Finset.sum_congr rfl fun j _ => ?_
      cases b j with
      | none => simp
      | some v => simp only [Option.map_some, Option.getD_some]; ring
    · rfl
  funext i
  unfold sample
  rw [ht]
  cases times X b i with
  | none => rfl
  | some v => exact congrArg some (by ring)

theorem sqrt_mul' (c v : ℝ) (hc : 0 < c) : Real.sqrt (c ^ 2 * v) = c * Real.sqrt v := by
  rw [Real.sqrt_mul (by positivity), Real.sqrt_sq hc.le]

theorem entry_mul {k : ℕ} (f : LinReg.Fit ι k ℝ) (j : Fin k) (c : ℝ) : entry (f.inUnits c) j = (entry f j).map (fun p => (c * p.1, c ^ 2 * p.2)) := by
  have h1 : (f.inUnits c).coef j = (f.coef j).map (c * ·) := rfl
  have h2 : (f.inUnits c).vcov (j, j) = (f.vcov (j, j)).map (c ^ 2 * ·) := rfl
  unfold entry
  rw [h1, h2]
  cases f.coef j <;> cases f.vcov (j, j) <;> rfl

theorem tStar_mul (b null v c : ℝ) (hc : 0 < c) : WildBoot.tStar (c * b) (c * null) (c ^ 2 * v) = WildBoot.tStar b null v := by
  unfold WildBoot.tStar
  simp only [sqrt_mul' c v hc, mul_pos_iff_of_pos_left hc, ← mul_sub, mul_div_mul_left _ _ hc.ne']

theorem tOrig_mul (b null v c : ℝ) (hc : 0 < c) : WildBoot.tOrig (c * b) (c * null) (c ^ 2 * v) = WildBoot.tOrig b null v := by
  unfold WildBoot.tOrig
  rw [sqrt_mul' c v hc, ← mul_sub]
  exact LinReg.div_inUnits c hc (.fin (b - null)) (.fin (Real.sqrt v))

theorem replicate_mul (L : TwfeFit.Lib ι ℝ) (hL : MultiFit.Homogeneous L) {k : ℕ} (X : Matrix ι (Fin k) ℝ) (pr : (Fin k → Option ℝ) × (ι → ℝ)) (ids : ι → C)
    (j : Fin k) (null : ℝ) (w : C → ℝ) (c : ℝ) (hc : 0 < c) :
    replicate L X (fun j => (pr.1 j).map (c * ·), fun i => c * pr.2 i) ids j (c * null) w
      = (replicate L X pr ids j null w).map (fun p => (c * p.1, p.2)) := by
  have hg : (fun i => ((sample X pr.1 pr.2 ids w i).map (c * ·)).getD 0) = fun i => c * (sample X pr.1 pr.2 ids w i).getD 0 := by
    funext i; cases sample X pr.1 pr.2 ids w i <;> simp
  unfold replicate
  rw [sample_mul, hg]
  simp only [Option.isNone_map]
  split_ifs
  · rfl
  · unfold clustered
    rw [LinReg.C153_regression L.solvers hL.lstsq]
    cases LinReg.fit L.solvers (⟨true, some (fun i => some (ids i)), none, false⟩ : LinReg.Opts ι C) (L.redundant X) X
      (fun i => (sample X pr.1 pr.2 ids w i).getD 0) 0 with
    | error e => rfl
    | ok f =>
      simp only [Except.map, entry_mul]
      cases entry f j with
      | none => rfl
      | some p =>
        simp only [Option.map_some, tStar_mul _ _ _ c hc]

theorem mapM_map {α β γ E : Type*} (g : β → γ) (f : α → Except E β) (l : List α) : l.mapM (fun a => (f a).map g) = (l.mapM f).map (List.map g) := by
  induction l with
  | nil => rfl
  | cons a l ih =>
    simp only [List.mapM_cons, ih]
    cases f a with
    | error e => rfl
    | ok b =>
      cases l.mapM f with
      | error e => rfl
      | ok bs => rfl

/-- C153. The wild bootstrap with the outcome and the null value multiplied by `c > 0` and the same random weights: replicates, standard error and interval are
multiplied by `c`; t and p are unchanged; errors are the same. -/
theorem C153_wild (L : TwfeFit.Lib ι ℝ) (hL : MultiFit.Homogeneous L) (wt : String) {k : ℕ} (X : Matrix ι (Fin k) ℝ) (y : ι → ℝ) (ids : ι → C) (j : Fin k)
    (null alpha : ℝ) (draws : List (C → ℝ)) (c : ℝ) (hc : 0 < c) :
    wild L wt X (fun i => c * y i) ids j (c * null) alpha draws = (wild L wt X y ids j null alpha draws).map (Result.inUnits c) := by
  have hr : WildBoot.restricted X (fun i => c * y i) j (c * null) = fun i => c * WildBoot.restricted X y j null i := by
    funext i; unfold WildBoot.restricted; ring
  have hreps : draws.mapM (replicate L X (points L X (WildBoot.restricted X (fun i => c * y i) j (c * null))) ids j (c * null))
      = (draws.mapM (replicate L X (points L X (WildBoot.restricted X y j null)) ids j null)).map (List.map (fun p => (c * p.1, p.2))) := by
    rw [← mapM_map, hr, points_mul L hL]
    congr 1
    funext w
    exact replicate_mul L hL X _ ids j null w c hc
  unfold wild
  rw [hreps]
  unfold clustered
  rw [LinReg.C153_regression L.solvers hL.lstsq]
  by_cases hwt : wt ∉ ["rademacher", "webb", "mammen"]
  · rw [if_pos hwt, if_pos hwt]; rfl
  rw [if_neg hwt, if_neg hwt]
  by_cases hcl : Vcov.nClusters ids < 2
  · rw [if_pos hcl, if_pos hcl]; rfl
  · rw [if_neg hcl, if_neg hcl]
    cases LinReg.fit L.solvers (⟨true, some (fun i => some (ids i)), none, false⟩ : LinReg.Opts ι C) (L.redundant X) X y 0 with
    | error e => rfl
    | ok f =>
      cases draws.mapM (replicate L X (points L X (WildBoot.restricted X y j null)) ids j null) with
      | error e => rfl
      | ok reps =>
        have h1 : (reps.map (fun p : ℝ × ℝ => (c * p.1, p.2))).map Prod.fst = (reps.map Prod.fst).map (c * ·) := by simp only [List.map_map]; rfl
        have h2 : (reps.map (fun p : ℝ × ℝ => (c * p.1, p.2))).map Prod.snd = reps.map Prod.snd := by simp only [List.map_map]; rfl
        simp only [Except.map, List.map_eq_nil_iff, h1, h2, entry_mul, BootStats.var1_mul, BootStats.percentileCI_mul c hc]
        by_cases he : reps = []
        · rw [if_pos he, if_pos he]
        · rw [if_neg he, if_neg he]
          cases entry f j with
          | none => rfl
          | some p => simp only [Option.map_some, tOrig_mul _ _ _ c hc, Result.inUnits]

/-- A whole report in other units. -/
noncomputable def Report.inUnits (c : ℝ) (R : Report) : Report := { R with main := R.main.inUnits c }

theorem override_mul (c : ℝ) (hc : 0 < c) (R : DidFit.Result ℝ) (B : WildBoot.Result) :
    override (R.inUnits c) (Result.inUnits c B) = Report.inUnits c (override R B) := by
  have hs : LinReg.toExt ((B.se2.map (c ^ 2 * ·)).map Real.sqrt) = LinReg.inUnits c (LinReg.toExt (B.se2.map Real.sqrt)) := by
    cases B.se2 with
    | none => rfl
    | some v => exact congrArg Ext.fin (sqrt_mul' c v hc)
  unfold override Report.inUnits Result.inUnits DidFit.Result.inUnits
  simp only [hs, List.length_map]
  rfl

/-- C153. DifferenceInDifferences.fit with either kind of inference. -/
theorem C153_did_wild (L : TwfeFit.Lib ι ℝ) (hL : MultiFit.Homogeneous L) (robust strict : Bool) (alpha : ℝ) (boot : Option (String × List (C → ℝ)))
    (D : DidFull.Data ι C ℝ) (ids : Option (ι → C)) (c : ℝ) (hc : 0 < c) :
    fit L robust strict alpha boot (D.inUnits c) ids = (fit L robust strict alpha boot D ids).map (Report.inUnits c) := by
  have ha : ∀ o : Option (ι → C), DidFull.fit L robust strict alpha (clusterBy (D.inUnits c) o)
      = (DidFull.fit L robust strict alpha (clusterBy D o)).map (DidFit.Result.inUnits c) := fun o =>
    DidFull.C153_did L hL robust strict alpha (clusterBy D o) c hc
  have hplain : ∀ o : Option (ι → C),
      (match DidFull.fit L robust strict alpha (clusterBy (D.inUnits c) o) with
        | .error e => .error (.did e)
        | .ok R => .ok ⟨R, none⟩ : Except FitErr Report)
      = (match DidFull.fit L robust strict alpha (clusterBy D o) with
        | .error e => .error (.did e)
        | .ok R => .ok ⟨R, none⟩ : Except FitErr Report).map (Report.inUnits c) := by
    intro o
    rw [ha o]
    cases DidFull.fit L robust strict alpha (clusterBy D o) <;> rfl
  cases boot with
  | none => exact hplain ids
  | some b =>
    obtain ⟨wt, draws⟩ := b
    cases ids with
    | none => exact hplain none
    | some g =>
      have hw : wild L wt (DidFull.matrix (DidFull.flag D.d) (DidFull.flag D.t) (DidFull.extras D)) (DidFull.num (DidFull.outcome (D.inUnits c))) g
          (Fin.castAdd (DidFull.extras D).length 3) 0 alpha draws
          = (wild L wt (DidFull.matrix (DidFull.flag D.d) (DidFull.flag D.t) (DidFull.extras D)) (DidFull.num (DidFull.outcome D)) g
              (Fin.castAdd (DidFull.extras D).length 3) 0 alpha draws).map (Result.inUnits c) := by
        have := C153_wild L hL wt (DidFull.matrix (DidFull.flag D.d) (DidFull.flag D.t) (DidFull.extras D)) (DidFull.num (DidFull.outcome D)) g
          (Fin.castAdd (DidFull.extras D).length 3) 0 alpha draws c hc
        rw [mul_zero] at this
        rw [DidFull.outcome_mul, DidFull.num_mul]
        exact this
      show (match DidFull.fit L robust strict alpha (clusterBy (D.inUnits c) none) with
        | .error e => .error (.did e)
        | .ok R =>
          match wild L wt (DidFull.matrix (DidFull.flag D.d) (DidFull.flag D.t) (DidFull.extras D)) (DidFull.num (DidFull.outcome (D.inUnits c))) g
              (Fin.castAdd (DidFull.extras D).length 3) 0 alpha draws with
          | .error e => .error (.boot e)
          | .ok B => .ok (override R B) : Except FitErr Report)
        = (match DidFull.fit L robust strict alpha (clusterBy D none) with
        | .error e => .error (.did e)
        | .ok R =>
          match wild L wt (DidFull.matrix (DidFull.flag D.d) (DidFull.flag D.t) (DidFull.extras D)) (DidFull.num (DidFull.outcome D)) g
              (Fin.castAdd (DidFull.extras D).length 3) 0 alpha draws with
          | .error e => .error (.boot e)
          | .ok B => .ok (override R B) : Except FitErr Report).map (Report.inUnits c)
      rw [hw, ha none]
      cases DidFull.fit L robust strict alpha (clusterBy D none) with
      | error e => rfl
      | ok R =>
        cases wild L wt (DidFull.matrix (DidFull.flag D.d) (DidFull.flag D.t) (DidFull.extras D)) (DidFull.num (DidFull.outcome D)) g
            (Fin.castAdd (DidFull.extras D).length 3) 0 alpha draws with
        | error e => rfl
        | ok B => exact congrArg Except.ok (override_mul c hc R B)

/-- Four rows with clusters and two draws of weights: wild bootstrap in cents instead of dollars. -/
example : ∃ L : TwfeFit.Lib (Fin 4) ℝ, TwfeFit.Works L ∧ ∀ y : Fin 4 → Option ℝ,
    fit L true false (1/20) (some ("rademacher", [fun g => if g = 0 then 1 else -1, fun _ => 1]))
        (DidFull.Data.inUnits 100 ⟨y, fun i => some (if i.val < 2 then 1 else 0), fun i => some (if i.val % 2 = 0 then 1 else 0), [], [], [], none⟩ : DidFull.Data (Fin 4) (Fin 2) ℝ)
        (some (fun i => if i.val < 2 then 0 else 1))
      = (fit L true false (1/20) (some ("rademacher", [fun g => if g = 0 then 1 else -1, fun _ => 1]))
        (⟨y, fun i => some (if i.val < 2 then 1 else 0), fun i => some (if i.val % 2 = 0 then 1 else 0), [], [], [], none⟩ : DidFull.Data (Fin 4) (Fin 2) ℝ)
        (some (fun i => if i.val < 2 then 0 else 1))).map (Report.inUnits 100) := by
  obtain ⟨L, hL, hH⟩ := MultiFit.exists_homogeneous (ι := Fin 4)
  exact ⟨L, hL, fun y => C153_did_wild L hH _ _ _ _ _ _ 100 (by norm_num)⟩

end DiffDiff.WildLin

namespace DiffDiff.WildTwfe
open TwfeFit (Lib Data design outcome adjustment treatedUnits nUnique)
open WildLin (Report wild override)

variable {ι U T C : Type*} [Fintype ι] [DecidableEq ι] [DecidableEq U] [DecidableEq T] [DecidableEq C]

/-- C153. TwoWayFixedEffects.fit with wild bootstrap inference. -/
theorem C153_twfe_wild {m : ℕ} (L : Lib ι ℝ) (hL : MultiFit.Homogeneous L) (strict : Bool) (alpha : ℝ) (wt : String) (draws : List (U ⊕ C → ℝ))
    (D : Data ι U T C ℝ m) (ids : Option (ι → C)) (c : ℝ) (hc : 0 < c) :
    fit L strict alpha wt draws (D.inUnits c) ids = (fit L strict alpha wt draws D ids).map (WildLin.Report.inUnits c) := by
  have hw := WildLin.C153_wild L hL wt (design D) (outcome D) (labels D ids) 1 0 alpha draws c hc
  rw [mul_zero] at hw
  have hd : design (D.inUnits c) = design D := rfl
  have ha : adjustment (D.inUnits c) = adjustment D := rfl
  have hl : labels (D.inUnits c) ids = labels D ids := rfl
  have ht : treatedUnits (D.inUnits c) = treatedUnits D := rfl
  have hu : (D.inUnits c).unit = D.unit := rfl
  unfold fit
  rw [hd, ha, hl, ht, hu, TwfeFit.outcome_mul, hw, LinReg.C153_regression L.solvers hL.lstsq]
  cases LinReg.fit L.solvers (⟨true, none, none, strict⟩ : LinReg.Opts ι C) (L.redundant (design D)) (design D) (outcome D) (adjustment D) with
  | error e => rfl
  | ok f =>
    have hb : (f.inUnits c).coef 1 = (f.coef 1).map (c * ·) := rfl
    simp only [Except.map]
    rw [hb]
    cases f.coef 1 with
    | none => rfl
    | some b =>
      simp only [Option.map_some]
      cases wild L wt (design D) (outcome D) (labels D ids) 1 0 alpha draws with
      | error e => rfl
      | ok B =>
        have hr : LinReg.rsq (f.inUnits c) (fun i => c * outcome D i) false = LinReg.rsq f (outcome D) false := LinReg.rSquared_mul c hc.ne' _ _ _ _
        simp only [Except.ok.injEq, hr]
        rw [← WildLin.override_mul c hc]
        rfl

/-- Two units in two periods, one treated in the second, analytical and wild bootstrap inference: in cents instead of dollars. -/
example : ∃ L : Lib (Fin 2 × Fin 2) ℝ, TwfeFit.Works L ∧ ∀ y : Fin 2 × Fin 2 → ℝ,
    TwfeFit.fit L false (1/20) (TwfeFit.Data.inUnits 100 ⟨y, fun i => i.1.val, fun i => i.2, fun t => t.val, fun i => i.1, Fin.elim0, none⟩ : Data (Fin 2 × Fin 2) (Fin 2) (Fin 2) ℕ ℝ 0)
      = (TwfeFit.fit L false (1/20) (⟨y, fun i => i.1.val, fun i => i.2, fun t => t.val, fun i => i.1, Fin.elim0, none⟩ : Data (Fin 2 × Fin 2) (Fin 2) (Fin 2) ℕ ℝ 0)).map
          (DidFit.Result.inUnits 100) ∧
    fit L false (1/20) "webb" [fun _ => 1, fun _ => -1]
        (TwfeFit.Data.inUnits 100 ⟨y, fun i => i.1.val, fun i => i.2, fun t => t.val, fun i => i.1, Fin.elim0, none⟩ : Data (Fin 2 × Fin 2) (Fin 2) (Fin 2) ℕ ℝ 0) none
      = (fit L false (1/20) "webb" [fun _ => 1, fun _ => -1]
        (⟨y, fun i => i.1.val, fun i => i.2, fun t => t.val, fun i => i.1, Fin.elim0, none⟩ : Data (Fin 2 × Fin 2) (Fin 2) (Fin 2) ℕ ℝ 0) none).map (WildLin.Report.inUnits 100) := by
  obtain ⟨L, hL, hH⟩ := MultiFit.exists_homogeneous (ι := Fin 2 × Fin 2)
  exact ⟨L, hL, fun y => ⟨TwfeFit.C153_twfe L hH _ _ _ 100 (by norm_num), C153_twfe_wild L hH _ _ _ _ _ _ 100 (by norm_num)⟩⟩

end DiffDiff.WildTwfe
