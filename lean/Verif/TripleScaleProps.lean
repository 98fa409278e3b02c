/-
Property C153 (TripleDifference and MultiPeriodDiD): the outcome in other units.
-/
import Verif.LinRegScale
import Verif.TripleFitProps
import Verif.MultiFitProps

set_option linter.unusedSectionVars false
set_option linter.unusedVariables false

namespace DiffDiff.TripleFit
open TripleDiff Matrix
open LinReg (inUnits)

variable {K : Type*} [Field K] [LinearOrder K] [IsStrictOrderedRing K]
variable {ι C : Type*} [Fintype ι] [DecidableEq ι] [DecidableEq C]

/-- The external regressions are homogeneous in the outcome, the square root of `c² v` is `c` times that of `v`. -/
structure Homogeneous (L : Lib ι K) : Prop where
  lstsq : LinReg.Homogeneous L.solvers
  cell : ∀ {k : ℕ} (Z : ι → Fin k → K) (x : ι → K) (S : Finset ι) (c : K) (y : ι → K) (i : ι), L.cellFit Z x S (fun i => c * y i) i = c * L.cellFit Z x S y i
  sqrt : ∀ c v : K, 0 < c → L.sqrt (c ^ 2 * v) = c * L.sqrt v

/-- A report in other units. -/
def Result.inUnits (c : K) (R : Result K) : Result K :=
  { R with att := LinReg.inUnits c R.att, se := LinReg.inUnits c R.se, ci := (LinReg.inUnits c R.ci.1, LinReg.inUnits c R.ci.2)
           groupMeans := fun g p t => c * R.groupMeans g p t }

def Est.inUnits (c : K) (e : Est K) : Est K := { e with att := LinReg.inUnits c e.att, se := LinReg.inUnits c e.se }

theorem mean_mul (c : K) (v : ι → K) (S : Finset ι) : mean (fun i => c * v i) S = c * mean v S := by
  unfold mean; rw [← Finset.mul_sum, mul_div_assoc]

theorem varOn_mul (c : K) (v : ι → K) (S : Finset ι) : varOn (fun i => c * v i) S = c ^ 2 * varOn v S := by
  unfold varOn
  rw [mean_mul, ← mul_div_assoc, Finset.mul_sum]
  congr 1
  exact Finset.sum_congr rfl fun i _ => by ring

theorem combine_mul (c : K) (m : Bool → Bool → Bool → K) : combine (fun g p t => c * m g p t) = c * combine m := by
  unfold combine; ring

theorem weightedMean_mul (c : K) (v w : ι → K) : weightedMean (fun i => c * v i) w = c * weightedMean v w := by
  unfold weightedMean
  split_ifs
  · rw [mul_zero]
  · rw [← mul_div_assoc, Finset.mul_sum]
    congr 1
    exact Finset.sum_congr rfl fun i _ => by ring

theorem ipwMean_mul (c : K) (y : ι → K) (G P T : ι → Bool) (q : Bool → Bool → ι → K) (g p t : Bool) :
    ipwMean (fun i => c * y i) G P T q g p t = c * ipwMean y G P T q g p t := by
  unfold ipwMean
  split_ifs
  · exact mean_mul c y _
  · rw [mul_zero]
  · exact weightedMean_mul c y _

theorem ipwAtt_mul (c trim : K) (y : ι → K) (G P T : ι → Bool) (pc : Bool → Bool → ι → K) :
    ipwAtt trim (fun i => c * y i) G P T pc = c * ipwAtt trim y G P T pc := by
  unfold ipwAtt
  rw [← combine_mul]
  congr 1
  funext g p t
  exact ipwMean_mul c y G P T _ g p t

theorem ipwVar_mul (c trim : K) (y : ι → K) (G P T : ι → Bool) (pc : Bool → Bool → ι → K) :
    ipwVar trim (fun i => c * y i) G P T pc = c ^ 2 * ipwVar trim y G P T pc := by
  unfold ipwVar
  rw [ipwAtt_mul, ← mul_div_assoc, ← varOn_mul]
  congr 2
  funext i
  unfold ipwInfl
  cases G i <;> cases P i <;> dsimp only <;> ring

theorem infl_mul (c : K) (y m : ι → K) (G P : ι → Bool) (q : Bool → Bool → ι → K) (g p : Bool) (i : ι) :
    infl (fun i => c * y i) (fun i => c * m i) G P q g p i = c * infl y m G P q g p i := by
  unfold infl
  split_ifs <;> ring

theorem drAtt_mul (c trim : K) (y m : ι → K) (G P T : ι → Bool) (pc : Bool → Bool → ι → K) :
    drAtt trim (fun i => c * y i) (fun i => c * m i) G P T pc = c * drAtt trim y m G P T pc := by
  unfold drAtt
  rw [← combine_mul]
  congr 1
  funext g p t
  rw [← mean_mul]
  congr 1
  funext i
  exact infl_mul c y m G P _ g p i

theorem component_mul (c : K) (y : ι → K) (S : Finset ι) : component (fun i => c * y i) S = c ^ 2 * component y S := by
  unfold component
  split_ifs
  · rw [varOn_mul, mul_div_assoc]
  · simp

theorem drVar_mul (c : K) (y : ι → K) (G P T : ι → Bool) : drVar (fun i => c * y i) G P T = c ^ 2 * drVar y G P T := by
  unfold drVar
  simp only [component_mul, ← Finset.mul_sum]

theorem mu_mul (L : Lib ι K) (hL : Homogeneous L) (c : K) (strict : Bool) (y : ι → K) (G P T : ι → Bool) (cov : Cov ι K) :
    mu L strict (fun i => c * y i) G P T cov = fun i => c * mu L strict y G P T cov i := by
  funext i
  cases cov with
  | none => exact mean_mul c y _
  | some kz =>
    obtain ⟨k, Z⟩ := kz
    simp only [mu]
    split_ifs
    · exact mean_mul c y _
    · exact hL.cell _ _ _ _ _ _
    · rfl

theorem rsqMu_mul (c : K) (hc : 0 < c) (y m : ι → K) : rsqMu (fun i => c * y i) (fun i => c * m i) = rsqMu y m := by
  have h1 : ∑ i, (c * y i - c * m i) ^ 2 = c ^ 2 * ∑ i, (y i - m i) ^ 2 := by rw [Finset.mul_sum]; exact Finset.sum_congr rfl fun i _ => by ring
  have h2 : ∑ i, (c * y i - c * mean y Finset.univ) ^ 2 = c ^ 2 * ∑ i, (y i - mean y Finset.univ) ^ 2 := by
    rw [Finset.mul_sum]; exact Finset.sum_congr rfl fun i _ => by ring
  have hc2 : 0 < c ^ 2 := pow_pos hc 2
  unfold rsqMu
  simp only [mean_mul, h1, h2, mul_pos_iff_of_pos_left hc2, mul_div_mul_left _ _ hc2.ne']

theorem runReg_mul (L : Lib ι K) (hL : Homogeneous L) (o : Opts ι C K) {m : ℕ} (X : Matrix ι (Fin m) K) (j : Fin m) (y : ι → K) (c : K) (hc : 0 < c) :
    runReg L o X j (fun i => c * y i) = (runReg L o X j y).map (Est.inUnits c) := by
  unfold runReg
  rw [LinReg.C153_regression L.solvers hL.lstsq]
  cases LinReg.fit L.solvers (⟨o.robust, none, none, o.strict⟩ : LinReg.Opts ι C) (L.dropped X) X y 0 with
  | error e => rfl
  | ok f =>
    simp only [Except.map, Est.inUnits, Except.ok.injEq, Est.mk.injEq, and_true]
    refine ⟨LinReg.toExt_mul c _, ?_, congrArg some (LinReg.rSquared_mul c hc.ne' y f.resid false _)⟩
    show LinReg.toExt (((f.vcov (j, j)).map (c ^ 2 * ·)).map L.sqrt) = LinReg.inUnits c (LinReg.toExt ((f.vcov (j, j)).map L.sqrt))
    cases f.vcov (j, j) with
    | none => rfl
    | some v => exact congrArg Ext.fin (hL.sqrt c v hc)

theorem estimate_mul (L : Lib ι K) (hL : Homogeneous L) (o : Opts ι C K) (y : ι → K) (G P T : ι → Bool) (cov : Cov ι K) (c : K) (hc : 0 < c) :
    estimate L o (fun i => c * y i) G P T cov = (estimate L o y G P T cov).map (Est.inUnits c) := by
  unfold estimate
  cases o.method with
  | reg =>
    cases cov with
    | none => exact runReg_mul L hL o _ _ y c hc
    | some kz => exact runReg_mul L hL o _ _ y c hc
  | ipw =>
    simp only [ipw, ipwAtt_mul, ipwVar_mul, hL.sqrt c _ hc]
    rfl
  | dr =>
    simp only [dr, mu_mul L hL, drAtt_mul, drVar_mul, hL.sqrt c _ hc, rsqMu_mul c hc]
    rfl

/-- C153. TripleDifference.fit on outcomes multiplied by `c > 0`, for every method and with or without covariates: estimate, standard error, interval and
cell means are multiplied by `c`; t, p, R squared, scores and counts are unchanged; errors are the same. -/
theorem C153_triple (L : Lib ι K) (hL : Homogeneous L) (o : Opts ι C K) (y : ι → K) (G P T : ι → Bool) (cov : Cov ι K) (c : K) (hc : 0 < c) :
    fit L o (fun i => c * y i) G P T cov = (fit L o y G P T cov).map (Result.inUnits c) := by
  unfold fit
  by_cases ho : Occupied G P T
  · rw [if_neg (not_not.2 ho), if_neg (not_not.2 ho), estimate_mul L hL o y G P T cov c hc]
    cases estimate L o y G P T cov with
    | error e => rfl
    | ok e =>
      have ht : (Inference.saFields (L.tD (df (Fintype.card ι) (nCov cov))) (LinReg.inUnits c e.att) (LinReg.inUnits c e.se) o.alpha)
          = ((Inference.saFields (L.tD (df (Fintype.card ι) (nCov cov))) e.att e.se o.alpha).1,
            (Inference.saFields (L.tD (df (Fintype.card ι) (nCov cov))) e.att e.se o.alpha).2.1,
            (LinReg.inUnits c (Inference.saFields (L.tD (df (Fintype.card ι) (nCov cov))) e.att e.se o.alpha).2.2.1,
             LinReg.inUnits c (Inference.saFields (L.tD (df (Fintype.card ι) (nCov cov))) e.att e.se o.alpha).2.2.2)) := by
        unfold Inference.saFields
        simp only [LinReg.lt_inUnits c hc, LinReg.div_inUnits c hc, LinReg.confInt_inUnits]
      simp only [Except.map, Est.inUnits, ht, mean_mul]
      rfl
  · rw [if_pos ho, if_pos ho]; rfl

/-- The hypotheses hold for a library over the real numbers. -/
theorem exists_homogeneous : ∃ L : Lib ι ℝ, Good L ∧ Homogeneous L := by
  obtain ⟨E, hE, hH⟩ := LinReg.exists_homogeneous (ι := ι) (K := ℝ)
  classical
  exact ⟨{ solvers := E, sqrt := Real.sqrt, tD := fun _ => ⟨fun x => x, fun x => x⟩, nD := ⟨fun x => x, fun x => x⟩
           dropped := fun {m} X => if (Xᵀ * X).det = 0 then List.finRange m else []
           logit := fun _ _ => none
           redundant := fun _ _ _ => true
           cellFit := fun _ _ _ y => y },
    ⟨hE, fun X hX => if_neg hX⟩, hH, fun _ _ _ _ _ _ => rfl, fun c v hc => by
      show Real.sqrt (c ^ 2 * v) = c * Real.sqrt v
      rw [Real.sqrt_mul (by positivity), Real.sqrt_sq hc.le]⟩

/-- Sixteen rows, dollars and cents: the fit succeeds and the estimate is a hundred times the old one. -/
example : ∃ (L : Lib (Fin 8 × Fin 2) ℝ) (R R' : Result ℝ), Good L ∧ Homogeneous L ∧
    fit L (⟨.dr, true, none, 1/20, 1/100, false⟩ : Opts (Fin 8 × Fin 2) ℕ ℝ) (fun i => ((exY i : ℚ) : ℝ)) exG exP exT none = .ok R ∧
    fit L (⟨.dr, true, none, 1/20, 1/100, false⟩ : Opts (Fin 8 × Fin 2) ℕ ℝ) (fun i => 100 * ((exY i : ℚ) : ℝ)) exG exP exT none = .ok R' ∧
    R'.att = LinReg.inUnits 100 R.att ∧ R'.t = R.t := by
  obtain ⟨L, hL, hH⟩ := exists_homogeneous (ι := Fin 8 × Fin 2)
  have h := C153_triple L hH (⟨.dr, true, none, 1/20, 1/100, false⟩ : Opts (Fin 8 × Fin 2) ℕ ℝ) (fun i => ((exY i : ℚ) : ℝ)) exG exP exT none 100 (by norm_num)
  have ho : Occupied exG exP exT := by decide +kernel
  cases hf : fit L (⟨.dr, true, none, 1/20, 1/100, false⟩ : Opts (Fin 8 × Fin 2) ℕ ℝ) (fun i => ((exY i : ℚ) : ℝ)) exG exP exT none with
  | error e =>
    unfold fit at hf
    rw [if_neg (not_not.2 ho)] at hf
    cases hf
  | ok R => exact ⟨L, R, R.inUnits 100, hL, hH, hf, by rw [h, hf]; rfl, rfl, rfl⟩

end DiffDiff.TripleFit

namespace DiffDiff.MultiFit
open MultiPeriod
open LinReg (inUnits)

variable {K : Type*} [Field K] [LinearOrder K] [IsStrictOrderedRing K]
variable {ι C : Type*} [Fintype ι] [DecidableEq ι] [DecidableEq C]

/-- Homogeneous solver and square root. -/
structure Homogeneous (L : TwfeFit.Lib ι K) : Prop where
  lstsq : LinReg.Homogeneous L.solvers
  sqrt : ∀ c v : K, 0 < c → L.sqrt (c ^ 2 * v) = c * L.sqrt v

def Effect.inUnits (c : K) (e : Effect K) : Effect K :=
  { e with effect := LinReg.inUnits c e.effect, se := LinReg.inUnits c e.se, ci := (LinReg.inUnits c e.ci.1, LinReg.inUnits c e.ci.2) }

/-- A report in other units. -/
def Result.inUnits (c : K) (R : Result K) : Result K :=
  { R with effects := R.effects.map (Effect.inUnits c), att := LinReg.inUnits c R.att, se := LinReg.inUnits c R.se
           ci := (LinReg.inUnits c R.ci.1, LinReg.inUnits c R.ci.2) }

theorem absorbed_mul (c : K) (gs : List (ι → ℤ)) : ∀ x : ι → K, absorbed gs (fun i => c * x i) = fun i => c * absorbed gs x i := by
  unfold absorbed
  induction gs with
  | nil => intro x; rfl
  | cons g gs ih =>
    intro x
    simp only [List.foldl_cons]
    rw [← ih]
    congr 1
    funext i
    simp only [Within.demean, Within.groupMean, ← Finset.mul_sum]
    ring

theorem regress_mul (L : TwfeFit.Lib ι K) (hL : Homogeneous L) (robust strict : Bool) (D : Data ι C K) (cs : List Col) (c : K) :
    regress L robust strict { D with y := fun i => c * D.y i } cs = (regress L robust strict D cs).map (LinReg.Fit.inUnits c) := by
  have ho : outcome { D with y := fun i => c * D.y i } = fun i => c * outcome D i := absorbed_mul c D.absorb D.y
  unfold regress
  rw [ho]
  show (match LinReg.fit L.solvers (⟨true, D.cluster, none, strict⟩ : LinReg.Opts ι C) (L.redundant (matrix D cs)) (matrix D cs) (fun i => c * outcome D i)
    (adjustment D.absorb) with
  | .error e => .error e
  | .ok f =>
    if robust || D.cluster.isSome then .ok f
    else LinReg.fit L.solvers (⟨false, none, none, strict⟩ : LinReg.Opts ι C) (L.redundant (matrix D cs)) (matrix D cs) (fun i => c * outcome D i) (adjustment D.absorb) : Except LinReg.Err (LinReg.Fit ι cs.length K)) = _
  rw [LinReg.C153_regression L.solvers hL.lstsq, LinReg.C153_regression L.solvers hL.lstsq]
  cases LinReg.fit L.solvers (⟨true, D.cluster, none, strict⟩ : LinReg.Opts ι C) (L.redundant (matrix D cs)) (matrix D cs) (outcome D) (adjustment D.absorb) with
  | error e => rfl
  | ok f =>
    simp only [Except.map]
    split_ifs
    · rfl
    · rfl

theorem root_mul (r : K → K) (hr : ∀ c v : K, 0 < c → r (c ^ 2 * v) = c * r v) (c : K) (hc : 0 < c) (v : Option K) :
    root r (v.map (c ^ 2 * ·)) = inUnits c (root r v) := by
  cases v with
  | none => rfl
  | some v =>
    have : c ^ 2 * v < 0 ↔ v < 0 := by
      have := pow_pos hc 2
      constructor <;> intro h <;> nlinarith
    simp only [Option.map_some, root, this]
    split_ifs
    · rfl
    · exact congrArg Ext.fin (hr c v hc)

theorem ciOf_mul (L : DidFit.Lib ι K) (df : ℤ) (est se : Ext K) (alpha c : K) :
    ciOf L df (inUnits c est) (inUnits c se) alpha = (inUnits c (ciOf L df est se alpha).1, inUnits c (ciOf L df est se alpha).2) := by
  unfold ciOf
  split_ifs
  · exact LinReg.confInt_inUnits c _ _ _ _
  · rfl

theorem effect_mul (L : DidFit.Lib ι K) (hr : ∀ c v : K, 0 < c → L.sqrt (c ^ 2 * v) = c * L.sqrt v) (alpha : K) (df : ℤ) (coef : ℕ → Option K)
    (vcov : ℕ → ℕ → Option K) (j : ℕ) (p : ℤ) (c : K) (hc : 0 < c) :
    effect L alpha df (fun j => (coef j).map (c * ·)) (fun i j => (vcov i j).map (c ^ 2 * ·)) j p = (effect L alpha df coef vcov j p).inUnits c := by
  simp only [effect, Effect.inUnits, LinReg.toExt_mul, root_mul L.sqrt hr c hc, LinReg.div_inUnits c hc, ciOf_mul]

theorem allSome_map (f : K → K) (l : List (Option K)) : allSome (l.map (Option.map f)) = (allSome l).map (List.map f) := by
  induction l with
  | nil => rfl
  | cons x l ih =>
    cases x with
    | none => rfl
    | some x =>
      simp only [List.map_cons, Option.map_some, allSome, ih]
      cases allSome l <;> rfl

theorem sum_mul_list (c : K) (l : List K) : (l.map (c * ·)).sum = c * l.sum := by
  induction l with
  | nil => simp
  | cons x l ih => simp [ih, mul_add]

theorem average_mul (L : DidFit.Lib ι K) (hr : ∀ c v : K, 0 < c → L.sqrt (c ^ 2 * v) = c * L.sqrt v) (alpha : K) (df : ℤ) (coef : ℕ → Option K)
    (vcov : ℕ → ℕ → Option K) (js : List ℕ) (c : K) (hc : 0 < c) :
    average L alpha df (fun j => (coef j).map (c * ·)) (fun i j => (vcov i j).map (c ^ 2 * ·)) js
      = (inUnits c (average L alpha df coef vcov js).1, inUnits c (average L alpha df coef vcov js).2.1, (average L alpha df coef vcov js).2.2.1,
          (average L alpha df coef vcov js).2.2.2.1,
          (inUnits c (average L alpha df coef vcov js).2.2.2.2.1, inUnits c (average L alpha df coef vcov js).2.2.2.2.2)) := by
  have e1 : js.map (fun j => (coef j).map (c * ·)) = (js.map coef).map (Option.map (c * ·)) := by rw [List.map_map]; rfl
  have e2 : js.flatMap (fun i => js.map (fun j => (vcov i j).map (c ^ 2 * ·))) = (js.flatMap (fun i => js.map (fun j => vcov i j))).map (Option.map (c ^ 2 * ·)) := by
    rw [List.map_flatMap]; simp only [List.map_map]; rfl
  unfold average
  rw [e1, e2, allSome_map, allSome_map]
  cases allSome (js.map coef) with
  | none => rfl
  | some es =>
    cases allSome (js.flatMap (fun i => js.map (fun j => vcov i j))) with
    | none =>
      simp only [Option.map_some, Option.map_none, sum_mul_list, List.length_map, mul_div_assoc]
      rfl
    | some vs =>
      have hn : ∀ w : K, c ^ 2 * w < 0 ↔ w < 0 := by
        intro w
        have := pow_pos hc 2
        constructor <;> intro h <;> nlinarith
      have hp : ∀ w : K, 0 < c * w ↔ 0 < w := fun w => mul_pos_iff_of_pos_left hc
      simp only [Option.map_some, sum_mul_list, List.length_map, mul_div_assoc, hn, hr c _ hc, hp]
      split_ifs
      · rfl
      · refine Prod.ext rfl (Prod.ext rfl (Prod.ext ?_ (Prod.ext ?_ ?_)))
        · exact LinReg.div_inUnits c hc (.fin _) (.fin _)
        · exact congrArg (pOf L df) (LinReg.div_inUnits c hc (.fin _) (.fin _))
        · exact ciOf_mul L df (.fin _) (.fin _) alpha c
      · rfl

theorem at1_mul {k : ℕ} (f : LinReg.Fit ι k K) (c : K) : at1 (f.inUnits c) = fun j => (at1 f j).map (c * ·) := by
  funext j
  unfold at1
  split_ifs <;> rfl

theorem at2_mul {k : ℕ} (f : LinReg.Fit ι k K) (c : K) : at2 (f.inUnits c) = fun i j => (at2 f i j).map (c ^ 2 * ·) := by
  funext i j
  unfold at2
  split_ifs <;> rfl

theorem report_mul (L : TwfeFit.Lib ι K) (hL : Homogeneous L) (alpha : K) (D : Data ι C K) (pre post : List ℤ) (r : ℤ) (coef : ℕ → Option K)
    (vcov : ℕ → ℕ → Option K) (df : ℤ) (u : ι → K) (c : K) (hc : 0 < c) :
    report L.toLib alpha { D with y := fun i => c * D.y i } pre post r (fun j => (coef j).map (c * ·)) (fun i j => (vcov i j).map (c ^ 2 * ·)) df
      (fun i => c * u i) = (report L.toLib alpha D pre post r coef vcov df u).inUnits c := by
  have ho : outcome { D with y := fun i => c * D.y i } = fun i => c * outcome D i := absorbed_mul c D.absorb D.y
  unfold report
  simp only [average_mul L.toLib hL.sqrt alpha _ _ _ _ c hc, effect_mul L.toLib hL.sqrt alpha _ _ _ _ _ c hc, ho,
    LinReg.rSquared_mul c hc.ne', Result.inUnits, List.map_map]
  rfl

/-- C153. MultiPeriodDiD.fit on outcomes multiplied by `c > 0`, with any covariates, fixed effects, absorbed columns and covariance option: all effects,
standard errors and intervals are multiplied by `c`; t, p, R squared and counts are unchanged; errors are the same. -/
theorem C153_multi (L : TwfeFit.Lib ι K) (hL : Homogeneous L) (robust strict : Bool) (alpha : K) (D : Data ι C K) (c : K) (hc : 0 < c) :
    fit L robust strict alpha { D with y := fun i => c * D.y i } = (fit L robust strict alpha D).map (Result.inUnits c) := by
  unfold fit
  dsimp only
  cases classify (values D.t) D.post D.ref with
  | error e => rfl
  | ok x =>
    obtain ⟨pre, post, r⟩ := x
    dsimp only
    have hg : regress L robust strict { D with y := fun i => c * D.y i } (cols { D with y := fun i => c * D.y i } post r)
        = (regress L robust strict D (cols D post r)).map (LinReg.Fit.inUnits c) := regress_mul L hL robust strict D (cols D post r) c
    rw [hg]
    cases regress L robust strict D (cols D post r) with
    | error e => rfl
    | ok f =>
      have h : report L.toLib alpha { D with y := fun i => c * D.y i } pre post r (at1 (f.inUnits c)) (at2 (f.inUnits c)) (f.inUnits c).df (f.inUnits c).resid
          = (report L.toLib alpha D pre post r (at1 f) (at2 f) f.df f.resid).inUnits c := by
        rw [at1_mul, at2_mul]
        exact report_mul L hL alpha D pre post r _ _ _ _ c hc
      exact congrArg Except.ok h

theorem exists_homogeneous : ∃ L : TwfeFit.Lib ι ℝ, TwfeFit.Works L ∧ Homogeneous L := by
  obtain ⟨E, hE, hH⟩ := LinReg.exists_homogeneous (ι := ι) (K := ℝ)
  exact ⟨⟨⟨E, Real.sqrt, fun _ => ⟨fun x => x, fun x => x⟩, ⟨fun x => x, fun x => x⟩⟩, fun X => []⟩,
    ⟨hE, fun X h => rfl, fun v hv => ⟨Real.sqrt_nonneg v, Real.sq_sqrt hv⟩⟩, hH, fun c v hc => by
      show Real.sqrt (c ^ 2 * v) = c * Real.sqrt v
      rw [Real.sqrt_mul (by positivity), Real.sqrt_sq hc.le]⟩

/-- Twelve rows (two treated and two control units in three periods): in cents instead of dollars. -/
example : ∃ L : TwfeFit.Lib (Fin 4 × Fin 3) ℝ, TwfeFit.Works L ∧ ∀ y : Fin 4 × Fin 3 → ℝ,
    fit L true false (1/20) (⟨fun i => 100 * y i, fun i => decide (i.1 < 2), fun i => i.2.val, [], [], [], none, some [2], none⟩ : Data (Fin 4 × Fin 3) ℕ ℝ)
      = (fit L true false (1/20) (⟨y, fun i => decide (i.1 < 2), fun i => i.2.val, [], [], [], none, some [2], none⟩ : Data (Fin 4 × Fin 3) ℕ ℝ)).map
          (Result.inUnits 100) := by
  obtain ⟨L, hL, hH⟩ := exists_homogeneous (ι := Fin 4 × Fin 3)
  exact ⟨L, hL, fun y => C153_multi L hH true false (1/20) ⟨y, fun i => decide (i.1 < 2), fun i => i.2.val, [], [], [], none, some [2], none⟩ 100 (by norm_num)⟩

end DiffDiff.MultiFit
