/-
Property C146, continued: covariates that are redundant after the transformation, row order, controls, for every choice of the columns dropped.
-/
import Verif.LinRegSpan
import Verif.TwfeFitProps
import Verif.RowOrderFit
import Mathlib.Tactic.NormNum

set_option linter.unusedSectionVars false
set_option linter.unusedVariables false

namespace DiffDiff.TwfeFit
open Matrix Vcov Within
open LinReg (Prunes SameSpan Pruned Identified)
open RowOrder (movedData)
open DidFit (change)

variable {K : Type*} [Field K] [LinearOrder K] [IsStrictOrderedRing K]
variable {ι ι' U T C : Type*} [Fintype ι] [DecidableEq ι] [Fintype ι'] [DecidableEq ι'] [DecidableEq U] [DecidableEq T] [DecidableEq C]

/-- The product of treatment and period is no combination of constant and demeaned covariates. -/
def Separate {c : ℕ} (D : Data ι U T C K c) : Prop :=
  ∀ (a : K) (γ : Fin c → K), ¬ ∀ i, D.treat i * D.num (D.time i) = a + ∑ j, γ j * within D.unit D.time (D.cov j) i

theorem design_sum {c : ℕ} (D : Data ι U T C K c) (v : Fin (c + 2) → K) (i : ι) :
    ∑ m, design D i m * v m = v 0 + (D.treat i * D.num (D.time i)) * v 1 + ∑ j, v j.succ.succ * within D.unit D.time (D.cov j) i := by
  rw [Fin.sum_univ_succ, Fin.sum_univ_succ]
  simp only [design, Fin.cons_zero, Fin.cons_succ, one_mul, post]
  rw [← add_assoc]
  congr 1
  exact Finset.sum_congr rfl fun j _ => mul_comm _ _

theorem separate_iff {c : ℕ} (D : Data ι U T C K c) : Separate D ↔ Identified (design D) 1 := by
  constructor
  · intro h v hv hc
    refine h (v 0) (fun j => v j.succ.succ) fun i => ?_
    have := hc i
    rw [design_sum, hv, mul_zero, add_zero] at this
    exact this
  · intro h a γ hc
    refine h (Fin.cons a (Fin.cons 0 γ)) rfl fun i => ?_
    rw [design_sum]
    show D.treat i * D.num (D.time i) = _
    rw [hc i]
    simp

/-- The regressions of two data sets with the same span, outcome and correction. -/
theorem reg_span {G : Type*} [DecidableEq G] {c c' : ℕ} {L : Lib ι K} (hL : Works L) (hP : Prunes L) {L' : Lib ι' K} (hL' : Works L') (hP' : Prunes L')
    (hsq : L'.sqrt = L.sqrt) (htD : L'.tD = L.tD) (hnD : L'.nD = L.nD) (e : ι' ≃ ι) {strict : Bool} {alpha : K} {D : Data ι U T C K c} {D' : Data ι' U T C K c'}
    (hadj : adjustment D' = adjustment D) (hy : outcome D' = fun i => outcome D (e i)) (hs : SameSpan e (design D) 1 (design D') 1) (hid : Separate D)
    (hk : c' = c ∨ (strict = false ∧ c' + 2 ≤ Fintype.card ι)) (o : LinReg.Opts ι G) (ho : o.strict = strict) (f : LinReg.Fit ι (c + 2) K)
    (hf : LinReg.fit L.solvers o (L.redundant (design D)) (design D) (outcome D) (adjustment D) = .ok f) :
    ∃ f', LinReg.fit L'.solvers (RowOrder.movedOpts e o) (L'.redundant (design D')) (design D') (outcome D') (adjustment D') = .ok f' ∧
      f'.coef 1 = f.coef 1 ∧ LinReg.infer L'.sqrt L'.tD L'.nD f' 1 none alpha none = LinReg.infer L.sqrt L.tD L.nD f 1 none alpha none ∧
      LinReg.rsq f' (outcome D') false = LinReg.rsq f (outcome D) false := by
  have hj := (separate_iff D).1 hid
  obtain ⟨f', hf'⟩ := LinReg.C124_same_runs L.solvers hL.solves L'.solvers hL'.solves o e _ _ (design D) (design D') (hP _) (hP' _) 1 1 hs hj
    (by rw [ho]; rcases hk with hk | hk
        · exact Or.inl (by rw [hk])
        · exact Or.inr hk) (outcome D) (outcome D') (adjustment D) (adjustment D') f hf
  refine ⟨f', hf', ?_⟩
  rw [hadj, hy] at hf'
  obtain ⟨g1, -, -, g4, g5⟩ := LinReg.C124_same_span L.solvers hL.solves L'.solvers hL'.solves o e _ _ (design D) (design D') (hP _) (hP' _) 1 1 hs hj
    (outcome D) (adjustment D) f f' hf hf'
  refine ⟨g1, by rw [hsq, htD, hnD]; exact g5 _ _ _ _ _ _, ?_⟩
  unfold LinReg.rsq
  rw [hy, show f'.resid = fun i => f.resid (e i) from funext g4]
  have : ∀ p q : ℕ, Vcov.rSquared (fun i => outcome D (e i)) (fun i => f.resid (e i)) false p = Vcov.rSquared (outcome D) f.resid false q := by
    intro p q
    rw [RowOrder.rsq_moved]
    unfold Vcov.rSquared
    simp
  exact this _ _

/-- Two data sets that lead to the same regression give the same report. -/
theorem fit_span {c c' : ℕ} {L : Lib ι K} (hL : Works L) (hP : Prunes L) {L' : Lib ι' K} (hL' : Works L') (hP' : Prunes L')
    (hsq : L'.sqrt = L.sqrt) (htD : L'.tD = L.tD) (hnD : L'.nD = L.nD) (e : ι' ≃ ι) {strict : Bool} {alpha : K} {D : Data ι U T C K c} {D' : Data ι' U T C K c'}
    (hu : ∀ i, D'.unit i = D.unit (e i)) (ht : ∀ i, D'.time i = D.time (e i)) (htr : ∀ i, D'.treat i = D.treat (e i))
    (hcl : D'.cluster = D.cluster.map (fun f i => f (e i))) (hy : ∀ i, outcome D' i = outcome D (e i)) (hs : SameSpan e (design D) 1 (design D') 1)
    (hid : Separate D) (hk : c' = c ∨ (strict = false ∧ c' + 2 ≤ Fintype.card ι)) {R : DidFit.Result K} (h : fit L strict alpha D = .ok R) :
    fit L' strict alpha D' = .ok R := by
  have hj := (separate_iff D).1 hid
  have hy' : outcome D' = fun i => outcome D (e i) := funext hy
  have hu' : D'.unit = fun i => D.unit (e i) := funext hu
  have ht' : D'.time = fun i => D.time (e i) := funext ht
  have hadj : adjustment D' = adjustment D := by
    unfold adjustment nUnique
    rw [hu', ht', RowOrder.image_moved, RowOrder.image_moved]
  have hnu : nUnique D'.unit = nUnique D.unit := by
    unfold nUnique
    rw [hu', RowOrder.image_moved]
  have htu : treatedUnits D' = treatedUnits D := by
    unfold treatedUnits
    rw [hu']
    ext u
    simp only [Finset.mem_image, Finset.mem_filter, Finset.mem_univ, true_and, htr]
    exact ⟨fun ⟨i, a, b⟩ => ⟨e i, a, b⟩, fun ⟨i, a, b⟩ => ⟨e.symm i, by simpa using a, by simpa using b⟩⟩
  unfold fit at h ⊢
  have hreg : ∀ f, regress L strict D = .ok f → ∃ f', regress L' strict D' = .ok f' ∧ f'.coef 1 = f.coef 1 ∧
      LinReg.infer L'.sqrt L'.tD L'.nD f' 1 none alpha none = LinReg.infer L.sqrt L.tD L.nD f 1 none alpha none ∧
      LinReg.rsq f' (outcome D') false = LinReg.rsq f (outcome D) false := by
    intro f hf
    unfold regress at hf ⊢
    rw [hcl]
    cases hc : D.cluster with
    | none =>
      rw [hc] at hf
      obtain ⟨f', hf', g⟩ := reg_span (alpha := alpha) hL hP hL' hP' hsq htD hnD e hadj hy' hs hid hk _ rfl f hf
      refine ⟨f', ?_, g⟩
      rw [← hf', hu']
      rfl
    | some ids =>
      rw [hc] at hf
      obtain ⟨f', hf', g⟩ := reg_span (alpha := alpha) hL hP hL' hP' hsq htD hnD e hadj hy' hs hid hk _ rfl f hf
      exact ⟨f', hf', g⟩
  cases hr : regress L strict D with
  | error er => rw [hr] at h; cases h
  | ok f =>
    rw [hr] at h
    obtain ⟨f', hf', g1, g2, g3⟩ := hreg f hr
    rw [hf']
    dsimp only at h ⊢
    rw [g1]
    cases hc : f.coef 1 with
    | none => rw [hc] at h; cases h
    | some b =>
      rw [hc] at h
      cases h
      dsimp only
      rw [g2, g3, hnu, htu, Fintype.card_congr e]

theorem span_of {c c' : ℕ} {D : Data ι U T C K c} {D' : Data ι U T C K c'} (hp : ∀ i, D'.treat i * D'.num (D'.time i) = D.treat i * D.num (D.time i))
    (h : ∀ j, ∃ (a : K) (γ : Fin c → K), ∀ i, within D'.unit D'.time (D'.cov j) i = a + ∑ l, γ l * within D.unit D.time (D.cov l) i)
    (v' : Fin (c' + 2) → K) : ∃ v : Fin (c + 2) → K, v 1 = v' 1 ∧ ∀ i, ∑ m, design D' i m * v' m = ∑ m, design D i m * v m := by
  choose a γ hγ using h
  refine ⟨Fin.cons (v' 0 + ∑ j, v' j.succ.succ * a j) (Fin.cons (v' 1) (fun l => ∑ j, v' j.succ.succ * γ j l)), rfl, fun i => ?_⟩
  rw [design_sum, design_sum, hp]
  simp only [Fin.cons_zero, Fin.cons_succ]
  have e1 : ∑ j, v' j.succ.succ * within D'.unit D'.time (D'.cov j) i =
      ∑ j, v' j.succ.succ * a j + ∑ l, (∑ j, v' j.succ.succ * γ j l) * within D.unit D.time (D.cov l) i := by
    simp only [hγ, mul_add, Finset.sum_add_distrib, Finset.mul_sum, Finset.sum_mul]
    congr 1
    rw [Finset.sum_comm]
    exact Finset.sum_congr rfl fun l _ => Finset.sum_congr rfl fun j _ => by ring
  rw [e1]
  show v' 0 + _ * v' 1 + _ = v' 0 + _ + _ * v' 1 + _
  ring

/-- C146. Covariates count only through the span of their transformed columns: other covariates (possibly more, redundant ones, under the default handling of
redundant columns) with the same span give the same report. -/
theorem C146_covariates {c c' : ℕ} (L : Lib ι K) (hL : Works L) (hP : Prunes L) (strict : Bool) (alpha : K) (D : Data ι U T C K c)
    (cov : Fin c' → ι → K) (hid : Separate D) (hk : c' = c ∨ (strict = false ∧ c' + 2 ≤ Fintype.card ι))
    (h1 : ∀ j, ∃ (a : K) (γ : Fin c → K), ∀ i, within D.unit D.time (cov j) i = a + ∑ l, γ l * within D.unit D.time (D.cov l) i)
    (h2 : ∀ j, ∃ (a : K) (γ : Fin c' → K), ∀ i, within D.unit D.time (D.cov j) i = a + ∑ l, γ l * within D.unit D.time (cov l) i)
    (R : DidFit.Result K) (h : fit L strict alpha D = .ok R) : fit L strict alpha ⟨D.y, D.treat, D.time, D.num, D.unit, cov, D.cluster⟩ = .ok R := by
  set D' : Data ι U T C K c' := ⟨D.y, D.treat, D.time, D.num, D.unit, cov, D.cluster⟩ with hD'
  refine fit_span (D := D) (D' := D') hL hP hL hP rfl rfl rfl (Equiv.refl ι) (fun _ => rfl) (fun _ => rfl) (fun _ => rfl) ?_ (fun _ => rfl) ⟨fun v => ?_, fun v' => ?_⟩ hid hk h
  · show D.cluster = _
    cases D.cluster <;> rfl
  · obtain ⟨v', g1, g2⟩ := span_of (D := D') (D' := D) (fun _ => rfl) h2 v
    exact ⟨v', g1, fun i => (g2 i).symm⟩
  · obtain ⟨v, g1, g2⟩ := span_of (D := D) (D' := D') (fun _ => rfl) h1 v'
    exact ⟨v, g1, fun i => g2 i⟩

/-- C146. On balanced panels a covariate that is a unit effect plus a period effect (for instance one that never changes) may be added without any effect on the
report. -/
theorem C146_constant_covariate [Fintype U] [Fintype T] {c : ℕ} (L : Lib ι K) (hL : Works L) (hP : Prunes L) (alpha : K) (D : Data ι U T C K c)
    (hB : Balanced D.unit D.time) (hid : Separate D) (hk : c + 3 ≤ Fintype.card ι) (a : U → K) (b : T → K) (R : DidFit.Result K) (h : fit L false alpha D = .ok R) :
    fit L false alpha (⟨D.y, D.treat, D.time, D.num, D.unit, Fin.cons (fun i => a (D.unit i) + b (D.time i)) D.cov, D.cluster⟩ : Data ι U T C K (c + 1)) = .ok R := by
  have hz : ∀ i, within D.unit D.time (fun i => a (D.unit i) + b (D.time i)) i = 0 := fun i => by
    rw [within_add, within_unit_effect hB, within_time_effect hB]
    exact add_zero 0
  refine C146_covariates L hL hP false alpha D _ hid (Or.inr ⟨rfl, by omega⟩) (fun j => ?_) (fun j => ?_) R h
  · refine Fin.cases ⟨0, fun _ => 0, fun i => ?_⟩ (fun j => ⟨0, fun l => if l = j then 1 else 0, fun i => ?_⟩) j
    · simpa using hz i
    · simp
  · refine ⟨0, Fin.cons 0 (fun l => if l = j then 1 else 0), fun i => ?_⟩
    rw [Fin.sum_univ_succ]
    simp

/-- C146. The order of the rows is irrelevant whichever redundant columns are dropped in either call. -/
theorem C146_row_order {c : ℕ} (L : Lib ι K) (hL : Works L) (hP : Prunes L) (L' : Lib ι' K) (hL' : Works L') (hP' : Prunes L') (hsq : L'.sqrt = L.sqrt)
    (htD : L'.tD = L.tD) (hnD : L'.nD = L.nD) (e : ι' ≃ ι) (strict : Bool) (alpha : K) (D : Data ι U T C K c) (hid : Separate D) (R : DidFit.Result K)
    (h : fit L strict alpha D = .ok R) : fit L' strict alpha (movedData e D) = .ok R := by
  have hw : ∀ j i, within (movedData e D).unit (movedData e D).time ((movedData e D).cov j) i = within D.unit D.time (D.cov j) (e i) :=
    fun j i => congrFun (RowOrder.within_moved e D.unit D.time (D.cov j)) i
  refine fit_span (D := D) (D' := movedData e D) hL hP hL' hP' hsq htD hnD e (fun _ => rfl) (fun _ => rfl) (fun _ => rfl) rfl
    (fun i => congrFun (RowOrder.within_moved e D.unit D.time D.y) i) ⟨fun v => ⟨v, rfl, fun i => ?_⟩, fun v => ⟨v, rfl, fun i => ?_⟩⟩ hid (Or.inl rfl) h
  all_goals
    rw [design_sum, design_sum]
    simp only [hw]
    rfl

/-! ### Controls -/

theorem within_combination {c : ℕ} (unit : ι → U) (time : ι → T) (cov : Fin c → ι → K) (β : Fin c → K) (y : ι → K) (i : ι) :
    within unit time (fun i => y i + ∑ j, β j * cov j i) i = within unit time y i + ∑ j, β j * within unit time (cov j) i := by
  induction c with
  | zero => simp
  | succ n ih =>
    have := ih (fun j => cov j.castSucc) (fun j => β j.castSucc)
    simp only [Fin.sum_univ_castSucc, ← add_assoc]
    rw [within_add unit time (fun i => y i + ∑ j : Fin n, β j.castSucc * cov j.castSucc i) (fun i => β (Fin.last n) * cov (Fin.last n) i), within_smul]
    show within unit time _ i + _ = _
    rw [this]

theorem fit_ok_iff {c : ℕ} {L : Lib ι K} {strict : Bool} {alpha : K} {D : Data ι U T C K c} {f : LinReg.Fit ι (c + 2) K} {b : K} (hf : regress L strict D = .ok f)
    (hb : f.coef 1 = some b) : fit L strict alpha D = .ok
      { att := .fin b, se := (LinReg.infer L.sqrt L.tD L.nD f 1 none alpha none).se, t := (LinReg.infer L.sqrt L.tD L.nD f 1 none alpha none).t
        p := (LinReg.infer L.sqrt L.tD L.nD f 1 none alpha none).p, ci := (LinReg.infer L.sqrt L.tD L.nD f 1 none alpha none).ci
        nObs := Fintype.card ι, nTreated := (treatedUnits D).card, nControl := nUnique D.unit - (treatedUnits D).card
        r2 := LinReg.rsq f (outcome D) false } := by
  unfold fit
  rw [hf]
  dsimp only
  rw [hb]

theorem reg_controls {G : Type*} [DecidableEq G] {c : ℕ} {L : Lib ι K} (hL : Works L) (hP : Prunes L) {alpha : K} {D : Data ι U T C K c} (hid : Separate D)
    (β : Fin c → K) (o : LinReg.Opts ι G) (f : LinReg.Fit ι (c + 2) K)
    (hf : LinReg.fit L.solvers o (L.redundant (design D)) (design D) (outcome D) (adjustment D) = .ok f) :
    ∃ f', LinReg.fit L.solvers o (L.redundant (design D)) (design D) (within D.unit D.time (fun i => D.y i + ∑ j, β j * D.cov j i)) (adjustment D) = .ok f' ∧
      f'.coef 1 = f.coef 1 ∧ LinReg.infer L.sqrt L.tD L.nD f' 1 none alpha none = LinReg.infer L.sqrt L.tD L.nD f 1 none alpha none := by
  have hj := (separate_iff D).1 hid
  have ho : RowOrder.movedOpts (Equiv.refl ι) o = o := by
    cases o with
    | mk rb own call st => cases call <;> cases own <;> rfl
  obtain ⟨f', hf'⟩ := LinReg.C124_same_runs L.solvers hL.solves L.solvers hL.solves o (Equiv.refl ι) _ _ (design D) (design D) (hP _) (hP _) 1 1
    ⟨fun v => ⟨v, rfl, fun _ => rfl⟩, fun v => ⟨v, rfl, fun _ => rfl⟩⟩ hj (Or.inl rfl) (outcome D)
    (within D.unit D.time (fun i => D.y i + ∑ j, β j * D.cov j i)) (adjustment D) (adjustment D) f hf
  rw [ho] at hf'
  refine ⟨f', hf', ?_⟩
  have hy : within D.unit D.time (fun i => D.y i + ∑ j, β j * D.cov j i) =
      fun i => 1 * outcome D i + ∑ m, design D i m * (Fin.cons 0 (Fin.cons 0 β) : Fin (c + 2) → K) m := by
    funext i
    rw [within_combination, design_sum]
    simp only [Fin.cons_succ, Fin.cons_zero]
    show _ = 1 * outcome D i + (0 + _ * 0 + _)
    rw [one_mul, mul_zero, add_zero, zero_add]
    rfl
  rw [hy] at hf'
  obtain ⟨g1, g2, g3, -⟩ := LinReg.C124_outcome_rank L.solvers hL.solves o _ (design D) (hP _) 1 hj (outcome D) (adjustment D) 1 _ f f' hf hf'
  have g1' : f'.coef 1 = f.coef 1 := by
    rw [g1]
    cases f.coef 1 with
    | none => rfl
    | some x => exact congrArg some (show 1 * x + 0 = x by ring)
  refine ⟨g1', ?_⟩
  have g2' : f'.vcov (1, 1) = f.vcov (1, 1) := by
    rw [g2]
    cases f.vcov (1, 1) with
    | none => rfl
    | some x => exact congrArg some (show 1 ^ 2 * x = x by ring)
  unfold LinReg.infer
  rw [g1', g2', g3]

/-- C146. The covariates are controlled for: adding any combination of them to the outcome changes nothing in the report but the R squared. -/
theorem C146_controls {c : ℕ} (L : Lib ι K) (hL : Works L) (hP : Prunes L) (strict : Bool) (alpha : K) (D : Data ι U T C K c) (hid : Separate D) (β : Fin c → K)
    (R : DidFit.Result K) (h : fit L strict alpha D = .ok R) :
    ∃ r, fit L strict alpha { D with y := fun i => D.y i + ∑ j, β j * D.cov j i } = .ok { R with r2 := r } := by
  obtain ⟨f, b, hf, hb, -⟩ := fit_ok h
  have hreg : ∃ f', regress L strict { D with y := fun i => D.y i + ∑ j, β j * D.cov j i } = .ok f' ∧ f'.coef 1 = f.coef 1 ∧
      LinReg.infer L.sqrt L.tD L.nD f' 1 none alpha none = LinReg.infer L.sqrt L.tD L.nD f 1 none alpha none := by
    unfold regress at hf ⊢
    cases hc : D.cluster with
    | none =>
      rw [hc] at hf
      exact reg_controls hL hP hid β _ f hf
    | some ids =>
      rw [hc] at hf
      exact reg_controls hL hP hid β _ f hf
  obtain ⟨f', hf', g1, g2⟩ := hreg
  rw [fit_ok_iff hf hb] at h
  cases h
  refine ⟨LinReg.rsq f' (outcome { D with y := fun i => D.y i + ∑ j, β j * D.cov j i }) false, ?_⟩
  rw [fit_ok_iff hf' (g1.trans hb), g2]
  rfl

/-! ### Hypotheses can be met -/

/-- A covariate that is 1 in the second period of one control unit. -/
noncomputable def spike : Fin 4 × Bool → ℝ := fun p => if p = (3, true) then 1 else 0

/-- The panel `noisy` with that covariate. -/
noncomputable def spiked : Data (Fin 4 × Bool) (Fin 4) Bool (Fin 4) ℝ 1 :=
  let D := panel (fun u : Fin 4 => decide (u < 2)) noisy
  ⟨D.y, D.treat, D.time, D.num, D.unit, fun _ => spike, D.cluster⟩

theorem spiked_cov (u : Fin 4) (b : Bool) : within spiked.unit spiked.time (spiked.cov 0) (u, b) = (if b then 1 else -1) * ((if u = 3 then 1 else 0) - 1 / 4) / 2 := by
  have h := outcome_panel (fun u : Fin 4 => decide (u < 2)) spike u b
  have hc : ∀ u : Fin 4, change spike u = if u = 3 then 1 else 0 := by
    intro u; fin_cases u <;> simp [change, spike]
  have ho : overall spike = 1 / 4 := by
    unfold overall
    simp [hc]
  rw [hc, ho] at h
  exact h

theorem spiked_post (u : Fin 4) (b : Bool) : spiked.treat (u, b) * spiked.num (spiked.time (u, b)) = if u < 2 ∧ b = true then 1 else 0 := by
  cases b <;> by_cases h : u < 2 <;> simp [spiked, panel, h]

theorem spiked_separate : Separate spiked := by
  intro a γ h
  have h1 := h (2, false)
  have h2 := h (3, false)
  have h3 := h (0, true)
  simp only [Fin.sum_univ_one, spiked_cov, spiked_post] at h1 h2 h3
  norm_num at h1 h2 h3
  simp at h1 h2 h3
  linarith

theorem spiked_runs : ∃ (L : Lib (Fin 4 × Bool) ℝ) (R : DidFit.Result ℝ), Works L ∧ Prunes L ∧ fit L false (1 / 20) spiked = .ok R := by
  obtain ⟨L, hL, hP⟩ := LinReg.exists_prunes (ι := Fin 4 × Bool)
  have hX : ((design spiked)ᵀ * design spiked).det ≠ 0 := by
    refine DidFit.det_of_injective _ fun v hv => ?_
    have h1 := hv (2, false)
    have h2 := hv (3, false)
    have h3 := hv (0, true)
    simp only [design_sum, Fin.sum_univ_one, spiked_cov, spiked_post] at h1 h2 h3
    norm_num at h1 h2 h3
    simp at h1 h2 h3
    have e2 : v 2 = 0 := by linarith
    have e0 : v 0 = 0 := by linarith
    have e1 : v 1 = 0 := by linarith
    funext j
    fin_cases j
    · exact e0
    · exact e1
    · exact e2
  have himg : Finset.univ.image (fun p : Fin 4 × Bool => p.1) = Finset.univ := by ext u; simp
  obtain ⟨R, hR⟩ := fit_exists (strict := false) (alpha := 1 / 20) hL hX (by simp)
    (by show 2 ≤ (Finset.univ.image (fun p : Fin 4 × Bool => p.1)).card; rw [himg]; simp)
  exact ⟨L, R, hL, hP, hR⟩

theorem spiked_balanced : Balanced spiked.unit spiked.time := by
  show Function.Bijective (fun i : Fin 4 × Bool => (i.1, i.2))
  exact Function.bijective_id

/-- The panel meets the hypotheses of the theorems above: a second covariate that numbers the units, in double the units, rows in another order, or controls added to the
outcome leave the report. -/
example : ∃ (L : Lib (Fin 4 × Bool) ℝ) (R : DidFit.Result ℝ), fit L false (1 / 20) spiked = .ok R ∧
    fit L false (1 / 20) (⟨spiked.y, spiked.treat, spiked.time, spiked.num, spiked.unit, Fin.cons (fun i => (spiked.unit i).val + if spiked.time i then 5 else 0) spiked.cov,
      spiked.cluster⟩ : Data _ _ _ _ ℝ 2) = .ok R ∧
    fit L false (1 / 20) (⟨spiked.y, spiked.treat, spiked.time, spiked.num, spiked.unit, fun j i => (j.val + 2) * spike i, spiked.cluster⟩ : Data _ _ _ _ ℝ 3) = .ok R ∧
    fit L false (1 / 20) (movedData ((Equiv.swap (0 : Fin 4) 3).prodCongr (Equiv.refl Bool)) spiked) = .ok R ∧
    ∃ r, fit L false (1 / 20) { spiked with y := fun i => spiked.y i + ∑ j, (fun _ => 7) j * spiked.cov j i } = .ok { R with r2 := r } := by
  obtain ⟨L, R, hL, hP, hR⟩ := spiked_runs
  refine ⟨L, R, hR, ?_, ?_, ?_, C146_controls L hL hP false _ spiked spiked_separate _ R hR⟩
  · exact C146_constant_covariate L hL hP (1 / 20) spiked spiked_balanced spiked_separate (by simp) (fun u => (u.val : ℝ)) (fun b => if b then 5 else 0) R hR
  · refine C146_covariates L hL hP false (1 / 20) spiked _ spiked_separate (Or.inr ⟨rfl, by simp⟩) (fun j => ⟨0, fun _ => j.val + 2, fun i => ?_⟩)
      (fun j => ⟨0, fun l => if l = 0 then 1 / 2 else 0, fun i => ?_⟩) R hR
    · rw [within_smul, Fin.sum_univ_one, zero_add]; rfl
    · simp only [within_smul, ite_mul, zero_mul, Finset.sum_ite_eq', Finset.mem_univ, if_true]
      show within spiked.unit spiked.time spike i = _
      simp
  · exact C146_row_order L hL hP L hL hP rfl rfl rfl _ false (1 / 20) spiked spiked_separate R hR

end DiffDiff.TwfeFit
