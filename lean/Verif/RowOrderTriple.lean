/-
C145, continued: TripleDifference. The order of the rows does not change the report, for each of the three estimation methods, with and without covariates.
-/
import Verif.RowOrderFit
import Verif.TripleFitProps
import Verif.Logit

set_option linter.unusedSectionVars false
set_option linter.unusedVariables false

namespace DiffDiff.RowOrder
open Matrix TripleDiff TripleFit

variable {K : Type*} [Field K] [LinearOrder K] [IsStrictOrderedRing K]
variable {ι ι' C : Type*} [Fintype ι] [DecidableEq ι] [Fintype ι'] [DecidableEq ι'] [DecidableEq C]

/-! ### Specification -/

/-- A set of rows before and after moving. -/
def SameRows (e : ι' ≃ ι) (S' : Finset ι') (S : Finset ι) : Prop := ∀ i, i ∈ S' ↔ e i ∈ S

/-- The routines of TripleDifference on another row index: they solve least squares problems, and the column check, the logistic fit and the regressions
in the cells do not depend on the order of the rows. -/
structure SameTriple (e : ι' ≃ ι) (L : TripleFit.Lib ι K) (L' : TripleFit.Lib ι' K) : Prop where
  base : Same L.toLib L'.toLib
  dropped : ∀ {m : ℕ} (X : Matrix ι (Fin m) K), L'.dropped (X.submatrix e id) = L.dropped X
  logit : ∀ {k : ℕ} (Z : ι → Fin k → K) (a : ι → K), L'.logit (fun i => Z (e i)) (fun i => a (e i)) = (L.logit Z a).map (fun p i => p (e i))
  redundant : ∀ {k : ℕ} (Z : ι → Fin k → K) (a : ι → K) (S' : Finset ι') (S : Finset ι), SameRows e S' S →
    L'.redundant (fun i => Z (e i)) (fun i => a (e i)) S' = L.redundant Z a S
  cellFit : ∀ {k : ℕ} (Z : ι → Fin k → K) (a : ι → K) (S' : Finset ι') (S : Finset ι) (y : ι → K) (i : ι'), SameRows e S' S → i ∈ S' →
    L'.cellFit (fun i => Z (e i)) (fun i => a (e i)) S' (fun i => y (e i)) i = L.cellFit Z a S y (e i)

/-- Covariates for the rows in another order. -/
def movedCov (e : ι' ≃ ι) : Cov ι K → Cov ι' K
  | none => none
  | some ⟨k, Z⟩ => some ⟨k, fun i => Z (e i)⟩

/-- Constructor arguments: the cluster column moves. -/
def movedTriple (e : ι' ≃ ι) (o : TripleFit.Opts ι C K) : TripleFit.Opts ι' C K :=
  ⟨o.method, o.robust, o.cluster.map (fun f i => f (e i)), o.alpha, o.trim, o.strict⟩

/-- The columns that the regression keeps are independent (only the method "reg" runs it). -/
def RegIndependent (L : TripleFit.Lib ι K) (G P T : ι → Bool) : Cov ι K → Prop
  | none => Independent (TripleDiff.design G P T : Matrix ι (Fin 8) K) (L.dropped (TripleDiff.design G P T : Matrix ι (Fin 8) K))
  | some ⟨_, Z⟩ => Independent (designX G P T Z) (L.dropped (designX G P T Z))

/-! ### Lemmas -/

theorem SameRows.univ (e : ι' ≃ ι) : SameRows e Finset.univ Finset.univ := fun i => by simp

theorem cellT_rows (e : ι' ≃ ι) (G P T : ι → Bool) (g p t : Bool) :
    SameRows e (cellT (fun i => G (e i)) (fun i => P (e i)) (fun i => T (e i)) g p t) (cellT G P T g p t) := fun i => by simp [cellT]

theorem cell_rows (e : ι' ≃ ι) (G P : ι → Bool) (g p : Bool) :
    SameRows e (cell (fun i => G (e i)) (fun i => P (e i)) g p) (cell G P g p) := fun i => by simp [cell]

theorem period_rows (e : ι' ≃ ι) (T : ι → Bool) (t : Bool) : SameRows e (period (fun i => T (e i)) t) (period T t) := fun i => by simp [period]

theorem SameRows.card {e : ι' ≃ ι} {S' : Finset ι'} {S : Finset ι} (h : SameRows e S' S) : S'.card = S.card := Finset.card_equiv e h

theorem SameRows.sum {e : ι' ≃ ι} {S' : Finset ι'} {S : Finset ι} (h : SameRows e S' S) (f : ι → K) : ∑ i ∈ S', f (e i) = ∑ i ∈ S, f i :=
  Finset.sum_equiv e h (fun _ _ => rfl)

theorem SameRows.mean {e : ι' ≃ ι} {S' : Finset ι'} {S : Finset ι} (h : SameRows e S' S) (f : ι → K) :
    TripleDiff.mean (fun i => f (e i)) S' = TripleDiff.mean f S := by unfold TripleDiff.mean; rw [h.card, h.sum]

theorem SameRows.varOn {e : ι' ≃ ι} {S' : Finset ι'} {S : Finset ι} (h : SameRows e S' S) (f : ι → K) :
    TripleDiff.varOn (fun i => f (e i)) S' = TripleDiff.varOn f S := by
  unfold TripleDiff.varOn; rw [h.card, h.mean, h.sum (fun i => (f i - TripleDiff.mean f S) ^ 2)]

theorem pRef_moved (e : ι' ≃ ι) (G P : ι → Bool) : (pRef (fun i => G (e i)) (fun i => P (e i)) : K) = pRef G P := by
  unfold pRef; rw [(cell_rows e G P true true).card, Fintype.card_congr e]

theorem occupied_moved (e : ι' ≃ ι) (G P T : ι → Bool) :
    Occupied (fun i => G (e i)) (fun i => P (e i)) (fun i => T (e i)) ↔ Occupied G P T := by
  unfold Occupied
  simp only [(cellT_rows e G P T _ _ _).card]

theorem score_moved {e : ι' ≃ ι} {L : TripleFit.Lib ι K} {L' : TripleFit.Lib ι' K} (h : SameTriple e L L') {k : ℕ} (Z : ι → Fin k → K)
    (A : ι → Bool) : score L' (fun i => Z (e i)) (fun i => A (e i)) = fun i => score L Z A (e i) := by
  have hm : TripleDiff.mean (fun i => (ind (A (e i)) : K)) Finset.univ = TripleDiff.mean (fun i => ind (A i)) Finset.univ :=
    (SameRows.univ e).mean (fun i => ind (A i))
  unfold score
  rw [h.logit Z (fun i => ind (A i))]
  cases L.logit Z (fun i => ind (A i)) with
  | none => funext i; exact hm
  | some p => rfl

theorem probs_moved {e : ι' ≃ ι} {L : TripleFit.Lib ι K} {L' : TripleFit.Lib ι' K} (h : SameTriple e L L') (trim : K) (G P : ι → Bool) (c : Cov ι K) :
    cellProbs L' trim (fun i => G (e i)) (fun i => P (e i)) (movedCov e c) = fun g p i => cellProbs L trim G P c g p (e i) := by
  funext g p i
  cases c with
  | none =>
    show (((cell _ _ g p).card : K) / (Fintype.card ι' : K)) = ((cell G P g p).card : K) / (Fintype.card ι : K)
    rw [(cell_rows e G P g p).card, Fintype.card_congr e]
  | some q =>
    obtain ⟨k, Z⟩ := q
    show scores trim (score L' (fun i => Z (e i)) (fun i => G (e i))) (score L' (fun i => Z (e i)) (fun i => P (e i))) g p i = _
    rw [score_moved h, score_moved h]
    rfl

theorem pscore_moved {e : ι' ≃ ι} {L : TripleFit.Lib ι K} {L' : TripleFit.Lib ι' K} (h : SameTriple e L L') (trim : K) (G P : ι → Bool) (c : Cov ι K) :
    pscoreStats L' trim (fun i => G (e i)) (fun i => P (e i)) (movedCov e c) = pscoreStats L trim G P c := by
  cases c with
  | none => rfl
  | some q =>
    obtain ⟨k, Z⟩ := q
    have hs : ∀ A : ι → Bool, (TripleDiff.mean (fun i => clip trim (1 - trim) (score L' (fun i => Z (e i)) (fun i => A (e i)) i)) Finset.univ,
        TripleDiff.mean (fun i => (clip trim (1 - trim) (score L' (fun i => Z (e i)) (fun i => A (e i)) i) -
          TripleDiff.mean (fun i => clip trim (1 - trim) (score L' (fun i => Z (e i)) (fun i => A (e i)) i)) Finset.univ) ^ 2) Finset.univ) =
        (TripleDiff.mean (fun i => clip trim (1 - trim) (score L Z A i)) Finset.univ,
        TripleDiff.mean (fun i => (clip trim (1 - trim) (score L Z A i) -
          TripleDiff.mean (fun i => clip trim (1 - trim) (score L Z A i)) Finset.univ) ^ 2) Finset.univ) := by
      intro A
      rw [score_moved h Z A]
      have h1 := (SameRows.univ e).mean (fun i => clip trim (1 - trim) (score L Z A i))
      rw [h1]
      have h2 := (SameRows.univ e).mean (fun i => (clip trim (1 - trim) (score L Z A i) -
          TripleDiff.mean (fun i => clip trim (1 - trim) (score L Z A i)) Finset.univ) ^ 2)
      rw [h2]
    show some (_, _) = some (_, _)
    exact congrArg some (Prod.ext (hs G) (hs P))

theorem weightedMean_moved (e : ι' ≃ ι) (v w : ι → K) : weightedMean (fun i => v (e i)) (fun i => w (e i)) = weightedMean v w := by
  unfold weightedMean
  rw [Equiv.sum_comp e w, Equiv.sum_comp e (fun i => v i * w i)]

theorem ipwAtt_moved (e : ι' ≃ ι) (trim : K) (y : ι → K) (G P T : ι → Bool) (pc : Bool → Bool → ι → K) :
    ipwAtt trim (fun i => y (e i)) (fun i => G (e i)) (fun i => P (e i)) (fun i => T (e i)) (fun g p i => pc g p (e i)) = ipwAtt trim y G P T pc := by
  unfold ipwAtt
  congr 1
  funext g p t
  unfold ipwMean
  rw [(cellT_rows e G P T true true t).card, (cellT_rows e G P T true true t).mean y]
  by_cases hg : g = true ∧ p = true
  · simp only [hg, and_self, if_true]
  · simp only [hg, if_false]
    exact weightedMean_moved e y (ipwWeight G P T (clipped trim pc) g p t)

theorem ipwVar_moved (e : ι' ≃ ι) (trim : K) (y : ι → K) (G P T : ι → Bool) (pc : Bool → Bool → ι → K) :
    ipwVar trim (fun i => y (e i)) (fun i => G (e i)) (fun i => P (e i)) (fun i => T (e i)) (fun g p i => pc g p (e i)) = ipwVar trim y G P T pc := by
  unfold ipwVar
  rw [ipwAtt_moved, Fintype.card_congr e]
  congr 1
  have : ipwInfl (fun i => y (e i)) (fun i => G (e i)) (fun i => P (e i)) (fun i => T (e i)) (clipped trim fun g p i => pc g p (e i))
      (ipwAtt trim y G P T pc) = fun i => ipwInfl y G P T (clipped trim pc) (ipwAtt trim y G P T pc) (e i) := by
    funext i
    unfold ipwInfl
    simp only [pRef_moved]
    rfl
  rw [this]
  exact (SameRows.univ e).varOn _

theorem mu_moved {e : ι' ≃ ι} {L : TripleFit.Lib ι K} {L' : TripleFit.Lib ι' K} (h : SameTriple e L L') (strict : Bool) (y : ι → K) (G P T : ι → Bool)
    (c : Cov ι K) : mu L' strict (fun i => y (e i)) (fun i => G (e i)) (fun i => P (e i)) (fun i => T (e i)) (movedCov e c) =
      fun i => mu L strict y G P T c (e i) := by
  funext i
  have hS := cellT_rows e G P T (G (e i)) (P (e i)) (T (e i))
  cases c with
  | none => exact hS.mean y
  | some q =>
    obtain ⟨k, Z⟩ := q
    have hi : i ∈ cellT (fun i => G (e i)) (fun i => P (e i)) (fun i => T (e i)) (G (e i)) (P (e i)) (T (e i)) := by simp [cellT]
    have h1 := h.redundant Z (fun i => ind (T i)) _ _ hS
    have h2 := h.cellFit Z (fun i => ind (T i)) _ _ y i hS hi
    have h3 := hS.mean y
    show (if 1 < (cellT _ _ _ (G (e i)) (P (e i)) (T (e i))).card then _ else _) = _
    rw [hS.card, h3, h1, h2]
    rfl

theorem drAtt_moved (e : ι' ≃ ι) (trim : K) (y m : ι → K) (G P T : ι → Bool) (pc : Bool → Bool → ι → K) :
    drAtt trim (fun i => y (e i)) (fun i => m (e i)) (fun i => G (e i)) (fun i => P (e i)) (fun i => T (e i)) (fun g p i => pc g p (e i)) =
      drAtt trim y m G P T pc := by
  unfold drAtt
  congr 1
  funext g p t
  have : infl (fun i => y (e i)) (fun i => m (e i)) (fun i => G (e i)) (fun i => P (e i)) (clipped trim fun g p i => pc g p (e i)) g p =
      fun i => infl y m G P (clipped trim pc) g p (e i) := by
    funext i
    unfold infl
    simp only [pRef_moved]
    rfl
  rw [this]
  exact (period_rows e T t).mean _

theorem drVar_moved (e : ι' ≃ ι) (y : ι → K) (G P T : ι → Bool) :
    drVar (fun i => y (e i)) (fun i => G (e i)) (fun i => P (e i)) (fun i => T (e i)) = drVar y G P T := by
  unfold drVar
  refine Finset.sum_congr rfl fun g _ => Finset.sum_congr rfl fun p _ => Finset.sum_congr rfl fun t _ => ?_
  unfold component
  rw [(cellT_rows e G P T g p t).card, (cellT_rows e G P T g p t).varOn y]

theorem rsqMu_moved (e : ι' ≃ ι) (y m : ι → K) : rsqMu (fun i => y (e i)) (fun i => m (e i)) = rsqMu y m := by
  unfold rsqMu
  have h1 := (SameRows.univ e).mean y
  rw [h1, Equiv.sum_comp e (fun i => (y i - TripleDiff.mean y Finset.univ) ^ 2), Equiv.sum_comp e (fun i => (y i - m i) ^ 2)]

theorem runReg_moved {e : ι' ≃ ι} {L : TripleFit.Lib ι K} {L' : TripleFit.Lib ι' K} (h : SameTriple e L L') (o : TripleFit.Opts ι C K) {m : ℕ}
    (X : Matrix ι (Fin m) K) (hX : Independent X (L.dropped X)) (j : Fin m) (y : ι → K) :
    runReg L' (movedTriple e o) (X.submatrix e id) j (fun i => y (e i)) = runReg L o X j y := by
  have k := C145_regression L.solvers L'.solvers h.base.solves h.base.solves' e (⟨o.robust, none, none, o.strict⟩ : LinReg.Opts ι C) (L.dropped X) X hX y 0
  have k' : LinReg.fit L'.solvers (⟨(movedTriple e o).robust, none, none, (movedTriple e o).strict⟩ : LinReg.Opts ι' C) (L.dropped X) (X.submatrix e id)
      (fun i => y (e i)) 0 = _ := k
  unfold runReg
  rw [h.dropped, k']
  cases LinReg.fit L.solvers (⟨o.robust, none, none, o.strict⟩ : LinReg.Opts ι C) (L.dropped X) X y 0 with
  | error er => rfl
  | ok f =>
    have h2 : LinReg.rsq (moved e f) (fun i => y (e i)) false = LinReg.rsq f y false := rsq_moved e y f.resid false _
    simp only [Except.map, infer_moved, h.base.sqrt, h.base.tD, h.base.nD, h2]
    rfl

theorem estimate_moved {e : ι' ≃ ι} {L : TripleFit.Lib ι K} {L' : TripleFit.Lib ι' K} (h : SameTriple e L L') (o : TripleFit.Opts ι C K) (y : ι → K)
    (G P T : ι → Bool) (c : Cov ι K) (hX : o.method = .reg → RegIndependent L G P T c) :
    estimate L' (movedTriple e o) (fun i => y (e i)) (fun i => G (e i)) (fun i => P (e i)) (fun i => T (e i)) (movedCov e c) = estimate L o y G P T c := by
  have hm : (movedTriple e o).method = o.method := rfl
  have hsome : (movedCov e c).isSome = c.isSome := by cases c <;> rfl
  unfold estimate
  rw [hm]
  cases hc : o.method with
  | reg =>
    have hI := hX hc
    cases c with
    | none => exact runReg_moved h o _ hI 7 y
    | some q => exact runReg_moved h o _ hI _ y
  | ipw =>
    show Except.ok _ = Except.ok _
    congr 1
    unfold ipw
    show Est.mk (.fin (ipwAtt o.trim _ _ _ _ _)) (.fin (L'.sqrt (ipwVar o.trim _ _ _ _ _))) none (pscoreStats L' o.trim _ _ _) = _
    rw [probs_moved h, ipwAtt_moved, ipwVar_moved, pscore_moved h, h.base.sqrt]
    try rfl
  | dr =>
    show Except.ok _ = Except.ok _
    congr 1
    unfold dr
    show Est.mk (.fin (drAtt o.trim _ (mu L' o.strict _ _ _ _ _) _ _ _ _)) (.fin (L'.sqrt (drVar _ _ _ _)))
      (if (movedCov e c).isSome then some (rsqMu _ (mu L' o.strict _ _ _ _ _)) else none) (pscoreStats L' o.trim _ _ _) = _
    rw [probs_moved h, mu_moved h, drAtt_moved, drVar_moved, pscore_moved h, h.base.sqrt, hsome, rsqMu_moved]
    try rfl

/-! ### TripleDifference -/

/-- C145. TripleDifference.fit: the whole report, or the error, is the same for the rows in any order, for every method, with and without covariates, if
the numerical routines do not depend on the order. -/
theorem C145_triple (e : ι' ≃ ι) (L : TripleFit.Lib ι K) (L' : TripleFit.Lib ι' K) (h : SameTriple e L L') (o : TripleFit.Opts ι C K) (y : ι → K)
    (G P T : ι → Bool) (c : Cov ι K) (hX : o.method = .reg → RegIndependent L G P T c) :
    TripleFit.fit L' (movedTriple e o) (fun i => y (e i)) (fun i => G (e i)) (fun i => P (e i)) (fun i => T (e i)) (movedCov e c) =
      TripleFit.fit L o y G P T c := by
  have hn : nCov (movedCov e c) = nCov c := by cases c <;> rfl
  have hcl : (movedTriple e o).cluster.map TripleFit.nunique = o.cluster.map TripleFit.nunique := by
    show (o.cluster.map _).map _ = _
    rw [Option.map_map]
    congr 1
    funext f
    show ((Finset.univ.image (fun i => f (e i))).erase none).card = ((Finset.univ.image f).erase none).card
    rw [image_moved]
  unfold TripleFit.fit
  rw [estimate_moved h o y G P T c hX]
  by_cases ho : Occupied G P T
  · rw [if_neg (not_not.2 ((occupied_moved e G P T).2 ho)), if_neg (not_not.2 ho)]
    cases estimate L o y G P T c with
    | error er => rfl
    | ok est =>
      have ha : (movedTriple e o).alpha = o.alpha := rfl
      simp only [h.base.tD, Fintype.card_congr e, hn, hcl, ha, (cell_rows e G P _ _).card]
      congr 2
      funext g p t
      exact (cellT_rows e G P T g p t).mean y
  · rw [if_pos (fun hh => ho ((occupied_moved e G P T).1 hh)), if_pos ho]

/-! ### The hypotheses on the routines hold -/

/-- The logistic regression of the package, with any optimizer: its probabilities move with the rows. -/
theorem logistic_moved {ι ι' : Type*} [Fintype ι] [Fintype ι'] (e : ι' ≃ ι) (opt : Logit.Optimizer) {p : ℕ} (X : ι → Fin p → ℝ) (y : ι → ℝ) (maxIter : ℕ)
    (tol : ℝ) : (Logit.logistic opt (fun i => X (e i)) (fun i => y (e i)) maxIter tol).1 = (Logit.logistic opt X y maxIter tol).1 ∧
      (Logit.logistic opt (fun i => X (e i)) (fun i => y (e i)) maxIter tol).2 = fun i => (Logit.logistic opt X y maxIter tol).2 (e i) := by
  have h1 : Logit.negLogLik (Logit.withIntercept fun i => X (e i)) (fun i => y (e i)) = Logit.negLogLik (Logit.withIntercept X) y := by
    funext b
    unfold Logit.negLogLik
    rw [← Equiv.sum_comp e (fun i => y i * Logit.clip (Logit.index (Logit.withIntercept X) b i) -
      Real.log (1 + Real.exp (Logit.clip (Logit.index (Logit.withIntercept X) b i))))]
    rfl
  have h2 : Logit.gradient (Logit.withIntercept fun i => X (e i)) (fun i => y (e i)) = Logit.gradient (Logit.withIntercept X) y := by
    funext b j
    unfold Logit.gradient
    rw [← Equiv.sum_comp e (fun i => Logit.withIntercept X i j * (y i - Logit.prob (Logit.index (Logit.withIntercept X) b i)))]
    rfl
  unfold Logit.logistic
  simp only [h1, h2, true_and]
  rfl

/-- The columns 1, X, T on the rows of a cell, zero elsewhere: the normal equations are those of the cell. -/
def masked {ι : Type*} [DecidableEq ι] {k : ℕ} (Z : ι → Fin k → ℝ) (a : ι → ℝ) (S : Finset ι) : Matrix ι (Fin (k + 2)) ℝ :=
  fun i => if i ∈ S then Fin.cons 1 (Fin.cons (a i) (Z i)) else 0

/-- The routines of the package over the real numbers: least squares, the logistic regression with the given optimizer, least squares in the cells. -/
noncomputable def packageLib {ι : Type*} [Fintype ι] [DecidableEq ι] (E : LinReg.Solvers ι ℝ) (opt : Logit.Optimizer) (r : ℝ → ℝ)
    (tD : ℤ → Inference.Dist ℝ) : TripleFit.Lib ι ℝ :=
  { solvers := E, sqrt := r, tD := tD, nD := tD 0
    dropped := fun {m} X => by classical exact if (Xᵀ * X).det = 0 then List.finRange m else []
    logit := fun Z a => some (Logit.logistic opt Z a 100 (1 / 1000000)).2
    redundant := fun Z a S => by classical exact decide (((masked Z a S)ᵀ * masked Z a S).det = 0)
    cellFit := fun Z a S y => Ols.fitted (masked Z a S) (E.lstsq (masked Z a S) y) }

theorem masked_moved {ι ι' : Type*} [DecidableEq ι] [DecidableEq ι'] (e : ι' ≃ ι) {k : ℕ} (Z : ι → Fin k → ℝ) (a : ι → ℝ) {S' : Finset ι'}
    {S : Finset ι} (h : SameRows e S' S) : masked (fun i => Z (e i)) (fun i => a (e i)) S' = (masked Z a S).submatrix e id := by
  funext i
  show (if i ∈ S' then _ else _) = (if e i ∈ S then _ else _)
  simp only [h i]

/-- The hypothesis of `C145_triple` on the routines holds for least squares, the logistic regression and the regressions in the cells, for every
reordering and every optimizer. -/
theorem packageLib_same {ι ι' : Type*} [Fintype ι] [DecidableEq ι] [Fintype ι'] [DecidableEq ι'] (e : ι' ≃ ι) (E : LinReg.Solvers ι ℝ)
    (E' : LinReg.Solvers ι' ℝ) (hE : LinReg.Solves E) (hE' : LinReg.Solves E') (opt : Logit.Optimizer) (r : ℝ → ℝ) (tD : ℤ → Inference.Dist ℝ) :
    SameTriple e (packageLib E opt r tD) (packageLib E' opt r tD) where
  base := ⟨hE, hE', rfl, rfl, rfl⟩
  dropped := fun {m} X => by
    show (if ((X.submatrix e id)ᵀ * X.submatrix e id).det = 0 then _ else _) = (if (Xᵀ * X).det = 0 then _ else _)
    rw [gram_moved]
  logit := fun Z a => by
    show some _ = some _
    rw [(logistic_moved e opt Z a 100 (1 / 1000000)).2]
  redundant := fun Z a S' S h => by
    classical
    show decide (((masked _ _ S')ᵀ * masked _ _ S').det = 0) = decide (((masked Z a S)ᵀ * masked Z a S).det = 0)
    simp only [masked_moved e Z a h, gram_moved]
  cellFit := fun Z a S' S y i h _ => by
    show Ols.fitted (masked _ _ S') (E'.lstsq (masked _ _ S') _) i = Ols.fitted (masked Z a S) (E.lstsq (masked Z a S) y) (e i)
    rw [masked_moved e Z a h]
    have h1 := hE' ((masked Z a S).submatrix e id) (fun i => y (e i))
    have h2 : Ols.IsOls ((masked Z a S).submatrix e id) (fun i => y (e i)) (E.lstsq (masked Z a S) y) := fun j =>
      (Equiv.sum_comp e (fun i => masked Z a S i j * Ols.resid (masked Z a S) y (E.lstsq (masked Z a S) y) i)).trans (hE _ _ j)
    exact Ols.C11_fitted_unique _ _ _ _ h1 h2 i

/-- Eight cells of two rows and a covariate, the rows of each cell swapped: doubly robust estimation succeeds with the same report. -/
example (opt : Logit.Optimizer) (r : ℝ → ℝ) (tD : ℤ → Inference.Dist ℝ) :
    ∃ (L : TripleFit.Lib (Fin 8 × Fin 2) ℝ) (R : TripleFit.Result ℝ),
      let o : TripleFit.Opts (Fin 8 × Fin 2) (Fin 8) ℝ := ⟨.dr, true, some (fun i => some i.1), 1 / 20, 1 / 100, false⟩
      let e : Fin 8 × Fin 2 ≃ Fin 8 × Fin 2 := Equiv.prodCongr (Equiv.refl _) (Equiv.swap 0 1)
      let c : Cov (Fin 8 × Fin 2) ℝ := some ⟨1, fun i _ => (i.2.val : ℝ)⟩
      SameTriple e L L ∧ TripleFit.fit L o (fun i => (TripleFit.exY i : ℝ)) TripleFit.exG TripleFit.exP TripleFit.exT c = .ok R ∧
      TripleFit.fit L (movedTriple e o) (fun i => (TripleFit.exY (e i) : ℝ)) (fun i => TripleFit.exG (e i)) (fun i => TripleFit.exP (e i)) (fun i => TripleFit.exT (e i)) (movedCov e c) = .ok R := by
  obtain ⟨E, hE⟩ := LinReg.exists_solves (ι := Fin 8 × Fin 2) (K := ℝ)
  have hs := fun e => packageLib_same e E E hE hE opt r tD
  have ho : Occupied TripleFit.exG TripleFit.exP TripleFit.exT := by decide +kernel
  have hok : ∃ R, TripleFit.fit (packageLib E opt r tD)
      (⟨.dr, true, some (fun i => some i.1), 1 / 20, 1 / 100, false⟩ : TripleFit.Opts (Fin 8 × Fin 2) (Fin 8) ℝ) (fun i => (TripleFit.exY i : ℝ)) TripleFit.exG TripleFit.exP TripleFit.exT
      (some ⟨1, fun i _ => (i.2.val : ℝ)⟩) = .ok R := by
    unfold TripleFit.fit
    rw [if_neg (not_not.2 ho)]
    exact ⟨_, rfl⟩
  obtain ⟨R, hR⟩ := hok
  refine ⟨packageLib E opt r tD, R, hs _, hR, ?_⟩
  exact (C145_triple _ _ _ (hs _) _ _ _ _ _ _ (fun h => by cases h)).trans hR

end DiffDiff.RowOrder
