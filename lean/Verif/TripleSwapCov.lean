import Verif.TripleSwapProps
import Verif.LinRegTwin
import Verif.DidFullDemo

/-!
# C155: exchanged labels in TripleDifference with covariates, and in TwoWayFixedEffects
-/

set_option linter.unusedSectionVars false
set_option linter.unusedVariables false

namespace DiffDiff.TripleFit
open TripleDiff Matrix Vcov
open LinReg (TwinSpan)

variable {ι C K : Type*} [Fintype ι] [DecidableEq ι] [DecidableEq C] [Field K] [LinearOrder K] [IsStrictOrderedRing K]

theorem ind_flip (x : ι → Bool) (i : ι) : (ind (flip true x i) : K) = 1 - ind (x i) := by
  unfold flip; cases x i <;> simp [ind]

theorem sumX {k : ℕ} (G P T : ι → Bool) (Z : ι → Fin k → K) (b : Fin 8 → K) (c : Fin k → K) (i : ι) :
    ∑ m, designX G P T Z i m * (Fin.append b c) m =
      b 0 + ind (G i) * b 1 + ind (P i) * b 2 + ind (T i) * b 3 + ind (G i) * ind (P i) * b 4 + ind (G i) * ind (T i) * b 5 + ind (P i) * ind (T i) * b 6
        + ind (G i) * ind (P i) * ind (T i) * b 7 + ∑ m, Z i m * c m := by
  rw [Fin.sum_univ_add]
  simp only [designX, Fin.append_left, Fin.append_right]
  congr 1
  simp only [design, Fin.sum_univ_eight]
  simp only [Matrix.cons_val]
  ring

theorem split (k : ℕ) (v : Fin (8 + k) → K) : ∃ (b : Fin 8 → K) (c : Fin k → K), v = Fin.append b c :=
  ⟨fun j => v (Fin.castAdd k j), fun j => v (Fin.natAdd 8 j), (Fin.append_castAdd_natAdd (f := v)).symm⟩

theorem twin_of {k : ℕ} {Z : ι → Fin k → K} {G P T G' P' T' : ι → Bool} (M M' : (Fin 8 → K) → Fin 8 → K) (h7 : ∀ b, M b 7 = -1 * b 7) (h7' : ∀ b, M' b 7 = -1 * b 7)
    (h : ∀ b c i, ∑ m, designX G' P' T' Z i m * (Fin.append (M b) c) m = ∑ m, designX G P T Z i m * (Fin.append b c) m)
    (h' : ∀ b c i, ∑ m, designX G P T Z i m * (Fin.append (M' b) c) m = ∑ m, designX G' P' T' Z i m * (Fin.append b c) m) :
    TwinSpan (-1 : K) (designX G P T Z) (Fin.castAdd k 7) (designX G' P' T' Z) (Fin.castAdd k 7) := by
  refine ⟨by ring, fun v => ?_, fun v => ?_⟩
  · obtain ⟨b, c, rfl⟩ := split k v
    exact ⟨_, by simp only [Fin.append_left, h7], fun i => h b c i⟩
  · obtain ⟨b, c, rfl⟩ := split k v
    exact ⟨_, by simp only [Fin.append_left, h7'], fun i => (h' b c i).symm⟩

theorem twin_G {k : ℕ} (Z : ι → Fin k → K) (G P T : ι → Bool) :
    TwinSpan (-1 : K) (designX G P T Z) (Fin.castAdd k 7) (designX (flip true G) P T Z) (Fin.castAdd k 7) := by
  refine twin_of (fun b => ![b 0 + b 1, -b 1, b 2 + b 4, b 3 + b 5, -b 4, -b 5, b 6 + b 7, -b 7])
    (fun b => ![b 0 + b 1, -b 1, b 2 + b 4, b 3 + b 5, -b 4, -b 5, b 6 + b 7, -b 7]) (fun b => by simp) (fun b => by simp) (fun b c i => ?_) (fun b c i => ?_) <;>
  · simp only [sumX, ind_flip, Matrix.cons_val]
    ring

theorem twin_P {k : ℕ} (Z : ι → Fin k → K) (G P T : ι → Bool) :
    TwinSpan (-1 : K) (designX G P T Z) (Fin.castAdd k 7) (designX G (flip true P) T Z) (Fin.castAdd k 7) := by
  refine twin_of (fun b => ![b 0 + b 2, b 1 + b 4, -b 2, b 3 + b 6, -b 4, b 5 + b 7, -b 6, -b 7])
    (fun b => ![b 0 + b 2, b 1 + b 4, -b 2, b 3 + b 6, -b 4, b 5 + b 7, -b 6, -b 7]) (fun b => by simp) (fun b => by simp) (fun b c i => ?_) (fun b c i => ?_) <;>
  · simp only [sumX, ind_flip, Matrix.cons_val]
    ring

theorem twin_T {k : ℕ} (Z : ι → Fin k → K) (G P T : ι → Bool) :
    TwinSpan (-1 : K) (designX G P T Z) (Fin.castAdd k 7) (designX G P (flip true T) Z) (Fin.castAdd k 7) := by
  refine twin_of (fun b => ![b 0 + b 3, b 1 + b 5, b 2 + b 6, -b 3, b 4 + b 7, -b 5, -b 6, -b 7])
    (fun b => ![b 0 + b 3, b 1 + b 5, b 2 + b 6, -b 3, b 4 + b 7, -b 5, -b 6, -b 7]) (fun b => by simp) (fun b => by simp) (fun b c i => ?_) (fun b c i => ?_) <;>
  · simp only [sumX, ind_flip, Matrix.cons_val]
    ring

theorem flip_false (x : ι → Bool) : flip false x = x := by funext i; simp [flip]

/-- Sign of a label exchange. -/
def sign (a : Bool) : K := if a then -1 else 1

theorem twin_all {k : ℕ} (Z : ι → Fin k → K) (G P T : ι → Bool) (a b c : Bool) :
    TwinSpan (sign (xor a (xor b c)) : K) (designX G P T Z) (Fin.castAdd k 7) (designX (flip a G) (flip b P) (flip c T) Z) (Fin.castAdd k 7) := by
  have hG : TwinSpan (sign a : K) (designX G P T Z) (Fin.castAdd k 7) (designX (flip a G) P T Z) (Fin.castAdd k 7) := by
    cases a
    · rw [flip_false]; exact TwinSpan.refl _ _
    · exact twin_G Z G P T
  have hP : TwinSpan (sign b : K) (designX (flip a G) P T Z) (Fin.castAdd k 7) (designX (flip a G) (flip b P) T Z) (Fin.castAdd k 7) := by
    cases b
    · rw [flip_false]; exact TwinSpan.refl _ _
    · exact twin_P Z _ P T
  have hT : TwinSpan (sign c : K) (designX (flip a G) (flip b P) T Z) (Fin.castAdd k 7) (designX (flip a G) (flip b P) (flip c T) Z) (Fin.castAdd k 7) := by
    cases c
    · rw [flip_false]; exact TwinSpan.refl _ _
    · exact twin_T Z _ _ T
  have := (hG.trans hP).trans hT
  have e : (sign a * sign b * sign c : K) = sign (xor a (xor b c)) := by cases a <;> cases b <;> cases c <;> simp [sign]
  rwa [e] at this

/-- C155. Regression method with covariates, redundant ones included, whenever the triple interaction is not a combination of the other columns: as without. -/
theorem C155_triple_reg_covariates (L : Lib ι K) (hL : Good L) (hP : ∀ {m : ℕ} (X : Matrix ι (Fin m) K), LinReg.Pruned X (L.dropped X)) (o : Opts ι C K)
    (hm : o.method = .reg) (y : ι → K) (G P T : ι → Bool) {k : ℕ} (Z : ι → Fin k → K) (hid : LinReg.Identified (designX G P T Z) (Fin.castAdd k 7)) (a b c : Bool)
    (R : Result K) (hR : fit L o y G P T (some ⟨k, Z⟩) = .ok R) :
    ∃ R', fit L o y (flip a G) (flip b P) (flip c T) (some ⟨k, Z⟩) = .ok R' ∧ Turned (xor a (xor b c)) a b c R R' := by
  obtain ⟨h, e, he, h1, h2, h3, -⟩ := fit_ok hR
  have h' := allCells_flip a b c h
  have ht := twin_all Z G P T a b c
  rw [estimate, hm] at he
  simp only [regression, runReg] at he
  cases hf : LinReg.fit L.solvers (⟨o.robust, none, none, o.strict⟩ : LinReg.Opts ι C) (L.dropped (designX G P T Z)) (designX G P T Z) y 0 with
  | error e' => rw [hf] at he; cases he
  | ok f =>
    rw [hf] at he
    cases he
    obtain ⟨f', hf'⟩ := LinReg.C155_regression_runs L.solvers hL.solves (⟨o.robust, none, none, o.strict⟩ : LinReg.Opts ι C) _
      (L.dropped (designX (flip a G) (flip b P) (flip c T) Z)) _ _ (hP _) (hP _) _ _ _ ht hid y 0 f hf
    obtain ⟨g1, g2, -, g4⟩ := LinReg.C155_regression L.solvers hL.solves (⟨o.robust, none, none, o.strict⟩ : LinReg.Opts ι C) _ _ _ _ (hP _) (hP _) _ _ _ ht hid
      y 0 f f' hf hf'
    obtain ⟨v, w, β, -, -, c1, -⟩ := LinReg.C124_identified L.solvers hL.solves _ _ _ (hP _) y 0 f hf _ hid
    obtain ⟨R', hR'⟩ : ∃ R', fit L o y (flip a G) (flip b P) (flip c T) (some ⟨k, Z⟩) = .ok R' := by
      unfold fit
      rw [if_neg (not_not.2 ((occupied_iff _ _ _).2 h')), estimate, hm]
      simp only [regression, runReg, hf']
      exact ⟨_, rfl⟩
    refine ⟨R', hR', ?_⟩
    obtain ⟨-, e', he', k1, k2, k3, -⟩ := fit_ok hR'
    rw [estimate, hm] at he'
    simp only [regression, runReg, hf'] at he'
    cases he'
    have hs1 : R.se = LinReg.toExt ((f.vcov (Fin.castAdd k 7, Fin.castAdd k 7)).map L.sqrt) := h2
    have hs2 : R'.se = LinReg.toExt ((f.vcov (Fin.castAdd k 7, Fin.castAdd k 7)).map L.sqrt) := by rw [← g2]; exact k2
    have ha1 : R.att = .fin (β (Fin.castAdd k 7)) := by
      rw [h1]
      show LinReg.toExt (f.coef (Fin.castAdd k 7)) = _
      rw [c1]; rfl
    refine turned_of hR hR' ha1 ?_ hs1 hs2 ?_ (fun g p t => mean_flip a b c y G P T g p t)
    · rw [k1]
      show LinReg.toExt (f'.coef (Fin.castAdd k 7)) = _
      rw [g1, c1]
      cases hx : xor a (xor b c) <;> simp [sign, turn, LinReg.toExt, Ext.neg]
    · rw [k3, h3]
      show some (LinReg.rsq f' y false) = some (LinReg.rsq f y false)
      unfold LinReg.rsq Vcov.rSquared
      rw [g4]
      rfl

/-- Two covariates, the second twice the first. -/
def exZ : Fin 8 × Fin 2 → Fin 2 → ℝ := fun i m => if m = 0 then (i.2.val : ℝ) else 2 * (i.2.val : ℝ)

theorem exZ_identified : LinReg.Identified (designX exG exP exT exZ) (Fin.castAdd 2 7) := by
  intro v hv hc
  obtain ⟨b, c, rfl⟩ := split 2 v
  have h7 : b 7 = 0 := (Fin.append_left b c 7).symm.trans hv
  have key : ∀ i : Fin 8 × Fin 2, ind (exG i) * ind (exP i) * ind (exT i) = b 0 + ind (exG i) * b 1 + ind (exP i) * b 2 + ind (exT i) * b 3
      + ind (exG i) * ind (exP i) * b 4 + ind (exG i) * ind (exT i) * b 5 + ind (exP i) * ind (exT i) * b 6 + ind (exG i) * ind (exP i) * ind (exT i) * b 7
      + ∑ m, exZ i m * c m := by
    intro i
    rw [← sumX, ← hc i]
    simp only [designX, Fin.append_left, design, Matrix.cons_val]
  have hz : ∀ n : Fin 8, ∑ m, exZ (n, 0) m * c m = 0 := fun n => by simp [exZ]
  have k0 := key (0, 0); have k1 := key (1, 0); have k2 := key (2, 0); have k3 := key (3, 0)
  have k4 := key (4, 0); have k5 := key (5, 0); have k6 := key (6, 0); have k7 := key (7, 0)
  have g : ∀ n : Fin 8, (exG (n, 0), exP (n, 0), exT (n, 0)) = ((![false, true, false, true, false, true, false, true] n),
      (![false, false, true, true, false, false, true, true] n), (![false, false, false, false, true, true, true, true] n)) := by decide
  have g1 : ∀ n : Fin 8, exG (n, 0) = ![false, true, false, true, false, true, false, true] n := fun n => congrArg Prod.fst (g n)
  have g2 : ∀ n : Fin 8, exP (n, 0) = ![false, false, true, true, false, false, true, true] n := fun n => congrArg (fun x => x.2.1) (g n)
  have g3 : ∀ n : Fin 8, exT (n, 0) = ![false, false, false, false, true, true, true, true] n := fun n => congrArg (fun x => x.2.2) (g n)
  simp only [hz, g1, g2, g3, h7] at k0 k1 k2 k3 k4 k5 k6 k7
  simp [ind] at k0 k1 k2 k3 k4 k5 k6 k7
  linarith

/-- The regression with the two covariates, groups and periods exchanged. -/
example : ∃ (L : Lib (Fin 8 × Fin 2) ℝ) (R R1 R2 : Result ℝ) (x : ℝ),
    fit L (⟨.reg, true, none, 1 / 20, 1 / 100, false⟩ : Opts (Fin 8 × Fin 2) ℕ ℝ) (fun i => (exY i : ℝ)) exG exP exT (some ⟨2, exZ⟩) = .ok R ∧
    fit L (⟨.reg, true, none, 1 / 20, 1 / 100, false⟩ : Opts (Fin 8 × Fin 2) ℕ ℝ) (fun i => (exY i : ℝ)) (flip true exG) (flip false exP) (flip false exT)
      (some ⟨2, exZ⟩) = .ok R1 ∧
    fit L (⟨.reg, true, none, 1 / 20, 1 / 100, false⟩ : Opts (Fin 8 × Fin 2) ℕ ℝ) (fun i => (exY i : ℝ)) (flip true exG) (flip false exP) (flip true exT)
      (some ⟨2, exZ⟩) = .ok R2 ∧ R.att = .fin x ∧ R1.att = .fin (-x) ∧ R2.att = .fin x ∧ R1.se = R.se ∧ R2.t = R.t := by
  obtain ⟨L0, hL0, hP0⟩ := LinReg.exists_prunes (ι := Fin 8 × Fin 2)
  set L : Lib (Fin 8 × Fin 2) ℝ := { toLib := L0.toLib, dropped := fun X => L0.redundant X, logit := fun _ _ => none, redundant := fun _ _ _ => true
                                     cellFit := fun _ _ _ y => y } with hLdef
  have hL : Good L := ⟨hL0.solves, fun X hX => (hP0 X).nil hX⟩
  have hall : AllCells exG exP exT := by unfold AllCells; decide +kernel
  have hid := exZ_identified
  have hpos : 0 < (designX exG exP exT exZ).rank := by
    rw [Nat.pos_iff_ne_zero]
    intro h0
    have hbot := Submodule.finrank_eq_zero.1 (show Module.finrank ℝ (LinearMap.range (designX exG exP exT exZ).mulVecLin) = 0 from h0)
    refine hid 0 rfl fun i => ?_
    have : (designX exG exP exT exZ).mulVecLin (fun m => if m = Fin.castAdd 2 7 then 1 else 0) ∈ LinearMap.range (designX exG exP exT exZ).mulVecLin := ⟨_, rfl⟩
    rw [hbot] at this
    have := congrFun ((Submodule.mem_bot ℝ).1 this) i
    simpa [Matrix.mulVec, dotProduct] using this
  have hrk : (designX exG exP exT exZ).rank ≤ 8 + 2 := by simpa using (designX exG exP exT exZ).rank_le_card_width
  obtain ⟨f, hf⟩ := (LinReg.C124_runs L.solvers hL.solves (⟨true, none, none, false⟩ : LinReg.Opts (Fin 8 × Fin 2) ℕ) (L.dropped (designX exG exP exT exZ)) _
    (hP0 _) hpos (fun i => (exY i : ℝ)) 0).2 ⟨by simp, by simp, fun _ => lt_of_le_of_lt hrk (by simp), by simp [LinReg.Opts.ids]⟩
  obtain ⟨R, hR⟩ : ∃ R, fit L (⟨.reg, true, none, 1 / 20, 1 / 100, false⟩ : Opts (Fin 8 × Fin 2) ℕ ℝ) (fun i => (exY i : ℝ)) exG exP exT (some ⟨2, exZ⟩) = .ok R := by
    unfold fit
    rw [if_neg (not_not.2 ((occupied_iff _ _ _).2 hall)), estimate]
    simp only [regression, runReg, hf]
    exact ⟨_, rfl⟩
  obtain ⟨-, e, he, h1, -⟩ := fit_ok hR
  rw [estimate] at he
  simp only [regression, runReg, hf] at he
  cases he
  obtain ⟨v, w, β, -, -, c1, -⟩ := LinReg.C124_identified L.solvers hL.solves _ _ _ (hP0 _) _ 0 f hf _ hid
  have ha : R.att = .fin (β (Fin.castAdd 2 7)) := by
    rw [h1]
    show LinReg.toExt (f.coef (Fin.castAdd 2 7)) = _
    rw [c1]; rfl
  obtain ⟨R1, f1, t1⟩ := C155_triple_reg_covariates L hL (fun X => hP0 X) _ rfl _ exG exP exT exZ hid true false false R hR
  obtain ⟨R2, f2, t2⟩ := C155_triple_reg_covariates L hL (fun X => hP0 X) _ rfl _ exG exP exT exZ hid true false true R hR
  refine ⟨L, R, R1, R2, _, hR, f1, f2, ha, ?_, ?_, t1.se, t2.t⟩
  · rw [t1.att, ha]; rfl
  · rw [t2.att, ha]; rfl

end DiffDiff.TripleFit

namespace DiffDiff.TwfeFit
open Matrix Vcov Did2x2
open DidFit (change meanChange arm)

variable {U K : Type*} [Fintype U] [DecidableEq U] [Field K] [LinearOrder K] [IsStrictOrderedRing K]

/-- C155. TwoWayFixedEffects: exchanging the labels of the groups in the textbook two-period panel does not turn the estimate round when the arms have different
sizes and the difference in differences is not zero. -/
theorem C155_twfe_refuted (L : Lib (U × Bool) K) (hL : Works L) (strict : Bool) (alpha : K) (tr : U → Bool) (h : ∀ a, ∃ u, tr u = a) (y : U × Bool → K)
    (R R' : DidFit.Result K) (hR : fit L strict alpha (panel tr y) = .ok R) (hR' : fit L strict alpha (panel (fun u => !tr u) y) = .ok R')
    (hD : meanChange tr y true - meanChange tr y false ≠ 0) (hne : (arm tr true).card ≠ (arm tr false).card) : R'.att ≠ Ext.neg R.att := by
  have h' : ∀ a, ∃ u, (!tr u) = a := fun a => by
    obtain ⟨u, hu⟩ := h (!a)
    exact ⟨u, by rw [hu]; simp⟩
  have harm : ∀ a, arm (fun u => !tr u) a = arm tr (!a) := fun a => by
    unfold arm
    ext u
    cases a <;> simp
  have hmc : ∀ a, meanChange (fun u => !tr u) y a = meanChange tr y (!a) := fun a => by
    unfold meanChange
    rw [harm]
  have e1 := (C146_panel_partial L hL strict alpha tr h y R hR _ _ _ _ rfl rfl rfl rfl).1
  have e2 := (C146_panel_partial L hL strict alpha (fun u => !tr u) h' y R' hR' _ _ _ _ rfl rfl rfl rfl).1
  rw [harm, harm, hmc, hmc] at e2
  rw [e1, e2]
  intro hh
  have hh := Ext.fin.inj hh
  simp only [Bool.not_true, Bool.not_false] at hh
  obtain ⟨u1, hu1⟩ := h true
  obtain ⟨u0, hu0⟩ := h false
  have hm : (0 : K) < ((arm tr true).card : K) := by exact_mod_cast Finset.card_pos.2 ⟨u1, by simp [arm, hu1]⟩
  have hn : (0 : K) < ((arm tr false).card : K) := by exact_mod_cast Finset.card_pos.2 ⟨u0, by simp [arm, hu0]⟩
  set m : K := ((arm tr true).card : K) with hmdef
  set n : K := ((arm tr false).card : K) with hndef
  have hmn : m ≠ n := fun he => hne (Nat.cast_injective (R := K) he)
  have p1 : n + 2 * m ≠ 0 := by positivity
  have p2 : m + 2 * n ≠ 0 := by positivity
  have e : m / (n + 2 * m) = n / (m + 2 * n) := mul_right_cancel₀ hD (by linear_combination -hh)
  rw [div_eq_div_iff p1 p2] at e
  have e3 : (m - n) * (m + n) = 0 := by linear_combination e
  rcases mul_eq_zero.1 e3 with e4 | e4
  · exact hmn (sub_eq_zero.1 e4)
  · have : 0 < m + n := by positivity
    exact this.ne' e4

/-- One treated unit, two controls: both calls run and the hypotheses hold. -/
example : ∃ (L : Lib (Fin 3 × Bool) ℝ) (R R' : DidFit.Result ℝ),
    fit L true (1 / 20) (panel (fun u : Fin 3 => decide (u = 0)) (fun p => if p = (0, true) then 1 else 0)) = .ok R ∧
    fit L true (1 / 20) (panel (fun u : Fin 3 => !decide (u = 0)) (fun p => if p = (0, true) then 1 else 0)) = .ok R' ∧ R'.att ≠ Ext.neg R.att := by
  obtain ⟨L, hL⟩ := exists_works (ι := Fin 3 × Bool)
  have h : ∀ a, ∃ u : Fin 3, decide (u = 0) = a := by decide
  have h' : ∀ a, ∃ u : Fin 3, (!decide (u = 0)) = a := by decide
  have himg : Finset.univ.image (fun p : Fin 3 × Bool => p.1) = Finset.univ := by ext u; simp
  obtain ⟨R, hR⟩ := fit_exists (strict := true) (alpha := 1 / 20) hL (panel_det (K := ℝ) (h true) (fun p => if p = (0, true) then 1 else 0)) (by simp)
    (by show 2 ≤ (Finset.univ.image (fun p : Fin 3 × Bool => p.1)).card; rw [himg]; simp)
  obtain ⟨R', hR'⟩ := fit_exists (strict := true) (alpha := 1 / 20) hL (panel_det (K := ℝ) (h' true) (fun p => if p = (0, true) then 1 else 0)) (by simp)
    (by show 2 ≤ (Finset.univ.image (fun p : Fin 3 × Bool => p.1)).card; rw [himg]; simp)
  refine ⟨L, R, R', hR, hR', C155_twfe_refuted L hL true (1 / 20) _ h _ R R' hR hR' ?_ (by decide)⟩
  have e1 : arm (fun u : Fin 3 => decide (u = 0)) true = {0} := by decide
  have e2 : arm (fun u : Fin 3 => decide (u = 0)) false = {1, 2} := by decide
  unfold meanChange
  rw [e1, e2, Finset.sum_pair (by decide)]
  simp [change]

end DiffDiff.TwfeFit
