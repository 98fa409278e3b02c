import Verif.TripleFitProps
import Verif.DidSwapProps

/-!
# C155: swapping the labels of group, partition and period in TripleDifference (triple_diff.py 515-637)

Exchanging the labels 0 and 1 of one of the three columns turns the triple difference round; exchanging those of two changes nothing. This is so for the
regression method, with any cell sizes. For the default method it holds for periods always, for groups and partitions when no share is trimmed; it fails with
trimming. For inverse weighting the estimate turns round and the standard error changes.
-/

set_option linter.unusedSectionVars false
set_option linter.unusedVariables false

namespace DiffDiff.TripleFit
open TripleDiff Matrix Vcov

variable {ι C K : Type*} [Fintype ι] [DecidableEq ι] [DecidableEq C] [Field K] [LinearOrder K] [IsStrictOrderedRing K]

/-- The labels 0 and 1 exchanged if `a`. -/
def flip (a : Bool) (x : ι → Bool) : ι → Bool := fun i => xor a (x i)

/-- Opposite sign if `s`. -/
def turn (s : Bool) (x : DiffDiff.Ext K) : DiffDiff.Ext K := if s then Ext.neg x else x

/-- `R'` is `R` with estimate, t statistic and interval turned round if `s`, and the means of the relabelled cells. -/
structure Turned (s a b c : Bool) (R R' : Result K) : Prop where
  att : R'.att = turn s R.att
  se : R'.se = R.se
  t : R'.t = turn s R.t
  p : R'.p = R.p
  ci : R'.ci = if s then (Ext.neg R.ci.2, Ext.neg R.ci.1) else R.ci
  nObs : R'.nObs = R.nObs
  r2 : R'.r2 = R.r2
  means : ∀ g p t, R'.groupMeans g p t = R.groupMeans (xor a g) (xor b p) (xor c t)

/-! ### Cells -/

theorem flip_eq {a : Bool} {x : ι → Bool} {i : ι} {g : Bool} : flip a x i = g ↔ x i = xor a g := by
  unfold flip; cases a <;> cases x i <;> cases g <;> simp

theorem cellT_flip (a b c : Bool) (G P T : ι → Bool) (g p t : Bool) :
    cellT (flip a G) (flip b P) (flip c T) g p t = cellT G P T (xor a g) (xor b p) (xor c t) := by
  unfold cellT
  simp only [flip_eq]

theorem cell_flip (a b : Bool) (G P : ι → Bool) (g p : Bool) : cell (flip a G) (flip b P) g p = cell G P (xor a g) (xor b p) := by
  unfold cell
  simp only [flip_eq]

theorem period_flip (c : Bool) (T : ι → Bool) (t : Bool) : period (flip c T) t = period T (xor c t) := by
  unfold period
  simp only [flip_eq]

theorem mean_flip (a b c : Bool) (y : ι → K) (G P T : ι → Bool) (g p t : Bool) :
    cellMean y (flip a G) (flip b P) (flip c T) g p t = cellMean y G P T (xor a g) (xor b p) (xor c t) := by
  unfold cellMean
  simp only [flip_eq]

theorem size_flip (a b c : Bool) (G P T : ι → Bool) (g p t : Bool) :
    size (flip a G) (flip b P) (flip c T) g p t = size G P T (xor a g) (xor b p) (xor c t) := by
  unfold size
  simp only [flip_eq]

theorem within_flip (a b c : Bool) (y : ι → K) (G P T : ι → Bool) (g p t : Bool) :
    within y (flip a G) (flip b P) (flip c T) g p t = within y G P T (xor a g) (xor b p) (xor c t) := by
  unfold within
  simp only [flip_eq, mean_flip]

theorem cells_flip (a b c : Bool) (f : Bool → Bool → Bool → K) : cells (fun g p t => f (xor a g) (xor b p) (xor c t)) = cells f := by
  unfold cells
  cases a <;> cases b <;> cases c <;> simp only [Fintype.sum_bool, Bool.false_xor, Bool.true_xor, Bool.not_true, Bool.not_false] <;> ring

theorem own_flip (a : Bool) (x : ι → Bool) (i : ι) : xor a (flip a x i) = x i := by
  unfold flip; cases a <;> cases x i <;> rfl

theorem allCells_flip (a b c : Bool) {G P T : ι → Bool} (h : AllCells G P T) : AllCells (flip a G) (flip b P) (flip c T) := by
  intro g p t
  obtain ⟨i, h1, h2, h3⟩ := h (xor a g) (xor b p) (xor c t)
  exact ⟨i, flip_eq.2 h1, flip_eq.2 h2, flip_eq.2 h3⟩

theorem flip_flip (a : Bool) (x : ι → Bool) : flip a (flip a x) = x := by
  funext i
  exact own_flip a x i

theorem ddd_flip (a b c : Bool) (y : ι → K) (G P T : ι → Bool) :
    ddd y (flip a G) (flip b P) (flip c T) = if xor a (xor b c) then -ddd y G P T else ddd y G P T := by
  unfold ddd didIn
  simp only [mean_flip]
  cases a <;> cases b <;> cases c <;> simp <;> ring

/-! ### Inference -/

theorem saFields_turn (s : Bool) (D : Inference.Dist K) (x : K) (v : Option K) (alpha : K) :
    Inference.saFields D (turn s (.fin x)) (LinReg.toExt v) alpha =
      (turn s (Inference.saFields D (.fin x) (LinReg.toExt v) alpha).1, (Inference.saFields D (.fin x) (LinReg.toExt v) alpha).2.1,
        if s then (Ext.neg (Inference.saFields D (.fin x) (LinReg.toExt v) alpha).2.2.2, Ext.neg (Inference.saFields D (.fin x) (LinReg.toExt v) alpha).2.2.1)
        else (Inference.saFields D (.fin x) (LinReg.toExt v) alpha).2.2) := by
  cases s with
  | false => simp [turn]
  | true =>
    have ht : (if Ext.lt (.fin 0) (LinReg.toExt v) then Ext.div (.fin (-x)) (LinReg.toExt v) else .fin 0)
        = Ext.neg (if Ext.lt (.fin 0) (LinReg.toExt v) then Ext.div (.fin x) (LinReg.toExt v) else .fin 0) := by
      cases v with
      | none => simp [LinReg.toExt, Ext.lt, Ext.neg]
      | some w =>
        by_cases h : 0 < w
        · simp [LinReg.toExt, Ext.lt, Ext.neg, h, Ext.div, h.ne', neg_div]
        · simp [LinReg.toExt, Ext.lt, Ext.neg, h]
    have hn : Ext.neg (.fin x) = .fin (-x) := rfl
    simp only [turn, if_true, hn, Inference.saFields, ht, DidFull.pValue_neg, DidFull.confInt_neg]

theorem turned_of {L : Lib ι K} {o : Opts ι C K} {y : ι → K} {G P T G' P' T' : ι → Bool} {s a b c : Bool} {R R' : Result K} {cov : Cov ι K}
    (hR : fit L o y G P T cov = .ok R) (hR' : fit L o y G' P' T' cov = .ok R') {x : K} {v : Option K} (ha : R.att = .fin x)
    (ha' : R'.att = turn s (.fin x)) (hs : R.se = LinReg.toExt v) (hs' : R'.se = LinReg.toExt v) (hr : R'.r2 = R.r2)
    (hm : ∀ g p t, cellMean y G' P' T' g p t = cellMean y G P T (xor a g) (xor b p) (xor c t)) : Turned s a b c R R' := by
  obtain ⟨-, e, -, h1, h2, -, -, h3, h4, -, -, -, -, h5, -⟩ := fit_ok hR
  obtain ⟨-, e', -, k1, k2, -, -, k3, k4, -, -, -, -, k5, -⟩ := fit_ok hR'
  rw [← h1, ← h2, ha, hs] at h3
  rw [← k1, ← k2, ha', hs', saFields_turn, ← h3] at k3
  simp only [Prod.mk.injEq] at k3
  exact ⟨by rw [ha', ha], by rw [hs, hs'], k3.1, k3.2.1, k3.2.2, by rw [h4, k4], hr, fun g p t => by rw [k5, h5, hm]⟩

/-! ### Results -/

/-- C155. Regression method without covariates: exchanging the labels of group, partition or period, in any combination, runs exactly when the original call
does; estimate, t statistic and interval turn round for one or three exchanged columns and stay for two; standard error, p-value and R squared stay. -/
theorem C155_triple_reg (L : Lib ι K) (hL : Good L) (o : Opts ι C K) (hm : o.method = .reg) (y : ι → K) (G P T : ι → Bool) (a b c : Bool) (R : Result K)
    (hR : fit L o y G P T none = .ok R) :
    ∃ R', fit L o y (flip a G) (flip b P) (flip c T) none = .ok R' ∧ Turned (xor a (xor b c)) a b c R R' := by
  obtain ⟨h, e, he, h1, h2, h3, -⟩ := fit_ok hR
  have h' := allCells_flip a b c h
  cases hf : fit L o y (flip a G) (flip b P) (flip c T) none with
  | error e' =>
    exfalso
    rcases (C128_fails L hL o y _ _ _ e').1 hf with ⟨k, -⟩ | ⟨-, -, k1, k2, -⟩
    · exact k h'
    · have := (C128_fails L hL o y G P T _).2 (.inr ⟨h, hm, k1, k2, rfl⟩)
      rw [this] at hR; cases hR
  | ok R' =>
    refine ⟨R', rfl, ?_⟩
    obtain ⟨-, e', he', k1, k2, k3, -⟩ := fit_ok hf
    rw [estimate, hm] at he he'
    obtain ⟨V, -, p1, p2, p3, -⟩ := reg_ok hL h he
    obtain ⟨V', -, q1, q2, q3, -⟩ := reg_ok hL h' he'
    have hse : R'.se = R.se := by
      cases hr : o.robust with
      | true =>
        rw [C128_se_robust L hL o hm hr y G P T R hR, C128_se_robust L hL o hm hr y _ _ _ R' hf]
        simp only [within_flip, size_flip]
        rw [cells_flip a b c (fun g p t => within y G P T g p t / (size G P T g p t : K) ^ 2)]
      | false =>
        obtain ⟨r1, r2⟩ := C128_se_classical L hL o hm hr y G P T R hR
        obtain ⟨r1', r2'⟩ := C128_se_classical L hL o hm hr y _ _ _ R' hf
        by_cases h8 : Fintype.card ι = 8
        · rw [r1 h8, r1' h8]
        · rw [r2 h8, r2' h8]
          have e1 : cells (within y (flip a G) (flip b P) (flip c T)) = cells (within y G P T) := by
            rw [← cells_flip a b c (within y G P T)]
            exact cells_congr fun g p t => within_flip a b c y G P T g p t
          simp only [size_flip]
          rw [e1, cells_flip a b c (fun g p t => 1 / (size G P T g p t : K))]
    refine turned_of hR hf (h1.trans p1) ?_ (h2.trans p2) (hse.trans (h2.trans p2)) ?_ (fun g p t => mean_flip a b c y G P T g p t)
    · rw [k1, q1, ddd_flip]
      unfold turn
      split_ifs <;> rfl
    · rw [k3, h3, q3, p3]
      simp only [mean_flip, own_flip]

theorem combine_turn (m : Bool → Bool → Bool → K) : combine (fun g p t => m g p (!t)) = -combine m := by
  unfold combine
  simp only [Bool.not_true, Bool.not_false]
  ring

/-- C155. Default method without covariates: exchanging the two periods turns estimate, t statistic and interval round and keeps the rest. -/
theorem C155_triple_dr_periods (L : Lib ι K) (o : Opts ι C K) (hm : o.method = .dr) (y : ι → K) (G P T : ι → Bool) (R : Result K)
    (hR : fit L o y G P T none = .ok R) :
    ∃ R', fit L o y G P (flip true T) none = .ok R' ∧ Turned true false false true R R' := by
  obtain ⟨h, e, he, h1, h2, h3, -⟩ := fit_ok hR
  have hG : flip false G = G := by funext i; simp [flip]
  have hP : flip false P = P := by funext i; simp [flip]
  have h' : AllCells G P (flip true T) := by
    have := allCells_flip false false true h
    rwa [hG, hP] at this
  obtain ⟨R', hf⟩ := C128_weighting_total L o (by rw [hm]; decide) y G P (flip true T) h' none
  refine ⟨R', hf, ?_⟩
  obtain ⟨-, e', he', k1, k2, k3, -⟩ := fit_ok hf
  have s1 := C128_se_dr L o hm y G P T none R hR
  have s2 := C128_se_dr L o hm y G P (flip true T) none R' hf
  rw [estimate, hm] at he he'
  cases he
  cases he'
  have hsz : ∀ g p t, size G P (flip true T) g p t = size G P T g p (!t) := fun g p t => by
    have := size_flip false false true G P T g p t
    rw [hG, hP] at this
    simpa using this
  have hwi : ∀ g p t, within y G P (flip true T) g p t = within y G P T g p (!t) := fun g p t => by
    have := within_flip false false true y G P T g p t
    rw [hG, hP] at this
    simpa using this
  have hme : ∀ g p t, cellMean y G P (flip true T) g p t = cellMean y G P T g p (!t) := fun g p t => by
    have := mean_flip false false true y G P T g p t
    rw [hG, hP] at this
    simpa using this
  refine turned_of (x := drAtt o.trim y (cellMu y G P T) G P T (shares G P)) (v := some _) hR hf h1 ?_ s1 ?_ (by rw [k3, h3]; rfl) (fun g p t => by rw [hme]; simp)
  · rw [k1]
    show Ext.fin (drAtt o.trim y (cellMu y G P (flip true T)) G P (flip true T) (shares G P)) = Ext.fin (-_)
    congr 1
    unfold drAtt
    rw [← combine_turn]
    have hmu : cellMu y G P (flip true T) = cellMu y G P T := by
      funext i
      have := hme (G i) (P i) (flip true T i)
      have e2 : (!flip true T i) = T i := by simp [flip]
      rw [e2] at this
      exact this
    rw [hmu]
    congr 1
    funext g p t
    rw [period_flip]
    simp
  · rw [s2]
    simp only [hsz, hwi]
    have := cells_flip false false true (fun g p t => within y G P T g p t / ((size G P T g p t : K) * ((size G P T g p t : K) - 1)))
    simp only [Bool.false_xor, Bool.true_xor] at this
    rw [this]
    rfl

theorem combine_flip (a b c : Bool) (m : Bool → Bool → Bool → K) :
    combine (fun g p t => m (xor a g) (xor b p) (xor c t)) = if xor a (xor b c) then -combine m else combine m := by
  unfold combine
  cases a <;> cases b <;> cases c <;> simp <;> ring

/-- C155. Default method without covariates when no share of a group-by-partition cell is trimmed: as for the regression, in any combination of exchanged
columns, with any cell sizes. -/
theorem C155_triple_dr (L : Lib ι K) (o : Opts ι C K) (hm : o.method = .dr) (ht : 0 < o.trim) (y : ι → K) (G P T : ι → Bool)
    (hclip : ∀ g p i, o.trim ≤ shares G P g p i ∧ shares G P g p i ≤ 1 - o.trim)
    (a b c : Bool) (R : Result K) (hR : fit L o y G P T none = .ok R) :
    ∃ R', fit L o y (flip a G) (flip b P) (flip c T) none = .ok R' ∧ Turned (xor a (xor b c)) a b c R R' := by
  obtain ⟨h, e, he, h1, h2, h3, -⟩ := fit_ok hR
  have h' := allCells_flip a b c h
  obtain ⟨R', hf⟩ := C128_weighting_total L o (by rw [hm]; decide) y _ _ _ h' none
  refine ⟨R', hf, ?_⟩
  obtain ⟨-, e', he', k1, k2, k3, -⟩ := fit_ok hf
  have s1 := C128_se_dr L o hm y G P T none R hR
  have s2 := C128_se_dr L o hm y _ _ _ none R' hf
  rw [estimate, hm] at he he'
  cases he
  cases he'
  have d1 := C36_dr_formula o.trim ht y G P T h hclip
  have d2 := C36_dr_formula o.trim ht y _ _ _ h' (fun g p i => by
    have := hclip (xor a g) (xor b p) i
    unfold shares at this ⊢
    rwa [cell_flip])
  simp only [mean_flip, cellT_flip, period_flip, cell_flip] at d2
  refine turned_of (x := drAtt o.trim y (cellMu y G P T) G P T (shares G P)) (v := some _) hR hf ?_ ?_ s1 ?_ (by rw [k3, h3]; rfl) (fun g p t => mean_flip a b c y G P T g p t)
  · exact h1
  · rw [k1]
    show Ext.fin (drAtt o.trim y (cellMu y (flip a G) (flip b P) (flip c T)) (flip a G) (flip b P) (flip c T) (shares (flip a G) (flip b P))) = _
    rw [d2, d1]
    refine Eq.trans (congrArg Ext.fin (combine_flip a b c (fun g p t => cellMean y G P T g p t *
        ((((cellT G P T g p t).card : K) / (period T t).card) / (((cell G P g p).card : K) / Fintype.card ι))))) ?_
    unfold turn
    split_ifs <;> rfl
  · rw [s2]
    simp only [size_flip, within_flip]
    rw [cells_flip a b c (fun g p t => within y G P T g p t / ((size G P T g p t : K) * ((size G P T g p t : K) - 1)))]
    rfl

/-- C155. Inverse weighting without covariates: the estimate turns round, in any combination of exchanged columns. -/
theorem C155_triple_ipw_partial (L : Lib ι K) (hL : Good L) (o : Opts ι C K) (hm : o.method = .ipw) (ht : o.trim < 1) (y : ι → K) (G P T : ι → Bool)
    (a b c : Bool) (R : Result K) (hR : fit L o y G P T none = .ok R) :
    ∃ R', fit L o y (flip a G) (flip b P) (flip c T) none = .ok R' ∧ R'.att = turn (xor a (xor b c)) R.att := by
  obtain ⟨h, e, he, h1, -⟩ := fit_ok hR
  have h' := allCells_flip a b c h
  obtain ⟨R', hf⟩ := C128_weighting_total L o (by rw [hm]; decide) y _ _ _ h' none
  refine ⟨R', hf, ?_⟩
  obtain ⟨-, e', he', k1, -⟩ := fit_ok hf
  rw [estimate, hm] at he he'
  cases he
  cases he'
  have d1 := C36_ipw o.trim ht y G P T h
  have d2 := C36_ipw o.trim ht y _ _ _ h'
  rw [k1, h1]
  show Ext.fin (ipwAtt o.trim y (flip a G) (flip b P) (flip c T) (shares (flip a G) (flip b P))) = turn _ (Ext.fin (ipwAtt o.trim y G P T (shares G P)))
  rw [d1, d2, ddd_flip]
  unfold turn
  split_ifs <;> rfl

/-! ### Where it fails -/

/-- Nine rows: one per cell and a second one in the cell of treated, eligible, late rows. -/
def nG : Fin 9 → Bool := fun i => i.val.testBit 0 || i.val == 8
def nP : Fin 9 → Bool := fun i => i.val.testBit 1 || i.val == 8
def nT : Fin 9 → Bool := fun i => i.val.testBit 2 || i.val == 8
def nY : Fin 9 → ℚ := fun i => i.val

theorem nAll : AllCells nG nP nT := by unfold AllCells; decide +kernel

/-- C155. The default method with a trimmed share: exchanging the labels of the groups does not turn the estimate round. -/
theorem C155_triple_dr_refuted (L : Lib (Fin 9) ℚ) :
    ∃ R R' : Result ℚ, fit L (⟨.dr, true, none, 1 / 20, 1 / 4, false⟩ : Opts (Fin 9) ℕ ℚ) nY nG nP nT none = .ok R ∧
      fit L (⟨.dr, true, none, 1 / 20, 1 / 4, false⟩ : Opts (Fin 9) ℕ ℚ) nY (flip true nG) nP nT none = .ok R' ∧ R'.att ≠ Ext.neg R.att := by
  have h' : AllCells (flip true nG) nP nT := by unfold AllCells; decide +kernel
  obtain ⟨R, hR⟩ := C128_weighting_total L (⟨.dr, true, none, 1 / 20, 1 / 4, false⟩ : Opts (Fin 9) ℕ ℚ) (by decide) nY nG nP nT nAll none
  obtain ⟨R', hR'⟩ := C128_weighting_total L (⟨.dr, true, none, 1 / 20, 1 / 4, false⟩ : Opts (Fin 9) ℕ ℚ) (by decide) nY (flip true nG) nP nT h' none
  refine ⟨R, R', hR, hR', ?_⟩
  obtain ⟨-, e, he, h1, -⟩ := fit_ok hR
  obtain ⟨-, e', he', k1, -⟩ := fit_ok hR'
  cases he
  cases he'
  rw [h1, k1]
  show Ext.fin (drAtt (1 / 4) nY (cellMu nY (flip true nG) nP nT) (flip true nG) nP nT (shares (flip true nG) nP))
    ≠ Ext.fin (-drAtt (1 / 4) nY (cellMu nY nG nP nT) nG nP nT (shares nG nP))
  intro hh
  injection hh with hh
  revert hh
  decide +kernel

/-- C155. Inverse weighting: exchanging the two periods changes the standard error. -/
theorem C155_triple_ipw_refuted (L : Lib (Fin 9) ℚ) (hq : Function.Injective L.sqrt) :
    ∃ R R' : Result ℚ, fit L (⟨.ipw, true, none, 1 / 20, 1 / 100, false⟩ : Opts (Fin 9) ℕ ℚ) nY nG nP nT none = .ok R ∧
      fit L (⟨.ipw, true, none, 1 / 20, 1 / 100, false⟩ : Opts (Fin 9) ℕ ℚ) nY nG nP (flip true nT) none = .ok R' ∧ R'.se ≠ R.se := by
  have h' : AllCells nG nP (flip true nT) := by unfold AllCells; decide +kernel
  obtain ⟨R, hR⟩ := C128_weighting_total L (⟨.ipw, true, none, 1 / 20, 1 / 100, false⟩ : Opts (Fin 9) ℕ ℚ) (by decide) nY nG nP nT nAll none
  obtain ⟨R', hR'⟩ := C128_weighting_total L (⟨.ipw, true, none, 1 / 20, 1 / 100, false⟩ : Opts (Fin 9) ℕ ℚ) (by decide) nY nG nP (flip true nT) h' none
  refine ⟨R, R', hR, hR', ?_⟩
  obtain ⟨-, e, he, -, h1, -⟩ := fit_ok hR
  obtain ⟨-, e', he', -, k1, -⟩ := fit_ok hR'
  cases he
  cases he'
  rw [h1, k1]
  show Ext.fin (L.sqrt (ipwVar (1 / 100) nY nG nP (flip true nT) (shares nG nP))) ≠ Ext.fin (L.sqrt (ipwVar (1 / 100) nY nG nP nT (shares nG nP)))
  intro hh
  injection hh with hh
  have := hq hh
  revert this
  decide +kernel

/-- The regression on the nine rows with groups and periods exchanged, and with groups only: it runs, with a nonzero estimate. -/
example (r : ℚ → ℚ) (D : ℤ → Inference.Dist ℚ) : ∃ (L : Lib (Fin 9) ℚ) (R R1 R2 : Result ℚ),
    fit L (⟨.reg, true, none, 1 / 20, 1 / 100, false⟩ : Opts (Fin 9) ℕ ℚ) nY nG nP nT none = .ok R ∧
    fit L (⟨.reg, true, none, 1 / 20, 1 / 100, false⟩ : Opts (Fin 9) ℕ ℚ) nY (flip true nG) (flip false nP) (flip false nT) none = .ok R1 ∧
    fit L (⟨.reg, true, none, 1 / 20, 1 / 100, false⟩ : Opts (Fin 9) ℕ ℚ) nY (flip true nG) (flip false nP) (flip true nT) none = .ok R2 ∧
    R.att = .fin (1 / 2) ∧ R1.att = .fin (-(1 / 2)) ∧ R2.att = .fin (1 / 2) ∧ R1.se = R.se ∧ R2.p = R.p := by
  obtain ⟨L, hL, -⟩ := exists_good (ι := Fin 9) r D (D 0)
  cases hf : fit L (⟨.reg, true, none, 1 / 20, 1 / 100, false⟩ : Opts (Fin 9) ℕ ℚ) nY nG nP nT none with
  | error e =>
    rcases (C128_fails L hL _ _ _ _ _ e).1 hf with ⟨h, -⟩ | ⟨-, -, -, h, -⟩
    · exact absurd nAll h
    · simp at h
  | ok R =>
    obtain ⟨R1, f1, t1⟩ := C155_triple_reg L hL _ rfl nY nG nP nT true false false R hf
    obtain ⟨R2, f2, t2⟩ := C155_triple_reg L hL _ rfl nY nG nP nT true false true R hf
    have ha : R.att = .fin (1 / 2) := by
      obtain ⟨h, e, he, h1, -⟩ := fit_ok hf
      obtain ⟨V, -, p1, -⟩ := reg_ok hL h he
      rw [h1, p1]
      exact congrArg Ext.fin (by decide +kernel)
    refine ⟨L, R, R1, R2, hf, f1, f2, ha, ?_, ?_, t1.se, t2.p⟩
    · rw [t1.att, ha]; rfl
    · rw [t2.att, ha]; rfl

/-- The nine rows meet the hypothesis of the default method. -/
example : ∀ g p i, (1 / 100 : ℚ) ≤ shares (K := ℚ) nG nP g p i ∧ shares (K := ℚ) nG nP g p i ≤ 1 - 1 / 100 := by
  decide +kernel

end DiffDiff.TripleFit
