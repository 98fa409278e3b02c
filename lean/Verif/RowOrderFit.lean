/-
C145, continued: the order of the rows does not change the estimators built on regressions: LinearRegression, DifferenceInDifferences (also with absorbed
effects), TwoWayFixedEffects and SunAbraham.
-/
import Verif.RowOrderProps
import Verif.TwfeFitProps
import Verif.SunAb
import Mathlib.Data.List.Perm.Basic
import Mathlib.Data.List.Sort

set_option linter.unusedSectionVars false
set_option linter.unusedVariables false

namespace DiffDiff.RowOrder
open Matrix
open Ols (IsOls resid fitted dot keptCols reduce)

section rows
variable {K : Type*} [Field K] [LinearOrder K] [IsStrictOrderedRing K]
variable {ι ι' U T C : Type*} [Fintype ι] [DecidableEq ι] [Fintype ι'] [DecidableEq ι'] [DecidableEq U] [DecidableEq T] [DecidableEq C]

/-! ### Specification -/

/-- The columns that are not dropped are linearly independent. -/
def Independent {k : ℕ} (X : Matrix ι (Fin k) K) (drop : List (Fin k)) : Prop :=
  ∀ v : Fin k → K, (∀ j ∈ drop, v j = 0) → (∀ i, ∑ j, X i j * v j = 0) → v = 0

/-- Options for the rows in another order. -/
def movedOpts (e : ι' ≃ ι) (o : LinReg.Opts ι C) : LinReg.Opts ι' C :=
  ⟨o.robust, o.ownIds.map (fun f i => f (e i)), o.callIds.map (fun f i => f (e i)), o.strict⟩

/-- A fitted regression for the rows in another order: residuals and fitted values move with the rows, everything else stays. -/
def moved {k : ℕ} (e : ι' ≃ ι) (f : LinReg.Fit ι k K) : LinReg.Fit ι' k K :=
  ⟨f.coef, f.vcov, fun i => f.resid (e i), fun i => f.fitted (e i), f.nObs, f.nParams, f.nEff, f.df⟩

/-- The same routines on another row index: same distributions and square root, both solve least squares problems. -/
structure Same (L : DidFit.Lib ι K) (L' : DidFit.Lib ι' K) : Prop where
  solves : LinReg.Solves L.solvers
  solves' : LinReg.Solves L'.solvers
  sqrt : L'.sqrt = L.sqrt
  tD : L'.tD = L.tD
  nD : L'.nD = L.nD

/-! ### Lemmas -/

theorem Independent.det {k : ℕ} {X : Matrix ι (Fin k) K} (h : Independent X []) : (Xᵀ * X).det ≠ 0 :=
  DidFit.det_of_injective X fun v hv => h v (fun j hj => absurd hj List.not_mem_nil) hv

/-- The columns kept, as a matrix. -/
abbrev keptMatrix {k : ℕ} (X : Matrix ι (Fin k) K) (drop : List (Fin k)) : Matrix ι (Fin (keptCols drop).length) K := reduce X (keptCols drop)

theorem Independent.det_reduce {k : ℕ} {X : Matrix ι (Fin k) K} {drop : List (Fin k)} (h : Independent X drop) :
    ((keptMatrix X drop)ᵀ * keptMatrix X drop).det ≠ 0 := by
  refine DidFit.det_of_injective _ fun v hv => ?_
  have hnd : (keptCols drop).Nodup := Ols.keptCols_nodup drop
  have hget : ∀ j, Ols.expandCoef (keptCols drop) v ((keptCols drop).get j) = some (v j) := Ols.expandCoef_get _ hnd v
  have hnone : ∀ i, i ∉ keptCols drop → Ols.expandCoef (keptCols drop) v i = none := fun i hi => Ols.expandCoef_none _ _ _ hi
  have hz := h (fun i => (Ols.expandCoef (keptCols drop) v i).getD 0) (fun j hj => by
    rw [hnone j (fun h' => (Ols.mem_keptCols drop j).1 h' hj)]; rfl) (fun i => by
    have e := Ols.sum_kept (keptCols drop) hnd (fun j => X i j * (Ols.expandCoef (keptCols drop) v j).getD 0) (fun j hj => by rw [hnone j hj]; simp)
    rw [e]
    have : ∀ j, X i ((keptCols drop).get j) * (Ols.expandCoef (keptCols drop) v ((keptCols drop).get j)).getD 0 = reduce X (keptCols drop) i j * v j := by
      intro j; rw [hget]; rfl
    simp only [this]
    exact hv i)
  funext j
  have := congrFun hz ((keptCols drop).get j)
  simp only [hget, Option.getD_some] at this
  exact this

theorem gram_moved {k : ℕ} (e : ι' ≃ ι) (X : Matrix ι (Fin k) K) : (X.submatrix e id)ᵀ * X.submatrix e id = Xᵀ * X := by
  ext a b
  simp only [mul_apply, transpose_apply, submatrix_apply, id]
  exact Equiv.sum_comp e (fun i => X i a * X i b)

theorem lstsq_moved {E : LinReg.Solvers ι K} {E' : LinReg.Solvers ι' K} (h : LinReg.Solves E) (h' : LinReg.Solves E') (e : ι' ≃ ι) {k : ℕ}
    {X : Matrix ι (Fin k) K} (hX : (Xᵀ * X).det ≠ 0) (y : ι → K) : E'.lstsq (X.submatrix e id) (fun i => y (e i)) = E.lstsq X y := by
  refine LinReg.ols_unique (X := X.submatrix e id) (by rw [gram_moved]; exact hX) (h' _ _) ?_
  intro j
  exact (Equiv.sum_comp e (fun i => X i j * resid X y (E.lstsq X y) i)).trans (h X y j)

theorem vcov_moved (pinv pinv' : ∀ {m : ℕ}, Matrix (Fin m) (Fin m) K → Matrix (Fin m) (Fin m) K) (o : LinReg.Opts ι C) (e : ι' ≃ ι) {k : ℕ}
    (X : Matrix ι (Fin k) K) (hX : (Xᵀ * X).det ≠ 0) (u : ι → K) :
    LinReg.vcov pinv' (movedOpts e o) (X.submatrix e id) (fun i => u (e i)) = LinReg.vcov pinv o X u := by
  have hids : (movedOpts e o).ids = o.ids.map (fun f i => f (e i)) := by
    unfold LinReg.Opts.ids movedOpts
    cases o.callIds <;> rfl
  have hsome : (movedOpts e o).ids.isSome = o.ids.isSome := by rw [hids]; simp
  have hr : (movedOpts e o).robust = o.robust := rfl
  unfold LinReg.vcov
  rw [hsome, hr, hids, Vcov.C14_row_order e X u o.ids]
  split_ifs
  · rfl
  · congr 1
    unfold LinReg.classical
    simp only [Fintype.card_congr e, gram_moved, hX, if_false]
    rw [Equiv.sum_comp e (fun i => u i ^ 2)]

/-! ### Regression -/

/-- C145. LinearRegression.fit: moving the rows (design, outcome, cluster identifiers together) changes neither coefficients nor covariances, degrees of
freedom, NaN entries nor errors; residuals and fitted values move along. Dropped columns are allowed, the others being independent. -/
theorem C145_regression (E : LinReg.Solvers ι K) (E' : LinReg.Solvers ι' K) (h : LinReg.Solves E) (h' : LinReg.Solves E') (e : ι' ≃ ι)
    (o : LinReg.Opts ι C) {k : ℕ} (drop : List (Fin k)) (X : Matrix ι (Fin k) K) (hX : Independent X drop) (y : ι → K) (a : ℤ) :
    LinReg.fit E' (movedOpts e o) drop (X.submatrix e id) (fun i => y (e i)) a = (LinReg.fit E o drop X y a).map (moved e) := by
  have hn : Fintype.card ι' = Fintype.card ι := Fintype.card_congr e
  have hs : (movedOpts e o).strict = o.strict := rfl
  unfold LinReg.fit
  cases drop with
  | nil =>
    have hd := hX.det
    have hr : resid (X.submatrix e id) (fun i => y (e i)) (E.lstsq X y) = fun i => resid X y (E.lstsq X y) (e i) := rfl
    have hf : fitted (X.submatrix e id) (E.lstsq X y) = fun i => fitted X (E.lstsq X y) (e i) := rfl
    simp only [hn, lstsq_moved h h' e hd, hr, hf, vcov_moved E.pinv E'.pinv o e X hd]
    by_cases hk : Fintype.card ι < k
    · simp only [hk, if_true]; rfl
    · simp only [hk, if_false]
      cases LinReg.vcov E.pinv o X (resid X y (E.lstsq X y)) <;> rfl
  | cons x xs =>
    have hd := hX.det_reduce
    set Xr : Matrix ι (Fin (keptCols (x :: xs)).length) K := keptMatrix X (x :: xs) with hXr
    have hred0 : (reduce X (keptCols (x :: xs)) : Matrix ι (Fin (keptCols (x :: xs)).length) K) = Xr := rfl
    have hred : (reduce (X.submatrix e id) (keptCols (x :: xs)) : Matrix ι' (Fin (keptCols (x :: xs)).length) K) = Xr.submatrix e id := rfl
    have hl := lstsq_moved h h' e hd y
    have hr : resid (Xr.submatrix e id) (fun i => y (e i)) (E.lstsq Xr y) = fun i => resid Xr y (E.lstsq Xr y) (e i) := rfl
    have hf : fitted (Xr.submatrix e id) (E.lstsq Xr y) = fun i => fitted Xr (E.lstsq Xr y) (e i) := rfl
    have hv := vcov_moved E.pinv E'.pinv o e Xr hd (resid Xr y (E.lstsq Xr y))
    simp only [hn, hred, hred0, hs, hl, hr, hf]
    rw [hv]
    by_cases hk : Fintype.card ι < k
    · simp only [hk, if_true]; rfl
    · by_cases h1 : o.strict = true
      · simp only [hk, h1, if_true, if_false]; rfl
      · by_cases h2 : (keptCols (x :: xs)).length = 0
        · simp only [hk, h1, h2, if_true, if_false]; rfl
        · simp only [hk, h1, h2, if_false]
          cases LinReg.vcov E.pinv o Xr (resid Xr y (E.lstsq Xr y)) <;> rfl

theorem infer_moved {k : ℕ} (e : ι' ≃ ι) (r : K → K) (tD : ℤ → Inference.Dist K) (nD : Inference.Dist K) (f : LinReg.Fit ι k K) (j : Fin k)
    (al : Option K) (alpha : K) (d : Option ℤ) : LinReg.infer r tD nD (moved e f) j al alpha d = LinReg.infer r tD nD f j al alpha d := rfl

theorem rsq_moved (e : ι' ≃ ι) (y r : ι → K) (adj : Bool) (p : ℕ) :
    Vcov.rSquared (fun i => y (e i)) (fun i => r (e i)) adj p = Vcov.rSquared y r adj p := by
  unfold Vcov.rSquared
  simp only [Fintype.card_congr e, Equiv.sum_comp e (fun i => y i), Equiv.sum_comp e (fun i => r i ^ 2)]
  rw [Equiv.sum_comp e (fun i => (y i - (∑ i, y i) / (Fintype.card ι : K)) ^ 2)]

theorem card_filter_moved (e : ι' ≃ ι) (p : ι → Prop) [DecidablePred p] :
    (Finset.univ.filter (fun i => p (e i))).card = (Finset.univ.filter p).card := by
  rw [← Fintype.card_subtype, ← Fintype.card_subtype]
  exact Fintype.card_congr (e.subtypeEquiv (fun i => Iff.rfl))

/-! ### DifferenceInDifferences -/

theorem core_moved (L : DidFit.Lib ι K) (L' : DidFit.Lib ι' K) (hL : Same L L') (e : ι' ≃ ι) (o : DidFit.Opts ι C) (alpha : K) (drop : List (Fin 4))
    (d t : ι → Bool) (hX : Independent (Did2x2.design d t : Matrix ι (Fin 4) K) drop) (y : ι → K) (adj : ℤ) :
    DidFit.fitCore L' ⟨o.robust, o.cluster.map (fun f i => f (e i)), o.strict⟩ alpha drop (fun i => d (e i)) (fun i => t (e i)) (fun i => y (e i)) adj =
      DidFit.fitCore L o alpha drop d t y adj := by
  have k := C145_regression L.solvers L'.solvers hL.solves hL.solves' e (⟨o.robust, o.cluster, none, o.strict⟩ : LinReg.Opts ι C) drop
    (Did2x2.design d t) hX y adj
  have k' : LinReg.fit L'.solvers (⟨o.robust, o.cluster.map (fun f i => f (e i)), none, o.strict⟩ : LinReg.Opts ι' C) drop
      (Did2x2.design (fun i => d (e i)) (fun i => t (e i))) (fun i => y (e i)) adj = _ := k
  unfold DidFit.fitCore
  rw [k']
  cases LinReg.fit L.solvers (⟨o.robust, o.cluster, none, o.strict⟩ : LinReg.Opts ι C) drop (Did2x2.design d t) y adj with
  | error er => rfl
  | ok f =>
    simp only [Except.map, infer_moved, hL.sqrt, hL.tD, hL.nD, Fintype.card_congr e, card_filter_moved e (fun i => d i = true),
      card_filter_moved e (fun i => d i = false)]
    have : Vcov.rSquared (fun i => y (e i)) (moved e f).resid false 0 = Vcov.rSquared y f.resid false 0 := rsq_moved e y f.resid false 0
    rw [this]
    rfl

/-- C145. DifferenceInDifferences.fit: the whole report is the same for the rows in any order. -/
theorem C145_did (L : DidFit.Lib ι K) (L' : DidFit.Lib ι' K) (hL : Same L L') (e : ι' ≃ ι) (o : DidFit.Opts ι C) (alpha : K) (drop : List (Fin 4))
    (d t : ι → Bool) (hX : Independent (Did2x2.design d t : Matrix ι (Fin 4) K) drop) (y : ι → K) :
    DidFit.fit L' ⟨o.robust, o.cluster.map (fun f i => f (e i)), o.strict⟩ alpha drop (fun i => d (e i)) (fun i => t (e i)) (fun i => y (e i)) =
      DidFit.fit L o alpha drop d t y := core_moved L L' hL e o alpha drop d t hX y 0

theorem groupMean_moved {G : Type*} [DecidableEq G] (e : ι' ≃ ι) (g : ι → G) (x : ι → K) (i : ι') :
    Within.groupMean (fun i => g (e i)) (fun i => x (e i)) i = Within.groupMean g x (e i) := by
  unfold Within.groupMean Within.grp
  have h1 : ∀ a : G, ∑ j ∈ Finset.univ.filter (fun j => g (e j) = a), x (e j) = ∑ j ∈ Finset.univ.filter (fun j => g j = a), x j := by
    intro a
    rw [Finset.sum_filter, Finset.sum_filter]
    exact Equiv.sum_comp e (fun j => if g j = a then x j else 0)
  rw [h1, card_filter_moved e (fun j => g j = g (e i))]

theorem image_moved {G : Type*} [DecidableEq G] (e : ι' ≃ ι) (g : ι → G) : Finset.univ.image (fun i => g (e i)) = Finset.univ.image g := by
  ext a
  simp only [Finset.mem_image, Finset.mem_univ, true_and]
  exact ⟨fun ⟨i, hi⟩ => ⟨e i, hi⟩, fun ⟨i, hi⟩ => ⟨e.symm i, by simpa using hi⟩⟩

/-- C145. With absorbed unit effects too. -/
theorem C145_did_absorb (L : DidFit.Lib ι K) (L' : DidFit.Lib ι' K) (hL : Same L L') (e : ι' ≃ ι) (o : DidFit.Opts ι C) (alpha : K) (drop : List (Fin 4))
    (unit : ι → U) (d t : ι → Bool) (hX : Independent (Did2x2.design d t : Matrix ι (Fin 4) K) drop) (y : ι → K) :
    DidFit.fitAbsorb L' ⟨o.robust, o.cluster.map (fun f i => f (e i)), o.strict⟩ alpha drop (fun i => unit (e i)) (fun i => d (e i)) (fun i => t (e i))
      (fun i => y (e i)) = DidFit.fitAbsorb L o alpha drop unit d t y := by
  unfold DidFit.fitAbsorb
  have h1 : Within.demean (fun i => unit (e i)) (fun i => y (e i)) = fun i => Within.demean unit y (e i) := by
    funext i; unfold Within.demean; rw [groupMean_moved]
  have h2 : Within.nEffects (fun i => unit (e i)) = Within.nEffects unit := by unfold Within.nEffects; rw [image_moved]
  rw [h1, h2]
  exact core_moved L L' hL e o alpha drop d t hX _ _

/-! ### TwoWayFixedEffects -/

/-- The same data with the rows in another order. -/
def movedData {c : ℕ} (e : ι' ≃ ι) (D : TwfeFit.Data ι U T C K c) : TwfeFit.Data ι' U T C K c :=
  ⟨fun i => D.y (e i), fun i => D.treat (e i), fun i => D.time (e i), D.num, fun i => D.unit (e i), fun j i => D.cov j (e i),
    D.cluster.map (fun f i => f (e i))⟩

theorem within_moved (e : ι' ≃ ι) (u : ι → U) (t : ι → T) (x : ι → K) :
    Within.within (fun i => u (e i)) (fun i => t (e i)) (fun i => x (e i)) = fun i => Within.within u t x (e i) := by
  funext i
  unfold Within.within Within.grandMean
  rw [groupMean_moved, groupMean_moved, Fintype.card_congr e, Equiv.sum_comp e x]

/-- C145. TwoWayFixedEffects.fit: the whole report, or the error, is the same for the rows in any order, if the column check gives the same answer. -/
theorem C145_twfe {c : ℕ} (L : TwfeFit.Lib ι K) (L' : TwfeFit.Lib ι' K) (hL : Same L.toLib L'.toLib) (e : ι' ≃ ι) (strict : Bool) (alpha : K)
    (D : TwfeFit.Data ι U T C K c)
    (hred : L'.redundant ((TwfeFit.design D).submatrix e id) = L.redundant (TwfeFit.design D))
    (hX : Independent (TwfeFit.design D) (L.redundant (TwfeFit.design D))) :
    TwfeFit.fit L' strict alpha (movedData e D) = TwfeFit.fit L strict alpha D := by
  have hout : TwfeFit.outcome (movedData e D) = fun i => TwfeFit.outcome D (e i) := within_moved e D.unit D.time D.y
  have hdes : TwfeFit.design (movedData e D) = (TwfeFit.design D).submatrix e id := by
    funext i
    unfold TwfeFit.design
    show Fin.cons 1 (Fin.cons _ _) = Fin.cons 1 (Fin.cons _ _)
    congr 2
    funext j
    exact congrFun (within_moved e D.unit D.time (D.cov j)) i
  have hadj : TwfeFit.adjustment (movedData e D) = TwfeFit.adjustment D := by
    unfold TwfeFit.adjustment TwfeFit.nUnique
    show ((Finset.univ.image (fun i => D.unit (e i))).card : ℤ) + ((Finset.univ.image (fun i => D.time (e i))).card : ℤ) - 2 = _
    rw [image_moved, image_moved]
  have hnu : TwfeFit.nUnique (movedData e D).unit = TwfeFit.nUnique D.unit := by
    unfold TwfeFit.nUnique
    show (Finset.univ.image (fun i => D.unit (e i))).card = _
    rw [image_moved]
  have htu : TwfeFit.treatedUnits (movedData e D) = TwfeFit.treatedUnits D := by
    unfold TwfeFit.treatedUnits movedData
    ext u
    simp only [Finset.mem_image, Finset.mem_filter, Finset.mem_univ, true_and]
    exact ⟨fun ⟨i, a, b⟩ => ⟨e i, a, b⟩, fun ⟨i, a, b⟩ => ⟨e.symm i, by simpa using a, by simpa using b⟩⟩
  have hreg : TwfeFit.regress L' strict (movedData e D) = (TwfeFit.regress L strict D).map (moved e) := by
    unfold TwfeFit.regress
    rw [hdes, hout, hadj, hred]
    cases hc : D.cluster with
    | none =>
      have hc' : (movedData e D).cluster = none := by simp [movedData, hc]
      rw [hc']
      exact C145_regression L.solvers L'.solvers hL.solves hL.solves' e
        (⟨true, some (fun i => some (D.unit i)), none, strict⟩ : LinReg.Opts ι U) _ _ hX _ _
    | some g =>
      have hc' : (movedData e D).cluster = some (fun i => g (e i)) := by simp [movedData, hc]
      rw [hc']
      exact C145_regression L.solvers L'.solvers hL.solves hL.solves' e
        (⟨true, some g, none, strict⟩ : LinReg.Opts ι C) _ _ hX _ _
  unfold TwfeFit.fit
  rw [hreg, hnu, htu, hout]
  cases TwfeFit.regress L strict D with
  | error er => rfl
  | ok f =>
    simp only [Except.map, infer_moved, hL.sqrt, hL.tD, hL.nD, Fintype.card_congr e]
    have h1 : (moved e f).coef 1 = f.coef 1 := rfl
    have h2 : LinReg.rsq (moved e f) (fun i => TwfeFit.outcome D (e i)) false = LinReg.rsq f (TwfeFit.outcome D) false :=
      rsq_moved e (TwfeFit.outcome D) f.resid false _
    rw [h1, h2]

/-- The hypotheses can be met: reals, a panel of two treated and two control units, all rows reversed. -/
example : ∃ (L : TwfeFit.Lib (Fin 4 × Bool) ℝ) (R : DidFit.Result ℝ), Same L.toLib L.toLib ∧
    Independent (TwfeFit.design (TwfeFit.panel (fun u : Fin 4 => decide (u < 2)) TwfeFit.noisy)) [] ∧
    TwfeFit.fit L true (1 / 20) (movedData (Equiv.prodCongr Fin.revPerm (Equiv.swap false true))
      (TwfeFit.panel (fun u : Fin 4 => decide (u < 2)) TwfeFit.noisy)) = .ok R := by
  obtain ⟨L, hL⟩ := TwfeFit.exists_works (ι := Fin 4 × Bool)
  have hS : Same L.toLib L.toLib := ⟨hL.solves, hL.solves, rfl, rfl, rfl⟩
  have h : ∀ a, ∃ u : Fin 4, decide (u < 2) = a := by decide
  have hX := TwfeFit.panel_det (K := ℝ) (h true) TwfeFit.noisy
  have himg : Finset.univ.image (fun p : Fin 4 × Bool => p.1) = Finset.univ := by ext u; simp
  obtain ⟨R, hR⟩ := TwfeFit.fit_exists (strict := true) (alpha := 1 / 20) hL hX (by simp)
    (by show 2 ≤ (Finset.univ.image (fun p : Fin 4 × Bool => p.1)).card; rw [himg]; simp)
  have hI : Independent (TwfeFit.design (TwfeFit.panel (fun u : Fin 4 => decide (u < 2)) TwfeFit.noisy)) [] := by
    intro v _ hv
    by_contra hne
    exact hX (Matrix.exists_mulVec_eq_zero_iff.1 ⟨v, hne, by
      rw [← Matrix.mulVec_mulVec]
      have : (TwfeFit.design (TwfeFit.panel (fun u : Fin 4 => decide (u < 2)) TwfeFit.noisy)) *ᵥ v = 0 := funext hv
      rw [this, Matrix.mulVec_zero]⟩)
  have hk := hL.keeps _ hX
  refine ⟨L, R, hS, hI, ?_⟩
  rw [C145_twfe L L hS _ true (1 / 20) _ ?_ (by rw [hk]; exact hI)]
  · exact hR
  · rw [hk]
    exact hL.keeps _ (by rw [gram_moved]; exact hX)

end rows

/-! ### SunAbraham -/

section sun
open SunAb
open scoped List
variable {K : Type*} [Field K] [LinearOrder K] [IsStrictOrderedRing K]

/-- Every unit has one cohort. -/
def OneCohort (df : List (Row K)) : Prop := ∀ r ∈ df, ∀ s ∈ df, r.unit = s.unit → r.cohort = s.cohort

/-- The regression does not depend on the order of the rows: columns and outcome are read off the same rows in another order. -/
def RowBlind (reg : List (List K) → List K → Option (Reg K)) : Prop :=
  ∀ (l l' : List (Row K)), l' ~ l → ∀ (cols : List (Row K → K)) (y : Row K → K),
    reg (cols.map (fun x => l'.map x)) (l'.map y) = reg (cols.map (fun x => l.map x)) (l.map y)

theorem insertionSort_dedup_perm {l l' : List ℤ} (h : l' ~ l) : l'.dedup.insertionSort (· ≤ ·) = l.dedup.insertionSort (· ≤ ·) :=
  List.Perm.eq_of_pairwise' (List.pairwise_insertionSort _ _) (List.pairwise_insertionSort _ _)
    ((List.perm_insertionSort _ _).trans (h.dedup.trans (List.perm_insertionSort _ _).symm))

theorem any_perm {α : Type*} {l l' : List α} (h : l' ~ l) (p : α → Bool) : l'.any p = l.any p := by
  rw [Bool.eq_iff_iff, List.any_eq_true, List.any_eq_true]
  exact ⟨fun ⟨x, a, b⟩ => ⟨x, h.mem_iff.1 a, b⟩, fun ⟨x, a, b⟩ => ⟨x, h.mem_iff.2 a, b⟩⟩

theorem all_perm {α : Type*} {l l' : List α} (h : l' ~ l) (p : α → Bool) : l'.all p = l.all p := by
  rw [Bool.eq_iff_iff, List.all_eq_true, List.all_eq_true]
  exact ⟨fun a x hx => a x (h.mem_iff.2 hx), fun a x hx => a x (h.mem_iff.1 hx)⟩

theorem groups_perm {df df' : List (Row K)} (h : df' ~ df) : groups df' = groups df := by
  unfold groups
  rw [insertionSort_dedup_perm (h.filterMap _), any_perm h]

theorem relPeriods_perm (ant : ℤ) {df df' : List (Row K)} (h : df' ~ df) : relPeriods ant df' = relPeriods ant df := by
  unfold relPeriods
  rw [insertionSort_dedup_perm (h.filterMap _)]

theorem units_perm {df df' : List (Row K)} (h : df' ~ df) : units df' ~ units df := (h.map _).dedup

theorem unitCohort_of_mem {df : List (Row K)} (hc : OneCohort df) {r : Row K} (hr : r ∈ df) : unitCohort df r.unit = r.cohort := by
  unfold unitCohort
  have hall : ∀ c ∈ (df.filter (fun s => decide (s.unit = r.unit))).map (fun s => s.cohort), c = r.cohort := by
    intro c hcm
    obtain ⟨s, hs, rfl⟩ := List.mem_map.1 hcm
    obtain ⟨h1, h2⟩ := List.mem_filter.1 hs
    exact hc s h1 r hr (by simpa using h2)
  have hmem : r.cohort ∈ (df.filter (fun s => decide (s.unit = r.unit))).map (fun s => s.cohort) :=
    List.mem_map.2 ⟨r, List.mem_filter.2 ⟨hr, by simp⟩, rfl⟩
  cases hf : ((df.filter (fun s => decide (s.unit = r.unit))).map (fun s => s.cohort)).find? (fun c => decide (c ≠ .nan)) with
  | some c => rw [Option.getD_some]; exact hall c (List.mem_of_find?_eq_some hf)
  | none =>
    have := List.find?_eq_none.1 hf _ hmem
    simp only [ne_eq, decide_not, Bool.not_eq_true', decide_eq_false_iff_not, not_not] at this
    rw [Option.getD_none, this]

theorem unitNever_of_mem {df : List (Row K)} (hc : OneCohort df) {r : Row K} (hr : r ∈ df) : unitNever df r.unit = r.cohort.isNever := by
  unfold unitNever
  cases hf : df.filter (fun s => decide (s.unit = r.unit)) with
  | nil =>
    have : r ∈ df.filter (fun s => decide (s.unit = r.unit)) := List.mem_filter.2 ⟨hr, by simp⟩
    rw [hf] at this; cases this
  | cons s l =>
    have hs : s ∈ df.filter (fun s => decide (s.unit = r.unit)) := by rw [hf]; exact List.mem_cons_self
    obtain ⟨h1, h2⟩ := List.mem_filter.1 hs
    simp [hc s h1 r hr (by simpa using h2)]

theorem mem_units {df : List (Row K)} {u : ℕ} : u ∈ units df ↔ ∃ r ∈ df, r.unit = u := by
  unfold units; simp

theorem count_units {df df' : List (Row K)} (h : df' ~ df) (p p' : ℕ → Bool) (hp : ∀ r ∈ df, p' r.unit = p r.unit) :
    ((units df').filter p').length = ((units df).filter p).length := by
  have h1 : (units df').filter p' = (units df').filter p := by
    refine List.filter_congr fun u hu => ?_
    obtain ⟨r, hr, rfl⟩ := mem_units.1 hu
    exact hp r (h.mem_iff.1 hr)
  rw [h1]
  exact ((units_perm h).filter p).length_eq

theorem OneCohort.perm {df df' : List (Row K)} (h : df' ~ df) (hc : OneCohort df) : OneCohort df' :=
  fun r hr s hs he => hc r (h.mem_iff.1 hr) s (h.mem_iff.1 hs) he

theorem size_perm {df df' : List (Row K)} (h : df' ~ df) (hc : OneCohort df) (g : CS.Coh) : size df' g = size df g :=
  count_units h _ _ fun r hr => by rw [unitCohort_of_mem (hc.perm h) (h.mem_iff.2 hr), unitCohort_of_mem hc hr]

theorem within_perm {df df' : List (Row K)} (h : df' ~ df) (x : Row K → K) (r : Row K) : within df' x r = within df x r := by
  unfold within
  simp only [((h.filter _).map x).sum_eq, (h.filter _).length_eq, (h.map x).sum_eq, h.length_eq]

theorem sample_perm (c : Control) {df df' : List (Row K)} (h : df' ~ df) : sample c df' ~ sample c df := by
  cases c
  · exact h.filter _
  · exact h

theorem saturated_perm {reg : List (List K) → List K → Option (Reg K)} (hreg : RowBlind reg) (gs : List CS.Coh) (es : List ℤ) {df df' : List (Row K)}
    (h : df' ~ df) : saturated reg gs es df' = saturated reg gs es df := by
  have hk : keys gs es df' = keys gs es df := by
    unfold keys; exact List.filter_congr fun k _ => any_perm h _
  unfold saturated
  simp only [hk]
  by_cases h0 : keys gs es df = []
  · simp only [h0, if_true]
  · simp only [h0, if_false]
    unfold response
    rw [all_perm h]
    by_cases hy : df.all (fun r => r.y.isSome) = true
    · simp only [hy, if_true]
      have hw : ∀ x : Row K → K, within df' x = within df x := fun x => funext (within_perm h x)
      have e1 : design df' (keys gs es df) = ((keys gs es df).map (fun k => within df (dummy k))).map (fun x => df'.map x) := by
        unfold design; rw [List.map_map]; exact List.map_congr_left fun k _ => by rw [hw]; rfl
      have e2 : design df (keys gs es df) = ((keys gs es df).map (fun k => within df (dummy k))).map (fun x => df.map x) := by
        unfold design; rw [List.map_map]; rfl
      have e3 : (df'.map (fun r => within df' (fun s => s.y.getD 0) r)) = df'.map (within df (fun s => s.y.getD 0)) := by rw [hw]
      rw [e1, e2, e3, hreg df df' h]
    · simp only [hy]; rfl

/-- C145. SunAbraham.fit: the whole report is the same for the rows in any order, if every unit has one cohort. -/
theorem C145_sun_abraham (reg : List (List K) → List K → Option (Reg K)) (hreg : RowBlind reg) (ant : ℤ) (c : Control) (df df' : List (Row K))
    (h : df' ~ df) (hc : OneCohort df) : SunAb.fit reg ant c df' = SunAb.fit reg ant c df := by
  have hctl : nControl df' = nControl df := count_units h _ _ fun r hr => by
    rw [unitNever_of_mem (hc.perm h) (h.mem_iff.2 hr), unitNever_of_mem hc hr]
  have htr : nTreated df' = nTreated df := count_units h _ _ fun r hr => by
    rw [unitCohort_of_mem (hc.perm h) (h.mem_iff.2 hr), unitCohort_of_mem hc hr]
  have hsz : size df' = size df := funext (size_perm h hc)
  have hts : totalSize df' = totalSize df := by funext cs; unfold totalSize; rw [hsz]
  have hwt : ∀ cs, (weights df' cs : List (CS.Coh × K)) = weights df cs := by intro cs; unfold weights; rw [hsz, hts]
  have hev : ∀ gs ks (f : Reg K) e, eventAt df' gs ks f e = eventAt df gs ks f e := by
    intro gs ks f e; unfold eventAt; simp only [hts, hwt]
  have hca : countAt df' = countAt df := by
    funext e; unfold countAt; rw [(h.filter _).length_eq]
  have hov : ∀ ks (f : Reg K) es, overall df' ks f es = overall df ks f es := by
    intro ks f es; unfold overall postWeights; simp only [hca]
  unfold SunAb.fit
  rw [hctl, groups_perm h, relPeriods_perm ant h, saturated_perm hreg _ _ (sample_perm c h), htr, h.length_eq]
  have hiw : ∀ ks (f : Reg K), iwEffects df' (groups df) (relPeriods ant df) ks f = iwEffects df (groups df) (relPeriods ant df) ks f := by
    intro ks f; unfold iwEffects; exact List.filterMap_congr fun e _ => hev _ _ _ _
  simp only [hiw, hov]

/-- A unit recorded as treated from period 2 in one row and as never treated in another, and a never treated unit. -/
def mixed : List (Row ℚ) := [⟨0, 1, 1, .num 2, some 0⟩, ⟨1, 1, 2, .num 0, some 1⟩, ⟨2, 2, 1, .num 0, some 0⟩, ⟨3, 2, 2, .num 0, some 0⟩]

/-- Refuted reading of C145: without the condition on the cohorts the order matters. Moving the second row of a unit with two different first treatment
periods to the front changes the number of treated and of control units. -/
theorem C145_mixed_cohort_refuted :
    ¬ ∀ df df' : List (Row ℚ), df' ~ df → nTreated df' = nTreated df ∧ nControl df' = nControl df := by
  intro h
  have h1 := h mixed [⟨1, 1, 2, .num 0, some 1⟩, ⟨0, 1, 1, .num 2, some 0⟩, ⟨2, 2, 1, .num 0, some 0⟩, ⟨3, 2, 2, .num 0, some 0⟩]
    (List.Perm.swap _ _ _)
  revert h1
  decide +kernel

/-- The hypotheses of the theorem can be met: a regression routine that reads only sums over the rows. -/
example : RowBlind (K := ℚ) (fun X y => some ⟨fun j => (X[j]?).map (fun c => (List.zipWith (· * ·) c y).sum), fun _ _ => some 1⟩) ∧
    OneCohort (K := ℚ) [⟨0, 1, 1, .num 2, some 0⟩, ⟨1, 1, 2, .num 2, some 1⟩, ⟨2, 2, 1, .num 0, some 0⟩, ⟨3, 2, 2, .num 0, some 0⟩] := by
  refine ⟨?_, ?_⟩
  · intro l l' h cols y
    have e : ∀ (l : List (Row ℚ)) (x : Row ℚ → ℚ), List.zipWith (· * ·) (l.map x) (l.map y) = l.map (fun r => x r * y r) := by
      intro l x; induction l with
      | nil => rfl
      | cons a l ih => simp [ih]
    simp only [List.getElem?_map, Option.map_map, Function.comp_def, e, (h.map _).sum_eq]
  · unfold OneCohort; decide

end sun

end DiffDiff.RowOrder
