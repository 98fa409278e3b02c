/-
Property C153 (TROP): the outcome in other units.
-/
import Verif.TropTightProps
import Mathlib.Analysis.SpecialFunctions.Exp
import Mathlib.Analysis.SpecialFunctions.Sqrt

set_option linter.unusedSectionVars false
set_option linter.unusedVariables false

namespace DiffDiff.TropFit

section
variable {K : Type*} [Field K] [LinearOrder K] [IsStrictOrderedRing K]
variable (e r : K → K) (svd : K → ℕ → ℕ → (ℕ → ℕ → K) → (ℕ → ℕ → K))

/-- Multiply every outcome by `c`. -/
def scaleD (c : K) (P : Data K) : Data K := { P with Y := fun t i => (P.Y t i).map (c * ·) }

/-- A fitted model in other units. -/
def scaleF (c : K) (f : Fit K) : Fit K :=
  { alpha := fun i => c * f.alpha i, beta := fun t => c * f.beta t, L := fun t i => c * f.L t i }

/-- The settings that go with outcomes multiplied by `c`: the convergence tolerance times `c`, … -/
def scaleC (c : K) (g : Cfg K) : Cfg K := { g with tol := c * g.tol }

/-- … `lambda_unit` divided by `c`, and `lambda_nn` times `c`. -/
def scaleL (c : K) (l : Lam3 K) : Lam3 K := { time := l.time, unit := l.unit / c, nn := c * l.nn }

variable {e r svd} {c : K}

theorem valid_scale (P : Data K) (ex : Option (ℕ × ℕ)) (t i : ℕ) : valid (scaleD c P) ex t i = valid P ex t i := by
  show (((P.Y t i).map (c * ·)).isSome && decide (P.D t i = 0) && !decide (ex = some (t, i))) = _
  rw [Option.isSome_map]
  rfl

theorem sqDiffs_scale (P : Data K) (j i t : ℕ) :
    sqDiffs (fieldOps e r svd) (scaleD c P) j i t = (sqDiffs (fieldOps e r svd) P j i t).map (c ^ 2 * ·) := by
  unfold sqDiffs
  rw [List.map_filterMap]
  show (List.range P.nT).filterMap _ = (List.range P.nT).filterMap _
  congr 1
  funext s
  show (if s ≠ t ∧ P.D s i = 0 ∧ P.D s j = 0 then
      ((P.Y s i).map (c * ·)).bind (fun a => ((P.Y s j).map (c * ·)).map (fun b => sqDiff (fieldOps e r svd) a b)) else none)
    = Option.map (c ^ 2 * ·) (if s ≠ t ∧ P.D s i = 0 ∧ P.D s j = 0 then
      (P.Y s i).bind (fun a => (P.Y s j).map (fun b => sqDiff (fieldOps e r svd) a b)) else none)
  split_ifs
  · cases P.Y s i with
    | none => rfl
    | some a =>
      cases P.Y s j with
      | none => rfl
      | some b =>
        show some ((c * a - c * b) * (c * a - c * b)) = some (c ^ 2 * ((a - b) * (a - b)))
        congr 1; ring
  · rfl

theorem sum_mul_list (d : K) (l : List K) : (l.map (d * ·)).sum = d * l.sum := by
  induction l with
  | nil => simp
  | cons a l ih => simp only [List.map_cons, List.sum_cons, ih]; ring

variable (hr : ∀ x, r (c ^ 2 * x) = c * r x)

include hr in
theorem dist_scale (P : Data K) (j i t : ℕ) :
    dist (fieldOps e r svd) (scaleD c P) j i t = (dist (fieldOps e r svd) P j i t).map (c * ·) := by
  unfold dist
  rw [sqDiffs_scale]
  cases hl : sqDiffs (fieldOps e r svd) P j i t with
  | nil => rfl
  | cons a l =>
    show some (r (sumL (fieldOps e r svd) (List.map (c ^ 2 * ·) (a :: l)) / ((List.map (c ^ 2 * ·) (a :: l)).length : K)))
      = some (c * r (sumL (fieldOps e r svd) (a :: l) / ((a :: l).length : K)))
    rw [sumL_field, sumL_field, List.length_map, ← hr, ← mul_div_assoc, sum_mul_list]

include hr in
theorem weights_scale (hc : c ≠ 0) (P : Data K) (lamT lamU : K) (i t : ℕ) :
    weights (fieldOps e r svd) (scaleD c P) lamT (lamU / c) i t = weights (fieldOps e r svd) P lamT lamU i t := by
  funext s j
  unfold weights
  congr 1
  unfold unitWeight
  rw [dist_scale hr]
  have hz : (fieldOps e r svd).isZero (lamU / c) = (fieldOps e r svd).isZero lamU := by
    show decide (lamU / c = 0) = decide (lamU = 0)
    simp [hc]
  have hD : (scaleD c P).D = P.D := rfl
  rw [hz, hD]
  cases dist (fieldOps e r svd) P j i t with
  | none => rfl
  | some d =>
    have : (fieldOps e r svd).mul ((fieldOps e r svd).neg (lamU / c)) (c * d) = (fieldOps e r svd).mul ((fieldOps e r svd).neg lamU) d := by
      show -(lamU / c) * (c * d) = -lamU * d
      field_simp
    simp only [Option.map_some, this]

include hr in
theorem obsWeights_scale (hc : c ≠ 0) (pre : Option (Data K)) (P : Data K) (l : Lam3 K) (i t : ℕ) :
    obsWeights (fieldOps e r svd) (pre.map (scaleD c)) (scaleD c P) (scaleL c l).time (scaleL c l).unit i t
      = obsWeights (fieldOps e r svd) pre P l.time l.unit i t := by
  unfold obsWeights
  cases pre with
  | none => exact weights_scale hr hc P _ _ i t
  | some Q => exact weights_scale hr hc Q _ _ i t

theorem wMasked_scale (P : Data K) (ex : Option (ℕ × ℕ)) (W : ℕ → ℕ → K) :
    wMasked (fieldOps e r svd) (scaleD c P) ex W = wMasked (fieldOps e r svd) P ex W := by
  funext t i
  unfold wMasked
  rw [valid_scale]

theorem ySafe_scale (P : Data K) : ySafe (fieldOps e r svd) (scaleD c P) = fun t i => c * ySafe (fieldOps e r svd) P t i := by
  funext t i
  show ((P.Y t i).map (c * ·)).getD 0 = c * (P.Y t i).getD 0
  cases P.Y t i <;> simp

theorem alphaStep_scale (nT : ℕ) (Y W : ℕ → ℕ → K) (f : Fit K) (i : ℕ) :
    alphaStep (fieldOps e r svd) nT (fun t i => c * Y t i) W (scaleF c f) i = c * alphaStep (fieldOps e r svd) nT Y W f i := by
  rw [alphaStep_eq, alphaStep_eq]
  split_ifs
  · rw [← mul_div_assoc, Finset.mul_sum]
    congr 1
    refine Finset.sum_congr rfl fun t _ => ?_
    show W t i * (c * Y t i - c * f.L t i - c * f.beta t) = _
    ring
  · rw [mul_zero]

theorem betaStep_scale (nN : ℕ) (Y W : ℕ → ℕ → K) (al : ℕ → K) (L : ℕ → ℕ → K) (t : ℕ) :
    betaStep (fieldOps e r svd) nN (fun t i => c * Y t i) W (fun i => c * al i) (fun t i => c * L t i) t
      = c * betaStep (fieldOps e r svd) nN Y W al L t := by
  rw [betaStep_eq, betaStep_eq]
  split_ifs
  · rw [← mul_div_assoc, Finset.mul_sum]
    congr 1
    refine Finset.sum_congr rfl fun i _ => ?_
    ring
  · rw [mul_zero]

theorem rMasked_scale (Y W : ℕ → ℕ → K) (al be : ℕ → K) (L : ℕ → ℕ → K) :
    rMasked (fieldOps e r svd) (fun t i => c * Y t i) W (fun i => c * al i) (fun t => c * be t) (fun t i => c * L t i)
      = fun t i => c * rMasked (fieldOps e r svd) Y W al be L t i := by
  funext t i
  rw [rMasked_eq, rMasked_eq]
  split_ifs
  · ring
  · rfl

theorem maxL_scale (hc : 0 < c) (l : List K) : maxL (fieldOps e r svd) (l.map (c * ·)) = c * maxL (fieldOps e r svd) l := by
  induction l with
  | nil => show (0 : K) = c * 0; rw [mul_zero]
  | cons a l ih =>
    show max (c * a) (maxL (fieldOps e r svd) (l.map (c * ·))) = c * max a (maxL (fieldOps e r svd) l)
    rw [ih, mul_max_of_nonneg _ _ hc.le]

theorem matDiff_scale (hc : 0 < c) (nT nN : ℕ) (A B : ℕ → ℕ → K) :
    matDiff (fieldOps e r svd) nT nN (fun t i => c * A t i) (fun t i => c * B t i) = c * matDiff (fieldOps e r svd) nT nN A B := by
  unfold matDiff
  rw [← maxL_scale hc]
  congr 1
  unfold entries
  rw [List.map_flatMap]
  congr 1
  funext t
  rw [List.map_map]
  refine List.map_congr_left fun i _ => ?_
  show |c * A t i - c * B t i| = c * |A t i - B t i|
  rw [← mul_sub, abs_mul, abs_of_pos hc]

theorem vecDiff_scale (hc : 0 < c) (n : ℕ) (a b : ℕ → K) :
    vecDiff (fieldOps e r svd) n (fun i => c * a i) (fun i => c * b i) = c * vecDiff (fieldOps e r svd) n a b := by
  unfold vecDiff
  rw [← maxL_scale hc, List.map_map]
  congr 1
  refine List.map_congr_left fun i _ => ?_
  show |c * a i - c * b i| = c * |a i - b i|
  rw [← mul_sub, abs_mul, abs_of_pos hc]

theorem lt_scale (hc : 0 < c) (a b : K) : (fieldOps e r svd).lt (c * a) (c * b) = (fieldOps e r svd).lt a b := by
  show decide (c * a < c * b) = decide (a < b)
  have : c * a < c * b ↔ a < b := mul_lt_mul_iff_right₀ hc
  simp only [this]

theorem pymax_scale (hc : 0 < c) (a b : K) : pymax (fieldOps e r svd) (c * a) (c * b) = c * pymax (fieldOps e r svd) a b := by
  unfold pymax
  rw [lt_scale hc]
  split_ifs <;> rfl

theorem close_scale (hc : 0 < c) (tol : K) (nT nN : ℕ) (f g : Fit K) :
    close (fieldOps e r svd) (c * tol) nT nN (scaleF c f) (scaleF c g) = close (fieldOps e r svd) tol nT nN f g := by
  unfold close
  show (fieldOps e r svd).lt (pymax (fieldOps e r svd) (pymax (fieldOps e r svd)
      (vecDiff (fieldOps e r svd) nN (fun i => c * f.alpha i) (fun i => c * g.alpha i))
      (vecDiff (fieldOps e r svd) nT (fun i => c * f.beta i) (fun i => c * g.beta i)))
      (matDiff (fieldOps e r svd) nT nN (fun t i => c * f.L t i) (fun t i => c * g.L t i))) (c * tol) = _
  rw [vecDiff_scale hc, vecDiff_scale hc, matDiff_scale hc, pymax_scale hc, pymax_scale hc, lt_scale hc]

variable (hsvd : ∀ (lam : K) (nT nN : ℕ) (M : ℕ → ℕ → K), svd (c * lam) nT nN (fun t i => c * M t i) = fun t i => c * svd lam nT nN M t i)

include hsvd in
theorem proxStep_scale (nT nN : ℕ) (lam : K) (Wn R L : ℕ → ℕ → K) :
    proxStep (fieldOps e r svd) nT nN (c * lam) Wn (fun t i => c * R t i) (fun t i => c * L t i)
      = fun t i => c * proxStep (fieldOps e r svd) nT nN lam Wn R L t i := by
  unfold proxStep
  show svd (c * lam) nT nN (fun t i => c * L t i + Wn t i * (c * R t i - c * L t i))
    = fun t i => c * svd lam nT nN (fun t i => L t i + Wn t i * (R t i - L t i)) t i
  rw [← hsvd]
  congr 1
  funext t i
  ring

include hsvd in
theorem inner_scale (hc : 0 < c) (tol : K) (nT nN : ℕ) (lam : K) (Wn R : ℕ → ℕ → K) (n : ℕ) : ∀ L : ℕ → ℕ → K,
    inner (fieldOps e r svd) (c * tol) nT nN (c * lam) Wn (fun t i => c * R t i) n (fun t i => c * L t i)
      = fun t i => c * inner (fieldOps e r svd) tol nT nN lam Wn R n L t i := by
  induction n with
  | zero => intro L; rfl
  | succ n ih =>
    intro L
    unfold inner
    rw [proxStep_scale hsvd, matDiff_scale hc, lt_scale hc]
    split_ifs
    · rfl
    · exact ih _

include hsvd in
theorem nnSolve_scale (hc : 0 < c) (tol : K) (nT nN : ℕ) (lam : K) (Y W : ℕ → ℕ → K) (al be : ℕ → K) (L : ℕ → ℕ → K) :
    nnSolve (fieldOps e r svd) (c * tol) nT nN (c * lam) (fun t i => c * Y t i) W (fun i => c * al i) (fun t => c * be t) (fun t i => c * L t i)
      = fun t i => c * nnSolve (fieldOps e r svd) tol nT nN lam Y W al be L t i := by
  unfold nnSolve
  have hz : (fieldOps e r svd).nonpos (c * lam) = (fieldOps e r svd).nonpos lam := by
    show decide (c * lam ≤ 0) = decide (lam ≤ 0)
    have : c * lam ≤ 0 ↔ lam ≤ 0 := by
      rw [← not_lt, ← not_lt, not_iff_not]
      exact ⟨fun h => (pos_iff_pos_of_mul_pos h).1 hc, fun h => mul_pos hc h⟩
    simp only [this]
  rw [hz, rMasked_scale]
  split_ifs
  · rfl
  · exact inner_scale hsvd hc tol nT nN lam _ _ 10 L

include hsvd in
theorem sweep_scale (hc : 0 < c) (tol : K) (nT nN : ℕ) (lam : K) (Y W : ℕ → ℕ → K) (f : Fit K) :
    sweep (fieldOps e r svd) (c * tol) nT nN (c * lam) (fun t i => c * Y t i) W (scaleF c f)
      = scaleF c (sweep (fieldOps e r svd) tol nT nN lam Y W f) := by
  have ha : alphaStep (fieldOps e r svd) nT (fun t i => c * Y t i) W (scaleF c f)
      = fun i => c * alphaStep (fieldOps e r svd) nT Y W f i := by funext i; exact alphaStep_scale nT Y W f i
  have hb : betaStep (fieldOps e r svd) nN (fun t i => c * Y t i) W (fun i => c * alphaStep (fieldOps e r svd) nT Y W f i) (scaleF c f).L
      = fun t => c * betaStep (fieldOps e r svd) nN Y W (alphaStep (fieldOps e r svd) nT Y W f) f.L t := by
    funext t; exact betaStep_scale nN Y W _ f.L t
  unfold sweep
  rw [ha, hb]
  unfold scaleF
  dsimp only
  rw [nnSolve_scale hsvd hc]

include hsvd in
theorem loop_scale (hc : 0 < c) (tol : K) (nT nN : ℕ) (lam : K) (Y W : ℕ → ℕ → K) (n : ℕ) : ∀ f : Fit K,
    loop (fieldOps e r svd) (c * tol) nT nN (c * lam) (fun t i => c * Y t i) W n (scaleF c f)
      = scaleF c (loop (fieldOps e r svd) tol nT nN lam Y W n f) := by
  induction n with
  | zero => intro f; rfl
  | succ n ih =>
    intro f
    unfold loop
    rw [sweep_scale hsvd hc, close_scale hc]
    split_ifs
    · rfl
    · exact ih _

include hr hsvd in
theorem fitAt_scale (hc : 0 < c) (g : Cfg K) (pre : Option (Data K)) (P : Data K) (l : Lam3 K) (ex : Option (ℕ × ℕ)) (t i : ℕ) :
    fitAt (fieldOps e r svd) (scaleC c g) (pre.map (scaleD c)) (scaleD c P) (scaleL c l) ex t i
      = scaleF c (fitAt (fieldOps e r svd) g pre P l ex t i) := by
  unfold fitAt estimate
  rw [obsWeights_scale hr hc.ne', wMasked_scale, ySafe_scale]
  have hs : (start (fieldOps e r svd)) = scaleF c (start (fieldOps e r svd)) := by
    unfold start scaleF
    show ({ alpha := fun _ => 0, beta := fun _ => 0, L := fun _ _ => 0 } : Fit K) = { alpha := fun _ => c * 0, beta := fun _ => c * 0, L := fun _ _ => c * 0 }
    simp only [mul_zero]
  have := loop_scale (e := e) (r := r) hsvd hc g.tol P.nT P.nN l.nn (ySafe (fieldOps e r svd) P)
    (wMasked (fieldOps e r svd) P ex (obsWeights (fieldOps e r svd) pre P l.time l.unit i t)) g.maxIter (start (fieldOps e r svd))
  rw [← hs] at this
  exact this

theorem tau_scale (P : Data K) (f : Fit K) (t i : ℕ) :
    tau (fieldOps e r svd) (scaleD c P) (scaleF c f) t i = (tau (fieldOps e r svd) P f t i).map (c * ·) := by
  unfold tau
  show ((P.Y t i).map (c * ·)).map (fun y => y - c * f.alpha i - c * f.beta t - c * f.L t i)
    = ((P.Y t i).map (fun y => y - f.alpha i - f.beta t - f.L t i)).map (c * ·)
  cases P.Y t i with
  | none => rfl
  | some y => simp only [Option.map_some]; congr 1; ring

include hr hsvd in
/-- C153. TROP, one treated cell: if the outcome is multiplied by `c > 0`, the tolerance and `lambda_nn` are multiplied by `c` and
`lambda_unit` is divided by `c`, the effect of every treated cell is multiplied by `c`. The square root and the singular value soft
thresholding scale as the exact operations do. -/
theorem C153_trop_cell (hc : 0 < c) (g : Cfg K) (pre : Option (Data K)) (P : Data K) (l : Lam3 K) (t i : ℕ) :
    effect (fieldOps e r svd) (scaleC c g) (pre.map (scaleD c)) (scaleD c P) (scaleL c l) t i
      = (effect (fieldOps e r svd) g pre P l t i).map (c * ·) := by
  unfold effect
  rw [fitAt_scale hr hsvd hc, tau_scale]

theorem mapM_map (l : List (Option K)) : (l.map (Option.map (c * ·))).mapM id = (l.mapM id).map (List.map (c * ·)) := by
  induction l with
  | nil => rfl
  | cons a l ih =>
    cases a with
    | none => rfl
    | some x =>
      simp only [List.map_cons, List.mapM_cons, id, Option.map_some] at ih ⊢
      rw [ih]
      cases l.mapM id <;> rfl

theorem meanO_scale (l : List (Option K)) :
    meanO (fieldOps e r svd) (l.map (Option.map (c * ·))) = (meanO (fieldOps e r svd) l).map (c * ·) := by
  unfold meanO
  rw [mapM_map]
  cases hm : l.mapM id with
  | none => rfl
  | some xs =>
    cases xs with
    | nil => rfl
    | cons x xs =>
      show some (sumL (fieldOps e r svd) (List.map (c * ·) (x :: xs)) / (((List.map (c * ·) xs).length + 1 : ℕ) : K))
        = some (c * (sumL (fieldOps e r svd) (x :: xs) / ((xs.length + 1 : ℕ) : K)))
      rw [sumL_field, sumL_field, List.length_map, ← mul_div_assoc, sum_mul_list]

theorem treatedCells_scale (P : Data K) : treatedCells (scaleD c P) = treatedCells P := rfl

theorem controlCells_scale (P : Data K) : controlCells (scaleD c P) = controlCells P := by
  unfold controlCells
  have : (fun t i => decide ((scaleD c P).D t i = 0) && ((scaleD c P).Y t i).isSome) = fun t i => decide (P.D t i = 0) && (P.Y t i).isSome := by
    funext t i
    show (decide (P.D t i = 0) && ((P.Y t i).map (c * ·)).isSome) = _
    rw [Option.isSome_map]
  rw [this]
  rfl

include hr hsvd in
/-- C153. TROP: under the same change of units and settings the average effect is multiplied by `c`, a missing one stays missing. -/
theorem C153_trop (hc : 0 < c) (g : Cfg K) (pre : Option (Data K)) (P : Data K) (l : Lam3 K) :
    att (fieldOps e r svd) (scaleC c g) (pre.map (scaleD c)) (scaleD c P) (scaleL c l)
      = (att (fieldOps e r svd) g pre P l).map (c * ·) := by
  unfold att
  rw [treatedCells_scale, ← meanO_scale, List.map_map]
  congr 1
  refine List.map_congr_left fun q _ => ?_
  exact C153_trop_cell hr hsvd hc g pre P l q.1 q.2

include hr hsvd in
/-- C153. TROP: the cross-validation score of the matching parameters is multiplied by `c²`, whichever cells are scored, so that grids
that are changed accordingly rank their members as before. -/
theorem C153_trop_score (hc : 0 < c) (g : Cfg K) (pick : List (ℕ × ℕ) → List (ℕ × ℕ)) (P : Data K) (l : Lam3 K) :
    looScore (fieldOps e r svd) (scaleC c g) pick (scaleD c P) (scaleL c l)
      = (looScore (fieldOps e r svd) g pick P l).map (c ^ 2 * ·) := by
  have ht : ∀ q, looTerm (fieldOps e r svd) (scaleC c g) (some (scaleD c P)) (scaleD c P) (scaleL c l) q
      = c ^ 2 * looTerm (fieldOps e r svd) g (some P) P l q := by
    intro q
    unfold looTerm
    have := fitAt_scale (e := e) hr hsvd hc g (some P) P l (some q) q.1 q.2
    rw [Option.map_some] at this
    rw [this, tau_scale]
    cases tau (fieldOps e r svd) P (fitAt (fieldOps e r svd) g (some P) P l (some q) q.1 q.2) q.1 q.2 with
    | none => show (0 : K) = c ^ 2 * 0; rw [mul_zero]
    | some x => show c * x * (c * x) = c ^ 2 * (x * x); ring
  unfold looScore
  rw [controlCells_scale]
  cases pick (controlCells P) with
  | nil => rfl
  | cons q qs =>
    show some (sumL (fieldOps e r svd) ((q :: qs).map _)) = some (c ^ 2 * sumL (fieldOps e r svd) ((q :: qs).map _))
    rw [sumL_field, sumL_field, ← sum_mul_list, List.map_map]
    refine congrArg (fun l : List K => some l.sum) (List.map_congr_left fun q _ => ?_)
    exact ht q

theorem dropUnit_scale (P : Data K) (u : ℕ) : dropUnit (scaleD c P) u = scaleD c (dropUnit P u) := by
  unfold dropUnit scaleD
  congr 1
  funext t i
  dsimp only
  split_ifs <;> rfl

include hr hsvd in
/-- C153. TROP: the jackknife replicates behind the standard error are multiplied by `c`. -/
theorem C153_trop_jackknife (hc : 0 < c) (g : Cfg K) (P : Data K) (l : Lam3 K) :
    jackknife (fieldOps e r svd) (scaleC c g) (scaleD c P) (scaleL c l)
      = (jackknife (fieldOps e r svd) g P l).map (Option.map (c * ·)) := by
  unfold jackknife
  rw [List.map_filterMap]
  show (treatedUnits P).filterMap _ = (treatedUnits P).filterMap _
  congr 1
  funext u
  rw [dropUnit_scale, treatedCells_scale]
  split_ifs
  · rfl
  · have := C153_trop (e := e) hr hsvd hc g (some P) (dropUnit P u) l
    rw [Option.map_some] at this
    rw [this]
    rfl

include hr hsvd in
/-- C153. TROP: so is every bootstrap replicate. -/
theorem C153_trop_bootstrap (hc : 0 < c) (g : Cfg K) (P B : Data K) (l : Lam3 K) :
    bootFit (fieldOps e r svd) (scaleC c g) (scaleD c P) (scaleD c B) (scaleL c l)
      = (bootFit (fieldOps e r svd) g P B l).map (Option.map (c * ·)) := by
  unfold bootFit
  rw [treatedCells_scale]
  split_ifs
  · rfl
  · have := C153_trop (e := e) hr hsvd hc g (some P) B l
    rw [Option.map_some] at this
    rw [this]
    rfl

end

/-! ### Fixed tuning parameters -/

/-- Three units, three periods; unit 0 is treated in the last period. Before that unit 1 is equal to it and unit 2 is larger by 1. -/
noncomputable def trio : Data ℝ :=
  { nT := 3, nN := 3, Y := fun t i => some (if t = 2 then (if i = 0 then 5 else if i = 1 then 0 else 4) else if i = 2 then 1 else 0)
    D := fun t i => if t = 2 ∧ i = 0 then 1 else 0 }

theorem trio_weights (svd : ℝ → ℕ → ℕ → (ℕ → ℕ → ℝ) → (ℕ → ℕ → ℝ)) (u : ℝ) (hu : u ≠ 0) (s : ℕ) :
    weights (fieldOps Real.exp Real.sqrt svd) trio 0 u 0 2 s 0 = 1 ∧ weights (fieldOps Real.exp Real.sqrt svd) trio 0 u 0 2 s 1 = 1 ∧
    weights (fieldOps Real.exp Real.sqrt svd) trio 0 u 0 2 s 2 = Real.exp (-u) := by
  have ht : timeWeight (fieldOps Real.exp Real.sqrt svd) 0 2 s = 1 := by
    show Real.exp (-0 * (((2 - s) + (s - 2) : ℕ) : ℝ)) = 1
    simp
  have hd : ∀ j, j = 1 ∨ j = 2 → dist (fieldOps Real.exp Real.sqrt svd) trio j 0 2 = some (if j = 2 then 1 else 0) := by
    intro j hj
    have hl : sqDiffs (fieldOps Real.exp Real.sqrt svd) trio j 0 2 = [if j = 2 then 1 else 0, if j = 2 then 1 else 0] := by
      rcases hj with rfl | rfl
      · show List.filterMap _ [0, 1, 2] = _
        simp [trio, sqDiff, fieldOps]
      · show List.filterMap _ [0, 1, 2] = _
        simp [trio, sqDiff, fieldOps]
    unfold dist
    rw [hl]
    show some (Real.sqrt (sumL (fieldOps Real.exp Real.sqrt svd) [if j = 2 then 1 else 0, if j = 2 then 1 else 0] / ((2 : ℕ) : ℝ))) = _
    rw [sumL_field]
    rcases hj with rfl | rfl <;> simp <;> norm_num
  have hz : (fieldOps Real.exp Real.sqrt svd).isZero u = false := by
    show decide (u = 0) = false
    simp [hu]
  refine ⟨?_, ?_, ?_⟩
  · unfold weights unitWeight
    rw [ht, if_pos rfl]
    show (1 : ℝ) * 1 = 1
    norm_num
  · unfold weights unitWeight
    rw [ht, hz, hd 1 (Or.inl rfl)]
    show (1 : ℝ) * Real.exp (-u * 0) = 1
    simp
  · unfold weights unitWeight
    rw [ht, hz, hd 2 (Or.inr rfl)]
    show (1 : ℝ) * Real.exp (-u * 1) = _
    simp

/-- The effect of the treated cell without penalty and with equal time weights. -/
theorem trio_effect (svd : ℝ → ℕ → ℕ → (ℕ → ℕ → ℝ) → (ℕ → ℕ → ℝ)) (g : Cfg ℝ) (hg : 1 ≤ g.maxIter) (u : ℝ) (hu : u ≠ 0) :
    effect (fieldOps Real.exp Real.sqrt svd) g (some trio) trio { time := 0, unit := u, nn := 0 } 2 0
      = some (5 - 2 * Real.exp (-u) / (1 + Real.exp (-u))) := by
  have he := Real.exp_pos (-u)
  obtain ⟨_, hL, _⟩ := C105_interpolates (r := Real.sqrt) (svd := svd) (fun x => Real.exp_pos x) g g hg hg trio trio
    { time := 0, unit := u, nn := 0 } le_rfl none 2 0
  have hw := mw_nonneg (r := Real.sqrt) (svd := svd) (fun x => Real.exp_pos x) trio trio none 0 u 0 2
  obtain ⟨n, hn⟩ : ∃ n, g.maxIter = n + 1 := ⟨g.maxIter - 1, by omega⟩
  have h1 : fitAt (fieldOps Real.exp Real.sqrt svd) g (some trio) trio { time := 0, unit := u, nn := 0 } none 2 0
      = sweep (fieldOps Real.exp Real.sqrt svd) g.tol 3 3 0 (ySafe (fieldOps Real.exp Real.sqrt svd) trio)
        (wMasked (fieldOps Real.exp Real.sqrt svd) trio none (weights (fieldOps Real.exp Real.sqrt svd) trio 0 u 0 2))
        (start (fieldOps Real.exp Real.sqrt svd)) := by
    unfold fitAt estimate
    rw [hn]
    exact loop_one le_rfl hw n
  have hv : ∀ s i, wMasked (fieldOps Real.exp Real.sqrt svd) trio none (weights (fieldOps Real.exp Real.sqrt svd) trio 0 u 0 2) s i
      = if s = 2 ∧ i = 0 then 0 else weights (fieldOps Real.exp Real.sqrt svd) trio 0 u 0 2 s i := by
    intro s i
    rw [wMasked_eq]
    have : valid trio none s i = decide (¬ (s = 2 ∧ i = 0)) := by
      unfold valid trio
      by_cases h : s = 2 ∧ i = 0 <;> simp [h]
    rw [this]
    by_cases h : s = 2 ∧ i = 0 <;> simp [h]
  have hY : ∀ s i, ySafe (fieldOps Real.exp Real.sqrt svd) trio s i
      = if s = 2 then (if i = 0 then 5 else if i = 1 then 0 else 4) else if i = 2 then 1 else 0 := fun s i => rfl
  have w0 := fun s => (trio_weights svd u hu s).1
  have w1 := fun s => (trio_weights svd u hu s).2.1
  have w2 := fun s => (trio_weights svd u hu s).2.2
  have ha : ∀ i, alphaStep (fieldOps Real.exp Real.sqrt svd) 3 (ySafe (fieldOps Real.exp Real.sqrt svd) trio)
        (wMasked (fieldOps Real.exp Real.sqrt svd) trio none (weights (fieldOps Real.exp Real.sqrt svd) trio 0 u 0 2))
        (start (fieldOps Real.exp Real.sqrt svd)) i
      = if 0 < ∑ t ∈ Finset.range 3, wMasked (fieldOps Real.exp Real.sqrt svd) trio none (weights (fieldOps Real.exp Real.sqrt svd) trio 0 u 0 2) t i then
        (∑ t ∈ Finset.range 3, wMasked (fieldOps Real.exp Real.sqrt svd) trio none (weights (fieldOps Real.exp Real.sqrt svd) trio 0 u 0 2) t i
          * (ySafe (fieldOps Real.exp Real.sqrt svd) trio t i - 0 - 0))
          / ∑ t ∈ Finset.range 3, wMasked (fieldOps Real.exp Real.sqrt svd) trio none (weights (fieldOps Real.exp Real.sqrt svd) trio 0 u 0 2) t i
        else 0 := fun i => alphaStep_eq _ _ _ _ _ _ _ i
  have a0 := ha 0
  have a1 := ha 1
  have a2 := ha 2
  simp only [Finset.sum_range_succ, Finset.sum_range_zero, hv, hY, w0, w1, w2] at a0 a1 a2
  norm_num at a0 a1 a2
  rw [if_pos (by positivity)] at a2
  have a2' : (Real.exp (-u) + Real.exp (-u) + Real.exp (-u) * 4) / (Real.exp (-u) + Real.exp (-u) + Real.exp (-u)) = 2 := by field_simp; norm_num
  rw [a2'] at a2
  have hb := betaStep_eq Real.exp Real.sqrt svd 3 (ySafe (fieldOps Real.exp Real.sqrt svd) trio)
        (wMasked (fieldOps Real.exp Real.sqrt svd) trio none (weights (fieldOps Real.exp Real.sqrt svd) trio 0 u 0 2))
        (alphaStep (fieldOps Real.exp Real.sqrt svd) 3 (ySafe (fieldOps Real.exp Real.sqrt svd) trio)
        (wMasked (fieldOps Real.exp Real.sqrt svd) trio none (weights (fieldOps Real.exp Real.sqrt svd) trio 0 u 0 2))
        (start (fieldOps Real.exp Real.sqrt svd))) (fun _ _ => 0) 2
  simp only [Finset.sum_range_succ, Finset.sum_range_zero, hv, hY, w0, w1, w2, a0, a1, a2] at hb
  norm_num at hb
  rw [if_pos (by positivity)] at hb
  have hα : (fitAt (fieldOps Real.exp Real.sqrt svd) g (some trio) trio { time := 0, unit := u, nn := 0 } none 2 0).alpha 0 = 0 := by
    rw [h1]; exact a0
  have hβ : (fitAt (fieldOps Real.exp Real.sqrt svd) g (some trio) trio { time := 0, unit := u, nn := 0 } none 2 0).beta 2
      = Real.exp (-u) * 2 / (1 + Real.exp (-u)) := by
    rw [h1]; exact hb
  unfold effect tau
  show some ((5 : ℝ) - _ - _ - _) = _
  rw [hα, hβ, hL 2 0 (Or.inr (Or.inl (by decide)))]
  congr 1
  ring

theorem trio_att (svd : ℝ → ℕ → ℕ → (ℕ → ℕ → ℝ) → (ℕ → ℕ → ℝ)) (g : Cfg ℝ) (hg : 1 ≤ g.maxIter) (u : ℝ) (hu : u ≠ 0) :
    att (fieldOps Real.exp Real.sqrt svd) g (some trio) trio { time := 0, unit := u, nn := 0 }
      = some (5 - 2 * Real.exp (-u) / (1 + Real.exp (-u))) := by
  have ht : treatedCells trio = [(2, 0)] := by decide
  unfold att
  rw [ht, List.map_singleton, trio_effect svd g hg u hu]
  show some (sumL (fieldOps Real.exp Real.sqrt svd) [5 - 2 * Real.exp (-u) / (1 + Real.exp (-u))] / ((0 + 1 : ℕ) : ℝ)) = _
  rw [sumL_field]
  simp

/-- C153 is false for TROP with fixed tuning parameters: the same panel recorded in units ten times smaller does not give ten times the
effect. `lambda_time = 0`, `lambda_unit = 1` and `lambda_nn = 0` are members of the default grids; the distance between units is measured
in units of the outcome, so `lambda_unit` has to change with them. Any iteration limit and tolerance, any thresholding routine that scales. -/
theorem C153_trop_refuted (svd : ℝ → ℕ → ℕ → (ℕ → ℕ → ℝ) → (ℕ → ℕ → ℝ))
    (hsvd : ∀ (lam : ℝ) (nT nN : ℕ) (M : ℕ → ℕ → ℝ), svd (10 * lam) nT nN (fun t i => 10 * M t i) = fun t i => 10 * svd lam nT nN M t i)
    (g : Cfg ℝ) (hg : 1 ≤ g.maxIter) :
    ∃ (P : Data ℝ) (a b : ℝ), att (fieldOps Real.exp Real.sqrt svd) g (some P) P { time := 0, unit := 1, nn := 0 } = some a ∧
      att (fieldOps Real.exp Real.sqrt svd) g (some (scaleD 10 P)) (scaleD 10 P) { time := 0, unit := 1, nn := 0 } = some b ∧ 10 * a < b := by
  have hr : ∀ x, Real.sqrt (10 ^ 2 * x) = 10 * Real.sqrt x := fun x => by rw [Real.sqrt_mul (by norm_num), Real.sqrt_sq (by norm_num)]
  have h := C153_trop (e := Real.exp) hr hsvd (by norm_num) { g with tol := g.tol / 10 } (some trio) trio { time := 0, unit := 10, nn := 0 }
  have hC : scaleC 10 { g with tol := g.tol / 10 } = g := by
    unfold scaleC
    cases g
    simp only [Cfg.mk.injEq, true_and]
    ring
  have hLam : scaleL 10 { time := 0, unit := 10, nn := (0 : ℝ) } = { time := 0, unit := 1, nn := 0 } := by
    unfold scaleL
    simp
  rw [hC, hLam, trio_att svd { g with tol := g.tol / 10 } hg 10 (by norm_num), Option.map_some, Option.map_some] at h
  refine ⟨trio, _, _, trio_att svd g hg 1 (by norm_num), h, ?_⟩
  have h1 := Real.exp_pos (-1)
  have h10 := Real.exp_pos (-10)
  have hlt : Real.exp (-10) < Real.exp (-1) := Real.exp_lt_exp.2 (by norm_num)
  have key : 2 * Real.exp (-10) / (1 + Real.exp (-10)) < 2 * Real.exp (-1) / (1 + Real.exp (-1)) := by
    rw [div_lt_div_iff₀ (by positivity) (by positivity)]
    nlinarith
  linarith

/-- A thresholding routine that scales exists. -/
example : ∀ (lam : ℝ) (nT nN : ℕ) (M : ℕ → ℕ → ℝ),
    (fun (l : ℝ) (_ _ : ℕ) (M : ℕ → ℕ → ℝ) => fun t i => if |M t i| ≤ l then 0 else M t i) (10 * lam) nT nN (fun t i => 10 * M t i)
      = fun t i => 10 * (fun (l : ℝ) (_ _ : ℕ) (M : ℕ → ℕ → ℝ) => fun t i => if |M t i| ≤ l then 0 else M t i) lam nT nN M t i := by
  intro lam nT nN M
  funext t i
  dsimp only
  have : |10 * M t i| ≤ 10 * lam ↔ |M t i| ≤ lam := by
    rw [abs_mul, abs_of_pos (by norm_num : (0 : ℝ) < 10)]
    constructor <;> intro h <;> linarith
  simp only [this]
  split_ifs <;> simp

/-- The average effect of `trio` in units of 1 and of 1/100, with matching parameters. -/
example (svd : ℝ → ℕ → ℕ → (ℕ → ℕ → ℝ) → (ℕ → ℕ → ℝ))
    (hsvd : ∀ (lam : ℝ) (nT nN : ℕ) (M : ℕ → ℕ → ℝ), svd (100 * lam) nT nN (fun t i => 100 * M t i) = fun t i => 100 * svd lam nT nN M t i) :
    att (fieldOps Real.exp Real.sqrt svd) (scaleC 100 { maxIter := 100, tol := 1 / 1000000 }) (some (scaleD 100 trio)) (scaleD 100 trio)
      (scaleL 100 { time := 0, unit := 1, nn := 0 }) = some (100 * (5 - 2 * Real.exp (-1) / (1 + Real.exp (-1)))) := by
  have := C153_trop (e := Real.exp) (r := Real.sqrt) (fun x => by rw [Real.sqrt_mul (by norm_num), Real.sqrt_sq (by norm_num)]) hsvd (by norm_num)
    { maxIter := 100, tol := 1 / 1000000 } (some trio) trio { time := 0, unit := 1, nn := 0 }
  rw [trio_att svd _ (by norm_num) 1 (by norm_num)] at this
  exact this

end DiffDiff.TropFit
