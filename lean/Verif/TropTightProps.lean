/-
Further properties of TROP: treatment values read as integers (C54), infinite nuclear norm penalty (C56), zero penalty (C105).
-/
import Verif.TropFitProps

set_option linter.unusedSectionVars false

namespace DiffDiff.Trop

/-! ### C54: what a treatment value means -/

section
variable {U T K : Type*} [LinearOrder U] [LinearOrder T] [Field K] [LinearOrder K] [IsStrictOrderedRing K] [FloorRing K]

/-- **C54, treatment values.** A cell is untreated exactly when its treatment value is missing or lies strictly between -1 and 1, and
treated exactly when the value is at least 1 and less than 2: fractions are cut off, not rejected. -/
theorem C54_cell_values (rows : List (Row U T K)) (t : T) (u : U) :
    (dCell rows t u = 0 ↔ ∀ x, dRaw rows t u = some x → |x| < 1) ∧
    (dCell rows t u = 1 ↔ ∃ x, dRaw rows t u = some x ∧ 1 ≤ x ∧ x < 2) := by
  unfold dCell
  rcases dRaw rows t u with _ | x
  · simp
  · have e : ∀ p : K → Prop, (∀ y, some x = some y → p y) ↔ p x := fun p =>
      ⟨fun h => h x rfl, fun h y hy => Option.some.inj hy ▸ h⟩
    have e' : (∃ y, some x = some y ∧ 1 ≤ y ∧ y < 2) ↔ 1 ≤ x ∧ x < 2 :=
      ⟨fun ⟨y, hy, h⟩ => Option.some.inj hy ▸ h, fun h => ⟨x, rfl, h⟩⟩
    rw [e (fun y => |y| < 1), e']
    unfold trunc
    by_cases h : 0 ≤ x
    · simp only [if_pos h, Int.floor_eq_iff, Int.cast_zero, Int.cast_one, zero_add]
      rw [abs_of_nonneg h]
      refine ⟨⟨fun h' => h'.2, fun h' => ⟨h, h'⟩⟩, ?_⟩
      rw [one_add_one_eq_two]
    · simp only [if_neg h, Int.ceil_eq_iff, Int.cast_zero, Int.cast_one, zero_sub, sub_self]
      rw [abs_of_neg (not_le.1 h)]
      refine ⟨⟨fun h' => by linarith [h'.1], fun h' => ⟨by linarith, (not_le.1 h).le⟩⟩, ⟨fun h' => absurd h'.1.le h, fun h' => ?_⟩⟩
      exact absurd (zero_le_one.trans h'.1) h

end

/-- A half-treated cell, a negative one and one above 1. -/
def fracRows : List (Row ℕ ℕ ℚ) := [⟨0, 0, some 1, some (1 / 2)⟩, ⟨0, 1, some 1, some (-1 / 2)⟩, ⟨0, 2, some 1, some (3 / 2)⟩]

example : dCell fracRows 0 0 = 0 ∧ dCell fracRows 1 0 = 0 ∧ dCell fracRows 2 0 = 1 := by decide +kernel

/-! ### C56: an infinite nuclear norm penalty -/

section
variable {K : Type*} [Field K] [LinearOrder K] [IsStrictOrderedRing K]

/-- Write the number `10 ^ 10` for infinity. -/
def tenG (x : Ext K) : Ext K := match x with
  | .pinf => .fin 10000000000
  | .ninf => .fin 10000000000
  | y => y

/-- The grids with `10 ^ 10` for infinity in the nuclear norm grid. -/
def capped (g : Grids K) : Grids K := { time := g.time, unit := g.unit, nn := g.nn.map tenG }

def cappedLam (l : Lam K) : Lam K := { time := l.time, unit := l.unit, nn := tenG l.nn }

theorem convN_tenG (x : Ext K) : convN (tenG x) = convN x := by
  cases x
  · rfl
  · show (Ext.fin 10000000000 : Ext K) = .fin (10 ^ 10)
    norm_num
  · show (Ext.fin 10000000000 : Ext K) = .fin (10 ^ 10)
    norm_num
  · rfl

theorem evalAt_capped (score : Lam K → Option (Ext K)) (l : Lam K) : evalAt score (cappedLam l) = evalAt score l := by
  simp only [evalAt, effective, cappedLam, convN_tenG]

theorem searchUnit_capped (score : Lam K → Option (Ext K)) (g : Grids K) (l : Lam K) :
    searchUnit score (capped g) (cappedLam l) = searchUnit score g l := by
  have := univariate_map (K := K) id rfl (fun v => evalAt score { l with unit := v })
    (fun v => evalAt score { cappedLam l with unit := v }) (fun v => evalAt_capped score { l with unit := v }) g.unit
  rw [List.map_id] at this
  exact this

theorem searchTime_capped (score : Lam K → Option (Ext K)) (g : Grids K) (l : Lam K) :
    searchTime score (capped g) (cappedLam l) = searchTime score g l := by
  have := univariate_map (K := K) id rfl (fun v => evalAt score { l with time := v })
    (fun v => evalAt score { cappedLam l with time := v }) (fun v => evalAt_capped score { l with time := v }) g.time
  rw [List.map_id] at this
  exact this

theorem searchNn_capped (score : Lam K → Option (Ext K)) (g : Grids K) (l : Lam K) :
    searchNn score (capped g) (cappedLam l) = (tenG (searchNn score g l).1, (searchNn score g l).2) :=
  univariate_map tenG rfl _ _ (fun v => evalAt_capped score { l with nn := v }) g.nn

theorem cycle_capped (score : Lam K → Option (Ext K)) (g : Grids K) (l : Lam K) :
    cycle score (capped g) (cappedLam l) = (cappedLam (cycle score g l).1, (cycle score g l).2) := by
  have h1 : afterUnit score (capped g) (cappedLam l) = cappedLam (afterUnit score g l) := by
    unfold afterUnit; rw [searchUnit_capped]; rfl
  have h2 : afterTime score (capped g) (cappedLam (afterUnit score g l)) = cappedLam (afterTime score g (afterUnit score g l)) := by
    unfold afterTime; rw [searchTime_capped]; rfl
  unfold cycle
  rw [h1, h2]
  unfold afterNn
  rw [searchNn_capped]
  rfl

theorem cycling_capped (score : Lam K → Option (Ext K)) (g : Grids K) (n : ℕ) : ∀ (prev : Ext K) (l : Lam K),
    cycling score (capped g) n prev (cappedLam l) = cappedLam (cycling score g n prev l) := by
  induction n with
  | zero => intro _ _; rfl
  | succ n ih =>
    intro prev l
    simp only [cycling]
    rw [cycle_capped]
    simp only
    split
    · rfl
    · exact ih _ _

/-- **C56, nuclear norm penalty.** Writing infinity in the nuclear norm grid is the same as writing 10000000000: the search selects the
same combination up to that replacement, and the parameters used for estimation are equal. -/
theorem C56_nn_infinite (score : Lam K → Option (Ext K)) (g : Grids K) :
    search score (capped g) = cappedLam (search score g) ∧ effective (search score (capped g)) = effective (search score g) := by
  have h0 : initial score (capped g) = cappedLam (initial score g) := by
    have h1 := searchTime_capped score g { time := .fin 0, unit := .fin 0, nn := .pinf }
    have h2 := searchUnit_capped score g { time := .fin 0, unit := .fin 0, nn := .pinf }
    have h3 := searchNn_capped score g { time := .pinf, unit := .fin 0, nn := .fin 0 }
    have e1 : searchTime score (capped g) { time := .fin 0, unit := .fin 0, nn := .pinf } =
        searchTime score (capped g) (cappedLam { time := .fin 0, unit := .fin 0, nn := .pinf }) := by
      unfold searchTime
      congr 1
      funext x
      exact (evalAt_capped score { time := x, unit := .fin 0, nn := .pinf }).symm
    have e2 : searchUnit score (capped g) { time := .fin 0, unit := .fin 0, nn := .pinf } =
        searchUnit score (capped g) (cappedLam { time := .fin 0, unit := .fin 0, nn := .pinf }) := by
      unfold searchUnit
      congr 1
      funext x
      exact (evalAt_capped score { time := .fin 0, unit := x, nn := .pinf }).symm
    unfold initial
    rw [e1, e2, h1, h2]
    change ({ time := _, unit := _,
              nn := (searchNn score (capped g) (cappedLam { time := .pinf, unit := .fin 0, nn := .fin 0 })).1 } : Lam K) = _
    rw [h3]
    rfl
  have h : search score (capped g) = cappedLam (search score g) := by
    unfold search
    rw [h0, cycling_capped]
  refine ⟨h, ?_⟩
  rw [h]
  simp only [effective, cappedLam, convN_tenG]

end

/-- The infinite value is the one selected here. -/
example : (search bowl grids).nn = .pinf ∧ (search bowl (capped grids)).nn = .fin 10000000000 := by decide +kernel

end DiffDiff.Trop

namespace DiffDiff.TropFit

open DiffDiff.HonestDid (sum_map_range)

/-! ### C105: no penalty -/

section
variable {K : Type*} [Field K] [LinearOrder K] [IsStrictOrderedRing K]
variable {e r : K → K} {svd : K → ℕ → ℕ → (ℕ → ℕ → K) → (ℕ → ℕ → K)}

theorem sweep_L {tol : K} {nT nN : ℕ} {lam : K} (hl : lam ≤ 0) (Y W : ℕ → ℕ → K) (f : Fit K) (t i : ℕ) :
    (sweep (fieldOps e r svd) tol nT nN lam Y W f).L t i = if 0 < W t i then
      Y t i - (sweep (fieldOps e r svd) tol nT nN lam Y W f).alpha i - (sweep (fieldOps e r svd) tol nT nN lam Y W f).beta t
      else f.L t i := by
  have h : (fieldOps e r svd).nonpos lam = true := by simp [fieldOps, hl]
  show nnSolve (fieldOps e r svd) tol nT nN lam Y W _ _ f.L t i = _
  unfold nnSolve
  rw [if_pos h, rMasked_eq]
  rfl

/-- Weighted cells are fitted exactly, the others carry no factor. -/
def Exact (nT nN : ℕ) (Y W : ℕ → ℕ → K) (f : Fit K) : Prop :=
  ∀ t i, f.L t i = if 0 < W t i then Y t i - f.alpha i - f.beta t else 0

theorem sweep_exact {tol : K} {nT nN : ℕ} {lam : K} (hl : lam ≤ 0) {Y W : ℕ → ℕ → K} {f : Fit K}
    (h : ∀ t i, ¬ 0 < W t i → f.L t i = 0) : Exact nT nN Y W (sweep (fieldOps e r svd) tol nT nN lam Y W f) := by
  intro t i
  rw [sweep_L hl]
  split_ifs with hp
  · rfl
  · exact h t i hp

theorem sweep_fixed {tol : K} {nT nN : ℕ} {lam : K} (hl : lam ≤ 0) {Y W : ℕ → ℕ → K} (hW : ∀ t i, 0 ≤ W t i) {f : Fit K}
    (h : Exact nT nN Y W f) (ha : ∀ i, ¬ 0 < ∑ t ∈ Finset.range nT, W t i → f.alpha i = 0)
    (hb : ∀ t, ¬ 0 < ∑ i ∈ Finset.range nN, W t i → f.beta t = 0) : sweep (fieldOps e r svd) tol nT nN lam Y W f = f := by
  have term : ∀ t i, W t i * (Y t i - f.L t i - f.beta t) = W t i * f.alpha i := by
    intro t i
    rw [h t i]
    split_ifs with hp
    · ring
    · rw [le_antisymm (not_lt.1 hp) (hW t i)]; ring
  have term' : ∀ t i, W t i * (Y t i - f.L t i - f.alpha i) = W t i * f.beta t := by
    intro t i
    rw [h t i]
    split_ifs with hp
    · ring
    · rw [le_antisymm (not_lt.1 hp) (hW t i)]; ring
  have e1 : alphaStep (fieldOps e r svd) nT Y W f = f.alpha := by
    funext i
    rw [alphaStep_eq]
    split_ifs with hp
    · rw [Finset.sum_congr rfl (fun t _ => term t i), ← Finset.sum_mul, mul_div_cancel_left₀ _ hp.ne']
    · exact (ha i hp).symm
  have e2 : betaStep (fieldOps e r svd) nN Y W f.alpha f.L = f.beta := by
    funext t
    rw [betaStep_eq]
    split_ifs with hp
    · rw [Finset.sum_congr rfl (fun i _ => term' t i), ← Finset.sum_mul, mul_div_cancel_left₀ _ hp.ne']
    · exact (hb t hp).symm
  have e3 : (sweep (fieldOps e r svd) tol nT nN lam Y W f).alpha = f.alpha := e1
  have e4 : (sweep (fieldOps e r svd) tol nT nN lam Y W f).beta = f.beta := by
    show betaStep _ nN Y W (alphaStep _ nT Y W f) f.L = _
    rw [e1, e2]
  have e5 : (sweep (fieldOps e r svd) tol nT nN lam Y W f).L = f.L := by
    funext t i
    rw [sweep_L hl, e3, e4, h t i]
    split_ifs <;> rfl
  obtain ⟨a, b, c⟩ := f
  rcases hs : sweep (fieldOps e r svd) tol nT nN lam Y W ⟨a, b, c⟩ with ⟨a', b', c'⟩
  rw [hs] at e3 e4 e5
  simp only at e3 e4 e5
  rw [e3, e4, e5]

theorem loop_stays {tol : K} {nT nN : ℕ} {lam : K} {Y W : ℕ → ℕ → K} {f : Fit K}
    (h : sweep (fieldOps e r svd) tol nT nN lam Y W f = f) : ∀ n, loop (fieldOps e r svd) tol nT nN lam Y W n f = f := by
  intro n
  induction n with
  | zero => rfl
  | succ n ih =>
    unfold loop
    rw [h, ih, ite_self]

/-- The first sweep is the whole fit. -/
theorem loop_one {tol tol' : K} {nT nN : ℕ} {lam : K} (hl : lam ≤ 0) {Y W : ℕ → ℕ → K} (hW : ∀ t i, 0 ≤ W t i) (n : ℕ) :
    loop (fieldOps e r svd) tol nT nN lam Y W (n + 1) (start (fieldOps e r svd)) =
      sweep (fieldOps e r svd) tol' nT nN lam Y W (start (fieldOps e r svd)) := by
  have hs : sweep (fieldOps e r svd) tol nT nN lam Y W (start (fieldOps e r svd)) =
      sweep (fieldOps e r svd) tol' nT nN lam Y W (start (fieldOps e r svd)) := by
    have h : (fieldOps e r svd).nonpos lam = true := by simp [fieldOps, hl]
    unfold sweep nnSolve
    rw [if_pos h, if_pos h]
  have hf : sweep (fieldOps e r svd) tol nT nN lam Y W (sweep (fieldOps e r svd) tol nT nN lam Y W (start (fieldOps e r svd))) =
      sweep (fieldOps e r svd) tol nT nN lam Y W (start (fieldOps e r svd)) := by
    refine sweep_fixed hl hW (sweep_exact hl (fun _ _ _ => rfl)) ?_ ?_
    · intro i hp
      show alphaStep _ nT Y W _ i = 0
      rw [alphaStep_eq, if_neg hp]
    · intro t hp
      show betaStep _ nN Y W _ _ t = 0
      rw [betaStep_eq, if_neg hp]
  unfold loop
  rw [loop_stays hf, ite_self]
  exact hs

theorem mw_nonneg (he : ∀ x, 0 < e x) (P Q : Data K) (ex : Option (ℕ × ℕ)) (lamT lamU : K) (i t s j : ℕ) :
    0 ≤ wMasked (fieldOps e r svd) P ex (weights (fieldOps e r svd) Q lamT lamU i t) s j := by
  rw [wMasked_eq]
  split_ifs
  · refine mul_nonneg (he _).le ?_
    unfold unitWeight
    split_ifs
    · exact zero_le_one
    · exact zero_le_one
    · cases TropFit.dist (fieldOps e r svd) Q j i t with
      | none => exact le_rfl
      | some d => exact (he _).le
    · exact le_rfl
  · exact le_rfl

/-- **C105.** Without a penalty (`lambda_nn = 0`) the fit of a cell reproduces every observed untreated cell that has weight exactly, has
no factor part in the cells it does not use, and is the same for every positive iteration limit and every tolerance: nothing is iterated
after the first pass of unit means and period means. -/
theorem C105_interpolates (he : ∀ x, 0 < e x) (c c' : Cfg K) (hc : 1 ≤ c.maxIter) (hc' : 1 ≤ c'.maxIter) (Q P : Data K) (l : Lam3 K)
    (hl : l.nn ≤ 0) (ex : Option (ℕ × ℕ)) (t i : ℕ) :
    (∀ s j y, P.Y s j = some y → P.D s j = 0 → ex ≠ some (s, j) → 0 < weights (fieldOps e r svd) Q l.time l.unit i t s j →
      tau (fieldOps e r svd) P (fitAt (fieldOps e r svd) c (some Q) P l ex t i) s j = some 0) ∧
    (∀ s j, (P.Y s j = none ∨ P.D s j ≠ 0 ∨ ex = some (s, j)) → (fitAt (fieldOps e r svd) c (some Q) P l ex t i).L s j = 0) ∧
    fitAt (fieldOps e r svd) c (some Q) P l ex t i = fitAt (fieldOps e r svd) c' (some Q) P l ex t i := by
  obtain ⟨n, hn⟩ : ∃ n, c.maxIter = n + 1 := ⟨c.maxIter - 1, by omega⟩
  obtain ⟨n', hn'⟩ : ∃ n, c'.maxIter = n + 1 := ⟨c'.maxIter - 1, by omega⟩
  have hw := mw_nonneg (r := r) (svd := svd) he P Q ex l.time l.unit i t
  have e1 : fitAt (fieldOps e r svd) c (some Q) P l ex t i = sweep (fieldOps e r svd) c.tol P.nT P.nN l.nn (ySafe (fieldOps e r svd) P)
      (wMasked (fieldOps e r svd) P ex (weights (fieldOps e r svd) Q l.time l.unit i t)) (start (fieldOps e r svd)) := by
    unfold fitAt estimate
    rw [hn]
    exact loop_one hl hw n
  have e2 : fitAt (fieldOps e r svd) c' (some Q) P l ex t i = sweep (fieldOps e r svd) c.tol P.nT P.nN l.nn (ySafe (fieldOps e r svd) P)
      (wMasked (fieldOps e r svd) P ex (weights (fieldOps e r svd) Q l.time l.unit i t)) (start (fieldOps e r svd)) := by
    unfold fitAt estimate
    rw [hn']
    exact loop_one hl hw n'
  have hx : Exact P.nT P.nN (ySafe (fieldOps e r svd) P)
      (wMasked (fieldOps e r svd) P ex (weights (fieldOps e r svd) Q l.time l.unit i t))
      (fitAt (fieldOps e r svd) c (some Q) P l ex t i) := by
    rw [e1]
    exact sweep_exact hl (fun _ _ _ => rfl)
  refine ⟨?_, ?_, e1.trans e2.symm⟩
  · intro s j y hy hD hex hpos
    have hv : valid P ex s j = true := by simp [valid, hy, hD, hex]
    have h := hx s j
    rw [wMasked_eq, if_pos hv, if_pos hpos] at h
    unfold tau
    rw [hy]
    show some (y - _ - _ - _) = some 0
    rw [h]
    congr 1
    unfold ySafe
    rw [hy]
    show y - _ - _ - (y - _ - _) = 0
    ring
  · intro s j hj
    have hv : valid P ex s j = false := by
      unfold valid
      rcases hj with h | h | h <;> simp [h]
    have h := hx s j
    have h0 : wMasked (fieldOps e r svd) P ex (weights (fieldOps e r svd) Q l.time l.unit i t) s j = 0 := by
      rw [wMasked_eq, hv]; rfl
    rw [h0, if_neg (lt_irrefl 0)] at h
    exact h

end

/-- Two units, three periods, untreated outcomes equal to the period level 0, 0, 3; unit 1 is treated in period 2 without any effect. -/
def parallel : Data ℚ :=
  { nT := 3, nN := 2, Y := fun t _ => some (if t = 2 then 3 else 0), D := fun t i => if t = 2 ∧ i = 1 then 1 else 0 }

def eHalf (x : ℚ) : ℚ := if x < 0 then 1 / 2 else 1

theorem eHalf_pos (x : ℚ) : 0 < eHalf x := by unfold eHalf; split_ifs <;> norm_num

/-- **C105, recovery refuted.** On untreated outcomes that are exactly parallel, with equal weights and no penalty, the effect of a
treatment that does nothing is reported as 1, for every positive iteration limit and every tolerance. -/
theorem C105_parallel_refuted : ∃ P : Data ℚ, (∀ t i y, P.Y t i = some y → y = if t = 2 then 3 else 0) ∧
    ∀ (svd : ℚ → ℕ → ℕ → (ℕ → ℕ → ℚ) → (ℕ → ℕ → ℚ)) (c : Cfg ℚ), 1 ≤ c.maxIter →
      effect (fieldOps eHalf id svd) c (some P) P { time := 0, unit := 0, nn := 0 } 2 1 = some 1 := by
  refine ⟨parallel, fun t i y h => (Option.some.inj h).symm, fun svd c hc => ?_⟩
  obtain ⟨_, hL, h⟩ := C105_interpolates (r := id) (svd := svd) eHalf_pos c { maxIter := 1, tol := 0 } hc le_rfl parallel parallel
    { time := 0, unit := 0, nn := 0 } le_rfl none 2 1
  have hw := mw_nonneg (r := id) (svd := svd) eHalf_pos parallel parallel none 0 0 1 2
  have h1 := loop_one (e := eHalf) (r := id) (svd := svd) (tol := (0 : ℚ)) (tol' := 0) (nT := 3) (nN := 2) (lam := 0) le_rfl (Y := ySafe (fieldOps eHalf id svd) parallel) hw 0
  have ha : (fitAt (fieldOps eHalf id svd) c (some parallel) parallel { time := 0, unit := 0, nn := 0 } none 2 1).alpha 1 = 0 := by
    rw [h]
    refine (congrFun (congrArg Fit.alpha h1) 1).trans ?_
    show alphaStep (fieldOps eHalf id (fun _ _ _ M => M)) 3 (ySafe (fieldOps eHalf id (fun _ _ _ M => M)) parallel)
      (wMasked (fieldOps eHalf id (fun _ _ _ M => M)) parallel none (weights (fieldOps eHalf id (fun _ _ _ M => M)) parallel 0 0 1 2))
      (start (fieldOps eHalf id (fun _ _ _ M => M))) 1 = 0
    decide +kernel
  have hb : (fitAt (fieldOps eHalf id svd) c (some parallel) parallel { time := 0, unit := 0, nn := 0 } none 2 1).beta 2 = 2 := by
    rw [h]
    refine (congrFun (congrArg Fit.beta h1) 2).trans ?_
    show betaStep (fieldOps eHalf id (fun _ _ _ M => M)) 2 (ySafe (fieldOps eHalf id (fun _ _ _ M => M)) parallel)
      (wMasked (fieldOps eHalf id (fun _ _ _ M => M)) parallel none (weights (fieldOps eHalf id (fun _ _ _ M => M)) parallel 0 0 1 2))
      (alphaStep (fieldOps eHalf id (fun _ _ _ M => M)) 3 (ySafe (fieldOps eHalf id (fun _ _ _ M => M)) parallel)
      (wMasked (fieldOps eHalf id (fun _ _ _ M => M)) parallel none (weights (fieldOps eHalf id (fun _ _ _ M => M)) parallel 0 0 1 2))
      (start (fieldOps eHalf id (fun _ _ _ M => M)))) (start (fieldOps eHalf id (fun _ _ _ M => M))).L 2 = 2
    decide +kernel
  show some ((3 : ℚ) - _ - _ - _) = some 1
  rw [ha, hb, hL 2 1 (Or.inr (Or.inl (by decide)))]
  norm_num

/-- The hypotheses of `C105_interpolates` at the cell (0, 0) of that panel. -/
example : parallel.Y 0 0 = some 0 ∧ parallel.D 0 0 = 0 ∧
    0 < weights (fieldOps eHalf id (fun _ _ _ M => M)) parallel 0 0 1 2 0 0 := by decide +kernel

end DiffDiff.TropFit
