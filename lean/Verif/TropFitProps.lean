/-
Properties of the TROP estimation: C56 (final score), C57, C90-C95.
-/
import Verif.TropFit
import Verif.TropProps
import Verif.HonestDidProps

set_option linter.unusedSectionVars false

namespace DiffDiff.TropFit

open DiffDiff.HonestDid (sum_map_range)

/-! ### Independence of treated outcomes, for any arithmetic in which a zero weight removes a finite outcome -/

section Generic
variable {N : Type*} (o : Ops N)

/-- A weight multiplied by zero removes the outcome and is not positive. -/
structure Absorb (good : N → Prop) : Prop where
  mul0 : ∀ w y y' l b, good y → good y' →
    o.mul (o.mul w o.zero) (o.sub (o.sub y l) b) = o.mul (o.mul w o.zero) (o.sub (o.sub y' l) b)
  pos0 : ∀ w, o.pos (o.mul w o.zero) = false
  zero : good o.zero

/-- Same panel up to the outcomes of cells that are not untreated. -/
structure SameControls (P P' : Data N) : Prop where
  nT : P.nT = P'.nT
  nN : P.nN = P'.nN
  D : P.D = P'.D
  Y : ∀ t i, P.D t i = 0 → P.Y t i = P'.Y t i

variable {o} {good : N → Prop} {P P' : Data N}

theorem sqDiffs_congr (h : SameControls P P') (j i t : ℕ) : sqDiffs o P j i t = sqDiffs o P' j i t := by
  unfold sqDiffs
  rw [h.nT, h.D]
  congr 1
  funext s
  split
  · rename_i hc
    rw [h.Y s i (by rw [h.D]; exact hc.2.1), h.Y s j (by rw [h.D]; exact hc.2.2)]
  · rfl

theorem weights_congr (h : SameControls P P') (lamT lamU : N) (i t : ℕ) : weights o P lamT lamU i t = weights o P' lamT lamU i t := by
  funext s j
  unfold weights unitWeight dist
  rw [sqDiffs_congr h, h.D]

theorem valid_congr (h : SameControls P P') (ex : Option (ℕ × ℕ)) (t i : ℕ) : valid P ex t i = valid P' ex t i := by
  unfold valid
  by_cases hd : P.D t i = 0
  · rw [h.Y t i hd, h.D]
  · have hd' : ¬ P'.D t i = 0 := by rw [← h.D]; exact hd
    simp [hd, hd']

/-- Outcomes either agree or carry a zeroed weight. -/
def Near (o : Ops N) (good : N → Prop) (W Y Y' : ℕ → ℕ → N) : Prop :=
  ∀ t i, Y t i = Y' t i ∨ ((∃ w, W t i = o.mul w o.zero) ∧ good (Y t i) ∧ good (Y' t i))

theorem Near.term (ha : Absorb o good) {W Y Y' : ℕ → ℕ → N} (h : Near o good W Y Y') (t i : ℕ) (l b : N) :
    o.mul (W t i) (o.sub (o.sub (Y t i) l) b) = o.mul (W t i) (o.sub (o.sub (Y' t i) l) b) := by
  rcases h t i with h | ⟨⟨w, hw⟩, h1, h2⟩
  · rw [h]
  · rw [hw]; exact ha.mul0 w _ _ l b h1 h2

theorem Near.rMasked (ha : Absorb o good) {W Y Y' : ℕ → ℕ → N} (h : Near o good W Y Y') (al be : ℕ → N) (L : ℕ → ℕ → N) :
    rMasked o Y W al be L = rMasked o Y' W al be L := by
  funext t i
  unfold TropFit.rMasked
  rcases h t i with h | ⟨⟨w, hw⟩, _, _⟩
  · rw [h]
  · rw [hw, ha.pos0]; rfl

theorem Near.sweep (ha : Absorb o good) {W Y Y' : ℕ → ℕ → N} (h : Near o good W Y Y') (tol : N) (nT nN : ℕ) (lam : N) (f : Fit N) :
    sweep o tol nT nN lam Y W f = sweep o tol nT nN lam Y' W f := by
  have h1 : alphaStep o nT Y W f = alphaStep o nT Y' W f := by
    funext i
    unfold alphaStep
    simp only [h.term ha]
  have h2 : ∀ al, betaStep o nN Y W al f.L = betaStep o nN Y' W al f.L := by
    intro al
    funext t
    unfold betaStep
    simp only [h.term ha]
  unfold TropFit.sweep nnSolve
  rw [h1, h2, h.rMasked ha]

theorem Near.loop (ha : Absorb o good) {W Y Y' : ℕ → ℕ → N} (h : Near o good W Y Y') (tol : N) (nT nN : ℕ) (lam : N) (n : ℕ) :
    ∀ f, loop o tol nT nN lam Y W n f = loop o tol nT nN lam Y' W n f := by
  induction n with
  | zero => intro f; rfl
  | succ n ih =>
    intro f
    unfold TropFit.loop
    rw [h.sweep ha]
    simp only [ih]

theorem estimate_congr (ha : Absorb o good) (h : SameControls P P') (hg : ∀ t i y, P.Y t i = some y → good y)
    (hg' : ∀ t i y, P'.Y t i = some y → good y) (c : Cfg N) (W : ℕ → ℕ → N) (lam : N) (ex : Option (ℕ × ℕ)) :
    estimate o c P W lam ex = estimate o c P' W lam ex := by
  have hW : wMasked o P ex W = wMasked o P' ex W := by
    funext t i; unfold wMasked; rw [valid_congr h]
  unfold estimate
  rw [h.nT, h.nN, hW]
  refine Near.loop ha (fun t i => ?_) _ _ _ _ _ _
  by_cases hd : P.D t i = 0
  · left; unfold ySafe; rw [h.Y t i hd]
  · right
    refine ⟨⟨W t i, ?_⟩, ?_, ?_⟩
    · unfold wMasked valid
      rw [← h.D]
      simp [hd]
    · unfold ySafe
      rcases hy : P.Y t i with _ | y
      · exact ha.zero
      · exact hg t i y hy
    · unfold ySafe
      rcases hy : P'.Y t i with _ | y
      · exact ha.zero
      · exact hg' t i y hy

theorem fitAt_congr (ha : Absorb o good) (h : SameControls P P') (hg : ∀ t i y, P.Y t i = some y → good y)
    (hg' : ∀ t i y, P'.Y t i = some y → good y) (c : Cfg N) (l : Lam3 N) (ex : Option (ℕ × ℕ)) (t i : ℕ) :
    fitAt o c (some P) P l ex t i = fitAt o c (some P') P' l ex t i := by
  unfold fitAt obsWeights
  simp only
  rw [weights_congr h, estimate_congr ha h hg hg']

theorem cells_congr {p p' : ℕ → ℕ → Bool} (hT : P.nT = P'.nT) (hN : P.nN = P'.nN) (h : ∀ t i, p t i = p' t i) :
    cells P p = cells P' p' := by
  unfold cells
  rw [hT, hN]
  simp only [h]

theorem mem_cells {p : ℕ → ℕ → Bool} {q : ℕ × ℕ} : q ∈ cells P p ↔ q.1 < P.nT ∧ q.2 < P.nN ∧ p q.1 q.2 = true := by
  obtain ⟨t, i⟩ := q
  simp [cells, and_assoc]

theorem controlCells_congr (h : SameControls P P') : controlCells P = controlCells P' := by
  unfold controlCells
  refine cells_congr h.nT h.nN (fun t i => ?_)
  by_cases hd : P.D t i = 0
  · rw [h.Y t i hd, h.D]
  · have hd' : ¬ P'.D t i = 0 := by rw [← h.D]; exact hd
    simp [hd, hd']

theorem looScore_congr (ha : Absorb o good) (h : SameControls P P') (hg : ∀ t i y, P.Y t i = some y → good y)
    (hg' : ∀ t i y, P'.Y t i = some y → good y) (c : Cfg N) (pick : List (ℕ × ℕ) → List (ℕ × ℕ))
    (hpick : ∀ l, ∀ q ∈ pick l, q ∈ l) (l : Lam3 N) :
    looScore o c pick P l = looScore o c pick P' l := by
  have hterm : ∀ q ∈ controlCells P', looTerm o c (some P) P l q = looTerm o c (some P') P' l q := by
    intro q hq
    unfold looTerm tau
    rw [fitAt_congr ha h hg hg']
    have := (mem_cells.1 hq).2.2
    simp only [Bool.and_eq_true, decide_eq_true_eq] at this
    rw [h.Y q.1 q.2 (by rw [h.D]; exact this.1)]
  unfold looScore
  rw [controlCells_congr h]
  rcases hp : pick (controlCells P') with _ | ⟨q, qs⟩
  · rfl
  · have hmem : ∀ x ∈ q :: qs, x ∈ controlCells P' := fun x hx => hpick _ x (by rw [hp]; exact hx)
    simp only
    congr 2
    exact List.map_congr_left (fun x hx => hterm x (hmem x hx))

end Generic

section Instances
variable {K : Type*} [Field K] [LinearOrder K] [IsStrictOrderedRing K]

theorem absorb_field (e r : K → K) (svd) : Absorb (fieldOps e r svd) (fun _ => True) where
  mul0 := by intro w y y' l b _ _; simp [fieldOps]
  pos0 := by intro w; simp [fieldOps]
  zero := trivial

theorem absorb_ext (e r : K → K) (svd) : Absorb (extOps e r svd) (fun x => x.isFinite = true) where
  mul0 := by
    intro w y y' l b hy hy'
    cases y <;> simp [Ext.isFinite] at hy
    cases y' <;> simp [Ext.isFinite] at hy'
    rename_i y y'
    have h0 : ∀ x : Ext K, x.isFinite = true → Ext.mul (.fin 0) x = .fin 0 := by
      intro x hx; cases x <;> simp [Ext.isFinite] at hx; simp [Ext.mul]
    cases w <;> cases l <;> cases b <;>
      simp [extOps, Ext.mul, Ext.sub, Ext.add, Ext.neg, Ext.infOf, Ext.sgn]
  pos0 := by intro w; cases w <;> simp [extOps, Ext.mul, Ext.lt, Ext.infOf, Ext.sgn]
  zero := rfl

/-! ### Float runs on finite data are exact runs -/

variable (e r : K → K) (svd : K → ℕ → ℕ → (ℕ → ℕ → K) → (ℕ → ℕ → K))

/-- Matrices and vectors as floats. -/
def up (M : ℕ → ℕ → K) : ℕ → ℕ → Ext K := fun t i => .fin (M t i)
def upV (v : ℕ → K) : ℕ → Ext K := fun i => .fin (v i)
def upF (f : Fit K) : Fit (Ext K) := { alpha := upV f.alpha, beta := upV f.beta, L := up f.L }
def upC (c : Cfg K) : Cfg (Ext K) := { maxIter := c.maxIter, tol := .fin c.tol }
def upL (l : Lam3 K) : Lam3 (Ext K) := { time := .fin l.time, unit := .fin l.unit, nn := .fin l.nn }

theorem sumL_up (l : List K) : sumL (extOps e r svd) (l.map .fin) = .fin (sumL (fieldOps e r svd) l) := by
  induction l with
  | nil => rfl
  | cons a l ih =>
    simp only [sumL, List.map_cons, List.foldr_cons] at ih ⊢
    rw [ih]; rfl

theorem max_up (a b : K) : extMax (.fin a) (.fin b) = .fin (max a b) := by
  by_cases h : a < b
  · simp [extMax, Ext.lt, h, max_eq_right h.le]
  · simp [extMax, Ext.lt, h, max_eq_left (not_lt.1 h)]

theorem maxL_up (l : List K) : maxL (extOps e r svd) (l.map .fin) = .fin (maxL (fieldOps e r svd) l) := by
  induction l with
  | nil => rfl
  | cons a l ih =>
    simp only [maxL, List.map_cons, List.foldr_cons] at ih ⊢
    rw [ih]; exact max_up _ _

theorem sub_up (a b : K) : (extOps e r svd).sub (.fin a) (.fin b) = .fin (a - b) := by
  simp [extOps, Ext.sub, Ext.neg, Ext.add, sub_eq_add_neg]

theorem mul_up (a b : K) : (extOps e r svd).mul (.fin a) (.fin b) = .fin (a * b) := rfl

theorem div_up (a b : K) (h : b ≠ 0) : (extOps e r svd).div (.fin a) (.fin b) = .fin (a / b) := by
  simp [extOps, Ext.div, h]

theorem sumL_field (l : List K) : sumL (fieldOps e r svd) l = l.sum := by
  induction l with
  | nil => rfl
  | cons a l ih => simp only [sumL, List.foldr_cons] at ih ⊢; rw [ih]; simp [fieldOps]

theorem sqDiffs_up (P : Data K) (j i t : ℕ) :
    sqDiffs (extOps e r svd) (toExt P) j i t = (sqDiffs (fieldOps e r svd) P j i t).map .fin := by
  unfold sqDiffs
  rw [List.map_filterMap]
  congr 1
  funext s
  by_cases hc : s ≠ t ∧ P.D s i = 0 ∧ P.D s j = 0
  · have hc' : s ≠ t ∧ (toExt P).D s i = 0 ∧ (toExt P).D s j = 0 := hc
    rw [if_pos hc, if_pos hc']
    have e1 : ∀ a b, (toExt P).Y a b = (P.Y a b).map .fin := fun _ _ => rfl
    rw [e1, e1]
    rcases P.Y s i with _ | a
    · rfl
    · rcases P.Y s j with _ | b
      · rfl
      · simp only [Option.map_some, Option.bind_some]
        unfold sqDiff
        rw [sub_up, mul_up]; rfl
  · have hc' : ¬ (s ≠ t ∧ (toExt P).D s i = 0 ∧ (toExt P).D s j = 0) := hc
    rw [if_neg hc, if_neg hc']; rfl

theorem sqDiffs_nonneg (P : Data K) (j i t : ℕ) : ∀ x ∈ sqDiffs (fieldOps e r svd) P j i t, 0 ≤ x := by
  intro x hx
  simp only [sqDiffs, List.mem_filterMap] at hx
  obtain ⟨s, _, hs⟩ := hx
  split at hs
  · rcases hi : P.Y s i with _ | a
    · rw [hi] at hs; cases hs
    · rcases hj : P.Y s j with _ | b
      · rw [hi, hj] at hs; cases hs
      · rw [hi, hj] at hs
        simp only [Option.map_some, Option.bind_some, Option.some.injEq] at hs
        rw [← hs]
        exact mul_self_nonneg _
  · cases hs

theorem dist_up (P : Data K) (j i t : ℕ) :
    dist (extOps e r svd) (toExt P) j i t = (dist (fieldOps e r svd) P j i t).map .fin := by
  unfold dist
  rw [sqDiffs_up]
  have hnn := sqDiffs_nonneg e r svd P j i t
  rcases hl : sqDiffs (fieldOps e r svd) P j i t with _ | ⟨a, l⟩
  · rfl
  · rw [hl] at hnn
    have h1 := sumL_up e r svd (a :: l)
    rw [List.map_cons] at h1 ⊢
    simp only [Option.map_some, Option.some.injEq]
    rw [h1]
    have hlen : (((a :: l).length : ℕ) : K) ≠ 0 := by simp; positivity
    have h2 : (Ext.fin a :: List.map Ext.fin l).length = (a :: l).length := by simp
    rw [h2]
    have h3 := div_up e r svd (sumL (fieldOps e r svd) (a :: l)) ((a :: l).length : K) hlen
    have h4 : (extOps e r svd).div (.fin (sumL (fieldOps e r svd) (a :: l))) ((extOps e r svd).ofNat (a :: l).length) =
      .fin (sumL (fieldOps e r svd) (a :: l) / ((a :: l).length : K)) := h3
    rw [h4]
    have h5 : ¬ (sumL (fieldOps e r svd) (a :: l) / ((a :: l).length : K)) < 0 := by
      rw [sumL_field, not_lt]
      exact div_nonneg (List.sum_nonneg hnn) (by positivity)
    change extSqrt r (.fin _) = _
    simp only [extSqrt]
    rw [if_neg h5]
    rfl

theorem weights_up (P : Data K) (lamT lamU : K) (i t : ℕ) :
    weights (extOps e r svd) (toExt P) (.fin lamT) (.fin lamU) i t = up (weights (fieldOps e r svd) P lamT lamU i t) := by
  funext s j
  unfold weights up
  have h1 : timeWeight (extOps e r svd) (.fin lamT) t s = .fin (timeWeight (fieldOps e r svd) lamT t s) := rfl
  have h2 : unitWeight (extOps e r svd) (toExt P) (.fin lamU) i t j = .fin (unitWeight (fieldOps e r svd) P lamU i t j) := by
    unfold unitWeight
    rw [dist_up]
    by_cases hj : j = i
    · rw [if_pos hj, if_pos hj]; rfl
    · rw [if_neg hj, if_neg hj]
      by_cases hD : P.D t j = 0
      · have hD' : (toExt P).D t j = 0 := hD
        rw [if_pos hD, if_pos hD']
        have hz : (extOps e r svd).isZero (.fin lamU) = (fieldOps e r svd).isZero lamU := rfl
        rw [hz]
        cases (fieldOps e r svd).isZero lamU
        · rcases dist (fieldOps e r svd) P j i t with _ | d
          · rfl
          · rfl
        · rfl
      · have hD' : ¬ (toExt P).D t j = 0 := hD
        rw [if_neg hD, if_neg hD']; rfl
  rw [h1, h2]
  rfl

theorem wMasked_up (P : Data K) (ex : Option (ℕ × ℕ)) (W : ℕ → ℕ → K) :
    wMasked (extOps e r svd) (toExt P) ex (up W) = up (wMasked (fieldOps e r svd) P ex W) := by
  funext t i
  have hv : valid (toExt P) ex t i = valid P ex t i := by
    have e1 : ((toExt P).Y t i).isSome = (P.Y t i).isSome := by simp [toExt]
    unfold valid
    rw [e1]
    rfl
  unfold wMasked up
  beta_reduce
  rw [hv]
  cases valid P ex t i <;> rfl

theorem ySafe_up (P : Data K) : ySafe (extOps e r svd) (toExt P) = up (ySafe (fieldOps e r svd) P) := by
  funext t i
  unfold ySafe up toExt
  simp only
  rcases P.Y t i with _ | y <;> rfl

theorem unitSum_up (nT : ℕ) (W : ℕ → ℕ → K) (i : ℕ) :
    unitSum (extOps e r svd) nT (up W) i = .fin (unitSum (fieldOps e r svd) nT W i) := by
  unfold unitSum
  rw [← sumL_up, List.map_map]; rfl

theorem timeSum_up (nN : ℕ) (W : ℕ → ℕ → K) (t : ℕ) :
    timeSum (extOps e r svd) nN (up W) t = .fin (timeSum (fieldOps e r svd) nN W t) := by
  unfold timeSum
  rw [← sumL_up, List.map_map]; rfl

theorem pos_up (x : K) : (extOps e r svd).pos (.fin x) = (fieldOps e r svd).pos x := rfl

theorem lt_up (x y : K) : (extOps e r svd).lt (.fin x) (.fin y) = (fieldOps e r svd).lt x y := rfl

theorem alphaStep_up (nT : ℕ) (Y W : ℕ → ℕ → K) (f : Fit K) :
    alphaStep (extOps e r svd) nT (up Y) (up W) (upF f) = upV (alphaStep (fieldOps e r svd) nT Y W f) := by
  funext i
  unfold alphaStep upV
  beta_reduce
  rw [unitSum_up, pos_up]
  by_cases h : (fieldOps e r svd).pos (unitSum (fieldOps e r svd) nT W i) = true
  · rw [if_pos h, if_pos h]
    have hne : unitSum (fieldOps e r svd) nT W i ≠ 0 := by
      have : 0 < unitSum (fieldOps e r svd) nT W i := by simpa [fieldOps] using h
      exact this.ne'
    rw [show (fieldOps e r svd).div = (· / ·) from rfl, ← div_up e r svd _ _ hne, ← sumL_up, List.map_map]
    congr 3
    funext t
    simp only [Function.comp, up, upF, upV]
    rw [sub_up, sub_up, mul_up]
    rfl
  · rw [if_neg h, if_neg h]; rfl

theorem betaStep_up (nN : ℕ) (Y W : ℕ → ℕ → K) (al : ℕ → K) (L : ℕ → ℕ → K) :
    betaStep (extOps e r svd) nN (up Y) (up W) (upV al) (up L) = upV (betaStep (fieldOps e r svd) nN Y W al L) := by
  funext t
  unfold betaStep upV
  beta_reduce
  rw [timeSum_up, pos_up]
  by_cases h : (fieldOps e r svd).pos (timeSum (fieldOps e r svd) nN W t) = true
  · rw [if_pos h, if_pos h]
    have hne : timeSum (fieldOps e r svd) nN W t ≠ 0 := by
      have : 0 < timeSum (fieldOps e r svd) nN W t := by simpa [fieldOps] using h
      exact this.ne'
    rw [show (fieldOps e r svd).div = (· / ·) from rfl, ← div_up e r svd _ _ hne, ← sumL_up, List.map_map]
    congr 3
    funext i
    simp only [Function.comp, up]
    rw [sub_up, sub_up, mul_up]
    rfl
  · rw [if_neg h, if_neg h]; rfl

theorem rMasked_up (Y W : ℕ → ℕ → K) (al be : ℕ → K) (L : ℕ → ℕ → K) :
    rMasked (extOps e r svd) (up Y) (up W) (upV al) (upV be) (up L) = up (rMasked (fieldOps e r svd) Y W al be L) := by
  funext t i
  unfold rMasked up upV
  beta_reduce
  rw [pos_up, sub_up, sub_up]
  cases (fieldOps e r svd).pos (W t i) <;> rfl

theorem entries_up (nT nN : ℕ) (M : ℕ → ℕ → K) : entries nT nN (up M) = (entries nT nN M).map .fin := by
  unfold entries
  rw [List.map_flatMap]
  simp only [List.map_map]
  rfl

theorem matDiff_up (nT nN : ℕ) (A B : ℕ → ℕ → K) :
    matDiff (extOps e r svd) nT nN (up A) (up B) = .fin (matDiff (fieldOps e r svd) nT nN A B) := by
  unfold matDiff
  rw [← maxL_up, ← entries_up]
  congr 2
  funext t i
  simp only [up]
  rw [sub_up]; rfl

theorem vecDiff_up (n : ℕ) (a b : ℕ → K) :
    vecDiff (extOps e r svd) n (upV a) (upV b) = .fin (vecDiff (fieldOps e r svd) n a b) := by
  unfold vecDiff
  rw [← maxL_up, List.map_map]
  congr 2
  funext i
  simp only [Function.comp, upV]
  rw [sub_up]; rfl

theorem wNorm_up (nT nN : ℕ) (W : ℕ → ℕ → K) : wNorm (extOps e r svd) nT nN (up W) = up (wNorm (fieldOps e r svd) nT nN W) := by
  funext t i
  unfold wNorm
  rw [entries_up, maxL_up, pos_up]
  simp only [up]
  by_cases h : (fieldOps e r svd).pos (maxL (fieldOps e r svd) (entries nT nN W)) = true
  · rw [if_pos h, if_pos h, div_up]
    · rfl
    · have : 0 < maxL (fieldOps e r svd) (entries nT nN W) := by simpa [fieldOps] using h
      exact this.ne'
  · rw [if_neg h, if_neg h]

theorem proxStep_up (nT nN : ℕ) (lam : K) (Wn R L : ℕ → ℕ → K) :
    proxStep (extOps e r svd) nT nN (.fin lam) (up Wn) (up R) (up L) = up (proxStep (fieldOps e r svd) nT nN lam Wn R L) := by
  funext t i
  unfold proxStep
  change Ext.fin (svd lam nT nN _ t i) = Ext.fin (svd lam nT nN _ t i)
  congr 2
  funext a b
  simp only [up]
  rw [sub_up, mul_up]
  rfl

theorem inner_up (tol : K) (nT nN : ℕ) (lam : K) (Wn R : ℕ → ℕ → K) (n : ℕ) : ∀ L : ℕ → ℕ → K,
    inner (extOps e r svd) (.fin tol) nT nN (.fin lam) (up Wn) (up R) n (up L) =
      up (inner (fieldOps e r svd) tol nT nN lam Wn R n L) := by
  induction n with
  | zero => intro L; rfl
  | succ n ih =>
    intro L
    unfold inner
    rw [proxStep_up, matDiff_up, lt_up, ih]
    split <;> rfl

theorem sweep_up (tol : K) (nT nN : ℕ) (lam : K) (Y W : ℕ → ℕ → K) (f : Fit K) :
    sweep (extOps e r svd) (.fin tol) nT nN (.fin lam) (up Y) (up W) (upF f) = upF (sweep (fieldOps e r svd) tol nT nN lam Y W f) := by
  unfold sweep
  rw [alphaStep_up]
  have hb := betaStep_up e r svd nN Y W (alphaStep (fieldOps e r svd) nT Y W f) f.L
  have hL : (upF f).L = up f.L := rfl
  rw [hL, hb]
  unfold upF
  congr 1
  unfold nnSolve
  rw [rMasked_up, wNorm_up, inner_up]
  change (if decide (lam ≤ 0) = true then _ else _) = up (if decide (lam ≤ 0) = true then _ else _)
  split <;> rfl

theorem close_up (tol : K) (nT nN : ℕ) (f g : Fit K) :
    close (extOps e r svd) (.fin tol) nT nN (upF f) (upF g) = close (fieldOps e r svd) tol nT nN f g := by
  unfold close
  have h1 : vecDiff (extOps e r svd) nN (upF f).alpha (upF g).alpha = _ := vecDiff_up e r svd nN f.alpha g.alpha
  have h2 : vecDiff (extOps e r svd) nT (upF f).beta (upF g).beta = _ := vecDiff_up e r svd nT f.beta g.beta
  have h3 : matDiff (extOps e r svd) nT nN (upF f).L (upF g).L = _ := matDiff_up e r svd nT nN f.L g.L
  rw [h1, h2, h3]
  have hm : ∀ a b : K, pymax (extOps e r svd) (.fin a) (.fin b) = .fin (pymax (fieldOps e r svd) a b) := by
    intro a b
    unfold pymax
    rw [lt_up]
    split <;> rfl
  rw [hm, hm, lt_up]

theorem loop_up (tol : K) (nT nN : ℕ) (lam : K) (Y W : ℕ → ℕ → K) (n : ℕ) : ∀ f : Fit K,
    loop (extOps e r svd) (.fin tol) nT nN (.fin lam) (up Y) (up W) n (upF f) =
      upF (loop (fieldOps e r svd) tol nT nN lam Y W n f) := by
  induction n with
  | zero => intro f; rfl
  | succ n ih =>
    intro f
    unfold loop
    rw [sweep_up, close_up, ih]
    split <;> rfl

theorem fitAt_up (c : Cfg K) (P : Data K) (l : Lam3 K) (ex : Option (ℕ × ℕ)) (t i : ℕ) :
    fitAt (extOps e r svd) (upC c) (some (toExt P)) (toExt P) (upL l) ex t i =
      upF (fitAt (fieldOps e r svd) c (some P) P l ex t i) := by
  unfold fitAt obsWeights estimate
  simp only [upL]
  rw [weights_up, wMasked_up, ySafe_up]
  exact loop_up e r svd c.tol P.nT P.nN l.nn _ _ c.maxIter (start (fieldOps e r svd))

theorem tau_up (P : Data K) (f : Fit K) (t i : ℕ) :
    tau (extOps e r svd) (toExt P) (upF f) t i = (tau (fieldOps e r svd) P f t i).map .fin := by
  unfold tau toExt
  simp only
  rcases P.Y t i with _ | y
  · rfl
  · simp only [Option.map_some, upF, up, upV]
    rw [sub_up, sub_up, sub_up]; rfl

theorem mapM_up (l : List (Option K)) : (l.map (Option.map Ext.fin)).mapM id = (l.mapM id).map (List.map Ext.fin) := by
  induction l with
  | nil => rfl
  | cons a l ih =>
    rw [List.map_cons, List.mapM_cons, List.mapM_cons, ih]
    rcases a with _ | a
    · rfl
    · rcases l.mapM id with _ | l' <;> rfl

theorem meanO_up (l : List (Option K)) :
    meanO (extOps e r svd) (l.map (Option.map Ext.fin)) = (meanO (fieldOps e r svd) l).map .fin := by
  unfold meanO
  rw [mapM_up]
  rcases l.mapM id with _ | l'
  · rfl
  · rcases l' with _ | ⟨x, xs⟩
    · rfl
    · simp only [Option.map_some, List.map_cons, List.length_map]
      have h1 := sumL_up e r svd (x :: xs)
      rw [List.map_cons] at h1
      rw [h1]
      have h2 : ((xs.length + 1 : ℕ) : K) ≠ 0 := by positivity
      have h3 := div_up e r svd (sumL (fieldOps e r svd) (x :: xs)) ((xs.length + 1 : ℕ) : K) h2
      exact congrArg some h3

/-- On finite data and finite parameters the float model computes exactly what the exact model computes. -/
theorem att_up (c : Cfg K) (P : Data K) (l : Lam3 K) :
    att (extOps e r svd) (upC c) (some (toExt P)) (toExt P) (upL l) = (att (fieldOps e r svd) c (some P) P l).map .fin := by
  unfold att
  rw [← meanO_up, List.map_map]
  congr 1
  have hc : treatedCells (toExt P) = treatedCells P := rfl
  rw [hc]
  apply List.map_congr_left
  intro q _
  simp only [Function.comp, effect]
  rw [fitAt_up, tau_up]

theorem looScore_up (c : Cfg K) (pick : List (ℕ × ℕ) → List (ℕ × ℕ)) (P : Data K) (l : Lam3 K) :
    looScore (extOps e r svd) (upC c) pick (toExt P) (upL l) = (looScore (fieldOps e r svd) c pick P l).map .fin := by
  unfold looScore
  have hc : controlCells (toExt P) = controlCells P := by
    unfold controlCells
    refine cells_congr rfl rfl (fun t i => ?_)
    have e1 : ((toExt P).Y t i).isSome = (P.Y t i).isSome := by simp [toExt]
    rw [e1]
    rfl
  rw [hc]
  rcases pick (controlCells P) with _ | ⟨q, qs⟩
  · rfl
  · simp only [Option.map_some, Option.some.injEq]
    rw [← sumL_up, List.map_map]
    congr 1
    apply List.map_congr_left
    intro x _
    simp only [Function.comp]
    unfold looTerm
    rw [fitAt_up, tau_up]
    rcases tau (fieldOps e r svd) P _ x.1 x.2 with _ | y <;> rfl

/-! ### C90: treated outcomes do not influence the counterfactual -/

theorem good_toExt (P : Data K) : ∀ t i y, (toExt P).Y t i = some y → y.isFinite = true := by
  intro t i y h
  simp only [toExt, Option.map_eq_some_iff] at h
  obtain ⟨a, _, rfl⟩ := h
  rfl

theorem sameControls_toExt {P P' : Data K} (h : SameControls P P') : SameControls (toExt P) (toExt P') where
  nT := h.nT
  nN := h.nN
  D := h.D
  Y := fun t i hd => by simp only [toExt]; rw [h.Y t i hd]

/-- **C90.** The fitted model behind every effect (weights, fixed effects and factor matrix, for any tuning parameters including
infinities) is the same for two panels that differ only in the outcomes of cells that are not untreated. -/
theorem C90_counterfactual (c : Cfg (Ext K)) (P P' : Data K) (h : SameControls P P') (l : Lam3 (Ext K)) (ex : Option (ℕ × ℕ))
    (t i : ℕ) : fitAt (extOps e r svd) c (some (toExt P)) (toExt P) l ex t i =
      fitAt (extOps e r svd) c (some (toExt P')) (toExt P') l ex t i :=
  fitAt_congr (absorb_ext e r svd) (sameControls_toExt h) (good_toExt P) (good_toExt P') c l ex t i

/-- **C90.** The tuning search (selected parameters and stored score) does not depend on the outcomes of treated cells either.
`pick` is the subsampling of control cells; it only has to return cells it was given. -/
theorem C90_selection (c : Cfg (Ext K)) (pick : List (ℕ × ℕ) → List (ℕ × ℕ)) (hpick : ∀ l, ∀ q ∈ pick l, q ∈ l) (P P' : Data K)
    (h : SameControls P P') (g : Trop.Grids K) :
    (fitPoint (extOps e r svd) c pick (toExt P) g).1 = (fitPoint (extOps e r svd) c pick (toExt P') g).1 := by
  have : score (extOps e r svd) c pick (toExt P) = score (extOps e r svd) c pick (toExt P') := by
    funext l
    unfold score
    rw [looScore_congr (absorb_ext e r svd) (sameControls_toExt h) (good_toExt P) (good_toExt P') c pick hpick]
  unfold fitPoint
  rw [this]

/-- Add `d` to the outcome of every cell that is not untreated. -/
def shiftTreated (P : Data K) (d : K) : Data K :=
  { P with Y := fun t i => if P.D t i = 0 then P.Y t i else (P.Y t i).map (· + d) }

theorem sameControls_shift (P : Data K) (d : K) : SameControls P (shiftTreated P d) where
  nT := rfl
  nN := rfl
  D := rfl
  Y := fun t i hd => by simp [shiftTreated, hd]

theorem mapM_id_map {A B : Type*} (f : A → B) (l : List (Option A)) :
    (l.map (Option.map f)).mapM id = (l.mapM id).map (List.map f) := by
  induction l with
  | nil => rfl
  | cons a l ih =>
    rw [List.map_cons, List.mapM_cons, List.mapM_cons, ih]
    rcases a with _ | a
    · rfl
    · rcases l.mapM id with _ | l' <;> rfl

theorem sum_add_const (d : K) (l : List K) : (l.map (· + d)).sum = l.sum + l.length * d := by
  induction l with
  | nil => simp
  | cons a l ih => simp [ih]; ring

theorem meanO_add (d : K) (l : List (Option K)) :
    meanO (fieldOps e r svd) (l.map (Option.map (· + d))) = (meanO (fieldOps e r svd) l).map (· + d) := by
  unfold meanO
  rw [mapM_id_map]
  rcases l.mapM id with _ | _ | ⟨x, xs⟩
  · rfl
  · rfl
  · have h := sum_add_const d (x :: xs)
    simp only [Option.map_some, List.map_cons, List.length_map, sumL_field] at h ⊢
    rw [h]
    simp only [fieldOps, List.length_cons]
    have : ((xs.length + 1 : ℕ) : K) ≠ 0 := by positivity
    congr 1
    field_simp

theorem mem_treated {P : Data K} {q : ℕ × ℕ} (h : q ∈ treatedCells P) : P.D q.1 q.2 = 1 := by
  have := (mem_cells.1 h).2.2
  simpa using this

theorem att_shift (c : Cfg K) (P : Data K) (d : K) (l : Lam3 K) :
    att (fieldOps e r svd) c (some (shiftTreated P d)) (shiftTreated P d) l =
      (att (fieldOps e r svd) c (some P) P l).map (· + d) := by
  unfold att
  rw [← meanO_add, List.map_map]
  congr 1
  have hc : treatedCells (shiftTreated P d) = treatedCells P := rfl
  rw [hc]
  apply List.map_congr_left
  intro q hq
  have hD : ¬ P.D q.1 q.2 = 0 := by rw [mem_treated hq]; decide
  simp only [Function.comp, effect]
  rw [← fitAt_congr (absorb_field e r svd) (sameControls_shift P d) (fun _ _ _ _ => trivial) (fun _ _ _ _ => trivial)]
  unfold tau
  simp only [shiftTreated, if_neg hD]
  rcases P.Y q.1 q.2 with _ | y
  · rfl
  · simp [fieldOps]; ring

/-- A grid without NaN. -/
def NoNan (l : List (Ext K)) : Prop := ∀ x ∈ l, x ≠ .nan

theorem conv_fin {x : Ext K} (h : x ≠ .nan) : ∃ y, Trop.conv x = .fin y := by
  cases x
  · exact absurd rfl h
  · exact ⟨0, rfl⟩
  · exact ⟨0, rfl⟩
  · exact ⟨_, rfl⟩

theorem convN_fin {x : Ext K} (h : x ≠ .nan) : ∃ y, Trop.convN x = .fin y := by
  cases x
  · exact absurd rfl h
  · exact ⟨_, rfl⟩
  · exact ⟨_, rfl⟩
  · exact ⟨_, rfl⟩

/-- The grids are non-empty and contain no NaN (infinities allowed). -/
structure GoodGrids (g : Trop.Grids K) : Prop where
  time : g.time ≠ []
  unit : g.unit ≠ []
  nn : g.nn ≠ []
  time' : NoNan g.time
  unit' : NoNan g.unit
  nn' : NoNan g.nn

/-- Whatever is selected, the parameters used for estimation are finite numbers. -/
theorem effective_fin (score : Trop.Lam K → Option (Ext K)) (g : Trop.Grids K) (hg : GoodGrids g) :
    ∃ l : Lam3 K, lam3 (Trop.effective (Trop.select score g).1) = upL l := by
  have key : (Trop.select score g).1.time ≠ .nan ∧ (Trop.select score g).1.unit ≠ .nan ∧ (Trop.select score g).1.nn ≠ .nan := by
    rcases Trop.C55_selected_in_grids score g hg.time hg.unit hg.nn with ⟨⟨h1, h2, h3⟩, _⟩ | ⟨h, _⟩
    · exact ⟨hg.time' _ h1, hg.unit' _ h2, hg.nn' _ h3⟩
    · rw [h]; exact ⟨by simp, by simp, by simp⟩
  obtain ⟨a, ha⟩ := conv_fin key.1
  obtain ⟨b, hb⟩ := conv_fin key.2.1
  obtain ⟨n, hn⟩ := convN_fin key.2.2
  refine ⟨⟨a, b, n⟩, ?_⟩
  simp only [Trop.effective, upL, lam3]
  rw [ha, hb, hn]

/-- **C90.** Adding a constant to the outcomes of all treated cells leaves the selected parameters and the stored score unchanged and
moves the reported average effect by exactly that constant (a missing estimate stays missing). -/
theorem C90_att_shift (c : Cfg K) (pick : List (ℕ × ℕ) → List (ℕ × ℕ)) (hpick : ∀ l, ∀ q ∈ pick l, q ∈ l) (P : Data K) (d : K)
    (g : Trop.Grids K) (hg : GoodGrids g) :
    (fitPoint (extOps e r svd) (upC c) pick (toExt (shiftTreated P d)) g).1 =
      (fitPoint (extOps e r svd) (upC c) pick (toExt P) g).1 ∧
    (fitPoint (extOps e r svd) (upC c) pick (toExt (shiftTreated P d)) g).2 =
      ((fitPoint (extOps e r svd) (upC c) pick (toExt P) g).2).map (fun x => Ext.add x (.fin d)) := by
  have h1 := C90_selection e r svd (upC c) pick hpick P (shiftTreated P d) (sameControls_shift P d) g
  refine ⟨h1.symm, ?_⟩
  obtain ⟨l, hl⟩ := effective_fin (score (extOps e r svd) (upC c) pick (toExt P)) g hg
  have h2 : Trop.select (score (extOps e r svd) (upC c) pick (toExt (shiftTreated P d))) g =
      Trop.select (score (extOps e r svd) (upC c) pick (toExt P)) g := h1.symm
  unfold fitPoint
  simp only
  rw [h2, hl, att_up, att_up, att_shift]
  rcases att (fieldOps e r svd) c (some P) P l with _ | a <;> rfl

/-! ### Sums -/

theorem sumL_range (n : ℕ) (f : ℕ → K) : sumL (fieldOps e r svd) ((List.range n).map f) = ∑ i ∈ Finset.range n, f i := by
  rw [sumL_field, sum_map_range]

theorem pos_field (x : K) : (fieldOps e r svd).pos x = true ↔ 0 < x := by simp [fieldOps]

theorem alphaStep_eq (nT : ℕ) (Y W : ℕ → ℕ → K) (f : Fit K) (i : ℕ) : alphaStep (fieldOps e r svd) nT Y W f i =
    if 0 < ∑ t ∈ Finset.range nT, W t i then
      (∑ t ∈ Finset.range nT, W t i * (Y t i - f.L t i - f.beta t)) / ∑ t ∈ Finset.range nT, W t i else 0 := by
  unfold alphaStep unitSum
  simp only [pos_field, sumL_range]
  rfl

theorem betaStep_eq (nN : ℕ) (Y W : ℕ → ℕ → K) (al : ℕ → K) (L : ℕ → ℕ → K) (t : ℕ) : betaStep (fieldOps e r svd) nN Y W al L t =
    if 0 < ∑ i ∈ Finset.range nN, W t i then
      (∑ i ∈ Finset.range nN, W t i * (Y t i - L t i - al i)) / ∑ i ∈ Finset.range nN, W t i else 0 := by
  unfold betaStep timeSum
  simp only [pos_field, sumL_range]
  rfl

theorem rMasked_eq (Y W : ℕ → ℕ → K) (al be : ℕ → K) (L : ℕ → ℕ → K) (t i : ℕ) :
    rMasked (fieldOps e r svd) Y W al be L t i = if 0 < W t i then Y t i - al i - be t else L t i := by
  unfold rMasked
  simp only [pos_field]
  rfl

theorem wMasked_eq (P : Data K) (ex : Option (ℕ × ℕ)) (W : ℕ → ℕ → K) (t i : ℕ) :
    wMasked (fieldOps e r svd) P ex W t i = if valid P ex t i = true then W t i else 0 := by
  unfold wMasked
  cases valid P ex t i <;> simp [fieldOps]

/-! ### C93: shape of the weights -/

/-- What is assumed of the exponential: positive, increasing, 1 at 0. -/
structure ExpLike (e : K → K) : Prop where
  pos : ∀ x, 0 < e x
  mono : ∀ x y, x ≤ y → e x ≤ e y
  zero : e 0 = 1

variable {e}

theorem timeWeight_eq (lamT : K) (t s : ℕ) : timeWeight (fieldOps e r svd) lamT t s = e (-lamT * (((t - s) + (s - t) : ℕ) : K)) := rfl

/-- **C93.** Time weights: 1 in the target period, at most 1 elsewhere, positive, non-increasing in the distance to the target period,
and identically 1 for parameter 0. -/
theorem C93_time (he : ExpLike e) (lamT : K) (hl : 0 ≤ lamT) (t : ℕ) :
    timeWeight (fieldOps e r svd) lamT t t = 1 ∧
    (∀ s, 0 < timeWeight (fieldOps e r svd) lamT t s ∧ timeWeight (fieldOps e r svd) lamT t s ≤ 1) ∧
    (∀ s s' : ℕ, |(t : ℤ) - s| ≤ |(t : ℤ) - s'| →
      timeWeight (fieldOps e r svd) lamT t s' ≤ timeWeight (fieldOps e r svd) lamT t s) ∧
    (lamT = 0 → ∀ s, timeWeight (fieldOps e r svd) lamT t s = 1) := by
  refine ⟨?_, fun s => ⟨he.pos _, ?_⟩, fun s s' h => ?_, ?_⟩
  · rw [timeWeight_eq]; simp [he.zero]
  · rw [timeWeight_eq, ← he.zero]
    apply he.mono
    have : (0 : K) ≤ (((t - s) + (s - t) : ℕ) : K) := Nat.cast_nonneg _
    have := mul_nonneg hl this
    linarith
  · rw [timeWeight_eq, timeWeight_eq]
    apply he.mono
    have h1 : (t - s) + (s - t) ≤ (t - s') + (s' - t) := by
      have := abs_le_abs (a := (t : ℤ) - s) (b := |(t : ℤ) - s'|) (by have := neg_abs_le ((t : ℤ) - s); have := le_abs_self ((t : ℤ) - s); omega)
        (by have := neg_abs_le ((t : ℤ) - s); have := neg_le_abs ((t : ℤ) - s); omega)
      rcases abs_cases ((t : ℤ) - s) with ⟨h2, _⟩ | ⟨h2, _⟩ <;> rcases abs_cases ((t : ℤ) - s') with ⟨h3, _⟩ | ⟨h3, _⟩ <;> omega
    have h2 : ((((t - s) + (s - t) : ℕ) : K)) ≤ (((t - s') + (s' - t) : ℕ) : K) := Nat.cast_le.2 h1
    nlinarith
  · rintro rfl s
    rw [timeWeight_eq]; simp [he.zero]

/-- **C93.** Unit weights: 1 for the unit itself; 0 exactly for other units that are treated in the target period or share no usable
period with it (when the parameter is not 0); never above 1; closer units weigh at least as much; all 1 for parameter 0. -/
theorem C93_unit (he : ExpLike e) (hr : ∀ x, 0 ≤ r x) (P : Data K) (lamU : K) (hl : 0 ≤ lamU) (i t : ℕ) :
    unitWeight (fieldOps e r svd) P lamU i t i = 1 ∧
    (∀ j, 0 ≤ unitWeight (fieldOps e r svd) P lamU i t j ∧ unitWeight (fieldOps e r svd) P lamU i t j ≤ 1) ∧
    (∀ j, j ≠ i → (unitWeight (fieldOps e r svd) P lamU i t j = 0 ↔
      P.D t j ≠ 0 ∨ (lamU ≠ 0 ∧ dist (fieldOps e r svd) P j i t = none))) ∧
    (∀ j j' d d', j ≠ i → j' ≠ i → P.D t j = 0 → P.D t j' = 0 → dist (fieldOps e r svd) P j i t = some d →
      dist (fieldOps e r svd) P j' i t = some d' → d ≤ d' →
      unitWeight (fieldOps e r svd) P lamU i t j' ≤ unitWeight (fieldOps e r svd) P lamU i t j) ∧
    (lamU = 0 → ∀ j, P.D t j = 0 → unitWeight (fieldOps e r svd) P lamU i t j = 1) := by
  have hd : ∀ j d, dist (fieldOps e r svd) P j i t = some d → 0 ≤ d := by
    intro j d hd
    unfold dist at hd
    split at hd
    · cases hd
    · cases hd; exact hr _
  have hz : (fieldOps e r svd).isZero lamU = decide (lamU = 0) := rfl
  have he1 : ∀ d, 0 ≤ d → e (-lamU * d) ≤ 1 := by
    intro d hd
    rw [← he.zero]
    apply he.mono
    have := mul_nonneg hl hd
    linarith
  refine ⟨?_, fun j => ?_, fun j hj => ?_, ?_, ?_⟩
  · unfold unitWeight; rw [if_pos rfl]; rfl
  · unfold unitWeight
    rw [hz]
    split
    · exact ⟨zero_le_one, le_rfl⟩
    · split
      · split
        · exact ⟨zero_le_one, le_rfl⟩
        · rcases h : dist (fieldOps e r svd) P j i t with _ | d
          · exact ⟨le_rfl, zero_le_one⟩
          · exact ⟨(he.pos _).le, he1 d (hd j d h)⟩
      · exact ⟨le_rfl, zero_le_one⟩
  · unfold unitWeight
    rw [hz, if_neg hj]
    by_cases hD : P.D t j = 0
    · rw [if_pos hD]
      by_cases h0 : lamU = 0
      · rw [if_pos (by simpa using h0)]
        refine iff_of_false ?_ ?_
        · exact one_ne_zero
        · rintro (h | h)
          · exact h hD
          · exact h.1 h0
      · rw [if_neg (by simpa using h0)]
        rcases h : dist (fieldOps e r svd) P j i t with _ | d
        · exact iff_of_true rfl (Or.inr ⟨h0, rfl⟩)
        · refine iff_of_false (he.pos _).ne' ?_
          rintro (h | h)
          · exact h hD
          · cases h.2
    · rw [if_neg hD]
      exact iff_of_true rfl (Or.inl hD)
  · intro j j' d d' hj hj' hD hD' h h' hdd
    unfold unitWeight
    rw [hz, if_neg hj, if_neg hj', if_pos hD, if_pos hD', h, h']
    split
    · exact le_rfl
    · apply he.mono
      change -lamU * d' ≤ -lamU * d
      nlinarith
  · rintro rfl j hD
    unfold unitWeight
    rw [hz]
    split
    · rfl
    · rw [if_pos (by simp)]; rfl

theorem weights_nonneg (he : ExpLike e) (P : Data K) (lamT lamU : K) (i t s j : ℕ) :
    0 ≤ weights (fieldOps e r svd) P lamT lamU i t s j := by
  have h1 : 0 < timeWeight (fieldOps e r svd) lamT t s := he.pos _
  have h2 : 0 ≤ unitWeight (fieldOps e r svd) P lamU i t j := by
    unfold unitWeight
    split
    · exact zero_le_one
    · split
      · split
        · exact zero_le_one
        · rcases h : dist (fieldOps e r svd) P j i t with _ | d
          · exact le_rfl
          · exact (he.pos _).le
      · exact le_rfl
  exact mul_nonneg h1.le h2

theorem wMasked_nonneg (he : ExpLike e) (P : Data K) (lamT lamU : K) (ex : Option (ℕ × ℕ)) (i t s j : ℕ) :
    0 ≤ wMasked (fieldOps e r svd) P ex (weights (fieldOps e r svd) P lamT lamU i t) s j := by
  rw [wMasked_eq]
  split
  · exact weights_nonneg r svd he P lamT lamU i t s j
  · exact le_rfl

/-- The weight of the unit's own observed untreated cells is positive. -/
theorem own_pos (he : ExpLike e) (P : Data K) (lamT lamU : K) (ex : Option (ℕ × ℕ)) (i t s : ℕ) (hv : valid P ex s i = true) :
    0 < wMasked (fieldOps e r svd) P ex (weights (fieldOps e r svd) P lamT lamU i t) s i := by
  rw [wMasked_eq, if_pos hv]
  have : unitWeight (fieldOps e r svd) P lamU i t i = 1 := by unfold unitWeight; rw [if_pos rfl]; rfl
  unfold weights
  rw [this]
  have h1 : 0 < timeWeight (fieldOps e r svd) lamT t s := he.pos _
  change 0 < _ * (1 : K)
  rw [mul_one]; exact h1

end Instances
end DiffDiff.TropFit
