/-
Properties of the compiled TROP routines against the Python ones: C104.
-/
import Verif.TropRust
import Verif.TropFitProps

set_option linter.unusedSectionVars false

namespace DiffDiff.TropRust

open DiffDiff.HonestDid (sum_map_range)
open TropFit (Data Cfg Fit fieldOps)

variable {K : Type*} [Field K] [LinearOrder K] [IsStrictOrderedRing K]

/-! ### The search -/

theorem conv_eq (l : Trop.Lam K) : conv l = Trop.effective l := rfl

theorem effective_idem (l : Trop.Lam K) : Trop.effective (Trop.effective l) = Trop.effective l := by
  obtain ⟨a, b, c⟩ := l
  cases a <;> cases b <;> cases c <;> rfl

/-- The Python score, known at the combinations without infinities. -/
def SameScore (sc : Trop.Lam K → Ext K) (py : Trop.Lam K → Option (Ext K)) : Prop :=
  ∀ l, py (Trop.effective l) = some (sc (Trop.effective l))

theorem univariate_eq {sc : Trop.Lam K → Ext K} {py : Trop.Lam K → Option (Ext K)} (h : SameScore sc py) (put : Ext K → Trop.Lam K)
    (grid : List (Ext K)) : univariate sc put grid = Trop.univariate (.fin 0) (fun x => Trop.evalAt py (put x)) grid := by
  unfold univariate Trop.univariate
  rw [List.foldl_map]
  congr 1
  funext b x
  show (if Ext.lt (sc (conv (put x))) b.2 then (x, sc (conv (put x))) else b) = Trop.step (fun x => py (Trop.effective (put x))) b x
  unfold Trop.step
  dsimp only
  rw [h, conv_eq]

theorem cycling_eq {sc : Trop.Lam K → Ext K} {py : Trop.Lam K → Option (Ext K)} (h : SameScore sc py) (g : Trop.Grids K) :
    ∀ n prev l, cycling sc g n prev l = Trop.cycling py g n prev l := by
  intro n
  induction n with
  | zero => intro prev l; rfl
  | succ n ih =>
    intro prev l
    simp only [cycling, Trop.cycling, Trop.cycle, Trop.afterNn, Trop.afterTime, Trop.afterUnit, Trop.searchNn, Trop.searchTime,
      Trop.searchUnit, univariate_eq h, ih]
    rfl

/-- **C104, search.** If the two score routines agree at every combination without infinities, the compiled search selects the same
combination as the Python search, for all grids; the compiled score is the score of the combination the estimation will use. -/
theorem C104_search (sc : Trop.Lam K → Ext K) (py : Trop.Lam K → Option (Ext K)) (h : SameScore sc py) (g : Trop.Grids K) :
    (gridSearch sc g).1 = Trop.search py g ∧ py (Trop.effective (gridSearch sc g).1) = some (gridSearch sc g).2 := by
  have h1 : (gridSearch sc g).1 = Trop.search py g := by
    simp only [gridSearch, Trop.search, Trop.initial, Trop.searchNn, Trop.searchTime, Trop.searchUnit, univariate_eq h, cycling_eq h]
  refine ⟨h1, ?_⟩
  rw [h]
  rfl

/-- **C104, selected parameters, partial.** With agreeing scores, and finite final scores, `fit` selects the same combination with and
without the compiled search. Missing: agreement of the stored score (`C104_stored_score_refuted`) and of the scores themselves
(`C104_treated_units_refuted`). -/
theorem C104_select_partial (sc : Trop.Lam K → Ext K) (py : Trop.Lam K → Option (Ext K)) (h : SameScore sc py) (g : Trop.Grids K)
    (a b : Ext K) (ha : py (Trop.search py g) = some a) (hfa : a.isFinite = true)
    (hb : py (Trop.effective (Trop.search py g)) = some b) (hfb : b.isFinite = true) :
    (select sc (Trop.select py g) g).1 = (Trop.select py g).1 ∧ (select sc (Trop.select py g) g).2 = b ∧ (Trop.select py g).2 = a := by
  obtain ⟨h1, h2⟩ := C104_search sc py h g
  have h3 : (gridSearch sc g).2 = b := by
    rw [h1, hb] at h2; exact (Option.some.inj h2).symm
  unfold select Trop.select
  rw [h3, ha]
  simp [hfa, hfb, h1, h3]

/-! ### Weights -/

section weights
variable (v : Env K)

/-- The exact arithmetic with the same outside routines. -/
abbrev ops (v : Env K) : TropFit.Ops K := fieldOps v.e v.r v.svd

theorem sqDiffs_eq (P : Data K) (j i t : ℕ) : sqDiffs P j i t = TropFit.sqDiffs (ops v) P j i t := by
  unfold sqDiffs TropFit.sqDiffs
  congr 1
  funext s
  by_cases h : s = t
  · simp [h]
  · by_cases h2 : P.D s i = 0 ∧ P.D s j = 0
    · rw [if_neg h, if_pos h2, if_pos ⟨h, h2⟩]; rfl
    · rw [if_neg h, if_neg h2, if_neg (fun h3 => h2 h3.2)]

theorem dist_eq (P : Data K) (j i t : ℕ) : dist v P j i t = TropFit.dist (ops v) P j i t := by
  unfold dist TropFit.dist
  rw [sqDiffs_eq v]
  rcases h : TropFit.sqDiffs (ops v) P j i t with _ | ⟨x, l⟩
  · rfl
  · simp only [TropFit.sumL_field]
    rfl

theorem timeRaw_eq (lamT : K) (t s : ℕ) : timeRaw v lamT t s = TropFit.timeWeight (ops v) lamT t s := rfl

theorem unitRaw_eq (P : Data K) (lamU : K) (i t j : ℕ) (h : j ≠ i → P.D t j = 0) :
    unitRaw v P lamU i t j = TropFit.unitWeight (ops v) P lamU i t j := by
  unfold unitRaw TropFit.unitWeight
  by_cases hj : j = i
  · rw [if_pos hj, if_pos hj]; rfl
  · rw [if_neg hj, if_neg hj, if_pos (h hj)]
    by_cases h0 : lamU = 0
    · simp [h0, fieldOps]
    · rw [if_neg h0, dist_eq v]
      have : (ops v).isZero lamU = false := by simp [fieldOps, h0]
      rw [this]
      rfl

variable {v}

theorem unitRaw_nonneg (he : ∀ x, 0 < v.e x) (P : Data K) (lamU : K) (i t j : ℕ) : 0 ≤ unitRaw v P lamU i t j := by
  unfold unitRaw
  split_ifs
  · exact zero_le_one
  · exact zero_le_one
  · cases dist v P j i t with
    | none => exact le_rfl
    | some d => exact (he _).le

theorem timeSum_pos (he : ∀ x, 0 < v.e x) (lamT : K) (nT t : ℕ) (h : 0 < nT) : 0 < ((List.range nT).map (timeRaw v lamT t)).sum := by
  rw [sum_map_range]
  exact Finset.sum_pos (fun s _ => he _) ⟨0, Finset.mem_range.2 h⟩

theorem unitSum_pos (he : ∀ x, 0 < v.e x) (P : Data K) (lamU : K) (i t : ℕ) (h : i < P.nN) :
    0 < ((List.range P.nN).map (unitRaw v P lamU i t)).sum := by
  rw [sum_map_range]
  refine Finset.sum_pos' (fun j _ => unitRaw_nonneg he P lamU i t j) ⟨i, Finset.mem_range.2 h, ?_⟩
  simp [unitRaw]

/-- The constant by which the two weight matrices differ. -/
def norm (v : Env K) (P : Data K) (lamT lamU : K) (i t : ℕ) : K :=
  1 / (((List.range P.nT).map (timeRaw v lamT t)).sum * ((List.range P.nN).map (unitRaw v P lamU i t)).sum)

theorem norm_pos (he : ∀ x, 0 < v.e x) (P : Data K) (lamT lamU : K) {i t : ℕ} (ht : 0 < P.nT) (hi : i < P.nN) :
    0 < norm v P lamT lamU i t := by
  unfold norm
  exact one_div_pos.2 (mul_pos (timeSum_pos he _ _ _ ht) (unitSum_pos he _ _ _ _ hi))

theorem weights_raw (he : ∀ x, 0 < v.e x) (P : Data K) (lamT lamU : K) {i t : ℕ} (ht : 0 < P.nT) (hi : i < P.nN) (s j : ℕ) :
    weights v P lamT lamU i t s j = norm v P lamT lamU i t * (timeRaw v lamT t s * unitRaw v P lamU i t j) := by
  unfold weights timeN unitN norm
  rw [if_pos (timeSum_pos he _ _ _ ht), if_pos (unitSum_pos he _ _ _ _ hi)]
  have := (timeSum_pos he lamT P.nT t ht).ne'
  have := (unitSum_pos he P lamU i t hi).ne'
  field_simp

theorem weights_eq (he : ∀ x, 0 < v.e x) (P : Data K) (lamT lamU : K) {i t : ℕ} (ht : 0 < P.nT) (hi : i < P.nN) (s j : ℕ)
    (h : j ≠ i → P.D t j = 0) :
    weights v P lamT lamU i t s j = norm v P lamT lamU i t * TropFit.weights (ops v) P lamT lamU i t s j := by
  rw [weights_raw he P lamT lamU ht hi, unitRaw_eq v P lamU i t j h, timeRaw_eq]
  rfl

theorem weights_le (he : ∀ x, 0 < v.e x) (P : Data K) (lamT lamU : K) {i t : ℕ} (hi : i < P.nN) {s j : ℕ} (hs : s < P.nT) (hj : j < P.nN) :
    0 ≤ weights v P lamT lamU i t s j ∧ weights v P lamT lamU i t s j ≤ 1 := by
  have ht : 0 < P.nT := by omega
  have h1 := timeSum_pos he lamT P.nT t ht
  have h2 := unitSum_pos he P lamU i t hi
  have a1 : timeRaw v lamT t s ≤ ((List.range P.nT).map (timeRaw v lamT t)).sum :=
    List.single_le_sum (by intro x hx; obtain ⟨k, _, rfl⟩ := List.mem_map.1 hx; exact (he _).le) _
      (List.mem_map.2 ⟨s, List.mem_range.2 hs, rfl⟩)
  have a2 : unitRaw v P lamU i t j ≤ ((List.range P.nN).map (unitRaw v P lamU i t)).sum :=
    List.single_le_sum (by intro x hx; obtain ⟨k, _, rfl⟩ := List.mem_map.1 hx; exact unitRaw_nonneg he _ _ _ _ _) _
      (List.mem_map.2 ⟨j, List.mem_range.2 hj, rfl⟩)
  have b1 : 0 ≤ timeRaw v lamT t s := (he _).le
  have b2 := unitRaw_nonneg he P lamU i t j
  unfold weights timeN unitN
  rw [if_pos h1, if_pos h2]
  exact ⟨mul_nonneg (div_nonneg b1 h1.le) (div_nonneg b2 h2.le),
    mul_le_one₀ ((div_le_one h1).2 a1) (div_nonneg b2 h2.le) ((div_le_one h2).2 a2)⟩

end weights

/-! ### Sweeps -/

theorem valid_eq (P : Data K) (ex : Option (ℕ × ℕ)) (t i : ℕ) : valid P ex t i = TropFit.valid P ex t i := by
  unfold valid TropFit.valid
  rw [Bool.and_assoc]

theorem foldr_max_nonneg (l : List K) : 0 ≤ l.foldr max 0 := by
  induction l with
  | nil => exact le_rfl
  | cons a l ih => exact le_max_of_le_right ih

theorem foldr_max_le {l : List K} {b : K} (hb : 0 ≤ b) (h : ∀ x ∈ l, x ≤ b) : l.foldr max 0 ≤ b := by
  induction l with
  | nil => exact hb
  | cons a l ih => exact max_le (h a (by simp)) (ih (fun x hx => h x (by simp [hx])))

theorem le_foldr_max {l : List K} {x : K} (h : x ∈ l) : x ≤ l.foldr max 0 := by
  induction l with
  | nil => exact absurd h List.not_mem_nil
  | cons a l ih =>
    rcases List.mem_cons.1 h with rfl | h
    · exact le_max_left _ _
    · exact le_max_of_le_right (ih h)

theorem le_wMax {nT nN : ℕ} (W : ℕ → ℕ → K) {t i : ℕ} (ht : t < nT) (hi : i < nN) : W t i ≤ wMax nT nN W :=
  le_foldr_max (List.mem_flatMap.2 ⟨t, List.mem_range.2 ht, List.mem_map.2 ⟨i, List.mem_range.2 hi, rfl⟩⟩)

theorem wMax_le {nT nN : ℕ} (W : ℕ → ℕ → K) {b : K} (hb : 0 ≤ b) (h : ∀ t < nT, ∀ i < nN, W t i ≤ b) : wMax nT nN W ≤ b := by
  apply foldr_max_le hb
  intro x hx
  obtain ⟨t, ht, hx⟩ := List.mem_flatMap.1 hx
  obtain ⟨i, hi, rfl⟩ := List.mem_map.1 hx
  exact h t (List.mem_range.1 ht) i (List.mem_range.1 hi)

theorem one_le_eta {nT nN : ℕ} (W : ℕ → ℕ → K) (h : ∀ t < nT, ∀ i < nN, W t i ≤ 1) : 1 ≤ eta nT nN W := by
  unfold eta
  split_ifs with h0
  · rw [le_div_iff₀ h0, one_mul]; exact wMax_le W zero_le_one h
  · exact le_rfl

theorem eta_mul {nT nN : ℕ} (W : ℕ → ℕ → K) {t i : ℕ} (ht : t < nT) (hi : i < nN) (h : 0 ≤ W t i) :
    0 ≤ eta nT nN W * W t i ∧ eta nT nN W * W t i ≤ 1 := by
  unfold eta
  have hw := le_wMax W ht hi
  split_ifs with h0
  · refine ⟨mul_nonneg (one_div_pos.2 h0).le h, ?_⟩
    rw [one_div, inv_mul_le_iff₀ h0, mul_one]; exact hw
  · have : W t i = 0 := le_antisymm (hw.trans (not_lt.1 h0)) h
    rw [this]; simp

/-- What is assumed of the thresholding: a threshold at least the entry bound times the number of entries, hence at least every
singular value, removes everything. -/
def Shrink (svd : K → ℕ → ℕ → (ℕ → ℕ → K) → (ℕ → ℕ → K)) : Prop :=
  ∀ (thr : K) (nT nN : ℕ) (M : ℕ → ℕ → K), 0 < thr → (∀ t < nT, ∀ i < nN, |M t i| * ((nT : K) * nN) ≤ thr) → ∀ t < nT, ∀ i < nN, svd thr nT nN M t i = 0

/-- A weighted mean of bounded numbers is bounded. -/
theorem mean_bound (n : ℕ) (w x : ℕ → K) (b : K) (hw : ∀ i < n, 0 ≤ w i) (hx : ∀ i < n, |x i| ≤ b)
    (h : 0 < ∑ i ∈ Finset.range n, w i) : |(∑ i ∈ Finset.range n, w i * x i) / ∑ i ∈ Finset.range n, w i| ≤ b := by
  rw [abs_div, abs_of_pos h, div_le_iff₀ h]
  refine (Finset.abs_sum_le_sum_abs _ _).trans ?_
  rw [Finset.mul_sum]
  apply Finset.sum_le_sum
  intro i hi
  have hi := Finset.mem_range.1 hi
  rw [abs_mul, abs_of_nonneg (hw i hi), mul_comm b]
  exact mul_le_mul_of_nonneg_left (hx i hi) (hw i hi)

/-- Agreement inside the panel, factors absent, effects bounded. -/
structure Agree (nT nN : ℕ) (b : K) (f g : Fit K) : Prop where
  alpha : ∀ i < nN, f.alpha i = g.alpha i
  beta : ∀ t < nT, f.beta t = g.beta t
  lf : ∀ t < nT, ∀ i < nN, f.L t i = 0
  lg : ∀ t < nT, ∀ i < nN, g.L t i = 0
  balpha : ∀ i < nN, |f.alpha i| ≤ b
  bbeta : ∀ t < nT, |f.beta t| ≤ b

section sweep
variable {v : Env K} {nT nN : ℕ} {Y W W' : ℕ → ℕ → K} {c lam tol B : K}

theorem alpha_agree (hW : ∀ t < nT, ∀ i < nN, W t i = c * W' t i) (hc : 0 < c) {b : K} {f g : Fit K} (h : Agree nT nN b f g)
    {i : ℕ} (hi : i < nN) (h0 : f.alpha i = 0 ∨ 0 < ∑ t ∈ Finset.range nT, W' t i) :
    alphaStep nT Y W f i = TropFit.alphaStep (ops v) nT Y W' g i := by
  rw [TropFit.alphaStep_eq]
  unfold alphaStep
  rw [sum_map_range, sum_map_range]
  have e1 : ∑ t ∈ Finset.range nT, W t i = c * ∑ t ∈ Finset.range nT, W' t i := by
    rw [Finset.mul_sum]
    exact Finset.sum_congr rfl (fun t ht => hW t (Finset.mem_range.1 ht) i hi)
  have e2 : ∑ t ∈ Finset.range nT, W t i * (Y t i - f.L t i - f.beta t) =
      c * ∑ t ∈ Finset.range nT, W' t i * (Y t i - g.L t i - g.beta t) := by
    rw [Finset.mul_sum]
    refine Finset.sum_congr rfl (fun t ht => ?_)
    have ht := Finset.mem_range.1 ht
    rw [hW t ht i hi, h.lf t ht i hi, h.lg t ht i hi, h.beta t ht]; ring
  rw [e1, e2]
  by_cases hp : 0 < ∑ t ∈ Finset.range nT, W' t i
  · rw [if_pos hp, if_pos (mul_pos hc hp), mul_div_mul_left _ _ hc.ne']
  · rw [if_neg hp, if_neg (fun h2 => hp ((mul_pos_iff_of_pos_left hc).1 h2))]
    exact h0.resolve_right hp

theorem beta_agree (hW : ∀ t < nT, ∀ i < nN, W t i = c * W' t i) (hc : 0 < c) {b : K} {f g : Fit K} (h : Agree nT nN b f g)
    {al al' : ℕ → K} (ha : ∀ i < nN, al i = al' i)
    {t : ℕ} (ht : t < nT) (h0 : f.beta t = 0 ∨ 0 < ∑ i ∈ Finset.range nN, W' t i) :
    betaStep nN Y W al f t = TropFit.betaStep (ops v) nN Y W' al' g.L t := by
  rw [TropFit.betaStep_eq]
  unfold betaStep
  rw [sum_map_range, sum_map_range]
  have e1 : ∑ i ∈ Finset.range nN, W t i = c * ∑ i ∈ Finset.range nN, W' t i := by
    rw [Finset.mul_sum]
    exact Finset.sum_congr rfl (fun i hi => hW t ht i (Finset.mem_range.1 hi))
  have e2 : ∑ i ∈ Finset.range nN, W t i * (Y t i - f.L t i - al i) =
      c * ∑ i ∈ Finset.range nN, W' t i * (Y t i - g.L t i - al' i) := by
    rw [Finset.mul_sum]
    refine Finset.sum_congr rfl (fun i hi => ?_)
    have hi := Finset.mem_range.1 hi
    rw [hW t ht i hi, h.lf t ht i hi, h.lg t ht i hi, ha i hi]; ring
  rw [e1, e2]
  by_cases hp : 0 < ∑ i ∈ Finset.range nN, W' t i
  · rw [if_pos hp, if_pos (mul_pos hc hp), mul_div_mul_left _ _ hc.ne']
  · rw [if_neg hp, if_neg (fun h2 => hp ((mul_pos_iff_of_pos_left hc).1 h2))]
    exact h0.resolve_right hp

/-- What the two loops share. -/
structure Setup (v : Env K) (nT nN : ℕ) (Y W W' : ℕ → ℕ → K) (c lam B : K) (n : ℕ) : Prop where
  svd : Shrink v.svd
  w : ∀ t < nT, ∀ i < nN, W t i = c * W' t i
  cpos : 0 < c
  nonneg : ∀ t < nT, ∀ i < nN, 0 ≤ W' t i
  one : ∀ t < nT, ∀ i < nN, W t i ≤ 1
  y : ∀ t < nT, ∀ i < nN, |Y t i| ≤ B
  b : 0 ≤ B
  lpos : 0 < lam
  big : (4 * (n : K) + 1) * B * ((nT : K) * nN) ≤ lam

/-- Effects of units and periods without weight are still at their starting value. -/
def Idle (nT nN : ℕ) (W' : ℕ → ℕ → K) (f : Fit K) : Prop :=
  (∀ i < nN, f.alpha i = 0 ∨ 0 < ∑ t ∈ Finset.range nT, W' t i) ∧ (∀ t < nT, f.beta t = 0 ∨ 0 < ∑ i ∈ Finset.range nN, W' t i)

theorem inner_zero (hs : Shrink v.svd) (hl : 0 < lam) {Wn R : ℕ → ℕ → K}
    (hR : ∀ t < nT, ∀ i < nN, |Wn t i * R t i| * ((nT : K) * nN) ≤ lam) :
    ∀ n (L : ℕ → ℕ → K), (∀ t < nT, ∀ i < nN, L t i = 0) → ∀ t < nT, ∀ i < nN,
      TropFit.inner (ops v) tol nT nN lam Wn R n L t i = 0 := by
  intro n
  induction n with
  | zero => intro L h; exact h
  | succ n ih =>
    intro L h
    have hp : ∀ t < nT, ∀ i < nN, TropFit.proxStep (ops v) nT nN lam Wn R L t i = 0 := by
      apply hs _ _ _ _ hl
      intro t ht i hi
      have := hR t ht i hi
      simpa [fieldOps, h t ht i hi] using this
    unfold TropFit.inner
    split_ifs
    · exact hp
    · exact ih _ hp

theorem maxL_entries (M : ℕ → ℕ → K) : TropFit.maxL (ops v) (TropFit.entries nT nN M) = wMax nT nN M := rfl

theorem wNorm_bound (M : ℕ → ℕ → K) {t i : ℕ} (ht : t < nT) (hi : i < nN) (h : 0 ≤ M t i) :
    0 ≤ TropFit.wNorm (ops v) nT nN M t i ∧ TropFit.wNorm (ops v) nT nN M t i ≤ 1 := by
  have := eta_mul M ht hi h
  have hw := le_wMax M ht hi
  unfold TropFit.wNorm
  rw [maxL_entries]
  by_cases h0 : 0 < wMax nT nN M
  · have e : (ops v).pos (wMax nT nN M) = true := by simp [fieldOps, h0]
    rw [if_pos e]
    exact ⟨div_nonneg h h0.le, (div_le_one h0).2 hw⟩
  · have e : (ops v).pos (wMax nT nN M) = false := by simp [fieldOps, not_lt.1 h0]
    rw [e]
    have : M t i = 0 := le_antisymm (hw.trans (not_lt.1 h0)) h
    simp [this]

theorem sweep_agree {n : ℕ} (s : Setup v nT nN Y W W' c lam B n) {k : ℕ} (hk : k < n) {f g : Fit K}
    (h : Agree nT nN (2 * k * B) f g) (hz : Idle nT nN W' f) :
    Agree nT nN (2 * ((k + 1 : ℕ) : K) * B) (sweep v nT nN lam Y W f) (TropFit.sweep (ops v) tol nT nN lam Y W' g) ∧
      Idle nT nN W' (sweep v nT nN lam Y W f) := by
  have hk0 : (0 : K) ≤ k := Nat.cast_nonneg k
  have hB := s.b
  have hkB : 0 ≤ (k : K) * B := mul_nonneg hk0 hB
  have hcast : ((k + 1 : ℕ) : K) = k + 1 := by push_cast; ring
  have ha : ∀ i < nN, alphaStep nT Y W f i = TropFit.alphaStep (ops v) nT Y W' g i :=
    fun i hi => alpha_agree s.w s.cpos h hi (hz.1 i hi)
  have hb : ∀ t < nT, betaStep nN Y W (alphaStep nT Y W f) f t =
      TropFit.betaStep (ops v) nN Y W' (TropFit.alphaStep (ops v) nT Y W' g) g.L t :=
    fun t ht => beta_agree s.w s.cpos h ha ht (hz.2 t ht)
  have ba : ∀ i < nN, |alphaStep nT Y W f i| ≤ (2 * k + 1) * B := by
    intro i hi
    rw [ha i hi, TropFit.alphaStep_eq]
    split_ifs with hp
    · apply mean_bound _ _ _ _ (fun t ht => s.nonneg t ht i hi) _ hp
      intro t ht
      rw [h.lg t ht i hi, sub_zero, ← h.beta t ht]
      refine (abs_sub _ _).trans ?_
      have h1 := s.y t ht i hi
      have h2 := h.bbeta t ht
      linarith
    · rw [abs_zero]; nlinarith
  have bb : ∀ t < nT, |betaStep nN Y W (alphaStep nT Y W f) f t| ≤ (2 * k + 2) * B := by
    intro t ht
    rw [hb t ht, TropFit.betaStep_eq]
    split_ifs with hp
    · apply mean_bound _ _ _ _ (fun i hi => s.nonneg t ht i hi) _ hp
      intro i hi
      rw [h.lg t ht i hi, sub_zero, ← ha i hi]
      refine (abs_sub _ _).trans ?_
      have h1 := s.y t ht i hi
      have h2 := ba i hi
      linarith
    · rw [abs_zero]; nlinarith
  have hres : ∀ t < nT, ∀ i < nN, |Y t i - alphaStep nT Y W f i - betaStep nN Y W (alphaStep nT Y W f) f t| ≤ (4 * (n : K) + 1) * B := by
    intro t ht i hi
    have h1 := abs_sub (Y t i - alphaStep nT Y W f i) (betaStep nN Y W (alphaStep nT Y W f) f t)
    have h2 := abs_sub (Y t i) (alphaStep nT Y W f i)
    have h3 := s.y t ht i hi
    have h4 := ba i hi
    have h5 := bb t ht
    have h6 : ((k : K) + 1) * B ≤ n * B := by
      apply mul_le_mul_of_nonneg_right _ hB
      exact_mod_cast hk
    linarith
  have hcell : (0 : K) ≤ (nT : K) * nN := mul_nonneg (Nat.cast_nonneg _) (Nat.cast_nonneg _)
  have hbig : ∀ {x w : K}, |x| ≤ (4 * (n : K) + 1) * B → 0 ≤ w → w ≤ 1 → |w * x| * ((nT : K) * nN) ≤ lam := by
    intro x w hx h0 h1
    refine le_trans (mul_le_mul_of_nonneg_right ?_ hcell) s.big
    rw [abs_mul, abs_of_nonneg h0]
    exact (mul_le_of_le_one_left (abs_nonneg x) h1).trans hx
  have wnn : ∀ t < nT, ∀ i < nN, 0 ≤ W t i := fun t ht i hi => by
    rw [s.w t ht i hi]; exact mul_nonneg s.cpos.le (s.nonneg t ht i hi)
  have heta := one_le_eta W s.one
  have hthr : lam ≤ eta nT nN W * lam := le_mul_of_one_le_left s.lpos.le heta
  refine ⟨⟨ha, hb, ?_, ?_, ?_, ?_⟩, ?_, ?_⟩
  · intro t ht i hi
    show lStep v nT nN lam Y W _ _ f.L t i = 0
    unfold lStep soft
    rw [if_neg (not_le.2 (s.lpos.trans_le hthr))]
    apply s.svd _ _ _ _ (s.lpos.trans_le hthr) _ t ht i hi
    intro t ht i hi
    rw [h.lf t ht i hi, zero_add, sub_zero]
    have := eta_mul W ht hi (wnn t ht i hi)
    exact (hbig (hres t ht i hi) this.1 this.2).trans hthr
  · intro t ht i hi
    show TropFit.nnSolve (ops v) tol nT nN lam Y W' _ _ g.L t i = 0
    unfold TropFit.nnSolve
    have e : (ops v).nonpos lam = false := by simp [fieldOps, s.lpos]
    rw [e]
    refine inner_zero s.svd s.lpos ?_ 10 g.L h.lg t ht i hi
    intro t ht i hi
    have hw := wNorm_bound (v := v) W' ht hi (s.nonneg t ht i hi)
    refine hbig ?_ hw.1 hw.2
    rw [TropFit.rMasked_eq]
    split_ifs
    · rw [← ha i hi, ← hb t ht]; exact hres t ht i hi
    · rw [h.lg t ht i hi, abs_zero]
      have : (0 : K) ≤ n := Nat.cast_nonneg n
      positivity
  · intro i hi
    refine (ba i hi).trans ?_
    rw [hcast]; nlinarith
  · intro t ht
    refine (bb t ht).trans ?_
    rw [hcast]; nlinarith
  · intro i hi
    by_cases hp : 0 < ∑ t ∈ Finset.range nT, W' t i
    · exact Or.inr hp
    · left
      show alphaStep nT Y W f i = 0
      rw [ha i hi, TropFit.alphaStep_eq, if_neg hp]
  · intro t ht
    by_cases hp : 0 < ∑ i ∈ Finset.range nN, W' t i
    · exact Or.inr hp
    · left
      show betaStep nN Y W (alphaStep nT Y W f) f t = 0
      rw [hb t ht, TropFit.betaStep_eq, if_neg hp]

theorem vecDiff_congr {n : ℕ} {a b a' b' : ℕ → K} (h : ∀ i < n, a i = a' i) (h' : ∀ i < n, b i = b' i) :
    vecDiff n a b = TropFit.vecDiff (ops v) n a' b' := by
  unfold vecDiff TropFit.vecDiff TropFit.maxL
  congr 1
  apply List.map_congr_left
  intro i hi
  have hi := List.mem_range.1 hi
  rw [h i hi, h' i hi]; rfl

theorem matDiff_congr {A B A' B' : ℕ → ℕ → K} (h : ∀ t < nT, ∀ i < nN, A t i = A' t i) (h' : ∀ t < nT, ∀ i < nN, B t i = B' t i) :
    matDiff nT nN A B = TropFit.matDiff (ops v) nT nN A' B' := by
  unfold matDiff TropFit.matDiff TropFit.maxL TropFit.entries
  congr 1
  apply List.flatMap_congr
  intro t ht
  apply List.map_congr_left
  intro i hi
  rw [h t (List.mem_range.1 ht) i (List.mem_range.1 hi), h' t (List.mem_range.1 ht) i (List.mem_range.1 hi)]; rfl

theorem pymax_eq (a b : K) : TropFit.pymax (ops v) a b = max a b := by
  unfold TropFit.pymax
  by_cases h : a < b
  · simp [fieldOps, h, max_eq_right h.le]
  · simp [fieldOps, h, max_eq_left (not_lt.1 h)]

theorem close_agree {b b' : K} {f f' g g' : Fit K} (h : Agree nT nN b f g) (h' : Agree nT nN b' f' g') :
    close tol nT nN f' f = TropFit.close (ops v) tol nT nN g' g := by
  unfold close TropFit.close
  rw [pymax_eq, pymax_eq, vecDiff_congr (v := v) h'.alpha h.alpha, vecDiff_congr (v := v) h'.beta h.beta,
    matDiff_congr (v := v) (fun t ht i hi => (h'.lf t ht i hi).trans (h'.lg t ht i hi).symm)
      (fun t ht i hi => (h.lf t ht i hi).trans (h.lg t ht i hi).symm)]
  rfl

theorem loop_agree {n : ℕ} (s : Setup v nT nN Y W W' c lam B n) :
    ∀ m k (f g : Fit K), k + m ≤ n → Agree nT nN (2 * k * B) f g → Idle nT nN W' f →
      ∃ b, Agree nT nN b (loop v tol nT nN lam Y W m f) (TropFit.loop (ops v) tol nT nN lam Y W' m g) := by
  intro m
  induction m with
  | zero => intro k f g _ h _; exact ⟨_, h⟩
  | succ m ih =>
    intro k f g hk h hz
    obtain ⟨h', hz'⟩ := sweep_agree (tol := tol) s (by omega : k < n) h hz
    unfold loop TropFit.loop
    rw [close_agree (v := v) (tol := tol) h h']
    split_ifs
    · exact ⟨_, h'⟩
    · exact ih (k + 1) _ _ (by omega) h' hz'

end sweep

/-! ### C104: the fit of one cell -/

/-- **C104, one cell, partial.** When no other unit is treated in the target period and the nuclear norm penalty is large against the
outcomes (the factor model is disabled, `lambda_nn` infinite in the user's grid), the compiled and the Python estimation of a cell give
the same fitted effects and the same cell effect, whatever the two other parameters, the missing outcomes, the excluded cell, the
tolerance and the iteration limit. Missing: cells whose period has other treated units (`C104_treated_units_refuted`), and small
penalties, where the two routines use different thresholds. -/
theorem C104_fit_partial (v : Env K) (he : ∀ x, 0 < v.e x) (hs : Shrink v.svd) (cfg : Cfg K) (P : Data K) (l : TropFit.Lam3 K)
    (ex : Option (ℕ × ℕ)) (t i : ℕ) (ht : t < P.nT) (hi : i < P.nN) (hD : ∀ j < P.nN, j ≠ i → P.D t j = 0)
    (B : K) (hY : ∀ s < P.nT, ∀ j < P.nN, ∀ y, P.Y s j = some y → |y| ≤ B) (hB : 0 ≤ B) (hl : 0 < l.nn)
    (hbig : (4 * (cfg.maxIter : K) + 1) * B * ((P.nT : K) * P.nN) ≤ l.nn) :
    (∀ j < P.nN, (fitAt v cfg P l ex t i).alpha j = (TropFit.fitAt (ops v) cfg (some P) P l ex t i).alpha j) ∧
    (∀ s < P.nT, (fitAt v cfg P l ex t i).beta s = (TropFit.fitAt (ops v) cfg (some P) P l ex t i).beta s) ∧
    tau P (fitAt v cfg P l ex t i) t i = TropFit.tau (ops v) P (TropFit.fitAt (ops v) cfg (some P) P l ex t i) t i := by
  have h0 : 0 < P.nT := by omega
  have s : Setup v P.nT P.nN (TropFit.ySafe (ops v) P) (wMasked P ex (weights v P l.time l.unit i t))
      (TropFit.wMasked (ops v) P ex (TropFit.weights (ops v) P l.time l.unit i t)) (norm v P l.time l.unit i t) l.nn B cfg.maxIter := by
    have hw : ∀ s < P.nT, ∀ j < P.nN, wMasked P ex (weights v P l.time l.unit i t) s j =
        norm v P l.time l.unit i t * TropFit.wMasked (ops v) P ex (TropFit.weights (ops v) P l.time l.unit i t) s j := by
      intro s _ j hj
      rw [TropFit.wMasked_eq]
      unfold wMasked
      rw [valid_eq]
      split_ifs
      · exact weights_eq he P l.time l.unit h0 hi s j (hD j hj)
      · rw [mul_zero]
    have hn := norm_pos he P l.time l.unit (t := t) h0 hi
    have hle : ∀ s < P.nT, ∀ j < P.nN, 0 ≤ wMasked P ex (weights v P l.time l.unit i t) s j ∧
        wMasked P ex (weights v P l.time l.unit i t) s j ≤ 1 := by
      intro s hs' j hj
      unfold wMasked
      split_ifs
      · exact weights_le he P l.time l.unit hi hs' hj
      · exact ⟨le_rfl, zero_le_one⟩
    refine ⟨hs, hw, hn, ?_, fun s hs' j hj => (hle s hs' j hj).2, ?_, hB, hl, hbig⟩
    · intro s hs' j hj
      have := (hle s hs' j hj).1
      rw [hw s hs' j hj] at this
      exact nonneg_of_mul_nonneg_right this hn
    · intro s hs' j hj
      unfold TropFit.ySafe
      rcases hy : P.Y s j with _ | y
      · simpa [fieldOps] using hB
      · exact hY s hs' j hj y hy
  obtain ⟨b, h⟩ := loop_agree (tol := cfg.tol) s cfg.maxIter 0 start (TropFit.start (ops v)) (by omega)
    ⟨fun _ _ => rfl, fun _ _ => rfl, fun _ _ _ _ => rfl, fun _ _ _ _ => rfl, fun _ _ => by simp [start], fun _ _ => by simp [start]⟩
    ⟨fun _ _ => Or.inl rfl, fun _ _ => Or.inl rfl⟩
  refine ⟨h.alpha, h.beta, ?_⟩
  unfold tau TropFit.tau
  have e1 := h.alpha i hi
  have e2 := h.beta t ht
  have e3 := (h.lf t ht i hi).trans (h.lg t ht i hi).symm
  rcases P.Y t i with _ | y
  · rfl
  · show some (y - (fitAt v cfg P l ex t i).alpha i - (fitAt v cfg P l ex t i).beta t - (fitAt v cfg P l ex t i).L t i) = some _
    congr 1
    exact congrArg₂ _ (congrArg₂ _ (congrArg₂ _ rfl e1) e2) e3

/-! ### Disagreements -/

/-- A small panel: unit 0 is missing in period 0 and untreated, unit 1 becomes treated in period 2, unit 2 is untreated. Untreated
outcomes are 0 except for unit 1, which has 1 and -1. -/
def pd : Data ℚ :=
  { nT := 3, nN := 3
    Y := fun t i => if t = 0 ∧ i = 0 then none else if i = 1 then some (if t = 0 then 1 else if t = 1 then -1 else 5) else some 0
    D := fun t i => if t = 2 ∧ i = 1 then 1 else 0 }

/-- Equal weights for all periods and units. -/
def flatLam (lam : ℚ) : TropFit.Lam3 ℚ := { time := 0, unit := 0, nn := lam }

section witness
variable {v : Env ℚ}

theorem pd_weights (h1 : v.e 0 = 1) (s j : ℕ) : weights v pd 0 0 0 2 s j = 1 / 9 := by
  have ht : ∀ s, timeRaw v (0 : ℚ) 2 s = 1 := fun s => by simp [timeRaw, h1]
  have hu : ∀ j, unitRaw v pd (0 : ℚ) 0 2 j = 1 := fun j => by simp [unitRaw]
  have st : ((List.range pd.nT).map (timeRaw v (0 : ℚ) 2)).sum = 3 := by
    simp [pd, List.range_succ, ht]; norm_num
  have su : ((List.range pd.nN).map (unitRaw v pd (0 : ℚ) 0 2)).sum = 3 := by
    have : ((List.range pd.nN).map (unitRaw v pd (0 : ℚ) 0 2)) = (List.range 3).map (fun _ => (1 : ℚ)) :=
      List.map_congr_left (fun j _ => hu j)
    rw [this]; norm_num [List.range_succ]
  unfold weights timeN unitN
  rw [st, su, ht, hu]
  norm_num

/-- Masked weights of the compiled fit. -/
def wR (t i : ℕ) : ℚ := if valid pd (some (2, 0)) t i then 1 / 9 else 0

theorem pd_masked (h1 : v.e 0 = 1) : wMasked pd (some (2, 0)) (weights v pd 0 0 0 2) = wR := by
  funext t i
  unfold wMasked wR
  rw [pd_weights h1]

/-- Outcomes with missing replaced by 0. -/
def yR (t i : ℕ) : ℚ := (pd.Y t i).getD 0

/-- No factors inside the panel. -/
def NoL (f : Fit ℚ) : Prop := ∀ t < 3, ∀ i < 3, f.L t i = 0

/-- Region of the period effects after at least one sweep. -/
def Region (f : Fit ℚ) : Prop :=
  NoL f ∧ 0 ≤ f.beta 0 + f.beta 1 ∧ f.beta 0 + f.beta 1 ≤ 1 / 3 ∧ 0 ≤ f.beta 2 ∧ f.beta 2 ≤ 1 / 6 ∧
    -1 / 2 ≤ f.beta 1 ∧ f.beta 1 ≤ -1 / 3

theorem wR_vals : wR 0 0 = 0 ∧ wR 1 0 = 1 / 9 ∧ wR 2 0 = 0 ∧ wR 0 1 = 1 / 9 ∧ wR 1 1 = 1 / 9 ∧ wR 2 1 = 0 ∧
    wR 0 2 = 1 / 9 ∧ wR 1 2 = 1 / 9 ∧ wR 2 2 = 1 / 9 := by decide +kernel

theorem yR_vals : yR 0 0 = 0 ∧ yR 1 0 = 0 ∧ yR 2 0 = 0 ∧ yR 0 1 = 1 ∧ yR 1 1 = -1 ∧ yR 2 1 = 5 ∧
    yR 0 2 = 0 ∧ yR 1 2 = 0 ∧ yR 2 2 = 0 := by decide +kernel

theorem alpha_vals {f : Fit ℚ} (h : NoL f) : alphaStep 3 yR wR f 0 = -f.beta 1 ∧
    alphaStep 3 yR wR f 1 = -(f.beta 0 + f.beta 1) / 2 ∧ alphaStep 3 yR wR f 2 = -(f.beta 0 + f.beta 1 + f.beta 2) / 3 := by
  obtain ⟨a1, a2, a3, a4, a5, a6, a7, a8, a9⟩ := wR_vals
  obtain ⟨b1, b2, b3, b4, b5, b6, b7, b8, b9⟩ := yR_vals
  unfold alphaStep
  refine ⟨?_, ?_, ?_⟩ <;> rw [sum_map_range, sum_map_range] <;>
    simp only [Finset.sum_range_succ, Finset.sum_range_zero, a1, a2, a3, a4, a5, a6, a7, a8, a9, b1, b2, b3, b4, b5, b6, b7, b8, b9,
      h 0 (by norm_num) 0 (by norm_num), h 1 (by norm_num) 0 (by norm_num), h 2 (by norm_num) 0 (by norm_num),
      h 0 (by norm_num) 1 (by norm_num), h 1 (by norm_num) 1 (by norm_num), h 2 (by norm_num) 1 (by norm_num),
      h 0 (by norm_num) 2 (by norm_num), h 1 (by norm_num) 2 (by norm_num), h 2 (by norm_num) 2 (by norm_num)] <;>
    norm_num <;> ring

theorem beta_vals {f : Fit ℚ} (h : NoL f) (al : ℕ → ℚ) : betaStep 3 yR wR al f 0 = (1 - al 1 - al 2) / 2 ∧
    betaStep 3 yR wR al f 1 = (-1 - al 0 - al 1 - al 2) / 3 ∧ betaStep 3 yR wR al f 2 = -al 2 := by
  obtain ⟨a1, a2, a3, a4, a5, a6, a7, a8, a9⟩ := wR_vals
  obtain ⟨b1, b2, b3, b4, b5, b6, b7, b8, b9⟩ := yR_vals
  unfold betaStep
  refine ⟨?_, ?_, ?_⟩ <;> rw [sum_map_range, sum_map_range] <;>
    simp only [Finset.sum_range_succ, Finset.sum_range_zero, a1, a2, a3, a4, a5, a6, a7, a8, a9, b1, b2, b3, b4, b5, b6, b7, b8, b9,
      h 0 (by norm_num) 0 (by norm_num), h 1 (by norm_num) 0 (by norm_num), h 2 (by norm_num) 0 (by norm_num),
      h 0 (by norm_num) 1 (by norm_num), h 1 (by norm_num) 1 (by norm_num), h 2 (by norm_num) 1 (by norm_num),
      h 0 (by norm_num) 2 (by norm_num), h 1 (by norm_num) 2 (by norm_num), h 2 (by norm_num) 2 (by norm_num)] <;>
    norm_num <;> ring

theorem l_zero (hs : Shrink v.svd) {lam : ℚ} (hl : 100 ≤ lam) {f : Fit ℚ} (h : NoL f) {al be : ℕ → ℚ}
    (ha : ∀ i < 3, |al i| ≤ 1) (hb : ∀ t < 3, |be t| ≤ 1) : ∀ t < 3, ∀ i < 3, lStep v 3 3 lam yR wR al be f.L t i = 0 := by
  have hw : ∀ t < 3, ∀ i < 3, 0 ≤ wR t i ∧ wR t i ≤ 1 := fun t _ i _ => by unfold wR; split_ifs <;> norm_num
  have hy : ∀ t < 3, ∀ i < 3, |yR t i| ≤ 5 := by decide +kernel
  have he := one_le_eta wR (fun t ht i hi => (hw t ht i hi).2)
  have hthr : lam ≤ eta 3 3 wR * lam := le_mul_of_one_le_left (by linarith) he
  unfold lStep soft
  rw [if_neg (by linarith)]
  apply hs _ _ _ _ (by linarith)
  intro t ht i hi
  rw [h t ht i hi, zero_add, sub_zero]
  obtain ⟨e0, e1⟩ := eta_mul wR ht hi (hw t ht i hi).1
  have h1 := abs_sub (yR t i - al i) (be t)
  have h2 := abs_sub (yR t i) (al i)
  have h3 : |yR t i - al i - be t| ≤ 7 := by linarith [hy t ht i hi, ha i hi, hb t ht]
  rw [abs_mul, abs_of_nonneg e0]
  have h4 := (mul_le_of_le_one_left (abs_nonneg (yR t i - al i - be t)) e1).trans h3
  norm_num
  linarith

theorem forall_three {p : ℕ → Prop} (h0 : p 0) (h1 : p 1) (h2 : p 2) : ∀ i < 3, p i := by
  intro i hi
  match i, hi with
  | 0, _ => exact h0
  | 1, _ => exact h1
  | 2, _ => exact h2
  | n + 3, h => exact absurd h (by omega)

theorem sweep_region (hs : Shrink v.svd) {lam : ℚ} (hl : 100 ≤ lam) {f : Fit ℚ} (h : Region f) :
    Region (sweep v 3 3 lam yR wR f) ∧ 1 / 3 ≤ (sweep v 3 3 lam yR wR f).alpha 0 + (sweep v 3 3 lam yR wR f).beta 2 := by
  obtain ⟨hL, h1, h2, h3, h4, h5, h6⟩ := h
  obtain ⟨a0, a1, a2⟩ := alpha_vals hL
  obtain ⟨b0, b1, b2⟩ := beta_vals hL (alphaStep 3 yR wR f)
  rw [a1, a2] at b0
  rw [a0, a1, a2] at b1
  rw [a2] at b2
  refine ⟨⟨?_, ?_, ?_, ?_, ?_, ?_, ?_⟩, ?_⟩
  · refine l_zero hs hl hL (forall_three ?_ ?_ ?_) (forall_three ?_ ?_ ?_) <;> rw [abs_le]
    · rw [a0]; constructor <;> linarith
    · rw [a1]; constructor <;> linarith
    · rw [a2]; constructor <;> linarith
    · rw [b0]; constructor <;> linarith
    · rw [b1]; constructor <;> linarith
    · rw [b2]; constructor <;> linarith
  · show 0 ≤ betaStep 3 yR wR (alphaStep 3 yR wR f) f 0 + betaStep 3 yR wR (alphaStep 3 yR wR f) f 1
    rw [b0, b1]; linarith
  · show betaStep 3 yR wR (alphaStep 3 yR wR f) f 0 + betaStep 3 yR wR (alphaStep 3 yR wR f) f 1 ≤ 1 / 3
    rw [b0, b1]; linarith
  · show 0 ≤ betaStep 3 yR wR (alphaStep 3 yR wR f) f 2
    rw [b2]; linarith
  · show betaStep 3 yR wR (alphaStep 3 yR wR f) f 2 ≤ 1 / 6
    rw [b2]; linarith
  · show -1 / 2 ≤ betaStep 3 yR wR (alphaStep 3 yR wR f) f 1
    rw [b1]; linarith
  · show betaStep 3 yR wR (alphaStep 3 yR wR f) f 1 ≤ -1 / 3
    rw [b1]; linarith
  · show 1 / 3 ≤ alphaStep 3 yR wR f 0 + betaStep 3 yR wR (alphaStep 3 yR wR f) f 2
    rw [a0, b2]; linarith

theorem loop_region (hs : Shrink v.svd) {lam : ℚ} (hl : 100 ≤ lam) (tol : ℚ) : ∀ n (f : Fit ℚ), Region f →
    Region (loop v tol 3 3 lam yR wR (n + 1) f) ∧
      1 / 3 ≤ (loop v tol 3 3 lam yR wR (n + 1) f).alpha 0 + (loop v tol 3 3 lam yR wR (n + 1) f).beta 2 := by
  intro n
  induction n with
  | zero =>
    intro f h
    unfold loop
    split_ifs
    · exact sweep_region hs hl h
    · exact sweep_region hs hl h
  | succ n ih =>
    intro f h
    rw [loop]
    split_ifs
    · exact sweep_region hs hl h
    · exact ih _ (sweep_region hs hl h).1

theorem first_sweep (hs : Shrink v.svd) {lam : ℚ} (hl : 100 ≤ lam) : Region (sweep v 3 3 lam yR wR start) ∧
    (sweep v 3 3 lam yR wR start).beta 0 = 1 / 2 := by
  have hL : NoL (start : Fit ℚ) := fun _ _ _ _ => rfl
  obtain ⟨a0, a1, a2⟩ := alpha_vals hL
  obtain ⟨b0, b1, b2⟩ := beta_vals hL (alphaStep 3 yR wR start)
  have z : ∀ t, (start : Fit ℚ).beta t = 0 := fun _ => rfl
  simp only [z] at a0 a1 a2
  rw [a1, a2] at b0
  rw [a0, a1, a2] at b1
  rw [a2] at b2
  norm_num at a0 a1 a2 b0 b1 b2
  refine ⟨⟨?_, ?_, ?_, ?_, ?_, ?_, ?_⟩, ?_⟩
  · refine l_zero hs hl hL (forall_three ?_ ?_ ?_) (forall_three ?_ ?_ ?_) <;> rw [abs_le]
    · rw [a0]; constructor <;> norm_num
    · rw [a1]; constructor <;> norm_num
    · rw [a2]; constructor <;> norm_num
    · rw [b0]; constructor <;> norm_num
    · rw [b1]; constructor <;> norm_num
    · rw [b2]; constructor <;> norm_num
  · show 0 ≤ betaStep 3 yR wR (alphaStep 3 yR wR start) start 0 + betaStep 3 yR wR (alphaStep 3 yR wR start) start 1
    rw [b0, b1]; norm_num
  · show betaStep 3 yR wR (alphaStep 3 yR wR start) start 0 + betaStep 3 yR wR (alphaStep 3 yR wR start) start 1 ≤ 1 / 3
    rw [b0, b1]; norm_num
  · show 0 ≤ betaStep 3 yR wR (alphaStep 3 yR wR start) start 2
    rw [b2]
  · show betaStep 3 yR wR (alphaStep 3 yR wR start) start 2 ≤ 1 / 6
    rw [b2]; norm_num
  · show -1 / 2 ≤ betaStep 3 yR wR (alphaStep 3 yR wR start) start 1
    rw [b1]; norm_num
  · show betaStep 3 yR wR (alphaStep 3 yR wR start) start 1 ≤ -1 / 3
    rw [b1]; norm_num
  · exact b0

theorem rust_prediction (h1 : v.e 0 = 1) (hs : Shrink v.svd) {lam : ℚ} (hl : 100 ≤ lam) (cfg : Cfg ℚ) (hm : 2 ≤ cfg.maxIter)
    (htol : cfg.tol ≤ 1 / 2) :
    ∃ x, tau pd (fitAt v cfg pd (flatLam lam) (some (2, 0)) 2 0) 2 0 = some x ∧ x ≤ -1 / 3 := by
  have e : fitAt v cfg pd (flatLam lam) (some (2, 0)) 2 0 = loop v cfg.tol 3 3 lam yR wR cfg.maxIter start := by
    unfold fitAt estimate flatLam
    rw [pd_masked h1]
    rfl
  obtain ⟨m, hm⟩ : ∃ m, cfg.maxIter = (m + 1) + 1 := ⟨cfg.maxIter - 2, by omega⟩
  obtain ⟨hr, hb⟩ := first_sweep (v := v) hs hl
  have hc : close cfg.tol 3 3 (sweep v 3 3 lam yR wR start) start = false := by
    unfold close
    rw [decide_eq_false_iff_not, not_lt]
    refine htol.trans (le_trans ?_ (le_max_left _ _))
    refine le_trans ?_ (le_max_right _ _)
    unfold vecDiff
    refine le_foldr_max (List.mem_map.2 ⟨0, by simp, ?_⟩)
    rw [hb]
    norm_num [start]
  rw [e, hm, loop, hc]
  obtain ⟨⟨hL, _⟩, hp⟩ := loop_region hs hl cfg.tol m _ hr
  refine ⟨_, rfl, ?_⟩
  have h0 := hL 2 (by norm_num) 0 (by norm_num)
  rw [if_neg (by simp), h0]
  linarith

/-- Python fit of the same cell: unit 1 has no weight, everything observed is 0. -/
theorem py_zero (hs : Shrink v.svd) {lam : ℚ} (hl : 100 ≤ lam) (tol : ℚ) (W : ℕ → ℕ → ℚ) (hW : ∀ t < 3, W t 1 = 0)
    (hn : ∀ t < 3, ∀ i < 3, 0 ≤ W t i) :
    ∀ n (f : Fit ℚ), (∀ i < 3, f.alpha i = 0) → (∀ t < 3, f.beta t = 0) → NoL f →
      (∀ i < 3, (TropFit.loop (ops v) tol 3 3 lam yR W n f).alpha i = 0) ∧
      (∀ t < 3, (TropFit.loop (ops v) tol 3 3 lam yR W n f).beta t = 0) ∧ NoL (TropFit.loop (ops v) tol 3 3 lam yR W n f) := by
  have hz : ∀ t < 3, ∀ i < 3, W t i * yR t i = 0 := by
    obtain ⟨b1, b2, b3, b4, b5, b6, b7, b8, b9⟩ := yR_vals
    refine fun t ht => forall_three ?_ ?_ ?_
    · rw [forall_three (p := fun t => yR t 0 = 0) b1 b2 b3 t ht, mul_zero]
    · rw [hW t ht, zero_mul]
    · rw [forall_three (p := fun t => yR t 2 = 0) b7 b8 b9 t ht, mul_zero]
  have step : ∀ f : Fit ℚ, (∀ i < 3, f.alpha i = 0) → (∀ t < 3, f.beta t = 0) → NoL f →
      (∀ i < 3, (TropFit.sweep (ops v) tol 3 3 lam yR W f).alpha i = 0) ∧
      (∀ t < 3, (TropFit.sweep (ops v) tol 3 3 lam yR W f).beta t = 0) ∧ NoL (TropFit.sweep (ops v) tol 3 3 lam yR W f) := by
    intro f _ hb hL
    have ha : ∀ i < 3, TropFit.alphaStep (ops v) 3 yR W f i = 0 := by
      intro i hi
      rw [TropFit.alphaStep_eq]
      split_ifs
      · rw [Finset.sum_eq_zero, zero_div]
        intro t ht
        have ht := Finset.mem_range.1 ht
        rw [hL t ht i hi, hb t ht, sub_zero, sub_zero]; exact hz t ht i hi
      · rfl
    have hb' : ∀ t < 3, TropFit.betaStep (ops v) 3 yR W (TropFit.alphaStep (ops v) 3 yR W f) f.L t = 0 := by
      intro t ht
      rw [TropFit.betaStep_eq]
      split_ifs
      · rw [Finset.sum_eq_zero, zero_div]
        intro i hi
        have hi := Finset.mem_range.1 hi
        rw [hL t ht i hi, ha i hi, sub_zero, sub_zero]; exact hz t ht i hi
      · rfl
    refine ⟨ha, hb', ?_⟩
    intro t ht i hi
    show TropFit.nnSolve (ops v) tol 3 3 lam yR W _ _ f.L t i = 0
    unfold TropFit.nnSolve
    have e : (ops v).nonpos lam = false := by
      simp only [fieldOps, decide_eq_false_iff_not]; linarith
    rw [if_neg (by rw [e]; exact Bool.false_ne_true)]
    have hl0 : (0 : ℚ) < lam := by linarith
    have hin : ∀ t < 3, ∀ i < 3, |TropFit.wNorm (ops v) 3 3 W t i * TropFit.rMasked (ops v) yR W (TropFit.alphaStep (ops v) 3 yR W f)
        (TropFit.betaStep (ops v) 3 yR W (TropFit.alphaStep (ops v) 3 yR W f) f.L) f.L t i| * (((3 : ℕ) : ℚ) * ((3 : ℕ) : ℚ)) ≤ lam := by
      intro t ht i hi
      have hr : TropFit.rMasked (ops v) yR W (TropFit.alphaStep (ops v) 3 yR W f)
          (TropFit.betaStep (ops v) 3 yR W (TropFit.alphaStep (ops v) 3 yR W f) f.L) f.L t i = 0 := by
        rw [TropFit.rMasked_eq]
        split_ifs with hp
        · rw [ha i hi, hb' t ht, sub_zero, sub_zero]
          exact (mul_eq_zero.1 (hz t ht i hi)).resolve_left hp.ne'
        · exact hL t ht i hi
      rw [hr, mul_zero, abs_zero, zero_mul]; linarith
    exact inner_zero (v := v) (tol := tol) (nT := 3) (nN := 3) hs hl0 hin 10 f.L hL t ht i hi
  intro n
  induction n with
  | zero => intro f h1 h2 h3; exact ⟨h1, h2, h3⟩
  | succ n ih =>
    intro f h1 h2 h3
    obtain ⟨g1, g2, g3⟩ := step f h1 h2 h3
    unfold TropFit.loop
    split_ifs
    · exact ⟨g1, g2, g3⟩
    · exact ih _ g1 g2 g3

theorem py_prediction (he : ∀ x, 0 < v.e x) (hs : Shrink v.svd) {lam : ℚ} (hl : 100 ≤ lam) (cfg : Cfg ℚ) :
    TropFit.tau (ops v) pd (TropFit.fitAt (ops v) cfg (some pd) pd (flatLam lam) (some (2, 0)) 2 0) 2 0 = some 0 := by
  have hw : ∀ t < 3, TropFit.wMasked (ops v) pd (some (2, 0)) (TropFit.weights (ops v) pd 0 0 0 2) t 1 = 0 := by
    intro t _
    rw [TropFit.wMasked_eq]
    split_ifs
    · have : TropFit.unitWeight (ops v) pd (0 : ℚ) 0 2 1 = 0 := by
        unfold TropFit.unitWeight
        rw [if_neg (by norm_num), if_neg (by decide)]
        rfl
      show _ * TropFit.unitWeight (ops v) pd (0 : ℚ) 0 2 1 = 0
      rw [this, mul_zero]
    · rfl
  have hn : ∀ t < 3, ∀ i < 3, 0 ≤ TropFit.wMasked (ops v) pd (some (2, 0)) (TropFit.weights (ops v) pd 0 0 0 2) t i := by
    intro t _ i _
    rw [TropFit.wMasked_eq]
    split_ifs
    · refine mul_nonneg (he _).le ?_
      unfold TropFit.unitWeight
      split_ifs
      · exact zero_le_one
      · exact zero_le_one
      · rename_i h0
        exact absurd (by simp [fieldOps] : (ops v).isZero 0 = true) h0
      · exact le_rfl
    · exact le_rfl
  obtain ⟨h1, h2, h3⟩ := py_zero hs hl cfg.tol _ hw hn cfg.maxIter (TropFit.start (ops v)) (fun _ _ => rfl) (fun _ _ => rfl)
    (fun _ _ _ _ => rfl)
  have h := congrArg some (show (0 : ℚ) - (TropFit.loop (ops v) cfg.tol 3 3 lam yR
      (TropFit.wMasked (ops v) pd (some (2, 0)) (TropFit.weights (ops v) pd 0 0 0 2)) cfg.maxIter (TropFit.start (ops v))).alpha 0 -
    (TropFit.loop (ops v) cfg.tol 3 3 lam yR
      (TropFit.wMasked (ops v) pd (some (2, 0)) (TropFit.weights (ops v) pd 0 0 0 2)) cfg.maxIter (TropFit.start (ops v))).beta 2 -
    (TropFit.loop (ops v) cfg.tol 3 3 lam yR
      (TropFit.wMasked (ops v) pd (some (2, 0)) (TropFit.weights (ops v) pd 0 0 0 2)) cfg.maxIter (TropFit.start (ops v))).L 2 0 = 0 by
    rw [h1 0 (by norm_num), h2 2 (by norm_num), h3 2 (by norm_num) 0 (by norm_num)]; norm_num)
  exact h

end witness

/-- **C104, refuted as stated.** The compiled cross-validation gives weight to units treated in the target period (through their
untreated cells), the Python one gives them none. With equal weights and the factor model off, on a panel of three periods and three
units, the leave-one-out effect of the same control cell is 0 in Python and at most -1/3 in the compiled code, for every iteration limit
of at least 2, every tolerance up to 1/2, every exponential and every thresholding routine that shrinks to zero. -/
theorem C104_treated_units_refuted : ∃ P : Data ℚ, P.D 2 0 = 0 ∧ (2, 0) ∈ TropFit.controlCells P ∧
    ∀ v : Env ℚ, (∀ x, 0 < v.e x) → v.e 0 = 1 → Shrink v.svd → ∀ (cfg : Cfg ℚ), 2 ≤ cfg.maxIter → cfg.tol ≤ 1 / 2 →
      ∀ lam, 100 ≤ lam →
        TropFit.tau (ops v) P (TropFit.fitAt (ops v) cfg (some P) P (flatLam lam) (some (2, 0)) 2 0) 2 0 = some 0 ∧
        ∃ x, tau P (fitAt v cfg P (flatLam lam) (some (2, 0)) 2 0) 2 0 = some x ∧ x ≤ -1 / 3 :=
  ⟨pd, rfl, by decide +kernel, fun _ he h1 hs cfg hm ht _ hl => ⟨py_prediction he hs hl cfg, rust_prediction h1 hs hl cfg hm ht⟩⟩

/-- A score that tells an infinite time parameter from its converted value, as the Python score does (`C56_final_score_refuted`). -/
def twoScore (l : Trop.Lam ℚ) : Ext ℚ := if l.time = .pinf then .fin 2 else .fin 1

def infGrid : Trop.Grids ℚ := { time := [.pinf], unit := [.fin 0], nn := [.fin 1] }

/-- **C104, stored score, refuted.** Even with the same score routine, the stored score depends on the backend when an infinite value is
selected: the compiled search scores the converted combination, the Python search the unconverted one. -/
theorem C104_stored_score_refuted : ∃ (sc : Trop.Lam ℚ → Ext ℚ) (py : Trop.Lam ℚ → Option (Ext ℚ)) (g : Trop.Grids ℚ),
    SameScore sc py ∧ (select sc (Trop.select py g) g).1 = (Trop.select py g).1 ∧
      (select sc (Trop.select py g) g).2 = .fin 1 ∧ (Trop.select py g).2 = .fin 2 := by
  refine ⟨twoScore, fun l => some (twoScore l), infGrid, fun _ => rfl,
    C104_select_partial twoScore (fun l => some (twoScore l)) (fun _ => rfl) infGrid (.fin 2) (.fin 1) ?_ rfl ?_ rfl⟩
  · decide +kernel
  · decide +kernel

/-! Concrete cases. -/

/-- Outside routines meeting the hypotheses of `C104_fit_partial`. -/
def v0 : Env ℚ := { e := fun x => if x < 0 then 1 / 2 else 1, r := id, svd := fun _ _ _ _ _ _ => 0 }

theorem v0_pos (x : ℚ) : 0 < v0.e x := by unfold v0; dsimp only; split_ifs <;> norm_num

theorem v0_shrink : Shrink v0.svd := fun _ _ _ _ _ _ _ _ _ _ => rfl

/-- The hypotheses of `C104_treated_units_refuted` can be met. -/
example : (∀ x, 0 < v0.e x) ∧ v0.e 0 = 1 ∧ Shrink v0.svd := ⟨v0_pos, by norm_num [v0], v0_shrink⟩

/-- `C104_fit_partial` at a cell before treatment of a panel with a missing outcome; the common fit is not trivial. -/
example : (∀ j < pd.nN, j ≠ 2 → pd.D 1 j = 0) ∧ (∀ s < pd.nT, ∀ j < pd.nN, ∀ y, pd.Y s j = some y → |y| ≤ 5) ∧
    tau pd (fitAt v0 { maxIter := 2, tol := 1 / 10 } pd { time := 1, unit := 1, nn := 10 ^ 10 } none 1 2) 1 2 ≠ some 0 := by
  refine ⟨by decide, ?_, by decide +kernel⟩
  intro s hs j hj y hy
  have : ∀ s < 3, ∀ j < 3, ∀ y ∈ pd.Y s j, |y| ≤ 5 := by decide +kernel
  exact this s hs j hj y hy

/-- `C104_search` and `C104_select_partial` on a score with a unique minimum. -/
def sc0 (l : Trop.Lam ℚ) : Ext ℚ := if l.time = .fin 1 ∧ l.unit = .fin 0 then .fin 0 else .fin 3

def g0 : Trop.Grids ℚ := { time := [.fin 2, .fin 1], unit := [.fin 1, .fin 0], nn := [.fin 5, .pinf] }

example : SameScore sc0 (fun l => some (sc0 l)) ∧ (gridSearch sc0 g0).2 = .fin 0 ∧ (gridSearch sc0 g0).1.time = .fin 1 ∧
    (gridSearch sc0 g0).1.unit = .fin 0 := ⟨fun _ => rfl, by decide +kernel, by decide +kernel, by decide +kernel⟩

end DiffDiff.TropRust
