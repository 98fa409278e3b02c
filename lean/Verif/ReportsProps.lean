/-
Property C138: the sentences of the printed reports are true of the numbers they report on.
-/
import Verif.Reports
import Verif.HonestDidProps
import Verif.DiagnosticsProps
import Verif.PretrendsProps

set_option linter.unusedSectionVars false

namespace DiffDiff.Reports
open HonestDid (Bounds rmBounds includesZero isSignificant findBreakdown Threshold)

section
variable {K : Type*} [Field K] [LinearOrder K] [IsStrictOrderedRing K]

/-! ### Specification -/

/-- `x` lies between the printed ends; a NaN end contains nothing. -/
def Covers (ci : Ext K × Ext K) (x : K) : Prop :=
  (match ci.1 with | .ninf => True | .fin a => a ≤ x | _ => False) ∧
  (match ci.2 with | .pinf => True | .fin b => x ≤ b | _ => False)

/-- What a verdict claims about an interval. -/
def Verdict.holds (ci : Ext K × Ext K) : Verdict K → Prop
  | .positive _ => ∀ x, Covers ci x → 0 < x
  | .negative _ => ∀ x, Covers ci x → x < 0
  | .cannot _ => Covers ci 0

def Verdict.level : Verdict K → K
  | .positive M | .negative M | .cannot M => M

theorem lt_le_cases {a b : Ext K} {x : K} (h : Covers (a, b) x) :
    (a = .ninf ∨ ∃ y, a = .fin y ∧ y ≤ x) ∧ (b = .pinf ∨ ∃ y, b = .fin y ∧ x ≤ y) := by
  obtain ⟨h1, h2⟩ := h
  constructor
  · cases a <;> simp_all
  · cases b <;> simp_all

/-- C138. For every interval that contains at least one number (infinite ends allowed), every method and every M: the printed
verdict is the one, and the only one, that is true of the interval; it names the M of the fit; and the Yes/No line and the star of
the short form say "significant" exactly when zero lies outside. -/
theorem C138_honest (method : HonestDid.Method) (b : Bounds K) (M x : K) (hx : Covers (b.ciLb, b.ciUb) x) :
    (honestPage method b M).ci = (b.ciLb, b.ciUb) ∧
    (∀ v : Verdict K, v.level = M → (v.holds (b.ciLb, b.ciUb) ↔ v = (honestPage method b M).verdict)) ∧
    (honestPage method b M).verdict.level = M ∧
    ((honestPage method b M).robust = true ↔ ¬ Covers (b.ciLb, b.ciUb) 0) ∧
    (honestStar b = true ↔ ¬ Covers (b.ciLb, b.ciUb) 0) := by
  obtain ⟨lb, ub, a, c⟩ := b
  simp only at hx
  have hcov : (a.le (.fin 0) && (Ext.fin 0).le c) = true ↔ Covers (a, c) 0 := by
    obtain ⟨h1, h2⟩ := lt_le_cases hx
    rcases h1 with rfl | ⟨y, rfl, -⟩ <;> rcases h2 with rfl | ⟨w, rfl, -⟩ <;> simp [Ext.le, Covers]
  have hver : (verdict (⟨lb, ub, a, c⟩ : Bounds K) M).holds (a, c) := by
    by_cases h0 : (a.le (.fin 0) && (Ext.fin 0).le c) = true
    · have : verdict (⟨lb, ub, a, c⟩ : Bounds K) M = .cannot M := by
        simp only [verdict, isSignificant, includesZero, h0]; simp
      rw [this]
      exact hcov.1 h0
    · have hs : (!(a.le (.fin 0) && (Ext.fin 0).le c)) = true := by rw [Bool.not_eq_true'] ; exact Bool.eq_false_iff.2 h0
      obtain ⟨h1, h2⟩ := lt_le_cases hx
      by_cases hp : (Ext.fin 0).lt a = true
      · have : verdict (⟨lb, ub, a, c⟩ : Bounds K) M = .positive M := by
          simp only [verdict, isSignificant, includesZero, if_pos hs, if_pos hp]
        rw [this]
        intro y hy
        rcases h1 with rfl | ⟨w, rfl, -⟩
        · simp [Ext.lt] at hp
        · exact lt_of_lt_of_le (by simpa [Ext.lt] using hp) hy.1
      · have : verdict (⟨lb, ub, a, c⟩ : Bounds K) M = .negative M := by
          simp only [verdict, isSignificant, includesZero, if_pos hs, if_neg hp]
        rw [this]
        intro y hy
        have ha : a.le (.fin 0) = true := by
          rcases h1 with rfl | ⟨w, rfl, -⟩
          · rfl
          · simpa [Ext.lt, Ext.le] using hp
        have hc : (Ext.fin 0).le c ≠ true := fun h => h0 (by rw [ha, h]; rfl)
        rcases h2 with rfl | ⟨w, rfl, -⟩
        · simp [Ext.le] at hc
        · have : w < 0 := by simpa [Ext.le] using hc
          exact lt_of_le_of_lt hy.2 this
  have hlev : (verdict (⟨lb, ub, a, c⟩ : Bounds K) M).level = M := by
    simp only [verdict]
    split_ifs <;> rfl
  refine ⟨rfl, ?_, hlev, ?_, ?_⟩
  · intro v hv
    refine ⟨fun hh => ?_, fun hh => hh ▸ hver⟩
    change v = verdict _ M
    generalize hw : verdict (⟨lb, ub, a, c⟩ : Bounds K) M = w at hver hlev
    cases v <;> cases w <;> simp only [Verdict.level] at hv hlev <;> subst hv <;> try subst hlev
    all_goals first
      | rfl
      | (exfalso
         simp only [Verdict.holds] at hh hver
         first
         | exact absurd (hh x hx) (not_lt.2 (hver x hx).le)
         | exact lt_irrefl _ (hh 0 hver)
         | exact lt_irrefl _ (hver 0 hh))
  · rw [← hcov]
    simp only [honestPage, isSignificant, includesZero]
    rw [Bool.not_eq_true', Bool.eq_false_iff]
  · rw [← hcov]
    simp only [honestStar]
    rw [Bool.not_eq_true', Bool.eq_false_iff]

example : Covers ((.fin (1 / 2), .pinf) : Ext ℚ × Ext ℚ) 3 := ⟨by norm_num, trivial⟩

/-- A clearly negative effect: both lines say so. -/
example : honestPage .smoothness (⟨.fin (-3), .fin (-2), .fin (-4), .fin (-1)⟩ : Bounds ℚ) 0 =
    { ci := (.fin (-4), .fin (-1)), robust := true, restriction := .linear, verdict := .negative 0 } := by decide +kernel

/-- C138 is false of the honest report: results without an average standard error have a NaN interval under relative magnitudes, and
the report says that the effect is robust and "remains NEGATIVE", whatever the estimates, the weights and M. -/
theorem C138_nan_refuted (solve : HonestDid.Lp K → Option K) (root : K → K) (z : K) (r : HonestDid.Multi K) (times : List ℤ) (ref : ℤ)
    (extra : ℕ) (h : HonestDid.Fitted r times ref extra) (hnan : r.avgSe = none) (M : K) :
    ∃ res, HonestDid.fitMulti .relativeMagnitude solve root z none r M = .ok res ∧
      (honestPage .relativeMagnitude res.bounds M).verdict = .negative M ∧ (honestPage .relativeMagnitude res.bounds M).robust = true ∧
      honestStar res.bounds = true ∧ ∀ x, ¬ Covers (res.bounds.ciLb, res.bounds.ciUb) x := by
  refine ⟨_, rfl, ?_⟩
  simp only
  rw [HonestDid.C42_pre_magnitude_refuted r times ref extra h, hnan]
  exact ⟨rfl, rfl, rfl, fun x hx => hx.1⟩

/-- The hypotheses are met by the fit used for C42, with its average standard error missing and the positive effect 5 everywhere. -/
example : HonestDid.Fitted { HonestDid.exMulti with avgSe := none } [1, 2, 3, 4] 1 0 :=
  ⟨by decide, by decide, by decide, by decide, by decide, by decide, rfl, by decide⟩

/-- C138 is false of the honest report: for a negative M, which `fit` accepts, the ends of the interval cross, and for M negative enough
the report calls every effect POSITIVE, also when the estimate is negative. -/
theorem C138_negative_M_refuted (z se : K) (beta l : List K) (m : K) (hm : 0 < m) (hz : 0 ≤ z * se) (M : K)
    (hM : M * m < -(|HonestDid.dot l beta| + z * se)) :
    (honestPage .relativeMagnitude (rmBounds z se beta l (some m) M) M).verdict = .positive M ∧
    ∀ x, ¬ Covers ((rmBounds z se beta l (some m) M).ciLb, (rmBounds z se beta l (some m) M).ciUb) x := by
  have h1 := neg_abs_le (HonestDid.dot l beta)
  have h2 := le_abs_self (HonestDid.dot l beta)
  have hpos : 0 < HonestDid.dot l beta - M * m - z * se := by linarith
  have hneg : HonestDid.dot l beta + M * m + z * se < 0 := by linarith
  unfold rmBounds
  simp only
  rw [if_neg hm.ne']
  constructor
  · have hs : isSignificant (⟨.fin (HonestDid.dot l beta - M * m), .fin (HonestDid.dot l beta + M * m),
        .fin (HonestDid.dot l beta - M * m - z * se), .fin (HonestDid.dot l beta + M * m + z * se)⟩ : Bounds K) = true :=
      (HonestDid.C77_significant_iff _ _ _ _).2 (Or.inl hpos)
    simp only [honestPage, verdict, if_pos hs]
    rw [if_pos (by simpa [Ext.lt] using hpos)]
  · rintro x ⟨ha, hb⟩
    simp only at ha hb
    linarith

example : (honestPage .relativeMagnitude (rmBounds (2 : ℚ) 1 [-5, -7] [1 / 2, 1 / 2] (some 1) (-9)) (-9)).verdict = .positive (-9) := by
  decide +kernel

/-! ### Restriction sentence -/

/-- C138. The sentence about the restriction names the restriction and the M of the fit; "linear extrapolation" is printed exactly for
smoothness with M = 0. -/
theorem C138_restriction (method : HonestDid.Method) (b : Bounds K) (M : K) :
    ((honestPage method b M).restriction = .linear ↔ method = .smoothness ∧ M = 0) ∧
    (∀ c, (honestPage method b M).restriction = .curvature c ↔ method = .smoothness ∧ M ≠ 0 ∧ c = M) ∧
    (∀ c, (honestPage method b M).restriction = .multiple c ↔ method = .relativeMagnitude ∧ c = M) ∧
    (∀ c, (honestPage method b M).restriction = .combined c ↔ method = .combined ∧ c = M) := by
  simp only [honestPage, restriction]
  cases method <;> by_cases h : M = 0 <;> simp [h, eq_comm]

/-! ### Sensitivity analysis -/

/-- C138. Grid increasing, starting at a significant value not below zero, significance profile with a threshold: if the report says
"robust to violations up to M = v", then up to the bisection error (2^-21 times the distance of two neighbouring grid values) every
smaller M is significant and every larger one is not. -/
theorem C138_robust_partial (B : K → Bounds K) (est : K) (m : K) (h : Threshold (fun M => includesZero (B M)) m) (g : K) (grid : List K)
    (h0 : 0 ≤ g) (hg : includesZero (B g) = false) (hs : (g :: grid).Pairwise (· < ·)) (v : K)
    (hv : (sensitivityPage (PlotMore.sensitivity B est (g :: grid))).1 = .robustUpTo v) :
    ∃ a b, (a, b) ∈ (g :: grid).zip grid ∧ a ≤ v ∧ v ≤ b ∧
      (∀ M, 0 ≤ M → M < v - (b - a) / 2 ^ 21 → isSignificant (B M) = true) ∧
      (∀ M, 0 ≤ M → v + (b - a) / 2 ^ 21 < M → isSignificant (B M) = false) := by
  have hv' : findBreakdown (fun M => includesZero (B M)) (g :: grid) = some v := by
    simp only [sensitivityPage, PlotMore.sensitivity] at hv
    cases hb : findBreakdown (fun M => includesZero (B M)) (g :: grid) with
    | none => rw [hb] at hv; cases hv
    | some w => rw [hb] at hv; injection hv with hv; rw [hv]
  obtain ⟨a, b, hab, -, -, hav, hvb, herr⟩ := HonestDid.C41_grid _ m h g grid h0 hg hs v hv'
  rw [abs_le] at herr
  refine ⟨a, b, hab, hav, hvb, fun M hM hMv => ?_, fun M hM hMv => ?_⟩
  · have := h.1 M hM (by linarith)
    simp only at this
    rw [isSignificant, this]; rfl
  · have := h.2 M hM (by linarith)
    simp only at this
    rw [isSignificant, this]; rfl

/-- The printed breakdown can exceed the true one: with the true threshold 2^-25 on the grid 0, 1 the report says "robust up to
2^-21", although at the smaller M = 2^-22 the interval contains zero. -/
theorem C138_robust_refuted :
    let B := rmBounds (1 : ℚ) 1 [1 + 1 / 2 ^ 25] [1] (some 1)
    (sensitivityPage (PlotMore.sensitivity B 1 [0, 1])).1 = .robustUpTo (1 / 2 ^ 21) ∧
    isSignificant (B (1 / 2 ^ 22)) = false ∧ ((1 : ℚ) / 2 ^ 22 < 1 / 2 ^ 21) := by
  decide +kernel

/-- C138 is false of the sensitivity report: if no value of the (non-empty) grid is significant, M = 0 among them, the report says
"Result is robust to violations up to M = 0" although the interval at M = 0 contains zero. -/
theorem C138_never_refuted (B : K → Bounds K) (est : K) (grid : List K) (h0 : (0 : K) ∈ grid)
    (hall : ∀ M ∈ grid, isSignificant (B M) = false) :
    (sensitivityPage (PlotMore.sensitivity B est grid)).1 = .robustUpTo 0 ∧ includesZero (B 0) = true := by
  have hi : ∀ M ∈ grid, includesZero (B M) = true := by
    intro M hM
    have := hall M hM
    simpa [isSignificant] using this
  refine ⟨?_, hi 0 h0⟩
  have : findBreakdown (fun M => includesZero (B M)) grid = some 0 := by
    unfold findBreakdown
    rw [if_neg (by rw [not_not]; exact List.any_eq_true.2 ⟨0, h0, hi 0 h0⟩), if_pos (List.all_eq_true.2 hi)]
  simp only [sensitivityPage, PlotMore.sensitivity, this]

example : ∀ M ∈ [(0 : ℚ), 1 / 4, 1 / 2], isSignificant (rmBounds 2 3 [1] [1] (some 1) M) = false := by decide +kernel

/-- C138. "None (always significant)" does mean that every M up to the largest grid value is significant, for profiles with a
threshold. -/
theorem C138_always_partial (B : K → Bounds K) (est : K) (m : K) (h : Threshold (fun M => includesZero (B M)) m) (grid : List K)
    (hv : (sensitivityPage (PlotMore.sensitivity B est grid)).1 = .always) (g : K) (hg : g ∈ grid) (M : K) (hM : 0 ≤ M) (hMg : M < g) :
    isSignificant (B M) = true ∧ isSignificant (B g) = true := by
  have hnone : findBreakdown (fun M => includesZero (B M)) grid = none := by
    simp only [sensitivityPage, PlotMore.sensitivity] at hv
    cases hb : findBreakdown (fun M => includesZero (B M)) grid with
    | none => rfl
    | some w => rw [hb] at hv; cases hv
  have hg' : includesZero (B g) = false := (HonestDid.C41_grid_none _ _).1 hnone g hg
  have hgm : g ≤ m := by
    by_contra hc
    have := h.2 g (hM.trans hMg.le) (not_le.1 hc)
    simp only at this
    rw [hg'] at this
    cases this
  have := h.1 M hM (hMg.trans_le hgm)
  simp only at this
  exact ⟨by rw [isSignificant, this]; rfl, by rw [isSignificant, hg']; rfl⟩

/-- C138 is false of the sensitivity report: "always significant" is printed for every grid that ends below the breakdown, although from the
breakdown on the interval contains zero. -/
theorem C138_always_refuted (z se : K) (hz : 0 ≤ z * se) (beta l : List K) (m est : K) (hm : 0 < m) (grid : List K)
    (hg : ∀ g ∈ grid, 0 ≤ g ∧ g < (|HonestDid.dot l beta| - z * se) / m) :
    (sensitivityPage (PlotMore.sensitivity (rmBounds z se beta l (some m)) est grid)).1 = .always ∧
    ∀ M, 0 ≤ M → (|HonestDid.dot l beta| - z * se) / m ≤ M → isSignificant (rmBounds z se beta l (some m) M) = false := by
  constructor
  · have : findBreakdown (fun M => includesZero (rmBounds z se beta l (some m) M)) grid = none := by
      rw [HonestDid.C41_grid_none]
      intro g hgm
      obtain ⟨h0, h1⟩ := hg g hgm
      rw [lt_div_iff₀ hm] at h1
      rw [HonestDid.includesZero_rm z se beta l m g hm.le h0 hz, decide_eq_false_iff_not, not_le]
      linarith
    simp only [sensitivityPage, PlotMore.sensitivity, this]
  · intro M h0 hM
    rw [div_le_iff₀ hm] at hM
    rw [isSignificant, HonestDid.includesZero_rm z se beta l m M hm.le h0 hz]
    simp
    linarith

example : ∀ g ∈ [(0 : ℚ), 1, 2], 0 ≤ g ∧ g < (|HonestDid.dot [1 / 2, 1 / 2] [5, 7]| - 2 * 1) / 1 := by decide +kernel

/-- C138 is false of the sensitivity report: NaN intervals (no average standard error) give "always significant" for every grid. -/
theorem C138_nan_always_refuted (z se : K) (beta l : List K) (est : K) (grid : List K) :
    (sensitivityPage (PlotMore.sensitivity (rmBounds z se beta l none) est grid)).1 = .always := by
  have : findBreakdown (fun M => includesZero (rmBounds z se beta l none M)) grid = none := by
    rw [HonestDid.C41_grid_none]
    intro g _
    rfl
  simp only [sensitivityPage, PlotMore.sensitivity, this]

/-- C138. The table below the sentence has one line per grid value, in order, with the bounds and interval of the fit at that value. -/
theorem C138_sensitivity_table (B : K → Bounds K) (est : K) (grid : List K) :
    (sensitivityPage (PlotMore.sensitivity B est grid)).2.map Prod.fst = grid ∧
    ∀ r ∈ (sensitivityPage (PlotMore.sensitivity B est grid)).2, r.2 = B r.1 := by
  simp only [sensitivityPage, PlotMore.sensitivity]
  refine ⟨by simp [Function.comp_def], fun r hr => ?_⟩
  obtain ⟨m, -, rfl⟩ := List.mem_map.1 hr
  rfl

/-! ### Placebo tests -/

/-- What the sentence claims about the printed p-value. -/
def PlaceboLine.holds (p : Ext K) : PlaceboLine → Prop
  | .warning => ∃ x, p = .fin x ∧ x < 1 / 20
  | .consistent => ∃ x, p = .fin x ∧ 1 / 20 ≤ x

variable {U E : Type*} [DecidableEq U] [FloorSemiring K]

theorem runTest_significant {reg : Diagnostics.Reg K U E} {root : K → K} {tD : ℕ → Inference.Dist K}
    {rows : List (Diagnostics.Row K U E)} {kind : String} {a : Diagnostics.Args U} {draws : List (List U)} {alpha : K}
    {r : Diagnostics.Placebo K U} (h : Diagnostics.runTest reg root tD rows kind a draws alpha = .ok r) :
    r.significant = Ext.lt r.p (.fin alpha) := by
  have ht : ∀ f r, Diagnostics.timingTest reg rows f a.post alpha = .ok r → r.significant = Ext.lt r.p (.fin alpha) := by
    intro f r h
    obtain ⟨-, f, g1, h1, -, rfl⟩ := Diagnostics.timing_ok h
    rfl
  have hgr : ∀ g r, Diagnostics.groupTest reg rows g a.post alpha = .ok r → r.significant = Ext.lt r.p (.fin alpha) := by
    intro g r h
    unfold Diagnostics.groupTest at h
    split_ifs at h
    simp only at h
    split at h
    · cases h
    · injection h with h; subst h; rfl
  have hp : ∀ r, Diagnostics.permutationTest reg root rows draws alpha = .ok r → r.significant = Ext.lt r.p (.fin alpha) := by
    intro r h
    obtain ⟨p, hp, -, -, hs, -⟩ := Diagnostics.C45_range reg root rows draws alpha r h
    rw [hs, hp]; rfl
  have hl : ∀ r, Diagnostics.leaveOneOut reg root tD rows alpha = .ok r → r.significant = Ext.lt r.p (.fin alpha) := by
    intro r h
    unfold Diagnostics.leaveOneOut at h
    split at h
    · cases h
    · split at h
      · cases h
      · unfold Diagnostics.looResult at h
        simp only at h
        split_ifs at h <;> (injection h with h; subst h; rfl)
  unfold Diagnostics.runTest at h
  simp only at h
  split_ifs at h with h1 h2 h3 h4 h5 h6 h7
  · split at h
    · cases h
    · exact ht _ _ h
  · split at h
    · cases h
    · exact hgr _ _ h
  · exact hp _ h
  · exact hl _ h

/-- C138. At the default level, for every kind of placebo test that returns a number as p-value, the interpretation is true: the
warning is printed exactly when that p-value is below 0.05. -/
theorem C138_placebo_partial (reg : Diagnostics.Reg K U E) (root : K → K) (tD : ℕ → Inference.Dist K)
    (rows : List (Diagnostics.Row K U E)) (kind : String) (a : Diagnostics.Args U) (draws : List (List U))
    (r : Diagnostics.Placebo K U) (h : Diagnostics.runTest reg root tD rows kind a draws (1 / 20) = .ok r) (x : K) (hx : r.p = .fin x)
    (l : PlaceboLine) : l.holds r.p ↔ l = placeboLine r := by
  have hs := runTest_significant h
  rw [hx] at hs
  simp only [Ext.lt] at hs
  simp only [placeboLine, hs, hx]
  by_cases hlt : x < 1 / 20
  · cases l <;> simp [PlaceboLine.holds, hlt] <;> simpa using hlt
  · cases l <;> simp [PlaceboLine.holds, hlt] <;> simpa using hlt

/-- C138 is false of the placebo report at every other level: whenever the p-value lies between 0.05 and the level used, the sentence quotes the
wrong relation to 0.05. -/
theorem C138_placebo_refuted (reg : Diagnostics.Reg K U E) (root : K → K) (tD : ℕ → Inference.Dist K)
    (rows : List (Diagnostics.Row K U E)) (kind : String) (a : Diagnostics.Args U) (draws : List (List U)) (alpha : K)
    (r : Diagnostics.Placebo K U) (h : Diagnostics.runTest reg root tD rows kind a draws alpha = .ok r) (x : K) (hx : r.p = .fin x)
    (hb : (1 / 20 ≤ x ∧ x < alpha) ∨ (alpha ≤ x ∧ x < 1 / 20)) : ¬ (placeboLine r).holds r.p := by
  have hs := runTest_significant h
  rw [hx] at hs
  simp only [Ext.lt] at hs
  simp only [placeboLine, hs, hx]
  rcases hb with ⟨h1, h2⟩ | ⟨h1, h2⟩
  · rw [if_pos (by simpa using h2)]
    rintro ⟨y, hy, hlt⟩
    injection hy with hy
    subst hy
    exact absurd hlt (not_lt.2 h1)
  · rw [if_neg (by simpa using h1)]
    rintro ⟨y, hy, hle⟩
    injection hy with hy
    subst hy
    exact absurd h2 (not_lt.2 hle)

/-- C138 is false of the placebo report: a test without a p-value (NaN, for instance from a zero standard error) is reported as "No significant placebo effect
detected (p >= 0.05). This is consistent with the parallel trends assumption", at every level. -/
theorem C138_placebo_nan_refuted (reg : Diagnostics.Reg K U E) (root : K → K) (tD : ℕ → Inference.Dist K)
    (rows : List (Diagnostics.Row K U E)) (kind : String) (a : Diagnostics.Args U) (draws : List (List U)) (alpha : K)
    (r : Diagnostics.Placebo K U) (h : Diagnostics.runTest reg root tD rows kind a draws alpha = .ok r) (hx : r.p = .nan) :
    placeboLine r = .consistent ∧ ¬ (placeboLine r).holds r.p := by
  have hs := runTest_significant h
  rw [hx] at hs
  have : placeboLine r = .consistent := by simp [placeboLine, hs, Ext.lt]
  refine ⟨this, ?_⟩
  rw [this, hx]
  rintro ⟨y, hy, -⟩
  cases hy

end

/-! ### Pre-trends power -/

section
open Pretrends

/-- C138. If the pre-trends report says that violations of magnitude `v` would be detected, then every violation at least as large
has at least the target power; if it says that violations of `m` would be needed, with `m` a number, then `m` has exactly the target
power, every smaller violation has less, and the magnitude reported on is smaller; and the magnitude "not ruled out" is that `m`. -/
theorem C138_power {R : Routines} {s : Settings} (hR : NonCentral R s.alpha) (hb : RootFinder R.brentq) (hat : s.alpha < s.target)
    {n : ℕ} (hn : 1 ≤ n) {pre : Pre n} (hV : pre.vcov.PosDef) {M : Option ℝ} {r : Result n} (h : fit R s pre M = .ok r) {m : ℝ}
    (hm : r.mdv = .fin m) : ∃ w, weights s.pattern n = .ok w ∧ (powerPage r).notRuledOut = .fin m ∧
      (∀ M', |M'| < m → power R s.alpha M' w pre.vcov < s.target) ∧
      (∀ v, (powerPage r).line = .detects v → v = r.M ∧ ∀ M', |v| ≤ |M'| → s.target ≤ power R s.alpha M' w pre.vcov) ∧
      (∀ m' t, (powerPage r).line = .needs m' t → m' = .fin m ∧ t = s.target ∧ power R s.alpha m w pre.vcov = t ∧ |r.M| < m) := by
  obtain ⟨w, hw, hmd, hM, hpow, hs, -, -⟩ := fit_ok h
  have hspec := C43_mdv_power hR hb hn hat (w := w) (V := pre.vcov) (m := m) (by rw [← hmd, hm])
  have hw0 : w ≠ 0 := by
    rintro rfl
    have := hspec.2.1
    simp [power, noncentrality, quad] at this
    linarith
  have hmono : ∀ A B : ℝ, |A| ≤ |B| → power R s.alpha A w pre.vcov ≤ power R s.alpha B w pre.vcov := by
    intro A B hAB
    rcases hAB.lt_or_eq with h1 | h1
    · exact (C43_monotone hR hn hV hw0 h1).le
    · have hsq : A ^ 2 = B ^ 2 := by rw [← sq_abs, h1, sq_abs]
      simp only [power, noncentrality, quad_smul, hsq, le_refl]
  have hlt : ∀ M', power R s.alpha M' w pre.vcov < s.target → |M'| < m := by
    intro M' hM'
    by_contra hc
    have h1 := hmono m M' (by rw [abs_of_pos hspec.1]; exact not_lt.1 hc)
    rw [hspec.2.1] at h1
    exact absurd hM' (not_lt.2 h1)
  refine ⟨w, hw, hm, hspec.2.2, fun v hv => ?_, fun m' t hv => ?_⟩
  · simp only [powerPage] at hv
    by_cases ha : adequate r
    · rw [if_pos ha] at hv
      injection hv with hv
      refine ⟨hv.symm, fun M' hM' => ?_⟩
      have : s.target ≤ power R s.alpha r.M w pre.vcov := by rw [← hpow, ← hs]; exact ha
      exact this.trans (hmono _ _ (by rw [hv]; exact hM'))
    · rw [if_neg ha] at hv; cases hv
  · simp only [powerPage] at hv
    by_cases ha : adequate r
    · rw [if_pos ha] at hv; cases hv
    · rw [if_neg ha] at hv
      injection hv with h1 h2
      refine ⟨by rw [← h1, hm], by rw [← h2, hs], by rw [← h2, hs]; exact hspec.2.1, hlt _ ?_⟩
      rw [← hpow, ← hs]
      exact not_le.1 ha

/-- C138 is false of the pre-trends report: "Would need violations of inf" is printed although a finite violation has the target power. -/
theorem C138_power_refuted : ∃ (R : Routines) (s : Settings) (pre : Pre 1) (r : Result 1),
    NonCentral R s.alpha ∧ RootFinder R.brentq ∧ pre.vcov.PosDef ∧ fit R s pre (some 0) = .ok r ∧
    (powerPage r).line = .needs .pinf s.target ∧
    ∃ w M, weights s.pattern 1 = .ok w ∧ power R s.alpha M w pre.vcov = s.target := by
  have hw : weights .constant 1 = .ok (fun _ => (1 : ℝ)) := by
    have hn : Pretrends.norm (fun _ : Fin 1 => (1 : ℝ)) = 1 := by simp [Pretrends.norm]
    simp [weights, raw, normalise, hn, Except.map]
  have hR : NonCentral demo (1 / 2) := demo_nonCentral (by norm_num)
  have hq : quad demo (fun _ : Fin 1 => (1 : ℝ)) (1 : Matrix (Fin 1) (Fin 1) ℝ) = 1 := by
    simp [quad, inverse, dotProduct]
  have hmdv : mdv demo (1 / 2) (1 - 1 / 1400) (fun _ : Fin 1 => (1 : ℝ)) 1 = .pinf := by
    simp only [mdv]
    rcases targetNc_spec hR demo_rootFinder (le_refl 1) (target := 1 - 1 / 1400) (by norm_num) with
      ⟨x, hx, hx0, hx5, hxp⟩ | ⟨hx, -⟩
    · exfalso
      have h2 : testPower demo (1 / 2) 1 x ≤ testPower demo (1 / 2) 1 512 :=
        (hR.mono 1 le_rfl).monotoneOn (Set.mem_Ici.mpr hx0.le) (Set.mem_Ici.mpr (by norm_num)) hx5
      rw [hxp] at h2
      norm_num [testPower, demo] at h2
    · rw [hx]
  have hfit : ∃ r, fit demo ⟨1 / 2, 1 - 1 / 1400, .constant⟩ (⟨fun _ => 0, fun _ => 1, 1⟩ : Pre 1) (some 0) = .ok r := by
    simp only [fit, hw]; exact ⟨_, rfl⟩
  obtain ⟨r, hr⟩ := hfit
  obtain ⟨w, hw', hmd, hM, hpow, hs, -, -⟩ := fit_ok hr
  simp only at hw' hmd hpow
  rw [hw] at hw'
  obtain rfl := Except.ok.inj hw'
  rw [hmdv] at hmd
  have hM0 : r.M = 0 := by rw [hM]; rfl
  refine ⟨demo, ⟨1 / 2, 1 - 1 / 1400, .constant⟩, ⟨fun _ => 0, fun _ => 1, 1⟩, r, hR, demo_rootFinder, Matrix.PosDef.one, hr, ?_,
    fun _ => 1, Real.sqrt 699, hw, ?_⟩
  · have hna : ¬ adequate r := by
      rw [adequate, hpow, hs, hM0, power_eq hR le_rfl _ _ _ (by rw [hq]; norm_num), hq]
      norm_num [testPower, demo]
    simp only [powerPage, if_neg hna, hmd, hs]
  · rw [power_eq hR le_rfl _ _ _ (by rw [hq]; norm_num), hq, Real.sq_sqrt (by norm_num)]
    norm_num [testPower, demo]

end

end DiffDiff.Reports
