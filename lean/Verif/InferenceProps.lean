/-
Properties C16 (consistency of inference fields), C17 (degenerate standard errors), C67 (df=None),
C68 (TROP interval versus p-value).
-/
import Verif.Inference

set_option linter.unusedSectionVars false

namespace DiffDiff.Inference

variable {K : Type*} [Field K] [LinearOrder K] [IsStrictOrderedRing K]

/-- What is assumed of scipy's symmetric continuous distributions: the survival function is strictly
decreasing with values in (0,1), is one half at zero, and the quantile function inverts it. -/
structure Symmetric (D : Dist K) : Prop where
  anti : ∀ x y, x < y → D.sf y < D.sf x
  half : D.sf 0 = 1 / 2
  pos : ∀ x, 0 < D.sf x
  inv : ∀ p, 0 < p → p < 1 → D.sf (D.ppf p) = 1 - p

/-- Interval contains a number. -/
def Contains (ci : Ext K × Ext K) (x : K) : Prop :=
  ∃ lo hi, ci = (.fin lo, .fin hi) ∧ lo ≤ x ∧ x ≤ hi

theorem ppf_pos {D : Dist K} (h : Symmetric D) {a : K} (h0 : 0 < a) (h1 : a < 1) :
    0 < D.ppf (1 - a / 2) := by
  have e := h.inv (1 - a / 2) (by linarith) (by linarith)
  by_contra hn
  rcases lt_or_eq_of_le (not_lt.1 hn) with hl | he
  · have := h.anti _ _ hl; rw [h.half, e] at this; linarith
  · rw [he, h.half] at e; linarith

theorem confInt_fin (D : Dist K) (c s a : K) : confInt D (.fin c) (.fin s) a
    = (.fin (c - D.ppf (1 - a / 2) * s), .fin (c + D.ppf (1 - a / 2) * s)) := by
  simp [confInt, Ext.sub, Ext.mul, Ext.neg, Ext.add, sub_eq_add_neg]

theorem tStat_pos (c s : K) (hs : 0 < s) : tStat (.fin c) (.fin s) = .fin (c / s) := by
  simp [tStat, Ext.le, Ext.div, not_le.2 hs, hs.ne']

/-- Test-interval duality for one distribution. -/
theorem duality {D : Dist K} (h : Symmetric D) (c s a : K) (hs : 0 < s) (h0 : 0 < a) (h1 : a < 1) :
    2 * D.sf |c / s| < a ↔ ¬ (c - D.ppf (1 - a / 2) * s ≤ 0 ∧ 0 ≤ c + D.ppf (1 - a / 2) * s) := by
  set q := D.ppf (1 - a / 2) with hq
  have e : D.sf q = a / 2 := by have := h.inv (1 - a / 2) (by linarith) (by linarith); rw [this]; ring
  have qp : 0 < q := ppf_pos h h0 h1
  have e1 : 2 * D.sf |c / s| < a ↔ q < |c / s| := by
    constructor
    · intro hl
      by_contra hn
      rcases lt_or_eq_of_le (not_lt.1 hn) with hl' | he
      · have := h.anti _ _ hl'; linarith
      · rw [he] at hl; linarith
    · intro hl; have := h.anti _ _ hl; linarith
  rw [e1, abs_div, abs_of_pos hs, lt_div_iff₀ hs, lt_abs]
  constructor
  · rintro (hl | hl) ⟨h1, h2⟩ <;> linarith
  · intro hn
    by_contra hc
    rw [not_or, not_lt, not_lt] at hc
    exact hn ⟨by linarith [hc.1], by linarith [hc.2]⟩

theorem pick_symm (tD : Int → Dist K) (nD : Dist K) (ht : ∀ d, 0 < d → Symmetric (tD d))
    (hn : Symmetric nD) (df : Option Int) : Symmetric (pick tD nD df) := by
  cases df with
  | none => exact hn
  | some d =>
    simp only [pick]; split_ifs with h
    · exact ht d h
    · exact hn

/-- C16. With a positive standard error: the interval is centred at the coefficient and contains it, the t
statistic is coefficient over standard error, the p-value lies in (0, 1], and the interval excludes
zero exactly when `is_significant()` is true. For every alpha in (0,1), every df (given or fitted). -/
theorem C16_consistent (tD : Int → Dist K) (nD : Dist K) (ht : ∀ d, 0 < d → Symmetric (tD d))
    (hn : Symmetric nD) (c s a : K) (hs : 0 < s) (h0 : 0 < a) (h1 : a < 1) (dfArg dfFit : Option Int) :
    let r := getInference tD nD (.fin c) (.fin s) none a dfArg dfFit
    (∃ w, 0 < w ∧ r.ci = (.fin (c - w), .fin (c + w))) ∧
    Contains r.ci c ∧
    r.t = .fin (c / s) ∧
    (∃ p, r.p = .fin p ∧ 0 < p ∧ p ≤ 1) ∧
    (r.isSignificant none = true ↔ ¬ Contains r.ci 0) := by
  intro r
  set D := pick tD nD (effectiveDf dfArg dfFit) with hD
  have hsym : Symmetric D := pick_symm tD nD ht hn _
  have hci : r.ci = (.fin (c - D.ppf (1 - a / 2) * s), .fin (c + D.ppf (1 - a / 2) * s)) :=
    confInt_fin D c s a
  have htt : r.t = .fin (c / s) := tStat_pos c s hs
  have hp : r.p = .fin (2 * D.sf |c / s|) := by
    show pValue D (tStat (.fin c) (.fin s)) = _
    rw [tStat_pos c s hs]; simp [pValue, Ext.abs, Dist.sfE, Ext.mul, mul_comm]
  have hq := ppf_pos hsym h0 h1
  refine ⟨⟨_, mul_pos hq hs, hci⟩, ⟨_, _, hci, ?_, ?_⟩, htt, ⟨_, hp, ?_, ?_⟩, ?_⟩
  · have := mul_pos hq hs; linarith
  · have := mul_pos hq hs; linarith
  · have := hsym.pos |c / s|; linarith
  · rcases eq_or_lt_of_le (abs_nonneg (c / s)) with he | hl
    · rw [← he, hsym.half]; norm_num
    · have := hsym.anti _ _ hl; rw [hsym.half] at this; linarith
  · have : r.isSignificant none = decide (2 * D.sf |c / s| < a) := by
      unfold Result.isSignificant
      rw [hp]
      have : r.alpha = a := rfl
      simp [Ext.isNan, Ext.lt, this]
    rw [this, decide_eq_true_eq, duality hsym c s a hs h0 h1, hci]
    unfold Contains
    constructor
    · rintro hx ⟨lo, hi, he, hl, hr⟩
      simp only [Prod.mk.injEq, Ext.fin.injEq] at he
      exact hx ⟨he.1 ▸ hl, he.2 ▸ hr⟩
    · intro hx hh; exact hx ⟨_, _, rfl, hh.1, hh.2⟩

/-- C16. A smaller alpha gives a wider interval, and what is significant at a smaller alpha is significant
at a larger one. -/
theorem C16_nested (D : Dist K) (h : Symmetric D) (c s a b : K) (hs : 0 < s) (h0 : 0 < a) (hab : a < b)
    (h1 : b < 1) (x : K) : Contains (confInt D (.fin c) (.fin s) b) x →
      Contains (confInt D (.fin c) (.fin s) a) x := by
  rw [confInt_fin, confInt_fin]
  rintro ⟨lo, hi, he, hl, hr⟩
  simp only [Prod.mk.injEq, Ext.fin.injEq] at he
  have hq : D.ppf (1 - b / 2) ≤ D.ppf (1 - a / 2) := by
    by_contra hn
    have := h.anti _ _ (not_le.1 hn)
    rw [h.inv _ (by linarith) (by linarith), h.inv _ (by linarith) (by linarith)] at this
    linarith
  have := mul_le_mul_of_nonneg_right hq hs.le
  refine ⟨_, _, rfl, ?_, ?_⟩ <;> linarith [he.1, he.2]

/-- C16. Flipping the sign of the estimate flips t, mirrors the interval and keeps the p-value. -/
theorem C16_sign_symmetric (tD : Int → Dist K) (nD : Dist K) (c s a : K) (hs : 0 < s)
    (dfArg dfFit : Option Int) :
    let r := getInference tD nD (.fin c) (.fin s) none a dfArg dfFit
    let r' := getInference tD nD (.fin (-c)) (.fin s) none a dfArg dfFit
    r'.t = Ext.neg r.t ∧ r'.p = r.p ∧ r'.ci = (Ext.neg r.ci.2, Ext.neg r.ci.1) := by
  refine ⟨?_, ?_, ?_⟩
  · show tStat _ _ = Ext.neg (tStat _ _)
    rw [tStat_pos _ s hs, tStat_pos _ s hs]; simp [Ext.neg, neg_div]
  · show pValue _ (tStat _ _) = pValue _ (tStat _ _)
    rw [tStat_pos _ s hs, tStat_pos _ s hs]; simp [pValue, Ext.abs, neg_div]
  · show confInt _ _ _ _ = _
    have : (getInference tD nD (.fin c) (.fin s) none a dfArg dfFit).ci
      = confInt (pick tD nD (effectiveDf dfArg dfFit)) (.fin c) (.fin s) a := rfl
    rw [this, confInt_fin]
    simp only [Option.getD_none, confInt_fin, Ext.neg]
    ring_nf

/-- C16. Stars agree with the significance levels they stand for. -/
theorem C16_stars_levels (r : Result K) :
    (r.stars = "***" ↔ r.isSignificant (some (1 / 1000)) = true) ∧
    (r.stars = "***" ∨ r.stars = "**" ↔ r.isSignificant (some (1 / 100)) = true) ∧
    (r.stars = "***" ∨ r.stars = "**" ∨ r.stars = "*" ↔ r.isSignificant (some (1 / 20)) = true) ∧
    (r.stars ≠ "" ↔ r.isSignificant (some (1 / 10)) = true) := by
  unfold Result.stars Result.isSignificant
  have c1 : (1 / 1000 : K) < 1 / 100 := by norm_num
  have c2 : (1 / 100 : K) < 1 / 20 := by norm_num
  have c3 : (1 / 20 : K) < 1 / 10 := by norm_num
  generalize (1 / 1000 : K) = e1 at *
  generalize (1 / 100 : K) = e2 at *
  generalize (1 / 20 : K) = e3 at *
  generalize (1 / 10 : K) = e4 at *
  cases hp : r.p with
  | nan => simp [Ext.isNan]
  | ninf => simp [Ext.isNan, Ext.lt]
  | pinf => simp [Ext.isNan, Ext.lt]
  | fin p =>
    simp only [Ext.isNan, Ext.lt, Option.getD_some, decide_eq_true_eq, Bool.false_eq_true, if_false]
    by_cases h1 : p < e1
    · have h2 := h1.trans c1; have h3 := h2.trans c2; have h4 := h3.trans c3
      simp [h1, h2, h3, h4]
    · by_cases h2 : p < e2
      · have h3 := h2.trans c2; have h4 := h3.trans c3
        simp [h1, h2, h3, h4]
      · by_cases h3 : p < e3
        · have h4 := h3.trans c3
          simp [h1, h2, h3, h4]
        · by_cases h4 : p < e4 <;> simp [h1, h2, h3, h4]

/-! ### C17 -/

/-- A standard error that does not support a test: NaN, infinite, zero or negative. -/
def Degenerate (se : Ext K) : Prop := ∀ s : K, se = .fin s → s ≤ 0

/-- C17. Callaway-Sant'Anna: for every degenerate standard error t statistic and p-value are NaN. -/
theorem C17_cs (D : Dist K) (est se : Ext K) (a : K) (h : Degenerate se) :
    (csFields D est se a).1 = .nan ∧ (csFields D est se a).2.1 = .nan := by
  have : ¬ (se.isFinite = true ∧ Ext.lt (.fin 0) se = true) := by
    rintro ⟨h1, h2⟩
    cases se with
    | fin s => have := h s rfl; simp [Ext.lt] at h2; linarith
    | _ => simp [Ext.isFinite] at h1
  simp only [csFields, if_neg this]
  exact ⟨trivial, rfl⟩

/-- C17. TROP and the MultiPeriodDiD average: all inference fields are NaN for NaN, zero or negative
standard errors. -/
theorem C17_trop_multiperiod (tD nD : Dist K) (est se : Ext K) (a : K) (h : Degenerate se)
    (hinf : se ≠ .pinf) :
    tropFields tD nD est se a = (.nan, .nan, (.nan, .nan)) ∧
    multiFields nD est se a = (.nan, .nan, (.nan, .nan)) := by
  have : ¬ (Ext.lt (.fin 0) se = true) := by
    intro h2
    cases se with
    | fin s => have := h s rfl; simp [Ext.lt] at h2; linarith
    | pinf => exact hinf rfl
    | _ => simp [Ext.lt] at h2
  constructor
  · simp only [tropFields, if_neg this]
  · simp only [multiFields, if_neg this]; simp

/-- C17. A coefficient dropped for collinearity (NaN coefficient and variance) is reported with NaN fields,
is not significant at any level and gets no stars. -/
theorem C17_dropped_coefficient (tD : Int → Dist K) (nD : Dist K) (al : Option K) (a : K)
    (d d' : Option Int) (b : Option K) :
    let r := getInference tD nD .nan .nan al a d d'
    r.t = .nan ∧ r.p = .nan ∧ r.ci = (.nan, .nan) ∧ r.isSignificant b = false ∧ r.stars = "" := by
  intro r
  have ht : r.t = .nan := rfl
  have hp : r.p = .nan := rfl
  refine ⟨ht, hp, rfl, ?_, ?_⟩
  · simp [Result.isSignificant, hp, Ext.isNan]
  · simp [Result.stars, hp, Ext.isNan]

/-- C17. An infinite standard error beside a finite coefficient: t = 0, p = 1, the interval is the whole line and nothing is significant at a level of at most
one; for regressions, TROP, the MultiPeriodDiD average, Sun-Abraham and triple differences. -/
theorem C17_infinite_se (tD : Int → Dist K) (nD : Dist K) (htD : ∀ d, Symmetric (tD d)) (hnD : Symmetric nD) (c a : K)
    (ha0 : 0 < a) (ha1 : a < 1) (d d' : Option Int) (d0 : Int) (b : K) (hb : b ≤ 1) :
    let r := getInference tD nD (.fin c) .pinf none a d d'
    (r.t = .fin 0 ∧ r.p = .fin 1 ∧ r.ci = (.ninf, .pinf) ∧ r.isSignificant (some b) = false ∧ r.stars = "") ∧
    tropFields (tD d0) nD (.fin c) .pinf a = (.fin 0, .fin 1, (.ninf, .pinf)) ∧
    multiFields nD (.fin c) .pinf a = (.fin 0, .fin 1, (.ninf, .pinf)) ∧
    saFields nD (.fin c) .pinf a = (.fin 0, .fin 1, (.ninf, .pinf)) := by
  intro r
  have hquant : ∀ D : Dist K, Symmetric D → 0 < D.ppf (1 - a / 2) := by
    intro D hD
    have h1 := hD.inv (1 - a / 2) (by linarith) (by linarith)
    rcases lt_trichotomy (D.ppf (1 - a / 2)) 0 with h | h | h
    · have := hD.anti _ _ h
      rw [h1, hD.half] at this
      linarith
    · rw [h, hD.half] at h1
      linarith
    · exact h
  have hq := fun d => hquant (tD d) (htD d)
  have hqn := hquant nD hnD
  have hp0 : ∀ D : Dist K, Symmetric D → pValue D (.fin 0) = .fin 1 := by
    intro D hD
    simp only [pValue, Ext.abs, abs_zero, Dist.sfE, hD.half, Ext.mul]
    norm_num
  have hci : ∀ D : Dist K, 0 < D.ppf (1 - a / 2) → confInt D (.fin c) .pinf a = (.ninf, .pinf) := by
    intro D hD
    simp [confInt, Ext.mul, Ext.sgn, Ext.infOf, Ext.sub, Ext.neg, Ext.add, not_lt.2 hD.le, hD.ne']
  have hpick : ∀ o, Symmetric (pick tD nD o) ∧ 0 < (pick tD nD o).ppf (1 - a / 2) := by
    intro o
    unfold pick
    cases o with
    | none => exact ⟨hnD, hqn⟩
    | some d =>
      dsimp only
      split_ifs
      · exact ⟨htD d, hq d⟩
      · exact ⟨hnD, hqn⟩
  have ht : r.t = .fin 0 := rfl
  have hp : r.p = .fin 1 := hp0 _ (hpick _).1
  refine ⟨⟨ht, hp, hci _ (hpick _).2, ?_, ?_⟩, ?_, ?_, ?_⟩
  · simp [Result.isSignificant, hp, Ext.isNan, Ext.lt, hb]
  · have h1 : ¬ (1 : K) < 1 / 1000 := by norm_num
    have h2 : ¬ (1 : K) < 1 / 100 := by norm_num
    have h3 : ¬ (1 : K) < 1 / 20 := by norm_num
    have h4 : ¬ (1 : K) < 1 / 10 := by norm_num
    simp only [Result.stars, hp, Ext.isNan, Ext.lt, h1, h2, h3, h4, decide_false, Bool.false_eq_true, if_false]
  · show (Ext.fin 0, pValue (tD d0) (.fin 0), confInt nD (.fin c) .pinf a) = _
    rw [hp0 _ (htD d0), hci _ hqn]
  · show (Ext.fin 0, pValue nD (.fin 0), confInt nD (.fin c) .pinf a) = _
    rw [hp0 _ hnD, hci _ hqn]
  · show (Ext.fin 0, pValue nD (.fin 0), confInt nD (.fin c) .pinf a) = _
    rw [hp0 _ hnD, hci _ hqn]

/-- C17 fails for Sun-Abraham, triple differences and synthetic DiD: for every non-zero estimate, a zero
standard error is reported as t = 0, p = 1 ("no effect") next to the interval [est, est] that
excludes zero; a NaN standard error also gives t = 0, p = 1. -/
theorem C17_sa_triple_sdid_refuted (D : Dist K) (hD : Symmetric D) (est a : K) (hne : est ≠ 0) :
    saFields D (.fin est) (.fin 0) a = (.fin 0, .fin 1, (.fin est, .fin est)) ∧
    ¬ Contains (saFields D (.fin est) (.fin 0) a).2.2 0 ∧
    saFields D (.fin est) .nan a = (.fin 0, .fin 1, (.nan, .nan)) ∧
    sdidFields D (.fin est) (.fin 0) a = (.fin 0, .fin 1, (.fin est, .fin est)) ∧
    sdidFields D (.fin est) .nan a = (.fin 0, .fin 1, (.nan, .nan)) := by
  have h1 : saFields D (.fin est) (.fin 0) a = (.fin 0, .fin 1, (.fin est, .fin est)) := by
    simp only [saFields, Ext.lt, lt_irrefl, decide_false, Bool.false_eq_true, if_false, confInt_fin,
      mul_zero, sub_zero, add_zero, pValue, Ext.abs, abs_zero, Dist.sfE, hD.half, Ext.mul]
    norm_num
  refine ⟨h1, ?_, ?_, ?_, rfl⟩
  · rw [h1]
    rintro ⟨lo, hi, he, hl, hr⟩
    simp only [Prod.mk.injEq, Ext.fin.injEq] at he
    exact hne (le_antisymm (he.1 ▸ hl) (he.2 ▸ hr))
  · simp only [saFields, Ext.lt, Bool.false_eq_true, if_false, pValue, Ext.abs, abs_zero, Dist.sfE,
      hD.half, Ext.mul, confInt, Ext.sub, Ext.neg, Ext.add]
    norm_num
  · simp only [sdidFields, Ext.lt, lt_irrefl, decide_false, Bool.false_eq_true, if_false, confInt_fin,
      mul_zero, sub_zero, add_zero]

/-- C17 fails for regression estimators: a zero standard error with a positive coefficient is reported as
t = +inf, p = 0 and significant at every positive level. -/
theorem C17_regression_zero_se_refuted (tD : Int → Dist K) (nD : Dist K) (c a : K) (hc : 0 < c)
    (d d' : Option Int) (b : K) (hb : 0 < b) :
    let r := getInference tD nD (.fin c) (.fin 0) none a d d'
    r.t = .pinf ∧ r.p = .fin 0 ∧ r.isSignificant (some b) = true ∧ r.stars = "***" := by
  intro r
  have ht : r.t = .pinf := by
    show tStat _ _ = _
    simp [tStat, Ext.le, Ext.lt, hc]
  have hp : r.p = .fin 0 := by
    show pValue _ r.t = _
    rw [ht]; simp [pValue, Ext.abs, Dist.sfE, Ext.mul]
  have h1 : (0 : K) < 1 / 1000 := by norm_num
  refine ⟨ht, hp, ?_, ?_⟩
  · simp [Result.isSignificant, hp, Ext.isNan, Ext.lt, hb]
  · unfold Result.stars; rw [hp]; simp only [Ext.isNan, Ext.lt]; simp

/-- C17 fails for Callaway-Sant'Anna intervals: a zero standard error yields the finite interval
[est, est] beside NaN test fields. -/
theorem C17_cs_interval_refuted (D : Dist K) (est a : K) :
    (csFields D (.fin est) (.fin 0) a).2.2 = (.fin est, .fin est) := by
  simp only [csFields, confInt_fin, mul_zero, sub_zero, add_zero]

/-! ### C67 -/

/-- C67. Passing a positive `df` uses that many degrees of freedom, whatever was fitted. -/
theorem C67_df_argument_partial (tD : Int → Dist K) (nD : Dist K) (coef se : Ext K) (a : K) (d : Int)
    (hd : 0 < d) (dfFit : Option Int) :
    (getInference tD nD coef se none a (some d) dfFit).df = some d ∧
    (getInference tD nD coef se none a (some d) dfFit).p = pValue (tD d) (tStat coef se) := by
  have : effectiveDf (some d) dfFit = some d := by simp [effectiveDf, not_le.2 hd]
  constructor
  · exact this
  · show pValue (pick tD nD (effectiveDf (some d) dfFit)) _ = _
    rw [this]; simp [pick, hd]

/-- C67. Non-positive degrees of freedom, passed or fitted, fall back to the normal distribution and are
reported as none. -/
theorem C67_nonpositive_df_normal (tD : Int → Dist K) (nD : Dist K) (coef se : Ext K) (a : K) (d : Int)
    (hd : d ≤ 0) (dfFit : Option Int) :
    (getInference tD nD coef se none a (some d) dfFit).df = none ∧
    (getInference tD nD coef se none a (some d) dfFit).p = pValue nD (tStat coef se) ∧
    (getInference tD nD coef se none a none (some d)).df = none ∧
    (getInference tD nD coef se none a none (some d)).ci = confInt nD coef se a := by
  have h1 : effectiveDf (some d) dfFit = none := by simp [effectiveDf, hd]
  have h2 : effectiveDf none (some d) = none := by simp [effectiveDf, hd]
  refine ⟨h1, ?_, h2, ?_⟩
  · show pValue (pick tD nD (effectiveDf (some d) dfFit)) _ = _
    rw [h1]; rfl
  · show confInt (pick tD nD (effectiveDf none (some d))) _ _ _ = _
    rw [h2]; rfl

/-- C67 is false: the documented way to ask for the normal distribution, `df=None`, is
indistinguishable from the default, so after every fit with positive degrees of freedom the t
distribution is used. -/
theorem C67_df_none_refuted (tD : Int → Dist K) (nD : Dist K) (coef se : Ext K) (a : K) (d : Int)
    (hd : 0 < d) :
    (getInference tD nD coef se none a none (some d)).df = some d ∧
    (getInference tD nD coef se none a none (some d)).p = pValue (tD d) (tStat coef se) := by
  have : effectiveDf none (some d) = some d := by simp [effectiveDf, not_le.2 hd]
  constructor
  · exact this
  · show pValue (pick tD nD (effectiveDf none (some d))) _ = _
    rw [this]; simp [pick, hd]

/-! ### C68 -/

/-- C68. If the two reference distributions of TROP had the same quantile at alpha, its p-value and
interval would agree. -/
theorem C68_same_distribution_partial (D : Dist K) (h : Symmetric D) (c s a : K) (hs : 0 < s)
    (h0 : 0 < a) (h1 : a < 1) :
    (∃ p, (tropFields D D (.fin c) (.fin s) a).2.1 = .fin p ∧
      (p < a ↔ ¬ Contains (tropFields D D (.fin c) (.fin s) a).2.2 0)) := by
  refine ⟨2 * D.sf |c / s|, ?_, ?_⟩
  · simp [tropFields, Ext.lt, hs, Ext.div, hs.ne', pValue, Ext.abs, Dist.sfE, Ext.mul, mul_comm]
  · rw [duality h c s a hs h0 h1]
    simp only [tropFields, Ext.lt, hs, decide_true, if_true, confInt_fin]
    unfold Contains
    constructor
    · rintro hx ⟨lo, hi, he, hl, hr⟩
      simp only [Prod.mk.injEq, Ext.fin.injEq] at he
      exact hx ⟨he.1 ▸ hl, he.2 ▸ hr⟩
    · intro hx hh; exact hx ⟨_, _, rfl, hh.1, hh.2⟩

/-- C68 is false: whenever the t distribution has heavier tails than the normal at its critical value,
there are estimates for which the interval excludes zero although p ≥ alpha. -/
theorem C68_interval_contradicts_p_refuted (tD nD : Dist K) (ht : Symmetric tD) (hn : Symmetric nD)
    (a : K) (h0 : 0 < a) (h1 : a < 1) (heavy : nD.ppf (1 - a / 2) < tD.ppf (1 - a / 2)) :
    ∃ c s : K, 0 < s ∧ ∃ p, (tropFields tD nD (.fin c) (.fin s) a).2.1 = .fin p ∧ a ≤ p ∧
      ¬ Contains (tropFields tD nD (.fin c) (.fin s) a).2.2 0 := by
  have hq := ppf_pos ht h0 h1
  have hqn := ppf_pos hn h0 h1
  refine ⟨tD.ppf (1 - a / 2), 1, one_pos, 2 * tD.sf (tD.ppf (1 - a / 2)), ?_, ?_, ?_⟩
  · simp [tropFields, Ext.lt, Ext.div, pValue, Ext.abs, Dist.sfE, Ext.mul, mul_comm, abs_of_pos hq]
  · rw [ht.inv _ (by linarith) (by linarith)]; linarith
  · simp only [tropFields, Ext.lt, zero_lt_one, decide_true, if_true, confInt_fin, mul_one]
    rintro ⟨lo, hi, he, hl, hr⟩
    simp only [Prod.mk.injEq, Ext.fin.injEq] at he
    linarith [he.1]

/-! ### A concrete symmetric distribution (double Pareto tails), so the hypotheses are satisfiable -/

/-- sf(x) = 1/(2(1+x)) for x ≥ 0, symmetric. Scale `w` spreads the tails. -/
def exDist (w : ℚ) : Dist ℚ where
  sf x := if 0 ≤ x then 1 / (2 * (1 + x / w)) else 1 - 1 / (2 * (1 - x / w))
  ppf p := if 1 / 2 ≤ p then w * (1 / (2 * (1 - p)) - 1) else - (w * (1 / (2 * p) - 1))

theorem exDist_symm (w : ℚ) (hw : 0 < w) : Symmetric (exDist w) := by
  constructor
  · intro x y hxy
    simp only [exDist]
    have hd : x / w < y / w := div_lt_div_of_pos_right hxy hw
    split_ifs with h1 h2 h2
    · have hx : 0 ≤ x / w := div_nonneg h2 hw.le
      apply one_div_lt_one_div_of_lt <;> linarith
    · have hy : 0 ≤ y / w := div_nonneg h1 hw.le
      have hx : x / w < 0 := div_neg_of_neg_of_pos (not_le.1 h2) hw
      have a1 : 1 / (2 * (1 + y / w)) ≤ 1 / 2 := by
        apply one_div_le_one_div_of_le <;> linarith
      have a2 : 1 / (2 * (1 - x / w)) < 1 / 2 := by
        apply one_div_lt_one_div_of_lt <;> linarith
      linarith
    · exact absurd (h2.trans hxy.le) h1
    · have hy : y / w < 0 := div_neg_of_neg_of_pos (not_le.1 h1) hw
      have : 1 / (2 * (1 - x / w)) < 1 / (2 * (1 - y / w)) := by
        apply one_div_lt_one_div_of_lt <;> linarith
      linarith
  · simp [exDist]
  · intro x
    simp only [exDist]
    split_ifs with h
    · have : 0 ≤ x / w := div_nonneg h hw.le
      positivity
    · have hx : x / w < 0 := div_neg_of_neg_of_pos (not_le.1 h) hw
      have a2 : 1 / (2 * (1 - x / w)) < 1 / 2 := by
        apply one_div_lt_one_div_of_lt <;> linarith
      linarith
  · intro p h0 h1
    simp only [exDist]
    by_cases h : 1 / 2 ≤ p
    · have hp : 0 < 1 - p := by linarith
      have : 0 ≤ w * (1 / (2 * (1 - p)) - 1) := by
        apply mul_nonneg hw.le
        rw [sub_nonneg, le_div_iff₀ (by linarith)]; linarith
      rw [if_pos h, if_pos this]
      field_simp; ring
    · have h' := not_le.1 h
      have : ¬ (0 ≤ -(w * (1 / (2 * p) - 1))) := by
        rw [not_le, neg_lt_zero]
        apply mul_pos hw
        rw [sub_pos, lt_div_iff₀ (by linarith)]; linarith
      rw [if_neg h, if_neg this]
      field_simp; ring

/-- C17: an infinite standard error beside the estimate 3, at the 5% level. -/
example : (getInference (fun _ => exDist 2) (exDist 1) (.fin 3) .pinf none (1/20) none (some 7)).isSignificant (some (1/20)) = false ∧
    saFields (exDist 1) (.fin 3) .pinf (1/20) = (.fin 0, .fin 1, (.ninf, .pinf)) := by
  have h := C17_infinite_se (fun _ => exDist 2) (exDist 1) (fun _ => exDist_symm 2 (by norm_num)) (exDist_symm 1 (by norm_num)) (3 : ℚ) (1/20) (by norm_num) (by norm_num)
    none (some 7) 1 (1/20) (by norm_num)
  exact ⟨h.1.2.2.2.1, h.2.2.2⟩

/-- The hypotheses of C16 and C68 are met: t = exDist 2 has heavier tails than n = exDist 1. -/
example : Symmetric (exDist 2) ∧ Symmetric (exDist 1) ∧
    (exDist 1).ppf (1 - (1/20) / 2) < (exDist 2).ppf (1 - (1/20) / 2) :=
  ⟨exDist_symm 2 (by norm_num), exDist_symm 1 (by norm_num), by decide +kernel⟩
example : ((getInference (fun _ => exDist 2) (exDist 1) (.fin 100) (.fin 1) none (1/20) none (some 7)).ci
    = (.fin 62, .fin 138)) := by decide +kernel
example : Degenerate (Ext.nan : Ext ℚ) ∧ Degenerate (Ext.fin (0 : ℚ)) ∧ Degenerate (Ext.pinf : Ext ℚ) := by
  refine ⟨?_, ?_, ?_⟩ <;> intro s h <;> cases h
  exact le_refl _

end DiffDiff.Inference
