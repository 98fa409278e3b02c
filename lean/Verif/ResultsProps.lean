/-
Properties C52 (stars and significance), C53 (level printed by summary), C88 (exports carry the stored numbers),
C89 (weights printed by the synthetic DiD summary).
-/
import Verif.Results
import Verif.InferenceProps
import Mathlib.Tactic.NormNum
import Mathlib.Tactic.Linarith
import Mathlib.Tactic.FieldSimp
import Mathlib.Algebra.Order.Floor.Ring
import Mathlib.Data.Rat.Floor

set_option linter.unusedSectionVars false

namespace DiffDiff.Results

open Inference (Dist Symmetric Contains confInt)

variable {K : Type*} [Field K] [LinearOrder K] [IsStrictOrderedRing K]

/-! ### C52 -/

/-- Specification: the p-value is a number below `c` (negative infinity included). -/
def Below (p : Ext K) (c : K) : Prop := p = .ninf ∨ ∃ x, p = .fin x ∧ x < c

theorem lt_fin_iff (p : Ext K) (c : K) : Ext.lt p (.fin c) = true ↔ Below p c := by
  cases p <;> simp [Ext.lt, Below]

theorem below_mono {p : Ext K} {c d : K} (h : c ≤ d) : Below p c → Below p d := by
  rintro (h1 | ⟨x, h1, h2⟩)
  · exact Or.inl h1
  · exact Or.inr ⟨x, h1, lt_of_lt_of_le h2 h⟩

theorem below_le {p q : Ext K} {c : K} (h : Ext.le p q = true) : Below q c → Below p c := by
  rintro (rfl | ⟨x, rfl, h2⟩)
  · cases p <;> simp_all [Ext.le, Below]
  · cases p <;> simp_all [Ext.le, Below]
    exact lt_of_le_of_lt h h2

/-- C52. The mark shown is determined by four thresholds: strictly below 0.001, 0.01, 0.05, 0.1. -/
theorem C52_levels (p : Ext K) :
    (stars p = "***" ↔ Below p (1 / 1000)) ∧
    (stars p = "**" ↔ Below p (1 / 100) ∧ ¬ Below p (1 / 1000)) ∧
    (stars p = "*" ↔ Below p (1 / 20) ∧ ¬ Below p (1 / 100)) ∧
    (stars p = "." ↔ Below p (1 / 10) ∧ ¬ Below p (1 / 20)) ∧
    (stars p = "" ↔ ¬ Below p (1 / 10)) := by
  have m1 : Below p (1 / 1000) → Below p (1 / 100) := below_mono (by norm_num)
  have m2 : Below p (1 / 100) → Below p (1 / 20) := below_mono (by norm_num)
  have m3 : Below p (1 / 20) → Below p (1 / 10) := below_mono (by norm_num)
  by_cases hn : p = .nan
  · subst hn
    have : ∀ c : K, ¬ Below (.nan : Ext K) c := by intro c; simp [Below]
    simp [stars, Ext.isNan, this]
  · have hn' : p.isNan = false := by cases p <;> simp_all [Ext.isNan]
    have f1 := lt_fin_iff p (1 / 1000)
    have f2 := lt_fin_iff p (1 / 100)
    have f3 := lt_fin_iff p (1 / 20)
    have f4 := lt_fin_iff p (1 / 10)
    unfold stars
    rw [hn']
    rw [if_neg Bool.false_ne_true]
    generalize Ext.lt p (.fin (1 / 1000)) = b1 at *
    generalize Ext.lt p (.fin (1 / 100)) = b2 at *
    generalize Ext.lt p (.fin (1 / 20)) = b3 at *
    generalize Ext.lt p (.fin (1 / 10)) = b4 at *
    generalize Below p (1 / 1000) = B1 at *
    generalize Below p (1 / 100) = B2 at *
    generalize Below p (1 / 20) = B3 at *
    generalize Below p (1 / 10) = B4 at *
    cases b1 <;> cases b2 <;> cases b3 <;> cases b4 <;> simp_all

/-- Specification: strength of a mark. -/
def strength (s : String) : ℕ :=
  if s = "***" then 4 else if s = "**" then 3 else if s = "*" then 2 else if s = "." then 1 else 0

theorem strength_cases (p : Ext K) :
    (Below p (1 / 1000) ∧ strength (stars p) = 4) ∨
    (¬ Below p (1 / 1000) ∧ Below p (1 / 100) ∧ strength (stars p) = 3) ∨
    (¬ Below p (1 / 1000) ∧ ¬ Below p (1 / 100) ∧ Below p (1 / 20) ∧ strength (stars p) = 2) ∨
    (¬ Below p (1 / 1000) ∧ ¬ Below p (1 / 100) ∧ ¬ Below p (1 / 20) ∧ Below p (1 / 10) ∧ strength (stars p) = 1) ∨
    (¬ Below p (1 / 1000) ∧ ¬ Below p (1 / 100) ∧ ¬ Below p (1 / 20) ∧ ¬ Below p (1 / 10) ∧ strength (stars p) = 0) := by
  obtain ⟨p1, p2, p3, p4, p5⟩ := C52_levels p
  by_cases h1 : Below p (1 / 1000)
  · exact Or.inl ⟨h1, by rw [p1.2 h1]; decide⟩
  by_cases h2 : Below p (1 / 100)
  · exact Or.inr (Or.inl ⟨h1, h2, by rw [p2.2 ⟨h2, h1⟩]; decide⟩)
  by_cases h3 : Below p (1 / 20)
  · exact Or.inr (Or.inr (Or.inl ⟨h1, h2, h3, by rw [p3.2 ⟨h3, h2⟩]; decide⟩))
  by_cases h4 : Below p (1 / 10)
  · exact Or.inr (Or.inr (Or.inr (Or.inl ⟨h1, h2, h3, h4, by rw [p4.2 ⟨h4, h3⟩]; decide⟩)))
  · exact Or.inr (Or.inr (Or.inr (Or.inr ⟨h1, h2, h3, h4, by rw [p5.2 h4]; decide⟩)))

/-- C52. Monotone: a smaller p-value never gets a weaker mark. -/
theorem C52_monotone (p q : Ext K) (h : Ext.le p q = true) : strength (stars q) ≤ strength (stars p) := by
  have b1 : Below q (1 / 1000) → Below p (1 / 1000) := below_le h
  have b2 : Below q (1 / 100) → Below p (1 / 100) := below_le h
  have b3 : Below q (1 / 20) → Below p (1 / 20) := below_le h
  have b4 : Below q (1 / 10) → Below p (1 / 10) := below_le h
  rcases strength_cases p with ⟨p1, e⟩ | ⟨p1, p2, e⟩ | ⟨p1, p2, p3, e⟩ | ⟨p1, p2, p3, p4, e⟩ | ⟨p1, p2, p3, p4, e⟩ <;>
  rcases strength_cases q with ⟨q1, f⟩ | ⟨q1, q2, f⟩ | ⟨q1, q2, q3, f⟩ | ⟨q1, q2, q3, q4, f⟩ | ⟨q1, q2, q3, q4, f⟩ <;>
  first
    | omega
    | exact absurd (b1 q1) p1
    | exact absurd (b2 q2) p2
    | exact absurd (b3 q3) p3
    | exact absurd (b4 q4) p4

theorem star_mem (p : Ext K) : '*' ∈ (stars p).toList ↔ Below p (1 / 20) := by
  obtain ⟨p1, p2, p3, p4, p5⟩ := C52_levels p
  have m1 : Below p (1 / 1000) → Below p (1 / 20) := below_mono (by norm_num)
  have m2 : Below p (1 / 100) → Below p (1 / 20) := below_mono (by norm_num)
  by_cases h1 : Below p (1 / 1000)
  · rw [p1.2 h1]; exact iff_of_true (by decide) (m1 h1)
  by_cases h2 : Below p (1 / 100)
  · rw [p2.2 ⟨h2, h1⟩]; exact iff_of_true (by decide) (m2 h2)
  by_cases h3 : Below p (1 / 20)
  · rw [p3.2 ⟨h3, h2⟩]; exact iff_of_true (by decide) h3
  by_cases h4 : Below p (1 / 10)
  · rw [p4.2 ⟨h4, h3⟩]; exact iff_of_false (by decide) h3
  · rw [p5.2 h4]; exact iff_of_false (by decide) h3

/-- C52. For a result fitted at alpha = 0.05, `is_significant` holds exactly when at least one `*` is shown; for a period or
group-time effect this holds whatever level was used in the fit. -/
theorem C52_significant (r : Head K) (e : Eff K) :
    (r.alpha = 1 / 20 → (r.isSignificant = true ↔ '*' ∈ r.significanceStars.toList)) ∧
    (e.isSignificant = true ↔ '*' ∈ (stars e.p).toList) := by
  refine ⟨fun h => ?_, ?_⟩
  · unfold Head.isSignificant Head.significanceStars
    rw [star_mem, h, lt_fin_iff]
  · unfold Eff.isSignificant
    rw [star_mem, lt_fin_iff]

/-- C52. A NaN p-value shows no mark and is never significant, at any level. -/
theorem C52_nan (r : Head K) (h : r.p = .nan) :
    r.significanceStars = "" ∧ r.isSignificant = false ∧ r.toEff.isSignificant = false := by
  simp [Head.significanceStars, stars, Head.isSignificant, Eff.isSignificant, h, Ext.isNan, Ext.lt]

/-- C52, what fails: the flag of a period effect ignores the level of the fit. For every level `a` different from 5% there is
an effect, with its t statistic, p-value and interval all computed at level `a`, whose flag contradicts its own interval:
significant although the interval contains zero (a < 5%), or not significant although it excludes zero (a > 5%). -/
theorem C52_period_level_refuted (D : Dist K) (hD : Symmetric D) (a : K) (h0 : 0 < a) (h1 : a < 1) (ha : a ≠ 1 / 20) :
    ∃ e : Eff K, ∃ c : K, e.est = .fin c ∧ e.se = .fin 1 ∧ e.t = .fin c ∧ e.p = Inference.pValue D (.fin c) ∧
      e.ci = confInt D (.fin c) (.fin 1) a ∧ ¬ (e.isSignificant = true ↔ ¬ Contains e.ci 0) := by
  obtain ⟨b, hb⟩ : ∃ b, b = (a + 1 / 20) / 2 := ⟨_, rfl⟩
  have hb0 : 0 < b := by rw [hb]; linarith
  have hb1 : b < 1 := by rw [hb]; linarith
  obtain ⟨c, hc⟩ : ∃ c, c = D.ppf (1 - b / 2) := ⟨_, rfl⟩
  have hcp : 0 < c := hc ▸ Inference.ppf_pos hD hb0 hb1
  have hsf : D.sf c = b / 2 := by
    rw [hc, hD.inv _ (by linarith) (by linarith)]; ring
  have hp : Inference.pValue D (.fin c) = .fin b := by
    simp only [Inference.pValue, Ext.abs, Inference.Dist.sfE, abs_of_pos hcp, hsf, Ext.mul]
    congr 1; ring
  refine ⟨⟨.fin c, .fin 1, .fin c, .fin b, confInt D (.fin c) (.fin 1) a⟩, c, rfl, rfl, rfl, hp.symm, rfl, ?_⟩
  have hdu := Inference.duality hD c 1 a one_pos h0 h1
  rw [div_one, abs_of_pos hcp, hsf] at hdu
  have hcon : Contains (confInt D (.fin c) (.fin 1) a) 0 ↔
      (c - D.ppf (1 - a / 2) * 1 ≤ 0 ∧ 0 ≤ c + D.ppf (1 - a / 2) * 1) := by
    rw [Inference.confInt_fin]
    constructor
    · rintro ⟨lo, hi, he, h3, h4⟩
      simp only [Prod.mk.injEq, Ext.fin.injEq] at he
      exact ⟨he.1 ▸ h3, he.2 ▸ h4⟩
    · rintro ⟨h3, h4⟩
      exact ⟨_, _, rfl, h3, h4⟩
  simp only [Eff.isSignificant, Ext.lt, decide_eq_true_eq]
  rw [hcon, ← hdu]
  rcases lt_or_gt_of_ne ha with hlt | hgt
  · intro h
    have h2 := h.1 (by rw [hb]; linarith)
    rw [hb] at h2; linarith
  · intro h
    have h2 := h.2 (by rw [hb]; linarith)
    rw [hb] at h2; linarith

/-! ### C53 -/

section level
variable [FloorRing K]

/-- Specification: the interval is the level-L% interval of the estimate. -/
def AtLevel (D : Dist K) (est se : K) (lo hi : Ext K) (L : ℤ) : Prop :=
  (lo, hi) = confInt D (.fin est) (.fin se) (1 - (L : K) / 100)

theorem ppf_inj {D : Dist K} (h : Symmetric D) {a b : K} (ha : 0 < a) (ha1 : a < 1) (hb : 0 < b) (hb1 : b < 1)
    (he : D.ppf (1 - a / 2) = D.ppf (1 - b / 2)) : a = b := by
  have e1 := h.inv (1 - a / 2) (by linarith) (by linarith)
  have e2 := h.inv (1 - b / 2) (by linarith) (by linarith)
  rw [he, e2] at e1
  linarith

theorem atLevel_iff {D : Dist K} (h : Symmetric D) {c s a : K} (hs : 0 < s) (h0 : 0 < a) (h1 : a < 1) {L : ℤ}
    (hL0 : 0 < L) (hL1 : L < 100) (ci : Ext K × Ext K) (hci : ci = confInt D (.fin c) (.fin s) a) :
    AtLevel D c s ci.1 ci.2 L ↔ (L : K) = (1 - a) * 100 := by
  have hLK0 : (0 : K) < L := by exact_mod_cast hL0
  have hLK1 : (L : K) < 100 := by exact_mod_cast hL1
  unfold AtLevel
  rw [hci, Inference.confInt_fin, Inference.confInt_fin]
  simp only [Prod.mk.injEq, Ext.fin.injEq]
  constructor
  · rintro ⟨e1, -⟩
    have e2 : D.ppf (1 - a / 2) = D.ppf (1 - (1 - (L : K) / 100) / 2) := by
      have : D.ppf (1 - a / 2) * s = D.ppf (1 - (1 - (L : K) / 100) / 2) * s := by linarith
      exact mul_right_cancel₀ hs.ne' this
    have hq : (L : K) / 100 < 1 := by rw [div_lt_one (by norm_num)]; exact hLK1
    have hq0 : 0 < (L : K) / 100 := div_pos hLK0 (by norm_num)
    have := ppf_inj h h0 h1 (by linarith) (by linarith) e2
    have h3 : (L : K) / 100 = 1 - a := by linarith
    rw [div_eq_iff (by norm_num)] at h3
    exact h3
  · intro e
    have : 1 - (L : K) / 100 = a := by rw [e]; field_simp; ring
    rw [this]; exact ⟨rfl, rfl⟩

theorem confLevel_eq (a : K) (h1 : a ≤ 1) : confLevel a = ⌊(1 - a) * 100⌋ := by
  unfold confLevel
  have : (0 : K) ≤ (1 - a) * 100 := mul_nonneg (by linarith) (by norm_num)
  simp only
  rw [if_pos this]

theorem headLines_ci {P : Type*} (name : String) (r : Head K) (arg : Option K) (L : ℤ) (lo hi : Ext K) :
    (Line.ci L lo hi : Line P K) ∈ headLines name r arg ↔ L = confLevel (effAlpha arg r.alpha) ∧ lo = r.ci.1 ∧ hi = r.ci.2 := by
  simp [headLines]

theorem did_ci {P : Type*} (r : DiD K) (arg : Option K) (L : ℤ) (lo hi : Ext K) :
    (Line.ci L lo hi : Line P K) ∈ r.summary arg ↔ L = confLevel (effAlpha arg r.alpha) ∧ lo = r.ci.1 ∧ hi = r.ci.2 := by
  unfold DiD.summary
  simp only [List.mem_append, headLines_ci]
  rcases r.rSquared with _ | x <;> rcases r.nBootstrap with _ | n <;> rcases r.nClusters with _ | m <;>
    by_cases hm : r.method = "analytical" <;> simp [hm]

theorem weightLines_ci {U : Type*} (w : List (U × K)) (L : ℤ) (lo hi : Ext K) :
    (Line.ci L lo hi : Line U K) ∉ weightLines w := by
  unfold weightLines
  split_ifs
  · simp
  · simp

theorem sdid_ci {U : Type*} [DecidableEq U] (r : Sdid U K) (arg : Option K) (L : ℤ) (lo hi : Ext K) :
    (Line.ci L lo hi : Line U K) ∈ r.summary arg ↔ L = confLevel (effAlpha arg r.alpha) ∧ lo = r.ci.1 ∧ hi = r.ci.2 := by
  unfold Sdid.summary
  have hw := weightLines_ci r.weights L lo hi
  simp only [List.mem_append, headLines_ci, hw]
  rcases r.lam with _ | x <;> rcases r.fit with _ | y <;> rcases r.nBootstrap with _ | n <;>
    by_cases hm : r.method = "bootstrap" <;> simp [hm]

theorem mapM_some {A B : Type*} (f : A → Option B) : ∀ (l : List A) (r : List B), l.mapM f = some r ↔
    List.Forall₂ (fun a b => f a = some b) l r
  | [], r => by
    simp only [List.mapM_nil]
    cases r <;> simp [pure]
  | a :: l, r => by
    rw [List.mapM_cons]
    have ih := mapM_some f l
    cases ha : f a with
    | none =>
      constructor
      · intro h; simp at h
      · intro h; cases h with
        | cons h1 _ => rw [ha] at h1; exact (nomatch h1)
    | some b =>
      cases hl : l.mapM f with
      | none =>
        constructor
        · intro h; simp [hl] at h
        · intro h; cases h with
          | cons h1 h2 => rw [(ih _).2 h2] at hl; exact (nomatch hl)
      | some bs =>
        simp only [Option.bind_eq_bind, Option.bind_some, hl, Option.pure_def, Option.some.injEq]
        constructor
        · rintro rfl; exact List.Forall₂.cons ha ((ih _).1 hl)
        · intro h
          cases h with
          | cons h1 h2 =>
            rw [ha] at h1
            have := (ih _).2 h2
            rw [hl] at this
            simp_all

theorem multi_ci {P : Type*} [DecidableEq P] (r : Multi P K) (arg : Option K) (out : List (Line P K)) (h : r.summary arg = some out)
    (L : ℤ) (lo hi : Ext K) :
    Line.ci L lo hi ∈ out ↔ L = confLevel (effAlpha arg r.alpha) ∧ lo = r.ci.1 ∧ hi = r.ci.2 := by
  unfold Multi.summary at h
  cases hm : r.post.mapM (fun p => (dictGet r.effects p).map (periodRow p)) with
  | none => rw [hm] at h; exact (nomatch h)
  | some rows =>
    rw [hm] at h
    simp only [Option.some.injEq] at h
    have hrow : Line.ci L lo hi ∉ rows := by
      intro hc
      have hf := (mapM_some _ _ _).1 hm
      obtain ⟨i, hi', he⟩ := List.mem_iff_getElem.1 hc
      have := (List.forall₂_iff_get.1 hf).2 i (hf.length_eq ▸ hi') hi'
      simp only [List.get_eq_getElem, he, Option.map_eq_some_iff] at this
      obtain ⟨e, -, h2⟩ := this
      simp [periodRow] at h2
    rw [← h]
    simp only [List.mem_append, headLines_ci, hrow]
    rcases r.rSquared with _ | x <;> simp

/-- The interval lines printed by the three summaries. -/
inductive Prints {P : Type*} [DecidableEq P] (arg : Option K) : Head K → List (Line P K) → Prop
  | did (r : DiD K) : Prints arg r.toHead (r.summary arg)
  | multi (r : Multi P K) (out) (h : r.summary arg = some out) : Prints arg r.toHead out
  | sdid (r : Sdid P K) : Prints arg r.toHead (r.summary arg)

theorem prints_ci {P : Type*} [DecidableEq P] {arg : Option K} {r : Head K} {out : List (Line P K)} (h : Prints arg r out)
    (L : ℤ) (lo hi : Ext K) :
    Line.ci L lo hi ∈ out ↔ L = confLevel (effAlpha arg r.alpha) ∧ lo = r.ci.1 ∧ hi = r.ci.2 := by
  cases h with
  | did r => exact did_ci r arg L lo hi
  | multi r out h => exact multi_ci r arg out h L lo hi
  | sdid r => exact sdid_ci r arg L lo hi

/-- C53, partial. Printed at the level of the fit (no argument, 0, or the same alpha) and with a whole percentage: every
interval line of the summary carries the level of its interval, and there is one. What is missing: any other argument, and
levels such as 97.5%. -/
theorem C53_default_partial {P : Type*} [DecidableEq P] (D : Dist K) (c s : K) (r : Head K) (out : List (Line P K)) (arg : Option K)
    (h : Prints arg r out) (harg : arg = none ∨ arg = some 0 ∨ arg = some r.alpha) (h1 : r.alpha ≤ 1) (n : ℤ)
    (hn : (1 - r.alpha) * 100 = (n : K)) (hci : r.ci = confInt D (.fin c) (.fin s) r.alpha) :
    (∃ lo hi, Line.ci n lo hi ∈ out) ∧ ∀ L lo hi, Line.ci L lo hi ∈ out → AtLevel D c s lo hi L := by
  have he : effAlpha arg r.alpha = r.alpha := by
    rcases harg with rfl | rfl | rfl <;> simp [effAlpha]
  have hL : confLevel (effAlpha arg r.alpha) = n := by
    rw [he, confLevel_eq _ h1, hn, Int.floor_intCast]
  refine ⟨⟨_, _, (prints_ci h _ _ _).2 ⟨hL.symm, rfl, rfl⟩⟩, ?_⟩
  intro L lo hi hm
  obtain ⟨e1, e2, e3⟩ := (prints_ci h L lo hi).1 hm
  rw [hL] at e1
  unfold AtLevel
  rw [e2, e3, hci, e1, ← hn]
  have : 1 - (1 - r.alpha) * 100 / 100 = r.alpha := by field_simp; ring
  rw [this]

/-- C53, what fails: `summary(alpha)` only changes the printed level. For every fit and every requested level the printed
interval is the stored one, so whenever the printed whole percentage differs from the level of the fit the line is wrong.
This includes levels of the fit which are not whole percentages, with no argument at all. -/
theorem C53_refuted {P : Type*} [DecidableEq P] (D : Dist K) (hD : Symmetric D) (c s : K) (hs : 0 < s) (r : Head K)
    (out : List (Line P K)) (arg : Option K) (h : Prints arg r out) (h0 : 0 < r.alpha) (h1 : r.alpha < 1)
    (hci : r.ci = confInt D (.fin c) (.fin s) r.alpha) (L : ℤ) (hL : L = ⌊(1 - effAlpha arg r.alpha) * 100⌋)
    (hL0 : 0 < L) (hL1 : L < 100) (hne : (L : K) ≠ (1 - r.alpha) * 100) :
    ∃ lo hi, Line.ci L lo hi ∈ out ∧ ¬ AtLevel D c s lo hi L := by
  refine ⟨r.ci.1, r.ci.2, (prints_ci h _ _ _).2 ⟨?_, rfl, rfl⟩, ?_⟩
  · rw [hL, confLevel_eq]
    have : (1 : K) ≤ (1 - effAlpha arg r.alpha) * 100 := by
      have h2 := Int.floor_le ((1 - effAlpha arg r.alpha) * 100)
      rw [← hL] at h2
      have h3 : (1 : K) ≤ L := by exact_mod_cast hL0
      exact le_trans h3 h2
    linarith
  · rw [atLevel_iff hD hs h0 h1 hL0 hL1 r.ci hci]
    exact hne

/-! ### C88: exports -/

theorem get_set_same {V : Type*} (l : List (String × V)) (k : String) (v : V) : dictGet (dictSet l k v) k = some v := by
  induction l with
  | nil => simp [dictSet, dictGet]
  | cons x l ih =>
    obtain ⟨k', v'⟩ := x
    unfold dictSet
    split_ifs with h
    · simp [dictGet, h]
    · simp [dictGet, h, ih]

theorem get_set_ne {V : Type*} (l : List (String × V)) (k k2 : String) (v : V) (hne : k2 ≠ k) :
    dictGet (dictSet l k v) k2 = dictGet l k2 := by
  induction l with
  | nil => simp [dictSet, dictGet, hne.symm]
  | cons x l ih =>
    obtain ⟨k', v'⟩ := x
    unfold dictSet
    split_ifs with h
    · subst h; simp [dictGet, hne.symm]
    · simp [dictGet, ih]

/-- C88. The dictionary of a basic result carries the stored numbers; the bootstrap and cluster counts are present exactly
when they are set. -/
theorem C88_did_dict (r : DiD K) :
    dictGet r.toDict "att" = some (.num r.est) ∧ dictGet r.toDict "se" = some (.num r.se) ∧
    dictGet r.toDict "t_stat" = some (.num r.t) ∧ dictGet r.toDict "p_value" = some (.num r.p) ∧
    dictGet r.toDict "conf_int_lower" = some (.num r.ci.1) ∧ dictGet r.toDict "conf_int_upper" = some (.num r.ci.2) ∧
    dictGet r.toDict "n_obs" = some (.int r.nObs) ∧ dictGet r.toDict "n_treated" = some (.int r.nTreated) ∧
    dictGet r.toDict "n_control" = some (.int r.nControl) ∧ dictGet r.toDict "inference_method" = some (.str r.method) ∧
    dictGet r.toDict "n_bootstrap" = r.nBootstrap.map .int ∧ dictGet r.toDict "n_clusters" = r.nClusters.map .int ∧
    (∀ x, r.rSquared = some x → dictGet r.toDict "r_squared" = some (.num x)) ∧
    (r.rSquared = none → dictGet r.toDict "r_squared" = some .none) := by
  rcases hr : r.rSquared with _ | x <;> rcases hb : r.nBootstrap with _ | n <;> rcases hc : r.nClusters with _ | m <;>
    simp [DiD.toDict, hb, hc, hr, dictSet, dictGet, optNum]

/-- The keys of one period. -/
def keys (s : String) : List String := ["effect_period_" ++ s, "se_period_" ++ s, "pval_period_" ++ s]

theorem key_inj (a s t : String) : a ++ s = a ++ t ↔ s = t := by
  constructor
  · intro h
    have := congrArg String.toList h
    simp only [String.toList_append, List.append_cancel_left_eq] at this
    exact String.toList_inj.1 this
  · rintro rfl; rfl

theorem key_es (s t : String) : "effect_period_" ++ s ≠ "se_period_" ++ t := by
  intro h; have := congrArg String.toList h; simp at this
theorem key_ep (s t : String) : "effect_period_" ++ s ≠ "pval_period_" ++ t := by
  intro h; have := congrArg String.toList h; simp at this
theorem key_sp (s t : String) : "se_period_" ++ s ≠ "pval_period_" ++ t := by
  intro h; have := congrArg String.toList h; simp at this

variable {P : Type*}

/-- One step of the export. -/
def put (str : P → String) (d : List (String × Val K)) (pe : P × Eff K) : List (String × Val K) :=
  dictSet (dictSet (dictSet d ("effect_period_" ++ str pe.1) (.num pe.2.est))
        ("se_period_" ++ str pe.1) (.num pe.2.se)) ("pval_period_" ++ str pe.1) (.num pe.2.p)

theorem put_ne (str : P → String) (d : List (String × Val K)) (pe : P × Eff K) (k : String) (hk : k ∉ keys (str pe.1)) :
    dictGet (put str d pe) k = dictGet d k := by
  simp only [keys, List.mem_cons, List.not_mem_nil, or_false, not_or] at hk
  unfold put
  rw [get_set_ne _ _ _ _ hk.2.2, get_set_ne _ _ _ _ hk.2.1, get_set_ne _ _ _ _ hk.1]

theorem fold_ne (str : P → String) (k : String) : ∀ (l : List (P × Eff K)) (d : List (String × Val K)),
    (∀ pe ∈ l, k ∉ keys (str pe.1)) → dictGet (l.foldl (put str) d) k = dictGet d k
  | [], _, _ => rfl
  | pe :: l, d, h => by
    rw [List.foldl_cons, fold_ne str k l _ (fun x hx => h x (List.mem_cons_of_mem _ hx)), put_ne str d pe k (h pe (by simp))]

theorem put_get (str : P → String) (d : List (String × Val K)) (pe : P × Eff K) :
    dictGet (put str d pe) ("effect_period_" ++ str pe.1) = some (.num pe.2.est) ∧
    dictGet (put str d pe) ("se_period_" ++ str pe.1) = some (.num pe.2.se) ∧
    dictGet (put str d pe) ("pval_period_" ++ str pe.1) = some (.num pe.2.p) := by
  unfold put
  refine ⟨?_, ?_, get_set_same _ _ _⟩
  · rw [get_set_ne _ _ _ _ (key_ep _ _), get_set_ne _ _ _ _ (key_es _ _), get_set_same]
  · rw [get_set_ne _ _ _ _ (key_sp _ _), get_set_same]

/-- The last entry with the printed name of `p` wins. -/
theorem fold_last (str : P → String) (pre suf : List (P × Eff K)) (p : P) (e : Eff K) (d : List (String × Val K))
    (hs : ∀ x ∈ suf, str x.1 ≠ str p) :
    let out := (pre ++ (p, e) :: suf).foldl (put str) d
    dictGet out ("effect_period_" ++ str p) = some (.num e.est) ∧
    dictGet out ("se_period_" ++ str p) = some (.num e.se) ∧ dictGet out ("pval_period_" ++ str p) = some (.num e.p) := by
  intro out
  have ho : out = suf.foldl (put str) (put str (pre.foldl (put str) d) (p, e)) := by
    simp only [out, List.foldl_append, List.foldl_cons]
  obtain ⟨g1, g2, g3⟩ := put_get str (pre.foldl (put str) d) (p, e)
  rw [ho]
  have hk : ∀ x ∈ suf, ∀ s : String, s ∈ keys (str p) → s ∉ keys (str x.1) := by
    intro x hx s hsm hc
    have hne := hs x hx
    simp only [keys, List.mem_cons, List.not_mem_nil, or_false] at hsm hc
    rcases hsm with rfl | rfl | rfl <;> rcases hc with hc | hc | hc
    · exact hne ((key_inj _ _ _).1 hc).symm
    · exact key_es _ _ hc
    · exact key_ep _ _ hc
    · exact key_es _ _ hc.symm
    · exact hne ((key_inj _ _ _).1 hc).symm
    · exact key_sp _ _ hc
    · exact key_ep _ _ hc.symm
    · exact key_sp _ _ hc.symm
    · exact hne ((key_inj _ _ _).1 hc).symm
  rw [fold_ne, fold_ne, fold_ne]
  · exact ⟨g1, g2, g3⟩
  all_goals intro x hx; exact hk x hx _ (by simp [keys])

theorem dictGet_mem {A V : Type*} [DecidableEq A] : ∀ (l : List (A × V)) (k : A) (v : V), dictGet l k = some v → (k, v) ∈ l
  | (k', v') :: l, k, v, h => by
    unfold dictGet at h
    split_ifs at h with hk
    · simp only [Option.some.injEq] at h; subst h; subst hk; simp
    · exact List.mem_cons_of_mem _ (dictGet_mem l k v h)

theorem dictGet_none {A V : Type*} [DecidableEq A] : ∀ (l : List (A × V)) (k : A), dictGet l k = none ↔ ∀ x ∈ l, x.1 ≠ k
  | [], k => by simp [dictGet]
  | (k', v') :: l, k => by
    unfold dictGet
    split_ifs with hk
    · simp [hk]
    · rw [dictGet_none l k]; simp [hk]

theorem dictGet_of_mem {A V : Type*} [DecidableEq A] : ∀ (l : List (A × V)) (k : A) (v : V), (l.map Prod.fst).Nodup → (k, v) ∈ l →
    dictGet l k = some v
  | (k', v') :: l, k, v, hn, h => by
    rw [List.map_cons, List.nodup_cons] at hn
    unfold dictGet
    rcases List.mem_cons.1 h with h | h
    · cases h; simp
    · have : k' ≠ k := by
        rintro rfl
        exact hn.1 (List.mem_map.2 ⟨_, h, rfl⟩)
      rw [if_neg this]
      exact dictGet_of_mem l k v hn.2 h

/-- C88. When different periods print differently, the dictionary of a multi-period result returns, for every period, the
effect, standard error and p-value that `get_effect` returns; the headline entries are those of the average effect. -/
theorem C88_multi_dict [DecidableEq P] (str : P → String) (r : Multi P K)
    (hn : (r.effects.map (fun x => str x.1)).Nodup) :
    (∀ p e, r.getEffect p = some e →
      dictGet (r.toDict str) ("effect_period_" ++ str p) = some (.num e.est) ∧
      dictGet (r.toDict str) ("se_period_" ++ str p) = some (.num e.se) ∧
      dictGet (r.toDict str) ("pval_period_" ++ str p) = some (.num e.p)) ∧
    dictGet (r.toDict str) "avg_att" = some (.num r.est) ∧ dictGet (r.toDict str) "avg_se" = some (.num r.se) ∧
    dictGet (r.toDict str) "avg_t_stat" = some (.num r.t) ∧ dictGet (r.toDict str) "avg_p_value" = some (.num r.p) ∧
    dictGet (r.toDict str) "avg_conf_int_lower" = some (.num r.ci.1) ∧
    dictGet (r.toDict str) "avg_conf_int_upper" = some (.num r.ci.2) ∧
    dictGet (r.toDict str) "n_obs" = some (.int r.nObs) ∧
    dictGet (r.toDict str) "n_pre_periods" = some (.int r.pre.length) ∧
    dictGet (r.toDict str) "n_post_periods" = some (.int r.post.length) ∧
    dictGet (r.toDict str) "n_treated" = some (.int r.nTreated) ∧ dictGet (r.toDict str) "n_control" = some (.int r.nControl) ∧
    (∀ x, r.rSquared = some x → dictGet (r.toDict str) "r_squared" = some (.num x)) ∧
    (r.rSquared = none → dictGet (r.toDict str) "r_squared" = some .none) := by
  refine ⟨?_, ?_⟩
  · intro p e he
    have hm := dictGet_mem _ _ _ he
    obtain ⟨pre, suf, hl⟩ := List.append_of_mem hm
    have hs : ∀ x ∈ suf, str x.1 ≠ str p := by
      rw [hl] at hn
      simp only [List.map_append, List.map_cons] at hn
      have := (List.nodup_append.1 hn).2.1
      rw [List.nodup_cons] at this
      intro x hx hc
      exact this.1 (List.mem_map.2 ⟨x, hx, hc⟩)
    have := fold_last str pre suf p e
      [("avg_att", Val.num r.est), ("avg_se", .num r.se), ("avg_t_stat", .num r.t), ("avg_p_value", .num r.p),
      ("avg_conf_int_lower", .num r.ci.1), ("avg_conf_int_upper", .num r.ci.2), ("n_obs", .int r.nObs),
      ("n_treated", .int r.nTreated), ("n_control", .int r.nControl), ("n_pre_periods", .int r.pre.length),
      ("n_post_periods", .int r.post.length), ("r_squared", optNum r.rSquared)] hs
    rw [← hl] at this
    exact this
  · have hk : ∀ k : String, k.toList.head? = some 'a' ∨ k.toList.head? = some 'n' ∨ k.toList.head? = some 'r' → ∀ s, k ∉ keys s := by
      intro k hk s hc
      simp only [keys, List.mem_cons, List.not_mem_nil, or_false] at hc
      rcases hc with rfl | rfl | rfl <;> simp at hk
    have hf : ∀ k : String, (k.toList.head? = some 'a' ∨ k.toList.head? = some 'n' ∨ k.toList.head? = some 'r') → dictGet (r.toDict str) k = dictGet _ k :=
      fun k h => fold_ne str k r.effects _ (fun pe _ => hk k h _)
    refine ⟨?_, ?_, ?_, ?_, ?_, ?_, ?_, ?_, ?_, ?_, ?_, fun x hx => ?_, fun hx => ?_⟩ <;> rw [hf _ (by simp)] <;> simp [dictGet]
    · rw [hx]; rfl
    · rw [hx]; rfl

/-- C88, what fails without that assumption: two periods printing the same (for example 1 and '1') share their entries, and
the dictionary reports the later period's numbers for both. -/
theorem C88_collision_refuted (str : P → String) (r : Multi P K) (pre mid suf : List (P × Eff K)) (p q : P) (e f : Eff K)
    (hl : r.effects = pre ++ (p, e) :: mid ++ (q, f) :: suf) (hpq : str p = str q) (hs : ∀ x ∈ suf, str x.1 ≠ str q)
    (hef : e.est ≠ f.est) : dictGet (r.toDict str) ("effect_period_" ++ str p) ≠ some (.num e.est) := by
  have := (fold_last str (pre ++ (p, e) :: mid) suf q f
      [("avg_att", Val.num r.est), ("avg_se", .num r.se), ("avg_t_stat", .num r.t), ("avg_p_value", .num r.p),
      ("avg_conf_int_lower", .num r.ci.1), ("avg_conf_int_upper", .num r.ci.2), ("n_obs", .int r.nObs),
      ("n_treated", .int r.nTreated), ("n_control", .int r.nControl), ("n_pre_periods", .int r.pre.length),
      ("n_post_periods", .int r.post.length), ("r_squared", optNum r.rSquared)] hs).1
  rw [← hl] at this
  rw [hpq]
  show dictGet (r.effects.foldl (put str) _) _ ≠ _
  rw [this]
  simp only [ne_eq, Option.some.injEq, Val.num.injEq]
  exact fun h => hef h.symm

/-- C88. The table of period effects has one row per stored effect, in order; each row carries what `get_effect` returns for
its period, and `get_effect` succeeds exactly for the periods of the table. -/
theorem C88_multi_table [DecidableEq P] (r : Multi P K) (hn : (r.effects.map Prod.fst).Nodup) :
    (r.toDataframe.map (fun x => x.1.period)) = r.effects.map Prod.fst ∧
    (∀ x ∈ r.toDataframe, ∃ e, r.getEffect x.1.period = some e ∧
      x.1 = ⟨x.1.period, e.est, e.se, e.t, e.p, e.ci.1, e.ci.2⟩ ∧ (x.2 = true ↔ Below e.p (1 / 20))) ∧
    (∀ p, (r.getEffect p).isSome ↔ ∃ x ∈ r.toDataframe, x.1.period = p) := by
  refine ⟨by simp [Multi.toDataframe, tableRow, Function.comp_def], ?_, ?_⟩
  · intro x hx
    obtain ⟨⟨p, e⟩, hm, rfl⟩ := List.mem_map.1 hx
    exact ⟨e, dictGet_of_mem _ _ _ hn hm, rfl, lt_fin_iff _ _⟩
  · intro p
    constructor
    · intro h
      obtain ⟨e, he⟩ := Option.isSome_iff_exists.1 h
      exact ⟨_, List.mem_map.2 ⟨_, dictGet_mem _ _ _ he, rfl⟩, rfl⟩
    · rintro ⟨x, hx, rfl⟩
      obtain ⟨⟨p, e⟩, hm, rfl⟩ := List.mem_map.1 hx
      unfold Multi.getEffect
      rw [show (tableRow (p, e), e.isSignificant).1.period = p from rfl, dictGet_of_mem _ _ _ hn hm]
      rfl

/-- C88. The multi-period summary fails exactly when a post-period has no stored effect; otherwise its period rows are, in the
order of the post-periods, the stored effects with their marks. -/
theorem C88_multi_summary [DecidableEq P] (r : Multi P K) (arg : Option K) :
    (r.summary arg = none ↔ ∃ p ∈ r.post, r.getEffect p = none) ∧
    ∀ out, r.summary arg = some out →
      List.Forall₂ (fun p l => ∃ e, r.getEffect p = some e ∧ l = Line.row p e.est e.se e.t e.p (stars e.p)) r.post
        (out.filter (fun l => match l with | .row .. => true | _ => false)) := by
  unfold Multi.summary
  cases hm : r.post.mapM (fun p => (dictGet r.effects p).map (periodRow p)) with
  | none =>
    refine ⟨⟨fun _ => ?_, fun _ => rfl⟩, fun out h => (nomatch h)⟩
    by_contra hc
    push Not at hc
    have : ∃ rows, r.post.mapM (fun p => (dictGet r.effects p).map (periodRow p)) = some rows := by
      clear hm
      have hc' : ∀ p ∈ r.post, dictGet r.effects p ≠ none := hc
      generalize r.post = l at hc'
      induction l with
      | nil => exact ⟨[], rfl⟩
      | cons p l ih =>
        obtain ⟨rows, hr⟩ := ih (fun x hx => hc' x (List.mem_cons_of_mem _ hx))
        obtain ⟨e, he⟩ := Option.ne_none_iff_exists'.1 (hc' p (by simp))
        exact ⟨periodRow p e :: rows, (mapM_some _ _ _).2 (List.Forall₂.cons (by simp [he]) ((mapM_some _ _ _).1 hr))⟩
    obtain ⟨rows, hr⟩ := this
    rw [hm] at hr
    exact (nomatch hr)
  | some rows =>
    have hf := (mapM_some _ _ _).1 hm
    have hrows : List.Forall₂ (fun p l => ∃ e, r.getEffect p = some e ∧ l = Line.row p e.est e.se e.t e.p (stars e.p)) r.post rows := by
      refine hf.imp ?_
      intro p l h
      obtain ⟨e, h1, h2⟩ := Option.map_eq_some_iff.1 h
      exact ⟨e, h1, h2.symm⟩
    refine ⟨⟨fun h => (nomatch h), ?_⟩, ?_⟩
    · rintro ⟨p, hp, hpn⟩
      obtain ⟨i, hi, he⟩ := List.mem_iff_getElem.1 hp
      have := (List.forall₂_iff_get.1 hrows).2 i hi (hrows.length_eq ▸ hi)
      obtain ⟨e, h1, -⟩ := this
      simp only [List.get_eq_getElem, he] at h1
      rw [hpn] at h1
      exact (nomatch h1)
    · intro out h
      simp only [Option.some.injEq] at h
      have hfr : rows.filter (fun l => match l with | .row .. => true | _ => false) = rows := by
        rw [List.filter_eq_self]
        intro l hl
        obtain ⟨i, hi, he⟩ := List.mem_iff_getElem.1 hl
        obtain ⟨e, -, h2⟩ := (List.forall₂_iff_get.1 hrows).2 i (hrows.length_eq ▸ hi) hi
        simp only [List.get_eq_getElem, he] at h2
        rw [h2]
      rw [← h]
      simp only [List.filter_append, hfr]
      rcases r.rSquared with _ | x <;> simpa [headLines] using hrows

section staggered
variable {T : Type*} [LinearOrder T]

theorem sortItems_spec {A V : Type*} [LinearOrder A] (l : List (A × V)) :
    (sortItems l).Perm l ∧ (sortItems l).Pairwise (fun a b => a.1 ≤ b.1) := by
  haveI : Std.Total (fun a b : A × V => a.1 ≤ b.1) := ⟨fun a b => le_total _ _⟩
  haveI : IsTrans (A × V) (fun a b : A × V => a.1 ≤ b.1) := ⟨fun a b c => le_trans⟩
  exact ⟨List.perm_insertionSort _ _, List.pairwise_insertionSort _ _⟩

/-- C88. Staggered tables: the group-time table has one row per stored cell in stored order; the event-study and group tables
exist exactly when they were computed, contain exactly the stored effects, and are ordered by key. Any other level name is
rejected. -/
theorem C88_staggered_table (r : Stag T K) (level : String) :
    (level = "group_time" → r.toDataframe level = some (.cells (r.cells.map (fun x =>
      ⟨x.1, x.2.est, x.2.se, x.2.t, x.2.p, x.2.ci.1, x.2.ci.2⟩)))) ∧
    (level = "event_study" → (r.events = none → r.toDataframe level = none) ∧
      ∀ l, r.events = some l → ∃ l' : List (ℤ × Eff K), l'.Perm l ∧ l'.Pairwise (fun a b => a.1 ≤ b.1) ∧
        r.toDataframe level = some (.events (l'.map (fun x => ⟨x.1, x.2.est, x.2.se, x.2.t, x.2.p, x.2.ci.1, x.2.ci.2⟩)))) ∧
    (level = "group" → (r.groups = none → r.toDataframe level = none) ∧
      ∀ l, r.groups = some l → ∃ l' : List (T × Eff K), l'.Perm l ∧ l'.Pairwise (fun a b => a.1 ≤ b.1) ∧
        r.toDataframe level = some (.groups (l'.map (fun x => ⟨x.1, x.2.est, x.2.se, x.2.t, x.2.p, x.2.ci.1, x.2.ci.2⟩)))) ∧
    (level ≠ "group_time" → level ≠ "event_study" → level ≠ "group" → r.toDataframe level = none) := by
  refine ⟨?_, ?_, ?_, ?_⟩
  · rintro rfl; rfl
  · rintro rfl
    refine ⟨fun h => by simp [Stag.toDataframe, h], fun l h => ⟨sortItems l, (sortItems_spec l).1, (sortItems_spec l).2, ?_⟩⟩
    simp [Stag.toDataframe, h, tableRow]
  · rintro rfl
    refine ⟨fun h => by simp [Stag.toDataframe, h], fun l h => ⟨sortItems l, (sortItems_spec l).1, (sortItems_spec l).2, ?_⟩⟩
    simp [Stag.toDataframe, h, tableRow]
  · intro h1 h2 h3
    simp [Stag.toDataframe, h1, h2, h3]

theorem block_mem {A Q : Type*} [LinearOrder A] (f : A → Q) (o : Option (List (A × Eff K))) (l : Line Q K) :
    l ∈ block f o ↔ ∃ ev, o = some ev ∧ ∃ x ∈ ev, l = .row (f x.1) x.2.est x.2.se x.2.t x.2.p (stars x.2.p) := by
  match o with
  | none => simp [block]
  | some [] => simp [block]
  | some (x :: m) =>
    simp only [block, List.mem_map, (sortItems_spec (x :: m)).1.mem_iff, Option.some.injEq, exists_eq_left', periodRow]
    exact exists_congr fun a => and_congr_right fun _ => eq_comm

/-- C88. The staggered summary prints one row per computed event-study effect and per computed group effect, each with the
stored numbers and its own mark. -/
theorem C88_staggered_rows (r : Stag T K) (l : Line (ℤ ⊕ T) K) :
    l ∈ r.blocks ↔ (∃ ev, r.events = some ev ∧ ∃ x ∈ ev, l = .row (Sum.inl x.1) x.2.est x.2.se x.2.t x.2.p (stars x.2.p)) ∨
      (∃ g, r.groups = some g ∧ ∃ x ∈ g, l = .row (Sum.inr x.1) x.2.est x.2.se x.2.t x.2.p (stars x.2.p)) := by
  unfold Stag.blocks
  rw [List.mem_append]
  exact or_congr (block_mem Sum.inl r.events l) (block_mem Sum.inr r.groups l)

end staggered

/-! ### C89: weights printed by the synthetic DiD summary -/

theorem sortWeights_spec {U : Type*} (l : List (U × K)) :
    (sortWeights l).Perm l ∧ (sortWeights l).Pairwise (fun a b => b.2 ≤ a.2) := by
  haveI : Std.Total (fun a b : U × K => b.2 ≤ a.2) := ⟨fun a b => le_total _ _⟩
  haveI : IsTrans (U × K) (fun a b : U × K => b.2 ≤ a.2) := ⟨fun a b c h1 h2 => le_trans h2 h1⟩
  exact ⟨List.perm_insertionSort _ _, List.pairwise_insertionSort _ _⟩

/-- The printed weight lines. -/
def shown {U : Type*} (out : List (Line U K)) : List (U × K) :=
  out.filterMap (fun l => match l with | .weight u w => some (u, w) | _ => none)

theorem shown_append {U : Type*} (a b : List (Line U K)) : shown (a ++ b) = shown a ++ shown b := by
  simp [shown, List.filterMap_append]

theorem shown_map {U : Type*} (l : List (U × K)) : shown (l.map (fun x => (Line.weight x.1 x.2 : Line U K))) = l := by
  simp [shown, List.filterMap_map, Function.comp_def]

/-- C89. The synthetic DiD summary prints at most five unit weights, in descending order, each a stored weight above 0.001;
a stored weight above 0.001 that is not printed is at most as large as every printed one, and then five are printed; the
count line, printed exactly when there are weights, is the number of stored weights above 0.001. -/
theorem C89_weights {U : Type*} [DecidableEq U] (r : Sdid U K) (arg : Option K) :
    (shown (r.summary arg)).length ≤ 5 ∧ (shown (r.summary arg)).Pairwise (fun a b => b.2 ≤ a.2) ∧
    (∀ x ∈ shown (r.summary arg), x ∈ r.weights ∧ 1 / 1000 < x.2) ∧
    (∀ x ∈ r.weights, 1 / 1000 < x.2 → x ∉ shown (r.summary arg) →
      (shown (r.summary arg)).length = 5 ∧ ∀ y ∈ shown (r.summary arg), x.2 ≤ y.2) ∧
    (∀ n, Line.nWeights n ∈ r.summary arg ↔ r.weights ≠ [] ∧ n = (r.weights.filter (fun x => decide (1 / 1000 < x.2))).length) := by
  have hshow : shown (r.summary arg) =
      ((sortWeights r.weights).take (min 5 (sortWeights r.weights).length)).filter (fun x => decide (1 / 1000 < x.2)) := by
    unfold Sdid.summary
    rcases r.lam with _ | x <;> rcases r.fit with _ | y <;> rcases r.nBootstrap with _ | n <;>
      by_cases hm : r.method = "bootstrap" <;>
      simp only [hm, shown_append, weightLines, if_true, if_false] <;>
      (split_ifs with hw
       · simp [shown, hw, sortWeights, headLines]
       · simp only [shown_append, shown_map]
         simp [shown, headLines])
  obtain ⟨hp, hs⟩ := sortWeights_spec r.weights
  generalize sortWeights r.weights = S at hshow hp hs
  have htake : S.take (min 5 S.length) = S.take 5 := by
    rcases le_total 5 S.length with h | h
    · rw [min_eq_left h]
    · rw [min_eq_right h, List.take_of_length_le le_rfl, List.take_of_length_le h]
  rw [htake] at hshow
  rw [hshow]
  refine ⟨?_, ?_, ?_, ?_, ?_⟩
  · exact le_trans (List.length_filter_le _ _) (by simp)
  · exact (hs.sublist (List.take_sublist _ _)).sublist List.filter_sublist
  · intro x hx
    obtain ⟨h1, h2⟩ := List.mem_filter.1 hx
    exact ⟨hp.mem_iff.1 (List.mem_of_mem_take h1), by simpa using h2⟩
  · intro x hx hx1 hxn
    have hxS : x ∈ S := hp.mem_iff.2 hx
    have hxt : x ∉ S.take 5 := fun h => hxn (List.mem_filter.2 ⟨h, by simpa using hx1⟩)
    have hxd : x ∈ S.drop 5 := by
      rw [← List.take_append_drop 5 S] at hxS
      rcases List.mem_append.1 hxS with h | h
      · exact absurd h hxt
      · exact h
    have hle : ∀ y ∈ S.take 5, x.2 ≤ y.2 := by
      intro y hy
      rw [← List.take_append_drop 5 S] at hs
      exact (List.pairwise_append.1 hs).2.2 y hy x hxd
    have hall : (S.take 5).filter (fun x => decide (1 / 1000 < x.2)) = S.take 5 := by
      rw [List.filter_eq_self]
      intro y hy
      have := hle y hy
      simpa using lt_of_lt_of_le hx1 this
    rw [hall]
    refine ⟨?_, hle⟩
    rw [List.length_take, min_eq_left]
    have : (S.drop 5).length ≠ 0 := by
      intro h0
      rw [List.length_eq_zero_iff] at h0
      rw [h0] at hxd
      simp at hxd
    rw [List.length_drop] at this
    omega
  · intro n
    have hw : (Line.nWeights n : Line U K) ∈ weightLines r.weights ↔
        r.weights ≠ [] ∧ n = (r.weights.filter (fun x => decide (1 / 1000 < x.2))).length := by
      unfold weightLines
      split_ifs with h
      · simp [h]
      · simp [h]
    unfold Sdid.summary
    simp only [List.mem_append, hw]
    rcases r.lam with _ | x <;> rcases r.fit with _ | y <;> rcases r.nBootstrap with _ | m <;>
      by_cases hm : r.method = "bootstrap" <;> simp [hm, headLines]

end level

/-! ### Concrete cases -/

section examples
open Inference (exDist)

example : stars (.fin (1/2000 : ℚ)) = "***" ∧ stars (.fin (1/100 : ℚ)) = "*" ∧ stars (.fin (1/20 : ℚ)) = "." ∧
    stars (.fin (1/10 : ℚ)) = "" ∧ stars (.nan : Ext ℚ) = "" := by decide +kernel

example : Ext.le (.fin (1/200 : ℚ)) (.fin (1/30)) = true ∧ strength (stars (.fin (1/200 : ℚ))) = 3 ∧
    strength (stars (.fin (1/30 : ℚ))) = 2 := by decide +kernel

def exHead : Head ℚ := ⟨⟨.fin 3, .fin 1, .fin 3, .fin (1/30), (.fin 1, .fin 5)⟩, 1/20⟩

example : exHead.isSignificant = true ∧ exHead.significanceStars = "*" ∧ exHead.alpha = 1 / 20 := by decide +kernel

/-- Hypotheses of `C52_period_level_refuted`. -/
example : ∃ D : Dist ℚ, Symmetric D ∧ (0 : ℚ) < 1 / 100 ∧ (1 / 100 : ℚ) < 1 ∧ (1 / 100 : ℚ) ≠ 1 / 20 :=
  ⟨exDist 1, Inference.exDist_symm 1 (by norm_num), by norm_num, by norm_num, by norm_num⟩

def exDid : DiD ℚ := ⟨⟨⟨.fin 3, .fin 1, .fin 3, .fin (1/30), confInt (exDist 1) (.fin 3) (.fin 1) (1/20)⟩, 1/20⟩,
  40, 20, 20, some (.fin (1/2)), "wild_bootstrap", some 999, none⟩

/-- Hypotheses of `C53_default_partial`: a 5% fit prints 95. -/
example : (∃ lo hi, (Line.ci 95 lo hi : Line ℕ ℚ) ∈ exDid.summary none) ∧
    ∀ L lo hi, (Line.ci L lo hi : Line ℕ ℚ) ∈ exDid.summary none → AtLevel (exDist 1) 3 1 lo hi L :=
  C53_default_partial (exDist 1) 3 1 exDid.toHead _ none (.did exDid) (Or.inl rfl) (by norm_num [exDid]) 95
    (by norm_num [exDid]) rfl

/-- Hypotheses of `C53_refuted`: the same fit asked for alpha = 0.1 prints "90%" beside the 95% interval. -/
example : ∃ lo hi, (Line.ci 90 lo hi : Line ℕ ℚ) ∈ exDid.summary (some (1/10)) ∧ ¬ AtLevel (exDist 1) 3 1 lo hi 90 :=
  C53_refuted (exDist 1) (Inference.exDist_symm 1 (by norm_num)) 3 1 one_pos exDid.toHead _ (some (1/10)) (.did exDid)
    (by norm_num [exDid]) (by norm_num [exDid]) rfl 90 (by norm_num [exDid, effAlpha]) (by norm_num) (by norm_num)
    (by norm_num [exDid])

/-- ... and a fit at alpha = 0.025 prints "97%" beside its 97.5% interval with no argument. -/
example : ∃ lo hi, (Line.ci 97 lo hi : Line ℕ ℚ) ∈
      (⟨⟨⟨.fin 3, .fin 1, .fin 3, .fin (1/30), confInt (exDist 1) (.fin 3) (.fin 1) (1/40)⟩, 1/40⟩,
        40, 20, 20, none, "analytical", none, none⟩ : DiD ℚ).summary none ∧ ¬ AtLevel (exDist 1) 3 1 lo hi 97 :=
  C53_refuted (exDist 1) (Inference.exDist_symm 1 (by norm_num)) 3 1 one_pos _ _ none (.did _)
    (by norm_num) (by norm_num) rfl 97 (by
      symm; rw [Int.floor_eq_iff]; norm_num [effAlpha]) (by norm_num) (by norm_num) (by norm_num)

def exEff (x : ℚ) : Eff ℚ := ⟨.fin x, .fin 1, .fin x, .fin (1/30), (.fin (x - 2), .fin (x + 2))⟩

def exMulti : Multi ℕ ℚ := ⟨exHead, [(3, exEff 2), (4, exEff 5)], 40, 20, 20, [1, 2], [3, 4], none⟩

example : (exMulti.effects.map (fun x => toString x.1)).Nodup ∧ (exMulti.effects.map Prod.fst).Nodup ∧
    exMulti.getEffect 4 = some (exEff 5) ∧ dictGet (exMulti.toDict toString) "effect_period_4" = some (.num (.fin 5)) := by
  decide +kernel

/-- A post-period without effect makes the summary fail. -/
example : ({ exMulti with post := [3, 9] } : Multi ℕ ℚ).summary none = none ∧ (exMulti.summary none).isSome = true := by
  decide +kernel

/-- Collision: the integer period 1 and the text period '1' (as a sum type) print the same. -/
example : ∃ r : Multi (ℕ ⊕ String) ℚ, ∃ p q, p ≠ q ∧ r.effects = [] ++ (p, exEff 2) :: [] ++ (q, exEff 5) :: [] ∧
    (Sum.elim toString id : ℕ ⊕ String → String) p = Sum.elim toString id q ∧ (exEff 2).est ≠ (exEff 5).est :=
  ⟨⟨exHead, [(.inl 1, exEff 2), (.inr "1", exEff 5)], 40, 20, 20, [], [], none⟩, .inl 1, .inr "1", by simp, rfl, by decide +kernel,
    by decide +kernel⟩

def exStag : Stag ℕ ℚ := ⟨exHead, [((3, 2), exEff 0), ((3, 3), exEff 1)], some [(0, exEff 1), (-1, exEff 0)], none⟩

example : (exStag.toDataframe "group").isNone = true ∧
    (match exStag.toDataframe "event_study" with | some (.events l) => l.map (fun x => x.period) | _ => []) = [-1, 0] := by
  decide +kernel

def exSdid : Sdid ℕ ℚ := ⟨exHead, 40, 4, 6, 5, 3,
  [(1, 1/10), (2, 1/2), (3, 1/2000), (4, 1/10), (5, 1/10), (6, 1/10), (7, 1/20)], "placebo", none, none, none⟩

example : shown (exSdid.summary none) = [(2, 1/2), (1, 1/10), (4, 1/10), (5, 1/10), (6, 1/10)] ∧
    (7, 1/20) ∈ exSdid.weights ∧ Line.nWeights 6 ∈ exSdid.summary none := by decide +kernel

end examples

end DiffDiff.Results
