/-
Property C132: what is reported about the power of the pre-trends test.
-/
import Verif.PretrendsReport
import Verif.PretrendsProps
import Verif.PowerCurveProps

set_option linter.unusedSectionVars false

namespace DiffDiff.PretrendsReport
open Pretrends PowerCurve
open scoped Matrix

/-! ### The largest standard error -/

theorem foldl_max_spec (l : List ℝ) : ∀ a : ℝ, (l.foldl max a = a ∨ l.foldl max a ∈ l) ∧ a ≤ l.foldl max a ∧
    ∀ x ∈ l, x ≤ l.foldl max a := by
  induction l with
  | nil => intro a; simp
  | cons b l ih =>
    intro a
    obtain ⟨h1, h2, h3⟩ := ih (max a b)
    simp only [List.foldl_cons]
    refine ⟨?_, (le_max_left _ _).trans h2, ?_⟩
    · rcases h1 with h1 | h1
      · rcases max_choice a b with h | h
        · left; rw [h1, h]
        · right; rw [h1, h]; simp
      · right; exact List.mem_cons_of_mem _ h1
    · intro x hx
      rcases List.mem_cons.mp hx with rfl | hx
      · exact (le_max_right _ _).trans h2
      · exact h3 x hx

/-- `maxSe` is the largest entry. -/
theorem maxSe_spec {n : ℕ} (hn : 1 ≤ n) (ses : Fin n → ℝ) : (∃ i, maxSe ses = ses i) ∧ ∀ i, ses i ≤ maxSe ses := by
  obtain ⟨k, rfl⟩ : ∃ k, n = k + 1 := ⟨n - 1, by omega⟩
  simp only [maxSe, List.ofFn_succ, List.tail_cons, List.headD_cons]
  obtain ⟨h1, h2, h3⟩ := foldl_max_spec (List.ofFn fun i : Fin k => ses i.succ) (ses 0)
  constructor
  · rcases h1 with h1 | h1
    · exact ⟨0, h1⟩
    · obtain ⟨i, hi⟩ := List.mem_ofFn.mp h1
      exact ⟨i.succ, hi.symm⟩
  · intro i
    refine Fin.cases h2 (fun j => ?_) i
    exact h3 _ (List.mem_ofFn.mpr ⟨j, rfl⟩)

theorem maxSe_unique {n : ℕ} (hn : 1 ≤ n) {ses : Fin n → ℝ} {m : ℝ} (h1 : ∃ i, m = ses i) (h2 : ∀ i, ses i ≤ m) :
    maxSe ses = m := by
  obtain ⟨⟨i, hi⟩, hm⟩ := maxSe_spec hn ses
  obtain ⟨j, hj⟩ := h1
  exact le_antisymm (by rw [hi]; exact h2 i) (by rw [hj]; exact hm j)

theorem maxSe_scale {n : ℕ} (hn : 1 ≤ n) (ses : Fin n → ℝ) {c : ℝ} (hc : 0 ≤ c) :
    maxSe (fun i => c * ses i) = c * maxSe ses := by
  obtain ⟨⟨i, hi⟩, hm⟩ := maxSe_spec hn ses
  exact maxSe_unique hn ⟨i, by rw [hi]⟩ fun j => mul_le_mul_of_nonneg_left (hm j) hc

/-! ### Scaling -/

theorem quad_scale (R : Routines) {n : ℕ} (w : Fin n → ℝ) {V : Matrix (Fin n) (Fin n) ℝ} (hV : IsUnit V.det) {c : ℝ}
    (hc : c ≠ 0) : quad R w (c ^ 2 • V) = quad R w V / c ^ 2 := by
  have hu : IsUnit (c ^ 2 • V).det := by
    rw [Matrix.det_smul]
    exact ((isUnit_iff_ne_zero.mpr (pow_ne_zero 2 hc)).pow _).mul hV
  have hinv : (c ^ 2 • V)⁻¹ = (c ^ 2)⁻¹ • V⁻¹ := by
    apply Matrix.inv_eq_right_inv
    rw [Matrix.smul_mul, Matrix.mul_smul, smul_smul, mul_inv_cancel₀ (pow_ne_zero 2 hc), one_smul,
      Matrix.mul_nonsing_inv _ hV]
  simp only [quad, inverse, if_pos hV, if_pos hu, hinv, Matrix.smul_mulVec, dotProduct_smul, smul_eq_mul]
  rw [div_eq_inv_mul]

/-- **C43.** The automatic grid of the power curve runs from zero to two and a half times the minimum detectable violation, or to ten
times the largest standard error when there is none, in both cases at most to 100. -/
theorem C43_curve_top {R : Routines} {s : Settings} {n : ℕ} {pre : Pre n} (hn : 1 ≤ n) {k : ℕ} (hk : 2 ≤ k) {c : List (ℝ × ℝ)}
    (h : curve R s pre none k = .ok c) {w : Fin n → ℝ} (hw : weights s.pattern n = .ok w) :
    (∃ p, c.head? = some (0, p)) ∧ ∃ top p, c.getLast? = some (top, p) ∧ top ≤ 100 ∧
      (∀ m, mdv R s.alpha s.target w pre.vcov = .fin m → top = min (5 / 2 * m) 100) ∧
      ((∀ m, mdv R s.alpha s.target w pre.vcov ≠ .fin m) → ∃ i, (∀ j, pre.ses j ≤ pre.ses i) ∧ top = min (10 * pre.ses i) 100) := by
  simp only [curve, hw] at h
  obtain rfl := (Except.ok.inj h).symm
  obtain ⟨k, rfl⟩ := Nat.exists_eq_add_of_le hk
  have hk' : ((1 + k : ℕ) : ℝ) ≠ 0 := by positivity
  have hlast : (grid none (mdv R s.alpha s.target w pre.vcov) pre.ses (2 + k)).getLast? =
      some (maxM (mdv R s.alpha s.target w pre.vcov) pre.ses) := by
    unfold grid
    simp only
    rw [show 2 + k = (1 + k) + 1 by ring, List.range_succ, List.map_append, List.map_singleton, List.getLast?_append]
    simp only [List.getLast?_singleton, Option.some_or, Nat.add_sub_cancel]
    rw [mul_div_cancel₀ _ hk']
  refine ⟨?_, maxM (mdv R s.alpha s.target w pre.vcov) pre.ses,
    power R s.alpha (maxM (mdv R s.alpha s.target w pre.vcov) pre.ses) w pre.vcov, ?_, min_le_right _ _, ?_, ?_⟩
  · refine ⟨power R s.alpha 0 w pre.vcov, ?_⟩
    unfold grid
    simp only
    rw [show 2 + k = (1 + k) + 1 by ring, List.range_succ_eq_map]
    simp
  · rw [List.getLast?_map, hlast]
    rfl
  · intro m hm
    rw [hm]
    rfl
  · intro hm
    obtain ⟨⟨i, hi⟩, hmax⟩ := maxSe_spec hn pre.ses
    refine ⟨i, fun j => hi ▸ hmax j, ?_⟩
    rw [← hi]
    unfold maxM
    cases hx : mdv R s.alpha s.target w pre.vcov with
    | fin m => exact absurd hx (hm m)
    | _ => rfl

/-- A float multiplied by a positive number. -/
def stretch (c : ℝ) : Ext ℝ → Ext ℝ
  | .fin x => .fin (c * x)
  | e => e

theorem mdv_scale (R : Routines) (alpha target : ℝ) {n : ℕ} (w : Fin n → ℝ) {V : Matrix (Fin n) (Fin n) ℝ}
    (hV : IsUnit V.det) {c : ℝ} (hc : 0 < c) :
    mdv R alpha target w (c ^ 2 • V) = stretch c (mdv R alpha target w V) := by
  simp only [mdv]
  cases targetNc R alpha target n with
  | none => rfl
  | some nc =>
    simp only [magnitude, quad_scale R w hV hc.ne']
    have hc2 : 0 < c ^ 2 := by positivity
    by_cases hq : 0 < quad R w V
    · rw [if_pos hq, if_pos (div_pos hq hc2)]
      simp only [stretch, Ext.fin.injEq]
      have : nc / (quad R w V / c ^ 2) = c ^ 2 * (nc / quad R w V) := by field_simp
      rw [this, Real.sqrt_mul hc2.le, Real.sqrt_sq hc.le]
    · rw [if_neg hq, if_neg (by rw [div_pos_iff]; rintro (⟨h, -⟩ | ⟨-, h⟩); exacts [hq h, absurd h (not_lt.mpr hc2.le)])]
      rfl

theorem inSes_scale (m : Ext ℝ) (se : ℝ) {c : ℝ} (hc : 0 < c) : inSes (stretch c m) (c * se) = inSes m se := by
  cases m with
  | fin x =>
    simp only [inSes, stretch]
    by_cases h : 0 < se
    · rw [if_pos h, if_pos (mul_pos hc h), mul_div_mul_left _ _ hc.ne']
    · rw [if_neg h, if_neg (by rw [mul_pos_iff_of_pos_left hc]; exact h)]
  | _ => rfl

theorem verdict_scale (m : Ext ℝ) (se : ℝ) {c : ℝ} (hc : 0 < c) : verdictOf (stretch c m) (c * se) = verdictOf m se := by
  cases m with
  | fin x =>
    have h := inSes_scale (.fin x) se hc
    simp only [stretch] at h
    simp only [verdictOf, stretch, h]
  | _ => rfl

/-- Estimates with every standard error multiplied by `c`. -/
def scaled {n : ℕ} (c : ℝ) (pre : Pre n) : Pre n :=
  { effects := pre.effects, ses := fun i => c * pre.ses i, vcov := c ^ 2 • pre.vcov }

/-- Ten times noisier or ten times more precise estimates get the same verdict: multiplying every standard error by a
positive number multiplies the minimum detectable violation by it and changes neither the ratio nor the verdict. -/
theorem C132_scale {R : Routines} {s : Settings} {n : ℕ} (hn : 1 ≤ n) {pre : Pre n} (hV : pre.vcov.PosDef) {c : ℝ}
    (hc : 0 < c) {a : Sensitivity} (ha : sensitivity R s pre = .ok a) :
    ∃ b, sensitivity R s (scaled c pre) = .ok b ∧ b.mdv = stretch c a.mdv ∧ b.maxSe = c * a.maxSe ∧ b.inSes = a.inSes ∧
      b.verdict = a.verdict := by
  have hu : IsUnit pre.vcov.det := (Matrix.isUnit_iff_isUnit_det _).mp hV.isUnit
  simp only [sensitivity, fit] at ha ⊢
  cases hw : weights s.pattern n with
  | error e => rw [hw] at ha; exact absurd ha (by simp)
  | ok w =>
    rw [hw] at ha
    obtain rfl := Except.ok.inj ha
    refine ⟨_, rfl, ?_⟩
    simp only [scaled, mdv_scale R _ _ w hu hc, maxSe_scale hn _ hc.le, inSes_scale _ _ hc, verdict_scale _ _ hc,
      and_self]

/-! ### Verdicts -/

/-- The verdict in words: sensitive below one largest standard error, moderate below two, low from there on, and no
power at all when no violation can be detected with the target power. -/
theorem C132_verdict {R : Routines} {s : Settings} {n : ℕ} {pre : Pre n} {a : Sensitivity}
    (ha : sensitivity R s pre = .ok a) (hse : 0 < a.maxSe) :
    (∀ x, a.mdv = .fin x → (a.verdict = .sensitive ↔ x < a.maxSe) ∧
      (a.verdict = .moderate ↔ a.maxSe ≤ x ∧ x < 2 * a.maxSe) ∧ (a.verdict = .low ↔ 2 * a.maxSe ≤ x) ∧
      a.inSes = .fin (x / a.maxSe)) ∧
    ((∀ x, a.mdv ≠ .fin x) → a.verdict = .never ∧ a.inSes = .pinf) := by
  simp only [sensitivity] at ha
  cases hf : fit R s pre none with
  | error e => rw [hf] at ha; exact absurd ha (by simp)
  | ok r =>
    rw [hf] at ha
    obtain rfl := Except.ok.inj ha
    simp only at hse ⊢
    constructor
    · intro x hx
      rw [hx]
      simp only [verdictOf, inSes, if_pos hse, Ext.lt, decide_eq_true_eq]
      have e1 : x / maxSe r.pre.ses < 1 ↔ x < maxSe r.pre.ses := by rw [div_lt_one hse]
      have e2 : x / maxSe r.pre.ses < 2 ↔ x < 2 * maxSe r.pre.ses := by rw [div_lt_iff₀ hse]
      simp only [e1, e2]
      by_cases h1 : x < maxSe r.pre.ses
      · rw [if_pos h1]
        refine ⟨by simp [h1], ?_, ?_, trivial⟩
        · constructor
          · intro h; exact absurd h (by decide)
          · rintro ⟨h, -⟩; exact absurd h1 (not_lt.mpr h)
        · constructor
          · intro h; exact absurd h (by decide)
          · intro h; exfalso; linarith
      · rw [if_neg h1]
        by_cases h2 : x < 2 * maxSe r.pre.ses
        · rw [if_pos h2]
          refine ⟨by simp [h1], by simp [not_lt.mp h1, h2], ?_, trivial⟩
          constructor
          · intro h; exact absurd h (by decide)
          · intro h; exact absurd h2 (not_lt.mpr h)
        · rw [if_neg h2]
          refine ⟨by simp [h1], by simp [h2], by simp [not_lt.mp h2], trivial⟩
    · intro h
      cases hm : r.mdv with
      | fin x => exact absurd hm (h x)
      | _ => exact ⟨rfl, rfl⟩

theorem mdv_ne_ninf (R : Routines) (alpha target : ℝ) {n : ℕ} (w : Fin n → ℝ) (V : Matrix (Fin n) (Fin n) ℝ) :
    mdv R alpha target w V ≠ .ninf := by
  simp only [mdv]
  cases targetNc R alpha target n with
  | none => simp
  | some nc =>
    simp only [magnitude]
    split_ifs <;> simp

/-- `is_informative` agrees with the verdict of the comparison: it holds exactly for the first two verdicts. -/
theorem C132_agree {R : Routines} {s : Settings} {n : ℕ} (hn : 1 ≤ n) {pre : Pre n} (hse : ∀ i, 0 ≤ pre.ses i)
    {r : Result n} (hr : fit R s pre none = .ok r) {a : Sensitivity} (ha : sensitivity R s pre = .ok a) :
    isInformative r = true ↔ a.verdict = .sensitive ∨ a.verdict = .moderate := by
  simp only [sensitivity, hr] at ha
  obtain rfl := Except.ok.inj ha
  have hpre : r.pre = pre ∧ ∃ w, r.mdv = mdv R s.alpha s.target w pre.vcov := by
    simp only [fit] at hr
    cases hw : weights s.pattern n with
    | error e => rw [hw] at hr; exact absurd hr (by simp)
    | ok w => rw [hw] at hr; obtain rfl := Except.ok.inj hr; exact ⟨rfl, w, rfl⟩
  obtain ⟨hp, w, hm⟩ := hpre
  obtain ⟨⟨i, hi⟩, -⟩ := maxSe_spec hn pre.ses
  have h0 : 0 ≤ maxSe pre.ses := by rw [hi]; exact hse i
  simp only [isInformative, hp, hm]
  cases hx : mdv R s.alpha s.target w pre.vcov with
  | fin x =>
    have hx0 : 0 ≤ x := by
      simp only [mdv] at hx
      cases ht : targetNc R s.alpha s.target n with
      | none => rw [ht] at hx; exact absurd hx (by simp)
      | some nc =>
        rw [ht] at hx
        simp only [magnitude] at hx
        split_ifs at hx
        rw [← Ext.fin.inj hx]
        exact Real.sqrt_nonneg _
    rcases h0.lt_or_eq with hpos | hz
    · simp only [verdictOf, inSes, if_pos hpos, Ext.lt, decide_eq_true_eq, div_lt_one hpos, div_lt_iff₀ hpos]
      by_cases h1 : x < maxSe pre.ses
      · rw [if_pos h1]; simp; linarith
      · rw [if_neg h1]
        by_cases h2 : x < 2 * maxSe pre.ses
        · rw [if_pos h2]; simp [h2]
        · rw [if_neg h2]; simp [h2]
    · rw [← hz]
      simp [verdictOf, inSes, Ext.lt, not_lt.mpr hx0]
  | ninf => exact absurd hx (mdv_ne_ninf _ _ _ _ _)
  | pinf => simp [verdictOf, Ext.lt]
  | nan => simp [verdictOf, Ext.lt]

/-! ### What the verdict does not depend on -/

/-- Uncorrelated estimates with a common standard error. -/
def common (n : ℕ) (sigma : ℝ) (effects : Fin n → ℝ) : Pre n :=
  { effects := effects, ses := fun _ => sigma, vcov := Matrix.diagonal fun _ => sigma ^ 2 }

theorem quad_diag (R : Routines) {n : ℕ} (w v : Fin n → ℝ) (hv : ∀ i, v i ≠ 0) :
    quad R w (Matrix.diagonal v) = ∑ i, w i ^ 2 / v i := by
  have hu : IsUnit (Matrix.diagonal v).det := by
    rw [Matrix.det_diagonal]
    exact isUnit_iff_ne_zero.mpr (Finset.prod_ne_zero_iff.mpr fun i _ => hv i)
  have hinv : (Matrix.diagonal v)⁻¹ = Matrix.diagonal fun i => (v i)⁻¹ := by
    apply Matrix.inv_eq_right_inv
    rw [Matrix.diagonal_mul_diagonal]
    have : (fun i => v i * (v i)⁻¹) = fun _ => 1 := funext fun i => mul_inv_cancel₀ (hv i)
    rw [this, Matrix.diagonal_one]
  simp only [quad, inverse, if_pos hu, hinv, dotProduct, Matrix.mulVec_diagonal]
  exact Finset.sum_congr rfl fun i _ => by rw [div_eq_mul_inv]; ring

/-- With uncorrelated estimates of a common precision the verdict is "low power" (or "never") whatever that precision:
it is decided by the level, the target power and the number of pre-periods alone. The hypothesis says that a
non-centrality of 4 does not give the target power, as for the usual 5% and 80%. -/
theorem C132_precision_refuted {R : Routines} {s : Settings} (hR : NonCentral R s.alpha) (hb : RootFinder R.brentq)
    (hat : s.alpha < s.target) {n : ℕ} (hn : 1 ≤ n) (h4 : testPower R s.alpha n 4 < s.target) (hp : Nonzero s.pattern n)
    {sigma : ℝ} (hs : 0 < sigma) (effects : Fin n → ℝ) {a : Sensitivity}
    (ha : sensitivity R s (common n sigma effects) = .ok a) {r : Result n}
    (hr : fit R s (common n sigma effects) none = .ok r) :
    (a.verdict = .low ∨ a.verdict = .never) ∧ isInformative r = false := by
  have key : a.verdict = .low ∨ a.verdict = .never := by
    have ha' := ha
    simp only [sensitivity, fit] at ha
    cases hw : weights s.pattern n with
    | error e => rw [hw] at ha; exact absurd ha (by simp)
    | ok w =>
      rw [hw] at ha
      have hmax : maxSe (common n sigma effects).ses = sigma :=
        maxSe_unique hn ⟨⟨0, hn⟩, rfl⟩ fun _ => le_rfl
      have haa := Except.ok.inj ha
      have hse : a.maxSe = sigma := by rw [← haa]; exact hmax
      have hmd : a.mdv = mdv R s.alpha s.target w (common n sigma effects).vcov := by rw [← haa]
      obtain ⟨hv1, hv2⟩ := C132_verdict ha' (by rw [hse]; exact hs)
      have hunit : ∑ i, w i ^ 2 = 1 := by
        obtain ⟨w', hw', hu, -⟩ := C43_unit_partial s.pattern n hp
        rw [hw] at hw'
        obtain rfl := Except.ok.inj hw'
        exact hu
      have hq : quad R w (common n sigma effects).vcov = 1 / sigma ^ 2 := by
        simp only [common]
        rw [quad_diag R w _ fun _ => by positivity, ← Finset.sum_div, hunit]
      rcases targetNc_spec hR hb hn hat with ⟨x, hx, hx0, -, hxp⟩ | ⟨hx, -⟩
      · left
        have h4x : 4 < x := by
          by_contra hcon
          have := (hR.mono n hn).monotoneOn (Set.mem_Ici.mpr hx0.le) (Set.mem_Ici.mpr (by norm_num : (0 : ℝ) ≤ 4))
            (not_lt.mp hcon)
          have h5 : testPower R s.alpha n x ≤ testPower R s.alpha n 4 := this
          linarith
        have hm : a.mdv = .fin (Real.sqrt (x / (1 / sigma ^ 2))) := by
          rw [hmd, mdv, hx]
          simp only [magnitude, hq]
          rw [if_pos (by positivity)]
        obtain ⟨-, -, hl, -⟩ := hv1 _ hm
        rw [hl, hse]
        apply Real.le_sqrt_of_sq_le
        have : x / (1 / sigma ^ 2) = x * sigma ^ 2 := by field_simp
        rw [this]
        have : 0 < sigma ^ 2 := by positivity
        nlinarith
      · right
        refine (hv2 fun y hy => ?_).1
        rw [hmd, mdv, hx] at hy
        exact absurd hy (by simp)
  refine ⟨key, ?_⟩
  have hagree := C132_agree hn (fun _ => hs.le) hr ha
  rw [Bool.eq_false_iff, ne_eq, hagree]
  rcases key with h | h <;> rw [h] <;> decide

/-- Two uncorrelated pre-periods with standard errors `t` and 1. -/
noncomputable def two (t : ℝ) : Pre 2 :=
  { effects := fun _ => 0, ses := ![t, 1], vcov := Matrix.diagonal ![t ^ 2, 1] }

/-- Noise in a pre-period the pattern does not look at makes the test look better: for violations in the last pre-period
the verdict is "low power" when both standard errors are 1 and "fairly sensitive" when the other one is 23, while the
minimum detectable violation is the same. -/
theorem C132_noise_refuted {R : Routines} {alpha target : ℝ} (hR : NonCentral R alpha) (hb : RootFinder R.brentq)
    (hat : alpha < target) (h4 : testPower R alpha 2 4 < target) (h512 : target ≤ testPower R alpha 2 512) :
    ∃ a b, sensitivity R ⟨alpha, target, .lastPeriod⟩ (two 1) = .ok a ∧
      sensitivity R ⟨alpha, target, .lastPeriod⟩ (two 23) = .ok b ∧ a.mdv = b.mdv ∧ a.verdict = .low ∧
      b.verdict = .sensitive := by
  have hn : 1 ≤ 2 := by norm_num
  obtain ⟨w, hw, hu, -⟩ := C43_unit_partial .lastPeriod 2 (by simp [Nonzero])
  have hwv : w = fun i => if i.1 + 1 = 2 then 1 else 0 := by
    simp only [weights, raw] at hw
    rw [if_neg (by norm_num)] at hw
    have := Except.ok.inj hw
    rw [← this]
    have hnorm : Pretrends.norm (fun i : Fin 2 => if i.1 + 1 = 2 then (1 : ℝ) else 0) = 1 := by
      rw [Pretrends.norm, Fin.sum_univ_two]
      norm_num
    simp only [normalise, hnorm]
    simp
  obtain ⟨x, hx, hx0, hx5, hxp⟩ : ∃ x, targetNc R alpha target 2 = some x ∧ 0 < x ∧ x ≤ 512 ∧
      testPower R alpha 2 x = target := by
    rcases targetNc_spec hR hb hn hat with h | ⟨-, h⟩
    · exact h
    · exact absurd h512 (not_le.mpr h)
  have h4x : 4 < x := by
    by_contra hcon
    have := (hR.mono 2 hn).monotoneOn (Set.mem_Ici.mpr hx0.le) (Set.mem_Ici.mpr (by norm_num : (0 : ℝ) ≤ 4))
      (not_lt.mp hcon)
    have h5 : testPower R alpha 2 x ≤ testPower R alpha 2 4 := this
    linarith
  have hmdv : ∀ t : ℝ, t ≠ 0 → mdv R alpha target w (two t).vcov = .fin (Real.sqrt x) := by
    intro t ht
    have hq : quad R w (two t).vcov = 1 := by
      simp only [two]
      rw [quad_diag R w _ (by intro i; fin_cases i <;> simp [ht]), hwv]
      simp [Fin.sum_univ_two]
    simp only [mdv, hx, magnitude, hq]
    simp
  have hmax : ∀ t : ℝ, 1 ≤ t → maxSe (two t).ses = t := by
    intro t ht
    refine maxSe_unique hn ⟨0, rfl⟩ fun i => ?_
    fin_cases i
    · exact le_rfl
    · exact ht
  have hsens : ∀ t : ℝ, sensitivity R ⟨alpha, target, .lastPeriod⟩ (two t) = .ok
      { mdv := mdv R alpha target w (two t).vcov, maxSe := maxSe (two t).ses
        inSes := inSes (mdv R alpha target w (two t).vcov) (maxSe (two t).ses)
        verdict := verdictOf (mdv R alpha target w (two t).vcov) (maxSe (two t).ses) } := by
    intro t
    simp only [sensitivity, fit, hw]
  refine ⟨_, _, hsens 1, hsens 23, by rw [hmdv 1 (by norm_num), hmdv 23 (by norm_num)], ?_, ?_⟩
  · refine ((C132_verdict (hsens 1) (by simp [hmax])).1 _ (hmdv 1 (by norm_num))).2.2.1.mpr ?_
    simp only [hmax 1 le_rfl]
    exact Real.le_sqrt_of_sq_le (by linarith)
  · refine ((C132_verdict (hsens 23) (by simp only [hmax 23 (by norm_num)]; norm_num)).1 _
      (hmdv 23 (by norm_num))).1.mpr ?_
    simp only [hmax 23 (by norm_num)]
    rw [Real.sqrt_lt' (by norm_num)]
    linarith

/-- Hypotheses met by the routines of the demonstration: level 1/20 and target 9/10. -/
example : NonCentral demo (1 / 20) ∧ RootFinder demo.brentq ∧ testPower demo (1 / 20) 2 4 < 9 / 10 ∧
    (9 / 10 : ℝ) ≤ testPower demo (1 / 20) 2 512 :=
  ⟨demo_nonCentral (by norm_num), demo_rootFinder, by simp only [testPower, demo]; norm_num,
    by simp only [testPower, demo]; norm_num⟩

/-! ### Convenience functions -/

/-- The convenience functions give what the class gives, for the three built-in patterns; the minimum detectable
violation is the same at whatever magnitude the power is asked for. -/
theorem C132_convenience {R : Routines} {n : ℕ} {pre : Pre n} {M : Option ℝ} {alpha target : ℝ} {k : Kind}
    {r : Result n} (h : computePower R pre M alpha target k = .ok r) :
    k ≠ .custom ∧ (∃ p, k.pattern = some p ∧ fit R ⟨alpha, target, p⟩ pre M = .ok r) ∧
    (0 < alpha ∧ alpha < 1 ∧ 0 < target ∧ target < 1) ∧ computeMdv R pre alpha target k = .ok r.mdv := by
  simp only [computePower] at h
  cases hv : validate alpha target k.pattern with
  | error e => rw [hv] at h; exact absurd h (by simp)
  | ok s =>
    rw [hv] at h
    obtain ⟨h1, h2, h3, h4, h5⟩ : (0 < alpha ∧ alpha < 1) ∧ (0 < target ∧ target < 1) ∧ ∃ p, k.pattern = some p ∧
        s = ⟨alpha, target, p⟩ := by
      simp only [validate] at hv
      by_cases ha : 0 < alpha ∧ alpha < 1
      · rw [if_neg (not_not.mpr ha)] at hv
        by_cases ht : 0 < target ∧ target < 1
        · rw [if_neg (not_not.mpr ht)] at hv
          cases hk : k.pattern with
          | none => rw [hk] at hv; exact absurd hv (by simp)
          | some p => rw [hk] at hv; exact ⟨ha, ht, p, rfl, (Except.ok.inj hv).symm⟩
        · rw [if_pos ht] at hv; exact absurd hv (by simp)
      · rw [if_pos ha] at hv; exact absurd hv (by simp)
    subst h5
    refine ⟨?_, ⟨h3, h4, h⟩, ⟨h1.1, h1.2, h2.1, h2.2⟩, ?_⟩
    · rintro rfl; exact absurd h4 (by simp [Kind.pattern])
    · simp only [computeMdv, hv]
      simp only [fit] at h ⊢
      cases hw : weights h3 n with
      | error e => rw [hw] at h; exact absurd h (by simp)
      | ok w => rw [hw] at h; obtain rfl := Except.ok.inj h; rfl

/-- The documented pattern "custom" cannot be used through the convenience functions: there is no way to give the
weights, and every call with valid levels is refused. -/
theorem C132_custom_refuted (R : Routines) {n : ℕ} (pre : Pre n) (M : Option ℝ) {alpha target : ℝ} (h1 : 0 < alpha)
    (h2 : alpha < 1) (h3 : 0 < target) (h4 : target < 1) :
    computePower R pre M alpha target .custom = .error .noWeights ∧
    computeMdv R pre alpha target .custom = .error .noWeights := by
  have hv : validate alpha target (Kind.pattern .custom) = .error .noWeights := by
    simp [validate, h1, h2, h3, h4, Kind.pattern]
  simp only [computePower, computeMdv, hv, and_self]

/-- The built-in patterns succeed. -/
example : ∃ r, computePower demo (common 3 2 fun _ => 0) none (1 / 20) (9 / 10) .constant = .ok r := by
  have hv : validate (1 / 20) (9 / 10) (Kind.pattern .constant) = .ok ⟨1 / 20, 9 / 10, .constant⟩ := by
    simp only [validate, Kind.pattern]
    rw [if_neg (by norm_num), if_neg (by norm_num)]
  rw [computePower, hv]
  exact ⟨_, rfl⟩

/-! ### The plots -/

section Plot

variable {K : Type} [Field K] [LinearOrder K] [IsStrictOrderedRing K]

theorem interp_onLine_le {a x : K} {l ps : List K} (hl : (a :: l).length = ps.length) (ha : a ≤ x)
    (hx : x ≤ (a :: l).getLastD 0) : OnLine ((a :: l).zip ps) (x, interp x (a :: l) ps) := by
  by_cases hn : x ∈ a :: l
  · obtain ⟨h1, h2, h3⟩ := interpIndex_spec x a l ha
    unfold interp
    rw [if_neg (not_lt.mpr hx), if_neg (by simpa using ha)]
    simp only
    generalize interpIndex x (a :: l) = j at *
    have hj : j < (a :: l).length := by simp; omega
    have hpt : (a :: l).getD j 0 = x → OnLine ((a :: l).zip ps) (x, ps.getD j 0) := by
      intro h
      have := zip_getElem? hl hj
      rw [h] at this
      exact Or.inl (List.mem_of_getElem? this)
    by_cases he : j + 1 = (a :: l).length
    · rw [if_pos he]
      apply hpt
      have : (a :: l).getLastD 0 = (a :: l).getD j 0 := by
        rw [List.getLastD_eq_getLast?, List.getLast?_eq_getElem?, List.getD_eq_getElem?_getD, ← he]
        simp
      rw [this] at hx
      exact le_antisymm h2 hx
    · rw [if_neg he]
      by_cases hq : (a :: l).getD j 0 = x
      · rw [if_pos hq]; exact hpt hq
      · rw [if_neg hq]
        have hj1 : j + 1 < (a :: l).length := by omega
        have hgt := h3 (by simp at hj1; omega)
        right
        refine ⟨j, _, _, zip_getElem? hl hj, zip_getElem? hl hj1,
          (x - (a :: l).getD j 0) / ((a :: l).getD (j + 1) 0 - (a :: l).getD j 0), ?_, ?_, ?_, ?_⟩
        · exact div_nonneg (by linarith) (by linarith)
        · rw [div_le_one (by linarith)]; linarith
        · simp only
          have : (a :: l).getD (j + 1) 0 - (a :: l).getD j 0 ≠ 0 := by intro h; linarith
          field_simp
          ring
        · simp only
          have : (a :: l).getD (j + 1) 0 - (a :: l).getD j 0 ≠ 0 := by intro h; linarith
          field_simp
          ring
  · exact interp_onLine hl ha hx hn

/-- A plotted curve: the line is the curve in order, the vertical line is at its minimum detectable violation when
finite, and for magnitudes in order the marker lies on the line, at that violation, whenever it is in the range. -/
theorem C132_plot {c : Curve K} (hs : c.Ms.Pairwise (· ≤ ·)) {target : Option K} {st : Bool} {d : Picture K}
    (h : plotPower (some (.curve c)) none none none target true st = .ok d) :
    (∃ l, d.points = some l ∧ l.map Prod.fst = c.Ms ∧ l.map Prod.snd = c.powers ∧
      ∀ q, d.marker = some q → c.mdv = .fin q.1 ∧ OnLine l q) ∧
    (∀ v, d.mdvLine = some v ↔ c.mdv = .fin v) ∧
    (d.marker ≠ none ↔ ∃ v, c.mdv = .fin v ∧ c.Ms ≠ [] ∧ c.Ms.headD 0 ≤ v ∧ v ≤ c.Ms.getLastD 0) := by
  simp only [plotPower, extract, Option.getD_none, Option.map_some, Option.getD_some] at h
  by_cases hl : decide (c.Ms.length = c.powers.length) = false
  · rw [if_pos hl] at h; exact absurd h (by simp)
  rw [if_neg hl] at h
  have hl : c.Ms.length = c.powers.length := by simpa using hl
  have e1 : (c.Ms.zip c.powers).map Prod.fst = c.Ms := List.map_fst_zip hl.le
  have e2 : (c.Ms.zip c.powers).map Prod.snd = c.powers := List.map_snd_zip hl.ge
  rw [if_neg (by simp)] at h
  cases hm : c.mdv with
  | fin v =>
    rw [hm] at h
    simp only at h
    cases hM : c.Ms with
    | nil => rw [hM] at h; simp only [markerAt] at h; exact absurd h (by simp)
    | cons a t =>
      rw [hM] at h hs hl e1 e2
      simp only [markerAt, foldl_min_sorted t a hs] at h
      by_cases hc : a ≤ v ∧ v ≤ t.foldl max a
      · rw [if_pos hc] at h
        obtain rfl := Except.ok.inj h
        have hx := le_foldl_max t a v hs hc.2
        refine ⟨⟨_, rfl, e1, e2, ?_⟩, fun x => by simp [eq_comm], ?_⟩
        · intro q hq
          obtain rfl := Option.some.inj hq
          exact ⟨rfl, interp_onLine_le hl hc.1 hx⟩
        · exact ⟨fun _ => ⟨v, rfl, by simp, hc.1, hx⟩, fun _ => by simp⟩
      · rw [if_neg hc] at h
        obtain rfl := Except.ok.inj h
        refine ⟨⟨_, rfl, e1, e2, fun q hq => (nomatch hq)⟩, fun x => by simp [eq_comm], fun hne => absurd rfl hne, ?_⟩
        rintro ⟨x, hx, -, h1, h2⟩
        obtain rfl := Ext.fin.inj hx
        exact absurd ⟨h1, h2.trans (last_le_max t a)⟩ hc
  | _ =>
    rw [hm] at h
    simp only at h
    obtain rfl := Except.ok.inj h
    refine ⟨⟨_, rfl, e1, e2, fun q hq => (nomatch hq)⟩, fun x => by simp, fun hne => absurd rfl hne, ?_⟩
    rintro ⟨x, hx, -⟩
    exact absurd hx (by simp)

/-- The target line of a plotted curve is at the function's own default, not at the curve's target: unless the caller
repeats the target (or passes `None`), the two plots of one curve disagree. Here the curve was computed for 9/10, the
marker sits at power 9/10, and the line labelled as target is at 4/5. -/
theorem C132_target_refuted :
    ∃ d e : Picture ℚ, plotPower (some (.curve ⟨[0, 1, 2], [1 / 20, 9 / 10, 19 / 20], .fin 1, 9 / 10⟩)) none none none
        (some (4 / 5)) true true = .ok d ∧
      plotCurve ⟨[0, 1, 2], [1 / 20, 9 / 10, 19 / 20], .fin 1, 9 / 10⟩ true true = .ok e ∧ d.points = e.points ∧
      d.mdvLine = e.mdvLine ∧ d.marker = some (1, 9 / 10) ∧ d.target = some (4 / 5) ∧ e.target = some (9 / 10) := by
  refine ⟨⟨some [(0, 1 / 20), (1, 9 / 10), (2, 19 / 20)], some (4 / 5), some 1, some (1, 9 / 10)⟩,
    ⟨some [(0, 1 / 20), (1, 9 / 10), (2, 19 / 20)], some (9 / 10), some 1, none⟩, ?_⟩
  decide +kernel

/-- With the target left out entirely (`None`) the curve's own target is drawn, and the two plots agree on everything but
the marker. -/
theorem C132_target_none (c : Curve K) {sm st : Bool} {d : Picture K}
    (h : plotPower (some (.curve c)) none none none none sm st = .ok d) :
    plotCurve c sm st = .ok { d with marker := none } := by
  simp only [plotPower, extract, Option.getD_none, Option.map_some, Option.getD_some] at h
  by_cases hl : decide (c.Ms.length = c.powers.length) = false
  · rw [if_pos hl] at h; exact absurd h (by simp)
  rw [if_neg hl] at h
  have hl : c.Ms.length = c.powers.length := by simpa using hl
  rw [if_neg (by simp)] at h
  simp only [plotCurve, if_neg (not_not.mpr hl)]
  cases sm with
  | false =>
    simp only at h
    obtain rfl := Except.ok.inj h
    cases hm : c.mdv <;> rfl
  | true =>
    cases hm : c.mdv with
    | fin v =>
      rw [hm] at h
      simp only at h
      cases hk : markerAt v (some (c.Ms, c.powers)) with
      | error e => rw [hk] at h; exact absurd h (by simp)
      | ok q => rw [hk] at h; obtain rfl := Except.ok.inj h; rfl
    | _ => rw [hm] at h; simp only at h; obtain rfl := Except.ok.inj h; rfl

/-- Plotting a single result draws no curve and no marker. -/
theorem C132_single_refuted (m : Ext K) (Ms powers : Option (List K)) (mdv : Option (Ext K)) {target : K}
    {sm st : Bool} {d : Picture K} (h : plotPower (some (.single m)) Ms powers mdv (some target) sm st = .ok d) :
    d.points = none ∧ d.marker = none := by
  simp only [plotPower, extract] at h
  rw [if_neg (by simp), if_neg (by simp)] at h
  simp only [Option.map_none] at h
  split at h
  · simp only [markerAt] at h
    obtain rfl := Except.ok.inj h
    exact ⟨rfl, rfl⟩
  · obtain rfl := Except.ok.inj h
    exact ⟨rfl, rfl⟩

/-- Hypotheses met. -/
example : ([0, 1, 2] : List ℚ).Pairwise (· ≤ ·) ∧
    ∃ d : Picture ℚ, plotPower (some (.curve ⟨[0, 1, 2], [1 / 20, 7 / 10, 19 / 20], .fin (3 / 2), 4 / 5⟩)) none none none
      none true true = .ok d ∧ d.marker = some (3 / 2, 33 / 40) := by
  refine ⟨by decide +kernel, ⟨some [(0, 1 / 20), (1, 7 / 10), (2, 19 / 20)], some (4 / 5), some (3 / 2),
    some (3 / 2, 33 / 40)⟩, ?_⟩
  decide +kernel

end Plot

end DiffDiff.PretrendsReport
