/-
Properties of the equivalence test and of the distributional pre-trend test: C110, C111.
-/
import Verif.TrendsProps

set_option linter.unusedSectionVars false

namespace DiffDiff.Trends

variable {K : Type*} [Field K] [LinearOrder K] [IsStrictOrderedRing K]

/-! ### Variance -/

theorem var1_eq (l : List K) : var1 l = sxx l (fun x => x) / ((l.length : K) - 1) := by
  simp only [var1, sxx, List.map_id']

theorem var1_nonneg (l : List K) : 0 ≤ var1 l := by
  rw [var1_eq]
  match l with
  | [] => simp [sxx]
  | a :: l =>
    apply div_nonneg (sxx_nonneg _ _)
    simp

theorem var1_affine (l : List K) (k c : K) : var1 (l.map (fun x => k * x + c)) = k ^ 2 * var1 l := by
  by_cases h : l = []
  · subst h; simp [var1]
  rw [var1_eq, var1_eq]
  have : sxx (l.map (fun x => k * x + c)) (fun x => x) = sxx l (fun x => k * x + c) := by
    simp only [sxx, List.map_map, List.map_id', Function.comp_def]
  rw [this, sxx_affine h (fun x => x) k c, List.length_map, mul_div_assoc]

theorem mean_perm {l l' : List K} (h : l.Perm l') : mean l = mean l' := by
  simp only [mean]
  rw [h.sum_eq, h.length_eq]

theorem var1_perm {l l' : List K} (h : l.Perm l') : var1 l = var1 l' := by
  simp only [var1]
  rw [mean_perm h, h.length_eq, (h.map _).sum_eq]

theorem var1_zero_iff {l : List K} (h : 2 ≤ l.length) : var1 l = 0 ↔ ∀ x ∈ l, ∀ y ∈ l, x = y := by
  have hl : l ≠ [] := by rintro rfl; simp at h
  have h1 : (l.length : K) - 1 ≠ 0 := by
    have : (2 : K) ≤ l.length := by exact_mod_cast h
    intro hc
    linarith
  rw [var1_eq, div_eq_zero_iff]
  have := sxx_ne_iff hl (fun x : K => x)
  constructor
  · rintro (h0 | h0)
    · by_contra hc
      push Not at hc
      exact this.mpr hc h0
    · exact absurd h0 h1
  · intro he
    left
    by_contra hc
    obtain ⟨x, hx, z, hz, hne⟩ := this.mp hc
    exact hne (he x hx z hz)

theorem sum_sq_about {l : List K} (h : l ≠ []) (m : K) :
    (l.map (fun x => (x - m) ^ 2)).sum = sxx l (fun x => x) + (l.length : K) * (m - mean l) ^ 2 := by
  have h0 := sum_center h (fun x : K => x)
  have := sum_sq_expand l (fun x => x - mean l) (fun _ => (0 : K)) (m - mean l) 0
  simp only [List.map_id'] at h0
  rw [h0] at this
  have e : l.map (fun x => (x - mean l - (m - mean l) - 0 * 0) ^ 2) = l.map (fun x => (x - m) ^ 2) :=
    List.map_congr_left (fun x _ => by ring)
  rw [e] at this
  rw [this]
  simp only [sxx, List.map_id']
  ring

/-- Pooled variance: within parts plus the part between the two groups. -/
theorem var1_pooled {u v : List K} (hu : 2 ≤ u.length) (hv : 2 ≤ v.length) :
    ((u.length : K) + v.length - 1) * var1 (u ++ v) = ((u.length : K) - 1) * var1 u + ((v.length : K) - 1) * var1 v +
      (u.length : K) * v.length / ((u.length : K) + v.length) * (mean u - mean v) ^ 2 := by
  have hu0 : u ≠ [] := by rintro rfl; simp at hu
  have hv0 : v ≠ [] := by rintro rfl; simp at hv
  have nu : (2 : K) ≤ u.length := by exact_mod_cast hu
  have nv : (2 : K) ≤ v.length := by exact_mod_cast hv
  have e1 : ((u.length : K) + v.length - 1) ≠ 0 := by intro h; linarith
  have e2 : ((u.length : K) + v.length) ≠ 0 := by intro h; linarith
  have e3 : ((u.length : K) - 1) ≠ 0 := by intro h; linarith
  have e4 : ((v.length : K) - 1) ≠ 0 := by intro h; linarith
  have e5 : (u.length : K) ≠ 0 := by intro h; linarith
  have e6 : (v.length : K) ≠ 0 := by intro h; linarith
  have hm : mean (u ++ v) = ((u.length : K) * mean u + v.length * mean v) / ((u.length : K) + v.length) := by
    simp only [mean, List.sum_append, List.length_append]
    push_cast
    field_simp
  have hw : var1 (u ++ v) = (sxx u (fun x => x) + (u.length : K) * (mean (u ++ v) - mean u) ^ 2 +
      (sxx v (fun x => x) + (v.length : K) * (mean (u ++ v) - mean v) ^ 2)) / ((u.length : K) + v.length - 1) := by
    rw [← sum_sq_about hu0, ← sum_sq_about hv0]
    simp only [var1, List.map_append, List.sum_append, List.length_append]
    push_cast
    rfl
  rw [hw, var1_eq, var1_eq, mul_div_cancel₀ _ e1, mul_div_cancel₀ _ e3, mul_div_cancel₀ _ e4, hm]
  field_simp
  ring

/-! ### Degrees of freedom -/

theorem welch_bounds {vt vc : K} {nt nc : ℕ} (ht : 2 ≤ nt) (hc : 2 ≤ nc) (h1 : 0 ≤ vt) (h2 : 0 ≤ vc) :
    min ((nt : K) - 1) ((nc : K) - 1) ≤ welch vt vc nt nc ∧ welch vt vc nt nc ≤ (nt : K) + nc - 2 := by
  have a1 : (2 : K) ≤ nt := by exact_mod_cast ht
  have a2 : (2 : K) ≤ nc := by exact_mod_cast hc
  have p1 : (0 : K) < (nt : K) - 1 := by linarith
  have p2 : (0 : K) < (nc : K) - 1 := by linarith
  have q1 : 0 ≤ vt / nt := by positivity
  have q2 : 0 ≤ vc / nc := by positivity
  have e1 : (if 0 < vt then (vt / nt) ^ 2 / ((nt : K) - 1) else 0) = (vt / nt) ^ 2 / ((nt : K) - 1) := by
    by_cases h : 0 < vt
    · rw [if_pos h]
    · have : vt = 0 := le_antisymm (not_lt.mp h) h1
      subst this
      simp
  have e2 : (if 0 < vc then (vc / nc) ^ 2 / ((nc : K) - 1) else 0) = (vc / nc) ^ 2 / ((nc : K) - 1) := by
    by_cases h : 0 < vc
    · rw [if_pos h]
    · have : vc = 0 := le_antisymm (not_lt.mp h) h2
      subst this
      simp
  simp only [welch, e1, e2]
  generalize ha : vt / (nt : K) = a at *
  generalize hb : vc / (nc : K) = b at *
  generalize hm : (nt : K) - 1 = m at *
  generalize hn : (nc : K) - 1 = n at *
  have hsum : (nt : K) + nc - 2 = m + n := by rw [← hm, ← hn]; ring
  rw [hsum]
  have d1 : 0 ≤ a ^ 2 / m := by positivity
  have d2 : 0 ≤ b ^ 2 / n := by positivity
  by_cases h0 : a ^ 2 / m + b ^ 2 / n = 0
  · rw [if_pos h0]
    exact ⟨le_refl _, le_trans (min_le_left _ _) (by linarith)⟩
  · rw [if_neg h0]
    have hpos : 0 < a ^ 2 / m + b ^ 2 / n := lt_of_le_of_ne (by linarith) (Ne.symm h0)
    constructor
    · rw [le_div_iff₀ hpos]
      have hmin : 0 < min m n := lt_min p1 p2
      have b1 : min m n * (a ^ 2 / m) ≤ a ^ 2 := by
        rw [← mul_div_assoc, div_le_iff₀ p1, mul_comm]
        exact mul_le_mul_of_nonneg_left (min_le_left _ _) (by positivity)
      have b2 : min m n * (b ^ 2 / n) ≤ b ^ 2 := by
        rw [← mul_div_assoc, div_le_iff₀ p2, mul_comm]
        exact mul_le_mul_of_nonneg_left (min_le_right _ _) (by positivity)
      have : 0 ≤ a * b := mul_nonneg q1 q2
      rw [mul_add]
      nlinarith
    · rw [div_le_iff₀ hpos]
      have : (m + n) * (a ^ 2 / m + b ^ 2 / n) - (a + b) ^ 2 = (a * n - b * m) ^ 2 / (m * n) := by
        field_simp
        ring
      have h3 : 0 ≤ (a * n - b * m) ^ 2 / (m * n) := by positivity
      linarith

/-! ### The test on two lists -/

/-- `r` is a square root on the non-negative numbers. -/
def IsSqrt (r : K → K) : Prop := ∀ x, 0 ≤ x → 0 ≤ r x ∧ r x ^ 2 = x

theorem IsSqrt.zero {r : K → K} (hr : IsSqrt r) {x : K} (hx : 0 ≤ x) : r x = 0 ↔ x = 0 := by
  obtain ⟨h1, h2⟩ := hr x hx
  constructor
  · intro h; rw [h] at h2; rw [← h2]; ring
  · intro h
    rw [h] at h2 h1 ⊢
    exact pow_eq_zero_iff (two_ne_zero) |>.mp h2

theorem IsSqrt.pos {r : K → K} (hr : IsSqrt r) {x : K} (hx : 0 < x) : 0 < r x :=
  lt_of_le_of_ne (hr x hx.le).1 (fun h => hx.ne' ((hr.zero hx.le).mp h.symm))

theorem IsSqrt.scale {r : K → K} (hr : IsSqrt r) {x k : K} (hx : 0 ≤ x) (hk : 0 ≤ k) : r (k ^ 2 * x) = k * r x := by
  obtain ⟨h1, h2⟩ := hr x hx
  obtain ⟨h3, h4⟩ := hr (k ^ 2 * x) (by positivity)
  have : r (k ^ 2 * x) ^ 2 = (k * r x) ^ 2 := by rw [h4, mul_pow, h2]
  exact (pow_left_inj₀ h3 (mul_nonneg hk h1) two_ne_zero).mp this

/-- The squared standard error. -/
def se2 (ct cc : List K) : K := var1 ct / (ct.length : K) + var1 cc / (cc.length : K)

theorem se2_nonneg (ct cc : List K) : 0 ≤ se2 ct cc := by
  have := var1_nonneg ct
  have := var1_nonneg cc
  unfold se2
  positivity

theorem se2_zero {ct cc : List K} (h1 : 2 ≤ ct.length) (h2 : 2 ≤ cc.length) : se2 ct cc = 0 ↔ var1 ct = 0 ∧ var1 cc = 0 := by
  have a1 : (0 : K) < ct.length := by
    have : 0 < ct.length := by omega
    exact_mod_cast this
  have a2 : (0 : K) < cc.length := by
    have : 0 < cc.length := by omega
    exact_mod_cast this
  have b1 := div_nonneg (var1_nonneg ct) a1.le
  have b2 := div_nonneg (var1_nonneg cc) a2.le
  unfold se2
  constructor
  · intro h
    have c1 : var1 ct / (ct.length : K) = 0 := by linarith
    have c2 : var1 cc / (cc.length : K) = 0 := by linarith
    rw [div_eq_zero_iff] at c1 c2
    exact ⟨c1.resolve_right a1.ne', c2.resolve_right a2.ne'⟩
  · rintro ⟨c1, c2⟩
    rw [c1, c2]
    simp

/-- The report when the test is carried out. -/
def tostOk (r : K → K) (sf cdf : K → K → K) (ct cc : List K) (m : K) : Tost K :=
  { diff := some (mean ct - mean cc), se := some (r (se2 ct cc)), margin := some m
    tLower := some ((mean ct - mean cc + m) / r (se2 ct cc)), tUpper := some ((mean ct - mean cc - m) / r (se2 ct cc))
    pLower := some (sf ((mean ct - mean cc + m) / r (se2 ct cc)) (welch (var1 ct) (var1 cc) ct.length cc.length))
    pUpper := some (cdf ((mean ct - mean cc - m) / r (se2 ct cc)) (welch (var1 ct) (var1 cc) ct.length cc.length))
    p := some (max (sf ((mean ct - mean cc + m) / r (se2 ct cc)) (welch (var1 ct) (var1 cc) ct.length cc.length))
      (cdf ((mean ct - mean cc - m) / r (se2 ct cc)) (welch (var1 ct) (var1 cc) ct.length cc.length)))
    df := some (welch (var1 ct) (var1 cc) ct.length cc.length)
    equivalent := some (decide (max (sf ((mean ct - mean cc + m) / r (se2 ct cc)) (welch (var1 ct) (var1 cc) ct.length cc.length))
      (cdf ((mean ct - mean cc - m) / r (se2 ct cc)) (welch (var1 ct) (var1 cc) ct.length cc.length)) < 1 / 20)) }

/-- The test can be carried out: two changes per group at least, not all equal in both groups. -/
def Testable (ct cc : List K) : Prop :=
  2 ≤ ct.length ∧ 2 ≤ cc.length ∧ ((∃ x ∈ ct, ∃ y ∈ ct, x ≠ y) ∨ ∃ x ∈ cc, ∃ y ∈ cc, x ≠ y)

theorem testable_iff {ct cc : List K} (h1 : 2 ≤ ct.length) (h2 : 2 ≤ cc.length) :
    Testable ct cc ↔ ¬(var1 ct = 0 ∧ var1 cc = 0) := by
  rw [var1_zero_iff h1, var1_zero_iff h2]
  unfold Testable
  constructor
  · rintro ⟨_, _, ⟨x, hx, y, hy, hne⟩ | ⟨x, hx, y, hy, hne⟩⟩ ⟨e1, e2⟩
    · exact hne (e1 x hx y hy)
    · exact hne (e2 x hx y hy)
  · intro h
    refine ⟨h1, h2, ?_⟩
    by_contra hc
    push Not at hc
    exact h ⟨fun x hx y hy => hc.1 x hx y hy, fun x hx y hy => hc.2 x hx y hy⟩

theorem Testable.se_pos {r : K → K} (hr : IsSqrt r) {ct cc : List K} (h : Testable ct cc) : 0 < se2 ct cc ∧ 0 < r (se2 ct cc) := by
  have h1 := h.1
  have h2 := h.2.1
  have hne : se2 ct cc ≠ 0 := fun hc => (testable_iff h1 h2).mp h ((se2_zero h1 h2).mp hc)
  have : 0 < se2 ct cc := lt_of_le_of_ne (se2_nonneg _ _) (Ne.symm hne)
  exact ⟨this, hr.pos this⟩

theorem tost_ok {r : K → K} (hr : IsSqrt r) (sf cdf : K → K → K) {ct cc : List K} (h : Testable ct cc) (margin : Option K) :
    tost r sf cdf ct cc margin = tostOk r sf cdf ct cc (margin.getD (1 / 2 * r (var1 (ct ++ cc)))) := by
  have h1 := h.1
  have h2 := h.2.1
  unfold tost
  have hne : r (var1 ct / ct.length + var1 cc / cc.length) ≠ 0 := (h.se_pos hr).2.ne'
  rw [if_neg (by omega), if_neg ((testable_iff h1 h2).mp h), if_neg hne]
  rfl

theorem tost_none {r : K → K} (hr : IsSqrt r) (sf cdf : K → K → K) {ct cc : List K} (h : ¬Testable ct cc) (margin : Option K) :
    (tost r sf cdf ct cc margin).equivalent = none ∧ (tost r sf cdf ct cc margin).p = none ∧
      (tost r sf cdf ct cc margin).margin = none ∧ (tost r sf cdf ct cc margin).df = none ∧
      (2 ≤ ct.length → 2 ≤ cc.length → (tost r sf cdf ct cc margin).diff = some (mean ct - mean cc) ∧
        (tost r sf cdf ct cc margin).se = some 0) := by
  unfold tost
  by_cases hl : ct.length < 2 ∨ cc.length < 2
  · rw [if_pos hl]
    refine ⟨rfl, rfl, rfl, rfl, fun a b => ?_⟩
    omega
  · rw [if_neg hl]
    have h1 : 2 ≤ ct.length := by omega
    have h2 : 2 ≤ cc.length := by omega
    have : var1 ct = 0 ∧ var1 cc = 0 := by
      by_contra hc
      exact h ((testable_iff h1 h2).mpr hc)
    rw [if_pos this]
    exact ⟨rfl, rfl, rfl, rfl, fun _ _ => ⟨rfl, rfl⟩⟩

theorem tost_some {r : K → K} (hr : IsSqrt r) (sf cdf : K → K → K) {ct cc : List K} {margin : Option K} {b : Bool}
    (h : (tost r sf cdf ct cc margin).equivalent = some b) : Testable ct cc := by
  by_contra hc
  rw [(tost_none hr sf cdf hc margin).1] at h
  cases h

/-! ### C110 -/

section equiv
variable (r : K → K) (sf cdf : K → K → K) (rows : List (Row K)) (byUnit : Bool) (pre : Option (List K))

/-- C110: the test gives a verdict exactly when each group has two changes at least and the changes of some group are not all equal. -/
theorem C110_defined (hr : IsSqrt r) (margin : Option K) :
    ((equivalenceTest r sf cdf rows byUnit pre margin).equivalent ≠ none ↔
      Testable (changes (preRows rows pre) byUnit 1) (changes (preRows rows pre) byUnit 0)) ∧
    (∀ m, (equivalenceTest r sf cdf rows byUnit pre (some m)).equivalent ≠ none →
      (equivalenceTest r sf cdf rows byUnit pre (some m)).margin = some m) := by
  constructor
  · constructor
    · intro h
      by_contra hc
      exact h (tost_none hr sf cdf hc margin).1
    · intro h
      unfold equivalenceTest
      rw [tost_ok hr sf cdf h]
      simp [tostOk]
  · intro m h
    have ht : Testable (changes (preRows rows pre) byUnit 1) (changes (preRows rows pre) byUnit 0) := by
      by_contra hc
      exact h (tost_none hr sf cdf hc (some m)).1
    unfold equivalenceTest
    rw [tost_ok hr sf cdf ht]
    rfl

/-- C110: the reported difference is the difference of the mean changes, its standard error is the root of the sum of the variances of
the means, and the degrees of freedom lie between the smaller group size minus one and the total size minus two. -/
theorem C110_df (hr : IsSqrt r) (margin : Option K) {ν : K}
    (h : (equivalenceTest r sf cdf rows byUnit pre margin).df = some ν) :
    let u := changes (preRows rows pre) byUnit 1
    let v := changes (preRows rows pre) byUnit 0
    (equivalenceTest r sf cdf rows byUnit pre margin).diff = some (u.sum / u.length - v.sum / v.length) ∧
    (∃ s, (equivalenceTest r sf cdf rows byUnit pre margin).se = some s ∧ 0 < s ∧
      s ^ 2 = (u.map (fun x => (x - u.sum / u.length) ^ 2)).sum / ((u.length : K) - 1) / u.length +
        (v.map (fun x => (x - v.sum / v.length) ^ 2)).sum / ((v.length : K) - 1) / v.length) ∧
    min ((u.length : K) - 1) ((v.length : K) - 1) ≤ ν ∧ ν ≤ (u.length : K) + v.length - 2 ∧ 0 < ν ∧
    ((∃ x ∈ u, ∃ y ∈ u, x ≠ y) → (∀ x ∈ v, ∀ y ∈ v, x = y) → ν = (u.length : K) - 1) ∧
    ((∃ x ∈ v, ∃ y ∈ v, x ≠ y) → (∀ x ∈ u, ∀ y ∈ u, x = y) → ν = (v.length : K) - 1) ∧
    (u.length = v.length → (u.map (fun x => (x - u.sum / u.length) ^ 2)).sum = (v.map (fun x => (x - v.sum / v.length) ^ 2)).sum →
      ν = (u.length : K) + v.length - 2) := by
  intro u v
  have ht : Testable u v := by
    by_contra hc
    have := (tost_none hr sf cdf hc margin).2.2.2.1
    unfold equivalenceTest at h
    rw [this] at h
    cases h
  have h1 := ht.1
  have h2 := ht.2.1
  have a1 : (2 : K) ≤ u.length := by exact_mod_cast h1
  have a2 : (2 : K) ≤ v.length := by exact_mod_cast h2
  have e : equivalenceTest r sf cdf rows byUnit pre margin = tostOk r sf cdf u v (margin.getD (1 / 2 * r (var1 (u ++ v)))) :=
    tost_ok hr sf cdf ht margin
  rw [e] at h ⊢
  simp only [tostOk, Option.some.injEq] at h
  subst h
  have hb := welch_bounds h1 h2 (var1_nonneg u) (var1_nonneg v)
  have hsp := ht.se_pos hr
  refine ⟨rfl, ⟨_, rfl, hsp.2, ?_⟩, hb.1, hb.2, ?_, ?_, ?_, ?_⟩
  · rw [(hr _ hsp.1.le).2]
    rfl
  · have : 0 < min ((u.length : K) - 1) ((v.length : K) - 1) := lt_min (by linarith) (by linarith)
    linarith [hb.1]
  · intro hx hy
    have hv0 := (var1_zero_iff h2).mpr hy
    have hu0 : var1 u ≠ 0 := fun hc => by
      obtain ⟨x, hx, y, hy, hne⟩ := hx
      exact hne ((var1_zero_iff h1).mp hc x hx y hy)
    have hup : 0 < var1 u := lt_of_le_of_ne (var1_nonneg u) (Ne.symm hu0)
    have n1 : (u.length : K) ≠ 0 := by intro h; linarith
    have n2 : (u.length : K) - 1 ≠ 0 := by intro h; linarith
    simp only [welch, hv0, if_pos hup, lt_irrefl, if_false, zero_div, add_zero]
    rw [if_neg (by positivity)]
    field_simp
  · intro hx hy
    have hu0 := (var1_zero_iff h1).mpr hy
    have hv0 : var1 v ≠ 0 := fun hc => by
      obtain ⟨x, hx, y, hy, hne⟩ := hx
      exact hne ((var1_zero_iff h2).mp hc x hx y hy)
    have hvp : 0 < var1 v := lt_of_le_of_ne (var1_nonneg v) (Ne.symm hv0)
    have n1 : (v.length : K) ≠ 0 := by intro h; linarith
    have n2 : (v.length : K) - 1 ≠ 0 := by intro h; linarith
    simp only [welch, hu0, if_pos hvp, lt_irrefl, if_false, zero_div, zero_add]
    rw [if_neg (by positivity)]
    field_simp
  · intro hlen hs
    have hvv : var1 u = var1 v := by
      show (u.map (fun x => (x - u.sum / u.length) ^ 2)).sum / ((u.length : K) - 1) =
        (v.map (fun x => (x - v.sum / v.length) ^ 2)).sum / ((v.length : K) - 1)
      rw [hs, hlen]
    have hne : var1 v ≠ 0 := fun hc => (testable_iff h1 h2).mp ht ⟨by rw [hvv, hc], hc⟩
    have hvp : 0 < var1 v := lt_of_le_of_ne (var1_nonneg v) (Ne.symm hne)
    have n1 : (v.length : K) ≠ 0 := by intro h; linarith
    have n2 : (v.length : K) - 1 ≠ 0 := by intro h; linarith
    simp only [welch, hvv, hlen, if_pos hvp]
    have hp : 0 < (v.length : K) - 1 := by linarith
    have hq : 0 < (v.length : K) := by linarith
    rw [if_neg (by positivity)]
    field_simp
    ring

/-- What is used of Student's t distribution with positive degrees of freedom. -/
structure TDist (sf cdf : K → K → K) : Prop where
  anti : ∀ ν, 0 < ν → ∀ x y, x ≤ y → sf y ν ≤ sf x ν
  half : ∀ ν, 0 < ν → sf 0 ν = 1 / 2
  mirror : ∀ ν, 0 < ν → ∀ x, cdf x ν = sf (-x) ν

theorem TDist.pos {sf cdf : K → K → K} (h : TDist sf cdf) {ν x : K} (hν : 0 < ν) (hx : sf x ν < 1 / 20) : 0 < x := by
  by_contra hc
  have := h.anti ν hν x 0 (not_lt.mp hc)
  rw [h.half ν hν] at this
  norm_num at this
  have h3 : (1 : K) / 20 < 1 / 2 := by norm_num
  linarith

variable {sf cdf}

theorem welch_pos {ct cc : List K} (h : Testable ct cc) : 0 < welch (var1 ct) (var1 cc) ct.length cc.length := by
  have h1 := h.1
  have h2 := h.2.1
  have a1 : (2 : K) ≤ ct.length := by exact_mod_cast h1
  have a2 : (2 : K) ≤ cc.length := by exact_mod_cast h2
  have hb := (welch_bounds h1 h2 (var1_nonneg ct) (var1_nonneg cc)).1
  have : 0 < min ((ct.length : K) - 1) ((cc.length : K) - 1) := lt_min (by linarith) (by linarith)
  linarith

/-- C110: when the groups are called equivalent, the mean difference is smaller in size than the margin, which is then positive. -/
theorem C110_margin (hr : IsSqrt r) (hT : TDist sf cdf) (margin : Option K)
    (h : (equivalenceTest r sf cdf rows byUnit pre margin).equivalent = some true) :
    ∃ d m, (equivalenceTest r sf cdf rows byUnit pre margin).diff = some d ∧
      (equivalenceTest r sf cdf rows byUnit pre margin).margin = some m ∧ |d| < m ∧ 0 < m := by
  have ht := tost_some hr sf cdf h
  have hse := (ht.se_pos hr).2
  unfold equivalenceTest at h ⊢
  rw [tost_ok hr sf cdf ht] at h ⊢
  have hν := welch_pos ht
  simp only [tostOk, Option.some.injEq, decide_eq_true_eq, max_lt_iff] at h
  have l1 := hT.pos hν h.1
  have h2 := h.2
  rw [hT.mirror _ hν] at h2
  have l2 := hT.pos hν h2
  rw [div_pos_iff_of_pos_right hse] at l1
  rw [← neg_div, div_pos_iff_of_pos_right hse] at l2
  refine ⟨_, _, rfl, rfl, ?_, ?_⟩
  · rw [abs_lt]
    constructor <;> linarith
  · linarith

/-- C110: with a margin of zero or less the groups are never called equivalent. -/
theorem C110_nonpos (hr : IsSqrt r) (hT : TDist sf cdf) {m : K} (hm : m ≤ 0) :
    (equivalenceTest r sf cdf rows byUnit pre (some m)).equivalent ≠ some true := by
  intro h
  obtain ⟨d, m', _, h2, _, h4⟩ := C110_margin r rows byUnit pre hr hT (some m) h
  have := (C110_defined r sf cdf rows byUnit pre hr none).2 m (by rw [h]; simp)
  rw [h2, Option.some.injEq] at this
  linarith

/-- C110: equivalence at level 0.05 means that the interval `difference ± q · se` lies strictly between minus and plus the margin, `q`
being the 0.95 quantile for the degrees of freedom. -/
theorem C110_interval (hr : IsSqrt r) (hT : TDist sf cdf) (margin : Option K) {d s m ν q : K}
    (hd : (equivalenceTest r sf cdf rows byUnit pre margin).diff = some d)
    (hs : (equivalenceTest r sf cdf rows byUnit pre margin).se = some s)
    (hm : (equivalenceTest r sf cdf rows byUnit pre margin).margin = some m)
    (hν : (equivalenceTest r sf cdf rows byUnit pre margin).df = some ν) (hq : ∀ x, sf x ν < 1 / 20 ↔ q < x) :
    (equivalenceTest r sf cdf rows byUnit pre margin).equivalent = some true ↔ -m < d - q * s ∧ d + q * s < m := by
  have ht : Testable (changes (preRows rows pre) byUnit 1) (changes (preRows rows pre) byUnit 0) := by
    by_contra hc
    have := (tost_none hr sf cdf hc margin).2.2.2.1
    unfold equivalenceTest at hν
    rw [this] at hν
    cases hν
  have hse := (ht.se_pos hr).2
  have hpos := welch_pos ht
  unfold equivalenceTest at hd hs hm hν ⊢
  rw [tost_ok hr sf cdf ht] at hd hs hm hν ⊢
  simp only [tostOk, Option.some.injEq, decide_eq_true_eq, max_lt_iff] at hd hs hm hν ⊢
  rw [hm, hd, hs, hν]
  rw [hν] at hpos
  rw [hs] at hse
  rw [hT.mirror _ hpos, hq, hq, ← neg_div, lt_div_iff₀ hse, lt_div_iff₀ hse]
  constructor
  · rintro ⟨h1, h2⟩
    constructor <;> linarith
  · rintro ⟨h1, h2⟩
    constructor <;> linarith

/-- C110: a larger margin never turns equivalent groups into groups that are not. -/
theorem C110_mono (hr : IsSqrt r) (hT : TDist sf cdf) {m m' : K} (hm : m ≤ m')
    (h : (equivalenceTest r sf cdf rows byUnit pre (some m)).equivalent = some true) :
    (equivalenceTest r sf cdf rows byUnit pre (some m')).equivalent = some true := by
  have ht := tost_some hr sf cdf h
  have hse := (ht.se_pos hr).2
  have hpos := welch_pos ht
  unfold equivalenceTest at h ⊢
  rw [tost_ok hr sf cdf ht] at h ⊢
  simp only [tostOk, Option.some.injEq, decide_eq_true_eq, max_lt_iff, Option.getD_some] at h ⊢
  rw [hT.mirror _ hpos] at h ⊢
  refine ⟨lt_of_le_of_lt (hT.anti _ hpos _ _ ?_) h.1, lt_of_le_of_lt (hT.anti _ hpos _ _ ?_) h.2⟩
  · exact div_le_div_of_nonneg_right (by linarith) hse.le
  · rw [← neg_div, ← neg_div]
    exact div_le_div_of_nonneg_right (by linarith) hse.le

/-- C110: the default margin is half the pooled standard deviation of all changes. Groups called equivalent with it have a difference
below 0.52 times the pooled within-group standard deviation: `d² < (4/15) s²`. -/
theorem C110_default (hr : IsSqrt r) (hT : TDist sf cdf)
    (h : (equivalenceTest r sf cdf rows byUnit pre none).equivalent = some true) :
    let u := changes (preRows rows pre) byUnit 1
    let v := changes (preRows rows pre) byUnit 0
    ∃ d m, (equivalenceTest r sf cdf rows byUnit pre none).diff = some d ∧
      (equivalenceTest r sf cdf rows byUnit pre none).margin = some m ∧ m ^ 2 = var1 (u ++ v) / 4 ∧
      d ^ 2 < 4 / 15 * ((((u.length : K) - 1) * var1 u + ((v.length : K) - 1) * var1 v) / ((u.length : K) + v.length - 2)) := by
  intro u v
  obtain ⟨d, m, hd, hm, hlt, hpos⟩ := C110_margin r rows byUnit pre hr hT none h
  have ht : Testable u v := tost_some hr sf cdf h
  have h1 := ht.1
  have h2 := ht.2.1
  refine ⟨d, m, hd, hm, ?_, ?_⟩
  · unfold equivalenceTest at hm
    rw [tost_ok hr sf cdf ht] at hm
    simp only [tostOk, Option.some.injEq, Option.getD_none] at hm
    rw [← hm, mul_pow, (hr _ (var1_nonneg _)).2]
    ring
  · have hm2 : m ^ 2 = var1 (u ++ v) / 4 := by
      unfold equivalenceTest at hm
      rw [tost_ok hr sf cdf ht] at hm
      simp only [tostOk, Option.some.injEq, Option.getD_none] at hm
      rw [← hm, mul_pow, (hr _ (var1_nonneg _)).2]
      ring
    have hdd : d = mean u - mean v := by
      unfold equivalenceTest at hd
      rw [tost_ok hr sf cdf ht] at hd
      simp only [tostOk, Option.some.injEq] at hd
      exact hd.symm
    have hsq : d ^ 2 < m ^ 2 := by
      rw [← sq_abs d]
      exact pow_lt_pow_left₀ hlt (abs_nonneg d) two_ne_zero
    have hp := var1_pooled h1 h2
    rw [← hdd] at hp
    have a1 : (2 : K) ≤ u.length := by exact_mod_cast h1
    have a2 : (2 : K) ≤ v.length := by exact_mod_cast h2
    set a : K := (u.length : K)
    set b : K := (v.length : K)
    set W : K := (a - 1) * var1 u + (b - 1) * var1 v with hW
    have hWn : 0 ≤ W := by
      have := var1_nonneg u
      have := var1_nonneg v
      have : 0 ≤ a - 1 := by linarith
      have : 0 ≤ b - 1 := by linarith
      positivity
    have hs2 : 0 < a + b - 2 := by linarith
    have hab : 0 < a + b := by linarith
    rw [← mul_div_assoc, lt_div_iff₀ hs2]
    -- a b / (a + b) ≤ (a + b) / 4
    have hq : a * b / (a + b) * d ^ 2 ≤ (a + b) / 4 * d ^ 2 := by
      apply mul_le_mul_of_nonneg_right _ (sq_nonneg d)
      rw [div_le_iff₀ hab]
      nlinarith [sq_nonneg (a - b)]
    have h3 : 4 * (a + b - 1) * d ^ 2 < W + (a + b) / 4 * d ^ 2 := by
      have : (a + b - 1) * (4 * d ^ 2) < (a + b - 1) * var1 (u ++ v) := by
        apply mul_lt_mul_of_pos_left _ (by linarith)
        rw [hm2] at hsq
        linarith
      linarith
    have hd2 : 0 ≤ d ^ 2 := sq_nonneg d
    nlinarith

end equiv
end DiffDiff.Trends
