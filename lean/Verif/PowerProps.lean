/-
Properties C44 and C79: analytical power calculations.
-/
import Verif.Power
import Mathlib.Analysis.Convex.Function

set_option linter.unusedSectionVars false

namespace DiffDiff.Power

/-! ### Specification of the normal distribution -/

/-- What is used of the normal law: a strictly increasing symmetric distribution function, concave on the positive
half-line, with its quantile function. -/
structure IsNormal (N : Normal) : Prop where
  mono : StrictMono N.cdf
  symm : ∀ x, N.cdf (-x) = 1 - N.cdf x
  inv : ∀ q, 0 < q → q < 1 → N.cdf (N.ppf q) = q
  pos : ∀ x, 0 < N.cdf x
  concave : ConcaveOn ℝ (Set.Ici 0) N.cdf

/-- Valid settings. -/
def Settings.Valid (s : Settings) : Prop := 0 < s.alpha ∧ s.alpha < 1 ∧ 0 < s.target ∧ s.target < 1

theorem validate_ok {alpha target : ℝ} {a : Alternative} {s : Settings} (h : validate alpha target a = .ok s) :
    s = ⟨alpha, target, a⟩ ∧ s.Valid := by
  simp only [validate] at h
  by_cases h1 : 0 < alpha ∧ alpha < 1
  · rw [if_neg (not_not.mpr h1)] at h
    by_cases h2 : 0 < target ∧ target < 1
    · rw [if_neg (not_not.mpr h2)] at h
      obtain rfl := (Except.ok.inj h).symm
      exact ⟨rfl, h1.1, h1.2, h2.1, h2.2⟩
    · rw [if_pos h2] at h; exact absurd h (by simp)
  · rw [if_pos h1] at h; exact absurd h (by simp)

/-- A law with these properties and rational values: `1/2 + x / (2 (1 + |x|))`. -/
noncomputable def demo : Normal where
  cdf x := 1 / 2 + x / (2 * (1 + |x|))
  ppf q := (2 * q - 1) / (1 - |2 * q - 1|)

theorem demo_nonneg {x : ℝ} (h : 0 ≤ x) : demo.cdf x = 1 - 1 / (2 * (1 + x)) := by
  simp only [demo, abs_of_nonneg h]
  field_simp
  ring

theorem demo_symm (x : ℝ) : demo.cdf (-x) = 1 - demo.cdf x := by
  simp only [demo, abs_neg]
  ring

theorem demo_mono : StrictMono demo.cdf := by
  have hpos : ∀ x y : ℝ, 0 ≤ x → x < y → demo.cdf x < demo.cdf y := by
    intro x y hx hxy
    rw [demo_nonneg hx, demo_nonneg (hx.trans hxy.le)]
    have : 1 / (2 * (1 + y)) < 1 / (2 * (1 + x)) := one_div_lt_one_div_of_lt (by linarith) (by linarith)
    linarith
  have hneg : ∀ x y : ℝ, y ≤ 0 → x < y → demo.cdf x < demo.cdf y := by
    intro x y hy hxy
    have := hpos (-y) (-x) (by linarith) (by linarith)
    rw [demo_symm, demo_symm] at this
    linarith
  intro x y hxy
  rcases le_total 0 x with hx | hx
  · exact hpos x y hx hxy
  · rcases le_total y 0 with hy | hy
    · exact hneg x y hy hxy
    · rcases hx.lt_or_eq with hx' | rfl
      · have h1 := hneg x 0 le_rfl hx'
        rcases hy.lt_or_eq with hy' | rfl
        · exact h1.trans (hpos 0 y le_rfl hy')
        · exact h1
      · exact hpos 0 y le_rfl hxy

theorem demo_normal : IsNormal demo where
  mono := demo_mono
  symm := demo_symm
  inv q h0 h1 := by
    have ha : |2 * q - 1| < 1 := abs_lt.mpr ⟨by linarith, by linarith⟩
    have hd : 0 < 1 - |2 * q - 1| := by linarith
    simp only [demo, abs_div, abs_of_pos hd]
    field_simp
    ring
  pos x := by
    simp only [demo]
    have h1 := neg_abs_le x
    have hp : 0 < 2 * (1 + |x|) := by positivity
    have : -(1 / 2) < x / (2 * (1 + |x|)) := by
      rw [lt_div_iff₀ hp]; linarith
    linarith
  concave := by
    refine ⟨convex_Ici 0, ?_⟩
    intro x hx y hy a b ha hb hab
    have hx' : (0 : ℝ) ≤ x := hx
    have hy' : (0 : ℝ) ≤ y := hy
    simp only [smul_eq_mul]
    rw [demo_nonneg hx', demo_nonneg hy', demo_nonneg (by positivity)]
    obtain rfl : b = 1 - a := by linarith
    have key : 1 / (2 * (1 + (a * x + (1 - a) * y))) ≤ a * (1 / (2 * (1 + x))) + (1 - a) * (1 / (2 * (1 + y))) := by
      have h1 : 0 < 1 + x := by linarith
      have h2 : 0 < 1 + y := by linarith
      have h3 : 0 < 1 + (a * x + (1 - a) * y) := by positivity
      rw [div_le_iff₀ (by positivity)]
      have e : (a * (1 / (2 * (1 + x))) + (1 - a) * (1 / (2 * (1 + y)))) * (2 * (1 + (a * x + (1 - a) * y))) =
          1 + a * (1 - a) * (x - y) ^ 2 / ((1 + x) * (1 + y)) := by
        field_simp
        ring
      rw [e]
      have : 0 ≤ a * (1 - a) * (x - y) ^ 2 / ((1 + x) * (1 + y)) := by positivity
      linarith
    linarith

section
variable {N : Normal} (hN : IsNormal N)
include hN

theorem cdf_zAlpha {s : Settings} (hs : s.Valid) :
    N.cdf (zAlpha N s) = match s.alternative with | .twoSided => 1 - s.alpha / 2 | _ => 1 - s.alpha := by
  obtain ⟨h0, h1, -, -⟩ := hs
  unfold zAlpha
  cases s.alternative
  · exact hN.inv _ (by linarith) (by linarith)
  · exact hN.inv _ (by linarith) (by linarith)
  · exact hN.inv _ (by linarith) (by linarith)

theorem cdf_neg_zBeta {s : Settings} (hs : s.Valid) : N.cdf (-N.ppf s.target) = 1 - s.target := by
  rw [hN.symm, hN.inv _ hs.2.2.1 hs.2.2.2]

theorem cdf_zero : N.cdf 0 = 1 / 2 := by
  have := hN.symm 0
  rw [neg_zero] at this
  linarith

theorem zAlpha_pos {s : Settings} (hs : s.Valid) (h2 : s.alternative = .twoSided) : 0 < zAlpha N s := by
  rw [← hN.mono.lt_iff_lt, cdf_zero hN, cdf_zAlpha hN hs, h2]
  show 1 / 2 < 1 - s.alpha / 2
  linarith [hs.2.1]

/-! ### Power as a function of the effect -/

/-- With no effect the test rejects with probability `alpha`, for each alternative. -/
theorem C44_size {s : Settings} (hs : s.Valid) (se : ℝ) : powerAt N s 0 se = s.alpha := by
  have h := cdf_zAlpha hN hs
  have h' := hN.symm (zAlpha N s)
  unfold powerAt
  cases ha : s.alternative
  · rw [ha] at h
    simp only [zero_div, sub_zero] at *
    rw [h', h]; ring
  · rw [ha] at h
    simp only [zero_div, sub_zero] at *
    rw [h]; ring
  · rw [ha] at h
    simp only [zero_div, sub_zero] at *
    rw [h', h]; ring

theorem increments {u v h : ℝ} (hv : 0 ≤ v) (huv : v ≤ u) (hh : 0 ≤ h) :
    N.cdf (u + h) - N.cdf u ≤ N.cdf (v + h) - N.cdf v := by
  rcases hh.lt_or_eq with hh | rfl
  · rcases huv.lt_or_eq with huv | rfl
    · have hlt : 0 < u - v := by linarith
      -- both points `v + h` and `u` are convex combinations of `v` and `u + h`
      have hd : 0 < u + h - v := by linarith
      set a := h / (u + h - v) with ha
      have ha0 : 0 ≤ a := by positivity
      have ha1 : a ≤ 1 := by rw [ha, div_le_one hd]; linarith
      have hav : a * (u + h - v) = h := by rw [ha]; field_simp
      have c1 := hN.concave.2 (Set.mem_Ici.mpr hv) (Set.mem_Ici.mpr (by linarith : (0 : ℝ) ≤ u + h))
        (by linarith : 0 ≤ 1 - a) ha0 (by ring)
      have c2 := hN.concave.2 (Set.mem_Ici.mpr hv) (Set.mem_Ici.mpr (by linarith : (0 : ℝ) ≤ u + h))
        ha0 (by linarith : 0 ≤ 1 - a) (by ring)
      simp only [smul_eq_mul] at c1 c2
      have e1 : (1 - a) * v + a * (u + h) = v + h := by linear_combination hav
      have e2 : a * v + (1 - a) * (u + h) = u := by linear_combination -hav
      rw [e1] at c1
      rw [e2] at c2
      linarith
    · exact le_refl _
  · simp

/-- The two-sided acceptance probability falls as the shift moves away from zero. -/
theorem acceptance {z x y : ℝ} (hz : 0 ≤ z) (hx : 0 ≤ x) (hxy : x ≤ y) :
    N.cdf (z - y) - N.cdf (-z - y) ≤ N.cdf (z - x) - N.cdf (-z - x) := by
  have e1 : N.cdf (-z - y) = 1 - N.cdf (z + y) := by rw [← hN.symm]; ring_nf
  have e2 : N.cdf (-z - x) = 1 - N.cdf (z + x) := by rw [← hN.symm]; ring_nf
  rw [e1, e2]
  rcases le_total y z with h1 | h1
  · have := increments hN (v := z - y) (u := z + x) (h := y - x) (by linarith) (by linarith) (by linarith)
    rw [show z + x + (y - x) = z + y by ring, show z - y + (y - x) = z - x by ring] at this
    linarith
  · have e3 : N.cdf (z - y) = 1 - N.cdf (y - z) := by rw [← hN.symm]; ring_nf
    rw [e3]
    rcases le_total x z with h2 | h2
    · have i1 := increments hN (v := 0) (u := z + x) (h := z - x) le_rfl (by linarith) (by linarith)
      have i2 := increments hN (v := 0) (u := 2 * z) (h := y - z) le_rfl (by linarith) (by linarith)
      rw [show z + x + (z - x) = 2 * z by ring, zero_add, cdf_zero hN] at i1
      rw [show 2 * z + (y - z) = z + y by ring, zero_add, cdf_zero hN] at i2
      linarith
    · have e4 : N.cdf (z - x) = 1 - N.cdf (x - z) := by rw [← hN.symm]; ring_nf
      have := increments hN (v := x - z) (u := z + x) (h := y - x) (by linarith) (by linarith) (by linarith)
      rw [show z + x + (y - x) = z + y by ring, show x - z + (y - x) = y - z by ring] at this
      rw [e4]
      linarith

theorem power_even {s : Settings} (h2 : s.alternative = .twoSided) (e se : ℝ) :
    powerAt N s (-e) se = powerAt N s e se := by
  unfold powerAt
  rw [h2]
  simp only
  rw [show -zAlpha N s - -e / se = -(zAlpha N s - e / se) by ring,
    show zAlpha N s - -e / se = -(-zAlpha N s - e / se) by ring, hN.symm, hN.symm]
  ring

/-- Power never falls as the effect grows: in the direction of a one-sided alternative, and in absolute value for the
two-sided one. -/
theorem C44_effect_monotone {s : Settings} (hs : s.Valid) {se e e' : ℝ} (hse : 0 < se) :
    match s.alternative with
    | .twoSided => |e| ≤ |e'| → powerAt N s e se ≤ powerAt N s e' se
    | .greater => e < e' → powerAt N s e se < powerAt N s e' se
    | .less => e < e' → powerAt N s e' se < powerAt N s e se := by
  cases ha : s.alternative
  · intro h
    have habs : ∀ x, powerAt N s |x| se = powerAt N s x se := by
      intro x
      rcases abs_choice x with hx | hx
      · rw [hx]
      · rw [hx, power_even hN ha]
    rw [← habs e, ← habs e']
    have := acceptance hN (z := zAlpha N s) (x := |e| / se) (y := |e'| / se) (zAlpha_pos hN hs ha).le
      (by positivity) (by gcongr)
    unfold powerAt
    rw [ha]
    simp only
    linarith
  · intro h
    unfold powerAt
    rw [ha]
    have h1 : e / se < e' / se := div_lt_div_of_pos_right h hse
    have := hN.mono (show zAlpha N s - e' / se < zAlpha N s - e / se by linarith)
    simp only
    linarith
  · intro h
    unfold powerAt
    rw [ha]
    have h1 : e / se < e' / se := div_lt_div_of_pos_right h hse
    exact hN.mono (by linarith)

/-! ### Minimum detectable effect -/

theorem mde_div {s : Settings} {se : ℝ} (hse : 0 < se) : mdeFromSe N s se / se = zSum N s := by
  simp only [mdeFromSe]
  field_simp

/-- Against the alternative of a positive effect, power at the minimum detectable effect is the target. -/
theorem mde_greater {s : Settings} (hs : s.Valid) (ha : s.alternative = .greater) {se : ℝ} (hse : 0 < se) :
    powerAt N s (mdeFromSe N s se) se = s.target := by
  unfold powerAt
  rw [ha]
  simp only
  rw [mde_div hN hse, zSum, show zAlpha N s - (zAlpha N s + N.ppf s.target) = -N.ppf s.target by ring,
    cdf_neg_zBeta hN hs]
  ring

/-- Against the two-sided alternative it is the target plus the probability of rejecting on the wrong side. -/
theorem mde_twoSided {s : Settings} (hs : s.Valid) (ha : s.alternative = .twoSided) {se : ℝ} (hse : 0 < se) :
    powerAt N s (mdeFromSe N s se) se = s.target + N.cdf (-zAlpha N s - zSum N s) := by
  unfold powerAt
  rw [ha]
  simp only
  rw [mde_div hN hse, zSum, show zAlpha N s - (zAlpha N s + N.ppf s.target) = -N.ppf s.target by ring,
    cdf_neg_zBeta hN hs]
  ring

/-- Against the alternative of a negative effect the target is reached at minus the reported value. -/
theorem mde_less {s : Settings} (hs : s.Valid) (ha : s.alternative = .less) {se : ℝ} (hse : 0 < se) :
    powerAt N s (-mdeFromSe N s se) se = s.target := by
  unfold powerAt
  rw [ha]
  simp only
  rw [neg_div, mde_div hN hse, zSum, show -zAlpha N s - -(zAlpha N s + N.ppf s.target) = N.ppf s.target by ring,
    hN.inv _ hs.2.2.1 hs.2.2.2]

theorem zSum_pos {s : Settings} (hs : s.Valid) (h : s.alpha < s.target) (ha : s.alternative ≠ .twoSided) :
    0 < zSum N s := by
  have h1 := cdf_zAlpha hN hs
  have h2 := cdf_neg_zBeta hN hs
  have : -N.ppf s.target < zAlpha N s := by
    rw [← hN.mono.lt_iff_lt, h1, h2]
    cases h3 : s.alternative
    · exact absurd h3 ha
    · simp only; linarith
    · simp only; linarith
  simp only [zSum]
  linarith

theorem zSum_pos_two {s : Settings} (hs : s.Valid) (h : s.alpha / 2 < s.target) (ha : s.alternative = .twoSided) :
    0 < zSum N s := by
  have h1 := cdf_zAlpha hN hs
  rw [ha] at h1
  have h2 := cdf_neg_zBeta hN hs
  have : -N.ppf s.target < zAlpha N s := by
    rw [← hN.mono.lt_iff_lt, h1, h2]
    simp only; linarith
  simp only [zSum]
  linarith

end

/-! ### Standard errors -/

/-- Inputs for which the design variance is positive. -/
structure Inputs (nt nc pre post : ℕ) (sigma rho : ℝ) : Prop where
  nt : 1 ≤ nt
  nc : 1 ≤ nc
  sigma : sigma ≠ 0
  rho : 2 < pre + post → 0 < 1 + ((pre + post : ℕ) - 1 : ℝ) * rho

/-- Factor of the design variance that does not depend on the numbers of units. -/
noncomputable def factor (pre post : ℕ) (rho : ℝ) : ℝ :=
  match design pre post with
  | .basic => 2
  | .panel => (1 + ((pre + post : ℕ) - 1 : ℝ) * rho) / ((pre + post : ℕ) : ℝ)

theorem variance_eq (nt nc pre post : ℕ) (sigma rho : ℝ) :
    variance (design pre post) nt nc pre post sigma rho =
      sigma ^ 2 * factor pre post rho * (1 / (nt : ℝ) + 1 / (nc : ℝ)) := by
  unfold variance factor
  cases design pre post
  · simp only; ring
  · simp only; ring

theorem factor_pos {nt nc pre post : ℕ} {sigma rho : ℝ} (h : Inputs nt nc pre post sigma rho) :
    0 < factor pre post rho := by
  unfold factor design
  by_cases hT : 2 < pre + post
  · rw [if_pos hT]
    have h1 := h.rho hT
    have h2 : (0 : ℝ) < ((pre + post : ℕ) : ℝ) := by exact_mod_cast (by omega)
    exact div_pos h1 h2
  · rw [if_neg hT]
    norm_num

theorem variance_pos {nt nc pre post : ℕ} {sigma rho : ℝ} (h : Inputs nt nc pre post sigma rho) :
    0 < variance (design pre post) nt nc pre post sigma rho := by
  rw [variance_eq]
  have h1 : (0 : ℝ) < nt := by exact_mod_cast h.nt
  have h2 : (0 : ℝ) < nc := by exact_mod_cast h.nc
  have h3 := factor_pos h
  have h4 : 0 < sigma ^ 2 := by have := h.sigma; positivity
  positivity

theorem se_pos {nt nc pre post : ℕ} {sigma rho : ℝ} (h : Inputs nt nc pre post sigma rho) :
    0 < se nt nc pre post sigma rho := Real.sqrt_pos.mpr (variance_pos h)

theorem se_sq {nt nc pre post : ℕ} {sigma rho : ℝ} (h : Inputs nt nc pre post sigma rho) :
    se nt nc pre post sigma rho ^ 2 = sigma ^ 2 * factor pre post rho * (1 / (nt : ℝ) + 1 / (nc : ℝ)) := by
  rw [← variance_eq]
  exact Real.sq_sqrt (variance_pos h).le

theorem power_ok {N : Normal} {s : Settings} {nt nc pre post : ℕ} {sigma rho : ℝ}
    (h : Inputs nt nc pre post sigma rho) (e : ℝ) : ∃ r, power N s e nt nc sigma pre post rho = .ok r ∧
      r.power = powerAt N s e (se nt nc pre post sigma rho) ∧
      r.mde = mdeFromSe N s (se nt nc pre post sigma rho) := by
  refine ⟨_, if_neg ?_, rfl, rfl⟩
  have := h.nt; have := h.nc
  omega

theorem mde_ok {N : Normal} {s : Settings} {nt nc pre post : ℕ} {sigma rho : ℝ} {r : Result}
    (h : mde N s nt nc sigma pre post rho = .ok r) :
    r.mde = mdeFromSe N s (se nt nc pre post sigma rho) ∧ r.power = s.target ∧ 1 ≤ nt ∧ 1 ≤ nc := by
  simp only [mde] at h
  by_cases h0 : nt = 0 ∨ nc = 0
  · rw [if_pos h0] at h; exact absurd h (by simp)
  · rw [if_neg h0] at h
    obtain rfl := (Except.ok.inj h).symm
    exact ⟨rfl, rfl, by omega, by omega⟩

/-- Power at the reported minimum detectable effect: exactly the target against a positive effect, and for the
two-sided test between the target and the target plus half of `alpha`. -/
theorem C44_mde_partial {N : Normal} (hN : IsNormal N) {s : Settings} (hs : s.Valid) {nt nc pre post : ℕ}
    {sigma rho : ℝ} (hi : Inputs nt nc pre post sigma rho) {m p : Result}
    (hm : mde N s nt nc sigma pre post rho = .ok m) (hp : power N s m.mde nt nc sigma pre post rho = .ok p) :
    p.mde = m.mde ∧
    match s.alternative with
    | .greater => p.power = s.target
    | .twoSided => s.target < p.power ∧ (s.alpha / 2 < s.target → p.power < s.target + s.alpha / 2)
    | .less => ∀ p', power N s (-m.mde) nt nc sigma pre post rho = .ok p' → p'.power = s.target := by
  obtain ⟨hmm, -, -, -⟩ := mde_ok hm
  obtain ⟨q, hq, hqp, hqm⟩ := power_ok (N := N) (s := s) hi m.mde
  rw [hq] at hp
  obtain rfl := (Except.ok.inj hp).symm
  refine ⟨by rw [hqm, hmm], ?_⟩
  have hse := se_pos hi
  cases ha : s.alternative
  · simp only
    rw [hqp, hmm, mde_twoSided hN hs ha hse]
    refine ⟨by linarith [hN.pos (-zAlpha N s - zSum N s)], fun h => ?_⟩
    have h1 := hN.mono (show -zAlpha N s - zSum N s < -zAlpha N s by linarith [zSum_pos_two hN hs h ha])
    have h2 := cdf_zAlpha hN hs
    rw [ha] at h2
    rw [hN.symm (zAlpha N s), h2] at h1
    simp only at h1
    linarith
  · simp only
    rw [hqp, hmm, mde_greater hN hs ha hse]
  · intro p' hp'
    obtain ⟨q', hq', hqp', -⟩ := power_ok (N := N) (s := s) hi (-m.mde)
    rw [hq'] at hp'
    obtain rfl := (Except.ok.inj hp').symm
    rw [hqp', hmm, mde_less hN hs ha hse]

/-- For the two-sided test power at the minimum detectable effect is never exactly the target. -/
theorem C44_mde_refuted {N : Normal} (hN : IsNormal N) {s : Settings} (hs : s.Valid) (ha : s.alternative = .twoSided)
    {nt nc pre post : ℕ} {sigma rho : ℝ} (hi : Inputs nt nc pre post sigma rho) {m p : Result}
    (hm : mde N s nt nc sigma pre post rho = .ok m) (hp : power N s m.mde nt nc sigma pre post rho = .ok p) :
    p.power ≠ m.power := by
  have h := (C44_mde_partial hN hs hi hm hp).2
  rw [ha] at h
  rw [(mde_ok hm).2.1]
  exact h.1.ne'

/-- Against the alternative of a negative effect, the effect reported as detectable with the target power is detected
with less than `alpha`. -/
theorem C44_mde_less_refuted {N : Normal} (hN : IsNormal N) {s : Settings} (hs : s.Valid) (ha : s.alternative = .less)
    (hat : s.alpha < s.target) {nt nc pre post : ℕ} {sigma rho : ℝ} (hi : Inputs nt nc pre post sigma rho)
    {m p : Result} (hm : mde N s nt nc sigma pre post rho = .ok m)
    (hp : power N s m.mde nt nc sigma pre post rho = .ok p) : m.power = s.target ∧ p.power < s.alpha := by
  obtain ⟨hmm, ht, -, -⟩ := mde_ok hm
  obtain ⟨q, hq, hqp, -⟩ := power_ok (N := N) (s := s) hi m.mde
  rw [hq] at hp
  obtain rfl := (Except.ok.inj hp).symm
  refine ⟨ht, ?_⟩
  have h := C44_effect_monotone hN hs (e := 0) (e' := m.mde) (se_pos hi)
  rw [ha] at h
  rw [hqp, ← C44_size hN hs (se nt nc pre post sigma rho)]
  apply h
  rw [hmm, mdeFromSe]
  exact mul_pos (zSum_pos hN hs hat (by rw [ha]; simp)) (se_pos hi)

/-- Hypotheses of the theorems on the minimum detectable effect, met: 50 treated and 40 control units, five periods. -/
example : Inputs 50 40 2 3 1 (1 / 2) ∧ (Settings.mk (1 / 20) (4 / 5) .less).Valid ∧
    (∃ m, mde demo ⟨1 / 20, 4 / 5, .less⟩ 50 40 1 2 3 (1 / 2) = .ok m) :=
  ⟨⟨by norm_num, by norm_num, by norm_num, fun _ => by norm_num⟩, by norm_num [Settings.Valid], _, rfl⟩

/-- More units never give a larger standard error. -/
theorem se_antitone {nt nc nt' nc' pre post : ℕ} {sigma rho : ℝ} (hi : Inputs nt nc pre post sigma rho)
    (ht : nt ≤ nt') (hc : nc ≤ nc') : se nt' nc' pre post sigma rho ≤ se nt nc pre post sigma rho := by
  unfold se
  apply Real.sqrt_le_sqrt
  rw [variance_eq, variance_eq]
  have h1 : (0 : ℝ) < nt := by exact_mod_cast hi.nt
  have h2 : (0 : ℝ) < nc := by exact_mod_cast hi.nc
  have h3 : 0 < factor pre post rho := factor_pos hi
  have e1 : (nt : ℝ) ≤ nt' := by exact_mod_cast ht
  have e2 : (nc : ℝ) ≤ nc' := by exact_mod_cast hc
  have f1 := one_div_le_one_div_of_le h1 e1
  have f2 := one_div_le_one_div_of_le h2 e2
  apply mul_le_mul_of_nonneg_left _ (by positivity)
  linarith

/-- Power never falls when units are added: against a positive effect for a positive effect, and for the two-sided test
for any effect. -/
theorem C44_units_monotone {N : Normal} (hN : IsNormal N) {s : Settings} (hs : s.Valid)
    {nt nc nt' nc' pre post : ℕ} {sigma rho : ℝ} (hi : Inputs nt nc pre post sigma rho) (ht : nt ≤ nt') (hc : nc ≤ nc')
    {e : ℝ} (he : match s.alternative with | .greater => 0 ≤ e | .less => e ≤ 0 | .twoSided => True) {p p' : Result}
    (hp : power N s e nt nc sigma pre post rho = .ok p) (hp' : power N s e nt' nc' sigma pre post rho = .ok p') :
    p.power ≤ p'.power ∧ (0 ≤ zSum N s → p'.mde ≤ p.mde) := by
  have hi' : Inputs nt' nc' pre post sigma rho := ⟨hi.nt.trans ht, hi.nc.trans hc, hi.sigma, hi.rho⟩
  obtain ⟨q, hq, hqp, hqm⟩ := power_ok (N := N) (s := s) hi e
  rw [hq] at hp
  obtain rfl := (Except.ok.inj hp).symm
  obtain ⟨q', hq', hqp', hqm'⟩ := power_ok (N := N) (s := s) hi' e
  rw [hq'] at hp'
  obtain rfl := (Except.ok.inj hp').symm
  have hle := se_antitone hi ht hc
  have h0 := se_pos hi
  have h0' := se_pos hi'
  refine ⟨?_, fun hz => by rw [hqm, hqm', mdeFromSe, mdeFromSe]; exact mul_le_mul_of_nonneg_left hle hz⟩
  rw [hqp, hqp']
  generalize se nt nc pre post sigma rho = a at *
  generalize se nt' nc' pre post sigma rho = b at *
  -- a smaller standard error acts like a larger effect
  have hscale : ∀ x, powerAt N s x b = powerAt N s (x * a / b) a := by
    intro x
    have : x * a / b / a = x / b := by field_simp
    unfold powerAt
    rw [this]
  rw [hscale]
  have hge : 1 ≤ a / b := (one_le_div h0').mpr hle
  have key := C44_effect_monotone hN hs (e := e) (e' := e * a / b) h0
  have hmul : e * a / b = e * (a / b) := by ring
  cases ha : s.alternative
  · rw [ha] at key
    apply key
    rw [hmul, abs_mul, abs_of_pos (by positivity : 0 < a / b)]
    exact le_mul_of_one_le_right (abs_nonneg e) hge
  · rw [ha] at key he
    have hee : e ≤ e * a / b := by rw [hmul]; exact le_mul_of_one_le_right he hge
    rcases hee.lt_or_eq with h | h
    · exact (key h).le
    · rw [← h]
  · have key' := C44_effect_monotone hN hs (e := e * a / b) (e' := e) h0
    rw [ha] at key' he
    have hee : e * a / b ≤ e := by rw [hmul]; nlinarith
    rcases hee.lt_or_eq with h | h
    · exact (key' h).le
    · rw [h]

/-! ### Required sample size -/

/-- Product over sum of the two groups. -/
noncomputable def harm (a b : ℝ) : ℝ := a * b / (a + b)

theorem harm_mono {a b a' b' : ℝ} (ha : 0 < a) (hb : 0 < b) (haa : a ≤ a') (hbb : b ≤ b') : harm a b ≤ harm a' b' := by
  have ha' : 0 < a' := ha.trans_le haa
  have hb' : 0 < b' := hb.trans_le hbb
  unfold harm
  rw [div_le_div_iff₀ (by positivity) (by positivity)]
  have e : a' * b' * (a + b) - a * b * (a' + b') = a * a' * (b' - b) + b * b' * (a' - a) := by ring
  have h1 : 0 ≤ a * a' * (b' - b) := by
    have : 0 ≤ b' - b := by linarith
    positivity
  have h2 : 0 ≤ b * b' * (a' - a) := by
    have : 0 ≤ a' - a := by linarith
    positivity
  linarith

theorem mde_le_iff {N : Normal} {s : Settings} {nt nc pre post : ℕ} {sigma rho e : ℝ}
    (hi : Inputs nt nc pre post sigma rho) (hz : 0 ≤ zSum N s) (he : e ≠ 0) :
    mdeFromSe N s (se nt nc pre post sigma rho) ≤ |e| ↔
      zSum N s ^ 2 * sigma ^ 2 * factor pre post rho / e ^ 2 ≤ harm nt nc := by
  have h1 : (0 : ℝ) < nt := by exact_mod_cast hi.nt
  have h2 : (0 : ℝ) < nc := by exact_mod_cast hi.nc
  have hse := se_pos hi
  have hsq := se_sq hi
  unfold mdeFromSe harm
  have he2 : 0 < e ^ 2 := by positivity
  rw [div_le_div_iff₀ he2 (by positivity)]
  have : zSum N s * se nt nc pre post sigma rho ≤ |e| ↔ (zSum N s * se nt nc pre post sigma rho) ^ 2 ≤ |e| ^ 2 :=
    (pow_le_pow_iff_left₀ (by positivity) (abs_nonneg e) two_ne_zero).symm
  rw [this, sq_abs, mul_pow, hsq]
  have e3 : zSum N s ^ 2 * (sigma ^ 2 * factor pre post rho * (1 / (nt : ℝ) + 1 / (nc : ℝ))) =
      zSum N s ^ 2 * sigma ^ 2 * factor pre post rho * (nt + nc) / (nt * nc) := by
    field_simp
    ring
  rw [e3, div_le_iff₀ (by positivity)]
  constructor <;> intro h <;> linarith

/-- The number of units returned before allocation, and what it guarantees. The panel formula carries a factor two that
the design variance does not. -/
theorem requiredN_spec {N : Normal} {s : Settings} {e sigma rho frac : ℝ} {pre post : ℕ} (he : e ≠ 0) (hf0 : 0 < frac)
    (hf1 : frac < 1) :
    4 ≤ requiredN N s (design pre post) e sigma pre post rho frac ∧
    (match design pre post with | .basic => 1 | .panel => 2) *
      (zSum N s ^ 2 * sigma ^ 2 * factor pre post rho / e ^ 2) ≤
      (requiredN N s (design pre post) e sigma pre post rho frac : ℝ) * (frac * (1 - frac)) := by
  simp only [requiredN, if_neg he]
  refine ⟨le_max_left _ _, ?_⟩
  have h1 : 0 < frac * (1 - frac) := mul_pos hf0 (by linarith)
  have hraw : (rawN N s (design pre post) e sigma pre post rho frac) ≤
      ((max 4 ⌈rawN N s (design pre post) e sigma pre post rho frac⌉₊ : ℕ) : ℝ) := by
    refine (Nat.le_ceil _).trans ?_
    exact_mod_cast le_max_right _ _
  refine le_trans (le_of_eq ?_) (mul_le_mul_of_nonneg_right hraw h1.le)
  have h2 : (1 - frac) ≠ 0 := by linarith
  have h3 : frac ≠ 0 := hf0.ne'
  unfold rawN factor design
  by_cases hT : 2 < pre + post
  · rw [if_pos hT]
    have h4 : ((pre + post : ℕ) : ℝ) ≠ 0 := by
      have : (0 : ℝ) < ((pre + post : ℕ) : ℝ) := by exact_mod_cast (by omega)
      exact this.ne'
    simp only
    field_simp
  · rw [if_neg hT]
    simp only
    field_simp

/-- The fraction is met exactly by a whole number of units, or treated units are few enough that rounding them up does
not hurt. -/
def Fits (n : ℕ) (frac : ℝ) : Prop := (∃ k : ℕ, (n : ℝ) * frac = k) ∨ 1 ≤ (n : ℝ) * (1 - 2 * frac)

theorem alloc_fits {n : ℕ} {frac : ℝ} (hn : 4 ≤ n) (hf0 : 0 < frac) (hf1 : frac < 1) (hfit : Fits n frac) :
    (n : ℝ) * (frac * (1 - frac)) ≤ harm (allocTreated n frac) (allocControl n frac) := by
  have hnr : (4 : ℝ) ≤ n := by exact_mod_cast hn
  have ha0 : 0 < (n : ℝ) * frac := by positivity
  have haN : (n : ℝ) * frac < n := by nlinarith
  set c := ⌈(n : ℝ) * frac⌉₊ with hc
  have hcle : (n : ℝ) * frac ≤ c := Nat.le_ceil _
  have hclt : (c : ℝ) < n * frac + 1 := Nat.ceil_lt_add_one ha0.le
  have hc1 : 1 ≤ c := Nat.ceil_pos.mpr ha0
  have hcn : c ≤ n := Nat.ceil_le.mpr haN.le
  have hprod : ∀ t : ℕ, 2 ≤ t → t ≤ n → (n : ℝ) * frac * (n - n * frac) ≤ (t : ℝ) * (n - t) →
      allocTreated n frac = t → (n : ℝ) * (frac * (1 - frac)) ≤ harm (allocTreated n frac) (allocControl n frac) := by
    intro t ht2 htn hle halloc
    have hct : allocControl n frac = max 2 (n - t) := by rw [allocControl, halloc]
    rw [halloc, hct]
    have hge : ((n - t : ℕ) : ℝ) ≤ ((max 2 (n - t) : ℕ) : ℝ) := by exact_mod_cast le_max_right _ _
    have hcast : ((n - t : ℕ) : ℝ) = (n : ℝ) - t := Nat.cast_sub htn
    have htr : (2 : ℝ) ≤ t := by exact_mod_cast ht2
    have hpos : 0 < (n : ℝ) - t := by
      have h1 : 0 < (n : ℝ) * frac * (n - n * frac) := mul_pos ha0 (by linarith)
      have h2 : 0 < (t : ℝ) * (n - t) := h1.trans_le hle
      exact (pos_iff_pos_of_mul_pos h2).mp (by linarith)
    refine le_trans ?_ (harm_mono (a := t) (b := (n : ℝ) - t) (by linarith) hpos le_rfl (by rw [← hcast]; exact hge))
    unfold harm
    rw [show (t : ℝ) + (n - t) = n by ring, le_div_iff₀ (by linarith)]
    nlinarith
  by_cases h2 : 2 ≤ c
  · refine hprod c h2 hcn ?_ (by rw [allocTreated, ← hc]; omega)
    have hd : 0 ≤ ((c : ℝ) - n * frac) * ((n : ℝ) - 2 * (n * frac) - (c - n * frac)) := by
      rcases hfit with ⟨k, hk⟩ | h
      · have : c = k := by rw [hc, hk, Nat.ceil_natCast]
        rw [this, hk]; simp
      · apply mul_nonneg <;> nlinarith
    nlinarith
  · refine hprod 2 le_rfl (by omega) ?_ (by rw [allocTreated, ← hc]; omega)
    have hc1' : c = 1 := by omega
    rw [hc1'] at hcle
    push_cast at hcle ⊢
    nlinarith

theorem alloc_half {n : ℕ} {frac : ℝ} (hn : 4 ≤ n) (hf0 : 0 < frac) (hf1 : frac < 1) :
    (n : ℝ) * (frac * (1 - frac)) ≤ 2 * harm (allocTreated n frac) (allocControl n frac) := by
  have hnr : (4 : ℝ) ≤ n := by exact_mod_cast hn
  have ha0 : 0 < (n : ℝ) * frac := by positivity
  have hb0 : 0 < (n : ℝ) * (1 - frac) := mul_pos (by linarith) (by linarith)
  have ht : (n : ℝ) * frac ≤ allocTreated n frac := by
    refine (Nat.le_ceil _).trans ?_
    exact_mod_cast le_max_right _ _
  have hcl : (n : ℝ) * (1 - frac) / 2 ≤ allocControl n frac := by
    have h2 : (2 : ℝ) ≤ allocControl n frac := by exact_mod_cast le_max_left _ _
    rcases le_total ((n : ℝ) * (1 - frac)) 4 with h | h
    · linarith
    · have hceil : (⌈(n : ℝ) * frac⌉₊ : ℝ) < n * frac + 1 := Nat.ceil_lt_add_one ha0.le
      have hat : (allocTreated n frac : ℝ) ≤ n * frac + 2 := by
        unfold allocTreated
        push_cast
        apply max_le <;> linarith
      have hle : allocTreated n frac ≤ n := by
        have : (allocTreated n frac : ℝ) ≤ n := by nlinarith
        exact_mod_cast this
      have hc : ((n - allocTreated n frac : ℕ) : ℝ) ≤ allocControl n frac := by exact_mod_cast le_max_right _ _
      rw [Nat.cast_sub hle] at hc
      nlinarith
  have := harm_mono (a := (n : ℝ) * frac) (b := (n : ℝ) * (1 - frac) / 2) ha0 (by linarith) ht hcl
  refine le_trans ?_ (mul_le_mul_of_nonneg_left this (by norm_num))
  unfold harm
  rw [mul_div_assoc', le_div_iff₀ (by linarith)]
  have h3 : 0 ≤ (n : ℝ) * (frac * (1 - frac)) := by
    have : 0 ≤ 1 - frac := by linarith
    positivity
  have e : (n : ℝ) * (frac * (1 - frac)) * (n * frac + n * (1 - frac) / 2) =
      2 * (n * frac * (n * (1 - frac) / 2)) - (n : ℝ) * (frac * (1 - frac)) * (n * (1 - frac) / 2) := by ring
  rw [e]
  have : 0 ≤ (n : ℝ) * (frac * (1 - frac)) * (n * (1 - frac) / 2) := by positivity
  linarith

theorem sampleSize_ok {N : Normal} {s : Settings} {e sigma rho frac : ℝ} {pre post : ℕ} {r : Result}
    (h : sampleSize N s e sigma pre post rho frac = .ok r) :
    r.power = s.target ∧ r.effect = e ∧ r.requiredN = r.nt + r.nc ∧
    r.nt = allocTreated (requiredN N s (design pre post) e sigma pre post rho frac) frac ∧
    r.nc = allocControl (requiredN N s (design pre post) e sigma pre post rho frac) frac ∧
    r.mde = mdeFromSe N s (se r.nt r.nc pre post sigma rho) := by
  simp only [sampleSize] at h
  split_ifs at h with h0
  obtain rfl := (Except.ok.inj h).symm
  exact ⟨rfl, rfl, rfl, rfl, rfl, rfl⟩

theorem alloc_inputs {n pre post : ℕ} {frac sigma rho : ℝ} (hs : sigma ≠ 0)
    (hr : 2 < pre + post → 0 < 1 + ((pre + post : ℕ) - 1 : ℝ) * rho) :
    Inputs (allocTreated n frac) (allocControl n frac) pre post sigma rho :=
  ⟨le_trans (by norm_num) (le_max_left _ _), le_trans (by norm_num) (le_max_left _ _), hs, hr⟩

/-- Panel designs: the sample returned always detects the requested effect with the target power. -/
theorem C44_sample_size_panel {N : Normal} {s : Settings} (hz : 0 ≤ zSum N s) {e sigma rho frac : ℝ} {pre post : ℕ}
    (hT : 2 < pre + post) (he : e ≠ 0) (hsig : sigma ≠ 0) (hr : 0 < 1 + ((pre + post : ℕ) - 1 : ℝ) * rho)
    (hf0 : 0 < frac) (hf1 : frac < 1) {r : Result} (h : sampleSize N s e sigma pre post rho frac = .ok r) :
    r.mde ≤ |e| := by
  obtain ⟨-, -, -, hnt, hnc, hm⟩ := sampleSize_ok h
  obtain ⟨h4, hN⟩ := requiredN_spec (N := N) (s := s) (sigma := sigma) (rho := rho) (pre := pre) (post := post) he hf0 hf1
  have hd : design pre post = .panel := if_pos hT
  rw [hm, hnt, hnc, mde_le_iff (alloc_inputs hsig (fun _ => hr)) hz he]
  have h2 := alloc_half h4 hf0 hf1
  rw [hd] at hN h2 ⊢
  simp only at hN
  linarith

/-- Designs with two periods: the same, provided rounding leaves the treated share intact. -/
theorem C44_sample_size_partial {N : Normal} {s : Settings} (hz : 0 ≤ zSum N s) {e sigma rho frac : ℝ} {pre post : ℕ}
    (hT : ¬ 2 < pre + post) (he : e ≠ 0) (hsig : sigma ≠ 0) (hf0 : 0 < frac) (hf1 : frac < 1)
    (hfit : Fits (requiredN N s (design pre post) e sigma pre post rho frac) frac) {r : Result}
    (h : sampleSize N s e sigma pre post rho frac = .ok r) : r.mde ≤ |e| := by
  obtain ⟨-, -, -, hnt, hnc, hm⟩ := sampleSize_ok h
  obtain ⟨h4, hN⟩ := requiredN_spec (N := N) (s := s) (sigma := sigma) (rho := rho) (pre := pre) (post := post) he hf0 hf1
  have hd : design pre post = .basic := if_neg hT
  rw [hm, hnt, hnc, mde_le_iff (alloc_inputs hsig (fun h => absurd h hT)) hz he]
  have h2 := alloc_fits h4 hf0 hf1 hfit
  rw [hd] at hN h2 ⊢
  simp only at hN
  linarith

/-- In any case the minimum detectable effect of the sample returned is at most the square root of two times the
requested one. -/
theorem C44_sample_size_bound {N : Normal} {s : Settings} (hz : 0 ≤ zSum N s) {e sigma rho frac : ℝ} {pre post : ℕ}
    (hT : ¬ 2 < pre + post) (he : e ≠ 0) (hsig : sigma ≠ 0) (hf0 : 0 < frac) (hf1 : frac < 1) {r : Result}
    (h : sampleSize N s e sigma pre post rho frac = .ok r) : r.mde ≤ Real.sqrt 2 * |e| := by
  obtain ⟨-, -, -, hnt, hnc, hm⟩ := sampleSize_ok h
  obtain ⟨h4, hN⟩ := requiredN_spec (N := N) (s := s) (sigma := sigma) (rho := rho) (pre := pre) (post := post) he hf0 hf1
  have hd : design pre post = .basic := if_neg hT
  have hs2 : 0 < Real.sqrt 2 := Real.sqrt_pos.mpr (by norm_num)
  have habs : Real.sqrt 2 * |e| = |Real.sqrt 2 * e| := by rw [abs_mul, abs_of_pos hs2]
  rw [hm, hnt, hnc, habs, mde_le_iff (alloc_inputs hsig (fun h => absurd h hT)) hz (mul_ne_zero hs2.ne' he)]
  have h2 := alloc_half h4 hf0 hf1
  rw [hd] at hN h2 ⊢
  simp only [one_mul] at hN
  rw [mul_pow, Real.sq_sqrt (by norm_num), div_mul_eq_div_div_swap] 
  linarith

/-- Without the proviso it fails: with equal allocation and an odd total the sample returned is too small. -/
theorem C44_sample_size_refuted {N : Normal} {s : Settings} (hz : 0 < zSum N s) :
    ∃ (e : ℝ) (r : Result), 0 < e ∧ sampleSize N s e 1 1 1 0 (1 / 2) = .ok r ∧ r.requiredN = 5 ∧ e < r.mde := by
  let e : ℝ := zSum N s * Real.sqrt (8 / 5)
  have hpos : 0 < Real.sqrt (8 / 5) := Real.sqrt_pos.mpr (by norm_num)
  have he : 0 < e := mul_pos hz hpos
  have hsq : e ^ 2 = zSum N s ^ 2 * (8 / 5) := by
    simp only [e]
    rw [mul_pow, Real.sq_sqrt (by norm_num)]
  have hd : design 1 1 = .basic := rfl
  have hraw : rawN N s (design 1 1) e 1 1 1 0 (1 / 2) = 5 := by
    rw [hd]
    simp only [rawN]
    rw [hsq]
    field_simp
    norm_num
  have hreq : requiredN N s (design 1 1) e 1 1 1 0 (1 / 2) = 5 := by
    rw [requiredN, if_neg he.ne', hraw]
    norm_num
  have hat : allocTreated 5 (1 / 2) = 3 := by
    have : ⌈((5 : ℕ) : ℝ) * (1 / 2)⌉₊ = 3 := by
      rw [Nat.ceil_eq_iff (by norm_num)]
      norm_num
    rw [allocTreated, this]; norm_num
  have hac : allocControl 5 (1 / 2) = 2 := by rw [allocControl, hat]; norm_num
  have hok : ∃ r, sampleSize N s e 1 1 1 0 (1 / 2) = .ok r := by
    refine ⟨_, if_neg ?_⟩
    norm_num
  obtain ⟨r, hr⟩ := hok
  obtain ⟨-, -, hrn, hnt, hnc, hm⟩ := sampleSize_ok hr
  rw [hreq, hat] at hnt
  rw [hreq, hac] at hnc
  refine ⟨e, r, he, hr, by rw [hrn, hnt, hnc], ?_⟩
  have hi : Inputs 3 2 1 1 (1 : ℝ) 0 := ⟨by norm_num, by norm_num, by norm_num, fun h => absurd h (by norm_num)⟩
  rw [hm, hnt, hnc, ← not_le]
  have habs : e = |e| := (abs_of_pos he).symm
  rw [habs, mde_le_iff hi hz.le he.ne', not_le, hsq]
  have : factor 1 1 (0 : ℝ) = 2 := rfl
  rw [this, harm]
  rw [lt_div_iff₀ (by positivity)]
  field_simp
  norm_num

/-- Two-period designs: nothing smaller would do. Any sample with the requested share of treated units and fewer units
than the number required has a minimum detectable effect above the requested one. -/
theorem C44_sample_size_minimal {N : Normal} {s : Settings} (hz : 0 ≤ zSum N s) {e sigma rho frac : ℝ} {pre post : ℕ}
    (hT : ¬ 2 < pre + post) (he : e ≠ 0) (hsig : sigma ≠ 0) (hf0 : 0 < frac) (hf1 : frac < 1)
    (h4 : 4 < requiredN N s (design pre post) e sigma pre post rho frac) {nt nc : ℕ} (hnt : 1 ≤ nt) (hnc : 1 ≤ nc)
    (hshare : (nt : ℝ) = frac * (nt + nc)) (hlt : nt + nc < requiredN N s (design pre post) e sigma pre post rho frac)
    {m : Result} (hm : mde N s nt nc sigma pre post rho = .ok m) : |e| < m.mde := by
  obtain ⟨hmm, -, -, -⟩ := mde_ok hm
  have hd : design pre post = .basic := if_neg hT
  rw [hmm, ← not_le, mde_le_iff ⟨hnt, hnc, hsig, fun h => absurd h hT⟩ hz he, not_le]
  simp only [requiredN, if_neg he] at h4 hlt
  have hc : nt + nc < ⌈rawN N s (design pre post) e sigma pre post rho frac⌉₊ := by
    rcases lt_max_iff.mp hlt with h | h
    · rcases lt_max_iff.mp h4 with h' | h'
      · omega
      · omega
    · exact h
  have hraw := Nat.lt_ceil.mp hc
  have h1 : 0 < frac * (1 - frac) := mul_pos hf0 (by linarith)
  have hnc' : (nc : ℝ) = (1 - frac) * (nt + nc) := by linear_combination (-1 : ℝ) * hshare
  have hsum : (0 : ℝ) < nt + nc := by
    have : (0 : ℝ) < nt := by exact_mod_cast hnt
    positivity
  have hharm : harm nt nc = (nt + nc) * (frac * (1 - frac)) := by
    unfold harm
    rw [div_eq_iff hsum.ne']
    calc (nt : ℝ) * nc = (frac * (nt + nc)) * ((1 - frac) * (nt + nc)) := by rw [← hshare, ← hnc']
      _ = _ := by ring
  rw [hharm]
  have hf : factor pre post rho = 2 := by unfold factor; rw [hd]
  have := mul_lt_mul_of_pos_right hraw h1
  push_cast at this
  refine this.trans_le (le_of_eq ?_)
  rw [hf, hd]
  simp only [rawN]
  have h2 : (1 - frac) ≠ 0 := by linarith
  have h3 : frac ≠ 0 := hf0.ne'
  field_simp

/-- Panel designs: the number returned is twice what is needed. With three periods, 24 units are asked for although 12
already have the requested minimum detectable effect. -/
theorem C44_panel_size_refuted {N : Normal} {s : Settings} (hz : 0 < zSum N s) :
    ∃ (e : ℝ) (r m : Result), 0 < e ∧ sampleSize N s e 1 1 2 0 (1 / 2) = .ok r ∧ r.requiredN = 24 ∧
      mde N s 6 6 1 1 2 0 = .ok m ∧ m.mde ≤ e := by
  let e : ℝ := zSum N s / 3
  have he : 0 < e := by positivity
  have hd : design 1 2 = .panel := rfl
  have hraw : rawN N s (design 1 2) e 1 1 2 0 (1 / 2) = 24 := by
    rw [hd]
    simp only [rawN, e]
    field_simp
    norm_num
  have hreq : requiredN N s (design 1 2) e 1 1 2 0 (1 / 2) = 24 := by
    rw [requiredN, if_neg he.ne', hraw]
    norm_num
  have hat : allocTreated 24 (1 / 2) = 12 := by
    have : ⌈((24 : ℕ) : ℝ) * (1 / 2)⌉₊ = 12 := by
      rw [Nat.ceil_eq_iff (by norm_num)]
      norm_num
    rw [allocTreated, this]; norm_num
  have hac : allocControl 24 (1 / 2) = 12 := by rw [allocControl, hat]; norm_num
  have hok : ∃ r, sampleSize N s e 1 1 2 0 (1 / 2) = .ok r := ⟨_, if_neg (by norm_num)⟩
  obtain ⟨r, hr⟩ := hok
  obtain ⟨-, -, hrn, hnt, hnc, -⟩ := sampleSize_ok hr
  rw [hreq, hat] at hnt
  rw [hreq, hac] at hnc
  have hok2 : ∃ m, mde N s 6 6 1 1 2 0 = .ok m := ⟨_, if_neg (by norm_num)⟩
  obtain ⟨m, hm⟩ := hok2
  refine ⟨e, r, m, he, hr, by rw [hrn, hnt, hnc], hm, ?_⟩
  have hi : Inputs 6 6 1 2 (1 : ℝ) 0 := ⟨by norm_num, by norm_num, by norm_num, fun _ => by norm_num⟩
  have habs : e = |e| := (abs_of_pos he).symm
  rw [(mde_ok hm).1, habs, mde_le_iff hi hz.le he.ne']
  have : factor 1 2 (0 : ℝ) = 1 / 3 := by
    unfold factor
    rw [hd]
    norm_num
  rw [this, harm]
  simp only [e]
  have hz2 : zSum N s ^ 2 ≠ 0 := by positivity
  rw [show zSum N s ^ 2 * 1 ^ 2 * (1 / 3) / (zSum N s / 3) ^ 2 = 3 by field_simp]
  norm_num

/-- When the sample returned has minimum detectable effect at most the requested positive effect, its true power is at
least the reported one. -/
theorem C44_reported_power_partial {N : Normal} (hN : IsNormal N) {s : Settings} (hs : s.Valid)
    (ha : s.alternative = .greater) {e sigma rho frac : ℝ} {pre post : ℕ} (hsig : sigma ≠ 0)
    (hr : 2 < pre + post → 0 < 1 + ((pre + post : ℕ) - 1 : ℝ) * rho) {r p : Result}
    (h : sampleSize N s e sigma pre post rho frac = .ok r) (hm : r.mde ≤ e)
    (hp : power N s e r.nt r.nc sigma pre post rho = .ok p) : r.power ≤ p.power := by
  obtain ⟨ht, -, -, hnt, hnc, hmm⟩ := sampleSize_ok h
  have hi : Inputs r.nt r.nc pre post sigma rho := by rw [hnt, hnc]; exact alloc_inputs hsig hr
  obtain ⟨q, hq, hqp, -⟩ := power_ok (N := N) (s := s) hi e
  rw [hq] at hp
  obtain rfl := (Except.ok.inj hp).symm
  rw [ht, hqp, ← mde_greater hN hs ha (se_pos hi), ← hmm]
  have key := C44_effect_monotone hN hs (e := r.mde) (e' := e) (se_pos hi)
  rw [ha] at key
  rcases hm.lt_or_eq with h1 | h1
  · exact (key h1).le
  · rw [h1]

/-- The reported power ignores the direction of the effect: against a positive effect, a negative one is reported with
the target power but is detected with less than `alpha`. -/
theorem C44_reported_power_refuted {N : Normal} (hN : IsNormal N) {s : Settings} (hs : s.Valid)
    (ha : s.alternative = .greater) {e sigma rho frac : ℝ} {pre post : ℕ} (hsig : sigma ≠ 0)
    (hr : 2 < pre + post → 0 < 1 + ((pre + post : ℕ) - 1 : ℝ) * rho) (he : e < 0) {r p : Result}
    (h : sampleSize N s e sigma pre post rho frac = .ok r)
    (hp : power N s e r.nt r.nc sigma pre post rho = .ok p) : r.power = s.target ∧ p.power < s.alpha := by
  obtain ⟨ht, -, -, hnt, hnc, -⟩ := sampleSize_ok h
  have hi : Inputs r.nt r.nc pre post sigma rho := by rw [hnt, hnc]; exact alloc_inputs hsig hr
  obtain ⟨q, hq, hqp, -⟩ := power_ok (N := N) (s := s) hi e
  rw [hq] at hp
  obtain rfl := (Except.ok.inj hp).symm
  refine ⟨ht, ?_⟩
  have key := C44_effect_monotone hN hs (e := e) (e' := 0) (se_pos hi)
  rw [ha] at key
  rw [hqp, ← C44_size hN hs (se r.nt r.nc pre post sigma rho)]
  exact key he

/-! ### The design variance (C79) -/

/-- Variance of the difference in differences of cell means when all errors are independent with variance `sigma ^ 2`:
the sum of squared weights, over treated and control units and pre and post periods. -/
noncomputable def trueVariance (nt nc pre post : ℕ) (sigma : ℝ) : ℝ :=
  sigma ^ 2 * ((∑ _u : Fin nt, ∑ _t : Fin post, (1 / ((nt : ℝ) * post)) ^ 2) +
    (∑ _u : Fin nt, ∑ _t : Fin pre, (-1 / ((nt : ℝ) * pre)) ^ 2) +
    (∑ _u : Fin nc, ∑ _t : Fin post, (-1 / ((nc : ℝ) * post)) ^ 2) +
    (∑ _u : Fin nc, ∑ _t : Fin pre, (1 / ((nc : ℝ) * pre)) ^ 2))

theorem trueVariance_eq {nt nc pre post : ℕ} (h1 : 1 ≤ nt) (h2 : 1 ≤ nc) (h3 : 1 ≤ pre) (h4 : 1 ≤ post) (sigma : ℝ) :
    trueVariance nt nc pre post sigma =
      sigma ^ 2 * ((1 / (nt : ℝ) + 1 / (nc : ℝ)) * (1 / (pre : ℝ) + 1 / (post : ℝ))) := by
  have a1 : (nt : ℝ) ≠ 0 := by exact_mod_cast (by omega)
  have a2 : (nc : ℝ) ≠ 0 := by exact_mod_cast (by omega)
  have a3 : (pre : ℝ) ≠ 0 := by exact_mod_cast (by omega)
  have a4 : (post : ℝ) ≠ 0 := by exact_mod_cast (by omega)
  simp only [trueVariance, Finset.sum_const, Finset.card_univ, Fintype.card_fin, nsmul_eq_mul]
  field_simp
  ring

/-- With one period before and one after, the variance used is that of the estimator. -/
theorem C79_two_periods_partial {nt nc : ℕ} (h1 : 1 ≤ nt) (h2 : 1 ≤ nc) (sigma rho : ℝ) :
    variance (design 1 1) nt nc 1 1 sigma rho = trueVariance nt nc 1 1 sigma := by
  rw [trueVariance_eq h1 h2 le_rfl le_rfl, variance_eq]
  have : factor 1 1 rho = 2 := rfl
  rw [this]
  push_cast
  ring

/-- With more periods and independent errors it is at most a quarter of it, whatever the numbers of periods. -/
theorem C79_panel_refuted {nt nc pre post : ℕ} (h1 : 1 ≤ nt) (h2 : 1 ≤ nc) (h3 : 1 ≤ pre) (h4 : 1 ≤ post)
    (hT : 2 < pre + post) {sigma : ℝ} (hs : sigma ≠ 0) :
    4 * variance (design pre post) nt nc pre post sigma 0 ≤ trueVariance nt nc pre post sigma ∧
    variance (design pre post) nt nc pre post sigma 0 ≠ trueVariance nt nc pre post sigma := by
  have hi : Inputs nt nc pre post sigma 0 := ⟨h1, h2, hs, fun _ => by norm_num⟩
  have hv := variance_pos hi
  have key : 4 * variance (design pre post) nt nc pre post sigma 0 ≤ trueVariance nt nc pre post sigma := by
    rw [trueVariance_eq h1 h2 h3 h4, variance_eq]
    have hd : design pre post = .panel := if_pos hT
    have hf : factor pre post (0 : ℝ) = 1 / ((pre : ℝ) + post) := by
      unfold factor; rw [hd]; push_cast; simp
    rw [hf]
    have a3 : (0 : ℝ) < pre := by exact_mod_cast h3
    have a4 : (0 : ℝ) < post := by exact_mod_cast h4
    have hq : 4 * (1 / ((pre : ℝ) + post)) ≤ 1 / (pre : ℝ) + 1 / (post : ℝ) := by
      rw [div_add_div _ _ a3.ne' a4.ne', mul_one_div, div_le_div_iff₀ (by positivity) (by positivity)]
      nlinarith [sq_nonneg ((pre : ℝ) - post)]
    have hA : 0 ≤ sigma ^ 2 * (1 / (nt : ℝ) + 1 / (nc : ℝ)) := by positivity
    calc 4 * (sigma ^ 2 * (1 / ((pre : ℝ) + post)) * (1 / (nt : ℝ) + 1 / (nc : ℝ)))
        = sigma ^ 2 * (1 / (nt : ℝ) + 1 / (nc : ℝ)) * (4 * (1 / ((pre : ℝ) + post))) := by ring
      _ ≤ sigma ^ 2 * (1 / (nt : ℝ) + 1 / (nc : ℝ)) * (1 / (pre : ℝ) + 1 / (post : ℝ)) :=
        mul_le_mul_of_nonneg_left hq hA
      _ = _ := by ring
  exact ⟨key, fun h => by rw [h] at key hv; linarith⟩

/-- So adding a period makes the reported standard error fall below half of the true one, and the reported minimum
detectable effect with it. -/
theorem C79_mde_too_small {N : Normal} {s : Settings} (hz : 0 ≤ zSum N s) {nt nc pre post : ℕ} (h1 : 1 ≤ nt)
    (h2 : 1 ≤ nc) (h3 : 1 ≤ pre) (h4 : 1 ≤ post) (hT : 2 < pre + post) {sigma : ℝ} (hs : sigma ≠ 0) {m : Result}
    (hm : mde N s nt nc sigma pre post 0 = .ok m) :
    2 * m.mde ≤ zSum N s * Real.sqrt (trueVariance nt nc pre post sigma) := by
  have key := (C79_panel_refuted h1 h2 h3 h4 hT hs).1
  rw [(mde_ok hm).1, mdeFromSe, se]
  have : 2 * Real.sqrt (variance (design pre post) nt nc pre post sigma 0) ≤
      Real.sqrt (trueVariance nt nc pre post sigma) := by
    rw [show (2 : ℝ) = Real.sqrt 4 by rw [show (4 : ℝ) = 2 ^ 2 by norm_num]; simp, ← Real.sqrt_mul (by norm_num)]
    exact Real.sqrt_le_sqrt key
  nlinarith

/-- How the periods split into before and after does not matter for panel designs, only their total does. -/
theorem C79_split_ignored (nt nc : ℕ) {pre post pre' post' : ℕ} (h : pre + post = pre' + post') (sigma rho : ℝ) :
    variance (design pre post) nt nc pre post sigma rho = variance (design pre' post') nt nc pre' post' sigma rho := by
  simp only [design, variance, h]

/-- Constructor arguments are accepted exactly when both levels are strictly between 0 and 1. -/
theorem C44_validate (alpha target : ℝ) (a : Alternative) (s : Settings) :
    validate alpha target a = .ok s ↔
      (0 < alpha ∧ alpha < 1) ∧ (0 < target ∧ target < 1) ∧ s.alternative = a ∧ s.alpha = alpha ∧ s.target = target := by
  unfold validate
  by_cases h1 : 0 < alpha ∧ alpha < 1
  · by_cases h2 : 0 < target ∧ target < 1
    · rw [if_neg (not_not.mpr h1), if_neg (not_not.mpr h2)]
      obtain ⟨a', t, q⟩ := s
      simp only [Except.ok.injEq, Settings.mk.injEq]
      constructor
      · rintro ⟨rfl, rfl, rfl⟩; exact ⟨h1, h2, rfl, rfl, rfl⟩
      · rintro ⟨-, -, rfl, rfl, rfl⟩; exact ⟨rfl, rfl, rfl⟩
    · rw [if_neg (not_not.mpr h1), if_pos h2]
      constructor
      · intro h; cases h
      · rintro ⟨-, h, -⟩; exact absurd h h2
  · rw [if_pos h1]
    constructor
    · intro h; cases h
    · rintro ⟨h, -⟩; exact absurd h h1

example : validate 0.05 0.8 .less = .ok ⟨0.05, 0.8, .less⟩ :=
  (C44_validate _ _ _ _).mpr ⟨by norm_num, by norm_num, rfl, rfl, rfl⟩

/-- The required sample size reported by `power` is never below four; for a zero effect it is 2^31 - 1; otherwise it is at
least the number given by the formula and at most one more than the larger of four and that number. -/
theorem C44_required_n (N : Normal) (s : Settings) (effect : ℝ) (nt nc : ℕ) (sigma : ℝ) (pre post : ℕ) (rho : ℝ)
    (r : Result) (h : power N s effect nt nc sigma pre post rho = .ok r) :
    4 ≤ r.requiredN ∧ (effect = 0 → r.requiredN = 2147483647) ∧
      (effect ≠ 0 → rawN N s (design pre post) effect sigma pre post rho ((nt : ℝ) / ((nt + nc : ℕ) : ℝ)) ≤ r.requiredN ∧
        (r.requiredN : ℝ) < max 4 (rawN N s (design pre post) effect sigma pre post rho
          ((nt : ℝ) / ((nt + nc : ℕ) : ℝ))) + 1) := by
  unfold power at h
  by_cases h0 : nt = 0 ∨ nc = 0
  · rw [if_pos h0] at h; cases h
  · rw [if_neg h0] at h
    injection h with h
    subst h
    simp only [requiredN]
    by_cases he : effect = 0
    · simp [he, maxSampleSize]
    · rw [if_neg he]
      refine ⟨le_max_left _ _, fun h => absurd h he, fun _ => ⟨?_, ?_⟩⟩
      · exact (Nat.le_ceil _).trans (by exact_mod_cast le_max_right _ _)
      · generalize rawN N s (design pre post) effect sigma pre post rho _ = x
        rcases le_total 4 ⌈x⌉₊ with h4 | h4
        · rw [max_eq_right h4]
          by_cases hx : 0 ≤ x
          · exact (Nat.ceil_lt_add_one hx).trans_le (by gcongr; exact le_max_right _ _)
          · rw [Nat.ceil_eq_zero.mpr (le_of_not_ge hx)] at h4; omega
        · rw [max_eq_left h4]
          push_cast
          have := le_max_left (4 : ℝ) x
          linarith

/-- `power` and `mde` succeed exactly when both groups have units; `mde` reports the units given, the target power and
its effect as the detectable effect. -/
theorem C44_defined (N : Normal) (s : Settings) (effect : ℝ) (nt nc : ℕ) (sigma : ℝ) (pre post : ℕ) (rho : ℝ) :
    ((∃ r, power N s effect nt nc sigma pre post rho = .ok r) ↔ 0 < nt ∧ 0 < nc) ∧
    ((∃ r, mde N s nt nc sigma pre post rho = .ok r) ↔ 0 < nt ∧ 0 < nc) ∧
    (∀ r, power N s effect nt nc sigma pre post rho = .ok r → r.effect = effect ∧ r.nt = nt ∧ r.nc = nc) ∧
    ∀ r, mde N s nt nc sigma pre post rho = .ok r →
      r.requiredN = nt + nc ∧ r.power = s.target ∧ r.effect = r.mde ∧ r.nt = nt ∧ r.nc = nc := by
  unfold power mde
  by_cases h0 : nt = 0 ∨ nc = 0
  · simp only [if_pos h0]
    refine ⟨⟨fun ⟨_, h⟩ => (nomatch h), by omega⟩, ⟨fun ⟨_, h⟩ => (nomatch h), by omega⟩, ?_, ?_⟩
    · intro r h; cases h
    · intro r h; cases h
  · simp only [if_neg h0]
    refine ⟨⟨fun _ => by omega, fun _ => ⟨_, rfl⟩⟩, ⟨fun _ => by omega, fun _ => ⟨_, rfl⟩⟩, ?_, ?_⟩
    · intro r h; injection h with h; subst h; exact ⟨rfl, rfl, rfl⟩
    · intro r h; injection h with h; subst h; exact ⟨rfl, rfl, rfl, rfl, rfl⟩

/-- `sample_size` fails exactly for a non-zero effect with a treated share of zero or one; otherwise both groups get at
least two units and the reported total is their sum. -/
theorem C44_sample_size_defined (N : Normal) (s : Settings) (effect sigma : ℝ) (pre post : ℕ) (rho frac : ℝ) :
    ((∃ r, sampleSize N s effect sigma pre post rho frac = .ok r) ↔ (effect = 0 ∨ (frac ≠ 0 ∧ frac ≠ 1))) ∧
    ∀ r, sampleSize N s effect sigma pre post rho frac = .ok r →
      2 ≤ r.nt ∧ 2 ≤ r.nc ∧ r.requiredN = r.nt + r.nc ∧ r.effect = effect ∧ r.power = s.target := by
  unfold sampleSize
  by_cases h0 : effect ≠ 0 ∧ (frac = 0 ∨ frac = 1)
  · simp only [if_pos h0]
    refine ⟨⟨fun ⟨_, h⟩ => (nomatch h), ?_⟩, fun _ h => (nomatch h)⟩
    rintro (h | ⟨h, h'⟩)
    · exact absurd h h0.1
    · rcases h0.2 with h2 | h2
      · exact absurd h2 h
      · exact absurd h2 h'
  · simp only [if_neg h0]
    refine ⟨⟨fun _ => by tauto, fun _ => ⟨_, rfl⟩⟩, ?_⟩
    intro r h; injection h with h; subst h
    exact ⟨le_max_left _ _, le_max_left _ _, rfl, rfl, rfl⟩

end DiffDiff.Power
