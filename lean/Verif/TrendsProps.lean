/-
Properties of the pre-trend check: C109.
-/
import Verif.Trends
import Mathlib.Algebra.BigOperators.Group.List.Basic
import Mathlib.Algebra.Order.Field.Basic
import Mathlib.Analysis.SpecialFunctions.Sqrt
import Mathlib.Tactic.Ring
import Mathlib.Tactic.FieldSimp
import Mathlib.Tactic.Linarith
import Mathlib.Tactic.Positivity
import Mathlib.Tactic.NormNum
import Mathlib.Tactic.LinearCombination

set_option linter.unusedSectionVars false

namespace DiffDiff.Trends

variable {K : Type*} [Field K] [LinearOrder K] [IsStrictOrderedRing K]

/-! ### Sums -/

theorem mean_map {α : Type*} (l : List α) (f : α → K) : mean (l.map f) = (l.map f).sum / (l.length : K) := by simp [mean]

theorem length_ne {α : Type*} {l : List α} (h : l ≠ []) : (l.length : K) ≠ 0 := by
  have : l.length ≠ 0 := by simpa using h
  exact_mod_cast this

theorem sum_add' {α : Type*} (l : List α) (f g : α → K) :
    (l.map (fun x => f x + g x)).sum = (l.map f).sum + (l.map g).sum := by
  induction l with
  | nil => simp
  | cons a l ih => simp only [List.map_cons, List.sum_cons, ih]; ring

theorem sum_mul' {α : Type*} (l : List α) (c : K) (f : α → K) : (l.map (fun x => c * f x)).sum = c * (l.map f).sum := by
  induction l with
  | nil => simp
  | cons a l ih => simp only [List.map_cons, List.sum_cons, ih]; ring

theorem sum_const' {α : Type*} (l : List α) (c : K) : (l.map (fun _ => c)).sum = (l.length : K) * c := by
  induction l with
  | nil => simp
  | cons a l ih => simp only [List.map_cons, List.sum_cons, ih, List.length_cons]; push_cast; ring

theorem mean_affine {α : Type*} {l : List α} (h : l ≠ []) (f : α → K) (k c : K) :
    mean (l.map (fun x => k * f x + c)) = k * mean (l.map f) + c := by
  rw [mean_map, mean_map, sum_add', sum_mul', sum_const', add_div, mul_div_assoc, mul_div_cancel_left₀ c (length_ne h)]

theorem mean_add {α : Type*} (l : List α) (f g : α → K) :
    mean (l.map (fun x => f x + g x)) = mean (l.map f) + mean (l.map g) := by
  rw [mean_map, mean_map, mean_map, sum_add', add_div]

theorem sum_center {α : Type*} {l : List α} (h : l ≠ []) (f : α → K) : (l.map (fun x => f x - mean (l.map f))).sum = 0 := by
  have : (fun x => f x - mean (l.map f)) = fun x => f x + (-mean (l.map f)) := by funext x; ring
  rw [this, sum_add', sum_const', mean_map]
  have := length_ne (K := K) h
  field_simp
  ring

theorem sum_sq_expand {α : Type*} (l : List α) (e d : α → K) (A B : K) :
    (l.map (fun x => (e x - A - B * d x) ^ 2)).sum = (l.map (fun x => e x ^ 2)).sum + (l.length : K) * A ^ 2 +
      B ^ 2 * (l.map (fun x => d x ^ 2)).sum - 2 * A * (l.map e).sum - 2 * B * (l.map (fun x => d x * e x)).sum +
      2 * A * B * (l.map d).sum := by
  induction l with
  | nil => simp
  | cons a l ih => simp only [List.map_cons, List.sum_cons, ih, List.length_cons]; push_cast; ring

theorem sum_sq_nonneg {α : Type*} (l : List α) (f : α → K) : 0 ≤ (l.map (fun x => f x ^ 2)).sum := by
  induction l with
  | nil => simp
  | cons a l ih => simp only [List.map_cons, List.sum_cons]; positivity

theorem zipWith_map {α : Type*} (l : List α) (f g : α → K) (h : K → K → K) :
    List.zipWith h (l.map f) (l.map g) = l.map (fun x => h (f x) (g x)) := by
  induction l with
  | nil => rfl
  | cons a l ih => simp [ih]

theorem mapM_id_eq {α : Type*} (l : List α) (f : α → Option K) {ys : List K} (h : (l.map f).mapM id = some ys) :
    ys = l.map (fun x => (f x).getD 0) ∧ ∀ x ∈ l, (f x).isSome := by
  induction l generalizing ys with
  | nil => simp at h; subst h; simp
  | cons a l ih =>
    rw [List.map_cons, List.mapM_cons] at h
    cases hf : f a with
    | none => rw [hf] at h; simp at h
    | some v =>
      rw [hf] at h
      cases hm : (l.map f).mapM id with
      | none => rw [hm] at h; simp at h
      | some zs =>
        rw [hm] at h
        obtain ⟨h1, h2⟩ := ih hm
        simp at h
        subst h
        subst h1
        refine ⟨by simp [hf], ?_⟩
        intro x hx
        rcases List.mem_cons.mp hx with rfl | hx
        · simp [hf]
        · exact h2 x hx

theorem mapM_id_all {α : Type*} (l : List α) (f : α → Option K) (h : ∀ x ∈ l, (f x).isSome) :
    (l.map f).mapM id = some (l.map (fun x => (f x).getD 0)) := by
  induction l with
  | nil => rfl
  | cons a l ih =>
    rw [List.map_cons, List.mapM_cons, ih (fun x hx => h x (List.mem_cons_of_mem _ hx))]
    obtain ⟨v, hv⟩ := Option.isSome_iff_exists.mp (h a (by simp))
    simp [hv]

theorem mapM_id_none_iff {α : Type*} (l : List α) (f : α → Option K) :
    (l.map f).mapM id = none ↔ ¬∀ x ∈ l, (f x).isSome := by
  constructor
  · intro h hc; rw [mapM_id_all l f hc] at h; cases h
  · intro h
    cases hm : (l.map f).mapM id with
    | none => rfl
    | some ys => exact absurd (mapM_id_eq l f hm).2 h

/-! ### Trend of a group -/

/-- Sum of squares of the time values about their mean. -/
def sxx {α : Type*} (l : List α) (t : α → K) : K := (l.map (fun x => (t x - mean (l.map t)) ^ 2)).sum

/-- Sum of cross products. -/
def sxy {α : Type*} (l : List α) (t y : α → K) : K := (l.map (fun x => (t x - mean (l.map t)) * (y x - mean (l.map y)))).sum

/-- Residual sum of squares of the line with intercept `a` and slope `b`. -/
def sse {α : Type*} (l : List α) (t y : α → K) (a b : K) : K := (l.map (fun x => (y x - a - b * t x) ^ 2)).sum

theorem sxx_affine {α : Type*} {l : List α} (h : l ≠ []) (t : α → K) (k c : K) :
    sxx l (fun x => k * t x + c) = k ^ 2 * sxx l t := by
  simp only [sxx]
  rw [mean_affine h, ← sum_mul']
  congr 1
  apply List.map_congr_left
  intro x _
  ring

theorem sxy_affine {α : Type*} {l : List α} (h : l ≠ []) (t y : α → K) (k c : K) :
    sxy l (fun x => k * t x + c) y = k * sxy l t y := by
  simp only [sxy]
  rw [mean_affine h, ← sum_mul']
  congr 1
  apply List.map_congr_left
  intro x _
  ring

theorem sxy_shift {α : Type*} {l : List α} (h : l ≠ []) (t y : α → K) (a c : K) :
    sxy l t (fun x => y x + a + c * t x) = sxy l t y + c * sxx l t := by
  have h1 : mean (l.map (fun x => y x + a + c * t x)) = mean (l.map y) + (c * mean (l.map t) + a) := by
    rw [← mean_affine h t c a, ← mean_add]
    congr 1
    apply List.map_congr_left
    intro x _
    ring
  simp only [sxy, sxx]
  rw [h1, ← sum_mul', ← sum_add']
  congr 1
  apply List.map_congr_left
  intro x _
  ring

theorem sse_min {α : Type*} {l : List α} (h : l ≠ []) (t y : α → K) (hv : sxx l t ≠ 0) (a b : K) :
    sse l t y a b = (l.map (fun x => (y x - (mean (l.map y) + sxy l t y / sxx l t * (t x - mean (l.map t)))) ^ 2)).sum +
      (l.length : K) * (a + b * mean (l.map t) - mean (l.map y)) ^ 2 + (b - sxy l t y / sxx l t) ^ 2 * sxx l t := by
  have he : (l.map (fun x => (y x - mean (l.map y)) - sxy l t y / sxx l t * (t x - mean (l.map t)))).sum = 0 := by
    have : (fun x => (y x - mean (l.map y)) - sxy l t y / sxx l t * (t x - mean (l.map t))) =
        fun x => (y x - mean (l.map y)) + (-(sxy l t y / sxx l t)) * (t x - mean (l.map t)) := by funext x; ring
    rw [this, sum_add', sum_mul', sum_center h, sum_center h]; ring
  have hd := sum_center h t
  have hed : (l.map (fun x => (t x - mean (l.map t)) *
      ((y x - mean (l.map y)) - sxy l t y / sxx l t * (t x - mean (l.map t))))).sum = 0 := by
    have : (fun x => (t x - mean (l.map t)) * ((y x - mean (l.map y)) - sxy l t y / sxx l t * (t x - mean (l.map t)))) =
        fun x => (t x - mean (l.map t)) * (y x - mean (l.map y)) + (-(sxy l t y / sxx l t)) * (t x - mean (l.map t)) ^ 2 := by
      funext x; ring
    rw [this, sum_add', sum_mul']
    show sxy l t y + -(sxy l t y / sxx l t) * sxx l t = 0
    rw [neg_mul, div_mul_cancel₀ _ hv]; ring
  have hx := sum_sq_expand l (fun x => (y x - mean (l.map y)) - sxy l t y / sxx l t * (t x - mean (l.map t)))
    (fun x => t x - mean (l.map t)) (a + b * mean (l.map t) - mean (l.map y)) (b - sxy l t y / sxx l t)
  rw [he, hd, hed] at hx
  have h1 : sse l t y a b = (l.map (fun x => (((y x - mean (l.map y)) - sxy l t y / sxx l t * (t x - mean (l.map t))) -
      (a + b * mean (l.map t) - mean (l.map y)) - (b - sxy l t y / sxx l t) * (t x - mean (l.map t))) ^ 2)).sum := by
    simp only [sse]
    congr 1
    apply List.map_congr_left
    intro x _
    ring
  rw [h1, hx]
  have h2 : (l.map (fun x => ((y x - mean (l.map y)) - sxy l t y / sxx l t * (t x - mean (l.map t))) ^ 2)) =
      l.map (fun x => (y x - (mean (l.map y) + sxy l t y / sxx l t * (t x - mean (l.map t)))) ^ 2) := by
    apply List.map_congr_left
    intro x _
    ring
  rw [h2]
  simp only [sxx]
  ring

/-- Smallest residual sum of squares. -/
def ssr {α : Type*} (l : List α) (t y : α → K) : K :=
  (l.map (fun x => (y x - (mean (l.map y) + sxy l t y / sxx l t * (t x - mean (l.map t)))) ^ 2)).sum

theorem ssr_affine {α : Type*} {l : List α} (h : l ≠ []) (t y : α → K) {k : K} (hk : k ≠ 0) (c : K) :
    ssr l (fun x => k * t x + c) y = ssr l t y := by
  simp only [ssr]
  rw [mean_affine h, sxx_affine h, sxy_affine h]
  congr 1
  apply List.map_congr_left
  intro x _
  have : k * sxy l t y / (k ^ 2 * sxx l t) * (k * t x + c - (k * mean (l.map t) + c)) =
      sxy l t y / sxx l t * (t x - mean (l.map t)) := by
    by_cases hs : sxx l t = 0
    · simp [hs]
    · field_simp
      ring
  rw [this]

theorem ssr_shift {α : Type*} {l : List α} (h : l ≠ []) (t y : α → K) (hv : sxx l t ≠ 0) (a c : K) :
    ssr l t (fun x => y x + a + c * t x) = ssr l t y := by
  have h1 : mean (l.map (fun x => y x + a + c * t x)) = mean (l.map y) + (c * mean (l.map t) + a) := by
    rw [← mean_affine h t c a, ← mean_add]
    congr 1
    apply List.map_congr_left
    intro x _
    ring
  simp only [ssr]
  rw [h1, sxy_shift h]
  congr 1
  apply List.map_congr_left
  intro x _
  rw [add_div, mul_div_cancel_right₀ _ hv]
  ring

/-- The time value and outcome of a row, outcome 0 when missing. -/
def yv (r : Row K) : K := r.y.getD 0

/-- `computeTrend` in the original time values. -/
theorem computeTrend_eq (r : K → K) (l : List (Row K)) :
    computeTrend r l =
      if l = [] then .error .empty
      else if l.length < 2 then .ok (none, none)
      else if sxx l Row.time = 0 then .ok (none, none)
      else if ∀ x ∈ l, x.y.isSome then
        .ok (some (sxy l Row.time yv / sxx l Row.time),
          if l.length = 2 then none else some (r (ssr l Row.time yv / ((l.length : K) - 2) / sxx l Row.time)))
      else .ok (none, none) := by
  unfold computeTrend
  by_cases hl : l = []
  · rw [if_pos hl, if_pos hl]
  rw [if_neg hl, if_neg hl]
  by_cases h2 : l.length < 2
  · rw [if_pos h2, if_pos h2]
  rw [if_neg h2, if_neg h2]
  have htn : timeNorm l = l.map (fun x => 1 * x.time + -((l.map Row.time).foldr min ((l.map Row.time).headD 0))) := by
    simp only [timeNorm]
    apply List.map_congr_left
    intro x _
    ring
  have hsx : timeVar (timeNorm l) = sxx l Row.time := by
    have := sxx_affine hl Row.time (1 : K) (-((l.map Row.time).foldr min ((l.map Row.time).headD 0)))
    rw [one_pow, one_mul] at this
    rw [← this, htn]
    simp only [timeVar, sxx, List.map_map]
    rfl
  rw [hsx]
  by_cases hv : sxx l Row.time = 0
  · rw [if_pos hv, if_pos hv]
  rw [if_neg hv, if_neg hv]
  by_cases hy : ∀ x ∈ l, x.y.isSome
  · rw [if_pos hy, mapM_id_all l Row.y hy]
    have hsl : slopeOf (timeNorm l) (l.map (fun x => x.y.getD 0)) = sxy l Row.time yv / sxx l Row.time := by
      simp only [slopeOf, hsx]
      congr 1
      have := sxy_affine hl Row.time yv (1 : K) (-((l.map Row.time).foldr min ((l.map Row.time).headD 0)))
      rw [one_mul] at this
      rw [← this, htn, zipWith_map]
      rfl
    have hss : ssrOf (timeNorm l) (l.map (fun x => x.y.getD 0)) = ssr l Row.time yv := by
      simp only [ssrOf, hsl]
      rw [htn, zipWith_map]
      simp only [ssr]
      congr 1
      apply List.map_congr_left
      intro x _
      rw [mean_affine hl, show l.map (fun x : Row K => x.y.getD 0) = l.map yv from rfl,
        show x.y.getD 0 = yv x from rfl]
      congr 1
      ring
    simp only [hsl, hss]
  · rw [if_neg hy]
    have := (mapM_id_none_iff l Row.y).mpr hy
    rw [this]

/-! ### Specification -/

/-- Rows of group `g` in the periods `P`. -/
def inPre (rows : List (Row K)) (P : List K) (g : ℤ) : List (Row K) := rows.filter (fun r => decide (r.time ∈ P ∧ r.g = g))

/-- Residual sum of squares of the line `a + b t`, missing outcomes read as 0. -/
def lineSse (l : List (Row K)) (a b : K) : K := (l.map (fun r => (r.y.getD 0 - a - b * r.time) ^ 2)).sum

/-- `(slope, se)` is the report of the regression of the outcome on time: undefined unless all outcomes are observed at two different
times at least; otherwise `slope` is the slope of the unique best line and `se` comes from its residuals, undefined for two rows. -/
def LsReport (r : K → K) (l : List (Row K)) (slope se : Option K) : Prop :=
  ((∀ x ∈ l, x.y.isSome) ∧ (∃ x ∈ l, ∃ z ∈ l, x.time ≠ z.time) →
    ∃ a b, slope = some b ∧ (∀ a' b', lineSse l a b ≤ lineSse l a' b') ∧ (∀ a' b', lineSse l a' b' ≤ lineSse l a b → a' = a ∧ b' = b) ∧
      se = if l.length = 2 then none else some (r (lineSse l a b / ((l.length : K) - 2) /
        (l.map (fun x => (x.time - (l.map Row.time).sum / (l.length : K)) ^ 2)).sum))) ∧
  (¬((∀ x ∈ l, x.y.isSome) ∧ (∃ x ∈ l, ∃ z ∈ l, x.time ≠ z.time)) → slope = none ∧ se = none)

theorem groupRows_pre (rows : List (Row K)) (P : List K) (g : ℤ) : groupRows (preRows rows (some P)) g = inPre rows P g := by
  simp only [groupRows, preRows, preOf, Option.getD_some, inPre, List.filter_filter]
  congr 1
  funext x
  by_cases h1 : x.time ∈ P <;> by_cases h2 : x.g = g <;> simp [h1, h2]

theorem sum_sq_eq_zero {α : Type*} (l : List α) (f : α → K) (h : (l.map (fun x => f x ^ 2)).sum = 0) : ∀ x ∈ l, f x = 0 := by
  induction l with
  | nil => simp
  | cons a l ih =>
    simp only [List.map_cons, List.sum_cons] at h
    have h1 := sum_sq_nonneg l f
    have h2 : 0 ≤ f a ^ 2 := sq_nonneg _
    intro x hx
    rcases List.mem_cons.mp hx with rfl | hx
    · have : f x ^ 2 = 0 := by linarith
      exact pow_eq_zero_iff (two_ne_zero) |>.mp this
    · exact ih (by linarith) x hx

theorem sxx_ne_iff {α : Type*} {l : List α} (hl : l ≠ []) (t : α → K) : sxx l t ≠ 0 ↔ ∃ x ∈ l, ∃ z ∈ l, t x ≠ t z := by
  constructor
  · intro h
    by_contra hc
    push Not at hc
    apply h
    obtain ⟨x0, hx0⟩ := List.exists_mem_of_ne_nil l hl
    have hm : l.map t = l.map (fun _ => t x0) := List.map_congr_left (fun x hx => hc x hx x0 hx0)
    have hmean : mean (l.map t) = t x0 := by
      rw [hm, mean_map, sum_const', mul_div_cancel_left₀ _ (length_ne hl)]
    simp only [sxx, hmean]
    have : l.map (fun x => (t x - t x0) ^ 2) = l.map (fun _ => (0 : K)) :=
      List.map_congr_left (fun x hx => by rw [hc x hx x0 hx0, sub_self]; ring)
    rw [this, sum_const', mul_zero]
  · rintro ⟨x, hx, z, hz, hne⟩ h
    have := sum_sq_eq_zero l (fun x => t x - mean (l.map t)) h
    exact hne (by linarith [this x hx, this z hz])

theorem sxx_nonneg {α : Type*} (l : List α) (t : α → K) : 0 ≤ sxx l t := sum_sq_nonneg l _

theorem two_of_ne {α : Type*} {l : List α} (t : α → K) (h : ∃ x ∈ l, ∃ z ∈ l, t x ≠ t z) : 2 ≤ l.length := by
  obtain ⟨x, hx, z, hz, hne⟩ := h
  match l, hx, hz with
  | [a], hx, hz =>
    simp at hx hz
    subst hx; subst hz
    exact absurd rfl hne
  | _ :: _ :: _, _, _ => simp

theorem computeTrend_report (r : K → K) (l : List (Row K)) {o : Option K × Option K} (h : computeTrend r l = .ok o) :
    LsReport r l o.1 o.2 := by
  rw [computeTrend_eq] at h
  by_cases hl : l = []
  · rw [if_pos hl] at h; cases h
  rw [if_neg hl] at h
  constructor
  · rintro ⟨hy, hd⟩
    have h2 := two_of_ne Row.time hd
    have hv := (sxx_ne_iff hl Row.time).mpr hd
    rw [if_neg (by omega), if_neg hv, if_pos hy] at h
    cases h
    have hpos : 0 < sxx l Row.time := lt_of_le_of_ne (sxx_nonneg _ _) (Ne.symm hv)
    have hn : (0 : K) < l.length := by
      have : 0 < l.length := by omega
      exact_mod_cast this
    set b := sxy l Row.time yv / sxx l Row.time with hb
    set a := mean (l.map yv) - b * mean (l.map Row.time) with ha
    have hsse : ∀ a' b', lineSse l a' b' = ssr l Row.time yv +
        (l.length : K) * (a' + b' * mean (l.map Row.time) - mean (l.map yv)) ^ 2 + (b' - b) ^ 2 * sxx l Row.time :=
      fun a' b' => sse_min hl Row.time yv hv a' b'
    have hmin : lineSse l a b = ssr l Row.time yv := by
      rw [hsse, ha]
      ring
    refine ⟨a, b, rfl, ?_, ?_, ?_⟩
    · intro a' b'
      rw [hmin, hsse]
      have h1 : 0 ≤ (l.length : K) * (a' + b' * mean (l.map Row.time) - mean (l.map yv)) ^ 2 := by positivity
      have h2 : 0 ≤ (b' - b) ^ 2 * sxx l Row.time := by positivity
      linarith
    · intro a' b' hle
      rw [hmin, hsse] at hle
      have h1 : 0 ≤ (l.length : K) * (a' + b' * mean (l.map Row.time) - mean (l.map yv)) ^ 2 := by positivity
      have h2 : 0 ≤ (b' - b) ^ 2 * sxx l Row.time := by positivity
      have h3 : (b' - b) ^ 2 * sxx l Row.time = 0 := by linarith
      have h4 : (l.length : K) * (a' + b' * mean (l.map Row.time) - mean (l.map yv)) ^ 2 = 0 := by linarith
      have h5 : b' = b := by
        rcases mul_eq_zero.mp h3 with h | h
        · exact sub_eq_zero.mp (pow_eq_zero_iff (two_ne_zero) |>.mp h)
        · exact absurd h hv
      refine ⟨?_, h5⟩
      rcases mul_eq_zero.mp h4 with h | h
      · exact absurd h hn.ne'
      · have := pow_eq_zero_iff (two_ne_zero) |>.mp h
        rw [h5] at this
        rw [ha]
        linarith
    · simp only [hmin]
      simp only [sxx, mean_map]
  · intro hn
    by_cases h2 : l.length < 2
    · rw [if_pos h2] at h; cases h; exact ⟨rfl, rfl⟩
    rw [if_neg h2] at h
    by_cases hv : sxx l Row.time = 0
    · rw [if_pos hv] at h; cases h; exact ⟨rfl, rfl⟩
    rw [if_neg hv] at h
    have hy : ¬∀ x ∈ l, x.y.isSome := fun hy => hn ⟨hy, (sxx_ne_iff hl Row.time).mp hv⟩
    rw [if_neg hy] at h
    cases h
    exact ⟨rfl, rfl⟩

theorem checkTrends_ok (r pv : K → K) (rows : List (Row K)) (pre : Option (List K)) {R : Trend K}
    (h : checkTrends r pv rows pre = .ok R) :
    ∃ a b, computeTrend r (groupRows (preRows rows pre) 1) = .ok a ∧ computeTrend r (groupRows (preRows rows pre) 0) = .ok b ∧
      R = compareTrends r pv a b := by
  unfold checkTrends at h
  cases h1 : computeTrend r (groupRows (preRows rows pre) 1) with
  | error e => rw [h1] at h; cases h
  | ok a =>
    cases h0 : computeTrend r (groupRows (preRows rows pre) 0) with
    | error e => rw [h1, h0] at h; cases h
    | ok b =>
      rw [h1, h0] at h
      cases h
      exact ⟨a, b, rfl, rfl, rfl⟩

/-- C109: the reported trends are the least-squares slopes of the outcome on time among the rows of the group in the pre-treatment
periods, with their conventional standard errors; the difference is treated minus control; without two different periods and all
outcomes observed the entries are missing. -/
theorem C109_slope (r pv : K → K) (rows : List (Row K)) (P : List K) {R : Trend K}
    (h : checkTrends r pv rows (some P) = .ok R) :
    LsReport r (inPre rows P 1) R.treated R.treatedSe ∧ LsReport r (inPre rows P 0) R.control R.controlSe ∧
      (∀ x y, R.treated = some x → R.control = some y → R.diff = some (x - y)) ∧
      (R.treated = none ∨ R.control = none → R.diff = none) := by
  obtain ⟨a, b, h1, h0, rfl⟩ := checkTrends_ok r pv rows _ h
  rw [groupRows_pre] at h1 h0
  refine ⟨computeTrend_report r _ h1, computeTrend_report r _ h0, ?_, ?_⟩
  · intro x y hx hy
    simp only [compareTrends] at hx hy ⊢
    rw [hx, hy]
    rfl
  · intro h
    simp only [compareTrends] at h ⊢
    rcases h with h | h
    · rw [h]; rfl
    · rw [h]; cases a.1 <;> rfl

theorem computeTrend_error (r : K → K) (l : List (Row K)) : computeTrend r l = .error .empty ↔ l = [] := by
  rw [computeTrend_eq]
  by_cases hl : l = []
  · simp [hl]
  · rw [if_neg hl]
    simp only [hl, iff_false]
    split_ifs <;> intro h <;> cases h

/-- C109: the call fails exactly when one of the two groups has no row in the pre-treatment periods. -/
theorem C109_empty (r pv : K → K) (rows : List (Row K)) (P : List K) :
    checkTrends r pv rows (some P) = .error .empty ↔
      (¬∃ x ∈ rows, x.time ∈ P ∧ x.g = 1) ∨ ¬∃ x ∈ rows, x.time ∈ P ∧ x.g = 0 := by
  have hnil : ∀ g : ℤ, inPre rows P g = [] ↔ ¬∃ x ∈ rows, x.time ∈ P ∧ x.g = g := by
    intro g
    simp [inPre, List.filter_eq_nil_iff]
  unfold checkTrends
  rw [groupRows_pre, groupRows_pre, ← hnil, ← hnil]
  cases h1 : computeTrend r (inPre rows P 1) with
  | error e =>
    cases e
    have := (computeTrend_error r _).mp h1
    simp [this]
  | ok a =>
    have hn1 : inPre rows P 1 ≠ [] := fun hc => by
      rw [(computeTrend_error r _).mpr hc] at h1; cases h1
    cases h0 : computeTrend r (inPre rows P 0) with
    | error e =>
      cases e
      have := (computeTrend_error r _).mp h0
      simp [this]
    | ok b =>
      have hn0 : inPre rows P 0 ≠ [] := fun hc => by
        rw [(computeTrend_error r _).mpr hc] at h0; cases h0
      simp [hn1, hn0]

/-! ### Default periods -/

theorem take_sorted_mem (l : List K) (hs : l.Pairwise (· < ·)) (n : ℕ) (t : K) :
    t ∈ l.take n ↔ t ∈ l ∧ (l.filter (fun s => decide (s ≤ t))).length ≤ n := by
  induction l generalizing n with
  | nil => simp
  | cons a l ih =>
    obtain ⟨h1, h2⟩ := List.pairwise_cons.mp hs
    cases n with
    | zero =>
      simp only [List.take_zero, List.not_mem_nil, false_iff, not_and, Nat.le_zero_eq, List.length_eq_zero_iff,
        List.filter_eq_nil_iff]
      intro ht hc
      exact hc t ht (by simp)
    | succ n =>
      rw [List.take_succ_cons, List.mem_cons, ih h2 n, List.mem_cons]
      by_cases hat : t = a
      · subst hat
        have : l.filter (fun s => decide (s ≤ t)) = [] := by
          rw [List.filter_eq_nil_iff]
          intro s hs'
          have := h1 s hs'
          simpa using this
        simp [this]
      · simp only [hat, false_or]
        constructor
        · rintro ⟨ht, hle⟩
          refine ⟨ht, ?_⟩
          have := h1 t ht
          rw [List.filter_cons_of_pos (by simpa using this.le)]
          simpa using hle
        · rintro ⟨ht, hle⟩
          refine ⟨ht, ?_⟩
          have := h1 t ht
          rw [List.filter_cons_of_pos (by simpa using this.le)] at hle
          simpa using hle

theorem preOf_none (rows : List (Row K)) (t : K) :
    t ∈ preOf rows none ↔ t ∈ rows.map Row.time ∧
      2 * ((rows.map Row.time).toFinset.filter (· ≤ t)).card ≤ (rows.map Row.time).toFinset.card := by
  have hsort : ((rows.map Row.time).dedup.insertionSort (· ≤ ·)).Pairwise (· < ·) := by
    have h1 := (rows.map Row.time).dedup.pairwise_insertionSort (· ≤ ·)
    have h2 : ((rows.map Row.time).dedup.insertionSort (· ≤ ·)).Nodup :=
      ((rows.map Row.time).dedup.perm_insertionSort (· ≤ ·)).nodup_iff.mpr (List.nodup_dedup _)
    exact (h1.and h2).imp (fun ⟨h, hne⟩ => lt_of_le_of_ne h hne)
  have hp := (rows.map Row.time).dedup.perm_insertionSort (· ≤ ·)
  simp only [preOf, Option.getD_none]
  rw [take_sorted_mem _ hsort, hp.mem_iff, List.mem_dedup, (hp.filter _).length_eq]
  have hc : (rows.map Row.time).toFinset.card = (rows.map Row.time).dedup.length := List.card_toFinset _
  have hf : ((rows.map Row.time).toFinset.filter (· ≤ t)).card =
      ((rows.map Row.time).dedup.filter (fun s => decide (s ≤ t))).length := by
    have : (rows.map Row.time).toFinset.filter (· ≤ t) = ((rows.map Row.time).dedup.filter (fun s => decide (s ≤ t))).toFinset := by
      ext x
      simp
    rw [this, List.card_toFinset, ((List.nodup_dedup _).filter _).dedup]
  rw [hc, hf]
  constructor
  · rintro ⟨h1, h2⟩; exact ⟨h1, by omega⟩
  · rintro ⟨h1, h2⟩; exact ⟨h1, by omega⟩

theorem preRows_congr (rows : List (Row K)) (p q : Option (List K))
    (h : ∀ x ∈ rows, (x.time ∈ preOf rows p ↔ x.time ∈ preOf rows q)) : preRows rows p = preRows rows q := by
  simp only [preRows]
  apply List.filter_congr
  intro x hx
  simp only [h x hx]

/-- C109, C110, C111: without a list of periods the three checks use the periods `t` such that the distinct periods up to `t` are at
most half of all distinct periods. -/
theorem C109_default (rows : List (Row K)) (P : List K)
    (hP : ∀ t ∈ rows.map Row.time, (t ∈ P ↔
      2 * ((rows.map Row.time).toFinset.filter (· ≤ t)).card ≤ (rows.map Row.time).toFinset.card)) :
    (∀ r pv : K → K, checkTrends r pv rows none = checkTrends r pv rows (some P)) ∧
    (∀ r sf cdf byUnit m, equivalenceTest (K := K) r sf cdf rows byUnit none m = equivalenceTest r sf cdf rows byUnit (some P) m) ∧
    (∀ r wd perms thr byUnit, robustTest (K := K) r wd perms thr rows byUnit none = robustTest r wd perms thr rows byUnit (some P)) := by
  have h : preRows rows none = preRows rows (some P) := by
    apply preRows_congr
    intro x hx
    rw [preOf_none]
    have hm : x.time ∈ rows.map Row.time := List.mem_map_of_mem hx
    simp only [preOf, Option.getD_some]
    rw [hP _ hm]
    exact ⟨fun h => h.2, fun h => ⟨hm, h⟩⟩
  refine ⟨?_, ?_, ?_⟩
  · intro r pv; simp only [checkTrends, h]
  · intro r sf cdf byUnit m; simp only [equivalenceTest, h]
  · intro r wd perms thr byUnit; simp only [robustTest, h]

/-! ### Invariances -/

/-- The rows with a function of group and time added to the outcomes. -/
def addTo (f : ℤ → K → K) (rows : List (Row K)) : List (Row K) :=
  rows.map (fun x => { x with y := x.y.map (fun v => v + f x.g x.time) })

theorem preRows_map (f : Row K → Row K) (ht : ∀ x, (f x).time = x.time) (rows : List (Row K)) (pre : Option (List K)) :
    preRows (rows.map f) pre = (preRows rows pre).map f := by
  have h1 : (rows.map f).map Row.time = rows.map Row.time := by
    rw [List.map_map]
    apply List.map_congr_left
    intro x _
    exact ht x
  have h2 : preOf (rows.map f) pre = preOf rows pre := by simp only [preOf, h1]
  simp only [preRows, h2, List.filter_map]
  congr 1
  apply List.filter_congr
  intro x _
  simp [ht]

theorem groupRows_map (f : Row K → Row K) (hg : ∀ x, (f x).g = x.g) (rows : List (Row K)) (g : ℤ) :
    groupRows (rows.map f) g = (groupRows rows g).map f := by
  simp only [groupRows, List.filter_map]
  congr 1
  apply List.filter_congr
  intro x _
  simp [hg]

theorem computeTrend_map (r : K → K) (f : Row K → Row K) (ht : ∀ x, (f x).time = x.time) (hy : ∀ x, (f x).y = x.y) (l : List (Row K)) :
    computeTrend r (l.map f) = computeTrend r l := by
  have h1 : (l.map f).map Row.time = l.map Row.time := by
    rw [List.map_map]
    exact List.map_congr_left (fun x _ => ht x)
  have h2 : (l.map f).map Row.y = l.map Row.y := by
    rw [List.map_map]
    exact List.map_congr_left (fun x _ => hy x)
  have h3 : timeNorm (l.map f) = timeNorm l := by
    simp only [timeNorm, h1]
    rw [List.map_map]
    apply List.map_congr_left
    intro x _
    simp only [Function.comp, ht]
  simp only [computeTrend, h2, h3, List.length_map, List.map_eq_nil_iff]

theorem computeTrend_add (r : K → K) (a b : K) (f : ℤ → K → K) (g : ℤ) (hf : ∀ t, f g t = a + b * t) (l : List (Row K))
    (hl : ∀ x ∈ l, x.g = g) :
    computeTrend r (addTo f l) = (computeTrend r l).map (fun o => (o.1.map (· + b), o.2)) := by
  rw [computeTrend_eq, computeTrend_eq]
  by_cases h : l = []
  · subst h; rfl
  have hlen : (addTo f l).length = l.length := by simp [addTo]
  have hne : addTo f l ≠ [] := by simpa [addTo] using h
  rw [if_neg h, if_neg hne, hlen]
  by_cases h2 : l.length < 2
  · rw [if_pos h2, if_pos h2]; rfl
  rw [if_neg h2, if_neg h2]
  have hmt : (addTo f l).map Row.time = l.map Row.time := by
    simp [addTo, Function.comp_def]
  have hsx : sxx (addTo f l) Row.time = sxx l Row.time := by
    simp only [sxx, hmt]
    simp [addTo, Function.comp_def]
  rw [hsx]
  by_cases hv : sxx l Row.time = 0
  · rw [if_pos hv, if_pos hv]; rfl
  rw [if_neg hv, if_neg hv]
  have hys : (∀ x ∈ addTo f l, x.y.isSome) ↔ ∀ x ∈ l, x.y.isSome := by
    simp [addTo]
  by_cases hy : ∀ x ∈ l, x.y.isSome
  · rw [if_pos hy, if_pos (hys.mpr hy)]
    have hval : ∀ x ∈ l, (x.y.map (fun v => v + f x.g x.time)).getD 0 = yv x + a + b * x.time := by
      intro x hx
      obtain ⟨v, hv⟩ := Option.isSome_iff_exists.mp (hy x hx)
      simp only [yv, hv, Option.map_some, Option.getD_some, hl x hx, hf]
      ring
    have hmy : (addTo f l).map yv = l.map (fun x => yv x + a + b * x.time) := by
      simp only [addTo, List.map_map]
      apply List.map_congr_left
      intro x hx
      exact hval x hx
    have hxy : sxy (addTo f l) Row.time yv = sxy l Row.time (fun x => yv x + a + b * x.time) := by
      simp only [sxy, hmt, hmy]
      simp only [addTo, List.map_map]
      congr 1
      apply List.map_congr_left
      intro x hx
      simp only [Function.comp, yv]
      rw [hval x hx]
      rfl
    have hss : ssr (addTo f l) Row.time yv = ssr l Row.time (fun x => yv x + a + b * x.time) := by
      simp only [ssr, hmt, hmy, hxy, hsx]
      simp only [addTo, List.map_map]
      congr 1
      apply List.map_congr_left
      intro x hx
      simp only [Function.comp, yv]
      rw [hval x hx]
      rfl
    rw [hxy, hss, sxy_shift h, ssr_shift h _ _ hv, add_div, mul_div_cancel_right₀ _ hv]
    rfl
  · rw [if_neg hy, if_neg (fun hc => hy (hys.mp hc))]
    rfl

/-- C109: adding a group-specific line to the outcomes moves the group's trend by its slope and leaves all standard errors alone. If the
two slopes are the same (level differences, a common linear trend) the test statistic, p-value and verdict do not change. -/
theorem C109_shift (r pv : K → K) (rows : List (Row K)) (pre : Option (List K)) (a b : ℤ → K) {R : Trend K}
    (h : checkTrends r pv rows pre = .ok R) :
    ∃ R', checkTrends r pv (addTo (fun g t => a g + b g * t) rows) pre = .ok R' ∧
      R'.treated = R.treated.map (· + b 1) ∧ R'.control = R.control.map (· + b 0) ∧ R'.diff = R.diff.map (· + (b 1 - b 0)) ∧
      R'.treatedSe = R.treatedSe ∧ R'.controlSe = R.controlSe ∧ R'.diffSe = R.diffSe ∧
      (b 1 = b 0 → R'.diff = R.diff ∧ R'.t = R.t ∧ R'.p = R.p ∧ R'.plausible = R.plausible) := by
  obtain ⟨o1, o0, h1, h0, rfl⟩ := checkTrends_ok r pv rows _ h
  have key : ∀ g, computeTrend r (groupRows (preRows (addTo (fun g t => a g + b g * t) rows) pre) g) =
      (computeTrend r (groupRows (preRows rows pre) g)).map (fun o => (o.1.map (· + b g), o.2)) := by
    intro g
    have : groupRows (preRows (addTo (fun g t => a g + b g * t) rows) pre) g =
        addTo (fun g t => a g + b g * t) (groupRows (preRows rows pre) g) := by
      unfold addTo
      rw [preRows_map (fun x : Row K => { x with y := x.y.map (fun v => v + (fun g t => a g + b g * t) x.g x.time) }) (fun x => rfl),
        groupRows_map (fun x : Row K => { x with y := x.y.map (fun v => v + (fun g t => a g + b g * t) x.g x.time) }) (fun x => rfl)]
    rw [this]
    refine computeTrend_add r (a g) (b g) _ g (fun t => rfl) _ ?_
    intro x hx
    simpa [groupRows] using (List.mem_filter.mp hx).2
  refine ⟨compareTrends r pv (o1.1.map (· + b 1), o1.2) (o0.1.map (· + b 0), o0.2), ?_, rfl, rfl, ?_, rfl, rfl, rfl, ?_⟩
  · simp only [checkTrends, key, h1, h0]
    rfl
  · simp only [compareTrends]
    cases o1.1 <;> cases o0.1 <;> simp
    ring
  · intro hb
    have hd : (o1.1.map (· + b 1)).bind (fun x => (o0.1.map (· + b 0)).map (fun y => x - y)) =
        o1.1.bind (fun x => o0.1.map (fun y => x - y)) := by
      rw [hb]
      cases o1.1 <;> cases o0.1 <;> simp
    simp only [compareTrends, hd, and_self]

theorem computeTrend_se (r : K → K) (l : List (Row K)) {o : Option K × Option K} (h : computeTrend r l = .ok o) (hs : o.2.isSome) :
    o.1.isSome := by
  rw [computeTrend_eq] at h
  split_ifs at h <;> cases h <;> simp_all

/-- C109: a verdict is given exactly when the standard error of the difference is defined and positive; it then says whether the p-value
of the difference over its standard error exceeds 0.05. -/
theorem C109_verdict (r pv : K → K) (rows : List (Row K)) (pre : Option (List K)) {R : Trend K}
    (h : checkTrends r pv rows pre = .ok R) :
    (∀ s d, R.diffSe = some s → 0 < s → R.diff = some d →
      R.t = some (d / s) ∧ R.p = some (pv (d / s)) ∧ R.plausible = some (decide (1 / 20 < pv (d / s)))) ∧
    (R.plausible = none ↔ ¬∃ s, R.diffSe = some s ∧ 0 < s) ∧ (R.diffSe.isSome → R.diff.isSome) := by
  obtain ⟨a, b, h1, h0, rfl⟩ := checkTrends_ok r pv rows _ h
  have hs1 := computeTrend_se r _ h1
  have hs0 := computeTrend_se r _ h0
  obtain ⟨a1, a2⟩ := a
  obtain ⟨b1, b2⟩ := b
  refine ⟨?_, ?_, ?_⟩
  · intro s d hs hpos hd
    simp only [compareTrends] at hs hd ⊢
    rw [hs, hd]
    simp [hpos]
  · simp only [compareTrends]
    cases a2 with
    | none => simp
    | some x =>
      cases b2 with
      | none => simp
      | some y =>
        obtain ⟨u, hu⟩ := Option.isSome_iff_exists.mp (hs1 rfl)
        obtain ⟨v, hv⟩ := Option.isSome_iff_exists.mp (hs0 rfl)
        simp only at hu hv
        subst hu; subst hv
        by_cases hp : 0 < r (x ^ 2 + y ^ 2)
        · simp [hp]
        · simp [hp]
  · simp only [compareTrends]
    cases a2 with
    | none => simp
    | some x =>
      cases b2 with
      | none => simp
      | some y =>
        obtain ⟨u, hu⟩ := Option.isSome_iff_exists.mp (hs1 rfl)
        obtain ⟨v, hv⟩ := Option.isSome_iff_exists.mp (hs0 rfl)
        simp only at hu hv
        subst hu; subst hv
        simp

/-- C109: exchanging the two groups negates the difference and the statistic and keeps the p-value and verdict. -/
theorem C109_swap (r pv : K → K) (hpv : ∀ x, pv (-x) = pv x) (rows : List (Row K)) (pre : Option (List K)) {R : Trend K}
    (h : checkTrends r pv rows pre = .ok R) :
    ∃ R', checkTrends r pv (rows.map (fun x => { x with g := 1 - x.g })) pre = .ok R' ∧ R'.treated = R.control ∧
      R'.control = R.treated ∧ R'.diff = R.diff.map (- ·) ∧ R'.diffSe = R.diffSe ∧ R'.t = R.t.map (- ·) ∧ R'.p = R.p ∧
      R'.plausible = R.plausible := by
  obtain ⟨a, b, h1, h0, rfl⟩ := checkTrends_ok r pv rows _ h
  have key : ∀ g, computeTrend r (groupRows (preRows (rows.map (fun x => { x with g := 1 - x.g })) pre) (1 - g)) =
      computeTrend r (groupRows (preRows rows pre) g) := by
    intro g
    rw [preRows_map (fun x : Row K => { x with g := 1 - x.g }) (fun x => rfl)]
    have : groupRows ((preRows rows pre).map (fun x => { x with g := 1 - x.g })) (1 - g) =
        (groupRows (preRows rows pre) g).map (fun x => { x with g := 1 - x.g }) := by
      simp only [groupRows, List.filter_map]
      congr 1
      apply List.filter_congr
      intro x _
      simp only [Function.comp, sub_right_inj]
    rw [this]
    exact computeTrend_map r (fun x : Row K => { x with g := 1 - x.g }) (fun x => rfl) (fun x => rfl) _
  have k1 := key 1
  have k0 := key 0
  norm_num at k1 k0
  refine ⟨compareTrends r pv b a, ?_, rfl, rfl, ?_, ?_, ?_, ?_, ?_⟩
  · simp only [checkTrends, k1, k0, h1, h0]
  · simp only [compareTrends]
    cases a.1 <;> cases b.1 <;> simp
  · simp only [compareTrends]
    cases a.2 <;> cases b.2 <;> simp [add_comm]
  all_goals
    simp only [compareTrends]
    rcases a with ⟨_ | a1, _ | a2⟩ <;> rcases b with ⟨_ | b1, _ | b2⟩ <;> simp
    all_goals
      rw [add_comm (b2 ^ 2)]
      by_cases hp : 0 < r (a2 ^ 2 + b2 ^ 2)
      · simp only [hp, if_true, Option.map_some, Option.some.injEq]
        first
          | (rw [← neg_sub a1 b1, neg_div, hpv])
          | ring
      · simp [hp]

/-- The rows with the time values replaced by `k t + s`. -/
def reTime (k s : K) (rows : List (Row K)) : List (Row K) := rows.map (fun x => { x with time := k * x.time + s })

theorem preRows_reTime {k : K} (hk : 0 < k) (s : K) (rows : List (Row K)) (pre : Option (List K)) :
    preRows (reTime k s rows) (pre.map (List.map (fun t => k * t + s))) = reTime k s (preRows rows pre) := by
  have hinj : Function.Injective (fun t : K => k * t + s) := by
    intro a b h
    simp only at h
    exact mul_left_cancel₀ hk.ne' (by linarith)
  have hle : ∀ a b : K, k * a + s ≤ k * b + s ↔ a ≤ b := by
    intro a b
    constructor
    · intro h; exact le_of_mul_le_mul_left (by linarith) hk
    · intro h
      have := mul_le_mul_of_nonneg_left h hk.le
      linarith
  have htimes : (reTime k s rows).map Row.time = (rows.map Row.time).map (fun t => k * t + s) := by
    simp [reTime, Function.comp_def]
  have hmem : ∀ x ∈ rows, (k * x.time + s ∈ preOf (reTime k s rows) (pre.map (List.map (fun t => k * t + s))) ↔
      x.time ∈ preOf rows pre) := by
    intro x hx
    cases pre with
    | some P =>
      simp only [preOf, Option.map_some, Option.getD_some]
      exact ⟨fun h => by
        obtain ⟨u, hu, he⟩ := List.mem_map.mp h
        exact hinj he ▸ hu, fun h => List.mem_map_of_mem h⟩
    | none =>
      rw [Option.map_none, preOf_none, preOf_none, htimes]
      have hfs : ((rows.map Row.time).map (fun t => k * t + s)).toFinset = (rows.map Row.time).toFinset.image (fun t => k * t + s) := by
        ext u; simp
      have hfilt : ((rows.map Row.time).toFinset.image (fun t => k * t + s)).filter (· ≤ k * x.time + s) =
          ((rows.map Row.time).toFinset.filter (· ≤ x.time)).image (fun t => k * t + s) := by
        ext u
        simp only [Finset.mem_filter, Finset.mem_image]
        constructor
        · rintro ⟨⟨v, hv, rfl⟩, hu⟩
          exact ⟨v, ⟨hv, (hle _ _).mp hu⟩, rfl⟩
        · rintro ⟨v, ⟨hv, hu⟩, rfl⟩
          exact ⟨⟨v, hv, rfl⟩, (hle _ _).mpr hu⟩
      rw [hfs, hfilt, Finset.card_image_of_injective _ hinj, Finset.card_image_of_injective _ hinj]
      constructor
      · rintro ⟨_, h⟩; exact ⟨List.mem_map_of_mem hx, h⟩
      · rintro ⟨h1, h⟩; exact ⟨List.mem_map_of_mem h1, h⟩
  unfold preRows
  show (rows.map (fun x : Row K => { x with time := k * x.time + s })).filter _ = _
  rw [List.filter_map]
  show _ = (rows.filter _).map _
  congr 1
  apply List.filter_congr
  intro x hx
  simp only [Function.comp]
  rw [decide_eq_decide]
  exact hmem x hx

theorem computeTrend_time (r : K → K) (hr : ∀ x c : K, 0 < c → r (c ^ 2 * x) = c * r x) {k : K} (hk : 0 < k) (s : K)
    (l : List (Row K)) : computeTrend r (reTime k s l) = (computeTrend r l).map (fun o => (o.1.map (· / k), o.2.map (· / k))) := by
  rw [computeTrend_eq, computeTrend_eq]
  by_cases h : l = []
  · subst h; rfl
  have hlen : (reTime k s l).length = l.length := by simp [reTime]
  have hne : reTime k s l ≠ [] := by simpa [reTime] using h
  rw [if_neg h, if_neg hne, hlen]
  by_cases h2 : l.length < 2
  · rw [if_pos h2, if_pos h2]; rfl
  rw [if_neg h2, if_neg h2]
  have hsx : sxx (reTime k s l) Row.time = k ^ 2 * sxx l Row.time := by
    rw [← sxx_affine h Row.time k s]
    simp only [sxx, reTime, List.map_map]
    rfl
  have hxy : sxy (reTime k s l) Row.time yv = k * sxy l Row.time yv := by
    rw [← sxy_affine h Row.time yv k s]
    simp only [sxy, reTime, List.map_map]
    rfl
  have hss : ssr (reTime k s l) Row.time yv = ssr l Row.time yv := by
    rw [← ssr_affine h Row.time yv hk.ne' s]
    simp only [ssr, sxx, sxy, reTime, List.map_map]
    rfl
  have hys : (∀ x ∈ reTime k s l, x.y.isSome) ↔ ∀ x ∈ l, x.y.isSome := by simp [reTime]
  have hk2 : k ^ 2 ≠ 0 := pow_ne_zero _ hk.ne'
  by_cases hv : sxx l Row.time = 0
  · rw [if_pos hv, if_pos (by rw [hsx, hv, mul_zero])]; rfl
  rw [if_neg hv, if_neg (by rw [hsx]; exact mul_ne_zero hk2 hv)]
  by_cases hy : ∀ x ∈ l, x.y.isSome
  · rw [if_pos hy, if_pos (hys.mpr hy), hsx, hxy, hss]
    have e1 : k * sxy l Row.time yv / (k ^ 2 * sxx l Row.time) = sxy l Row.time yv / sxx l Row.time / k := by
      field_simp
    have e2 : r (ssr l Row.time yv / ((l.length : K) - 2) / (k ^ 2 * sxx l Row.time)) =
        r (ssr l Row.time yv / ((l.length : K) - 2) / sxx l Row.time) / k := by
      have hk1 : 0 < 1 / k := by positivity
      have := hr (ssr l Row.time yv / ((l.length : K) - 2) / sxx l Row.time) (1 / k) hk1
      rw [div_eq_inv_mul (r _), ← one_div, ← this]
      congr 1
      rw [div_div (ssr l Row.time yv), div_div (ssr l Row.time yv)]
      by_cases hn : (l.length : K) - 2 = 0
      · simp [hn]
      · field_simp
    rw [e1, e2]
    by_cases hl2 : l.length = 2
    · simp [hl2, Except.map]
    · simp [hl2, Except.map]
  · rw [if_neg hy, if_neg (fun hc => hy (hys.mp hc))]
    rfl

/-- C109: the time unit and origin do not matter: with times `k t + s`, `0 < k` (and the listed periods changed alike), trends and
standard errors are divided by `k` and statistic, p-value and verdict stay. `r` is any function with `r (c²x) = c (r x)`. -/
theorem C109_time (r pv : K → K) (hr : ∀ x c : K, 0 < c → r (c ^ 2 * x) = c * r x) {k : K} (hk : 0 < k) (s : K) (rows : List (Row K))
    (pre : Option (List K)) {R : Trend K} (h : checkTrends r pv rows pre = .ok R) :
    ∃ R', checkTrends r pv (rows.map (fun x => { x with time := k * x.time + s })) (pre.map (List.map (fun t => k * t + s))) = .ok R' ∧
      R'.treated = R.treated.map (· / k) ∧ R'.control = R.control.map (· / k) ∧ R'.diff = R.diff.map (· / k) ∧
      R'.treatedSe = R.treatedSe.map (· / k) ∧ R'.controlSe = R.controlSe.map (· / k) ∧ R'.diffSe = R.diffSe.map (· / k) ∧
      R'.t = R.t ∧ R'.p = R.p ∧ R'.plausible = R.plausible := by
  obtain ⟨a, b, h1, h0, rfl⟩ := checkTrends_ok r pv rows _ h
  have key : ∀ g, computeTrend r (groupRows (preRows (reTime k s rows) (pre.map (List.map (fun t => k * t + s)))) g) =
      (computeTrend r (groupRows (preRows rows pre) g)).map (fun o => (o.1.map (· / k), o.2.map (· / k))) := by
    intro g
    rw [preRows_reTime hk, ← computeTrend_time r hr hk s]
    congr 1
    exact groupRows_map (fun x : Row K => { x with time := k * x.time + s }) (fun x => rfl) _ _
  have hse : ∀ x y : K, r ((x / k) ^ 2 + (y / k) ^ 2) = r (x ^ 2 + y ^ 2) / k := by
    intro x y
    have := hr (x ^ 2 + y ^ 2) (1 / k) (by positivity)
    rw [div_eq_inv_mul (r _), ← one_div, ← this]
    congr 1
    field_simp
  have ht : ∀ a1 a2 b1 b2 : Option K,
      ((a2.map (· / k)).bind (fun x => (b2.map (· / k)).map (fun y => r (x ^ 2 + y ^ 2)))).bind
        (fun s => if 0 < s then ((a1.map (· / k)).bind (fun x => (b1.map (· / k)).map (fun y => x - y))).map (· / s) else none) =
      (a2.bind (fun x => b2.map (fun y => r (x ^ 2 + y ^ 2)))).bind
        (fun s => if 0 < s then (a1.bind (fun x => b1.map (fun y => x - y))).map (· / s) else none) := by
    intro a1 a2 b1 b2
    cases a2 with
    | none => rfl
    | some x =>
      cases b2 with
      | none => rfl
      | some y =>
        simp only [Option.map_some, Option.bind_some, hse]
        by_cases hp : 0 < r (x ^ 2 + y ^ 2)
        · have hp' : 0 < r (x ^ 2 + y ^ 2) / k := div_pos hp hk
          rw [if_pos hp, if_pos hp']
          cases a1 <;> cases b1 <;> simp
          rw [← sub_div, div_div_div_cancel_right₀ hk.ne']
        · have hp' : ¬0 < r (x ^ 2 + y ^ 2) / k := by
            intro hc
            apply hp
            have := mul_pos hc hk
            rwa [div_mul_cancel₀ _ hk.ne'] at this
          rw [if_neg hp, if_neg hp']
  refine ⟨compareTrends r pv (a.1.map (· / k), a.2.map (· / k)) (b.1.map (· / k), b.2.map (· / k)), ?_, rfl, rfl, ?_, rfl, rfl, ?_, ?_,
    ?_, ?_⟩
  · have := key 1
    have := key 0
    show checkTrends r pv (reTime k s rows) _ = _
    simp only [checkTrends, key, h1, h0]
    rfl
  · simp only [compareTrends]
    cases a.1 <;> cases b.1 <;> simp
    rw [sub_div]
  · simp only [compareTrends]
    cases a.2 <;> cases b.2 <;> simp
    exact hse _ _
  · simp only [compareTrends]
    exact ht _ _ _ _
  · simp only [compareTrends]
    rw [ht]
  · simp only [compareTrends]
    rw [ht]

/-! ### Parallel group means -/

theorem sum_by_time (l : List (Row K)) (f : Row K → K) (T : Finset K) (hT : ∀ x ∈ l, x.time ∈ T) :
    (l.map f).sum = ∑ t ∈ T, ((l.filter (fun x => decide (x.time = t))).map f).sum := by
  induction l with
  | nil => simp
  | cons a l ih =>
    have ha : a.time ∈ T := hT a (by simp)
    have hcons : ∀ t, (((a :: l).filter (fun x => decide (x.time = t))).map f).sum =
        (if a.time = t then f a else 0) + ((l.filter (fun x => decide (x.time = t))).map f).sum := by
      intro t
      by_cases h : a.time = t
      · simp [h]
      · simp [h]
    simp only [hcons]
    rw [Finset.sum_add_distrib, Finset.sum_ite_eq, if_pos ha, ← ih (fun x hx => hT x (List.mem_cons_of_mem _ hx))]
    simp

theorem sxy_eq {α : Type*} {l : List α} (h : l ≠ []) (t y : α → K) : sxy l t y = (l.map (fun x => (t x - mean (l.map t)) * y x)).sum := by
  have : (fun x => (t x - mean (l.map t)) * (y x - mean (l.map y))) =
      fun x => (t x - mean (l.map t)) * y x + (-mean (l.map y)) * (t x - mean (l.map t)) := by funext x; ring
  rw [sxy, this, sum_add', sum_mul', sum_center h]
  ring

/-- Number of rows at time `t`. -/
def countAt (l : List (Row K)) (t : K) : ℕ := (l.filter (fun x => decide (x.time = t))).length

/-- Sum of the outcomes at time `t`. -/
def sumAt (l : List (Row K)) (t : K) : K := ((l.filter (fun x => decide (x.time = t))).map yv).sum

theorem sum_times (l : List (Row K)) (φ : K → K) (T : Finset K) (hT : ∀ x ∈ l, x.time ∈ T) :
    (l.map (fun x => φ x.time)).sum = ∑ t ∈ T, (countAt l t : K) * φ t := by
  rw [sum_by_time l _ T hT]
  apply Finset.sum_congr rfl
  intro t _
  have : (l.filter (fun x => decide (x.time = t))).map (fun x => φ x.time) =
      (l.filter (fun x => decide (x.time = t))).map (fun _ => φ t) := by
    apply List.map_congr_left
    intro x hx
    have := (List.mem_filter.mp hx).2
    simp only [decide_eq_true_eq] at this
    rw [this]
  rw [this, sum_const', countAt]

theorem sum_times_y (l : List (Row K)) (φ : K → K) (T : Finset K) (hT : ∀ x ∈ l, x.time ∈ T) :
    (l.map (fun x => φ x.time * yv x)).sum = ∑ t ∈ T, φ t * sumAt l t := by
  rw [sum_by_time l _ T hT]
  apply Finset.sum_congr rfl
  intro t _
  have : (l.filter (fun x => decide (x.time = t))).map (fun x => φ x.time * yv x) =
      (l.filter (fun x => decide (x.time = t))).map (fun x => φ t * yv x) := by
    apply List.map_congr_left
    intro x hx
    have := (List.mem_filter.mp hx).2
    simp only [decide_eq_true_eq] at this
    rw [this]
  rw [this, sum_mul', sumAt]

theorem slope_parallel (l1 l0 : List (Row K)) (h1 : l1 ≠ []) (h0 : l0 ≠ []) (c : K)
    (hcount : ∀ t, countAt l1 t * l0.length = countAt l0 t * l1.length)
    (hmean : ∀ t, countAt l1 t ≠ 0 → sumAt l1 t / countAt l1 t = sumAt l0 t / countAt l0 t + c) :
    sxy l1 Row.time yv / sxx l1 Row.time = sxy l0 Row.time yv / sxx l0 Row.time := by
  classical
  have n1 := length_ne (K := K) h1
  have n0 := length_ne (K := K) h0
  set κ : K := (l1.length : K) / (l0.length : K) with hκ
  have hκ0 : κ ≠ 0 := div_ne_zero n1 n0
  have hc : ∀ t, (countAt l1 t : K) = κ * countAt l0 t := by
    intro t
    have : (countAt l1 t : K) * l0.length = countAt l0 t * l1.length := by exact_mod_cast hcount t
    rw [hκ]
    field_simp
    linear_combination this
  have hs : ∀ t, sumAt l1 t = κ * (sumAt l0 t + countAt l0 t * c) := by
    intro t
    by_cases hz : countAt l1 t = 0
    · have h00 : countAt l0 t = 0 := by
        have := hc t
        rw [hz] at this
        have h2 : (countAt l0 t : K) = 0 := by
          have := this.symm
          simp only [Nat.cast_zero] at this
          rcases mul_eq_zero.mp this with h | h
          · exact absurd h hκ0
          · exact h
        exact_mod_cast h2
      have e1 : sumAt l1 t = 0 := by
        have := List.length_eq_zero_iff.mp hz
        simp [sumAt, this]
      have e0 : sumAt l0 t = 0 := by
        have := List.length_eq_zero_iff.mp h00
        simp [sumAt, this]
      rw [e1, e0, h00]
      simp
    · have hm := hmean t hz
      have hz1 : (countAt l1 t : K) ≠ 0 := by exact_mod_cast hz
      have hz0 : (countAt l0 t : K) ≠ 0 := by
        intro h
        rw [hc, h, mul_zero] at hz1
        exact hz1 rfl
      have := hc t
      rw [div_eq_iff hz1, this] at hm
      rw [hm]
      field_simp
  set T : Finset K := (l1.map Row.time).toFinset ∪ (l0.map Row.time).toFinset with hTdef
  have hT1 : ∀ x ∈ l1, x.time ∈ T := fun x hx => by
    rw [hTdef]
    exact Finset.mem_union_left _ (List.mem_toFinset.mpr (List.mem_map_of_mem hx))
  have hT0 : ∀ x ∈ l0, x.time ∈ T := fun x hx => by
    rw [hTdef]
    exact Finset.mem_union_right _ (List.mem_toFinset.mpr (List.mem_map_of_mem hx))
  have hphi : ∀ φ : K → K, (l1.map (fun x => φ x.time)).sum = κ * (l0.map (fun x => φ x.time)).sum := by
    intro φ
    rw [sum_times l1 φ T hT1, sum_times l0 φ T hT0, Finset.mul_sum]
    apply Finset.sum_congr rfl
    intro t _
    rw [hc]
    ring
  have hphiy : ∀ φ : K → K, (l1.map (fun x => φ x.time * yv x)).sum =
      κ * ((l0.map (fun x => φ x.time * yv x)).sum + c * (l0.map (fun x => φ x.time)).sum) := by
    intro φ
    rw [sum_times_y l1 φ T hT1, sum_times_y l0 φ T hT0, sum_times l0 φ T hT0, Finset.mul_sum, ← Finset.sum_add_distrib, Finset.mul_sum]
    apply Finset.sum_congr rfl
    intro t _
    rw [hs]
    ring
  have hm : mean (l1.map Row.time) = mean (l0.map Row.time) := by
    rw [mean_map, mean_map]
    have := hphi (fun t => t)
    rw [show l1.map (fun x : Row K => x.time) = l1.map Row.time from rfl,
      show l0.map (fun x : Row K => x.time) = l0.map Row.time from rfl] at this
    rw [this, hκ]
    field_simp
  have hxx : sxx l1 Row.time = κ * sxx l0 Row.time := by
    simp only [sxx]
    rw [hm]
    exact hphi (fun t => (t - mean (l0.map Row.time)) ^ 2)
  have hxy : sxy l1 Row.time yv = κ * sxy l0 Row.time yv := by
    rw [sxy_eq h1, sxy_eq h0, hm, hphiy (fun t => t - mean (l0.map Row.time)), sum_center h0]
    ring
  rw [hxx, hxy, mul_div_mul_left _ _ hκ0]

/-- C109 (partial): if the group means differ by the same amount in every pre-treatment period and both groups have the same share of
their rows in each period, the trend difference is zero, and a verdict that is given says plausible. Missing: groups with a different
composition over the periods (see `C109_parallel_refuted`) and data for which no verdict is given. -/
theorem C109_parallel_partial (r pv : K → K) (hpv : 1 / 20 < pv 0) (rows : List (Row K)) (P : List K) (c : K) {R : Trend K}
    (h : checkTrends r pv rows (some P) = .ok R)
    (hcount : ∀ t, countAt (inPre rows P 1) t * (inPre rows P 0).length = countAt (inPre rows P 0) t * (inPre rows P 1).length)
    (hmean : ∀ t, countAt (inPre rows P 1) t ≠ 0 →
      sumAt (inPre rows P 1) t / countAt (inPre rows P 1) t = sumAt (inPre rows P 0) t / countAt (inPre rows P 0) t + c) :
    (∀ d, R.diff = some d → d = 0) ∧ R.plausible ≠ some false := by
  have hv := C109_verdict r pv rows _ h
  have hd0 : ∀ d, R.diff = some d → d = 0 := by
    obtain ⟨a, b, h1, h0, rfl⟩ := checkTrends_ok r pv rows _ h
    rw [groupRows_pre] at h1 h0
    intro d hd
    have hn1 : inPre rows P 1 ≠ [] := fun hc => by
      rw [(computeTrend_error r _).mpr hc] at h1; cases h1
    have hn0 : inPre rows P 0 ≠ [] := fun hc => by
      rw [(computeTrend_error r _).mpr hc] at h0; cases h0
    have hs := slope_parallel _ _ hn1 hn0 c hcount hmean
    have e1 : a.1 = none ∨ a.1 = some (sxy (inPre rows P 1) Row.time yv / sxx (inPre rows P 1) Row.time) := by
      rw [computeTrend_eq] at h1
      split_ifs at h1 <;> cases h1 <;> simp
    have e0 : b.1 = none ∨ b.1 = some (sxy (inPre rows P 0) Row.time yv / sxx (inPre rows P 0) Row.time) := by
      rw [computeTrend_eq] at h0
      split_ifs at h0 <;> cases h0 <;> simp
    simp only [compareTrends] at hd
    rcases e1 with e1 | e1
    · rw [e1] at hd; cases hd
    · rcases e0 with e0 | e0
      · rw [e1, e0] at hd; cases hd
      · rw [e1, e0, hs] at hd
        simp at hd
        exact hd.symm
  refine ⟨hd0, ?_⟩
  intro hc
  obtain ⟨hv1, hv2, hv3⟩ := hv
  have : ∃ s, R.diffSe = some s ∧ 0 < s := by
    by_contra hne
    rw [hv2.mpr hne] at hc
    cases hc
  obtain ⟨s, hs, hpos⟩ := this
  obtain ⟨d, hd⟩ := Option.isSome_iff_exists.mp (hv3 (by rw [hs]; rfl))
  have := (hv1 s d hs hpos hd).2.2
  rw [hd0 d hd, zero_div, hc] at this
  simp only [Option.some.injEq, Bool.false_eq, decide_eq_false_iff_not] at this
  exact this hpv

/-! ### Cases -/

/-- A row from numbers. -/
def mk (u : ℕ) (t : ℚ) (g : ℤ) (y : ℚ) : Row ℚ := ⟨u, t, g, some y⟩

/-- Two groups over periods 0, 1, 2 (pre-treatment) and 3, 4, 5. -/
def rowsA : List (Row ℚ) :=
  [mk 0 0 1 1, mk 0 1 1 3, mk 0 2 1 4, mk 0 3 1 9, mk 0 4 1 9, mk 0 5 1 9,
   mk 1 0 0 0, mk 1 1 0 2, mk 1 2 0 3, mk 1 3 0 4, mk 1 4 0 5, mk 1 5 0 6]

/-- The real square root has the scaling property used above. -/
example (x c : ℝ) (hc : 0 < c) : Real.sqrt (c ^ 2 * x) = c * Real.sqrt x := by
  rw [Real.sqrt_mul (by positivity), Real.sqrt_sq hc.le]

/-- An even p-value function. -/
def pvA (x : ℚ) : ℚ := if x = 0 then 1 else 1 / 100

example : ∃ R, checkTrends (fun x => x) pvA rowsA none = .ok R ∧ R.treated = some (3 / 2) ∧ R.control = some (3 / 2) ∧
    R.diff = some 0 ∧ R.treatedSe = some (1 / 12) ∧ R.plausible = some true := by
  refine ⟨compareTrends (fun x => x) pvA (some (3 / 2), some (1 / 12)) (some (3 / 2), some (1 / 12)), ?_, rfl, rfl, ?_, rfl, ?_⟩
  · decide +kernel
  · decide +kernel
  · decide +kernel

example : ∃ t ∈ rowsA.map Row.time, (t ∈ [(0 : ℚ), 1, 2] ↔
    2 * ((rowsA.map Row.time).toFinset.filter (· ≤ t)).card ≤ (rowsA.map Row.time).toFinset.card) := by
  refine ⟨3, ?_, ?_⟩ <;> decide +kernel

example : (∀ t ∈ rowsA.map Row.time, (t ∈ [(0 : ℚ), 1, 2] ↔
    2 * ((rowsA.map Row.time).toFinset.filter (· ≤ t)).card ≤ (rowsA.map Row.time).toFinset.card)) := by decide +kernel

/-- The hypotheses of the partial claim hold for `rowsA`. -/
example : (∀ t ∈ [(0 : ℚ), 1, 2], countAt (inPre rowsA [0, 1, 2] 1) t * (inPre rowsA [0, 1, 2] 0).length =
      countAt (inPre rowsA [0, 1, 2] 0) t * (inPre rowsA [0, 1, 2] 1).length) ∧
    ∀ t ∈ [(0 : ℚ), 1, 2], sumAt (inPre rowsA [0, 1, 2] 1) t / countAt (inPre rowsA [0, 1, 2] 1) t =
      sumAt (inPre rowsA [0, 1, 2] 0) t / countAt (inPre rowsA [0, 1, 2] 0) t + 1 := by decide +kernel

/-- Rows whose group means are 0, 0, 1 in periods 0, 1, 2 for both groups, the treated group having four rows in period 0. -/
def rowsB : List (Row ℚ) :=
  [mk 0 0 1 0, mk 2 0 1 0, mk 3 0 1 0, mk 4 0 1 0, mk 0 1 1 0, mk 0 2 1 1, mk 1 0 0 0, mk 1 1 0 0, mk 1 2 0 1]

/-- C109 (refuted): group means that are equal in every pre-treatment period do not give equal trends: the slopes are fitted to the rows,
so a different number of rows per period in the two groups changes them when the common path is not a line. -/
theorem C109_parallel_refuted (r pv : ℚ → ℚ) :
    (∀ t ∈ [(0 : ℚ), 1, 2], sumAt (inPre rowsB [0, 1, 2] 1) t / countAt (inPre rowsB [0, 1, 2] 1) t =
      sumAt (inPre rowsB [0, 1, 2] 0) t / countAt (inPre rowsB [0, 1, 2] 0) t) ∧
    ∃ R, checkTrends r pv rowsB (some [0, 1, 2]) = .ok R ∧ R.treated = some (3 / 7) ∧ R.control = some (1 / 2) ∧
      R.diff = some (-1 / 14) := by
  refine ⟨by decide +kernel, ?_⟩
  have g1 : groupRows (preRows rowsB (some [0, 1, 2])) 1 =
      [mk 0 0 1 0, mk 2 0 1 0, mk 3 0 1 0, mk 4 0 1 0, mk 0 1 1 0, mk 0 2 1 1] := by rfl
  have g0 : groupRows (preRows rowsB (some [0, 1, 2])) 0 = [mk 1 0 0 0, mk 1 1 0 0, mk 1 2 0 1] := by rfl
  have c1 : ∃ s, computeTrend r [mk 0 0 1 0, mk 2 0 1 0, mk 3 0 1 0, mk 4 0 1 0, mk 0 1 1 0, mk 0 2 1 1] = .ok (some (3 / 7), s) := by
    rw [computeTrend_eq, if_neg (by simp), if_neg (by decide), if_neg (by decide +kernel), if_pos (by decide)]
    have e : sxy [mk 0 0 1 0, mk 2 0 1 0, mk 3 0 1 0, mk 4 0 1 0, mk 0 1 1 0, mk 0 2 1 1] Row.time yv /
        sxx [mk 0 0 1 0, mk 2 0 1 0, mk 3 0 1 0, mk 4 0 1 0, mk 0 1 1 0, mk 0 2 1 1] Row.time = 3 / 7 := by decide +kernel
    rw [e]
    exact ⟨_, rfl⟩
  have c0 : ∃ s, computeTrend r [mk 1 0 0 0, mk 1 1 0 0, mk 1 2 0 1] = .ok (some (1 / 2), s) := by
    rw [computeTrend_eq, if_neg (by simp), if_neg (by decide), if_neg (by decide +kernel), if_pos (by decide)]
    have e : sxy [mk 1 0 0 0, mk 1 1 0 0, mk 1 2 0 1] Row.time yv /
        sxx [mk 1 0 0 0, mk 1 1 0 0, mk 1 2 0 1] Row.time = 1 / 2 := by decide +kernel
    rw [e]
    exact ⟨_, rfl⟩
  obtain ⟨s1, c1⟩ := c1
  obtain ⟨s0, c0⟩ := c0
  refine ⟨compareTrends r pv (some (3 / 7), s1) (some (1 / 2), s0), ?_, rfl, rfl, ?_⟩
  · simp only [checkTrends, g1, g0, c1, c0]
  · simp only [compareTrends, Option.bind_some, Option.map_some, Option.some.injEq]
    norm_num

/-- Exactly linear outcomes, slope 5 for the treated and 0 for the controls. -/
def rowsC : List (Row ℚ) := [mk 0 0 1 0, mk 0 1 1 5, mk 0 2 1 10, mk 1 0 0 0, mk 1 1 0 0, mk 1 2 0 0]

/-- C109 (refuted): an obvious violation need not be reported: when both groups lie exactly on lines with different slopes the standard
error is zero and no verdict is given, whatever the p-value function. -/
theorem C109_exact_refuted (r pv : ℚ → ℚ) (hr : r 0 = 0) :
    ∃ R, checkTrends r pv rowsC (some [0, 1, 2]) = .ok R ∧ R.treated = some 5 ∧ R.control = some 0 ∧ R.diff = some 5 ∧
      R.diffSe = some 0 ∧ R.p = none ∧ R.plausible = none := by
  have g1 : groupRows (preRows rowsC (some [0, 1, 2])) 1 = [mk 0 0 1 0, mk 0 1 1 5, mk 0 2 1 10] := by rfl
  have g0 : groupRows (preRows rowsC (some [0, 1, 2])) 0 = [mk 1 0 0 0, mk 1 1 0 0, mk 1 2 0 0] := by rfl
  have c1 : computeTrend r [mk 0 0 1 0, mk 0 1 1 5, mk 0 2 1 10] = .ok (some 5, some 0) := by
    rw [computeTrend_eq, if_neg (by simp), if_neg (by decide), if_neg (by decide +kernel), if_pos (by decide)]
    have e1 : sxy [mk 0 0 1 0, mk 0 1 1 5, mk 0 2 1 10] Row.time yv / sxx [mk 0 0 1 0, mk 0 1 1 5, mk 0 2 1 10] Row.time = 5 := by
      decide +kernel
    have e2 : ssr [mk 0 0 1 0, mk 0 1 1 5, mk 0 2 1 10] Row.time yv = 0 := by decide +kernel
    rw [e1, e2]
    simp [hr]
  have c0 : computeTrend r [mk 1 0 0 0, mk 1 1 0 0, mk 1 2 0 0] = .ok (some 0, some 0) := by
    rw [computeTrend_eq, if_neg (by simp), if_neg (by decide), if_neg (by decide +kernel), if_pos (by decide)]
    have e1 : sxy [mk 1 0 0 0, mk 1 1 0 0, mk 1 2 0 0] Row.time yv / sxx [mk 1 0 0 0, mk 1 1 0 0, mk 1 2 0 0] Row.time = 0 := by
      decide +kernel
    have e2 : ssr [mk 1 0 0 0, mk 1 1 0 0, mk 1 2 0 0] Row.time yv = 0 := by decide +kernel
    rw [e1, e2]
    simp [hr]
  refine ⟨compareTrends r pv (some 5, some 0) (some 0, some 0), ?_, rfl, rfl, ?_, ?_, ?_, ?_⟩
  · simp only [checkTrends, g1, g0, c1, c0]
  all_goals simp [compareTrends, hr]

end DiffDiff.Trends
