/-
Property C131: power curves and their plot.
-/
import Verif.PowerCurve
import Verif.PowerProps

set_option linter.unusedSectionVars false

namespace DiffDiff.PowerCurve

open DiffDiff.Power

/-! ### Loops -/

theorem collect_ok {α : Type} {f : α → Except Err Result} : ∀ {l : List α} {rows : List (α × ℝ)},
    collect f l = .ok rows → rows.map Prod.fst = l ∧ ∀ row ∈ rows, ∃ r, f row.1 = .ok r ∧ row.2 = r.power
  | [], rows, h => by
    obtain rfl := Except.ok.inj h
    simp
  | x :: xs, rows, h => by
    simp only [collect] at h
    cases hf : f x with
    | error e => rw [hf] at h; exact absurd h (by simp [bind, Except.bind])
    | ok r =>
      rw [hf] at h
      cases hc : collect f xs with
      | error e => rw [hc] at h; exact absurd h (by simp [bind, Except.bind])
      | ok rest =>
        rw [hc] at h
        obtain rfl := Except.ok.inj h
        obtain ⟨h1, h2⟩ := collect_ok hc
        refine ⟨by simp [h1], ?_⟩
        intro row hrow
        rcases List.mem_cons.mp hrow with rfl | hrow
        · exact ⟨r, hf, rfl⟩
        · exact h2 row hrow

theorem collect_def {α : Type} {f : α → Except Err Result} : ∀ {l : List α}, (∀ x ∈ l, ∃ r, f x = .ok r) →
    ∃ rows, collect f l = .ok rows
  | [], _ => ⟨[], rfl⟩
  | x :: xs, h => by
    obtain ⟨r, hr⟩ := h x (by simp)
    obtain ⟨rest, hc⟩ := collect_def (f := f) (l := xs) fun y hy => h y (by simp [hy])
    exact ⟨_, by simp only [collect, hr, hc]; rfl⟩

theorem linspace_length (stop : ℝ) (n : ℕ) : (linspace stop n).length = n := by simp [linspace]

theorem curve_split {N : Normal} {s : Settings} {nt nc : ℕ} {sigma : ℝ} {effects : Option (List ℝ)} {pre post : ℕ}
    {rho : ℝ} {rows : List (ℝ × ℝ)} (h : powerCurve N s nt nc sigma effects pre post rho = .ok rows) :
    ∃ m, mde N s nt nc sigma pre post rho = .ok m ∧
      collect (fun e => power N s e nt nc sigma pre post rho)
        (effects.getD (linspace (5 / 2 * m.mde) 50)) = .ok rows := by
  simp only [powerCurve] at h
  cases hm : mde N s nt nc sigma pre post rho with
  | error e => rw [hm] at h; exact absurd h (by simp [bind, Except.bind])
  | ok m => rw [hm] at h; exact ⟨m, rfl, h⟩

/-! ### The table over effects -/

/-- Every row of the effect table carries the power that `power` reports for that effect and the same design; effects
given by the caller are kept, in order; without them there are fifty rows. -/
theorem C131_rows {N : Normal} {s : Settings} {nt nc : ℕ} {sigma : ℝ} {effects : Option (List ℝ)} {pre post : ℕ}
    {rho : ℝ} {rows : List (ℝ × ℝ)} (h : powerCurve N s nt nc sigma effects pre post rho = .ok rows) :
    (∀ row ∈ rows, ∃ r, power N s row.1 nt nc sigma pre post rho = .ok r ∧ row.2 = r.power) ∧
    (∀ l, effects = some l → rows.map Prod.fst = l) ∧ (effects = none → rows.length = 50) := by
  obtain ⟨m, -, hc⟩ := curve_split h
  obtain ⟨h1, h2⟩ := collect_ok hc
  refine ⟨h2, ?_, ?_⟩
  · rintro l rfl; exact h1
  · rintro rfl
    have := congrArg List.length h1
    simpa [linspace_length] using this

/-- The table exists exactly when both groups have units, whatever effects are asked for, even none. -/
theorem C131_defined (N : Normal) (s : Settings) (nt nc : ℕ) (sigma : ℝ) (effects : Option (List ℝ)) (pre post : ℕ)
    (rho : ℝ) : (∃ rows, powerCurve N s nt nc sigma effects pre post rho = .ok rows) ↔ 0 < nt ∧ 0 < nc := by
  constructor
  · rintro ⟨rows, h⟩
    obtain ⟨m, hm, -⟩ := curve_split h
    exact ((C44_defined N s 0 nt nc sigma pre post rho).2.1).mp ⟨m, hm⟩
  · intro h
    obtain ⟨m, hm⟩ := ((C44_defined N s 0 nt nc sigma pre post rho).2.1).mpr h
    obtain ⟨rows, hr⟩ := collect_def (f := fun e => power N s e nt nc sigma pre post rho)
      (l := effects.getD (linspace (5 / 2 * m.mde) 50))
      fun e _ => ((C44_defined N s e nt nc sigma pre post rho).1).mpr h
    refine ⟨rows, ?_⟩
    simp only [powerCurve, hm]
    exact hr

/-- The default effects are equally spaced from zero to two and a half times the minimum detectable effect. -/
theorem C131_default_grid {N : Normal} {s : Settings} {nt nc : ℕ} {sigma : ℝ} {pre post : ℕ} {rho : ℝ}
    {rows : List (ℝ × ℝ)} (h : powerCurve N s nt nc sigma none pre post rho = .ok rows) {m : Result}
    (hm : mde N s nt nc sigma pre post rho = .ok m) {i : ℕ} (hi : i < 50) :
    ∃ p, rows[i]? = some (5 / 2 * m.mde * i / 49, p) := by
  obtain ⟨m', hm', hc⟩ := curve_split h
  rw [hm] at hm'
  obtain rfl := Except.ok.inj hm'
  obtain ⟨h1, -⟩ := collect_ok hc
  have hl : rows.length = 50 := (C131_rows h).2.2 rfl
  have h2 : (rows.map Prod.fst)[i]? = some (5 / 2 * m.mde * i / 49) := by
    rw [h1]
    simp only [Option.getD_none, linspace, List.getElem?_map, List.getElem?_range hi, Option.map_some]
    norm_num
  rw [List.getElem?_map, List.getElem?_eq_getElem (by omega)] at h2
  rw [List.getElem?_eq_getElem (by omega)]
  simp only [Option.map_some, Option.some.injEq] at h2
  exact ⟨rows[i].2, by rw [← h2]⟩

/-- The first row of the default table is the zero effect, found with probability `alpha`. -/
theorem C131_first {N : Normal} (hN : IsNormal N) {s : Settings} (hs : s.Valid) {nt nc : ℕ} {sigma : ℝ} {pre post : ℕ}
    {rho : ℝ} (hi : Inputs nt nc pre post sigma rho) {rows : List (ℝ × ℝ)}
    (h : powerCurve N s nt nc sigma none pre post rho = .ok rows) : rows[0]? = some (0, s.alpha) := by
  obtain ⟨m, hm, -⟩ := curve_split h
  obtain ⟨p, hp⟩ := C131_default_grid h hm (i := 0) (by norm_num)
  have hz : (5 / 2 * m.mde * ((0 : ℕ) : ℝ) / 49) = 0 := by norm_num
  rw [hz] at hp
  obtain ⟨r, hr, hpr⟩ := (C131_rows h).1 _ (List.mem_of_getElem? hp)
  obtain ⟨q, hq, hqp, -⟩ := power_ok (N := N) (s := s) hi 0
  rw [hq] at hr
  obtain rfl := Except.ok.inj hr
  simp only at hpr
  rw [hp, hpr, hqp, C44_size hN hs]

/-- The documented range (zero to three times the minimum detectable effect) and the one in the comment (to twice it)
are not the range used. -/
theorem C131_range_refuted {N : Normal} {s : Settings} {nt nc : ℕ} {sigma : ℝ} {pre post : ℕ} {rho : ℝ}
    {rows : List (ℝ × ℝ)} (h : powerCurve N s nt nc sigma none pre post rho = .ok rows) {m : Result}
    (hm : mde N s nt nc sigma pre post rho = .ok m) (h0 : m.mde ≠ 0) :
    ∃ row, rows.getLast? = some row ∧ row.1 = 5 / 2 * m.mde ∧ row.1 ≠ 3 * m.mde ∧ row.1 ≠ 2 * m.mde := by
  obtain ⟨p, hp⟩ := C131_default_grid h hm (i := 49) (by norm_num)
  have hl : rows.length = 50 := (C131_rows h).2.2 rfl
  have hz : (5 / 2 * m.mde * ((49 : ℕ) : ℝ) / 49) = 5 / 2 * m.mde := by norm_num
  rw [hz] at hp
  refine ⟨_, by rw [List.getLast?_eq_getElem?, hl]; exact hp, rfl, ?_, ?_⟩
  · intro hc; apply h0; simp only at hc; linarith
  · intro hc; apply h0; simp only at hc; linarith

/-- In the direction of the alternative (or for the two-sided test) the power column of the default table never falls,
and it ends above the target power. -/
theorem C131_reaches {N : Normal} (hN : IsNormal N) {s : Settings} (hs : s.Valid) (ha : s.alternative ≠ .less)
    (hat : s.alpha < s.target) {nt nc : ℕ} {sigma : ℝ} {pre post : ℕ} {rho : ℝ}
    (hi : Inputs nt nc pre post sigma rho) {rows : List (ℝ × ℝ)}
    (h : powerCurve N s nt nc sigma none pre post rho = .ok rows) :
    (∀ i j : ℕ, ∀ a b, i ≤ j → rows[i]? = some a → rows[j]? = some b → a.1 ≤ b.1 ∧ a.2 ≤ b.2) ∧
    ∃ row, rows.getLast? = some row ∧ s.target ≤ row.2 := by
  obtain ⟨m, hm, -⟩ := curve_split h
  have hl : rows.length = 50 := (C131_rows h).2.2 rfl
  have hz : 0 < zSum N s := by
    cases h2 : s.alternative
    · exact zSum_pos_two hN hs (by have := hs.1; linarith) h2
    · exact zSum_pos hN hs hat (by rw [h2]; simp)
    · exact absurd h2 ha
  have hmpos : 0 < m.mde := by
    rw [(mde_ok hm).1, mdeFromSe]
    exact mul_pos hz (se_pos hi)
  have hpow : ∀ row ∈ rows, row.2 = powerAt N s row.1 (se nt nc pre post sigma rho) := by
    intro row hrow
    obtain ⟨r, hr, hpr⟩ := (C131_rows h).1 row hrow
    obtain ⟨q, hq, hqp, -⟩ := power_ok (N := N) (s := s) hi row.1
    rw [hq] at hr
    obtain rfl := Except.ok.inj hr
    rw [hpr, hqp]
  have hmono : ∀ e e' : ℝ, 0 ≤ e → e ≤ e' →
      powerAt N s e (se nt nc pre post sigma rho) ≤ powerAt N s e' (se nt nc pre post sigma rho) := by
    intro e e' he hee
    have hm := C44_effect_monotone hN hs (e := e) (e' := e') (se_pos hi)
    cases h2 : s.alternative
    · rw [h2] at hm
      exact hm (by rw [abs_of_nonneg he, abs_of_nonneg (he.trans hee)]; exact hee)
    · rw [h2] at hm
      rcases hee.lt_or_eq with hlt | rfl
      · exact (hm hlt).le
      · exact le_rfl
    · exact absurd h2 ha
  constructor
  · intro i j a b hij hia hjb
    have hi' : i < 50 := by rw [← hl]; exact (List.getElem?_eq_some_iff.mp hia).1
    have hj' : j < 50 := by rw [← hl]; exact (List.getElem?_eq_some_iff.mp hjb).1
    obtain ⟨p, hp⟩ := C131_default_grid h hm hi'
    obtain ⟨q, hq⟩ := C131_default_grid h hm hj'
    rw [hia] at hp
    rw [hjb] at hq
    have hi1 : a.1 = 5 / 2 * m.mde * i / 49 := by rw [Option.some.inj hp]
    have hj1 : b.1 = 5 / 2 * m.mde * j / 49 := by rw [Option.some.inj hq]
    have hc : (i : ℝ) ≤ j := by exact_mod_cast hij
    have hle : a.1 ≤ b.1 := by
      rw [hi1, hj1]
      have : 5 / 2 * m.mde * i ≤ 5 / 2 * m.mde * j := mul_le_mul_of_nonneg_left hc (by positivity)
      linarith
    refine ⟨hle, ?_⟩
    rw [hpow a (List.mem_of_getElem? hia), hpow b (List.mem_of_getElem? hjb)]
    exact hmono _ _ (by rw [hi1]; positivity) hle
  · obtain ⟨row, hrow, h1, -⟩ := C131_range_refuted h hm hmpos.ne'
    refine ⟨row, hrow, ?_⟩
    rw [hpow row (List.mem_of_getLast? hrow), h1]
    refine le_trans ?_ (hmono m.mde _ hmpos.le (by linarith))
    obtain ⟨q, hq, hqp, -⟩ := power_ok (N := N) (s := s) hi m.mde
    have hp := (C44_mde_partial hN hs hi hm hq).2
    rw [← hqp]
    cases h2 : s.alternative
    · rw [h2] at hp; exact hp.1.le
    · rw [h2] at hp; exact hp.ge
    · exact absurd h2 ha

/-- Against the alternative of a negative effect the default table never reaches the target: its first row is `alpha`
and every later row lies below. -/
theorem C131_less_refuted {N : Normal} (hN : IsNormal N) {s : Settings} (hs : s.Valid) (ha : s.alternative = .less)
    (hat : s.alpha < s.target) {nt nc : ℕ} {sigma : ℝ} {pre post : ℕ} {rho : ℝ}
    (hi : Inputs nt nc pre post sigma rho) {rows : List (ℝ × ℝ)}
    (h : powerCurve N s nt nc sigma none pre post rho = .ok rows) :
    rows.length = 50 ∧ ∀ row ∈ rows, row.2 ≤ s.alpha ∧ row.2 < s.target := by
  obtain ⟨m, hm, -⟩ := curve_split h
  have hl : rows.length = 50 := (C131_rows h).2.2 rfl
  have hmpos : 0 < m.mde := by
    rw [(mde_ok hm).1, mdeFromSe]
    exact mul_pos (zSum_pos hN hs hat (by rw [ha]; simp)) (se_pos hi)
  refine ⟨hl, ?_⟩
  intro row hrow
  have hle : row.2 ≤ s.alpha := by
    obtain ⟨i, hi0, hii⟩ := List.getElem_of_mem hrow
    obtain ⟨p, hp⟩ := C131_default_grid h hm (i := i) (by omega)
    rw [List.getElem?_eq_getElem hi0, hii] at hp
    have h1 : row.1 = 5 / 2 * m.mde * i / 49 := by rw [Option.some.inj hp]
    obtain ⟨r, hr, hpr⟩ := (C131_rows h).1 row hrow
    obtain ⟨q, hq, hqp, -⟩ := power_ok (N := N) (s := s) hi row.1
    rw [hq] at hr
    obtain rfl := Except.ok.inj hr
    rw [hpr, hqp, ← C44_size hN hs (se nt nc pre post sigma rho)]
    have hm' := C44_effect_monotone hN hs (e := 0) (e' := row.1) (se_pos hi)
    rw [ha] at hm'
    have h0 : 0 ≤ row.1 := by rw [h1]; positivity
    rcases h0.lt_or_eq with hlt | heq
    · exact (hm' hlt).le
    · rw [← heq]
  exact ⟨hle, hle.trans_lt hat⟩

/-- Hypotheses met: 30 treated and 20 control units. -/
example : Inputs 30 20 1 1 2 0 ∧ (Settings.mk (1 / 20) (4 / 5) .twoSided).Valid ∧
    (∃ rows, powerCurve demo ⟨1 / 20, 4 / 5, .twoSided⟩ 30 20 2 none 1 1 0 = .ok rows) ∧
    (∃ rows, powerCurve demo ⟨1 / 20, 4 / 5, .less⟩ 30 20 2 none 1 1 0 = .ok rows) ∧ IsNormal demo :=
  ⟨⟨by norm_num, by norm_num, by norm_num, fun h => absurd h (by norm_num)⟩, by norm_num [Settings.Valid],
    (C131_defined _ _ _ _ _ _ _ _ _).mpr (by norm_num), (C131_defined _ _ _ _ _ _ _ _ _).mpr (by norm_num),
    demo_normal⟩

/-! ### The table over sample sizes -/

theorem size_split {N : Normal} {s : Settings} {effect sigma : ℝ} {sizes : Option (List ℕ)} {pre post : ℕ}
    {rho frac : ℝ} {rows : List (ℕ × ℝ)} (h : sampleSizeCurve N s effect sigma sizes pre post rho frac = .ok rows) :
    ∃ q, sampleSize N s effect sigma pre post rho frac = .ok q ∧
      collect (fun n => power N s effect (rowTreated n frac) (rowControl n frac) sigma pre post rho)
        (sizes.getD (defaultSizes q.requiredN)) = .ok rows := by
  simp only [sampleSizeCurve] at h
  cases hm : sampleSize N s effect sigma pre post rho frac with
  | error e => rw [hm] at h; exact absurd h (by simp [bind, Except.bind])
  | ok m => rw [hm] at h; exact ⟨m, rfl, h⟩

/-- Every row of the sample-size table carries the power of a design with two groups of at least two units; when both
shares hold two units, the treated group is the given share of the size rounded down and the control group the rest. -/
theorem C131_size_rows {N : Normal} {s : Settings} {effect sigma : ℝ} {sizes : Option (List ℕ)} {pre post : ℕ}
    {rho frac : ℝ} {rows : List (ℕ × ℝ)} (h : sampleSizeCurve N s effect sigma sizes pre post rho frac = .ok rows) :
    (∀ row ∈ rows, ∃ t c r, power N s effect t c sigma pre post rho = .ok r ∧ row.2 = r.power ∧ 2 ≤ t ∧ 2 ≤ c ∧
      (2 ≤ (row.1 : ℝ) * frac → (t : ℝ) ≤ row.1 * frac ∧ (row.1 : ℝ) * frac < t + 1) ∧
      (t + 2 ≤ row.1 → t + c = row.1)) ∧
    ∀ l, sizes = some l → rows.map Prod.fst = l := by
  obtain ⟨q, -, hc⟩ := size_split h
  obtain ⟨h1, h2⟩ := collect_ok hc
  refine ⟨?_, ?_⟩
  · intro row hrow
    obtain ⟨r, hr, hp⟩ := h2 row hrow
    refine ⟨_, _, r, hr, hp, le_max_left _ _, le_max_left _ _, ?_, ?_⟩
    · intro h2
      have hf : 2 ≤ ⌊(row.1 : ℝ) * frac⌋₊ := Nat.le_floor (by exact_mod_cast h2)
      simp only [rowTreated, max_eq_right hf]
      exact ⟨Nat.floor_le (by linarith), Nat.lt_floor_add_one _⟩
    · intro h3
      simp only [rowControl]
      omega
  · rintro l rfl; exact h1

/-- The sample-size table exists exactly when `sample_size` does. -/
theorem C131_size_defined (N : Normal) (s : Settings) (effect sigma : ℝ) (sizes : Option (List ℕ)) (pre post : ℕ)
    (rho frac : ℝ) : (∃ rows, sampleSizeCurve N s effect sigma sizes pre post rho frac = .ok rows) ↔
      (effect = 0 ∨ (frac ≠ 0 ∧ frac ≠ 1)) := by
  rw [← (C44_sample_size_defined N s effect sigma pre post rho frac).1]
  constructor
  · rintro ⟨rows, h⟩
    obtain ⟨q, hq, -⟩ := size_split h
    exact ⟨q, hq⟩
  · rintro ⟨q, hq⟩
    obtain ⟨rows, hr⟩ := collect_def
      (f := fun n => power N s effect (rowTreated n frac) (rowControl n frac) sigma pre post rho)
      (l := sizes.getD (defaultSizes q.requiredN))
      fun n _ => ((C44_defined N s effect (rowTreated n frac) (rowControl n frac) sigma pre post rho).1).mpr
        ⟨lt_of_lt_of_le (by norm_num) (le_max_left _ _), lt_of_lt_of_le (by norm_num) (le_max_left _ _)⟩
    refine ⟨rows, ?_⟩
    simp only [sampleSizeCurve, hq]
    exact hr

theorem row_mono {n n' : ℕ} (hn : n ≤ n') {frac : ℝ} (h0 : 0 ≤ frac) (h1 : frac ≤ 1) :
    rowTreated n frac ≤ rowTreated n' frac ∧ rowControl n frac ≤ rowControl n' frac := by
  have hc : (n : ℝ) ≤ n' := by exact_mod_cast hn
  have ha : ⌊(n : ℝ) * frac⌋₊ ≤ ⌊(n' : ℝ) * frac⌋₊ := Nat.floor_mono (mul_le_mul_of_nonneg_right hc h0)
  have hb : ⌊(n' : ℝ) * frac⌋₊ ≤ ⌊(n : ℝ) * frac⌋₊ + (n' - n) := by
    have e : (n : ℝ) * frac + ((n' - n : ℕ) : ℝ) = (n : ℝ) * frac + (n' - n) := by rw [Nat.cast_sub hn]
    have h2 : (n' : ℝ) * frac ≤ (n : ℝ) * frac + ((n' - n : ℕ) : ℝ) := by rw [e]; nlinarith
    have h3 := Nat.floor_mono h2
    rwa [Nat.floor_add_natCast (mul_nonneg (Nat.cast_nonneg _) h0)] at h3
  unfold rowControl rowTreated
  omega

/-- A larger sample size never has less power. -/
theorem C131_size_monotone {N : Normal} (hN : IsNormal N) {s : Settings} (hs : s.Valid) {effect sigma : ℝ}
    {sizes : Option (List ℕ)} {pre post : ℕ} {rho frac : ℝ} (h0 : 0 ≤ frac) (h1 : frac ≤ 1) (hsig : sigma ≠ 0)
    (hrho : 2 < pre + post → 0 < 1 + ((pre + post : ℕ) - 1 : ℝ) * rho)
    (he : match s.alternative with | .greater => 0 ≤ effect | .less => effect ≤ 0 | .twoSided => True)
    {rows : List (ℕ × ℝ)} (h : sampleSizeCurve N s effect sigma sizes pre post rho frac = .ok rows) :
    ∀ a ∈ rows, ∀ b ∈ rows, a.1 ≤ b.1 → a.2 ≤ b.2 := by
  obtain ⟨q, -, hc⟩ := size_split h
  obtain ⟨-, h2⟩ := collect_ok hc
  intro a ha b hb hab
  obtain ⟨r, hr, hp⟩ := h2 a ha
  obtain ⟨r', hr', hp'⟩ := h2 b hb
  obtain ⟨m1, m2⟩ := row_mono hab h0 h1
  rw [hp, hp']
  exact (C44_units_monotone hN hs ⟨le_trans (by norm_num) (le_max_left 2 _), le_trans (by norm_num) (le_max_left 2 _),
    hsig, hrho⟩ m1 m2 he hr hr').1

theorem mem_pyRange {lo hi step n : ℕ} (hs : 0 < step) : n ∈ pyRange lo hi step ↔
    lo ≤ n ∧ n < hi ∧ (n - lo) % step = 0 := by
  simp only [pyRange, List.mem_map, List.mem_range]
  constructor
  · rintro ⟨i, hi', rfl⟩
    have h1 : (i + 1) * step ≤ hi - lo + step - 1 := (Nat.le_div_iff_mul_le hs).mp hi'
    rw [Nat.add_mul] at h1
    refine ⟨by omega, by omega, by simp⟩
  · rintro ⟨h1, h2, h3⟩
    obtain ⟨k, hk⟩ := Nat.dvd_of_mod_eq_zero h3
    refine ⟨k, ?_, by rw [Nat.mul_comm]; omega⟩
    have h4 : (k + 1) * step ≤ hi - lo + step - 1 := by
      rw [Nat.add_mul, Nat.mul_comm k]
      omega
    exact (Nat.le_div_iff_mul_le hs).mpr h4

/-- The default sample sizes, when at least five units are required: increasing, at most a hundred, from a quarter of
the required size (at least ten) to at most twice it, with one at or above the required size. -/
theorem C131_default_sizes {req : ℕ} (h : 5 ≤ req) :
    (defaultSizes req).Pairwise (· < ·) ∧ (defaultSizes req).length ≤ 100 ∧
    (defaultSizes req).head? = some (max 10 (req / 4)) ∧ (∀ n ∈ defaultSizes req, n ≤ 2 * req) ∧
    ∃ n ∈ defaultSizes req, req ≤ n := by
  have hs : 0 < max 1 ((req * 2 - max 10 (req / 4)) / 50) := by omega
  refine ⟨?_, ?_, ?_, ?_, ?_⟩
  · simp only [defaultSizes, pyRange, List.pairwise_map]
    refine List.pairwise_lt_range.imp ?_
    intro a b hab
    have := Nat.mul_lt_mul_of_pos_right hab hs
    omega
  · simp only [defaultSizes, pyRange, List.length_map, List.length_range]
    apply Nat.le_of_lt_succ
    rw [Nat.div_lt_iff_lt_mul hs]
    omega
  · simp only [defaultSizes, pyRange]
    have hpos : 0 < (req * 2 + 1 - max 10 (req / 4) + max 1 ((req * 2 - max 10 (req / 4)) / 50) - 1) /
        max 1 ((req * 2 - max 10 (req / 4)) / 50) := Nat.div_pos (by omega) hs
    obtain ⟨k, hk⟩ := Nat.exists_eq_succ_of_ne_zero hpos.ne'
    rw [hk, List.range_succ_eq_map]
    simp
  · intro n hn
    have := (mem_pyRange hs).mp hn
    omega
  · obtain ⟨d, hd⟩ : ∃ d, d = req * 2 - max 10 (req / 4) := ⟨_, rfl⟩
    obtain ⟨st, hst⟩ : ∃ st, st = max 1 (d / 50) := ⟨_, rfl⟩
    have hstp : 0 < st := by omega
    refine ⟨max 10 (req / 4) + d / st * st, ?_, ?_⟩
    · rw [defaultSizes]
      simp only [← hd, ← hst]
      rw [mem_pyRange hstp]
      have := Nat.div_mul_le_self d st
      refine ⟨by omega, by omega, by simp⟩
    · have h1 := Nat.div_add_mod d st
      have h2 := Nat.mod_lt d hstp
      rw [Nat.mul_comm] at h1
      omega

/-- The required size itself need not be among the default sizes. -/
theorem C131_required_missing_refuted : 101 ∉ defaultSizes 101 ∧ 100 ∈ defaultSizes 101 ∧ 103 ∈ defaultSizes 101 := by
  decide +kernel

/-- For an effect so large that four units suffice, the default sample-size table has no rows. -/
theorem C131_empty_refuted (N : Normal) (s : Settings) {effect : ℝ} (h0 : effect ≠ 0)
    (h : 2 * zSum N s ^ 2 ≤ effect ^ 2) :
    sampleSizeCurve N s effect 1 none 1 1 0 (1 / 2) = .ok [] := by
  have hr : requiredN N s (design 1 1) effect 1 1 1 0 (1 / 2) = 4 := by
    simp only [requiredN, if_neg h0]
    apply max_eq_left
    apply Nat.ceil_le.mpr
    have hd : design 1 1 = .basic := rfl
    simp only [hd, rawN]
    have he : 0 < effect ^ 2 := by positivity
    rw [div_le_iff₀ (by norm_num; exact he)]
    push_cast
    nlinarith
  have ha : allocTreated 4 (1 / 2) = 2 := by
    have : ((4 : ℕ) : ℝ) * (1 / 2) = ((2 : ℕ) : ℝ) := by norm_num
    rw [allocTreated, this, Nat.ceil_natCast]; rfl
  have hc : allocControl 4 (1 / 2) = 2 := by rw [allocControl, ha]; rfl
  have hd : defaultSizes (2 + 2) = [] := by decide +kernel
  have hn : ¬ (effect ≠ 0 ∧ ((1 : ℝ) / 2 = 0 ∨ (1 : ℝ) / 2 = 1)) := by norm_num
  simp only [sampleSizeCurve, sampleSize, if_neg hn, hr, ha, hc, bind, Except.bind, Option.getD_none, hd, collect]

/-- Sizes below four are computed as if there were four units. -/
theorem C131_small_refuted (N : Normal) (s : Settings) (effect sigma : ℝ) (pre post : ℕ) (rho : ℝ) :
    ∃ p, sampleSizeCurve N s effect sigma (some [0, 1, 2, 3, 4]) pre post rho (1 / 2) =
      .ok [(0, p), (1, p), (2, p), (3, p), (4, p)] := by
  obtain ⟨q, hq⟩ := ((C44_sample_size_defined N s effect sigma pre post rho (1 / 2)).1).mpr
    (Or.inr ⟨by norm_num, by norm_num⟩)
  have ht : ∀ n : ℕ, n ≤ 4 → rowTreated n (1 / 2) = 2 := by
    intro n hn
    apply max_eq_left
    have h4 : (n : ℝ) ≤ 4 := by exact_mod_cast hn
    have : ⌊(n : ℝ) * (1 / 2)⌋₊ ≤ ⌊((2 : ℕ) : ℝ)⌋₊ := Nat.floor_mono (by push_cast; linarith)
    rwa [Nat.floor_natCast] at this
  have hc : ∀ n : ℕ, n ≤ 4 → rowControl n (1 / 2) = 2 := by
    intro n hn
    rw [rowControl, ht n hn]
    omega
  refine ⟨powerAt N s effect (se 2 2 pre post sigma rho), ?_⟩
  have hf : ∀ n : ℕ, n ≤ 4 → ∃ r, power N s effect (rowTreated n (1 / 2)) (rowControl n (1 / 2)) sigma pre post rho =
      .ok r ∧ r.power = powerAt N s effect (se 2 2 pre post sigma rho) := by
    intro n hn
    rw [ht n hn, hc n hn]
    exact ⟨_, if_neg (by norm_num), rfl⟩
  obtain ⟨r0, h0, p0⟩ := hf 0 (by norm_num)
  obtain ⟨r1, h1, p1⟩ := hf 1 (by norm_num)
  obtain ⟨r2, h2, p2⟩ := hf 2 (by norm_num)
  obtain ⟨r3, h3, p3⟩ := hf 3 (by norm_num)
  obtain ⟨r4, h4, p4⟩ := hf 4 (by norm_num)
  simp only [sampleSizeCurve, hq, collect, Option.getD_some, h0, h1, h2, h3, h4, p0, p1, p2, p3, p4, bind, Except.bind,
    pure, Except.pure]

/-- The table splits a size into groups differently from `sample_size`: at ten units and a share of a quarter,
`sample_size` plans three treated units, the table evaluates two. -/
theorem C131_allocation_refuted :
    (allocTreated 10 (1 / 4), allocControl 10 (1 / 4)) = (3, 7) ∧
    (rowTreated 10 (1 / 4), rowControl 10 (1 / 4)) = (2, 8) := by
  have h1 : allocTreated 10 (1 / 4) = 3 := by
    have : ⌈((10 : ℕ) : ℝ) * (1 / 4)⌉₊ = 3 := by rw [Nat.ceil_eq_iff (by norm_num)]; norm_num
    rw [allocTreated, this]; rfl
  have h2 : rowTreated 10 (1 / 4) = 2 := by
    have : ⌊((10 : ℕ) : ℝ) * (1 / 4)⌋₊ = 2 := by rw [Nat.floor_eq_iff (by norm_num)]; norm_num
    rw [rowTreated, this]; rfl
  rw [allocControl, rowControl, h1, h2]
  exact ⟨rfl, rfl⟩

/-- Hypotheses met: a share of a third, five periods. -/
example : (∃ rows, sampleSizeCurve demo ⟨1 / 20, 4 / 5, .greater⟩ 1 2 (some [12, 30]) 2 3 (1 / 2) (1 / 3) = .ok rows) ∧
    (Settings.mk (1 / 20) (4 / 5) .greater).Valid :=
  ⟨(C131_size_defined _ _ _ _ _ _ _ _ _).mpr (Or.inr (by norm_num)), by norm_num [Settings.Valid]⟩

/-! ### The plot -/

section Plot

variable {K : Type} [Field K] [LinearOrder K] [IsStrictOrderedRing K]

/-- A point of the broken line through the points of a list. -/
def OnLine (l : List (K × K)) (q : K × K) : Prop :=
  q ∈ l ∨ ∃ i a b, l[i]? = some a ∧ l[i + 1]? = some b ∧ ∃ t, 0 ≤ t ∧ t ≤ 1 ∧
    q.1 = (1 - t) * a.1 + t * b.1 ∧ q.2 = (1 - t) * a.2 + t * b.2

theorem le_foldl_max (l : List K) (a x : K) (hl : (a :: l).Pairwise (· ≤ ·)) (h : x ≤ l.foldl max a) :
    x ≤ (a :: l).getLastD 0 := by
  induction l generalizing a with
  | nil => simpa using h
  | cons b t ih =>
    have hab : a ≤ b := (List.pairwise_cons.mp hl).1 b (by simp)
    have := ih b (List.pairwise_cons.mp hl).2 (by simpa [max_eq_right hab] using h)
    simpa using this

theorem foldl_min_sorted (l : List K) (a : K) (hl : (a :: l).Pairwise (· ≤ ·)) : l.foldl min a = a := by
  induction l with
  | nil => rfl
  | cons b t ih =>
    have hab : a ≤ b := (List.pairwise_cons.mp hl).1 b (by simp)
    rw [List.foldl_cons, min_eq_left hab]
    apply ih
    rw [List.pairwise_cons] at hl ⊢
    exact ⟨fun c hc => hl.1 c (by simp [hc]), (List.pairwise_cons.mp hl.2).2⟩

theorem foldl_max_mono (l : List K) : ∀ {a b : K}, a ≤ b → l.foldl max a ≤ l.foldl max b := by
  induction l with
  | nil => intro a b h; exact h
  | cons c l ih => intro a b h; exact ih (max_le_max_right c h)

theorem last_le_max (l : List K) : ∀ a : K, (a :: l).getLastD 0 ≤ l.foldl max a := by
  induction l with
  | nil => intro a; exact le_rfl
  | cons c l ih =>
    intro a
    have h1 := ih c
    have h2 := foldl_max_mono l (le_max_right a c)
    have e : (a :: c :: l).getLastD 0 = (c :: l).getLastD 0 := by simp
    rw [e, List.foldl_cons]
    exact h1.trans h2

/-- The interval found starts at or before the point and ends after it. -/
theorem interpIndex_spec (x a : K) (l : List K) (ha : a ≤ x) :
    interpIndex x (a :: l) ≤ l.length ∧ (a :: l).getD (interpIndex x (a :: l)) 0 ≤ x ∧
    (interpIndex x (a :: l) < l.length → x < (a :: l).getD (interpIndex x (a :: l) + 1) 0) := by
  simp only [interpIndex, List.tail_cons]
  induction l generalizing a with
  | nil => simpa using ha
  | cons b t ih =>
    by_cases hb : b ≤ x
    · obtain ⟨h1, h2, h3⟩ := ih b hb
      rw [List.takeWhile_cons, if_pos (by simpa using hb)]
      simp only [List.length_cons]
      refine ⟨by omega, by simpa using h2, fun h => ?_⟩
      have := h3 (by omega)
      simpa using this
    · rw [List.takeWhile_cons, if_neg (by simpa using hb)]
      simpa using ⟨ha, lt_of_not_ge hb⟩

theorem zip_getElem? {xs ps : List K} (h : xs.length = ps.length) {i : ℕ} (hi : i < xs.length) :
    (xs.zip ps)[i]? = some (xs.getD i 0, ps.getD i 0) := by
  rw [List.getElem?_zip_eq_some]
  simp [List.getD_eq_getElem?_getD, List.getElem?_eq_getElem hi, List.getElem?_eq_getElem (h ▸ hi)]

/-- Where the marker is drawn for ordered abscissae. -/
theorem interp_onLine {a x : K} {l ps : List K} (hl : (a :: l).length = ps.length) (ha : a ≤ x)
    (hx : x ≤ (a :: l).getLastD 0) (hn : x ∉ a :: l) : OnLine ((a :: l).zip ps) (x, interp x (a :: l) ps) := by
  obtain ⟨h1, h2, h3⟩ := interpIndex_spec x a l ha
  unfold interp
  rw [if_neg (not_lt.mpr hx), if_neg (by simpa using ha)]
  simp only
  generalize interpIndex x (a :: l) = j at *
  have hj : j < (a :: l).length := by simp; omega
  have hne : (a :: l).getD j 0 ≠ x := by
    intro h
    apply hn
    rw [← h, List.getD_eq_getElem?_getD, List.getElem?_eq_getElem hj]
    exact List.getElem_mem hj
  have hlt : (a :: l).getD j 0 < x := lt_of_le_of_ne h2 hne
  by_cases he : j + 1 = (a :: l).length
  · exfalso
    have : (a :: l).getLastD 0 = (a :: l).getD j 0 := by
      rw [List.getLastD_eq_getLast?, List.getLast?_eq_getElem?, List.getD_eq_getElem?_getD, ← he]
      simp
    rw [this] at hx
    exact absurd hlt (not_lt.mpr hx)
  · rw [if_neg he, if_neg hne]
    have hj1 : j + 1 < (a :: l).length := by omega
    have hgt := h3 (by simp at hj1; omega)
    right
    refine ⟨j, _, _, zip_getElem? hl hj, zip_getElem? hl hj1,
      (x - (a :: l).getD j 0) / ((a :: l).getD (j + 1) 0 - (a :: l).getD j 0), ?_, ?_, ?_, ?_⟩
    · exact div_nonneg (by linarith) (by linarith)
    · rw [div_le_one (by linarith)]; linarith
    · simp only
      have : (a :: l).getD (j + 1) 0 - (a :: l).getD j 0 ≠ 0 := by intro h; linarith
      field_simp
      ring
    · simp only
      have : (a :: l).getD (j + 1) 0 - (a :: l).getD j 0 ≠ 0 := by intro h; linarith
      field_simp
      ring

/-- The data of a call: what is plotted against what, and which effect is marked. -/
inductive Given : Option (Results K) → Option (List K) → Option (List K) → Option K → Axis →
    List K → List K → Option K → Axis → Prop
  | effects (xs ps m ax e n p) : Given (some (.frame (some e) n (some p))) xs ps m ax e p m .effect
  | sizes (xs ps m ax n p) : Given (some (.frame none (some n) (some p))) xs ps m ax n p m .sample
  | simulated (xs ps m ax e p t) : Given (some (.simulation e p t)) xs ps m ax e p (some (m.getD t)) ax
  | arguments (m ax x p) : Given none (some x) (some p) m ax x p m ax

theorem extract_ok {r : Option (Results K)} {xs ps : Option (List K)} {m : Option K} {ax : Axis} {x p : List K}
    {v : Option K} {a : Axis} : extract r xs ps m ax = .ok (x, p, v, a) ↔ Given r xs ps m ax x p v a := by
  constructor
  · intro h
    unfold extract at h
    split at h
    any_goals (cases h; constructor; done)
    any_goals (cases h; done)
    split at h
    · cases h; constructor
    · cases h
  · intro h
    cases h <;> rfl

/-- What a successful plot shows: the points are the data in order, the axis is the kind of the data, the target line is
at the target, and the vertical line is at the marked effect. -/
theorem C131_plot_data {r : Option (Results K)} {xs ps : Option (List K)} {m : Option K} {target : K} {ax : Axis}
    {sm st : Bool} {d : Drawing K} (h : plot r xs ps m target ax sm st = .ok d) :
    ∃ x p v a, Given r xs ps m ax x p v a ∧ x.length = p.length ∧ d.points.map Prod.fst = x ∧
      d.points.map Prod.snd = p ∧ d.axis = a ∧ d.target = (if st then some target else none) ∧
      d.mdeLine = (if sm then v else none) ∧ (d.marker ≠ none → sm = true ∧ d.marker.map Prod.fst = v) := by
  unfold plot at h
  split at h
  · exact absurd h (by simp)
  · rename_i x p v a hx
    have hg := extract_ok.mp hx
    by_cases hl : x.length ≠ p.length
    · rw [if_pos hl] at h; exact absurd h (by simp)
    · rw [if_neg hl] at h
      have hl := not_not.mp hl
      refine ⟨x, p, v, a, hg, hl, ?_⟩
      have e1 : (x.zip p).map Prod.fst = x := List.map_fst_zip hl.le
      have e2 : (x.zip p).map Prod.snd = p := List.map_snd_zip hl.ge
      simp only at h
      split at h
      · rename_i w
        split at h
        · exact absurd h (by simp)
        · rename_i y hy
          obtain rfl := Except.ok.inj h
          refine ⟨e1, e2, rfl, rfl, rfl, fun hne => ⟨rfl, ?_⟩⟩
          cases y with
          | none => exact absurd rfl hne
          | some y => rfl
      · rename_i hno
        obtain rfl := Except.ok.inj h
        refine ⟨e1, e2, rfl, rfl, ?_, fun hne => absurd rfl hne⟩
        cases sm with
        | false => rfl
        | true =>
          cases v with
          | none => rfl
          | some w => exact absurd rfl (hno w rfl)

/-- For abscissae in order the marker lies on the drawn line, at the marked effect; it is there whenever the marked
effect lies between the first and the last abscissa. -/
theorem C131_marker {xs ps : List K} (hs : xs.Pairwise (· ≤ ·)) (hl : xs.length = ps.length) {v target : K} {ax : Axis}
    {st : Bool} {d : Drawing K} (h : plot none (some xs) (some ps) (some v) target ax true st = .ok d) :
    (∀ q, d.marker = some q → q.1 = v ∧ OnLine d.points q) ∧
    (d.marker ≠ none ↔ xs.headD 0 ≤ v ∧ v ≤ xs.getLastD 0) := by
  simp only [plot, extract, if_neg (not_not.mpr hl)] at h
  by_cases hv : v ∈ xs
  · have hi : xs.idxOf v < xs.length := List.idxOf_lt_length_of_mem hv
    have hp : ps[xs.idxOf v]? = some (ps.getD (xs.idxOf v) 0) := by
      rw [List.getD_eq_getElem?_getD, List.getElem?_eq_getElem (hl ▸ hi)]; rfl
    simp only [powerAtMde, if_pos hv, hp] at h
    obtain rfl := Except.ok.inj h
    constructor
    · rintro q hq
      obtain rfl := Option.some.inj hq
      refine ⟨rfl, Or.inl ?_⟩
      have hz := zip_getElem? hl hi
      have hg : xs.getD (xs.idxOf v) 0 = v := by
        rw [List.getD_eq_getElem?_getD, List.getElem?_eq_getElem hi]
        simp
      rw [hg] at hz
      exact List.mem_of_getElem? hz
    · refine ⟨fun _ => ?_, fun _ => by simp⟩
      cases xs with
      | nil => simp at hv
      | cons a t =>
        refine ⟨?_, ?_⟩
        · rcases List.mem_cons.mp hv with rfl | ht
          · exact le_rfl
          · exact (List.pairwise_cons.mp hs).1 v ht
        · obtain ⟨i, hi, hiv⟩ := List.getElem_of_mem hv
          have hlast : (a :: t).getLastD 0 = (a :: t)[(a :: t).length - 1]'(by simp) := by
            rw [List.getLastD_eq_getLast?, List.getLast?_eq_getElem?, List.getElem?_eq_getElem (by simp)]
            rfl
          rw [hlast, ← hiv]
          rcases Nat.lt_or_ge i ((a :: t).length - 1) with hlt | hge
          · exact List.pairwise_iff_getElem.mp hs i _ hi (by simp) hlt
          · have : i = (a :: t).length - 1 := by omega
            subst this; exact le_rfl
  · cases xs with
    | nil => simp only [powerAtMde, if_neg hv] at h; exact absurd h (by simp)
    | cons a t =>
      simp only [powerAtMde, if_neg hv] at h
      rw [foldl_min_sorted t a hs] at h
      by_cases hc : a ≤ v ∧ v ≤ t.foldl max a
      · have hx := le_foldl_max t a v hs hc.2
        rw [if_pos hc] at h
        obtain rfl := Except.ok.inj h
        constructor
        · intro q hq
          obtain rfl := Option.some.inj hq
          exact ⟨rfl, interp_onLine hl hc.1 hx hv⟩
        · exact ⟨fun _ => ⟨hc.1, hx⟩, fun _ => by simp⟩
      · rw [if_neg hc] at h
        obtain rfl := Except.ok.inj h
        refine ⟨fun q hq => (nomatch hq), fun hne => absurd rfl hne, ?_⟩
        rintro ⟨h1, h2⟩
        exfalso
        apply hc
        refine ⟨h1, h2.trans ?_⟩
        exact last_le_max t a

/-- A simulation's true effect is drawn as the line labelled as the minimum detectable effect, whatever its power: here
its power is one half and the target four fifths. -/
theorem C131_true_effect_refuted :
    ∃ d : Drawing ℚ, plot (some (.simulation [1, 5, 10] [1 / 10, 1 / 2, 9 / 10] 5)) none none none (4 / 5) .effect true
      true = .ok d ∧ d.mdeLine = some 5 ∧ d.marker = some (5, 1 / 2) ∧ d.target = some (4 / 5) := by
  refine ⟨⟨[(1, 1 / 10), (5, 1 / 2), (10, 9 / 10)], .effect, some (4 / 5), some 5, some (5, 1 / 2)⟩, ?_⟩
  decide +kernel

/-- With effects out of order the marker leaves the line: at 3/2, between the effects 1 and 2 with powers 1/10 and 3/10,
it is drawn at 9/10. -/
theorem C131_unordered_refuted :
    ∃ d : Drawing ℚ, plot none (some [3, 1, 2]) (some [9 / 10, 1 / 10, 3 / 10]) (some (3 / 2)) (4 / 5) .effect true true
      = .ok d ∧ d.points = [(3, 9 / 10), (1, 1 / 10), (2, 3 / 10)] ∧ d.marker = some (3 / 2, 9 / 10) := by
  refine ⟨⟨[(3, 9 / 10), (1, 1 / 10), (2, 3 / 10)], .effect, some (4 / 5), some (3 / 2), some (3 / 2, 9 / 10)⟩, ?_⟩
  decide +kernel

/-- The marked point of the last theorem is not on the drawn line. -/
theorem C131_unordered_off_line_refuted :
    ¬ OnLine [((3 : ℚ), (9 : ℚ) / 10), (1, 1 / 10), (2, 3 / 10)] (3 / 2, 9 / 10) := by
  rintro (h | ⟨i, a, b, ha, hb, t, t0, t1, hx, hy⟩)
  · simp at h
    norm_num at h
  · match i with
    | 0 =>
      simp only [List.getElem?_cons_zero, List.getElem?_cons_succ, Option.some.injEq, Nat.zero_add] at ha hb
      subst ha hb
      simp only at hx hy
      linarith
    | 1 =>
      simp only [List.getElem?_cons_zero, List.getElem?_cons_succ, Option.some.injEq, Nat.reduceAdd] at ha hb
      subst ha hb
      simp only at hx hy
      linarith
    | 2 => simp at hb
    | k + 3 => simp at ha

/-- When the plot is refused: no usable data, an analytical result instead of a curve, lists of different lengths, or a
marked effect over an empty curve. -/
theorem C131_plot_defined (r : Option (Results K)) (xs ps : Option (List K)) (m : Option K) (target : K) (ax : Axis)
    (sm st : Bool) : (∃ d, plot r xs ps m target ax sm st = .ok d) ↔
      ∃ x p v a, Given r xs ps m ax x p v a ∧ x.length = p.length ∧ ¬ (sm = true ∧ v ≠ none ∧ x = []) := by
  constructor
  · rintro ⟨d, h⟩
    obtain ⟨x, p, v, a, hg, hl, -⟩ := C131_plot_data h
    refine ⟨x, p, v, a, hg, hl, ?_⟩
    rintro ⟨rfl, hv, rfl⟩
    cases v with
    | none => exact hv rfl
    | some w =>
      simp only [plot, extract_ok.mpr hg, if_neg (not_not.mpr hl), powerAtMde] at h
      exact absurd h (by simp)
  · rintro ⟨x, p, v, a, hg, hl, hne⟩
    simp only [plot, extract_ok.mpr hg, if_neg (not_not.mpr hl)]
    cases sm with
    | false => exact ⟨_, rfl⟩
    | true =>
      cases v with
      | none => exact ⟨_, rfl⟩
      | some w =>
        cases x with
        | nil => exact absurd ⟨rfl, by simp, rfl⟩ hne
        | cons b t =>
          simp only [powerAtMde]
          split_ifs <;> exact ⟨_, rfl⟩

/-- Together: an effect large enough for four units leaves a table that cannot be plotted with a marked effect. -/
theorem C131_empty_plot_refuted (v target : K) (ax : Axis) (st : Bool) :
    plot (some (.frame none (some []) (some []))) none none (some v) target ax true st = .error .emptyArray := by
  simp [plot, extract, powerAtMde]

/-- Hypotheses met: three ordered effects and a marked effect between them. -/
example : ∃ d : Drawing ℚ, plot none (some [1, 2, 4]) (some [1 / 10, 1 / 2, 9 / 10]) (some 3) (4 / 5) .effect true false
    = .ok d ∧ d.marker = some (3, 7 / 10) ∧ ([1, 2, 4] : List ℚ).Pairwise (· ≤ ·) := by
  refine ⟨⟨[(1, 1 / 10), (2, 1 / 2), (4, 9 / 10)], .effect, none, some 3, some (3, 7 / 10)⟩, ?_⟩
  decide +kernel

end Plot

end DiffDiff.PowerCurve
