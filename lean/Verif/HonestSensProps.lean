/-
Property C159: the sensitivity table of HonestDiD is the table of the fits at the grid values, and its breakdown value is read off the table.
-/
import Verif.HonestSens
import Verif.HonestDidProps
import Mathlib.Tactic.Linarith

set_option linter.unusedSectionVars false
set_option linter.unusedVariables false

namespace DiffDiff.HonestDid

section
variable {K : Type*} [Field K] [LinearOrder K] [IsStrictOrderedRing K]

theorem fitAll_ok (fit : K → Except Err (Result K)) (Ms : List K) (rows : List (Bounds K)) :
    fitAll fit Ms = .ok rows ↔ List.Forall₂ (fun M b => ∃ r, fit M = .ok r ∧ b = r.bounds) Ms rows := by
  induction Ms generalizing rows with
  | nil =>
    simp only [fitAll, List.forall₂_nil_left_iff]
    constructor
    · intro h; cases h; rfl
    · rintro rfl; rfl
  | cons M Ms ih =>
    simp only [fitAll]
    cases h1 : fit M with
    | error e =>
      constructor
      · intro h; cases h
      · intro h
        cases h with
        | cons h _ =>
          obtain ⟨r, hr, _⟩ := h
          rw [h1] at hr
          cases hr
    | ok r =>
      simp only
      cases h2 : fitAll fit Ms with
      | error e =>
        constructor
        · intro h; cases h
        · intro h
          cases h with
          | cons _ h =>
            rw [← ih] at h
            rw [h2] at h
            cases h
      | ok rs =>
        constructor
        · intro h
          cases h
          exact .cons ⟨r, h1, rfl⟩ ((ih rs).1 h2)
        · intro h
          cases h with
          | cons ha hb =>
            obtain ⟨r', hr', hb'⟩ := ha
            rw [h1] at hr'
            cases hr'
            have := (ih _).2 hb
            rw [h2] at this
            cases this
            rw [hb']

theorem fitAll_error (fit : K → Except Err (Result K)) (Ms : List K) (e : Err) :
    fitAll fit Ms = .error e ↔ ∃ l M l', Ms = l ++ M :: l' ∧ (∀ x ∈ l, ∃ r, fit x = .ok r) ∧ fit M = .error e := by
  induction Ms with
  | nil => simp [fitAll]
  | cons M Ms ih =>
    simp only [fitAll]
    cases h1 : fit M with
    | error e' =>
      constructor
      · intro h
        cases h
        exact ⟨[], M, Ms, rfl, by simp, h1⟩
      · rintro ⟨l, M', l', hl, hok, he⟩
        cases l with
        | nil =>
          simp only [List.nil_append, List.cons.injEq] at hl
          rw [← hl.1, h1] at he
          simpa using he
        | cons x l =>
          simp only [List.cons_append, List.cons.injEq] at hl
          obtain ⟨r, hr⟩ := hok x (List.mem_cons_self ..)
          rw [← hl.1, h1] at hr
          cases hr
    | ok r =>
      simp only
      have key : (∃ l M' l', M :: Ms = l ++ M' :: l' ∧ (∀ x ∈ l, ∃ r, fit x = .ok r) ∧ fit M' = .error e) ↔
          ∃ l M' l', Ms = l ++ M' :: l' ∧ (∀ x ∈ l, ∃ r, fit x = .ok r) ∧ fit M' = .error e := by
        constructor
        · rintro ⟨l, M', l', hl, hok, he⟩
          cases l with
          | nil =>
            simp only [List.nil_append, List.cons.injEq] at hl
            rw [← hl.1, h1] at he
            cases he
          | cons x l =>
            simp only [List.cons_append, List.cons.injEq] at hl
            exact ⟨l, M', l', hl.2, fun y hy => hok y (List.mem_cons_of_mem _ hy), he⟩
        · rintro ⟨l, M', l', hl, hok, he⟩
          refine ⟨M :: l, M', l', by rw [hl]; rfl, ?_, he⟩
          intro y hy
          rcases List.mem_cons.1 hy with rfl | hy
          · exact ⟨r, h1⟩
          · exact hok y hy
      rw [key, ← ih]
      cases fitAll fit Ms with
      | error e' => simp
      | ok rs => simp

/-- C159. A returned sensitivity table lists the given grid (or the default one), its rows are the bounds and intervals of the fits at the grid
values in that order, and its estimate and standard error are those of the fit without violations. -/
theorem C159_table (method : Method) (fit : K → Except Err (Result K)) (grid : Option (List K)) (s : Sensitivity K)
    (h : sensitivityAnalysis method fit grid = .ok s) :
    (∀ g, grid = some g → s.Ms = g) ∧ List.Forall₂ (fun M b => ∃ r, fit M = .ok r ∧ b = r.bounds) s.Ms s.rows ∧
      ∃ r, fit 0 = .ok r ∧ s.estimate = r.estimate ∧ s.se = r.se := by
  unfold sensitivityAnalysis at h
  simp only at h
  cases h1 : fitAll fit (grid.getD (defaultGrid method)) with
  | error e => rw [h1] at h; cases h
  | ok rows =>
    rw [h1] at h
    simp only at h
    cases h2 : fit 0 with
    | error e => rw [h2] at h; cases h
    | ok r =>
      rw [h2] at h
      cases h
      refine ⟨?_, (fitAll_ok _ _ _).1 h1, r, rfl, rfl, rfl⟩
      rintro g rfl
      rfl

/-- C159. The analysis fails exactly when one of the fits fails, with the error of the first that does; the fit without violations comes last. -/
theorem C159_error (method : Method) (fit : K → Except Err (Result K)) (g : List K) (e : Err) :
    sensitivityAnalysis method fit (some g) = .error e ↔
      ∃ l M l', g ++ [0] = l ++ M :: l' ∧ (∀ x ∈ l, ∃ r, fit x = .ok r) ∧ fit M = .error e := by
  rw [← fitAll_error]
  unfold sensitivityAnalysis
  simp only [Option.getD_some]
  have key : ∀ g : List K, (match fitAll fit g with | .error e => (.error e : Except Err Unit) | .ok _ => match fit 0 with | .error e => .error e | .ok _ => .ok ()) = .error e ↔
      fitAll fit (g ++ [0]) = .error e := by
    intro g
    induction g with
    | nil =>
      simp only [fitAll, List.nil_append]
      cases fit 0 <;> simp
    | cons M g ih =>
      simp only [fitAll, List.cons_append]
      cases fit M with
      | error e' => simp
      | ok r =>
        simp only
        cases h1 : fitAll fit g with
        | error e' =>
          rw [h1] at ih
          simp only at ih ⊢
          cases h2 : fitAll fit (g ++ [0]) with
          | error e'' => rw [h2] at ih; simpa using ih
          | ok _ => rw [h2] at ih; simpa using ih
        | ok _ =>
          rw [h1] at ih
          simp only at ih ⊢
          cases h2 : fitAll fit (g ++ [0]) with
          | error e'' => rw [h2] at ih; simpa using ih
          | ok _ => rw [h2] at ih; simpa using ih
  rw [← key]
  cases fitAll fit g with
  | error e' => simp
  | ok rows =>
    simp only
    cases fit 0 <;> simp

/-- C159. Without a grid: nine values from 0 to 2 for relative magnitudes, seven from 0 to 1 otherwise, increasing. -/
theorem C159_default_grid (method : Method) (fit : K → Except Err (Result K)) (s : Sensitivity K) (h : sensitivityAnalysis method fit none = .ok s) :
    s.Ms.Pairwise (· < ·) ∧ s.Ms.head? = some 0 ∧ (method = .relativeMagnitude → s.Ms.length = 9 ∧ s.Ms.getLast? = some 2) ∧
      (method ≠ .relativeMagnitude → s.Ms.length = 7 ∧ s.Ms.getLast? = some 1) := by
  have hM : s.Ms = defaultGrid method := by
    unfold sensitivityAnalysis at h
    simp only at h
    cases h1 : fitAll fit ((none : Option (List K)).getD (defaultGrid method)) with
    | error e => rw [h1] at h; cases h
    | ok rows =>
      rw [h1] at h
      simp only at h
      cases h2 : fit 0 with
      | error e => rw [h2] at h; cases h
      | ok r => rw [h2] at h; cases h; rfl
  rw [hM]
  cases method <;> simp [defaultGrid] <;> norm_num

/-! ### The breakdown value of the table -/

theorem bisect_inv (inc : K → Bool) (n : ℕ) (p : K × K) (h1 : inc p.1 = false) (h2 : inc p.2 = true) :
    inc (bisect inc n p).1 = false ∧ inc (bisect inc n p).2 = true ∧ (bisect inc n p).2 - (bisect inc n p).1 = (p.2 - p.1) / 2 ^ n ∧
      (p.1 ≤ p.2 → p.1 ≤ (bisect inc n p).1 ∧ (bisect inc n p).2 ≤ p.2) := by
  induction n generalizing p with
  | zero => exact ⟨h1, h2, by simp [bisect], fun _ => ⟨le_refl _, le_refl _⟩⟩
  | succ n ih =>
    simp only [bisect]
    by_cases hm : inc ((p.1 + p.2) / 2) = true
    · have hs : step inc p = (p.1, (p.1 + p.2) / 2) := by unfold step; simp only; rw [if_pos hm]
      rw [hs]
      obtain ⟨a, b, c, d⟩ := ih (p.1, (p.1 + p.2) / 2) h1 hm
      refine ⟨a, b, ?_, ?_⟩
      · rw [c, pow_succ]; field_simp; ring
      · intro hp
        obtain ⟨d1, d2⟩ := d (by simp only; linarith)
        exact ⟨d1, d2.trans (by simp only; linarith)⟩
    · have hs : step inc p = ((p.1 + p.2) / 2, p.2) := by unfold step; simp only; rw [if_neg hm]
      rw [hs]
      obtain ⟨a, b, c, d⟩ := ih ((p.1 + p.2) / 2, p.2) (by simpa using hm) h2
      refine ⟨a, b, ?_, ?_⟩
      · rw [c, pow_succ]; field_simp; ring
      · intro hp
        obtain ⟨d1, d2⟩ := d (by simp only; linarith)
        exact ⟨le_trans (by simp only; linarith) d1, d2⟩

theorem transition_some (inc : K → Bool) (p : K) (grid : List K) (hp : inc p = false) (v : K) (hv : transition inc (some p) grid = some v) :
    ∃ l a b l', p :: grid = l ++ a :: b :: l' ∧ (∀ x ∈ l, inc x = false) ∧ inc a = false ∧ inc b = true ∧
      ∃ c d, inc c = false ∧ inc d = true ∧ d - c = (b - a) / 2 ^ 20 ∧ v = (c + d) / 2 ∧ (a ≤ b → a ≤ c ∧ d ≤ b) := by
  induction grid generalizing p with
  | nil => cases hv
  | cons q grid ih =>
    simp only [transition] at hv
    split_ifs at hv with hq
    · cases hv
      obtain ⟨a, b, c, d⟩ := bisect_inv inc 20 (p, q) hp hq
      exact ⟨[], p, q, grid, rfl, by simp, hp, hq, _, _, a, b, c, rfl, d⟩
    · have hq' : inc q = false := by simpa using hq
      obtain ⟨l, a, b, l', hl, hx, r⟩ := ih q hq' hv
      refine ⟨p :: l, a, b, l', by rw [hl]; rfl, ?_, r⟩
      intro x hx'
      rcases List.mem_cons.1 hx' with rfl | hx'
      · exact hp
      · exact hx x hx'

/-- Whether a fit succeeds does not depend on M. -/
def Uniform (fit : K → Except Err (Result K)) : Prop := ∀ M M', (∃ r, fit M = .ok r) → ∃ r, fit M' = .ok r

/-- At `M` the fit succeeds and its robust interval includes zero (`v = true`) or does not. -/
def Verdict (fit : K → Except Err (Result K)) (M : K) (v : Bool) : Prop := ∃ r, fit M = .ok r ∧ includesZero r.bounds = v

theorem includes_verdict {fit : K → Except Err (Result K)} {M : K} {v : Bool} (h : ∃ r, fit M = .ok r) : includes fit M = v ↔ Verdict fit M v := by
  obtain ⟨r, hr⟩ := h
  unfold includes Verdict
  rw [hr]
  simp

/-- C159. The breakdown value of a table: none exactly when no row includes zero; 0 when the first row includes zero; otherwise the first pair of
neighbouring rows `a`, `b` with the interval at `a` excluding and at `b` including zero brackets two values `c`, `d` at distance `(b − a)/2^20`, with the
interval at `c` excluding and at `d` including zero, and the value is their midpoint. No monotonicity is assumed. -/
theorem C159_breakdown (method : Method) (fit : K → Except Err (Result K)) (hu : Uniform fit) (grid : Option (List K)) (s : Sensitivity K)
    (h : sensitivityAnalysis method fit grid = .ok s) :
    (s.breakdown = none ↔ ∀ b ∈ s.rows, includesZero b = false) ∧
    (∀ b rest, s.rows = b :: rest → includesZero b = true → s.breakdown = some 0) ∧
    (∀ b rest v, s.rows = b :: rest → includesZero b = false → s.breakdown = some v →
      ∃ l x y l', s.Ms = l ++ x :: y :: l' ∧ (∀ M ∈ l, Verdict fit M false) ∧ Verdict fit x false ∧ Verdict fit y true ∧
        ∃ c d, Verdict fit c false ∧ Verdict fit d true ∧ d - c = (y - x) / 2 ^ 20 ∧ v = (c + d) / 2 ∧ (x ≤ y → x ≤ c ∧ d ≤ y)) := by
  obtain ⟨_, ht, r0, hr0, _⟩ := C159_table method fit grid s h
  have hok : ∀ M, ∃ r, fit M = .ok r := fun M => hu 0 M ⟨r0, hr0⟩
  have hb : s.breakdown = findBreakdown (includes fit) s.Ms := by
    unfold sensitivityAnalysis at h
    simp only at h
    cases h1 : fitAll fit (grid.getD (defaultGrid method)) with
    | error e => rw [h1] at h; cases h
    | ok rows => rw [h1, hr0] at h; cases h; rfl
  rw [hb]
  generalize s.Ms = Ms at ht
  generalize s.rows = rows at ht
  refine ⟨?_, ?_, ?_⟩
  · rw [C41_grid_none]
    clear hb
    induction ht with
    | nil => simp
    | cons hM _ ih =>
      obtain ⟨r, hr, rfl⟩ := hM
      simp only [List.forall_mem_cons]
      rw [ih, includes_verdict ⟨r, hr⟩]
      unfold Verdict
      rw [hr]
      simp
  · rintro b rest rfl hz
    cases ht with
    | cons hM hrest =>
      obtain ⟨r, hr, rfl⟩ := hM
      have hi : includes fit _ = true := (includes_verdict ⟨r, hr⟩).2 ⟨r, hr, hz⟩
      unfold findBreakdown
      rw [if_neg (by simp [hi])]
      split_ifs
      · rfl
      · simp only [transition]
        rw [if_pos hi]
  · rintro b rest v rfl hz hv
    cases ht with
    | cons hM hrest =>
      obtain ⟨r, hr, rfl⟩ := hM
      have hi : includes fit _ = false := (includes_verdict ⟨r, hr⟩).2 ⟨r, hr, hz⟩
      unfold findBreakdown at hv
      split_ifs at hv with h1 h2
      · simp [hi] at h2
      · simp only [transition] at hv
        rw [if_neg (by simp [hi])] at hv
        obtain ⟨l, a, b, l', e, hl, ha, hb', c, d, hc, hd, e1, e2, e3⟩ := transition_some _ _ _ hi _ hv
        exact ⟨l, a, b, l', e, fun M hM => (includes_verdict (hok M)).1 (hl M hM), (includes_verdict (hok _)).1 ha, (includes_verdict (hok _)).1 hb',
          c, d, (includes_verdict (hok _)).1 hc, (includes_verdict (hok _)).1 hd, e1, e2, e3⟩

/-! ### The fits of the library -/

theorem fitStudy_uniform (method : Method) (solve : Lp K → Option K) (root : K → K) (z : K) (lvec : Option (List K)) (s : Study K) (maxPre : Option K) :
    Uniform (fitStudy method solve root z lvec s maxPre) := by
  rintro M M' ⟨r, h⟩
  unfold fitStudy at h ⊢
  cases hw : weights lvec (betaPost s).length with
  | error e => rw [hw] at h; cases h
  | ok l =>
    rw [hw] at h
    simp only at h ⊢
    have hse : method ≠ .relativeMagnitude → ¬ root (quad l (sigmaPost s)) ≤ 0 := by
      intro hm hse
      cases method with
      | relativeMagnitude => exact hm rfl
      | smoothness => simp [bounds, smoothBounds, flci, hse] at h
      | combined => simp [bounds, combinedBounds, smoothBounds, flci, hse] at h
    cases method with
    | relativeMagnitude => exact ⟨_, rfl⟩
    | smoothness => simp [bounds, smoothBounds, flci, hse]
    | combined => simp [bounds, combinedBounds, smoothBounds, flci, hse]

/-- C159. Whether `fit` succeeds on MultiPeriodDiD or CallawaySantAnna results does not depend on M, so that a failure shows at the first grid value. -/
theorem C159_uniform (method : Method) (solve : Lp K → Option K) (root : K → K) (z : K) (lvec : Option (List K)) (r : Multi K) (r' : Cs K) :
    Uniform (fitMulti method solve root z lvec r) ∧ Uniform (fitCs method solve root z lvec r') := by
  refine ⟨fitStudy_uniform _ _ _ _ _ _ _, ?_⟩
  intro M M' h
  unfold fitCs at h ⊢
  cases he : extractCs r' with
  | error e =>
    rw [he] at h
    obtain ⟨_, h⟩ := h
    cases h
  | ok s =>
    rw [he] at h
    exact fitStudy_uniform method solve root z lvec s (maxPreCs r') M M' h

theorem fitStudy_estimate (method : Method) (solve : Lp K → Option K) (root : K → K) (z : K) (lvec : Option (List K)) (s : Study K) (maxPre : Option K)
    (M M' : K) (r r' : Result K) (h : fitStudy method solve root z lvec s maxPre M = .ok r) (h' : fitStudy method solve root z lvec s maxPre M' = .ok r') :
    r.estimate = r'.estimate ∧ r.se = r'.se := by
  unfold fitStudy at h h'
  cases hw : weights lvec (betaPost s).length with
  | error e => rw [hw] at h; cases h
  | ok l =>
    rw [hw] at h h'
    simp only at h h'
    split at h
    · cases h
    · split at h'
      · cases h'
      · cases h
        cases h'
        exact ⟨rfl, rfl⟩

/-- C159. Estimate and standard error of the table are those of the fit at every M. -/
theorem C159_estimate (method : Method) (solve : Lp K → Option K) (root : K → K) (z : K) (lvec : Option (List K)) (r : Multi K) (grid : Option (List K))
    (s : Sensitivity K) (h : sensitivityAnalysis method (fitMulti method solve root z lvec r) grid = .ok s) (M : K) (x : Result K)
    (hx : fitMulti method solve root z lvec r M = .ok x) : s.estimate = x.estimate ∧ s.se = x.se := by
  obtain ⟨_, _, r0, h0, e1, e2⟩ := C159_table _ _ _ _ h
  rw [e1, e2]
  exact fitStudy_estimate _ _ _ _ _ _ _ _ _ _ _ h0 hx

/-- C159. Relative magnitudes, nonnegative critical value and standard error: in a table with an increasing grid of nonnegative values, a row that includes
zero is followed only by rows that include zero. -/
theorem C159_rm_rows (solve : Lp K → Option K) (root : K → K) (hroot : ∀ x, 0 ≤ root x) (z : K) (hz : 0 ≤ z) (lvec : Option (List K)) (r : Multi K)
    (hm : ∀ m, maxPreMulti r = some m → 0 ≤ m) (g : List K) (hg : g.Pairwise (· ≤ ·)) (h0 : ∀ x ∈ g, 0 ≤ x) (s : Sensitivity K)
    (h : sensitivityAnalysis .relativeMagnitude (fitMulti .relativeMagnitude solve root z lvec r) (some g) = .ok s) :
    s.rows.Pairwise (fun b b' => includesZero b = true → includesZero b' = true) := by
  obtain ⟨hM, ht, _⟩ := C159_table _ _ _ _ h
  rw [hM g rfl] at ht
  clear hM h
  generalize s.rows = rows at ht
  have key : ∀ M b M' b', 0 ≤ M → M ≤ M' → (∃ x, fitMulti .relativeMagnitude solve root z lvec r M = .ok x ∧ b = x.bounds) →
      (∃ x, fitMulti .relativeMagnitude solve root z lvec r M' = .ok x ∧ b' = x.bounds) → includesZero b = true → includesZero b' = true := by
    rintro M b M' b' hM hMM ⟨x, hx, rfl⟩ ⟨x', hx', rfl⟩
    unfold fitMulti fitStudy at hx hx'
    cases hw : weights lvec (betaPost (extractMulti r)).length with
    | error e => rw [hw] at hx; cases hx
    | ok l =>
      rw [hw] at hx hx'
      cases hx
      cases hx'
      simp only
      have hzs : 0 ≤ z * root (quad l (sigmaPost (extractMulti r))) := mul_nonneg hz (hroot _)
      cases hp : maxPreMulti r with
      | none => simp [rmBounds, includesZero, Ext.le]
      | some m =>
        have := hm m hp
        rw [includesZero_rm _ _ _ _ _ _ this hM hzs, includesZero_rm _ _ _ _ _ _ this (hM.trans hMM) hzs, decide_eq_true_iff, decide_eq_true_iff]
        intro h
        have := mul_le_mul_of_nonneg_right hMM this
        linarith
  induction ht with
  | nil => exact .nil
  | cons hMb hrest ih =>
    rw [List.pairwise_cons] at hg ⊢
    refine ⟨?_, ih hg.2 fun x hx => h0 x (List.mem_cons_of_mem _ hx)⟩
    intro b' hb'
    rw [List.forall₂_iff_get] at hrest
    obtain ⟨i, hi⟩ := List.get_of_mem hb'
    have hget := hrest.2 i (by rw [hrest.1]; exact i.2) i.2
    have hmem := List.get_mem _ (⟨i, by rw [hrest.1]; exact i.2⟩ : Fin _)
    have hi' : List.get _ ⟨i, i.2⟩ = b' := hi
    rw [hi'] at hget
    exact key _ _ _ _ (h0 _ (List.mem_cons_self ..)) (hg.1 _ hmem) hMb hget

/-- C159. The grid breakdown and `breakdown_value` agree up to the tolerance and the width of the bracketing grid interval over 2^21, when significance is lost
at one threshold in (0, 10]. -/
theorem C159_two_searches (fit : K → Except Err (Result K)) (m : K) (h : Threshold (includes fit) m) (h0 : 0 < m) (h10 : m ≤ 10) (hinc : includes fit 10 = true)
    (method : Method) (g : K) (grid : List K) (hg0 : 0 ≤ g) (hg : includes fit g = false) (hs : (g :: grid).Pairwise (· < ·)) (s : Sensitivity K)
    (hs' : sensitivityAnalysis method fit (some (g :: grid)) = .ok s) (v : K) (hv : s.breakdown = some v) (tol : K) (fuel : ℕ) (w : Option K)
    (hw : breakdownOf fit tol fuel = .ok (some w)) :
    ∃ w' a b, w = some w' ∧ (a, b) ∈ (g :: grid).zip grid ∧ |v - w'| ≤ (b - a) / 2 ^ 21 + tol / 2 := by
  obtain ⟨_, _, r0, hr0, _⟩ := C159_table _ _ _ _ hs'
  have hb : s.breakdown = findBreakdown (includes fit) (g :: grid) := by
    unfold sensitivityAnalysis at hs'
    simp only [Option.getD_some] at hs'
    cases h1 : fitAll fit (g :: grid) with
    | error e => rw [h1] at hs'; cases hs'
    | ok rows => rw [h1, hr0] at hs'; cases hs'; rfl
  rw [hb] at hv
  obtain ⟨a, b, hab, _, _, _, _, e1⟩ := C41_grid _ m h g grid hg0 hg hs v hv
  unfold breakdownOf at hw
  rw [hr0] at hw
  simp only [Except.ok.injEq] at hw
  obtain ⟨w', rfl, e2⟩ := C41_accuracy _ m h h0 h10 hinc tol fuel w hw
  refine ⟨w', a, b, rfl, hab, ?_⟩
  calc |v - w'| = |(v - m) - (w' - m)| := by congr 1; ring
    _ ≤ |v - m| + |w' - m| := abs_sub _ _
    _ ≤ _ := add_le_add e1 e2

end

/-- A fit by relative magnitudes: effect 3, standard error 1, critical value 2, largest pre-period effect 1. -/
private def demo (M : ℚ) : Except Err (Result ℚ) := .ok ⟨3, 1, rmBounds 2 1 [3] [1] (some 1) M⟩

example : Uniform demo := fun _ _ _ => ⟨_, rfl⟩

/-- The table at 0, 1/2, 3/2: the last row includes zero, and the breakdown value is close to 1. -/
example : ∃ s, sensitivityAnalysis .relativeMagnitude demo (some [0, 1 / 2, 3 / 2]) = .ok s ∧ s.rows.map includesZero = [false, false, true] ∧
    s.breakdown.isSome = true := ⟨_, rfl, by decide +kernel, by decide +kernel⟩

example : Threshold (includes demo) 1 := by
  have key : ∀ M : ℚ, 0 ≤ M → includes demo M = decide (|(3 : ℚ)| ≤ M * 1 + 2 * 1) := by
    intro M hM
    have := includesZero_rm (2 : ℚ) 1 [3] [1] 1 M (by norm_num) hM (by norm_num)
    have e : dot [(1 : ℚ)] [3] = 3 := by norm_num [dot]
    rw [e] at this
    exact this
  constructor
  · intro M hM h
    rw [key M hM, decide_eq_false_iff_not]
    norm_num
    linarith
  · intro M hM h
    rw [key M hM, decide_eq_true_iff]
    norm_num
    linarith

end DiffDiff.HonestDid
