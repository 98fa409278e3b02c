/-
The wild bootstrap of DifferenceInDifferences: controls, units, order of the rows, names of the clusters, comparison with analytical inference (C151).
-/
import Verif.WildLinProps

set_option linter.unusedSectionVars false
set_option linter.unusedVariables false

namespace DiffDiff.WildLin
open Matrix Ols TwfeFit
open DidFull (Data Valid Comb Orth FullRank flag extras num outcome nCoef matrix)

variable {ι ι' C C' : Type*} [Fintype ι] [DecidableEq ι] [Fintype ι'] [DecidableEq ι'] [DecidableEq C] [DecidableEq C']

/-! ### Affine maps of bootstrap draws -/

theorem sort_affine (a b : ℝ) (ha : 0 < a) (l : List ℝ) :
    (l.map (fun v => a * v + b)).insertionSort (· ≤ ·) = (l.insertionSort (· ≤ ·)).map (fun v => a * v + b) := by
  symm
  refine List.map_insertionSort (r := (· ≤ ·)) (s := (· ≤ ·)) (fun v => a * v + b) l ?_
  intro x _ y _
  constructor
  · intro h; have := mul_le_mul_of_nonneg_left h ha.le; linarith
  · intro h; exact le_of_mul_le_mul_left (by linarith : a * x ≤ a * y) ha

theorem percentile_affine (a b : ℝ) (ha : 0 < a) (l : List ℝ) (hl : l ≠ []) (q : ℝ) (h0 : 0 ≤ q) (h1 : q ≤ 1) :
    BootStats.percentile (l.map (fun v => a * v + b)) q = a * BootStats.percentile l q + b := by
  have hpos : 0 < l.length := List.length_pos_iff.2 hl
  unfold BootStats.percentile
  rw [sort_affine a b ha]
  set s := l.insertionSort (· ≤ ·) with hs
  have hlen : s.length = l.length := List.length_insertionSort _ _
  have hget : ∀ j, j < s.length → (s.map (fun v => a * v + b)).getD j 0 = a * s.getD j 0 + b := by
    intro j hj
    rw [List.getD_eq_getElem _ _ (by rwa [List.length_map]), List.getD_eq_getElem _ _ hj, List.getElem_map]
  unfold BootStats.pctSorted
  simp only [List.length_map]
  have hn : (1 : ℝ) ≤ s.length := by rw [hlen]; exact_mod_cast hpos
  have hi : ⌊q * ((s.length : ℝ) - 1)⌋₊ < s.length := by
    rw [Nat.floor_lt (mul_nonneg h0 (by linarith))]
    have : q * ((s.length : ℝ) - 1) ≤ 1 * ((s.length : ℝ) - 1) := mul_le_mul_of_nonneg_right h1 (by linarith)
    linarith
  rw [hget _ hi, hget _ (by omega)]
  ring

theorem var1_affine (a b : ℝ) (l : List ℝ) : BootStats.var1 (l.map (fun v => a * v + b)) = (BootStats.var1 l).map (a ^ 2 * ·) := by
  have hs : ∀ l : List ℝ, (l.map (fun v => a * v + b)).sum = a * l.sum + (l.length : ℝ) * b := by
    intro l
    induction l with
    | nil => simp
    | cons v l ih => rw [List.map_cons, List.sum_cons, ih, List.sum_cons, List.length_cons]; push_cast; ring
  unfold BootStats.var1
  rw [List.length_map]
  by_cases h : l.length ≤ 1
  · rw [if_pos h, if_pos h]; rfl
  · rw [if_neg h, if_neg h, Option.map_some, hs]
    congr 1
    have hn : (l.length : ℝ) ≠ 0 := by
      have : 0 < l.length := by omega
      exact_mod_cast this.ne'
    have hm : (a * l.sum + (l.length : ℝ) * b) / (l.length : ℝ) = a * (l.sum / l.length) + b := by field_simp
    rw [hm, List.map_map, ← mul_div_assoc (a ^ 2), ← List.sum_map_mul_left]
    congr 2
    refine List.map_congr_left fun v _ => ?_
    simp only [Function.comp]
    ring

/-! ### The report from its parts -/

/-- Weights, residuals, estimate and projected replicates of a call. -/
structure Parts (D : Data ι C ℝ) (g : ι → C) (w u : ι → ℝ) (x : ℝ) (rs : (C → ℝ) → ι → ℝ) : Prop where
  wc : ∃ e, Comb (flag D.d) (flag D.t) (extras D) e w
  wo : Orth (flag D.d) (flag D.t) (extras D) w 1
  uc : Comb (flag D.d) (flag D.t) (extras D) x (fun i => num (outcome D) i - u i)
  uo : Orth (flag D.d) (flag D.t) (extras D) u 0
  x : x = ∑ i, w i * num (outcome D) i
  r : ∀ s, (∃ e, Comb (flag D.d) (flag D.t) (extras D) e (fun i => u i * s (g i) - rs s i)) ∧ Orth (flag D.d) (flag D.t) (extras D) (rs s) 0

/-- The report. -/
noncomputable def reportOf (k : ℕ) (d : ι → Option ℝ) (y : ι → ℝ) (g : ι → C) (w u : ι → ℝ) (x : ℝ) (rs : (C → ℝ) → ι → ℝ) (alpha : ℝ) (draws : List (C → ℝ)) : Report :=
  ⟨⟨.fin x, LinReg.toExt ((BootStats.var1 (draws.map (coefOf g w u x))).map Real.sqrt), tOrigOf k g w u x,
    .fin (max ((((draws.map (tOf k g w u x rs)).filter (fun b => Ext.le (Ext.abs (tOrigOf k g w u x)) (.fin |b|))).length : ℝ) / draws.length)
      (1 / ((draws.length : ℝ) + 1))),
    (.fin (BootStats.percentile (draws.map (coefOf g w u x)) (alpha / 2)), .fin (BootStats.percentile (draws.map (coefOf g w u x)) (1 - alpha / 2))),
    Fintype.card ι, (Finset.univ.filter (fun i => d i = some 1)).card, (Finset.univ.filter (fun i => d i = some 0)).card, Vcov.rSquared y u false 0⟩,
    some (draws.length, (Finset.univ.image g).card)⟩

theorem exists_parts {L : Lib ι ℝ} (hL : Works L) (hP : LinReg.Prunes L) {robust strict : Bool} {alpha : ℝ} {wt : String} {draws : List (C → ℝ)}
    {D : Data ι C ℝ} {g : ι → C} {R : Report} (h : fit L robust strict alpha (some (wt, draws)) D (some g) = .ok R) :
    ∃ w u x rs, Parts D g w u x rs ∧ R = reportOf (nCoef D) D.d (num (outcome D)) g w u x rs alpha draws := by
  obtain ⟨w, u, x, rs, k1, k2, k3, k4, k5, k6, k7, k8, k9, k10, k11, k12, k13, k14, k15, k16⟩ := C151_report L hL hP robust strict alpha wt draws D g R h
  refine ⟨w, u, x, rs, ⟨k1, k2, k3, k4, k5, k6⟩, ?_⟩
  rw [k9] at k10
  cases R with
  | mk M bo =>
    cases M with
    | mk a b c d e f1 f2 f3 f4 =>
      simp only at k7 k8 k9 k10 k11 k12 k13 k14 k15 k16
      subst k7 k8 k9 k10 k11 k12 k13 k14 k15 k16
      rfl

/-- The parts are unique, so any parts give the report. -/
theorem fit_parts {L : Lib ι ℝ} (hL : Works L) (hP : LinReg.Prunes L) {robust strict : Bool} {alpha : ℝ} {wt : String} {draws : List (C → ℝ)}
    {D : Data ι C ℝ} {g : ι → C} {R : Report} (h : fit L robust strict alpha (some (wt, draws)) D (some g) = .ok R) {w u : ι → ℝ} {x : ℝ}
    {rs : (C → ℝ) → ι → ℝ} (hp : Parts D g w u x rs) : R = reportOf (nCoef D) D.d (num (outcome D)) g w u x rs alpha draws := by
  obtain ⟨w', u', x', rs', hp', rfl⟩ := exists_parts hL hP h
  have hw : w' = w := DidFull.weights_unique hp'.wc hp'.wo hp.wc hp.wo
  have hu : u' = u := DidFull.resid_unique hp'.uc hp'.uo hp.uc hp.uo
  subst hw hu
  have hx : x' = x := hp'.x.trans hp.x.symm
  have hr : rs' = rs := by
    funext s
    obtain ⟨⟨e1, he1⟩, ho1⟩ := hp'.r s
    obtain ⟨⟨e2, he2⟩, ho2⟩ := hp.r s
    exact DidFull.resid_unique he1 ho1 he2 ho2
  subst hx hr
  rfl

theorem identified_of_full {d t : ι → Bool} {xs : List (ι → ℝ)} (h : FullRank d t xs) : DidFull.Identified d t xs := by
  rintro ⟨a, b, c, γ, hz⟩
  obtain ⟨-, -, -, h1, -⟩ := h a b c (-1) γ fun i => by
    have := hz i
    simp only at this
    linarith
  exact absurd h1 (by norm_num)

theorem coefOf_shift (g : ι → C) (w u : ι → ℝ) (x τ : ℝ) (s : C → ℝ) : coefOf g w u (x + τ) s = 1 * coefOf g w u x s + τ := by
  unfold coefOf; ring

theorem coefs_shift (g : ι → C) (w u : ι → ℝ) (x τ : ℝ) (draws : List (C → ℝ)) :
    draws.map (coefOf g w u (x + τ)) = (draws.map (coefOf g w u x)).map (fun v => 1 * v + τ) := by
  rw [List.map_map]
  exact List.map_congr_left fun s _ => coefOf_shift g w u x τ s

/-! ### C151 -/

/-- C151. Controls under the wild bootstrap: adding to the outcome group and period differences, any linear function of the covariates, any function of each
fixed-effect column and an effect `τ` for treated rows after treatment adds `τ` to the ATT and to both ends of the interval and leaves the standard error and the
counts; without `τ` the t statistic and the p-value stay too. -/
theorem C151_controls (L : Lib ι ℝ) (hL : Works L) (hP : LinReg.Prunes L) (robust strict : Bool) (alpha : ℝ) (h0 : 0 ≤ alpha) (h1 : alpha ≤ 1) (wt : String)
    (draws : List (C → ℝ)) (D : Data ι C ℝ) (g : ι → C) (hab : D.absorb = []) (hfx : ∀ g ∈ D.fixed, ∀ i, g i ≠ none) (R : Report)
    (h : fit L robust strict alpha (some (wt, draws)) D (some g) = .ok R) (a b c τ : ℝ) (β : Fin D.cov.length → ℝ) (φ : Fin D.fixed.length → ℤ → ℝ) :
    ∃ R', fit L robust strict alpha (some (wt, draws)) (D.withY (fun i => (D.y i).map (· + DidFull.shift D a b c τ β φ i))) (some g) = .ok R' ∧
      (∃ x lo hi, R.main.att = .fin x ∧ R'.main.att = .fin (x + τ) ∧ R.main.ci = (.fin lo, .fin hi) ∧ R'.main.ci = (.fin (lo + τ), .fin (hi + τ))) ∧
      R'.main.se = R.main.se ∧ R'.main.nObs = R.main.nObs ∧ R'.main.nTreated = R.main.nTreated ∧ R'.main.nControl = R.main.nControl ∧ R'.boot = R.boot ∧
      (τ = 0 → R'.main.t = R.main.t ∧ R'.main.p = R.main.p) := by
  set D' := D.withY (fun i => (D.y i).map (· + DidFull.shift D a b c τ β φ i)) with hD'
  obtain ⟨hV, q⟩ := (C151_runs L hL hP robust strict alpha wt draws D g).1 ⟨R, h⟩
  have hne : draws ≠ [] := q.2.2.2.2.2
  obtain ⟨i0, -⟩ := hV.d.2.1
  have : Nonempty ι := ⟨i0⟩
  have hV' : Valid D' := DidFull.valid_withY hV fun i => by
    obtain ⟨z, hz⟩ := Option.ne_none_iff_exists'.1 (hV.y i)
    simp [hz]
  obtain ⟨R', hR'⟩ := (C151_runs L hL hP robust strict alpha wt draws D' g).2 ⟨hV', q⟩
  have hout : outcome D = D.y := by unfold DidFull.outcome; rw [hab]; rfl
  have hout' : outcome D' = fun i => (D.y i).map (· + DidFull.shift D a b c τ β φ i) := by unfold DidFull.outcome; rw [show D'.absorb = [] from hab]; rfl
  have hy : ∀ i, num (outcome D') i = num (outcome D) i + DidFull.shift D a b c τ β φ i := by
    intro i
    rw [hout, hout']
    obtain ⟨z, hz⟩ := Option.ne_none_iff_exists'.1 (hV.y i)
    simp [num, hz]
  have hs := DidFull.shift_comb hab hfx a b c τ β φ
  obtain ⟨w, u, x, rs, hp, rfl⟩ := exists_parts hL hP h
  have hp' : Parts D' g w u (x + τ) rs := by
    refine ⟨hp.wc, hp.wo, ?_, hp.uo, ?_, hp.r⟩
    · have := hp.uc.add hs
      have e : (fun i => num (outcome D) i - u i + DidFull.shift D a b c τ β φ i) = fun i => num (outcome D') i - u i := by
        funext i; rw [hy]; ring
      rwa [e] at this
    · simp only [hy, mul_add, Finset.sum_add_distrib]
      rw [← hp.x]
      congr 1
      have := hp.wo.comb hs
      rw [mul_one] at this
      refine this.symm.trans ?_
      exact Finset.sum_congr rfl fun i _ => mul_comm _ _
  have := fit_parts hL hP hR' hp'
  subst this
  have hmap : draws.map (coefOf g w u x) ≠ [] := by simpa using hne
  refine ⟨_, hR', ⟨x, _, _, rfl, rfl, rfl, ?_⟩, ?_, rfl, rfl, rfl, rfl, fun hz => ?_⟩
  · show (Ext.fin _, Ext.fin _) = _
    rw [coefs_shift, percentile_affine 1 τ one_pos _ hmap _ (by linarith) (by linarith), percentile_affine 1 τ one_pos _ hmap _ (by linarith) (by linarith),
      one_mul, one_mul]
  · show LinReg.toExt ((BootStats.var1 (draws.map (coefOf g w u (x + τ)))).map Real.sqrt) = LinReg.toExt ((BootStats.var1 (draws.map (coefOf g w u x))).map Real.sqrt)
    rw [coefs_shift, var1_affine, Option.map_map]
    congr 2
    funext v
    simp
  · subst hz
    unfold reportOf
    rw [add_zero]
    exact ⟨rfl, rfl⟩

theorem clusterVar_scale (k : ℕ) (g : ι → C) (w u : ι → ℝ) (c : ℝ) : clusterVar k g w (fun i => c * u i) = c ^ 2 * clusterVar k g w u := by
  have h : ∀ a, (∑ i ∈ Finset.univ.filter (fun i => g i = a), w i * (c * u i)) ^ 2 = c ^ 2 * (∑ i ∈ Finset.univ.filter (fun i => g i = a), w i * u i) ^ 2 := by
    intro a
    rw [← mul_pow, Finset.mul_sum]
    congr 1
    exact Finset.sum_congr rfl fun i _ => by ring
  unfold clusterVar
  simp only [h, ← Finset.mul_sum]
  ring

theorem coefOf_scale (g : ι → C) (w u : ι → ℝ) (x c : ℝ) (s : C → ℝ) : coefOf g w (fun i => c * u i) (c * x) s = c * coefOf g w u x s + 0 := by
  unfold coefOf
  rw [add_zero, mul_add, Finset.mul_sum]
  congr 1
  exact Finset.sum_congr rfl fun i _ => by ring

theorem sqrt_scale {c v : ℝ} (hc : 0 < c) : Real.sqrt (c ^ 2 * v) = c * Real.sqrt v := by
  rw [Real.sqrt_mul (sq_nonneg c), Real.sqrt_sq hc.le]

theorem tOf_scale (k : ℕ) (g : ι → C) (w u : ι → ℝ) (x : ℝ) (rs : (C → ℝ) → ι → ℝ) {c : ℝ} (hc : 0 < c) (s : C → ℝ) :
    tOf k g w (fun i => c * u i) (c * x) (fun s i => c * rs s i) s = tOf k g w u x rs s := by
  unfold tOf
  rw [clusterVar_scale, coefOf_scale, sqrt_scale hc, add_zero]
  have : 0 < c ^ 2 * clusterVar k g w (rs s) ↔ 0 < clusterVar k g w (rs s) := by
    constructor
    · intro h; exact pos_of_mul_pos_right h (sq_nonneg c)
    · intro h; positivity
  simp only [this]
  split_ifs
  · exact mul_div_mul_left _ _ hc.ne'
  · rfl

theorem tOrig_scale (k : ℕ) (g : ι → C) (w u : ι → ℝ) (x : ℝ) {c : ℝ} (hc : 0 < c) : tOrigOf k g w (fun i => c * u i) (c * x) = tOrigOf k g w u x := by
  unfold tOrigOf
  rw [clusterVar_scale, sqrt_scale hc]
  unfold Ext.div
  have hz : c * Real.sqrt (clusterVar k g w u) = 0 ↔ Real.sqrt (clusterVar k g w u) = 0 := by rw [mul_eq_zero, or_iff_right hc.ne']
  simp only [hz]
  split_ifs
  · unfold Ext.sgn
    have h1 : c * x < 0 ↔ x < 0 := by rw [mul_neg_iff]; constructor
                                      · rintro (⟨-, h⟩ | ⟨h, -⟩); exact h; linarith
                                      · intro h; exact Or.inl ⟨hc, h⟩
    have h2 : c * x = 0 ↔ x = 0 := by rw [mul_eq_zero, or_iff_right hc.ne']
    simp only [h1, h2]
  · rw [mul_div_mul_left _ _ hc.ne']

/-- C151. Units under the wild bootstrap: for the outcome in other units (times `c > 0`) the ATT, the standard error and the interval are multiplied by `c`; t
statistic, p-value, R-squared and the counts stay. -/
theorem C151_units (L : Lib ι ℝ) (hL : Works L) (hP : LinReg.Prunes L) (robust strict : Bool) (alpha : ℝ) (h0 : 0 ≤ alpha) (h1 : alpha ≤ 1) (wt : String)
    (draws : List (C → ℝ)) (D : Data ι C ℝ) (g : ι → C) (R : Report) (h : fit L robust strict alpha (some (wt, draws)) D (some g) = .ok R) (c : ℝ) (hc : 0 < c) :
    ∃ R', fit L robust strict alpha (some (wt, draws)) (D.withY (fun i => (D.y i).map (c * ·))) (some g) = .ok R' ∧
      (∃ x lo hi, R.main.att = .fin x ∧ R'.main.att = .fin (c * x) ∧ R.main.ci = (.fin lo, .fin hi) ∧ R'.main.ci = (.fin (c * lo), .fin (c * hi))) ∧
      (R.main.se = .nan → R'.main.se = .nan) ∧ (∀ s, R.main.se = .fin s → R'.main.se = .fin (c * s)) ∧
      R'.main.t = R.main.t ∧ R'.main.p = R.main.p ∧ R'.main.r2 = R.main.r2 ∧ R'.main.nObs = R.main.nObs ∧ R'.main.nTreated = R.main.nTreated ∧
      R'.main.nControl = R.main.nControl ∧ R'.boot = R.boot := by
  set D' := D.withY (fun i => (D.y i).map (c * ·)) with hD'
  obtain ⟨hV, q⟩ := (C151_runs L hL hP robust strict alpha wt draws D g).1 ⟨R, h⟩
  have hne : draws ≠ [] := q.2.2.2.2.2
  have hV' : Valid D' := DidFull.valid_withY hV fun i => by
    obtain ⟨z, hz⟩ := Option.ne_none_iff_exists'.1 (hV.y i)
    simp [hz]
  obtain ⟨R', hR'⟩ := (C151_runs L hL hP robust strict alpha wt draws D' g).2 ⟨hV', q⟩
  have hy : ∀ i, num (outcome D') i = c * num (outcome D) i := by
    intro i
    show num (DidFull.absorbed D.absorb (fun i => (D.y i).map (c * ·))) i = _
    rw [DidFull.absorbed_scale]
    show ((DidFull.absorbed D.absorb D.y i).map (c * ·)).getD 0 = c * (DidFull.absorbed D.absorb D.y i).getD 0
    cases DidFull.absorbed D.absorb D.y i <;> simp
  obtain ⟨w, u, x, rs, hp, rfl⟩ := exists_parts hL hP h
  have hp' : Parts D' g w (fun i => c * u i) (c * x) (fun s i => c * rs s i) := by
    refine ⟨hp.wc, hp.wo, ?_, ?_, ?_, fun s => ⟨?_, ?_⟩⟩
    · have := hp.uc.smul c
      have e : (fun i => c * (num (outcome D) i - u i)) = fun i => num (outcome D') i - c * u i := by
        funext i; rw [hy]; ring
      rwa [e] at this
    · have := hp.uo.smul c
      rwa [mul_zero] at this
    · simp only [hy]
      rw [hp.x, Finset.mul_sum]
      exact Finset.sum_congr rfl fun i _ => by ring
    · obtain ⟨e, he⟩ := (hp.r s).1
      have := he.smul c
      have e' : (fun i => c * (u i * s (g i) - rs s i)) = fun i => c * u i * s (g i) - c * rs s i := by
        funext i; ring
      rw [e'] at this
      exact ⟨_, this⟩
    · have := (hp.r s).2.smul c
      rwa [mul_zero] at this
  have := fit_parts hL hP hR' hp'
  subst this
  have hmap : draws.map (coefOf g w u x) ≠ [] := by simpa using hne
  have hcs : draws.map (coefOf g w (fun i => c * u i) (c * x)) = (draws.map (coefOf g w u x)).map (fun v => c * v + 0) := by
    rw [List.map_map]
    exact List.map_congr_left fun s _ => coefOf_scale g w u x c s
  have ht := tOrig_scale (nCoef D) g w u x hc
  have hts : draws.map (tOf (nCoef D) g w (fun i => c * u i) (c * x) (fun s i => c * rs s i)) = draws.map (tOf (nCoef D) g w u x rs) :=
    List.map_congr_left fun s _ => tOf_scale (nCoef D) g w u x rs hc s
  have hse : LinReg.toExt ((BootStats.var1 (draws.map (coefOf g w (fun i => c * u i) (c * x)))).map Real.sqrt) =
      LinReg.toExt ((BootStats.var1 (draws.map (coefOf g w u x))).map (fun v => c * Real.sqrt v)) := by
    rw [hcs, var1_affine, Option.map_map]
    congr 2
    funext v
    exact sqrt_scale hc
  refine ⟨_, hR', ⟨x, _, _, rfl, rfl, rfl, ?_⟩, fun hn => ?_, fun s hs => ?_, ht, ?_, ?_, rfl, rfl, rfl, rfl⟩
  · show (Ext.fin _, Ext.fin _) = _
    rw [hcs, percentile_affine c 0 hc _ hmap _ (by linarith) (by linarith), percentile_affine c 0 hc _ hmap _ (by linarith) (by linarith), add_zero, add_zero]
  · show LinReg.toExt _ = _
    rw [hse]
    have hn' : LinReg.toExt ((BootStats.var1 (draws.map (coefOf g w u x))).map Real.sqrt) = .nan := hn
    cases hv : BootStats.var1 (draws.map (coefOf g w u x)) with
    | none => rfl
    | some v => rw [hv] at hn'; cases hn'
  · show LinReg.toExt _ = _
    rw [hse]
    have hs' : LinReg.toExt ((BootStats.var1 (draws.map (coefOf g w u x))).map Real.sqrt) = .fin s := hs
    cases hv : BootStats.var1 (draws.map (coefOf g w u x)) with
    | none => rw [hv] at hs'; cases hs'
    | some v => rw [hv] at hs'; cases hs'; rfl
  · show Ext.fin (max ((((draws.map (tOf (nCoef D) g w (fun i => c * u i) (c * x) (fun s i => c * rs s i))).filter
      (fun b => Ext.le (Ext.abs (tOrigOf (nCoef D) g w (fun i => c * u i) (c * x))) (.fin |b|))).length : ℝ) / draws.length) (1 / ((draws.length : ℝ) + 1))) = _
    rw [ht, hts]
    rfl
  · show Vcov.rSquared (num (outcome D')) (fun i => c * u i) false 0 = Vcov.rSquared (num (outcome D)) u false 0
    have hc2 : c ^ 2 ≠ 0 := pow_ne_zero _ hc.ne'
    have e1 : ∑ i, (num (outcome D') i - (∑ i, num (outcome D') i) / (Fintype.card ι : ℝ)) ^ 2 =
        c ^ 2 * ∑ i, (num (outcome D) i - (∑ i, num (outcome D) i) / (Fintype.card ι : ℝ)) ^ 2 := by
      simp only [hy, ← Finset.mul_sum, mul_div_assoc, ← mul_sub, mul_pow]
    have e2 : ∑ i, (c * u i) ^ 2 = c ^ 2 * ∑ i, u i ^ 2 := by simp only [mul_pow, Finset.mul_sum]
    unfold Vcov.rSquared
    simp only [e1, e2, mul_eq_zero, hc2, false_or, mul_div_mul_left _ _ hc2]

/-! ### Order of the rows, names of the clusters -/

theorem clusterVar_comp (e : ι' ≃ ι) (k : ℕ) (g : ι → C) (w u : ι → ℝ) : clusterVar k (g ∘ e) (w ∘ e) (u ∘ e) = clusterVar k g w u := by
  unfold clusterVar
  rw [DidFull.image_comp, Fintype.card_congr e]
  congr 1
  refine Finset.sum_congr rfl fun c _ => ?_
  congr 1
  exact DidFull.sum_filter_comp e (fun i => g i = c) (fun i => w i * u i)

theorem coefOf_comp (e : ι' ≃ ι) (g : ι → C) (w u : ι → ℝ) (x : ℝ) (s : C → ℝ) : coefOf (g ∘ e) (w ∘ e) (u ∘ e) x s = coefOf g w u x s := by
  unfold coefOf
  congr 1
  exact Equiv.sum_comp e (fun i => w i * (u i * s (g i)))

theorem reportOf_comp (e : ι' ≃ ι) (k : ℕ) (d : ι → Option ℝ) (y : ι → ℝ) (g : ι → C) (w u : ι → ℝ) (x : ℝ) (rs : (C → ℝ) → ι → ℝ) (alpha : ℝ)
    (draws : List (C → ℝ)) : reportOf k (d ∘ e) (y ∘ e) (g ∘ e) (w ∘ e) (u ∘ e) x (fun s => rs s ∘ e) alpha draws = reportOf k d y g w u x rs alpha draws := by
  have h1 : coefOf (g ∘ e) (w ∘ e) (u ∘ e) x = coefOf g w u x := funext fun s => coefOf_comp e g w u x s
  have h2 : tOf k (g ∘ e) (w ∘ e) (u ∘ e) x (fun s => rs s ∘ e) = tOf k g w u x rs := by
    funext s
    unfold tOf
    rw [clusterVar_comp, coefOf_comp]
  have h3 : tOrigOf k (g ∘ e) (w ∘ e) (u ∘ e) x = tOrigOf k g w u x := by
    unfold tOrigOf
    rw [clusterVar_comp]
  have h4 : ∀ b, (Finset.univ.filter (fun i => (d ∘ e) i = b)).card = (Finset.univ.filter (fun i => d i = b)).card := by
    intro b
    rw [Finset.card_eq_sum_ones, Finset.card_eq_sum_ones]
    exact DidFull.sum_filter_comp e (fun i => d i = b) (fun _ => 1)
  have h5 := RowOrder.rsq_moved e y u false 0
  unfold reportOf
  rw [h1, h2, h3, h4, h4, DidFull.image_comp, Fintype.card_congr e]
  congr 2

theorem fullRank_comp (e : ι' ≃ ι) {d t : ι → Bool} {xs : List (ι → ℝ)} (h : FullRank d t xs) : FullRank (d ∘ e) (t ∘ e) (xs.map (· ∘ e)) := by
  have hl : (xs.map (· ∘ e)).length = xs.length := List.length_map _
  intro a b c k γ hz
  obtain ⟨r1, r2, r3, r4, r5⟩ := h a b c k (fun j => γ (Fin.cast hl.symm j)) fun i => by
    have := hz (e.symm i)
    simp only [Function.comp, Equiv.apply_symm_apply] at this
    rw [← this]
    congr 1
    rw [← Equiv.sum_comp (finCongr hl.symm)]
    refine Finset.sum_congr rfl fun j _ => ?_
    show γ _ * (xs[j.val] i) = γ _ * (((xs.map (· ∘ e))[j.val]'(by omega)) (e.symm i))
    rw [List.getElem_map]
    simp
  exact ⟨r1, r2, r3, r4, fun j => r5 (Fin.cast hl j)⟩

/-- C151. The order of the rows does not matter: the draws belong to the clusters. -/
theorem C151_row_order (L : Lib ι ℝ) (hL : Works L) (hP : LinReg.Prunes L) (L' : Lib ι' ℝ) (hL' : Works L') (hP' : LinReg.Prunes L') (e : ι' ≃ ι)
    (robust strict : Bool) (alpha : ℝ) (wt : String) (draws : List (C → ℝ)) (D : Data ι C ℝ) (g : ι → C) (R : Report)
    (h : fit L robust strict alpha (some (wt, draws)) D (some g) = .ok R) :
    fit L' robust strict alpha (some (wt, draws)) (D.moved e) (some (g ∘ e)) = .ok R := by
  have hx := DidFull.extras_moved D e
  have hnc : nCoef (D.moved e) = nCoef D := by rw [← DidFull.length_extras, ← DidFull.length_extras, hx, List.length_map]
  obtain ⟨hV, q1, q2, q3, q4, q5, q6⟩ := (C151_runs L hL hP robust strict alpha wt draws D g).1 ⟨R, h⟩
  obtain ⟨R', hR'⟩ := (C151_runs L' hL' hP' robust strict alpha wt draws (D.moved e) (g ∘ e)).2 ⟨DidFull.valid_moved hV e, by
    intro a ha i
    obtain ⟨a, ha', rfl⟩ := List.mem_map.1 ha
    exact q1 a ha' (e i), by rw [hx]; exact fullRank_comp e q2, by rw [hnc, Fintype.card_congr e]; exact q3, q4, by rw [DidFull.image_comp]; exact q5, q6⟩
  obtain ⟨w, u, x, rs, hp, rfl⟩ := exists_parts hL hP h
  have ho : outcome (D.moved e) = outcome D ∘ e := DidFull.absorbed_comp e D.absorb D.y
  have hp' : Parts (D.moved e) (g ∘ e) (w ∘ e) (u ∘ e) x (fun s => rs s ∘ e) := by
    refine ⟨?_, ?_, ?_, ?_, ?_, fun s => ⟨?_, ?_⟩⟩
    all_goals try rw [hx]
    · obtain ⟨k, hk⟩ := hp.wc
      exact ⟨k, (DidFull.comb_map e).2 hk⟩
    · exact DidFull.orth_map e hp.wo
    · rw [ho]
      exact (DidFull.comb_map e).2 hp.uc
    · exact DidFull.orth_map e hp.uo
    · rw [ho, hp.x]
      exact (Equiv.sum_comp e (fun i => w i * num (outcome D) i)).symm
    · obtain ⟨k, hk⟩ := (hp.r s).1
      exact ⟨k, (DidFull.comb_map e).2 hk⟩
    · exact DidFull.orth_map e (hp.r s).2
  have := fit_parts hL' hP' hR' hp'
  rw [hR', this, hnc, ho]
  exact congrArg Except.ok (reportOf_comp e (nCoef D) D.d (num (outcome D)) g w u x rs alpha draws)

/-- The columns of the data, clusters aside. -/
def relabel (C' : Type*) (D : Data ι C ℝ) : Data ι C' ℝ := ⟨D.y, D.d, D.t, D.cov, D.fixed, D.absorb, none⟩

theorem clusterVar_names {f : C → C'} (hf : Function.Injective f) (k : ℕ) (g : ι → C) (w u : ι → ℝ) : clusterVar k (f ∘ g) w u = clusterVar k g w u := by
  have hi : Finset.univ.image (f ∘ g) = (Finset.univ.image g).image f := by rw [Finset.image_image]
  unfold clusterVar
  rw [hi, Finset.card_image_of_injective _ hf, Finset.sum_image (fun a _ b _ h => hf h)]
  congr 1
  refine Finset.sum_congr rfl fun c _ => ?_
  congr 2
  refine Finset.filter_congr fun i _ => ?_
  exact hf.eq_iff

/-- C151. The names of the clusters do not matter, as long as every cluster gets its draws. -/
theorem C151_names (L : Lib ι ℝ) (hL : Works L) (hP : LinReg.Prunes L) (f : C → C') (hf : Function.Injective f) (robust strict : Bool) (alpha : ℝ) (wt : String)
    (draws : List (C' → ℝ)) (D : Data ι C ℝ) (g : ι → C) (R : Report)
    (h : fit L robust strict alpha (some (wt, draws.map (· ∘ f))) D (some g) = .ok R) :
    fit L robust strict alpha (some (wt, draws)) (relabel C' D) (some (f ∘ g)) = .ok R := by
  have hi : (Finset.univ.image (f ∘ g)).card = (Finset.univ.image g).card := by
    rw [show Finset.univ.image (f ∘ g) = (Finset.univ.image g).image f by rw [Finset.image_image], Finset.card_image_of_injective _ hf]
  obtain ⟨hV, q1, q2, q3, q4, q5, q6⟩ := (C151_runs L hL hP robust strict alpha wt _ D g).1 ⟨R, h⟩
  obtain ⟨R', hR'⟩ := (C151_runs L hL hP robust strict alpha wt draws (relabel C' D) (f ∘ g)).2
    ⟨⟨hV.y, hV.cov, hV.d, hV.t⟩, q1, q2, q3, q4, by rw [hi]; exact q5, by simpa using q6⟩
  obtain ⟨w, u, x, rs, hp, rfl⟩ := exists_parts hL hP h
  have hp' : Parts (relabel C' D) (f ∘ g) w u x (fun s => rs (s ∘ f)) := ⟨hp.wc, hp.wo, hp.uc, hp.uo, hp.x, fun s => hp.r (s ∘ f)⟩
  rw [hR', fit_parts hL hP hR' hp']
  refine congrArg Except.ok ?_
  have h1 : (draws.map (· ∘ f)).map (coefOf g w u x) = draws.map (coefOf (f ∘ g) w u x) := by rw [List.map_map]; rfl
  have h2 : (draws.map (· ∘ f)).map (tOf (nCoef D) g w u x rs) = draws.map (tOf (nCoef D) (f ∘ g) w u x (fun s => rs (s ∘ f))) := by
    rw [List.map_map]
    refine List.map_congr_left fun s _ => ?_
    unfold tOf
    rw [clusterVar_names hf]
    rfl
  have h3 : tOrigOf (nCoef D) (f ∘ g) w u x = tOrigOf (nCoef D) g w u x := by
    unfold tOrigOf
    rw [clusterVar_names hf]
  unfold reportOf
  rw [h1, h2, hi, List.length_map, ← h3]
  rfl

/-! ### Comparison with analytical inference -/

/-- C151. The choice of inference does not move the estimate: ATT, R-squared and the counts of a wild bootstrap call are those of the analytical call on the same
data, with or without the cluster column. -/
theorem C151_estimate (L : Lib ι ℝ) (hL : Works L) (hP : LinReg.Prunes L) (robust strict : Bool) (alpha : ℝ) (wt : String) (draws : List (C → ℝ))
    (D : Data ι C ℝ) (g : ι → C) (R : Report) (h : fit L robust strict alpha (some (wt, draws)) D (some g) = .ok R) (ids : Option (ι → C)) (A : Report)
    (hA : fit L robust strict alpha none D ids = .ok A) :
    R.main.att = A.main.att ∧ R.main.r2 = A.main.r2 ∧ R.main.nObs = A.main.nObs ∧ R.main.nTreated = A.main.nTreated ∧ R.main.nControl = A.main.nControl ∧
      A.boot = none := by
  have hA' : ∃ M, DidFull.fit L robust strict alpha (clusterBy D ids) = .ok M ∧ A = ⟨M, none⟩ := by
    unfold fit at hA
    cases hm : DidFull.fit L robust strict alpha (clusterBy D ids) with
    | error e => rw [hm] at hA; cases hA
    | ok M => rw [hm] at hA; cases hA; exact ⟨M, rfl, rfl⟩
  obtain ⟨M, hM, rfl⟩ := hA'
  obtain ⟨-, -, q2, -⟩ := (C151_runs L hL hP robust strict alpha wt draws D g).1 ⟨R, h⟩
  have hid := identified_of_full q2
  obtain ⟨w, u, x, k1, k2, k3, k4, k5, k6, -, -, -, -, k7, k8, k9, k10⟩ := DidFull.C150_report L hL hP robust strict alpha (clusterBy D ids) hid M hM _ _ rfl rfl _ rfl
  obtain ⟨w', u', x', rs, hp, rfl⟩ := exists_parts hL hP h
  have hw : w' = w := DidFull.weights_unique hp.wc hp.wo k1 k2
  have hu : u' = u := DidFull.resid_unique hp.uc hp.uo k3 k4
  subst hw hu
  have hx : x' = x := hp.x.trans k6.symm
  subst hx
  exact ⟨k5.symm, k10.symm, k7.symm, k8.symm, k9.symm, rfl⟩

/-- C151. Without a cluster column the wild bootstrap is not run: the call is the analytical call, and says so (no bootstrap counts). -/
theorem C151_no_cluster (L : Lib ι ℝ) (robust strict : Bool) (alpha : ℝ) (wt : String) (draws : List (C → ℝ)) (D : Data ι C ℝ) :
    fit L robust strict alpha (some (wt, draws)) D none = fit L robust strict alpha none D none ∧
      ∀ R, fit L robust strict alpha (some (wt, draws)) D none = .ok R → R.boot = none := by
  refine ⟨rfl, fun R h => ?_⟩
  unfold fit at h
  cases hm : DidFull.fit L robust strict alpha (clusterBy D none) with
  | error e => rw [hm] at h; cases h
  | ok M => rw [hm] at h; cases h; rfl

/-- C151. Bounds: the p-value lies between 1/(B+1) and 1 and the interval is ordered. -/
theorem C151_range (L : Lib ι ℝ) (hL : Works L) (hP : LinReg.Prunes L) (robust strict : Bool) (alpha : ℝ) (h0 : 0 ≤ alpha) (h1 : alpha ≤ 1) (wt : String)
    (draws : List (C → ℝ)) (D : Data ι C ℝ) (g : ι → C) (R : Report) (h : fit L robust strict alpha (some (wt, draws)) D (some g) = .ok R) :
    (∃ p, R.main.p = .fin p ∧ 1 / ((draws.length : ℝ) + 1) ≤ p ∧ p ≤ 1) ∧ ∃ lo hi, R.main.ci = (.fin lo, .fin hi) ∧ lo ≤ hi := by
  obtain ⟨hV, q1, q2, q3, q4, q5, q6⟩ := (C151_runs L hL hP robust strict alpha wt draws D g).1 ⟨R, h⟩
  obtain ⟨R0, B, h2, hB, rfl⟩ := fit_boot.1 h
  have hX := fit_det hP h2 hB
  have hB' := (wild_ok_iff hL hX).1 hB
  exact ⟨⟨B.p, rfl, WildBoot.C60_range _ _ _ _ _ _ _ _ _ hB'⟩, B.ci.1, B.ci.2, rfl, (WildBoot.C60_partial _ _ _ _ _ _ h0 h1 _ _ hB').2.2.1⟩

/-- C151, refutation. "Data without an effect do not look significant" is false: when the outcome is exactly group and period differences plus functions of the
covariates and fixed effects (for example an outcome that is always 0), the call reports effect 0 with the t statistic undefined and the smallest possible p-value. -/
theorem C151_no_effect_refuted (L : Lib ι ℝ) (hL : Works L) (hP : LinReg.Prunes L) (robust strict : Bool) (alpha : ℝ) (wt : String)
    (draws : List (C → ℝ)) (D : Data ι C ℝ) (g : ι → C) (hab : D.absorb = []) (hfx : ∀ g ∈ D.fixed, ∀ i, g i ≠ none) (R : Report)
    (h : fit L robust strict alpha (some (wt, draws)) D (some g) = .ok R) (a b c : ℝ) (β : Fin D.cov.length → ℝ) (φ : Fin D.fixed.length → ℤ → ℝ)
    (hy : ∀ i, D.y i = some (DidFull.shift D a b c 0 β φ i)) :
    R.main.att = .fin 0 ∧ R.main.t = .nan ∧ R.main.p = .fin (1 / ((draws.length : ℝ) + 1)) := by
  obtain ⟨hV, q⟩ := (C151_runs L hL hP robust strict alpha wt draws D g).1 ⟨R, h⟩
  obtain ⟨i0, -⟩ := hV.d.2.1
  have : Nonempty ι := ⟨i0⟩
  obtain ⟨w, u, x, rs, hp, rfl⟩ := exists_parts hL hP h
  have hs := DidFull.shift_comb hab hfx a b c 0 β φ
  have e : num (outcome D) = DidFull.shift D a b c 0 β φ := by
    funext i
    unfold DidFull.outcome
    rw [hab]
    simp [num, DidFull.absorbed, hy]
  have hu : u = 0 := by
    refine DidFull.resid_unique hp.uc hp.uo (x' := 0) (u' := 0) ?_ ⟨by simp, by simp, by simp, by simp, by simp⟩
    simpa [e] using hs
  have hx : x = 0 := by
    rw [hp.x, e]
    have := hp.wo.comb hs
    rw [zero_mul] at this
    refine Eq.trans ?_ this
    exact Finset.sum_congr rfl fun i _ => mul_comm _ _
  subst hu hx
  have ht : tOrigOf (nCoef D) g w 0 0 = .nan := by
    have hz : clusterVar (nCoef D) g w 0 = 0 := by unfold clusterVar; simp
    unfold tOrigOf
    rw [hz, Real.sqrt_zero]
    simp [Ext.div, Ext.sgn, Ext.infOf]
  refine ⟨rfl, ht, ?_⟩
  show Ext.fin (max _ _) = _
  rw [ht]
  have hf : (draws.map (tOf (nCoef D) g w 0 0 rs)).filter (fun b => Ext.le (Ext.abs Ext.nan) (.fin |b|)) = [] := by
    rw [List.filter_eq_nil_iff]
    intro b _
    simp [Ext.le, Ext.abs]
  rw [hf]
  congr 1
  simp only [List.length_nil, Nat.cast_zero, zero_div]
  exact max_eq_right (by positivity)

theorem saturated_matrix (d t : ι → Bool) : WildBoot.Saturated (matrix d t ([] : List (ι → ℝ))) (fun i => (d i, t i)) := by
  constructor
  · intro i j h
    have h1 : d i = d j := congrArg Prod.fst h
    have h2 : t i = t j := congrArg Prod.snd h
    unfold DidFull.matrix Did2x2.design
    rw [h1, h2]
    congr 1
    funext k
    exact k.elim0
  · rintro ⟨a, b⟩
    obtain ⟨v, -, hv⟩ := DidFull.comb_iff.1 (DidFull.comb_basic (d := d) (t := t) (xs := ([] : List (ι → ℝ))) ((if a then 0 else 1) * (if b then 0 else 1))
      ((if a then 1 else -1) * (if b then 0 else 1)) ((if a then 0 else 1) * (if b then 1 else -1)) ((if a then 1 else -1) * (if b then 1 else -1)))
    refine ⟨v, fun i => ?_⟩
    rw [show (matrix d t [] *ᵥ v) i = _ from (hv i).symm]
    cases a <;> cases b <;> cases hd : d i <;> cases ht : t i <;> simp [hd, ht, Did2x2.ind]

/-- C151, refutation. "A large effect is detected" is false: with one row per cluster, no covariates or fixed effects, and sign weights drawn in pairs `s`, `-s` (for
example all sign vectors), the reported p-value is at least half the share of replicates with a positive standard error, whatever the outcomes. -/
theorem C151_no_power_refuted (L : Lib ι ℝ) (hL : Works L) (hP : LinReg.Prunes L) (robust strict : Bool) (alpha : ℝ) (wt : String)
    (draws : List (C → ℝ)) (D : Data ι C ℝ) (g : ι → C) (hc : D.cov = []) (hfx : D.fixed = []) (hinj : Function.Injective g)
    (hw : ∀ s ∈ draws, ∀ c, s c = 1 ∨ s c = -1) (hperm : (draws.map (fun s => -s)).Perm draws) (R : Report)
    (h : fit L robust strict alpha (some (wt, draws)) D (some g) = .ok R) (t : ℝ) (ht : R.main.t = .fin t) :
    ∃ (w u : ι → ℝ) (x : ℝ) (rs : (C → ℝ) → ι → ℝ) (p : ℝ), Parts D g w u x rs ∧ R.main.p = .fin p ∧
      ((draws.filter (fun s => decide (0 < clusterVar 4 g w (rs s)))).length : ℝ) / (2 * (draws.length : ℝ)) ≤ p := by
  have hxs : extras D = [] := by unfold DidFull.extras DidFull.covariates; rw [hc, hfx]; rfl
  obtain ⟨hV, q1, q2, q3, q4, q5, q6⟩ := (C151_runs L hL hP robust strict alpha wt draws D g).1 ⟨R, h⟩
  obtain ⟨R0, B, h2, hB, rfl⟩ := fit_boot.1 h
  have hX := fit_det hP h2 hB
  have hB' := (wild_ok_iff hL hX).1 hB
  obtain ⟨w, u, x, rs, hp, hR⟩ := exists_parts hL hP h
  obtain ⟨-, -, -, -, ⟨V, hV'⟩, -⟩ := WildBoot.wild_ok hB'
  have H : ∃ v, DidFit.Isolates (matrix (flag D.d) (flag D.t) (extras D)) (Fin.castAdd (extras D).length 3) v w := DidFull.isolates_iff.2 ⟨hp.wc, hp.wo⟩
  obtain ⟨v, H⟩ := H
  have hn : nCoef D = 4 := by rw [← DidFull.length_extras, hxs]; rfl
  have hk : 4 + (extras D).length = 4 := by rw [DidFull.length_extras, hn]
  have hu : WildBoot.resid (matrix (flag D.d) (flag D.t) (extras D)) (num (outcome D)) = u := by
    obtain ⟨e, he⟩ := comb_fitted (d := flag D.d) (t := flag D.t) (xs := extras D) (num (outcome D))
    exact DidFull.resid_unique he (orth_resid hX _) hp.uc hp.uo
  have hpos : 0 < WildBoot.varK (matrix (flag D.d) (flag D.t) (extras D)) (num (outcome D)) g (Fin.castAdd (extras D).length 3) := by
    rw [varK_weights hX H hV', hu]
    have ht' : tOrigOf (nCoef D) g w u x = .fin t := by rw [← ht, hR]; rfl
    rw [DidFull.length_extras]
    by_contra hneg
    unfold tOrigOf at ht'
    rw [Real.sqrt_eq_zero_of_nonpos (not_lt.1 hneg)] at ht'
    simp only [Ext.div, if_pos] at ht'
    unfold Ext.infOf at ht'
    split_ifs at ht'
  have key := WildBoot.C60_no_power_refuted wt _ _ g hinj (fun i => (flag D.d i, flag D.t i)) (by rw [hxs]; exact saturated_matrix _ _)
    (by rw [Fintype.card_fin, hk, ← hn]; exact q3) _ alpha draws hw hperm B hB' hpos
  refine ⟨w, u, x, rs, B.p, hp, rfl, ?_⟩
  have hr : ∀ s, WildBoot.varK (matrix (flag D.d) (flag D.t) (extras D))
      (WildBoot.sample (matrix (flag D.d) (flag D.t) (extras D)) (WildBoot.restricted (matrix (flag D.d) (flag D.t) (extras D)) (num (outcome D))
        (Fin.castAdd (extras D).length 3) 0) g s) g (Fin.castAdd (extras D).length 3) = clusterVar 4 g w (rs s) := by
    intro s
    rw [varK_weights hX H hV', WildBoot.resid_sample _ hX]
    refine congrArg₂ (fun k r => clusterVar k g w r) hk ?_
    obtain ⟨⟨e1, he1⟩, ho1⟩ := hp.r s
    obtain ⟨e2, he2⟩ := comb_fitted (d := flag D.d) (t := flag D.t) (xs := extras D) (fun i => u i * s (g i))
    have hw' : WildBoot.wres (matrix (flag D.d) (flag D.t) (extras D)) (num (outcome D)) g s = fun i => u i * s (g i) := by
      unfold WildBoot.wres
      rw [hu]
    rw [hw']
    exact DidFull.resid_unique he2 (orth_resid hX _) he1 ho1
  simp only [hr] at key
  exact key

/-- C151, refutation. "A call that works with analytical inference works with the wild bootstrap" is false: with a redundant column (here a covariate given twice, in
different units) the analytical call returns a result and every wild bootstrap call fails, whatever clusters, weight type and draws. -/
theorem C151_redundant_refuted (L : Lib (Fin 10) ℝ) (hL : Works L) (hP : LinReg.Prunes L) (y : Fin 10 → ℝ) :
    (∃ A, fit L true false (1 / 20) none (DidFull.demo y) none = .ok A) ∧
      ∀ wt (draws : List (ℕ → ℝ)) g, ∃ e, fit L true false (1 / 20) (some (wt, draws)) (DidFull.demo y) (some g) = .error e := by
  constructor
  · obtain ⟨A, hA⟩ := DidFull.demo_runs L hL hP y
    refine ⟨⟨A, none⟩, ?_⟩
    have : DidFull.fit L true false (1 / 20) (clusterBy (DidFull.demo y) none) = .ok A := hA
    unfold fit
    simp only [this]
  · intro wt draws g
    cases hf : fit L true false (1 / 20) (some (wt, draws)) (DidFull.demo y) (some g) with
    | error e => exact ⟨e, rfl⟩
    | ok R =>
      exfalso
      obtain ⟨-, -, q, -⟩ := (C151_runs L hL hP true false (1 / 20) wt draws (DidFull.demo y) g).1 ⟨R, hf⟩
      rw [DidFull.demo_extras] at q
      obtain ⟨-, -, -, -, hγ⟩ := q 0 0 0 0 ![2, -1, 0, 0] fun i => by simp [Fin.sum_univ_four]
      have := hγ 0
      simp at this

/-! ### Instances: the panel with a covariate and unit effects, clusters by unit, two draws -/

noncomputable def wildDemo (y : Fin 10 → ℝ) : Data (Fin 10) ℤ ℝ :=
  ⟨fun i => some (y i), fun i => some (DidFull.level (DidFull.treated i)), fun i => some (DidFull.level (DidFull.period i)), [fun i => some ((i.val : ℝ) ^ 2)], [], [], none⟩

def signs : List (ℤ → ℝ) := [fun a => if a = 0 then 1 else -1, fun a => if a = 0 then -1 else 1]

theorem wildDemo_full (y : Fin 10 → ℝ) : FullRank (flag (wildDemo y).d) (flag (wildDemo y).t) (extras (wildDemo y)) := by
  rw [show flag (wildDemo y).d = DidFull.treated from DidFull.flag_level DidFull.treated, show flag (wildDemo y).t = DidFull.period from DidFull.flag_level DidFull.period,
    show extras (wildDemo y) = [fun i => (i.val : ℝ) ^ 2] from rfl]
  intro a b c e γ h
  have h0 := h 0
  have h1 := h 1
  have h2 := h 2
  have h6 := h 6
  have h8 := h 8
  simp [DidFull.treated, DidFull.period, Did2x2.ind] at h0 h1 h2 h6 h8
  refine ⟨by linarith, by linarith, by linarith, by linarith, fun j => ?_⟩
  have hj : j = 0 := Subsingleton.elim (α := Fin 1) j 0
  subst hj
  linarith

theorem wildDemo_runs (L : Lib (Fin 10) ℝ) (hL : Works L) (hP : LinReg.Prunes L) (y : Fin 10 → ℝ) :
    ∃ R, fit L true false (1 / 20) (some ("rademacher", signs)) (wildDemo y) (some DidFull.unit) = .ok R :=
  (C151_runs L hL hP true false (1 / 20) "rademacher" signs (wildDemo y) DidFull.unit).2
    ⟨⟨fun i => by simp [wildDemo], by simp [wildDemo], DidFull.panel_binary DidFull.treated ⟨6, rfl⟩ ⟨0, rfl⟩,
      DidFull.panel_binary DidFull.period ⟨0, rfl⟩ ⟨2, rfl⟩⟩, by simp [wildDemo], wildDemo_full y, by
        rw [← DidFull.length_extras, show extras (wildDemo y) = [fun i => (i.val : ℝ) ^ 2] from rfl]; simp, Or.inl rfl, by decide, by simp [signs]⟩

/-- Controls, units, order of the rows, names of the clusters, comparison with the analytical call, bounds. -/
example : ∃ L : Lib (Fin 10) ℝ, ∃ R x lo hi, fit L true false (1 / 20) (some ("rademacher", signs)) (wildDemo (fun i => (i.val : ℝ) ^ 3)) (some DidFull.unit) = .ok R ∧
    R.main.att = .fin x ∧ R.main.ci = (.fin lo, .fin hi) ∧ lo ≤ hi ∧ R.boot = some (2, 3) ∧
    (∃ R', fit L true false (1 / 20) (some ("rademacher", signs)) ((wildDemo (fun i => (i.val : ℝ) ^ 3)).withY
        (fun i => ((wildDemo (fun i => (i.val : ℝ) ^ 3)).y i).map (· + DidFull.shift (wildDemo (fun i => (i.val : ℝ) ^ 3)) 1 2 3 4 (fun _ => 5) (fun _ _ => 0) i)))
        (some DidFull.unit) = .ok R' ∧
      R'.main.att = .fin (x + 4) ∧ R'.main.ci = (.fin (lo + 4), .fin (hi + 4)) ∧ R'.main.se = R.main.se) ∧
    (∃ R', fit L true false (1 / 20) (some ("rademacher", signs)) ((wildDemo (fun i => (i.val : ℝ) ^ 3)).withY
        (fun i => ((wildDemo (fun i => (i.val : ℝ) ^ 3)).y i).map (3 * ·))) (some DidFull.unit) = .ok R' ∧
      R'.main.att = .fin (3 * x) ∧ R'.main.ci = (.fin (3 * lo), .fin (3 * hi)) ∧ R'.main.p = R.main.p) ∧
    fit L true false (1 / 20) (some ("rademacher", signs)) ((wildDemo (fun i => (i.val : ℝ) ^ 3)).moved Fin.revPerm) (some (DidFull.unit ∘ Fin.revPerm)) = .ok R := by
  obtain ⟨L, hL, hP⟩ := LinReg.exists_prunes (ι := Fin 10)
  obtain ⟨R, hR⟩ := wildDemo_runs L hL hP (fun i => (i.val : ℝ) ^ 3)
  obtain ⟨-, lo, hi, hci, hle⟩ := C151_range L hL hP true false (1 / 20) (by norm_num) (by norm_num) _ _ _ _ R hR
  obtain ⟨R1, g1, ⟨x, lo1, hi1, a1, a2, a3, a4⟩, g2, -⟩ := C151_controls L hL hP true false (1 / 20) (by norm_num) (by norm_num) _ _ _ _ rfl (by simp [wildDemo]) R hR
    1 2 3 4 (fun _ => 5) (fun _ _ => 0)
  obtain ⟨R2, k1, ⟨x2, lo2, hi2, b1, b2, b3, b4⟩, -, -, -, k2, -⟩ := C151_units L hL hP true false (1 / 20) (by norm_num) (by norm_num) _ _ _ _ R hR 3 (by norm_num)
  rw [hci] at a3 b3
  cases a3
  cases b3
  rw [a1] at b1
  cases b1
  obtain ⟨w, u, x', rs, hp, hRe⟩ := exists_parts hL hP hR
  refine ⟨L, R, x, _, _, hR, a1, hci, hle, ?_, ⟨R1, g1, a2, a4, g2⟩, ⟨R2, k1, b2, b4, k2⟩, C151_row_order L hL hP L hL hP Fin.revPerm true false (1 / 20) _ _ _ _ R hR⟩
  rw [hRe]
  show some (signs.length, (Finset.univ.image DidFull.unit).card) = _
  rw [show (Finset.univ.image DidFull.unit).card = 3 by decide]
  rfl

/-- Other names of the clusters. -/
example : ∃ L : Lib (Fin 10) ℝ, ∃ R, fit L true false (1 / 20) (some ("rademacher", (signs.map (fun s (a : ℤ) => s (a - 100))).map (· ∘ (fun a : ℤ => a + 100))))
      (wildDemo (fun i => (i.val : ℝ) ^ 3)) (some DidFull.unit) = .ok R ∧
    fit L true false (1 / 20) (some ("rademacher", signs.map (fun s (a : ℤ) => s (a - 100)))) (relabel ℤ (wildDemo (fun i => (i.val : ℝ) ^ 3)))
      (some ((fun a : ℤ => a + 100) ∘ DidFull.unit)) = .ok R := by
  obtain ⟨L, hL, hP⟩ := LinReg.exists_prunes (ι := Fin 10)
  obtain ⟨R, hR⟩ := wildDemo_runs L hL hP (fun i => (i.val : ℝ) ^ 3)
  have e : (signs.map (fun s (a : ℤ) => s (a - 100))).map (· ∘ (fun a : ℤ => a + 100)) = signs := by
    rw [List.map_map]
    refine (List.map_congr_left fun s _ => ?_).trans (List.map_id signs)
    funext a
    simp [Function.comp]
  refine ⟨L, R, by rw [e]; exact hR, C151_names L hL hP (fun a : ℤ => a + 100) (fun a b h => by simpa using h) true false (1 / 20) _ _ _ _ R (by rw [e]; exact hR)⟩

/-- The outcome is 0 in every row: p-value 1/3 with two draws, the smallest possible. -/
example : ∃ L : Lib (Fin 10) ℝ, ∃ R, fit L true false (1 / 20) (some ("rademacher", signs)) (wildDemo (fun _ => 0)) (some DidFull.unit) = .ok R ∧
    R.main.att = .fin 0 ∧ R.main.t = .nan ∧ R.main.p = .fin (1 / ((2 : ℕ) + 1)) := by
  obtain ⟨L, hL, hP⟩ := LinReg.exists_prunes (ι := Fin 10)
  obtain ⟨R, hR⟩ := wildDemo_runs L hL hP (fun _ => 0)
  exact ⟨L, R, hR, C151_no_effect_refuted L hL hP true false (1 / 20) _ _ _ _ rfl (by simp [wildDemo]) R hR 0 0 0 (fun _ => 0) (fun _ _ => 0) fun i => by
    simp [DidFull.shift, wildDemo]⟩

/-! ### One row per cluster -/

noncomputable def plainDemo : Data (Fin 10) (Fin 10) ℝ :=
  ⟨fun i => some (i.val : ℝ), fun i => some (DidFull.level (DidFull.treated i)), fun i => some (DidFull.level (DidFull.period i)), [], [], [], none⟩

def pair : List (Fin 10 → ℝ) := [fun i => if i.val < 3 then 1 else -1, fun i => if i.val < 3 then -1 else 1]

/-- Two opposite sign vectors, ten rows in ten clusters: the call returns a finite t statistic, so the bound applies. -/
example : ∃ L : Lib (Fin 10) ℝ, ∃ R t p, fit L true false (1 / 20) (some ("rademacher", pair)) plainDemo (some id) = .ok R ∧ R.main.t = .fin t ∧ R.main.p = .fin p ∧
    ∃ (w u : Fin 10 → ℝ) (x : ℝ) (rs : (Fin 10 → ℝ) → Fin 10 → ℝ), Parts plainDemo id w u x rs ∧
      ((pair.filter (fun s => decide (0 < clusterVar 4 id w (rs s)))).length : ℝ) / (2 * (2 : ℕ)) ≤ p := by
  obtain ⟨L, hL, hP⟩ := LinReg.exists_prunes (ι := Fin 10)
  have hd : flag plainDemo.d = DidFull.treated := DidFull.flag_level DidFull.treated
  have ht : flag plainDemo.t = DidFull.period := DidFull.flag_level DidFull.period
  have hx : extras plainDemo = [] := rfl
  obtain ⟨R, hR⟩ := (C151_runs L hL hP true false (1 / 20) "rademacher" pair plainDemo id).2
    ⟨⟨fun i => by simp [plainDemo], by simp [plainDemo], DidFull.panel_binary DidFull.treated ⟨6, rfl⟩ ⟨0, rfl⟩,
      DidFull.panel_binary DidFull.period ⟨0, rfl⟩ ⟨2, rfl⟩⟩, by simp [plainDemo], by
        rw [hd, ht, hx]
        intro a b c e γ h
        have h0 := h 0
        have h2 := h 2
        have h6 := h 6
        have h8 := h 8
        simp [DidFull.treated, DidFull.period, Did2x2.ind] at h0 h2 h6 h8
        exact ⟨by linarith, by linarith, by linarith, by linarith, fun j => j.elim0⟩, by
        rw [← DidFull.length_extras, hx]; simp, Or.inl rfl, by decide, by simp [pair]⟩
  obtain ⟨w, u, x, rs, hp, hRe⟩ := exists_parts hL hP hR
  have hw : w = ![-1/2, -1/2, 1/4, 1/4, 1/4, 1/4, 1/2, 1/2, -1/2, -1/2] := by
    refine DidFull.weights_unique hp.wc hp.wo ?_ ?_
    · rw [hd, ht, hx]
      refine ⟨7/4, 1/2, -1, -1, fun j => j.elim0, fun i => ?_⟩
      fin_cases i <;> · simp [DidFull.treated, DidFull.period, Did2x2.ind]; try norm_num
    · rw [hd, ht, hx]
      refine ⟨?_, ?_, ?_, ?_, by simp⟩ <;> · simp [Fin.sum_univ_succ, DidFull.treated, DidFull.period, Did2x2.ind]; try norm_num
  have hu : u = ![-1/2, 1/2, -3/2, -1/2, 1/2, 3/2, -1/2, 1/2, -1/2, 1/2] := by
    refine DidFull.resid_unique (x' := 1) hp.uc hp.uo ?_ ?_
    · rw [hd, ht, hx]
      refine ⟨13/2, -6, 2, fun j => j.elim0, fun i => ?_⟩
      show (i.val : ℝ) - _ = _
      fin_cases i <;> · simp [DidFull.treated, DidFull.period, Did2x2.ind]; try norm_num
    · rw [hd, ht, hx]
      refine ⟨?_, ?_, ?_, ?_, by simp⟩ <;> · simp [Fin.sum_univ_succ, DidFull.treated, DidFull.period, Did2x2.ind]; try norm_num
  have hv : 0 < clusterVar (nCoef plainDemo) (id : Fin 10 → Fin 10) w u := by
    rw [show nCoef plainDemo = 4 by rw [← DidFull.length_extras, hx]; rfl, hw, hu]
    unfold clusterVar
    have hi : Finset.univ.image (id : Fin 10 → Fin 10) = Finset.univ := Finset.image_id
    rw [hi, Finset.card_univ, Fintype.card_fin]
    refine mul_pos (by norm_num) ?_
    refine Finset.sum_pos' (fun c _ => sq_nonneg _) ⟨0, Finset.mem_univ _, ?_⟩
    rw [show Finset.univ.filter (fun i : Fin 10 => id i = 0) = {0} by decide, Finset.sum_singleton]
    simp
  have ht' : R.main.t = .fin (x / Real.sqrt (clusterVar (nCoef plainDemo) (id : Fin 10 → Fin 10) w u)) := by
    rw [hRe]
    show tOrigOf _ _ _ _ _ = _
    unfold tOrigOf
    simp only [Ext.div]
    rw [if_neg (Real.sqrt_pos.2 hv).ne']
  obtain ⟨w', u', x', rs', p, h1, h2, h3⟩ := C151_no_power_refuted L hL hP true false (1 / 20) "rademacher" pair plainDemo id rfl rfl Function.injective_id
    (by
      intro s hs c
      simp only [pair, List.mem_cons, List.not_mem_nil, or_false] at hs
      rcases hs with rfl | rfl <;> · simp only; split_ifs <;> simp)
    (by
      have e1 : (-fun i : Fin 10 => if i.val < 3 then (1 : ℝ) else -1) = fun i => if i.val < 3 then -1 else 1 := by
        funext i; simp only [Pi.neg_apply]; split_ifs <;> simp
      have e2 : (-fun i : Fin 10 => if i.val < 3 then (-1 : ℝ) else 1) = fun i => if i.val < 3 then 1 else -1 := by
        funext i; simp only [Pi.neg_apply]; split_ifs <;> simp
      simp only [pair, List.map_cons, List.map_nil, e1, e2]
      exact List.Perm.swap _ _ _) R hR _ ht'
  exact ⟨L, R, _, p, hR, ht', h2, w', u', x', rs', h1, h3⟩

end DiffDiff.WildLin
