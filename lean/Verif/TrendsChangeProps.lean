/-
Outcome changes: invariances of the equivalence test and of the distributional test, telescoping, and the distributional test (C110, C111).
-/
import Verif.TrendsEquivProps

set_option linter.unusedSectionVars false

namespace DiffDiff.Trends

variable {K : Type*} [Field K] [LinearOrder K] [IsStrictOrderedRing K]

/-! ### Changes of transformed rows -/

theorem diffs_map (f : Row K → Row K) (φ : ℤ → ℤ) (ψ : K → K) (hu : ∀ x, (f x).unit = x.unit) (hg : ∀ x, (f x).g = φ x.g)
    (hy : ∀ a b : Row K, a.unit = b.unit → (f a).y.bind (fun u => (f b).y.map (fun v => v - u)) =
      (a.y.bind (fun u => b.y.map (fun v => v - u))).map ψ) (l : List (Row K)) :
    diffs (l.map f) = (diffs l).map (fun d => (φ d.1, ψ d.2)) := by
  induction l with
  | nil => rfl
  | cons a l ih =>
    cases l with
    | nil => rfl
    | cons b l =>
      simp only [List.map_cons, diffs] at ih ⊢
      rw [ih, List.map_append]
      congr 1
      rw [hu, hu]
      by_cases h : a.unit = b.unit
      · rw [if_pos h, if_pos h, hg]
        have := hy a b h
        cases ha : a.y with
        | none =>
          rw [ha] at this
          cases hfa : (f a).y with
          | none => rfl
          | some u =>
            rw [hfa] at this
            cases hfb : (f b).y with
            | none => simp
            | some v => rw [hfb] at this; simp at this
        | some u =>
          rw [ha] at this
          cases hb : b.y with
          | none =>
            rw [hb] at this
            cases hfa : (f a).y with
            | none => simp
            | some u' =>
              rw [hfa] at this
              cases hfb : (f b).y with
              | none => simp
              | some v => rw [hfb] at this; simp at this
          | some v =>
            rw [hb] at this
            cases hfa : (f a).y with
            | none => rw [hfa] at this; simp at this
            | some u' =>
              rw [hfa] at this
              cases hfb : (f b).y with
              | none => rw [hfb] at this; simp at this
              | some v' =>
                rw [hfb] at this
                simp at this
                simp [this]
      · rw [if_neg h, if_neg h]
        rfl

theorem sort_map (f : Row K → Row K) (hu : ∀ x, (f x).unit = x.unit) (ht : ∀ x, (f x).time = x.time) (l : List (Row K)) :
    (l.map f).insertionSort rowLe = (l.insertionSort rowLe).map f := by
  symm
  apply List.map_insertionSort
  intro a _ b _
  simp only [rowLe, hu, ht]

theorem unitChanges_map (f : Row K → Row K) (φ : ℤ → ℤ) (ψ : K → K) (hu : ∀ x, (f x).unit = x.unit) (ht : ∀ x, (f x).time = x.time)
    (hg : ∀ x, (f x).g = φ x.g) (hφ : Function.Injective φ)
    (hy : ∀ a b : Row K, a.unit = b.unit → (f a).y.bind (fun u => (f b).y.map (fun v => v - u)) =
      (a.y.bind (fun u => b.y.map (fun v => v - u))).map ψ) (l : List (Row K)) (g : ℤ) :
    unitChanges (l.map f) (φ g) = (unitChanges l g).map ψ := by
  simp only [unitChanges]
  rw [sort_map f hu ht, diffs_map f φ ψ hu hg hy, List.filter_map, List.map_map, List.map_map]
  have : (fun d : ℤ × K => decide (d.1 = φ g)) ∘ (fun d : ℤ × K => (φ d.1, ψ d.2)) = fun d : ℤ × K => decide (d.1 = g) := by
    funext d
    simp only [Function.comp, decide_eq_decide]
    exact hφ.eq_iff
  rw [this]
  rfl

/-- C110, C111: with a unit column, adding to each unit's outcomes a constant of its own changes neither test. -/
theorem C110_unit_levels (rows : List (Row K)) (a : ℕ → K) (pre : Option (List K)) :
    (∀ r sf cdf m, equivalenceTest (K := K) r sf cdf (rows.map (fun x => { x with y := x.y.map (· + a x.unit) })) true pre m =
      equivalenceTest r sf cdf rows true pre m) ∧
    (∀ r wd perms thr, robustTest (K := K) r wd perms thr (rows.map (fun x => { x with y := x.y.map (· + a x.unit) })) true pre =
      robustTest r wd perms thr rows true pre) := by
  have h : ∀ g, changes (preRows (rows.map (fun x => { x with y := x.y.map (· + a x.unit) })) pre) true g =
      changes (preRows rows pre) true g := by
    intro g
    rw [preRows_map (fun x : Row K => { x with y := x.y.map (· + a x.unit) }) (fun x => rfl)]
    simp only [changes, if_true]
    have := unitChanges_map (fun x : Row K => { x with y := x.y.map (· + a x.unit) }) id id (fun x => rfl) (fun x => rfl) (fun x => rfl)
      Function.injective_id ?_ (preRows rows pre) g
    · simpa using this
    · intro p q hpq
      cases hp : p.y <;> cases hq : q.y <;> simp [hp, hq, hpq]
  constructor
  · intros; simp only [equivalenceTest, h]
  · intros; simp only [robustTest, h]

theorem periodsOf_map (f : Row K → Row K) (φ : ℤ → ℤ) (ht : ∀ x, (f x).time = x.time)
    (hg : ∀ x, (f x).g = φ x.g) (hφ : Function.Injective φ) (l : List (Row K)) (g : ℤ) :
    groupRows (l.map f) (φ g) = (groupRows l g).map f ∧ periodsOf (l.map f) (φ g) = periodsOf l g := by
  have h1 : groupRows (l.map f) (φ g) = (groupRows l g).map f := by
    simp only [groupRows, List.filter_map]
    congr 1
    apply List.filter_congr
    intro x _
    simp only [Function.comp, hg, decide_eq_decide]
    exact hφ.eq_iff
  refine ⟨h1, ?_⟩
  simp only [periodsOf, h1, List.map_map]
  congr 2
  exact List.map_congr_left (fun x _ => ht x)

theorem filterMap_scale (f : Row K → Row K) (k c : K) (l : List (Row K)) (hy : ∀ x ∈ l, (f x).y = x.y.map (fun v => k * v + c)) :
    (l.map f).filterMap Row.y = (l.filterMap Row.y).map (fun v => k * v + c) := by
  induction l with
  | nil => rfl
  | cons a l ih =>
    have ha := hy a (by simp)
    have ih := ih (fun x hx => hy x (List.mem_cons_of_mem _ hx))
    rw [List.map_cons, List.filterMap_cons, List.filterMap_cons, ha]
    cases a.y with
    | none => simpa using ih
    | some v => simp [ih]

theorem periodMean_map (f : Row K → Row K) (φ : ℤ → ℤ) (k c : K) (ht : ∀ x, (f x).time = x.time) (hg : ∀ x, (f x).g = φ x.g)
    (hφ : Function.Injective φ) (l : List (Row K)) (g : ℤ) (hy : ∀ x ∈ l, x.g = g → (f x).y = x.y.map (fun v => k * v + c)) (t : K)
    (hobs : ((groupRows l g).filter (fun x => decide (x.time = t))).filterMap Row.y ≠ [] ∨ c = 0) :
    periodMean (l.map f) (φ g) t = k * periodMean l g t + c := by
  simp only [periodMean]
  rw [(periodsOf_map f φ ht hg hφ l g).1, List.filter_map]
  have : ((fun x : Row K => decide (x.time = t)) ∘ f) = fun x => decide (x.time = t) := by
    funext x
    simp [ht]
  rw [this, filterMap_scale f k c]
  · by_cases hne : ((groupRows l g).filter (fun x => decide (x.time = t))).filterMap Row.y = []
    · rw [hne]
      rcases hobs with h | h
      · exact absurd hne h
      · simp [mean, h]
    · have := mean_affine hne (fun x : K => x) k c
      simpa using this
  · intro x hx
    have hx' := (List.mem_filter.mp hx).1
    have hx2 := List.mem_filter.mp hx'
    exact hy x hx2.1 (by simpa using hx2.2)

theorem npDiff_affine (l : List K) (k c : K) : npDiff (l.map (fun x => k * x + c)) = (npDiff l).map (fun x => k * x) := by
  induction l with
  | nil => rfl
  | cons a l ih =>
    cases l with
    | nil => rfl
    | cons b l =>
      simp only [List.map_cons, npDiff] at ih ⊢
      rw [ih]
      congr 1
      ring

/-- Every period in which a group has rows has an observed outcome of the group. -/
def Observed (rows : List (Row K)) : Prop :=
  ∀ x ∈ rows, ∃ z ∈ rows, z.g = x.g ∧ z.time = x.time ∧ z.y.isSome

theorem observed_ne {rows : List (Row K)} (h : Observed rows) (g : ℤ) {t : K} (ht : t ∈ periodsOf rows g) :
    ((groupRows rows g).filter (fun x => decide (x.time = t))).filterMap Row.y ≠ [] := by
  have ht' : t ∈ (groupRows rows g).map Row.time := by
    have := (List.mem_insertionSort (· ≤ ·)).mp ht
    exact List.mem_dedup.mp this
  obtain ⟨x, hx, rfl⟩ := List.mem_map.mp ht'
  have hx2 := List.mem_filter.mp hx
  obtain ⟨z, hz, hzg, hzt, hzy⟩ := h x hx2.1
  obtain ⟨v, hv⟩ := Option.isSome_iff_exists.mp hzy
  have hxg : x.g = g := by simpa using hx2.2
  intro hc
  have : v ∈ ((groupRows rows g).filter (fun w => decide (w.time = x.time))).filterMap Row.y := by
    rw [List.mem_filterMap]
    refine ⟨z, ?_, hv⟩
    rw [List.mem_filter]
    refine ⟨List.mem_filter.mpr ⟨hz, ?_⟩, ?_⟩
    · simp [hzg, hxg]
    · simp [hzt]
  rw [hc] at this
  cases this

theorem observed_pre {rows : List (Row K)} (h : Observed rows) (pre : Option (List K)) : Observed (preRows rows pre) := by
  intro x hx
  have hx2 := List.mem_filter.mp hx
  obtain ⟨z, hz, hzg, hzt, hzy⟩ := h x hx2.1
  refine ⟨z, List.mem_filter.mpr ⟨hz, ?_⟩, hzg, hzt, hzy⟩
  rw [hzt]
  exact hx2.2

theorem aggChanges_affine (f : Row K → Row K) (φ : ℤ → ℤ) (k c : K) (ht : ∀ x, (f x).time = x.time) (hg : ∀ x, (f x).g = φ x.g)
    (hφ : Function.Injective φ) (l : List (Row K)) (hobs : Observed l ∨ c = 0) (g : ℤ)
    (hy : ∀ x ∈ l, x.g = g → (f x).y = x.y.map (fun v => k * v + c)) :
    aggChanges (l.map f) (φ g) = (aggChanges l g).map (fun x => k * x) := by
  simp only [aggChanges]
  rw [(periodsOf_map f φ ht hg hφ l g).2, ← npDiff_affine _ k c, List.map_map]
  congr 1
  apply List.map_congr_left
  intro t htm
  simp only [Function.comp]
  apply periodMean_map f φ k c ht hg hφ l g hy t
  rcases hobs with h | h
  · exact Or.inl (observed_ne h g htm)
  · exact Or.inr h

/-- C110, C111: without a unit column, adding a constant to each group's outcomes changes neither test (every period of a group having an
observed outcome). -/
theorem C110_group_levels (rows : List (Row K)) (hobs : Observed rows) (a : ℤ → K) (pre : Option (List K)) :
    (∀ r sf cdf m, equivalenceTest (K := K) r sf cdf (rows.map (fun x => { x with y := x.y.map (· + a x.g) })) false pre m =
      equivalenceTest r sf cdf rows false pre m) ∧
    (∀ r wd perms thr, robustTest (K := K) r wd perms thr (rows.map (fun x => { x with y := x.y.map (· + a x.g) })) false pre =
      robustTest r wd perms thr rows false pre) := by
  have h : ∀ g, changes (preRows (rows.map (fun x => { x with y := x.y.map (· + a x.g) })) pre) false g =
      changes (preRows rows pre) false g := by
    intro g
    rw [preRows_map (fun x : Row K => { x with y := x.y.map (· + a x.g) }) (fun x => rfl)]
    simp only [changes, Bool.false_eq_true, if_false]
    have := aggChanges_affine (fun x : Row K => { x with y := x.y.map (· + a x.g) }) id 1 (a g) (fun x => rfl) (fun x => rfl)
      Function.injective_id (preRows rows pre) (Or.inl (observed_pre hobs pre)) g ?_
    · simpa using this
    · intro x _ hxg
      simp [hxg]
  constructor
  · intros; simp only [equivalenceTest, h]
  · intros; simp only [robustTest, h]

theorem changes_scale (rows : List (Row K)) (k : K) (byUnit : Bool) (g : ℤ) :
    changes (rows.map (fun x => { x with y := x.y.map (k * ·) })) byUnit g = (changes rows byUnit g).map (fun v => k * v) := by
  cases byUnit
  · simp only [changes, Bool.false_eq_true, if_false]
    exact aggChanges_affine (fun x : Row K => { x with y := x.y.map (k * ·) }) id k 0 (fun x => rfl) (fun x => rfl)
      Function.injective_id rows (Or.inr rfl) g (fun x _ _ => by simp)
  · simp only [changes, if_true]
    refine unitChanges_map (fun x : Row K => { x with y := x.y.map (k * ·) }) id (k * ·) (fun x => rfl) (fun x => rfl) (fun x => rfl)
      Function.injective_id ?_ rows g
    intro p q hpq
    cases hp : p.y <;> cases hq : q.y <;> simp [hp, hq, mul_sub]

theorem changes_swap (rows : List (Row K)) (byUnit : Bool) (g : ℤ) :
    changes (rows.map (fun x => { x with g := 1 - x.g })) byUnit (1 - g) = changes rows byUnit g := by
  have hinj : Function.Injective (fun g : ℤ => 1 - g) := fun a b h => by simpa using h
  cases byUnit
  · simp only [changes, Bool.false_eq_true, if_false]
    have := aggChanges_affine (fun x : Row K => { x with g := 1 - x.g }) (fun g => 1 - g) 1 0 (fun x => rfl) (fun x => rfl)
      hinj rows (Or.inr rfl) g (fun x _ _ => by simp)
    simpa using this
  · simp only [changes, if_true]
    have := unitChanges_map (fun x : Row K => { x with g := 1 - x.g }) (fun g => 1 - g) id (fun x => rfl) (fun x => rfl) (fun x => rfl)
      hinj (fun p q hpq => by cases hp : p.y <;> cases hq : q.y <;> simp) rows g
    simpa using this

/-! ### Scale and exchange for the equivalence test -/

theorem testable_scale {k : K} (hk : k ≠ 0) (u v : List K) :
    Testable (u.map (fun x => k * x)) (v.map (fun x => k * x)) ↔ Testable u v := by
  have : ∀ w : List K, (∃ x ∈ w.map (fun x => k * x), ∃ y ∈ w.map (fun x => k * x), x ≠ y) ↔ ∃ x ∈ w, ∃ y ∈ w, x ≠ y := by
    intro w
    constructor
    · rintro ⟨x, hx, y, hy, hne⟩
      obtain ⟨x', hx', rfl⟩ := List.mem_map.mp hx
      obtain ⟨y', hy', rfl⟩ := List.mem_map.mp hy
      exact ⟨x', hx', y', hy', fun h => hne (by rw [h])⟩
    · rintro ⟨x, hx, y, hy, hne⟩
      exact ⟨_, List.mem_map_of_mem hx, _, List.mem_map_of_mem hy, fun h => hne (mul_left_cancel₀ hk h)⟩
  unfold Testable
  rw [this, this, List.length_map, List.length_map]

theorem mean_scale (l : List K) (k : K) : mean (l.map (fun x => k * x)) = k * mean l := by
  by_cases h : l = []
  · subst h; simp [mean]
  · have := mean_affine h (fun x : K => x) k 0
    simpa using this

theorem var1_scale (l : List K) (k : K) : var1 (l.map (fun x => k * x)) = k ^ 2 * var1 l := by
  have := var1_affine l k 0
  simpa using this

theorem welch_scale {k : K} (hk : k ≠ 0) (vt vc : K) (nt nc : ℕ) : welch (k ^ 2 * vt) (k ^ 2 * vc) nt nc = welch vt vc nt nc := by
  have hk2 : 0 < k ^ 2 := by positivity
  have hp : ∀ v : K, 0 < k ^ 2 * v ↔ 0 < v := fun v => by
    exact mul_pos_iff_of_pos_left hk2
  have e : ∀ (v : K) (n : ℕ), (if 0 < k ^ 2 * v then (k ^ 2 * v / n) ^ 2 / ((n : K) - 1) else 0) =
      (k ^ 2) ^ 2 * (if 0 < v then (v / n) ^ 2 / ((n : K) - 1) else 0) := by
    intro v n
    simp only [hp]
    by_cases h : 0 < v
    · rw [if_pos h, if_pos h, mul_div_assoc, mul_pow, mul_div_assoc]
    · rw [if_neg h, if_neg h, mul_zero]
  simp only [welch, e]
  generalize (if 0 < vt then (vt / (nt : K)) ^ 2 / ((nt : K) - 1) else 0) = A
  generalize (if 0 < vc then (vc / (nc : K)) ^ 2 / ((nc : K) - 1) else 0) = B
  have h4 : (k ^ 2) ^ 2 ≠ 0 := by positivity
  by_cases h : A + B = 0
  · rw [if_pos h, if_pos (by rw [← mul_add, h, mul_zero])]
  · rw [if_neg h, if_neg (by rw [← mul_add]; exact mul_ne_zero h4 h)]
    rw [← mul_add, mul_div_assoc, mul_div_assoc, ← mul_add, mul_pow, mul_div_mul_left _ _ h4]

/-- C110: measuring the outcome in another unit (`k > 0`), with the margin converted alike or left at its default, changes the differences
and margin by the factor `k` and leaves statistics, p-values, degrees of freedom and verdict alone. -/
theorem C110_scale (r : K → K) (hr : IsSqrt r) (sf cdf : K → K → K) (rows : List (Row K)) (byUnit : Bool) (pre : Option (List K))
    (margin : Option K) {k : K} (hk : 0 < k) :
    let R := equivalenceTest r sf cdf rows byUnit pre margin
    let R' := equivalenceTest r sf cdf (rows.map (fun x => { x with y := x.y.map (k * ·) })) byUnit pre (margin.map (k * ·))
    R'.diff = R.diff.map (k * ·) ∧ R'.se = R.se.map (k * ·) ∧ R'.margin = R.margin.map (k * ·) ∧ R'.tLower = R.tLower ∧
      R'.tUpper = R.tUpper ∧ R'.pLower = R.pLower ∧ R'.pUpper = R.pUpper ∧ R'.p = R.p ∧ R'.df = R.df ∧ R'.equivalent = R.equivalent := by
  intro R R'
  set u := changes (preRows rows pre) byUnit 1 with hu
  set v := changes (preRows rows pre) byUnit 0 with hv
  have hR' : R' = tost r sf cdf (u.map (fun x => k * x)) (v.map (fun x => k * x)) (margin.map (k * ·)) := by
    show equivalenceTest _ _ _ _ _ _ _ = _
    unfold equivalenceTest
    rw [preRows_map (fun x : Row K => { x with y := x.y.map (k * ·) }) (fun x => rfl), changes_scale, changes_scale]
  have hR : R = tost r sf cdf u v margin := rfl
  rw [hR', hR]
  by_cases ht : Testable u v
  · have ht' := (testable_scale hk.ne' u v).mpr ht
    rw [tost_ok hr sf cdf ht, tost_ok hr sf cdf ht']
    have hse : r (se2 (u.map (fun x => k * x)) (v.map (fun x => k * x))) = k * r (se2 u v) := by
      rw [← hr.scale (se2_nonneg u v) hk.le]
      congr 1
      simp only [se2, var1_scale, List.length_map]
      ring
    have hm : (margin.map (k * ·)).getD (1 / 2 * r (var1 (u.map (fun x => k * x) ++ v.map (fun x => k * x)))) =
        k * margin.getD (1 / 2 * r (var1 (u ++ v))) := by
      cases margin with
      | some m => rfl
      | none =>
        simp only [Option.map_none, Option.getD_none]
        rw [← List.map_append, var1_scale, hr.scale (var1_nonneg _) hk.le]
        ring
    generalize margin.getD (1 / 2 * r (var1 (u ++ v))) = m at hm ⊢
    have hd : mean (u.map (fun x => k * x)) - mean (v.map (fun x => k * x)) = k * (mean u - mean v) := by
      rw [mean_scale, mean_scale]; ring
    have t1 : (k * (mean u - mean v) + k * m) / (k * r (se2 u v)) = (mean u - mean v + m) / r (se2 u v) := by
      rw [← mul_add, mul_div_mul_left _ _ hk.ne']
    have t2 : (k * (mean u - mean v) - k * m) / (k * r (se2 u v)) = (mean u - mean v - m) / r (se2 u v) := by
      rw [← mul_sub, mul_div_mul_left _ _ hk.ne']
    simp only [tostOk, hm, hd, hse, t1, t2, var1_scale, welch_scale hk.ne', List.length_map, Option.map_some, and_self]
  · have ht' := fun h => ht ((testable_scale hk.ne' u v).mp h)
    unfold tost
    have e1 : (u.map (fun x => k * x)).length = u.length := List.length_map _
    have e2 : (v.map (fun x => k * x)).length = v.length := List.length_map _
    rw [e1, e2]
    by_cases hl : u.length < 2 ∨ v.length < 2
    · rw [if_pos hl, if_pos hl]
      simp
    · rw [if_neg hl, if_neg hl]
      have h1 : 2 ≤ u.length := by omega
      have h2 : 2 ≤ v.length := by omega
      have hz : var1 u = 0 ∧ var1 v = 0 := by
        by_contra hc
        exact ht ((testable_iff h1 h2).mpr hc)
      have hz' : var1 (u.map (fun x => k * x)) = 0 ∧ var1 (v.map (fun x => k * x)) = 0 := by
        rw [var1_scale, var1_scale, hz.1, hz.2]; simp
      rw [if_pos hz, if_pos hz', mean_scale, mean_scale]
      simp [mul_sub]

theorem welch_comm (vt vc : K) (nt nc : ℕ) : welch vc vt nc nt = welch vt vc nt nc := by
  simp only [welch]
  rw [add_comm (if 0 < vc then _ else _), min_comm, add_comm (vc / _)]

theorem testable_comm (u v : List K) : Testable v u ↔ Testable u v := by
  unfold Testable
  constructor <;> rintro ⟨h1, h2, h3⟩ <;> exact ⟨h2, h1, h3.symm⟩

/-- C110: exchanging the groups negates the difference, exchanges the two one-sided tests, and leaves p-value, degrees of freedom and
verdict alone. -/
theorem C110_swap (r : K → K) (hr : IsSqrt r) {sf cdf : K → K → K} (hT : TDist sf cdf) (rows : List (Row K)) (byUnit : Bool)
    (pre : Option (List K)) (margin : Option K) :
    let R := equivalenceTest r sf cdf rows byUnit pre margin
    let R' := equivalenceTest r sf cdf (rows.map (fun x => { x with g := 1 - x.g })) byUnit pre margin
    R'.diff = R.diff.map (- ·) ∧ R'.se = R.se ∧ R'.margin = R.margin ∧ R'.tLower = R.tUpper.map (- ·) ∧ R'.tUpper = R.tLower.map (- ·) ∧
      R'.pLower = R.pUpper ∧ R'.pUpper = R.pLower ∧ R'.p = R.p ∧ R'.df = R.df ∧ R'.equivalent = R.equivalent := by
  intro R R'
  set u := changes (preRows rows pre) byUnit 1 with hu
  set v := changes (preRows rows pre) byUnit 0 with hv
  have hR' : R' = tost r sf cdf v u margin := by
    show equivalenceTest _ _ _ _ _ _ _ = _
    unfold equivalenceTest
    rw [preRows_map (fun x : Row K => { x with g := 1 - x.g }) (fun x => rfl)]
    have c1 := changes_swap (preRows rows pre) byUnit 0
    have c0 := changes_swap (preRows rows pre) byUnit 1
    norm_num at c1 c0
    rw [c1, c0]
  have hR : R = tost r sf cdf u v margin := rfl
  rw [hR', hR]
  by_cases ht : Testable u v
  · have ht' := (testable_comm u v).mpr ht
    rw [tost_ok hr sf cdf ht, tost_ok hr sf cdf ht']
    have hm : var1 (v ++ u) = var1 (u ++ v) := var1_perm List.perm_append_comm
    rw [hm]
    generalize margin.getD (1 / 2 * r (var1 (u ++ v))) = m
    have hν := welch_pos ht
    have hse : se2 v u = se2 u v := by simp only [se2]; rw [add_comm]
    have t1 : (mean v - mean u + m) / r (se2 u v) = -((mean u - mean v - m) / r (se2 u v)) := by rw [← neg_div]; congr 1; ring
    have t2 : (mean v - mean u - m) / r (se2 u v) = -((mean u - mean v + m) / r (se2 u v)) := by rw [← neg_div]; congr 1; ring
    have q1 : sf (-((mean u - mean v - m) / r (se2 u v))) (welch (var1 u) (var1 v) u.length v.length) =
        cdf ((mean u - mean v - m) / r (se2 u v)) (welch (var1 u) (var1 v) u.length v.length) := (hT.mirror _ hν _).symm
    have q2 : cdf (-((mean u - mean v + m) / r (se2 u v))) (welch (var1 u) (var1 v) u.length v.length) =
        sf ((mean u - mean v + m) / r (se2 u v)) (welch (var1 u) (var1 v) u.length v.length) := by
      rw [hT.mirror _ hν, neg_neg]
    have hw := welch_comm (var1 u) (var1 v) u.length v.length
    have hmax := max_comm (sf ((mean u - mean v + m) / r (se2 u v)) (welch (var1 u) (var1 v) u.length v.length))
      (cdf ((mean u - mean v - m) / r (se2 u v)) (welch (var1 u) (var1 v) u.length v.length))
    simp only [tostOk, hse, t1, t2, hw, q1, q2, Option.map_some, neg_sub, hmax, and_self]
  · have ht' := fun h => ht ((testable_comm u v).mp h)
    unfold tost
    by_cases hl : u.length < 2 ∨ v.length < 2
    · rw [if_pos hl, if_pos hl.symm]
      simp
    · have hl' : ¬(v.length < 2 ∨ u.length < 2) := fun h => hl h.symm
      rw [if_neg hl, if_neg hl']
      have h1 : 2 ≤ u.length := by omega
      have h2 : 2 ≤ v.length := by omega
      have hz : var1 u = 0 ∧ var1 v = 0 := by
        by_contra hc
        exact ht ((testable_iff h1 h2).mpr hc)
      rw [if_pos hz, if_pos hz.symm]
      simp

/-! ### Telescoping -/

theorem npDiff_sum (a : K) (l : List K) : (npDiff (a :: l)).sum = (a :: l).getLast (by simp) - a := by
  induction l generalizing a with
  | nil => simp [npDiff]
  | cons b l ih =>
    have hl : (a :: b :: l).getLast (by simp) = (b :: l).getLast (by simp) := List.getLast_cons (by simp)
    rw [npDiff, List.sum_cons, ih b, hl]
    ring

theorem npDiff_length (l : List K) : (npDiff l).length = l.length - 1 := by
  induction l with
  | nil => rfl
  | cons a l ih =>
    cases l with
    | nil => rfl
    | cons b l =>
      simp only [npDiff, List.length_cons] at ih ⊢
      omega

theorem sorted_ends {l : List K} (h : l.Pairwise (· ≤ ·)) (hne : l ≠ []) {lo hi : K} (hlo : lo ∈ l ∧ ∀ x ∈ l, lo ≤ x)
    (hhi : hi ∈ l ∧ ∀ x ∈ l, x ≤ hi) : l.head hne = lo ∧ l.getLast hne = hi := by
  constructor
  · match l, hne with
    | a :: l, _ =>
      simp only [List.head_cons]
      apply le_antisymm
      · rcases List.mem_cons.mp hlo.1 with h1 | h1
        · exact h1.ge
        · exact (List.pairwise_cons.mp h).1 lo h1
      · exact hlo.2 a (by simp)
  · apply le_antisymm
    · exact hhi.2 _ (List.getLast_mem hne)
    · have : ∀ (l : List K) (hne : l ≠ []), l.Pairwise (· ≤ ·) → ∀ x ∈ l, x ≤ l.getLast hne := by
        intro l
        induction l with
        | nil => intro hne; exact absurd rfl hne
        | cons a l ih =>
          intro hne hs x hx
          cases l with
          | nil => simp at hx; simp [hx]
          | cons b l =>
            rw [List.getLast_cons (by simp)]
            obtain ⟨h1, h2⟩ := List.pairwise_cons.mp hs
            rcases List.mem_cons.mp hx with rfl | hx
            · exact le_trans (h1 b (by simp)) (ih (by simp) h2 b (by simp))
            · exact ih (by simp) h2 x hx
      exact this l hne h hi hhi.1

theorem aggChanges_mean (rows : List (Row K)) (g : ℤ) (lo hi : K) (hlo : (∃ x ∈ rows, x.g = g ∧ x.time = lo) ∧ ∀ x ∈ rows, x.g = g → lo ≤ x.time)
    (hhi : (∃ x ∈ rows, x.g = g ∧ x.time = hi) ∧ ∀ x ∈ rows, x.g = g → x.time ≤ hi) :
    (aggChanges rows g).sum = periodMean rows g hi - periodMean rows g lo ∧
      (aggChanges rows g).length + 1 = ((groupRows rows g).map Row.time).toFinset.card := by
  have hmem : ∀ t, t ∈ periodsOf rows g ↔ ∃ x ∈ rows, x.g = g ∧ x.time = t := by
    intro t
    simp only [periodsOf, List.mem_insertionSort, List.mem_dedup, List.mem_map, groupRows, List.mem_filter, decide_eq_true_eq]
    constructor
    · rintro ⟨x, ⟨h1, h2⟩, h3⟩; exact ⟨x, h1, h2, h3⟩
    · rintro ⟨x, h1, h2, h3⟩; exact ⟨x, ⟨h1, h2⟩, h3⟩
  have hsort : (periodsOf rows g).Pairwise (· ≤ ·) := List.pairwise_insertionSort _ _
  have hlen : (periodsOf rows g).length = ((groupRows rows g).map Row.time).toFinset.card := by
    rw [periodsOf, List.length_insertionSort, List.card_toFinset]
  have hne : periodsOf rows g ≠ [] := List.ne_nil_of_mem ((hmem lo).mpr hlo.1)
  have hends := sorted_ends hsort hne (lo := lo) (hi := hi)
    ⟨(hmem lo).mpr hlo.1, fun t ht => by
      obtain ⟨x, h1, h2, rfl⟩ := (hmem t).mp ht
      exact hlo.2 x h1 h2⟩
    ⟨(hmem hi).mpr hhi.1, fun t ht => by
      obtain ⟨x, h1, h2, rfl⟩ := (hmem t).mp ht
      exact hhi.2 x h1 h2⟩
  rw [← hlen]
  unfold aggChanges
  generalize periodsOf rows g = p at hne hends ⊢
  match p, hne with
  | a :: l, _ =>
    simp only [List.head_cons] at hends
    constructor
    · rw [List.map_cons, npDiff_sum]
      have : (periodMean rows g a :: l.map (periodMean rows g)).getLast (by simp) = periodMean rows g ((a :: l).getLast (by simp)) := by
        rw [← List.getLast_map (f := periodMean rows g) (h := by simp)]
        rfl
      rw [this, hends.2, ← hends.1]
    · rw [npDiff_length]
      simp

/-- C110: without a unit column the reported mean difference is the difference between the groups of (mean outcome in the last
pre-treatment period minus mean outcome in the first) over the number of periods minus one: the periods in between have no influence. -/
theorem C110_endpoints (r : K → K) (sf cdf : K → K → K) (rows : List (Row K)) (P : List K) (margin : Option K) {d : K}
    (h : (equivalenceTest r sf cdf rows false (some P) margin).diff = some d) (lo hi : ℤ → K)
    (hlo : ∀ g, g = 0 ∨ g = 1 → (∃ x ∈ inPre rows P g, x.time = lo g) ∧ ∀ x ∈ inPre rows P g, lo g ≤ x.time)
    (hhi : ∀ g, g = 0 ∨ g = 1 → (∃ x ∈ inPre rows P g, x.time = hi g) ∧ ∀ x ∈ inPre rows P g, x.time ≤ hi g) :
    let avg := fun (g : ℤ) (t : K) => mean (((inPre rows P g).filter (fun x => decide (x.time = t))).filterMap Row.y)
    let n := fun (g : ℤ) => (((inPre rows P g).map Row.time).toFinset.card : K)
    d = (avg 1 (hi 1) - avg 1 (lo 1)) / (n 1 - 1) - (avg 0 (hi 0) - avg 0 (lo 0)) / (n 0 - 1) := by
  intro avg n
  have key : ∀ g, g = 0 ∨ g = 1 → mean (changes (preRows rows (some P)) false g) = (avg g (hi g) - avg g (lo g)) / (n g - 1) := by
    intro g hg
    have hin : ∀ x, x ∈ inPre rows P g ↔ x ∈ preRows rows (some P) ∧ x.g = g := by
      intro x
      rw [← groupRows_pre]
      simp [groupRows]
    have := aggChanges_mean (preRows rows (some P)) g (lo g) (hi g)
      ⟨by obtain ⟨x, h1, h2⟩ := (hlo g hg).1; exact ⟨x, ((hin x).mp h1).1, ((hin x).mp h1).2, h2⟩,
        fun x h1 h2 => (hlo g hg).2 x ((hin x).mpr ⟨h1, h2⟩)⟩
      ⟨by obtain ⟨x, h1, h2⟩ := (hhi g hg).1; exact ⟨x, ((hin x).mp h1).1, ((hin x).mp h1).2, h2⟩,
        fun x h1 h2 => (hhi g hg).2 x ((hin x).mpr ⟨h1, h2⟩)⟩
    have hpm : ∀ t, periodMean (preRows rows (some P)) g t = avg g t := by
      intro t
      simp only [periodMean, groupRows_pre]
      rfl
    rw [groupRows_pre] at this
    simp only [changes, Bool.false_eq_true, if_false, mean]
    rw [this.1, hpm, hpm]
    congr 1
    have h2 : ((aggChanges (preRows rows (some P)) g).length : K) + 1 = n g := by
      show _ = (((inPre rows P g).map Row.time).toFinset.card : K)
      exact_mod_cast this.2
    linarith
  unfold equivalenceTest at h
  have hd : d = mean (changes (preRows rows (some P)) false 1) - mean (changes (preRows rows (some P)) false 0) := by
    unfold tost at h
    split_ifs at h <;> simp at h <;> exact h.symm
  rw [hd, key 1 (Or.inr rfl), key 0 (Or.inl rfl)]

/-! ### Which changes enter -/

theorem mem_diffs (l : List (Row K)) (g : ℤ) (v : K) : (g, v) ∈ diffs l ↔
    ∃ l1 a b l2, l = l1 ++ a :: b :: l2 ∧ a.unit = b.unit ∧ b.g = g ∧ ∃ u w, a.y = some u ∧ b.y = some w ∧ v = w - u := by
  induction l with
  | nil => simp [diffs]
  | cons x l ih =>
    cases l with
    | nil =>
      simp only [diffs, List.not_mem_nil, false_iff]
      rintro ⟨l1, a, b, l2, h, _⟩
      have := congrArg List.length h
      simp at this
      omega
    | cons y l =>
      simp only [diffs, List.mem_append]
      rw [ih]
      constructor
      · rintro (h | ⟨l1, a, b, l2, h, hr⟩)
        · split_ifs at h with hu
          · refine ⟨[], x, y, l, rfl, hu, ?_⟩
            cases hx : x.y with
            | none => simp [hx] at h
            | some u =>
              cases hy : y.y with
              | none => simp [hx, hy] at h
              | some w =>
                simp [hx, hy] at h
                exact ⟨h.1.symm, u, w, rfl, rfl, h.2⟩
          · simp at h
        · exact ⟨x :: l1, a, b, l2, by rw [h]; rfl, hr⟩
      · rintro ⟨l1, a, b, l2, h, hu, hg, u, w, ha, hb, hv⟩
        cases l1 with
        | nil =>
          simp only [List.nil_append, List.cons.injEq] at h
          obtain ⟨rfl, rfl, rfl⟩ := h
          left
          rw [if_pos hu]
          simp [ha, hb, hg, hv]
        | cons c l1 =>
          simp only [List.cons_append, List.cons.injEq] at h
          exact Or.inr ⟨l1, a, b, l2, h.2, hu, hg, u, w, ha, hb, hv⟩

theorem rowLe_total (a b : Row K) : rowLe a b ∨ rowLe b a := by
  unfold rowLe
  rcases lt_trichotomy a.unit b.unit with h | h | h
  · exact Or.inl (Or.inl h)
  · rcases le_total a.time b.time with h' | h'
    · exact Or.inl (Or.inr ⟨h, h'⟩)
    · exact Or.inr (Or.inr ⟨h.symm, h'⟩)
  · exact Or.inr (Or.inl h)

theorem rowLe_trans (a b c : Row K) (h1 : rowLe a b) (h2 : rowLe b c) : rowLe a c := by
  unfold rowLe at *
  rcases h1 with h1 | ⟨h1, h1'⟩ <;> rcases h2 with h2 | ⟨h2, h2'⟩
  · exact Or.inl (h1.trans h2)
  · exact Or.inl (h2 ▸ h1)
  · exact Or.inl (h1 ▸ h2)
  · exact Or.inr ⟨h1.trans h2, h1'.trans h2'⟩

/-- C110. Which unit-level changes enter the comparison for a group: in data with at most one row per unit and period,
exactly the differences between a row of the group and the row of the same unit in the last earlier period that has one, when
both outcomes are observed. -/
theorem C110_which_changes (rows : List (Row K)) (hnd : (rows.map (fun r => (r.unit, r.time))).Nodup) (g : ℤ) (v : K) :
    v ∈ unitChanges rows g ↔ ∃ a ∈ rows, ∃ b ∈ rows, a.unit = b.unit ∧ a.time < b.time ∧
      (∀ x ∈ rows, x.unit = a.unit → ¬ (a.time < x.time ∧ x.time < b.time)) ∧ b.g = g ∧
      ∃ u w, a.y = some u ∧ b.y = some w ∧ v = w - u := by
  have hperm : (rows.insertionSort rowLe).Perm rows := List.perm_insertionSort rowLe rows
  haveI : Std.Total (rowLe (K := K)) := ⟨rowLe_total⟩
  haveI : IsTrans (Row K) rowLe := ⟨rowLe_trans⟩
  have hs : (rows.insertionSort rowLe).Pairwise rowLe := List.pairwise_insertionSort rowLe rows
  have hnd' : ((rows.insertionSort rowLe).map (fun r => (r.unit, r.time))).Nodup := (hperm.map _).nodup_iff.2 hnd
  have hm : ∀ x, x ∈ rows ↔ x ∈ rows.insertionSort rowLe := fun x => hperm.mem_iff.symm
  have h0 : v ∈ unitChanges rows g ↔ (g, v) ∈ diffs (rows.insertionSort rowLe) := by
    unfold unitChanges
    rw [List.mem_map]
    constructor
    · rintro ⟨⟨g', v'⟩, h, rfl⟩
      rw [List.mem_filter] at h
      have : g' = g := by simpa using h.2
      rw [← this]; exact h.1
    · intro h
      exact ⟨(g, v), List.mem_filter.2 ⟨h, by simp⟩, rfl⟩
  rw [h0, mem_diffs]
  simp only [hm]
  generalize rows.insertionSort rowLe = l at hs hnd'
  have key : ∀ a b : Row K, [a, b].Sublist l → a.unit = b.unit → a.time < b.time := by
    intro a b hsub hu
    have p1 := hs.sublist hsub
    have p2 := hnd'.sublist (hsub.map _)
    simp only [List.pairwise_cons, List.mem_singleton, forall_eq] at p1
    rcases p1.1 with h | ⟨_, h⟩
    · omega
    · refine lt_of_le_of_ne h fun he => ?_
      simp [hu, he] at p2
  constructor
  · rintro ⟨l1, a, b, l2, rfl, hu, hg, huw⟩
    have hab : a.time < b.time := key a b (by simp) hu
    refine ⟨a, by simp, b, by simp, hu, hab, ?_, hg, huw⟩
    rintro x hx hxu ⟨h1, h2⟩
    rw [List.mem_append, List.mem_cons, List.mem_cons] at hx
    rcases hx with hx | rfl | rfl | hx
    · have : x.time < a.time := key x a ((List.singleton_sublist.2 hx).append (List.singleton_sublist.2 List.mem_cons_self)) hxu
      exact absurd h1 (not_lt.2 this.le)
    · exact lt_irrefl _ h1
    · exact lt_irrefl _ h2
    · have : b.time < x.time := key b x (List.Sublist.trans (List.Sublist.cons_cons b (List.singleton_sublist.2 hx)) (by
        exact ((List.sublist_cons_self a _).trans (List.sublist_append_right l1 _)))) (by omega)
      exact absurd h2 (not_lt.2 this.le)
  · rintro ⟨a, ha, b, hb, hu, hab, hbet, hg, huw⟩
    obtain ⟨l1, rest, rfl⟩ := List.append_of_mem ha
    have hb' : b ∈ rest := by
      rw [List.mem_append, List.mem_cons] at hb
      rcases hb with hb | rfl | hb
      · have : b.time < a.time := key b a ((List.singleton_sublist.2 hb).append (List.singleton_sublist.2 List.mem_cons_self)) hu.symm
        exact absurd hab (not_lt.2 this.le)
      · exact absurd hab (lt_irrefl _)
      · exact hb
    cases rest with
    | nil => simp at hb'
    | cons c l2 =>
      rcases List.mem_cons.1 hb' with rfl | hb2
      · exact ⟨l1, a, b, l2, rfl, hu, hg, huw⟩
      · exfalso
        have s1 : [a, c].Sublist (l1 ++ a :: c :: l2) := by simp
        have s2 : [c, b].Sublist (l1 ++ a :: c :: l2) :=
          (List.Sublist.cons_cons c (List.singleton_sublist.2 hb2)).trans ((List.sublist_cons_self a _).trans (List.sublist_append_right l1 _))
        have q1 := hs.sublist s1
        have q2 := hs.sublist s2
        simp only [List.pairwise_cons, List.mem_singleton, forall_eq] at q1 q2
        have hcu : c.unit = a.unit := by
          rcases q1.1 with h | ⟨h, _⟩ <;> rcases q2.1 with h' | ⟨h', _⟩ <;> omega
        exact hbet c (by simp) hcu ⟨key a c s1 hcu.symm, key c b s2 (hcu.trans hu)⟩

/-- A unit that changes group between two rows: the change counts for the later row's group. -/
example : unitChanges ([⟨1, 1, 0, some 5⟩, ⟨1, 3, 1, some 9⟩, ⟨1, 2, 1, some 6⟩] : List (Row ℚ)) 1 = [1, 3] := by decide +kernel

end DiffDiff.Trends
