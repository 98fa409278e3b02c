/-
Property C150, continued: units, absorbed effects, missing labels, order of the rows; instances.
-/
import Verif.DidFullControls

set_option linter.unusedSectionVars false
set_option linter.unusedVariables false

namespace DiffDiff.DidFull
open Matrix Vcov Did2x2
open TwfeFit (Works)
open scoped List

variable {K : Type*} [Field K] [LinearOrder K] [IsStrictOrderedRing K]
variable {ι ι' C : Type*} [Fintype ι] [DecidableEq ι] [Fintype ι'] [DecidableEq ι'] [DecidableEq C]

/-! ### Covariate adjustment -/

theorem orth_cell {d t : ι → Bool} {xs : List (ι → K)} {u : ι → K} (h : Orth d t xs u 0) (a c : Bool) : ∑ i ∈ cell d t a c, u i = 0 := by
  have key : ∑ i ∈ cell d t a c, u i = ∑ i, ((if a then ind (d i) else 1 - ind (d i)) * (if c then ind (t i) else 1 - ind (t i))) * u i := by
    unfold cell
    rw [Finset.sum_filter]
    refine Finset.sum_congr rfl fun i _ => ?_
    cases a <;> cases c <;> cases d i <;> cases t i <;> simp [ind]
  rw [key]
  have e : ∀ i, ((if a then ind (d i) else 1 - ind (d i)) * (if c then ind (t i) else 1 - ind (t i))) * u i =
      (if a then 0 else (if c then 0 else 1)) * u i + (if c then 0 else (if a then 1 else -1)) * (ind (d i) * u i) +
      (if a then 0 else (if c then 1 else -1)) * (ind (t i) * u i) + (if a then (if c then 1 else -1) else (if c then -1 else 1)) * (ind (d i) * ind (t i) * u i) := by
    intro i
    cases a <;> cases c <;> simp <;> ring
  simp only [e, Finset.sum_add_distrib, ← Finset.mul_sum, h.const, h.treat, h.time, h.inter]
  simp

theorem did_add (d t : ι → Bool) (f g : ι → K) : did (fun i => f i + g i) d t = did f d t + did g d t := by
  unfold did cellMean
  simp only [Finset.sum_add_distrib, add_div]
  ring

theorem did_smul (d t : ι → Bool) (k : K) (f : ι → K) : did (fun i => k * f i) d t = k * did f d t := by
  unfold did cellMean
  simp only [← Finset.mul_sum, mul_div_assoc]
  ring

theorem did_sum (d t : ι → Bool) {κ : Type*} (s : Finset κ) (F : κ → ι → K) : did (fun i => ∑ k ∈ s, F k i) d t = ∑ k ∈ s, did (F k) d t := by
  classical
  induction s using Finset.induction_on with
  | empty => simp [did, cellMean]
  | insert k s hk ih => simp only [Finset.sum_insert hk]; rw [did_add, ih]

theorem did_basic {d t : ι → Bool} (h : DidFit.Occupied d t) (a b c e : K) :
    did (fun i => a + b * ind (d i) + c * ind (t i) + e * (ind (d i) * ind (t i))) d t = e := by
  have hm : ∀ p q : Bool, cellMean (fun i => a + b * ind (d i) + c * ind (t i) + e * (ind (d i) * ind (t i))) d t p q =
      a + b * ind p + c * ind q + e * (ind p * ind q) := by
    intro p q
    unfold cellMean
    have hc : ∀ i ∈ cell d t p q, a + b * ind (d i) + c * ind (t i) + e * (ind (d i) * ind (t i)) = a + b * ind p + c * ind q + e * (ind p * ind q) := by
      intro i hi
      obtain ⟨h1, h2⟩ := mem_cell.1 hi
      rw [h1, h2]
    rw [Finset.sum_congr rfl hc, Finset.sum_const, nsmul_eq_mul, mul_div_cancel_left₀ _ (h.card p q)]
  unfold did
  rw [hm, hm, hm, hm]
  simp [ind]
  ring

/-- C150. Covariate adjustment: the ATT is the difference in differences of the outcome minus, for every further column, its regression coefficient times its own
difference in differences. -/
theorem C150_adjusted (L : TwfeFit.Lib ι K) (hL : Works L) (hP : LinReg.Prunes L) (robust strict : Bool) (alpha : K) (D : Data ι C K)
    (ho : DidFit.Occupied (flag D.d) (flag D.t)) (hid : Identified (flag D.d) (flag D.t) (extras D)) (R : DidFit.Result K)
    (h : fit L robust strict alpha D = .ok R) :
    ∃ (x a b c : K) (γ : Fin (extras D).length → K) (u : ι → K), R.att = .fin x ∧ Orth (flag D.d) (flag D.t) (extras D) u 0 ∧
      (∀ i, num (outcome D) i = a + b * ind (flag D.d i) + c * ind (flag D.t i) + x * (ind (flag D.d i) * ind (flag D.t i)) + ∑ j, γ j * ((extras D)[j] i) + u i) ∧
      x = did (num (outcome D)) (flag D.d) (flag D.t) - ∑ j, γ j * did ((extras D)[j]) (flag D.d) (flag D.t) := by
  obtain ⟨-, -, hc⟩ := fit_ok h
  obtain ⟨w, u, x, k1, k2, k3, k4, k5, rfl⟩ := core_spec hL hP hid hc
  obtain ⟨a, b, c, γ, hγ⟩ := k3
  have hy : ∀ i, num (outcome D) i = a + b * ind (flag D.d i) + c * ind (flag D.t i) + x * (ind (flag D.d i) * ind (flag D.t i)) +
      ∑ j, γ j * ((extras D)[j] i) + u i := fun i => by rw [← hγ i]; ring
  refine ⟨x, a, b, c, γ, u, rfl, k4, hy, ?_⟩
  rw [show num (outcome D) = _ from funext hy, did_add, did_add, did_basic ho, did_sum]
  have hu : did u (flag D.d) (flag D.t) = 0 := by
    unfold did cellMean
    simp [orth_cell k4]
  rw [hu]
  simp only [did_smul]
  ring

/-! ### Units -/

theorem variance_nonneg {o : LinReg.Opts ι C} {r : ℕ} (hr : r ≤ Fintype.card ι) {w u : ι → K} {v : K} (h : LinReg.variance o r w u = some v) : 0 ≤ v := by
  have hnr : (0 : K) ≤ (Fintype.card ι : K) - r := by rw [sub_nonneg]; exact_mod_cast hr
  unfold LinReg.variance at h
  cases hi : o.ids with
  | none =>
    rw [hi] at h
    dsimp only at h
    split_ifs at h
    · cases h
      exact mul_nonneg (div_nonneg (Nat.cast_nonneg _) hnr) (Finset.sum_nonneg fun i _ => sq_nonneg _)
    · cases h
      exact mul_nonneg (div_nonneg (Finset.sum_nonneg fun i _ => sq_nonneg _) hnr) (Finset.sum_nonneg fun i _ => sq_nonneg _)
  | some ids =>
    rw [hi] at h
    cases h
    refine mul_nonneg (mul_nonneg ?_ ?_) (Finset.sum_nonneg fun i _ => sq_nonneg _)
    · rcases Nat.eq_zero_or_pos (nClusters ids) with h0 | h0
      · simp [h0]
      · refine div_nonneg (Nat.cast_nonneg _) ?_
        rw [sub_nonneg]; exact_mod_cast h0
    · rcases Nat.eq_zero_or_pos (Fintype.card ι) with h0 | h0
      · have : r = 0 := by omega
        simp [h0, this]
      · refine div_nonneg ?_ hnr
        rw [sub_nonneg]; exact_mod_cast h0

theorem variance_scale (o : LinReg.Opts ι C) (r : ℕ) (w u : ι → K) (c : K) :
    LinReg.variance o r w (fun i => c * u i) = (LinReg.variance o r w u).map (c ^ 2 * ·) := by
  unfold LinReg.variance
  cases hi : o.ids with
  | none =>
    dsimp only
    split_ifs
    · simp only [Option.map_some, Option.some.injEq]
      have : ∀ i, (w i * (c * u i)) ^ 2 = c ^ 2 * (w i * u i) ^ 2 := fun i => by ring
      simp only [this, ← Finset.mul_sum]
      ring
    · rfl
    · simp only [Option.map_some, Option.some.injEq]
      have : ∀ i, (c * u i) ^ 2 = c ^ 2 * (u i) ^ 2 := fun i => by ring
      simp only [this, ← Finset.mul_sum]
      ring
  | some ids =>
    simp only [Option.map_some, Option.some.injEq]
    have : ∀ g, (∑ i ∈ Finset.univ.filter (fun i => ids i = g), w i * (c * u i)) ^ 2 = c ^ 2 * (∑ i ∈ Finset.univ.filter (fun i => ids i = g), w i * u i) ^ 2 := by
      intro g
      rw [← mul_pow, Finset.mul_sum]
      congr 1
      exact Finset.sum_congr rfl fun i _ => by ring
    simp only [this, ← Finset.mul_sum]
    ring

theorem demean_scale (g : ι → Option ℤ) (x : ι → Option K) (c : K) : demean g (fun i => (x i).map (c * ·)) = fun i => (demean g x i).map (c * ·) := by
  funext i
  unfold demean
  cases g i with
  | none => rfl
  | some a =>
    have hm : groupMean g (fun i => (x i).map (c * ·)) a = c * groupMean g x a := by
      unfold groupMean
      have e : (Finset.univ.filter (fun j => g j = some a ∧ (x j).map (c * ·) ≠ none)) = Finset.univ.filter (fun j => g j = some a ∧ x j ≠ none) := by
        ext j; simp
      rw [e, ← mul_div_assoc, Finset.mul_sum]
      congr 1
      refine Finset.sum_congr rfl fun j _ => ?_
      show ((x j).map (c * ·)).getD 0 = c * (x j).getD 0
      cases hj : x j <;> simp
    simp only [hm]
    cases x i <;> simp [mul_sub]

theorem absorbed_scale (gs : List (ι → Option ℤ)) (x : ι → Option K) (c : K) :
    absorbed gs (fun i => (x i).map (c * ·)) = fun i => (absorbed gs x i).map (c * ·) := by
  unfold absorbed
  induction gs generalizing x with
  | nil => rfl
  | cons g gs ih => rw [List.foldl_cons, List.foldl_cons, demean_scale, ih]

theorem out_scale {L : TwfeFit.Lib ι K} (hs : LinReg.IsSqrt L.sqrt) (alpha : K) (d : ι → Bool) (y y' u : ι → K) (x : K) (v : Option K)
    (hv : ∀ w, v = some w → 0 ≤ w) (df : ℤ) {c : K} (hc0 : 0 < c) (hy : ∀ i, y' i = c * y i) :
    let R := out L alpha d y u x v df
    let R' := out L alpha d y' (fun i => c * u i) (c * x) (v.map (c ^ 2 * ·)) df
    (R.se = .nan → R'.se = .nan) ∧ (∀ s, R.se = .fin s → R'.se = .fin (c * s)) ∧
      (∀ s, R.se = .fin s → 0 < s → R'.t = R.t ∧ R'.p = R.p ∧ ∃ lo hi, R.ci = (.fin lo, .fin hi) ∧ R'.ci = (.fin (c * lo), .fin (c * hi))) ∧ R'.r2 = R.r2 := by
  intro R R'
  have hr2 : R'.r2 = R.r2 := by
    show rSquared y' (fun i => c * u i) false 0 = rSquared y u false 0
    have hc2 : c ^ 2 ≠ 0 := pow_ne_zero _ hc0.ne'
    have e1 : ∑ i, (y' i - (∑ i, y' i) / (Fintype.card ι : K)) ^ 2 = c ^ 2 * ∑ i, (y i - (∑ i, y i) / (Fintype.card ι : K)) ^ 2 := by
      simp only [hy, ← Finset.mul_sum, mul_div_assoc, ← mul_sub, mul_pow]
    have e2 : ∑ i, (c * u i) ^ 2 = c ^ 2 * ∑ i, u i ^ 2 := by simp only [mul_pow, Finset.mul_sum]
    unfold rSquared
    simp only [e1, e2, mul_eq_zero, hc2, false_or, mul_div_mul_left _ _ hc2]
  cases v with
  | none => exact ⟨fun _ => rfl, fun s h => (by cases h), fun s h => (by cases h), hr2⟩
  | some v =>
    have hse : R'.se = .fin (c * L.sqrt v) := by
      show Ext.fin (L.sqrt (c ^ 2 * v)) = _
      rw [hs.mul (hv v rfl), abs_of_pos hc0]
    refine ⟨fun h => (by cases h), fun s h => ?_, fun s h hp => ?_, hr2⟩
    · cases h
      exact hse
    · have h' : s = L.sqrt v := by cases h; rfl
      subst h'
      have hp' : 0 < c * L.sqrt v := mul_pos hc0 hp
      have hdiv : c * x / (c * L.sqrt v) = x / L.sqrt v := mul_div_mul_left _ _ hc0.ne'
      have hq : L.sqrt (c ^ 2 * v) = c * L.sqrt v := by rw [hs.mul (hv v rfl), abs_of_pos hc0]
      simp only [R, R', out, Option.map_some, LinReg.toExt, hq, Inference.getInference, Inference.tStat_pos _ _ hp, Inference.tStat_pos _ _ hp', hdiv,
        Inference.confInt_fin]
      refine ⟨trivial, trivial, _, _, rfl, ?_⟩
      refine Prod.ext ?_ ?_ <;> · dsimp only; congr 1; ring

/-- C150. Units of the outcome (times `c > 0`, absorbed effects allowed): ATT and standard error are multiplied by `c`; t statistic and p-value stay; the interval
is multiplied by `c`. -/
theorem C150_units (L : TwfeFit.Lib ι K) (hL : Works L) (hP : LinReg.Prunes L) (robust strict : Bool) (alpha : K) (D : Data ι C K)
    (hid : Identified (flag D.d) (flag D.t) (extras D)) (R : DidFit.Result K) (h : fit L robust strict alpha D = .ok R) (c : K) (hc0 : 0 < c) :
    ∃ R', fit L robust strict alpha (D.withY (fun i => (D.y i).map (c * ·))) = .ok R' ∧ (∃ x, R.att = .fin x ∧ R'.att = .fin (c * x)) ∧
      (R.se = .nan → R'.se = .nan) ∧ (∀ s, R.se = .fin s → R'.se = .fin (c * s)) ∧
      (∀ s, R.se = .fin s → 0 < s → R'.t = R.t ∧ R'.p = R.p ∧ ∃ lo hi, R.ci = (.fin lo, .fin hi) ∧ R'.ci = (.fin (c * lo), .fin (c * hi))) ∧ R'.r2 = R.r2 := by
  set D' := D.withY (fun i => (D.y i).map (c * ·)) with hD'
  obtain ⟨hV, hA, hc⟩ := fit_ok h
  have hV' : Valid D' := valid_withY hV fun i => by
    obtain ⟨z, hz⟩ := Option.ne_none_iff_exists'.1 (hV.y i)
    simp [hz]
  obtain ⟨R', hR'⟩ := (C150_runs L hL hP robust strict alpha D').2 (by
    obtain ⟨-, q⟩ := (C150_runs L hL hP robust strict alpha D).1 ⟨R, h⟩
    exact ⟨hV', q⟩)
  obtain ⟨-, -, hc'⟩ := fit_ok hR'
  have hy : ∀ i, num (outcome D') i = c * num (outcome D) i := by
    intro i
    show num (absorbed D.absorb (fun i => (D.y i).map (c * ·))) i = _
    rw [absorbed_scale]
    show ((absorbed D.absorb D.y i).map (c * ·)).getD 0 = c * (absorbed D.absorb D.y i).getD 0
    cases absorbed D.absorb D.y i <;> simp
  obtain ⟨w, u, x, k1, k2, k3, k4, k5, rfl⟩ := core_spec hL hP hid hc
  obtain ⟨w', u', x', l1, l2, l3, l4, l5, rfl⟩ := core_spec hL hP (show Identified (flag D'.d) (flag D'.t) (extras D') from hid) hc'
  have hw : w' = w := weights_unique l1 l2 k1 k2
  have hu : u' = fun i => c * u i := by
    refine resid_unique (y := num (outcome D')) l3 l4 (x' := c * x) ?_ (show Orth (flag D.d) (flag D.t) (extras D) _ _ by simpa using k4.smul c)
    have := k3.smul c
    have e : (fun i => c * (num (outcome D) i - u i)) = fun i => num (outcome D') i - c * u i := by funext i; rw [hy]; ring
    rwa [e] at this
  have hx : x' = c * x := by
    rw [l5, k5, hw, Finset.mul_sum]
    exact Finset.sum_congr rfl fun i _ => by rw [hy]; ring
  subst hw hu hx
  have hrank : (matrix (flag D.d) (flag D.t) (extras D)).rank ≤ Fintype.card ι := Matrix.rank_le_card_height _
  have hsc := out_scale (L := L) hL.sqrt alpha (flag D.d) (num (outcome D)) (num (outcome D')) u x
    (LinReg.variance (opts ⟨robust, D.cluster, strict⟩) (matrix (flag D.d) (flag D.t) (extras D)).rank w' u)
    (fun v hv => variance_nonneg hrank hv) ((Fintype.card ι : ℤ) - (matrix (flag D.d) (flag D.t) (extras D)).rank - adjustment D.absorb) hc0 hy
  rw [← variance_scale] at hsc
  exact ⟨_, hR', ⟨x, rfl, rfl⟩, hsc⟩

/-! ### Absorbed effects -/

theorem demean_shift (g : ι → Option ℤ) (x x' : ι → Option K) (ψ : Option ℤ → K) (h : ∀ i, x' i = (x i).map (· + ψ (g i))) : demean g x' = demean g x := by
  funext i
  unfold demean
  cases hg : g i with
  | none => rfl
  | some a =>
    cases hx : x i with
    | none => rw [h, hx]; rfl
    | some v =>
      have hm : groupMean g x' a = groupMean g x a + ψ (some a) := by
        unfold groupMean
        have e : (Finset.univ.filter (fun j => g j = some a ∧ x' j ≠ none)) = Finset.univ.filter (fun j => g j = some a ∧ x j ≠ none) := by
          ext j; simp [h]
        rw [e]
        have hs : ∑ j ∈ Finset.univ.filter (fun j => g j = some a ∧ x j ≠ none), (x' j).getD 0 =
            ∑ j ∈ Finset.univ.filter (fun j => g j = some a ∧ x j ≠ none), ((x j).getD 0 + ψ (some a)) := by
          refine Finset.sum_congr rfl fun j hj => ?_
          obtain ⟨-, h1, h2⟩ := Finset.mem_filter.1 hj
          obtain ⟨z, hz⟩ := Option.ne_none_iff_exists'.1 h2
          rw [h, hz, h1]
          rfl
        have hn : ((Finset.univ.filter (fun j => g j = some a ∧ x j ≠ none)).card : K) ≠ 0 := by
          have : 0 < (Finset.univ.filter (fun j => g j = some a ∧ x j ≠ none)).card := Finset.card_pos.2 ⟨i, by simp [hg, hx]⟩
          exact_mod_cast this.ne'
        rw [hs, Finset.sum_add_distrib, Finset.sum_const, nsmul_eq_mul]
        field_simp
      rw [h, hx, hg]
      simp only [Option.map_some, hm]
      congr 1
      ring

/-- C150. Any function of the first absorbed column may be added to the outcome and to each covariate: the whole call is unchanged. -/
theorem C150_absorb (L : TwfeFit.Lib ι K) (robust strict : Bool) (alpha : K) (D : Data ι C K) (g : ι → Option ℤ) (gs : List (ι → Option ℤ))
    (hg : D.absorb = g :: gs) (y : ι → Option K) (cov : List (ι → Option K)) (ψ : Option ℤ → K) (hy : ∀ i, y i = (D.y i).map (· + ψ (g i)))
    (hcov : List.Forall₂ (fun x x' => ∃ ψ : Option ℤ → K, ∀ i, x' i = (x i).map (· + ψ (g i))) D.cov cov) :
    fit L robust strict alpha ⟨y, D.d, D.t, cov, D.fixed, D.absorb, D.cluster⟩ = fit L robust strict alpha D := by
  set D' : Data ι C K := ⟨y, D.d, D.t, cov, D.fixed, D.absorb, D.cluster⟩ with hD'
  have ho : outcome D' = outcome D := by
    show absorbed D.absorb y = absorbed D.absorb D.y
    unfold absorbed
    rw [hg, List.foldl_cons, List.foldl_cons, demean_shift g D.y y ψ hy]
  have hcv : covariates D' = covariates D := by
    show cov.map (absorbed D.absorb) = D.cov.map (absorbed D.absorb)
    clear hD' ho
    clear_value D'
    generalize D.cov = cov0 at hcov ⊢
    induction hcov with
    | nil => rfl
    | cons h1 _ ih =>
      rw [List.map_cons, List.map_cons, ih]
      congr 1
      obtain ⟨ψ', h'⟩ := h1
      unfold absorbed
      rw [hg, List.foldl_cons, List.foldl_cons, demean_shift g _ _ ψ' h']
  have hmiss : ∀ {x x' : ι → Option K} {ψ : Option ℤ → K}, (∀ i, x' i = (x i).map (· + ψ (g i))) → (HasMissing x' ↔ HasMissing x) := by
    intro x x' ψ h
    unfold HasMissing
    exact exists_congr fun i => by rw [h]; simp
  have hv : validate D' = validate D := by
    have h1 : (∃ x ∈ D'.y :: D'.d :: D'.t :: D'.cov, HasMissing x) ↔ ∃ x ∈ D.y :: D.d :: D.t :: D.cov, HasMissing x := by
      have h2 : (∃ x ∈ cov, HasMissing x) ↔ ∃ x ∈ D.cov, HasMissing x := by
        clear hcv ho hD'
        clear_value D'
        generalize D.cov = cov0 at hcov ⊢
        induction hcov with
        | nil => exact Iff.rfl
        | cons hh _ ih =>
          obtain ⟨ψ', h'⟩ := hh
          simp only [List.mem_cons, exists_eq_or_imp, hmiss h', ih]
      simp only [List.mem_cons, exists_eq_or_imp]
      rw [show D'.y = y from rfl, hmiss hy, show D'.cov = cov from rfl, h2]
    unfold validate
    simp only [h1]
    rfl
  have he : extras D' = extras D := by
    unfold extras
    rw [hcv]
  unfold fit
  rw [hv, ho, hcv, he]

/-! ### Missing labels of fixed effects -/

/-- C150. A missing label of a fixed effect counts as the smallest label of its column: rows without label are pooled with it. -/
theorem C150_missing_level (L : TwfeFit.Lib ι K) (robust strict : Bool) (alpha : K) (D : Data ι C K) (pre post : List (ι → Option ℤ)) (g : ι → Option ℤ) (v : ℤ)
    (hv : ∃ i, g i = some v) (hmin : ∀ i a, g i = some a → v ≤ a) :
    fit L robust strict alpha ⟨D.y, D.d, D.t, D.cov, pre ++ g :: post, D.absorb, D.cluster⟩ =
      fit L robust strict alpha ⟨D.y, D.d, D.t, D.cov, pre ++ (fun i => some ((g i).getD v)) :: post, D.absorb, D.cluster⟩ := by
  have hlev : levels (fun i => some ((g i).getD v)) = levels g := by
    unfold levels
    congr 1
    ext a
    rw [Finset.mem_eraseNone, Finset.mem_eraseNone, Finset.mem_image, Finset.mem_image]
    constructor
    · rintro ⟨i, -, hi⟩
      cases hg : g i with
      | none =>
        rw [hg] at hi
        simp only [Option.getD_none, Option.some.injEq] at hi
        obtain ⟨i', hi'⟩ := hv
        exact ⟨i', Finset.mem_univ _, by rw [hi', hi]⟩
      | some b => rw [hg] at hi; exact ⟨i, Finset.mem_univ _, by rw [hg]; exact hi⟩
    · rintro ⟨i, -, hi⟩
      exact ⟨i, Finset.mem_univ _, by rw [hi]; rfl⟩
  have hhead : ∀ a ∈ (levels g).tail, a ≠ v := by
    have hs : (levels g).Pairwise (· ≤ ·) := Finset.pairwise_sort _ _
    have hn := levels_nodup g
    have hm := mem_levels.2 hv
    cases hl : levels g with
    | nil => intro a ha; simp at ha
    | cons b bs =>
      rw [hl] at hs hn hm
      intro a ha e
      subst e
      have hb : b ∈ levels g := by rw [hl]; simp
      obtain ⟨i, hi⟩ := mem_levels.1 hb
      have h1 := hmin i b hi
      have h2 := (List.pairwise_cons.1 hs).1 a ha
      have : a = b := le_antisymm h1 h2
      subst this
      exact (List.nodup_cons.1 hn).1 ha
  have hd : (dummies (fun i => some ((g i).getD v)) : List (ι → K)) = dummies g := by
    unfold dummies
    rw [hlev]
    refine List.map_congr_left fun a ha => ?_
    funext i
    have := hhead a ha
    show (if some ((g i).getD v) = some a then (1 : K) else 0) = if g i = some a then 1 else 0
    cases g i with
    | none => rw [if_neg (by simpa using Ne.symm this), if_neg (by simp)]
    | some b => rfl
  have he : extras (⟨D.y, D.d, D.t, D.cov, pre ++ (fun i => some ((g i).getD v)) :: post, D.absorb, D.cluster⟩ : Data ι C K) =
      extras ⟨D.y, D.d, D.t, D.cov, pre ++ g :: post, D.absorb, D.cluster⟩ := by
    unfold extras covariates
    simp only [List.flatMap_append, List.flatMap_cons, hd]
  unfold fit
  rw [he]
  rfl

/-! ### Without covariates and fixed effects -/

theorem matrix_nil (d t : ι → Bool) : matrix d t ([] : List (ι → K)) = (design d t : Matrix ι (Fin 4) K) := by
  funext i m
  show Fin.append (design d t i) _ (Fin.castAdd 0 m) = _
  rw [Fin.append_left]

/-- C150. Without covariates and fixed effects the call is the 2x2 regression of the working outcome (C125). -/
theorem C150_plain (L : TwfeFit.Lib ι K) (hL : Works L) (robust strict : Bool) (alpha : K) (D : Data ι C K) (hV : Valid D)
    (hab : ∀ g ∈ D.absorb, ∀ i, g i ≠ none) (hcov : D.cov = []) (hfx : D.fixed = []) (ho : DidFit.Occupied (flag D.d) (flag D.t)) :
    fit L robust strict alpha D =
      (DidFit.fitCore L.toLib ⟨robust, D.cluster, strict⟩ alpha [] (flag D.d) (flag D.t) (num (outcome D)) (adjustment D.absorb)).mapError .reg := by
  have he : extras D = [] := by unfold extras covariates; rw [hcov, hfx]; rfl
  have hn : nCoef D = 4 := by rw [← length_extras, he]; rfl
  have hred : L.redundant (design (flag D.d) (flag D.t) : Matrix ι (Fin 4) K) = [] := hL.keeps _ (DidFit.design_det ho _ rfl)
  by_cases hk : Fintype.card ι < 4
  · unfold fit DidFit.fitCore
    rw [(validate_none D).2 hV, he]
    simp only [LinReg.fit, List.length_nil, Nat.add_zero, if_pos hk]
    rfl
  · rw [fit_of_core hV hab (by omega), he]
    congr 1
    unfold core DidFit.fitCore
    have hm := matrix_nil (K := K) (flag D.d) (flag D.t)
    simp only [List.length_nil, Nat.add_zero]
    rw [hm, hred]
    cases LinReg.fit L.solvers (⟨robust, D.cluster, none, strict⟩ : LinReg.Opts ι C) [] (design (flag D.d) (flag D.t)) (num (outcome D)) (adjustment D.absorb) <;> rfl

end DiffDiff.DidFull
