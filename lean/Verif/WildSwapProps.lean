import Verif.WildLinMore
import Verif.DidSwapProps
import Verif.MultiSwapProps
import Verif.BootStatsProps

/-!
# C155 with the wild bootstrap (estimators.py 206-359, 390-438; utils.py 403-520)

The same random weights, labels exchanged or outcome negated: replicates change sign, their spread does not, and the percentile interval is turned round.
-/

set_option linter.unusedSectionVars false
set_option linter.unusedVariables false

namespace DiffDiff.BootStats

variable {K : Type*} [Field K] [LinearOrder K] [IsStrictOrderedRing K] [FloorSemiring K]

theorem sort_neg (x : List K) : (x.map (fun d => -d)).insertionSort (· ≤ ·) = ((x.insertionSort (· ≤ ·)).map (fun d => -d)).reverse := by
  refine List.Perm.eq_of_pairwise (fun a b _ _ => le_antisymm) (sorted _) ?_ ?_
  · rw [List.pairwise_reverse, List.pairwise_map]
    exact (sorted x).imp fun h => neg_le_neg h
  · exact (List.perm_insertionSort _ _).trans (((List.perm_insertionSort _ x).symm.map _).trans (List.reverse_perm _).symm)

theorem pct_rev (s : List K) (hs : s ≠ []) (q : K) (h0 : 0 ≤ q) (h1 : q ≤ 1) : pctSorted (s.map (fun d => -d)).reverse q = -pctSorted s (1 - q) := by
  have hl : 0 < s.length := List.length_pos_iff.2 hs
  obtain ⟨n, hn⟩ : ∃ n, s.length = n + 1 := ⟨s.length - 1, by omega⟩
  have hget : ∀ i, i ≤ n → (s.map (fun d => -d)).reverse.getD i 0 = -(s.getD (n - i) 0) := by
    intro i hi
    have h3 : i < (s.map (fun d => -d)).length := by rw [List.length_map]; omega
    have h4 : n - i < s.length := by omega
    rw [List.getD_eq_getElem _ _ (by rw [List.length_reverse]; exact h3), List.getElem_reverse, List.getElem_map, List.getD_eq_getElem _ _ h4]
    simp only [List.length_map, hn, Nat.add_sub_cancel]
  have hcast : ((s.length : K) - 1) = n := by rw [hn]; push_cast; ring
  have hnn : (0 : K) ≤ n := Nat.cast_nonneg n
  have hh0 : 0 ≤ q * (n : K) := mul_nonneg h0 hnn
  have hhn : q * (n : K) ≤ n := mul_le_of_le_one_left hnn h1
  unfold pctSorted
  simp only [List.length_reverse, List.length_map, hcast]
  set h := q * (n : K) with hh
  have hr : (1 - q) * (n : K) = n - h := by rw [hh]; ring
  rw [hr, hn, Nat.add_sub_cancel]
  set i := ⌊h⌋₊ with hi
  have hle : (i : K) ≤ h := Nat.floor_le hh0
  have hlt : h < i + 1 := Nat.lt_floor_add_one h
  have hin : i ≤ n := by
    have : (i : K) ≤ n := hle.trans hhn
    exact_mod_cast this
  rcases hle.eq_or_lt with he | he
  · have hf : ⌊(n : K) - h⌋₊ = n - i := by
      rw [← he, ← Nat.cast_sub hin, Nat.floor_natCast]
    rw [hf, hget i hin, ← he, Nat.cast_sub hin]
    ring
  · have hin' : i + 1 ≤ n := by
      have : (i : K) < n := he.trans_le hhn
      have : i < n := by exact_mod_cast this
      omega
    have hf : ⌊(n : K) - h⌋₊ = n - (i + 1) := by
      rw [Nat.floor_eq_iff (by linarith), Nat.cast_sub hin']
      push_cast
      constructor <;> linarith
    rw [hf, hget i hin, min_eq_left hin', hget (i + 1) hin', min_eq_left (by omega), show n - (i + 1) + 1 = n - i by omega, Nat.cast_sub hin']
    push_cast
    ring

/-- Percentiles of the negated numbers. -/
theorem percentile_neg (x : List K) (hx : x ≠ []) (q : K) (h0 : 0 ≤ q) (h1 : q ≤ 1) : percentile (x.map (fun d => -d)) q = -percentile x (1 - q) := by
  unfold percentile
  rw [sort_neg]
  exact pct_rev _ (sort_ne hx) q h0 h1

theorem percentileCI_neg (x : List K) (hx : x ≠ []) (alpha : K) (h0 : 0 ≤ alpha) (h1 : alpha ≤ 1) :
    percentileCI (x.map (fun d => -d)) alpha = (-(percentileCI x alpha).2, -(percentileCI x alpha).1) := by
  unfold percentileCI
  rw [percentile_neg x hx _ (by linarith) (by linarith), percentile_neg x hx _ (by linarith) (by linarith), sub_sub_cancel]

theorem var1_neg (x : List K) : var1 (x.map (fun d => -d)) = var1 x := by
  unfold var1
  have hs : (x.map (fun d => -d)).sum = -x.sum := by
    induction x with
    | nil => simp
    | cons a l ih => rw [List.map_cons, List.sum_cons, List.sum_cons, ih]; ring
  have hm : (x.map (fun d => -d)).map (fun d => (d - (x.map (fun d => -d)).sum / (x.length : K)) ^ 2) = x.map (fun d => (d - x.sum / (x.length : K)) ^ 2) := by
    rw [List.map_map, hs]
    refine List.map_congr_left fun d _ => ?_
    show (-d - -x.sum / (x.length : K)) ^ 2 = _
    ring
  rw [List.length_map, hm]

end DiffDiff.BootStats

namespace DiffDiff.WildLin
open Matrix Ols
open DidFull (Data Valid Comb Orth FullRank flag extras num outcome nCoef matrix mirror relabel Twin)
open TwfeFit (Lib Works)

variable {ι C : Type*} [Fintype ι] [DecidableEq ι] [DecidableEq C]

/-- Bootstrap results for the opposite effect. -/
noncomputable def opposite (B : WildBoot.Result) : WildBoot.Result :=
  { B with t := Ext.neg B.t, ci := (-B.ci.2, -B.ci.1), coefs := B.coefs.map (fun d => -d) }

/-- The report of a bootstrap call with the opposite sign. -/
noncomputable def Report.mirror (R : Report) : Report := { R with main := DidFull.mirror R.main }

/-- The report of a bootstrap call with the group sizes exchanged. -/
noncomputable def Report.relabel (R : Report) : Report := { R with main := DidFull.relabel R.main }

theorem extreme_neg (t : Ext ℝ) (ts : List ℝ) : WildBoot.extreme (Ext.neg t) (ts.map (fun d => -d)) = WildBoot.extreme t ts := by
  unfold WildBoot.extreme
  have h : Ext.abs (Ext.neg t) = Ext.abs t := by cases t <;> simp [Ext.neg, Ext.abs]
  rw [h, List.filter_map, List.length_map]
  simp only [Function.comp_def, abs_neg]

theorem boot_opposite (k : ℕ) (g : ι → C) {h h' u u' : ι → ℝ} {x x' : ℝ} {rs rs' : (C → ℝ) → ι → ℝ} (alpha : ℝ) (ha : 0 ≤ alpha) (ha' : alpha ≤ 1)
    (draws : List (C → ℝ)) (hd : draws ≠ []) (hx : x' = -x) (hc : ∀ i, h' i * u' i = -(h i * u i)) (hv : clusterVar k g h' u' = clusterVar k g h u)
    (hvs : ∀ s, clusterVar k g h' (rs' s) = clusterVar k g h (rs s)) :
    bootOf k g h' u' x' rs' alpha draws = opposite (bootOf k g h u x rs alpha draws) := by
  have hco : coefOf g h' u' x' = fun s => -coefOf g h u x s := by
    funext s
    unfold coefOf
    have : ∀ i, h' i * (u' i * s (g i)) = -(h i * (u i * s (g i))) := fun i => by
      rw [← mul_assoc, hc]; ring
    simp only [this, Finset.sum_neg_distrib, hx]
    ring
  have hm : draws.map (coefOf g h' u' x') = (draws.map (coefOf g h u x)).map (fun d => -d) := by rw [hco, List.map_map]; rfl
  have ht : draws.map (tOf k g h' u' x' rs') = (draws.map (tOf k g h u x rs)).map (fun d => -d) := by
    rw [List.map_map]
    refine List.map_congr_left fun s _ => ?_
    show tOf k g h' u' x' rs' s = -tOf k g h u x rs s
    unfold tOf
    rw [hvs, hco]
    split_ifs
    · rw [neg_div]
    · simp
  have hto : tOrigOf k g h' u' x' = Ext.neg (tOrigOf k g h u x) := by
    unfold tOrigOf
    rw [hv, hx, ← MultiFit.div_neg_left]
    rfl
  unfold bootOf opposite
  rw [hm, ht, hto, BootStats.var1_neg, BootStats.percentileCI_neg _ (by simpa using hd) alpha ha ha']
  congr 1
  unfold WildBoot.pvalue
  rw [extreme_neg, List.length_map]

theorem boot_same (k : ℕ) (g : ι → C) {h h' u u' : ι → ℝ} {x x' : ℝ} {rs rs' : (C → ℝ) → ι → ℝ} (alpha : ℝ)
    (draws : List (C → ℝ)) (hx : x' = x) (hh : h' = h) (hu : u' = u) (hr : rs' = rs) :
    bootOf k g h' u' x' rs' alpha draws = bootOf k g h u x rs alpha draws := by subst hx hh hu hr; rfl

theorem clusterVar_congr (k : ℕ) (g : ι → C) {h h' u u' : ι → ℝ} (hc : ∀ i, h' i * u' i = -(h i * u i)) : clusterVar k g h' u' = clusterVar k g h u := by
  unfold clusterVar
  simp only [hc, Finset.sum_neg_distrib, neg_sq]

theorem override_mirror (R : DidFit.Result ℝ) (B : WildBoot.Result) : override (DidFull.mirror R) (opposite B) = Report.mirror (override R B) := by
  unfold override Report.mirror DidFull.mirror opposite
  simp only [List.length_map]
  rfl

theorem override_relabel (R : DidFit.Result ℝ) (B : WildBoot.Result) : override (DidFull.relabel R) B = Report.relabel (override R B) := rfl

theorem det_of_rank {k : ℕ} {X : Matrix ι (Fin k) ℝ} (hr : X.rank = k) : (Xᵀ * X).det ≠ 0 := by
  refine DidFit.det_of_injective _ fun v hv => ?_
  have h1 := LinearMap.finrank_range_add_finrank_ker X.mulVecLin
  have h2 : Module.finrank ℝ (LinearMap.range X.mulVecLin) = k := hr
  rw [h2, Module.finrank_fin_fun] at h1
  have h3 : LinearMap.ker X.mulVecLin = ⊥ := Submodule.finrank_eq_zero.1 (by omega)
  have h4 : v ∈ LinearMap.ker X.mulVecLin := LinearMap.mem_ker.2 (funext hv)
  rw [h3] at h4
  exact (Submodule.mem_bot ℝ).1 h4

theorem resid_twin {d t d' t' : ι → Bool} {s : ℝ} (H : Twin d t d' t' s) {xs : List (ι → ℝ)} (hX : ((matrix d t xs)ᵀ * matrix d t xs).det ≠ 0)
    (hX' : ((matrix d' t' xs)ᵀ * matrix d' t' xs).det ≠ 0) (z : ι → ℝ) : WildBoot.resid (matrix d' t' xs) z = WildBoot.resid (matrix d t xs) z := by
  obtain ⟨e, he⟩ := comb_fitted (d := d') (t := t') (xs := xs) z
  obtain ⟨e1, he1⟩ := comb_fitted (d := d) (t := t) (xs := xs) z
  have o1 := H.orth _ _ _ (orth_resid hX z)
  rw [mul_zero] at o1
  exact DidFull.resid_unique he (orth_resid hX' z) (H.comb _ _ _ he1) o1

/-- The bootstrap of two designs with the same combinations of columns. -/
theorem wild_twin {L : Lib ι ℝ} (hL : Works L) (hP : LinReg.Prunes L) [Nonempty ι] {alpha : ℝ} {wt : String} {draws : List (C → ℝ)} {g : ι → C}
    {d t d' t' : ι → Bool} {s : ℝ} (H : Twin d t d' t' s) {xs : List (ι → ℝ)} {y : ι → ℝ} {B : WildBoot.Result}
    (hB : wild L wt (matrix d t xs) y g (Fin.castAdd xs.length 3) 0 alpha draws = .ok B) :
    draws ≠ [] ∧ ∃ (w u : ι → ℝ) (rs : (C → ℝ) → ι → ℝ), B = bootOf (4 + xs.length) g w u (∑ i, w i * y i) rs alpha draws ∧
      wild L wt (matrix d' t' xs) y g (Fin.castAdd xs.length 3) 0 alpha draws =
        .ok (bootOf (4 + xs.length) g (fun i => s * w i) u (∑ i, s * w i * y i) rs alpha draws) := by
  have hX := wild_det hP hB
  have hB' := (wild_ok_iff hL hX).1 hB
  obtain ⟨b1, b2, b3, -, ⟨V, hV⟩, -⟩ := WildBoot.wild_ok hB'
  have hX' : ((matrix d' t' xs)ᵀ * matrix d' t' xs).det ≠ 0 := det_of_rank ((H.rank xs).trans (rank_of_det hX))
  have hcard : Fintype.card ι ≠ Fintype.card (Fin (4 + xs.length)) := by
    intro hne
    unfold WildBoot.cov Vcov.vcovNumpy at hV
    simp only [nClusters_some] at hV
    rw [if_neg (show ¬ (Finset.univ.image g).card < 2 from not_lt.2 b2), if_pos hne] at hV
    cases hV
  obtain ⟨B1, hB1⟩ := (WildBoot.C60_defined wt (matrix d' t' xs) y g (Fin.castAdd xs.length 3) 0 alpha draws hX' hcard b3).2 ⟨b1, b2⟩
  obtain ⟨v, w, I⟩ := LinReg.exists_isolates hX (Fin.castAdd xs.length 3)
  obtain ⟨⟨e, k1⟩, k2⟩ := DidFull.isolates_iff.1 ⟨v, I⟩
  obtain ⟨v', I'⟩ : ∃ v', DidFit.Isolates (matrix d' t' xs) (Fin.castAdd xs.length 3) v' (fun i => s * w i) := by
    refine DidFull.isolates_iff.2 ⟨⟨_, (H.comb _ _ _ k1).smul s⟩, ?_⟩
    have := (H.orth _ _ _ k2).smul s
    rwa [mul_one, H.sq] at this
  have c1 := wild_closed I hB'
  have c2 := wild_closed I' hB1
  simp only [resid_twin H hX hX'] at c2
  exact ⟨b3, w, _, _, c1, by rw [← c2]; exact (wild_ok_iff hL hX').2 hB1⟩

theorem wild_opposite {L : Lib ι ℝ} (hL : Works L) (hP : LinReg.Prunes L) [Nonempty ι] {alpha : ℝ} (ha : 0 ≤ alpha) (ha' : alpha ≤ 1) {wt : String}
    {draws : List (C → ℝ)} {g : ι → C} {d t d' t' : ι → Bool} (H : Twin d t d' t' (-1 : ℝ)) {xs : List (ι → ℝ)} {y : ι → ℝ} {B : WildBoot.Result}
    (hB : wild L wt (matrix d t xs) y g (Fin.castAdd xs.length 3) 0 alpha draws = .ok B) :
    wild L wt (matrix d' t' xs) y g (Fin.castAdd xs.length 3) 0 alpha draws = .ok (opposite B) := by
  obtain ⟨hd, w, u, rs, h1, h2⟩ := wild_twin hL hP H hB
  rw [h2, h1]
  refine congrArg Except.ok (boot_opposite _ g alpha ha ha' draws hd ?_ (fun i => by ring) (clusterVar_congr _ g fun i => by ring)
    (fun s => clusterVar_congr _ g fun i => by ring))
  rw [← Finset.sum_neg_distrib]
  exact Finset.sum_congr rfl fun i _ => by ring

/-- A call that returns a bootstrap result has an identified effect. -/
theorem boot_identified {L : Lib ι ℝ} (hP : LinReg.Prunes L) {robust strict : Bool} {alpha : ℝ} {wt : String} {draws : List (C → ℝ)} {D : Data ι C ℝ} {g : ι → C}
    {R0 : DidFit.Result ℝ} {B : WildBoot.Result} (h0 : DidFull.fit L robust strict alpha (clusterBy D none) = .ok R0)
    (hB : wild L wt (matrix (flag D.d) (flag D.t) (extras D)) (num (outcome D)) g (Fin.castAdd (extras D).length 3) 0 alpha draws = .ok B) :
    Nonempty ι ∧ Valid D ∧ DidFull.Identified (flag D.d) (flag D.t) (extras D) := by
  have hX := fit_det hP h0 hB
  have hV := (DidFull.fit_ok h0).1
  obtain ⟨i, -⟩ := hV.d.2.1
  refine ⟨⟨i⟩, valid_clusterBy.1 hV, ?_⟩
  rintro ⟨a, b, c, γ, hz⟩
  obtain ⟨-, -, -, h1, -⟩ := DidFull.fullRank_of_det hX a b c (-1) γ fun i => by
    have := hz i
    simp only at this
    linarith
  exact absurd h1 (by norm_num)

/-- C155. Wild bootstrap, labels of the groups exchanged, the same random weights: ATT, t statistic and interval have the opposite sign, group sizes trade places;
standard error, p-value, R squared, numbers of rows, replications and clusters are unchanged. -/
theorem C155_wild_groups (L : Lib ι ℝ) (hL : Works L) (hP : LinReg.Prunes L) (robust strict : Bool) (alpha : ℝ) (ha : 0 ≤ alpha) (ha' : alpha ≤ 1) (wt : String)
    (draws : List (C → ℝ)) (D : Data ι C ℝ) (g : ι → C) (R : Report) (h : fit L robust strict alpha (some (wt, draws)) D (some g) = .ok R) :
    fit L robust strict alpha (some (wt, draws)) D.swapGroups (some g) = .ok R.relabel.mirror := by
  obtain ⟨R0, B, h0, hB, rfl⟩ := fit_boot.1 h
  obtain ⟨hne, hV, hid⟩ := boot_identified hP h0 hB
  refine fit_boot.2 ⟨DidFull.mirror (DidFull.relabel R0), opposite B, DidFull.groups_ok hL hP (D := clusterBy D none) hid h0, ?_, ?_⟩
  · show wild L wt (matrix (flag fun i => (D.d i).map (1 - ·)) (flag D.t) (extras D)) (num (outcome D)) g (Fin.castAdd (extras D).length 3) 0 alpha draws = _
    rw [DidFull.flag_swap hV.d]
    exact wild_opposite hL hP ha ha' (DidFull.twin_group _ _) hB
  · rw [override_mirror, override_relabel]

/-- C155. Wild bootstrap, the earlier period coded as 1. -/
theorem C155_wild_periods (L : Lib ι ℝ) (hL : Works L) (hP : LinReg.Prunes L) (robust strict : Bool) (alpha : ℝ) (ha : 0 ≤ alpha) (ha' : alpha ≤ 1) (wt : String)
    (draws : List (C → ℝ)) (D : Data ι C ℝ) (g : ι → C) (R : Report) (h : fit L robust strict alpha (some (wt, draws)) D (some g) = .ok R) :
    fit L robust strict alpha (some (wt, draws)) D.swapPeriods (some g) = .ok R.mirror := by
  obtain ⟨R0, B, h0, hB, rfl⟩ := fit_boot.1 h
  obtain ⟨hne, hV, hid⟩ := boot_identified hP h0 hB
  refine fit_boot.2 ⟨DidFull.mirror R0, opposite B, DidFull.periods_ok hL hP (D := clusterBy D none) hid h0, ?_, (override_mirror _ _).symm⟩
  show wild L wt (matrix (flag D.d) (flag fun i => (D.t i).map (1 - ·)) (extras D)) (num (outcome D)) g (Fin.castAdd (extras D).length 3) 0 alpha draws = _
  rw [DidFull.flag_swap hV.t]
  exact wild_opposite hL hP ha ha' (DidFull.twin_period _ _) hB

/-- C155. Wild bootstrap, treatment and time column exchanged: everything but the group sizes stays. -/
theorem C155_wild_roles (L : Lib ι ℝ) (hL : Works L) (hP : LinReg.Prunes L) (robust strict : Bool) (alpha : ℝ) (wt : String) (draws : List (C → ℝ))
    (D : Data ι C ℝ) (g : ι → C) (R : Report) (h : fit L robust strict alpha (some (wt, draws)) D (some g) = .ok R) :
    ∃ R', fit L robust strict alpha (some (wt, draws)) D.swapRoles (some g) = .ok R' ∧ R'.main.att = R.main.att ∧ R'.main.se = R.main.se ∧ R'.main.t = R.main.t ∧
      R'.main.p = R.main.p ∧ R'.main.ci = R.main.ci ∧ R'.main.r2 = R.main.r2 ∧ R'.main.nObs = R.main.nObs ∧ R'.boot = R.boot := by
  obtain ⟨R0, B, h0, hB, rfl⟩ := fit_boot.1 h
  obtain ⟨hne, hV, hid⟩ := boot_identified hP h0 hB
  obtain ⟨R1, r1, e1, -, -, -, -, e2, e3, -⟩ := DidFull.C155_roles L hL hP robust strict alpha (clusterBy D none) hid R0 h0
  obtain ⟨-, w, u, rs, k1, k2⟩ := wild_twin hL hP (DidFull.twin_roles _ _) hB
  simp only [one_mul] at k2
  rw [← k1] at k2
  exact ⟨_, fit_boot.2 ⟨R1, B, r1, k2, rfl⟩, e1, rfl, rfl, rfl, rfl, e2, e3, rfl⟩

/-- C155. Wild bootstrap, outcome negated. -/
theorem C155_wild_sign (L : Lib ι ℝ) (hL : Works L) (hP : LinReg.Prunes L) (robust strict : Bool) (alpha : ℝ) (ha : 0 ≤ alpha) (ha' : alpha ≤ 1) (wt : String)
    (draws : List (C → ℝ)) (D : Data ι C ℝ) (g : ι → C) (R : Report) (h : fit L robust strict alpha (some (wt, draws)) D (some g) = .ok R) :
    fit L robust strict alpha (some (wt, draws)) D.negated (some g) = .ok R.mirror := by
  obtain ⟨R0, B, h0, hB, rfl⟩ := fit_boot.1 h
  obtain ⟨hne, hV, hid⟩ := boot_identified hP h0 hB
  refine fit_boot.2 ⟨DidFull.mirror R0, opposite B, DidFull.sign_ok hL hP (D := clusterBy D none) hid h0, ?_, (override_mirror _ _).symm⟩
  have hy : num (outcome D.negated) = fun i => -1 * num (outcome D) i := by
    funext i
    show num (DidFull.absorbed D.absorb (fun i => (D.y i).map (-1 * ·))) i = _
    rw [DidFull.absorbed_scale]
    show ((DidFull.absorbed D.absorb D.y i).map (-1 * ·)).getD 0 = -1 * (DidFull.absorbed D.absorb D.y i).getD 0
    cases DidFull.absorbed D.absorb D.y i <;> simp
  show wild L wt (matrix (flag D.d) (flag D.t) (extras D)) (num (outcome D.negated)) g (Fin.castAdd (extras D).length 3) 0 alpha draws = _
  rw [hy]
  have hX := wild_det hP hB
  have hB' := (wild_ok_iff hL hX).1 hB
  obtain ⟨b1, b2, b3, -, ⟨V, hVc⟩, -⟩ := WildBoot.wild_ok hB'
  have hcard : Fintype.card ι ≠ Fintype.card (Fin (4 + (extras D).length)) := by
    intro hne
    unfold WildBoot.cov Vcov.vcovNumpy at hVc
    simp only [nClusters_some] at hVc
    rw [if_neg (show ¬ (Finset.univ.image g).card < 2 from not_lt.2 b2), if_pos hne] at hVc
    cases hVc
  obtain ⟨B1, hB1⟩ := (WildBoot.C60_defined wt (matrix (flag D.d) (flag D.t) (extras D)) (fun i => -1 * num (outcome D) i) g (Fin.castAdd (extras D).length 3) 0 alpha
    draws hX hcard b3).2 ⟨b1, b2⟩
  obtain ⟨v, w, I⟩ := LinReg.exists_isolates hX (Fin.castAdd (extras D).length 3)
  have c1 := wild_closed I hB'
  have c2 := wild_closed I hB1
  rw [(wild_ok_iff hL hX).2 hB1, c2, c1]
  have hu : ∀ z : ι → ℝ, WildBoot.resid (matrix (flag D.d) (flag D.t) (extras D)) (fun i => -1 * z i) =
      fun i => -WildBoot.resid (matrix (flag D.d) (flag D.t) (extras D)) z i := fun z => by
    have := WildBoot.resid_neg (matrix (flag D.d) (flag D.t) (extras D)) z
    rw [show (fun i => -1 * z i) = -z from funext fun i => by simp, this]
    rfl
  have hrs : ∀ s : C → ℝ, (fun i => -WildBoot.resid (matrix (flag D.d) (flag D.t) (extras D)) (num (outcome D)) i * s (g i)) =
      fun i => -1 * (WildBoot.resid (matrix (flag D.d) (flag D.t) (extras D)) (num (outcome D)) i * s (g i)) := fun s => funext fun i => by ring
  simp only [hu, hrs]
  refine congrArg Except.ok (boot_opposite _ g alpha ha ha' draws b3 ?_ (fun i => by ring) (clusterVar_congr _ g fun i => by ring)
    (fun s => clusterVar_congr _ g fun i => by ring))
  rw [← Finset.sum_neg_distrib]
  exact Finset.sum_congr rfl fun i _ => by ring

/-- Ten rows, a covariate, three clusters, two draws: the coding of the groups, the coding of the periods, the roles of the two columns and the sign of the outcome. -/
example : ∃ L : Lib (Fin 10) ℝ, ∃ R, fit L true false (1 / 20) (some ("rademacher", signs)) (wildDemo (fun i => (i.val : ℝ) ^ 3)) (some DidFull.unit) = .ok R ∧
    fit L true false (1 / 20) (some ("rademacher", signs)) (wildDemo (fun i => (i.val : ℝ) ^ 3)).swapGroups (some DidFull.unit) = .ok R.relabel.mirror ∧
    fit L true false (1 / 20) (some ("rademacher", signs)) (wildDemo (fun i => (i.val : ℝ) ^ 3)).swapPeriods (some DidFull.unit) = .ok R.mirror ∧
    fit L true false (1 / 20) (some ("rademacher", signs)) (wildDemo (fun i => (i.val : ℝ) ^ 3)).negated (some DidFull.unit) = .ok R.mirror ∧
    ∃ R', fit L true false (1 / 20) (some ("rademacher", signs)) (wildDemo (fun i => (i.val : ℝ) ^ 3)).swapRoles (some DidFull.unit) = .ok R' ∧ R'.main.ci = R.main.ci := by
  obtain ⟨L, hL, hP⟩ := LinReg.exists_prunes (ι := Fin 10)
  obtain ⟨R, hR⟩ := wildDemo_runs L hL hP (fun i => (i.val : ℝ) ^ 3)
  obtain ⟨R', h1, -, -, -, -, h2, -⟩ := C155_wild_roles L hL hP _ _ _ _ _ _ _ R hR
  exact ⟨L, R, hR, C155_wild_groups L hL hP _ _ _ (by norm_num) (by norm_num) _ _ _ _ R hR, C155_wild_periods L hL hP _ _ _ (by norm_num) (by norm_num) _ _ _ _ R hR,
    C155_wild_sign L hL hP _ _ _ (by norm_num) (by norm_num) _ _ _ _ R hR, R', h1, h2⟩

end DiffDiff.WildLin
