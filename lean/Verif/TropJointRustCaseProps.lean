/-
Where the compiled search of `TROP(method="joint")` and the Python search disagree: fifty passes are not enough on wide panels, and
`lambda_unit = 0` with a unit that has no pre-treatment data.
-/
import Verif.TropJointRustFloatProps
import Mathlib.Algebra.Order.Ring.Pow
import Mathlib.Tactic.Linarith
import Mathlib.Tactic.FieldSimp

set_option linter.unusedSectionVars false
set_option linter.unusedVariables false

namespace DiffDiff.TropJointRust

open TropFit (Data Cfg Ops Lam3 sumL fieldOps extOps up toExt upC)
open TropJoint (Sol IsMin obj res)
open Finset

variable {K : Type*} [Field K] [LinearOrder K] [IsStrictOrderedRing K]
variable (e r : K → K) (svd : K → ℕ → ℕ → (ℕ → ℕ → K) → (ℕ → ℕ → K))

/-! ### Scores from single terms -/

theorem mapM_some {α β : Type*} (f : α → Option β) (l : List α) (h : ∀ a ∈ l, (f a).isSome) : ∃ m, l.mapM f = some m ∧ ∀ b, b ∈ m ↔ ∃ a ∈ l, f a = some b := by
  induction l with
  | nil => exact ⟨[], rfl, by simp⟩
  | cons a l ih =>
    obtain ⟨m, hm, hb⟩ := ih (fun a ha => h a (List.mem_cons_of_mem _ ha))
    obtain ⟨z, hz⟩ := Option.isSome_iff_exists.1 (h a List.mem_cons_self)
    refine ⟨z :: m, by rw [List.mapM_cons, hz, hm]; rfl, fun b => ?_⟩
    rw [List.mem_cons, hb]
    constructor
    · rintro (rfl | ⟨a', ha', h'⟩)
      · exact ⟨a, List.mem_cons_self, hz⟩
      · exact ⟨a', List.mem_cons_of_mem _ ha', h'⟩
    · rintro ⟨a', ha', h'⟩
      rcases List.mem_cons.1 ha' with rfl | ha'
      · rw [hz] at h'; exact Or.inl (Option.some.inj h').symm
      · exact Or.inr ⟨a', ha', h'⟩

theorem score_fin (c : Cfg (Ext K)) (P : Data (Ext K)) (W : ℕ → ℕ → Ext K) (lamN : Ext K) (obs : List (ℕ × ℕ)) (hne : obs ≠ [])
    (h : ∀ q ∈ obs, ∃ z : K, looTerm (extOps e r svd) c P W lamN q = some (some (.fin z))) :
    ∃ zs : List K, score (extOps e r svd) c P W lamN obs = some (.fin ((zs.map (fun z => z * z)).sum)) ∧
      ∀ z, z ∈ zs ↔ ∃ q ∈ obs, looTerm (extOps e r svd) c P W lamN q = some (some (.fin z)) := by
  obtain ⟨m, hm, hb⟩ := mapM_some (looTerm (extOps e r svd) c P W lamN) obs
    (fun q hq => by obtain ⟨z, hz⟩ := h q hq; rw [hz]; rfl)
  have hfin : ∀ b ∈ m, ∃ z : K, b = some (.fin z) := by
    intro b hb'
    obtain ⟨q, hq, hq'⟩ := (hb b).1 hb'
    obtain ⟨z, hz⟩ := h q hq
    rw [hz] at hq'
    exact ⟨z, (Option.some.inj hq').symm⟩
  have hlist : ∀ m : List (Option (Ext K)), (∀ b ∈ m, ∃ z : K, b = some (.fin z)) → ∃ zs : List K, m = zs.map (fun z => some (.fin z)) := by
    intro m
    induction m with
    | nil => intro _; exact ⟨[], rfl⟩
    | cons a m ih =>
      intro hm
      obtain ⟨z, rfl⟩ := hm a List.mem_cons_self
      obtain ⟨zs, rfl⟩ := ih (fun b hb => hm b (List.mem_cons_of_mem _ hb))
      exact ⟨z :: zs, rfl⟩
  obtain ⟨zs, rfl⟩ := hlist m hfin
  refine ⟨zs, ?_, fun z => ?_⟩
  · unfold score
    rw [hm]
    have hf : (zs.map (fun z => some (Ext.fin z))).filterMap id = zs.map Ext.fin := by
      clear hm hb hfin
      induction zs with
      | nil => rfl
      | cons a zs ih => rw [List.map_cons, List.filterMap_cons, ih]; rfl
    simp only [hf]
    cases zs with
    | nil =>
      exfalso
      obtain ⟨q, hq⟩ := List.exists_mem_of_ne_nil _ hne
      obtain ⟨z, hz⟩ := h q hq
      have := (hb (some (.fin z))).2 ⟨q, hq, hz⟩
      simp at this
    | cons a zs =>
      simp only [List.map_cons, Option.some.injEq]
      have := TropFit.sumL_up e r svd ((a :: zs).map (fun z => z * z))
      rw [TropFit.sumL_field] at this
      rw [List.map_map, List.map_cons, List.map_cons] at this
      rw [← this, List.map_map]
      rfl
  · rw [← hb (some (.fin z))]
    simp

theorem py_score_zero (v : TropJoint.Env K) (c : Cfg K) (P : Data K) (tp : ℕ) (l : Lam3 K) (obs : List (ℕ × ℕ)) (hne : obs ≠ [])
    (h : ∀ q ∈ obs, TropJoint.looTerm v c P tp l q = some 0) : TropJoint.score v c P tp obs l = some 0 := by
  obtain ⟨m, hm, hb⟩ := mapM_some (TropJoint.looTerm v c P tp l) obs (fun q hq => by rw [h q hq]; rfl)
  cases obs with
  | nil => exact absurd rfl hne
  | cons q qs =>
    unfold TropJoint.score
    simp only [hm, Option.map_some, Option.some.injEq]
    refine List.sum_eq_zero fun z hz => ?_
    obtain ⟨q', hq', hz'⟩ := (hb z).1 hz
    rw [h q' hq'] at hz'
    exact (Option.some.inj hz').symm

/-- A fit without factor matrix on finite weights. -/
theorem looTerm_fin (c : Cfg (Ext K)) (P : Data K) (W : ℕ → ℕ → K) (q : ℕ × ℕ) (y : K) (hy : P.Y q.1 q.2 = some y) (s : Sol K)
    (hs : solve (fieldOps e r svd) P.nT P.nN P.Y P.D (TropJoint.without W q) = some s) :
    looTerm (extOps e r svd) c (toExt P) (up W) (.fin (10 ^ 10)) q = some (some (.fin (y - s.mu - s.alpha q.2 - s.beta q.1 - 0))) := by
  unfold looTerm fitW
  have hw : without (extOps e r svd) (up W) q = up (TropJoint.without W q) := by
    funext t i
    simp only [without, up, TropJoint.without]
    split_ifs <;> rfl
  have hlt : (extOps e r svd).lt (.fin (10 ^ 10)) ((extOps e r svd).ofNat (10 ^ 10)) = false := by
    simp [extOps, Ext.lt]
    norm_num
  rw [hlt, hw]
  simp only [Bool.false_eq_true, if_false]
  have h1 : solve (extOps e r svd) (toExt P).nT (toExt P).nN (toExt P).Y (toExt P).D (up (TropJoint.without W q)) = some (upS s) := by
    have := solve_up e r svd P.nT P.nN P.Y P.D (TropJoint.without W q)
    rw [hs] at this
    exact this
  rw [h1]
  show some ((toExt P).Y q.1 q.2 |>.map _) = _
  have h2 : (toExt P).Y q.1 q.2 = some (.fin y) := by show (P.Y q.1 q.2).map _ = _; rw [hy]; rfl
  rw [h2]
  simp only [Option.map_some, upS, sub_up', show (extOps e r svd).zero = Ext.fin (0 : K) from rfl]
  rfl

/-- The weights do not vanish if one observed cell other than the left-out one has weight at least 1. -/
theorem solve_isSome (nT nN : ℕ) (Y : ℕ → ℕ → Option K) (D : ℕ → ℕ → ℤ) (W : ℕ → ℕ → K) (hW : ∀ t < nT, ∀ i < nN, 0 ≤ W t i)
    (t i : ℕ) (ht : t < nT) (hi : i < nN) (hy : (Y t i).isSome) (hw : 1 ≤ W t i) :
    1 / 10 ^ 10 ≤ ∑ t ∈ range nT, ∑ i ∈ range nN, TropJoint.mask Y W t i := by
  have nn := TropJoint.mask_nonneg (Y := Y) hW
  have h1 : TropJoint.mask Y W t i ≤ ∑ i ∈ range nN, TropJoint.mask Y W t i :=
    Finset.single_le_sum (f := fun i => TropJoint.mask Y W t i) (fun j hj => nn t ht j (Finset.mem_range.1 hj)) (Finset.mem_range.2 hi)
  have h2 : ∑ i ∈ range nN, TropJoint.mask Y W t i ≤ ∑ t ∈ range nT, ∑ i ∈ range nN, TropJoint.mask Y W t i :=
    Finset.single_le_sum (f := fun t => ∑ i ∈ range nN, TropJoint.mask Y W t i)
      (fun t' ht' => Finset.sum_nonneg fun j hj => nn t' (Finset.mem_range.1 ht') j (Finset.mem_range.1 hj)) (Finset.mem_range.2 ht)
  have h3 : TropJoint.mask Y W t i = W t i := by unfold TropJoint.mask; rw [if_pos hy]
  have h4 : (1 : K) / 10 ^ 10 ≤ 1 := by rw [div_le_one (by positivity)]; norm_num
  linarith

theorem rust_some (nT nN : ℕ) (Y : ℕ → ℕ → Option K) (D : ℕ → ℕ → ℤ) (W : ℕ → ℕ → K)
    (h : 1 / 10 ^ 10 ≤ ∑ t ∈ range nT, ∑ i ∈ range nN, TropJoint.mask Y W t i) :
    solve (fieldOps e r svd) nT nN Y D W = some (descend (fieldOps e r svd) (input (fieldOps e r svd) nT nN Y D W) 50
      (start (fieldOps e r svd) (input (fieldOps e r svd) nT nN Y D W))) := by
  unfold solve
  rw [tiny_eq, sumW_eq, if_neg]
  show ¬ decide (_ < _) = true
  rw [decide_eq_true_eq, not_lt]
  exact h

theorem py_some (v : TropJoint.Env K) (nT nN : ℕ) (Y : ℕ → ℕ → Option K) (D : ℕ → ℕ → ℤ) (W : ℕ → ℕ → K)
    (h : 1 / 10 ^ 10 ≤ ∑ t ∈ range nT, ∑ i ∈ range nN, TropJoint.mask Y W t i) : ∃ s, TropJoint.solve v nT nN Y D W = some s := by
  unfold TropJoint.solve
  rw [if_neg]
  · exact ⟨_, rfl⟩
  · rw [not_lt, TropJoint.list_sum]
    refine h.trans_eq (Finset.sum_congr rfl fun t _ => ?_)
    rw [TropJoint.list_sum]

/-- The Python pseudo effect of a left-out cell on data that are exactly additive, when three other cells close a rectangle with it. -/
theorem py_term_zero (v : TropJoint.Env K) (hl : TropJoint.LeastSquares v.lstsq) (hr : TropJoint.SqrtLike v.r) (c : Cfg K) (P : Data K)
    (tp : ℕ) (l : Lam3 K) (hl10 : 10 ^ 10 ≤ l.nn) (hT : 0 < P.nT) (hN : 0 < P.nN) (s0 : Sol K) (hs0 : s0.tau = 0)
    (hex : ∀ t < P.nT, ∀ i < P.nN, ∀ y, P.Y t i = some y → y = s0.mu + s0.alpha i + s0.beta t)
    (hW : ∀ t < P.nT, ∀ i < P.nN, 0 ≤ TropJoint.delta v P tp l.time l.unit t i) (t i t' i' : ℕ) (ht : t < P.nT) (hi : i < P.nN)
    (ht' : t' < P.nT) (hi' : i' < P.nN) (hti : t' ≠ t) (hii : i' ≠ i)
    (hy : (P.Y t i).isSome) (hd : P.D t i = 0)
    (h1 : (P.Y t i').isSome ∧ P.D t i' = 0 ∧ 1 ≤ TropJoint.delta v P tp l.time l.unit t i')
    (h2 : (P.Y t' i).isSome ∧ P.D t' i = 0 ∧ 1 ≤ TropJoint.delta v P tp l.time l.unit t' i)
    (h3 : (P.Y t' i').isSome ∧ P.D t' i' = 0 ∧ 1 ≤ TropJoint.delta v P tp l.time l.unit t' i') :
    TropJoint.looTerm v c P tp l (t, i) = some 0 := by
  set W := TropJoint.without (TropJoint.delta v P tp l.time l.unit) (t, i) with hWdef
  have hW' : ∀ t < P.nT, ∀ i < P.nN, 0 ≤ W t i := by
    intro a ha b hb
    simp only [hWdef, TropJoint.without]
    split_ifs
    · exact le_refl _
    · exact hW a ha b hb
  have w1 : W t i' = TropJoint.delta v P tp l.time l.unit t i' := by simp only [hWdef, TropJoint.without]; rw [if_neg (by simp [hii])]
  have w2 : W t' i = TropJoint.delta v P tp l.time l.unit t' i := by simp only [hWdef, TropJoint.without]; rw [if_neg (by simp [hti])]
  have w3 : W t' i' = TropJoint.delta v P tp l.time l.unit t' i' := by simp only [hWdef, TropJoint.without]; rw [if_neg (by simp [hti])]
  obtain ⟨s, hs⟩ := py_some v P.nT P.nN P.Y P.D W (solve_isSome P.nT P.nN P.Y P.D W hW' t i' ht hi' h1.1 (by rw [w1]; exact h1.2.2))
  have hm := TropJoint.solve_isMin v hl hr P.nT P.nN hT hN P.Y P.D W hW' s hs
  have hz : ∀ a < P.nT, ∀ b < P.nN, (P.Y a b).isSome → 1 ≤ W a b → P.D a b = 0 → s.mu + s.alpha b + s.beta a = s0.mu + s0.alpha b + s0.beta a := by
    intro a ha b hb hy hw hd
    have := TropJoint.isMin_exact P.nT P.nN _ _ P.D (TropJoint.mask_nonneg hW') s s0 hm (by
      intro a ha b hb hw
      have hs : (P.Y a b).isSome := by
        by_contra hc
        apply hw
        unfold TropJoint.mask; rw [if_neg hc]
      obtain ⟨y, hy⟩ := Option.isSome_iff_exists.1 hs
      have := hex a ha b hb y hy
      simp only [res, hy, Option.getD_some, hs0]
      rw [this]; ring) a b ha hb (by unfold TropJoint.mask; rw [if_pos hy]; linarith)
    obtain ⟨y, hy⟩ := Option.isSome_iff_exists.1 hy
    have hy' := hex a ha b hb y hy
    simp only [res, hy, Option.getD_some, hd] at this
    push_cast at this
    linear_combination -this + hy'
  have e1 := hz t ht i' hi' h1.1 (by rw [w1]; exact h1.2.2) h1.2.1
  have e2 := hz t' ht' i hi h2.1 (by rw [w2]; exact h2.2.2) h2.2.1
  have e3 := hz t' ht' i' hi' h3.1 (by rw [w3]; exact h3.2.2) h3.2.1
  unfold TropJoint.looTerm TropJoint.looFit TropJoint.fitW
  rw [if_pos hl10, hs]
  obtain ⟨y, hy⟩ := Option.isSome_iff_exists.1 hy
  have hy' := hex t ht i hi y hy
  simp only [Option.map_some, hy, Option.getD_some, Option.some.injEq]
  have : y - s.mu - s.alpha i - s.beta t - 0 = 0 := by linear_combination hy' - e1 - e2 + e3
  rw [this]; ring

/-! ### A wide panel -/

/-- Three periods, `n + 1` units. The first unit is at 1 and unobserved in the last period, all others are at 0, the second unit is treated
in the last period. -/
def wide (K : Type*) [Field K] (n : ℕ) : Data K :=
  { nT := 3, nN := n + 1
    Y := fun t i => if i = 0 then (if t < 2 then some 1 else none) else some 0
    D := fun t i => if t = 2 ∧ i = 1 then 1 else 0 }

/-- The masked inputs for `wide` without the cell of the first unit in the second period. -/
def wideIn (n : ℕ) : In K := input (fieldOps e r svd) 3 (n + 1) (wide K n).Y (wide K n).D (TropJoint.without (fun _ _ => 1) (1, 0))

theorem wide_w (n t i : ℕ) : (wideIn e r svd n : In K).w t i = if i = 0 then (if t = 0 then 1 else 0) else 1 := by
  simp only [wideIn, input, wide, TropJoint.without, Prod.mk.injEq]
  by_cases hi : i = 0
  · subst hi
    by_cases ht : t < 2
    · interval_cases t <;> simp
    · have : t ≠ 0 := by omega
      simp [ht, this, fieldOps]
  · simp [hi]

theorem wide_y (n t i : ℕ) (h : (wideIn e r svd n : In K).w t i ≠ 0) : (wideIn e r svd n : In K).y t i = if i = 0 then 1 else 0 := by
  rw [wide_w] at h
  simp only [wideIn, input, wide]
  by_cases hi : i = 0
  · subst hi
    by_cases ht : t = 0
    · simp [ht]
    · simp [ht] at h
  · simp [hi]

theorem wide_sum (n : ℕ) (f : ℕ → ℕ → K) :
    ∑ t ∈ range 3, ∑ i ∈ range (n + 1), (wideIn e r svd n : In K).w t i * f t i = f 0 0 + ∑ i ∈ range n, (f 0 (i + 1) + f 1 (i + 1) + f 2 (i + 1)) := by
  simp only [Finset.sum_range_succ' _ n, wide_w]
  simp [Finset.sum_range_succ, Finset.sum_add_distrib]
  ring

theorem wide_sumW (n : ℕ) : ∑ t ∈ range 3, ∑ i ∈ range (n + 1), (wideIn e r svd n : In K).w t i = 3 * n + 1 := by
  have := wide_sum e r svd n (fun _ _ => (1 : K))
  simp only [mul_one] at this
  rw [this, Finset.sum_const, Finset.card_range, nsmul_eq_mul]
  ring

theorem wide_sweep (n : ℕ) (s : Sol K) (h0 : s.alpha 0 = 0) (hb : s.beta = fun _ => 0) (ht : s.tau = 0) :
    sweep (fieldOps e r svd) (wideIn e r svd n) s =
      { mu := (1 + 3 * n * s.mu) / (3 * n + 1), alpha := fun i => if i = 0 then 0 else -s.mu, beta := fun _ => 0, tau := 0 } := by
  set x : In K := wideIn e r svd n with hx
  have hg : Good x := good_input e r svd 3 (n + 1) _ _ _ (by
    intro t _ i _; simp only [TropJoint.without]; split_ifs
    · exact le_refl _
    · exact zero_le_one)
  have hwy : ∀ t i (z : K), x.w t i * (x.y t i - z) = x.w t i * ((if i = 0 then 1 else 0) - z) := by
    intro t i z
    by_cases h : x.w t i = 0
    · rw [h, zero_mul, zero_mul]
    · rw [wide_y e r svd n t i h]
  have hnT : x.nT = 3 := rfl
  have hnN : x.nN = n + 1 := rfl
  have hA : alphaUp (fieldOps e r svd) x s = fun i => if i = 0 then 0 else -s.mu := by
    funext i
    rw [alphaUp_eq]
    by_cases hi : i = 0
    · rw [if_pos hi, if_pos hi, hi, h0]
    · rw [if_neg hi, if_neg hi, hnT, if_pos]
      · simp only [hb, ht, sub_sub, hwy]
        simp only [hx, wide_w, if_neg hi, zero_mul, add_zero]
        simp [Finset.sum_range_succ]
        field_simp
      · simp only [hx, wide_w, if_neg hi]
        rw [Finset.sum_const, Finset.card_range, nsmul_eq_mul, div_lt_iff₀ (by positivity)]
        norm_num
  have hB : ∀ s' : Sol K, s'.mu = s.mu → s'.alpha = (fun i => if i = 0 then 0 else -s.mu) → s'.beta = (fun _ => 0) → s'.tau = 0 →
      betaUp (fieldOps e r svd) x s' = fun _ => 0 := by
    intro s' hm ha hb' ht'
    funext t
    rw [betaUp_eq]
    by_cases h : t = 0
    · rw [if_pos h, hb']
    · rw [if_neg h]
      split_ifs
      · rw [hnN]
        have : ∑ i ∈ range (n + 1), x.w t i * (x.y t i - s'.mu - s'.alpha i - s'.tau * x.d t i) = 0 := by
          refine Finset.sum_eq_zero fun i _ => ?_
          rw [sub_sub, sub_sub, hwy, hm, ha, ht', hx, wide_w]
          by_cases hi : i = 0
          · simp [hi, h]
          · simp [hi]
        rw [this, zero_div]
      · rw [hb']
  have hTau : ∀ s' : Sol K, s'.mu = s.mu → s'.alpha = (fun i => if i = 0 then 0 else -s.mu) → s'.beta = (fun _ => 0) → s'.tau = 0 →
      tauUp (fieldOps e r svd) x s' = 0 := by
    intro s' hm ha hb' ht'
    rw [tauUp_eq e r svd x hg]
    split_ifs
    · have : ∑ t ∈ range x.nT, ∑ i ∈ range x.nN, x.w t i * x.d t i * (x.y t i - s'.mu - s'.alpha i - s'.beta t) = 0 := by
        refine Finset.sum_eq_zero fun t _ => Finset.sum_eq_zero fun i _ => ?_
        rw [mul_right_comm, sub_sub, sub_sub, hwy, hm, ha, hb']
        by_cases hi : i = 0
        · have : x.d t i = 0 := by
            show (if (if t = 2 ∧ i = 1 then (1 : ℤ) else 0) = 1 then (1 : K) else 0) = 0
            simp [hi]
          rw [this, mul_zero]
        · simp [hi]
      rw [this, zero_div]
    · exact ht'
  have hM : ∀ s' : Sol K, s'.alpha = (fun i => if i = 0 then 0 else -s.mu) → s'.beta = (fun _ => 0) → s'.tau = 0 →
      muUp (fieldOps e r svd) x s' = (1 + 3 * n * s.mu) / (3 * n + 1) := by
    intro s' ha hb' ht'
    rw [muUp_eq, hnT, hnN, hx, wide_sumW]
    congr 1
    have : ∀ t i, (wideIn e r svd n : In K).w t i * ((wideIn e r svd n : In K).y t i - s'.alpha i - s'.beta t - s'.tau * (wideIn e r svd n : In K).d t i)
        = (wideIn e r svd n : In K).w t i * (if i = 0 then 1 else s.mu) := by
      intro t i
      rw [sub_sub, sub_sub, ← hx, hwy, ha, hb', ht']
      by_cases hi : i = 0 <;> simp [hi]
    simp only [this]
    rw [wide_sum]
    simp
    ring
  unfold sweep
  simp only [hA]
  simp only [hB ⟨s.mu, fun i => if i = 0 then 0 else -s.mu, s.beta, s.tau⟩ rfl rfl hb ht]
  simp only [hTau ⟨s.mu, fun i => if i = 0 then 0 else -s.mu, fun _ => 0, s.tau⟩ rfl rfl rfl ht]
  rw [hM ⟨s.mu, fun i => if i = 0 then 0 else -s.mu, fun _ => 0, 0⟩ rfl rfl rfl]

theorem wide_descend (n k : ℕ) : ∀ s : Sol K, s.alpha 0 = 0 → s.beta = (fun _ => 0) → s.tau = 0 → s.mu ≤ 1 →
    (descend (fieldOps e r svd) (wideIn e r svd n) k s).alpha 0 = 0 ∧ (descend (fieldOps e r svd) (wideIn e r svd n) k s).beta = (fun _ => 0) ∧
    ((3 * n / (3 * n + 1) : K)) ^ k * (1 - s.mu) ≤ 1 - (descend (fieldOps e r svd) (wideIn e r svd n) k s).mu := by
  have hpos : (0 : K) < 3 * n + 1 := by positivity
  have hρ0 : (0 : K) ≤ 3 * n / (3 * n + 1) := by positivity
  have hρ1 : (3 * n / (3 * n + 1) : K) ≤ 1 := by rw [div_le_one hpos]; linarith
  induction k with
  | zero => intro s h0 hb ht hm; exact ⟨h0, hb, by simp [descend]⟩
  | succ k ih =>
    intro s h0 hb ht hm
    have hsw := wide_sweep e r svd n s h0 hb ht
    have hmu : 1 - (sweep (fieldOps e r svd) (wideIn e r svd n) s).mu = 3 * n / (3 * n + 1) * (1 - s.mu) := by
      rw [hsw]; field_simp; ring
    have hge : 0 ≤ 3 * n / (3 * n + 1) * (1 - s.mu) := mul_nonneg hρ0 (sub_nonneg.2 hm)
    rw [descend]
    split_ifs
    · refine ⟨by rw [hsw]; simp, by rw [hsw], ?_⟩
      rw [hmu, pow_succ, mul_assoc]
      exact mul_le_of_le_one_left hge (pow_le_one₀ hρ0 hρ1)
    · have := ih (sweep (fieldOps e r svd) (wideIn e r svd n) s) (by rw [hsw]; simp) (by rw [hsw]) (by rw [hsw]) (by linarith)
      refine ⟨this.1, this.2.1, ?_⟩
      rw [hmu, ← mul_assoc, ← pow_succ] at this
      exact this.2.2

/-- A unit observed in a period before treatment in which some treated unit is observed has a gap. -/
theorem gaps_ne (P : Data K) (tp t i j : ℕ) (ht : t + tp < P.nT) (hj : j ∈ TropFit.treatedUnits P) (hy : (P.Y t i).isSome)
    (hyj : (P.Y t j).isSome) : TropJoint.gaps P tp i ≠ [] := by
  obtain ⟨y, hy⟩ := Option.isSome_iff_exists.1 hy
  obtain ⟨z, hz⟩ := Option.isSome_iff_exists.1 hyj
  have hmem : z ∈ (TropJoint.treated P).filterMap (fun i => P.Y t i) := List.mem_filterMap.2 ⟨j, hj, hz⟩
  obtain ⟨a, ha⟩ : ∃ a, TropJoint.avgTreated P t = some a := by
    unfold TropJoint.avgTreated
    split
    · next h => rw [h] at hmem; cases hmem
    · exact ⟨_, rfl⟩
  refine List.ne_nil_of_mem (a := (a - y) ^ 2) (List.mem_filterMap.2 ⟨t, List.mem_range.2 (by omega), ?_⟩)
  rw [if_pos (by simp only [TropJoint.isPre, decide_eq_true_eq]; exact ht), ha, hy]; rfl

theorem wide_gaps (n : ℕ) (hn : 1 ≤ n) (i : ℕ) : TropJoint.gaps (wide K n) 1 i ≠ [] := by
  refine gaps_ne (wide K n) 1 0 i 1 (by show 0 + 1 < 3; omega) ?_ (by simp only [wide]; split_ifs <;> simp_all) rfl
  refine List.mem_filter.2 ⟨List.mem_range.2 (by show 1 < n + 1; omega), List.any_eq_true.2 ⟨2, List.mem_range.2 (by show 2 < 3; omega), ?_⟩⟩
  simp [wide]

/-- The documented weights of `wide` with `lambda_time = lambda_unit = 0`. -/
theorem wide_delta (v : TropJoint.Env K) (he : v.e 0 = 1) (n : ℕ) (hn : 1 ≤ n) (t i : ℕ) : TropJoint.delta v (wide K n) 1 0 0 t i = 1 := by
  unfold TropJoint.delta TropJoint.timeW TropJoint.unitW
  cases hg : TropJoint.gaps (wide K n) 1 i with
  | nil => exact absurd hg (wide_gaps n hn i)
  | cons a l => simp [he]

/-- C127. Claim refuted: "the compiled search scores a combination as the Python search does". On panels with `n + 1` units whose outcomes
are exactly additive, every left-out untreated cell is predicted without error by the Python fit, so the score is 0. The compiled solver
stops after fifty passes before it has moved: its score is at least `1 - 102 / (3 n + 1)`, as if nothing had been fitted. -/
theorem C127_passes_refuted (v : TropJoint.Env K) (hl : TropJoint.LeastSquares v.lstsq) (hr : TropJoint.SqrtLike v.r) (he : v.e 0 = 1)
    (c : Cfg K) (n : ℕ) (hn : 3 ≤ n) (obs : List (ℕ × ℕ)) (hobs : ∀ q ∈ obs, q ∈ TropFit.controlCells (wide K n)) (h10 : (1, 0) ∈ obs) :
    TropJoint.score v c (wide K n) 1 obs (TropJoint.conv (some 0, some 0, none)) = some 0 ∧
    ∃ x, scoreAt v.e v.r v.svd c (wide K n) 1 obs (some 0, some 0, none) = .fin x ∧ 1 - 102 / (3 * (n : K) + 1) ≤ x := by
  have hne : obs ≠ [] := List.ne_nil_of_mem h10
  have hcell : ∀ q ∈ obs, q.1 < 3 ∧ q.2 < n + 1 ∧ (wide K n).D q.1 q.2 = 0 ∧ ((wide K n).Y q.1 q.2).isSome := by
    intro q hq
    have := TropFit.mem_cells.1 (hobs q hq)
    simp only [Bool.and_eq_true, decide_eq_true_eq] at this
    exact this
  constructor
  · refine py_score_zero v c (wide K n) 1 _ obs hne fun q hq => ?_
    obtain ⟨h1, h2, h3, h4⟩ := hcell q hq
    obtain ⟨t, i⟩ := q
    simp only at h1 h2 h3 h4
    have hD : ∀ t i, ¬ (t = 2 ∧ i = 1) → (wide K n).D t i = 0 := fun t i h => if_neg h
    have hY : ∀ t i, (i = 0 → t < 2) → ((wide K n).Y t i).isSome := by
      intro t i h
      simp only [wide]
      by_cases hi : i = 0
      · simp [hi, h hi]
      · simp [hi]
    have hw : ∀ t i, (1 : K) ≤ TropJoint.delta v (wide K n) 1 (0 : K) 0 t i := fun t i => (wide_delta v he n (by omega) t i).ge
    refine py_term_zero v hl hr c (wide K n) 1 _ (le_refl _) (by show 0 < 3; omega) (Nat.succ_pos n)
      { mu := 1, alpha := fun i => if i = 0 then 0 else -1, beta := fun _ => 0, tau := 0 } rfl ?_
      (fun t _ i _ => zero_le_one.trans (hw t i)) t i (if t = 0 then 1 else 0) (if i = 2 then 3 else 2) h1 h2
      (by show _ < 3; split_ifs <;> omega) (by show _ < n + 1; split_ifs <;> omega) (by split_ifs <;> omega) (by split_ifs <;> omega) h4 h3
      ⟨hY _ _ (by grind), hD _ _ (by grind), hw _ _⟩
      ⟨hY _ _ (by grind), hD _ _ (by grind), hw _ _⟩
      ⟨hY _ _ (by grind), hD _ _ (by grind), hw _ _⟩
    intro t _ i _ y hy
    simp only [wide] at hy
    by_cases hi : i = 0
    · simp only [hi, if_true] at hy ⊢
      split_ifs at hy
      rw [← Option.some.inj hy]; ring
    · simp only [if_neg hi] at hy ⊢
      rw [← Option.some.inj hy]; ring
  · have hW : weights v.e v.r (wide K n) 1 (.fin 0) (.fin 0) = up (fun _ _ => (1 : K)) := by
      funext t i
      rw [C127_weights v (wide K n) 1 (by show 1 < 3; omega) 0 0 t i (Or.inl (wide_gaps n (by omega) i)), wide_delta v he n (by omega)]
      rfl
    have hsum : ∀ q ∈ obs, 1 / 10 ^ 10 ≤ ∑ t ∈ range 3, ∑ i ∈ range (n + 1), TropJoint.mask (wide K n).Y (TropJoint.without (fun _ _ => (1 : K)) q) t i := by
      intro q _
      refine solve_isSome 3 (n + 1) (wide K n).Y (wide K n).D _ (fun t _ i _ => ?_) 0 (if q.2 = 2 then 1 else 2) (by omega)
        (by split_ifs <;> omega) ?_ ?_
      · simp only [TropJoint.without]; split_ifs
        · exact le_refl _
        · exact zero_le_one
      · simp only [wide]; split_ifs <;> simp_all
      · simp only [TropJoint.without]
        rw [if_neg]
        intro h
        have := congrArg Prod.snd h
        simp only at this
        split_ifs at this <;> omega
    have hterm : ∀ q ∈ obs, ∃ z : K, looTerm (extOps v.e v.r v.svd) { maxIter := c.maxIter, tol := .fin c.tol } (toExt (wide K n))
        (up (fun _ _ => (1 : K))) (.fin (10 ^ 10)) q = some (some (.fin z)) := by
      intro q hq
      obtain ⟨y, hy⟩ := Option.isSome_iff_exists.1 (hcell q hq).2.2.2
      exact ⟨_, looTerm_fin v.e v.r v.svd _ (wide K n) _ q y hy _ (rust_some v.e v.r v.svd _ _ _ _ _ (hsum q hq))⟩
    obtain ⟨zs, h1, h2⟩ := score_fin v.e v.r v.svd { maxIter := c.maxIter, tol := .fin c.tol } (toExt (wide K n)) (up (fun _ _ => (1 : K)))
      (.fin (10 ^ 10)) obs hne hterm
    refine ⟨(zs.map (fun z => z * z)).sum, ?_, ?_⟩
    · show (score _ _ _ (weights v.e v.r (wide K n) 1 (.fin 0) (.fin 0)) (.fin (10 ^ 10)) obs).getD .pinf = _
      rw [hW, h1]; rfl
    · set x : In K := wideIn v.e v.r v.svd n with hx
      set s := descend (fieldOps v.e v.r v.svd) x 50 (start (fieldOps v.e v.r v.svd) x) with hs
      have h3 := looTerm_fin v.e v.r v.svd { maxIter := c.maxIter, tol := Ext.fin c.tol } (wide K n) (fun _ _ => (1 : K)) (1, 0) 1 rfl s
        (rust_some v.e v.r v.svd _ _ _ _ _ (hsum _ h10))
      have hmem := (h2 _).2 ⟨(1, 0), h10, h3⟩
      have hpos : (0 : K) < 3 * n + 1 := by positivity
      have hst : start (fieldOps v.e v.r v.svd) x = { mu := 1 / (3 * n + 1), alpha := fun _ => 0, beta := fun _ => 0, tau := 0 } := by
        unfold start
        rw [sumC_eq, sumW_eq]
        have e1 : ∑ t ∈ range x.nT, ∑ i ∈ range x.nN, (fieldOps v.e v.r v.svd).mul (x.w t i) (x.y t i) = 1 := by
          have e2 : ∀ t i, (fieldOps v.e v.r v.svd).mul (x.w t i) (x.y t i) = x.w t i * (if i = 0 then 1 else 0) := by
            intro t i
            show x.w t i * x.y t i = _
            by_cases h : x.w t i = 0
            · rw [h, zero_mul, zero_mul]
            · rw [wide_y v.e v.r v.svd n t i h]
          simp only [e2]
          have := wide_sum v.e v.r v.svd n (fun _ i => if i = 0 then (1 : K) else 0)
          rw [hx]
          refine Eq.trans this ?_
          simp
        have e3 : ∑ t ∈ range x.nT, ∑ i ∈ range x.nN, x.w t i = 3 * n + 1 := wide_sumW v.e v.r v.svd n
        rw [e1, e3]
        rfl
      have hmu1 : (1 : K) / (3 * n + 1) ≤ 1 := by rw [div_le_one hpos]; linarith [show (0 : K) ≤ n from Nat.cast_nonneg n]
      have hd := wide_descend v.e v.r v.svd n 50 (start (fieldOps v.e v.r v.svd) x) (by rw [hst]) (by rw [hst]) (by rw [hst]) (by rw [hst]; exact hmu1)
      rw [← hx, ← hs] at hd
      obtain ⟨ha, hb, hm⟩ := hd
      rw [hst] at hm
      have hρ : (1 : K) - 1 / (3 * n + 1) = 3 * n / (3 * n + 1) := by field_simp; ring
      rw [hρ, ← pow_succ] at hm
      have hz : (1 - s.mu - s.alpha 0 - s.beta 1 - 0) = 1 - s.mu := by rw [ha, hb]; ring
      simp only at hmem
      rw [hz] at hmem
      have hle : (1 - s.mu) * (1 - s.mu) ≤ (zs.map (fun z => z * z)).sum := by
        refine List.single_le_sum ?_ _ (List.mem_map.2 ⟨_, hmem, rfl⟩)
        intro w hw
        obtain ⟨z, -, rfl⟩ := List.mem_map.1 hw
        exact mul_self_nonneg z
      have hρ0 : (0 : K) ≤ 3 * n / (3 * n + 1) := by positivity
      have h4 : ((3 * n / (3 * n + 1) : K)) ^ 102 ≤ (1 - s.mu) * (1 - s.mu) := by
        have := mul_le_mul hm hm (pow_nonneg hρ0 _) ((pow_nonneg hρ0 _).trans hm)
        rwa [← pow_add] at this
      have h5 : 1 + (102 : ℕ) * (-(1 / (3 * (n : K) + 1))) ≤ (1 + (-(1 / (3 * (n : K) + 1)))) ^ 102 :=
        one_add_mul_le_pow (by linarith) 102
      rw [← sub_eq_add_neg, hρ] at h5
      have h6 : (1 : K) - 102 / (3 * n + 1) = 1 + (102 : ℕ) * (-(1 / (3 * (n : K) + 1))) := by push_cast; ring
      rw [h6]
      exact h5.trans (h4.trans hle)

/-! ### A unit without pre-treatment data -/

/-- Three periods, five units, all outcomes 0; the last two units are treated in the last period, and the last one is observed only then. -/
def late (K : Type*) [Field K] : Data K :=
  { nT := 3, nN := 5, Y := fun t i => if i = 4 ∧ t < 2 then none else some 0, D := fun t i => if t = 2 ∧ 3 ≤ i then 1 else 0 }

/-- With outcomes at 0 every pass stays at 0. -/
theorem solve_zero (nT nN : ℕ) (Y : ℕ → ℕ → Option K) (D : ℕ → ℕ → ℤ) (W : ℕ → ℕ → K) (hY : ∀ t i, (Y t i).getD 0 = 0)
    (hW : ∀ t < nT, ∀ i < nN, 0 ≤ W t i) (s : Sol K) (h : solve (fieldOps e r svd) nT nN Y D W = some s) :
    s = { mu := 0, alpha := fun _ => 0, beta := fun _ => 0, tau := 0 } := by
  set x := input (fieldOps e r svd) nT nN Y D W with hx
  have hg : Good x := good_input e r svd nT nN Y D W hW
  have hy : ∀ t i, x.y t i = 0 := hY
  have hsw : sweep (fieldOps e r svd) x { mu := 0, alpha := fun _ => 0, beta := fun _ => 0, tau := 0 } =
      { mu := 0, alpha := fun _ => 0, beta := fun _ => 0, tau := 0 } := by
    have hA : alphaUp (fieldOps e r svd) x { mu := 0, alpha := fun _ => 0, beta := fun _ => 0, tau := 0 } = fun _ => 0 := by
      funext i; rw [alphaUp_eq]; simp [hy]
    have hB : betaUp (fieldOps e r svd) x { mu := 0, alpha := fun _ => 0, beta := fun _ => 0, tau := 0 } = fun _ => 0 := by
      funext i; rw [betaUp_eq]; simp [hy]
    have hC : tauUp (fieldOps e r svd) x { mu := 0, alpha := fun _ => 0, beta := fun _ => 0, tau := 0 } = 0 := by
      rw [tauUp_eq e r svd x hg]; simp [hy]
    have hM : muUp (fieldOps e r svd) x { mu := 0, alpha := fun _ => 0, beta := fun _ => 0, tau := 0 } = 0 := by
      rw [muUp_eq]; simp [hy]
    simp only [sweep, hA, hB, hC, hM]
  have hst : start (fieldOps e r svd) x = { mu := 0, alpha := fun _ => 0, beta := fun _ => 0, tau := 0 } := by
    unfold start
    rw [sumC_eq]
    have : ∑ t ∈ range x.nT, ∑ i ∈ range x.nN, (fieldOps e r svd).mul (x.w t i) (x.y t i) = 0 :=
      Finset.sum_eq_zero fun t _ => Finset.sum_eq_zero fun i _ => by rw [hy]; exact mul_zero _
    rw [this]
    show (⟨0 / _, _, _, _⟩ : Sol K) = _
    rw [zero_div]; rfl
  have hd : ∀ k, descend (fieldOps e r svd) x k { mu := 0, alpha := fun _ => 0, beta := fun _ => 0, tau := 0 } =
      { mu := 0, alpha := fun _ => 0, beta := fun _ => 0, tau := 0 } := by
    intro k
    induction k with
    | zero => rfl
    | succ k ih => rw [descend, hsw, ih, ite_self]
  unfold solve at h
  split_ifs at h
  rw [← Option.some.inj h, ← hx, hst, hd]

theorem late_y (t i : ℕ) : ((late K).Y t i).getD 0 = 0 := by simp only [late]; split_ifs <;> rfl

theorem late_gaps (i : ℕ) (hi : i ≠ 4) : TropJoint.gaps (late K) 1 i ≠ [] := by
  refine gaps_ne (late K) 1 0 i 3 (by show 0 + 1 < 3; omega) ?_ (by simp [late, hi]) (by simp [late])
  refine List.mem_filter.2 ⟨List.mem_range.2 (by show 3 < 5; omega), List.any_eq_true.2 ⟨2, List.mem_range.2 (by show 2 < 3; omega), ?_⟩⟩
  simp [late]

theorem late_gaps4 : TropJoint.gaps (late K) 1 4 = [] := by
  unfold TropJoint.gaps
  rw [List.filterMap_eq_nil_iff]
  intro t ht
  by_cases h : TropJoint.isPre (late K) 1 t = true
  · rw [if_pos h]
    have ht2 : t < 2 := by
      simp only [TropJoint.isPre, decide_eq_true_eq] at h
      have : t + 1 < 3 := h
      omega
    have : (late K).Y t 4 = none := if_pos ⟨rfl, ht2⟩
    rw [this]
    cases TropJoint.avgTreated (late K) t <;> rfl
  · rw [if_neg h]

/-- All gaps are 0. -/
theorem late_gaps_zero (i : ℕ) : ∀ x ∈ TropJoint.gaps (late K) 1 i, x = 0 := by
  intro x hx
  unfold TropJoint.gaps at hx
  obtain ⟨t, -, ht⟩ := List.mem_filterMap.1 hx
  split_ifs at ht
  cases ha : TropJoint.avgTreated (late K) t with
  | none => rw [ha] at ht; cases ht
  | some a =>
    cases hy : (late K).Y t i with
    | none => rw [ha, hy] at ht; cases ht
    | some y =>
      rw [ha, hy] at ht
      have h1 : y = 0 := by have := late_y (K := K) t i; rw [hy] at this; exact this
      have h2 : a = 0 := by
        unfold TropJoint.avgTreated at ha
        split at ha
        · cases ha
        · rw [← Option.some.inj ha, List.sum_eq_zero, zero_div]
          intro z hz
          obtain ⟨j, -, hj⟩ := List.mem_filterMap.1 hz
          have := late_y (K := K) t j
          rw [hj] at this; exact this
      rw [← Option.some.inj ht, h1, h2]; simp

/-- The documented weights of `late`. -/
theorem late_delta (v : TropJoint.Env K) (hr : TropJoint.SqrtLike v.r) (he : v.e 0 = 1) (lamU : K) (t i : ℕ) :
    TropJoint.delta v (late K) 1 0 lamU t i = if i = 4 then 0 else 1 := by
  have hr0 : v.r 0 = 0 := mul_self_eq_zero.1 (hr 0 (le_refl _))
  unfold TropJoint.delta TropJoint.timeW TropJoint.unitW
  by_cases hi : i = 4
  · subst hi
    rw [late_gaps4]; simp
  · have hz := late_gaps_zero (K := K) i
    cases hg : TropJoint.gaps (late K) 1 i with
    | nil => exact absurd hg (late_gaps i hi)
    | cons a l =>
      rw [hg] at hz
      simp only [List.sum_eq_zero hz, zero_div, hr0, mul_zero, he, neg_zero, zero_mul, mul_one, if_neg hi]

/-- C127. Claim refuted: "the selected tuning parameters do not depend on the compiled backend". With a treated unit that is observed only
after treatment, and grids that start at `lambda_unit = 0`, the Python search keeps 0 (nothing is better than a score of 0); the compiled
search cannot score 0 (the weight of that unit is `exp(-0 * inf)`, NaN) and selects the next value. -/
theorem C127_zero_unit_refuted (v : TropJoint.Env K) (hl : TropJoint.LeastSquares v.lstsq) (hr : TropJoint.SqrtLike v.r) (he : v.e 0 = 1)
    (c : Cfg K) (obs : List (ℕ × ℕ)) (hobs : ∀ q ∈ obs, q ∈ TropFit.controlCells (late K)) (hne : obs ≠ []) (py : Comb K × Option K) :
    TropJoint.search (TropJoint.score v c (late K) 1 obs) [some 0] [some 0, some 1] [none] = ((some 0, some 0, none), some 0) ∧
    select (scoreAt v.e v.r v.svd c (late K) 1 obs) py [some 0] [some 0, some 1] [none] = ((some 0, some 1, none), some 0) := by
  have hcell : ∀ q ∈ obs, q.1 < 3 ∧ q.2 < 5 ∧ (late K).D q.1 q.2 = 0 ∧ ((late K).Y q.1 q.2).isSome := by
    intro q hq
    have := TropFit.mem_cells.1 (hobs q hq)
    simp only [Bool.and_eq_true, decide_eq_true_eq] at this
    exact this
  have hDeq : ∀ t i, (late K).D t i = 0 ↔ ¬ (t = 2 ∧ 3 ≤ i) := by
    intro t i; simp only [late]; split_ifs with h <;> simp [h]
  have hYeq : ∀ t i, ((late K).Y t i).isSome ↔ ¬ (i = 4 ∧ t < 2) := by
    intro t i; simp only [late]; split_ifs with h <;> simp only [h] <;> simp
  have hcell' : ∀ q ∈ obs, q.1 < 3 ∧ q.2 < 4 ∧ ¬ (q.1 = 2 ∧ 3 ≤ q.2) := by
    intro q hq
    obtain ⟨h1, h2, h3, h4⟩ := hcell q hq
    rw [hDeq] at h3
    rw [hYeq] at h4
    refine ⟨h1, by omega, h3⟩
  constructor
  · have hs : ∀ b : K, TropJoint.score v c (late K) 1 obs { time := 0, unit := b, nn := 10 ^ 10 } = some 0 := by
      intro b
      refine py_score_zero v c (late K) 1 _ obs hne fun q hq => ?_
      obtain ⟨h1, h2, h3⟩ := hcell' q hq
      obtain ⟨t, i⟩ := q
      simp only at h1 h2 h3
      have hw : ∀ t i, i ≠ 4 → (1 : K) ≤ TropJoint.delta v (late K) 1 0 b t i := fun t i hi => by rw [late_delta v hr he, if_neg hi]
      refine py_term_zero v hl hr c (late K) 1 _ (le_refl _) (by show 0 < 3; omega) (by show 0 < 5; omega)
        { mu := 0, alpha := fun i => 0, beta := fun _ => 0, tau := 0 } rfl ?_
        (fun t _ i _ => by simp only [late_delta v hr he]; split_ifs <;> simp) t i (if t = 0 then 1 else 0) (if i = 2 then 1 else 2) h1
        (by show i < 5; omega) (by show _ < 3; split_ifs <;> omega) (by show _ < 5; split_ifs <;> omega) (by split_ifs <;> omega)
        (by split_ifs <;> omega) ((hYeq _ _).2 (by omega)) ((hDeq _ _).2 h3)
        ⟨(hYeq _ _).2 (by grind), (hDeq _ _).2 (by grind), hw _ _ (by grind)⟩
        ⟨(hYeq _ _).2 (by grind), (hDeq _ _).2 (by grind), hw _ _ (by grind)⟩
        ⟨(hYeq _ _).2 (by grind), (hDeq _ _).2 (by grind), hw _ _ (by grind)⟩
      intro t _ i _ y hy
      have := late_y (K := K) t i
      rw [hy] at this
      simp only [Option.getD_some] at this
      rw [this]; ring
    have h0 := hs 0
    have h1 := hs 1
    simp only [TropJoint.search, TropJoint.combos, List.flatMap_cons, List.flatMap_nil, List.map_cons, List.map_nil, List.append_nil,
      List.cons_append, List.nil_append, List.foldl_cons, List.foldl_nil, TropJoint.better, TropJoint.conv, Option.getD_some, Option.getD_none, h0, h1,
      lt_self_iff_false, if_false]
  · obtain ⟨q, hq⟩ := List.exists_mem_of_ne_nil _ hne
    have hq' := hcell q hq
    have h0 : scoreAt v.e v.r v.svd c (late K) 1 obs (some 0, some 0, none) = .nan ∨
        scoreAt v.e v.r v.svd c (late K) 1 obs (some 0, some 0, none) = .pinf := by
      refine score_nan v.e v.r v.svd _ (toExt (late K)) _ _ obs q hq
        (by show (((late K).Y q.1 q.2).map _).isSome; rw [Option.isSome_map]; exact hq'.2.2.2) 2 4 (by show 2 < 3; omega) (by show 4 < 5; omega)
        (by show (((late K).Y 2 4).map _).isSome; rw [Option.isSome_map]; exact (hYeq 2 4).2 (by omega))
        (weights_nan v (late K) 1 (by show 1 < 3; omega) 0 2 4 late_gaps4).1 ?_
      intro h
      rw [← h] at hq'
      exact (hDeq 2 4).1 hq'.2.2.1 (by omega)
    have h1 : scoreAt v.e v.r v.svd c (late K) 1 obs (some 0, some 1, none) = .fin 0 := by
      have hW : weights v.e v.r (late K) 1 (.fin 0) (.fin 1) = up (fun _ i => if i = 4 then (0 : K) else 1) := by
        funext t i
        rw [C127_weights v (late K) 1 (by show 1 < 3; omega) 0 1 t i (Or.inr one_pos), late_delta v hr he]
        rfl
      have hterm : ∀ q ∈ obs, looTerm (extOps v.e v.r v.svd) { maxIter := c.maxIter, tol := .fin c.tol } (toExt (late K))
          (up (fun _ i => if i = 4 then (0 : K) else 1)) (.fin (10 ^ 10)) q = some (some (.fin 0)) := by
        intro q hq
        obtain ⟨y, hy⟩ := Option.isSome_iff_exists.1 (hcell q hq).2.2.2
        have hy0 : y = 0 := by have := late_y (K := K) q.1 q.2; rw [hy] at this; exact this
        have hW0 : ∀ t < 3, ∀ i < 5, (0 : K) ≤ TropJoint.without (fun _ i => if i = 4 then (0 : K) else 1) q t i := by
          intro t _ i _
          simp only [TropJoint.without]; split_ifs <;> simp
        have hsum := solve_isSome 3 5 (late K).Y (late K).D _ hW0 0 (if q.2 = 2 then 1 else 2) (by omega) (by split_ifs <;> omega)
          ((hYeq _ _).2 (by grind)) (by
            simp only [TropJoint.without]
            rw [if_neg, if_neg]
            · split_ifs <;> omega
            · intro h
              have := congrArg Prod.snd h
              simp only at this
              split_ifs at this <;> omega)
        have hs := rust_some v.e v.r v.svd 3 5 (late K).Y (late K).D _ hsum
        have hz := solve_zero v.e v.r v.svd 3 5 (late K).Y (late K).D _ late_y hW0 _ hs
        rw [hz] at hs
        rw [looTerm_fin v.e v.r v.svd _ (late K) _ q y hy _ hs, hy0]
        simp
      obtain ⟨zs, h1, h2⟩ := score_fin v.e v.r v.svd { maxIter := c.maxIter, tol := .fin c.tol } (toExt (late K))
        (up (fun _ i => if i = 4 then (0 : K) else 1)) (.fin (10 ^ 10)) obs hne (fun q hq => ⟨0, hterm q hq⟩)
      show (score _ _ _ (weights v.e v.r (late K) 1 (.fin 0) (.fin 1)) (.fin (10 ^ 10)) obs).getD .pinf = _
      rw [hW, h1]
      simp only [Option.getD_some, Ext.fin.injEq]
      refine List.sum_eq_zero fun w hw => ?_
      obtain ⟨z, hz, rfl⟩ := List.mem_map.1 hw
      obtain ⟨q, hq, hz'⟩ := (h2 z).1 hz
      rw [hterm q hq] at hz'
      simp only [Option.some.injEq, Ext.fin.injEq] at hz'
      rw [← hz', mul_zero]
    have hlt : Ext.lt (scoreAt v.e v.r v.svd c (late K) 1 obs (some 0, some 0, none)) .pinf = true → False := by
      rcases h0 with h | h <;> rw [h] <;> simp [Ext.lt]
    have hsearch : search (scoreAt v.e v.r v.svd c (late K) 1 obs) [some 0] [some 0, some 1] [none] = ((some 0, some 1, none), .fin 0) := by
      simp only [search, TropJoint.combos, List.flatMap_cons, List.flatMap_nil, List.map_cons, List.map_nil, List.append_nil,
        List.cons_append, List.nil_append, List.foldl_cons, List.foldl_nil, h1]
      rw [if_neg (fun h => hlt h)]
      simp [Ext.lt]
    unfold select
    rw [hsearch]

end DiffDiff.TropJointRust
