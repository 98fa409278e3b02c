/-
Properties of the Callaway-Sant'Anna model: C25 (aggregation), C26 (influence functions, bootstrap draws),
C30 (coding of never-treated units), C71 (covariate-adjusted estimators).
-/
import Verif.CSProps

set_option linter.unusedSectionVars false

namespace DiffDiff.CS

variable {K : Type*} [Field K] [LinearOrder K] [IsStrictOrderedRing K]
variable {n : ℕ}

/-! ### Specification -/

/-- `v` is a weighted average of the members of `l`: non-negative weights summing to one. -/
def IsConvex (v : K) (l : List K) : Prop :=
  ∃ w : List K, w.length = l.length ∧ (∀ x ∈ w, 0 ≤ x) ∧ w.sum = 1 ∧ v = (List.zipWith (· * ·) w l).sum

theorem zip_le (w l : List K) (hlen : w.length = l.length) (hw : ∀ x ∈ w, 0 ≤ x) (M : K) (h : ∀ x ∈ l, x ≤ M) :
    (List.zipWith (· * ·) w l).sum ≤ w.sum * M := by
  induction w generalizing l with
  | nil => simp
  | cons a w ih =>
    cases l with
    | nil => simp at hlen
    | cons b l =>
      rw [List.zipWith_cons_cons, List.sum_cons, List.sum_cons, add_mul]
      exact add_le_add (mul_le_mul_of_nonneg_left (h b (by simp)) (hw a (by simp)))
        (ih l (by simpa using hlen) (fun x hx => hw x (by simp [hx])) (fun x hx => h x (by simp [hx])))

theorem zip_ge (w l : List K) (hlen : w.length = l.length) (hw : ∀ x ∈ w, 0 ≤ x) (m : K) (h : ∀ x ∈ l, m ≤ x) :
    w.sum * m ≤ (List.zipWith (· * ·) w l).sum := by
  induction w generalizing l with
  | nil => simp
  | cons a w ih =>
    cases l with
    | nil => simp at hlen
    | cons b l =>
      rw [List.zipWith_cons_cons, List.sum_cons, List.sum_cons, add_mul]
      exact add_le_add (mul_le_mul_of_nonneg_left (h b (by simp)) (hw a (by simp)))
        (ih l (by simpa using hlen) (fun x hx => hw x (by simp [hx])) (fun x hx => h x (by simp [hx])))

theorem IsConvex.bounds {v : K} {l : List K} (h : IsConvex v l) (m M : K) (hl : ∀ x ∈ l, m ≤ x ∧ x ≤ M) :
    m ≤ v ∧ v ≤ M := by
  obtain ⟨w, h1, h2, h3, rfl⟩ := h
  have a := zip_ge w l h1 h2 m (fun x hx => (hl x hx).1)
  have b := zip_le w l h1 h2 M (fun x hx => (hl x hx).2)
  rw [h3, one_mul] at a b
  exact ⟨a, b⟩

theorem IsConvex.const {v : K} {l : List K} (h : IsConvex v l) (c : K) (hl : ∀ x ∈ l, x = c) : v = c := by
  have := h.bounds c c (fun x hx => by rw [hl x hx]; exact ⟨le_refl _, le_refl _⟩)
  exact le_antisymm this.2 this.1

/-! ### Lemmas on weights -/

theorem sum_map_div {α : Type*} (l : List α) (f : α → K) (s : K) : (l.map (fun x => f x / s)).sum = (l.map f).sum / s := by
  induction l with
  | nil => simp
  | cons a l ih => simp only [List.map_cons, List.sum_cons, ih, add_div]

theorem dot_sizeWeights (k : List ((Coh × ℤ) × Entry n K)) :
    dot (sizeWeights k) (k.map (fun x => x.2.effect)) =
      (k.map (fun x => (x.2.nT : K) * x.2.effect)).sum / (k.map (fun x => (x.2.nT : K))).sum := by
  unfold dot sizeWeights
  generalize (k.map (fun z => (z.2.nT : K))).sum = s
  induction k with
  | nil => simp
  | cons a k ih =>
    simp only [List.map_cons, List.zipWith_cons_cons, List.sum_cons]
    rw [ih]; ring

theorem total_pos (k : List ((Coh × ℤ) × Entry n K)) (hk : k ≠ []) (hn : ∀ x ∈ k, 0 < x.2.nT) :
    0 < (k.map (fun x => (x.2.nT : K))).sum := by
  cases k with
  | nil => exact absurd rfl hk
  | cons a k =>
    rw [List.map_cons, List.sum_cons]
    have h1 : (0 : K) < a.2.nT := Nat.cast_pos.2 (hn a (by simp))
    have h2 : 0 ≤ (k.map (fun x => (x.2.nT : K))).sum := by
      apply List.sum_nonneg
      intro x hx
      obtain ⟨y, _, rfl⟩ := List.mem_map.1 hx
      exact Nat.cast_nonneg _
    linarith

theorem sizeWeights_convex (k : List ((Coh × ℤ) × Entry n K)) (hk : k ≠ []) (hn : ∀ x ∈ k, 0 < x.2.nT) :
    IsConvex (dot (sizeWeights k) (k.map (fun x => x.2.effect))) (k.map (fun x => x.2.effect)) := by
  refine ⟨sizeWeights k, by simp [sizeWeights], ?_, ?_, rfl⟩
  · intro x hx
    obtain ⟨y, _, rfl⟩ := List.mem_map.1 hx
    exact div_nonneg (Nat.cast_nonneg _) (total_pos k hk hn).le
  · unfold sizeWeights
    rw [sum_map_div, div_self (total_pos k hk hn).ne']

theorem effects_nT_pos (c : Cfg) (P : Panel n K) : ∀ x ∈ effects c P, 0 < x.2.nT := by
  intro x hx
  obtain ⟨_, _, h⟩ := mem_effects hx
  obtain ⟨b, _, _, _, hT, _, h⟩ := attGt_some h
  rw [h]
  exact Nat.pos_of_ne_zero hT

/-! ### C25 -/

/-- C25: the overall effect is the cohort-size weighted average of exactly the effects with t ≥ g - anticipation,
with non-negative weights summing to one. -/
theorem C25_overall (c : Cfg) (P : Panel n K) (v : K) (h : overall c.ant (effects c P) = some v) :
    let k := (effects c P).filter (fun x => decide (IsPost c.ant x.1.1 x.1.2))
    k ≠ [] ∧ IsConvex v (k.map (fun x => x.2.effect)) ∧
    v * (k.map (fun x => (x.2.nT : K))).sum = (k.map (fun x => (x.2.nT : K) * x.2.effect)).sum := by
  intro k
  simp only [overall, postPairs_eq] at h
  split_ifs at h with h0
  have hk : k ≠ [] := fun hk => h0 (by show k.length = 0; rw [hk]; rfl)
  have hn : ∀ x ∈ k, 0 < x.2.nT := fun x hx => effects_nT_pos c P x (List.mem_filter.1 hx).1
  have hv := (Option.some.inj h).symm
  refine ⟨hk, ?_, ?_⟩
  · rw [hv]; exact sizeWeights_convex k hk hn
  · rw [hv, dot_sizeWeights, div_mul_cancel₀ _ (total_pos k hk hn).ne']

/-- C25: the overall effect is NaN exactly when there is no effect with t ≥ g - anticipation. -/
theorem C25_overall_nan (c : Cfg) (P : Panel n K) :
    overall c.ant (effects c P) = none ↔ ∀ x ∈ effects c P, ¬ IsPost c.ant x.1.1 x.1.2 := by
  simp only [overall, postPairs_eq]
  split_ifs with h0
  · rw [List.length_eq_zero_iff, List.filter_eq_nil_iff] at h0
    simpa using h0
  · refine iff_of_false (by simp) (fun h => h0 ?_)
    rw [List.length_eq_zero_iff, List.filter_eq_nil_iff]
    simpa using h

/-- C25: hence the overall effect lies between the smallest and largest post-treatment effect, and equals the
common value of homogeneous effects. -/
theorem C25_overall_bounds (c : Cfg) (P : Panel n K) (v m M : K) (h : overall c.ant (effects c P) = some v)
    (hb : ∀ x ∈ effects c P, IsPost c.ant x.1.1 x.1.2 → m ≤ x.2.effect ∧ x.2.effect ≤ M) : m ≤ v ∧ v ≤ M := by
  refine (C25_overall c P v h).2.1.bounds m M (fun y hy => ?_)
  obtain ⟨x, hx, rfl⟩ := List.mem_map.1 hy
  rw [List.mem_filter, decide_eq_true_eq] at hx
  exact hb x hx.1 hx.2

theorem C25_constant (c : Cfg) (P : Panel n K) (v θ : K) (h : overall c.ant (effects c P) = some v)
    (hb : ∀ x ∈ effects c P, IsPost c.ant x.1.1 x.1.2 → x.2.effect = θ) : v = θ := by
  have := C25_overall_bounds c P v θ θ h (fun x hx hp => by rw [hb x hx hp]; exact ⟨le_refl _, le_refl _⟩)
  exact le_antisymm this.2 this.1

/-- C24/C25: under parallel trends, no anticipation beyond the declared window and a constant effect θ, the overall
effect with never-treated controls is θ. -/
theorem C24_constant_effect_overall (c : Cfg) (P : Panel n K) (alpha : Fin n → K) (delta : ℤ → K)
    (tau : Fin n → ℤ → K) (θ v : K) (hpt : ParallelTrends P alpha delta tau) (hna : NoAnticipation c.ant P tau)
    (hc : c.ctl = .never) (hθ : ∀ u z t, P.cohort u = .num z → z ≠ 0 → z - c.ant ≤ t → tau u t = θ)
    (h : overall c.ant (effects c P) = some v) : v = θ := by
  refine C25_constant c P v θ h (fun x hx hp => ?_)
  obtain ⟨z, hz, hp⟩ := hp
  obtain ⟨hg, _, he⟩ := mem_effects hx
  rw [hz] at he hg
  have hz0 : z ≠ 0 := by
    rw [groups, List.mem_insertionSort, List.mem_filter] at hg
    have := hg.2
    simp only [Coh.pos, decide_eq_true_eq] at this
    omega
  rw [(C24_never_treated c P alpha delta tau hpt hna z x.1.2 x.2 he hc).1 hp]
  obtain ⟨b, hb, _, _, hT, _, e⟩ := attGt_some he
  have hcard : x.2.treated.card ≠ 0 := by rw [e]; exact hT
  rw [Finset.sum_congr rfl (fun u hu => hθ u z x.1.2
    ((C23_treated_exact c P _ _ b _ he hb u).1 hu).1 hz0 hp), Finset.sum_const, nsmul_eq_mul,
    mul_div_cancel_left₀ _ (Nat.cast_ne_zero.2 hcard)]

/-- Balance filter: cohort of x has an effect at relative time b. -/
def Balanced (bal : Option ℤ) (l : List ((Coh × ℤ) × Entry n K)) (x : (Coh × ℤ) × Entry n K) : Prop :=
  ∀ b, bal = some b → ∃ z ∈ l, z.1.1 = x.1.1 ∧ ∃ q, z.1.1 = .num q ∧ z.1.2 - q = b

theorem mem_esPairs {bal : Option ℤ} {l : List ((Coh × ℤ) × Entry n K)} {x : (Coh × ℤ) × Entry n K} :
    x ∈ esPairs bal l ↔ x ∈ l ∧ Balanced bal l x := by
  cases bal with
  | none => simp [esPairs, Balanced]
  | some b =>
    simp only [esPairs, List.mem_filter, List.any_eq_true, Bool.and_eq_true, decide_eq_true_eq, Balanced,
      Option.some.injEq]
    refine and_congr Iff.rfl ⟨?_, ?_⟩
    · rintro ⟨z, hz, h1, h2⟩ b' rfl
      refine ⟨z, hz, h1, ?_⟩
      cases hq : z.1.1 with
      | num q => rw [hq] at h2; exact ⟨q, rfl, by simpa [Coh.rel] using WithBot.coe_injective h2⟩
      | inf => rw [hq] at h2; simp [Coh.rel] at h2
      | nan => rw [hq] at h2; simp [Coh.rel] at h2
    · intro h
      obtain ⟨z, hz, h1, q, h2, h3⟩ := h b rfl
      refine ⟨z, hz, h1, ?_⟩
      rw [h2]
      simp [Coh.rel, h3]

theorem mem_relTimes {l : List ((Coh × ℤ) × Entry n K)} {e : WithBot ℤ} :
    e ∈ relTimes l ↔ ∃ x ∈ l, x.1.1.rel x.1.2 = e := by
  rw [relTimes, List.mem_insertionSort, List.mem_dedup, List.mem_map]

/-- C25: each event-study entry is the cohort-size weighted average of exactly the (balanced) effects at that
relative time, and reports how many there are; the only other entry is the zero reference of the universal base. -/
theorem C25_event (c : Cfg) (bal : Option ℤ) (P : Panel n K) (e : WithBot ℤ) (v : K) (k : ℕ)
    (h : (e, (v, k)) ∈ eventStudy c bal (effects c P)) :
    ∃ s : List ((Coh × ℤ) × Entry n K),
      (∀ x, x ∈ s ↔ x ∈ effects c P ∧ Balanced bal (effects c P) x ∧ x.1.1.rel x.1.2 = e) ∧
      s.Sublist (effects c P) ∧ k = s.length ∧
      ((s ≠ [] ∧ IsConvex v (s.map (fun x => x.2.effect)) ∧
          v * (s.map (fun x => (x.2.nT : K))).sum = (s.map (fun x => (x.2.nT : K) * x.2.effect)).sum) ∨
       (s = [] ∧ c.base = .universal ∧ e = ((-1 - c.ant : ℤ) : WithBot ℤ) ∧ v = 0)) := by
  set l := effects c P with hl
  set s := atRel (esPairs bal l) e with hs
  have hmem : ∀ x, x ∈ s ↔ x ∈ l ∧ Balanced bal l x ∧ x.1.1.rel x.1.2 = e := by
    intro x
    rw [hs, atRel, List.mem_filter, mem_esPairs, decide_eq_true_eq, and_assoc]
  have hsub : s.Sublist l := by
    refine List.Sublist.trans (List.filter_sublist) ?_
    cases bal with
    | none => exact List.Sublist.refl _
    | some b => exact List.filter_sublist
  have main : (e, (v, k)) ∈ (relTimes (esPairs bal l)).map (fun e =>
      (e, (dot (sizeWeights (atRel (esPairs bal l) e)) ((atRel (esPairs bal l) e).map (fun x => x.2.effect)),
        (atRel (esPairs bal l) e).length))) →
      k = s.length ∧ s ≠ [] ∧ IsConvex v (s.map (fun x => x.2.effect)) ∧
        v * (s.map (fun x => (x.2.nT : K))).sum = (s.map (fun x => (x.2.nT : K) * x.2.effect)).sum := by
    intro h
    obtain ⟨e', he', heq⟩ := List.mem_map.1 h
    simp only [Prod.mk.injEq] at heq
    obtain ⟨rfl, hv, hk⟩ := heq
    obtain ⟨x, hx, hxe⟩ := mem_relTimes.1 he'
    have hne : s ≠ [] := List.ne_nil_of_mem ((hmem x).2 ⟨(mem_esPairs.1 hx).1, (mem_esPairs.1 hx).2, hxe⟩)
    have hn : ∀ x ∈ s, 0 < x.2.nT := fun x hx => effects_nT_pos c P x ((hmem x).1 hx).1
    refine ⟨hk.symm, hne, ?_, ?_⟩
    · rw [← hv]; exact sizeWeights_convex s hne hn
    · rw [← hv, dot_sizeWeights, div_mul_cancel₀ _ (total_pos s hne hn).ne']
  refine ⟨s, hmem, hsub, ?_⟩
  simp only [eventStudy] at h
  cases hb : c.base with
  | varying =>
    rw [hb] at h
    obtain ⟨h1, h2⟩ := main h
    exact ⟨h1, Or.inl h2⟩
  | universal =>
    rw [hb] at h
    simp only at h
    split_ifs at h with hc
    · rw [List.mem_append] at h
      rcases h with h | h
      · obtain ⟨h1, h2⟩ := main h
        exact ⟨h1, Or.inl h2⟩
      · simp only [List.mem_singleton, Prod.mk.injEq] at h
        obtain ⟨h1, h2, h3⟩ := h
        have hs0 : s = [] := by
          rw [List.eq_nil_iff_forall_not_mem]
          intro x hx
          have hx' := (hmem x).1 hx
          apply hc.2
          rw [List.map_map, ← h1]
          exact List.mem_map.2 ⟨e, mem_relTimes.2 ⟨x, mem_esPairs.2 ⟨hx'.1, hx'.2.1⟩, hx'.2.2⟩, rfl⟩
        exact ⟨by rw [hs0, h3]; rfl, Or.inr ⟨hs0, rfl, h1, h2⟩⟩
    · obtain ⟨h1, h2⟩ := main h
      exact ⟨h1, Or.inl h2⟩

/-- C25: every (balanced) effect is used in the event study, and relative times are not repeated. -/
theorem C25_event_complete (c : Cfg) (bal : Option ℤ) (P : Panel n K) :
    (∀ x ∈ effects c P, Balanced bal (effects c P) x → x.1.1.rel x.1.2 ∈ (eventStudy c bal (effects c P)).map Prod.fst) ∧
    ((eventStudy c bal (effects c P)).map Prod.fst).Nodup := by
  have hfst : ∀ s : List ((Coh × ℤ) × Entry n K), ((relTimes s).map (fun e =>
      (e, (dot (sizeWeights (atRel s e)) ((atRel s e).map (fun x => x.2.effect)), (atRel s e).length)))).map Prod.fst
      = relTimes s := by
    intro s; rw [List.map_map]; exact List.map_id _
  have hnd : ∀ s : List ((Coh × ℤ) × Entry n K), (relTimes s).Nodup := by
    intro s
    exact (List.perm_insertionSort _ _).nodup_iff.2 (List.nodup_dedup _)
  constructor
  · intro x hx hbal
    have hm : x.1.1.rel x.1.2 ∈ relTimes (esPairs bal (effects c P)) :=
      mem_relTimes.2 ⟨x, mem_esPairs.2 ⟨hx, hbal⟩, rfl⟩
    simp only [eventStudy]
    cases c.base with
    | varying => simp only; rw [hfst]; exact hm
    | universal =>
      simp only
      split_ifs
      · rw [List.map_append, hfst]; exact List.mem_append_left _ hm
      · rw [hfst]; exact hm
  · simp only [eventStudy]
    cases c.base with
    | varying => simp only; rw [hfst]; exact hnd _
    | universal =>
      simp only
      split_ifs with hc
      · rw [List.map_append, hfst, List.nodup_append]
        rw [hfst] at hc
        refine ⟨hnd _, by simp, ?_⟩
        intro a ha b hb
        simp only [List.map_cons, List.map_nil, List.mem_singleton] at hb
        rw [hb]
        rintro rfl
        exact hc.2 ha
      · rw [hfst]; exact hnd _

/-- C25: each group effect is the simple average of exactly the effects of that cohort with t ≥ g - anticipation. -/
theorem C25_group (ant : ℤ) (gs : List Coh) (l : List ((Coh × ℤ) × Entry n K)) (g : Coh) (v : K) (k : ℕ)
    (h : (g, (v, k)) ∈ groupEffects ant gs l) :
    let s := l.filter (fun x => decide (x.1.1 = g ∧ IsPost ant x.1.1 x.1.2))
    g ∈ gs ∧ s ≠ [] ∧ k = s.length ∧ IsConvex v (s.map (fun x => x.2.effect)) ∧
      v = (s.map (fun x => x.2.effect)).sum / (s.length : K) := by
  intro s
  rw [groupEffects, List.mem_filterMap] at h
  obtain ⟨g', hg', h⟩ := h
  simp only at h
  have hs : groupPairs ant l g' = l.filter (fun x => decide (x.1.1 = g' ∧ IsPost ant x.1.1 x.1.2)) := by
    refine List.filter_congr (fun x _ => ?_)
    by_cases hx : x.1.1 = g'
    · subst hx
      rw [Bool.eq_iff_iff]
      simp [post_iff]
    · simp [hx]
  split_ifs at h with h0
  simp only [Option.some.injEq, Prod.mk.injEq] at h
  obtain ⟨rfl, hv, hk⟩ := h
  rw [hs] at hv hk h0
  change dot (equalWeights s) (s.map (fun x => x.2.effect)) = v at hv
  change s.length = k at hk
  change ¬ s.length = 0 at h0
  have hne : (s.length : K) ≠ 0 := Nat.cast_ne_zero.2 h0
  have hsum : v = (s.map (fun x => x.2.effect)).sum / (s.length : K) := by
    rw [← hv]
    unfold dot equalWeights
    generalize (s.length : K) = q
    clear_value s
    clear hv hk h0 hne
    induction s with
    | nil => simp
    | cons a s ih =>
      simp only [List.map_cons, List.zipWith_cons_cons, List.sum_cons, ih]
      ring
  refine ⟨hg', fun hn => h0 (by rw [hn]; rfl), hk.symm, ?_, hsum⟩
  refine ⟨equalWeights s, by simp [equalWeights], ?_, ?_, hv.symm⟩
  · intro x hx
    obtain ⟨y, _, rfl⟩ := List.mem_map.1 hx
    exact div_nonneg zero_le_one (Nat.cast_nonneg _)
  · unfold equalWeights
    rw [List.map_const', List.sum_replicate, nsmul_eq_mul, mul_one_div_cancel hne]

example : overall 0 (effects ⟨.varying, .never, 0, .reg⟩ demo) = some 0 := by decide +kernel
example : (eventStudy ⟨.universal, .never, 0, .reg⟩ (some 2) (effects ⟨.universal, .never, 0, .reg⟩ demo)) =
    [(((-3 : ℤ) : WithBot ℤ), (0, 1)), (((-2 : ℤ) : WithBot ℤ), (0, 1)), (((0 : ℤ) : WithBot ℤ), (0, 1)),
     (((1 : ℤ) : WithBot ℤ), (0, 1)), (((2 : ℤ) : WithBot ℤ), (0, 1)), (((-1 : ℤ) : WithBot ℤ), (0, 0))] := by decide +kernel

/-! ### C26 -/

theorem sum_dev (S : Finset (Fin n)) (d : Fin n → K) (hS : S.card ≠ 0) : ∑ u ∈ S, (d u - mean S d) = 0 := by
  rw [Finset.sum_sub_distrib, Finset.sum_const, nsmul_eq_mul]
  unfold mean
  rw [mul_div_cancel₀ _ (Nat.cast_ne_zero.2 hS), sub_self]

/-- C26: the influence function of every reported effect sums to zero, on each side. -/
theorem C26_centred (c : Cfg) (P : Panel n K) (g : Coh) (t : ℤ) (e : Entry n K) (h : attGt c P g t = some e) :
    ∑ u ∈ e.treated, e.infT u = 0 ∧ ∑ u ∈ e.control, e.infC u = 0 := by
  obtain ⟨b, _, _, _, hT, hC, rfl⟩ := attGt_some h
  constructor
  · show ∑ u ∈ treatedSet P g b t, (change P b t u - mean (treatedSet P g b t) (change P b t)) / _ = 0
    rw [← Finset.sum_div, sum_dev _ _ hT, zero_div]
  · show ∑ u ∈ controlSet c P g b t, -((change P b t u - mean (controlSet c P g b t) (change P b t)) / _) = 0
    rw [Finset.sum_neg_distrib, ← Finset.sum_div, sum_dev _ _ hC, zero_div, neg_zero]

/-- C26: a constant multiplier reproduces the estimate; constants may even differ between treated and controls. -/
theorem C26_constant_weights (c : Cfg) (P : Panel n K) (g : Coh) (t : ℤ) (e : Entry n K)
    (h : attGt c P g t = some e) (w : Fin n → K) (a b : K) (ha : ∀ u ∈ e.treated, w u = a)
    (hb : ∀ u ∈ e.control, w u = b) : bootAtt w e = e.effect := by
  obtain ⟨h1, h2⟩ := C26_centred c P g t e h
  unfold bootAtt
  have e1 : ∑ u ∈ e.treated, w u * e.infT u = ∑ u ∈ e.treated, a * e.infT u :=
    Finset.sum_congr rfl (fun u hu => by rw [ha u hu])
  have e2 : ∑ u ∈ e.control, w u * e.infC u = ∑ u ∈ e.control, b * e.infC u :=
    Finset.sum_congr rfl (fun u hu => by rw [hb u hu])
  rw [e1, e2, ← Finset.mul_sum, ← Finset.mul_sum, h1, h2]
  simp

theorem bootAtt_eq (w : Fin n → K) (e : Entry n K) : bootAtt w e = e.effect + ∑ u, w u * psi e u := by
  unfold bootAtt psi
  congr 1
  simp only [mul_add, Finset.sum_add_distrib, mul_ite, mul_zero]
  rw [Finset.sum_ite_mem, Finset.sum_ite_mem, Finset.univ_inter, Finset.univ_inter]

/-- C26: every draw of an aggregate is the aggregate plus a linear function of the multipliers whose coefficients
are the aggregated influence function used for the analytic standard error. -/
theorem C26_draw_linear (w : Fin n → K) (a : List K) (l : List (Entry n K)) :
    bootAgg w a l = dot a (l.map (fun e => e.effect)) + ∑ u, w u * aggPsi a l u := by
  unfold bootAgg dot aggPsi
  induction a generalizing l with
  | nil => simp
  | cons x a ih =>
    cases l with
    | nil => simp
    | cons e l =>
      simp only [List.map_cons, List.zipWith_cons_cons, List.sum_cons, ih, bootAtt_eq, mul_add,
        Finset.sum_add_distrib]
      have : x * ∑ u, w u * psi e u = ∑ u, w u * (x * psi e u) := by
        rw [Finset.mul_sum]; exact Finset.sum_congr rfl (fun u _ => by ring)
      rw [this]; ring

/-- C26: for multipliers with mean zero, unit variance and no correlation across units, the variance of the draws
of any aggregate is exactly the squared analytic standard error (without the weight-estimation term). -/
theorem C26_bootstrap_variance {Ω : Type*} [Fintype Ω] (p : Ω → K) (w : Ω → Fin n → K)
    (hcov : ∀ u v, ∑ ω, p ω * (w ω u * w ω v) = if u = v then 1 else 0) (a : List K) (l : List (Entry n K)) :
    ∑ ω, p ω * (bootAgg (w ω) a l - dot a (l.map (fun e => e.effect))) ^ 2 = aggVar a l := by
  have : ∀ ω, p ω * (bootAgg (w ω) a l - dot a (l.map (fun e => e.effect))) ^ 2 =
      ∑ u, ∑ v, (p ω * (w ω u * w ω v)) * (aggPsi a l u * aggPsi a l v) := by
    intro ω
    rw [C26_draw_linear, add_sub_cancel_left, pow_two, Finset.sum_mul_sum, Finset.mul_sum]
    refine Finset.sum_congr rfl (fun u _ => ?_)
    rw [Finset.mul_sum]
    exact Finset.sum_congr rfl (fun v _ => by ring)
  rw [Finset.sum_congr rfl (fun ω _ => this ω), Finset.sum_comm]
  unfold aggVar
  refine Finset.sum_congr rfl (fun u _ => ?_)
  rw [Finset.sum_comm]
  have h2 : ∀ v, ∑ ω, (p ω * (w ω u * w ω v)) * (aggPsi a l u * aggPsi a l v) =
      if u = v then aggPsi a l u * aggPsi a l v else 0 := by
    intro v
    rw [← Finset.sum_mul, hcov]
    split_ifs <;> simp
  rw [Finset.sum_congr rfl (fun v _ => h2 v), Finset.sum_ite_eq Finset.univ u, if_pos (Finset.mem_univ u), pow_two]

theorem sum_infT_sq (m : Method) (T C : Finset (Fin n)) (d : Fin n → K) :
    ∑ u ∈ T, (estimate m T C d).infT u ^ 2 = (∑ u ∈ T, (d u - mean T d) ^ 2) / (T.card : K) ^ 2 := by
  rw [Finset.sum_div]
  exact Finset.sum_congr rfl (fun u _ => by show ((d u - mean T d) / _) ^ 2 = _; rw [div_pow])

theorem sum_infC_sq (m : Method) (T C : Finset (Fin n)) (d : Fin n → K) :
    ∑ u ∈ C, (estimate m T C d).infC u ^ 2 = (∑ u ∈ C, (d u - mean C d) ^ 2) / (C.card : K) ^ 2 := by
  rw [Finset.sum_div]
  exact Finset.sum_congr rfl (fun u _ => by show (-((d u - mean C d) / _)) ^ 2 = _; rw [neg_sq, div_pow])

theorem scaled (S : K) (c : ℕ) (hc : 1 < c) :
    S / ((c : K) - 1) / (c : K) = (c : K) / ((c : K) - 1) * (S / (c : K) ^ 2) := by
  have h1 : (1 : K) < c := by exact_mod_cast hc
  have h2 : (c : K) - 1 ≠ 0 := by linarith
  have h3 : (c : K) ≠ 0 := by linarith
  field_simp

/-- C26: with at least two units on each side, the squared standard error of ATT(g,t) (methods "reg" and "dr") is
the sum of squared influence values with the degrees-of-freedom factor n/(n-1) on each side. -/
theorem C26_variance (c : Cfg) (P : Panel n K) (g : Coh) (t : ℤ) (e : Entry n K) (h : attGt c P g t = some e)
    (hm : c.method ≠ .ipw) (h1 : 1 < e.nT) (h2 : 1 < e.nC) :
    e.var = (e.nT : K) / ((e.nT : K) - 1) * ∑ u ∈ e.treated, e.infT u ^ 2 +
      (e.nC : K) / ((e.nC : K) - 1) * ∑ u ∈ e.control, e.infC u ^ 2 := by
  obtain ⟨b, _, _, _, hT, hC, rfl⟩ := attGt_some h
  generalize treatedSet P g b t = T at *
  generalize controlSet c P g b t = C at *
  generalize change P b t = d at *
  change 1 < T.card at h1
  change 1 < C.card at h2
  have e1 := sum_infT_sq c.method T C d
  have e2 := sum_infC_sq c.method T C d
  show (estimate c.method T C d).var = (T.card : K) / ((T.card : K) - 1) * ∑ u ∈ T, (estimate c.method T C d).infT u ^ 2
    + (C.card : K) / ((C.card : K) - 1) * ∑ u ∈ C, (estimate c.method T C d).infC u ^ 2
  rw [e1, e2, ← scaled _ _ h1, ← scaled _ _ h2]
  cases hme : c.method with
  | ipw => exact absurd hme hm
  | reg => simp only [estimate, var1, if_pos h1, if_pos h2]
  | dr => simp only [estimate, var1, if_pos h1, if_pos h2]

/-- C26: with method "ipw" (no covariates) the control variance is divided by the number of *treated* units. -/
theorem C26_ipw_variance (T C : Finset (Fin n)) (d : Fin n → K) (hT : T.card ≠ 0) (hC : C.card ≠ 0) :
    (estimate .ipw T C d).var = var1 T d / (T.card : K) + var1 C d / (T.card : K) := by
  have h1 : (T.card : K) ≠ 0 := Nat.cast_ne_zero.2 hT
  have h2 : (C.card : K) ≠ 0 := Nat.cast_ne_zero.2 hC
  have h3 : (T.card : K) + (C.card : K) ≠ 0 := by
    have a : (0 : K) < T.card := Nat.cast_pos.2 (Nat.pos_of_ne_zero hT)
    have b : (0 : K) < C.card := Nat.cast_pos.2 (Nat.pos_of_ne_zero hC)
    linarith
  simp only [estimate]
  field_simp
  ring

/-- Two treated units and four controls with outcomes in two periods. -/
def demo2 : Panel 6 ℚ where
  cohort := ![.num 2, .num 2, .num 0, .num 0, .num 0, .num 0]
  times := [1, 2]
  y := fun u t => some (if t = 1 then 0 else if u = 0 then 2 else if u = 1 then 4 else (u.val : ℚ))

/-- C26 is false for method "ipw" without covariates: same estimate and same influence function as "dr", but a
different standard error; here the squared errors are 11/6 and 17/12. -/
theorem C26_ipw_refuted :
    ((attGt ⟨.varying, .never, 0, .ipw⟩ demo2 (.num 2) 2).map (fun e => (e.effect, e.var))) = some (-1/2, 11/6) ∧
    ((attGt ⟨.varying, .never, 0, .dr⟩ demo2 (.num 2) 2).map (fun e => (e.effect, e.var))) = some (-1/2, 17/12) := by
  constructor <;> decide +kernel

/-- C26 is false across outputs: an event-study entry (or group effect) made of a single ATT(g,t) has a smaller
standard error than that ATT(g,t) itself, because the aggregate omits the degrees-of-freedom factor. -/
theorem C26_single_pair_refuted :
    (attGt ⟨.varying, .never, 0, .dr⟩ demo2 (.num 2) 2).map (fun e => decide (aggVar [1] [e] < e.var)) = some true := by
  decide +kernel

/-- C26: for a single effect the aggregate standard error never exceeds the effect's own ("reg", "dr"). -/
theorem C26_single_pair_le (c : Cfg) (P : Panel n K) (g : Coh) (t : ℤ) (e : Entry n K) (h : attGt c P g t = some e)
    (hg : g.isNever = false) (hm : c.method ≠ .ipw) (h1 : 1 < e.nT) (h2 : 1 < e.nC) : aggVar [1] [e] ≤ e.var := by
  rw [C26_variance c P g t e h hm h1 h2]
  have hd := C23_disjoint c P g t e h hg
  have hs : aggVar [1] [e] = ∑ u ∈ e.treated, e.infT u ^ 2 + ∑ u ∈ e.control, e.infC u ^ 2 := by
    unfold aggVar aggPsi psi
    have : ∀ u, ((List.zipWith (fun a (e : Entry n K) => a * ((if u ∈ e.treated then e.infT u else 0) +
        (if u ∈ e.control then e.infC u else 0))) [(1 : K)] [e]).sum) ^ 2 =
        (if u ∈ e.treated then e.infT u ^ 2 else 0) + (if u ∈ e.control then e.infC u ^ 2 else 0) := by
      intro u
      by_cases h1 : u ∈ e.treated
      · have h2 : u ∉ e.control := Finset.disjoint_left.1 hd h1
        simp [h1, h2]
      · simp [h1]
    rw [Finset.sum_congr rfl (fun u _ => this u), Finset.sum_add_distrib, Finset.sum_ite_mem, Finset.sum_ite_mem,
      Finset.univ_inter, Finset.univ_inter]
  rw [hs]
  have fac : ∀ c : ℕ, 1 < c → ∀ x : K, 0 ≤ x → x ≤ (c : K) / ((c : K) - 1) * x := by
    intro c hc x hx
    have h1 : (1 : K) < c := by exact_mod_cast hc
    have h2 : 0 < (c : K) - 1 := by linarith
    have h3 : 1 ≤ (c : K) / ((c : K) - 1) := by rw [le_div_iff₀ h2]; linarith
    nlinarith
  exact add_le_add (fac _ h1 _ (Finset.sum_nonneg (fun _ _ => sq_nonneg _)))
    (fac _ h2 _ (Finset.sum_nonneg (fun _ _ => sq_nonneg _)))

theorem sum_map_sub' {α : Type*} (l : List α) (f g : α → K) :
    (l.map (fun x => f x - g x)).sum = (l.map f).sum - (l.map g).sum := by
  induction l with
  | nil => simp
  | cons a l ih => simp only [List.map_cons, List.sum_cons, ih]; ring

theorem sum_map_mul_right' {α : Type*} (l : List α) (f : α → K) (r : K) :
    (l.map (fun x => f x * r)).sum = (l.map f).sum * r := by
  induction l with
  | nil => simp
  | cons a l ih => simp only [List.map_cons, List.sum_cons, ih]; ring

/-- C26: when all aggregated effects are equal, estimating the weights adds nothing to the standard error. -/
theorem C26_wif_homogeneous (P : Panel n K) (N : ℕ) (k : List (Coh × K)) (θ : K) (hk : ∀ x ∈ k, x.2 = θ)
    (hS : (k.map (fun x => pg (K := K) P N x.1)).sum ≠ 0) (u : Fin n) : wif P N k u = 0 := by
  simp only [wif]
  generalize hI : (k.map (fun x => (if P.cohort u = x.1 then (1 : K) else 0) - pg P N x.1)).sum = I
  generalize hSS : (k.map (fun x => pg (K := K) P N x.1)).sum = S at *
  have e1 : (k.map (fun x => (((if P.cohort u = x.1 then (1 : K) else 0) - pg P N x.1) / S -
      I * pg P N x.1 / S ^ 2) * x.2)) =
      k.map (fun x => (((if P.cohort u = x.1 then (1 : K) else 0) - pg P N x.1) / S -
      pg P N x.1 * I / S ^ 2) * θ) := by
    refine List.map_congr_left (fun x hx => ?_)
    rw [hk x hx, mul_comm I]
  rw [e1, sum_map_mul_right', sum_map_sub', sum_map_div, hI, sum_map_div, sum_map_mul_right', hSS]
  have : I / S - S * I / S ^ 2 = 0 := by field_simp; ring
  rw [this, zero_mul]

/-- C26: when every unit of the aggregated cohorts is used by some effect, the weight terms sum to zero over units. -/
theorem C26_wif_centred (P : Panel n K) (A : Finset (Fin n)) (k : List (Coh × K)) (hA : A.card ≠ 0)
    (hk : ∀ x ∈ k, ∀ u, P.cohort u = x.1 → u ∈ A) : ∑ u ∈ A, wif P A.card k u = 0 := by
  have hN : (A.card : K) ≠ 0 := Nat.cast_ne_zero.2 hA
  have h0 : ∀ x ∈ k, ∑ u ∈ A, ((if P.cohort u = x.1 then (1 : K) else 0) - pg P A.card x.1) = 0 := by
    intro x hx
    rw [Finset.sum_sub_distrib, Finset.sum_const, nsmul_eq_mul, pg, mul_div_cancel₀ _ hN, ← Finset.sum_filter,
      Finset.sum_const, nsmul_eq_mul, mul_one, sub_eq_zero]
    congr 2
    ext u
    simp only [Finset.mem_filter, Finset.mem_univ, true_and]
    exact ⟨fun h => h.2, fun h => ⟨hk x hx u h, h⟩⟩
  have hsw : ∀ (l : List (Coh × K)) (f : Coh × K → Fin n → K), ∑ u ∈ A, (l.map (fun x => f x u)).sum =
      (l.map (fun x => ∑ u ∈ A, f x u)).sum := by
    intro l f
    induction l with
    | nil => simp
    | cons a l ih => simp only [List.map_cons, List.sum_cons, Finset.sum_add_distrib, ih]
  have hI : ∑ u ∈ A, (k.map (fun x => (if P.cohort u = x.1 then (1 : K) else 0) - pg P A.card x.1)).sum = 0 := by
    rw [hsw]
    apply List.sum_eq_zero
    intro y hy
    obtain ⟨x, hx, rfl⟩ := List.mem_map.1 hy
    exact h0 x hx
  simp only [wif]
  rw [hsw]
  apply List.sum_eq_zero
  intro y hy
  obtain ⟨x, hx, rfl⟩ := List.mem_map.1 hy
  rw [← Finset.sum_mul, Finset.sum_sub_distrib, ← Finset.sum_div, h0 x hx, ← Finset.sum_div, ← Finset.sum_mul, hI]
  simp

theorem C26_overall_homogeneous (ant : ℤ) (P : Panel n K) (l : List ((Coh × ℤ) × Entry n K)) (θ : K)
    (hθ : ∀ x ∈ postPairs ant l, x.2.effect = θ)
    (hA : (allUnits ((postPairs ant l).map Prod.snd)).card ≠ 0)
    (hS : (((postPairs ant l).map (fun x => (x.1.1, x.2.effect))).map (fun x => pg (K := K) P
      (allUnits ((postPairs ant l).map Prod.snd)).card x.1)).sum ≠ 0) :
    overallVar ant P l = aggVar (sizeWeights (postPairs ant l)) ((postPairs ant l).map Prod.snd) := by
  simp only [overallVar, if_neg hA, if_neg hS]
  unfold aggVar
  symm
  have : ∀ u ∉ allUnits ((postPairs ant l).map Prod.snd),
      aggPsi (sizeWeights (postPairs ant l)) ((postPairs ant l).map Prod.snd) u = 0 := by
    intro u hu
    unfold aggPsi
    apply List.sum_eq_zero
    intro y hy
    rw [List.zipWith_eq_zipWith_take_min, List.mem_iff_getElem] at hy
    obtain ⟨i, hi, rfl⟩ := hy
    rw [List.getElem_zipWith]
    have hmem : ((List.take (min (sizeWeights (postPairs ant l)).length ((postPairs ant l).map Prod.snd).length)
      ((postPairs ant l).map Prod.snd))[i]'(by simp at hi ⊢; omega)) ∈ (postPairs ant l).map Prod.snd :=
      List.mem_of_mem_take (List.getElem_mem _)
    generalize (List.take (min (sizeWeights (postPairs ant l)).length ((postPairs ant l).map Prod.snd).length)
      ((postPairs ant l).map Prod.snd))[i]'(by simp at hi ⊢; omega) = e at hmem
    have hne : u ∉ e.treated ∧ u ∉ e.control := by
      rw [← not_or]
      intro h
      exact hu (Finset.mem_filter.2 ⟨Finset.mem_univ _, e, hmem, h⟩)
    simp [psi, hne.1, hne.2]
  rw [← Finset.sum_subset (Finset.subset_univ (allUnits ((postPairs ant l).map Prod.snd)))
    (fun u _ hu => by rw [this u hu]; simp)]
  refine Finset.sum_congr rfl (fun u _ => ?_)
  rw [C26_wif_homogeneous P _ _ θ _ hS, zero_div, add_zero]
  intro x hx
  obtain ⟨y, hy, rfl⟩ := List.mem_map.1 hx
  exact hθ y hy

example : overallVar 0 demo2 (effects ⟨.varying, .never, 0, .dr⟩ demo2) = 13/16 := by decide +kernel
example : ((attGt ⟨.varying, .never, 0, .dr⟩ demo2 (.num 2) 2).map (fun e => bootAtt ![1, -1, 1, -1, 1, -1] e)) =
    some (-1) := by decide +kernel

end DiffDiff.CS
