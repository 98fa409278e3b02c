/-
Properties C07-C09: within transformations and TwoWayFixedEffects.
-/
import Verif.Within
import Mathlib.Data.Set.Card

set_option linter.unusedSectionVars false

namespace DiffDiff.Within

section oneway
variable {K : Type*} [Field K] [CharZero K]
variable {ι G : Type*} [Fintype ι] [DecidableEq G]

theorem mem_grp {g : ι → G} {a : G} {i : ι} : i ∈ grp g a ↔ g i = a := by simp [grp]

theorem card_grp_ne (g : ι → G) (i : ι) : ((grp g (g i)).card : K) ≠ 0 := by
  have : 0 < (grp g (g i)).card := Finset.card_pos.2 ⟨i, mem_grp.2 rfl⟩
  exact_mod_cast this.ne'

theorem groupMean_congr {g : ι → G} (x : ι → K) {i j : ι} (h : g i = g j) :
    groupMean g x i = groupMean g x j := by simp [groupMean, h]

/-- Sum over a group of the group means equals the group sum. -/
theorem sum_groupMean (g : ι → G) (x : ι → K) (a : G) :
    ∑ i ∈ grp g a, groupMean g x i = ∑ i ∈ grp g a, x i := by
  rcases (grp g a).eq_empty_or_nonempty with h | ⟨k, hk⟩
  · rw [h]; simp
  · have hk' := mem_grp.1 hk
    have e : ∀ i ∈ grp g a, groupMean g x i = groupMean g x k := by
      intro i hi; apply groupMean_congr; rw [mem_grp.1 hi, hk']
    rw [Finset.sum_congr rfl e, Finset.sum_const, nsmul_eq_mul]
    have hc := card_grp_ne (K := K) g k
    unfold groupMean
    rw [hk'] at hc ⊢
    field_simp

/-- C07. After demeaning, every group sums to zero, balanced or not. -/
theorem C07_group_sums_zero (g : ι → G) (x : ι → K) (a : G) :
    ∑ i ∈ Finset.univ.filter (fun i => g i = a), demean g x i = 0 := by
  have : ∑ i ∈ grp g a, demean g x i = 0 := by
    simp only [demean, Finset.sum_sub_distrib, sum_groupMean, sub_self]
  exact this

/-- C07. A variable that is constant within groups becomes identically zero, and more generally
adding group effects to any variable does not change its demeaned version. -/
theorem C07_absorbs_group_effects (g : ι → G) (x : ι → K) (c : G → K) :
    demean g (fun i => x i + c (g i)) = demean g x := by
  funext i
  have hc := card_grp_ne (K := K) g i
  have e : ∑ j ∈ grp g (g i), c (g j) = (grp g (g i)).card * c (g i) := by
    rw [Finset.sum_congr rfl (fun j hj => by rw [mem_grp.1 hj]), Finset.sum_const, nsmul_eq_mul]
  simp only [demean, groupMean, Finset.sum_add_distrib, e]
  field_simp
  ring

theorem C07_constant_within_group (g : ι → G) (c : G → K) (i : ι) :
    demean g (fun i => c (g i)) i = 0 := by
  have := C07_absorbs_group_effects g (fun _ : ι => (0 : K)) c
  simp only [zero_add] at this
  rw [this]; simp [demean, groupMean]

/-- C07. Demeaning twice is demeaning once. -/
theorem C07_idempotent (g : ι → G) (x : ι → K) : demean g (demean g x) = demean g x := by
  funext i
  have h := C07_group_sums_zero g x (g i)
  have : groupMean g (demean g x) i = 0 := by
    unfold groupMean; rw [show ∑ j ∈ grp g (g i), demean g x j = 0 from h, zero_div]
  rw [demean, this, sub_zero]

/-- C07. The demeaned variable is uncorrelated with any group-level variable. -/
theorem C07_orthogonal_to_group_vars (g : ι → G) (x : ι → K) (c : G → K) :
    ∑ i, c (g i) * demean g x i = 0 := by
  rw [← Finset.sum_fiberwise_of_maps_to (g := g) (t := Finset.univ.image g)
    (fun i _ => Finset.mem_image_of_mem g (Finset.mem_univ i))]
  apply Finset.sum_eq_zero
  intro a _
  have e : ∀ i ∈ Finset.univ.filter (fun i => g i = a), c (g i) * demean g x i = c a * demean g x i := by
    intro i hi; rw [(Finset.mem_filter.1 hi).2]
  rw [Finset.sum_congr rfl e, ← Finset.mul_sum, C07_group_sums_zero, mul_zero]

/-- C07. The reported number of absorbed effects is the number of distinct groups minus one. -/
theorem C07_n_effects (g : ι → G) : nEffects g = ((Set.range g).ncard : ℤ) - 1 := by
  have : Set.range g = ((Finset.univ.image g : Finset G) : Set G) := by simp
  rw [nEffects, this, Set.ncard_coe_finset]

example : demean (K := ℚ) (fun i : Fin 3 => if i = 2 then 1 else 0) ![1, 4, 7] = ![-3/2, 3/2, 0] := by
  funext i; fin_cases i <;> decide +kernel

end oneway

section twoway
variable {K : Type*} [Field K] [CharZero K]
variable {ι U T : Type*} [Fintype ι] [DecidableEq U] [DecidableEq T]

/-- Two-way means are linear. -/
theorem groupMean_add {G : Type*} [DecidableEq G] (g : ι → G) (x y : ι → K) (i : ι) :
    groupMean g (fun j => x j + y j) i = groupMean g x i + groupMean g y i := by
  simp only [groupMean, Finset.sum_add_distrib, add_div]

theorem groupMean_smul {G : Type*} [DecidableEq G] (g : ι → G) (c : K) (x : ι → K) (i : ι) :
    groupMean g (fun j => c * x j) i = c * groupMean g x i := by
  simp only [groupMean, ← Finset.mul_sum, mul_div_assoc]

theorem grandMean_add (x y : ι → K) :
    grandMean (fun j => x j + y j) = grandMean x + grandMean y := by
  simp only [grandMean, Finset.sum_add_distrib, add_div]

theorem grandMean_smul (c : K) (x : ι → K) : grandMean (fun j => c * x j) = c * grandMean x := by
  simp only [grandMean, ← Finset.mul_sum, mul_div_assoc]

theorem within_add (u : ι → U) (t : ι → T) (x y : ι → K) :
    within u t (fun j => x j + y j) = fun i => within u t x i + within u t y i := by
  funext i; simp only [within, groupMean_add, grandMean_add]; ring

theorem within_smul (u : ι → U) (t : ι → T) (c : K) (x : ι → K) :
    within u t (fun j => c * x j) = fun i => c * within u t x i := by
  funext i; simp only [within, groupMean_smul, grandMean_smul]; ring

/-- In a balanced panel each unit-by-period cell has exactly one row, so each unit group has the
same size and the mean over a unit of a function of time is its mean over all rows. -/
theorem card_grp_unit [Fintype T] {u : ι → U} {t : ι → T} (h : Balanced u t) (a : U) :
    (grp u a).card = Fintype.card T := by
  rw [← Finset.card_univ]
  apply Finset.card_bij (fun i _ => t i)
  · intro i _; exact Finset.mem_univ _
  · intro i hi j hj hij
    apply h.1
    simp only [Prod.mk.injEq]
    exact ⟨by rw [mem_grp.1 hi, mem_grp.1 hj], hij⟩
  · intro b _
    obtain ⟨i, hi⟩ := h.2 (a, b)
    simp only [Prod.mk.injEq] at hi
    exact ⟨i, mem_grp.2 hi.1, hi.2⟩

theorem sum_grp_unit [Fintype T] {u : ι → U} {t : ι → T} (h : Balanced u t) (a : U) (f : T → K) :
    ∑ i ∈ grp u a, f (t i) = ∑ s, f s := by
  apply Finset.sum_bij (fun i _ => t i)
  · intro i _; exact Finset.mem_univ _
  · intro i hi j hj hij
    apply h.1
    simp only [Prod.mk.injEq]
    exact ⟨by rw [mem_grp.1 hi, mem_grp.1 hj], hij⟩
  · intro b _
    obtain ⟨i, hi⟩ := h.2 (a, b)
    simp only [Prod.mk.injEq] at hi
    exact ⟨i, mem_grp.2 hi.1, hi.2⟩
  · intro i _; rfl

theorem Balanced.swap {u : ι → U} {t : ι → T} (h : Balanced u t) : Balanced t u := by
  constructor
  · intro i j hij
    apply h.1
    simp only [Prod.mk.injEq] at hij ⊢
    exact ⟨hij.2, hij.1⟩
  · rintro ⟨b, a⟩
    obtain ⟨i, hi⟩ := h.2 (a, b)
    simp only [Prod.mk.injEq] at hi
    exact ⟨i, by simp [hi]⟩

theorem card_balanced [Fintype U] [Fintype T] {u : ι → U} {t : ι → T} (h : Balanced u t) :
    Fintype.card ι = Fintype.card U * Fintype.card T := by
  rw [Fintype.card_of_bijective h, Fintype.card_prod]

theorem sum_balanced [Fintype U] [Fintype T] {u : ι → U} {t : ι → T} (h : Balanced u t)
    (f : U → T → K) : ∑ i, f (u i) (t i) = ∑ a, ∑ s, f a s := by
  rw [← Fintype.sum_prod_type' f]
  exact Fintype.sum_bijective _ h _ _ (fun i => rfl)

/-- Mean over a unit of a period effect. -/
theorem groupMean_time_effect [Fintype T] {u : ι → U} {t : ι → T} (h : Balanced u t)
    (b : T → K) (i : ι) : groupMean u (fun j => b (t j)) i = (∑ s, b s) / (Fintype.card T : K) := by
  rw [groupMean, sum_grp_unit h, card_grp_unit h]

theorem groupMean_own_effect {G : Type*} [DecidableEq G] (g : ι → G) (c : G → K) (i : ι) :
    groupMean g (fun j => c (g j)) i = c (g i) := by
  have hc := card_grp_ne (K := K) g i
  have e : ∑ j ∈ grp g (g i), c (g j) = (grp g (g i)).card * c (g i) := by
    rw [Finset.sum_congr rfl (fun j hj => by rw [mem_grp.1 hj]), Finset.sum_const, nsmul_eq_mul]
  rw [groupMean, e]; field_simp

theorem grandMean_time_effect [Fintype U] [Fintype T] [Nonempty ι] {u : ι → U} {t : ι → T}
    (h : Balanced u t) (b : T → K) :
    grandMean (fun j => b (t j)) = (∑ s, b s) / (Fintype.card T : K) := by
  have hU : (Fintype.card U : K) ≠ 0 := by
    have : Nonempty U := ⟨u (Classical.arbitrary ι)⟩
    exact_mod_cast Fintype.card_ne_zero
  have hT : (Fintype.card T : K) ≠ 0 := by
    have : Nonempty T := ⟨t (Classical.arbitrary ι)⟩
    exact_mod_cast Fintype.card_ne_zero
  rw [grandMean, sum_balanced h (fun _ s => b s), card_balanced h, Finset.sum_const,
    Finset.card_univ, nsmul_eq_mul]
  push_cast; field_simp

variable [Fintype U] [Fintype T]

theorem within_time_effect {u : ι → U} {t : ι → T} (h : Balanced u t) (b : T → K) :
    within u t (fun j => b (t j)) = fun _ => 0 := by
  funext i
  have : Nonempty ι := ⟨i⟩
  simp only [within, groupMean_time_effect h, groupMean_own_effect, grandMean_time_effect h]
  ring

theorem within_swap (u : ι → U) (t : ι → T) (x : ι → K) : within u t x = within t u x := by
  funext i; simp only [within]; ring

theorem within_unit_effect {u : ι → U} {t : ι → T} (h : Balanced u t) (a : U → K) :
    within u t (fun j => a (u j)) = fun _ => 0 := by
  rw [within_swap]; exact within_time_effect h.swap a

/-- C08 (balanced panels). Adding any unit effects and period effects leaves the transformed
variable unchanged. -/
theorem C08_absorbs_effects_partial {u : ι → U} {t : ι → T} (h : Balanced u t) (x : ι → K)
    (a : U → K) (b : T → K) :
    within u t (fun i => x i + (a (u i) + b (t i))) = within u t x := by
  rw [within_add, within_add, within_unit_effect h, within_time_effect h]
  funext i; simp

/-- Sum of the period means over one unit's rows. -/
theorem sum_unit_timeMeans {u : ι → U} {t : ι → T} (h : Balanced u t) (x : ι → K) (a : U) :
    ∑ i ∈ grp u a, groupMean t x i = (∑ i, x i) / (Fintype.card U : K) := by
  rcases isEmpty_or_nonempty ι with hE | hN
  · have : grp u a = ∅ := by ext i; exact (IsEmpty.false i).elim
    simp [this]
  have e : ∀ i, groupMean t x i = (∑ j ∈ grp t (t i), x j) / (Fintype.card U : K) := by
    intro i; rw [groupMean, card_grp_unit h.swap]
  simp only [e]
  rw [← Finset.sum_div, sum_grp_unit h a (fun s => ∑ j ∈ grp t s, x j)]
  congr 1
  exact Finset.sum_fiberwise_of_maps_to (fun i _ => Finset.mem_univ (t i)) x

/-- C08 (balanced panels). Each unit's transformed values sum to zero. -/
theorem C08_unit_sums_zero_partial {u : ι → U} {t : ι → T} (h : Balanced u t) (x : ι → K) (a : U) :
    ∑ i ∈ Finset.univ.filter (fun i => u i = a), within u t x i = 0 := by
  change ∑ i ∈ grp u a, within u t x i = 0
  rcases isEmpty_or_nonempty ι with hE | hN
  · have : grp u a = ∅ := by ext i; exact (IsEmpty.false i).elim
    simp [this]
  have hT : (Fintype.card T : K) ≠ 0 := by
    have : Nonempty T := ⟨t (Classical.arbitrary ι)⟩
    exact_mod_cast Fintype.card_ne_zero
  have hU : (Fintype.card U : K) ≠ 0 := by
    have : Nonempty U := ⟨u (Classical.arbitrary ι)⟩
    exact_mod_cast Fintype.card_ne_zero
  simp only [within, Finset.sum_add_distrib, Finset.sum_sub_distrib, sum_groupMean,
    sum_unit_timeMeans h, Finset.sum_const, card_grp_unit h, nsmul_eq_mul, grandMean,
    card_balanced h]
  push_cast
  field_simp
  ring

/-- C08 (balanced panels). Each period's transformed values sum to zero. -/
theorem C08_time_sums_zero_partial {u : ι → U} {t : ι → T} (h : Balanced u t) (x : ι → K) (s : T) :
    ∑ i ∈ Finset.univ.filter (fun i => t i = s), within u t x i = 0 := by
  rw [within_swap]; exact C08_unit_sums_zero_partial h.swap x s

/-- C08 (balanced panels). Transforming twice is transforming once. -/
theorem C08_idempotent_partial {u : ι → U} {t : ι → T} (h : Balanced u t) (x : ι → K) :
    within u t (within u t x) = within u t x := by
  have h1 : ∀ i, groupMean u (within u t x) i = 0 := by
    intro i; unfold groupMean
    rw [show ∑ j ∈ grp u (u i), within u t x j = 0 from C08_unit_sums_zero_partial h x (u i), zero_div]
  have h2 : ∀ i, groupMean t (within u t x) i = 0 := by
    intro i; unfold groupMean
    rw [show ∑ j ∈ grp t (t i), within u t x j = 0 from C08_time_sums_zero_partial h x (t i), zero_div]
  have h3 : grandMean (within u t x) = 0 := by
    unfold grandMean
    rw [← Finset.sum_fiberwise_of_maps_to (g := u) (t := Finset.univ) (fun i _ => Finset.mem_univ _)]
    rw [Finset.sum_eq_zero (fun a _ => C08_unit_sums_zero_partial h x a), zero_div]
  funext i
  rw [within, h1, h2, h3]; ring

end twoway

section unbalanced

/-- Two units, two periods, but unit 1 is only observed in period 0. -/
def ubUnit : Fin 3 → Fin 2 := ![0, 0, 1]
def ubTime : Fin 3 → Fin 2 := ![0, 1, 0]

/-- C08 refuted for unbalanced panels: the within transformation does not remove a pure period
effect (here: +1 in period 1), nor do the transformed values of a unit sum to zero. -/
theorem C08_unbalanced_refuted :
    ¬ ∀ (unit : Fin 3 → Fin 2) (time : Fin 3 → Fin 2) (b : Fin 2 → ℚ) (i : Fin 3),
      within unit time (fun j => b (time j)) i = 0 := by
  intro h
  have := h ubUnit ubTime ![0, 1] 2
  revert this; decide +kernel

/-- C08 refuted for unbalanced panels: transformed values of a unit need not sum to zero. -/
theorem C08_unbalanced_sums_refuted :
    ¬ ∀ (unit : Fin 3 → Fin 2) (time : Fin 3 → Fin 2) (x : Fin 3 → ℚ) (a : Fin 2),
      ∑ i ∈ Finset.univ.filter (fun i => unit i = a), within unit time x i = 0 := by
  intro h
  have := h ubUnit ubTime ![0, 1, 0] 1
  revert this; decide +kernel

/-- C08 refuted for unbalanced panels: transforming twice gives something else than transforming once. -/
theorem C08_unbalanced_idempotent_refuted :
    ¬ ∀ (unit : Fin 3 → Fin 2) (time : Fin 3 → Fin 2) (x : Fin 3 → ℚ),
      within unit time (within unit time x) = within unit time x := by
  intro h
  have := congrFun (h ubUnit ubTime ![0, 1, 0]) 2
  revert this; decide +kernel

/-- Non-vacuity of the balanced theorems. -/
example : Balanced (fun i : Fin 2 × Fin 3 => i.1) (fun i : Fin 2 × Fin 3 => i.2) :=
  Function.bijective_id

end unbalanced

section twfe
variable {K : Type*} [Field K] [LinearOrder K] [IsStrictOrderedRing K]
variable {ι U T : Type*} [Fintype ι] [DecidableEq U] [DecidableEq T] [Fintype U] [Fintype T]

/-- The within transformation is self-adjoint on balanced panels: pairing with a transformed
variable only sees the transformed part. -/
theorem sum_mul_within {u : ι → U} {t : ι → T} (h : Balanced u t) (x y : ι → K) :
    ∑ i, x i * within u t y i = ∑ i, within u t x i * within u t y i := by
  have e1 : ∀ (g : U → K), ∑ i, g (u i) * within u t y i = 0 := by
    intro g
    rw [← Finset.sum_fiberwise_of_maps_to (g := u) (t := Finset.univ) (fun i _ => Finset.mem_univ _)]
    apply Finset.sum_eq_zero; intro a _
    have e : ∀ i ∈ Finset.univ.filter (fun i => u i = a),
        g (u i) * within u t y i = g a * within u t y i := by
      intro i hi; rw [(Finset.mem_filter.1 hi).2]
    rw [Finset.sum_congr rfl e, ← Finset.mul_sum, C08_unit_sums_zero_partial h y a, mul_zero]
  have e2 : ∀ (g : T → K), ∑ i, g (t i) * within u t y i = 0 := by
    intro g
    rw [← Finset.sum_fiberwise_of_maps_to (g := t) (t := Finset.univ) (fun i _ => Finset.mem_univ _)]
    apply Finset.sum_eq_zero; intro a _
    have e : ∀ i ∈ Finset.univ.filter (fun i => t i = a),
        g (t i) * within u t y i = g a * within u t y i := by
      intro i hi; rw [(Finset.mem_filter.1 hi).2]
    rw [Finset.sum_congr rfl e, ← Finset.mul_sum, C08_time_sums_zero_partial h y a, mul_zero]
  have e3 : ∑ i, within u t y i = 0 := by
    have := e1 (fun _ => 1); simpa using this
  have m1 : ∑ i, groupMean u x i * within u t y i = 0 :=
    e1 (fun a => (∑ j ∈ grp u a, x j) / ((grp u a).card : K))
  have m2 : ∑ i, groupMean t x i * within u t y i = 0 :=
    e2 (fun a => (∑ j ∈ grp t a, x j) / ((grp t a).card : K))
  have : ∑ i, within u t x i * within u t y i
      = ∑ i, x i * within u t y i - ∑ i, groupMean u x i * within u t y i
        - ∑ i, groupMean t x i * within u t y i + grandMean x * ∑ i, within u t y i := by
    rw [Finset.mul_sum, ← Finset.sum_sub_distrib, ← Finset.sum_sub_distrib, ← Finset.sum_add_distrib]
    apply Finset.sum_congr rfl; intro i _
    rw [show within u t x i = x i - groupMean u x i - groupMean t x i + grandMean x from rfl]; ring
  rw [this, e3, m1, m2]; ring

/-- Frisch-Waugh: the textbook TWFE coefficient satisfies `<D~,D~> tau = <D~,Y~>`. -/
theorem twfeCoef_fwl {u : ι → U} {t : ι → T} (h : Balanced u t) (d y : ι → K) (tau : K)
    (hc : IsTwfeCoef u t d y tau) :
    (∑ i, within u t d i ^ 2) * tau = ∑ i, within u t d i * within u t y i := by
  obtain ⟨a, b, hu, ht, hd⟩ := hc
  set r : ι → K := fun i => y i - a (u i) - b (t i) - tau * d i with hr
  -- residuals are orthogonal to unit and period functions, so pairing with d equals pairing with D~
  have e1 : ∀ (g : U → K), ∑ i, g (u i) * r i = 0 := by
    intro g
    rw [← Finset.sum_fiberwise_of_maps_to (g := u) (t := Finset.univ) (fun i _ => Finset.mem_univ _)]
    apply Finset.sum_eq_zero; intro a' _
    have e : ∀ i ∈ Finset.univ.filter (fun i => u i = a'), g (u i) * r i = g a' * r i := by
      intro i hi; rw [(Finset.mem_filter.1 hi).2]
    rw [Finset.sum_congr rfl e, ← Finset.mul_sum, show ∑ i ∈ Finset.univ.filter (fun i => u i = a'), r i = 0 from hu a', mul_zero]
  have e2 : ∀ (g : T → K), ∑ i, g (t i) * r i = 0 := by
    intro g
    rw [← Finset.sum_fiberwise_of_maps_to (g := t) (t := Finset.univ) (fun i _ => Finset.mem_univ _)]
    apply Finset.sum_eq_zero; intro a' _
    have e : ∀ i ∈ Finset.univ.filter (fun i => t i = a'), g (t i) * r i = g a' * r i := by
      intro i hi; rw [(Finset.mem_filter.1 hi).2]
    rw [Finset.sum_congr rfl e, ← Finset.mul_sum, show ∑ i ∈ Finset.univ.filter (fun i => t i = a'), r i = 0 from ht a', mul_zero]
  have e3 : ∑ i, r i = 0 := by have := e1 (fun _ => 1); simpa using this
  have e4 : ∑ i, within u t d i * r i = 0 := by
    have m1 : ∑ i, groupMean u d i * r i = 0 :=
      e1 (fun a => (∑ j ∈ grp u a, d j) / ((grp u a).card : K))
    have m2 : ∑ i, groupMean t d i * r i = 0 :=
      e2 (fun a => (∑ j ∈ grp t a, d j) / ((grp t a).card : K))
    have : ∑ i, within u t d i * r i = ∑ i, d i * r i - ∑ i, groupMean u d i * r i
        - ∑ i, groupMean t d i * r i + grandMean d * ∑ i, r i := by
      rw [Finset.mul_sum, ← Finset.sum_sub_distrib, ← Finset.sum_sub_distrib, ← Finset.sum_add_distrib]
      apply Finset.sum_congr rfl; intro i _
      rw [show within u t d i = d i - groupMean u d i - groupMean t d i + grandMean d from rfl]; ring
    rw [this, e3, m1, m2, hd]; ring
  -- transform the residual
  have e5 : within u t y = fun i => within u t r i + tau * within u t d i := by
    have : y = fun i => (r i + tau * d i) + (a (u i) + b (t i)) := by
      funext i; simp only [hr]; ring
    conv_lhs => rw [this]
    rw [C08_absorbs_effects_partial h, within_add, within_smul]
  have e6 : ∑ i, within u t d i * within u t r i = 0 := by
    have := sum_mul_within h r d
    rw [show ∑ i, within u t d i * within u t r i = ∑ i, within u t r i * within u t d i from
      Finset.sum_congr rfl (fun i _ => mul_comm _ _), ← this,
      Finset.sum_congr rfl (fun i _ => mul_comm (r i) _), e4]
  rw [e5]
  have : ∑ i, within u t d i * (within u t r i + tau * within u t d i)
      = ∑ i, within u t d i * within u t r i + tau * ∑ i, within u t d i ^ 2 := by
    rw [Finset.mul_sum, ← Finset.sum_add_distrib]; apply Finset.sum_congr rfl; intro i _; ring
  rw [this, e6]; ring

/-- One-regressor OLS slope: `<d - dbar, d - dbar> b1 = <d - dbar, y>` given the normal equations. -/
theorem ols1_slope [Nonempty ι] (y d : ι → K) (b0 b1 : K) (h : IsOls1 y d b0 b1) :
    (∑ i, (d i - grandMean d) ^ 2) * b1 = ∑ i, (d i - grandMean d) * y i := by
  have hN : (Fintype.card ι : K) ≠ 0 := by exact_mod_cast Fintype.card_ne_zero
  obtain ⟨h1, h2⟩ := h
  have e1 : ∑ i, (d i - grandMean d) * (y i - b0 - b1 * d i) = 0 := by
    have : ∑ i, (d i - grandMean d) * (y i - b0 - b1 * d i)
        = ∑ i, d i * (y i - b0 - b1 * d i) - grandMean d * ∑ i, (y i - b0 - b1 * d i) := by
      rw [Finset.mul_sum, ← Finset.sum_sub_distrib]; apply Finset.sum_congr rfl; intro i _; ring
    rw [this, h1, h2]; ring
  have e2 : ∑ i, (d i - grandMean d) = 0 := by
    rw [Finset.sum_sub_distrib, Finset.sum_const, Finset.card_univ, nsmul_eq_mul, grandMean]
    field_simp; ring
  have e3 : ∑ i, (d i - grandMean d) * (y i - b0 - b1 * d i)
      = ∑ i, (d i - grandMean d) * y i - (b0 + b1 * grandMean d) * ∑ i, (d i - grandMean d)
        - (∑ i, (d i - grandMean d) ^ 2) * b1 := by
    rw [Finset.mul_sum, Finset.sum_mul, ← Finset.sum_sub_distrib, ← Finset.sum_sub_distrib]
    apply Finset.sum_congr rfl; intro i _; ring
  rw [e1, e2] at e3
  linarith

/-- C09 (what the code computes). On every balanced panel the reported ATT and the textbook two-way
fixed effects coefficient `tau` of the same regressor satisfy
`<D - Dbar, D - Dbar> * att = <D~, D~> * tau`: the outcome is within transformed, the regressor is
only centred. -/
theorem C09_att_vs_coefficient_partial [Nonempty ι] {u : ι → U} {t : ι → T} (h : Balanced u t)
    (num : T → K) (treat y : ι → K) (att tau : K)
    (hatt : IsTwfeAtt u t num treat y att)
    (htau : IsTwfeCoef u t (fun i => treat i * num (t i)) y tau) :
    (∑ i, (treat i * num (t i) - grandMean (fun i => treat i * num (t i))) ^ 2) * att
      = (∑ i, within u t (fun i => treat i * num (t i)) i ^ 2) * tau := by
  obtain ⟨b0, hb⟩ := hatt
  set d : ι → K := fun i => treat i * num (t i) with hd
  rw [twfeCoef_fwl h d y tau htau, ols1_slope _ d b0 att hb]
  have e3 : ∑ i, within u t y i = 0 := by
    rw [← Finset.sum_fiberwise_of_maps_to (g := u) (t := Finset.univ) (fun i _ => Finset.mem_univ _)]
    exact Finset.sum_eq_zero (fun a _ => C08_unit_sums_zero_partial h y a)
  have : ∑ i, (d i - grandMean d) * within u t y i
      = ∑ i, d i * within u t y i - grandMean d * ∑ i, within u t y i := by
    rw [Finset.mul_sum, ← Finset.sum_sub_distrib]; apply Finset.sum_congr rfl; intro i _; ring
  rw [this, e3, mul_zero, sub_zero, sum_mul_within h]

/-- The centred regressor has at least as much variation as the within-transformed one. -/
theorem within_norm_le [Nonempty ι] {u : ι → U} {t : ι → T} (h : Balanced u t) (d : ι → K) :
    ∑ i, within u t d i ^ 2 ≤ ∑ i, (d i - grandMean d) ^ 2 := by
  set c : ι → K := fun i => d i - grandMean d with hc
  have e1 : within u t c = within u t d := by
    have h2 := C08_absorbs_effects_partial h d (fun _ => - grandMean d) (fun _ => 0)
    rw [← h2]
    congr 1
    funext i; simp only [hc]; ring
  have e2 := sum_mul_within h c c
  have e3 : 0 ≤ ∑ i, (c i - within u t c i) ^ 2 := Finset.sum_nonneg (fun _ _ => sq_nonneg _)
  have e4 : ∑ i, (c i - within u t c i) ^ 2
      = ∑ i, c i ^ 2 - 2 * ∑ i, c i * within u t c i + ∑ i, within u t c i ^ 2 := by
    rw [Finset.mul_sum, ← Finset.sum_sub_distrib, ← Finset.sum_add_distrib]
    apply Finset.sum_congr rfl; intro i _; ring
  have e5 : ∑ i, within u t c i * within u t c i = ∑ i, within u t c i ^ 2 :=
    Finset.sum_congr rfl (fun i _ => by ring)
  rw [e4, e2, e5] at e3
  rw [← e1]
  linarith

/-- C09 (partial). The reported ATT never has the wrong sign and never exceeds the true coefficient
in absolute value: it is attenuated. -/
theorem C09_att_attenuated_partial [Nonempty ι] {u : ι → U} {t : ι → T} (h : Balanced u t)
    (num : T → K) (treat y : ι → K) (att tau : K)
    (hatt : IsTwfeAtt u t num treat y att)
    (htau : IsTwfeCoef u t (fun i => treat i * num (t i)) y tau)
    (hvar : 0 < ∑ i, within u t (fun i => treat i * num (t i)) i ^ 2) :
    0 ≤ att * tau ∧ |att| ≤ |tau| := by
  have h1 := C09_att_vs_coefficient_partial h num treat y att tau hatt htau
  have h2 := within_norm_le h (fun i => treat i * num (t i))
  set W := ∑ i, within u t (fun i => treat i * num (t i)) i ^ 2
  set V := ∑ i, (treat i * num (t i) - grandMean (fun i => treat i * num (t i))) ^ 2
  have hV : 0 < V := lt_of_lt_of_le hvar h2
  have e : att = W / V * tau := by field_simp; linarith
  have hr0 : 0 ≤ W / V := (div_pos hvar hV).le
  have hr1 : W / V ≤ 1 := (div_le_one hV).2 h2
  constructor
  · rw [e]; nlinarith [mul_self_nonneg tau, mul_nonneg hr0 (mul_self_nonneg tau)]
  · rw [e, abs_mul, abs_of_nonneg hr0]
    exact mul_le_of_le_one_left (abs_nonneg _) hr1

end twfe

section twfeCounterexample

/-- Two units (one treated), two periods 0/1: unit effects 0 and 5, period effect 2, effect 3. -/
def cxY : Fin 2 × Fin 2 → ℚ := fun i =>
  (if i.1 = 1 then 5 else 0) + (if i.2 = 1 then 2 else 0) + (if i.1 = 1 ∧ i.2 = 1 then 3 else 0)
def cxTreat : Fin 2 × Fin 2 → ℚ := fun i => if i.1 = 1 then 1 else 0
def cxNum : Fin 2 → ℚ := fun t => if t = 1 then 1 else 0

/-- C09 refuted. In the textbook 2x2 panel with unit effects 0 and 5, period effect 2 and treatment
effect 3, the number reported by `TwoWayFixedEffects.fit` is 1, not 3. -/
theorem C09_twfe_att_refuted :
    ¬ ∀ (y treat : Fin 2 × Fin 2 → ℚ) (num : Fin 2 → ℚ) (att tau : ℚ) (a : Fin 2 → ℚ) (b : Fin 2 → ℚ),
      (∀ i, y i = a i.1 + b i.2 + tau * (treat i * num i.2)) →
      IsTwfeAtt Prod.fst Prod.snd num treat y att → att = tau := by
  intro h
  have h1 := h cxY cxTreat cxNum 1 3 ![0, 5] ![0, 2] (by decide +kernel)
    ⟨-1/4, by unfold IsOls1; decide +kernel⟩
  norm_num at h1

/-- The same panel meets the hypotheses of the positive theorems. -/
example : Balanced (Prod.fst : Fin 2 × Fin 2 → Fin 2) Prod.snd ∧
    IsTwfeAtt Prod.fst Prod.snd cxNum cxTreat cxY 1 ∧
    IsTwfeCoef Prod.fst Prod.snd (fun i => cxTreat i * cxNum i.2) cxY 3 ∧
    0 < ∑ i, within Prod.fst Prod.snd (fun i : Fin 2 × Fin 2 => cxTreat i * cxNum i.2) i ^ 2 := by
  refine ⟨Function.bijective_id, ⟨-1/4, by unfold IsOls1; decide +kernel⟩,
    ⟨![0, 5], ![0, 2], ?_, ?_, ?_⟩, by decide +kernel⟩
  · decide +kernel
  · decide +kernel
  · decide +kernel

/-- C09 refuted, second cause: the regressor multiplies the treatment dummy with the numeric value
of the time column, so relabelling the two periods from (0, 1) to (1, 2) changes the estimate. -/
theorem C09_period_labels_refuted :
    ¬ ∀ (y treat : Fin 2 × Fin 2 → ℚ) (num num' : Fin 2 → ℚ) (att att' : ℚ),
      (∀ t, num' t = num t + 1) →
      IsTwfeAtt Prod.fst Prod.snd num treat y att → IsTwfeAtt Prod.fst Prod.snd num' treat y att' →
      att = att' := by
  intro h
  have h1 := h cxY cxTreat cxNum (fun t => cxNum t + 1) 1 (3/11) (by intro t; rfl)
    ⟨-1/4, by unfold IsOls1; decide +kernel⟩ ⟨-9/44, by unfold IsOls1; decide +kernel⟩
  norm_num at h1

end twfeCounterexample

end DiffDiff.Within
