/-
Properties C31 (weights), C33 (windows) and the BaconDecomposition part of C30.
C32 (reproduction of the TWFE coefficient) is in BaconTwfeProps.
-/
import Verif.Bacon

set_option linter.unusedSectionVars false

namespace DiffDiff.Bacon

open CS (Coh)

variable {K : Type*} [Field K] [LinearOrder K] [IsStrictOrderedRing K]
variable {n : ℕ}

/-! ### Basic facts -/

theorem mem_members {P : Panel n K} {g : ℤ} {u : Fin n} : u ∈ members P g ↔ u ∈ units P ∧ P.cohort u = .num g := by
  simp [members]

theorem mem_never {P : Panel n K} {u : Fin n} : u ∈ never P ↔ u ∈ units P ∧ (P.cohort u).isNever = true := by
  simp [never]

theorem timingValue_some {c : Coh} {z : ℤ} : timingValue c = some z ↔ c = .num z ∧ 0 < z := by
  cases c with
  | num w =>
    simp only [timingValue]
    split_ifs with h
    · constructor
      · intro e; cases e; exact ⟨rfl, h⟩
      · rintro ⟨e, _⟩; cases e; rfl
    · constructor
      · intro e; cases e
      · rintro ⟨e, hz⟩; cases e; exact absurd hz h
  | inf => simp [timingValue]
  | nan => simp [timingValue]

theorem mem_timingGroups {P : Panel n K} {g : ℤ} :
    g ∈ timingGroups P ↔ 0 < g ∧ ∃ u ∈ units P, P.cohort u = .num g := by
  unfold timingGroups
  rw [List.mem_insertionSort, List.mem_dedup, List.mem_filterMap]
  constructor
  · rintro ⟨u, hu, hg⟩
    obtain ⟨h1, h2⟩ := timingValue_some.1 hg
    simp only [List.mem_filter, decide_eq_true_eq] at hu
    exact ⟨h2, u, hu.2, h1⟩
  · rintro ⟨h0, u, hu, hc⟩
    exact ⟨u, by simp [List.mem_filter, hu, List.mem_finRange], timingValue_some.2 ⟨hc, h0⟩⟩

theorem timingGroups_sorted (P : Panel n K) : (timingGroups P).Pairwise (· < ·) := by
  have h1 : (timingGroups P).Pairwise (· ≤ ·) := List.pairwise_insertionSort _ _
  have h2 : (timingGroups P).Nodup := (List.perm_insertionSort _ _).nodup_iff.2 (List.nodup_dedup _)
  exact (h1.and h2).imp (fun h => lt_of_le_of_ne h.1 h.2)

theorem mem_pairs {L : List ℤ} (h : L.Pairwise (· < ·)) {p : ℤ × ℤ} (hp : p ∈ pairs L) :
    p.1 ∈ L ∧ p.2 ∈ L ∧ p.1 < p.2 := by
  induction L with
  | nil => simp [pairs] at hp
  | cons g gs ih =>
    rw [List.pairwise_cons] at h
    simp only [pairs, List.mem_append, List.mem_map] at hp
    rcases hp with ⟨x, hx, rfl⟩ | hp
    · exact ⟨List.mem_cons_self .., List.mem_cons_of_mem _ hx, h.1 x hx⟩
    · obtain ⟨a, b, c⟩ := ih h.2 hp
      exact ⟨List.mem_cons_of_mem _ a, List.mem_cons_of_mem _ b, c⟩

theorem cellMean_some {P : Panel n K} {U : Finset (Fin n)} {W : Finset ℤ} {v : K} (h : cellMean P U W = some v) :
    ∃ u ∈ U, ∃ t ∈ W, (u, t) ∈ P.rows ∧ (P.y u t).isSome := by
  unfold cellMean at h
  by_contra hc
  push Not at hc
  have : (P.rows.filter (fun r => r.1 ∈ U ∧ r.2 ∈ W ∧ (P.y r.1 r.2).isSome = true)) = ∅ := by
    apply Finset.filter_eq_empty_iff.2
    rintro ⟨u, t⟩ hr ⟨h1, h2, h3⟩
    exact hc u h1 t h2 hr h3
  simp [this] at h

theorem did_some {P : Panel n K} {T C : Finset (Fin n)} {pre post : Finset ℤ} {v : K}
    (h : did P T C pre post = some v) :
    ∃ a b c d, cellMean P T post = some a ∧ cellMean P T pre = some b ∧ cellMean P C post = some c ∧
      cellMean P C pre = some d ∧ v = (a - b) - (c - d) := by
  unfold did at h
  split at h
  · rename_i a b c d h1 h2 h3 h4
    exact ⟨a, b, c, d, h1, h2, h3, h4, (Option.some.inj h).symm⟩
  · cases h

/-- What every reported comparison looks like before weighting. -/
structure Reported (P : Panel n K) (c : Comp K) : Prop where
  group : c.treated ∈ timingGroups P
  shape : (c.kind = .treatedVsNever ∧ c.control = none) ∨
    (c.kind = .earlierVsLater ∧ ∃ h ∈ timingGroups P, c.control = some h ∧ c.treated < h) ∨
    (c.kind = .laterVsEarlier ∧ ∃ h ∈ timingGroups P, c.control = some h ∧ h < c.treated)
  nT : c.nTreated = (members P c.treated).card
  nC : c.nControl = (controls P c.control).card
  nTpos : 0 < (members P c.treated).card
  nCpos : 0 < (controls P c.control).card
  pre : 0 < (prePeriods P c.kind c.treated c.control).card
  post : 0 < (postPeriods P c.kind c.treated c.control).card
  est : c.estimate = did P (members P c.treated) (controls P c.control) (prePeriods P c.kind c.treated c.control)
    (postPeriods P c.kind c.treated c.control)
  estSome : c.kind ≠ .treatedVsNever → c.estimate.isSome
  weight : c.weight = approxWeight P c.kind c.treated c.control
  window : c.window = Bacon.window P c.kind c.treated c.control

theorem reported_tvn {P : Panel n K} {g : ℤ} {c : Comp K} (hg : g ∈ timingGroups P)
    (h : treatedVsNever P g = some c) : Reported P c := by
  unfold treatedVsNever at h
  split_ifs at h with h1 h2
  push Not at h1 h2
  cases h
  exact ⟨hg, Or.inl ⟨rfl, rfl⟩, rfl, rfl, Nat.pos_of_ne_zero h1.1, Nat.pos_of_ne_zero h1.2,
    Nat.pos_of_ne_zero h2.1, Nat.pos_of_ne_zero h2.2, rfl, fun h => absurd rfl h, rfl, rfl⟩

theorem reported_timing {P : Panel n K} {k : Kind} {g h : ℤ} {c : Comp K} (hg : g ∈ timingGroups P)
    (hh : h ∈ timingGroups P)
    (hk : (k = .earlierVsLater ∧ g < h) ∨ (k = .laterVsEarlier ∧ h < g))
    (hc : timingComparison P k g h = some c) : Reported P c := by
  unfold timingComparison at hc
  split_ifs at hc with h1 h2
  push Not at h1 h2
  split at hc
  · cases hc
  · rename_i est hest
    cases hc
    refine ⟨hg, ?_, rfl, rfl, Nat.pos_of_ne_zero h1.1, Nat.pos_of_ne_zero h1.2,
      Nat.pos_of_ne_zero h2.1, Nat.pos_of_ne_zero h2.2, hest.symm, fun _ => rfl, rfl, rfl⟩
    rcases hk with ⟨rfl, hlt⟩ | ⟨rfl, hlt⟩
    · exact Or.inr (Or.inl ⟨rfl, h, hh, rfl, hlt⟩)
    · exact Or.inr (Or.inr ⟨rfl, h, hh, rfl, hlt⟩)

theorem reported_of_mem {P : Panel n K} {c : Comp K} (h : c ∈ comparisons P) : Reported P c := by
  unfold comparisons at h
  rcases List.mem_append.1 h with h | h
  · split_ifs at h with hn
    · obtain ⟨g, hg, hc⟩ := List.mem_filterMap.1 h
      exact reported_tvn hg hc
    · simp at h
  · obtain ⟨p, hp, hc⟩ := List.mem_flatMap.1 h
    obtain ⟨h1, h2, h3⟩ := mem_pairs (timingGroups_sorted P) hp
    rcases List.mem_append.1 hc with hc | hc
    · exact reported_timing h1 h2 (Or.inl ⟨rfl, h3⟩) (Option.mem_toList.1 hc)
    · exact reported_timing h2 h1 (Or.inr ⟨rfl, h3⟩) (Option.mem_toList.1 hc)

/-! ### C31 -/

/-- For treated-vs-never the pre and post periods partition all periods. -/
theorem card_times_tvn (P : Panel n K) (g : ℤ) :
    (prePeriods P .treatedVsNever g none).card + (postPeriods P .treatedVsNever g none).card = (times P).card := by
  show ((times P).filter (fun t => t < g)).card + ((times P).filter (fun t => g ≤ t)).card = _
  rw [← Finset.card_filter_add_card_filter_not (fun t => t < g) (s := times P)]
  simp only [not_lt]

theorem prop_pos {x y : K} (hx : 0 < x) (hy : 0 < y) : 0 < x / (x + y) * (1 - x / (x + y)) := by
  have h : (x + y) ≠ 0 := by positivity
  have : 1 - x / (x + y) = y / (x + y) := by field_simp; ring
  rw [this]
  positivity

theorem times_pos {P : Panel n K} {c : Comp K} (h : Reported P c) : 0 < (times P).card := by
  obtain ⟨t, ht⟩ := Finset.card_pos.1 h.pre
  refine Finset.card_pos.2 ⟨t, ?_⟩
  unfold prePeriods at ht
  split at ht <;> exact (Finset.mem_filter.1 ht).1

theorem approxWeight_pos {P : Panel n K} {c : Comp K} (h : Reported P c) : 0 < c.weight := by
  have hT : (0 : K) < (members P c.treated).card := by exact_mod_cast h.nTpos
  have hC : (0 : K) < (controls P c.control).card := by exact_mod_cast h.nCpos
  have ha : (0 : K) < (prePeriods P c.kind c.treated c.control).card := by exact_mod_cast h.pre
  have hb : (0 : K) < (postPeriods P c.kind c.treated c.control).card := by exact_mod_cast h.post
  have hN : (0 : K) < (times P).card := by exact_mod_cast times_pos h
  rw [h.weight]
  have h1 := prop_pos hT hC
  have h2 := prop_pos hb ha
  have key : ∀ D : K, 0 < D * (1 - D) → ∀ s : K, 0 < s →
      0 < (members P c.treated).card / ((members P c.treated).card + (controls P c.control).card : K) *
        (1 - (members P c.treated).card / ((members P c.treated).card + (controls P c.control).card : K)) *
        D * (1 - D) * s := by
    intro D hD s hs
    have := mul_pos (mul_pos h1 hD) hs
    rw [← mul_assoc] at this
    exact this
  rcases h.shape with ⟨hk, hc⟩ | ⟨hk, l, _, hc, _⟩ | ⟨hk, l, _, hc, _⟩
  · rw [hk, hc] at ha hb h2 ⊢
    rw [hc] at key
    have hD : ((postPeriods P .treatedVsNever c.treated none).card : K) / ((times P).card : K) *
        (1 - ((postPeriods P .treatedVsNever c.treated none).card : K) / ((times P).card : K)) > 0 := by
      rw [← card_times_tvn P c.treated]
      push_cast
      rw [add_comm]
      exact h2
    have := key _ hD 1 one_pos
    rw [mul_one] at this
    exact this
  · rw [hk, hc] at ha hb h2 ⊢
    rw [hc] at key
    exact key _ (by rw [add_comm] at h2; exact h2) _ (by positivity)
  · rw [hk, hc] at ha hb h2 ⊢
    rw [hc] at key
    exact key _ (by rw [add_comm] at h2; exact h2) _ (by positivity)

/-- A reported comparison has at least one row of a treated unit in its window. -/
theorem reported_row {P : Panel n K} {c : Comp K} (h : Reported P c) :
    ∃ r ∈ P.rows, r.1 ∈ members P c.treated ∧ (r.2 ∈ prePeriods P c.kind c.treated c.control ∨
      r.2 ∈ postPeriods P c.kind c.treated c.control) := by
  by_cases hk : c.kind = .treatedVsNever
  · obtain ⟨u, hu⟩ := Finset.card_pos.1 h.nTpos
    obtain ⟨r, hr, hru⟩ := Finset.mem_image.1 (mem_members.1 hu).1
    refine ⟨r, hr, by rw [hru]; exact hu, ?_⟩
    have ht : r.2 ∈ times P := Finset.mem_image_of_mem _ hr
    have hc : c.control = none := by
      rcases h.shape with ⟨_, hc⟩ | ⟨hk', _⟩ | ⟨hk', _⟩
      · exact hc
      · rw [hk] at hk'; cases hk'
      · rw [hk] at hk'; cases hk'
    rw [hk, hc]
    by_cases hlt : r.2 < c.treated
    · exact Or.inl (Finset.mem_filter.2 ⟨ht, hlt⟩)
    · exact Or.inr (Finset.mem_filter.2 ⟨ht, not_lt.1 hlt⟩)
  · obtain ⟨v, hv⟩ := Option.isSome_iff_exists.1 (h.estSome hk)
    obtain ⟨a, b, _, _, h1, _⟩ := did_some (h.est ▸ hv)
    obtain ⟨u, hu, t, ht, hr, _⟩ := cellMean_some h1
    exact ⟨(u, t), hr, hu, Or.inr ht⟩

theorem exactWeight_pos {P : Panel n K} {c : Comp K} (h : Reported P c) : 0 < exactWeight P c := by
  have hT : (0 : K) < (members P c.treated).card := by exact_mod_cast h.nTpos
  have hC : (0 : K) < (controls P c.control).card := by exact_mod_cast h.nCpos
  have ha : (0 : K) < (prePeriods P c.kind c.treated c.control).card := by exact_mod_cast h.pre
  have hb : (0 : K) < (postPeriods P c.kind c.treated c.control).card := by exact_mod_cast h.post
  obtain ⟨r, hr, hr1, hr2⟩ := reported_row h
  have hrows : (0 : K) < P.rows.card := by exact_mod_cast Finset.card_pos.2 ⟨r, hr⟩
  have hunits : (0 : K) < (units P).card := by
    exact_mod_cast Finset.card_pos.2 ⟨r.1, Finset.mem_image_of_mem _ hr⟩
  have h22 : 0 < (P.rows.filter (fun r => (r.1 ∈ members P c.treated ∨ r.1 ∈ controls P c.control) ∧
      (r.2 ∈ prePeriods P c.kind c.treated c.control ∨ r.2 ∈ postPeriods P c.kind c.treated c.control))).card :=
    Finset.card_pos.2 ⟨r, Finset.mem_filter.2 ⟨hr, Or.inl hr1, hr2⟩⟩
  have h22K : (0 : K) < ((P.rows.filter (fun r => (r.1 ∈ members P c.treated ∨ r.1 ∈ controls P c.control) ∧
      (r.2 ∈ prePeriods P c.kind c.treated c.control ∨ r.2 ∈ postPeriods P c.kind c.treated c.control))).card : K) := by
    exact_mod_cast h22
  have h2 := prop_pos hb ha
  rw [add_comm] at h2
  unfold exactWeight
  simp only
  rw [if_neg (by have := h.pre; have := h.post; omega), if_neg (by omega),
    if_neg (by have := h.nTpos; have := h.nCpos; omega)]
  have hshare : (0 : K) < (members P c.treated).card / ((members P c.treated).card + (controls P c.control).card) := by
    positivity
  have := mul_pos hshare h2
  rw [← mul_assoc] at this
  positivity

theorem withMode_pos {m : WeightMode} {P : Panel n K} : ∀ c ∈ withMode m P (comparisons P), 0 < c.weight := by
  intro c hc
  cases m with
  | approximate => exact approxWeight_pos (reported_of_mem hc)
  | exact =>
    obtain ⟨d, hd, rfl⟩ := List.mem_map.1 hc
    exact exactWeight_pos (reported_of_mem hd)

theorem sum_pos_of_pos {l : List (Comp K)} (h : ∀ c ∈ l, 0 < c.weight) (hl : l ≠ []) : 0 < totalWeight l := by
  unfold totalWeight
  cases l with
  | nil => exact absurd rfl hl
  | cons c cs =>
    rw [List.map_cons, List.sum_cons]
    have : 0 ≤ (cs.map (fun c => c.weight)).sum :=
      List.sum_nonneg (fun x hx => by
        obtain ⟨d, hd, rfl⟩ := List.mem_map.1 hx
        exact (h d (List.mem_cons_of_mem _ hd)).le)
    have := h c (List.mem_cons_self ..)
    linarith

theorem withMode_ne {m : WeightMode} {P : Panel n K} (h : comparisons P ≠ []) :
    withMode m P (comparisons P) ≠ [] := by
  cases m with
  | approximate => exact h
  | exact => simpa [withMode] using h

theorem total_div (l : List (Comp K)) (w : K) :
    totalWeight (l.map (fun c => { c with weight := c.weight / w })) = totalWeight l / w := by
  unfold totalWeight
  rw [List.map_map]
  induction l with
  | nil => simp
  | cons c cs ih => simp only [List.map_cons, List.sum_cons, Function.comp, add_div] at ih ⊢; rw [ih]

theorem normalise_total {l : List (Comp K)} (h : 0 < totalWeight l) : totalWeight (normalise l) = 1 := by
  unfold normalise
  rw [if_pos h, total_div, div_self h.ne']

theorem fit_comparisons_ne {m : WeightMode} {P : Panel n K} :
    (fit m P).comparisons ≠ [] ↔ comparisons P ≠ [] := by
  show normalise (withMode m P (comparisons P)) ≠ [] ↔ _
  constructor
  · intro h hc
    apply h
    rw [hc]
    cases m <;> simp [withMode, normalise, totalWeight]
  · intro h
    rw [normalise, if_pos (sum_pos_of_pos withMode_pos (withMode_ne h))]
    simpa using withMode_ne (m := m) h

/-- C31: for every panel (balanced or not) and both weight options every reported comparison has a strictly positive
weight, at most one. -/
theorem C31_weights_positive (m : WeightMode) (P : Panel n K) :
    ∀ c ∈ (fit m P).comparisons, 0 < c.weight := by
  intro c hc
  have hne : comparisons P ≠ [] := fit_comparisons_ne.1 (List.ne_nil_of_mem hc)
  have ht := sum_pos_of_pos (withMode_pos (m := m) (P := P)) (withMode_ne hne)
  change c ∈ normalise (withMode m P (comparisons P)) at hc
  rw [normalise, if_pos ht] at hc
  obtain ⟨d, hd, rfl⟩ := List.mem_map.1 hc
  exact div_pos (withMode_pos d hd) ht

/-- C31: the weights sum to one whenever there is a comparison. -/
theorem C31_sum_one (m : WeightMode) (P : Panel n K) (h : (fit m P).comparisons ≠ []) :
    ((fit m P).comparisons.map (fun c => c.weight)).sum = 1 :=
  normalise_total (sum_pos_of_pos withMode_pos (withMode_ne (fit_comparisons_ne.1 h)))

theorem typeWeight_split (l : List (Comp K)) :
    typeWeight l .treatedVsNever + typeWeight l .earlierVsLater + typeWeight l .laterVsEarlier = totalWeight l := by
  unfold typeWeight totalWeight
  induction l with
  | nil => simp
  | cons c cs ih =>
    rcases hk : c.kind with _ | _ | _ <;> simp [List.filter_cons, hk, ← ih] <;> ring

/-- C31: the three per-type totals add up to one. -/
theorem C31_types_sum_one (m : WeightMode) (P : Panel n K) (h : (fit m P).comparisons ≠ []) :
    (fit m P).totalWeights .treatedVsNever + (fit m P).totalWeights .earlierVsLater
      + (fit m P).totalWeights .laterVsEarlier = 1 := by
  rw [← C31_sum_one m P h]
  exact typeWeight_split _

theorem weightedSum_some {l : List (Comp K)} (h : ∀ c ∈ l, c.estimate.isSome) :
    weightedSum l = some ((l.map (fun c => c.weight * c.estimate.getD 0)).sum) := by
  induction l with
  | nil => rfl
  | cons c cs ih =>
    obtain ⟨e, he⟩ := Option.isSome_iff_exists.1 (h c (List.mem_cons_self ..))
    have := ih (fun d hd => h d (List.mem_cons_of_mem _ hd))
    simp only [weightedSum, he, this, List.map_cons, List.sum_cons, Option.getD_some]

theorem bounds_of_weighted {l : List (Comp K)} (hw : ∀ c ∈ l, 0 < c.weight) {lo hi : K}
    (hb : ∀ c ∈ l, lo ≤ c.estimate.getD 0 ∧ c.estimate.getD 0 ≤ hi) :
    lo * totalWeight l ≤ (l.map (fun c => c.weight * c.estimate.getD 0)).sum ∧
      (l.map (fun c => c.weight * c.estimate.getD 0)).sum ≤ hi * totalWeight l := by
  unfold totalWeight
  induction l with
  | nil => simp
  | cons c cs ih =>
    obtain ⟨i1, i2⟩ := ih (fun d hd => hw d (List.mem_cons_of_mem _ hd)) (fun d hd => hb d (List.mem_cons_of_mem _ hd))
    have w := hw c (List.mem_cons_self ..)
    obtain ⟨b1, b2⟩ := hb c (List.mem_cons_self ..)
    simp only [List.map_cons, List.sum_cons]
    constructor <;> nlinarith

/-- C31: a type's average is the weighted average of its comparisons, and lies within their range. -/
theorem C31_type_average (m : WeightMode) (P : Panel n K) (k : Kind)
    (hne : ∃ c ∈ (fit m P).comparisons, c.kind = k)
    (hs : ∀ c ∈ (fit m P).comparisons, c.kind = k → c.estimate.isSome) :
    ∃ v, (fit m P).averages k = some (some v) ∧
      v * (fit m P).totalWeights k =
        (((fit m P).comparisons.filter (fun c => decide (c.kind = k))).map
          (fun c => c.weight * c.estimate.getD 0)).sum ∧
      ∀ lo hi, (∀ c ∈ (fit m P).comparisons, c.kind = k → lo ≤ c.estimate.getD 0 ∧ c.estimate.getD 0 ≤ hi) →
        lo ≤ v ∧ v ≤ hi := by
  have hpos := C31_weights_positive m P
  have havg : (fit m P).averages k = typeAverage (fit m P).comparisons k := rfl
  have htw : (fit m P).totalWeights k = typeWeight (fit m P).comparisons k := rfl
  rw [havg, htw]
  generalize (fit m P).comparisons = l at *
  have hpos' : ∀ c ∈ l.filter (fun c => decide (c.kind = k)), 0 < c.weight :=
    fun c hc => hpos c (List.mem_of_mem_filter hc)
  obtain ⟨c, hc, hck⟩ := hne
  have hW : 0 < typeWeight l k := sum_pos_of_pos hpos'
    (List.ne_nil_of_mem (List.mem_filter.2 ⟨hc, by simpa using hck⟩))
  have hsome : ∀ c ∈ l.filter (fun c => decide (c.kind = k)), c.estimate.isSome := fun c hc => by
    rw [List.mem_filter] at hc
    exact hs c hc.1 (by simpa using hc.2)
  refine ⟨_, by rw [typeAverage, if_pos hW, weightedSum_some hsome]; rfl, div_mul_cancel₀ _ hW.ne', ?_⟩
  intro lo hi hb
  obtain ⟨b1, b2⟩ := bounds_of_weighted hpos' (lo := lo) (hi := hi) (fun c hc => by
    rw [List.mem_filter] at hc
    exact hb c hc.1 (by simpa using hc.2))
  exact ⟨(le_div_iff₀ hW).2 b1, (div_le_iff₀ hW).2 b2⟩

/-- C31: a type without comparisons has weight zero and no average. -/
theorem C31_type_absent (m : WeightMode) (P : Panel n K) (k : Kind)
    (h : ∀ c ∈ (fit m P).comparisons, c.kind ≠ k) :
    (fit m P).totalWeights k = 0 ∧ (fit m P).averages k = none := by
  have e : (fit m P).comparisons.filter (fun c => decide (c.kind = k)) = [] := by
    rw [List.filter_eq_nil_iff]
    intro c hc
    simpa using h c hc
  have h0 : typeWeight (fit m P).comparisons k = 0 := by rw [typeWeight, e]; rfl
  refine ⟨h0, ?_⟩
  show typeAverage (fit m P).comparisons k = none
  rw [typeAverage, h0, if_neg (lt_irrefl _)]

/-! ### C33 -/

theorem times_congr {P Q : Panel n K} (h : P.rows = Q.rows) : times P = times Q := by unfold times; rw [h]

theorem members_congr {P Q : Panel n K} (hr : P.rows = Q.rows) (hc : P.cohort = Q.cohort) (g : ℤ) :
    members P g = members Q g := by unfold members units; rw [hr, hc]

theorem never_congr {P Q : Panel n K} (hr : P.rows = Q.rows) (hc : P.cohort = Q.cohort) :
    never P = never Q := by unfold never units; rw [hr, hc]

theorem pre_congr {P Q : Panel n K} (hr : P.rows = Q.rows) (k : Kind) (g : ℤ) (c : Option ℤ) :
    prePeriods P k g c = prePeriods Q k g c := by unfold prePeriods; rw [times_congr hr]

theorem post_congr {P Q : Panel n K} (hr : P.rows = Q.rows) (k : Kind) (g : ℤ) (c : Option ℤ) :
    postPeriods P k g c = postPeriods Q k g c := by unfold postPeriods; rw [times_congr hr]

theorem controls_congr {P Q : Panel n K} (hr : P.rows = Q.rows) (hc : P.cohort = Q.cohort) (c : Option ℤ) :
    controls P c = controls Q c := by
  cases c
  · exact never_congr hr hc
  · exact members_congr hr hc _

theorem cellMean_congr {P Q : Panel n K} (hr : P.rows = Q.rows) {U : Finset (Fin n)} {W : Finset ℤ}
    (hy : ∀ u ∈ U, ∀ t ∈ W, P.y u t = Q.y u t) : cellMean P U W = cellMean Q U W := by
  have e : P.rows.filter (fun r => r.1 ∈ U ∧ r.2 ∈ W ∧ (P.y r.1 r.2).isSome = true) =
      Q.rows.filter (fun r => r.1 ∈ U ∧ r.2 ∈ W ∧ (Q.y r.1 r.2).isSome = true) := by
    rw [hr]
    apply Finset.filter_congr
    intro r _
    constructor
    · rintro ⟨a, b, c⟩; exact ⟨a, b, by rw [← hy _ a _ b]; exact c⟩
    · rintro ⟨a, b, c⟩; exact ⟨a, b, by rw [hy _ a _ b]; exact c⟩
  unfold cellMean
  simp only
  rw [e]
  have : ∑ r ∈ Q.rows.filter (fun r => r.1 ∈ U ∧ r.2 ∈ W ∧ (Q.y r.1 r.2).isSome = true), (P.y r.1 r.2).getD 0 =
      ∑ r ∈ Q.rows.filter (fun r => r.1 ∈ U ∧ r.2 ∈ W ∧ (Q.y r.1 r.2).isSome = true), (Q.y r.1 r.2).getD 0 := by
    apply Finset.sum_congr rfl
    intro r hr'
    obtain ⟨_, a, b, _⟩ := Finset.mem_filter.1 hr'
    rw [hy _ a _ b]
  rw [this]

theorem did_congr {P Q : Panel n K} (hr : P.rows = Q.rows) {T C : Finset (Fin n)} {pre post : Finset ℤ}
    (hy : ∀ u, u ∈ T ∨ u ∈ C → ∀ t, t ∈ pre ∨ t ∈ post → P.y u t = Q.y u t) :
    did P T C pre post = did Q T C pre post := by
  unfold did
  rw [cellMean_congr hr (fun u hu t ht => hy u (Or.inl hu) t (Or.inr ht)),
    cellMean_congr hr (fun u hu t ht => hy u (Or.inl hu) t (Or.inl ht)),
    cellMean_congr hr (fun u hu t ht => hy u (Or.inr hu) t (Or.inr ht)),
    cellMean_congr hr (fun u hu t ht => hy u (Or.inr hu) t (Or.inl ht))]

theorem approx_congr {P Q : Panel n K} (hr : P.rows = Q.rows) (hc : P.cohort = Q.cohort) (k : Kind) (g : ℤ)
    (c : Option ℤ) : approxWeight P k g c = approxWeight Q k g c := by
  unfold approxWeight
  rw [members_congr hr hc, controls_congr hr hc, pre_congr hr, post_congr hr, times_congr hr]

theorem window_congr {P Q : Panel n K} (hr : P.rows = Q.rows) (k : Kind) (g : ℤ) (c : Option ℤ) :
    window P k g c = window Q k g c := by unfold window; rw [times_congr hr]

theorem timing_congr {P Q : Panel n K} (hr : P.rows = Q.rows) (hc : P.cohort = Q.cohort) {k : Kind} {g c : ℤ}
    (hy : ∀ u, u ∈ members P g ∨ u ∈ members P c → ∀ t, t ∈ prePeriods P k g (some c) ∨ t ∈ postPeriods P k g (some c) →
      P.y u t = Q.y u t) :
    timingComparison P k g c = timingComparison Q k g c := by
  unfold timingComparison
  rw [did_congr hr hy, did, did]
  rw [members_congr hr hc, members_congr hr hc, pre_congr hr, post_congr hr, approx_congr hr hc, window_congr hr]

/-- C33: an earlier-vs-later comparison only uses outcomes of the two groups before the later group is treated. -/
theorem C33_earlier_vs_later_window (P Q : Panel n K) (hr : P.rows = Q.rows) (hc : P.cohort = Q.cohort) (e l : ℤ)
    (hel : e < l)
    (hy : ∀ u t, P.cohort u = .num e ∨ P.cohort u = .num l → t < l → P.y u t = Q.y u t) :
    timingComparison P .earlierVsLater e l = timingComparison Q .earlierVsLater e l := by
  apply timing_congr hr hc
  intro u hu t ht
  apply hy
  · rcases hu with hu | hu
    · exact Or.inl (mem_members.1 hu).2
    · exact Or.inr (mem_members.1 hu).2
  · rcases ht with ht | ht
    · exact lt_trans (Finset.mem_filter.1 ht).2 hel
    · exact (Finset.mem_filter.1 ht).2.2

/-- C33: a later-vs-earlier comparison only uses outcomes of the two groups at or after the earlier group's start. -/
theorem C33_later_vs_earlier_window (P Q : Panel n K) (hr : P.rows = Q.rows) (hc : P.cohort = Q.cohort) (e l : ℤ)
    (hel : e < l)
    (hy : ∀ u t, P.cohort u = .num e ∨ P.cohort u = .num l → e ≤ t → P.y u t = Q.y u t) :
    timingComparison P .laterVsEarlier l e = timingComparison Q .laterVsEarlier l e := by
  apply timing_congr hr hc
  intro u hu t ht
  apply hy
  · rcases hu with hu | hu
    · exact Or.inr (mem_members.1 hu).2
    · exact Or.inl (mem_members.1 hu).2
  · rcases ht with ht | ht
    · exact (Finset.mem_filter.1 ht).2.1
    · exact le_trans hel.le (Finset.mem_filter.1 ht).2

/-- C33: a timing comparison is absent when its window has no pre or no post period in the data. -/
theorem C33_absent (P : Panel n K) (e l : ℤ) :
    ((∀ t ∈ times P, ¬ t < e) → timingComparison P .earlierVsLater e l = none) ∧
    ((∀ t ∈ times P, ¬ (e ≤ t ∧ t < l)) → timingComparison P .earlierVsLater e l = none ∧
      timingComparison P .laterVsEarlier l e = none) ∧
    ((∀ t ∈ times P, ¬ l ≤ t) → timingComparison P .laterVsEarlier l e = none) := by
  have key : ∀ k g c, (prePeriods P k g (some c)).card = 0 ∨ (postPeriods P k g (some c)).card = 0 →
      timingComparison P k g c = none := by
    intro k g c h
    unfold timingComparison
    split_ifs <;> rfl
  refine ⟨fun h => key _ _ _ (Or.inl ?_), fun h => ⟨key _ _ _ (Or.inr ?_), key _ _ _ (Or.inl ?_)⟩,
    fun h => key _ _ _ (Or.inr ?_)⟩
  all_goals exact Finset.card_eq_zero.2 (Finset.filter_eq_empty_iff.2 (fun t ht => h t ht))

/-- C33: conversely, in every panel in which the four cells of the window contain an outcome, the comparison is
reported. -/
theorem C33_present (P : Panel n K) (k : Kind) (g c : ℤ)
    (h : ∀ U W, (U = members P g ∨ U = members P c) →
      (W = prePeriods P k g (some c) ∨ W = postPeriods P k g (some c)) →
      ∃ u ∈ U, ∃ t ∈ W, (u, t) ∈ P.rows ∧ (P.y u t).isSome) :
    (timingComparison P k g c).isSome := by
  have hm : ∀ U W, (U = members P g ∨ U = members P c) →
      (W = prePeriods P k g (some c) ∨ W = postPeriods P k g (some c)) → ∃ v, cellMean P U W = some v := by
    intro U W hU hW
    obtain ⟨u, hu, t, ht, hr, hs⟩ := h U W hU hW
    refine ⟨_, if_neg ?_⟩
    exact (Finset.card_pos.2 ⟨(u, t), Finset.mem_filter.2 ⟨hr, hu, ht, hs⟩⟩).ne'
  have hne : ∀ U W, (U = members P g ∨ U = members P c) →
      (W = prePeriods P k g (some c) ∨ W = postPeriods P k g (some c)) → U.card ≠ 0 ∧ W.card ≠ 0 := by
    intro U W hU hW
    obtain ⟨u, hu, t, ht, _⟩ := h U W hU hW
    exact ⟨(Finset.card_pos.2 ⟨u, hu⟩).ne', (Finset.card_pos.2 ⟨t, ht⟩).ne'⟩
  obtain ⟨a, ha⟩ := hm _ _ (Or.inl rfl) (Or.inr rfl)
  obtain ⟨b, hb⟩ := hm _ _ (Or.inl rfl) (Or.inl rfl)
  obtain ⟨c', hc'⟩ := hm _ _ (Or.inr rfl) (Or.inr rfl)
  obtain ⟨d, hd⟩ := hm _ _ (Or.inr rfl) (Or.inl rfl)
  have n1 := hne _ _ (Or.inl rfl) (Or.inl rfl)
  have n2 := hne _ _ (Or.inr rfl) (Or.inr rfl)
  unfold timingComparison
  rw [if_neg (by push Not; exact ⟨n1.1, n2.1⟩), if_neg (by push Not; exact ⟨n1.2, n2.2⟩)]
  simp only [did, ha, hb, hc', hd]
  rfl

/-- C33: the panel periods inside the reported time window are exactly the periods the comparison uses. -/
theorem C33_window_exact (m : WeightMode) (P : Panel n K) (c : Comp K) (hc : c ∈ (fit m P).comparisons) (t : ℤ)
    (hT : t ∈ times P) :
    (c.window.1 ≤ (t : WithTop ℤ) ∧ (t : WithBot ℤ) ≤ c.window.2) ↔
      (t ∈ prePeriods P c.kind c.treated c.control ∨ t ∈ postPeriods P c.kind c.treated c.control) := by
  have hrep : ∃ d ∈ comparisons P, d.kind = c.kind ∧ d.treated = c.treated ∧ d.control = c.control ∧
      d.window = c.window := by
    change c ∈ normalise (withMode m P (comparisons P)) at hc
    have h1 : ∃ d ∈ withMode m P (comparisons P), d.kind = c.kind ∧ d.treated = c.treated ∧ d.control = c.control ∧
        d.window = c.window := by
      unfold normalise at hc
      split_ifs at hc
      · obtain ⟨d, hd, rfl⟩ := List.mem_map.1 hc
        exact ⟨d, hd, rfl, rfl, rfl, rfl⟩
      · exact ⟨c, hc, rfl, rfl, rfl, rfl⟩
    obtain ⟨d, hd, e1, e2, e3, e4⟩ := h1
    cases m with
    | approximate => exact ⟨d, hd, e1, e2, e3, e4⟩
    | exact =>
      obtain ⟨d', hd', rfl⟩ := List.mem_map.1 hd
      exact ⟨d', hd', e1, e2, e3, e4⟩
  obtain ⟨d, hd, e1, e2, e3, e4⟩ := hrep
  have hR := reported_of_mem hd
  have hsh := hR.shape
  rw [e1, e2, e3] at hsh
  rw [← e4, hR.window, e1, e2, e3]
  have hmin : ∀ {t}, t ∈ times P → (times P).min ≤ (t : WithTop ℤ) := fun h => Finset.min_le h
  have hmax : ∀ {t}, t ∈ times P → (t : WithBot ℤ) ≤ (times P).max := fun h => Finset.le_max h
  rcases hsh with ⟨hk, hn⟩ | ⟨hk, l, _, hl, hlt⟩ | ⟨hk, l, _, hl, hlt⟩
  · rw [hk, hn]
    simp only [window, prePeriods, postPeriods, Finset.mem_filter, hT, true_and, hmin hT, hmax hT, true_iff]
    omega
  · rw [hk, hl]
    simp only [window, prePeriods, postPeriods, Finset.mem_filter, hT, true_and, hmin hT, WithBot.coe_le_coe]
    omega
  · rw [hk, hl]
    simp only [window, prePeriods, postPeriods, Finset.mem_filter, hT, true_and, hmax hT, and_true, WithTop.coe_le_coe]
    omega

/-! ### C30 (BaconDecomposition) -/

/-- Recode never-treated units from 0 to infinity. -/
def recode (P : Panel n K) : Panel n K :=
  { P with cohort := fun u => if P.cohort u = .num 0 then .inf else P.cohort u }

theorem recode_isNever (P : Panel n K) (u : Fin n) : ((recode P).cohort u).isNever = (P.cohort u).isNever := by
  show (if P.cohort u = .num 0 then Coh.inf else P.cohort u).isNever = _
  split_ifs with h
  · rw [h]; rfl
  · rfl

theorem recode_num (P : Panel n K) (u : Fin n) {z : ℤ} (hz : z ≠ 0) :
    (recode P).cohort u = .num z ↔ P.cohort u = .num z := by
  show (if P.cohort u = .num 0 then Coh.inf else P.cohort u) = _ ↔ _
  split_ifs with h
  · rw [h]
    constructor
    · intro e; cases e
    · intro e; cases e; exact absurd rfl hz
  · rfl

theorem recode_timing (P : Panel n K) : timingGroups (recode P) = timingGroups P := by
  unfold timingGroups
  have : ∀ u, timingValue ((recode P).cohort u) = timingValue (P.cohort u) := by
    intro u
    show timingValue (if P.cohort u = .num 0 then Coh.inf else P.cohort u) = _
    split_ifs with h
    · rw [h]; rfl
    · rfl
  simp only [this]
  rfl

theorem recode_treat (P : Panel n K) : treat (recode P) = treat P := by
  funext u t
  unfold treat
  by_cases h : P.cohort u = .num 0
  · have e : (recode P).cohort u = .inf := if_pos h
    rw [e, h]
    simp [Coh.isNever]
  · have e : (recode P).cohort u = P.cohort u := if_neg h
    rw [e]

theorem recode_members (P : Panel n K) {g : ℤ} (hg : g ≠ 0) : members (recode P) g = members P g := by
  ext u
  rw [mem_members, mem_members, recode_num P u hg]
  rfl

theorem recode_never (P : Panel n K) : never (recode P) = never P := by
  ext u
  rw [mem_never, mem_never, recode_isNever]
  rfl

/-- C30: recoding never-treated units from 0 to infinity changes nothing BaconDecomposition reports. -/
theorem C30_bacon (m : WeightMode) (P : Panel n K) : fit m (recode P) = fit m P := by
  have hg0 : ∀ {g}, g ∈ timingGroups P → g ≠ 0 := fun h => ((mem_timingGroups.1 h).1).ne'
  have happ : ∀ k (g : ℤ) (c : Option ℤ), g ≠ 0 → c ≠ some 0 →
      approxWeight (recode P) k g c = approxWeight P k g c := by
    intro k g c hg hc
    have e : controls (recode P) c = controls P c := by
      cases c with
      | none => exact recode_never P
      | some h => exact recode_members P (fun h0 => hc (by rw [h0]))
    unfold approxWeight
    rw [recode_members P hg, e]
    rfl
  have htvn : ∀ g, g ∈ timingGroups P → treatedVsNever (recode P) g = treatedVsNever P g := by
    intro g hg
    unfold treatedVsNever
    rw [recode_members P (hg0 hg), recode_never, happ _ _ _ (hg0 hg) (by simp)]
    rfl
  have htim : ∀ k g h, g ∈ timingGroups P → h ∈ timingGroups P →
      timingComparison (recode P) k g h = timingComparison P k g h := by
    intro k g h hg hh
    unfold timingComparison
    rw [recode_members P (hg0 hg), recode_members P (hg0 hh), happ _ _ _ (hg0 hg) (by simpa using hg0 hh)]
    rfl
  have hcomp : comparisons (recode P) = comparisons P := by
    unfold comparisons
    rw [recode_timing, recode_never]
    congr 1
    · split_ifs
      · exact List.filterMap_congr (fun g hg => htvn g hg)
      · rfl
    · apply List.flatMap_congr
      intro p hp
      obtain ⟨h1, h2, _⟩ := mem_pairs (timingGroups_sorted P) hp
      rw [htim _ _ _ h1 h2, htim _ _ _ h2 h1]
  have hmode : withMode m (recode P) (comparisons (recode P)) = withMode m P (comparisons P) := by
    rw [hcomp]
    cases m with
    | approximate => rfl
    | exact =>
      apply List.map_congr_left
      intro c hc
      have hR := reported_of_mem hc
      have e : controls (recode P) c.control = controls P c.control := by
        rcases hR.shape with ⟨_, h⟩ | ⟨_, l, hl, h, _⟩ | ⟨_, l, hl, h, _⟩
        · rw [h]; exact recode_never P
        · rw [h]; exact recode_members P (hg0 hl)
        · rw [h]; exact recode_members P (hg0 hl)
      have : exactWeight (recode P) c = exactWeight P c := by
        unfold exactWeight
        rw [recode_members P (hg0 hR.group), e]
        rfl
      rw [this]
  have htw : twfe (recode P) = twfe P := by
    unfold twfe
    rw [recode_treat]
    rfl
  unfold fit
  rw [hmode, htw, recode_timing, recode_never]
  rfl

/-! ### Non-vacuity -/

/-- Four units, cohorts 2, 3, 0 and infinity, periods 1-4. -/
def demo : Panel 4 ℚ where
  cohort := ![.num 2, .num 3, .num 0, .inf]
  rows := Finset.univ ×ˢ {1, 2, 3, 4}
  y := fun u t => some ((u.val : ℚ) ^ 2 + (t : ℚ) * (u.val + 1))

/-- All six kinds of comparisons are present in the demo panel, and cohorts coded 0 and infinity are both never
treated. -/
example : ((fit .exact demo).comparisons.map (fun c => (c.kind, c.treated, c.control, c.estimate))) =
    [(.treatedVsNever, 2, none, some (-5)), (.treatedVsNever, 3, none, some (-3)),
     (.earlierVsLater, 2, some 3, some (-1)), (.laterVsEarlier, 3, some 2, some (3/2))] ∧
    (fit .exact demo).nNever = 2 ∧ (fit .exact demo).timingGroups = [2, 3] := by
  refine ⟨by decide +kernel, by decide +kernel, by decide +kernel⟩

example : (recode demo).cohort 2 = .inf ∧ demo.cohort 2 = .num 0 := by decide

end DiffDiff.Bacon
