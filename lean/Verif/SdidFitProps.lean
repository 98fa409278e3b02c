/-
Property C119: which units and periods SyntheticDiD uses.
-/
import Verif.SdidFit
import Verif.SdidProps
import Verif.SynthWeightsProps
import Mathlib.Data.List.Perm.Basic
import Mathlib.Tactic.LinearCombination

set_option linter.unusedSectionVars false

namespace DiffDiff.SdidFit

open DiffDiff.Sdid (sdid avg placeboOnce inference)
open DiffDiff.SynthWeights (Backend)

variable {K : Type*} [Field K] [LinearOrder K] [IsStrictOrderedRing K]

/-! ### Weights that sum to one -/

/-- Specification of weight routines: weights are non-negative and sum to one. -/
def Weights.Prob (W : Weights K) : Prop :=
  (∀ {p n : ℕ} (Y : Fin p → Fin n → K) (T : Fin p → K), 0 < n → (∀ j, 0 ≤ W.unit Y T j) ∧ ∑ j, W.unit Y T j = 1) ∧
  (∀ {p n : ℕ} (Y : Fin p → Fin n → K) (T : Fin p → K), 0 < p → (∀ t, 0 ≤ W.time Y T t) ∧ ∑ t, W.time Y T t = 1)

/-- The routines of the code satisfy it for both backends (C04, C05). -/
theorem codeWeights_prob (b : Backend) (lambdaReg zeta eps : ℝ) (step : {p n : ℕ} → (Fin p → Fin n → ℝ) → ℝ) (tol : ℝ) (maxIter : ℕ)
    (he : 0 < eps) (hz : 0 ≤ zeta) : (codeWeights b lambdaReg zeta eps step tol maxIter).Prob := by
  constructor
  · intro p n Y T hn
    exact SynthWeights.C04_unit_weights_isProb b (Matrix.of Y) T _ _ _ _ _ hn
  · intro p n Y T hp
    have := SynthWeights.C05_time_weights_isProb he (Matrix.of Y) T hz hp
    exact ⟨fun t => (this.1 t).le, this.2⟩

/-! ### Sorted lists -/

theorem sort_congr {l l' : List ℤ} (h : l.Perm l') : l.insertionSort (· ≤ ·) = l'.insertionSort (· ≤ ·) := by
  refine List.Perm.eq_of_pairwise (le := (· ≤ ·)) (fun a b _ _ h1 h2 => le_antisymm h1 h2) (List.pairwise_insertionSort _ _)
    (List.pairwise_insertionSort _ _) ?_
  exact (List.perm_insertionSort _ _).trans (h.trans (List.perm_insertionSort _ _).symm)

theorem mem_allPeriods {rows : List (Row K)} {t : ℤ} : t ∈ allPeriods rows ↔ ∃ r ∈ rows, r.time = t := by
  unfold allPeriods
  rw [List.mem_insertionSort, List.mem_dedup, List.mem_map]

theorem mem_allUnits {rows : List (Row K)} {u : ℤ} : u ∈ allUnits rows ↔ ∃ r ∈ rows, r.unit = u := by
  unfold allUnits
  rw [List.mem_insertionSort, List.mem_dedup, List.mem_map]

theorem allPeriods_lt (rows : List (Row K)) : (allPeriods rows).Pairwise (· < ·) := by
  have h1 : (allPeriods rows).Pairwise (· ≤ ·) := List.pairwise_insertionSort _ _
  have h2 : (allPeriods rows).Nodup := (List.perm_insertionSort _ _).nodup_iff.2 (List.nodup_dedup _)
  exact (h1.and h2).imp (fun ⟨a, b⟩ => lt_of_le_of_ne a b)

theorem allUnits_nodup (rows : List (Row K)) : (allUnits rows).Nodup :=
  (List.perm_insertionSort _ _).nodup_iff.2 (List.nodup_dedup _)

/-! ### Treatment status -/

/-- The treatment column does not vary within a unit (missing values aside). -/
def Constant (rows : List (Row K)) : Prop :=
  ∀ r ∈ rows, ∀ r' ∈ rows, r.unit = r'.unit → ∀ v v', r.d = some v → r'.d = some v' → v = v'

theorem firstTreat_some {rows : List (Row K)} {u v : ℤ} (h : firstTreat rows u = some v) : ∃ r ∈ rows, r.unit = u ∧ r.d = some v := by
  unfold firstTreat at h
  obtain ⟨r, hr, hv⟩ := List.exists_of_findSome?_eq_some h
  rw [List.mem_filter] at hr
  exact ⟨r, hr.1, by simpa using hr.2, hv⟩

theorem firstTreat_isSome {rows : List (Row K)} {u : ℤ} (h : ∃ r ∈ rows, r.unit = u ∧ ∃ v, r.d = some v) : ∃ v, firstTreat rows u = some v := by
  obtain ⟨r, hr, hu, v, hv⟩ := h
  cases hc : firstTreat rows u with
  | some w => exact ⟨w, rfl⟩
  | none =>
    unfold firstTreat at hc
    rw [List.findSome?_eq_none_iff] at hc
    have := hc r (List.mem_filter.2 ⟨hr, by simpa using hu⟩)
    rw [hv] at this
    cases this

theorem firstTreat_iff {rows : List (Row K)} (hc : Constant rows) (u v : ℤ) :
    firstTreat rows u = some v ↔ ∃ r ∈ rows, r.unit = u ∧ r.d = some v := by
  constructor
  · exact firstTreat_some
  · rintro ⟨r, hr, hu, hv⟩
    obtain ⟨w, hw⟩ := firstTreat_isSome ⟨r, hr, hu, v, hv⟩
    obtain ⟨r', hr', hu', hv'⟩ := firstTreat_some hw
    rw [hw, hc r' hr' r hr (hu'.trans hu.symm) w v hv' hv]

theorem mem_treated {rows : List (Row K)} {u : ℤ} : u ∈ treatedUnits rows ↔ firstTreat rows u = some 1 := by
  unfold treatedUnits
  rw [List.mem_filter, mem_allUnits]
  simp only [decide_eq_true_eq, and_iff_right_iff_imp]
  intro h
  obtain ⟨r, hr, hu, _⟩ := firstTreat_some h
  exact ⟨r, hr, hu⟩

theorem mem_control {rows : List (Row K)} {u : ℤ} : u ∈ controlUnits rows ↔ firstTreat rows u = some 0 := by
  unfold controlUnits
  rw [List.mem_filter, mem_allUnits]
  simp only [decide_eq_true_eq, and_iff_right_iff_imp]
  intro h
  obtain ⟨r, hr, hu, _⟩ := firstTreat_some h
  exact ⟨r, hr, hu⟩

/-! ### Accepted data -/

/-- What data must satisfy to be analysed. -/
structure Accepts (rows : List (Row K)) (postArg : Option (List ℤ)) : Prop where
  binary : ∀ r ∈ rows, ∀ v, r.d = some v → v = 0 ∨ v = 1
  twoPeriods : ∃ r ∈ rows, ∃ r' ∈ rows, r.time ≠ r'.time
  post : ∀ l, postArg = some l → l ≠ [] ∧ (∀ p ∈ l, ∃ r ∈ rows, r.time = p) ∧ ∃ r ∈ rows, r.time ∉ l
  treated : ∃ u, firstTreat rows u = some 1
  control : ∃ u, firstTreat rows u = some 0
  unique : (rows.map (fun r => (r.unit, r.time))).Nodup
  complete : ∀ u, firstTreat rows u = some 0 ∨ firstTreat rows u = some 1 → ∀ r ∈ rows, ∃ v, cell rows u r.time = some v

theorem length_lt_two_iff (rows : List (Row K)) : (allPeriods rows).length < 2 ↔ ¬ ∃ r ∈ rows, ∃ r' ∈ rows, r.time ≠ r'.time := by
  constructor
  · rintro h ⟨r, hr, r', hr', hne⟩
    have h1 : r.time ∈ allPeriods rows := mem_allPeriods.2 ⟨r, hr, rfl⟩
    have h2 : r'.time ∈ allPeriods rows := mem_allPeriods.2 ⟨r', hr', rfl⟩
    match hl : allPeriods rows, h, h1, h2 with
    | [], _, h1, _ => simp at h1
    | [a], _, h1, h2 =>
      simp only [List.mem_singleton] at h1 h2
      exact hne (h1.trans h2.symm)
  · intro h
    by_contra hc
    have hl : 2 ≤ (allPeriods rows).length := by omega
    obtain ⟨r, hr, e1⟩ := mem_allPeriods.1 (List.getElem_mem (l := allPeriods rows) (n := 0) (by omega))
    obtain ⟨r', hr', e2⟩ := mem_allPeriods.1 (List.getElem_mem (l := allPeriods rows) (n := 1) (by omega))
    have := List.pairwise_iff_getElem.1 (allPeriods_lt rows) 0 1 (by omega) (by omega) (by omega)
    exact h ⟨r, hr, r', hr', by rw [e1, e2]; exact this.ne⟩

theorem length_zero_iff {α : Type*} (l : List α) : l.length = 0 ↔ ∀ x, x ∉ l := by
  rw [List.length_eq_zero_iff, List.eq_nil_iff_forall_not_mem]

/-- C119. `fit` analyses the data exactly when the treatment is binary, there are two periods, the given post periods occur in
the data and leave a pre period, there are treated and control units, and each of their cells is filled once; then the sample is
made of the requested periods and of all units marked treated or control. -/
theorem C119_accepts (rows : List (Row K)) (postArg : Option (List ℤ)) :
    (∃ s, sample rows postArg = .ok s) ↔ Accepts rows postArg := by
  unfold sample
  dsimp only
  constructor
  · rintro ⟨s, h⟩
    split_ifs at h with h1 h2 h3 h4 h5 h6 h7 h8 h9
    refine ⟨?_, ?_, ?_, ?_, ?_, ?_, ?_⟩
    · intro r hr v hv
      by_contra hc
      exact h1 ⟨r, hr, v, hv, fun h => hc (Or.inl h), fun h => hc (Or.inr h)⟩
    · by_contra hc; exact h2 ((length_lt_two_iff rows).2 hc)
    · rintro l rfl
      refine ⟨fun hl => h3 (by rw [hl]; rfl), fun p hp => ?_, ?_⟩
      · by_contra hc
        exact h5 ⟨p, hp, fun hm => hc (mem_allPeriods.1 hm)⟩
      · have : ∃ x, x ∈ (splitPeriods (allPeriods rows) (some l)).1 := by
          by_contra hc
          push_neg at hc
          exact h4 ((length_zero_iff _).2 hc)
        obtain ⟨x, hx⟩ := this
        have hx' := List.mem_filter.1 hx
        obtain ⟨r, hr, he⟩ := mem_allPeriods.1 hx'.1
        exact ⟨r, hr, by rw [he]; simpa using hx'.2⟩
    · by_contra hc
      push_neg at hc
      exact h6 ((length_zero_iff _).2 fun u hu => hc u (mem_treated.1 hu))
    · by_contra hc
      push_neg at hc
      exact h7 ((length_zero_iff _).2 fun u hu => hc u (mem_control.1 hu))
    · exact h8
    · intro u hu r hr
      cases hc : cell rows u r.time with
      | some v => exact ⟨v, rfl⟩
      | none =>
        refine absurd ⟨u, ?_, r.time, mem_allPeriods.2 ⟨r, hr, rfl⟩, hc⟩ h9
        rcases hu with hu | hu
        · exact List.mem_append_right _ (mem_control.2 hu)
        · exact List.mem_append_left _ (mem_treated.2 hu)
  · intro h
    have hp2 : ¬ (allPeriods rows).length < 2 := fun hc => (length_lt_two_iff rows).1 hc h.twoPeriods
    have n1 : ¬ ∃ r ∈ rows, ∃ v, r.d = some v ∧ v ≠ 0 ∧ v ≠ 1 := by
      rintro ⟨r, hr, v, hv, h0, h1⟩
      rcases h.binary r hr v hv with h | h
      · exact h0 h
      · exact h1 h
    have n3 : ¬ (splitPeriods (allPeriods rows) postArg).2.length = 0 := by
      intro hc
      cases postArg with
      | none =>
        have : (splitPeriods (allPeriods rows) none).2.length = (allPeriods rows).length - (allPeriods rows).length / 2 := by
          simp [splitPeriods]
        omega
      | some l => exact (h.post l rfl).1 (List.length_eq_zero_iff.1 hc)
    have n4 : ¬ (splitPeriods (allPeriods rows) postArg).1.length = 0 := by
      intro hc
      cases postArg with
      | none =>
        have : (splitPeriods (allPeriods rows) none).1.length = min ((allPeriods rows).length / 2) (allPeriods rows).length := by
          simp [splitPeriods]
        omega
      | some l =>
        obtain ⟨r, hr, hl⟩ := (h.post l rfl).2.2
        exact (length_zero_iff _).1 hc r.time (List.mem_filter.2 ⟨mem_allPeriods.2 ⟨r, hr, rfl⟩, by simpa using hl⟩)
    have n5 : ¬ ∃ p ∈ (splitPeriods (allPeriods rows) postArg).2, p ∉ allPeriods rows := by
      rintro ⟨p, hp, hn⟩
      cases postArg with
      | none => exact hn (List.mem_of_mem_drop hp)
      | some l => exact hn (mem_allPeriods.2 ((h.post l rfl).2.1 p hp))
    have n6 : ¬ (treatedUnits rows).length = 0 := by
      intro hc
      obtain ⟨u, hu⟩ := h.treated
      exact (length_zero_iff _).1 hc u (mem_treated.2 hu)
    have n7 : ¬ (controlUnits rows).length = 0 := by
      intro hc
      obtain ⟨u, hu⟩ := h.control
      exact (length_zero_iff _).1 hc u (mem_control.2 hu)
    have n9 : ¬ ∃ u ∈ treatedUnits rows ++ controlUnits rows, ∃ t ∈ allPeriods rows, cell rows u t = none := by
      rintro ⟨u, hu, t, ht, hc⟩
      obtain ⟨r, hr, rfl⟩ := mem_allPeriods.1 ht
      have : firstTreat rows u = some 0 ∨ firstTreat rows u = some 1 := by
        rcases List.mem_append.1 hu with hu | hu
        · exact Or.inr (mem_treated.1 hu)
        · exact Or.inl (mem_control.1 hu)
      obtain ⟨v, hv⟩ := h.complete u this r hr
      rw [hc] at hv
      cases hv
    refine ⟨{ pre := (splitPeriods (allPeriods rows) postArg).1, post := (splitPeriods (allPeriods rows) postArg).2,
              trt := treatedUnits rows, ctl := controlUnits rows }, ?_⟩
    rw [if_neg n1, if_neg hp2, if_neg n3, if_neg n4, if_neg n5, if_neg n6, if_neg n7, if_neg (not_not.2 h.unique), if_neg n9]

theorem sample_eq {rows : List (Row K)} {postArg : Option (List ℤ)} {s : Sample} (h : sample rows postArg = .ok s) :
    s = { pre := (splitPeriods (allPeriods rows) postArg).1, post := (splitPeriods (allPeriods rows) postArg).2, trt := treatedUnits rows, ctl := controlUnits rows } := by
  unfold sample at h
  dsimp only at h
  split_ifs at h
  cases h
  rfl

/-- C119. The sample: with a treatment column constant within units, the treated (control) units are those with a row marked 1
(0), each once; pre and post periods are disjoint and together are all periods of the data, pre periods in increasing order; the
given post periods are used as given, and by default they are the later half, all after the pre periods. -/
theorem C119_sample (rows : List (Row K)) (postArg : Option (List ℤ)) (s : Sample) (h : sample rows postArg = .ok s) (hc : Constant rows) :
    (∀ u, u ∈ s.trt ↔ ∃ r ∈ rows, r.unit = u ∧ r.d = some 1) ∧ (∀ u, u ∈ s.ctl ↔ ∃ r ∈ rows, r.unit = u ∧ r.d = some 0) ∧
    s.trt.Nodup ∧ s.ctl.Nodup ∧ (∀ u ∈ s.trt, u ∉ s.ctl) ∧
    (∀ t, (t ∈ s.pre ∨ t ∈ s.post) ↔ ∃ r ∈ rows, r.time = t) ∧ (∀ t ∈ s.pre, t ∉ s.post) ∧ s.pre.Pairwise (· < ·) ∧
    s.trt ≠ [] ∧ s.ctl ≠ [] ∧ s.pre ≠ [] ∧ s.post ≠ [] ∧
    (∀ l, postArg = some l → s.post = l) ∧
    (postArg = none → (∀ a ∈ s.pre, ∀ b ∈ s.post, a < b) ∧ s.post.length - s.pre.length ≤ 1 ∧ s.pre.length ≤ s.post.length ∧ s.post.Nodup) := by
  have ha := (C119_accepts rows postArg).1 ⟨s, h⟩
  have hs := sample_eq h
  have hlt := allPeriods_lt rows
  have hp2 : 2 ≤ (allPeriods rows).length := by
    by_contra hcc
    exact (length_lt_two_iff rows).1 (by omega) ha.twoPeriods
  subst hs
  dsimp only
  refine ⟨fun u => by rw [mem_treated, firstTreat_iff hc], fun u => by rw [mem_control, firstTreat_iff hc],
    (allUnits_nodup rows).filter _, (allUnits_nodup rows).filter _, ?_, ?_, ?_, ?_, ?_, ?_, ?_, ?_, ?_, ?_⟩
  · intro u h1 h2
    rw [mem_treated] at h1
    rw [mem_control, h1] at h2
    exact absurd h2 (by decide)
  · intro t
    rw [← mem_allPeriods]
    cases postArg with
    | none =>
      unfold splitPeriods
      dsimp only
      rw [← List.mem_append, List.take_append_drop]
    | some l =>
      unfold splitPeriods
      dsimp only
      rw [List.mem_filter]
      constructor
      · rintro (h | h)
        · exact h.1
        · exact mem_allPeriods.2 ((ha.post l rfl).2.1 t h)
      · intro h
        by_cases ht : t ∈ l
        · exact Or.inr ht
        · exact Or.inl ⟨h, by simpa using ht⟩
  · intro t h1 h2
    cases postArg with
    | none =>
      unfold splitPeriods at h1 h2
      dsimp only at h1 h2
      have hd := hlt.imp (fun h => ne_of_lt h)
      rw [← List.take_append_drop ((allPeriods rows).length / 2) (allPeriods rows), List.pairwise_append] at hd
      exact hd.2.2 t h1 t h2 rfl
    | some l =>
      have := (List.mem_filter.1 h1).2
      simp only [decide_eq_true_eq] at this
      exact this h2
  · cases postArg with
    | none => exact hlt.sublist (List.take_sublist _ _)
    | some l => exact hlt.filter _
  · obtain ⟨u, hu⟩ := ha.treated
    exact List.ne_nil_of_mem (mem_treated.2 hu)
  · obtain ⟨u, hu⟩ := ha.control
    exact List.ne_nil_of_mem (mem_control.2 hu)
  · cases postArg with
    | none =>
      intro hc
      have : (splitPeriods (allPeriods rows) none).1.length = min ((allPeriods rows).length / 2) (allPeriods rows).length := by
        simp [splitPeriods]
      rw [hc] at this
      simp only [List.length_nil] at this
      omega
    | some l =>
      obtain ⟨r, hr, hl⟩ := (ha.post l rfl).2.2
      exact List.ne_nil_of_mem (List.mem_filter.2 ⟨mem_allPeriods.2 ⟨r, hr, rfl⟩, by simpa using hl⟩)
  · cases postArg with
    | none =>
      intro hc
      have : (splitPeriods (allPeriods rows) none).2.length = (allPeriods rows).length - (allPeriods rows).length / 2 := by
        simp [splitPeriods]
      rw [hc] at this
      simp only [List.length_nil] at this
      omega
    | some l => exact (ha.post l rfl).1
  · rintro l rfl
    rfl
  · rintro rfl
    unfold splitPeriods
    dsimp only
    refine ⟨?_, ?_, ?_, ?_⟩
    · have hd := hlt
      rw [← List.take_append_drop ((allPeriods rows).length / 2) (allPeriods rows), List.pairwise_append] at hd
      exact hd.2.2
    · rw [List.length_drop, List.length_take]; omega
    · rw [List.length_drop, List.length_take]; omega
    · exact (hlt.imp (fun h => ne_of_lt h)).sublist (List.drop_sublist _ _)

/-! ### Order of rows -/

theorem cell_iff {rows : List (Row K)} (h : (rows.map (fun r => (r.unit, r.time))).Nodup) (u t : ℤ) (v : K) :
    cell rows u t = some v ↔ ∃ r ∈ rows, r.unit = u ∧ r.time = t ∧ r.y = some v := by
  unfold cell
  constructor
  · intro hv
    obtain ⟨r, hr, hy⟩ := Option.bind_eq_some_iff.1 hv
    have := List.find?_some hr
    simp only [decide_eq_true_eq] at this
    exact ⟨r, List.mem_of_find?_eq_some hr, this.1, this.2, hy⟩
  · rintro ⟨r, hr, hu, ht, hy⟩
    cases hf : rows.find? (fun r => decide (r.unit = u ∧ r.time = t)) with
    | none =>
      rw [List.find?_eq_none] at hf
      have hcon := hf r hr
      simp only [decide_eq_true_eq] at hcon
      exact absurd ⟨hu, ht⟩ hcon
    | some r' =>
      have h' := List.find?_some hf
      simp only [decide_eq_true_eq] at h'
      have : r' = r := List.inj_on_of_nodup_map h (List.mem_of_find?_eq_some hf) hr (by
        show (r'.unit, r'.time) = (r.unit, r.time)
        rw [h'.1, h'.2, hu, ht])
      rw [this]
      exact hy

theorem cell_perm {rows rows' : List (Row K)} (hp : rows.Perm rows') (h : (rows.map (fun r => (r.unit, r.time))).Nodup) :
    cell rows = cell rows' := by
  have h' : (rows'.map (fun r => (r.unit, r.time))).Nodup := (hp.map _).nodup_iff.1 h
  funext u t
  have key : ∀ v, cell rows u t = some v ↔ cell rows' u t = some v := by
    intro v
    rw [cell_iff h, cell_iff h']
    constructor
    · rintro ⟨r, hr, q⟩; exact ⟨r, hp.subset hr, q⟩
    · rintro ⟨r, hr, q⟩; exact ⟨r, hp.symm.subset hr, q⟩
  exact Option.ext key

theorem allPeriods_perm {rows rows' : List (Row K)} (hp : rows.Perm rows') : allPeriods rows = allPeriods rows' :=
  sort_congr ((hp.map _).dedup)

theorem allUnits_perm {rows rows' : List (Row K)} (hp : rows.Perm rows') : allUnits rows = allUnits rows' :=
  sort_congr ((hp.map _).dedup)

theorem firstTreat_perm {rows rows' : List (Row K)} (hp : rows.Perm rows') (hc : Constant rows) : firstTreat rows = firstTreat rows' := by
  have hc' : Constant rows' := fun r hr r' hr' => hc r (hp.symm.subset hr) r' (hp.symm.subset hr')
  funext u
  refine Option.ext fun v => ?_
  rw [firstTreat_iff hc, firstTreat_iff hc']
  constructor
  · rintro ⟨r, hr, q⟩; exact ⟨r, hp.subset hr, q⟩
  · rintro ⟨r, hr, q⟩; exact ⟨r, hp.symm.subset hr, q⟩

theorem sample_perm {rows rows' : List (Row K)} (hp : rows.Perm rows') (hc : Constant rows) (postArg : Option (List ℤ)) :
    sample rows postArg = sample rows' postArg := by
  have e1 := allPeriods_perm hp
  have e2 : treatedUnits rows = treatedUnits rows' := by
    unfold treatedUnits
    rw [allUnits_perm hp, firstTreat_perm hp hc]
  have e3 : controlUnits rows = controlUnits rows' := by
    unfold controlUnits
    rw [allUnits_perm hp, firstTreat_perm hp hc]
  have e4 : (∃ r ∈ rows, ∃ v, r.d = some v ∧ v ≠ 0 ∧ v ≠ 1) ↔ (∃ r ∈ rows', ∃ v, r.d = some v ∧ v ≠ 0 ∧ v ≠ 1) := by
    constructor
    · rintro ⟨r, hr, q⟩; exact ⟨r, hp.subset hr, q⟩
    · rintro ⟨r, hr, q⟩; exact ⟨r, hp.symm.subset hr, q⟩
  have e5 : (rows.map (fun r => (r.unit, r.time))).Nodup ↔ (rows'.map (fun r => (r.unit, r.time))).Nodup := (hp.map _).nodup_iff
  unfold sample
  simp only [e1, e2, e3, e4]
  by_cases hn : (rows.map (fun r => (r.unit, r.time))).Nodup
  · rw [cell_perm hp hn, if_neg (not_not.2 hn), if_neg (not_not.2 (e5.1 hn))]
  · rw [if_pos hn, if_pos (fun h => hn (e5.2 h))]

/-- C119. The order of the rows does not matter when the treatment is constant within units: same error or same results,
whatever the weight routines, the variance method and the draws. -/
theorem C119_row_order (W : Weights K) (r pval : K → K) (crit : K) (boot : Bool) (draws : List (List ℕ)) (rows rows' : List (Row K))
    (postArg : Option (List ℤ)) (hp : rows.Perm rows') (hc : Constant rows) :
    fit W r pval crit boot draws rows postArg = fit W r pval crit boot draws rows' postArg := by
  unfold fit
  rw [← sample_perm hp hc]
  cases hs : sample rows postArg with
  | error e => rfl
  | ok s =>
    have hn := ((C119_accepts rows postArg).1 ⟨s, hs⟩).unique
    have : outcome rows = outcome rows' := by
      unfold outcome
      rw [cell_perm hp hn]
    simp only [this, hp.length_eq]

/-! ### Post periods -/

theorem avg_eq_sum {T : Type*} (l : List T) (f : T → K) : avg (fun s : Fin l.length => f (l.get s)) = (l.map f).sum / (l.length : K) := by
  unfold avg
  congr 1
  have h := Fin.sum_univ_getElem (l.map f)
  rw [← h]
  refine Fintype.sum_equiv (finCongr (by simp)) _ _ fun i => ?_
  simp

/-- The estimate with weights, periods and units named. -/
theorem attOn_eq (W : Weights K) {U T : Type*} (y : U → T → K) (pre post : List T) (trt ctl : List U) :
    attOn W y pre post trt ctl
      = ((post.map (fun s => avg (fun i : Fin trt.length => y (trt.get i) s))).sum / (post.length : K)
          - ∑ t, timeW W y pre trt ctl t * avg (fun i : Fin trt.length => y (trt.get i) (pre.get t)))
        - ∑ j, unitW W y pre trt ctl j * ((post.map (fun s => y (ctl.get j) s)).sum / (post.length : K)
          - ∑ t, timeW W y pre trt ctl t * y (ctl.get j) (pre.get t)) := by
  unfold attOn sdid
  dsimp only
  rw [avg_eq_sum post (fun s => avg (fun i : Fin trt.length => y (trt.get i) s))]
  congr 1
  refine Finset.sum_congr rfl fun j _ => ?_
  rw [avg_eq_sum post (fun s => y (ctl.get j) s)]
  rfl

/-- C119. The order in which post periods are given does not matter. -/
theorem C119_post_order (W : Weights K) {U T : Type*} (y : U → T → K) (pre post post' : List T) (trt ctl : List U) (hp : post.Perm post') :
    attOn W y pre post trt ctl = attOn W y pre post' trt ctl := by
  rw [attOn_eq, attOn_eq, (hp.map _).sum_eq, hp.length_eq]
  congr 1
  refine Finset.sum_congr rfl fun j _ => ?_
  rw [(hp.map (fun s => y (ctl.get j) s)).sum_eq]

/-! ### Concrete data and claims that fail -/

def mk (u t d : ℤ) (y : ℚ) : Row ℚ := ⟨u, t, some d, some y⟩

/-- Equal weights, for examples. -/
def equalWeights : Weights ℚ where
  unit := fun {_ n} _ _ _ => 1 / (n : ℚ)
  time := fun {p _} _ _ _ => 1 / (p : ℚ)

example : equalWeights.Prob := by
  constructor
  · intro p n Y T hn
    have : (n : ℚ) ≠ 0 := by exact_mod_cast hn.ne'
    exact ⟨fun j => by show 0 ≤ 1 / (n : ℚ); positivity, by simp [equalWeights, this]⟩
  · intro p n Y T hn
    have : (p : ℚ) ≠ 0 := by exact_mod_cast hn.ne'
    exact ⟨fun j => by show 0 ≤ 1 / (p : ℚ); positivity, by simp [equalWeights, this]⟩

/-- Two control units and one treated unit over four periods. -/
def demo : List (Row ℚ) :=
  [mk 1 1 0 1, mk 1 2 0 2, mk 1 3 0 3, mk 1 4 0 4, mk 2 1 0 5, mk 2 2 0 6, mk 2 3 0 8, mk 2 4 0 9,
   mk 3 1 1 3, mk 3 2 1 5, mk 3 3 1 9, mk 3 4 1 11]

example : sample demo none = .ok ⟨[1, 2], [3, 4], [3], [1, 2]⟩ := by decide +kernel

example : Constant demo := by
  have h : ∀ r ∈ demo, ∀ r' ∈ demo, r.unit = r'.unit → r.d = r'.d := by decide +kernel
  intro r hr r' hr' hu v v' hv hv'
  have := h r hr r' hr' hu
  rw [hv, hv'] at this
  exact Option.some.inj this

example : attOn equalWeights (outcome demo) [1, 2] [3, 4] [3] [1, 2] = 7 / 2 := by decide +kernel

/-- C119 is false for a treatment column that switches on with the treatment (as other estimators of the package expect): the
status of a unit is read from its first row, so the same rows are rejected in one order and analysed in another. -/
theorem C119_row_order_refuted (W : Weights ℚ) (r pval : ℚ → ℚ) (crit : ℚ) :
    ∃ rows rows' : List (Row ℚ), rows.Perm rows' ∧ (fit W r pval crit false [] rows none = .error .noTreated) ∧
      ∃ res, fit W r pval crit false [] rows' none = .ok res := by
  refine ⟨[mk 1 1 0 1, mk 1 2 1 2, mk 2 1 0 1, mk 2 2 0 3], [mk 1 2 1 2, mk 1 1 0 1, mk 2 1 0 1, mk 2 2 0 3], List.Perm.swap _ _ _, ?_, ?_⟩
  · have : sample [mk 1 1 0 1, mk 1 2 1 2, mk 2 1 0 1, mk 2 2 0 3] none = .error .noTreated := by decide +kernel
    unfold fit
    rw [this]
  · have : sample [mk 1 2 1 2, mk 1 1 0 1, mk 2 1 0 1, mk 2 2 0 3] none = .ok ⟨[1], [2], [1], [2]⟩ := by decide +kernel
    unfold fit
    rw [this]
    exact ⟨_, rfl⟩

/-- C119 is false in the form "pre periods precede the post periods": all periods that are not listed as post are used as pre
periods, also later ones. -/
theorem C119_pre_before_post_refuted : sample demo (some [2, 3]) = .ok ⟨[1, 4], [2, 3], [3], [1, 2]⟩ := by decide +kernel

/-- C119 is false in the form "listing a post period twice makes no difference": it then counts twice, for any weights that sum
to one (one control unit and one pre period). -/
theorem C119_repeated_post_refuted (W : Weights ℚ) (hW : W.Prob) :
    ∃ (rows : List (Row ℚ)) (s s' : Sample), sample rows (some [2, 3]) = .ok s ∧ sample rows (some [2, 2, 3]) = .ok s' ∧
      attOn W (outcome rows) s.pre s.post s.trt s.ctl = 2 ∧ attOn W (outcome rows) s'.pre s'.post s'.trt s'.ctl = 5 / 3 := by
  refine ⟨[mk 1 1 1 0, mk 1 2 1 1, mk 1 3 1 3, mk 2 1 0 0, mk 2 2 0 0, mk 2 3 0 0], ⟨[1], [2, 3], [1], [2]⟩, ⟨[1], [2, 2, 3], [1], [2]⟩,
    by decide +kernel, by decide +kernel, ?_, ?_⟩
  all_goals
    dsimp only
    rw [attOn_eq]
    simp only [avg, List.length_singleton, Fin.sum_univ_one, List.get_eq_getElem, Fin.isValue]
    have a1 : ∀ t ∈ [(1 : ℤ), 2, 3], outcome [mk 1 1 1 0, mk 1 2 1 1, mk 1 3 1 3, mk 2 1 0 0, mk 2 2 0 0, mk 2 3 0 0] 2 t = 0 := by decide +kernel
    have b1 : outcome [mk 1 1 1 0, mk 1 2 1 1, mk 1 3 1 3, mk 2 1 0 0, mk 2 2 0 0, mk 2 3 0 0] 1 1 = 0 := by decide +kernel
    have b2 : outcome [mk 1 1 1 0, mk 1 2 1 1, mk 1 3 1 3, mk 2 1 0 0, mk 2 2 0 0, mk 2 3 0 0] 1 2 = 1 := by decide +kernel
    have b3 : outcome [mk 1 1 1 0, mk 1 2 1 1, mk 1 3 1 3, mk 2 1 0 0, mk 2 2 0 0, mk 2 3 0 0] 1 3 = 3 := by decide +kernel
    simp [a1 1 (by simp), a1 2 (by simp), a1 3 (by simp), b1, b2, b3]
    try norm_num

end DiffDiff.SdidFit
