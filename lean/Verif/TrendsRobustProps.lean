/-
The distributional pre-trend test (C111), the one-dimensional Wasserstein distance, and cases for C110 and C111.
-/
import Verif.TrendsChangeProps

set_option linter.unusedSectionVars false

namespace DiffDiff.Trends

variable {K : Type*} [Field K] [LinearOrder K] [IsStrictOrderedRing K]

/-! ### Wasserstein distance -/

/-- What is used of the distance between two samples. -/
structure IsDist (wd : List K → List K → K) : Prop where
  nonneg : ∀ u v, 0 ≤ wd u v
  congr : ∀ u u' v v', u.Perm u' → v.Perm v' → wd u v = wd u' v'
  same : ∀ u, wd u u = 0
  comm : ∀ u v, wd u v = wd v u
  mean : ∀ u v, u ≠ [] → v ≠ [] → |mean u - mean v| ≤ wd u v
  scale : ∀ u v k, 0 < k → wd (u.map (fun x => k * x)) (v.map (fun x => k * x)) = k * wd u v

theorem sum_comm_list {α β : Type*} (l : List α) (m : List β) (f : α → β → K) :
    (l.map (fun x => (m.map (fun y => f x y)).sum)).sum = (m.map (fun y => (l.map (fun x => f x y)).sum)).sum := by
  induction l with
  | nil => simp
  | cons a l ih => simp only [List.map_cons, List.sum_cons, ih, sum_add']

theorem filter_length_sum {α : Type*} (l : List α) (p : α → Bool) :
    ((l.filter p).length : K) = (l.map (fun a => if p a then (1 : K) else 0)).sum := by
  induction l with
  | nil => simp
  | cons a l ih =>
    by_cases h : p a
    · simp only [List.filter_cons_of_pos h, List.length_cons, List.map_cons, List.sum_cons, h, if_true, ← ih]
      push_cast
      ring
    · simp only [List.filter_cons_of_neg h, List.map_cons, List.sum_cons, ← ih]
      simp [h]

theorem zip_tail_sum (b : K) (s : List K) (a : K) (h : ∀ x ∈ b :: s, a ≤ x) :
    (((b :: s).zip s).map (fun x => if a ≤ x.1 then x.2 - x.1 else 0)).sum = (b :: s).getLast (by simp) - b := by
  induction s generalizing b with
  | nil => simp
  | cons c s ih =>
    have hl : (b :: c :: s).getLast (by simp) = (c :: s).getLast (by simp) := List.getLast_cons (by simp)
    rw [List.zip_cons_cons, List.map_cons, List.sum_cons, ih c (fun x hx => h x (List.mem_cons_of_mem _ hx)), hl]
    simp only [h b (by simp), if_true]
    ring

theorem step_sum (b : K) (s : List K) (hs : (b :: s).Pairwise (· ≤ ·)) (a : K) (ha : a ∈ b :: s) :
    (((b :: s).zip s).map (fun x => if a ≤ x.1 then x.2 - x.1 else 0)).sum = (b :: s).getLast (by simp) - a := by
  induction s generalizing b with
  | nil =>
    simp at ha
    simp [ha]
  | cons c s ih =>
    obtain ⟨h1, h2⟩ := List.pairwise_cons.mp hs
    by_cases hab : a ≤ b
    · have : a = b := by
        rcases List.mem_cons.mp ha with h | h
        · exact h
        · exact le_antisymm hab (h1 a h)
      subst this
      apply zip_tail_sum
      intro x hx
      rcases List.mem_cons.mp hx with h | h
      · exact h.ge
      · exact h1 x h
    · have ha' : a ∈ c :: s := by
        rcases List.mem_cons.mp ha with h | h
        · exact absurd h.le hab
        · exact h
      have hl : (b :: c :: s).getLast (by simp) = (c :: s).getLast (by simp) := List.getLast_cons (by simp)
      rw [List.zip_cons_cons, List.map_cons, List.sum_cons, ih c h2 ha', hl]
      simp [hab]

/-- Steps of the merged sample. -/
def steps (u v : List K) : List (K × K) :=
  ((u ++ v).insertionSort (· ≤ ·)).zip ((u ++ v).insertionSort (· ≤ ·)).tail

/-- Empirical distribution function. -/
def edf (u : List K) (x : K) : K := ((u.filter (fun a => decide (a ≤ x))).length : K) / (u.length : K)

theorem wasserstein_eq (u v : List K) :
    wasserstein u v = ((steps u v).map (fun x => |edf u x.1 - edf v x.1| * (x.2 - x.1))).sum := rfl

theorem steps_nonneg (u v : List K) : ∀ x ∈ steps u v, 0 ≤ x.2 - x.1 := by
  have : ∀ (s : List K), s.Pairwise (· ≤ ·) → ∀ x ∈ s.zip s.tail, 0 ≤ x.2 - x.1 := by
    intro s
    induction s with
    | nil => intro _ x hx; simp at hx
    | cons a s ih =>
      intro hs x hx
      cases s with
      | nil => simp at hx
      | cons b s =>
        obtain ⟨h1, h2⟩ := List.pairwise_cons.mp hs
        simp only [List.tail_cons, List.zip_cons_cons, List.mem_cons] at hx
        rcases hx with rfl | hx
        · simpa using h1 b (by simp)
        · exact ih h2 x (by simpa using hx)
  exact this _ (List.pairwise_insertionSort _ _)

theorem edf_sum (u v w : List K) (hw : w ≠ []) (hsub : ∀ a ∈ w, a ∈ u ++ v) (hne : (u ++ v).insertionSort (· ≤ ·) ≠ []) :
    ((steps u v).map (fun x => edf w x.1 * (x.2 - x.1))).sum =
      ((u ++ v).insertionSort (· ≤ ·)).getLast hne - mean w := by
  have hn := length_ne (K := K) hw
  have e1 : (steps u v).map (fun x => edf w x.1 * (x.2 - x.1)) =
      (steps u v).map (fun x => 1 / (w.length : K) * (w.map (fun a => if a ≤ x.1 then x.2 - x.1 else 0)).sum) := by
    apply List.map_congr_left
    intro x _
    simp only [edf, filter_length_sum, decide_eq_true_eq]
    have : (w.map (fun a => if a ≤ x.1 then x.2 - x.1 else 0)).sum =
        (x.2 - x.1) * (w.map (fun a => if a ≤ x.1 then (1 : K) else 0)).sum := by
      rw [← sum_mul']
      congr 1
      apply List.map_congr_left
      intro a _
      split_ifs <;> ring
    rw [this]
    ring
  rw [e1, sum_mul', sum_comm_list (steps u v) w (fun x a => if a ≤ x.1 then x.2 - x.1 else 0)]
  have e2 : w.map (fun a => ((steps u v).map (fun x => if a ≤ x.1 then x.2 - x.1 else 0)).sum) =
      w.map (fun a => ((u ++ v).insertionSort (· ≤ ·)).getLast hne + (-1) * a) := by
    apply List.map_congr_left
    intro a ha
    have hmem : a ∈ (u ++ v).insertionSort (· ≤ ·) := (List.mem_insertionSort _).mpr (hsub a ha)
    have hs : ((u ++ v).insertionSort (· ≤ ·)).Pairwise (· ≤ ·) := List.pairwise_insertionSort _ _
    unfold steps
    generalize (u ++ v).insertionSort (· ≤ ·) = s at hne hmem hs ⊢
    match s, hne with
    | b :: s, _ =>
      rw [List.tail_cons, step_sum b s hs a hmem]
      ring
  rw [e2, sum_add', sum_const', sum_mul', List.map_id']
  simp only [mean]
  field_simp
  ring

theorem abs_sum_le {α : Type*} (l : List α) (f g : α → K) (h : ∀ x ∈ l, |f x| ≤ g x) : |(l.map f).sum| ≤ (l.map g).sum := by
  induction l with
  | nil => simp
  | cons a l ih =>
    simp only [List.map_cons, List.sum_cons]
    have h1 := h a (by simp)
    have h2 := ih (fun x hx => h x (List.mem_cons_of_mem _ hx))
    exact le_trans (abs_add_le _ _) (by linarith)

theorem edf_perm {u u' : List K} (h : u.Perm u') (x : K) : edf u x = edf u' x := by
  simp only [edf, (h.filter _).length_eq, h.length_eq]

theorem sort_perm {l l' : List K} (h : l.Perm l') : l.insertionSort (· ≤ ·) = l'.insertionSort (· ≤ ·) := by
  refine List.Perm.eq_of_pairwise' (r := (· ≤ ·)) (List.pairwise_insertionSort _ _) (List.pairwise_insertionSort _ _) ?_
  exact ((List.perm_insertionSort _ _).trans h).trans (List.perm_insertionSort _ _).symm

/-- The area between the two empirical distribution functions has the properties used. -/
theorem wasserstein_isDist : IsDist (K := K) wasserstein where
  nonneg u v := by
    rw [wasserstein_eq]
    apply List.sum_nonneg
    intro y hy
    obtain ⟨x, hx, rfl⟩ := List.mem_map.mp hy
    exact mul_nonneg (abs_nonneg _) (steps_nonneg u v x hx)
  congr u u' v v' hu hv := by
    rw [wasserstein_eq, wasserstein_eq]
    have : steps u v = steps u' v' := by simp only [steps, sort_perm (hu.append hv)]
    rw [this]
    congr 1
    apply List.map_congr_left
    intro x _
    rw [edf_perm hu, edf_perm hv]
  same u := by
    rw [wasserstein_eq]
    have : (steps u u).map (fun x => |edf u x.1 - edf u x.1| * (x.2 - x.1)) = (steps u u).map (fun _ => (0 : K)) := by
      apply List.map_congr_left
      intro x _
      simp
    rw [this, sum_const', mul_zero]
  comm u v := by
    rw [wasserstein_eq, wasserstein_eq]
    have : steps u v = steps v u := by simp only [steps, sort_perm (List.perm_append_comm : (u ++ v).Perm (v ++ u))]
    rw [this]
    congr 1
    apply List.map_congr_left
    intro x _
    rw [abs_sub_comm]
  mean u v hu hv := by
    have hne : (u ++ v).insertionSort (· ≤ ·) ≠ [] := by
      intro h
      have := congrArg List.length h
      rw [List.length_insertionSort] at this
      simp at this
      exact hu this.1
    have h1 := edf_sum u v u hu (fun a ha => List.mem_append_left _ ha) hne
    have h2 := edf_sum u v v hv (fun a ha => List.mem_append_right _ ha) hne
    have h3 : ((steps u v).map (fun x => (edf v x.1 - edf u x.1) * (x.2 - x.1))).sum = mean u - mean v := by
      have : (fun x : K × K => (edf v x.1 - edf u x.1) * (x.2 - x.1)) =
          fun x => edf v x.1 * (x.2 - x.1) + (-1) * (edf u x.1 * (x.2 - x.1)) := by
        funext x
        ring
      rw [this, sum_add', sum_mul', h1, h2]
      ring
    rw [← h3, wasserstein_eq]
    apply abs_sum_le
    intro x hx
    rw [abs_mul, abs_sub_comm, abs_of_nonneg (steps_nonneg u v x hx)]
  scale u v k hk := by
    have hle : ∀ a b : K, a ≤ b ↔ k * a ≤ k * b := fun a b => (mul_le_mul_iff_right₀ hk).symm
    have hsort : (u.map (fun x => k * x) ++ v.map (fun x => k * x)).insertionSort (· ≤ ·) =
        ((u ++ v).insertionSort (· ≤ ·)).map (fun x => k * x) := by
      rw [← List.map_append]
      symm
      apply List.map_insertionSort
      intro a _ b _
      exact hle a b
    have hsteps : steps (u.map (fun x => k * x)) (v.map (fun x => k * x)) = (steps u v).map (fun x => (k * x.1, k * x.2)) := by
      simp only [steps, hsort, ← List.map_tail, List.zip_map]
      rfl
    have hedf : ∀ (w : List K) (x : K), edf (w.map (fun a => k * a)) (k * x) = edf w x := by
      intro w x
      simp only [edf, List.filter_map, List.length_map]
      congr 3
      apply List.filter_congr
      intro a _
      simp only [Function.comp, decide_eq_decide]
      exact (hle a x).symm
    rw [wasserstein_eq, wasserstein_eq, hsteps, List.map_map, ← sum_mul']
    congr 1
    apply List.map_congr_left
    intro x _
    simp only [Function.comp, hedf]
    ring

/-! ### C111 -/

section robust
variable (r : K → K) (wd : List K → List K → K) (perms : List (List ℕ)) (thr : K) (rows : List (Row K)) (byUnit : Bool)
  (pre : Option (List K))

/-- The number of drawn permutations whose distance is at least the observed one. -/
def exceed (wd : List K → List K → K) (perms : List (List ℕ)) (u v : List K) : ℕ :=
  (perms.filter (fun π => decide (wd u v ≤ wd ((π.take u.length).map (fun i => (u ++ v).getD i 0))
    ((π.drop u.length).map (fun i => (u ++ v).getD i 0))))).length

theorem robust_ok {ct cc : List K} (h1 : 2 ≤ ct.length) (h2 : 2 ≤ cc.length) :
    (robust r wd perms thr ct cc).dist = some (wd ct cc) ∧
    (robust r wd perms thr ct cc).diff = some (mean ct - mean cc) ∧
    (robust r wd perms thr ct cc).p = (if perms = [] then none else some ((exceed wd perms ct cc : K) / perms.length)) ∧
    (robust r wd perms thr ct cc).normalized = (if 0 < r (var1 (ct ++ cc)) then some (wd ct cc / r (var1 (ct ++ cc))) else none) ∧
    (robust r wd perms thr ct cc).plausible = some (decide (perms.length < 20 * exceed wd perms ct cc ∧
      (0 < r (var1 (ct ++ cc)) → wd ct cc < thr * r (var1 (ct ++ cc))))) := by
  unfold robust
  rw [if_neg (by omega)]
  refine ⟨rfl, rfl, rfl, rfl, ?_⟩
  simp only [Option.some.injEq]
  rw [Bool.decide_and]
  congr 1
  · by_cases hp : perms = []
    · subst hp
      simp [exceed]
    · rw [if_neg hp]
      simp only [decide_eq_decide]
      have hpos : (0 : K) < perms.length := by
        have : 0 < perms.length := List.length_pos_of_ne_nil hp
        exact_mod_cast this
      rw [lt_div_iff₀ hpos]
      show 1 / 20 * (perms.length : K) < (exceed wd perms ct cc : K) ↔ _
      constructor
      · intro h
        have : (perms.length : K) < 20 * (exceed wd perms ct cc : K) := by linarith
        exact_mod_cast this
      · intro h
        have : (perms.length : K) < 20 * (exceed wd perms ct cc : K) := by exact_mod_cast h
        linarith
  · by_cases hs : 0 < r (var1 (ct ++ cc))
    · rw [if_pos hs]
      simp only [decide_eq_decide, hs, true_implies]
      rw [div_lt_iff₀ hs]
    · rw [if_neg hs]
      simp [hs]

/-- C111: the groups are called parallel exactly when each has two changes at least, more than one in twenty of the drawn permutations
has a distance no smaller than the observed one, and the distance is below the threshold times the pooled standard deviation unless
that is zero. -/
theorem C111_verdict :
    let u := changes (preRows rows pre) byUnit 1
    let v := changes (preRows rows pre) byUnit 0
    ((robustTest r wd perms thr rows byUnit pre).plausible = some true ↔ 2 ≤ u.length ∧ 2 ≤ v.length ∧
      perms.length < 20 * exceed wd perms u v ∧ (0 < r (var1 (u ++ v)) → wd u v < thr * r (var1 (u ++ v)))) ∧
    ((robustTest r wd perms thr rows byUnit pre).plausible = none ↔ u.length < 2 ∨ v.length < 2) := by
  intro u v
  by_cases h : u.length < 2 ∨ v.length < 2
  · have : (robustTest r wd perms thr rows byUnit pre).plausible = none := by
      unfold robustTest robust
      rw [if_pos h]
    rw [this]
    constructor
    · simp only [reduceCtorEq, false_iff]
      omega
    · exact ⟨fun _ => h, fun _ => rfl⟩
  · have h1 : 2 ≤ u.length := by omega
    have h2 : 2 ≤ v.length := by omega
    have := (robust_ok r wd perms thr h1 h2).2.2.2.2
    unfold robustTest
    rw [this]
    refine ⟨?_, ?_⟩
    · rw [Option.some.injEq, decide_eq_true_eq]
      exact ⟨fun hh => ⟨h1, h2, hh⟩, fun hh => hh.2.2⟩
    · simp only [reduceCtorEq, false_iff]
      exact h

/-- C111: the p-value is the share of permutations with a distance at least as large, between 0 and 1, and missing only without
permutations or with too few changes. -/
theorem C111_range {p : K} (h : (robustTest r wd perms thr rows byUnit pre).p = some p) :
    perms ≠ [] ∧ 0 ≤ p ∧ p ≤ 1 ∧
      p * perms.length = exceed wd perms (changes (preRows rows pre) byUnit 1) (changes (preRows rows pre) byUnit 0) := by
  set u := changes (preRows rows pre) byUnit 1 with hu
  set v := changes (preRows rows pre) byUnit 0 with hv
  have hh : (robust r wd perms thr u v).p = some p := h
  by_cases hl : u.length < 2 ∨ v.length < 2
  · unfold robust at hh
    rw [if_pos hl] at hh
    cases hh
  · have h1 : 2 ≤ u.length := by omega
    have h2 : 2 ≤ v.length := by omega
    rw [(robust_ok r wd perms thr h1 h2).2.2.1] at hh
    by_cases hp : perms = []
    · rw [if_pos hp] at hh; cases hh
    · rw [if_neg hp] at hh
      cases hh
      have hpos : (0 : K) < perms.length := by
        have : 0 < perms.length := List.length_pos_of_ne_nil hp
        exact_mod_cast this
      refine ⟨hp, by positivity, ?_, ?_⟩
      · rw [div_le_one hpos]
        have : exceed wd perms u v ≤ perms.length := List.length_filter_le _ _
        exact_mod_cast this
      · rw [div_mul_cancel₀ _ hpos.ne']

/-- C111: the distance is at least the size of the mean difference, so groups called parallel differ in mean change by less than the
threshold times the pooled standard deviation (when that is positive). -/
theorem C111_mean (hwd : IsDist wd) {d : K} (h : (robustTest r wd perms thr rows byUnit pre).diff = some d) :
    (∃ w, (robustTest r wd perms thr rows byUnit pre).dist = some w ∧ |d| ≤ w) ∧
    ((robustTest r wd perms thr rows byUnit pre).plausible = some true →
      0 < r (var1 (changes (preRows rows pre) byUnit 1 ++ changes (preRows rows pre) byUnit 0)) →
      |d| < thr * r (var1 (changes (preRows rows pre) byUnit 1 ++ changes (preRows rows pre) byUnit 0))) := by
  set u := changes (preRows rows pre) byUnit 1 with hu
  set v := changes (preRows rows pre) byUnit 0 with hv
  have hh : (robust r wd perms thr u v).diff = some d := h
  have hl : ¬(u.length < 2 ∨ v.length < 2) := by
    intro hl
    unfold robust at hh
    rw [if_pos hl] at hh
    cases hh
  have h1 : 2 ≤ u.length := by omega
  have h2 : 2 ≤ v.length := by omega
  have hu0 : u ≠ [] := by intro hc; rw [hc] at h1; simp at h1
  have hv0 : v ≠ [] := by intro hc; rw [hc] at h2; simp at h2
  have hok := robust_ok r wd perms thr h1 h2
  rw [hok.2.1] at hh
  cases hh
  have hm := hwd.mean u v hu0 hv0
  refine ⟨⟨wd u v, hok.1, hm⟩, ?_⟩
  intro hpl hpos
  have := ((C111_verdict r wd perms thr rows byUnit pre).1.mp hpl).2.2.2 hpos
  exact lt_of_le_of_lt hm this

/-- C111: when the two groups have the same changes (in any order), the distance is 0, the p-value 1, and the verdict plausible for any
positive threshold. -/
theorem C111_same (hwd : IsDist wd) (hperm : perms ≠ []) (hthr : 0 < thr)
    (h2 : 2 ≤ (changes (preRows rows pre) byUnit 1).length)
    (h : (changes (preRows rows pre) byUnit 1).Perm (changes (preRows rows pre) byUnit 0)) :
    (robustTest r wd perms thr rows byUnit pre).dist = some 0 ∧ (robustTest r wd perms thr rows byUnit pre).p = some 1 ∧
      (robustTest r wd perms thr rows byUnit pre).diff = some 0 ∧
      (robustTest r wd perms thr rows byUnit pre).plausible = some true := by
  set u := changes (preRows rows pre) byUnit 1 with hu
  set v := changes (preRows rows pre) byUnit 0 with hv
  have h2' : 2 ≤ v.length := by rw [← h.length_eq]; exact h2
  have hok := robust_ok r wd perms thr h2 h2'
  have hw : wd u v = 0 := by rw [hwd.congr u v v v h (List.Perm.refl v), hwd.same]
  have hex : exceed wd perms u v = perms.length := by
    unfold exceed
    congr 1
    rw [List.filter_eq_self]
    intro π _
    rw [hw]
    simpa using hwd.nonneg _ _
  have hlen : 0 < perms.length := List.length_pos_of_ne_nil hperm
  refine ⟨?_, ?_, ?_, ?_⟩
  · show (robust r wd perms thr u v).dist = some 0
    rw [hok.1, hw]
  · show (robust r wd perms thr u v).p = some 1
    rw [hok.2.2.1, if_neg hperm, hex, div_self]
    have : perms.length ≠ 0 := by omega
    exact_mod_cast this
  · show (robust r wd perms thr u v).diff = some 0
    rw [hok.2.1, mean_perm h, sub_self]
  · rw [(C111_verdict r wd perms thr rows byUnit pre).1]
    refine ⟨h2, h2', ?_, ?_⟩
    · rw [hex]; omega
    · intro hs
      rw [hw]
      exact mul_pos hthr hs

/-- C111: a drawn permutation that keeps every change in its group counts, so the p-value is then positive. -/
theorem C111_seen (hwd : IsDist wd) (h1 : 2 ≤ (changes (preRows rows pre) byUnit 1).length)
    (h2 : 2 ≤ (changes (preRows rows pre) byUnit 0).length) {π : List ℕ} (hπ : π ∈ perms)
    (ht : (π.take (changes (preRows rows pre) byUnit 1).length).Perm (List.range (changes (preRows rows pre) byUnit 1).length))
    (hc : (π.drop (changes (preRows rows pre) byUnit 1).length).Perm
      (List.range' (changes (preRows rows pre) byUnit 1).length (changes (preRows rows pre) byUnit 0).length)) :
    ∃ p, (robustTest r wd perms thr rows byUnit pre).p = some p ∧ 1 / (perms.length : K) ≤ p := by
  set u := changes (preRows rows pre) byUnit 1 with hu
  set v := changes (preRows rows pre) byUnit 0 with hv
  have hok := (robust_ok r wd perms thr h1 h2).2.2.1
  have hne : perms ≠ [] := List.ne_nil_of_mem hπ
  have hpos : (0 : K) < perms.length := by
    have : 0 < perms.length := List.length_pos_of_ne_nil hne
    exact_mod_cast this
  refine ⟨_, by
    show (robust r wd perms thr u v).p = _
    rw [hok, if_neg hne], ?_⟩
  apply div_le_div_of_nonneg_right _ hpos.le
  have hget1 : (List.range u.length).map (fun i => (u ++ v).getD i 0) = u := by
    apply List.ext_getElem
    · simp
    · intro i h1 h2
      simp at h1
      simp [List.getElem?_append_left h1, h1]
  have hget2 : (List.range' u.length v.length).map (fun i => (u ++ v).getD i 0) = v := by
    apply List.ext_getElem
    · simp
    · intro i h1 h2
      simp [h2]
  have hmem : π ∈ perms.filter (fun π => decide (wd u v ≤ wd ((π.take u.length).map (fun i => (u ++ v).getD i 0))
      ((π.drop u.length).map (fun i => (u ++ v).getD i 0)))) := by
    rw [List.mem_filter]
    refine ⟨hπ, ?_⟩
    have e1 : ((π.take u.length).map (fun i => (u ++ v).getD i 0)).Perm u := by
      have := ht.map (fun i => (u ++ v).getD i 0)
      rwa [hget1] at this
    have e2 : ((π.drop u.length).map (fun i => (u ++ v).getD i 0)).Perm v := by
      have := hc.map (fun i => (u ++ v).getD i 0)
      rwa [hget2] at this
    rw [hwd.congr _ _ _ _ e1 e2]
    simp
  have : 1 ≤ exceed wd perms u v := List.length_pos_of_mem hmem
  exact_mod_cast this

/-- C111: the variance ratio is missing exactly when a group has fewer than two changes or the control changes do not vary; when the
treated changes are the control changes stretched by a factor and shifted, it is the square of the factor. -/
theorem C111_ratio :
    let u := changes (preRows rows pre) byUnit 1
    let v := changes (preRows rows pre) byUnit 0
    ((robustTest r wd perms thr rows byUnit pre).ratio = none ↔ u.length < 2 ∨ v.length < 2 ∨ ∀ x ∈ v, ∀ y ∈ v, x = y) ∧
    (∀ q k c, (robustTest r wd perms thr rows byUnit pre).ratio = some q → u.Perm (v.map (fun x => k * x + c)) → q = k ^ 2) := by
  intro u v
  have e : (robustTest r wd perms thr rows byUnit pre).ratio = (robust r wd perms thr u v).ratio := rfl
  rw [e]
  unfold robust
  by_cases h : u.length < 2 ∨ v.length < 2
  · rw [if_pos h]
    refine ⟨⟨fun _ => ?_, fun _ => rfl⟩, fun q k c hq => by cases hq⟩
    rcases h with h | h
    · exact Or.inl h
    · exact Or.inr (Or.inl h)
  · have h1 : 2 ≤ u.length := by omega
    have h2 : 2 ≤ v.length := by omega
    rw [if_neg h]
    dsimp only
    have hz := var1_zero_iff h2
    constructor
    · split_ifs with hv
      · refine ⟨fun hc => (by cases hc), fun hc => ?_⟩
        rcases hc with hc | hc | hc
        · omega
        · omega
        · exact absurd (hz.2 hc) hv.ne'
      · exact ⟨fun _ => Or.inr (Or.inr (hz.1 (le_antisymm (not_lt.1 hv) (var1_nonneg v)))), fun _ => rfl⟩
    · intro q k c hq hp
      split_ifs at hq with hv
      rw [var1_perm hp, var1_affine] at hq
      simp only [Option.some.injEq] at hq
      rw [← hq, mul_div_cancel_right₀ _ hv.ne']

/-- C111: measuring the outcome in another unit multiplies distance and mean difference by the factor and leaves the normalised distance,
p-value and verdict alone. -/
theorem C111_scale (hr : IsSqrt r) (hwd : IsDist wd) {k : K} (hk : 0 < k) :
    let R := robustTest r wd perms thr rows byUnit pre
    let R' := robustTest r wd perms thr (rows.map (fun x => { x with y := x.y.map (k * ·) })) byUnit pre
    R'.dist = R.dist.map (k * ·) ∧ R'.diff = R.diff.map (k * ·) ∧ R'.normalized = R.normalized ∧ R'.p = R.p ∧
      R'.plausible = R.plausible := by
  intro R R'
  set u := changes (preRows rows pre) byUnit 1 with hu
  set v := changes (preRows rows pre) byUnit 0 with hv
  have hR' : R' = robust r wd perms thr (u.map (fun x => k * x)) (v.map (fun x => k * x)) := by
    show robustTest _ _ _ _ _ _ _ = _
    unfold robustTest
    rw [preRows_map (fun x : Row K => { x with y := x.y.map (k * ·) }) (fun x => rfl), changes_scale, changes_scale]
  have hR : R = robust r wd perms thr u v := rfl
  rw [hR', hR]
  by_cases hl : u.length < 2 ∨ v.length < 2
  · have hl' : (u.map (fun x => k * x)).length < 2 ∨ (v.map (fun x => k * x)).length < 2 := by simpa using hl
    unfold robust
    rw [if_pos hl, if_pos hl']
    simp
  · have h1 : 2 ≤ u.length := by omega
    have h2 : 2 ≤ v.length := by omega
    have h1' : 2 ≤ (u.map (fun x => k * x)).length := by simpa using h1
    have h2' : 2 ≤ (v.map (fun x => k * x)).length := by simpa using h2
    have a := robust_ok r wd perms thr h1 h2
    have b := robust_ok r wd perms thr h1' h2'
    have hw : wd (u.map (fun x => k * x)) (v.map (fun x => k * x)) = k * wd u v := hwd.scale u v k hk
    have hsd : r (var1 (u.map (fun x => k * x) ++ v.map (fun x => k * x))) = k * r (var1 (u ++ v)) := by
      rw [← List.map_append, var1_scale, hr.scale (var1_nonneg _) hk.le]
    have hget : ∀ l : List ℕ, l.map (fun i => (u.map (fun x => k * x) ++ v.map (fun x => k * x)).getD i 0) =
        (l.map (fun i => (u ++ v).getD i 0)).map (fun x => k * x) := by
      intro l
      rw [List.map_map]
      apply List.map_congr_left
      intro i _
      rw [← List.map_append]
      simp only [Function.comp, List.getD_eq_getElem?_getD, List.getElem?_map]
      cases (u ++ v)[i]? <;> simp
    have hex : exceed wd perms (u.map (fun x => k * x)) (v.map (fun x => k * x)) = exceed wd perms u v := by
      unfold exceed
      congr 1
      apply List.filter_congr
      intro π _
      rw [List.length_map, hget, hget, hw, hwd.scale _ _ k hk, decide_eq_decide]
      exact mul_le_mul_iff_right₀ hk
    have hp : 0 < k * r (var1 (u ++ v)) ↔ 0 < r (var1 (u ++ v)) := mul_pos_iff_of_pos_left hk
    rw [a.1, a.2.1, a.2.2.1, a.2.2.2.1, a.2.2.2.2, b.1, b.2.1, b.2.2.1, b.2.2.2.1, b.2.2.2.2, hex, hw, hsd]
    refine ⟨rfl, ?_, ?_, rfl, ?_⟩
    · rw [mean_scale, mean_scale, Option.map_some, mul_sub]
    · by_cases hs : 0 < r (var1 (u ++ v))
      · rw [if_pos hs, if_pos (hp.mpr hs), mul_div_mul_left _ _ hk.ne']
      · rw [if_neg hs, if_neg (fun h => hs (hp.mp h))]
    · simp only [Option.some.injEq, decide_eq_decide, hp]
      have : k * wd u v < thr * (k * r (var1 (u ++ v))) ↔ wd u v < thr * r (var1 (u ++ v)) := by
        rw [← mul_assoc, mul_comm thr k, mul_assoc]
        exact mul_lt_mul_iff_right₀ hk
      rw [this]

end robust

/-! ### Cases -/

/-- Two groups whose outcomes move by the same constant amount. -/
def rowsE : List (Row ℚ) := [mk 0 0 1 5, mk 0 1 1 6, mk 0 2 1 7, mk 1 0 0 0, mk 1 1 0 1, mk 1 2 0 2]

/-- C110 (refuted): groups that move exactly in parallel are not called equivalent: when every change is the same number there is no
verdict, and the margin given by the user is not reported. -/
theorem C110_parallel_refuted (r : ℚ → ℚ) (sf cdf : ℚ → ℚ → ℚ) (byUnit : Bool) (margin : Option ℚ) :
    changes (preRows rowsE (some [0, 1, 2])) byUnit 1 = [1, 1] ∧ changes (preRows rowsE (some [0, 1, 2])) byUnit 0 = [1, 1] ∧
    (equivalenceTest r sf cdf rowsE byUnit (some [0, 1, 2]) margin).diff = some 0 ∧
    (equivalenceTest r sf cdf rowsE byUnit (some [0, 1, 2]) margin).margin = none ∧
    (equivalenceTest r sf cdf rowsE byUnit (some [0, 1, 2]) margin).equivalent = none := by
  have h1 : ∀ b, changes (preRows rowsE (some [0, 1, 2])) b 1 = [1, 1] := by decide +kernel
  have h0 : ∀ b, changes (preRows rowsE (some [0, 1, 2])) b 0 = [1, 1] := by decide +kernel
  refine ⟨h1 _, h0 _, ?_, ?_, ?_⟩
  all_goals
    unfold equivalenceTest tost
    rw [h1, h0, if_neg (by decide), if_pos (by decide +kernel)]
  norm_num

/-- Two groups on the same line, the second without a row in period 1. -/
def rowsF : List (Row ℚ) := [mk 0 0 1 0, mk 0 1 1 1, mk 0 2 1 2, mk 0 3 1 3, mk 1 0 0 0, mk 1 2 0 2, mk 1 3 0 3]

/-- C110 (refuted): identical paths do not give a zero difference: a change over a missing period counts as one change, so a group
observed in fewer periods appears to move faster. -/
theorem C110_gap_refuted (r : ℚ → ℚ) (sf cdf : ℚ → ℚ → ℚ) (byUnit : Bool) (margin : Option ℚ) :
    (∀ x ∈ rowsF, x.y = some x.time) ∧
    (equivalenceTest r sf cdf rowsF byUnit (some [0, 1, 2, 3]) margin).diff = some (-1 / 2) := by
  refine ⟨by decide +kernel, ?_⟩
  have h1 : ∀ b, changes (preRows rowsF (some [0, 1, 2, 3])) b 1 = [1, 1, 1] := by decide +kernel
  have h0 : ∀ b, changes (preRows rowsF (some [0, 1, 2, 3])) b 0 = [2, 1] := by decide +kernel
  have hd : mean [(1 : ℚ), 1, 1] - mean [(2 : ℚ), 1] = -1 / 2 := by decide +kernel
  unfold equivalenceTest tost
  rw [h1, h0, if_neg (by decide), if_neg (by decide +kernel), hd]
  split_ifs <;> rfl

/-- Treated outcomes 0, h, 0 in three periods, control outcomes 0. -/
def rowsG (h : K) : List (Row K) :=
  [⟨0, 0, 1, some 0⟩, ⟨0, 1, 1, some h⟩, ⟨0, 2, 1, some 0⟩, ⟨1, 0, 0, some 0⟩, ⟨1, 1, 0, some 0⟩, ⟨1, 2, 0, some 0⟩]

theorem rowsG_scale (h : K) : rowsG h = (rowsG 1).map (fun x => { x with y := x.y.map (h * ·) }) := by
  simp [rowsG]

theorem rowsG_pre : preRows (rowsG (1 : K)) (some [0, 1, 2]) = rowsG 1 := by
  simp [preRows, preOf, rowsG]

theorem rowsG_one : changes (preRows (rowsG (1 : K)) (some [0, 1, 2])) true 1 = [1, -1] ∧
    changes (preRows (rowsG (1 : K)) (some [0, 1, 2])) true 0 = [0, 0] := by
  rw [rowsG_pre]
  have h2 : (1 : K) ≤ 2 := by norm_num
  have hs : (rowsG (1 : K)).insertionSort rowLe = rowsG 1 := by
    apply List.Pairwise.insertionSort_eq
    simp [rowsG, rowLe, h2]
  simp [changes, unitChanges, hs]
  simp [rowsG, diffs]

/-- C110 (refuted): a violation inside the pre-treatment window is not detected: when the treated group jumps by `h` and returns, the mean
difference is 0, and with the default margin statistics, p-values and verdict are the same for every `h`, because the margin grows with
the jump. -/
theorem C110_bump_refuted (r : K → K) (hr : IsSqrt r) (sf cdf : K → K → K) {h : K} (hh : 0 < h) :
    let R := fun h => equivalenceTest r sf cdf (rowsG h) true (some [0, 1, 2]) none
    (R h).diff = some 0 ∧ (R h).margin = (R 1).margin.map (h * ·) ∧ (R h).tLower = (R 1).tLower ∧ (R h).tUpper = (R 1).tUpper ∧
      (R h).p = (R 1).p ∧ (R h).equivalent = (R 1).equivalent ∧ (R h).equivalent ≠ none := by
  intro R
  have hs := C110_scale r hr sf cdf (rowsG 1) true (some [0, 1, 2]) none hh
  rw [← rowsG_scale] at hs
  obtain ⟨s1, _, s3, s4, s5, _, _, s8, _, s10⟩ := hs
  have hT : Testable [(1 : K), -1] [0, 0] := by
    refine ⟨by simp, by simp, Or.inl ⟨1, by simp, -1, by simp, ?_⟩⟩
    norm_num
  have h1 : (R 1).diff = some 0 ∧ (R 1).equivalent ≠ none := by
    show (equivalenceTest r sf cdf (rowsG 1) true (some [0, 1, 2]) none).diff = some 0 ∧ _
    unfold R equivalenceTest
    rw [rowsG_one.1, rowsG_one.2, tost_ok hr sf cdf hT]
    simp [tostOk, mean]
  refine ⟨?_, s3, s4, s5, s8, s10, ?_⟩
  · show (equivalenceTest r sf cdf (rowsG h) true (some [0, 1, 2]) none).diff = some 0
    have h1' : (equivalenceTest r sf cdf (rowsG 1) true (some [0, 1, 2]) none).diff = some 0 := h1.1
    rw [h1'] at s1
    simpa using s1
  · intro hc
    have : (R 1).equivalent = none := by rw [← hc]; exact s10.symm
    exact h1.2 this

/-- The real square root is a square root. -/
example : IsSqrt Real.sqrt := fun x hx => ⟨Real.sqrt_nonneg x, Real.sq_sqrt hx⟩

/-- A distribution symmetric about zero meets what is used of Student's t. -/
example : TDist (K := ℝ) (fun x _ => if x ≤ -1 then 1 else if 1 ≤ x then 0 else 1 / 2) (fun x _ => if x ≤ -1 then 0 else if 1 ≤ x then 1 else 1 / 2) where
  anti ν _ x y h := by
    split_ifs <;> linarith
  half ν _ := by norm_num
  mirror ν _ x := by
    have : (-x ≤ -1 ↔ 1 ≤ x) ∧ (1 ≤ -x ↔ x ≤ -1) := by constructor <;> constructor <;> intro h <;> linarith
    simp only [this.1, this.2]
    split_ifs <;> first | rfl | linarith

example : Testable [(1 : ℝ), -1] [0, 0] := by
  refine ⟨by simp, by simp, Or.inl ⟨1, by simp, -1, by simp, ?_⟩⟩
  norm_num

/-- Two units per group with the same changes in a different order. -/
def rowsH : List (Row ℚ) := [mk 0 0 1 0, mk 0 1 1 1, mk 0 2 1 3, mk 1 0 0 0, mk 1 1 0 2, mk 1 2 0 3]

example : (changes (preRows rowsH (some [0, 1, 2])) true 1).Perm (changes (preRows rowsH (some [0, 1, 2])) true 0) ∧
    changes (preRows rowsH (some [0, 1, 2])) true 1 = [1, 2] := by decide +kernel

/-- Treated changes 2, 4 and control changes 1, 2: ratio 4. -/
example : (robustTest (fun x => x) wasserstein [[0, 1, 2, 3]] 1
    [mk 0 0 1 0, mk 0 1 1 2, mk 0 2 1 6, mk 1 0 0 0, mk 1 1 0 1, mk 1 2 0 3] true (some [0, 1, 2])).ratio = some 4 := by decide +kernel

/-- Treated changes 0, control changes 1. -/
def rowsI : List (Row ℚ) := [mk 0 0 1 0, mk 0 1 1 0, mk 0 2 1 0, mk 1 0 0 0, mk 1 1 0 1, mk 1 2 0 2]

/-- C111 (refuted): the reported permutation p-value can be zero, although the observed arrangement is itself one of the permutations: the
observed arrangement is not counted. -/
theorem C111_zero_refuted (r : ℚ → ℚ) (thr : ℚ) (byUnit : Bool) :
    (robustTest r wasserstein [[0, 2, 1, 3]] thr rowsI byUnit (some [0, 1, 2])).p = some 0 ∧
    (robustTest r wasserstein [[0, 2, 1, 3]] thr rowsI byUnit (some [0, 1, 2])).plausible = some false := by
  have h1 : ∀ b, changes (preRows rowsI (some [0, 1, 2])) b 1 = [0, 0] := by decide +kernel
  have h0 : ∀ b, changes (preRows rowsI (some [0, 1, 2])) b 0 = [1, 1] := by decide +kernel
  have hex : exceed wasserstein [[0, 2, 1, 3]] [(0 : ℚ), 0] [1, 1] = 0 := by decide +kernel
  have hok := robust_ok r wasserstein [[0, 2, 1, 3]] thr (ct := [(0 : ℚ), 0]) (cc := [1, 1]) (by simp) (by simp)
  unfold robustTest
  rw [h1, h0, hok.2.2.1, hok.2.2.2.2, hex]
  simp

/-- C111 (refuted): without permutations the p-value is undefined but a verdict is still given, always "not plausible", even for groups
with the same changes. -/
theorem C111_noperm_refuted (r : ℚ → ℚ) (thr : ℚ) (wd : List ℚ → List ℚ → ℚ) :
    (robustTest r wd [] thr rowsH true (some [0, 1, 2])).p = none ∧
    (robustTest r wd [] thr rowsH true (some [0, 1, 2])).plausible = some false := by
  have h1 : changes (preRows rowsH (some [0, 1, 2])) true 1 = [1, 2] := by decide +kernel
  have h0 : changes (preRows rowsH (some [0, 1, 2])) true 0 = [2, 1] := by decide +kernel
  have hok := robust_ok r wd [] thr (ct := [(1 : ℚ), 2]) (cc := [2, 1]) (by simp) (by simp)
  unfold robustTest
  rw [h1, h0, hok.2.2.1, hok.2.2.2.2]
  simp [exceed]

end DiffDiff.Trends
