/-
Properties C59 (average effect) and C76 (period effects) of MultiPeriodDiD.
-/
import Verif.MultiPeriod
import Verif.OlsProps

set_option linter.unusedSectionVars false

namespace DiffDiff.MultiPeriod

/-! ### C59 -/

section avg
variable {K : Type*} [Field K] [LinearOrder K] [IsStrictOrderedRing K]

theorem allSome_map {α β : Type*} (l : List α) (f : α → Option β) (g : α → β) (h : ∀ a ∈ l, f a = some (g a)) :
    allSome (l.map f) = some (l.map g) := by
  induction l with
  | nil => rfl
  | cons a l ih =>
    rw [List.map_cons, h a (List.mem_cons_self ..)]
    simp only [allSome]
    rw [ih (fun b hb => h b (List.mem_cons_of_mem _ hb))]
    rfl

theorem allSome_none {α : Type*} (l : List (Option α)) (h : none ∈ l) : allSome l = none := by
  induction l with
  | nil => cases h
  | cons a l ih =>
    cases a with
    | none => rfl
    | some a =>
      simp only [allSome]
      rw [ih ((List.mem_cons.1 h).resolve_left (by simp))]
      rfl

theorem sum_flatMap_eq {α : Type*} (l : List α) (f : α → List K) : (l.flatMap f).sum = (l.map (fun a => (f a).sum)).sum := by
  induction l with
  | nil => rfl
  | cons a l ih => rw [List.flatMap_cons, List.sum_append, List.map_cons, List.sum_cons, ih]

/-- C59. The average effect is the mean of the period effects; its squared standard error is the sum of all entries of the
covariance block of these effects over the squared number of periods, and inference uses exactly these two numbers. -/
theorem C59_average (infer : K → K → Inf K) (coef : ℕ → Option K) (vcov : ℕ → ℕ → Option K) (idx : List ℕ)
    (b : ℕ → K) (V : ℕ → ℕ → K) (hb : ∀ i ∈ idx, coef i = some (b i))
    (hV : ∀ i ∈ idx, ∀ j ∈ idx, vcov i j = some (V i j))
    (hpos : 0 < (idx.map (fun i => (idx.map (fun j => V i j)).sum)).sum) :
    average infer coef vcov idx =
      ⟨some ((idx.map b).sum / idx.length),
       some ((idx.map (fun i => (idx.map (fun j => V i j)).sum)).sum / (idx.length : K) ^ 2),
       some (infer ((idx.map b).sum / idx.length)
         ((idx.map (fun i => (idx.map (fun j => V i j)).sum)).sum / (idx.length : K) ^ 2))⟩ := by
  have h1 : allSome (idx.map coef) = some (idx.map b) := allSome_map _ _ _ hb
  have h2 : allSome (idx.flatMap (fun i => idx.map (fun j => vcov i j))) =
      some (idx.flatMap (fun i => idx.map (fun j => V i j))) := by
    have e1 : idx.flatMap (fun i => idx.map (fun j => vcov i j)) =
        (idx.flatMap (fun i => idx.map (fun j => V i j))).map some := by
      rw [List.map_flatMap]
      apply List.flatMap_congr
      intro i hi
      rw [List.map_map]
      apply List.map_congr_left
      intro j hj
      exact hV i hi j hj
    rw [e1, allSome_map _ some id (fun _ _ => rfl), List.map_id]
  have h3 : (idx.flatMap (fun i => idx.map (fun j => V i j))).sum = (idx.map (fun i => (idx.map (fun j => V i j)).sum)).sum := by
    exact sum_flatMap_eq _ _
  have hne : idx ≠ [] := by
    rintro rfl
    simp at hpos
  have hlen : (0 : K) < (idx.length : K) := by
    exact_mod_cast List.length_pos_iff.2 hne
  have hw : 0 < (idx.map (fun i => (idx.map (fun j => V i j)).sum)).sum / (idx.length : K) ^ 2 := by positivity
  simp only [average, h1, h2, h3, List.length_map]
  rw [if_neg (not_lt.2 hw.le), if_pos hw]

/-- C59. One unidentified period effect makes every field of the average NaN. -/
theorem C59_nan (infer : K → K → Inf K) (coef : ℕ → Option K) (vcov : ℕ → ℕ → Option K) (idx : List ℕ)
    (i : ℕ) (hi : i ∈ idx) (h : coef i = none) : average infer coef vcov idx = ⟨none, none, none⟩ := by
  unfold average
  rw [allSome_none _ (List.mem_map.2 ⟨i, hi, h⟩)]

/-- C59. For a positive semidefinite covariance matrix the variance of the average is reported (never replaced by NaN for
being negative) and is non-negative; inference is missing exactly when it is zero. -/
theorem C59_psd (infer : K → K → Inf K) (coef : ℕ → Option K) (vcov : ℕ → ℕ → Option K) (idx : List ℕ)
    (b : ℕ → K) (V : ℕ → ℕ → K) (hb : ∀ i ∈ idx, coef i = some (b i))
    (hV : ∀ i ∈ idx, ∀ j ∈ idx, vcov i j = some (V i j))
    (hpsd : ∀ x : List (ℕ × K), 0 ≤ (x.map (fun p => (x.map (fun q => p.2 * V p.1 q.1 * q.2)).sum)).sum) :
    ∃ w, (average infer coef vcov idx).var = some w ∧ 0 ≤ w ∧
      ((average infer coef vcov idx).inf = none ↔ w = 0) := by
  set s := (idx.map (fun i => (idx.map (fun j => V i j)).sum)).sum with hs
  have hnn : 0 ≤ s := by
    have := hpsd (idx.map (fun i => (i, 1)))
    simp only [List.map_map, Function.comp_def, one_mul, mul_one] at this
    exact this
  rcases hnn.lt_or_eq with h | h
  · rw [C59_average infer coef vcov idx b V hb hV h]
    have hne : idx ≠ [] := by
      rintro rfl
      simp [hs] at h
    have hlen : (0 : K) < (idx.length : K) := by
      exact_mod_cast List.length_pos_iff.2 hne
    have hw : 0 < s / (idx.length : K) ^ 2 := by positivity
    exact ⟨_, rfl, hw.le, ⟨fun h0 => (by cases h0), fun h0 => absurd h0 hw.ne'⟩⟩
  · have h1 : allSome (idx.map coef) = some (idx.map b) := allSome_map _ _ _ hb
    have h2 : allSome (idx.flatMap (fun i => idx.map (fun j => vcov i j))) =
        some (idx.flatMap (fun i => idx.map (fun j => V i j))) := by
      have e1 : idx.flatMap (fun i => idx.map (fun j => vcov i j)) =
          (idx.flatMap (fun i => idx.map (fun j => V i j))).map some := by
        rw [List.map_flatMap]
        apply List.flatMap_congr
        intro i hi
        rw [List.map_map]
        apply List.map_congr_left
        intro j hj
        exact hV i hi j hj
      rw [e1, allSome_map _ some id (fun _ _ => rfl), List.map_id]
    have h3 : (idx.flatMap (fun i => idx.map (fun j => V i j))).sum = 0 := by
      rw [sum_flatMap_eq]
      exact h.symm
    refine ⟨0, ?_, le_refl _, ?_⟩
    · simp [average, h1, h2, h3]
    · simp [average, h1, h2, h3]

example : (average (fun a w => ⟨a / w, 0, (a, w)⟩) (fun i => some (i : ℚ)) (fun i j => some (if i = j then 2 else 1)) [3, 4]).att
    = some (7 / 2) ∧
    (average (fun a w => ⟨a / w, 0, (a, w)⟩) (fun i => some (i : ℚ)) (fun i j => some (if i = j then 2 else 1)) [3, 4]).var
    = some (3 / 2) := by decide +kernel

end avg

/-! ### C76: column positions and period effects -/

theorem mem_allPeriods {times : List ℤ} {p : ℤ} : p ∈ allPeriods times ↔ p ∈ times := by
  simp [allPeriods, List.mem_insertionSort]

theorem allPeriods_nodup (times : List ℤ) : (allPeriods times).Nodup :=
  ((List.perm_insertionSort _ _).nodup_iff).2 (List.nodup_dedup _)

theorem take_drop_mem {l : List ℤ} (hl : l.Nodup) (n : ℕ) (p : ℤ) (hp : p ∈ l) : p ∈ l.take n ↔ p ∉ l.drop n := by
  constructor
  · intro h1 h2
    have : (l.take n ++ l.drop n).Nodup := by rw [List.take_append_drop]; exact hl
    exact (List.nodup_append.1 this).2.2 p h1 p h2 rfl
  · intro h
    rw [← List.take_append_drop n l, List.mem_append] at hp
    exact hp.resolve_right h

/-- C76. Accepted period classifications: every period of the data is either pre or post and not both, both sets are
non-empty, user-given post periods are kept as given, and the reference period occurs in the data. -/
theorem C76_classification (times : List ℤ) (post : Option (List ℤ)) (ref : Option ℤ) (pr po : List ℤ) (r : ℤ)
    (h : classify times post ref = .ok (pr, po, r)) :
    (∀ p ∈ times, p ∈ pr ↔ p ∉ po) ∧ (∀ p ∈ pr, p ∈ times) ∧ (∀ p ∈ po, p ∈ times) ∧ pr ≠ [] ∧ po ≠ [] ∧ r ∈ times ∧
      (∀ q, post = some q → po = q) ∧ (∀ q, ref = some q → r = q) ∧ (ref = none → r ∈ pr) := by
  unfold classify at h
  split_ifs at h with h1 h2 h3 h4
  have hsplit : ∀ p ∈ times, p ∈ (splitPeriods (allPeriods times) post).1 ↔ p ∉ (splitPeriods (allPeriods times) post).2 := by
    intro p hpt
    cases post with
    | none => exact take_drop_mem (allPeriods_nodup times) _ p (mem_allPeriods.2 hpt)
    | some q => simp [splitPeriods, mem_allPeriods, hpt]
  have hpre : ∀ p ∈ (splitPeriods (allPeriods times) post).1, p ∈ times := by
    intro p hpm
    cases post with
    | none => exact mem_allPeriods.1 (List.mem_of_mem_take hpm)
    | some q => exact mem_allPeriods.1 (List.mem_filter.1 hpm).1
  have hgiven : ∀ q, post = some q → (splitPeriods (allPeriods times) post).2 = q := by
    rintro q rfl; rfl
  generalize splitPeriods (allPeriods times) post = pp at *
  cases hr : reference (allPeriods times) pp.1 ref with
  | error e => rw [hr] at h; cases h
  | ok r' =>
    rw [hr] at h
    cases h
    refine ⟨hsplit, hpre, fun p hp => mem_allPeriods.1 (h4 p hp), h3, h2, ?_, hgiven, ?_, ?_⟩
    · cases ref with
      | some q =>
        simp only [reference] at hr
        split_ifs at hr with h5
        cases hr
        exact mem_allPeriods.1 h5
      | none =>
        unfold reference at hr
        cases hp : pp.1 with
        | nil => exact absurd hp h3
        | cons a l =>
          rw [hp] at hr
          cases hr
          exact hpre _ (by rw [hp]; exact List.mem_cons_self ..)
    · rintro q rfl
      simp only [reference] at hr
      split_ifs at hr with h5
      cases hr
      rfl
    · rintro rfl
      unfold reference at hr
      cases hp : pp.1 with
      | nil => exact absurd hp h3
      | cons a l =>
        rw [hp] at hr
        cases hr
        exact List.mem_cons_self ..

/-- C76. Fits are refused exactly when fewer than two periods exist, no post or no pre period remains, or a named period
does not occur in the data. -/
theorem C76_refused (times : List ℤ) (post : Option (List ℤ)) (ref : Option ℤ) :
    (∃ e, classify times post ref = .error e) ↔
      times.toFinset.card < 2 ∨ (∃ q, post = some q ∧ (q = [] ∨ (∀ p ∈ times, p ∈ q) ∨ ∃ p ∈ q, p ∉ times)) ∨
        ∃ r, ref = some r ∧ r ∉ times := by
  have hlen : (allPeriods times).length = times.toFinset.card := by
    rw [allPeriods, List.length_insertionSort, List.card_toFinset]
  constructor
  · rintro ⟨e, h⟩
    unfold classify at h
    rw [hlen] at h
    by_cases h1 : times.toFinset.card < 2
    · exact Or.inl h1
    by_cases h2 : (splitPeriods (allPeriods times) post).2 = []
    · cases post with
      | some q => exact Or.inr (Or.inl ⟨q, rfl, Or.inl h2⟩)
      | none =>
        exfalso
        have := List.length_drop (i := (allPeriods times).length / 2) (l := allPeriods times)
        rw [show (allPeriods times).drop ((allPeriods times).length / 2) = [] from h2, List.length_nil, hlen] at this
        omega
    by_cases h3 : (splitPeriods (allPeriods times) post).1 = []
    · cases post with
      | some q =>
        refine Or.inr (Or.inl ⟨q, rfl, Or.inr (Or.inl ?_)⟩)
        intro p hp
        have := List.filter_eq_nil_iff.1 h3 p (mem_allPeriods.2 hp)
        simpa using this
      | none =>
        exfalso
        have := List.length_take (i := (allPeriods times).length / 2) (l := allPeriods times)
        rw [show (allPeriods times).take ((allPeriods times).length / 2) = [] from h3, List.length_nil, hlen] at this
        omega
    by_cases h4 : ∀ p ∈ (splitPeriods (allPeriods times) post).2, p ∈ allPeriods times
    · rw [if_neg h1, if_neg h2, if_neg h3, if_neg (not_not.2 h4)] at h
      cases ref with
      | some r =>
        refine Or.inr (Or.inr ⟨r, rfl, fun hr => ?_⟩)
        simp only [reference, if_pos (mem_allPeriods.2 hr)] at h
        cases h
      | none =>
        exfalso
        unfold reference at h
        cases hp : (splitPeriods (allPeriods times) post).1 with
        | nil => exact h3 hp
        | cons a l => rw [hp] at h; cases h
    · cases post with
      | some q =>
        push Not at h4
        obtain ⟨p, hp, hp'⟩ := h4
        exact Or.inr (Or.inl ⟨q, rfl, Or.inr (Or.inr ⟨p, hp, fun hn => hp' (mem_allPeriods.2 hn)⟩)⟩)
      | none => exact absurd (fun p hp => List.mem_of_mem_drop hp) h4
  · intro h
    cases hc : classify times post ref with
    | error e => exact ⟨e, rfl⟩
    | ok v =>
      exfalso
      obtain ⟨pr, po, r⟩ := v
      have := C76_classification times post ref pr po r hc
      obtain ⟨c1, c2, c3, c4, c5, c6, c7, c8, c9⟩ := this
      rcases h with h | ⟨q, hq, h⟩ | ⟨r', hr, h⟩
      · unfold classify at hc
        rw [hlen, if_pos h] at hc
        cases hc
      · have := c7 q hq
        subst this
        rcases h with h | h | ⟨p, hp, hp'⟩
        · exact c5 h
        · obtain ⟨a, ha⟩ := List.exists_mem_of_ne_nil _ c4
          exact (c1 a (c2 a ha)).1 ha (h a (c2 a ha))
        · exact hp' (c3 p hp)
      · exact h (c8 r' hr ▸ c6)

theorem columns_nodup {all post : List ℤ} (ha : all.Nodup) (hp : post.Nodup) (ref : ℤ) (k : ℕ) :
    (columns all post ref k).Nodup := by
  unfold columns
  rw [List.nodup_append, List.nodup_append, List.nodup_append]
  refine ⟨⟨⟨by simp, ?_, ?_⟩, ?_, ?_⟩, ?_, ?_⟩
  · exact (ha.filter _).map (fun a b h => by cases h; rfl)
  · intro a ha b hb
    obtain ⟨p, _, rfl⟩ := List.mem_map.1 hb
    simp at ha
    rcases ha with rfl | rfl <;> simp
  · exact hp.map (fun a b h => by cases h; rfl)
  · intro a ha b hb
    obtain ⟨p, _, rfl⟩ := List.mem_map.1 hb
    rw [List.mem_append] at ha
    rcases ha with ha | ha
    · simp at ha
      rcases ha with rfl | rfl <;> simp
    · obtain ⟨q, _, rfl⟩ := List.mem_map.1 ha
      simp
  · exact (List.nodup_range).map (fun a b h => by cases h; rfl)
  · intro a ha b hb
    obtain ⟨p, _, rfl⟩ := List.mem_map.1 hb
    rw [List.mem_append, List.mem_append] at ha
    rcases ha with (ha | ha) | ha
    · simp at ha
      rcases ha with rfl | rfl <;> simp
    · obtain ⟨q, _, rfl⟩ := List.mem_map.1 ha
      simp
    · obtain ⟨q, _, rfl⟩ := List.mem_map.1 ha
      simp

/-- C76. The stored position of a post period is the position of its treatment interaction column. -/
theorem C76_interaction_position (all post : List ℤ) (ref : ℤ) (k : ℕ) (p : ℤ) (hp : p ∈ post) :
    (columns all post ref k)[interIndex all post ref p]? = some (Col.inter p) := by
  unfold columns interIndex
  have hlt : post.idxOf p < post.length := List.idxOf_lt_length_iff.2 hp
  have h1 : (post.map Col.inter)[post.idxOf p]? = some (Col.inter p) := by
    rw [List.getElem?_map, List.getElem?_eq_getElem hlt, List.getElem_idxOf]
    rfl
  rw [List.getElem?_append_left (by
    simp only [List.length_append, List.length_map, List.length_cons, List.length_nil]; omega),
    List.getElem?_append_right (by
    simp only [List.length_append, List.length_map, List.length_cons, List.length_nil]; omega)]
  rw [← h1]
  congr 1
  simp only [List.length_append, List.length_map, List.length_cons, List.length_nil]
  omega

section ols
variable {K : Type*} [Field K] [LinearOrder K] [IsStrictOrderedRing K]
variable {ι : Type*} [Fintype ι]

/-- Rows of one arm in one period. -/
def arm (d : ι → Bool) (t : ι → ℤ) (a : Bool) (p : ℤ) : Finset ι := Finset.univ.filter (fun i => d i = a ∧ t i = p)

/-- Mean outcome of one arm in one period. -/
def armMean (y : ι → K) (d : ι → Bool) (t : ι → ℤ) (a : Bool) (p : ℤ) : K :=
  (∑ i ∈ arm d t a p, y i) / ((arm d t a p).card : K)

/-- Treated minus control mean in a period. -/
def gap (y : ι → K) (d : ι → Bool) (t : ι → ℤ) (p : ℤ) : K := armMean y d t true p - armMean y d t false p

/-- Coefficient of a column (positions as in the code). -/
def coefAt (cols : List Col) (b : Fin cols.length → K) (c : Col) : K :=
  if h : cols.idxOf c < cols.length then b ⟨cols.idxOf c, h⟩ else 0

theorem coefAt_inter (all post : List ℤ) (ref : ℤ) (k : ℕ) (ha : all.Nodup) (hpo : post.Nodup) (p : ℤ) (hp : p ∈ post) :
    (columns all post ref k).idxOf (Col.inter p) = interIndex all post ref p := by
  have h := C76_interaction_position all post ref k p hp
  obtain ⟨hlt, he⟩ := List.getElem?_eq_some_iff.1 h
  rw [← he]
  exact List.Nodup.idxOf_getElem (columns_nodup ha hpo ref k) _ hlt

/-- Without extra columns the fitted value depends on arm and period only. -/
def cellFit (cols : List Col) (b : Fin cols.length → K) (a : Bool) (p : ℤ) : K :=
  ∑ j : Fin cols.length, colVal a p (fun _ => 0) cols[j] * b j

theorem fitted_cell (d : ι → Bool) (t : ι → ℤ) (cols : List Col) (b : Fin cols.length → K) (i : ι) :
    Ols.fitted (design d t (fun _ _ => (0 : K)) cols) b i = cellFit cols b (d i) (t i) := rfl

theorem sum_index {cols : List Col} (hn : cols.Nodup) (b : Fin cols.length → K) (f : Col → K)
    (S : List Col) (hS : S.Nodup) (hsub : ∀ c ∈ S, c ∈ cols) (hz : ∀ c ∈ cols, c ∉ S → f c = 0) :
    ∑ j : Fin cols.length, f cols[j] * b j = (S.map (fun c => f c * coefAt cols b c)).sum := by
  have h1 : ∀ j : Fin cols.length, b j = coefAt cols b cols[j] := by
    intro j
    unfold coefAt
    have e : cols.idxOf cols[j] = j.1 := List.Nodup.idxOf_getElem hn j.1 j.2
    rw [dif_pos (by rw [e]; exact j.2)]
    congr 1
    exact Fin.ext e.symm
  have h2 : ∑ j : Fin cols.length, f cols[j] * b j = (cols.map (fun c => f c * coefAt cols b c)).sum := by
    rw [← List.sum_ofFn]
    congr 1
    apply List.ext_getElem
    · simp
    · intro i h1' h2'
      simp only [List.getElem_ofFn, List.getElem_map]
      rw [h1]
      rfl
  rw [h2]
  rw [← List.sum_toFinset _ hn, ← List.sum_toFinset _ hS]
  symm
  apply Finset.sum_subset
  · intro c hc
    rw [List.mem_toFinset] at hc ⊢
    exact hsub c hc
  · intro c hc hc'
    rw [List.mem_toFinset] at hc hc'
    rw [hz c hc hc', zero_mul]

theorem mem_columns {all post : List ℤ} {ref : ℤ} {c : Col} : c ∈ columns all post ref 0 ↔
    c = .const ∨ c = .treat ∨ (∃ p ∈ all, p ≠ ref ∧ c = .period p) ∨ ∃ p ∈ post, c = .inter p := by
  simp only [columns, List.mem_append, List.mem_cons, List.mem_map, List.mem_filter, List.range_zero, List.map_nil,
    List.not_mem_nil, or_false, decide_eq_true_eq]
  constructor
  · rintro ((h | ⟨p, ⟨h1, h2⟩, rfl⟩) | ⟨p, hp, rfl⟩)
    · tauto
    · exact Or.inr (Or.inr (Or.inl ⟨p, h1, h2, rfl⟩))
    · exact Or.inr (Or.inr (Or.inr ⟨p, hp, rfl⟩))
  · rintro (h | h | ⟨p, h1, h2, rfl⟩ | ⟨p, hp, rfl⟩)
    · tauto
    · tauto
    · exact Or.inl (Or.inr ⟨p, ⟨h1, h2⟩, rfl⟩)
    · exact Or.inr ⟨p, hp, rfl⟩

/-- Treated minus control fitted value in a period. -/
theorem cellFit_gap {all post : List ℤ} (ha : all.Nodup) (hp : post.Nodup) (ref : ℤ)
    (b : Fin (columns all post ref 0).length → K) (p : ℤ) :
    cellFit _ b true p - cellFit _ b false p = coefAt _ b .treat + if p ∈ post then coefAt _ b (.inter p) else 0 := by
  unfold cellFit
  rw [← Finset.sum_sub_distrib]
  simp only [← sub_mul]
  set f : Col → K := fun c => colVal true p (fun _ => 0) c - colVal false p (fun _ => 0) c with hf
  show ∑ j, f _ * b j = _
  have hn := columns_nodup ha hp ref 0
  have htr : Col.treat ∈ columns all post ref 0 := mem_columns.2 (Or.inr (Or.inl rfl))
  by_cases h : p ∈ post
  · rw [if_pos h, sum_index hn b f [.treat, .inter p] (by simp)]
    · simp [hf, colVal]
    · intro c hc
      simp at hc
      rcases hc with rfl | rfl
      · exact htr
      · exact mem_columns.2 (Or.inr (Or.inr (Or.inr ⟨p, h, rfl⟩)))
    · intro c _ hc
      simp at hc
      cases c <;> simp [hf, colVal] at hc ⊢
      exact fun h => hc h.symm
  · rw [if_neg h, sum_index hn b f [.treat] (by simp)]
    · simp [hf, colVal]
    · intro c hc
      simp at hc
      rw [hc]; exact htr
    · intro c hc hc'
      simp at hc'
      rcases mem_columns.1 hc with rfl | rfl | ⟨q, _, _, rfl⟩ | ⟨q, hq, rfl⟩
      · simp [hf, colVal]
      · exact absurd rfl hc'
      · simp [hf, colVal]
      · simp [hf, colVal]
        rintro rfl
        exact h hq

theorem normal_eq {d : ι → Bool} {t : ι → ℤ} {cols : List Col} {y : ι → K} {b : Fin cols.length → K}
    (h : Ols.IsOls (design d t (fun _ _ => (0 : K)) cols) y b) {c : Col} (hc : c ∈ cols) :
    ∑ i, colVal (d i) (t i) (fun _ => 0) c * Ols.resid (design d t (fun _ _ => (0 : K)) cols) y b i = 0 := by
  obtain ⟨j, hj, he⟩ := List.getElem_of_mem hc
  have := h ⟨j, hj⟩
  unfold design at this
  simp only [Fin.getElem_fin, he] at this
  exact this

/-- Residuals sum to zero in every period. -/
theorem resid_period {all post : List ℤ} {ref : ℤ} {d : ι → Bool} {t : ι → ℤ} {y : ι → K} (ha : all.Nodup)
    (hall : ∀ i, t i ∈ all) (hr : ref ∈ all) {b : Fin (columns all post ref 0).length → K}
    (h : Ols.IsOls (design d t (fun _ _ => (0 : K)) (columns all post ref 0)) y b) (p : ℤ) (hp : p ∈ all) :
    ∑ i with t i = p, Ols.resid (design d t (fun _ _ => (0 : K)) (columns all post ref 0)) y b i = 0 := by
  set r := Ols.resid (design d t (fun _ _ => (0 : K)) (columns all post ref 0)) y b with hrdef
  have hper : ∀ q ∈ all, q ≠ ref → ∑ i with t i = q, r i = 0 := by
    intro q hq hne
    have := normal_eq h (mem_columns.2 (Or.inr (Or.inr (Or.inl ⟨q, hq, hne, rfl⟩))))
    rw [Finset.sum_filter]
    refine Eq.trans ?_ this
    refine Finset.sum_congr rfl (fun i _ => ?_)
    simp [colVal, hrdef]
  by_cases hne : p = ref
  · have htot : ∑ i, r i = 0 := by
      have := normal_eq h (mem_columns.2 (Or.inl rfl))
      simpa [colVal] using this
    have hsplit : ∑ i, r i = ∑ q ∈ all.toFinset, ∑ i with t i = q, r i :=
      (Finset.sum_fiberwise_of_maps_to (fun i _ => by rw [List.mem_toFinset]; exact hall i) r).symm
    rw [hsplit, Finset.sum_eq_single p] at htot
    · exact htot
    · intro q hq hqp
      exact hper q (List.mem_toFinset.1 hq) (by rw [← hne]; exact hqp)
    · intro hn; exact absurd (List.mem_toFinset.2 hp) hn
  · exact hper p hp hne

theorem resid_arm_sum (d : ι → Bool) (t : ι → ℤ) (cols : List Col) (y : ι → K) (b : Fin cols.length → K) (a : Bool) (p : ℤ) :
    ∑ i ∈ arm d t a p, Ols.resid (design d t (fun _ _ => (0 : K)) cols) y b i =
      ∑ i ∈ arm d t a p, y i - (arm d t a p).card * cellFit cols b a p := by
  have : ∀ i ∈ arm d t a p, Ols.resid (design d t (fun _ _ => (0 : K)) cols) y b i = y i - cellFit cols b a p := by
    intro i hi
    obtain ⟨h1, h2⟩ := (Finset.mem_filter.1 hi).2
    rw [Ols.resid, fitted_cell, h1, h2]
  rw [Finset.sum_congr rfl this, Finset.sum_sub_distrib, Finset.sum_const, nsmul_eq_mul]

theorem sum_period_split (d : ι → Bool) (t : ι → ℤ) (p : ℤ) (f : ι → K) :
    ∑ i with t i = p, f i = ∑ i ∈ arm d t true p, f i + ∑ i ∈ arm d t false p, f i := by
  simp only [arm, Finset.sum_filter, ← Finset.sum_add_distrib]
  refine Finset.sum_congr rfl (fun i _ => ?_)
  cases d i <;> by_cases h : t i = p <;> simp [h]

/-- In post periods fitted values are arm means. -/
theorem cellFit_post {all post : List ℤ} {ref : ℤ} {d : ι → Bool} {t : ι → ℤ} {y : ι → K} (ha : all.Nodup)
    (hall : ∀ i, t i ∈ all) (hr : ref ∈ all) {b : Fin (columns all post ref 0).length → K}
    (h : Ols.IsOls (design d t (fun _ _ => (0 : K)) (columns all post ref 0)) y b) (p : ℤ) (hp : p ∈ post) (hpa : p ∈ all)
    (a : Bool) (hne : (arm d t a p).Nonempty) : cellFit _ b a p = armMean y d t a p := by
  have hper := resid_period ha hall hr h p hpa
  rw [sum_period_split d t p] at hper
  have hint : ∑ i ∈ arm d t true p, Ols.resid (design d t (fun _ _ => (0 : K)) (columns all post ref 0)) y b i = 0 := by
    have := normal_eq h (mem_columns.2 (Or.inr (Or.inr (Or.inr ⟨p, hp, rfl⟩))))
    rw [arm, Finset.sum_filter]
    refine Eq.trans ?_ this
    refine Finset.sum_congr rfl (fun i _ => ?_)
    cases d i <;> by_cases h : t i = p <;> simp [colVal, h]
  have hz : ∑ i ∈ arm d t a p, Ols.resid (design d t (fun _ _ => (0 : K)) (columns all post ref 0)) y b i = 0 := by
    cases a
    · linarith
    · exact hint
  rw [resid_arm_sum] at hz
  have hc : ((arm d t a p).card : K) ≠ 0 := by exact_mod_cast (Finset.card_pos.2 hne).ne'
  rw [armMean, eq_div_iff hc]
  linarith

/-- C76. For every least-squares solution, any numbers of periods and any group sizes: treatment coefficient plus period
effect is the treated-control gap of that post period. -/
theorem C76_gap (all post : List ℤ) (ref : ℤ) (d : ι → Bool) (t : ι → ℤ) (y : ι → K) (ha : all.Nodup) (hpo : post.Nodup)
    (hall : ∀ i, t i ∈ all) (hr : ref ∈ all) (b : Fin (columns all post ref 0).length → K)
    (h : Ols.IsOls (design d t (fun _ _ => (0 : K)) (columns all post ref 0)) y b) (p : ℤ) (hp : p ∈ post) (hpa : p ∈ all)
    (h1 : ∃ i, d i = true ∧ t i = p) (h0 : ∃ i, d i = false ∧ t i = p) :
    coefAt _ b .treat + coefAt _ b (.inter p) = gap y d t p := by
  have hg := cellFit_gap ha hpo ref b p
  rw [if_pos hp] at hg
  rw [← hg, cellFit_post ha hall hr h p hp hpa true (h1.imp (fun i hi => by simpa [arm] using hi)),
    cellFit_post ha hall hr h p hp hpa false (h0.imp (fun i hi => by simpa [arm] using hi))]
  rfl

/-- Rows of one arm in the pre periods. -/
def preArm (d : ι → Bool) (t : ι → ℤ) (post : List ℤ) (a : Bool) : Finset ι :=
  Finset.univ.filter (fun i => d i = a ∧ t i ∉ post)

def preMean (y : ι → K) (d : ι → Bool) (t : ι → ℤ) (post : List ℤ) (a : Bool) : K :=
  (∑ i ∈ preArm d t post a, y i) / ((preArm d t post a).card : K)

theorem preArm_sum (d : ι → Bool) (t : ι → ℤ) (all post : List ℤ) (ha : all.Nodup) (hall : ∀ i, t i ∈ all) (a : Bool)
    (f : ι → K) : ∑ i ∈ preArm d t post a, f i = ∑ p ∈ (all.filter (fun p => decide (p ∉ post))).toFinset, ∑ i ∈ arm d t a p, f i := by
  rw [← Finset.sum_fiberwise_of_maps_to (s := preArm d t post a) (t := (all.filter (fun p => decide (p ∉ post))).toFinset)
    (g := t)]
  · refine Finset.sum_congr rfl (fun p hp => ?_)
    rw [List.mem_toFinset, List.mem_filter] at hp
    congr 1
    ext i
    simp only [preArm, arm, Finset.mem_filter, Finset.mem_univ, true_and]
    constructor
    · rintro ⟨⟨h1, _⟩, h3⟩; exact ⟨h1, h3⟩
    · rintro ⟨h1, h2⟩; exact ⟨⟨h1, by rw [h2]; simpa using hp.2⟩, h2⟩
  · intro i hi
    rw [List.mem_toFinset, List.mem_filter]
    exact ⟨hall i, by simpa using (Finset.mem_filter.1 hi).2.2⟩

/-- C76. When the treated share is the same in every pre period, each period effect is the treated-control gap of the post
period minus the gap pooled over all pre periods. -/
theorem C76_period_effect (all post : List ℤ) (ref : ℤ) (d : ι → Bool) (t : ι → ℤ) (y : ι → K) (ha : all.Nodup)
    (hpo : post.Nodup) (hall : ∀ i, t i ∈ all) (hr : ref ∈ all) (b : Fin (columns all post ref 0).length → K)
    (h : Ols.IsOls (design d t (fun _ _ => (0 : K)) (columns all post ref 0)) y b) (p : ℤ) (hp : p ∈ post) (hpa : p ∈ all)
    (h1 : ∃ i, d i = true ∧ t i = p) (h0 : ∃ i, d i = false ∧ t i = p)
    (hpre1 : ∃ i, d i = true ∧ t i ∉ post) (hpre0 : ∃ i, d i = false ∧ t i ∉ post)
    (hshare : ∀ q ∈ all, q ∉ post →
      ((arm d t true q).card : K) * (preArm d t post false).card = (arm d t false q).card * (preArm d t post true).card) :
    coefAt _ b (.inter p) = gap y d t p - (preMean y d t post true - preMean y d t post false) := by
  have hgap := C76_gap all post ref d t y ha hpo hall hr b h p hp hpa h1 h0
  set r := Ols.resid (design d t (fun _ _ => (0 : K)) (columns all post ref 0)) y b with hrdef
  set Q := (all.filter (fun p => decide (p ∉ post))).toFinset with hQ
  have hQm : ∀ q ∈ Q, q ∈ all ∧ q ∉ post := by
    intro q hq
    rw [hQ, List.mem_toFinset, List.mem_filter] at hq
    exact ⟨hq.1, by simpa using hq.2⟩
  -- residuals of treated pre rows sum to zero
  have ht1 : ∑ i ∈ preArm d t post true, r i = 0 := by
    have htr := normal_eq h (mem_columns.2 (Or.inr (Or.inl rfl)))
    have hpost : ∑ i with (d i = true ∧ t i ∈ post), r i = 0 := by
      rw [← Finset.sum_fiberwise_of_maps_to (t := post.toFinset) (g := t)
        (fun i hi => by rw [List.mem_toFinset]; exact (Finset.mem_filter.1 hi).2.2)]
      apply Finset.sum_eq_zero
      intro q hq
      rw [List.mem_toFinset] at hq
      have := normal_eq h (mem_columns.2 (Or.inr (Or.inr (Or.inr ⟨q, hq, rfl⟩))))
      rw [Finset.filter_filter, Finset.sum_filter]
      refine Eq.trans ?_ this
      refine Finset.sum_congr rfl (fun i _ => ?_)
      by_cases h2 : t i = q
      · cases hd : d i <;> simp [colVal, h2, hq, hd, ← hrdef]
      · cases hd : d i <;> simp [colVal, h2]
    have hsum : ∑ i, colVal (d i) (t i) (fun _ => (0 : K)) .treat * r i =
        ∑ i ∈ preArm d t post true, r i + ∑ i with (d i = true ∧ t i ∈ post), r i := by
      simp only [preArm, Finset.sum_filter, ← Finset.sum_add_distrib]
      refine Finset.sum_congr rfl (fun i _ => ?_)
      cases d i <;> by_cases h : t i ∈ post <;> simp [colVal, h]
    rw [hsum, hpost, add_zero] at htr
    exact htr
  have ht0 : ∑ i ∈ preArm d t post false, r i = 0 := by
    have e : ∑ i ∈ preArm d t post true, r i + ∑ i ∈ preArm d t post false, r i = 0 := by
      rw [preArm_sum d t all post ha hall true, preArm_sum d t all post ha hall false, ← Finset.sum_add_distrib]
      apply Finset.sum_eq_zero
      intro q hq
      rw [← sum_period_split d t q]
      exact resid_period ha hall hr h q (hQm q hq).1
    rw [ht1, zero_add] at e
    exact e
  rw [preArm_sum d t all post ha hall true] at ht1
  rw [preArm_sum d t all post ha hall false] at ht0
  simp only [hrdef, resid_arm_sum, Finset.sum_sub_distrib] at ht1 ht0
  rw [← preArm_sum d t all post ha hall true] at ht1
  rw [← preArm_sum d t all post ha hall false] at ht0
  -- fitted gap in pre periods is the treatment coefficient
  set β := coefAt _ b .treat with hβ
  have hfit : ∀ q ∈ Q, cellFit _ b true q = cellFit _ b false q + β := by
    intro q hq
    have := cellFit_gap ha hpo ref b q
    rw [if_neg (hQm q hq).2, add_zero] at this
    linarith
  set L : K := ∑ q ∈ Q, ((arm d t false q).card : K) * cellFit _ b false q with hL
  have n1 : (((preArm d t post true).card : ℕ) : K) = ∑ q ∈ Q, ((arm d t true q).card : K) := by
    have := preArm_sum d t all post ha hall true (fun _ => (1 : K))
    rw [← hQ] at this
    simpa using this
  have n0 : (((preArm d t post false).card : ℕ) : K) = ∑ q ∈ Q, ((arm d t false q).card : K) := by
    have := preArm_sum d t all post ha hall false (fun _ => (1 : K))
    rw [← hQ] at this
    simpa using this
  have hN1 : ((preArm d t post true).card : K) ≠ 0 := by
    obtain ⟨i, hi⟩ := hpre1
    have : 0 < (preArm d t post true).card := Finset.card_pos.2 ⟨i, by simpa [preArm] using hi⟩
    exact_mod_cast this.ne'
  have hN0 : ((preArm d t post false).card : K) ≠ 0 := by
    obtain ⟨i, hi⟩ := hpre0
    have : 0 < (preArm d t post false).card := Finset.card_pos.2 ⟨i, by simpa [preArm] using hi⟩
    exact_mod_cast this.ne'
  set N1 := ((preArm d t post true).card : K) with hN1d
  set N0 := ((preArm d t post false).card : K) with hN0d
  have e0 : ∑ i ∈ preArm d t post false, y i = L := by linarith [ht0]
  have e1 : (∑ i ∈ preArm d t post true, y i) * N0 = (L + N0 * β) * N1 := by
    have : ∑ i ∈ preArm d t post true, y i = ∑ q ∈ Q, ((arm d t true q).card : K) * cellFit _ b true q := by linarith [ht1]
    rw [this, Finset.sum_mul]
    have step : ∀ q ∈ Q, ((arm d t true q).card : K) * cellFit _ b true q * N0 =
        ((arm d t false q).card : K) * cellFit _ b false q * N1 + (arm d t false q).card * β * N1 := by
      intro q hq
      rw [hfit q hq]
      have := hshare q (hQm q hq).1 (hQm q hq).2
      have e : ((arm d t true q).card : K) * (cellFit _ b false q + β) * N0 =
          ((arm d t true q).card * N0) * (cellFit _ b false q + β) := by ring
      rw [e, this]
      ring
    rw [Finset.sum_congr rfl step, Finset.sum_add_distrib, ← Finset.sum_mul, ← Finset.sum_mul, ← Finset.sum_mul, n0]
    ring
  have hb : β = preMean y d t post true - preMean y d t post false := by
    unfold preMean
    rw [e0]
    have : (∑ i ∈ preArm d t post true, y i) = (L + N0 * β) * N1 / N0 := by
      rw [eq_div_iff hN0]; exact e1
    rw [this, ← hN1d, ← hN0d]
    field_simp
    ring
  rw [← hb]
  linarith

/-- C76. Outcomes that follow group effect plus period effect plus a period-specific treatment effect: the reported period
effects are the true ones, for any group sizes. -/
theorem C76_recovers (all post : List ℤ) (ref : ℤ) (d : ι → Bool) (t : ι → ℤ) (y : ι → K) (ha : all.Nodup) (hpo : post.Nodup)
    (hall : ∀ i, t i ∈ all) (hr : ref ∈ all) (b : Fin (columns all post ref 0).length → K)
    (h : Ols.IsOls (design d t (fun _ _ => (0 : K)) (columns all post ref 0)) y b)
    (g : Bool → K) (l τ : ℤ → K)
    (hy : ∀ i, y i = g (d i) + l (t i) + (if d i = true ∧ t i ∈ post then τ (t i) else 0))
    (hpre : ∃ q ∉ post, (∃ i, d i = true ∧ t i = q) ∧ ∃ i, d i = false ∧ t i = q)
    (p : ℤ) (hp : p ∈ post) (hpa : p ∈ all) (h1 : ∃ i, d i = true ∧ t i = p) (h0 : ∃ i, d i = false ∧ t i = p) :
    coefAt _ b (.inter p) = τ p := by
  have hn := columns_nodup ha hpo ref 0
  -- an exact solution
  let c : Col → K := fun c => match c with
    | .const => g false + l ref
    | .treat => g true - g false
    | .period q => l q - l ref
    | .inter q => τ q
    | .extra _ => 0
  let b0 : Fin (columns all post ref 0).length → K := fun j => c (columns all post ref 0)[j]
  have hcoef : ∀ k ∈ columns all post ref 0, coefAt _ b0 k = c k := by
    intro k hk
    unfold coefAt
    have hlt := List.idxOf_lt_length_iff.2 hk
    rw [dif_pos hlt]
    show c _ = c k
    congr 1
    exact List.getElem_idxOf hlt
  have hfit0 : ∀ a, ∀ q ∈ all, cellFit _ b0 a q = g a + l q + (if a = true ∧ q ∈ post then τ q else 0) := by
    intro a q hq
    have hpart : ∀ S : List Col, S.Nodup → (∀ k ∈ S, k ∈ columns all post ref 0) →
        (∀ k ∈ columns all post ref 0, k ∉ S → colVal a q (fun _ => (0 : K)) k = 0) →
        cellFit _ b0 a q = (S.map (fun k => colVal a q (fun _ => (0 : K)) k * c k)).sum := by
      intro S hS hsub hz
      unfold cellFit
      rw [sum_index hn b0 (colVal a q (fun _ => 0)) S hS hsub hz]
      congr 1
      apply List.map_congr_left
      intro k hk
      rw [hcoef k (hsub k hk)]
    have mc : Col.const ∈ columns all post ref 0 := mem_columns.2 (Or.inl rfl)
    have mt : Col.treat ∈ columns all post ref 0 := mem_columns.2 (Or.inr (Or.inl rfl))
    have mp : q ≠ ref → Col.period q ∈ columns all post ref 0 := fun h => mem_columns.2 (Or.inr (Or.inr (Or.inl ⟨q, hq, h, rfl⟩)))
    have mi : q ∈ post → Col.inter q ∈ columns all post ref 0 := fun h => mem_columns.2 (Or.inr (Or.inr (Or.inr ⟨q, h, rfl⟩)))
    by_cases hqr : q = ref <;> by_cases hqp : q ∈ post
    · rw [hpart [.const, .treat, .inter q] (by simp) (by simp [mc, mt, mi hqp])]
      · cases a <;> simp [colVal, c, hqr, hqp, hqr ▸ hqp] <;> ring
      · intro k hk hkS
        rcases mem_columns.1 hk with rfl | rfl | ⟨s, _, hs, rfl⟩ | ⟨s, _, rfl⟩
        · simp at hkS
        · simp at hkS
        · simp [colVal, hqr, Ne.symm hs]
        · simp at hkS
          simp [colVal]
          exact fun h => absurd h.symm hkS
    · rw [hpart [.const, .treat] (by simp) (by simp [mc, mt])]
      · cases a <;> simp [colVal, c, hqr, hqr ▸ hqp] <;> ring
      · intro k hk hkS
        rcases mem_columns.1 hk with rfl | rfl | ⟨s, _, hs, rfl⟩ | ⟨s, hs, rfl⟩
        · simp at hkS
        · simp at hkS
        · simp [colVal, hqr, Ne.symm hs]
        · simp [colVal]
          rintro rfl
          exact absurd hs hqp
    · rw [hpart [.const, .treat, .period q, .inter q] (by simp) (by simp [mc, mt, mp hqr, mi hqp])]
      · cases a <;> simp [colVal, c, hqp] <;> ring
      · intro k hk hkS
        rcases mem_columns.1 hk with rfl | rfl | ⟨s, _, hs, rfl⟩ | ⟨s, _, rfl⟩
        · simp at hkS
        · simp at hkS
        · simp at hkS
          simp [colVal]
          exact fun h => hkS h.symm
        · simp at hkS
          simp [colVal]
          exact fun h => absurd h.symm hkS
    · rw [hpart [.const, .treat, .period q] (by simp) (by simp [mc, mt, mp hqr])]
      · cases a <;> simp [colVal, c, hqp] <;> ring
      · intro k hk hkS
        rcases mem_columns.1 hk with rfl | rfl | ⟨s, _, hs, rfl⟩ | ⟨s, hs, rfl⟩
        · simp at hkS
        · simp at hkS
        · simp at hkS
          simp [colVal]
          exact fun h => hkS h.symm
        · simp [colVal]
          rintro rfl
          exact absurd hs hqp
  -- zero residuals for every solution
  have hres0 : ∀ i, y i - Ols.fitted (design d t (fun _ _ => (0 : K)) (columns all post ref 0)) b0 i = 0 := by
    intro i
    rw [fitted_cell, hfit0 _ _ (hall i), hy i, sub_self]
  have hres : ∀ i, y i = cellFit _ b (d i) (t i) := by
    have hort : ∑ i, (Ols.resid (design d t (fun _ _ => (0 : K)) (columns all post ref 0)) y b i) ^ 2 = 0 := by
      have hmin : Ols.rss (design d t (fun _ _ => (0 : K)) (columns all post ref 0)) y b ≤
          Ols.rss (design d t (fun _ _ => (0 : K)) (columns all post ref 0)) y b0 := (Ols.C11_iff_minimises _ _ _).1 h b0
      have hz : Ols.rss (design d t (fun _ _ => (0 : K)) (columns all post ref 0)) y b0 = 0 := by
        unfold Ols.rss Ols.resid
        simp only [hres0]
        simp
      rw [hz] at hmin
      exact le_antisymm hmin (Finset.sum_nonneg (fun i _ => sq_nonneg _))
    intro i
    have := (Finset.sum_eq_zero_iff_of_nonneg (fun i _ => sq_nonneg _)).1 hort i (Finset.mem_univ _)
    have := pow_eq_zero_iff (two_ne_zero) |>.1 this
    unfold Ols.resid at this
    rw [fitted_cell] at this
    linarith
  have hg1 := cellFit_gap ha hpo ref b p
  rw [if_pos hp] at hg1
  obtain ⟨q, hq, ⟨i1, hd1, hti1⟩, ⟨i0, hd0, hti0⟩⟩ := hpre
  have hg2 := cellFit_gap ha hpo ref b q
  rw [if_neg hq] at hg2
  obtain ⟨j1, hj1, htj1⟩ := h1
  obtain ⟨j0, hj0, htj0⟩ := h0
  have a1 := hres i1; have a0 := hres i0; have c1 := hres j1; have c0 := hres j0
  rw [hy, hd1, hti1] at a1
  rw [hy, hd0, hti0] at a0
  rw [hy, hj1, htj1] at c1
  rw [hy, hj0, htj0] at c0
  simp [hq] at a1 a0
  simp [hp] at c1 c0
  linarith

end ols

/-! ### Examples -/

example : classify [3, 1, 2, 4, 1] none none = .ok ([1, 2], [3, 4], 1) ∧
    classify [3, 1, 2, 4, 1] (some [4]) (some 2) = .ok ([1, 2, 3], [4], 2) ∧
    classify [1, 2] (some [5]) none = .error .postNotFound ∧ classify [1, 2] (some [1, 2]) none = .error .noPre := by
  decide

example : columns [1, 2, 3] [2, 3] 1 1 =
    [.const, .treat, .period 2, .period 3, .inter 2, .inter 3, .extra 0] ∧ interIndex [1, 2, 3] [2, 3] 1 3 = 5 := by decide

/-- Six rows (two arms, three periods, effects 5 and 7): hypotheses of the recovery theorem. -/
example : (∀ i : Fin 6, (![1, 3, 9, 11, 17, 24] : Fin 6 → ℚ) i =
      (if (![false, true, false, true, false, true] : Fin 6 → Bool) i then 2 else 0)
      + (![1, 9, 17] : Fin 3 → ℚ) (![0, 0, 1, 1, 2, 2] i)
      + (if (![false, true, false, true, false, true] : Fin 6 → Bool) i = true ∧
          (![1, 1, 2, 2, 3, 3] : Fin 6 → ℤ) i ∈ [3] then 5 else 0)) := by decide +kernel

end DiffDiff.MultiPeriod
