/-
Property C130: what the dataset loaders derive from a downloaded file, and what the constructed replacement data satisfy for every generator.
-/
import Verif.Datasets
import Mathlib.Data.Rat.Floor
import Mathlib.Tactic.Linarith
import Mathlib.Tactic.NormNum
import Mathlib.Algebra.Order.BigOperators.Group.Finset

set_option linter.unusedSectionVars false
set_option maxRecDepth 20000

namespace DiffDiff.Datasets

variable {K : Type*} [Field K] [LinearOrder K] [IsStrictOrderedRing K] {σ : Type*}

theorem ind_one (b : Bool) : (ind b : K) = 1 ↔ b = true := by cases b <;> simp [ind]

theorem inEffect_one (ft year : ℤ) : (inEffect ft year : K) = 1 ↔ 0 < ft ∧ ft ≤ year := by
  rw [inEffect, ind_one]; simp

theorem inEffect_binary (ft year : ℤ) : (inEffect ft year : K) = 0 ∨ (inEffect ft year : K) = 1 := by
  unfold inEffect ind
  split_ifs
  · exact .inr rfl
  · exact .inl rfl

/-! ### Derived columns -/

/-- C130. From a file with the New Jersey indicator and no state or treatment column, the loader makes treatment 1 exactly in the rows of New Jersey, 0 in all others, and the
change in employment the difference of the two columns, missing when one of them is. -/
theorem C130_card_krueger (x : CkIn K) (nj pre post : ℕ → Option K) (h1 : x.state = none) (h2 : x.nj = some nj) (h3 : x.treated = none) (h4 : x.empPre = some pre)
    (h5 : x.empPost = some post) (h6 : x.empChange = none) :
    ∃ o, loadCk x = some o ∧ (∀ i, (o.treated i = some 1 ↔ nj i = some 1) ∧ (o.treated i = some 0 ↔ nj i ≠ some 1)) ∧
      ∃ s c, o.state = some s ∧ o.empChange = some c ∧ (∀ i, (s i = "NJ" ↔ nj i = some 1) ∧ (s i = "PA" ↔ nj i ≠ some 1)) ∧
        (∀ i a b, pre i = some a → post i = some b → c i = some (b - a)) ∧ (∀ i, (pre i = none ∨ post i = none) → c i = none) := by
  refine ⟨_, by simp only [loadCk, ckState, h1, h2, h3, h4, h5, h6, Option.map_some]; rfl, ?_, _, _, rfl, rfl, ?_, ?_, ?_⟩
  · intro i
    by_cases h : nj i = some 1 <;> simp [h, ind]
  · intro i
    by_cases h : nj i = some 1 <;> simp [h]
  · intro i a b ha hb; simp [ha, hb]
  · rintro i (h | h) <;> simp [h]

/-- C130. Without a treatment column the loader needs the state or the New Jersey indicator; otherwise it fails. -/
theorem C130_card_krueger_fails (x : CkIn K) : loadCk x = none ↔ x.treated = none ∧ x.state = none ∧ x.nj = none := by
  cases h1 : x.treated <;> cases h2 : x.state <;> cases h3 : x.nj <;> simp [loadCk, ckState, h1, h2, h3]

/-- C130. The alias `cohort` equals `first_treat` in every panel that comes without its own `cohort` column. -/
theorem C130_cohort (x : CastleIn K) (y : DivorceIn K) (dotted ft : Option (ℕ → ℤ)) (hx : x.cohort = none) (hy : y.cohort = none) :
    (loadCastle x).cohort = (loadCastle x).firstTreat ∧ (loadDivorce y).cohort = (loadDivorce y).firstTreat ∧ (loadMp dotted ft none).2 = (loadMp dotted ft none).1 := by
  simp [loadCastle, loadDivorce, loadMp, hx, hy]

/-- C130. From a Castle Doctrine file with effective years and no treatment column, the year of adoption is the effective year (0 if missing), and treatment is 1 exactly from that
year on. -/
theorem C130_castle (x : CastleIn K) (e : ℕ → Option ℤ) (h1 : x.cdl = none) (h2 : x.treated = none) (h3 : x.effyear = some e) (h4 : x.firstTreat = none) :
    ∃ f t, (loadCastle x).firstTreat = some f ∧ (loadCastle x).treated = some t ∧
      ∀ i, (e i = none → f i = 0 ∧ t i = some 0) ∧ (∀ y, e i = some y → 0 < y → f i = y ∧ (t i = some 1 ↔ y ≤ x.year i) ∧ (t i = some 0 ↔ x.year i < y)) := by
  refine ⟨fun i => (e i).getD 0, fun i => some (inEffect ((e i).getD 0) (x.year i)), by simp [loadCastle, castleFirst, h3, h4],
    by simp [loadCastle, castleFirst, h1, h2, h3, h4], fun i => ⟨fun h => ?_, fun y h hy => ?_⟩⟩
  · simp [h, inEffect, ind]
  · by_cases hle : y ≤ x.year i
    · simp [h, inEffect, ind, hy, hle]
    · simp [h, inEffect, ind, hle, not_le.1 hle]

/-- C130 is false of the treatment column of a Castle Doctrine file that has the share of the year the law was in force (`cdl`): the share is passed through under the name
`treated`, which is documented as 0 or 1. -/
theorem C130_castle_refuted (c : ℕ → Option K) (year : ℕ → ℤ) (e : ℕ → Option ℤ) (i : ℕ) (h : c i = some (1 / 2)) :
    ∃ t v, (loadCastle { n := i + 1, year := year, cdl := some c, treated := none, effyear := some e, firstTreat := none, cohort := none }).treated = some t ∧
      t i = some v ∧ v ≠ 0 ∧ v ≠ 1 := by
  refine ⟨c, 1 / 2, rfl, h, by norm_num, by norm_num⟩

/-- Rows of the data are numbered below `n`. -/
theorem mem_onYears (x : DivorceIn K) (u : ℕ → Option K) (s : String) (y : ℤ) :
    y ∈ onYears x u s ↔ ∃ j < x.n, x.state j = s ∧ u j = some 1 ∧ x.year j = y := by
  simp [onYears, and_assoc]

/-- C130. From a divorce file with a nonnegative indicator of unilateral divorce, the year of adoption of a row is the smallest year in which its state has the indicator 1, or
0 if there is none. -/
theorem C130_divorce_first (x : DivorceIn K) (u : ℕ → Option K) (hu : x.unilateral = some u) (hf : x.firstTreat = none) (h0 : ∀ i < x.n, ∀ v, u i = some v → 0 ≤ v) :
    ∃ f, (loadDivorce x).firstTreat = some f ∧ ∀ i,
      ((∃ j < x.n, x.state j = x.state i ∧ u j = some 1) →
        (∃ j < x.n, x.state j = x.state i ∧ u j = some 1 ∧ x.year j = f i) ∧ ∀ j < x.n, x.state j = x.state i → u j = some 1 → f i ≤ x.year j) ∧
      ((¬ ∃ j < x.n, x.state j = x.state i ∧ u j = some 1) → f i = 0) := by
  refine ⟨divorceFirst x u, by simp [loadDivorce, hu, hf], fun i => ⟨?_, ?_⟩⟩
  · rintro ⟨j, hj, hs, hj1⟩
    have hpos : 0 < ∑ j ∈ (Finset.range x.n).filter (fun j => x.state j = x.state i), (u j).getD 0 := by
      refine Finset.sum_pos' (fun k hk => ?_) ⟨j, by simp [hj, hs], by simp [hj1]⟩
      have hk' := (Finset.mem_filter.1 hk).1
      cases hk1 : u k with
      | none => exact le_rfl
      | some v => exact h0 k (Finset.mem_range.1 hk') v hk1
    have hne : (onYears x u (x.state i)).Nonempty := ⟨x.year j, (mem_onYears x u _ _).2 ⟨j, hj, hs, hj1, rfl⟩⟩
    have hd : divorceFirst x u i = (onYears x u (x.state i)).min' hne := by
      unfold divorceFirst; rw [if_pos hpos, dif_pos hne]
    rw [hd]
    refine ⟨(mem_onYears x u _ _).1 (Finset.min'_mem _ hne), fun k hk hks hk1 => ?_⟩
    exact Finset.min'_le _ _ ((mem_onYears x u _ _).2 ⟨k, hk, hks, hk1, rfl⟩)
  · intro hno
    have hne : ¬ (onYears x u (x.state i)).Nonempty := by
      rintro ⟨y, hy⟩
      obtain ⟨j, hj, hs, hj1, -⟩ := (mem_onYears x u _ _).1 hy
      exact hno ⟨j, hj, hs, hj1⟩
    unfold divorceFirst
    rw [dif_neg hne, ite_self]

/-- C130. Columns already present in a divorce file are kept; a file with years of adoption but neither a treatment column nor the indicator is treated from the
year of adoption on; a file with none of the three stays without treatment column. -/
theorem C130_divorce_given (x : DivorceIn K) :
    (∀ f, x.firstTreat = some f → (loadDivorce x).firstTreat = some f) ∧ (∀ c, x.cohort = some c → (loadDivorce x).cohort = some c) ∧
    (∀ t, x.treated = some t → (loadDivorce x).treated = some t) ∧
    (∀ f, x.firstTreat = some f → x.treated = none → x.unilateral = none →
      ∃ t, (loadDivorce x).treated = some t ∧ ∀ i, (t i = some 1 ↔ 0 < f i ∧ f i ≤ x.year i) ∧ (t i = some 0 ↔ ¬ (0 < f i ∧ f i ≤ x.year i))) ∧
    (x.firstTreat = none → x.treated = none → x.unilateral = none → (loadDivorce x).treated = none ∧ (loadDivorce x).firstTreat = none) := by
  refine ⟨fun f h => by simp [loadDivorce, h], fun c h => by simp [loadDivorce, h], fun t h => by simp [loadDivorce, h], ?_, ?_⟩
  · intro f h1 h2 h3
    refine ⟨fun i => some (inEffect (f i) (x.year i)), by simp [loadDivorce, h1, h2, h3], fun i => ?_⟩
    by_cases h : 0 < f i ∧ f i ≤ x.year i
    · simp [inEffect, ind, h]
    · simp [inEffect, ind, h]
  · intro h1 h2 h3
    simp [loadDivorce, h1, h2, h3]

/-- C130. The two descriptions of treatment in a divorce file, the column `treated` and "adopted, and the year is not before the year of adoption", agree in every row exactly
when no state repeals: the indicator, once 1, stays 1 in all later years of that state. -/
theorem C130_divorce_consistent (x : DivorceIn K) (u : ℕ → Option K) (hu : x.unilateral = some u) (hf : x.firstTreat = none) (ht : x.treated = none)
    (h0 : ∀ i < x.n, ∀ v, u i = some v → 0 ≤ v) (hy : ∀ i < x.n, 0 < x.year i) :
    ∃ f t, (loadDivorce x).firstTreat = some f ∧ (loadDivorce x).treated = some t ∧
      ((∀ i < x.n, t i = some 1 ↔ 0 < f i ∧ f i ≤ x.year i) ↔
        ∀ i < x.n, ∀ j < x.n, x.state i = x.state j → u i = some 1 → x.year i ≤ x.year j → u j = some 1) := by
  obtain ⟨f, hf1, hf2⟩ := C130_divorce_first x u hu hf h0
  refine ⟨f, u, hf1, by simp [loadDivorce, hu, ht], ?_, ?_⟩
  · intro h i hi j hj hs hi1 hle
    obtain ⟨h1, h2⟩ := (hf2 j).1 ⟨i, hi, hs, hi1⟩
    have hfi := h2 i hi hs hi1
    obtain ⟨k, hk, -, -, hkf⟩ := h1
    exact (h j hj).2 ⟨hkf ▸ hy k hk, hfi.trans hle⟩
  · intro h i hi
    constructor
    · intro hi1
      obtain ⟨⟨k, hk, -, -, hkf⟩, h2⟩ := (hf2 i).1 ⟨i, hi, rfl, hi1⟩
      exact ⟨hkf ▸ hy k hk, h2 i hi rfl hi1⟩
    · rintro ⟨h1, h2⟩
      by_cases hex : ∃ j < x.n, x.state j = x.state i ∧ u j = some 1
      · obtain ⟨⟨k, hk, hks, hk1, hkf⟩, -⟩ := (hf2 i).1 hex
        exact h k hk i hi hks hk1 (hkf ▸ h2)
      · rw [(hf2 i).2 hex] at h1; exact absurd h1 (lt_irrefl _)

/-! ### Loops -/

theorem loop_length {A B : Type*} (f : A → σ → B × σ) (l : List A) (s : σ) : (loop f l s).1.length = l.length := by
  induction l generalizing s with
  | nil => rfl
  | cons a l ih => simp [loop, ih]

theorem loop_map {A B C : Type*} (f : A → σ → B × σ) (k : B → C) (k' : A → C) (h : ∀ a s, k (f a s).1 = k' a) (l : List A) (s : σ) :
    (loop f l s).1.map k = l.map k' := by
  induction l generalizing s with
  | nil => rfl
  | cons a l ih => simp [loop, ih, h]

theorem loop_mem {A B : Type*} (f : A → σ → B × σ) (l : List A) (s : σ) (b : B) (h : b ∈ (loop f l s).1) : ∃ a ∈ l, ∃ s', b = (f a s').1 := by
  induction l generalizing s with
  | nil => cases h
  | cons a l ih =>
    rcases List.mem_cons.1 h with h | h
    · exact ⟨a, List.mem_cons_self, s, h⟩
    · obtain ⟨a', ha', s', hs⟩ := ih _ h
      exact ⟨a', List.mem_cons_of_mem _ ha', s', hs⟩

variable (g : Gen σ K) (rnd : ℕ → K → K) (caller : σ)

/-- What is assumed of `round`: it keeps order and leaves 0 and 1 alone. -/
structure RoundLike (rnd : ℕ → K → K) : Prop where
  mono : ∀ n, Monotone (rnd n)
  zero : ∀ n, rnd n 0 = 0
  one : ∀ n, rnd n 1 = 1

theorem RoundLike.nonneg {rnd : ℕ → K → K} (h : RoundLike rnd) (n : ℕ) (x : K) : 0 ≤ rnd n (max 0 x) := by
  have := h.mono n (le_max_left 0 x)
  rwa [h.zero] at this

theorem RoundLike.unit {rnd : ℕ → K → K} (h : RoundLike rnd) (n : ℕ) (x : K) : 0 ≤ rnd n (min 1 (max 0 x)) ∧ rnd n (min 1 (max 0 x)) ≤ 1 := by
  have h1 := h.mono n (le_min zero_le_one (le_max_left 0 x))
  have h2 := h.mono n (min_le_left 1 (max 0 x))
  rw [h.zero] at h1
  rw [h.one] at h2
  exact ⟨h1, h2⟩

/-! ### Constructed data -/

/-- C130. Whatever the generator returns, the constructed Card-Krueger data have 231 stores in New Jersey and 79 in Pennsylvania, numbered 1 to 310 in order; treatment is 1
exactly in New Jersey; employment is never negative; the change is the difference of the two columns. -/
theorem C130_construct_card_krueger (hr : RoundLike rnd) :
    (constructCk g rnd caller).1.map (·.storeId) = (List.range 310).map (· + 1) ∧
    (constructCk g rnd caller).1.map (·.state) = List.replicate 231 "NJ" ++ List.replicate 79 "PA" ∧
    ∀ r ∈ (constructCk g rnd caller).1, (r.treated = 1 ↔ r.state = "NJ") ∧ (r.treated = 0 ↔ r.state = "PA") ∧ 0 ≤ r.empPre ∧ 0 ≤ r.empPost ∧ r.empChange = r.empPost - r.empPre := by
  have hid : ∀ st a b c d e f h (x : ℕ × String) s, (store g rnd st a b c d e f h x s).1.storeId = x.1 := fun _ _ _ _ _ _ _ _ _ _ => rfl
  have hst : ∀ st a b c d e f h (x : ℕ × String) s, (store g rnd st a b c d e f h x s).1.state = st := fun _ _ _ _ _ _ _ _ _ _ => rfl
  have hrow : ∀ st a b c d e f h (x : ℕ × String) s, (st = "NJ" ∨ st = "PA") →
      ((store g rnd st a b c d e f h x s).1.treated = 1 ↔ (store g rnd st a b c d e f h x s).1.state = "NJ") ∧
      ((store g rnd st a b c d e f h x s).1.treated = 0 ↔ (store g rnd st a b c d e f h x s).1.state = "PA") ∧
      0 ≤ (store g rnd st a b c d e f h x s).1.empPre ∧ 0 ≤ (store g rnd st a b c d e f h x s).1.empPost ∧
      (store g rnd st a b c d e f h x s).1.empChange = (store g rnd st a b c d e f h x s).1.empPost - (store g rnd st a b c d e f h x s).1.empPre := by
    intro st a b c d e f h x s hs
    have h1 : 0 ≤ (store g rnd st a b c d e f h x s).1.empPre := hr.nonneg 1 _
    have h2 : 0 ≤ (store g rnd st a b c d e f h x s).1.empPost := hr.nonneg 1 _
    refine ⟨?_, ?_, h1, h2, rfl⟩
    · show ((ind (st == "NJ") : K) = 1) ↔ st = "NJ"
      rw [ind_one]; simp
    · show ((ind (st == "NJ") : K) = 0) ↔ st = "PA"
      rcases hs with rfl | rfl <;> simp [ind]
  refine ⟨?_, ?_, ?_⟩
  · simp only [constructCk, List.map_append]
    rw [loop_map _ _ (fun x => x.1) (fun a s => hid _ _ _ _ _ _ _ _ _ _), loop_map _ _ (fun x => x.1) (fun a s => hid _ _ _ _ _ _ _ _ _ _)]
    decide +kernel
  · simp only [constructCk, List.map_append]
    rw [loop_map _ _ (fun _ => "NJ") (fun a s => hst _ _ _ _ _ _ _ _ _ _), loop_map _ _ (fun _ => "PA") (fun a s => hst _ _ _ _ _ _ _ _ _ _), List.map_const', List.map_const']
    have h1 : njStores.length = 231 := by decide +kernel
    have h2 : paStores.length = 79 := by decide +kernel
    rw [h1, h2]
  · intro r hr'
    simp only [constructCk, List.mem_append] at hr'
    rcases hr' with h | h
    · obtain ⟨a, -, s, rfl⟩ := loop_mem _ _ _ _ h
      exact hrow _ _ _ _ _ _ _ _ _ _ (.inl rfl)
    · obtain ⟨a, -, s, rfl⟩ := loop_mem _ _ _ _ h
      exact hrow _ _ _ _ _ _ _ _ _ _ (.inr rfl)

theorem flatten_map {A B C : Type*} (f : A → σ → List B × σ) (k : B → C) (k' : A → List C) (h : ∀ a s, (f a s).1.map k = k' a) (l : List A) (s : σ) :
    (loop f l s).1.flatten.map k = l.flatMap k' := by
  rw [List.map_flatten, loop_map f (List.map k) k' h, List.flatMap_def]

/-- C130. Whatever the generator returns, the constructed Castle Doctrine data are a balanced panel: each of 49 states in each of the years 2000 to 2010 exactly once. The year of
adoption is fixed within a state and is 0 or between 2005 and 2010; treatment is 1 exactly from the year of adoption on; the cohort is the year of adoption; homicide rates are
never negative. -/
theorem C130_construct_castle (hr : RoundLike rnd) :
    (constructCastle g rnd caller).1.map (fun r => (r.state, r.firstTreat, r.year)) =
      castleStates.flatMap (fun p => (span 2000 11).map (fun y => (p.1, p.2, y))) ∧
    castleStates.length = 49 ∧ (castleStates.map (·.1)).Nodup ∧
    ∀ r ∈ (constructCastle g rnd caller).1, (r.firstTreat = 0 ∨ (2005 ≤ r.firstTreat ∧ r.firstTreat ≤ 2010)) ∧ (r.treated = 1 ↔ 0 < r.firstTreat ∧ r.firstTreat ≤ r.year) ∧
      (r.treated = 0 ∨ r.treated = 1) ∧ r.cohort = r.firstTreat ∧ 0 ≤ r.homicide := by
  refine ⟨?_, by decide +kernel, by decide +kernel, ?_⟩
  · simp only [constructCastle]
    refine flatten_map _ _ _ (fun p s => ?_) _ _
    simp only [castleState]
    exact loop_map _ _ (fun y => (p.1, p.2, y)) (fun y s => rfl) _ _
  · intro r hr'
    simp only [constructCastle, List.mem_flatten] at hr'
    obtain ⟨l, hl, hrl⟩ := hr'
    obtain ⟨p, hp, s, rfl⟩ := loop_mem _ _ _ _ hl
    simp only [castleState] at hrl
    obtain ⟨y, hy, s', rfl⟩ := loop_mem _ _ _ _ hrl
    have hall : ∀ p ∈ castleStates, p.2 = 0 ∨ (2005 ≤ p.2 ∧ p.2 ≤ 2010) := by decide +kernel
    refine ⟨hall p hp, inEffect_one _ _, inEffect_binary _ _, rfl, ?_⟩
    exact hr.nonneg 2 _

/-- C130. The constructed divorce data, likewise: each of 41 states in each of the years 1968 to 1988 exactly once; year of adoption fixed within a state and 0 or between 1968 and
1988; treatment, cohort as above; divorce and suicide rates are never negative and labour force participation lies between 0 and 1. -/
theorem C130_construct_divorce (hr : RoundLike rnd) :
    (constructDivorce g rnd caller).1.map (fun r => (r.state, r.firstTreat, r.year)) =
      divorceStates.flatMap (fun p => (span 1968 21).map (fun y => (p.1, p.2, y))) ∧
    divorceStates.length = 41 ∧ (divorceStates.map (·.1)).Nodup ∧
    ∀ r ∈ (constructDivorce g rnd caller).1, (r.firstTreat = 0 ∨ (1968 ≤ r.firstTreat ∧ r.firstTreat ≤ 1988)) ∧ (r.treated = 1 ↔ 0 < r.firstTreat ∧ r.firstTreat ≤ r.year) ∧
      (r.treated = 0 ∨ r.treated = 1) ∧ r.cohort = r.firstTreat ∧ 0 ≤ r.divorce ∧ 0 ≤ r.suicide ∧ 0 ≤ r.lfp ∧ r.lfp ≤ 1 := by
  have hall : ∀ p ∈ divorceStates, p.2 = 0 ∨ (1968 ≤ p.2 ∧ p.2 ≤ 1988) := by decide +kernel
  have hft : ∀ p ∈ divorceStates, (if 1968 ≤ p.2 then p.2 else 0) = p.2 := by
    intro p hp
    rcases hall p hp with h | h
    · rw [h]; rfl
    · rw [if_pos h.1]
  refine ⟨?_, by decide +kernel, by decide +kernel, ?_⟩
  · simp only [constructDivorce]
    refine Eq.trans (flatten_map _ _ (fun p : String × ℤ => (span 1968 21).map (fun y => (p.1, (if 1968 ≤ p.2 then p.2 else 0), y))) (fun p s => ?_) _ _) ?_
    · simp only [divorceState]
      exact loop_map _ _ (fun y => (p.1, (if 1968 ≤ p.2 then p.2 else 0), y)) (fun y s => rfl) _ _
    · simp only [List.flatMap_def]
      exact congrArg List.flatten (List.map_congr_left fun p hp => by rw [hft p hp])
  · intro r hr'
    simp only [constructDivorce, List.mem_flatten] at hr'
    obtain ⟨l, hl, hrl⟩ := hr'
    obtain ⟨p, hp, s, rfl⟩ := loop_mem _ _ _ _ hl
    simp only [divorceState] at hrl
    obtain ⟨y, hy, s', rfl⟩ := loop_mem _ _ _ _ hrl
    refine ⟨?_, inEffect_one _ _, inEffect_binary _ _, rfl, hr.nonneg 2 _, hr.nonneg 2 _, ?_, ?_⟩
    · show (if 1968 ≤ p.2 then p.2 else 0) = 0 ∨ (1968 ≤ (if 1968 ≤ p.2 then p.2 else 0) ∧ (if 1968 ≤ p.2 then p.2 else 0) ≤ 1988)
      rw [hft p hp]; exact hall p hp
    · exact (hr.unit 3 _).1
    · exact (hr.unit 3 _).2

/-- C130. The constructed mpdta data are a balanced panel: counties 1 to 500 in each of the years 2003 to 2007 exactly once; the year of treatment is fixed within a county and
drawn from 0, 2004, 2006, 2007; `treat` is 1 exactly for counties ever treated. -/
theorem C130_construct_mpdta (hc : ∀ s, (g.choice [0, 2004, 2006, 2007] [dec 4 10, dec 2 10, dec 2 10, dec 2 10] s).1 ∈ ([0, 2004, 2006, 2007] : List ℤ)) :
    (constructMp g rnd caller).1.map (fun r => (r.county, r.year)) = ((List.range 500).map (· + 1)).flatMap (fun c => (span 2003 5).map (fun y => (c, y))) ∧
    (∀ r ∈ (constructMp g rnd caller).1, ∀ r' ∈ (constructMp g rnd caller).1, r.county = r'.county → r.firstTreat = r'.firstTreat) ∧
    ∀ r ∈ (constructMp g rnd caller).1, r.firstTreat ∈ ([0, 2004, 2006, 2007] : List ℤ) ∧ (r.treat = 1 ↔ r.firstTreat ≠ 0) ∧ (r.treat = 0 ↔ r.firstTreat = 0) ∧
      r.cohort = r.firstTreat := by
  have hrow : ∀ c ft bp be y s, (mpRow g rnd c ft bp be y s).1.county = c ∧ (mpRow g rnd c ft bp be y s).1.firstTreat = ft := fun _ _ _ _ _ _ => ⟨rfl, rfl⟩
  have key : ∀ (l : List ℕ) (s : σ), l.Nodup → ∀ r ∈ (loop (mpCounty g rnd) l s).1.flatten, ∀ r' ∈ (loop (mpCounty g rnd) l s).1.flatten, r.county = r'.county →
      r.firstTreat = r'.firstTreat := by
    have hcty : ∀ a (s : σ) r, r ∈ (mpCounty g rnd a s).1 → r.county = a ∧
        r.firstTreat = (g.choice [0, 2004, 2006, 2007] [dec 4 10, dec 2 10, dec 2 10, dec 2 10] s).1 := by
      intro a s r hr
      simp only [mpCounty] at hr
      obtain ⟨y, -, s', rfl⟩ := loop_mem _ _ _ _ hr
      exact hrow _ _ _ _ _ _
    have hmem : ∀ (l : List ℕ) (s : σ) r, r ∈ (loop (mpCounty g rnd) l s).1.flatten → r.county ∈ l := by
      intro l s r hr
      obtain ⟨rows, h1, h2⟩ := List.mem_flatten.1 hr
      obtain ⟨a, ha, s', rfl⟩ := loop_mem _ _ _ _ h1
      rw [(hcty a s' r h2).1]; exact ha
    intro l
    induction l with
    | nil => intro s _ r hr; simp [loop] at hr
    | cons a l ih =>
      intro s hnd r hr r' hr' he
      obtain ⟨hal, hl⟩ := List.nodup_cons.1 hnd
      simp only [loop, List.flatten_cons, List.mem_append] at hr hr'
      rcases hr with hr | hr <;> rcases hr' with hr' | hr'
      · rw [(hcty a s r hr).2, (hcty a s r' hr').2]
      · exact absurd (hmem _ _ _ hr') (by rw [← he, (hcty a s r hr).1]; exact hal)
      · exact absurd (hmem _ _ _ hr) (by rw [he, (hcty a s r' hr').1]; exact hal)
      · exact ih _ hl r hr r' hr' he
  refine ⟨?_, ?_, ?_⟩
  · simp only [constructMp]
    refine flatten_map _ _ _ (fun p s => ?_) _ _
    simp only [mpCounty]
    exact loop_map _ _ (fun y => (p, y)) (fun y s => rfl) _ _
  · simp only [constructMp]
    exact key _ _ (List.Nodup.map (fun a b h => by simpa using h) List.nodup_range)
  · intro r hr'
    simp only [constructMp, List.mem_flatten] at hr'
    obtain ⟨l, hl, hrl⟩ := hr'
    obtain ⟨c, -, s, rfl⟩ := loop_mem _ _ _ _ hl
    simp only [mpCounty] at hrl
    obtain ⟨y, -, s', rfl⟩ := loop_mem _ _ _ _ hrl
    have hm := hc s
    set ft := (g.choice [0, 2004, 2006, 2007] [dec 4 10, dec 2 10, dec 2 10, dec 2 10] s).1 with hft
    have h0 : 0 < ft ↔ ft ≠ 0 := by
      simp only [List.mem_cons, List.not_mem_nil, or_false] at hm
      omega
    refine ⟨hm, ?_, ?_, rfl⟩
    · show (ind (decide (0 < ft)) : K) = 1 ↔ ft ≠ 0
      rw [ind_one, decide_eq_true_iff, h0]
    · show (ind (decide (0 < ft)) : K) = 0 ↔ ft = 0
      by_cases h : ft = 0
      · simp [ind, h]
      · simp [ind, h0.2 h, h]

/-! ### Negations -/

/-- C130. The constructed data are the same on every call, however the caller seeded the global generator. -/
theorem C130_reproducible (c c' : σ) :
    (constructCk g rnd c).1 = (constructCk g rnd c').1 ∧ (constructCastle g rnd c).1 = (constructCastle g rnd c').1 ∧
    (constructDivorce g rnd c).1 = (constructDivorce g rnd c').1 ∧ (constructMp g rnd c).1 = (constructMp g rnd c').1 := ⟨rfl, rfl, rfl, rfl⟩

/-- C130 is false of the caller's random numbers: two callers who left the global generator in different states draw the same numbers after an offline load. -/
theorem C130_global_generator_refuted (c c' : σ) (m sd : K) :
    g.normal m sd (constructCk g rnd c).2 = g.normal m sd (constructCk g rnd c').2 ∧ g.normal m sd (constructCastle g rnd c).2 = g.normal m sd (constructCastle g rnd c').2 ∧
    g.normal m sd (constructDivorce g rnd c).2 = g.normal m sd (constructDivorce g rnd c').2 ∧ g.normal m sd (constructMp g rnd c).2 = g.normal m sd (constructMp g rnd c').2 :=
  ⟨rfl, rfl, rfl, rfl⟩

/-- C130 is false of the constructed state populations: the draw is documented by its bounds of 500 000 and 20 000 000, but 10 000 is added per calendar year rather than per year
since 2000, so every state has more than 20 million inhabitants in every year. -/
theorem C130_population_refuted (hb : ∀ a b s, a < b → a ≤ (g.randint a b s).1 ∧ (g.randint a b s).1 < b) : ∀ r ∈ (constructCastle g rnd caller).1, 20000000 < r.population := by
  intro r hr'
  simp only [constructCastle, List.mem_flatten] at hr'
  obtain ⟨l, hl, hrl⟩ := hr'
  obtain ⟨p, hp, s, rfl⟩ := loop_mem _ _ _ _ hl
  simp only [castleState] at hrl
  obtain ⟨y, hy, s', rfl⟩ := loop_mem _ _ _ _ hrl
  have h1 := (hb 500000 20000000 (g.uniform 3 8 s).2 (by norm_num)).1
  have h2 := (hb (-5000) 5000 (g.normal 0 (dec 5 10) s').2 (by norm_num)).1
  have hy' : 2000 ≤ y := by
    simp only [span, List.mem_map] at hy
    obtain ⟨i, -, rfl⟩ := hy
    omega
  show 20000000 < (g.randint 500000 20000000 (g.uniform 3 8 s).2).1 + y * 10000 + (g.randint (-5000) 5000 (g.normal 0 (dec 5 10) s').2).1
  omega

/-- C130 is false of pre-treatment years in the constructed divorce data: the rows of Delaware are all treated. -/
theorem C130_always_treated_refuted : (∃ r ∈ (constructDivorce g rnd caller).1, r.state = "DE" ∧ r.treated = 1) ∧ ∀ r ∈ (constructDivorce g rnd caller).1, r.state = "DE" → r.treated = 1 := by
  have hmap : (constructDivorce g rnd caller).1.map (fun r => (r.state, r.firstTreat, r.year)) =
      divorceStates.flatMap (fun p => (span 1968 21).map (fun y => (p.1, (if 1968 ≤ p.2 then p.2 else 0), y))) := by
    simp only [constructDivorce]
    refine flatten_map _ _ _ (fun p s => ?_) _ _
    simp only [divorceState]
    exact loop_map _ _ (fun y => (p.1, (if 1968 ≤ p.2 then p.2 else 0), y)) (fun y s => rfl) _ _
  have ht : ∀ r ∈ (constructDivorce g rnd caller).1, r.treated = inEffect r.firstTreat r.year := by
    intro r hr'
    simp only [constructDivorce, List.mem_flatten] at hr'
    obtain ⟨l, hl, hrl⟩ := hr'
    obtain ⟨p, hp, s, rfl⟩ := loop_mem _ _ _ _ hl
    simp only [divorceState] at hrl
    obtain ⟨y, hy, s', rfl⟩ := loop_mem _ _ _ _ hrl
    rfl
  have hall : ∀ q ∈ divorceStates.flatMap (fun p => (span 1968 21).map (fun y => (p.1, (if 1968 ≤ p.2 then p.2 else 0), y))), q.1 = "DE" → 0 < q.2.1 ∧ q.2.1 ≤ q.2.2 := by
    decide +kernel
  have hex : ∃ q ∈ divorceStates.flatMap (fun p => (span 1968 21).map (fun y => (p.1, (if 1968 ≤ p.2 then p.2 else 0), y))), q.1 = "DE" := ⟨("DE", 1968, 1968), by decide +kernel, rfl⟩
  have h2 : ∀ r ∈ (constructDivorce g rnd caller).1, r.state = "DE" → r.treated = 1 := by
    intro r hr hs
    rw [ht r hr, inEffect_one]
    exact hall (r.state, r.firstTreat, r.year) (by rw [← hmap]; exact List.mem_map_of_mem hr) hs
  refine ⟨?_, h2⟩
  obtain ⟨q, hq, hqs⟩ := hex
  rw [← hmap] at hq
  obtain ⟨r, hr, rfl⟩ := List.mem_map.1 hq
  exact ⟨r, hr, hqs, h2 r hr hqs⟩

/-- C130. Exactly the listed names can be loaded; every other name is rejected. -/
theorem C130_names {A : Type*} (ck castle divorce mp : A) (name : String) : (dispatch ck castle divorce mp name).isSome ↔ name ∈ listNames := by
  simp only [dispatch, listNames, List.lookup_cons, List.lookup_nil, List.mem_cons, List.not_mem_nil, or_false]
  by_cases h1 : name = "card_krueger"
  · subst h1; simp
  by_cases h2 : name = "castle_doctrine"
  · subst h2; simp
  by_cases h3 : name = "divorce_laws"
  · subst h3; simp
  by_cases h4 : name = "mpdta"
  · subst h4; simp
  rw [beq_eq_false_iff_ne.2 h1, beq_eq_false_iff_ne.2 h2, beq_eq_false_iff_ne.2 h3, beq_eq_false_iff_ne.2 h4]
  simp [h1, h2, h3, h4]

/-! ### Examples -/

/-- A generator without noise. -/
def calm : Gen ℕ ℚ :=
  { seed := id, normal := fun m _ s => (m, s + 1), uniform := fun a b s => ((a + b) / 2, s + 1), randint := fun a _ s => (a, s + 1), choice := fun l _ s => (l.headD 0, s + 1) }

/-- The hypotheses on rounding and on the generator can be met. -/
example : RoundLike (fun _ x => x : ℕ → ℚ → ℚ) ∧ (∀ a b s, a < b → a ≤ (calm.randint a b s).1 ∧ (calm.randint a b s).1 < b) ∧
    (∀ s, (calm.choice [0, 2004, 2006, 2007] [dec 4 10, dec 2 10, dec 2 10, dec 2 10] s).1 ∈ ([0, 2004, 2006, 2007] : List ℤ)) :=
  ⟨⟨fun _ _ _ h => h, fun _ => rfl, fun _ => rfl⟩, fun _ _ _ h => ⟨le_rfl, h⟩, fun _ => by simp [calm]⟩

/-- Two states; the second repeals its law in 1972, so the two descriptions of treatment differ there. -/
def repeal : DivorceIn ℚ :=
  { n := 6, state := fun i => if i < 3 then "AA" else "BB", year := fun i => 1970 + (i % 3 : ℕ), unilateral := some (fun i => if i = 2 ∨ i = 4 then some 1 else some 0)
    firstTreat := none, cohort := none, treated := none }

example : ∃ f t, (loadDivorce repeal).firstTreat = some f ∧ (loadDivorce repeal).treated = some t ∧ (List.range 6).map f = [1972, 1972, 1972, 1971, 1971, 1971] ∧
    t 5 = some 0 ∧ f 5 ≤ repeal.year 5 := ⟨_, _, rfl, rfl, by decide +kernel, by decide +kernel, by decide +kernel⟩

/-- A file with years of adoption only. -/
example : ∃ t, (loadDivorce { repeal with unilateral := none, firstTreat := some (fun i => if i < 3 then 1971 else 0) }).treated = some t ∧
    (List.range 6).map t = [some 0, some 1, some 1, some 0, some 0, some 0] := ⟨_, rfl, by decide +kernel⟩

end DiffDiff.Datasets
