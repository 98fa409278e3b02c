/-
C51: what `validate_did_data` accepts.
-/
import Verif.PrepValidate
import Verif.Did2x2Props
import Mathlib.Data.List.Dedup

set_option linter.unusedSectionVars false

namespace DiffDiff.PrepValidate

variable {K : Type*} [Field K] [LinearOrder K] [IsStrictOrderedRing K]

/-! ### Specification -/

/-- The time column takes exactly two values. -/
def TwoPeriods (f : Frame K) (tm : String) (s t : V K) : Prop :=
  s ≠ t ∧ ∀ v, (∃ r ∈ f.rows, r tm = v) ↔ v = s ∨ v = t

/-- A usable design: the columns exist, the outcome is numeric, nothing is missing, treatment is 0/1, both groups occur, and
either there are exactly two periods and no cell is empty, or each group is seen in at least two periods. -/
def Usable (f : Frame K) (y tr tm : String) (unit : Option String) : Prop :=
  (∀ c, (c = y ∨ c = tr ∨ c = tm ∨ unit = some c) → c ∈ f.cols ∧ ∀ r ∈ f.rows, r c ≠ .miss) ∧
  f.numeric y = true ∧ (∀ r ∈ f.rows, r tr = .num 0 ∨ r tr = .num 1) ∧
  (∀ a : K, a = 0 ∨ a = 1 →
    (∀ s t, TwoPeriods f tm s t → (∃ r ∈ f.rows, r tr = .num a ∧ r tm = s) ∧ ∃ r ∈ f.rows, r tr = .num a ∧ r tm = t) ∧
    ((¬ ∃ s t, TwoPeriods f tm s t) → ∃ r ∈ f.rows, ∃ q ∈ f.rows, r tr = .num a ∧ q tr = .num a ∧ r tm ≠ q tm))

/-- Strings and numbers occur together in a column. -/
def Mixed (f : Frame K) (c : String) : Prop := (∃ r ∈ f.rows, ∃ s, r c = .str s) ∧ ∃ r ∈ f.rows, ∃ x, r c = .num x

/-! ### Lemmas -/

theorem mem_present {f : Frame K} {c : String} {v : V K} : v ∈ present f c ↔ v ≠ .miss ∧ ∃ r ∈ f.rows, r c = v := by
  simp [present, and_comm]

theorem nodup_present (f : Frame K) (c : String) : (present f c).Nodup := by
  unfold present; exact List.nodup_reverse.2 (List.nodup_dedup _)

theorem subset01_iff {f : Frame K} {c : String} :
    subset01 (present f c) = true ↔ ∀ r ∈ f.rows, r c = .miss ∨ r c = .num 0 ∨ r c = .num 1 := by
  unfold subset01
  rw [List.all_eq_true]
  simp only [mem_present, decide_eq_true_eq, and_imp, forall_exists_index]
  constructor
  · intro h r hr
    by_cases hm : r c = .miss
    · exact Or.inl hm
    · exact Or.inr (h _ hm r hr rfl)
  · rintro h v hv r hr rfl
    exact (h r hr).resolve_left hv

theorem sortFails_iff {f : Frame K} {c : String} : sortFails (present f c) = true ↔ Mixed f c := by
  unfold sortFails Mixed
  rw [Bool.and_eq_true, List.any_eq_true, List.any_eq_true]
  refine and_congr ?_ ?_
  · constructor
    · rintro ⟨v, hv, h⟩
      obtain ⟨-, r, hr, rfl⟩ := mem_present.1 hv
      cases hrc : r c with
      | str s => exact ⟨r, hr, s, hrc⟩
      | num x => rw [hrc] at h; cases h
      | miss => rw [hrc] at h; cases h
    · rintro ⟨r, hr, s, hs⟩
      exact ⟨.str s, mem_present.2 ⟨by simp, r, hr, hs⟩, rfl⟩
  · constructor
    · rintro ⟨v, hv, h⟩
      obtain ⟨hm, r, hr, rfl⟩ := mem_present.1 hv
      cases hrc : r c with
      | str s => rw [hrc] at h; cases h
      | num x => exact ⟨r, hr, x, hrc⟩
      | miss => exact absurd hrc hm
    · rintro ⟨r, hr, s, hs⟩
      exact ⟨.num s, mem_present.2 ⟨by simp, r, hr, hs⟩, rfl⟩

theorem filter_length_zero {α : Type*} {l : List α} {p : α → Prop} [DecidablePred p] :
    (l.filter (fun a => decide (p a))).length = 0 ↔ ∀ a ∈ l, ¬ p a := by
  rw [List.length_eq_zero_iff, List.filter_eq_nil_iff]
  simp

theorem basic_nil {f : Frame K} {y tr : String} {req : List String} :
    basicProblems f y tr req = [] ↔ f.numeric y = true ∧ (∀ r ∈ f.rows, r tr = .miss ∨ r tr = .num 0 ∨ r tr = .num 1) ∧
      ∀ c ∈ req, ∀ r ∈ f.rows, r c ≠ .miss := by
  unfold basicProblems
  rw [List.append_eq_nil_iff, List.append_eq_nil_iff, ← subset01_iff, List.flatMap_eq_nil_iff, and_assoc]
  refine and_congr ?_ (and_congr ?_ ?_)
  · by_cases h : f.numeric y = true <;> simp [h]
  · by_cases h : subset01 (present f tr) = true <;> simp [h]
  · refine forall_congr' fun c => forall_congr' fun _ => ?_
    by_cases h : ∀ r ∈ f.rows, r c ≠ .miss
    · have := filter_length_zero.2 h
      rw [if_neg (by omega)]
      simpa using h
    · have : 0 < (f.rows.filter (fun r => decide (r c = .miss))).length := by
        rw [Nat.pos_iff_ne_zero]
        exact fun hc => h (filter_length_zero.1 hc)
      rw [if_pos this]
      simpa using h

theorem two_iff {f : Frame K} {tm : String} (hm : ∀ r ∈ f.rows, r tm ≠ .miss) :
    (present f tm).length = 2 ↔ ∃ s t, TwoPeriods f tm s t := by
  have hmem : ∀ v, v ∈ present f tm ↔ ∃ r ∈ f.rows, r tm = v := by
    intro v
    rw [mem_present]
    constructor
    · exact fun h => h.2
    · rintro ⟨r, hr, rfl⟩; exact ⟨hm r hr, r, hr, rfl⟩
  constructor
  · intro h
    obtain ⟨s, t, hst⟩ := List.length_eq_two.1 h
    have hnd := nodup_present f tm
    rw [hst] at hnd
    refine ⟨s, t, by simpa using hnd, fun v => ?_⟩
    rw [← hmem, hst]; simp
  · rintro ⟨s, t, hne, h⟩
    have hp : (present f tm).Perm [s, t] := by
      refine (List.perm_ext_iff_of_nodup (nodup_present f tm) (by simp [hne])).2 fun v => ?_
      rw [hmem, h]; simp
    exact hp.length_eq

theorem group_ge_two {f : Frame K} {tr tm : String} {a : V K} (hm : ∀ r ∈ f.rows, r tm ≠ .miss) :
    ¬ groupPeriods f tr tm a < 2 ↔ ∃ r ∈ f.rows, ∃ q ∈ f.rows, r tr = a ∧ q tr = a ∧ r tm ≠ q tm := by
  unfold groupPeriods
  set l := (((f.rows.filter (fun r => decide (r tr = a))).map (fun r => r tm)).filter (fun v => decide (v ≠ .miss))).dedup with hl
  have hmem : ∀ v, v ∈ l ↔ ∃ r ∈ f.rows, r tr = a ∧ r tm = v := by
    intro v
    rw [hl, List.mem_dedup, List.mem_filter, List.mem_map]
    simp only [List.mem_filter, decide_eq_true_eq]
    constructor
    · rintro ⟨⟨r, ⟨hr, h1⟩, h2⟩, -⟩; exact ⟨r, hr, h1, h2⟩
    · rintro ⟨r, hr, h1, rfl⟩; exact ⟨⟨r, ⟨hr, h1⟩, rfl⟩, hm r hr⟩
  have hnd : l.Nodup := List.nodup_dedup _
  rw [not_lt]
  constructor
  · intro h
    match l, h, hnd, hmem with
    | x :: z :: l', _, hnd, hmem =>
      obtain ⟨r, hr, h1, rfl⟩ := (hmem x).1 (by simp)
      obtain ⟨q, hq, h2, rfl⟩ := (hmem z).1 (by simp)
      refine ⟨r, hr, q, hq, h1, h2, ?_⟩
      intro he
      simp [he] at hnd
  · rintro ⟨r, hr, q, hq, h1, h2, hne⟩
    have hsub : [r tm, q tm] ⊆ l := by
      intro v hv
      rcases List.mem_cons.1 hv with rfl | hv
      · exact (hmem _).2 ⟨r, hr, h1, rfl⟩
      · rw [List.mem_singleton] at hv; subst hv
        exact (hmem _).2 ⟨q, hq, h2, rfl⟩
    have := (List.subperm_of_subset (by simp [hne]) hsub).length_le
    simpa using this

theorem cell_nil {f : Frame K} {tr tm : String} (hm : ∀ r ∈ f.rows, r tm ≠ .miss) :
    cellProblems f tr tm = [] ↔ ∀ a : K, a = 0 ∨ a = 1 →
    (∀ s t, TwoPeriods f tm s t → (∃ r ∈ f.rows, r tr = .num a ∧ r tm = s) ∧ ∃ r ∈ f.rows, r tr = .num a ∧ r tm = t) ∧
    ((¬ ∃ s t, TwoPeriods f tm s t) → ∃ r ∈ f.rows, ∃ q ∈ f.rows, r tr = .num a ∧ q tr = .num a ∧ r tm ≠ q tm) := by
  have hcount : ∀ a v, cellCount f tr tm a v = 0 ↔ ¬ ∃ r ∈ f.rows, r tr = a ∧ r tm = v := by
    intro a v
    unfold cellCount
    rw [filter_length_zero]
    push Not
    rfl
  unfold cellProblems
  rw [List.append_eq_nil_iff, List.append_eq_nil_iff]
  have e1 : ∀ (a : K) (p : Problem), (if (f.rows.filter (fun r => decide (r tr = .num a))).length = 0 then [p] else []) = [] ↔
      ∃ r ∈ f.rows, r tr = .num a := by
    intro a p
    by_cases h : (f.rows.filter (fun r => decide (r tr = .num a))).length = 0
    · rw [if_pos h]
      have := filter_length_zero.1 h
      simp only [List.cons_ne_nil, false_iff]
      rintro ⟨r, hr, h1⟩; exact this r hr h1
    · rw [if_neg h]
      rw [filter_length_zero] at h
      push Not at h
      simpa using h
  rw [e1, e1]
  by_cases h2 : (present f tm).length = 2
  · obtain ⟨s0, t0, h0⟩ := (two_iff hm).1 h2
    rw [if_pos h2]
    have key : ([false, true].flatMap (fun b => (present f tm).zipIdx.flatMap (fun p =>
      if cellCount f tr tm (.num (if b then 1 else 0)) p.1 = 0 then [Problem.emptyCell b p.2] else []))) = [] ↔
        ∀ a : K, a = 0 ∨ a = 1 → ∀ v ∈ present f tm, ∃ r ∈ f.rows, r tr = .num a ∧ r tm = v := by
      rw [List.flatMap_eq_nil_iff]
      have inner : ∀ b : Bool, ((present f tm).zipIdx.flatMap (fun p =>
        if cellCount f tr tm (.num (if b then 1 else 0)) p.1 = 0 then [Problem.emptyCell b p.2] else [])) = [] ↔
          ∀ v ∈ present f tm, ∃ r ∈ f.rows, r tr = .num (if b then (1 : K) else 0) ∧ r tm = v := by
        intro b
        rw [List.flatMap_eq_nil_iff]
        constructor
        · intro h v hv
          obtain ⟨i, hi, rfl⟩ := List.mem_iff_getElem.1 hv
          have := h ((present f tm)[i], i) (by rw [List.mem_zipIdx_iff_getElem?]; simp [hi])
          by_contra hc
          rw [if_pos ((hcount _ _).2 hc)] at this
          cases this
        · intro h p hp
          have hv : p.1 ∈ present f tm := (List.mem_zipIdx' hp).2 ▸ List.getElem_mem _
          rw [if_neg]
          rw [hcount, not_not]
          exact h p.1 hv
      constructor
      · intro h a ha
        rcases ha with rfl | rfl
        · simpa using (inner false).1 (h false (by simp))
        · simpa using (inner true).1 (h true (by simp))
      · intro h b _
        refine (inner b).2 ?_
        cases b
        · exact h _ (Or.inl rfl)
        · exact h _ (Or.inr rfl)
    rw [key]
    have hpm : ∀ v, v ∈ present f tm ↔ v = s0 ∨ v = t0 := by
      intro v
      rw [← h0.2, mem_present]
      constructor
      · exact fun h => h.2
      · rintro ⟨r, hr, rfl⟩; exact ⟨hm r hr, r, hr, rfl⟩
    constructor
    · rintro ⟨-, h⟩ a ha
      refine ⟨fun s t hst => ?_, fun hc => absurd ⟨s0, t0, h0⟩ hc⟩
      have hs : s ∈ present f tm := by rw [hpm, ← h0.2, hst.2]; simp
      have ht : t ∈ present f tm := by rw [hpm, ← h0.2, hst.2]; simp
      exact ⟨h a ha s hs, h a ha t ht⟩
    · intro h
      refine ⟨⟨?_, ?_⟩, ?_⟩
      · obtain ⟨r, hr, h1, -⟩ := ((h 1 (Or.inr rfl)).1 s0 t0 h0).1; exact ⟨r, hr, h1⟩
      · obtain ⟨r, hr, h1, -⟩ := ((h 0 (Or.inl rfl)).1 s0 t0 h0).1; exact ⟨r, hr, h1⟩
      · intro a ha v hv
        rcases (hpm v).1 hv with rfl | rfl
        · exact ((h a ha).1 v t0 h0).1
        · exact ((h a ha).1 s0 v h0).2
  · have hno : ¬ ∃ s t, TwoPeriods f tm s t := fun hc => h2 ((two_iff hm).2 hc)
    rw [if_neg h2]
    have inner : ∀ b : Bool, ((if groupPeriods f tr tm (.num (if b then (1 : K) else 0)) < 2 then [Problem.fewPeriods b] else []) = []) ↔
        ∃ r ∈ f.rows, ∃ q ∈ f.rows, r tr = .num (if b then (1 : K) else 0) ∧ q tr = .num (if b then (1 : K) else 0) ∧ r tm ≠ q tm := by
      intro b
      rw [← group_ge_two hm]
      by_cases h : groupPeriods f tr tm (.num (if b then (1 : K) else 0)) < 2 <;> simp [h]
    constructor
    · rintro ⟨-, h⟩ a ha
      refine ⟨fun s t hst => absurd ⟨s, t, hst⟩ hno, fun _ => ?_⟩
      rw [List.flatMap_eq_nil_iff] at h
      rcases ha with rfl | rfl
      · simpa using (inner false).1 (h false (by simp))
      · simpa using (inner true).1 (h true (by simp))
    · intro h
      refine ⟨⟨?_, ?_⟩, ?_⟩
      · obtain ⟨r, hr, -, -, h1, -⟩ := (h 1 (Or.inr rfl)).2 hno; exact ⟨r, hr, h1⟩
      · obtain ⟨r, hr, -, -, h1, -⟩ := (h 0 (Or.inl rfl)).2 hno; exact ⟨r, hr, h1⟩
      · rw [List.flatMap_eq_nil_iff]
        intro b _
        refine (inner b).2 ?_
        cases b
        · exact (h _ (Or.inl rfl)).2 hno
        · exact (h _ (Or.inr rfl)).2 hno

/-- The list of problems once no exception occurred. -/
def problems (f : Frame K) (y tr tm : String) (unit : Option String) : List Problem :=
  let req := [y, tr, tm] ++ unit.toList
  let e0 := (req.filter (fun c => decide (c ∉ f.cols))).map Problem.column
  if e0 ≠ [] then e0 else if basicProblems f y tr req = [] then cellProblems f tr tm else basicProblems f y tr req

theorem cols_nil {f : Frame K} {y tr tm : String} {unit : Option String} :
    (([y, tr, tm] ++ unit.toList).filter (fun c => decide (c ∉ f.cols))).map Problem.column = [] ↔
      ∀ c, (c = y ∨ c = tr ∨ c = tm ∨ unit = some c) → c ∈ f.cols := by
  rw [List.map_eq_nil_iff, List.filter_eq_nil_iff]
  cases unit <;> simp

theorem problems_nil {f : Frame K} {y tr tm : String} {unit : Option String} : problems f y tr tm unit = [] ↔ Usable f y tr tm unit := by
  have hreq : ∀ c, c ∈ [y, tr, tm] ++ unit.toList ↔ (c = y ∨ c = tr ∨ c = tm ∨ unit = some c) := by
    intro c
    cases unit with
    | none => simp
    | some u => simp [eq_comm]
  unfold problems Usable
  simp only
  by_cases h0 : (([y, tr, tm] ++ unit.toList).filter (fun c => decide (c ∉ f.cols))).map Problem.column = []
  · rw [if_neg (not_not.2 h0)]
    have h0' := cols_nil.1 h0
    by_cases h1 : basicProblems f y tr ([y, tr, tm] ++ unit.toList) = []
    · rw [if_pos h1]
      obtain ⟨b1, b2, b3⟩ := basic_nil.1 h1
      have b3' : ∀ c, (c = y ∨ c = tr ∨ c = tm ∨ unit = some c) → ∀ r ∈ f.rows, r c ≠ .miss := fun c hc => b3 c ((hreq c).2 hc)
      rw [cell_nil (b3' tm (by simp))]
      constructor
      · intro h
        exact ⟨fun c hc => ⟨h0' c hc, b3' c hc⟩, b1, fun r hr => (b2 r hr).resolve_left (b3' tr (by simp) r hr), h⟩
      · exact fun h => h.2.2.2
    · rw [if_neg h1]
      refine ⟨fun h => absurd h h1, fun h => absurd (basic_nil.2 ⟨h.2.1, fun r hr => Or.inr (h.2.2.1 r hr), fun c hc => (h.1 c ((hreq c).1 hc)).2⟩) h1⟩
  · rw [if_pos h0]
    refine ⟨fun h => absurd h h0, fun h => absurd (cols_nil.2 fun c hc => (h.1 c hc).1) h0⟩

/-- Outcome of a call in terms of the problem list. -/
theorem validate_cases (f : Frame K) (y tr tm : String) (unit : Option String) (b : Bool) :
    (validate f y tr tm unit b = .error .type ∧ ((Mixed f tr ∧ ¬ ∀ r ∈ f.rows, r tr = .miss ∨ r tr = .num 0 ∨ r tr = .num 1) ∨ Mixed f tm)) ∨
    (problems f y tr tm unit ≠ [] ∧ b = true ∧ validate f y tr tm unit b = .error .value) ∨
    ((b = true → problems f y tr tm unit = []) ∧ ∃ rep, validate f y tr tm unit b = .ok rep ∧ rep.errors = problems f y tr tm unit ∧
      (rep.valid = true ↔ problems f y tr tm unit = [])) := by
  unfold validate problems
  simp only
  by_cases h0 : (([y, tr, tm] ++ unit.toList).filter (fun c => decide (c ∉ f.cols))).map Problem.column = []
  · rw [if_neg (not_not.2 h0), if_neg (not_not.2 h0)]
    by_cases h1 : (!subset01 (present f tr) && sortFails (present f tr)) = true
    · rw [if_pos h1]
      rw [Bool.and_eq_true] at h1
      refine Or.inl ⟨rfl, Or.inl ⟨sortFails_iff.1 h1.2, fun hc => ?_⟩⟩
      rw [subset01_iff.2 hc] at h1
      exact absurd h1.1 (by simp)
    · rw [if_neg h1]
      by_cases h2 : ((decide ((present f tm).length = 2) && !subset01 (present f tm)) && sortFails (present f tm)) = true
      · rw [if_pos h2]
        rw [Bool.and_eq_true] at h2
        exact Or.inl ⟨rfl, Or.inr (sortFails_iff.1 h2.2)⟩
      · rw [if_neg h2]
        by_cases h3 : b = true ∧ (if basicProblems f y tr ([y, tr, tm] ++ unit.toList) = [] then cellProblems f tr tm
            else basicProblems f y tr ([y, tr, tm] ++ unit.toList)) ≠ []
        · rw [if_pos h3]
          exact Or.inr (Or.inl ⟨h3.2, h3.1, rfl⟩)
        · rw [if_neg h3]
          refine Or.inr (Or.inr ⟨fun hb => ?_, _, rfl, rfl, by simp⟩)
          by_contra hc
          exact h3 ⟨hb, hc⟩
  · rw [if_pos h0, if_pos h0]
    cases b with
    | true => exact Or.inr (Or.inl ⟨h0, rfl, rfl⟩)
    | false => exact Or.inr (Or.inr ⟨by simp, _, rfl, rfl, ⟨fun h => (by cases h), fun h => absurd h h0⟩⟩)

/-! ### C51 -/

/-- A returned report says "valid" exactly for usable designs, and its error list is empty exactly then. -/
theorem C51_valid_iff (f : Frame K) (y tr tm : String) (unit : Option String) (b : Bool) (rep : Report)
    (h : validate f y tr tm unit b = .ok rep) :
    (rep.valid = true ↔ Usable f y tr tm unit) ∧ (rep.errors = [] ↔ rep.valid = true) := by
  rcases validate_cases f y tr tm unit b with ⟨h1, -⟩ | ⟨-, -, h1⟩ | ⟨-, rep', h1, h2, h3⟩
  · rw [h1] at h; cases h
  · rw [h1] at h; cases h
  · rw [h1] at h; cases h
    exact ⟨by rw [h3, problems_nil], by rw [h2, h3]⟩

/-- With `raise_on_error` the call returns only valid reports, and every usable design is accepted unless the treatment or time
column mixes strings and numbers. -/
theorem C51_raises (f : Frame K) (y tr tm : String) (unit : Option String) :
    (∀ rep, validate f y tr tm unit true = .ok rep → rep.valid = true) ∧
    (Usable f y tr tm unit → ¬ Mixed f tm → ∀ b, ∃ rep, validate f y tr tm unit b = .ok rep ∧ rep.valid = true ∧ rep.errors = []) ∧
    (∀ b, validate f y tr tm unit b = .error .value → b = true ∧ ¬ Usable f y tr tm unit) ∧
    (¬ Usable f y tr tm unit → ∀ rep, validate f y tr tm unit true ≠ .ok rep) := by
  refine ⟨?_, ?_, ?_, ?_⟩
  · intro rep h
    rcases validate_cases f y tr tm unit true with ⟨h1, -⟩ | ⟨-, -, h1⟩ | ⟨h0, rep', h1, h2, h3⟩
    · rw [h1] at h; cases h
    · rw [h1] at h; cases h
    · rw [h1] at h; cases h
      exact h3.2 (h0 rfl)
  · intro hu hmix b
    have hn := problems_nil.2 hu
    rcases validate_cases f y tr tm unit b with ⟨h1, h2 | h2⟩ | ⟨h1, -⟩ | ⟨h0, rep', h1, h2, h3⟩
    · exact absurd (fun r hr => Or.inr (hu.2.2.1 r hr)) h2.2
    · exact absurd h2 hmix
    · exact absurd hn h1
    · exact ⟨rep', h1, h3.2 hn, by rw [h2, hn]⟩
  · intro b h
    rcases validate_cases f y tr tm unit b with ⟨h1, -⟩ | ⟨h1, h2, -⟩ | ⟨-, rep', h1, -⟩
    · rw [h1] at h; cases h
    · exact ⟨h2, fun hu => h1 (problems_nil.2 hu)⟩
    · rw [h1] at h; cases h
  · intro hu rep h
    rcases validate_cases f y tr tm unit true with ⟨h1, -⟩ | ⟨-, -, h1⟩ | ⟨h0, -⟩
    · rw [h1] at h; cases h
    · rw [h1] at h; cases h
    · exact hu (problems_nil.1 (h0 rfl))

/-- Without `raise_on_error` a report comes back unless strings and numbers are mixed in the treatment or the time column. -/
theorem C51_no_raise_partial (f : Frame K) (y tr tm : String) (unit : Option String) (h1 : ¬ Mixed f tr) (h2 : ¬ Mixed f tm) :
    ∃ rep, validate f y tr tm unit false = .ok rep ∧ (rep.valid = true ↔ Usable f y tr tm unit) := by
  rcases validate_cases f y tr tm unit false with ⟨-, h | h⟩ | ⟨-, h, -⟩ | ⟨-, rep', h, h3, h4⟩
  · exact absurd h.1 h1
  · exact absurd h h2
  · cases h
  · exact ⟨rep', h, by rw [h4, problems_nil]⟩

/-- The claim that nothing is raised without `raise_on_error` is false: a treatment column with both strings and numbers makes
the message itself fail with a TypeError. -/
theorem C51_type_error_refuted (f : Frame K) (y tr tm : String) (unit : Option String) (b : Bool)
    (hc : ∀ c, (c = y ∨ c = tr ∨ c = tm ∨ unit = some c) → c ∈ f.cols) (hm : Mixed f tr) :
    validate f y tr tm unit b = .error .type := by
  unfold validate
  simp only
  rw [if_neg (not_not.2 (cols_nil.2 hc)), if_pos]
  rw [Bool.and_eq_true, sortFails_iff, Bool.not_eq_true', ← Bool.not_eq_true, subset01_iff]
  refine ⟨fun h => ?_, hm⟩
  obtain ⟨r, hr, s, hs⟩ := hm.1
  have := h r hr
  rw [hs] at this
  simp at this

/-- For valid two-period data the difference-in-differences estimate exists and is unique, with either period as "post". -/
theorem C51_estimable (f : Frame K) (y tr tm : String) (unit : Option String) (b : Bool) (rep : Report)
    (h : validate f y tr tm unit b = .ok rep) (hv : rep.valid = true) (s t : V K) (h2 : TwoPeriods f tm s t) (out : (String → V K) → K) :
    ∃! att, Did2x2.IsAtt (fun i : Fin f.rows.length => out f.rows[i]) (fun i => decide (f.rows[i] tr = .num 1))
      (fun i => decide (f.rows[i] tm = t)) att := by
  have hu := ((C51_valid_iff f y tr tm unit b rep h).1).1 hv
  have hex : ∀ a c : Bool, ∃ i : Fin f.rows.length, decide (f.rows[i] tr = .num 1) = a ∧ decide (f.rows[i] tm = t) = c := by
    intro a c
    have hcell : ∃ r ∈ f.rows, r tr = .num (if a then (1 : K) else 0) ∧ r tm = (if c then t else s) := by
      have := (hu.2.2.2 (if a then 1 else 0) (by cases a <;> simp)).1 s t h2
      cases c
      · exact this.1
      · exact this.2
    obtain ⟨r, hr, h1, h3⟩ := hcell
    obtain ⟨i, hi, rfl⟩ := List.mem_iff_getElem.1 hr
    refine ⟨⟨i, hi⟩, ?_, ?_⟩
    · cases a <;> simp_all
    · have := h2.1
      cases c <;> simp_all
  exact ⟨_, Did2x2.C10_att_exists _ _ _ hex, fun att hatt => Did2x2.C10_att_is_difference_of_means _ _ _ att hex hatt⟩

/-- The counts of a valid report add up. -/
theorem C51_summary (f : Frame K) (y tr tm : String) (unit : Option String) (b : Bool) (rep : Report)
    (h : validate f y tr tm unit b = .ok rep) (hv : rep.valid = true) :
    ∃ sm, rep.summary = some sm ∧ sm.nObs = f.rows.length ∧ sm.nTreated + sm.nControl = sm.nObs ∧ 0 < sm.nTreated ∧ 0 < sm.nControl ∧
      sm.nPeriods = (f.rows.map (fun r => r tm)).toFinset.card ∧
      ∀ u, unit = some u → sm.nUnits = some (f.rows.map (fun r => r u)).toFinset.card := by
  have hu := ((C51_valid_iff f y tr tm unit b rep h).1).1 hv
  have h0 : (([y, tr, tm] ++ unit.toList).filter (fun c => decide (c ∉ f.cols))).map Problem.column = [] :=
    cols_nil.2 fun c hc => (hu.1 c hc).1
  have hb : basicProblems f y tr ([y, tr, tm] ++ unit.toList) = [] := by
    refine basic_nil.2 ⟨hu.2.1, fun r hr => Or.inr (hu.2.2.1 r hr), fun c hc => (hu.1 c ?_).2⟩
    cases unit with
    | none => simpa using hc
    | some u => simpa [eq_comm] using hc
  have hcp := (cell_nil (tr := tr) (hu.1 tm (by simp)).2).2 hu.2.2.2
  unfold validate at h
  simp only at h
  rw [if_neg (not_not.2 h0)] at h
  by_cases q1 : (!subset01 (present f tr) && sortFails (present f tr)) = true
  · rw [if_pos q1] at h; cases h
  rw [if_neg q1] at h
  by_cases q2 : ((decide ((present f tm).length = 2) && !subset01 (present f tm)) && sortFails (present f tm)) = true
  · rw [if_pos q2] at h; cases h
  rw [if_neg q2] at h
  by_cases q3 : b = true ∧ (if basicProblems f y tr ([y, tr, tm] ++ unit.toList) = [] then cellProblems f tr tm
            else basicProblems f y tr ([y, tr, tm] ++ unit.toList)) ≠ []
  · rw [if_pos q3] at h; cases h
  rw [if_neg q3] at h
  injection h with h
  subst h
  have hcard : ∀ c, (c = y ∨ c = tr ∨ c = tm ∨ unit = some c) → (present f c).length = (f.rows.map (fun r => r c)).toFinset.card := by
    intro c hc
    rw [← List.toFinset_card_of_nodup (nodup_present f c)]
    congr 1
    ext v
    rw [List.mem_toFinset, List.mem_toFinset, mem_present, List.mem_map]
    constructor
    · exact fun h => h.2
    · rintro ⟨r, hr, rfl⟩; exact ⟨(hu.1 c hc).2 r hr, r, hr, rfl⟩
  refine ⟨_, if_pos hb, rfl, ?_, ?_, ?_, hcard tm (by simp), ?_⟩
  · have h1 := (List.filter_append_perm (fun r : String → V K => decide (r tr = .num 1)) f.rows).length_eq
    rw [List.length_append] at h1
    have h2 : f.rows.filter (fun r => !decide (r tr = .num 1)) = f.rows.filter (fun r => decide (r tr = .num 0)) := by
      refine List.filter_congr fun r hr => ?_
      rcases hu.2.2.1 r hr with h | h <;> simp [h]
    rw [h2] at h1
    exact h1
  · have := List.append_eq_nil_iff.1 (List.append_eq_nil_iff.1 hcp).1
    by_contra hc
    have hz : (f.rows.filter (fun r => decide (r tr = .num 1))).length = 0 := Nat.eq_zero_of_not_pos hc
    rw [if_pos hz] at this
    cases this.1
  · have := List.append_eq_nil_iff.1 (List.append_eq_nil_iff.1 hcp).1
    by_contra hc
    have hz : (f.rows.filter (fun r => decide (r tr = .num 0))).length = 0 := Nat.eq_zero_of_not_pos hc
    rw [if_pos hz] at this
    cases this.2
  · intro u huu
    subst huu
    exact congrArg some (hcard u (by simp))

/-- Number of distinct values of a column within a unit. -/
def distinct (f : Frame K) (u c : String) (x : V K) : ℕ := ((f.rows.filter (fun r => decide (r u = x))).map (fun r => r c)).toFinset.card

/-- Warnings of a valid report on a panel: two time labels other than 0/1; a unit whose treatment changes; two units observed in
different numbers of periods. -/
theorem C51_warnings (f : Frame K) (y tr tm u : String) (b : Bool) (rep : Report)
    (h : validate f y tr tm (some u) b = .ok rep) (hv : rep.valid = true) :
    (.timeLabels ∈ rep.warnings ↔ (∃ s t, TwoPeriods f tm s t) ∧ ∃ r ∈ f.rows, r tm ≠ .num 0 ∧ r tm ≠ .num 1) ∧
    (.varyingTreatment ∈ rep.warnings ↔ ∃ r ∈ f.rows, ∃ q ∈ f.rows, r u = q u ∧ r tr ≠ q tr) ∧
    (.unbalanced ∈ rep.warnings ↔ ∃ r ∈ f.rows, ∃ q ∈ f.rows, distinct f u tm (r u) ≠ distinct f u tm (q u)) := by
  have hu := ((C51_valid_iff f y tr tm (some u) b rep h).1).1 hv
  have h0 : (([y, tr, tm] ++ (some u).toList).filter (fun c => decide (c ∉ f.cols))).map Problem.column = [] :=
    cols_nil.2 fun c hc => (hu.1 c hc).1
  have hb : basicProblems f y tr ([y, tr, tm] ++ (some u).toList) = [] := by
    refine basic_nil.2 ⟨hu.2.1, fun r hr => Or.inr (hu.2.2.1 r hr), fun c hc => (hu.1 c ?_).2⟩
    simpa [eq_comm] using hc
  have hcp := (cell_nil (tr := tr) (hu.1 tm (by simp)).2).2 hu.2.2.2
  have hmt := (hu.1 tm (by simp)).2
  have hmd := (hu.1 tr (by simp)).2
  have hmu := (hu.1 u (by simp)).2
  have hw : rep.warnings = (if (decide ((present f tm).length = 2) && !subset01 (present f tm)) = true then [.timeLabels] else []) ++
      panelWarnings f tr tm u := by
    unfold validate at h
    simp only at h
    rw [if_neg (not_not.2 h0)] at h
    by_cases q1 : (!subset01 (present f tr) && sortFails (present f tr)) = true
    · rw [if_pos q1] at h; cases h
    rw [if_neg q1] at h
    by_cases q2 : ((decide ((present f tm).length = 2) && !subset01 (present f tm)) && sortFails (present f tm)) = true
    · rw [if_pos q2] at h; cases h
    rw [if_neg q2] at h
    by_cases q3 : b = true ∧ (if basicProblems f y tr ([y, tr, tm] ++ (some u).toList) = [] then cellProblems f tr tm
              else basicProblems f y tr ([y, tr, tm] ++ (some u).toList)) ≠ []
    · rw [if_pos q3] at h; cases h
    rw [if_neg q3] at h
    injection h with h
    subst h
    simp only [if_pos hb, hcp, if_true]
  have hpu : ∀ x, x ∈ present f u ↔ ∃ r ∈ f.rows, r u = x := by
    intro x
    rw [mem_present]
    constructor
    · exact fun h => h.2
    · rintro ⟨r, hr, rfl⟩; exact ⟨hmu r hr, r, hr, rfl⟩
  have hdist : ∀ c, (∀ r ∈ f.rows, r c ≠ .miss) → ∀ x, (((f.rows.filter (fun r => decide (r u = x))).map (fun r => r c)).filter
      (fun v => decide (v ≠ .miss))).dedup.length = distinct f u c x := by
    intro c hc x
    unfold distinct
    rw [← List.card_toFinset]
    congr 1
    ext v
    simp only [List.mem_toFinset, List.mem_filter, List.mem_map, decide_eq_true_eq]
    constructor
    · exact fun h => h.1
    · rintro ⟨r, ⟨hr, h1⟩, rfl⟩; exact ⟨⟨r, ⟨hr, h1⟩, rfl⟩, hc r hr⟩
  have hper : ∀ c, (∀ r ∈ f.rows, r c ≠ .miss) → ∀ n, n ∈ perUnit f u c ↔ ∃ r ∈ f.rows, distinct f u c (r u) = n := by
    intro c hc n
    unfold perUnit
    rw [List.mem_map]
    constructor
    · rintro ⟨x, hx, rfl⟩
      obtain ⟨r, hr, rfl⟩ := (hpu x).1 hx
      exact ⟨r, hr, (hdist c hc _).symm⟩
    · rintro ⟨r, hr, rfl⟩
      exact ⟨r u, (hpu _).2 ⟨r, hr, rfl⟩, hdist c hc _⟩
  rw [hw]
  unfold panelWarnings
  refine ⟨?_, ?_, ?_⟩
  · rw [← two_iff hmt]
    have h01 : subset01 (present f tm) = true ↔ ¬ ∃ r ∈ f.rows, r tm ≠ .num 0 ∧ r tm ≠ .num 1 := by
      rw [subset01_iff]
      push Not
      exact forall_congr' fun r => forall_congr' fun hr => ⟨fun h h2 => (h.resolve_left (hmt r hr)).resolve_left h2,
        fun h => Or.inr (or_iff_not_imp_left.2 h)⟩
    by_cases a1 : (present f tm).length = 2 <;> by_cases a2 : subset01 (present f tm) = true <;>
      simp only [a1, a2, decide_true, decide_false, Bool.not_true, Bool.not_false, Bool.and_true, Bool.and_false, if_true, true_and,
        false_and, iff_false, Bool.false_eq_true, if_false, List.nil_append] <;> split_ifs <;> simp_all
  · have hv1 : ((perUnit f u tr).any (fun n => decide (1 < n)) = true) ↔ ∃ r ∈ f.rows, ∃ q ∈ f.rows, r u = q u ∧ r tr ≠ q tr := by
      rw [List.any_eq_true]
      constructor
      · rintro ⟨n, hn, h1⟩
        obtain ⟨r, hr, rfl⟩ := (hper tr hmd n).1 hn
        rw [decide_eq_true_iff] at h1
        unfold distinct at h1
        obtain ⟨a, ha, c, hc, hne⟩ := Finset.one_lt_card.1 h1
        simp only [List.mem_toFinset, List.mem_map, List.mem_filter, decide_eq_true_eq] at ha hc
        obtain ⟨r1, ⟨hr1, e1⟩, rfl⟩ := ha
        obtain ⟨r2, ⟨hr2, e2⟩, rfl⟩ := hc
        exact ⟨r1, hr1, r2, hr2, by rw [e1, e2], hne⟩
      · rintro ⟨r, hr, q, hq, e1, hne⟩
        refine ⟨_, (hper tr hmd _).2 ⟨r, hr, rfl⟩, ?_⟩
        rw [decide_eq_true_iff]
        unfold distinct
        refine Finset.one_lt_card.2 ⟨r tr, ?_, q tr, ?_, hne⟩
        · simp only [List.mem_toFinset, List.mem_map, List.mem_filter, decide_eq_true_eq]
          exact ⟨r, ⟨hr, rfl⟩, rfl⟩
        · simp only [List.mem_toFinset, List.mem_map, List.mem_filter, decide_eq_true_eq]
          exact ⟨q, ⟨hq, e1.symm⟩, rfl⟩
    rw [← hv1]
    by_cases a1 : (perUnit f u tr).any (fun n => decide (1 < n)) = true
    · simp [a1]
    · simp only [a1, Bool.false_eq_true, if_false, iff_false]
      split_ifs <;> simp
  · have hv1 : ((perUnit f u tm).any (fun n => (perUnit f u tm).any (fun m => decide (n ≠ m))) = true) ↔
        ∃ r ∈ f.rows, ∃ q ∈ f.rows, distinct f u tm (r u) ≠ distinct f u tm (q u) := by
      simp only [List.any_eq_true, decide_eq_true_eq]
      constructor
      · rintro ⟨n, hn, m, hm, hne⟩
        obtain ⟨r, hr, rfl⟩ := (hper tm hmt n).1 hn
        obtain ⟨q, hq, rfl⟩ := (hper tm hmt m).1 hm
        exact ⟨r, hr, q, hq, hne⟩
      · rintro ⟨r, hr, q, hq, hne⟩
        exact ⟨_, (hper tm hmt _).2 ⟨r, hr, rfl⟩, _, (hper tm hmt _).2 ⟨q, hq, rfl⟩, hne⟩
    rw [← hv1]
    by_cases a1 : (perUnit f u tm).any (fun n => (perUnit f u tm).any (fun m => decide (n ≠ m))) = true
    · simp [a1]
    · simp only [a1, Bool.false_eq_true, if_false, iff_false]
      split_ifs <;> simp

/-! ### Concrete cases -/

def frame (rows : List (ℚ × V ℚ × V ℚ)) : Frame ℚ :=
  { cols := ["y", "d", "t"], numeric := fun _ => true,
    rows := rows.map (fun p c => if c = "y" then .num p.1 else if c = "d" then p.2.1 else p.2.2) }

def good : Frame ℚ := frame [(1, .num 0, .str "pre"), (2, .num 0, .str "post"), (3, .num 1, .str "pre"), (5, .num 1, .str "post")]

example : validate good "y" "d" "t" none true = .ok
    { valid := true, errors := [], warnings := [.timeLabels],
      summary := some { nObs := 4, nTreated := 2, nControl := 2, nPeriods := 2, nUnits := none } } := by decide +kernel
example : TwoPeriods good "t" (.str "pre") (.str "post") := by
  refine ⟨by decide, fun v => ?_⟩
  simp only [good, frame, List.mem_map, List.mem_cons, List.not_mem_nil, or_false, exists_eq_or_imp, exists_eq_left, exists_exists_and_eq_and]
  simp
  tauto
example : (validate (frame [(1, .num 0, .num 0), (2, .num 0, .num 1), (3, .num 1, .num 0)]) "y" "d" "t" none false) =
    .ok
    { valid := false, errors := [.emptyCell true 1], warnings := [],
      summary := some { nObs := 3, nTreated := 1, nControl := 2, nPeriods := 2, nUnits := none } } := by decide +kernel
example : validate (frame [(1, .str "control", .num 0), (2, .num 1, .num 1)]) "y" "d" "t" none false = .error .type := by decide +kernel

/-- "Valid" does not mean estimable beyond two periods: here the treated group is observed only in periods 2 and 3, the control
group only in periods 0 and 1, so no period compares the groups, yet the report is valid. -/
theorem C51_multi_period_refuted : ∃ (f : Frame ℚ) (rep : Report), validate f "y" "d" "t" none true = .ok rep ∧ rep.valid = true ∧
    rep.warnings = [] ∧ ∀ r ∈ f.rows, ∀ q ∈ f.rows, r "d" = .num 1 → q "d" = .num 0 → r "t" ≠ q "t" := by
  refine ⟨frame [(1, .num 0, .num 0), (2, .num 0, .num 1), (3, .num 1, .num 2), (5, .num 1, .num 3)],
    { valid := true, errors := [], warnings := [], summary := some { nObs := 4, nTreated := 2, nControl := 2, nPeriods := 4, nUnits := none } },
    by decide +kernel, rfl, rfl, by decide +kernel⟩

end DiffDiff.PrepValidate
