/-
C50: ranking of control units, C87: treatment candidates.
-/
import Verif.PrepRank
import Mathlib.Tactic.Linarith
import Mathlib.Tactic.FieldSimp
import Mathlib.Tactic.Ring
import Mathlib.Algebra.Order.Field.Basic
import Mathlib.Data.List.Dedup

set_option linter.unusedSectionVars false

namespace DiffDiff.PrepRank

section
variable {U T C K : Type*} [DecidableEq U] [LinearOrder T] [Field K] [LinearOrder K] [IsStrictOrderedRing K]

/-! ### Specification -/

/-- Descending order with missing values last. -/
def geS : Option K → Option K → Prop
  | _, none => True
  | none, some _ => False
  | some a, some b => b ≤ a

/-- What is assumed of the sort used for rankings: it permutes its input and its output is in descending order of quality,
missing values last. Nothing is assumed about ties. -/
def IsSort (sort : List (Line U K) → List (Line U K)) : Prop :=
  ∀ l, (sort l).Perm l ∧ (sort l).Pairwise (fun a b => geS a.quality b.quality)

def IsSortC (sort : List (Cand U K) → List (Cand U K)) : Prop :=
  ∀ l, (sort l).Perm l ∧ (sort l).Pairwise (fun a b => geS a.score b.score)

/-- Pre-treatment rows selected by the arguments. -/
def IsPre (o : Opts U T C K) (rows : List (RRow U T C K)) (t : T) : Prop :=
  match o.prePeriods with
  | some l => t ∈ l
  | none => ((rows.map (fun r => r.time)).toFinset.filter (fun s => s < t)).card < (rows.map (fun r => r.time)).toFinset.card / 2 ∧
      ∃ r ∈ rows, r.time = t

/-- Treated units selected by the arguments. -/
def IsTreated (o : Opts U T C K) (rows : List (RRow U T C K)) (u : U) : Prop :=
  match o.treatedUnits with
  | some l => u ∈ l
  | none => ∃ a r b, rows = a ++ r :: b ∧ r.unit = u ∧ r.d = some 1 ∧ ∀ x ∈ a, x.unit = u → x.d = none

/-! ### Lemmas -/

theorem mem_unique {α : Type*} [DecidableEq α] {l : List α} {a : α} : a ∈ unique l ↔ a ∈ l := by simp [unique]

theorem nodup_unique {α : Type*} [DecidableEq α] (l : List α) : (unique l).Nodup := by
  unfold unique; exact List.nodup_reverse.2 (List.nodup_dedup _)

theorem foldMax_ge (l : List (Option K)) (hl : ∀ x ∈ l, x.isSome) (a : K) :
    ∃ m, l.foldl (fun m x => match m, x with
      | some p, some q => if p < q then some q else some p
      | m, _ => m) (some a) = some m ∧ a ≤ m ∧ ∀ v, some v ∈ l → v ≤ m := by
  induction l generalizing a with
  | nil => exact ⟨a, rfl, le_rfl, by simp⟩
  | cons x l ih =>
    obtain ⟨b, rfl⟩ := Option.isSome_iff_exists.1 (hl x (by simp))
    rw [List.foldl_cons]
    by_cases h : a < b
    · obtain ⟨m, h1, h2, h3⟩ := ih (fun x hx => hl x (by simp [hx])) b
      refine ⟨m, by simpa [h] using h1, by linarith, ?_⟩
      intro v hv
      rcases List.mem_cons.1 hv with hv | hv
      · cases hv; exact h2
      · exact h3 v hv
    · obtain ⟨m, h1, h2, h3⟩ := ih (fun x hx => hl x (by simp [hx])) a
      refine ⟨m, by simpa [h] using h1, h2, ?_⟩
      intro v hv
      rcases List.mem_cons.1 hv with hv | hv
      · cases hv; push Not at h; linarith
      · exact h3 v hv

theorem foldMin_le (l : List (Option K)) (hl : ∀ x ∈ l, x.isSome) (a : K) :
    ∃ m, l.foldl (fun m x => match m, x with
      | some p, some q => if q < p then some q else some p
      | m, _ => m) (some a) = some m ∧ m ≤ a ∧ ∀ v, some v ∈ l → m ≤ v := by
  induction l generalizing a with
  | nil => exact ⟨a, rfl, le_rfl, by simp⟩
  | cons x l ih =>
    obtain ⟨b, rfl⟩ := Option.isSome_iff_exists.1 (hl x (by simp))
    rw [List.foldl_cons]
    by_cases h : b < a
    · obtain ⟨m, h1, h2, h3⟩ := ih (fun x hx => hl x (by simp [hx])) b
      refine ⟨m, by simpa [h] using h1, by linarith, ?_⟩
      intro v hv
      rcases List.mem_cons.1 hv with hv | hv
      · cases hv; exact h2
      · exact h3 v hv
    · obtain ⟨m, h1, h2, h3⟩ := ih (fun x hx => hl x (by simp [hx])) a
      refine ⟨m, by simpa [h] using h1, h2, ?_⟩
      intro v hv
      rcases List.mem_cons.1 hv with hv | hv
      · cases hv; push Not at h; linarith
      · exact h3 v hv

theorem foldMax_mem (l : List (Option K)) (a : Option K) :
    l.foldl (fun m x => match m, x with
      | some p, some q => if p < q then some q else some p
      | m, _ => m) a ∈ a :: l := by
  induction l generalizing a with
  | nil => simp
  | cons x l ih =>
    rw [List.foldl_cons]
    rcases List.mem_cons.1 (ih (match a, x with
      | some p, some q => if p < q then some q else some p
      | m, _ => m)) with h | h
    · rw [h]
      cases a with
      | none => simp
      | some a => cases x with
        | none => simp
        | some x => by_cases hh : a < x <;> simp [hh]
    · exact List.mem_cons_of_mem _ (List.mem_cons_of_mem _ h)

theorem foldMin_mem (l : List (Option K)) (a : Option K) :
    l.foldl (fun m x => match m, x with
      | some p, some q => if q < p then some q else some p
      | m, _ => m) a ∈ a :: l := by
  induction l generalizing a with
  | nil => simp
  | cons x l ih =>
    rw [List.foldl_cons]
    rcases List.mem_cons.1 (ih (match a, x with
      | some p, some q => if q < p then some q else some p
      | m, _ => m)) with h | h
    · rw [h]
      cases a with
      | none => simp
      | some a => cases x with
        | none => simp
        | some x => by_cases hh : x < a <;> simp [hh]
    · exact List.mem_cons_of_mem _ (List.mem_cons_of_mem _ h)

/-- Python's max of present values is the largest of them. -/
theorem pyMax_spec (l : List (Option K)) (hne : l ≠ []) (hl : ∀ x ∈ l, x.isSome) :
    ∃ m, pyMax l = some m ∧ some m ∈ l ∧ ∀ v, some v ∈ l → v ≤ m := by
  cases l with
  | nil => exact absurd rfl hne
  | cons x l =>
    obtain ⟨a, rfl⟩ := Option.isSome_iff_exists.1 (hl x (by simp))
    obtain ⟨m, h1, h2, h3⟩ := foldMax_ge l (fun x hx => hl x (by simp [hx])) a
    refine ⟨m, h1, ?_, ?_⟩
    · rw [← h1]; exact foldMax_mem l (some a)
    · intro v hv
      rcases List.mem_cons.1 hv with hv | hv
      · cases hv; exact h2
      · exact h3 v hv

theorem pyMin_spec (l : List (Option K)) (hne : l ≠ []) (hl : ∀ x ∈ l, x.isSome) :
    ∃ m, pyMin l = some m ∧ some m ∈ l ∧ ∀ v, some v ∈ l → m ≤ v := by
  cases l with
  | nil => exact absurd rfl hne
  | cons x l =>
    obtain ⟨a, rfl⟩ := Option.isSome_iff_exists.1 (hl x (by simp))
    obtain ⟨m, h1, h2, h3⟩ := foldMin_le l (fun x hx => hl x (by simp [hx])) a
    refine ⟨m, h1, ?_, ?_⟩
    · rw [← h1]; exact foldMin_mem l (some a)
    · intro v hv
      rcases List.mem_cons.1 hv with hv | hv
      · cases hv; exact h2
      · exact h3 v hv

/-- Min-max scores of present values: all ones, or an affine decreasing map onto [0,1] that reaches both ends. -/
theorem normScores_spec (l : List (Option K)) (hne : l ≠ []) (hl : ∀ x ∈ l, x.isSome) :
    ∃ f : K → K, normScores (pyMax l) (pyMin l) l = l.map (Option.map f) ∧ (∀ v, some v ∈ l → 0 ≤ f v ∧ f v ≤ 1) ∧
      (∀ v w, v ≤ w → f w ≤ f v) ∧ (∃ v, some v ∈ l ∧ f v = 1) ∧
      ((∀ v, f v = 1) ∨ ((∀ v w, v < w → f w < f v) ∧ ∃ v, some v ∈ l ∧ f v = 0)) := by
  obtain ⟨M, hM, hMm, hMb⟩ := pyMax_spec l hne hl
  obtain ⟨m, hm, hmm, hmb⟩ := pyMin_spec l hne hl
  unfold normScores
  rw [hM, hm]
  simp only [omap2]
  by_cases hr : M - m < 1 / 10 ^ 10
  · rw [if_pos hr]
    refine ⟨fun _ => 1, ?_, fun _ _ => ⟨zero_le_one, le_rfl⟩, fun _ _ _ => le_rfl, ⟨m, hmm, rfl⟩, Or.inl fun _ => rfl⟩
    refine List.map_congr_left fun x hx => ?_
    obtain ⟨a, rfl⟩ := Option.isSome_iff_exists.1 (hl x hx)
    rfl
  · rw [if_neg hr]
    have hpos : 0 < M - m := lt_of_lt_of_le (by positivity) (not_lt.1 hr)
    refine ⟨fun v => 1 - (v - m) / (M - m), ?_, ?_, ?_, ⟨m, hmm, by simp⟩, Or.inr ⟨?_, M, hMm, by show 1 - (M - m) / (M - m) = 0; rw [div_self hpos.ne']; ring⟩⟩
    · refine List.map_congr_left fun x hx => ?_
      obtain ⟨a, rfl⟩ := Option.isSome_iff_exists.1 (hl x hx)
      rfl
    · intro v hv
      have h1 : 0 ≤ (v - m) / (M - m) := div_nonneg (by linarith [hmb v hv]) hpos.le
      have h2 : (v - m) / (M - m) ≤ 1 := (div_le_one hpos).2 (by linarith [hMb v hv])
      exact ⟨by linarith, by linarith⟩
    · intro v w h
      have : (v - m) / (M - m) ≤ (w - m) / (M - m) := by gcongr
      linarith
    · intro v w h
      have : (v - m) / (M - m) < (w - m) / (M - m) := by gcongr
      linarith

/-- Everything the successful ranking went through. -/
theorem rank_ok {e : Env U K} {o : Opts U T C K} {rows : List (RRow U T C K)} {l : List (Line U K)}
    (h : rank e o rows = .ok (.ranking l)) :
    (0 ≤ o.ow ∧ o.ow ≤ 1) ∧ (0 ≤ o.cw ∧ o.cw ≤ 1) ∧ treatedOf o rows ≠ [] ∧
    ∃ lines, inPre (rows.filter (fun r => decide (r.time ∈ prePeriodsOf o rows))) (candidates o rows (treatedOf o rows)) ≠ [] ∧
      buildLines e o (rows.filter (fun r => decide (r.time ∈ prePeriodsOf o rows)))
        (inPre (rows.filter (fun r => decide (r.time ∈ prePeriodsOf o rows))) (candidates o rows (treatedOf o rows)))
        (inPre (rows.filter (fun r => decide (r.time ∈ prePeriodsOf o rows))) (treatedOf o rows)) (treatedOf o rows)
        ((prePeriodsOf o rows).filter (fun t => decide (t ∈ (rows.filter (fun r => decide (r.time ∈ prePeriodsOf o rows))).map (fun r => r.time)))) = .ok lines ∧
      l = applyTop e.sort o.nTop lines ∧ rank e { o with nTop := none } rows = .ok (.ranking (e.sort lines)) := by
  unfold rank at h
  by_cases h1 : ¬ (0 ≤ o.ow ∧ o.ow ≤ 1)
  · rw [if_pos h1] at h; cases h
  rw [if_neg h1] at h
  by_cases h2 : ¬ (0 ≤ o.cw ∧ o.cw ≤ 1)
  · rw [if_pos h2] at h; cases h
  rw [if_neg h2] at h
  by_cases h3 : o.treatedUnits.isSome ∧ o.useCol = true
  · rw [if_pos h3] at h; cases h
  rw [if_neg h3] at h
  by_cases h4 : o.require.any (fun u => decide (u ∈ o.exclude)) = true
  · rw [if_pos h4] at h; cases h
  rw [if_neg h4] at h
  by_cases h5 : prePeriodsOf o rows = []
  · rw [if_pos h5] at h; cases h
  rw [if_neg h5] at h
  by_cases h6 : o.treatedUnits = none ∧ o.useCol = false ∧ o.suggest = false
  · rw [if_pos h6] at h; cases h
  rw [if_neg h6] at h
  dsimp only at h
  by_cases h7 : o.suggest = true ∧ treatedOf o rows = []
  · rw [if_pos h7] at h; cases h
  rw [if_neg h7] at h
  by_cases h8 : treatedOf o rows = []
  · rw [if_pos h8] at h; cases h
  rw [if_neg h8] at h
  refine ⟨not_not.1 h1, not_not.1 h2, h8, ?_⟩
  have hfull : ∀ lines, rankLines e o rows (rows.filter (fun r => decide (r.time ∈ prePeriodsOf o rows))) (prePeriodsOf o rows)
      (treatedOf o rows) = .ok lines → rank e { o with nTop := none } rows = .ok (.ranking (e.sort lines)) := by
    intro lines hlines
    obtain ⟨o', ho'⟩ : ∃ o' : Opts U T C K, o' = { o with nTop := none } := ⟨_, rfl⟩
    have q1 : ¬ ¬ (0 ≤ o'.ow ∧ o'.ow ≤ 1) := by rw [ho']; exact h1
    have q2 : ¬ ¬ (0 ≤ o'.cw ∧ o'.cw ≤ 1) := by rw [ho']; exact h2
    have q3 : ¬ (o'.treatedUnits.isSome ∧ o'.useCol = true) := by rw [ho']; exact h3
    have q4 : ¬ o'.require.any (fun u => decide (u ∈ o'.exclude)) = true := by rw [ho']; exact h4
    have q5 : ¬ prePeriodsOf o' rows = [] := by rw [ho']; exact h5
    have q6 : ¬ (o'.treatedUnits = none ∧ o'.useCol = false ∧ o'.suggest = false) := by rw [ho']; exact h6
    have q7 : ¬ (o'.suggest = true ∧ treatedOf o' rows = []) := by rw [ho']; exact h7
    have q8 : ¬ treatedOf o' rows = [] := by rw [ho']; exact h8
    have q9 : rankLines e o' rows (rows.filter (fun r => decide (r.time ∈ prePeriodsOf o' rows))) (prePeriodsOf o' rows)
      (treatedOf o' rows) = .ok lines := by rw [ho']; exact hlines
    have q10 : o'.nTop = none := by rw [ho']
    rw [← ho']
    unfold rank
    rw [if_neg q1, if_neg q2, if_neg q3, if_neg q4, if_neg q5, if_neg q6]
    dsimp only
    rw [if_neg q7, if_neg q8, q9, q10]
    rfl
  generalize hb : rankLines e o rows _ _ _ = b at h hfull
  cases b with
  | error x => cases h
  | ok lines =>
    have h := Out.ranking.inj (Except.ok.inj h)
    have hfull := hfull lines rfl
    unfold rankLines at hb
    by_cases g1 : candidates o rows (treatedOf o rows) = []
    · rw [if_pos g1] at hb; cases hb
    rw [if_neg g1] at hb
    split_ifs at hb with g2 g3 g4 g5
    exact ⟨lines, g4, hb, h.symm, hfull⟩

theorem lines_ok {e : Env U K} {o : Opts U T C K} {pre : List (RRow U T C K)} {controls treated all : List U} {periods : List T}
    {lines : List (Line U K)} (h : buildLines e o pre controls treated all periods = .ok lines) :
    lines.map (fun x => x.unit) = controls ∧ (∀ x ∈ lines, x.required = decide (x.unit ∈ o.require)) ∧
    (∀ x ∈ lines, x.quality = combine o.ow o.cw x.outcome x.covariate) ∧
    lines.map (fun x => x.rmse) = controls.map (rmse e.root pre treated periods) ∧
    lines.map (fun x => x.outcome) = normScores (pyMax (controls.map (rmse e.root pre treated periods)))
      (pyMin (controls.map (rmse e.root pre treated periods))) (controls.map (rmse e.root pre treated periods)) ∧
    (o.covs = [] → ∀ x ∈ lines, x.covariate = none) ∧
    (o.covs ≠ [] → lines.map (fun x => x.covariate) =
      let ds := controls.map (covDist e.root pre (unique (pre.map (fun r => r.unit))) all o.covs)
      normScores (npMax ds) (npMin ds) ds) := by
  unfold buildLines at h
  cases hs : e.synth controls.length (controls.map (fun c => periods.map (pivot pre c))) (periods.map (treatedMean pre treated)) o.lam with
  | error x => simp [hs] at h
  | ok w =>
    rw [hs] at h
    simp only at h
    by_cases hk : o.covs ≠ [] ∧ ¬ (all.all (fun u => decide (u ∈ unique (pre.map (fun r => r.unit))))) = true
    · rw [if_pos hk] at h; cases h
    rw [if_neg hk] at h
    injection h with h
    have key : ∀ {α : Type _} (v : List (Option α)), v.length = controls.length →
        (controls.zipIdx.map (fun p => (v[p.2]?).join)) = v := by
      intro α v hv
      refine List.ext_getElem (by simp [hv]) fun i h1 h2 => ?_
      simp only [List.getElem_map, List.getElem_zipIdx, Nat.zero_add]
      rw [List.getElem?_eq_getElem h2]
      rfl
    have hlen : ∀ (mx mn : Option K) (l : List (Option K)), (normScores mx mn l).length = l.length := by
      intro mx mn l
      unfold normScores
      split
      · split_ifs <;> simp
      · simp
    subst h
    refine ⟨?_, ?_, ?_, ?_, ?_, ?_, ?_⟩
    · rw [List.map_map]
      refine List.ext_getElem (by simp) fun i h1 h2 => ?_
      simp
    · intro x hx
      obtain ⟨p, -, rfl⟩ := List.mem_map.1 hx
      rfl
    · intro x hx
      obtain ⟨p, -, rfl⟩ := List.mem_map.1 hx
      rfl
    · rw [List.map_map]
      exact key _ (by simp)
    · rw [List.map_map]
      exact key _ (by rw [hlen]; simp)
    · intro hc x hx
      obtain ⟨p, hp, rfl⟩ := List.mem_map.1 hx
      simp only [hc, ne_eq, not_true, if_false]
      rcases lt_or_ge p.2 (controls.map (fun _ => (none : Option K))).length with hlt | hge
      · rw [List.getElem?_eq_getElem hlt]; simp
      · rw [List.getElem?_eq_none hge]; rfl
    · intro hc
      rw [List.map_map]
      simp only [if_pos hc]
      exact key _ (by rw [hlen]; simp)

theorem applyTop_mem {sort : List (Line U K) → List (Line U K)} (hs : IsSort sort) (n : Option ℤ) (l : List (Line U K)) :
    ∀ x ∈ applyTop sort n l, x ∈ l := by
  intro x hx
  unfold applyTop at hx
  cases n with
  | none => exact (hs l).1.mem_iff.1 hx
  | some n =>
    simp only at hx
    split_ifs at hx
    · rcases List.mem_append.1 ((hs _).1.mem_iff.1 hx) with h | h
      · exact (hs l).1.mem_iff.1 (List.mem_filter.1 h).1
      · exact (hs l).1.mem_iff.1 (List.mem_filter.1 (List.mem_of_mem_take h)).1
    · exact (hs l).1.mem_iff.1 hx

theorem mem_firstTreated {rows : List (RRow U T C K)} {u : U} :
    (u ∈ (unique (rows.map (fun r => r.unit))).filter (firstTreated rows)) ↔
      ∃ a r b, rows = a ++ r :: b ∧ r.unit = u ∧ r.d = some 1 ∧ ∀ x ∈ a, x.unit = u → x.d = none := by
  have key : (((rows.filter (fun r => decide (r.unit = u))).filterMap (fun r => r.d)).head? = some 1) ↔
      ∃ a r b, rows = a ++ r :: b ∧ r.unit = u ∧ r.d = some 1 ∧ ∀ x ∈ a, x.unit = u → x.d = none := by
    induction rows with
    | nil => simp
    | cons r rows ih =>
      rw [List.filter_cons]
      by_cases h : r.unit = u
      · rw [if_pos (by simpa using h), List.filterMap_cons]
        cases hd : r.d with
        | none =>
          simp only
          rw [ih]
          constructor
          · rintro ⟨a, r', b, rfl, h1, h2, h3⟩
            refine ⟨r :: a, r', b, rfl, h1, h2, ?_⟩
            intro x hx hxu
            rcases List.mem_cons.1 hx with rfl | hx
            · exact hd
            · exact h3 x hx hxu
          · rintro ⟨a, r', b, he, h1, h2, h3⟩
            cases a with
            | nil =>
              rw [List.nil_append] at he
              injection he with he1 he2
              subst he1
              rw [hd] at h2; cases h2
            | cons x a =>
              rw [List.cons_append] at he
              injection he with he1 he2
              exact ⟨a, r', b, he2, h1, h2, fun x hx => h3 x (by simp [hx])⟩
        | some v =>
          simp only [List.head?_cons, Option.some.injEq]
          constructor
          · rintro rfl
            exact ⟨[], r, rows, rfl, h, hd, by simp⟩
          · rintro ⟨a, r', b, he, h1, h2, h3⟩
            cases a with
            | nil =>
              rw [List.nil_append] at he
              injection he with he1 he2
              subst he1
              rw [hd] at h2; exact Option.some.inj h2
            | cons x a =>
              rw [List.cons_append] at he
              injection he with he1 he2
              subst he1
              have := h3 r (by simp) h
              rw [hd] at this; cases this
      · rw [if_neg (by simpa using h), ih]
        constructor
        · rintro ⟨a, r', b, rfl, h1, h2, h3⟩
          refine ⟨r :: a, r', b, rfl, h1, h2, ?_⟩
          intro x hx hxu
          rcases List.mem_cons.1 hx with rfl | hx
          · exact absurd hxu h
          · exact h3 x hx hxu
        · rintro ⟨a, r', b, he, h1, h2, h3⟩
          cases a with
          | nil =>
            rw [List.nil_append] at he
            injection he with he1 he2
            subst he1
            exact absurd h1 h
          | cons x a =>
            rw [List.cons_append] at he
            injection he with he1 he2
            exact ⟨a, r', b, he2, h1, h2, fun x hx => h3 x (by simp [hx])⟩
  rw [List.mem_filter, mem_unique]
  unfold firstTreated
  rw [decide_eq_true_iff, key]
  constructor
  · exact fun h => h.2
  · intro h
    refine ⟨?_, h⟩
    obtain ⟨a, r, b, rfl, h1, -⟩ := h
    exact List.mem_map.2 ⟨r, by simp, h1⟩

/-- Membership in the first half of the sorted distinct labels, by rank. -/
theorem mem_firstHalf (l : List T) (t : T) :
    t ∈ (l.dedup.insertionSort (· ≤ ·)).take ((l.dedup.insertionSort (· ≤ ·)).length / 2) ↔
      (l.toFinset.filter (fun s => s < t)).card < l.toFinset.card / 2 ∧ t ∈ l := by
  set s := l.dedup.insertionSort (· ≤ ·) with hs
  have hp : s.Perm l.dedup := List.perm_insertionSort _ _
  have hnd : s.Nodup := hp.nodup_iff.2 (List.nodup_dedup _)
  have hsorted : s.Pairwise (· < ·) := by
    have h1 : s.Pairwise (· ≤ ·) := List.pairwise_insertionSort (r := (· ≤ ·)) _
    exact (h1.and hnd).imp (fun h => lt_of_le_of_ne h.1 h.2)
  have hf : l.toFinset = s.toFinset := by
    ext x; simp [hp.mem_iff]
  have hcard : l.toFinset.card = s.length := by rw [hf, List.toFinset_card_of_nodup hnd]
  have hmem : t ∈ l ↔ t ∈ s := by rw [hp.mem_iff, List.mem_dedup]
  have hrank : ∀ i (hi : i < s.length), (l.toFinset.filter (fun x => x < s[i])).card = i := by
    intro i hi
    have : l.toFinset.filter (fun x => x < s[i]) = (s.take i).toFinset := by
      ext x
      simp only [Finset.mem_filter, List.mem_toFinset]
      rw [← List.mem_toFinset, hf, List.mem_toFinset]
      constructor
      · rintro ⟨h1, h2⟩
        obtain ⟨j, hj, rfl⟩ := List.mem_iff_getElem.1 h1
        have hji : j < i := by
          by_contra hc
          rcases Nat.lt_or_ge i j with h | h
          · exact absurd h2 (not_lt.2 (List.pairwise_iff_getElem.1 hsorted i j hi hj h).le)
          · have : i = j := by omega
            subst this; exact lt_irrefl _ h2
        exact List.mem_take_iff_getElem.2 ⟨j, by omega, rfl⟩
      · intro h
        obtain ⟨j, hj, rfl⟩ := List.mem_take_iff_getElem.1 h
        exact ⟨List.getElem_mem _, List.pairwise_iff_getElem.1 hsorted j i (by omega) hi (by omega)⟩
    rw [this, List.toFinset_card_of_nodup (hnd.sublist (List.take_sublist _ _)), List.length_take]
    omega
  constructor
  · intro h
    obtain ⟨i, hi, rfl⟩ := List.mem_take_iff_getElem.1 h
    rw [hrank i (by omega), hcard, hmem]
    exact ⟨by omega, List.getElem_mem _⟩
  · rintro ⟨h1, h2⟩
    obtain ⟨i, hi, rfl⟩ := List.mem_iff_getElem.1 (hmem.1 h2)
    rw [hrank i hi, hcard] at h1
    exact List.mem_take_iff_getElem.2 ⟨i, by omega, rfl⟩

/-! ### C50 -/

/-- Bad weights, a unit both required and excluded, and two ways of naming the treated units are refused. -/
theorem C50_rejects (e : Env U K) (o : Opts U T C K) (rows : List (RRow U T C K)) (out : Out U K) (h : rank e o rows = .ok out) :
    0 ≤ o.ow ∧ o.ow ≤ 1 ∧ 0 ≤ o.cw ∧ o.cw ≤ 1 ∧ (∀ u ∈ o.require, u ∉ o.exclude) ∧ ¬ (o.treatedUnits.isSome ∧ o.useCol = true) := by
  unfold rank at h
  by_cases h1 : ¬ (0 ≤ o.ow ∧ o.ow ≤ 1)
  · rw [if_pos h1] at h; cases h
  rw [if_neg h1] at h
  by_cases h2 : ¬ (0 ≤ o.cw ∧ o.cw ≤ 1)
  · rw [if_pos h2] at h; cases h
  rw [if_neg h2] at h
  by_cases h3 : o.treatedUnits.isSome ∧ o.useCol = true
  · rw [if_pos h3] at h; cases h
  rw [if_neg h3] at h
  by_cases h4 : o.require.any (fun u => decide (u ∈ o.exclude)) = true
  · rw [if_pos h4] at h; cases h
  exact ⟨(not_not.1 h1).1, (not_not.1 h1).2, (not_not.1 h2).1, (not_not.1 h2).2, by simpa using h4, h3⟩

theorem mem_prePeriods {o : Opts U T C K} {rows : List (RRow U T C K)} {t : T} : t ∈ prePeriodsOf o rows ↔ IsPre o rows t := by
  unfold prePeriodsOf IsPre
  cases o.prePeriods with
  | some l => simp
  | none =>
    dsimp only
    rw [Option.getD_none, mem_firstHalf, List.mem_map]

theorem mem_treatedOf {o : Opts U T C K} {rows : List (RRow U T C K)} (hne : treatedOf o rows ≠ []) {u : U} :
    u ∈ treatedOf o rows ↔ IsTreated o rows u := by
  unfold treatedOf IsTreated at *
  cases h1 : o.treatedUnits with
  | some l => simp
  | none =>
    rw [h1] at hne
    dsimp only at hne ⊢
    by_cases huse : o.useCol = true
    · rw [if_pos huse, mem_firstTreated]
    · rw [if_neg huse] at hne; exact absurd rfl hne

/-- Without a limit the ranking lists exactly the units that are in the pre-treatment data, not treated and not excluded, each
once; with a limit it lists a part of them. -/
theorem C50_candidates (e : Env U K) (hs : IsSort e.sort) (o : Opts U T C K) (rows : List (RRow U T C K)) (l : List (Line U K))
    (h : rank e o rows = .ok (.ranking l)) :
    (l.map (fun x => x.unit)).Nodup ∧
    (∀ x ∈ l, (∃ r ∈ rows, r.unit = x.unit ∧ IsPre o rows r.time) ∧ ¬ IsTreated o rows x.unit ∧ x.unit ∉ o.exclude ∧
      (x.required = true ↔ x.unit ∈ o.require)) ∧
    (∀ u, (∃ r ∈ rows, r.unit = u ∧ IsPre o rows r.time) → ¬ IsTreated o rows u → u ∉ o.exclude →
      (u ∈ o.require ∨ o.nTop = none) → ∃ x ∈ l, x.unit = u) := by
  obtain ⟨-, -, htne, lines, hcne, hb, hl, -⟩ := rank_ok h
  obtain ⟨hu, hreq, -⟩ := lines_ok hb
  have hcm : ∀ u, (u ∈ lines.map (fun x => x.unit)) ↔
      ((∃ r ∈ rows, r.unit = u ∧ IsPre o rows r.time) ∧ ¬ IsTreated o rows u ∧ u ∉ o.exclude) := by
    intro u
    rw [hu]
    unfold inPre candidates
    simp only [List.mem_filter, mem_unique, List.mem_map, decide_eq_true_eq, mem_treatedOf htne, mem_prePeriods]
    constructor
    · rintro ⟨⟨⟨-, h1⟩, h2⟩, ⟨r, ⟨hr, hrt⟩, hru⟩⟩
      exact ⟨⟨r, hr, hru, hrt⟩, h1, h2⟩
    · rintro ⟨⟨r, hr, hru, hrt⟩, h1, h2⟩
      exact ⟨⟨⟨⟨r, hr, hru⟩, h1⟩, h2⟩, ⟨r, ⟨hr, hrt⟩, hru⟩⟩
  have hnodup : (lines.map (fun x => x.unit)).Nodup := by
    rw [hu]
    exact ((nodup_unique _).filter _ |>.filter _).filter _
  have hmem : ∀ x ∈ l, x ∈ lines := by rw [hl]; exact applyTop_mem hs _ _
  refine ⟨?_, ?_, ?_⟩
  · rw [hl]
    unfold applyTop
    have h1 : ((e.sort lines).map (fun x => x.unit)).Nodup := ((hs lines).1.map _).nodup_iff.2 hnodup
    cases o.nTop with
    | none => exact h1
    | some n =>
      simp only
      split_ifs
      · rw [((hs _).1.map _).nodup_iff, List.map_append, List.nodup_append]
        refine ⟨h1.sublist (List.filter_sublist.map _), h1.sublist (((List.take_sublist _ _).trans List.filter_sublist).map _), ?_⟩
        intro a ha b hb' hab
        obtain ⟨x, hx, rfl⟩ := List.mem_map.1 ha
        obtain ⟨y, hy, rfl⟩ := List.mem_map.1 hb'
        have hy' := List.mem_filter.1 (List.mem_of_mem_take hy)
        have hx' := List.mem_filter.1 hx
        have : x = y := List.inj_on_of_nodup_map h1 hx'.1 hy'.1 hab
        subst this
        simp_all
      · exact h1
  · intro x hx
    have hxl := hmem x hx
    obtain ⟨h1, h2, h3⟩ := (hcm x.unit).1 (List.mem_map.2 ⟨x, hxl, rfl⟩)
    exact ⟨h1, h2, h3, by rw [hreq x hxl, decide_eq_true_iff]⟩
  · intro u h1 h2 h3 h4
    obtain ⟨x, hx, rfl⟩ := List.mem_map.1 ((hcm u).2 ⟨h1, h2, h3⟩)
    refine ⟨x, ?_, rfl⟩
    have hxs : x ∈ e.sort lines := (hs lines).1.mem_iff.2 hx
    rw [hl]
    unfold applyTop
    cases hn : o.nTop with
    | none => exact hxs
    | some n =>
      simp only
      rw [hn] at h4
      have hr : x.required = true := by
        rw [hreq x hx, decide_eq_true_iff]
        exact h4.resolve_right (by simp)
      split_ifs
      · exact (hs _).1.mem_iff.2 (List.mem_append_left _ (List.mem_filter.2 ⟨hxs, hr⟩))
      · exact hxs

/-- The ranking is in descending order of quality (missing last), for every limit. -/
theorem C50_sorted (e : Env U K) (hs : IsSort e.sort) (o : Opts U T C K) (rows : List (RRow U T C K)) (l : List (Line U K))
    (h : rank e o rows = .ok (.ranking l)) : l.Pairwise (fun a b => geS a.quality b.quality) := by
  obtain ⟨-, -, -, lines, -, hb, hl, -⟩ := rank_ok h
  rw [hl]
  unfold applyTop
  cases o.nTop with
  | none => exact (hs _).2
  | some n =>
    simp only
    split_ifs <;> exact (hs _).2

/-- Limiting the list: compare the limited call with the unlimited one on the same data. The size is max(n_top, number of
required) capped by the number of candidates, all required candidates are kept, and no optional unit left out ranks strictly
above an optional unit kept. -/
theorem C50_top (e : Env U K) (hs : IsSort e.sort) (o : Opts U T C K) (rows : List (RRow U T C K)) (n : ℤ) (hn : o.nTop = some n)
    (l : List (Line U K)) (h : rank e o rows = .ok (.ranking l)) :
    ∃ full, rank e { o with nTop := none } rows = .ok (.ranking full) ∧
      (l.length : ℤ) = min (full.length : ℤ) (max n ((full.filter (fun x => x.required)).length : ℤ)) ∧
      (∀ x ∈ l, x ∈ full) ∧ (∀ x ∈ full, x.required = true → x ∈ l) ∧
      (∀ x ∈ full, x ∉ l → ∀ y ∈ l, y.required = false → geS y.quality x.quality) := by
  obtain ⟨-, -, -, lines, -, hb, hl, hfull⟩ := rank_ok h
  refine ⟨_, hfull, ?_⟩
  have hpart : ((e.sort lines).filter (fun x => x.required)).length + ((e.sort lines).filter (fun x => !x.required)).length =
      (e.sort lines).length := by
    have := (List.filter_append_perm (fun x : Line U K => x.required) (e.sort lines)).length_eq
    rwa [List.length_append] at this
  rw [hl, hn]
  simp only [applyTop]
  split_ifs with hlt
  · refine ⟨?_, ?_, ?_, ?_⟩
    · rw [(hs _).1.length_eq, List.length_append, List.length_take]
      omega
    · intro x hx
      rcases List.mem_append.1 ((hs _).1.mem_iff.1 hx) with h | h
      · exact (List.mem_filter.1 h).1
      · exact (List.mem_filter.1 (List.mem_of_mem_take h)).1
    · intro x hx hr
      exact (hs _).1.mem_iff.2 (List.mem_append_left _ (List.mem_filter.2 ⟨hx, hr⟩))
    · intro x hx hxl y hy hyr
      have hxn : x ∉ ((e.sort lines).filter (fun x => x.required)) ++ ((e.sort lines).filter (fun x => !x.required)).take
          (max 0 (n - (((e.sort lines).filter (fun x => x.required)).length : ℤ))).toNat := fun hc => hxl ((hs _).1.mem_iff.2 hc)
      rw [List.mem_append, not_or] at hxn
      have hxr : x.required = false := by
        by_contra hc
        exact hxn.1 (List.mem_filter.2 ⟨hx, by simpa using hc⟩)
      have hy2 : y ∈ ((e.sort lines).filter (fun x => !x.required)).take
          (max 0 (n - (((e.sort lines).filter (fun x => x.required)).length : ℤ))).toNat := by
        rcases List.mem_append.1 ((hs _).1.mem_iff.1 hy) with h | h
        · have := (List.mem_filter.1 h).2
          rw [hyr] at this; cases this
        · exact h
      have hsorted : ((e.sort lines).filter (fun x => !x.required)).Pairwise (fun a b => geS a.quality b.quality) :=
        (hs lines).2.sublist List.filter_sublist
      have hxo : x ∈ (e.sort lines).filter (fun x => !x.required) := List.mem_filter.2 ⟨hx, by simp [hxr]⟩
      rw [← List.take_append_drop (max 0 (n - (((e.sort lines).filter (fun x => x.required)).length : ℤ))).toNat
        ((e.sort lines).filter (fun x => !x.required))] at hsorted hxo
      have hxd := (List.mem_append.1 hxo).resolve_left hxn.2
      exact (List.pairwise_append.1 hsorted).2.2 y hy2 x hxd
  · refine ⟨?_, fun x hx => hx, fun x hx _ => hx, fun x hx hxl => absurd hx hxl⟩
    omega

/-- Scores, when every control can be compared with the treated mean in some period and every covariate distance is defined:
all scores are in [0,1], the quality is the weighted average of the two scores (the outcome score alone without covariates),
a smaller RMSE never scores lower, and some unit has outcome score 1. -/
theorem C50_scores_partial (e : Env U K) (hs : IsSort e.sort) (o : Opts U T C K) (rows : List (RRow U T C K)) (hn : o.nTop = none)
    (l : List (Line U K)) (h : rank e o rows = .ok (.ranking l)) (hr : ∀ x ∈ l, x.rmse.isSome) :
    (∀ x ∈ l, ∃ s q, x.outcome = some s ∧ 0 ≤ s ∧ s ≤ 1 ∧ x.quality = some q ∧ 0 ≤ q ∧ q ≤ 1 ∧
      (x.covariate = none → q = s) ∧
      ∀ c, x.covariate = some c → 0 ≤ c ∧ c ≤ 1 ∧ ((o.ow + o.cw) * q = o.ow * s + o.cw * c ∨ o.ow = 0 ∧ o.cw = 0 ∧ q = s)) ∧
    (∀ x ∈ l, ∀ y ∈ l, ∀ a b s t, x.rmse = some a → y.rmse = some b → x.outcome = some s → y.outcome = some t → a ≤ b → t ≤ s) ∧
    (∃ x ∈ l, x.outcome = some 1) ∧ (o.covs = [] → ∀ x ∈ l, x.covariate = none) := by
  obtain ⟨h1, h2, -, lines, hcne, hb, hl, -⟩ := rank_ok h
  obtain ⟨hu, -, hq, hrm, ho, hc0, hc1⟩ := lines_ok hb
  rw [hn] at hl
  have hperm : l.Perm lines := by rw [hl]; exact (hs lines).1
  have hmem : ∀ x, x ∈ l ↔ x ∈ lines := fun x => hperm.mem_iff
  have hlne : lines.map (fun x => x.rmse) ≠ [] := by
    intro hc
    have : lines = [] := by simpa using hc
    rw [this] at hu
    exact hcne hu.symm
  have hsome : ∀ x ∈ lines.map (fun x => x.rmse), x.isSome := by
    intro x hx
    obtain ⟨y, hy, rfl⟩ := List.mem_map.1 hx
    exact hr y ((hmem y).2 hy)
  obtain ⟨f, hf, hf1, hf2, hf3, -⟩ := normScores_spec _ hlne hsome
  rw [← hrm, hf, List.map_map] at ho
  have hof : ∀ x ∈ lines, x.outcome = x.rmse.map f := fun x hx => List.map_inj_left.1 ho x hx
  have hcov : ∀ x ∈ lines, ∀ c, x.covariate = some c → 0 ≤ c ∧ c ≤ 1 := by
    intro x hx c hc
    by_cases hcs : o.covs = []
    · rw [hc0 hcs x hx] at hc; cases hc
    · have hcl := hc1 hcs
      simp only at hcl
      obtain ⟨ds, hds⟩ : ∃ ds, ds = List.map (covDist e.root (rows.filter (fun r => decide (r.time ∈ prePeriodsOf o rows)))
        (unique ((rows.filter (fun r => decide (r.time ∈ prePeriodsOf o rows))).map (fun r => r.unit))) (treatedOf o rows) o.covs)
        (inPre (rows.filter (fun r => decide (r.time ∈ prePeriodsOf o rows))) (candidates o rows (treatedOf o rows))) := ⟨_, rfl⟩
      rw [← hds] at hcl
      have hdlen : ds.length = lines.length := by
        rw [hds, List.length_map, ← hu, List.length_map]
      by_cases hall : ds.all Option.isSome = true
      · have hdne : ds ≠ [] := by
          intro hc'
          rw [hc'] at hdlen
          have : lines = [] := List.length_eq_zero_iff.1 hdlen.symm
          rw [this] at hx; cases hx
        obtain ⟨g, hg, hg1, -⟩ := normScores_spec ds hdne (by simpa using hall)
        unfold npMax npMin at hcl
        rw [if_pos hall, if_pos hall, hg] at hcl
        have : some c ∈ ds.map (Option.map g) := by
          rw [← hcl]; exact List.mem_map.2 ⟨x, hx, hc⟩
        obtain ⟨v, hv, hvc⟩ := List.mem_map.1 this
        cases v with
        | none => cases hvc
        | some v =>
          cases hvc
          exact hg1 v hv
      · have : some c ∈ lines.map (fun x => x.covariate) := List.mem_map.2 ⟨x, hx, hc⟩
        rw [hcl] at this
        unfold npMax at this
        rw [if_neg hall] at this
        simp [normScores, omap2] at this
  refine ⟨?_, ?_, ?_, ?_⟩
  · intro x hx
    have hxl := (hmem x).1 hx
    obtain ⟨a, ha⟩ := Option.isSome_iff_exists.1 (hr x hx)
    have hxo : x.outcome = some (f a) := by rw [hof x hxl, ha]; rfl
    obtain ⟨b1, b2⟩ := hf1 a (List.mem_map.2 ⟨x, hxl, ha⟩)
    cases hc : x.covariate with
    | none =>
      refine ⟨f a, f a, hxo, b1, b2, ?_, b1, b2, fun _ => rfl, fun c hc' => (nomatch hc')⟩
      rw [hq x hxl, hc, hxo]; rfl
    | some c =>
      obtain ⟨c1, c2⟩ := hcov x hxl c hc
      by_cases ht : 0 < o.ow + o.cw
      · have e1 : o.ow / (o.ow + o.cw) + o.cw / (o.ow + o.cw) = 1 := by rw [← add_div, div_self ht.ne']
        have p1 : 0 ≤ o.ow / (o.ow + o.cw) := div_nonneg h1.1 ht.le
        have p2 : 0 ≤ o.cw / (o.ow + o.cw) := div_nonneg h2.1 ht.le
        refine ⟨f a, o.ow / (o.ow + o.cw) * f a + o.cw / (o.ow + o.cw) * c, hxo, b1, b2, ?_, ?_, ?_, fun hcon => (nomatch hcon), ?_⟩
        · rw [hq x hxl, hc, hxo]
          simp [combine, ht]
        · positivity
        · nlinarith
        · intro c' hc'
          cases hc'
          refine ⟨c1, c2, Or.inl ?_⟩
          field_simp
      · have z1 : o.ow = 0 := le_antisymm (by linarith [h2.1]) h1.1
        have z2 : o.cw = 0 := le_antisymm (by linarith [h1.1]) h2.1
        refine ⟨f a, f a, hxo, b1, b2, ?_, b1, b2, fun _ => rfl, ?_⟩
        · rw [hq x hxl, hc, hxo]
          simp [combine, z1, z2]
        · intro c' hc'
          cases hc'
          exact ⟨c1, c2, Or.inr ⟨z1, z2, rfl⟩⟩
  · intro x hx y hy a b s t hxa hyb hxs hyt hab
    rw [hof x ((hmem x).1 hx), hxa] at hxs
    rw [hof y ((hmem y).1 hy), hyb] at hyt
    cases hxs; cases hyt
    exact hf2 a b hab
  · obtain ⟨v, hv, hv1⟩ := hf3
    obtain ⟨x, hx, hxv⟩ := List.mem_map.1 hv
    exact ⟨x, (hmem x).2 hx, by rw [hof x hx, hxv, ← hv1]; rfl⟩
  · intro hcs x hx
    exact hc0 hcs x ((hmem x).1 hx)

/-- One control with an undefined covariate distance switches covariate matching off for every unit, without an error: all
covariate scores are missing and the quality is the outcome score. -/
theorem C50_missing_covariate_refuted (e : Env U K) (o : Opts U T C K) (pre : List (RRow U T C K)) (controls treated all : List U)
    (periods : List T) (lines : List (Line U K)) (h : buildLines e o pre controls treated all periods = .ok lines) (hc : o.covs ≠ [])
    (c : U) (hcm : c ∈ controls) (hd : covDist e.root pre (unique (pre.map (fun r => r.unit))) all o.covs c = none) :
    ∀ x ∈ lines, x.covariate = none ∧ x.quality = x.outcome := by
  obtain ⟨-, -, hq, -, -, -, h6⟩ := lines_ok h
  have h6 := h6 hc
  simp only at h6
  have hnone : npMax (controls.map (covDist e.root pre (unique (pre.map (fun r => r.unit))) all o.covs)) = none := by
    unfold npMax
    rw [if_neg]
    simp only [List.all_eq_true, List.mem_map, forall_exists_index, and_imp, forall_apply_eq_imp_iff₂, not_forall]
    exact ⟨c, hcm, by simp [hd]⟩
  rw [hnone] at h6
  intro x hx
  have hxn : x.covariate = none := by
    have : x.covariate ∈ lines.map (fun x => x.covariate) := List.mem_map.2 ⟨x, hx, rfl⟩
    rw [h6] at this
    simp only [normScores, omap2, List.mem_map] at this
    obtain ⟨_, _, h⟩ := this
    exact h.symm
  refine ⟨hxn, ?_⟩
  rw [hq x hx, hxn]
  rfl

/-- Scores are not always numbers: if the first control has no comparable period, every outcome score is missing. -/
theorem C50_scores_refuted (e : Env U K) (o : Opts U T C K) (pre : List (RRow U T C K)) (c : U) (controls treated all : List U)
    (periods : List T) (lines : List (Line U K)) (h : buildLines e o pre (c :: controls) treated all periods = .ok lines)
    (hr : rmse e.root pre treated periods c = none) : ∀ x ∈ lines, x.outcome = none ∧ x.quality = none := by
  obtain ⟨-, -, hq, -, h5, -⟩ := lines_ok h
  have hfold : ∀ l : List (Option K), l.foldl (fun m x => match m, x with
    | some p, some q => if p < q then some q else some p
    | m, _ => m) none = none := by
    intro l
    induction l with
    | nil => rfl
    | cons a l ih => rw [List.foldl_cons]; exact ih
  have hmax : pyMax ((c :: controls).map (rmse e.root pre treated periods)) = none := by
    rw [List.map_cons, hr]
    exact hfold _
  rw [hmax] at h5
  intro x hx
  have hxn : x.outcome = none := by
    have : x.outcome ∈ lines.map (fun x => x.outcome) := List.mem_map.2 ⟨x, hx, rfl⟩
    rw [h5] at this
    simp only [normScores, omap2, List.mem_map] at this
    obtain ⟨_, _, h⟩ := this
    exact h.symm
  refine ⟨hxn, ?_⟩
  rw [hq x hx, hxn]
  cases x.covariate <;> rfl

/-! ### C87: treatment candidates -/

theorem foldl_max_ge (l : List ℕ) (a : ℕ) : a ≤ l.foldl max a ∧ ∀ x ∈ l, x ≤ l.foldl max a := by
  induction l generalizing a with
  | nil => simp
  | cons y l ih =>
    rw [List.foldl_cons]
    obtain ⟨h1, h2⟩ := ih (max a y)
    refine ⟨(le_max_left _ _).trans h1, ?_⟩
    intro x hx
    rcases List.mem_cons.1 hx with rfl | hx
    · exact (le_max_right _ _).trans h1
    · exact h2 x hx

/-- In discovery mode the result has min(n, units with pre-treatment data) distinct units, in descending order of score; defined
scores lie in [0,1]; no unit left out scores strictly higher than one returned. -/
theorem C87_candidates (e : Env U K) (hs : IsSortC e.sortC) (o : Opts U T C K) (rows : List (RRow U T C K)) (l : List (Cand U K))
    (h : rank e o rows = .ok (.candidates l)) :
    (l.map (fun c => c.unit)).Nodup ∧ l.Pairwise (fun a b => geS a.score b.score) ∧
    (∀ c ∈ l, ∀ s, c.score = some s → 0 ≤ s ∧ s ≤ 1) ∧
    (∀ c ∈ l, ∃ r ∈ rows, r.unit = c.unit ∧ IsPre o rows r.time) ∧
    ∃ all : List (Cand U K), (all.map (fun c => c.unit)).Nodup ∧
      (∀ u, (∃ c ∈ all, c.unit = u) ↔ ∃ r ∈ rows, r.unit = u ∧ IsPre o rows r.time) ∧
      l.length = min o.nCand.toNat all.length ∧ (∀ c ∈ l, c ∈ all) ∧
      ∀ c ∈ all, c ∉ l → ∀ d ∈ l, geS d.score c.score := by
  unfold rank at h
  by_cases h1 : ¬ (0 ≤ o.ow ∧ o.ow ≤ 1)
  · rw [if_pos h1] at h; cases h
  rw [if_neg h1] at h
  by_cases h2 : ¬ (0 ≤ o.cw ∧ o.cw ≤ 1)
  · rw [if_pos h2] at h; cases h
  rw [if_neg h2] at h
  by_cases h3 : o.treatedUnits.isSome ∧ o.useCol = true
  · rw [if_pos h3] at h; cases h
  rw [if_neg h3] at h
  by_cases h4 : o.require.any (fun u => decide (u ∈ o.exclude)) = true
  · rw [if_pos h4] at h; cases h
  rw [if_neg h4] at h
  by_cases h5 : prePeriodsOf o rows = []
  · rw [if_pos h5] at h; cases h
  rw [if_neg h5] at h
  by_cases h6 : o.treatedUnits = none ∧ o.useCol = false ∧ o.suggest = false
  · rw [if_pos h6] at h; cases h
  rw [if_neg h6] at h
  dsimp only at h
  by_cases h7 : o.suggest = true ∧ treatedOf o rows = []
  · rw [if_pos h7] at h
    injection h with h
    injection h with h
    set pre := rows.filter (fun r => decide (r.time ∈ prePeriodsOf o rows)) with hprer
    unfold suggest at h
    simp only at h
    set all := (candInfo e rows pre).map (fun c => { c with score := candScore e.root (candInfo e rows pre) c }) with hall
    have hunits : all.map (fun c => c.unit) = (unique (rows.map (fun r => r.unit))).filter (fun u => decide (u ∈ pre.map (fun r => r.unit))) := by
      rw [hall, List.map_map]
      unfold candInfo
      rw [List.map_map]
      exact List.map_id _
    have hnd : (all.map (fun c => c.unit)).Nodup := by rw [hunits]; exact (nodup_unique _).filter _
    have hu : ∀ u, (∃ c ∈ all, c.unit = u) ↔ ∃ r ∈ rows, r.unit = u ∧ IsPre o rows r.time := by
      intro u
      rw [← List.mem_map (f := fun c : Cand U K => c.unit), hunits]
      simp only [List.mem_filter, mem_unique, List.mem_map, decide_eq_true_eq, hprer, mem_prePeriods]
      constructor
      · rintro ⟨-, r, ⟨hr, hrt⟩, hru⟩
        exact ⟨r, hr, hru, hrt⟩
      · rintro ⟨r, hr, hru, hrt⟩
        exact ⟨⟨r, hr, hru⟩, r, ⟨hr, hrt⟩, hru⟩
    have hmem : ∀ c ∈ l, c ∈ all := fun c hc => by
      rw [← h] at hc
      exact (hs all).1.mem_iff.1 (List.mem_of_mem_take hc)
    refine ⟨?_, ?_, ?_, fun c hc => (hu c.unit).1 ⟨c, hmem c hc, rfl⟩, all, hnd, hu, ?_, hmem, ?_⟩
    · rw [← h]
      exact ((((hs all).1.map (fun c => c.unit)).nodup_iff.2 hnd)).sublist ((List.take_sublist _ _).map _)
    · rw [← h]
      exact (hs all).2.sublist (List.take_sublist _ _)
    · intro c hc s hsc
      obtain ⟨c0, -, rfl⟩ := List.mem_map.1 (hmem c hc)
      simp only [candScore, Option.map_eq_some_iff] at hsc
      obtain ⟨z, -, rfl⟩ := hsc
      exact ⟨le_max_left _ _, max_le zero_le_one (min_le_left _ _)⟩
    · rw [← h, List.length_take, (hs all).1.length_eq]
      omega
    · intro c hc hcl d hd
      rw [← h] at hcl hd
      have hsorted := (hs all).2
      have hc' := (hs all).1.mem_iff.2 hc
      rw [← List.take_append_drop (max 0 o.nCand).toNat (e.sortC all)] at hsorted hc'
      exact (List.pairwise_append.1 hsorted).2.2 d hd c ((List.mem_append.1 hc').resolve_left hcl)
  · rw [if_neg h7] at h
    by_cases h8 : treatedOf o rows = []
    · rw [if_pos h8] at h; cases h
    · rw [if_neg h8] at h
      split at h <;> cases h

theorem foldl_max_spec {A : Type*} [LinearOrder A] (l : List A) : ∀ a, a ≤ l.foldl max a ∧ (∀ x ∈ l, x ≤ l.foldl max a) ∧ (l.foldl max a = a ∨ l.foldl max a ∈ l) := by
  induction l with
  | nil => intro a; simp
  | cons b l ih =>
    intro a
    obtain ⟨h1, h2, h3⟩ := ih (max a b)
    rw [List.foldl_cons]
    refine ⟨(le_max_left a b).trans h1, ?_, ?_⟩
    · intro x hx
      rcases List.mem_cons.1 hx with rfl | hx
      · exact (le_max_right a x).trans h1
      · exact h2 x hx
    · rcases h3 with h3 | h3
      · rcases max_choice a b with h | h
        · left; rw [h3, h]
        · right; rw [h3, h]; exact List.mem_cons_self
      · right; exact List.mem_cons_of_mem _ h3

/-- **C87, score.** With `M > 0` the largest number of similar units among the candidates, the score is at most the candidate's share
`n_similar / M`, and equal to it for a candidate whose average outcome is the mean of the candidates' averages. -/
theorem C87_score (root : K → K) (all : List (Cand U K)) (c : Cand U K) (hc : c ∈ all) (s : K)
    (hs : candScore root all c = some s) (M : ℕ) (hM : 0 < M) (hin : ∃ d ∈ all, d.nSimilar = M) (hmax : ∀ d ∈ all, d.nSimilar ≤ M) :
    s * M ≤ c.nSimilar ∧
    (∀ a, c.avg = some a → (all.filterMap Cand.avg).sum = a * (all.filterMap Cand.avg).length → s * M = c.nSimilar) := by
  have hMK : (0 : K) < M := Nat.cast_pos.2 hM
  have hfold : (all.map (fun c => (c.nSimilar : K))).foldl max 0 = M := by
    obtain ⟨_, h2, h3⟩ := foldl_max_spec (all.map (fun c => (c.nSimilar : K))) 0
    obtain ⟨d, hd, hdM⟩ := hin
    refine le_antisymm ?_ (hdM ▸ h2 _ (List.mem_map_of_mem hd))
    rcases h3 with h3 | h3
    · rw [h3]; exact hMK.le
    · obtain ⟨d', hd', h⟩ := List.mem_map.1 h3
      rw [← h]; exact_mod_cast hmax d' hd'
  have hn : (0 : K) ≤ (c.nSimilar : K) / M := div_nonneg (Nat.cast_nonneg _) hMK.le
  have hn1 : (c.nSimilar : K) / M ≤ 1 := by
    rw [div_le_one hMK]; exact_mod_cast hmax c hc
  unfold candScore at hs
  simp only [hfold, if_pos hMK, Option.map_eq_some_iff] at hs
  obtain ⟨z, hz, rfl⟩ := hs
  have hz0 : 0 ≤ z := by
    revert hz
    split
    · split
      · intro hz
        rcases hca : c.avg with _ | a
        · rw [hca] at hz; simp [omap2] at hz
        · rcases hm : nanmean (all.map (fun c => c.avg)) with _ | m
          · rw [hca, hm] at hz; simp [omap2] at hz
          · rw [hca, hm] at hz; simp only [omap2, Option.some.injEq] at hz; rw [← hz]; exact abs_nonneg _
      · intro hz; cases hz; exact le_rfl
    · intro hz; cases hz; exact le_rfl
  constructor
  · rw [← le_div_iff₀ hMK]
    refine max_le hn ((min_le_right _ _).trans ?_)
    have : (0 : K) ≤ 3 / 10 * z := mul_nonneg (by norm_num) hz0
    linarith
  · intro a ha hmean
    have hv : (all.map (fun c => c.avg)).filterMap id = all.filterMap Cand.avg := by
      rw [List.filterMap_map]; rfl
    have hmem : a ∈ all.filterMap Cand.avg := List.mem_filterMap.2 ⟨c, hc, ha⟩
    have hlen : (((all.filterMap Cand.avg).length : ℕ) : K) ≠ 0 := by
      have : 0 < (all.filterMap Cand.avg).length := List.length_pos_of_mem hmem
      exact (Nat.cast_pos.2 this).ne'
    have hnm : nanmean (all.map (fun c => c.avg)) = some a := by
      unfold nanmean
      simp only [hv]
      rw [if_neg (List.ne_nil_of_mem hmem), hmean, mul_div_assoc, div_self hlen, mul_one]
    have hz' : z = 0 := by
      rw [ha, hnm] at hz
      simp only [omap2, sub_self, zero_div, abs_zero, ite_self] at hz
      revert hz
      split <;> (intro hz; cases hz; rfl)
    rw [hz', mul_zero, sub_zero, min_eq_right hn1, max_eq_right hn, div_mul_cancel₀ _ hMK.ne']

/-! ### The assumptions are satisfiable, and concrete cases -/

/-- Descending order, missing last, as a test. -/
def geB : Option K → Option K → Bool
  | _, none => true
  | none, some _ => false
  | some a, some b => decide (b ≤ a)

theorem geB_iff (a b : Option K) : geB a b = true ↔ geS a b := by cases a <;> cases b <;> simp [geB, geS]

theorem insertionSort_spec {α : Type*} (f : α → Option K) (l : List α) :
    (l.insertionSort (fun a b => geB (f a) (f b) = true)).Perm l ∧
      (l.insertionSort (fun a b => geB (f a) (f b) = true)).Pairwise (fun a b => geS (f a) (f b)) := by
  have : Std.Total (α := α) (fun a b => geB (f a) (f b) = true) := ⟨fun a b => by
    rcases h1 : f a with _ | x <;> rcases h2 : f b with _ | y <;> simp [geB]
    exact le_total y x⟩
  have : IsTrans α (fun a b => geB (f a) (f b) = true) := ⟨fun a b c => by
    rcases h1 : f a with _ | x <;> rcases h2 : f b with _ | y <;> rcases h3 : f c with _ | z <;> simp [geB]
    intro h h'; exact h'.trans h⟩
  refine ⟨List.perm_insertionSort _ _, ?_⟩
  exact (List.pairwise_insertionSort (r := fun a b => geB (f a) (f b) = true) l).imp (fun h => (geB_iff _ _).1 h)

/-- An instance of the outside routines: a stable sort, uniform synthetic weights, a failing optimiser on missing data (the
NumPy path takes a matrix norm, which fails on NaN), no optimisation for a single control (utils.py 1043-1044). -/
def demoEnv (U K : Type*) [DecidableEq U] [Field K] [LinearOrder K] : Env U K where
  root := fun x => x
  synth := fun n Y T _ =>
    if n ≤ 1 then .ok (fun _ => some 1)
    else if (Y.flatten ++ T).all Option.isSome then .ok (fun _ => some (1 / (n : K))) else .error .linalg
  slope := fun _ => some 0
  sort := fun l => l.insertionSort (fun a b => geB a.quality b.quality = true)
  sortC := fun l => l.insertionSort (fun a b => geB a.score b.score = true)

theorem demo_sort : IsSort (demoEnv U K).sort ∧ IsSortC (demoEnv U K).sortC :=
  ⟨fun l => insertionSort_spec Line.quality l, fun l => insertionSort_spec Cand.score l⟩

end

/-- Hypotheses of `C87_score`: two similar units out of a maximum of four, average at the mean of the averages. -/
def candsEx : List (Cand ℕ ℚ) :=
  [⟨1, none, some 1, some 0, 4⟩, ⟨2, none, some 2, some 0, 2⟩, ⟨3, none, some 3, some 0, 1⟩]

example : (∀ d ∈ candsEx, d.nSimilar ≤ 4) ∧ (∃ d ∈ candsEx, d.nSimilar = 4) ∧
    (candsEx.filterMap Cand.avg).sum = 2 * (candsEx.filterMap Cand.avg).length ∧
    candScore (fun x => |x|) candsEx ⟨2, none, some 2, some 0, 2⟩ = some (1 / 2) ∧
    candScore (fun x => |x|) candsEx ⟨1, none, some 1, some 0, 4⟩ = some (7 / 10) := by decide +kernel

/-- Four units over two pre-periods: unit 1 is treated, unit 3 follows it exactly, unit 2 is one off, unit 4 two off. -/
def rows4 : List (RRow ℕ ℕ Unit ℚ) :=
  [⟨1, 0, some 1, some 1, fun _ => some 0⟩, ⟨1, 1, some 2, some 1, fun _ => some 0⟩,
   ⟨2, 0, some 2, some 0, fun _ => some 0⟩, ⟨2, 1, some 3, some 0, fun _ => some 0⟩,
   ⟨3, 0, some 1, some 0, fun _ => none⟩, ⟨3, 1, some 2, some 0, fun _ => none⟩,
   ⟨4, 0, some 3, some 0, fun _ => some 1⟩, ⟨4, 1, some 4, some 0, fun _ => some 1⟩]

def units (x : Except Err (Out ℕ ℚ)) : List (ℕ × Option ℚ × Bool) := match x with
  | .ok (.ranking l) => l.map (fun x => (x.unit, x.quality, x.required))
  | .ok (.candidates l) => l.map (fun x => (x.unit, x.score, false))
  | .error _ => []

def opts : Opts ℕ ℕ Unit ℚ := { useCol := true, prePeriods := some [0, 1], ow := 7 / 10, cw := 3 / 10, lam := 0 }

example : units (rank (demoEnv ℕ ℚ) opts rows4) = [(3, some 1, false), (2, some (3 / 4), false), (4, some 0, false)] := by decide +kernel
example : units (rank (demoEnv ℕ ℚ) { opts with require := [4], nTop := some 2 } rows4) =
    [(3, some 1, false), (4, some 0, true)] := by decide +kernel
/-- A required unit that is treated is silently absent. -/
example : units (rank (demoEnv ℕ ℚ) { opts with require := [1, 4], nTop := some 1 } rows4) = [(4, some 0, true)] := by decide +kernel
/-- Covariates are ignored because unit 3 lacks them. -/
example : units (rank (demoEnv ℕ ℚ) { opts with covs := [()] } rows4) =
    [(3, some 1, false), (2, some (3 / 4), false), (4, some 0, false)] := by decide +kernel
/-- Without unit 3 they count: unit 2 has the treated unit's covariate. -/
example : units (rank (demoEnv ℕ ℚ) { opts with covs := [()], exclude := [3] } (rows4.filter (fun r => r.unit ≠ 3))) =
    [(2, some 1, false), (4, some 0, false)] := by decide +kernel
/-- A single control without pre-treatment outcomes gets a missing score (cf. `C50_scores_refuted`). -/
example : units (rank (demoEnv ℕ ℚ) opts [⟨1, 0, some 1, some 1, fun _ => none⟩, ⟨2, 0, none, some 0, fun _ => none⟩]) =
    [(2, none, false)] := by decide +kernel
example : units (rank (demoEnv ℕ ℚ) { opts with useCol := false, suggest := true, nCand := 2 } rows4) =
    [(1, some (83 / 110), false), (3, some (83 / 110), false)] := by decide +kernel
end DiffDiff.PrepRank
