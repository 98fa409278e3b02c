/-
Property C123: the event study plot shows the results.
-/
import Verif.Plot
import Mathlib.Data.List.Sort
import Mathlib.Tactic.Linarith
import Mathlib.Tactic.NormNum

set_option linter.unusedSectionVars false

namespace DiffDiff.Plot

variable {K : Type*} [Field K] [LinearOrder K] [IsStrictOrderedRing K]

/-! ### Dictionaries -/

theorem get_iff {α : Type*} {d : List (ℤ × α)} (h : (d.map Prod.fst).Nodup) (p : ℤ) (v : α) : get d p = some v ↔ (p, v) ∈ d := by
  unfold get
  constructor
  · intro hg
    cases hf : d.reverse.find? (fun x => decide (x.1 = p)) with
    | none => rw [hf] at hg; simp at hg
    | some x =>
      rw [hf] at hg
      have h1 : x ∈ d := List.mem_reverse.1 (List.mem_of_find?_eq_some hf)
      have h2 : x.1 = p := by have := List.find?_some hf; simpa using this
      have h3 : x.2 = v := by simpa using hg
      rw [← h2, ← h3]; exact h1
  · intro hm
    cases hf : d.reverse.find? (fun x => decide (x.1 = p)) with
    | none =>
      rw [List.find?_eq_none] at hf
      exact absurd (by simp) (hf (p, v) (List.mem_reverse.2 hm))
    | some x =>
      have h1 : x ∈ d := List.mem_reverse.1 (List.mem_of_find?_eq_some hf)
      have h2 : x.1 = p := by have := List.find?_some hf; simpa using this
      have : x = (p, v) := List.inj_on_of_nodup_map h h1 hm h2
      rw [this]; rfl

theorem get_none_iff {α : Type*} {d : List (ℤ × α)} (p : ℤ) : get d p = none ↔ ∀ v, (p, v) ∉ d := by
  unfold get
  rw [Option.map_eq_none_iff, List.find?_eq_none]
  constructor
  · intro h v hm
    exact absurd (by simp) (h (p, v) (List.mem_reverse.2 hm))
  · intro h x hx hd
    have h2 : x.1 = p := by simpa using hd
    exact h x.2 (h2 ▸ List.mem_reverse.1 hx)

theorem get_map {α β : Type*} (d : List (ℤ × α)) (f : ℤ → α → β) (p : ℤ) :
    get (d.map (fun x => (x.1, f x.1 x.2))) p = (get d p).map (f p) := by
  unfold get
  rw [← List.map_reverse, List.find?_map]
  have : ((fun x : ℤ × β => decide (x.1 = p)) ∘ fun x : ℤ × α => (x.1, f x.1 x.2)) = fun x : ℤ × α => decide (x.1 = p) := rfl
  rw [this]
  cases hf : d.reverse.find? (fun x => decide (x.1 = p)) with
  | none => rfl
  | some x =>
    have h2 : x.1 = p := by have := List.find?_some hf; simpa using this
    simp [h2]

/-! ### Specification -/

/-- The results contain, for period `p`, the effect `e` and the standard error `s`. -/
def Has (src : Source K) (p : ℤ) (e s : Ext K) : Prop :=
  match src with
  | .frame _ _ _ rows => (p, e, s) ∈ rows
  | .multi effects _ _ => ∃ n, (p, ⟨e, s, n⟩) ∈ effects
  | .event effects => ∃ n, (p, ⟨e, s, n⟩) ∈ effects
  | .direct (some E) (some S) => (p, e) ∈ E ∧ ((p, s) ∈ S ∨ s = .nan ∧ ∀ s', (p, s') ∉ S)
  | _ => False

/-- No period occurs twice. -/
def Distinct (src : Source K) : Prop :=
  match src with
  | .frame _ _ _ rows => (rows.map Prod.fst).Nodup
  | .multi effects _ _ => (effects.map Prod.fst).Nodup
  | .event effects => (effects.map Prod.fst).Nodup
  | .direct E S => (∀ d, E = some d → (d.map Prod.fst).Nodup) ∧ (∀ d, S = some d → (d.map Prod.fst).Nodup)
  | .other => True

/-- The periods to draw: those asked for; by default all rows of a table, the post periods of a MultiPeriodDiD fit, all periods
of an event study in increasing order. -/
def Requested (src : Source K) (a : Args) (l : List ℤ) : Prop :=
  match a.periods, src with
  | some l', _ => l = l'
  | none, .frame _ _ _ rows => l = rows.map Prod.fst
  | none, .multi _ _ post => l = a.post.getD post
  | none, .event effects => l.Pairwise (· < ·) ∧ ∀ p, p ∈ l ↔ p ∈ effects.map Prod.fst
  | none, .direct E _ => ∃ d, E = some d ∧ l.Pairwise (· < ·) ∧ ∀ p, p ∈ l ↔ p ∈ d.map Prod.fst
  | none, .other => False

theorem sortedKeys_lt {α : Type*} (d : List (ℤ × α)) : (sortedKeys d).Pairwise (· < ·) := by
  have h1 : (sortedKeys d).Pairwise (· ≤ ·) := List.pairwise_insertionSort (r := (· ≤ ·)) _
  have h2 : (sortedKeys d).Nodup := (List.perm_insertionSort (· ≤ ·) _).nodup_iff.2 (List.nodup_dedup _)
  exact (h1.and h2).imp fun h => lt_of_le_of_ne h.1 h.2

theorem mem_sortedKeys {α : Type*} (d : List (ℤ × α)) (p : ℤ) : p ∈ sortedKeys d ↔ p ∈ d.map Prod.fst := by
  unfold sortedKeys
  rw [(List.perm_insertionSort (· ≤ ·) _).mem_iff, List.mem_dedup]

theorem sorted_unique {l l' : List ℤ} (h : l.Pairwise (· < ·)) (h' : l'.Pairwise (· < ·)) (hm : ∀ p, p ∈ l ↔ p ∈ l') : l = l' := by
  refine List.Perm.eq_of_pairwise (le := (· ≤ ·)) ?_ (h.imp le_of_lt) (h'.imp le_of_lt)
    ((List.perm_ext_iff_of_nodup (h.imp ne_of_lt) (h'.imp ne_of_lt)).2 hm)
  intro x y _ _ h1 h2; exact le_antisymm h1 h2

theorem requested_iff {src : Source K} {a : Args} {d : Data K} (h : extract src a = .ok d) (l : List ℤ) :
    Requested src a l ↔ l = d.periods.getD (sortedKeys d.effects) := by
  cases src with
  | frame hp he hs rows =>
    simp only [extract] at h
    split_ifs at h
    cases h
    unfold Requested
    cases a.periods <;> simp
  | multi effects pre post =>
    simp only [extract] at h
    cases h
    unfold Requested
    cases a.periods <;> simp
  | event effects =>
    simp only [extract] at h
    cases h
    unfold Requested
    cases a.periods with
    | some l' => simp
    | none =>
      simp only [Option.getD_some, Option.getD_none]
      constructor
      · rintro ⟨h1, h2⟩
        exact sorted_unique h1 (sortedKeys_lt _) (fun p => (h2 p).trans (mem_sortedKeys _ p).symm)
      · rintro rfl
        exact ⟨sortedKeys_lt _, mem_sortedKeys _⟩
  | other => simp [extract] at h
  | direct E S =>
    cases E with
    | none => simp [extract] at h
    | some E =>
      cases S with
      | none => simp [extract] at h
      | some S =>
        simp only [extract] at h
        cases h
        unfold Requested
        cases ha : a.periods with
        | some l' => simp
        | none =>
          simp only [Option.getD_none, Option.some.injEq]
          constructor
          · rintro ⟨d, rfl, h1, h2⟩
            exact sorted_unique h1 (sortedKeys_lt _) (fun p => (h2 p).trans (mem_sortedKeys _ p).symm)
          · rintro rfl
            exact ⟨E, rfl, sortedKeys_lt _, mem_sortedKeys _⟩

theorem has_entries {effects : List (ℤ × Entry K)} (hd : (effects.map Prod.fst).Nodup) (p : ℤ) (e s : Ext K) :
    (∃ n, (p, (⟨e, s, n⟩ : Entry K)) ∈ effects) ↔
      get (effects.map (fun x => (x.1, x.2.effect))) p = some e ∧ (get (effects.map (fun x => (x.1, x.2.se))) p).getD .nan = s := by
  rw [get_map effects (fun _ x => x.effect), get_map effects (fun _ x => x.se)]
  constructor
  · rintro ⟨n, h⟩
    rw [(get_iff hd p _).2 h]
    exact ⟨rfl, rfl⟩
  · rintro ⟨h1, h2⟩
    cases hg : get effects p with
    | none => rw [hg] at h1; simp at h1
    | some x =>
      rw [hg] at h1 h2
      obtain ⟨e', s', n⟩ := x
      simp only [Option.map_some, Option.some.injEq, Option.getD_some] at h1 h2
      subst h1 h2
      exact ⟨n, (get_iff hd p _).1 hg⟩

theorem has_iff {src : Source K} {a : Args} {d : Data K} (h : extract src a = .ok d) (hd : Distinct src) (p : ℤ) (e s : Ext K) :
    Has src p e s ↔ get d.effects p = some e ∧ (get d.se p).getD .nan = s := by
  cases src with
  | frame hp he hs rows =>
    simp only [extract] at h
    split_ifs at h
    cases h
    unfold Has
    simp only
    rw [get_map rows (fun _ x => x.1), get_map rows (fun _ x => x.2)]
    constructor
    · intro hm
      rw [(get_iff hd p _).2 hm]
      exact ⟨rfl, rfl⟩
    · rintro ⟨h1, h2⟩
      cases hg : get rows p with
      | none => rw [hg] at h1; simp at h1
      | some x =>
        rw [hg] at h1 h2
        obtain ⟨e', s'⟩ := x
        simp only [Option.map_some, Option.some.injEq, Option.getD_some] at h1 h2
        subst h1 h2
        exact (get_iff hd p _).1 hg
  | multi effects pre post =>
    simp only [extract] at h
    cases h
    exact has_entries hd p e s
  | event effects =>
    simp only [extract] at h
    cases h
    exact has_entries hd p e s
  | other => simp [extract] at h
  | direct E S =>
    cases E with
    | none => simp [extract] at h
    | some E =>
      cases S with
      | none => simp [extract] at h
      | some S =>
        simp only [extract] at h
        cases h
        unfold Has
        have h1 := hd.1 E rfl
        have h2 := hd.2 S rfl
        simp only
        rw [get_iff h1]
        refine and_congr_right fun _ => ?_
        cases hg : get S p with
        | none =>
          have hn := (get_none_iff p).1 hg
          simp only [Option.getD_none]
          constructor
          · rintro (hm | ⟨rfl, -⟩)
            · exact absurd hm (hn s)
            · rfl
          · rintro rfl
            exact Or.inr ⟨rfl, hn⟩
        | some v =>
          have hm := (get_iff h2 p v).1 hg
          simp only [Option.getD_some]
          constructor
          · rintro (hm' | ⟨-, hn⟩)
            · have := (get_iff h2 p s).2 hm'
              rw [hg] at this
              exact Option.some.inj this
            · exact absurd hm (hn v)
          · rintro rfl
            exact Or.inl hm

/-! ### Points -/

theorem isNan_iff (e : Ext K) : e.isNan = true ↔ e = .nan := by cases e <;> simp [Ext.isNan]

theorem point_some {z : K} {eff se : List (ℤ × Ext K)} {ref : Option ℤ} {p : ℤ} {q : Point K} (h : point z eff se ref p = some q) :
    q.period = p ∧ get eff p = some q.effect ∧ q.effect ≠ .nan ∧ q.se = (get se p).getD .nan ∧ q.isRef = decide (some p = ref) ∧
    (∀ e s, q.effect = .fin e → q.se = .fin s → q.lower = .fin (e - z * s) ∧ q.upper = .fin (e + z * s)) ∧
    (q.se.isFinite = false → q.lower = .nan ∧ q.upper = .nan) := by
  unfold point at h
  dsimp only at h
  by_cases hn : ((get eff p).getD .nan).isNan = true
  · rw [if_pos hn] at h; cases h
  · rw [if_neg hn] at h
    rw [isNan_iff] at hn
    have hs : ∃ e, get eff p = some e := by
      cases hg : get eff p with
      | none => rw [hg] at hn; simp at hn
      | some e => exact ⟨e, rfl⟩
    obtain ⟨e, he⟩ := hs
    rw [he, Option.getD_some] at hn h
    by_cases hf : ((get se p).getD .nan).isFinite = true
    · rw [if_pos hf] at h
      cases h
      refine ⟨rfl, he, hn, rfl, rfl, ?_, ?_⟩
      · rintro e' s' h1 h2
        dsimp only at h1 h2 ⊢
        rw [h1, h2]
        exact ⟨by simp [Ext.sub, Ext.neg, Ext.add, Ext.mul, sub_eq_add_neg], by simp [Ext.add, Ext.mul]⟩
      · intro h1
        dsimp only at h1
        rw [hf] at h1; cases h1
    · rw [if_neg hf] at h
      cases h
      refine ⟨rfl, he, hn, rfl, rfl, ?_, ?_⟩
      · rintro e' s' h1 h2
        dsimp only at h1 h2
        rw [h2] at hf
        simp [Ext.isFinite] at hf
      · intro _; exact ⟨rfl, rfl⟩

theorem point_isSome (z : K) (eff se : List (ℤ × Ext K)) (ref : Option ℤ) (p : ℤ) {e : Ext K} (h : get eff p = some e) (hn : e ≠ .nan) :
    ∃ q, point z eff se ref p = some q := by
  unfold point
  dsimp only
  rw [h, Option.getD_some, if_neg (by rw [isNan_iff]; exact hn)]
  exact ⟨_, rfl⟩

/-- The plotted points of a successful call. -/
theorem plot_points {z : K} {src : Source K} {a : Args} {d : Data K} (hx : extract src a = .ok d) {fig : Figure K} (h : plot z src a = .ok fig) :
    fig.points = (d.periods.getD (sortedKeys d.effects)).filterMap (point z (normalize (explicit a d) d).1 (normalize (explicit a d) d).2 d.reference) := by
  unfold plot at h
  rw [hx] at h
  dsimp only at h
  split_ifs at h
  cases h
  rfl

theorem plot_extract {z : K} {src : Source K} {a : Args} {fig : Figure K} (h : plot z src a = .ok fig) : ∃ d, extract src a = .ok d := by
  unfold plot at h
  cases hx : extract src a with
  | error e => rw [hx] at h; cases h
  | ok d => exact ⟨d, rfl⟩

theorem explicit_reference {src : Source K} {a : Args} {d : Data K} (h : extract src a = .ok d) (r : ℤ) (hr : a.reference = some r) :
    d.reference = some r ∧ explicit a d = true := by
  cases src with
  | frame hp he hs rows =>
    simp only [extract] at h
    split_ifs at h
    cases h
    simp [explicit, hr]
  | multi effects pre post => simp only [extract] at h; cases h; simp [explicit, hr]
  | event effects => simp only [extract] at h; cases h; simp [explicit, hr]
  | other => simp [extract] at h
  | direct E S =>
    cases E with
    | none => simp [extract] at h
    | some E =>
      cases S with
      | none => simp [extract] at h
      | some S => simp only [extract] at h; cases h; simp [explicit, hr]

theorem normalize_none {a : Args} {d : Data K} (hr : a.reference = none) : normalize (explicit a d) d = (d.effects, d.se) := by
  have : explicit a d = false := by simp [explicit, hr]
  unfold normalize
  rw [this]
  cases d.reference with
  | none => rfl
  | some r =>
    simp only
    cases get d.effects r with
    | none => rfl
    | some e => simp

/-- Common part of the two theorems on points. -/
theorem points_iff {z : K} {src : Source K} {a : Args} {d : Data K} (hx : extract src a = .ok d) {fig : Figure K} (h : plot z src a = .ok fig)
    (p : ℤ) (e s : Ext K) :
    (∃ q ∈ fig.points, q.period = p ∧ q.effect = e ∧ q.se = s) ↔
      p ∈ d.periods.getD (sortedKeys d.effects) ∧ get (normalize (explicit a d) d).1 p = some e ∧ e ≠ .nan ∧
        (get (normalize (explicit a d) d).2 p).getD .nan = s := by
  rw [plot_points hx h]
  constructor
  · rintro ⟨q, hq, rfl, rfl, rfl⟩
    obtain ⟨p', hp', hq'⟩ := List.mem_filterMap.1 hq
    obtain ⟨h1, h2, h3, h4, -, -, -⟩ := point_some hq'
    subst h1
    exact ⟨hp', h2, h3, h4.symm⟩
  · rintro ⟨h1, h2, h3, h4⟩
    obtain ⟨q, hq⟩ := point_isSome z _ (normalize (explicit a d) d).2 d.reference p h2 h3
    obtain ⟨g1, g2, g3, g4, -, -, -⟩ := point_some hq
    refine ⟨q, List.mem_filterMap.2 ⟨p, h1, hq⟩, g1, ?_, ?_⟩
    · rw [h2] at g2; exact (Option.some.inj g2).symm
    · rw [g4, h4]

/-- C123. Without a reference period argument, the plot shows exactly the requested periods whose estimate is a number, with the
estimate and standard error of the results; nothing is moved. -/
theorem C123_points (z : K) (src : Source K) (a : Args) (hd : Distinct src) (hr : a.reference = none) (l : List ℤ) (hl : Requested src a l)
    (fig : Figure K) (h : plot z src a = .ok fig) (p : ℤ) (e s : Ext K) :
    (∃ q ∈ fig.points, q.period = p ∧ q.effect = e ∧ q.se = s) ↔ p ∈ l ∧ Has src p e s ∧ e ≠ .nan := by
  obtain ⟨d, hx⟩ := plot_extract h
  rw [points_iff hx h, normalize_none hr, has_iff hx hd, (requested_iff hx l).1 hl]
  tauto

/-- C123. Points are drawn in the order of the requested periods, and the call fails exactly when there is nothing to draw. -/
theorem C123_order (z : K) (src : Source K) (a : Args) (l : List ℤ) (hl : Requested src a l) (fig : Figure K) (h : plot z src a = .ok fig) :
    (fig.points.map Point.period).Sublist l ∧ fig.points ≠ [] := by
  obtain ⟨d, hx⟩ := plot_extract h
  constructor
  · rw [plot_points hx h, (requested_iff hx l).1 hl]
    generalize d.periods.getD (sortedKeys d.effects) = m
    generalize (normalize (explicit a d) d).1 = E
    generalize (normalize (explicit a d) d).2 = S
    induction m with
    | nil => simp
    | cons p m ih =>
      rw [List.filterMap_cons]
      cases hq : point z E S d.reference p with
      | none => exact ih.trans (List.sublist_cons_self _ _)
      | some q =>
        rw [List.map_cons, (point_some hq).1]
        exact ih.cons_cons p
  · unfold plot at h
    rw [hx] at h
    dsimp only at h
    split_ifs at h with h0
    cases h
    exact fun hn => h0 (List.length_eq_zero_iff.2 hn)

theorem C123_fails (z : K) (src : Source K) (a : Args) (hd : Distinct src) (hr : a.reference = none) (l : List ℤ) (hl : Requested src a l) :
    plot z src a = .error .noData ↔ (∃ d, extract src a = .ok d) ∧ ∀ p ∈ l, ∀ e s, Has src p e s → e = .nan := by
  cases hx : extract src a with
  | error e =>
    have : plot z src a = .error e := by unfold plot; rw [hx]
    rw [this]
    constructor
    · rintro h
      exfalso
      have he : e = .noData := by simpa using h
      subst he
      cases src with
      | frame hp he hs rows => simp only [extract] at hx; split_ifs at hx <;> cases hx
      | multi effects pre post => simp [extract] at hx
      | event effects => simp [extract] at hx
      | other => simp [extract] at hx
      | direct E S => cases E <;> cases S <;> simp [extract] at hx
    · rintro ⟨⟨d, hd'⟩, -⟩; cases hd'
  | ok d =>
    have hp : plot z src a = .error .noData ↔ (l.filterMap (point z d.effects d.se d.reference)) = [] := by
      unfold plot
      rw [hx]
      dsimp only
      rw [normalize_none hr, ← (requested_iff hx l).1 hl]
      dsimp only
      by_cases h0 : (l.filterMap (point z d.effects d.se d.reference)).length = 0
      · rw [if_pos h0]; simp [List.length_eq_zero_iff.1 h0]
      · rw [if_neg h0]
        constructor
        · intro h; cases h
        · intro h; exact absurd (by rw [h]; rfl) h0
    rw [hp, List.filterMap_eq_nil_iff]
    constructor
    · intro h
      refine ⟨⟨d, rfl⟩, fun p hp' e s hh => ?_⟩
      by_contra hne
      obtain ⟨q, hq⟩ := point_isSome z d.effects d.se d.reference p ((has_iff hx hd p e s).1 hh).1 hne
      rw [h p hp'] at hq; cases hq
    · rintro ⟨-, h⟩ p hp'
      cases hq : point z d.effects d.se d.reference p with
      | none => rfl
      | some q =>
        obtain ⟨g1, g2, g3, g4, -, -, -⟩ := point_some hq
        exact absurd (h p hp' _ _ ((has_iff hx hd p _ _).2 ⟨g2, rfl⟩)) g3

/-- C123. A reference period given by the user whose estimate is a finite number: every estimate is shown relative to it, the reference itself at
zero and without interval, other standard errors as in the results. -/
theorem C123_reference (z : K) (src : Source K) (a : Args) (hd : Distinct src) (r : ℤ) (hr : a.reference = some r) (l : List ℤ) (hl : Requested src a l)
    (e0 : K) (s0 : Ext K) (h0 : Has src r (.fin e0) s0) (fig : Figure K) (h : plot z src a = .ok fig) (p : ℤ) (e s : Ext K) :
    (∃ q ∈ fig.points, q.period = p ∧ q.effect = e ∧ q.se = s) ↔
      p ∈ l ∧ (∃ e' s', Has src p e' s' ∧ e' ≠ .nan ∧ e = Ext.sub e' (.fin e0) ∧ s = if p = r then .nan else s') := by
  obtain ⟨d, hx⟩ := plot_extract h
  obtain ⟨hdr, hex⟩ := explicit_reference hx r hr
  have hg := ((has_iff hx hd r _ _).1 h0).1
  have hn : normalize (explicit a d) d = (d.effects.map (fun x => (x.1, Ext.sub x.2 (.fin e0))), d.se.map (fun x => (x.1, if x.1 = r then .nan else x.2))) := by
    unfold normalize
    rw [hex, hdr]
    simp only [hg]
    simp [Ext.isFinite]
  rw [points_iff hx h, hn, ← (requested_iff hx l).1 hl]
  simp only
  rw [get_map d.effects (fun _ x => Ext.sub x (.fin e0)), get_map d.se (fun p' x => if p' = r then .nan else x)]
  refine and_congr_right fun _ => ?_
  have sub_nan : ∀ x : Ext K, Ext.sub x (.fin e0) ≠ .nan ↔ x ≠ .nan := by
    intro x; cases x <;> simp [Ext.sub, Ext.neg, Ext.add]
  constructor
  · rintro ⟨h1, h2, h3⟩
    cases hgp : get d.effects p with
    | none => rw [hgp] at h1; simp at h1
    | some e' =>
      rw [hgp] at h1
      simp only [Option.map_some, Option.some.injEq] at h1
      subst h1
      refine ⟨e', (get d.se p).getD .nan, (has_iff hx hd p _ _).2 ⟨hgp, rfl⟩, (sub_nan e').1 h2, rfl, ?_⟩
      rw [← h3]
      cases get d.se p with
      | none => simp
      | some v => rfl
  · rintro ⟨e', s', hh, hne, rfl, rfl⟩
    obtain ⟨g1, g2⟩ := (has_iff hx hd p _ _).1 hh
    refine ⟨by rw [g1]; rfl, (sub_nan e').2 hne, ?_⟩
    rw [← g2]
    cases get d.se p with
    | none => simp
    | some v => rfl

/-- C123. Error bars: with a finite standard error the interval is symmetric about the drawn estimate with half-width `z` standard
errors, otherwise there is none; the reference is marked. -/
theorem C123_interval (z : K) (src : Source K) (a : Args) (fig : Figure K) (h : plot z src a = .ok fig) (q : Point K) (hq : q ∈ fig.points) :
    (∀ e s, q.effect = .fin e → q.se = .fin s → q.lower = .fin (e - z * s) ∧ q.upper = .fin (e + z * s)) ∧
    (q.se.isFinite = false → q.lower = .nan ∧ q.upper = .nan) ∧ (∀ r, a.reference = some r → (q.isRef = true ↔ q.period = r)) := by
  obtain ⟨d, hx⟩ := plot_extract h
  rw [plot_points hx h] at hq
  obtain ⟨p, _, hq'⟩ := List.mem_filterMap.1 hq
  obtain ⟨g1, -, -, -, g5, g6, g7⟩ := point_some hq'
  refine ⟨g6, g7, fun r hr => ?_⟩
  rw [g5, (explicit_reference hx r hr).1, g1, decide_eq_true_eq, Option.some.injEq]

/-! ### Positions -/

theorem position_iff {pts : List (Point K)} (hn : (pts.map Point.period).Nodup) (p : ℤ) (i : ℕ) :
    position pts p = some i ↔ ∃ q, pts[i]? = some q ∧ q.period = p := by
  unfold position
  have key : ∀ x ∈ pts.zipIdx, pts[x.2]? = some x.1 := by
    rintro ⟨q, j⟩ hx
    exact (List.mem_zipIdx_iff_getElem?).1 hx
  have uniq : ∀ (i j : ℕ) (q q' : Point K), pts[i]? = some q → pts[j]? = some q' → q.period = q'.period → i = j := by
    intro i j q q' h1 h2 h3
    obtain ⟨hi, e1⟩ := List.getElem?_eq_some_iff.1 h1
    obtain ⟨hj, e2⟩ := List.getElem?_eq_some_iff.1 h2
    have := (List.Nodup.getElem_inj_iff hn (hi := by simpa using hi) (hj := by simpa using hj) (i := i) (j := j)).1
      (by rw [List.getElem_map, List.getElem_map, e1, e2, h3])
    exact this
  constructor
  · intro h
    cases hf : pts.zipIdx.reverse.find? (fun x => decide (x.1.period = p)) with
    | none => rw [hf] at h; simp at h
    | some x =>
      rw [hf] at h
      have h1 := key x (List.mem_reverse.1 (List.mem_of_find?_eq_some hf))
      have h2 : x.1.period = p := by have := List.find?_some hf; simpa using this
      have h3 : x.2 = i := by simpa using h
      rw [h3] at h1
      exact ⟨x.1, h1, h2⟩
  · rintro ⟨q, h1, h2⟩
    cases hf : pts.zipIdx.reverse.find? (fun x => decide (x.1.period = p)) with
    | none =>
      rw [List.find?_eq_none] at hf
      exact absurd (by simpa using h2) (hf (q, i) (List.mem_reverse.2 ((List.mem_zipIdx_iff_getElem?).2 h1)))
    | some x =>
      have g1 := key x (List.mem_reverse.1 (List.mem_of_find?_eq_some hf))
      have g2 : x.1.period = p := by have := List.find?_some hf; simpa using this
      have := uniq _ _ _ _ g1 h1 (g2.trans h2.symm)
      simp [this]

/-- C123. With distinct requested periods the points stand at positions 0, 1, 2, ... in their order, and the reference line at the
point of the reference period, if drawn. -/
theorem C123_positions (z : K) (src : Source K) (a : Args) (l : List ℤ) (hl : Requested src a l) (hn : l.Nodup) (fig : Figure K) (h : plot z src a = .ok fig) :
    fig.xs = List.range fig.points.length ∧
    (∀ r, a.reference = some r → ∀ i, fig.refLine = some i ↔ ∃ q, fig.points[i]? = some q ∧ q.period = r) := by
  have hs := (C123_order z src a l hl fig h).1
  have hnd : (fig.points.map Point.period).Nodup := hs.nodup hn
  obtain ⟨d, hx⟩ := plot_extract h
  have hxs : fig.xs = fig.points.filterMap (fun q => position fig.points q.period) ∧ fig.refLine = d.reference.bind (position fig.points) := by
    have h' := h
    unfold plot at h'
    rw [hx] at h'
    dsimp only at h'
    split_ifs at h'
    cases h'
    exact ⟨rfl, rfl⟩
  constructor
  · rw [hxs.1]
    have gen : fig.points.map (fun q => position fig.points q.period) = (List.range fig.points.length).map some := by
      apply List.ext_getElem
      · simp
      · intro j h1 h2
        have hj : j < fig.points.length := by simpa using h1
        rw [List.getElem_map, List.getElem_map, List.getElem_range]
        exact (position_iff hnd _ j).2 ⟨_, List.getElem?_eq_getElem hj, rfl⟩
    have e : fig.points.filterMap (fun q => position fig.points q.period) =
        (fig.points.map (fun q => position fig.points q.period)).filterMap id := by
      rw [List.filterMap_map]; rfl
    rw [e, gen, List.filterMap_map]
    simp
  · intro r hr i
    rw [hxs.2, (explicit_reference hx r hr).1, Option.bind_some, position_iff hnd]

/-- C123. Event study results drawn by default: a point lies in the shaded range exactly if its period is before treatment. -/
theorem C123_shade (z : K) (effects : List (ℤ × Entry K)) (fig : Figure K) (h : plot z (.event effects) {} = .ok fig) (i : ℕ) (q : Point K)
    (hq : fig.points[i]? = some q) : q.period < 0 ↔ ∃ l u, fig.shade = some (l, u) ∧ l ≤ i ∧ i ≤ u := by
  have hl : Requested (.event effects) ({} : Args) (sortedKeys effects) := ⟨sortedKeys_lt _, mem_sortedKeys _⟩
  have hs := (C123_order z _ {} _ hl fig h).1
  have hsort : (fig.points.map Point.period).Pairwise (· < ·) := (sortedKeys_lt effects).sublist hs
  have hnd : (fig.points.map Point.period).Nodup := hsort.imp ne_of_lt
  have hsh : fig.shade = match (((sortedKeys effects).filter (fun p => decide (p < 0))).filterMap (position fig.points)).min?,
      (((sortedKeys effects).filter (fun p => decide (p < 0))).filterMap (position fig.points)).max? with
      | some l, some u => some (l, u)
      | _, _ => none := by
    have h' := h
    unfold plot at h'
    simp only [extract] at h'
    split_ifs at h'
    cases h'
    rfl
  set P := ((sortedKeys effects).filter (fun p => decide (p < 0))).filterMap (position fig.points) with hP
  have memP : ∀ j, j ∈ P ↔ ∃ q', fig.points[j]? = some q' ∧ q'.period < 0 := by
    intro j
    rw [hP, List.mem_filterMap]
    constructor
    · rintro ⟨p, hp, hj⟩
      obtain ⟨q', h1, h2⟩ := (position_iff hnd p j).1 hj
      have := (List.mem_filter.1 hp).2
      exact ⟨q', h1, by rw [h2]; simpa using this⟩
    · rintro ⟨q', h1, h2⟩
      refine ⟨q'.period, List.mem_filter.2 ⟨hs.subset (List.mem_map.2 ⟨q', List.mem_of_getElem? h1, rfl⟩), by simpa using h2⟩, ?_⟩
      exact (position_iff hnd _ j).2 ⟨q', h1, rfl⟩
  constructor
  · intro hneg
    have hi : i ∈ P := (memP i).2 ⟨q, hq, hneg⟩
    have hne : P ≠ [] := List.ne_nil_of_mem hi
    obtain ⟨l, hl'⟩ : ∃ l, P.min? = some l := by
      cases hm : P.min? with
      | none => exact absurd (List.min?_eq_none_iff.1 hm) hne
      | some l => exact ⟨l, rfl⟩
    obtain ⟨u, hu⟩ : ∃ u, P.max? = some u := by
      cases hm : P.max? with
      | none => exact absurd (List.max?_eq_none_iff.1 hm) hne
      | some l => exact ⟨l, rfl⟩
    refine ⟨l, u, by rw [hsh, hl', hu], ?_, ?_⟩
    · exact (List.min?_eq_some_iff.1 hl').2 i hi
    · exact (List.max?_eq_some_iff.1 hu).2 i hi
  · rintro ⟨l, u, hshade, -, hiu⟩
    rw [hsh] at hshade
    cases hm : P.max? with
    | none =>
      rw [hm] at hshade
      cases hmin : P.min? <;> rw [hmin] at hshade <;> cases hshade
    | some u' =>
      rw [hm] at hshade
      cases hmin : P.min? with
      | none => rw [hmin] at hshade; cases hshade
      | some l' =>
        rw [hmin] at hshade
        simp only [Option.some.injEq, Prod.mk.injEq] at hshade
        obtain ⟨-, rfl⟩ := hshade
        obtain ⟨q', h1, h2⟩ := (memP u').1 (List.max?_eq_some_iff.1 hm).1
        rcases lt_or_eq_of_le hiu with hlt | rfl
        · obtain ⟨ha, e1⟩ := List.getElem?_eq_some_iff.1 hq
          obtain ⟨hb, e2⟩ := List.getElem?_eq_some_iff.1 h1
          have := List.pairwise_iff_getElem.1 hsort i u' (by simpa using ha) (by simpa using hb) hlt
          rw [List.getElem_map, List.getElem_map, e1, e2] at this
          exact this.trans h2
        · rw [hq] at h1
          cases h1
          exact h2

/-- C123. Event study results drawn by default: if some period is marked by the estimator as the normalisation (no groups), the first such period is the
one shown as reference. -/
theorem C123_inferred (z : K) (effects : List (ℤ × Entry K)) (hd : (effects.map Prod.fst).Nodup) (r : ℤ) (x : Entry K) (hr : (r, x) ∈ effects)
    (h0 : x.groups = some 0) (hu : ∀ y ∈ effects, y.2.groups = some 0 → y.1 = r) (fig : Figure K) (h : plot z (.event effects) {} = .ok fig)
    (q : Point K) (hq : q ∈ fig.points) : q.isRef = true ↔ q.period = r := by
  obtain ⟨d, hx⟩ := plot_extract h
  have hdr : d.reference = some r := by
    simp only [extract] at hx
    cases hx
    simp only [Option.getD_none, Option.some.injEq]
    unfold inferReference
    cases hf : effects.find? (fun x => decide (x.2.groups.getD 1 = 0)) with
    | none =>
      rw [List.find?_eq_none] at hf
      exact absurd (by simp [h0]) (hf (r, x) hr)
    | some y =>
      have h1 := List.mem_of_find?_eq_some hf
      have h2 : y.2.groups.getD 1 = 0 := by have := List.find?_some hf; simpa using this
      have h3 : y.2.groups = some 0 := by
        cases hg : y.2.groups with
        | none => rw [hg] at h2; simp at h2
        | some n => rw [hg] at h2; simpa using h2
      exact hu y h1 h3
  rw [plot_points hx h] at hq
  obtain ⟨p, _, hq'⟩ := List.mem_filterMap.1 hq
  obtain ⟨g1, -, -, -, g5, -, -⟩ := point_some hq'
  rw [g5, hdr, g1, decide_eq_true_eq, Option.some.injEq]

/-! ### Refuted readings -/

/-- Refuted reading of C123: the interval drawn need not be the one reported. The plot recomputes intervals with the normal critical
value; with any larger reported critical value (a t distribution), there are results whose drawn interval excludes zero although the reported one contains it. -/
theorem C123_reported_interval_refuted (z t : K) (hz : 0 < z) (ht : z < t) :
    ∃ (e s : K) (fig : Figure K) (q : Point K), plot z (.event [(0, ⟨.fin e, .fin s, some 1⟩)]) {} = .ok fig ∧ fig.points = [q] ∧
      (∃ lo, q.lower = .fin lo ∧ 0 < lo) ∧ e - t * s < 0 ∧ 0 < e + t * s := by
  have hk : sortedKeys [((0 : ℤ), (⟨.fin ((z + t) / 2), .fin 1, some 1⟩ : Entry K))] = [0] := rfl
  have hk' : sortedKeys [((0 : ℤ), (.fin ((z + t) / 2) : Ext K))] = [0] := rfl
  have hpt : point z [((0 : ℤ), (.fin ((z + t) / 2) : Ext K))] [(0, .fin 1)] (some (-1)) 0 =
      some { period := 0, effect := .fin ((z + t) / 2), se := .fin 1, lower := .fin ((z + t) / 2 + -(z * 1)), upper := .fin ((z + t) / 2 + z * 1), isRef := false } := by
    simp [point, get, Ext.isNan, Ext.isFinite, Ext.sub, Ext.neg, Ext.add, Ext.mul]
  refine ⟨(z + t) / 2, 1, _, _, by
    unfold plot
    simp [extract, hk, inferReference, normalize, explicit, get, hpt]
    rfl, rfl, ⟨_, rfl, by linarith⟩, by linarith, by linarith⟩

/-- Refuted reading of C123: results without a marked normalisation period (SunAbraham never stores one) fall back to period -1, so an estimated
effect with a standard error is drawn as the reference period. -/
theorem C123_marker_refuted :
    ∃ (effects : List (ℤ × Entry ℚ)) (fig : Figure ℚ) (q : Point ℚ), plot 2 (.event effects) {} = .ok fig ∧ q ∈ fig.points ∧
      q.isRef = true ∧ q.effect = .fin 5 ∧ q.se = .fin 1 := by
  refine ⟨[(-3, ⟨.fin 1, .fin 1, some 2⟩), (-1, ⟨.fin 5, .fin 1, some 2⟩), (0, ⟨.fin 7, .fin 1, some 2⟩)], _,
    ⟨-1, .fin 5, .fin 1, .fin 3, .fin 7, true⟩, rfl, ?_, rfl, rfl, rfl⟩
  decide +kernel

/-- Refuted reading of C123: a table with a repeated period draws the last row twice, and the first row never. -/
theorem C123_duplicate_refuted :
    ∃ (rows : List (ℤ × Ext ℚ × Ext ℚ)) (fig : Figure ℚ), plot 2 (.frame true true true rows) {} = .ok fig ∧ rows.length = 2 ∧
      (1, .fin 1, .fin 1) ∈ rows ∧ fig.points.map Point.effect = [.fin 5, .fin 5] ∧ fig.xs = [1, 1] := by
  refine ⟨[(1, .fin 1, .fin 1), (1, .fin 5, .fin 1)], _, rfl, rfl, ?_, ?_, ?_⟩ <;> decide +kernel

/-- Refuted reading of C123: a reference period that is not among the estimated effects (for MultiPeriodDiD results, every pre period) is silently ignored:
the figure is the one drawn without a reference. -/
theorem C123_unknown_reference_refuted (z : K) (effects : List (ℤ × Entry K)) (pre post : List ℤ) (a : Args) (r : ℤ) (hr : a.reference = none)
    (hp : (a.periods.getD (a.post.getD post)).all (fun p => decide (p ≠ r)) = true)
    (hn : ∀ x, (r, x) ∉ effects) : plot z (.multi effects pre post) { a with reference := some r } = plot z (.multi effects pre post) a := by
  have hg : get (effects.map (fun x => (x.1, x.2.effect))) r = none := by
    rw [get_map effects (fun _ x => x.effect), (get_none_iff r).2 hn]; rfl
  have hpts : ∀ E S : List (ℤ × Ext K), (a.periods.getD (a.post.getD post)).filterMap (point z E S (some r)) =
      (a.periods.getD (a.post.getD post)).filterMap (point z E S none) := by
    intro E S
    apply List.filterMap_congr
    intro p hp'
    have : p ≠ r := by have := List.all_eq_true.1 hp p hp'; simpa using this
    unfold point
    simp [this]
  have hpos : position ((a.periods.getD (a.post.getD post)).filterMap
      (point z (effects.map (fun x => (x.1, x.2.effect))) (effects.map (fun x => (x.1, x.2.se))) none)) r = none := by
    unfold position
    rw [Option.map_eq_none_iff, List.find?_eq_none]
    rintro ⟨q, j⟩ hx
    have hq : q ∈ (a.periods.getD (a.post.getD post)).filterMap (point z (effects.map (fun x => (x.1, x.2.effect))) (effects.map (fun x => (x.1, x.2.se))) none) :=
      List.mem_of_getElem? (List.mem_zipIdx_iff_getElem?.1 (List.mem_reverse.1 hx))
    obtain ⟨p, hp', hq'⟩ := List.mem_filterMap.1 hq
    have h1 := (point_some hq').1
    have : p ≠ r := by have := List.all_eq_true.1 hp p hp'; simpa using this
    simpa [h1] using this
  unfold plot
  simp only [extract, normalize, explicit, hg, hr, Option.getD_some, hpts, Option.bind_some, Option.bind_none, hpos]
  rfl

/-! ### Concrete cases -/

/-- Four event times, the normalisation at -1 without standard error, one missing estimate. -/
def demo : List (ℤ × Entry ℚ) :=
  [(0, ⟨.fin 3, .fin 1, some 2⟩), (-2, ⟨.fin (1/2), .fin (1/2), some 2⟩), (-1, ⟨.fin 0, .nan, some 0⟩), (1, ⟨.nan, .nan, some 1⟩)]

example : (plot 2 (.event demo) {}).toOption.map (fun f => (f.points, f.xs, f.shade, f.refLine)) =
    some ([⟨-2, .fin (1/2), .fin (1/2), .fin (-1/2), .fin (3/2), false⟩, ⟨-1, .fin 0, .nan, .nan, .nan, true⟩,
      ⟨0, .fin 3, .fin 1, .fin 1, .fin 5, false⟩], [0, 1, 2], some (0, 1), some 1) := by decide +kernel

/-- The same with period 0 as explicit reference. -/
example : (plot 2 (.event demo) { reference := some 0 }).toOption.map (fun f => f.points.map (fun q => (q.period, q.effect, q.se))) =
    some [(-2, .fin (-5/2), .fin (1/2)), (-1, .fin (-3), .nan), (0, .fin 0, .nan)] := by decide +kernel

example : Distinct (.event demo) := by unfold Distinct; decide +kernel

example : Requested (.event demo) {} [-2, -1, 0, 1] := by
  refine ⟨by decide, ?_⟩
  intro p; simp [demo]; tauto

example : Has (.event demo) 0 (.fin 3) (.fin 1) := ⟨some 2, by simp [demo]⟩

end DiffDiff.Plot
