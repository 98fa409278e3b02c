/-
Property C139 for the Goodman-Bacon decomposition.
-/
import Verif.CSShiftProps
import Verif.BaconProps

set_option linter.unusedSectionVars false

namespace DiffDiff.Bacon

open CS (Coh moveDate Movable move_never move_inj move_num)

variable {K : Type*} [Field K] [LinearOrder K] [IsStrictOrderedRing K]
variable {n : ℕ}

/-! ### Specification -/

/-- A row with its period moved by `s`. -/
def rowEmb (s : ℤ) : (Fin n × ℤ) ↪ (Fin n × ℤ) :=
  ⟨fun r => (r.1, r.2 + s), fun a b h => by
    have h1 := congrArg Prod.fst h
    have h2 := congrArg Prod.snd h
    simp only [add_left_inj] at h1 h2
    exact Prod.ext h1 h2⟩

/-- The panel with all periods and dates moved by `s`. -/
def moved (s : ℤ) (P : Panel n K) : Panel n K where
  cohort u := moveDate s (P.cohort u)
  rows := P.rows.map (rowEmb s)
  y u t := P.y u (t - s)

/-- A comparison with its labels moved by `s`. -/
def movedComp (s : ℤ) (c : Comp K) : Comp K where
  kind := c.kind
  treated := c.treated + s
  control := c.control.map (· + s)
  estimate := c.estimate
  weight := c.weight
  nTreated := c.nTreated
  nControl := c.nControl
  window := (WithTop.map (· + s) c.window.1, WithBot.map (· + s) c.window.2)

/-- Results with their labels moved by `s`. -/
def movedResults (s : ℤ) (r : Results K) : Results K where
  twfe := r.twfe
  comparisons := r.comparisons.map (movedComp s)
  totalWeights := r.totalWeights
  averages := r.averages
  timingGroups := r.timingGroups.map (· + s)
  nNever := r.nNever
  nObs := r.nObs
  error := r.error

/-! ### Lemmas -/

def tEmb (s : ℤ) : ℤ ↪ ℤ := ⟨fun t => t + s, fun a b h => by simpa using h⟩

theorem tEmb_apply (s t : ℤ) : tEmb s t = t + s := rfl

theorem rowEmb_apply (s : ℤ) (r : Fin n × ℤ) : rowEmb s r = (r.1, r.2 + s) := rfl

theorem moved_units (s : ℤ) (P : Panel n K) : units (moved s P) = units P := by
  ext u
  simp only [units, moved, Finset.mem_image, Finset.mem_map]
  constructor
  · rintro ⟨_, ⟨r, hr, rfl⟩, rfl⟩
    exact ⟨r, hr, rfl⟩
  · rintro ⟨r, hr, rfl⟩
    exact ⟨_, ⟨r, hr, rfl⟩, rfl⟩

theorem moved_times (s : ℤ) (P : Panel n K) : times (moved s P) = (times P).map (tEmb s) := by
  ext t
  simp only [times, moved, Finset.mem_image, Finset.mem_map]
  constructor
  · rintro ⟨_, ⟨r, hr, rfl⟩, rfl⟩
    exact ⟨r.2, ⟨r, hr, rfl⟩, rfl⟩
  · rintro ⟨_, ⟨r, hr, rfl⟩, rfl⟩
    exact ⟨_, ⟨r, hr, rfl⟩, rfl⟩

theorem moved_never {s : ℤ} {P : Panel n K} (hP : ∀ u, Movable s (P.cohort u)) : never (moved s P) = never P := by
  unfold never
  rw [moved_units]
  exact Finset.filter_congr fun u _ => by rw [show ((moved s P).cohort u).isNever = _ from move_never (hP u)]

theorem moved_members {s : ℤ} {P : Panel n K} (hP : ∀ u, Movable s (P.cohort u)) {g : ℤ} (hg : Movable s (.num g)) (h0 : g ≠ 0) :
    members (moved s P) (g + s) = members P g := by
  unfold members
  rw [moved_units]
  refine Finset.filter_congr fun u _ => ?_
  rw [← move_num (s := s) (z := g) (by simpa using h0)]
  exact move_inj (hP u) hg

/-- Dates of the comparisons. -/
def Date (s : ℤ) (P : Panel n K) (g : ℤ) : Prop := g ∈ timingGroups P ∧ Movable s (.num g) ∧ g ≠ 0

theorem mem_timing {P : Panel n K} {g : ℤ} (h : g ∈ timingGroups P) : (∃ u, P.cohort u = .num g) ∧ 0 < g := by
  unfold timingGroups at h
  rw [List.mem_insertionSort, List.mem_dedup, List.mem_filterMap] at h
  obtain ⟨u, -, h⟩ := h
  cases hc : P.cohort u with
  | num z =>
    rw [hc] at h
    simp only [timingValue] at h
    split_ifs at h with hz
    obtain rfl : z = g := by simpa using h
    exact ⟨⟨u, hc⟩, hz⟩
  | _ => rw [hc] at h; simp [timingValue] at h

theorem timing_date {s : ℤ} {P : Panel n K} (hP : ∀ u, Movable s (P.cohort u)) {g : ℤ} (h : g ∈ timingGroups P) : Date s P g := by
  obtain ⟨⟨u, hu⟩, h0⟩ := mem_timing h
  exact ⟨h, hu ▸ hP u, h0.ne'⟩

theorem move_timing {s : ℤ} {c : Coh} (h : Movable s c) : timingValue (moveDate s c) = (timingValue c).map (· + s) := by
  cases c with
  | num z =>
    by_cases hz : z = 0
    · simp [moveDate, hz, timingValue]
    · simp only [moveDate, if_neg hz, timingValue]
      by_cases hp : 0 < z
      · rw [if_pos hp, if_pos ((h z rfl hz).2.1 hp)]; rfl
      · rw [if_neg hp, if_neg (fun h' => hp ((h z rfl hz).2.2 h'))]; rfl
  | _ => rfl

theorem moved_timing {s : ℤ} {P : Panel n K} (hP : ∀ u, Movable s (P.cohort u)) : timingGroups (moved s P) = (timingGroups P).map (· + s) := by
  unfold timingGroups
  rw [moved_units]
  have h1 : ∀ l : List (Fin n), l.filterMap (fun u => timingValue ((moved s P).cohort u)) = (l.filterMap (fun u => timingValue (P.cohort u))).map (· + s) := by
    intro l
    rw [List.map_filterMap]
    exact List.filterMap_congr fun u _ => move_timing (hP u)
  rw [h1, CS.dedup_map_on _ _ (fun a _ b _ h => by simpa using h)]
  refine (List.map_insertionSort (r := (· ≤ ·)) (s := (· ≤ ·)) (fun t : ℤ => t + s) _ ?_).symm
  intro a _ b _
  simp

theorem moved_pre (s : ℤ) (P : Panel n K) (k : Kind) (g : ℤ) (c : Option ℤ) :
    prePeriods (moved s P) k (g + s) (c.map (· + s)) = (prePeriods P k g c).map (tEmb s) := by
  unfold prePeriods
  cases k <;> cases c <;> simp only [Option.map_some, Option.map_none, moved_times, Finset.filter_map] <;> congr 1 <;>
    refine Finset.filter_congr fun t _ => ?_ <;> simp [tEmb_apply]

theorem moved_postP (s : ℤ) (P : Panel n K) (k : Kind) (g : ℤ) (c : Option ℤ) :
    postPeriods (moved s P) k (g + s) (c.map (· + s)) = (postPeriods P k g c).map (tEmb s) := by
  unfold postPeriods
  cases k <;> cases c <;> simp only [Option.map_some, Option.map_none, moved_times, Finset.filter_map] <;> congr 1 <;>
    refine Finset.filter_congr fun t _ => ?_ <;> simp [tEmb_apply]

theorem moved_cell (s : ℤ) (P : Panel n K) (U : Finset (Fin n)) (W : Finset ℤ) : cellMean (moved s P) U (W.map (tEmb s)) = cellMean P U W := by
  unfold cellMean
  have hR : (moved s P).rows.filter (fun r => r.1 ∈ U ∧ r.2 ∈ W.map (tEmb s) ∧ ((moved s P).y r.1 r.2).isSome = true) =
      (P.rows.filter (fun r => r.1 ∈ U ∧ r.2 ∈ W ∧ (P.y r.1 r.2).isSome = true)).map (rowEmb s) := by
    show (P.rows.map (rowEmb s)).filter _ = _
    rw [Finset.filter_map]
    congr 1
    refine Finset.filter_congr fun r _ => ?_
    simp [rowEmb_apply, tEmb_apply, moved]
  simp only [hR, Finset.card_map, Finset.sum_map]
  have hy : ∀ r : Fin n × ℤ, (moved s P).y ((rowEmb s) r).1 ((rowEmb s) r).2 = P.y r.1 r.2 := fun r => by simp [rowEmb_apply, moved]
  simp only [hy]

theorem moved_did (s : ℤ) (P : Panel n K) (T C : Finset (Fin n)) (a b : Finset ℤ) :
    did (moved s P) T C (a.map (tEmb s)) (b.map (tEmb s)) = did P T C a b := by
  unfold did
  simp only [moved_cell]

theorem moved_controls {s : ℤ} {P : Panel n K} (hP : ∀ u, Movable s (P.cohort u)) {c : Option ℤ}
    (hc : ∀ h, c = some h → Movable s (.num h) ∧ h ≠ 0) : controls (moved s P) (c.map (· + s)) = controls P c := by
  cases c with
  | none => exact moved_never hP
  | some h => exact moved_members hP (hc h rfl).1 (hc h rfl).2

theorem moved_approx {s : ℤ} {P : Panel n K} (hP : ∀ u, Movable s (P.cohort u)) (k : Kind) {g : ℤ} (hg : Movable s (.num g)) (h0 : g ≠ 0)
    {c : Option ℤ} (hc : ∀ h, c = some h → Movable s (.num h) ∧ h ≠ 0) :
    approxWeight (moved s P) k (g + s) (c.map (· + s)) = approxWeight P k g c := by
  unfold approxWeight
  simp only [moved_members hP hg h0, moved_controls hP hc, moved_pre, moved_postP, moved_times, Finset.card_map]

theorem min_map (s : ℤ) (T : Finset ℤ) : (T.map (tEmb s)).min = WithTop.map (· + s) T.min := by
  rcases T.eq_empty_or_nonempty with rfl | h
  · simp
  · obtain ⟨m, hm⟩ := Finset.min_of_nonempty h
    rw [hm, WithTop.map_coe]
    refine le_antisymm (Finset.min_le (Finset.mem_map.2 ⟨m, Finset.mem_of_min hm, rfl⟩)) ?_
    refine Finset.le_min fun a ha => ?_
    obtain ⟨t, ht, rfl⟩ := Finset.mem_map.1 ha
    have := Finset.min_le_of_eq ht hm
    rw [tEmb_apply]
    exact WithTop.coe_le_coe.2 (by omega)

theorem max_map (s : ℤ) (T : Finset ℤ) : (T.map (tEmb s)).max = WithBot.map (· + s) T.max := by
  rcases T.eq_empty_or_nonempty with rfl | h
  · simp
  · obtain ⟨m, hm⟩ := Finset.max_of_nonempty h
    rw [hm, WithBot.map_coe]
    refine le_antisymm ?_ (Finset.le_max (Finset.mem_map.2 ⟨m, Finset.mem_of_max hm, rfl⟩))
    refine Finset.max_le fun a ha => ?_
    obtain ⟨t, ht, rfl⟩ := Finset.mem_map.1 ha
    have := Finset.le_max_of_eq ht hm
    rw [tEmb_apply]
    exact WithBot.coe_le_coe.2 (by omega)

theorem moved_window (s : ℤ) (P : Panel n K) (k : Kind) (g : ℤ) (c : Option ℤ) : window (moved s P) k (g + s) (c.map (· + s)) =
    (WithTop.map (· + s) (window P k g c).1, WithBot.map (· + s) (window P k g c).2) := by
  unfold window
  cases k <;> cases c <;> simp only [Option.map_some, Option.map_none, moved_times, min_map, max_map, WithTop.map_coe, WithBot.map_coe]
  congr 2
  ring

theorem moved_tvn {s : ℤ} {P : Panel n K} (hP : ∀ u, Movable s (P.cohort u)) {g : ℤ} (hg : Movable s (.num g)) (h0 : g ≠ 0) :
    treatedVsNever (moved s P) (g + s) = (treatedVsNever P g).map (movedComp s) := by
  have e1 := moved_pre s P .treatedVsNever g none
  have e2 := moved_postP s P .treatedVsNever g none
  have e3 := moved_approx hP .treatedVsNever hg h0 (c := none) (by simp)
  have e4 := moved_window s P .treatedVsNever g none
  simp only [Option.map_none] at e1 e2 e3 e4
  unfold treatedVsNever
  simp only [moved_members hP hg h0, moved_never hP, e1, e2, e3, e4, Finset.card_map, moved_did]
  split_ifs
  · rfl
  · rfl
  · rfl

theorem moved_tc {s : ℤ} {P : Panel n K} (hP : ∀ u, Movable s (P.cohort u)) (k : Kind) {g c : ℤ} (hg : Movable s (.num g)) (h0 : g ≠ 0)
    (hc : Movable s (.num c)) (hc0 : c ≠ 0) : timingComparison (moved s P) k (g + s) (c + s) = (timingComparison P k g c).map (movedComp s) := by
  have e1 := moved_pre s P k g (some c)
  have e2 := moved_postP s P k g (some c)
  have e3 := moved_approx hP k hg h0 (c := some c) (by rintro _ ⟨rfl⟩; exact ⟨hc, hc0⟩)
  have e4 := moved_window s P k g (some c)
  simp only [Option.map_some] at e1 e2 e3 e4
  unfold timingComparison
  simp only [moved_members hP hg h0, moved_members hP hc hc0, e1, e2, e3, e4, Finset.card_map, moved_did]
  split_ifs
  · rfl
  · rfl
  · cases did P (members P g) (members P c) (prePeriods P k g (some c)) (postPeriods P k g (some c)) <;> rfl

theorem pairs_map (f : ℤ → ℤ) (l : List ℤ) : pairs (l.map f) = (pairs l).map (Prod.map f f) := by
  induction l with
  | nil => rfl
  | cons a l ih => simp only [List.map_cons, pairs, ih, List.map_append, List.map_map]; rfl

theorem pairs_sub {l : List ℤ} {p : ℤ × ℤ} (h : p ∈ pairs l) : p.1 ∈ l ∧ p.2 ∈ l := by
  induction l with
  | nil => simp [pairs] at h
  | cons a l ih =>
    rw [pairs, List.mem_append] at h
    rcases h with h | h
    · obtain ⟨b, hb, rfl⟩ := List.mem_map.1 h
      exact ⟨List.mem_cons_self .., List.mem_cons_of_mem _ hb⟩
    · exact ⟨List.mem_cons_of_mem _ (ih h).1, List.mem_cons_of_mem _ (ih h).2⟩

theorem toList_map {α β : Type*} (f : α → β) (o : Option α) : (o.map f).toList = o.toList.map f := by cases o <;> rfl

theorem moved_comparisons {s : ℤ} {P : Panel n K} (hP : ∀ u, Movable s (P.cohort u)) :
    comparisons (moved s P) = (comparisons P).map (movedComp s) := by
  unfold comparisons
  rw [moved_never hP, moved_timing hP, List.map_append]
  congr 1
  · split_ifs
    · rw [List.filterMap_map, List.map_filterMap]
      refine List.filterMap_congr fun g hg => ?_
      obtain ⟨-, h1, h2⟩ := timing_date hP hg
      exact moved_tvn hP h1 h2
    · rfl
  · rw [pairs_map, List.flatMap_map, List.map_flatMap]
    refine List.flatMap_congr fun p hp => ?_
    obtain ⟨-, h1, h2⟩ := timing_date hP (pairs_sub hp).1
    obtain ⟨-, h3, h4⟩ := timing_date hP (pairs_sub hp).2
    simp only [Prod.map_fst, Prod.map_snd, moved_tc hP _ h1 h2 h3 h4, moved_tc hP _ h3 h4 h1 h2, toList_map, List.map_append]

theorem comparisons_labels {P : Panel n K} {c : Comp K} (h : c ∈ comparisons P) :
    c.treated ∈ timingGroups P ∧ ∀ d, c.control = some d → d ∈ timingGroups P := by
  unfold comparisons at h
  rw [List.mem_append] at h
  rcases h with h | h
  · split_ifs at h
    · obtain ⟨g, hg, h⟩ := List.mem_filterMap.1 h
      unfold treatedVsNever at h
      split_ifs at h
      obtain rfl := Option.some.inj h
      exact ⟨hg, fun d hd => by simp at hd⟩
    · simp at h
  · obtain ⟨p, hp, h⟩ := List.mem_flatMap.1 h
    obtain ⟨h1, h2⟩ := pairs_sub hp
    have key : ∀ k g d, timingComparison P k g d = some c → c.treated = g ∧ c.control = some d := by
      intro k g d h
      unfold timingComparison at h
      split_ifs at h
      cases hd : did P (members P g) (members P d) (prePeriods P k g (some d)) (postPeriods P k g (some d)) with
      | none => rw [hd] at h; simp at h
      | some e =>
        rw [hd] at h
        obtain rfl := Option.some.inj h
        exact ⟨rfl, rfl⟩
    rw [List.mem_append, Option.mem_toList, Option.mem_toList] at h
    rcases h with h | h
    · obtain ⟨a, b⟩ := key _ _ _ h
      rw [a, b]
      exact ⟨h1, by rintro _ ⟨rfl⟩; exact h2⟩
    · obtain ⟨a, b⟩ := key _ _ _ h
      rw [a, b]
      exact ⟨h2, by rintro _ ⟨rfl⟩; exact h1⟩

theorem moved_exact {s : ℤ} {P : Panel n K} (hP : ∀ u, Movable s (P.cohort u)) {c : Comp K} (h : c ∈ comparisons P) :
    exactWeight (moved s P) (movedComp s c) = exactWeight P c := by
  obtain ⟨h1, h2⟩ := comparisons_labels h
  obtain ⟨-, g1, g2⟩ := timing_date hP h1
  have hc : ∀ d, c.control = some d → Movable s (.num d) ∧ d ≠ 0 := fun d hd => (timing_date hP (h2 d hd)).2
  unfold exactWeight
  have hr : (moved s P).rows = P.rows.map (rowEmb s) := rfl
  have hf : ∀ (T C : Finset (Fin n)) (a b : Finset ℤ),
      ((moved s P).rows.filter (fun r => (r.1 ∈ T ∨ r.1 ∈ C) ∧ (r.2 ∈ a.map (tEmb s) ∨ r.2 ∈ b.map (tEmb s)))).card =
      (P.rows.filter (fun r => (r.1 ∈ T ∨ r.1 ∈ C) ∧ (r.2 ∈ a ∨ r.2 ∈ b))).card := by
    intro T C a b
    rw [hr, Finset.filter_map, Finset.card_map]
    congr 1
    refine Finset.filter_congr fun r _ => ?_
    simp [rowEmb_apply, tEmb_apply]
  simp only [movedComp, moved_pre, moved_postP, moved_members hP g1 g2, moved_controls hP hc, hf, Finset.card_map, moved_units]
  rw [hr, Finset.card_map]

theorem moved_mode {s : ℤ} {P : Panel n K} (hP : ∀ u, Movable s (P.cohort u)) (m : WeightMode) :
    withMode m (moved s P) (comparisons (moved s P)) = (withMode m P (comparisons P)).map (movedComp s) := by
  rw [moved_comparisons hP]
  cases m with
  | approximate => rfl
  | exact =>
    simp only [withMode, List.map_map]
    refine List.map_congr_left fun c hc => ?_
    simp only [Function.comp, moved_exact hP hc]
    rfl

theorem total_map (s : ℤ) (l : List (Comp K)) : totalWeight (l.map (movedComp s)) = totalWeight l := by
  unfold totalWeight; rw [List.map_map]; rfl

theorem normalise_map (s : ℤ) (l : List (Comp K)) : normalise (l.map (movedComp s)) = (normalise l).map (movedComp s) := by
  unfold normalise
  rw [total_map]
  split_ifs
  · rw [List.map_map, List.map_map]; rfl
  · rfl

theorem type_map (s : ℤ) (l : List (Comp K)) (k : Kind) : typeWeight (l.map (movedComp s)) k = typeWeight l k := by
  unfold typeWeight
  rw [List.filter_map, total_map]; rfl

theorem weightedSum_map (s : ℤ) (l : List (Comp K)) : weightedSum (l.map (movedComp s)) = weightedSum l := by
  induction l with
  | nil => rfl
  | cons c l ih => simp only [List.map_cons, weightedSum, ih]; rfl

theorem average_map (s : ℤ) (l : List (Comp K)) (k : Kind) : typeAverage (l.map (movedComp s)) k = typeAverage l k := by
  unfold typeAverage
  rw [type_map, List.filter_map, weightedSum_map]; rfl

theorem moved_treat {s : ℤ} {P : Panel n K} (hP : ∀ u, Movable s (P.cohort u)) (u : Fin n) (t : ℤ) :
    treat (moved s P) u (t + s) = treat P u t := by
  have hn := move_never (hP u)
  unfold treat
  show (match moveDate s (P.cohort u) with
    | .num z => if ¬ (Coh.num z).isNever ∧ z ≤ t + s then (1 : K) else 0
    | _ => 0) = _
  cases hc : P.cohort u with
  | num z =>
    by_cases hz : z = 0
    · simp [moveDate, hz, Coh.isNever]
    · rw [hc] at hn
      rw [move_num (by simpa using hz)] at hn ⊢
      simp only [hn, add_le_add_iff_right]
  | _ => rfl

theorem moved_within (s : ℤ) (R : Finset (Fin n × ℤ)) (x y : Fin n → ℤ → K) (h : ∀ u t, x u (t + s) = y u t) (u : Fin n) (t : ℤ) :
    within (R.map (rowEmb s)) x u (t + s) = within R y u t := by
  have hu : (R.map (rowEmb s)).filter (fun r => r.1 = u) = (R.filter (fun r => r.1 = u)).map (rowEmb s) := by
    rw [Finset.filter_map]; rfl
  have ht : (R.map (rowEmb s)).filter (fun r => r.2 = t + s) = (R.filter (fun r => r.2 = t)).map (rowEmb s) := by
    rw [Finset.filter_map]
    congr 1
    exact Finset.filter_congr fun r _ => by simp [rowEmb_apply]
  unfold within
  simp only [hu, ht, Finset.card_map, Finset.sum_map, rowEmb_apply, h]

theorem moved_twfe {s : ℤ} {P : Panel n K} (hP : ∀ u, Movable s (P.cohort u)) : twfe (moved s P) = twfe P := by
  have hr : (moved s P).rows = P.rows.map (rowEmb s) := rfl
  have hd : ∀ u t, within (P.rows.map (rowEmb s)) (treat (moved s P)) u (t + s) = within P.rows (treat P) u t :=
    moved_within s P.rows _ _ (moved_treat hP)
  have hy : ∀ u t, within (P.rows.map (rowEmb s)) (fun u t => ((moved s P).y u t).getD 0) u (t + s) = within P.rows (fun u t => (P.y u t).getD 0) u t :=
    moved_within s P.rows _ _ (fun u t => by simp [moved])
  have hall : (∀ r ∈ P.rows.map (rowEmb s), ((moved s P).y r.1 r.2).isSome = true) ↔ ∀ r ∈ P.rows, (P.y r.1 r.2).isSome = true := by
    constructor
    · intro h r hr
      have := h _ (Finset.mem_map_of_mem (rowEmb s) hr)
      simpa [rowEmb_apply, moved] using this
    · intro h r hr
      obtain ⟨q, hq, rfl⟩ := Finset.mem_map.1 hr
      have := h q hq
      simpa [rowEmb_apply, moved] using this
  unfold twfe
  simp only [hr, hall, Finset.sum_map, rowEmb_apply, hd, hy]

/-! ### The property -/

/-- **C139 (BaconDecomposition).** Adding the same number to all periods and to all first treatment dates, so that no date becomes zero or
changes sign, leaves every number of the decomposition unchanged: comparisons with estimates, weights and counts, totals, averages and
the two-way estimate; only the labels of cohorts and time windows move. -/
theorem C139_bacon (s : ℤ) (m : WeightMode) (P : Panel n K) (hP : ∀ u, Movable s (P.cohort u)) :
    fit m (moved s P) = movedResults s (fit m P) := by
  unfold fit movedResults
  have h1 : typeWeight ((normalise (withMode m P (comparisons P))).map (movedComp s)) = typeWeight (normalise (withMode m P (comparisons P))) :=
    funext (type_map s _)
  have h2 : typeAverage ((normalise (withMode m P (comparisons P))).map (movedComp s)) = typeAverage (normalise (withMode m P (comparisons P))) :=
    funext (average_map s _)
  have h3 : (moved s P).rows.card = P.rows.card := Finset.card_map _
  simp only [moved_mode hP, normalise_map, moved_twfe hP, moved_timing hP, moved_never hP, h1, h2, h3, weightedSum_map]

/-- Periods 4 to 7 renumbered as 2004 to 2007. -/
example (m : WeightMode) (y : Fin 3 → ℤ → Option ℚ) :
    fit m (moved 2000 ⟨![.num 5, .num 6, .num 0], Finset.univ ×ˢ {4, 5, 6, 7}, y⟩) =
      movedResults 2000 (fit m ⟨![.num 5, .num 6, .num 0], Finset.univ ×ˢ {4, 5, 6, 7}, y⟩) := by
  refine C139_bacon 2000 m _ fun u => ?_
  fin_cases u <;> intro z hz h0
  · obtain rfl : (5 : ℤ) = z := by simpa using hz
    decide
  · obtain rfl : (6 : ℤ) = z := by simpa using hz
    decide
  · exact absurd (by simpa using hz.symm) h0

/-- C139, the restriction is needed: counting periods from the first treatment date makes the first cohort count as never treated (and
the comparison groups change accordingly). -/
theorem C139_bacon_refuted (y : Fin 3 → ℤ → Option ℚ) :
    timingGroups (⟨![.num 5, .num 6, .num 0], Finset.univ ×ˢ {4, 5, 6, 7}, y⟩ : Panel 3 ℚ) = [5, 6] ∧
    (fit .exact (⟨![.num 5, .num 6, .num 0], Finset.univ ×ˢ {4, 5, 6, 7}, y⟩ : Panel 3 ℚ)).nNever = 1 ∧
    timingGroups (moved (-5) (⟨![.num 5, .num 6, .num 0], Finset.univ ×ˢ {4, 5, 6, 7}, y⟩ : Panel 3 ℚ)) = [1] ∧
    (fit .exact (moved (-5) (⟨![.num 5, .num 6, .num 0], Finset.univ ×ˢ {4, 5, 6, 7}, y⟩ : Panel 3 ℚ))).nNever = 2 := by
  have h1 : timingGroups (⟨![.num 5, .num 6, .num 0], Finset.univ ×ˢ {4, 5, 6, 7}, fun _ _ => none⟩ : Panel 3 ℚ) = [5, 6] := by decide +kernel
  have h2 : (never (⟨![.num 5, .num 6, .num 0], Finset.univ ×ˢ {4, 5, 6, 7}, fun _ _ => none⟩ : Panel 3 ℚ)).card = 1 := by decide +kernel
  have h3 : timingGroups (moved (-5) (⟨![.num 5, .num 6, .num 0], Finset.univ ×ˢ {4, 5, 6, 7}, fun _ _ => none⟩ : Panel 3 ℚ)) = [1] := by
    decide +kernel
  have h4 : (never (moved (-5) (⟨![.num 5, .num 6, .num 0], Finset.univ ×ˢ {4, 5, 6, 7}, fun _ _ => none⟩ : Panel 3 ℚ))).card = 2 := by
    decide +kernel
  exact ⟨h1, h2, h3, h4⟩

end DiffDiff.Bacon
