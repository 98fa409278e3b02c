/-
Property C139 for the Sun-Abraham estimator.
-/
import Verif.CSShiftProps
import Verif.SunAbProps

set_option linter.unusedSectionVars false

namespace DiffDiff.SunAb

open CS (Coh moveDate Movable move_never move_pos move_inj move_num)

variable {K : Type*} [Field K] [LinearOrder K] [IsStrictOrderedRing K]

/-! ### Specification -/

/-- A row with its period and first treatment date moved by `s`. -/
def movedRow (s : ℤ) (r : Row K) : Row K := { r with time := r.time + s, cohort := moveDate s r.cohort }

/-- An event-study entry with the cohort labels of its weights moved by `s`. -/
def movedEvent (s : ℤ) (ev : Event K) : Event K := { ev with weights := ev.weights.map (fun p => (moveDate s p.1, p.2)) }

/-- Results with their labels moved by `s`. -/
def movedResults (s : ℤ) (r : Results K) : Results K where
  groups := r.groups.map (moveDate s)
  nTreated := r.nTreated
  nControl := r.nControl
  nObs := r.nObs
  events := r.events.map (movedEvent s)
  overall := r.overall
  cohortEffects := r.cohortEffects.map (fun p => ((moveDate s p.1.1, p.1.2), p.2))

/-! ### Lemmas -/

def movedKey (s : ℤ) (k : Key) : Key := (moveDate s k.1, k.2)

def OkRows (s : ℤ) (df : List (Row K)) : Prop := ∀ r ∈ df, Movable s r.cohort

theorem movable_nan (s : ℤ) : Movable s .nan := fun z hz => by simp at hz

theorem move_finPos {s : ℤ} {c : Coh} (h : Movable s c) : finPos (moveDate s c) = (finPos c).map (· + s) := by
  cases c with
  | num z =>
    by_cases hz : z = 0
    · simp [moveDate, hz, finPos]
    · simp only [moveDate, if_neg hz, finPos]
      by_cases hp : 0 < z
      · rw [if_pos hp, if_pos ((h z rfl hz).2.1 hp)]; rfl
      · rw [if_neg hp, if_neg (fun h' => hp ((h z rfl hz).2.2 h'))]; rfl
  | _ => rfl

theorem moved_rel {s : ℤ} {r : Row K} (h : Movable s r.cohort) : relTime (movedRow s r) = relTime r := by
  unfold relTime movedRow
  simp only [move_finPos h]
  cases finPos r.cohort with
  | none => rfl
  | some g => simp

theorem move_inf {s : ℤ} {c : Coh} : moveDate s c = .inf ↔ c = .inf := by
  cases c with
  | num z => by_cases hz : z = 0 <;> simp [moveDate, hz]
  | _ => simp [moveDate]

theorem move_nan {s : ℤ} {c : Coh} : moveDate s c = .nan ↔ c = .nan := by
  cases c with
  | num z => by_cases hz : z = 0 <;> simp [moveDate, hz]
  | _ => simp [moveDate]

theorem moved_groups {s : ℤ} {df : List (Row K)} (h : OkRows s df) : groups (df.map (movedRow s)) = (groups df).map (moveDate s) := by
  unfold groups
  have h1 : (df.map (movedRow s)).filterMap (fun r => finPos r.cohort) = (df.filterMap (fun r => finPos r.cohort)).map (· + s) := by
    rw [List.filterMap_map, List.map_filterMap]
    exact List.filterMap_congr fun r hr => move_finPos (h r hr)
  have h2 : (df.map (movedRow s)).any (fun r => decide (r.cohort = .inf)) = df.any (fun r => decide (r.cohort = .inf)) := by
    rw [List.any_map]
    congr 1
    funext r
    simp only [Function.comp, movedRow, move_inf]
  rw [h1, h2, CS.dedup_map_on _ _ (fun a _ b _ h => by simpa using h),
    ← List.map_insertionSort (r := (· ≤ ·)) (s := (· ≤ ·)) (fun t : ℤ => t + s) _ (fun a _ b _ => by simp), List.map_append, List.map_map, List.map_map]
  congr 1
  · refine List.map_congr_left fun g hg => ?_
    rw [List.mem_insertionSort, List.mem_dedup, List.mem_filterMap] at hg
    obtain ⟨r, -, hr⟩ := hg
    have hg0 : 0 < g := by
      cases hc : r.cohort with
      | num z =>
        rw [hc] at hr
        simp only [finPos] at hr
        split_ifs at hr with hz
        obtain rfl : z = g := by simpa using hr
        exact hz
      | _ => rw [hc] at hr; simp [finPos] at hr
    exact (move_num (by simpa using hg0.ne')).symm
  · split_ifs <;> rfl

theorem mem_groups_of {s : ℤ} {df : List (Row K)} (h : OkRows s df) {g : Coh} (hg : g ∈ groups df) : Movable s g := by
  unfold groups at hg
  rw [List.mem_append] at hg
  rcases hg with hg | hg
  · obtain ⟨z, hz, rfl⟩ := List.mem_map.1 hg
    rw [List.mem_insertionSort, List.mem_dedup, List.mem_filterMap] at hz
    obtain ⟨r, hrm, hr⟩ := hz
    cases hc : r.cohort with
    | num w =>
      rw [hc] at hr
      simp only [finPos] at hr
      split_ifs at hr with hw
      obtain rfl : w = z := by simpa using hr
      exact hc ▸ h r hrm
    | _ => rw [hc] at hr; simp [finPos] at hr
  · split_ifs at hg
    · obtain rfl : g = .inf := by simpa using hg
      exact fun z hz => by simp at hz
    · simp at hg

theorem moved_relPeriods {s : ℤ} (ant : ℤ) {df : List (Row K)} (h : OkRows s df) : relPeriods ant (df.map (movedRow s)) = relPeriods ant df := by
  unfold relPeriods
  have : (df.map (movedRow s)).filterMap relTime = df.filterMap relTime := by
    rw [List.filterMap_map]
    exact List.filterMap_congr fun r hr => moved_rel (h r hr)
  rw [this]

theorem moved_sample {s : ℤ} (c : Control) {df : List (Row K)} (h : OkRows s df) : sample c (df.map (movedRow s)) = (sample c df).map (movedRow s) := by
  cases c with
  | notYet => rfl
  | never =>
    unfold sample
    simp only [List.filter_map]
    congr 1
    refine List.filter_congr fun r hr => ?_
    simp only [Function.comp, movedRow, move_never (h r hr), move_pos (h r hr)]

theorem sample_ok {s : ℤ} (c : Control) {df : List (Row K)} (h : OkRows s df) : OkRows s (sample c df) := by
  cases c with
  | notYet => exact h
  | never => exact fun r hr => h r (List.mem_filter.1 hr).1

theorem moved_unit_filter (s : ℤ) (df : List (Row K)) (u : ℕ) :
    (df.map (movedRow s)).filter (fun r => decide (r.unit = u)) = (df.filter (fun r => decide (r.unit = u))).map (movedRow s) := by
  rw [List.filter_map]; rfl

theorem moved_units (s : ℤ) (df : List (Row K)) : units (df.map (movedRow s)) = units df := by
  unfold units
  rw [List.map_map]; rfl

theorem find_map_congr {α : Type*} (f : α → α) (p : α → Bool) (hp : ∀ a, p (f a) = p a) (l : List α) : (l.map f).find? p = (l.find? p).map f := by
  induction l with
  | nil => rfl
  | cons a l ih =>
    rw [List.map_cons, List.find?_cons, List.find?_cons, hp]
    cases p a
    · exact ih
    · rfl

theorem moved_unitCohort (s : ℤ) (df : List (Row K)) (u : ℕ) : unitCohort (df.map (movedRow s)) u = moveDate s (unitCohort df u) := by
  unfold unitCohort
  rw [moved_unit_filter, List.map_map]
  have : (fun r : Row K => r.cohort) ∘ movedRow s = moveDate s ∘ (fun r : Row K => r.cohort) := rfl
  rw [this, ← List.map_map, find_map_congr (moveDate s) _ (fun c => by simp only [ne_eq, move_nan])]
  cases (((df.filter (fun r => decide (r.unit = u))).map (fun r => r.cohort)).find? (fun c => decide (c ≠ .nan))) <;> rfl

theorem unitCohort_ok {s : ℤ} {df : List (Row K)} (h : OkRows s df) (u : ℕ) : Movable s (unitCohort df u) := by
  unfold unitCohort
  cases hf : (((df.filter (fun r => decide (r.unit = u))).map (fun r => r.cohort)).find? (fun c => decide (c ≠ .nan))) with
  | none => exact movable_nan s
  | some c =>
    have := List.mem_of_find?_eq_some hf
    obtain ⟨r, hr, rfl⟩ := List.mem_map.1 this
    exact h r (List.mem_filter.1 hr).1

theorem moved_unitNever {s : ℤ} {df : List (Row K)} (h : OkRows s df) (u : ℕ) : unitNever (df.map (movedRow s)) u = unitNever df u := by
  unfold unitNever
  rw [moved_unit_filter, List.map_map]
  congr 2
  refine List.map_congr_left fun r hr => ?_
  exact move_never (h r (List.mem_filter.1 hr).1)

theorem moved_nTreated {s : ℤ} {df : List (Row K)} (h : OkRows s df) : nTreated (df.map (movedRow s)) = nTreated df := by
  unfold nTreated
  simp only [moved_units, moved_unitCohort, move_pos (unitCohort_ok h _)]

theorem moved_nControl {s : ℤ} {df : List (Row K)} (h : OkRows s df) : nControl (df.map (movedRow s)) = nControl df := by
  unfold nControl
  simp only [moved_units, moved_unitNever h]

theorem moved_hit {s : ℤ} {k : Key} (hk : Movable s k.1) {r : Row K} (hr : Movable s r.cohort) :
    ((movedRow s r).cohort = (movedKey s k).1 ∧ relTime (movedRow s r) = some (movedKey s k).2) ↔ (r.cohort = k.1 ∧ relTime r = some k.2) := by
  rw [moved_rel hr]
  exact and_congr (move_inj hr hk) Iff.rfl

theorem moved_keys {s : ℤ} {gs : List Coh} (hg : ∀ g ∈ gs, Movable s g) (es : List ℤ) {df : List (Row K)} (h : OkRows s df) :
    keys (gs.map (moveDate s)) es (df.map (movedRow s)) = (keys gs es df).map (movedKey s) := by
  unfold keys
  have h1 : (gs.map (moveDate s)).flatMap (fun g => es.map (fun e => (g, e))) = (gs.flatMap (fun g => es.map (fun e => (g, e)))).map (movedKey s) := by
    rw [List.flatMap_map, List.map_flatMap]
    refine List.flatMap_congr fun g _ => ?_
    rw [List.map_map]; rfl
  rw [h1, List.filter_map]
  congr 1
  refine List.filter_congr fun k hk => ?_
  obtain ⟨g, hgm, hk⟩ := List.mem_flatMap.1 hk
  obtain ⟨e, -, rfl⟩ := List.mem_map.1 hk
  simp only [Function.comp, List.any_map]
  rw [Bool.eq_iff_iff, List.any_eq_true, List.any_eq_true]
  refine exists_congr fun r => and_congr_right fun hr => ?_
  simp only [Function.comp, Bool.and_eq_true, decide_eq_true_eq]
  exact moved_hit (hg g hgm) (h r hr)

theorem keys_group {gs : List Coh} {es : List ℤ} {df : List (Row K)} {k : Key} (hk : k ∈ keys gs es df) : k.1 ∈ gs := by
  unfold keys at hk
  obtain ⟨g, hg, hk⟩ := List.mem_flatMap.1 (List.mem_filter.1 hk).1
  obtain ⟨e, -, rfl⟩ := List.mem_map.1 hk
  exact hg

theorem moved_within (s : ℤ) (df : List (Row K)) (x y : Row K → K) (h : ∀ r ∈ df, x (movedRow s r) = y r) {r : Row K} (hr : r ∈ df) :
    within (df.map (movedRow s)) x (movedRow s r) = within df y r := by
  have ht : (df.map (movedRow s)).filter (fun q => decide (q.time = (movedRow s r).time)) = (df.filter (fun q => decide (q.time = r.time))).map (movedRow s) := by
    rw [List.filter_map]
    congr 1
    exact List.filter_congr fun q _ => by simp [movedRow]
  have hm : ∀ l : List (Row K), (∀ q ∈ l, q ∈ df) → (l.map (movedRow s)).map x = l.map y := by
    intro l hl
    rw [List.map_map]
    exact List.map_congr_left fun q hq => h q (hl q hq)
  unfold within
  have hu : (df.map (movedRow s)).filter (fun q => decide (q.unit = (movedRow s r).unit)) = (df.filter (fun q => decide (q.unit = r.unit))).map (movedRow s) :=
    moved_unit_filter s df r.unit
  simp only [hu, ht, List.length_map]
  rw [hm _ (fun q hq => (List.mem_filter.1 hq).1), hm _ (fun q hq => (List.mem_filter.1 hq).1), hm _ (fun q hq => hq), h r hr]

theorem moved_design {s : ℤ} {ks : List Key} (hk : ∀ k ∈ ks, Movable s k.1) {df : List (Row K)} (h : OkRows s df) :
    design (df.map (movedRow s)) (ks.map (movedKey s)) = design df ks := by
  unfold design
  rw [List.map_map]
  refine List.map_congr_left fun k hkm => ?_
  simp only [Function.comp, List.map_map]
  refine List.map_congr_left fun r hr => ?_
  refine moved_within s df _ _ (fun q hq => ?_) hr
  unfold dummy
  simp only [moved_hit (hk k hkm) (h q hq)]

theorem moved_response (s : ℤ) (df : List (Row K)) : response (df.map (movedRow s)) = response df := by
  unfold response
  rw [List.all_map]
  have : ((fun r : Row K => r.y.isSome) ∘ movedRow s) = fun r => r.y.isSome := rfl
  rw [this]
  split_ifs
  · congr 1
    rw [List.map_map]
    exact List.map_congr_left fun r hr =>
      moved_within s df (fun q => q.y.getD 0) (fun q => q.y.getD 0) (fun _ _ => rfl) hr
  · rfl

theorem moved_saturated {s : ℤ} (reg : List (List K) → List K → Option (Reg K)) {gs : List Coh} (hg : ∀ g ∈ gs, Movable s g) (es : List ℤ)
    {df : List (Row K)} (h : OkRows s df) :
    saturated reg (gs.map (moveDate s)) es (df.map (movedRow s)) = (saturated reg gs es df).map (fun p => (p.1.map (movedKey s), p.2)) := by
  unfold saturated
  have hk : ∀ k ∈ keys gs es df, Movable s k.1 := fun k hk => hg _ (keys_group hk)
  simp only [moved_keys hg es h, moved_response, moved_design hk h, List.map_eq_nil_iff]
  split_ifs
  · rfl
  · cases response df with
    | none => rfl
    | some y => cases hr : reg (design df (keys gs es df)) y <;> simp [hr, Except.map]

theorem moved_size {s : ℤ} {df : List (Row K)} (h : OkRows s df) {g : Coh} (hg : Movable s g) : size (df.map (movedRow s)) (moveDate s g) = size df g := by
  unfold size
  simp only [moved_units, moved_unitCohort, move_inj (unitCohort_ok h _) hg]

theorem key_inj {s : ℤ} {k l : Key} (hk : Movable s k.1) (hl : Movable s l.1) : movedKey s k = movedKey s l ↔ k = l := by
  unfold movedKey
  rw [Prod.ext_iff, Prod.ext_iff]
  exact and_congr (move_inj hk hl) Iff.rfl

theorem mem_movedKey {s : ℤ} {ks : List Key} (hks : ∀ k ∈ ks, Movable s k.1) {k : Key} (hk : Movable s k.1) :
    movedKey s k ∈ ks.map (movedKey s) ↔ k ∈ ks := by
  constructor
  · intro h
    obtain ⟨l, hl, he⟩ := List.mem_map.1 h
    exact (key_inj (hks l hl) hk).1 he ▸ hl
  · exact fun h => List.mem_map_of_mem h

theorem idx_movedKey {s : ℤ} {ks : List Key} (hks : ∀ k ∈ ks, Movable s k.1) {k : Key} (hk : Movable s k.1) :
    (ks.map (movedKey s)).idxOf (movedKey s k) = ks.idxOf k := by
  induction ks with
  | nil => rfl
  | cons a ks ih =>
    have ih := ih (fun x hx => hks x (List.mem_cons_of_mem _ hx))
    have ha := hks a (List.mem_cons_self ..)
    rw [List.map_cons]
    by_cases h : a = k
    · subst h; rw [List.idxOf_cons_self, List.idxOf_cons_self]
    · have h' : movedKey s a ≠ movedKey s k := fun hc => h ((key_inj ha hk).1 hc)
      rw [List.idxOf_cons_ne _ h, List.idxOf_cons_ne _ h', ih]

theorem moved_cohortsAt {s : ℤ} {gs : List Coh} (hg : ∀ g ∈ gs, Movable s g) {ks : List Key} (hks : ∀ k ∈ ks, Movable s k.1) (e : ℤ) :
    cohortsAt (gs.map (moveDate s)) (ks.map (movedKey s)) e = (cohortsAt gs ks e).map (moveDate s) := by
  unfold cohortsAt
  rw [List.filter_map]
  congr 1
  refine List.filter_congr fun g hgm => ?_
  have := mem_movedKey hks (k := (g, e)) (hg g hgm)
  show decide _ = decide _
  rw [decide_eq_decide]
  exact this

theorem moved_total {s : ℤ} {df : List (Row K)} (h : OkRows s df) {cs : List Coh} (hc : ∀ g ∈ cs, Movable s g) :
    totalSize (df.map (movedRow s)) (cs.map (moveDate s)) = totalSize df cs := by
  unfold totalSize
  rw [List.map_map]
  congr 1
  exact List.map_congr_left fun g hg => moved_size h (hc g hg)

theorem moved_weights {s : ℤ} {df : List (Row K)} (h : OkRows s df) {cs : List Coh} (hc : ∀ g ∈ cs, Movable s g) :
    weights (df.map (movedRow s)) (cs.map (moveDate s)) = (weights df cs).map (fun p => (moveDate s p.1, p.2)) := by
  unfold weights
  rw [List.map_map, List.map_map]
  refine List.map_congr_left fun g hg => ?_
  simp only [Function.comp, moved_size h (hc g hg), moved_total h hc]

theorem moved_quad {s : ℤ} {ks : List Key} (hks : ∀ k ∈ ks, Movable s k.1) (f : Reg K) {ws : List (Key × K)} (hw : ∀ p ∈ ws, Movable s p.1.1) :
    quadForm (ks.map (movedKey s)) f (ws.map (fun p => (movedKey s p.1, p.2))) = quadForm ks f ws := by
  unfold quadForm
  rw [List.flatMap_map]
  congr 1
  refine List.flatMap_congr fun a ha => ?_
  rw [List.map_map]
  refine List.map_congr_left fun b hb => ?_
  simp only [Function.comp, idx_movedKey hks (hw a ha), idx_movedKey hks (hw b hb)]

theorem weights_fst {df : List (Row K)} {cs : List Coh} {p : Coh × K} (hp : p ∈ weights df cs) : p.1 ∈ cs := by
  unfold weights at hp
  obtain ⟨g, hg, rfl⟩ := List.mem_map.1 hp
  exact hg

theorem moved_eventAt {s : ℤ} {df : List (Row K)} (h : OkRows s df) {gs : List Coh} (hg : ∀ g ∈ gs, Movable s g) {ks : List Key}
    (hks : ∀ k ∈ ks, Movable s k.1) (f : Reg K) (e : ℤ) :
    eventAt (df.map (movedRow s)) (gs.map (moveDate s)) (ks.map (movedKey s)) f e = (eventAt df gs ks f e).map (movedEvent s) := by
  have hc : ∀ g ∈ cohortsAt gs ks e, Movable s g := fun g hgm => hg g (List.mem_filter.1 hgm).1
  unfold eventAt
  simp only [moved_cohortsAt hg hks, List.map_eq_nil_iff, moved_total h hc]
  split_ifs
  · rfl
  · rfl
  · simp only [Option.map_some, movedEvent, moved_weights h hc, List.length_map, List.map_map]
    congr 2
    · congr 1
      refine List.map_congr_left fun p hp => ?_
      have := idx_movedKey hks (k := (p.1, e)) (hc p.1 (weights_fst hp))
      simp only [Function.comp, coefOf]
      rw [← this]; rfl
    · have hq := moved_quad hks f (ws := (weights df (cohortsAt gs ks e)).map (fun p => ((p.1, e), p.2))) (by
        intro q hq
        obtain ⟨p, hp, rfl⟩ := List.mem_map.1 hq
        exact hc p.1 (weights_fst hp))
      rw [← hq, List.map_map]
      rfl

theorem moved_iw {s : ℤ} {df : List (Row K)} (h : OkRows s df) {gs : List Coh} (hg : ∀ g ∈ gs, Movable s g) (es : List ℤ) {ks : List Key}
    (hks : ∀ k ∈ ks, Movable s k.1) (f : Reg K) :
    iwEffects (df.map (movedRow s)) (gs.map (moveDate s)) es (ks.map (movedKey s)) f = (iwEffects df gs es ks f).map (movedEvent s) := by
  unfold iwEffects
  rw [List.map_filterMap]
  exact List.filterMap_congr fun e _ => moved_eventAt h hg hks f e

theorem iw_weights {df : List (Row K)} {gs : List Coh} {es : List ℤ} {ks : List Key} {f : Reg K} {ev : Event K} (hev : ev ∈ iwEffects df gs es ks f)
    {p : Coh × K} (hp : p ∈ ev.weights) : p.1 ∈ gs := by
  unfold iwEffects at hev
  obtain ⟨e, -, he⟩ := List.mem_filterMap.1 hev
  unfold eventAt at he
  simp only at he
  split_ifs at he
  obtain rfl := Option.some.inj he
  exact (List.mem_filter.1 (weights_fst hp)).1

theorem moved_count {s : ℤ} {df : List (Row K)} (h : OkRows s df) (e : ℤ) : countAt (df.map (movedRow s)) e = countAt df e := by
  unfold countAt
  rw [List.filter_map, List.length_map]
  congr 2
  refine List.filter_congr fun r hr => ?_
  simp only [Function.comp, moved_rel (h r hr)]

theorem moved_overall {s : ℤ} {df : List (Row K)} (h : OkRows s df) {ks : List Key} (hks : ∀ k ∈ ks, Movable s k.1) (f : Reg K) {es : List (Event K)}
    (hw : ∀ ev ∈ es, ∀ p ∈ ev.weights, Movable s p.1) :
    overall (df.map (movedRow s)) (ks.map (movedKey s)) f (es.map (movedEvent s)) = overall df ks f es := by
  have hf : (es.map (movedEvent s)).filter (fun ev => decide (0 ≤ ev.e)) = (es.filter (fun ev => decide (0 ≤ ev.e))).map (movedEvent s) := by
    rw [List.filter_map]; rfl
  have hp : ∀ l : List (Event K), postWeights (df.map (movedRow s)) (l.map (movedEvent s)) = (postWeights df l).map (fun p => (movedEvent s p.1, p.2)) := by
    intro l
    unfold postWeights
    simp only [List.map_map, moved_count h]
    rfl
  unfold overall
  simp only [hf, List.map_eq_nil_iff, hp, List.map_map]
  split_ifs
  · rfl
  · congr 1
    have hc : combined ((postWeights df (es.filter (fun ev => decide (0 ≤ ev.e)))).map (fun p => (movedEvent s p.1, p.2))) =
        (combined (postWeights df (es.filter (fun ev => decide (0 ≤ ev.e))))).map (fun p => (movedKey s p.1, p.2)) := by
      unfold combined
      rw [List.flatMap_map, List.map_flatMap]
      refine List.flatMap_congr fun p _ => ?_
      simp only [movedEvent, List.map_map]
      rfl
    rw [hc, moved_quad hks]
    intro q hq
    unfold combined at hq
    obtain ⟨p, hp', hq⟩ := List.mem_flatMap.1 hq
    obtain ⟨w, hwm, rfl⟩ := List.mem_map.1 hq
    unfold postWeights at hp'
    obtain ⟨ev, hev, rfl⟩ := List.mem_map.1 hp'
    exact hw ev (List.mem_filter.1 hev).1 w hwm

/-! ### The property -/

/-- **C139 (SunAbraham).** Adding the same number to all periods and to all first treatment dates, so that no date becomes zero or changes
sign, leaves every number of the results unchanged, whatever the regression routine; only the cohort labels move. Errors are raised in
the same cases. -/
theorem C139_sunab (s : ℤ) (reg : List (List K) → List K → Option (Reg K)) (ant : ℤ) (c : Control) (df : List (Row K))
    (h : ∀ r ∈ df, Movable s r.cohort) : fit reg ant c (df.map (movedRow s)) = (fit reg ant c df).map (movedResults s) := by
  have h' : OkRows s df := h
  have hg : ∀ g ∈ groups df, Movable s g := fun g hg => mem_groups_of h' hg
  unfold fit
  simp only [moved_nControl h', moved_groups h', moved_relPeriods ant h', moved_sample c h', List.map_eq_nil_iff,
    moved_saturated reg hg _ (sample_ok c h'), moved_nTreated h', List.length_map]
  split_ifs
  · rfl
  · rfl
  · cases hs : saturated reg (groups df) (relPeriods ant df) (sample c df) with
    | error e => rfl
    | ok p =>
      obtain ⟨ks, f⟩ := p
      have hks : ∀ k ∈ ks, Movable s k.1 := by
        unfold saturated at hs
        simp only at hs
        split_ifs at hs
        cases hr : response (sample c df) with
        | none => rw [hr] at hs; simp at hs
        | some y =>
          rw [hr] at hs
          simp only at hs
          cases hq : reg (design (sample c df) (keys (groups df) (relPeriods ant df) (sample c df))) y with
          | none => rw [hq] at hs; simp at hs
          | some f' =>
            rw [hq] at hs
            simp only [Except.ok.injEq, Prod.mk.injEq] at hs
            intro k hk
            rw [← hs.1] at hk
            exact hg _ (keys_group hk)
      simp only [Except.map, movedResults, moved_iw h' hg _ hks]
      rw [moved_overall h' hks f (fun ev hev p hp => hg _ (iw_weights hev hp))]
      congr 2
      rw [List.map_map, List.map_map]
      refine List.map_congr_left fun k hk => ?_
      simp only [Function.comp, coefOf, idx_movedKey hks (hks k hk)]
      rfl

/-- Periods 4 to 6 renumbered as 2004 to 2006; one treated cohort, one never-treated unit. -/
example (reg : List (List ℚ) → List ℚ → Option (Reg ℚ)) (c : Control) :
    let df : List (Row ℚ) := [⟨0, 0, 4, .num 5, some 1⟩, ⟨1, 0, 5, .num 5, some 4⟩, ⟨2, 0, 6, .num 5, some 5⟩,
      ⟨3, 1, 4, .num 0, some 1⟩, ⟨4, 1, 5, .num 0, some 2⟩, ⟨5, 1, 6, .num 0, some 2⟩]
    fit reg 0 c (df.map (movedRow 2000)) = (fit reg 0 c df).map (movedResults 2000) := by
  refine C139_sunab 2000 reg 0 c _ fun r hr z hz h0 => ?_
  simp only [List.mem_cons, List.not_mem_nil, or_false] at hr
  rcases hr with rfl | rfl | rfl | rfl | rfl | rfl <;> simp only [Coh.num.injEq] at hz <;> subst hz <;> first | exact absurd rfl h0 | decide

/-- C139, the restriction is needed: counting periods from the treatment date leaves no treated cohort. -/
theorem C139_sunab_refuted (reg : List (List ℚ) → List ℚ → Option (Reg ℚ)) (c : Control) :
    let df : List (Row ℚ) := [⟨0, 0, 4, .num 5, some 1⟩, ⟨1, 0, 5, .num 5, some 4⟩, ⟨2, 0, 6, .num 5, some 5⟩,
      ⟨3, 1, 4, .num 0, some 1⟩, ⟨4, 1, 5, .num 0, some 2⟩, ⟨5, 1, 6, .num 0, some 2⟩]
    groups df = [.num 5] ∧ nControl df = 1 ∧ nControl (df.map (movedRow (-5))) = 2 ∧
      fit reg 0 c (df.map (movedRow (-5))) = .error .noTreated := by
  refine ⟨by decide +kernel, by decide +kernel, by decide +kernel, ?_⟩
  unfold fit
  rw [if_neg (by decide +kernel), if_pos (by decide +kernel)]

end DiffDiff.SunAb
