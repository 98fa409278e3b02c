/-
Property C139: numbering the periods differently does not change Callaway-Sant'Anna results.
-/
import Verif.CSRecodeProps
import Mathlib.Data.List.Sort
import Mathlib.Data.List.Dedup

set_option linter.unusedSectionVars false

namespace DiffDiff.CS

variable {K : Type*} [Field K] [LinearOrder K] [IsStrictOrderedRing K]
variable {n : ℕ}

/-! ### Specification -/

/-- A first treatment date moved by `s`; the code 0 for "never treated" stays. -/
def moveDate (s : ℤ) : Coh → Coh
  | .num z => if z = 0 then .num 0 else .num (z + s)
  | .inf => .inf
  | .nan => .nan

/-- The date stays a date: it does not become zero or change sign. -/
def Movable (s : ℤ) (c : Coh) : Prop := ∀ z, c = .num z → z ≠ 0 → z + s ≠ 0 ∧ (0 < z ↔ 0 < z + s)

/-- The panel with all periods and dates moved by `s`. -/
def moved (s : ℤ) (P : Panel n K) : Panel n K where
  cohort u := moveDate s (P.cohort u)
  times := P.times.map (· + s)
  y u t := P.y u (t - s)

/-- Renumber the labels of a list of effects. -/
def movedEffects (s : ℤ) (l : List ((Coh × ℤ) × Entry n K)) : List ((Coh × ℤ) × Entry n K) :=
  l.map (fun x => ((moveDate s x.1.1, x.1.2 + s), x.2))

/-- Renumber the labels of the results. -/
def movedResults (s : ℤ) (r : Results n K) : Results n K where
  groups := r.groups.map (moveDate s)
  nTreated := r.nTreated
  nControl := r.nControl
  effects := movedEffects s r.effects
  overall := r.overall
  event := r.event
  group := r.group.map (fun x => (moveDate s x.1, x.2))

/-! ### Lemmas -/

theorem move_never {s : ℤ} {c : Coh} (h : Movable s c) : (moveDate s c).isNever = c.isNever := by
  cases c with
  | num z =>
    by_cases hz : z = 0
    · simp [moveDate, hz]
    · simp [moveDate, hz, Coh.isNever, (h z rfl hz).1]
  | _ => rfl

theorem move_pos {s : ℤ} {c : Coh} (h : Movable s c) : (moveDate s c).pos = c.pos := by
  cases c with
  | num z =>
    by_cases hz : z = 0
    · simp [moveDate, hz]
    · simp [moveDate, hz, Coh.pos, (h z rfl hz).2]
  | _ => rfl

theorem move_inj {s : ℤ} {c d : Coh} (hc : Movable s c) (hd : Movable s d) : moveDate s c = moveDate s d ↔ c = d := by
  refine ⟨fun h => ?_, fun h => by rw [h]⟩
  cases c with
  | num z =>
    cases d with
    | num w =>
      by_cases hz : z = 0 <;> by_cases hw : w = 0
      · rw [hz, hw]
      · simp [moveDate, hz, hw] at h
        exact absurd h.symm (hd w rfl hw).1
      · simp [moveDate, hz, hw] at h
        exact absurd h (hc z rfl hz).1
      · simp [moveDate, hz, hw] at h
        rw [h]
    | _ => by_cases hz : z = 0 <;> simp [moveDate, hz] at h
  | inf =>
    cases d with
    | num w => by_cases hw : w = 0 <;> simp [moveDate, hw] at h
    | _ => first | rfl | simp [moveDate] at h
  | nan =>
    cases d with
    | num w => by_cases hw : w = 0 <;> simp [moveDate, hw] at h
    | _ => first | rfl | simp [moveDate] at h

theorem pos_ne_zero {c : Coh} (h : c.pos = true) : c ≠ .num 0 := by rintro rfl; simp [Coh.pos] at h

theorem move_num {s z : ℤ} (h : Coh.num z ≠ .num 0) : moveDate s (.num z) = .num (z + s) := by
  have : z ≠ 0 := fun h' => h (by rw [h'])
  simp [moveDate, this]

theorem move_gtT {s : ℤ} {c : Coh} (h : c ≠ .num 0) (t : ℤ) : (moveDate s c).gtT (t + s) = c.gtT t := by
  cases c with
  | num z => rw [move_num h]; simp [Coh.gtT]
  | _ => rfl

theorem move_post {s : ℤ} {c : Coh} (h : c ≠ .num 0) (ant t : ℤ) : (moveDate s c).post ant (t + s) = c.post ant t := by
  cases c with
  | num z =>
    rw [move_num h]
    simp only [Coh.post, decide_eq_decide]
    constructor <;> intro <;> omega
  | _ => rfl

theorem move_pre {s : ℤ} {c : Coh} (h : c ≠ .num 0) (ant t : ℤ) : (moveDate s c).pre ant (t + s) = c.pre ant t := by
  cases c with
  | num z =>
    rw [move_num h]
    simp only [Coh.pre, decide_eq_decide]
    constructor <;> intro <;> omega
  | _ => rfl

theorem move_rel {s : ℤ} {c : Coh} (h : c ≠ .num 0) (t : ℤ) : (moveDate s c).rel (t + s) = c.rel t := by
  cases c with
  | num z => rw [move_num h]; simp [Coh.rel]
  | _ => rfl

theorem move_le {s : ℤ} {c d : Coh} (hc : c ≠ .num 0) (hd : d ≠ .num 0) : Coh.le (moveDate s c) (moveDate s d) = Coh.le c d := by
  cases c with
  | num z =>
    cases d with
    | num w => rw [move_num hc, move_num hd]; simp [Coh.le]
    | _ => rw [move_num hc]; rfl
  | _ =>
    cases d with
    | num w => rw [move_num hd]; rfl
    | _ => rfl

theorem move_base {s : ℤ} (c : Cfg) {g : Coh} (h : g ≠ .num 0) (t : ℤ) :
    basePeriod c (moveDate s g) (t + s) = (basePeriod c g t).map (· + s) := by
  unfold basePeriod
  rw [move_pre h]
  cases g with
  | num z =>
    rw [move_num h]
    have : z + s - 1 - c.ant = z - 1 - c.ant + s := by ring
    cases c.base <;> simp only [this, Option.map_some]
    split_ifs
    · simp only [Option.map_some, Option.some.injEq]; ring
    · rfl
  | _ =>
    cases c.base
    · simp only [moveDate]
      split_ifs
      · simp only [Option.map_some, Option.some.injEq]; ring
      · rfl
    · rfl

theorem mem_moved_times {s : ℤ} {P : Panel n K} {t : ℤ} : t + s ∈ (moved s P).times ↔ t ∈ P.times := by
  simp [moved]

theorem moved_change (s : ℤ) (P : Panel n K) (b t : ℤ) : change (moved s P) (b + s) (t + s) = change P b t := by
  funext u; simp [change, moved]

theorem moved_treated {s : ℤ} {P : Panel n K} (hP : ∀ u, Movable s (P.cohort u)) {g : Coh} (hg : Movable s g) (b t : ℤ) :
    treatedSet (moved s P) (moveDate s g) (b + s) (t + s) = treatedSet P g b t := by
  ext u
  rw [mem_treatedSet, mem_treatedSet]
  refine and_congr (move_inj (hP u) hg) ?_
  simp [moved]

theorem moved_control {s : ℤ} (c : Cfg) {P : Panel n K} (hP : ∀ u, Movable s (P.cohort u)) {g : Coh} (hg : Movable s g) (b t : ℤ) :
    controlSet c (moved s P) (moveDate s g) (b + s) (t + s) = controlSet c P g b t := by
  ext u
  rw [mem_controlSet, mem_controlSet]
  refine and_congr ?_ (by simp [moved])
  have h1 : ((moved s P).cohort u).isNever = (P.cohort u).isNever := move_never (hP u)
  unfold controlMask
  cases c.ctl with
  | never => simp only [h1]
  | notYet =>
    simp only [h1]
    by_cases h0 : P.cohort u = .num 0
    · simp [h0, Coh.isNever]
    · have h2 : ((moved s P).cohort u).gtT (t + s) = (P.cohort u).gtT t := move_gtT h0 t
      have h3 : (moved s P).cohort u ≠ moveDate s g ↔ P.cohort u ≠ g := not_congr (move_inj (hP u) hg)
      simp only [h2, h3]

/-- C139, one effect: value, variance, counts, units and influence function. -/
theorem C139_cs_effect (s : ℤ) (c : Cfg) (P : Panel n K) (hP : ∀ u, Movable s (P.cohort u)) (g : Coh) (hg : Movable s g)
    (h0 : g ≠ .num 0) (t : ℤ) : attGt c (moved s P) (moveDate s g) (t + s) = attGt c P g t := by
  unfold attGt
  rw [move_base c h0]
  cases basePeriod c g t with
  | none => rfl
  | some b =>
    simp only [Option.map_some, mem_moved_times, moved_treated hP hg, moved_control c hP hg, moved_change]

theorem dedup_map_on {α β : Type*} [DecidableEq α] [DecidableEq β] (f : α → β) (l : List α)
    (h : ∀ a ∈ l, ∀ b ∈ l, f a = f b → a = b) : (l.map f).dedup = l.dedup.map f := by
  induction l with
  | nil => rfl
  | cons a l ih =>
    have ih := ih (fun x hx y hy => h x (List.mem_cons_of_mem _ hx) y (List.mem_cons_of_mem _ hy))
    rw [List.map_cons]
    by_cases ha : a ∈ l
    · rw [List.dedup_cons_of_mem ha, List.dedup_cons_of_mem (List.mem_map_of_mem ha), ih]
    · rw [List.dedup_cons_of_notMem ha, List.dedup_cons_of_notMem, ih, List.map_cons]
      intro hc
      obtain ⟨b, hb, hfb⟩ := List.mem_map.1 hc
      exact ha (h b (List.mem_cons_of_mem _ hb) a (List.mem_cons_self ..) hfb ▸ hb)

theorem mem_groups' {P : Panel n K} {g : Coh} : g ∈ groups P ↔ (∃ u, P.cohort u = g) ∧ g.pos = true := by
  unfold groups
  rw [List.mem_insertionSort, List.mem_filter, List.mem_dedup, List.mem_map]
  simp

theorem moved_groups {s : ℤ} {P : Panel n K} (hP : ∀ u, Movable s (P.cohort u)) : groups (moved s P) = (groups P).map (moveDate s) := by
  unfold groups
  have h1 : (List.finRange n).map (moved s P).cohort = ((List.finRange n).map P.cohort).map (moveDate s) := by
    rw [List.map_map]; rfl
  have hm : ∀ c ∈ (List.finRange n).map P.cohort, Movable s c := by
    intro c hc
    obtain ⟨u, -, rfl⟩ := List.mem_map.1 hc
    exact hP u
  rw [h1, dedup_map_on _ _ (fun a ha b hb h => (move_inj (hm a ha) (hm b hb)).1 h), List.filter_map]
  have h2 : ((List.finRange n).map P.cohort).dedup.filter (Coh.pos ∘ moveDate s) = ((List.finRange n).map P.cohort).dedup.filter Coh.pos :=
    List.filter_congr fun c hc => move_pos (hm c (List.mem_dedup.1 hc))
  rw [h2]
  refine (List.map_insertionSort (r := fun a b => Coh.le a b = true) (s := fun a b => Coh.le a b = true) (moveDate s) _ ?_).symm
  intro a ha b hb
  rw [move_le (pos_ne_zero (List.mem_filter.1 ha).2) (pos_ne_zero (List.mem_filter.1 hb).2)]

theorem moved_validPeriods {s : ℤ} (c : Cfg) (P : Panel n K) {g : Coh} (h0 : g ≠ .num 0) :
    validPeriods c (moved s P) (moveDate s g) = (validPeriods c P g).map (· + s) := by
  unfold validPeriods
  have ht : (moved s P).times = P.times.map (· + s) := rfl
  cases c.base with
  | universal =>
    simp only [ht, List.filter_map]
    congr 1
    refine List.filter_congr fun t _ => ?_
    cases g with
    | num z =>
      rw [move_num h0]
      simp only [Function.comp, decide_eq_decide, ne_eq, not_iff_not]
      constructor <;> intro <;> omega
    | _ => rfl
  | varying =>
    simp only [ht, List.filter_map]
    congr 1
    refine List.filter_congr fun t _ => ?_
    simp only [Function.comp, move_post h0, List.any_map]
    congr 2
    funext x
    simp [Function.comp]

theorem mem_effects_key {c : Cfg} {P : Panel n K} {x : (Coh × ℤ) × Entry n K} (hx : x ∈ effects c P) : x.1.1 ∈ groups P := by
  unfold effects at hx
  obtain ⟨g, hg, hx⟩ := List.mem_flatMap.1 hx
  obtain ⟨t, -, ht⟩ := List.mem_filterMap.1 hx
  obtain ⟨e, -, rfl⟩ := Option.map_eq_some_iff.1 ht
  exact hg

theorem moved_effects {s : ℤ} (c : Cfg) {P : Panel n K} (hP : ∀ u, Movable s (P.cohort u)) :
    effects c (moved s P) = movedEffects s (effects c P) := by
  unfold effects movedEffects
  rw [moved_groups hP, List.flatMap_map, List.map_flatMap]
  refine List.flatMap_congr fun g hg => ?_
  obtain ⟨⟨u, hu⟩, hpos⟩ := mem_groups'.1 hg
  have h0 := pos_ne_zero hpos
  rw [moved_validPeriods c P h0, List.filterMap_map, List.map_filterMap]
  refine List.filterMap_congr fun t _ => ?_
  simp only [Function.comp, C139_cs_effect s c P hP g (hu ▸ hP u) h0, Option.map_map]
  rfl

/-! Lists whose labels are dates that can be moved. -/

def Good (s : ℤ) (l : List ((Coh × ℤ) × Entry n K)) : Prop := ∀ x ∈ l, Movable s x.1.1 ∧ x.1.1 ≠ .num 0

theorem good_effects {s : ℤ} (c : Cfg) {P : Panel n K} (hP : ∀ u, Movable s (P.cohort u)) : Good s (effects c P) := by
  intro x hx
  obtain ⟨⟨u, hu⟩, hpos⟩ := mem_groups'.1 (mem_effects_key hx)
  exact ⟨hu ▸ hP u, pos_ne_zero hpos⟩

theorem good_filter {s : ℤ} {l : List ((Coh × ℤ) × Entry n K)} (h : Good s l) (p : (Coh × ℤ) × Entry n K → Bool) : Good s (l.filter p) :=
  fun x hx => h x (List.mem_filter.1 hx).1

theorem movedEffects_filter {s : ℤ} {l : List ((Coh × ℤ) × Entry n K)} (p q : (Coh × ℤ) × Entry n K → Bool)
    (h : ∀ x ∈ l, p ((moveDate s x.1.1, x.1.2 + s), x.2) = q x) : (movedEffects s l).filter p = movedEffects s (l.filter q) := by
  unfold movedEffects
  rw [List.filter_map]
  congr 1
  exact List.filter_congr h

theorem movedEffects_snd (s : ℤ) (l : List ((Coh × ℤ) × Entry n K)) {β : Type*} (f : Entry n K → β) :
    (movedEffects s l).map (fun x => f x.2) = l.map (fun x => f x.2) := by
  unfold movedEffects
  rw [List.map_map]; rfl

theorem movedEffects_size (s : ℤ) (l : List ((Coh × ℤ) × Entry n K)) : sizeWeights (movedEffects s l) = sizeWeights l := by
  unfold sizeWeights
  rw [movedEffects_snd s l (fun e => (e.nT : K)), movedEffects_snd s l (fun e => (e.nT : K) / _)]

theorem movedEffects_length (s : ℤ) (l : List ((Coh × ℤ) × Entry n K)) : (movedEffects s l).length = l.length := by
  unfold movedEffects; rw [List.length_map]

theorem moved_post {s : ℤ} {l : List ((Coh × ℤ) × Entry n K)} (h : Good s l) (ant : ℤ) :
    postPairs ant (movedEffects s l) = movedEffects s (postPairs ant l) := by
  unfold postPairs
  exact movedEffects_filter _ _ fun x hx => by simp only [move_pre (h x hx).2]

theorem moved_overall {s : ℤ} {l : List ((Coh × ℤ) × Entry n K)} (h : Good s l) (ant : ℤ) : overall ant (movedEffects s l) = overall ant l := by
  unfold overall
  simp only [moved_post h, movedEffects_length, movedEffects_size, movedEffects_snd s _ (fun e => e.effect)]

theorem moved_esPairs {s : ℤ} {l : List ((Coh × ℤ) × Entry n K)} (h : Good s l) (bal : Option ℤ) :
    esPairs bal (movedEffects s l) = movedEffects s (esPairs bal l) := by
  cases bal with
  | none => rfl
  | some b =>
    unfold esPairs
    refine movedEffects_filter _ _ fun x hx => ?_
    unfold movedEffects
    rw [List.any_map]
    rw [Bool.eq_iff_iff, List.any_eq_true, List.any_eq_true]
    refine exists_congr fun z => and_congr_right fun hz => ?_
    simp only [Function.comp, Bool.and_eq_true, decide_eq_true_eq, move_inj (h z hz).1 (h x hx).1, move_rel (h z hz).2]

theorem moved_rels {s : ℤ} {l : List ((Coh × ℤ) × Entry n K)} (h : Good s l) : relTimes (movedEffects s l) = relTimes l := by
  unfold relTimes movedEffects
  rw [List.map_map]
  congr 2
  exact List.map_congr_left fun x hx => move_rel (h x hx).2 _

theorem moved_atRel {s : ℤ} {l : List ((Coh × ℤ) × Entry n K)} (h : Good s l) (e : WithBot ℤ) :
    atRel (movedEffects s l) e = movedEffects s (atRel l e) := by
  unfold atRel
  exact movedEffects_filter _ _ fun x hx => by simp only [move_rel (h x hx).2]

theorem moved_event {s : ℤ} {l : List ((Coh × ℤ) × Entry n K)} (h : Good s l) (c : Cfg) (bal : Option ℤ) :
    eventStudy c bal (movedEffects s l) = eventStudy c bal l := by
  have hes : Good s (esPairs bal l) := by
    cases bal with
    | none => exact h
    | some b => exact good_filter h _
  unfold eventStudy
  simp only [moved_esPairs h, moved_rels hes, moved_atRel hes, movedEffects_length, movedEffects_size, movedEffects_snd s _ (fun e => e.effect)]

theorem moved_groupPairs {s : ℤ} {l : List ((Coh × ℤ) × Entry n K)} (h : Good s l) (ant : ℤ) {g : Coh} (hg : Movable s g) (h0 : g ≠ .num 0) :
    groupPairs ant (movedEffects s l) (moveDate s g) = movedEffects s (groupPairs ant l g) := by
  unfold groupPairs
  exact movedEffects_filter _ _ fun x hx => by simp only [move_inj (h x hx).1 hg, move_post h0]

theorem moved_group {s : ℤ} {l : List ((Coh × ℤ) × Entry n K)} (h : Good s l) (ant : ℤ) (gs : List Coh)
    (hg : ∀ g ∈ gs, Movable s g ∧ g ≠ .num 0) :
    groupEffects ant (gs.map (moveDate s)) (movedEffects s l) = (groupEffects ant gs l).map (fun x => (moveDate s x.1, x.2)) := by
  unfold groupEffects
  rw [List.filterMap_map, List.map_filterMap]
  refine List.filterMap_congr fun g hgm => ?_
  simp only [Function.comp, moved_groupPairs h ant (hg g hgm).1 (hg g hgm).2, movedEffects_length]
  by_cases hk : (groupPairs ant l g).length = 0
  · simp only [if_pos hk]; rfl
  · simp only [if_neg hk, Option.map_some]
    congr 3
    unfold equalWeights
    rw [movedEffects_length, movedEffects_snd s _ (fun e => e.effect), movedEffects_snd s _ (fun _ => 1 / ((groupPairs ant l g).length : K))]

/-! ### The property -/

/-- **C139 (CallawaySantAnna).** Adding the same number to all periods and to all first treatment dates, so that no date becomes zero or
changes sign, leaves every number of the results unchanged: group-time effects with variances and influence functions, the overall
effect, event study and group effects; only the labels of periods and cohorts move. Errors are raised in the same cases. -/
theorem C139_cs (s : ℤ) (c : Cfg) (bal : Option ℤ) (P : Panel n K) (hP : ∀ u, Movable s (P.cohort u)) :
    fit c bal (moved s P) = (fit c bal P).map (movedResults s) := by
  have hnev : (Finset.univ.filter (fun u => ((moved s P).cohort u).isNever = true)) = Finset.univ.filter (fun u => (P.cohort u).isNever = true) :=
    Finset.filter_congr fun u _ => by rw [show ((moved s P).cohort u).isNever = _ from move_never (hP u)]
  have hpos : (Finset.univ.filter (fun u => ((moved s P).cohort u).pos = true)) = Finset.univ.filter (fun u => (P.cohort u).pos = true) :=
    Finset.filter_congr fun u _ => by rw [show ((moved s P).cohort u).pos = _ from move_pos (hP u)]
  have hg := good_effects c hP
  unfold fit
  simp only [hnev, hpos, moved_effects c hP, movedEffects_length]
  split_ifs
  · rfl
  · rfl
  · simp only [Except.map, movedResults, moved_groups hP, moved_overall hg, moved_event hg]
    rw [moved_group hg c.ant (groups P)]
    intro g hgm
    obtain ⟨⟨u, hu⟩, hp⟩ := mem_groups'.1 hgm
    exact ⟨hu ▸ hP u, pos_ne_zero hp⟩

/-- **C139 (CallawaySantAnna), standard error of the overall effect.** -/
theorem C139_cs_overall_var (s : ℤ) (c : Cfg) (P : Panel n K) (hP : ∀ u, Movable s (P.cohort u)) :
    overallVar c.ant (moved s P) (effects c (moved s P)) = overallVar c.ant P (effects c P) := by
  have hg := good_effects c hP
  rw [moved_effects c hP]
  unfold overallVar
  have hgp : Good s (postPairs c.ant (effects c P)) := good_filter hg _
  generalize hk : postPairs c.ant (effects c P) = k at hgp
  have h1 : (movedEffects s k).map Prod.snd = k.map Prod.snd := movedEffects_snd s k id
  have hpg : ∀ (N : ℕ) (x), x ∈ k → pg (K := K) (moved s P) N (moveDate s x.1.1) = pg P N x.1.1 := by
    intro N x hx
    unfold pg
    congr 3
    exact Finset.filter_congr fun u _ => move_inj (hP u) (hgp x hx).1
  have hkeep : (movedEffects s k).map (fun x => (x.1.1, x.2.effect)) = k.map (fun x => (moveDate s x.1.1, x.2.effect)) := by
    unfold movedEffects; rw [List.map_map]; rfl
  have hsum : ∀ N : ℕ, ((k.map (fun x => (moveDate s x.1.1, x.2.effect))).map (fun x => pg (K := K) (moved s P) N x.1)).sum =
      ((k.map (fun x => (x.1.1, x.2.effect))).map (fun x => pg (K := K) P N x.1)).sum := by
    intro N
    rw [List.map_map, List.map_map]
    congr 1
    exact List.map_congr_left fun x hx => hpg N x hx
  have hind : ∀ u x, x ∈ k → ((moved s P).cohort u = moveDate s x.1.1 ↔ P.cohort u = x.1.1) := fun u x hx => move_inj (hP u) (hgp x hx).1
  have hwif : ∀ (N : ℕ) u, wif (moved s P) N (k.map (fun x => (moveDate s x.1.1, x.2.effect))) u =
      wif P N (k.map (fun x => (x.1.1, x.2.effect))) u := by
    intro N u
    unfold wif
    simp only [hsum N]
    generalize ((k.map (fun x => (x.1.1, x.2.effect))).map (fun x => pg (K := K) P N x.1)).sum = W
    have hi : ((k.map (fun x => (moveDate s x.1.1, x.2.effect))).map
        (fun x => (if (moved s P).cohort u = x.1 then (1 : K) else 0) - pg (moved s P) N x.1)).sum =
        ((k.map (fun x => (x.1.1, x.2.effect))).map (fun x => (if P.cohort u = x.1 then (1 : K) else 0) - pg P N x.1)).sum := by
      rw [List.map_map, List.map_map]
      congr 1
      refine List.map_congr_left fun x hx => ?_
      simp only [Function.comp, hpg N x hx, hind u x hx]
    rw [hi]
    generalize ((k.map (fun x => (x.1.1, x.2.effect))).map (fun x => (if P.cohort u = x.1 then (1 : K) else 0) - pg P N x.1)).sum = V
    rw [List.map_map, List.map_map]
    congr 1
    refine List.map_congr_left fun x hx => ?_
    simp only [Function.comp, hpg N x hx, hind u x hx]
  simp only [moved_post hg, hk, h1, hkeep, hsum, movedEffects_size, hwif]

/-! ### Instance and counterexample -/

/-- Four units observed in periods 4 to 7: two cohorts and two never-treated units. -/
def demoShift : Panel 4 ℚ where
  cohort := ![.num 5, .num 6, .num 0, .num 0]
  times := [4, 5, 6, 7]
  y u t := some (![![1, 5, 8, 9], ![2, 2, 6, 9], ![0, 1, 1, 3], ![1, 2, 4, 5]] u (if t = 4 then 0 else if t = 5 then 1 else if t = 6 then 2 else 3))

/-- Renumbering 4-7 as 2004-2007 is covered: nothing but the labels changes. -/
example (c : Cfg) (bal : Option ℤ) : fit c bal (moved 2000 demoShift) = (fit c bal demoShift).map (movedResults 2000) := by
  refine C139_cs 2000 c bal demoShift fun u => ?_
  fin_cases u <;> intro z hz h0 <;> simp only [demoShift] at hz
  · obtain rfl : (5 : ℤ) = z := by simpa using hz
    decide
  · obtain rfl : (6 : ℤ) = z := by simpa using hz
    decide
  · exact absurd (by simpa using hz.symm) h0
  · exact absurd (by simpa using hz.symm) h0

/-- Keys and values of the group-time effects. -/
def effectTable (c : Cfg) (P : Panel n K) : List ((Coh × ℤ) × K) := (effects c P).map (fun x => (x.1, x.2.effect))

/-- C139, the restriction is needed: with periods counted from the first treatment date (5 becomes 0) the first cohort turns into
never-treated controls without notice, its effects disappear and those of the other cohort change (7/3 instead of 3 at its treatment date, 4 instead of 9/2 one period later);
with periods counted back from the end the cohorts become negative, and both are dropped. -/
theorem C139_cs_refuted :
    effectTable ⟨.varying, .never, 0, .reg⟩ demoShift =
      [((.num 5, 5), 3), ((.num 5, 6), 5), ((.num 5, 7), 9/2), ((.num 6, 5), -1), ((.num 6, 6), 3), ((.num 6, 7), 9/2)] ∧
    effectTable ⟨.varying, .never, 0, .reg⟩ (moved (-5) demoShift) = [((.num 1, 0), -2), ((.num 1, 1), 7/3), ((.num 1, 2), 4)] ∧
    groups (moved (-5) demoShift) = [.num 1] ∧ groups (moved (-8) demoShift) = [] := by
  decide +kernel

end DiffDiff.CS
