/-
Property C145 (TROP): the order of the rows does not matter, from the rows to the point estimate and the bootstrap, for both methods.
-/
import Verif.TropBoot2
import Verif.TropCv
import Mathlib.Data.List.Perm.Basic
import Mathlib.Data.List.Sort
import Mathlib.Data.List.Dedup
import Mathlib.Tactic.NormNum

set_option linter.unusedSectionVars false
set_option linter.unusedVariables false

namespace DiffDiff.Trop
open scoped List

variable {U T K : Type*} [LinearOrder U] [LinearOrder T] [Field K] [LinearOrder K] [IsStrictOrderedRing K] [FloorRing K]

theorem sortDedup_perm {A : Type*} [LinearOrder A] {l l' : List A} (h : l ~ l') : l.dedup.insertionSort (· ≤ ·) = l'.dedup.insertionSort (· ≤ ·) :=
  List.Perm.eq_of_pairwise' (List.pairwise_insertionSort _ _) (List.pairwise_insertionSort _ _)
    (((List.perm_insertionSort _ _).trans h.dedup).trans (List.perm_insertionSort _ _).symm)

theorem unitsOf_perm {rows rows' : List (Row U T K)} (h : rows ~ rows') : unitsOf rows = unitsOf rows' := sortDedup_perm (h.map _)

theorem periodsOf_perm {rows rows' : List (Row U T K)} (h : rows ~ rows') : periodsOf rows = periodsOf rows' := sortDedup_perm (h.map _)

theorem hasDup_perm {rows rows' : List (Row U T K)} (h : rows ~ rows') : hasDup rows = hasDup rows' := by
  unfold hasDup
  rw [decide_eq_decide.2 (h.map (fun r => (r.unit, r.time))).nodup_iff]

theorem cell_perm {rows rows' : List (Row U T K)} (h : rows ~ rows') (hn : hasDup rows = false) : cell rows = cell rows' := by
  have hn1 : (rows.map (fun r => (r.unit, r.time))).Nodup := by simpa [hasDup] using hn
  funext t u
  have key : ∀ l : List (Row U T K), (l.map (fun r => (r.unit, r.time))).Nodup → ∀ r ∈ l, r.unit = u → r.time = t → cell l t u = some r := by
    intro l hl r hr hu ht
    unfold cell
    cases hf : l.find? (fun r => decide (r.unit = u) && decide (r.time = t)) with
    | none =>
      have := List.find?_eq_none.1 hf r hr
      simp [hu, ht] at this
    | some q =>
      have hq := List.find?_some hf
      have hq' : q.unit = u ∧ q.time = t := by simpa using hq
      rw [List.inj_on_of_nodup_map hl (List.mem_of_find?_eq_some hf) hr (by simp [hq'.1, hq'.2, hu, ht])]
  cases hc : cell rows t u with
  | none =>
    symm
    unfold cell at hc ⊢
    rw [List.find?_eq_none] at hc ⊢
    exact fun r hr => hc r (h.mem_iff.2 hr)
  | some r =>
    have hr : r ∈ rows := List.mem_of_find?_eq_some hc
    have hs : r.unit = u ∧ r.time = t := by simpa using List.find?_some hc
    exact (key rows' ((h.map _).nodup_iff.1 hn1) r (h.mem_iff.1 hr) hs.1 hs.2).symm

theorem prepare_perm {rows rows' : List (Row U T K)} (h : rows ~ rows') : prepare rows = prepare rows' := by
  unfold prepare
  rw [← hasDup_perm h]
  by_cases hd : hasDup rows = true
  · rw [if_pos hd, if_pos hd]
  · have hn : hasDup rows = false := by simpa using hd
    rw [if_neg hd, if_neg hd]
    have hc := cell_perm h hn
    have hr : dRaw rows = dRaw rows' := by unfold dRaw; rw [hc]
    have hy : yCell rows = yCell rows' := by unfold yCell; rw [hc]
    have hD : dCell rows = dCell rows' := by unfold dCell; rw [hr]
    have hu := unitsOf_perm h
    have hp := periodsOf_perm h
    have ho : observed rows = observed rows' := by unfold observed; rw [hp, hr]
    have hv : violating rows = violating rows' := by unfold violating; rw [hu, ho]
    have h1 : nTreatedObs rows = nTreatedObs rows' := by unfold nTreatedObs; rw [hp, hu, hD]
    have h2 : unitTreated rows = unitTreated rows' := by unfold unitTreated; rw [hp, hD]
    have h3 : periodTreated rows = periodTreated rows' := by unfold periodTreated; rw [hu, hD]
    rw [hv, h1, h2, h3, hu, hp, hy, hD]

end DiffDiff.Trop

namespace DiffDiff.TropBoot
open scoped List
open TropFit (Data Cfg Ops)
open Trop (Row unitsOf periodsOf yCell dCell hasDup)
open TropJoint (Env Lam3)

variable {U T K : Type*} [LinearOrder U] [LinearOrder T] [Field K] [LinearOrder K] [IsStrictOrderedRing K] [FloorRing K]

theorem everMax_perm {rows rows' : List (Row U T K)} (h : rows ~ rows') : everMax rows = everMax rows' := by
  funext u
  exact ((h.filter _).filterMap _).maximum_eq

theorem drawn_perm {rows rows' : List (Row U T K)} (h : rows ~ rows') : drawn rows = drawn rows' := by
  have h1 : controlOf rows = controlOf rows' := by unfold controlOf; rw [everMax_perm h, Trop.unitsOf_perm h]
  have h2 : treatedOf rows = treatedOf rows' := by unfold treatedOf; rw [everMax_perm h, Trop.unitsOf_perm h]
  funext d
  unfold drawn
  rw [h1, h2]

theorem bootRows_perm (text : U → List Char) {rows rows' : List (Row U T K)} (h : rows ~ rows') (s : List U) : bootRows text rows s ~ bootRows text rows' s :=
  List.Perm.flatMap_left _ fun p _ => (h.filter _).map _

theorem dataOf_perm {rows rows' : List (Row U T K)} (h : rows ~ rows') (hn : hasDup rows = false) : dataOf rows = dataOf rows' := by
  have hc := Trop.cell_perm h hn
  have hy : yCell rows = yCell rows' := by unfold yCell; rw [hc]
  have hD : dCell rows = dCell rows' := by unfold dCell Trop.dRaw; rw [hc]
  unfold dataOf
  rw [Trop.unitsOf_perm h, Trop.periodsOf_perm h, hy, hD]

theorem fitFixed_perm (v : Env K) (c : Cfg K) {rows rows' : List (Row U T K)} (h : rows ~ rows') (tp : ℕ) (l : Lam3 K) :
    fitFixed v c rows tp l = fitFixed v c rows' tp l := by
  unfold fitFixed
  rw [← Trop.hasDup_perm h]
  by_cases hd : hasDup rows = true
  · rw [if_pos hd, if_pos hd]
  · rw [if_neg hd, if_neg hd, dataOf_perm h (by simpa using hd)]

theorem fitStored_perm (o : Ops K) (c : Cfg K) (P : Data K) {rows rows' : List (Row U T K)} (h : rows ~ rows') (l : TropFit.Lam3 K) :
    fitStored o c P rows l = fitStored o c P rows' l := by
  unfold fitStored
  rw [← Trop.hasDup_perm h]
  by_cases hd : hasDup rows = true
  · rw [if_pos hd, if_pos hd]
  · rw [if_neg hd, if_neg hd, dataOf_perm h (by simpa using hd)]

/-- C145 (TROP, both methods). Rows in another order: the data are rejected with the same error or give the same panel, hence (the estimates are functions of the
panel) the same effects, scores and tuning parameters. -/
theorem C145_trop {rows rows' : List (Row U T K)} (h : rows ~ rows') :
    Trop.prepare rows = Trop.prepare rows' ∧ TropJoint.prepare rows = TropJoint.prepare rows' := by
  have h1 := Trop.prepare_perm h
  refine ⟨h1, ?_⟩
  unfold TropJoint.prepare
  rw [← h1]
  cases hp : Trop.prepare rows with
  | error e => rfl
  | ok p =>
    have hd : hasDup rows = false := by
      unfold Trop.prepare at hp
      by_contra hh
      rw [if_pos (by simpa using hh)] at hp
      cases hp
    have hf : TropJoint.firstTreat rows = TropJoint.firstTreat rows' := by
      unfold TropJoint.firstTreat Trop.dRaw
      rw [Trop.periodsOf_perm h, Trop.cell_perm h hd]
    dsimp only
    rw [hf]

/-- C145 (bootstrap of TROP). With the same random draws, rows in another order give the same replicates, standard error and warnings. -/
theorem C145_trop_bootstrap {rows rows' : List (Row U T K)} (h : rows ~ rows') (text : U → List Char) :
    (∀ (v : Env K) (c : Cfg K) (tp : ℕ) (l : Lam3 K) (draws : List (List ℕ × List ℕ)), bootVar v c text rows tp l draws = bootVar v c text rows' tp l draws) ∧
    (hasDup rows = false → ∀ (o : Ops K) (c : Cfg K) (l : TropFit.Lam3 K) (draws : List (List ℕ × List ℕ)),
      bootVar2 o c text rows l draws = bootVar2 o c text rows' l draws) := by
  refine ⟨fun v c tp l draws => ?_, fun hn o c l draws => ?_⟩
  · have hr : replicate v c text rows tp l = replicate v c text rows' tp l := by
      funext d
      unfold replicate
      rw [drawn_perm h]
      exact fitFixed_perm v c (bootRows_perm text h _) tp l
    unfold bootVar
    rw [hr, drawn_perm h]
  · have hr : ∀ d, replicate2 o c text rows l d = replicate2 o c text rows' l d := by
      intro d
      unfold replicate2
      rw [drawn_perm h, dataOf_perm h hn]
      exact fitStored_perm o c _ (bootRows_perm text h _) l
    have hcol : collect o c text rows l draws = collect o c text rows' l draws := by
      induction draws with
      | nil => rfl
      | cons d ds ih =>
        unfold collect
        rw [drawn_perm h, hr d, ih]
    unfold bootVar2
    rw [hcol]

/-- Two units in three periods, listed by unit and then listed by period from the last to the first: the same accepted panel. -/
example : let a : List (Row ℕ ℕ ℚ) := [⟨1, 1, some 2, some 0⟩, ⟨1, 2, some 3, some 0⟩, ⟨1, 3, some 5, some 1⟩, ⟨2, 1, some 1, some 0⟩, ⟨2, 2, none, some 0⟩, ⟨2, 3, some 4, some 0⟩]
    (∃ p, Trop.prepare a = .ok p) ∧ Trop.prepare a.reverse = Trop.prepare a ∧ TropJoint.prepare a.reverse = TropJoint.prepare a ∧ hasDup a = false := by
  refine ⟨?_, (C145_trop (List.reverse_perm _)).1, (C145_trop (List.reverse_perm _)).2, by decide +kernel⟩
  unfold Trop.prepare
  rw [if_neg (by decide +kernel), if_neg (by decide +kernel), if_neg (by decide +kernel), if_neg (by decide +kernel), if_neg (by decide +kernel)]
  exact ⟨_, rfl⟩

end DiffDiff.TropBoot
