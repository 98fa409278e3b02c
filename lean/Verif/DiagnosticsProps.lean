/-
Placebo tests: C45 (range of the permutation p-value), C46, C53 (placebo intervals), C80, C81, C82.
-/
import Verif.Diagnostics

set_option linter.unusedSectionVars false

namespace DiffDiff.Diagnostics

variable {K : Type*} [Field K] [LinearOrder K] {U E : Type*} [DecidableEq U]

/-! ### Lemmas -/

theorem didFit_ok {reg : Reg K U E} {rows : List (Row K U E)} {dcol : Row K U E → Option K} {tcol : Row K U E → ℤ}
    {f : Fit K} (h : didFit reg rows dcol tcol = .ok f) :
    complete rows dcol ∧ varies (rows.map dcol) ∧ varies (rows.map tcol) ∧ binaryD rows dcol ∧ binaryT rows tcol ∧
      reg (rows.map (fun r => (r, decide (dcol r = some 1), decide (tcol r = 1)))) = .ok f := by
  unfold didFit at h
  by_cases h1 : complete rows dcol
  · by_cases h2 : varies (rows.map dcol)
    · by_cases h3 : varies (rows.map tcol)
      · by_cases h4 : binaryD rows dcol
        · by_cases h5 : binaryT rows tcol
          · rw [if_neg (not_not.mpr h1), if_neg (not_not.mpr h2), if_neg (not_not.mpr h3), if_neg (not_not.mpr h4),
              if_neg (not_not.mpr h5)] at h
            exact ⟨h1, h2, h3, h4, h5, h⟩
          · rw [if_neg (not_not.mpr h1), if_neg (not_not.mpr h2), if_neg (not_not.mpr h3), if_neg (not_not.mpr h4),
              if_pos h5] at h
            cases h
        · rw [if_neg (not_not.mpr h1), if_neg (not_not.mpr h2), if_neg (not_not.mpr h3), if_pos h4] at h
          cases h
      · rw [if_neg (not_not.mpr h1), if_neg (not_not.mpr h2), if_pos h3] at h
        cases h
    · rw [if_neg (not_not.mpr h1), if_pos h2] at h
      cases h
  · rw [if_pos h1] at h
    cases h

theorem varies_ne {α : Type*} [DecidableEq α] {l : List α} (h : varies l) : ∃ a ∈ l, ∃ b ∈ l, a ≠ b := by
  have hn := l.nodup_dedup
  have hm : ∀ x, x ∈ l.dedup → x ∈ l := fun x => List.mem_dedup.1
  unfold varies at h
  match hl : l.dedup, h with
  | a :: b :: t, _ =>
    rw [hl] at hn hm
    refine ⟨a, hm a (by simp), b, hm b (by simp), ?_⟩
    rintro rfl
    simp at hn
  | [], h => simp at h
  | [a], h => simp at h

theorem mem_allPeriods (rows : List (Row K U E)) (p : ℤ) : p ∈ allPeriods rows ↔ ∃ r ∈ rows, r.time = p := by
  unfold allPeriods
  rw [List.mem_insertionSort, List.mem_dedup, List.mem_map]

theorem preData_eq (rows : List (Row K U E)) (post : List ℤ) :
    preData rows post = rows.filter (fun r => decide (r.time ∉ post)) := by
  unfold preData
  refine List.filter_congr fun r hr => ?_
  have : r.time ∈ allPeriods rows := (mem_allPeriods _ _).2 ⟨r, hr, rfl⟩
  simp [List.mem_filter, this]

theorem flag_eq {b : Bool} : flag b = 1 ↔ b = true := by cases b <;> simp [flag]

theorem flag_cases (b : Bool) : flag b = 0 ∨ flag b = 1 := by cases b <;> simp [flag]

theorem mem_firsts {α : Type*} [DecidableEq α] {l : List α} {a : α} : a ∈ firsts l ↔ a ∈ l := by
  simp [firsts]

theorem nodup_firsts {α : Type*} [DecidableEq α] (l : List α) : (firsts l).Nodup := by
  simp [firsts, List.nodup_dedup]

theorem timing_ok {reg : Reg K U E} {rows : List (Row K U E)} {fake : ℤ} {postArg : Option (List ℤ)} {alpha : K}
    {r : Placebo K U} (h : timingTest reg rows fake postArg alpha = .ok r) :
    fake ∉ resolvePost rows postArg ∧
    ∃ f g, didFit reg (rows.filter (fun r => decide (r.time ∉ resolvePost rows postArg))) (fun r => r.d)
        (fun r => flag (decide (fake ≤ r.time))) = .ok f ∧
      didFit reg rows (fun r => r.d) (fun r => flag (decide (r.time ∈ resolvePost rows postArg))) = .ok g ∧
      r = { effect := f.att, se := f.se, t := f.t, p := f.p, ci := f.ci, nObs := f.nObs
            significant := Ext.lt f.p (.fin alpha), alpha := alpha
            originalEffect := g.att, originalSe := g.se, looEffects := [], draws := [] } := by
  unfold timingTest at h
  simp only [preData_eq] at h
  by_cases h1 : fake ∈ resolvePost rows postArg
  · rw [if_pos h1] at h; cases h
  · rw [if_neg h1] at h
    refine ⟨h1, ?_⟩
    cases h2 : didFit reg (rows.filter (fun r => decide (r.time ∉ resolvePost rows postArg))) (fun r => r.d)
        (fun r => flag (decide (fake ≤ r.time))) with
    | error e => rw [h2] at h; cases h
    | ok f =>
      rw [h2] at h
      cases h3 : didFit reg rows (fun r => r.d) (fun r => flag (decide (r.time ∈ resolvePost rows postArg))) with
      | error e => rw [h3] at h; cases h
      | ok g =>
        rw [h3] at h
        injection h with h
        exact ⟨f, g, rfl, rfl, h.symm⟩

/-! ### C46 -/

/-- The verdict and estimate of a placebo test, without the comparison with the original fit. -/
def verdict (r : Placebo K U) : Option K × Ext K × Ext K × Ext K × (Ext K × Ext K) × ℕ × Bool :=
  (r.effect, r.se, r.t, r.p, r.ci, r.nObs, r.significant)

/-- A fake period inside the post window (given or inferred) is rejected. -/
theorem C46_rejects_post (reg : Reg K U E) (rows : List (Row K U E)) (fake : ℤ) (postArg : Option (List ℤ)) (alpha : K)
    (h : fake ∈ resolvePost rows postArg) : timingTest reg rows fake postArg alpha = .error .value := by
  unfold timingTest
  exact if_pos h

/-- Replace the outcomes of the rows in the post window. -/
def changePost (post : List ℤ) (g : Row K U E → Option K) (rows : List (Row K U E)) : List (Row K U E) :=
  rows.map (fun r => if r.time ∈ post then { r with y := g r } else r)

theorem changePost_periods (post : List ℤ) (g : Row K U E → Option K) (rows : List (Row K U E)) :
    allPeriods (changePost post g rows) = allPeriods rows := by
  unfold allPeriods changePost
  congr 2
  rw [List.map_map]
  refine List.map_congr_left fun r _ => ?_
  simp only [Function.comp]
  by_cases h : r.time ∈ post
  · rw [if_pos h]
  · rw [if_neg h]

theorem changePost_pre (post : List ℤ) (g : Row K U E → Option K) (rows : List (Row K U E)) :
    (changePost post g rows).filter (fun r => decide (r.time ∉ post)) = rows.filter (fun r => decide (r.time ∉ post)) := by
  induction rows with
  | nil => rfl
  | cons r rows ih =>
    unfold changePost at ih ⊢
    rw [List.map_cons]
    by_cases h : r.time ∈ post
    · rw [if_pos h, List.filter_cons_of_neg (by simpa using h), List.filter_cons_of_neg (by simpa using h), ih]
    · rw [if_neg h, List.filter_cons_of_pos (by simpa using h), List.filter_cons_of_pos (by simpa using h), ih]

/-- Arbitrary changes of post-period outcomes never change the estimate, standard error, p-value, interval or verdict. -/
theorem C46_post_outcomes_irrelevant (reg : Reg K U E) (rows : List (Row K U E)) (fake : ℤ) (postArg : Option (List ℤ))
    (alpha : K) (g : Row K U E → Option K) (r r' : Placebo K U)
    (h : timingTest reg rows fake postArg alpha = .ok r)
    (h' : timingTest reg (changePost (resolvePost rows postArg) g rows) fake postArg alpha = .ok r') :
    verdict r = verdict r' := by
  have hp : resolvePost (changePost (resolvePost rows postArg) g rows) postArg = resolvePost rows postArg := by
    cases postArg with
    | some p => rfl
    | none => simp only [resolvePost, changePost_periods]
  obtain ⟨-, f, g1, h1, -, rfl⟩ := timing_ok h
  obtain ⟨-, f', g1', h1', -, rfl⟩ := timing_ok h'
  rw [hp, changePost_pre, h1] at h1'
  injection h1' with h1'
  subst h1'
  rfl

/-- More generally only the rows outside the post window matter: two tables with the same such rows (and, when the post
window is inferred, the same inferred window) give the same estimate and verdict. -/
theorem C46_pre_rows_only (reg : Reg K U E) (rows rows' : List (Row K U E)) (fake : ℤ) (postArg : Option (List ℤ))
    (alpha : K) (hp : resolvePost rows postArg = resolvePost rows' postArg)
    (hpre : rows.filter (fun r => decide (r.time ∉ resolvePost rows postArg)) =
      rows'.filter (fun r => decide (r.time ∉ resolvePost rows postArg)))
    (r r' : Placebo K U) (h : timingTest reg rows fake postArg alpha = .ok r)
    (h' : timingTest reg rows' fake postArg alpha = .ok r') : verdict r = verdict r' := by
  obtain ⟨-, f, g1, h1, -, rfl⟩ := timing_ok h
  obtain ⟨-, f', g1', h1', -, rfl⟩ := timing_ok h'
  rw [← hp, ← hpre, h1] at h1'
  injection h1' with h1'
  subst h1'
  rfl

/-- A reported test compares pre-window rows before the fake period with pre-window rows from it on; both kinds exist, and
the flag handed to the regression is exactly `fake ≤ time`. -/
theorem C46_splits_pre_window (reg : Reg K U E) (rows : List (Row K U E)) (fake : ℤ) (postArg : Option (List ℤ)) (alpha : K)
    (r : Placebo K U) (h : timingTest reg rows fake postArg alpha = .ok r) :
    (∃ x ∈ rows, x.time ∉ resolvePost rows postArg ∧ x.time < fake) ∧
    (∃ x ∈ rows, x.time ∉ resolvePost rows postArg ∧ fake ≤ x.time) ∧
    ∃ f, reg ((rows.filter (fun r => decide (r.time ∉ resolvePost rows postArg))).map
        (fun x => (x, decide (x.d = some 1), decide (fake ≤ x.time)))) = .ok f ∧
      verdict r = (f.att, f.se, f.t, f.p, f.ci, f.nObs, Ext.lt f.p (.fin alpha)) := by
  obtain ⟨-, f, g1, h1, -, rfl⟩ := timing_ok h
  obtain ⟨-, -, hv, -, -, hr⟩ := didFit_ok h1
  have key : ∀ b : Bool, ∃ x ∈ rows, x.time ∉ resolvePost rows postArg ∧ decide (fake ≤ x.time) = b := by
    obtain ⟨a, ha, c, hc, hne⟩ := varies_ne hv
    obtain ⟨x, hx, rfl⟩ := List.mem_map.1 ha
    obtain ⟨z, hz, rfl⟩ := List.mem_map.1 hc
    rw [List.mem_filter] at hx hz
    have hx2 : x.time ∉ resolvePost rows postArg := by simpa using hx.2
    have hz2 : z.time ∉ resolvePost rows postArg := by simpa using hz.2
    intro b
    by_cases hb : decide (fake ≤ x.time) = b
    · exact ⟨x, hx.1, hx2, hb⟩
    · refine ⟨z, hz.1, hz2, ?_⟩
      have hne' : decide (fake ≤ x.time) ≠ decide (fake ≤ z.time) := fun h => hne (by rw [h])
      revert hb hne'
      cases decide (fake ≤ x.time) <;> cases decide (fake ≤ z.time) <;> cases b <;> simp
  refine ⟨?_, ?_, f, ?_, rfl⟩
  · obtain ⟨x, h1, h2, h3⟩ := key false
    exact ⟨x, h1, h2, by simpa using h3⟩
  · obtain ⟨x, h1, h2, h3⟩ := key true
    exact ⟨x, h1, h2, by simpa using h3⟩
  · rw [← hr]
    congr 1
    refine List.map_congr_left fun x _ => ?_
    rw [Prod.mk.injEq, Prod.mk.injEq]
    refine ⟨rfl, rfl, ?_⟩
    simp only [flag_eq]
    simp

/-- The inferred post window is the upper half of the periods: nothing in it is earlier than anything outside it. -/
theorem C46_default_window (rows : List (Row K U E)) (p q : ℤ) (hp : p ∈ resolvePost rows none)
    (hq : q ∈ allPeriods rows) (hq' : q ∉ resolvePost rows none) : q < p := by
  unfold resolvePost at hp hq'
  have hs : (allPeriods rows).Pairwise (· ≤ ·) := List.pairwise_insertionSort _ _
  set l := allPeriods rows
  rw [← List.take_append_drop (l.length / 2) l, List.pairwise_append] at hs
  rw [← List.take_append_drop (l.length / 2) l, List.mem_append] at hq
  rcases hq with hq | hq
  · refine lt_of_le_of_ne (hs.2.2 q hq p hp) ?_
    rintro rfl
    exact hq' hp
  · exact absurd hq hq'

/-! ### A concrete panel: two units, four periods, treated from period 3 on -/

def panelRow (u : ℕ) (t : ℤ) (d y : ℚ) : Row ℚ ℕ Unit := ⟨u, t, some d, some y, ()⟩

def panel4 : List (Row ℚ ℕ Unit) :=
  [panelRow 1 1 1 1, panelRow 1 2 1 3, panelRow 1 3 1 9, panelRow 1 4 1 9,
   panelRow 2 1 0 1, panelRow 2 2 0 2, panelRow 2 3 0 2, panelRow 2 4 0 2]

/-- Outcome of a test as data that can be compared. -/
def view (r : Except Err (Placebo ℚ ℕ)) : Option (Option ℚ × Option ℚ) :=
  match r with
  | .error _ => none
  | .ok r => some (r.effect, r.originalEffect)

example : view (timingTest cellReg panel4 2 none (1 / 20)) = some (some 1, some (13 / 2)) := by decide +kernel

example : view (timingTest cellReg (changePost [3, 4] (fun _ => some 0) panel4) 2 none (1 / 20)) = some (some 1, some (-1 / 2)) := by
  decide +kernel

example : view (timingTest cellReg panel4 3 none (1 / 20)) = none := by decide +kernel

/-! ### C45: range of the p-value -/

section perm
variable [IsStrictOrderedRing K]

theorem permP_range (orig : Option K) (valid : List K) (h : valid ≠ []) :
    1 / ((valid.length : K) + 1) ≤ permP orig valid ∧ permP orig valid ≤ 1 := by
  have hpos : (0 : K) < valid.length := by exact_mod_cast List.length_pos_iff.2 h
  refine ⟨le_max_right _ _, max_le ?_ ?_⟩
  · rw [div_le_one hpos]
    cases orig with
    | none => simpa using hpos.le
    | some a => exact_mod_cast List.length_filter_le _ _
  · rw [div_le_one (by linarith)]
    linarith

variable [FloorSemiring K]

theorem perm_ok {reg : Reg K U E} {root : K → K} {rows : List (Row K U E)} {draws : List (List U)} {alpha : K}
    {r : Placebo K U} (h : permutationTest reg root rows draws alpha = .ok r) :
    ∃ g effects, didFit reg rows (fun r => r.d) (fun r => r.time) = .ok g ∧
      draws.mapM (permFit reg rows) = .ok effects ∧ effects.filterMap id ≠ [] ∧
      permResult root g rows.length effects alpha = .ok r ∧
      r.originalEffect = g.att ∧ r.draws = effects.filterMap id ∧ r.p = .fin (permP g.att (effects.filterMap id)) ∧
      r.significant = decide (permP g.att (effects.filterMap id) < alpha) ∧
      r.effect = some (mean (effects.filterMap id)) ∧
      r.ci = (.fin (BootStats.percentileCI (effects.filterMap id) alpha).1,
        .fin (BootStats.percentileCI (effects.filterMap id) alpha).2) ∧ r.nObs = rows.length := by
  unfold permutationTest at h
  cases h1 : didFit reg rows (fun r => r.d) (fun r => r.time) with
  | error e => rw [h1] at h; cases h
  | ok g =>
    rw [h1] at h
    cases h2 : draws.mapM (permFit reg rows) with
    | error e => rw [h2] at h; cases h
    | ok effects =>
      rw [h2] at h
      have h3 : permResult root g rows.length effects alpha = .ok r := h
      refine ⟨g, effects, rfl, rfl, ?_⟩
      unfold permResult at h
      by_cases hv : effects.filterMap id = []
      · simp only [hv, if_true] at h; cases h
      · refine ⟨hv, h3, ?_⟩
        simp only [hv, if_false] at h
        injection h with h
        subst h
        exact ⟨rfl, rfl, rfl, rfl, rfl, rfl, rfl⟩

theorem mapM_ok {α β : Type*} {f : α → Except Err β} {l : List α} {r : List β} (h : l.mapM f = .ok r) :
    List.Forall₂ (fun a b => f a = .ok b) l r := by
  induction l generalizing r with
  | nil =>
    simp only [List.mapM_nil] at h
    cases h; exact .nil
  | cons a l ih =>
    rw [List.mapM_cons] at h
    cases h1 : f a with
    | error e => rw [h1] at h; cases h
    | ok b =>
      rw [h1] at h
      cases h2 : l.mapM f with
      | error e => rw [h2] at h; cases h
      | ok r' =>
        rw [h2] at h
        cases h
        exact .cons h1 (ih h2)

theorem mapM_error {α β : Type*} {f : α → Except Err β} {l : List α} {e : Err} (h : l.mapM f = .error e) :
    ∃ a ∈ l, f a = .error e := by
  induction l with
  | nil => simp only [List.mapM_nil] at h; cases h
  | cons a l ih =>
    rw [List.mapM_cons] at h
    cases h1 : f a with
    | error e' => rw [h1] at h; cases h; exact ⟨a, by simp, h1⟩
    | ok b =>
      rw [h1] at h
      cases h2 : l.mapM f with
      | error e' =>
        rw [h2] at h; cases h
        obtain ⟨x, hx, hx'⟩ := ih h2
        exact ⟨x, List.mem_cons_of_mem _ hx, hx'⟩
      | ok r' => rw [h2] at h; cases h

/-- The reported p-value lies in [1/(n+1), 1], n the number of successful permutations, and the verdict is p < alpha. -/
theorem C45_range (reg : Reg K U E) (root : K → K) (rows : List (Row K U E)) (draws : List (List U)) (alpha : K)
    (r : Placebo K U) (h : permutationTest reg root rows draws alpha = .ok r) :
    ∃ p, r.p = .fin p ∧ 1 / ((r.draws.length : K) + 1) ≤ p ∧ p ≤ 1 ∧ r.significant = decide (p < alpha) ∧
      0 < r.draws.length ∧ r.draws.length ≤ draws.length := by
  obtain ⟨g, effects, -, h2, hv, -, -, h5, h6, h7, -⟩ := perm_ok h
  refine ⟨_, h6, ?_, (permP_range _ _ hv).2, h7, ?_, ?_⟩
  · rw [h5]; exact (permP_range _ _ hv).1
  · rw [h5]; exact List.length_pos_iff.2 hv
  · rw [h5]
    refine (List.length_filterMap_le _ _).trans ?_
    rw [(mapM_ok h2).length_eq]

/-- Every retained effect is the estimate of a refit in which exactly the units of one draw are treated, in order; failed
refits are dropped. -/
theorem C45_draws_are_refits (reg : Reg K U E) (root : K → K) (rows : List (Row K U E)) (draws : List (List U)) (alpha : K)
    (r : Placebo K U) (h : permutationTest reg root rows draws alpha = .ok r) :
    ∃ effects : List (Option K), r.draws = effects.filterMap id ∧
      List.Forall₂ (fun draw e =>
        (∃ f, didFit reg rows (fun x => some (if x.unit ∈ draw then 1 else 0)) (fun x => x.time) = .ok f ∧ e = f.att) ∨
        ((∃ err, didFit reg rows (fun x => some (if x.unit ∈ draw then 1 else 0)) (fun x => x.time) = .error err) ∧
          e = none)) draws effects := by
  obtain ⟨g, effects, -, h2, -, -, -, h5, -⟩ := perm_ok h
  refine ⟨effects, h5, (mapM_ok h2).imp fun draw e he => ?_⟩
  unfold permFit at he
  cases hd : didFit reg rows (fun x => some (if x.unit ∈ draw then 1 else 0)) (fun x => x.time) with
  | ok f => rw [hd] at he; injection he with he; exact .inl ⟨f, rfl, he.symm⟩
  | error err =>
    rw [hd] at he
    refine .inr ⟨⟨err, rfl⟩, ?_⟩
    by_cases hc : caught err
    · simp only [hc, if_true] at he
      injection he with he; exact he.symm
    · simp only [hc] at he
      cases he

theorem mapM_exists {α β : Type*} {f : α → Except Err β} {l : List α} (h : ∀ a ∈ l, ∃ b, f a = .ok b) :
    ∃ r, l.mapM f = .ok r := by
  cases hm : l.mapM f with
  | ok r => exact ⟨r, rfl⟩
  | error e =>
    obtain ⟨a, ha, he⟩ := mapM_error hm
    obtain ⟨b, hb⟩ := h a ha
    rw [hb] at he; cases he

/-- When the test runs at all: the original fit succeeds, no refit raises anything but a ValueError, a KeyError or a
LinAlgError, and some refit gives a number. -/
theorem C45_runs_iff (reg : Reg K U E) (root : K → K) (rows : List (Row K U E)) (draws : List (List U)) (alpha : K) :
    (∃ r, permutationTest reg root rows draws alpha = .ok r) ↔
      (∃ g, didFit reg rows (fun x => x.d) (fun x => x.time) = .ok g) ∧
      (∀ draw ∈ draws, ∀ err,
        didFit reg rows (fun x => some (if x.unit ∈ draw then 1 else 0)) (fun x => x.time) = .error err →
        err = .value ∨ err = .key ∨ err = .linalg) ∧
      ∃ draw ∈ draws, ∃ f a,
        didFit reg rows (fun x => some (if x.unit ∈ draw then 1 else 0)) (fun x => x.time) = .ok f ∧ f.att = some a := by
  have hcaught : ∀ err, caught err = true ↔ (err = .value ∨ err = .key ∨ err = .linalg) := by
    intro err; cases err <;> simp [caught]
  constructor
  · rintro ⟨r, h⟩
    obtain ⟨g, effects, h1, h2, hv, -⟩ := perm_ok h
    have hf := mapM_ok h2
    refine ⟨⟨g, h1⟩, ?_, ?_⟩
    · intro draw hd err herr
      obtain ⟨i, hi, rfl⟩ := List.getElem_of_mem hd
      have h3 := (List.forall₂_iff_get.1 hf).2 i hi (by rw [← hf.length_eq]; exact hi)
      simp only [List.get_eq_getElem, permFit, herr] at h3
      by_contra hn
      rw [← hcaught] at hn
      simp [hn] at h3
    · obtain ⟨a, ha⟩ := List.exists_mem_of_ne_nil _ hv
      obtain ⟨e, he, hea⟩ := List.mem_filterMap.1 ha
      obtain ⟨i, hi, rfl⟩ := List.getElem_of_mem he
      have hi' : i < draws.length := by rw [hf.length_eq]; exact hi
      have h3 := (List.forall₂_iff_get.1 hf).2 i hi' hi
      simp only [List.get_eq_getElem] at h3
      simp only [id] at hea
      rw [hea] at h3
      refine ⟨draws[i], List.getElem_mem hi', ?_⟩
      unfold permFit at h3
      cases hd : didFit reg rows (fun x => some (if x.unit ∈ draws[i] then 1 else 0)) (fun x => x.time) with
      | ok f => rw [hd] at h3; injection h3 with h3; exact ⟨f, a, rfl, h3⟩
      | error err =>
        rw [hd] at h3
        by_cases hc : caught err
        · simp [hc] at h3
        · simp [hc] at h3
  · rintro ⟨⟨g, hg⟩, hall, draw, hd, f, a, hfit, hatt⟩
    obtain ⟨effects, he⟩ := mapM_exists (f := permFit reg rows) (l := draws) (by
      intro x hx
      unfold permFit
      cases hx' : didFit reg rows (fun y => some (if y.unit ∈ x then 1 else 0)) (fun y => y.time) with
      | ok f => exact ⟨_, rfl⟩
      | error err =>
        have := (hcaught err).2 (hall x hx err hx')
        exact ⟨none, by simp [this]⟩)
    have hne : effects.filterMap id ≠ [] := by
      have hf := mapM_ok he
      obtain ⟨i, hi, rfl⟩ := List.getElem_of_mem hd
      have hi' : i < effects.length := by rw [← hf.length_eq]; exact hi
      have h3 := (List.forall₂_iff_get.1 hf).2 i hi hi'
      simp only [List.get_eq_getElem, permFit, hfit] at h3
      injection h3 with h3
      refine List.ne_nil_of_mem (a := a) (List.mem_filterMap.2 ⟨effects[i], List.getElem_mem hi', ?_⟩)
      rw [← h3, hatt]; rfl
    unfold permutationTest
    rw [hg]
    simp only [he]
    unfold permResult
    simp only [hne, if_false]
    exact ⟨_, rfl⟩

/-- With a single successful permutation there is no dispersion to measure: the standard error is NaN, the t statistic 0, and
the interval is the effect itself. -/
theorem C45_single_draw (reg : Reg K U E) (root : K → K) (rows : List (Row K U E)) (draws : List (List U)) (alpha : K)
    (r : Placebo K U) (h : permutationTest reg root rows draws alpha = .ok r) (a : K) (ha : r.draws = [a]) :
    r.se = .nan ∧ r.t = .fin 0 ∧ r.effect = some a ∧ r.ci = (.fin a, .fin a) := by
  obtain ⟨g, effects, -, -, hv, hr, -, h5, -⟩ := perm_ok h
  rw [ha] at h5
  unfold permResult at hr
  simp only [← h5] at hr
  simp only [List.cons_ne_self, reduceCtorEq, if_false] at hr
  injection hr with hr
  subst hr
  simp [std1, BootStats.var1, tGuard, Ext.lt, mean, BootStats.percentileCI, BootStats.percentile, BootStats.pctSorted]

/-- When no permutation succeeds the test fails instead of reporting a p-value. -/
theorem C45_all_failed (reg : Reg K U E) (root : K → K) (rows : List (Row K U E)) (draws : List (List U)) (alpha : K)
    (h : ∀ draw ∈ draws, ∀ f, didFit reg rows (fun x => some (if x.unit ∈ draw then 1 else 0)) (fun x => x.time) = .ok f →
      f.att = none) (r : Placebo K U) : permutationTest reg root rows draws alpha ≠ .ok r := by
  intro hr
  obtain ⟨effects, he, hf⟩ := C45_draws_are_refits reg root rows draws alpha r hr
  obtain ⟨_, _, _, _, _, hpos, _⟩ := C45_range reg root rows draws alpha r hr
  have : effects.filterMap id = [] := by
    rw [List.filterMap_eq_nil_iff]
    intro e hmem
    obtain ⟨i, hi, rfl⟩ := List.getElem_of_mem hmem
    have hi' : i < draws.length := by rw [hf.length_eq]; exact hi
    rcases List.forall₂_iff_get.1 hf |>.2 i hi' hi with ⟨f, h1, h2⟩ | ⟨-, h2⟩
    · have := h _ (List.get_mem draws ⟨i, hi'⟩) f h1
      simp only [List.get_eq_getElem] at h2
      rw [id, h2, this]
    · simpa using h2
  rw [he, this] at hpos
  simp at hpos

/-- The remaining fields describe the distribution of the retained effects: their mean, their sample standard deviation,
percentile interval at the test's level, and the ratio of the original effect to the standard deviation when that is
positive (zero otherwise). -/
theorem C45_fields (reg : Reg K U E) (root : K → K) (rows : List (Row K U E)) (draws : List (List U)) (alpha : K)
    (r : Placebo K U) (h : permutationTest reg root rows draws alpha = .ok r) :
    r.effect = some (mean r.draws) ∧ r.ci = (.fin (BootStats.percentileCI r.draws alpha).1,
      .fin (BootStats.percentileCI r.draws alpha).2) ∧ r.nObs = rows.length ∧
    (∃ g, didFit reg rows (fun r => r.d) (fun r => r.time) = .ok g ∧ r.originalEffect = g.att ∧ r.originalSe = g.se) ∧
    ∀ a v, r.originalEffect = some a → BootStats.var1 r.draws = some v →
      r.se = .fin (root v) ∧ (0 < root v → r.t = .fin (a / root v)) ∧ (root v ≤ 0 → r.t = .fin 0) := by
  obtain ⟨g, effects, h1, -, hv, hr, h4, h5, -, -, h8, h9, h10⟩ := perm_ok h
  refine ⟨by rw [h8, h5], by rw [h9, h5], h10, ⟨g, h1, h4, ?_⟩, ?_⟩
  all_goals
    unfold permResult at hr
    simp only [hv, if_false] at hr
    injection hr with hr
    subst hr
  · rfl
  · intro a v ha hvar
    simp only at ha hvar ⊢
    unfold std1
    rw [hvar, ha]
    refine ⟨rfl, fun hp => ?_, fun hp => ?_⟩
    · simp [tGuard, Ext.lt, hp, optE, Ext.div, hp.ne']
    · simp [tGuard, Ext.lt, not_lt.2 hp]

/-- The p-value is the share of the draws whose absolute effect reaches that of the original estimate, floored at 1/(n+1), and
the significance flag compares it with alpha. -/
theorem C45_share (reg : Reg K U E) (root : K → K) (rows : List (Row K U E)) (draws : List (List U)) (alpha : K)
    (r : Placebo K U) (h : permutationTest reg root rows draws alpha = .ok r) (a : K) (ha : r.originalEffect = some a) :
    ∃ p, r.p = .fin p ∧
      p = max ((r.draws.countP (fun v => decide (a ≤ |v| ∧ -a ≤ |v|)) : K) / (r.draws.length : K))
        (1 / ((r.draws.length : K) + 1)) ∧
      (r.significant = true ↔ p < alpha) := by
  obtain ⟨g, effects, -, -, -, -, h4, h5, h6, h7, -⟩ := perm_ok h
  refine ⟨_, h6, ?_, by rw [h7, decide_eq_true_eq]⟩
  rw [← h4, ha, h5, List.countP_eq_length_filter]
  unfold permP
  simp only [abs_le', ← abs_le']

/-- The number of units treated in a permutation is that of the original assignment: for a treatment column that is
constant within units, a draw of `nTreated` distinct units of the data marks exactly as many units as are truly treated. -/
theorem C45_same_number (rows : List (Row K U E)) (draw : List U) (hd : draw.Nodup)
    (hsub : ∀ u ∈ draw, ∃ r ∈ rows, r.unit = u) (hlen : draw.length = nTreated rows)
    (hconst : ∀ r ∈ rows, ∀ s ∈ rows, r.unit = s.unit → r.d = s.d) :
    ((rows.filter (fun r => decide (r.unit ∈ draw))).map (fun r => r.unit)).toFinset.card =
      ((rows.filter (fun r => decide (r.d = some 1))).map (fun r => r.unit)).toFinset.card := by
  have h1 : ((rows.filter (fun r => decide (r.unit ∈ draw))).map (fun r => r.unit)).toFinset = draw.toFinset := by
    ext u
    simp only [List.mem_toFinset, List.mem_map, List.mem_filter, decide_eq_true_iff]
    constructor
    · rintro ⟨r, ⟨-, h⟩, rfl⟩; exact h
    · intro h
      obtain ⟨r, hr, rfl⟩ := hsub u h
      exact ⟨r, ⟨hr, h⟩, rfl⟩
  rw [h1, List.toFinset_card_of_nodup hd, hlen]
  unfold nTreated
  rw [← List.toFinset_card_of_nodup ((nodup_firsts _).filter _)]
  congr 1
  ext u
  simp only [List.mem_toFinset, List.mem_filter, mem_firsts, List.mem_map, decide_eq_true_iff]
  have hfirst : ∀ r ∈ rows, firstD rows r.unit = r.d := by
    intro r hr
    unfold firstD
    cases hh : (rows.filter (fun x => decide (x.unit = r.unit))).head? with
    | none =>
      rw [List.head?_eq_none_iff, List.filter_eq_nil_iff] at hh
      exact absurd (hh r hr) (by simp)
    | some x =>
      have := List.mem_of_head? hh
      rw [List.mem_filter] at this
      simp only [Option.bind_some]
      exact hconst x this.1 r hr (by simpa using this.2)
  constructor
  · rintro ⟨⟨r, hr, rfl⟩, h⟩
    rw [hfirst r hr] at h
    exact ⟨r, ⟨hr, h⟩, rfl⟩
  · rintro ⟨r, ⟨hr, h⟩, rfl⟩
    exact ⟨⟨r, hr, rfl⟩, by rw [hfirst r hr, h]⟩

example : nTreated panel4 = 1 := by decide +kernel

/-- False of the code: when the original effect is not identified (NaN), the test reports the smallest possible p-value, and
declares significance as soon as there are enough permutations. -/
theorem C45_nan_effect_refuted (reg : Reg K U E) (root : K → K) (rows : List (Row K U E)) (draws : List (List U)) (alpha : K)
    (r : Placebo K U) (h : permutationTest reg root rows draws alpha = .ok r) (hnan : r.originalEffect = none) :
    r.p = .fin (1 / ((r.draws.length : K) + 1)) ∧
      (1 < alpha * ((r.draws.length : K) + 1) → r.significant = true) := by
  obtain ⟨g, effects, -, h2, hv, -, h4, h5, h6, h7, -⟩ := perm_ok h
  rw [h4] at hnan
  have hp : permP g.att (effects.filterMap id) = 1 / (((effects.filterMap id).length : K) + 1) := by
    rw [hnan]
    unfold permP
    simp only [Nat.cast_zero, zero_div]
    exact max_eq_right (by positivity)
  rw [h5, h6, h7, hp]
  refine ⟨rfl, fun hlt => ?_⟩
  rw [decide_eq_true_iff, div_lt_iff₀ (by positivity)]
  exact hlt

end perm

/-- Unit 1 is never observed in the post period, so the original interaction is not identified while the permutation that
treats unit 2 is. -/
def missingCell : List (Row ℚ ℕ Unit) :=
  [panelRow 1 0 1 1, panelRow 2 0 0 1, panelRow 2 1 0 2, panelRow 3 0 0 1, panelRow 3 1 0 2]

def viewP (r : Except Err (Placebo ℚ ℕ)) : Option (Option ℚ × Ext ℚ × Bool) :=
  match r with
  | .error _ => none
  | .ok r => some (r.originalEffect, r.p, r.significant)

/-- The case is reachable: twenty draws of unit 2, p = 1/21 and a significant verdict at 5%. -/
example : viewP (permutationTest cellReg id missingCell (List.replicate 20 [2]) (1 / 20)) =
    some (none, .fin (1 / 21), true) := by decide +kernel

/-- A plain case: the original effect is 8, the draw treating unit 2 gives -8; both are as large in absolute value. -/
example : viewP (permutationTest cellReg id
    [panelRow 1 0 1 1, panelRow 1 1 1 10, panelRow 2 0 0 1, panelRow 2 1 0 2] [[1], [2], [1]] (1 / 20)) =
    some (some 8, .fin 1, false) := by decide +kernel

/-! ### C53 for placebo results -/

/-- The interval of the fake-timing test does not depend on the significance level of the test, although the summary
prints the level `1 - alpha` next to it; the two agree only for the estimator's own level. -/
theorem C53_placebo_refuted (reg : Reg K U E) (rows : List (Row K U E)) (fake : ℤ) (postArg : Option (List ℤ))
    (alpha alpha' : K) (r r' : Placebo K U) (h : timingTest reg rows fake postArg alpha = .ok r)
    (h' : timingTest reg rows fake postArg alpha' = .ok r') : r.ci = r'.ci ∧ r.alpha = alpha ∧ r'.alpha = alpha' := by
  obtain ⟨-, f, g1, h1, -, rfl⟩ := timing_ok h
  obtain ⟨-, f', g1', h1', -, rfl⟩ := timing_ok h'
  rw [h1] at h1'
  injection h1' with h1'
  subst h1'
  exact ⟨rfl, rfl, rfl⟩

/-! ### C80: running all placebo tests -/

section all
variable [IsStrictOrderedRing K] [FloorSemiring K]

theorem loo_ok_fit {reg : Reg K U E} {root : K → K} {tD : ℕ → Inference.Dist K} {rows : List (Row K U E)} {alpha : K}
    {r : Placebo K U} (h : leaveOneOut reg root tD rows alpha = .ok r) :
    ∃ g, didFit reg rows (fun r => r.d) (fun r => r.time) = .ok g := by
  unfold leaveOneOut at h
  cases h1 : didFit reg rows (fun r => r.d) (fun r => r.time) with
  | error e => rw [h1] at h; cases h
  | ok g => exact ⟨g, rfl⟩

/-- False of the code: on no data and with no arguments can `run_all_placebo_tests` return both a permutation (or
leave-one-out) result and a fake-timing result. The former need a 0/1 time column, the latter at least two pre periods and
a post period in the same column. -/
theorem C80_refuted (reg : Reg K U E) (root : K → K) (tD : ℕ → Inference.Dist K) (rows : List (Row K U E)) (pre post : List ℤ)
    (draws : List (List U)) (alpha : K)
    (h : (∃ r, (runAll reg root tD rows pre post draws alpha).permutation = .ok r) ∨
      (∃ r, (runAll reg root tD rows pre post draws alpha).loo = .ok r)) :
    ∀ x ∈ (runAll reg root tD rows pre post draws alpha).timing, ∃ e, x.2 = .error e := by
  have hfit : ∃ g, didFit reg rows (fun r => r.d) (fun r => r.time) = .ok g := by
    rcases h with ⟨r, h⟩ | ⟨r, h⟩
    · obtain ⟨g, -, h1, -⟩ := perm_ok h
      exact ⟨g, h1⟩
    · exact loo_ok_fit h
  obtain ⟨g, hg⟩ := hfit
  obtain ⟨-, -, -, -, hb, -⟩ := didFit_ok hg
  intro x hx
  simp only [runAll] at hx
  obtain ⟨p, -, rfl⟩ := List.mem_map.1 hx
  cases ht : timingTest reg rows p (some post) alpha with
  | error e => exact ⟨e, rfl⟩
  | ok r =>
    exfalso
    obtain ⟨⟨a, ha, ha1, ha2⟩, ⟨b, hb', hb1, hb2⟩, -⟩ := C46_splits_pre_window reg rows p (some post) alpha r ht
    simp only [resolvePost] at ha1 hb1
    obtain ⟨-, f, g2, -, hg2, -⟩ := timing_ok ht
    obtain ⟨-, -, hv, -, -, -⟩ := didFit_ok hg2
    obtain ⟨c, hc, e, he, hne⟩ := varies_ne hv
    obtain ⟨x, hx, rfl⟩ := List.mem_map.1 hc
    obtain ⟨z, hz, rfl⟩ := List.mem_map.1 he
    simp only [resolvePost] at hne
    have h01 : a.time ∉ post ∧ b.time ∉ post ∧ a.time ≠ b.time := ⟨ha1, hb1, by omega⟩
    have hall : ∀ y ∈ rows, y.time ∉ post := by
      intro y hy
      rcases hb a ha with h1 | h1 <;> rcases hb b hb' with h2 | h2 <;> rcases hb y hy with h3 | h3
      all_goals first
        | (exfalso; exact h01.2.2 (h1.trans h2.symm))
        | (have : y.time = a.time := h3.trans h1.symm; rw [this]; exact ha1)
        | (have : y.time = b.time := h3.trans h2.symm; rw [this]; exact hb1)
    apply hne
    simp [hall x hx, hall z hz]

/-- In particular with three or more distinct periods the permutation and leave-one-out entries are always errors. -/
theorem C80_multi_period_refuted (reg : Reg K U E) (root : K → K) (tD : ℕ → Inference.Dist K) (rows : List (Row K U E))
    (pre post : List ℤ) (draws : List (List U)) (alpha : K) (r : Row K U E) (hr : r ∈ rows) (h0 : r.time ≠ 0)
    (h1 : r.time ≠ 1) :
    (∃ e, (runAll reg root tD rows pre post draws alpha).permutation = .error e) ∧
      ∃ e, (runAll reg root tD rows pre post draws alpha).loo = .error e := by
  have hb : ∀ g, didFit reg rows (fun r => r.d) (fun r => r.time) ≠ .ok g := by
    intro g hg
    obtain ⟨-, -, -, -, hb, -⟩ := didFit_ok hg
    rcases hb r hr with h | h
    · exact h0 h
    · exact h1 h
  constructor
  · cases hp : (runAll reg root tD rows pre post draws alpha).permutation with
    | error e => exact ⟨e, rfl⟩
    | ok q =>
      obtain ⟨g, -, hg, -⟩ := perm_ok hp
      exact absurd hg (hb g)
  · cases hp : (runAll reg root tD rows pre post draws alpha).loo with
    | error e => exact ⟨e, rfl⟩
    | ok q =>
      obtain ⟨g, hg⟩ := loo_ok_fit hp
      exact absurd hg (hb g)

/-- What does hold: one entry per pre period after the first, each the fake-timing test at that period on the same data, and
each entry is either that test's result or its error. -/
theorem C80_partial (reg : Reg K U E) (root : K → K) (tD : ℕ → Inference.Dist K) (rows : List (Row K U E))
    (p : ℤ) (pre post : List ℤ) (draws : List (List U)) (alpha : K) :
    (runAll reg root tD rows (p :: pre) post draws alpha).timing.map Prod.fst = pre ∧
    (∀ x ∈ (runAll reg root tD rows (p :: pre) post draws alpha).timing,
      x.2 = timingTest reg rows x.1 (some post) alpha) ∧
    (runAll reg root tD rows (p :: pre) post draws alpha).permutation = permutationTest reg root rows draws alpha ∧
    (runAll reg root tD rows (p :: pre) post draws alpha).loo = leaveOneOut reg root tD rows alpha := by
  refine ⟨?_, ?_, rfl, rfl⟩
  · simp [runAll, List.map_map, Function.comp_def]
  · intro x hx
    simp only [runAll, List.tail_cons] at hx
    obtain ⟨q, -, rfl⟩ := List.mem_map.1 hx
    rfl

end all

/-- On the four-period panel the timing test runs while the permutation test reports an error. -/
example : let a := runAll cellReg id (fun _ => ⟨fun _ => 0, fun _ => 0⟩) panel4 [1, 2] [3, 4] [[1], [2]] (1 / 20)
    a.timing.map (fun x => view x.2) = [some (some 1, some (13 / 2))] ∧ view a.permutation = none ∧ view a.loo = none := by
  decide +kernel

/-! ### C81: fake treatment group -/

/-- False of the code: the fake-group test keeps the truly treated unit in the comparison group. Unit 1 is treated with
effect `tau`, the untreated units 2 and 3 have exactly parallel (flat) outcomes, yet the placebo effect of unit 2 is
`-tau/2`. -/
theorem C81_refuted (tau : ℚ) (alpha : ℚ) :
    ∃ r, groupTest (cellReg (U := ℕ) (E := Unit))
      [panelRow 1 0 1 0, panelRow 1 1 1 tau, panelRow 2 0 0 0, panelRow 2 1 0 0, panelRow 3 0 0 0, panelRow 3 1 0 0]
      [2] (some [1]) alpha = .ok r ∧ r.effect = some (-tau / 2) := by
  refine ⟨_, rfl, ?_⟩
  simp [cellDid, cellMean, panelRow, flag, resolvePost, mean]
  ring

/-- What the test computes: the fit in which the fake units are treated and every other unit of the data, truly treated or
not, is a control. Restricted to data of untreated units this is the documented test. -/
theorem C81_partial (reg : Reg K U E) (rows : List (Row K U E)) (fake : List U) (postArg : Option (List ℤ)) (alpha : K)
    (r : Placebo K U) (h : groupTest reg rows fake postArg alpha = .ok r) :
    fake ≠ [] ∧
    ∃ f, reg (rows.map (fun x => (x, decide (x.unit ∈ fake), decide (x.time ∈ resolvePost rows postArg)))) = .ok f ∧
      verdict r = (f.att, f.se, f.t, f.p, f.ci, f.nObs, Ext.lt f.p (.fin alpha)) ∧
      (∃ x ∈ rows, x.unit ∈ fake) ∧ (∃ x ∈ rows, x.unit ∉ fake) := by
  unfold groupTest at h
  by_cases h0 : fake = []
  · rw [if_pos h0] at h; cases h
  · rw [if_neg h0] at h
    refine ⟨h0, ?_⟩
    simp only at h
    cases h1 : didFit reg rows (fun r => some (if r.unit ∈ fake then 1 else 0))
        (fun r => flag (decide (r.time ∈ resolvePost rows postArg))) with
    | error e => rw [h1] at h; cases h
    | ok f =>
      rw [h1] at h
      injection h with h
      subst h
      obtain ⟨-, hv, -, -, -, hr⟩ := didFit_ok h1
      refine ⟨f, ?_, rfl, ?_⟩
      · rw [← hr]
        congr 1
        refine List.map_congr_left fun x _ => ?_
        rw [Prod.mk.injEq, Prod.mk.injEq]
        refine ⟨rfl, ?_, ?_⟩
        · by_cases hx : x.unit ∈ fake <;> simp [hx]
        · simp only [flag_eq]; simp
      · obtain ⟨a, ha, b, hb, hne⟩ := varies_ne hv
        obtain ⟨x, hx, rfl⟩ := List.mem_map.1 ha
        obtain ⟨z, hz, rfl⟩ := List.mem_map.1 hb
        by_cases h1 : x.unit ∈ fake
        · refine ⟨⟨x, hx, h1⟩, z, hz, fun h2 => hne ?_⟩
          simp [h1, h2]
        · refine ⟨⟨z, hz, ?_⟩, x, hx, h1⟩
          by_contra h2
          apply hne
          simp [h1, h2]

example : view (groupTest cellReg panel4 [2] none (1 / 20)) = some (some (-13 / 2), none) := by decide +kernel

/-! ### C82: leave-one-out -/

section loo
variable [IsStrictOrderedRing K] [FloorSemiring K]

theorem loo_ok {reg : Reg K U E} {root : K → K} {tD : ℕ → Inference.Dist K} {rows : List (Row K U E)} {alpha : K}
    {r : Placebo K U} (h : leaveOneOut reg root tD rows alpha = .ok r) :
    ∃ g l, didFit reg rows (fun r => r.d) (fun r => r.time) = .ok g ∧
      (treatedUnits rows).mapM (looFit reg rows) = .ok l ∧
      looResult root tD g rows.length (l.filterMap id) alpha = .ok r ∧ r.looEffects = l.filterMap id ∧
      (l.filterMap id).filterMap (fun x => x.2) ≠ [] := by
  unfold leaveOneOut at h
  cases h1 : didFit reg rows (fun r => r.d) (fun r => r.time) with
  | error e => rw [h1] at h; cases h
  | ok g =>
    rw [h1] at h
    cases h2 : (treatedUnits rows).mapM (looFit reg rows) with
    | error e => rw [h2] at h; cases h
    | ok l =>
      rw [h2] at h
      refine ⟨g, l, rfl, rfl, h, ?_⟩
      have h' : looResult root tD g rows.length (l.filterMap id) alpha = .ok r := h
      unfold looResult at h'
      by_cases hv : (l.filterMap id).filterMap (fun x => x.2) = []
      · simp only [hv, if_true] at h'; cases h'
      · simp only [hv, if_false] at h'
        injection h' with h'
        subst h'
        exact ⟨rfl, hv⟩

theorem mem_treatedUnits {rows : List (Row K U E)} {u : U} :
    u ∈ treatedUnits rows ↔ ∃ r ∈ rows, r.d = some 1 ∧ r.unit = u := by
  simp only [treatedUnits, mem_firsts, List.mem_map, List.mem_filter, decide_eq_true_iff]
  constructor
  · rintro ⟨r, ⟨h1, h2⟩, h3⟩; exact ⟨r, h1, h2, h3⟩
  · rintro ⟨r, h1, h2, h3⟩; exact ⟨r, ⟨h1, h2⟩, h3⟩

theorem looFit_some {reg : Reg K U E} {rows : List (Row K U E)} {u : U} (h2 : ∃ v ∈ treatedUnits rows, v ≠ u)
    {o : Option (U × Option K)} (h : looFit reg rows u = .ok o) :
    ∃ e, o = some (u, e) ∧
      ((∃ f, didFit reg (drop rows u) (fun r => r.d) (fun r => r.time) = .ok f ∧ e = f.att) ∨
       ((∃ err, didFit reg (drop rows u) (fun r => r.d) (fun r => r.time) = .error err) ∧ e = none)) := by
  have hleft : ¬ ∀ r ∈ drop rows u, r.d ≠ some 1 := by
    obtain ⟨v, hv, hne⟩ := h2
    obtain ⟨x, hx, hd, rfl⟩ := mem_treatedUnits.1 hv
    intro hall
    exact hall x (List.mem_filter.2 ⟨hx, by simpa using hne⟩) hd
  unfold looFit at h
  rw [if_neg hleft] at h
  cases hd : didFit reg (drop rows u) (fun r => r.d) (fun r => r.time) with
  | ok f =>
    rw [hd] at h; injection h with h
    exact ⟨f.att, h.symm, .inl ⟨f, rfl, rfl⟩⟩
  | error err =>
    rw [hd] at h
    by_cases hc : caught err
    · simp only [hc, if_true] at h; injection h with h
      exact ⟨none, h.symm, .inr ⟨⟨err, rfl⟩, rfl⟩⟩
    · simp only [hc] at h; cases h

/-- With at least two treated units there is exactly one effect per treated unit, in order of appearance, and it is the
estimate on the data without that unit (NaN if that fit fails). -/
theorem C82_effects (reg : Reg K U E) (root : K → K) (tD : ℕ → Inference.Dist K) (rows : List (Row K U E)) (alpha : K)
    (r : Placebo K U) (h : leaveOneOut reg root tD rows alpha = .ok r)
    (h2 : ∃ u ∈ treatedUnits rows, ∃ v ∈ treatedUnits rows, u ≠ v) :
    r.looEffects.map Prod.fst = treatedUnits rows ∧ (r.looEffects.map Prod.fst).Nodup ∧
      ∀ x ∈ r.looEffects,
        (∃ f, didFit reg (rows.filter (fun y => decide (y.unit ≠ x.1))) (fun y => y.d) (fun y => y.time) = .ok f ∧ x.2 = f.att) ∨
        ((∃ err, didFit reg (rows.filter (fun y => decide (y.unit ≠ x.1))) (fun y => y.d) (fun y => y.time) = .error err) ∧
          x.2 = none) := by
  obtain ⟨g, l, -, hl, -, hr, -⟩ := loo_ok h
  have hf := mapM_ok hl
  have hother : ∀ u, ∃ v ∈ treatedUnits rows, v ≠ u := by
    obtain ⟨a, ha, b, hb, hne⟩ := h2
    intro u
    by_cases hu : a = u
    · exact ⟨b, hb, fun h => hne (hu.trans h.symm)⟩
    · exact ⟨a, ha, hu⟩
  have key : ∀ (us : List U) (l : List (Option (U × Option K))),
      List.Forall₂ (fun a b => looFit reg rows a = .ok b) us l →
      (l.filterMap id).map Prod.fst = us ∧ ∀ x ∈ l.filterMap id,
        (∃ f, didFit reg (drop rows x.1) (fun y => y.d) (fun y => y.time) = .ok f ∧ x.2 = f.att) ∨
        ((∃ err, didFit reg (drop rows x.1) (fun y => y.d) (fun y => y.time) = .error err) ∧ x.2 = none) := by
    intro us l hf
    induction hf with
    | nil => simp
    | cons h1 _ ih =>
      obtain ⟨e, rfl, he⟩ := looFit_some (hother _) h1
      refine ⟨congrArg (_ :: ·) ih.1, ?_⟩
      intro x hx
      rcases List.mem_cons.1 (show x ∈ (_, e) :: List.filterMap id _ from hx) with rfl | hx
      · exact he
      · exact ih.2 x hx
  obtain ⟨k1, k2⟩ := key _ _ hf
  rw [hr]
  refine ⟨k1, ?_, k2⟩
  rw [k1]
  exact nodup_firsts _

theorem firsts_order {α : Type*} [DecidableEq α] (l : List α) : (firsts l).Pairwise (fun a b => l.idxOf a < l.idxOf b) := by
  induction l using List.reverseRecOn with
  | nil => exact .nil
  | append_singleton l a ih =>
    have up : (firsts l).Pairwise (fun x y => (l ++ [a]).idxOf x < (l ++ [a]).idxOf y) :=
      ih.imp_of_mem fun hx hy h => by
        rw [List.idxOf_append_of_mem (mem_firsts.1 hx), List.idxOf_append_of_mem (mem_firsts.1 hy)]
        exact h
    have hr : (l ++ [a]).reverse = a :: l.reverse := by simp
    unfold firsts
    rw [hr]
    by_cases h : a ∈ l
    · rw [List.dedup_cons_of_mem (by simpa using h)]
      exact up
    · rw [List.dedup_cons_of_notMem (by simpa using h), List.reverse_cons, List.pairwise_append]
      refine ⟨up, List.pairwise_singleton _ _, ?_⟩
      intro x hx y hy
      rw [List.mem_singleton.1 hy]
      have hx' : x ∈ l := mem_firsts.1 hx
      rw [List.idxOf_append_of_mem hx', List.idxOf_append_of_notMem h]
      have := List.idxOf_lt_length_of_mem hx'
      omega

/-- C82. The effects are listed in the order in which the treated units first appear among the treated rows. -/
theorem C82_order (reg : Reg K U E) (root : K → K) (tD : ℕ → Inference.Dist K) (rows : List (Row K U E)) (alpha : K)
    (r : Placebo K U) (h : leaveOneOut reg root tD rows alpha = .ok r)
    (h2 : ∃ u ∈ treatedUnits rows, ∃ v ∈ treatedUnits rows, u ≠ v) :
    (r.looEffects.map Prod.fst).Pairwise (fun u v =>
      ((rows.filter (fun y => decide (y.d = some 1))).map (fun y => y.unit)).idxOf u
        < ((rows.filter (fun y => decide (y.d = some 1))).map (fun y => y.unit)).idxOf v) := by
  rw [(C82_effects reg root tD rows alpha r h h2).1]
  exact firsts_order _

/-- When the leave-one-out test runs at all: the original fit succeeds; no refit without a treated unit that leaves a treated
row raises anything but a ValueError, a KeyError or a LinAlgError; and one such refit gives a number. -/
theorem C82_runs_iff (reg : Reg K U E) (root : K → K) (tD : ℕ → Inference.Dist K) (rows : List (Row K U E)) (alpha : K) :
    (∃ r, leaveOneOut reg root tD rows alpha = .ok r) ↔
      (∃ g, didFit reg rows (fun x => x.d) (fun x => x.time) = .ok g) ∧
      (∀ x ∈ rows, x.d = some 1 → (∃ y ∈ rows, y.unit ≠ x.unit ∧ y.d = some 1) → ∀ err,
        didFit reg (rows.filter (fun y => decide (y.unit ≠ x.unit))) (fun y => y.d) (fun y => y.time) = .error err →
        err = .value ∨ err = .key ∨ err = .linalg) ∧
      ∃ x ∈ rows, x.d = some 1 ∧ (∃ y ∈ rows, y.unit ≠ x.unit ∧ y.d = some 1) ∧ ∃ f a,
        didFit reg (rows.filter (fun y => decide (y.unit ≠ x.unit))) (fun y => y.d) (fun y => y.time) = .ok f ∧
        f.att = some a := by
  have hcaught : ∀ err, caught err = true ↔ (err = .value ∨ err = .key ∨ err = .linalg) := by
    intro err; cases err <;> simp [caught]
  have hleft : ∀ u, (¬ ∀ r ∈ drop rows u, r.d ≠ some 1) ↔ ∃ y ∈ rows, y.unit ≠ u ∧ y.d = some 1 := by
    intro u
    simp only [drop, List.mem_filter, decide_eq_true_iff]
    push Not
    constructor
    · rintro ⟨y, ⟨h1, h2⟩, h3⟩; exact ⟨y, h1, h2, h3⟩
    · rintro ⟨y, h1, h2, h3⟩; exact ⟨y, ⟨h1, h2⟩, h3⟩
  constructor
  · rintro ⟨r, h⟩
    obtain ⟨g, l, h1, h2, -, -, hv⟩ := loo_ok h
    have hf := mapM_ok h2
    refine ⟨⟨g, h1⟩, ?_, ?_⟩
    · intro x hx hx1 hy err herr
      have hu : x.unit ∈ treatedUnits rows := mem_treatedUnits.2 ⟨x, hx, hx1, rfl⟩
      obtain ⟨i, hi, hiu⟩ := List.getElem_of_mem hu
      have h3 := (List.forall₂_iff_get.1 hf).2 i hi (by rw [← hf.length_eq]; exact hi)
      simp only [List.get_eq_getElem] at h3
      rw [hiu] at h3
      unfold looFit at h3
      rw [if_neg ((hleft _).2 hy)] at h3
      have herr' : didFit reg (drop rows x.unit) (fun y => y.d) (fun y => y.time) = .error err := herr
      simp only [herr'] at h3
      by_contra hn
      rw [← hcaught] at hn
      simp [hn] at h3
    · obtain ⟨a, ha⟩ := List.exists_mem_of_ne_nil _ hv
      obtain ⟨p, hp, hpa⟩ := List.mem_filterMap.1 ha
      obtain ⟨e, he, hep⟩ := List.mem_filterMap.1 hp
      obtain ⟨i, hi, rfl⟩ := List.getElem_of_mem he
      have hi' : i < (treatedUnits rows).length := by rw [hf.length_eq]; exact hi
      have h3 := (List.forall₂_iff_get.1 hf).2 i hi' hi
      simp only [List.get_eq_getElem] at h3
      simp only [id] at hep
      rw [hep] at h3
      obtain ⟨x, hx, hx1, hxu⟩ := mem_treatedUnits.1 (List.getElem_mem hi')
      rw [← hxu] at h3
      unfold looFit at h3
      by_cases hl : ∀ r ∈ drop rows x.unit, r.d ≠ some 1
      · rw [if_pos hl] at h3; cases h3
      · rw [if_neg hl] at h3
        refine ⟨x, hx, hx1, (hleft _).1 hl, ?_⟩
        cases hd : didFit reg (drop rows x.unit) (fun y => y.d) (fun y => y.time) with
        | ok f =>
          rw [hd] at h3; injection h3 with h3; injection h3 with h3
          refine ⟨f, a, hd, ?_⟩
          rw [← h3] at hpa; exact hpa
        | error err =>
          rw [hd] at h3
          by_cases hc : caught err
          · simp only [hc, if_true] at h3
            injection h3 with h3; injection h3 with h3
            rw [← h3] at hpa; cases hpa
          · simp [hc] at h3
  · rintro ⟨⟨g, hg⟩, hall, x, hx, hx1, hy, f, a, hfit, hatt⟩
    obtain ⟨l, he⟩ := mapM_exists (f := looFit reg rows) (l := treatedUnits rows) (by
      intro u hu
      obtain ⟨z, hz, hz1, rfl⟩ := mem_treatedUnits.1 hu
      unfold looFit
      by_cases hl : ∀ r ∈ drop rows z.unit, r.d ≠ some 1
      · rw [if_pos hl]; exact ⟨_, rfl⟩
      · rw [if_neg hl]
        cases hx' : didFit reg (drop rows z.unit) (fun y => y.d) (fun y => y.time) with
        | ok f => exact ⟨_, rfl⟩
        | error err =>
          have := (hcaught err).2 (hall z hz hz1 ((hleft _).1 hl) err hx')
          exact ⟨some (z.unit, none), by simp [this]⟩)
    have hne : (l.filterMap id).filterMap (fun x => x.2) ≠ [] := by
      have hf := mapM_ok he
      have hu : x.unit ∈ treatedUnits rows := mem_treatedUnits.2 ⟨x, hx, hx1, rfl⟩
      obtain ⟨i, hi, hiu⟩ := List.getElem_of_mem hu
      have hi' : i < l.length := by rw [← hf.length_eq]; exact hi
      have h3 := (List.forall₂_iff_get.1 hf).2 i hi hi'
      simp only [List.get_eq_getElem] at h3
      rw [hiu] at h3
      unfold looFit at h3
      rw [if_neg ((hleft _).2 hy)] at h3
      have hfit' : didFit reg (drop rows x.unit) (fun y => y.d) (fun y => y.time) = .ok f := hfit
      simp only [hfit'] at h3
      injection h3 with h3
      refine List.ne_nil_of_mem (a := a) (List.mem_filterMap.2 ⟨(x.unit, f.att), ?_, hatt⟩)
      exact List.mem_filterMap.2 ⟨l[i], List.getElem_mem hi', h3.symm⟩
    unfold leaveOneOut
    rw [hg]
    simp only [he]
    unfold looResult
    simp only [hne, if_false]
    exact ⟨_, rfl⟩

/-- A regression that fails with a KeyError unless row groups of both kinds are present. -/
example : view (permutationTest (fun l => if l.any (fun x => x.2.1 && x.1.unit == 1) then .error .key else cellReg l) id
    (panel4.filter (fun x => x.time = 2 ∨ x.time = 3) |>.map (fun x => { x with time := x.time - 2, d := some (if x.unit = 2 then 1 else 0) }))
    [[1], [2]] (1 / 20)) = some (some (-6), some (-6)) := by decide +kernel

/-- With a single treated unit the test always fails: nothing is left to estimate. -/
theorem C82_single_unit (reg : Reg K U E) (root : K → K) (tD : ℕ → Inference.Dist K) (rows : List (Row K U E)) (alpha : K)
    (u : U) (h : ∀ x ∈ rows, x.d = some 1 → x.unit = u) (r : Placebo K U) :
    leaveOneOut reg root tD rows alpha ≠ .ok r := by
  intro hr
  obtain ⟨g, l, -, hl, -, -, hne⟩ := loo_ok hr
  have hf := mapM_ok hl
  apply hne
  have : l.filterMap id = [] := by
    have hu : ∀ v ∈ treatedUnits rows, v = u := by
      intro v hv
      obtain ⟨x, hx, hd, rfl⟩ := mem_treatedUnits.1 hv
      exact h x hx hd
    rw [List.filterMap_eq_nil_iff]
    intro o ho
    obtain ⟨i, hi, rfl⟩ := List.getElem_of_mem ho
    have hi' : i < (treatedUnits rows).length := by rw [hf.length_eq]; exact hi
    have h1 := (List.forall₂_iff_get.1 hf).2 i hi' hi
    have h2 := hu _ (List.get_mem _ ⟨i, hi'⟩)
    rw [h2] at h1
    unfold looFit at h1
    rw [if_pos] at h1
    · injection h1 with h1
      simpa using h1.symm
    · intro x hx hd
      have := List.mem_filter.1 hx
      have h3 := h x this.1 hd
      simp [h3] at this
  rw [this]
  rfl

/-- Inference of the leave-one-out test: with two or more valid effects the mean, its ratio to the sample standard
deviation, and a t distribution with one degree of freedom less than the number of effects; with a single valid effect the
standard error and t statistic are zero. -/
theorem C82_fields (reg : Reg K U E) (root : K → K) (tD : ℕ → Inference.Dist K) (rows : List (Row K U E)) (alpha : K)
    (r : Placebo K U) (h : leaveOneOut reg root tD rows alpha = .ok r) :
    ∃ valid, valid = r.looEffects.filterMap (fun x => x.2) ∧ valid ≠ [] ∧ r.effect = some (mean valid) ∧
      r.nObs = rows.length ∧ r.significant = Ext.lt r.p (.fin alpha) ∧
      (∃ g, didFit reg rows (fun r => r.d) (fun r => r.time) = .ok g ∧ r.originalEffect = g.att ∧ r.originalSe = g.se) ∧
      (∀ v, 2 ≤ valid.length → BootStats.var1 valid = some v →
        r.se = .fin (root v) ∧ r.ci = Inference.confInt (tD (valid.length - 1)) (.fin (mean valid)) (.fin (root v)) alpha ∧
        r.p = Inference.pValue (tD (valid.length - 1)) r.t ∧
        (0 < root v → r.t = .fin (mean valid / root v)) ∧ (root v ≤ 0 → r.t = .fin 0)) ∧
      (valid.length = 1 → r.se = .fin 0 ∧ r.t = .fin 0 ∧ r.p = Inference.pValue (tD 1) (.fin 0)) := by
  obtain ⟨g, l, hg, -, hr, hl, hne⟩ := loo_ok h
  refine ⟨_, rfl, by rw [hl]; exact hne, ?_⟩
  unfold looResult at hr
  simp only [hne, if_false] at hr
  injection hr with hr
  subst hr
  simp only
  generalize (l.filterMap id).filterMap (fun x => x.2) = valid at *
  refine ⟨trivial, trivial, trivial, ⟨g, hg, rfl, rfl⟩, ?_, ?_⟩
  · intro v hlen hvar
    have h1 : 1 < valid.length := by omega
    simp only [h1, if_true, std1, hvar, true_and]
    refine ⟨fun hp => ?_, fun hp => ?_⟩
    · simp [tGuard, Ext.lt, hp, Ext.div, hp.ne']
    · simp [tGuard, Ext.lt, not_lt.2 hp]
  · intro hlen
    simp [hlen, tGuard, Ext.lt]

/-- Mean and variance of the leave-one-out values `(S - x_i)/(n-1) - c` of unit effects `x_1..x_n`: the mean is that of
the effects less `c`, the variance is divided by `(n-1)^2`. -/
theorem loo_moments (x : List K) (c : K) (h : 2 ≤ x.length) :
    mean (x.map (fun v => (x.sum - v) / ((x.length : K) - 1) - c)) = mean x - c ∧
    ∃ v, BootStats.var1 x = some v ∧
      BootStats.var1 (x.map (fun v => (x.sum - v) / ((x.length : K) - 1) - c)) = some (v / ((x.length : K) - 1) ^ 2) := by
  have hn : (0 : K) < x.length := by exact_mod_cast (by omega : 0 < x.length)
  have hn1 : (0 : K) < (x.length : K) - 1 := by
    have : (2 : K) ≤ x.length := by exact_mod_cast h
    linarith
  have hsum : ∀ l : List K, (l.map (fun v => (x.sum - v) / ((x.length : K) - 1) - c)).sum =
      ((l.length : K) * x.sum - l.sum) / ((x.length : K) - 1) - (l.length : K) * c := by
    intro l
    induction l with
    | nil => simp
    | cons a l ih => rw [List.map_cons, List.sum_cons, ih, List.length_cons, List.sum_cons]; push_cast; field_simp; ring
  have hm : mean (x.map (fun v => (x.sum - v) / ((x.length : K) - 1) - c)) = mean x - c := by
    unfold mean
    rw [hsum, List.length_map]
    field_simp
  refine ⟨hm, ?_⟩
  unfold BootStats.var1
  rw [if_neg (by omega), List.length_map, if_neg (by omega)]
  refine ⟨_, rfl, ?_⟩
  congr 1
  have hm' : (x.map (fun v => (x.sum - v) / ((x.length : K) - 1) - c)).sum / (x.length : K) = x.sum / (x.length : K) - c := by
    have := hm; unfold mean at this; rwa [List.length_map] at this
  rw [hm', List.map_map]
  have : ∀ l : List K, (l.map ((fun d => (d - (x.sum / (x.length : K) - c)) ^ 2) ∘
      (fun v => (x.sum - v) / ((x.length : K) - 1) - c))).sum =
      (l.map (fun d => (d - x.sum / (x.length : K)) ^ 2)).sum / ((x.length : K) - 1) ^ 2 := by
    intro l
    induction l with
    | nil => simp
    | cons a l ih =>
      rw [List.map_cons, List.sum_cons, ih, List.map_cons, List.sum_cons]
      simp only [Function.comp]
      field_simp
      ring
  rw [this]
  rw [div_right_comm]

/-- False of the code: reported precision. When the leave-one-out estimates are averages over the remaining treated units
(unit effects `x_i`, common control trend `c`), the reported squared standard error is `s^2/(n-1)^2`, while the squared
standard error of the average effect is `s^2/n`: too small by the factor `n/(n-1)^2` for three or more units. -/
theorem C82_precision_refuted (root : K → K) (tD : ℕ → Inference.Dist K) (g : Fit K) (nRows : ℕ) (x : List (U × K)) (c alpha : K)
    (h : 3 ≤ x.length) (r : Placebo K U)
    (hr : looResult root tD g nRows (x.map (fun v => (v.1, some (((x.map Prod.snd).sum - v.2) / ((x.length : K) - 1) - c))))
      alpha = .ok r) :
    ∃ s2, BootStats.var1 (x.map Prod.snd) = some s2 ∧ r.effect = some (mean (x.map Prod.snd) - c) ∧
      r.se = .fin (root (s2 / ((x.length : K) - 1) ^ 2)) ∧
      (0 < s2 → s2 / ((x.length : K) - 1) ^ 2 < s2 / (x.length : K)) := by
  have hlen : (x.map Prod.snd).length = x.length := List.length_map _
  have hvalid : (x.map (fun v => (v.1, some (((x.map Prod.snd).sum - v.2) / ((x.length : K) - 1) - c)))).filterMap
      (fun y => y.2) = (x.map Prod.snd).map (fun v => ((x.map Prod.snd).sum - v) / (((x.map Prod.snd).length : K) - 1) - c) := by
    rw [hlen]
    generalize (x.map Prod.snd).sum = S
    generalize ((x.length : K) - 1) = m
    induction x with
    | nil => rfl
    | cons a x ih =>
      simp only [List.map_cons, List.filterMap_cons]
      congr 1
      by_cases hx : 3 ≤ x.length
      · rw [List.filterMap_map]
        simp [Function.comp_def, List.filterMap_eq_map', List.map_map]
      · rw [List.filterMap_map]
        simp [Function.comp_def, List.filterMap_eq_map', List.map_map]
  obtain ⟨hm, s2, hs, hs'⟩ := loo_moments (x.map Prod.snd) c (by rw [hlen]; omega)
  refine ⟨s2, hs, ?_⟩
  unfold looResult at hr
  rw [hvalid] at hr
  set L := (x.map Prod.snd).map (fun v => ((x.map Prod.snd).sum - v) / (((x.map Prod.snd).length : K) - 1) - c) with hL
  have hLl : L.length = x.length := by rw [hL, List.length_map, hlen]
  have hLne : L ≠ [] := by intro h0; rw [h0] at hLl; simp at hLl; omega
  simp only [hLne, if_false] at hr
  injection hr with hr
  subst hr
  refine ⟨by rw [hm], ?_, ?_⟩
  · show (if 1 < L.length then std1 root L else Ext.fin 0) = _
    rw [if_pos (by omega)]
    unfold std1
    rw [hs', hlen]
  · intro hpos
    have h3 : (3 : K) ≤ x.length := by exact_mod_cast h
    apply div_lt_div_of_pos_left hpos (by linarith)
    nlinarith

end loo

/-- Three treated units with effects 0, 3, 6 and one flat control. -/
def panelLoo : List (Row ℚ ℕ Unit) :=
  [panelRow 1 0 1 0, panelRow 1 1 1 0, panelRow 2 0 1 0, panelRow 2 1 1 3, panelRow 3 0 1 0, panelRow 3 1 1 6,
   panelRow 4 0 0 0, panelRow 4 1 0 0]

def viewL (r : Except Err (Placebo ℚ ℕ)) : Option (Option ℚ × Ext ℚ × List (ℕ × Option ℚ)) :=
  match r with
  | .error _ => none
  | .ok r => some (r.effect, r.se, r.looEffects)

/-- End to end: the effects are (S - x_i)/2 and the squared standard error is 9/4, although the variance of the average
effect of three units with variance 9 is 3 (`root` is the identity here, so `se` is the square). -/
example : viewL (leaveOneOut cellReg id (fun _ => ⟨fun _ => 0, fun _ => 0⟩) panelLoo (1 / 20)) =
    some (some 3, .fin (9 / 4), [(1, some (9 / 2)), (2, some 3), (3, some (3 / 2))]) := by decide +kernel

/-! ### Dispatch -/

section dispatch
variable [IsStrictOrderedRing K] [FloorSemiring K]

/-- `run_placebo_test` returns a result only for one of the four test names (compared without regard to case), and needs a
unit column for all but fake timing and a non-empty fake group. -/
theorem C80_dispatch (reg : Reg K U E) (root : K → K) (tD : ℕ → Inference.Dist K) (rows : List (Row K U E)) (kind : String)
    (a : Args U) (draws : List (List U)) (alpha : K) (r : Placebo K U)
    (h : runTest reg root tD rows kind a draws alpha = .ok r) :
    (kind.toLower = "fake_timing" ∧ ∃ f, a.fakePeriod = some f ∧ timingTest reg rows f a.post alpha = .ok r) ∨
    (kind.toLower = "fake_group" ∧ a.hasUnit = true ∧ ∃ g, a.fakeGroup = some g ∧ g ≠ [] ∧ groupTest reg rows g a.post alpha = .ok r) ∨
    (kind.toLower = "permutation" ∧ a.hasUnit = true ∧ permutationTest reg root rows draws alpha = .ok r) ∨
    (kind.toLower = "leave_one_out" ∧ a.hasUnit = true ∧ leaveOneOut reg root tD rows alpha = .ok r) := by
  unfold runTest at h
  simp only at h
  by_cases h1 : kind.toLower = "fake_timing"
  · rw [if_pos h1] at h
    cases hf : a.fakePeriod with
    | none => rw [hf] at h; cases h
    | some f => rw [hf] at h; exact .inl ⟨h1, f, rfl, h⟩
  · rw [if_neg h1] at h
    by_cases h2 : kind.toLower = "fake_group"
    · rw [if_pos h2] at h
      by_cases hu : a.hasUnit = false
      · rw [if_pos hu] at h; cases h
      · rw [if_neg hu] at h
        cases hf : a.fakeGroup with
        | none => rw [hf] at h; cases h
        | some g =>
          rw [hf] at h
          refine .inr (.inl ⟨h2, by simpa using hu, g, rfl, ?_, h⟩)
          exact (C81_partial reg rows g a.post alpha r h).1
    · rw [if_neg h2] at h
      by_cases h3 : kind.toLower = "permutation"
      · rw [if_pos h3] at h
        by_cases hu : a.hasUnit = false
        · rw [if_pos hu] at h; cases h
        · rw [if_neg hu] at h
          exact .inr (.inr (.inl ⟨h3, by simpa using hu, h⟩))
      · rw [if_neg h3] at h
        by_cases h4 : kind.toLower = "leave_one_out"
        · rw [if_pos h4] at h
          by_cases hu : a.hasUnit = false
          · rw [if_pos hu] at h; cases h
          · rw [if_neg hu] at h
            exact .inr (.inr (.inr ⟨h4, by simpa using hu, h⟩))
        · rw [if_neg h4] at h; cases h

end dispatch

end DiffDiff.Diagnostics
