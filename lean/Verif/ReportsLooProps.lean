/-
The leave-one-out block printed by the placebo report.
-/
import Verif.ReportsProps

set_option linter.unusedSectionVars false
set_option linter.unusedVariables false

namespace DiffDiff.Reports

variable {K : Type*} [Field K] [LinearOrder K] [IsStrictOrderedRing K]
variable {U E : Type*} [DecidableEq U] [FloorSemiring K]

theorem foldl_min_spec (vs : List K) : ∀ v, vs.foldl min v ∈ v :: vs ∧ ∀ x ∈ v :: vs, vs.foldl min v ≤ x := by
  induction vs with
  | nil => intro v; simp
  | cons w vs ih =>
    intro v
    obtain ⟨h1, h2⟩ := ih (min v w)
    rw [List.foldl_cons]
    constructor
    · rcases List.mem_cons.1 h1 with h | h
      · rw [h]
        rcases min_choice v w with h | h <;> rw [h] <;> simp
      · simp [h]
    · intro x hx
      have hm := h2 (min v w) List.mem_cons_self
      rcases List.mem_cons.1 hx with rfl | hx
      · exact hm.trans (min_le_left _ _)
      · rcases List.mem_cons.1 hx with rfl | hx
        · exact hm.trans (min_le_right _ _)
        · exact h2 x (List.mem_cons_of_mem _ hx)

theorem foldl_max_spec (vs : List K) : ∀ v, vs.foldl max v ∈ v :: vs ∧ ∀ x ∈ v :: vs, x ≤ vs.foldl max v := by
  induction vs with
  | nil => intro v; simp
  | cons w vs ih =>
    intro v
    obtain ⟨h1, h2⟩ := ih (max v w)
    rw [List.foldl_cons]
    constructor
    · rcases List.mem_cons.1 h1 with h | h
      · rw [h]
        rcases max_choice v w with h | h <;> rw [h] <;> simp
      · simp [h]
    · intro x hx
      have hm := h2 (max v w) List.mem_cons_self
      rcases List.mem_cons.1 hx with rfl | hx
      · exact (le_max_left _ _).trans hm
      · rcases List.mem_cons.1 hx with rfl | hx
        · exact (le_max_right _ _).trans hm
        · exact h2 x (List.mem_cons_of_mem _ hx)

theorem sum_bounds (l : List K) (lo hi : K) (h : ∀ x ∈ l, lo ≤ x ∧ x ≤ hi) : (l.length : K) * lo ≤ l.sum ∧ l.sum ≤ (l.length : K) * hi := by
  induction l with
  | nil => simp
  | cons a l ih =>
    have h1 := h a List.mem_cons_self
    have h2 := ih (fun x hx => h x (List.mem_cons_of_mem _ hx))
    rw [List.sum_cons, List.length_cons]
    push_cast
    constructor <;> linarith [h1.1, h1.2, h2.1, h2.2]

/-- C138. The leave-one-out block of a finished test: "Units analyzed" counts the stored effects. If all of them are numbers, the block shows the
reported placebo effect as their mean, a stored effect that is smallest and one that is largest, in this order; if one of them is missing,
mean, minimum and maximum are all missing although the reported placebo effect is a number. -/
theorem C138_leave_one_out (reg : Diagnostics.Reg K U E) (root : K → K) (tD : ℕ → Inference.Dist K) (rows : List (Diagnostics.Row K U E)) (alpha : K)
    (r : Diagnostics.Placebo K U) (h : Diagnostics.leaveOneOut reg root tD rows alpha = .ok r) : ∃ m, r.effect = some m ∧
      if ∃ x ∈ r.looEffects, x.2 = none then looBlock r = some (r.looEffects.length, none)
      else ∃ lo hi, looBlock r = some (r.looEffects.length, some (m, lo, hi)) ∧
        (∃ u, (u, some lo) ∈ r.looEffects) ∧ (∃ u, (u, some hi) ∈ r.looEffects) ∧ lo ≤ m ∧ m ≤ hi ∧
        ∀ u x, (u, some x) ∈ r.looEffects → lo ≤ x ∧ x ≤ hi := by
  have hr : r.looEffects.filterMap (fun x => x.2) ≠ [] ∧ r.effect = some (Diagnostics.mean (r.looEffects.filterMap (fun x => x.2))) := by
    unfold Diagnostics.leaveOneOut at h
    split at h
    · cases h
    · split at h
      · cases h
      · unfold Diagnostics.looResult at h
        simp only at h
        split_ifs at h with h1 h2 <;> (injection h with h; subst h; exact ⟨h1, rfl⟩)
  obtain ⟨h1, h2⟩ := hr
  refine ⟨_, h2, ?_⟩
  cases hl : r.looEffects with
  | nil => rw [hl] at h1; exact absurd rfl h1
  | cons e es =>
    have hany : ((e :: es).map (fun x => x.2)).any Option.isNone = true ↔ ∃ x ∈ e :: es, x.2 = none := by
      rw [List.any_map, List.any_eq_true]
      simp only [Function.comp, Option.isNone_iff_eq_none]
    by_cases hn : ∃ x ∈ e :: es, x.2 = none
    · rw [if_pos hn]
      unfold looBlock
      rw [hl]
      dsimp only
      rw [List.length_map, if_pos (hany.2 hn)]
    · rw [if_neg hn]
      have hf : ((e :: es).map (fun x => x.2)).filterMap id = (e :: es).filterMap (fun x => x.2) := by rw [List.filterMap_map]; rfl
      rw [hl] at h1
      cases hv : (e :: es).filterMap (fun x => x.2) with
      | nil => exact absurd hv h1
      | cons v vs =>
        have hb : looBlock r = some ((e :: es).length, some (Diagnostics.mean (v :: vs), vs.foldl min v, vs.foldl max v)) := by
          unfold looBlock
          rw [hl]
          dsimp only
          rw [List.length_map, if_neg (fun h => hn (hany.1 h)), hf, hv]
        have hm : ∀ x, x ∈ v :: vs ↔ ∃ u, (u, some x) ∈ e :: es := by
          intro x
          rw [← hv, List.mem_filterMap]
          constructor
          · rintro ⟨⟨u, y⟩, hy, h⟩
            exact ⟨u, by simpa [← h] using hy⟩
          · rintro ⟨u, hu⟩
            exact ⟨_, hu, rfl⟩
        obtain ⟨a1, a2⟩ := foldl_min_spec vs v
        obtain ⟨b1, b2⟩ := foldl_max_spec vs v
        obtain ⟨s1, s2⟩ := sum_bounds (v :: vs) (vs.foldl min v) (vs.foldl max v) (fun x hx => ⟨a2 x hx, b2 x hx⟩)
        have hp : (0 : K) < ((v :: vs).length : K) := by
          rw [List.length_cons]
          exact_mod_cast Nat.succ_pos _
        refine ⟨vs.foldl min v, vs.foldl max v, hb, (hm _).1 a1, (hm _).1 b1, ?_, ?_, ?_⟩
        · unfold Diagnostics.mean
          rw [le_div_iff₀ hp, mul_comm]
          exact s1
        · unfold Diagnostics.mean
          rw [div_le_iff₀ hp, mul_comm]
          exact s2
        · intro u x hx
          have := (hm x).2 ⟨u, hx⟩
          exact ⟨a2 x this, b2 x this⟩

/-- `C138_leave_one_out`: the block printed for `panelLoo`. -/
example : (match Diagnostics.leaveOneOut Diagnostics.cellReg id (fun _ => ⟨fun _ => 0, fun _ => 0⟩) Diagnostics.panelLoo (1 / 20) with
    | .ok r => looBlock r
    | .error _ => none) = some (3, some (3, 3 / 2, 9 / 2)) := by decide +kernel

end DiffDiff.Reports
