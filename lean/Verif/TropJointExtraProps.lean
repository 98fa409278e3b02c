/-
More properties of `TROP(method="joint")`: how many periods count as treated when an accepted panel is fitted, and what the loop over factor
updates of the compiled code returns.
-/
import Verif.TropJointRustBootProps
import Verif.TropJointMoreProps
import Mathlib.Tactic.Linarith

set_option linter.unusedSectionVars false
set_option linter.unusedVariables false

namespace DiffDiff.TropJoint

open TropFit (Data Cfg)

theorem takeWhile_next {α : Type*} (q : α → Bool) (l : List α) (h : (l.takeWhile q).length < l.length) :
    q (l[(l.takeWhile q).length]'h) = false := by
  induction l with
  | nil => simp at h
  | cons a l ih =>
    cases ha : q a with
    | false => simp [List.takeWhile_cons, ha]
    | true =>
      have h' : (l.takeWhile q).length < l.length := by simpa [List.takeWhile_cons, ha] using h
      simpa [List.takeWhile_cons, ha] using ih h'

section
variable {U T K : Type*} [LinearOrder U] [LinearOrder T] [Field K] [LinearOrder K] [IsStrictOrderedRing K] [FloorRing K]

/-- C96. The fit of an accepted panel counts as treated exactly the periods from the first one in which some unit is treated: there are at
least two earlier periods, none of them has a treated unit, and the first counted period has one. -/
theorem C96_treated_periods (rows : List (Trop.Row U T K)) (p : Trop.Panel U T K) (h : prepare rows = .ok p) : ∃ tp,
    (∀ (v : Env K) (c : Cfg K) pick gt gu gn, fit v c pick p gt gu gn = fitData v c pick (TropFit.ofPanel p) tp gt gu gn) ∧
      0 < tp ∧ tp + 2 ≤ (TropFit.ofPanel p).nT ∧
      (∀ t < (TropFit.ofPanel p).nT - tp, ∀ i < (TropFit.ofPanel p).nN, (TropFit.ofPanel p).D t i ≠ 1) ∧
      ∃ i < (TropFit.ofPanel p).nN, (TropFit.ofPanel p).D ((TropFit.ofPanel p).nT - tp) i = 1 := by
  have h := C100_same_panel rows p h
  have hd : ∀ t i, (ht : t < p.periods.length) → (hi : i < p.units.length) → (TropFit.ofPanel p).D t i = p.d p.periods[t] p.units[i] := by
    intro t i ht hi
    show (match p.periods[t]?, p.units[i]? with
      | some a, some u => p.d a u
      | _, _ => 0) = _
    rw [List.getElem?_eq_getElem ht, List.getElem?_eq_getElem hi]
  unfold Trop.prepare at h
  split_ifs at h with h1 h2 h3 h4 h5
  cases h
  set q : T → Bool := fun t => !Trop.periodTreated rows t with hq
  have hw : ((Trop.periodsOf rows).takeWhile q).length < (Trop.periodsOf rows).length := by
    by_contra hc
    have hl : ((Trop.periodsOf rows).takeWhile q).length = (Trop.periodsOf rows).length :=
      le_antisymm (List.takeWhile_prefix q).length_le (not_lt.1 hc)
    have he : (Trop.periodsOf rows).takeWhile q = Trop.periodsOf rows := (List.takeWhile_prefix q).eq_of_length hl
    refine h3 (List.sum_eq_zero ?_)
    intro x hx
    obtain ⟨t, ht, rfl⟩ := List.mem_map.1 hx
    have hqt : q t = true := by
      rw [← he] at ht
      exact List.mem_takeWhile_imp ht
    rw [hq] at hqt
    have : Trop.periodTreated rows t = false := by simpa using hqt
    rw [List.length_eq_zero_iff, List.filter_eq_nil_iff]
    intro u hu
    unfold Trop.periodTreated at this
    rw [List.any_eq_false] at this
    exact this u hu
  have hsub : (Trop.periodsOf rows).length - ((Trop.periodsOf rows).length - ((Trop.periodsOf rows).takeWhile q).length) =
      ((Trop.periodsOf rows).takeWhile q).length := by omega
  refine ⟨(Trop.periodsOf rows).length - ((Trop.periodsOf rows).takeWhile q).length, fun v c pick gt gu gn => rfl, by omega, ?_, ?_, ?_⟩
  · show _ ≤ (Trop.periodsOf rows).length
    have := not_lt.1 h5
    omega
  · intro t ht i hi
    have ht : t < ((Trop.periodsOf rows).takeWhile q).length := by rw [← hsub]; exact ht
    rw [hd t i (ht.trans hw) hi]
    have hp : q ((Trop.periodsOf rows)[t]'(ht.trans hw)) = true := by
      have := (List.takeWhile_prefix (l := Trop.periodsOf rows) q).getElem ht
      rw [← this]
      exact List.mem_takeWhile_imp (List.getElem_mem ht)
    have hp : Trop.periodTreated rows ((Trop.periodsOf rows)[t]'(ht.trans hw)) = false := by simpa only [hq, Bool.not_eq_true'] using hp
    unfold Trop.periodTreated at hp
    rw [List.any_eq_false] at hp
    have := hp _ (List.getElem_mem hi)
    simpa using this
  · have hf : q ((Trop.periodsOf rows)[((Trop.periodsOf rows).takeWhile q).length]'hw) = false := by
      exact takeWhile_next q _ hw
    have hf : Trop.periodTreated rows ((Trop.periodsOf rows)[((Trop.periodsOf rows).takeWhile q).length]'hw) = true := by
      simpa only [hq, Bool.not_eq_false'] using hf
    unfold Trop.periodTreated at hf
    obtain ⟨u, hu, hu1⟩ := List.any_eq_true.1 hf
    obtain ⟨i, hi, rfl⟩ := List.getElem_of_mem hu
    refine ⟨i, hi, ?_⟩
    show (TropFit.ofPanel _).D ((Trop.periodsOf rows).length - ((Trop.periodsOf rows).length - ((Trop.periodsOf rows).takeWhile q).length)) i = 1
    rw [hsub, hd _ i hw hi]
    simpa using hu1

end

/-- Two units over three periods, the second treated in the last. -/
def lateRows : List (Trop.Row ℕ ℕ ℚ) :=
  [⟨0, 0, some 1, some 0⟩, ⟨0, 1, some 2, some 0⟩, ⟨0, 2, some 3, some 0⟩, ⟨1, 0, some 1, some 0⟩, ⟨1, 1, some 2, some 0⟩, ⟨1, 2, some 5, some 1⟩]

/-- `C96_treated_periods`: `lateRows` is accepted, with one treated period. -/
example : (match prepare lateRows with
    | .ok p => decide ((TropFit.ofPanel p).nT = 3 ∧ p.nPre = 2 ∧ (TropFit.ofPanel p).D 2 1 = 1)
    | .error _ => false) = true := by decide +kernel

end DiffDiff.TropJoint

namespace DiffDiff.TropJointRust

open TropFit (Data Cfg Ops Lam3 sumL fieldOps)
open TropJoint (Sol)

variable {K : Type*} [Field K] [LinearOrder K] [IsStrictOrderedRing K]
variable (e r : K → K) (svd : K → ℕ → ℕ → (ℕ → ℕ → K) → (ℕ → ℕ → K))

/-- Every entry changes by less than `tol`. -/
def Close (tol : K) (nT nN : ℕ) (A B : ℕ → ℕ → K) : Prop := ∀ t < nT, ∀ i < nN, |A t i - B t i| < tol

theorem foldr_lt (l : List K) (tol : K) (h : 0 < tol) : l.foldr max 0 < tol ↔ ∀ x ∈ l, x < tol := by
  induction l with
  | nil => simpa using h
  | cons b l ih => simp [ih]

theorem settled_iff (tol : K) (h : 0 < tol) (nT nN : ℕ) (A B : ℕ → ℕ → K) :
    settled (fieldOps e r svd) tol nT nN A B = true ↔ Close tol nT nN A B := by
  unfold settled
  show decide (foldMax _ _ < tol) = true ↔ _
  rw [decide_eq_true_eq]
  unfold foldMax
  rw [foldMax_eq]
  show max 0 ((entries nT nN (fun t i => |A t i - B t i|)).foldr max 0) < tol ↔ _
  rw [max_lt_iff, foldr_lt _ _ h]
  unfold entries Close
  simp only [List.mem_flatMap, List.mem_map, List.mem_range]
  constructor
  · rintro ⟨-, h1⟩ t ht i hi
    exact h1 _ ⟨t, ht, i, hi, rfl⟩
  · intro h1
    refine ⟨h, ?_⟩
    rintro x ⟨t, ht, i, hi, rfl⟩
    exact h1 t ht i hi

/-- The documented update of the factor matrix: with `M` the largest weight (at least 0), move each entry with an outcome by the share
`W/M` of its weight towards the residual of the outcome, then shrink the singular values by `lam / M`; with `M = 0` nothing is divided. -/
def IsUpdate (nT nN : ℕ) (Y : ℕ → ℕ → Option K) (D : ℕ → ℕ → ℤ) (W : ℕ → ℕ → K) (lam : K) (s : Sol K) (L L' : ℕ → ℕ → K) : Prop :=
  ∃ M : K, 0 ≤ M ∧ (∀ t < nT, ∀ i < nN, W t i ≤ M) ∧ (M = 0 ∨ ∃ t < nT, ∃ i < nN, W t i = M) ∧
    ∃ G : ℕ → ℕ → K,
      (∀ t i, G t i = match Y t i with
        | none => L t i
        | some y => L t i + (if M = 0 then W t i else W t i / M) *
            (y - s.mu - s.alpha i - s.beta t - (if D t i = 1 then s.tau else 0) - L t i)) ∧
      L' = if (if M = 0 then lam else lam / M) ≤ 0 then G else svd (if M = 0 then lam else lam / M) nT nN G

theorem lowStep_isUpdate (nT nN : ℕ) (Y : ℕ → ℕ → Option K) (D : ℕ → ℕ → ℤ) (W : ℕ → ℕ → K) (lam : K) (s : Sol K) (L : ℕ → ℕ → K) :
    IsUpdate svd nT nN Y D W lam s L (lowStep (fieldOps e r svd) nT nN Y D W lam s L) := by
  have hlt : ∀ a b : K, (fieldOps e r svd).lt a b = decide (a < b) := fun _ _ => rfl
  have hfold : ∀ l : List K, 0 ≤ l.foldr max 0 ∧ (∀ x ∈ l, x ≤ l.foldr max 0) ∧ (l.foldr max 0 = 0 ∨ l.foldr max 0 ∈ l) := by
    intro l
    induction l with
    | nil => simp
    | cons b l ih =>
      obtain ⟨i1, i2, i3⟩ := ih
      rw [List.foldr_cons]
      refine ⟨i1.trans (le_max_right _ _), ?_, ?_⟩
      · intro x hx
        rcases List.mem_cons.1 hx with rfl | hx
        · exact le_max_left _ _
        · exact (i2 x hx).trans (le_max_right _ _)
      · rcases le_total b (l.foldr max 0) with hb | hb
        · rw [max_eq_right hb]
          exact i3.imp id (fun h => List.mem_cons_of_mem _ h)
        · rw [max_eq_left hb]
          exact Or.inr List.mem_cons_self
  have hM := hfold (entries nT nN W)
  have hMe : deltaMax (fieldOps e r svd) nT nN W = (entries nT nN W).foldr max 0 := by rw [deltaMax_eq]; rfl
  set M := (entries nT nN W).foldr max 0 with hMd
  have hp : 0 < M ↔ ¬ M = 0 := ⟨fun h => h.ne', fun h => lt_of_le_of_ne hM.1 (Ne.symm h)⟩
  refine ⟨M, hM.1, ?_, ?_, gradStep (fieldOps e r svd) nT nN Y D W s L, ?_, ?_⟩
  · intro t ht i hi
    refine hM.2.1 _ ?_
    unfold entries
    simp only [List.mem_flatMap, List.mem_map, List.mem_range]
    exact ⟨t, ht, i, hi, rfl⟩
  · refine hM.2.2.imp id (fun h => ?_)
    unfold entries at h
    simp only [List.mem_flatMap, List.mem_map, List.mem_range] at h
    obtain ⟨t, ht, i, hi, h⟩ := h
    exact ⟨t, ht, i, hi, h⟩
  · intro t i
    unfold gradStep
    simp only [hMe, hlt, decide_eq_true_eq]
    have hd : (input (fieldOps e r svd) nT nN Y D W).d t i = (if D t i = 1 then (1 : K) else 0) := rfl
    have hw : (input (fieldOps e r svd) nT nN Y D W).w t i = (if (Y t i).isSome then W t i else 0) := rfl
    rw [hd, hw]
    cases hy : Y t i with
    | none =>
      show L t i + (if 0 < M then (if false = true then W t i else 0) / M else (if false = true then W t i else 0)) * (0 - L t i) = L t i
      simp
    | some y =>
      show L t i + (if 0 < M then (if true = true then W t i else 0) / M else (if true = true then W t i else 0)) *
        (y - s.mu - s.alpha i - s.beta t - s.tau * (if D t i = 1 then (1 : K) else 0) - L t i) = _
      by_cases h0 : M = 0
      · simp [h0]
      · simp [h0, hp.2 h0]
  · unfold lowStep soft
    have he : (fieldOps e r svd).mul (eta (fieldOps e r svd) nT nN W) lam = (if M = 0 then lam else lam / M) := by
      unfold eta
      simp only [hMe, hlt, decide_eq_true_eq]
      show (if 0 < M then 1 / M else 1) * lam = _
      by_cases h0 : M = 0
      · simp [h0]
      · rw [if_pos (hp.2 h0), if_neg h0]
        ring
    rw [he]
    show (if decide ((if M = 0 then lam else lam / M) ≤ 0) = true then _ else svd _ nT nN _) = _
    simp only [decide_eq_true_eq]

/-- C127. What the compiled loop over factor updates returns, for a positive tolerance: the last of a sequence of at most `n` documented
updates started from the given matrix, each with the parameters solved for the matrix before it. If it stopped early, the last update
changed no entry by `tol` or more; every earlier update changed some entry by at least `tol`. -/
theorem C127_factor_loop (tol : K) (htol : 0 < tol) (nT nN : ℕ) (Y : ℕ → ℕ → Option K) (D : ℕ → ℕ → ℤ) (W : ℕ → ℕ → K) (lam : K) (n : ℕ) :
    ∀ L0 L', lowLoop (fieldOps e r svd) tol nT nN Y D W lam n L0 = some L' →
    ∃ (m : ℕ) (L : ℕ → ℕ → ℕ → K), m ≤ n ∧ L 0 = L0 ∧ L m = L' ∧
      (∀ j < m, ∃ s, solve (fieldOps e r svd) nT nN (fun t i => (Y t i).map (fun y => y - L j t i)) D W = some s ∧
        IsUpdate svd nT nN Y D W lam s (L j) (L (j + 1))) ∧
      (m < n → 0 < m ∧ Close tol nT nN (L m) (L (m - 1))) ∧
      ∀ j, j + 1 < m → ¬ Close tol nT nN (L (j + 1)) (L j) := by
  induction n with
  | zero =>
    intro L0 L' h
    cases h
    exact ⟨0, fun _ => L0, le_refl _, rfl, rfl, fun j hj => absurd hj (by omega), fun hj => absurd hj (by omega), fun j hj => absurd hj (by omega)⟩
  | succ n ih =>
    intro L0 L' h
    rw [lowLoop] at h
    cases hs : solve (fieldOps e r svd) nT nN (adj (fieldOps e r svd) Y L0) D W with
    | none => rw [hs] at h; cases h
    | some s =>
      rw [hs] at h
      dsimp only at h
      have hu := lowStep_isUpdate e r svd nT nN Y D W lam s L0
      set L1 := lowStep (fieldOps e r svd) nT nN Y D W lam s L0 with hL1
      by_cases hc : settled (fieldOps e r svd) tol nT nN L1 L0 = true
      · rw [if_pos hc] at h
        have h := Option.some.inj h
        refine ⟨1, fun j => if j = 0 then L0 else L1, by omega, rfl, h, ?_, ?_, fun j hj => absurd hj (by omega)⟩
        · intro j hj
          have : j = 0 := by omega
          subst this
          exact ⟨s, hs, hu⟩
        · intro _
          exact ⟨by omega, (settled_iff e r svd tol htol nT nN L1 L0).1 hc⟩
      · rw [if_neg hc] at h
        obtain ⟨m, L, h1, h2, h3, h4, h5, h6⟩ := ih L1 L' h
        refine ⟨m + 1, fun j => if j = 0 then L0 else L (j - 1), by omega, rfl, ?_, ?_, ?_, ?_⟩
        · simpa using h3
        · intro j hj
          rcases j with _ | j
          · refine ⟨s, hs, ?_⟩
            show IsUpdate svd nT nN Y D W lam s L0 (L 0)
            rw [h2]
            exact hu
          · exact h4 j (by omega)
        · intro hm
          obtain ⟨h7, h8⟩ := h5 (by omega)
          refine ⟨by omega, ?_⟩
          rcases m with _ | m
          · omega
          · exact h8
        · intro j hj
          rcases j with _ | j
          · show ¬ Close tol nT nN (L 0) L0
            rw [h2, ← settled_iff e r svd tol htol]
            exact hc
          · exact h6 j (by omega)

/-- `C127_factor_loop`: the loop on `small3` started from zero stops after one update that changes entries by less than the tolerance, and
with a smaller tolerance it uses up both updates. -/
example : (lowLoop (fieldOps (fun x => x) (fun x => x) (fun thr _ _ M t i => M t i / 2)) 100 2 3 small3.Y small3.D (fun _ _ => (1 : ℚ)) 1 2
      (fun _ _ => 5)).isSome ∧
    (lowLoop (fieldOps (fun x => x) (fun x => x) (fun thr _ _ M t i => M t i / 2)) (1 / 100) 2 3 small3.Y small3.D (fun _ _ => (1 : ℚ)) 1 2
      (fun _ _ => 5)).isSome := by decide +kernel

end DiffDiff.TropJointRust
