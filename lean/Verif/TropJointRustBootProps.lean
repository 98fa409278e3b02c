/-
The compiled search against the Python search when the scores agree, failure of the solver, and the compiled bootstrap of
`TROP(method="joint")`.
-/
import Verif.TropJointRustCaseProps

set_option linter.unusedSectionVars false
set_option linter.unusedVariables false

namespace DiffDiff.TropJointRust

open TropFit (Data Cfg Ops Lam3 sumL fieldOps extOps up toExt upC)
open TropJoint (Sol IsMin obj res)
open Finset

variable {K : Type*} [Field K] [LinearOrder K] [IsStrictOrderedRing K]
variable (e r : K → K) (svd : K → ℕ → ℕ → (ℕ → ℕ → K) → (ℕ → ℕ → K))

/-- A Python score as a float: a failed fit scores infinity. -/
def asFloat : Option K → Ext K
  | none => .pinf
  | some x => .fin x

theorem foldl_agree (sc : Comb K → Ext K) (py : Lam3 K → Option K) (b0 : Comb K) (l : List (Comb K)) : ∀ (best : Option (Comb K × K)) (cur : Comb K × Ext K),
    (∀ a ∈ l, sc a = asFloat (py (TropJoint.conv a))) →
    cur = (match best with | some b => (b.1, .fin b.2) | none => (b0, .pinf)) →
    (l.map (fun a => (a, sc a))).foldl (fun best p => if Ext.lt p.2 best.2 then p else best) cur =
      (match l.foldl (TropJoint.better py) best with | some b => (b.1, .fin b.2) | none => (b0, .pinf)) := by
  induction l with
  | nil => intro best cur _ h; exact h
  | cons a l ih =>
    intro best cur h hc
    rw [List.map_cons, List.foldl_cons, List.foldl_cons]
    refine ih _ _ (fun a' ha' => h a' (List.mem_cons_of_mem _ ha')) ?_
    have ha := h a List.mem_cons_self
    simp only [ha]
    unfold TropJoint.better
    cases hp : py (TropJoint.conv a) with
    | none =>
      rw [hc]
      cases best with
      | none => simp [asFloat, Ext.lt]
      | some b => simp [asFloat, Ext.lt]
    | some x =>
      rw [hc]
      cases best with
      | none => simp [asFloat, Ext.lt]
      | some b =>
        by_cases hx : x < b.2
        · simp [asFloat, Ext.lt, hx]
        · simp [asFloat, Ext.lt, hx]

/-- C127. When the compiled code scores every combination of the grid as the Python code does, both backends report the same tuning
parameters and the same score. -/
theorem C127_same_search (sc : Comb K → Ext K) (py : Lam3 K → Option K) (gt gu gn : List (Option K))
    (h : ∀ l ∈ TropJoint.combos gt gu gn, sc l = asFloat (py (TropJoint.conv l))) :
    select sc (TropJoint.search py gt gu gn) gt gu gn = TropJoint.search py gt gu gn := by
  have h1 := foldl_agree sc py (gt.head?.getD (some 0), gu.head?.getD (some 0), gn.head?.getD (some 0)) (TropJoint.combos gt gu gn) none _ h rfl
  have h2 : search sc gt gu gn = _ := h1
  unfold select TropJoint.search
  rw [h2]
  cases (TropJoint.combos gt gu gn).foldl (TropJoint.better py) none <;> rfl

/-- The compiled and the Python solver refuse the same inputs: those whose weights on observed cells add up to less than `1e-10`. -/
theorem C127_same_failure (v : TropJoint.Env K) (nT nN : ℕ) (Y : ℕ → ℕ → Option K) (D : ℕ → ℕ → ℤ) (W : ℕ → ℕ → K) :
    (solve (fieldOps e r svd) nT nN Y D W = none ↔ TropJoint.solve v nT nN Y D W = none) ∧
    (solve (fieldOps e r svd) nT nN Y D W = none ↔ ∑ t ∈ range nT, ∑ i ∈ range nN, (if (Y t i).isSome then W t i else 0) < 1 / 10 ^ 10) := by
  have h1 : solve (fieldOps e r svd) nT nN Y D W = none ↔ ∑ t ∈ range nT, ∑ i ∈ range nN, (if (Y t i).isSome then W t i else 0) < 1 / 10 ^ 10 := by
    unfold solve
    rw [tiny_eq, sumW_eq]
    show (if decide (_ < _) = true then _ else _) = none ↔ _
    by_cases h : ∑ t ∈ range nT, ∑ i ∈ range nN, (if (Y t i).isSome then W t i else 0) < 1 / 10 ^ 10
    · simp only [h, iff_true]
      rw [if_pos]
      exact decide_eq_true h
    · simp only [h, iff_false]
      rw [if_neg]
      · simp
      · intro hc; exact h (of_decide_eq_true hc)
  have h2 : TropJoint.solve v nT nN Y D W = none ↔ ∑ t ∈ range nT, ∑ i ∈ range nN, (if (Y t i).isSome then W t i else 0) < 1 / 10 ^ 10 := by
    unfold TropJoint.solve
    simp only [TropJoint.list_sum]
    show (if ∑ t ∈ range nT, ∑ i ∈ range nN, (if (Y t i).isSome then W t i else 0) < 1 / 10 ^ 10 then _ else _) = none ↔ _
    split_ifs with h <;> simp [h]
  exact ⟨h1.trans h2.symm, h1⟩

/-! ### Factor matrix -/

theorem foldMax_eq (l : List K) : ∀ a : K, l.foldl (fun a b => if (fieldOps e r svd).lt a b then b else a) a = max a (l.foldr max a) := by
  induction l with
  | nil => intro a; simp
  | cons b l ih =>
    intro a
    rw [List.foldl_cons, List.foldr_cons]
    have hb : (if (fieldOps e r svd).lt a b = true then b else a) = max a b := by
      show (if decide (a < b) = true then b else a) = _
      by_cases h : a < b
      · simp [h, h.le]
      · simp [h, not_lt.1 h]
    rw [hb, ih]
    have hf : ∀ c d : K, l.foldr max (max c d) = max c (l.foldr max d) := by
      intro c d
      clear ih hb
      induction l with
      | nil => rfl
      | cons x l ih => rw [List.foldr_cons, List.foldr_cons, ih, max_left_comm]
    rw [max_comm a b, hf b a]
    rw [max_comm b a, max_assoc, ← max_assoc b b, max_self]

theorem deltaMax_eq (nT nN : ℕ) (W : ℕ → ℕ → K) : deltaMax (fieldOps e r svd) nT nN W = TropJoint.wMax nT nN W := by
  unfold deltaMax foldMax TropJoint.wMax entries
  rw [foldMax_eq]
  show max 0 _ = _
  refine max_eq_right ?_
  generalize (List.range nT).flatMap (fun t => (List.range nN).map (fun i => W t i)) = l
  show (0 : K) ≤ l.foldr max 0
  induction l with
  | nil => exact le_refl _
  | cons b l ih => rw [List.foldr_cons]; exact ih.trans (le_max_right _ _)

/-- C127. The compiled code updates the factor matrix as the Python code does when the largest weight is at a cell with an outcome. -/
theorem C127_low_step (v : TropJoint.Env K) (nT nN : ℕ) (Y : ℕ → ℕ → Option K) (D : ℕ → ℕ → ℤ) (hD : ∀ t i, D t i = 0 ∨ D t i = 1)
    (W : ℕ → ℕ → K) (lam : K) (s : Sol K) (L : ℕ → ℕ → K)
    (hsvd : ∀ thr ≤ 0, v.svd thr nT nN = fun M => M) (hmax : TropJoint.wMax nT nN W = TropJoint.wMax nT nN (TropJoint.mask Y W)) :
    lowStep (fieldOps v.e v.r v.svd) nT nN Y D W lam s L =
      TropJoint.lowStep v nT nN (fun t i => (Y t i).getD 0) (TropJoint.mask Y W) D lam s L := by
  have hlt : ∀ a b : K, (fieldOps v.e v.r v.svd).lt a b = decide (a < b) := fun _ _ => rfl
  have hg : gradStep (fieldOps v.e v.r v.svd) nT nN Y D W s L = fun t i =>
      L t i + (if 0 < TropJoint.wMax nT nN (TropJoint.mask Y W) then TropJoint.mask Y W t i / TropJoint.wMax nT nN (TropJoint.mask Y W)
        else TropJoint.mask Y W t i) * ((Y t i).getD 0 - s.mu - s.alpha i - s.beta t - s.tau * (D t i : K) - L t i) := by
    funext t i
    unfold gradStep
    simp only [deltaMax_eq, hmax, hlt, decide_eq_true_eq]
    have hd : (input (fieldOps v.e v.r v.svd) nT nN Y D W).d t i = (D t i : K) := by
      show (if D t i = 1 then (1 : K) else 0) = _
      rcases hD t i with h | h <;> simp [h]
    have hw : (input (fieldOps v.e v.r v.svd) nT nN Y D W).w t i = TropJoint.mask Y W t i := rfl
    rw [hd, hw]
    show L t i + (if 0 < _ then TropJoint.mask Y W t i / _ else _) * _ = _
    cases hy : Y t i with
    | none =>
      have : TropJoint.mask Y W t i = 0 := by unfold TropJoint.mask; rw [hy]; rfl
      simp [this]
    | some y => rfl
  unfold lowStep TropJoint.lowStep soft
  rw [hg]
  have he : eta (fieldOps v.e v.r v.svd) nT nN W = (if 0 < TropJoint.wMax nT nN (TropJoint.mask Y W) then 1 / TropJoint.wMax nT nN (TropJoint.mask Y W) else 1) := by
    unfold eta
    simp only [deltaMax_eq, hmax, hlt, decide_eq_true_eq]
    rfl
  rw [he]
  set thr := (if 0 < TropJoint.wMax nT nN (TropJoint.mask Y W) then 1 / TropJoint.wMax nT nN (TropJoint.mask Y W) else 1) * lam with hthr
  show (if (fieldOps v.e v.r v.svd).nonpos thr = true then _ else v.svd thr nT nN _) = _
  by_cases h : (fieldOps v.e v.r v.svd).nonpos thr = true
  · rw [if_pos h, hsvd thr (of_decide_eq_true h)]
  · rw [if_neg h]

/-- C127. Claim refuted: "both backends take the same step". When the cell with the largest weight has no outcome, the compiled step is
shorter: one period, two units with weights 2 and 1, the first without outcome. -/
theorem C127_low_step_refuted : ∃ (Y : ℕ → ℕ → Option ℚ) (W : ℕ → ℕ → ℚ), ∀ v : TropJoint.Env ℚ, (∀ thr, v.svd thr = fun _ _ M => M) → ∀ lam,
    lowStep (fieldOps v.e v.r v.svd) 1 2 Y (fun _ _ => 0) W lam { mu := 0, alpha := fun _ => 0, beta := fun _ => 0, tau := 0 } (fun _ _ => 0) 0 1 = 1 / 2 ∧
    TropJoint.lowStep v 1 2 (fun t i => (Y t i).getD 0) (TropJoint.mask Y W) (fun _ _ => 0) lam
      { mu := 0, alpha := fun _ => 0, beta := fun _ => 0, tau := 0 } (fun _ _ => 0) 0 1 = 1 := by
  refine ⟨fun _ i => if i = 0 then none else some 1, fun _ i => if i = 0 then 2 else 1, fun v hv lam => ?_⟩
  constructor
  · unfold lowStep soft
    have : ∀ M : ℕ → ℕ → ℚ, (if (fieldOps v.e v.r v.svd).nonpos ((fieldOps v.e v.r v.svd).mul (eta (fieldOps v.e v.r v.svd) 1 2 fun _ i => if i = 0 then 2 else 1) lam) = true
        then M else (fieldOps v.e v.r v.svd).svd ((fieldOps v.e v.r v.svd).mul (eta (fieldOps v.e v.r v.svd) 1 2 fun _ i => if i = 0 then 2 else 1) lam) 1 2 M) = M := by
      intro M
      split_ifs
      · rfl
      · show v.svd _ 1 2 M = M
        rw [hv]
    rw [this]
    unfold gradStep
    rw [deltaMax_eq]
    have hm : TropJoint.wMax 1 2 (fun _ i => if i = 0 then (2 : ℚ) else 1) = 2 := by decide +kernel
    rw [hm]
    show (0 : ℚ) + (if decide ((0 : ℚ) < 2) = true then (1 : ℚ) / 2 else 1) * ((1 : ℚ) - 0 - 0 - 0 - 0 * _ - 0) = 1 / 2
    norm_num
  · unfold TropJoint.lowStep
    rw [hv]
    have hm : TropJoint.wMax 1 2 (TropJoint.mask (fun _ i => if i = 0 then none else some (1 : ℚ)) (fun _ i => if i = 0 then (2 : ℚ) else 1)) = 1 := by
      decide +kernel
    simp only [hm]
    have h1 : TropJoint.mask (fun _ i => if i = 0 then none else some (1 : ℚ)) (fun _ i => if i = 0 then (2 : ℚ) else 1) 0 1 = 1 := by decide +kernel
    rw [h1]
    norm_num

/-! ### Bootstrap -/

/-- Never-treated units. -/
theorem mem_never (P : Data K) (i : ℕ) :
    i ∈ (List.range P.nN).filter (fun i => !(List.range P.nT).any (fun t => decide (P.D t i = 1))) ↔ i < P.nN ∧ ∀ t < P.nT, P.D t i ≠ 1 := by
  simp [List.mem_filter]

theorem mem_treated (P : Data K) (i : ℕ) : i ∈ TropFit.treatedUnits P ↔ i < P.nN ∧ ∃ t < P.nT, P.D t i = 1 := by
  simp [TropFit.treatedUnits, List.mem_filter]

/-- C127. A bootstrap replicate of the compiled code resamples whole units within strata: every column is the full history of a unit of the
data; the first columns, one per never-treated draw, come from never-treated units, and the others, one per treated draw, from treated units. -/
theorem C127_bootstrap_strata (P : Data K) (dc dt : List ℕ)
    (hc : ∀ k ∈ dc, k < ((List.range P.nN).filter (fun i => !(List.range P.nT).any (fun t => decide (P.D t i = 1)))).length)
    (ht : ∀ k ∈ dt, k < (TropFit.treatedUnits P).length) (j : ℕ) (hj : j < (TropRust.bootPanel P (sampled P dc dt)).nN) :
    (TropRust.bootPanel P (sampled P dc dt)).nN = dc.length + dt.length ∧
    ∃ i < P.nN, (∀ t, (TropRust.bootPanel P (sampled P dc dt)).Y t j = P.Y t i ∧ (TropRust.bootPanel P (sampled P dc dt)).D t j = P.D t i) ∧
      ((∃ t < P.nT, P.D t i = 1) ↔ dc.length ≤ j) := by
  have hlen : (TropRust.bootPanel P (sampled P dc dt)).nN = dc.length + dt.length := by
    show (sampled P dc dt).length = _
    simp [sampled]
  refine ⟨hlen, (sampled P dc dt).getD j 0, ?_⟩
  rw [hlen] at hj
  by_cases h : j < dc.length
  · have e1 : (sampled P dc dt).getD j 0 = ((List.range P.nN).filter (fun i => !(List.range P.nT).any (fun t => decide (P.D t i = 1)))).getD (dc[j]) 0 := by
      rw [List.getD_eq_getElem?_getD, sampled]
      rw [List.getElem?_append_left (by simpa using h)]
      simp [h]
    have e2 := hc dc[j] (List.getElem_mem h)
    have hm : (sampled P dc dt).getD j 0 ∈ (List.range P.nN).filter (fun i => !(List.range P.nT).any (fun t => decide (P.D t i = 1))) := by
      rw [e1, List.getD_eq_getElem _ _ e2]; exact List.getElem_mem e2
    obtain ⟨h1, h2⟩ := (mem_never P _).1 hm
    exact ⟨h1, fun t => ⟨rfl, rfl⟩, ⟨fun ⟨t, ht, hd⟩ => absurd hd (h2 t ht), fun h' => absurd h (not_lt.2 h')⟩⟩
  · have hj' : j - dc.length < dt.length := by omega
    have e1 : (sampled P dc dt).getD j 0 = (TropFit.treatedUnits P).getD (dt[j - dc.length]) 0 := by
      rw [List.getD_eq_getElem?_getD, sampled]
      rw [List.getElem?_append_right (by simpa using h)]
      simp [hj']
    have e2 := ht dt[j - dc.length] (List.getElem_mem hj')
    have hm : (sampled P dc dt).getD j 0 ∈ TropFit.treatedUnits P := by
      rw [e1, List.getD_eq_getElem _ _ e2]; exact List.getElem_mem e2
    obtain ⟨h1, h2⟩ := (mem_treated P _).1 hm
    exact ⟨h1, fun t => ⟨rfl, rfl⟩, ⟨fun _ => not_lt.1 h, fun _ => h2⟩⟩

/-- C127. Without a factor matrix and with finite weights, a replicate of the compiled bootstrap is the effect of the coordinate descent on the drawn panel, to which
`C127_descent` and `C127_stopped` apply. -/
theorem C127_bootstrap_value (c : Cfg K) (P : Data K) (l : Comb K) (d : List ℕ × List ℕ) (hn : 10 ^ 10 ≤ (TropJoint.conv l).nn) (W : ℕ → ℕ → K)
    (hW : ∀ t i, weights e r (TropRust.bootPanel P (sampled P d.1 d.2)) (treatedPeriods P) (.fin (TropJoint.conv l).time) (.fin (TropJoint.conv l).unit) t i = .fin (W t i)) :
    bootOne e r svd c P l d = (solve (fieldOps e r svd) (TropRust.bootPanel P (sampled P d.1 d.2)).nT (TropRust.bootPanel P (sampled P d.1 d.2)).nN
      (TropRust.bootPanel P (sampled P d.1 d.2)).Y (TropRust.bootPanel P (sampled P d.1 d.2)).D W).map (fun s => .fin s.tau) := by
  have hW' : weights e r (TropRust.bootPanel P (sampled P d.1 d.2)) (treatedPeriods P) (.fin (TropJoint.conv l).time) (.fin (TropJoint.conv l).unit) = up W :=
    funext fun t => funext fun i => hW t i
  have hlt : (extOps e r svd).lt (.fin (TropJoint.conv l).nn) ((extOps e r svd).ofNat (10 ^ 10)) = false := by
    show decide ((TropJoint.conv l).nn < ((10 ^ 10 : ℕ) : K)) = false
    rw [decide_eq_false_iff_not, not_lt]
    exact_mod_cast hn
  unfold bootOne fitW
  rw [hlt, hW', if_neg (by simp), Option.map_map]
  have := solve_up e r svd (TropRust.bootPanel P (sampled P d.1 d.2)).nT (TropRust.bootPanel P (sampled P d.1 d.2)).nN
      (TropRust.bootPanel P (sampled P d.1 d.2)).Y (TropRust.bootPanel P (sampled P d.1 d.2)).D W
  refine Eq.trans (congrArg (Option.map _) this) ?_
  rw [Option.map_map]
  rfl

theorem descend_stopped (x : In K) (n : ℕ) : ∀ s : Sol K,
    (∃ s0, descend (fieldOps e r svd) x n s = sweep (fieldOps e r svd) x s0 ∧ |(sweep (fieldOps e r svd) x s0).mu - s0.mu| < 1 / 10 ^ 8 ∧
      |(sweep (fieldOps e r svd) x s0).tau - s0.tau| < 1 / 10 ^ 8) ∨
    descend (fieldOps e r svd) x n s = (sweep (fieldOps e r svd) x)^[n] s := by
  induction n with
  | zero => intro s; exact .inr rfl
  | succ n ih =>
    intro s
    rw [descend]
    by_cases h : stop (fieldOps e r svd) s (sweep (fieldOps e r svd) x s) = true
    · rw [if_pos h]
      left
      have hs : small (fieldOps e r svd) = (1 / 10 ^ 8 : K) := by simp only [small, fieldOps]; norm_num
      unfold stop at h
      rw [hs, Bool.and_eq_true] at h
      exact ⟨s, rfl, of_decide_eq_true h.1, of_decide_eq_true h.2⟩
    · rw [if_neg h, Function.iterate_succ_apply]
      exact ih _

/-- C127. The result of the compiled solver is that of a pass which moved neither the intercept nor the effect by `1e-8` or more, or of exactly fifty passes from the
weighted mean. -/
theorem C127_stopped (nT nN : ℕ) (Y : ℕ → ℕ → Option K) (D : ℕ → ℕ → ℤ) (W : ℕ → ℕ → K) (s : Sol K) (h : solve (fieldOps e r svd) nT nN Y D W = some s) :
    (∃ s0, s = sweep (fieldOps e r svd) (input (fieldOps e r svd) nT nN Y D W) s0 ∧ |s.mu - s0.mu| < 1 / 10 ^ 8 ∧ |s.tau - s0.tau| < 1 / 10 ^ 8) ∨
    s = (sweep (fieldOps e r svd) (input (fieldOps e r svd) nT nN Y D W))^[50] (start (fieldOps e r svd) (input (fieldOps e r svd) nT nN Y D W)) := by
  unfold solve at h
  split_ifs at h
  have h := Option.some.inj h
  rcases descend_stopped e r svd (input (fieldOps e r svd) nT nN Y D W) 50 (start (fieldOps e r svd) (input (fieldOps e r svd) nT nN Y D W)) with ⟨s0, h1, h2, h3⟩ | h1
  · rw [h] at h1
    rw [← h1] at h2 h3
    exact .inl ⟨s0, h1, h2, h3⟩
  · exact .inr (h ▸ h1)

/-- C127. With at least two replicates, all finite, the compiled standard error is their sample standard deviation with divisor `n - 1`;
with fewer than two it is NaN. -/
theorem C127_bootstrap_se (xs : List K) :
    bootSe e r svd (xs.map .fin) = if xs.length < 2 then .nan else
      .fin (r ((xs.map (fun x => (x - xs.sum / (xs.length : K)) ^ 2)).sum / ((xs.length : K) - 1))) := by
  unfold bootSe
  simp only [List.length_map]
  by_cases h : xs.length < 2
  · rw [if_pos h, if_pos h]
  · rw [if_neg h, if_neg h]
    have hn : (2 : K) ≤ (xs.length : K) := by exact_mod_cast not_lt.1 h
    have hn0 : (xs.length : K) ≠ 0 := by intro h0; rw [h0] at hn; linarith
    have hn1 : (xs.length : K) - 1 ≠ 0 := by intro h0; linarith
    have hmean : (extOps e r svd).div (sumL (extOps e r svd) (xs.map .fin)) ((extOps e r svd).ofNat xs.length) = .fin (xs.sum / (xs.length : K)) := by
      rw [TropFit.sumL_up e r svd, TropFit.sumL_field]
      exact div_up' e r svd _ _ hn0
    have hsum : sumL (extOps e r svd) ((xs.map Ext.fin).map (fun x => (extOps e r svd).mul
        ((extOps e r svd).sub x (.fin (xs.sum / (xs.length : K)))) ((extOps e r svd).sub x (.fin (xs.sum / (xs.length : K)))))) =
        .fin ((xs.map (fun x => (x - xs.sum / (xs.length : K)) ^ 2)).sum) := by
      rw [← TropFit.sumL_field e r svd (xs.map (fun x => (x - xs.sum / (xs.length : K)) ^ 2)), ← TropFit.sumL_up e r svd, List.map_map, List.map_map]
      congr 1
      refine List.map_congr_left fun x _ => ?_
      simp only [Function.comp_apply, sub_up', mul_up', sq]
      rfl
    rw [hmean, hsum]
    have hden : (extOps e r svd).sub ((extOps e r svd).ofNat xs.length) (extOps e r svd).one = .fin ((xs.length : K) - 1) := by
      show Ext.sub (.fin (xs.length : K)) (.fin 1) = _
      simp [Ext.sub, Ext.add, Ext.neg, sub_eq_add_neg]
    rw [hden, div_up' e r svd _ _ hn1]
    show TropFit.extSqrt r (.fin _) = _
    unfold TropFit.extSqrt
    show (if (xs.map (fun x => (x - xs.sum / (xs.length : K)) ^ 2)).sum / ((xs.length : K) - 1) < 0 then _ else _) = _
    rw [if_neg]
    · rfl
    · rw [not_lt]
      refine div_nonneg (List.sum_nonneg ?_) (by linarith)
      intro z hz
      obtain ⟨x, -, rfl⟩ := List.mem_map.1 hz
      exact sq_nonneg _

/-- C127. Claim refuted: "a standard error that could not be computed is reported as missing". When no replicate succeeds, the reported
standard error is 0, although the compiled code itself returns NaN. -/
theorem C127_no_replicate_refuted (c : Cfg K) (P : Data K) (l : Comb K) (draws : List (List ℕ × List ℕ))
    (h : ∀ d ∈ draws, bootOne e r svd c P l d = none) :
    (bootstrap e r svd c P l draws).2 = .nan ∧ bootVar e r svd c P l draws = (.fin 0, []) := by
  have h1 : draws.filterMap (bootOne e r svd c P l) = [] := List.filterMap_eq_nil_iff.2 h
  have h2 : bootstrap e r svd c P l draws = ([], .nan) := by unfold bootstrap; rw [h1]; rfl
  exact ⟨by rw [h2], by unfold bootVar; rw [h2]⟩

/-! ### Cases -/

/-- Two periods, three units, the last one treated in the second period. -/
def small3 : Data ℚ :=
  { nT := 2, nN := 3, Y := fun t i => if t = 1 ∧ i = 0 then none else some ((t : ℚ) + i), D := fun t i => if t = 1 ∧ i = 2 then 1 else 0 }

/-- `C127_descent` and `C127_fixed_point`: the inputs of `small3` with unit weights are in scope. -/
example : Binary 2 3 small3.D ∧ (∀ t < 2, ∀ i < 3, ((fun _ _ => 1 : ℕ → ℕ → ℚ) t i = 0 ∨ 1 / 10 ^ 10 < (fun _ _ => 1 : ℕ → ℕ → ℚ) t i)) := by
  refine ⟨fun t ht i hi => ?_, fun t _ i _ => Or.inr (by norm_num)⟩
  interval_cases t <;> interval_cases i <;> decide

/-- `C127_fixed_point`: the exactly fitting parameters of `small3` are left unchanged by a pass. -/
example : (sweep (fieldOps (fun x => x) (fun x => x) (fun _ _ _ M => M)) (input (fieldOps (fun x => x) (fun x => x) (fun _ _ _ M => M)) 2 3
      small3.Y small3.D (fun _ _ => (1 : ℚ))) { mu := 0, alpha := fun i => i, beta := fun t => t, tau := 0 }).mu = 0 ∧
    (sweep (fieldOps (fun x => x) (fun x => x) (fun _ _ _ M => M)) (input (fieldOps (fun x => x) (fun x => x) (fun _ _ _ M => M)) 2 3
      small3.Y small3.D (fun _ _ => (1 : ℚ))) { mu := 0, alpha := fun i => i, beta := fun t => t, tau := 0 }).alpha 2 = 2 := by decide +kernel

/-- `C127_weights`, `C127_zero_unit_rejected`: every unit of `small3` can be compared with the treated average; the last unit of `late`
cannot and is observed in the last period. -/
example : TropJoint.gaps small3 1 0 = [4] ∧ TropJoint.gaps (late ℚ) 1 4 = [] ∧ ((late ℚ).Y 2 4).isSome := by decide +kernel

/-- `C127_passes_refuted`, `C127_zero_unit_refuted`: the control cells are a possible list. -/
example : (1, 0) ∈ TropFit.controlCells (wide ℚ 3) ∧ TropFit.controlCells (late ℚ) ≠ [] := by decide +kernel

/-- `C127_passes_refuted`: with 400 units the compiled score is above 0.9, against 0. -/
example : (9 : ℚ) / 10 < 1 - 102 / (3 * ((399 : ℕ) : ℚ) + 1) := by norm_num

/-- `C127_selected`: a finite best score. -/
example : (search (fun l : Comb ℚ => if l.2.1 = some 0 then .nan else .fin 2) [some 0] [some 0, some 1] [none]) = ((some 0, some 1, none), .fin 2) := by
  decide +kernel

/-- `C127_same_search`: scores that agree, one of them infinite. -/
example : ∀ l ∈ TropJoint.combos [some (0 : ℚ)] [some 0, some 1] [none],
    (fun l : Comb ℚ => if l.2.1 = some 0 then .pinf else .fin 2) l = asFloat ((fun p : Lam3 ℚ => if p.unit = 0 then none else some 2) (TropJoint.conv l)) := by
  decide +kernel

/-- `C127_low_step`: equal weights, one cell without outcome. -/
example : TropJoint.wMax 2 3 (fun _ _ => (1 : ℚ)) = TropJoint.wMax 2 3 (TropJoint.mask small3.Y (fun _ _ => 1)) := by decide +kernel

/-- `C127_bootstrap_strata`: one draw of the second never-treated unit, one of the first, one treated draw. -/
example : sampled small3 [1, 0] [0] = [1, 0, 2] ∧ (TropRust.bootPanel small3 (sampled small3 [1, 0] [0])).D 1 2 = 1 := by decide +kernel

/-- `C127_no_replicate_refuted`: a panel without any observed cell cannot be fitted. -/
example : bootOne (fun x : ℚ => x) (fun x => x) (fun _ _ _ M => M) { maxIter := 1, tol := 1 } { small3 with Y := fun _ _ => none } (some 0, some 1, none)
    ([1, 0], [0]) = none := by decide +kernel

end DiffDiff.TropJointRust
