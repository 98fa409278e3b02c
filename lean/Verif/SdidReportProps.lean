/-
Property C119, continued: what SyntheticDiD.fit reports.
-/
import Verif.SdidCovProps

set_option linter.unusedSectionVars false

namespace DiffDiff.SdidFit

open DiffDiff.SdidCov (mean wsum contrast contrast_attOn)

variable {K : Type*} [Field K] [LinearOrder K] [IsStrictOrderedRing K]

/-- C119. The reported numbers belong together: unit weights are listed once per control unit and time weights once per pre
period, both non-negative with sum one; the estimate is the double difference with exactly these weights, the pre-treatment fit the
mean squared gap with these weights; the counts are those of the data; interval, t statistic and p-value are computed from the
reported estimate, standard error and resampled effects. -/
theorem C119_reported (W : Weights K) (hW : W.Prob) (r pval : K → K) (crit : K) (boot : Bool) (draws : List (List ℕ)) (rows : List (Row K))
    (postArg : Option (List ℤ)) (hc : Constant rows) (res : Res K) (h : fit W r pval crit boot draws rows postArg = .ok res) :
    ∃ trt : List ℤ, trt.Nodup ∧ (∀ u, u ∈ trt ↔ ∃ q ∈ rows, q.unit = u ∧ q.d = some 1) ∧ res.nTreated = trt.length ∧
      (res.unitWeights.map Prod.fst).Nodup ∧ (∀ u, u ∈ res.unitWeights.map Prod.fst ↔ ∃ q ∈ rows, q.unit = u ∧ q.d = some 0) ∧
      res.nControl = res.unitWeights.length ∧ (∀ x ∈ res.unitWeights, 0 ≤ x.2) ∧ (res.unitWeights.map Prod.snd).sum = 1 ∧
      res.timeWeights.map Prod.fst = res.pre ∧ (∀ x ∈ res.timeWeights, 0 ≤ x.2) ∧ (res.timeWeights.map Prod.snd).sum = 1 ∧
      (∀ t, (t ∈ res.pre ∨ t ∈ res.post) ↔ ∃ q ∈ rows, q.time = t) ∧ (∀ t ∈ res.pre, t ∉ res.post) ∧ res.nObs = rows.length ∧
      res.att = contrast res.unitWeights res.timeWeights trt res.post (outcome rows) ∧
      res.fit2 = mean res.pre (fun t => (mean trt (fun u => outcome rows u t) - wsum res.unitWeights (fun u => outcome rows u t)) ^ 2) ∧
      res.ci = (res.att - crit * res.se, res.att + crit * res.se) ∧
      (0 < res.se → res.t = res.att / res.se ∧ (res.effects = [] → res.p = pval res.t) ∧
        (res.effects ≠ [] → res.p = max (((res.effects.filter (fun x => decide (|res.att| ≤ |x|))).length : K) / (res.effects.length : K))
          (1 / ((res.effects.length : K) + 1)))) ∧
      (¬ 0 < res.se → res.t = 0 ∧ res.p = 1) := by
  unfold fit at h
  cases hsm : sample rows postArg with
  | error e => rw [hsm] at h; cases h
  | ok s =>
    rw [hsm] at h
    dsimp only at h
    obtain ⟨c1, c2, c3, c4, c5, c6, c7, c8, c9, c10, c11, c12, c13, c14⟩ := C119_sample rows postArg s hsm hc
    split at h
    · cases h
    · rename_i se2 est _
      cases h
      have f1 : (List.ofFn (fun j => (s.ctl.get j, unitW W (outcome rows) s.pre s.trt s.ctl j))).map Prod.fst = s.ctl := by
        rw [List.map_ofFn]; exact List.ofFn_get s.ctl
      have f2 : (List.ofFn (fun t => (s.pre.get t, timeW W (outcome rows) s.pre s.trt s.ctl t))).map Prod.fst = s.pre := by
        rw [List.map_ofFn]; exact List.ofFn_get s.pre
      have pu := hW.1 (fun (t : Fin s.pre.length) (j : Fin s.ctl.length) => outcome rows (s.ctl.get j) (s.pre.get t))
        (fun t => Sdid.avg (fun i : Fin s.trt.length => outcome rows (s.trt.get i) (s.pre.get t))) (List.length_pos_of_ne_nil c10)
      have pt := hW.2 (fun (t : Fin s.pre.length) (j : Fin s.ctl.length) => outcome rows (s.ctl.get j) (s.pre.get t))
        (fun t => Sdid.avg (fun i : Fin s.trt.length => outcome rows (s.trt.get i) (s.pre.get t))) (List.length_pos_of_ne_nil c11)
      refine ⟨s.trt, c3, c1, rfl, ?_, ?_, ?_, ?_, ?_, f2, ?_, ?_, c6, c7, rfl, ?_, ?_, ?_, ?_, ?_⟩
      · rw [f1]; exact c4
      · intro u; rw [f1]; exact c2 u
      · simp
      · intro x hx
        obtain ⟨j, rfl⟩ := (List.mem_ofFn' _ _).1 hx
        exact pu.1 j
      · rw [List.map_ofFn, List.sum_ofFn]; exact pu.2
      · intro x hx
        obtain ⟨j, rfl⟩ := (List.mem_ofFn' _ _).1 hx
        exact pt.1 j
      · rw [List.map_ofFn, List.sum_ofFn]; exact pt.2
      · exact contrast_attOn W _ _ _ _ _
      · show preFit2 W (outcome rows) s.pre s.trt s.ctl = _
        unfold preFit2
        have e : ∀ t : ℤ, Sdid.avg (fun i : Fin s.trt.length => outcome rows (s.trt.get i) t) = mean s.trt (fun u => outcome rows u t) :=
          fun t => avg_eq_sum s.trt (fun u => outcome rows u t)
        have e2 : ∀ t : ℤ, ∑ j, outcome rows (s.ctl.get j) t * unitW W (outcome rows) s.pre s.trt s.ctl j
            = wsum (List.ofFn (fun j => (s.ctl.get j, unitW W (outcome rows) s.pre s.trt s.ctl j))) (fun u => outcome rows u t) := by
          intro t
          unfold wsum
          rw [List.map_ofFn, List.sum_ofFn]
          exact Finset.sum_congr rfl fun j _ => mul_comm _ _
        simp only [e, e2]
        exact avg_eq_sum s.pre (fun t => (mean s.trt (fun u => outcome rows u t)
          - wsum (List.ofFn (fun j => (s.ctl.get j, unitW W (outcome rows) s.pre s.trt s.ctl j))) (fun u => outcome rows u t)) ^ 2)
      · simp only [Sdid.inference]; split_ifs <;> rfl
      · intro hse
        simp only [Sdid.inference] at hse ⊢
        rw [if_pos hse]
        refine ⟨rfl, ?_, ?_⟩
        · intro he
          rw [if_neg (by simp [he])]
        · intro he
          rw [if_pos (List.length_pos_of_ne_nil he)]
      · intro hse
        simp only [Sdid.inference] at hse ⊢
        rw [if_neg hse]
        exact ⟨rfl, rfl⟩

/-- A fit to which the theorem applies: uniform weights, placebo variance with two permutations of the control units. -/
example : ∃ res, fit (K := ℚ) ⟨fun {_ n} _ _ _ => 1 / (n : ℚ), fun {p _} _ _ _ => 1 / (p : ℚ)⟩ id id 2 false [[0, 1], [1, 0]]
      [⟨0, 0, some 1, some 0⟩, ⟨0, 1, some 1, some 12⟩, ⟨1, 0, some 0, some 1⟩, ⟨1, 1, some 0, some 3⟩, ⟨2, 0, some 0, some 4⟩, ⟨2, 1, some 0, some 5⟩] none
      = .ok res ∧ res.att = 21 / 2 ∧ res.se = 1 ∧ res.p = 1 / 3 ∧ res.nTreated = 1 ∧ res.nControl = 2 := by
  refine ⟨_, rfl, ?_, ?_, ?_, rfl, rfl⟩ <;> decide +kernel

end DiffDiff.SdidFit
