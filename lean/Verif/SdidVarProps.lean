/-
Property C120 (unit effects) and C121: bootstrap and placebo standard errors of SyntheticDiD.
-/
import Verif.SdidShiftProps
import Verif.TrendsEquivProps

set_option linter.unusedSectionVars false

namespace DiffDiff.SdidFit

open DiffDiff.Sdid (sdid avg placeboOnce inference)
open DiffDiff.SynthWeights
open Matrix (mulVec)

variable {K : Type*} [Field K] [LinearOrder K] [IsStrictOrderedRing K]

/-! ### Unit effects -/

theorem rustLoop_fix {n : ℕ} (f : (Fin n → K) → (Fin n → K)) (tol : K) (w : Fin n → K) (h : f w = w) :
    ∀ k prev, rustLoop f tol k w prev = w := by
  intro k
  induction k with
  | zero => intro _; rfl
  | succ k ih =>
    intro prev
    unfold rustLoop
    dsimp only
    rw [h]
    split_ifs
    · rfl
    · exact ih w

theorem rustLoop_two {n : ℕ} (f : (Fin n → K) → (Fin n → K)) (tol : K) (u w : Fin n → K) (h1 : f u = w) (h : f w = w) (k : ℕ) :
    rustLoop f tol (k + 1) u u = w := by
  unfold rustLoop
  dsimp only
  rw [h1]
  split_ifs
  · rfl
  · exact rustLoop_fix f tol w h k w

/-- One pre period, two control units with outcomes 0 and `c`, treated outcome 0: the Rust step. -/
theorem stepRust_two (c : ℝ) (w v : Fin 2 → ℝ) (t : ℝ) (hs : max (w 0 - t) 0 + max (w 1 - 1 / 10 * (c * (c * w 1)) - t) 0 = 1)
    (h0 : v 0 = max (w 0 - t) 0) (h1 : v 1 = max (w 1 - 1 / 10 * (c * (c * w 1)) - t) 0) :
    stepRust (Matrix.of fun (_ : Fin 1) (j : Fin 2) => if j = 0 then 0 else c) (fun _ => 0) 0 w = v := by
  unfold stepRust
  dsimp only
  rw [projRust_eq]
  have e : (w - (1 / 10 : ℝ) • ((hess (Matrix.of fun (_ : Fin 1) (j : Fin 2) => if j = 0 then 0 else c) 0).mulVec w
      - linRust (Matrix.of fun (_ : Fin 1) (j : Fin 2) => if j = 0 then 0 else c) (fun _ => 0)))
      = ![w 0, w 1 - 1 / 10 * (c * (c * w 1))] := by
    funext i
    unfold hess linRust
    fin_cases i
    · simp [Matrix.mulVec, dotProduct, Matrix.mul_apply, Fin.sum_univ_two]
    · simp [Matrix.mulVec, dotProduct, Matrix.mul_apply, Fin.sum_univ_two]; ring
  rw [e]
  have hp := Simplex.eq_projectSimplex_of_threshold (List.ofFn ![w 0, w 1 - 1 / 10 * (c * (c * w 1))]) (by simp) t (by simpa using hs)
  funext i
  unfold proj
  rw [← hp]
  fin_cases i
  · simpa using h0.symm
  · simpa using h1.symm

theorem clean_two (w : Fin 2 → ℝ) (hs : w 0 + w 1 = 1) (h0 : w 0 = 0 ∨ 1 / 1000000 ≤ w 0) (h1 : w 1 = 0 ∨ 1 / 1000000 ≤ w 1) :
    cleanWeights (1 / 1000000) w = w := by
  have e : (fun i => if w i < 1 / 1000000 then 0 else w i) = w := by
    funext i
    fin_cases i
    · show (if w 0 < 1 / 1000000 then 0 else w 0) = w 0
      rcases h0 with h | h
      · rw [h]; simp
      · rw [if_neg (not_lt.2 h)]
    · show (if w 1 < 1 / 1000000 then 0 else w 1) = w 1
      rcases h1 with h | h
      · rw [h]; simp
      · rw [if_neg (not_lt.2 h)]
  unfold cleanWeights
  dsimp only
  rw [e, Fin.sum_univ_two, hs, if_pos one_pos]
  funext i
  rw [div_one]
  exact congrFun e i

/-- One pre period, one post period, one treated unit and two control units, pre-period outcomes `0`, `0`, `c`: the estimate when the
descent stops at `v`. -/
theorem attOn_two (zeta eps tol : ℝ) (step : {p n : ℕ} → (Fin p → Fin n → ℝ) → ℝ) (k : ℕ) (he : 0 < eps) (hz : 0 ≤ zeta)
    (c d : ℝ) (v : Fin 2 → ℝ) (y : ℤ → ℤ → ℝ) (hpre : y 0 0 = 0 ∧ y 1 0 = 0 ∧ y 2 0 = c) (hpost : y 0 1 = 0 ∧ y 1 1 = 0 ∧ y 2 1 = c + d)
    (hu : stepRust (Matrix.of fun (_ : Fin 1) (j : Fin 2) => if j = 0 then 0 else c) (fun _ => 0) 0 (uniform 2) = v)
    (hv : stepRust (Matrix.of fun (_ : Fin 1) (j : Fin 2) => if j = 0 then 0 else c) (fun _ => 0) 0 v = v)
    (hc : cleanWeights (1 / 1000000) v = v) :
    attOn (codeWeights .rust 0 zeta eps step tol (k + 1)) y [0] [1] [0] [1, 2] = - (d * v 1) := by
  have hW := codeWeights_prob .rust 0 zeta eps step tol (k + 1) he hz
  have hT : timeW (codeWeights .rust 0 zeta eps step tol (k + 1)) y [0] [0] [1, 2] 0 = 1 := by
    have := (hW.2 (fun (t : Fin ([0] : List ℤ).length) (j : Fin ([1, 2] : List ℤ).length) => y (([1, 2] : List ℤ).get j) (([0] : List ℤ).get t))
      (fun t => avg (fun i : Fin ([0] : List ℤ).length => y (([0] : List ℤ).get i) (([0] : List ℤ).get t))) (by simp)).2
    simpa [timeW] using this
  have hU : unitW (codeWeights .rust 0 zeta eps step tol (k + 1)) y [0] [0] [1, 2] = v := by
    unfold unitW
    have e1 : (fun (t : Fin ([0] : List ℤ).length) (j : Fin ([1, 2] : List ℤ).length) => y (([1, 2] : List ℤ).get j) (([0] : List ℤ).get t))
        = fun (_ : Fin 1) (j : Fin 2) => if j = 0 then 0 else c := by
      funext t j
      fin_cases t
      fin_cases j
      · exact hpre.2.1
      · exact hpre.2.2
    have e2 : (fun t : Fin ([0] : List ℤ).length => avg (fun i : Fin ([0] : List ℤ).length => y (([0] : List ℤ).get i) (([0] : List ℤ).get t)))
        = fun (_ : Fin 1) => 0 := by
      funext t
      fin_cases t
      show avg (fun i : Fin 1 => _) = 0
      simp [avg, hpre.1]
    rw [e1, e2]
    show computeSyntheticWeights .rust (Matrix.of fun (_ : Fin 1) (j : Fin 2) => if j = 0 then 0 else c) (fun _ => 0) 0 (1 / 1000000)
      (step fun (_ : Fin 1) (j : Fin 2) => if j = 0 then 0 else c) tol (k + 1) = v
    unfold computeSyntheticWeights
    rw [if_neg (by norm_num), if_neg (by norm_num)]
    dsimp only
    unfold weightsRust
    rw [rustLoop_two _ tol _ v hu hv k, hc]
  rw [attOn_eq]
  rw [hU]
  have f1 : ∀ (w : Fin ([0] : List ℤ).length → ℝ) (g : Fin ([0] : List ℤ).length → ℝ), w 0 = 1 → ∑ t, w t * g t = g 0 := by
    intro w g h
    show ∑ t : Fin 1, w t * g t = g 0
    rw [Fin.sum_univ_one]
    show w 0 * g 0 = g 0
    rw [h, one_mul]
  simp only [f1 _ _ hT]
  have f2 : ∀ g : Fin ([1, 2] : List ℤ).length → ℝ, ∑ j, g j = g 0 + g 1 := fun g => Fin.sum_univ_two (fun j : Fin 2 => g j)
  rw [f2]
  simp [avg, hpre.1, hpre.2.1, hpre.2.2, hpost.1, hpost.2.1, hpost.2.2]
  ring

/-- C120 is false for unit effects: adding a constant to every outcome of one control unit, in pre and post periods alike,
changes the estimate, although differences within units are unchanged. The unit weights match the levels of the pre-period
outcomes. Default `lambda_reg`, compiled backend, any tolerance and any number of iterations. -/
theorem C120_unit_effects_refuted (zeta eps tol : ℝ) (step : {p n : ℕ} → (Fin p → Fin n → ℝ) → ℝ) (k : ℕ) (he : 0 < eps) (hz : 0 ≤ zeta) :
    ∃ (y y' : ℤ → ℤ → ℝ) (a : ℤ → ℝ), (∀ u t, y' u t = y u t + a u) ∧
      attOn (codeWeights .rust 0 zeta eps step tol (k + 1)) y [0] [1] [0] [1, 2] = 0 ∧
      attOn (codeWeights .rust 0 zeta eps step tol (k + 1)) y' [0] [1] [0] [1, 2] = -1 := by
  have main := attOn_two zeta eps tol step k he hz
  have hu0 : ∀ i : Fin 2, (uniform 2 : Fin 2 → ℝ) i = 1 / 2 := fun i => by simp [uniform]
  refine ⟨fun u t => if u = 2 then (if t = 0 then 10 else 12) else 0, fun u t => if u = 2 then (if t = 0 then 0 else 2) else 0,
    fun u => if u = 2 then -10 else 0, ?_, ?_, ?_⟩
  · intro u t
    by_cases h1 : u = 2 <;> by_cases h2 : t = 0 <;> simp [h1, h2] <;> norm_num
  · have := main 10 2 ![1, 0] (fun u t => if u = 2 then (if t = 0 then 10 else 12) else 0) (by norm_num) (by norm_num)
      (stepRust_two 10 _ _ (-1 / 2) (by rw [hu0, hu0]; norm_num) (by rw [hu0]; norm_num) (by rw [hu0]; norm_num))
      (stepRust_two 10 _ _ 0 (by norm_num) (by norm_num) (by norm_num))
      (clean_two _ (by norm_num) (by norm_num) (by norm_num))
    rw [this]; norm_num
  · have := main 0 2 ![1 / 2, 1 / 2] (fun u t => if u = 2 then (if t = 0 then 0 else 2) else 0) (by norm_num) (by norm_num)
      (stepRust_two 0 _ _ 0 (by rw [hu0, hu0]; norm_num) (by rw [hu0]; norm_num) (by rw [hu0]; norm_num))
      (stepRust_two 0 _ _ 0 (by norm_num) (by norm_num) (by norm_num))
      (clean_two _ (by norm_num) (by norm_num) (by norm_num))
    rw [this]; norm_num

/-! ### Additive outcomes -/

/-- C121. With outcomes "unit effect plus period effect", plus a constant effect for treated units in post periods, the estimate is
that constant for any weights that sum to one. -/
theorem C121_additive (W : Weights K) (hW : W.Prob) {U T : Type*} (y : U → T → K) (a : U → K) (b : T → K) (tau : K) (pre post : List T)
    (trt ctl : List U) (ht0 : trt ≠ []) (hc0 : ctl ≠ []) (hp0 : pre ≠ []) (hq0 : post ≠ [])
    (hpre : ∀ u, u ∈ trt ∨ u ∈ ctl → ∀ t ∈ pre, y u t = a u + b t) (hctl : ∀ u ∈ ctl, ∀ t ∈ post, y u t = a u + b t)
    (htrt : ∀ u ∈ trt, ∀ t ∈ post, y u t = a u + b t + tau) :
    attOn W y pre post trt ctl = tau := by
  have hm : 0 < trt.length := List.length_pos_of_ne_nil ht0
  have hq : ((post.length : ℕ) : K) ≠ 0 := by exact_mod_cast (List.length_pos_of_ne_nil hq0).ne'
  have s1 : ∑ j, unitW W y pre trt ctl j = 1 := (hW.1 _ _ (List.length_pos_of_ne_nil hc0)).2
  have s2 : ∑ t, timeW W y pre trt ctl t = 1 := (hW.2 _ _ (List.length_pos_of_ne_nil hp0)).2
  rw [attOn_eq]
  set lam := timeW W y pre trt ctl
  set om := unitW W y pre trt ctl
  set A : K := avg (fun i : Fin trt.length => a (trt.get i)) with hA
  have e1 : post.map (fun s => avg (fun i : Fin trt.length => y (trt.get i) s)) = post.map (fun s => b s + (A + tau)) := by
    refine List.map_congr_left fun s hs => ?_
    rw [hA, ← Sdid.avg_const hm (b s), ← Sdid.avg_const hm tau, ← Sdid.avg_add, ← Sdid.avg_add]
    congr 1; funext i
    rw [htrt _ (List.get_mem _ _) s hs]; ring
  have e2 : ∀ t, avg (fun i : Fin trt.length => y (trt.get i) (pre.get t)) = A + b (pre.get t) := by
    intro t
    rw [hA, ← Sdid.avg_const hm (b (pre.get t)), ← Sdid.avg_add]
    congr 1; funext i
    rw [hpre _ (Or.inl (List.get_mem _ _)) _ (List.get_mem _ _)]
  have e3 : ∀ j : Fin ctl.length, post.map (fun s => y (ctl.get j) s) = post.map (fun s => b s + a (ctl.get j)) := by
    intro j
    refine List.map_congr_left fun s hs => ?_
    rw [hctl _ (List.get_mem _ _) s hs, add_comm]
  have e4 : ∀ (j : Fin ctl.length) t, y (ctl.get j) (pre.get t) = a (ctl.get j) + b (pre.get t) := fun j t =>
    hpre _ (Or.inr (List.get_mem _ _)) _ (List.get_mem _ _)
  have m : ∀ c : K, (post.map (fun s => b s + c)).sum / (post.length : K) = (post.map b).sum / (post.length : K) + c := by
    intro c
    rw [sum_map_add post b (fun _ => c)]
    simp only [List.map_const', List.sum_replicate, nsmul_eq_mul]
    field_simp
  have k : ∀ c : K, ∑ t, lam t * (c + b (pre.get t)) = c + ∑ t, lam t * b (pre.get t) := by
    intro c
    simp only [mul_add, Finset.sum_add_distrib, ← Finset.sum_mul, s2, one_mul]
  rw [e1, m]
  simp only [e2, e3, e4, m, k]
  have : ∀ j : Fin ctl.length, om j * ((post.map b).sum / (post.length : K) + a (ctl.get j) - (a (ctl.get j) + ∑ t, lam t * b (pre.get t)))
      = om j * ((post.map b).sum / (post.length : K) - ∑ t, lam t * b (pre.get t)) := by intro j; ring
  simp only [this, ← Finset.sum_mul, s1]
  ring

/-! ### Bootstrap -/

theorem mem_of_filter {S l : List ℤ} {x : ℤ} (h : x ∈ S.filter (fun u => decide (u ∈ l))) : x ∈ l := of_decide_eq_true (List.mem_filter.1 h).2

theorem Weights.cast (W : Weights K) {p n m : ℕ} (h : m = n) (Y : Fin p → Fin n → K) (T : Fin p → K) :
    W.unit (fun t j => Y t (Fin.cast h j)) T = (fun j => W.unit Y T (Fin.cast h j)) ∧ W.time (fun t j => Y t (Fin.cast h j)) T = W.time Y T := by
  subst h
  exact ⟨rfl, rfl⟩

/-- Relabelling units does not matter. -/
theorem attOn_map (W : Weights K) {U V T : Type*} (f : V → U) (y : U → T → K) (pre post : List T) (bt bc : List V) :
    attOn W (fun x t => y (f x) t) pre post bt bc = attOn W y pre post (bt.map f) (bc.map f) := by
  have hl : bc.length = (bc.map f).length := (List.length_map f).symm
  have hm : ∀ t, avg (fun i : Fin bt.length => y (f (bt.get i)) t) = avg (fun i : Fin (bt.map f).length => y ((bt.map f).get i) t) := by
    intro t
    rw [avg_eq_sum bt (fun u => y (f u) t), avg_eq_sum (bt.map f) (fun u => y u t), List.map_map, List.length_map]
    rfl
  have hg : ∀ j : Fin bc.length, f (bc.get j) = (bc.map f).get (Fin.cast hl j) := by intro j; simp
  have hu : unitW W (fun x t => y (f x) t) pre bt bc = fun j => unitW W y pre (bt.map f) (bc.map f) (Fin.cast hl j) := by
    unfold unitW
    simp only [hm, hg]
    exact (W.cast hl (fun (t : Fin pre.length) j => y ((bc.map f).get j) (pre.get t)) _).1
  have hw : timeW W (fun x t => y (f x) t) pre bt bc = timeW W y pre (bt.map f) (bc.map f) := by
    unfold timeW
    simp only [hm, hg]
    exact (W.cast hl (fun (t : Fin pre.length) j => y ((bc.map f).get j) (pre.get t)) _).2
  rw [attOn_eq, attOn_eq, hu, hw]
  simp only [hm, hg]
  congr 1
  exact Equiv.sum_comp (finCongr hl) (fun j => unitW W y pre (bt.map f) (bc.map f) j *
    ((post.map (fun s => y ((bc.map f).get j) s)).sum / (post.length : K) - ∑ t, timeW W y pre (bt.map f) (bc.map f) t * y ((bc.map f).get j) (pre.get t)))

theorem zipIdx_filter_fst (S : List ℤ) (p : ℤ → Bool) : ∀ k, ((S.zipIdx k).filter (fun x => p x.1)).map Prod.fst = S.filter p := by
  induction S with
  | nil => intro k; rfl
  | cons a S ih =>
    intro k
    rw [List.zipIdx_cons, List.filter_cons, List.filter_cons]
    by_cases h : p a
    · simp only [h, if_true, List.map_cons, ih]
    · simp only [h]
      simpa using ih (k + 1)

/-- C121. The estimate of a bootstrap draw is the estimator applied to the sampled treated and the sampled control units, each as often as
it was drawn, with weights computed afresh; a draw is skipped exactly if it lacks treated or control units. -/
theorem C121_draw (W : Weights K) (y : ℤ → ℤ → K) (pre post trt ctl S : List ℤ) :
    bootEst W y pre post trt ctl S
      = if (∃ u ∈ S, u ∈ trt) ∧ (∃ u ∈ S, u ∈ ctl) then
          some (attOn W y pre post (S.filter (fun u => decide (u ∈ trt))) (S.filter (fun u => decide (u ∈ ctl))))
        else none := by
  have hnil : ∀ l : List ℤ, (S.zipIdx.filter (fun x => decide (x.1 ∈ l))).length = 0 ↔ ¬ ∃ u ∈ S, u ∈ l := by
    intro l
    have := congrArg List.length (zipIdx_filter_fst S (fun u => decide (u ∈ l)) 0)
    rw [List.length_map] at this
    rw [this, List.length_eq_zero_iff, List.filter_eq_nil_iff]
    push_neg
    simp
  unfold bootEst
  dsimp only
  by_cases h : (∃ u ∈ S, u ∈ trt) ∧ (∃ u ∈ S, u ∈ ctl)
  · have n1 : ¬ ((S.zipIdx.filter (fun x => decide (x.1 ∈ trt))).length = 0 ∨ (S.zipIdx.filter (fun x => decide (x.1 ∈ ctl))).length = 0) := by
      rw [hnil, hnil]; exact fun hh => hh.elim (fun g => g h.1) (fun g => g h.2)
    rw [if_neg n1, if_pos h, attOn_map W Prod.fst y pre post, zipIdx_filter_fst S (fun u => decide (u ∈ trt)), zipIdx_filter_fst S (fun u => decide (u ∈ ctl))]
  · have n1 : (S.zipIdx.filter (fun x => decide (x.1 ∈ trt))).length = 0 ∨ (S.zipIdx.filter (fun x => decide (x.1 ∈ ctl))).length = 0 := by
      rw [hnil, hnil]; exact not_and_or.1 h
    rw [if_pos n1, if_neg h]

/-- C121. Drawing every unit once reproduces the reported estimate. -/
theorem C121_identity_draw (W : Weights K) (y : ℤ → ℤ → K) (pre post trt ctl : List ℤ) (ht0 : trt ≠ []) (hc0 : ctl ≠ [])
    (hd : ∀ u ∈ trt, u ∉ ctl) : bootEst W y pre post trt ctl (trt ++ ctl) = some (attOn W y pre post trt ctl) := by
  rw [C121_draw, if_pos]
  · have f1 : (trt ++ ctl).filter (fun u => decide (u ∈ trt)) = trt := by
      rw [List.filter_append, List.filter_eq_self.2 (fun u hu => decide_eq_true hu),
        List.filter_eq_nil_iff.2 (fun u hu => by simpa using fun h => hd u h hu), List.append_nil]
    have f2 : (trt ++ ctl).filter (fun u => decide (u ∈ ctl)) = ctl := by
      rw [List.filter_append, List.filter_eq_nil_iff.2 (fun u hu => by simpa using hd u hu), List.filter_eq_self.2 (fun u hu => decide_eq_true hu),
        List.nil_append]
    rw [f1, f2]
  · obtain ⟨u, hu⟩ := List.exists_mem_of_ne_nil _ ht0
    obtain ⟨v, hv⟩ := List.exists_mem_of_ne_nil _ hc0
    exact ⟨⟨u, List.mem_append_left _ hu, hu⟩, ⟨v, List.mem_append_right _ hv, hv⟩⟩

/-- C121. The order of the units within a draw does not matter. -/
theorem C121_draw_order (W : Weights K) (hW : W.Sym) (y : ℤ → ℤ → K) (pre post trt ctl S S' : List ℤ) (h : S.Perm S') :
    bootEst W y pre post trt ctl S = bootEst W y pre post trt ctl S' := by
  rw [C121_draw, C121_draw]
  have e : ∀ l : List ℤ, (∃ u ∈ S, u ∈ l) ↔ ∃ u ∈ S', u ∈ l := fun l => by simp only [h.mem_iff]
  simp only [e]
  rw [(C120_unit_order W hW y pre post _ _ _ _ (h.filter _) (h.filter _)).1]

/-- C121. The bootstrap standard error: fails if no draw contains both groups (or none was asked for), 0 for a single usable draw,
and otherwise the sample standard deviation of the estimates of the usable draws. -/
theorem C121_bootstrap (W : Weights K) (y : ℤ → ℤ → K) (pre post trt ctl : List ℤ) (draws : List (List ℕ)) :
    let units := fun pos : List ℕ => pos.filterMap (fun i => (trt ++ ctl)[i]?)
    let usable := draws.filter (fun pos => decide ((∃ u ∈ units pos, u ∈ trt) ∧ (∃ u ∈ units pos, u ∈ ctl)))
    let est := usable.map (fun pos => attOn W y pre post ((units pos).filter (fun u => decide (u ∈ trt))) ((units pos).filter (fun u => decide (u ∈ ctl))))
    bootSe W y pre post trt ctl draws
      = if draws = [] then .error .zeroDivision else if usable = [] then .error .allFailed
        else if usable.length = 1 then .ok (0, est) else .ok (var1 est, est) := by
  intro units usable est
  have key : draws.filterMap (fun pos => bootEst W y pre post trt ctl (units pos)) = est := by
    show _ = (draws.filter _).map _
    rw [← List.filterMap_eq_map, List.filterMap_filter]
    refine List.filterMap_congr fun pos _ => ?_
    rw [C121_draw]
    by_cases h : (∃ u ∈ units pos, u ∈ trt) ∧ (∃ u ∈ units pos, u ∈ ctl)
    · rw [if_pos h, if_pos (decide_eq_true h)]; rfl
    · rw [if_neg h, if_neg (by simpa using h)]
  have hlen : est.length = usable.length := List.length_map _
  unfold bootSe
  dsimp only
  rw [key, hlen]
  simp only [List.length_eq_zero_iff]

/-- C121. On outcomes "unit effect plus period effect" with a constant effect, every usable draw gives that effect, so the bootstrap
standard error is 0. -/
theorem C121_bootstrap_exact (W : Weights K) (hW : W.Prob) (y : ℤ → ℤ → K) (a b : ℤ → K) (tau : K) (pre post trt ctl : List ℤ)
    (draws : List (List ℕ)) (hp0 : pre ≠ []) (hq0 : post ≠ []) (hpre : ∀ u, u ∈ trt ∨ u ∈ ctl → ∀ t ∈ pre, y u t = a u + b t)
    (hctl : ∀ u ∈ ctl, ∀ t ∈ post, y u t = a u + b t) (htrt : ∀ u ∈ trt, ∀ t ∈ post, y u t = a u + b t + tau) (v : K) (est : List K)
    (h : bootSe W y pre post trt ctl draws = .ok (v, est)) : v = 0 ∧ est ≠ [] ∧ ∀ e ∈ est, e = tau := by
  have hall : ∀ e ∈ draws.filterMap (fun pos => bootEst W y pre post trt ctl (pos.filterMap (fun i => (trt ++ ctl)[i]?))), e = tau := by
    intro e he
    obtain ⟨pos, _, hb⟩ := List.mem_filterMap.1 he
    rw [C121_draw] at hb
    split_ifs at hb with hc
    obtain ⟨⟨u, hu, hu'⟩, ⟨w, hw, hw'⟩⟩ := hc
    rw [← Option.some.inj hb]
    refine C121_additive W hW y a b tau pre post _ _ ?_ ?_ hp0 hq0 ?_ ?_ ?_
    · exact List.ne_nil_of_mem (List.mem_filter.2 ⟨hu, decide_eq_true hu'⟩)
    · exact List.ne_nil_of_mem (List.mem_filter.2 ⟨hw, decide_eq_true hw'⟩)
    · intro x hx
      exact hpre x (hx.imp mem_of_filter mem_of_filter)
    · exact fun x hx => hctl x (of_decide_eq_true (List.mem_filter.1 hx).2)
    · exact fun x hx => htrt x (of_decide_eq_true (List.mem_filter.1 hx).2)
  unfold bootSe at h
  dsimp only at h
  generalize draws.filterMap (fun pos => bootEst W y pre post trt ctl (pos.filterMap (fun i => (trt ++ ctl)[i]?))) = l at h hall
  split_ifs at h with h0 h1 h2
  · obtain ⟨rfl, rfl⟩ := Prod.mk.inj (Except.ok.inj h)
    exact ⟨rfl, by rintro rfl; simp at h1, hall⟩
  · obtain ⟨rfl, rfl⟩ := Prod.mk.inj (Except.ok.inj h)
    refine ⟨?_, by rintro rfl; simp at h1, hall⟩
    have : (Trends.var1 l : K) = 0 := (Trends.var1_zero_iff (by omega)).2 (fun x hx z hz => (hall x hx).trans (hall z hz).symm)
    exact this

/-- C121. A constant effect on the treated shifts every bootstrap estimate by that effect and leaves the bootstrap standard error alone. -/
theorem C121_bootstrap_effect (W : Weights K) (y y' : ℤ → ℤ → K) (tau : K) (pre post trt ctl : List ℤ) (draws : List (List ℕ)) (hq0 : post ≠ [])
    (hpre : ∀ u, u ∈ trt ∨ u ∈ ctl → ∀ t ∈ pre, y' u t = y u t) (hctl : ∀ u ∈ ctl, ∀ t ∈ post, y' u t = y u t)
    (htrt : ∀ u ∈ trt, ∀ t ∈ post, y' u t = y u t + tau) :
    bootSe W y' pre post trt ctl draws = (bootSe W y pre post trt ctl draws).map (fun r => (r.1, r.2.map (· + tau))) := by
  have hq : ((post.length : ℕ) : K) ≠ 0 := by exact_mod_cast (List.length_pos_of_ne_nil hq0).ne'
  have key : ∀ S, bootEst W y' pre post trt ctl S = (bootEst W y pre post trt ctl S).map (· + tau) := by
    intro S
    rw [C121_draw, C121_draw]
    by_cases hc : (∃ u ∈ S, u ∈ trt) ∧ (∃ u ∈ S, u ∈ ctl)
    · rw [if_pos hc, if_pos hc]
      obtain ⟨⟨u, hu, hu'⟩, _⟩ := hc
      have hm : (((S.filter (fun u => decide (u ∈ trt))).length : ℕ) : K) ≠ 0 := by
        exact_mod_cast (List.length_pos_of_mem (List.mem_filter.2 ⟨hu, decide_eq_true hu'⟩)).ne'
      have := (C120_effect W y y' (fun _ _ => tau) pre post (S.filter (fun u => decide (u ∈ trt))) (S.filter (fun u => decide (u ∈ ctl)))
        (fun x hx => hpre x (hx.imp mem_of_filter mem_of_filter))
        (fun x hx => hctl x (of_decide_eq_true (List.mem_filter.1 hx).2)) (fun x hx => htrt x (of_decide_eq_true (List.mem_filter.1 hx).2))).2.2
      rw [this]
      simp only [List.map_const', List.sum_replicate, nsmul_eq_mul, Option.map_some]
      rw [mul_div_cancel_left₀ _ hm, mul_div_cancel_left₀ _ hq]
    · rw [if_neg hc, if_neg hc]; rfl
  have e : draws.filterMap (fun pos => bootEst W y' pre post trt ctl (pos.filterMap (fun i => (trt ++ ctl)[i]?)))
      = (draws.filterMap (fun pos => bootEst W y pre post trt ctl (pos.filterMap (fun i => (trt ++ ctl)[i]?)))).map (· + tau) := by
    rw [List.map_filterMap]
    exact List.filterMap_congr fun pos _ => key _
  unfold bootSe
  dsimp only
  rw [e, List.length_map]
  have hv : ∀ l : List K, var1 (l.map (· + tau)) = var1 l := by
    intro l
    have := Trends.var1_affine l 1 tau
    simp only [one_mul, one_pow] at this
    exact this
  rw [hv]
  split_ifs <;> rfl

/-! ### Placebo -/

/-- C121. The placebo standard error and the placebo estimates do not depend on the post-period outcomes of the treated units: an effect
of any kind changes the estimate by its average and leaves them alone. -/
theorem C121_placebo_effect (W : Weights K) (r pval : K → K) (crit : K) (draws : List (List ℕ)) (rows rows' : List (Row K))
    (postArg : Option (List ℤ)) (s : Sample) (hs : sample rows postArg = .ok s) (hs' : sample rows' postArg = .ok s)
    (hpre : ∀ u, u ∈ s.trt ∨ u ∈ s.ctl → ∀ t ∈ s.pre, outcome rows' u t = outcome rows u t)
    (hctl : ∀ u ∈ s.ctl, ∀ t ∈ s.post, outcome rows' u t = outcome rows u t) (res res' : Res K)
    (h : fit W r pval crit false draws rows postArg = .ok res) (h' : fit W r pval crit false draws rows' postArg = .ok res') :
    res'.se = res.se ∧ res'.effects = res.effects ∧ res'.unitWeights = res.unitWeights ∧ res'.timeWeights = res.timeWeights := by
  have w1 := unitW_congr W hpre
  have w2 := timeW_congr W hpre
  have e1 : (fun (t : Fin s.pre.length) (j : Fin s.ctl.length) => outcome rows' (s.ctl.get j) (s.pre.get t))
      = fun t j => outcome rows (s.ctl.get j) (s.pre.get t) := by
    funext t j; exact hpre _ (Or.inr (List.get_mem _ _)) _ (List.get_mem _ _)
  have e2 : (fun (t : Fin s.post.length) (j : Fin s.ctl.length) => outcome rows' (s.ctl.get j) (s.post.get t))
      = fun t j => outcome rows (s.ctl.get j) (s.post.get t) := by
    funext t j; exact hctl _ (List.get_mem _ _) _ (List.get_mem _ _)
  unfold fit at h h'
  rw [hs] at h
  rw [hs'] at h'
  simp only [Bool.false_eq_true, if_false] at h h'
  rw [e1, e2, w1, w2] at h'
  have g := (Except.ok.inj h).symm
  have g' := (Except.ok.inj h').symm
  rw [g, g']
  exact ⟨rfl, rfl, rfl, rfl⟩

/-- C121. The placebo standard error squared is the variance of the placebo estimates with their number (not one less) as divisor. -/
theorem C121_placebo_variance {p q n : ℕ} (Ypc : Fin p → Fin n → K) (Yqc : Fin q → Fin n → K) (omega : Fin n → K) (lam : Fin p → K)
    (nT : ℕ) (perms : List (List ℕ)) (hn : nT + 1 ≤ n) (h2 : 2 ≤ perms.length) :
    let res := placeboSe Ypc Yqc omega lam nT perms
    res.2.length = perms.length ∧ res.1 = (res.2.map (fun e => (e - res.2.sum / (res.2.length : K)) ^ 2)).sum / (res.2.length : K) := by
  intro res
  have hr : res = placeboSe Ypc Yqc omega lam nT perms := rfl
  unfold placeboSe at hr
  rw [if_neg (by omega)] at hr
  dsimp only at hr
  rw [List.length_map, if_neg (by omega)] at hr
  have hlen : res.2.length = perms.length := by rw [hr]; simp
  refine ⟨hlen, ?_⟩
  have h1 : res.1 = ((perms.length : K) - 1) / (perms.length : K) * var1 res.2 := by rw [hr]
  rw [h1, hlen]
  unfold var1
  rw [hlen]
  have p1 : (perms.length : K) - 1 ≠ 0 := by
    have : (2 : K) ≤ (perms.length : K) := by exact_mod_cast h2
    intro h; linarith
  have p0 : (perms.length : K) ≠ 0 := by
    have : (2 : K) ≤ (perms.length : K) := by exact_mod_cast h2
    intro h; linarith
  field_simp

/-- C121 is false in the form "when the placebo variance cannot be computed no standard error is reported": with no more control than
treated units, whatever the outcomes, the standard error is 0 (`r` is the square root), the interval has length 0, and the p-value is 1. -/
theorem C121_few_controls_refuted (W : Weights K) (r pval : K → K) (hr : r 0 = 0) (crit : K) (draws : List (List ℕ)) (rows : List (Row K))
    (postArg : Option (List ℤ)) (s : Sample) (hs : sample rows postArg = .ok s) (hn : s.ctl.length ≤ s.trt.length) :
    ∃ res, fit W r pval crit false draws rows postArg = .ok res ∧ res.se = 0 ∧ res.ci = (res.att, res.att) ∧ res.t = 0 ∧ res.p = 1 ∧
      res.att = attOn W (outcome rows) s.pre s.post s.trt s.ctl := by
  unfold fit
  rw [hs]
  simp only [Bool.false_eq_true, if_false]
  unfold placeboSe
  rw [if_pos (by omega)]
  refine ⟨_, rfl, hr, ?_, ?_, ?_, rfl⟩ <;> simp [inference, hr]

/-- C121 is false for `n_bootstrap = 0`, which the error message for failed bootstraps recommends "to disable bootstrap inference and rely on
placebo-based standard errors": with `variance_method="bootstrap"` every valid data set then gives a ZeroDivisionError, and with
`variance_method="placebo"` a standard error of 0 with p-value 1. -/
theorem C121_no_draws_refuted (W : Weights K) (r pval : K → K) (hr : r 0 = 0) (crit : K) (rows : List (Row K))
    (postArg : Option (List ℤ)) (s : Sample) (hs : sample rows postArg = .ok s) :
    fit W r pval crit true [] rows postArg = .error .zeroDivision ∧
    ∃ res, fit W r pval crit false [] rows postArg = .ok res ∧ res.se = 0 ∧ res.ci = (res.att, res.att) ∧ res.p = 1 := by
  constructor
  · unfold fit
    rw [hs]
    rfl
  · unfold fit
    rw [hs]
    simp only [Bool.false_eq_true, if_false]
    have : ∀ {p q n : ℕ} (Ypc : Fin p → Fin n → K) (Yqc : Fin q → Fin n → K) (o : Fin n → K) (l : Fin p → K) (k : ℕ),
        placeboSe Ypc Yqc o l k [] = (0, []) := by
      intro p q n Ypc Yqc o l k
      unfold placeboSe
      split_ifs <;> rfl
    rw [this]
    refine ⟨_, rfl, hr, ?_, ?_⟩ <;> simp [inference, hr]

/-- C121 is false in the form "one bootstrap estimate gives no inference": a single usable draw gives a standard error of 0, an interval
of length 0 and a p-value of 1. -/
theorem C121_single_draw_refuted (W : Weights K) (r pval : K → K) (hr : r 0 = 0) (crit : K) (rows : List (Row K)) (hc : Constant rows)
    (postArg : Option (List ℤ)) (s : Sample) (hs : sample rows postArg = .ok s) :
    ∃ res, fit W r pval crit true [List.range (s.trt.length + s.ctl.length)] rows postArg = .ok res ∧ res.se = 0 ∧
      res.ci = (res.att, res.att) ∧ res.p = 1 ∧ res.effects = [res.att] := by
  have hunits : (List.range (s.trt.length + s.ctl.length)).filterMap (fun i => (s.trt ++ s.ctl)[i]?) = s.trt ++ s.ctl := by
    rw [← List.length_append]
    generalize s.trt ++ s.ctl = l
    have h1 : (List.range l.length).filterMap (fun i => l[i]?) = ((List.range l.length).map (fun i => l[i]?)).filterMap id := by
      rw [List.filterMap_map]; rfl
    have h2 : (List.range l.length).map (fun i => l[i]?) = l.map some := by
      apply List.ext_getElem
      · simp
      · intro i a b
        simp at a
        simp [a]
    rw [h1, h2, List.filterMap_map]
    simp
  obtain ⟨ht, hcn, _, _, _, _, _, _, ht0, hc0, _, _, _⟩ := C119_sample rows postArg s hs hc
  have hd : ∀ u ∈ s.trt, u ∉ s.ctl := by
    have hse := sample_eq hs
    intro u hu hu'
    have a1 : s.trt = treatedUnits rows := by rw [hse]
    have a2 : s.ctl = controlUnits rows := by rw [hse]
    rw [a1, mem_treated] at hu
    rw [a2, mem_control, hu] at hu'
    exact absurd (Option.some.inj hu') (by norm_num)
  have hb : bootSe W (outcome rows) s.pre s.post s.trt s.ctl [List.range (s.trt.length + s.ctl.length)]
      = .ok (0, [attOn W (outcome rows) s.pre s.post s.trt s.ctl]) := by
    unfold bootSe
    dsimp only
    rw [List.filterMap_cons, hunits, C121_identity_draw W _ _ _ _ _ ht0 hc0 hd]
    simp
  unfold fit
  rw [hs]
  simp only [if_true, hb]
  refine ⟨_, rfl, hr, ?_, ?_, rfl⟩ <;> simp [inference, hr]

/-! ### Concrete cases -/

example : bootSe equalWeights (outcome demo) [1, 2] [3, 4] [3] [1, 2] [[0, 1, 2], [0, 0, 1], [1, 2, 2]]
    = .ok (1 / 8, [7 / 2, 4]) := by decide +kernel

example : placeboSe (fun (t : Fin 2) (j : Fin 2) => outcome demo (([1, 2] : List ℤ).get j) (([1, 2] : List ℤ).get t))
    (fun (t : Fin 2) j => outcome demo (([1, 2] : List ℤ).get j) (([3, 4] : List ℤ).get t)) (fun _ => 1 / 2) (fun _ => 1 / 2) 1 [[0, 1], [1, 0]]
    = (1, [1, -1]) := by decide +kernel

end DiffDiff.SdidFit
