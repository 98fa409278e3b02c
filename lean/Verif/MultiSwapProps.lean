import Verif.MultiFitRank
import Verif.LinRegTwin

/-!
# C155: swapping the labels of the groups in MultiPeriodDiD (estimators.py 764-1018)

The column of treatment labels enters the design through itself and its products with the post periods. With the labels exchanged the columns have the same
combinations, and every interaction coefficient has the opposite sign. Claims hold with covariates, fixed and absorbed effects and redundant columns, as long as the
effects are estimable.
-/

set_option linter.unusedSectionVars false
set_option linter.unusedVariables false

namespace DiffDiff.LinReg
open Matrix Ols Vcov

variable {ι C K : Type*} [Fintype ι] [DecidableEq ι] [DecidableEq C] [Field K] [LinearOrder K] [IsStrictOrderedRing K]

theorem covariance_sign {s : K} (hs : s * s = 1) (o : Opts ι C) (r : ℕ) (w w' u : ι → K) :
    covariance o r (fun i => s * w i) (fun i => s * w' i) u = covariance o r w w' u := by
  unfold covariance
  have e1 : ∀ i, s * w i * u i * (s * w' i * u i) = w i * u i * (w' i * u i) := fun i => by linear_combination (w i * u i * (w' i * u i)) * hs
  have e2 : ∀ i, s * w i * (s * w' i) = w i * w' i := fun i => by linear_combination (w i * w' i) * hs
  have e3 : ∀ S : Finset ι, (∑ i ∈ S, s * w i * u i) * (∑ i ∈ S, s * w' i * u i) = (∑ i ∈ S, w i * u i) * (∑ i ∈ S, w' i * u i) := fun S => by
    have h : ∀ w : ι → K, ∑ i ∈ S, s * w i * u i = s * ∑ i ∈ S, w i * u i := fun w => by rw [Finset.mul_sum]; exact Finset.sum_congr rfl fun i _ => by ring
    rw [h, h]
    linear_combination ((∑ i ∈ S, w i * u i) * ∑ i ∈ S, w' i * u i) * hs
  simp only [e1, e2, e3]

/-- C155. Likewise the covariance of two identified coefficients that both change sign stays as it was. -/
theorem C155_pair (E : Solvers ι K) (hE : Solves E) (o : Opts ι C) {k k' : ℕ} (drop : List (Fin k)) (drop' : List (Fin k')) (X : Matrix ι (Fin k) K)
    (X' : Matrix ι (Fin k') K) (hX : Pruned X drop) (hX' : Pruned X' drop') (j l : Fin k) (j' l' : Fin k') (s : K) (hj : TwinSpan s X j X' j')
    (hl : TwinSpan s X l X' l') (ij : Identified X j) (il : Identified X l) (y : ι → K) (a : ℤ) (f : Fit ι k K) (f' : Fit ι k' K)
    (hf : fit E o drop X y a = .ok f) (hf' : fit E o drop' X' y a = .ok f') : f'.vcov (j', l') = f.vcov (j, l) := by
  obtain ⟨v1, w1, v2, w2, H1, H2, h⟩ := C124_pair E hE o drop X hX y a f hf j l ij il
  obtain ⟨v1', w1', v2', w2', H1', H2', h'⟩ := C124_pair E hE o drop' X' hX' y a f' hf' j' l' (hj.identified ij) (hl.identified il)
  obtain ⟨-, -, -, hr⟩ := C155_regression E hE o drop drop' X X' hX hX' j j' s hj ij y a f f' hf hf'
  obtain ⟨x1, J1⟩ := hj.same.isolates (isolates_signed hj.sq H1)
  obtain ⟨x2, J2⟩ := hl.same.isolates (isolates_signed hl.sq H2)
  rw [h', h, isolates_unique H1' J1, isolates_unique H2' J2, hj.rank, hr]
  exact covariance_sign hj.sq o _ w1 w2 _

end DiffDiff.LinReg

namespace DiffDiff.MultiFit
open MultiPeriod Matrix Ols Vcov LinReg
open TwfeFit (Works)

variable {K : Type*} [Field K] [LinearOrder K] [IsStrictOrderedRing K]
variable {ι C : Type*} [Fintype ι] [DecidableEq ι] [DecidableEq C]

/-- The comparison group coded as treated. -/
def Data.swapGroups (D : Data ι C K) : Data ι C K := { D with d := fun i => !D.d i }

/-- The effect of one period with the opposite sign. -/
def Effect.mirror (e : Effect K) : Effect K := { e with effect := Ext.neg e.effect, t := Ext.neg e.t, ci := (Ext.neg e.ci.2, Ext.neg e.ci.1) }

/-- The report with effects and average effect of opposite sign and the group sizes exchanged. -/
def Result.mirror (R : Result K) : Result K :=
  { R with effects := R.effects.map Effect.mirror, att := Ext.neg R.att, t := Ext.neg R.t, ci := (Ext.neg R.ci.2, Ext.neg R.ci.1)
           nTreated := R.nControl, nControl := R.nTreated }

/-! ### The design -/

theorem swap_controls {D : Data ι C K} {f : ι → K} (hf : f ∈ controls D) : f ∈ Submodule.span K (controls D.swapGroups) := by
  rcases hf with rfl | ⟨q, rfl⟩ | ⟨x, hx, rfl⟩ | ⟨g, hg, v, rfl⟩
  · have e : (fun i => if D.d i then (1 : K) else 0) =
        (∑ q ∈ Finset.univ.image D.t, fun i => if D.t i = q then (1 : K) else 0) - fun i => if D.swapGroups.d i then (1 : K) else 0 := by
      funext i
      rw [Pi.sub_apply, Finset.sum_apply, Finset.sum_ite_eq]
      cases h : D.d i <;> simp [Data.swapGroups, h]
    rw [e]
    refine Submodule.sub_mem _ (Submodule.sum_mem _ fun q _ => Submodule.subset_span (Or.inr (Or.inl ⟨q, rfl⟩))) (Submodule.subset_span (Or.inl rfl))
  · exact Submodule.subset_span (Or.inr (Or.inl ⟨q, rfl⟩))
  · exact Submodule.subset_span (Or.inr (Or.inr (Or.inl ⟨x, hx, rfl⟩)))
  · exact Submodule.subset_span (Or.inr (Or.inr (Or.inr ⟨g, hg, v, rfl⟩)))

theorem swap_swap (D : Data ι C K) : D.swapGroups.swapGroups = D := by
  cases D
  simp [Data.swapGroups]

theorem swap_half (D : Data ι C K) {post : List ℤ} (hn : post.Nodup) (r : ℤ) (v : Fin (cols D post r).length → K) :
    ∃ v' : Fin (cols D.swapGroups post r).length → K, (∀ p hp, v' (pos D.swapGroups r hn p hp) = -1 * v (pos D r hn p hp)) ∧
      ∀ i, ∑ m, matrix D.swapGroups (cols D.swapGroups post r) i m * v' m = ∑ m, matrix D (cols D post r) i m * v m := by
  obtain ⟨g, hg, hs⟩ := split_vector (r := r) hn v (fun q => if hq : q ∈ post then v (pos D r hn q hq) else 0) (fun q hq => by rw [dif_pos hq])
  have hg' : g ∈ Submodule.span K (controls D.swapGroups) := (Submodule.span_le.2 fun f hf => swap_controls hf) hg
  have h1 := reach_controls (D := D.swapGroups) (r := r) hn hg'
  have h2 := reach_time (D := D.swapGroups) (r := r) hn (fun q => if hq : q ∈ post then v (pos D r hn q hq) else 0)
  have h3 := (reach_inter (D := D.swapGroups) (r := r) hn (fun q => if hq : q ∈ post then v (pos D r hn q hq) else 0)).smul (-1)
  obtain ⟨v', h4, h5⟩ := reach_vector hn ((h1.add h2).add h3)
  refine ⟨v', fun p hp => ?_, fun i => ?_⟩
  · rw [h4]
    simp only [dif_pos hp]
    ring
  · rw [h5, hs]
    unfold effectOn
    show g i + _ + -1 * (if (!D.d i) = true ∧ D.t i ∈ post then _ else _) = _
    by_cases ht : D.t i ∈ post
    · cases hd : D.d i <;> simp [Data.swapGroups, ht]
    · cases hd : D.d i <;> simp [Data.swapGroups, ht]

theorem swap_twin (D : Data ι C K) {post : List ℤ} (hn : post.Nodup) (r : ℤ) (p : ℤ) (hp : p ∈ post) :
    TwinSpan (-1 : K) (matrix D (cols D post r)) (pos D r hn p hp) (matrix D.swapGroups (cols D.swapGroups post r)) (pos D.swapGroups r hn p hp) := by
  refine ⟨by ring, fun v => ?_, fun v' => ?_⟩
  · obtain ⟨v', h1, h2⟩ := swap_half D hn r v
    exact ⟨v', h1 p hp, h2⟩
  · have key : ∀ D' : Data ι C K, D' = D → ∀ w : Fin (cols D' post r).length → K, (∀ p hp, w (pos D' r hn p hp) = -1 * v' (pos D.swapGroups r hn p hp)) →
        (∀ i, ∑ m, matrix D' (cols D' post r) i m * w m = ∑ m, matrix D.swapGroups (cols D.swapGroups post r) i m * v' m) →
        ∃ v : Fin (cols D post r).length → K, v (pos D r hn p hp) = -1 * v' (pos D.swapGroups r hn p hp) ∧
          ∀ i, ∑ m, matrix D.swapGroups (cols D.swapGroups post r) i m * v' m = ∑ m, matrix D (cols D post r) i m * v m := by
      rintro D' rfl w h1 h2
      exact ⟨w, h1 p hp, fun i => (h2 i).symm⟩
    obtain ⟨w, h1, h2⟩ := swap_half D.swapGroups hn r v'
    exact key _ (swap_swap D) w h1 h2

/-! ### The report -/

theorem div_neg_left (e s : Ext K) : Ext.div (Ext.neg e) s = Ext.neg (Ext.div e s) := by
  cases e with
  | nan => rfl
  | pinf =>
    cases s <;> simp only [Ext.neg, Ext.div]
    split_ifs <;> rfl
  | ninf =>
    cases s <;> simp only [Ext.neg, Ext.div]
    split_ifs <;> rfl
  | fin a =>
    cases s with
    | fin b =>
      simp only [Ext.neg, Ext.div]
      split_ifs with hb
      · rcases lt_trichotomy a 0 with h | h | h
        · simp [Ext.sgn, Ext.infOf, h, h.ne, h.ne', not_lt.2 h.le]
        · simp [Ext.sgn, Ext.infOf, h]
        · simp [Ext.sgn, Ext.infOf, h, h.ne, h.ne', not_lt.2 h.le]
      · simp [neg_div]
    | _ => simp [Ext.neg, Ext.div]

theorem root_cases (r : K → K) (v : Option K) : root r v = .nan ∨ ∃ x, root r v = .fin x := by
  cases v with
  | none => exact .inl rfl
  | some x =>
    unfold root
    dsimp only
    split_ifs
    · exact .inl rfl
    · exact .inr ⟨_, rfl⟩

theorem pOf_neg (L : DidFit.Lib ι K) (df : ℤ) (t : Ext K) : pOf L df (Ext.neg t) = pOf L df t := by
  unfold pOf
  split_ifs
  · cases t <;> simp [Inference.pValue, Ext.neg, Ext.abs]
  · rfl

theorem ciOf_neg (L : DidFit.Lib ι K) (df : ℤ) (e s : Ext K) (he : e = .nan ∨ ∃ x, e = .fin x) (hs : s = .nan ∨ ∃ x, s = .fin x) (alpha : K) :
    ciOf L df (Ext.neg e) s alpha = (Ext.neg (ciOf L df e s alpha).2, Ext.neg (ciOf L df e s alpha).1) := by
  unfold ciOf
  split_ifs
  · rcases he with rfl | ⟨x, rfl⟩ <;> rcases hs with rfl | ⟨z, rfl⟩ <;> simp [Inference.confInt, Ext.sub, Ext.add, Ext.mul, Ext.neg]
    constructor <;> ring
  · rfl

theorem effect_mirror (L : DidFit.Lib ι K) (alpha : K) (df : ℤ) {c c' : ℕ → Option K} {v v' : ℕ → ℕ → Option K} {j j' : ℕ} (hc : c' j' = (c j).map (-1 * ·))
    (hv : v' j' j' = v j j) (p : ℤ) : effect L alpha df c' v' j' p = (effect L alpha df c v j p).mirror := by
  have e : LinReg.toExt (c' j') = Ext.neg (LinReg.toExt (c j)) := by
    rw [hc]
    cases c j <;> simp [LinReg.toExt, Ext.neg]
  have k : LinReg.toExt (c j) = .nan ∨ ∃ x, LinReg.toExt (c j) = .fin x := by
    cases c j with
    | none => exact .inl rfl
    | some x => exact .inr ⟨x, rfl⟩
  unfold effect Effect.mirror
  simp only [e, hv, div_neg_left, pOf_neg, ciOf_neg L df _ _ k (root_cases L.sqrt (v j j)) alpha]

theorem allSome_neg (l : List (Option K)) : allSome (l.map (fun x => x.map (-1 * ·))) = (allSome l).map (List.map (-1 * ·)) := by
  induction l with
  | nil => rfl
  | cons x l ih =>
    cases x with
    | none => rfl
    | some x =>
      simp only [List.map_cons, Option.map_some, allSome, ih]
      cases allSome l <;> rfl

theorem average_mirror (L : DidFit.Lib ι K) (alpha : K) (df : ℤ) {c c' : ℕ → Option K} {v v' : ℕ → ℕ → Option K} {post : List ℤ} {j j' : ℤ → ℕ}
    (h1 : ∀ p ∈ post, c' (j' p) = (c (j p)).map (-1 * ·)) (h2 : ∀ p ∈ post, ∀ q ∈ post, v' (j' p) (j' q) = v (j p) (j q)) :
    average L alpha df c' v' (post.map j') = (Ext.neg (average L alpha df c v (post.map j)).1, (average L alpha df c v (post.map j)).2.1,
      Ext.neg (average L alpha df c v (post.map j)).2.2.1, (average L alpha df c v (post.map j)).2.2.2.1,
      (Ext.neg (average L alpha df c v (post.map j)).2.2.2.2.2, Ext.neg (average L alpha df c v (post.map j)).2.2.2.2.1)) := by
  have e1 : (post.map j').map c' = ((post.map j).map c).map (fun x => x.map (-1 * ·)) := by
    rw [List.map_map, List.map_map, List.map_map]
    exact List.map_congr_left h1
  have e2 : (post.map j').flatMap (fun i => (post.map j').map (fun k => v' i k)) = (post.map j).flatMap (fun i => (post.map j).map (fun k => v i k)) := by
    rw [List.flatMap_map, List.flatMap_map]
    refine List.flatMap_congr fun p hp => ?_
    rw [List.map_map, List.map_map]
    exact List.map_congr_left fun q hq => h2 p hp q hq
  unfold average
  rw [e1, e2, allSome_neg, List.length_map, List.length_map]
  cases allSome ((post.map j).map c) with
  | none => rfl
  | some es =>
    have e3 : (Ext.fin ((es.map (-1 * ·)).sum / ((es.map (-1 * ·)).length : K)) : Ext K) = Ext.neg (.fin (es.sum / (es.length : K))) := by
      rw [List.length_map, List.sum_map_mul_left, List.map_id']
      simp only [Ext.neg, Ext.fin.injEq]
      ring
    simp only [Option.map_some, e3]
    cases allSome ((post.map j).flatMap fun i => (post.map j).map fun k => v i k) with
    | none => rfl
    | some vs =>
      dsimp only
      split_ifs
      · rfl
      · simp only [div_neg_left, pOf_neg, ciOf_neg L df _ _ (.inr ⟨_, rfl⟩) (.inr ⟨_, rfl⟩) alpha]
      · rfl

/-! ### Claims -/

theorem one_swap {L : TwfeFit.Lib ι K} (hL : Works L) (hP : Prunes L) (D : Data ι C K) {post : List ℤ} (hn : post.Nodup) (hne : post ≠ []) (r : ℤ)
    (hest : Estimable D post) (o : LinReg.Opts ι C) (f : LinReg.Fit ι (cols D post r).length K)
    (hf : LinReg.fit L.solvers o (L.redundant (matrix D (cols D post r))) (matrix D (cols D post r)) (outcome D) (adjustment D.absorb) = .ok f) :
    ∃ f', LinReg.fit L.solvers o (L.redundant (matrix D.swapGroups (cols D.swapGroups post r))) (matrix D.swapGroups (cols D.swapGroups post r)) (outcome D)
      (adjustment D.absorb) = .ok f' ∧ (∀ p hp, f'.coef (pos D.swapGroups r hn p hp) = (f.coef (pos D r hn p hp)).map (-1 * ·)) ∧
      (∀ p hp q hq, f'.vcov (pos D.swapGroups r hn p hp, pos D.swapGroups r hn q hq) = f.vcov (pos D r hn p hp, pos D r hn q hq)) ∧ f'.df = f.df ∧ f'.resid = f.resid := by
  obtain ⟨p0, hp0⟩ := List.exists_mem_of_ne_nil post hne
  have tw := swap_twin D hn r
  have hid := fun p hp => estimable_identified hn r hest (p := p) hp
  obtain ⟨f', hf'⟩ := LinReg.C155_regression_runs L.solvers hL.solves o _ (L.redundant (matrix D.swapGroups (cols D.swapGroups post r))) (matrix D (cols D post r))
    (matrix D.swapGroups (cols D.swapGroups post r)) (hP _) (hP _) _ _ (-1) (tw p0 hp0) (hid p0 hp0) (outcome D) (adjustment D.absorb) f hf
  have key := fun p hp => LinReg.C155_regression L.solvers hL.solves o _ _ _ _ (hP _) (hP _) _ _ (-1) (tw p hp) (hid p hp) (outcome D) (adjustment D.absorb) f f' hf hf'
  exact ⟨f', hf', fun p hp => (key p hp).1, fun p hp q hq => LinReg.C155_pair L.solvers hL.solves o _ _ _ _ (hP _) (hP _) _ _ _ _ (-1) (tw p hp) (tw q hq)
    (hid p hp) (hid q hq) (outcome D) (adjustment D.absorb) f f' hf hf', (key p0 hp0).2.2.1, (key p0 hp0).2.2.2⟩

/-- C155. MultiPeriodDiD with the labels of the groups exchanged: every period effect, the average, their t statistics and intervals have the opposite sign, the group
sizes trade places, and standard errors, p-values, periods and R squared stay; covariates, fixed, absorbed effects, clusters and redundant columns allowed. -/
theorem C155_multi (L : TwfeFit.Lib ι K) (hL : Works L) (hP : Prunes L) (robust strict : Bool) (alpha : K) (D : Data ι C K) {pre post : List ℤ} {r : ℤ}
    (hc : classify (values D.t) D.post D.ref = .ok (pre, post, r)) (hn : post.Nodup) (hest : Estimable D post) (R : Result K)
    (hR : fit L robust strict alpha D = .ok R) : fit L robust strict alpha D.swapGroups = .ok R.mirror := by
  have hne : post ≠ [] := (C76_classification _ _ _ _ _ _ hc).2.2.2.2.1
  obtain ⟨pre1, post1, r1, f, hc1, hf, rfl⟩ := fit_ok hR
  rw [hc] at hc1
  cases hc1
  have hreg : ∃ f', regress L robust strict D.swapGroups (cols D.swapGroups post r) = .ok f' ∧
      (∀ p hp, f'.coef (pos D.swapGroups r hn p hp) = (f.coef (pos D r hn p hp)).map (-1 * ·)) ∧
      (∀ p hp q hq, f'.vcov (pos D.swapGroups r hn p hp, pos D.swapGroups r hn q hq) = f.vcov (pos D r hn p hp, pos D r hn q hq)) ∧ f'.df = f.df ∧
      f'.resid = f.resid := by
    have ho : outcome D.swapGroups = outcome D := rfl
    have ha : adjustment D.swapGroups.absorb = adjustment D.absorb := rfl
    have hcl : D.swapGroups.cluster = D.cluster := rfl
    unfold regress at hf ⊢
    rw [ho, ha, hcl]
    cases h1 : LinReg.fit L.solvers (⟨true, D.cluster, none, strict⟩ : LinReg.Opts ι C) (L.redundant (matrix D (cols D post r))) (matrix D (cols D post r))
      (outcome D) (adjustment D.absorb) with
    | error x => rw [h1] at hf; cases hf
    | ok f1 =>
      rw [h1] at hf
      obtain ⟨f1', h1', k1⟩ := one_swap hL hP D hn hne r hest (⟨true, D.cluster, none, strict⟩ : LinReg.Opts ι C) f1 h1
      rw [h1']
      by_cases hrob : (robust || D.cluster.isSome) = true
      · simp only [hrob, if_true] at hf ⊢
        cases hf
        exact ⟨f1', rfl, k1⟩
      · simp only [hrob, if_false, Bool.false_eq_true] at hf ⊢
        obtain ⟨f2', h2', k2⟩ := one_swap hL hP D hn hne r hest (⟨false, none, none, strict⟩ : LinReg.Opts ι C) f hf
        exact ⟨f2', h2', k2⟩
  obtain ⟨f', hf', k1, k2, k3, k4⟩ := hreg
  have hc' : classify (values D.swapGroups.t) D.swapGroups.post D.swapGroups.ref = .ok (pre, post, r) := hc
  unfold fit
  rw [hc']
  dsimp only
  rw [hf']
  refine congrArg Except.ok ?_
  have g1 : ∀ p ∈ post, at1 f' (lastIndex (periods D.swapGroups) post r p) = (at1 f (lastIndex (periods D) post r p)).map (-1 * ·) := fun p hp => by
    rw [at1_pos hn hp, at1_pos hn hp, k1]
  have g2 : ∀ p ∈ post, ∀ q ∈ post, at2 f' (lastIndex (periods D.swapGroups) post r p) (lastIndex (periods D.swapGroups) post r q) =
      at2 f (lastIndex (periods D) post r p) (lastIndex (periods D) post r q) := fun p hp q hq => by
    rw [at2_pos hn hp hq, at2_pos hn hp hq, k2]
  have havg := average_mirror L.toLib alpha f.df g1 g2
  have heff : post.reverse.dedup.reverse.map (fun p => effect L.toLib alpha f.df (at1 f') (at2 f') (lastIndex (periods D.swapGroups) post r p) p) =
      (post.reverse.dedup.reverse.map (fun p => effect L.toLib alpha f.df (at1 f) (at2 f) (lastIndex (periods D) post r p) p)).map Effect.mirror := by
    rw [dedup_nodup hn, List.map_map]
    exact List.map_congr_left fun p hp => effect_mirror L.toLib alpha f.df (g1 p hp) (g2 p hp p hp) p
  unfold report Result.mirror
  rw [k3, k4]
  simp only [havg, heff]
  have n1 : (Finset.univ.filter (fun i => D.swapGroups.d i = true)).card = (Finset.univ.filter (fun i => D.d i = false)).card := by
    congr 1; ext i; simp [Data.swapGroups]
  have n2 : (Finset.univ.filter (fun i => D.swapGroups.d i = false)).card = (Finset.univ.filter (fun i => D.d i = true)).card := by
    congr 1; ext i; simp [Data.swapGroups]
  rw [n1, n2]
  rfl

/-! ### Example -/

theorem grouped_estimable : Estimable grouped [1, 2] :=
  (redundant_controls (D := controlled) (g := groupColumn) (Or.inr (Or.inr ⟨fun b => if b then 1 else 0, fun i => rfl⟩))).estimable
    (C148_estimable_full controlled [1, 2] (by decide) 0 controlled_rank)

theorem grouped_runs (L : TwfeFit.Lib Cell ℝ) (hL : Works L) (hP : Prunes L) : ∃ R, fit L true false (1 / 20) grouped = .ok R := by
  obtain ⟨hc, hc2⟩ := study_classify 1
  have hcc : classify (values controlled.t) controlled.post controlled.ref = .ok ([0], [1, 2], 0) := hc
  have hnd : ([1, 2] : List ℤ).Nodup := by decide
  have e1 : (Set.range controlled.t).ncard = 3 := study_range 1 none
  have e2 : (Set.range (fun i : Cell => if i = (true, 2, true) then (7 : ℤ) else 4)).ncard = 2 := by
    have : Set.range (fun i : Cell => if i = (true, 2, true) then (7 : ℤ) else 4) = (({4, 7} : Finset ℤ) : Set ℤ) := by
      ext p
      have := (mem_values (g := fun i : Cell => if i = (true, 2, true) then (7 : ℤ) else 4) (p := p)).symm
      rw [controlled_values] at this
      simpa using this
    rw [this, Set.ncard_coe_finset]
    rfl
  have e4 : (Set.range groupColumn).ncard = 2 := by
    have : Set.range groupColumn = (({0, 1} : Finset ℤ) : Set ℤ) := by
      ext p
      simp only [Set.mem_range, Finset.coe_insert, Finset.coe_singleton, Set.mem_insert_iff, Set.mem_singleton_iff]
      constructor
      · rintro ⟨⟨a, q, b⟩, rfl⟩
        cases a <;> simp [groupColumn]
      · rintro (rfl | rfl)
        · exact ⟨(false, 0, false), rfl⟩
        · exact ⟨(true, 0, false), rfl⟩
    rw [this, Set.ncard_coe_finset]
    rfl
  have e3 : (controlled.fixed.map (fun g => (Set.range g).ncard - 1)).sum = 1 := by
    show ([fun i : Cell => if i = (true, 2, true) then (7 : ℤ) else 4].map (fun g => (Set.range g).ncard - 1)).sum = 1
    simp only [List.map_cons, List.map_nil, List.sum_cons, List.sum_nil, e2, Nat.add_zero, Nat.reduceSub]
  obtain ⟨R, hR⟩ := (C148_runs_full L hL true false (1 / 20) controlled hcc controlled_rank).2 ⟨by
    rw [e1, e3]
    show 3 + 2 + 1 + (1 + 1) < Fintype.card Cell
    decide, fun g hg => by cases hg⟩
  have hest := C148_estimable_full controlled [1, 2] hnd 0 controlled_rank
  have hR' := C148_redundant_fixed L hL hP true (1 / 20) controlled groupColumn (Or.inr (Or.inr ⟨fun b => if b then 1 else 0, fun i => rfl⟩)) hcc hnd hest (by
    rw [e1, List.map_cons, List.sum_cons, e3, e4]
    show 3 + 2 + 1 + (1 + (2 - 1 + 1)) ≤ Fintype.card Cell
    decide) R hR
  exact ⟨R, hR'⟩

theorem grouped_effects (L : TwfeFit.Lib Cell ℝ) (hL : Works L) (hP : Prunes L) (R : Result ℝ) (hR : fit L true false (1 / 20) grouped = .ok R)
    (hest : Estimable grouped [1, 2]) :
    (∀ e ∈ R.effects, e.effect = .fin 5) ∧ R.effects.map Effect.period = [1, 2] ∧ R.att = .fin ((([1, 2] : List ℤ).map (fun _ => (5 : ℝ))).sum / (2 : ℕ)) := by
  have h1 : (fun _ => 1 : Cell → ℝ) ∈ Submodule.span ℝ (controls grouped) := by
    have := dummy_of (K := ℝ) grouped.t (fun _ => 0) 0
    simp only [if_true] at this
    rw [this]
    exact Submodule.sum_mem _ fun w _ => Submodule.subset_span (Or.inr (Or.inl ⟨w, rfl⟩))
  have h2 : (fun i => if i.2.2 then 3 else 1 : Cell → ℝ) ∈ Submodule.span ℝ (controls grouped) :=
    Submodule.subset_span (Or.inr (Or.inr (Or.inl ⟨_, List.mem_cons_self, rfl⟩)))
  refine C148_recovers_rank L hL hP true false (1 / 20) grouped rfl R hR (pre := [0]) (r := 0) (study_classify 1).1 (by decide) hest _
    (Submodule.add_mem _ h2 (Submodule.smul_mem _ (-2) h1)) (fun _ => 5) fun i => ?_
  obtain ⟨a, q, b⟩ := i
  show (if a = true ∧ q ≠ 0 then (5 : ℝ) else 0) + (if b then 1 else -1) = ((if b then 3 else 1) + (-2) * 1) + if a = true ∧ ((q : ℕ) : ℤ) ∈ ([1, 2] : List ℤ) then 5 else 0
  cases a <;> fin_cases q <;> cases b <;> norm_num

/-- Effects of 5 in both post periods, one redundant fixed effect: with the labels exchanged both are −5. -/
example : ∃ (L : TwfeFit.Lib Cell ℝ) (R R' : Result ℝ), fit L true false (1 / 20) grouped = .ok R ∧ fit L true false (1 / 20) grouped.swapGroups = .ok R' ∧
    (∀ e ∈ R.effects, e.effect = .fin 5) ∧ (∀ e ∈ R'.effects, e.effect = .fin (-5)) ∧ R'.effects.map Effect.period = [1, 2] ∧ R'.se = R.se := by
  obtain ⟨L, hL, hP⟩ := LinReg.exists_prunes (ι := Cell)
  have hest : Estimable grouped [1, 2] := grouped_estimable
  obtain ⟨R, hR⟩ := grouped_runs L hL hP
  obtain ⟨a, b, -⟩ := grouped_effects L hL hP R hR hest
  have h := C155_multi L hL hP true false (1 / 20) grouped (study_classify 1).1 (by decide) hest R hR
  refine ⟨L, R, R.mirror, hR, h, a, ?_, ?_, rfl⟩
  · intro e he
    obtain ⟨e0, h0, rfl⟩ := List.mem_map.1 he
    show Ext.neg e0.effect = _
    rw [a e0 h0]
    rfl
  · rw [← b]
    show (R.effects.map Effect.mirror).map Effect.period = _
    rw [List.map_map]
    rfl

end DiffDiff.MultiFit
