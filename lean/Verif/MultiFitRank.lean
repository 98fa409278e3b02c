/-
Property C148, continued: MultiPeriodDiD.fit with redundant columns (for instance a dummy for every unit, with which the group column is redundant).
-/
import Verif.MultiFitControls
import Verif.LinRegPair

set_option linter.unusedSectionVars false
set_option linter.unusedVariables false

namespace DiffDiff.MultiFit
open Matrix MultiPeriod Vcov
open Ols (IsOls resid fitted)
open TwfeFit (Works Keeps)
open LinReg (Prunes SameSpan Pruned Identified)

variable {K : Type*} [Field K] [LinearOrder K] [IsStrictOrderedRing K]
variable {ι ι' C : Type*} [Fintype ι] [DecidableEq ι] [Fintype ι'] [DecidableEq ι'] [DecidableEq C]

/-! ### Specification -/

/-- What is controlled for: the group, the periods, the covariates (demeaned if effects are absorbed), the values of the fixed-effect columns. -/
def controls (D : Data ι C K) : Set (ι → K) :=
  {f | f = (fun i => if D.d i then 1 else 0) ∨ (∃ q, f = fun i => if D.t i = q then 1 else 0) ∨ (∃ x ∈ D.cov, f = absorbed D.absorb x) ∨
    ∃ g ∈ D.fixed, ∃ v, f = fun i => if g i = v then 1 else 0}

/-- An effect `τ p` on the treated rows of the post period `p`. -/
def effectOn (D : Data ι C K) (post : List ℤ) (τ : ℤ → K) : ι → K := fun i => if D.d i = true ∧ D.t i ∈ post then τ (D.t i) else 0

/-- No effect can be mistaken for a combination of controls. -/
def Estimable (D : Data ι C K) (post : List ℤ) : Prop := ∀ τ, effectOn D post τ ∈ Submodule.span K (controls D) → ∀ p ∈ post, τ p = 0

/-! ### Combinations of the columns -/

theorem reach_controls {D : Data ι C K} {post : List ℤ} (hn : post.Nodup) {r : ℤ} {g : ι → K} (hg : g ∈ Submodule.span K (controls D)) :
    Reach D post r (fun _ => 0) g := by
  induction hg using Submodule.span_induction with
  | mem f hf =>
    rcases hf with rfl | ⟨q, rfl⟩ | ⟨x, hx, rfl⟩ | ⟨g, hg, v, rfl⟩
    · exact reach_treat hn
    · exact reach_time hn (fun t => if t = q then 1 else 0)
    · exact reach_extra hn (List.mem_append_left _ (List.mem_map.2 ⟨x, hx, rfl⟩))
    · exact reach_fixed hn hg (fun t => if t = v then 1 else 0)
  | zero => exact Reach.zero D post r
  | add f f' _ _ h h' => exact (h.add h').congr (fun _ => by simp) (fun _ => rfl)
  | smul a f _ h => exact (h.smul a).congr (fun _ => by simp) (fun _ => rfl)

theorem col_controls {D : Data ι C K} {post : List ℤ} {r : ℤ} {k : Col} (hk : k ∈ cols D post r) (h : ∀ p, k ≠ .inter p) :
    (fun i => colVal (D.d i) (D.t i) (extraVal (extras D) i) k) ∈ Submodule.span K (controls D) := by
  rcases mem_cols.1 hk with rfl | rfl | ⟨q, -, -, rfl⟩ | ⟨q, -, rfl⟩ | ⟨j, hj, rfl⟩
  · have : (fun i => colVal (D.d i) (D.t i) (extraVal (extras D) i) .const) = ∑ q ∈ Finset.univ.image D.t, fun i => if D.t i = q then (1 : K) else 0 := by
      funext i
      rw [Finset.sum_apply, Finset.sum_ite_eq]
      simp [colVal]
    rw [this]
    exact Submodule.sum_mem _ fun q _ => Submodule.subset_span (Or.inr (Or.inl ⟨q, rfl⟩))
  · exact Submodule.subset_span (Or.inl rfl)
  · exact Submodule.subset_span (Or.inr (Or.inl ⟨q, rfl⟩))
  · exact absurd rfl (h q)
  · have e : (fun i => colVal (D.d i) (D.t i) (extraVal (extras D) i) (.extra j)) = (extras D)[j] := by
      funext i
      simp [colVal, extraVal, hj]
    rw [e]
    have hm := List.getElem_mem hj
    unfold extras at hm
    rcases List.mem_append.1 hm with hm | hm
    · obtain ⟨x, hx, hx'⟩ := List.mem_map.1 hm
      exact Submodule.subset_span (Or.inr (Or.inr (Or.inl ⟨x, hx, hx'.symm⟩)))
    · obtain ⟨g, hg, hm⟩ := List.mem_flatMap.1 hm
      obtain ⟨v, -, hv⟩ := List.mem_map.1 hm
      exact Submodule.subset_span (Or.inr (Or.inr (Or.inr ⟨g, hg, v, hv.symm⟩)))

/-- Position of the interaction with a post period. -/
def pos (D : Data ι C K) {post : List ℤ} (r : ℤ) (hn : post.Nodup) (p : ℤ) (hp : p ∈ post) : Fin (cols D post r).length :=
  ⟨lastIndex (periods D) post r p, (idx_inter hn hp).2⟩

theorem pos_get {D : Data ι C K} {post : List ℤ} {r : ℤ} (hn : post.Nodup) {p : ℤ} (hp : p ∈ post) : (cols D post r)[pos D r hn p hp] = .inter p := by
  obtain ⟨h1, h2⟩ := idx_inter (D := D) (r := r) hn hp
  have h3 : (cols D post r).idxOf (Col.inter p) < (cols D post r).length := by rw [h1]; exact h2
  have := List.getElem_idxOf h3
  simp only [h1] at this
  exact this

theorem pos_of {D : Data ι C K} {post : List ℤ} {r : ℤ} (hn : post.Nodup) {p : ℤ} (hp : p ∈ post) {j : Fin (cols D post r).length}
    (hj : (cols D post r)[j] = .inter p) : j = pos D r hn p hp := by
  have hnd := columns_nodup (periods_nodup D) hn r (extras D).length
  have h := (List.nodup_iff_injective_get.1 hnd)
  exact h (show (cols D post r).get j = (cols D post r).get (pos D r hn p hp) from hj.trans (pos_get hn hp).symm)

theorem reach_vector {D : Data ι C K} {post : List ℤ} (hn : post.Nodup) {r : ℤ} {τ : ℤ → K} {f : ι → K} (h : Reach D post r τ f) :
    ∃ v : Fin (cols D post r).length → K, (∀ p hp, v (pos D r hn p hp) = τ p) ∧ ∀ i, ∑ j, matrix D (cols D post r) i j * v j = f i := by
  obtain ⟨c, h1, h2⟩ := h
  refine ⟨fun j => c (cols D post r)[j], fun p hp => ?_, fun i => ?_⟩
  · show c (cols D post r)[pos D r hn p hp] = _
    rw [pos_get, h1]
  · rw [h2 i, ← sum_fin_map]
    rfl

/-- A combination of the columns is a combination of controls plus an effect. -/
theorem split_vector {D : Data ι C K} {post : List ℤ} (hn : post.Nodup) {r : ℤ} (v : Fin (cols D post r).length → K) (τ : ℤ → K)
    (hτ : ∀ p hp, v (pos D r hn p hp) = τ p) :
    ∃ g ∈ Submodule.span K (controls D), ∀ i, ∑ j, matrix D (cols D post r) i j * v j = g i + effectOn D post τ i := by
  obtain ⟨w, h1, h2⟩ := reach_vector hn (reach_inter (D := D) (r := r) hn τ)
  refine ⟨∑ j, (v j - w j) • fun i => matrix D (cols D post r) i j, ?_, fun i => ?_⟩
  · refine Submodule.sum_mem _ fun j _ => ?_
    by_cases hj : ∃ p, (cols D post r)[j] = .inter p
    · obtain ⟨p, hj⟩ := hj
      have hp : p ∈ post := by
        have := List.getElem_mem (l := cols D post r) j.2
        rw [show (cols D post r)[j.1] = .inter p from hj] at this
        rcases mem_cols.1 this with h | h | ⟨q, -, -, h⟩ | ⟨q, hq, h⟩ | ⟨q, -, h⟩
        · cases h
        · cases h
        · cases h
        · cases h; exact hq
        · cases h
      have e := pos_of hn hp hj
      rw [e, h1, hτ, sub_self, zero_smul]
      exact Submodule.zero_mem _
    · refine Submodule.smul_mem _ _ (col_controls (r := r) (List.getElem_mem (l := cols D post r) j.2) fun p e => hj ⟨p, e⟩)
  · have h3 := h2 i
    have h4 : effectOn D post τ i = ∑ j, matrix D (cols D post r) i j * w j := h3.symm
    rw [h4, Finset.sum_apply, ← Finset.sum_add_distrib]
    refine Finset.sum_congr rfl fun j _ => ?_
    show _ = (v j - w j) * matrix D (cols D post r) i j + _
    ring

theorem estimable_identified {D : Data ι C K} {post : List ℤ} (hn : post.Nodup) (r : ℤ) (h : Estimable D post) {p : ℤ} (hp : p ∈ post) :
    Identified (matrix D (cols D post r)) (pos D r hn p hp) := by
  intro a ha hc
  obtain ⟨g, hg, hs⟩ := split_vector (r := r) hn (fun j => (if j = pos D r hn p hp then 1 else 0) - a j)
    (fun q => if hq : q ∈ post then (if pos D r hn q hq = pos D r hn p hp then 1 else 0) - a (pos D r hn q hq) else 0) (fun q hq => by rw [dif_pos hq])
  have hz : ∀ i, g i + effectOn D post (fun q => if hq : q ∈ post then (if pos D r hn q hq = pos D r hn p hp then 1 else 0) - a (pos D r hn q hq) else 0) i = 0 := by
    intro i
    rw [← hs i]
    simp only [mul_sub, Finset.sum_sub_distrib, LinReg.sum_unit, ← hc i, sub_self]
  have := h (fun q => if hq : q ∈ post then (if pos D r hn q hq = pos D r hn p hp then 1 else 0) - a (pos D r hn q hq) else 0) (by
    have e : effectOn D post (fun q => if hq : q ∈ post then (if pos D r hn q hq = pos D r hn p hp then 1 else 0) - a (pos D r hn q hq) else 0) = (-1 : K) • g := by
      funext i
      show _ = -1 * g i
      linarith [hz i]
    rw [e]
    exact Submodule.smul_mem _ _ hg) p hp
  simp only [dif_pos hp, if_true, ha, sub_zero] at this
  exact one_ne_zero this

/-- Conversely, effects whose columns are identified are estimable; so the definition is no stronger than needed. -/
theorem identified_estimable {D : Data ι C K} {post : List ℤ} (hn : post.Nodup) (r : ℤ)
    (h : ∀ p hp, Identified (matrix D (cols D post r)) (pos D r hn p hp)) : Estimable D post := by
  intro τ hτ p hp
  by_contra h0
  obtain ⟨v, h1, h2⟩ := reach_vector hn (reach_controls (r := r) hn hτ)
  obtain ⟨w, h3, h4⟩ := reach_vector hn (reach_inter (D := D) (r := r) hn τ)
  refine h p hp (fun j => (if j = pos D r hn p hp then 1 else 0) - (τ p)⁻¹ * (w j - v j)) ?_ fun i => ?_
  · simp only [if_true, h1, h3, sub_zero]
    rw [inv_mul_cancel₀ h0, sub_self]
  · have : ∑ j, matrix D (cols D post r) i j * (w j - v j) = 0 := by
      simp only [mul_sub, Finset.sum_sub_distrib]
      rw [h2, h4]
      exact sub_self _
    simp only [mul_sub, Finset.sum_sub_distrib, LinReg.sum_unit]
    have e : ∑ x, matrix D (cols D post r) i x * ((τ p)⁻¹ * (w x - v x)) = (τ p)⁻¹ * ∑ j, matrix D (cols D post r) i j * (w j - v j) := by
      rw [Finset.mul_sum]
      exact Finset.sum_congr rfl fun j _ => by ring
    simp only [mul_sub, Finset.sum_sub_distrib] at e this
    rw [e, ← mul_sub, this, mul_zero, sub_zero]

/-! ### Data with the same controls -/

/-- The rows of `D'` are those of `D` in the order given by `e`, with the same periods, groups and clusters, the same working outcome, and controls with the same
combinations. -/
structure SameControls (e : ι' ≃ ι) (D : Data ι C K) (D' : Data ι' C K) : Prop where
  d : ∀ i, D'.d i = D.d (e i)
  t : ∀ i, D'.t i = D.t (e i)
  cluster : D'.cluster = D.cluster.map (fun f i => f (e i))
  post : D'.post = D.post
  outcome : ∀ i, outcome D' i = outcome D (e i)
  adjustment : adjustment D'.absorb = adjustment D.absorb
  forth : ∀ f ∈ controls D, (fun i => f (e i)) ∈ Submodule.span K (controls D')
  back : ∀ f ∈ controls D', (fun i => f (e.symm i)) ∈ Submodule.span K (controls D)

theorem span_moved {e : ι' ≃ ι} {A : Set (ι → K)} {B : Set (ι' → K)} (h : ∀ f ∈ A, (fun i => f (e i)) ∈ Submodule.span K B) {g : ι → K}
    (hg : g ∈ Submodule.span K A) : (fun i => g (e i)) ∈ Submodule.span K B := by
  induction hg using Submodule.span_induction with
  | mem f hf => exact h f hf
  | zero => exact Submodule.zero_mem _
  | add f f' _ _ h h' => exact Submodule.add_mem _ h h'
  | smul a f _ h => exact Submodule.smul_mem _ a h

theorem SameControls.symm {e : ι' ≃ ι} {D : Data ι C K} {D' : Data ι' C K} (h : SameControls e D D') : SameControls e.symm D' D := by
  refine ⟨fun i => by rw [h.d, Equiv.apply_symm_apply], fun i => by rw [h.t, Equiv.apply_symm_apply], ?_, h.post.symm, fun i => by rw [h.outcome, Equiv.apply_symm_apply],
    h.adjustment.symm, h.back, h.forth⟩
  rw [h.cluster]
  cases D.cluster with
  | none => rfl
  | some f => simp

theorem SameControls.effectOn {e : ι' ≃ ι} {D : Data ι C K} {D' : Data ι' C K} (h : SameControls e D D') (post : List ℤ) (τ : ℤ → K) (i : ι') :
    effectOn D' post τ i = effectOn D post τ (e i) := by
  unfold MultiFit.effectOn
  rw [h.d, h.t]

theorem SameControls.half {e : ι' ≃ ι} {D : Data ι C K} {D' : Data ι' C K} (h : SameControls e D D') {post : List ℤ} (hn : post.Nodup) (r r' : ℤ)
    (v : Fin (cols D post r).length → K) : ∃ v' : Fin (cols D' post r').length → K, (∀ p hp, v' (pos D' r' hn p hp) = v (pos D r hn p hp)) ∧
      ∀ i, ∑ m, matrix D' (cols D' post r') i m * v' m = ∑ m, matrix D (cols D post r) (e i) m * v m := by
  obtain ⟨g, hg, hs⟩ := split_vector (r := r) hn v (fun q => if hq : q ∈ post then v (pos D r hn q hq) else 0) (fun q hq => by rw [dif_pos hq])
  have h1 := reach_controls (D := D') (r := r') hn (span_moved h.forth hg)
  obtain ⟨v', h2, h3⟩ := reach_vector hn (h1.add (reach_inter (D := D') (r := r') hn (fun q => if hq : q ∈ post then v (pos D r hn q hq) else 0)))
  refine ⟨v', fun p hp => ?_, fun i => ?_⟩
  · rw [h2, dif_pos hp, zero_add]
  · rw [h3, hs]
    exact congrArg (g (e i) + ·) (h.effectOn post (fun q => if hq : q ∈ post then v (pos D r hn q hq) else 0) i)

theorem SameControls.sameSpan {e : ι' ≃ ι} {D : Data ι C K} {D' : Data ι' C K} (h : SameControls e D D') {post : List ℤ} (hn : post.Nodup) (r r' : ℤ) (p : ℤ)
    (hp : p ∈ post) : SameSpan e (matrix D (cols D post r)) (pos D r hn p hp) (matrix D' (cols D' post r')) (pos D' r' hn p hp) := by
  refine ⟨fun v => ?_, fun v' => ?_⟩
  · obtain ⟨v', h1, h2⟩ := h.half hn r r' v
    exact ⟨v', h1 p hp, h2⟩
  · obtain ⟨v, h1, h2⟩ := h.symm.half hn r' r v'
    exact ⟨v, h1 p hp, fun i => by have := h2 (e i); rw [Equiv.symm_apply_apply] at this; exact this.symm⟩

theorem SameControls.estimable {e : ι' ≃ ι} {D : Data ι C K} {D' : Data ι' C K} (h : SameControls e D D') {post : List ℤ} (hest : Estimable D post) :
    Estimable D' post := by
  intro τ hτ
  refine hest τ ?_
  have h1 := span_moved (e := e.symm) h.back hτ
  rwa [show (fun i => MultiFit.effectOn D' post τ (e.symm i)) = MultiFit.effectOn D post τ from funext fun i => by
    rw [h.effectOn post τ, Equiv.apply_symm_apply]] at h1

/-! ### The regressions -/

theorem at1_pos {D : Data ι C K} {post : List ℤ} {r : ℤ} (hn : post.Nodup) {p : ℤ} (hp : p ∈ post) (f : LinReg.Fit ι (cols D post r).length K) :
    at1 f (lastIndex (periods D) post r p) = f.coef (pos D r hn p hp) := by
  unfold at1
  rw [dif_pos (idx_inter hn hp).2]
  rfl

theorem at2_pos {D : Data ι C K} {post : List ℤ} {r : ℤ} (hn : post.Nodup) {p q : ℤ} (hp : p ∈ post) (hq : q ∈ post)
    (f : LinReg.Fit ι (cols D post r).length K) :
    at2 f (lastIndex (periods D) post r p) (lastIndex (periods D) post r q) = f.vcov (pos D r hn p hp, pos D r hn q hq) := by
  unfold at2
  rw [dif_pos ⟨(idx_inter hn hp).2, (idx_inter hn hq).2⟩]
  rfl

/-- The numbers of the report that come from the regressions are the same. -/
def Matches {D : Data ι C K} {D' : Data ι' C K} (e : ι' ≃ ι) {post : List ℤ} {r r' : ℤ} (hn : post.Nodup) (f : LinReg.Fit ι (cols D post r).length K)
    (f' : LinReg.Fit ι' (cols D' post r').length K) : Prop :=
  (∀ p hp, f'.coef (pos D' r' hn p hp) = f.coef (pos D r hn p hp)) ∧
  (∀ p hp q hq, f'.vcov (pos D' r' hn p hp, pos D' r' hn q hq) = f.vcov (pos D r hn p hp, pos D r hn q hq)) ∧
  f'.df = f.df ∧ ∀ i, f'.resid i = f.resid (e i)

theorem one_span {L : TwfeFit.Lib ι K} (hL : Works L) (hP : Prunes L) {L' : TwfeFit.Lib ι' K} (hL' : Works L') (hP' : Prunes L') {e : ι' ≃ ι} {D : Data ι C K}
    {D' : Data ι' C K} (h : SameControls e D D') {post : List ℤ} (hn : post.Nodup) (hne : post ≠ []) (r r' : ℤ) (hest : Estimable D post) (o : LinReg.Opts ι C)
    (hk : (cols D' post r').length = (cols D post r).length ∨ (o.strict = false ∧ (cols D' post r').length ≤ Fintype.card ι))
    (f : LinReg.Fit ι (cols D post r).length K)
    (hf : LinReg.fit L.solvers o (L.redundant (matrix D (cols D post r))) (matrix D (cols D post r)) (outcome D) (adjustment D.absorb) = .ok f) :
    ∃ f', LinReg.fit L'.solvers (RowOrder.movedOpts e o) (L'.redundant (matrix D' (cols D' post r'))) (matrix D' (cols D' post r')) (outcome D')
      (adjustment D'.absorb) = .ok f' ∧ Matches (D := D) (D' := D') e hn f f' := by
  obtain ⟨p0, hp0⟩ := List.exists_mem_of_ne_nil post hne
  obtain ⟨f', hf'⟩ := LinReg.C124_same_runs L.solvers hL.solves L'.solvers hL'.solves o e _ _ (matrix D (cols D post r)) (matrix D' (cols D' post r')) (hP _) (hP' _)
    _ _ (h.sameSpan hn r r' p0 hp0) (estimable_identified hn r hest hp0) hk (outcome D) (outcome D') (adjustment D.absorb) (adjustment D'.absorb) f hf
  refine ⟨f', hf', ?_⟩
  rw [h.adjustment, show outcome D' = fun i => outcome D (e i) from funext h.outcome] at hf'
  have key := fun p hp => LinReg.C124_same_span L.solvers hL.solves L'.solvers hL'.solves o e _ _ (matrix D (cols D post r)) (matrix D' (cols D' post r')) (hP _)
    (hP' _) _ _ (h.sameSpan hn r r' p hp) (estimable_identified hn r hest hp) (outcome D) (adjustment D.absorb) f f' hf hf'
  refine ⟨fun p hp => (key p hp).1, fun p hp q hq => ?_, (key p0 hp0).2.2.1, (key p0 hp0).2.2.2.1⟩
  exact LinReg.C124_pair_span L.solvers hL.solves L'.solvers hL'.solves o e _ _ (matrix D (cols D post r)) (matrix D' (cols D' post r')) (hP _) (hP' _) _ _ _ _
    (h.sameSpan hn r r' p hp) (h.sameSpan hn r r' q hq) (estimable_identified hn r hest hp) (estimable_identified hn r hest hq) (outcome D) (adjustment D.absorb) f f'
    hf hf'

theorem regress_span {L : TwfeFit.Lib ι K} (hL : Works L) (hP : Prunes L) {L' : TwfeFit.Lib ι' K} (hL' : Works L') (hP' : Prunes L') {e : ι' ≃ ι} {D : Data ι C K}
    {D' : Data ι' C K} (h : SameControls e D D') {post : List ℤ} (hn : post.Nodup) (hne : post ≠ []) (r r' : ℤ) (hest : Estimable D post) {robust strict : Bool}
    (hk : (cols D' post r').length = (cols D post r).length ∨ (strict = false ∧ (cols D' post r').length ≤ Fintype.card ι))
    {f : LinReg.Fit ι (cols D post r).length K} (hf : regress L robust strict D (cols D post r) = .ok f) :
    ∃ f', regress L' robust strict D' (cols D' post r') = .ok f' ∧ Matches (D := D) (D' := D') e hn f f' := by
  have hm1 : RowOrder.movedOpts e (⟨true, D.cluster, none, strict⟩ : LinReg.Opts ι C) = ⟨true, D'.cluster, none, strict⟩ := by rw [h.cluster]; rfl
  have hm2 : RowOrder.movedOpts e (⟨false, none, none, strict⟩ : LinReg.Opts ι C) = ⟨false, none, none, strict⟩ := rfl
  have hsome : D'.cluster.isSome = D.cluster.isSome := by rw [h.cluster]; simp
  unfold regress at hf ⊢
  rw [hsome]
  cases h1 : LinReg.fit L.solvers (⟨true, D.cluster, none, strict⟩ : LinReg.Opts ι C) (L.redundant (matrix D (cols D post r))) (matrix D (cols D post r)) (outcome D)
    (adjustment D.absorb) with
  | error x => rw [h1] at hf; cases hf
  | ok f1 =>
    rw [h1] at hf
    obtain ⟨f1', h1', k1⟩ := one_span hL hP hL' hP' h hn hne r r' hest (⟨true, D.cluster, none, strict⟩ : LinReg.Opts ι C) hk f1 h1
    rw [hm1] at h1'
    rw [h1']
    by_cases hrob : (robust || D.cluster.isSome) = true
    · simp only [hrob, if_true] at hf ⊢
      cases hf
      exact ⟨f1', rfl, k1⟩
    · simp only [hrob, if_false, Bool.false_eq_true] at hf ⊢
      obtain ⟨f2', h2', k2⟩ := one_span hL hP hL' hP' h hn hne r r' hest (⟨false, none, none, strict⟩ : LinReg.Opts ι C) hk f hf
      rw [hm2] at h2'
      exact ⟨f2', h2', k2⟩

theorem average_map (L : DidFit.Lib ι K) (L' : DidFit.Lib ι' K) (hsq : L'.sqrt = L.sqrt) (htD : L'.tD = L.tD) (alpha : K) (df : ℤ) {c c' : ℕ → Option K}
    {v v' : ℕ → ℕ → Option K} {post : List ℤ} {j j' : ℤ → ℕ} (h1 : ∀ p ∈ post, c' (j' p) = c (j p)) (h2 : ∀ p ∈ post, ∀ q ∈ post, v' (j' p) (j' q) = v (j p) (j q)) :
    average L' alpha df c' v' (post.map j') = average L alpha df c v (post.map j) := by
  have e1 : (post.map j').map c' = (post.map j).map c := by
    rw [List.map_map, List.map_map]
    exact List.map_congr_left h1
  have e2 : (post.map j').flatMap (fun i => (post.map j').map (fun k => v' i k)) = (post.map j).flatMap (fun i => (post.map j).map (fun k => v i k)) := by
    rw [List.flatMap_map, List.flatMap_map]
    refine List.flatMap_congr fun p hp => ?_
    rw [List.map_map, List.map_map]
    exact List.map_congr_left fun q hq => h2 p hp q hq
  have hpo : pOf L' = pOf L := by funext df t; unfold pOf; rw [htD]
  have hci : ciOf L' = ciOf L := by funext df a b c; unfold ciOf; rw [htD]
  unfold average
  rw [e1, e2, hsq, hpo, hci, List.length_map, List.length_map]

theorem classify_split {vs : List ℤ} {po : Option (List ℤ)} {rf : Option ℤ} {a b : List ℤ} {x : ℤ} (h : classify vs po rf = .ok (a, b, x)) :
    (a, b) = splitPeriods (allPeriods vs) po := by
  unfold classify at h
  split_ifs at h
  cases hq : reference (allPeriods vs) (splitPeriods (allPeriods vs) po).1 rf with
  | error e => rw [hq] at h; cases h
  | ok q => rw [hq] at h; cases h; rfl

/-- Two data sets with the same controls give the same report. -/
theorem fit_span {L : TwfeFit.Lib ι K} (hL : Works L) (hP : Prunes L) {L' : TwfeFit.Lib ι' K} (hL' : Works L') (hP' : Prunes L') (hsq : L'.sqrt = L.sqrt)
    (htD : L'.tD = L.tD) {e : ι' ≃ ι} {robust strict : Bool} {alpha : K} {D : Data ι C K} {D' : Data ι' C K} (h : SameControls e D D') {pre post pre' post' : List ℤ}
    {r r' : ℤ} (hc : classify (values D.t) D.post D.ref = .ok (pre, post, r)) (hc' : classify (values D'.t) D'.post D'.ref = .ok (pre', post', r')) (hn : post.Nodup)
    (hest : Estimable D post)
    (hk : (extras D').length = (extras D).length ∨ (strict = false ∧ (Set.range D.t).ncard + post.length + 1 + (extras D').length ≤ Fintype.card ι))
    {R : Result K} (hR : fit L robust strict alpha D = .ok R) : fit L' robust strict alpha D' = .ok R := by
  have hval : values D'.t = values D.t := by rw [show D'.t = fun i => D.t (e i) from funext h.t, values_moved]
  have hper : periods D' = periods D := by unfold periods; rw [hval]
  have hpp : (pre', post') = (pre, post) := by
    rw [classify_split hc', classify_split hc, hval, h.post]
  cases hpp
  have hl := length_cols hc
  have hl' := length_cols hc'
  have hrange : (Set.range D'.t).ncard = (Set.range D.t).ncard := by
    congr 1
    ext x
    simp only [Set.mem_range, h.t]
    exact ⟨fun ⟨i, hi⟩ => ⟨e i, hi⟩, fun ⟨i, hi⟩ => ⟨e.symm i, by simpa using hi⟩⟩
  have hne : post ≠ [] := (C76_classification _ _ _ _ _ _ hc).2.2.2.2.1
  obtain ⟨pre1, post1, r1, f, hc1, hf, rfl⟩ := fit_ok hR
  rw [hc] at hc1
  cases hc1
  obtain ⟨f', hf', k1, k2, k3, k4⟩ := regress_span hL hP hL' hP' h hn hne r r' hest (by
    rw [hl, hl', hrange]
    rcases hk with hk | hk
    · left; omega
    · right; exact hk) hf
  unfold fit
  rw [hc']
  dsimp only
  rw [hf']
  refine congrArg Except.ok ?_
  have g1 : ∀ p ∈ post, at1 f' (lastIndex (periods D') post r' p) = at1 f (lastIndex (periods D) post r p) := fun p hp => by
    rw [at1_pos hn hp, at1_pos hn hp, k1]
  have g2 : ∀ p ∈ post, ∀ q ∈ post, at2 f' (lastIndex (periods D') post r' p) (lastIndex (periods D') post r' q) =
      at2 f (lastIndex (periods D) post r p) (lastIndex (periods D) post r q) := fun p hp q hq => by
    rw [at2_pos hn hp hq, at2_pos hn hp hq, k2]
  have havg := average_map L.toLib L'.toLib hsq htD alpha f.df g1 g2
  have hpo : pOf L'.toLib = pOf L.toLib := by funext df t; unfold pOf; rw [htD]
  have hci : ciOf L'.toLib = ciOf L.toLib := by funext df a b c; unfold ciOf; rw [htD]
  have heff : post.reverse.dedup.reverse.map (fun p => effect L'.toLib alpha f.df (at1 f') (at2 f') (lastIndex (periods D') post r' p) p) =
      post.reverse.dedup.reverse.map (fun p => effect L.toLib alpha f.df (at1 f) (at2 f) (lastIndex (periods D) post r p) p) := by
    rw [dedup_nodup hn]
    refine List.map_congr_left fun p hp => ?_
    unfold effect
    rw [g1 p hp, g2 p hp p hp, hpo, hci, hsq]
  have h5 : Vcov.rSquared (outcome D') f'.resid false 0 = Vcov.rSquared (outcome D) f.resid false 0 := by
    rw [show outcome D' = fun i => outcome D (e i) from funext h.outcome, show f'.resid = fun i => f.resid (e i) from funext k4]
    exact RowOrder.rsq_moved e _ _ _ _
  have h6 : (Finset.univ.filter (fun i => D'.d i = true)).card = (Finset.univ.filter (fun i => D.d i = true)).card := by
    simp only [h.d]
    exact RowOrder.card_filter_moved e (fun i => D.d i = true)
  have h7 : (Finset.univ.filter (fun i => D'.d i = false)).card = (Finset.univ.filter (fun i => D.d i = false)).card := by
    simp only [h.d]
    exact RowOrder.card_filter_moved e (fun i => D.d i = false)
  unfold report
  rw [k3]
  simp only [havg, heff, h5, h6, h7, Fintype.card_congr e]

/-! ### Claims -/

/-- C148. The report depends on covariates and fixed effects only through what they control for: two calls whose controls have the same combinations give the same report,
with the rows in any order, any reference period, and whichever redundant columns the rank check drops. -/
theorem C148_same_controls (L : TwfeFit.Lib ι K) (hL : Works L) (hP : Prunes L) (L' : TwfeFit.Lib ι' K) (hL' : Works L') (hP' : Prunes L') (hsq : L'.sqrt = L.sqrt)
    (htD : L'.tD = L.tD) (e : ι' ≃ ι) (robust strict : Bool) (alpha : K) (D : Data ι C K) (D' : Data ι' C K) (h : SameControls e D D') {pre post pre' post' : List ℤ}
    {r r' : ℤ} (hc : classify (values D.t) D.post D.ref = .ok (pre, post, r)) (hc' : classify (values D'.t) D'.post D'.ref = .ok (pre', post', r')) (hn : post.Nodup)
    (hest : Estimable D post)
    (hk : D'.cov.length + (D'.fixed.map (fun g => (Set.range g).ncard - 1)).sum = D.cov.length + (D.fixed.map (fun g => (Set.range g).ncard - 1)).sum ∨
      (strict = false ∧ (Set.range D.t).ncard + post.length + 1 + (D'.cov.length + (D'.fixed.map (fun g => (Set.range g).ncard - 1)).sum) ≤ Fintype.card ι))
    (R : Result K) (hR : fit L robust strict alpha D = .ok R) : fit L' robust strict alpha D' = .ok R := by
  refine fit_span hL hP hL' hP' hsq htD h hc hc' hn hest ?_ hR
  rw [length_extras, length_extras]
  exact hk

theorem controls_moved (e : ι' ≃ ι) {D : Data ι C K} {f : ι → K} (hf : f ∈ controls D) : (fun i => f (e i)) ∈ controls (movedData e D) := by
  rcases hf with rfl | ⟨q, rfl⟩ | ⟨x, hx, rfl⟩ | ⟨g, hg, v, rfl⟩
  · exact Or.inl rfl
  · exact Or.inr (Or.inl ⟨q, rfl⟩)
  · exact Or.inr (Or.inr (Or.inl ⟨_, List.mem_map.2 ⟨x, hx, rfl⟩, (absorbed_moved e D.absorb x).symm⟩))
  · exact Or.inr (Or.inr (Or.inr ⟨_, List.mem_map.2 ⟨g, hg, rfl⟩, v, rfl⟩))

theorem controls_unmoved (e : ι' ≃ ι) {D : Data ι C K} {f : ι' → K} (hf : f ∈ controls (movedData e D)) : (fun i => f (e.symm i)) ∈ controls D := by
  rcases hf with rfl | ⟨q, rfl⟩ | ⟨x, hx, rfl⟩ | ⟨g, hg, v, rfl⟩
  · exact Or.inl (by funext i; simp [movedData])
  · exact Or.inr (Or.inl ⟨q, by funext i; simp [movedData]⟩)
  · obtain ⟨x', hx', rfl⟩ := List.mem_map.1 hx
    refine Or.inr (Or.inr (Or.inl ⟨x', hx', ?_⟩))
    have := absorbed_moved e D.absorb x'
    funext i
    show absorbed (D.absorb.map (fun g i => g (e i))) (fun i => x' (e i)) (e.symm i) = _
    rw [this]
    exact congrArg _ (e.apply_symm_apply i)
  · obtain ⟨g', hg', rfl⟩ := List.mem_map.1 hg
    exact Or.inr (Or.inr (Or.inr ⟨g', hg', v, by funext i; simp⟩))

/-- C148. The report is the same for the rows in any order also if columns are redundant and the rank check drops other ones for the new order. -/
theorem C148_row_order_rank (L : TwfeFit.Lib ι K) (hL : Works L) (hP : Prunes L) (L' : TwfeFit.Lib ι' K) (hL' : Works L') (hP' : Prunes L') (hsq : L'.sqrt = L.sqrt)
    (htD : L'.tD = L.tD) (e : ι' ≃ ι) (robust strict : Bool) (alpha : K) (D : Data ι C K) {pre post : List ℤ} {r : ℤ}
    (hc : classify (values D.t) D.post D.ref = .ok (pre, post, r)) (hn : post.Nodup) (hest : Estimable D post) (R : Result K)
    (hR : fit L robust strict alpha D = .ok R) : fit L' robust strict alpha (movedData e D) = .ok R := by
  have hv : values (movedData e D).t = values D.t := values_moved e D.t
  refine fit_span (e := e) (r' := r) (pre' := pre) (post' := post) hL hP hL' hP' hsq htD ?_ hc (by rw [hv]; exact hc) hn hest
    (Or.inl (by rw [extras_moved, List.length_map])) hR
  exact ⟨fun _ => rfl, fun _ => rfl, rfl, rfl, fun i => congrFun (absorbed_moved e D.absorb D.y) i, adjustment_moved e D.absorb,
    fun f hf => Submodule.subset_span (controls_moved e hf), fun f hf => Submodule.subset_span (controls_unmoved e hf)⟩

/-- C148. Which period serves as reference changes nothing in the report also if columns are redundant. -/
theorem C148_reference_rank (L : TwfeFit.Lib ι K) (hL : Works L) (hP : Prunes L) (robust strict : Bool) (alpha : K) (D : Data ι C K) (ref' : Option ℤ)
    {pre post pre' post' : List ℤ} {r r' : ℤ} (hc : classify (values D.t) D.post D.ref = .ok (pre, post, r))
    (hc' : classify (values D.t) D.post ref' = .ok (pre', post', r')) (hn : post.Nodup) (hest : Estimable D post) (R : Result K)
    (hR : fit L robust strict alpha D = .ok R) : fit L robust strict alpha { D with ref := ref' } = .ok R := by
  refine fit_span (D' := { D with ref := ref' }) (e := Equiv.refl ι) hL hP hL hP rfl rfl ?_ hc hc' hn hest (Or.inl rfl) hR
  exact ⟨fun _ => rfl, fun _ => rfl, by cases h : D.cluster <;> simp, rfl, fun _ => rfl, rfl, fun f hf => Submodule.subset_span hf, fun f hf => Submodule.subset_span hf⟩

theorem dummy_of (g : ι → ℤ) (φ : ℤ → ℤ) (v : ℤ) : (fun i => if φ (g i) = v then (1 : K) else 0) =
    ∑ w ∈ (Finset.univ.image g).filter (fun w => φ w = v), fun i => if g i = w then 1 else 0 := by
  funext i
  rw [Finset.sum_apply, Finset.sum_ite_eq]
  simp

theorem redundant_controls {D : Data ι C K} {g : ι → ℤ}
    (hg : (∃ g0 ∈ D.fixed, ∃ φ : ℤ → ℤ, ∀ i, g i = φ (g0 i)) ∨ (∃ φ : ℤ → ℤ, ∀ i, g i = φ (D.t i)) ∨ ∃ φ : Bool → ℤ, ∀ i, g i = φ (D.d i)) :
    SameControls (Equiv.refl ι) D { D with fixed := g :: D.fixed } := by
  refine ⟨fun _ => rfl, fun _ => rfl, by cases h : D.cluster <;> simp, rfl, fun _ => rfl, rfl, fun f hf => Submodule.subset_span ?_, fun f hf => ?_⟩
  · rcases hf with h | h | h | ⟨g', hg', h⟩
    · exact Or.inl h
    · exact Or.inr (Or.inl h)
    · exact Or.inr (Or.inr (Or.inl h))
    · exact Or.inr (Or.inr (Or.inr ⟨g', List.mem_cons_of_mem _ hg', h⟩))
  · show f ∈ Submodule.span K (controls D)
    rcases hf with h | h | h | ⟨g', hg', v, rfl⟩
    · exact Submodule.subset_span (Or.inl h)
    · exact Submodule.subset_span (Or.inr (Or.inl h))
    · exact Submodule.subset_span (Or.inr (Or.inr (Or.inl h)))
    · rcases List.mem_cons.1 hg' with rfl | hg'
      · rcases hg with ⟨g0, h0, φ, hφ⟩ | ⟨φ, hφ⟩ | ⟨φ, hφ⟩
        · simp only [hφ]
          rw [dummy_of]
          exact Submodule.sum_mem _ fun w _ => Submodule.subset_span (Or.inr (Or.inr (Or.inr ⟨g0, h0, w, rfl⟩)))
        · simp only [hφ]
          rw [dummy_of]
          exact Submodule.sum_mem _ fun w _ => Submodule.subset_span (Or.inr (Or.inl ⟨w, rfl⟩))
        · simp only [hφ]
          have h1 : (fun _ => 1 : ι → K) ∈ Submodule.span K (controls D) := by
            have := dummy_of (K := K) D.t (fun _ => 0) 0
            simp only [if_true] at this
            rw [this]
            exact Submodule.sum_mem _ fun w _ => Submodule.subset_span (Or.inr (Or.inl ⟨w, rfl⟩))
          have h2 : (fun i => if D.d i then 1 else 0 : ι → K) ∈ Submodule.span K (controls D) := Submodule.subset_span (Or.inl rfl)
          have h3 : (fun i => if φ (D.d i) = v then (1 : K) else 0) = (if φ false = v then (1 : K) else 0) • (fun _ => 1 : ι → K) +
              ((if φ true = v then (1 : K) else 0) - (if φ false = v then 1 else 0)) • (fun i => if D.d i then 1 else 0 : ι → K) := by
            funext i
            simp only [Pi.add_apply, Pi.smul_apply, smul_eq_mul]
            cases D.d i <;> simp
          rw [h3]
          exact Submodule.add_mem _ (Submodule.smul_mem _ _ h1) (Submodule.smul_mem _ _ h2)
      · exact Submodule.subset_span (Or.inr (Or.inr (Or.inr ⟨g', hg', v, rfl⟩)))

/-- C148. A fixed-effect column that is a function of another one (a region, for units), of the period or of the group changes nothing in the report, if the option is not
to stop at redundant columns and the columns do not outnumber the rows. -/
theorem C148_redundant_fixed (L : TwfeFit.Lib ι K) (hL : Works L) (hP : Prunes L) (robust : Bool) (alpha : K) (D : Data ι C K) (g : ι → ℤ)
    (hg : (∃ g0 ∈ D.fixed, ∃ φ : ℤ → ℤ, ∀ i, g i = φ (g0 i)) ∨ (∃ φ : ℤ → ℤ, ∀ i, g i = φ (D.t i)) ∨ ∃ φ : Bool → ℤ, ∀ i, g i = φ (D.d i))
    {pre post : List ℤ} {r : ℤ} (hc : classify (values D.t) D.post D.ref = .ok (pre, post, r)) (hn : post.Nodup) (hest : Estimable D post)
    (hk : (Set.range D.t).ncard + post.length + 1 + (D.cov.length + (((g :: D.fixed).map (fun g => (Set.range g).ncard - 1)).sum)) ≤ Fintype.card ι) (R : Result K)
    (hR : fit L robust false alpha D = .ok R) : fit L robust false alpha { D with fixed := g :: D.fixed } = .ok R := by
  refine fit_span (D' := { D with fixed := g :: D.fixed }) (e := Equiv.refl ι) (r' := r) (pre' := pre) (post' := post) hL hP hL hP rfl rfl (redundant_controls hg) hc hc hn hest
    (Or.inr ⟨rfl, by rw [length_extras]; exact hk⟩) hR

/-! ### Controls added to the outcome -/

/-- The numbers of the regression after adding controls and an effect. -/
def Raised {D : Data ι C K} {post : List ℤ} {r : ℤ} (hn : post.Nodup) (τ : ℤ → K) (f f' : LinReg.Fit ι (cols D post r).length K) : Prop :=
  (∀ p hp, ∃ x, f.coef (pos D r hn p hp) = some x ∧ f'.coef (pos D r hn p hp) = some (x + τ p)) ∧
  (∀ p hp q hq, f'.vcov (pos D r hn p hp, pos D r hn q hq) = f.vcov (pos D r hn p hp, pos D r hn q hq)) ∧ f'.df = f.df

theorem one_raised {L : TwfeFit.Lib ι K} (hL : Works L) (hP : Prunes L) {D : Data ι C K} {post : List ℤ} (hn : post.Nodup) (hne : post ≠ []) (r : ℤ)
    (hest : Estimable D post) (o : LinReg.Opts ι C) {τ : ℤ → K} {g : ι → K} (hg : g ∈ Submodule.span K (controls D)) {y' : ι → K}
    (hy : ∀ i, y' i = outcome D i + (g i + effectOn D post τ i)) (f : LinReg.Fit ι (cols D post r).length K)
    (hf : LinReg.fit L.solvers o (L.redundant (matrix D (cols D post r))) (matrix D (cols D post r)) (outcome D) (adjustment D.absorb) = .ok f) :
    ∃ f', LinReg.fit L.solvers o (L.redundant (matrix D (cols D post r))) (matrix D (cols D post r)) y' (adjustment D.absorb) = .ok f' ∧ Raised (D := D) hn τ f f' := by
  obtain ⟨p0, hp0⟩ := List.exists_mem_of_ne_nil post hne
  have ho : RowOrder.movedOpts (Equiv.refl ι) o = o := by
    cases o with
    | mk rb own call st => cases call <;> cases own <;> rfl
  obtain ⟨f', hf'⟩ := LinReg.C124_same_runs L.solvers hL.solves L.solvers hL.solves o (Equiv.refl ι) _ _ (matrix D (cols D post r)) (matrix D (cols D post r)) (hP _) (hP _)
    (pos D r hn p0 hp0) (pos D r hn p0 hp0) ⟨fun v => ⟨v, rfl, fun _ => rfl⟩, fun v => ⟨v, rfl, fun _ => rfl⟩⟩ (estimable_identified hn r hest hp0) (Or.inl rfl)
    (outcome D) y' (adjustment D.absorb) (adjustment D.absorb) f hf
  rw [ho] at hf'
  refine ⟨f', hf', ?_⟩
  obtain ⟨δ, h1, h2⟩ := reach_vector hn ((reach_controls (r := r) hn hg).add (reach_inter (D := D) (r := r) hn τ))
  have hyy : y' = fun i => 1 * outcome D i + ∑ m, matrix D (cols D post r) i m * δ m := by
    funext i
    rw [h2, hy, one_mul]
    rfl
  rw [hyy] at hf'
  have key := fun p hp => LinReg.C124_outcome_rank L.solvers hL.solves o _ (matrix D (cols D post r)) (hP _) (pos D r hn p hp) (estimable_identified hn r hest hp)
    (outcome D) (adjustment D.absorb) 1 δ f f' hf hf'
  refine ⟨fun p hp => ?_, fun p hp q hq => ?_, (key p0 hp0).2.2.1⟩
  · obtain ⟨v, w, b, -, -, hb, -⟩ := LinReg.C124_identified L.solvers hL.solves o _ (matrix D (cols D post r)) (hP _) (outcome D) (adjustment D.absorb) f hf
      (pos D r hn p hp) (estimable_identified hn r hest hp)
    refine ⟨_, hb, ?_⟩
    rw [(key p hp).1, hb, h1, zero_add]
    exact congrArg some (by ring)
  · rw [LinReg.C124_pair_outcome L.solvers hL.solves o _ (matrix D (cols D post r)) (hP _) (pos D r hn p hp) (pos D r hn q hq) (estimable_identified hn r hest hp)
      (estimable_identified hn r hest hq) (outcome D) (adjustment D.absorb) 1 δ f f' hf hf']
    cases f.vcov (pos D r hn p hp, pos D r hn q hq) with
    | none => rfl
    | some x => exact congrArg some (show 1 ^ 2 * x = x by ring)

theorem regress_raised {L : TwfeFit.Lib ι K} (hL : Works L) (hP : Prunes L) {D : Data ι C K} {post : List ℤ} (hn : post.Nodup) (hne : post ≠ []) (r : ℤ)
    (hest : Estimable D post) {robust strict : Bool} {τ : ℤ → K} {g : ι → K} (hg : g ∈ Submodule.span K (controls D)) {y : ι → K}
    (hy : ∀ i, outcome (D.withY y) i = outcome D i + (g i + effectOn D post τ i)) {f : LinReg.Fit ι (cols D post r).length K}
    (hf : regress L robust strict D (cols D post r) = .ok f) :
    ∃ f' : LinReg.Fit ι (cols D post r).length K, regress L robust strict (D.withY y) (cols D post r) = .ok f' ∧ Raised (D := D) hn τ f f' := by
  have hm : matrix (D.withY y) (cols D post r) = matrix D (cols D post r) := rfl
  unfold regress at hf ⊢
  rw [hm]
  dsimp only [Data.withY] at hy ⊢
  cases h1 : LinReg.fit L.solvers (⟨true, D.cluster, none, strict⟩ : LinReg.Opts ι C) (L.redundant (matrix D (cols D post r))) (matrix D (cols D post r)) (outcome D)
    (adjustment D.absorb) with
  | error x => rw [h1] at hf; cases hf
  | ok f1 =>
    rw [h1] at hf
    obtain ⟨f1', h1', k1⟩ := one_raised hL hP hn hne r hest (⟨true, D.cluster, none, strict⟩ : LinReg.Opts ι C) hg hy f1 h1
    rw [h1']
    by_cases hrob : (robust || D.cluster.isSome) = true
    · simp only [hrob, if_true] at hf ⊢
      cases hf
      exact ⟨f1', rfl, k1⟩
    · simp only [hrob, if_false, Bool.false_eq_true] at hf ⊢
      obtain ⟨f2', h2', k2⟩ := one_raised hL hP hn hne r hest (⟨false, none, none, strict⟩ : LinReg.Opts ι C) hg hy f hf
      exact ⟨f2', h2', k2⟩

theorem fit_of {L : TwfeFit.Lib ι K} {robust strict : Bool} {alpha : K} {D : Data ι C K} {pre post : List ℤ} {r : ℤ}
    (hc : classify (values D.t) D.post D.ref = .ok (pre, post, r)) {f : LinReg.Fit ι (cols D post r).length K}
    (hf : regress L robust strict D (cols D post r) = .ok f) :
    fit L robust strict alpha D = .ok (report L.toLib alpha D pre post r (at1 f) (at2 f) f.df f.resid) := by
  unfold fit
  rw [hc]
  dsimp only
  rw [hf]

theorem average_att {L : DidFit.Lib ι K} {alpha : K} {df : ℤ} {c : ℕ → Option K} {v : ℕ → ℕ → Option K} {post : List ℤ} {j : ℤ → ℕ} {x : ℤ → K}
    (h : ∀ p ∈ post, c (j p) = some (x p)) : (average L alpha df c v (post.map j)).1 = .fin ((post.map x).sum / (post.length : K)) := by
  have e : allSome ((post.map j).map c) = some (post.map x) := by
    rw [List.map_map]
    exact allSome_map _ _ _ h
  unfold average
  rw [e]
  dsimp only
  cases allSome ((post.map j).flatMap (fun i => (post.map j).map (fun k => v i k))) with
  | none => simp
  | some vs =>
    dsimp only
    split_ifs <;> simp

theorem average_se {L : DidFit.Lib ι K} {alpha : K} {df : ℤ} {c c' : ℕ → Option K} {v v' : ℕ → ℕ → Option K} {post : List ℤ} {j : ℤ → ℕ} {x x' : ℤ → K}
    (h : ∀ p ∈ post, c (j p) = some (x p)) (h' : ∀ p ∈ post, c' (j p) = some (x' p)) (hv : ∀ p ∈ post, ∀ q ∈ post, v' (j p) (j q) = v (j p) (j q)) :
    (average L alpha df c' v' (post.map j)).2.1 = (average L alpha df c v (post.map j)).2.1 := by
  have e : allSome ((post.map j).map c) = some (post.map x) := by
    rw [List.map_map]
    exact allSome_map _ _ _ h
  have e' : allSome ((post.map j).map c') = some (post.map x') := by
    rw [List.map_map]
    exact allSome_map _ _ _ h'
  have e2 : (post.map j).flatMap (fun i => (post.map j).map (fun k => v' i k)) = (post.map j).flatMap (fun i => (post.map j).map (fun k => v i k)) := by
    rw [List.flatMap_map, List.flatMap_map]
    refine List.flatMap_congr fun p hp => ?_
    rw [List.map_map, List.map_map]
    exact List.map_congr_left fun q hq => hv p hp q hq
  unfold average
  rw [e, e', e2]
  dsimp only
  cases allSome ((post.map j).flatMap (fun i => (post.map j).map (fun k => v i k))) with
  | none => rfl
  | some vs =>
    dsimp only
    split_ifs <;> rfl

/-- C148. Controls and effects, redundant columns allowed (for instance dummies of every unit): adding to the outcome any combination of the controls and an effect on the
treated rows of the post periods raises the effects by that effect and leaves the standard errors; without an effect only the R squared changes. -/
theorem C148_controls_rank (L : TwfeFit.Lib ι K) (hL : Works L) (hP : Prunes L) (robust strict : Bool) (alpha : K) (D : Data ι C K) (hab : D.absorb = []) (R : Result K)
    (h : fit L robust strict alpha D = .ok R) {pre post : List ℤ} {r : ℤ} (hc : classify (values D.t) D.post D.ref = .ok (pre, post, r)) (hn : post.Nodup)
    (hest : Estimable D post) (g : ι → K) (hg : g ∈ Submodule.span K (controls D)) (τ : ℤ → K) (y : ι → K) (hy : ∀ i, y i = D.y i + (g i + effectOn D post τ i)) :
    ∃ R', fit L robust strict alpha { D with y := y } = .ok R' ∧
      List.Forall₂ (fun e e' => e'.period = e.period ∧ e'.se = e.se ∧ ∃ x, e.effect = .fin x ∧ e'.effect = .fin (x + τ e.period)) R.effects R'.effects ∧
      R'.se = R.se ∧ (∃ x, R.att = .fin x ∧ R'.att = .fin (x + (post.map τ).sum / (post.length : K))) ∧
      ((∀ p, τ p = 0) → ∃ r2, R' = { R with r2 := r2 }) := by
  have hne : post ≠ [] := (C76_classification _ _ _ _ _ _ hc).2.2.2.2.1
  obtain ⟨pre1, post1, r1, f, hc1, hf, rfl⟩ := fit_ok h
  rw [hc] at hc1
  cases hc1
  have e1 : outcome D = D.y := by unfold outcome absorbed; rw [hab]; rfl
  have e2 : outcome (D.withY y) = y := by unfold outcome absorbed; simp only [hab]; rfl
  obtain ⟨f', hf', k1, k2, k3⟩ := regress_raised hL hP hn hne r hest hg (y := y) (τ := τ) (fun i => by rw [e1, e2, hy]) hf
  choose x hx hx' using k1
  have hf'' : regress L robust strict (D.withY y) (cols (D.withY y) post r) = .ok f' := hf'
  have hc'' : classify (values (D.withY y).t) (D.withY y).post (D.withY y).ref = .ok (pre, post, r) := hc
  have c1 : ∀ p ∈ post, at1 f (lastIndex (periods D) post r p) = some (if hp : p ∈ post then x p hp else 0) := fun p hp => by
    rw [at1_pos hn hp, hx p hp, dif_pos hp]
  have c2 : ∀ p ∈ post, at1 f' (lastIndex (periods D) post r p) = some ((if hp : p ∈ post then x p hp else 0) + τ p) := fun p hp => by
    rw [at1_pos hn hp, hx' p hp, dif_pos hp]
  have c3 : ∀ p ∈ post, ∀ q ∈ post, at2 f' (lastIndex (periods D) post r p) (lastIndex (periods D) post r q) =
      at2 f (lastIndex (periods D) post r p) (lastIndex (periods D) post r q) := fun p hp q hq => by
    rw [at2_pos hn hp hq, at2_pos hn hp hq, k2]
  refine ⟨report L.toLib alpha (D.withY y) pre post r (at1 f') (at2 f') f'.df f'.resid, ?_, ?_, ?_, ?_, fun h0 => ?_⟩
  · exact fit_of hc'' hf''
  · show List.Forall₂ _ (post.reverse.dedup.reverse.map _) (post.reverse.dedup.reverse.map _)
    rw [dedup_nodup hn, List.forall₂_map_left_iff, List.forall₂_map_right_iff]
    refine List.forall₂_same.2 fun p hp => ⟨rfl, ?_, (if hp : p ∈ post then x p hp else 0), ?_, ?_⟩
    · show root L.sqrt (at2 f' (lastIndex (periods D) post r p) (lastIndex (periods D) post r p)) = root L.sqrt (at2 f _ _)
      rw [c3 p hp p hp]
    · exact congrArg LinReg.toExt (c1 p hp)
    · exact congrArg LinReg.toExt (c2 p hp)
  · show (average L.toLib alpha f'.df (at1 f') (at2 f') (post.map (lastIndex (periods D) post r))).2.1 = (average L.toLib alpha f.df (at1 f) (at2 f) _).2.1
    rw [k3]
    exact average_se c1 c2 c3
  · refine ⟨_, average_att c1, ?_⟩
    show (average L.toLib alpha f'.df (at1 f') (at2 f') (post.map (lastIndex (periods D) post r))).1 = _
    rw [average_att c2, List.sum_map_add, add_div]
  · refine ⟨Vcov.rSquared (outcome (D.withY y)) f'.resid false 0, ?_⟩
    have g1 : ∀ p ∈ post, at1 f' (lastIndex (periods D) post r p) = at1 f (lastIndex (periods D) post r p) := fun p hp => by
      rw [c1 p hp, c2 p hp, h0, add_zero]
    have havg := average_map L.toLib L.toLib rfl rfl alpha f.df g1 c3
    have heff : post.reverse.dedup.reverse.map (fun p => effect L.toLib alpha f.df (at1 f') (at2 f') (lastIndex (periods D) post r p) p) =
        post.reverse.dedup.reverse.map (fun p => effect L.toLib alpha f.df (at1 f) (at2 f) (lastIndex (periods D) post r p) p) := by
      rw [dedup_nodup hn]
      refine List.map_congr_left fun p hp => ?_
      unfold effect
      rw [g1 p hp, c3 p hp p hp]
    unfold report
    rw [k3]
    dsimp only [Data.withY]
    rw [show periods { D with y := y } = periods D from rfl, havg, heff]

/-- C148. Exact recovery, redundant columns allowed: if the outcome is a combination of the controls plus an effect on the treated rows of the post periods, the effects
reported are that effect, period by period and on average. -/
theorem C148_recovers_rank (L : TwfeFit.Lib ι K) (hL : Works L) (hP : Prunes L) (robust strict : Bool) (alpha : K) (D : Data ι C K) (hab : D.absorb = []) (R : Result K)
    (h : fit L robust strict alpha D = .ok R) {pre post : List ℤ} {r : ℤ} (hc : classify (values D.t) D.post D.ref = .ok (pre, post, r)) (hn : post.Nodup)
    (hest : Estimable D post) (g : ι → K) (hg : g ∈ Submodule.span K (controls D)) (τ : ℤ → K) (hy : ∀ i, D.y i = g i + effectOn D post τ i) :
    (∀ e ∈ R.effects, e.effect = .fin (τ e.period)) ∧ R.effects.map Effect.period = post ∧ R.att = .fin ((post.map τ).sum / (post.length : K)) := by
  have hne : post ≠ [] := (C76_classification _ _ _ _ _ _ hc).2.2.2.2.1
  obtain ⟨pre1, post1, r1, f, hc1, hf, rfl⟩ := fit_ok h
  rw [hc] at hc1
  cases hc1
  have e1 : outcome D = D.y := by unfold outcome absorbed; rw [hab]; rfl
  obtain ⟨δ, h1, h2⟩ := reach_vector hn ((reach_controls (r := r) hn hg).add (reach_inter (D := D) (r := r) hn τ))
  have key : ∀ (o : LinReg.Opts ι C) (f : LinReg.Fit ι (cols D post r).length K), LinReg.fit L.solvers o (L.redundant (matrix D (cols D post r)))
      (matrix D (cols D post r)) (outcome D) (adjustment D.absorb) = .ok f → ∀ p hp, f.coef (pos D r hn p hp) = some (τ p) := by
    intro o f hf p hp
    have hyy : outcome D = fun i => 0 * outcome D i + ∑ m, matrix D (cols D post r) i m * δ m := by
      funext i
      rw [h2, zero_mul, zero_add, e1, hy]
      rfl
    have hf' : LinReg.fit L.solvers o (L.redundant (matrix D (cols D post r))) (matrix D (cols D post r))
        (fun i => 0 * outcome D i + ∑ m, matrix D (cols D post r) i m * δ m) (adjustment D.absorb) = .ok f := by rw [← hyy]; exact hf
    have := (LinReg.C124_outcome_rank L.solvers hL.solves o _ (matrix D (cols D post r)) (hP _) (pos D r hn p hp) (estimable_identified hn r hest hp)
      (outcome D) (adjustment D.absorb) 0 δ f f hf hf').1
    obtain ⟨v, w, b, -, -, hb, -⟩ := LinReg.C124_identified L.solvers hL.solves o _ (matrix D (cols D post r)) (hP _) (outcome D) (adjustment D.absorb) f hf
      (pos D r hn p hp) (estimable_identified hn r hest hp)
    rw [hb] at this
    rw [hb, this, h1, zero_add]
    exact congrArg some (by ring)
  have hcoef : ∀ p hp, f.coef (pos D r hn p hp) = some (τ p) := by
    unfold regress at hf
    cases h1 : LinReg.fit L.solvers (⟨true, D.cluster, none, strict⟩ : LinReg.Opts ι C) (L.redundant (matrix D (cols D post r))) (matrix D (cols D post r)) (outcome D)
      (adjustment D.absorb) with
    | error x => rw [h1] at hf; cases hf
    | ok f1 =>
      rw [h1] at hf
      by_cases hrob : (robust || D.cluster.isSome) = true
      · simp only [hrob, if_true] at hf
        cases hf
        exact key _ f h1
      · simp only [hrob, if_false, Bool.false_eq_true] at hf
        exact key _ f hf
  have c1 : ∀ p ∈ post, at1 f (lastIndex (periods D) post r p) = some (τ p) := fun p hp => by rw [at1_pos hn hp, hcoef p hp]
  refine ⟨fun e he => ?_, ?_, average_att c1⟩
  · have he : e ∈ post.reverse.dedup.reverse.map (fun p => effect L.toLib alpha f.df (at1 f) (at2 f) (lastIndex (periods D) post r p) p) := he
    rw [dedup_nodup hn] at he
    obtain ⟨p, hp, rfl⟩ := List.mem_map.1 he
    exact congrArg LinReg.toExt (c1 p hp)
  · show (post.reverse.dedup.reverse.map _).map Effect.period = post
    rw [dedup_nodup hn, List.map_map]
    exact (List.map_congr_left fun p _ => rfl).trans (List.map_id post)

/-! ### Cases -/

theorem identified_of_det {k : ℕ} {X : Matrix ι (Fin k) K} (h : (Xᵀ * X).det ≠ 0) (j : Fin k) : Identified X j := by
  intro a ha hc
  have hz : X *ᵥ (fun m => (if m = j then 1 else 0) - a m) = 0 := by
    funext i
    show ∑ m, X i m * ((if m = j then 1 else 0) - a m) = 0
    have e : ∑ m, X i m * ((if m = j then 1 else 0) - a m) = ∑ m, X i m * (if m = j then 1 else 0) - ∑ m, X i m * a m := by
      rw [← Finset.sum_sub_distrib]
      exact Finset.sum_congr rfl fun m _ => by ring
    rw [e, LinReg.sum_unit, ← hc i, sub_self]
  have h0 : (Xᵀ * X) *ᵥ (fun m => (if m = j then 1 else 0) - a m) = 0 := by rw [← Matrix.mulVec_mulVec, hz, Matrix.mulVec_zero]
  have := congrFun (Matrix.eq_zero_of_mulVec_eq_zero h h0) j
  simp [ha] at this

/-- C148. Columns of full rank: the effects are estimable. -/
theorem C148_estimable_full (D : Data ι C K) (post : List ℤ) (hn : post.Nodup) (r : ℤ)
    (h : ((matrix D (cols D post r))ᵀ * matrix D (cols D post r)).det ≠ 0) : Estimable D post :=
  identified_estimable hn r fun _ _ => identified_of_det h _

/-- The group as a fixed-effect column. -/
def groupColumn : Cell → ℤ := fun i => if i.1 then 1 else 0

/-- The study with the group as a further fixed-effect column. -/
noncomputable def grouped : Data Cell ℕ ℝ := { controlled with fixed := groupColumn :: controlled.fixed }

/-- The group once more, as a fixed-effect column: the report is that without the column, also for another reference period and for the rows in another order; a jump between
the groups and an effect of 5 and 6 added to the outcome raise the effects by 5 and 6. -/
example : ∃ (L : TwfeFit.Lib Cell ℝ) (R : Result ℝ), Works L ∧ Prunes L ∧ fit L true false (1 / 20) controlled = .ok R ∧
    fit L true false (1 / 20) grouped = .ok R ∧
    fit L true false (1 / 20) { grouped with ref := some 2 } = .ok R ∧
    fit L true false (1 / 20) (movedData (Equiv.prodCongr (Equiv.swap false true) (Equiv.refl _)) grouped) = .ok R ∧
    ∃ R', fit L true false (1 / 20) { grouped with
      y := fun i => grouped.y i + (((9 : ℝ) • fun i : Cell => if groupColumn i = 1 then (1 : ℝ) else 0) i +
        effectOn grouped [1, 2] (fun p => if p = 1 then 5 else 6) i) } = .ok R' ∧
      List.Forall₂ (fun e e' => e'.period = e.period ∧ e'.se = e.se ∧ ∃ x, e.effect = .fin x ∧ e'.effect = .fin (x + if e.period = 1 then 5 else 6)) R.effects R'.effects := by
  obtain ⟨L, hL, hP⟩ := LinReg.exists_prunes (ι := Cell)
  obtain ⟨hc, hc2⟩ := study_classify 1
  have hcc : classify (values controlled.t) controlled.post controlled.ref = .ok ([0], [1, 2], 0) := hc
  have hnd : ([1, 2] : List ℤ).Nodup := by decide
  have e1 : (Set.range controlled.t).ncard = 3 := study_range 1 none
  have e2 : (Set.range (fun i : Cell => if i = (true, 2, true) then (7 : ℤ) else 4)).ncard = 2 := by
    have : Set.range (fun i : Cell => if i = (true, 2, true) then (7 : ℤ) else 4) = (({4, 7} : Finset ℤ) : Set ℤ) := by
      ext p
      have := (mem_values (g := fun i : Cell => if i = (true, 2, true) then (7 : ℤ) else 4) (p := p)).symm
      rw [controlled_values] at this
      simpa using this
    rw [this, Set.ncard_coe_finset]
    rfl
  have e4 : (Set.range groupColumn).ncard = 2 := by
    have : Set.range groupColumn = (({0, 1} : Finset ℤ) : Set ℤ) := by
      ext p
      simp only [Set.mem_range, Finset.coe_insert, Finset.coe_singleton, Set.mem_insert_iff, Set.mem_singleton_iff]
      constructor
      · rintro ⟨⟨a, q, b⟩, rfl⟩
        cases a <;> simp [groupColumn]
      · rintro (rfl | rfl)
        · exact ⟨(false, 0, false), rfl⟩
        · exact ⟨(true, 0, false), rfl⟩
    rw [this, Set.ncard_coe_finset]
    rfl
  have e3 : (controlled.fixed.map (fun g => (Set.range g).ncard - 1)).sum = 1 := by
    show ([fun i : Cell => if i = (true, 2, true) then (7 : ℤ) else 4].map (fun g => (Set.range g).ncard - 1)).sum = 1
    simp only [List.map_cons, List.map_nil, List.sum_cons, List.sum_nil, e2, Nat.add_zero, Nat.reduceSub]
  obtain ⟨R, hR⟩ := (C148_runs_full L hL true false (1 / 20) controlled hcc controlled_rank).2 ⟨by
    rw [e1, e3]
    show 3 + 2 + 1 + (1 + 1) < Fintype.card Cell
    decide, fun g hg => by cases hg⟩
  have hest := C148_estimable_full controlled [1, 2] hnd 0 controlled_rank
  have hR' := C148_redundant_fixed L hL hP true (1 / 20) controlled groupColumn (Or.inr (Or.inr ⟨fun b => if b then 1 else 0, fun i => rfl⟩)) hcc hnd hest (by
    rw [e1, List.map_cons, List.sum_cons, e3, e4]
    show 3 + 2 + 1 + (1 + (2 - 1 + 1)) ≤ Fintype.card Cell
    decide) R hR
  have hest' : Estimable grouped [1, 2] :=
    (redundant_controls (D := controlled) (g := groupColumn) (Or.inr (Or.inr ⟨fun b => if b then 1 else 0, fun i => rfl⟩))).estimable hest
  obtain ⟨R', k1, k2, -⟩ := C148_controls_rank L hL hP true false (1 / 20) grouped rfl R hR' hcc hnd hest'
    ((9 : ℝ) • fun i : Cell => if groupColumn i = 1 then (1 : ℝ) else 0)
    (Submodule.smul_mem _ _ (Submodule.subset_span (Or.inr (Or.inr (Or.inr ⟨groupColumn, List.mem_cons_self, 1, rfl⟩))))) (fun p => if p = 1 then 5 else 6) _ (fun i => rfl)
  exact ⟨L, R, hL, hP, hR, hR', C148_reference_rank L hL hP true false (1 / 20) grouped (some 2) hcc hc2 hnd hest' R hR',
    C148_row_order_rank L hL hP L hL hP rfl rfl _ true false (1 / 20) grouped hcc hnd hest' R hR', R', k1, k2⟩

/-- C148_recovers_rank: the outcome of that study is an effect of 5 plus the covariate less 2. -/
example (L : TwfeFit.Lib Cell ℝ) (hL : Works L) (hP : Prunes L) (R : Result ℝ) (hR : fit L true false (1 / 20) grouped = .ok R) (hest : Estimable grouped [1, 2]) :
    (∀ e ∈ R.effects, e.effect = .fin 5) ∧ R.effects.map Effect.period = [1, 2] ∧ R.att = .fin ((([1, 2] : List ℤ).map (fun _ => (5 : ℝ))).sum / (2 : ℕ)) := by
  have h1 : (fun _ => 1 : Cell → ℝ) ∈ Submodule.span ℝ (controls grouped) := by
    have := dummy_of (K := ℝ) grouped.t (fun _ => 0) 0
    simp only [if_true] at this
    rw [this]
    exact Submodule.sum_mem _ fun w _ => Submodule.subset_span (Or.inr (Or.inl ⟨w, rfl⟩))
  have h2 : (fun i => if i.2.2 then 3 else 1 : Cell → ℝ) ∈ Submodule.span ℝ (controls grouped) :=
    Submodule.subset_span (Or.inr (Or.inr (Or.inl ⟨_, List.mem_cons_self, rfl⟩)))
  refine C148_recovers_rank L hL hP true false (1 / 20) grouped rfl R hR (pre := [0]) (r := 0) (study_classify 1).1 (by decide) hest _
    (Submodule.add_mem _ h2 (Submodule.smul_mem _ (-2) h1)) (fun _ => 5) fun i => ?_
  obtain ⟨a, q, b⟩ := i
  show (if a = true ∧ q ≠ 0 then (5 : ℝ) else 0) + (if b then 1 else -1) = ((if b then 3 else 1) + (-2) * 1) + if a = true ∧ ((q : ℕ) : ℤ) ∈ ([1, 2] : List ℤ) then 5 else 0
  cases a <;> fin_cases q <;> cases b <;> norm_num

end DiffDiff.MultiFit
