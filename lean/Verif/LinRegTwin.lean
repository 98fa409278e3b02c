/-
Property C155, regression part: designs with the same combinations of columns in which the coefficient of interest has the opposite sign.
-/
import Verif.LinRegSpan

set_option linter.unusedSectionVars false
set_option linter.unusedVariables false

namespace DiffDiff.LinReg
open Matrix Vcov
open Ols (IsOls resid fitted dot keptCols reduce)
open DidFit (Isolates)

variable {K : Type*} [Field K] [LinearOrder K] [IsStrictOrderedRing K]
variable {ι C : Type*} [Fintype ι] [DecidableEq ι] [DecidableEq C]

/-- Both designs have the same combinations of columns; the coefficient of interest is multiplied by `s`. -/
structure TwinSpan (s : K) {k k' : ℕ} (X : Matrix ι (Fin k) K) (j : Fin k) (X' : Matrix ι (Fin k') K) (j' : Fin k') : Prop where
  sq : s * s = 1
  forth : ∀ v : Fin k → K, ∃ v' : Fin k' → K, v' j' = s * v j ∧ ∀ i, ∑ m, X' i m * v' m = ∑ m, X i m * v m
  back : ∀ v' : Fin k' → K, ∃ v : Fin k → K, v j = s * v' j' ∧ ∀ i, ∑ m, X' i m * v' m = ∑ m, X i m * v m

/-- The design with the column of interest multiplied by `s`. -/
def signed (s : K) {k : ℕ} (X : Matrix ι (Fin k) K) (j : Fin k) : Matrix ι (Fin k) K := fun i m => if m = j then s * X i m else X i m

theorem signed_sum (s : K) (hs : s * s = 1) {k : ℕ} (X : Matrix ι (Fin k) K) (j : Fin k) (v : Fin k → K) (i : ι) :
    ∑ m, signed s X j i m * (if m = j then s * v m else v m) = ∑ m, X i m * v m := by
  refine Finset.sum_congr rfl fun m _ => ?_
  unfold signed
  split_ifs
  · linear_combination (X i m * v m) * hs
  · rfl

theorem TwinSpan.same {s : K} {k k' : ℕ} {X : Matrix ι (Fin k) K} {j : Fin k} {X' : Matrix ι (Fin k') K} {j' : Fin k'} (h : TwinSpan s X j X' j') :
    SameSpan (Equiv.refl ι) (signed s X j) j X' j' := by
  have tw : ∀ v : Fin k → K, (fun m => if m = j then s * (if m = j then s * v m else v m) else (if m = j then s * v m else v m)) = v := by
    intro v
    funext m
    split_ifs
    · rw [← mul_assoc, h.sq, one_mul]
    · rfl
  refine ⟨fun v => ?_, fun v' => ?_⟩
  · obtain ⟨v', h1, h2⟩ := h.forth (fun m => if m = j then s * v m else v m)
    refine ⟨v', ?_, fun i => ?_⟩
    · rw [h1, if_pos rfl, ← mul_assoc, h.sq, one_mul]
    · rw [h2, ← signed_sum s h.sq X j _ i]
      have := congrFun (tw v)
      exact Finset.sum_congr rfl fun m _ => by rw [this m]; rfl
  · obtain ⟨v, h1, h2⟩ := h.back v'
    refine ⟨fun m => if m = j then s * v m else v m, ?_, fun i => ?_⟩
    · show (if j = j then s * v j else v j) = v' j'
      rw [if_pos rfl, h1, ← mul_assoc, h.sq, one_mul]
    · rw [h2]; exact (signed_sum s h.sq X j v i).symm

theorem TwinSpan.rank {s : K} {k k' : ℕ} {X : Matrix ι (Fin k) K} {j : Fin k} {X' : Matrix ι (Fin k') K} {j' : Fin k'} (h : TwinSpan s X j X' j') :
    X'.rank = X.rank := by
  unfold Matrix.rank
  have : LinearMap.range X'.mulVecLin = LinearMap.range X.mulVecLin := by
    ext f
    constructor
    · rintro ⟨v', rfl⟩
      obtain ⟨v, -, h2⟩ := h.back v'
      exact ⟨v, funext fun i => (h2 i).symm⟩
    · rintro ⟨v, rfl⟩
      obtain ⟨v', -, h2⟩ := h.forth v
      exact ⟨v', funext h2⟩
  rw [this]

theorem identified_signed {s : K} (hs : s * s = 1) {k : ℕ} {X : Matrix ι (Fin k) K} {j : Fin k} (hj : Identified X j) : Identified (signed s X j) j := by
  intro a ha hc
  refine hj (fun m => s * a m) (by simp [ha]) fun i => ?_
  have e := hc i
  have e2 : ∑ m, signed s X j i m * a m = ∑ m, X i m * a m := Finset.sum_congr rfl fun m _ => by
    unfold signed
    split_ifs with hm
    · rw [hm, ha]; ring
    · rfl
  rw [e2] at e
  have e3 : ∑ m, X i m * (s * a m) = s * ∑ m, X i m * a m := by rw [Finset.mul_sum]; exact Finset.sum_congr rfl fun m _ => by ring
  rw [e3, ← e]
  unfold signed
  rw [if_pos rfl, ← mul_assoc, hs, one_mul]

theorem TwinSpan.identified {s : K} {k k' : ℕ} {X : Matrix ι (Fin k) K} {j : Fin k} {X' : Matrix ι (Fin k') K} {j' : Fin k'} (h : TwinSpan s X j X' j')
    (hj : Identified X j) : Identified X' j' := h.same.identified (identified_signed h.sq hj)

theorem isolates_signed {s : K} (hs : s * s = 1) {k : ℕ} {X : Matrix ι (Fin k) K} {j : Fin k} {v : Fin k → K} {w : ι → K} (H : Isolates X j v w) :
    Isolates (signed s X j) j (fun m => s * if m = j then s * v m else v m) (fun i => s * w i) := by
  refine ⟨fun i => ?_, fun m => ?_⟩
  · rw [H.comb, ← signed_sum s hs X j v i, Finset.mul_sum]
    exact Finset.sum_congr rfl fun m _ => by ring
  · have := H.unit m
    unfold signed
    split_ifs with hm
    · rw [if_pos hm] at this
      rw [← this]
      exact Finset.sum_congr rfl fun i _ => by linear_combination (X i m * w i) * hs
    · rw [if_neg hm] at this
      have e : ∑ i, X i m * (s * w i) = s * ∑ i, X i m * w i := by rw [Finset.mul_sum]; exact Finset.sum_congr rfl fun i _ => by ring
      rw [e, this, mul_zero]

theorem isOls_signed {s : K} (hs : s * s = 1) {k : ℕ} {X : Matrix ι (Fin k) K} {j : Fin k} {y : ι → K} {b : Fin k → K} (hb : IsOls X y b) :
    IsOls (signed s X j) y (fun m => if m = j then s * b m else b m) ∧ ∀ i, resid (signed s X j) y (fun m => if m = j then s * b m else b m) i = resid X y b i := by
  have hr : ∀ i, resid (signed s X j) y (fun m => if m = j then s * b m else b m) i = resid X y b i := fun i => by
    simp only [resid, fitted, dot]
    rw [← signed_sum s hs X j b i]
  refine ⟨fun m => ?_, hr⟩
  simp only [hr]
  unfold signed
  split_ifs with hm
  · have e : ∑ i, s * X i m * resid X y b i = s * ∑ i, X i m * resid X y b i := by rw [Finset.mul_sum]; exact Finset.sum_congr rfl fun i _ => by ring
    rw [e, hb m, mul_zero]
  · exact hb m

theorem variance_sign {s : K} (hs : s * s = 1) (o : Opts ι C) (r : ℕ) (w u : ι → K) : variance o r (fun i => s * w i) u = variance o r w u := by
  unfold variance
  have e1 : ∀ i, (s * w i * u i) ^ 2 = (w i * u i) ^ 2 := fun i => by linear_combination (w i * u i) ^ 2 * hs
  have e2 : ∀ i, (s * w i) ^ 2 = w i ^ 2 := fun i => by linear_combination w i ^ 2 * hs
  have e3 : ∀ S : Finset ι, (∑ i ∈ S, s * w i * u i) ^ 2 = (∑ i ∈ S, w i * u i) ^ 2 := fun S => by
    have : ∑ i ∈ S, s * w i * u i = s * ∑ i ∈ S, w i * u i := by rw [Finset.mul_sum]; exact Finset.sum_congr rfl fun i _ => by ring
    rw [this]
    linear_combination (∑ i ∈ S, w i * u i) ^ 2 * hs
  simp only [e1, e2, e3]

theorem TwinSpan.refl {k : ℕ} (X : Matrix ι (Fin k) K) (j : Fin k) : TwinSpan 1 X j X j :=
  ⟨one_mul 1, fun v => ⟨v, (one_mul _).symm, fun _ => rfl⟩, fun v => ⟨v, (one_mul _).symm, fun _ => rfl⟩⟩

theorem TwinSpan.trans {s s' : K} {k k' k'' : ℕ} {X : Matrix ι (Fin k) K} {j : Fin k} {X' : Matrix ι (Fin k') K} {j' : Fin k'} {X'' : Matrix ι (Fin k'') K}
    {j'' : Fin k''} (h : TwinSpan s X j X' j') (h' : TwinSpan s' X' j' X'' j'') : TwinSpan (s * s') X j X'' j'' := by
  refine ⟨?_, fun v => ?_, fun v => ?_⟩
  · have e : s * s' * (s * s') = (s * s) * (s' * s') := by ring
    rw [e, h.sq, h'.sq, one_mul]
  · obtain ⟨v', a1, a2⟩ := h.forth v
    obtain ⟨v'', b1, b2⟩ := h'.forth v'
    exact ⟨v'', by rw [b1, a1]; ring, fun i => (b2 i).trans (a2 i)⟩
  · obtain ⟨v', a1, a2⟩ := h'.back v
    obtain ⟨v'', b1, b2⟩ := h.back v'
    exact ⟨v'', by rw [b1, a1]; ring, fun i => (a2 i).trans (b2 i)⟩

/-- C155. Designs with the same combinations of columns in which an identified coefficient has the opposite sign: the coefficient changes sign, its variance, the
residuals and the degrees of freedom do not; redundant columns and any choice of those dropped allowed. -/
theorem C155_regression (E : Solvers ι K) (hE : Solves E) (o : Opts ι C) {k k' : ℕ} (drop : List (Fin k)) (drop' : List (Fin k')) (X : Matrix ι (Fin k) K)
    (X' : Matrix ι (Fin k') K) (hX : Pruned X drop) (hX' : Pruned X' drop') (j : Fin k) (j' : Fin k') (s : K) (ht : TwinSpan s X j X' j') (hj : Identified X j)
    (y : ι → K) (a : ℤ) (f : Fit ι k K) (f' : Fit ι k' K) (hf : fit E o drop X y a = .ok f) (hf' : fit E o drop' X' y a = .ok f') :
    f'.coef j' = (f.coef j).map (s * ·) ∧ f'.vcov (j', j') = f.vcov (j, j) ∧ f'.df = f.df ∧ f'.resid = f.resid := by
  obtain ⟨v, w, b, H, hb, h1, h2, h3, h4, h5⟩ := C124_identified E hE o drop X hX y a f hf j hj
  obtain ⟨v', w', b', H', hb', l1, l2, l3, l4, l5⟩ := C124_identified E hE o drop' X' hX' y a f' hf' j' (ht.identified hj)
  obtain ⟨v'', H''⟩ := ht.same.isolates (isolates_signed ht.sq H)
  have hw : w' = fun i => s * w i := isolates_unique H' H''
  obtain ⟨g1, g2⟩ := isOls_signed (j := j) ht.sq hb
  obtain ⟨c, hc, hcr⟩ := ht.same.isOls g1
  have hr : resid X' y b' = resid X y b := by
    funext i
    rw [← g2 i]
    refine Eq.trans ?_ (hcr i)
    simp only [resid]
    rw [show fitted X' b' i = fitted X' c i from Ols.C11_fitted_unique X' _ b' c hb' hc i]
    rfl
  refine ⟨?_, ?_, by rw [l5, h5, ht.rank], by rw [l3, h3, hr]⟩
  · rw [l1, h1, l2, h2, hw, Option.map_some, Finset.mul_sum]
    exact congrArg some (Finset.sum_congr rfl fun i _ => by ring)
  · rw [l4, h4, hw, hr, ht.rank, variance_sign ht.sq]

/-- C155. Two such designs with equally many columns run or fail together. -/
theorem C155_regression_runs (E : Solvers ι K) (hE : Solves E) (o : Opts ι C) {k : ℕ} (drop drop' : List (Fin k)) (X X' : Matrix ι (Fin k) K) (hX : Pruned X drop)
    (hX' : Pruned X' drop') (j j' : Fin k) (s : K) (ht : TwinSpan s X j X' j') (hj : Identified X j) (y : ι → K) (a : ℤ) (f : Fit ι k K)
    (hf : fit E o drop X y a = .ok f) : ∃ f', fit E o drop' X' y a = .ok f' := by
  have hpos : 0 < X.rank := by
    rw [Nat.pos_iff_ne_zero]
    intro h0
    have hr : Module.finrank K (LinearMap.range X.mulVecLin) = 0 := h0
    have hbot := Submodule.finrank_eq_zero.1 hr
    have hz : ∀ v, X *ᵥ v = 0 := fun v => by
      have : X.mulVecLin v ∈ LinearMap.range X.mulVecLin := ⟨v, rfl⟩
      rw [hbot] at this
      exact (Submodule.mem_bot K).1 this
    refine hj 0 rfl fun i => ?_
    have := congrFun (hz (fun m => if m = j then 1 else 0)) i
    simpa [Matrix.mulVec, dotProduct] using this
  have q := (C124_runs E hE o drop X hX hpos y a).1 ⟨f, hf⟩
  rw [← ht.rank] at q hpos
  exact (C124_runs E hE o drop' X' hX' hpos y a).2 q

end DiffDiff.LinReg
