/-
Property C157: what the proofs about TROP assume of the low-rank step holds of the code's routine.
-/
import Verif.SoftSvdProps
import Verif.SvdExists
import Verif.TropSignProps
import Verif.TropPermProps
import Verif.TropBootPermProps
import Verif.TropScaleProps

set_option linter.unusedSectionVars false
set_option linter.unusedVariables false

namespace DiffDiff.SoftSvd
open Matrix

variable {K : Type*} [Field K] [LinearOrder K] [IsStrictOrderedRing K]

/-- The library returns a decomposition of every matrix. -/
def Good (lib : {p q : ℕ} → Matrix (Fin p) (Fin q) K → Thin (Fin p) (Fin q) K) : Prop := ∀ {p q : ℕ} (M : Matrix (Fin p) (Fin q) K), IsThin M (lib M)

/-- Every real matrix has a thin decomposition, whatever its shape. -/
theorem exists_thin {p q : ℕ} (M : Matrix (Fin p) (Fin q) ℝ) : ∃ d, IsThin M d := by
  rcases le_total q p with h | h
  · obtain ⟨d, hd⟩ := Svd.exists_svd M h
    exact ⟨⟨q, d.U, d.s, d.V⟩, hd.eq, hd.uu, hd.vv, hd.nonneg⟩
  · obtain ⟨d, hd⟩ := Svd.exists_svd Mᵀ h
    refine ⟨⟨p, d.V, d.s, d.U⟩, ?_, hd.vv, hd.uu, hd.nonneg⟩
    show M = d.V * diagonal d.s * d.Uᵀ
    have := congrArg transpose hd.eq
    rw [transpose_transpose, transpose_mul, transpose_mul, transpose_transpose, diagonal_transpose, ← Matrix.mul_assoc] at this
    exact this

/-- A library as assumed exists over the reals. -/
theorem C157_library : ∃ lib : {p q : ℕ} → Matrix (Fin p) (Fin q) ℝ → Thin (Fin p) (Fin q) ℝ, Good lib := by
  classical
  exact ⟨fun M => (exists_thin M).choose, fun M => (exists_thin M).choose_spec⟩

variable {lib : {p q : ℕ} → Matrix (Fin p) (Fin q) K → Thin (Fin p) (Fin q) K} (hg : Good lib)
include hg

/-- C157. The opposite matrix gives the opposite result (assumed by C156). -/
theorem C157_code_odd (tol : K) : TropFit.OddSvd (code lib tol) := by
  intro lam nT nN M
  unfold code
  by_cases hl : lam ≤ 0
  · rw [if_pos hl, if_pos hl]
  · rw [if_neg hl, if_neg hl]
    funext t i
    split_ifs with h
    · have e : (Matrix.of fun (t : Fin nT) (i : Fin nN) => -M t i) = -(Matrix.of fun (t : Fin nT) (i : Fin nN) => M t i) := by ext a b; rfl
      rw [e, C157_odd lam tol _ _ _ (hg (Matrix.of fun (t : Fin nT) (i : Fin nN) => M t i)) (hg _)]
      rfl
    · rw [neg_zero]

/-- C157. Columns in another order give the result in that order (assumed by C134). -/
theorem C157_code_columns (tol : K) : TropBoot.SvdColumns (code lib tol) := by
  intro lam nT nN M M' σ τ hi hM t ht j hj
  unfold code
  by_cases hl : lam ≤ 0
  · rw [if_pos hl, if_pos hl]; exact hM t ht j hj
  · rw [if_neg hl, if_neg hl]
    dsimp only
    rw [dif_pos ⟨ht, hj⟩, dif_pos ⟨ht, hi.lt j hj⟩]
    let s : Fin nN ≃ Fin nN :=
      { toFun := fun j => ⟨σ j, hi.lt j j.2⟩
        invFun := fun j => ⟨τ j, hi.lt' j j.2⟩
        left_inv := fun j => Fin.ext (hi.left j j.2)
        right_inv := fun j => Fin.ext (hi.right j j.2) }
    have e : (Matrix.of fun (t : Fin nT) (i : Fin nN) => M' t i) = (Matrix.of fun (t : Fin nT) (i : Fin nN) => M t i).submatrix (Equiv.refl _) s := by
      ext a b; exact hM a a.2 b b.2
    rw [e, C157_reorder lam tol _ (Equiv.refl _) s _ _ (hg (Matrix.of fun (t : Fin nT) (i : Fin nN) => M t i)) (hg _)]
    rfl

/-- C157. The same as assumed by C108 and C130. -/
theorem C157_code_sym (tol : K) (n : ℕ) (σ : ℕ → ℕ) (hσ : TropPerm.Relab n σ) : TropPerm.SvdSym (code lib tol) n σ := by
  intro lam nT A B hAB t ht j hj
  unfold code
  by_cases hl : lam ≤ 0
  · rw [if_pos hl, if_pos hl]; exact hAB t ht j hj
  · rw [if_neg hl, if_neg hl]
    dsimp only
    rw [dif_pos ⟨ht, hj⟩, dif_pos ⟨ht, hσ.lt hj⟩]
    have hb : Function.Bijective (fun j : Fin n => (⟨σ j, hσ.lt j.2⟩ : Fin n)) := by
      rw [← Finite.injective_iff_bijective]
      intro a b hab
      exact Fin.ext (hσ.inj a.2 b.2 (congrArg Fin.val hab))
    let s : Fin n ≃ Fin n := Equiv.ofBijective _ hb
    have e : (Matrix.of fun (t : Fin nT) (i : Fin n) => A t i) = (Matrix.of fun (t : Fin nT) (i : Fin n) => B t i).submatrix (Equiv.refl _) s := by
      ext a b; exact hAB a a.2 b b.2
    rw [e, C157_reorder lam tol _ (Equiv.refl _) s _ _ (hg (Matrix.of fun (t : Fin nT) (i : Fin n) => B t i)) (hg _)]
    rfl

/-- C157. Matrix and threshold in other units, with the cut-off 0 (assumed by C153). -/
theorem C157_code_units (c : K) (hc : 0 < c) (lam : K) (nT nN : ℕ) (M : ℕ → ℕ → K) :
    code lib 0 (c * lam) nT nN (fun t i => c * M t i) = fun t i => c * code lib 0 lam nT nN M t i := by
  unfold code
  by_cases hl : lam ≤ 0
  · rw [if_pos hl, if_pos (mul_nonpos_of_nonneg_of_nonpos hc.le hl)]
  · rw [if_neg hl, if_neg (not_le.2 (mul_pos hc (not_le.1 hl)))]
    funext t i
    split_ifs with h
    · have e : (Matrix.of fun (t : Fin nT) (i : Fin nN) => c * M t i) = c • (Matrix.of fun (t : Fin nT) (i : Fin nN) => M t i) := by ext a b; rfl
      have := C157_units c lam 0 hc _ _ _ (hg (Matrix.of fun (t : Fin nT) (i : Fin nN) => M t i)) (hg (c • _))
      rw [mul_zero] at this
      rw [e, this]
      rfl
    · rw [mul_zero]

/-- C157. A matrix whose entries are small compared with the threshold is replaced by 0 (assumed by C130). -/
theorem C157_code_shrink (tol : K) : TropRust.Shrink (code lib tol) := by
  intro lam nT nN M hl hM t ht i hi
  unfold code
  rw [if_neg (not_le.2 hl)]
  dsimp only
  rw [dif_pos ⟨ht, hi⟩]
  set A : Matrix (Fin nT) (Fin nN) K := Matrix.of fun (t : Fin nT) (i : Fin nN) => M t i with hA
  have h := hg A
  have hs : ∀ k, (lib A).s k ≤ lam := by
    intro k
    have e : (lib A).s k = ∑ a, ∑ b, (lib A).U a k * A a b * (lib A).V b k := by
      have e1 : (lib A).Uᵀ * A * (lib A).V = diagonal (lib A).s := by
        conv_lhs => lhs; rhs; rw [h.eq]
        rw [← Matrix.mul_assoc, ← Matrix.mul_assoc, h.uu, Matrix.one_mul, Matrix.mul_assoc, h.vv, Matrix.mul_one]
      have e2 := congrFun (congrFun e1 k) k
      rw [diagonal_apply_eq] at e2
      rw [← e2, Matrix.mul_apply, Finset.sum_comm]
      refine Finset.sum_congr rfl fun b _ => ?_
      rw [Matrix.mul_apply, Finset.sum_mul]
      rfl
    have hu : ∀ a, |(lib A).U a k| ≤ 1 := by
      intro a
      have e1 := congrFun (congrFun h.uu k) k
      rw [Matrix.mul_apply, one_apply_eq] at e1
      have : (lib A).U a k * (lib A).U a k ≤ ∑ x, (lib A).U x k * (lib A).U x k :=
        Finset.single_le_sum (f := fun x => (lib A).U x k * (lib A).U x k) (fun x _ => mul_self_nonneg _) (Finset.mem_univ a)
      have e3 : ∑ x, (lib A).U x k * (lib A).U x k = 1 := e1
      exact abs_le_one_iff_mul_self_le_one.2 (by linarith)
    have hv : ∀ a, |(lib A).V a k| ≤ 1 := by
      intro a
      have e1 := congrFun (congrFun h.vv k) k
      rw [Matrix.mul_apply, one_apply_eq] at e1
      have : (lib A).V a k * (lib A).V a k ≤ ∑ x, (lib A).V x k * (lib A).V x k :=
        Finset.single_le_sum (f := fun x => (lib A).V x k * (lib A).V x k) (fun x _ => mul_self_nonneg _) (Finset.mem_univ a)
      have e3 : ∑ x, (lib A).V x k * (lib A).V x k = 1 := e1
      exact abs_le_one_iff_mul_self_le_one.2 (by linarith)
    have hN : (0 : K) < (nT : K) * nN := mul_pos (by exact_mod_cast (Nat.zero_lt_of_lt ht)) (by exact_mod_cast (Nat.zero_lt_of_lt hi))
    rw [e]
    calc ∑ a, ∑ b, (lib A).U a k * A a b * (lib A).V b k ≤ ∑ a : Fin nT, ∑ b : Fin nN, lam / ((nT : K) * nN) := by
          refine Finset.sum_le_sum fun a _ => Finset.sum_le_sum fun b _ => ?_
          have h1 : |A a b| ≤ lam / ((nT : K) * nN) := by
            rw [le_div_iff₀ hN]; exact hM a a.2 b b.2
          calc (lib A).U a k * A a b * (lib A).V b k ≤ |(lib A).U a k * A a b * (lib A).V b k| := le_abs_self _
            _ = |(lib A).U a k| * |A a b| * |(lib A).V b k| := by rw [abs_mul, abs_mul]
            _ ≤ 1 * |A a b| * 1 := by
              refine mul_le_mul (mul_le_mul_of_nonneg_right (hu a) (abs_nonneg _)) (hv b) (abs_nonneg _) ?_
              rw [one_mul]; exact abs_nonneg _
            _ ≤ _ := by rw [one_mul, mul_one]; exact h1
      _ = lam := by
          simp only [Finset.sum_const, Finset.card_univ, Fintype.card_fin, nsmul_eq_mul]
          rw [← mul_assoc, mul_div_cancel₀ _ hN.ne']
  rw [soft_eq hl, recon_apply]
  refine Finset.sum_eq_zero fun k _ => ?_
  have : shrink lam tol ((lib A).s k) = 0 := by
    unfold shrink
    rw [max_eq_right (by linarith [hs k])]
    split_ifs <;> rfl
  rw [this]
  ring

/-- C157. The zero matrix stays (assumed by C85 and C107). -/
theorem C157_code_zero (tol lam : K) (nT nN : ℕ) : code lib tol lam nT nN (fun _ _ => 0) = fun _ _ => 0 := by
  unfold code
  by_cases hl : lam ≤ 0
  · rw [if_pos hl]
  · rw [if_neg hl]
    funext t i
    split_ifs with h
    · have := C157_code_shrink hg tol lam nT nN (fun _ _ => 0) (not_le.1 hl) (fun _ _ _ _ => by rw [abs_zero, zero_mul]; exact (not_le.1 hl).le) t h.1 i h.2
      unfold code at this
      rw [if_neg hl] at this
      dsimp only at this
      rw [dif_pos h] at this
      exact this
    · rfl

/-- C157. Outside the panel the result is 0 and a threshold that is not positive changes nothing (assumed by C142). -/
theorem C157_code_off (tol : K) (lam : K) (hl : lam ≤ 0) (nT nN : ℕ) : code lib tol lam nT nN = fun M => M := by
  funext M
  unfold code
  rw [if_pos hl]

/-- C156. TROP with the code's own low-rank step: the outcome of opposite sign selects the same tuning parameters with the same score and gives the
opposite effect. -/
theorem C156_trop_code (tol : K) (e r : K → K) (c : TropFit.Cfg (Ext K)) (pick : List (ℕ × ℕ) → List (ℕ × ℕ)) (P : TropFit.Data K) (g : Trop.Grids K) :
    TropFit.fitPoint (TropFit.extOps e r (code lib tol)) c pick (TropFit.toExt { P with Y := fun t i => (P.Y t i).map (fun y => -y) }) g
      = ((TropFit.fitPoint (TropFit.extOps e r (code lib tol)) c pick (TropFit.toExt P) g).1,
        (TropFit.fitPoint (TropFit.extOps e r (code lib tol)) c pick (TropFit.toExt P) g).2.map Ext.neg) :=
  TropFit.C156_trop e r _ (C157_code_odd hg tol) c pick P g

/-- C157. Applied to C108: the order of the units does not matter to TROP with the code's own low-rank step. -/
theorem C157_unit_order (tol : K) (e r : K → K) (c : TropFit.Cfg (Ext K)) (P : TropFit.Data (Ext K)) (σ : ℕ → ℕ) (hσ : TropPerm.Relab P.nN σ) (g : Trop.Grids K) :
    TropFit.fitPoint (TropFit.extOps e r (code lib tol)) c id (TropPerm.relabel σ P) g = TropFit.fitPoint (TropFit.extOps e r (code lib tol)) c id P g :=
  TropPerm.C108_fit e r c P hσ (C157_code_sym hg tol P.nN σ hσ) g

end DiffDiff.SoftSvd

namespace DiffDiff.SoftSvd

/-- Soft thresholding of the entries, an odd operation for examples. -/
def entrySoft (lam : ℚ) (nT nN : ℕ) (M : ℕ → ℕ → ℚ) : ℕ → ℕ → ℚ := if 0 < lam then TropPerm.softSvd lam nT nN M else M

theorem entrySoft_odd : TropFit.OddSvd entrySoft := by
  intro lam nT nN M
  unfold entrySoft
  split_ifs with h
  · funext t i
    show TropPerm.softSvd lam nT nN _ t i = -TropPerm.softSvd lam nT nN M t i
    unfold TropPerm.softSvd
    dsimp only
    split_ifs <;> linarith
  · rfl

/-- A panel whose effect is not 0 and changes its sign with the outcome. -/
example : (let o := TropFit.fieldOps (fun x : ℚ => if x < 0 then 1 / 2 else 1) (fun x => |x|) entrySoft
    TropFit.att o TropPerm.cfgP (some TropFit.pA) TropFit.pA TropPerm.lamP ≠ some 0 ∧
    TropFit.att o TropPerm.cfgP (some TropFit.pA) TropFit.pA TropPerm.lamP ≠ none ∧
    TropFit.att o TropPerm.cfgP (some (TropFit.negD o TropFit.pA)) (TropFit.negD o TropFit.pA) TropPerm.lamP ≠
      TropFit.att o TropPerm.cfgP (some TropFit.pA) TropFit.pA TropPerm.lamP) := by decide +kernel

end DiffDiff.SoftSvd
