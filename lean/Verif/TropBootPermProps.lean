/-
The joint estimate does not depend on the order of the units (C134).
-/
import Verif.TropBoot
import Verif.TropJointProps
import Mathlib.Tactic.LinearCombination

set_option linter.unusedSectionVars false

namespace DiffDiff.TropBoot

open Finset
open scoped List
open TropFit (Data Cfg)
open TropJoint

variable {K : Type*} [Field K] [LinearOrder K] [IsStrictOrderedRing K]

/-- `σ` and `τ` are inverse to each other on the first `n` positions. -/
structure Inv (n : ℕ) (σ τ : ℕ → ℕ) : Prop where
  lt : ∀ j < n, σ j < n
  lt' : ∀ i < n, τ i < n
  left : ∀ j < n, τ (σ j) = j
  right : ∀ i < n, σ (τ i) = i

/-- The panels have the same periods, and column `j` of the second is column `σ j` of the first. -/
structure Reordered (P P' : Data K) (σ τ : ℕ → ℕ) : Prop where
  nT : P'.nT = P.nT
  nN : P'.nN = P.nN
  inv : Inv P.nN σ τ
  Y : ∀ t < P.nT, ∀ j < P.nN, P'.Y t j = P.Y t (σ j)
  D : ∀ t < P.nT, ∀ j < P.nN, P'.D t j = P.D t (σ j)

/-- Soft-thresholding commutes with a reordering of the columns. -/
def SvdColumns (svd : K → ℕ → ℕ → (ℕ → ℕ → K) → (ℕ → ℕ → K)) : Prop :=
  ∀ thr nT nN M M' σ τ, Inv nN σ τ → (∀ t < nT, ∀ j < nN, M' t j = M t (σ j)) →
    ∀ t < nT, ∀ j < nN, svd thr nT nN M' t j = svd thr nT nN M t (σ j)

theorem Inv.perm {n : ℕ} {σ τ : ℕ → ℕ} (h : Inv n σ τ) : (List.range n).map σ ~ List.range n := by
  refine (List.perm_ext_iff_of_nodup ?_ List.nodup_range).2 fun i => ?_
  · refine List.Nodup.map_on ?_ List.nodup_range
    intro a ha b hb hab
    rw [← h.left a (List.mem_range.1 ha), ← h.left b (List.mem_range.1 hb), hab]
  · simp only [List.mem_map, List.mem_range]
    exact ⟨fun ⟨j, hj, e⟩ => e ▸ h.lt j hj, fun hi => ⟨τ i, h.lt' i hi, h.right i hi⟩⟩

theorem Inv.sum {n : ℕ} {σ τ : ℕ → ℕ} (h : Inv n σ τ) (f g : ℕ → K) (e : ∀ j < n, g j = f (σ j)) : ∑ j ∈ range n, g j = ∑ i ∈ range n, f i :=
  Finset.sum_nbij' σ τ (fun j hj => mem_range.2 (h.lt j (mem_range.1 hj))) (fun i hi => mem_range.2 (h.lt' i (mem_range.1 hi)))
    (fun j hj => h.left j (mem_range.1 hj)) (fun i hi => h.right i (mem_range.1 hi)) (fun j hj => e j (mem_range.1 hj))

/-- Entries of a reordered matrix. -/
theorem Inv.entries {α : Type*} {n : ℕ} {σ τ : ℕ → ℕ} (h : Inv n σ τ) (m : ℕ) (f f' : ℕ → ℕ → α) (e : ∀ t < m, ∀ j < n, f' t j = f t (σ j)) :
    (List.range m).flatMap (fun t => (List.range n).map (fun i => f' t i)) ~ (List.range m).flatMap (fun t => (List.range n).map (fun i => f t i)) := by
  refine List.Perm.flatMap_left _ fun t ht => ?_
  have e' : (List.range n).map (fun i => f' t i) = ((List.range n).map σ).map (fun i => f t i) := by
    rw [List.map_map]
    exact List.map_congr_left fun j hj => e t (List.mem_range.1 ht) j (List.mem_range.1 hj)
  rw [e']
  exact h.perm.map _

theorem foldr_max_perm {l l' : List K} (h : l ~ l') : l.foldr max 0 = l'.foldr max 0 := by
  induction h with
  | nil => rfl
  | cons x _ ih => simp [ih]
  | swap x y l => simp only [List.foldr_cons]; rw [max_left_comm]
  | trans _ _ h1 h2 => exact h1.trans h2

theorem wMax_reordered {n : ℕ} {σ τ : ℕ → ℕ} (h : Inv n σ τ) (m : ℕ) (W W' : ℕ → ℕ → K) (e : ∀ t < m, ∀ j < n, W' t j = W t (σ j)) :
    wMax m n W' = wMax m n W := foldr_max_perm (h.entries m W W' e)

theorem settled_reordered {n : ℕ} {σ τ : ℕ → ℕ} (h : Inv n σ τ) (m : ℕ) (tol : K) (A A' B B' : ℕ → ℕ → K)
    (ea : ∀ t < m, ∀ j < n, A' t j = A t (σ j)) (eb : ∀ t < m, ∀ j < n, B' t j = B t (σ j)) :
    settled m n tol A' B' = settled m n tol A B := by
  unfold settled
  rw [foldr_max_perm (h.entries m (fun t i => |A t i - B t i|) (fun t i => |A' t i - B' t i|)
    (fun t ht j hj => by rw [ea t ht j hj, eb t ht j hj]))]

/-! ### Weights -/

theorem mem_treatedUnits (P : Data K) (i : ℕ) : i ∈ TropFit.treatedUnits P ↔ i < P.nN ∧ ∃ t < P.nT, P.D t i = 1 := by
  simp [TropFit.treatedUnits, List.mem_filter]

theorem Reordered.treated {P P' : Data K} {σ τ : ℕ → ℕ} (h : Reordered P P' σ τ) : (treated P').map σ ~ treated P := by
  refine (List.perm_ext_iff_of_nodup ?_ (List.nodup_range.filter _)).2 fun i => ?_
  · refine List.Nodup.map_on ?_ (List.nodup_range.filter _)
    intro a ha b hb hab
    have ha' := ((mem_treatedUnits P' a).1 ha).1
    have hb' := ((mem_treatedUnits P' b).1 hb).1
    rw [h.nN] at ha' hb'
    rw [← h.inv.left a ha', ← h.inv.left b hb', hab]
  · show i ∈ (TropFit.treatedUnits P').map σ ↔ i ∈ TropFit.treatedUnits P
    simp only [List.mem_map, mem_treatedUnits, h.nN, h.nT]
    constructor
    · rintro ⟨j, ⟨hj, t, ht, hd⟩, rfl⟩
      exact ⟨h.inv.lt j hj, t, ht, by rw [← h.D t ht j hj]; exact hd⟩
    · rintro ⟨hi, t, ht, hd⟩
      exact ⟨τ i, ⟨h.inv.lt' i hi, t, ht, by rw [h.D t ht _ (h.inv.lt' i hi), h.inv.right i hi]; exact hd⟩, h.inv.right i hi⟩

theorem Reordered.avgTreated {P P' : Data K} {σ τ : ℕ → ℕ} (h : Reordered P P' σ τ) (t : ℕ) (ht : t < P.nT) :
    TropJoint.avgTreated P' t = TropJoint.avgTreated P t := by
  have e : (TropJoint.treated P').filterMap (fun i => P'.Y t i) = ((TropJoint.treated P').map σ).filterMap (fun i => P.Y t i) := by
    rw [List.filterMap_map]
    refine List.filterMap_congr fun j hj => ?_
    have hj' := ((mem_treatedUnits P' j).1 hj).1
    rw [h.nN] at hj'
    exact h.Y t ht j hj'
  have p : (TropJoint.treated P').filterMap (fun i => P'.Y t i) ~ (TropJoint.treated P).filterMap (fun i => P.Y t i) := by
    rw [e]; exact h.treated.filterMap _
  unfold TropJoint.avgTreated
  split
  · next h0 =>
    rw [h0] at p
    rw [List.nil_perm.1 p]
  · next l hne hl =>
    split
    · next h1 => rw [h1] at p; exact absurd (List.perm_nil.1 p) (by assumption)
    · rw [p.sum_eq, p.length_eq]

theorem Reordered.gaps {P P' : Data K} {σ τ : ℕ → ℕ} (h : Reordered P P' σ τ) (tp j : ℕ) (hj : j < P.nN) :
    TropJoint.gaps P' tp j = TropJoint.gaps P tp (σ j) := by
  unfold TropJoint.gaps
  rw [h.nT]
  refine List.filterMap_congr fun t ht => ?_
  have ht' := List.mem_range.1 ht
  simp only [isPre, h.nT, h.avgTreated t ht', h.Y t ht' j hj]
  rfl

theorem Reordered.delta {P P' : Data K} {σ τ : ℕ → ℕ} (h : Reordered P P' σ τ) (v : Env K) (tp : ℕ) (lamT lamU : K) (t j : ℕ) (hj : j < P.nN) :
    TropJoint.delta v P' tp lamT lamU t j = TropJoint.delta v P tp lamT lamU t (σ j) := by
  unfold TropJoint.delta timeW unitW
  rw [h.nT, h.gaps tp j hj]

theorem Reordered.mask {P P' : Data K} {σ τ : ℕ → ℕ} (h : Reordered P P' σ τ) (W W' : ℕ → ℕ → K) (hW : ∀ t < P.nT, ∀ j < P.nN, W' t j = W t (σ j))
    (t : ℕ) (ht : t < P.nT) (j : ℕ) (hj : j < P.nN) : TropJoint.mask P'.Y W' t j = TropJoint.mask P.Y W t (σ j) := by
  unfold TropJoint.mask; rw [h.Y t ht j hj, hW t ht j hj]

/-! ### Least squares -/

/-- Unit effects in the other order. -/
def back (τ : ℕ → ℕ) (s : Sol K) : Sol K := { s with alpha := fun i => s.alpha (τ i) }

theorem obj_reordered {n : ℕ} {σ τ : ℕ → ℕ} (h : Inv n σ τ) (m : ℕ) (W W' y y' : ℕ → ℕ → K) (D D' : ℕ → ℕ → ℤ)
    (eW : ∀ t < m, ∀ j < n, W' t j = W t (σ j)) (ey : ∀ t < m, ∀ j < n, y' t j = y t (σ j)) (eD : ∀ t < m, ∀ j < n, D' t j = D t (σ j)) (s : Sol K) :
    obj m n W' y' D' s = obj m n W y D (back τ s) := by
  unfold obj
  refine Finset.sum_congr rfl fun t ht => ?_
  refine h.sum _ _ fun j hj' => ?_
  have ht' := mem_range.1 ht
  rw [eW t ht' j hj', ey t ht' j hj', eD t ht' j hj']
  simp only [back, h.left j hj']

/-- Minimisers of the reordered problem leave the same residuals where there is weight. -/
theorem res_reordered {n : ℕ} {σ τ : ℕ → ℕ} (h : Inv n σ τ) (m : ℕ) (W W' y y' : ℕ → ℕ → K) (D D' : ℕ → ℕ → ℤ)
    (eW : ∀ t < m, ∀ j < n, W' t j = W t (σ j)) (ey : ∀ t < m, ∀ j < n, y' t j = y t (σ j)) (eD : ∀ t < m, ∀ j < n, D' t j = D t (σ j))
    (hW : ∀ t < m, ∀ j < n, 0 ≤ W t j) (s s' : Sol K) (hs : IsMin m n W y D s) (hs' : IsMin m n W' y' D' s')
    (t j : ℕ) (ht : t < m) (hj : j < n) (hw : W t (σ j) ≠ 0) :
    res y D s t (σ j) = res y' D' s' t j := by
  have hb : IsMin m n W y D (back τ s') := by
    intro q
    have e1 := obj_reordered h m W W' y y' D D' eW ey eD s'
    have e2 := obj_reordered h m W W' y y' D D' eW ey eD (back σ q)
    have e3 : obj m n W y D (back τ (back σ q)) = obj m n W y D q := by
      unfold obj
      refine Finset.sum_congr rfl fun t _ => Finset.sum_congr rfl fun i hi => ?_
      simp only [back, h.right i (mem_range.1 hi)]
    rw [← e1, ← e3, ← e2]
    exact hs' _
  have := isMin_unique m n W y D hW s (back τ s') hs hb t (σ j) ht (h.lt j hj) hw
  rw [this]
  simp only [res, back, h.left j hj, ey t ht j hj, eD t ht j hj]

/-- Both problems can be solved or neither can. -/
theorem solve_reordered_none {n : ℕ} {σ τ : ℕ → ℕ} (h : Inv n σ τ) (v : Env K) (m : ℕ) (W W' : ℕ → ℕ → K) (Y Y' : ℕ → ℕ → Option K) (D D' : ℕ → ℕ → ℤ)
    (eW : ∀ t < m, ∀ j < n, TropJoint.mask Y' W' t j = TropJoint.mask Y W t (σ j)) :
    solve v m n Y' D' W' = none ↔ solve v m n Y D W = none := by
  rw [solve_none, solve_none]
  have : ∑ t ∈ range m, ∑ i ∈ range n, TropJoint.mask Y' W' t i = ∑ t ∈ range m, ∑ i ∈ range n, TropJoint.mask Y W t i := by
    refine Finset.sum_congr rfl fun t ht => ?_
    exact h.sum _ _ fun j hj => eW t (mem_range.1 ht) j hj
  rw [this]

/-- The loop on the reordered panel: fails together, otherwise the same residuals where there is weight. -/
theorem lowLoop_reordered {n : ℕ} {σ τ : ℕ → ℕ} (h : Inv n σ τ) (hn : 0 < n) (v : Env K) (hl : LeastSquares v.lstsq) (hr : SqrtLike v.r)
    (hv : SvdColumns v.svd) (tol : K) (m : ℕ) (hm : 0 < m) (W W' y y' : ℕ → ℕ → K) (D D' : ℕ → ℕ → ℤ)
    (eW : ∀ t < m, ∀ j < n, W' t j = W t (σ j)) (ey : ∀ t < m, ∀ j < n, y' t j = y t (σ j)) (eD : ∀ t < m, ∀ j < n, D' t j = D t (σ j))
    (hW : ∀ t < m, ∀ j < n, 0 ≤ W t j) (lam : K) (k : ℕ) : ∀ L L' : ℕ → ℕ → K, (∀ t < m, ∀ j < n, L' t j = L t (σ j)) →
      ((lowLoop v tol m n y' D' W' lam k L' = none ∧ lowLoop v tol m n y D W lam k L = none) ∨
       ∃ f' f, lowLoop v tol m n y' D' W' lam k L' = some f' ∧ lowLoop v tol m n y D W lam k L = some f ∧
         ∀ t < m, ∀ j < n, W t (σ j) ≠ 0 → res y D f.1 t (σ j) = res y' D' f'.1 t j) := by
  have hW' : ∀ t < m, ∀ j < n, 0 ≤ W' t j := fun t ht j hj => by rw [eW t ht j hj]; exact hW t ht _ (h.lt j hj)
  -- one solve
  have one : ∀ L L' : ℕ → ℕ → K, (∀ t < m, ∀ j < n, L' t j = L t (σ j)) →
      ((solve v m n (fun t i => some (y' t i - L' t i)) D' W' = none ∧ solve v m n (fun t i => some (y t i - L t i)) D W = none) ∨
       ∃ s' s, solve v m n (fun t i => some (y' t i - L' t i)) D' W' = some s' ∧ solve v m n (fun t i => some (y t i - L t i)) D W = some s ∧
         (∀ t < m, ∀ j < n, W t (σ j) ≠ 0 → res y D s t (σ j) = res y' D' s' t j) ∧
         ∀ t < m, ∀ j < n, lowStep v m n y' W' D' lam s' L' t j = lowStep v m n y W D lam s L t (σ j)) := by
    intro L L' hL
    have hnone := solve_reordered_none (D := D) (D' := D') h v m W W' (fun t i => some (y t i - L t i)) (fun t i => some (y' t i - L' t i))
      (by intro t ht j hj; rw [mask_some, mask_some]; exact eW t ht j hj)
    cases hs' : solve v m n (fun t i => some (y' t i - L' t i)) D' W' with
    | none => exact .inl ⟨rfl, hnone.1 hs'⟩
    | some s' =>
      cases hs : solve v m n (fun t i => some (y t i - L t i)) D W with
      | none => rw [hnone.2 hs] at hs'; cases hs'
      | some s =>
        have m1 := solve_isMin v hl hr m n hm hn _ D W hW s hs
        have m2 := solve_isMin v hl hr m n hm hn _ D' W' hW' s' hs'
        rw [mask_some] at m1 m2
        have key : ∀ t < m, ∀ j < n, W t (σ j) ≠ 0 → res y D s t (σ j) = res y' D' s' t j := by
          intro t ht j hj hw
          have := res_reordered h m W W' _ _ D D' eW
            (fun t ht j hj => by simp only [Option.getD_some]; rw [ey t ht j hj, hL t ht j hj]) eD hW s s' m1 m2 t j ht hj hw
          simp only [res, Option.getD_some] at this ⊢
          have hLt := hL t ht j hj
          rw [hLt] at this
          linear_combination this
        refine .inr ⟨s', s, rfl, rfl, key, ?_⟩
        unfold lowStep
        rw [wMax_reordered h m W W' eW]
        refine hv _ _ _ _ _ σ τ h fun t ht j hj => ?_
        rw [hL t ht j hj, eW t ht j hj]
        by_cases hw : W t (σ j) = 0
        · simp [hw]
        · have := key t ht j hj hw
          simp only [res] at this
          rw [this]
  induction k with
  | zero =>
    intro L L' hL
    rcases one L L' hL with ⟨h1, h2⟩ | ⟨s', s, h1, h2, h3, _⟩
    · left; rw [lowLoop, lowLoop, h1, h2]; exact ⟨rfl, rfl⟩
    · right; rw [lowLoop, lowLoop, h1, h2]; exact ⟨_, _, rfl, rfl, h3⟩
  | succ k ih =>
    intro L L' hL
    rcases one L L' hL with ⟨h1, h2⟩ | ⟨s', s, h1, h2, h3, h4⟩
    · left; rw [lowLoop, lowLoop, h1, h2]; exact ⟨rfl, rfl⟩
    · rw [lowLoop, lowLoop, h1, h2]
      simp only
      rw [settled_reordered h m tol (lowStep v m n y W D lam s L) (lowStep v m n y' W' D' lam s' L') L L' h4 hL]
      by_cases hc : settled m n tol (lowStep v m n y W D lam s L) L = true
      · right; rw [if_pos hc, if_pos hc]; exact ⟨_, _, rfl, rfl, h3⟩
      · rw [if_neg hc, if_neg hc]; exact ih _ _ h4

/-- C134. The joint estimate for given tuning parameters does not depend on the order of the units: if one panel has the columns of the other in
another order, both fits fail or both return the same effect — with or without factor matrix, provided the effect is identified. -/
theorem C134_unit_order (v : Env K) (hl : LeastSquares v.lstsq) (hr : SqrtLike v.r) (hv : SvdColumns v.svd) (he : ∀ x, 0 < v.e x)
    (c : Cfg K) (P P' : Data K) (σ τ : ℕ → ℕ) (h : Reordered P P' σ τ) (tp : ℕ) (hR : HasRect P tp) (l : Lam3 K) :
    (fitLam v c P' tp l).map (fun f => f.1.tau) = (fitLam v c P tp l).map (fun f => f.1.tau) := by
  obtain ⟨t0, t1, i0, i1, u00, u01, u10, u11, hd⟩ := hR
  have hT : 0 < P.nT := lt_of_le_of_lt (Nat.zero_le _) u00.1
  have hN : 0 < P.nN := lt_of_le_of_lt (Nat.zero_le _) u00.2.1
  let A := TropJoint.delta v P tp l.time l.unit
  let A' := TropJoint.delta v P' tp l.time l.unit
  have eA : ∀ t < P.nT, ∀ j < P.nN, A' t j = A t (σ j) := fun t _ j hj => h.delta v tp _ _ t j hj
  have hA : ∀ t < P.nT, ∀ j < P.nN, 0 ≤ A t j := fun t _ j _ => delta_nonneg v he P tp _ _ t j
  have hA' : ∀ t < P.nT, ∀ j < P.nN, 0 ≤ A' t j := fun t _ j _ => delta_nonneg v he P' tp _ _ t j
  have eM := h.mask A A' eA
  have hM : ∀ t < P.nT, ∀ j < P.nN, 0 ≤ TropJoint.mask P.Y A t j := mask_nonneg hA
  have ey : ∀ t < P.nT, ∀ j < P.nN, (P'.Y t j).getD 0 = (P.Y t (σ j)).getD 0 := fun t ht j hj => by rw [h.Y t ht j hj]
  -- equal residuals give equal effects
  have fin : ∀ s s' : Sol K, (∀ t < P.nT, ∀ j < P.nN, TropJoint.mask P.Y A t (σ j) ≠ 0 →
      res (fun t i => (P.Y t i).getD 0) P.D s t (σ j) = res (fun t i => (P'.Y t i).getD 0) P'.D s' t j) → s'.tau = s.tau := by
    intro s s' hk
    have g : ∀ t i, Usable P tp t i → res (fun t i => (P.Y t i).getD 0) P.D s t i = res (fun t i => (P.Y t i).getD 0) P.D (back τ s') t i := by
      intro t i hu
      have hi := h.inv.lt' i hu.2.1
      have hw := hu.mask_ne he l.time l.unit
      have := hk t hu.1 (τ i) hi (by rw [h.inv.right i hu.2.1]; exact hw)
      rw [h.inv.right i hu.2.1] at this
      rw [this]
      simp only [res, back]
      rw [h.Y t hu.1 _ hi, h.D t hu.1 _ hi, h.inv.right i hu.2.1]
    exact (tau_of_rect (W := A) (s0 := back τ s') (g _ _ u00) (g _ _ u01) (g _ _ u10) (g _ _ u11) hd).symm
  unfold fitLam fitW
  by_cases hn : (10 : K) ^ 10 ≤ l.nn
  · rw [if_pos hn, if_pos hn, Option.map_map, Option.map_map, h.nT, h.nN]
    have hnone := solve_reordered_none (D := P.D) (D' := P'.D) h.inv v P.nT A A' P.Y P'.Y eM
    cases hs' : solve v P.nT P.nN P'.Y P'.D A' with
    | none => rw [hnone.1 hs']
    | some s' =>
      cases hs : solve v P.nT P.nN P.Y P.D A with
      | none => rw [hnone.2 hs] at hs'; cases hs'
      | some s =>
        have m1 := solve_isMin v hl hr _ _ hT hN _ P.D A hA s hs
        have m2 := solve_isMin v hl hr _ _ hT hN _ P'.D A' hA' s' hs'
        have := fin s s' fun t ht j hj hw => res_reordered h.inv P.nT _ _ _ _ P.D P'.D eM ey h.D hM s s' m1 m2 t j ht hj hw
        exact congrArg some this
  · rw [if_neg hn, if_neg hn]
    unfold solveLow
    rw [h.nT, h.nN]
    rcases lowLoop_reordered h.inv hN v hl hr hv c.tol P.nT hT (TropJoint.mask P.Y A) (TropJoint.mask P'.Y A') (fun t i => (P.Y t i).getD 0)
        (fun t i => (P'.Y t i).getD 0) P.D P'.D eM ey h.D hM l.nn (c.maxIter - 1) (fun _ _ => 0) (fun _ _ => 0) (fun _ _ _ _ => rfl) with
      ⟨h1, h2⟩ | ⟨f', f, h1, h2, h3⟩
    · rw [h1, h2]
    · rw [h1, h2]; exact congrArg some (fin f.1 f'.1 h3)

end DiffDiff.TropBoot
