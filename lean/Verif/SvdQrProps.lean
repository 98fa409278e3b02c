import Verif.SvdProps

set_option linter.unusedSectionVars false

namespace DiffDiff.Svd
open Matrix DiffDiff.Ols DiffDiff.Vcov

variable {K : Type*} [Field K] [LinearOrder K] [IsStrictOrderedRing K]
variable {n k : ℕ} {C : Type*} [DecidableEq C]

/-! ### Specification of the pivoted QR factorization -/

/-- Economic QR factorization with column pivoting: `X[:, piv] = Q R`. -/
structure Qr (n k : ℕ) (K : Type*) where
  Q : Matrix (Fin n) (Fin k) K
  R : Matrix (Fin k) (Fin k) K
  piv : Fin k → Fin k

/-- Contract of `scipy.linalg.qr(X, mode="economic", pivoting=True)`: at every step the remaining column of largest norm is
chosen, so no remaining part of a later column is longer than the diagonal entry. -/
structure IsQr (X : Matrix (Fin n) (Fin k) K) (q : Qr n k K) : Prop where
  eq : ∀ i m, X i (q.piv m) = ∑ l, q.Q i l * q.R l m
  qq : q.Qᵀ * q.Q = 1
  tri : ∀ l m, m < l → q.R l m = 0
  bij : Function.Bijective q.piv
  greedy : ∀ l m, l ≤ m → ∑ i ∈ Finset.univ.filter (fun i => l ≤ i), q.R i m ^ 2 ≤ q.R l l ^ 2

/-- The library's rank information for `X` comes from such a factorization. -/
def Pivoted (L : Lib n C K) (X : Matrix (Fin n) (Fin k) K) (q : Qr n k K) : Prop :=
  IsQr X q ∧ L.rdiag X = List.ofFn (fun i => q.R i i) ∧ L.pivot X = List.ofFn q.piv

/-! ### Helper lemmas -/

theorem lower_card (P : Fin k → Prop) [DecidablePred P] (h : ∀ i j, i ≤ j → P j → P i) (i : Fin k) :
    i.val < (Finset.univ.filter P).card ↔ P i := by
  constructor
  · intro hc
    by_contra hp
    have hs : Finset.univ.filter P ⊆ Finset.univ.filter (fun j : Fin k => j < i) := by
      intro j hj
      simp only [Finset.mem_filter, Finset.mem_univ, true_and] at hj ⊢
      by_contra hji
      exact hp (h i j (not_lt.mp hji) hj)
    have := Finset.card_le_card hs
    have e : (Finset.univ.filter (fun j : Fin k => j < i)).card = i.val := by
      have : Finset.univ.filter (fun j : Fin k => j < i) = Finset.Iio i := by ext j; simp
      rw [this, Fin.card_Iio]
    omega
  · intro hp
    have hs : Finset.univ.filter (fun j : Fin k => j ≤ i) ⊆ Finset.univ.filter P := by
      intro j hj
      simp only [Finset.mem_filter, Finset.mem_univ, true_and] at hj ⊢
      exact h j i hj hp
    have := Finset.card_le_card hs
    have e : (Finset.univ.filter (fun j : Fin k => j ≤ i)).card = i.val + 1 := by
      have : Finset.univ.filter (fun j : Fin k => j ≤ i) = Finset.Iic i := by ext j; simp
      rw [this, Fin.card_Iic]
    omega

theorem IsQr.diag_le {X : Matrix (Fin n) (Fin k) K} {q : Qr n k K} (h : IsQr X q) (i j : Fin k) (hij : i ≤ j) :
    |q.R j j| ≤ |q.R i i| := by
  rw [← sq_le_sq]
  refine le_trans ?_ (h.greedy i j hij)
  exact Finset.single_le_sum (f := fun a => q.R a j ^ 2) (fun a _ => pow_two_nonneg _)
    (Finset.mem_filter.mpr ⟨Finset.mem_univ j, hij⟩)

/-- The rank counted by the code. -/
theorem rank_eq {X : Matrix (Fin n) (Fin k) K} {q : Qr n k K} (h : IsQr X q) (rcond : K) (hr : 0 ≤ rcond) (hk : 0 < k) :
    rankOf rcond (List.ofFn (fun i => q.R i i)) =
      some (Finset.univ.filter (fun i : Fin k => rcond * |q.R ⟨0, hk⟩ ⟨0, hk⟩| < |q.R i i|)).card := by
  obtain ⟨k, rfl⟩ : ∃ m, k = m + 1 := ⟨k - 1, by omega⟩
  have hl : (List.ofFn (fun i => q.R i i)).map (fun r => |r|) = |q.R 0 0| :: List.ofFn (fun i : Fin k => |q.R i.succ i.succ|) := by
    rw [List.map_ofFn, List.ofFn_succ]; rfl
  have hl2 : (List.ofFn (fun i => q.R i i)).map (fun r => |r|) = (List.finRange (k + 1)).map (fun i => |q.R i i|) := by
    rw [List.ofFn_eq_map, List.map_map]; rfl
  have hz : (⟨0, hk⟩ : Fin (k + 1)) = 0 := rfl
  have hcount : (((List.ofFn (fun i => q.R i i)).map (fun r => |r|)).filter (fun r => rcond * |q.R 0 0| < r)).length =
      (Finset.univ.filter (fun i : Fin (k + 1) => rcond * |q.R 0 0| < |q.R i i|)).card := by
    rw [hl2, List.filter_map, List.length_map, ← List.toFinset_card_of_nodup ((List.nodup_finRange _).filter _)]
    congr 1; ext i; simp
  rw [hz]
  unfold rankOf
  rw [hl] at hcount ⊢
  show some (if |q.R 0 0| = 0 then 0 else _) = _
  by_cases h0 : |q.R 0 0| = 0
  · rw [if_pos h0]
    congr 1
    symm
    rw [Finset.card_eq_zero, Finset.filter_eq_empty_iff]
    intro i _
    have := h.diag_le 0 i (Fin.zero_le _)
    rw [h0, mul_zero, not_lt]
    rwa [h0] at this
  · rw [if_neg h0]
    exact congrArg some hcount

theorem mem_dropped {r : ℕ} (piv : Fin k → Fin k) (j : Fin k) :
    j ∈ droppedCols r (List.ofFn piv) ↔ ∃ m : Fin k, r ≤ m.val ∧ piv m = j := by
  have hd : j ∈ (List.ofFn piv).drop r ↔ ∃ m : Fin k, r ≤ m.val ∧ piv m = j := by
    rw [List.mem_iff_getElem]
    constructor
    · rintro ⟨i, hi, he⟩
      rw [List.length_drop, List.length_ofFn] at hi
      rw [List.getElem_drop, List.getElem_ofFn] at he
      exact ⟨⟨r + i, by omega⟩, by simp, he⟩
    · rintro ⟨m, hm, he⟩
      refine ⟨m.val - r, by rw [List.length_drop, List.length_ofFn]; omega, ?_⟩
      rw [List.getElem_drop, List.getElem_ofFn, ← he]
      congr 1
      ext; simp; omega
  unfold droppedCols
  by_cases hr : r < k
  · rw [if_pos hr, List.mem_insertionSort, hd]
  · rw [if_neg hr]
    constructor
    · intro h; cases h
    · rintro ⟨m, hm, _⟩; omega

/-- Rank and dropped columns reported for a design with a pivoted factorization. -/
theorem detect_spec {L : Lib n C K} {X : Matrix (Fin n) (Fin k) K} {q : Qr n k K} (hq : Pivoted L X q) {rcond : K} (hr : 0 ≤ rcond)
    {drop : List (Fin k)} (hdt : detect L rcond X = .ok drop) (hk : 0 < k) :
    ∀ m : Fin k, q.piv m ∈ drop ↔ |q.R m m| ≤ rcond * |q.R ⟨0, hk⟩ ⟨0, hk⟩| := by
  intro m
  obtain ⟨h, h1, h2⟩ := hq
  simp only [detect, h1, h2, rank_eq h rcond hr hk] at hdt
  have hdr := Except.ok.inj hdt
  have hlow : ∀ i j : Fin k, i ≤ j → rcond * |q.R ⟨0, hk⟩ ⟨0, hk⟩| < |q.R j j| → rcond * |q.R ⟨0, hk⟩ ⟨0, hk⟩| < |q.R i i| :=
    fun i j hij hj => lt_of_lt_of_le hj (h.diag_le i j hij)
  rw [← hdr, mem_dropped]
  have hc := lower_card (fun i : Fin k => rcond * |q.R ⟨0, hk⟩ ⟨0, hk⟩| < |q.R i i|) hlow m
  constructor
  · rintro ⟨m', hm', he⟩
    have := h.bij.1 he
    subst this
    exact not_lt.mp (fun hlt => absurd (hc.mpr hlt) (by omega))
  · intro hle
    exact ⟨m, not_lt.mp (fun hlt => absurd (hc.mp hlt) (not_lt.mpr hle)), rfl⟩

theorem IsQr.mulVec {X : Matrix (Fin n) (Fin k) K} {q : Qr n k K} (h : IsQr X q) (c : Fin k → K) :
    X *ᵥ c = q.Q *ᵥ (q.R *ᵥ (fun m => c (q.piv m))) := by
  funext i
  have e : (X *ᵥ c) i = ∑ m, X i (q.piv m) * c (q.piv m) := by
    show ∑ j, X i j * c j = _
    exact (Function.Bijective.sum_comp h.bij (fun j => X i j * c j)).symm
  rw [e]
  show _ = ∑ l, q.Q i l * ∑ m, q.R l m * c (q.piv m)
  simp only [h.eq, Finset.sum_mul, Finset.mul_sum]
  rw [Finset.sum_comm]
  exact Finset.sum_congr rfl (fun l _ => Finset.sum_congr rfl (fun m _ => by ring))

/-! ### C143: what the rank check guarantees -/

/-- C143. The columns kept by the rank check are linearly independent: a combination of them that vanishes has zero coefficients. -/
theorem C143_kept_independent (L : Lib n C K) (rcond : K) (hr : 0 ≤ rcond) (X : Matrix (Fin n) (Fin k) K) (q : Qr n k K)
    (hq : Pivoted L X q) (drop : List (Fin k)) (hdt : detect L rcond X = .ok drop)
    (c : Fin k → K) (hc : ∀ j ∈ drop, c j = 0) (hz : ∀ i, ∑ j, X i j * c j = 0) : ∀ j, c j = 0 := by
  rcases Nat.eq_zero_or_pos k with rfl | hk
  · intro j; exact j.elim0
  have hs := detect_spec hq hr hdt hk
  obtain ⟨h, -, -⟩ := hq
  set z : Fin k → K := fun m => c (q.piv m) with hzd
  have hR : q.R *ᵥ z = 0 := by
    have h1 : q.Q *ᵥ (q.R *ᵥ z) = 0 := by rw [hzd, ← h.mulVec c]; funext i; exact hz i
    have h2 : (q.Qᵀ * q.Q) *ᵥ (q.R *ᵥ z) = 0 := by rw [← mulVec_mulVec, h1, mulVec_zero]
    rwa [h.qq, one_mulVec] at h2
  have hz0 : ∀ m, z m = 0 := by
    by_contra hne
    push Not at hne
    obtain ⟨m0, hm0⟩ := hne
    obtain ⟨m, hm, hmax⟩ := Finset.exists_max_image (Finset.univ.filter (fun m => z m ≠ 0)) id
      ⟨m0, Finset.mem_filter.mpr ⟨Finset.mem_univ _, hm0⟩⟩
    have hzm : z m ≠ 0 := (Finset.mem_filter.mp hm).2
    have hgt : ∀ l, m < l → z l = 0 := by
      intro l hl
      by_contra hzl
      exact absurd (hmax l (Finset.mem_filter.mpr ⟨Finset.mem_univ _, hzl⟩)) (not_le.mpr hl)
    have hrow := congrFun hR m
    have : ∑ l, q.R m l * z l = q.R m m * z m := by
      apply Finset.sum_eq_single m
      · intro l _ hl
        rcases lt_or_gt_of_ne hl with h1 | h1
        · rw [h.tri m l h1, zero_mul]
        · rw [hgt l h1, mul_zero]
      · intro hh; exact absurd (Finset.mem_univ m) hh
    have hrow' : q.R m m * z m = 0 := by rw [← this]; exact hrow
    have hRm : q.R m m = 0 := by
      rcases mul_eq_zero.mp hrow' with h1 | h1
      · exact h1
      · exact absurd h1 hzm
    apply hzm
    apply hc
    rw [hs m, hRm, abs_zero]
    exact mul_nonneg hr (abs_nonneg _)
  intro j
  obtain ⟨m, rfl⟩ := h.bij.2 j
  exact hz0 m

/-- C143. Exact collinearity is always found: if the columns of the design are linearly dependent, at least one is dropped. -/
theorem C143_collinear_detected (L : Lib n C K) (rcond : K) (hr : 0 ≤ rcond) (X : Matrix (Fin n) (Fin k) K) (q : Qr n k K)
    (hq : Pivoted L X q) (c : Fin k → K) (hc : c ≠ 0) (hz : ∀ i, ∑ j, X i j * c j = 0) : detect L rcond X ≠ .ok [] := by
  intro hdt
  apply hc
  funext j
  exact C143_kept_independent L rcond hr X q hq [] hdt c (by simp) hz j

/-- C143. Nothing far from collinear is dropped: every dropped column differs from some combination of the kept columns by at most
`rcond` times the length of the longest column of the design. -/
theorem C143_dropped_near_span (L : Lib n C K) (rcond : K) (hr : 0 ≤ rcond) (X : Matrix (Fin n) (Fin k) K) (q : Qr n k K)
    (hq : Pivoted L X q) (drop : List (Fin k)) (hdt : detect L rcond X = .ok drop) (j : Fin k) (hj : j ∈ drop) :
    ∃ c : Fin k → K, (∀ l ∈ drop, c l = 0) ∧ ∃ m,
      sq (fun i => X i j - ∑ l, X i l * c l) ≤ rcond ^ 2 * sq (fun i => X i m) ∧ ∀ l, sq (fun i => X i l) ≤ sq (fun i => X i m) := by
  have hk : 0 < k := j.pos
  have hs := detect_spec hq hr hdt hk
  obtain ⟨h, -, -⟩ := hq
  obtain ⟨m0, hm0⟩ := h.bij.2 j
  set o : Fin k := ⟨0, hk⟩ with ho
  set P : Fin k → Prop := fun m => rcond * |q.R o o| < |q.R m m| with hP
  have hlow : ∀ a b, a ≤ b → P b → P a := fun a b hab hb => lt_of_lt_of_le hb (h.diag_le a b hab)
  have hnP0 : ¬ P m0 := not_lt.mpr ((hs m0).mp (hm0 ▸ hj))
  have hdm : ∀ m, q.piv m ∈ drop ↔ ¬ P m := fun m => by rw [hs m, hP]; exact not_lt.symm
  classical
  -- the leading triangular block, completed by the identity
  set T : Matrix (Fin k) (Fin k) K := fun l m => if P l ∧ P m then q.R l m else if l = m then 1 else 0 with hT
  have hTtri : T.BlockTriangular id := by
    intro l m hlm
    have hlm' : m < l := hlm
    simp only [hT]
    by_cases hp : P l ∧ P m
    · rw [if_pos hp, h.tri l m hlm']
    · rw [if_neg hp, if_neg hlm'.ne']
  have hTd : T.det ≠ 0 := by
    rw [det_of_isUpperTriangular hTtri]
    refine Finset.prod_ne_zero_iff.mpr (fun m _ => ?_)
    simp only [hT]
    by_cases hp : P m
    · rw [if_pos ⟨hp, hp⟩]
      intro h0
      simp only [hP, h0, abs_zero] at hp
      exact absurd hp (not_lt.mpr (mul_nonneg hr (abs_nonneg _)))
    · rw [if_neg (fun hh => hp hh.1), if_pos trivial]; exact one_ne_zero
  set v : Fin k → K := fun l => if P l then q.R l m0 else 0 with hv
  set z : Fin k → K := T⁻¹ *ᵥ v with hz
  have hTz : T *ᵥ z = v := by
    rw [hz, mulVec_mulVec, mul_nonsing_inv _ (isUnit_iff_ne_zero.mpr hTd), one_mulVec]
  have hz0 : ∀ l, ¬ P l → z l = 0 := by
    intro l hl
    have h1 := congrFun hTz l
    have h2 : ∑ m, T l m * z m = z l := by
      rw [Finset.sum_eq_single l]
      · simp only [hT]; rw [if_neg (fun hh => hl hh.1), if_pos trivial, one_mul]
      · intro m _ hm
        simp only [hT]; rw [if_neg (fun hh => hl hh.1), if_neg (Ne.symm hm), zero_mul]
      · intro hh; exact absurd (Finset.mem_univ l) hh
    have h3 : z l = v l := by rw [← h2]; exact h1
    rw [h3, hv]; simp only [if_neg hl]
  have hRz : ∀ l, (q.R *ᵥ z) l = v l := by
    intro l
    by_cases hl : P l
    · rw [← hTz]
      show ∑ m, q.R l m * z m = ∑ m, T l m * z m
      apply Finset.sum_congr rfl
      intro m _
      by_cases hm : P m
      · simp only [hT]; rw [if_pos ⟨hl, hm⟩]
      · rw [hz0 m hm, mul_zero, mul_zero]
    · simp only [hv]
      rw [if_neg hl]
      show ∑ m, q.R l m * z m = 0
      apply Finset.sum_eq_zero
      intro m _
      by_cases hm : P m
      · have : m < l := by
          by_contra hml
          exact hl (hlow l m (not_lt.mp hml) hm)
        rw [h.tri l m this, zero_mul]
      · rw [hz0 m hm, mul_zero]
  -- the combination
  set e := Equiv.ofBijective q.piv h.bij with he
  have hcz : (fun m => (fun l => z (e.symm l)) (q.piv m)) = z := by
    funext m
    show z (e.symm (e m)) = z m
    rw [Equiv.symm_apply_apply]
  have colX : ∀ m, (fun i => X i (q.piv m)) = q.Q *ᵥ (fun l => q.R l m) := by
    intro m; funext i; rw [h.eq]; rfl
  refine ⟨fun l => z (e.symm l), ?_, q.piv o, ?_, ?_⟩
  · intro l hl
    obtain ⟨m, rfl⟩ := h.bij.2 l
    have : z (e.symm (e m)) = z m := by rw [Equiv.symm_apply_apply]
    show z (e.symm (e m)) = 0
    rw [this]
    exact hz0 m ((hdm m).mp hl)
  · have hcol0 : sq (fun i => X i (q.piv o)) = q.R o o ^ 2 := by
      rw [colX, sq_mulVec q.Q h.qq]
      unfold sq
      rw [Finset.sum_eq_single o]
      · intro l _ hl
        have : o < l := by
          rcases lt_or_gt_of_ne hl with h1 | h1
          · exact absurd h1 (by simp [ho, Fin.lt_def])
          · exact h1
        show q.R l o ^ 2 = 0
        rw [h.tri l o this]; ring
      · intro hh; exact absurd (Finset.mem_univ o) hh
    have hdiff : (fun i => X i j - ∑ l, X i l * z (e.symm l)) = q.Q *ᵥ (fun l => if P l then 0 else q.R l m0) := by
      have h1 : (fun i => X i j) = q.Q *ᵥ (fun l => q.R l m0) := by rw [← hm0, colX]
      have h2 : (fun i => ∑ l, X i l * z (e.symm l)) = q.Q *ᵥ v := by
        have := h.mulVec (fun l => z (e.symm l))
        rw [hcz] at this
        have hr' : q.R *ᵥ z = v := funext hRz
        rw [hr'] at this
        exact this
      have h3 : (fun i => X i j - ∑ l, X i l * z (e.symm l)) = (fun i => X i j) - (fun i => ∑ l, X i l * z (e.symm l)) := rfl
      rw [h3, h1, h2, ← mulVec_sub]
      congr 1
      funext l
      simp only [Pi.sub_apply, hv]
      split_ifs <;> ring
    rw [hdiff, sq_mulVec q.Q h.qq, hcol0]
    -- the first column that is not kept
    obtain ⟨m1, hm1, hmin⟩ := Finset.exists_min_image (Finset.univ.filter (fun m => ¬ P m)) id
      ⟨m0, Finset.mem_filter.mpr ⟨Finset.mem_univ _, hnP0⟩⟩
    have hm1' : ¬ P m1 := (Finset.mem_filter.mp hm1).2
    have hle : ∀ m, ¬ P m → m1 ≤ m := fun m hm => hmin m (Finset.mem_filter.mpr ⟨Finset.mem_univ _, hm⟩)
    calc sq (fun l => if P l then 0 else q.R l m0)
        = ∑ l ∈ Finset.univ.filter (fun l => m1 ≤ l), q.R l m0 ^ 2 := by
          unfold sq
          rw [Finset.sum_filter]
          apply Finset.sum_congr rfl
          intro l _
          show (if P l then (0 : K) else q.R l m0) ^ 2 = if m1 ≤ l then q.R l m0 ^ 2 else 0
          by_cases hl : P l
          · have : ¬ m1 ≤ l := fun hml => hm1' (hlow m1 l hml hl)
            rw [if_pos hl, if_neg this]; ring
          · rw [if_neg hl, if_pos (hle l hl)]
      _ ≤ q.R m1 m1 ^ 2 := h.greedy m1 m0 (hle m0 hnP0)
      _ ≤ (rcond * |q.R o o|) ^ 2 := by
          rw [sq_le_sq, abs_of_nonneg (mul_nonneg hr (abs_nonneg _))]
          exact not_lt.mp hm1'
      _ = rcond ^ 2 * q.R o o ^ 2 := by rw [mul_pow, sq_abs]
  · intro l
    obtain ⟨m, rfl⟩ := h.bij.2 l
    rw [colX, colX, sq_mulVec q.Q h.qq, sq_mulVec q.Q h.qq]
    have h1 := h.greedy o m (by simp [ho, Fin.le_def])
    have h2 : (Finset.univ.filter (fun i => o ≤ i)) = (Finset.univ : Finset (Fin k)) := by
      ext i; simp [ho, Fin.le_def]
    rw [h2] at h1
    refine le_trans h1 ?_
    exact Finset.single_le_sum (f := fun a => q.R a o ^ 2) (fun a _ => pow_two_nonneg _) (Finset.mem_univ o)

/-! ### Witnesses -/

/-- A library that answers with the given factorizations. -/
def libOf {n k : ℕ} (d : Dec n k K) (q : Qr n k K) : Lib n C K where
  faer := fun {k'} _ => if h : k = k' then some (h ▸ d) else none
  lapack := fun {k'} _ => if h : k = k' then some (h ▸ d) else none
  rdiag := fun {_} _ => List.ofFn (fun i => q.R i i)
  pivot := fun {k'} _ => if h : k = k' then h ▸ List.ofFn q.piv else []
  order := fun {_} l => l

theorem libOf_sound {X : Matrix (Fin n) (Fin k) K} {d : Dec n k K} (hd : IsSvd X d) (q : Qr n k K) : Sound (libOf (C := C) d q) X :=
  ⟨⟨d, by simp [libOf], hd⟩, ⟨d, by simp [libOf], hd⟩, fun l => List.Perm.refl l⟩

theorem libOf_pivoted {X : Matrix (Fin n) (Fin k) K} (d : Dec n k K) {q : Qr n k K} (hq : IsQr X q) : Pivoted (libOf (C := C) d q) X q :=
  ⟨hq, rfl, by simp [libOf]⟩

/-- Second singular value of the witness, about `8e-8`. -/
def eps : ℚ := 800000000 / 9999999999999991

/-- Length of the second column of the witness. -/
def len : ℚ := 4 / 5 * (10000000000000009 / 9999999999999991)

/-- Two nearly proportional columns: `(3/5, 4ε/5, 0)` and `(4/5, -3ε/5, 0)`. -/
def nearX : Matrix (Fin 3) (Fin 2) ℚ := !![3/5, 4/5; 4/5 * eps, -3/5 * eps; 0, 0]

def nearSvd : Dec 3 2 ℚ := ⟨!![1, 0; 0, 1; 0, 0], ![1, eps], !![3/5, 4/5; 4/5, -3/5]⟩

def nearQr : Qr 3 2 ℚ :=
  ⟨!![4/5 / len, 3/5 * eps / len; -3/5 * eps / len, 4/5 / len; 0, 0], !![len, 12/25 * (1 - eps ^ 2) / len; 0, eps / len], ![1, 0]⟩

/-- Outcome equal to the second left singular vector: the two regressors explain it completely. -/
def nearY : Fin 3 → ℚ := ![0, 1, 0]

theorem near_svd : IsSvd nearX nearSvd := ⟨by decide +kernel, by decide +kernel, by decide +kernel, by decide +kernel⟩

theorem near_qr : IsQr nearX nearQr :=
  ⟨by decide +kernel, by decide +kernel, by intro l m; fin_cases l <;> fin_cases m <;> decide +kernel, by decide +kernel,
    by intro l m; fin_cases l <;> fin_cases m <;> decide +kernel⟩

theorem near_full : detect (libOf (C := Unit) nearSvd nearQr) (1 / 10 ^ 7) nearX = .ok [] := by decide +kernel

/-- HC1 covariance, default options. -/
def defaults (n : ℕ) : Opts n Unit := ⟨none, true, false, false⟩

theorem near_ols : IsOls nearX nearY (fun j => nearSvd.V j 1 / eps) := by unfold IsOls; decide +kernel

theorem near_det : (nearXᵀ * nearX).det ≠ 0 := by
  rw [det_fin_two]; decide +kernel

theorem near_coef : coef (1 / 10 ^ 7) nearSvd nearY = 0 := by decide +kernel

theorem near_resid : resid nearX nearY (0 : Fin 2 → ℚ) = nearY := by decide +kernel

theorem near_vcov : ∃ V, vcovNumpy nearX nearY (none : Option (Fin 3 → Option Unit)) = .ok V := by
  refine ⟨sandwichNumpy ((Fintype.card (Fin 3) : ℚ) / ((Fintype.card (Fin 3) : ℚ) - (Fintype.card (Fin 2) : ℚ))) (nearXᵀ * nearX)
    (hc1Meat nearX nearY), ?_⟩
  simp only [vcovNumpy]
  rw [if_neg (by decide), if_neg near_det]

/-- C143. Counterexample to "a result without NaN is a least-squares fit": two columns with `R₂₂/R₁₁ ≈ 1.25e-7` pass the rank check,
but their second singular value is `8e-8` times the first and is cut off by the solver. The outcome is an exact linear combination of
the columns; with either backend and the default options the call succeeds with both coefficients zero, residuals equal to the outcome,
and a covariance matrix without NaN. -/
theorem C143_not_least_squares_refuted : ∃ (X : Matrix (Fin 3) (Fin 2) ℚ) (y : Fin 3 → ℚ) (d : Dec 3 2 ℚ) (q : Qr 3 2 ℚ),
    Sound (libOf (C := Unit) d q) X ∧ Pivoted (libOf (C := Unit) d q) X q ∧ y ≠ 0 ∧
    (∃ b : Fin 2 → ℚ, ∀ i, ∑ j, X i j * b j = y i) ∧
    ∀ hasRust, ∃ res, solve (libOf (C := Unit) d q) (1 / 10 ^ 7) hasRust (defaults 3) X y = .ok res ∧
      (∀ j, res.coef j = some 0) ∧ res.resid = y ∧ ∃ V, res.vcov = some V ∧ ∀ p, V p ≠ none := by
  refine ⟨nearX, nearY, nearSvd, nearQr, libOf_sound near_svd _, libOf_pivoted _ near_qr, by decide +kernel,
    ⟨fun j => nearSvd.V j 1 / eps, by decide +kernel⟩, fun hasRust => ?_⟩
  obtain ⟨V, hV⟩ := near_vcov
  refine ⟨⟨fun _ => some 0, nearY, fitted nearX 0, some (fun p => some (V p.1 p.2))⟩, ?_, fun _ => rfl, rfl,
    ⟨_, rfl, fun p => by simp⟩⟩
  have hf : solve (libOf nearSvd nearQr) (1 / 10 ^ 7) false (defaults 3) nearX nearY =
      .ok ⟨fun _ => some 0, nearY, fitted nearX 0, some (fun p => some (V p.1 p.2))⟩ := by
    have hl : (libOf (C := Unit) nearSvd nearQr).lapack nearX = some nearSvd := by simp [libOf]
    simp only [solve, defaults, Bool.false_eq_true, if_false, near_full, false_and, numpySolve, hl, near_coef, near_resid, if_true, hV]
    rfl
  cases hasRust with
  | false => exact hf
  | true =>
    rw [C143_backend_independent _ _ (by norm_num) _ _ (by norm_num) (by norm_num) (libOf_sound near_svd _)
      (by intro f hf; cases hf) rfl]
    exact hf

/-- A column of zeros next to the intercept. -/
def zeroX : Matrix (Fin 4) (Fin 2) ℚ := !![1, 0; 1, 0; 1, 0; 1, 0]
def zeroSvd : Dec 4 2 ℚ := ⟨!![1/2, 1/2; 1/2, -1/2; 1/2, 1/2; 1/2, -1/2], ![2, 0], 1⟩
def zeroQr : Qr 4 2 ℚ := ⟨!![1/2, 1/2; 1/2, -1/2; 1/2, 1/2; 1/2, -1/2], !![2, 0; 0, 0], ![0, 1]⟩

theorem zero_svd : IsSvd zeroX zeroSvd := ⟨by decide +kernel, by decide +kernel, by decide +kernel, by decide +kernel⟩

theorem zero_qr : IsQr zeroX zeroQr :=
  ⟨by decide +kernel, by decide +kernel, by intro l m; fin_cases l <;> fin_cases m <;> decide +kernel, by decide +kernel,
    by intro l m; fin_cases l <;> fin_cases m <;> decide +kernel⟩

/-- C143. Counterexample to backend independence with `skip_rank_check=True`: for a collinear design the compiled backend returns a
covariance matrix of NaN, the interpreted one raises an error. -/
theorem C143_skip_refuted : ∃ (X : Matrix (Fin 4) (Fin 2) ℚ) (d : Dec 4 2 ℚ) (q : Qr 4 2 ℚ),
    Sound (libOf (C := Unit) d q) X ∧ ∀ y, (∃ res V, solve (libOf (C := Unit) d q) (1 / 10 ^ 7) true ⟨none, true, false, true⟩ X y = .ok res ∧
      res.vcov = some V ∧ ∀ p, V p = none) ∧
    solve (libOf (C := Unit) d q) (1 / 10 ^ 7) false ⟨none, true, false, true⟩ X y = .error (.vcov .singular) := by
  refine ⟨zeroX, zeroSvd, zeroQr, libOf_sound zero_svd _, fun y => ⟨?_, ?_⟩⟩
  · have hl : (libOf (C := Unit) zeroSvd zeroQr).faer zeroX = some zeroSvd := by simp [libOf]
    have hr : effRank (1 / 10 ^ 7) zeroSvd.s < 2 := by decide +kernel
    refine ⟨⟨fun j => some (coef (1 / 10 ^ 7) zeroSvd y j), resid zeroX y (coef (1 / 10 ^ 7) zeroSvd y),
      fitted zeroX (coef (1 / 10 ^ 7) zeroSvd y), some (fun _ => none)⟩, fun _ => none, ?_, rfl, fun _ => rfl⟩
    simp only [solve, if_true, rustSolve, hl, if_pos hr]
  · have hl : (libOf (C := Unit) zeroSvd zeroQr).lapack zeroX = some zeroSvd := by simp [libOf]
    have hdet : (zeroXᵀ * zeroX).det = 0 := by rw [det_fin_two]; decide +kernel
    have hV : vcovNumpy zeroX (resid zeroX y (coef (1 / 10 ^ 7) zeroSvd y)) (none : Option (Fin 4 → Option Unit)) = .error .singular := by
      simp only [vcovNumpy]
      rw [if_neg (by decide), if_pos hdet]
    simp only [solve, if_true, Bool.false_eq_true, if_false, numpySolve, hl, hV]

/-- Intercept, treatment contrast and a covariate measured in units of `1/c`. -/
def unitX (c : ℚ) : Matrix (Fin 4) (Fin 3) ℚ := !![1, 1, c; 1, 1, -c; 1, -1, c; 1, -1, -c]
def unitSvd (c : ℚ) : Dec 4 3 ℚ := ⟨!![1/2, 1/2, 1/2; 1/2, 1/2, -1/2; 1/2, -1/2, 1/2; 1/2, -1/2, -1/2], ![2, 2, 2 * c], 1⟩
def unitQr (c : ℚ) : Qr 4 3 ℚ :=
  ⟨!![1/2, 1/2, 1/2; -1/2, 1/2, 1/2; 1/2, 1/2, -1/2; -1/2, 1/2, -1/2], !![2 * c, 0, 0; 0, 2, 0; 0, 0, 2], ![2, 0, 1]⟩
/-- Decomposition of the covariate column alone. -/
def colSvd (c : ℚ) : Dec 4 1 ℚ := ⟨!![1/2; -1/2; 1/2; -1/2], ![2 * c], 1⟩

theorem unit_svd1 : IsSvd (unitX 1) (unitSvd 1) := ⟨by decide +kernel, by decide +kernel, by decide +kernel, by decide +kernel⟩
theorem unit_svd2 : IsSvd (unitX (10 ^ 8)) (unitSvd (10 ^ 8)) :=
  ⟨by decide +kernel, by decide +kernel, by decide +kernel, by decide +kernel⟩
theorem unit_qr1 : IsQr (unitX 1) (unitQr 1) :=
  ⟨by decide +kernel, by decide +kernel, by intro l m; fin_cases l <;> fin_cases m <;> decide +kernel, by decide +kernel,
    by intro l m; fin_cases l <;> fin_cases m <;> decide +kernel⟩
theorem unit_qr2 : IsQr (unitX (10 ^ 8)) (unitQr (10 ^ 8)) :=
  ⟨by decide +kernel, by decide +kernel, by intro l m; fin_cases l <;> fin_cases m <;> decide +kernel, by decide +kernel,
    by intro l m; fin_cases l <;> fin_cases m <;> decide +kernel⟩

/-- The library answering for the whole design and for its last column. -/
def unitLib (c : ℚ) : Lib 4 Unit ℚ :=
  { libOf (unitSvd c) (unitQr c) with
    lapack := fun {k'} _ => if h : 3 = k' then some (h ▸ unitSvd c) else if h : 1 = k' then some (h ▸ colSvd c) else none }

/-- Coefficient `j` of a result. -/
def coefOf {n k : ℕ} (e : Except Err (Res n k K)) (j : Fin k) : Option (Option K) :=
  match e with
  | .error _ => none
  | .ok r => some (r.coef j)

/-- C143. Counterexample to "the units of a covariate do not matter": the same regression with the covariate measured in units `10^8` times
smaller (its column multiplied by `10^8`) reports NaN for the intercept and the treatment, whose coefficient was 3 before, because the rank
check compares the columns' lengths with the longest one. -/
theorem C143_units_refuted :
    (∃ res, solve (unitLib 1) (1 / 10 ^ 7) false ⟨none, false, false, false⟩ (unitX 1) (fun i => 3 * unitX 1 i 1) = .ok res ∧
      res.coef 1 = some 3) ∧
    (∃ res, solve (unitLib (10 ^ 8)) (1 / 10 ^ 7) false ⟨none, false, false, false⟩ (unitX (10 ^ 8)) (fun i => 3 * unitX 1 i 1) = .ok res ∧
      res.coef 0 = none ∧ res.coef 1 = none) ∧
    (∀ i, unitX (10 ^ 8) i 0 = unitX 1 i 0 ∧ unitX (10 ^ 8) i 1 = unitX 1 i 1 ∧ unitX (10 ^ 8) i 2 = 10 ^ 8 * unitX 1 i 2) ∧
    Pivoted (unitLib 1) (unitX 1) (unitQr 1) ∧ Pivoted (unitLib (10 ^ 8)) (unitX (10 ^ 8)) (unitQr (10 ^ 8)) := by
  have h1 : detect (unitLib 1) (1 / 10 ^ 7) (unitX 1) = .ok [] := by decide +kernel
  have h2 : detect (unitLib (10 ^ 8)) (1 / 10 ^ 7) (unitX (10 ^ 8)) = .ok [0, 1] := by decide +kernel
  have c1 : coefOf (solve (unitLib 1) (1 / 10 ^ 7) false ⟨none, false, false, false⟩ (unitX 1) (fun i => 3 * unitX 1 i 1)) 1 = some (some 3) := by
    decide +kernel
  have c2 : ∀ j : Fin 3, coefOf (solve (unitLib (10 ^ 8)) (1 / 10 ^ 7) false ⟨none, false, false, false⟩ (unitX (10 ^ 8))
      (fun i => 3 * unitX 1 i 1)) j = some (if j = 2 then some 0 else none) := by decide +kernel
  refine ⟨?_, ?_, by decide +kernel, ⟨unit_qr1, rfl, by simp [unitLib, libOf]⟩, ⟨unit_qr2, rfl, by simp [unitLib, libOf]⟩⟩
  · cases hs : solve (unitLib 1) (1 / 10 ^ 7) false ⟨none, false, false, false⟩ (unitX 1) (fun i => 3 * unitX 1 i 1) with
    | error e => rw [hs] at c1; cases c1
    | ok res => rw [hs] at c1; exact ⟨res, rfl, Option.some.inj c1⟩
  · cases hs : solve (unitLib (10 ^ 8)) (1 / 10 ^ 7) false ⟨none, false, false, false⟩ (unitX (10 ^ 8)) (fun i => 3 * unitX 1 i 1) with
    | error e => rw [hs] at c2; cases c2 0
    | ok res => rw [hs] at c2; exact ⟨res, rfl, Option.some.inj (c2 0), Option.some.inj (c2 1)⟩

/-! ### Examples -/

/-- The hypotheses of `C143_same_solution`, with two different decompositions of one matrix (order of the singular values and signs). -/
def altSvd : Dec 3 2 ℚ := ⟨!![0, -1; -1, 0; 0, 0], ![eps, 1], !![-4/5, -3/5; 3/5, -4/5]⟩

example : IsSvd nearX altSvd ∧ altSvd.s ≠ nearSvd.s ∧ coef (1 / 10 ^ 7) altSvd ![1, 1, 0] = coef (1 / 10 ^ 7) nearSvd ![1, 1, 0] :=
  have h : IsSvd nearX altSvd := ⟨by decide +kernel, by decide +kernel, by decide +kernel, by decide +kernel⟩
  ⟨h, by decide +kernel, (C143_same_solution nearX altSvd nearSvd h near_svd _ (by norm_num) _).1⟩

/-- Minimum norm: the zero column gets coefficient zero; the gap condition holds. -/
example : IsLargest zeroSvd.s 2 ∧ (∀ i, zeroSvd.s i = 0 ∨ 1 / 10 ^ 7 * 2 < zeroSvd.s i) ∧
    coef (1 / 10 ^ 7) zeroSvd ![1, 2, 3, 6] = ![3, 0] := by
  refine ⟨⟨by decide +kernel, 0, by decide +kernel⟩, by decide +kernel, by decide +kernel⟩

/-- A dropped column of the rank-deficient design is in the span of the others. -/
example : detect (libOf (C := Unit) zeroSvd zeroQr) (1 / 10 ^ 7) zeroX = .ok [1] ∧ Pivoted (libOf (C := Unit) zeroSvd zeroQr) zeroX zeroQr :=
  ⟨by decide +kernel, libOf_pivoted _ zero_qr⟩

/-- `C143_least_squares_partial` applies to the covariate in its original units. -/
example : Sound (libOf (C := Unit) (unitSvd 1) (unitQr 1)) (unitX 1) ∧ NoMissing (defaults 4) ∧
    detect (libOf (C := Unit) (unitSvd 1) (unitQr 1)) (1 / 10 ^ 7) (unitX 1) = .ok [] ∧
    ∀ d, IsSvd (unitX 1) d → IsLargest d.s 2 ∧ ∀ i, d.s i = 0 ∨ 1 / 10 ^ 7 * 2 < d.s i := by
  refine ⟨libOf_sound unit_svd1 _, (by intro f hf; cases hf), by decide +kernel, fun d hd => ?_⟩
  have h2 : ∀ i, d.s i = 2 := by
    intro i
    obtain ⟨j, hj⟩ := mix_exists hd unit_svd1 i
    rw [hj]
    fin_cases j <;> decide +kernel
  refine ⟨⟨fun i => (h2 i).le, 0, h2 0⟩, fun i => Or.inr ?_⟩
  rw [h2]; norm_num

end DiffDiff.Svd
