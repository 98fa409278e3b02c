/-
Properties C14 (robust covariance), C15 (R-squared), C65 (saturated designs), C66 (missing cluster ids).
-/
import Verif.Vcov
import Verif.OlsProps
import Mathlib.LinearAlgebra.Matrix.ToLinearEquiv

set_option linter.unusedSectionVars false

namespace DiffDiff.Vcov
open Matrix

section base
variable {K : Type*} [Field K] [LinearOrder K] [IsStrictOrderedRing K]
variable {ι κ C : Type*} [Fintype ι] [Fintype κ] [DecidableEq κ] [DecidableEq C]

theorem gram_symm (X : Matrix ι κ K) : (Xᵀ * X)ᵀ = Xᵀ * X := by
  rw [transpose_mul, transpose_transpose]

theorem gram_inv_symm (X : Matrix ι κ K) : ((Xᵀ * X)⁻¹)ᵀ = (Xᵀ * X)⁻¹ := by
  rw [transpose_nonsing_inv, gram_symm]

theorem hc1Meat_symm (X : Matrix ι κ K) (u : ι → K) : (hc1Meat X u)ᵀ = hc1Meat X u := by
  ext a b; simp only [transpose_apply, hc1Meat]
  exact Finset.sum_congr rfl (fun i _ => by ring)

theorem numpyMeat_symm (X : Matrix ι κ K) (u : ι → K) (ids : ι → Option C) :
    (numpyMeat X u ids)ᵀ = numpyMeat X u ids := by
  ext a b; simp only [transpose_apply, numpyMeat]
  exact Finset.sum_congr rfl (fun i _ => by ring)

/-- The two solves are the textbook sandwich. -/
theorem sandwich_eq (adj : K) (A M : Matrix κ κ K) (hA : (A⁻¹)ᵀ = A⁻¹) :
    sandwichNumpy adj A M = adj • (A⁻¹ * M * A⁻¹) := by
  unfold sandwichNumpy
  rw [transpose_mul, transpose_transpose, hA]

theorem sandwich_symm (adj : K) (A M : Matrix κ κ K) (hA : (A⁻¹)ᵀ = A⁻¹) (hM : Mᵀ = M) :
    (sandwichNumpy adj A M)ᵀ = sandwichNumpy adj A M := by
  rw [sandwich_eq adj A M hA, transpose_smul, transpose_mul, transpose_mul, hA, hM, Matrix.mul_assoc]

/-- Quadratic form of a matrix. -/
def quad (V : Matrix κ κ K) (v : κ → K) : K := ∑ a, ∑ b, v a * V a b * v b

theorem quad_eq (V : Matrix κ κ K) (v : κ → K) : quad V v = v ⬝ᵥ (V *ᵥ v) := by
  simp only [quad, dotProduct, mulVec, Finset.mul_sum]
  exact Finset.sum_congr rfl (fun a _ => Finset.sum_congr rfl (fun b _ => by ring))

theorem quad_sandwich (adj : K) (A M : Matrix κ κ K) (hA : (A⁻¹)ᵀ = A⁻¹) (v : κ → K) :
    quad (sandwichNumpy adj A M) v = adj * quad M (A⁻¹ *ᵥ v) := by
  rw [sandwich_eq adj A M hA, quad_eq, quad_eq, smul_mulVec, dotProduct_smul, smul_eq_mul]
  congr 1
  rw [← mulVec_mulVec, ← mulVec_mulVec, dotProduct_mulVec]
  congr 1
  rw [← mulVec_transpose, hA]

theorem quad_hc1 (X : Matrix ι κ K) (u : ι → K) (v : κ → K) :
    quad (hc1Meat X u) v = ∑ i, ((∑ a, X i a * v a) * u i) ^ 2 := by
  simp only [quad, hc1Meat, Finset.mul_sum (s := (Finset.univ : Finset ι)),
    Finset.sum_mul (s := (Finset.univ : Finset ι))]
  rw [Finset.sum_congr rfl (fun a _ => Finset.sum_comm)]
  rw [Finset.sum_comm]
  refine Finset.sum_congr rfl (fun i _ => ?_)
  rw [Finset.sum_mul, pow_two (∑ a, _), Finset.sum_mul_sum]
  exact Finset.sum_congr rfl (fun a _ => Finset.sum_congr rfl (fun b _ => by ring))

theorem quad_numpyMeat (X : Matrix ι κ K) (u : ι → K) (ids : ι → Option C) (v : κ → K) :
    quad (numpyMeat X u ids) v
      = ∑ g ∈ (Finset.univ.image ids).erase none, (∑ a, score X u ids g a * v a) ^ 2 := by
  simp only [quad, numpyMeat, Finset.mul_sum, Finset.sum_mul]
  rw [Finset.sum_congr rfl (fun a _ => Finset.sum_comm)]
  rw [Finset.sum_comm]
  refine Finset.sum_congr rfl (fun g _ => ?_)
  rw [pow_two, Finset.sum_mul_sum]
  exact Finset.sum_congr rfl (fun a _ => Finset.sum_congr rfl (fun b _ => by ring))

/-- C14. Whenever a covariance matrix is returned it is symmetric and, for n > k, positive
semi-definite: every linear combination of coefficients has a non-negative variance, so standard
errors are real numbers. -/
theorem C14_symmetric_psd (X : Matrix ι κ K) (u : ι → K) (ids : Option (ι → Option C))
    (V : Matrix κ κ K) (h : vcovNumpy X u ids = .ok V) (hn : Fintype.card κ < Fintype.card ι) :
    (∀ a b, V a b = V b a) ∧ ∀ v : κ → K, 0 ≤ ∑ a, ∑ b, v a * V a b * v b := by
  have hnk : (0 : K) < (Fintype.card ι : K) - (Fintype.card κ : K) := by
    have : (Fintype.card κ : K) < (Fintype.card ι : K) := by exact_mod_cast hn
    linarith
  have key : ∀ (adj : K) (M : Matrix κ κ K), 0 ≤ adj → Mᵀ = M → (∀ v, 0 ≤ quad M v) →
      (∀ a b, sandwichNumpy adj (Xᵀ * X) M a b = sandwichNumpy adj (Xᵀ * X) M b a) ∧
      ∀ v : κ → K, 0 ≤ ∑ a, ∑ b, v a * sandwichNumpy adj (Xᵀ * X) M a b * v b := by
    intro adj M h0 hM hq
    constructor
    · intro a b
      have := sandwich_symm adj (Xᵀ * X) M (gram_inv_symm X) hM
      conv_lhs => rw [← this]
      rfl
    · intro v
      have := quad_sandwich adj (Xᵀ * X) M (gram_inv_symm X) v
      unfold quad at this
      rw [this]
      exact mul_nonneg h0 (hq _)
  cases ids with
  | none =>
    simp only [vcovNumpy] at h
    split_ifs at h
    injection h with h; subst h
    refine key _ _ (by positivity) (hc1Meat_symm X u) (fun v => ?_)
    rw [quad_hc1]; exact Finset.sum_nonneg (fun i _ => sq_nonneg _)
  | some ids =>
    simp only [vcovNumpy] at h
    split_ifs at h with h1 h2 h3
    injection h with h; subst h
    have hG : (0 : K) < (nClusters ids : K) - 1 := by
      have : (2 : K) ≤ (nClusters ids : K) := by exact_mod_cast (not_lt.1 h1)
      linarith
    have hn1 : (0 : K) ≤ (Fintype.card ι : K) - 1 := by
      have : (1 : K) ≤ (Fintype.card ι : K) := by exact_mod_cast (by omega : 1 ≤ Fintype.card ι)
      linarith
    refine key _ _ (by positivity) (numpyMeat_symm X u ids) (fun v => ?_)
    rw [quad_numpyMeat]; exact Finset.sum_nonneg (fun i _ => sq_nonneg _)

/-- C14. In particular variances on the diagonal are never negative. -/
theorem C14_variances_nonneg (X : Matrix ι κ K) (u : ι → K) (ids : Option (ι → Option C))
    (V : Matrix κ κ K) (h : vcovNumpy X u ids = .ok V) (hn : Fintype.card κ < Fintype.card ι) (a : κ) :
    0 ≤ V a a := by
  have := (C14_symmetric_psd X u ids V h hn).2 (fun b => if b = a then 1 else 0)
  simpa using this

/-- C14. Renaming clusters injectively changes nothing. -/
theorem C14_label_invariant {C' : Type*} [DecidableEq C'] (X : Matrix ι κ K) (u : ι → K)
    (ids : ι → Option C) (f : C → C') (hf : Function.Injective f) :
    vcovNumpy X u (some (fun i => (ids i).map f)) = vcovNumpy X u (some ids) := by
  have hinj : Function.Injective (Option.map f) := Option.map_injective hf
  have himg : Finset.univ.image (fun i => (ids i).map f) = (Finset.univ.image ids).image (Option.map f) := by
    rw [Finset.image_image]; rfl
  have hG : nClusters (fun i => (ids i).map f) = nClusters ids := by
    unfold nClusters; rw [himg, Finset.card_image_of_injective _ hinj]
  have hM : numpyMeat X u (fun i => (ids i).map f) = numpyMeat X u ids := by
    ext a b
    unfold numpyMeat
    have he : (Finset.univ.image (fun i => (ids i).map f)).erase none
        = ((Finset.univ.image ids).erase none).image (Option.map f) := by
      rw [himg, show (none : Option C') = Option.map f none from rfl, Finset.image_erase hinj]
    rw [he, Finset.sum_image (fun x _ y _ h => hinj h)]
    refine Finset.sum_congr rfl (fun g _ => ?_)
    have hs : score X u (fun i => (ids i).map f) (Option.map f g) = score X u ids g := by
      funext c; unfold score
      refine Finset.sum_congr ?_ (fun _ _ => rfl)
      ext i; simp only [Finset.mem_filter, Finset.mem_univ, true_and]
      exact hinj.eq_iff
    rw [hs]
  simp only [vcovNumpy, hG, hM]

/-- C14. Reordering the observations changes nothing. -/
theorem C14_row_order {ι' : Type*} [Fintype ι'] (e : ι' ≃ ι) (X : Matrix ι κ K) (u : ι → K)
    (ids : Option (ι → Option C)) :
    vcovNumpy (X.submatrix e id) (fun i => u (e i)) (ids.map (fun f i => f (e i)))
      = vcovNumpy X u ids := by
  have hn : Fintype.card ι' = Fintype.card ι := Fintype.card_congr e
  have hA : (X.submatrix e id)ᵀ * X.submatrix e id = Xᵀ * X := by
    ext a b; simp only [mul_apply, transpose_apply, submatrix_apply, id]
    exact Equiv.sum_comp e (fun i => X i a * X i b)
  have hH : hc1Meat (X.submatrix e id) (fun i => u (e i)) = hc1Meat X u := by
    ext a b; simp only [hc1Meat, submatrix_apply, id]
    exact Equiv.sum_comp e (fun i => X i a * (X i b * u i ^ 2))
  cases ids with
  | none => simp only [vcovNumpy, Option.map_none, hn, hA, hH]
  | some ids =>
    have himg : Finset.univ.image (fun i => ids (e i)) = Finset.univ.image ids := by
      ext g; simp only [Finset.mem_image, Finset.mem_univ, true_and]
      exact ⟨fun ⟨i, h⟩ => ⟨e i, h⟩, fun ⟨i, h⟩ => ⟨e.symm i, by simpa using h⟩⟩
    have hs : ∀ g, score (X.submatrix e id) (fun i => u (e i)) (fun i => ids (e i)) g
        = score X u ids g := by
      intro g; funext a; unfold score
      simp only [Finset.sum_filter, submatrix_apply, id]
      exact Equiv.sum_comp e (fun i => if ids i = g then X i a * u i else 0)
    have hM : numpyMeat (X.submatrix e id) (fun i => u (e i)) (fun i => ids (e i))
        = numpyMeat X u ids := by
      ext a b; simp only [numpyMeat, himg, hs]
    simp only [vcovNumpy, Option.map_some, hn, hA, hM, nClusters, himg]
    rfl

/-- C14. When every observation is its own cluster the clustered matrix is the HC1 matrix. -/
theorem C14_singleton_clusters (X : Matrix ι κ K) (u : ι → K) (ids : ι → C)
    (hinj : Function.Injective ids) (h2 : 2 ≤ Fintype.card ι) :
    vcovNumpy X u (some (fun i => some (ids i))) = vcovNumpy (C := C) X u none := by
  have hi : Function.Injective (fun i => some (ids i)) := fun a b h => hinj (Option.some.inj h)
  have hG : nClusters (fun i => some (ids i)) = Fintype.card ι := by
    unfold nClusters; rw [Finset.card_image_of_injective _ hi, Finset.card_univ]
  have hM : numpyMeat X u (fun i => some (ids i)) = hc1Meat X u := by
    ext a b
    unfold numpyMeat hc1Meat
    rw [Finset.erase_eq_of_notMem (by simp), Finset.sum_image (fun x _ y _ h => hi h)]
    refine Finset.sum_congr rfl (fun i _ => ?_)
    have hs : ∀ c, score X u (fun i => some (ids i)) (some (ids i)) c = X i c * u i := by
      intro c; unfold score
      have : Finset.univ.filter (fun j => some (ids j) = some (ids i)) = {i} := by
        ext j; simp only [Finset.mem_filter, Finset.mem_univ, true_and, Finset.mem_singleton]
        exact ⟨fun h => hi h, fun h => by rw [h]⟩
      rw [this, Finset.sum_singleton]
    rw [hs, hs]; ring
  have hadj : ((Fintype.card ι : K) / ((Fintype.card ι : K) - 1))
      * (((Fintype.card ι : K) - 1) / ((Fintype.card ι : K) - (Fintype.card κ : K)))
      = (Fintype.card ι : K) / ((Fintype.card ι : K) - (Fintype.card κ : K)) := by
    have : (Fintype.card ι : K) - 1 ≠ 0 := by
      have : (2 : K) ≤ (Fintype.card ι : K) := by exact_mod_cast h2
      intro h0; linarith
    field_simp
  simp only [vcovNumpy, hG, hM, hadj]
  rw [if_neg (by omega)]

/-- C14. Fewer than two clusters is always an error. -/
theorem C14_one_cluster_error (X : Matrix ι κ K) (u : ι → K) (g : Option C) (ids : ι → Option C)
    (h : ∀ i, ids i = g) : vcovNumpy X u (some ids) = .error .fewClusters := by
  have : nClusters ids < 2 := by
    unfold nClusters
    have : Finset.univ.image ids ⊆ {g} := by
      intro x hx; obtain ⟨i, _, rfl⟩ := Finset.mem_image.1 hx; simp [h i]
    have := Finset.card_le_card this
    simp at this; omega
  simp only [vcovNumpy, if_pos this]

/-- C14. Scaling the residuals by `c` scales the matrix by `c²` (standard errors by |c|). -/
theorem C14_scale (X : Matrix ι κ K) (u : ι → K) (c : K) (V : Matrix κ κ K)
    (ids : Option (ι → Option C)) (h : vcovNumpy X u ids = .ok V) :
    vcovNumpy X (fun i => c * u i) ids = .ok (c ^ 2 • V) := by
  have hs : ∀ (adj : K) (A M : Matrix κ κ K), sandwichNumpy adj A (c ^ 2 • M)
      = c ^ 2 • sandwichNumpy adj A M := by
    intro adj A M; unfold sandwichNumpy
    rw [Matrix.mul_smul, transpose_smul, Matrix.mul_smul, transpose_smul, smul_comm]
  cases ids with
  | none =>
    have hM : hc1Meat X (fun i => c * u i) = c ^ 2 • hc1Meat X u := by
      ext a b; simp only [hc1Meat, Matrix.smul_apply, smul_eq_mul, Finset.mul_sum]
      exact Finset.sum_congr rfl (fun i _ => by ring)
    simp only [vcovNumpy] at h ⊢
    split_ifs at h ⊢
    injection h with h; rw [← h, hM, hs]
  | some ids =>
    have hM : numpyMeat X (fun i => c * u i) ids = c ^ 2 • numpyMeat X u ids := by
      have hsc : ∀ g a, score X (fun i => c * u i) ids g a = c * score X u ids g a := by
        intro g a; simp only [score, Finset.mul_sum]
        exact Finset.sum_congr rfl (fun i _ => by ring)
      ext a b; simp only [numpyMeat, Matrix.smul_apply, smul_eq_mul, Finset.mul_sum, hsc]
      exact Finset.sum_congr rfl (fun i _ => by ring)
    simp only [vcovNumpy] at h ⊢
    split_ifs at h ⊢
    injection h with h; rw [← h, hM, hs]

/-! ### Compiled accumulation -/

variable {V : Type*} [AddCommMonoid V]

theorem hmAdd_keys (m : List (C × V)) (c : C) (row : V) :
    (hmAdd m c row).map Prod.fst = if c ∈ m.map Prod.fst then m.map Prod.fst else m.map Prod.fst ++ [c] := by
  induction m with
  | nil => simp [hmAdd]
  | cons e m ih =>
    simp only [hmAdd]
    by_cases h : e.1 = c
    · simp [h]
    · have hc : c ≠ e.1 := fun hh => h hh.symm
      simp only [h, if_false, List.map_cons, List.mem_cons, hc, false_or, ih]
      split_ifs <;> simp

theorem hmAdd_mem (m : List (C × V)) (c : C) (row : V) (hn : (m.map Prod.fst).Nodup) (e : C × V)
    (he : e ∈ hmAdd m c row) :
    (e.1 ≠ c ∧ e ∈ m) ∨ (e.1 = c ∧ ((∃ v, (c, v) ∈ m ∧ e.2 = v + row) ∨
      (c ∉ m.map Prod.fst ∧ e.2 = row))) := by
  induction m with
  | nil => simp [hmAdd] at he; subst he; simp
  | cons f m ih =>
    simp only [List.map_cons, List.nodup_cons] at hn
    simp only [hmAdd] at he
    by_cases h : f.1 = c
    · simp only [h, if_true, List.mem_cons] at he
      rcases he with rfl | he
      · right; refine ⟨rfl, Or.inl ⟨f.2, ?_, rfl⟩⟩
        rw [← h]; simp
      · left; refine ⟨?_, List.mem_cons_of_mem _ he⟩
        intro hc; apply hn.1; rw [h, ← hc]; exact List.mem_map_of_mem he
    · simp only [h, if_false, List.mem_cons] at he
      rcases he with rfl | he
      · left; exact ⟨h, by simp⟩
      · rcases ih hn.2 he with ⟨h1, h2⟩ | ⟨h1, ⟨v, hv, h2⟩ | ⟨h2, h3⟩⟩
        · left; exact ⟨h1, List.mem_cons_of_mem _ h2⟩
        · right; exact ⟨h1, Or.inl ⟨v, List.mem_cons_of_mem _ hv, h2⟩⟩
        · right; refine ⟨h1, Or.inr ⟨?_, h3⟩⟩
          simp only [List.map_cons, List.mem_cons, not_or]
          exact ⟨fun hh => h hh.symm, h2⟩

/-- Invariant of the accumulation loop: keys are the distinct clusters, each once, and each entry holds
the sum of the rows of its cluster. -/
theorem hmBuild_spec (rows : List (C × V)) :
    ((hmBuild rows).map Prod.fst).Nodup ∧
    (∀ c, c ∈ (hmBuild rows).map Prod.fst ↔ c ∈ rows.map Prod.fst) ∧
    (∀ e ∈ hmBuild rows, e.2 = ((rows.filter (fun r => r.1 = e.1)).map Prod.snd).sum) := by
  induction rows using List.reverseRecOn with
  | nil => simp [hmBuild]
  | append_singleton rows r ih =>
    obtain ⟨h1, h2, h3⟩ := ih
    have hb : hmBuild (rows ++ [r]) = hmAdd (hmBuild rows) r.1 r.2 := by
      simp [hmBuild, List.foldl_append]
    rw [hb]
    refine ⟨?_, ?_, ?_⟩
    · rw [hmAdd_keys]
      split_ifs with h
      · exact h1
      · rw [List.nodup_append]
        refine ⟨h1, by simp, ?_⟩
        intro a ha b hb' hab
        simp at hb'; subst hb'; subst hab; exact h ha
    · intro c
      rw [hmAdd_keys]
      split_ifs with h
      · rw [h2]; simp only [List.map_append, List.mem_append, List.map_cons, List.map_nil,
          List.mem_singleton]
        constructor
        · exact Or.inl
        · rintro (h' | rfl)
          · exact h'
          · exact (h2 _).1 h
      · simp only [List.mem_append, List.mem_singleton, List.map_append, List.map_cons, List.map_nil, h2]
    · intro e he
      rw [List.filter_append, List.map_append, List.sum_append]
      rcases hmAdd_mem _ _ _ h1 e he with ⟨g1, g2⟩ | ⟨g1, ⟨v, hv, g2⟩ | ⟨g2, g3⟩⟩
      · have : r.1 ≠ e.1 := fun hh => g1 hh.symm
        simp [this, h3 e g2]
      · have := h3 _ hv
        simp only at this
        rw [g2, this, g1]; simp
      · have : rows.filter (fun x => x.1 = e.1) = [] := by
          rw [List.filter_eq_nil_iff]
          intro x hx hxe
          apply g2; rw [h2, ← g1]
          simp only [decide_eq_true_eq] at hxe
          rw [← hxe]; exact List.mem_map_of_mem hx
        rw [this, g3]; simp [g1]

/-- C14. The compiled accumulation through a hash map gives, for every iteration order of the map, the
sum over clusters of outer products of score sums. -/
theorem C14_hash_order_irrelevant {n : ℕ} (X : Matrix (Fin n) κ K) (u : Fin n → K) (ids : Fin n → C)
    (entries : List (C × (κ → K))) (hp : entries.Perm (hmBuild (scoreRows X u ids))) (a b : κ) :
    rustMeat entries a b = ∑ g ∈ Finset.univ.image ids, score X u ids g a * score X u ids g b := by
  obtain ⟨h1, h2, h3⟩ := hmBuild_spec (scoreRows X u ids)
  have hkeys : ∀ g, g ∈ (hmBuild (scoreRows X u ids)).map Prod.fst ↔ g ∈ Finset.univ.image ids := by
    intro g; rw [h2]
    simp only [scoreRows, List.map_ofFn, List.mem_ofFn, Finset.mem_image, Finset.mem_univ, true_and,
      Function.comp, Set.mem_range]
  have hval : ∀ e ∈ hmBuild (scoreRows X u ids), ∀ c, e.2 c = score X u ids e.1 c := by
    intro e he c
    rw [h3 e he]
    have : ∀ (l : List (κ → K)), l.sum c = (l.map (fun f => f c)).sum := by
      intro l; induction l with
      | nil => rfl
      | cons f l ih => simp [ih]
    rw [this, score, Finset.sum_filter]
    have hsum : ∀ (l : List (C × (κ → K))), (((l.filter (fun r => r.1 = e.1)).map Prod.snd).map
        (fun f => f c)).sum = (l.map (fun r => if r.1 = e.1 then r.2 c else 0)).sum := by
      intro l; induction l with
      | nil => rfl
      | cons r l ih =>
        by_cases hr : r.1 = e.1 <;> simp_all [List.filter_cons]
    rw [hsum, scoreRows, List.map_ofFn, List.sum_ofFn]
    rfl
  unfold rustMeat
  rw [(hp.map _).sum_eq]
  rw [← Finset.sum_congr (s₁ := ((hmBuild (scoreRows X u ids)).map Prod.fst).toFinset) (by
    ext g; rw [List.mem_toFinset]; exact hkeys g) (fun _ _ => rfl)]
  rw [List.sum_toFinset _ h1, List.map_map]
  congr 1
  refine List.map_congr_left (fun e he => ?_)
  simp only [Function.comp, hval e he]

/-! ### C65, C66 -/

/-- C65. For a full-rank design with more observations than parameters (and at least two clusters if
clustering) a covariance matrix is returned. -/
theorem C65_full_rank_ok_partial (X : Matrix ι κ K) (u : ι → K) (ids : Option (ι → Option C))
    (hn : Fintype.card κ < Fintype.card ι)
    (indep : ∀ v : κ → K, (∀ i, ∑ j, X i j * v j = 0) → v = 0)
    (hG : ∀ f, ids = some f → ∃ i j, f i ≠ f j) :
    ∃ V, vcovNumpy X u ids = .ok V := by
  have hdet : (Xᵀ * X).det ≠ 0 := by
    intro h0
    obtain ⟨v, hv, hv0⟩ := Matrix.exists_mulVec_eq_zero_iff.2 h0
    apply hv
    apply indep
    have hq : (X *ᵥ v) ⬝ᵥ (X *ᵥ v) = 0 := by
      rw [← mulVec_mulVec] at hv0
      have := congrArg (fun w => v ⬝ᵥ w) hv0
      simp only [dotProduct_zero] at this
      rw [dotProduct_mulVec, vecMul_transpose] at this
      exact this
    intro i
    have hs : ∑ i, (X *ᵥ v) i * (X *ᵥ v) i = 0 := hq
    have := (Finset.sum_eq_zero_iff_of_nonneg (fun i _ => mul_self_nonneg _)).1 hs i (Finset.mem_univ i)
    have := mul_self_eq_zero.1 this
    exact this
  have hne : ¬ Fintype.card ι = Fintype.card κ := by omega
  cases ids with
  | none => exact ⟨_, by simp only [vcovNumpy, if_neg hne, if_neg hdet]; rfl⟩
  | some f =>
    obtain ⟨i, j, hij⟩ := hG f rfl
    have : ¬ nClusters f < 2 := by
      unfold nClusters
      have : ({f i, f j} : Finset (Option C)) ⊆ Finset.univ.image f := by
        intro x hx; simp only [Finset.mem_insert, Finset.mem_singleton] at hx
        rcases hx with rfl | rfl <;> exact Finset.mem_image_of_mem f (Finset.mem_univ _)
      have := Finset.card_le_card this
      rw [Finset.card_pair hij] at this; omega
    exact ⟨_, by simp only [vcovNumpy, if_neg this, if_neg hne, if_neg hdet]; rfl⟩

/-- C65 fails for saturated designs: with as many observations as parameters, which `solve_ols` accepts,
the interpreted path always dies with ZeroDivisionError instead of a documented ValueError. -/
theorem C65_saturated_refuted (X : Matrix ι κ K) (u : ι → K) (h : Fintype.card ι = Fintype.card κ) :
    vcovNumpy (C := C) X u none = .error .zeroDivision ∧
    (∀ ids : ι → Option C, (∃ i j, ids i ≠ ids j) → vcovNumpy X u (some ids) = .error .zeroDivision) := by
  refine ⟨by simp only [vcovNumpy, if_pos h], fun ids ⟨i, j, hij⟩ => ?_⟩
  have : ¬ nClusters ids < 2 := by
    unfold nClusters
    have : ({ids i, ids j} : Finset (Option C)) ⊆ Finset.univ.image ids := by
      intro x hx; simp only [Finset.mem_insert, Finset.mem_singleton] at hx
      rcases hx with rfl | rfl <;> exact Finset.mem_image_of_mem ids (Finset.mem_univ _)
    have := Finset.card_le_card this
    rw [Finset.card_pair hij] at this; omega
  simp only [vcovNumpy, if_neg this, if_pos h]

/-- C66. Both backends return the same matrix for every design with more observations than parameters
when no cluster id is missing, whatever the hash map order. -/
theorem C66_backends_agree_partial {n : ℕ} (X : Matrix (Fin n) κ K) (u : Fin n → K)
    (ids : Option (Fin n → Option C)) (entries : List (Option C × (κ → K)))
    (hp : ∀ f, ids = some f → entries.Perm (hmBuild (scoreRows X u f)))
    (hmiss : ∀ f, ids = some f → ∀ i, f i ≠ none)
    (hn : Fintype.card κ < n) (V : Matrix κ κ K) :
    vcovRust X u ids entries = .ok V ↔ vcovNumpy X u ids = .ok V := by
  have hne : ¬ n = Fintype.card κ := by omega
  have hne' : ¬ Fintype.card (Fin n) = Fintype.card κ := by simpa using hne
  cases ids with
  | none =>
    simp only [vcovRust, vcovNumpy, if_neg hne, if_neg hne', Fintype.card_fin,
      sandwich_eq _ _ _ (gram_inv_symm X)]
  | some f =>
    have hM : rustMeat entries = numpyMeat X u f := by
      ext a b
      rw [C14_hash_order_irrelevant X u f entries (hp f rfl), numpyMeat, Finset.erase_eq_of_notMem]
      simp only [Finset.mem_image, Finset.mem_univ, true_and, not_exists]
      exact hmiss f rfl
    have hG : entries.length = nClusters f := by
      obtain ⟨h1, h2, _⟩ := hmBuild_spec (scoreRows X u f)
      rw [(hp f rfl).length_eq, ← List.length_map (f := Prod.fst), ← List.toFinset_card_of_nodup h1]
      unfold nClusters
      congr 1; ext g; rw [List.mem_toFinset, h2]
      simp only [scoreRows, List.map_ofFn, List.mem_ofFn, Finset.mem_image, Finset.mem_univ, true_and,
        Function.comp, Set.mem_range]
    simp only [vcovRust, vcovNumpy, if_neg hne, if_neg hne', Fintype.card_fin, hM, hG,
      sandwich_eq _ _ _ (gram_inv_symm X)]
    split_ifs <;> simp

end base

/-! ### Witnesses -/

/-- Intercept-only design, three rows, clusters a, b and one row whose cluster id is missing. -/
def exX : Matrix (Fin 3) (Fin 1) ℚ := fun _ _ => 1
def exU : Fin 3 → ℚ := ![1, -3, 2]
def exIds : Fin 3 → Option Bool := ![some false, some true, none]

theorem exX_gram : exXᵀ * exX = !![3] := by
  ext a b; fin_cases a; fin_cases b; decide +kernel

theorem exX_inv : (exXᵀ * exX)⁻¹ = !![1 / 3] := by
  rw [exX_gram]
  apply Matrix.inv_eq_right_inv
  ext a b; fin_cases a; fin_cases b; simp [mul_apply]

theorem exX_det : (exXᵀ * exX).det ≠ 0 := by rw [exX_gram]; simp

/-- C66 is false with a missing cluster id: the interpreted backend drops the row's score from the meat
but counts it as a cluster, the compiled backend treats the missing ids as a cluster. Here the
reported variances are 5/3 and 7/3. -/
theorem C66_missing_cluster_refuted :
    ∃ (V W : Matrix (Fin 1) (Fin 1) ℚ),
      vcovNumpy exX exU (some exIds) = .ok V ∧
      vcovRust exX exU (some exIds) (hmBuild (scoreRows exX exU exIds)) = .ok W ∧
      V 0 0 = 5 / 3 ∧ W 0 0 = 7 / 3 := by
  have hG : nClusters exIds = 3 := by decide +kernel
  have hL : (hmBuild (scoreRows exX exU exIds)).length = 3 := by decide +kernel
  have hm : numpyMeat exX exU exIds 0 0 = 10 := by decide +kernel
  have hr : rustMeat (hmBuild (scoreRows exX exU exIds)) 0 0 = 14 := by decide +kernel
  have h1 : vcovNumpy exX exU (some exIds) = .ok (sandwichNumpy (3 / 2) (exXᵀ * exX)
      (numpyMeat exX exU exIds)) := by
    simp only [vcovNumpy, hG, if_neg exX_det, Fintype.card_fin]; norm_num
  have h2 : vcovRust exX exU (some exIds) (hmBuild (scoreRows exX exU exIds))
      = .ok ((3 / 2 : ℚ) • ((exXᵀ * exX)⁻¹ * rustMeat (hmBuild (scoreRows exX exU exIds))
        * (exXᵀ * exX)⁻¹)) := by
    simp only [vcovRust, hL, if_neg exX_det, Fintype.card_fin]; norm_num
  refine ⟨_, _, h1, h2, ?_, ?_⟩
  · rw [sandwich_eq _ _ _ (gram_inv_symm exX), exX_inv]
    simp only [Matrix.smul_apply, mul_apply, Finset.univ_unique, Fin.default_eq_zero,
      Finset.sum_singleton, hm, smul_eq_mul]
    simp; norm_num
  · rw [exX_inv]
    simp only [Matrix.smul_apply, mul_apply, Finset.univ_unique, Fin.default_eq_zero,
      Finset.sum_singleton, hr, smul_eq_mul]
    simp; norm_num

/-- The hypotheses of the positive theorems hold for the same design. -/
example : ∃ V, vcovNumpy (C := Bool) exX exU none = .ok V := by
  simp only [vcovNumpy, if_neg exX_det]; exact ⟨_, rfl⟩
example : Fintype.card (Fin 1) < 3 ∧ (∀ v : Fin 1 → ℚ, (∀ i, ∑ j, exX i j * v j = 0) → v = 0) := by
  refine ⟨by decide, fun v h => ?_⟩
  have := h 0; simp [exX] at this; funext j; fin_cases j; exact this
example : hmBuild (scoreRows exX exU (![true, false, true] : Fin 3 → Bool))
    = [(true, fun _ => 3), (false, fun _ => -3)] := by
  decide +kernel

/-! ### C15 -/

section r2
variable {K : Type*} [Field K] [LinearOrder K] [IsStrictOrderedRing K]
variable {ι κ : Type*} [Fintype ι] [Fintype κ]

theorem ssTot_nonneg (y : ι → K) (m : K) : 0 ≤ ∑ i, (y i - m) ^ 2 :=
  Finset.sum_nonneg (fun i _ => sq_nonneg _)

/-- C15. R-squared never exceeds one, whatever the residuals. -/
theorem C15_at_most_one (y r : ι → K) (np : ℕ) : rSquared y r false np ≤ 1 := by
  simp only [rSquared, Bool.false_eq_true, if_false]
  split_ifs with h
  · exact zero_le_one
  · have h1 := ssTot_nonneg y ((∑ i, y i) / (Fintype.card ι : K))
    have h2 : 0 ≤ ∑ i, r i ^ 2 := Finset.sum_nonneg (fun i _ => sq_nonneg _)
    have : 0 ≤ (∑ i, r i ^ 2) / ∑ i, (y i - (∑ i, y i) / (Fintype.card ι : K)) ^ 2 := by positivity
    linarith

/-- C15. A constant outcome has R-squared zero, adjusted or not. -/
theorem C15_constant_outcome (c : K) (r : ι → K) (adj : Bool) (np : ℕ) :
    rSquared (fun _ => c) r adj np = 0 := by
  simp only [rSquared]
  rw [if_pos]
  rcases isEmpty_or_nonempty ι with hι | hι
  · simp
  · have : (Fintype.card ι : K) ≠ 0 := by exact_mod_cast Fintype.card_ne_zero
    refine Finset.sum_eq_zero (fun i _ => ?_)
    rw [Finset.sum_const, Finset.card_univ, nsmul_eq_mul]; field_simp; simp

/-- C15. For residuals of a least-squares fit whose columns can reproduce a constant (an intercept),
R-squared lies in [0, 1], and it equals 1 exactly when the fit is perfect. -/
theorem C15_in_unit_interval (X : ι → κ → K) (y : ι → K) (b : κ → K) (h : Ols.IsOls X y b)
    (c0 : κ → K) (hc : ∀ i, ∑ j, X i j * c0 j = 1) (np : ℕ) :
    0 ≤ rSquared y (fun i => y i - ∑ j, X i j * b j) false np ∧
    rSquared y (fun i => y i - ∑ j, X i j * b j) false np ≤ 1 := by
  refine ⟨?_, C15_at_most_one _ _ _⟩
  simp only [rSquared, Bool.false_eq_true, if_false]
  split_ifs with h0
  · exact le_refl _
  · set m := (∑ i, y i) / (Fintype.card ι : K) with hm
    have h1 := ssTot_nonneg y m
    have hpos : 0 < ∑ i, (y i - m) ^ 2 := lt_of_le_of_ne h1 (Ne.symm h0)
    have hmin := (Ols.C11_iff_minimises X y b).1 h (fun j => c0 j * m)
    have e : ∀ i, ∑ j, X i j * (c0 j * m) = m := by
      intro i; simp only [← mul_assoc, ← Finset.sum_mul, hc, one_mul]
    simp only [e] at hmin
    have : (∑ i, (y i - ∑ j, X i j * b j) ^ 2) / ∑ i, (y i - m) ^ 2 ≤ 1 := (div_le_one hpos).2 hmin
    linarith

/-- C15. Adding regressors never lowers R-squared. -/
theorem C15_monotone {κ' : Type*} [Fintype κ'] (X : ι → κ → K) (Z : ι → κ' → K) (y : ι → K)
    (b : κ → K) (b' : κ ⊕ κ' → K)
    (h' : Ols.IsOls (fun i => Sum.elim (X i) (Z i)) y b') (np np' : ℕ) :
    rSquared y (fun i => y i - ∑ j, X i j * b j) false np
      ≤ rSquared y (fun i => y i - ∑ j, Sum.elim (X i) (Z i) j * b' j) false np' := by
  simp only [rSquared, Bool.false_eq_true, if_false]
  split_ifs with h0
  · exact le_refl _
  · set m := (∑ i, y i) / (Fintype.card ι : K) with hm
    have h1 := ssTot_nonneg y m
    have hpos : 0 < ∑ i, (y i - m) ^ 2 := lt_of_le_of_ne h1 (Ne.symm h0)
    have hmin := (Ols.C11_iff_minimises _ y b').1 h' (Sum.elim b (fun _ => 0))
    simp only [Fintype.sum_sum_type, Sum.elim_inl, Sum.elim_inr, mul_zero, Finset.sum_const_zero,
      add_zero] at hmin
    simp only [Fintype.sum_sum_type, Sum.elim_inl, Sum.elim_inr]
    gcongr

/-- C15. The adjusted value never exceeds the unadjusted one when at least one parameter is counted, and
equals it when there are no residual degrees of freedom. -/
theorem C15_adjusted_le (y r : ι → K) (np : ℕ) (h1 : 1 ≤ np) :
    rSquared y r true np ≤ rSquared y r false np ∧
    (Fintype.card ι ≤ np → rSquared y r true np = rSquared y r false np) := by
  constructor
  · simp only [rSquared, Bool.false_eq_true, if_false, if_true]
    split_ifs with h0 h2
    · exact le_refl _
    · exact le_refl _
    · have hs := ssTot_nonneg y ((∑ i, y i) / (Fintype.card ι : K))
      have hr : 0 ≤ ∑ i, r i ^ 2 := Finset.sum_nonneg (fun i _ => sq_nonneg _)
      set q := (∑ i, r i ^ 2) / ∑ i, (y i - (∑ i, y i) / (Fintype.card ι : K)) ^ 2 with hq
      have hq0 : 0 ≤ q := by positivity
      have hnp : (np : K) < (Fintype.card ι : K) := by exact_mod_cast not_le.1 h2
      have h1' : (1 : K) ≤ (np : K) := by exact_mod_cast h1
      have hd : 0 < (Fintype.card ι : K) - (np : K) := by linarith
      have : q ≤ (1 - (1 - q)) * ((Fintype.card ι : K) - 1) / ((Fintype.card ι : K) - (np : K)) := by
        rw [le_div_iff₀ hd]
        nlinarith
      linarith
  · intro h; simp only [rSquared, if_pos h, if_true, Bool.false_eq_true, if_false]

end r2

example : rSquared (![1, 2, 6] : Fin 3 → ℚ) ![0, -1, 1] false 2 = 6 / 7 ∧
    rSquared (![1, 2, 6] : Fin 3 → ℚ) ![0, -1, 1] true 2 = 5 / 7 := by
  constructor <;> decide +kernel
example : Ols.IsOls (fun (_ : Fin 3) (_ : Fin 1) => (1 : ℚ)) ![1, 2, 6] ![3] ∧
    (∀ i : Fin 3, ∑ j : Fin 1, (fun (_ : Fin 3) (_ : Fin 1) => (1 : ℚ)) i j * ![1] j = 1) := by
  constructor
  · intro j; fin_cases j; decide +kernel
  · decide +kernel

end DiffDiff.Vcov
