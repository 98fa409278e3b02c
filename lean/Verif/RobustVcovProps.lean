/-
C66 for the public function `compute_robust_vcov`: values and exceptions of the two backends.
-/
import Verif.RobustVcov
import Verif.VcovProps
import Mathlib.LinearAlgebra.Matrix.Rank

set_option linter.unusedSectionVars false
set_option linter.unusedVariables false

namespace DiffDiff.RobustVcov
open Matrix DiffDiff.Vcov

variable {K : Type*} [Field K] [LinearOrder K] [IsStrictOrderedRing K]
variable {κ C : Type*} [Fintype κ] [DecidableEq κ] [DecidableEq C]

/-! ### Specification -/

/-- A ValueError. -/
def IsValueError : Out κ K → Prop
  | .rankDeficient => True
  | .fewClusters => True
  | _ => False

/-- The hash map may be iterated in any order, but each entry once. -/
def Fair : Backend κ C K → Prop
  | .numpy => True
  | .compiled _ order => ∀ l, (order l).Perm l

/-- Some coefficient vector other than zero has fitted values zero. -/
def Collinear {n : ℕ} (X : Matrix (Fin n) κ K) : Prop := ∃ v : κ → K, v ≠ 0 ∧ ∀ i, ∑ j, X i j * v j = 0

/-- All rows are in one cluster (or there is no row). -/
def OneCluster {n : ℕ} (ids : Option (Fin n → Option C)) : Prop := ∃ f, ids = some f ∧ ∀ i j, f i = f j

/-! ### Lemmas -/

theorem gram_det {n : ℕ} (X : Matrix (Fin n) κ K) : (Xᵀ * X).det = 0 ↔ Collinear X := by
  rw [← Matrix.exists_mulVec_eq_zero_iff]
  constructor
  · rintro ⟨v, hv, h0⟩
    refine ⟨v, hv, ?_⟩
    have hq : (X *ᵥ v) ⬝ᵥ (X *ᵥ v) = 0 := by
      rw [← mulVec_mulVec] at h0
      have := congrArg (fun w => v ⬝ᵥ w) h0
      simp only [dotProduct_zero] at this
      rwa [dotProduct_mulVec, vecMul_transpose] at this
    have := dotProduct_self_eq_zero.1 hq
    intro i
    exact congrFun this i
  · rintro ⟨v, hv, h0⟩
    refine ⟨v, hv, ?_⟩
    rw [← mulVec_mulVec]
    have : X *ᵥ v = 0 := funext h0
    rw [this, mulVec_zero]

theorem wide_collinear {n : ℕ} (X : Matrix (Fin n) κ K) (h : n < Fintype.card κ) : Collinear X := by
  have : ¬ Function.Injective X.mulVecLin := by
    intro hi
    have := LinearMap.finrank_le_finrank_of_injective hi
    simp only [Module.finrank_fintype_fun_eq_card, Fintype.card_fin] at this
    omega
  rw [← LinearMap.ker_eq_bot, Submodule.eq_bot_iff] at this
  push Not at this
  obtain ⟨v, hv, h0⟩ := this
  exact ⟨v, h0, fun i => congrFun (LinearMap.mem_ker.1 hv) i⟩

theorem few_iff {n : ℕ} (f : Fin n → Option C) : nClusters f < 2 ↔ ∀ i j, f i = f j := by
  unfold nClusters
  rw [Nat.lt_succ_iff, Finset.card_le_one]
  constructor
  · intro h i j
    exact h _ (Finset.mem_image_of_mem f (Finset.mem_univ i)) _ (Finset.mem_image_of_mem f (Finset.mem_univ j))
  · intro h a ha b hb
    obtain ⟨i, _, rfl⟩ := Finset.mem_image.1 ha
    obtain ⟨j, _, rfl⟩ := Finset.mem_image.1 hb
    exact h i j

theorem entries_length {n : ℕ} (X : Matrix (Fin n) κ K) (u : Fin n → K) (f : Fin n → Option C)
    (entries : List (Option C × (κ → K))) (hp : entries.Perm (hmBuild (scoreRows X u f))) :
    entries.length = nClusters f := by
  obtain ⟨h1, h2, _⟩ := hmBuild_spec (scoreRows X u f)
  rw [hp.length_eq, ← List.length_map (f := Prod.fst), ← List.toFinset_card_of_nodup h1]
  unfold nClusters
  congr 1; ext g; rw [List.mem_toFinset, h2]
  simp only [scoreRows, List.map_ofFn, List.mem_ofFn, Finset.mem_image, Finset.mem_univ, true_and,
    Function.comp, Set.mem_range]

theorem numpy_cases {n : ℕ} (X : Matrix (Fin n) κ K) (u : Fin n → K) (ids : Option (Fin n → Option C))
    (hn : n ≠ Fintype.card κ) :
    (OneCluster ids ∧ vcovNumpy X u ids = .error .fewClusters) ∨
    (¬ OneCluster ids ∧ Collinear X ∧ vcovNumpy X u ids = .error .singular) ∨
    (¬ OneCluster ids ∧ ¬ Collinear X ∧ ∃ V, vcovNumpy X u ids = .ok V) := by
  have hn' : ¬ Fintype.card (Fin n) = Fintype.card κ := by simpa using hn
  cases ids with
  | none =>
    have h1 : ¬ OneCluster (none : Option (Fin n → Option C)) := by rintro ⟨f, hf, _⟩; simp at hf
    by_cases hd : (Xᵀ * X).det = 0
    · exact Or.inr (Or.inl ⟨h1, (gram_det X).1 hd, by simp only [vcovNumpy, if_neg hn', if_pos hd]⟩)
    · refine Or.inr (Or.inr ⟨h1, fun h => hd ((gram_det X).2 h), ?_⟩)
      exact ⟨_, by simp only [vcovNumpy, if_neg hn', if_neg hd]; rfl⟩
  | some f =>
    by_cases hG : nClusters f < 2
    · exact Or.inl ⟨⟨f, rfl, (few_iff f).1 hG⟩, by simp only [vcovNumpy, if_pos hG]⟩
    have h1 : ¬ OneCluster (some f) := by
      rintro ⟨g, hg, h⟩
      injection hg with hg; subst hg
      exact hG ((few_iff _).2 h)
    by_cases hd : (Xᵀ * X).det = 0
    · exact Or.inr (Or.inl ⟨h1, (gram_det X).1 hd, by simp only [vcovNumpy, if_neg hG, if_neg hn', if_pos hd]⟩)
    · refine Or.inr (Or.inr ⟨h1, fun h => hd ((gram_det X).2 h), ?_⟩)
      exact ⟨_, by simp only [vcovNumpy, if_neg hG, if_neg hn', if_neg hd]; rfl⟩

theorem rust_cases {n : ℕ} (X : Matrix (Fin n) κ K) (u : Fin n → K) (ids : Option (Fin n → Option C))
    (entries : List (Option C × (κ → K)))
    (hp : ∀ f, ids = some f → entries.Perm (hmBuild (scoreRows X u f)))
    (hn : n ≠ Fintype.card κ) :
    (Collinear X ∧ vcovRust X u ids entries = .error .singular) ∨
    (¬ Collinear X ∧ OneCluster ids ∧ vcovRust X u ids entries = .error .fewClusters) ∨
    (¬ Collinear X ∧ ¬ OneCluster ids ∧ ∃ V, vcovRust X u ids entries = .ok V) := by
  by_cases hd : (Xᵀ * X).det = 0
  · exact Or.inl ⟨(gram_det X).1 hd, by simp only [vcovRust, if_pos hd]⟩
  have hc : ¬ Collinear X := fun h => hd ((gram_det X).2 h)
  cases ids with
  | none =>
    have h1 : ¬ OneCluster (none : Option (Fin n → Option C)) := by rintro ⟨f, hf, _⟩; simp at hf
    exact Or.inr (Or.inr ⟨hc, h1, ⟨_, by simp only [vcovRust, if_neg hd, if_neg hn]; rfl⟩⟩)
  | some f =>
    have hl := entries_length X u f entries (hp f rfl)
    by_cases hG : nClusters f < 2
    · refine Or.inr (Or.inl ⟨hc, ⟨f, rfl, (few_iff f).1 hG⟩, ?_⟩)
      simp only [vcovRust, if_neg hd, hl, if_pos hG]
    have h1 : ¬ OneCluster (some f) := by
      rintro ⟨g, hg, h⟩
      injection hg with hg; subst hg
      exact hG ((few_iff _).2 h)
    exact Or.inr (Or.inr ⟨hc, h1, ⟨_, by simp only [vcovRust, if_neg hd, hl, if_neg hG, if_neg hn]; rfl⟩⟩)

theorem fair_perm {n : ℕ} {un : Bool} {order : List (Option C × (κ → K)) → List (Option C × (κ → K))}
    (hf : Fair (.compiled un order : Backend κ C K)) (X : Matrix (Fin n) κ K) (u : Fin n → K)
    (ids : Option (Fin n → Option C)) :
    ∀ f, ids = some f → (entriesOf order X u ids).Perm (hmBuild (scoreRows X u f)) := by
  rintro f rfl
  exact hf _

/-! ### C66 -/

/-- C66. For every design whose number of rows differs from its number of columns, whichever backend answers: a matrix is returned
exactly when the columns are linearly independent and there is not just one cluster, and otherwise a ValueError is raised. -/
theorem C66_when_it_answers {n : ℕ} (b : Backend κ C K) (hb : Fair b) (X : Matrix (Fin n) κ K) (u : Fin n → K)
    (ids : Option (Fin n → Option C)) (hn : n ≠ Fintype.card κ) :
    ((∃ V, compute b X u ids = .matrix V) ↔ ¬ Collinear X ∧ ¬ OneCluster ids) ∧
    (IsValueError (compute b X u ids) ↔ Collinear X ∨ OneCluster ids) := by
  have key : ∀ r : Except Err (Matrix κ κ K),
      ((r = .error .singular ∧ Collinear X) ∨ (r = .error .fewClusters ∧ OneCluster ids) ∨
        ((¬ Collinear X ∧ ¬ OneCluster ids) ∧ ∃ V, r = .ok V)) →
      ((∃ V, seen r = .matrix V) ↔ ¬ Collinear X ∧ ¬ OneCluster ids) ∧
      (IsValueError (seen r) ↔ Collinear X ∨ OneCluster ids) := by
    rintro r (⟨rfl, h⟩ | ⟨rfl, h⟩ | ⟨⟨h1, h2⟩, V, rfl⟩)
    · refine ⟨⟨?_, fun h' => absurd h h'.1⟩, ⟨fun _ => Or.inl h, fun _ => trivial⟩⟩
      rintro ⟨V, hV⟩; simp [seen] at hV
    · refine ⟨⟨?_, fun h' => absurd h h'.2⟩, ⟨fun _ => Or.inr h, fun _ => trivial⟩⟩
      rintro ⟨V, hV⟩; simp [seen] at hV
    · refine ⟨⟨fun _ => ⟨h1, h2⟩, fun _ => ⟨V, rfl⟩⟩, ⟨fun h => absurd h (by simp [seen, IsValueError]), ?_⟩⟩
      rintro (h | h)
      · exact absurd h h1
      · exact absurd h h2
  have hnp : (vcovNumpy X u ids = .error .singular ∧ Collinear X) ∨
      (vcovNumpy X u ids = .error .fewClusters ∧ OneCluster ids) ∨
        ((¬ Collinear X ∧ ¬ OneCluster ids) ∧ ∃ V, vcovNumpy X u ids = .ok V) := by
    rcases numpy_cases X u ids hn with ⟨h1, h2⟩ | ⟨_, h1, h2⟩ | ⟨h0, h1, h2⟩
    · exact Or.inr (Or.inl ⟨h2, h1⟩)
    · exact Or.inl ⟨h2, h1⟩
    · exact Or.inr (Or.inr ⟨⟨h1, h0⟩, h2⟩)
  match b, hb with
  | .numpy, _ => exact key _ hnp
  | .compiled true order, _ => exact key _ hnp
  | .compiled false order, hb =>
    apply key
    rcases rust_cases X u ids _ (fair_perm hb X u ids) hn with ⟨h1, h2⟩ | ⟨_, h1, h2⟩ | ⟨h0, h1, h2⟩
    · exact Or.inl ⟨h2, h1⟩
    · exact Or.inr (Or.inl ⟨h2, h1⟩)
    · exact Or.inr (Or.inr ⟨⟨h0, h1⟩, h2⟩)

/-- C66. With no missing cluster id and a number of rows different from the number of columns, every backend gives the caller the
same outcome, value or exception, unless the columns are dependent and there is a single cluster at the same time. -/
theorem C66_same_outcome {n : ℕ} (b b' : Backend κ C K) (hb : Fair b) (hb' : Fair b') (X : Matrix (Fin n) κ K) (u : Fin n → K)
    (ids : Option (Fin n → Option C)) (hn : n ≠ Fintype.card κ)
    (hmiss : ∀ f, ids = some f → ∀ i, f i ≠ none) (hboth : ¬ (Collinear X ∧ OneCluster ids)) :
    compute b X u ids = compute b' X u ids := by
  have main : ∀ b : Backend κ C K, Fair b → compute b X u ids = seen (vcovNumpy X u ids) := by
    intro b hb
    match b, hb with
    | .numpy, _ => rfl
    | .compiled true order, _ => rfl
    | .compiled false order, hb =>
      show seen (vcovRust X u ids (entriesOf order X u ids)) = _
      congr 1
      rcases rust_cases X u ids _ (fair_perm hb X u ids) hn with ⟨h1, h2⟩ | ⟨h0, h1, h2⟩ | ⟨h0, h1, V, h2⟩
      · rcases numpy_cases X u ids hn with ⟨g1, g2⟩ | ⟨_, g1, g2⟩ | ⟨g0, g1, g2⟩
        · exact absurd ⟨h1, g1⟩ hboth
        · rw [h2, g2]
        · exact absurd h1 g1
      · rcases numpy_cases X u ids hn with ⟨g1, g2⟩ | ⟨_, g1, g2⟩ | ⟨g0, g1, g2⟩
        · rw [h2, g2]
        · exact absurd g1 h0
        · exact absurd h1 g0
      · have hk : Fintype.card κ < n := by
          rcases Nat.lt_or_gt_of_ne hn with h | h
          · exact absurd (wide_collinear X h) h0
          · exact h
        rw [h2]
        exact ((C66_backends_agree_partial X u ids _ (fair_perm hb X u ids) hmiss hk V).1 h2).symm
  rw [main b hb, main b' hb']

/-- Three rows, two equal columns. -/
def twice : Matrix (Fin 3) (Fin 2) ℚ := fun _ _ => 1

/-- C66 is false of the exception raised: with two equal columns and a single cluster the interpreted backend complains about the
clusters and the compiled one about the design. -/
theorem C66_message_refuted :
    compute (.numpy : Backend (Fin 2) Bool ℚ) twice ![1, -1, 0] (some fun _ => some true) = .fewClusters ∧
    compute (.compiled false id : Backend (Fin 2) Bool ℚ) twice ![1, -1, 0] (some fun _ => some true)
      = .rankDeficient := by
  have hd : (twiceᵀ * twice).det = 0 := by
    rw [gram_det]
    refine ⟨![1, -1], ?_, ?_⟩
    · intro h; exact absurd (congrFun h 0) (by norm_num)
    · intro i; simp [twice]
  have hG : nClusters (fun _ : Fin 3 => some true) < 2 := by decide +kernel
  constructor
  · simp only [compute, vcovNumpy, if_pos hG, seen]
  · simp only [compute, vcovRust, if_pos hd, seen]

/-- C66 is false with as many rows as columns: for every such design with independent columns and no clusters the interpreted
backend raises ZeroDivisionError and the compiled one returns a matrix without a finite entry. -/
theorem C66_saturated_refuted {n : ℕ} (X : Matrix (Fin n) κ K) (u : Fin n → K) (hn : n = Fintype.card κ) (hX : ¬ Collinear X)
    (order : List (Option C × (κ → K)) → List (Option C × (κ → K))) :
    compute (.numpy : Backend κ C K) X u none = .zeroDivision ∧
    compute (.compiled false order : Backend κ C K) X u none = .notFinite := by
  have hd : ¬ (Xᵀ * X).det = 0 := fun h => hX ((gram_det X).1 h)
  have hn' : Fintype.card (Fin n) = Fintype.card κ := by simpa using hn
  constructor
  · simp only [compute, vcovNumpy, if_pos hn', seen]
  · simp only [compute, vcovRust, if_neg hd, if_pos hn, seen]

/-! ### Concrete cases -/

/-- Reversing the iteration order is fair. -/
example : Fair (.compiled false List.reverse : Backend (Fin 1) Bool ℚ) := fun l => List.reverse_perm l

/-- Three rows, intercept only, two clusters: no dependency, more than one cluster. -/
example : ¬ Collinear exX ∧ ¬ OneCluster (some (![some false, some true, some true] : Fin 3 → Option Bool)) := by
  refine ⟨fun h => exX_det ((gram_det _).2 h), ?_⟩
  rintro ⟨f, hf, h⟩
  injection hf with hf; subst hf
  exact absurd (h 0 1) (by decide)

/-- A one by one design with independent columns. -/
example : ¬ Collinear (fun _ _ => 1 : Matrix (Fin 1) (Fin 1) ℚ) := by
  rintro ⟨v, hv, h⟩
  apply hv
  ext j
  have := h 0
  fin_cases j
  simpa using this

end DiffDiff.RobustVcov
