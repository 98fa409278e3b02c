/-
Property C150: DifferenceInDifferences.fit with covariates, fixed effects and absorbed effects.
-/
import Verif.DidFull
import Verif.TwfeFitProps
import Verif.LinRegRank
import Mathlib.Algebra.BigOperators.Fin
import Mathlib.Data.Set.Card

set_option linter.unusedSectionVars false
set_option linter.unusedVariables false

namespace DiffDiff.DidFull
open Matrix Vcov Did2x2
open Ols (IsOls resid fitted)
open TwfeFit (Works Keeps)

variable {K : Type*} [Field K] [LinearOrder K] [IsStrictOrderedRing K]
variable {ι C : Type*} [Fintype ι] [DecidableEq ι] [DecidableEq C]

/-! ### Specification -/

/-- A 0/1 column that takes both values and has no gaps. -/
def Binary (x : ι → Option K) : Prop := (∀ i, x i = some 0 ∨ x i = some 1) ∧ (∃ i, x i = some 0) ∧ ∃ i, x i = some 1

/-- Data a call accepts: complete outcome and covariates, 0/1 treatment and time with both values. -/
structure Valid (D : Data ι C K) : Prop where
  y : ∀ i, D.y i ≠ none
  cov : ∀ x ∈ D.cov, ∀ i, x i ≠ none
  d : Binary D.d
  t : Binary D.t

/-- Combination of constant, treatment, time, interaction (with weight `e`) and the further columns. -/
def Comb (d t : ι → Bool) (xs : List (ι → K)) (e : K) (f : ι → K) : Prop :=
  ∃ (a b c : K) (γ : Fin xs.length → K), ∀ i, f i = a + b * ind (d i) + c * ind (t i) + e * (ind (d i) * ind (t i)) + ∑ j, γ j * (xs[j] i)

/-- Orthogonal to every column but the interaction, whose product with `r` is `e`. -/
structure Orth (d t : ι → Bool) (xs : List (ι → K)) (r : ι → K) (e : K) : Prop where
  const : ∑ i, r i = 0
  treat : ∑ i, ind (d i) * r i = 0
  time : ∑ i, ind (t i) * r i = 0
  inter : ∑ i, ind (d i) * ind (t i) * r i = e
  extra : ∀ x ∈ xs, ∑ i, x i * r i = 0

/-- Linearly independent columns. -/
def FullRank (d t : ι → Bool) (xs : List (ι → K)) : Prop :=
  ∀ (a b c e : K) (γ : Fin xs.length → K), (∀ i, a + b * ind (d i) + c * ind (t i) + e * (ind (d i) * ind (t i)) + ∑ j, γ j * (xs[j] i) = 0) →
    a = 0 ∧ b = 0 ∧ c = 0 ∧ e = 0 ∧ ∀ j, γ j = 0

/-- Number of distinct labels. -/
noncomputable def labels (g : ι → Option ℤ) : ℕ := {a | ∃ i, g i = some a}.ncard

/-- Number of coefficients: four, one per covariate, one per label of a fixed effect but one. -/
noncomputable def nCoef (D : Data ι C K) : ℕ := 4 + D.cov.length + (D.fixed.map (fun g => labels g - 1)).sum

/-- Two columns group the rows alike. -/
def SameGroups (g g' : ι → Option ℤ) : Prop := ∀ i j, g i = g j ↔ g' i = g' j

/-! ### Validation -/

theorem nunique_two {x : ι → Option K} (h : ∀ i, x i = some 0 ∨ x i = some 1) : 2 ≤ nunique x ↔ (∃ i, x i = some 0) ∧ ∃ i, x i = some 1 := by
  unfold nunique
  constructor
  · intro h2
    have hs : (Finset.univ.image x).erase none ⊆ {some 0, some 1} := by
      intro v hv
      obtain ⟨i, -, rfl⟩ := Finset.mem_image.1 (Finset.mem_of_mem_erase hv)
      rcases h i with e | e <;> simp [e]
    constructor
    · by_contra hno
      push Not at hno
      have : (Finset.univ.image x).erase none ⊆ {some 1} := by
        intro v hv
        obtain ⟨i, -, rfl⟩ := Finset.mem_image.1 (Finset.mem_of_mem_erase hv)
        rcases h i with e | e
        · exact absurd e (hno i)
        · simp [e]
      have := Finset.card_le_card this
      rw [Finset.card_singleton] at this
      omega
    · by_contra hno
      push Not at hno
      have : (Finset.univ.image x).erase none ⊆ {some 0} := by
        intro v hv
        obtain ⟨i, -, rfl⟩ := Finset.mem_image.1 (Finset.mem_of_mem_erase hv)
        rcases h i with e | e
        · simp [e]
        · exact absurd e (hno i)
      have := Finset.card_le_card this
      rw [Finset.card_singleton] at this
      omega
  · rintro ⟨⟨i, hi⟩, j, hj⟩
    have : ({some 0, some 1} : Finset (Option K)) ⊆ (Finset.univ.image x).erase none := by
      intro v hv
      simp only [Finset.mem_insert, Finset.mem_singleton] at hv
      rcases hv with rfl | rfl
      · exact Finset.mem_erase.2 ⟨by simp, Finset.mem_image.2 ⟨i, Finset.mem_univ _, hi⟩⟩
      · exact Finset.mem_erase.2 ⟨by simp, Finset.mem_image.2 ⟨j, Finset.mem_univ _, hj⟩⟩
    have h2 := Finset.card_le_card this
    rwa [Finset.card_pair (by simp)] at h2

theorem validate_none (D : Data ι C K) : validate D = none ↔ Valid D := by
  unfold validate
  constructor
  · intro h
    by_cases h1 : ∃ x ∈ D.y :: D.d :: D.t :: D.cov, HasMissing x
    · rw [if_pos h1] at h; cases h
    rw [if_neg h1] at h
    by_cases h2 : nunique D.d < 2
    · rw [if_pos h2] at h; cases h
    rw [if_neg h2] at h
    by_cases h3 : nunique D.t < 2
    · rw [if_pos h3] at h; cases h
    rw [if_neg h3] at h
    by_cases h4 : ∃ i, D.d i ≠ some 0 ∧ D.d i ≠ some 1
    · rw [if_pos h4] at h; cases h
    rw [if_neg h4] at h
    by_cases h5 : ∃ i, D.t i ≠ some 0 ∧ D.t i ≠ some 1
    · rw [if_pos h5] at h; cases h
    push Not at h1 h4 h5
    have k4 : ∀ i, D.d i = some 0 ∨ D.d i = some 1 := fun i => by
      by_cases e : D.d i = some 0
      · exact .inl e
      · exact .inr (h4 i e)
    have k5 : ∀ i, D.t i = some 0 ∨ D.t i = some 1 := fun i => by
      by_cases e : D.t i = some 0
      · exact .inl e
      · exact .inr (h5 i e)
    refine ⟨fun i e => h1 D.y (by simp) ⟨i, e⟩, fun x hx i e => h1 x (by simp [hx]) ⟨i, e⟩, ⟨k4, ?_⟩, ⟨k5, ?_⟩⟩
    · exact (nunique_two k4).1 (not_lt.1 h2)
    · exact (nunique_two k5).1 (not_lt.1 h3)
  · rintro ⟨hy, hc, ⟨hd, hd2⟩, ⟨ht, ht2⟩⟩
    have h1 : ¬ ∃ x ∈ D.y :: D.d :: D.t :: D.cov, HasMissing x := by
      rintro ⟨x, hx, i, hi⟩
      simp only [List.mem_cons] at hx
      rcases hx with rfl | rfl | rfl | hx
      · exact hy i hi
      · rcases hd i with e | e <;> simp [e] at hi
      · rcases ht i with e | e <;> simp [e] at hi
      · exact hc x hx i hi
    rw [if_neg h1, if_neg (not_lt.2 ((nunique_two hd).2 hd2)), if_neg (not_lt.2 ((nunique_two ht).2 ht2)), if_neg, if_neg]
    · rintro ⟨i, e1, e2⟩; rcases ht i with e | e <;> contradiction
    · rintro ⟨i, e1, e2⟩; rcases hd i with e | e <;> contradiction

/-! ### Absorption and missing labels -/

theorem demean_none (g : ι → Option ℤ) (x : ι → Option K) (i : ι) : demean g x i = none ↔ g i = none ∨ x i = none := by
  unfold demean
  cases g i <;> cases x i <;> simp

theorem absorbed_none (gs : List (ι → Option ℤ)) (x : ι → Option K) (i : ι) : absorbed gs x i = none ↔ x i = none ∨ ∃ g ∈ gs, g i = none := by
  unfold absorbed
  induction gs generalizing x with
  | nil => simp
  | cons g gs ih =>
    rw [List.foldl_cons, ih, demean_none]
    simp only [List.mem_cons, exists_eq_or_imp]
    tauto

/-! ### Labels -/

theorem mem_levels {g : ι → Option ℤ} {v : ℤ} : v ∈ levels g ↔ ∃ i, g i = some v := by
  unfold levels
  rw [Finset.mem_sort, Finset.mem_eraseNone, Finset.mem_image]
  simp

theorem levels_nodup (g : ι → Option ℤ) : (levels g).Nodup := Finset.sort_nodup _ _

theorem length_levels (g : ι → Option ℤ) : (levels g).length = labels g := by
  unfold labels
  rw [← List.toFinset_card_of_nodup (levels_nodup g), ← Set.ncard_coe_finset]
  congr 1
  ext v
  simp [mem_levels]

theorem nunique_labels (g : ι → Option ℤ) : nunique g = labels g := by
  rw [← length_levels]
  unfold nunique levels
  rw [Finset.length_sort]
  have : (Finset.univ.image g).erase none = ((Finset.univ.image g).eraseNone).image some := by
    ext v
    cases v <;> simp
  rw [this, Finset.card_image_of_injective _ (Option.some_injective _)]

theorem length_dummies (g : ι → Option ℤ) : (dummies (K := K) g).length = labels g - 1 := by
  unfold dummies
  rw [List.length_map, List.length_tail, length_levels]

theorem length_extras (D : Data ι C K) : 4 + (extras D).length = nCoef D := by
  unfold extras covariates nCoef
  rw [List.length_append, List.length_map, List.length_map, List.length_flatMap, Nat.add_assoc]
  congr 3
  exact List.map_congr_left fun g _ => length_dummies g

/-! ### The design -/

theorem matrix_sum (d t : ι → Bool) (xs : List (ι → K)) (i : ι) (v : Fin (4 + xs.length) → K) :
    ∑ j, matrix d t xs i j * v j = v (Fin.castAdd _ 0) + v (Fin.castAdd _ 1) * ind (d i) + v (Fin.castAdd _ 2) * ind (t i) +
      v (Fin.castAdd _ 3) * (ind (d i) * ind (t i)) + ∑ j : Fin xs.length, v (Fin.natAdd 4 j) * (xs[j] i) := by
  rw [Fin.sum_univ_add]
  congr 1
  · rw [Fin.sum_univ_four]
    simp only [matrix, Fin.append_left, design]
    simp
    ring
  · refine Finset.sum_congr rfl fun j _ => ?_
    simp only [matrix, Fin.append_right]
    ring

theorem comb_iff {d t : ι → Bool} {xs : List (ι → K)} {e : K} {f : ι → K} :
    Comb d t xs e f ↔ ∃ v : Fin (4 + xs.length) → K, v (Fin.castAdd _ 3) = e ∧ ∀ i, f i = ∑ j, matrix d t xs i j * v j := by
  constructor
  · rintro ⟨a, b, c, γ, h⟩
    refine ⟨Fin.append ![a, b, c, e] γ, by simp only [Fin.append_left]; rfl, fun i => ?_⟩
    rw [matrix_sum, h]
    simp only [Fin.append_left, Fin.append_right]
    rfl
  · rintro ⟨v, rfl, h⟩
    exact ⟨_, _, _, _, fun i => by rw [h, matrix_sum]⟩

theorem orth_iff {d t : ι → Bool} {xs : List (ι → K)} {e : K} {r : ι → K} :
    Orth d t xs r e ↔ ∀ m, ∑ i, matrix d t xs i m * r i = if m = Fin.castAdd xs.length 3 then e else 0 := by
  have hl : ∀ k : Fin 4, (∑ i, matrix d t xs i (Fin.castAdd xs.length k) * r i) = ∑ i, design d t i k * r i := by
    intro k; simp only [matrix, Fin.append_left]
  have hr : ∀ k : Fin xs.length, (∑ i, matrix d t xs i (Fin.natAdd 4 k) * r i) = ∑ i, xs[k] i * r i := by
    intro k; simp only [matrix, Fin.append_right]
  have hne : ∀ k : Fin xs.length, Fin.natAdd 4 k ≠ Fin.castAdd xs.length 3 := by
    intro k h
    have := congrArg Fin.val h
    simp at this
    omega
  constructor
  · intro h m
    induction m using Fin.addCases with
    | left k =>
      rw [hl]
      fin_cases k
      · simpa [design] using h.const
      · simpa [design] using h.treat
      · simpa [design] using h.time
      · simpa [design] using h.inter
    | right k =>
      rw [hr, if_neg (hne k)]
      exact h.extra _ (List.getElem_mem k.2)
  · intro h
    have h0 := h (Fin.castAdd _ 0)
    have h1 := h (Fin.castAdd _ 1)
    have h2 := h (Fin.castAdd _ 2)
    have h3 := h (Fin.castAdd _ 3)
    rw [hl] at h0 h1 h2 h3
    refine ⟨?_, ?_, ?_, ?_, ?_⟩
    · simpa [design] using h0
    · simpa [design] using h1
    · simpa [design] using h2
    · simpa [design] using h3
    · intro x hx
      obtain ⟨j, hj, rfl⟩ := List.getElem_of_mem hx
      have := h (Fin.natAdd 4 ⟨j, hj⟩)
      rw [hr, if_neg (hne _)] at this
      exact this

theorem FullRank.det {d t : ι → Bool} {xs : List (ι → K)} (h : FullRank d t xs) : ((matrix d t xs)ᵀ * matrix d t xs).det ≠ 0 := by
  refine DidFit.det_of_injective _ fun v hv => ?_
  simp only [matrix_sum] at hv
  obtain ⟨h0, h1, h2, h3, h4⟩ := h _ _ _ _ _ hv
  funext m
  induction m using Fin.addCases with
  | left k => fin_cases k <;> assumption
  | right k => exact h4 k

theorem fullRank_of_det {d t : ι → Bool} {xs : List (ι → K)} (h : ((matrix d t xs)ᵀ * matrix d t xs).det ≠ 0) : FullRank d t xs := by
  intro a b c e γ hz
  have hv : (matrix d t xs) *ᵥ (Fin.append ![a, b, c, e] γ) = 0 := by
    funext i
    show ∑ j, matrix d t xs i j * _ = 0
    rw [matrix_sum]
    simp only [Fin.append_left, Fin.append_right]
    exact hz i
  have h0 : Fin.append ![a, b, c, e] γ = 0 := by
    by_contra hne
    apply h
    apply Matrix.exists_mulVec_eq_zero_iff.1
    exact ⟨_, hne, by rw [← mulVec_mulVec, hv, mulVec_zero]⟩
  have hl : ∀ k : Fin 4, (![a, b, c, e] : Fin 4 → K) k = 0 := fun k => by
    have := congrFun h0 (Fin.castAdd _ k)
    rwa [Fin.append_left] at this
  refine ⟨hl 0, hl 1, hl 2, hl 3, fun j => ?_⟩
  have := congrFun h0 (Fin.natAdd 4 j)
  rwa [Fin.append_right] at this

/-! ### The regression -/

/-- Interaction not a combination of the other columns. -/
def Identified (d t : ι → Bool) (xs : List (ι → K)) : Prop := ¬ Comb d t xs 0 (fun i => ind (d i) * ind (t i))

theorem identified_iff {d t : ι → Bool} {xs : List (ι → K)} : Identified d t xs ↔ LinReg.Identified (matrix d t xs) (Fin.castAdd xs.length 3) := by
  unfold Identified LinReg.Identified
  rw [comb_iff]
  have hm : ∀ i, matrix d t xs i (Fin.castAdd xs.length 3) = ind (d i) * ind (t i) := fun i => by simp only [matrix, Fin.append_left]; rfl
  simp only [hm]
  push Not
  rfl

theorem isolates_iff {d t : ι → Bool} {xs : List (ι → K)} {w : ι → K} :
    (∃ v, DidFit.Isolates (matrix d t xs) (Fin.castAdd xs.length 3) v w) ↔ (∃ e, Comb d t xs e w) ∧ Orth d t xs w 1 := by
  constructor
  · rintro ⟨v, H⟩
    exact ⟨⟨_, comb_iff.2 ⟨v, rfl, H.comb⟩⟩, orth_iff.2 H.unit⟩
  · rintro ⟨⟨e, he⟩, ho⟩
    obtain ⟨v, -, hv⟩ := comb_iff.1 he
    exact ⟨v, hv, orth_iff.1 ho⟩

/-- Report for estimate `x`, variance `v`, degrees of freedom `df`. -/
def out (L : TwfeFit.Lib ι K) (alpha : K) (d : ι → Bool) (y u : ι → K) (x : K) (v : Option K) (df : ℤ) : DidFit.Result K :=
  { att := .fin x, se := LinReg.toExt (v.map L.sqrt)
    t := (Inference.getInference L.tD L.nD (.fin x) (LinReg.toExt (v.map L.sqrt)) none alpha none (some df)).t
    p := (Inference.getInference L.tD L.nD (.fin x) (LinReg.toExt (v.map L.sqrt)) none alpha none (some df)).p
    ci := (Inference.getInference L.tD L.nD (.fin x) (LinReg.toExt (v.map L.sqrt)) none alpha none (some df)).ci
    nObs := Fintype.card ι
    nTreated := (Finset.univ.filter (fun i => d i = true)).card
    nControl := (Finset.univ.filter (fun i => d i = false)).card
    r2 := rSquared y u false 0 }

/-- Options of the regression. -/
abbrev opts (o : DidFit.Opts ι C) : LinReg.Opts ι C := ⟨o.robust, o.cluster, none, o.strict⟩

theorem core_spec {L : TwfeFit.Lib ι K} (hL : Works L) (hP : LinReg.Prunes L) {o : DidFit.Opts ι C} {alpha : K} {d t : ι → Bool} {y : ι → K} {adj : ℤ}
    {xs : List (ι → K)} (hid : Identified d t xs) {R : DidFit.Result K} (h : core L o alpha d t y adj xs = .ok R) :
    ∃ w u x, (∃ e, Comb d t xs e w) ∧ Orth d t xs w 1 ∧ Comb d t xs x (fun i => y i - u i) ∧ Orth d t xs u 0 ∧ x = ∑ i, w i * y i ∧
      R = out L alpha d y u x (LinReg.variance (opts o) (matrix d t xs).rank w u) ((Fintype.card ι : ℤ) - (matrix d t xs).rank - adj) := by
  unfold core at h
  cases hf : LinReg.fit L.solvers (⟨o.robust, o.cluster, none, o.strict⟩ : LinReg.Opts ι C) (L.redundant (matrix d t xs)) (matrix d t xs) y adj with
  | error e => rw [hf] at h; cases h
  | ok f =>
    rw [hf] at h
    cases h
    obtain ⟨v, w, b, H, hb, h1, h2, h3, h4, h5⟩ := LinReg.C124_identified L.solvers hL.solves _ _ _ (hP _) y adj f hf _ (identified_iff.1 hid)
    obtain ⟨k1, k2⟩ := isolates_iff.1 ⟨v, H⟩
    refine ⟨w, resid (matrix d t xs) y b, _, k1, k2, comb_iff.2 ⟨b, rfl, fun i => by simp only [resid, fitted, Ols.dot]; ring⟩,
      orth_iff.2 (fun m => by rw [hb m]; simp), h2, ?_⟩
    unfold out LinReg.infer
    rw [h1, h3, h4, h5]
    rfl

theorem rank_pos [Nonempty ι] (d t : ι → Bool) (xs : List (ι → K)) : 0 < (matrix d t xs).rank := by
  rw [Nat.pos_iff_ne_zero]
  intro h0
  have hb : LinearMap.range (matrix d t xs).mulVecLin = ⊥ := Submodule.finrank_eq_zero.1 h0
  have hm : (matrix d t xs) *ᵥ (fun m => if m = Fin.castAdd xs.length 0 then 1 else 0) ∈ LinearMap.range (matrix d t xs).mulVecLin := ⟨_, rfl⟩
  rw [hb, Submodule.mem_bot] at hm
  obtain ⟨i⟩ := (inferInstance : Nonempty ι)
  have := congrFun hm i
  simp only [mulVec, dotProduct, mul_ite, mul_one, mul_zero, Finset.sum_ite_eq', Finset.mem_univ, if_true, Pi.zero_apply] at this
  simp only [matrix, Fin.append_left, design] at this
  simp at this

theorem core_runs [Nonempty ι] {L : TwfeFit.Lib ι K} (hL : Works L) (hP : LinReg.Prunes L) {o : DidFit.Opts ι C} {alpha : K} {d t : ι → Bool} {y : ι → K}
    {adj : ℤ} {xs : List (ι → K)} : (∃ R, core L o alpha d t y adj xs = .ok R) ↔ 4 + xs.length ≤ Fintype.card ι ∧
      (o.strict = true → (matrix d t xs).rank = 4 + xs.length) ∧ (o.robust = true ∨ o.cluster ≠ none → (matrix d t xs).rank < Fintype.card ι) ∧
      ∀ ids, o.cluster = some ids → 2 ≤ nClusters ids := by
  have key := LinReg.C124_runs L.solvers hL.solves (opts o) (L.redundant (matrix d t xs)) (matrix d t xs) (hP _) (rank_pos d t xs) y adj
  rw [show (opts o).ids = o.cluster from rfl] at key
  rw [← key]
  unfold core
  constructor
  · rintro ⟨R, h⟩
    cases hf : LinReg.fit L.solvers (⟨o.robust, o.cluster, none, o.strict⟩ : LinReg.Opts ι C) (L.redundant (matrix d t xs)) (matrix d t xs) y adj with
    | error e => rw [hf] at h; cases h
    | ok f => exact ⟨f, rfl⟩
  · rintro ⟨f, hf⟩
    have hf' : LinReg.fit L.solvers (⟨o.robust, o.cluster, none, o.strict⟩ : LinReg.Opts ι C) (L.redundant (matrix d t xs)) (matrix d t xs) y adj = .ok f := hf
    rw [hf']
    exact ⟨_, rfl⟩

theorem fit_ok {L : TwfeFit.Lib ι K} {robust strict : Bool} {alpha : K} {D : Data ι C K} {R : DidFit.Result K} (h : fit L robust strict alpha D = .ok R) :
    Valid D ∧ (∀ g ∈ D.absorb, ∀ i, g i ≠ none) ∧
    core L ⟨robust, D.cluster, strict⟩ alpha (flag D.d) (flag D.t) (num (outcome D)) (adjustment D.absorb) (extras D) = .ok R := by
  unfold fit at h
  cases hv : validate D with
  | some e => rw [hv] at h; cases h
  | none =>
    rw [hv] at h
    have hV := (validate_none D).1 hv
    dsimp only at h
    by_cases h1 : Fintype.card ι < 4 + (extras D).length
    · rw [if_pos h1] at h; cases h
    rw [if_neg h1] at h
    by_cases h2 : ∃ x ∈ outcome D :: covariates D, HasMissing x
    · rw [if_pos h2] at h; cases h
    rw [if_neg h2] at h
    refine ⟨hV, ?_, ?_⟩
    · intro g hg i hi
      exact h2 ⟨outcome D, by simp, i, (absorbed_none _ _ i).2 (.inr ⟨g, hg, hi⟩)⟩
    · cases hc : core L ⟨robust, D.cluster, strict⟩ alpha (flag D.d) (flag D.t) (num (outcome D)) (adjustment D.absorb) (extras D) with
      | error e => rw [hc] at h; cases h
      | ok R' => rw [hc] at h; cases h; rfl

theorem fit_of_core {L : TwfeFit.Lib ι K} {robust strict : Bool} {alpha : K} {D : Data ι C K} (hV : Valid D) (hab : ∀ g ∈ D.absorb, ∀ i, g i ≠ none)
    (hn : nCoef D ≤ Fintype.card ι) :
    fit L robust strict alpha D =
      (core L ⟨robust, D.cluster, strict⟩ alpha (flag D.d) (flag D.t) (num (outcome D)) (adjustment D.absorb) (extras D)).mapError .reg := by
  unfold fit
  rw [(validate_none D).2 hV]
  dsimp only
  rw [if_neg (by rw [length_extras]; exact not_lt.2 hn), if_neg]
  rintro ⟨x, hx, i, hi⟩
  simp only [List.mem_cons] at hx
  rcases hx with rfl | hx
  · rcases (absorbed_none _ _ i).1 hi with e | ⟨g, hg, e⟩
    · exact hV.y i e
    · exact hab g hg i e
  · obtain ⟨x', hx', rfl⟩ := List.mem_map.1 hx
    rcases (absorbed_none _ _ i).1 hi with e | ⟨g, hg, e⟩
    · exact hV.cov x' hx' i e
    · exact hab g hg i e

/-! ### Errors -/

theorem nunique_lt_two {x : ι → Option K} (h : ∀ i, x i ≠ none) : nunique x < 2 ↔ ∀ i j, x i = x j := by
  unfold nunique
  have he : (Finset.univ.image x).erase none = Finset.univ.image x := by
    refine Finset.erase_eq_of_notMem fun hm => ?_
    obtain ⟨i, -, hi⟩ := Finset.mem_image.1 hm
    exact h i hi
  rw [he, Nat.lt_succ_iff, Finset.card_le_one]
  constructor
  · intro hh i j
    exact hh _ (Finset.mem_image_of_mem x (Finset.mem_univ i)) _ (Finset.mem_image_of_mem x (Finset.mem_univ j))
  · intro hh a ha b hb
    obtain ⟨i, -, rfl⟩ := Finset.mem_image.1 ha
    obtain ⟨j, -, rfl⟩ := Finset.mem_image.1 hb
    exact hh i j

/-- C150. Which error invalid data give: missing values come first, then a constant treatment, a constant time, values other than 0 and 1. Missing labels of
fixed or absorbed effects are not among these checks. -/
theorem C150_errors (L : TwfeFit.Lib ι K) (robust strict : Bool) (alpha : K) (D : Data ι C K) (gap : Prop)
    (hgap : gap ↔ ∃ x ∈ D.y :: D.d :: D.t :: D.cov, ∃ i, x i = none) :
    (fit L robust strict alpha D = .error .missing ↔ gap) ∧
    (fit L robust strict alpha D = .error .oneTreatment ↔ ¬ gap ∧ ∀ i j, D.d i = D.d j) ∧
    (fit L robust strict alpha D = .error .onePeriod ↔ ¬ gap ∧ (∃ i j, D.d i ≠ D.d j) ∧ ∀ i j, D.t i = D.t j) ∧
    (fit L robust strict alpha D = .error .treatmentValues ↔ ¬ gap ∧ (∃ i j, D.d i ≠ D.d j) ∧ (∃ i j, D.t i ≠ D.t j) ∧
      ∃ i, D.d i ≠ some 0 ∧ D.d i ≠ some 1) ∧
    (fit L robust strict alpha D = .error .timeValues ↔ ¬ gap ∧ (∃ i j, D.t i ≠ D.t j) ∧ Binary D.d ∧ ∃ i, D.t i ≠ some 0 ∧ D.t i ≠ some 1) := by
  have hval : ∀ e, e ≠ .notFinite → (∀ r, e ≠ .reg r) → (fit L robust strict alpha D = .error e ↔ validate D = some e) := by
    intro e he1 he2
    unfold fit
    cases validate D with
    | some e' => simp
    | none =>
      dsimp only
      simp only [reduceCtorEq, iff_false]
      intro h
      split_ifs at h
      · cases h; exact he2 _ rfl
      · cases h; exact he1 rfl
      · cases hc : core L ⟨robust, D.cluster, strict⟩ alpha (flag D.d) (flag D.t) (num (outcome D)) (adjustment D.absorb) (extras D) with
        | error r => rw [hc] at h; cases h; exact he2 _ rfl
        | ok R => rw [hc] at h; cases h
  rw [hval _ (by simp) (by simp), hval _ (by simp) (by simp), hval _ (by simp) (by simp), hval _ (by simp) (by simp), hval _ (by simp) (by simp)]
  have hgap : gap ↔ ∃ x ∈ D.y :: D.d :: D.t :: D.cov, HasMissing x := hgap
  unfold validate
  by_cases h1 : gap
  · rw [if_pos (hgap.1 h1)]; simp [h1]
  rw [if_neg (fun h => h1 (hgap.2 h))]
  have hc : ∀ x ∈ D.y :: D.d :: D.t :: D.cov, ∀ i, x i ≠ none := fun x hx i hi => h1 (hgap.2 ⟨x, hx, i, hi⟩)
  have hd := nunique_lt_two (hc D.d (by simp))
  have ht := nunique_lt_two (hc D.t (by simp))
  have hd' : (∃ i j, D.d i ≠ D.d j) ↔ ¬ nunique D.d < 2 := by rw [hd]; push Not; rfl
  have ht' : (∃ i j, D.t i ≠ D.t j) ↔ ¬ nunique D.t < 2 := by rw [ht]; push Not; rfl
  rw [hd', ht', ← hd, ← ht]
  by_cases h2 : nunique D.d < 2
  · have hB : ¬ Binary D.d := by
      rintro ⟨-, ⟨i, hi⟩, j, hj⟩
      have := hd.1 h2 i j
      rw [hi, hj] at this
      simp at this
    simp [h1, h2, hB]
  by_cases h3 : nunique D.t < 2
  · simp [h1, h2, h3]
  by_cases h4 : ∃ i, D.d i ≠ some 0 ∧ D.d i ≠ some 1
  · have hB : ¬ Binary D.d := by
      rintro ⟨hb, -⟩
      obtain ⟨i, e1, e2⟩ := h4
      rcases hb i with e | e <;> contradiction
    simp only [h1, h2, h3, if_false, if_pos h4, hB]
    simpa using h4
  · have hb : ∀ i, D.d i = some 0 ∨ D.d i = some 1 := fun i => by
      by_contra hno
      push Not at hno
      exact h4 ⟨i, hno⟩
    have hB : Binary D.d := ⟨hb, (nunique_two hb).1 (not_lt.1 h2)⟩
    by_cases h5 : ∃ i, D.t i ≠ some 0 ∧ D.t i ≠ some 1
    · simp only [h1, h2, h3, if_false, if_neg h4, if_pos h5, hB]
      simp only [reduceCtorEq, Option.some.injEq, not_false_eq_true, true_and, false_iff, true_iff, not_exists, not_and, not_not, ne_eq, not_true_eq_false, false_and, and_true]
      exact ⟨fun x hx => (hb x).resolve_left hx, by simpa using h5⟩
    · simp only [h1, h2, h3, if_false, if_neg h4, if_neg h5, hB]
      simp only [reduceCtorEq, Option.some.injEq, not_false_eq_true, true_and, false_iff, true_iff, not_exists, not_and, not_not, ne_eq, not_true_eq_false, false_and, and_true]
      exact ⟨fun x hx => (hb x).resolve_left hx, by simpa using h5⟩

/-- C150. A call returns a result exactly if the data are valid, absorbed labels are complete, there are as many rows as coefficients, no column is redundant
under "error", robust or clustered errors have more rows than the rank, and clusters are two or more. -/
theorem C150_runs (L : TwfeFit.Lib ι K) (hL : Works L) (hP : LinReg.Prunes L) (robust strict : Bool) (alpha : K) (D : Data ι C K) :
    (∃ R, fit L robust strict alpha D = .ok R) ↔ Valid D ∧ (∀ g ∈ D.absorb, ∀ i, g i ≠ none) ∧ nCoef D ≤ Fintype.card ι ∧
      (strict = true → (matrix (flag D.d) (flag D.t) (extras D)).rank = nCoef D) ∧
      (robust = true ∨ D.cluster ≠ none → (matrix (flag D.d) (flag D.t) (extras D)).rank < Fintype.card ι) ∧
      ∀ ids, D.cluster = some ids → 2 ≤ nClusters ids := by
  constructor
  · rintro ⟨R, h⟩
    obtain ⟨h1, h2, h3⟩ := fit_ok h
    obtain ⟨i, -⟩ := h1.d.2.1
    have : Nonempty ι := ⟨i⟩
    obtain ⟨a1, a2, a3⟩ := (core_runs hL hP).1 ⟨R, h3⟩
    have e := length_extras D
    exact ⟨h1, h2, by omega, fun hs => (a2 hs).trans e, a3⟩
  · rintro ⟨h1, h2, h3, h4, h5⟩
    obtain ⟨i, -⟩ := h1.d.2.1
    have : Nonempty ι := ⟨i⟩
    have e := length_extras D
    obtain ⟨R, hR⟩ := (core_runs (L := L) hL hP (o := ⟨robust, D.cluster, strict⟩) (alpha := alpha) (d := flag D.d) (t := flag D.t) (y := num (outcome D))
      (adj := adjustment D.absorb) (xs := extras D)).2 ⟨by omega, fun hs => (h4 hs).trans e.symm, h5⟩
    refine ⟨R, ?_⟩
    rw [fit_of_core h1 h2 h3, hR]
    rfl

/-! ### Report -/

theorem adjustment_labels (gs : List (ι → Option ℤ)) : adjustment gs = (gs.map (fun g => (labels g : ℤ) - 1)).sum := by
  unfold adjustment
  simp only [nunique_labels]

/-- C150. What a call reports. `w` are the only weights that are a combination of the columns, orthogonal to constant, treatment, time, covariates and
fixed effects, with product one with the interaction; `u` are the residuals; `r` is the number of independent columns. -/
theorem C150_report (L : TwfeFit.Lib ι K) (hL : Works L) (hP : LinReg.Prunes L) (robust strict : Bool) (alpha : K) (D : Data ι C K)
    (hid : Identified (flag D.d) (flag D.t) (extras D)) (R : DidFit.Result K) (h : fit L robust strict alpha D = .ok R) (n r : K)
    (hn : n = (Fintype.card ι : K)) (hr : r = ((matrix (flag D.d) (flag D.t) (extras D)).rank : K)) (df : ℤ)
    (hdf : df = (Fintype.card ι : ℤ) - (matrix (flag D.d) (flag D.t) (extras D)).rank - (D.absorb.map (fun g => (labels g : ℤ) - 1)).sum) :
    ∃ (w u : ι → K) (x : K), (∃ e, Comb (flag D.d) (flag D.t) (extras D) e w) ∧ Orth (flag D.d) (flag D.t) (extras D) w 1 ∧
      Comb (flag D.d) (flag D.t) (extras D) x (fun i => num (outcome D) i - u i) ∧ Orth (flag D.d) (flag D.t) (extras D) u 0 ∧
      R.att = .fin x ∧ x = ∑ i, w i * num (outcome D) i ∧
      (D.cluster = none → robust = true → R.se = .fin (L.sqrt (n / (n - r) * ∑ i, (w i * u i) ^ 2))) ∧
      (D.cluster = none → robust = false → R.se = if n = r then .nan else .fin (L.sqrt ((∑ i, u i ^ 2) / (n - r) * ∑ i, w i ^ 2))) ∧
      (∀ ids, D.cluster = some ids → R.se = .fin (L.sqrt ((nClusters ids : K) / ((nClusters ids : K) - 1) * ((n - 1) / (n - r)) *
        ∑ g ∈ (Finset.univ.image ids).erase none, (∑ i ∈ Finset.univ.filter (fun i => ids i = g), w i * u i) ^ 2))) ∧
      (∀ s, R.se = .fin s → 0 < s → ∀ Q : Inference.Dist K, Q = (if 0 < df then L.tD df else L.nD) →
        R.t = .fin (x / s) ∧ R.p = .fin (2 * Q.sf |x / s|) ∧ R.ci = (.fin (x - Q.ppf (1 - alpha / 2) * s), .fin (x + Q.ppf (1 - alpha / 2) * s))) ∧
      R.nObs = Fintype.card ι ∧ R.nTreated = (Finset.univ.filter (fun i => D.d i = some 1)).card ∧
      R.nControl = (Finset.univ.filter (fun i => D.d i = some 0)).card ∧ R.r2 = rSquared (num (outcome D)) u false 0 := by
  obtain ⟨hV, -, hc⟩ := fit_ok h
  obtain ⟨w, u, x, k1, k2, k3, k4, k5, rfl⟩ := core_spec hL hP hid hc
  rw [← adjustment_labels] at hdf
  rw [← hdf]
  refine ⟨w, u, x, k1, k2, k3, k4, rfl, k5, ?_, ?_, ?_, ?_, rfl, ?_, ?_, rfl⟩
  · intro h1 h2
    simp only [out, LinReg.variance, LinReg.Opts.ids, h1, h2, if_true, Option.map_some, LinReg.toExt, hn, hr]
  · intro h1 h2
    have e : (n = r) ↔ Fintype.card ι = (matrix (flag D.d) (flag D.t) (extras D)).rank := by rw [hn, hr]; exact Nat.cast_inj
    by_cases h3 : n = r
    · simp [out, LinReg.variance, LinReg.Opts.ids, h1, h2, h3, e.1 h3, LinReg.toExt]
    · have h3' := fun hh => h3 (e.2 hh)
      simp [out, LinReg.variance, LinReg.Opts.ids, h1, h2, h3, h3', LinReg.toExt, hn, hr] at *
      simp [h3]
  · intro ids h1
    simp only [out, LinReg.variance, LinReg.Opts.ids, h1, Option.map_some, LinReg.toExt, hn, hr]
  · intro s hs hp Q hQ
    have hpick : Inference.pick L.tD L.nD (Inference.effectiveDf none (some df)) = Q := by
      rw [hQ]
      simp only [Inference.pick, Inference.effectiveDf]
      by_cases h0 : 0 < df
      · simp [h0, not_le.2 h0]
      · simp [h0, not_lt.1 h0]
    have hs' : LinReg.toExt (Option.map L.sqrt (LinReg.variance (opts ⟨robust, D.cluster, strict⟩)
        (matrix (flag D.d) (flag D.t) (extras D)).rank w u)) = .fin s := hs
    simp only [out, hs', Inference.getInference, Inference.tStat_pos _ _ hp, hpick, Option.getD_none, Inference.confInt_fin]
    refine ⟨trivial, ?_, trivial⟩
    simp [Inference.pValue, Inference.Dist.sfE, Ext.abs, Ext.mul, mul_comm]
  · show (Finset.univ.filter _).card = _
    congr 1
    ext i
    simp [flag]
  · show (Finset.univ.filter _).card = _
    congr 1
    ext i
    simp only [flag, Finset.mem_filter, Finset.mem_univ, true_and, decide_eq_false_iff_not]
    rcases hV.d.1 i with e | e <;> simp [e]

end DiffDiff.DidFull
