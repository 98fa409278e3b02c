/-
Property C148: what MultiPeriodDiD.fit reports, end to end.
-/
import Verif.MultiFit
import Verif.MultiPeriodProps
import Verif.RowOrderFit
import Mathlib.Tactic.Positivity
import Mathlib.Tactic.FinCases

set_option linter.unusedSectionVars false
set_option linter.unusedVariables false

namespace DiffDiff.MultiFit
open Matrix MultiPeriod Vcov
open Ols (IsOls resid fitted)
open TwfeFit (Works Keeps)

variable {K : Type*} [Field K] [LinearOrder K] [IsStrictOrderedRing K]
variable {ι ι' C : Type*} [Fintype ι] [DecidableEq ι] [Fintype ι'] [DecidableEq ι'] [DecidableEq C]

/-! ### Specification -/

/-- No covariates and no dummies. -/
def Plain (D : Data ι C K) : Prop := D.cov = [] ∧ D.fixed = []

/-- Period `p` has treated and control rows. -/
def Both (D : Data ι C K) (p : ℤ) : Prop := ∀ a, ∃ i, D.d i = a ∧ D.t i = p

/-- Every post period, and some pre period, has treated and control rows. -/
def Overlap (D : Data ι C K) (post : List ℤ) : Prop := (∀ p ∈ post, Both D p) ∧ ∃ i, D.t i ∉ post ∧ Both D (D.t i)

/-! ### Periods -/

theorem mem_values {g : ι → ℤ} {p : ℤ} : p ∈ values g ↔ ∃ i, g i = p := by
  simp [values]

theorem mem_periods {D : Data ι C K} {p : ℤ} : p ∈ periods D ↔ ∃ i, D.t i = p := by
  rw [periods, mem_allPeriods, mem_values]

theorem periods_nodup (D : Data ι C K) : (periods D).Nodup := allPeriods_nodup _

theorem fit_ok {L : TwfeFit.Lib ι K} {robust strict : Bool} {alpha : K} {D : Data ι C K} {R : Result K} (h : fit L robust strict alpha D = .ok R) :
    ∃ pre post r f, classify (values D.t) D.post D.ref = .ok (pre, post, r) ∧ regress L robust strict D (cols D post r) = .ok f ∧
      R = report L.toLib alpha D pre post r (at1 f) (at2 f) f.df f.resid := by
  unfold fit at h
  split at h
  · cases h
  · rename_i pre post r hc
    split at h
    · cases h
    · rename_i f hf
      cases h
      exact ⟨pre, post, r, f, hc, hf, rfl⟩

/-- C148. Rows are counted once: treated and control rows add up to all rows; post periods are the requested ones; the pre periods are the other periods of
the data; every post period has exactly one effect. -/
theorem C148_counts (L : TwfeFit.Lib ι K) (robust strict : Bool) (alpha : K) (D : Data ι C K) (R : Result K) (h : fit L robust strict alpha D = .ok R) :
    R.nObs = Fintype.card ι ∧ R.nTreated + R.nControl = R.nObs ∧ R.nTreated = Fintype.card {i // D.d i = true} ∧
    (∀ q, D.post = some q → R.post = q) ∧ (∀ p, p ∈ R.pre ↔ (∃ i, D.t i = p) ∧ p ∉ R.post) ∧ (∀ p ∈ R.post, ∃ i, D.t i = p) ∧
    R.pre ≠ [] ∧ R.post ≠ [] ∧ (R.effects.map Effect.period).Nodup ∧ ∀ p, p ∈ R.effects.map Effect.period ↔ p ∈ R.post := by
  obtain ⟨pre, post, r, f, hc, hf, rfl⟩ := fit_ok h
  obtain ⟨h1, h2, h3, h4, h5, h6, h7, h8, h9⟩ := C76_classification _ _ _ _ _ _ hc
  have hper : (report L.toLib alpha D pre post r (at1 f) (at2 f) f.df f.resid).effects.map Effect.period = post.reverse.dedup.reverse := by
    simp only [report, List.map_map]
    exact (List.map_congr_left fun a _ => rfl).trans (List.map_id _)
  refine ⟨rfl, ?_, (Fintype.card_subtype _).symm, h7, ?_, fun p hp => mem_values.1 (h3 p hp), h4, h5, ?_, ?_⟩
  · show (Finset.univ.filter (fun i => D.d i = true)).card + (Finset.univ.filter (fun i => D.d i = false)).card = Fintype.card ι
    have := Finset.card_filter_add_card_filter_not (s := (Finset.univ : Finset ι)) (fun i => D.d i = true)
    simpa using this
  · intro p
    show p ∈ pre ↔ _ ∧ p ∉ post
    constructor
    · intro hp
      exact ⟨mem_values.1 (h2 p hp), (h1 p (h2 p hp)).1 hp⟩
    · rintro ⟨hi, hn⟩
      exact (h1 p (mem_values.2 hi)).2 hn
  · rw [hper]; exact List.nodup_reverse.2 (List.nodup_dedup _)
  · intro p; rw [hper]; simp [report]

/-! ### When the effects are estimable -/

theorem cellFit_eq {all post : List ℤ} (ha : all.Nodup) (hp : post.Nodup) (ref : ℤ) (b : Fin (columns all post ref 0).length → K) (a : Bool) (p : ℤ)
    (hpa : p ∈ all) : cellFit _ b a p = coefAt _ b .const + (if a then coefAt _ b .treat else 0) + (if p = ref then 0 else coefAt _ b (.period p)) +
      (if a = true ∧ p ∈ post then coefAt _ b (.inter p) else 0) := by
  have hn := columns_nodup ha hp ref 0
  have mc : Col.const ∈ columns all post ref 0 := mem_columns.2 (Or.inl rfl)
  have mt : Col.treat ∈ columns all post ref 0 := mem_columns.2 (Or.inr (Or.inl rfl))
  set P : List Col := if p = ref then [] else [Col.period p] with hP
  set Q : List Col := if p ∈ post then [Col.inter p] else [] with hQ
  have hS : cellFit _ b a p = (([Col.const, Col.treat] ++ P ++ Q).map (fun k => colVal a p (fun _ => (0 : K)) k * coefAt _ b k)).sum := by
    unfold cellFit
    rw [sum_index hn b (colVal a p (fun _ => 0))]
    · rw [hP, hQ]; split_ifs <;> simp
    · intro c hc
      rw [hP, hQ] at hc
      simp only [List.mem_append, List.mem_cons, List.not_mem_nil, or_false] at hc
      rcases hc with ((rfl | rfl) | hc) | hc
      · exact mc
      · exact mt
      · split_ifs at hc with h
        · cases hc
        · simp at hc; subst hc; exact mem_columns.2 (Or.inr (Or.inr (Or.inl ⟨p, hpa, h, rfl⟩)))
      · split_ifs at hc with h
        · simp at hc; subst hc; exact mem_columns.2 (Or.inr (Or.inr (Or.inr ⟨p, h, rfl⟩)))
        · cases hc
    · intro c hc hcS
      rcases mem_columns.1 hc with rfl | rfl | ⟨s, _, hs, rfl⟩ | ⟨s, hs, rfl⟩
      · simp at hcS
      · simp at hcS
      · by_cases h : p = s
        · subst h; simp [hP, hs] at hcS
        · simp [colVal, h]
      · by_cases h : p = s
        · subst h; simp [hQ, hs] at hcS
        · simp [colVal, h]
  rw [hS, hP, hQ]
  cases a <;> split_ifs <;> simp_all [colVal] <;> ring

theorem coefAt_of {cs : List Col} (c : Col → K) {k : Col} (hk : k ∈ cs) : coefAt cs (fun j => c cs[j]) k = c k := by
  unfold coefAt
  have hlt := List.idxOf_lt_length_iff.2 hk
  rw [dif_pos hlt]
  show c _ = c k
  congr 1
  exact List.getElem_idxOf hlt

theorem extras_plain {D : Data ι C K} (h : Plain D) : extras D = [] := by
  simp [extras, h.1, h.2]

theorem matrix_plain {D : Data ι C K} (h : Plain D) (post : List ℤ) (r : ℤ) :
    cols D post r = columns (periods D) post r 0 ∧ ∀ cs, matrix D cs = design D.d D.t (fun _ _ => (0 : K)) cs := by
  constructor
  · simp [cols, extras_plain h]
  · intro cs
    unfold matrix
    rw [extras_plain h]
    rfl

/-- C148. Without covariates the regressors are independent exactly if every post period and at least one pre period has both treated and control rows. -/
theorem C148_estimable (D : Data ι C K) (hD : Plain D) (pre post : List ℤ) (r : ℤ) (hc : classify (values D.t) D.post D.ref = .ok (pre, post, r))
    (hn : post.Nodup) : ((matrix D (cols D post r))ᵀ * matrix D (cols D post r)).det ≠ 0 ↔ Overlap D post := by
  obtain ⟨h1, h2, h3, h4, h5, h6, h7, h8, h9⟩ := C76_classification _ _ _ _ _ _ hc
  have ha := periods_nodup D
  have hr : r ∈ periods D := mem_periods.2 (mem_values.1 h6)
  obtain ⟨e1, e2⟩ := matrix_plain hD post r
  rw [e1, e2]
  set X : Matrix ι (Fin (columns (periods D) post r 0).length) K := design D.d D.t (fun _ _ => (0 : K)) (columns (periods D) post r 0) with hX
  have hfit : ∀ (v : Fin (columns (periods D) post r 0).length → K) i, ∑ j, X i j * v j = cellFit _ v (D.d i) (D.t i) := fun v i => rfl
  constructor
  · intro hdet
    have hinj : ∀ v : Fin (columns (periods D) post r 0).length → K, (∀ i, ∑ j, X i j * v j = 0) → v = 0 := by
      intro v hv
      by_contra hne
      apply hdet
      refine Matrix.exists_mulVec_eq_zero_iff.1 ⟨v, hne, ?_⟩
      rw [← mulVec_mulVec]
      have : X *ᵥ v = 0 := funext hv
      rw [this, mulVec_zero]
    -- a combination of columns from effects by period
    have build : ∀ (l : ℤ → K) (β : K) (τ : ℤ → K), (∀ i, l (D.t i) + (if D.d i = true then β + (if D.t i ∈ post then τ (D.t i) else 0) else 0) = 0) →
        β = 0 ∧ ∀ p ∈ post, τ p = 0 := by
      intro l β τ hz
      let c : Col → K := fun c => match c with
        | .const => l r
        | .treat => β
        | .period q => l q - l r
        | .inter q => τ q
        | .extra _ => 0
      have mc : Col.const ∈ columns (periods D) post r 0 := mem_columns.2 (Or.inl rfl)
      have mt : Col.treat ∈ columns (periods D) post r 0 := mem_columns.2 (Or.inr (Or.inl rfl))
      have mp : ∀ q ∈ periods D, q ≠ r → Col.period q ∈ columns (periods D) post r 0 := fun q hq h => mem_columns.2 (Or.inr (Or.inr (Or.inl ⟨q, hq, h, rfl⟩)))
      have mi : ∀ q ∈ post, Col.inter q ∈ columns (periods D) post r 0 := fun q h => mem_columns.2 (Or.inr (Or.inr (Or.inr ⟨q, h, rfl⟩)))
      have hv := hinj (fun j => c (columns (periods D) post r 0)[j]) (fun i => by
        rw [hfit, cellFit_eq ha hn r _ _ _ (mem_periods.2 ⟨i, rfl⟩), coefAt_of c mc, coefAt_of c mt]
        have e := hz i
        have hpi : D.t i ∈ periods D := mem_periods.2 ⟨i, rfl⟩
        have ep : (if D.t i = r then 0 else coefAt (columns (periods D) post r 0) (fun j => c (columns (periods D) post r 0)[j]) (.period (D.t i))) =
            l (D.t i) - l r := by
          by_cases hq : D.t i = r
          · rw [if_pos hq, hq, sub_self]
          · rw [if_neg hq, coefAt_of c (mp _ hpi hq)]
        have ei : (if D.d i = true ∧ D.t i ∈ post then coefAt (columns (periods D) post r 0) (fun j => c (columns (periods D) post r 0)[j]) (.inter (D.t i))
            else 0) = if D.d i = true ∧ D.t i ∈ post then τ (D.t i) else 0 := by
          by_cases hq : D.d i = true ∧ D.t i ∈ post
          · rw [if_pos hq, if_pos hq, coefAt_of c (mi _ hq.2)]
          · rw [if_neg hq, if_neg hq]
        rw [ep, ei]
        have ec : c .const = l r := rfl
        have et : c .treat = β := rfl
        rw [ec, et]
        cases hd : D.d i <;> by_cases hq' : D.t i ∈ post <;> simp [hd, hq'] at e ⊢ <;> linarith)
      have hget : ∀ k ∈ columns (periods D) post r 0, c k = 0 := by
        intro k hk
        rw [← coefAt_of c hk, hv]
        unfold coefAt
        split_ifs <;> rfl
      exact ⟨hget _ mt, fun p hp => hget _ (mi p hp)⟩
    refine ⟨fun p hp a => ?_, ?_⟩
    · by_contra hno
      push Not at hno
      cases a with
      | true =>
        have := (build (fun _ => 0) 0 (fun q => if q = p then 1 else 0) (fun i => by
          by_cases hd : D.d i = true
          · have := hno i hd
            simp [hd, this]
          · simp [hd])).2 p hp
        simp at this
      | false =>
        have := (build (fun q => if q = p then -1 else 0) 0 (fun q => if q = p then 1 else 0) (fun i => by
          by_cases hd : D.d i = true
          · by_cases ht : D.t i = p
            · simp [hd, ht, hp]
            · simp [hd, ht]
          · have := hno i (by simpa using hd)
            simp [hd, this])).2 p hp
        simp at this
    · by_contra hno
      push Not at hno
      have := (build (fun q => if q ∉ post ∧ ∃ i, D.d i = true ∧ D.t i = q then -1 else 0) 1 (fun _ => -1) (fun i => by
        by_cases hp : D.t i ∈ post
        · cases hd : D.d i <;> simp [hp]
        · have hb := hno i hp
          cases hd : D.d i with
          | true =>
            have : ∃ j, D.d j = true ∧ D.t j = D.t i := ⟨i, hd, rfl⟩
            simp [hp, this]
          | false =>
            have : ¬ ∃ j, D.d j = true ∧ D.t j = D.t i := fun ⟨j, hj, hj'⟩ => hb (fun a => by
              cases a
              · exact ⟨i, hd, rfl⟩
              · exact ⟨j, hj, hj'⟩)
            simp only [hp, this]
            simp)).1
      simp at this
  · rintro ⟨hpost, i0, hi0, hb0⟩
    refine DidFit.det_of_injective _ fun v hv => ?_
    have hz : ∀ i, cellFit _ v (D.d i) (D.t i) = 0 := fun i => (hfit v i).symm.trans (hv i)
    have hgap : ∀ p, Both D p → cellFit _ v true p - cellFit _ v false p = 0 := by
      intro p hb
      obtain ⟨i, hi, hi'⟩ := hb true
      obtain ⟨j, hj, hj'⟩ := hb false
      have e1 := hz i
      have e2 := hz j
      rw [hi, hi'] at e1
      rw [hj, hj'] at e2
      rw [e1, e2, sub_zero]
    have ht : coefAt _ v .treat = 0 := by
      have := hgap _ hb0
      rw [cellFit_gap ha hn, if_neg hi0, add_zero] at this
      exact this
    have hin : ∀ p ∈ post, coefAt _ v (.inter p) = 0 := by
      intro p hp
      have := hgap _ (hpost p hp)
      rw [cellFit_gap ha hn, if_pos hp, ht, zero_add] at this
      exact this
    have hall : ∀ i, coefAt _ v .const + (if D.t i = r then 0 else coefAt _ v (.period (D.t i))) = 0 := by
      intro i
      have := hz i
      rw [cellFit_eq ha hn r v _ _ (mem_periods.2 ⟨i, rfl⟩), ht] at this
      by_cases hp : D.t i ∈ post
      · rw [hin _ hp] at this; simpa using this
      · simpa [hp] using this
    have hcst : coefAt _ v .const = 0 := by
      obtain ⟨i, hi⟩ := mem_periods.1 hr
      have := hall i
      rw [if_pos hi, add_zero] at this
      exact this
    have hper : ∀ p ∈ periods D, p ≠ r → coefAt _ v (.period p) = 0 := by
      intro p hp hpr
      obtain ⟨i, hi⟩ := mem_periods.1 hp
      have := hall i
      rw [hi, if_neg hpr, hcst, zero_add] at this
      exact this
    have hzero : ∀ c ∈ columns (periods D) post r 0, coefAt _ v c = 0 := by
      intro c hc
      rcases mem_columns.1 hc with rfl | rfl | ⟨q, hq, hqr, rfl⟩ | ⟨q, hq, rfl⟩
      · exact hcst
      · exact ht
      · exact hper q hq hqr
      · exact hin q hq
    funext j
    have := hzero _ (List.getElem_mem j.2)
    have e : (columns (periods D) post r 0).idxOf (columns (periods D) post r 0)[j] = j.1 :=
      List.Nodup.idxOf_getElem (columns_nodup ha hn r 0) j.1 j.2
    unfold coefAt at this
    rw [dif_pos (by rw [show (columns (periods D) post r 0)[j.1] = (columns (periods D) post r 0)[j] from rfl, e]; exact j.2)] at this
    refine Eq.trans ?_ this
    congr 1
    exact Fin.ext e.symm

/-! ### The regression behind the report -/

/-- The covariance matrix in use: clustered, robust, or classical. -/
def Covariance (L : TwfeFit.Lib ι K) (robust : Bool) (D : Data ι C K) (cs : List Col) (u : ι → K) (V : Matrix (Fin cs.length) (Fin cs.length) K) : Prop :=
  if robust || D.cluster.isSome then vcovNumpy (matrix D cs) u D.cluster = .ok V else LinReg.classical L.solvers.pinv (matrix D cs) u = some V

theorem Covariance.psd {L : TwfeFit.Lib ι K} {robust : Bool} {D : Data ι C K} {cs : List Col} {u : ι → K} {V : Matrix (Fin cs.length) (Fin cs.length) K}
    (h : Covariance L robust D cs u V) (hX : ((matrix D cs)ᵀ * matrix D cs).det ≠ 0) (hn : cs.length < Fintype.card ι) (v : Fin cs.length → K) :
    0 ≤ quad V v := by
  unfold Covariance at h
  split_ifs at h
  · exact (C14_symmetric_psd _ _ _ V h (by simpa using hn)).2 v
  · exact (LinReg.C124_classical_psd _ _ hX (by simpa using hn) _ V h).2 v

theorem regress_ok {L : TwfeFit.Lib ι K} (hL : Works L) {robust strict : Bool} {D : Data ι C K} {cs : List Col}
    (hX : ((matrix D cs)ᵀ * matrix D cs).det ≠ 0) {f : LinReg.Fit ι cs.length K} (h : regress L robust strict D cs = .ok f) :
    ∃ (b : Fin cs.length → K) (V : Matrix (Fin cs.length) (Fin cs.length) K), IsOls (matrix D cs) (outcome D) b ∧
      Covariance L robust D cs (resid (matrix D cs) (outcome D) b) V ∧ (∀ j, f.coef j = some (b j)) ∧ (∀ p, f.vcov p = some (V p.1 p.2)) ∧
      f.resid = resid (matrix D cs) (outcome D) b ∧ f.df = (Fintype.card ι : ℤ) - cs.length - adjustment D.absorb ∧ cs.length < Fintype.card ι := by
  have hdf : ∀ b : Fin cs.length → K, Ols.dfOf (Fintype.card ι) (fun j => some (b j)) (adjustment D.absorb) =
      (Fintype.card ι : ℤ) - cs.length - adjustment D.absorb := by
    intro b; simp [Ols.dfOf, Ols.nParamsEffective]
  refine ⟨L.solvers.lstsq (matrix D cs) (outcome D), ?_⟩
  have hb := hL.solves (matrix D cs) (outcome D)
  unfold regress at h
  simp only [hL.keeps _ hX, LinReg.fit] at h
  by_cases hk : Fintype.card ι < cs.length
  · simp only [hk, if_true] at h; cases h
  · simp only [hk, if_false, LinReg.vcov, LinReg.Opts.ids, Bool.true_or, if_true] at h
    cases hv : vcovNumpy (matrix D cs) (resid (matrix D cs) (outcome D) (L.solvers.lstsq (matrix D cs) (outcome D))) D.cluster with
    | error e => rw [hv] at h; cases h
    | ok V =>
      rw [hv] at h
      have hne : Fintype.card ι ≠ cs.length := by
        intro he
        unfold vcovNumpy at hv
        cases hc : D.cluster with
        | none => rw [hc] at hv; simp [he] at hv
        | some g =>
          rw [hc] at hv
          simp only [Fintype.card_fin, he, if_true] at hv
          split_ifs at hv
      have hlt : cs.length < Fintype.card ι := by omega
      by_cases hr : (robust || D.cluster.isSome) = true
      · simp only [hr, if_true] at h
        cases h
        exact ⟨V, hb, by unfold Covariance; rw [if_pos hr]; exact hv, fun _ => rfl, fun _ => rfl, rfl, hdf _, hlt⟩
      · simp only [hr, if_false, Option.isSome_none, Bool.or_false, Bool.false_eq_true] at h
        have hcl : LinReg.classical L.solvers.pinv (matrix D cs) (resid (matrix D cs) (outcome D) (L.solvers.lstsq (matrix D cs) (outcome D))) ≠ none := by
          unfold LinReg.classical
          simp [hne]
        obtain ⟨W, hW⟩ := Option.ne_none_iff_exists'.1 hcl
        cases h
        exact ⟨W, hb, by unfold Covariance; rw [if_neg hr]; exact hW, fun _ => rfl, fun p => by rw [hW]; rfl, rfl, hdf _, hlt⟩

theorem lastIndex_eq {all post : List ℤ} (hn : post.Nodup) (r p : ℤ) (hp : p ∈ post) : lastIndex all post r p = interIndex all post r p := by
  unfold lastIndex interIndex
  congr 1
  have hlt : post.reverse.idxOf p < post.reverse.length := List.idxOf_lt_length_iff.2 (List.mem_reverse.2 hp)
  have h1 : post.reverse[post.reverse.idxOf p] = p := List.getElem_idxOf hlt
  rw [List.getElem_reverse] at h1
  have h2 := List.Nodup.idxOf_getElem hn (post.length - 1 - post.reverse.idxOf p) (by simp at hlt; omega)
  rw [h1] at h2
  exact h2.symm

theorem inter_lt (all post : List ℤ) (r : ℤ) (k : ℕ) (p : ℤ) (hp : p ∈ post) : interIndex all post r p < (columns all post r k).length := by
  have := C76_interaction_position all post r k p hp
  exact (List.getElem?_eq_some_iff.1 this).1

/-- Entry of a matrix by columns. -/
def entryAt (cs : List Col) (V : Matrix (Fin cs.length) (Fin cs.length) K) (c c' : Col) : K :=
  if h : cs.idxOf c < cs.length ∧ cs.idxOf c' < cs.length then V ⟨_, h.1⟩ ⟨_, h.2⟩ else 0

theorem idx_inter {D : Data ι C K} {post : List ℤ} {r : ℤ} (hn : post.Nodup) {p : ℤ} (hp : p ∈ post) :
    (cols D post r).idxOf (Col.inter p) = lastIndex (periods D) post r p ∧ lastIndex (periods D) post r p < (cols D post r).length := by
  rw [lastIndex_eq hn r p hp]
  exact ⟨coefAt_inter (periods D) post r (extras D).length (periods_nodup D) hn p hp, inter_lt (periods D) post r _ p hp⟩

theorem at1_inter {D : Data ι C K} {post : List ℤ} {r : ℤ} (hn : post.Nodup) {p : ℤ} (hp : p ∈ post) {f : LinReg.Fit ι (cols D post r).length K}
    {b : Fin (cols D post r).length → K} (hb : ∀ j, f.coef j = some (b j)) :
    at1 f (lastIndex (periods D) post r p) = some (coefAt (cols D post r) b (.inter p)) := by
  obtain ⟨h1, h2⟩ := idx_inter (D := D) (r := r) hn hp
  unfold at1 coefAt
  rw [dif_pos h2, dif_pos (by rw [h1]; exact h2), hb]
  simp only [h1]

theorem at2_inter {D : Data ι C K} {post : List ℤ} {r : ℤ} (hn : post.Nodup) {p q : ℤ} (hp : p ∈ post) (hq : q ∈ post)
    {f : LinReg.Fit ι (cols D post r).length K} {V : Matrix (Fin (cols D post r).length) (Fin (cols D post r).length) K}
    (hV : ∀ p, f.vcov p = some (V p.1 p.2)) :
    at2 f (lastIndex (periods D) post r p) (lastIndex (periods D) post r q) = some (entryAt (cols D post r) V (.inter p) (.inter q)) := by
  obtain ⟨h1, h2⟩ := idx_inter (D := D) (r := r) hn hp
  obtain ⟨h3, h4⟩ := idx_inter (D := D) (r := r) hn hq
  unfold at2 entryAt
  rw [dif_pos ⟨h2, h4⟩, dif_pos ⟨by rw [h1]; exact h2, by rw [h3]; exact h4⟩, hV]
  simp only [h1, h3]

theorem dedup_nodup {post : List ℤ} (hn : post.Nodup) : post.reverse.dedup.reverse = post := by
  rw [List.dedup_eq_self.2 (List.nodup_reverse.2 hn), List.reverse_reverse]

theorem entry_quad {cs : List Col} (V : Matrix (Fin cs.length) (Fin cs.length) K) (P : Finset Col) (hP : ∀ c ∈ P, c ∈ cs) (w : Col → K) :
    ∃ v, ∑ a ∈ P, ∑ c ∈ P, w a * entryAt cs V a c * w c = quad V v := by
  have hA : ∀ F : Fin cs.length → K, ∑ m, (∑ a ∈ P, if h : cs.idxOf a < cs.length then (if m = ⟨_, h⟩ then w a else 0) else 0) * F m =
      ∑ a ∈ P, if h : cs.idxOf a < cs.length then w a * F ⟨_, h⟩ else 0 := by
    intro F
    simp only [Finset.sum_mul]
    rw [Finset.sum_comm]
    refine Finset.sum_congr rfl fun a ha => ?_
    have hlt := List.idxOf_lt_length_iff.2 (hP a ha)
    simp [hlt]
  refine ⟨fun m => ∑ a ∈ P, if h : cs.idxOf a < cs.length then (if m = ⟨_, h⟩ then w a else 0) else 0, ?_⟩
  unfold quad
  simp only [mul_assoc, ← Finset.mul_sum]
  rw [hA]
  refine Finset.sum_congr rfl fun a ha => ?_
  have hlt := List.idxOf_lt_length_iff.2 (hP a ha)
  rw [dif_pos hlt]
  congr 1
  have := hA (fun m => V ⟨_, hlt⟩ m)
  rw [Finset.sum_congr rfl (fun m _ => mul_comm (V ⟨_, hlt⟩ m) _), this]
  refine Finset.sum_congr rfl fun c hc' => ?_
  have hlt' := List.idxOf_lt_length_iff.2 (hP c hc')
  rw [dif_pos hlt']
  unfold entryAt
  rw [dif_pos ⟨hlt, hlt'⟩]
  ring

theorem entry_psd {L : TwfeFit.Lib ι K} {robust : Bool} {D : Data ι C K} {post : List ℤ} {r : ℤ} (hn : post.Nodup) {u : ι → K}
    {V : Matrix (Fin (cols D post r).length) (Fin (cols D post r).length) K} (hV : Covariance L robust D (cols D post r) u V)
    (hX : ((matrix D (cols D post r))ᵀ * matrix D (cols D post r)).det ≠ 0) (hlt : (cols D post r).length < Fintype.card ι)
    (P : Finset ℤ) (hP : ∀ p ∈ P, p ∈ post) (w : ℤ → K) :
    0 ≤ ∑ p ∈ P, ∑ q ∈ P, w p * entryAt (cols D post r) V (.inter p) (.inter q) * w q := by
  have hmem : ∀ p ∈ post, Col.inter p ∈ cols D post r := by
    intro p hp
    have := idx_inter (D := D) (r := r) hn hp
    rw [← List.idxOf_lt_length_iff, this.1]; exact this.2
  have hinj : Set.InjOn Col.inter (P : Set ℤ) := fun a _ b _ h => by cases h; rfl
  obtain ⟨v, hv'⟩ := entry_quad V (P.image Col.inter) (fun c hc => by
    obtain ⟨p, hp, rfl⟩ := Finset.mem_image.1 hc
    exact hmem p (hP p hp)) (fun c => match c with | .inter p => w p | _ => 0)
  have hnn := hV.psd hX hlt v
  rw [← hv', Finset.sum_image hinj] at hnn
  simp only [Finset.sum_image hinj] at hnn
  exact hnn

/-- The fields of one effect. -/
def effectOf (L : DidFit.Lib ι K) (alpha : K) (df : ℤ) (p : ℤ) (b v : K) : Effect K :=
  ⟨p, .fin b, .fin (L.sqrt v), Ext.div (.fin b) (.fin (L.sqrt v)), pOf L df (Ext.div (.fin b) (.fin (L.sqrt v))), ciOf L df (.fin b) (.fin (L.sqrt v)) alpha⟩

/-- The report in terms of the least-squares solution and its covariance matrix. -/
theorem report_ok {L : TwfeFit.Lib ι K} (hL : Works L) {robust strict : Bool} {alpha : K} {D : Data ι C K} {R : Result K}
    (h : fit L robust strict alpha D = .ok R) {pre post : List ℤ} {r : ℤ} (hc : classify (values D.t) D.post D.ref = .ok (pre, post, r)) (hn : post.Nodup)
    (hX : ((matrix D (cols D post r))ᵀ * matrix D (cols D post r)).det ≠ 0) :
    ∃ (b : Fin (cols D post r).length → K) (V : Matrix (Fin (cols D post r).length) (Fin (cols D post r).length) K) (df : ℤ) (w : K),
      IsOls (matrix D (cols D post r)) (outcome D) b ∧ Covariance L robust D (cols D post r) (resid (matrix D (cols D post r)) (outcome D) b) V ∧
      df = (Fintype.card ι : ℤ) - (cols D post r).length - adjustment D.absorb ∧ (cols D post r).length < Fintype.card ι ∧ R.post = post ∧
      (∀ p ∈ post, 0 ≤ entryAt (cols D post r) V (.inter p) (.inter p)) ∧
      R.effects = post.map (fun p => effectOf L.toLib alpha df p (coefAt (cols D post r) b (.inter p)) (entryAt (cols D post r) V (.inter p) (.inter p))) ∧
      R.att = .fin ((post.map (fun p => coefAt (cols D post r) b (.inter p))).sum / (post.length : K)) ∧
      0 ≤ w ∧ w = (∑ p ∈ post.toFinset, ∑ q ∈ post.toFinset, entryAt (cols D post r) V (.inter p) (.inter q)) / (post.length : K) ^ 2 ∧
      R.se = .fin (L.sqrt w) ∧
      (0 < L.sqrt w → R.t = Ext.div R.att R.se ∧ R.p = pOf L.toLib df R.t ∧ R.ci = ciOf L.toLib df R.att R.se alpha) ∧
      (¬ 0 < L.sqrt w → R.t = .nan ∧ R.p = .nan ∧ R.ci = (.nan, .nan)) ∧
      R.r2 = Vcov.rSquared (outcome D) (resid (matrix D (cols D post r)) (outcome D) b) false 0 := by
  obtain ⟨pre', post', r', f, hc', hf, hR⟩ := fit_ok h
  rw [hc] at hc'
  cases hc'
  obtain ⟨b, V, hb, hV, hcf, hv, hres, hdf, hlt⟩ := regress_ok hL hX hf
  have hquad := entry_psd hn hV hX hlt
  have hnn : ∀ p ∈ post, 0 ≤ entryAt (cols D post r) V (.inter p) (.inter p) := by
    intro p hp
    have := hquad {p} (fun q hq => by rw [Finset.mem_singleton.1 hq]; exact hp) (fun _ => 1)
    simpa using this
  set w : K := (∑ p ∈ post.toFinset, ∑ q ∈ post.toFinset, entryAt (cols D post r) V (.inter p) (.inter q)) / (post.length : K) ^ 2 with hw
  have hw0 : 0 ≤ w := by
    have := hquad post.toFinset (fun p hp => List.mem_toFinset.1 hp) (fun _ => 1)
    simp only [one_mul, mul_one] at this
    exact div_nonneg this (sq_nonneg _)
  have e1 : allSome ((post.map (lastIndex (periods D) post r)).map (at1 f)) = some (post.map (fun p => coefAt (cols D post r) b (.inter p))) := by
    rw [List.map_map]
    exact allSome_map _ _ _ fun p hp => at1_inter hn hp hcf
  have e2 : allSome ((post.map (lastIndex (periods D) post r)).flatMap (fun i => (post.map (lastIndex (periods D) post r)).map (fun j => at2 f i j))) =
      some (post.flatMap (fun p => post.map (fun q => entryAt (cols D post r) V (.inter p) (.inter q)))) := by
    have e : (post.map (lastIndex (periods D) post r)).flatMap (fun i => (post.map (lastIndex (periods D) post r)).map (fun j => at2 f i j)) =
        (post.flatMap (fun p => post.map (fun q => entryAt (cols D post r) V (.inter p) (.inter q)))).map some := by
      rw [List.map_flatMap, List.flatMap_map]
      refine List.flatMap_congr fun p hp => ?_
      rw [List.map_map, List.map_map]
      exact List.map_congr_left fun q hq => at2_inter hn hp hq hv
    rw [e, allSome_map _ some id (fun _ _ => rfl), List.map_id]
  have e3 : (post.flatMap (fun p => post.map (fun q => entryAt (cols D post r) V (.inter p) (.inter q)))).sum =
      ∑ p ∈ post.toFinset, ∑ q ∈ post.toFinset, entryAt (cols D post r) V (.inter p) (.inter q) := by
    rw [sum_flatMap_eq, List.sum_toFinset _ hn]
    congr 1
    exact List.map_congr_left fun p _ => (List.sum_toFinset _ hn).symm
  have havg : average L.toLib alpha f.df (at1 f) (at2 f) (post.map (lastIndex (periods D) post r)) =
      if 0 < L.sqrt w then
        (Ext.fin ((post.map (fun p => coefAt (cols D post r) b (.inter p))).sum / (post.length : K)), .fin (L.sqrt w),
          Ext.div (.fin ((post.map (fun p => coefAt (cols D post r) b (.inter p))).sum / (post.length : K))) (.fin (L.sqrt w)),
          pOf L.toLib f.df (Ext.div (.fin ((post.map (fun p => coefAt (cols D post r) b (.inter p))).sum / (post.length : K))) (.fin (L.sqrt w))),
          ciOf L.toLib f.df (.fin ((post.map (fun p => coefAt (cols D post r) b (.inter p))).sum / (post.length : K))) (.fin (L.sqrt w)) alpha)
      else (.fin ((post.map (fun p => coefAt (cols D post r) b (.inter p))).sum / (post.length : K)), .fin (L.sqrt w), .nan, .nan, (.nan, .nan)) := by
    unfold average
    rw [e1]
    simp only [e2, e3, List.length_map, ← hw, not_lt.2 hw0, if_false]
  refine ⟨b, V, f.df, w, hb, hV, hdf, hlt, by rw [hR]; rfl, hnn, ?_, ?_, hw0, rfl, ?_, ?_, ?_, ?_⟩
  · rw [hR]
    show post.reverse.dedup.reverse.map _ = _
    rw [dedup_nodup hn]
    refine List.map_congr_left fun p hp => ?_
    unfold effect effectOf
    simp only [at1_inter hn hp hcf, at2_inter hn hp hp hv, LinReg.toExt, root, not_lt.2 (hnn p hp), if_false]
  · rw [hR]
    show (average L.toLib alpha f.df (at1 f) (at2 f) (post.map (lastIndex (periods D) post r))).1 = _
    rw [havg]; split_ifs <;> rfl
  · rw [hR]
    show (average L.toLib alpha f.df (at1 f) (at2 f) (post.map (lastIndex (periods D) post r))).2.1 = _
    rw [havg]; split_ifs <;> rfl
  · intro hp
    rw [if_pos hp] at havg
    rw [hR]
    simp only [report, havg]
    exact ⟨trivial, trivial, trivial⟩
  · intro hp
    rw [if_neg hp] at havg
    rw [hR]
    simp only [report, havg]
    exact ⟨trivial, trivial, trivial⟩
  · rw [hR]
    show Vcov.rSquared (outcome D) f.resid false 0 = _
    rw [hres]

/-! ### When a result is returned -/

theorem length_cols {D : Data ι C K} {pre post : List ℤ} {r : ℤ} (hc : classify (values D.t) D.post D.ref = .ok (pre, post, r)) :
    (cols D post r).length = (Set.range D.t).ncard + post.length + 1 + (extras D).length := by
  have hr : r ∈ periods D := mem_periods.2 (mem_values.1 (C76_classification _ _ _ _ _ _ hc).2.2.2.2.2.1)
  have h1 : ((periods D).filter (fun p => decide (p ≠ r))).length + 1 = (periods D).length := by
    have e : (periods D).filter (fun p => decide (p ≠ r)) = (periods D).erase r := by
      rw [(periods_nodup D).erase_eq_filter]
      refine List.filter_congr fun p _ => ?_
      by_cases hp : p = r <;> simp [hp]
    rw [e, List.length_erase_of_mem hr]
    have := List.length_pos_of_mem hr
    omega
  have h2 : (periods D).length = (Set.range D.t).ncard := by
    rw [← List.toFinset_card_of_nodup (periods_nodup D), ← Set.ncard_coe_finset]
    congr 1
    ext p
    simp [mem_periods]
  simp only [cols, columns, List.length_append, List.length_map, List.length_cons, List.length_nil, List.length_range]
  omega

theorem length_extras (D : Data ι C K) : (extras D).length = D.cov.length + (D.fixed.map (fun g => (Set.range g).ncard - 1)).sum := by
  have h : ∀ g : ι → ℤ, (dummies g : List (ι → K)).length = (Set.range g).ncard - 1 := by
    intro g
    unfold dummies
    rw [List.length_map, List.length_tail]
    congr 1
    unfold values
    rw [Finset.length_sort, ← Set.ncard_coe_finset]
    congr 1
    simp
  unfold extras
  rw [List.length_append, List.length_map, List.length_flatMap]
  congr 2
  exact List.map_congr_left fun g _ => h g

/-- C148. With treated and control rows in every post period and in some pre period, a call without covariates returns a result exactly if the periods are
acceptable, there are more rows than coefficients (one per period, one per post period, one for the group), and clusters, if used, number at least two. -/
theorem C148_runs_iff (L : TwfeFit.Lib ι K) (hL : Works L) (robust strict : Bool) (alpha : K) (D : Data ι C K) (hD : Plain D)
    (hov : ∀ pre post r, classify (values D.t) D.post D.ref = .ok (pre, post, r) → post.Nodup ∧ Overlap D post) :
    (∃ R, fit L robust strict alpha D = .ok R) ↔
      (∃ pre post r, classify (values D.t) D.post D.ref = .ok (pre, post, r) ∧ (Set.range D.t).ncard + post.length + 1 < Fintype.card ι) ∧
      ∀ g, D.cluster = some g → 2 ≤ nClusters g := by
  constructor
  · rintro ⟨R, h⟩
    obtain ⟨pre, post, r, f, hc, hf, -⟩ := fit_ok h
    obtain ⟨hn, ho⟩ := hov _ _ _ hc
    have hX := (C148_estimable D hD pre post r hc hn).2 ho
    obtain ⟨b, V, hb, hV, hcf, hv, hres, hdf, hlt⟩ := regress_ok hL hX hf
    refine ⟨⟨pre, post, r, hc, ?_⟩, ?_⟩
    · rw [length_cols hc, extras_plain hD] at hlt
      simpa using hlt
    · intro g hg
      by_contra h2
      unfold Covariance at hV
      rw [hg] at hV
      simp only [Option.isSome_some, Bool.or_true, if_true, vcovNumpy, not_le.1 h2] at hV
      cases hV
  · rintro ⟨⟨pre, post, r, hc, hlt⟩, hg⟩
    obtain ⟨hn, ho⟩ := hov _ _ _ hc
    have hX := (C148_estimable D hD pre post r hc hn).2 ho
    have hlen : (cols D post r).length < Fintype.card ι := by
      rw [length_cols hc, extras_plain hD]; simpa using hlt
    have hv : ∀ u, ∃ V, vcovNumpy (matrix D (cols D post r)) u D.cluster = .ok V := by
      intro u
      unfold vcovNumpy
      cases hcl : D.cluster with
      | none => simp only [Fintype.card_fin, hlen.ne', if_false, hX]; exact ⟨_, rfl⟩
      | some g => simp only [Fintype.card_fin, hlen.ne', if_false, hX, not_lt.2 (hg g hcl)]; exact ⟨_, rfl⟩
    unfold fit
    rw [hc]
    simp only [regress, hL.keeps _ hX, LinReg.fit, not_lt.2 hlen.le, if_false, LinReg.vcov, LinReg.Opts.ids, Bool.true_or, if_true]
    obtain ⟨V, hV⟩ := hv (resid (matrix D (cols D post r)) (outcome D) (L.solvers.lstsq (matrix D (cols D post r)) (outcome D)))
    rw [hV]
    by_cases hr : (robust || D.cluster.isSome) = true
    · simp only [hr, if_true]; exact ⟨_, rfl⟩
    · simp only [hr, if_false, Option.isSome_none, Bool.or_false, Bool.false_eq_true]
      exact ⟨_, rfl⟩

/-! ### Effects by period -/

/-- C148. Treated share equal in all pre periods: the effect reported for a post period is its treated-control gap minus the gap pooled over the pre
periods. -/
theorem C148_effects (L : TwfeFit.Lib ι K) (hL : Works L) (robust strict : Bool) (alpha : K) (D : Data ι C K) (hD : Plain D) (hab : D.absorb = [])
    (R : Result K) (h : fit L robust strict alpha D = .ok R) (hn : R.post.Nodup) (ho : Overlap D R.post)
    (hshare : ∀ i, D.t i ∉ R.post → ((arm D.d D.t true (D.t i)).card : K) * (preArm D.d D.t R.post false).card =
      (arm D.d D.t false (D.t i)).card * (preArm D.d D.t R.post true).card) (e : Effect K) (he : e ∈ R.effects) :
    e.effect = .fin (gap D.y D.d D.t e.period - (preMean D.y D.d D.t R.post true - preMean D.y D.d D.t R.post false)) := by
  obtain ⟨pre, post, r, f, hc, hf, hR⟩ := fit_ok h
  have hpost : R.post = post := by rw [hR]; rfl
  rw [hpost] at hn ho hshare ⊢
  have hX := (C148_estimable D hD pre post r hc hn).2 ho
  obtain ⟨b, V, df, w, hb, -, -, -, -, -, heff, -⟩ := report_ok hL h hc hn hX
  rw [heff] at he
  obtain ⟨p, hp, rfl⟩ := List.mem_map.1 he
  show Ext.fin (coefAt _ b (.inter p)) = .fin (gap D.y D.d D.t p - (preMean D.y D.d D.t post true - preMean D.y D.d D.t post false))
  congr 1
  clear he heff
  have hy : outcome D = D.y := by simp [outcome, absorbed, hab]
  obtain ⟨e1, e2⟩ := matrix_plain hD post r
  rw [e2, hy] at hb
  revert b
  rw [e1]
  intro b hb
  obtain ⟨i0, hi0, hb0⟩ := ho.2
  have hmem : ∀ i, D.t i ∈ periods D := fun i => mem_periods.2 ⟨i, rfl⟩
  refine C76_period_effect (periods D) post r D.d D.t D.y (periods_nodup D) hn hmem
    (mem_periods.2 (mem_values.1 (C76_classification _ _ _ _ _ _ hc).2.2.2.2.2.1)) b hb p hp
    (mem_periods.2 ((ho.1 p hp true).imp fun i hi => hi.2)) (ho.1 p hp true) (ho.1 p hp false)
    ((hb0 true).imp fun i hi => ⟨hi.1, by rw [hi.2]; exact hi0⟩) ((hb0 false).imp fun i hi => ⟨hi.1, by rw [hi.2]; exact hi0⟩) ?_
  intro q hq hqp
  obtain ⟨i, rfl⟩ := mem_periods.1 hq
  exact hshare i hqp

/-- C148. Outcomes made of a group effect, a period effect and a treatment effect per post period: exactly these treatment effects are reported, whatever
the group sizes. -/
theorem C148_recovers (L : TwfeFit.Lib ι K) (hL : Works L) (robust strict : Bool) (alpha : K) (D : Data ι C K) (hD : Plain D) (hab : D.absorb = [])
    (R : Result K) (h : fit L robust strict alpha D = .ok R) (hn : R.post.Nodup) (ho : Overlap D R.post) (g : Bool → K) (l τ : ℤ → K)
    (hy : ∀ i, D.y i = g (D.d i) + l (D.t i) + (if D.d i = true ∧ D.t i ∈ R.post then τ (D.t i) else 0)) (e : Effect K) (he : e ∈ R.effects) :
    e.effect = .fin (τ e.period) := by
  obtain ⟨pre, post, r, f, hc, hf, hR⟩ := fit_ok h
  have hpost : R.post = post := by rw [hR]; rfl
  rw [hpost] at hn ho hy
  have hX := (C148_estimable D hD pre post r hc hn).2 ho
  obtain ⟨b, V, df, w, hb, -, -, -, -, -, heff, -⟩ := report_ok hL h hc hn hX
  rw [heff] at he
  obtain ⟨p, hp, rfl⟩ := List.mem_map.1 he
  show Ext.fin (coefAt _ b (.inter p)) = .fin (τ p)
  congr 1
  clear he heff
  have hout : outcome D = D.y := by simp [outcome, absorbed, hab]
  obtain ⟨e1, e2⟩ := matrix_plain hD post r
  rw [e2, hout] at hb
  revert b
  rw [e1]
  intro b hb
  obtain ⟨i0, hi0, hb0⟩ := ho.2
  exact C76_recovers (periods D) post r D.d D.t D.y (periods_nodup D) hn (fun i => mem_periods.2 ⟨i, rfl⟩)
    (mem_periods.2 (mem_values.1 (C76_classification _ _ _ _ _ _ hc).2.2.2.2.2.1)) b hb g l τ hy ⟨D.t i0, hi0, hb0 true, hb0 false⟩ p hp
    (mem_periods.2 ((ho.1 p hp true).imp fun i hi => hi.2)) (ho.1 p hp true) (ho.1 p hp false)

/-! ### Inference -/

/-- C148. Effects by period and their average are tested against the t distribution with rows minus coefficients minus absorbed effects degrees of freedom; a
coefficient counts for each covariate and for each value of a fixed-effect column but one;
if that is not positive all p-values and intervals are NaN. -/
theorem C148_inference (L : TwfeFit.Lib ι K) (hL : Works L) (robust strict : Bool) (alpha : K) (D : Data ι C K) (R : Result K)
    (h : fit L robust strict alpha D = .ok R) {pre post : List ℤ} {r : ℤ} (hc : classify (values D.t) D.post D.ref = .ok (pre, post, r))
    (hn : post.Nodup) (hX : ((matrix D (cols D post r))ᵀ * matrix D (cols D post r)).det ≠ 0) (df : ℤ)
    (hdf : df = (Fintype.card ι : ℤ) - ((Set.range D.t).ncard + post.length + 1 + (D.cov.length + (D.fixed.map (fun g => (Set.range g).ncard - 1)).sum) : ℕ) -
      (D.absorb.map (fun g => ((Set.range g).ncard : ℤ) - 1)).sum) :
    (∀ e ∈ R.effects, ∃ b s, e.effect = .fin b ∧ e.se = .fin s ∧ 0 ≤ s ∧
      (0 < df → 0 < s → e.t = .fin (b / s) ∧ e.p = .fin (2 * (L.tD df).sf |b / s|) ∧
        e.ci = (.fin (b - (L.tD df).ppf (1 - alpha / 2) * s), .fin (b + (L.tD df).ppf (1 - alpha / 2) * s))) ∧
      (df ≤ 0 → e.p = .nan ∧ e.ci = (.nan, .nan))) ∧
    (∃ b s, R.att = .fin b ∧ R.se = .fin s ∧ 0 ≤ s ∧
      (0 < df → 0 < s → R.t = .fin (b / s) ∧ R.p = .fin (2 * (L.tD df).sf |b / s|) ∧
        R.ci = (.fin (b - (L.tD df).ppf (1 - alpha / 2) * s), .fin (b + (L.tD df).ppf (1 - alpha / 2) * s))) ∧
      (df ≤ 0 → R.p = .nan ∧ R.ci = (.nan, .nan))) := by
  obtain ⟨b, V, df', w, hb, hV, hdf', hlt, hpost, hnn, heff, hatt, hw0, hw, hse, hpos, hzero, -⟩ := report_ok hL h hc hn hX
  have hadj : adjustment D.absorb = (D.absorb.map (fun g => ((Set.range g).ncard : ℤ) - 1)).sum := by
    unfold adjustment
    congr 1
    refine List.map_congr_left fun g _ => ?_
    rw [TwfeFit.ncard_range]; rfl
  have hd : df' = df := by rw [hdf', hdf, length_cols hc, length_extras, hadj]
  subst hd
  have hp2 : ∀ x s : K, 0 < df' → 0 < s → pOf L.toLib df' (Ext.div (.fin x) (.fin s)) = .fin (2 * (L.tD df').sf |x / s|) ∧
      Ext.div (.fin x) (.fin s) = .fin (x / s) := by
    intro x s h1 h2
    have e : Ext.div (.fin x) (.fin s) = .fin (x / s) := by simp [Ext.div, h2.ne']
    refine ⟨?_, e⟩
    rw [e]
    simp only [pOf, h1, if_true, Inference.pValue, Inference.Dist.sfE, Ext.abs, Ext.mul]
    rw [mul_comm]
  have hci : ∀ x s : K, 0 < df' → ciOf L.toLib df' (.fin x) (.fin s) alpha =
      (.fin (x - (L.tD df').ppf (1 - alpha / 2) * s), .fin (x + (L.tD df').ppf (1 - alpha / 2) * s)) := by
    intro x s h1
    unfold ciOf
    rw [if_pos h1, Inference.confInt_fin]
  constructor
  · intro e he
    rw [heff] at he
    obtain ⟨p, hp, rfl⟩ := List.mem_map.1 he
    refine ⟨_, _, rfl, rfl, (hL.sqrt _ (hnn p hp)).1, ?_, ?_⟩
    · intro h1 h2
      exact ⟨(hp2 _ _ h1 h2).2, (hp2 _ _ h1 h2).1, hci _ _ h1⟩
    · intro h1
      simp [effectOf, pOf, ciOf, not_lt.2 h1]
  · refine ⟨_, _, hatt, hse, (hL.sqrt _ hw0).1, ?_, ?_⟩
    · intro h1 h2
      obtain ⟨e1, e2, e3⟩ := hpos h2
      rw [e2, e3, e1, hatt, hse]
      exact ⟨(hp2 _ _ h1 h2).2, (hp2 _ _ h1 h2).1, hci _ _ h1⟩
    · intro h1
      by_cases h2 : 0 < L.sqrt w
      · obtain ⟨e1, e2, e3⟩ := hpos h2
        rw [e2, e3]
        simp [pOf, ciOf, not_lt.2 h1]
      · exact (hzero h2).2

/-- C148. The average is the mean of the reported effects; its variance is the mean of all their covariances; so its standard error is at most the mean of
the standard errors, and with one post period average and effect coincide. -/
theorem C148_average (L : TwfeFit.Lib ι K) (hL : Works L) (robust strict : Bool) (alpha : K) (D : Data ι C K) (R : Result K)
    (h : fit L robust strict alpha D = .ok R) {pre post : List ℤ} {r : ℤ} (hc : classify (values D.t) D.post D.ref = .ok (pre, post, r))
    (hn : post.Nodup) (hX : ((matrix D (cols D post r))ᵀ * matrix D (cols D post r)).det ≠ 0) :
    ∃ (x s : ℤ → K) (c : ℤ → ℤ → K) (a z : K), R.effects.map Effect.period = post ∧
      (∀ e ∈ R.effects, e.effect = .fin (x e.period) ∧ e.se = .fin (s e.period)) ∧
      (∃ b V, IsOls (matrix D (cols D post r)) (outcome D) b ∧ Covariance L robust D (cols D post r) (resid (matrix D (cols D post r)) (outcome D) b) V ∧
        ∀ p ∈ post, ∀ q ∈ post, c p q = entryAt (cols D post r) V (.inter p) (.inter q)) ∧
      R.att = .fin a ∧ R.se = .fin z ∧ (post.length : K) * a = ∑ p ∈ post.toFinset, x p ∧
      ((post.length : K) * z) ^ 2 = ∑ p ∈ post.toFinset, ∑ q ∈ post.toFinset, c p q ∧ (∀ p ∈ post, s p ^ 2 = c p p) ∧
      0 ≤ z ∧ (post.length : K) * z ≤ ∑ p ∈ post.toFinset, s p ∧ (∀ p, post = [p] → a = x p ∧ z = s p) := by
  obtain ⟨b, V, df', w, hb, hV, hdf', hlt, hpost, hnn, heff, hatt, hw0, hw, hse, hpos, hzero, -⟩ := report_ok hL h hc hn hX
  set c : ℤ → ℤ → K := fun p q => entryAt (cols D post r) V (.inter p) (.inter q) with hcdef
  set s : ℤ → K := fun p => L.sqrt (c p p) with hs
  have hs0 : ∀ p ∈ post, 0 ≤ s p ∧ s p ^ 2 = c p p := fun p hp => hL.sqrt _ (hnn p hp)
  obtain ⟨hz0, hz2⟩ := hL.sqrt w hw0
  have hne : post ≠ [] := (C76_classification _ _ _ _ _ _ hc).2.2.2.2.1
  have hlen : (0 : K) < (post.length : K) := by exact_mod_cast List.length_pos_iff.2 hne
  have hzz : ((post.length : K) * L.sqrt w) ^ 2 = ∑ p ∈ post.toFinset, ∑ q ∈ post.toFinset, c p q := by
    rw [mul_pow, hz2, hw, mul_div_cancel₀]
    exact pow_ne_zero _ hlen.ne'
  have hcs : ∀ p ∈ post, ∀ q ∈ post, c p q + c q p ≤ 2 * (s p * s q) := by
    intro p hp q hq
    obtain ⟨h1, h2⟩ := hs0 p hp
    obtain ⟨h3, h4⟩ := hs0 q hq
    by_cases hpq : p = q
    · subst hpq; rw [← h2]; nlinarith
    have key : ∀ α β : K, 0 ≤ α ^ 2 * c p p + α * β * (c p q + c q p) + β ^ 2 * c q q := by
      intro α β
      have := entry_psd hn hV hX hlt {p, q} (fun x hx => by
        rcases Finset.mem_insert.1 hx with rfl | hx
        · exact hp
        · rw [Finset.mem_singleton.1 hx]; exact hq) (fun x => if x = p then α else β)
      rw [Finset.sum_pair hpq, Finset.sum_pair hpq, Finset.sum_pair hpq] at this
      simp only [if_true, Ne.symm hpq, if_false] at this
      have e : α ^ 2 * c p p + α * β * (c p q + c q p) + β ^ 2 * c q q =
          α * c p p * α + α * c p q * β + (β * c q p * α + β * c q q * β) := by ring
      rw [e]; exact this
    rcases h1.lt_or_eq with hp0 | hp0
    · rcases h3.lt_or_eq with hq0 | hq0
      · have := key (s q) (-(s p))
        rw [← h2, ← h4] at this
        have hpos : 0 < s p * s q := mul_pos hp0 hq0
        by_contra hlt'
        push Not at hlt'
        nlinarith
      · have hcq : c q q = 0 := by rw [← h4, ← hq0]; ring
        rw [← hq0]
        by_contra hlt'
        push Not at hlt'
        have hx : 0 < c p q + c q p := by linarith
        have := key 1 (-(c p p + 1) / (c p q + c q p))
        rw [hcq] at this
        have e : (1 : K) ^ 2 * c p p + 1 * (-(c p p + 1) / (c p q + c q p)) * (c p q + c q p) + (-(c p p + 1) / (c p q + c q p)) ^ 2 * 0 = -1 := by
          field_simp; ring
        rw [e] at this
        linarith
    · have hcp : c p p = 0 := by rw [← h2, ← hp0]; ring
      rw [← hp0]
      by_contra hlt'
      push Not at hlt'
      have hx : 0 < c p q + c q p := by linarith
      have := key (-(c q q + 1) / (c p q + c q p)) 1
      rw [hcp] at this
      have e : (-(c q q + 1) / (c p q + c q p)) ^ 2 * 0 + (-(c q q + 1) / (c p q + c q p)) * 1 * (c p q + c q p) + (1 : K) ^ 2 * c q q = -1 := by
        field_simp; ring
      rw [e] at this
      linarith
  have htri : (post.length : K) * L.sqrt w ≤ ∑ p ∈ post.toFinset, s p := by
    have hS : 0 ≤ ∑ p ∈ post.toFinset, s p := Finset.sum_nonneg fun p hp => (hs0 p (List.mem_toFinset.1 hp)).1
    refine le_of_sq_le_sq ?_ hS
    rw [hzz]
    have h1 : ∑ p ∈ post.toFinset, ∑ q ∈ post.toFinset, (c p q + c q p) ≤ ∑ p ∈ post.toFinset, ∑ q ∈ post.toFinset, 2 * (s p * s q) :=
      Finset.sum_le_sum fun p hp => Finset.sum_le_sum fun q hq => hcs p (List.mem_toFinset.1 hp) q (List.mem_toFinset.1 hq)
    simp only [Finset.sum_add_distrib] at h1
    rw [Finset.sum_comm (f := fun p q => c q p)] at h1
    have h2 : ∑ p ∈ post.toFinset, ∑ q ∈ post.toFinset, 2 * (s p * s q) = 2 * (∑ p ∈ post.toFinset, s p) ^ 2 := by
      rw [sq, Finset.sum_mul_sum, Finset.mul_sum]
      exact Finset.sum_congr rfl fun p _ => by rw [Finset.mul_sum]
    rw [h2] at h1
    linarith
  refine ⟨fun p => coefAt (cols D post r) b (.inter p), s, c, _, _, ?_, ?_, ⟨b, V, hb, hV, fun p _ q _ => rfl⟩, hatt, hse, ?_, hzz,
    fun p hp => (hs0 p hp).2, hz0, htri, ?_⟩
  · rw [heff, List.map_map]
    exact (List.map_congr_left fun a _ => rfl).trans (List.map_id _)
  · intro e he
    rw [heff] at he
    obtain ⟨p, hp, rfl⟩ := List.mem_map.1 he
    exact ⟨rfl, rfl⟩
  · rw [List.sum_toFinset _ hn, mul_div_cancel₀ _ hlen.ne']
  · intro p hp
    subst hp
    constructor
    · simp
    · simp only [hs, hcdef]
      rw [hw]
      simp

/-! ### Reference period -/

/-- Same entries at the chosen positions, same residuals and degrees of freedom; or the same error. -/
def Agree {k k' : ℕ} (J : ℕ → Prop) : Except LinReg.Err (LinReg.Fit ι k K) → Except LinReg.Err (LinReg.Fit ι k' K) → Prop
  | .ok f, .ok f' => (∀ j, J j → at1 f j = at1 f' j) ∧ (∀ i j, J i → J j → at2 f i j = at2 f' i j) ∧ f.df = f'.df ∧ f.resid = f'.resid
  | .error e, .error e' => e = e'
  | _, _ => False

theorem change_gram {k k' : ℕ} (hk : k' = k) {X : Matrix ι (Fin k) K} {X' : Matrix ι (Fin k') K} {B : Matrix (Fin k') (Fin k) K} (hXB : X = X' * B)
    (hX : (Xᵀ * X).det ≠ 0) : (X'ᵀ * X').det ≠ 0 := by
  subst hk
  intro h0
  apply hX
  rw [hXB, transpose_mul, show Bᵀ * X'ᵀ * (X' * B) = Bᵀ * (X'ᵀ * X') * B by simp only [Matrix.mul_assoc], det_mul, det_mul, h0]
  simp

theorem change_fit {k k' : ℕ} (hk : k' = k) {X : Matrix ι (Fin k) K} {X' : Matrix ι (Fin k') K} {B : Matrix (Fin k') (Fin k) K} (hXB : X = X' * B)
    (hX : (Xᵀ * X).det ≠ 0) (E : LinReg.Solvers ι K) (hE : LinReg.Solves E) (o : LinReg.Opts ι C) (y : ι → K) (a : ℤ) (J : ℕ → Prop)
    (hJ : ∀ j, J j → ∃ h : j < k', ∀ m : Fin k, B ⟨j, h⟩ m = if m.1 = j then 1 else 0) :
    Agree J (LinReg.fit E o [] X y a) (LinReg.fit E o [] X' y a) := by
  have hX' := change_gram hk hXB hX
  subst hk
  have hB : B.det ≠ 0 := by
    intro h0
    apply hX
    rw [hXB, transpose_mul, show Bᵀ * X'ᵀ * (X' * B) = Bᵀ * (X'ᵀ * X') * B by simp only [Matrix.mul_assoc], det_mul, det_mul, h0, mul_zero]
  have key := LinReg.C124_reparametrize E hE o X' hX' B hB y a
  rw [← hXB] at key
  revert key
  cases LinReg.fit E o [] X' y a with
  | error e =>
    cases LinReg.fit E o [] X y a with
    | error e' => intro key; exact key.symm
    | ok f => intro key; exact key
  | ok f' =>
    cases LinReg.fit E o [] X y a with
    | error e' => intro key; exact key
    | ok f =>
      intro key
      have key : LinReg.Changed B f' f := key
      obtain ⟨b', b, hb', hb, hbb⟩ := key.coef
      have hrow : ∀ j, J j → ∃ h : j < k', (∀ v : Fin k' → K, (B *ᵥ v) ⟨j, h⟩ = v ⟨j, h⟩) ∧ ∀ m : Fin k', B ⟨j, h⟩ m = if m = ⟨j, h⟩ then 1 else 0 := by
        intro j hj
        obtain ⟨h, hm⟩ := hJ j hj
        have hm' : ∀ m : Fin k', B ⟨j, h⟩ m = if m = ⟨j, h⟩ then 1 else 0 := by
          intro m; rw [hm]; simp [Fin.ext_iff]
        refine ⟨h, fun v => ?_, hm'⟩
        simp [mulVec, dotProduct, hm']
      refine ⟨?_, ?_, key.df, key.resid⟩
      · intro j hj
        obtain ⟨h, h1, -⟩ := hrow j hj
        unfold at1
        rw [dif_pos h, dif_pos h, hb, hb', hbb, h1]
      · intro i j hi hj
        obtain ⟨h, -, h1⟩ := hrow i hi
        obtain ⟨h', -, h2⟩ := hrow j hj
        unfold at2
        rw [dif_pos ⟨h, h'⟩, dif_pos ⟨h, h'⟩]
        rcases key.vcov with ⟨e1, e2⟩ | ⟨V', V, e1, e2, e3⟩
        · rw [e1, e2]
        · rw [e1, e2, e3]
          congr 1
          simp only [mul_apply, transpose_apply, h1, h2]
          simp

theorem sum_map_single {α : Type*} [DecidableEq α] {l : List α} (hl : l.Nodup) {c : α} (hc : c ∈ l) (f : α → K) :
    (l.map (fun x => f x * if x = c then 1 else 0)).sum = f c := by
  rw [← List.sum_toFinset _ hl]
  simp [hc]

/-- Expression of the columns for one reference period by those for another. -/
def express (r' : ℤ) (c c' : Col) : K :=
  if c = .period r' then (match c' with
    | .const => 1
    | .period _ => -1
    | _ => 0)
  else if c' = c then 1 else 0

theorem mem_cols {D : Data ι C K} {post : List ℤ} {r : ℤ} {c : Col} : c ∈ cols D post r ↔
    c = .const ∨ c = .treat ∨ (∃ p ∈ periods D, p ≠ r ∧ c = .period p) ∨ (∃ p ∈ post, c = .inter p) ∨ ∃ j < (extras D).length, c = .extra j := by
  simp only [cols, columns, List.mem_append, List.mem_cons, List.mem_map, List.mem_filter, List.mem_range, List.not_mem_nil, or_false,
    decide_eq_true_eq]
  constructor
  · rintro (((h | ⟨p, ⟨h1, h2⟩, rfl⟩) | ⟨p, hp, rfl⟩) | ⟨j, hj, rfl⟩)
    · tauto
    · exact Or.inr (Or.inr (Or.inl ⟨p, h1, h2, rfl⟩))
    · exact Or.inr (Or.inr (Or.inr (Or.inl ⟨p, hp, rfl⟩)))
    · exact Or.inr (Or.inr (Or.inr (Or.inr ⟨j, hj, rfl⟩)))
  · rintro (h | h | ⟨p, h1, h2, rfl⟩ | ⟨p, hp, rfl⟩ | ⟨j, hj, rfl⟩)
    · tauto
    · tauto
    · exact Or.inl (Or.inl (Or.inr ⟨p, ⟨h1, h2⟩, rfl⟩))
    · exact Or.inl (Or.inr ⟨p, hp, rfl⟩)
    · exact Or.inr ⟨j, hj, rfl⟩

theorem express_sum {D : Data ι C K} {post : List ℤ} (hn : post.Nodup) {r r' : ℤ} (i : ι) {c : Col} (hc : c ∈ cols D post r) :
    ((cols D post r').map (fun c' => colVal (D.d i) (D.t i) (extraVal (extras D) i) c' * express r' c c')).sum =
      colVal (D.d i) (D.t i) (extraVal (extras D) i) c := by
  by_cases h : c = .period r'
  · subst h
    have hti : D.t i ∈ periods D := mem_periods.2 ⟨i, rfl⟩
    have hsum : (((periods D).filter (fun p => decide (p ≠ r'))).map (fun q => (if D.t i = q then (1 : K) else 0) * -1)).sum =
        if D.t i = r' then 0 else -1 := by
      rw [← List.sum_toFinset _ ((periods_nodup D).filter _)]
      by_cases hr : D.t i = r'
      · rw [if_pos hr]
        refine Finset.sum_eq_zero fun q hq => ?_
        have : q ≠ r' := by simpa using (List.mem_filter.1 (List.mem_toFinset.1 hq)).2
        rw [if_neg (fun h => this (by rw [← h, hr])), zero_mul]
      · rw [if_neg hr, Finset.sum_eq_single (D.t i)]
        · simp
        · intro q _ hq; rw [if_neg (Ne.symm hq), zero_mul]
        · intro hno; exact absurd (List.mem_toFinset.2 (List.mem_filter.2 ⟨hti, by simpa using hr⟩)) hno
    have h0 : ∀ l : List ℤ, (l.map ((fun c' => colVal (D.d i) (D.t i) (extraVal (extras D) i) c' * express r' (.period r') c') ∘ Col.inter)).sum = (0 : K) := by
      intro l
      refine List.sum_eq_zero fun x hx => ?_
      obtain ⟨q, -, rfl⟩ := List.mem_map.1 hx
      simp [express]
    have h1 : ∀ l : List ℕ, (l.map ((fun c' => colVal (D.d i) (D.t i) (extraVal (extras D) i) c' * express r' (.period r') c') ∘ Col.extra)).sum = (0 : K) := by
      intro l
      refine List.sum_eq_zero fun x hx => ?_
      obtain ⟨q, -, rfl⟩ := List.mem_map.1 hx
      simp [express]
    have h2 : ∀ l : List ℤ, l.map ((fun c' => colVal (D.d i) (D.t i) (extraVal (extras D) i) c' * express r' (.period r') c') ∘ Col.period) =
        l.map (fun q => (if D.t i = q then (1 : K) else 0) * -1) := by
      intro l
      refine List.map_congr_left fun q _ => ?_
      simp [express, colVal]
    simp only [cols, columns, List.map_append, List.sum_append, List.map_map, h0, h1, h2, hsum]
    simp only [List.map_cons, List.map_nil, List.sum_cons, List.sum_nil, express, colVal, if_true]
    by_cases hr : D.t i = r'
    · simp [hr]
    · simp [hr]
  · have hc' : c ∈ cols D post r' := by
      rw [mem_cols] at hc ⊢
      rcases hc with h1 | h1 | ⟨p, h1, h2, h3⟩ | h1 | h1
      · exact Or.inl h1
      · exact Or.inr (Or.inl h1)
      · exact Or.inr (Or.inr (Or.inl ⟨p, h1, fun h4 => h (by rw [h3, h4]), h3⟩))
      · exact Or.inr (Or.inr (Or.inr (Or.inl h1)))
      · exact Or.inr (Or.inr (Or.inr (Or.inr h1)))
    simp only [express, h, if_false]
    exact sum_map_single (columns_nodup (periods_nodup D) hn r' _) hc' _

theorem filter_length {D : Data ι C K} {r : ℤ} (hr : r ∈ periods D) :
    ((periods D).filter (fun p => decide (p ≠ r))).length + 1 = (periods D).length := by
  have e : (periods D).filter (fun p => decide (p ≠ r)) = (periods D).erase r := by
    rw [(periods_nodup D).erase_eq_filter]
    refine List.filter_congr fun p _ => ?_
    by_cases hp : p = r <;> simp [hp]
  rw [e, List.length_erase_of_mem hr]
  have := List.length_pos_of_mem hr
  omega

theorem sum_fin_map {cs : List Col} (g : Col → K) : ∑ j : Fin cs.length, g cs[j] = (cs.map g).sum := by
  rw [← List.sum_ofFn]
  congr 1
  apply List.ext_getElem
  · simp
  · intro i h1 h2; simp

theorem regress_reference {L : TwfeFit.Lib ι K} (hL : Works L) (robust strict : Bool) {D : Data ι C K} {post : List ℤ} (hn : post.Nodup) {r r' : ℤ}
    (hr : r ∈ periods D) (hr' : r' ∈ periods D) (hX : ((matrix D (cols D post r))ᵀ * matrix D (cols D post r)).det ≠ 0) :
    Agree (fun j => ∃ p ∈ post, j = lastIndex (periods D) post r p) (regress L robust strict D (cols D post r)) (regress L robust strict D (cols D post r')) ∧
    (∀ p, lastIndex (periods D) post r p = lastIndex (periods D) post r' p) ∧
    ((matrix D (cols D post r'))ᵀ * matrix D (cols D post r')).det ≠ 0 := by
  have hl := filter_length hr
  have hl' := filter_length hr'
  have hidx : ∀ p, lastIndex (periods D) post r p = lastIndex (periods D) post r' p := by
    intro p; unfold lastIndex; omega
  have hk : (cols D post r').length = (cols D post r).length := by
    simp only [cols, columns, List.length_append, List.length_map, List.length_cons, List.length_nil, List.length_range]
    omega
  let B : Matrix (Fin (cols D post r').length) (Fin (cols D post r).length) K := fun m' m => express r' (cols D post r)[m] (cols D post r')[m']
  have hXB : matrix D (cols D post r) = matrix D (cols D post r') * B := by
    ext i m
    rw [mul_apply]
    have := express_sum (r := r) (r' := r') hn i (List.getElem_mem (l := cols D post r) m.2)
    rw [← sum_fin_map] at this
    exact this.symm
  have hJ : ∀ j, (∃ p ∈ post, j = lastIndex (periods D) post r p) →
      ∃ h : j < (cols D post r').length, ∀ m : Fin (cols D post r).length, B ⟨j, h⟩ m = if m.1 = j then 1 else 0 := by
    rintro j ⟨p, hp, rfl⟩
    obtain ⟨h1, h2⟩ := idx_inter (D := D) (r := r') hn hp
    obtain ⟨h3, h4⟩ := idx_inter (D := D) (r := r) hn hp
    rw [← hidx] at h1 h2
    refine ⟨h2, fun m => ?_⟩
    have e1 : (cols D post r')[lastIndex (periods D) post r p] = Col.inter p := by
      have := List.getElem_idxOf (xs := cols D post r') (x := Col.inter p) (by rw [h1]; exact h2)
      simpa only [h1] using this
    have e2 : (cols D post r)[m] = Col.inter p ↔ m.1 = lastIndex (periods D) post r p := by
      constructor
      · intro h
        have := List.Nodup.idxOf_getElem (columns_nodup (periods_nodup D) hn r (extras D).length) m.1 m.2
        rw [← this, ← h3]
        exact congrArg (fun c => List.idxOf c (cols D post r)) h
      · intro h
        have := List.getElem_idxOf (xs := cols D post r) (x := Col.inter p) (by rw [h3]; exact h4)
        simp only [h3] at this
        rw [← this]
        simp only [Fin.getElem_fin, h]
    show express r' (cols D post r)[m] (cols D post r')[lastIndex (periods D) post r p] = _
    rw [e1]
    unfold express
    by_cases h : (cols D post r)[m] = .period r'
    · rw [if_pos h]
      have : ¬ (m.1 = lastIndex (periods D) post r p) := by
        rw [← e2, h]; simp
      rw [if_neg this]
    · rw [if_neg h]
      by_cases h5 : m.1 = lastIndex (periods D) post r p
      · rw [if_pos h5, if_pos (e2.2 h5).symm]
      · rw [if_neg h5, if_neg (fun h6 => h5 (e2.1 h6.symm))]
  have hX' := change_gram hk hXB hX
  refine ⟨?_, hidx, hX'⟩
  have k1 := change_fit hk hXB hX L.solvers hL.solves (⟨true, D.cluster, none, strict⟩ : LinReg.Opts ι C) (outcome D) (adjustment D.absorb) _ hJ
  have k2 := change_fit hk hXB hX L.solvers hL.solves (⟨false, none, none, strict⟩ : LinReg.Opts ι C) (outcome D) (adjustment D.absorb) _ hJ
  unfold regress
  rw [hL.keeps _ hX, hL.keeps _ hX']
  revert k1 k2
  cases LinReg.fit L.solvers (⟨true, D.cluster, none, strict⟩ : LinReg.Opts ι C) [] (matrix D (cols D post r)) (outcome D) (adjustment D.absorb) <;>
    cases LinReg.fit L.solvers (⟨true, D.cluster, none, strict⟩ : LinReg.Opts ι C) [] (matrix D (cols D post r')) (outcome D) (adjustment D.absorb)
  · intro k1 _; exact k1
  · intro k1 _; exact False.elim k1
  · intro k1 _; exact False.elim k1
  · intro k1 k2
    by_cases hrob : (robust || D.cluster.isSome) = true
    · simp only [hrob, if_true]; exact k1
    · simp only [hrob, Bool.false_eq_true, if_false]; exact k2

theorem average_congr (L : DidFit.Lib ι K) (alpha : K) (df : ℤ) {c c' : ℕ → Option K} {v v' : ℕ → ℕ → Option K} {js : List ℕ}
    (h1 : ∀ j ∈ js, c j = c' j) (h2 : ∀ i ∈ js, ∀ j ∈ js, v i j = v' i j) : average L alpha df c v js = average L alpha df c' v' js := by
  have e1 : js.map c = js.map c' := List.map_congr_left h1
  have e2 : js.flatMap (fun i => js.map (fun j => v i j)) = js.flatMap (fun i => js.map (fun j => v' i j)) :=
    List.flatMap_congr fun i hi => List.map_congr_left fun j hj => h2 i hi j hj
  unfold average
  rw [e1, e2]

/-- C148. Which period serves as reference changes nothing in the report: neither effects, standard errors, p-values and intervals, by period or on average,
nor the R-squared; covariates, fixed and absorbed effects, clusters allowed. -/
theorem C148_reference (L : TwfeFit.Lib ι K) (hL : Works L) (robust strict : Bool) (alpha : K) (D : Data ι C K) (ref' : Option ℤ)
    {pre post pre' post' : List ℤ} {r r' : ℤ} (hc : classify (values D.t) D.post D.ref = .ok (pre, post, r))
    (hc' : classify (values D.t) D.post ref' = .ok (pre', post', r')) (hn : post.Nodup)
    (hX : ((matrix D (cols D post r))ᵀ * matrix D (cols D post r)).det ≠ 0) :
    fit L robust strict alpha { D with ref := ref' } = fit L robust strict alpha D := by
  have hsplit : ∀ {po : Option (List ℤ)} {rf : Option ℤ} {a b : List ℤ} {x : ℤ}, classify (values D.t) po rf = .ok (a, b, x) →
      (a, b) = splitPeriods (allPeriods (values D.t)) po := by
    intro po rf a b x h
    unfold classify at h
    split_ifs at h
    cases hq : reference (allPeriods (values D.t)) (splitPeriods (allPeriods (values D.t)) po).1 rf with
    | error e => rw [hq] at h; cases h
    | ok q => rw [hq] at h; cases h; rfl
  have hpp := (hsplit hc).trans (hsplit hc').symm
  cases hpp
  have hr : r ∈ periods D := mem_periods.2 (mem_values.1 (C76_classification _ _ _ _ _ _ hc).2.2.2.2.2.1)
  have hr' : r' ∈ periods D := mem_periods.2 (mem_values.1 (C76_classification _ _ _ _ _ _ hc').2.2.2.2.2.1)
  obtain ⟨k1, k2, -⟩ := regress_reference hL robust strict hn hr hr' hX
  unfold fit
  simp only [hc, hc']
  have e : regress L robust strict { D with ref := ref' } (cols { D with ref := ref' } post r') = regress L robust strict D (cols D post r') := rfl
  rw [e]
  revert k1
  cases regress L robust strict D (cols D post r) with
  | error x =>
    cases regress L robust strict D (cols D post r') with
    | error x' => intro k1; have : x = x' := k1; rw [this]
    | ok f' => intro k1; exact k1.elim
  | ok f =>
    cases regress L robust strict D (cols D post r') with
    | error x' => intro k1; exact k1.elim
    | ok f' =>
      rintro ⟨h1, h2, h3, h4⟩
      show Except.ok (report L.toLib alpha D pre post r' (at1 f') (at2 f') f'.df f'.resid) = Except.ok (report L.toLib alpha D pre post r (at1 f) (at2 f) f.df f.resid)
      congr 1
      have g1 : ∀ p ∈ post, at1 f' (lastIndex (periods D) post r' p) = at1 f (lastIndex (periods D) post r p) := by
        intro p hp; rw [← k2 p]; exact (h1 _ ⟨p, hp, rfl⟩).symm
      have g2 : ∀ p ∈ post, ∀ q ∈ post, at2 f' (lastIndex (periods D) post r' p) (lastIndex (periods D) post r' q) =
          at2 f (lastIndex (periods D) post r p) (lastIndex (periods D) post r q) := by
        intro p hp q hq; rw [← k2 p, ← k2 q]; exact (h2 _ _ ⟨p, hp, rfl⟩ ⟨q, hq, rfl⟩).symm
      have hj : post.map (lastIndex (periods D) post r') = post.map (lastIndex (periods D) post r) := List.map_congr_left fun p _ => (k2 p).symm
      have havg : average L.toLib alpha f.df (at1 f') (at2 f') (post.map (lastIndex (periods D) post r')) =
          average L.toLib alpha f.df (at1 f) (at2 f) (post.map (lastIndex (periods D) post r)) := by
        rw [hj]
        refine average_congr _ _ _ ?_ ?_
        · intro j hj
          obtain ⟨p, hp, rfl⟩ := List.mem_map.1 hj
          rw [← g1 p hp, k2 p]
        · intro i hi j hj
          obtain ⟨p, hp, rfl⟩ := List.mem_map.1 hi
          obtain ⟨q, hq, rfl⟩ := List.mem_map.1 hj
          rw [← g2 p hp q hq, k2 p, k2 q]
      have heff : post.reverse.dedup.reverse.map (fun p => effect L.toLib alpha f.df (at1 f') (at2 f') (lastIndex (periods D) post r' p) p) =
          post.reverse.dedup.reverse.map (fun p => effect L.toLib alpha f.df (at1 f) (at2 f) (lastIndex (periods D) post r p) p) := by
        rw [dedup_nodup hn]
        refine List.map_congr_left fun p hp => ?_
        unfold effect
        rw [g1 p hp, g2 p hp p hp]
      unfold report
      rw [← h3, ← h4]
      simp only [havg, heff]

/-! ### Two periods -/

theorem fit_opts (E : LinReg.Solvers ι K) {robust strict : Bool} {g : Option (ι → Option C)} (h : (robust || g.isSome) = true) {k : ℕ}
    (X : Matrix ι (Fin k) K) (y : ι → K) (a : ℤ) :
    LinReg.fit E (⟨true, g, none, strict⟩ : LinReg.Opts ι C) [] X y a = LinReg.fit E (⟨robust, g, none, strict⟩ : LinReg.Opts ι C) [] X y a := by
  have hv : ∀ u, LinReg.vcov E.pinv (⟨true, g, none, strict⟩ : LinReg.Opts ι C) X u = LinReg.vcov E.pinv (⟨robust, g, none, strict⟩ : LinReg.Opts ι C) X u := by
    intro u
    unfold LinReg.vcov
    have e : (⟨true, g, none, strict⟩ : LinReg.Opts ι C).ids = (⟨robust, g, none, strict⟩ : LinReg.Opts ι C).ids := rfl
    have e2 : (⟨robust, g, none, strict⟩ : LinReg.Opts ι C).ids = g := rfl
    simp only [e, e2, h, Bool.true_or, if_true]
  simp only [LinReg.fit, hv]

theorem cols_two {D : Data ι C K} (hD : Plain D) {a b : ℤ} (hc : classify (values D.t) D.post D.ref = .ok ([a], [b], a)) :
    cols D [b] a = [.const, .treat, .period b, .inter b] ∧ lastIndex (periods D) [b] a b = 3 := by
  obtain ⟨h1, h2, h3, -⟩ := C76_classification _ _ _ _ _ _ hc
  have hb : b ∈ values D.t := h3 b (by simp)
  have ha : a ∈ values D.t := h2 a (by simp)
  have hab : a ≠ b := by
    have := (h1 a ha).1 (by simp)
    simpa using this
  have hf : (periods D).filter (fun p => decide (p ≠ a)) = [b] := by
    refine List.perm_singleton.1 ((List.perm_ext_iff_of_nodup ((periods_nodup D).filter _) (List.nodup_singleton b)).2 fun x => ?_)
    rw [List.mem_filter, List.mem_singleton, decide_eq_true_eq, periods, mem_allPeriods]
    constructor
    · rintro ⟨hx, hxa⟩
      by_contra hxb
      exact hxa (by simpa using (h1 x hx).2 (by simpa using hxb))
    · rintro rfl
      exact ⟨hb, hab.symm⟩
  constructor
  · unfold cols columns
    rw [hf, extras_plain hD]
    rfl
  · unfold lastIndex
    rw [hf]
    simp

/-- What the two-period report shares with the basic estimator: estimate, standard error, counts, R-squared; with a positive standard error and
positive degrees of freedom also the test and the interval, both for the average and for the single period. -/
def SameReport (b df : ℤ) (R : Result K) (S : DidFit.Result K) : Prop :=
  R.att = S.att ∧ R.se = S.se ∧ R.nObs = S.nObs ∧ R.nTreated = S.nTreated ∧ R.nControl = S.nControl ∧ R.r2 = S.r2 ∧
  R.effects.map (fun e => (e.period, e.effect, e.se)) = [(b, S.att, S.se)] ∧
  (0 < df → ∀ s, S.se = .fin s → 0 < s → R.t = S.t ∧ R.p = S.p ∧ R.ci = S.ci ∧ R.effects = [⟨b, S.att, S.se, S.t, S.p, S.ci⟩])

/-- C148. With two periods and both groups in each, the multi-period estimator and the basic estimator with the later period as time indicator report the
same, or fail with the same error; absorbed effects allowed. A row more than coefficients is required unless standard errors are robust or clustered. -/
theorem C148_two_periods (L : TwfeFit.Lib ι K) (hL : Works L) (robust strict : Bool) (alpha : K) (D : Data ι C K) (hD : Plain D) (a b : ℤ) (hc : classify (values D.t) D.post D.ref = .ok ([a], [b], a)) (ho : DidFit.Occupied D.d (fun i => decide (D.t i = b)))
    (hn : robust = true ∨ D.cluster.isSome = true ∨ 4 < Fintype.card ι) :
    match fit L robust strict alpha D, DidFit.fitCore L.toLib ⟨robust, D.cluster, strict⟩ alpha [] D.d (fun i => decide (D.t i = b)) (absorbed D.absorb D.y)
        (adjustment D.absorb) with
    | .ok R, .ok S => SameReport b ((Fintype.card ι : ℤ) - 4 - adjustment D.absorb) R S
    | .error e, .error e' => e = .reg e'
    | _, _ => False := by
  obtain ⟨hcs, hidx⟩ := cols_two hD hc
  have hlen : (cols D [b] a).length = 4 := by rw [hcs]; rfl
  set X : Matrix ι (Fin 4) K := Did2x2.design D.d (fun i => decide (D.t i = b)) with hXdef
  have hX : (Xᵀ * X).det ≠ 0 := DidFit.design_det ho X hXdef
  let B : Matrix (Fin (cols D [b] a).length) (Fin 4) K := fun m' m => if m'.1 = m.1 then 1 else 0
  have hXB : X = matrix D (cols D [b] a) * B := by
    ext i m
    have hm : m.1 < (cols D [b] a).length := by rw [hlen]; exact m.2
    rw [mul_apply, Finset.sum_eq_single (⟨m.1, hm⟩ : Fin (cols D [b] a).length)]
    · show X i m = colVal (D.d i) (D.t i) (extraVal (extras D) i) (cols D [b] a)[m.1] * (if m.1 = m.1 then 1 else 0)
      have e : (cols D [b] a)[m.1] = [Col.const, .treat, .period b, .inter b][m.1] := by simp only [hcs]
      rw [e, if_pos rfl, mul_one, hXdef]
      fin_cases m
      · rfl
      · simp [Did2x2.design, Did2x2.ind, colVal]
      · simp [Did2x2.design, Did2x2.ind, colVal]
      · simp [Did2x2.design, Did2x2.ind, colVal]
    · intro m' _ hne
      have : m'.1 ≠ m.1 := fun h => hne (Fin.ext h)
      simp [B, this]
    · intro h; exact absurd (Finset.mem_univ _) h
  have hX' := change_gram hlen hXB hX
  have hkey : ∀ o : LinReg.Opts ι C, Agree (fun j => j = 3) (LinReg.fit L.solvers o [] X (outcome D) (adjustment D.absorb)) (LinReg.fit L.solvers o [] (matrix D (cols D [b] a)) (outcome D) (adjustment D.absorb)) := by
    intro o
    refine change_fit hlen hXB hX L.solvers hL.solves o (outcome D) (adjustment D.absorb) _ ?_
    rintro j rfl
    refine ⟨by rw [hlen]; norm_num, fun m => ?_⟩
    show (if 3 = m.1 then (1 : K) else 0) = _
    simp only [eq_comm]
  have hreg : Agree (fun j => j = 3) (LinReg.fit L.solvers (⟨robust, D.cluster, none, strict⟩ : LinReg.Opts ι C) [] X (outcome D) (adjustment D.absorb))
      (regress L robust strict D (cols D [b] a)) := by
    unfold regress
    rw [hL.keeps _ hX']
    by_cases hr : (robust || D.cluster.isSome) = true
    · simp only [hr, if_true]
      rw [fit_opts _ hr]
      have := hkey ⟨robust, D.cluster, none, strict⟩
      revert this
      cases LinReg.fit L.solvers (⟨robust, D.cluster, none, strict⟩ : LinReg.Opts ι C) [] (matrix D (cols D [b] a)) (outcome D) (adjustment D.absorb) <;> exact id
    · have hcl : D.cluster = none := by
        cases hg : D.cluster with
        | none => rfl
        | some g => simp [hg] at hr
      have hrf : robust = false := by
        cases robust
        · rfl
        · simp at hr
      have h4 : 4 < Fintype.card ι := by
        rcases hn with h | h | h
        · rw [hrf] at h; cases h
        · rw [hcl] at h; cases h
        · exact h
      have hok : ∃ f, LinReg.fit L.solvers (⟨true, D.cluster, none, strict⟩ : LinReg.Opts ι C) [] (matrix D (cols D [b] a)) (outcome D) (adjustment D.absorb) = .ok f := by
        have h5 : ¬ Fintype.card ι < (cols D [b] a).length := by rw [hlen]; omega
        have h6 : Fintype.card ι ≠ (cols D [b] a).length := by rw [hlen]; omega
        simp only [LinReg.fit, if_neg h5, LinReg.vcov, LinReg.Opts.ids, hcl, Bool.true_or, if_true, vcovNumpy, Fintype.card_fin, h6, if_false, hX']
        exact ⟨_, rfl⟩
      obtain ⟨f, hf⟩ := hok
      rw [hf]
      simp only [hr, Bool.false_eq_true, if_false, hrf, hcl]
      exact hkey ⟨false, none, none, strict⟩
  unfold fit DidFit.fitCore
  simp only [hc]
  rw [← hXdef, show absorbed D.absorb D.y = outcome D from rfl]
  cases hm : regress L robust strict D (cols D [b] a) with
  | error e =>
    rw [hm] at hreg
    cases hd : LinReg.fit L.solvers (⟨robust, D.cluster, none, strict⟩ : LinReg.Opts ι C) [] X (outcome D) (adjustment D.absorb) with
    | error e' => rw [hd] at hreg; have : e' = e := hreg; rw [this]
    | ok g => rw [hd] at hreg; exact hreg.elim
  | ok f =>
    rw [hm] at hreg
    cases hd : LinReg.fit L.solvers (⟨robust, D.cluster, none, strict⟩ : LinReg.Opts ι C) [] X (outcome D) (adjustment D.absorb) with
    | error e' => rw [hd] at hreg; exact hreg.elim
    | ok g =>
      rw [hd] at hreg
      obtain ⟨g1, g2, g3, g4⟩ := hreg
      obtain ⟨β, V, -, hV, hcf, hvc, -, hdf, hlt⟩ := regress_ok hL hX' hm
      have h3 : 3 < (cols D [b] a).length := by rw [hlen]; norm_num
      have hnn : 0 ≤ V ⟨3, h3⟩ ⟨3, h3⟩ := by
        have := hV.psd hX' hlt (fun m => if m = ⟨3, h3⟩ then 1 else 0)
        rwa [DidFit.quad_unit] at this
      have a1 : at1 f 3 = some (β ⟨3, h3⟩) := by unfold at1; rw [dif_pos h3, hcf]
      have a2 : at2 f 3 3 = some (V ⟨3, h3⟩ ⟨3, h3⟩) := by unfold at2; rw [dif_pos ⟨h3, h3⟩, hvc]
      have b1 : g.coef 3 = some (β ⟨3, h3⟩) := by
        have : at1 g 3 = g.coef 3 := rfl
        rw [← this, g1 3 rfl, a1]
      have b2 : g.vcov (3, 3) = some (V ⟨3, h3⟩ ⟨3, h3⟩) := by
        have : at2 g 3 3 = g.vcov (3, 3) := rfl
        rw [← this, g2 3 3 rfl rfl, a2]
      generalize β ⟨3, h3⟩ = x at a1 b1
      generalize V ⟨3, h3⟩ ⟨3, h3⟩ = v at a2 b2 hnn
      have hpick : 0 < f.df → Inference.pick L.tD L.nD (Inference.effectiveDf none (some f.df)) = L.tD f.df := by
        intro hpos
        simp only [Inference.effectiveDf, not_le.2 hpos, if_false, Inference.pick, if_pos hpos]
      have havg : average L.toLib alpha f.df (at1 f) (at2 f) [3] =
          if 0 < L.sqrt v then (Ext.fin x, .fin (L.sqrt v), Ext.div (.fin x) (.fin (L.sqrt v)), pOf L.toLib f.df (Ext.div (.fin x) (.fin (L.sqrt v))),
            ciOf L.toLib f.df (.fin x) (.fin (L.sqrt v)) alpha)
          else (.fin x, .fin (L.sqrt v), .nan, .nan, (.nan, .nan)) := by
        simp only [average, List.map_cons, List.map_nil, List.flatMap_cons, List.flatMap_nil, List.append_nil, a1, a2, allSome, List.sum_cons, List.sum_nil,
          add_zero, List.length_cons, List.length_nil, zero_add, Nat.cast_one, div_one, one_pow, not_lt.2 hnn, if_false]
        simp [hnn, not_lt.2 hnn]
      have hd1 : [b].reverse.dedup.reverse = [b] := rfl
      have heff : effect L.toLib alpha f.df (at1 f) (at2 f) 3 b = effectOf L.toLib alpha f.df b x v := by
        unfold effect effectOf
        simp only [a1, a2, LinReg.toExt, root, not_lt.2 hnn, if_false]
      show SameReport b _ (report L.toLib alpha D [a] [b] a (at1 f) (at2 f) f.df f.resid) _
      have hs : (LinReg.infer L.sqrt L.tD L.nD g 3 none alpha none).se = .fin (L.sqrt v) := by
        rw [DidFit.infer_se, b2]; rfl
      refine ⟨?_, ?_, rfl, rfl, rfl, ?_, ?_, ?_⟩
      · simp only [report, List.map_cons, List.map_nil, hidx, havg, b1, LinReg.toExt]
        split_ifs <;> rfl
      · simp only [report, List.map_cons, List.map_nil, hidx, havg, hs]
        split_ifs <;> rfl
      · simp only [report, g4]
      · simp only [report, hd1, List.map_cons, List.map_nil, hidx, heff, effectOf, hs, b1, LinReg.toExt]
      · intro hdp s hse hsp
        have hpos : 0 < f.df := by rw [hdf, hlen]; exact_mod_cast hdp
        simp only [hs] at hse
        cases hse
        simp only [report, hd1, List.map_cons, List.map_nil, hidx, havg, heff, if_pos hsp, effectOf, LinReg.infer, Inference.getInference, b1, b2, LinReg.toExt,
          Option.map_some, g3, hpick hpos, Option.getD_none, pOf, ciOf, if_pos hpos, Inference.tStat_pos _ _ hsp]
        have e : Ext.div (.fin x) (.fin (L.sqrt v)) = .fin (x / L.sqrt v) := by simp [Ext.div, hsp.ne']
        simp only [e]
        exact ⟨trivial, trivial, trivial, trivial⟩

/-! ### Order of the rows -/

/-- The same data with the rows in another order. -/
def movedData (e : ι' ≃ ι) (D : Data ι C K) : Data ι' C K :=
  ⟨fun i => D.y (e i), fun i => D.d (e i), fun i => D.t (e i), D.cov.map (fun x i => x (e i)), D.fixed.map (fun x i => x (e i)),
    D.absorb.map (fun x i => x (e i)), D.cluster.map (fun f i => f (e i)), D.post, D.ref⟩

theorem values_moved (e : ι' ≃ ι) (g : ι → ℤ) : values (fun i => g (e i)) = values g := by
  unfold values; rw [RowOrder.image_moved]

theorem absorbed_moved (e : ι' ≃ ι) (gs : List (ι → ℤ)) (x : ι → K) :
    absorbed (gs.map (fun g i => g (e i))) (fun i => x (e i)) = fun i => absorbed gs x (e i) := by
  induction gs generalizing x with
  | nil => rfl
  | cons g gs ih =>
    have h1 : Within.demean (fun i => g (e i)) (fun i => x (e i)) = fun i => Within.demean g x (e i) := by
      funext i; unfold Within.demean; rw [RowOrder.groupMean_moved]
    have := ih (Within.demean g x)
    simp only [absorbed, List.map_cons, List.foldl_cons, h1] at this ⊢
    exact this

theorem adjustment_moved (e : ι' ≃ ι) (gs : List (ι → ℤ)) : adjustment (gs.map (fun g i => g (e i))) = adjustment gs := by
  unfold adjustment
  rw [List.map_map]
  congr 1
  refine List.map_congr_left fun g _ => ?_
  simp only [Function.comp, Within.nEffects, RowOrder.image_moved]

theorem extras_moved (e : ι' ≃ ι) (D : Data ι C K) : extras (movedData e D) = (extras D).map (fun x i => x (e i)) := by
  unfold extras
  simp only [movedData, List.map_append, List.map_map, List.map_flatMap, List.flatMap_map]
  congr 1
  · refine List.map_congr_left fun x _ => ?_
    exact absorbed_moved e D.absorb x
  · refine List.flatMap_congr fun g _ => ?_
    unfold dummies
    rw [values_moved, List.map_map]
    rfl

theorem extraVal_moved (e : ι' ≃ ι) (xs : List (ι → K)) (i : ι') (j : ℕ) : extraVal (xs.map (fun x i => x (e i))) i j = extraVal xs (e i) j := by
  unfold extraVal
  rw [List.getElem?_map]
  cases xs[j]? <;> rfl

theorem regress_moved {L : TwfeFit.Lib ι K} {L' : TwfeFit.Lib ι' K} (hL : RowOrder.Same L.toLib L'.toLib) (e : ι' ≃ ι) (robust strict : Bool)
    (D : Data ι C K) (cs : List Col) (hred : L'.redundant ((matrix D cs).submatrix e id) = L.redundant (matrix D cs))
    (hX : RowOrder.Independent (matrix D cs) (L.redundant (matrix D cs))) :
    regress L' robust strict (movedData e D) cs = (regress L robust strict D cs).map (RowOrder.moved e) := by
  have hm : matrix (movedData e D) cs = (matrix D cs).submatrix e id := by
    ext i j
    show colVal (D.d (e i)) (D.t (e i)) (extraVal (extras (movedData e D)) i) cs[j] = colVal (D.d (e i)) (D.t (e i)) (extraVal (extras D) (e i)) cs[j]
    congr 1
    funext k
    rw [extras_moved, extraVal_moved]
  have hy : outcome (movedData e D) = fun i => outcome D (e i) := absorbed_moved e D.absorb D.y
  have ha : adjustment (movedData e D).absorb = adjustment D.absorb := adjustment_moved e D.absorb
  have hs : (movedData e D).cluster.isSome = D.cluster.isSome := by simp [movedData]
  unfold regress
  rw [hm, hy, ha, hred, hs]
  have k1 := RowOrder.C145_regression L.solvers L'.solvers hL.solves hL.solves' e (⟨true, D.cluster, none, strict⟩ : LinReg.Opts ι C) _ _ hX (outcome D)
    (adjustment D.absorb)
  have k2 := RowOrder.C145_regression L.solvers L'.solvers hL.solves hL.solves' e (⟨false, none, none, strict⟩ : LinReg.Opts ι C) _ _ hX (outcome D)
    (adjustment D.absorb)
  have k1' : LinReg.fit L'.solvers (⟨true, (movedData e D).cluster, none, strict⟩ : LinReg.Opts ι' C) (L.redundant (matrix D cs))
    ((matrix D cs).submatrix e id) (fun i => outcome D (e i)) (adjustment D.absorb) = _ := k1
  have k2' : LinReg.fit L'.solvers (⟨false, none, none, strict⟩ : LinReg.Opts ι' C) (L.redundant (matrix D cs))
    ((matrix D cs).submatrix e id) (fun i => outcome D (e i)) (adjustment D.absorb) = _ := k2
  rw [k1', k2']
  cases LinReg.fit L.solvers (⟨true, D.cluster, none, strict⟩ : LinReg.Opts ι C) (L.redundant (matrix D cs)) (matrix D cs) (outcome D) (adjustment D.absorb) with
  | error x => rfl
  | ok f =>
    simp only [Except.map]
    split_ifs
    · rfl
    · rfl

/-- The same fitted numbers by position, residuals moved with the rows; or the same error. -/
def Moved {k k' : ℕ} (e : ι' ≃ ι) : Except LinReg.Err (LinReg.Fit ι' k' K) → Except LinReg.Err (LinReg.Fit ι k K) → Prop
  | .ok f', .ok f => at1 f' = at1 f ∧ at2 f' = at2 f ∧ f'.df = f.df ∧ f'.resid = fun i => f.resid (e i)
  | .error x, .error x' => x = x'
  | _, _ => False

/-- C148. The whole report, or the error, is the same for the rows in any order, if the column check gives the same answer: effects, tests, intervals, counts,
R-squared; covariates, fixed and absorbed effects, clusters and dropped columns allowed. -/
theorem C148_row_order (L : TwfeFit.Lib ι K) (L' : TwfeFit.Lib ι' K) (hL : RowOrder.Same L.toLib L'.toLib) (e : ι' ≃ ι) (robust strict : Bool) (alpha : K)
    (D : Data ι C K)
    (hred : ∀ pre post r, classify (values D.t) D.post D.ref = .ok (pre, post, r) →
      L'.redundant ((matrix D (cols D post r)).submatrix e id) = L.redundant (matrix D (cols D post r)) ∧
      RowOrder.Independent (matrix D (cols D post r)) (L.redundant (matrix D (cols D post r)))) :
    fit L' robust strict alpha (movedData e D) = fit L robust strict alpha D := by
  have hv : values (movedData e D).t = values D.t := values_moved e D.t
  have hp : periods (movedData e D) = periods D := by unfold periods; rw [hv]
  have hcols : ∀ post r, cols (movedData e D) post r = cols D post r := by
    intro post r; unfold cols; rw [hp, extras_moved, List.length_map]
  unfold fit
  rw [hv]
  show (match classify (values D.t) D.post D.ref with | .error e => _ | .ok (pre, post, r) => _) = _
  cases hc : classify (values D.t) D.post D.ref with
  | error x => rfl
  | ok q =>
    obtain ⟨pre, post, r⟩ := q
    obtain ⟨h1, h2⟩ := hred pre post r hc
    have hrel : ∀ cs, cs = cols D post r → Moved e (regress L' robust strict (movedData e D) cs) (regress L robust strict D (cols D post r)) := by
      rintro cs rfl
      rw [regress_moved hL e robust strict D _ h1 h2]
      cases regress L robust strict D (cols D post r) with
      | error x => rfl
      | ok f => exact ⟨rfl, rfl, rfl, rfl⟩
    have hr := hrel _ (hcols post r)
    dsimp only
    cases hf' : regress L' robust strict (movedData e D) (cols (movedData e D) post r) with
    | error x' =>
      rw [hf'] at hr
      cases hf : regress L robust strict D (cols D post r) with
      | error x => rw [hf] at hr; have : x' = x := hr; rw [this]
      | ok f => rw [hf] at hr; exact hr.elim
    | ok f' =>
    rw [hf'] at hr
    cases hf : regress L robust strict D (cols D post r) with
    | error x => rw [hf] at hr; exact hr.elim
    | ok f =>
      rw [hf] at hr
      obtain ⟨q1, q2, q3, q4⟩ := hr
      dsimp only
      rw [q1, q2, q3, q4]
      congr 1
      have hpo : pOf L'.toLib = pOf L.toLib := by funext df t; unfold pOf; rw [hL.tD]
      have hci : ciOf L'.toLib = ciOf L.toLib := by funext df a b c; unfold ciOf; rw [hL.tD]
      have h3 : average L'.toLib = average L.toLib := by
        funext al df c v js; unfold average; rw [hpo, hci, hL.sqrt]
      have h4 : effect L'.toLib = effect L.toLib := by
        funext al df c v j p; unfold effect; rw [hpo, hci, hL.sqrt]
      have h5 : Vcov.rSquared (outcome (movedData e D)) (fun i => f.resid (e i)) false 0 = Vcov.rSquared (outcome D) f.resid false 0 := by
        rw [show outcome (movedData e D) = fun i => outcome D (e i) from absorbed_moved e D.absorb D.y]
        exact RowOrder.rsq_moved e _ _ _ _
      unfold report
      rw [hp, h3, h4, h5, Fintype.card_congr e]
      have h6 : (Finset.univ.filter (fun i => (movedData e D).d i = true)).card = (Finset.univ.filter (fun i => D.d i = true)).card :=
        RowOrder.card_filter_moved e (fun i => D.d i = true)
      have h7 : (Finset.univ.filter (fun i => (movedData e D).d i = false)).card = (Finset.univ.filter (fun i => D.d i = false)).card :=
        RowOrder.card_filter_moved e (fun i => D.d i = false)
      rw [h6, h7]

/-! ### Claims that fail -/

theorem Covariance.zero {L : TwfeFit.Lib ι K} {robust : Bool} {D : Data ι C K} {cs : List Col} {V : Matrix (Fin cs.length) (Fin cs.length) K}
    (h : Covariance L robust D cs (fun _ => 0) V) (hX : ((matrix D cs)ᵀ * matrix D cs).det ≠ 0) : V = 0 := by
  have h1 : hc1Meat (matrix D cs) (fun _ => 0) = 0 := by ext a b; simp [hc1Meat]
  have h2 : ∀ g : ι → Option C, numpyMeat (matrix D cs) (fun _ => 0) g = 0 := by intro g; ext a b; simp [numpyMeat, score]
  unfold Covariance at h
  split_ifs at h
  · unfold vcovNumpy at h
    cases hg : D.cluster with
    | none =>
      rw [hg] at h
      simp only [h1, sandwichNumpy] at h
      split_ifs at h
      cases h
      simp
    | some g =>
      rw [hg] at h
      simp only [h2, sandwichNumpy] at h
      split_ifs at h
      cases h
      simp
  · unfold LinReg.classical at h
    simp only [hX, if_false] at h
    split_ifs at h
    cases h
    simp

/-- C148, consistent inference fails: when the outcome is an exact combination of the regressors every standard error is zero; a period's nonzero effect is
then reported as certain (infinite t, p-value 0) while the average, even over that single period, has NaN for t, p-value and interval. -/
theorem C148_zero_se_refuted (L : TwfeFit.Lib ι K) (hL : Works L) (robust strict : Bool) (alpha : K) (D : Data ι C K) (R : Result K)
    (h : fit L robust strict alpha D = .ok R) {pre post : List ℤ} {r : ℤ} (hc : classify (values D.t) D.post D.ref = .ok (pre, post, r))
    (hn : post.Nodup) (hX : ((matrix D (cols D post r))ᵀ * matrix D (cols D post r)).det ≠ 0)
    (hdf : adjustment D.absorb < (Fintype.card ι : ℤ) - (cols D post r).length) (c : Fin (cols D post r).length → K)
    (hy : ∀ i, absorbed D.absorb D.y i = ∑ j, matrix D (cols D post r) i j * c j) :
    (∀ e ∈ R.effects, e.effect = .fin (coefAt (cols D post r) c (.inter e.period)) ∧ e.se = .fin 0 ∧
      (0 < coefAt (cols D post r) c (.inter e.period) → e.t = .pinf ∧ e.p = .fin 0) ∧
      (coefAt (cols D post r) c (.inter e.period) < 0 → e.t = .ninf ∧ e.p = .fin 0)) ∧
    R.se = .fin 0 ∧ R.t = .nan ∧ R.p = .nan ∧ R.ci = (.nan, .nan) := by
  obtain ⟨b, V, df, w, hb, hV, hdf', hlt, hpost, hnn, heff, hatt, hw0, hw, hse, hpos, hzero, -⟩ := report_ok hL h hc hn hX
  have hc' : IsOls (matrix D (cols D post r)) (outcome D) c := by
    intro j
    refine Finset.sum_eq_zero fun i _ => ?_
    have : resid (matrix D (cols D post r)) (outcome D) c i = 0 := by
      show outcome D i - ∑ j, matrix D (cols D post r) i j * c j = 0
      rw [← hy i]; exact sub_self _
    rw [this, mul_zero]
  have hbc : b = c := LinReg.ols_unique hX hb hc'
  subst hbc
  have hres : resid (matrix D (cols D post r)) (outcome D) b = fun _ => 0 := by
    funext i
    show outcome D i - ∑ j, matrix D (cols D post r) i j * b j = 0
    rw [← hy i]; exact sub_self _
  rw [hres] at hV
  have hV0 := hV.zero hX
  have hent : ∀ p q, entryAt (cols D post r) V (.inter p) (.inter q) = 0 := by
    intro p q; unfold entryAt; rw [hV0]; split_ifs <;> rfl
  have hs0 : L.sqrt 0 = 0 := by
    have := (hL.sqrt 0 le_rfl).2
    exact pow_eq_zero_iff two_ne_zero |>.1 this
  have hw' : w = 0 := by rw [hw]; simp [hent]
  have hd : 0 < df := by rw [hdf']; omega
  refine ⟨?_, ?_, ?_⟩
  · intro e he
    rw [heff] at he
    obtain ⟨p, hp, rfl⟩ := List.mem_map.1 he
    simp only [effectOf, hent, hs0]
    refine ⟨trivial, trivial, ?_, ?_⟩
    · intro hx
      have e1 : Ext.div (.fin (coefAt (cols D post r) b (.inter p))) (.fin 0) = (.pinf : Ext K) := by
        simp [Ext.div, Ext.infOf, Ext.sgn, hx, hx.ne', not_lt.2 hx.le]
      rw [e1]
      refine ⟨rfl, ?_⟩
      simp [pOf, hd, Inference.pValue, Inference.Dist.sfE, Ext.abs, Ext.mul]
    · intro hx
      have e1 : Ext.div (.fin (coefAt (cols D post r) b (.inter p))) (.fin 0) = (.ninf : Ext K) := by
        simp [Ext.div, Ext.infOf, Ext.sgn, hx, hx.ne, not_lt.2 hx.le]
      rw [e1]
      refine ⟨rfl, ?_⟩
      simp [pOf, hd, Inference.pValue, Inference.Dist.sfE, Ext.abs, Ext.mul]
  · rw [hse, hw', hs0]
  · exact hzero (by rw [hw', hs0]; exact lt_irrefl _)

/-- C148, agreement of the inference fails: if absorbed effects use up the degrees of freedom, the two-period report has the estimate and the positive standard
error of the basic estimator, but NaN as p-value and interval where the basic estimator uses the normal distribution. -/
theorem C148_absorbed_refuted (L : TwfeFit.Lib ι K) (hL : Works L) (robust strict : Bool) (alpha : K) (D : Data ι C K) (hD : Plain D) (a b : ℤ)
    (hc : classify (values D.t) D.post D.ref = .ok ([a], [b], a)) (ho : DidFit.Occupied D.d (fun i => decide (D.t i = b)))
    (hn : robust = true ∨ D.cluster.isSome = true ∨ 4 < Fintype.card ι) (hdf : (Fintype.card ι : ℤ) - 4 ≤ adjustment D.absorb)
    (S : DidFit.Result K) (s : K) (hs : S.se = .fin s) (hpos : 0 < s)
    (hS : DidFit.fitCore L.toLib ⟨robust, D.cluster, strict⟩ alpha [] D.d (fun i => decide (D.t i = b)) (absorbed D.absorb D.y) (adjustment D.absorb) = .ok S) :
    ∃ R x, fit L robust strict alpha D = .ok R ∧ R.att = .fin x ∧ S.att = .fin x ∧ R.se = .fin s ∧ R.p = .nan ∧ R.ci = (.nan, .nan) ∧
      S.p = .fin (2 * L.nD.sf |x / s|) ∧ S.ci = (.fin (x - L.nD.ppf (1 - alpha / 2) * s), .fin (x + L.nD.ppf (1 - alpha / 2) * s)) := by
  have key := C148_two_periods L hL robust strict alpha D hD a b hc ho hn
  rw [hS] at key
  cases hf : fit L robust strict alpha D with
  | error e => rw [hf] at key; exact key.elim
  | ok R =>
    rw [hf] at key
    obtain ⟨k1, k2, -⟩ : SameReport b _ R S := key
    have hX : ((matrix D (cols D [b] a))ᵀ * matrix D (cols D [b] a)).det ≠ 0 := by
      refine (C148_estimable D hD [a] [b] a hc (List.nodup_singleton b)).2 ⟨?_, ?_⟩
      · intro p hp
        rw [List.mem_singleton.1 hp]
        intro x
        obtain ⟨i, h1, h2⟩ := ho x true
        exact ⟨i, h1, by simpa using h2⟩
      · have hmem : ∀ i, D.t i ≠ b → D.t i = a := by
          intro i hi
          obtain ⟨h1, -⟩ := C76_classification _ _ _ _ _ _ hc
          simpa using (h1 (D.t i) (mem_values.2 ⟨i, rfl⟩)).2 (by simpa using hi)
        obtain ⟨i, -, h2⟩ := ho true false
        have h2' : D.t i ≠ b := by simpa using h2
        refine ⟨i, by simpa using h2', fun x => ?_⟩
        obtain ⟨j, h3, h4⟩ := ho x false
        have h4' : D.t j ≠ b := by simpa using h4
        exact ⟨j, h3, by rw [hmem j h4', hmem i h2']⟩
    obtain ⟨β, V, df', w, -, -, hdf', -, -, -, -, hatt, -, -, hse, hp, -, -⟩ := report_ok hL hf hc (List.nodup_singleton b) hX
    have hlen : (cols D [b] a).length = 4 := by rw [(cols_two hD hc).1]; rfl
    have hd : ¬ 0 < df' := by rw [hdf', hlen]; push_cast; omega
    rw [k2, hs] at hse
    have hw : L.sqrt w = s := by cases hse; rfl
    obtain ⟨e1, e2, e3⟩ := hp (by rw [hw]; exact hpos)
    obtain ⟨q1, q2, q3⟩ := DidFit.C125_inference L.toLib hL.solves ⟨robust, D.cluster, strict⟩ alpha D.d _ ho _ _ S hS s hs hpos L.nD
      (by rw [if_neg (by omega)])
    obtain ⟨_, _, _, -, -, -, -, -, -, -, ha, -⟩ := DidFit.core_ok hL.solves ho hS
    refine ⟨R, _, rfl, ?_, ha, ?_, ?_, ?_, q2, q3⟩
    · rw [k1, ha]
    · rw [k2, hs]
    · rw [e2]; simp [pOf, hd]
    · rw [e3]; simp [ciOf, hd]

/-- C148, agreement of the errors fails: with one row per cell and `robust=False` the multi-period estimator raises (division by zero in a robust covariance
matrix it then would not use) while the basic estimator reports the estimate with standard error NaN. -/
theorem C148_saturated_refuted (L : TwfeFit.Lib ι K) (hL : Works L) (strict : Bool) (alpha : K) (D : Data ι C K) (hD : Plain D) (hcl : D.cluster = none)
    (a b : ℤ) (hc : classify (values D.t) D.post D.ref = .ok ([a], [b], a)) (ho : DidFit.Occupied D.d (fun i => decide (D.t i = b)))
    (hn : Fintype.card ι = 4) :
    fit L false strict alpha D = .error (.reg (.vcov .zeroDivision)) ∧
    ∃ S x, DidFit.fitCore L.toLib ⟨false, D.cluster, strict⟩ alpha [] D.d (fun i => decide (D.t i = b)) (absorbed D.absorb D.y) (adjustment D.absorb) = .ok S ∧
      S.att = .fin x ∧ S.se = .nan := by
  constructor
  · have hX : ((matrix D (cols D [b] a))ᵀ * matrix D (cols D [b] a)).det ≠ 0 := by
      refine (C148_estimable D hD [a] [b] a hc (List.nodup_singleton b)).2 ⟨?_, ?_⟩
      · intro p hp
        rw [List.mem_singleton.1 hp]
        intro x
        obtain ⟨i, h1, h2⟩ := ho x true
        exact ⟨i, h1, by simpa using h2⟩
      · have hmem : ∀ i, D.t i ≠ b → D.t i = a := by
          intro i hi
          obtain ⟨h1, -⟩ := C76_classification _ _ _ _ _ _ hc
          simpa using (h1 (D.t i) (mem_values.2 ⟨i, rfl⟩)).2 (by simpa using hi)
        obtain ⟨i, -, h2⟩ := ho true false
        have h2' : D.t i ≠ b := by simpa using h2
        refine ⟨i, by simpa using h2', fun x => ?_⟩
        obtain ⟨j, h3, h4⟩ := ho x false
        have h4' : D.t j ≠ b := by simpa using h4
        exact ⟨j, h3, by rw [hmem j h4', hmem i h2']⟩
    have hlen : (cols D [b] a).length = 4 := by rw [(cols_two hD hc).1]; rfl
    unfold fit
    rw [hc]
    simp only [regress, hL.keeps _ hX, LinReg.fit, hlen, hn, lt_irrefl, if_false, LinReg.vcov, LinReg.Opts.ids, hcl, Bool.true_or, if_true, vcovNumpy,
      Fintype.card_fin]
  · obtain ⟨S, hS⟩ : ∃ S, DidFit.fitCore L.toLib ⟨false, D.cluster, strict⟩ alpha [] D.d (fun i => decide (D.t i = b)) (absorbed D.absorb D.y)
        (adjustment D.absorb) = .ok S := by
      simp only [DidFit.fitCore, LinReg.fit, hn, lt_irrefl, if_false, LinReg.vcov, LinReg.Opts.ids, hcl, Bool.false_or, Option.isSome_none,
        Bool.false_eq_true]
      exact ⟨_, rfl⟩
    obtain ⟨_, _, _, -, -, -, -, -, -, -, ha, -⟩ := DidFit.core_ok hL.solves ho hS
    exact ⟨S, _, hS, ha, (DidFit.C125_se_classical L.toLib hL.solves _ rfl hcl alpha D.d _ ho _ _ S hS).1 hn⟩

/-! ### The hypotheses can be met -/

theorem values_eq {g : ι → ℤ} {l : List ℤ} (hl : l.Pairwise (· < ·)) (h : ∀ p, p ∈ l ↔ ∃ i, g i = p) : values g = l := by
  refine List.Perm.eq_of_pairwise' (r := (· ≤ ·)) (Finset.pairwise_sort _ _) (hl.imp le_of_lt) ?_
  refine (List.perm_ext_iff_of_nodup (Finset.sort_nodup _ _) (hl.imp ne_of_lt)).2 fun p => ?_
  rw [h p]
  exact mem_values

/-- Group, period and replicate. -/
abbrev Cell := Bool × Fin 3 × Bool

/-- Two groups, periods 0, 1, 2, two rows each; the effect of 5 starts in period 1; `z` is the noise. -/
noncomputable def study (z : ℝ) (ref : Option ℤ) : Data Cell ℕ ℝ :=
  ⟨fun i => (if i.1 = true ∧ i.2.1 ≠ 0 then 5 else 0) + (if i.2.2 then z else -z), fun i => i.1, fun i => (i.2.1 : ℕ), [], [], [], none, none, ref⟩

theorem study_values (z : ℝ) (ref : Option ℤ) : values (study z ref).t = [0, 1, 2] := by
  refine values_eq (by decide) fun p => ?_
  constructor
  · intro hp
    simp only [List.mem_cons, List.not_mem_nil, or_false] at hp
    rcases hp with rfl | rfl | rfl
    · exact ⟨(true, 0, true), rfl⟩
    · exact ⟨(true, 1, true), rfl⟩
    · exact ⟨(true, 2, true), rfl⟩
  · rintro ⟨⟨a, q, b⟩, rfl⟩
    show ((q : ℕ) : ℤ) ∈ _
    fin_cases q <;> simp

theorem study_classify (z : ℝ) : classify (values (study z none).t) (study z none).post none = .ok ([0], [1, 2], 0) ∧
    classify (values (study z none).t) (study z none).post (some 2) = .ok ([0], [1, 2], 2) := by
  rw [study_values]
  constructor
  · show classify [0, 1, 2] none none = _
    decide
  · show classify [0, 1, 2] none (some 2) = _
    decide

theorem study_overlap (z : ℝ) (ref : Option ℤ) : Overlap (study z ref) [1, 2] := by
  constructor
  · intro p hp a
    simp only [List.mem_cons, List.not_mem_nil, or_false] at hp
    rcases hp with rfl | rfl
    · exact ⟨(a, 1, true), rfl, rfl⟩
    · exact ⟨(a, 2, true), rfl, rfl⟩
  · exact ⟨(true, 0, true), by show ((0 : ℕ) : ℤ) ∉ [1, 2]; decide, fun a => ⟨(a, 0, true), rfl, rfl⟩⟩

theorem study_range (z : ℝ) (ref : Option ℤ) : (Set.range (study z ref).t).ncard = 3 := by
  have : Set.range (study z ref).t = (({0, 1, 2} : Finset ℤ) : Set ℤ) := by
    ext p
    have := (mem_values (g := (study z ref).t) (p := p)).symm
    rw [study_values] at this
    simpa using this
  rw [this, Set.ncard_coe_finset]
  rfl

theorem study_arm (z : ℝ) (ref : Option ℤ) (a : Bool) (q : Fin 3) :
    arm (study z ref).d (study z ref).t a ((q : ℕ) : ℤ) = {(a, q, true), (a, q, false)} := by
  ext ⟨x, y, w⟩
  simp only [arm, study, Finset.mem_filter, Finset.mem_univ, true_and, Finset.mem_insert, Finset.mem_singleton, Prod.mk.injEq, Nat.cast_inj, Fin.val_inj]
  cases w <;> simp

theorem study_pre (z : ℝ) (ref : Option ℤ) (a : Bool) : preArm (study z ref).d (study z ref).t [1, 2] a = {(a, 0, true), (a, 0, false)} := by
  ext ⟨x, y, w⟩
  simp only [preArm, study, Finset.mem_filter, Finset.mem_univ, true_and, Finset.mem_insert, Finset.mem_singleton, Prod.mk.injEq]
  fin_cases y <;> cases w <;> simp

theorem study_mean (z : ℝ) (ref : Option ℤ) (a : Bool) (q : Fin 3) :
    (∑ i ∈ ({(a, q, true), (a, q, false)} : Finset Cell), (study z ref).y i) / ((({(a, q, true), (a, q, false)} : Finset Cell)).card : ℝ) =
      if a = true ∧ q ≠ 0 then 5 else 0 := by
  rw [Finset.sum_pair (by simp), Finset.card_pair (by simp)]
  simp only [study]
  by_cases h : a = true ∧ q ≠ 0
  · simp only [if_pos h, if_true, Bool.false_eq_true, if_false]; push_cast; ring
  · simp only [if_neg h, if_true, Bool.false_eq_true, if_false]; push_cast; ring

/-- C148_runs_iff, C148_effects, C148_inference, C148_average, C148_reference: a result, its effects, six degrees of freedom, and another reference period. -/
example : ∃ (L : TwfeFit.Lib Cell ℝ) (R : Result ℝ), Works L ∧ fit L true true (1 / 20) (study 1 none) = .ok R ∧
    fit L true true (1 / 20) (study 1 (some 2)) = .ok R ∧ (∀ e ∈ R.effects, e.effect = .fin 5) ∧ R.effects.map Effect.period = [1, 2] ∧ R.att = .fin 5 := by
  obtain ⟨L, hL⟩ := TwfeFit.exists_works (ι := Cell)
  obtain ⟨hc, hc2⟩ := study_classify 1
  have hD : Plain (study 1 none) := ⟨rfl, rfl⟩
  have ho := study_overlap 1 none
  have hn : ([1, 2] : List ℤ).Nodup := by decide
  have hX := (C148_estimable (study 1 none) hD [0] [1, 2] 0 hc hn).2 ho
  obtain ⟨R, hR⟩ := (C148_runs_iff L hL true true (1 / 20) (study 1 none) hD (fun pre post r h => by
    have e := hc.symm.trans h
    cases e
    exact ⟨hn, ho⟩)).2 ⟨⟨[0], [1, 2], 0, hc, by rw [study_range]; simp⟩, fun g hg => by cases hg⟩
  have hpost : R.post = [1, 2] := by
    obtain ⟨pre, post, r, f, hc', -, rfl⟩ := fit_ok hR
    have e := hc.symm.trans hc'
    cases e
    rfl
  obtain ⟨x, s, c, a, z, hper, hx, -, ha, -, hsum, -⟩ := C148_average L hL true true (1 / 20) (study 1 none) R hR hc hn hX
  have heff : ∀ e ∈ R.effects, e.effect = .fin 5 := by
    intro e he
    have h1 := C148_effects L hL true true (1 / 20) (study 1 none) hD rfl R hR (by rw [hpost]; exact hn) (by rw [hpost]; exact ho) (by
      rw [hpost]
      rintro ⟨a, q, b⟩ hi
      have e1 := study_arm 1 none true q
      have e2 := study_arm 1 none false q
      have et : (study 1 none).t (a, q, b) = ((q : ℕ) : ℤ) := rfl
      rw [et, e1, e2, study_pre, study_pre, Finset.card_pair (by simp), Finset.card_pair (by simp), Finset.card_pair (by simp), Finset.card_pair (by simp)]) e he
    rw [h1, hpost]
    have hmem : e.period ∈ ([1, 2] : List ℤ) := by rw [← hper]; exact List.mem_map_of_mem he
    unfold gap armMean preMean
    rw [study_pre, study_pre, study_mean, study_mean]
    simp only [List.mem_cons, List.not_mem_nil, or_false] at hmem
    rcases hmem with h2 | h2
    · have k := fun a => study_arm 1 none a 1
      rw [h2]
      have e1 : ((((1 : Fin 3) : ℕ) : ℤ)) = 1 := rfl
      rw [e1] at k
      rw [k, k, study_mean, study_mean]
      simp
    · have k := fun a => study_arm 1 none a 2
      rw [h2]
      have e1 : ((((2 : Fin 3) : ℕ) : ℤ)) = 2 := rfl
      rw [e1] at k
      rw [k, k, study_mean, study_mean]
      simp
  have hxp : ∀ p ∈ ([1, 2] : List ℤ), x p = 5 := by
    intro p hp
    rw [← hper] at hp
    obtain ⟨e, he, rfl⟩ := List.mem_map.1 hp
    exact Ext.fin.inj ((hx e he).1.symm.trans (heff e he))
  refine ⟨L, R, hL, hR, ?_, heff, hper, ?_⟩
  · rw [← hR]
    exact C148_reference L hL true true (1 / 20) (study 1 none) (some 2) hc hc2 hn hX
  · rw [ha]
    have h3 : ∑ p ∈ ([1, 2] : List ℤ).toFinset, x p = 10 := by
      rw [show ([1, 2] : List ℤ).toFinset = {1, 2} by decide, Finset.sum_pair (by decide), hxp 1 (by simp), hxp 2 (by simp)]
      norm_num
    rw [h3] at hsum
    congr 1
    simp at hsum
    linarith

/-- C148_row_order: all rows reversed. -/
example : ∃ (L : TwfeFit.Lib Cell ℝ), Works L ∧ fit L true true (1 / 20) (movedData (Equiv.prodCongr (Equiv.swap false true) (Equiv.prodCongr Fin.revPerm
    (Equiv.swap false true))) (study 1 none)) = fit L true true (1 / 20) (study 1 none) := by
  obtain ⟨L, hL⟩ := TwfeFit.exists_works (ι := Cell)
  refine ⟨L, hL, C148_row_order L L ⟨hL.solves, hL.solves, rfl, rfl, rfl⟩ _ _ _ _ _ ?_⟩
  intro pre post r h
  obtain ⟨hc, -⟩ := study_classify 1
  have e := hc.symm.trans h
  cases e
  have hX := (C148_estimable (study 1 none) ⟨rfl, rfl⟩ [0] [1, 2] 0 hc (by decide)).2 (study_overlap 1 none)
  rw [hL.keeps _ hX, hL.keeps _ (by rw [RowOrder.gram_moved]; exact hX)]
  refine ⟨rfl, fun v _ hv => ?_⟩
  by_contra hne
  exact hX (Matrix.exists_mulVec_eq_zero_iff.1 ⟨v, hne, by
    rw [← Matrix.mulVec_mulVec]
    have : matrix (study 1 none) (cols (study 1 none) [1, 2] 0) *ᵥ v = 0 := funext hv
    rw [this, Matrix.mulVec_zero]⟩)

theorem study_cols (z : ℝ) : cols (study z none) [1, 2] 0 = [.const, .treat, .period 1, .period 2, .inter 1, .inter 2] := by
  unfold cols periods
  rw [study_values]
  rfl

/-- C148_zero_se_refuted: without noise. -/
example : ∃ (L : TwfeFit.Lib Cell ℝ) (R : Result ℝ), Works L ∧ fit L true true (1 / 20) (study 0 none) = .ok R ∧
    (∀ e ∈ R.effects, e.effect = .fin 5 ∧ e.se = .fin 0 ∧ e.p = .fin 0) ∧ R.se = .fin 0 ∧ R.p = .nan := by
  obtain ⟨L, hL⟩ := TwfeFit.exists_works (ι := Cell)
  obtain ⟨hc, -⟩ := study_classify 0
  have hD : Plain (study 0 none) := ⟨rfl, rfl⟩
  have ho := study_overlap 0 none
  have hn : ([1, 2] : List ℤ).Nodup := by decide
  have hX := (C148_estimable (study 0 none) hD [0] [1, 2] 0 hc hn).2 ho
  obtain ⟨R, hR⟩ := (C148_runs_iff L hL true true (1 / 20) (study 0 none) hD (fun pre post r h => by
    have e := hc.symm.trans h
    cases e
    exact ⟨hn, ho⟩)).2 ⟨⟨[0], [1, 2], 0, hc, by rw [study_range]; simp⟩, fun g hg => by cases hg⟩
  let w : Col → ℝ := fun c => match c with
    | .inter _ => 5
    | _ => 0
  obtain ⟨h1, h2, -, h3, -⟩ := C148_zero_se_refuted L hL true true (1 / 20) (study 0 none) R hR hc hn hX (by
      rw [study_cols]; show (0 : ℤ) < _; simp) (fun j => w (cols (study 0 none) [1, 2] 0)[j]) (by
    rintro ⟨a, q, b⟩
    have e := sum_fin_map (cs := cols (study 0 none) [1, 2] 0) (fun c => colVal a ((q : ℕ) : ℤ) (extraVal (extras (study 0 none)) (a, q, b)) c * w c)
    refine Eq.trans ?_ e.symm
    rw [study_cols]
    show (if a = true ∧ q ≠ 0 then (5 : ℝ) else 0) + (if b = true then 0 else -0) = _
    fin_cases q <;> cases a <;> simp [colVal, w])
  refine ⟨L, R, hL, hR, ?_, h2, h3⟩
  intro e he
  obtain ⟨k1, k2, k3, -⟩ := h1 e he
  have hper : e.period ∈ ([1, 2] : List ℤ) := by
    obtain ⟨-, -, -, -, -, -, -, -, -, k⟩ := C148_counts L true true (1 / 20) (study 0 none) R hR
    have := (k e.period).1 (List.mem_map_of_mem he)
    obtain ⟨pre, post, r, f, hc', -, rfl⟩ := fit_ok hR
    have e := hc.symm.trans hc'
    cases e
    exact this
  have hco : coefAt (cols (study 0 none) [1, 2] 0) (fun j => w (cols (study 0 none) [1, 2] 0)[j]) (.inter e.period) = 5 := by
    rw [coefAt_of w]
    rw [study_cols]
    simp only [List.mem_cons, List.not_mem_nil, or_false] at hper
    rcases hper with h | h <;> rw [h] <;> simp
  rw [hco] at k1 k3
  exact ⟨k1, k2, (k3 (by norm_num)).2⟩

/-- Three units (two treated) in periods 0 and 1; the outcome of the second rises by 2. -/
noncomputable def triplet : Data (Fin 3 × Bool) ℕ ℝ :=
  ⟨fun i => if i = (1, true) then 2 else 0, fun i => decide (i.1 ≠ 2), fun i => if i.2 then 1 else 0, [], [], [fun i => (i.1 : ℕ)], none, none, none⟩

theorem triplet_classify : classify (values triplet.t) triplet.post triplet.ref = .ok ([0], [1], 0) := by
  have : values triplet.t = [0, 1] := by
    refine values_eq (by decide) fun p => ?_
    constructor
    · intro hp
      simp only [List.mem_cons, List.not_mem_nil, or_false] at hp
      rcases hp with rfl | rfl
      · exact ⟨(0, false), rfl⟩
      · exact ⟨(0, true), rfl⟩
    · rintro ⟨⟨q, b⟩, rfl⟩
      cases b <;> simp [triplet]
  rw [this]
  show classify [0, 1] none none = _
  decide

/-- C148_absorbed_refuted (and C148_two_periods): unit effects absorbed. -/
example : ∃ (L : TwfeFit.Lib (Fin 3 × Bool) ℝ) (R : Result ℝ) (s : ℝ), Works L ∧ fit L true true (1 / 20) triplet = .ok R ∧ R.se = .fin s ∧ 0 < s ∧ R.p = .nan := by
  obtain ⟨L, hL⟩ := TwfeFit.exists_works (ι := Fin 3 × Bool)
  have ho : DidFit.Occupied triplet.d (fun i => decide (triplet.t i = 1)) := by
    intro a c
    cases a <;> cases c
    · exact ⟨(2, false), by simp [triplet], by simp [triplet]⟩
    · exact ⟨(2, true), by simp [triplet], by simp [triplet]⟩
    · exact ⟨(0, false), by simp [triplet], by simp [triplet]⟩
    · exact ⟨(0, true), by simp [triplet], by simp [triplet]⟩
  have hadj : adjustment triplet.absorb = 2 := by
    show (Within.nEffects (fun i : Fin 3 × Bool => ((i.1 : ℕ) : ℤ)) : ℤ) + 0 = 2
    decide
  have hX := DidFit.design_det (K := ℝ) ho _ rfl
  obtain ⟨S, hS⟩ : ∃ S, DidFit.fitCore L.toLib ⟨true, triplet.cluster, true⟩ (1 / 20) [] triplet.d (fun i => decide (triplet.t i = 1))
      (absorbed triplet.absorb triplet.y) (adjustment triplet.absorb) = .ok S := by
    have hcl : triplet.cluster = none := rfl
    simp only [DidFit.fitCore, LinReg.fit, LinReg.vcov, LinReg.Opts.ids, hcl, Bool.true_or, if_true, vcovNumpy, hX, if_false]
    simp
  have hse := DidFit.C125_se_robust L.toLib hL.solves _ rfl rfl (1 / 20) _ _ ho _ _ S hS
  set d := triplet.d
  set t := fun i => decide (triplet.t i = 1)
  set y := absorbed triplet.absorb triplet.y with hy
  have hval : y (0, true) = 0 ∧ y (1, true) = 1 := by
    have e0 : Within.grp (fun i : Fin 3 × Bool => ((i.1 : ℕ) : ℤ)) ((0 : ℕ) : ℤ) = {(0, true), (0, false)} := by decide
    have e1 : Within.grp (fun i : Fin 3 × Bool => ((i.1 : ℕ) : ℤ)) ((1 : ℕ) : ℤ) = {(1, true), (1, false)} := by decide
    constructor
    · show triplet.y (0, true) - (∑ j ∈ Within.grp (fun i : Fin 3 × Bool => ((i.1 : ℕ) : ℤ)) ((0 : ℕ) : ℤ), triplet.y j) / _ = 0
      rw [e0, Finset.sum_pair (by decide)]
      simp [triplet]
    · show triplet.y (1, true) - (∑ j ∈ Within.grp (fun i : Fin 3 × Bool => ((i.1 : ℕ) : ℤ)) ((1 : ℕ) : ℤ), triplet.y j) /
        ((Within.grp (fun i : Fin 3 × Bool => ((i.1 : ℕ) : ℤ)) ((1 : ℕ) : ℤ)).card : ℝ) = 1
      rw [e1, Finset.sum_pair (by decide), Finset.card_pair (by decide)]
      simp [triplet]
      norm_num
  have hnn : ∀ a c, 0 ≤ DidFit.within y d t a c / ((Did2x2.cell d t a c).card : ℝ) ^ 2 := fun a c =>
    div_nonneg (Finset.sum_nonneg fun i _ => sq_nonneg _) (sq_nonneg _)
  have hw : 0 < DidFit.within y d t true true := by
    refine lt_of_le_of_ne (Finset.sum_nonneg fun i _ => sq_nonneg _) fun h0 => ?_
    have hz := (Finset.sum_eq_zero_iff_of_nonneg (fun i _ => sq_nonneg _)).1 h0.symm
    have m0 : ((0, true) : Fin 3 × Bool) ∈ Did2x2.cell d t true true := by simp [Did2x2.cell, d, t, triplet]
    have m1 : ((1, true) : Fin 3 × Bool) ∈ Did2x2.cell d t true true := by simp [Did2x2.cell, d, t, triplet]
    have z0 := pow_eq_zero_iff two_ne_zero |>.1 (hz _ m0)
    have z1 := pow_eq_zero_iff two_ne_zero |>.1 (hz _ m1)
    rw [hval.1] at z0
    rw [hval.2] at z1
    linarith
  have hcard : 0 < DidFit.within y d t true true / ((Did2x2.cell d t true true).card : ℝ) ^ 2 :=
    div_pos hw (lt_of_le_of_ne (sq_nonneg _) (Ne.symm (pow_ne_zero 2 (DidFit.Occupied.card ho true true))))
  have hpos : 0 < (Fintype.card (Fin 3 × Bool) : ℝ) / ((Fintype.card (Fin 3 × Bool) : ℝ) - 4) *
      ∑ a, ∑ c, DidFit.within y d t a c / ((Did2x2.cell d t a c).card : ℝ) ^ 2 := by
    refine mul_pos (by simp; norm_num) ?_
    refine lt_of_lt_of_le hcard ((Finset.single_le_sum (f := fun c => DidFit.within y d t true c / ((Did2x2.cell d t true c).card : ℝ) ^ 2)
      (fun c _ => hnn true c) (Finset.mem_univ true)).trans
      (Finset.single_le_sum (f := fun a => ∑ c, DidFit.within y d t a c / ((Did2x2.cell d t a c).card : ℝ) ^ 2)
        (fun a _ => Finset.sum_nonneg fun c _ => hnn a c) (Finset.mem_univ true)))
  have hs := hL.sqrt _ hpos.le
  have hs0 : 0 < L.sqrt ((Fintype.card (Fin 3 × Bool) : ℝ) / ((Fintype.card (Fin 3 × Bool) : ℝ) - 4) *
      ∑ a, ∑ c, DidFit.within y d t a c / ((Did2x2.cell d t a c).card : ℝ) ^ 2) := by
    refine lt_of_le_of_ne hs.1 fun h0 => ?_
    rw [← h0] at hs
    have := hs.2
    rw [zero_pow two_ne_zero] at this
    exact hpos.ne this
  obtain ⟨R, x, h1, -, -, h2, h3, -⟩ := C148_absorbed_refuted L hL true true (1 / 20) triplet ⟨rfl, rfl⟩ 0 1 triplet_classify ho (Or.inl rfl)
    (by rw [hadj]; simp) S _ hse hs0 hS
  exact ⟨L, R, _, hL, h1, h2, hs0, h3⟩

/-- One row per group and period. -/
noncomputable def square : Data (Bool × Bool) ℕ ℝ :=
  ⟨fun i => if i = (true, true) then 2 else 0, fun i => i.1, fun i => if i.2 then 1 else 0, [], [], [], none, none, none⟩

/-- C148_saturated_refuted. -/
example : ∃ (L : TwfeFit.Lib (Bool × Bool) ℝ), Works L ∧ fit L false true (1 / 20) square = .error (.reg (.vcov .zeroDivision)) ∧
    ∃ S x, DidFit.fit L.toLib ⟨false, square.cluster, true⟩ (1 / 20) [] square.d (fun i => decide (square.t i = 1)) square.y = .ok S ∧
      S.att = .fin x ∧ S.se = .nan := by
  obtain ⟨L, hL⟩ := TwfeFit.exists_works (ι := Bool × Bool)
  have hc : classify (values square.t) square.post square.ref = .ok ([0], [1], 0) := by
    have : values square.t = [0, 1] := by
      refine values_eq (by decide) fun p => ?_
      constructor
      · intro hp
        simp only [List.mem_cons, List.not_mem_nil, or_false] at hp
        rcases hp with rfl | rfl
        · exact ⟨(true, false), rfl⟩
        · exact ⟨(true, true), rfl⟩
      · rintro ⟨⟨q, b⟩, rfl⟩
        cases b <;> simp [square]
    rw [this]
    show classify [0, 1] none none = _
    decide
  have ho : DidFit.Occupied square.d (fun i => decide (square.t i = 1)) := by
    intro a c
    refine ⟨(a, c), rfl, ?_⟩
    cases c <;> simp [square]
  exact ⟨L, hL, C148_saturated_refuted L hL true (1 / 20) square ⟨rfl, rfl⟩ rfl 0 1 hc ho rfl⟩

end DiffDiff.MultiFit
