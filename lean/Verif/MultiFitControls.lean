/-
Property C148: what covariates and fixed effects do in MultiPeriodDiD.fit.
-/
import Verif.MultiFitProps

set_option linter.unusedSectionVars false
set_option linter.unusedVariables false

namespace DiffDiff.MultiFit
open Matrix MultiPeriod Vcov
open Ols (IsOls resid fitted)
open TwfeFit (Works Keeps)

variable {K : Type*} [Field K] [LinearOrder K] [IsStrictOrderedRing K]
variable {ι C : Type*} [Fintype ι] [DecidableEq ι] [DecidableEq C]

/-! ### Columns reached by the design -/

/-- The variable is a combination of the columns, with weight `τ p` on the interaction of the period `p`. -/
def Reach (D : Data ι C K) (post : List ℤ) (r : ℤ) (τ : ℤ → K) (f : ι → K) : Prop :=
  ∃ c : Col → K, (∀ p, c (.inter p) = τ p) ∧
    ∀ i, f i = ((cols D post r).map (fun k => colVal (D.d i) (D.t i) (extraVal (extras D) i) k * c k)).sum

theorem Reach.add {D : Data ι C K} {post : List ℤ} {r : ℤ} {τ τ' : ℤ → K} {f f' : ι → K} (h : Reach D post r τ f) (h' : Reach D post r τ' f') :
    Reach D post r (fun p => τ p + τ' p) (fun i => f i + f' i) := by
  obtain ⟨c, h1, h2⟩ := h
  obtain ⟨c', h1', h2'⟩ := h'
  refine ⟨fun k => c k + c' k, fun p => by simp only [h1, h1'], fun i => ?_⟩
  show f i + f' i = _
  rw [h2, h2', ← List.sum_map_add]
  congr 1
  exact List.map_congr_left fun k _ => by ring

theorem Reach.smul {D : Data ι C K} {post : List ℤ} {r : ℤ} {τ : ℤ → K} {f : ι → K} (h : Reach D post r τ f) (x : K) :
    Reach D post r (fun p => x * τ p) (fun i => x * f i) := by
  obtain ⟨c, h1, h2⟩ := h
  refine ⟨fun k => x * c k, fun p => by simp only [h1], fun i => ?_⟩
  show x * f i = _
  rw [h2, ← List.sum_map_mul_left]
  congr 1
  exact List.map_congr_left fun k _ => by ring

theorem Reach.zero (D : Data ι C K) (post : List ℤ) (r : ℤ) : Reach D post r (fun _ => 0) (fun _ => 0) :=
  ⟨fun _ => 0, fun _ => rfl, fun i => by simp⟩

theorem Reach.congr {D : Data ι C K} {post : List ℤ} {r : ℤ} {τ τ' : ℤ → K} {f f' : ι → K} (h : Reach D post r τ f) (h1 : ∀ p, τ p = τ' p)
    (h2 : ∀ i, f i = f' i) : Reach D post r τ' f' := by
  have e1 : τ = τ' := funext h1
  have e2 : f = f' := funext h2
  rwa [← e1, ← e2]

theorem Reach.sum {α : Type*} {D : Data ι C K} {post : List ℤ} {r : ℤ} (s : Finset α) {f : α → ι → K} (h : ∀ x ∈ s, Reach D post r (fun _ => 0) (f x)) :
    Reach D post r (fun _ => 0) (fun i => ∑ x ∈ s, f x i) := by
  classical
  induction s using Finset.induction_on with
  | empty => exact (Reach.zero D post r).congr (fun _ => rfl) (fun i => by simp)
  | insert a s ha ih =>
    refine ((h a (Finset.mem_insert_self a s)).add (ih fun x hx => h x (Finset.mem_insert_of_mem hx))).congr (fun _ => by simp) (fun i => ?_)
    rw [Finset.sum_insert ha]

theorem reach_col {D : Data ι C K} {post : List ℤ} (hn : post.Nodup) {r : ℤ} {k : Col} (hk : k ∈ cols D post r) (h : ∀ p, k ≠ .inter p) :
    Reach D post r (fun _ => 0) (fun i => colVal (D.d i) (D.t i) (extraVal (extras D) i) k) := by
  refine ⟨fun k' => if k' = k then 1 else 0, fun p => if_neg (fun e => h p e.symm), fun i => ?_⟩
  exact (sum_map_single (columns_nodup (periods_nodup D) hn r _) hk _).symm

theorem reach_const {D : Data ι C K} {post : List ℤ} (hn : post.Nodup) {r : ℤ} : Reach D post r (fun _ => 0) (fun _ => 1) :=
  reach_col hn (mem_cols.2 (Or.inl rfl)) (by simp)

theorem reach_treat {D : Data ι C K} {post : List ℤ} (hn : post.Nodup) {r : ℤ} : Reach D post r (fun _ => 0) (fun i => if D.d i then 1 else 0) :=
  reach_col hn (mem_cols.2 (Or.inr (Or.inl rfl))) (by simp)

theorem reach_inter {D : Data ι C K} {post : List ℤ} (hn : post.Nodup) {r : ℤ} (τ : ℤ → K) :
    Reach D post r τ (fun i => if D.d i = true ∧ D.t i ∈ post then τ (D.t i) else 0) := by
  refine ⟨fun k => match k with
    | .inter p => τ p
    | _ => 0, fun p => rfl, fun i => ?_⟩
  have h0 : ∀ {α : Type} (l : List α) (g : α → K), (∀ x, g x = 0) → (l.map g).sum = 0 := by
    intro α l g hg
    refine List.sum_eq_zero fun x hx => ?_
    obtain ⟨q, -, rfl⟩ := List.mem_map.1 hx
    exact hg q
  simp only [cols, columns, List.map_append, List.sum_append, List.map_map]
  rw [h0 ((periods D).filter _) _ (fun p => by simp), h0 (List.range _) _ (fun p => by simp)]
  simp only [List.map_cons, List.map_nil, List.sum_cons, List.sum_nil, mul_zero, add_zero, zero_add]
  rw [← List.sum_toFinset _ hn]
  by_cases hd : D.d i = true
  · by_cases ht : D.t i ∈ post
    · rw [if_pos ⟨hd, ht⟩, Finset.sum_eq_single (D.t i)]
      · simp [colVal, hd]
      · intro q _ hq; simp [colVal, Ne.symm hq]
      · intro h; exact absurd (List.mem_toFinset.2 ht) h
    · rw [if_neg (fun h => ht h.2), Finset.sum_eq_zero]
      intro q hq
      have : D.t i ≠ q := fun e => ht (by rw [e]; exact List.mem_toFinset.1 hq)
      simp [colVal, this]
  · rw [if_neg (fun h => hd h.1), Finset.sum_eq_zero]
    intro q _
    simp [colVal, hd]

theorem reach_time {D : Data ι C K} {post : List ℤ} (hn : post.Nodup) {r : ℤ} (g : ℤ → K) : Reach D post r (fun _ => 0) (fun i => g (D.t i)) := by
  have h1 : ∀ p ∈ periods D, Reach D post r (fun _ => 0) (fun i => if D.t i = p then (1 : K) else 0) := by
    intro p hp
    by_cases hr : p = r
    · subst hr
      refine ⟨fun c' => express p (.period p) c', fun q => by simp [express], fun i => ?_⟩
      exact (express_sum (r := p + 1) (r' := p) hn i (c := .period p) (mem_cols.2 (Or.inr (Or.inr (Or.inl ⟨p, hp, by omega, rfl⟩))))).symm
    · exact reach_col hn (mem_cols.2 (Or.inr (Or.inr (Or.inl ⟨p, hp, hr, rfl⟩)))) (by simp)
  refine (Reach.sum (periods D).toFinset (f := fun p i => g p * if D.t i = p then (1 : K) else 0) fun p hp =>
    ((h1 p (List.mem_toFinset.1 hp)).smul (g p)).congr (fun _ => by simp) (fun _ => rfl)).congr (fun _ => rfl) (fun i => ?_)
  rw [Finset.sum_eq_single (D.t i)]
  · simp
  · intro q _ hq; simp [Ne.symm hq]
  · intro h; exact absurd (List.mem_toFinset.2 (mem_periods.2 ⟨i, rfl⟩)) h

theorem reach_extra {D : Data ι C K} {post : List ℤ} (hn : post.Nodup) {r : ℤ} {x : ι → K} (hx : x ∈ extras D) :
    Reach D post r (fun _ => 0) x := by
  obtain ⟨j, hj, rfl⟩ := List.getElem_of_mem hx
  refine (reach_col hn (mem_cols.2 (Or.inr (Or.inr (Or.inr (Or.inr ⟨j, hj, rfl⟩))))) (by simp)).congr (fun _ => rfl) (fun i => ?_)
  simp [colVal, extraVal, hj]

theorem values_nodup (g : ι → ℤ) : (values g).Nodup := Finset.sort_nodup _ _

theorem reach_fixed {D : Data ι C K} {post : List ℤ} (hn : post.Nodup) {r : ℤ} {g : ι → ℤ} (hg : g ∈ D.fixed) (φ : ℤ → K) :
    Reach D post r (fun _ => 0) (fun i => φ (g i)) := by
  have hmem : ∀ i, g i ∈ values g := fun i => mem_values.2 ⟨i, rfl⟩
  cases hv : values g with
  | nil => exact (Reach.zero D post r).congr (fun _ => rfl) (fun i => by have := hmem i; rw [hv] at this; cases this)
  | cons v0 vs =>
    have hnd := values_nodup g
    rw [hv] at hnd
    have h1 : ∀ v ∈ vs, Reach D post r (fun _ => 0) (fun i => if g i = v then (1 : K) else 0) := by
      intro v hvs
      refine reach_extra hn ?_
      unfold extras
      refine List.mem_append_right _ (List.mem_flatMap.2 ⟨g, hg, ?_⟩)
      unfold dummies
      rw [hv]
      exact List.mem_map.2 ⟨v, hvs, rfl⟩
    refine (((reach_const hn).smul (φ v0)).add (Reach.sum vs.toFinset (f := fun v i => (φ v - φ v0) * if g i = v then (1 : K) else 0) fun v hv =>
      ((h1 v (List.mem_toFinset.1 hv)).smul (φ v - φ v0)).congr (fun _ => by simp) (fun _ => rfl))).congr (fun _ => by simp) (fun i => ?_)
    have := hmem i
    rw [hv, List.mem_cons] at this
    rcases this with h | h
    · have hno : g i ∉ vs := by rw [h]; exact (List.nodup_cons.1 hnd).1
      rw [Finset.sum_eq_zero, h]
      · simp
      · intro v hv
        have : g i ≠ v := fun e => hno (by rw [e]; exact List.mem_toFinset.1 hv)
        simp [this]
    · rw [Finset.sum_eq_single (g i)]
      · simp
      · intro q _ hq; simp [Ne.symm hq]
      · intro h'; exact absurd (List.mem_toFinset.2 h) h'

/-! ### Outcomes that differ by a combination of the columns -/

theorem shift_ols {k : ℕ} {X : Matrix ι (Fin k) K} (hX : (Xᵀ * X).det ≠ 0) {y y' : ι → K} {b b' c : Fin k → K} (hb : IsOls X y b) (hb' : IsOls X y' b')
    (hy : ∀ i, y' i = y i + ∑ j, X i j * c j) : (∀ j, b' j = b j + c j) ∧ resid X y' b' = resid X y b := by
  have hr : resid X y' (fun j => b j + c j) = resid X y b := by
    funext i
    show y' i - ∑ j, X i j * (b j + c j) = y i - ∑ j, X i j * b j
    rw [hy]
    simp only [mul_add, Finset.sum_add_distrib]
    ring
  have h1 : IsOls X y' (fun j => b j + c j) := by
    intro j
    rw [hr]; exact hb j
  have h2 := LinReg.ols_unique hX hb' h1
  rw [h2]
  exact ⟨fun _ => rfl, hr⟩

theorem shift_fit {k : ℕ} {X : Matrix ι (Fin k) K} (E : LinReg.Solvers ι K) (o : LinReg.Opts ι C) {y y' : ι → K} (a : ℤ)
    (hu : resid X y' (E.lstsq X y') = resid X y (E.lstsq X y)) {f : LinReg.Fit ι k K} (h : LinReg.fit E o [] X y a = .ok f) :
    ∃ f', LinReg.fit E o [] X y' a = .ok f' := by
  unfold LinReg.fit at h ⊢
  by_cases hk : Fintype.card ι < k
  · rw [if_pos hk] at h; cases h
  · rw [if_neg hk] at h ⊢
    simp only [hu] at h ⊢
    cases hv : LinReg.vcov E.pinv o X (resid X y (E.lstsq X y)) with
    | error e => rw [hv] at h; cases h
    | ok V => exact ⟨_, rfl⟩

theorem Covariance.unique {L : TwfeFit.Lib ι K} {robust : Bool} {D : Data ι C K} {cs : List Col} {u : ι → K} {V V' : Matrix (Fin cs.length) (Fin cs.length) K}
    (h : Covariance L robust D cs u V) (h' : Covariance L robust D cs u V') : V = V' := by
  unfold Covariance at h h'
  split_ifs at h h'
  · rw [h] at h'; cases h'; rfl
  · rw [h] at h'; cases h'; rfl

/-- The same data with another outcome. -/
abbrev Data.withY (D : Data ι C K) (y : ι → K) : Data ι C K := { D with y := y }

theorem shift_runs {L : TwfeFit.Lib ι K} (hL : Works L) {robust strict : Bool} {alpha : K} {D : Data ι C K} {R : Result K}
    (h : fit L robust strict alpha D = .ok R) {pre post : List ℤ} {r : ℤ} (hc : classify (values D.t) D.post D.ref = .ok (pre, post, r))
    (hX : ((matrix D (cols D post r))ᵀ * matrix D (cols D post r)).det ≠ 0) {y : ι → K} {c : Fin (cols D post r).length → K}
    (hy : ∀ i, outcome (D.withY y) i = outcome D i + ∑ j, matrix D (cols D post r) i j * c j) :
    ∃ R', fit L robust strict alpha (D.withY y) = .ok R' := by
  obtain ⟨pre', post', r', f, hq, hf, hR⟩ := fit_ok h
  rw [hc] at hq
  cases hq
  have hu := (shift_ols hX (hL.solves _ (outcome D)) (hL.solves _ (outcome (D.withY y))) hy).2
  have hreg : ∃ f', regress L robust strict (D.withY y) (cols D post r) = .ok f' := by
    have hm : matrix (D.withY y) (cols D post r) = matrix D (cols D post r) := rfl
    unfold regress at hf ⊢
    rw [hm]
    rw [hL.keeps _ hX] at hf ⊢
    cases h1 : LinReg.fit L.solvers (⟨true, D.cluster, none, strict⟩ : LinReg.Opts ι C) [] (matrix D (cols D post r)) (outcome D) (adjustment D.absorb) with
    | error e => rw [h1] at hf; cases hf
    | ok f1 =>
      rw [h1] at hf
      obtain ⟨f1', h1'⟩ := shift_fit (C := C) L.solvers _ _ hu h1
      have h1'' : LinReg.fit L.solvers (⟨true, (D.withY y).cluster, none, strict⟩ : LinReg.Opts ι C) [] (matrix D (cols D post r)) (outcome (D.withY y))
          (adjustment (D.withY y).absorb) = .ok f1' := h1'
      rw [h1'']
      by_cases hrob : (robust || D.cluster.isSome) = true
      · simp only [hrob, if_true]; exact ⟨_, rfl⟩
      · simp only [hrob, Bool.false_eq_true, if_false] at hf ⊢
        exact shift_fit (C := C) L.solvers _ _ hu hf
  obtain ⟨f', hf'⟩ := hreg
  have hc' : classify (values (D.withY y).t) (D.withY y).post (D.withY y).ref = .ok (pre, post, r) := hc
  have hf'' : regress L robust strict (D.withY y) (cols (D.withY y) post r) = .ok f' := hf'
  unfold fit
  rw [hc']
  simp only [hf'']
  exact ⟨_, rfl⟩

theorem shift_report {L : TwfeFit.Lib ι K} (hL : Works L) {robust strict : Bool} {alpha : K} {D : Data ι C K} {R R' : Result K} {y : ι → K}
    (h : fit L robust strict alpha D = .ok R) (h' : fit L robust strict alpha (D.withY y) = .ok R') {pre post : List ℤ} {r : ℤ}
    (hc : classify (values D.t) D.post D.ref = .ok (pre, post, r)) (hn : post.Nodup)
    (hX : ((matrix D (cols D post r))ᵀ * matrix D (cols D post r)).det ≠ 0) (τ : ℤ → K) {w : Col → K} (hw : ∀ p, w (.inter p) = τ p)
    (hy : ∀ i, outcome (D.withY y) i = outcome D i + ∑ j, matrix D (cols D post r) i j * w (cols D post r)[j]) :
    List.Forall₂ (fun e e' => e'.period = e.period ∧ e'.se = e.se ∧ ∃ x, e.effect = .fin x ∧ e'.effect = .fin (x + τ e.period)) R.effects R'.effects ∧
    R'.se = R.se ∧ (∃ x, R.att = .fin x ∧ R'.att = .fin (x + (post.map τ).sum / (post.length : K))) ∧
    ((∀ p, τ p = 0) → R'.effects = R.effects ∧ R'.att = R.att ∧ R'.t = R.t ∧ R'.p = R.p ∧ R'.ci = R.ci) := by
  obtain ⟨b, V, df, v, hb, hV, hdf, -, -, -, heff, hatt, -, hv, hse, hpos, hzero, -⟩ := report_ok hL h hc hn hX
  obtain ⟨b', V', df', v', hb', hV', hdf', -, -, -, heff', hatt', -, hv', hse', hpos', hzero', -⟩ :=
    report_ok hL h' (pre := pre) (post := post) (r := r) hc hn hX
  change Fin (cols D post r).length → K at b'
  change Matrix (Fin (cols D post r).length) (Fin (cols D post r).length) K at V'
  change IsOls (matrix D (cols D post r)) _ b' at hb'
  change df' = (Fintype.card ι : ℤ) - (cols D post r).length - adjustment D.absorb at hdf'
  change v' = (∑ p ∈ post.toFinset, ∑ q ∈ post.toFinset, entryAt (cols D post r) V' (.inter p) (.inter q)) / (post.length : K) ^ 2 at hv'
  change R'.effects = post.map (fun p => effectOf L.toLib alpha df' p (coefAt (cols D post r) b' (.inter p))
    (entryAt (cols D post r) V' (.inter p) (.inter p))) at heff'
  change R'.att = .fin ((post.map (fun p => coefAt (cols D post r) b' (.inter p))).sum / (post.length : K)) at hatt'
  obtain ⟨hbb, hres⟩ := shift_ols hX hb hb' hy
  have hVV : V' = V := by
    refine Covariance.unique (L := L) (robust := robust) (D := D) (cs := cols D post r) (u := resid (matrix D (cols D post r)) (outcome D) b) ?_ hV
    rw [← hres]
    exact hV'
  have hdd : df' = df := by rw [hdf, hdf']
  have hvv : v' = v := by rw [hv, hv', hVV]
  rw [hdd, hVV] at heff'
  rw [hvv] at hse'
  rw [hvv, hdd] at hpos'
  rw [hvv] at hzero'
  have hcoef : ∀ p ∈ post, coefAt (cols D post r) b' (.inter p) = coefAt (cols D post r) b (.inter p) + τ p := by
    intro p hp
    have hm : Col.inter p ∈ cols D post r := mem_cols.2 (Or.inr (Or.inr (Or.inr (Or.inl ⟨p, hp, rfl⟩))))
    have e : b' = fun j => b j + w (cols D post r)[j] := funext hbb
    have k := coefAt_of w hm
    rw [hw] at k
    rw [← k, e]
    unfold coefAt
    rw [dif_pos (List.idxOf_lt_length_iff.2 hm), dif_pos (List.idxOf_lt_length_iff.2 hm), dif_pos (List.idxOf_lt_length_iff.2 hm)]
  refine ⟨?_, ?_, ?_, ?_⟩
  · rw [heff, heff']
    rw [List.forall₂_map_left_iff, List.forall₂_map_right_iff]
    refine List.forall₂_same.2 fun p hp => ?_
    refine ⟨rfl, rfl, _, rfl, ?_⟩
    simp only [effectOf, hcoef p hp]
  · rw [hse, hse']
  · refine ⟨_, hatt, ?_⟩
    rw [hatt', List.map_congr_left hcoef, List.sum_map_add, add_div]
  · intro h0
    have hcoef0 : ∀ p ∈ post, coefAt (cols D post r) b' (.inter p) = coefAt (cols D post r) b (.inter p) := by
      intro p hp; rw [hcoef p hp, h0, add_zero]
    have ha : R'.att = R.att := by rw [hatt, hatt', List.map_congr_left hcoef0]
    have hs : R'.se = R.se := by rw [hse, hse']
    refine ⟨?_, ha, ?_⟩
    · rw [heff, heff']
      refine List.map_congr_left fun p hp => ?_
      rw [hcoef0 p hp]
    · by_cases h2 : 0 < L.sqrt v
      · obtain ⟨e1, e2, e3⟩ := hpos h2
        obtain ⟨e1', e2', e3'⟩ := hpos' h2
        rw [e2, e3, e1, e2', e3', e1', ha, hs]
        exact ⟨rfl, rfl, rfl⟩
      · obtain ⟨e1, e2, e3⟩ := hzero h2
        obtain ⟨e1', e2', e3'⟩ := hzero' h2
        rw [e2, e3, e1, e2', e3', e1']
        exact ⟨rfl, rfl, rfl⟩

/-- C148. Covariates and fixed effects are controlled for: adding to the outcome any combination of the covariates, any function of each fixed-effect column,
of the period and of the group, and an effect on the treated rows of the post periods, raises the effects by that effect and leaves standard errors (and
without an effect all statistics) unchanged. Columns of full rank; clusters allowed; no absorbed columns. -/
theorem C148_controls (L : TwfeFit.Lib ι K) (hL : Works L) (robust strict : Bool) (alpha : K) (D : Data ι C K) (hab : D.absorb = []) (R : Result K)
    (h : fit L robust strict alpha D = .ok R) {pre post : List ℤ} {r : ℤ} (hc : classify (values D.t) D.post D.ref = .ok (pre, post, r))
    (hn : post.Nodup) (hX : ((matrix D (cols D post r))ᵀ * matrix D (cols D post r)).det ≠ 0) (a : K) (γ τ : ℤ → K) (β : Fin D.cov.length → K)
    (φ : Fin D.fixed.length → ℤ → K) (y : ι → K) (hy : ∀ i, y i = D.y i + ((if D.d i then a else 0) + γ (D.t i) +
      ∑ j, β j * (D.cov[j] i) + ∑ j, φ j (D.fixed[j] i) + (if D.d i = true ∧ D.t i ∈ post then τ (D.t i) else 0))) :
    ∃ R', fit L robust strict alpha { D with y := y } = .ok R' ∧
      List.Forall₂ (fun e e' => e'.period = e.period ∧ e'.se = e.se ∧ ∃ x, e.effect = .fin x ∧ e'.effect = .fin (x + τ e.period)) R.effects R'.effects ∧
      R'.se = R.se ∧ (∃ x, R.att = .fin x ∧ R'.att = .fin (x + (post.map τ).sum / (post.length : K))) ∧
      ((∀ p, τ p = 0) → R'.effects = R.effects ∧ R'.att = R.att ∧ R'.t = R.t ∧ R'.p = R.p ∧ R'.ci = R.ci) := by
  have hext : D.cov.map (absorbed D.absorb) = D.cov := by rw [hab]; exact List.map_id _
  have hreach : Reach D post r τ (fun i => (if D.d i then a else 0) + γ (D.t i) + ∑ j, β j * (D.cov[j] i) + ∑ j, φ j (D.fixed[j] i) +
      (if D.d i = true ∧ D.t i ∈ post then τ (D.t i) else 0)) := by
    have k1 := (reach_treat (D := D) (r := r) hn).smul a
    have k2 := reach_time (D := D) (r := r) hn γ
    have k3 : Reach D post r (fun _ => 0) (fun i => ∑ j, β j * (D.cov[j] i)) :=
      Reach.sum Finset.univ (f := fun j i => β j * (D.cov[j] i)) fun j _ => ((reach_extra hn (x := D.cov[j]) (by
        unfold extras
        rw [hext]
        exact List.mem_append_left _ (List.getElem_mem j.2))).smul (β j)).congr (fun _ => by simp) (fun _ => rfl)
    have k4 : Reach D post r (fun _ => 0) (fun i => ∑ j, φ j (D.fixed[j] i)) :=
      Reach.sum Finset.univ (f := fun j i => φ j (D.fixed[j] i)) fun j _ => reach_fixed hn (List.getElem_mem j.2) (φ j)
    have k5 := reach_inter (D := D) (r := r) hn τ
    exact ((((k1.add k2).add k3).add k4).add k5).congr (fun p => by simp) (fun i => by by_cases hd : D.d i <;> simp [hd])
  obtain ⟨w, hw, hwy⟩ := hreach
  have hyo : ∀ i, outcome (D.withY y) i = outcome D i + ∑ j, matrix D (cols D post r) i j * w (cols D post r)[j] := by
    intro i
    have e1 : outcome D = D.y := by unfold outcome absorbed; rw [hab]; rfl
    have e2 : outcome (D.withY y) = y := by unfold outcome absorbed; simp only [hab]; rfl
    have k := hwy i
    rw [← sum_fin_map] at k
    rw [e1, e2, hy i]
    exact congrArg (fun x => D.y i + x) k
  obtain ⟨R', hR'⟩ := shift_runs hL h hc hX hyo
  exact ⟨R', hR', shift_report hL h hR' hc hn hX τ hw hyo⟩

/-- C148. Columns of full rank: a call returns a result exactly if there are more rows than coefficients (one per period, post period and covariate, one for
the group, one per value of a fixed-effect column but one) and clusters, if used, number at least two. -/
theorem C148_runs_full (L : TwfeFit.Lib ι K) (hL : Works L) (robust strict : Bool) (alpha : K) (D : Data ι C K) {pre post : List ℤ} {r : ℤ}
    (hc : classify (values D.t) D.post D.ref = .ok (pre, post, r)) (hX : ((matrix D (cols D post r))ᵀ * matrix D (cols D post r)).det ≠ 0) :
    (∃ R, fit L robust strict alpha D = .ok R) ↔
      (Set.range D.t).ncard + post.length + 1 + (D.cov.length + (D.fixed.map (fun g => (Set.range g).ncard - 1)).sum) < Fintype.card ι ∧
      ∀ g, D.cluster = some g → 2 ≤ nClusters g := by
  have hl := length_cols hc
  rw [length_extras] at hl
  rw [← hl]
  constructor
  · rintro ⟨R, h⟩
    obtain ⟨pre', post', r', f, hc', hf, -⟩ := fit_ok h
    rw [hc] at hc'
    cases hc'
    obtain ⟨b, V, hb, hV, hcf, hv, hres, hdf, hlt⟩ := regress_ok hL hX hf
    refine ⟨hlt, ?_⟩
    intro g hg
    by_contra h2
    unfold Covariance at hV
    rw [hg] at hV
    simp only [Option.isSome_some, Bool.or_true, if_true, vcovNumpy, not_le.1 h2] at hV
    cases hV
  · rintro ⟨hlen, hg⟩
    have hv : ∀ u, ∃ V, vcovNumpy (matrix D (cols D post r)) u D.cluster = .ok V := by
      intro u
      unfold vcovNumpy
      cases hcl : D.cluster with
      | none => simp only [Fintype.card_fin, hlen.ne', if_false, hX]; exact ⟨_, rfl⟩
      | some g => simp only [Fintype.card_fin, hlen.ne', if_false, hX, not_lt.2 (hg g hcl)]; exact ⟨_, rfl⟩
    unfold fit
    rw [hc]
    simp only [regress, hL.keeps _ hX, LinReg.fit, not_lt.2 hlen.le, if_false, LinReg.vcov, LinReg.Opts.ids, Bool.true_or, if_true]
    obtain ⟨V, hV⟩ := hv (resid (matrix D (cols D post r)) (outcome D) (L.solvers.lstsq (matrix D (cols D post r)) (outcome D)))
    rw [hV]
    by_cases hr : (robust || D.cluster.isSome) = true
    · simp only [hr, if_true]; exact ⟨_, rfl⟩
    · simp only [hr, if_false, Option.isSome_none, Bool.or_false, Bool.false_eq_true]
      exact ⟨_, rfl⟩

theorem fit_congr (L : TwfeFit.Lib ι K) (robust strict : Bool) (alpha : K) {D D' : Data ι C K} (h1 : D'.d = D.d) (h2 : D'.t = D.t)
    (h3 : extras D' = extras D) (h4 : outcome D' = outcome D) (h5 : adjustment D'.absorb = adjustment D.absorb) (h6 : D'.cluster = D.cluster)
    (h7 : D'.post = D.post) (h8 : D'.ref = D.ref) : fit L robust strict alpha D' = fit L robust strict alpha D := by
  have hreg : ∀ cs, regress L robust strict D' cs = regress L robust strict D cs := by
    intro cs
    unfold regress matrix
    rw [h1, h2, h3, h4, h5, h6]
  have hcols : ∀ post r, cols D' post r = cols D post r := by
    intro post r
    unfold cols periods
    rw [h2, h3]
  have hrep : ∀ pre post r c v df u, report L.toLib alpha D' pre post r c v df u = report L.toLib alpha D pre post r c v df u := by
    intro pre post r c v df u
    unfold report periods
    rw [h1, h2, h4]
  unfold fit
  rw [h2, h7, h8]
  cases classify (values D.t) D.post D.ref with
  | error e => rfl
  | ok q =>
    obtain ⟨pre, post, r⟩ := q
    simp only [hrep]
    let out : (cs : List Col) → Except LinReg.Err (LinReg.Fit ι cs.length K) → Except Err (Result K) := fun cs q => match q with
      | .error e => .error (.reg e)
      | .ok f => .ok (report L.toLib alpha D pre post r (at1 f) (at2 f) f.df f.resid)
    have e1 : out (cols D' post r) (regress L robust strict D' (cols D' post r)) = out (cols D post r) (regress L robust strict D (cols D post r)) := by
      rw [hcols, hreg]
    simp only [out] at e1
    revert e1
    cases regress L robust strict D' (cols D' post r) <;> cases regress L robust strict D (cols D post r) <;> exact id

/-- C148. Adding any function of the first absorbed column to the outcome or to a covariate changes nothing in the report, R-squared included. -/
theorem C148_absorb (L : TwfeFit.Lib ι K) (robust strict : Bool) (alpha : K) (D : Data ι C K) (g : ι → ℤ) (gs : List (ι → ℤ)) (hg : D.absorb = g :: gs)
    (φ : ℤ → K) (ψ : ℕ → ℤ → K) :
    fit L robust strict alpha { D with y := fun i => D.y i + φ (g i), cov := D.cov.mapIdx (fun j x i => x i + ψ j (g i)) } = fit L robust strict alpha D := by
  have hd : ∀ (x : ι → K) (φ : ℤ → K), absorbed (g :: gs) (fun i => x i + φ (g i)) = absorbed (g :: gs) x := by
    intro x φ
    unfold absorbed
    rw [List.foldl_cons, List.foldl_cons]
    congr 1
    funext i
    unfold Within.demean Within.groupMean
    have hne : ((Finset.univ.filter (fun j => g j = g i)).card : K) ≠ 0 := by
      have : 0 < (Finset.univ.filter (fun j => g j = g i)).card := Finset.card_pos.2 ⟨i, by simp⟩
      exact_mod_cast this.ne'
    show x i + φ (g i) - (∑ j ∈ Finset.univ.filter (fun j => g j = g i), (x j + φ (g j))) / ((Finset.univ.filter (fun j => g j = g i)).card : K) =
      x i - (∑ j ∈ Finset.univ.filter (fun j => g j = g i), x j) / ((Finset.univ.filter (fun j => g j = g i)).card : K)
    have hs : ∑ j ∈ Finset.univ.filter (fun j => g j = g i), (x j + φ (g j)) =
        ∑ j ∈ Finset.univ.filter (fun j => g j = g i), x j + ((Finset.univ.filter (fun j => g j = g i)).card : K) * φ (g i) := by
      rw [Finset.sum_add_distrib]
      congr 1
      rw [← nsmul_eq_mul, ← Finset.sum_const]
      refine Finset.sum_congr rfl fun j hj => ?_
      rw [(Finset.mem_filter.1 hj).2]
    rw [hs]
    field_simp
    ring
  have hcov : ∀ (l : List (ι → K)) (ψ : ℕ → ℤ → K), (l.mapIdx (fun j x i => x i + ψ j (g i))).map (absorbed (g :: gs)) = l.map (absorbed (g :: gs)) := by
    intro l
    induction l with
    | nil => intro ψ; rfl
    | cons x l ih =>
      intro ψ
      rw [List.mapIdx_cons, List.map_cons, List.map_cons, hd, ih (fun j => ψ (j + 1))]
  have e1 : outcome { D with y := fun i => D.y i + φ (g i), cov := D.cov.mapIdx (fun j x i => x i + ψ j (g i)) } = outcome D := by
    unfold outcome
    simp only [hg]
    exact hd _ _
  have e2 : extras { D with y := fun i => D.y i + φ (g i), cov := D.cov.mapIdx (fun j x i => x i + ψ j (g i)) } = extras D := by
    unfold extras
    simp only [hg, hcov]
  exact fit_congr L robust strict alpha rfl rfl e2 e1 rfl rfl rfl rfl

/-! ### Cases -/

/-- The study with a covariate that varies within cells and a fixed-effect column with two values. -/
noncomputable def controlled : Data Cell ℕ ℝ :=
  { study 1 none with cov := [fun i => if i.2.2 then 3 else 1], fixed := [fun i => if i = (true, 2, true) then 7 else 4] }

theorem controlled_values : values (fun i : Cell => if i = (true, 2, true) then (7 : ℤ) else 4) = [4, 7] := by
  refine values_eq (by decide) fun p => ?_
  constructor
  · intro hp
    simp only [List.mem_cons, List.not_mem_nil, or_false] at hp
    rcases hp with rfl | rfl
    · exact ⟨(true, 0, true), rfl⟩
    · exact ⟨(true, 2, true), rfl⟩
  · rintro ⟨i, rfl⟩
    split_ifs <;> simp

theorem controlled_extras : extras controlled = [fun i => if i.2.2 then 3 else 1, fun i => if (if i = (true, 2, true) then (7 : ℤ) else 4) = 7 then 1 else 0] := by
  show [_] ++ ([fun i : Cell => if i = (true, 2, true) then (7 : ℤ) else 4].flatMap dummies) = _
  rw [List.flatMap_cons, List.flatMap_nil, List.append_nil]
  unfold dummies
  rw [controlled_values]
  rfl

theorem controlled_cols : cols controlled [1, 2] 0 = [.const, .treat, .period 1, .period 2, .inter 1, .inter 2, .extra 0, .extra 1] := by
  unfold cols
  rw [controlled_extras]
  unfold periods
  rw [show values controlled.t = [0, 1, 2] from study_values 1 none]
  rfl

theorem controlled_rank : ((matrix controlled (cols controlled [1, 2] 0))ᵀ * matrix controlled (cols controlled [1, 2] 0)).det ≠ 0 := by
  rw [controlled_cols]
  intro h0
  obtain ⟨v, hv, hz⟩ := Matrix.exists_mulVec_eq_zero_iff.2 h0
  apply hv
  have hXv : ∀ i, (matrix controlled [.const, .treat, .period 1, .period 2, .inter 1, .inter 2, .extra 0, .extra 1] *ᵥ v) i = 0 := by
    have h1 : (matrix controlled [.const, .treat, .period 1, .period 2, .inter 1, .inter 2, .extra 0, .extra 1] *ᵥ v) ⬝ᵥ
        (matrix controlled [.const, .treat, .period 1, .period 2, .inter 1, .inter 2, .extra 0, .extra 1] *ᵥ v) = 0 := by
      rw [Matrix.dotProduct_mulVec, Matrix.vecMul_mulVec, ← Matrix.dotProduct_mulVec, hz, dotProduct_zero]
    intro i
    exact congrFun (dotProduct_self_eq_zero.1 h1) i
  have e : ∀ i : Cell, (matrix controlled [.const, .treat, .period 1, .period 2, .inter 1, .inter 2, .extra 0, .extra 1] *ᵥ v) i =
      v 0 + (if i.1 then 1 else 0) * v 1 + (if ((i.2.1 : ℕ) : ℤ) = 1 then 1 else 0) * v 2 + (if ((i.2.1 : ℕ) : ℤ) = 2 then 1 else 0) * v 3 +
      (if i.1 then 1 else 0) * (if ((i.2.1 : ℕ) : ℤ) = 1 then 1 else 0) * v 4 + (if i.1 then 1 else 0) * (if ((i.2.1 : ℕ) : ℤ) = 2 then 1 else 0) * v 5 +
      (if i.2.2 then 3 else 1) * v 6 + (if (if i = (true, 2, true) then (7 : ℤ) else 4) = 7 then 1 else 0) * v 7 := by
    intro i
    simp only [mulVec, dotProduct]
    unfold matrix design
    rw [controlled_extras]
    simp only [List.length_cons, List.length_nil, Fin.sum_univ_succ, Fin.sum_univ_zero]
    rcases i with ⟨a, q, b⟩
    cases a <;> fin_cases q <;> cases b <;> simp [colVal, extraVal, controlled, study] <;> ring
  have r0 := hXv (false, 0, false)
  have r1 := hXv (false, 0, true)
  have r2 := hXv (true, 0, false)
  have r3 := hXv (false, 1, false)
  have r4 := hXv (false, 2, false)
  have r5 := hXv (true, 1, false)
  have r6 := hXv (true, 2, false)
  have r7 := hXv (true, 2, true)
  rw [e] at r0 r1 r2 r3 r4 r5 r6 r7
  simp at r0 r1 r2 r3 r4 r5 r6 r7
  have e6 : v 6 = 0 := by linarith
  have e0 : v 0 = 0 := by linarith
  have e1 : v 1 = 0 := by linarith
  have e2 : v 2 = 0 := by linarith
  have e3 : v 3 = 0 := by linarith
  have e4 : v 4 = 0 := by linarith
  have e5 : v 5 = 0 := by linarith
  have e7 : v 7 = 0 := by linarith
  funext j
  fin_cases j
  · exact e0
  · exact e1
  · exact e2
  · exact e3
  · exact e4
  · exact e5
  · exact e6
  · exact e7

/-- C148_controls, C148_runs_full: a call with a covariate and a fixed-effect column returns a result, with eight coefficients for twelve rows; twice the
covariate, a jump of 9 in one fixed-effect group and an effect of 5 added to the outcome raise the effects by 5. -/
example : ∃ (L : TwfeFit.Lib Cell ℝ) (R R' : Result ℝ), Works L ∧ fit L true true (1 / 20) controlled = .ok R ∧
    fit L true true (1 / 20) { controlled with y := fun i => controlled.y i + ((if controlled.d i then 0 else 0) + 0 + ∑ j : Fin 1, 2 * (controlled.cov[j] i) +
      ∑ j : Fin 1, (if controlled.fixed[j] i = 7 then 9 else 0) + (if controlled.d i = true ∧ controlled.t i ∈ ([1, 2] : List ℤ) then 5 else 0)) } = .ok R' ∧
    List.Forall₂ (fun e e' => e'.period = e.period ∧ e'.se = e.se ∧ ∃ x, e.effect = .fin x ∧ e'.effect = .fin (x + 5)) R.effects R'.effects := by
  obtain ⟨L, hL⟩ := TwfeFit.exists_works (ι := Cell)
  obtain ⟨hc, -⟩ := study_classify 1
  have hcc : classify (values controlled.t) controlled.post controlled.ref = .ok ([0], [1, 2], 0) := hc
  obtain ⟨R, hR⟩ := (C148_runs_full L hL true true (1 / 20) controlled hcc controlled_rank).2 ⟨by
    have e1 : (Set.range controlled.t).ncard = 3 := study_range 1 none
    have e2 : (Set.range (fun i : Cell => if i = (true, 2, true) then (7 : ℤ) else 4)).ncard = 2 := by
      have : Set.range (fun i : Cell => if i = (true, 2, true) then (7 : ℤ) else 4) = (({4, 7} : Finset ℤ) : Set ℤ) := by
        ext p
        have := (mem_values (g := fun i : Cell => if i = (true, 2, true) then (7 : ℤ) else 4) (p := p)).symm
        rw [controlled_values] at this
        simpa using this
      rw [this, Set.ncard_coe_finset]
      rfl
    have e3 : (controlled.fixed.map (fun g => (Set.range g).ncard - 1)).sum = 1 := by
      show ([fun i : Cell => if i = (true, 2, true) then (7 : ℤ) else 4].map (fun g => (Set.range g).ncard - 1)).sum = 1
      simp only [List.map_cons, List.map_nil, List.sum_cons, List.sum_nil, e2, Nat.add_zero, Nat.reduceSub]
    rw [e1, e3]
    show 3 + 2 + 1 + (1 + 1) < Fintype.card Cell
    decide, fun g hg => by cases hg⟩
  obtain ⟨R', hR', h1, -⟩ := C148_controls L hL true true (1 / 20) controlled rfl R hR hcc (by decide) controlled_rank 0 (fun _ => 0) (fun _ => 5) (fun _ => 2)
    (fun _ v => if v = 7 then 9 else 0) _ (fun i => rfl)
  exact ⟨L, R, R', hL, hR, hR', h1⟩

/-- C148_absorb: one absorbed column. -/
example (L : TwfeFit.Lib Cell ℝ) (D : Data Cell ℕ ℝ) (hD : D = { study 1 none with absorb := [fun i => if i.1 then 1 else 0] }) :
    fit L true true (1 / 20) { D with y := fun i => D.y i + (if (if i.1 then (1 : ℤ) else 0) = 1 then 100 else 3), cov := [] } =
      fit L true true (1 / 20) D := by
  subst hD
  exact C148_absorb L true true (1 / 20) _ _ [] rfl (fun v => if v = 1 then 100 else 3) (fun _ _ => 0)

end DiffDiff.MultiFit
