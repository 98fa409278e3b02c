/-
Property C150, continued: what covariates, fixed effects and absorbed effects do to the report of DifferenceInDifferences.fit.
-/
import Verif.DidFullProps
import Mathlib.Data.List.Forall2

set_option linter.unusedSectionVars false
set_option linter.unusedVariables false

namespace DiffDiff.DidFull
open Matrix Vcov Did2x2
open TwfeFit (Works)
open scoped List

variable {K : Type*} [Field K] [LinearOrder K] [IsStrictOrderedRing K]
variable {ι ι' C : Type*} [Fintype ι] [DecidableEq ι] [Fintype ι'] [DecidableEq ι'] [DecidableEq C]

/-! ### Combinations of columns -/

theorem Comb.add {d t : ι → Bool} {xs : List (ι → K)} {e e' : K} {f f' : ι → K} (h : Comb d t xs e f) (h' : Comb d t xs e' f') :
    Comb d t xs (e + e') (fun i => f i + f' i) := by
  obtain ⟨a, b, c, γ, hf⟩ := h
  obtain ⟨a', b', c', γ', hf'⟩ := h'
  refine ⟨a + a', b + b', c + c', fun j => γ j + γ' j, fun i => ?_⟩
  show f i + f' i = _
  rw [hf, hf']
  simp only [add_mul, Finset.sum_add_distrib]
  ring

theorem Comb.smul {d t : ι → Bool} {xs : List (ι → K)} {e : K} {f : ι → K} (k : K) (h : Comb d t xs e f) : Comb d t xs (k * e) (fun i => k * f i) := by
  obtain ⟨a, b, c, γ, hf⟩ := h
  refine ⟨k * a, k * b, k * c, fun j => k * γ j, fun i => ?_⟩
  show k * f i = _
  rw [hf]
  simp only [mul_add, Finset.mul_sum, mul_assoc]

theorem Comb.sub {d t : ι → Bool} {xs : List (ι → K)} {e e' : K} {f f' : ι → K} (h : Comb d t xs e f) (h' : Comb d t xs e' f') :
    Comb d t xs (e - e') (fun i => f i - f' i) := by
  have := h.add (h'.smul (-1))
  have e1 : e + -1 * e' = e - e' := by ring
  rw [e1] at this
  convert this using 2
  ring

theorem comb_basic {d t : ι → Bool} {xs : List (ι → K)} (a b c e : K) :
    Comb d t xs e (fun i => a + b * ind (d i) + c * ind (t i) + e * (ind (d i) * ind (t i))) :=
  ⟨a, b, c, fun _ => 0, fun i => by simp⟩

theorem comb_const {d t : ι → Bool} {xs : List (ι → K)} (a : K) : Comb d t xs 0 (fun _ => a) := ⟨a, 0, 0, fun _ => 0, fun i => by simp⟩

theorem comb_mem {d t : ι → Bool} {xs : List (ι → K)} {x : ι → K} (hx : x ∈ xs) : Comb d t xs 0 x := by
  obtain ⟨j, hj, rfl⟩ := List.getElem_of_mem hx
  refine ⟨0, 0, 0, fun m => if m = ⟨j, hj⟩ then 1 else 0, fun i => ?_⟩
  simp

theorem comb_sum {d t : ι → Bool} {xs : List (ι → K)} {κ : Type*} (s : Finset κ) (F : κ → ι → K) (h : ∀ k ∈ s, Comb d t xs 0 (F k)) :
    Comb d t xs 0 (fun i => ∑ k ∈ s, F k i) := by
  classical
  induction s using Finset.induction_on with
  | empty => simpa using comb_const (d := d) (t := t) (xs := xs) (0 : K)
  | insert k s hk ih =>
    have := (h k (Finset.mem_insert_self k s)).add (ih fun m hm => h m (Finset.mem_insert_of_mem hm))
    rw [add_zero] at this
    simpa only [Finset.sum_insert hk] using this

/-- Columns of one design in the span of another. -/
theorem Comb.mono {d t : ι → Bool} {xs xs' : List (ι → K)} (hs : ∀ x ∈ xs', Comb d t xs 0 x) {e : K} {f : ι → K} (h : Comb d t xs' e f) : Comb d t xs e f := by
  obtain ⟨a, b, c, γ, hf⟩ := h
  have h1 := (comb_basic (d := d) (t := t) (xs := xs) a b c e).add
    (comb_sum Finset.univ (fun (j : Fin xs'.length) i => γ j * (xs'[j] i)) fun j _ => by
      have := (hs (xs'[j]) (List.getElem_mem j.2)).smul (γ j)
      rwa [mul_zero] at this)
  rw [add_zero] at h1
  rwa [show f = _ from funext hf]

theorem Orth.comb {d t : ι → Bool} {xs : List (ι → K)} {r : ι → K} {e : K} (h : Orth d t xs r e) {c : K} {f : ι → K} (hf : Comb d t xs c f) :
    ∑ i, f i * r i = c * e := by
  obtain ⟨v, hv, hvf⟩ := comb_iff.1 hf
  have h' := orth_iff.1 h
  have e1 : ∀ i, f i * r i = ∑ m, v m * (matrix d t xs i m * r i) := by
    intro i; rw [hvf i, Finset.sum_mul]; exact Finset.sum_congr rfl fun m _ => by ring
  simp only [e1]
  rw [Finset.sum_comm]
  simp only [← Finset.mul_sum, h']
  simp [hv]

theorem Orth.mono {d t : ι → Bool} {xs xs' : List (ι → K)} (hs : ∀ x ∈ xs', Comb d t xs 0 x) {r : ι → K} {e : K} (h : Orth d t xs r e) : Orth d t xs' r e :=
  ⟨h.const, h.treat, h.time, h.inter, fun x hx => by rw [h.comb (hs x hx), zero_mul]⟩

theorem Orth.smul {d t : ι → Bool} {xs : List (ι → K)} {r : ι → K} {e : K} (k : K) (h : Orth d t xs r e) : Orth d t xs (fun i => k * r i) (k * e) := by
  rw [orth_iff] at h ⊢
  intro m
  have : ∀ i, matrix d t xs i m * (k * r i) = k * (matrix d t xs i m * r i) := fun i => by ring
  simp only [this, ← Finset.mul_sum, h]
  split_ifs <;> simp

/-- Weights and residuals are unique. -/
theorem comb_orth_zero {d t : ι → Bool} {xs : List (ι → K)} {e : K} {f : ι → K} (h : Comb d t xs e f) (ho : Orth d t xs f 0) : f = 0 := by
  have h0 : ∑ i, f i * f i = 0 := by rw [ho.comb h, mul_zero]
  funext i
  have := (Finset.sum_eq_zero_iff_of_nonneg (fun i _ => mul_self_nonneg (f i))).1 h0 i (Finset.mem_univ i)
  exact mul_self_eq_zero.1 this

theorem Orth.sub {d t : ι → Bool} {xs : List (ι → K)} {r r' : ι → K} {e e' : K} (h : Orth d t xs r e) (h' : Orth d t xs r' e') :
    Orth d t xs (fun i => r i - r' i) (e - e') := by
  rw [orth_iff] at h h' ⊢
  intro m
  simp only [mul_sub, Finset.sum_sub_distrib, h, h']
  split_ifs <;> simp

theorem weights_unique {d t : ι → Bool} {xs : List (ι → K)} {w w' : ι → K} (h : ∃ e, Comb d t xs e w) (ho : Orth d t xs w 1) (h' : ∃ e, Comb d t xs e w')
    (ho' : Orth d t xs w' 1) : w = w' := by
  obtain ⟨e, he⟩ := h
  obtain ⟨e', he'⟩ := h'
  have := ho.sub ho'
  rw [sub_self] at this
  have hz := comb_orth_zero (he.sub he') this
  funext i
  exact sub_eq_zero.1 (congrFun hz i)

theorem resid_unique {d t : ι → Bool} {xs : List (ι → K)} {y u u' : ι → K} {x x' : K} (h : Comb d t xs x (fun i => y i - u i)) (ho : Orth d t xs u 0)
    (h' : Comb d t xs x' (fun i => y i - u' i)) (ho' : Orth d t xs u' 0) : u = u' := by
  have hc := h'.sub h
  have e : (fun i => y i - u' i - (y i - u i)) = fun i => u i - u' i := by funext i; ring
  rw [e] at hc
  have := ho.sub ho'
  rw [sub_self] at this
  have hz := comb_orth_zero hc this
  funext i
  exact sub_eq_zero.1 (congrFun hz i)

theorem rank_span {d t : ι → Bool} {xs xs' : List (ι → K)} (h : ∀ x ∈ xs', Comb d t xs 0 x) (h' : ∀ x ∈ xs, Comb d t xs' 0 x) :
    (matrix d t xs').rank = (matrix d t xs).rank := by
  have key : ∀ (ys : List (ι → K)) f, f ∈ LinearMap.range (matrix d t ys).mulVecLin ↔ ∃ e, Comb d t ys e f := by
    intro ys f
    constructor
    · rintro ⟨v, rfl⟩
      exact ⟨_, comb_iff.2 ⟨v, rfl, fun i => rfl⟩⟩
    · rintro ⟨e, he⟩
      obtain ⟨v, -, hv⟩ := comb_iff.1 he
      exact ⟨v, (funext hv).symm⟩
  unfold Matrix.rank
  have : LinearMap.range (matrix d t xs').mulVecLin = LinearMap.range (matrix d t xs).mulVecLin := by
    ext f
    rw [key, key]
    exact ⟨fun ⟨e, he⟩ => ⟨e, he.mono h⟩, fun ⟨e, he⟩ => ⟨e, he.mono h'⟩⟩
  rw [this]

/-- Two designs with the same span give the same report. -/
theorem core_same [Nonempty ι] {L : TwfeFit.Lib ι K} (hL : Works L) (hP : LinReg.Prunes L) {o : DidFit.Opts ι C} {alpha : K} {d t : ι → Bool} {y : ι → K}
    {adj : ℤ} {xs xs' : List (ι → K)} (hlen : xs'.length = xs.length) (h : ∀ x ∈ xs', Comb d t xs 0 x) (h' : ∀ x ∈ xs, Comb d t xs' 0 x)
    (hid : Identified d t xs) (R : DidFit.Result K) (hR : core L o alpha d t y adj xs = .ok R) : core L o alpha d t y adj xs' = .ok R := by
  have hid' : Identified d t xs' := fun hc => hid (hc.mono h)
  obtain ⟨w, u, x, k1, k2, k3, k4, k5, rfl⟩ := core_spec hL hP hid hR
  have hrun := (core_runs hL hP).1 ⟨_, hR⟩
  have hrk := rank_span h h'
  obtain ⟨R', hR'⟩ := (core_runs (L := L) hL hP (o := o) (alpha := alpha) (d := d) (t := t) (y := y) (adj := adj) (xs := xs')).2 (by
    rw [hrk, hlen]; exact hrun)
  obtain ⟨w', u', x', l1, l2, l3, l4, l5, rfl⟩ := core_spec hL hP hid' hR'
  obtain ⟨e1, he1⟩ := l1
  have hw : w' = w := weights_unique ⟨e1, he1.mono h⟩ (l2.mono h') k1 k2
  have hu : u' = u := resid_unique (l3.mono h) (l4.mono h') k3 k4
  subst hw hu
  rw [hR', hrk, l5, ← k5]

/-- Functions of a fixed-effect column are combinations of the constant and its dummies. -/
theorem comb_fixed [Nonempty ι] {d t : ι → Bool} {xs : List (ι → K)} {g : ι → Option ℤ} (hg : ∀ i, g i ≠ none) (hx : ∀ x ∈ dummies g, x ∈ xs) (φ : ℤ → K) :
    Comb d t xs 0 (fun i => φ ((g i).getD 0)) := by
  obtain ⟨i0⟩ := (inferInstance : Nonempty ι)
  have hne : levels g ≠ [] := by
    obtain ⟨a, ha⟩ := Option.ne_none_iff_exists'.1 (hg i0)
    intro h
    have := mem_levels.2 ⟨i0, ha⟩
    rw [h] at this
    exact List.not_mem_nil this
  obtain ⟨v0, vs, hl⟩ := List.exists_cons_of_ne_nil hne
  have hnd := levels_nodup g
  rw [hl, List.nodup_cons] at hnd
  have h1 := (comb_const (d := d) (t := t) (xs := xs) (φ v0)).add
    (comb_sum vs.toFinset (fun v i => (φ v - φ v0) * (if g i = some v then (1 : K) else 0)) fun v hv => by
      have hm : (fun i => if g i = some v then (1 : K) else 0) ∈ dummies g := by
        unfold dummies
        rw [hl]
        exact List.mem_map.2 ⟨v, List.mem_toFinset.1 hv, rfl⟩
      have := (comb_mem (d := d) (t := t) (hx _ hm)).smul (φ v - φ v0)
      rwa [mul_zero] at this)
  rw [add_zero] at h1
  convert h1 using 2 with i
  obtain ⟨a, ha⟩ := Option.ne_none_iff_exists'.1 (hg i)
  have hmem : a ∈ levels g := mem_levels.2 ⟨i, ha⟩
  rw [hl] at hmem
  simp only [ha, Option.getD_some, Option.some.injEq]
  simp only [mul_ite, mul_one, mul_zero, Finset.sum_ite_eq, List.mem_toFinset]
  rcases List.mem_cons.1 hmem with rfl | hm
  · rw [if_neg hnd.1, add_zero]
  · rw [if_pos hm]; ring

theorem mem_extras_cov {D : Data ι C K} (hab : D.absorb = []) {x : ι → Option K} (hx : x ∈ D.cov) : num x ∈ extras D := by
  unfold extras covariates
  rw [hab]
  exact List.mem_append_left _ (List.mem_map.2 ⟨x, List.mem_map.2 ⟨x, hx, rfl⟩, rfl⟩)

theorem mem_extras_fixed {D : Data ι C K} {g : ι → Option ℤ} (hg : g ∈ D.fixed) {x : ι → K} (hx : x ∈ dummies g) : x ∈ extras D :=
  List.mem_append_right _ (List.mem_flatMap.2 ⟨g, hg, hx⟩)

/-! ### Outcomes that differ by controls -/

/-- The same data with another outcome. -/
abbrev Data.withY (D : Data ι C K) (y : ι → Option K) : Data ι C K := ⟨y, D.d, D.t, D.cov, D.fixed, D.absorb, D.cluster⟩

/-- The treatment effect `τ`, group and period differences, any linear function of the covariates and any function of each fixed-effect column. -/
def shift (D : Data ι C K) (a b c τ : K) (β : Fin D.cov.length → K) (φ : Fin D.fixed.length → ℤ → K) (i : ι) : K :=
  a + b * ind (flag D.d i) + c * ind (flag D.t i) + τ * (ind (flag D.d i) * ind (flag D.t i)) + ∑ j, β j * num (D.cov[j]) i +
    ∑ j, φ j ((D.fixed[j] i).getD 0)

theorem shift_comb [Nonempty ι] {D : Data ι C K} (hab : D.absorb = []) (hfx : ∀ g ∈ D.fixed, ∀ i, g i ≠ none) (a b c τ : K) (β : Fin D.cov.length → K)
    (φ : Fin D.fixed.length → ℤ → K) : Comb (flag D.d) (flag D.t) (extras D) τ (shift D a b c τ β φ) := by
  have h1 := comb_basic (d := flag D.d) (t := flag D.t) (xs := extras D) a b c τ
  have h2 := comb_sum (d := flag D.d) (t := flag D.t) (xs := extras D) Finset.univ (fun (j : Fin D.cov.length) i => β j * num (D.cov[j]) i) fun j _ => by
    have := (comb_mem (d := flag D.d) (t := flag D.t) (mem_extras_cov hab (List.getElem_mem j.2))).smul (β j)
    rwa [mul_zero] at this
  have h3 := comb_sum (d := flag D.d) (t := flag D.t) (xs := extras D) Finset.univ (fun (j : Fin D.fixed.length) i => φ j ((D.fixed[j] i).getD 0)) fun j _ =>
    comb_fixed (hfx _ (List.getElem_mem j.2)) (fun x hx => mem_extras_fixed (List.getElem_mem j.2) hx) (φ j)
  have := (h1.add h2).add h3
  rw [add_zero, add_zero] at this
  exact this

theorem valid_withY {D : Data ι C K} (h : Valid D) {y : ι → Option K} (hy : ∀ i, y i ≠ none) : Valid (D.withY y) := ⟨hy, h.cov, h.d, h.t⟩

/-- C150. Controls: adding to the outcome group and period differences, any linear function of the covariates, any function of each fixed-effect column and an
effect `τ` for treated rows after treatment adds `τ` to the ATT and leaves the standard error and the counts; without `τ` the whole inference stays. -/
theorem C150_controls (L : TwfeFit.Lib ι K) (hL : Works L) (hP : LinReg.Prunes L) (robust strict : Bool) (alpha : K) (D : Data ι C K) (hab : D.absorb = [])
    (hfx : ∀ g ∈ D.fixed, ∀ i, g i ≠ none) (hid : Identified (flag D.d) (flag D.t) (extras D)) (R : DidFit.Result K)
    (h : fit L robust strict alpha D = .ok R) (a b c τ : K) (β : Fin D.cov.length → K) (φ : Fin D.fixed.length → ℤ → K) :
    ∃ R', fit L robust strict alpha (D.withY (fun i => (D.y i).map (· + shift D a b c τ β φ i))) = .ok R' ∧
      (∃ x, R.att = .fin x ∧ R'.att = .fin (x + τ)) ∧ R'.se = R.se ∧ R'.nObs = R.nObs ∧ R'.nTreated = R.nTreated ∧ R'.nControl = R.nControl ∧
      (τ = 0 → R'.t = R.t ∧ R'.p = R.p ∧ R'.ci = R.ci) := by
  set D' := D.withY (fun i => (D.y i).map (· + shift D a b c τ β φ i)) with hD'
  obtain ⟨hV, hA, hc⟩ := fit_ok h
  obtain ⟨i0, -⟩ := hV.d.2.1
  have : Nonempty ι := ⟨i0⟩
  have hV' : Valid D' := valid_withY hV fun i => by
    obtain ⟨z, hz⟩ := Option.ne_none_iff_exists'.1 (hV.y i)
    simp [hz]
  obtain ⟨R', hR'⟩ := (C150_runs L hL hP robust strict alpha D').2 (by
    obtain ⟨-, q⟩ := (C150_runs L hL hP robust strict alpha D).1 ⟨R, h⟩
    exact ⟨hV', q⟩)
  obtain ⟨-, -, hc'⟩ := fit_ok hR'
  have hout : outcome D = D.y := by unfold outcome; rw [hab]; rfl
  have hout' : outcome D' = fun i => (D.y i).map (· + shift D a b c τ β φ i) := by unfold outcome; rw [show D'.absorb = [] from hab]; rfl
  have hy : ∀ i, num (outcome D') i = num (outcome D) i + shift D a b c τ β φ i := by
    intro i
    rw [hout, hout']
    obtain ⟨z, hz⟩ := Option.ne_none_iff_exists'.1 (hV.y i)
    simp [num, hz]
  have hs := shift_comb hab hfx a b c τ β φ
  obtain ⟨w, u, x, k1, k2, k3, k4, k5, rfl⟩ := core_spec hL hP hid hc
  obtain ⟨w', u', x', l1, l2, l3, l4, l5, rfl⟩ := core_spec hL hP (show Identified (flag D'.d) (flag D'.t) (extras D') from hid) hc'
  have hw : w' = w := weights_unique l1 l2 k1 k2
  have hu : u' = u := by
    refine resid_unique (y := num (outcome D')) l3 l4 (x' := x + τ) ?_ k4
    have := k3.add hs
    have e : (fun i => num (outcome D) i - u i + shift D a b c τ β φ i) = fun i => num (outcome D') i - u i := by
      funext i; rw [hy]; ring
    rwa [e] at this
  have hx : x' = x + τ := by
    rw [l5, k5, hw]
    simp only [hy, mul_add, Finset.sum_add_distrib]
    congr 1
    have := k2.comb hs
    rw [mul_one] at this
    refine Eq.trans ?_ this
    exact Finset.sum_congr rfl fun i _ => mul_comm _ _
  subst hw hu
  refine ⟨_, hR', ⟨x, rfl, by rw [hx]; rfl⟩, rfl, rfl, rfl, rfl, fun h0 => ?_⟩
  rw [h0, add_zero] at hx
  subst hx
  exact ⟨rfl, rfl, rfl⟩

/-- C150. An outcome that is exactly an effect `τ` plus controls gives ATT `τ`, whatever the covariates, the fixed effects and the number of rows per group. -/
theorem C150_recovers (L : TwfeFit.Lib ι K) (hL : Works L) (hP : LinReg.Prunes L) (robust strict : Bool) (alpha : K) (D : Data ι C K) (hab : D.absorb = [])
    (hfx : ∀ g ∈ D.fixed, ∀ i, g i ≠ none) (hid : Identified (flag D.d) (flag D.t) (extras D)) (R : DidFit.Result K)
    (h : fit L robust strict alpha D = .ok R) (a b c τ : K) (β : Fin D.cov.length → K) (φ : Fin D.fixed.length → ℤ → K)
    (hy : ∀ i, D.y i = some (shift D a b c τ β φ i)) : R.att = .fin τ := by
  obtain ⟨hV, hA, hc⟩ := fit_ok h
  obtain ⟨i0, -⟩ := hV.d.2.1
  have : Nonempty ι := ⟨i0⟩
  obtain ⟨w, u, x, k1, k2, k3, k4, k5, rfl⟩ := core_spec hL hP hid hc
  have hs := shift_comb hab hfx a b c τ β φ
  have e : ∀ i, num (outcome D) i = shift D a b c τ β φ i := by
    intro i
    unfold outcome
    rw [hab]
    simp [num, absorbed, hy]
  have := k2.comb hs
  rw [mul_one] at this
  show DiffDiff.Ext.fin x = _
  rw [k5, ← this]
  congr 1
  exact Finset.sum_congr rfl fun i _ => by rw [e, mul_comm]

/-! ### Order and labels -/

theorem fit_same {L : TwfeFit.Lib ι K} (hL : Works L) (hP : LinReg.Prunes L) {robust strict : Bool} {alpha : K} {D D' : Data ι C K} (hd : D'.d = D.d)
    (ht : D'.t = D.t) (hcl : D'.cluster = D.cluster) (hV : Valid D → Valid D') (hA : (∀ g ∈ D.absorb, ∀ i, g i ≠ none) → ∀ g ∈ D'.absorb, ∀ i, g i ≠ none)
    (hy : outcome D' = outcome D) (hadj : adjustment D'.absorb = adjustment D.absorb) (hlen : (extras D').length = (extras D).length)
    (h1 : ∀ [Nonempty ι], ∀ x ∈ extras D', Comb (flag D.d) (flag D.t) (extras D) 0 x) (h2 : ∀ [Nonempty ι], ∀ x ∈ extras D, Comb (flag D.d) (flag D.t) (extras D') 0 x)
    (hid : Identified (flag D.d) (flag D.t) (extras D)) {R : DidFit.Result K} (h : fit L robust strict alpha D = .ok R) :
    fit L robust strict alpha D' = .ok R := by
  obtain ⟨hv, ha, hc⟩ := fit_ok h
  obtain ⟨i0, -⟩ := hv.d.2.1
  have : Nonempty ι := ⟨i0⟩
  obtain ⟨hk, -⟩ := (core_runs hL hP).1 ⟨R, hc⟩
  have hc' := core_same hL hP hlen h1 h2 hid R hc
  rw [fit_of_core (hV hv) (hA ha) (by rw [← length_extras, hlen]; exact hk), hd, ht, hcl, hy, hadj, hc']
  rfl

/-- C150. Covariates and fixed-effect columns may be listed in any order. -/
theorem C150_listing (L : TwfeFit.Lib ι K) (hL : Works L) (hP : LinReg.Prunes L) (robust strict : Bool) (alpha : K) (D : Data ι C K)
    (cov : List (ι → Option K)) (fixed : List (ι → Option ℤ)) (hc : cov ~ D.cov) (hf : fixed ~ D.fixed)
    (hid : Identified (flag D.d) (flag D.t) (extras D)) (R : DidFit.Result K) :
    fit L robust strict alpha D = .ok R ↔ fit L robust strict alpha ⟨D.y, D.d, D.t, cov, fixed, D.absorb, D.cluster⟩ = .ok R := by
  set D' : Data ι C K := ⟨D.y, D.d, D.t, cov, fixed, D.absorb, D.cluster⟩ with hD'
  have hp : extras D' ~ extras D := ((hc.map _).map _).append (hf.flatMap_right _)
  have h1 : ∀ x ∈ extras D', Comb (flag D.d) (flag D.t) (extras D) 0 x := fun x hx => comb_mem (hp.subset hx)
  have h2 : ∀ x ∈ extras D, Comb (flag D.d) (flag D.t) (extras D') 0 x := fun x hx => comb_mem (hp.symm.subset hx)
  constructor
  · exact fit_same (D := D) (D' := D') hL hP rfl rfl rfl (fun h => ⟨h.y, fun x hx => h.cov x (hc.subset hx), h.d, h.t⟩) id rfl rfl hp.length_eq h1 h2 hid
  · exact fit_same (D := D') (D' := D) hL hP rfl rfl rfl (fun h => ⟨h.y, fun x hx => h.cov x (hc.symm.subset hx), h.d, h.t⟩) id rfl rfl hp.length_eq.symm h2 h1
      (fun h => hid (h.mono h1))

/-- The labels of two complete columns group the rows alike. -/
structure Regrouped (g g' : ι → Option ℤ) : Prop where
  complete : ∀ i, g i ≠ none
  complete' : ∀ i, g' i ≠ none
  same : SameGroups g g'

theorem Regrouped.symm {g g' : ι → Option ℤ} (h : Regrouped g g') : Regrouped g' g := ⟨h.complete', h.complete, fun i j => (h.same i j).symm⟩

theorem labels_eq {g g' : ι → Option ℤ} (h : Regrouped g g') : labels g = labels g' := by
  rw [← nunique_labels, ← nunique_labels]
  have hc : ∀ {q : ι → Option ℤ}, (∀ i, q i ≠ none) → nunique q = (Finset.univ.image q).card := by
    intro q hq
    unfold nunique
    rw [Finset.erase_eq_of_notMem]
    intro hm
    obtain ⟨i, -, hi⟩ := Finset.mem_image.1 hm
    exact hq i hi
  rw [hc h.complete, hc h.complete']
  have hr : ∀ a ∈ Finset.univ.image g, ∃ i, g i = a := fun a ha => by
    obtain ⟨i, -, hi⟩ := Finset.mem_image.1 ha; exact ⟨i, hi⟩
  refine Finset.card_bij (fun a ha => g' (hr a ha).choose) (fun a ha => Finset.mem_image_of_mem _ (Finset.mem_univ _)) ?_ ?_
  · intro a ha b hb e
    have := (h.same _ _).2 e
    rwa [(hr a ha).choose_spec, (hr b hb).choose_spec] at this
  · intro b hb
    obtain ⟨i, -, rfl⟩ := Finset.mem_image.1 hb
    refine ⟨g i, Finset.mem_image_of_mem _ (Finset.mem_univ _), ?_⟩
    exact (h.same _ _).1 (hr (g i) (Finset.mem_image_of_mem _ (Finset.mem_univ _))).choose_spec

theorem demean_regrouped {g g' : ι → Option ℤ} (h : Regrouped g g') (x : ι → Option K) : demean g x = demean g' x := by
  funext i
  obtain ⟨a, ha⟩ := Option.ne_none_iff_exists'.1 (h.complete i)
  obtain ⟨b, hb⟩ := Option.ne_none_iff_exists'.1 (h.complete' i)
  have hm : groupMean g x a = groupMean g' x b := by
    unfold groupMean
    have : (Finset.univ.filter (fun j => g j = some a ∧ x j ≠ none)) = Finset.univ.filter (fun j => g' j = some b ∧ x j ≠ none) := by
      ext j
      simp only [Finset.mem_filter, Finset.mem_univ, true_and]
      rw [← ha, ← hb, h.same j i]
    rw [this]
  unfold demean
  rw [ha, hb]
  simp only [hm]

theorem absorbed_regrouped {gs gs' : List (ι → Option ℤ)} (h : List.Forall₂ Regrouped gs gs') (x : ι → Option K) : absorbed gs x = absorbed gs' x := by
  unfold absorbed
  induction h generalizing x with
  | nil => rfl
  | cons hg _ ih => rw [List.foldl_cons, List.foldl_cons, demean_regrouped hg, ih]

theorem adjustment_regrouped {gs gs' : List (ι → Option ℤ)} (h : List.Forall₂ Regrouped gs gs') : adjustment gs = adjustment gs' := by
  rw [adjustment_labels, adjustment_labels]
  induction h with
  | nil => rfl
  | cons hg _ ih => rw [List.map_cons, List.map_cons, List.sum_cons, List.sum_cons, ih, labels_eq hg]

theorem regrouped_mem {gs gs' : List (ι → Option ℤ)} (h : List.Forall₂ Regrouped gs gs') {g' : ι → Option ℤ} (hg : g' ∈ gs') : ∃ g ∈ gs, Regrouped g g' := by
  induction h with
  | nil => exact absurd hg List.not_mem_nil
  | cons h1 h2 ih =>
    rcases List.mem_cons.1 hg with rfl | hg
    · exact ⟨_, by simp, h1⟩
    · obtain ⟨g, hm, hr⟩ := ih hg
      exact ⟨g, List.mem_cons_of_mem _ hm, hr⟩

theorem regrouped_dummies [Nonempty ι] {d t : ι → Bool} {xs : List (ι → K)} {g g' : ι → Option ℤ} (h : Regrouped g g') (hx : ∀ x ∈ dummies g, x ∈ xs)
    {x : ι → K} (hm : x ∈ dummies g') : Comb d t xs 0 x := by
  unfold dummies at hm
  obtain ⟨v, -, rfl⟩ := List.mem_map.1 hm
  by_cases hv : ∃ i, g' i = some v
  · obtain ⟨i0, hi0⟩ := hv
    obtain ⟨a, ha⟩ := Option.ne_none_iff_exists'.1 (h.complete i0)
    have := comb_fixed (d := d) (t := t) (xs := xs) h.complete hx (fun b => if b = a then (1 : K) else 0)
    convert this using 2 with i
    obtain ⟨b, hb⟩ := Option.ne_none_iff_exists'.1 (h.complete i)
    have hs := h.same i i0
    rw [hi0, ha, hb] at hs
    simp only [hb, Option.getD_some]
    by_cases hba : b = a
    · rw [if_pos (hs.1 (by rw [hba])), if_pos hba]
    · rw [if_neg (fun e => hba (Option.some.inj (hs.2 e))), if_neg hba]
  · have e : (fun i => if g' i = some v then (1 : K) else 0) = fun _ => 0 := by
      funext i; exact if_neg fun e => hv ⟨i, e⟩
    rw [e]
    exact comb_const 0

/-- C150. Only the grouping by fixed and absorbed effects counts: relabelling the levels, which also changes the level that is left out, leaves the report. -/
theorem C150_levels (L : TwfeFit.Lib ι K) (hL : Works L) (hP : LinReg.Prunes L) (robust strict : Bool) (alpha : K) (D : Data ι C K)
    (fixed absorb : List (ι → Option ℤ)) (hf : List.Forall₂ Regrouped D.fixed fixed) (ha : List.Forall₂ Regrouped D.absorb absorb)
    (hid : Identified (flag D.d) (flag D.t) (extras D)) (R : DidFit.Result K) :
    fit L robust strict alpha D = .ok R ↔ fit L robust strict alpha ⟨D.y, D.d, D.t, D.cov, fixed, absorb, D.cluster⟩ = .ok R := by
  set D' : Data ι C K := ⟨D.y, D.d, D.t, D.cov, fixed, absorb, D.cluster⟩ with hD'
  have hcov : covariates D' = covariates D := by
    unfold covariates
    exact List.map_congr_left fun x _ => (absorbed_regrouped ha x).symm
  have hlen : (extras D').length = (extras D).length := by
    have e1 := length_extras D
    have e2 := length_extras D'
    have : nCoef D' = nCoef D := by
      unfold nCoef
      congr 1
      have : ∀ {gs gs' : List (ι → Option ℤ)}, List.Forall₂ Regrouped gs gs' → (gs'.map (fun g => labels g - 1)).sum = (gs.map (fun g => labels g - 1)).sum := by
        intro gs gs' h
        induction h with
        | nil => rfl
        | cons hg _ ih => rw [List.map_cons, List.map_cons, List.sum_cons, List.sum_cons, ih, labels_eq hg]
      exact this hf
    omega
  have hsym : ∀ {gs gs' : List (ι → Option ℤ)}, List.Forall₂ Regrouped gs gs' → List.Forall₂ Regrouped gs' gs := by
    intro gs gs' h
    exact (List.Forall₂.flip h).imp fun _ _ q => q.symm
  have h1 : ∀ [Nonempty ι], ∀ x ∈ extras D', Comb (flag D.d) (flag D.t) (extras D) 0 x := by
    intro _ x hx
    rcases List.mem_append.1 hx with hx | hx
    · rw [hcov] at hx
      exact comb_mem (List.mem_append_left _ hx)
    · obtain ⟨g', hg', hm⟩ := List.mem_flatMap.1 hx
      obtain ⟨g, hg, hr⟩ := regrouped_mem hf hg'
      exact regrouped_dummies hr (fun z hz => mem_extras_fixed hg hz) hm
  have h2 : ∀ [Nonempty ι], ∀ x ∈ extras D, Comb (flag D.d) (flag D.t) (extras D') 0 x := by
    intro _ x hx
    rcases List.mem_append.1 hx with hx | hx
    · rw [← hcov] at hx
      exact comb_mem (List.mem_append_left _ hx)
    · obtain ⟨g', hg', hm⟩ := List.mem_flatMap.1 hx
      obtain ⟨g, hg, hr⟩ := regrouped_mem (hsym hf) hg'
      exact regrouped_dummies hr (fun z hz => mem_extras_fixed (D := D') hg hz) hm
  have hA : ∀ g ∈ D'.absorb, ∀ i, g i ≠ none := fun g hg => by
    obtain ⟨g', -, hr⟩ := regrouped_mem ha hg; exact hr.complete'
  have hA' : ∀ g ∈ D.absorb, ∀ i, g i ≠ none := fun g hg => by
    obtain ⟨g', -, hr⟩ := regrouped_mem (hsym ha) hg; exact hr.complete'
  have hy : outcome D' = outcome D := (absorbed_regrouped ha D.y).symm
  constructor
  · exact fit_same (D := D) (D' := D') hL hP rfl rfl rfl (fun h => ⟨h.y, h.cov, h.d, h.t⟩) (fun _ => hA) hy (adjustment_regrouped ha).symm hlen h1 h2 hid
  · intro h
    obtain ⟨hv, -⟩ := fit_ok h
    obtain ⟨i0, -⟩ := hv.d.2.1
    have : Nonempty ι := ⟨i0⟩
    exact fit_same (D := D') (D' := D) hL hP rfl rfl rfl (fun h => ⟨h.y, h.cov, h.d, h.t⟩) (fun _ => hA') hy.symm (adjustment_regrouped ha) hlen.symm h2 h1
      (fun q => hid (q.mono h1)) h

end DiffDiff.DidFull
