import Verif.DidFullMore

/-!
# C155: swapping the labels of groups and periods (estimators.py 206-359)

Coding the comparison group as 1 instead of the treated one, or the earlier period as 1, turns the effect round: ATT, t statistic and interval change
sign and nothing else does but the two group sizes. Both swaps together change nothing. Treatment and time columns may trade places.
-/

set_option linter.unusedSectionVars false
set_option linter.unusedVariables false

namespace DiffDiff.DidFull
open DidFit (Result)
open TwfeFit (Works)
open Did2x2 (ind)
open Matrix

variable {ι C K : Type*} [Fintype ι] [DecidableEq ι] [DecidableEq C] [Field K] [LinearOrder K] [IsStrictOrderedRing K]

/-- Report with the opposite sign: estimate, t statistic and interval turned round. -/
def mirror (R : DidFit.Result K) : DidFit.Result K :=
  { R with att := Ext.neg R.att, t := Ext.neg R.t, ci := (Ext.neg R.ci.2, Ext.neg R.ci.1) }

/-- Report with the group sizes exchanged. -/
def relabel (R : DidFit.Result K) : DidFit.Result K := { R with nTreated := R.nControl, nControl := R.nTreated }

/-- Report with given group sizes. -/
def sized (R : DidFit.Result K) (a b : ℕ) : DidFit.Result K := { R with nTreated := a, nControl := b }

/-- The comparison group coded as 1. -/
def Data.swapGroups (D : Data ι C K) : Data ι C K := { D with d := fun i => (D.d i).map (1 - ·) }

/-- The earlier period coded as 1. -/
def Data.swapPeriods (D : Data ι C K) : Data ι C K := { D with t := fun i => (D.t i).map (1 - ·) }

/-- Treatment and time columns exchanged. -/
def Data.swapRoles (D : Data ι C K) : Data ι C K := { D with d := D.t, t := D.d }

/-- The outcome negated. -/
def Data.negated (D : Data ι C K) : Data ι C K := { D with y := fun i => (D.y i).map (-1 * ·) }

/-! ### Inference of the opposite estimate -/

theorem neg_neg' (x : Ext K) : Ext.neg (Ext.neg x) = x := by cases x <;> simp [Ext.neg]

theorem mirror_mirror (R : DidFit.Result K) : mirror (mirror R) = R := by simp [mirror, neg_neg']

theorem tStat_neg (x : K) (v : Option K) : Inference.tStat (.fin (-x)) (LinReg.toExt v) = Ext.neg (Inference.tStat (.fin x) (LinReg.toExt v)) := by
  cases v with
  | none => simp [LinReg.toExt, Inference.tStat, Ext.le, Ext.div, Ext.neg]
  | some s =>
    simp only [LinReg.toExt, Inference.tStat, Ext.le, Ext.lt]
    by_cases h : s ≤ 0
    · rcases lt_trichotomy x 0 with h1 | h1 | h1
      · simp [h, h1, not_lt.2 h1.le, Ext.neg]
      · simp [h, h1, Ext.neg]
      · simp [h, h1, not_lt.2 h1.le, Ext.neg]
    · have : s ≠ 0 := fun e => h e.le
      simp [h, this, Ext.div, Ext.neg, neg_div]

theorem pValue_neg (Q : Inference.Dist K) (t : Ext K) : Inference.pValue Q (Ext.neg t) = Inference.pValue Q t := by
  cases t <;> simp [Inference.pValue, Ext.neg, Ext.abs]

theorem confInt_neg (Q : Inference.Dist K) (x : K) (v : Option K) (a : K) :
    Inference.confInt Q (.fin (-x)) (LinReg.toExt v) a
      = (Ext.neg (Inference.confInt Q (.fin x) (LinReg.toExt v) a).2, Ext.neg (Inference.confInt Q (.fin x) (LinReg.toExt v) a).1) := by
  cases v with
  | none => simp [LinReg.toExt, Inference.confInt, Ext.sub, Ext.add, Ext.mul, Ext.neg]
  | some s =>
    simp only [LinReg.toExt, Inference.confInt_fin, Ext.neg]
    refine Prod.ext ?_ ?_ <;> · dsimp only; congr 1; ring

theorem out_neg (L : TwfeFit.Lib ι K) (alpha : K) (d : ι → Bool) (y u : ι → K) (x : K) (v : Option K) (df : ℤ) :
    out L alpha d y u (-x) v df = mirror (out L alpha d y u x v df) := by
  simp only [out, mirror, Inference.getInference, tStat_neg, pValue_neg, confInt_neg]
  rfl

theorem out_flip (L : TwfeFit.Lib ι K) (alpha : K) (d : ι → Bool) (y u : ι → K) (x : K) (v : Option K) (df : ℤ) :
    out L alpha (fun i => !d i) y u x v df = relabel (out L alpha d y u x v df) := by
  simp [out, relabel]

theorem out_negY (L : TwfeFit.Lib ι K) (alpha : K) (d : ι → Bool) (y u : ι → K) (x : K) (v : Option K) (df : ℤ) :
    out L alpha d (fun i => -1 * y i) (fun i => -1 * u i) x v df = out L alpha d y u x v df := by
  have : Vcov.rSquared (fun i => -1 * y i) (fun i => -1 * u i) false 0 = Vcov.rSquared y u false 0 := by
    have e : ∑ i, (-1 * y i - (∑ i, -1 * y i) / (Fintype.card ι : K)) ^ 2 = ∑ i, (y i - (∑ i, y i) / (Fintype.card ι : K)) ^ 2 := by
      refine Finset.sum_congr rfl fun i _ => ?_
      rw [← Finset.mul_sum]
      ring
    have e2 : ∑ i, (-1 * u i) ^ 2 = ∑ i, u i ^ 2 := Finset.sum_congr rfl fun i _ => by ring
    unfold Vcov.rSquared
    simp only [e, e2]
  simp only [out, this]

theorem variance_negW (o : LinReg.Opts ι C) (r : ℕ) (w u : ι → K) : LinReg.variance o r (fun i => -1 * w i) u = LinReg.variance o r w u := by
  unfold LinReg.variance
  have e1 : ∀ i, (-1 * w i * u i) ^ 2 = (w i * u i) ^ 2 := fun i => by ring
  have e2 : ∀ i, (-1 * w i) ^ 2 = w i ^ 2 := fun i => by ring
  have e3 : ∀ s : Finset ι, (∑ i ∈ s, -1 * w i * u i) ^ 2 = (∑ i ∈ s, w i * u i) ^ 2 := fun s => by
    have : ∑ i ∈ s, -1 * w i * u i = -∑ i ∈ s, w i * u i := by rw [← Finset.sum_neg_distrib]; exact Finset.sum_congr rfl fun i _ => by ring
    rw [this, neg_sq]
  simp only [e1, e2, e3]

/-! ### Designs with the same columns up to the sign of the interaction -/

/-- The design of `d'`, `t'` spans what that of `d`, `t` spans; the interaction coefficient is multiplied by `s`. -/
structure Twin (d t d' t' : ι → Bool) (s : K) : Prop where
  sign : s = 1 ∨ s = -1
  comb : ∀ (xs : List (ι → K)) (e : K) (f : ι → K), Comb d t xs e f → Comb d' t' xs (s * e) f
  comb' : ∀ (xs : List (ι → K)) (e : K) (f : ι → K), Comb d' t' xs e f → Comb d t xs (s * e) f
  orth : ∀ (xs : List (ι → K)) (e : K) (r : ι → K), Orth d t xs r e → Orth d' t' xs r (s * e)

theorem ind_not (b : Bool) : (ind (!b) : K) = 1 - ind b := by cases b <;> simp [ind]

theorem comb_group {d t : ι → Bool} {xs : List (ι → K)} {e : K} {f : ι → K} (h : Comb d t xs e f) : Comb (fun i => !d i) t xs (-1 * e) f := by
  obtain ⟨a, b, c, γ, hf⟩ := h
  refine ⟨a + b, -b, c + e, γ, fun i => ?_⟩
  rw [hf i]
  simp only [ind_not]
  ring

theorem comb_period {d t : ι → Bool} {xs : List (ι → K)} {e : K} {f : ι → K} (h : Comb d t xs e f) : Comb d (fun i => !t i) xs (-1 * e) f := by
  obtain ⟨a, b, c, γ, hf⟩ := h
  refine ⟨a + c, b + e, -c, γ, fun i => ?_⟩
  rw [hf i]
  simp only [ind_not]
  ring

theorem comb_roles {d t : ι → Bool} {xs : List (ι → K)} {e : K} {f : ι → K} (h : Comb d t xs e f) : Comb t d xs (1 * e) f := by
  obtain ⟨a, b, c, γ, hf⟩ := h
  refine ⟨a, c, b, γ, fun i => ?_⟩
  rw [hf i]
  ring

theorem twin_group (d t : ι → Bool) : Twin d t (fun i => !d i) t (-1 : K) := by
  refine ⟨.inr rfl, fun xs e f => comb_group, fun xs e f h => ?_, fun xs e r h => ⟨h.const, ?_, h.time, ?_, h.extra⟩⟩
  · have := comb_group h
    simpa using this
  · simp only [ind_not, sub_mul, one_mul, Finset.sum_sub_distrib, h.const, h.treat, sub_zero]
  · simp only [ind_not, sub_mul, one_mul, Finset.sum_sub_distrib, h.time, h.inter]
    ring

theorem twin_period (d t : ι → Bool) : Twin d t d (fun i => !t i) (-1 : K) := by
  refine ⟨.inr rfl, fun xs e f => comb_period, fun xs e f h => ?_, fun xs e r h => ⟨h.const, h.treat, ?_, ?_, h.extra⟩⟩
  · have := comb_period h
    simpa using this
  · simp only [ind_not, sub_mul, one_mul, Finset.sum_sub_distrib, h.const, h.time, sub_zero]
  · simp only [ind_not, mul_sub, sub_mul, mul_one, one_mul, Finset.sum_sub_distrib, h.treat, h.inter]
    ring

theorem twin_roles (d t : ι → Bool) : Twin d t t d (1 : K) := by
  refine ⟨.inl rfl, fun xs e f => comb_roles, fun xs e f h => comb_roles h, fun xs e r h => ⟨h.const, h.time, h.treat, ?_, h.extra⟩⟩
  rw [one_mul, ← h.inter]
  exact Finset.sum_congr rfl fun i _ => by ring

theorem twin_refl (d t : ι → Bool) : Twin d t d t (1 : K) :=
  ⟨.inl rfl, fun xs e f h => by rwa [one_mul], fun xs e f h => by rwa [one_mul], fun xs e r h => by rwa [one_mul]⟩

theorem Twin.sq {d t d' t' : ι → Bool} {s : K} (H : Twin d t d' t' s) : s * s = 1 := by rcases H.sign with h | h <;> rw [h] <;> ring

theorem Twin.rank {d t d' t' : ι → Bool} {s : K} (H : Twin d t d' t' s) (xs : List (ι → K)) : (matrix d' t' xs).rank = (matrix d t xs).rank := by
  have key : ∀ (d t : ι → Bool) f, f ∈ LinearMap.range (matrix d t xs).mulVecLin ↔ ∃ e, Comb d t xs e f := by
    intro d t f
    constructor
    · rintro ⟨v, rfl⟩
      exact ⟨_, comb_iff.2 ⟨v, rfl, fun i => rfl⟩⟩
    · rintro ⟨e, he⟩
      obtain ⟨v, -, hv⟩ := comb_iff.1 he
      exact ⟨v, (funext hv).symm⟩
  unfold Matrix.rank
  have : LinearMap.range (matrix d' t' xs).mulVecLin = LinearMap.range (matrix d t xs).mulVecLin := by
    ext f
    rw [key, key]
    exact ⟨fun ⟨e, he⟩ => ⟨_, H.comb' xs e f he⟩, fun ⟨e, he⟩ => ⟨_, H.comb xs e f he⟩⟩
  rw [this]

theorem Twin.identified {d t d' t' : ι → Bool} {s : K} (H : Twin d t d' t' s) {xs : List (ι → K)} (hid : Identified d t xs) : Identified d' t' xs := by
  intro hc
  -- the interaction of the second design has a nonzero interaction coefficient in the first
  have h1 : Comb d' t' xs 1 (fun i => ind (d' i) * ind (t' i)) := ⟨0, 0, 0, fun _ => 0, fun i => by simp⟩
  have h2 := (H.comb' xs _ _ h1).sub (H.comb' xs _ _ hc)
  obtain ⟨a, b, c, γ, hf⟩ := h2
  apply hid
  have hz : ∀ i, ind (d i) * ind (t i) = (-s * a) + (-s * b) * ind (d i) + (-s * c) * ind (t i) + 0 * (ind (d i) * ind (t i)) + ∑ j, (-s * γ j) * (xs[j] i) := by
    intro i
    have e := hf i
    have e3 : ∑ j, (-s * γ j) * (xs[j] i) = -s * ∑ j, γ j * (xs[j] i) := by rw [Finset.mul_sum]; exact Finset.sum_congr rfl fun j _ => by ring
    rw [e3]
    have hs := H.sq
    have : s * 0 = s * (a + b * ind (d i) + c * ind (t i) + (s * 1 - s * 0) * (ind (d i) * ind (t i)) + ∑ j, γ j * (xs[j] i)) := by rw [← e]; ring
    linear_combination -this - (ind (d i) * ind (t i)) * hs
  exact ⟨_, _, _, _, hz⟩

theorem core_twin [Nonempty ι] {L : TwfeFit.Lib ι K} (hL : Works L) (hP : LinReg.Prunes L) {o : DidFit.Opts ι C} {alpha : K} {d t d' t' : ι → Bool} {s : K}
    (H : Twin d t d' t' s) {y : ι → K} {adj : ℤ} {xs : List (ι → K)} (hid : Identified d t xs) {R : DidFit.Result K}
    (hR : core L o alpha d t y adj xs = .ok R) :
    ∃ u x v df, R = out L alpha d y u x v df ∧ core L o alpha d' t' y adj xs = .ok (out L alpha d' y u (s * x) v df) := by
  have hid' := H.identified hid
  obtain ⟨w, u, x, ⟨e0, k1⟩, k2, k3, k4, k5, rfl⟩ := core_spec hL hP hid hR
  have hrun := (core_runs hL hP).1 ⟨_, hR⟩
  have hrk := H.rank xs
  obtain ⟨R', hR'⟩ := (core_runs (L := L) hL hP (o := o) (alpha := alpha) (d := d') (t := t') (y := y) (adj := adj) (xs := xs)).2 (by
    rw [hrk]; exact hrun)
  obtain ⟨w', u', x', l1, l2, l3, l4, l5, rfl⟩ := core_spec hL hP hid' hR'
  refine ⟨u, x, _, _, rfl, ?_⟩
  have hw : w' = fun i => s * w i := by
    refine weights_unique l1 l2 ⟨_, (H.comb _ _ _ k1).smul s⟩ ?_
    have := (H.orth _ _ _ k2).smul s
    rwa [mul_one, H.sq] at this
  have hu : u' = u := by
    refine resid_unique l3 l4 (H.comb _ _ _ k3) ?_
    have := H.orth _ _ _ k4
    rwa [mul_zero] at this
  have hx : x' = s * x := by
    rw [l5, k5, hw, Finset.mul_sum]
    exact Finset.sum_congr rfl fun i _ => by ring
  have hv : LinReg.variance (opts o) (matrix d t xs).rank w' u = LinReg.variance (opts o) (matrix d t xs).rank w u := by
    rw [hw]
    rcases H.sign with h | h <;> subst h
    · simp only [one_mul]
    · exact variance_negW _ _ _ _
  rw [hR', hu, hx, hrk, hv]

/-! ### Calls -/

theorem flag_swap {x : ι → Option K} (h : Binary x) : flag (fun i => (x i).map (1 - ·)) = fun i => !flag x i := by
  funext i
  rcases h.1 i with e | e <;> simp [flag, e]

theorem binary_swap {x : ι → Option K} (h : Binary x) : Binary (fun i => (x i).map (1 - ·)) := by
  obtain ⟨h1, ⟨i, hi⟩, ⟨j, hj⟩⟩ := h
  refine ⟨fun k => ?_, ⟨j, by simp [hj]⟩, ⟨i, by simp [hi]⟩⟩
  rcases h1 k with e | e <;> simp [e]

theorem swap_swap (x : ι → Option K) : (fun i => ((x i).map (1 - ·)).map (1 - ·)) = x := by
  funext i; cases x i <;> simp

theorem fit_twin {L : TwfeFit.Lib ι K} (hL : Works L) (hP : LinReg.Prunes L) {robust strict : Bool} {alpha : K} {D D' : Data ι C K} {s : K}
    (H : Twin (flag D.d) (flag D.t) (flag D'.d) (flag D'.t) s) (hV : Valid D → Valid D') (hy : D'.y = D.y) (hcov : D'.cov = D.cov) (hfx : D'.fixed = D.fixed)
    (hab : D'.absorb = D.absorb) (hcl : D'.cluster = D.cluster) (hid : Identified (flag D.d) (flag D.t) (extras D)) {R : DidFit.Result K}
    (h : fit L robust strict alpha D = .ok R) :
    ∃ u x v df, R = out L alpha (flag D.d) (num (outcome D)) u x v df ∧
      fit L robust strict alpha D' = .ok (out L alpha (flag D'.d) (num (outcome D)) u (s * x) v df) := by
  obtain ⟨hv, ha, hc⟩ := fit_ok h
  obtain ⟨i0, -⟩ := hv.d.2.1
  have : Nonempty ι := ⟨i0⟩
  obtain ⟨hk, -⟩ := (core_runs hL hP).1 ⟨R, hc⟩
  obtain ⟨u, x, v, df, e1, e2⟩ := core_twin hL hP H hid hc
  refine ⟨u, x, v, df, e1, ?_⟩
  have hx : extras D' = extras D := by unfold extras covariates; rw [hcov, hfx, hab]
  have ho : outcome D' = outcome D := by unfold outcome; rw [hy, hab]
  rw [fit_of_core (hV hv) (by rw [hab]; exact ha) (by rw [← length_extras, hx]; exact hk), hx, ho, hab, hcl, e2]
  rfl

theorem groups_ok {L : TwfeFit.Lib ι K} (hL : Works L) (hP : LinReg.Prunes L) {robust strict : Bool} {alpha : K} {D : Data ι C K}
    (hid : Identified (flag D.d) (flag D.t) (extras D)) {R : DidFit.Result K} (h : fit L robust strict alpha D = .ok R) :
    fit L robust strict alpha D.swapGroups = .ok (mirror (relabel R)) := by
  have hV := (fit_ok h).1
  have hf := flag_swap hV.d
  obtain ⟨u, x, v, df, rfl, e⟩ := fit_twin hL hP (D := D) (D' := D.swapGroups) (s := -1)
    (by show Twin (flag D.d) (flag D.t) (flag fun i => (D.d i).map (1 - ·)) (flag D.t) (-1); rw [hf]; exact twin_group _ _)
    (fun h => ⟨h.y, h.cov, binary_swap h.d, h.t⟩) rfl rfl rfl rfl rfl hid h
  rw [e, neg_one_mul, ← out_flip, ← out_neg]
  show Except.ok (out L alpha (flag fun i => (D.d i).map (1 - ·)) _ _ _ _ _) = _
  rw [hf]

theorem periods_ok {L : TwfeFit.Lib ι K} (hL : Works L) (hP : LinReg.Prunes L) {robust strict : Bool} {alpha : K} {D : Data ι C K}
    (hid : Identified (flag D.d) (flag D.t) (extras D)) {R : DidFit.Result K} (h : fit L robust strict alpha D = .ok R) :
    fit L robust strict alpha D.swapPeriods = .ok (mirror R) := by
  have hV := (fit_ok h).1
  have hf := flag_swap hV.t
  obtain ⟨u, x, v, df, rfl, e⟩ := fit_twin hL hP (D := D) (D' := D.swapPeriods) (s := -1)
    (by show Twin (flag D.d) (flag D.t) (flag D.d) (flag fun i => (D.t i).map (1 - ·)) (-1); rw [hf]; exact twin_period _ _)
    (fun h => ⟨h.y, h.cov, h.d, binary_swap h.t⟩) rfl rfl rfl rfl rfl hid h
  rw [e, neg_one_mul, ← out_neg]
  rfl

theorem swapGroups_twice (D : Data ι C K) : D.swapGroups.swapGroups = D := by
  simp only [Data.swapGroups, swap_swap]

theorem swapPeriods_twice (D : Data ι C K) : D.swapPeriods.swapPeriods = D := by
  simp only [Data.swapPeriods, swap_swap]

theorem identified_groups {D : Data ι C K} (hV : Valid D) (hid : Identified (flag D.d) (flag D.t) (extras D)) :
    Identified (flag D.swapGroups.d) (flag D.swapGroups.t) (extras D.swapGroups) := by
  show Identified (flag fun i => (D.d i).map (1 - ·)) (flag D.t) (extras D)
  rw [flag_swap hV.d]
  exact (twin_group _ _).identified hid

theorem identified_periods {D : Data ι C K} (hV : Valid D) (hid : Identified (flag D.d) (flag D.t) (extras D)) :
    Identified (flag D.swapPeriods.d) (flag D.swapPeriods.t) (extras D.swapPeriods) := by
  show Identified (flag D.d) (flag fun i => (D.t i).map (1 - ·)) (extras D)
  rw [flag_swap hV.t]
  exact (twin_period _ _).identified hid

/-- C155. Coding the comparison group as 1 (any covariates, fixed and absorbed effects, covariance option): the call returns the same report with ATT, t
statistic and interval of opposite sign and the group sizes exchanged; standard error, p-value and R squared are unchanged. -/
theorem C155_groups (L : TwfeFit.Lib ι K) (hL : Works L) (hP : LinReg.Prunes L) (robust strict : Bool) (alpha : K) (D : Data ι C K) (hV : Valid D)
    (hid : Identified (flag D.d) (flag D.t) (extras D)) (R : DidFit.Result K) :
    fit L robust strict alpha D.swapGroups = .ok (mirror (relabel R)) ↔ fit L robust strict alpha D = .ok R := by
  refine ⟨fun h => ?_, groups_ok hL hP hid⟩
  have := groups_ok hL hP (identified_groups hV hid) h
  rw [swapGroups_twice] at this
  rw [this]
  simp [mirror, relabel, neg_neg']

/-- C155. Coding the earlier period as 1: the same report with ATT, t statistic and interval of opposite sign. -/
theorem C155_periods (L : TwfeFit.Lib ι K) (hL : Works L) (hP : LinReg.Prunes L) (robust strict : Bool) (alpha : K) (D : Data ι C K) (hV : Valid D)
    (hid : Identified (flag D.d) (flag D.t) (extras D)) (R : DidFit.Result K) :
    fit L robust strict alpha D.swapPeriods = .ok (mirror R) ↔ fit L robust strict alpha D = .ok R := by
  refine ⟨fun h => ?_, periods_ok hL hP hid⟩
  have := periods_ok hL hP (identified_periods hV hid) h
  rw [swapPeriods_twice, mirror_mirror] at this
  exact this

/-- C155. Both swaps together leave everything but the group sizes as it is. -/
theorem C155_both (L : TwfeFit.Lib ι K) (hL : Works L) (hP : LinReg.Prunes L) (robust strict : Bool) (alpha : K) (D : Data ι C K) (hV : Valid D)
    (hid : Identified (flag D.d) (flag D.t) (extras D)) (R : DidFit.Result K) :
    fit L robust strict alpha D.swapGroups.swapPeriods = .ok (relabel R) ↔ fit L robust strict alpha D = .ok R := by
  have hV' : Valid D.swapGroups := ⟨hV.y, hV.cov, binary_swap hV.d, hV.t⟩
  rw [← C155_groups L hL hP robust strict alpha D hV hid R,
    ← C155_periods L hL hP robust strict alpha D.swapGroups hV' (identified_groups hV hid) (mirror (relabel R)), mirror_mirror]

theorem roles_ok {L : TwfeFit.Lib ι K} (hL : Works L) (hP : LinReg.Prunes L) {robust strict : Bool} {alpha : K} {D : Data ι C K}
    (hid : Identified (flag D.d) (flag D.t) (extras D)) {R : DidFit.Result K} (h : fit L robust strict alpha D = .ok R) :
    fit L robust strict alpha D.swapRoles = .ok (sized R (Finset.univ.filter (fun i => D.t i = some 1)).card (Finset.univ.filter (fun i => D.t i = some 0)).card) := by
  have hV := (fit_ok h).1
  obtain ⟨u, x, v, df, rfl, e⟩ := fit_twin hL hP (D := D) (D' := D.swapRoles) (s := 1) (twin_roles _ _)
    (fun h => ⟨h.y, h.cov, h.t, h.d⟩) rfl rfl rfl rfl rfl hid h
  rw [e, one_mul]
  have h1 : (Finset.univ.filter (fun i => flag D.t i = true)).card = (Finset.univ.filter (fun i => D.t i = some 1)).card := by simp [flag]
  have h0 : (Finset.univ.filter (fun i => flag D.t i = false)).card = (Finset.univ.filter (fun i => D.t i = some 0)).card := by
    congr 1
    ext i
    rcases hV.t.1 i with e | e <;> simp [flag, e]
  rw [← h1, ← h0]
  rfl

/-- C155. Treatment and time column exchanged: the same report, except that the group sizes now count rows of the later and of the earlier period. -/
theorem C155_roles (L : TwfeFit.Lib ι K) (hL : Works L) (hP : LinReg.Prunes L) (robust strict : Bool) (alpha : K) (D : Data ι C K)
    (hid : Identified (flag D.d) (flag D.t) (extras D)) (R : DidFit.Result K) (h : fit L robust strict alpha D = .ok R) :
    ∃ R', fit L robust strict alpha D.swapRoles = .ok R' ∧ R'.att = R.att ∧ R'.se = R.se ∧ R'.t = R.t ∧ R'.p = R.p ∧ R'.ci = R.ci ∧ R'.r2 = R.r2 ∧
      R'.nObs = R.nObs ∧ R'.nTreated = (Finset.univ.filter (fun i => D.t i = some 1)).card ∧
      R'.nControl = (Finset.univ.filter (fun i => D.t i = some 0)).card :=
  ⟨_, roles_ok hL hP hid h, rfl, rfl, rfl, rfl, rfl, rfl, rfl, rfl, rfl⟩

theorem sign_ok {L : TwfeFit.Lib ι K} (hL : Works L) (hP : LinReg.Prunes L) {robust strict : Bool} {alpha : K} {D : Data ι C K}
    (hid : Identified (flag D.d) (flag D.t) (extras D)) {R : DidFit.Result K} (h : fit L robust strict alpha D = .ok R) :
    fit L robust strict alpha D.negated = .ok (mirror R) := by
  obtain ⟨hV, hA, hc⟩ := fit_ok h
  obtain ⟨i0, -⟩ := hV.d.2.1
  have : Nonempty ι := ⟨i0⟩
  have hrun := (core_runs hL hP).1 ⟨R, hc⟩
  have hV' : Valid D.negated := ⟨fun i => by
    obtain ⟨z, hz⟩ := Option.ne_none_iff_exists'.1 (hV.y i)
    simp [Data.negated, hz], hV.cov, hV.d, hV.t⟩
  have hy : num (outcome D.negated) = fun i => -1 * num (outcome D) i := by
    funext i
    show num (absorbed D.absorb (fun i => (D.y i).map (-1 * ·))) i = _
    rw [absorbed_scale]
    show ((absorbed D.absorb D.y i).map (-1 * ·)).getD 0 = -1 * (absorbed D.absorb D.y i).getD 0
    cases absorbed D.absorb D.y i <;> simp
  obtain ⟨R', hR'⟩ := (core_runs (L := L) hL hP (o := ⟨robust, D.cluster, strict⟩) (alpha := alpha) (d := flag D.d) (t := flag D.t)
    (y := num (outcome D.negated)) (adj := adjustment D.absorb) (xs := extras D)).2 hrun
  have hn : nCoef D.negated ≤ Fintype.card ι := by
    have := hrun.1
    rwa [length_extras] at this
  have hfit : fit L robust strict alpha D.negated = .ok R' := by
    rw [fit_of_core hV' hA hn]
    show (core L ⟨robust, D.cluster, strict⟩ alpha (flag D.d) (flag D.t) (num (outcome D.negated)) (adjustment D.absorb) (extras D)).mapError Err.reg = _
    rw [hR']
    rfl
  rw [hfit]
  obtain ⟨w, u, x, k1, k2, k3, k4, k5, rfl⟩ := core_spec hL hP hid hc
  obtain ⟨w', u', x', l1, l2, l3, l4, l5, rfl⟩ := core_spec hL hP hid hR'
  have hw : w' = w := weights_unique l1 l2 k1 k2
  have hu : u' = fun i => -1 * u i := by
    refine resid_unique (y := num (outcome D.negated)) l3 l4 (x' := -1 * x) ?_ (by simpa using k4.smul (-1))
    have := k3.smul (-1)
    have e : (fun i => -1 * (num (outcome D) i - u i)) = fun i => num (outcome D.negated) i - -1 * u i := by funext i; rw [hy]; ring
    rwa [e] at this
  have hx : x' = -x := by
    rw [l5, k5, hw, ← Finset.sum_neg_distrib]
    exact Finset.sum_congr rfl fun i _ => by rw [hy]; ring
  rw [hw, hu, hx, hy, variance_scale, out_negY, out_neg]
  have : ((-1 : K) ^ 2 * ·) = id := by funext z; simp
  rw [this, Option.map_id]
  rfl

/-- C155. Negating the outcome: the same report with ATT, t statistic and interval of opposite sign. -/
theorem C155_sign (L : TwfeFit.Lib ι K) (hL : Works L) (hP : LinReg.Prunes L) (robust strict : Bool) (alpha : K) (D : Data ι C K)
    (hid : Identified (flag D.d) (flag D.t) (extras D)) (R : DidFit.Result K) :
    fit L robust strict alpha D.negated = .ok (mirror R) ↔ fit L robust strict alpha D = .ok R := by
  refine ⟨fun h => ?_, sign_ok hL hP hid⟩
  have := sign_ok (D := D.negated) hL hP hid h
  rw [mirror_mirror] at this
  rwa [show D.negated.negated = D by
    cases D
    simp only [Data.negated, Option.map_map]
    congr 1
    funext i
    have : ((-1 * ·) ∘ (-1 * ·) : K → K) = id := by funext z; simp
    rw [this, Option.map_id]
    rfl] at this

end DiffDiff.DidFull
