/-
Property C34, identification: on balanced panels without noise the estimator returns the true cohort effects.
-/
import Verif.SunAbProps

set_option linter.unusedSectionVars false

namespace DiffDiff.SunAb

open CS (Coh)

variable {K : Type*} [Field K] [LinearOrder K] [IsStrictOrderedRing K]

/-! ### Least squares, independently of the estimator -/

/-- Fitted value of observation `i`. -/
def predict (b : List K) (X : List (List K)) (i : ℕ) : K := (List.zipWith (fun c x => c * x.getD i 0) b X).sum

/-- Residual sum of squares. -/
def ssr (X : List (List K)) (y : List K) (b : List K) : K :=
  ((List.range y.length).map (fun i => (y.getD i 0 - predict b X i) ^ 2)).sum

def IsLeastSquares (X : List (List K)) (y : List K) (b : List K) : Prop :=
  b.length = X.length ∧ ∀ b', b'.length = X.length → ssr X y b ≤ ssr X y b'

/-- Linearly independent columns. -/
def Independent (X : List (List K)) (m : ℕ) : Prop :=
  ∀ b, b.length = X.length → (∀ i < m, predict b X i = 0) → ∀ c ∈ b, c = 0

/-- The regression routine returns least squares coefficients whenever the columns are independent. -/
def SolvesLS (reg : List (List K) → List K → Option (Reg K)) : Prop :=
  ∀ X y f, reg X y = some f → Independent X y.length →
    ∃ b, IsLeastSquares X y b ∧ ∀ j, j < X.length → f.coef j = some (b.getD j 0)

/-- Balanced panel: every unit has each period once and every period has each unit once. -/
structure Grid (df : List (Row K)) (U : List ℕ) (T : List ℤ) : Prop where
  nodupT : T.Nodup
  mem : ∀ r ∈ df, r.unit ∈ U ∧ r.time ∈ T
  row : ∀ u ∈ U, ((df.filter (fun r => decide (r.unit = u))).map (fun r => r.time)).Perm T
  col : ∀ t ∈ T, ((df.filter (fun r => decide (r.time = t))).map (fun r => r.unit)).Perm U

/-! ### Linearity of the within transformation -/

theorem sum_map_add' {α : Type*} (l : List α) (f g : α → K) :
    (l.map (fun a => f a + g a)).sum = (l.map f).sum + (l.map g).sum := List.sum_map_add

theorem within_add (df : List (Row K)) (x z : Row K → K) (r : Row K) :
    within df (fun s => x s + z s) r = within df x r + within df z r := by
  unfold within
  simp only [sum_map_add', add_div]
  ring

theorem within_smul (df : List (Row K)) (c : K) (x : Row K → K) (r : Row K) :
    within df (fun s => c * x s) r = c * within df x r := by
  unfold within
  simp only [List.sum_map_mul_left, mul_div_assoc]
  ring

theorem within_congr (df : List (Row K)) (x z : Row K → K) (h : ∀ s ∈ df, x s = z s) {r : Row K} (hr : r ∈ df) :
    within df x r = within df z r := by
  unfold within
  simp only
  rw [List.map_congr_left (fun s hs => h s (List.mem_filter.1 hs).1),
    List.map_congr_left (l := df.filter (fun s => decide (s.time = r.time))) (fun s hs => h s (List.mem_filter.1 hs).1),
    List.map_congr_left h, h r hr]

/-- Regression function of a table of effects. -/
def lin (ks : List Key) (β : Key → K) (r : Row K) : K := (ks.map (fun k => β k * dummy k r)).sum

theorem within_zero (df : List (Row K)) (r : Row K) : within df (fun _ => (0 : K)) r = 0 := by
  unfold within
  simp

theorem within_lin (df : List (Row K)) (ks : List Key) (β : Key → K) (r : Row K) :
    within df (lin ks β) r = (ks.map (fun k => β k * within df (dummy k) r)).sum := by
  induction ks with
  | nil => exact within_zero df r
  | cons k ks ih =>
    have : lin (k :: ks) β = fun s => β k * dummy k s + lin ks β s := by
      funext s
      simp [lin]
    rw [this, within_add, within_smul, ih]
    simp

theorem predict_design (df : List (Row K)) (ks : List Key) (β : Key → K) (i : ℕ) (hi : i < df.length) :
    predict (ks.map β) (design df ks) i = within df (lin ks β) df[i] := by
  rw [within_lin]
  unfold predict design
  rw [List.zipWith_map]
  congr 1
  induction ks with
  | nil => rfl
  | cons k ks ih =>
    rw [List.zipWith_cons_cons, List.map_cons, ih]
    congr 2
    rw [List.getD_eq_getElem _ _ (by simpa using hi), List.getElem_map]

theorem list_as_table {ks : List Key} (hn : ks.Nodup) (b : List K) (hb : b.length = ks.length) :
    b = ks.map (fun k => b.getD (ks.idxOf k) 0) := by
  apply List.ext_getElem
  · simpa using hb
  · intro i h1 h2
    have h3 : i < ks.length := by rwa [hb] at h1
    rw [List.getElem_map, List.Nodup.idxOf_getElem hn i h3, List.getD_eq_getElem _ _ h1]

/-! ### Fixed effects vanish -/

theorem sum_by_time (df : List (Row K)) (T : List ℤ) (hT : T.Nodup) (hm : ∀ r ∈ df, r.time ∈ T) (x : Row K → K) :
    (df.map x).sum = (T.map (fun t => ((df.filter (fun r => decide (r.time = t))).map x).sum)).sum := by
  induction df with
  | nil => simp
  | cons r rs ih =>
    have ih' := ih (fun s hs => hm s (List.mem_cons_of_mem _ hs))
    have hr := hm r (List.mem_cons_self ..)
    have e : ∀ t, (((r :: rs).filter (fun s => decide (s.time = t))).map x).sum =
        (if r.time = t then x r else 0) + ((rs.filter (fun s => decide (s.time = t))).map x).sum := by
      intro t
      rw [List.filter_cons]
      by_cases h : r.time = t
      · rw [if_pos (by simpa using h), if_pos h, List.map_cons, List.sum_cons]
      · rw [if_neg (by simpa using h), if_neg h, zero_add]
    simp only [e, sum_map_add', ← ih', List.map_cons, List.sum_cons]
    congr 1
    clear ih ih' e hm
    induction T with
    | nil => cases hr
    | cons t ts iht =>
      rw [List.map_cons, List.sum_cons]
      rw [List.nodup_cons] at hT
      by_cases h : r.time = t
      · rw [if_pos h]
        have : (ts.map (fun t => if r.time = t then x r else 0)).sum = 0 := by
          apply List.sum_eq_zero
          intro a ha
          obtain ⟨t', ht', rfl⟩ := List.mem_map.1 ha
          exact if_neg (fun h' => hT.1 (by rw [← h, h']; exact ht'))
        rw [this, add_zero]
      · rw [if_neg h, zero_add]
        exact iht hT.2 ((List.mem_cons.1 hr).resolve_left h)

theorem within_fixed {df : List (Row K)} {U : List ℕ} {T : List ℤ} (hG : Grid df U T) (α : ℕ → K) (δ : ℤ → K)
    {r : Row K} (hr : r ∈ df) : within df (fun s => α s.unit + δ s.time) r = 0 := by
  obtain ⟨hu, ht⟩ := hG.mem r hr
  have hU : (U.length : K) ≠ 0 := by
    have : U.length ≠ 0 := fun h => by rw [List.length_eq_zero_iff] at h; rw [h] at hu; cases hu
    exact_mod_cast this
  have hTl : (T.length : K) ≠ 0 := by
    have : T.length ≠ 0 := fun h => by rw [List.length_eq_zero_iff] at h; rw [h] at ht; cases ht
    exact_mod_cast this
  have rowlen : ∀ u ∈ U, (df.filter (fun s => decide (s.unit = u))).length = T.length := by
    intro u hu
    rw [← (hG.row u hu).length_eq, List.length_map]
  have collen : ∀ t ∈ T, (df.filter (fun s => decide (s.time = t))).length = U.length := by
    intro t ht
    rw [← (hG.col t ht).length_eq, List.length_map]
  have rowsum : ((df.filter (fun s => decide (s.unit = r.unit))).map (fun s => α s.unit + δ s.time)).sum =
      T.length * α r.unit + (T.map δ).sum := by
    rw [sum_map_add']
    congr 1
    · have : (df.filter (fun s => decide (s.unit = r.unit))).map (fun s => α s.unit) =
          (df.filter (fun s => decide (s.unit = r.unit))).map (fun _ => α r.unit) :=
        List.map_congr_left (fun s hs => by
          have := (List.mem_filter.1 hs).2
          rw [decide_eq_true_eq] at this
          rw [this])
      rw [this, List.map_const', List.sum_replicate, nsmul_eq_mul, rowlen _ hu]
    · have := ((hG.row r.unit hu).map δ).sum_eq
      rw [List.map_map] at this
      exact this
  have colsum : ∀ t ∈ T, ((df.filter (fun s => decide (s.time = t))).map (fun s => α s.unit + δ s.time)).sum =
      (U.map α).sum + U.length * δ t := by
    intro t ht
    rw [sum_map_add']
    congr 1
    · have := ((hG.col t ht).map α).sum_eq
      rw [List.map_map] at this
      exact this
    · have : (df.filter (fun s => decide (s.time = t))).map (fun s => δ s.time) =
          (df.filter (fun s => decide (s.time = t))).map (fun _ => δ t) :=
        List.map_congr_left (fun s hs => by
          have := (List.mem_filter.1 hs).2
          rw [decide_eq_true_eq] at this
          rw [this])
      rw [this, List.map_const', List.sum_replicate, nsmul_eq_mul, collen _ ht]
  have total : (df.map (fun s => α s.unit + δ s.time)).sum = T.length * (U.map α).sum + U.length * (T.map δ).sum := by
    rw [sum_by_time df T hG.nodupT (fun s hs => (hG.mem s hs).2), List.map_congr_left colsum, sum_map_add',
      List.sum_map_mul_left, List.map_const', List.sum_replicate, nsmul_eq_mul]
  have len : (df.length : K) = T.length * U.length := by
    have h1 := sum_by_time df T hG.nodupT (fun s hs => (hG.mem s hs).2) (fun _ => (1 : K))
    have h2 : T.map (fun t => ((df.filter (fun s => decide (s.time = t))).map (fun _ => (1 : K))).sum) =
        T.map (fun _ => (U.length : K)) :=
      List.map_congr_left (fun t ht => by
        rw [List.map_const', List.sum_replicate, nsmul_eq_mul, mul_one, collen t ht])
    rw [h2, List.map_const', List.sum_replicate, List.map_const', List.sum_replicate, nsmul_eq_mul, nsmul_eq_mul,
      mul_one] at h1
    exact h1
  unfold within
  simp only
  rw [rowsum, colsum _ ht, total, rowlen _ hu, collen _ ht, len]
  field_simp
  ring

/-! ### The saturated design has full rank -/

theorem keys_nodup {gs : List Coh} {es : List ℤ} (hg : gs.Nodup) (he : es.Nodup) (df : List (Row K)) :
    (keys gs es df).Nodup := by
  unfold keys
  exact (hg.product he).filter _

theorem groups_nodup (df : List (Row K)) : (groups df).Nodup := by
  unfold groups
  rw [List.nodup_append]
  refine ⟨?_, ?_, ?_⟩
  · apply List.Nodup.map
    · intro a b h; cases h; rfl
    · exact ((List.perm_insertionSort _ _).nodup_iff).2 (List.nodup_dedup _)
  · split_ifs <;> simp
  · intro a ha b hb
    obtain ⟨z, _, rfl⟩ := List.mem_map.1 ha
    split_ifs at hb
    · simp at hb; rw [hb]; intro h; cases h
    · cases hb

theorem relPeriods_nodup (ant : ℤ) (df : List (Row K)) : (relPeriods ant df).Nodup := by
  unfold relPeriods
  apply List.Nodup.filter
  exact ((List.perm_insertionSort _ _).nodup_iff).2 (List.nodup_dedup _)

/-- Value of the regression function: the coefficient of the row's own cohort and event time. -/
theorem lin_of_mem {ks : List Key} (hn : ks.Nodup) (β : Key → K) {r : Row K} {e : ℤ} (hr : relTime r = some e)
    (hk : (r.cohort, e) ∈ ks) : lin ks β r = β (r.cohort, e) := by
  unfold lin
  induction ks with
  | nil => cases hk
  | cons k ks ih =>
    rw [List.nodup_cons] at hn
    rw [List.map_cons, List.sum_cons]
    by_cases h : k = (r.cohort, e)
    · have h0 : (ks.map (fun k => β k * dummy k r)).sum = 0 := by
        apply List.sum_eq_zero
        intro a ha
        obtain ⟨k', hk', rfl⟩ := List.mem_map.1 ha
        unfold dummy
        rw [if_neg, mul_zero]
        rintro ⟨h1, h2⟩
        apply hn.1
        rw [h]
        rw [hr] at h2
        have : k' = (r.cohort, e) := Prod.ext h1.symm (Option.some.inj h2).symm
        rwa [this] at hk'
      rw [h0, add_zero, h]
      unfold dummy
      rw [if_pos ⟨rfl, hr⟩, mul_one]
    · have : (dummy k r : K) = 0 := by
        unfold dummy
        rw [if_neg]
        rintro ⟨h1, h2⟩
        rw [hr] at h2
        exact h (Prod.ext h1.symm (Option.some.inj h2).symm)
      rw [this, mul_zero, zero_add]
      exact ih hn.2 ((List.mem_cons.1 hk).resolve_left (Ne.symm h))

theorem lin_of_not_mem {ks : List Key} (β : Key → K) {r : Row K}
    (hk : ∀ e, relTime r = some e → (r.cohort, e) ∉ ks) : lin ks β r = 0 := by
  unfold lin
  apply List.sum_eq_zero
  intro a ha
  obtain ⟨k, hk', rfl⟩ := List.mem_map.1 ha
  unfold dummy
  rw [if_neg, mul_zero]
  rintro ⟨h1, h2⟩
  apply hk _ h2
  rw [h1]
  exact hk'

/-- If a table of effects looks like fixed effects on the sample, it is zero. -/
theorem table_zero {df : List (Row K)} {U : List ℕ} {T : List ℤ} (hG : Grid df U T) (co : ℕ → Coh)
    (hco : ∀ r ∈ df, r.cohort = co r.unit) (ant : ℤ)
    (href : ∀ r ∈ df, ∀ g, finPos r.cohort = some g → g - 1 - ant ∈ T)
    {u0 : ℕ} (hu0 : u0 ∈ U) (hn0 : (co u0).isNever = true)
    {ks : List Key} (hnd : ks.Nodup) (hks : ∀ k ∈ ks, k.2 ≠ -1 - ant ∧ ∃ r ∈ df, r.cohort = k.1 ∧ relTime r = some k.2)
    (β : Key → K) (hz : ∀ r ∈ df, within df (lin ks β) r = 0) : ∀ k ∈ ks, β k = 0 := by
  -- additive form
  let A : ℕ → K := fun u => ((df.filter (fun s => decide (s.unit = u))).map (lin ks β)).sum /
    ((df.filter (fun s => decide (s.unit = u))).length : K)
  let B : ℤ → K := fun t => ((df.filter (fun s => decide (s.time = t))).map (lin ks β)).sum /
    ((df.filter (fun s => decide (s.time = t))).length : K) - (df.map (lin ks β)).sum / (df.length : K)
  have hadd : ∀ r ∈ df, lin ks β r = A r.unit + B r.time := by
    intro r hr
    have := hz r hr
    unfold within at this
    simp only at this
    show _ = _ / _ + (_ / _ - _ / _)
    linarith
  -- every unit of U has a row in every period of T
  have hrow : ∀ u ∈ U, ∀ t ∈ T, ∃ r ∈ df, r.unit = u ∧ r.time = t := by
    intro u hu t ht
    have := (hG.row u hu).mem_iff.2 ht
    obtain ⟨r, hr, hrt⟩ := List.mem_map.1 this
    obtain ⟨h1, h2⟩ := List.mem_filter.1 hr
    rw [decide_eq_true_eq] at h2
    exact ⟨r, h1, h2, hrt⟩
  have hB : ∀ t ∈ T, B t = - A u0 := by
    intro t ht
    obtain ⟨r, hr, h1, h2⟩ := hrow u0 hu0 t ht
    have hl : lin ks β r = 0 := by
      apply lin_of_not_mem
      intro e he
      obtain ⟨z, hz, hc, _⟩ := relTime_some he
      have := hco r hr
      rw [h1] at this
      rw [← this, hc] at hn0
      simp [Coh.isNever] at hn0
      omega
    have := hadd r hr
    rw [hl, h1, h2] at this
    linarith
  intro k hk
  obtain ⟨hne, r, hr, hc, hrel⟩ := hks k hk
  obtain ⟨g, hg, hcg, _⟩ := relTime_some hrel
  have hfp : finPos r.cohort = some g := by rw [hcg]; simp [finPos, hg]
  have hT := href r hr g hfp
  obtain ⟨r', hr', h1, h2⟩ := hrow r.unit (hG.mem r hr).1 _ hT
  have hc' : r'.cohort = r.cohort := by rw [hco r' hr', hco r hr, h1]
  have hl' : lin ks β r' = 0 := by
    apply lin_of_not_mem
    intro e he
    obtain ⟨z, _, hz2, he2⟩ := relTime_some he
    have : z = g := by
      have := hz2.symm.trans (hc'.trans hcg)
      cases this; rfl
    have : e = -1 - ant := by rw [he2, h2, this]; ring
    intro hm
    exact (hks _ hm).1 this
  have e1 := hadd r' hr'
  rw [hl', h1, hB _ (hG.mem r' hr').2] at e1
  have e2 := hadd r hr
  rw [hB _ (hG.mem r hr).2] at e2
  rw [lin_of_mem hnd β hrel (by rw [hc]; exact hk), hc] at e2
  have : β k = A r.unit + -A u0 := e2
  rw [this, ← e1]

/-- C34, identification: in every balanced panel in which never-treated units exist and every treated cohort is observed in
its reference period, if outcomes are unit effect plus period effect plus a cohort-by-event-time effect that is zero in the
reference period (and beyond the 20-period horizon), every reported cohort effect is the true one and every event-study
effect is the cohort-size weighted average of the true effects, for both control-group options. No rank condition is
assumed. -/
theorem C34_identification (reg : List (List K) → List K → Option (Reg K)) (hreg : SolvesLS reg) (ant : ℤ) (c : Control)
    (df : List (Row K)) (U : List ℕ) (T : List ℤ) (hG : Grid df U T) (co : ℕ → Coh)
    (hco : ∀ r ∈ df, r.cohort = co r.unit)
    (hval : ∀ r ∈ df, r.cohort.isNever = true ∨ ∃ g, 0 < g ∧ r.cohort = .num g ∧ g - 1 - ant ∈ T)
    (α : ℕ → K) (δ : ℤ → K) (τ : Key → K)
    (hτ : ∀ g e, e = -1 - ant ∨ e < -20 ∨ 20 < e → τ (g, e) = 0)
    (hy : ∀ r ∈ df, r.y = some (α r.unit + δ r.time + ((relTime r).map (fun e => τ (r.cohort, e))).getD 0))
    (R : Results K) (h : fit reg ant c df = .ok R) :
    (∀ k v, (k, v) ∈ R.cohortEffects → v = some (τ k)) ∧
    (∀ ev ∈ R.events, ev.effect = some ((ev.weights.map (fun p => p.2 * τ (p.1, ev.e))).sum)) := by
  obtain ⟨hnc, _, f, hs, he, _, hce, _⟩ := fit_ok h
  have hsam : sample c df = df := by
    cases c with
    | notYet => rfl
    | never =>
      unfold sample
      rw [List.filter_eq_self]
      intro r hr
      rcases hval r hr with h | ⟨g, hg, h, _⟩
      · rw [h]; rfl
      · rw [h]; simp [Coh.isNever, Coh.pos, hg]
  rw [hsam] at hs he hce
  set ks := keys (groups df) (relPeriods ant df) df with hksdef
  have hnd : ks.Nodup := keys_nodup (groups_nodup df) (relPeriods_nodup ant df) df
  -- a never-treated unit
  have hnev : ∃ u0 ∈ U, (co u0).isNever = true := by
    have hne : (units df).filter (fun u => unitNever df u) ≠ [] := by
      intro h0
      apply hnc
      unfold nControl
      rw [h0]; rfl
    obtain ⟨u, hu⟩ := List.exists_mem_of_ne_nil _ hne
    have hu2 := (List.mem_filter.1 hu).2
    unfold unitNever at hu2
    cases hl : df.filter (fun r => decide (r.unit = u)) with
    | nil => rw [hl] at hu2; simp at hu2
    | cons r rs =>
      rw [hl] at hu2
      have hr : r ∈ df.filter (fun r => decide (r.unit = u)) := by rw [hl]; exact List.mem_cons_self ..
      obtain ⟨hr1, hr2⟩ := List.mem_filter.1 hr
      rw [decide_eq_true_eq] at hr2
      refine ⟨u, hr2 ▸ (hG.mem r hr1).1, ?_⟩
      rw [← hr2, ← hco r hr1]
      simpa using hu2
  obtain ⟨u0, hu0, hn0⟩ := hnev
  have href : ∀ r ∈ df, ∀ g, finPos r.cohort = some g → g - 1 - ant ∈ T := by
    intro r hr g hg
    rcases hval r hr with h | ⟨g', _, h, hT⟩
    · exfalso
      unfold finPos at hg
      split at hg
      · rename_i z hz
        rw [hz] at h
        simp [Coh.isNever] at h
        simp [h] at hg
      · cases hg
    · rw [h] at hg
      simp [finPos] at hg
      rw [← hg.2]
      exact hT
  have hks : ∀ k ∈ ks, k.2 ≠ -1 - ant ∧ ∃ r ∈ df, r.cohort = k.1 ∧ relTime r = some k.2 := by
    intro k hk
    obtain ⟨_, h2, h3⟩ := mem_keys.1 hk
    exact ⟨(mem_relPeriods h2).2.2.1, h3⟩
  -- the regression
  have hsome : df.all (fun r => r.y.isSome) = true := by
    rw [List.all_eq_true]
    intro r hr
    rw [hy r hr]; rfl
  have hresp : response df = some (df.map (fun r => within df (fun s => s.y.getD 0) r)) := by
    unfold response
    rw [if_pos hsome]
  have hrg : reg (design df ks) (df.map (fun r => within df (fun s => s.y.getD 0) r)) = some f := by
    unfold saturated at hs
    simp only at hs
    split_ifs at hs
    rw [hresp] at hs
    simp only at hs
    split at hs
    · cases hs
    · rename_i f' hf'
      cases hs
      exact hf'
  set yv := df.map (fun r => within df (fun s => s.y.getD 0) r) with hyv
  have hlen : yv.length = df.length := by simp [hyv]
  have hXlen : (design df ks).length = ks.length := by simp [design]
  have hind : Independent (design df ks) yv.length := by
    intro b hb hz
    rw [hXlen] at hb
    have hbt := list_as_table hnd b hb
    rw [hbt] at hz ⊢
    have hzero := table_zero hG co hco ant href hu0 hn0 hnd hks (fun k => b.getD (ks.idxOf k) 0) (by
      intro r hr
      obtain ⟨i, hi, rfl⟩ := List.getElem_of_mem hr
      rw [← predict_design df ks _ i hi]
      exact hz i (by rw [hlen]; exact hi))
    intro x hx
    obtain ⟨k, hk, rfl⟩ := List.mem_map.1 hx
    exact hzero k hk
  obtain ⟨b, ⟨hb, hmin⟩, hcoef⟩ := hreg _ _ f hrg hind
  rw [hXlen] at hb
  -- outcome equals the regression function of the true table plus fixed effects
  have hyt : ∀ r ∈ df, r.y.getD 0 = (α r.unit + δ r.time) + lin ks τ r := by
    intro r hr
    rw [hy r hr]
    show α r.unit + δ r.time + _ = _
    congr 1
    cases hrel : relTime r with
    | none =>
      rw [lin_of_not_mem τ (fun e he => by rw [hrel] at he; cases he)]
      rfl
    | some e =>
      show τ (r.cohort, e) = _
      by_cases hm : (r.cohort, e) ∈ ks
      · rw [lin_of_mem hnd τ hrel hm]
      · rw [lin_of_not_mem τ (fun e' he' => by
          rw [hrel] at he'
          rw [← Option.some.inj he']
          exact hm)]
        apply hτ
        by_contra hcon
        push Not at hcon
        apply hm
        rw [hksdef, mem_keys]
        obtain ⟨g, hg, hcg, _⟩ := relTime_some hrel
        refine ⟨?_, ?_, r, hr, rfl, hrel⟩
        · unfold groups
          apply List.mem_append_left
          show r.cohort ∈ _
          rw [hcg]
          apply List.mem_map_of_mem
          rw [List.mem_insertionSort, List.mem_dedup, List.mem_filterMap]
          exact ⟨r, hr, by rw [hcg]; simp [finPos, hg]⟩
        · unfold relPeriods
          rw [List.mem_filter]
          refine ⟨?_, by simpa using ⟨hcon.2, hcon.1⟩⟩
          rw [List.mem_insertionSort, List.mem_dedup, List.mem_filterMap]
          exact ⟨r, hr, hrel⟩
  have hwy : ∀ r ∈ df, within df (fun s => s.y.getD 0) r = within df (lin ks τ) r := by
    intro r hr
    rw [within_congr df _ _ hyt hr, within_add, within_fixed hG α δ hr, zero_add]
  have hyi : ∀ i, i < df.length → yv.getD i 0 = predict (ks.map τ) (design df ks) i := by
    intro i hi
    rw [predict_design df ks τ i hi, ← hwy _ (List.getElem_mem hi), hyv,
      List.getD_eq_getElem _ _ (by simpa using hi), List.getElem_map]
  have hssr0 : ssr (design df ks) yv (ks.map τ) = 0 := by
    unfold ssr
    apply List.sum_eq_zero
    intro a ha
    obtain ⟨i, hi, rfl⟩ := List.mem_map.1 ha
    rw [List.mem_range, hlen] at hi
    rw [hyi i hi, sub_self]
    ring
  have hssrb : ssr (design df ks) yv b ≤ 0 := by
    rw [← hssr0]
    exact hmin _ (by rw [List.length_map, hXlen])
  have hres : ∀ i, i < df.length → yv.getD i 0 - predict b (design df ks) i = 0 := by
    intro i hi
    have hall : ∀ x ∈ (List.range yv.length).map (fun i => (yv.getD i 0 - predict b (design df ks) i) ^ 2), 0 ≤ x := by
      intro x hx
      obtain ⟨j, _, rfl⟩ := List.mem_map.1 hx
      positivity
    have hle : (yv.getD i 0 - predict b (design df ks) i) ^ 2 ≤ ssr (design df ks) yv b :=
      List.single_le_sum hall _ (List.mem_map.2 ⟨i, by rw [List.mem_range, hlen]; exact hi, rfl⟩)
    have : (yv.getD i 0 - predict b (design df ks) i) ^ 2 = 0 := le_antisymm (hle.trans hssrb) (by positivity)
    exact pow_eq_zero_iff (two_ne_zero) |>.1 this
  -- so the coefficients are the true effects
  have hbt := list_as_table hnd b hb
  have hβ : ∀ k ∈ ks, b.getD (ks.idxOf k) 0 - τ k = 0 := by
    apply table_zero hG co hco ant href hu0 hn0 hnd hks (fun k => b.getD (ks.idxOf k) 0 - τ k)
    intro r hr
    obtain ⟨i, hi, rfl⟩ := List.getElem_of_mem hr
    have e1 : lin ks (fun k => b.getD (ks.idxOf k) 0 - τ k) =
        fun s => lin ks (fun k => b.getD (ks.idxOf k) 0) s + (-1) * lin ks τ s := by
      funext s
      unfold lin
      rw [← List.sum_map_mul_left, ← sum_map_add']
      exact congrArg List.sum (List.map_congr_left (fun k _ => by ring))
    rw [e1, within_add, within_smul, ← predict_design df ks _ i hi, ← predict_design df ks _ i hi, ← hbt, ← hyi i hi]
    have := hres i hi
    linarith
  have hcoefk : ∀ k ∈ ks, coefOf ks f k = some (τ k) := by
    intro k hk
    unfold coefOf
    rw [hcoef _ (by rw [hXlen]; exact List.idxOf_lt_length_iff.2 hk)]
    congr 1
    have := hβ k hk
    linarith
  constructor
  · intro k v hkv
    rw [hce] at hkv
    obtain ⟨k', hk', heq⟩ := List.mem_map.1 hkv
    cases heq
    exact hcoefk k hk'
  · intro ev hev
    rw [he] at hev
    obtain ⟨_, hw, _, _, heff, _, _⟩ := eventAt_some (mem_iw hev).2
    rw [heff]
    apply osum_some
    intro p hp
    rw [hw] at hp
    obtain ⟨g, hg, rfl⟩ := List.mem_map.1 hp
    have hk := (List.mem_filter.1 hg).2
    rw [decide_eq_true_eq] at hk
    rw [hcoefk _ hk]
    rfl

/-! ### A panel meeting the hypotheses -/

theorem ssr_nonneg (X : List (List K)) (y b : List K) : 0 ≤ ssr X y b := by
  unfold ssr
  apply List.sum_nonneg
  intro a ha
  obtain ⟨i, _, rfl⟩ := List.mem_map.1 ha
  positivity

/-- True effects of the demo panel: cohorts 2 and 3 have different paths, cohort 3 a non-zero effect two periods before. -/
def demoTau : Key → ℚ := fun k =>
  if k = (.num 2, 0) then 5 else if k = (.num 2, 1) then 7 else if k = (.num 3, -2) then 1 / 2
  else if k = (.num 3, 0) then 11 else 0

/-- Two units of cohort 2, one of cohort 3, one never treated; outcome `10 unit + time² + effect`. -/
def demoId : List (Row ℚ) :=
  [⟨0, 1, 1, .num 2, some 11⟩, ⟨1, 1, 2, .num 2, some 19⟩, ⟨2, 1, 3, .num 2, some 26⟩,
   ⟨3, 2, 1, .num 3, some (43 / 2)⟩, ⟨4, 2, 2, .num 3, some 24⟩, ⟨5, 2, 3, .num 3, some 40⟩,
   ⟨6, 3, 1, .num 0, some 31⟩, ⟨7, 3, 2, .num 0, some 34⟩, ⟨8, 3, 3, .num 0, some 39⟩,
   ⟨9, 4, 1, .num 2, some 41⟩, ⟨10, 4, 2, .num 2, some 49⟩, ⟨11, 4, 3, .num 2, some 56⟩]

/-- The cohorts of the demo panel by unit. -/
def demoCo : ℕ → Coh := fun u => if u = 2 then .num 3 else if u = 3 then .num 0 else .num 2

/-- Least squares on the demo design (and no answer on other inputs). -/
def demoLS : List (List ℚ) → List ℚ → Option (Reg ℚ) := fun X y =>
  if X.length = 4 ∧ ssr X y [5, 7, 1 / 2, 11] = 0 then
    some ⟨fun j => some (([5, 7, 1 / 2, 11] : List ℚ).getD j 0), fun _ _ => some 0⟩
  else none

theorem demoLS_solves : SolvesLS demoLS := by
  intro X y f h _
  unfold demoLS at h
  split_ifs at h with hc
  cases h
  exact ⟨[5, 7, 1 / 2, 11], ⟨hc.1.symm, fun b' _ => by rw [hc.2]; exact ssr_nonneg X y b'⟩, fun j _ => rfl⟩

example : Grid demoId [1, 2, 3, 4] [1, 2, 3] ∧ (∀ r ∈ demoId, r.cohort = demoCo r.unit) ∧
    (∀ r ∈ demoId, r.cohort.isNever = true ∨ ∃ g, 0 < g ∧ r.cohort = .num g ∧ g - 1 - 0 ∈ ([1, 2, 3] : List ℤ)) ∧
    (∀ r ∈ demoId, r.y = some ((10 * r.unit : ℚ) + r.time ^ 2 +
      ((relTime r).map (fun e => demoTau (r.cohort, e))).getD 0)) ∧
    (∃ R, fit demoLS 0 .never demoId = .ok R) := by
  refine ⟨⟨by decide, by decide, by decide +kernel, by decide +kernel⟩, by decide +kernel, ?_, by decide +kernel, ?_⟩
  · intro r hr
    simp only [demoId, List.mem_cons, List.not_mem_nil, or_false] at hr
    rcases hr with rfl | rfl | rfl | rfl | rfl | rfl | rfl | rfl | rfl | rfl | rfl | rfl <;>
      first
      | exact Or.inl rfl
      | exact Or.inr ⟨2, by decide, rfl, by decide⟩
      | exact Or.inr ⟨3, by decide, rfl, by decide⟩
  · cases h : fit demoLS 0 .never demoId with
    | ok R => exact ⟨R, rfl⟩
    | error e =>
      exfalso
      have : effects (fit demoLS 0 .never demoId) ≠ [] := by decide +kernel
      rw [h] at this
      exact this rfl

end DiffDiff.SunAb
