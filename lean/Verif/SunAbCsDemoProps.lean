/-
Property C136, continued: a panel meeting the hypotheses, and the settings in which the two estimators differ.
-/
import Verif.SunAbCsOverallProps

set_option linter.unusedSectionVars false

namespace DiffDiff.SunAb

open CS (Coh Cfg Panel Entry attGt basePeriod)

/-- Units 1 and 4 of cohort 4, unit 2 of cohort 2, units 3 and 5 never treated (0 and infinity); five periods, arbitrary
outcomes. -/
def demoCs : List (Row ℚ) :=
  [⟨0, 1, 0, .num 4, some 3⟩, ⟨1, 1, 1, .num 4, some 1⟩, ⟨2, 1, 2, .num 4, some 4⟩, ⟨3, 1, 3, .num 4, some 1⟩,
   ⟨4, 1, 4, .num 4, some 5⟩,
   ⟨5, 2, 0, .num 2, some 9⟩, ⟨6, 2, 1, .num 2, some 2⟩, ⟨7, 2, 2, .num 2, some 6⟩, ⟨8, 2, 3, .num 2, some 5⟩,
   ⟨9, 2, 4, .num 2, some 3⟩,
   ⟨10, 3, 0, .num 0, some 5⟩, ⟨11, 3, 1, .num 0, some 8⟩, ⟨12, 3, 2, .num 0, some 9⟩, ⟨13, 3, 3, .num 0, some 7⟩,
   ⟨14, 3, 4, .num 0, some 9⟩,
   ⟨15, 4, 0, .num 4, some 3⟩, ⟨16, 4, 1, .num 4, some 2⟩, ⟨17, 4, 2, .num 4, some 3⟩, ⟨18, 4, 3, .num 4, some 8⟩,
   ⟨19, 4, 4, .num 4, some 4⟩,
   ⟨20, 5, 0, .inf, some 6⟩, ⟨21, 5, 1, .inf, some 2⟩, ⟨22, 5, 2, .inf, some 6⟩, ⟨23, 5, 3, .inf, some 4⟩,
   ⟨24, 5, 4, .inf, some 3⟩]

/-- Cohorts of the demo panel by unit. -/
def demoCsCo : ℕ → Coh := fun u => if u = 1 ∨ u = 4 then .num 4 else if u = 2 then .num 2 else if u = 3 then .num 0 else .inf

theorem demoCs_regular (ant : ℤ) (h : ant = 0 ∨ ant = 1) : Regular ant demoCs [1, 2, 3, 4, 5] [0, 1, 2, 3, 4] demoCsCo := by
  refine ⟨⟨⟨by decide, by decide, by decide +kernel, by decide +kernel⟩, by decide +kernel, ?_, by decide +kernel⟩, ?_⟩
  · intro r hr
    simp only [demoCs, List.mem_cons, List.not_mem_nil, or_false] at hr
    rcases h with rfl | rfl <;>
    rcases hr with rfl | rfl | rfl | rfl | rfl | rfl | rfl | rfl | rfl | rfl | rfl | rfl | rfl | rfl | rfl | rfl | rfl |
      rfl | rfl | rfl | rfl | rfl | rfl | rfl | rfl <;>
      first
      | exact Or.inl rfl
      | exact Or.inr ⟨2, by decide, rfl, by decide⟩
      | exact Or.inr ⟨4, by decide, rfl, by decide⟩
  · intro r hr e he
    obtain ⟨g, hg, hcg, rfl⟩ := relTime_some he
    have h1 : ∀ r ∈ demoCs, 0 ≤ r.time ∧ r.time ≤ 4 ∧ ∀ g, r.cohort = .num g → g ≤ 4 := by
      have h2 : ∀ r ∈ demoCs, 0 ≤ r.time ∧ r.time ≤ 4 ∧ (r.cohort = .num 4 ∨ r.cohort = .num 2 ∨ r.cohort = .num 0 ∨
          r.cohort = .inf) := by decide +kernel
      intro r hr
      obtain ⟨a, b, c⟩ := h2 r hr
      refine ⟨a, b, ?_⟩
      intro g hg
      rw [hg] at c
      rcases c with c | c | c | c <;> cases c <;> decide
    obtain ⟨a, b, c⟩ := h1 r hr
    have := c g hcg
    omega

theorem demoCs_fit (ant : ℤ) (h : ant = 0 ∨ ant = 1) (c : Control) : ∃ R, fit bestLS ant c demoCs = .ok R := by
  apply (demoCs_regular ant h).fit_ok c
  · decide +kernel
  · rcases h with rfl | rfl
    · decide +kernel
    · decide +kernel

/-- The panel meets the hypotheses, and one of the cells is -3/2. -/
example : Regular 0 demoCs [1, 2, 3, 4, 5] [0, 1, 2, 3, 4] demoCsCo ∧ SolvesLS (bestLS (K := ℚ)) ∧
    (∃ R, fit bestLS 0 .never demoCs = .ok R) ∧ did demoCs 4 3 0 = -3 / 2 ∧
    (Coh.num 4, -4) ∈ keys (groups demoCs) (relPeriods 0 demoCs) demoCs :=
  ⟨demoCs_regular 0 (Or.inl rfl), bestLS_solves, demoCs_fit 0 (Or.inl rfl) .never, by decide +kernel, by decide +kernel⟩

/-- A reported cohort effect of the demo panel. -/
theorem demoCs_effect (reg : List (List ℚ) → List ℚ → Option (Reg ℚ)) (hreg : SolvesLS reg) (ant : ℤ)
    (ha : ant = 0 ∨ ant = 1) (c : Control) (R : Results ℚ) (h : fit reg ant c demoCs = .ok R) (g e : ℤ)
    (hk : (Coh.num g, e) ∈ keys (groups demoCs) (relPeriods ant demoCs) demoCs) :
    ((Coh.num g, e), some (did demoCs g (g - 1 - ant) (g + e))) ∈ R.cohortEffects := by
  obtain ⟨_, _, f, _, _, _, hce, _⟩ := fit_ok h
  rw [(demoCs_regular ant ha).sample c] at hce
  have hm : ((Coh.num g, e), coefOf (keys (groups demoCs) (relPeriods ant demoCs) demoCs) f (.num g, e)) ∈ R.cohortEffects := by
    rw [hce]
    exact List.mem_map.2 ⟨_, hk, rfl⟩
  obtain ⟨g', hg', hv⟩ := C136_cohort_effects reg hreg ant c demoCs _ _ _ (demoCs_regular ant ha) R h _ _ hm
  cases hg'
  rw [hv] at hm
  exact hm

/-- C136 does not extend to the default, varying base period: with it a pre-treatment effect of Callaway-Sant'Anna is a
one-period change and not the Sun-Abraham coefficient of the same cell. -/
theorem C136_varying_pre_refuted : ∃ (df : List (Row ℚ)) (U : List ℕ) (T : List ℤ) (co : ℕ → Coh), Regular 0 df U T co ∧
    (∃ R, fit bestLS 0 .never df = .ok R) ∧
    ∀ reg, SolvesLS reg → ∀ R, fit reg 0 .never df = .ok R → ∀ m, ∃ E v,
      ((Coh.num 4, (2 : ℤ)), E) ∈ CS.effects ⟨.varying, .never, 0, m⟩ (pivot df) ∧
      ((Coh.num 4, (-2 : ℤ)), some v) ∈ R.cohortEffects ∧ E.effect ≠ v := by
  refine ⟨demoCs, _, _, _, demoCs_regular 0 (Or.inl rfl), demoCs_fit 0 (Or.inl rfl) .never, ?_⟩
  intro reg hreg R h m
  have hR := demoCs_regular 0 (Or.inl rfl)
  obtain ⟨E, hE, heff, _⟩ := hR.attGt ⟨.varying, .never, 0, m⟩ rfl (g := 4) (b := 1) (t := 2) rfl (by decide) (by decide)
    ⟨⟨0, 1, 0, .num 4, some 3⟩, by simp [demoCs], rfl⟩ (fit_never h)
  refine ⟨E, _, mem_effects_iff.2 ⟨(hR.mem_groups 4).2 ⟨by decide, ⟨0, 1, 0, .num 4, some 3⟩, by simp [demoCs], rfl⟩, ?_, hE⟩,
    demoCs_effect reg hreg 0 (Or.inl rfl) .never R h 4 (-2) (by decide +kernel), ?_⟩
  · cases m <;> decide +kernel
  · rw [heff]
    decide +kernel

/-- C136 does not extend to not-yet-treated controls: with that setting on both sides the effects of the same cell differ. -/
theorem C136_not_yet_refuted : ∃ (df : List (Row ℚ)) (U : List ℕ) (T : List ℤ) (co : ℕ → Coh), Regular 0 df U T co ∧
    (∃ R, fit bestLS 0 .notYet df = .ok R) ∧
    ∀ reg, SolvesLS reg → ∀ R, fit reg 0 .notYet df = .ok R → ∀ m, ∃ E v,
      attGt ⟨.universal, .notYet, 0, m⟩ (pivot df) (.num 2) 2 = some E ∧
      ((Coh.num 2, (0 : ℤ)), some v) ∈ R.cohortEffects ∧ E.effect ≠ v := by
  refine ⟨demoCs, _, _, _, demoCs_regular 0 (Or.inl rfl), demoCs_fit 0 (Or.inl rfl) .notYet, ?_⟩
  intro reg hreg R h m
  cases hE : attGt ⟨.universal, .notYet, 0, m⟩ (pivot demoCs) (.num 2) 2 with
  | none =>
    exfalso
    revert hE
    cases m <;> decide +kernel
  | some E =>
    refine ⟨E, _, rfl, demoCs_effect reg hreg 0 (Or.inl rfl) .notYet R h 2 0 (by decide +kernel), ?_⟩
    have : ∀ m, (attGt ⟨.universal, .notYet, 0, m⟩ (pivot demoCs) (.num 2) 2).map (fun E => E.effect) ≠
        some (did demoCs 2 (2 - 1 - 0) (2 + 0)) := by
      intro m
      cases m <;> decide +kernel
    have h1 := this m
    rw [hE] at h1
    intro h2
    apply h1
    rw [← h2]
    rfl

/-- C136 for the overall effect does not extend to `anticipation > 0`: Callaway-Sant'Anna then includes the anticipation
periods, Sun-Abraham does not. -/
theorem C136_anticipation_refuted : ∃ (df : List (Row ℚ)) (U : List ℕ) (T : List ℤ) (co : ℕ → Coh), Regular 1 df U T co ∧
    (∃ R, fit bestLS 1 .never df = .ok R) ∧
    ∀ reg, SolvesLS reg → ∀ R, fit reg 1 .never df = .ok R → ∀ b m,
      ∃ v w, R.overall.1 = some v ∧ CS.overall 1 (CS.effects ⟨b, .never, 1, m⟩ (pivot df)) = some w ∧ v ≠ w := by
  refine ⟨demoCs, _, _, _, demoCs_regular 1 (Or.inr rfl), demoCs_fit 1 (Or.inr rfl) .never, ?_⟩
  intro reg hreg R h b m
  have hR := demoCs_regular 1 (Or.inr rfl)
  refine ⟨_, avg demoCs 1 (keysFrom demoCs 1 (-1)), overall_sa reg hreg 1 .never demoCs _ _ _ hR R h, ?_, ?_⟩
  · rw [overall_cs hR (fit_never h) ⟨b, .never, 1, m⟩ rfl rfl, if_neg (by decide +kernel)]
  · decide +kernel

/-! ### Event times beyond the horizon -/

/-- Unit 1 of cohort 2, unit 2 never treated; 23 periods; the only non-zero outcome is that of unit 1 in the last period. -/
def demoLong : List (Row ℚ) :=
  (List.range 23).map (fun i : ℕ => ⟨i, 1, (i : ℤ) + 1, .num 2, some (if i = 22 then 1 else 0)⟩) ++
    (List.range 23).map (fun i : ℕ => ⟨23 + i, 2, (i : ℤ) + 1, .num 0, some 0⟩)

def demoLongT : List ℤ := (List.range 23).map (fun i : ℕ => (i : ℤ) + 1)

def demoLongCo : ℕ → Coh := fun u => if u = 1 then .num 2 else .num 0

theorem demoLong_base : Base 0 demoLong [1, 2] demoLongT demoLongCo := by
  refine ⟨⟨by decide +kernel, by decide +kernel, by decide +kernel, by decide +kernel⟩, by decide +kernel, ?_,
    by decide +kernel⟩
  have h2 : ∀ r ∈ demoLong, r.cohort = .num 0 ∨ r.cohort = .num 2 := by decide +kernel
  intro r hr
  rcases h2 r hr with h | h
  · rw [h]; exact Or.inl rfl
  · exact Or.inr ⟨2, by decide, h, by decide +kernel⟩

/-- Residual of the regression on the long panel. -/
def demoLongE : ℕ → ℤ → ℚ := fun u t =>
  if t = 1 then (if u = 1 then -1 / 4 else 1 / 4) else if t = 23 then (if u = 1 then 1 / 4 else -1 / 4) else 0

theorem demoLong_normal : ∃ C, ∀ β, ssr (design demoLong (keys (groups demoLong) (relPeriods 0 demoLong) demoLong))
      (demoLong.map (outcome demoLong)) ((keys (groups demoLong) (relPeriods 0 demoLong) demoLong).map β) =
    (demoLong.map (fun r => (within demoLong (lin (keys (groups demoLong) (relPeriods 0 demoLong) demoLong)
      (fun k => -1 / 2 - β k)) r) ^ 2)).sum + C := by
  have hk : keys (groups demoLong) (relPeriods 0 demoLong) demoLong =
      (List.range 21).map (fun i : ℕ => (Coh.num 2, (i : ℤ))) := by decide +kernel
  rw [hk]
  refine demoLong_base.normal _ (fun u => if u = 1 then 1 / 2 else 0)
    (fun t => if t = 1 then -1 / 4 else if t = 23 then 1 / 4 else 0) (fun _ => -1 / 2) demoLongE ?_ ?_ ?_ ?_
  · decide +kernel
  · decide +kernel
  · decide +kernel
  · decide +kernel

/-- C136 needs the horizon: cells more than 20 periods after treatment get no column and are merged with the reference
period. Here an effect 21 periods after treatment, the only one, makes every reported coefficient -1/2 although the
group-time effect of Callaway-Sant'Anna is 0 in each of those cells. -/
theorem C136_horizon_refuted : ∃ (df : List (Row ℚ)) (U : List ℕ) (T : List ℤ) (co : ℕ → Coh), Base 0 df U T co ∧
    (∃ R, fit bestLS 0 .never df = .ok R) ∧
    ∀ reg, SolvesLS reg → ∀ R, fit reg 0 .never df = .ok R → R.cohortEffects.length = 21 ∧
      (∀ k v, (k, v) ∈ R.cohortEffects → v = some (-1 / 2)) ∧
      ∀ b m t, 2 ≤ t → t ≤ 22 → ∃ E, attGt ⟨b, .never, 0, m⟩ (pivot df) (.num 2) t = some E ∧ E.effect = 0 := by
  obtain ⟨C, hC⟩ := demoLong_normal
  refine ⟨demoLong, _, _, _, demoLong_base, demoLong_base.fit_ok .never (by decide +kernel) (by decide +kernel) _ C hC, ?_⟩
  intro reg hreg R h
  have hce := demoLong_base.coef_unique reg hreg h _ C hC
  refine ⟨?_, ?_, ?_⟩
  · rw [hce, List.length_map]
    decide +kernel
  · intro k v hkv
    rw [hce] at hkv
    obtain ⟨k', _, heq⟩ := List.mem_map.1 hkv
    exact (Prod.mk.inj heq).2.symm
  · intro b m t h1 h2
    have hbase : basePeriod ⟨b, .never, 0, m⟩ (.num 2) t = some 1 := by
      rw [CS.basePeriod_num, if_neg (by rintro ⟨_, h⟩; simp only at h; omega)]
      rfl
    have hT : t ∈ demoLongT := by
      unfold demoLongT
      rw [List.mem_map]
      refine ⟨(t - 1).toNat, List.mem_range.2 ?_, ?_⟩ <;> omega
    obtain ⟨E, hE, heff, _⟩ := demoLong_base.attGt ⟨b, .never, 0, m⟩ rfl hbase (by decide +kernel) hT
      ⟨⟨0, 1, 1, .num 2, some 0⟩, by decide +kernel, rfl⟩ (fit_never h)
    refine ⟨E, hE, ?_⟩
    rw [heff]
    have : ∀ t ∈ demoLongT, t ≤ 22 → did demoLong 2 1 t = 0 := by decide +kernel
    exact this t hT h2

end DiffDiff.SunAb
