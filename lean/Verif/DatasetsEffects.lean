/-
Property C130: which effects the constructed datasets contain, and which states adopt when.
-/
import Verif.DatasetsProps

set_option linter.unusedSectionVars false
set_option linter.unusedVariables false

namespace DiffDiff.Datasets

variable {K : Type*} [Field K] [LinearOrder K] [IsStrictOrderedRing K]
variable {σ : Type*} (g : Gen σ K) (rnd : ℕ → K → K) (caller : σ)

/-- One generator state per element of the loop. -/
theorem loop_states {A B : Type*} [DecidableEq A] (f : A → σ → B × σ) (l : List A) (hl : l.Nodup) (s : σ) :
    ∃ st : A → σ, ∀ b ∈ (loop f l s).1, ∃ a ∈ l, b = (f a (st a)).1 := by
  induction l generalizing s with
  | nil => exact ⟨fun _ => s, fun b hb => by simp [loop] at hb⟩
  | cons a l ih =>
    obtain ⟨hal, hl⟩ := List.nodup_cons.1 hl
    obtain ⟨st, hst⟩ := ih hl (f a s).2
    refine ⟨fun x => if x = a then s else st x, fun b hb => ?_⟩
    rcases List.mem_cons.1 hb with h | h
    · exact ⟨a, List.mem_cons_self, by simpa using h⟩
    · obtain ⟨a', ha', h'⟩ := hst b h
      exact ⟨a', List.mem_cons_of_mem _ ha', by
        have hne : a' ≠ a := fun e => hal (e ▸ ha')
        simpa [hne] using h'⟩

/-- A function on first components. -/
theorem of_fst {A B : Type*} [DecidableEq A] {l : List (A × B)} (hl : (l.map Prod.fst).Nodup) {C : Type*} (c0 : C) (f : A × B → C) :
    ∃ h : A → C, ∀ p ∈ l, h p.1 = f p := by
  induction l with
  | nil => exact ⟨fun _ => c0, fun p hp => by cases hp⟩
  | cons q l ih =>
    rw [List.map_cons, List.nodup_cons] at hl
    obtain ⟨h, hh⟩ := ih hl.2
    refine ⟨fun x => if x = q.1 then f q else h x, fun p hp => ?_⟩
    rcases List.mem_cons.1 hp with rfl | hp
    · simp
    · have : p.1 ≠ q.1 := fun e => hl.1 (e ▸ List.mem_map_of_mem hp)
      simp only [this, if_false]
      exact hh p hp

/-- C130. The constructed homicide rate of a state is its base rate plus 0.1 per year since 2005, plus eight per cent of the base rate from the year of adoption
on, plus noise of standard deviation 0.5, cut off at zero and rounded to two digits. -/
theorem C130_castle_effect : ∃ base : String → K, (∀ r ∈ (constructCastle g rnd caller).1, ∃ s, base r.state = (g.uniform 3 8 s).1) ∧
    ∀ r ∈ (constructCastle g rnd caller).1, ∃ (eff : K) (s : σ), r.homicide = rnd 2 (max 0 (base r.state + ((r.year : K) - 2005) * (1 / 10) + eff + (g.normal 0 (1 / 2) s).1)) ∧
      (0 < r.firstTreat → r.firstTreat ≤ r.year → eff = base r.state * (8 / 100)) ∧ (r.firstTreat = 0 ∨ r.year < r.firstTreat → eff = 0) := by
  have hnd : (castleStates.map Prod.fst).Nodup := by decide +kernel
  obtain ⟨st, hst⟩ := loop_states (castleState g rnd) castleStates (List.Nodup.of_map _ hnd) (reseed g 2013 caller)
  obtain ⟨base, hb⟩ := of_fst hnd (0 : K) (fun p => (g.uniform 3 8 (st p)).1)
  have hrow : ∀ r ∈ (constructCastle g rnd caller).1, ∃ p ∈ castleStates, ∃ pop inc y s, r = (castleRow g rnd p (g.uniform 3 8 (st p)).1 pop inc y s).1 := by
    intro r hr
    simp only [constructCastle, List.mem_flatten] at hr
    obtain ⟨l, hl, hrl⟩ := hr
    obtain ⟨p, hp, rfl⟩ := hst l hl
    simp only [castleState] at hrl
    obtain ⟨y, -, s', rfl⟩ := loop_mem _ _ _ _ hrl
    exact ⟨p, hp, _, _, y, s', rfl⟩
  refine ⟨base, fun r hr => ?_, fun r hr => ?_⟩
  · obtain ⟨p, hp, pop, inc, y, s, rfl⟩ := hrow r hr
    exact ⟨st p, hb p hp⟩
  · obtain ⟨p, hp, pop, inc, y, s, rfl⟩ := hrow r hr
    have e : base p.1 = _ := hb p hp
    refine ⟨if 0 < p.2 ∧ p.2 ≤ y then base p.1 * (8 / 100) else 0, s, ?_, ?_, ?_⟩
    · show rnd 2 (max 0 (_ + ((y - 2005 : ℤ) : K) * dec 1 10 + (if 0 < p.2 ∧ p.2 ≤ y then _ * dec 8 100 else 0) + (g.normal 0 (dec 5 10) s).1)) =
        rnd 2 (max 0 (base p.1 + ((y : K) - 2005) * (1 / 10) + (if 0 < p.2 ∧ p.2 ≤ y then base p.1 * (8 / 100) else 0) + (g.normal 0 (1 / 2) s).1))
      rw [e]
      have e1 : (dec 5 10 : K) = 1 / 2 := by unfold dec; norm_num
      have e2 : (dec 1 10 : K) = 1 / 10 := by unfold dec; norm_num
      have e3 : (dec 8 100 : K) = 8 / 100 := by unfold dec; norm_num
      rw [e1, e2, e3]
      push_cast
      rfl
    · intro h1 h2
      exact if_pos ⟨h1, h2⟩
    · intro h
      refine if_neg fun h' => ?_
      have h1 : p.2 = 0 ∨ y < p.2 := h
      omega

/-- C130. Divorce, participation and suicide in the constructed data: the divorce rate is raised by 0.5 in the year of adoption and the two after it, by 0.3 in the
next three years, by 0.1 in the next five and not at all afterwards; participation by 0.02 and suicide by -0.5 from the year of adoption on. -/
theorem C130_divorce_effect : ∃ bd bl bs : String → K, ∀ r ∈ (constructDivorce g rnd caller).1, ∃ (d l u : K) (s s' s'' : σ),
    r.divorce = rnd 2 (max 0 (bd r.state + ((r.year : K) - 1978) * (5 / 100) + d + (g.normal 0 (3 / 10) s).1)) ∧
    r.lfp = rnd 3 (min 1 (max 0 (bl r.state + 1 / 100 * ((r.year : K) - 1968) + l + (g.normal 0 (2 / 100) s').1))) ∧
    r.suicide = rnd 2 (max 0 (bs r.state + u + (g.normal 0 (1 / 2) s'').1)) ∧
    (r.firstTreat = 0 ∨ r.year < r.firstTreat → d = 0 ∧ l = 0 ∧ u = 0) ∧
    (0 < r.firstTreat → r.firstTreat ≤ r.year → l = 2 / 100 ∧ u = -(1 / 2) ∧ (r.year ≤ r.firstTreat + 2 → d = 5 / 10) ∧
      (r.firstTreat + 3 ≤ r.year → r.year ≤ r.firstTreat + 5 → d = 3 / 10) ∧ (r.firstTreat + 6 ≤ r.year → r.year ≤ r.firstTreat + 10 → d = 1 / 10) ∧
      (r.firstTreat + 11 ≤ r.year → d = 0)) := by
  have hnd : (divorceStates.map Prod.fst).Nodup := by decide +kernel
  have hft : ∀ p ∈ divorceStates, (if 1968 ≤ p.2 then p.2 else 0) = p.2 := by decide +kernel
  obtain ⟨st, hst⟩ := loop_states (divorceState g rnd) divorceStates (List.Nodup.of_map _ hnd) (reseed g 2006 caller)
  obtain ⟨bd, hbd⟩ := of_fst hnd (0 : K) (fun p => (g.uniform 2 6 (st p)).1)
  obtain ⟨bl, hbl⟩ := of_fst hnd (0 : K) (fun p => (g.uniform (dec 35 100) (dec 55 100) (g.uniform 2 6 (st p)).2).1)
  obtain ⟨bs, hbs⟩ := of_fst hnd (0 : K) (fun p => (g.uniform 4 8 (g.uniform (dec 35 100) (dec 55 100) (g.uniform 2 6 (st p)).2).2).1)
  refine ⟨bd, bl, bs, fun r hr => ?_⟩
  simp only [constructDivorce, List.mem_flatten] at hr
  obtain ⟨l, hl, hrl⟩ := hr
  obtain ⟨p, hp, rfl⟩ := hst l hl
  simp only [divorceState] at hrl
  obtain ⟨y, -, s, rfl⟩ := loop_mem _ _ _ _ hrl
  have e1 : bd p.1 = _ := hbd p hp
  have e2 : bl p.1 = _ := hbl p hp
  have e3 : bs p.1 = _ := hbs p hp
  have d1 : (dec 5 10 : K) = 1 / 2 := by unfold dec; norm_num
  have d2 : (dec 2 100 : K) = 2 / 100 := by unfold dec; norm_num
  have d3 : (dec 3 10 : K) = 3 / 10 := by unfold dec; norm_num
  have d4 : (dec 5 100 : K) = 5 / 100 := by unfold dec; norm_num
  have d5 : (dec 1 100 : K) = 1 / 100 := by unfold dec; norm_num
  have d6 : (dec 1 10 : K) = 1 / 10 := by unfold dec; norm_num
  refine ⟨if 0 < p.2 ∧ p.2 ≤ y then fade (y - p.2) else 0, if 0 < p.2 ∧ p.2 ≤ y then dec 2 100 else 0, if 0 < p.2 ∧ p.2 ≤ y then -(dec 5 10) else 0,
    s, (g.normal 0 (dec 3 10) s).2, (g.normal 0 (dec 2 100) (g.normal 0 (dec 3 10) s).2).2, ?_, ?_, ?_, ?_, ?_⟩
  · show rnd 2 _ = rnd 2 (max 0 (bd p.1 + ((y : K) - 1978) * (5 / 100) + _ + (g.normal 0 (3 / 10) s).1))
    rw [e1, ← d3, ← d4]
    push_cast
    rfl
  · show rnd 3 _ = rnd 3 (min 1 (max 0 (bl p.1 + 1 / 100 * ((y : K) - 1968) + _ + (g.normal 0 (2 / 100) _).1)))
    rw [e2, ← d2, ← d5]
    push_cast
    rfl
  · show rnd 2 _ = rnd 2 (max 0 (bs p.1 + _ + (g.normal 0 (1 / 2) _).1))
    rw [e3, ← d1]
  · intro h
    have h : (if 1968 ≤ p.2 then p.2 else 0) = 0 ∨ y < (if 1968 ≤ p.2 then p.2 else 0) := h
    rw [hft p hp] at h
    have : ¬ (0 < p.2 ∧ p.2 ≤ y) := by omega
    simp only [this, if_false, and_self]
  · intro h1 h2
    have h1 : 0 < (if 1968 ≤ p.2 then p.2 else 0) := h1
    have h2 : (if 1968 ≤ p.2 then p.2 else 0) ≤ y := h2
    have h3 : (divorceRow g rnd p (g.uniform 2 6 (st p)).1 (g.uniform (dec 35 100) (dec 55 100) (g.uniform 2 6 (st p)).2).1
      (g.uniform 4 8 (g.uniform (dec 35 100) (dec 55 100) (g.uniform 2 6 (st p)).2).2).1 y s).1.firstTreat = p.2 := hft p hp
    have h4 : (divorceRow g rnd p (g.uniform 2 6 (st p)).1 (g.uniform (dec 35 100) (dec 55 100) (g.uniform 2 6 (st p)).2).1
      (g.uniform 4 8 (g.uniform (dec 35 100) (dec 55 100) (g.uniform 2 6 (st p)).2).2).1 y s).1.year = y := rfl
    rw [hft p hp] at h1 h2
    rw [h3, h4]
    simp only [h1, h2, and_self, if_true, fade]
    refine ⟨d2, by rw [d1], fun h => ?_, fun h h' => ?_, fun h h' => ?_, fun h => ?_⟩
    · rw [if_pos (by omega)]; unfold dec; norm_num
    · rw [if_neg (by omega), if_pos (by omega), d3]
    · rw [if_neg (by omega), if_neg (by omega), if_pos (by omega), d6]
    · rw [if_neg (by omega), if_neg (by omega), if_neg (by omega)]

/-- C130. Log employment in the constructed county data: the base of the county, 0.02 per year since 2003, noise, and from the year of treatment on an effect that
starts at -0.04 (2004) or -0.03 (2006) and shrinks by 0.01 per year, or is -0.025 (2007). -/
theorem C130_mpdta_effect (hc : ∀ s, (g.choice [0, 2004, 2006, 2007] [dec 4 10, dec 2 10, dec 2 10, dec 2 10] s).1 ∈ ([0, 2004, 2006, 2007] : List ℤ)) :
    ∃ base : ℕ → K, ∀ r ∈ (constructMp g rnd caller).1, ∃ (eff : K) (s : σ),
      r.lemp = rnd 4 (base r.county + ((r.year : K) - 2003) * (2 / 100) + eff + (g.normal 0 (2 / 100) s).1) ∧
      (r.firstTreat = 0 ∨ r.year < r.firstTreat → eff = 0) ∧
      (r.firstTreat ≤ r.year → (r.firstTreat = 2004 → eff = -4 / 100 + ((r.year : K) - 2004) / 100) ∧
        (r.firstTreat = 2006 → eff = -3 / 100 + ((r.year : K) - 2006) / 100) ∧ (r.firstTreat = 2007 → eff = -25 / 1000)) := by
  have hnd : ((List.range 500).map (· + 1)).Nodup := List.Nodup.map (fun a b h => by simpa using h) List.nodup_range
  obtain ⟨st, hst⟩ := loop_states (mpCounty g rnd) _ hnd (reseed g 2021 caller)
  let ch : ℕ → ℤ × σ := fun c => g.choice [0, 2004, 2006, 2007] [dec 4 10, dec 2 10, dec 2 10, dec 2 10] (st c)
  refine ⟨fun c => (g.normal 12 1 (ch c).2).1 - (g.uniform (dec 15 10) (dec 25 10) (g.normal 12 1 (ch c).2).2).1, fun r hr => ?_⟩
  simp only [constructMp, List.mem_flatten] at hr
  obtain ⟨l, hl, hrl⟩ := hr
  obtain ⟨c, -, rfl⟩ := hst l hl
  simp only [mpCounty] at hrl
  obtain ⟨y, -, s, rfl⟩ := loop_mem _ _ _ _ hrl
  have d2 : (dec 2 100 : K) = 2 / 100 := by unfold dec; norm_num
  have d4 : (dec 4 100 : K) = 4 / 100 := by unfold dec; norm_num
  have d3 : (dec 3 100 : K) = 3 / 100 := by unfold dec; norm_num
  have d1 : (dec 1 100 : K) = 1 / 100 := by unfold dec; norm_num
  have d25 : (dec 25 1000 : K) = 25 / 1000 := by unfold dec; norm_num
  have hm : (ch c).1 ∈ ([0, 2004, 2006, 2007] : List ℤ) := hc _
  refine ⟨mpEffect (ch c).1 y, (g.normal 0 (dec 5 100) s).2, ?_, ?_, ?_⟩
  · show rnd 4 (_ + ((y - 2003 : ℤ) : K) * dec 2 100 + mpEffect (ch c).1 y + (g.normal 0 (dec 2 100) _).1) = rnd 4 (_ + ((y : K) - 2003) * (2 / 100) + _ + _)
    rw [d2]
    push_cast
    rfl
  · intro h
    have h : (ch c).1 = 0 ∨ y < (ch c).1 := h
    unfold mpEffect
    rw [if_neg (by omega)]
  · intro h
    have h : (ch c).1 ≤ y := h
    have h5 : ∀ x : ℤ, (mpRow g rnd c (ch c).1 (g.normal 12 1 (ch c).2).1
      ((g.normal 12 1 (ch c).2).1 - (g.uniform (dec 15 10) (dec 25 10) (g.normal 12 1 (ch c).2).2).1) y s).1.firstTreat = x → (ch c).1 = x := fun x hx => hx
    refine ⟨fun hx => ?_, fun hx => ?_, fun hx => ?_⟩
    · have hx := h5 _ hx
      show mpEffect (ch c).1 y = -4 / 100 + ((y : K) - 2004) / 100
      unfold mpEffect
      rw [if_pos (by omega), if_pos hx, hx, d4, d1]
      push_cast
      ring
    · have hx := h5 _ hx
      show mpEffect (ch c).1 y = -3 / 100 + ((y : K) - 2006) / 100
      unfold mpEffect
      rw [if_pos (by omega), if_neg (by omega), if_pos hx, hx, d3, d1]
      push_cast
      ring
    · have hx := h5 _ hx
      show mpEffect (ch c).1 y = -25 / 1000
      unfold mpEffect
      rw [if_pos (by omega), if_neg (by omega), if_neg (by omega), d25]
      ring

/-- C130. Which states adopt in which year of the constructed Castle Doctrine data. -/
theorem C130_castle_years : ∀ r ∈ (constructCastle g rnd caller).1,
    (r.firstTreat = 2005 ↔ r.state = "FL") ∧
    (r.firstTreat = 2006 ↔ r.state ∈ ["AL", "AK", "AZ", "GA", "IN", "KS", "KY", "LA", "MI", "MS", "OK", "SC", "SD"]) ∧
    (r.firstTreat = 2007 ↔ r.state ∈ ["MO", "ND", "TN", "TX"]) ∧ (r.firstTreat = 2008 ↔ r.state ∈ ["OH", "WV"]) ∧
    (r.firstTreat = 2009 ↔ r.state = "MT") ∧ (r.firstTreat = 2010 ↔ r.state = "UT") ∧
    (r.state ∈ ["NH", "NC", "PA"] → r.firstTreat = 0) := by
  have key : ∀ p ∈ castleStates,
      (p.2 = 2005 ↔ p.1 = "FL") ∧
      (p.2 = 2006 ↔ p.1 ∈ ["AL", "AK", "AZ", "GA", "IN", "KS", "KY", "LA", "MI", "MS", "OK", "SC", "SD"]) ∧
      (p.2 = 2007 ↔ p.1 ∈ ["MO", "ND", "TN", "TX"]) ∧ (p.2 = 2008 ↔ p.1 ∈ ["OH", "WV"]) ∧
      (p.2 = 2009 ↔ p.1 = "MT") ∧ (p.2 = 2010 ↔ p.1 = "UT") ∧ (p.1 ∈ ["NH", "NC", "PA"] → p.2 = 0) := by decide +kernel
  intro r hr
  simp only [constructCastle, List.mem_flatten] at hr
  obtain ⟨l, hl, hrl⟩ := hr
  obtain ⟨p, hp, s, rfl⟩ := loop_mem _ _ _ _ hl
  simp only [castleState] at hrl
  obtain ⟨y, -, s', rfl⟩ := loop_mem _ _ _ _ hrl
  exact key p hp

/-- C130. Which states adopt in which year of the constructed divorce data; Alaska and Nevada, adopters before 1968, are left out. -/
theorem C130_divorce_years : ∀ r ∈ (constructDivorce g rnd caller).1,
    (r.firstTreat = 0 ↔ r.state ∈ ["MO", "NC", "NJ", "NY", "OH", "PA", "TN", "VA"]) ∧ (r.firstTreat = 1968 ↔ r.state = "DE") ∧ (r.firstTreat = 1969 ↔ r.state = "KS") ∧
    (r.firstTreat = 1970 ↔ r.state ∈ ["CA", "IA", "TX"]) ∧ (r.firstTreat = 1971 ↔ r.state ∈ ["AL", "FL", "ID", "ND", "NH", "OR"]) ∧
    (r.firstTreat = 1972 ↔ r.state ∈ ["CO", "KY", "MI", "NE"]) ∧ (r.firstTreat = 1973 ↔ r.state ∈ ["AZ", "CT", "GA", "HI", "IN", "ME", "NM", "WA"]) ∧
    (r.firstTreat = 1974 ↔ r.state = "MN") ∧ (r.firstTreat = 1975 ↔ r.state ∈ ["MA", "MT", "OK", "RI"]) ∧ (r.firstTreat = 1977 ↔ r.state = "WY") ∧
    (r.firstTreat = 1978 ↔ r.state = "WI") ∧ (r.firstTreat = 1984 ↔ r.state = "WV") ∧ (r.firstTreat = 1985 ↔ r.state = "SD") ∧ (r.firstTreat = 1987 ↔ r.state = "UT") ∧
    r.state ∉ ["AK", "NV"] := by
  have key : ∀ p ∈ divorceStates,
      ((if 1968 ≤ p.2 then p.2 else 0) = 0 ↔ p.1 ∈ ["MO", "NC", "NJ", "NY", "OH", "PA", "TN", "VA"]) ∧ ((if 1968 ≤ p.2 then p.2 else 0) = 1968 ↔ p.1 = "DE") ∧
      ((if 1968 ≤ p.2 then p.2 else 0) = 1969 ↔ p.1 = "KS") ∧ ((if 1968 ≤ p.2 then p.2 else 0) = 1970 ↔ p.1 ∈ ["CA", "IA", "TX"]) ∧
      ((if 1968 ≤ p.2 then p.2 else 0) = 1971 ↔ p.1 ∈ ["AL", "FL", "ID", "ND", "NH", "OR"]) ∧
      ((if 1968 ≤ p.2 then p.2 else 0) = 1972 ↔ p.1 ∈ ["CO", "KY", "MI", "NE"]) ∧
      ((if 1968 ≤ p.2 then p.2 else 0) = 1973 ↔ p.1 ∈ ["AZ", "CT", "GA", "HI", "IN", "ME", "NM", "WA"]) ∧
      ((if 1968 ≤ p.2 then p.2 else 0) = 1974 ↔ p.1 = "MN") ∧ ((if 1968 ≤ p.2 then p.2 else 0) = 1975 ↔ p.1 ∈ ["MA", "MT", "OK", "RI"]) ∧
      ((if 1968 ≤ p.2 then p.2 else 0) = 1977 ↔ p.1 = "WY") ∧ ((if 1968 ≤ p.2 then p.2 else 0) = 1978 ↔ p.1 = "WI") ∧
      ((if 1968 ≤ p.2 then p.2 else 0) = 1984 ↔ p.1 = "WV") ∧ ((if 1968 ≤ p.2 then p.2 else 0) = 1985 ↔ p.1 = "SD") ∧
      ((if 1968 ≤ p.2 then p.2 else 0) = 1987 ↔ p.1 = "UT") ∧ p.1 ∉ ["AK", "NV"] := by decide +kernel
  intro r hr
  simp only [constructDivorce, List.mem_flatten] at hr
  obtain ⟨l, hl, hrl⟩ := hr
  obtain ⟨p, hp, s, rfl⟩ := loop_mem _ _ _ _ hl
  simp only [divorceState] at hrl
  obtain ⟨y, -, s', rfl⟩ := loop_mem _ _ _ _ hrl
  exact key p hp

/-- C130_mpdta_effect: without noise, one county of group 2004 from 2003 to 2007. -/
example : (∀ s, (({ calm with choice := fun _ _ s => (2004, s + 1) } : Gen ℕ ℚ).choice [0, 2004, 2006, 2007] [dec 4 10, dec 2 10, dec 2 10, dec 2 10] s).1 ∈
      ([0, 2004, 2006, 2007] : List ℤ)) ∧
    (loop (mpCounty ({ calm with choice := fun _ _ s => (2004, s + 1) } : Gen ℕ ℚ) (fun _ x => x)) [1] 0).1.flatten.map (fun r => (r.year, r.lemp)) =
      [(2003, 10), (2004, 9 + 98 / 100), (2005, 10 + 1 / 100), (2006, 10 + 4 / 100), (2007, 10 + 7 / 100)] :=
  ⟨fun _ => by simp, by decide +kernel⟩

/-- C130_divorce_effect: without noise, the fading effect in a state that adopts in 1970. -/
example : (loop (divorceState (calm : Gen ℕ ℚ) (fun _ x => x)) [("CA", 1970)] 0).1.flatten.map (fun r => r.divorce - (4 + ((r.year : ℚ) - 1978) * (5 / 100))) =
    [0, 0, 1 / 2, 1 / 2, 1 / 2, 3 / 10, 3 / 10, 3 / 10, 1 / 10, 1 / 10, 1 / 10, 1 / 10, 1 / 10, 0, 0, 0, 0, 0, 0, 0, 0] := by decide +kernel

end DiffDiff.Datasets
