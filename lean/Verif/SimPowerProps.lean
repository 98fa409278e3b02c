/-
C106 (simulated power is the rejection share among simulations that produced a result) and C107 (coverage, bias and rmse of the
primary effect).
-/
import Verif.SimPower
import Mathlib.Algebra.Order.Field.Basic
import Mathlib.Algebra.Order.BigOperators.Group.List
import Mathlib.Algebra.BigOperators.Ring.List
import Mathlib.Data.Finset.Card
import Mathlib.Data.Rat.Cast.Order
import Mathlib.Algebra.BigOperators.Field
import Mathlib.Algebra.Order.BigOperators.Ring.Finset
import Mathlib.Analysis.Real.Sqrt
import Mathlib.Tactic.Positivity
import Mathlib.Tactic.FieldSimp
import Mathlib.Tactic.Ring
import Mathlib.Tactic.Linarith
import Mathlib.Tactic.NormNum

set_option linter.unusedSectionVars false

namespace DiffDiff.SimPower

section spec
variable {K : Type*}

/-! ### Specification -/

/-- A result offering each of the four quantities under one of the two names. -/
def Usable (r : Res K) : Prop :=
  (r.att ≠ none ∨ r.avgAtt ≠ none) ∧ (r.se ≠ none ∨ r.avgSe ≠ none) ∧ (r.p ≠ none ∨ r.avgP ≠ none) ∧
    (r.ci ≠ none ∨ r.avgCi ≠ none)

/-- The simulation produced a usable result. -/
def Succeeds (x : Run K) : Prop := ∃ r, x = .result r ∧ Usable r

/-- The simulation produced a usable result with p-value `p`, the plain name taking precedence. -/
def HasP (x : Run K) (p : K) : Prop :=
  ∃ r, x = .result r ∧ Usable r ∧ (r.p = some (some p) ∨ r.p = none ∧ r.avgP = some (some p))

/-- The simulation produced a usable result with this interval. -/
def HasCi (x : Run K) (a b : K) : Prop :=
  ∃ r, x = .result r ∧ Usable r ∧ (r.ci = some (some a, some b) ∨ r.ci = none ∧ r.avgCi = some (some a, some b))

/-- The simulation produced a usable result with this estimate. -/
def HasEst (x : Run K) (v : K) : Prop :=
  ∃ r, x = .result r ∧ Usable r ∧ (r.att = some (some v) ∨ r.att = none ∧ r.avgAtt = some (some v))

end spec

section lemmas
variable {K : Type*} [Field K] [LinearOrder K]

theorem kept_isSome (x : Run K) : (kept x).isSome = true ↔ Succeeds x := by
  cases x with
  | generatorError => simp [kept, Succeeds]
  | fitError => simp [kept, Succeeds]
  | result r =>
    obtain ⟨a, a', s, s', p, p', c, c'⟩ := r
    simp only [kept, extract, Succeeds, Run.result.injEq, exists_eq_left', Usable]
    cases a <;> cases a' <;> cases s <;> cases s' <;> cases p <;> cases p' <;> cases c <;> cases c' <;> simp

theorem extract_fields {r : Res K} {o : Out K} (h : extract r = some o) :
    (r.att <|> r.avgAtt) = some o.est ∧ (r.se <|> r.avgSe) = some o.se ∧ (r.p <|> r.avgP) = some o.p ∧
      (r.ci <|> r.avgCi) = some (o.lo, o.hi) := by
  unfold extract at h
  simp only [Option.bind_eq_some_iff, Option.some.injEq] at h
  obtain ⟨a, ha, s, hs, p, hp, c, hc, rfl⟩ := h
  exact ⟨ha, hs, hp, hc⟩

theorem orElse_some {β : Type*} (x y : Option β) (b : β) :
    (x <|> y) = some b ↔ (x = some b ∨ x = none ∧ y = some b) := by
  cases x <;> simp

/-- The recorded values of a simulation. -/
theorem kept_some {x : Run K} {o : Out K} (h : kept x = some o) :
    ∃ r, x = .result r ∧ Usable r ∧ extract r = some o := by
  have hs : Succeeds x := (kept_isSome x).1 (by rw [h]; rfl)
  obtain ⟨r, rfl, hu⟩ := hs
  exact ⟨r, rfl, hu, h⟩

theorem kept_of_usable {r : Res K} (h : Usable r) : ∃ o, kept (.result r) = some o :=
  Option.isSome_iff_exists.1 ((kept_isSome _).2 ⟨r, rfl, h⟩)

theorem hasP_iff (x : Run K) (p : K) : HasP x p ↔ ∃ o, kept x = some o ∧ o.p = some p := by
  constructor
  · rintro ⟨r, rfl, hu, hp⟩
    obtain ⟨o, ho⟩ := kept_of_usable hu
    refine ⟨o, ho, ?_⟩
    have h1 := (extract_fields ho).2.2.1
    rw [(orElse_some r.p r.avgP (some p)).2 hp] at h1
    exact (Option.some.inj h1).symm
  · rintro ⟨o, ho, hp⟩
    obtain ⟨r, rfl, hu, he⟩ := kept_some ho
    refine ⟨r, rfl, hu, (orElse_some _ _ _).1 ?_⟩
    rw [(extract_fields he).2.2.1, hp]

theorem hasEst_iff (x : Run K) (v : K) : HasEst x v ↔ ∃ o, kept x = some o ∧ o.est = some v := by
  constructor
  · rintro ⟨r, rfl, hu, hp⟩
    obtain ⟨o, ho⟩ := kept_of_usable hu
    refine ⟨o, ho, ?_⟩
    have h1 := (extract_fields ho).1
    rw [(orElse_some r.att r.avgAtt (some v)).2 hp] at h1
    exact (Option.some.inj h1).symm
  · rintro ⟨o, ho, hp⟩
    obtain ⟨r, rfl, hu, he⟩ := kept_some ho
    refine ⟨r, rfl, hu, (orElse_some _ _ _).1 ?_⟩
    rw [(extract_fields he).1, hp]

theorem hasCi_iff (x : Run K) (a b : K) : HasCi x a b ↔ ∃ o, kept x = some o ∧ o.lo = some a ∧ o.hi = some b := by
  constructor
  · rintro ⟨r, rfl, hu, hp⟩
    obtain ⟨o, ho⟩ := kept_of_usable hu
    refine ⟨o, ho, ?_⟩
    have h1 := (extract_fields ho).2.2.2
    rw [(orElse_some r.ci r.avgCi (some a, some b)).2 hp] at h1
    have := Option.some.inj h1
    rw [Prod.mk.injEq] at this
    exact ⟨this.1.symm, this.2.symm⟩
  · rintro ⟨o, ho, h1, h2⟩
    obtain ⟨r, rfl, hu, he⟩ := kept_some ho
    refine ⟨r, rfl, hu, (orElse_some _ _ _).1 ?_⟩
    rw [(extract_fields he).2.2.2, h1, h2]

theorem kept_rejects (alpha : K) (x : Run K) :
    (kept x).any (rejects alpha) = true ↔ ∃ p, HasP x p ∧ p < alpha := by
  simp only [hasP_iff]
  cases kept x with
  | none => simp
  | some o => cases h : o.p <;> simp [rejects, h]

theorem kept_covers (e : K) (x : Run K) :
    (kept x).any (covers e) = true ↔ ∃ a b, HasCi x a b ∧ a ≤ e ∧ e ≤ b := by
  simp only [hasCi_iff]
  cases kept x with
  | none => simp
  | some o => cases h : o.lo <;> cases h' : o.hi <;> simp [covers, h, h']

/-- Counting the kept simulations satisfying a test. -/
theorem filterMap_count (f : ℕ → Option (Out K)) (q : Out K → Bool) (n : ℕ) :
    (((List.range n).filterMap f).filter q).length = ((Finset.range n).filter (fun s => (f s).any q = true)).card := by
  induction n with
  | zero => simp
  | succ n ih =>
    rw [List.range_succ, List.filterMap_append, List.filter_append, List.length_append, ih, Finset.range_add_one,
      Finset.filter_insert]
    cases h : f n with
    | none => simp [h]
    | some o =>
      by_cases hq : q o = true
      · simp [h, hq, Finset.card_insert_of_notMem]
      · simp [h, hq]

theorem filterMap_len (f : ℕ → Option (Out K)) (n : ℕ) :
    ((List.range n).filterMap f).length = ((Finset.range n).filter (fun s => (f s).isSome = true)).card := by
  have := filterMap_count f (fun _ => true) n
  rw [List.filter_eq_self.2 (by simp)] at this
  rw [this]
  congr 1

theorem outsOf_eq (I : Input K) (k : ℕ) (e : K) :
    outsOf I k e = (List.range I.nSim).filterMap (fun s => kept (I.run (k * I.nSim + s) e)) := by
  simp [outsOf, runsOf, List.filterMap_map, Function.comp_def]

open Classical in
theorem outs_length (I : Input K) (k : ℕ) (e : K) :
    (outsOf I k e).length = ((Finset.range I.nSim).filter (fun s => Succeeds (I.run (k * I.nSim + s) e))).card := by
  rw [outsOf_eq, filterMap_len]
  congr 1
  ext s
  simp [kept_isSome]

open Classical in
theorem outs_rejects (I : Input K) (k : ℕ) (e : K) :
    ((outsOf I k e).filter (rejects I.alpha)).length =
      ((Finset.range I.nSim).filter (fun s => ∃ p, HasP (I.run (k * I.nSim + s) e) p ∧ p < I.alpha)).card := by
  rw [outsOf_eq, filterMap_count]
  congr 1
  ext s
  simp [kept_rejects]

open Classical in
theorem outs_covers (I : Input K) (k : ℕ) (e x : K) :
    ((outsOf I k e).filter (covers x)).length =
      ((Finset.range I.nSim).filter
        (fun s => ∃ a b, HasCi (I.run (k * I.nSim + s) e) a b ∧ a ≤ x ∧ x ≤ b)).card := by
  rw [outsOf_eq, filterMap_count]
  congr 1
  ext s
  simp [kept_covers]

/-- What it takes for one effect size to be evaluated. -/
def Good (I : Input K) (k : ℕ) (e : K) : Prop :=
  (∀ s < I.nSim, I.run (k * I.nSim + s) e ≠ .generatorError) ∧ ∃ s < I.nSim, Succeeds (I.run (k * I.nSim + s) e)

theorem isGenError_iff (x : Run K) : isGenError x = true ↔ x = .generatorError := by
  cases x <;> simp [isGenError]

theorem outs_nil_iff (I : Input K) (k : ℕ) (e : K) :
    outsOf I k e = [] ↔ ∀ s < I.nSim, ¬ Succeeds (I.run (k * I.nSim + s) e) := by
  rw [outsOf_eq, List.filterMap_eq_nil_iff]
  constructor
  · intro h s hs hh
    have := h s (List.mem_range.2 hs)
    rw [← kept_isSome, this] at hh
    simp at hh
  · intro h s hs
    by_contra hc
    exact h s (List.mem_range.1 hs) ((kept_isSome _).1 (Option.isSome_iff_ne_none.2 hc))

theorem evalEffect_ok (I : Input K) (e : K) (k : ℕ) (l : List (Out K)) :
    evalEffect I e k = .ok l ↔ Good I k e ∧ l = outsOf I k e := by
  have hany : (runsOf I k e).any isGenError = true ↔ ∃ s < I.nSim, I.run (k * I.nSim + s) e = .generatorError := by
    simp [runsOf, isGenError_iff]
  unfold evalEffect
  constructor
  · intro h
    split_ifs at h with h1 h2 h3
    rw [hany] at h1
    rw [outs_nil_iff] at h3
    push Not at h1 h3
    exact ⟨⟨h1, h3⟩, (Except.ok.inj h).symm⟩
  · rintro ⟨⟨h1, s, hs, h2⟩, rfl⟩
    rw [if_neg, if_neg, if_neg]
    · rw [outs_nil_iff]
      push Not
      exact ⟨s, hs, h2⟩
    · omega
    · rw [hany]
      push Not
      exact h1

theorem evalAll_ok (I : Input K) : ∀ (es : List K) (k : ℕ) (all : List (List (Out K))),
    evalAll I es k = .ok all ↔
      (∀ j (h : j < es.length), Good I (k + j) es[j]) ∧
        all = es.mapIdx (fun j e => outsOf I (k + j) e)
  | [], k, all => by simp [evalAll, eq_comm]
  | e :: es, k, all => by
    rw [evalAll]
    constructor
    · intro h
      cases h1 : evalEffect I e k with
      | error x => rw [h1] at h; cases h
      | ok o =>
        rw [h1] at h
        cases h2 : evalAll I es (k + 1) with
        | error x => simp only [h2] at h; cases h
        | ok os =>
          simp only [h2] at h
          obtain ⟨g1, rfl⟩ := (evalEffect_ok I e k o).1 h1
          obtain ⟨g2, rfl⟩ := (evalAll_ok I es (k + 1) os).1 h2
          cases h
          refine ⟨?_, ?_⟩
          · intro j hj
            cases j with
            | zero => simpa using g1
            | succ j =>
              have := g2 j (by simpa using hj)
              rw [show k + (j + 1) = k + 1 + j from by omega]
              simpa using this
          · rw [List.mapIdx_cons]
            simp [Nat.add_assoc, Nat.add_comm 1]
    · rintro ⟨g, rfl⟩
      have g1 : Good I k e := g 0 (Nat.succ_pos _)
      have g2 : ∀ j (h : j < es.length), Good I (k + 1 + j) es[j] := by
        intro j hj
        have := g (j + 1) (by simpa using hj)
        rw [show k + (j + 1) = k + 1 + j from by omega] at this
        simpa using this
      rw [(evalEffect_ok I e k _).2 ⟨g1, rfl⟩]
      simp only
      rw [(evalAll_ok I es (k + 1) _).2 ⟨g2, rfl⟩]
      simp [List.mapIdx_cons, Nat.add_assoc, Nat.add_comm 1]

theorem primaryIdx_lt (I : Input K) (h : effectsOf I ≠ []) : primaryIdx I < (effectsOf I).length := by
  have hl : 0 < (effectsOf I).length := List.length_pos_of_ne_nil h
  unfold primaryIdx
  split_ifs with h1
  · exact hl
  · cases hf : (effectsOf I).findIdx? (fun e => isClose e I.effect) with
    | none => simp only [Option.getD_none]; omega
    | some i =>
      simp only [Option.getD_some]
      exact (List.findIdx?_eq_some_iff_findIdx_eq.1 hf).1

/-- A successful call, in one piece. -/
theorem simulate_ok (r : K → K) (z : K) (I : Input K) (R : Result K) :
    simulate r z I = .ok R ↔
      ∃ h : effectsOf I ≠ [],
        (∀ j (hj : j < (effectsOf I).length), Good I j (effectsOf I)[j]) ∧
        R = summarise r z I ((effectsOf I)[primaryIdx I]'(primaryIdx_lt I h))
          (outsOf I (primaryIdx I) ((effectsOf I)[primaryIdx I]'(primaryIdx_lt I h)))
          ((effectsOf I).mapIdx (fun j e => outsOf I j e)) := by
  unfold simulate
  by_cases hne : effectsOf I = []
  · simp [hne]
  · have hp := primaryIdx_lt I hne
    rw [List.getElem?_eq_getElem hp]
    simp only
    constructor
    · intro h
      cases h2 : evalAll I (effectsOf I) 0 with
      | error x => rw [h2] at h; cases h
      | ok all =>
        rw [h2] at h
        obtain ⟨g, rfl⟩ := (evalAll_ok I _ 0 all).1 h2
        refine ⟨hne, by simpa using g, ?_⟩
        simp only [Nat.zero_add] at h
        rw [List.getElem?_eq_getElem (by simpa using hp)] at h
        simp only [List.getElem_mapIdx] at h
        exact (Except.ok.inj h).symm
    · rintro ⟨_, g, rfl⟩
      rw [(evalAll_ok I _ 0 _).2 ⟨by simpa using g, rfl⟩]
      simp only [Nat.zero_add]
      rw [List.getElem?_eq_getElem (by simpa using hp)]
      simp only [List.getElem_mapIdx]

end lemmas

section props
variable {K : Type*} [Field K] [LinearOrder K] [IsStrictOrderedRing K]

/-! ### C106 -/

/-- **C106**: the call returns a result exactly when there is an effect size, no data set fails to be generated and every effect size
has a simulation with a usable result. -/
theorem C106_defined (r : K → K) (z : K) (I : Input K) :
    (∃ R, simulate r z I = .ok R) ↔
      effectsOf I ≠ [] ∧ ∀ j (hj : j < (effectsOf I).length),
        (∀ s < I.nSim, I.run (j * I.nSim + s) (effectsOf I)[j] ≠ .generatorError) ∧
        ∃ s < I.nSim, Succeeds (I.run (j * I.nSim + s) (effectsOf I)[j]) := by
  constructor
  · rintro ⟨R, h⟩
    obtain ⟨h1, h2, _⟩ := (simulate_ok r z I R).1 h
    exact ⟨h1, h2⟩
  · rintro ⟨h1, h2⟩
    exact ⟨_, (simulate_ok r z I _).2 ⟨h1, h2, rfl⟩⟩

open Classical in
/-- **C106**: for every effect size the reported power is the number of simulations with a p-value below `alpha` over the number of
simulations with a usable result; the simulations of the `j`-th effect size are numbers `j·n, …, j·n + n − 1` of the random stream.
The main power is the one at the primary effect and `n_simulations` counts its usable simulations. -/
theorem C106_power (r : K → K) (z : K) (I : Input K) (R : Result K) (h : simulate r z I = .ok R) :
    R.effects = effectsOf I ∧ R.powers.length = (effectsOf I).length ∧
    (∀ j (hj : j < (effectsOf I).length),
      R.powers[j]? = some
        ((((Finset.range I.nSim).filter
            (fun s => ∃ p, HasP (I.run (j * I.nSim + s) (effectsOf I)[j]) p ∧ p < I.alpha)).card : K) /
          (((Finset.range I.nSim).filter (fun s => Succeeds (I.run (j * I.nSim + s) (effectsOf I)[j]))).card : K))) ∧
    R.powers[primaryIdx I]? = some R.power ∧ (effectsOf I)[primaryIdx I]? = some R.trueEffect ∧
    R.nSim = ((Finset.range I.nSim).filter
      (fun s => Succeeds (I.run (primaryIdx I * I.nSim + s) R.trueEffect))).card := by
  obtain ⟨h1, _, rfl⟩ := (simulate_ok r z I R).1 h
  have hp := primaryIdx_lt I h1
  refine ⟨rfl, by simp [summarise], ?_, ?_, ?_, ?_⟩
  · intro j hj
    simp only [summarise, List.getElem?_map, List.getElem?_mapIdx, List.getElem?_eq_getElem hj, Option.map_some, powerOf,
      outs_rejects, outs_length]
  · simp only [summarise, List.getElem?_map, List.getElem?_mapIdx, List.getElem?_eq_getElem hp, Option.map_some]
  · simp only [summarise, List.getElem?_eq_getElem hp]
  · simp only [summarise, outs_length]

/-- **C106**: the primary effect is the only effect, otherwise the first within tolerance of the requested one, otherwise the last. -/
theorem C106_primary (r : K → K) (z : K) (I : Input K) (R : Result K) (h : simulate r z I = .ok R) :
    (∀ e, effectsOf I = [e] → R.trueEffect = e) ∧
    (∀ pre e post, effectsOf I = pre ++ e :: post → |e - I.effect| ≤ 1 / 10 ^ 8 + 1 / 10 ^ 5 * |I.effect| →
      (∀ x ∈ pre, ¬ |x - I.effect| ≤ 1 / 10 ^ 8 + 1 / 10 ^ 5 * |I.effect|) →
      R.trueEffect = e ∧ R.powers[pre.length]? = some R.power) ∧
    ((∀ x ∈ effectsOf I, ¬ |x - I.effect| ≤ 1 / 10 ^ 8 + 1 / 10 ^ 5 * |I.effect|) →
      (effectsOf I).getLast? = some R.trueEffect ∧ R.powers.getLast? = some R.power) := by
  obtain ⟨_, hlen, _, hpow, htrue, _⟩ := C106_power r z I R h
  obtain ⟨hne, _, _⟩ := (simulate_ok r z I R).1 h
  refine ⟨?_, ?_, ?_⟩
  · intro e he
    have : primaryIdx I = 0 := by simp [primaryIdx, he]
    rw [this, he] at htrue
    simpa using htrue.symm
  · intro pre e post he hc hpre
    have hidx : primaryIdx I = pre.length := by
      unfold primaryIdx
      split_ifs with h1
      · rw [he] at h1
        simp at h1
        omega
      · have hpre' : pre.findIdx? (fun e => isClose e I.effect) = none := by
          rw [List.findIdx?_eq_none_iff]
          intro x hx
          simpa [isClose] using hpre x hx
        have hce : isClose e I.effect = true := by simpa [isClose] using hc
        rw [he, List.findIdx?_append, hpre', List.findIdx?_cons, hce]
        simp
    rw [hidx] at hpow htrue
    rw [he] at htrue
    simp at htrue
    exact ⟨htrue.symm, hpow⟩
  · intro hall
    have hidx : primaryIdx I = (effectsOf I).length - 1 := by
      unfold primaryIdx
      split_ifs with h1
      · omega
      · have : (effectsOf I).findIdx? (fun e => isClose e I.effect) = none := by
          rw [List.findIdx?_eq_none_iff]
          intro x hx
          simpa [isClose] using hall x hx
        rw [this]
        rfl
    rw [hidx] at hpow htrue
    rw [List.getLast?_eq_getElem?, List.getLast?_eq_getElem?, hlen]
    exact ⟨htrue, hpow⟩

theorem powerOf_range (alpha : K) (l : List (Out K)) : 0 ≤ powerOf alpha l ∧ powerOf alpha l ≤ 1 := by
  unfold powerOf
  have h1 : ((l.filter (rejects alpha)).length : K) ≤ (l.length : K) := by
    exact_mod_cast List.length_filter_le _ _
  exact ⟨by positivity, div_le_one_of_le₀ h1 (by positivity)⟩

/-- **C106**: every power lies in [0, 1]; the interval lies in [0, 1] and contains the power; coverage lies in [0, 1]. -/
theorem C106_range (r : K → K) (z : K) (I : Input K) (R : Result K) (h : simulate r z I = .ok R)
    (hr : ∀ x, 0 ≤ x → 0 ≤ r x) (hz : 0 ≤ z) :
    (∀ p ∈ R.powers, 0 ≤ p ∧ p ≤ 1) ∧ 0 ≤ R.ciLo ∧ R.ciLo ≤ R.power ∧ R.power ≤ R.ciHi ∧ R.ciHi ≤ 1 ∧ 0 ≤ R.powerSe ∧
      0 ≤ R.coverage ∧ R.coverage ≤ 1 := by
  obtain ⟨h1, _, rfl⟩ := (simulate_ok r z I R).1 h
  set e := (effectsOf I)[primaryIdx I]'(primaryIdx_lt I h1)
  set l := outsOf I (primaryIdx I) e
  obtain ⟨p0, p1⟩ := powerOf_range I.alpha l
  have hse : 0 ≤ r (powerOf I.alpha l * (1 - powerOf I.alpha l) / (l.length : K)) :=
    hr _ (div_nonneg (mul_nonneg p0 (sub_nonneg.2 p1)) (by positivity))
  have hzs := mul_nonneg hz hse
  refine ⟨?_, le_max_left _ _, max_le p0 (by simp only [summarise]; linarith), le_min p1 (by simp only [summarise]; linarith),
    min_le_left _ _, hse, ?_, ?_⟩
  · intro p hp
    simp only [summarise, List.mem_map] at hp
    obtain ⟨a, _, rfl⟩ := hp
    exact powerOf_range _ _
  · simp only [summarise]; positivity
  · simp only [summarise]
    exact div_le_one_of_le₀ (by exact_mod_cast List.length_filter_le _ _) (by positivity)

/-- **C106**: a larger significance level never lowers any of the powers. -/
theorem C106_alpha_mono (r : K → K) (z : K) (I J : Input K) (R S : Result K) (hR : simulate r z I = .ok R)
    (hS : simulate r z J = .ok S) (hle : I.alpha ≤ J.alpha)
    (hn : J.nSim = I.nSim) (he : J.effect = I.effect) (hes : J.effects = I.effects) (hrun : J.run = I.run) :
    R.power ≤ S.power ∧ ∀ (j : ℕ) (p q : K), R.powers[j]? = some p → S.powers[j]? = some q → p ≤ q := by
  have hE : effectsOf J = effectsOf I := by simp [effectsOf, he, hes]
  have hP : primaryIdx J = primaryIdx I := by simp [primaryIdx, hE, he]
  have hO : ∀ k e, outsOf J k e = outsOf I k e := by intro k e; simp [outsOf, runsOf, hn, hrun]
  have hmono : ∀ l : List (Out K), powerOf I.alpha l ≤ powerOf J.alpha l := by
    intro l
    unfold powerOf
    refine div_le_div_of_nonneg_right ?_ (by positivity)
    have : (l.filter (rejects I.alpha)).length ≤ (l.filter (rejects J.alpha)).length := by
      refine (List.monotone_filter_right l ?_).length_le
      intro o ho
      unfold rejects at ho ⊢
      cases hp : o.p with
      | none => simp [hp] at ho
      | some p =>
        simp only [hp, decide_eq_true_eq] at ho ⊢
        exact lt_of_lt_of_le ho hle
    exact_mod_cast this
  have key : ∀ (j : ℕ) (p q : K), R.powers[j]? = some p → S.powers[j]? = some q → p ≤ q := by
    obtain ⟨h1, _, rfl⟩ := (simulate_ok r z I R).1 hR
    obtain ⟨h2, _, rfl⟩ := (simulate_ok r z J S).1 hS
    intro j p q hp hq
    simp only [summarise, List.getElem?_map, List.getElem?_mapIdx, hE, hO] at hp hq
    cases hj : (effectsOf I)[j]? with
    | none => simp [hj] at hp
    | some e =>
      simp only [hj, Option.map_some, Option.some.injEq] at hp hq
      rw [← hp, ← hq]
      exact hmono _
  refine ⟨key (primaryIdx I) _ _ (C106_power r z I R hR).2.2.2.1 ?_, key⟩
  rw [← hP]
  exact (C106_power r z J S hS).2.2.2.1

/-- **C106**: adding effect sizes at the end does not change the powers of the earlier ones. -/
theorem C106_prefix (r : K → K) (z : K) (I J : Input K) (R S : Result K) (hR : simulate r z I = .ok R)
    (hS : simulate r z J = .ok S) (a : I.alpha = J.alpha) (hn : J.nSim = I.nSim) (hrun : J.run = I.run)
    (more : List K) (hes : effectsOf J = effectsOf I ++ more) : ∃ rest, S.powers = R.powers ++ rest := by
  obtain ⟨h1, _, rfl⟩ := (simulate_ok r z I R).1 hR
  obtain ⟨h2, _, rfl⟩ := (simulate_ok r z J S).1 hS
  have hO : ∀ k e, outsOf J k e = outsOf I k e := by intro k e; simp [outsOf, runsOf, hn, hrun]
  simp only [summarise, hes, hO, List.mapIdx_append, List.map_append, a]
  exact ⟨_, rfl⟩

/-- Results of kind `k` for the simulations. -/
theorem succeeds_ofKind (k : Kind) (o : Out K) : Succeeds (Run.result (ofKind k o)) ↔ k ≠ .overall := by
  cases k <;> simp [Succeeds, Usable, ofKind]

/-- **C106**: whichever of the two sets of attribute names a result carries, the values used are its own; a result with only the
`overall_*` names yields none. -/
theorem C106_kinds (k : Kind) (o : Out K) (v a b : K) :
    (HasEst (.result (ofKind k o)) v ↔ k ≠ .overall ∧ o.est = some v) ∧ (HasP (.result (ofKind k o)) v ↔ k ≠ .overall ∧ o.p = some v) ∧
    (HasCi (.result (ofKind k o)) a b ↔ k ≠ .overall ∧ o.lo = some a ∧ o.hi = some b) ∧
    ∀ O, kept (.result (ofKind k o)) = some O → O = o := by
  refine ⟨?_, ?_, ?_, ?_⟩
  · cases k <;> simp [HasEst, Usable, ofKind]
  · cases k <;> simp [HasP, Usable, ofKind]
  · cases k <;> simp [HasCi, Usable, ofKind]
  · cases k <;> simp [kept, extract, ofKind]

/-- **C106**: an estimator whose results carry the plain or the average attributes always yields a power, whatever the values, if data
can be generated. -/
theorem C106_supported (r : K → K) (z : K) (I : Input K) (kind : ℕ → Kind) (val : ℕ → K → Out K)
    (hrun : ∀ i e, I.run i e = .result (ofKind (kind i) (val i e))) (hk : ∀ i, kind i ≠ .overall) (hn : 0 < I.nSim)
    (he : effectsOf I ≠ []) : ∃ R, simulate r z I = .ok R ∧ R.nSim = I.nSim := by
  obtain ⟨R, hR⟩ := (C106_defined r z I).2 ⟨he, fun j hj => ⟨fun s _ => by rw [hrun]; simp,
    0, hn, by rw [hrun, succeeds_ofKind]; exact hk _⟩⟩
  refine ⟨R, hR, ?_⟩
  classical
  rw [(C106_power r z I R hR).2.2.2.2.2, Finset.filter_true_of_mem, Finset.card_range]
  intro s _
  rw [hrun, succeeds_ofKind]
  exact hk _

/-- The claim "simulated power is available for every estimator `simulate_power` has a branch for" is false: a result carrying only the
`overall_*` attributes, as CallawaySantAnna and SunAbraham produce, is counted as a failure, so the call always ends in "All
simulations failed" (power.py 1129-1132, 1156-1157), although the estimator never failed. -/
theorem C106_callaway_refuted (r : K → K) (z : K) (I : Input K) (val : ℕ → K → Out K)
    (hrun : ∀ i e, I.run i e = .result (ofKind .overall (val i e))) (hn : 0 < I.nSim) (he : effectsOf I ≠ []) :
    simulate r z I = .error .allFailed := by
  have hs : ∀ i e, ¬ Succeeds (I.run i e) := by
    intro i e
    rw [hrun, succeeds_ofKind]
    simp
  have hev : ∀ e k, evalEffect I e k = .error .allFailed := by
    intro e k
    unfold evalEffect
    rw [if_neg, if_neg (by omega), if_pos]
    · rw [outs_nil_iff]
      exact fun s _ => hs _ _
    · simp [runsOf, hrun, isGenError]
  have hall : evalAll I (effectsOf I) 0 = .error .allFailed := by
    obtain ⟨e, es, hc⟩ := List.exists_cons_of_ne_nil he
    rw [hc, evalAll, hev]
  unfold simulate
  rw [List.getElem?_eq_getElem (primaryIdx_lt I he)]
  simp only [hall]

/-- A usable result with estimate, p-value and interval. -/
def sample (est p lo hi : ℚ) : Run ℚ :=
  .result (ofKind .plain { est := some est, se := some 1, p := some p, lo := some lo, hi := some hi })

/-- One simulation rejects, three raise an exception. -/
def mostlyFailing : Input ℚ :=
  { nSim := 4, alpha := 1 / 20, effect := 5, effects := none
    run := fun i _ => if i = 0 then sample 5 (1 / 100) 4 6 else .fitError }

/-- The claim "power is the share of the requested simulations that reject" is false: simulations in which the estimator raises are left
out of the denominator (power.py 1140-1145, 1160). With three failures out of four and one rejection the power is 1, the standard
error 0 and the interval [1, 1]. -/
theorem C106_failures_refuted :
    simulate (fun x => x) 2 mostlyFailing = .ok
      { power := 1, powerSe := 0, ciLo := 1, ciHi := 1, meanEst := some 5, stdEst := none, meanSe := some 1, coverage := 1,
        nSim := 1, effects := [5], powers := [1], trueEffect := 5, bias := some 0, rmse := none } := by
  decide +kernel

/-- Every second position of the random stream rejects. -/
def alternating (es : List ℚ) : Input ℚ :=
  { nSim := 1, alpha := 1 / 20, effect := 2, effects := some es
    run := fun i _ => if i = 0 then sample 5 (1 / 100) 4 6 else sample 0 (1 / 2) (-1) 1 }

/-- The claim "the power reported for an effect size does not depend on the other effect sizes in the list" is false: one random stream
runs through the list (power.py 1012, 1059), so an effect size listed later gets other data sets. -/
theorem C106_order_refuted :
    ((simulate (fun x => x) 2 (alternating [1, 2])).map Result.powers) = .ok [1, 0] ∧
    ((simulate (fun x => x) 2 (alternating [2, 1])).map Result.powers) = .ok [1, 0] := by
  decide +kernel

/-! ### C107 -/

theorem mapM_id_some : ∀ l : List K, (l.map some).mapM id = some l
  | [] => rfl
  | a :: l => by
    rw [List.map_cons, List.mapM_cons, mapM_id_some l]
    rfl

theorem mapM_id_none (l : List (Option K)) (h : none ∈ l) : l.mapM id = none := by
  induction l with
  | nil => simp at h
  | cons a l ih =>
    rw [List.mapM_cons]
    cases a with
    | none => rfl
    | some a =>
      rw [ih (by simpa using h)]
      rfl

open Classical in
/-- The recorded estimates are those of the successful simulations, in order. -/
theorem est_list (f : ℕ → Run K) (v : ℕ → K) (n : ℕ) (hv : ∀ s < n, Succeeds (f s) → HasEst (f s) (v s)) :
    ((List.range n).filterMap (fun s => kept (f s))).map Out.est =
      (((List.range n).filter (fun s => decide (Succeeds (f s)))).map v).map some := by
  induction n with
  | zero => rfl
  | succ n ih =>
    rw [List.range_succ, List.filterMap_append, List.map_append, ih (fun s hs => hv s (by omega)), List.filter_append,
      List.map_append, List.map_append]
    congr 1
    by_cases hs : Succeeds (f n)
    · obtain ⟨o, ho, he⟩ := (hasEst_iff _ _).1 (hv n (by omega) hs)
      simp [ho, hs, he]
    · have hk : kept (f n) = none := by
        by_contra hc
        exact hs ((kept_isSome _).1 (Option.isSome_iff_ne_none.2 hc))
      simp [hk, hs]

open Classical in
theorem sum_filter_list (p : ℕ → Prop) (v : ℕ → K) (n : ℕ) :
    (((List.range n).filter (fun s => decide (p s))).map v).sum = ∑ s ∈ (Finset.range n).filter p, v s := by
  induction n with
  | zero => simp
  | succ n ih =>
    rw [List.range_succ, List.filter_append, List.map_append, List.sum_append, ih, Finset.range_add_one, Finset.filter_insert]
    by_cases h : p n
    · simp [h, add_comm]
    · simp [h]

open Classical in
theorem len_filter_list (p : ℕ → Prop) (n : ℕ) :
    ((List.range n).filter (fun s => decide (p s))).length = ((Finset.range n).filter p).card := by
  have := sum_filter_list (K := ℚ) p (fun _ => 1) n
  simp at this
  exact_mod_cast this

open Classical in
/-- The usable simulations of an effect size. -/
noncomputable def usable (I : Input K) (k : ℕ) (e : K) : Finset ℕ :=
  (Finset.range I.nSim).filter (fun s => Succeeds (I.run (k * I.nSim + s) e))

/-- **C107**: coverage is the share of usable simulations whose interval contains the effect used to generate the data. -/
theorem C107_coverage (r : K → K) (z : K) (I : Input K) (R : Result K) (h : simulate r z I = .ok R)
    [DecidablePred fun s => ∃ a b, HasCi (I.run (primaryIdx I * I.nSim + s) R.trueEffect) a b ∧ a ≤ R.trueEffect ∧ R.trueEffect ≤ b] :
    R.coverage = (((usable I (primaryIdx I) R.trueEffect).filter
      (fun s => ∃ a b, HasCi (I.run (primaryIdx I * I.nSim + s) R.trueEffect) a b ∧ a ≤ R.trueEffect ∧ R.trueEffect ≤ b)).card : K) /
        ((usable I (primaryIdx I) R.trueEffect).card : K) := by
  obtain ⟨h1, _, rfl⟩ := (simulate_ok r z I R).1 h
  classical
  simp only [summarise, outs_covers, outs_length, usable, Finset.filter_filter]
  congr 3
  refine Finset.filter_congr fun s _ => ?_
  constructor
  · rintro ⟨a, b, ⟨x, h2, h3, h4⟩, h5⟩
    exact ⟨⟨x, h2, h3⟩, a, b, ⟨x, h2, h3, h4⟩, h5⟩
  · exact fun h => h.2

/-- **C107**: when every usable simulation of the primary effect has a number as estimate, `mean_estimate` is their average, `bias` the
average minus the effect. -/
theorem C107_bias (r : K → K) (z : K) (I : Input K) (R : Result K) (h : simulate r z I = .ok R) (v : ℕ → K)
    (hv : ∀ s ∈ usable I (primaryIdx I) R.trueEffect, HasEst (I.run (primaryIdx I * I.nSim + s) R.trueEffect) (v s)) :
    R.meanEst = some ((∑ s ∈ usable I (primaryIdx I) R.trueEffect, v s) / ((usable I (primaryIdx I) R.trueEffect).card : K)) ∧
    R.bias = some ((∑ s ∈ usable I (primaryIdx I) R.trueEffect, (v s - R.trueEffect)) /
      ((usable I (primaryIdx I) R.trueEffect).card : K)) := by
  obtain ⟨h1, hg, rfl⟩ := (simulate_ok r z I R).1 h
  classical
  have hp := primaryIdx_lt I h1
  have hcard : ((usable I (primaryIdx I) ((effectsOf I)[primaryIdx I]'hp)).card : K) ≠ 0 := by
    obtain ⟨_, s, hs, hss⟩ := hg _ hp
    have : 0 < (usable I (primaryIdx I) ((effectsOf I)[primaryIdx I]'hp)).card :=
      Finset.card_pos.2 ⟨s, by simp [usable, hs, hss]⟩
    exact_mod_cast this.ne'
  have hl := est_list (fun s => I.run (primaryIdx I * I.nSim + s) ((effectsOf I)[primaryIdx I]'hp)) v I.nSim
    (fun s hs hss => hv s (Finset.mem_filter.2 ⟨Finset.mem_range.2 hs, hss⟩))
  have hm : meanO ((outsOf I (primaryIdx I) ((effectsOf I)[primaryIdx I]'hp)).map Out.est) =
      some ((∑ s ∈ usable I (primaryIdx I) ((effectsOf I)[primaryIdx I]'hp), v s) /
        ((usable I (primaryIdx I) ((effectsOf I)[primaryIdx I]'hp)).card : K)) := by
    rw [outsOf_eq, hl, meanO, mapM_id_some, Option.map_some, sum_filter_list, List.length_map, len_filter_list]
    rfl
  refine ⟨hm, ?_⟩
  simp only [summarise, hm, Option.map_some, Option.some.injEq, Finset.sum_sub_distrib, Finset.sum_const, nsmul_eq_mul]
  field_simp

/-- **C107**: one missing estimate makes mean, bias, spread and rmse missing, while power and coverage stay numbers. -/
theorem C107_missing (r : K → K) (z : K) (I : Input K) (R : Result K) (h : simulate r z I = .ok R) (s : ℕ)
    (hs : s ∈ usable I (primaryIdx I) R.trueEffect) (hm : ∀ v, ¬ HasEst (I.run (primaryIdx I * I.nSim + s) R.trueEffect) v) :
    R.meanEst = none ∧ R.stdEst = none ∧ R.bias = none ∧ R.rmse = none := by
  obtain ⟨h1, hg, rfl⟩ := (simulate_ok r z I R).1 h
  classical
  have hp := primaryIdx_lt I h1
  have hs' : s < I.nSim ∧ Succeeds (I.run (primaryIdx I * I.nSim + s) ((effectsOf I)[primaryIdx I]'hp)) := by
    have := Finset.mem_filter.1 hs
    exact ⟨Finset.mem_range.1 this.1, this.2⟩
  obtain ⟨o, ho⟩ := Option.isSome_iff_exists.1 ((kept_isSome _).2 hs'.2)
  have hest : o.est = none := by
    cases he : o.est with
    | none => rfl
    | some v => exact absurd ((hasEst_iff _ v).2 ⟨o, ho, he⟩) (hm v)
  have hmem : none ∈ (outsOf I (primaryIdx I) ((effectsOf I)[primaryIdx I]'hp)).map Out.est := by
    rw [outsOf_eq, List.mem_map]
    exact ⟨o, List.mem_filterMap.2 ⟨s, List.mem_range.2 hs'.1, ho⟩, hest⟩
  have hn := mapM_id_none _ hmem
  simp [summarise, meanO, stdO, hn]

theorem variance_split (S : Finset ℕ) (v : ℕ → K) (e : K) (hS : (S.card : K) ≠ 0) :
    ∑ s ∈ S, (v s - e) ^ 2 =
      ∑ s ∈ S, (v s - (∑ s ∈ S, v s) / (S.card : K)) ^ 2 + (S.card : K) * ((∑ s ∈ S, v s) / (S.card : K) - e) ^ 2 := by
  set m := (∑ s ∈ S, v s) / (S.card : K) with hmdef
  have hm : ∑ s ∈ S, v s = (S.card : K) * m := by rw [hmdef]; field_simp
  have h1 : ∀ s, (v s - e) ^ 2 = (v s - m) ^ 2 + (2 * (m - e)) * (v s - m) + (m - e) ^ 2 := by intro s; ring
  simp only [h1, Finset.sum_add_distrib, ← Finset.mul_sum, Finset.sum_sub_distrib, hm, Finset.sum_const, nsmul_eq_mul]
  ring

/-- **C107**, partial: with at least two usable simulations the squared `rmse` is the mean squared error of the estimates plus
`Σ (estimate − mean)² / (n (n − 1))`; so it is never below the root mean squared error. Missing: equality. -/
theorem C107_rmse_partial (r : K → K) (hr : ∀ x, 0 ≤ x → r x ^ 2 = x) (z : K) (I : Input K) (R : Result K)
    (h : simulate r z I = .ok R) (v : ℕ → K)
    (hv : ∀ s ∈ usable I (primaryIdx I) R.trueEffect, HasEst (I.run (primaryIdx I * I.nSim + s) R.trueEffect) (v s))
    (h2 : 2 ≤ (usable I (primaryIdx I) R.trueEffect).card) :
    ∃ q, R.rmse = some q ∧
      q ^ 2 = (∑ s ∈ usable I (primaryIdx I) R.trueEffect, (v s - R.trueEffect) ^ 2) /
          ((usable I (primaryIdx I) R.trueEffect).card : K) +
        (∑ s ∈ usable I (primaryIdx I) R.trueEffect,
          (v s - (∑ s ∈ usable I (primaryIdx I) R.trueEffect, v s) / ((usable I (primaryIdx I) R.trueEffect).card : K)) ^ 2) /
          (((usable I (primaryIdx I) R.trueEffect).card : K) * (((usable I (primaryIdx I) R.trueEffect).card : K) - 1)) ∧
      (∑ s ∈ usable I (primaryIdx I) R.trueEffect, (v s - R.trueEffect) ^ 2) /
          ((usable I (primaryIdx I) R.trueEffect).card : K) ≤ q ^ 2 := by
  have hmean := (C107_bias r z I R h v hv).1
  obtain ⟨h1, hg, rfl⟩ := (simulate_ok r z I R).1 h
  classical
  have hp := primaryIdx_lt I h1
  set e := (effectsOf I)[primaryIdx I]'hp with he
  set S := usable I (primaryIdx I) e with hSdef
  have hmean' : meanO ((outsOf I (primaryIdx I) e).map Out.est) = some ((∑ s ∈ S, v s) / (S.card : K)) := hmean
  change ∀ s ∈ S, HasEst (I.run (primaryIdx I * I.nSim + s) e) (v s) at hv
  change 2 ≤ S.card at h2
  have hc2 : (2 : K) ≤ (S.card : K) := by exact_mod_cast h2
  have hc0 : (S.card : K) ≠ 0 := by linarith
  have hc1 : (S.card : K) - 1 ≠ 0 := by linarith
  set m := (∑ s ∈ S, v s) / (S.card : K) with hm
  set V := ∑ s ∈ S, (v s - m) ^ 2 with hV
  have hV0 : 0 ≤ V := Finset.sum_nonneg fun s _ => sq_nonneg _
  have hl := est_list (fun s => I.run (primaryIdx I * I.nSim + s) e) v I.nSim
    (fun s hs hss => hv s (by simp [hSdef, usable, hs, hss]))
  have hs : stdO r ((outsOf I (primaryIdx I) e).map Out.est) = some (r (V / ((S.card : K) - 1))) := by
    rw [outsOf_eq, hl, stdO, mapM_id_some, Option.bind_some, List.length_map, len_filter_list, sum_filter_list,
      if_neg (by change ¬ S.card = 1; omega), List.map_map]
    have := sum_filter_list (fun s => Succeeds (I.run (primaryIdx I * I.nSim + s) e)) (fun s => (v s - m) ^ 2) I.nSim
    have h3 : (List.map ((fun x => (x - (∑ s ∈ S, v s) / (S.card : K)) ^ 2) ∘ v)
        (List.filter (fun s => decide (Succeeds (I.run (primaryIdx I * I.nSim + s) e))) (List.range I.nSim))).sum = V := this
    exact congrArg (fun t => some (r (t / ((S.card : K) - 1)))) h3
  have hq : (summarise r z I e (outsOf I (primaryIdx I) e) ((effectsOf I).mapIdx (fun j e => outsOf I j e))).rmse =
      some (r ((m - e) ^ 2 + r (V / ((S.card : K) - 1)) ^ 2)) := by
    simp only [summarise, hmean', hs, Option.bind_some, Option.map_some]
  have hsq : r ((m - e) ^ 2 + r (V / ((S.card : K) - 1)) ^ 2) ^ 2 = (m - e) ^ 2 + V / ((S.card : K) - 1) := by
    rw [hr _ (by positivity), hr _ (div_nonneg hV0 (by linarith))]
  have hsplit := variance_split S v e hc0
  rw [← hm, ← hV] at hsplit
  refine ⟨_, hq, ?_, ?_⟩
  · change _ = (∑ s ∈ S, (v s - e) ^ 2) / (S.card : K) + V / ((S.card : K) * ((S.card : K) - 1))
    rw [hsq, hsplit]
    field_simp
    ring
  · change (∑ s ∈ S, (v s - e) ^ 2) / (S.card : K) ≤ _
    rw [hsq, hsplit]
    have : V / (S.card : K) ≤ V / ((S.card : K) - 1) := div_le_div_of_nonneg_left hV0 (by linarith) (by linarith)
    rw [add_div, mul_div_cancel_left₀ _ hc0]
    linarith

/-- The claim "`rmse` is the root mean squared error of the estimates" is false whenever two usable simulations have different
estimates: the spread uses `n − 1`, the bias `n` (power.py 235, 1185), so the squared value exceeds the mean squared error. -/
theorem C107_rmse_refuted (r : K → K) (hr : ∀ x, 0 ≤ x → r x ^ 2 = x) (z : K) (I : Input K) (R : Result K)
    (h : simulate r z I = .ok R) (v : ℕ → K)
    (hv : ∀ s ∈ usable I (primaryIdx I) R.trueEffect, HasEst (I.run (primaryIdx I * I.nSim + s) R.trueEffect) (v s))
    (a b : ℕ) (ha : a ∈ usable I (primaryIdx I) R.trueEffect) (hb : b ∈ usable I (primaryIdx I) R.trueEffect) (hab : v a ≠ v b) :
    ∃ q, R.rmse = some q ∧ q ^ 2 > (∑ s ∈ usable I (primaryIdx I) R.trueEffect, (v s - R.trueEffect) ^ 2) /
          ((usable I (primaryIdx I) R.trueEffect).card : K) := by
  have h2 : 2 ≤ (usable I (primaryIdx I) R.trueEffect).card :=
    Finset.one_lt_card.2 ⟨a, ha, b, hb, fun hc => hab (by rw [hc])⟩
  obtain ⟨q, hq, he, _⟩ := C107_rmse_partial r hr z I R h v hv h2
  refine ⟨q, hq, ?_⟩
  rw [he]
  set S := usable I (primaryIdx I) R.trueEffect
  set m := (∑ s ∈ S, v s) / (S.card : K)
  have hc2 : (2 : K) ≤ (S.card : K) := by exact_mod_cast h2
  have hpos : 0 < ∑ s ∈ S, (v s - m) ^ 2 := by
    by_cases hva : v a = m
    · exact Finset.sum_pos' (fun s _ => sq_nonneg _) ⟨b, hb, by
        have : v b - m ≠ 0 := fun hc => hab (by rw [hva]; linarith)
        positivity⟩
    · exact Finset.sum_pos' (fun s _ => sq_nonneg _) ⟨a, ha, by
        have : v a - m ≠ 0 := fun hc => hva (by linarith)
        positivity⟩
  have : 0 < (∑ s ∈ S, (v s - m) ^ 2) / ((S.card : K) * ((S.card : K) - 1)) :=
    div_pos hpos (mul_pos (by linarith) (by linarith))
  linarith

/-! ### Concrete cases -/

/-- Three data sets per effect size; one estimation fails, one p-value is missing. -/
def mixed : Input ℚ :=
  { nSim := 3, alpha := 1 / 20, effect := 2, effects := some [1, 2, 3]
    run := fun i e =>
      if i % 3 = 0 then sample (e + 1) (1 / 100) (e - 1) (e + 3)
      else if i % 3 = 1 then .fitError
      else .result (ofKind .average { est := some (e - 2), se := some 1, p := none, lo := some (e - 3), hi := some (e - 1) }) }

/-- Hypotheses of the C106 theorems and of C107: a call with failures and missing p-values that returns. -/
example : ((simulate (fun x => x) 2 mixed).map fun R => (R.power, R.powers, R.trueEffect, R.nSim, R.coverage)) =
    .ok (1 / 2, [1 / 2, 1 / 2, 1 / 2], 2, 2, 1 / 2) := by decide +kernel

example : ((simulate (fun x => x) 2 mixed).map fun R => (R.meanEst, R.bias)) = .ok (some (3 / 2), some (-1 / 2)) := by
  decide +kernel

/-- The monotonicity hypothesis: a larger level turns a non-rejection into a rejection. -/
example : ((simulate (fun x => x) 2 (alternating [1, 2])).map Result.powers) = .ok [1, 0] ∧
    ((simulate (fun x => x) 2 { alternating [1, 2] with alpha := 3 / 4 }).map Result.powers) = .ok [1, 1] := by
  decide +kernel

/-- Hypotheses of `C106_callaway_refuted`. -/
example : simulate (fun x => x) (2 : ℚ)
    { nSim := 2, alpha := 1 / 20, effect := 5, effects := none
      run := fun _ e => .result (ofKind .overall { est := some e, se := some 1, p := some 0, lo := some e, hi := some e }) } =
    .error .allFailed :=
  C106_callaway_refuted _ _ _ (fun _ e => { est := some e, se := some 1, p := some 0, lo := some e, hi := some e })
    (fun _ _ => rfl) (by norm_num) (by simp [effectsOf])

/-- Hypotheses of `C107_missing`: a missing estimate. -/
example : ((simulate (fun x => x) 2
    { mixed with run := fun _ e => .result (ofKind .plain { est := none, se := some 1, p := none, lo := none, hi := some e }) }).map
      fun R => (R.meanEst, R.rmse, R.power)) = .ok (none, none, 0) := by decide +kernel

end props

/-- Hypotheses of `C107_rmse_refuted` over the reals: estimates `e + 1` and `e - 1`. -/
example : ∃ (I : Input ℝ) (R : Result ℝ) (v : ℕ → ℝ), simulate Real.sqrt 2 I = .ok R ∧
    (∀ s ∈ usable I (primaryIdx I) R.trueEffect, HasEst (I.run (primaryIdx I * I.nSim + s) R.trueEffect) (v s)) ∧
    (0 ∈ usable I (primaryIdx I) R.trueEffect) ∧ (1 ∈ usable I (primaryIdx I) R.trueEffect) ∧ v 0 ≠ v 1 := by
  let o : ℕ → ℝ → Out ℝ := fun i e =>
    { est := some (if i = 0 then e + 1 else e - 1), se := some 1, p := some 0, lo := some e, hi := some e }
  let I : Input ℝ := { nSim := 2, alpha := 1 / 20, effect := 5, effects := none, run := fun i e => .result (ofKind .plain (o i e)) }
  obtain ⟨R, hR, _⟩ := C106_supported Real.sqrt 2 I (fun _ => .plain) o (fun _ _ => rfl) (fun _ => by simp) (by simp [I])
    (by simp [effectsOf, I])
  have hidx : primaryIdx I = 0 := by simp [primaryIdx, effectsOf, I]
  have hu : ∀ s, s < 2 → s ∈ usable I (primaryIdx I) R.trueEffect := by
    intro s hs
    simp only [usable, Finset.mem_filter, Finset.mem_range]
    exact ⟨hs, (succeeds_ofKind .plain _).2 (by simp)⟩
  refine ⟨I, R, fun s => if s = 0 then R.trueEffect + 1 else R.trueEffect - 1, hR, ?_, hu 0 (by omega), hu 1 (by omega), ?_⟩
  · intro s _
    refine ⟨_, rfl, by simp [Usable, ofKind], Or.inl ?_⟩
    simp [ofKind, o, hidx]
  · simp only [if_true, one_ne_zero, if_false]
    intro hc
    linarith

end DiffDiff.SimPower
