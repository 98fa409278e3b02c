/-
Properties of the data generators: counterfactual consistency, balance, treated share, and what
DifferenceInDifferences reports on the generated data.
-/
import Verif.Dgp
import Verif.Did2x2Props
import Mathlib.Algebra.BigOperators.Fin
import Mathlib.Algebra.BigOperators.Intervals
import Mathlib.Algebra.BigOperators.Field
import Mathlib.Data.Rat.Floor
import Mathlib.Tactic.Ring
import Mathlib.Tactic.FieldSimp
import Mathlib.Tactic.Linarith
import Mathlib.Tactic.Positivity
import Mathlib.Tactic.NormNum

set_option linter.unusedSectionVars false

namespace DiffDiff.Dgp

variable {K : Type*} [Field K] [LinearOrder K] [IsStrictOrderedRing K] [FloorRing K]

/-! ### C112: counterfactuals, balance, share -/

/-- The panel contains every (unit, period) pair exactly once. -/
def Complete {α : Type*} (key : α → ℕ × ℕ) (n T : ℕ) (rows : List α) : Prop :=
  (rows.map key).Nodup ∧ ∀ u t, (u, t) ∈ rows.map key ↔ u < n ∧ t < T

theorem mem_cells {n T u t : ℕ} : (u, t) ∈ cells n T ↔ u < n ∧ t < T := by
  unfold cells
  simp

theorem cells_nodup (n T : ℕ) : (cells n T).Nodup := by
  unfold cells
  rw [List.nodup_flatMap]
  refine ⟨fun u _ => List.Nodup.map (fun a b h => by simpa using h) List.nodup_range, ?_⟩
  refine List.Pairwise.imp_of_mem ?_ (List.nodup_range (n := n))
  intro a b _ _ hab x hx hy
  rw [List.mem_map] at hx hy
  obtain ⟨_, _, rfl⟩ := hx
  obtain ⟨_, _, h⟩ := hy
  exact hab (congrArg Prod.fst h).symm

theorem complete_map {α : Type*} (key : α → ℕ × ℕ) (n T : ℕ) (f : ℕ × ℕ → α) (h : ∀ x, key (f x) = x) :
    Complete key n T ((cells n T).map f) := by
  have : ((cells n T).map f).map key = cells n T := by
    rw [List.map_map]
    conv_rhs => rw [← List.map_id (cells n T)]
    exact List.map_congr_left fun x _ => h x
  unfold Complete
  rw [this]
  exact ⟨cells_nodup n T, fun u t => mem_cells⟩

/-- C112. Every generator of panel data returns each (unit, period) pair exactly once. -/
theorem C112_complete (cd : DidCfg K) (cp : PanelCfg K) (ce : EventCfg K) (cs : StagCfg K) (cf : FactorCfg K)
    (z : ℕ → K) (ch : ℕ → ℕ) :
    Complete (fun r : Row K => (r.unit, r.period)) cd.nUnits cd.nPeriods (generateDid cd z) ∧
    (∀ rows, generatePanel cp z = .ok rows → Complete (fun r : Row K => (r.unit, r.period)) cp.nUnits cp.nPeriods rows) ∧
    Complete (fun r : Row K => (r.unit, r.period)) ce.nUnits (ce.nPre + ce.nPost) (generateEvent ce z) ∧
    (∀ rows, generateStag cs ch z = .ok rows →
      Complete (fun r : SRow K => (r.unit, r.period)) cs.nUnits cs.nPeriods rows) ∧
    (∀ rows, generateFactor cf z = .ok rows →
      Complete (fun r : FRow K => (r.unit, r.period)) cf.nUnits (cf.nPre + cf.nPost) rows) := by
  refine ⟨complete_map _ _ _ _ fun _ => rfl, fun rows h => ?_, complete_map _ _ _ _ fun _ => rfl, fun rows h => ?_,
    fun rows h => ?_⟩
  · unfold generatePanel at h
    split_ifs at h <;> cases h
    exact complete_map _ _ _ _ fun _ => rfl
  · unfold generateStag at h
    split at h
    · cases h
    · split_ifs at h <;> cases h
      exact complete_map _ _ _ _ fun _ => rfl
  · unfold generateFactor at h
    split_ifs at h <;> cases h
    exact complete_map _ _ _ _ fun _ => rfl

theorem forall₂_map {α β : Type*} (l : List α) (f g : α → β) (R : β → β → Prop) (h : ∀ x ∈ l, R (f x) (g x)) :
    List.Forall₂ R (l.map f) (l.map g) := by
  induction l with
  | nil => exact List.Forall₂.nil
  | cons a l ih =>
    exact List.Forall₂.cons (h a List.mem_cons_self) (ih fun x hx => h x (List.mem_cons_of_mem a hx))

/-- Two rows differ only through the treatment effect recorded in the first. -/
def Counterfactual (τ : K) (r r0 : Row K) : Prop :=
  r.unit = r0.unit ∧ r.period = r0.period ∧ r.treated = r0.treated ∧ r.post = r0.post ∧ r.eventTime = r0.eventTime ∧
  r.outcome = r0.outcome + r.trueEffect ∧ r0.trueEffect = 0 ∧
  r.trueEffect = if r.treated = true ∧ r.post = true then τ else 0

/-- C112. With the same draws, the data without treatment effect are the data with it minus the recorded true effect, row
by row, and the true effect is the requested one exactly on treated post rows: simultaneous designs. -/
theorem C112_counterfactual (cd : DidCfg K) (cp : PanelCfg K) (ce : EventCfg K) (z : ℕ → K) :
    List.Forall₂ (Counterfactual cd.effect) (generateDid cd z) (generateDid { cd with effect := 0 } z) ∧
    (∀ rows rows0, generatePanel cp z = .ok rows → generatePanel { cp with effect := 0 } z = .ok rows0 →
      List.Forall₂ (Counterfactual cp.effect) rows rows0) ∧
    List.Forall₂ (Counterfactual ce.effect) (generateEvent ce z) (generateEvent { ce with effect := 0 } z) := by
  refine ⟨forall₂_map _ _ _ _ fun x _ => ?_, fun rows rows0 h h0 => ?_, forall₂_map _ _ _ _ fun x _ => ?_⟩
  · refine ⟨rfl, rfl, rfl, rfl, rfl, ?_, ?_, ?_⟩ <;> simp [didRow, DidCfg.nTreated]
    ring
  · unfold generatePanel at h h0
    split_ifs at h h0 <;> cases h <;> cases h0
    refine forall₂_map _ _ _ _ fun x _ => ?_
    have e : ({ cp with effect := 0 } : PanelCfg K).nTreated = cp.nTreated := rfl
    refine ⟨rfl, rfl, rfl, rfl, rfl, ?_, ?_, ?_⟩ <;> simp only [panelRow, e]
    · simp only [ite_self, add_zero]
      ring
    · simp
    · simp
  · refine ⟨rfl, rfl, rfl, rfl, rfl, ?_, ?_, ?_⟩ <;> simp [eventRow, EventCfg.nTreated]
    ring

/-- C112. The staggered generator: same statement, with the effect growing linearly in the time since treatment when
`dynamic_effects` is set; treatment starts exactly at `first_treat`, which is 0 for never-treated units. -/
theorem C112_staggered (c : StagCfg K) (ch : ℕ → ℕ) (z : ℕ → K) (rows rows0 : List (SRow K))
    (h : generateStag c ch z = .ok rows) (h0 : generateStag { c with effect := 0 } ch z = .ok rows0) :
    List.Forall₂ (fun r r0 => r.unit = r0.unit ∧ r.period = r0.period ∧ r.firstTreat = r0.firstTreat ∧
      r.treated = r0.treated ∧ r.treat = r0.treat ∧ r.outcome = r0.outcome + r.trueEffect ∧ r0.trueEffect = 0 ∧
      (r.treat = true ↔ r.firstTreat ≠ 0) ∧
      (r.treated = true ↔ r.firstTreat ≠ 0 ∧ r.firstTreat ≤ (r.period : ℤ)) ∧
      r.trueEffect = (if r.firstTreat ≠ 0 ∧ r.firstTreat ≤ (r.period : ℤ) then
        (if c.dynamic then c.effect * (1 + c.growth * (((r.period : ℤ) - r.firstTreat : ℤ) : K)) else c.effect) else 0))
      rows rows0 := by
  unfold generateStag at h h0
  split at h
  · cases h
  · rename_i hf
    have hf0 : ({ c with effect := 0 } : StagCfg K).cohortPeriods.find?
      (fun cp => decide (cp < 1 ∨ (({ c with effect := 0 } : StagCfg K).nPeriods : ℤ) ≤ cp)) = none := hf
    rw [hf0] at h0
    dsimp only at h0
    by_cases a : c.nNever < (c.nUnits : ℤ) ∧ c.cohortPeriods = []
    · rw [if_pos a] at h; cases h
    · have a0 : ¬ (({ c with effect := 0 } : StagCfg K).nNever < (c.nUnits : ℤ) ∧
        ({ c with effect := 0 } : StagCfg K).cohortPeriods = []) := a
      rw [if_neg a] at h
      rw [if_neg a0] at h0
      by_cases b : c.nNever < 0
      · rw [if_pos b] at h; cases h
      · have b0 : ¬ ({ c with effect := 0 } : StagCfg K).nNever < 0 := b
        rw [if_neg b] at h
        rw [if_neg b0] at h0
        cases h; cases h0
        refine forall₂_map _ _ _ _ fun x _ => ?_
        have hnn : 0 ≤ firstTreat c ch x.1 := by
          unfold firstTreat
          split_ifs with hu
          · exact le_refl _
          · rw [List.getD_eq_getElem?_getD]
            rcases hg : c.cohortPeriods[ch (x.1 - c.nNever.toNat) % c.cohortPeriods.length]? with _ | cp
            · simp
            · have hm := List.mem_of_getElem? hg
              have := List.find?_eq_none.1 hf cp hm
              simp at this
              simp; omega
        have hft : firstTreat { c with effect := 0 } ch x.1 = firstTreat c ch x.1 := rfl
        have hpos : 0 < firstTreat c ch x.1 ↔ firstTreat c ch x.1 ≠ 0 := by omega
        refine ⟨rfl, rfl, rfl, rfl, rfl, ?_, ?_, ?_, ?_, ?_⟩
        · simp [stagRow, hft]; ring
        · simp [stagRow, hft]
        · simp [stagRow, hpos]
        · simp [stagRow, hpos]
        · simp [stagRow, hpos]

/-- C112. Factor and triple-difference data. -/
theorem C112_factor_ddd (cf : FactorCfg K) (cd : DddCfg K) (z ed : ℕ → K) :
    (∀ rows rows0, generateFactor cf z = .ok rows → generateFactor { cf with effect := 0 } z = .ok rows0 →
      List.Forall₂ (fun r r0 => r.unit = r0.unit ∧ r.period = r0.period ∧ r.treated = r0.treated ∧ r.treat = r0.treat ∧
        r.outcome = r0.outcome + r.trueEffect ∧ r0.trueEffect = 0 ∧
        (r.treated = true ↔ r.treat = true ∧ cf.nPre ≤ r.period) ∧
        r.trueEffect = if r.treated = true then cf.effect else 0) rows rows0) ∧
    List.Forall₂ (fun r r0 => r.unitId = r0.unitId ∧ r.group = r0.group ∧ r.partition = r0.partition ∧
        r.time = r0.time ∧ r.age = r0.age ∧ r.education = r0.education ∧
        r.outcome = r0.outcome + r.trueEffect ∧ r0.trueEffect = 0 ∧
        r.trueEffect = if r.group = true ∧ r.partition = true ∧ r.time = true then cd.effect else 0)
      (generateDdd cd z ed) (generateDdd { cd with effect := 0 } z ed) := by
  refine ⟨fun rows rows0 h h0 => ?_, ?_⟩
  · unfold generateFactor at h h0
    split_ifs at h h0 <;> cases h <;> cases h0
    refine forall₂_map _ _ _ _ fun x _ => ?_
    refine ⟨rfl, rfl, rfl, rfl, ?_, ?_, ?_, ?_⟩
    · have e1 : alpha { cf with effect := 0 } z x.1 = alpha cf z x.1 := rfl
      have e2 : interactive { cf with effect := 0 } z x.1 x.2 = interactive cf z x.1 x.2 := rfl
      simp [factorRow, FactorCfg.nPeriods, e1, e2]; ring
    · simp [factorRow]
    · simp [factorRow]
    · simp [factorRow]
  · unfold generateDdd
    rw [List.mapIdx_eq_zipIdx_map, List.mapIdx_eq_zipIdx_map]
    refine forall₂_map _ _ _ _ fun x _ => ?_
    refine ⟨rfl, rfl, rfl, rfl, rfl, rfl, ?_, ?_, ?_⟩
    · simp [dddRow]; ring
    · simp [dddRow]
    · simp [dddRow, and_assoc]

/-- C112. The number of treated units is the requested share, rounded down: with 0 <= fraction <= 1 it lies in
(n * fraction - 1, n * fraction], and the treated units are the first ones. -/
theorem C112_share (c : DidCfg K) (h0 : 0 ≤ c.fraction) (h1 : c.fraction ≤ 1) :
    ∃ m : ℕ, (m : K) ≤ c.nUnits * c.fraction ∧ (c.nUnits : K) * c.fraction < m + 1 ∧ m ≤ c.nUnits ∧
      ∀ z, ∀ r ∈ generateDid c z, (r.treated = true ↔ r.unit < m) := by
  have hx : 0 ≤ (c.nUnits : K) * c.fraction := mul_nonneg (Nat.cast_nonneg _) h0
  have hle : (c.nUnits : K) * c.fraction ≤ c.nUnits := by
    nlinarith [Nat.cast_nonneg (α := K) c.nUnits]
  refine ⟨⌊(c.nUnits : K) * c.fraction⌋₊, Nat.floor_le hx, Nat.lt_floor_add_one _, ?_, fun z r hr => ?_⟩
  · have := Nat.floor_le_floor hle
    simpa using this
  · unfold generateDid at hr
    rw [List.mem_map] at hr
    obtain ⟨x, _, rfl⟩ := hr
    have : c.nTreated = (⌊(c.nUnits : K) * c.fraction⌋₊ : ℤ) := by
      unfold DidCfg.nTreated trunc
      rw [if_pos hx, Int.natCast_floor_eq_floor hx]
    simp [didRow, this]

/-- C112. Which requests are refused: a panel whose treatment does not start after the first and before or in the last period, and
a factor panel without treated units or with more treated than units. -/
theorem C112_checks (cp : PanelCfg K) (cf : FactorCfg K) (z : ℕ → K) :
    ((∃ rows, generatePanel cp z = .ok rows) ↔ 1 ≤ cp.treatPeriod ∧ cp.treatPeriod ≤ (cp.nPeriods : ℤ) - 1) ∧
    ((∃ rows, generateFactor cf z = .ok rows) ↔ 1 ≤ cf.nTreated ∧ cf.nTreated ≤ cf.nUnits) := by
  constructor
  · unfold generatePanel
    constructor
    · rintro ⟨rows, h⟩
      split_ifs at h with h1 h2
      omega
    · rintro ⟨h1, h2⟩
      rw [if_neg (by omega), if_neg (by omega)]
      exact ⟨_, rfl⟩
  · unfold generateFactor
    constructor
    · rintro ⟨rows, h⟩
      split_ifs at h with h1 h2
      omega
    · rintro ⟨h1, h2⟩
      rw [if_neg (by omega), if_neg (by omega)]
      exact ⟨_, rfl⟩

/-- C112. The event time of a generated row is 0 in the first treated period, counts periods, and is non-negative exactly on post rows. -/
theorem C112_event_time (c : EventCfg K) (z : ℕ → K) (r : Row K) (hr : r ∈ generateEvent c z) :
    r.eventTime + c.nPre = r.period ∧ (r.post = true ↔ 0 ≤ r.eventTime) := by
  unfold generateEvent at hr
  obtain ⟨x, _, rfl⟩ := List.mem_map.1 hr
  simp [eventRow]

/-- Where a draw of the factor panel is read from: factor, loading, unit effect or noise. -/
def factorReads (c : FactorCfg K) (z : ℕ → K) : (ℕ × ℕ) ⊕ (ℕ × ℕ) ⊕ ℕ ⊕ (ℕ × ℕ) → K
  | .inl (t, k) => factor c z t k
  | .inr (.inl (k, i)) => loading { c with shift := 0 } z k i
  | .inr (.inr (.inl i)) => alpha { c with feSd := 1 } z i - alpha { c with feSd := 0 } z i
  | .inr (.inr (.inr (i, t))) =>
    (factorRow { c with noiseSd := 1 } z (i, t)).outcome - (factorRow { c with noiseSd := 0 } z (i, t)).outcome

/-- Indices that exist in a given panel. -/
def factorValid (c : FactorCfg K) : (ℕ × ℕ) ⊕ (ℕ × ℕ) ⊕ ℕ ⊕ (ℕ × ℕ) → Prop
  | .inl (t, k) => t < c.nPeriods ∧ k < c.nFactors
  | .inr (.inl (k, i)) => k < c.nFactors ∧ i < c.nUnits
  | .inr (.inr (.inl i)) => i < c.nUnits
  | .inr (.inr (.inr (i, t))) => i < c.nUnits ∧ t < c.nPeriods

/-- Position in the stream of draws. -/
def factorPos (c : FactorCfg K) : (ℕ × ℕ) ⊕ (ℕ × ℕ) ⊕ ℕ ⊕ (ℕ × ℕ) → ℕ
  | .inl (t, k) => t * c.nFactors + k
  | .inr (.inl (k, i)) => c.nPeriods * c.nFactors + (k * c.nUnits + i)
  | .inr (.inr (.inl i)) => c.nPeriods * c.nFactors + c.nFactors * c.nUnits + i
  | .inr (.inr (.inr (i, t))) => c.nPeriods * c.nFactors + c.nFactors * c.nUnits + c.nUnits + (i * c.nPeriods + t)

theorem factorReads_eq (c : FactorCfg K) (z : ℕ → K) (a) : factorReads c z a = z (factorPos c a) := by
  rcases a with ⟨t, k⟩ | ⟨k, i⟩ | i | ⟨i, t⟩
  · rfl
  · simp [factorReads, loading, factorPos, FactorCfg.nPeriods]
  · simp [factorReads, alpha, factorPos, FactorCfg.nPeriods, FactorCfg.nTreated]
  · have e1 : alpha { c with noiseSd := 1 } z i = alpha { c with noiseSd := 0 } z i := rfl
    have e2 : interactive { c with noiseSd := 1 } z i t = interactive { c with noiseSd := 0 } z i t := rfl
    simp only [factorReads, factorRow, e1, e2, factorPos]
    simp only [FactorCfg.nPeriods, FactorCfg.nTreated]
    ring_nf

theorem pair_lt {a b m n : ℕ} (ha : a < m) (hb : b < n) : a * n + b < m * n := by nlinarith

theorem pair_inj {a b a' b' n : ℕ} (hb : b < n) (hb' : b' < n) (h : a * n + b = a' * n + b') : a = a' ∧ b = b' := by
  have h1 : a = a' := by
    rcases lt_trichotomy a a' with h1 | h1 | h1
    · have : a * n + b < a' * n := pair_lt h1 hb
      omega
    · exact h1
    · have : a' * n + b' < a * n := pair_lt h1 hb'
      omega
  subst h1
  exact ⟨rfl, by omega⟩

/-- C112. In a factor panel every factor value, loading, unit effect and noise term is a draw of its own: no draw is used twice. -/
theorem C112_factor_draws (c : FactorCfg K) (a b) (ha : factorValid c a) (hb : factorValid c b)
    (h : ∀ z, factorReads c z a = factorReads c z b) : a = b := by
  have h1 := h (fun i => (i : K))
  rw [factorReads_eq, factorReads_eq] at h1
  have hp : factorPos c a = factorPos c b := by exact_mod_cast h1
  rcases a with ⟨t, k⟩ | ⟨k, i⟩ | i | ⟨i, t⟩ <;> rcases b with ⟨t', k'⟩ | ⟨k', i'⟩ | i' | ⟨i', t'⟩ <;>
    simp only [factorPos, factorValid] at hp ha hb
  · obtain ⟨rfl, rfl⟩ := pair_inj ha.2 hb.2 hp; rfl
  · have := pair_lt ha.1 ha.2; omega
  · have := pair_lt ha.1 ha.2; omega
  · have := pair_lt ha.1 ha.2; omega
  · have := pair_lt hb.1 hb.2; omega
  · obtain ⟨rfl, rfl⟩ := pair_inj ha.2 hb.2 (Nat.add_left_cancel hp); rfl
  · have := pair_lt ha.1 ha.2; omega
  · have := pair_lt ha.1 ha.2; omega
  · have := pair_lt hb.1 hb.2; omega
  · have := pair_lt hb.1 hb.2; omega
  · have : i = i' := by omega
    subst this; rfl
  · omega
  · have := pair_lt hb.1 hb.2; omega
  · have := pair_lt hb.1 hb.2; omega
  · omega
  · obtain ⟨rfl, rfl⟩ := pair_inj ha.2 hb.2 (Nat.add_left_cancel hp); rfl

/-- Seven units, three periods, treated from period 1 on; `ceil`-like rounding would treat four units. -/
def exDid : DidCfg ℚ := ⟨7, 3, 2, 1 / 2, 1, 1, 1, 1⟩

example : 0 ≤ exDid.fraction ∧ exDid.fraction ≤ 1 ∧ exDid.nTreated = 3 := by decide +kernel

/-- A staggered design whose hypotheses hold: three never-treated units out of eight, cohorts 1 and 2. -/
def exStag : StagCfg ℚ := ⟨8, 4, some [1, 2], 2 / 5, 2, true, 1 / 2, 1, 1, 1⟩

example : (generateStag exStag (fun j => j) (fun k => (k : ℚ))).toOption.map (fun l => l.map SRow.trueEffect) =
      some [0, 0, 0, 0, 0, 0, 0, 0, 0, 0, 0, 0, 0, 2, 3, 4, 0, 0, 2, 3, 0, 2, 3, 4, 0, 0, 2, 3, 0, 2, 3, 4] ∧
    (generateStag { exStag with effect := 0 } (fun j => j) (fun k => (k : ℚ))).toOption.isSome = true := by
  decide +kernel

end DiffDiff.Dgp
