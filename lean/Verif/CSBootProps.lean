/-
Property C118: the multiplier bootstrap of CallawaySantAnna refers to the effects that are reported.
-/
import Verif.CSBoot
import Verif.CSRecodeProps
import Verif.BootStatsProps
import Verif.BootWeightsProps

set_option linter.unusedSectionVars false

namespace DiffDiff.CSBoot

open CS (Coh Cfg Entry Panel bootAtt bootAgg dot aggPsi psi sizeWeights equalWeights postPairs esPairs atRel relTimes eventStudy groupPairs
  groupEffects effects overall aggVar overallVar)
open BootStats (Stats effectStats)

variable {K : Type*} [Field K] [LinearOrder K] [IsStrictOrderedRing K] [FloorSemiring K]
variable {n : ℕ}

/-! ### Units and weights -/

theorem mem_bootUnits {l : GT n K} {u : Fin n} :
    u ∈ bootUnits l ↔ ∃ x ∈ l, u ∈ x.2.treated ∨ u ∈ x.2.control := by
  unfold bootUnits
  simp [List.mem_filter]

/-- C118. Within a draw every unit that enters some effect has one weight, shared by all effects it enters, and different units
use different entries of the weight vector, in the order of the units. -/
theorem C118_weights (l : GT n K) (u v : Fin n) (hu : u ∈ bootUnits l) (hv : v ∈ bootUnits l) :
    unitIdx l u < (bootUnits l).length ∧ (unitIdx l u < unitIdx l v ↔ u < v) := by
  have hs : (bootUnits l).Pairwise (· < ·) := (List.pairwise_lt_finRange n).filter _
  have h1 : unitIdx l u < (bootUnits l).length := List.idxOf_lt_length_of_mem hu
  have h2 : unitIdx l v < (bootUnits l).length := List.idxOf_lt_length_of_mem hv
  have g1 : (bootUnits l)[unitIdx l u] = u := List.getElem_idxOf h1
  have g2 : (bootUnits l)[unitIdx l v] = v := List.getElem_idxOf h2
  refine ⟨h1, fun h => ?_, fun h => ?_⟩
  · have := List.pairwise_iff_getElem.1 hs _ _ h1 h2 h
    rwa [g1, g2] at this
  · by_contra hc
    rcases Nat.lt_or_ge (unitIdx l v) (unitIdx l u) with h' | h'
    · have := List.pairwise_iff_getElem.1 hs _ _ h2 h1 h'
      rw [g1, g2] at this
      exact absurd h (not_lt.2 this.le)
    · have he : unitIdx l u = unitIdx l v := by omega
      have : u = v := by rw [← g1, ← g2]; congr 1
      exact absurd h (this ▸ lt_irrefl _)

/-! ### Draws of aggregates -/

theorem drawAt_mem (l : GT n K) (W : ℕ → ℕ → K) (b : ℕ) (x : ((Coh × ℤ) × Entry n K) × ℕ) (hx : x ∈ l.zipIdx) :
    drawAt l W b x.2 = bootAtt (weightOf l W b) x.1.2 := by
  have : l[x.2]? = some x.1 := List.mem_zipIdx_iff_getElem?.1 hx
  unfold drawAt
  rw [this]
  rfl

theorem dot_comm (a b : List K) : dot a b = dot b a := by
  unfold dot
  rw [List.zipWith_comm]
  congr 2
  funext x y
  exact mul_comm _ _

/-- The draws of an aggregate: its value plus the multipliers applied to its influence function. -/
def specDraws (l : GT n K) (W : ℕ → ℕ → K) (B : ℕ) (v : K) (w : List K) (k : GT n K) : List K :=
  (List.range B).map (fun b => v + ∑ u, weightOf l W b u * aggPsi w (k.map Prod.snd) u)

theorem aggDraws_eq (l : GT n K) (W : ℕ → ℕ → K) (B : ℕ) (s : List (((Coh × ℤ) × Entry n K) × ℕ)) (hs : ∀ x ∈ s, x ∈ l.zipIdx)
    (w : List K) :
    aggDraws l W B (s.map Prod.snd) w = specDraws l W B (dot w ((s.map Prod.fst).map (fun x => x.2.effect))) w (s.map Prod.fst) := by
  unfold aggDraws specDraws
  refine List.map_congr_left fun b _ => ?_
  have e : (s.map Prod.snd).map (drawAt l W b) = ((s.map Prod.fst).map Prod.snd).map (bootAtt (weightOf l W b)) := by
    rw [List.map_map, List.map_map, List.map_map]
    exact List.map_congr_left fun x hx => drawAt_mem l W b x (hs x hx)
  have := CS.C26_draw_linear (weightOf l W b) w ((s.map Prod.fst).map Prod.snd)
  rw [dot_comm, e]
  refine Eq.trans this ?_
  congr 2
  rw [List.map_map]
  rfl

theorem sizeInfo_stats (alpha : K) (l : GT n K) (W : ℕ → ℕ → K) (B : ℕ) (s : List (((Coh × ℤ) × Entry n K) × ℕ))
    (hs : ∀ x ∈ s, x ∈ l.zipIdx) :
    infoStats alpha l W B (sizeInfo s) = effectStats alpha (dot (sizeWeights (s.map Prod.fst)) ((s.map Prod.fst).map (fun x => x.2.effect)))
      ((specDraws l W B (dot (sizeWeights (s.map Prod.fst)) ((s.map Prod.fst).map (fun x => x.2.effect))) (sizeWeights (s.map Prod.fst)) (s.map Prod.fst)).map .fin) := by
  have hw : s.map (fun x => (x.1.2.nT : K) / (s.map (fun z => (z.1.2.nT : K))).sum) = sizeWeights (s.map Prod.fst) := by
    unfold sizeWeights
    rw [List.map_map, List.map_map]
    rfl
  unfold infoStats sizeInfo
  dsimp only
  rw [hw, aggDraws_eq l W B s hs, List.map_map]
  rfl

theorem equalInfo_stats (alpha : K) (l : GT n K) (W : ℕ → ℕ → K) (B : ℕ) (s : List (((Coh × ℤ) × Entry n K) × ℕ))
    (hs : ∀ x ∈ s, x ∈ l.zipIdx) :
    infoStats alpha l W B (equalInfo s) = effectStats alpha (dot (equalWeights (s.map Prod.fst)) ((s.map Prod.fst).map (fun x => x.2.effect)))
      ((specDraws l W B (dot (equalWeights (s.map Prod.fst)) ((s.map Prod.fst).map (fun x => x.2.effect))) (equalWeights (s.map Prod.fst)) (s.map Prod.fst)).map .fin) := by
  have hw : s.map (fun _ => 1 / (s.length : K)) = equalWeights (s.map Prod.fst) := by
    unfold equalWeights
    rw [List.map_map, List.length_map]
    rfl
  unfold infoStats equalInfo
  dsimp only
  rw [hw, aggDraws_eq l W B s hs, List.map_map]
  rfl

theorem zipIdx_filter {α : Type*} (l : List α) (p : α → Bool) : (l.zipIdx.filter (fun x => p x.1)).map Prod.fst = l.filter p := by
  have : (l.zipIdx.map Prod.fst).filter p = (l.zipIdx.filter (p ∘ Prod.fst)).map Prod.fst := List.filter_map
  rw [List.zipIdx_map_fst] at this
  exact this.symm

theorem not_nan {c : Cfg} {P : Panel n K} {x : (Coh × ℤ) × Entry n K} (h : x ∈ effects c P) : x.1.1 ≠ .nan := by
  obtain ⟨hg, _, _⟩ := CS.mem_effects h
  unfold CS.groups at hg
  rw [List.mem_insertionSort, List.mem_filter] at hg
  intro he
  rw [he] at hg
  exact absurd hg.2 (by decide)

theorem postItems_fst (c : Cfg) (P : Panel n K) : (postItems c.ant (effects c P)).map Prod.fst = postPairs c.ant (effects c P) := by
  unfold postItems postPairs
  rw [zipIdx_filter (effects c P) (fun x => x.1.1.post c.ant x.1.2)]
  refine List.filter_congr fun x hx => ?_
  have := not_nan hx
  cases hg : x.1.1 with
  | num z =>
    simp only [Coh.post, Coh.pre]
    rw [Bool.eq_iff_iff]
    simp only [decide_eq_true_eq, Bool.not_eq_true', decide_eq_false_iff_not]
    omega
  | inf => rfl
  | nan => exact absurd hg this

/-- C118. The overall bootstrap statistics are those of draws centred at the reported overall effect and moving with the
aggregated influence function of that effect; they are NaN exactly when the overall effect is. -/
theorem C118_overall (c : Cfg) (P : Panel n K) (alpha : K) (agg : Agg) (bal : Option ℤ) (gs : List Coh) (W : ℕ → ℕ → K) (B : ℕ) :
    (runBoot alpha c.ant agg bal gs (effects c P) W B).overall =
      match overall c.ant (effects c P) with
      | none => .nan
      | some v => effectStats alpha v ((specDraws (effects c P) W B v (sizeWeights (postPairs c.ant (effects c P)))
          (postPairs c.ant (effects c P))).map .fin) := by
  have hlen : (postItems c.ant (effects c P)).length = (postPairs c.ant (effects c P)).length := by
    rw [← postItems_fst, List.length_map]
  unfold runBoot overall
  dsimp only
  rw [hlen]
  split_ifs with h
  · rfl
  · rw [sizeInfo_stats alpha _ W B (postItems c.ant (effects c P)) (fun x hx => List.mem_of_mem_filter hx), postItems_fst]

theorem eventItems_fst (bal : Option ℤ) (l : GT n K) : (eventItems bal l).map Prod.fst = esPairs bal l := by
  cases bal with
  | none => exact List.zipIdx_map_fst _ _
  | some k =>
    unfold eventItems esPairs
    dsimp only
    rw [zipIdx_filter l (fun x => decide (x.1.1 ∈ (l.filter (fun x => decide (x.1.1.rel x.1.2 = (k : WithBot ℤ)))).map (fun x => x.1.1)))]
    refine List.filter_congr fun x hx => ?_
    rw [Bool.eq_iff_iff]
    simp only [decide_eq_true_eq, List.mem_map, List.mem_filter, List.any_eq_true, Bool.and_eq_true]
    constructor
    · rintro ⟨z, ⟨h1, h2⟩, h3⟩; exact ⟨z, h1, h3, h2⟩
    · rintro ⟨z, h1, h3, h2⟩; exact ⟨z, ⟨h1, h2⟩, h3⟩

theorem eventItems_mem (bal : Option ℤ) (l : GT n K) : ∀ x ∈ eventItems bal l, x ∈ l.zipIdx := by
  intro x hx
  cases bal with
  | none => exact hx
  | some k => exact List.mem_of_mem_filter hx

/-- The event-study part of the bootstrap, in terms of the (balanced) pairs. -/
theorem event_eq (alpha : K) (ant : ℤ) (agg : Agg) (bal : Option ℤ) (gs : List Coh) (l : GT n K) (W : ℕ → ℕ → K) (B : ℕ) :
    (runBoot alpha ant agg bal gs l W B).event = if agg.wantsEvent then some ((relTimes (esPairs bal l)).map (fun e =>
      (e, effectStats alpha (dot (sizeWeights (atRel (esPairs bal l) e)) ((atRel (esPairs bal l) e).map (fun x => x.2.effect)))
        ((specDraws l W B (dot (sizeWeights (atRel (esPairs bal l) e)) ((atRel (esPairs bal l) e).map (fun x => x.2.effect)))
          (sizeWeights (atRel (esPairs bal l) e)) (atRel (esPairs bal l) e)).map .fin)))) else none := by
  unfold runBoot
  dsimp only
  congr 2
  unfold eventInfo
  dsimp only
  rw [List.map_map]
  have hk : (eventItems bal l).map (fun x => x.1.1.1.rel x.1.1.2) = (esPairs bal l).map (fun x => x.1.1.rel x.1.2) := by
    rw [← eventItems_fst, List.map_map]; rfl
  rw [hk]
  refine List.map_congr_left fun e _ => ?_
  have hf : ((eventItems bal l).filter (fun x => decide (x.1.1.1.rel x.1.1.2 = e))).map Prod.fst = atRel (esPairs bal l) e := by
    unfold atRel
    rw [← eventItems_fst, List.filter_map]
    rfl
  simp only [Function.comp]
  rw [sizeInfo_stats alpha l W B _ (fun x hx => eventItems_mem bal l x (List.mem_of_mem_filter hx)), hf]

/-- C118. Event study: a relative time has bootstrap statistics exactly when its reported entry averages at least one effect (so
only the zero reference entry of the universal base has none); they are those of draws centred at the reported value. -/
theorem C118_event (c : Cfg) (P : Panel n K) (alpha : K) (agg : Agg) (bal : Option ℤ) (gs : List Coh) (W : ℕ → ℕ → K) (B : ℕ)
    (hagg : agg.wantsEvent = true) :
    ∃ d, (runBoot alpha c.ant agg bal gs (effects c P) W B).event = some d ∧ (d.map Prod.fst).Nodup ∧
      (∀ e, e ∈ d.map Prod.fst ↔ ∃ v k, (e, (v, k)) ∈ eventStudy c bal (effects c P) ∧ 0 < k) ∧
      (∀ e v k, (e, (v, k)) ∈ eventStudy c bal (effects c P) → 0 < k →
        ∀ s, (e, s) ∈ d → s = effectStats alpha v ((specDraws (effects c P) W B v (sizeWeights (atRel (esPairs bal (effects c P)) e))
          (atRel (esPairs bal (effects c P)) e)).map .fin)) := by
  refine ⟨_, by rw [event_eq, if_pos hagg], ?_, ?_, ?_⟩
  · rw [List.map_map]
    have : (relTimes (esPairs bal (effects c P))).Nodup := by
      unfold relTimes
      exact (List.perm_insertionSort _ _).nodup_iff.2 (List.nodup_dedup _)
    exact (List.map_id _ ▸ this : ((relTimes (esPairs bal (effects c P))).map id).Nodup)
  · intro e
    have h0 : e ∈ List.map Prod.fst ((relTimes (esPairs bal (effects c P))).map (fun e =>
      (e, effectStats alpha (dot (sizeWeights (atRel (esPairs bal (effects c P)) e)) ((atRel (esPairs bal (effects c P)) e).map (fun x => x.2.effect)))
        ((specDraws (effects c P) W B (dot (sizeWeights (atRel (esPairs bal (effects c P)) e)) ((atRel (esPairs bal (effects c P)) e).map (fun x => x.2.effect)))
          (sizeWeights (atRel (esPairs bal (effects c P)) e)) (atRel (esPairs bal (effects c P)) e)).map .fin)))) ↔ e ∈ relTimes (esPairs bal (effects c P)) := by
      rw [List.map_map]
      simp
    rw [h0]
    have hpos : ∀ e ∈ relTimes (esPairs bal (effects c P)), 0 < (atRel (esPairs bal (effects c P)) e).length := by
      intro e he
      obtain ⟨x, hx, hxe⟩ := CS.mem_relTimes.1 he
      exact List.length_pos_of_mem (List.mem_filter.2 ⟨hx, by simpa using hxe⟩)
    constructor
    · intro he
      refine ⟨dot (sizeWeights (atRel (esPairs bal (effects c P)) e)) ((atRel (esPairs bal (effects c P)) e).map (fun x => x.2.effect)),
        (atRel (esPairs bal (effects c P)) e).length, ?_, hpos e he⟩
      unfold eventStudy
      dsimp only
      have hm := List.mem_map_of_mem (f := fun e => (e, (dot (sizeWeights (atRel (esPairs bal (effects c P)) e)) ((atRel (esPairs bal (effects c P)) e).map (fun x => x.2.effect)),
        (atRel (esPairs bal (effects c P)) e).length))) he
      cases c.base with
      | varying => exact hm
      | universal =>
        dsimp only
        split_ifs
        · exact List.mem_append_left _ hm
        · exact hm
    · rintro ⟨v, k, hv, hk⟩
      obtain ⟨s, hs, _, hks, _⟩ := CS.C25_event c bal P e v k hv
      rw [hks] at hk
      obtain ⟨x, hx⟩ := List.exists_mem_of_length_pos hk
      obtain ⟨h1, h2, h3⟩ := (hs x).1 hx
      exact CS.mem_relTimes.2 ⟨x, CS.mem_esPairs.2 ⟨h1, h2⟩, h3⟩
  · intro e v k hv hk s hs
    obtain ⟨e', he', heq⟩ := List.mem_map.1 hs
    simp only [Prod.mk.injEq] at heq
    obtain ⟨rfl, rfl⟩ := heq
    have : v = dot (sizeWeights (atRel (esPairs bal (effects c P)) e')) ((atRel (esPairs bal (effects c P)) e').map (fun x => x.2.effect)) := by
      have key : ∀ p ∈ (relTimes (esPairs bal (effects c P))).map (fun e => (e, (dot (sizeWeights (atRel (esPairs bal (effects c P)) e)) ((atRel (esPairs bal (effects c P)) e).map (fun x => x.2.effect)),
        (atRel (esPairs bal (effects c P)) e).length))), p.2.1 = dot (sizeWeights (atRel (esPairs bal (effects c P)) p.1)) ((atRel (esPairs bal (effects c P)) p.1).map (fun x => x.2.effect)) := by
        intro p hp
        obtain ⟨_, _, rfl⟩ := List.mem_map.1 hp
        rfl
      unfold eventStudy at hv
      dsimp only at hv
      cases hb : c.base with
      | varying => rw [hb] at hv; exact key _ hv
      | universal =>
        rw [hb] at hv
        dsimp only at hv
        split_ifs at hv
        · rcases List.mem_append.1 hv with h | h
          · exact key _ h
          · simp at h; omega
        · exact key _ hv
    rw [this]

/-- C118. Group effects: bootstrap statistics for exactly the reported groups, centred at the reported values. -/
theorem C118_group (c : Cfg) (P : Panel n K) (alpha : K) (agg : Agg) (bal : Option ℤ) (gs : List Coh) (W : ℕ → ℕ → K) (B : ℕ)
    (hagg : agg.wantsGroup = true) :
    (runBoot alpha c.ant agg bal gs (effects c P) W B).group = some ((groupEffects c.ant gs (effects c P)).map (fun x =>
      (x.1, effectStats alpha x.2.1 ((specDraws (effects c P) W B x.2.1 (equalWeights (groupPairs c.ant (effects c P) x.1))
        (groupPairs c.ant (effects c P) x.1)).map .fin)))) := by
  unfold runBoot
  dsimp only
  rw [if_pos hagg]
  congr 1
  unfold groupInfo groupEffects
  rw [List.map_filterMap, List.map_filterMap]
  congr 1
  funext g
  have hf : ((effects c P).zipIdx.filter (fun x => decide (x.1.1.1 = g) && g.post c.ant x.1.1.2)).map Prod.fst = groupPairs c.ant (effects c P) g :=
    zipIdx_filter (effects c P) (fun x => decide (x.1.1 = g) && g.post c.ant x.1.2)
  have hlen : ((effects c P).zipIdx.filter (fun x => decide (x.1.1.1 = g) && g.post c.ant x.1.1.2)).length = (groupPairs c.ant (effects c P) g).length := by
    rw [← hf, List.length_map]
  dsimp only
  rw [hlen]
  split_ifs with h
  · rfl
  · simp only [Option.map_some]
    rw [equalInfo_stats alpha _ W B _ (fun x hx => List.mem_of_mem_filter hx), hf]

/-- C118. Group-time effects: one entry per effect in order; its draws are the effect plus the multipliers applied to the
effect's own influence function. -/
theorem C118_gt (alpha : K) (ant : ℤ) (agg : Agg) (bal : Option ℤ) (gs : List Coh) (l : GT n K) (W : ℕ → ℕ → K) (B : ℕ) :
    (runBoot alpha ant agg bal gs l W B).gt = l.map (fun x => (x.1, effectStats alpha x.2.effect
      (((List.range B).map (fun b => x.2.effect + ∑ u, weightOf l W b u * psi x.2 u)).map .fin))) := by
  unfold runBoot
  dsimp only
  have h2 : l.map (fun x => (x.1, effectStats alpha x.2.effect
      (((List.range B).map (fun b => x.2.effect + ∑ u, weightOf l W b u * psi x.2 u)).map .fin)))
      = (l.zipIdx.map Prod.fst).map (fun x => (x.1, effectStats alpha x.2.effect
      (((List.range B).map (fun b => x.2.effect + ∑ u, weightOf l W b u * psi x.2 u)).map .fin))) := by
    rw [List.zipIdx_map_fst]
  rw [h2, List.map_map]
  refine List.map_congr_left fun x hx => ?_
  simp only [Function.comp]
  have : (List.range B).map (fun b => drawAt l W b x.2) = (List.range B).map (fun b => x.1.2.effect + ∑ u, weightOf l W b u * psi x.1.2 u) := by
    refine List.map_congr_left fun b _ => ?_
    rw [drawAt_mem l W b x hx, CS.bootAtt_eq]
  rw [this]

/-- C118. An event-study entry or overall effect resting on a single group-time effect has exactly the bootstrap statistics of
that effect. -/
theorem C118_single (alpha : K) (l : GT n K) (W : ℕ → ℕ → K) (B : ℕ) (x : (Coh × ℤ) × Entry n K) (hx : x.2.nT ≠ 0) :
    dot (sizeWeights [x]) ([x].map (fun x => x.2.effect)) = x.2.effect ∧
    specDraws l W B x.2.effect (sizeWeights [x]) [x] = (List.range B).map (fun b => x.2.effect + ∑ u, weightOf l W b u * psi x.2 u) := by
  have hw : sizeWeights [x] = [(1 : K)] := by
    unfold sizeWeights
    simp [hx]
  rw [hw]
  refine ⟨by simp [dot], ?_⟩
  unfold specDraws aggPsi
  simp

/-! ### Use in the results -/

theorem update_effect (r : K → K) (c : Cell K) (s : Stats K) : (c.update r s).effect = c.effect := by
  cases s <;> rfl

theorem updateAll_effects {κ : Type*} [DecidableEq κ] (r : K → K) (cells : List (κ × Cell K)) (boot : Option (List (κ × Stats K))) :
    (updateAll r cells boot).map (fun x => (x.1, x.2.effect)) = cells.map (fun x => (x.1, x.2.effect)) := by
  cases boot with
  | none => rfl
  | some d =>
    unfold updateAll
    dsimp only
    rw [List.map_map]
    refine List.map_congr_left fun x _ => ?_
    simp only [Function.comp]
    split <;> simp [update_effect]

/-- C118. The bootstrap never changes a point estimate, the set of reported effects or their order. -/
theorem C118_points (r : K → K) (alpha : K) (ant : ℤ) (agg : Agg) (bal : Option ℤ) (gs : List Coh) (l : GT n K) (W : ℕ → ℕ → K) (B : ℕ)
    (R : Report K) :
    (applyBoot r alpha ant agg bal gs l W B R).overall.map Cell.effect = R.overall.map Cell.effect ∧
    (applyBoot r alpha ant agg bal gs l W B R).gt.map (fun x => (x.1, x.2.effect)) = R.gt.map (fun x => (x.1, x.2.effect)) ∧
    (applyBoot r alpha ant agg bal gs l W B R).event.map (List.map (fun x => (x.1, x.2.effect)))
      = R.event.map (List.map (fun x => (x.1, x.2.effect))) ∧
    (applyBoot r alpha ant agg bal gs l W B R).group.map (List.map (fun x => (x.1, x.2.effect)))
      = R.group.map (List.map (fun x => (x.1, x.2.effect))) := by
  unfold applyBoot
  split_ifs
  · exact ⟨rfl, rfl, rfl, rfl⟩
  · dsimp only
    refine ⟨?_, updateAll_effects r _ _, ?_, ?_⟩
    · cases R.overall with
      | none => rfl
      | some c => simp [update_effect]
    · cases R.event with
      | none => rfl
      | some c => simp [updateAll_effects]
    · cases R.group with
      | none => rfl
      | some c => simp [updateAll_effects]

theorem find_key {κ β : Type*} [DecidableEq κ] (d : List (κ × β)) (hd : (d.map Prod.fst).Nodup) (k : κ) (s : β) (h : (k, s) ∈ d) :
    d.find? (fun y => decide (y.1 = k)) = some (k, s) := by
  induction d with
  | nil => simp at h
  | cons a d ih =>
    rw [List.map_cons, List.nodup_cons] at hd
    by_cases ha : a.1 = k
    · rcases List.mem_cons.1 h with h | h
      · subst h; simp
      · exact absurd (List.mem_map_of_mem (f := Prod.fst) h) (ha ▸ hd.1)
    · rw [List.find?_cons_of_neg (by simpa using ha)]
      rcases List.mem_cons.1 h with h | h
      · exact absurd (by rw [← h]) ha
      · exact ih hd.2 h

/-- C118. Keys with bootstrap statistics get exactly these; the others keep the analytic inference. -/
theorem C118_update {κ : Type*} [DecidableEq κ] (r : K → K) (cells : List (κ × Cell K)) (d : List (κ × Stats K)) (hd : (d.map Prod.fst).Nodup)
    (k : κ) (c : Cell K) (hc : (k, c) ∈ cells) :
    (∀ s, (k, s) ∈ d → (k, c.update r s) ∈ updateAll r cells (some d)) ∧ (k ∉ d.map Prod.fst → (k, c) ∈ updateAll r cells (some d)) := by
  unfold updateAll
  dsimp only
  constructor
  · intro s hs
    refine List.mem_map.2 ⟨(k, c), hc, ?_⟩
    dsimp only
    rw [find_key d hd k s hs]
  · intro hk
    refine List.mem_map.2 ⟨(k, c), hc, ?_⟩
    dsimp only
    have : d.find? (fun y => decide (y.1 = k)) = none := by
      rw [List.find?_eq_none]
      intro y hy h
      exact hk (by rw [← (by simpa using h : y.1 = k)]; exact List.mem_map_of_mem hy)
    rw [this]

/-- C118. After a bootstrap the t statistic is the effect over the reported standard error, or NaN when that is NaN or zero. -/
theorem C118_t (r : K → K) (c : Cell K) (s : Stats K) :
    (c.update r s).t = match (c.update r s).se2 with
      | none => none
      | some v => if 0 < r v then some (c.effect / r v) else none := by
  cases s with
  | nan => rfl
  | ok se2 ci p => cases se2 <;> rfl

/-- The inference of a reported effect is the bootstrap's: estimate kept, standard error, interval and p-value those of `s`. -/
def Carries (c c' : Cell K) (s : Stats K) : Prop :=
  c'.effect = c.effect ∧ match s with
    | .nan => c'.se2 = none ∧ c'.p = none ∧ c'.ci = none
    | .ok se2 ci p => c'.se2 = se2 ∧ c'.p = some p ∧ c'.ci = some ci

theorem carries_update (r : K → K) (c : Cell K) (s : Stats K) : Carries c (c.update r s) s := by
  cases s <;> simp [Carries, Cell.update]

/-- C118. In the results of a bootstrapped fit (any positive number of draws) the overall effect, every group-time effect, every event time and every
group that the bootstrap produced statistics for is reported with these statistics. -/
theorem C118_reported (r : K → K) (alpha : K) (ant : ℤ) (agg : Agg) (bal : Option ℤ) (gs : List Coh) (l : GT n K) (W : ℕ → ℕ → K) (B : ℕ)
    (hB : 1 ≤ B) (R : Report K) (o : Boot K) (ho : o = runBoot alpha ant agg bal gs l W B) (R' : Report K)
    (hR : R' = applyBoot r alpha ant agg bal gs l W B R) :
    (∀ c, R.overall = some c → ∃ c', R'.overall = some c' ∧ Carries c c' o.overall) ∧
    ((o.gt.map Prod.fst).Nodup → ∀ k c s, (k, c) ∈ R.gt → (k, s) ∈ o.gt → ∃ c', (k, c') ∈ R'.gt ∧ Carries c c' s) ∧
    (∀ es d, R.event = some es → o.event = some d → (d.map Prod.fst).Nodup →
      ∃ es', R'.event = some es' ∧ ∀ k c s, (k, c) ∈ es → (k, s) ∈ d → ∃ c', (k, c') ∈ es' ∧ Carries c c' s) ∧
    (∀ es d, R.group = some es → o.group = some d → (d.map Prod.fst).Nodup →
      ∃ es', R'.group = some es' ∧ ∀ k c s, (k, c) ∈ es → (k, s) ∈ d → ∃ c', (k, c') ∈ es' ∧ Carries c c' s) := by
  have hne : B ≠ 0 := by omega
  subst hR
  unfold applyBoot
  rw [if_neg hne, ← ho]
  dsimp only
  refine ⟨?_, ?_, ?_, ?_⟩
  · rintro c hc
    rw [hc]
    exact ⟨_, rfl, carries_update r c _⟩
  · intro hd k c s hk hs
    exact ⟨_, (C118_update r _ _ hd k c hk).1 s hs, carries_update r c s⟩
  · intro es d he hd hn
    rw [he, hd]
    exact ⟨_, rfl, fun k c s hk hs => ⟨_, (C118_update r _ _ hn k c hk).1 s hs, carries_update r c s⟩⟩
  · intro es d he hd hn
    rw [he, hd]
    exact ⟨_, rfl, fun k c s hk hs => ⟨_, (C118_update r _ _ hn k c hk).1 s hs, carries_update r c s⟩⟩

/-! ### No sampling variation -/

theorem sort_replicate (k : ℕ) (v : K) : (List.replicate k v).insertionSort (· ≤ ·) = List.replicate k v := by
  have := List.perm_insertionSort (r := (· ≤ · : K → K → Prop)) (List.replicate k v)
  exact List.perm_replicate.1 this

theorem pct_replicate (k : ℕ) (hk : 0 < k) (v q : K) (h0 : 0 ≤ q) (h1 : q ≤ 1) : BootStats.percentile (List.replicate k v) q = v := by
  have hne : List.replicate k v ≠ [] := by
    intro h; rw [List.replicate_eq_nil_iff] at h; omega
  have hs : (List.replicate k v).Pairwise (· ≤ ·) := by
    rw [← sort_replicate]; exact BootStats.sorted _
  unfold BootStats.percentile
  rw [sort_replicate]
  obtain ⟨a, b⟩ := BootStats.pct_between hs hne h0 h1
  have g : ∀ i, i < k → (List.replicate k v).getD i 0 = v := by
    intro i hi
    rw [List.getD_eq_getElem _ _ (by simpa using hi), List.getElem_replicate]
  simp only [List.length_replicate] at a b
  rw [g _ (by omega), g _ (by omega)] at b
  exact le_antisymm b.2 b.1

/-- C118. An effect whose influence function is zero gets standard error zero (two draws or more), an undefined t statistic, the
interval [v, v], and p-value 1/(B+1), except that an effect of exactly zero gets 1. -/
theorem C118_exact (alpha : K) (h0 : 0 ≤ alpha) (h1 : alpha ≤ 1) (l : GT n K) (W : ℕ → ℕ → K) (B : ℕ) (hB : 2 ≤ B) (v : K) (w : List K) (k : GT n K)
    (hz : ∀ u, aggPsi w (k.map Prod.snd) u = 0) :
    effectStats alpha v ((specDraws l W B v w k).map .fin) = .ok (some 0) (v, v) (if v = 0 then 1 else 1 / ((B : K) + 1)) := by
  have hd : specDraws l W B v w k = List.replicate B v := by
    unfold specDraws
    rw [List.eq_replicate_iff]
    refine ⟨by simp, fun b hb => ?_⟩
    obtain ⟨i, _, rfl⟩ := List.mem_map.1 hb
    simp [hz]
  have hB0 : (B : K) ≠ 0 := by exact_mod_cast (by omega : B ≠ 0)
  have hBp : (0 : K) < B := by exact_mod_cast (by omega : 0 < B)
  rw [hd]
  unfold effectStats
  dsimp only
  rw [BootStats.finites_map, List.length_map, List.length_replicate, if_neg (by linarith)]
  congr 1
  · unfold BootStats.var1
    rw [List.length_replicate, if_neg (by omega), List.map_replicate, List.sum_replicate, List.sum_replicate]
    simp [hB0]
  · unfold BootStats.percentileCI
    rw [pct_replicate B (by omega) v _ (by linarith) (by linarith), pct_replicate B (by omega) v _ (by linarith) (by linarith)]
  · unfold BootStats.pvalue
    have hlt : 1 / ((B : K) + 1) ≤ 1 := by rw [div_le_one (by linarith)]; linarith
    have hpos : 0 < 1 / ((B : K) + 1) := by positivity
    rcases lt_trichotomy v 0 with hv | hv | hv
    · rw [if_neg (not_le.2 hv), if_neg hv.ne, List.filter_replicate_of_neg (by simpa using hv)]
      simp only [List.length_nil, Nat.cast_zero, zero_div, mul_zero]
      rw [min_eq_left zero_le_one, max_eq_right hpos.le]
    · subst hv
      rw [if_pos le_rfl, if_pos rfl, List.filter_replicate_of_pos (by simp)]
      simp only [List.length_replicate, div_self hB0]
      rw [min_eq_right (by norm_num), max_eq_left hlt]
    · rw [if_pos hv.le, if_neg hv.ne', List.filter_replicate_of_neg (by simpa using hv)]
      simp only [List.length_nil, Nat.cast_zero, zero_div, mul_zero]
      rw [min_eq_left zero_le_one, max_eq_right hpos.le]

/-! ### Unit and time effects -/

/-- An entry with the influence values outside its own units set to zero. -/
def norm (x : (Coh × ℤ) × Entry n K) : (Coh × ℤ) × Entry n K :=
  (x.1, { x.2 with infT := fun u => if u ∈ x.2.treated then x.2.infT u else 0, infC := fun u => if u ∈ x.2.control then x.2.infC u else 0 })

theorem bootAtt_norm (w : Fin n → K) (x : (Coh × ℤ) × Entry n K) : bootAtt w (norm x).2 = bootAtt w x.2 := by
  unfold bootAtt norm
  dsimp only
  congr 2
  · exact Finset.sum_congr rfl fun u hu => by rw [if_pos hu]
  · exact Finset.sum_congr rfl fun u hu => by rw [if_pos hu]

theorem bootUnits_norm (l : GT n K) : bootUnits (l.map norm) = bootUnits l := by
  unfold bootUnits
  congr 1
  funext u
  rw [List.any_map]
  rfl

theorem drawAt_norm (l : GT n K) (W : ℕ → ℕ → K) (b j : ℕ) : drawAt (l.map norm) W b j = drawAt l W b j := by
  have hw : weightOf (l.map norm) W b = weightOf l W b := by
    funext u
    unfold weightOf unitIdx
    rw [bootUnits_norm]
  unfold drawAt
  rw [List.getElem?_map, Option.map_map, hw]
  congr 2
  funext x
  exact bootAtt_norm _ _

theorem sizeInfo_norm (s : List (((Coh × ℤ) × Entry n K) × ℕ)) : sizeInfo (s.map (Prod.map norm id)) = sizeInfo s := by
  unfold sizeInfo
  simp only [List.map_map]
  rfl

theorem equalInfo_norm (s : List (((Coh × ℤ) × Entry n K) × ℕ)) : equalInfo (s.map (Prod.map norm id)) = equalInfo s := by
  unfold equalInfo
  simp only [List.map_map, List.length_map]
  rfl

theorem zipIdx_norm (l : GT n K) : (l.map norm).zipIdx = l.zipIdx.map (Prod.map norm id) := List.zipIdx_map

theorem infoStats_norm (alpha : K) (l : GT n K) (W : ℕ → ℕ → K) (B : ℕ) (i : Info K) : infoStats alpha (l.map norm) W B i = infoStats alpha l W B i := by
  unfold infoStats aggDraws
  have : ∀ b, drawAt (l.map norm) W b = drawAt l W b := fun b => funext fun j => drawAt_norm l W b j
  simp only [this]

theorem eventItems_norm (bal : Option ℤ) (l : GT n K) : eventItems bal (l.map norm) = (eventItems bal l).map (Prod.map norm id) := by
  cases bal with
  | none => exact zipIdx_norm l
  | some k =>
    unfold eventItems
    dsimp only
    rw [zipIdx_norm, List.filter_map, List.filter_map, List.map_map]
    rfl

theorem runBoot_norm (alpha : K) (ant : ℤ) (agg : Agg) (bal : Option ℤ) (gs : List Coh) (l : GT n K) (W : ℕ → ℕ → K) (B : ℕ) :
    runBoot alpha ant agg bal gs (l.map norm) W B = runBoot alpha ant agg bal gs l W B := by
  have hp : postItems ant (l.map norm) = (postItems ant l).map (Prod.map norm id) := by
    unfold postItems
    rw [zipIdx_norm, List.filter_map]
    rfl
  have he : eventInfo bal (l.map norm) = eventInfo bal l := by
    unfold eventInfo
    dsimp only
    rw [eventItems_norm, List.map_map]
    refine List.map_congr_left fun e _ => ?_
    rw [List.filter_map, sizeInfo_norm]
    rfl
  have hg : groupInfo ant gs (l.map norm) = groupInfo ant gs l := by
    unfold groupInfo
    congr 1
    funext g
    rw [zipIdx_norm, List.filter_map]
    dsimp only
    rw [List.length_map, equalInfo_norm]
    rfl
  unfold runBoot
  simp only [hp, he, hg, sizeInfo_norm, infoStats_norm, List.length_map, zipIdx_norm, List.map_map]
  congr 1
  refine List.map_congr_left fun x _ => ?_
  simp only [Function.comp, Prod.map, drawAt_norm]
  rfl

theorem effects_norm (c : Cfg) (P : Panel n K) (a : Fin n → K) (d : ℤ → K) :
    (effects c (CS.addEffects P a d)).map norm = ((effects c P).map norm) := by
  unfold effects
  have hg : CS.groups (CS.addEffects P a d) = CS.groups P := rfl
  have hv : ∀ g, CS.validPeriods c (CS.addEffects P a d) g = CS.validPeriods c P g := fun g => rfl
  rw [hg, List.map_flatMap, List.map_flatMap]
  congr 1
  funext g
  rw [hv, List.map_filterMap, List.map_filterMap]
  congr 1
  funext t
  have h := CS.C24_invariant c P a d g t
  cases h1 : CS.attGt c P g t with
  | none =>
    cases h2 : CS.attGt c (CS.addEffects P a d) g t with
    | none => rfl
    | some e' => rw [h1, h2] at h; exact h.elim
  | some e =>
    cases h2 : CS.attGt c (CS.addEffects P a d) g t with
    | none => rw [h1, h2] at h; exact h.elim
    | some e' =>
      rw [h1, h2] at h
      obtain ⟨q1, q2, q3, q4, q5, q6⟩ := h
      have n1 : e.nT = e.treated.card ∧ e.nC = e.control.card := by
        obtain ⟨b, _, _, _, _, _, h⟩ := CS.attGt_some h1
        subst h
        exact ⟨rfl, rfl⟩
      have n2 : e'.nT = e'.treated.card ∧ e'.nC = e'.control.card := by
        obtain ⟨b, _, _, _, _, _, h⟩ := CS.attGt_some h2
        subst h
        exact ⟨rfl, rfl⟩
      simp only [Option.map_some, norm, q1, q2, q3, q4, n1.1, n1.2, n2.1, n2.2]
      congr 3
      · funext u; split_ifs with hu
        · exact q5 u hu
        · rfl
      · funext u; split_ifs with hu
        · exact q6 u hu
        · rfl

/-- C118. Adding a constant to all outcomes of a unit, or to all outcomes of a period, changes no bootstrap statistic. -/
theorem C118_shift (c : Cfg) (P : Panel n K) (a : Fin n → K) (d : ℤ → K) (alpha : K) (agg : Agg) (bal : Option ℤ) (gs : List Coh)
    (W : ℕ → ℕ → K) (B : ℕ) :
    runBoot alpha c.ant agg bal gs (effects c (CS.addEffects P a d)) W B = runBoot alpha c.ant agg bal gs (effects c P) W B := by
  rw [← runBoot_norm, effects_norm, runBoot_norm]

/-! ### Claims that fail -/

/-- C118 is false for the overall effect as an approximation of the analytic standard error: the bootstrap keeps the cohort
weights fixed and so omits the term for their estimation. Here the analytic squared standard error of the overall effect is
positive, while every bootstrap draw equals the estimate, so the bootstrap standard error is zero. -/
theorem C118_overall_variance_refuted (W : ℕ → ℕ → ℚ) (B : ℕ) (hB : 2 ≤ B) :
    0 < overallVar 0 CS.demo3 (effects ⟨.varying, .never, 0, .dr⟩ CS.demo3) ∧
    (runBoot (1 / 20) 0 .none none [] (effects ⟨.varying, .never, 0, .dr⟩ CS.demo3) W B).overall
      = .ok (some 0) (2 / 3, 2 / 3) (1 / ((B : ℚ) + 1)) := by
  refine ⟨by decide +kernel, ?_⟩
  have h := C118_overall ⟨.varying, .never, 0, .dr⟩ CS.demo3 (1 / 20) .none none [] W B
  have ho : overall 0 (effects ⟨.varying, .never, 0, .dr⟩ CS.demo3) = some (2 / 3) := by decide +kernel
  dsimp only at h
  rw [ho] at h
  refine h.trans ?_
  dsimp only
  rw [C118_exact (1 / 20) (by norm_num) (by norm_num) _ W B hB (2 / 3) _ _ (by decide +kernel), if_neg (by norm_num)]

/-- C118 is false in the form "the bootstrap interval contains the estimate": for some weights and any number of draws the
percentile interval misses it (the shift of the draws is not removed). -/
theorem C118_ci_estimate_refuted (B : ℕ) (hB : 1 ≤ B) :
    overall 0 (effects ⟨.varying, .never, 0, .dr⟩ CS.demo2) = some (-1 / 2) ∧
    ∃ W : ℕ → ℕ → ℚ, ∃ se2 p, (runBoot (1 / 20) 0 .none none [] (effects ⟨.varying, .never, 0, .dr⟩ CS.demo2) W B).overall
      = .ok se2 (-1, -1) p := by
  have ho : overall 0 (effects ⟨.varying, .never, 0, .dr⟩ CS.demo2) = some (-1 / 2) := by decide +kernel
  refine ⟨ho, fun _ i => if i = 0 then 1 else 0, ?_⟩
  have h := C118_overall ⟨.varying, .never, 0, .dr⟩ CS.demo2 (1 / 20) .none none [] (fun _ i => if i = 0 then 1 else 0) B
  dsimp only at h
  rw [ho] at h
  dsimp only at h
  have hd : specDraws (effects ⟨.varying, .never, 0, .dr⟩ CS.demo2) (fun _ i => if i = 0 then (1 : ℚ) else 0) B (-1 / 2)
      (sizeWeights (postPairs 0 (effects ⟨.varying, .never, 0, .dr⟩ CS.demo2))) (postPairs 0 (effects ⟨.varying, .never, 0, .dr⟩ CS.demo2))
      = List.replicate B (-1) := by
    unfold specDraws
    rw [List.eq_replicate_iff]
    refine ⟨by simp, fun b hb => ?_⟩
    obtain ⟨i, hi, rfl⟩ := List.mem_map.1 hb
    change (-1 / 2 : ℚ) + ∑ u, weightOf (effects ⟨.varying, .never, 0, .dr⟩ CS.demo2) (fun _ i => if i = 0 then (1 : ℚ) else 0) 0 u * _ = -1
    clear hb h hi i
    decide +kernel
  rw [h, hd]
  unfold effectStats
  dsimp only
  have hBp : (0 : ℚ) < B := by exact_mod_cast hB
  rw [BootStats.finites_map, List.length_map, List.length_replicate, if_neg (by linarith)]
  have hci : BootStats.percentileCI (List.replicate B (-1 : ℚ)) (1 / 20) = (-1, -1) := by
    unfold BootStats.percentileCI
    rw [pct_replicate B hB _ _ (by norm_num) (by norm_num), pct_replicate B hB _ _ (by norm_num) (by norm_num)]
  rw [hci]
  exact ⟨_, _, rfl⟩

/-! ### Concrete cases -/

/-- A bootstrap with two draws on a panel with two cohorts: three effects, keys and relative times as reported. -/
example : (effects ⟨.varying, .never, 0, .dr⟩ CS.demo3).map Prod.fst = [(.num 2, 2), (.num 2, 3), (.num 3, 2), (.num 3, 3)] ∧
    bootUnits (effects ⟨.varying, .never, 0, .dr⟩ CS.demo3) = [0, 1, 2, 3] ∧
    ((runBoot (1 / 20) 0 .all none [.num 2, .num 3] (effects ⟨.varying, .never, 0, .dr⟩ CS.demo3) (fun b i => if b = i then 1 else -1) 2).event.map
      (List.map Prod.fst)) = some [((-1 : ℤ) : WithBot ℤ), 0, 1] ∧
    ((runBoot (1 / 20) 0 .all none [.num 2, .num 3] (effects ⟨.varying, .never, 0, .dr⟩ CS.demo3) (fun b i => if b = i then 1 else -1) 2).group.map
      (List.map Prod.fst)) = some [.num 2, .num 3] := by decide +kernel

/-- Draws of the one effect of `demo2` for three weight vectors. -/
example : (List.range 3).map (fun b => drawAt (effects ⟨.varying, .never, 0, .dr⟩ CS.demo2) (fun b i => if b = i then 1 else 0) b 0)
    = [-1, 0, -1/8] := by decide +kernel

/-- Bootstrap statistics replace the analytic ones, the effect stays. -/
example : (Cell.update (fun v : ℚ => v) ⟨3, some 1, some 3, some (1/100), some (1, 5)⟩ (.ok (some 2) (2, 4) (1/50)))
    = ⟨3, some 2, some (3/2), some (1/50), some (2, 4)⟩ := by decide +kernel

end DiffDiff.CSBoot
