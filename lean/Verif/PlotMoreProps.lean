/-
C133: what the remaining plots and tables show. Model: Verif/PlotMore.lean.
-/
import Verif.PlotMore
import Verif.PlotProps
import Verif.HonestDidProps
import Verif.BaconProps
import Mathlib.Tactic.Linarith
import Mathlib.Tactic.Ring
import Mathlib.Tactic.NormNum
import Mathlib.Tactic.IntervalCases

set_option linter.unusedSectionVars false

namespace DiffDiff.PlotMore

open Plot (Entry get sortedKeys get_iff get_none_iff)

deriving instance DecidableEq for HonestDid.Result, Drawn

variable {K : Type*} [Field K] [LinearOrder K] [IsStrictOrderedRing K]

/-! ### Honest event study -/

theorem drawAll_ok {z : K} {h : Honest K} {d : List (ℤ × Entry K)} {ref : Option ℤ} {x : ℕ} {ps : List ℤ} {qs : List (Drawn K)}
    (hq : drawAll z h d ref x ps = .ok qs) :
    qs.length = ps.length ∧ ∀ (i : ℕ) (p : ℤ) (q : Drawn K), ps[i]? = some p → qs[i]? = some q → drawPeriod z h d ref (x + i) p = .ok q := by
  induction ps generalizing x qs with
  | nil => simp only [drawAll] at hq; cases hq; exact ⟨rfl, fun i p q hp => by simp at hp⟩
  | cons p ps ih =>
    simp only [drawAll] at hq
    cases h1 : drawPeriod z h d ref x p with
    | error e => rw [h1] at hq; cases hq
    | ok q0 =>
      cases h2 : drawAll z h d ref (x + 1) ps with
      | error e => rw [h1, h2] at hq; cases hq
      | ok qs' =>
        rw [h1, h2] at hq
        cases hq
        obtain ⟨e1, e2⟩ := ih h2
        refine ⟨by simp [e1], fun i p' q' hp hq' => ?_⟩
        cases i with
        | zero => simp at hp hq'; subst hp; subst hq'; exact h1
        | succ i =>
          have := e2 i p' q' (by simpa using hp) (by simpa using hq')
          rw [show x + (i + 1) = x + 1 + i by ring]
          exact this

theorem drawAll_isOk (z : K) (h : Honest K) (d : List (ℤ × Entry K)) (ref : Option ℤ) (x : ℕ) (ps : List ℤ)
    (ha : ∀ p ∈ ps, (get d p).isSome = true ∧ (honestInterval h p).isSome = true) : ∃ qs, drawAll z h d ref x ps = .ok qs := by
  induction ps generalizing x with
  | nil => exact ⟨[], rfl⟩
  | cons p ps ih =>
    obtain ⟨qs, hq⟩ := ih (x + 1) (fun p' hp' => ha p' (List.mem_cons_of_mem _ hp'))
    obtain ⟨g1, g2⟩ := ha p (List.mem_cons_self ..)
    obtain ⟨en, he⟩ := Option.isSome_iff_exists.1 g1
    obtain ⟨iv, hi⟩ := Option.isSome_iff_exists.1 g2
    simp only [drawAll, drawPeriod, he, hi, hq]
    exact ⟨_, rfl⟩

theorem drawPeriod_ok {z : K} {h : Honest K} {d : List (ℤ × Entry K)} {ref : Option ℤ} {x : ℕ} {p : ℤ} {q : Drawn K}
    (hq : drawPeriod z h d ref x p = .ok q) :
    ∃ en lo hi, get d p = some en ∧ honestInterval h p = some (lo, hi) ∧ q.x = x ∧ q.period = p ∧ q.effect = en.effect ∧
      q.stdLow = Ext.sub en.effect (Ext.sub en.effect (Ext.mul (.fin z) en.se)) ∧
      q.stdUp = Ext.sub (Ext.add en.effect (Ext.mul (.fin z) en.se)) en.effect ∧
      q.honLow = Ext.sub en.effect lo ∧ q.honUp = Ext.sub hi en.effect ∧ (q.hollow = true ↔ ref = some p) := by
  simp only [drawPeriod] at hq
  cases h1 : get d p with
  | none => rw [h1] at hq; cases hq
  | some en =>
    cases h2 : honestInterval h p with
    | none => rw [h1, h2] at hq; cases hq
    | some iv =>
      obtain ⟨lo, hi⟩ := iv
      rw [h1, h2] at hq
      simp only [Except.ok.injEq] at hq
      subst hq
      refine ⟨en, lo, hi, rfl, rfl, rfl, rfl, rfl, rfl, rfl, rfl, rfl, ?_⟩
      rw [decide_eq_true_iff]
      exact eq_comm

/-- The event study behind an honest result, and the periods a plot without a `periods` argument shows. -/
def Study (o : Original K) (d : List (ℤ × Entry K)) (dflt : List ℤ) : Prop :=
  (o = .multi d ∧ dflt = d.map Prod.fst) ∨ (o = .events (some d) ∧ dflt.Pairwise (· < ·) ∧ ∀ p, p ∈ dflt ↔ ∃ en, (p, en) ∈ d)

theorem sorted_unique {l m : List ℤ} (hl : l.Pairwise (· < ·)) (hm : m.Pairwise (· < ·)) (h : ∀ p, p ∈ l ↔ p ∈ m) : l = m :=
  List.Perm.eq_of_pairwise (fun _ _ _ _ h1 h2 => absurd h1 (lt_asymm h2)) hl hm
    ((List.perm_ext_iff_of_nodup (hl.imp ne_of_lt) (hm.imp ne_of_lt)).2 h)

theorem study_data {o : Original K} {d : List (ℤ × Entry K)} {dflt : List ℤ} (h : Study o d dflt) : esData o = .ok (d, dflt) := by
  rcases h with ⟨rfl, rfl⟩ | ⟨rfl, h1, h2⟩
  · rfl
  · simp only [esData, Except.ok.injEq, Prod.mk.injEq, true_and]
    refine sorted_unique (Plot.sortedKeys_lt d) h1 (fun p => ?_)
    rw [Plot.mem_sortedKeys, h2]
    simp

theorem plotHonest_ok {z : K} {h : Honest K} {periods : Option (List ℤ)} {ref : Option ℤ} {qs : List (Drawn K)} {d : List (ℤ × Entry K)}
    {dflt : List ℤ} (hs : Study h.original d dflt) :
    plotHonest z h periods ref = .ok qs ↔ drawAll z h d ref 0 (periods.getD dflt) = .ok qs ∧
      ∀ q ∈ qs, barOk q.stdLow = true ∧ barOk q.stdUp = true ∧ barOk q.honLow = true ∧ barOk q.honUp = true := by
  unfold plotHonest
  rw [study_data hs]
  simp only
  cases hd : drawAll z h d ref 0 (periods.getD dflt) with
  | error e => simp
  | ok qs' =>
    simp only
    constructor
    · intro hq
      split_ifs at hq with hc
      cases hq
      refine ⟨rfl, fun q hm => ?_⟩
      have := List.all_eq_true.1 hc q hm
      simpa [and_assoc] using this
    · rintro ⟨e, ha⟩
      cases e
      rw [if_pos]
      refine List.all_eq_true.2 (fun q hm => ?_)
      simpa [and_assoc] using ha q hm

/-- C133. Honest event study plot, from MultiPeriodDiD or CallawaySantAnna results: one mark per requested period (by default all of
them, event times in increasing order), in that order at positions 0, 1, 2, …, showing that period's estimate, its standard
interval `effect ± z·se`, and a hollow marker exactly at the reference period. -/
theorem C133_honest_marks (z : K) (h : Honest K) (periods : Option (List ℤ)) (ref : Option ℤ) (d : List (ℤ × Entry K)) (dflt : List ℤ)
    (hs : Study h.original d dflt) (hd : (d.map Prod.fst).Nodup) (qs : List (Drawn K)) (hq : plotHonest z h periods ref = .ok qs) :
    qs.map Drawn.period = periods.getD dflt ∧ qs.map Drawn.x = List.range qs.length ∧
    ∀ q ∈ qs, (q.hollow = true ↔ ref = some q.period) ∧ ∃ en, (q.period, en) ∈ d ∧ q.effect = en.effect ∧
      ∀ e s, en.effect = .fin e → en.se = .fin s → q.stdLow = .fin (z * s) ∧ q.stdUp = .fin (z * s) := by
  obtain ⟨hq, -⟩ := (plotHonest_ok hs).1 hq
  obtain ⟨h1, h2⟩ := drawAll_ok hq
  have hp : ∀ i (hi : i < qs.length), ∃ p, (periods.getD dflt)[i]? = some p ∧ drawPeriod z h d ref (0 + i) p = .ok qs[i] := by
    intro i hi
    have hi' : i < (periods.getD dflt).length := h1 ▸ hi
    exact ⟨_, List.getElem?_eq_getElem hi', h2 i _ _ (List.getElem?_eq_getElem hi') (List.getElem?_eq_getElem hi)⟩
  refine ⟨?_, ?_, ?_⟩
  · apply List.ext_getElem?
    intro i
    by_cases hi : i < qs.length
    · obtain ⟨p, e1, e2⟩ := hp i hi
      obtain ⟨_, _, _, _, _, _, e3, _⟩ := drawPeriod_ok e2
      rw [e1, List.getElem?_map, List.getElem?_eq_getElem hi, Option.map_some, e3]
    · rw [List.getElem?_eq_none (by simpa using hi), List.getElem?_eq_none (by rw [← h1]; simpa using hi)]
  · apply List.ext_getElem
    · simp
    · intro i hi1 hi2
      obtain ⟨p, e1, e2⟩ := hp i (by simpa using hi1)
      obtain ⟨_, _, _, _, _, e3, _⟩ := drawPeriod_ok e2
      simp [e3]
  · intro q hm
    obtain ⟨i, hi, rfl⟩ := List.getElem_of_mem hm
    obtain ⟨p, e1, e2⟩ := hp i hi
    obtain ⟨en, lo, hi', g1, g2, g3, g4, g5, g6, g7, g8, g9, g10⟩ := drawPeriod_ok e2
    rw [g4]
    refine ⟨g10, en, (get_iff hd p en).1 g1, g5, fun e s he hse => ?_⟩
    rw [g6, g7, he, hse]
    simp only [Ext.sub, Ext.mul, Ext.neg, Ext.add, Ext.fin.injEq]
    constructor <;> ring

/-- Ends of the drawn honest interval, when the estimate and the error bars are finite. -/
def DrawnInterval (q : Drawn K) (a b : K) : Prop :=
  ∃ e l u, q.effect = .fin e ∧ q.honLow = .fin l ∧ q.honUp = .fin u ∧ a = e - l ∧ b = e + u

theorem sub_fin {e x l : K} : Ext.sub (.fin e) (.fin x) = .fin l ↔ l = e - x := by
  simp only [Ext.sub, Ext.neg, Ext.add, Ext.fin.injEq]
  constructor <;> intro h <;> [rw [← h]; rw [h]] <;> ring

/-- C133. With per-period bounds the thick interval of every period is that period's own bounds. -/
theorem C133_honest_own (z : K) (h : Honest K) (periods : Option (List ℤ)) (ref : Option ℤ) (d : List (ℤ × Entry K)) (dflt : List ℤ)
    (hs : Study h.original d dflt) (b : List (ℤ × (Ext K × Ext K))) (hb : h.perPeriod = some b) (hne : b ≠ []) (hbd : (b.map Prod.fst).Nodup)
    (qs : List (Drawn K)) (hq : plotHonest z h periods ref = .ok qs) (q : Drawn K) (hm : q ∈ qs) (x y : K)
    (hd : DrawnInterval q x y) : (q.period, (Ext.fin x, Ext.fin y)) ∈ b := by
  obtain ⟨hq, -⟩ := (plotHonest_ok hs).1 hq
  obtain ⟨h1, h2⟩ := drawAll_ok hq
  obtain ⟨i, hi, rfl⟩ := List.getElem_of_mem hm
  have hi' : i < (periods.getD dflt).length := h1 ▸ hi
  obtain ⟨en, lo, up, g1, g2, g3, g4, g5, g6, g7, g8, g9, g10⟩ :=
    drawPeriod_ok (h2 i _ _ (List.getElem?_eq_getElem hi') (List.getElem?_eq_getElem hi))
  obtain ⟨e, l, u, f1, f2, f3, rfl, rfl⟩ := hd
  rw [g4]
  have hlk : get b (periods.getD dflt)[i] = some (lo, up) := by
    cases b with
    | nil => exact absurd rfl hne
    | cons c cs => simpa [honestInterval, hb] using g2
  have := (get_iff hbd _ _).1 hlk
  rw [f1] at g5
  rw [f2, ← g5] at g8
  rw [f3, ← g5] at g9
  have elo : lo = .fin (e - l) := by
    cases lo <;> simp [Ext.sub, Ext.neg, Ext.add] at g8
    rw [g8]; congr 1; ring
  have eup : up = .fin (e + u) := by
    cases up <;> simp [Ext.sub, Ext.neg, Ext.add] at g9
    rw [g9]; congr 1; ring
  rw [elo, eup] at this
  exact this

/-- C133, as promised, is refuted: "each period of the plot carries its own honest interval". `HonestDiD.fit` never fills in per-period
bounds, so for every fit the plot draws one and the same interval, that of the weighted average effect, around every period. -/
theorem C133_honest_same_refuted (z : K) (r : HonestDid.Multi K) (se : ℤ → Ext K) (f : HonestDid.Result K) (lo hi : K)
    (hlo : f.bounds.ciLb = .fin lo) (hhi : f.bounds.ciUb = .fin hi) (periods : Option (List ℤ)) (ref : Option ℤ) (qs : List (Drawn K))
    (hq : plotHonest z (ofFit r se f) periods ref = .ok qs) (q : Drawn K) (hm : q ∈ qs) : DrawnInterval q lo hi := by
  have hs : Study (ofFit r se f).original (r.post.map (fun p => (p, ({ effect := .fin (r.effect p), se := se p } : Entry K)))) r.post := by
    refine Or.inl ⟨rfl, ?_⟩
    rw [List.map_map]
    exact (List.map_id _).symm
  obtain ⟨hq, -⟩ := (plotHonest_ok hs).1 hq
  obtain ⟨h1, h2⟩ := drawAll_ok hq
  obtain ⟨i, hi', rfl⟩ := List.getElem_of_mem hm
  have hi'' : i < (periods.getD r.post).length := h1 ▸ hi'
  obtain ⟨en, lo', up, g1, g2, g3, g4, g5, g6, g7, g8, g9, g10⟩ :=
    drawPeriod_ok (h2 i _ _ (List.getElem?_eq_getElem hi'') (List.getElem?_eq_getElem hi'))
  have hmem : ((periods.getD r.post)[i], en) ∈ r.post.map (fun p => (p, ({ effect := .fin (r.effect p), se := se p } : Entry K))) := by
    by_contra hc
    have := get_none_iff (d := r.post.map (fun p => (p, ({ effect := .fin (r.effect p), se := se p } : Entry K)))) (periods.getD r.post)[i]
    unfold Plot.get at g1
    cases hf : (r.post.map (fun p => (p, ({ effect := .fin (r.effect p), se := se p } : Entry K)))).reverse.find?
      (fun x => decide (x.1 = (periods.getD r.post)[i])) with
    | none => rw [hf] at g1; cases g1
    | some y =>
      rw [hf] at g1
      have hy1 := List.mem_of_find?_eq_some hf
      have hy2 := List.find?_some hf
      simp only [decide_eq_true_eq] at hy2
      simp only [Option.map_some, Option.some.injEq] at g1
      apply hc
      rw [← hy2, ← g1]
      exact List.mem_reverse.1 hy1
  obtain ⟨p, -, hp⟩ := List.mem_map.1 hmem
  simp only [Prod.mk.injEq] at hp
  obtain ⟨-, rfl⟩ := hp
  simp only [honestInterval, ofFit, Option.some.injEq, Prod.mk.injEq] at g2
  obtain ⟨rfl, rfl⟩ := g2
  simp only at g5 g8 g9
  rw [hlo] at g8
  rw [hhi] at g9
  refine ⟨r.effect p, r.effect p - lo, hi - r.effect p, g5, ?_, ?_, by ring, by ring⟩
  · rw [g8, sub_fin]
  · rw [g9, sub_fin]

theorem barOk_sub_lower (e lo : Ext K) : barOk (Ext.sub e lo) = true ↔ e.lt lo = false := by
  cases e <;> cases lo <;> simp [barOk, Ext.sub, Ext.neg, Ext.add, Ext.lt]

theorem barOk_sub_upper (e hi : Ext K) : barOk (Ext.sub hi e) = true ↔ hi.lt e = false := by
  cases e <;> cases hi <;> simp [barOk, Ext.sub, Ext.neg, Ext.add, Ext.lt]

/-- A standard error that is NaN, infinite or a number not below zero. -/
def GoodSe : Ext K → Prop
  | .nan => True
  | .pinf => True
  | .ninf => False
  | .fin s => 0 ≤ s

theorem barOk_std {z : K} (hz : 0 < z) (e s : Ext K) (hs : GoodSe s) :
    barOk (Ext.sub e (Ext.sub e (Ext.mul (.fin z) s))) = true ∧ barOk (Ext.sub (Ext.add e (Ext.mul (.fin z) s)) e) = true := by
  have hsg : Ext.infOf (Ext.sgn z) = (Ext.pinf : Ext K) := by
    simp [Ext.infOf, Ext.sgn, not_lt.2 hz.le, hz.ne']
  cases s with
  | nan => cases e <;> simp [barOk, Ext.sub, Ext.neg, Ext.add, Ext.lt, Ext.mul]
  | ninf => exact absurd hs (by simp [GoodSe])
  | pinf => cases e <;> simp [barOk, Ext.sub, Ext.neg, Ext.add, Ext.lt, Ext.mul, hsg]
  | fin s =>
    have : 0 ≤ z * s := mul_nonneg hz.le hs
    cases e <;> simp [barOk, Ext.sub, Ext.neg, Ext.add, Ext.lt, Ext.mul, this]

/-- C133. When the honest result has only the scalar interval, the plot is drawn exactly when every requested period is known and no
plotted estimate lies outside that interval; otherwise the call fails. -/
theorem C133_honest_defined (z : K) (hz : 0 < z) (h : Honest K) (hn : h.perPeriod = none) (periods : Option (List ℤ)) (ref : Option ℤ)
    (d : List (ℤ × Entry K)) (dflt : List ℤ) (hs : Study h.original d dflt) (hd : (d.map Prod.fst).Nodup)
    (hse : ∀ x ∈ d, GoodSe x.2.se) :
    (∃ qs, plotHonest z h periods ref = .ok qs) ↔
      ∀ p ∈ periods.getD dflt, ∃ en, (p, en) ∈ d ∧ en.effect.lt h.ciLb = false ∧ h.ciUb.lt en.effect = false := by
  have hiv : ∀ p, honestInterval h p = some (h.ciLb, h.ciUb) := fun p => by simp [honestInterval, hn]
  constructor
  · rintro ⟨qs, hq⟩ p hp
    obtain ⟨hq, ha⟩ := (plotHonest_ok hs).1 hq
    obtain ⟨h1, h2⟩ := drawAll_ok hq
    obtain ⟨i, hi, rfl⟩ := List.getElem_of_mem hp
    have hi' : i < qs.length := h1 ▸ hi
    obtain ⟨en, lo, up, g1, g2, g3, g4, g5, g6, g7, g8, g9, g10⟩ :=
      drawPeriod_ok (h2 i _ _ (List.getElem?_eq_getElem hi) (List.getElem?_eq_getElem hi'))
    rw [hiv] at g2
    cases g2
    obtain ⟨-, -, b1, b2⟩ := ha _ (List.getElem_mem hi')
    rw [g8, barOk_sub_lower] at b1
    rw [g9, barOk_sub_upper] at b2
    exact ⟨en, (get_iff hd _ _).1 g1, b1, b2⟩
  · intro ha
    obtain ⟨qs, hq⟩ := drawAll_isOk z h d ref 0 (periods.getD dflt) (fun p hp => by
      obtain ⟨en, he, -⟩ := ha p hp
      rw [(get_iff hd p en).2 he, hiv]
      exact ⟨rfl, rfl⟩)
    refine ⟨qs, (plotHonest_ok hs).2 ⟨hq, fun q hm => ?_⟩⟩
    obtain ⟨h1, h2⟩ := drawAll_ok hq
    obtain ⟨i, hi, rfl⟩ := List.getElem_of_mem hm
    have hi' : i < (periods.getD dflt).length := h1 ▸ hi
    obtain ⟨en, lo, up, g1, g2, g3, g4, g5, g6, g7, g8, g9, g10⟩ :=
      drawPeriod_ok (h2 i _ _ (List.getElem?_eq_getElem hi') (List.getElem?_eq_getElem hi))
    rw [hiv] at g2
    cases g2
    obtain ⟨en', he', c1, c2⟩ := ha _ (List.getElem_mem hi')
    rw [← get_iff hd, g1] at he'
    cases he'
    obtain ⟨s1, s2⟩ := barOk_std hz en.effect en.se (hse _ ((get_iff hd _ _).1 g1))
    rw [g6, g7, g8, g9]
    exact ⟨s1, s2, (barOk_sub_lower _ _).2 c1, (barOk_sub_upper _ _).2 c2⟩

/-- A fit of two post-treatment periods with effects 0 and 10, covariance 2·I, average 5 with standard error 1. -/
def twoPeriods : HonestDid.Multi ℚ :=
  { treatment := "treated", pre := [0], post := [1, 2], effect := fun p => if p = 2 then 10 else 0, dim := 2
    vcov := fun i j => if i = j then 2 else 0, avgSe := some 1, cols := [], coef := fun _ => 0 }

/-- C133, as promised, is refuted: "the result of a fit can be plotted". Effects 0 and 10 average 5 with honest interval [3, 7] at
M = 0; both estimates lie outside it, and the plot fails with a ValueError. -/
theorem C133_honest_plot_refuted :
    ∃ f : HonestDid.Result ℚ, HonestDid.fitMulti .relativeMagnitude (fun _ => none) id 2 none twoPeriods 0 = .ok f ∧
      f.estimate = 5 ∧ f.bounds.ciLb = .fin 3 ∧ f.bounds.ciUb = .fin 7 ∧
      plotHonest 2 (ofFit twoPeriods (fun _ => .fin 1) f) none none = .error .negativeBar := by
  refine ⟨⟨5, 1, ⟨.fin 5, .fin 5, .fin 3, .fin 7⟩⟩, ?_, rfl, rfl, rfl, ?_⟩ <;> decide +kernel

example : ∃ qs, plotHonest (2 : ℚ) ⟨.multi [(1, ⟨.fin 4, .fin 1, none⟩), (2, ⟨.fin 6, .fin 1, none⟩)], none, .fin 3, .fin 7⟩ none (some 1) = .ok qs :=
  ⟨[⟨0, 1, .fin 4, .fin 2, .fin 2, .fin 1, .fin 3, true⟩, ⟨1, 2, .fin 6, .fin 2, .fin 2, .fin 3, .fin 1, false⟩], by decide +kernel⟩

/-! ### Sensitivity analysis -/

theorem bisect_strict (inc : K → Bool) (n : ℕ) (p : K × K) (h : p.1 < p.2) :
    p.1 ≤ (HonestDid.bisect inc n p).1 ∧ (HonestDid.bisect inc n p).2 ≤ p.2 ∧ (HonestDid.bisect inc n p).1 < (HonestDid.bisect inc n p).2 := by
  induction n generalizing p with
  | zero => exact ⟨le_refl _, le_refl _, h⟩
  | succ n ih =>
    have hs : p.1 ≤ (HonestDid.step inc p).1 ∧ (HonestDid.step inc p).2 ≤ p.2 ∧ (HonestDid.step inc p).1 < (HonestDid.step inc p).2 := by
      unfold HonestDid.step
      simp only
      split_ifs <;> refine ⟨?_, ?_, ?_⟩ <;> simp <;> linarith
    obtain ⟨a, b, c⟩ := ih _ hs.2.2
    exact ⟨hs.1.trans a, b.trans hs.2.1, c⟩

theorem transition_separates {inc : K → Bool} (p : K) (grid : List K) (hp : inc p = false)
    (hm : ∀ a ∈ grid, ∀ b ∈ grid, a ≤ b → inc a = true → inc b = true)
    (hs : (p :: grid).Pairwise (· < ·)) (v : K) (hv : HonestDid.transition inc (some p) grid = some v) :
    p < v ∧ ∀ g ∈ grid, (inc g = false ↔ g < v) := by
  induction grid generalizing p with
  | nil => cases hv
  | cons q grid ih =>
    rw [List.pairwise_cons] at hs
    have hpq : p < q := hs.1 q (List.mem_cons_self ..)
    simp only [HonestDid.transition] at hv
    split_ifs at hv with hq
    · cases hv
      obtain ⟨a, b, c⟩ := bisect_strict inc 20 (p, q) hpq
      have hvq : ((HonestDid.bisect inc 20 (p, q)).1 + (HonestDid.bisect inc 20 (p, q)).2) / 2 < q := by simp only at b; linarith
      have hge : ∀ g ∈ q :: grid, q ≤ g := by
        intro g hg
        rcases List.mem_cons.1 hg with rfl | hg
        · exact le_refl _
        · exact ((List.pairwise_cons.1 hs.2).1 g hg).le
      refine ⟨by simp only at a; linarith, fun g hg => ?_⟩
      have hg1 := hm q (List.mem_cons_self ..) g hg (hge g hg) hq
      rw [hg1]
      simp only [Bool.true_eq_false, false_iff, not_lt]
      exact hvq.le.trans (hge g hg)
    · have hq' : inc q = false := by simpa using hq
      obtain ⟨e1, e2⟩ := ih q hq' (fun a ha b hb => hm a (List.mem_cons_of_mem _ ha) b (List.mem_cons_of_mem _ hb)) hs.2 hv
      refine ⟨hpq.trans e1, fun g hg => ?_⟩
      rcases List.mem_cons.1 hg with rfl | hg
      · simp [hq', e1]
      · exact e2 g hg

/-- C133. The table of a sensitivity analysis has one row per grid value, in order, with that value's bounds; a row is called significant
exactly when zero is not inside its interval. -/
theorem C133_sensitivity_rows (B : K → HonestDid.Bounds K) (est : K) (grid : List K) :
    (sensTable (sensitivity B est grid)).map SensRow.m = grid ∧
    ∀ r ∈ sensTable (sensitivity B est grid), (B r.m = ⟨r.lb, r.ub, r.ciLb, r.ciUb⟩) ∧
      (r.significant = true ↔ ¬ (r.ciLb.le (.fin 0) = true ∧ (Ext.fin 0).le r.ciUb = true)) := by
  constructor
  · simp [sensTable, sensitivity, Function.comp_def]
  · intro r hr
    simp only [sensTable, sensitivity, List.map_map] at hr
    obtain ⟨m, -, rfl⟩ := List.mem_map.1 hr
    refine ⟨rfl, ?_⟩
    simp only [Function.comp]
    cases (B m).ciLb.le (.fin 0) <;> cases (Ext.fin 0).le (B m).ciUb <;> simp

/-- C133. The breakdown line separates the table. For an increasing grid of values not below zero on which zero, once inside the
interval, stays inside: a row is significant exactly when there is no line or the row lies to its left. -/
theorem C133_sensitivity_line (B : K → HonestDid.Bounds K) (est : K) (grid : List K) (hs : grid.Pairwise (· < ·)) (h0 : ∀ m ∈ grid, 0 ≤ m)
    (hm : ∀ a ∈ grid, ∀ b ∈ grid, a ≤ b → HonestDid.includesZero (B a) = true → HonestDid.includesZero (B b) = true)
    (r : SensRow K) (hr : r ∈ sensTable (sensitivity B est grid)) :
    r.significant = true ↔ ∀ b, (sensitivity B est grid).breakdown = some b → r.m < b := by
  simp only [sensTable, sensitivity, List.map_map] at hr
  obtain ⟨m, hmem, rfl⟩ := List.mem_map.1 hr
  simp only [Function.comp, sensitivity]
  change (!(HonestDid.includesZero (B m))) = true ↔ _
  simp only [Bool.not_eq_eq_eq_not, Bool.not_true]
  cases hb : HonestDid.findBreakdown (fun m => HonestDid.includesZero (B m)) grid with
  | none =>
    have := (HonestDid.C41_grid_none _ _).1 hb m hmem
    simp [this]
  | some b =>
    simp only [Option.some.injEq, forall_eq']
    unfold HonestDid.findBreakdown at hb
    split_ifs at hb with h1 h2
    · cases hb
      have := List.all_eq_true.1 h2 m hmem
      simp [this, h0 m hmem]
    · cases grid with
      | nil => cases hmem
      | cons g grid =>
        simp only [HonestDid.transition] at hb
        split_ifs at hb with hg
        · cases hb
          have hle : g ≤ m := by
            rcases List.mem_cons.1 hmem with rfl | hmem
            · exact le_refl _
            · exact ((List.pairwise_cons.1 hs).1 m hmem).le
          have := hm g (List.mem_cons_self ..) m hmem hle hg
          simp [this, h0 m hmem]
        · have hg' : HonestDid.includesZero (B g) = false := by simpa using hg
          obtain ⟨e1, e2⟩ := transition_separates (inc := fun m => HonestDid.includesZero (B m)) g grid hg'
            (fun a ha b hb => hm a (List.mem_cons_of_mem _ ha) b (List.mem_cons_of_mem _ hb)) hs b hb
          rcases List.mem_cons.1 hmem with rfl | hmem
          · simp [hg', e1]
          · exact e2 m hmem

/-- C133, as promised, is refuted for a grid that is not increasing: with `M_grid = [1, 0]` and zero inside the interval exactly from
M = 1 on, the line is drawn at 0 although the row M = 0 is significant. -/
theorem C133_sensitivity_order_refuted :
    ∃ B : ℚ → HonestDid.Bounds ℚ, (∀ a b, a ≤ b → HonestDid.includesZero (B a) = true → HonestDid.includesZero (B b) = true) ∧
      (sensitivity B 1 [1, 0]).breakdown = some 0 ∧ (sensTable (sensitivity B 1 [1, 0])).map SensRow.significant = [false, true] := by
  refine ⟨fun m => ⟨.fin (1 - m), .fin (1 + m), .fin (1 - m), .fin (1 + m)⟩, fun a b hab h => ?_, by decide +kernel, by decide +kernel⟩
  simp only [HonestDid.includesZero, Ext.le, Bool.and_eq_true, decide_eq_true_eq] at h ⊢
  constructor <;> linarith [h.1, h.2]

/-- A profile and grid meeting the conditions of `C133_sensitivity_line`: the line lies between the rows 1/2 and 2. -/
example : ((sensTable (sensitivity (fun m : ℚ => ⟨.fin (1 - m), .fin (1 + m), .fin (1 - m), .fin (1 + m)⟩) 1 [0, 1 / 2, 2])).map
      (fun r => (r.m, r.significant))) = [(0, true), (1 / 2, true), (2, false)] ∧
    ∃ b, (sensitivity (fun m : ℚ => ⟨.fin (1 - m), .fin (1 + m), .fin (1 - m), .fin (1 + m)⟩) 1 [0, 1 / 2, 2]).breakdown = some b ∧ 1 / 2 < b ∧ b < 2 := by
  refine ⟨by decide +kernel, (((sensitivity (fun m : ℚ => ⟨.fin (1 - m), .fin (1 + m), .fin (1 - m), .fin (1 + m)⟩) 1 [0, 1 / 2, 2]).breakdown).getD 0),
    by decide +kernel, by decide +kernel, by decide +kernel⟩

/-- C133. The plot of a non-empty analysis always succeeds and draws the table: the lines at the estimate and at zero, the band of
bounds, the two interval curves through the rows' end points, and the breakdown line exactly when there is a breakdown value. An empty
grid can be plotted only with neither bounds nor intervals. -/
theorem C133_sensitivity_plot (s : Sens K) (b c l : Bool) :
    (plotSensitivity s b c l = .error .indexError ↔ s.rows = [] ∧ (b = true ∨ c = true)) ∧
    ∀ ls, plotSensitivity s b c l = .ok ls →
      Layer.hline s.estimate ∈ ls ∧ Layer.hline 0 ∈ ls ∧ (∀ x, Layer.vline x ∈ ls ↔ l = true ∧ s.breakdown = some x) ∧
      (∀ pts, Layer.band pts ∈ ls ↔ b = true ∧ pts = (sensTable s).map (fun r => (r.m, r.lb, r.ub))) ∧
      (∀ pts, Layer.curve pts ∈ ls ↔ c = true ∧
        (pts = (sensTable s).map (fun r => (r.m, r.ciLb)) ∨ pts = (sensTable s).map (fun r => (r.m, r.ciUb)))) := by
  unfold plotSensitivity
  constructor
  · by_cases hc : s.rows.isEmpty = true ∧ (b = true ∨ c = true)
    · rw [if_pos hc]
      simpa using hc
    · rw [if_neg hc]
      simp only [reduceCtorEq, false_iff]
      simpa using hc
  · intro ls hl
    by_cases hc : s.rows.isEmpty = true ∧ (b = true ∨ c = true)
    · rw [if_pos hc] at hl; cases hl
    rw [if_neg hc] at hl
    have hl := Except.ok.inj hl
    subst hl
    have e1 : (sensTable s).map (fun r => (r.m, r.lb, r.ub)) = s.rows.map (fun r => (r.1, r.2.lb, r.2.ub)) := by
      simp [sensTable, Function.comp_def]
    have e2 : (sensTable s).map (fun r => (r.m, r.ciLb)) = s.rows.map (fun r => (r.1, r.2.ciLb)) := by
      simp [sensTable, Function.comp_def]
    have e3 : (sensTable s).map (fun r => (r.m, r.ciUb)) = s.rows.map (fun r => (r.1, r.2.ciUb)) := by
      simp [sensTable, Function.comp_def]
    rw [e1, e2, e3]
    clear hc
    cases b <;> cases c <;> cases l <;> cases s.breakdown <;> simp [eq_comm]

/-! ### Group effects -/

/-- C133. Up to ten cohorts have different colours. -/
theorem C133_groups_colours (n i j : ℕ) (hn : n ≤ 10) (hi : i < n) (hj : j < n) (h : colour n i = colour n j) : i = j := by
  have key : ∀ n < 11, ∀ i < n, ∀ j < n, colour n i = colour n j → i = j := by decide +kernel
  exact key n (by omega) i hi j hj h

/-- C133, as promised, is refuted: "cohorts can be told apart by colour". With more than ten cohorts two of them share a colour. -/
theorem C133_groups_colours_refuted (n : ℕ) (hn : 10 < n) : ∃ i j, i < j ∧ j < n ∧ colour n i = colour n j := by
  refine ⟨n - 2, n - 1, by omega, by omega, ?_⟩
  unfold colour
  have h1 : 9 ≤ 10 * (n - 2) / (n - 1) := by
    rw [Nat.le_div_iff_mul_le (by omega)]
    omega
  have h2 : 9 ≤ 10 * (n - 1) / (n - 1) := by
    rw [Nat.le_div_iff_mul_le (by omega)]
    omega
  rw [min_eq_left h1, min_eq_left h2]

theorem mem_groupPoints {z : K} {gt : List ((ℤ × ℤ) × Entry K)} {g : ℤ} {q : GroupPoint K} :
    q ∈ groupPoints z gt g ↔ ∃ en, ((g, q.time), en) ∈ gt ∧ q.effect = en.effect ∧
      q.low = Ext.sub en.effect (Ext.sub en.effect (Ext.mul (.fin z) en.se)) ∧
      q.up = Ext.sub (Ext.add en.effect (Ext.mul (.fin z) en.se)) en.effect := by
  unfold groupPoints
  rw [List.mem_map]
  constructor
  · rintro ⟨x, hx, rfl⟩
    obtain ⟨h1, h2⟩ := List.mem_filter.1 ((List.mem_insertionSort _).1 hx)
    obtain ⟨⟨g', t⟩, en⟩ := x
    simp only [decide_eq_true_eq] at h2
    subst h2
    exact ⟨en, h1, rfl, rfl, rfl⟩
  · rintro ⟨en, h1, h2, h3, h4⟩
    refine ⟨((g, q.time), en), (List.mem_insertionSort _).2 (List.mem_filter.2 ⟨h1, by simp⟩), ?_⟩
    cases q
    simp_all

/-- C133. Group effects: the call succeeds for every result with group-time effects. The lines drawn are those of the requested cohorts
that have effects, in the requested order. -/
theorem C133_groups_lines (z : K) (hz : 0 < z) (gt : List ((ℤ × ℤ) × Entry K)) (hse : ∀ x ∈ gt, GoodSe x.2.se) (groups : Option (List ℤ)) :
    ∃ ls, plotGroups z (some gt) groups = .ok ls ∧
      ls.map GroupLine.group = (groups.getD (defaultGroups gt)).filter (fun g => gt.any (fun x => decide (x.1.1 = g))) ∧
      ∀ l ∈ ls, l.points = groupPoints z gt l.group := by
  have hbar : ∀ g, ∀ q ∈ groupPoints z gt g, barOk q.low = true ∧ barOk q.up = true := by
    intro g q hq
    obtain ⟨en, h1, h2, h3, h4⟩ := mem_groupPoints.1 hq
    rw [h3, h4]
    exact barOk_std hz _ _ (hse _ h1)
  have hemp : ∀ g, (groupPoints z gt g).isEmpty = !(gt.any (fun x => decide (x.1.1 = g))) := by
    intro g
    cases ha : gt.any (fun x => decide (x.1.1 = g)) with
    | true =>
      obtain ⟨⟨⟨g', t⟩, en⟩, h1, h2⟩ := List.any_eq_true.1 ha
      simp only [decide_eq_true_eq] at h2
      subst h2
      have : (⟨t, en.effect, _, _⟩ : GroupPoint K) ∈ groupPoints z gt g' := mem_groupPoints.2 ⟨en, h1, rfl, rfl, rfl⟩
      have hne := List.ne_nil_of_mem this
      simpa using hne
    | false =>
      have : groupPoints z gt g = [] := by
        rw [List.eq_nil_iff_forall_not_mem]
        intro q hq
        obtain ⟨en, h1, -⟩ := mem_groupPoints.1 hq
        have := List.any_eq_false.1 ha _ h1
        simp at this
      simp [this]
  simp only [plotGroups]
  set gs := groups.getD (defaultGroups gt)
  set ls := gs.zipIdx.filterMap (fun x =>
      if (groupPoints z gt x.1).isEmpty then none else some (⟨x.1, colour gs.length x.2, groupPoints z gt x.1⟩ : GroupLine K)) with hls
  have hmem : ∀ l ∈ ls, l.points = groupPoints z gt l.group := by
    intro l hl
    rw [hls] at hl
    obtain ⟨x, -, hx⟩ := List.mem_filterMap.1 hl
    split_ifs at hx
    cases hx
    rfl
  refine ⟨ls, ?_, ?_, hmem⟩
  · rw [if_pos]
    refine List.all_eq_true.2 (fun l hl => List.all_eq_true.2 (fun q hq => ?_))
    rw [hmem l hl] at hq
    obtain ⟨a, b⟩ := hbar _ q hq
    simp [a, b]
  · rw [hls]
    generalize gs.length = n
    generalize gs = gs'
    have key : ∀ k, ((gs'.zipIdx k).filterMap (fun x =>
        if (groupPoints z gt x.1).isEmpty then none else some (⟨x.1, colour n x.2, groupPoints z gt x.1⟩ : GroupLine K))).map GroupLine.group =
        gs'.filter (fun g => gt.any (fun x => decide (x.1.1 = g))) := by
      induction gs' with
      | nil => intro k; rfl
      | cons g gs' ih =>
        intro k
        rw [List.zipIdx_cons, List.filterMap_cons, List.filter_cons]
        cases ha : gt.any (fun x => decide (x.1.1 = g)) with
        | true =>
          have hg : (groupPoints z gt g).isEmpty = false := by rw [hemp, ha]; rfl
          simp only [hg, Bool.false_eq_true, if_false, if_true, List.map_cons, ih]
        | false =>
          have hg : (groupPoints z gt g).isEmpty = true := by rw [hemp, ha]; rfl
          simp only [hg, Bool.false_eq_true, if_false, if_true, ih]
    exact key 0

/-- C133. By default every cohort with effects is requested, once each, in increasing order. -/
theorem C133_groups_default (gt : List ((ℤ × ℤ) × Entry K)) :
    (defaultGroups gt).Pairwise (· < ·) ∧ ∀ g, g ∈ defaultGroups gt ↔ ∃ t en, ((g, t), en) ∈ gt := by
  have hle : (defaultGroups gt).Pairwise (· ≤ ·) := List.pairwise_insertionSort _ _
  have hnd : (defaultGroups gt).Nodup := (List.perm_insertionSort _ _).nodup_iff.2 (List.nodup_dedup _)
  refine ⟨(hle.and hnd).imp (fun h => lt_of_le_of_ne h.1 h.2), fun g => ?_⟩
  unfold defaultGroups
  rw [List.mem_insertionSort, List.mem_dedup, List.mem_map]
  constructor
  · rintro ⟨⟨⟨g', t⟩, en⟩, h, rfl⟩; exact ⟨t, en, h⟩
  · rintro ⟨t, en, h⟩; exact ⟨_, h, rfl⟩

/-- C133. A cohort's line goes through exactly its group-time effects, in increasing order of time, each with bars of length `z·se` on
both sides. -/
theorem C133_groups_points (z : K) (gt : List ((ℤ × ℤ) × Entry K)) (hd : (gt.map Prod.fst).Nodup) (g : ℤ) :
    ((groupPoints z gt g).map GroupPoint.time).Pairwise (· < ·) ∧
    (∀ t e, (∃ q ∈ groupPoints z gt g, q.time = t ∧ q.effect = e) ↔ ∃ en, ((g, t), en) ∈ gt ∧ en.effect = e) ∧
    ∀ q ∈ groupPoints z gt g, ∀ e s n, ((g, q.time), (⟨.fin e, .fin s, n⟩ : Entry K)) ∈ gt → q.low = .fin (z * s) ∧ q.up = .fin (z * s) := by
  refine ⟨?_, ?_, ?_⟩
  · have hle : ((groupPoints z gt g).map GroupPoint.time).Pairwise (· ≤ ·) := by
      unfold groupPoints
      rw [List.map_map, List.pairwise_map]
      exact List.pairwise_insertionSort _ _
    have hnd : ((groupPoints z gt g).map GroupPoint.time).Nodup := by
      unfold groupPoints
      rw [List.map_map]
      refine ((List.perm_insertionSort _ _).map _).nodup_iff.2 ?_
      refine List.Nodup.map_on ?_ (List.Nodup.filter _ (List.Nodup.of_map _ hd))
      rintro ⟨⟨g1, t1⟩, e1⟩ h1 ⟨⟨g2, t2⟩, e2⟩ h2 ht
      obtain ⟨m1, k1⟩ := List.mem_filter.1 h1
      obtain ⟨m2, k2⟩ := List.mem_filter.1 h2
      simp only [decide_eq_true_eq] at k1 k2
      subst k1
      subst k2
      simp only [Function.comp] at ht
      subst ht
      exact List.inj_on_of_nodup_map hd m1 m2 rfl
    exact (hle.and hnd).imp (fun h => lt_of_le_of_ne h.1 h.2)
  · intro t e
    constructor
    · rintro ⟨q, hq, rfl, rfl⟩
      obtain ⟨en, h1, h2, -⟩ := mem_groupPoints.1 hq
      exact ⟨en, h1, h2.symm⟩
    · rintro ⟨en, h1, rfl⟩
      exact ⟨⟨t, en.effect, _, _⟩, mem_groupPoints.2 ⟨en, h1, rfl, rfl, rfl⟩, rfl, rfl⟩
  · intro q hq e s n hm
    obtain ⟨en, h1, h2, h3, h4⟩ := mem_groupPoints.1 hq
    have : en = ⟨.fin e, .fin s, n⟩ := by
      have := List.inj_on_of_nodup_map hd h1 hm rfl
      simpa using this
    subst this
    rw [h3, h4]
    simp only [Ext.sub, Ext.mul, Ext.neg, Ext.add, Ext.fin.injEq]
    constructor <;> ring

/-- C133, as promised, is refuted: "the bars are the confidence intervals of the results". The plot uses its own level (5 % unless
given), so results fitted at a level with another critical value `z'` show other intervals than they report. -/
theorem C133_groups_level_refuted (z z' s e : K) (hz : 0 < z) (hz' : z ≠ z') (hs : 0 < s) (g t : ℤ) :
    plotGroups z (some [((g, t), ⟨.fin e, .fin s, none⟩)]) none = .ok [⟨g, 0, [⟨t, .fin e, .fin (z * s), .fin (z * s)⟩]⟩] ∧
      (e - z * s, e + z * s) ≠ (e - z' * s, e + z' * s) := by
  constructor
  · have h0 : ¬ z * s < 0 := not_lt.2 (mul_pos hz hs).le
    simp [plotGroups, defaultGroups, groupPoints, colour, barOk, Ext.sub, Ext.mul, Ext.neg, Ext.add, Ext.lt, h0]
  · intro h
    simp only [Prod.mk.injEq] at h
    apply hz'
    have : z * s = z' * s := by linarith [h.2]
    exact mul_right_cancel₀ hs.ne' this

/-- Two cohorts, entries out of order; the requested cohort 9 has no effects and is skipped. -/
def twoCohorts : List ((ℤ × ℤ) × Entry ℚ) :=
  [((4, 5), ⟨.fin 3, .fin 1, none⟩), ((4, 4), ⟨.fin 1, .nan, none⟩), ((3, 4), ⟨.fin 2, .fin 1, none⟩)]

example : ((plotGroups 2 (some twoCohorts) (some [4, 9, 3])).toOption.getD []).map (fun l => (l.group, l.colour)) = [(4, 0), (3, 9)] ∧
    (groupPoints 2 twoCohorts 4).map (fun q => (q.time, q.up)) = [(4, .nan), (5, .fin 2)] := by
  refine ⟨by decide +kernel, by decide +kernel⟩

/-! ### Goodman-Bacon decomposition -/

open Bacon (Kind Comp Results)

theorem filter_split (l : List (Comp K)) :
    (l.filter (fun c => decide (c.kind = .treatedVsNever)) ++ (l.filter (fun c => decide (c.kind = .earlierVsLater))
      ++ l.filter (fun c => decide (c.kind = .laterVsEarlier)))).Perm l := by
  refine List.Perm.trans (List.Perm.append_left _ ?_) (List.filter_append_perm (fun c => decide (c.kind = .treatedVsNever)) l)
  refine List.Perm.trans ?_ (List.filter_append_perm (fun c => decide (c.kind = .earlierVsLater)) _)
  rw [List.filter_filter, List.filter_filter]
  refine List.Perm.append (List.Perm.of_eq (List.filter_congr ?_)) (List.Perm.of_eq (List.filter_congr ?_))
  · intro c _
    cases c.kind <;> decide
  · intro c _
    cases c.kind <;> decide

theorem scatter_ok {r : Results K} {colours : Kind → Bool} {a t : Bool} {f : Scatter K} (h : scatter r colours a t = .ok f) :
    f = { clouds := (kinds.filter (fun k => !(cloud r k).isEmpty)).map (fun k => (k, cloud r k))
          averages := if a then (kinds.filter (fun k => !(cloud r k).isEmpty)).filterMap (fun k => (r.averages k).map (fun v => (k, v))) else []
          twfe := if t then some r.twfe else none } := by
  simp only [scatter] at h
  by_cases hc : (kinds.filter (fun k => !(cloud r k).isEmpty)).all colours = true
  · rw [if_pos hc] at h
    exact (Except.ok.inj h).symm
  · rw [if_neg hc] at h
    cases h

/-- C133. The scatter plot shows every comparison exactly once, at (estimate, weight), in the colour of its type. -/
theorem C133_bacon_points (r : Results K) (colours : Kind → Bool) (a t : Bool) (f : Scatter K) (h : scatter r colours a t = .ok f) :
    ((f.clouds.map Prod.snd).flatten).Perm (r.comparisons.map (fun c => (c.estimate, c.weight))) ∧
    (f.clouds.map Prod.fst).Nodup ∧
    ∀ k pts, (k, pts) ∈ f.clouds → pts = (r.comparisons.filter (fun c => decide (c.kind = k))).map (fun c => (c.estimate, c.weight)) ∧
      colours k = true := by
  have hf := scatter_ok h
  refine ⟨?_, ?_, ?_⟩
  · have e : (f.clouds.map Prod.snd).flatten = cloud r .treatedVsNever ++ (cloud r .earlierVsLater ++ cloud r .laterVsEarlier) := by
      rw [hf]
      simp only [kinds]
      cases h1 : cloud r .treatedVsNever <;> cases h2 : cloud r .earlierVsLater <;> cases h3 : cloud r .laterVsEarlier <;>
        simp [List.filter_cons, h1, h2, h3]
    rw [e]
    unfold cloud
    rw [← List.map_append, ← List.map_append]
    exact (filter_split r.comparisons).map _
  · rw [hf]
    simp only [List.map_map]
    change ((kinds.filter _).map id).Nodup
    rw [List.map_id]
    exact List.Nodup.filter _ (by decide)
  · intro k pts hk
    rw [hf] at hk
    obtain ⟨k', hk', e⟩ := List.mem_map.1 hk
    simp only [Prod.mk.injEq] at e
    obtain ⟨rfl, rfl⟩ := e
    refine ⟨rfl, ?_⟩
    simp only [scatter] at h
    split_ifs at h with hc
    all_goals exact List.all_eq_true.1 hc _ hk'

variable {n : ℕ}

/-- C133. The scatter plot of a decomposition fails exactly when the colours lack a type that has comparisons. With finite estimates the
dashed lines are the weighted averages of the points of their type, one for each type that has points. -/
theorem C133_bacon_averages (m : Bacon.WeightMode) (P : Bacon.Panel n K) (colours : Kind → Bool) (t : Bool)
    (hs : ∀ c ∈ (Bacon.fit m P).comparisons, c.estimate.isSome) :
    ((∃ f, scatter (Bacon.fit m P) colours true t = .ok f) ↔ ∀ c ∈ (Bacon.fit m P).comparisons, colours c.kind = true) ∧
    ∀ f, scatter (Bacon.fit m P) colours true t = .ok f →
      (∀ k, (∃ pts, (k, pts) ∈ f.clouds) ↔ ∃ v, (k, v) ∈ f.averages) ∧
      ∀ k v, (k, v) ∈ f.averages → ∃ x, v = some x ∧
        ∃ pts, (k, pts) ∈ f.clouds ∧ x * (pts.map (fun p => p.2)).sum = (pts.map (fun p => p.2 * p.1.getD 0)).sum := by
  have hne : ∀ k, (cloud (Bacon.fit m P) k).isEmpty = false ↔ ∃ c ∈ (Bacon.fit m P).comparisons, c.kind = k := by
    intro k
    unfold cloud
    rw [List.isEmpty_eq_false_iff, ne_eq, List.map_eq_nil_iff, List.filter_eq_nil_iff]
    push Not
    simp
  have hall : ∀ k : Kind, k ∈ kinds := by intro k; cases k <;> simp [kinds]
  constructor
  · constructor
    · rintro ⟨f, h⟩ c hc
      simp only [scatter] at h
      by_cases hc' : (kinds.filter (fun k => !(cloud (Bacon.fit m P) k).isEmpty)).all colours = true
      swap
      · rw [if_neg hc'] at h
        cases h
      refine List.all_eq_true.1 hc' _ (List.mem_filter.2 ⟨hall _, ?_⟩)
      rw [(hne c.kind).2 ⟨c, hc, rfl⟩]
      rfl
    · intro h
      simp only [scatter]
      rw [if_pos]
      · exact ⟨_, rfl⟩
      · refine List.all_eq_true.2 (fun k hk => ?_)
        obtain ⟨-, hk⟩ := List.mem_filter.1 hk
        simp only [Bool.not_eq_eq_eq_not, Bool.not_true] at hk
        obtain ⟨c, hc, rfl⟩ := (hne k).1 hk
        exact h c hc
  · intro f h
    have hf := scatter_ok h
    rw [if_pos rfl] at hf
    have hc : ∀ k pts, (k, pts) ∈ f.clouds ↔ (cloud (Bacon.fit m P) k).isEmpty = false ∧ pts = cloud (Bacon.fit m P) k := by
      intro k pts
      rw [hf]
      simp only [List.mem_map, List.mem_filter, Prod.mk.injEq]
      constructor
      · rintro ⟨k', ⟨-, h1⟩, rfl, rfl⟩; exact ⟨by simpa using h1, rfl⟩
      · rintro ⟨h1, rfl⟩; exact ⟨k, ⟨hall k, by simpa using h1⟩, rfl, rfl⟩
    have ha : ∀ k v, (k, v) ∈ f.averages ↔ (cloud (Bacon.fit m P) k).isEmpty = false ∧ (Bacon.fit m P).averages k = some v := by
      intro k v
      rw [hf]
      simp only [List.mem_filterMap, List.mem_filter, Option.map_eq_some_iff, Prod.mk.injEq]
      constructor
      · rintro ⟨k', ⟨-, h1⟩, v', h2, rfl, rfl⟩; exact ⟨by simpa using h1, h2⟩
      · rintro ⟨h1, h2⟩; exact ⟨k, ⟨hall k, by simpa using h1⟩, v, h2, rfl, rfl⟩
    have havg := fun k (hk : (cloud (Bacon.fit m P) k).isEmpty = false) =>
      Bacon.C31_type_average m P k ((hne k).1 hk) (fun c hc _ => hs c hc)
    refine ⟨fun k => ⟨?_, ?_⟩, ?_⟩
    · rintro ⟨pts, hk⟩
      obtain ⟨h1, -⟩ := (hc k pts).1 hk
      obtain ⟨v, hv, -⟩ := havg k h1
      exact ⟨some v, (ha k _).2 ⟨h1, hv⟩⟩
    · rintro ⟨v, hk⟩
      exact ⟨_, (hc k _).2 ⟨((ha k v).1 hk).1, rfl⟩⟩
    · intro k v hk
      obtain ⟨h1, h2⟩ := (ha k v).1 hk
      obtain ⟨x, hx, hw, -⟩ := havg k h1
      rw [h2] at hx
      cases hx
      refine ⟨x, rfl, _, (hc k _).2 ⟨h1, rfl⟩, ?_⟩
      have e1 : ((cloud (Bacon.fit m P) k).map (fun p => p.2)).sum = (Bacon.fit m P).totalWeights k := by
        unfold cloud
        rw [List.map_map]
        rfl
      have e2 : ((cloud (Bacon.fit m P) k).map (fun p => p.2 * p.1.getD 0)).sum =
          (((Bacon.fit m P).comparisons.filter (fun c => decide (c.kind = k))).map (fun c => c.weight * c.estimate.getD 0)).sum := by
        unfold cloud
        rw [List.map_map]
        rfl
      rw [e1, e2, hw]

/-- C133. The bar chart of a decomposition has the three types in a fixed order, with heights that are not negative and add up to one (so
every bar fits under the axis limit 1.1); the percentage and the type's average are written on exactly the bars above one per cent. -/
theorem C133_bacon_bars (m : Bacon.WeightMode) (P : Bacon.Panel n K) (hne : (Bacon.fit m P).comparisons ≠ []) (colours : Kind → Bool)
    (hc : ∀ k, colours k = true) :
    ∃ bs, bars (Bacon.fit m P) colours = .ok bs ∧ bs.map Bar.kind = [.treatedVsNever, .earlierVsLater, .laterVsEarlier] ∧
      (bs.map Bar.height).sum = 1 ∧
      ∀ b ∈ bs, 0 ≤ b.height ∧ b.height ≤ 1 ∧ (b.labelled = true ↔ 1 / 100 < b.height) ∧
        (∀ v, b.effect = some v ↔ 1 / 100 < b.height ∧ (Bacon.fit m P).averages b.kind = some v) ∧
        b.height = (((Bacon.fit m P).comparisons.filter (fun c => decide (c.kind = b.kind))).map (fun c => c.weight)).sum := by
  have hsum := Bacon.C31_types_sum_one m P hne
  have h0 : ∀ k, 0 ≤ (Bacon.fit m P).totalWeights k := by
    intro k
    change 0 ≤ Bacon.typeWeight (Bacon.fit m P).comparisons k
    unfold Bacon.typeWeight Bacon.totalWeight
    refine List.sum_nonneg ?_
    intro x hx
    obtain ⟨c, hc, rfl⟩ := List.mem_map.1 hx
    exact (Bacon.C31_weights_positive m P c (List.mem_filter.1 hc).1).le
  have h1 : ∀ k, (Bacon.fit m P).totalWeights k ≤ 1 := by
    intro k
    have a := h0 .treatedVsNever
    have b := h0 .earlierVsLater
    have c := h0 .laterVsEarlier
    cases k <;> linarith
  unfold bars
  rw [if_pos (List.all_eq_true.2 (fun k _ => hc k))]
  refine ⟨_, rfl, rfl, ?_, ?_⟩
  · simp only [kinds, List.map_cons, List.map_nil, List.sum_cons, List.sum_nil, add_zero]
    linarith
  · intro b hb
    obtain ⟨k, -, rfl⟩ := List.mem_map.1 hb
    refine ⟨h0 k, h1 k, by simp, fun v => ?_, rfl⟩
    by_cases hk : 1 / 100 < (Bacon.fit m P).totalWeights k
    · simp only [hk, if_true, true_and]
    · simp only [hk, if_false, reduceCtorEq, false_and]

/-- C133. The bar chart needs a colour for all three types, even for types without comparisons. -/
theorem C133_bacon_colours (r : Results K) (colours : Kind → Bool) (k : Kind) (h : colours k = false) : bars r colours = .error .keyError := by
  unfold bars
  rw [if_neg]
  intro hc
  have : k ∈ kinds := by cases k <;> simp [kinds]
  rw [List.all_eq_true.1 hc k this] at h
  cases h

/-- C133. The summary of a decomposition: one row for each type that has comparisons, whose contribution is weight times average; the
weights add up to the printed total, which is one; with finite estimates the contributions add up to the printed weighted sum; the warning appears exactly when the forbidden comparisons
have more than one per cent of the weight. -/
theorem C133_bacon_summary (m : Bacon.WeightMode) (P : Bacon.Panel n K) (hne : (Bacon.fit m P).comparisons ≠ [])
    (hs : ∀ c ∈ (Bacon.fit m P).comparisons, c.estimate.isSome) :
    (∀ k, (∃ row ∈ (summary (Bacon.fit m P)).rows, row.kind = k) ↔ ∃ c ∈ (Bacon.fit m P).comparisons, c.kind = k) ∧
    ((summary (Bacon.fit m P)).warned = true ↔
      1 / 100 < (((Bacon.fit m P).comparisons.filter (fun c => decide (c.kind = .laterVsEarlier))).map (fun c => c.weight)).sum) ∧
    (summary (Bacon.fit m P)).totalWeight = 1 ∧
    ((summary (Bacon.fit m P)).rows.map TypeRow.weight).sum = 1 ∧
    (∀ row ∈ (summary (Bacon.fit m P)).rows, ∃ v, row.average = some v ∧ row.contribution = some (row.weight * v)) ∧
    ∃ S, (summary (Bacon.fit m P)).weightedSum = some S ∧
      ((summary (Bacon.fit m P)).rows.map (fun row => row.contribution.getD 0)).sum = S := by
  have hwpos : ∀ k, 0 < (Bacon.fit m P).totalWeights k ↔ ∃ c ∈ (Bacon.fit m P).comparisons, c.kind = k := by
    intro k
    constructor
    · intro h
      by_contra hc
      push Not at hc
      rw [(Bacon.C31_type_absent m P k hc).1] at h
      exact lt_irrefl _ h
    · rintro ⟨c, hc, rfl⟩
      change 0 < Bacon.totalWeight ((Bacon.fit m P).comparisons.filter (fun d => decide (d.kind = c.kind)))
      refine Bacon.sum_pos_of_pos (fun d hd => Bacon.C31_weights_positive m P d (List.mem_filter.1 hd).1) ?_
      exact List.ne_nil_of_mem (List.mem_filter.2 ⟨hc, by simp⟩)
  have hall : ∀ k : Kind, k ∈ kinds := by intro k; cases k <;> simp [kinds]
  have havg := fun k (hk : 0 < (Bacon.fit m P).totalWeights k) =>
    Bacon.C31_type_average m P k ((hwpos k).1 hk) (fun c hc _ => hs c hc)
  have h0 : ∀ k, ¬ 0 < (Bacon.fit m P).totalWeights k → (Bacon.fit m P).totalWeights k = 0 ∧
      (((Bacon.fit m P).comparisons.filter (fun c => decide (c.kind = k))).map (fun c => c.weight * c.estimate.getD 0)).sum = 0 := by
    intro k hk
    rw [hwpos] at hk
    push Not at hk
    refine ⟨(Bacon.C31_type_absent m P k hk).1, ?_⟩
    have : (Bacon.fit m P).comparisons.filter (fun c => decide (c.kind = k)) = [] := by
      rw [List.filter_eq_nil_iff]
      intro c hc
      simpa using hk c hc
    rw [this]
    rfl
  refine ⟨?_, decide_eq_true_iff, Bacon.C31_sum_one m P hne, ?_, ?_, ?_⟩
  · intro k
    rw [← hwpos]
    simp only [summary, List.mem_map, List.mem_filter, decide_eq_true_eq]
    constructor
    · rintro ⟨row, ⟨k', ⟨-, h⟩, rfl⟩, rfl⟩; exact h
    · intro h; exact ⟨_, ⟨k, ⟨hall k, h⟩, rfl⟩, rfl⟩
  · have key : ∀ ks : List Kind, (((ks.filter (fun k => decide (0 < (Bacon.fit m P).totalWeights k))).map
        (fun k => (Bacon.fit m P).totalWeights k))).sum = (ks.map (fun k => (Bacon.fit m P).totalWeights k)).sum := by
      intro ks
      induction ks with
      | nil => rfl
      | cons k ks ih =>
        rw [List.filter_cons]
        by_cases hk : 0 < (Bacon.fit m P).totalWeights k
        · simp [hk, ih]
        · simp [hk, ih, (h0 k hk).1]
    simp only [summary, List.map_map]
    refine (key kinds).trans ?_
    simp only [kinds, List.map_cons, List.map_nil, List.sum_cons, List.sum_nil, add_zero]
    linarith [Bacon.C31_types_sum_one m P hne]
  · intro row hr
    simp only [summary, List.mem_map, List.mem_filter, decide_eq_true_eq] at hr
    obtain ⟨k, ⟨-, hk⟩, rfl⟩ := hr
    obtain ⟨v, hv, -⟩ := havg k hk
    exact ⟨v, by simp [hv], by simp [hv]⟩
  · refine ⟨_, Bacon.weightedSum_some hs, ?_⟩
    have key : ∀ ks : List Kind, (((ks.filter (fun k => decide (0 < (Bacon.fit m P).totalWeights k))).map
        (fun k => ((((Bacon.fit m P).averages k).getD (some 0)).map (fun v => (Bacon.fit m P).totalWeights k * v)).getD 0))).sum =
        (ks.map (fun k => (((Bacon.fit m P).comparisons.filter (fun c => decide (c.kind = k))).map
          (fun c => c.weight * c.estimate.getD 0)).sum)).sum := by
      intro ks
      induction ks with
      | nil => rfl
      | cons k ks ih =>
        rw [List.filter_cons]
        by_cases hk : 0 < (Bacon.fit m P).totalWeights k
        · obtain ⟨v, hv, hw, -⟩ := havg k hk
          simp only [hk, decide_true, if_true, List.map_cons, List.sum_cons, ih, hv, Option.getD_some, Option.map_some, ← hw]
          ring
        · simp only [hk, decide_false, Bool.false_eq_true, if_false, ih, List.map_cons, List.sum_cons, (h0 k hk).2, zero_add]
    simp only [summary, List.map_map]
    refine (key kinds).trans ?_
    have hp := ((filter_split (Bacon.fit m P).comparisons).map (fun c => c.weight * c.estimate.getD 0)).sum_eq
    rw [← hp]
    simp only [kinds, List.map_cons, List.map_nil, List.sum_cons, List.sum_nil, add_zero, List.map_append, List.sum_append]

/-- The demo decomposition meets the conditions: four comparisons with finite estimates. -/
example : (Bacon.fit .exact Bacon.demo).comparisons ≠ [] ∧ (∀ c ∈ (Bacon.fit .exact Bacon.demo).comparisons, c.estimate.isSome) ∧
    (summary (Bacon.fit .exact Bacon.demo)).rows.map TypeRow.kind = [.treatedVsNever, .earlierVsLater, .laterVsEarlier] := by
  refine ⟨?_, by decide +kernel, by decide +kernel⟩
  intro h
  have : ((Bacon.fit .exact Bacon.demo).comparisons.length = 0) := by rw [h]; rfl
  revert this
  decide +kernel

end DiffDiff.PlotMore
