/-
Property C154: HonestDiD in other units of the outcome, with the opposite sign of all effects, and with the event study
listed in another order.
-/
import Verif.HonestSens
import Verif.HonestSdProps
import Mathlib.Analysis.Real.Sqrt
import Mathlib.Tactic.Positivity
import Mathlib.Tactic.Linarith

set_option linter.unusedSectionVars false
set_option linter.unusedVariables false

namespace DiffDiff.HonestDid
open MultiPeriod (Col)
open scoped List

section
variable {K : Type*} [Field K] [LinearOrder K] [IsStrictOrderedRing K]

/-! ### Other units, opposite sign -/

/-- A number in units multiplied by a positive `c`. -/
def times (c : K) : Ext K → Ext K
  | .fin x => .fin (c * x)
  | e => e

def Bounds.inUnits (c : K) (b : Bounds K) : Bounds K := ⟨times c b.lb, times c b.ub, times c b.ciLb, times c b.ciUb⟩

def Result.inUnits (c : K) (r : Result K) : Result K := ⟨c * r.estimate, c * r.se, r.bounds.inUnits c⟩

/-- Reflection at zero. -/
def Bounds.mirror (b : Bounds K) : Bounds K := ⟨b.ub.neg, b.lb.neg, b.ciUb.neg, b.ciLb.neg⟩

def Result.mirror (r : Result K) : Result K := ⟨-r.estimate, r.se, r.bounds.mirror⟩

/-- MultiPeriodDiD results when the outcome is measured in other units. -/
def Multi.inUnits (c : K) (r : Multi K) : Multi K :=
  { r with effect := fun p => c * r.effect p, vcov := fun i j => c ^ 2 * r.vcov i j, avgSe := r.avgSe.map (c * ·)
           coef := fun x => c * r.coef x }

/-- CallawaySantAnna results when the outcome is measured in other units. -/
def Cs.inUnits (c : K) (r : Cs K) : Cs K :=
  { events := r.events.map (List.map (fun e => { e with effect := c * e.effect, se := e.se.map (c * ·) }))
    overallSe := c * r.overallSe }

/-- Results for the outcome with the opposite sign. -/
def Multi.mirror (r : Multi K) : Multi K := { r with effect := fun p => -r.effect p, coef := fun x => -r.coef x }

def Cs.mirror (r : Cs K) : Cs K := { r with events := r.events.map (List.map (fun e => { e with effect := -e.effect })) }

/-- A square root commutes with squared positive factors. -/
def RootOf (root : K → K) : Prop := ∀ c x, 0 < c → root (c ^ 2 * x) = c * root x

theorem rootOf_sqrt : RootOf Real.sqrt := fun c x hc => by rw [Real.sqrt_mul (by positivity), Real.sqrt_sq hc.le]

/-! ### Pieces -/

theorem dot_scale (c : K) : ∀ l b : List K, dot l (b.map (c * ·)) = c * dot l b
  | [], b => by simp [dot]
  | x :: l, [] => by simp [dot]
  | x :: l, y :: b => by
    have := dot_scale c l b
    simp only [dot, List.map_cons, List.zipWith_cons_cons, List.sum_cons] at this ⊢
    rw [this]; ring

theorem dot_mirror : ∀ l b : List K, dot l (b.map (fun x => -x)) = -dot l b
  | [], b => by simp [dot]
  | x :: l, [] => by simp [dot]
  | x :: l, y :: b => by
    have := dot_mirror l b
    simp only [dot, List.map_cons, List.zipWith_cons_cons, List.sum_cons] at this ⊢
    rw [this]; ring

theorem quad_scale (c : K) (l : List K) (f : ℕ → ℕ → K) : quad l (fun i j => c * f i j) = c * quad l f := by
  unfold quad
  rw [← List.sum_map_mul_left]
  congr 1
  refine List.map_congr_left (fun i _ => ?_)
  rw [← List.sum_map_mul_left]
  congr 1
  exact List.map_congr_left (fun j _ => by ring)

/-- Study with coefficients transformed by `f` and covariances by `g`. -/
def Study.change (f g : K → K) (s : Study K) : Study K := { s with beta := s.beta.map f, sigma := fun i j => g (s.sigma i j) }

theorem betaPost_change (f g : K → K) (s : Study K) : betaPost (s.change f g) = (betaPost s).map f := by
  simp only [betaPost, Study.change, List.length_map]
  by_cases h1 : s.beta.length = s.nPost
  · rw [if_pos h1, if_pos h1]
  · rw [if_neg h1, if_neg h1]
    by_cases h2 : s.beta.length = s.nPre + s.nPost
    · rw [if_pos h2, if_pos h2, List.map_drop]
    · rw [if_neg h2, if_neg h2]

theorem nPost_change (f g : K → K) (s : Study K) : nPost' (s.change f g) = nPost' s := by
  simp only [nPost', Study.change, List.length_map]

theorem sigmaPost_change (f g : K → K) (s : Study K) : sigmaPost (s.change f g) = fun i j => g (sigmaPost s i j) := by
  have : offset (s.change f g) = offset s := by
    simp only [offset, nPost_change, betaPost_change, List.length_map]
    rfl
  funext i j
  simp only [sigmaPost, this]
  rfl

theorem times_add (c : K) (a b : Ext K) : (times c a).add (times c b) = times c (a.add b) := by
  cases a <;> cases b <;> simp [times, Ext.add, mul_add]

theorem times_neg (c : K) (a : Ext K) : (times c a).neg = times c a.neg := by cases a <;> simp [times, Ext.neg]

theorem neg_add (a b : Ext K) : (a.neg).add (b.neg) = (a.add b).neg := by
  cases a <;> cases b <;> simp [Ext.neg, Ext.add, add_comm]

theorem neg_neg' (a : Ext K) : a.neg.neg = a := by cases a <;> simp [Ext.neg]

theorem times_le (c : K) (hc : 0 < c) (a b : Ext K) : (times c a).le (times c b) = a.le b := by
  cases a <;> cases b <;> simp [times, Ext.le, mul_le_mul_iff_right₀ hc]

theorem times_lt (c : K) (hc : 0 < c) (a b : Ext K) : (times c a).lt (times c b) = a.lt b := by
  cases a <;> cases b <;> simp [times, Ext.lt, mul_lt_mul_iff_right₀ hc]

theorem neg_lt (a b : Ext K) : a.neg.lt b.neg = b.lt a := by cases a <;> cases b <;> simp [Ext.neg, Ext.lt]

theorem neg_le (a b : Ext K) : a.neg.le b.neg = b.le a := by cases a <;> cases b <;> simp [Ext.neg, Ext.le]

theorem includes_units (c : K) (hc : 0 < c) (b : Bounds K) : includesZero (b.inUnits c) = includesZero b := by
  have h := times_le c hc
  have e : (Ext.fin (0 : K)) = times c (.fin 0) := by simp [times]
  simp only [includesZero, Bounds.inUnits]
  conv_lhs => rw [e, h, h]

theorem includes_mirror (b : Bounds K) : includesZero b.mirror = includesZero b := by
  have e : (Ext.fin (0 : K)) = (Ext.fin 0).neg := by simp [Ext.neg]
  simp only [includesZero, Bounds.mirror]
  conv_lhs => rw [e, neg_le, neg_le]
  exact Bool.and_comm _ _

/-! ### Relative magnitudes -/

theorem rm_units (c : K) (hc : 0 < c) (z se : K) (beta l : List K) (mp : Option K) (M : K) :
    rmBounds z (c * se) (beta.map (c * ·)) l (mp.map (c * ·)) M = (rmBounds z se beta l mp M).inUnits c := by
  cases mp with
  | none => rfl
  | some m =>
    simp only [rmBounds, Option.map_some, dot_scale, mul_eq_zero, hc.ne', false_or]
    by_cases h : m = 0
    · simp only [if_pos h, Bounds.inUnits, times]; congr 2 <;> ring
    · simp only [if_neg h, Bounds.inUnits, times]; congr 2 <;> ring

theorem rm_mirror (z se : K) (beta l : List K) (mp : Option K) (M : K) :
    rmBounds z se (beta.map (fun x => -x)) l mp M = (rmBounds z se beta l mp M).mirror := by
  cases mp with
  | none => rfl
  | some m =>
    simp only [rmBounds, dot_mirror]
    by_cases h : m = 0
    · simp only [if_pos h, Bounds.mirror, Ext.neg]; congr 2 <;> ring
    · simp only [if_neg h, Bounds.mirror, Ext.neg]; congr 2 <;> ring

/-! ### Smoothness -/

theorem form_mul (T : ℕ) (c d : ℕ → K) (a : K) : form T c (fun j => a * d j) = a * form T c d := by
  unfold form
  rw [Finset.mul_sum]
  exact Finset.sum_congr rfl (fun j _ => by ring)

theorem feasible_mul (p : Lp K) (d : ℕ → K) (a : K) (ha : 0 < a) (h : Feasible p d) : Feasible { p with b := a * p.b } (fun j => a * d j) := by
  intro r hr
  have := h r hr
  show form p.T r (fun j => a * d j) ≤ a * p.b
  rw [form_mul]
  exact mul_le_mul_of_nonneg_left this ha.le

theorem least_mul (p : Lp K) (a : K) (ha : 0 < a) (v : K) (h : IsLeast {x | ∃ d, Feasible p d ∧ x = form p.T p.c d} v) :
    IsLeast {x | ∃ d, Feasible { p with b := a * p.b } d ∧ x = form p.T p.c d} (a * v) := by
  obtain ⟨⟨d, hd, hv⟩, hmin⟩ := h
  refine ⟨⟨fun j => a * d j, feasible_mul p d a ha hd, by rw [form_mul, hv]⟩, ?_⟩
  rintro x ⟨e, he, rfl⟩
  have h1 : Feasible p (fun j => a⁻¹ * e j) := by
    have := feasible_mul _ e a⁻¹ (inv_pos.mpr ha) he
    simpa [inv_mul_cancel_left₀ ha.ne'] using this
  have h2 := hmin ⟨_, h1, rfl⟩
  rw [form_mul] at h2
  have h3 := mul_le_mul_of_nonneg_left h2 ha.le
  rwa [mul_inv_cancel_left₀ ha.ne'] at h3

theorem solve_mul (solve : Lp K → Option K) (hs : Correct solve) (p : Lp K) (a : K) (ha : 0 < a) :
    solve { p with b := a * p.b } = (solve p).map (a * ·) := by
  cases h : solve p with
  | none =>
    have hn := (hs p).2 h
    cases h' : solve { p with b := a * p.b } with
    | none => rfl
    | some w =>
      exfalso
      have := least_mul _ a⁻¹ (inv_pos.mpr ha) w ((hs _).1 w h')
      refine hn ⟨a⁻¹ * w, ?_⟩
      simpa [inv_mul_cancel_left₀ ha.ne'] using this
  | some v =>
    have hv := least_mul p a ha v ((hs p).1 v h)
    cases h' : solve { p with b := a * p.b } with
    | none => exact absurd ⟨_, hv⟩ ((hs _).2 h')
    | some w => rw [((hs _).1 w h').unique hv]; rfl

theorem bounds_units (solve : Lp K → Option K) (hs : Correct solve) (c : K) (hc : 0 < c) (beta l : List K) (rows : List (ℕ → K)) (M : K) (n : ℕ) :
    solveBounds solve (beta.map (c * ·)) l rows (c * M) n =
      (times c (solveBounds solve beta l rows M n).1, times c (solveBounds solve beta l rows M n).2) := by
  unfold solveBounds
  by_cases h : rows.length = 0
  · rw [if_pos h, if_pos h]; rfl
  · rw [if_neg h, if_neg h]
    have e1 := solve_mul solve hs ⟨n + beta.length, objective n l, rows, M⟩ c hc
    have e2 := solve_mul solve hs ⟨n + beta.length, fun j => -objective n l j, rows, M⟩ c hc
    simp only at e1 e2
    simp only [List.length_map, dot_scale, e1, e2, ← times_add]
    cases solve ⟨n + beta.length, objective n l, rows, M⟩ <;>
      cases solve ⟨n + beta.length, fun j => -objective n l j, rows, M⟩ <;> simp [times]

theorem values_mirror (T : ℕ) (c : ℕ → K) (M : K) : Values T (fun j => -c j) M = Values T c M := by
  have one : ∀ (c : ℕ → K) x, x ∈ Values T c M → x ∈ Values T (fun j => -c j) M := by
    rintro c x ⟨d, hd, rfl⟩
    refine ⟨fun j => -d j, fun i hi => ?_, ?_⟩
    · have : dd (fun j => -d j) i = -dd d i := by unfold dd; ring
      rw [this, abs_neg]; exact hd i hi
    · unfold form; exact Finset.sum_congr rfl (fun j _ => by ring)
  ext x
  refine ⟨fun h => ?_, one c x⟩
  have := one _ x h
  simpa using this

theorem solve_mirror (solve : Lp K → Option K) (hs : Correct solve) (nPre nPost : ℕ) (c : ℕ → K) (M : K) :
    solve ⟨nPre + nPost, fun j => -c j, rowsSd nPre nPost, M⟩ = solve ⟨nPre + nPost, c, rowsSd nPre nPost, M⟩ := by
  have a := hs ⟨nPre + nPost, fun j => -c j, rowsSd nPre nPost, M⟩
  have b := hs ⟨nPre + nPost, c, rowsSd nPre nPost, M⟩
  simp only [values_eq, values_mirror] at a b
  cases ha : solve ⟨nPre + nPost, fun j => -c j, rowsSd nPre nPost, M⟩ with
  | none =>
    cases hb : solve ⟨nPre + nPost, c, rowsSd nPre nPost, M⟩ with
    | none => rfl
    | some v => exact absurd ⟨_, b.1 v hb⟩ (a.2 ha)
  | some v =>
    cases hb : solve ⟨nPre + nPost, c, rowsSd nPre nPost, M⟩ with
    | none => exact absurd ⟨_, a.1 v ha⟩ (b.2 hb)
    | some w => rw [(a.1 v ha).unique (b.1 w hb)]

theorem bounds_mirror (solve : Lp K → Option K) (hs : Correct solve) (beta l : List K) (M : K) (n : ℕ) :
    solveBounds solve (beta.map (fun x => -x)) l (rowsSd n beta.length) M n =
      ((solveBounds solve beta l (rowsSd n beta.length) M n).2.neg, (solveBounds solve beta l (rowsSd n beta.length) M n).1.neg) := by
  unfold solveBounds
  by_cases h : (rowsSd (K := K) n beta.length).length = 0
  · rw [if_pos h, if_pos h]; rfl
  · rw [if_neg h, if_neg h]
    simp only [List.length_map, dot_mirror, solve_mirror solve hs, ← neg_add]
    cases solve ⟨n + beta.length, objective n l, rowsSd n beta.length, M⟩ <;> simp [Ext.neg]

theorem flci_units (c : K) (hc : 0 < c) (z se : K) (lb ub : Ext K) :
    flci z (c * se) (times c lb) (times c ub) = (flci z se lb ub).map (fun p => (times c p.1, times c p.2)) := by
  have h : c * se ≤ 0 ↔ se ≤ 0 :=
    ⟨fun h => le_of_not_gt (fun h' => absurd (mul_pos hc h') (not_lt.2 h)), fun h => mul_nonpos_of_nonneg_of_nonpos hc.le h⟩
  unfold flci
  by_cases hse : se ≤ 0
  · rw [if_pos hse, if_pos (h.2 hse)]; rfl
  · rw [if_neg hse, if_neg (fun x => hse (h.1 x))]
    have e : Ext.fin (z * (c * se)) = times c (.fin (z * se)) := by simp only [times]; congr 1; ring
    simp only [e, Ext.sub, times_neg, times_add]; rfl

theorem flci_mirror (z se : K) (lb ub : Ext K) :
    flci z se ub.neg lb.neg = (flci z se lb ub).map (fun p => (p.2.neg, p.1.neg)) := by
  unfold flci
  by_cases hse : se ≤ 0
  · rw [if_pos hse, if_pos hse]; rfl
  · rw [if_neg hse, if_neg hse]
    simp only [Except.map, Ext.sub, ← neg_add, neg_neg']

theorem smooth_units (solve : Lp K → Option K) (hs : Correct solve) (c : K) (hc : 0 < c) (z se : K) (beta l : List K) (n : ℕ) (M : K) :
    smoothBounds solve z (c * se) (beta.map (c * ·)) l n (c * M) = (smoothBounds solve z se beta l n M).map (Bounds.inUnits c) := by
  simp only [smoothBounds, List.length_map, bounds_units solve hs c hc, flci_units c hc]
  cases flci z se (solveBounds solve beta l (rowsSd n beta.length) M n).1 (solveBounds solve beta l (rowsSd n beta.length) M n).2 <;> rfl

theorem smooth_mirror (solve : Lp K → Option K) (hs : Correct solve) (z se : K) (beta l : List K) (n : ℕ) (M : K) :
    smoothBounds solve z se (beta.map (fun x => -x)) l n M = (smoothBounds solve z se beta l n M).map Bounds.mirror := by
  simp only [smoothBounds, List.length_map, bounds_mirror solve hs, flci_mirror]
  cases flci z se (solveBounds solve beta l (rowsSd n beta.length) M n).1 (solveBounds solve beta l (rowsSd n beta.length) M n).2 <;> rfl

theorem max_mirror (a b : Ext K) : pyMax a.neg b.neg = (pyMin a b).neg := by
  unfold pyMax pyMin
  rw [neg_lt]
  cases b.lt a <;> rfl

theorem min_mirror (a b : Ext K) : pyMin a.neg b.neg = (pyMax a b).neg := by
  unfold pyMax pyMin
  rw [neg_lt]
  cases a.lt b <;> rfl

theorem combined_mirror (solve : Lp K → Option K) (hs : Correct solve) (z se : K) (beta l : List K) (n : ℕ) (mp : Option K) (M : K) :
    combinedBounds solve z se (beta.map (fun x => -x)) l n mp M = (combinedBounds solve z se beta l n mp M).map Bounds.mirror := by
  unfold combinedBounds
  rw [smooth_mirror solve hs]
  cases smoothBounds solve z se beta l n M with
  | error e => rfl
  | ok sd =>
    simp only [Except.map, rm_mirror]
    simp only [Bounds.mirror, max_mirror, min_mirror, neg_lt, dot_mirror]
    have key : ∀ p : Ext K × Ext K, (match flci z se p.2.neg p.1.neg with
        | .error e => (.error e : Except Err (Bounds K))
        | .ok c => .ok ⟨p.2.neg, p.1.neg, c.1, c.2⟩) =
        (match flci z se p.1 p.2 with
          | .error e => (.error e : Except Err (Bounds K))
          | .ok c => .ok ⟨p.1, p.2, c.1, c.2⟩).map Bounds.mirror := by
      intro p
      rw [flci_mirror]
      cases flci z se p.1 p.2 <;> rfl
    by_cases h : (pyMin sd.ub (rmBounds z se beta l mp M).ub).lt (pyMax sd.lb (rmBounds z se beta l mp M).lb) = true
    · rw [if_pos h, if_pos h]
      exact key (.fin (dot l beta), .fin (dot l beta))
    · rw [if_neg h, if_neg h]
      exact key (_, _)


/-! ### Whole fits -/

theorem fitStudy_units (method : Method) (solve : Lp K → Option K) (root : K → K) (hr : RootOf root) (z : K) (lvec : Option (List K)) (s : Study K)
    (mp : Option K) (c : K) (hc : 0 < c) (M M' : K)
    (hb : ∀ l, weights lvec (betaPost s).length = .ok l → bounds method solve z (c * root (quad l (sigmaPost s))) ((betaPost s).map (c * ·)) l s.nPre (mp.map (c * ·)) M' =
      (bounds method solve z (root (quad l (sigmaPost s))) (betaPost s) l s.nPre mp M).map (Bounds.inUnits c)) :
    fitStudy method solve root z lvec (s.change (c * ·) (c ^ 2 * ·)) (mp.map (c * ·)) M' =
      (fitStudy method solve root z lvec s mp M).map (Result.inUnits c) := by
  unfold fitStudy
  rw [betaPost_change, List.length_map, sigmaPost_change]
  cases hw : weights lvec (betaPost s).length with
  | error e => rfl
  | ok l =>
    simp only [quad_scale, hr c _ hc, dot_scale]
    have e : (s.change (c * ·) (c ^ 2 * ·)).nPre = s.nPre := rfl
    rw [e, hb l hw]
    cases bounds method solve z (root (quad l (sigmaPost s))) (betaPost s) l s.nPre mp M <;> rfl

theorem fitStudy_mirror (method : Method) (solve : Lp K → Option K) (root : K → K) (z : K) (lvec : Option (List K)) (s : Study K)
    (mp : Option K) (M : K)
    (hb : ∀ se beta l, bounds method solve z se (beta.map (fun x => -x)) l s.nPre mp M = (bounds method solve z se beta l s.nPre mp M).map Bounds.mirror) :
    fitStudy method solve root z lvec (s.change (fun x => -x) id) mp M = (fitStudy method solve root z lvec s mp M).map Result.mirror := by
  unfold fitStudy
  rw [betaPost_change, List.length_map, sigmaPost_change]
  cases weights lvec (betaPost s).length with
  | error e => rfl
  | ok l =>
    simp only [dot_mirror, id]
    have e : (s.change (fun x => -x) id).nPre = s.nPre := rfl
    have e2 : (fun i j => sigmaPost s i j) = sigmaPost s := rfl
    rw [e, e2, hb]
    cases bounds method solve z (root (quad l (sigmaPost s))) (betaPost s) l s.nPre mp M <;> rfl

theorem extractMulti_units (r : Multi K) (c : K) : extractMulti (r.inUnits c) = (extractMulti r).change (c * ·) (c ^ 2 * ·) := by
  simp only [extractMulti, Multi.inUnits, Study.change, List.map_map, Function.comp_def]

theorem extractMulti_mirror (r : Multi K) : extractMulti r.mirror = (extractMulti r).change (fun x => -x) id := by
  simp only [extractMulti, Multi.mirror, Study.change, List.map_map, Function.comp_def, id]

/-- Events with effect and standard error transformed. -/
def Event.change (f g : K → K) (e : Event K) : Event K := { e with effect := f e.effect, se := e.se.map g }

theorem kept_change (f g : K → K) (ev : List (Event K)) : keptEvents (ev.map (Event.change f g)) = (keptEvents ev).map (Event.change f g) := by
  unfold keptEvents
  rw [List.filter_map, List.map_insertionSort (fun a b : Event K => a.t ≤ b.t) (fun a b : Event K => a.t ≤ b.t)]
  · congr 2
    refine List.filter_congr (fun e _ => ?_)
    show (decide (0 < e.nGroups) && (e.se.map g).isSome) = _
    rw [Option.isSome_map]
  · intro a _ b _; rfl

theorem extract_change (f g : K → K) (h : K → K) (hh : ∀ x, g x ^ 2 = h (x ^ 2)) (h0 : h 0 = 0) (ev : List (Event K)) (o o' : K) :
    extractCs ⟨some (ev.map (Event.change f g)), o'⟩ = (extractCs ⟨some ev, o⟩).map (Study.change f h) := by
  simp only [extractCs, kept_change, Except.map, Study.change, List.map_map, List.length_map]
  congr 1
  have e1 : ∀ p : ℤ → Bool, ((keptEvents ev).map (Event.change f g)).filter (fun e => p e.t) = ((keptEvents ev).filter (fun e => p e.t)).map (Event.change f g) := by
    intro p; rw [List.filter_map]; rfl
  have e2 := e1 (fun t => decide (t < 0))
  have e3 := e1 (fun t => decide (0 ≤ t))
  rw [e2, e3, List.length_map, List.length_map]
  congr 1
  funext i j
  by_cases hij : i = j
  · simp only [if_pos hij, List.getElem?_map]
    cases (keptEvents ev)[i]? with
    | none => simp [h0]
    | some e =>
      simp only [Option.map_some, Event.change]
      cases e.se with
      | none => simp [h0]
      | some x => simp [hh]
  · simp only [if_neg hij, h0]

theorem foldl_max_scale (c : K) (hc : 0 < c) : ∀ (l : List K) (a : K), (l.map (c * ·)).foldl max (c * a) = c * l.foldl max a
  | [], a => rfl
  | b :: l, a => by
    simp only [List.map_cons, List.foldl_cons]
    rw [← mul_max_of_nonneg _ _ hc.le, foldl_max_scale c hc l]

theorem listMax_scale (c : K) (hc : 0 < c) (l : List K) : listMax (l.map (c * ·)) = (listMax l).map (c * ·) := by
  cases l with
  | nil => rfl
  | cons a l => simp only [listMax, List.map_cons, Option.map_some, foldl_max_scale c hc]

theorem abs_scale (c : K) (hc : 0 < c) (x : K) : |c * x| = c * |x| := by rw [abs_mul, abs_of_pos hc]

theorem maxPreMulti_units (r : Multi K) (c : K) (hc : 0 < c) : maxPreMulti (r.inUnits c) = (maxPreMulti r).map (c * ·) := by
  have h : preEffectsMulti (r.inUnits c) = (preEffectsMulti r).map (c * ·) := by
    unfold preEffectsMulti
    rw [List.map_filterMap]
    refine List.filterMap_congr (fun p _ => ?_)
    show (if r.treatment = "treated" ∧ Col.inter p ∈ r.cols then some |c * r.coef (.inter p)| else none) = _
    by_cases hp : r.treatment = "treated" ∧ Col.inter p ∈ r.cols
    · rw [if_pos hp, if_pos hp, abs_scale c hc]; rfl
    · rw [if_neg hp, if_neg hp]; rfl
  unfold maxPreMulti
  rw [h, listMax_scale c hc]
  cases listMax (preEffectsMulti r) <;> rfl

theorem maxPreMulti_mirror (r : Multi K) : maxPreMulti r.mirror = maxPreMulti r := by
  have h : preEffectsMulti r.mirror = preEffectsMulti r := by
    unfold preEffectsMulti
    refine List.filterMap_congr (fun p _ => ?_)
    simp only [Multi.mirror, abs_neg]
  unfold maxPreMulti
  rw [h]
  rfl

theorem maxPreCs_units (r : Cs K) (c : K) (hc : 0 < c) : maxPreCs (r.inUnits c) = (maxPreCs r).map (c * ·) := by
  unfold maxPreCs
  simp only [Cs.inUnits]
  cases r.events with
  | none => rfl
  | some ev =>
    simp only [Option.map_some]
    have h : ((ev.map (fun e : Event K => { e with effect := c * e.effect, se := e.se.map (c * ·) })).filter
        (fun e => decide (e.t < 0) && decide (0 < e.nGroups))).map (fun e => |e.effect|) =
        ((ev.filter (fun e => decide (e.t < 0) && decide (0 < e.nGroups))).map (fun e => |e.effect|)).map (c * ·) := by
      rw [List.filter_map, List.map_map, List.map_map]
      refine List.map_congr_left (fun e _ => ?_)
      simp [abs_scale c hc]
    rw [h, listMax_scale c hc]
    cases listMax ((ev.filter (fun e => decide (e.t < 0) && decide (0 < e.nGroups))).map (fun e => |e.effect|)) <;> rfl

theorem maxPreCs_mirror (r : Cs K) : maxPreCs r.mirror = maxPreCs r := by
  unfold maxPreCs
  simp only [Cs.mirror]
  cases r.events with
  | none => rfl
  | some ev =>
    simp only [Option.map_some]
    have h : ((ev.map (fun e : Event K => { e with effect := -e.effect })).filter
        (fun e => decide (e.t < 0) && decide (0 < e.nGroups))).map (fun e => |e.effect|) =
        (ev.filter (fun e => decide (e.t < 0) && decide (0 < e.nGroups))).map (fun e => |e.effect|) := by
      rw [List.filter_map, List.map_map]
      refine List.map_congr_left (fun e _ => ?_)
      simp
    rw [h]

theorem extractCs_units (r : Cs K) (c : K) : extractCs (r.inUnits c) = (extractCs r).map (Study.change (c * ·) (c ^ 2 * ·)) := by
  obtain ⟨ev, o⟩ := r
  cases ev with
  | none => rfl
  | some ev => exact extract_change (c * ·) (c * ·) (c ^ 2 * ·) (fun x => by ring) (by ring) ev o _

theorem extractCs_mirror (r : Cs K) : extractCs r.mirror = (extractCs r).map (Study.change (fun x => -x) id) := by
  obtain ⟨ev, o⟩ := r
  cases ev with
  | none => rfl
  | some ev =>
    have := extract_change (fun x : K => -x) id id (fun x => rfl) rfl ev o o
    refine Eq.trans ?_ this
    have e : (fun e : Event K => { e with effect := -e.effect }) = Event.change (fun x => -x) id := by
      funext e; simp only [Event.change, Option.map_id, id]
    simp only [Cs.mirror, Option.map_some, e]

theorem fitCs_units (method : Method) (solve : Lp K → Option K) (root : K → K) (hr : RootOf root) (z : K) (lvec : Option (List K)) (r : Cs K)
    (c : K) (hc : 0 < c) (M M' : K)
    (hb : ∀ s l, extractCs r = .ok s → weights lvec (betaPost s).length = .ok l →
      bounds method solve z (c * root (quad l (sigmaPost s))) ((betaPost s).map (c * ·)) l s.nPre ((maxPreCs r).map (c * ·)) M' =
      (bounds method solve z (root (quad l (sigmaPost s))) (betaPost s) l s.nPre (maxPreCs r) M).map (Bounds.inUnits c)) :
    fitCs method solve root z lvec (r.inUnits c) M' = (fitCs method solve root z lvec r M).map (Result.inUnits c) := by
  unfold fitCs
  rw [extractCs_units, maxPreCs_units r c hc]
  cases he : extractCs r with
  | error e => rfl
  | ok s =>
    exact fitStudy_units method solve root hr z lvec s _ c hc M M' (fun l hw => hb s l he hw)

/-- C154. Relative magnitudes, CallawaySantAnna and MultiPeriodDiD results of an outcome in other units: the same failure, or estimate, standard error, identified
set and robust interval in these units for the same M. -/
theorem C154_units_rm (solve : Lp K → Option K) (root : K → K) (hr : RootOf root) (z : K) (lvec : Option (List K)) (c : K) (hc : 0 < c) (M : K) :
    (∀ r : Cs K, fitCs .relativeMagnitude solve root z lvec (r.inUnits c) M = (fitCs .relativeMagnitude solve root z lvec r M).map (Result.inUnits c)) ∧
    ∀ r : Multi K, fitMulti .relativeMagnitude solve root z lvec (r.inUnits c) M = (fitMulti .relativeMagnitude solve root z lvec r M).map (Result.inUnits c) := by
  constructor
  · intro r
    refine fitCs_units _ solve root hr z lvec r c hc M M (fun s l _ _ => ?_)
    exact congrArg Except.ok (rm_units c hc z _ _ l _ M)
  · intro r
    unfold fitMulti
    rw [extractMulti_units, maxPreMulti_units r c hc]
    exact fitStudy_units _ solve root hr z lvec _ _ c hc M M (fun l _ => congrArg Except.ok (rm_units c hc z _ _ l _ M))

/-- C154. Smoothness: M bounds second differences of the outcome's trend, so it is measured in units of the outcome. With M in the new units the analysis is the same
analysis. -/
theorem C154_units_smooth (solve : Lp K → Option K) (hs : Correct solve) (root : K → K) (hr : RootOf root) (z : K) (lvec : Option (List K)) (c : K) (hc : 0 < c)
    (M : K) :
    (∀ r : Cs K, fitCs .smoothness solve root z lvec (r.inUnits c) (c * M) = (fitCs .smoothness solve root z lvec r M).map (Result.inUnits c)) ∧
    ∀ r : Multi K, fitMulti .smoothness solve root z lvec (r.inUnits c) (c * M) = (fitMulti .smoothness solve root z lvec r M).map (Result.inUnits c) := by
  constructor
  · intro r
    exact fitCs_units _ solve root hr z lvec r c hc M (c * M) (fun s l _ _ => smooth_units solve hs c hc z _ _ l _ M)
  · intro r
    unfold fitMulti
    rw [extractMulti_units, maxPreMulti_units r c hc]
    exact fitStudy_units _ solve root hr z lvec _ _ c hc M (c * M) (fun l _ => smooth_units solve hs c hc z _ _ l _ M)

/-- C154. The opposite sign of all effects reflects identified set and robust interval at zero, for every method and M, and changes no failure. -/
theorem C154_sign (method : Method) (solve : Lp K → Option K) (hs : Correct solve) (root : K → K) (z : K) (lvec : Option (List K)) (M : K) :
    (∀ r : Cs K, fitCs method solve root z lvec r.mirror M = (fitCs method solve root z lvec r M).map Result.mirror) ∧
    ∀ r : Multi K, fitMulti method solve root z lvec r.mirror M = (fitMulti method solve root z lvec r M).map Result.mirror := by
  have hb : ∀ (n : ℕ) (mp : Option K) (se : K) (beta l : List K), bounds method solve z se (beta.map (fun x => -x)) l n mp M =
      (bounds method solve z se beta l n mp M).map Bounds.mirror := by
    intro n mp se beta l
    cases method with
    | smoothness => exact smooth_mirror solve hs z se beta l n M
    | relativeMagnitude => exact congrArg Except.ok (rm_mirror z se beta l mp M)
    | combined => exact combined_mirror solve hs z se beta l n mp M
  constructor
  · intro r
    unfold fitCs
    rw [extractCs_mirror, maxPreCs_mirror]
    cases extractCs r with
    | error e => rfl
    | ok s => exact fitStudy_mirror method solve root z lvec s _ M (fun se beta l => hb _ _ se beta l)
  · intro r
    unfold fitMulti
    rw [extractMulti_mirror, maxPreMulti_mirror]
    exact fitStudy_mirror method solve root z lvec _ _ M (fun se beta l => hb _ _ se beta l)

/-! ### Searches over M -/

/-- Rows in other units. -/
def Sensitivity.inUnits (c : K) (s : Sensitivity K) : Sensitivity K :=
  { s with rows := s.rows.map (Bounds.inUnits c), estimate := c * s.estimate, se := c * s.se }

def Sensitivity.mirror (s : Sensitivity K) : Sensitivity K := { s with rows := s.rows.map Bounds.mirror, estimate := -s.estimate }

theorem fitAll_map (f : Result K → Result K) (g : Bounds K → Bounds K) (hfg : ∀ r, (f r).bounds = g r.bounds) (fit fit' : K → Except Err (Result K))
    (h : ∀ M, fit' M = (fit M).map f) : ∀ Ms, fitAll fit' Ms = (fitAll fit Ms).map (List.map g)
  | [] => rfl
  | M :: Ms => by
    simp only [fitAll, h M, fitAll_map f g hfg fit fit' h Ms]
    cases fit M with
    | error e => rfl
    | ok r => cases fitAll fit Ms <;> simp [Except.map, hfg]

theorem includes_map (f : Result K → Result K) (hf : ∀ r, includesZero (f r).bounds = includesZero r.bounds) (fit fit' : K → Except Err (Result K))
    (h : ∀ M, fit' M = (fit M).map f) : includes fit' = includes fit := by
  funext M
  simp only [includes, h M]
  cases fit M with
  | error e => rfl
  | ok r => exact hf r

theorem breakdown_map (f : Result K → Result K) (hf : ∀ r, includesZero (f r).bounds = includesZero r.bounds) (fit fit' : K → Except Err (Result K))
    (h : ∀ M, fit' M = (fit M).map f) (tol : K) (fuel : ℕ) : breakdownOf fit' tol fuel = breakdownOf fit tol fuel := by
  unfold breakdownOf
  rw [includes_map f hf fit fit' h, h 0]
  cases fit 0 <;> rfl

theorem sensitivity_map (method : Method) (f : Result K → Result K) (g : Bounds K → Bounds K) (hfg : ∀ r, (f r).bounds = g r.bounds)
    (hf : ∀ r, includesZero (f r).bounds = includesZero r.bounds) (fit fit' : K → Except Err (Result K))
    (h : ∀ M, fit' M = (fit M).map f) (grid : Option (List K)) :
    (∀ e, sensitivityAnalysis method fit grid = .error e → sensitivityAnalysis method fit' grid = .error e) ∧
    ∀ s, sensitivityAnalysis method fit grid = .ok s → ∃ s' r, sensitivityAnalysis method fit' grid = .ok s' ∧ s'.Ms = s.Ms ∧ s'.rows = s.rows.map g ∧
      s'.breakdown = s.breakdown ∧ fit 0 = .ok r ∧ s.estimate = r.estimate ∧ s.se = r.se ∧ s'.estimate = (f r).estimate ∧ s'.se = (f r).se := by
  unfold sensitivityAnalysis
  simp only [includes_map f hf fit fit' h, fitAll_map f g hfg fit fit' h, h 0]
  cases fitAll fit (grid.getD (defaultGrid method)) with
  | error e => exact ⟨fun e' he => he, fun s hs => by cases hs⟩
  | ok rows =>
    cases fit 0 with
    | error e => exact ⟨fun e' he => he, fun s hs => by cases hs⟩
    | ok r =>
      refine ⟨fun e' he => (by cases he), fun s hs => ?_⟩
      cases hs
      exact ⟨_, r, rfl, rfl, rfl, rfl, rfl, rfl, rfl, rfl, rfl⟩

/-- C154. The relative-magnitude sensitivity analysis of an outcome in other units has the same grid and the same breakdown value; estimate, standard error and every
row of the table are in these units; the breakdown search gives the same value. -/
theorem C154_breakdown_units (solve : Lp K → Option K) (root : K → K) (hr : RootOf root) (z : K) (lvec : Option (List K)) (c : K) (hc : 0 < c) (r : Cs K) (r' : Multi K)
    (grid : Option (List K)) (tol : K) (fuel : ℕ) :
    sensitivityAnalysis .relativeMagnitude (fitCs .relativeMagnitude solve root z lvec (r.inUnits c)) grid =
      (sensitivityAnalysis .relativeMagnitude (fitCs .relativeMagnitude solve root z lvec r) grid).map (Sensitivity.inUnits c) ∧
    sensitivityAnalysis .relativeMagnitude (fitMulti .relativeMagnitude solve root z lvec (r'.inUnits c)) grid =
      (sensitivityAnalysis .relativeMagnitude (fitMulti .relativeMagnitude solve root z lvec r') grid).map (Sensitivity.inUnits c) ∧
    breakdownOf (fitCs .relativeMagnitude solve root z lvec (r.inUnits c)) tol fuel = breakdownOf (fitCs .relativeMagnitude solve root z lvec r) tol fuel ∧
    breakdownOf (fitMulti .relativeMagnitude solve root z lvec (r'.inUnits c)) tol fuel = breakdownOf (fitMulti .relativeMagnitude solve root z lvec r') tol fuel := by
  have key : ∀ fit fit' : K → Except Err (Result K), (∀ M, fit' M = (fit M).map (Result.inUnits c)) →
      sensitivityAnalysis .relativeMagnitude fit' grid = (sensitivityAnalysis .relativeMagnitude fit grid).map (Sensitivity.inUnits c) := by
    intro fit fit' h
    obtain ⟨a, b⟩ := sensitivity_map .relativeMagnitude (Result.inUnits c) (Bounds.inUnits c) (fun _ => rfl) (fun r => includes_units c hc r.bounds) fit fit' h grid
    cases hs : sensitivityAnalysis .relativeMagnitude fit grid with
    | error e => rw [a e hs]; rfl
    | ok s =>
      obtain ⟨s', q, h1, h2, h3, h4, h5, h6, h7, h8, h9⟩ := b s hs
      rw [h1]
      obtain ⟨m1, m2, m3, m4, m5⟩ := s'
      simp only at h2 h3 h4 h8 h9
      simp only [Except.map, Sensitivity.inUnits, h2, h3, h4, h8, h9, h6, h7, Result.inUnits]
  have h1 := fun M => (C154_units_rm solve root hr z lvec c hc M).1 r
  have h2 := fun M => (C154_units_rm solve root hr z lvec c hc M).2 r'
  exact ⟨key _ _ h1, key _ _ h2, breakdown_map _ (fun r => includes_units c hc r.bounds) _ _ h1 tol fuel, breakdown_map _ (fun r => includes_units c hc r.bounds) _ _ h2 tol fuel⟩

/-- C154. The opposite sign of all effects reflects every row of the sensitivity table and leaves breakdown values unchanged. -/
theorem C154_breakdown_sign (method : Method) (solve : Lp K → Option K) (hs : Correct solve) (root : K → K) (z : K) (lvec : Option (List K)) (r : Cs K) (r' : Multi K)
    (grid : Option (List K)) (tol : K) (fuel : ℕ) :
    sensitivityAnalysis method (fitCs method solve root z lvec r.mirror) grid = (sensitivityAnalysis method (fitCs method solve root z lvec r) grid).map Sensitivity.mirror ∧
    sensitivityAnalysis method (fitMulti method solve root z lvec r'.mirror) grid =
      (sensitivityAnalysis method (fitMulti method solve root z lvec r') grid).map Sensitivity.mirror ∧
    breakdownOf (fitCs method solve root z lvec r.mirror) tol fuel = breakdownOf (fitCs method solve root z lvec r) tol fuel ∧
    breakdownOf (fitMulti method solve root z lvec r'.mirror) tol fuel = breakdownOf (fitMulti method solve root z lvec r') tol fuel := by
  have key : ∀ fit fit' : K → Except Err (Result K), (∀ M, fit' M = (fit M).map Result.mirror) →
      sensitivityAnalysis method fit' grid = (sensitivityAnalysis method fit grid).map Sensitivity.mirror := by
    intro fit fit' h
    obtain ⟨a, b⟩ := sensitivity_map method Result.mirror Bounds.mirror (fun _ => rfl) (fun r => includes_mirror r.bounds) fit fit' h grid
    cases hs : sensitivityAnalysis method fit grid with
    | error e => rw [a e hs]; rfl
    | ok s =>
      obtain ⟨s', q, h1, h2, h3, h4, h5, h6, h7, h8, h9⟩ := b s hs
      rw [h1]
      obtain ⟨m1, m2, m3, m4, m5⟩ := s'
      simp only at h2 h3 h4 h8 h9
      simp only [Except.map, Sensitivity.mirror, h2, h3, h4, h8, h9, h6, h7, Result.mirror]
  have h1 := fun M => (C154_sign method solve hs root z lvec M).1 r
  have h2 := fun M => (C154_sign method solve hs root z lvec M).2 r'
  exact ⟨key _ _ h1, key _ _ h2, breakdown_map _ (fun r => includes_mirror r.bounds) _ _ h1 tol fuel, breakdown_map _ (fun r => includes_mirror r.bounds) _ _ h2 tol fuel⟩

/-! ### Order of the event study -/

theorem listMax_perm {l l' : List K} (h : l ~ l') : listMax l = listMax l' := by
  have one : ∀ l : List K, listMax l = l.foldr (fun a o => some (match o with | none => a | some b => max a b)) none := by
    intro l
    cases l with
    | nil => rfl
    | cons a l =>
      have : ∀ (l : List K) (a : K), some (l.foldl max a) = (a :: l).foldr (fun a o => some (match o with | none => a | some b => max a b)) none := by
        intro l
        induction l with
        | nil => intro a; rfl
        | cons b l ih =>
          intro a
          rw [List.foldl_cons, ih]
          simp only [List.foldr_cons]
          cases l.foldr (fun a o => some (match o with | none => a | some b => max a b)) none with
          | none => rfl
          | some x => simp only [max_assoc]
      exact this l a
  rw [one, one]
  refine h.foldr_eq' (fun a _ b _ o => ?_) none
  cases o with
  | none => simp only [max_comm]
  | some x => simp only [max_left_comm]

theorem kept_perm {ev ev' : List (Event K)} (h : ev ~ ev') (hn : (ev.map (·.t)).Nodup) : keptEvents ev = keptEvents ev' := by
  unfold keptEvents
  refine List.Perm.eq_of_pairwise (le := fun a b : Event K => a.t ≤ b.t) ?_ (List.pairwise_insertionSort _ _) (List.pairwise_insertionSort _ _) ?_
  · intro a b ha hb h1 h2
    have ha' : a ∈ ev := List.mem_of_mem_filter ((List.perm_insertionSort _ _).mem_iff.mp ha)
    have hb' : b ∈ ev := h.mem_iff.mpr (List.mem_of_mem_filter ((List.perm_insertionSort _ _).mem_iff.mp hb))
    exact List.inj_on_of_nodup_map hn ha' hb' (le_antisymm h1 h2)
  · exact (List.perm_insertionSort _ _).trans ((h.filter _).trans (List.perm_insertionSort _ _).symm)

/-- C154. The order in which an event study lists its relative times does not matter. -/
theorem C154_event_order (method : Method) (solve : Lp K → Option K) (root : K → K) (z : K) (lvec : Option (List K)) (ev ev' : List (Event K)) (o : K)
    (h : ev ~ ev') (hn : (ev.map (·.t)).Nodup) (M : K) :
    fitCs method solve root z lvec ⟨some ev, o⟩ M = fitCs method solve root z lvec ⟨some ev', o⟩ M := by
  have e1 : maxPreCs (⟨some ev, o⟩ : Cs K) = maxPreCs ⟨some ev', o⟩ := by
    simp only [maxPreCs]
    rw [listMax_perm ((h.filter _).map _)]
  have e2 : extractCs (⟨some ev, o⟩ : Cs K) = extractCs ⟨some ev', o⟩ := by simp only [extractCs, kept_perm h hn]
  unfold fitCs
  rw [e1, e2]

/-! ### Combined restrictions -/

theorem combined_default (solve : Lp K → Option K) (hs : Correct solve) (z se : K) (hse : 0 < se) (beta l : List K) (hl : l.length = beta.length)
    (n : ℕ) (M : K) (hM : 0 ≤ M) (mp : Option K) (hm : ∀ m, mp = some m → 0 ≤ m) (h0 : l.sum ≠ 0) :
    combinedBounds solve z se beta l n mp M = .ok (match mp with | none => ⟨.ninf, .pinf, .ninf, .pinf⟩ | some m => rmBounds z se beta l (some m) M) := by
  cases mp with
  | some m => exact C40_combined solve hs z se hse beta l hl n M m hM (hm m rfl) h0
  | none =>
    unfold combinedBounds smoothBounds
    rw [C40_refuted solve hs beta l hl n M h0]
    simp [flci, not_le.2 hse, rmBounds, pyMax, pyMin, Ext.lt, Ext.sub, Ext.add, Ext.neg]

theorem combined_units (solve : Lp K → Option K) (hs : Correct solve) (root : K → K) (hr : RootOf root) (z : K) (f : ℕ → ℕ → K) (beta l : List K)
    (hw : weights none beta.length = .ok l) (n : ℕ) (M : K) (hM : 0 ≤ M) (mp : Option K) (hm : ∀ m, mp = some m → 0 ≤ m) (c : K) (hc : 0 < c) :
    combinedBounds solve z (c * root (quad l f)) (beta.map (c * ·)) l n (mp.map (c * ·)) M =
      (combinedBounds solve z (root (quad l f)) beta l n mp M).map (Bounds.inUnits c) := by
  obtain rfl : l = List.replicate beta.length (1 / (beta.length : K)) := by
    simp only [weights] at hw; cases hw; rfl
  set l := List.replicate beta.length (1 / (beta.length : K)) with hl
  by_cases hse : root (quad l f) ≤ 0
  · rw [(C40_zero_se solve z _ hse beta l n M mp).2,
      (C40_zero_se solve z _ (mul_nonpos_of_nonneg_of_nonpos hc.le hse) (beta.map (c * ·)) l n M (mp.map (c * ·))).2]
    rfl
  · have hpos : 0 < root (quad l f) := not_le.1 hse
    have hlen : 0 < beta.length := by
      rcases Nat.eq_zero_or_pos beta.length with h | h
      · exfalso
        have hq : quad l f = 0 := by rw [hl, h]; rfl
        have h2 := hr 2 0 (by norm_num)
        rw [mul_zero] at h2
        rw [hq] at hpos
        linarith
      · exact h
    have hsum : l.sum ≠ 0 := by
      rw [hl, List.sum_replicate, nsmul_eq_mul, mul_one_div, div_self (by exact_mod_cast hlen.ne')]
      exact one_ne_zero
    have hll : l.length = beta.length := by rw [hl, List.length_replicate]
    rw [combined_default solve hs z _ hpos beta l hll n M hM mp hm hsum,
      combined_default solve hs z _ (mul_pos hc hpos) (beta.map (c * ·)) l (by rw [List.length_map, hll]) n M hM (mp.map (c * ·)) (by
        intro m h
        cases mp with
        | none => cases h
        | some x =>
          simp only [Option.map_some, Option.some.injEq] at h
          rw [← h]; exact mul_nonneg hc.le (hm x rfl)) hsum]
    cases mp with
    | none => rfl
    | some m => exact congrArg Except.ok (rm_units c hc z _ beta l (some m) M)

theorem maxPreCs_nonneg (r : Cs K) (h : 0 ≤ r.overallSe) (m : K) (hm : maxPreCs r = some m) : 0 ≤ m := by
  have fold : ∀ (l : List K) (a : K), a ≤ l.foldl max a := by
    intro l
    induction l with
    | nil => intro a; exact le_refl a
    | cons b l ih => intro a; exact (le_max_left a b).trans (ih _)
  unfold maxPreCs at hm
  cases hev : r.events with
  | none => rw [hev] at hm; cases hm; exact h
  | some ev =>
    rw [hev] at hm
    simp only at hm
    cases hl : (ev.filter (fun e => decide (e.t < 0) && decide (0 < e.nGroups))).map (fun e => |e.effect|) with
    | nil => rw [hl] at hm; cases hm; exact h
    | cons a l =>
      rw [hl] at hm
      simp only [listMax] at hm
      cases hm
      have ha : a ∈ (ev.filter (fun e => decide (e.t < 0) && decide (0 < e.nGroups))).map (fun e => |e.effect|) := by rw [hl]; exact List.mem_cons_self ..
      obtain ⟨e, _, rfl⟩ := List.mem_map.1 ha
      exact (abs_nonneg _).trans (fold l _)

/-- C154. Combined restrictions with the default weights: the same M in other units gives the same analysis (the smoothness part being idle, see C40). -/
theorem C154_units_combined (solve : Lp K → Option K) (hs : Correct solve) (root : K → K) (hr : RootOf root) (z : K) (c : K) (hc : 0 < c) (M : K) (hM : 0 ≤ M)
    (r : Cs K) (ho : 0 ≤ r.overallSe) :
    fitCs .combined solve root z none (r.inUnits c) M = (fitCs .combined solve root z none r M).map (Result.inUnits c) :=
  fitCs_units _ solve root hr z none r c hc M M (fun s l _ hw =>
    combined_units solve hs root hr z (sigmaPost s) (betaPost s) l hw s.nPre M hM (maxPreCs r) (maxPreCs_nonneg r ho) c hc)

/-- C154 is false of the combined method with other weights: its one M is both a multiple of the largest pre-period effect and a bound on second differences in
units of the outcome, so neither the same M nor M in the new units gives the same set (second difference of three effects, units four times smaller). -/
theorem C154_combined_refuted (solve : Lp ℚ → Option ℚ) (hs : Correct solve) :
    (combinedBounds solve 1 1 [4, 0, 0] [1, -2, 1] 2 (some (1 / 2)) 1).map (fun b => (b.lb, b.ub)) = .ok (.fin (7 / 2), .fin (9 / 2)) ∧
    (combinedBounds solve 1 4 [16, 0, 0] [1, -2, 1] 2 (some 2) 1).map (fun b => (b.lb, b.ub)) = .ok (.fin 15, .fin 17) ∧
    (combinedBounds solve 1 4 [16, 0, 0] [1, -2, 1] 2 (some 2) 4).map (fun b => (b.lb, b.ub)) = .ok (.fin 12, .fin 20) := by
  have key : ∀ (x M : ℚ), 0 ≤ M → solveBounds solve [x, 0, 0] [1, -2, 1] (rowsSd 2 3) M 2 = (.fin (x - M), .fin (x + M)) := by
    intro x M hM
    have := (C40_finite_partial solve hs [x, 0, 0] [1, -2, 1] rfl 2 M hM (by simp) (by decide +kernel) (by decide +kernel)).1
    have hw : ∑ i ∈ Finset.range (2 + [x, 0, 0].length - 2), |ddWeight (2 + [x, 0, 0].length) (padded 2 ([1, -2, 1] : List ℚ)) i| = 1 := by
      show ∑ i ∈ Finset.range 3, |ddWeight 5 (padded 2 ([1, -2, 1] : List ℚ)) i| = 1
      decide +kernel
    have hd : dot [1, -2, 1] [x, 0, 0] = x := by simp [dot]
    rw [hw, hd, mul_one] at this
    exact this
  have k1 := key 4 1 (by norm_num)
  have k2 := key 16 1 (by norm_num)
  have k3 := key 16 4 (by norm_num)
  refine ⟨?_, ?_, ?_⟩
  · simp only [combinedBounds, smoothBounds, List.length_cons, List.length_nil, Nat.reduceAdd, k1]
    decide +kernel
  · simp only [combinedBounds, smoothBounds, List.length_cons, List.length_nil, Nat.reduceAdd, k2]
    decide +kernel
  · simp only [combinedBounds, smoothBounds, List.length_cons, List.length_nil, Nat.reduceAdd, k3]
    decide +kernel

/-! ### The smoothness breakdown value depends on the units -/

/-- In the right units every effect is called robust to any violation: if the smoothness interval excludes zero for M = 0 and for some positive M, then measuring
the outcome in small enough units makes the breakdown search report that the effect is always significant. -/
theorem C154_smooth_breakdown_refuted (solve : Lp K → Option K) (hs : Correct solve) (root : K → K) (hr : RootOf root) (z : K) (lvec : Option (List K)) (r : Cs K)
    (r0 rM : Result K) (M : K) (hM : 0 < M) (h0 : fitCs .smoothness solve root z lvec r 0 = .ok r0) (i0 : includesZero r0.bounds = false)
    (h1 : fitCs .smoothness solve root z lvec r M = .ok rM) (i1 : includesZero rM.bounds = false) :
    ∃ c, 0 < c ∧ ∀ tol fuel, breakdownOf (fitCs .smoothness solve root z lvec (r.inUnits c)) tol fuel = .ok (some none) := by
  have hc : 0 < 10 / M := div_pos (by norm_num) hM
  refine ⟨10 / M, hc, fun tol fuel => ?_⟩
  have e0 := (C154_units_smooth solve hs root hr z lvec _ hc 0).1 r
  have e1 := (C154_units_smooth solve hs root hr z lvec _ hc M).1 r
  rw [mul_zero, h0] at e0
  rw [div_mul_cancel₀ _ hM.ne', h1] at e1
  have a0 : includes (fitCs .smoothness solve root z lvec (r.inUnits (10 / M))) 0 = false := by
    unfold includes; rw [e0]; exact (includes_units _ hc _).trans i0
  have a1 : includes (fitCs .smoothness solve root z lvec (r.inUnits (10 / M))) 10 = false := by
    unfold includes; rw [e1]; exact (includes_units _ hc _).trans i1
  unfold breakdownOf
  rw [e0]
  simp only [Except.map, breakdownValue, a0, a1]
  rfl

end

/-! ### A concrete case -/

/-- One effect before and three after adoption. -/
noncomputable def demoCs : Cs ℝ := { events := some [⟨1, 0, some 1, 2⟩, ⟨-2, 1, some 1, 2⟩, ⟨0, 10, some 1, 2⟩, ⟨2, 0, some 2, 2⟩, ⟨-1, 0, none, 0⟩], overallSe := 1 }

theorem demo_kept : keptEvents [(⟨1, 0, some 1, 2⟩ : Event ℝ), ⟨-2, 1, some 1, 2⟩, ⟨0, 10, some 1, 2⟩, ⟨2, 0, some 2, 2⟩, ⟨-1, 0, none, 0⟩] =
    [⟨-2, 1, some 1, 2⟩, ⟨0, 10, some 1, 2⟩, ⟨1, 0, some 1, 2⟩, ⟨2, 0, some 2, 2⟩] := by
  simp [keptEvents, List.insertionSort, List.orderedInsert]

theorem demo_smooth (solve : Lp ℝ → Option ℝ) (hs : Correct solve) (M : ℝ) (hM : 0 ≤ M) :
    fitCs .smoothness solve Real.sqrt 2 (some [1, -2, 1]) demoCs M =
      .ok ⟨10, 3, ⟨.fin (10 - M), .fin (10 + M), .fin (4 - M), .fin (16 + M)⟩⟩ := by
  have hex : ∃ s, extractCs demoCs = .ok s := ⟨_, rfl⟩
  obtain ⟨s, hx⟩ := hex
  obtain ⟨hb, hsig⟩ := C42_cs_partial demoCs _ rfl s hx
  rw [demo_kept] at hb hsig
  have hb' : betaPost s = [10, 0, 0] := by rw [hb]; simp
  have hn : s.nPre = 1 := by
    have : s = _ := (Except.ok.inj hx).symm
    rw [this]
    simp only [demo_kept]
    rfl
  have hq : quad [1, -2, 1] (sigmaPost s) = 9 := by
    simp only [quad, List.length_cons, List.length_nil, Nat.reduceAdd]
    simp [List.range_succ, hsig]
    norm_num
  have h9 : Real.sqrt 9 = 3 := by rw [show (9 : ℝ) = 3 ^ 2 by norm_num]; exact Real.sqrt_sq (by norm_num)
  have hw : ∑ i ∈ Finset.range (1 + [(10 : ℝ), 0, 0].length - 2), |ddWeight (1 + [(10 : ℝ), 0, 0].length) (padded 1 ([1, -2, 1] : List ℝ)) i| = 1 := by
    show ∑ i ∈ Finset.range 2, |ddWeight 4 (padded 1 ([1, -2, 1] : List ℝ)) i| = 1
    norm_num [Finset.sum_range_succ, ddWeight, padded]
  have hd : dot [1, -2, 1] [(10 : ℝ), 0, 0] = 10 := by simp [dot]
  have hf := (C40_finite_partial solve hs [10, 0, 0] [1, -2, 1] rfl 1 M hM (by simp) (by norm_num) (by
    norm_num [Finset.sum_range_succ, padded])).1
  rw [hw, hd, mul_one] at hf
  unfold fitCs fitStudy
  rw [hx]
  simp only [hb', hn, weights, List.length_cons, List.length_nil, Nat.reduceAdd, if_true, bounds, smoothBounds, hq, h9, hd] at hf ⊢
  rw [hf]
  simp only [flci, if_neg (show ¬ (3 : ℝ) ≤ 0 by norm_num), Ext.sub, Ext.add, Ext.neg]
  congr 3 <;> ring_nf

/-- In the original units the smoothness breakdown value is 4; five times smaller units call the same effect robust to every violation. -/
example (solve : Lp ℝ → Option ℝ) (hs : Correct solve) :
    (∃ fuel v, breakdownOf (fitCs .smoothness solve Real.sqrt 2 (some [1, -2, 1]) demoCs) (1 / 100) fuel = .ok (some (some v)) ∧ |v - 4| ≤ 1 / 200) ∧
    ∃ c, 0 < c ∧ ∀ tol fuel, breakdownOf (fitCs .smoothness solve Real.sqrt 2 (some [1, -2, 1]) (demoCs.inUnits c)) tol fuel = .ok (some none) := by
  have hinc : ∀ M, 0 ≤ M → includes (fitCs .smoothness solve Real.sqrt 2 (some [1, -2, 1]) demoCs) M = decide (4 ≤ M) := by
    intro M hM
    unfold includes
    rw [demo_smooth solve hs M hM]
    have : (0 : ℝ) ≤ 16 + M := by linarith
    simp [includesZero, Ext.le, this]
  constructor
  · obtain ⟨fuel, q, hq⟩ := C41_terminates (includes (fitCs .smoothness solve Real.sqrt 2 (some [1, -2, 1]) demoCs)) (1 / 100) (by norm_num)
    obtain ⟨v, rfl, hv⟩ := C41_accuracy _ 4 ⟨fun M h0 h => by rw [hinc M h0]; simpa using h, fun M h0 h => by rw [hinc M h0]; simpa using h.le⟩ (by norm_num)
      (by norm_num) (by rw [hinc 10 (by norm_num)]; norm_num) (1 / 100) fuel q hq
    refine ⟨fuel, v, ?_, by linarith⟩
    unfold breakdownOf
    rw [demo_smooth solve hs 0 (le_refl _), hq]
  · exact C154_smooth_breakdown_refuted solve hs Real.sqrt rootOf_sqrt 2 _ demoCs _ _ 2 (by norm_num) (demo_smooth solve hs 0 (le_refl _))
      (by norm_num [includesZero, Ext.le]) (demo_smooth solve hs 2 (by norm_num)) (by norm_num [includesZero, Ext.le])

/-- The hypotheses on solver, root, event times and standard error can be met. -/
example : (∃ solve : Lp ℝ → Option ℝ, Correct solve) ∧ RootOf Real.sqrt ∧ 0 ≤ demoCs.overallSe ∧
    ((demoCs.events.getD []).map (·.t)).Nodup ∧ (demoCs.events.getD []) ~ (demoCs.events.getD []).reverse :=
  ⟨C40_solver_exists, rootOf_sqrt, by simp [demoCs], by simp [demoCs], (List.reverse_perm _).symm⟩

end DiffDiff.HonestDid
