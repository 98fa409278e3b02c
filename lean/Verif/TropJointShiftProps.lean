/-
`TROP(method="joint")`: adding unit levels, period levels or a multiple of the treatment to the outcomes.
-/
import Verif.TropJointProps

set_option linter.unusedSectionVars false
set_option linter.unusedVariables false

namespace DiffDiff.TropJoint

open TropFit (Data Cfg)
open Finset

variable {K : Type*} [Field K] [LinearOrder K] [IsStrictOrderedRing K]

/-- The panel with `a` added by unit, `b` by period and `c` times the treatment added to every observed outcome. -/
def shift (P : Data K) (a b : ℕ → K) (c : K) : Data K :=
  { P with Y := fun t i => (P.Y t i).map (fun y => y + a i + b t + c * (P.D t i : K)) }

/-- Two solutions whose fitted values differ by the shift wherever there is weight. -/
def Agree (nT nN : ℕ) (W : ℕ → ℕ → K) (D : ℕ → ℕ → ℤ) (a b : ℕ → K) (c : K) (s s' : Sol K) : Prop :=
  ∀ t < nT, ∀ i < nN, W t i ≠ 0 → s'.mu + s'.alpha i + s'.beta t + s'.tau * (D t i : K)
    = s.mu + s.alpha i + s.beta t + s.tau * (D t i : K) + (a i + b t + c * (D t i : K))

/-- Minimisers of shifted problems. -/
theorem isMin_shift (nT nN : ℕ) (W y y' : ℕ → ℕ → K) (D : ℕ → ℕ → ℤ) (hW : ∀ t < nT, ∀ i < nN, 0 ≤ W t i) (a b : ℕ → K) (c : K)
    (hy : ∀ t < nT, ∀ i < nN, W t i ≠ 0 → y' t i = y t i + a i + b t + c * (D t i : K)) (s s' : Sol K)
    (h : IsMin nT nN W y D s) (h' : IsMin nT nN W y' D s') : Agree nT nN W D a b c s s' := by
  let s2 : Sol K := { mu := s.mu, alpha := fun i => s.alpha i + a i, beta := fun t => s.beta t + b t, tau := s.tau + c }
  have h2 : IsMin nT nN W y' D s2 := by
    intro s3
    have e1 : obj nT nN W y' D s2 = obj nT nN W y D s := obj_congr _ _ _ _ _ _ _ _ fun t ht i hi hw => by
      simp only [res, s2, hy t ht i hi hw]; ring
    let s4 : Sol K := { mu := s3.mu, alpha := fun i => s3.alpha i - a i, beta := fun t => s3.beta t - b t, tau := s3.tau - c }
    have e2 : obj nT nN W y' D s3 = obj nT nN W y D s4 := obj_congr _ _ _ _ _ _ _ _ fun t ht i hi hw => by
      simp only [res, s4, hy t ht i hi hw]; ring
    rw [e1, e2]; exact h _
  intro t ht i hi hw
  have := isMin_unique nT nN W y' D hW s' s2 h' h2 t i ht hi hw
  simp only [res, s2] at this
  linear_combination -this

theorem wMax_congr (nT nN : ℕ) (A B : ℕ → ℕ → K) (h : ∀ t < nT, ∀ i < nN, A t i = B t i) :
    ((List.range nT).flatMap (fun t => (List.range nN).map (fun i => A t i)))
      = ((List.range nT).flatMap (fun t => (List.range nN).map (fun i => B t i))) := by
  refine List.flatMap_congr fun t ht => List.map_congr_left fun i hi => h t (List.mem_range.1 ht) i (List.mem_range.1 hi)

/-- Outcome of two related fits. -/
def Both (nT nN : ℕ) (W : ℕ → ℕ → K) (D : ℕ → ℕ → ℤ) (a b : ℕ → K) (c : K) : Option (Sol K × (ℕ → ℕ → K)) → Option (Sol K × (ℕ → ℕ → K)) → Prop
  | none, none => True
  | some f, some g => Agree nT nN W D a b c f.1 g.1 ∧ ∀ t < nT, ∀ i < nN, g.2 t i = f.2 t i
  | _, _ => False

theorem lowLoop_shift (v : Env K) (hl : LeastSquares v.lstsq) (hr : SqrtLike v.r) (hs : SvdLocal v.svd) (tol : K) (nT nN : ℕ)
    (hT : 0 < nT) (hN : 0 < nN) (y y' W : ℕ → ℕ → K) (D : ℕ → ℕ → ℤ) (hW : ∀ t < nT, ∀ i < nN, 0 ≤ W t i) (lam : K) (a b : ℕ → K) (c : K)
    (hy : ∀ t < nT, ∀ i < nN, W t i ≠ 0 → y' t i = y t i + a i + b t + c * (D t i : K)) (n : ℕ) :
    ∀ (L L' : ℕ → ℕ → K), (∀ t < nT, ∀ i < nN, L' t i = L t i) →
      Both nT nN W D a b c (lowLoop v tol nT nN y D W lam n L) (lowLoop v tol nT nN y' D W lam n L') := by
  have hnone : ∀ (z z' : ℕ → ℕ → K), solve v nT nN (fun t i => some (z t i)) D W = none ↔ solve v nT nN (fun t i => some (z' t i)) D W = none := by
    intro z z'; rw [solve_none, solve_none, mask_some, mask_some]
  have hag : ∀ (L L' : ℕ → ℕ → K) (s s' : Sol K), (∀ t < nT, ∀ i < nN, L' t i = L t i) →
      solve v nT nN (fun t i => some (y t i - L t i)) D W = some s → solve v nT nN (fun t i => some (y' t i - L' t i)) D W = some s' →
      Agree nT nN W D a b c s s' := by
    intro L L' s s' hL h h'
    have m := solve_isMin v hl hr nT nN hT hN _ D W hW s h
    have m' := solve_isMin v hl hr nT nN hT hN _ D W hW s' h'
    rw [mask_some] at m m'
    refine isMin_shift nT nN W _ _ D hW a b c (fun t ht i hi hw => ?_) s s' m m'
    simp only [Option.getD_some, hL t ht i hi, hy t ht i hi hw]; ring
  have hlow : ∀ (L L' : ℕ → ℕ → K) (s s' : Sol K), (∀ t < nT, ∀ i < nN, L' t i = L t i) → Agree nT nN W D a b c s s' →
      ∀ t < nT, ∀ i < nN, lowStep v nT nN y' W D lam s' L' t i = lowStep v nT nN y W D lam s L t i := by
    intro L L' s s' hL h
    refine hs _ _ _ _ _ (fun t ht i hi => ?_)
    rw [hL t ht i hi]
    by_cases hw : W t i = 0
    · simp [hw]
    · have e := h t ht i hi hw
      have : y' t i - s'.mu - s'.alpha i - s'.beta t - s'.tau * (D t i : K) - L t i
          = y t i - s.mu - s.alpha i - s.beta t - s.tau * (D t i : K) - L t i := by rw [hy t ht i hi hw]; linear_combination -e
      rw [this]
  induction n with
  | zero =>
    intro L L' hL
    rw [lowLoop, lowLoop]
    cases h : solve v nT nN (fun t i => some (y t i - L t i)) D W with
    | none => rw [(hnone _ (fun t i => y' t i - L' t i)).1 h]; trivial
    | some s =>
      cases h' : solve v nT nN (fun t i => some (y' t i - L' t i)) D W with
      | none => rw [(hnone _ (fun t i => y t i - L t i)).1 h'] at h; cases h
      | some s' => exact ⟨hag L L' s s' hL h h', hlow L L' s s' hL (hag L L' s s' hL h h')⟩
  | succ n ih =>
    intro L L' hL
    rw [lowLoop, lowLoop]
    cases h : solve v nT nN (fun t i => some (y t i - L t i)) D W with
    | none => rw [(hnone _ (fun t i => y' t i - L' t i)).1 h]; trivial
    | some s =>
      cases h' : solve v nT nN (fun t i => some (y' t i - L' t i)) D W with
      | none => rw [(hnone _ (fun t i => y t i - L t i)).1 h'] at h; cases h
      | some s' =>
        have g := hag L L' s s' hL h h'
        have lw := hlow L L' s s' hL g
        have hset : settled nT nN tol (lowStep v nT nN y' W D lam s' L') L' = settled nT nN tol (lowStep v nT nN y W D lam s L) L := by
          unfold settled
          rw [wMax_congr nT nN (fun t i => |lowStep v nT nN y' W D lam s' L' t i - L' t i|)
            (fun t i => |lowStep v nT nN y W D lam s L t i - L t i|) (fun t ht i hi => by simp only [lw t ht i hi, hL t ht i hi])]
        dsimp only
        rw [hset]
        split_ifs
        · exact ⟨g, lw⟩
        · exact ih _ _ lw

theorem shift_mask (P : Data K) (a b : ℕ → K) (c : K) (W : ℕ → ℕ → K) : mask (shift P a b c).Y W = mask P.Y W := by
  funext t i; simp [mask, shift]

theorem shift_getD (P : Data K) (a b : ℕ → K) (c : K) (W : ℕ → ℕ → K) (t i : ℕ) (h : mask P.Y W t i ≠ 0) :
    ((shift P a b c).Y t i).getD 0 = (P.Y t i).getD 0 + a i + b t + c * (P.D t i : K) := by
  cases hy : P.Y t i with
  | none => exact absurd (by simp [mask, hy]) h
  | some y => simp [shift, hy]

/-- Fits of shifted panels with the same weights. -/
theorem fitW_shift (v : Env K) (hl : LeastSquares v.lstsq) (hr : SqrtLike v.r) (hs : SvdLocal v.svd) (cf : Cfg K) (P : Data K)
    (hT : 0 < P.nT) (hN : 0 < P.nN) (W : ℕ → ℕ → K) (hW : ∀ t < P.nT, ∀ i < P.nN, 0 ≤ W t i) (lamN : K) (a b : ℕ → K) (c : K) :
    Both P.nT P.nN (mask P.Y W) P.D a b c (fitW v cf P W lamN) (fitW v cf (shift P a b c) W lamN) := by
  have hg : ∀ t < P.nT, ∀ i < P.nN, mask P.Y W t i ≠ 0 →
      ((shift P a b c).Y t i).getD 0 = (P.Y t i).getD 0 + a i + b t + c * (P.D t i : K) := fun t _ i _ h => shift_getD P a b c W t i h
  unfold fitW
  split_ifs with hn
  · have e : (shift P a b c).nT = P.nT := rfl
    have e2 : (shift P a b c).nN = P.nN := rfl
    have e3 : (shift P a b c).D = P.D := rfl
    rw [e, e2, e3]
    have hnn : solve v P.nT P.nN (shift P a b c).Y P.D W = none ↔ solve v P.nT P.nN P.Y P.D W = none := by
      rw [solve_none, solve_none, shift_mask]
    cases h : solve v P.nT P.nN P.Y P.D W with
    | none => rw [hnn.2 h]; trivial
    | some s =>
      cases h' : solve v P.nT P.nN (shift P a b c).Y P.D W with
      | none => rw [hnn.1 h'] at h; cases h
      | some s' =>
        have m := solve_isMin v hl hr P.nT P.nN hT hN _ P.D W hW s h
        have m' := solve_isMin v hl hr P.nT P.nN hT hN _ P.D W hW s' h'
        rw [shift_mask] at m'
        exact ⟨isMin_shift _ _ _ _ _ _ (mask_nonneg hW) a b c hg s s' m m', fun _ _ _ _ => rfl⟩
  · unfold solveLow
    rw [shift_mask]
    exact lowLoop_shift v hl hr hs cf.tol P.nT P.nN hT hN _ _ _ P.D (mask_nonneg hW) lamN a b c hg _ _ _ (fun _ _ _ _ => rfl)

/-- The treatment effects of related solutions. -/
theorem Agree.tau {nT nN : ℕ} {W : ℕ → ℕ → K} {D : ℕ → ℕ → ℤ} {a b : ℕ → K} {c : K} {s s' : Sol K} (h : Agree nT nN W D a b c s s')
    {t0 t1 i0 i1 : ℕ} (ht0 : t0 < nT) (ht1 : t1 < nT) (hi0 : i0 < nN) (hi1 : i1 < nN) (h00 : W t0 i0 ≠ 0) (h01 : W t0 i1 ≠ 0)
    (h10 : W t1 i0 ≠ 0) (h11 : W t1 i1 ≠ 0) (hd : D t1 i1 - D t1 i0 - D t0 i1 + D t0 i0 ≠ 0) : s'.tau = s.tau + c := by
  have hd' : ((D t1 i1 : K) - D t1 i0 - D t0 i1 + D t0 i0) ≠ 0 := by exact_mod_cast hd
  have g00 := h t0 ht0 i0 hi0 h00
  have g01 := h t0 ht0 i1 hi1 h01
  have g10 := h t1 ht1 i0 hi0 h10
  have g11 := h t1 ht1 i1 hi1 h11
  have : (s'.tau - s.tau - c) * ((D t1 i1 : K) - D t1 i0 - D t0 i1 + D t0 i0) = 0 := by linear_combination g11 + g00 - g10 - g01
  rcases mul_eq_zero.1 this with h | h
  · linear_combination h
  · exact absurd h hd'

/-- The prediction for an untreated cell without weight. -/
theorem Agree.pred {nT nN : ℕ} {W : ℕ → ℕ → K} {D : ℕ → ℕ → ℤ} {a b : ℕ → K} {c : K} {s s' : Sol K} (h : Agree nT nN W D a b c s s')
    {t t' i i' : ℕ} (ht : t < nT) (ht' : t' < nT) (hi : i < nN) (hi' : i' < nN) (h1 : W t i' ≠ 0) (h2 : W t' i ≠ 0) (h3 : W t' i' ≠ 0)
    (d1 : D t i' = 0) (d2 : D t' i = 0) (d3 : D t' i' = 0) :
    s'.mu + s'.alpha i + s'.beta t = s.mu + s.alpha i + s.beta t + (a i + b t) := by
  have g1 := h t ht i' hi' h1
  have g2 := h t' ht' i hi h2
  have g3 := h t' ht' i' hi' h3
  rw [d1] at g1; rw [d2] at g2; rw [d3] at g3
  simp only [Int.cast_zero, mul_zero, add_zero] at g1 g2 g3
  linear_combination g1 + g2 - g3

/-! ### The weights of a shifted panel -/

theorem sum_map_add_const (l : List K) (k : K) : (l.map (fun y => y + k)).sum = l.sum + l.length * k := by
  induction l with
  | nil => simp
  | cons x l ih => rw [List.map_cons, List.sum_cons, ih, List.sum_cons, List.length_cons]; push_cast; ring

theorem avgTreated_shift (P : Data K) (b : ℕ → K) (c : K) (t : ℕ) (hD : ∀ i, P.D t i = 0) :
    avgTreated (shift P (fun _ => 0) b c) t = (avgTreated P t).map (fun x => x + b t) := by
  have e : (treated (shift P (fun _ => 0) b c)).filterMap (fun i => (shift P (fun _ => 0) b c).Y t i)
      = ((treated P).filterMap (fun i => P.Y t i)).map (fun y => y + b t) := by
    have : treated (shift P (fun _ => 0) b c) = treated P := rfl
    rw [this, List.map_filterMap]
    refine List.filterMap_congr fun i _ => ?_
    simp [shift, hD i]
  unfold avgTreated
  rw [e]
  cases h : (treated P).filterMap (fun i => P.Y t i) with
  | nil => rfl
  | cons y l =>
    simp only [List.map_cons, Option.map_some]
    have := sum_map_add_const (y :: l) (b t)
    simp only [List.map_cons] at this
    rw [this]
    have hl : ((y :: l).length : K) ≠ 0 := by simp only [List.length_cons]; exact_mod_cast Nat.succ_ne_zero l.length
    have hl' : (((y + b t) :: List.map (fun y => y + b t) l).length : K) = ((y :: l).length : K) := by simp
    rw [hl']; congr 1; field_simp

/-- Before treatment starts nobody is treated. -/
def PreClean (P : Data K) (tp : ℕ) : Prop := ∀ t, t + tp < P.nT → ∀ i, P.D t i = 0

theorem gaps_shift (P : Data K) (tp : ℕ) (hp : PreClean P tp) (b : ℕ → K) (c : K) (i : ℕ) :
    gaps (shift P (fun _ => 0) b c) tp i = gaps P tp i := by
  unfold gaps
  have e : (shift P (fun _ => 0) b c).nT = P.nT := rfl
  rw [e]
  refine List.filterMap_congr fun t _ => ?_
  have e2 : isPre (shift P (fun _ => 0) b c) tp t = isPre P tp t := rfl
  rw [e2]
  by_cases h : isPre P tp t
  · rw [if_pos h, if_pos h]
    have hD := hp t (by simpa [isPre] using h)
    rw [avgTreated_shift P b c t hD]
    cases avgTreated P t with
    | none => rfl
    | some x =>
      cases hy : P.Y t i with
      | none => simp [shift, hy]
      | some y => simp [shift, hy, hD i]
  · rw [if_neg h, if_neg h]

theorem delta_shift (v : Env K) (P : Data K) (tp : ℕ) (hp : PreClean P tp) (b : ℕ → K) (c : K) (lamT lamU : K) :
    delta v (shift P (fun _ => 0) b c) tp lamT lamU = delta v P tp lamT lamU := by
  funext t i; unfold delta unitW; rw [gaps_shift P tp hp b c i]; rfl

theorem gaps_nil_shift (P : Data K) (tp : ℕ) (a b : ℕ → K) (c : K) (i : ℕ) : gaps (shift P a b c) tp i = [] ↔ gaps P tp i = [] := by
  have hav : ∀ t, avgTreated (shift P a b c) t = none ↔ avgTreated P t = none := by
    intro t
    have : ((treated (shift P a b c)).filterMap (fun i => (shift P a b c).Y t i) = []) ↔ (treated P).filterMap (fun i => P.Y t i) = [] := by
      have e : treated (shift P a b c) = treated P := rfl
      rw [e, List.filterMap_eq_nil_iff, List.filterMap_eq_nil_iff]
      simp [shift]
    unfold avgTreated
    constructor
    · intro h; split at h
      · next h' => rw [this.1 h']
      · cases h
    · intro h; split at h
      · next h' => rw [this.2 h']
      · cases h
  unfold gaps
  have e : (shift P a b c).nT = P.nT := rfl
  rw [e, List.filterMap_eq_nil_iff, List.filterMap_eq_nil_iff]
  refine forall₂_congr fun t _ => ?_
  have e2 : isPre (shift P a b c) tp t = isPre P tp t := rfl
  rw [e2]
  by_cases h : isPre P tp t
  · rw [if_pos h, if_pos h]
    cases h1 : avgTreated P t with
    | none => rw [(hav t).2 h1]; simp
    | some x =>
      cases h2 : avgTreated (shift P a b c) t with
      | none => rw [(hav t).1 h2] at h1; cases h1
      | some x' => simp [shift]
  · rw [if_neg h, if_neg h]

theorem delta_shift_zero (v : Env K) (P : Data K) (tp : ℕ) (a b : ℕ → K) (c : K) (lamT : K) :
    delta v (shift P a b c) tp lamT 0 = delta v P tp lamT 0 := by
  funext t i; unfold delta
  have : unitW v (shift P a b c) tp 0 i = unitW v P tp 0 i := by
    have hn := gaps_nil_shift P tp a b c i
    unfold unitW
    cases h : gaps P tp i with
    | nil => rw [hn.2 h]
    | cons x l =>
      cases h' : gaps (shift P a b c) tp i with
      | nil => rw [hn.1 h'] at h; cases h
      | cons x' l' => simp
  rw [this]; rfl

/-! ### Invariance -/

/-- C98. With the tuning parameters held fixed, adding a level to each period and `c` times the treatment to the outcomes moves the
estimated effect by exactly `c`; with no decay over units this also holds for levels added to each unit. -/
theorem C98_fixed_tuning (v : Env K) (hl : LeastSquares v.lstsq) (hr : SqrtLike v.r) (hs : SvdLocal v.svd) (he : ∀ x, 0 < v.e x)
    (cf : Cfg K) (P : Data K) (tp : ℕ) (l : Lam3 K) (hR : HasRect P tp) (a b : ℕ → K) (c : K)
    (ha : l.unit = 0 ∨ (PreClean P tp ∧ ∀ i, a i = 0)) :
    (fitLam v cf (shift P a b c) tp l).map (fun f => f.1.tau) = (fitLam v cf P tp l).map (fun f => f.1.tau + c) := by
  obtain ⟨t0, t1, i0, i1, u00, u01, u10, u11, hd⟩ := hR
  have hT : 0 < P.nT := lt_of_le_of_lt (Nat.zero_le _) u00.1
  have hN : 0 < P.nN := lt_of_le_of_lt (Nat.zero_le _) u00.2.1
  have hδ : delta v (shift P a b c) tp l.time l.unit = delta v P tp l.time l.unit := by
    rcases ha with h | ⟨h, h'⟩
    · rw [h]; exact delta_shift_zero v P tp a b c l.time
    · have : a = fun _ => 0 := funext h'
      rw [this]; exact delta_shift v P tp h b c l.time l.unit
  have := fitW_shift v hl hr hs cf P hT hN (delta v P tp l.time l.unit) (fun t _ i _ => delta_nonneg v he P tp _ _ t i) l.nn a b c
  unfold fitLam
  rw [hδ]
  revert this
  cases h : fitW v cf P (delta v P tp l.time l.unit) l.nn with
  | none => cases h' : fitW v cf (shift P a b c) (delta v P tp l.time l.unit) l.nn with
    | none => intro _; rfl
    | some g => exact fun h => h.elim
  | some f => cases h' : fitW v cf (shift P a b c) (delta v P tp l.time l.unit) l.nn with
    | none => exact fun h => h.elim
    | some g =>
      intro hb
      have := hb.1.tau u00.1 u10.1 u00.2.1 u01.2.1 (u00.mask_ne he _ _) (u01.mask_ne he _ _) (u10.mask_ne he _ _) (u11.mask_ne he _ _) hd
      simp only [Option.map_some, this]

/-- Another unit and another period from which the outcome of an untreated cell can be predicted. -/
def HasPred (P : Data K) (tp : ℕ) (q : ℕ × ℕ) : Prop := ∃ t' i', t' ≠ q.1 ∧ i' ≠ q.2 ∧ Usable P tp q.1 i' ∧ Usable P tp t' q.2 ∧
  Usable P tp t' i' ∧ P.D q.1 i' = 0 ∧ P.D t' q.2 = 0 ∧ P.D t' i' = 0

theorem without_ne {v : Env K} (he : ∀ x, 0 < v.e x) {P : Data K} {tp t i : ℕ} {q : ℕ × ℕ} (h : Usable P tp t i) (hq : (t, i) ≠ q) (lamT lamU : K) :
    mask P.Y (without (delta v P tp lamT lamU) q) t i ≠ 0 := by
  have := h.mask_ne he lamT lamU
  unfold mask at this ⊢
  rw [if_pos h.2.2.1] at this ⊢
  unfold without; rw [if_neg hq]; exact this

theorem looTerm_shift (v : Env K) (hl : LeastSquares v.lstsq) (hr : SqrtLike v.r) (hs : SvdLocal v.svd) (he : ∀ x, 0 < v.e x)
    (cf : Cfg K) (P : Data K) (tp : ℕ) (l : Lam3 K) (a b : ℕ → K) (c : K)
    (ha : l.unit = 0 ∨ (PreClean P tp ∧ ∀ i, a i = 0)) (q : ℕ × ℕ) (hq : q ∈ TropFit.controlCells P) (hp : HasPred P tp q) :
    looTerm v cf (shift P a b c) tp l q = looTerm v cf P tp l q := by
  obtain ⟨t, i⟩ := q
  obtain ⟨t', i', ht', hi', u1, u2, u3, d1, d2, d3⟩ := hp
  have hT : 0 < P.nT := lt_of_le_of_lt (Nat.zero_le _) u1.1
  have hN : 0 < P.nN := lt_of_le_of_lt (Nat.zero_le _) u1.2.1
  have hδ : delta v (shift P a b c) tp l.time l.unit = delta v P tp l.time l.unit := by
    rcases ha with h | ⟨h, h'⟩
    · rw [h]; exact delta_shift_zero v P tp a b c l.time
    · have : a = fun _ => 0 := funext h'
      rw [this]; exact delta_shift v P tp h b c l.time l.unit
  have hW : ∀ s < P.nT, ∀ j < P.nN, 0 ≤ without (delta v P tp l.time l.unit) (t, i) s j := by
    intro s _ j _; unfold without; split_ifs
    · exact le_refl _
    · exact delta_nonneg v he P tp _ _ s j
  have hb := fitW_shift v hl hr hs cf P hT hN _ hW l.nn a b c
  rw [TropFit.controlCells, TropFit.mem_cells] at hq
  obtain ⟨hqt, hqi, hq⟩ := hq
  rw [Bool.and_eq_true, decide_eq_true_eq] at hq
  obtain ⟨y, hy⟩ := Option.isSome_iff_exists.1 hq.2
  dsimp only at *
  unfold looTerm looFit
  rw [hδ]
  revert hb
  cases h : fitW v cf P (without (delta v P tp l.time l.unit) (t, i)) l.nn with
  | none => cases h' : fitW v cf (shift P a b c) (without (delta v P tp l.time l.unit) (t, i)) l.nn with
    | none => intro _; rfl
    | some g => exact fun h => h.elim
  | some f => cases h' : fitW v cf (shift P a b c) (without (delta v P tp l.time l.unit) (t, i)) l.nn with
    | none => exact fun h => h.elim
    | some g =>
      intro hb
      have e := hb.1.pred u1.1 u2.1 hqi u1.2.1 (without_ne he u1 (by simp [hi']) _ _) (without_ne he u2 (by simp [ht']) _ _)
        (without_ne he u3 (by simp [hi']) _ _) d1 d2 d3
      have e2 := hb.2 t hqt i hqi
      have ey : ((shift P a b c).Y t i).getD 0 = y + a i + b t := by simp [shift, hy, hq.1]
      have ey2 : (P.Y t i).getD 0 = y := by rw [hy]; rfl
      simp only [Option.map_some]
      rw [ey, ey2, e2]
      congr 2
      linear_combination -e

theorem score_shift (v : Env K) (hl : LeastSquares v.lstsq) (hr : SqrtLike v.r) (hs : SvdLocal v.svd) (he : ∀ x, 0 < v.e x)
    (cf : Cfg K) (P : Data K) (tp : ℕ) (l : Lam3 K) (a b : ℕ → K) (c : K) (ha : l.unit = 0 ∨ (PreClean P tp ∧ ∀ i, a i = 0))
    (obs : List (ℕ × ℕ)) (ho : ∀ q ∈ obs, q ∈ TropFit.controlCells P ∧ HasPred P tp q) :
    score v cf (shift P a b c) tp obs l = score v cf P tp obs l := by
  have hm : ∀ l' : List (ℕ × ℕ), (∀ q ∈ l', q ∈ TropFit.controlCells P ∧ HasPred P tp q) →
      l'.mapM (looTerm v cf (shift P a b c) tp l) = l'.mapM (looTerm v cf P tp l) := by
    intro l' hl'
    induction l' with
    | nil => rfl
    | cons q qs ih =>
      rw [List.mapM_cons, List.mapM_cons, ih (fun q hq => hl' q (List.mem_cons_of_mem _ hq)),
        looTerm_shift v hl hr hs he cf P tp l a b c ha q (hl' q (List.mem_cons_self)).1 (hl' q (List.mem_cons_self)).2]
  unfold score
  cases obs with
  | nil => rfl
  | cons q qs => dsimp only; rw [hm (q :: qs) ho]

/-- C98. The whole fit, tuning included: adding a level to each period (in particular changing the origin of the outcome) and `c` times
the treatment to the outcomes leaves the selected tuning parameters and the stored score unchanged and moves the effect by exactly
`c`, provided every untreated cell used for tuning can be predicted from another unit and another period. -/
theorem C98_fit (v : Env K) (hl : LeastSquares v.lstsq) (hr : SqrtLike v.r) (hs : SvdLocal v.svd) (he : ∀ x, 0 < v.e x)
    (cf : Cfg K) (pick : List (ℕ × ℕ) → List (ℕ × ℕ)) (hpick : ∀ l, ∀ q ∈ pick l, q ∈ l) (P : Data K) (tp : ℕ) (gt gu gn : List (Option K))
    (hR : HasRect P tp) (hQ : ∀ q ∈ TropFit.controlCells P, HasPred P tp q) (hp : PreClean P tp) (b : ℕ → K) (c : K) :
    (fitData v cf pick (shift P (fun _ => 0) b c) tp gt gu gn).1 = (fitData v cf pick P tp gt gu gn).1 ∧
    (fitData v cf pick (shift P (fun _ => 0) b c) tp gt gu gn).2 = (fitData v cf pick P tp gt gu gn).2.map (fun x => x + c) := by
  have hc : TropFit.controlCells (shift P (fun _ => 0) b c) = TropFit.controlCells P := by
    unfold TropFit.controlCells
    exact TropFit.cells_congr rfl rfl fun t i => by simp [shift]
  have hsc : score v cf (shift P (fun _ => 0) b c) tp (pick (TropFit.controlCells P)) = score v cf P tp (pick (TropFit.controlCells P)) := by
    funext l
    exact score_shift v hl hr hs he cf P tp l _ b c (Or.inr ⟨hp, fun _ => rfl⟩) _ fun q hq => ⟨hpick _ q hq, hQ q (hpick _ q hq)⟩
  unfold fitData
  rw [hc, hsc]
  refine ⟨rfl, ?_⟩
  have := C98_fixed_tuning v hl hr hs he cf P tp (conv (search (score v cf P tp (pick (TropFit.controlCells P))) gt gu gn).1) hR
    (fun _ => 0) b c (Or.inr ⟨hp, fun _ => rfl⟩)
  rw [this, Option.map_map]; rfl

/-- In a complete panel with two units never treated and two periods before treatment, the conditions of `C98_fit` hold. -/
theorem complete_panel (P : Data K) (tp : ℕ) (hY : ∀ t < P.nT, ∀ i < P.nN, (P.Y t i).isSome = true) (hp : PreClean P tp) (h2 : 1 + tp < P.nT)
    (c1 c2 : ℕ) (h12 : c1 ≠ c2) (hc1 : c1 < P.nN) (hc2 : c2 < P.nN) (h1 : ∀ t, P.D t c1 = 0) (h2' : ∀ t, P.D t c2 = 0)
    (hx : ∃ t < P.nT, ∃ i < P.nN, P.D t i = 1) : HasRect P tp ∧ ∀ q ∈ TropFit.controlCells P, HasPred P tp q := by
  obtain ⟨t1, ht1, i1, hi1, hd⟩ := hx
  have htr : i1 ∈ treated P := by
    unfold treated TropFit.treatedUnits
    rw [List.mem_filter, List.any_eq_true]
    exact ⟨List.mem_range.2 hi1, t1, List.mem_range.2 ht1, by simpa using hd⟩
  have hg : ∀ i < P.nN, gaps P tp i ≠ [] := by
    intro i hi h
    unfold gaps at h
    rw [List.filterMap_eq_nil_iff] at h
    have := h 0 (List.mem_range.2 (by omega))
    rw [if_pos (by simp only [isPre, decide_eq_true_eq]; omega)] at this
    have hav : (avgTreated P 0).isSome = true := by
      unfold avgTreated
      split
      · next h' =>
        rw [List.filterMap_eq_nil_iff] at h'
        have := h' i1 htr
        have h3 := hY 0 (by omega) i1 hi1
        rw [this] at h3; cases h3
      · rfl
    obtain ⟨x, hx⟩ := Option.isSome_iff_exists.1 hav
    obtain ⟨y, hy⟩ := Option.isSome_iff_exists.1 (hY 0 (by omega) i hi)
    rw [hx, hy] at this; cases this
  have hu : ∀ t < P.nT, ∀ i < P.nN, Usable P tp t i := fun t ht i hi => ⟨ht, hi, hY t ht i hi, hg i hi⟩
  refine ⟨⟨0, t1, c1, i1, hu _ (by omega) _ hc1, hu _ (by omega) _ hi1, hu _ ht1 _ hc1, hu _ ht1 _ hi1, ?_⟩, ?_⟩
  · rw [hd, h1, h1, hp 0 (by omega)]; decide
  · intro q hq
    rw [TropFit.controlCells, TropFit.mem_cells] at hq
    obtain ⟨t', ht', htp⟩ : ∃ t', t' ≠ q.1 ∧ t' + tp < P.nT := by
      by_cases h : q.1 = 0
      · exact ⟨1, by omega, h2⟩
      · exact ⟨0, by omega, by omega⟩
    obtain ⟨i', hi', hin, hz⟩ : ∃ i', i' ≠ q.2 ∧ i' < P.nN ∧ ∀ t, P.D t i' = 0 := by
      by_cases h : q.2 = c1
      · exact ⟨c2, by omega, hc2, h2'⟩
      · exact ⟨c1, by omega, hc1, h1⟩
    exact ⟨t', i', ht', hi', hu _ hq.1 _ hin, hu _ (by omega) _ hq.2.1, hu _ (by omega) _ hin, hz _, hp t' htp _, hz _⟩

end DiffDiff.TropJoint
