/-
`TROP(method="joint")`: tuning search, accepted panels, shape of the weights, jackknife, leave-one-out fits; concrete cases.
-/
import Verif.TropJointShiftProps

set_option linter.unusedSectionVars false
set_option linter.unusedVariables false

namespace DiffDiff.TropJoint

open TropFit (Data Cfg)
open Finset

section
variable {K : Type*} [Field K] [LinearOrder K] [IsStrictOrderedRing K]

/-! ### Tuning search -/

/-- State of the search after a list of combinations. -/
theorem fold_better (sc : Lam3 K → Option K) (ls : List (Option K × Option K × Option K)) :
    (ls.foldl (better sc) none = none ∧ ∀ l ∈ ls, sc (conv l) = none) ∨
    ∃ l s pre post, ls.foldl (better sc) none = some (l, s) ∧ ls = pre ++ l :: post ∧ sc (conv l) = some s ∧
      (∀ x ∈ pre, ∀ s', sc (conv x) = some s' → s < s') ∧ (∀ x ∈ post, ∀ s', sc (conv x) = some s' → s ≤ s') := by
  induction ls using List.reverseRecOn with
  | nil => exact Or.inl ⟨rfl, by simp⟩
  | append_singleton ls l ih =>
    rw [List.foldl_append, List.foldl_cons, List.foldl_nil]
    rcases ih with ⟨h, hn⟩ | ⟨l0, s0, pre, post, h, he, hs, h1, h2⟩
    · rw [h]
      cases hl : sc (conv l) with
      | none =>
        refine Or.inl ⟨by simp [better, hl], fun x hx => ?_⟩
        rcases List.mem_append.1 hx with hx | hx
        · exact hn x hx
        · rw [List.mem_singleton.1 hx]; exact hl
      | some s =>
        refine Or.inr ⟨l, s, ls, [], by simp [better, hl], rfl, hl, fun x hx s' hx' => ?_, by simp⟩
        rw [hn x hx] at hx'; cases hx'
    · rw [h]
      cases hl : sc (conv l) with
      | none =>
        refine Or.inr ⟨l0, s0, pre, post ++ [l], by simp [better, hl], by rw [he]; simp, hs, h1, fun x hx s' hx' => ?_⟩
        rcases List.mem_append.1 hx with hx | hx
        · exact h2 x hx s' hx'
        · rw [List.mem_singleton.1 hx, hl] at hx'; cases hx'
      | some s =>
        by_cases hlt : s < s0
        · refine Or.inr ⟨l, s, ls, [], by simp [better, hl, hlt], rfl, hl, fun x hx s' hx' => ?_, by simp⟩
          rw [he] at hx
          rcases List.mem_append.1 hx with hx | hx
          · exact lt_trans hlt (h1 x hx s' hx')
          · rcases List.mem_cons.1 hx with hx | hx
            · rw [hx, hs] at hx'; cases hx'; exact hlt
            · exact lt_of_lt_of_le hlt (h2 x hx s' hx')
        · refine Or.inr ⟨l0, s0, pre, post ++ [l], by simp [better, hl, hlt], by rw [he]; simp, hs, h1, fun x hx s' hx' => ?_⟩
          rcases List.mem_append.1 hx with hx | hx
          · exact h2 x hx s' hx'
          · rw [List.mem_singleton.1 hx, hl] at hx'; cases hx'; exact not_lt.1 hlt

theorem mem_combos {gt gu gn : List (Option K)} {l : Option K × Option K × Option K} :
    l ∈ combos gt gu gn ↔ l.1 ∈ gt ∧ l.2.1 ∈ gu ∧ l.2.2 ∈ gn := by
  obtain ⟨a, b, c⟩ := l
  simp only [combos, List.mem_flatMap, List.mem_map, Prod.mk.injEq]
  constructor
  · rintro ⟨_, ha, _, hb, _, hc, rfl, rfl, rfl⟩; exact ⟨ha, hb, hc⟩
  · rintro ⟨ha, hb, hc⟩; exact ⟨a, ha, b, hb, c, hc, rfl, rfl, rfl⟩

/-- C99. The selected combination comes from the user's grids and its stored score is the smallest over all combinations of the
three grids (ties: the first in loop order). -/
theorem C99_minimiser (sc : Lam3 K → Option K) (gt gu gn : List (Option K)) (l : Option K × Option K × Option K) (s : K)
    (h : search sc gt gu gn = (l, some s)) :
    l.1 ∈ gt ∧ l.2.1 ∈ gu ∧ l.2.2 ∈ gn ∧ sc (conv l) = some s ∧
    (∀ a ∈ gt, ∀ b ∈ gu, ∀ n ∈ gn, ∀ s', sc (conv (a, b, n)) = some s' → s ≤ s') ∧
    ∃ pre post, (gt.flatMap (fun a => gu.flatMap (fun b => gn.map (fun n => (a, b, n))))) = pre ++ l :: post ∧
      ∀ x ∈ pre, sc (conv x) ≠ some s := by
  unfold search at h
  rcases fold_better sc (combos gt gu gn) with ⟨h', _⟩ | ⟨l0, s0, pre, post, h', he, hs, h1, h2⟩
  · rw [h'] at h; simp at h
  · rw [h'] at h
    simp only [Prod.mk.injEq, Option.some.injEq] at h
    obtain ⟨rfl, rfl⟩ := h
    have hm : l0 ∈ combos gt gu gn := by rw [he]; simp
    obtain ⟨ha, hb, hc⟩ := mem_combos.1 hm
    refine ⟨ha, hb, hc, hs, fun a ha b hb n hn s' hs' => ?_, pre, post, he, fun x hx hx' => lt_irrefl _ (h1 x hx _ hx')⟩
    have : (a, b, n) ∈ combos gt gu gn := mem_combos.2 ⟨ha, hb, hn⟩
    rw [he] at this
    rcases List.mem_append.1 this with hx | hx
    · exact (h1 _ hx s' hs').le
    · rcases List.mem_cons.1 hx with hx | hx
      · rw [hx, hs] at hs'; cases hs'; exact le_refl _
      · exact h2 _ hx s' hs'

/-- C99. The score is reported as missing, and the defaults `(1, 1, 0.1)` are used, exactly when no combination can be scored. -/
theorem C99_defaults (sc : Lam3 K → Option K) (gt gu gn : List (Option K)) :
    ((search sc gt gu gn).2 = none ↔ ∀ a ∈ gt, ∀ b ∈ gu, ∀ n ∈ gn, sc (conv (a, b, n)) = none) ∧
    ((search sc gt gu gn).2 = none → (search sc gt gu gn).1 = (some 1, some 1, some (1 / 10))) := by
  unfold search
  rcases fold_better sc (combos gt gu gn) with ⟨h', hn⟩ | ⟨l0, s0, pre, post, h', he, hs, h1, h2⟩
  · rw [h']
    exact ⟨⟨fun _ a ha b hb n hn' => hn _ (mem_combos.2 ⟨ha, hb, hn'⟩), fun _ => rfl⟩, fun _ => rfl⟩
  · rw [h']
    refine ⟨⟨fun h => by simp at h, fun h => ?_⟩, fun h => by simp at h⟩
    have hm : l0 ∈ combos gt gu gn := by rw [he]; simp
    obtain ⟨ha, hb, hc⟩ := mem_combos.1 hm
    have := h _ ha _ hb _ hc
    rw [show (l0.1, l0.2.1, l0.2.2) = l0 from rfl, hs] at this; cases this

/-- Grid values with infinity written as the number that is used for it. -/
def finite (d : K) (g : List (Option K)) : List (Option K) := g.map (fun x => some (x.getD d))

/-- C99. An infinite grid value means 0 for the two decay parameters and `1e10` (no factor matrix) for the third: replacing it changes
neither the stored score nor the effect. -/
theorem C99_infinity (v : Env K) (cf : Cfg K) (pick : List (ℕ × ℕ) → List (ℕ × ℕ)) (P : Data K) (tp : ℕ) (gt gu gn : List (Option K)) :
    (fitData v cf pick P tp (finite 0 gt) (finite 0 gu) (finite (10 ^ 10) gn)).1.2 = (fitData v cf pick P tp gt gu gn).1.2 ∧
    (fitData v cf pick P tp (finite 0 gt) (finite 0 gu) (finite (10 ^ 10) gn)).2 = (fitData v cf pick P tp gt gu gn).2 := by
  let f : Option K × Option K × Option K → Option K × Option K × Option K :=
    fun l => (some (l.1.getD 0), some (l.2.1.getD 0), some (l.2.2.getD (10 ^ 10)))
  have hf : ∀ l, conv (f l) = conv l := fun l => rfl
  have hc : combos (finite 0 gt) (finite 0 gu) (finite (10 ^ 10) gn) = (combos gt gu gn).map f := by
    simp [combos, finite, List.map_flatMap, List.flatMap_map, f, Function.comp_def]
  have hfold : ∀ (sc : Lam3 K → Option K) (ls : List (Option K × Option K × Option K)) (b : Option ((Option K × Option K × Option K) × K)),
      (ls.map f).foldl (better sc) (b.map (fun x => (f x.1, x.2))) = (ls.foldl (better sc) b).map (fun x => (f x.1, x.2)) := by
    intro sc ls
    induction ls with
    | nil => intro b; rfl
    | cons l ls ih =>
      intro b
      rw [List.map_cons, List.foldl_cons, List.foldl_cons, ← ih]
      congr 1
      unfold better
      rw [hf]
      cases sc (conv l) with
      | none => cases b <;> rfl
      | some s =>
        cases b with
        | none => rfl
        | some b =>
          simp only [Option.map_some]
          split_ifs <;> rfl
  have hsearch : ∀ sc : Lam3 K → Option K,
      (search sc (finite 0 gt) (finite 0 gu) (finite (10 ^ 10) gn)).2 = (search sc gt gu gn).2 ∧
      conv (search sc (finite 0 gt) (finite 0 gu) (finite (10 ^ 10) gn)).1 = conv (search sc gt gu gn).1 := by
    intro sc
    unfold search
    rw [hc]
    have := hfold sc (combos gt gu gn) none
    rw [Option.map_none] at this
    rw [this]
    cases (combos gt gu gn).foldl (better sc) none with
    | none => exact ⟨rfl, rfl⟩
    | some b => exact ⟨rfl, hf b.1⟩
  unfold fitData
  exact ⟨(hsearch _).1, by rw [(hsearch _).2]⟩

/-! ### Shape of the weights -/

/-- Mean squared gap between the average of the treated units and a unit over pre-treatment periods in which both are observed. -/
def gapSpec (P : Data K) (tp i : ℕ) (d : K) : Prop := ∃ l : List K, l ≠ [] ∧ d = l.sum / (l.length : K) ∧
  l = (List.range (P.nT - tp)).filterMap (fun t => (avgTreated P t).bind (fun a => (P.Y t i).map (fun y => (a - y) ^ 2)))

theorem gaps_eq (P : Data K) (tp i : ℕ) : gaps P tp i =
    (List.range (P.nT - tp)).filterMap (fun t => (avgTreated P t).bind (fun a => (P.Y t i).map (fun y => (a - y) ^ 2))) := by
  unfold gaps
  have e : P.nT = (P.nT - tp) + (P.nT - (P.nT - tp)) := by omega
  conv_lhs => rw [e, List.range_add, List.filterMap_append]
  have h1 : ∀ t ∈ List.range (P.nT - tp), (if isPre P tp t = true then (avgTreated P t).bind (fun a => (P.Y t i).map (fun y => (a - y) ^ 2)) else none)
      = (avgTreated P t).bind (fun a => (P.Y t i).map (fun y => (a - y) ^ 2)) := by
    intro t ht
    have := List.mem_range.1 ht
    rw [if_pos (by simp only [isPre, decide_eq_true_eq]; omega)]
  rw [List.filterMap_congr h1]
  have h2 : (List.map (fun x => P.nT - tp + x) (List.range (P.nT - (P.nT - tp)))).filterMap (fun t =>
      if isPre P tp t = true then (avgTreated P t).bind (fun a => (P.Y t i).map (fun y => (a - y) ^ 2)) else none) = [] := by
    rw [List.filterMap_eq_nil_iff]
    intro t ht
    obtain ⟨x, _, rfl⟩ := List.mem_map.1 ht
    rw [if_neg (by simp only [isPre, decide_eq_true_eq]; omega)]
  rw [h2, List.append_nil]

/-- C101. Joint time weights are positive, at most 1, and decrease with the distance to `T - treated_periods / 2`; unit weights are
between 0 and 1, 0 exactly for units that share no observed pre-treatment period with the treated average, and not larger for a unit
further from it; weights multiply. -/
theorem C101_shape (v : Env K) (he : TropFit.ExpLike v.e) (hr : ∀ x, 0 ≤ v.r x) (hm : ∀ x y, 0 ≤ x → x ≤ y → v.r x ≤ v.r y)
    (P : Data K) (tp : ℕ) (lamT lamU : K) (hlT : 0 ≤ lamT) (hlU : 0 ≤ lamU) :
    (∀ t, 0 < timeW v P.nT tp lamT t ∧ timeW v P.nT tp lamT t ≤ 1) ∧
    (∀ s t : ℕ, |(s : K) - ((P.nT : K) - tp / 2)| ≤ |(t : K) - ((P.nT : K) - tp / 2)| → timeW v P.nT tp lamT t ≤ timeW v P.nT tp lamT s) ∧
    (∀ i, 0 ≤ unitW v P tp lamU i ∧ unitW v P tp lamU i ≤ 1) ∧
    (∀ i, unitW v P tp lamU i = 0 ↔ ¬ ∃ d, gapSpec P tp i d) ∧
    (∀ i j d d', gapSpec P tp i d → gapSpec P tp j d' → d ≤ d' → unitW v P tp lamU j ≤ unitW v P tp lamU i) ∧
    (∀ t i, delta v P tp lamT lamU t i = timeW v P.nT tp lamT t * unitW v P tp lamU i) := by
  have le1 : ∀ x, x ≤ 0 → v.e x ≤ 1 := fun x hx => by rw [← he.zero]; exact he.mono _ _ hx
  have hval : ∀ i d, gapSpec P tp i d → unitW v P tp lamU i = v.e (-lamU * v.r d) := by
    rintro i d ⟨l, hl, hd, hg⟩
    rw [← gaps_eq] at hg
    unfold unitW; rw [← hg]
    cases l with
    | nil => exact absurd rfl hl
    | cons x xs => dsimp only; rw [hd]
  have hnn : ∀ i d, gapSpec P tp i d → 0 ≤ d := by
    rintro i d ⟨l, hl, hd, hg⟩
    rw [hd]
    refine div_nonneg (List.sum_nonneg fun x hx => ?_) (Nat.cast_nonneg _)
    rw [hg, List.mem_filterMap] at hx
    obtain ⟨t, _, ht⟩ := hx
    obtain ⟨a, _, ha⟩ := Option.bind_eq_some_iff.1 ht
    obtain ⟨y, _, rfl⟩ := Option.map_eq_some_iff.1 ha
    exact sq_nonneg _
  have hspec : ∀ i, (∃ d, gapSpec P tp i d) ↔ gaps P tp i ≠ [] := by
    intro i
    rw [gaps_eq]
    constructor
    · rintro ⟨d, l, hl, _, rfl⟩; exact hl
    · intro h; exact ⟨_, _, h, rfl, rfl⟩
  refine ⟨fun t => ⟨he.pos _, le1 _ ?_⟩, fun s t h => he.mono _ _ ?_, fun i => ⟨unitW_nonneg v he.pos P tp lamU i, ?_⟩, fun i => ?_,
    fun i j d d' hi hj hd => ?_, fun t i => rfl⟩
  · have := mul_nonneg hlT (abs_nonneg ((t : K) - ((P.nT : K) - tp / 2))); linarith
  · have := mul_le_mul_of_nonneg_left h hlT; linarith
  · unfold unitW; split
    · exact zero_le_one
    · refine le1 _ ?_
      rw [neg_mul]; exact neg_nonpos.2 (mul_nonneg hlU (hr _))
  · rw [hspec, not_not]
    constructor
    · intro h
      by_contra hne
      exact (unitW_pos v he.pos P tp lamU i hne).ne' h
    · intro h; unfold unitW; rw [h]
  · rw [hval i d hi, hval j d' hj]
    refine he.mono _ _ ?_
    have := mul_le_mul_of_nonneg_left (hm d d' (hnn i d hi) hd) hlU
    linarith

/-- C101. The weights do not depend on outcomes from the treatment periods. -/
theorem C101_pre_only (v : Env K) (P P' : Data K) (tp : ℕ) (lamT lamU : K) (hT : P.nT = P'.nT) (hN : P.nN = P'.nN) (hD : P.D = P'.D)
    (hY : ∀ t, t + tp < P.nT → ∀ i, P.Y t i = P'.Y t i) (t i : ℕ) : delta v P tp lamT lamU t i = delta v P' tp lamT lamU t i := by
  have htr : treated P = treated P' := by unfold treated TropFit.treatedUnits; rw [hT, hN, hD]
  have hg : gaps P tp i = gaps P' tp i := by
    rw [gaps_eq, gaps_eq, hT]
    refine List.filterMap_congr fun s hs => ?_
    have hs := List.mem_range.1 hs
    have e : ∀ j, P.Y s j = P'.Y s j := hY s (by omega)
    have ea : avgTreated P s = avgTreated P' s := by unfold avgTreated; rw [htr]; simp only [e]
    rw [ea, e i]
  unfold delta unitW; rw [hg, hT]

/-- C101, refuted for the centre of the treated block. The documentation measures time distance to the centre of the treated block,
which is halfway between its first and last period. The code's reference point lies half a period later: with two or more treated periods and a
positive decay parameter the last treated period weighs more than the first, instead of the same. -/
theorem C101_center_refuted (v : Env K) (hm : ∀ x y, x < y → v.e x < v.e y) (nT tp : ℕ) (h2 : 2 ≤ tp) (hT : tp ≤ nT) (lamT : K) (hl : 0 < lamT) :
    |((nT - tp : ℕ) : K) - ((nT - tp : ℕ) + (nT - 1 : ℕ)) / 2| = |((nT - 1 : ℕ) : K) - ((nT - tp : ℕ) + (nT - 1 : ℕ)) / 2| ∧
    timeW v nT tp lamT (nT - tp) < timeW v nT tp lamT (nT - 1) := by
  obtain ⟨k, rfl⟩ : ∃ k, nT = tp + k := ⟨nT - tp, by omega⟩
  obtain ⟨m, rfl⟩ : ∃ m, tp = m + 2 := ⟨tp - 2, by omega⟩
  have e1 : m + 2 + k - (m + 2) = k := by omega
  have e2 : m + 2 + k - 1 = m + 1 + k := by omega
  rw [e1, e2]
  have hm0 : (0 : K) ≤ (m : K) := Nat.cast_nonneg _
  constructor
  · rw [show ((k : ℕ) : K) - ((k : K) + ((m + 1 + k : ℕ) : K)) / 2 = -(((m + 1 + k : ℕ) : K) - ((k : K) + ((m + 1 + k : ℕ) : K)) / 2) by ring, abs_neg]
  · unfold timeW
    refine hm _ _ ?_
    push_cast
    have a1 : |(k : K) - ((m : K) + 2 + k - (m + 2) / 2)| = (m + 2) / 2 := by
      rw [show (k : K) - ((m : K) + 2 + k - (m + 2) / 2) = -((m + 2) / 2) by ring, abs_neg, abs_of_nonneg (by linarith)]
    have a2 : |(m : K) + 1 + k - ((m : K) + 2 + k - (m + 2) / 2)| = m / 2 := by
      rw [show (m : K) + 1 + k - ((m : K) + 2 + k - (m + 2) / 2) = m / 2 by ring, abs_of_nonneg (by linarith)]
    rw [a1, a2]
    nlinarith

/-! ### Jackknife -/

theorem sqrt_zero {r : K → K} (h : SqrtLike r) : r 0 = 0 := mul_self_eq_zero.1 (h 0 le_rfl)

theorem solve_ignores (v : Env K) (hr : SqrtLike v.r) (nT nN : ℕ) (Y Y' : ℕ → ℕ → Option K) (D : ℕ → ℕ → ℤ) (W : ℕ → ℕ → K)
    (h : ∀ t i, W t i = 0 ∨ Y t i = Y' t i) : solve v nT nN Y D W = solve v nT nN Y' D W := by
  have hm : mask Y W = mask Y' W := by
    funext t i
    rcases h t i with h | h
    · simp [mask, h]
    · simp [mask, h]
  unfold solve
  rw [hm]
  have : (fun row => (Y (row / nN) (row % nN)).getD 0 * v.r (max (mask Y' W (row / nN) (row % nN)) 0))
      = (fun row => (Y' (row / nN) (row % nN)).getD 0 * v.r (max (mask Y' W (row / nN) (row % nN)) 0)) := by
    funext row
    rcases h (row / nN) (row % nN) with h | h
    · have : mask Y' W (row / nN) (row % nN) = 0 := by unfold mask; rw [h]; split_ifs <;> rfl
      rw [this, max_self, sqrt_zero hr, mul_zero, mul_zero]
    · rw [h]
  rw [this]

theorem lowStep_ignores (v : Env K) (nT nN : ℕ) (y y' W : ℕ → ℕ → K) (D : ℕ → ℕ → ℤ) (lam : K) (s : Sol K) (L : ℕ → ℕ → K)
    (h : ∀ t i, W t i = 0 ∨ y t i = y' t i) : lowStep v nT nN y W D lam s L = lowStep v nT nN y' W D lam s L := by
  unfold lowStep
  congr 1
  funext t i
  rcases h t i with h | h
  · simp [h]
  · rw [h]

theorem lowLoop_ignores (v : Env K) (hr : SqrtLike v.r) (tol : K) (nT nN : ℕ) (y y' W : ℕ → ℕ → K) (D : ℕ → ℕ → ℤ) (lam : K)
    (h : ∀ t i, W t i = 0 ∨ y t i = y' t i) (n : ℕ) : ∀ L, lowLoop v tol nT nN y D W lam n L = lowLoop v tol nT nN y' D W lam n L := by
  have hs : ∀ L : ℕ → ℕ → K, solve v nT nN (fun t i => some (y t i - L t i)) D W = solve v nT nN (fun t i => some (y' t i - L t i)) D W := by
    intro L
    refine solve_ignores v hr nT nN _ _ D W fun t i => ?_
    rcases h t i with h | h
    · exact Or.inl h
    · exact Or.inr (by rw [h])
  induction n with
  | zero =>
    intro L
    rw [lowLoop, lowLoop, hs L]
    cases solve v nT nN (fun t i => some (y' t i - L t i)) D W with
    | none => rfl
    | some s => dsimp only; rw [lowStep_ignores v nT nN y y' W D lam s L h]
  | succ n ih =>
    intro L
    rw [lowLoop, lowLoop, hs L]
    cases solve v nT nN (fun t i => some (y' t i - L t i)) D W with
    | none => rfl
    | some s => dsimp only; rw [lowStep_ignores v nT nN y y' W D lam s L h, ih]

theorem fitW_ignores (v : Env K) (hr : SqrtLike v.r) (cf : Cfg K) (P P' : Data K) (W : ℕ → ℕ → K) (lamN : K) (hT : P.nT = P'.nT)
    (hN : P.nN = P'.nN) (hD : P.D = P'.D) (h : ∀ t i, W t i = 0 ∨ P.Y t i = P'.Y t i) : fitW v cf P W lamN = fitW v cf P' W lamN := by
  have hm : mask P.Y W = mask P'.Y W := by
    funext t i
    rcases h t i with h | h <;> simp [mask, h]
  unfold fitW
  split_ifs
  · rw [hT, hN, hD, solve_ignores v hr _ _ P.Y P'.Y P'.D W h]
  · unfold solveLow
    rw [hT, hN, hD, hm]
    refine lowLoop_ignores v hr _ _ _ _ _ _ _ _ (fun t i => ?_) _ _
    rcases h t i with h | h
    · left; unfold mask; rw [h]; split_ifs <;> rfl
    · right; rw [h]

/-- C102. The jackknife replicate that leaves out a treated unit does not depend on that unit's outcomes in any period (observed or
missing): it is the same for two panels that differ only there. -/
theorem C102_left_out (v : Env K) (hr : SqrtLike v.r) (cf : Cfg K) (P P' : Data K) (tp : ℕ) (l : Lam3 K) (u : ℕ) (hT : P.nT = P'.nT)
    (hN : P.nN = P'.nN) (hD : P.D = P'.D) (hY : ∀ t i, i ≠ u → P.Y t i = P'.Y t i) :
    jackOne v cf P tp l u = jackOne v cf P' tp l u := by
  have htr : treated (untreat P u) = treated (untreat P' u) := by
    unfold treated TropFit.treatedUnits untreat; simp only [hT, hN, hD]
  have hnot : u ∉ treated (untreat P' u) := by
    unfold treated TropFit.treatedUnits untreat; simp
  have hav : ∀ t, avgTreated (untreat P u) t = avgTreated (untreat P' u) t := by
    intro t
    unfold avgTreated
    rw [htr]
    have : (treated (untreat P' u)).filterMap (fun i => (untreat P u).Y t i) = (treated (untreat P' u)).filterMap (fun i => (untreat P' u).Y t i) := by
      refine List.filterMap_congr fun i hi => ?_
      exact hY t i (fun h => hnot (h ▸ hi))
    rw [this]
  have hg : ∀ i, i ≠ u → gaps (untreat P u) tp i = gaps (untreat P' u) tp i := by
    intro i hi
    rw [gaps_eq, gaps_eq]
    have e1 : (untreat P u).nT = (untreat P' u).nT := hT
    rw [e1]
    refine List.filterMap_congr fun t _ => ?_
    rw [hav t, show (untreat P u).Y t i = (untreat P' u).Y t i from hY t i hi]
  have hW : (fun t i => if i = u then 0 else delta v (untreat P u) tp l.time l.unit t i)
      = (fun t i => if i = u then 0 else delta v (untreat P' u) tp l.time l.unit t i) := by
    funext t i
    split_ifs with h
    · rfl
    · unfold delta unitW; rw [hg i h, show (untreat P u).nT = (untreat P' u).nT from hT]
  unfold jackOne
  rw [htr, hW]
  rw [fitW_ignores v hr cf (untreat P u) (untreat P' u) _ l.nn hT hN (by unfold untreat; simp only [hD]) (fun t i => ?_)]
  by_cases h : i = u
  · left; rw [if_pos h]
  · right; exact hY t i h

/-- C102. With a single treated unit no replicate can be computed and the standard error is 0 (reported inference is then undefined). -/
theorem C102_one_treated (v : Env K) (cf : Cfg K) (P : Data K) (tp : ℕ) (l : Lam3 K) (u : ℕ)
    (h : ∀ t < P.nT, ∀ i < P.nN, P.D t i = 1 → i = u) : jackknife v cf P tp l = (0, []) := by
  have hsub : ∀ i ∈ treated P, i = u := by
    intro i hi
    unfold treated TropFit.treatedUnits at hi
    rw [List.mem_filter, List.any_eq_true] at hi
    obtain ⟨hi, t, ht, hd⟩ := hi
    exact h t (List.mem_range.1 ht) i (List.mem_range.1 hi) (by simpa using hd)
  have hnone : ∀ i ∈ treated P, jackOne v cf P tp l i = none := by
    intro i hi
    have hi := hsub i hi
    subst hi
    unfold jackOne
    rw [if_pos]
    unfold treated TropFit.treatedUnits
    rw [List.filter_eq_nil_iff]
    intro j hj hany
    rw [List.any_eq_true] at hany
    obtain ⟨t, ht, hd⟩ := hany
    have hd := of_decide_eq_true hd
    simp only [untreat] at hd
    by_cases hji : j = i
    · rw [if_pos hji] at hd; exact absurd hd (by decide)
    · rw [if_neg hji] at hd
      exact hji (h t (List.mem_range.1 ht) j (List.mem_range.1 hj) hd)
  have : (treated P).filterMap (jackOne v cf P tp l) = [] := List.filterMap_eq_nil_iff.2 hnone
  unfold jackknife
  rw [this]; simp

end

/-! ### Accepted panels -/

section
variable {U T K : Type*} [LinearOrder U] [LinearOrder T] [Field K] [LinearOrder K] [IsStrictOrderedRing K] [FloorRing K]

/-- All treated units are first observed treated in the same period. -/
def Simultaneous (rows : List (Trop.Row U T K)) : Prop :=
  ∀ r ∈ rows, r.d = some 1 → ∀ s ∈ rows, s.d = some 1 → ∃ s' ∈ rows, s'.unit = s.unit ∧ s'.d = some 1 ∧ s'.time ≤ r.time

theorem firstTreat_spec {rows : List (Trop.Row U T K)} (hnd : Trop.OneRowPerCell rows) (hb : Trop.Binary rows) (u : U) (t : T) :
    firstTreat rows u = some t ↔ (∃ r ∈ rows, r.unit = u ∧ r.d = some 1 ∧ r.time = t) ∧ ∀ r ∈ rows, r.unit = u → r.d = some 1 → t ≤ r.time := by
  have key : ∀ t, (Trop.dRaw rows t u).map Trop.trunc = some 1 ↔ ∃ r ∈ rows, r.unit = u ∧ r.d = some 1 ∧ r.time = t := by
    intro t
    rw [Option.map_eq_some_iff]
    constructor
    · rintro ⟨x, hx, h1⟩
      obtain ⟨r, hr, h2, h3, h4⟩ := Trop.dRaw_some hx
      refine ⟨r, hr, h2, ?_, h3⟩
      rcases Trop.trunc_binary hb hr h4 with ⟨_, h⟩ | ⟨h, _⟩
      · omega
      · rw [h4, h]
    · rintro ⟨r, hr, rfl, h2, rfl⟩
      exact ⟨1, by rw [Trop.dRaw_row hnd hr, h2], Trop.trunc_one⟩
  unfold firstTreat
  rw [List.find?_eq_some_iff_append]
  have hs := Trop.periodsOf_sorted rows
  constructor
  · rintro ⟨h, as, bs, he, hn⟩
    rw [decide_eq_true_eq, key] at h
    refine ⟨h, fun r hr hu hd => ?_⟩
    have hm : r.time ∈ as ++ t :: bs := by rw [← he]; exact Trop.mem_periodsOf.2 ⟨r, hr, rfl⟩
    rw [he, List.pairwise_append, List.pairwise_cons] at hs
    rcases List.mem_append.1 hm with hm | hm
    · have := hn r.time hm
      simp only [Bool.not_eq_true', decide_eq_false_iff_not] at this
      exact absurd ((key _).2 ⟨r, hr, hu, hd, rfl⟩) this
    · rcases List.mem_cons.1 hm with hm | hm
      · exact hm.ge
      · exact (hs.2.1.1 _ hm).le
  · rintro ⟨⟨r, hr, hu, hd, ht⟩, hmin⟩
    refine ⟨by rw [decide_eq_true_eq, key]; exact ⟨r, hr, hu, hd, ht⟩, ?_⟩
    obtain ⟨as, bs, he⟩ := List.append_of_mem (show t ∈ Trop.periodsOf rows from Trop.mem_periodsOf.2 ⟨r, hr, ht⟩)
    refine ⟨as, bs, he, fun a ha => ?_⟩
    simp only [Bool.not_eq_true', decide_eq_false_iff_not, key]
    rintro ⟨r', hr', hu', hd', rfl⟩
    rw [he, List.pairwise_append] at hs
    exact absurd (hmin r' hr' hu' hd') (not_le.2 (hs.2.2 _ ha t (List.mem_cons_self)))

theorem exists_first {l : List (Trop.Row U T K)} (h : l ≠ []) : ∃ m ∈ l, ∀ x ∈ l, m.time ≤ x.time := by
  induction l with
  | nil => exact absurd rfl h
  | cons a l ih =>
    by_cases hl : l = []
    · subst hl; exact ⟨a, by simp, by simp⟩
    · obtain ⟨m, hm, hmin⟩ := ih hl
      rcases le_total a.time m.time with h | h
      · exact ⟨a, by simp, fun x hx => by
          rcases List.mem_cons.1 hx with rfl | hx
          · exact le_rfl
          · exact h.trans (hmin x hx)⟩
      · exact ⟨m, by simp [hm], fun x hx => by
          rcases List.mem_cons.1 hx with rfl | hx
          · exact h
          · exact hmin x hx⟩

/-- C100. Exactly which 0/1 panels the joint method accepts: those of the two-step method in which all treated units are first observed
treated in the same period. -/
theorem C100_accepts_iff (rows : List (Trop.Row U T K)) (hb : Trop.Binary rows) :
    (∃ p, prepare rows = .ok p) ↔
      (Trop.OneRowPerCell rows ∧ ¬ Trop.TurnsOff rows ∧ (∃ r ∈ rows, r.d = some 1) ∧
      (∃ r ∈ rows, ∀ s ∈ rows, s.unit = r.unit → s.d ≠ some 1) ∧
      (∃ a ∈ rows, ∃ b ∈ rows, a.time < b.time ∧ ∀ r ∈ rows, r.d = some 1 → b.time < r.time)) ∧ Simultaneous rows := by
  rw [← Trop.C54_accepts_iff rows hb]
  cases hp : Trop.prepare rows with
  | error e =>
    refine iff_of_false ?_ (by simp)
    rintro ⟨p, h⟩
    unfold prepare at h; rw [hp] at h; cases h
  | ok p =>
    have hnd := ((Trop.C54_accepts_iff rows hb).1 ⟨p, hp⟩).1
    have htr : ∀ u, u ∈ p.treated ↔ ∃ r ∈ rows, r.unit = u ∧ r.d = some 1 := by
      intro u
      unfold Trop.prepare at hp
      split_ifs at hp
      cases hp
      rw [List.mem_filter, Trop.unitTreated_iff hnd hb, Trop.mem_unitsOf]
      constructor
      · exact fun h => h.2
      · rintro ⟨r, hr, h1, h2⟩; exact ⟨⟨r, hr, h1⟩, r, hr, h1, h2⟩
    have hmem : ∀ t, t ∈ (p.treated.filterMap (firstTreat rows)).dedup ↔ ∃ u, (∃ r ∈ rows, r.unit = u ∧ r.d = some 1 ∧ r.time = t) ∧
        ∀ r ∈ rows, r.unit = u → r.d = some 1 → t ≤ r.time := by
      intro t
      rw [List.mem_dedup, List.mem_filterMap]
      simp only [firstTreat_spec hnd hb, htr]
      constructor
      · rintro ⟨u, _, h⟩; exact ⟨u, h⟩
      · rintro ⟨u, ⟨r, hr, h1, h2, h3⟩, h⟩; exact ⟨u, ⟨r, hr, h1, h2⟩, ⟨r, hr, h1, h2, h3⟩, h⟩
    have hfirst : ∀ r ∈ rows, r.d = some 1 → ∃ r0 ∈ rows, r0.unit = r.unit ∧ r0.d = some 1 ∧ (∀ s ∈ rows, s.unit = r.unit → s.d = some 1 → r0.time ≤ s.time) := by
      intro r hr hd
      have hne : ((rows.filter (fun s => decide (s.unit = r.unit ∧ s.d = some 1)))) ≠ [] :=
        List.ne_nil_of_mem (List.mem_filter.2 ⟨hr, by simp [hd]⟩)
      obtain ⟨m, hm, hmin⟩ := exists_first hne
      exact ⟨m, (List.mem_filter.1 hm).1, by have := (List.mem_filter.1 hm).2; simp at this; exact this.1,
        by have := (List.mem_filter.1 hm).2; simp at this; exact this.2, fun s hs h1 h2 => hmin s (List.mem_filter.2 ⟨hs, by simp [h1, h2]⟩)⟩
    have hlen : ¬ 1 < (p.treated.filterMap (firstTreat rows)).dedup.length ↔ Simultaneous rows := by
      have hn := List.nodup_dedup (p.treated.filterMap (firstTreat rows))
      constructor
      · intro h r hr hd s hs hds
        obtain ⟨r0, hr0, u0, d0, m0⟩ := hfirst r hr hd
        obtain ⟨s0, hs0, v0, e0, n0⟩ := hfirst s hs hds
        have h1 : r0.time ∈ (p.treated.filterMap (firstTreat rows)).dedup := (hmem _).2 ⟨r.unit, ⟨r0, hr0, u0, d0, rfl⟩, m0⟩
        have h2 : s0.time ∈ (p.treated.filterMap (firstTreat rows)).dedup := (hmem _).2 ⟨s.unit, ⟨s0, hs0, v0, e0, rfl⟩, n0⟩
        have heq : s0.time = r0.time := by
          match hl : (p.treated.filterMap (firstTreat rows)).dedup with
          | [] => rw [hl] at h1; cases h1
          | [a] => rw [hl] at h1 h2; rw [List.mem_singleton.1 h1, List.mem_singleton.1 h2]
          | a :: b :: l => rw [hl] at h; exact absurd (by simp) h
        exact ⟨s0, hs0, v0, e0, by rw [heq]; exact m0 r hr rfl hd⟩
      · intro h hlt
        match hl : (p.treated.filterMap (firstTreat rows)).dedup with
        | [] => rw [hl] at hlt; simp at hlt
        | [a] => rw [hl] at hlt; simp at hlt
        | a :: b :: l =>
          rw [hl] at hn
          have hab : a ≠ b := by intro he; rw [he] at hn; simp at hn
          obtain ⟨u, ⟨r, hr, h1, h2, h3⟩, h4⟩ := (hmem a).1 (by rw [hl]; simp)
          obtain ⟨w, ⟨s, hs, k1, k2, k3⟩, k4⟩ := (hmem b).1 (by rw [hl]; simp)
          obtain ⟨s', hs', x1, x2, x3⟩ := h r hr h2 s hs k2
          obtain ⟨r', hr', y1, y2, y3⟩ := h s hs k2 r hr h2
          have z1 := k4 s' hs' (by rw [x1, k1]) x2
          have z2 := h4 r' hr' (by rw [y1, h1]) y2
          exact hab (le_antisymm (z2.trans (y3.trans k3.le)) (z1.trans (x3.trans h3.le)))
    rw [← hlen]
    unfold prepare; rw [hp]
    constructor
    · rintro ⟨q, h⟩
      dsimp only at h
      split_ifs at h with hc
      exact ⟨⟨p, rfl⟩, hc⟩
    · rintro ⟨_, h⟩
      exact ⟨p, by dsimp only; rw [if_neg h]⟩

/-- C100. An accepted panel is prepared as by the two-step method. -/
theorem C100_same_panel (rows : List (Trop.Row U T K)) (p : Trop.Panel U T K) (h : prepare rows = .ok p) : Trop.prepare rows = .ok p := by
  unfold prepare at h
  cases hp : Trop.prepare rows with
  | error e => rw [hp] at h; cases h
  | ok q => rw [hp] at h; dsimp only at h; split_ifs at h; cases h; rfl

end

end DiffDiff.TropJoint
