/-
Property C153 (TROP, method "joint"): the outcome in other units, including the search of the tuning parameters.
-/
import Verif.TropScaleProps
import Verif.TropJoint

set_option linter.unusedSectionVars false
set_option linter.unusedVariables false

namespace DiffDiff.TropJoint

open TropFit (Data Cfg scaleD scaleC)

variable {K : Type*} [Field K] [LinearOrder K] [IsStrictOrderedRing K]

/-- The outside routines are homogeneous: square root, singular value thresholding, least squares. -/
structure Homogeneous (v : Env K) (c : K) : Prop where
  root : ∀ x, v.r (c ^ 2 * x) = c * v.r x
  svd : ∀ s a b M, v.svd (c * s) a b (fun t i => c * M t i) = fun t i => c * v.svd s a b M t i
  lstsq : ∀ m n A b, v.lstsq m n A (fun i => c * b i) = fun j => c * v.lstsq m n A b j

def scaleS (c : K) (s : Sol K) : Sol K := { mu := c * s.mu, alpha := fun i => c * s.alpha i, beta := fun t => c * s.beta t, tau := c * s.tau }

def scaleFit (c : K) (f : Sol K × (ℕ → ℕ → K)) : Sol K × (ℕ → ℕ → K) := (scaleS c f.1, fun t i => c * f.2 t i)

/-- Penalties in corresponding units: both switch the factor model off, or neither and the second is `c` times the first. -/
def SameNn (c x x' : K) : Prop := (10 ^ 10 ≤ x ∧ 10 ^ 10 ≤ x') ∨ (¬ 10 ^ 10 ≤ x ∧ ¬ 10 ^ 10 ≤ x' ∧ x' = c * x)

/-- Tuning parameters in corresponding units. -/
def Corresponds (c : K) (l l' : Lam3 K) : Prop := l'.time = l.time ∧ l'.unit = l.unit / c ∧ SameNn c l.nn l'.nn

variable {v : Env K} {c : K}

theorem avg_scale (P : Data K) (t : ℕ) : avgTreated (scaleD c P) t = (avgTreated P t).map (c * ·) := by
  unfold avgTreated
  have : (treated (scaleD c P)).filterMap (fun i => (scaleD c P).Y t i) = ((treated P).filterMap (fun i => P.Y t i)).map (c * ·) := by
    rw [List.map_filterMap]; rfl
  rw [this]
  cases (treated P).filterMap (fun i => P.Y t i) with
  | nil => rfl
  | cons a l =>
    show some ((List.map (c * ·) (a :: l)).sum / ((List.map (c * ·) (a :: l)).length : K)) = some (c * ((a :: l).sum / ((a :: l).length : K)))
    rw [TropFit.sum_mul_list, List.length_map, mul_div_assoc]

theorem gaps_scale (P : Data K) (tp i : ℕ) : gaps (scaleD c P) tp i = (gaps P tp i).map (c ^ 2 * ·) := by
  unfold gaps
  rw [List.map_filterMap]
  show (List.range P.nT).filterMap _ = (List.range P.nT).filterMap _
  congr 1
  funext t
  show (if isPre P tp t then (avgTreated (scaleD c P) t).bind (fun a => ((P.Y t i).map (c * ·)).map (fun y => (a - y) ^ 2)) else none) = _
  rw [avg_scale]
  split_ifs
  · cases avgTreated P t with
    | none => rfl
    | some a =>
      cases P.Y t i with
      | none => rfl
      | some y =>
        show some ((c * a - c * y) ^ 2) = some (c ^ 2 * (a - y) ^ 2)
        congr 1; ring
  · rfl

theorem unitW_scale (hv : Homogeneous v c) (hc : c ≠ 0) (P : Data K) (tp : ℕ) (lamU : K) (i : ℕ) : unitW v (scaleD c P) tp (lamU / c) i = unitW v P tp lamU i := by
  unfold unitW
  rw [gaps_scale]
  cases gaps P tp i with
  | nil => rfl
  | cons a l =>
    show v.e (-(lamU / c) * v.r ((List.map (c ^ 2 * ·) (a :: l)).sum / ((List.map (c ^ 2 * ·) (a :: l)).length : K)))
      = v.e (-lamU * v.r ((a :: l).sum / ((a :: l).length : K)))
    rw [TropFit.sum_mul_list, List.length_map, mul_div_assoc, hv.root]
    congr 1
    field_simp

theorem delta_scale (hv : Homogeneous v c) (hc : c ≠ 0) (P : Data K) (tp : ℕ) (lamT lamU : K) : delta v (scaleD c P) tp lamT (lamU / c) = delta v P tp lamT lamU := by
  funext t i
  unfold delta
  rw [unitW_scale hv hc]
  rfl

theorem mask_scale (Y : ℕ → ℕ → Option K) (W : ℕ → ℕ → K) : mask (fun t i => (Y t i).map (c * ·)) W = mask Y W := by
  funext t i
  unfold mask
  rw [Option.isSome_map]

theorem extract_scale (nT nN : ℕ) (b : ℕ → K) : extract nT nN (fun j => c * b j) = scaleS c (extract nT nN b) := by
  unfold extract scaleS
  congr 1
  · funext i; dsimp only; split_ifs <;> simp
  · funext i; dsimp only; split_ifs <;> simp

theorem solve_scale (hv : Homogeneous v c) (nT nN : ℕ) (Y : ℕ → ℕ → Option K) (D : ℕ → ℕ → ℤ) (W : ℕ → ℕ → K) :
    solve v nT nN (fun t i => (Y t i).map (c * ·)) D W = (solve v nT nN Y D W).map (scaleS c) := by
  unfold solve
  rw [mask_scale]
  split_ifs
  · rfl
  · rw [Option.map_some, ← extract_scale, ← hv.lstsq]
    congr 3
    funext row
    have hy : ((Y (row / nN) (row % nN)).map (c * ·)).getD 0 = c * (Y (row / nN) (row % nN)).getD 0 := by
      cases Y (row / nN) (row % nN) <;> simp
    dsimp only
    rw [hy]
    ring

theorem lowStep_scale (hv : Homogeneous v c) (nT nN : ℕ) (Y W : ℕ → ℕ → K) (D : ℕ → ℕ → ℤ) (lam : K) (s : Sol K) (L : ℕ → ℕ → K) :
    lowStep v nT nN (fun t i => c * Y t i) W D (c * lam) (scaleS c s) (fun t i => c * L t i) = fun t i => c * lowStep v nT nN Y W D lam s L t i := by
  unfold lowStep
  rw [← hv.svd]
  congr 1
  · ring
  · funext t i
    simp only [scaleS]
    split_ifs <;> ring

theorem settled_scale (hc : 0 < c) (nT nN : ℕ) (tol : K) (A B : ℕ → ℕ → K) :
    settled nT nN (c * tol) (fun t i => c * A t i) (fun t i => c * B t i) = settled nT nN tol A B := by
  have hmax : ∀ l : List K, (l.map (c * ·)).foldr max 0 = c * l.foldr max 0 := by
    intro l
    induction l with
    | nil => simp
    | cons a l ih => simp only [List.map_cons, List.foldr_cons, ih]; rw [mul_max_of_nonneg _ _ hc.le]
  have e : (List.range nT).flatMap (fun t => (List.range nN).map (fun i => |c * A t i - c * B t i|))
      = ((List.range nT).flatMap (fun t => (List.range nN).map (fun i => |A t i - B t i|))).map (c * ·) := by
    rw [List.map_flatMap]
    simp only [List.map_map]
    congr 1
    funext t
    congr 1
    funext i
    show |c * A t i - c * B t i| = c * |A t i - B t i|
    rw [← mul_sub, abs_mul, abs_of_pos hc]
  unfold settled
  rw [e, hmax]
  exact decide_eq_decide.2 (mul_lt_mul_iff_right₀ hc)

theorem some_scale (Ys L : ℕ → ℕ → K) :
    (fun t i => some (c * Ys t i - c * L t i)) = fun t i => (some (Ys t i - L t i)).map (c * ·) := by
  funext t i
  rw [Option.map_some, mul_sub]

theorem lowLoop_scale (hv : Homogeneous v c) (hc : 0 < c) (tol : K) (nT nN : ℕ) (Ys : ℕ → ℕ → K) (D : ℕ → ℕ → ℤ) (W : ℕ → ℕ → K) (lam : K) (n : ℕ) :
    ∀ L : ℕ → ℕ → K, lowLoop v (c * tol) nT nN (fun t i => c * Ys t i) D W (c * lam) n (fun t i => c * L t i)
      = (lowLoop v tol nT nN Ys D W lam n L).map (scaleFit c) := by
  induction n with
  | zero =>
    intro L
    unfold lowLoop
    rw [some_scale, solve_scale hv nT nN (fun t i => some (Ys t i - L t i))]
    cases solve v nT nN (fun t i => some (Ys t i - L t i)) D W with
    | none => rfl
    | some s =>
      simp only [Option.map_some, lowStep_scale hv]
      rfl
  | succ n ih =>
    intro L
    unfold lowLoop
    rw [some_scale, solve_scale hv nT nN (fun t i => some (Ys t i - L t i))]
    cases solve v nT nN (fun t i => some (Ys t i - L t i)) D W with
    | none => rfl
    | some s =>
      simp only [Option.map_some, lowStep_scale hv, settled_scale hc]
      split_ifs
      · rfl
      · exact ih _

theorem fitW_scale (hv : Homogeneous v c) (hc : 0 < c) (g : Cfg K) (P : Data K) (W : ℕ → ℕ → K) (x x' : K) (hx : SameNn c x x') :
    fitW v (scaleC c g) (scaleD c P) W x' = (fitW v g P W x).map (scaleFit c) := by
  unfold fitW
  rcases hx with ⟨h1, h2⟩ | ⟨h1, h2, rfl⟩
  · rw [if_pos h1, if_pos h2]
    show (solve v P.nT P.nN (fun t i => (P.Y t i).map (c * ·)) P.D W).map _ = _
    rw [solve_scale hv]
    cases solve v P.nT P.nN P.Y P.D W with
    | none => rfl
    | some s => simp [scaleFit]
  · rw [if_neg h1, if_neg h2]
    unfold solveLow
    have e1 : (fun t i => ((scaleD c P).Y t i).getD 0) = fun t i => c * (P.Y t i).getD 0 := by
      funext t i
      show ((P.Y t i).map (c * ·)).getD 0 = _
      cases P.Y t i <;> simp
    have e2 : mask (scaleD c P).Y W = mask P.Y W := mask_scale P.Y W
    have e3 : (fun _ _ => (0 : K)) = fun (t i : ℕ) => c * (fun _ _ => (0 : K)) t i := by funext t i; simp
    rw [e1, e2]
    refine Eq.trans ?_ (lowLoop_scale hv hc g.tol P.nT P.nN _ P.D _ x (g.maxIter - 1) (fun _ _ => 0))
    rw [← e3]
    rfl

theorem fitLam_scale (hv : Homogeneous v c) (hc : 0 < c) (g : Cfg K) (P : Data K) (tp : ℕ) (l l' : Lam3 K) (hl : Corresponds c l l') :
    fitLam v (scaleC c g) (scaleD c P) tp l' = (fitLam v g P tp l).map (scaleFit c) := by
  obtain ⟨h1, h2, h3⟩ := hl
  unfold fitLam
  rw [h1, h2, delta_scale hv hc.ne']
  exact fitW_scale hv hc g P _ _ _ h3

theorem looTerm_scale (hv : Homogeneous v c) (hc : 0 < c) (g : Cfg K) (P : Data K) (tp : ℕ) (l l' : Lam3 K) (hl : Corresponds c l l') (q : ℕ × ℕ) :
    looTerm v (scaleC c g) (scaleD c P) tp l' q = (looTerm v g P tp l q).map (c ^ 2 * ·) := by
  obtain ⟨h1, h2, h3⟩ := hl
  unfold looTerm looFit
  rw [h1, h2, delta_scale hv hc.ne', fitW_scale hv hc g P _ _ _ h3]
  cases fitW v g P (without (delta v P tp l.time l.unit) q) l.nn with
  | none => rfl
  | some s =>
    simp only [Option.map_some, Option.some.injEq]
    have : ((scaleD c P).Y q.1 q.2).getD 0 = c * (P.Y q.1 q.2).getD 0 := by
      show ((P.Y q.1 q.2).map (c * ·)).getD 0 = _
      cases P.Y q.1 q.2 <;> simp
    rw [this]
    simp only [scaleFit, scaleS]
    ring

theorem mapM_scale {α : Type*} (d : K) (f : α → Option K) (l : List α) :
    l.mapM (fun q => (f q).map (d * ·)) = (l.mapM f).map (List.map (d * ·)) := by
  induction l with
  | nil => rfl
  | cons a l ih =>
    simp only [List.mapM_cons, ih]
    cases f a with
    | none => rfl
    | some x =>
      cases l.mapM f with
      | none => rfl
      | some xs => rfl

theorem score_scale (hv : Homogeneous v c) (hc : 0 < c) (g : Cfg K) (P : Data K) (tp : ℕ) (obs : List (ℕ × ℕ)) (l l' : Lam3 K) (hl : Corresponds c l l') :
    score v (scaleC c g) (scaleD c P) tp obs l' = (score v g P tp obs l).map (c ^ 2 * ·) := by
  unfold score
  cases obs with
  | nil => rfl
  | cons q qs =>
    dsimp only
    rw [show looTerm v (scaleC c g) (scaleD c P) tp l' = fun q => (looTerm v g P tp l q).map (c ^ 2 * ·) from
      funext fun q => looTerm_scale hv hc g P tp l l' hl q, mapM_scale, Option.map_map, Option.map_map]
    congr 1
    funext xs
    exact TropFit.sum_mul_list _ _

/-! ### The search -/

/-- Grid values in other units; infinities stay. -/
def unitGrid (c : K) (gu : List (Option K)) : List (Option K) := gu.map (Option.map (· / c))
def nnGrid (c : K) (gn : List (Option K)) : List (Option K) := gn.map (Option.map (c * ·))

def scaleCombo (c : K) (l : Option K × Option K × Option K) : Option K × Option K × Option K := (l.1, l.2.1.map (· / c), l.2.2.map (c * ·))

theorem combos_scale (gt gu gn : List (Option K)) : combos gt (unitGrid c gu) (nnGrid c gn) = (combos gt gu gn).map (scaleCombo c) := by
  unfold combos unitGrid nnGrid
  simp only [List.map_flatMap, List.flatMap_map, List.map_map]
  rfl

theorem conv_scale (gt gu gn : List (Option K)) (hn : ∀ x, some x ∈ gn → (10 ^ 10 ≤ c * x ↔ 10 ^ 10 ≤ x)) (l : Option K × Option K × Option K)
    (hl : l ∈ combos gt gu gn) : Corresponds c (conv l) (conv (scaleCombo c l)) := by
  obtain ⟨a, b, x⟩ := l
  have hx : x ∈ gn := by
    unfold combos at hl
    simp only [List.mem_flatMap, List.mem_map] at hl
    obtain ⟨a', -, b', -, x', hx', e⟩ := hl
    cases e; exact hx'
  refine ⟨rfl, ?_, ?_⟩
  · cases b <;> simp [conv, scaleCombo]
  · cases x with
    | none => exact .inl ⟨le_rfl, le_rfl⟩
    | some x =>
      show SameNn c x (c * x)
      by_cases h : 10 ^ 10 ≤ x
      · exact .inl ⟨h, (hn x hx).2 h⟩
      · exact .inr ⟨h, fun h' => h ((hn x hx).1 h'), rfl⟩

theorem fold_scale (hc : 0 < c) (sc sc' : Lam3 K → Option K) (ls : List (Option K × Option K × Option K))
    (h : ∀ l ∈ ls, sc' (conv (scaleCombo c l)) = (sc (conv l)).map (c ^ 2 * ·)) :
    ∀ best : Option ((Option K × Option K × Option K) × K),
      (ls.map (scaleCombo c)).foldl (better sc') (best.map (fun b => (scaleCombo c b.1, c ^ 2 * b.2)))
        = (ls.foldl (better sc) best).map (fun b => (scaleCombo c b.1, c ^ 2 * b.2)) := by
  induction ls with
  | nil => intro best; rfl
  | cons l ls ih =>
    intro best
    simp only [List.map_cons, List.foldl_cons]
    have hstep : better sc' (best.map (fun b => (scaleCombo c b.1, c ^ 2 * b.2))) (scaleCombo c l)
        = (better sc best l).map (fun b => (scaleCombo c b.1, c ^ 2 * b.2)) := by
      unfold better
      rw [h l (by simp)]
      cases sc (conv l) with
      | none => cases best <;> rfl
      | some s =>
        cases best with
        | none => rfl
        | some b =>
          simp only [Option.map_some]
          have hlt : c ^ 2 * s < c ^ 2 * b.2 ↔ s < b.2 := mul_lt_mul_iff_right₀ (pow_pos hc 2)
          simp only [hlt]
          split_ifs <;> rfl
    rw [hstep]
    exact ih (fun l' hl' => h l' (by simp [hl'])) _

theorem found_mem (sc : Lam3 K → Option K) (ls : List (Option K × Option K × Option K)) :
    ∀ best b, ls.foldl (better sc) best = some b → b.1 ∈ ls ∨ best = some b := by
  induction ls with
  | nil => intro best b h; exact .inr h
  | cons l ls ih =>
    intro best b h
    rcases ih _ b h with h' | h'
    · exact .inl (by simp [h'])
    · unfold better at h'
      cases hs : sc (conv l) with
      | none => rw [hs] at h'; exact .inr h'
      | some s =>
        rw [hs] at h'
        cases best with
        | none => cases h'; exact .inl (by simp)
        | some b0 =>
          dsimp only at h'
          split_ifs at h'
          · cases h'; exact .inl (by simp)
          · exact .inr h'

/-- C153. TROP with method "joint" on outcomes multiplied by `c > 0`, with the grids of `lambda_unit` divided and those of `lambda_nn` and the tolerance
multiplied by `c` (no grid value of `lambda_nn` crosses the constant 1e10): the score is multiplied by `c²`, and if any combination has a finite score, the
corresponding combination is selected and the effect is multiplied by `c`. -/
theorem C153_trop_joint (hv : Homogeneous v c) (hc : 0 < c) (g : Cfg K) (pick : List (ℕ × ℕ) → List (ℕ × ℕ)) (P : Data K) (tp : ℕ) (gt gu gn : List (Option K))
    (hn : ∀ x, some x ∈ gn → (10 ^ 10 ≤ c * x ↔ 10 ^ 10 ≤ x)) :
    (fitData v (scaleC c g) pick (scaleD c P) tp gt (unitGrid c gu) (nnGrid c gn)).1.2 = (fitData v g pick P tp gt gu gn).1.2.map (c ^ 2 * ·) ∧
    ((fitData v g pick P tp gt gu gn).1.2.isSome →
      (fitData v (scaleC c g) pick (scaleD c P) tp gt (unitGrid c gu) (nnGrid c gn)).1.1 = scaleCombo c (fitData v g pick P tp gt gu gn).1.1 ∧
      (fitData v (scaleC c g) pick (scaleD c P) tp gt (unitGrid c gu) (nnGrid c gn)).2 = (fitData v g pick P tp gt gu gn).2.map (c * ·)) := by
  have hcc : TropFit.controlCells (scaleD c P) = TropFit.controlCells P := TropFit.controlCells_scale P
  have hf := fold_scale hc (score v g P tp (pick (TropFit.controlCells P))) (score v (scaleC c g) (scaleD c P) tp (pick (TropFit.controlCells P)))
    (combos gt gu gn) (fun l hl => score_scale hv hc g P tp _ _ _ (conv_scale gt gu gn hn l hl)) none
  unfold fitData search
  rw [hcc, combos_scale]
  rw [Option.map_none] at hf
  rw [hf]
  cases hb : (combos gt gu gn).foldl (better (score v g P tp (pick (TropFit.controlCells P)))) none with
  | none => exact ⟨rfl, fun h => by cases h⟩
  | some b =>
    simp only [Option.map_some]
    refine ⟨trivial, fun _ => ⟨trivial, ?_⟩⟩
    have hmem : b.1 ∈ combos gt gu gn := by
      rcases found_mem _ _ none b hb with h | h
      · exact h
      · cases h
    rw [fitLam_scale hv hc g P tp _ _ (conv_scale gt gu gn hn b.1 hmem), Option.map_map, Option.map_map]
    rfl

/-- C153. Jackknife of the joint method: replicates and standard error are multiplied by `c`. -/
theorem C153_trop_joint_jackknife (hv : Homogeneous v c) (hc : 0 < c) (g : Cfg K) (P : Data K) (tp : ℕ) (l l' : Lam3 K) (hl : Corresponds c l l') :
    jackknife v (scaleC c g) (scaleD c P) tp l' = (c * (jackknife v g P tp l).1, (jackknife v g P tp l).2.map (c * ·)) := by
  obtain ⟨h1, h2, h3⟩ := hl
  have hone : ∀ u, jackOne v (scaleC c g) (scaleD c P) tp l' u = (jackOne v g P tp l u).map (c * ·) := by
    intro u
    unfold jackOne
    have hu : untreat (scaleD c P) u = scaleD c (untreat P u) := rfl
    have ht : treated (scaleD c (untreat P u)) = treated (untreat P u) := rfl
    rw [hu, ht]
    split_ifs
    · rfl
    · rw [h1, h2, delta_scale hv hc.ne', fitW_scale hv hc g _ _ _ _ h3, Option.map_map, Option.map_map]
      rfl
  have hlist : (treated (scaleD c P)).filterMap (jackOne v (scaleC c g) (scaleD c P) tp l') = ((treated P).filterMap (jackOne v g P tp l)).map (c * ·) := by
    rw [List.map_filterMap, show jackOne v (scaleC c g) (scaleD c P) tp l' = fun u => (jackOne v g P tp l u).map (c * ·) from funext hone]
    rfl
  unfold jackknife
  rw [hlist]
  simp only [List.length_map]
  split_ifs
  · simp
  · refine Prod.ext ?_ rfl
    dsimp only
    rw [← hv.root]
    congr 1
    rw [TropFit.sum_mul_list, List.map_map,
      show ((fun x => (x - c * ((treated P).filterMap (jackOne v g P tp l)).sum / (((treated P).filterMap (jackOne v g P tp l)).length : K)) ^ 2) ∘ (c * ·))
        = (c ^ 2 * ·) ∘ (fun x => (x - ((treated P).filterMap (jackOne v g P tp l)).sum / (((treated P).filterMap (jackOne v g P tp l)).length : K)) ^ 2) by
          funext x; simp only [Function.comp]; ring,
      ← List.map_map, TropFit.sum_mul_list]
    ring

/-- Outside routines over the real numbers with the assumed homogeneity. -/
noncomputable def demoEnv : Env ℝ :=
  { e := Real.exp, r := Real.sqrt, svd := fun _ _ _ M => M, lstsq := fun _ _ _ b j => b j }

theorem demo_homogeneous (c : ℝ) (hc : 0 ≤ c) : Homogeneous demoEnv c :=
  ⟨fun x => by show Real.sqrt (c ^ 2 * x) = c * Real.sqrt x; rw [Real.sqrt_mul (by positivity), Real.sqrt_sq hc], fun _ _ _ _ => rfl, fun _ _ _ _ => rfl⟩

/-- The default grid of `lambda_nn` (with infinity added), outcomes in percentage points: no value crosses 1e10. -/
example (g : Cfg ℝ) (P : Data ℝ) (tp : ℕ) :
    (fitData demoEnv (scaleC 100 g) id (scaleD 100 P) tp [some 0, some 1] (unitGrid 100 [some 0, some 1, none]) (nnGrid 100 [some 0, some (1/100), some (1/10), some 1, some 10, none])).1.2
      = (fitData demoEnv g id P tp [some 0, some 1] [some 0, some 1, none] [some 0, some (1/100), some (1/10), some 1, some 10, none]).1.2.map (100 ^ 2 * ·) :=
  (C153_trop_joint (demo_homogeneous 100 (by norm_num)) (by norm_num) g id P tp _ _ _ (fun x hx => by
    simp only [List.mem_cons, Option.some.injEq, List.not_mem_nil, or_false, reduceCtorEq] at hx
    rcases hx with rfl | rfl | rfl | rfl | rfl <;> norm_num)).1

end DiffDiff.TropJoint
