/-
Model of `TROP(method="joint")`.
  /repo/diff_diff/trop.py 860-1215 (weights, score, solvers), 1217-1475 (fit), 1695-1823 (replicates, jackknife).
Exact arithmetic. Parameters: the exponential `e`, the square root `r`, the thresholded reconstruction `svd` and NumPy's
least-squares routine `lstsq`. Missing outcomes are `none`; outcomes are not infinite; the routines do not raise `LinAlgError`.
The compiled search is absent (Python search), `max_iter` is at least 1.
-/
import Verif.TropFit

namespace DiffDiff.TropJoint

open TropFit (Data Cfg)

/-- The outside routines. -/
structure Env (K : Type*) where
  e : K → K
  r : K → K
  /-- `_soft_threshold_svd` (trop.py 2361-2420): threshold, periods, units, matrix -/
  svd : K → ℕ → ℕ → (ℕ → ℕ → K) → (ℕ → ℕ → K)
  /-- `np.linalg.lstsq`: rows, columns, matrix, right-hand side -/
  lstsq : ℕ → ℕ → (ℕ → ℕ → K) → (ℕ → K) → (ℕ → K)

section
variable {K : Type*} [Field K] [LinearOrder K]

/-! ### Weights -/

/-- `treated_unit_idx` (trop.py 900-901). -/
def treated (P : Data K) : List ℕ := TropFit.treatedUnits P

/-- `np.nanmean` over the treated units in one period (trop.py 914). -/
def avgTreated (P : Data K) (t : ℕ) : Option K :=
  match (treated P).filterMap (fun i => P.Y t i) with
  | [] => none
  | l => some (l.sum / (l.length : K))

/-- `pre_mask[t]` (trop.py 917-918); `tp` is `treated_periods`, at least 1. -/
def isPre (P : Data K) (tp t : ℕ) : Bool := decide (t + tp < P.nT)

/-- Squared gaps between the average treated trajectory and a unit over the pre-periods in which both exist (trop.py 923-932). -/
def gaps (P : Data K) (tp i : ℕ) : List K :=
  (List.range P.nT).filterMap (fun t =>
    if isPre P tp t then (avgTreated P t).bind (fun a => (P.Y t i).map (fun y => (a - y) ^ 2)) else none)

/-- `delta_unit[i]` (trop.py 938-948). -/
def unitW (v : Env K) (P : Data K) (tp : ℕ) (lamU : K) (i : ℕ) : K :=
  match gaps P tp i with
  | [] => 0
  | l => v.e (-lamU * v.r (l.sum / (l.length : K)))

/-- `delta_time[t]`: decay in the distance to `T - treated_periods / 2` (trop.py 908-910). -/
def timeW (v : Env K) (nT tp : ℕ) (lamT : K) (t : ℕ) : K := v.e (-lamT * |(t : K) - ((nT : K) - (tp : K) / 2)|)

/-- `_compute_joint_weights` (trop.py 860-953). -/
def delta (v : Env K) (P : Data K) (tp : ℕ) (lamT lamU : K) (t i : ℕ) : K := timeW v P.nT tp lamT t * unitW v P tp lamU i

/-! ### Weighted least squares -/

/-- The design matrix (trop.py 1087-1108): row `t * n_units + i`, columns intercept, units 1.., periods 1.., treatment. -/
def design (nT nN : ℕ) (D : ℕ → ℕ → ℤ) (row col : ℕ) : K :=
  if col = 0 then 1
  else if col = nN + nT - 1 then (D (row / nN) (row % nN) : K)
  else if col < nN then (if row % nN = col then 1 else 0)
  else (if row / nN = col - (nN - 1) then 1 else 0)

/-- Estimated parameters. -/
structure Sol (K : Type*) where
  mu : K
  alpha : ℕ → K
  beta : ℕ → K
  tau : K

/-- Reading the coefficient vector (trop.py 1122-1127). -/
def extract (nT nN : ℕ) (c : ℕ → K) : Sol K :=
  { mu := c 0
    alpha := fun i => if i = 0 then 0 else c i
    beta := fun t => if t = 0 then 0 else c (nN + (t - 1))
    tau := c (nN + nT - 1) }

/-- Weights with missing outcomes zeroed (trop.py 1074-1077). -/
def mask (Y : ℕ → ℕ → Option K) (W : ℕ → ℕ → K) (t i : ℕ) : K := if (Y t i).isSome then W t i else 0

/-- `_solve_joint_no_lowrank` (trop.py 1040-1129); `none` is the `ValueError` for vanishing weights. -/
def solve (v : Env K) (nT nN : ℕ) (Y : ℕ → ℕ → Option K) (D : ℕ → ℕ → ℤ) (W : ℕ → ℕ → K) : Option (Sol K) :=
  if ((List.range nT).map (fun t => ((List.range nN).map (fun i => mask Y W t i)).sum)).sum < 1 / 10 ^ 10 then none
  else some (extract nT nN (v.lstsq (nT * nN) (nN + nT)
    (fun row col => design nT nN D row col * v.r (max (mask Y W (row / nN) (row % nN)) 0))
    (fun row => (Y (row / nN) (row % nN)).getD 0 * v.r (max (mask Y W (row / nN) (row % nN)) 0))))

/-! ### Low-rank part -/

/-- `delta_max` (trop.py 1195). -/
def wMax (nT nN : ℕ) (W : ℕ → ℕ → K) : K :=
  ((List.range nT).flatMap (fun t => (List.range nN).map (fun i => W t i))).foldr max 0

/-- `L + delta_norm * (R - L)` followed by soft-thresholding at `eta * lambda_nn` (trop.py 1189-1209). -/
def lowStep (v : Env K) (nT nN : ℕ) (Y W : ℕ → ℕ → K) (D : ℕ → ℕ → ℤ) (lam : K) (s : Sol K) (L : ℕ → ℕ → K) : ℕ → ℕ → K :=
  v.svd ((if 0 < wMax nT nN W then 1 / wMax nT nN W else 1) * lam) nT nN (fun t i =>
    L t i + (if 0 < wMax nT nN W then W t i / wMax nT nN W else W t i) *
      (Y t i - s.mu - s.alpha i - s.beta t - s.tau * (D t i : K) - L t i))

/-- `np.max(np.abs(L - L_old)) < tol` (trop.py 1212). -/
def settled (nT nN : ℕ) (tol : K) (A B : ℕ → ℕ → K) : Bool :=
  decide (((List.range nT).flatMap (fun t => (List.range nN).map (fun i => |A t i - B t i|))).foldr max 0 < tol)

/-- The loop of `_solve_joint_with_lowrank` (trop.py 1180-1215) with `n + 1` iterations left: the parameters are those solved before
the last update of the factor matrix. -/
def lowLoop (v : Env K) (tol : K) (nT nN : ℕ) (Ys : ℕ → ℕ → K) (D : ℕ → ℕ → ℤ) (W : ℕ → ℕ → K) (lam : K) :
    ℕ → (ℕ → ℕ → K) → Option (Sol K × (ℕ → ℕ → K))
  | 0, L =>
    match solve v nT nN (fun t i => some (Ys t i - L t i)) D W with
    | none => none
    | some s => some (s, lowStep v nT nN Ys W D lam s L)
  | n + 1, L =>
    match solve v nT nN (fun t i => some (Ys t i - L t i)) D W with
    | none => none
    | some s =>
      if settled nT nN tol (lowStep v nT nN Ys W D lam s L) L then some (s, lowStep v nT nN Ys W D lam s L)
      else lowLoop v tol nT nN Ys D W lam n (lowStep v nT nN Ys W D lam s L)

/-- `_solve_joint_with_lowrank` (trop.py 1131-1215). -/
def solveLow (v : Env K) (c : Cfg K) (P : Data K) (W : ℕ → ℕ → K) (lam : K) : Option (Sol K × (ℕ → ℕ → K)) :=
  lowLoop v c.tol P.nT P.nN (fun t i => (P.Y t i).getD 0) P.D (mask P.Y W) lam (c.maxIter - 1) (fun _ _ => 0)

/-- The branch on `lambda_nn >= 1e10` (trop.py 1017-1023, 1469-1475, 1737-1742, 1803-1808). -/
def fitW (v : Env K) (c : Cfg K) (P : Data K) (W : ℕ → ℕ → K) (lamN : K) : Option (Sol K × (ℕ → ℕ → K)) :=
  if 10 ^ 10 ≤ lamN then (solve v P.nT P.nN P.Y P.D W).map (fun s => (s, fun _ _ => 0)) else solveLow v c P W lamN

/-- Tuning parameters after conversion. -/
abbrev Lam3 (K : Type*) := TropFit.Lam3 K

/-- The final fit (trop.py 1464-1478, 1731-1744). `none`: `ValueError`. -/
def fitLam (v : Env K) (c : Cfg K) (P : Data K) (tp : ℕ) (l : Lam3 K) : Option (Sol K × (ℕ → ℕ → K)) :=
  fitW v c P (delta v P tp l.time l.unit) l.nn

/-! ### Tuning -/

/-- Weights with one cell removed (trop.py 1012-1013). -/
def without (W : ℕ → ℕ → K) (q : ℕ × ℕ) (t i : ℕ) : K := if (t, i) = q then 0 else W t i

/-- The fit that leaves out one control cell (trop.py 1010-1023). -/
def looFit (v : Env K) (c : Cfg K) (P : Data K) (tp : ℕ) (l : Lam3 K) (q : ℕ × ℕ) : Option (Sol K × (ℕ → ℕ → K)) :=
  fitW v c P (without (delta v P tp l.time l.unit) q) l.nn

/-- Squared pseudo effect (trop.py 1025-1029); `none`: the fit failed. -/
def looTerm (v : Env K) (c : Cfg K) (P : Data K) (tp : ℕ) (l : Lam3 K) (q : ℕ × ℕ) : Option K :=
  (looFit v c P tp l q).map (fun s => ((P.Y q.1 q.2).getD 0 - s.1.mu - s.1.alpha q.2 - s.1.beta q.1 - s.2 q.1 q.2) ^ 2)

/-- `_loocv_score_joint` (trop.py 955-1038) over the (sub)sampled control cells; `none` is infinity. -/
def score (v : Env K) (c : Cfg K) (P : Data K) (tp : ℕ) (obs : List (ℕ × ℕ)) (l : Lam3 K) : Option K :=
  match obs with
  | [] => none
  | q :: qs => ((q :: qs).mapM (looTerm v c P tp l)).map List.sum

end

section
variable {K : Type*} [Field K] [LinearOrder K]

/-- Conversion of one combination (trop.py 1427-1429, 1457-1462); grids hold numbers or infinities (`none`). -/
def conv (l : Option K × Option K × Option K) : Lam3 K :=
  { time := l.1.getD 0, unit := l.2.1.getD 0, nn := l.2.2.getD (10 ^ 10) }

/-- All combinations in loop order (trop.py 1423-1425). -/
def combos (gt gu gn : List (Option K)) : List (Option K × Option K × Option K) :=
  gt.flatMap (fun a => gu.flatMap (fun b => gn.map (fun c => (a, b, c))))

/-- One step of the grid search (trop.py 1431-1442): keep a combination with a strictly smaller score. -/
def better (sc : Lam3 K → Option K) (best : Option ((Option K × Option K × Option K) × K)) (l : Option K × Option K × Option K) :
    Option ((Option K × Option K × Option K) × K) :=
  match sc (conv l), best with
  | none, _ => best
  | some s, none => some (l, s)
  | some s, some b => if s < b.2 then some (l, s) else best

/-- The grid search with its fallback (trop.py 1408-1450): the combination and the stored score (`none`: NaN). -/
def search (sc : Lam3 K → Option K) (gt gu gn : List (Option K)) : (Option K × Option K × Option K) × Option K :=
  match (combos gt gu gn).foldl (better sc) none with
  | some b => (b.1, some b.2)
  | none => ((some 1, some 1, some (1 / 10)), none)

/-- Search and final fit on the outcome and treatment matrices (trop.py 1349-1478); `pick` is the seeded subsampling. Returns the
selected combination, the stored score and the effect. -/
def fitData (v : Env K) (c : Cfg K) (pick : List (ℕ × ℕ) → List (ℕ × ℕ)) (P : Data K) (tp : ℕ) (gt gu gn : List (Option K)) :
    ((Option K × Option K × Option K) × Option K) × Option K :=
  (search (score v c P tp (pick (TropFit.controlCells P))) gt gu gn,
    (fitLam v c P tp (conv (search (score v c P tp (pick (TropFit.controlCells P))) gt gu gn).1)).map (fun f => f.1.tau))

end

/-! ### Validation -/

section
variable {U T K : Type*} [LinearOrder U] [LinearOrder T] [Field K] [LinearOrder K] [IsStrictOrderedRing K] [FloorRing K]

/-- The rejections of `_fit_joint`. -/
inductive Err | base (e : Trop.Err) | staggered deriving DecidableEq, Repr

/-- First period with an observed treatment of 1 (trop.py 1331-1339). -/
def firstTreat (rows : List (Trop.Row U T K)) (u : U) : Option T :=
  (Trop.periodsOf rows).find? (fun t => decide ((Trop.dRaw rows t u).map Trop.trunc = some 1))

/-- Checks of `_fit_joint` (trop.py 1258-1347): those of the two-step method, then simultaneous adoption. -/
def prepare (rows : List (Trop.Row U T K)) : Except Err (Trop.Panel U T K) :=
  match Trop.prepare rows with
  | .error e => .error (.base e)
  | .ok p => if 1 < (p.treated.filterMap (firstTreat rows)).dedup.length then .error .staggered else .ok p

/-- Point estimate of `_fit_joint` (trop.py 1349-1478) for an accepted panel: `treated_periods` counts from the first treated period. -/
def fit (v : Env K) (c : Cfg K) (pick : List (ℕ × ℕ) → List (ℕ × ℕ)) (p : Trop.Panel U T K) (gt gu gn : List (Option K)) :
    ((Option K × Option K × Option K) × Option K) × Option K :=
  fitData v c pick (TropFit.ofPanel p) ((TropFit.ofPanel p).nT - p.nPre) gt gu gn

end

section
variable {K : Type*} [Field K] [LinearOrder K]

/-- `D_jack` (trop.py 1788-1789). -/
def untreat (P : Data K) (u : ℕ) : Data K := { P with D := fun t i => if i = u then 0 else P.D t i }

/-- One jackknife replicate (trop.py 1784-1813); `none`: `ValueError`, skipped. -/
def jackOne (v : Env K) (c : Cfg K) (P : Data K) (tp : ℕ) (l : Lam3 K) (u : ℕ) : Option K :=
  if treated (untreat P u) = [] then none
  else (fitW v c (untreat P u) (fun t i => if i = u then 0 else delta v (untreat P u) tp l.time l.unit t i) l.nn).map (fun f => f.1.tau)

/-- `_jackknife_variance_joint` (trop.py 1746-1823). -/
def jackknife (v : Env K) (c : Cfg K) (P : Data K) (tp : ℕ) (l : Lam3 K) : K × List K :=
  let est := (treated P).filterMap (jackOne v c P tp l)
  if est.length < 2 then (0, est)
  else (v.r (((est.length : K) - 1) / (est.length : K) * (est.map (fun x => (x - est.sum / (est.length : K)) ^ 2)).sum), est)

end
end DiffDiff.TropJoint
