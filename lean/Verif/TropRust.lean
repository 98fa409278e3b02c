/-
Model of the compiled tuning search and bootstrap of `TROP` (method "twostep").
  /repo/rust/src/trop.rs 170-405 (search), 446-870 (scores, weights, estimation), 897-1055 (bootstrap);
  /repo/diff_diff/trop.py 1983-2097 (use of the compiled search).
Exact arithmetic in an ordered field; the parallel map over a grid is a map (each result depends on its own grid value). Parameters:
exponential `e`, square root `r`, singular value thresholding `svd`; linear algebra does not fail, so `estimate_model` never returns
`None`; missing outcomes are `none`, outcomes are not infinite.
-/
import Verif.TropFit

namespace DiffDiff.TropRust

open TropFit (Data Cfg Fit)

/-- Outside routines. -/
structure Env (K : Type*) where
  e : K → K
  r : K → K
  /-- `soft_threshold_svd` for a positive threshold (trop.rs 776-852) -/
  svd : K → ℕ → ℕ → (ℕ → ℕ → K) → (ℕ → ℕ → K)

section
variable {K : Type*} [Field K] [LinearOrder K]

/-! ### Weights -/

/-- The squared differences summed in `compute_unit_distance_for_obs` (trop.rs 528-541). -/
def sqDiffs (P : Data K) (j i t : ℕ) : List K :=
  (List.range P.nT).filterMap (fun s =>
    if s = t then none
    else if P.D s i = 0 ∧ P.D s j = 0 then (P.Y s i).bind (fun a => (P.Y s j).map (fun b => (a - b) * (a - b)))
    else none)

/-- `compute_unit_distance_for_obs` (trop.rs 517-548); `none` is infinity. -/
def dist (v : Env K) (P : Data K) (j i t : ℕ) : Option K :=
  match sqDiffs P j i t with
  | [] => none
  | l => some (v.r (l.sum / (l.length : K)))

/-- Time weights before normalisation (trop.rs 573-576). -/
def timeRaw (v : Env K) (lamT : K) (t s : ℕ) : K := v.e (-lamT * (((t - s) + (s - t) : ℕ) : K))

/-- Normalised time weights (trop.rs 579-582). -/
def timeN (v : Env K) (nT : ℕ) (lamT : K) (t s : ℕ) : K :=
  if 0 < ((List.range nT).map (timeRaw v lamT t)).sum then timeRaw v lamT t s / ((List.range nT).map (timeRaw v lamT t)).sum
  else timeRaw v lamT t s

/-- Unit weights before normalisation (trop.rs 586-606): all units, treated or not; 1 for the target unit. -/
def unitRaw (v : Env K) (P : Data K) (lamU : K) (i t j : ℕ) : K :=
  if j = i then 1
  else if lamU = 0 then 1
  else match dist v P j i t with
    | none => 0
    | some d => v.e (-lamU * d)

/-- Normalised unit weights (trop.rs 609-612). -/
def unitN (v : Env K) (P : Data K) (lamU : K) (i t j : ℕ) : K :=
  if 0 < ((List.range P.nN).map (unitRaw v P lamU i t)).sum then unitRaw v P lamU i t j / ((List.range P.nN).map (unitRaw v P lamU i t)).sum
  else unitRaw v P lamU i t j

/-- `compute_weight_matrix` (trop.rs 561-624). -/
def weights (v : Env K) (P : Data K) (lamT lamU : K) (i t s j : ℕ) : K := timeN v P.nT lamT t s * unitN v P lamU i t j

/-! ### Estimation -/

/-- `valid_mask` (trop.rs 648-659). -/
def valid (P : Data K) (ex : Option (ℕ × ℕ)) (t i : ℕ) : Bool :=
  (P.Y t i).isSome && (decide (P.D t i = 0) && !decide (ex = some (t, i)))

/-- `w_masked` (trop.rs 662-668). -/
def wMasked (P : Data K) (ex : Option (ℕ × ℕ)) (W : ℕ → ℕ → K) (t i : ℕ) : K := if valid P ex t i then W t i else 0

/-- `w_max` (trop.rs 671). -/
def wMax (nT nN : ℕ) (W : ℕ → ℕ → K) : K :=
  ((List.range nT).flatMap (fun t => (List.range nN).map (fun i => W t i))).foldr max 0

/-- Step size (trop.rs 672). -/
def eta (nT nN : ℕ) (W : ℕ → ℕ → K) : K := if 0 < wMax nT nN W then 1 / wMax nT nN W else 1

/-- Unit effects update (trop.rs 675-682, 707-718); units without weight keep their value. -/
def alphaStep (nT : ℕ) (Y W : ℕ → ℕ → K) (f : Fit K) (i : ℕ) : K :=
  if 0 < ((List.range nT).map (fun t => W t i)).sum then
    ((List.range nT).map (fun t => W t i * (Y t i - f.L t i - f.beta t))).sum / ((List.range nT).map (fun t => W t i)).sum
  else f.alpha i

/-- Period effects update (trop.rs 676-683, 720-729). -/
def betaStep (nN : ℕ) (Y W : ℕ → ℕ → K) (alpha : ℕ → K) (f : Fit K) (t : ℕ) : K :=
  if 0 < ((List.range nN).map (fun i => W t i)).sum then
    ((List.range nN).map (fun i => W t i * (Y t i - f.L t i - alpha i))).sum / ((List.range nN).map (fun i => W t i)).sum
  else f.beta t

/-- `soft_threshold_svd` (trop.rs 771-852). -/
def soft (v : Env K) (thr : K) (nT nN : ℕ) (M : ℕ → ℕ → K) : ℕ → ℕ → K := if thr ≤ 0 then M else v.svd thr nT nN M

/-- One proximal gradient step on the factor matrix (trop.rs 737-755): one step per sweep, threshold `eta * lambda_nn`. -/
def lStep (v : Env K) (nT nN : ℕ) (lam : K) (Y W : ℕ → ℕ → K) (alpha beta : ℕ → K) (L : ℕ → ℕ → K) : ℕ → ℕ → K :=
  soft v (eta nT nN W * lam) nT nN (fun t i => L t i + eta nT nN W * W t i * (Y t i - alpha i - beta t - L t i))

/-- The loop body (trop.rs 701-755). -/
def sweep (v : Env K) (nT nN : ℕ) (lam : K) (Y W : ℕ → ℕ → K) (f : Fit K) : Fit K :=
  { alpha := alphaStep nT Y W f
    beta := betaStep nN Y W (alphaStep nT Y W f) f
    L := lStep v nT nN lam Y W (alphaStep nT Y W f) (betaStep nN Y W (alphaStep nT Y W f) f) f.L }

/-- `max_abs_diff` (trop.rs 856-861). -/
def vecDiff (n : ℕ) (a b : ℕ → K) : K := ((List.range n).map (fun i => |a i - b i|)).foldr max 0

/-- `max_abs_diff_2d` (trop.rs 865-870). -/
def matDiff (nT nN : ℕ) (A B : ℕ → ℕ → K) : K :=
  ((List.range nT).flatMap (fun t => (List.range nN).map (fun i => |A t i - B t i|))).foldr max 0

/-- The convergence test (trop.rs 758-764). -/
def close (tol : K) (nT nN : ℕ) (f g : Fit K) : Bool :=
  decide (max (max (vecDiff nN f.alpha g.alpha) (vecDiff nT f.beta g.beta)) (matDiff nT nN f.L g.L) < tol)

/-- The alternating minimisation (trop.rs 700-765). -/
def loop (v : Env K) (tol : K) (nT nN : ℕ) (lam : K) (Y W : ℕ → ℕ → K) : ℕ → Fit K → Fit K
  | 0, f => f
  | n + 1, f =>
    if close tol nT nN (sweep v nT nN lam Y W f) f then sweep v nT nN lam Y W f
    else loop v tol nT nN lam Y W n (sweep v nT nN lam Y W f)

/-- Starting values (trop.rs 695-697). -/
def start : Fit K := { alpha := fun _ => 0, beta := fun _ => 0, L := fun _ _ => 0 }

/-- `estimate_model` (trop.rs 636-768). -/
def estimate (v : Env K) (c : Cfg K) (P : Data K) (W : ℕ → ℕ → K) (lam : K) (ex : Option (ℕ × ℕ)) : Fit K :=
  loop v c.tol P.nT P.nN lam (fun t i => (P.Y t i).getD 0) (wMasked P ex W) c.maxIter start

/-- The fit for target cell `(t, i)` (trop.rs 466-489, 1002-1024). -/
def fitAt (v : Env K) (c : Cfg K) (P : Data K) (l : TropFit.Lam3 K) (ex : Option (ℕ × ℕ)) (t i : ℕ) : Fit K :=
  estimate v c P (weights v P l.time l.unit i t) l.nn ex

/-- `y - alpha - beta - l` (trop.rs 492, 1025). -/
def tau (P : Data K) (f : Fit K) (t i : ℕ) : Option K := (P.Y t i).map (fun y => y - f.alpha i - f.beta t - f.L t i)

/-- `loocv_score_for_params` (trop.rs 446-512); infinity for no cell. -/
def score (v : Env K) (c : Cfg K) (P : Data K) (obs : List (ℕ × ℕ)) (l : TropFit.Lam3 K) : Ext K :=
  match obs with
  | [] => .pinf
  | q :: qs => .fin (((q :: qs).map (fun q => match tau P (fitAt v c P l (some q) q.1 q.2) q.1 q.2 with
      | some x => x * x
      | none => 0)).sum)

/-! ### Bootstrap -/

/-- The resampled panel: drawn columns in the order drawn, never-treated units first (trop.rs 943-969). -/
def bootPanel (P : Data K) (sample : List ℕ) : Data K :=
  { nT := P.nT, nN := sample.length, Y := fun t j => P.Y t (sample.getD j 0), D := fun t j => P.D t (sample.getD j 0) }

/-- A replicate (trop.rs 971-1034); `none`: skipped because it has no treated cell or no never-treated unit. -/
def bootFit (v : Env K) (c : Cfg K) (B : Data K) (l : TropFit.Lam3 K) : Option (Option K) :=
  if TropFit.treatedCells B = [] then none
  else if (List.range B.nN).all (fun i => (List.range B.nT).any (fun t => decide (B.D t i ≠ 0))) then none
  else match ((TropFit.treatedCells B).map (fun q => tau B (fitAt v c B l none q.1 q.2) q.1 q.2)).mapM id with
    | some xs => some (some (xs.sum / (xs.length : K)))
    | none => some none

/-! ### Search -/

open Trop (Lam Grids isInf)

/-- Conversion of the fixed and searched values (trop.rs 199-221, 392-394). -/
def conv (l : Lam K) : Lam K :=
  { time := if isInf l.time then .fin 0 else l.time
    unit := if isInf l.unit then .fin 0 else l.unit
    nn := if isInf l.nn then .fin (10 ^ 10) else l.nn }

/-- `univariate_loocv_search` (trop.rs 170-240): scores first, then the first strictly smallest. `put` writes the searched value into
the combination of fixed values. -/
def univariate (sc : Lam K → Ext K) (put : Ext K → Lam K) (grid : List (Ext K)) : Ext K × Ext K :=
  (grid.map (fun x => (x, sc (conv (put x))))).foldl (fun best p => if Ext.lt p.2 best.2 then p else best)
    ((grid.head?).getD (.fin 0), .pinf)

/-- `cycling_parameter_search` (trop.rs 245-296). -/
def cycling (sc : Lam K → Ext K) (g : Grids K) : ℕ → Ext K → Lam K → Lam K
  | 0, _, l => l
  | n + 1, prev, l =>
    let u := (univariate sc (fun x => { time := l.time, unit := x, nn := l.nn }) g.unit).1
    let t := (univariate sc (fun x => { time := x, unit := u, nn := l.nn }) g.time).1
    let s := univariate sc (fun x => { time := t, unit := u, nn := x }) g.nn
    if Ext.lt (Ext.abs (Ext.sub s.2 prev)) (.fin (1 / 10 ^ 6)) then { time := t, unit := u, nn := s.1 }
    else cycling sc g n s.2 { time := t, unit := u, nn := s.1 }

/-- `loocv_grid_search` (trop.rs 328-405): the selected combination, and its score at the converted values. -/
def gridSearch (sc : Lam K → Ext K) (g : Grids K) : Lam K × Ext K :=
  let best := cycling sc g 10 .pinf
    { time := (univariate sc (fun x => { time := x, unit := .fin 0, nn := .pinf }) g.time).1
      unit := (univariate sc (fun x => { time := .fin 0, unit := x, nn := .pinf }) g.unit).1
      nn := (univariate sc (fun x => { time := .pinf, unit := .fin 0, nn := x }) g.nn).1 }
  (best, sc (conv best))

/-- Use of the compiled search by `fit` (trop.py 1983-2097): a non-finite score sends `fit` to the Python search `py`. -/
def select (sc : Lam K → Ext K) (py : Lam K × Ext K) (g : Grids K) : Lam K × Ext K :=
  if (gridSearch sc g).2.isFinite then gridSearch sc g else py

end
end DiffDiff.TropRust
