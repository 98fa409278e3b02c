/-
Model of the estimation part of `TROP` (method "twostep"): observation weights, alternating minimisation, cross-validation score,
point estimate, jackknife and bootstrap replicates.
  /repo/diff_diff/trop.py 502-573, 648-692, 2121-2164, 2236-2750, 2868-3078.
The code is written once over an arbitrary number type with a record of operations `Ops` and used at two instances: exact arithmetic
in an ordered field (`fieldOps`) and floats with exact finite part, infinities and NaN (`extOps`), because the code itself feeds
infinities into the weights.
Simplifications: matrices are functions of (period index, unit index); missing outcomes are `none`; outcomes are not infinite;
`exp`, `sqrt` and the singular value decomposition are parameters; linear algebra routines do not raise; the compiled routines are
absent, so the Python code runs; replicates have the same number of units as the data.
-/
import Verif.Trop

namespace DiffDiff.TropFit

/-- The arithmetic used by the code. -/
structure Ops (N : Type*) where
  zero : N
  one : N
  add : N → N → N
  sub : N → N → N
  mul : N → N → N
  div : N → N → N
  neg : N → N
  abs : N → N
  /-- `np.maximum` (NaN if either is NaN) -/
  max : N → N → N
  /-- `a < b` -/
  lt : N → N → Bool
  /-- `x > 0` -/
  pos : N → Bool
  /-- `x <= 0` -/
  nonpos : N → Bool
  /-- `x == 0` -/
  isZero : N → Bool
  ofNat : ℕ → N
  exp : N → N
  sqrt : N → N
  /-- `np.nan_to_num(x, nan=0, posinf=0, neginf=0)` -/
  clean : N → N
  /-- `_soft_threshold_svd` after the cleaning of its input (trop.py 2388-2420): threshold, number of periods and units, matrix -/
  svd : N → ℕ → ℕ → (ℕ → ℕ → N) → (ℕ → ℕ → N)

/-- Outcome and treatment matrices, `[period, unit]`. -/
structure Data (N : Type*) where
  nT : ℕ
  nN : ℕ
  Y : ℕ → ℕ → Option N
  D : ℕ → ℕ → ℤ

/-- Fixed effects and factor matrix. -/
structure Fit (N : Type*) where
  alpha : ℕ → N
  beta : ℕ → N
  L : ℕ → ℕ → N

section
variable {N : Type*} (o : Ops N)

/-- `np.sum` / `np.nansum` of a list. -/
def sumL (l : List N) : N := l.foldr o.add o.zero

/-- `np.max` of non-negative entries (or NaN). -/
def maxL (l : List N) : N := l.foldr o.max o.zero

/-- `(a - b) ** 2`. -/
def sqDiff (a b : N) : N := o.mul (o.sub a b) (o.sub a b)

/-- Squared differences of units `i` and `j` over the periods other than the target in which both are untreated and observed
(trop.py 680-689). -/
def sqDiffs (P : Data N) (j i t : ℕ) : List N :=
  (List.range P.nT).filterMap (fun s =>
    if s ≠ t ∧ P.D s i = 0 ∧ P.D s j = 0 then
      (P.Y s i).bind (fun a => (P.Y s j).map (fun b => sqDiff o a b))
    else none)

/-- `_compute_unit_distance_for_obs` (trop.py 648-692); `none` is infinity. -/
def dist (P : Data N) (j i t : ℕ) : Option N :=
  match sqDiffs o P j i t with
  | [] => none
  | l => some (o.sqrt (o.div (sumL o l) (o.ofNat l.length)))

/-- Time weight `exp(-lambda_time * |t - s|)` (trop.py 2294, 2329-2330). -/
def timeWeight (lamT : N) (t s : ℕ) : N := o.exp (o.mul (o.neg lamT) (o.ofNat ((t - s) + (s - t))))

/-- Unit weights (trop.py 2298-2322, 2334-2354): 1 for the unit itself; 0 for units treated in the target period; otherwise 1 when
`lambda_unit == 0`, else `exp(-lambda_unit * distance)`, 0 for an infinite distance. -/
def unitWeight (P : Data N) (lamU : N) (i t j : ℕ) : N :=
  if j = i then o.one
  else if P.D t j = 0 then
    if o.isZero lamU then o.one
    else match dist o P j i t with
      | none => o.zero
      | some d => o.exp (o.mul (o.neg lamU) d)
  else o.zero

/-- The weight matrix computed from a panel (trop.py 2329-2359). -/
def weights (P : Data N) (lamT lamU : N) (i t : ℕ) : ℕ → ℕ → N :=
  fun s j => o.mul (timeWeight o lamT t s) (unitWeight o P lamU i t j)

/-- `_compute_observation_weights` (trop.py 2236-2359): the structures stored by the last `fit` are used whenever they exist, in
place of the panel passed as argument. -/
def obsWeights (pre : Option (Data N)) (P : Data N) (lamT lamU : N) (i t : ℕ) : ℕ → ℕ → N :=
  match pre with
  | some Q => weights o Q lamT lamU i t
  | none => weights o P lamT lamU i t

/-- `valid_mask` (trop.py 2558-2565): untreated, observed, and not the excluded cell. -/
def valid (P : Data N) (ex : Option (ℕ × ℕ)) (t i : ℕ) : Bool :=
  (P.Y t i).isSome && decide (P.D t i = 0) && !decide (ex = some (t, i))

/-- `W_masked = W * valid_mask` (trop.py 2574). -/
def wMasked (P : Data N) (ex : Option (ℕ × ℕ)) (W : ℕ → ℕ → N) (t i : ℕ) : N :=
  o.mul (W t i) (if valid P ex t i then o.one else o.zero)

/-- `Y_safe` (trop.py 2590). -/
def ySafe (P : Data N) (t i : ℕ) : N := (P.Y t i).getD o.zero

/-- `weight_sum_per_unit` (trop.py 2578). -/
def unitSum (nT : ℕ) (W : ℕ → ℕ → N) (i : ℕ) : N := sumL o ((List.range nT).map (fun t => W t i))

/-- `weight_sum_per_time` (trop.py 2579). -/
def timeSum (nN : ℕ) (W : ℕ → ℕ → N) (t : ℕ) : N := sumL o ((List.range nN).map (fun i => W t i))

/-- Unit effects update (trop.py 2604-2610). -/
def alphaStep (nT : ℕ) (Y W : ℕ → ℕ → N) (f : Fit N) (i : ℕ) : N :=
  if o.pos (unitSum o nT W i) then
    o.div (sumL o ((List.range nT).map (fun t => o.mul (W t i) (o.sub (o.sub (Y t i) (f.L t i)) (f.beta t))))) (unitSum o nT W i)
  else o.zero

/-- Time effects update with the new unit effects (trop.py 2612-2618). -/
def betaStep (nN : ℕ) (Y W : ℕ → ℕ → N) (alpha : ℕ → N) (L : ℕ → ℕ → N) (t : ℕ) : N :=
  if o.pos (timeSum o nN W t) then
    o.div (sumL o ((List.range nN).map (fun i => o.mul (W t i) (o.sub (o.sub (Y t i) (L t i)) (alpha i))))) (timeSum o nN W t)
  else o.zero

/-- `R_masked` (trop.py 2471-2480). -/
def rMasked (Y W : ℕ → ℕ → N) (alpha beta : ℕ → N) (L : ℕ → ℕ → N) (t i : ℕ) : N :=
  if o.pos (W t i) then o.clean (o.sub (o.sub (Y t i) (alpha i)) (beta t)) else L t i

/-- All entries of a matrix. -/
def entries (nT nN : ℕ) (M : ℕ → ℕ → N) : List N := (List.range nT).flatMap (fun t => (List.range nN).map (fun i => M t i))

/-- `np.max(np.abs(a - b))` over a matrix. -/
def matDiff (nT nN : ℕ) (A B : ℕ → ℕ → N) : N := maxL o (entries nT nN (fun t i => o.abs (o.sub (A t i) (B t i))))

/-- `np.max(np.abs(a - b))` over a vector. -/
def vecDiff (n : ℕ) (a b : ℕ → N) : N := maxL o ((List.range n).map (fun i => o.abs (o.sub (a i) (b i))))

/-- `W_norm` (trop.py 2487-2492). -/
def wNorm (nT nN : ℕ) (W : ℕ → ℕ → N) (t i : ℕ) : N :=
  if o.pos (maxL o (entries nT nN W)) then o.div (W t i) (maxL o (entries nT nN W)) else W t i

/-- One proximal step (trop.py 2504-2509); `_soft_threshold_svd` cleans its input first (trop.py 2384-2386). -/
def proxStep (nT nN : ℕ) (lam : N) (Wn R L : ℕ → ℕ → N) : ℕ → ℕ → N :=
  o.svd lam nT nN (fun t i => o.clean (o.add (L t i) (o.mul (Wn t i) (o.sub (R t i) (L t i)))))

/-- The inner loop (trop.py 2494-2513). -/
def inner (tol : N) (nT nN : ℕ) (lam : N) (Wn R : ℕ → ℕ → N) : ℕ → (ℕ → ℕ → N) → (ℕ → ℕ → N)
  | 0, L => L
  | n + 1, L =>
    if o.lt (matDiff o nT nN (proxStep o nT nN lam Wn R L) L) tol then proxStep o nT nN lam Wn R L
    else inner tol nT nN lam Wn R n (proxStep o nT nN lam Wn R L)

/-- `_weighted_nuclear_norm_solve` with 10 inner iterations (trop.py 2422-2515, 2624-2626). -/
def nnSolve (tol : N) (nT nN : ℕ) (lam : N) (Y W : ℕ → ℕ → N) (alpha beta : ℕ → N) (L : ℕ → ℕ → N) : ℕ → ℕ → N :=
  if o.nonpos lam then rMasked o Y W alpha beta L
  else inner o tol nT nN lam (wNorm o nT nN W) (rMasked o Y W alpha beta L) 10 L

/-- The body of the alternating minimisation loop (trop.py 2599-2626). -/
def sweep (tol : N) (nT nN : ℕ) (lam : N) (Y W : ℕ → ℕ → N) (f : Fit N) : Fit N :=
  { alpha := alphaStep o nT Y W f
    beta := betaStep o nN Y W (alphaStep o nT Y W f) f.L
    L := nnSolve o tol nT nN lam Y W (alphaStep o nT Y W f) (betaStep o nN Y W (alphaStep o nT Y W f) f.L) f.L }

/-- Python's `max(a, b)`: the first unless the second is larger. -/
def pymax (a b : N) : N := if o.lt a b then b else a

/-- The convergence test (trop.py 2628-2634). -/
def close (tol : N) (nT nN : ℕ) (f g : Fit N) : Bool :=
  o.lt (pymax o (pymax o (vecDiff o nN f.alpha g.alpha) (vecDiff o nT f.beta g.beta)) (matDiff o nT nN f.L g.L)) tol

/-- The alternating minimisation loop (trop.py 2592-2636). -/
def loop (tol : N) (nT nN : ℕ) (lam : N) (Y W : ℕ → ℕ → N) : ℕ → Fit N → Fit N
  | 0, f => f
  | n + 1, f =>
    if close o tol nT nN (sweep o tol nT nN lam Y W f) f then sweep o tol nT nN lam Y W f
    else loop tol nT nN lam Y W n (sweep o tol nT nN lam Y W f)

/-- Starting values (trop.py 2567-2570). -/
def start : Fit N := { alpha := fun _ => o.zero, beta := fun _ => o.zero, L := fun _ _ => o.zero }

/-- Estimator settings. -/
structure Cfg (N : Type*) where
  maxIter : ℕ
  tol : N

/-- `_estimate_model` (trop.py 2517-2636). -/
def estimate (c : Cfg N) (P : Data N) (W : ℕ → ℕ → N) (lam : N) (ex : Option (ℕ × ℕ)) : Fit N :=
  loop o c.tol P.nT P.nN lam (ySafe o P) (wMasked o P ex W) c.maxIter (start o)

/-- `Y[t, i] - alpha[i] - beta[t] - L[t, i]` (trop.py 2147, 2733). -/
def tau (P : Data N) (f : Fit N) (t i : ℕ) : Option N :=
  (P.Y t i).map (fun y => o.sub (o.sub (o.sub y (f.alpha i)) (f.beta t)) (f.L t i))

/-- Tuning parameters after conversion. -/
structure Lam3 (N : Type*) where
  time : N
  unit : N
  nn : N

/-- The fitted model for target cell `(t, i)`. -/
def fitAt (c : Cfg N) (pre : Option (Data N)) (P : Data N) (l : Lam3 N) (ex : Option (ℕ × ℕ)) (t i : ℕ) : Fit N :=
  estimate o c P (obsWeights o pre P l.time l.unit i t) l.nn ex

/-- The effect of one cell (trop.py 2134-2147). -/
def effect (c : Cfg N) (pre : Option (Data N)) (P : Data N) (l : Lam3 N) (t i : ℕ) : Option N :=
  tau o P (fitAt o c pre P l none t i) t i

/-- Cells satisfying a predicate, in row order (`np.where`, trop.py 554-559). -/
def cells (P : Data N) (p : ℕ → ℕ → Bool) : List (ℕ × ℕ) :=
  (List.range P.nT).flatMap (fun t => ((List.range P.nN).filter (fun i => p t i)).map (fun i => (t, i)))

/-- `treated_observations` (trop.py 555). -/
def treatedCells (P : Data N) : List (ℕ × ℕ) := cells P (fun t i => decide (P.D t i = 1))

/-- `control_obs` (trop.py 557-559). -/
def controlCells (P : Data N) : List (ℕ × ℕ) := cells P (fun t i => decide (P.D t i = 0) && (P.Y t i).isSome)

/-- `np.mean`; a missing entry makes the mean missing. `none` for an empty list (NaN). -/
def meanO (l : List (Option N)) : Option N :=
  match l.mapM id with
  | some (x :: xs) => some (o.div (sumL o (x :: xs)) (o.ofNat (xs.length + 1)))
  | _ => none

/-- The average effect over the treated cells (trop.py 2133-2160, 3052-3078). -/
def att (c : Cfg N) (pre : Option (Data N)) (P : Data N) (l : Lam3 N) : Option N :=
  meanO o ((treatedCells P).map (fun q => effect o c pre P l q.1 q.2))

/-- Squared leave-one-out effect of a control cell; control cells are observed (trop.py 2719-2735). -/
def looTerm (c : Cfg N) (pre : Option (Data N)) (P : Data N) (l : Lam3 N) (q : ℕ × ℕ) : N :=
  match tau o P (fitAt o c pre P l (some q) q.1 q.2) q.1 q.2 with
  | some x => o.mul x x
  | none => o.zero

/-- `_loocv_score_obs_specific` (trop.py 2638-2750). `pick` is the seeded subsampling of the stored control cells; `none` is the
infinite score of an empty sample. -/
def looScore (c : Cfg N) (pick : List (ℕ × ℕ) → List (ℕ × ℕ)) (P : Data N) (l : Lam3 N) : Option N :=
  match pick (controlCells P) with
  | [] => none
  | q :: qs => some (sumL o ((q :: qs).map (looTerm o c (some P) P l)))

/-- Remove a unit: outcomes missing, treatment 0 (trop.py 2952-2956). -/
def dropUnit (P : Data N) (u : ℕ) : Data N :=
  { P with
    Y := fun t i => if i = u then none else P.Y t i
    D := fun t i => if i = u then 0 else P.D t i }

/-- `treated_unit_idx` (trop.py 2949). -/
def treatedUnits (P : Data N) : List ℕ :=
  (List.range P.nN).filter (fun i => (List.range P.nT).any (fun t => decide (P.D t i = 1)))

/-- The replicates of `_jackknife_variance` (trop.py 2948-2988); the stored structures are those of the main fit. -/
def jackknife (c : Cfg N) (P : Data N) (l : Lam3 N) : List (Option N) :=
  (treatedUnits P).filterMap (fun u =>
    if treatedCells (dropUnit P u) = [] then none else some (att o c (some P) (dropUnit P u) l))

/-- The label given to the `k`-th drawn unit, `f"{u}_{k}"` (trop.py 2878-2881), for integer unit labels. -/
def bootLabel (u k : ℕ) : List Char := Nat.toDigits 10 u ++ '_' :: Nat.toDigits 10 k

/-- Lexicographic comparison of labels by code point (Python string order). -/
def labelLe : List Char → List Char → Bool
  | [], _ => true
  | _ :: _, [] => false
  | a :: as, b :: bs => decide (a.toNat < b.toNat) || (decide (a.toNat = b.toNat) && labelLe as bs)

/-- Column order of a replicate: the drawn column positions sorted by their new labels (trop.py 3023, `sorted(data[unit].unique())`).
`ids` are the original integer labels of the columns. -/
def bootOrder (ids : ℕ → ℕ) (sample : List ℕ) : List ℕ :=
  (sample.zipIdx.insertionSort (fun a b => labelLe (bootLabel (ids a.1) a.2) (bootLabel (ids b.1) b.2) = true)).map Prod.fst

/-- The resampled panel (trop.py 2878-2882, 3022-3044). Simplification: the drawn units together cover all periods. -/
def bootPanel (P : Data N) (ids : ℕ → ℕ) (sample : List ℕ) : Data N :=
  { nT := P.nT
    nN := sample.length
    Y := fun t j => P.Y t ((bootOrder ids sample).getD j 0)
    D := fun t j => P.D t ((bootOrder ids sample).getD j 0) }

/-- A replicate of `_bootstrap_variance` (trop.py 2868-2892, 3005-3078): the resampled panel `B` is fitted while the stored structures
are still those of the main fit `P`. `none`: no treated cell (`ValueError`), skipped. -/
def bootFit (c : Cfg N) (P B : Data N) (l : Lam3 N) : Option (Option N) :=
  if treatedCells B = [] then none else some (att o c (some P) B l)

end

/-! ### The two arithmetics -/

section
variable {K : Type*} [Field K] [LinearOrder K]

/-- Exact arithmetic. `e` is the exponential, `r` the square root, `svd` the thresholded reconstruction. -/
def fieldOps (e r : K → K) (svd : K → ℕ → ℕ → (ℕ → ℕ → K) → (ℕ → ℕ → K)) : Ops K :=
  { zero := 0, one := 1, add := (· + ·), sub := (· - ·), mul := (· * ·), div := (· / ·), neg := fun x => -x, abs := fun x => |x|
    max := fun a b => max a b, lt := fun a b => decide (a < b), pos := fun x => decide (0 < x), nonpos := fun x => decide (x ≤ 0)
    isZero := fun x => decide (x = 0), ofNat := fun n => (n : K), exp := e, sqrt := r, clean := fun x => x, svd := svd }

/-- `np.maximum` on floats. -/
def extMax : Ext K → Ext K → Ext K
  | .nan, _ => .nan
  | _, .nan => .nan
  | a, b => if Ext.lt a b then b else a

/-- `np.exp` on floats. -/
def extExp (e : K → K) : Ext K → Ext K
  | .nan => .nan
  | .ninf => .fin 0
  | .pinf => .pinf
  | .fin x => .fin (e x)

/-- `np.sqrt` on floats. -/
def extSqrt (r : K → K) : Ext K → Ext K
  | .pinf => .pinf
  | .fin x => if x < 0 then .nan else .fin (r x)
  | _ => .nan

/-- `np.nan_to_num(x, nan=0.0, posinf=0.0, neginf=0.0)`. -/
def extClean : Ext K → Ext K
  | .fin x => .fin x
  | _ => .fin 0

/-- The finite part. -/
def toK : Ext K → K
  | .fin x => x
  | _ => 0

/-- Soft thresholding on floats: an infinite threshold removes every singular value. -/
def extSvd (svd : K → ℕ → ℕ → (ℕ → ℕ → K) → (ℕ → ℕ → K)) (lam : Ext K) (nT nN : ℕ) (M : ℕ → ℕ → Ext K) : ℕ → ℕ → Ext K :=
  match lam with
  | .fin x => fun t i => .fin (svd x nT nN (fun t i => toK (M t i)) t i)
  | _ => fun _ _ => .fin 0

/-- Float arithmetic with exact finite part. -/
def extOps (e r : K → K) (svd : K → ℕ → ℕ → (ℕ → ℕ → K) → (ℕ → ℕ → K)) : Ops (Ext K) :=
  { zero := .fin 0, one := .fin 1, add := Ext.add, sub := Ext.sub, mul := Ext.mul, div := Ext.div, neg := Ext.neg, abs := Ext.abs
    max := extMax, lt := Ext.lt, pos := fun x => Ext.lt (.fin 0) x, nonpos := fun x => Ext.le x (.fin 0)
    isZero := fun x => match x with
      | .fin y => decide (y = 0)
      | _ => false
    ofNat := fun n => .fin (n : K), exp := extExp e, sqrt := extSqrt r, clean := extClean, svd := extSvd svd }

/-- The matrices of an accepted panel (trop.py 1899-1912). -/
def ofPanel {U T : Type*} (p : Trop.Panel U T K) : Data K :=
  { nT := p.periods.length
    nN := p.units.length
    Y := fun t i => match p.periods[t]?, p.units[i]? with
      | some a, some u => p.y a u
      | _, _ => none
    D := fun t i => match p.periods[t]?, p.units[i]? with
      | some a, some u => p.d a u
      | _, _ => 0 }

/-- The panel as floats. -/
def toExt (P : Data K) : Data (Ext K) := { nT := P.nT, nN := P.nN, Y := fun t i => (P.Y t i).map .fin, D := P.D }

/-- The three parameters as handed to the scoring and estimation routines. -/
def lam3 (l : Trop.Lam K) : Lam3 (Ext K) := { time := l.time, unit := l.unit, nn := l.nn }

/-- The score handed to the tuning search: infinity for an empty sample. -/
def score (o : Ops (Ext K)) (c : Cfg (Ext K)) (pick : List (ℕ × ℕ) → List (ℕ × ℕ)) (P : Data (Ext K)) (l : Trop.Lam K) :
    Option (Ext K) :=
  some ((looScore o c pick P (lam3 l)).getD .pinf)

/-- Point estimate of `fit` (trop.py 2041-2160): tuning search, conversion of infinities, effects. Returns the selected parameters, the
stored score, and the average effect. -/
def fitPoint (o : Ops (Ext K)) (c : Cfg (Ext K)) (pick : List (ℕ × ℕ) → List (ℕ × ℕ)) (P : Data (Ext K)) (g : Trop.Grids K) :
    (Trop.Lam K × Ext K) × Option (Ext K) :=
  let s := Trop.select (score o c pick P) g
  (s, att o c (some P) P (lam3 (Trop.effective s.1)))

end
end DiffDiff.TropFit
