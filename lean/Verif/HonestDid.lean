/-
Model of the sensitivity analysis: extraction of the event study, restriction sets, bounds, intervals and breakdown search.
  /repo/diff_diff/honest_did.py 208-232, 379-389, 517-1425
Simplifications: exact arithmetic; `root` is the square root, `z` the normal critical value, `solve` the linear programming
solver (`scipy.optimize.linprog`), all parameters; estimates, standard errors and covariances that enter are finite, except
that the average standard error of MultiPeriodDiD may be NaN; results may be infinite or NaN. Covariate columns
whose name equals an interaction name are left out.
-/
import Verif.MultiPeriod
import Verif.Ext

namespace DiffDiff.HonestDid
open MultiPeriod (Col)

inductive Err | noEventStudy | lvecLength | nonPositiveSe | badAlpha | badMethod | badM deriving DecidableEq, Repr

inductive Method | smoothness | relativeMagnitude | combined deriving DecidableEq, Repr

section
variable {K : Type*} [Field K] [LinearOrder K]

/-- What HonestDiD reads from MultiPeriodDiD results. -/
structure Multi (K : Type*) where
  treatment : String
  pre : List ℤ
  post : List ℤ
  effect : ℤ → K
  dim : ℕ
  vcov : ℕ → ℕ → K
  avgSe : Option K
  cols : List Col
  coef : Col → K

/-- One entry of `event_study_effects`; a missing or non-finite standard error is `none`. -/
structure Event (K : Type*) where
  t : ℤ
  effect : K
  se : Option K
  nGroups : ℕ

/-- What HonestDiD reads from CallawaySantAnna results. -/
structure Cs (K : Type*) where
  events : Option (List (Event K))
  overallSe : K

/-- Extracted event study: coefficients, covariance with its dimension, numbers of periods. -/
structure Study (K : Type*) where
  beta : List K
  dim : ℕ
  sigma : ℕ → ℕ → K
  nPre : ℕ
  nPost : ℕ

/-- `_extract_event_study_params` for MultiPeriodDiD (honest_did.py 543-572); `vcov` is always present there. -/
def extractMulti (r : Multi K) : Study K :=
  { beta := r.post.map r.effect, dim := r.dim, sigma := r.vcov, nPre := r.pre.length, nPost := r.post.length }

/-- Events kept (honest_did.py 588-593): estimated from some group, with finite standard error, by relative time. -/
def keptEvents (ev : List (Event K)) : List (Event K) :=
  (ev.filter (fun e => decide (0 < e.nGroups) && e.se.isSome)).insertionSort (fun a b => a.t ≤ b.t)

/-- `_extract_event_study_params` for CallawaySantAnna (honest_did.py 576-612): diagonal covariance. -/
def extractCs (r : Cs K) : Except Err (Study K) :=
  match r.events with
  | none => .error .noEventStudy
  | some ev =>
    let k := keptEvents ev
    .ok { beta := k.map (·.effect), dim := k.length
          sigma := fun i j => if i = j then (match k[i]? with | some e => (e.se.getD 0) ^ 2 | none => 0) else 0
          nPre := (k.filter (fun e => e.t < 0)).length, nPost := (k.filter (fun e => 0 ≤ e.t)).length }

/-- Coefficients analysed (honest_did.py 1074-1083). -/
def betaPost (s : Study K) : List K :=
  if s.beta.length = s.nPost then s.beta
  else if s.beta.length = s.nPre + s.nPost then s.beta.drop s.nPre
  else s.beta

/-- Number of post periods after that step (honest_did.py 1083). -/
def nPost' (s : Study K) : ℕ :=
  if s.beta.length = s.nPost then s.nPost
  else if s.beta.length = s.nPre + s.nPost then s.nPost
  else s.beta.length

/-- First row of the covariance block used (honest_did.py 1085-1092). -/
def offset (s : Study K) : ℕ :=
  if s.dim = nPost' s ∧ s.dim = (betaPost s).length then 0
  else if s.dim = s.nPre + nPost' s then s.nPre
  else 0

/-- `sigma_post`. -/
def sigmaPost (s : Study K) : ℕ → ℕ → K := fun i j => s.sigma (offset s + i) (offset s + j)

/-- Weighting vector (honest_did.py 1097-1105). -/
def weights (l : Option (List K)) (n : ℕ) : Except Err (List K) :=
  match l with
  | none => .ok (List.replicate n (1 / (n : K)))
  | some l => if l.length = n then .ok l else .error .lvecLength

def dot (a b : List K) : K := (List.zipWith (· * ·) a b).sum

/-- `l @ sigma @ l`. -/
def quad (l : List K) (f : ℕ → ℕ → K) : K :=
  ((List.range l.length).map (fun i => ((List.range l.length).map (fun j => l.getD i 0 * f i j * l.getD j 0)).sum)).sum

structure Bounds (K : Type*) where
  lb : Ext K
  ub : Ext K
  ciLb : Ext K
  ciUb : Ext K
  deriving DecidableEq, Repr

/-- A linear programme: minimise `c` over vectors of length `T` with every row at most `b`, variables free. -/
structure Lp (K : Type*) where
  T : ℕ
  c : ℕ → K
  rows : List (ℕ → K)
  b : K

/-- `_construct_A_sd` (honest_did.py 622-651). -/
def secondDiff (T : ℕ) : List (ℕ → K) :=
  (List.range (T - 2)).map (fun i j => if j = i then 1 else if j = i + 1 then -2 else if j = i + 2 then 1 else 0)

/-- `_construct_constraints_sd` (honest_did.py 654-691). -/
def rowsSd (nPre nPost : ℕ) : List (ℕ → K) :=
  if (secondDiff (K := K) (nPre + nPost)).length = 0 then []
  else secondDiff (nPre + nPost) ++ (secondDiff (nPre + nPost)).map (fun r j => -r j)

/-- Objective of the lower bound (honest_did.py 791-792). -/
def objective (nPre : ℕ) (l : List K) : ℕ → K := fun j => if nPre ≤ j then -(l.getD (j - nPre) 0) else 0

/-- `_solve_bounds_lp` (honest_did.py 740-835): failure of the solver counts as unbounded. -/
def solveBounds (solve : Lp K → Option K) (beta l : List K) (rows : List (ℕ → K)) (M : K) (nPre : ℕ) : Ext K × Ext K :=
  if rows.length = 0 then (.ninf, .pinf)
  else
    let c := objective nPre l
    let lo : Ext K := match solve ⟨nPre + beta.length, c, rows, M⟩ with
      | some v => .fin v
      | none => .ninf
    let hi : Ext K := match solve ⟨nPre + beta.length, fun j => -c j, rows, M⟩ with
      | some v => .fin (-v)
      | none => .pinf
    ((Ext.fin (dot l beta)).add lo, (Ext.fin (dot l beta)).add hi)

/-- `_compute_flci` (honest_did.py 838-881); `z` is the critical value of a valid `alpha`. -/
def flci (z se : K) (lb ub : Ext K) : Except Err (Ext K × Ext K) :=
  if se ≤ 0 then .error .nonPositiveSe else .ok (lb.sub (.fin (z * se)), ub.add (.fin (z * se)))

/-- `_compute_smoothness_bounds` (honest_did.py 1146-1166). -/
def smoothBounds (solve : Lp K → Option K) (z se : K) (beta l : List K) (nPre : ℕ) (M : K) : Except Err (Bounds K) :=
  let s := solveBounds solve beta l (rowsSd nPre beta.length) M nPre
  match flci z se s.1 s.2 with
  | .error e => .error e
  | .ok c => .ok ⟨s.1, s.2, c.1, c.2⟩

/-- `_compute_rm_bounds` with `_compute_clf_ci` (honest_did.py 884-943, 1168-1196). -/
def rmBounds (z se : K) (beta l : List K) (maxPre : Option K) (M : K) : Bounds K :=
  match maxPre with
  | none => ⟨.nan, .nan, .nan, .nan⟩
  | some m =>
    let θ := dot l beta
    if m = 0 then ⟨.fin θ, .fin θ, .fin (θ - z * se), .fin (θ + z * se)⟩
    else ⟨.fin (θ - M * m), .fin (θ + M * m), .fin (θ - M * m - z * se), .fin (θ + M * m + z * se)⟩

/-- Python `max(a, b)` and `min(a, b)`. -/
def pyMax (a b : Ext K) : Ext K := if a.lt b then b else a
def pyMin (a b : Ext K) : Ext K := if b.lt a then b else a

/-- `_compute_combined_bounds` (honest_did.py 1198-1233). -/
def combinedBounds (solve : Lp K → Option K) (z se : K) (beta l : List K) (nPre : ℕ) (maxPre : Option K) (M : K) :
    Except Err (Bounds K) :=
  match smoothBounds solve z se beta l nPre M with
  | .error e => .error e
  | .ok sd =>
    let rm := rmBounds z se beta l maxPre M
    let lb := pyMax sd.lb rm.lb
    let ub := pyMin sd.ub rm.ub
    let b : Ext K × Ext K := if ub.lt lb then (.fin (dot l beta), .fin (dot l beta)) else (lb, ub)
    match flci z se b.1 b.2 with
    | .error e => .error e
    | .ok c => .ok ⟨b.1, b.2, c.1, c.2⟩

/-- Maximum of a non-empty list of numbers (Python `max`). -/
def listMax : List K → Option K
  | [] => none
  | a :: as => some (as.foldl max a)

/-- Pre-period magnitudes found in the coefficients of MultiPeriodDiD (honest_did.py 1250-1259): the key is built with the
literal name "treated". -/
def preEffectsMulti (r : Multi K) : List K :=
  r.pre.filterMap (fun p => if r.treatment = "treated" ∧ Col.inter p ∈ r.cols then some |r.coef (.inter p)| else none)

/-- `_estimate_max_pre_violation` for MultiPeriodDiD (honest_did.py 1246-1264). -/
def maxPreMulti (r : Multi K) : Option K :=
  match listMax (preEffectsMulti r) with
  | some m => some m
  | none => r.avgSe

/-- `_estimate_max_pre_violation` for CallawaySantAnna (honest_did.py 1267-1280). -/
def maxPreCs (r : Cs K) : Option K :=
  match r.events with
  | none => some r.overallSe
  | some ev =>
    match listMax ((ev.filter (fun e => decide (e.t < 0) && decide (0 < e.nGroups))).map (fun e => |e.effect|)) with
    | some m => some m
    | none => some r.overallSe

/-- Dispatch on the method (honest_did.py 1111-1130). -/
def bounds (method : Method) (solve : Lp K → Option K) (z se : K) (beta l : List K) (nPre : ℕ) (maxPre : Option K) (M : K) :
    Except Err (Bounds K) :=
  match method with
  | .smoothness => smoothBounds solve z se beta l nPre M
  | .relativeMagnitude => .ok (rmBounds z se beta l maxPre M)
  | .combined => combinedBounds solve z se beta l nPre maxPre M

structure Result (K : Type*) where
  estimate : K
  se : K
  bounds : Bounds K

/-- `HonestDiD.fit` after extraction (honest_did.py 1076-1144). -/
def fitStudy (method : Method) (solve : Lp K → Option K) (root : K → K) (z : K) (lvec : Option (List K)) (s : Study K)
    (maxPre : Option K) (M : K) : Except Err (Result K) :=
  match weights lvec (betaPost s).length with
  | .error e => .error e
  | .ok l =>
    let se := root (quad l (sigmaPost s))
    match bounds method solve z se (betaPost s) l s.nPre maxPre M with
    | .error e => .error e
    | .ok b => .ok ⟨dot l (betaPost s), se, b⟩

/-- `fit` on MultiPeriodDiD results. -/
def fitMulti (method : Method) (solve : Lp K → Option K) (root : K → K) (z : K) (lvec : Option (List K)) (r : Multi K) (M : K) :
    Except Err (Result K) := fitStudy method solve root z lvec (extractMulti r) (maxPreMulti r) M

/-- `fit` on CallawaySantAnna results. -/
def fitCs (method : Method) (solve : Lp K → Option K) (root : K → K) (z : K) (lvec : Option (List K)) (r : Cs K) (M : K) :
    Except Err (Result K) :=
  match extractCs r with
  | .error e => .error e
  | .ok s => fitStudy method solve root z lvec s (maxPreCs r) M

/-- `ci_lb <= 0 <= ci_ub`. -/
def includesZero (b : Bounds K) : Bool := b.ciLb.le (.fin 0) && (Ext.fin 0).le b.ciUb

/-- `is_significant` (honest_did.py 208-210). -/
def isSignificant (b : Bounds K) : Bool := !includesZero b

/-! ### Breakdown search -/

/-- One bisection step: keep the half whose right end includes zero. -/
def step (inc : K → Bool) (p : K × K) : K × K :=
  let mid := (p.1 + p.2) / 2
  if inc mid then (p.1, mid) else (mid, p.2)

/-- `n` bisection steps. -/
def bisect (inc : K → Bool) : ℕ → K × K → K × K
  | 0, p => p
  | n + 1, p => bisect inc n (step inc p)

/-- First transition along the grid (honest_did.py 1360-1377); `prev` is the previous grid point. -/
def transition (inc : K → Bool) : Option K → List K → Option K
  | _, [] => none
  | none, m :: ms => if inc m then some 0 else transition inc (some m) ms
  | some p, m :: ms =>
    if inc m then
      let q := bisect inc 20 (p, m)
      some ((q.1 + q.2) / 2)
    else transition inc (some m) ms

/-- `_find_breakdown` (honest_did.py 1338-1379). -/
def findBreakdown (inc : K → Bool) (grid : List K) : Option K :=
  if ¬ grid.any inc then none else if grid.all inc then some 0 else transition inc none grid

/-- The loop of `breakdown_value` (honest_did.py 1417-1423) with fuel; `none` means still running. -/
def bisectTol (inc : K → Bool) (tol : K) : ℕ → K × K → Option (K × K)
  | 0, _ => none
  | n + 1, p => if p.2 - p.1 > tol then bisectTol inc tol n (step inc p) else some p

/-- `breakdown_value` (honest_did.py 1381-1425): outer `none` for a loop still running after `fuel` tests. -/
def breakdownValue (inc : K → Bool) (tol : K) (fuel : ℕ) : Option (Option K) :=
  if inc 0 then some (some 0)
  else if ¬ inc 10 then some none
  else match bisectTol inc tol fuel (0, 10) with
    | none => none
    | some p => some (some ((p.1 + p.2) / 2))

/-- `SensitivityResults.__repr__` (honest_did.py 379-384): whether the breakdown is shown (a zero is falsy). -/
def reprShows : Option K → Bool
  | none => false
  | some m => decide (m ≠ 0)

/-- `_validate_params` (honest_did.py 1015-1025), for a method already known to be valid. -/
def validate (M alpha : K) : Except Err Unit :=
  if M < 0 then .error .badM else if ¬ (0 < alpha ∧ alpha < 1) then .error .badAlpha else .ok ()

end

end DiffDiff.HonestDid
