/-
Model of the compiled tuning search and bootstrap of `TROP` (method "joint").
  /repo/rust/src/trop.rs 1077-1164 (weights), 1172-1293 (coordinate descent), 1301-1375 (factor matrix), 1388-1448 (score),
  1472-1565 (search), 1588-1721 (bootstrap); /repo/diff_diff/trop.py 1355-1370 (use of the search), 1601-1635 (use of the bootstrap).
The code is written over the record of operations `TropFit.Ops` and used at two instances: exact arithmetic in an ordered field
(`fieldOps`) and floats with exact finite part, infinities and NaN (`extOps`), because the weights may be NaN.
Simplifications: the parallel maps are maps (each result depends on its own index); `exp`, `sqrt` and the singular value
decomposition are parameters, the latter does not fail; missing outcomes are `none`, outcomes are not infinite; treatment entries
are 0 or 1; the random draws of the subsampling and of the bootstrap are arguments.
-/
import Verif.TropRust
import Verif.TropJoint

namespace DiffDiff.TropJointRust

open TropFit (Data Cfg Ops Lam3 sumL)
open TropJoint (Sol)

/-! ### Weights -/

section
variable {K : Type*} [Field K] [LinearOrder K]

/-- `average_treated[t]`: mean over the ever-treated units with an outcome (trop.rs 1088-1093, 1109-1124); `none` is NaN. -/
def avgTreated (P : Data K) (t : ℕ) : Option K :=
  match (TropFit.treatedUnits P).filterMap (fun i => P.Y t i) with
  | [] => none
  | l => some (l.sum / (l.length : K))

/-- The squared gaps added up for one unit (trop.rs 1133-1139): the first `n_periods - treated_periods` periods, both values present. -/
def gaps (P : Data K) (tp i : ℕ) : List K :=
  (List.range (P.nT - tp)).filterMap (fun t => (P.Y t i).bind (fun y => (avgTreated P t).map (fun a => (a - y) * (a - y))))

/-- `dist` (trop.rs 1140-1148): root mean squared gap, infinity without a valid period. -/
def dist (r : K → K) (P : Data K) (tp i : ℕ) : Ext K :=
  match gaps P tp i with
  | [] => .pinf
  | l => TropFit.extSqrt r (Ext.div (.fin l.sum) (.fin (l.length : K)))

/-- `delta_unit[i]` (trop.rs 1129-1152). -/
def unitW (e r : K → K) (P : Data K) (tp : ℕ) (lamU : Ext K) (i : ℕ) : Ext K :=
  if 0 < P.nT - tp then TropFit.extExp e (Ext.mul (Ext.neg lamU) (dist r P tp i)) else .fin 1

/-- `delta_time[t]` (trop.rs 1097-1102). -/
def timeW (e : K → K) (nT tp : ℕ) (lamT : Ext K) (t : ℕ) : Ext K :=
  TropFit.extExp e (Ext.mul (Ext.neg lamT) (.fin |(t : K) - ((nT : K) - (tp : K) / 2)|))

/-- `compute_joint_weights` (trop.rs 1077-1164). -/
def weights (e r : K → K) (P : Data K) (tp : ℕ) (lamT lamU : Ext K) (t i : ℕ) : Ext K :=
  Ext.mul (timeW e P.nT tp lamT t) (unitW e r P tp lamU i)

end

/-! ### Coordinate descent -/

section
variable {N : Type*} (o : Ops N)

/-- Outcome, weight (0 for a missing outcome) and treatment of each cell as read by the loops (trop.rs 1198-1200, 1232-1234). -/
structure In (N : Type*) where
  nT : ℕ
  nN : ℕ
  y : ℕ → ℕ → N
  w : ℕ → ℕ → N
  d : ℕ → ℕ → N

/-- The masked inputs. -/
def input (nT nN : ℕ) (Y : ℕ → ℕ → Option N) (D : ℕ → ℕ → ℤ) (W : ℕ → ℕ → N) : In N :=
  { nT := nT, nN := nN
    y := fun t i => (Y t i).getD o.zero
    w := fun t i => if (Y t i).isSome then W t i else o.zero
    d := fun t i => if D t i = 1 then o.one else o.zero }

/-- A sum over all cells, by rows. -/
def sumC (x : In N) (f : ℕ → ℕ → N) : N := sumL o ((List.range x.nT).map (fun t => sumL o ((List.range x.nN).map (fun i => f t i))))

/-- `1e-10`. -/
def tiny : N := o.div o.one (o.ofNat (10 ^ 10))

/-- `1e-8`. -/
def small : N := o.div o.one (o.ofNat (10 ^ 8))

/-- `sum_w` (trop.rs 1202). -/
def sumW (x : In N) : N := sumC o x x.w

/-- `sum_w_by_unit[i]` (trop.rs 1205). -/
def unitSum (x : In N) (i : ℕ) : N := sumL o ((List.range x.nT).map (fun t => x.w t i))

/-- `sum_w_by_period[t]` (trop.rs 1207). -/
def timeSum (x : In N) (t : ℕ) : N := sumL o ((List.range x.nN).map (fun i => x.w t i))

/-- Unit effects given the rest (trop.rs 1227-1239); the first unit stays at its value. -/
def alphaUp (x : In N) (s : Sol N) (i : ℕ) : N :=
  if i = 0 then s.alpha i
  else if o.lt (tiny o) (unitSum o x i) then
    o.div (sumL o ((List.range x.nT).map (fun t =>
      o.mul (x.w t i) (o.sub (o.sub (o.sub (x.y t i) s.mu) (s.beta t)) (o.mul s.tau (x.d t i)))))) (unitSum o x i)
  else s.alpha i

/-- Period effects given the rest (trop.rs 1241-1253); the first period stays at its value. -/
def betaUp (x : In N) (s : Sol N) (t : ℕ) : N :=
  if t = 0 then s.beta t
  else if o.lt (tiny o) (timeSum o x t) then
    o.div (sumL o ((List.range x.nN).map (fun i =>
      o.mul (x.w t i) (o.sub (o.sub (o.sub (x.y t i) s.mu) (s.alpha i)) (o.mul s.tau (x.d t i)))))) (timeSum o x t)
  else s.beta t

/-- `denom_tau` (trop.rs 1257-1269): treated cells only. -/
def denTau (x : In N) : N :=
  sumC o x (fun t i => if o.lt (o.div o.one (o.ofNat 2)) (x.d t i) then o.mul (o.mul (x.w t i) (x.d t i)) (x.d t i) else o.zero)

/-- `num_tau` (trop.rs 1256-1269). -/
def numTau (x : In N) (s : Sol N) : N :=
  sumC o x (fun t i => if o.lt (o.div o.one (o.ofNat 2)) (x.d t i) then
    o.mul (o.mul (x.w t i) (x.d t i)) (o.sub (o.sub (o.sub (x.y t i) s.mu) (s.alpha i)) (s.beta t)) else o.zero)

/-- The effect given the rest (trop.rs 1255-1272). -/
def tauUp (x : In N) (s : Sol N) : N := if o.lt (tiny o) (denTau o x) then o.div (numTau o x s) (denTau o x) else s.tau

/-- The intercept given the rest (trop.rs 1274-1284). -/
def muUp (x : In N) (s : Sol N) : N :=
  o.div (sumC o x (fun t i => o.mul (x.w t i) (o.sub (o.sub (o.sub (x.y t i) (s.alpha i)) (s.beta t)) (o.mul s.tau (x.d t i))))) (sumW o x)

/-- One pass: unit effects, period effects, effect, intercept (trop.rs 1223-1284). -/
def sweep (x : In N) (s : Sol N) : Sol N :=
  let s := { s with alpha := alphaUp o x s }
  let s := { s with beta := betaUp o x s }
  let s := { s with tau := tauUp o x s }
  { s with mu := muUp o x s }

/-- The stopping test on intercept and effect (trop.rs 1286-1289). -/
def stop (s s' : Sol N) : Bool :=
  o.lt (o.abs (o.sub s'.mu s.mu)) (small o) && o.lt (o.abs (o.sub s'.tau s.tau)) (small o)

/-- At most `n` passes (trop.rs 1223-1290). -/
def descend (x : In N) : ℕ → Sol N → Sol N
  | 0, s => s
  | n + 1, s => if stop o s (sweep o x s) then sweep o x s else descend x n (sweep o x s)

/-- Starting values (trop.rs 1218-1221). -/
def start (x : In N) : Sol N :=
  { mu := o.div (sumC o x (fun t i => o.mul (x.w t i) (x.y t i))) (sumW o x), alpha := fun _ => o.zero, beta := fun _ => o.zero, tau := o.zero }

/-- `solve_joint_no_lowrank` (trop.rs 1172-1293): at most 50 passes; `none` for vanishing weights. -/
def solve (nT nN : ℕ) (Y : ℕ → ℕ → Option N) (D : ℕ → ℕ → ℤ) (W : ℕ → ℕ → N) : Option (Sol N) :=
  if o.lt (sumW o (input o nT nN Y D W)) (tiny o) then none
  else some (descend o (input o nT nN Y D W) 50 (start o (input o nT nN Y D W)))

/-! ### Factor matrix -/

/-- `fold(0.0, f64::max)`: NaN entries are ignored. -/
def foldMax (l : List N) : N := l.foldl (fun a b => if o.lt a b then b else a) o.zero

/-- All entries of a matrix. -/
def entries (nT nN : ℕ) (M : ℕ → ℕ → N) : List N := (List.range nT).flatMap (fun t => (List.range nN).map (fun i => M t i))

/-- `delta_max`: over all cells, with or without an outcome (trop.rs 1337). -/
def deltaMax (nT nN : ℕ) (W : ℕ → ℕ → N) : N := foldMax o (entries nT nN W)

/-- `eta` (trop.rs 1338). -/
def eta (nT nN : ℕ) (W : ℕ → ℕ → N) : N :=
  if o.lt o.zero (deltaMax o nT nN W) then o.div o.one (deltaMax o nT nN W) else o.one

/-- `gradient_step` (trop.rs 1340-1356). -/
def gradStep (nT nN : ℕ) (Y : ℕ → ℕ → Option N) (D : ℕ → ℕ → ℤ) (W : ℕ → ℕ → N) (s : Sol N) (L : ℕ → ℕ → N) (t i : ℕ) : N :=
  let x := input o nT nN Y D W
  let dn := if o.lt o.zero (deltaMax o nT nN W) then o.div (x.w t i) (deltaMax o nT nN W) else x.w t i
  let rc := match Y t i with
    | some y => o.sub (o.sub (o.sub (o.sub y s.mu) (s.alpha i)) (s.beta t)) (o.mul s.tau (x.d t i))
    | none => o.zero
  o.add (L t i) (o.mul dn (o.sub rc (L t i)))

/-- `soft_threshold_svd` (trop.rs 771-852). -/
def soft (thr : N) (nT nN : ℕ) (M : ℕ → ℕ → N) : ℕ → ℕ → N := if o.nonpos thr then M else o.svd thr nT nN M

/-- The update of the factor matrix (trop.rs 1326-1359). -/
def lowStep (nT nN : ℕ) (Y : ℕ → ℕ → Option N) (D : ℕ → ℕ → ℤ) (W : ℕ → ℕ → N) (lam : N) (s : Sol N) (L : ℕ → ℕ → N) : ℕ → ℕ → N :=
  soft o (o.mul (eta o nT nN W) lam) nT nN (gradStep o nT nN Y D W s L)

/-- `Y - L`, missing where the outcome is missing (trop.rs 1319-1322, 1368-1371). -/
def adj (Y : ℕ → ℕ → Option N) (L : ℕ → ℕ → N) (t i : ℕ) : Option N := (Y t i).map (fun y => o.sub y (L t i))

/-- `max_abs_diff_2d(l, l_old) < tol` (trop.rs 865-870, 1361-1365). -/
def settled (tol : N) (nT nN : ℕ) (A B : ℕ → ℕ → N) : Bool :=
  o.lt (foldMax o (entries nT nN (fun t i => o.abs (o.sub (A t i) (B t i))))) tol

/-- The loop over factor updates (trop.rs 1313-1366): the last factor matrix. -/
def lowLoop (tol : N) (nT nN : ℕ) (Y : ℕ → ℕ → Option N) (D : ℕ → ℕ → ℤ) (W : ℕ → ℕ → N) (lam : N) :
    ℕ → (ℕ → ℕ → N) → Option (ℕ → ℕ → N)
  | 0, L => some L
  | n + 1, L =>
    match solve o nT nN (adj o Y L) D W with
    | none => none
    | some s =>
      if settled o tol nT nN (lowStep o nT nN Y D W lam s L) L then some (lowStep o nT nN Y D W lam s L)
      else lowLoop tol nT nN Y D W lam n (lowStep o nT nN Y D W lam s L)

/-- `solve_joint_with_lowrank` (trop.rs 1301-1375): parameters are solved once more with the last factor matrix. -/
def solveLow (c : Cfg N) (P : Data N) (W : ℕ → ℕ → N) (lam : N) : Option (Sol N × (ℕ → ℕ → N)) :=
  match lowLoop o c.tol P.nT P.nN P.Y P.D W lam c.maxIter (fun _ _ => o.zero) with
  | none => none
  | some L => (solve o P.nT P.nN (adj o P.Y L) P.D W).map (fun s => (s, L))

/-- The branch on `lambda_nn >= 1e10` (trop.rs 1413-1422, 1685-1698). -/
def fitW (c : Cfg N) (P : Data N) (W : ℕ → ℕ → N) (lamN : N) : Option (Sol N × (ℕ → ℕ → N)) :=
  if o.lt lamN (o.ofNat (10 ^ 10)) then solveLow o c P W lamN
  else (solve o P.nT P.nN P.Y P.D W).map (fun s => (s, fun _ _ => o.zero))

/-! ### Score -/

/-- `delta_ex` (trop.rs 1409-1411). -/
def without (W : ℕ → ℕ → N) (q : ℕ × ℕ) (t i : ℕ) : N := if (t, i) = q then o.zero else W t i

/-- Pseudo effect of a left-out cell (trop.rs 1424-1435); outer `none`: the fit failed; inner `none`: no outcome, skipped. -/
def looTerm (c : Cfg N) (P : Data N) (W : ℕ → ℕ → N) (lamN : N) (q : ℕ × ℕ) : Option (Option N) :=
  (fitW o c P (without o W q) lamN).map (fun f =>
    (P.Y q.1 q.2).map (fun y => o.sub (o.sub (o.sub (o.sub y f.1.mu) (f.1.alpha q.2)) (f.1.beta q.1)) (f.2 q.1 q.2)))

/-- `loocv_score_joint` (trop.rs 1388-1448) for given weights; `none` is infinity. -/
def score (c : Cfg N) (P : Data N) (W : ℕ → ℕ → N) (lamN : N) (obs : List (ℕ × ℕ)) : Option N :=
  match obs.mapM (looTerm o c P W lamN) with
  | none => none
  | some l => match l.filterMap id with
    | [] => none
    | x :: xs => some (sumL o ((x :: xs).map (fun z => o.mul z z)))

end

/-! ### Search -/

section
variable {K : Type*} [Field K] [LinearOrder K]

/-- A combination on the grid; `none` is infinity. -/
abbrev Comb (K : Type*) := Option K × Option K × Option K

/-- The score of a combination, on floats, after the conversion of infinities (trop.rs 1523-1539). -/
def scoreAt (e r : K → K) (svd : K → ℕ → ℕ → (ℕ → ℕ → K) → (ℕ → ℕ → K)) (c : Cfg K) (P : Data K) (tp : ℕ) (obs : List (ℕ × ℕ))
    (l : Comb K) : Ext K :=
  (score (TropFit.extOps e r svd) { maxIter := c.maxIter, tol := .fin c.tol } (TropFit.toExt P)
    (weights e r P tp (.fin (TropJoint.conv l).time) (.fin (TropJoint.conv l).unit)) (.fin (TropJoint.conv l).nn) obs).getD .pinf

/-- The first strictly smallest score (trop.rs 1546-1560); at first the first grid values with an infinite score. -/
def search (sc : Comb K → Ext K) (gt gu gn : List (Option K)) : Comb K × Ext K :=
  ((TropJoint.combos gt gu gn).map (fun l => (l, sc l))).foldl (fun best p => if Ext.lt p.2 best.2 then p else best)
    ((gt.head?.getD (some 0), gu.head?.getD (some 0), gn.head?.getD (some 0)), .pinf)

/-- `treated_periods` (trop.rs 1495-1505, 1620-1630): periods from the first treated one on. -/
def treatedPeriods (P : Data K) : ℕ :=
  P.nT - (((List.range P.nT).find? (fun t => (List.range P.nN).any (fun i => decide (P.D t i = 1)))).getD P.nT)

/-- Use of the compiled search by `fit` (trop.py 1355-1450): only a finite score is accepted, otherwise the Python search `py` runs. -/
def select (sc : Comb K → Ext K) (py : Comb K × Option K) (gt gu gn : List (Option K)) : Comb K × Option K :=
  match (search sc gt gu gn).2 with
  | .fin x => ((search sc gt gu gn).1, some x)
  | _ => py

/-! ### Bootstrap -/

/-- The drawn columns: never-treated units first, then treated units, each drawn by position (trop.rs 1606-1616, 1646-1663). -/
def sampled (P : Data K) (dc dt : List ℕ) : List ℕ :=
  let tr := TropFit.treatedUnits P
  let co := (List.range P.nN).filter (fun i => !(List.range P.nT).any (fun t => decide (P.D t i = 1)))
  dc.map (fun k => co.getD k 0) ++ dt.map (fun k => tr.getD k 0)

/-- One replicate (trop.rs 1638-1702): outer `none`: the fit failed. -/
def bootOne (e r : K → K) (svd : K → ℕ → ℕ → (ℕ → ℕ → K) → (ℕ → ℕ → K)) (c : Cfg K) (P : Data K) (l : Comb K) (d : List ℕ × List ℕ) :
    Option (Ext K) :=
  (fitW (TropFit.extOps e r svd) { maxIter := c.maxIter, tol := .fin c.tol } (TropFit.toExt (TropRust.bootPanel P (sampled P d.1 d.2)))
    (weights e r (TropRust.bootPanel P (sampled P d.1 d.2)) (treatedPeriods P) (.fin (TropJoint.conv l).time) (.fin (TropJoint.conv l).unit))
    (.fin (TropJoint.conv l).nn)).map (fun f => f.1.tau)

/-- The standard error (trop.rs 1704-1717). -/
def bootSe (e r : K → K) (svd : K → ℕ → ℕ → (ℕ → ℕ → K) → (ℕ → ℕ → K)) (xs : List (Ext K)) : Ext K :=
  let o := TropFit.extOps e r svd
  if xs.length < 2 then .nan
  else
    let m := o.div (sumL o xs) (o.ofNat xs.length)
    o.sqrt (o.div (sumL o (xs.map (fun x => o.mul (o.sub x m) (o.sub x m)))) (o.sub (o.ofNat xs.length) o.one))

/-- `bootstrap_trop_variance_joint` (trop.rs 1588-1721). -/
def bootstrap (e r : K → K) (svd : K → ℕ → ℕ → (ℕ → ℕ → K) → (ℕ → ℕ → K)) (c : Cfg K) (P : Data K) (l : Comb K)
    (draws : List (List ℕ × List ℕ)) : List (Ext K) × Ext K :=
  (draws.filterMap (bootOne e r svd c P l), bootSe e r svd (draws.filterMap (bootOne e r svd c P l)))

/-- Use of the compiled bootstrap by `_bootstrap_variance_joint` (trop.py 1614-1629): with no replicate the standard error is 0. -/
def bootVar (e r : K → K) (svd : K → ℕ → ℕ → (ℕ → ℕ → K) → (ℕ → ℕ → K)) (c : Cfg K) (P : Data K) (l : Comb K)
    (draws : List (List ℕ × List ℕ)) : Ext K × List (Ext K) :=
  match bootstrap e r svd c P l draws with
  | ([], _) => (.fin 0, [])
  | (xs, se) => (se, xs)

end
end DiffDiff.TropJointRust
