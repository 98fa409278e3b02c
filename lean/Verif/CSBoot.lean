/-
Model of the multiplier bootstrap of the Callaway-Sant'Anna estimator and of the way `fit` uses its output.
  /repo/diff_diff/staggered_bootstrap.py 255-628, /repo/diff_diff/staggered.py 744-803
The weight generator is a parameter: `W b i` is the weight in draw b of the unit at position i of the sorted list of units
(the distributions are modelled in BootWeights). Group-time effects and influence functions are finite. Standard errors are
represented by their squares; the square root appears in t statistics only and is a parameter.
-/
import Verif.CS
import Verif.BootStats

namespace DiffDiff.CSBoot

open CS (Coh Cfg Entry Panel bootAtt dot)
open BootStats (Stats effectStats)

variable {K : Type*} [Field K] [LinearOrder K] [IsStrictOrderedRing K] [FloorSemiring K]
variable {n : ℕ}

/-- `group_time_effects` with `influence_func_info`. -/
abbrev GT (n : ℕ) (K : Type*) := List ((Coh × ℤ) × Entry n K)

/-- `all_units` (staggered_bootstrap.py 304-308). -/
def bootUnits (l : GT n K) : List (Fin n) :=
  (List.finRange n).filter (fun u => l.any (fun x => decide (u ∈ x.2.treated) || decide (u ∈ x.2.control)))

/-- `unit_to_idx` (staggered_bootstrap.py 310). -/
def unitIdx (l : GT n K) (u : Fin n) : ℕ := (bootUnits l).idxOf u

/-- Weight of a unit in a draw (staggered_bootstrap.py 373-374, 398-399). -/
def weightOf (l : GT n K) (W : ℕ → ℕ → K) (b : ℕ) (u : Fin n) : K := W b (unitIdx l u)

/-- `bootstrap_atts_gt[b, j]` (staggered_bootstrap.py 390-411). -/
def drawAt (l : GT n K) (W : ℕ → ℕ → K) (b j : ℕ) : K :=
  ((l[j]?).map (fun x => bootAtt (weightOf l W b) x.2)).getD 0

/-- `bootstrap_atts_gt[:, indices] @ weights` (staggered_bootstrap.py 420, 436, 451). -/
def aggDraws (l : GT n K) (W : ℕ → ℕ → K) (B : ℕ) (js : List ℕ) (w : List K) : List K :=
  (List.range B).map (fun b => dot (js.map (drawAt l W b)) w)

/-- Aggregation information: positions in `gt_pairs`, weights, effect. -/
structure Info (K : Type*) where
  idx : List ℕ
  weights : List K
  effect : K

/-- Weights proportional to the number of treated units (staggered_bootstrap.py 578-583, 324-327, 342, 349). -/
def sizeInfo (s : List (((Coh × ℤ) × Entry n K) × ℕ)) : Info K :=
  let w := s.map (fun x => (x.1.2.nT : K) / (s.map (fun z => (z.1.2.nT : K))).sum)
  { idx := s.map Prod.snd, weights := w, effect := dot w (s.map (fun x => x.1.2.effect)) }

/-- Equal weights (staggered_bootstrap.py 615-626). -/
def equalInfo (s : List (((Coh × ℤ) × Entry n K) × ℕ)) : Info K :=
  let w := s.map (fun _ => 1 / (s.length : K))
  { idx := s.map Prod.snd, weights := w, effect := dot w (s.map (fun x => x.1.2.effect)) }

/-- Post-treatment pairs (staggered_bootstrap.py 318-321). -/
def postItems (ant : ℤ) (l : GT n K) : List (((Coh × ℤ) × Entry n K) × ℕ) :=
  l.zipIdx.filter (fun x => x.1.1.1.post ant x.1.1.2)

/-- Pairs of the event study after balancing (staggered_bootstrap.py 545-573). -/
def eventItems (bal : Option ℤ) (l : GT n K) : List (((Coh × ℤ) × Entry n K) × ℕ) :=
  match bal with
  | none => l.zipIdx
  | some k =>
    let groupsAt := (l.filter (fun x => decide (x.1.1.rel x.1.2 = (k : WithBot ℤ)))).map (fun x => x.1.1)
    l.zipIdx.filter (fun x => decide (x.1.1.1 ∈ groupsAt))

/-- `_prepare_event_study_aggregation` in sorted order of keys (staggered_bootstrap.py 427, 575-591). -/
def eventInfo (bal : Option ℤ) (l : GT n K) : List (WithBot ℤ × Info K) :=
  let s := eventItems bal l
  ((s.map (fun x => x.1.1.1.rel x.1.1.2)).dedup.insertionSort (· ≤ ·)).map (fun e =>
    (e, sizeInfo (s.filter (fun x => decide (x.1.1.1.rel x.1.1.2 = e)))))

/-- `_prepare_group_aggregation` (staggered_bootstrap.py 600-628); the list of groups is sorted already. -/
def groupInfo (ant : ℤ) (gs : List Coh) (l : GT n K) : List (Coh × Info K) :=
  gs.filterMap (fun g =>
    let s := l.zipIdx.filter (fun x => decide (x.1.1.1 = g) && g.post ant x.1.1.2)
    if s.length = 0 then none else some (g, equalInfo s))

/-- `aggregate` as tested in staggered_bootstrap.py 355, 360. -/
inductive Agg | none | simple | event | group | all
  deriving DecidableEq, Repr

def Agg.wantsEvent : Agg → Bool
  | .event => true
  | .all => true
  | _ => false

def Agg.wantsGroup : Agg → Bool
  | .group => true
  | .all => true
  | _ => false

/-- `CSBootstrapResults`. -/
structure Boot (K : Type*) where
  overall : Stats K
  gt : List ((Coh × ℤ) × Stats K)
  event : Option (List (WithBot ℤ × Stats K))
  group : Option (List (Coh × Stats K))

/-- Statistics of one aggregate. -/
def infoStats (alpha : K) (l : GT n K) (W : ℕ → ℕ → K) (B : ℕ) (i : Info K) : Stats K :=
  effectStats alpha i.effect ((aggDraws l W B i.idx i.weights).map .fin)

/-- `_run_multiplier_bootstrap` (staggered_bootstrap.py 301-533). -/
def runBoot (alpha : K) (ant : ℤ) (agg : Agg) (bal : Option ℤ) (gs : List Coh) (l : GT n K) (W : ℕ → ℕ → K) (B : ℕ) : Boot K :=
  { overall := if (postItems ant l).length = 0 then .nan else infoStats alpha l W B (sizeInfo (postItems ant l))
    gt := l.zipIdx.map (fun x => (x.1.1, effectStats alpha x.1.2.effect (((List.range B).map (fun b => drawAt l W b x.2)).map .fin)))
    event := if agg.wantsEvent then some ((eventInfo bal l).map (fun x => (x.1, infoStats alpha l W B x.2))) else none
    group := if agg.wantsGroup then some ((groupInfo ant gs l).map (fun x => (x.1, infoStats alpha l W B x.2))) else none }

/-! ### Use in fit -/

/-- Effect with its inference; `none` is NaN. -/
structure Cell (K : Type*) where
  effect : K
  se2 : Option K
  t : Option K
  p : Option K
  ci : Option (K × K)
  deriving DecidableEq

/-- t statistic: NaN unless the standard error is finite and positive (staggered.py 759-762, 774, 789, 803). -/
def tStat (r : K → K) (effect : K) (se2 : Option K) : Option K :=
  se2.bind (fun v => if 0 < r v then some (effect / r v) else none)

/-- Replacing the inference of an effect (staggered.py 757-764, 769-774, 783-789, 798-803). -/
def Cell.update (r : K → K) (c : Cell K) (s : Stats K) : Cell K :=
  match s with
  | .nan => { c with se2 := none, t := none, p := none, ci := none }
  | .ok se2 ci p => { c with se2 := se2, t := tStat r c.effect se2, p := some p, ci := some ci }

/-- Replace where the key has bootstrap statistics (staggered.py 767-774, 781-789, 796-803). -/
def updateAll {κ : Type*} [DecidableEq κ] (r : K → K) (cells : List (κ × Cell K)) (boot : Option (List (κ × Stats K))) : List (κ × Cell K) :=
  match boot with
  | none => cells
  | some d => cells.map (fun x => (x.1, match d.find? (fun y => decide (y.1 = x.1)) with
    | some y => x.2.update r y.2
    | none => x.2))

/-- The inference part of the results. -/
structure Report (K : Type*) where
  overall : Option (Cell K)
  gt : List ((Coh × ℤ) × Cell K)
  event : Option (List (WithBot ℤ × Cell K))
  group : Option (List (Coh × Cell K))

/-- The bootstrap block of `fit` (staggered.py 744-803) applied to a report with analytic inference; `n_bootstrap = 0` leaves it
alone. An overall effect that is NaN (`none`) stays NaN. -/
def applyBoot (r : K → K) (alpha : K) (ant : ℤ) (agg : Agg) (bal : Option ℤ) (gs : List Coh) (l : GT n K) (W : ℕ → ℕ → K) (B : ℕ)
    (R : Report K) : Report K :=
  if B = 0 then R
  else
    let o := runBoot alpha ant agg bal gs l W B
    { overall := R.overall.map (fun c => c.update r o.overall)
      gt := updateAll r R.gt (some o.gt)
      event := R.event.map (fun c => updateAll r c o.event)
      group := R.group.map (fun c => updateAll r c o.group) }

end DiffDiff.CSBoot
