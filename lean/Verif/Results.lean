/-
Model of the results classes: significance, printed summaries and exports.
  /repo/diff_diff/results.py 14-182 (DiDResults), 183-200 (_get_significance_stars), 203-249 (PeriodEffect),
  252-476 (MultiPeriodDiDResults), 479-736 (SyntheticDiDResults)
  /repo/diff_diff/staggered_results.py 24-296 (GroupTimeEffect, CallawaySantAnnaResults)
  /repo/diff_diff/sun_abraham.py 96-245, triple_diff.py 123-263, trop.py 183-347 (same headline, same summary lines)
Not modelled: number formatting (`:.4f`, column widths); a printed line is kept as its kind and the values on it.
Dictionaries are association lists in insertion order.
-/
import Mathlib.Data.List.Sort
import Mathlib.Algebra.Order.Floor.Defs
import Verif.Inference

namespace DiffDiff.Results

variable {K : Type*} [Field K] [LinearOrder K]

/-- `_get_significance_stars` (results.py 183-200). -/
def stars (p : Ext K) : String :=
  if p.isNan then ""
  else if Ext.lt p (.fin (1 / 1000)) then "***"
  else if Ext.lt p (.fin (1 / 100)) then "**"
  else if Ext.lt p (.fin (1 / 20)) then "*"
  else if Ext.lt p (.fin (1 / 10)) then "."
  else ""

/-- The numbers of one effect: estimate, standard error, t statistic, p-value, interval. -/
structure Eff (K : Type*) where
  est : Ext K
  se : Ext K
  t : Ext K
  p : Ext K
  ci : Ext K × Ext K
deriving DecidableEq

/-- Headline of a results object: the effect and the significance level of the fit (results.py 41-50, 288-300, 525-537;
staggered_results.py 97-109; sun_abraham.py 66-79; triple_diff.py, trop.py 149-172). -/
structure Head (K : Type*) extends Eff K where
  alpha : K

/-- `is_significant` of DiDResults (results.py 172-175), MultiPeriodDiDResults (468-471), SyntheticDiDResults (728-731),
CallawaySantAnnaResults (288-291), SunAbrahamResults (236-239), TripleDifferenceResults (254-257), TROPResults (338-341).
Comparison with NaN is False. -/
def Head.isSignificant (r : Head K) : Bool := Ext.lt r.p (.fin r.alpha)

/-- `significance_stars` of the same classes. -/
def Head.significanceStars (r : Head K) : String := stars r.p

/-- `PeriodEffect.is_significant` (results.py 239-242) and `GroupTimeEffect.is_significant` (staggered_results.py 50-53):
always the 5% level. -/
def Eff.isSignificant (e : Eff K) : Bool := Ext.lt e.p (.fin (1 / 20))

/-- `alpha = alpha or self.alpha` (results.py 85, 326, 570, ...): None and 0 select the stored level. -/
def effAlpha (arg : Option K) (stored : K) : K :=
  match arg with
  | none => stored
  | some a => if a = 0 then stored else a

section level
variable [FloorRing K]

/-- `conf_level = int((1 - alpha) * 100)` (results.py 86 and the other summaries): truncation towards zero. -/
def confLevel (a : K) : ℤ :=
  let x := (1 - a) * 100
  if 0 ≤ x then ⌊x⌋ else ⌈x⌉

/-- A printed line, reduced to its kind and the values on it. -/
inductive Line (P K : Type*) where
  /-- decoration: rules, titles, headers, empty lines -/
  | deco
  /-- `label: integer` -/
  | count (label : String) (n : ℤ)
  /-- `label: number` -/
  | number (label : String) (x : Ext K)
  /-- `label: text` -/
  | text (label : String) (s : String)
  /-- a table row for the headline parameter: estimate, se, t, p, stars -/
  | main (name : String) (est se t p : Ext K) (sig : String)
  /-- a table row for one period / cohort -/
  | row (period : P) (est se t p : Ext K) (sig : String)
  /-- `level% Confidence Interval: [lo, hi]` -/
  | ci (level : ℤ) (lo hi : Ext K)
  /-- `Unit u: w` -/
  | weight (u : P) (w : K)
  /-- `(n units with weight > 0.001)` -/
  | nWeights (n : ℕ)
deriving DecidableEq

/-- Headline rows shared by every summary: the parameter row and the interval line
(results.py 113-121, 368-377, 605-613; staggered_results.py 160-170; sun_abraham.py 131-144; trop.py 229-240). -/
def headLines {P : Type*} (name : String) (r : Head K) (alpha : Option K) : List (Line P K) :=
  [.deco, .main name r.est r.se r.t r.p r.significanceStars, .deco, .deco,
    .ci (confLevel (effAlpha alpha r.alpha)) r.ci.1 r.ci.2]

/-! ### DiDResults -/

/-- Fields of `DiDResults` used by its summary and exports (results.py 41-60). -/
structure DiD (K : Type*) extends Head K where
  nObs : ℤ
  nTreated : ℤ
  nControl : ℤ
  rSquared : Option (Ext K)
  method : String
  nBootstrap : Option ℤ
  nClusters : Option ℤ

/-- `DiDResults.summary` (results.py 70-131). -/
def DiD.summary {P : Type*} (r : DiD K) (alpha : Option K) : List (Line P K) :=
  [.deco, .deco, .deco, .deco, .count "Observations:" r.nObs, .count "Treated units:" r.nTreated,
    .count "Control units:" r.nControl]
  ++ (match r.rSquared with
    | some x => [.number "R-squared:" x]
    | none => [])
  ++ (if r.method = "analytical" then [] else
      [.text "Inference method:" r.method]
      ++ (match r.nBootstrap with
        | some n => [.count "Bootstrap replications:" n]
        | none => [])
      ++ (match r.nClusters with
        | some n => [.count "Number of clusters:" n]
        | none => []))
  ++ [.deco, .deco, .deco] ++ headLines "ATT" r.toHead alpha ++ [.deco, .deco, .deco]

/-! ### Dictionaries -/

/-- Values stored in an exported dictionary. -/
inductive Val (K : Type*) where
  | num (x : Ext K)
  | int (n : ℤ)
  | str (s : String)
  | none
deriving DecidableEq

/-- `d[k] = v`: replace in place, or append. -/
def dictSet {V : Type*} : List (String × V) → String → V → List (String × V)
  | [], k, v => [(k, v)]
  | (k', v') :: l, k, v => if k' = k then (k', v) :: l else (k', v') :: dictSet l k v

/-- `d.get(k)`. -/
def dictGet {A V : Type*} [DecidableEq A] : List (A × V) → A → Option V
  | [], _ => Option.none
  | (k', v') :: l, k => if k' = k then some v' else dictGet l k

/-- An optional number stored in a dictionary. -/
def optNum : Option (Ext K) → Val K
  | some x => .num x
  | Option.none => .none

/-- `DiDResults.to_dict` (results.py 137-160). -/
def DiD.toDict (r : DiD K) : List (String × Val K) :=
  let base := [("att", Val.num r.est), ("se", .num r.se), ("t_stat", .num r.t), ("p_value", .num r.p),
    ("conf_int_lower", .num r.ci.1), ("conf_int_upper", .num r.ci.2), ("n_obs", .int r.nObs),
    ("n_treated", .int r.nTreated), ("n_control", .int r.nControl), ("r_squared", optNum r.rSquared),
    ("inference_method", .str r.method)]
  let base := match r.nBootstrap with
    | some n => dictSet base "n_bootstrap" (.int n)
    | Option.none => base
  match r.nClusters with
    | some n => dictSet base "n_clusters" (.int n)
    | Option.none => base

/-! ### MultiPeriodDiDResults -/

/-- Fields of `MultiPeriodDiDResults` used by its summary and exports (results.py 288-306). -/
structure Multi (P K : Type*) extends Head K where
  effects : List (P × Eff K)
  nObs : ℤ
  nTreated : ℤ
  nControl : ℤ
  pre : List P
  post : List P
  rSquared : Option (Ext K)

/-- `get_effect` (results.py 397-421); `none` = KeyError. -/
def Multi.getEffect {P : Type*} [DecidableEq P] (r : Multi P K) (p : P) : Option (Eff K) := dictGet r.effects p

/-- One table row of the period block (results.py 355-361). -/
def periodRow {P : Type*} (p : P) (e : Eff K) : Line P K := .row p e.est e.se e.t e.p (stars e.p)

/-- `MultiPeriodDiDResults.summary` (results.py 311-391); `none` = KeyError from `self.period_effects[period]`. -/
def Multi.summary {P : Type*} [DecidableEq P] (r : Multi P K) (alpha : Option K) : Option (List (Line P K)) :=
  match r.post.mapM (fun p => (dictGet r.effects p).map (periodRow p)) with
  | Option.none => Option.none
  | some rows => some (
    [.deco, .deco, .deco, .deco, .count "Observations:" r.nObs, .count "Treated observations:" r.nTreated,
      .count "Control observations:" r.nControl, .count "Pre-treatment periods:" r.pre.length,
      .count "Post-treatment periods:" r.post.length]
    ++ (match r.rSquared with
      | some x => [.number "R-squared:" x]
      | Option.none => [])
    ++ [.deco, .deco, .deco, .deco, .deco, .deco] ++ rows
    ++ [.deco, .deco, .deco, .deco, .deco, .deco] ++ headLines "Avg ATT" r.toHead alpha ++ [.deco, .deco, .deco])

/-- `MultiPeriodDiDResults.to_dict` (results.py 423-453); `str` is Python's `str` on period identifiers. -/
def Multi.toDict {P : Type*} (str : P → String) (r : Multi P K) : List (String × Val K) :=
  r.effects.foldl (fun d pe =>
      dictSet (dictSet (dictSet d ("effect_period_" ++ str pe.1) (.num pe.2.est))
        ("se_period_" ++ str pe.1) (.num pe.2.se)) ("pval_period_" ++ str pe.1) (.num pe.2.p))
    [("avg_att", Val.num r.est), ("avg_se", .num r.se), ("avg_t_stat", .num r.t), ("avg_p_value", .num r.p),
      ("avg_conf_int_lower", .num r.ci.1), ("avg_conf_int_upper", .num r.ci.2), ("n_obs", .int r.nObs),
      ("n_treated", .int r.nTreated), ("n_control", .int r.nControl), ("n_pre_periods", .int r.pre.length),
      ("n_post_periods", .int r.post.length), ("r_squared", optNum r.rSquared)]

/-- A row of an effect table. -/
structure TableRow (P K : Type*) where
  period : P
  est : Ext K
  se : Ext K
  t : Ext K
  p : Ext K
  lo : Ext K
  hi : Ext K
deriving DecidableEq

/-- `{'...': key, 'effect': ..., ..., 'conf_int_upper': ...}` (results.py 465-474, staggered_results.py 247-256, 263-271). -/
def tableRow {P : Type*} (pe : P × Eff K) : TableRow P K :=
  ⟨pe.1, pe.2.est, pe.2.se, pe.2.t, pe.2.p, pe.2.ci.1, pe.2.ci.2⟩

/-- `MultiPeriodDiDResults.to_dataframe` (results.py 455-476): one row per stored effect with its 5%-level flag. -/
def Multi.toDataframe {P : Type*} (r : Multi P K) : List (TableRow P K × Bool) :=
  r.effects.map (fun pe => (tableRow pe, pe.2.isSignificant))

/-! ### SyntheticDiDResults -/

/-- Fields of `SyntheticDiDResults` used by its summary (results.py 525-545). -/
structure Sdid (U K : Type*) extends Head K where
  nObs : ℤ
  nTreated : ℤ
  nControl : ℤ
  nPre : ℤ
  nPost : ℤ
  weights : List (U × K)
  method : String
  lam : Option (Ext K)
  fit : Option (Ext K)
  nBootstrap : Option ℤ

/-- `sorted(self.unit_weights.items(), key=lambda x: x[1], reverse=True)` (results.py 617-619): stable, descending.
NaN weights are not modelled. -/
def sortWeights {U : Type*} (l : List (U × K)) : List (U × K) := l.insertionSort (fun a b => b.2 ≤ a.2)

/-- The weight block (results.py 616-635): the five largest weights, those above 0.001 only, then the count. -/
def weightLines {U : Type*} (w : List (U × K)) : List (Line U K) :=
  if w = [] then [] else
    let sorted := sortWeights w
    let topN := min 5 sorted.length
    [.deco, .deco, .deco, .deco]
    ++ ((sorted.take topN).filter (fun x => decide (1 / 1000 < x.2))).map (fun x => Line.weight x.1 x.2)
    ++ [.nWeights (w.filter (fun x => decide (1 / 1000 < x.2))).length]

/-- `SyntheticDiDResults.summary` (results.py 556-643). -/
def Sdid.summary {U : Type*} [DecidableEq U] (r : Sdid U K) (alpha : Option K) : List (Line U K) :=
  [.deco, .deco, .deco, .deco, .count "Observations:" r.nObs, .count "Treated units:" r.nTreated,
    .count "Control units:" r.nControl, .count "Pre-treatment periods:" r.nPre, .count "Post-treatment periods:" r.nPost]
  ++ (match r.lam with
    | some x => [.number "Regularization (lambda):" x]
    | Option.none => [])
  ++ (match r.fit with
    | some x => [.number "Pre-treatment fit (RMSE):" x]
    | Option.none => [])
  ++ [.text "Variance method:" r.method]
  ++ (match r.nBootstrap with
    | some n => if r.method = "bootstrap" then [.count "Bootstrap replications:" n] else []
    | Option.none => [])
  ++ [.deco, .deco, .deco] ++ headLines "ATT" r.toHead alpha ++ weightLines r.weights ++ [.deco, .deco, .deco]

/-! ### CallawaySantAnnaResults and SunAbrahamResults -/

/-- Fields of `CallawaySantAnnaResults` (staggered_results.py 97-116) that hold effects. Times and groups share the type `T`;
relative periods are integers. -/
structure Stag (T K : Type*) extends Head K where
  cells : List ((T × T) × Eff K)
  events : Option (List (ℤ × Eff K))
  groups : Option (List (T × Eff K))

/-- `sorted(d.items())`: keys of a dictionary are distinct, so only keys are compared. -/
def sortItems {A V : Type*} [LinearOrder A] (l : List (A × V)) : List (A × V) := l.insertionSort (fun a b => a.1 ≤ b.1)

/-- One effect block (staggered_results.py 173-191, 194-211): printed only for a non-empty dictionary, rows by sorted key. -/
def block {A Q : Type*} [LinearOrder A] (f : A → Q) : Option (List (A × Eff K)) → List (Line Q K)
  | some (x :: l) => (sortItems (x :: l)).map (fun pe => periodRow (f pe.1) pe.2)
  | _ => []

/-- The effect blocks of the summary (staggered_results.py 173-211). -/
def Stag.blocks {T : Type*} [LinearOrder T] (r : Stag T K) : List (Line (ℤ ⊕ T) K) :=
  block Sum.inl r.events ++ block Sum.inr r.groups

/-- A table exported by `to_dataframe`. -/
inductive Table (T K : Type*) where
  | cells (l : List (TableRow (T × T) K))
  | events (l : List (TableRow ℤ K))
  | groups (l : List (TableRow T K))

/-- `CallawaySantAnnaResults.to_dataframe` (staggered_results.py 224-286); `none` = ValueError. -/
def Stag.toDataframe {T : Type*} [LinearOrder T] (r : Stag T K) (level : String) : Option (Table T K) :=
  if level = "group_time" then some (.cells (r.cells.map tableRow))
  else if level = "event_study" then
    match r.events with
    | Option.none => Option.none
    | some l => some (.events ((sortItems l).map tableRow))
  else if level = "group" then
    match r.groups with
    | Option.none => Option.none
    | some l => some (.groups ((sortItems l).map tableRow))
  else Option.none

end level

end DiffDiff.Results
