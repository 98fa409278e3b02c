/-
Model of the inference fields computed from an estimate and its standard error.
  /repo/diff_diff/linalg.py 966-991 (InferenceResult), 1253-1343 (get_inference), 1471-1534
  /repo/diff_diff/utils.py 81-143 (compute_confidence_interval, compute_p_value)
  and the guards of the estimators: staggered.py 693-695, 721-727; sun_abraham.py 603-605, 881-883;
  triple_diff.py 601-608; synthetic_did.py 328-343; trop.py 2189-2197; estimators.py 967-986.
Reference distributions (scipy.stats.t / norm) are parameters: survival function and quantile.
-/
import Verif.Ext

namespace DiffDiff.Inference

variable {K : Type*} [Field K] [LinearOrder K]

/-- A reference distribution as used by the code: `sf` and `ppf` of scipy. -/
structure Dist (K : Type*) where
  sf : K → K
  ppf : K → K

/-- `sf` on floats: sf(nan)=nan, sf(inf)=0, sf(-inf)=1. -/
def Dist.sfE (D : Dist K) : Ext K → Ext K
  | .nan => .nan
  | .pinf => .fin 0
  | .ninf => .fin 1
  | .fin x => .fin (D.sf x)

/-- Two-sided p-value `2 * sf(|t|)` (linalg.py 1493-1501, utils.py 135-143). -/
def pValue (D : Dist K) (t : Ext K) : Ext K := Ext.mul (D.sfE (Ext.abs t)) (.fin 2)

/-- Confidence interval `estimate ± ppf(1 - alpha/2) * se` (linalg.py 1529-1536, utils.py 106-114). -/
def confInt (D : Dist K) (est se : Ext K) (alpha : K) : Ext K × Ext K :=
  let q := Ext.fin (D.ppf (1 - alpha / 2))
  (Ext.sub est (Ext.mul q se), Ext.add est (Ext.mul q se))

/-- `InferenceResult` (linalg.py 958-964). -/
structure Result (K : Type*) where
  coef : Ext K
  se : Ext K
  t : Ext K
  p : Ext K
  ci : Ext K × Ext K
  /-- degrees of freedom of the reference distribution; `none` = normal -/
  df : Option Int
  alpha : K

/-- Distribution selected by `df is not None and df > 0` (linalg.py 1493, 1529). -/
def pick (tD : Int → Dist K) (nD : Dist K) : Option Int → Dist K
  | some d => if 0 < d then tD d else nD
  | none => nD

/-- t statistic of `get_inference` (linalg.py 1295-1310). -/
def tStat (coef se : Ext K) : Ext K :=
  if Ext.le se (.fin 0) then
    if Ext.lt (.fin 0) coef then .pinf
    else if Ext.lt coef (.fin 0) then .ninf
    else .fin 0
  else Ext.div coef se

/-- `effective_df` (linalg.py 1317-1327): `df` argument if given, else the fitted one; non-positive
values are replaced by None. -/
def effectiveDf (dfArg dfFit : Option Int) : Option Int :=
  let d := match dfArg with
    | some d => some d
    | none => dfFit
  match d with
  | some d => if d ≤ 0 then none else some d
  | none => none

/-- `LinearRegression.get_inference` (linalg.py 1289-1343). -/
def getInference (tD : Int → Dist K) (nD : Dist K) (coef se : Ext K) (alphaArg : Option K)
    (alphaFit : K) (dfArg dfFit : Option Int) : Result K :=
  let t := tStat coef se
  let a := alphaArg.getD alphaFit
  let df := effectiveDf dfArg dfFit
  let D := pick tD nD df
  { coef := coef, se := se, t := t, p := pValue D t, ci := confInt D coef se a, df := df, alpha := a }

/-- `is_significant` (linalg.py 966-974). -/
def Result.isSignificant (r : Result K) (alpha : Option K) : Bool :=
  if r.p.isNan then false else Ext.lt r.p (.fin (alpha.getD r.alpha))

/-- `significance_stars` (linalg.py 976-991). -/
def Result.stars (r : Result K) : String :=
  if r.p.isNan then ""
  else if Ext.lt r.p (.fin (1 / 1000)) then "***"
  else if Ext.lt r.p (.fin (1 / 100)) then "**"
  else if Ext.lt r.p (.fin (1 / 20)) then "*"
  else if Ext.lt r.p (.fin (1 / 10)) then "."
  else ""

/-! ### Guards used by the estimators: (t, p, ci) -/

abbrev Fields (K : Type*) := Ext K × Ext K × (Ext K × Ext K)

/-- Callaway-Sant'Anna, every level (staggered.py 693-695, 721-727; staggered_aggregation.py 407-409). -/
def csFields (D : Dist K) (est se : Ext K) (alpha : K) : Fields K :=
  let t := if se.isFinite ∧ Ext.lt (.fin 0) se then Ext.div est se else .nan
  (t, pValue D t, confInt D est se alpha)

/-- Sun-Abraham and triple difference (sun_abraham.py 603-605, 881-883; triple_diff.py 601-608). -/
def saFields (D : Dist K) (est se : Ext K) (alpha : K) : Fields K :=
  let t := if Ext.lt (.fin 0) se then Ext.div est se else .fin 0
  (t, pValue D t, confInt D est se alpha)

/-- Synthetic DiD without placebo effects (synthetic_did.py 328-343). -/
def sdidFields (D : Dist K) (est se : Ext K) (alpha : K) : Fields K :=
  if Ext.lt (.fin 0) se then
    (Ext.div est se, pValue D (Ext.div est se), confInt D est se alpha)
  else (.fin 0, .fin 1, confInt D est se alpha)

/-- TROP (trop.py 2189-2197): the p-value uses a t distribution, the interval the normal one. -/
def tropFields (tD nD : Dist K) (est se : Ext K) (alpha : K) : Fields K :=
  if Ext.lt (.fin 0) se then
    let t := Ext.div est se
    (t, pValue tD t, confInt nD est se alpha)
  else (.nan, .nan, (.nan, .nan))

/-- Average effect of MultiPeriodDiD for a given variance square root (estimators.py 966-984); a
negative or NaN variance is `se = nan`. -/
def multiFields (D : Dist K) (est se : Ext K) (alpha : K) : Fields K :=
  if se.isNan then (.nan, .nan, (.nan, .nan))
  else if Ext.lt (.fin 0) se then
    (Ext.div est se, pValue D (Ext.div est se), confInt D est se alpha)
  else (.nan, .nan, (.nan, .nan))

end DiffDiff.Inference
