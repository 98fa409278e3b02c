/-
Model of MultiPeriodDiD.fit: period classification, column layout, period effects and the average effect.
  /repo/diff_diff/estimators.py 769-1015
Simplifications: periods are integers, coefficients and covariance come from the least-squares core (`Verif.Ols`,
`Verif.Vcov`) with NaN as `none`, standard errors are represented by their squares, inference from estimate and
standard error is a parameter. `absorb` (covered by C64) is left out.
-/
import Verif.Ols

namespace DiffDiff.MultiPeriod

inductive Err | tooFewPeriods | noPost | noPre | postNotFound | referenceNotFound deriving DecidableEq, Repr

/-- Columns of the design matrix by meaning; `extra` stands for covariates and fixed-effect dummies. -/
inductive Col | const | treat | period (p : ℤ) | inter (p : ℤ) | extra (j : ℕ) deriving DecidableEq, Repr

/-- `sorted(data[time].unique())` (estimators.py 786). -/
def allPeriods (times : List ℤ) : List ℤ := times.dedup.insertionSort (· ≤ ·)

/-- Pre and post periods (estimators.py 791-799): by default the second half of the periods is post, otherwise the given
ones are, and all remaining periods are pre. -/
def splitPeriods (all : List ℤ) : Option (List ℤ) → List ℤ × List ℤ
  | none => (all.take (all.length / 2), all.drop (all.length / 2))
  | some q => (all.filter (fun p => decide (p ∉ q)), q)

/-- Reference period (estimators.py 812-816): first pre period by default, any period of the data if given. -/
def reference (all pre : List ℤ) : Option ℤ → Except Err ℤ
  | none => match pre with
    | [] => .error .noPre
    | p :: _ => .ok p
  | some r => if r ∈ all then .ok r else .error .referenceNotFound

/-- Checks in the order of the code (estimators.py 785-816). -/
def classify (times : List ℤ) (post : Option (List ℤ)) (ref : Option ℤ) : Except Err (List ℤ × List ℤ × ℤ) :=
  if (allPeriods times).length < 2 then .error .tooFewPeriods
  else if (splitPeriods (allPeriods times) post).2 = [] then .error .noPost
  else if (splitPeriods (allPeriods times) post).1 = [] then .error .noPre
  else if ¬ ∀ p ∈ (splitPeriods (allPeriods times) post).2, p ∈ allPeriods times then .error .postNotFound
  else match reference (allPeriods times) (splitPeriods (allPeriods times) post).1 ref with
    | .error e => .error e
    | .ok r => .ok ((splitPeriods (allPeriods times) post).1, (splitPeriods (allPeriods times) post).2, r)

/-- Columns in order (estimators.py 845-882): constant, treatment, dummies of the non-reference periods, interactions with
the post periods, then `k` covariate and fixed-effect columns. -/
def columns (all post : List ℤ) (ref : ℤ) (k : ℕ) : List Col :=
  [Col.const, Col.treat] ++ (all.filter (fun p => decide (p ≠ ref))).map Col.period ++ post.map Col.inter
    ++ (List.range k).map Col.extra

/-- `interaction_indices[period]` (estimators.py 862-868): position of the interaction column. -/
def interIndex (all post : List ℤ) (ref : ℤ) (p : ℤ) : ℕ :=
  2 + (all.filter (fun q => decide (q ≠ ref))).length + post.idxOf p

/-- Value of a column in a row with treatment `d`, period `t` and extra columns `z`. -/
def colVal {K : Type*} [Field K] (d : Bool) (t : ℤ) (z : ℕ → K) : Col → K
  | .const => 1
  | .treat => if d then 1 else 0
  | .period p => if t = p then 1 else 0
  | .inter p => (if d then 1 else 0) * (if t = p then 1 else 0)
  | .extra j => z j

/-- Design matrix. -/
def design {K : Type*} [Field K] {ι : Type*} (d : ι → Bool) (t : ι → ℤ) (z : ι → ℕ → K) (cols : List Col) :
    ι → Fin cols.length → K := fun i j => colVal (d i) (t i) (z i) cols[j]

section effects
variable {K : Type*} [Field K] [LinearOrder K]

/-- All or nothing. -/
def allSome {α : Type*} : List (Option α) → Option (List α)
  | [] => some []
  | none :: _ => none
  | some a :: as => (allSome as).map (fun l => a :: l)

structure Inf (K : Type*) where
  t : K
  p : K
  ci : K × K

structure Average (K : Type*) where
  att : Option K
  var : Option K
  inf : Option (Inf K)

/-- Average effect over the post periods (estimators.py 947-984); `idx` are the interaction positions, `infer` computes t
statistic, p-value and interval from estimate and squared standard error. -/
def average (infer : K → K → Inf K) (coef : ℕ → Option K) (vcov : ℕ → ℕ → Option K) (idx : List ℕ) : Average K :=
  match allSome (idx.map coef) with
  | none => ⟨none, none, none⟩
  | some e =>
    let att := e.sum / (e.length : K)
    match allSome (idx.flatMap (fun i => idx.map (fun j => vcov i j))) with
    | none => ⟨some att, none, none⟩
    | some v =>
      let w := v.sum / ((idx.length : K) ^ 2)
      if w < 0 then ⟨some att, none, none⟩
      else if 0 < w then ⟨some att, some w, some (infer att w)⟩
      else ⟨some att, some w, none⟩

end effects

end DiffDiff.MultiPeriod
