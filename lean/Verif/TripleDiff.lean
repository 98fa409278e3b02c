/-
Model of TripleDifference: validation, the three estimation methods and their variances.
  /repo/diff_diff/triple_diff.py 515-1175
Rows are a finite type; group, partition and time are validated to be 0/1 and are `Bool` columns from then on. Standard
errors are represented by their squares. The logistic regressions and outcome regressions are parameters (arrays of
propensity scores `pG`, `pP` and of fitted values `mu`).
-/
import Verif.Ols

namespace DiffDiff.TripleDiff

/-! ### Validation -/

/-- A data frame: number of rows and columns with missing values. -/
structure Frame (K : Type*) where
  n : ℕ
  col : String → Option (Fin n → Option K)

inductive Err | missingColumns | missingValues (c : String) | notBinary (c : String) | oneValue (c : String) | emptyCell
  | covariateMissing
  deriving DecidableEq, Repr

section validate
variable {K : Type*} [Field K] [DecidableEq K]

/-- `data[col].isna().any()` (triple_diff.py 663). -/
def anyMissing {n : ℕ} (c : Fin n → Option K) : Bool := decide (∃ i, c i = none)

/-- `unique_vals.issubset({0, 1, 0.0, 1.0})` (triple_diff.py 669). -/
def binary {n : ℕ} (c : Fin n → Option K) : Bool := decide (∀ i, c i = some 0 ∨ c i = some 1)

/-- Number of distinct values. -/
def nunique {n : ℕ} (c : Fin n → Option K) : ℕ := (Finset.univ.image c).card

/-- The column contains `v` nowhere together with the given values of the other columns (triple_diff.py 684-700). -/
def cellEmpty {n : ℕ} (g p t : Fin n → Option K) (a b c : K) : Bool :=
  decide ((Finset.univ.filter (fun i => g i = some a ∧ p i = some b ∧ t i = some c)).card = 0)

/-- The eight cells in the order of triple_diff.py 684-693. -/
def cellList : List (K × K × K) :=
  [(1, 1, 0), (1, 1, 1), (1, 0, 0), (1, 0, 1), (0, 1, 0), (0, 1, 1), (0, 0, 0), (0, 0, 1)]

/-- Checks of one indicator column (triple_diff.py 667-677). -/
def checkBinary {n : ℕ} (name : String) (c : Fin n → Option K) : Except Err Unit :=
  if binary c then if nunique c < 2 then .error (.oneValue name) else .ok () else .error (.notBinary name)

/-- Missing-value check of one column (triple_diff.py 662-664). -/
def checkMissing {n : ℕ} (name : String) (c : Fin n → Option K) : Except Err Unit :=
  if anyMissing c then .error (.missingValues name) else .ok ()

/-- `_validate_data` once the required columns are known to exist (triple_diff.py 662-700). -/
def checkColumns {n : ℕ} (y g p t : Fin n → Option K) : Except Err Unit := do
  checkMissing "outcome" y
  checkMissing "group" g
  checkMissing "partition" p
  checkMissing "time" t
  checkBinary "group" g
  checkBinary "partition" p
  checkBinary "time" t
  if cellList.any (fun c => cellEmpty g p t c.1 c.2.1 c.2.2) then .error .emptyCell else .ok ()

/-- `_validate_data` (triple_diff.py 639-700) and the covariate check of `fit` (571-574). -/
def validate (df : Frame K) (outcome group partition time : String) (covariates : List String) : Except Err Unit :=
  match df.col outcome, df.col group, df.col partition, df.col time with
  | some y, some g, some p, some t =>
    if covariates.any (fun c => (df.col c).isNone) then .error .missingColumns
    else match checkColumns y g p t with
      | .error e => .error e
      | .ok _ =>
        if covariates.any (fun c => match df.col c with
          | some x => anyMissing x
          | none => false) then .error .covariateMissing else .ok ()
  | _, _, _, _ => .error .missingColumns

end validate

/-! ### Estimation -/

variable {K : Type*} [Field K] [LinearOrder K]
variable {ι : Type*} [Fintype ι]

def ind (b : Bool) : K := if b then 1 else 0

/-- `cell_1` ... `cell_4` (triple_diff.py 802-805, 940-943). -/
def cell (G P : ι → Bool) (g p : Bool) : Finset ι := Finset.univ.filter (fun i => G i = g ∧ P i = p)

/-- Cell and period. -/
def cellT (G P T : ι → Bool) (g p t : Bool) : Finset ι := Finset.univ.filter (fun i => G i = g ∧ P i = p ∧ T i = t)

/-- Rows of one period (`pre_mask`, `post_mask`; triple_diff.py 871-872, 1021-1022). -/
def period (T : ι → Bool) (t : Bool) : Finset ι := Finset.univ.filter (fun i => T i = t)

/-- `np.mean(v[mask])`. -/
def mean (v : ι → K) (S : Finset ι) : K := (∑ i ∈ S, v i) / (S.card : K)

/-- Columns of the regression (triple_diff.py 745-752). -/
def design (G P T : ι → Bool) : ι → Fin 8 → K := fun i =>
  ![1, ind (G i), ind (P i), ind (T i), ind (G i) * ind (P i), ind (G i) * ind (T i), ind (P i) * ind (T i),
    ind (G i) * ind (P i) * ind (T i)]

/-- With covariates appended (triple_diff.py 754-757). -/
def designCov {κ : Type*} (G P T : ι → Bool) (Z : ι → κ → K) : ι → (Fin 8 ⊕ κ) → K :=
  fun i => Sum.elim (design G P T i) (Z i)

/-- `_regression_adjustment` without covariates (triple_diff.py 719-775): coefficient 7. -/
def IsReg (y : ι → K) (G P T : ι → Bool) (att : K) : Prop := ∃ b, Ols.IsOls (design G P T) y b ∧ b 7 = att

/-- `_regression_adjustment` with covariates. -/
def IsRegCov {κ : Type*} [Fintype κ] (y : ι → K) (G P T : ι → Bool) (Z : ι → κ → K) (att : K) : Prop :=
  ∃ b : Fin 8 ⊕ κ → K, Ols.IsOls (designCov G P T Z) y b ∧ b (Sum.inl 7) = att

/-- The combination of eight means (triple_diff.py 906-911, 1066-1071). -/
def combine (m : Bool → Bool → Bool → K) : K :=
  (m true true true - m true true false) - (m true false true - m true false false)
    - (m false true true - m false true false) + (m false false true - m false false false)

/-- `np.clip(p, lo, hi)`. -/
def clip (lo hi p : K) : K := min (max p lo) hi

/-- Cell probabilities without covariates (triple_diff.py 853-857, 1004-1008): sample shares. -/
def shares (G P : ι → Bool) (g p : Bool) : ι → K := fun _ => ((cell G P g p).card : K) / (Fintype.card ι : K)

/-- Cell probabilities with covariates (triple_diff.py 836-844, 981-987): products of clipped scores. -/
def scores (trim : K) (pG pP : ι → K) (g p : Bool) : ι → K := fun i =>
  let a := clip trim (1 - trim) (pG i)
  let b := clip trim (1 - trim) (pP i)
  (if g then a else 1 - a) * (if p then b else 1 - b)

/-- Clipped cell probabilities (triple_diff.py 860-864, 1011-1015). -/
def clipped (trim : K) (pc : Bool → Bool → ι → K) (g p : Bool) : ι → K := fun i => clip trim (1 - trim) (pc g p i)

/-- `weighted_mean` (triple_diff.py 874-879). -/
def weightedMean (v w : ι → K) : K :=
  if ∑ i, w i ≤ 0 then 0 else (∑ i, v i * w i) / ∑ i, w i

/-- IPW weights (triple_diff.py 887-901); `q` are the clipped cell probabilities. -/
def ipwWeight (G P T : ι → Bool) (q : Bool → Bool → ι → K) (g p t : Bool) : ι → K := fun i =>
  (if G i = g ∧ P i = p ∧ T i = t then 1 else 0) * (q true true i / q g p i)

/-- The eight (weighted) means of `_ipw_estimation` (triple_diff.py 881-903). -/
def ipwMean (y : ι → K) (G P T : ι → Bool) (q : Bool → Bool → ι → K) (g p t : Bool) : K :=
  if g = true ∧ p = true then
    if 0 < (cellT G P T true true t).card then mean y (cellT G P T true true t) else 0
  else weightedMean y (ipwWeight G P T q g p t)

/-- `_ipw_estimation` (triple_diff.py 777-920), point estimate. -/
def ipwAtt (trim : K) (y : ι → K) (G P T : ι → Bool) (pc : Bool → Bool → ι → K) : K :=
  combine (ipwMean y G P T (clipped trim pc))

/-- `p_ref` (triple_diff.py 1025-1026, 1151-1152). -/
def pRef (G P : ι → Bool) : K := ((cell G P true true).card : K) / (Fintype.card ι : K)

/-- `mu_fitted` without covariates (triple_diff.py 996-1002): cell means. -/
def cellMu (y : ι → K) (G P T : ι → Bool) : ι → K := fun i => mean y (cellT G P T (G i) (P i) (T i))

/-- `inf_11`, `inf_10`, `inf_01`, `inf_00` (triple_diff.py 1024-1050). -/
def infl (y mu : ι → K) (G P : ι → Bool) (q : Bool → Bool → ι → K) (g p : Bool) : ι → K := fun i =>
  if g = true ∧ p = true then
    (if G i = true ∧ P i = true then (y i - mu i) / pRef G P else 0)
      + mu i * (if G i = true ∧ P i = true then 1 else 0) / pRef G P
  else
    (if G i = g ∧ P i = p then 1 else 0) * (q true true i / q g p i) * (y i - mu i) / pRef G P
      + (if G i = g ∧ P i = p then mu i * (q true true i / q g p i) / pRef G P else 0)

/-- `_doubly_robust` (triple_diff.py 922-1071), point estimate. -/
def drAtt (trim : K) (y mu : ι → K) (G P T : ι → Bool) (pc : Bool → Bool → ι → K) : K :=
  combine (fun g p t => mean (infl y mu G P (clipped trim pc) g p) (period T t))

/-- `np.var(v[mask], ddof=1)`. -/
def varOn (v : ι → K) (S : Finset ι) : K := (∑ i ∈ S, (v i - mean v S) ^ 2) / ((S.card : K) - 1)

/-- One variance component (triple_diff.py 1078-1090). -/
def component (y : ι → K) (S : Finset ι) : K := if 1 < S.card then varOn y S / (S.card : K) else 0 / ((max 1 S.card : ℕ) : K)

/-- Squared standard error of `_doubly_robust` (triple_diff.py 1073-1094). -/
def drVar (y : ι → K) (G P T : ι → Bool) : K :=
  ∑ g : Bool, ∑ p : Bool, ∑ t : Bool, component y (cellT G P T g p t)

/-- Influence function of `_compute_ipw_se` (triple_diff.py 1148-1170). -/
def ipwInfl (y : ι → K) (G P T : ι → Bool) (q : Bool → Bool → ι → K) (att : K) : ι → K := fun i =>
  let sign : K := if T i then 1 else -1
  match G i, P i with
  | true, true => sign * (y i - att) / pRef G P
  | true, false => -sign * y i * (q true true i / q true false i) / pRef G P
  | false, true => -sign * y i * (q true true i / q false true i) / pRef G P
  | false, false => sign * y i * (q true true i / q false false i) / pRef G P

/-- Squared standard error of `_ipw_estimation` (triple_diff.py 1172-1173). -/
def ipwVar (trim : K) (y : ι → K) (G P T : ι → Bool) (pc : Bool → Bool → ι → K) : K :=
  varOn (ipwInfl y G P T (clipped trim pc) (ipwAtt trim y G P T pc)) Finset.univ / (Fintype.card ι : K)

end DiffDiff.TripleDiff
