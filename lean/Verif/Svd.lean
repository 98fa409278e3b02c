/-
Model of the numerical part of `solve_ols`, for both backends.
  /repo/rust/src/linalg.rs 44-163 (solve_ols: thin SVD, truncation, minimum-norm coefficients)
  /repo/diff_diff/linalg.py 85-146 (_detect_rank_deficiency), 247-335 (_solve_ols_rust),
  482-580 (routing in solve_ols), 583-715 (_solve_ols_numpy)
`Ols.lean` models the control flow of the same function with the numerical routines as opaque steps; here the
numbers are computed, so that the results of the two backends can be compared.
Exact arithmetic in an ordered field. The matrix factorizations (faer's thin SVD, LAPACK's SVD inside
`gelsd`, LAPACK's column-pivoted QR) are parameters; what is assumed about them is `IsSvd` and `IsQr`.
-/
import Verif.Ols
import Verif.Vcov

namespace DiffDiff.Svd
open Matrix DiffDiff.Ols DiffDiff.Vcov

variable {K : Type*} [Field K] [LinearOrder K]
variable {n k : ℕ} {C : Type*} [DecidableEq C]

/-- A thin singular value decomposition of an `n × k` matrix with `n ≥ k`: left vectors (columns of `U`), singular
values, right vectors (columns of `V`) (linalg.rs 69-107). -/
structure Dec (n k : ℕ) (K : Type*) where
  U : Matrix (Fin n) (Fin k) K
  s : Fin k → K
  V : Matrix (Fin k) (Fin k) K

/-- `s_max = s.fold(0, max)` (linalg.rs 114). -/
def sMax (s : Fin k → K) : K := (List.ofFn s).foldl max 0

/-- `threshold = s_max * rcond` (linalg.rs 115); `gelsd` uses the same product `rcond * s(1)`. -/
def threshold (rcond : K) (s : Fin k → K) : K := sMax s * rcond

/-- `s_inv_uty` (linalg.rs 119-131): directions whose singular value is at most the threshold contribute 0. -/
def sInvUty (rcond : K) (d : Dec n k K) (y : Fin n → K) : Fin k → K :=
  fun i => if threshold rcond d.s < d.s i then (∑ r, d.U r i * y r) / d.s i else 0

/-- Effective rank counted in the same loop (linalg.rs 124-131). -/
def effRank (rcond : K) (s : Fin k → K) : ℕ := ((List.finRange k).filter (fun i => threshold rcond s < s i)).length

/-- `coefficients = V * s_inv_uty` (linalg.rs 134). LAPACK's `gelsd` (linalg.py 681-683, 701) computes the same
expression from its own decomposition. -/
def coef (rcond : K) (d : Dec n k K) (y : Fin n → K) : Fin k → K :=
  fun j => ∑ i, d.V j i * sInvUty rcond d y i

/-- The factorizations supplied by external libraries. `none` is a failure to converge (linalg.rs 70-77;
`LinAlgError` in SciPy). `order` is the iteration order of the hash map of cluster sums (linalg.rs 258). -/
structure Lib (n : ℕ) (C K : Type*) where
  faer : ∀ {k : ℕ}, Matrix (Fin n) (Fin k) K → Option (Dec n k K)
  lapack : ∀ {k : ℕ}, Matrix (Fin n) (Fin k) K → Option (Dec n k K)
  rdiag : ∀ {k : ℕ}, Matrix (Fin n) (Fin k) K → List K
  pivot : ∀ {k : ℕ}, Matrix (Fin n) (Fin k) K → List (Fin k)
  order : ∀ {k : ℕ}, List (Option C × (Fin k → K)) → List (Option C × (Fin k → K))

inductive Err
  /-- `r_diag[0]` or `X[:, kept_cols]` with nothing to index -/
  | index
  | rankDeficient | svdFailed
  | vcov (e : Vcov.Err)
  deriving DecidableEq, Repr

/-- Options of `solve_ols` read after validation; `strict` is `rank_deficient_action == "error"`. -/
structure Opts (n : ℕ) (C : Type*) where
  ids : Option (Fin n → Option C)
  returnVcov : Bool
  strict : Bool
  skip : Bool

/-- What is returned; NaN is `none`, `vcov = none` is Python's `None`. -/
structure Res (n k : ℕ) (K : Type*) where
  coef : Fin k → Option K
  resid : Fin n → K
  fitted : Fin n → K
  vcov : Option (Fin k × Fin k → Option K)

/-- `_detect_rank_deficiency(X)[1]` (linalg.py 122-146). -/
def detect (L : Lib n C K) (rcond : K) (X : Matrix (Fin n) (Fin k) K) : Except Err (List (Fin k)) :=
  match rankOf rcond (L.rdiag X) with
  | none => .error .index
  | some r => .ok (droppedCols r (L.pivot X))

/-- `_solve_ols_numpy` once the dropped columns are known (linalg.py 653-715). -/
noncomputable def numpySolve (L : Lib n C K) (rcond : K) (o : Opts n C) (drop : List (Fin k)) (X : Matrix (Fin n) (Fin k) K)
    (y : Fin n → K) : Except Err (Res n k K) :=
  match drop with
  | [] =>
    match L.lapack X with
    | none => .error .svdFailed
    | some d =>
      let b := coef rcond d y
      let r := resid X y b
      if o.returnVcov then
        match vcovNumpy X r o.ids with
        | .error e => .error (.vcov e)
        | .ok V => .ok ⟨fun j => some (b j), r, fitted X b, some (fun p => some (V p.1 p.2))⟩
      else .ok ⟨fun j => some (b j), r, fitted X b, none⟩
  | _ :: _ =>
    if o.strict then .error .rankDeficient
    else if (keptCols drop).length = 0 then .error .index
    else
      let Xr : Matrix (Fin n) (Fin (keptCols drop).length) K := reduce X (keptCols drop)
      match L.lapack Xr with
      | none => .error .svdFailed
      | some d =>
        let b := coef rcond d y
        let r := resid Xr y b
        if o.returnVcov then
          match vcovNumpy Xr r o.ids with
          | .error e => .error (.vcov e)
          | .ok V => .ok ⟨expandCoef (keptCols drop) b, r, fitted Xr b, some (expandVcov (keptCols drop) V)⟩
        else .ok ⟨expandCoef (keptCols drop) b, r, fitted Xr b, none⟩

/-- Outcome of the compiled solver: a result, a ValueError that asks for the fallback ("singular" or "numerically
unstable", linalg.py 312-321), or another ValueError, re-raised (linalg.py 322). -/
inductive Rust (n k : ℕ) (K : Type*)
  | ok (r : Res n k K)
  | fallback
  | raised (e : Err)

/-- Entries of the hash map of cluster sums in iteration order (linalg.rs 237-260). -/
def entries (L : Lib n C K) (o : Opts n C) (X : Matrix (Fin n) (Fin k) K) (r : Fin n → K) : List (Option C × (Fin k → K)) :=
  match o.ids with
  | none => []
  | some f => L.order (hmBuild (scoreRows X r f))

/-- `solve_ols` of the compiled extension with the conversion in `_solve_ols_rust` (linalg.rs 44-163; linalg.py 303-335).
Simplified: the accuracy check of `invert_symmetric` (linalg.rs 348-374) compares `A * A⁻¹` with the identity, which is
exact here, so it never fires; a division by `n - k = 0` gives a matrix of NaN (`0 · ∞`, the residuals being zero). -/
noncomputable def rustSolve (L : Lib n C K) (rcond : K) (o : Opts n C) (X : Matrix (Fin n) (Fin k) K) (y : Fin n → K) :
    Rust n k K :=
  match L.faer X with
  | none => .raised .svdFailed
  | some d =>
    let b := coef rcond d y
    let r := resid X y b
    let out := fun v => Rust.ok ⟨fun j => some (b j), r, fitted X b, v⟩
    if o.returnVcov then
      if effRank rcond d.s < k then out (some (fun _ => none))
      else
        match vcovRust X r o.ids (entries L o X r) with
        | .ok V => out (some (fun p => some (V p.1 p.2)))
        | .error .singular => .fallback
        | .error .nonFinite => out (some (fun _ => none))
        | .error e => .raised (.vcov e)
    else out none

/-- `np.any(np.isnan(vcov))` (linalg.py 547). -/
def hasNan (r : Res n k K) : Bool :=
  match r.vcov with
  | none => false
  | some V => (List.finRange k).any (fun a => (List.finRange k).any (fun b => (V (a, b)).isNone))

/-- `solve_ols` after the input checks (linalg.py 482-580); `hasRust` says whether the compiled backend is loaded. -/
noncomputable def solve (L : Lib n C K) (rcond : K) (hasRust : Bool) (o : Opts n C) (X : Matrix (Fin n) (Fin k) K)
    (y : Fin n → K) : Except Err (Res n k K) :=
  if o.skip then
    if hasRust then
      match rustSolve L rcond o X y with
      | .ok r => .ok r
      | .fallback => numpySolve L rcond o [] X y
      | .raised e => .error e
    else numpySolve L rcond o [] X y
  else
    match detect L rcond X with
    | .error e => .error e
    | .ok drop =>
      if hasRust ∧ drop = [] then
        match rustSolve L rcond o X y with
        | .fallback => numpySolve L rcond o drop X y
        | .raised e => .error e
        | .ok r => if o.returnVcov ∧ hasNan r then numpySolve L rcond o drop X y else .ok r
      else numpySolve L rcond o drop X y

end DiffDiff.Svd
