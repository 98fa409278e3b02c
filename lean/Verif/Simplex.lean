/-
Model of the simplex projection used for synthetic-control weights.
  Python: /repo/diff_diff/utils.py 1112-1147  (`_project_simplex`)
  Rust:   /repo/rust/src/weights.rs 139-162   (`project_simplex_internal`)
-/
import Verif.Prelude

namespace DiffDiff.Simplex

variable {K : Type*} [Field K] [LinearOrder K] [IsStrictOrderedRing K]

/-! ## Model -/

/-- `np.cumsum` (utils.py 1136), with the running total as accumulator. -/
def cumsumFrom (acc : K) : List K → List K
  | [] => []
  | x :: xs => (acc + x) :: cumsumFrom (acc + x) xs

def cumsum (u : List K) : List K := cumsumFrom 0 u

/-- `np.sort(v)[::-1]` (utils.py 1133), weights.rs 143-144. -/
def sortDesc (v : List K) : List K := v.insertionSort (fun a b => b ≤ a)

/-- `np.where(u > (cssv - 1) / np.arange(1, n + 1))[0]` (utils.py 1137). -/
def rhoIdx (u cssv : List K) : List ℕ :=
  (List.range u.length).filter
    (fun i => decide ((cssv.getD i 0 - 1) / ((i : K) + 1) < u.getD i 0))

/-- utils.py 1133-1145: the threshold `theta`. `rho_val = 0` when `rho` is empty. -/
def thetaPy (v : List K) : K :=
  let u := sortDesc v
  let cssv := cumsum u
  let rho := rhoIdx u cssv
  let rhoVal := (rho.getLast?).getD 0
  (cssv.getD rhoVal 0 - 1) / ((rhoVal : K) + 1)

/-- `_project_simplex` (utils.py 1112-1147). Exact arithmetic instead of float64. -/
def projectSimplex (v : List K) : List K :=
  if v.length = 0 then v
  else
    let theta := thetaPy v
    v.map (fun x => max (x - theta) 0)

/-- State of the Rust loop weights.rs 147-154: (i, cumsum, rho). -/
def rustStep (s : ℕ × K × ℕ) (ui : K) : ℕ × K × ℕ :=
  let i := s.1
  let cs := s.2.1 + ui
  if 0 < ui + (1 - cs) / ((i : K) + 1) then (i + 1, cs, i) else (i + 1, cs, s.2.2)

/-- weights.rs 142-158: sort, loop, threshold. -/
def thetaRust (v : List K) : K :=
  let u := sortDesc v
  let st := u.foldl rustStep (0, 0, 0)
  let rho := st.2.2
  ((u.take (rho + 1)).sum - 1) / ((rho : K) + 1)

/-- `project_simplex_internal` (weights.rs 139-162). The comparator's fallback for NaN
(`unwrap_or(Equal)`) is irrelevant in exact arithmetic. -/
def projectSimplexRust (v : List K) : List K :=
  let theta := thetaRust v
  v.map (fun x => max (x - theta) 0)

/-! ## Specification (independent of the algorithm) -/

/-- A probability vector. -/
def IsProb (w : List K) : Prop := (∀ x ∈ w, 0 ≤ x) ∧ w.sum = 1

/-- Squared Euclidean distance of two vectors of the same length. -/
def sqDist : List K → List K → K
  | a :: as, b :: bs => (a - b) ^ 2 + sqDist as bs
  | _, _ => 0

end DiffDiff.Simplex
