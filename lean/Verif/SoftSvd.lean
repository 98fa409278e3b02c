/-
Model of singular value soft-thresholding, the low-rank step of TROP.
  /repo/diff_diff/trop.py 2361-2420 (_soft_threshold_svd), /repo/rust/src/trop.rs 770-852 (soft_threshold_svd)
Exact arithmetic in an ordered field. The decomposition is the one returned by the library (`np.linalg.svd`, faer's `thin_svd`): a parameter,
of which only the defining equations (`IsThin`) are assumed. Entries that are not finite are `none` (`softPy`, `softRs`); elsewhere all entries
are finite. The decomposition does not fail and has finite entries, the product does not overflow (trop.py 2388-2396, 2416-2418; trop.rs 790-819).
-/
import Verif.TropFit
import Mathlib.LinearAlgebra.Matrix.DotProduct
import Mathlib.Data.Matrix.Mul
import Mathlib.Data.Matrix.Diagonal

namespace DiffDiff.SoftSvd
open Matrix

variable {K : Type*} [Field K] [LinearOrder K]
variable {m n : Type*}

/-- A thin singular value decomposition: left vectors (columns of `U`), singular values, right vectors (columns of `V`). -/
structure Thin (m n K : Type*) where
  r : ℕ
  U : Matrix m (Fin r) K
  s : Fin r → K
  V : Matrix n (Fin r) K

/-- `np.maximum(s - threshold, 0)`, kept if larger than `tol` (trop.py 2398-2411; trop.rs 824-850). `tol` is 1e-10 in both. -/
def shrink (lam tol s : K) : K := if tol < max (s - lam) 0 then max (s - lam) 0 else 0

/-- `_soft_threshold_svd(M, threshold)` (trop.py 2381-2420) given the decomposition `d` of `M`. -/
def soft (lam tol : K) (M : Matrix m n K) (d : Thin m n K) : Matrix m n K :=
  if lam ≤ 0 then M else Matrix.of fun i j => ∑ k, d.U i k * shrink lam tol (d.s k) * d.V j k

/-- One step of the accumulation in trop.rs 840-850. -/
def rustStep (lam tol : K) (d : Thin m n K) (acc : Matrix m n K) (k : Fin d.r) : Matrix m n K :=
  if tol < max (d.s k - lam) 0 then Matrix.of fun i j => acc i j + max (d.s k - lam) 0 * d.U i k * d.V j k else acc

/-- `soft_threshold_svd` of the compiled backend (trop.rs 771-852) given the decomposition `d` of `M`. -/
def softRust (lam tol : K) (M : Matrix m n K) (d : Thin m n K) : Matrix m n K :=
  if lam ≤ 0 then M
  else if ((List.finRange d.r).filter (fun k => decide (tol < max (d.s k - lam) 0))).length = 0 then 0
  else (List.finRange d.r).foldl (rustStep lam tol d) 0

/-- `np.nan_to_num(M, nan=0, posinf=0, neginf=0)` (trop.py 2384-2386). -/
def cleaned (M : Matrix m n (Option K)) : Matrix m n K := Matrix.of fun i j => (M i j).getD 0

/-- The Python routine with entries that need not be finite (trop.py 2381-2420); `d` is a decomposition of the cleaned matrix. -/
def softPy (lam tol : K) (M : Matrix m n (Option K)) (d : Thin m n K) : Matrix m n (Option K) :=
  if lam ≤ 0 then M else Matrix.of fun i j => some (soft lam tol (cleaned M) d i j)

/-- The compiled routine with entries that need not be finite (trop.rs 772-779). -/
def softRs [Fintype m] [Fintype n] (lam tol : K) (M : Matrix m n (Option K)) (d : Thin m n K) : Matrix m n (Option K) :=
  if lam ≤ 0 then M
  else if ∃ i j, (M i j).isNone then Matrix.of fun _ _ => some 0
  else Matrix.of fun i j => some (softRust lam tol (cleaned M) d i j)

/-- The routine as it is used by the model of TROP: matrices are functions of period and unit index, 0 outside the panel. `lib` is the
library's decomposition (trop.py 2381-2387, 2420). -/
def code (lib : {p q : ℕ} → Matrix (Fin p) (Fin q) K → Thin (Fin p) (Fin q) K) (tol lam : K) (nT nN : ℕ) (M : ℕ → ℕ → K) : ℕ → ℕ → K :=
  if lam ≤ 0 then M
  else fun t i => if h : t < nT ∧ i < nN then
      soft lam tol (Matrix.of fun (t : Fin nT) (i : Fin nN) => M t i) (lib (Matrix.of fun (t : Fin nT) (i : Fin nN) => M t i)) ⟨t, h.1⟩ ⟨i, h.2⟩
    else 0

end DiffDiff.SoftSvd
