/-
Floating point values with exact finite part: NaN, the two infinities and numbers of an ordered field.
The operations follow IEEE-754 / NumPy: comparisons with NaN are false, `0 * inf = nan`,
`x / 0 = ±inf` (NumPy arrays and float64 scalars), `inf - inf = nan`. Rounding is not modelled and there
is a single zero.
-/
import Verif.Prelude

namespace DiffDiff

/-- A float64 with exact finite part. -/
inductive Ext (K : Type*)
  | nan | ninf | pinf
  | fin (x : K)
  deriving DecidableEq, Repr

namespace Ext
variable {K : Type*} [Field K] [LinearOrder K]

/-- `a < b` as evaluated by Python: false if either side is NaN. -/
def lt : Ext K → Ext K → Bool
  | nan, _ => false
  | _, nan => false
  | ninf, ninf => false
  | ninf, _ => true
  | _, ninf => false
  | pinf, _ => false
  | _, pinf => true
  | fin a, fin b => decide (a < b)

/-- `a <= b` as evaluated by Python. -/
def le : Ext K → Ext K → Bool
  | nan, _ => false
  | _, nan => false
  | ninf, _ => true
  | _, ninf => false
  | _, pinf => true
  | pinf, _ => false
  | fin a, fin b => decide (a ≤ b)

/-- `np.isfinite`. -/
def isFinite : Ext K → Bool
  | fin _ => true
  | _ => false

/-- `np.isnan`. -/
def isNan : Ext K → Bool
  | nan => true
  | _ => false

/-- Sign as -1, 0, 1. -/
def sgn (x : K) : Int := if x < 0 then -1 else if x = 0 then 0 else 1

def neg : Ext K → Ext K
  | nan => nan
  | ninf => pinf
  | pinf => ninf
  | fin x => fin (-x)

def abs : Ext K → Ext K
  | nan => nan
  | ninf => pinf
  | pinf => pinf
  | fin x => fin |x|

def add : Ext K → Ext K → Ext K
  | nan, _ => nan
  | _, nan => nan
  | pinf, ninf => nan
  | ninf, pinf => nan
  | pinf, _ => pinf
  | _, pinf => pinf
  | ninf, _ => ninf
  | _, ninf => ninf
  | fin a, fin b => fin (a + b)

def sub (a b : Ext K) : Ext K := add a (neg b)

/-- Infinity with the sign of `s`, NaN for `s = 0`. -/
def infOf (s : Int) : Ext K := if s < 0 then ninf else if s = 0 then nan else pinf

def mul : Ext K → Ext K → Ext K
  | nan, _ => nan
  | _, nan => nan
  | fin a, fin b => fin (a * b)
  | fin a, pinf => infOf (sgn a)
  | fin a, ninf => infOf (-sgn a)
  | pinf, fin b => infOf (sgn b)
  | ninf, fin b => infOf (-sgn b)
  | pinf, pinf => pinf
  | ninf, ninf => pinf
  | pinf, ninf => ninf
  | ninf, pinf => ninf

/-- Division; a zero denominator gives ±inf or NaN. -/
def div : Ext K → Ext K → Ext K
  | nan, _ => nan
  | _, nan => nan
  | fin a, fin b => if b = 0 then infOf (sgn a) else fin (a / b)
  | fin _, _ => fin 0
  | pinf, fin b => if 0 ≤ b then pinf else ninf
  | ninf, fin b => if 0 ≤ b then ninf else pinf
  | _, _ => nan

end Ext
end DiffDiff
