/-
Model of backend selection.
  /repo/diff_diff/_backend.py 1-92 (executed at import)
  and the dispatch used by the numerical routines: linalg.py 485, 522, 756, utils.py 1047, staggered_bootstrap.py 104,
  trop.py 538, 1355, 1595, 1984, 2815 (`if HAS_RUST_BACKEND and _rust_fn is not None`).
`str.lower` is modelled by lower-casing ASCII letters: no other character lower-cases to one of the letters of
"python" or "rust".
-/
import Verif.Prelude

namespace DiffDiff.Backend

/-- The functions imported from the extension module (_backend.py 20-33). -/
inductive Sym
  | bootstrapWeights | syntheticWeights | projectSimplex | solveOls | robustVcov
  | unitDistance | loocv | bootTrop | loocvJoint | bootTropJoint
deriving DecidableEq, Repr

/-- All imported names, in the order of the import statement. -/
def Sym.all : List Sym := [.bootstrapWeights, .syntheticWeights, .projectSimplex, .solveOls, .robustVcov,
  .unitDistance, .loocv, .bootTrop, .loocvJoint, .bootTropJoint]

/-- The extension module as found on the system: `none` = not importable, otherwise the names it defines. -/
abbrev Extension := Option (Sym → Bool)

/-- Module state after import: the flag and, for each name, whether it is a function (`false` = None). -/
structure State where
  has : Bool
  fn : Sym → Bool

/-- `os.environ.get('DIFF_DIFF_BACKEND', 'auto').lower()` (_backend.py 16). -/
def setting (env : Option String) : List Char := (env.getD "auto").toList.map Char.toLower

/-- `_rust_available` (_backend.py 19-50): the import statement succeeds only if every name is defined; otherwise all names
are set to None. -/
def available (x : Extension) : Bool :=
  match x with
  | none => false
  | some d => Sym.all.all d

/-- The whole module (_backend.py 16-76); `none` = ImportError. -/
def load (env : Option String) (x : Extension) : Option State :=
  let fn := fun _ => available x
  if setting env = "python".toList then some ⟨false, fun _ => false⟩
  else if setting env = "rust".toList then
    if !available x then none else some ⟨true, fn⟩
  else some ⟨available x, fn⟩

/-- Dispatch (`if HAS_RUST_BACKEND and _rust_fn is not None`): which implementation a routine uses. -/
def dispatch {A : Type*} (s : State) (f : Sym) (rust python : A) : A := if s.has && s.fn f then rust else python

end DiffDiff.Backend
