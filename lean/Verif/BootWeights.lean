/-
Model of bootstrap multiplier generation.
  /repo/diff_diff/staggered_bootstrap.py 26-168, /repo/diff_diff/utils.py 217-309, /repo/rust/src/bootstrap.rs 57-151
Random number generators are abstract; the parallel fill of the Rust code is modelled as an arbitrary interleaving
of element writes of the row tasks.
-/
import Verif.Prelude
import Mathlib.Analysis.SpecialFunctions.Sqrt

namespace DiffDiff.BootWeights

/-- A finite distribution: (value, probability) pairs. -/
abbrev Dist := List (ℝ × ℝ)

noncomputable def moment (k : ℕ) (d : Dist) : ℝ := (d.map (fun x => x.2 * x.1 ^ k)).sum

/-- Uniform choice from a list of values (`rng.choice(values)`, `table[rng.gen_range(0..6)]`). -/
noncomputable def uniform (l : List ℝ) : Dist := l.map (fun v => (v, 1 / (l.length : ℝ)))

/-- `rng.choice([-1.0, 1.0])` (staggered_bootstrap.py 50, utils.py 233). -/
noncomputable def pyRademacher : Dist := uniform [-1, 1]

/-- staggered_bootstrap.py 55-59, utils.py 301-309. -/
noncomputable def pyMammen : Dist :=
  let sqrt5 := Real.sqrt 5
  let val1 := -(sqrt5 - 1) / 2
  let val2 := (sqrt5 + 1) / 2
  let p1 := (sqrt5 + 1) / (2 * sqrt5)
  [(val1, p1), (val2, 1 - p1)]

/-- staggered_bootstrap.py 65-69, utils.py 266-271. -/
noncomputable def pyWebb : Dist :=
  uniform [-Real.sqrt (3/2), -Real.sqrt (2/2), -Real.sqrt (1/2), Real.sqrt (1/2), Real.sqrt (2/2), Real.sqrt (3/2)]

/-- `if rng.gen::<bool>() { 1.0 } else { -1.0 }` (bootstrap.rs 70): `b true` with probability 1/2. -/
noncomputable def rsRademacher : Dist := [(1, 1/2), (-1, 1/2)]

/-- bootstrap.rs 84-113: `gen::<f64>() < prob_neg` has probability prob_neg. -/
noncomputable def rsMammen : Dist :=
  let sqrt5 := Real.sqrt 5
  let valNeg := -(sqrt5 - 1) / 2
  let valPos := (sqrt5 + 1) / 2
  let probNeg := (sqrt5 + 1) / (2 * sqrt5)
  [(valNeg, probNeg), (valPos, 1 - probNeg)]

/-- bootstrap.rs 127-147. -/
noncomputable def rsWebb : Dist :=
  let val1 := Real.sqrt (3/2)
  let val2 : ℝ := 1
  let val3 := Real.sqrt (1/2)
  uniform [-val1, -val2, -val3, val3, val2, val1]

/-! ### Parallel fill -/

/-- An abstract generator: `seed_from_u64`, and one draw of a weight. -/
structure Rng (S W : Type) where
  seed : UInt64 → S
  next : S → W × S

variable {S W : Type}

/-- State of one row task: elements written so far and the task's private generator. -/
structure RowState (S W : Type) where
  done : List W
  rng : S

/-- All row tasks before any write (bootstrap.rs 59, 66-68): row i is seeded with `seed.wrapping_add(i)`. -/
def initRows (r : Rng S W) (seed : UInt64) : ℕ → RowState S W :=
  fun i => ⟨[], r.seed (seed + UInt64.ofNat i)⟩

/-- One element write by the task of row i (bootstrap.rs 69-71); no effect when the row is complete. -/
def step (r : Rng S W) (nUnits : ℕ) (st : ℕ → RowState S W) (i : ℕ) : ℕ → RowState S W :=
  if (st i).done.length < nUnits then
    fun j => if j = i then ⟨(st i).done ++ [(r.next (st i).rng).1], (r.next (st i).rng).2⟩ else st j
  else st

/-- Run a schedule: a list of row indices saying whose task performs the next write. -/
def run (r : Rng S W) (nUnits : ℕ) (st : ℕ → RowState S W) (sched : List ℕ) : ℕ → RowState S W :=
  sched.foldl (step r nUnits) st

/-- Specification: the first k draws of the generator seeded with s. -/
def stream (r : Rng S W) : ℕ → S → List W
  | 0, _ => []
  | k + 1, s => (r.next s).1 :: stream r k (r.next s).2

/-- The weight matrix after a schedule. -/
def matrix (r : Rng S W) (seed : UInt64) (nBoot nUnits : ℕ) (sched : List ℕ) : List (List W) :=
  (List.range nBoot).map (fun i => (run r nUnits (initRows r seed) sched i).done)

/-- A schedule is complete if every row gets at least `nUnits` turns. -/
def Complete (nBoot nUnits : ℕ) (sched : List ℕ) : Prop := ∀ i < nBoot, nUnits ≤ sched.count i

end DiffDiff.BootWeights
