/-
Model of the cells on which TROP scores tuning parameters: the subsample of the untreated cells, when it is drawn, and the search
that reads it.
  /repo/diff_diff/trop.py 557-559, 694-854, 1408-1450, 2032-2100, 2689-2702; /repo/rust/src/trop.rs 349-354, 408-437.
`TropFit.score` and `Trop.select` take the subsampling as a fixed function. Here it is drawn by a generator: the two-step score
creates `np.random.default_rng(self.seed)` on every call, so without a seed each evaluation has a generator of its own.
Simplifications: the random generators are parameters (`Rng`, `Gen`); `max_loocv_samples` is a natural number; outcomes are not
infinite, so `is_finite` (Rust) and `not isnan` (Python) select the same cells.
-/
import Verif.TropFit
import Verif.TropJoint

namespace DiffDiff.TropCv
open TropFit

/-- The random routines: `rng.choice(n, size=m, replace=False)` (positions) and `SliceRandom::shuffle`. -/
structure Rng (S : Type*) where
  choice : S → ℕ → ℕ → List ℕ
  shuffle : S → List (ℕ × ℕ) → List (ℕ × ℕ)

/-- Generator states: `np.random.default_rng(seed)`, the `k`-th call of `np.random.default_rng(None)` within a fit, and
`Xoshiro256PlusPlus::seed_from_u64`. -/
structure Gen (S : Type*) where
  seeded : ℕ → S
  entropy : ℕ → S
  rust : ℕ → S

section
variable {S : Type*} (R : Rng S) (G : Gen S)

/-- The generator of the `k`-th evaluation of the score (trop.py 2698, 1416). -/
def state (seed : Option ℕ) (k : ℕ) : S :=
  match seed with
  | some s => G.seeded s
  | none => G.entropy k

/-- Subsampling in Python (trop.py 1416-1420, 2698-2702). -/
def pySample (s : S) (maxN : ℕ) (obs : List (ℕ × ℕ)) : List (ℕ × ℕ) :=
  if min maxN obs.length < obs.length then (R.choice s obs.length (min maxN obs.length)).map (fun i => obs.getD i (0, 0)) else obs

/-- `get_control_observations` (trop.rs 408-437): untreated, finite, in row order; shuffled and truncated when there are more than
`max_samples`. The Python code passes seed 0 when the user gave none (trop.py 1368, 1999). -/
def rustSample {N : Type*} (seed : Option ℕ) (maxN : ℕ) (P : Data N) : List (ℕ × ℕ) :=
  if maxN < (cells P (fun t i => decide (P.D t i = 0) && (P.Y t i).isSome)).length then
    (R.shuffle (G.rust (seed.getD 0)) (cells P (fun t i => decide (P.D t i = 0) && (P.Y t i).isSome))).take maxN
  else cells P (fun t i => decide (P.D t i = 0) && (P.Y t i).isSome)

end

/-! ### The search with a score that may change from call to call -/

section
variable {K : Type*} [Field K] [LinearOrder K]

/-- One candidate (trop.py 745-775); the first component counts the evaluations made so far. -/
def step {V : Type*} (score : ℕ → V → Option (Ext K)) (st : ℕ × (V × Ext K)) (v : V) : ℕ × (V × Ext K) :=
  (st.1 + 1, Trop.step (score st.1) st.2 v)

/-- `_univariate_loocv_search` (trop.py 742-777), starting after `k` evaluations. -/
def univariate {V : Type*} (d : V) (score : ℕ → V → Option (Ext K)) (k : ℕ) (grid : List V) : ℕ × (V × Ext K) :=
  grid.foldl (step score) (k, (grid.head?.getD d, .pinf))

/-- Search over the unit decay with the others fixed. -/
def searchUnit (score : ℕ → Trop.Lam K → Option (Ext K)) (g : Trop.Grids K) (k : ℕ) (l : Trop.Lam K) : ℕ × (Ext K × Ext K) :=
  univariate (.fin 0) (fun k v => Trop.evalAt (score k) { l with unit := v }) k g.unit

/-- Search over the time decay with the others fixed. -/
def searchTime (score : ℕ → Trop.Lam K → Option (Ext K)) (g : Trop.Grids K) (k : ℕ) (l : Trop.Lam K) : ℕ × (Ext K × Ext K) :=
  univariate (.fin 0) (fun k v => Trop.evalAt (score k) { l with time := v }) k g.time

/-- Search over the nuclear norm penalty with the others fixed. -/
def searchNn (score : ℕ → Trop.Lam K → Option (Ext K)) (g : Trop.Grids K) (k : ℕ) (l : Trop.Lam K) : ℕ × (Ext K × Ext K) :=
  univariate (.fin 0) (fun k v => Trop.evalAt (score k) { l with nn := v }) k g.nn

/-- One cycle (trop.py 823-843): evaluations made, new point, score of the last search. -/
def cycle (score : ℕ → Trop.Lam K → Option (Ext K)) (g : Trop.Grids K) (k : ℕ) (l : Trop.Lam K) : ℕ × (Trop.Lam K × Ext K) :=
  let u := searchUnit score g k l
  let l1 : Trop.Lam K := { l with unit := u.2.1 }
  let t := searchTime score g u.1 l1
  let l2 : Trop.Lam K := { l1 with time := t.2.1 }
  let n := searchNn score g t.1 l2
  (n.1, ({ l2 with nn := n.2.1 }, n.2.2))

/-- `_cycling_parameter_search` (trop.py 820-854). -/
def cycling (score : ℕ → Trop.Lam K → Option (Ext K)) (g : Trop.Grids K) : ℕ → ℕ → Ext K → Trop.Lam K → ℕ × Trop.Lam K
  | 0, k, _, l => (k, l)
  | n + 1, k, prev, l =>
    let r := cycle score g k l
    if Ext.lt (Ext.abs (Ext.sub r.2.2 prev)) (.fin (1 / 10 ^ 6)) then (r.1, r.2.1) else cycling score g n r.1 r.2.2 r.2.1

/-- Stage 1 (trop.py 2046-2068): the time, nuclear norm and unit searches in this order. -/
def initial (score : ℕ → Trop.Lam K → Option (Ext K)) (g : Trop.Grids K) : ℕ × Trop.Lam K :=
  let t := searchTime score g 0 { time := .fin 0, unit := .fin 0, nn := .pinf }
  let n := searchNn score g t.1 { time := .pinf, unit := .fin 0, nn := .fin 0 }
  let u := searchUnit score g n.1 { time := .fin 0, unit := .fin 0, nn := .pinf }
  (u.1, { time := t.2.1, unit := u.2.1, nn := n.2.1 })

/-- Both stages (trop.py 2045-2074). -/
def search (score : ℕ → Trop.Lam K → Option (Ext K)) (g : Trop.Grids K) : ℕ × Trop.Lam K :=
  cycling score g 10 (initial score g).1 .pinf (initial score g).2

/-- The selected combination and the stored score (trop.py 2076-2100), one more evaluation. -/
def select (score : ℕ → Trop.Lam K → Option (Ext K)) (g : Trop.Grids K) : Trop.Lam K × Ext K :=
  match score (search score g).1 (search score g).2 with
  | some s => if s.isFinite then ((search score g).2, s) else ({ time := .fin 1, unit := .fin 1, nn := .fin (1 / 10) }, .nan)
  | none => ({ time := .fin 1, unit := .fin 1, nn := .fin (1 / 10) }, .nan)

/-- The `k`-th evaluation of the two-step score (trop.py 2638-2750): a fresh generator, a subsample, the sum over its cells. -/
def scoreAt {S : Type*} (R : Rng S) (G : Gen S) (seed : Option ℕ) (maxN : ℕ) (o : Ops (Ext K)) (c : Cfg (Ext K)) (P : Data (Ext K))
    (k : ℕ) : Trop.Lam K → Option (Ext K) :=
  TropFit.score o c (pySample R (state G seed k) maxN) P

/-- Tuning of the two-step method in Python (trop.py 2041-2100). -/
def tune {S : Type*} (R : Rng S) (G : Gen S) (seed : Option ℕ) (maxN : ℕ) (o : Ops (Ext K)) (c : Cfg (Ext K)) (P : Data (Ext K))
    (g : Trop.Grids K) : Trop.Lam K × Ext K :=
  select (scoreAt R G seed maxN o c P) g

/-- Tuning and effect of the joint method in Python (trop.py 1408-1478): one generator, one subsample, before the grid is searched. -/
def jointFit {S : Type*} (R : Rng S) (G : Gen S) (seed : Option ℕ) (maxN : ℕ) (v : TropJoint.Env K) (c : Cfg K) (P : Data K) (tp : ℕ)
    (gt gu gn : List (Option K)) : ((Option K × Option K × Option K) × Option K) × Option K :=
  TropJoint.fitData v c (pySample R (state G seed 0) maxN) P tp gt gu gn

end
end DiffDiff.TropCv
