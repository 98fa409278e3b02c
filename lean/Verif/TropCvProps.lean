/-
C147: the cells on which TROP compares tuning parameters. Model: Verif/TropCv.lean.
-/
import Verif.TropCv
import Verif.TropProps
import Verif.TropJointCaseProps
import Mathlib.Data.List.Nodup
import Mathlib.Data.List.Perm.Basic
import Mathlib.Tactic.Linarith

set_option linter.unusedSectionVars false
set_option linter.unusedVariables false

namespace DiffDiff.TropCv
open TropFit
open scoped List

/-! ### Specification -/

/-- What the random routines promise: sampling without replacement gives distinct positions of the right number, shuffling a
rearrangement. -/
structure Lawful {S : Type*} (R : Rng S) : Prop where
  len : ∀ s n m, m ≤ n → (R.choice s n m).length = m
  nodup : ∀ s n m, m ≤ n → (R.choice s n m).Nodup
  lt : ∀ s n m, m ≤ n → ∀ i ∈ R.choice s n m, i < n
  perm : ∀ s l, R.shuffle s l ~ l

/-- A cell that may be scored: in the panel, untreated, observed. -/
def IsCell {N : Type*} (P : Data N) (q : ℕ × ℕ) : Prop := q.1 < P.nT ∧ q.2 < P.nN ∧ P.D q.1 q.2 = 0 ∧ P.Y q.1 q.2 ≠ none

/-- A sample of the scorable cells: distinct cells, `maxN` of them or all of them, whichever is fewer. `all` lists the cells. -/
structure IsSample {N : Type*} (P : Data N) (maxN : ℕ) (l : List (ℕ × ℕ)) : Prop where
  nodup : l.Nodup
  cell : ∀ q ∈ l, IsCell P q
  size : ∀ all : Finset (ℕ × ℕ), (∀ q, q ∈ all ↔ IsCell P q) → l.length = min maxN all.card
  complete : ∀ all : Finset (ℕ × ℕ), (∀ q, q ∈ all ↔ IsCell P q) → all.card ≤ maxN → ∀ q, IsCell P q → q ∈ l

/-! ### The cells -/

section cells
variable {N S : Type*}

theorem mem_controlCells {P : Data N} {q : ℕ × ℕ} : q ∈ controlCells P ↔ IsCell P q := by
  obtain ⟨t, i⟩ := q
  simp only [controlCells, cells, List.mem_flatMap, List.mem_range, List.mem_map, List.mem_filter, Prod.mk.injEq, Bool.and_eq_true,
    decide_eq_true_iff, IsCell, Option.isSome_iff_ne_none]
  constructor
  · rintro ⟨a, ha, b, ⟨hb, h1, h2⟩, rfl, rfl⟩; exact ⟨ha, hb, h1, h2⟩
  · rintro ⟨ha, hb, h1, h2⟩; exact ⟨t, ha, i, ⟨hb, h1, h2⟩, rfl, rfl⟩

theorem controlCells_nodup (P : Data N) : (controlCells P).Nodup := by
  unfold controlCells cells
  rw [List.nodup_flatMap]
  refine ⟨fun t _ => (List.nodup_range.filter _).map (fun a b h => (Prod.mk.inj h).2), ?_⟩
  refine (List.nodup_range (n := P.nT)).imp fun {a b} hab => ?_
  intro x hx hy
  obtain ⟨i, -, rfl⟩ := List.mem_map.1 hx
  obtain ⟨j, -, h⟩ := List.mem_map.1 hy
  exact hab (Prod.mk.inj h).1.symm

theorem card_eq {P : Data N} {all : Finset (ℕ × ℕ)} (h : ∀ q, q ∈ all ↔ IsCell P q) : all.card = (controlCells P).length := by
  rw [← List.toFinset_card_of_nodup (controlCells_nodup P)]
  congr 1
  ext q
  rw [h q, List.mem_toFinset, mem_controlCells]

theorem sample_of {P : Data N} {maxN : ℕ} {l : List (ℕ × ℕ)} (h1 : l.Nodup) (h2 : ∀ q ∈ l, q ∈ controlCells P)
    (h3 : l.length = min maxN (controlCells P).length) : IsSample P maxN l := by
  refine ⟨h1, fun q hq => mem_controlCells.1 (h2 q hq), fun all ha => by rw [h3, card_eq ha], fun all ha hle q hq => ?_⟩
  rw [card_eq ha] at hle
  rw [min_eq_right hle] at h3
  have hs : l.Subperm (controlCells P) := List.subperm_of_subset h1 h2
  exact (hs.perm_of_length_le h3.ge).mem_iff.2 (mem_controlCells.2 hq)

/-- Every sample drawn by the Python code (for either method) consists of distinct untreated observed cells: all of them when
there are at most `max_loocv_samples`, exactly that many otherwise. -/
theorem C147_python_cells (R : Rng S) (hR : Lawful R) (s : S) (maxN : ℕ) (P : Data N) :
    IsSample P maxN (pySample R s maxN (controlCells P)) := by
  unfold pySample
  by_cases h : min maxN (controlCells P).length < (controlCells P).length
  · rw [if_pos h]
    have hlt := hR.lt s (controlCells P).length _ h.le
    refine sample_of ?_ ?_ ?_
    · refine (List.nodup_map_iff_inj_on (hR.nodup s _ _ h.le)).2 fun a ha b hb hab => ?_
      rw [List.getD_eq_getElem _ _ (hlt a ha), List.getD_eq_getElem _ _ (hlt b hb)] at hab
      exact (controlCells_nodup P).getElem_inj_iff.1 hab
    · intro q hq
      obtain ⟨i, hi, rfl⟩ := List.mem_map.1 hq
      rw [List.getD_eq_getElem _ _ (hlt i hi)]
      exact List.getElem_mem _
    · rw [List.length_map, hR.len s _ _ h.le]
  · rw [if_neg h]
    exact sample_of (controlCells_nodup P) (fun _ h => h) (by omega)

/-- The same for the compiled code. -/
theorem C147_rust_cells (R : Rng S) (hR : Lawful R) (G : Gen S) (seed : Option ℕ) (maxN : ℕ) (P : Data N) :
    IsSample P maxN (rustSample R G seed maxN P) := by
  unfold rustSample
  rw [show cells P (fun t i => decide (P.D t i = 0) && (P.Y t i).isSome) = controlCells P from rfl]
  by_cases h : maxN < (controlCells P).length
  · rw [if_pos h]
    have hp := hR.perm (G.rust (seed.getD 0)) (controlCells P)
    refine sample_of ?_ ?_ ?_
    · exact (hp.nodup_iff.2 (controlCells_nodup P)).sublist (List.take_sublist _ _)
    · exact fun q hq => hp.mem_iff.1 (List.mem_of_mem_take hq)
    · rw [List.length_take, hp.length_eq]
  · rw [if_neg h]
    exact sample_of (controlCells_nodup P) (fun _ h => h) (by omega)

/-- With at most `max_loocv_samples` untreated observed cells the seed, the generator and the backend are irrelevant: the list of
scored cells is the same. -/
theorem C147_no_sampling (R R' : Rng S) (G : Gen S) (s : S) (seed : Option ℕ) (maxN : ℕ) (P : Data N) (all : Finset (ℕ × ℕ))
    (ha : ∀ q, q ∈ all ↔ IsCell P q) (h : all.card ≤ maxN) :
    pySample R s maxN (controlCells P) = rustSample R' G seed maxN P := by
  rw [card_eq ha] at h
  unfold pySample rustSample
  rw [show cells P (fun t i => decide (P.D t i = 0) && (P.Y t i).isSome) = controlCells P from rfl, if_neg (by omega), if_neg (by omega)]

end cells

/-! ### A score that does not change from call to call -/

section const
variable {K : Type*} [Field K] [LinearOrder K]

theorem univariate_const {V : Type*} (d : V) (sc : V → Option (Ext K)) (k : ℕ) (grid : List V) :
    univariate d (fun _ => sc) k grid = (k + grid.length, Trop.univariate d sc grid) := by
  have key : ∀ (l : List V) (k : ℕ) (b : V × Ext K), l.foldl (step (fun _ => sc)) (k, b) = (k + l.length, l.foldl (Trop.step sc) b) := by
    intro l
    induction l with
    | nil => intro k b; rfl
    | cons a l ih =>
      intro k b
      rw [List.foldl_cons, List.foldl_cons, step, ih, List.length_cons, Nat.add_assoc, Nat.add_comm 1]
  exact key _ _ _

theorem cycle_const (sc : Trop.Lam K → Option (Ext K)) (g : Trop.Grids K) (k : ℕ) (l : Trop.Lam K) :
    (cycle (fun _ => sc) g k l).2 = Trop.cycle sc g l := by
  simp only [cycle, searchUnit, searchTime, searchNn, univariate_const]
  rfl

theorem cycling_const (sc : Trop.Lam K → Option (Ext K)) (g : Trop.Grids K) (n : ℕ) : ∀ (k : ℕ) (prev : Ext K) (l : Trop.Lam K),
    (cycling (fun _ => sc) g n k prev l).2 = Trop.cycling sc g n prev l := by
  induction n with
  | zero => intro k prev l; rfl
  | succ n ih =>
    intro k prev l
    simp only [cycling, Trop.cycling, cycle_const]
    by_cases h : Ext.lt (Ext.abs (Ext.sub (Trop.cycle sc g l).2 prev)) (.fin (1 / 10 ^ 6)) = true
    · rw [if_pos h, if_pos h]
    · rw [if_neg h, if_neg h, ih]

theorem select_const (sc : Trop.Lam K → Option (Ext K)) (g : Trop.Grids K) : select (fun _ => sc) g = Trop.select sc g := by
  have h : (search (fun _ => sc) g).2 = Trop.search sc g := by
    unfold search Trop.search
    rw [cycling_const]
    congr 1
    simp only [initial, searchUnit, searchTime, searchNn, univariate_const]
    rfl
  unfold select Trop.select
  rw [h]
  rfl

variable {S : Type*}

/-- **C147, with a seed.** All candidates of one fit are scored on one and the same sample: the tuning is the coordinate search of
C55 for the score over that sample. -/
theorem C147_seeded (R : Rng S) (hR : Lawful R) (G : Gen S) (s : ℕ) (maxN : ℕ) (o : Ops (Ext K)) (c : Cfg (Ext K))
    (P : Data (Ext K)) (g : Trop.Grids K) :
    ∃ sample, IsSample P maxN sample ∧ tune R G (some s) maxN o c P g = Trop.select (TropFit.score o c (fun _ => sample) P) g := by
  refine ⟨pySample R (G.seeded s) maxN (controlCells P), C147_python_cells R hR _ _ _, ?_⟩
  exact select_const (TropFit.score o c (pySample R (G.seeded s) maxN) P) g

/-- **C147, few cells.** The same without a seed when there are at most `max_loocv_samples` untreated observed cells, and then the
seed does not matter at all. -/
theorem C147_few_cells (R R' : Rng S) (G G' : Gen S) (seed seed' : Option ℕ) (maxN maxN' : ℕ) (o : Ops (Ext K)) (c : Cfg (Ext K))
    (P : Data (Ext K)) (g : Trop.Grids K) (all : Finset (ℕ × ℕ)) (ha : ∀ q, q ∈ all ↔ IsCell P q) (h : all.card ≤ maxN)
    (h' : all.card ≤ maxN') :
    tune R G seed maxN o c P g = tune R' G' seed' maxN' o c P g ∧
    tune R G seed maxN o c P g = Trop.select (TropFit.score o c id P) g := by
  rw [card_eq ha] at h h'
  have key : ∀ (R : Rng S) (G : Gen S) (seed : Option ℕ) (maxN : ℕ), (controlCells P).length ≤ maxN →
      tune R G seed maxN o c P g = Trop.select (TropFit.score o c id P) g := by
    intro R G seed maxN h
    rw [← select_const]
    unfold tune
    congr 1
    funext k l
    unfold scoreAt TropFit.score looScore pySample
    rw [if_neg (by omega)]
    rfl
  exact ⟨(key R G seed maxN h).trans (key R' G' seed' maxN' h').symm, key R G seed maxN h⟩

/-- **C147, joint method.** With or without a seed one sample is drawn, before the search; the stored score is the smallest, over all
combinations of grid values, of the sums over that sample. -/
theorem C147_joint [IsStrictOrderedRing K] (R : Rng S) (hR : Lawful R) (G : Gen S) (seed : Option ℕ) (maxN : ℕ) (v : TropJoint.Env K) (c : Cfg K)
    (P : Data K) (tp : ℕ) (gt gu gn : List (Option K)) :
    ∃ sample, IsSample P maxN sample ∧ ∀ l s, (jointFit R G seed maxN v c P tp gt gu gn).1 = (l, some s) →
      TropJoint.score v c P tp sample (TropJoint.conv l) = some s ∧
      ∀ a ∈ gt, ∀ b ∈ gu, ∀ n ∈ gn, ∀ s', TropJoint.score v c P tp sample (TropJoint.conv (a, b, n)) = some s' → s ≤ s' := by
  refine ⟨pySample R (state G seed 0) maxN (controlCells P), C147_python_cells R hR _ _ _, fun l s h => ?_⟩
  obtain ⟨-, -, -, h4, h5, -⟩ := TropJoint.C99_minimiser _ gt gu gn l s h
  exact ⟨h4, h5⟩

end const

/-! ### Without a seed -/

section cases

/-- A generator for which the claims are not vacuous: positions counted from a starting point, rotation as shuffling. -/
def rot : Rng ℕ :=
  { choice := fun s n m => ((List.range n).rotate s).take m
    shuffle := fun s l => l.rotate s }

theorem rot_lawful : Lawful rot := by
  refine ⟨fun s n m h => ?_, fun s n m h => ?_, fun s n m h i hi => ?_, fun s l => List.rotate_perm _ _⟩
  · simp [rot, h]
  · exact ((List.nodup_rotate.2 List.nodup_range).sublist (List.take_sublist _ _))
  · have := List.mem_of_mem_take hi
    rw [List.mem_rotate] at this
    exact List.mem_range.1 this

/-- Three periods, three units; the last unit is treated in the last period. -/
def panel : Data (Ext ℚ) :=
  { nT := 3, nN := 3
    Y := fun t i => some (.fin (([[1, 1, 2], [0, 1, 2], [4, 4, 0]].getD t []).getD i 0))
    D := fun t i => if t = 2 ∧ i = 2 then 1 else 0 }

/-- Exact arithmetic; with zero decay only the value 1 of the exponential at 0 is used, and a penalty of 1e10 leaves no factor. -/
def ops : Ops (Ext ℚ) := extOps (fun x => if x = 0 then 1 else 1 / 2) (fun x => x) (fun _ _ _ _ _ _ => 0)

def cfg : Cfg (Ext ℚ) := { maxIter := 2, tol := .fin (1 / 10 ^ 6) }

/-- No decay; the factor model off (1e10) or unpenalised (0). -/
def twoGrids : Trop.Grids ℚ := { time := [.fin 0], unit := [.fin 0], nn := [.fin (10 ^ 10), .fin 0] }

/-- One possible history of the operating system's entropy: the fourth cell whenever the first candidate is scored, the first cell
otherwise. -/
def unlucky : Gen ℕ :=
  { seeded := fun s => s
    entropy := fun k => if k = 1 ∨ k = 6 ∨ k = 10 then 3 else 0
    rust := fun s => s }

/-- The squared leave-one-out error of a cell. -/
def cellError (l : Trop.Lam ℚ) (q : ℕ × ℕ) : Ext ℚ := looTerm ops cfg (some panel) panel (lam3 l) q

/-- **C147, refuted without a seed.** The default is no seed. In the two-step method every evaluation then draws its own cells, and
the search can choose a combination whose leave-one-out error is larger than that of another grid combination on every single
cell. -/
theorem C147_unseeded_refuted : ∃ (R : Rng ℕ) (G : Gen ℕ) (P : Data (Ext ℚ)) (g : Trop.Grids ℚ) (o : Ops (Ext ℚ)) (c : Cfg (Ext ℚ))
    (good bad : Trop.Lam ℚ), Lawful R ∧ Trop.InGrids g good ∧ (tune R G none 1 o c P g).1 = bad ∧
    ∀ q, IsCell P q → Ext.lt (looTerm o c (some P) P (lam3 good) q) (looTerm o c (some P) P (lam3 bad) q) = true := by
  refine ⟨rot, unlucky, panel, twoGrids, ops, cfg, { time := .fin 0, unit := .fin 0, nn := .fin (10 ^ 10) },
    { time := .fin 0, unit := .fin 0, nn := .fin 0 }, rot_lawful, by decide +kernel, ?_, ?_⟩
  · have h : Trop.viewL (tune rot unlucky none 1 ops cfg panel twoGrids).1 = [.fin 0, .fin 0, .fin 0] := by decide +kernel
    generalize (tune rot unlucky none 1 ops cfg panel twoGrids).1 = l at h
    obtain ⟨a, b, d⟩ := l
    simp only [Trop.viewL, List.cons.injEq] at h
    obtain ⟨rfl, rfl, rfl, -⟩ := h
    rfl
  · intro q hq
    have h : ∀ q ∈ controlCells panel, Ext.lt (looTerm ops cfg (some panel) panel
        (lam3 { time := .fin 0, unit := .fin 0, nn := .fin (10 ^ 10) }) q) (looTerm ops cfg (some panel) panel
        (lam3 { time := .fin 0, unit := .fin 0, nn := .fin 0 }) q) = true := by decide +kernel
    exact h q (mem_controlCells.2 hq)

/-- With a seed the same fit chooses the better combination, whichever cell is drawn. -/
example : ∀ s < 8, Trop.viewL (tune rot unlucky (some s) 1 ops cfg panel twoGrids).1 = [.fin 0, .fin 0, .fin (10 ^ 10)] := by
  decide +kernel

/-- The samples: five of the eight cells in Python and in the compiled code. -/
example : pySample rot 6 5 (controlCells panel) = [(2, 0), (2, 1), (0, 0), (0, 1), (0, 2)] ∧
    rustSample rot unlucky (some 6) 5 panel = [(2, 0), (2, 1), (0, 0), (0, 1), (0, 2)] ∧
    rustSample rot unlucky none 8 panel = controlCells panel := by decide +kernel

end cases
end DiffDiff.TropCv
