/-
Properties of the Python bootstrap of the two-step method: C142.
-/
import Verif.TropBoot2
import Verif.TropBootProps
import Verif.TropPermProps

set_option linter.unusedSectionVars false

namespace DiffDiff.TropBoot

open scoped List
open TropFit (Data Cfg Ops)
open Trop (Row unitsOf periodsOf yCell dCell cell hasDup OneRowPerCell Binary mem_unitsOf mem_periodsOf)
open TropPerm (Cols Sym RelFit Relab relabel)

section
variable {U T K : Type*} [LinearOrder U] [LinearOrder T] [Field K] [LinearOrder K] [IsStrictOrderedRing K] [FloorRing K]

/-! ### Estimation on a reordered panel -/

theorem Inv.relab {n : ℕ} {σ τ : ℕ → ℕ} (h : Inv n σ τ) : Relab n σ := h.perm

theorem estimate_reordered {o : Ops K} (c : Cfg K) {P B : Data K} {σ τ : ℕ → ℕ} (h : Reordered P B σ τ) (hs : Sym o P.nN σ) {W W' : ℕ → ℕ → K}
    (hW : Cols P.nT P.nN σ W' W) (lam : K) :
    RelFit P.nT P.nN σ (TropFit.estimate o c B W' lam none) (TropFit.estimate o c P W lam none) := by
  unfold TropFit.estimate
  rw [h.nT, h.nN]
  refine TropPerm.loop_perm hs h.inv.relab c.tol lam ?_ ?_ c.maxIter ⟨fun _ _ => rfl, fun _ _ => rfl, fun _ _ _ _ => rfl⟩
  · intro s hsT j hj
    unfold TropFit.ySafe
    rw [h.Y s hsT j hj]
  · intro s hsT j hj
    unfold TropFit.wMasked TropFit.valid
    rw [hW s hsT j hj, h.Y s hsT j hj, h.D s hsT j hj]
    simp

theorem treatedCells_reordered {P B : Data K} {σ τ : ℕ → ℕ} (h : Reordered P B σ τ) :
    ((TropFit.treatedCells B).map fun q => (q.1, σ q.2)) ~ TropFit.treatedCells P := by
  have e : TropFit.treatedCells B = TropFit.cells (relabel σ P) (fun t j => decide (P.D t (σ j) = 1)) := by
    unfold TropFit.treatedCells TropFit.cells
    rw [h.nT, h.nN]
    show _ = (List.range P.nT).flatMap _
    rw [List.flatMap_def, List.flatMap_def]
    congr 1
    refine List.map_congr_left fun t ht => ?_
    congr 1
    refine List.filter_congr fun j hj => ?_
    show decide (B.D t j = 1) = _
    rw [h.D t (List.mem_range.1 ht) j (List.mem_range.1 hj)]
  rw [e]
  exact TropPerm.cells_perm P h.inv.relab (fun t i => decide (P.D t i = 1))

/-- If the weights used for a reordered panel are the reordered weights of the panel, the average effects agree. -/
theorem att_reordered {o : Ops K} (c : Cfg K) {P B : Data K} {σ τ : ℕ → ℕ} (h : Reordered P B σ τ) (hs : Sym o P.nN σ) (l : TropFit.Lam3 K)
    (pre : Option (Data K)) (hW : ∀ t < P.nT, ∀ i < P.nN, Cols P.nT P.nN σ (TropFit.obsWeights o pre B l.time l.unit i t)
      (TropFit.weights o P l.time l.unit (σ i) t)) :
    TropFit.att o c pre B l = TropFit.att o c (some P) P l := by
  unfold TropFit.att
  refine TropPerm.meanO_perm hs ?_
  have h1 : (TropFit.treatedCells B).map (fun q => TropFit.effect o c pre B l q.1 q.2) =
      ((TropFit.treatedCells B).map fun q => (q.1, σ q.2)).map (fun q => TropFit.effect o c (some P) P l q.1 q.2) := by
    rw [List.map_map]
    refine List.map_congr_left fun q hq => ?_
    obtain ⟨ht, hi, _⟩ := TropPerm.mem_cells hq
    rw [h.nT] at ht
    rw [h.nN] at hi
    have hf := estimate_reordered c h hs (hW q.1 ht q.2 hi) l.nn
    simp only [Function.comp, TropFit.effect, TropFit.tau, TropFit.fitAt]
    rw [hf.alpha q.2 hi, hf.beta q.1 ht, hf.L q.1 ht q.2 hi, h.Y q.1 ht q.2 hi]
    rfl
  rw [h1]
  exact (treatedCells_reordered h).map _

/-- Weights computed from a reordered panel itself. -/
theorem weights_reordered (o : Ops K) {P B : Data K} {σ τ : ℕ → ℕ} (h : Reordered P B σ τ) (lamT lamU : K) (t i : ℕ) (ht : t < P.nT) (hi : i < P.nN) :
    Cols P.nT P.nN σ (TropFit.weights o B lamT lamU i t) (TropFit.weights o P lamT lamU (σ i) t) := by
  intro s _ j hj
  have hd : TropFit.dist o B j i t = TropFit.dist o P (σ j) (σ i) t := by
    have : TropFit.sqDiffs o B j i t = TropFit.sqDiffs o P (σ j) (σ i) t := by
      unfold TropFit.sqDiffs
      rw [h.nT]
      refine List.filterMap_congr fun s hs => ?_
      have hs' := List.mem_range.1 hs
      rw [h.D s hs' i hi, h.D s hs' j hj, h.Y s hs' i hi, h.Y s hs' j hj]
    unfold TropFit.dist
    rw [this]
  unfold TropFit.weights TropFit.unitWeight
  rw [hd, h.D t ht j hj]
  by_cases hji : j = i
  · rw [if_pos hji, if_pos (by rw [hji])]
  · rw [if_neg hji, if_neg fun e => hji (h.inv.relab.inj hj hi e)]

/-- Stored weights with `lambda_unit = 0`, when the stored treatment columns agree with the replicate's position by position. -/
theorem stored_reordered (o : Ops K) {P B Q : Data K} {σ τ : ℕ → ℕ} (h : Reordered P B σ τ) (lamT lamU : K) (h0 : o.isZero lamU = true)
    (hQ : ∀ t < P.nT, ∀ j < P.nN, Q.D t j = B.D t j) (t i : ℕ) (ht : t < P.nT) (hi : i < P.nN) :
    Cols P.nT P.nN σ (TropFit.weights o Q lamT lamU i t) (TropFit.weights o P lamT lamU (σ i) t) := by
  intro s _ j hj
  unfold TropFit.weights TropFit.unitWeight
  rw [hQ t ht j hj, h.D t ht j hj, h0]
  by_cases hji : j = i
  · rw [if_pos hji, if_pos (by rw [hji])]
  · rw [if_neg hji, if_neg fun e => hji (h.inv.relab.inj hj hi e)]
    simp

/-! ### Replicates -/

theorem drawn_units (rows : List (Row U T K)) (d : List ℕ × List ℕ) : ∀ u ∈ drawn rows d, u ∈ unitsOf rows := by
  intro u hu
  rcases List.mem_append.1 hu with hu | hu <;> (obtain ⟨k, _, hk⟩ := List.mem_filterMap.1 hu; exact (List.mem_filter.1 (List.mem_of_getElem? hk)).1)

/-- Every unit has an observed treatment value. -/
def AllKnown (rows : List (Row U T K)) : Prop := ∀ u ∈ unitsOf rows, ∃ r ∈ rows, r.unit = u ∧ r.d ≠ none

theorem strata_cover {rows : List (Row U T K)} (hb : Binary rows) (u : U) (hu : u ∈ unitsOf rows) :
    (∃ r ∈ rows, r.unit = u ∧ r.d ≠ none) ↔ (u ∈ controlOf rows ∨ u ∈ treatedOf rows) := by
  rw [mem_controlOf hb, mem_treatedOf hb]
  constructor
  · rintro ⟨r, hr, hru, hrd⟩
    by_cases h1 : ∃ r ∈ rows, r.unit = u ∧ r.d = some 1
    · exact Or.inr h1
    · left
      refine ⟨⟨r, hr, hru, ?_⟩, fun r' hr' hu' hd' => h1 ⟨r', hr', hu', hd'⟩⟩
      rcases hb r hr with h | h | h
      · exact absurd h hrd
      · exact h
      · exact absurd ⟨r, hr, hru, h⟩ h1
  · rintro (⟨⟨r, hr, hru, hrd⟩, _⟩ | ⟨r, hr, hru, hrd⟩) <;> exact ⟨r, hr, hru, by rw [hrd]; simp⟩

theorem strata_disjoint (rows : List (Row U T K)) (u : U) (h1 : u ∈ controlOf rows) (h2 : u ∈ treatedOf rows) : False := by
  have a := (List.mem_filter.1 h1).2
  have b := (List.mem_filter.1 h2).2
  rw [decide_eq_true_eq] at a b
  rw [a] at b
  exact absurd (WithBot.coe_injective b) (by norm_num)

/-- The strata together have as many units as the data exactly when every unit has an observed treatment value. -/
theorem strata_length {rows : List (Row U T K)} (hb : Binary rows) :
    (controlOf rows).length + (treatedOf rows).length = (unitsOf rows).length ↔ AllKnown rows := by
  have hU : (unitsOf rows).Nodup := (Trop.unitsOf_sorted rows).imp (fun h => ne_of_lt h)
  have hc : (controlOf rows ++ treatedOf rows).Nodup :=
    List.nodup_append'.2 ⟨hU.filter _, hU.filter _, fun u h1 h2 => strata_disjoint rows u h1 h2⟩
  have hsub : controlOf rows ++ treatedOf rows ⊆ unitsOf rows := by
    intro u hu
    rcases List.mem_append.1 hu with h | h <;> exact (List.mem_filter.1 h).1
  rw [← List.length_append]
  constructor
  · intro hl u hu
    have hp : (controlOf rows ++ treatedOf rows) ~ unitsOf rows := (List.subperm_of_subset hc hsub).perm_of_length_le (by omega)
    exact (strata_cover hb u hu).2 (List.mem_append.1 (hp.mem_iff.2 hu))
  · intro h
    refine List.Perm.length_eq ((List.perm_ext_iff_of_nodup hc hU).2 fun u => ⟨fun hu => hsub hu, fun hu => ?_⟩)
    exact List.mem_append.2 ((strata_cover hb u hu).1 (h u hu))

/-- C142. The exception: with 0/1 treatment, one row per unit and period, a draw that contains a treated cell, and `lambda_unit = 0`, a replicate aborts `fit`
exactly when some unit of the data has no observed treatment value. With `lambda_unit` other than zero no replicate does. -/
theorem C142_aborts (o : Ops K) (c : Cfg K) (text : U → List Char) (rows : List (Row U T K)) (h : OneRowPerCell rows) (hb : Binary rows) (l : TropFit.Lam3 K)
    (d : List ℕ × List ℕ) (hd : Draw rows d) (ht : ∃ u ∈ drawn rows d, ∃ t ∈ periodsOf rows, dCell rows t u = 1) :
    replicate2 o c text rows l d = .raised ↔ (o.isZero l.unit = true ∧ ∃ u ∈ unitsOf rows, ∀ r ∈ rows, r.unit = u → r.d = none) := by
  have ho := reordered text rows h (drawn rows d) (drawn_units rows d)
  have hn : hasDup (bootRows text rows (drawn rows d)) = false := Trop.hasDup_iff.2 (C134_no_duplicates text rows h _)
  have hne : TropFit.treatedCells (dataOf (bootRows text rows (drawn rows d))) ≠ [] := by
    obtain ⟨u, hu, t, htp, hdc⟩ := ht
    have hcov : t ∈ covered rows (drawn rows d) := by
      rw [mem_covered]
      unfold dCell Trop.dRaw at hdc
      cases hc : cell rows t u with
      | none => rw [hc] at hdc; simp at hdc
      | some r =>
        obtain ⟨h1, h2, h3⟩ := Trop.cell_some hc
        exact ⟨r, h1, h3, by rw [h2]; exact hu⟩
    obtain ⟨k, hk, hke⟩ := List.mem_iff_getElem.1 hu
    obtain ⟨a, ha, hae⟩ := List.mem_iff_getElem.1 hcov
    have hm : (a, k) ∈ TropFit.treatedCells (drawnPanel rows (covered rows (drawn rows d)) (drawn rows d)) := by
      unfold TropFit.treatedCells TropFit.cells
      simp only [List.mem_flatMap, List.mem_range, List.mem_map, List.mem_filter, decide_eq_true_eq]
      refine ⟨a, ha, k, ⟨hk, ?_⟩, rfl⟩
      simp only [drawnPanel]
      rw [List.getElem?_eq_getElem ha, List.getElem?_eq_getElem hk, hae, hke]
      exact hdc
    intro h0
    have := treatedCells_reordered ho
    rw [h0] at this
    rw [List.nil_perm.1 this] at hm
    cases hm
  have hlen : (dataOf (bootRows text rows (drawn rows d))).nN = (controlOf rows).length + (treatedOf rows).length := by
    rw [ho.nN, ← (C134_strata rows hb d hd).1]; rfl
  have key : (dataOf (bootRows text rows (drawn rows d))).nN ≠ (dataOf rows).nN ↔ ∃ u ∈ unitsOf rows, ∀ r ∈ rows, r.unit = u → r.d = none := by
    rw [hlen]
    show ¬ (_ = (unitsOf rows).length) ↔ _
    rw [strata_length hb]
    unfold AllKnown
    push Not
    rfl
  unfold replicate2 fitStored
  rw [hn, if_neg (by simp), if_neg hne, ← key]
  by_cases hx : o.isZero l.unit = true ∧ (dataOf (bootRows text rows (drawn rows d))).nN ≠ (dataOf rows).nN
  · rw [if_pos hx]; simp [hx]
  · rw [if_neg hx]
    by_cases hy : (dataOf (bootRows text rows (drawn rows d))).nT ≠ (dataOf rows).nT
    · rw [if_pos hy]; simp [hx]
    · rw [if_neg hy]; simp [hx]

/-- C142. Without unit distances in the weights (`lambda_unit = 0`), a replicate is the two-step estimate on the histories of the drawn units, provided that the
copies, sorted by their new labels, have position by position the treatment histories of the data's units. -/
theorem C142_positions (o : Ops K) (hs : ∀ n σ τ, Inv n σ τ → Sym o n σ) (c : Cfg K) (text : U → List Char) (rows : List (Row U T K)) (h : OneRowPerCell rows)
    (hb : Binary rows) (hk : AllKnown rows) (l : TropFit.Lam3 K) (h0 : o.isZero l.unit = true) (d : List ℕ × List ℕ) (hd : Draw rows d)
    (hcov : periodsOf (bootRows text rows (drawn rows d)) = periodsOf rows)
    (hpos : ∀ t < (periodsOf rows).length, ∀ j < (unitsOf rows).length, (dataOf (bootRows text rows (drawn rows d))).D t j = (dataOf rows).D t j)
    (ht : ∃ t < (periodsOf rows).length, ∃ j < (unitsOf rows).length, (dataOf rows).D t j = 1) :
    replicate2 o c text rows l d = .value (TropFit.att o c (some (drawnPanel rows (periodsOf rows) (drawn rows d))) (drawnPanel rows (periodsOf rows) (drawn rows d)) l) := by
  have ho := reordered text rows h (drawn rows d) (drawn_units rows d)
  rw [← C134_periods text, hcov] at ho
  have hn : hasDup (bootRows text rows (drawn rows d)) = false := Trop.hasDup_iff.2 (C134_no_duplicates text rows h _)
  have hlen : (drawn rows d).length = (unitsOf rows).length := by
    rw [(C134_strata rows hb d hd).1, strata_length hb]; exact hk
  have hnN : (dataOf (bootRows text rows (drawn rows d))).nN = (dataOf rows).nN := by
    rw [ho.nN]; exact hlen
  have hnT : (dataOf (bootRows text rows (drawn rows d))).nT = (dataOf rows).nT := ho.nT
  have hne : TropFit.treatedCells (dataOf (bootRows text rows (drawn rows d))) ≠ [] := by
    obtain ⟨t, h1, j, h2, h3⟩ := ht
    have hm : (t, j) ∈ TropFit.treatedCells (dataOf (bootRows text rows (drawn rows d))) := by
      unfold TropFit.treatedCells TropFit.cells
      simp only [List.mem_flatMap, List.mem_range, List.mem_map, List.mem_filter, decide_eq_true_eq]
      exact ⟨t, by rw [hnT]; exact h1, j, ⟨by rw [hnN]; exact h2, by rw [hpos t h1 j h2]; exact h3⟩, rfl⟩
    intro h0
    rw [h0] at hm
    cases hm
  unfold replicate2 fitStored
  rw [hn, if_neg (by simp), if_neg hne, if_neg (fun hx => hx.2 hnN), if_neg (fun hx => hx hnT)]
  congr 1
  refine att_reordered c ho (hs _ _ _ ho.inv) l _ fun t h1 i h2 => ?_
  refine stored_reordered o ho l.time l.unit h0 (fun t h1 j h2 => (hpos t h1 j ?_).symm) t i h1 h2
  have : j < (drawn rows d).length := h2
  omega

/-- Position in a sorted list of which one part comes before the other. -/
theorem sorted_part {α : Type*} [LinearOrder α] (p : α → Bool) : ∀ (l : List α), l.Pairwise (· < ·) → (∀ x ∈ l, ∀ y ∈ l, p x = true → p y = false → x < y) →
    ∀ j (hj : j < l.length), (p l[j] = true ↔ j < (l.filter p).length)
  | [], _, _, j, hj => by simp at hj
  | a :: l, hl, hp, j, hj => by
    have ih := sorted_part p l (List.pairwise_cons.1 hl).2 (fun x hx y hy => hp x (by simp [hx]) y (by simp [hy]))
    cases ha : p a with
    | true =>
      rw [List.filter_cons_of_pos ha, List.length_cons]
      cases j with
      | zero => simp [ha]
      | succ j =>
        rw [List.getElem_cons_succ, ih j (by simpa using hj)]
        omega
    | false =>
      have hnil : l.filter p = [] := by
        rw [List.filter_eq_nil_iff]
        intro x hx hpx
        exact absurd ((List.pairwise_cons.1 hl).1 x hx) (not_lt.2 (hp x (by simp [hx]) a (by simp) hpx ha).le)
      rw [List.filter_cons_of_neg (by simp [ha]), hnil]
      cases j with
      | zero => simp [ha]
      | succ j =>
        have := ih j (by simpa using hj)
        rw [hnil] at this
        rw [List.getElem_cons_succ, this]
        simp

theorem filter_idxOf_lt {α : Type*} [BEq α] [LawfulBEq α] (l : List α) (hn : l.Nodup) (m : ℕ) (hm : m ≤ l.length) :
    (l.filter (fun x => decide (l.idxOf x < m))).length = m := by
  have e : l.filter (fun x => decide (l.idxOf x < m)) = l.take m := by
    conv_lhs => rw [← List.take_append_drop m l]
    rw [List.filter_append]
    have e1 : (l.take m).filter (fun x => decide ((l.take m ++ l.drop m).idxOf x < m)) = l.take m := by
      refine List.filter_eq_self.2 fun x hx => ?_
      rw [decide_eq_true_eq, List.idxOf_append_of_mem hx]
      have := List.idxOf_lt_length_of_mem hx
      rw [List.length_take] at this
      omega
    have e2 : (l.drop m).filter (fun x => decide ((l.take m ++ l.drop m).idxOf x < m)) = [] := by
      refine List.filter_eq_nil_iff.2 fun x hx => ?_
      rw [decide_eq_true_eq, List.idxOf_append_of_notMem]
      · rw [List.length_take]; omega
      · intro hx'
        rw [← List.take_append_drop m l] at hn
        exact (List.nodup_append'.1 hn).2.2 hx' hx
    rw [e1, e2, List.append_nil]
  rw [e, List.length_take]
  omega

theorem dCell_control {rows : List (Row U T K)} (hb : Binary rows) {u : U} (hu : u ∈ controlOf rows) (t : T) : dCell rows t u = 0 := by
  have h := ((mem_controlOf hb).1 hu).2
  unfold dCell Trop.dRaw
  cases hc : cell rows t u with
  | none => rfl
  | some r =>
    obtain ⟨h1, h2, _⟩ := Trop.cell_some hc
    rcases hb r h1 with hd | hd | hd
    · simp [hd]
    · simp [hd, Trop.trunc]
    · exact absurd hd (h r h1 h2)

theorem dCell_row {rows : List (Row U T K)} (h : OneRowPerCell rows) {r : Row U T K} (hr : r ∈ rows) (hd : r.d = some 1) : dCell rows r.time r.unit = 1 := by
  unfold dCell Trop.dRaw
  rw [Trop.cell_row h hr]
  simp [hd, Trop.trunc]

/-- The drawn units: never-treated ones first. -/
theorem drawn_part {rows : List (Row U T K)} (hb : Binary rows) {d : List ℕ × List ℕ} (hd : Draw rows d) {k : ℕ} (hk : k < (drawn rows d).length) :
    (k < (controlOf rows).length → (drawn rows d)[k] ∈ controlOf rows) ∧ (¬ k < (controlOf rows).length → (drawn rows d)[k] ∈ treatedOf rows) := by
  obtain ⟨_, h2, h3, _, _⟩ := C134_strata rows hb d hd
  refine ⟨fun h => (mem_controlOf hb).2 (h2 _ ?_), fun h => (mem_treatedOf hb).2 (h3 _ ?_)⟩
  · rw [List.mem_take_iff_getElem]
    exact ⟨k, by omega, rfl⟩
  · rw [List.mem_drop_iff_getElem]
    exact ⟨k - (controlOf rows).length, by omega, by congr 1; omega⟩

/-- C142. Simultaneous adoption, never-treated units before treated ones both in the data and among the printed labels, `lambda_unit = 0`: then every replicate is the
two-step estimate on the histories of the drawn units. -/
theorem C142_blocks_partial (o : Ops K) (hs : ∀ n σ τ, Inv n σ τ → Sym o n σ) (c : Cfg K) (text : U → List Char) (rows : List (Row U T K)) (h : OneRowPerCell rows)
    (hb : Binary rows) (hk : AllKnown rows) (htr : ∃ r ∈ rows, r.d = some 1)
    (hsim : ∀ u ∈ treatedOf rows, ∀ u' ∈ treatedOf rows, ∀ t, dCell rows t u = dCell rows t u')
    (hord : ∀ a ∈ controlOf rows, ∀ b ∈ treatedOf rows, a < b)
    (htext : ∀ a ∈ controlOf rows, ∀ b ∈ treatedOf rows, ∀ k k', label text a k < label text b k')
    (l : TropFit.Lam3 K) (h0 : o.isZero l.unit = true) (d : List ℕ × List ℕ) (hd : Draw rows d)
    (u : U) (hu : u ∈ drawn rows d) (hall : ∀ t ∈ periodsOf rows, ∃ r ∈ rows, r.unit = u ∧ r.time = t) :
    replicate2 o c text rows l d = .value (TropFit.att o c (some (drawnPanel rows (periodsOf rows) (drawn rows d))) (drawnPanel rows (periodsOf rows) (drawn rows d)) l) := by
  have hcov := C134_all_periods text rows (drawn rows d) u hu hall
  have ho := reordered text rows h (drawn rows d) (drawn_units rows d)
  rw [← C134_periods text, hcov] at ho
  have hlen : (drawn rows d).length = (unitsOf rows).length := by
    rw [(C134_strata rows hb d hd).1, strata_length hb]; exact hk
  have hlen' := (C134_strata rows hb d hd).1
  have hU : (unitsOf rows).Nodup := (Trop.unitsOf_sorted rows).imp (fun h => ne_of_lt h)
  -- positions of the data
  have hdata : ∀ j (hj : j < (unitsOf rows).length), (unitsOf rows)[j] ∈ controlOf rows ↔ j < (controlOf rows).length := by
    intro j hj
    have := sorted_part (fun x => decide (everMax rows x = ((0 : K) : WithBot K))) (unitsOf rows) (Trop.unitsOf_sorted rows) (fun x hx y hy h1 h2 => ?_) j hj
    · rw [← show (unitsOf rows).filter (fun x => decide (everMax rows x = ((0 : K) : WithBot K))) = controlOf rows from rfl, ← this, List.mem_filter]
      exact ⟨fun h => h.2, fun h => ⟨List.getElem_mem hj, h⟩⟩
    · refine hord x (List.mem_filter.2 ⟨hx, h1⟩) y ?_
      rcases (strata_cover hb y hy).1 (hk y hy) with h | h
      · rw [(List.mem_filter.1 h).2] at h2; cases h2
      · exact h
  -- positions of the replicate
  have hrep : ∀ j < (unitsOf rows).length, ((labels text (drawn rows d)).idxOf ((unitsOf (bootRows text rows (drawn rows d))).getD j []) < (controlOf rows).length ↔
      j < (controlOf rows).length) := by
    intro j hj
    have hp := units_perm text rows (drawn rows d) (drawn_units rows d)
    have hj' : j < (unitsOf (bootRows text rows (drawn rows d))).length := by
      rw [hp.length_eq, labels_length]; omega
    have := sorted_part (fun x => decide ((labels text (drawn rows d)).idxOf x < (controlOf rows).length)) _ (Trop.unitsOf_sorted (bootRows text rows (drawn rows d)))
      (fun x hx y hy h1 h2 => ?_) j hj'
    · rw [decide_eq_true_eq, (hp.filter _).length_eq, filter_idxOf_lt _ (labels_nodup _ _) _ (by rw [labels_length]; omega)] at this
      rw [List.getD_eq_getElem _ _ hj']
      exact this
    · rw [decide_eq_true_eq] at h1
      rw [decide_eq_false_iff_not] at h2
      have ex : ∀ x ∈ unitsOf (bootRows text rows (drawn rows d)), ∃ hi : (labels text (drawn rows d)).idxOf x < (drawn rows d).length,
          x = label text (drawn rows d)[(labels text (drawn rows d)).idxOf x] ((labels text (drawn rows d)).idxOf x) := by
        intro x hx
        have h1 := List.idxOf_lt_length_of_mem (hp.mem_iff.1 hx)
        have h2 : (labels text (drawn rows d)).idxOf x < (drawn rows d).length := by rw [← labels_length text]; exact h1
        refine ⟨h2, ?_⟩
        have h3 := labels_get text (drawn rows d) _ h2
        rw [List.getElem?_eq_getElem h1, List.getElem_idxOf h1] at h3
        exact Option.some.inj h3
      obtain ⟨ix, ex'⟩ := ex x hx
      obtain ⟨iy, ey'⟩ := ex y hy
      rw [ex', ey']
      exact htext _ ((drawn_part hb hd ix).1 h1) _ ((drawn_part hb hd iy).2 h2) _ _
  have hD : ∀ t < (periodsOf rows).length, ∀ j < (unitsOf rows).length, (dataOf (bootRows text rows (drawn rows d))).D t j = (dataOf rows).D t j := by
    intro t ht j hj
    have hj2 : j < (drawn rows d).length := by omega
    rw [ho.D t ht j hj2]
    have hσ := ho.inv.lt j hj2
    set k := (labels text (drawn rows d)).idxOf ((unitsOf (bootRows text rows (drawn rows d))).getD j []) with hkdef
    have hk3 : k < (drawn rows d).length := hσ
    simp only [drawnPanel, dataOf]
    rw [List.getElem?_eq_getElem ht, List.getElem?_eq_getElem hk3, List.getElem?_eq_getElem hj]
    show dCell rows _ _ = dCell rows _ _
    have hr := hrep j hj
    rw [← hkdef] at hr
    by_cases hlt : j < (controlOf rows).length
    · rw [dCell_control hb ((hdata j hj).2 hlt), dCell_control hb ((drawn_part hb hd hk3).1 (hr.2 hlt))]
    · refine hsim _ ((drawn_part hb hd hk3).2 (fun h => hlt (hr.1 h))) _ ?_ _
      rcases (strata_cover hb _ (List.getElem_mem hj)).1 (hk _ (List.getElem_mem hj)) with h | h
      · exact absurd ((hdata j hj).1 h) hlt
      · exact h
  refine C142_positions o hs c text rows h hb hk l h0 d hd hcov hD ?_
  obtain ⟨r, hr, hrd⟩ := htr
  obtain ⟨j, hj, ej⟩ := List.mem_iff_getElem.1 (mem_unitsOf.2 ⟨r, hr, rfl⟩)
  obtain ⟨t, ht, et⟩ := List.mem_iff_getElem.1 (mem_periodsOf.2 ⟨r, hr, rfl⟩)
  refine ⟨t, ht, j, hj, ?_⟩
  simp only [dataOf]
  rw [List.getElem?_eq_getElem ht, List.getElem?_eq_getElem hj, ej, et]
  exact dCell_row h hr hrd

/-- Labels of equal printed length keep the order of the printed units. -/
theorem label_lt (text : U → List Char) (a b : U) (hl : (text a).length = (text b).length) (h : text a < text b) (k k' : ℕ) : label text a k < label text b k' := by
  have key : ∀ (x y p q : List Char), x.length = y.length → x < y → x ++ p < y ++ q := by
    intro x
    induction x with
    | nil =>
      intro y p q hl h
      cases y with
      | nil => exact absurd h (lt_irrefl _)
      | cons b y => simp at hl
    | cons a x ih =>
      intro y p q hl h
      cases y with
      | nil => simp at hl
      | cons b y =>
        rw [List.cons_append, List.cons_append]
        rw [List.cons_lt_cons_iff] at h ⊢
        rcases h with h | ⟨h1, h2⟩
        · exact Or.inl h
        · exact Or.inr ⟨h1, ih y p q (by simpa using hl) h2⟩
  exact key _ _ _ _ hl h

/-! ### Standard error -/

theorem collect_value (o : Ops K) (c : Cfg K) (text : U → List Char) (rows : List (Row U T K)) (l : TropFit.Lam3 K) :
    ∀ (draws : List (List ℕ × List ℕ)) (xs : List (Option K)), collect o c text rows l draws = some xs →
      xs = draws.filterMap (fun d => match replicate2 o c text rows l d with | .value x => some x | _ => none) ∧
      ∀ d ∈ draws, replicate2 o c text rows l d ≠ .raised ∧ drawn rows d ≠ []
  | [], xs, h => by
    simp only [collect] at h
    cases h
    simp
  | d :: ds, xs, h => by
    simp only [collect] at h
    by_cases h1 : (drawn rows d).isEmpty = true
    · rw [if_pos h1] at h; cases h
    rw [if_neg h1] at h
    have h1' : drawn rows d ≠ [] := fun e => h1 (by rw [e]; rfl)
    cases hr : replicate2 o c text rows l d with
    | raised => rw [hr] at h; cases h
    | skipped =>
      rw [hr] at h
      obtain ⟨e, hx⟩ := collect_value o c text rows l ds xs h
      refine ⟨by rw [List.filterMap_cons, hr]; exact e, ?_⟩
      rintro d' hd'
      rcases List.mem_cons.1 hd' with rfl | hd'
      · exact ⟨by rw [hr]; simp, h1'⟩
      · exact hx d' hd'
    | value x =>
      rw [hr] at h
      simp only [Option.map_eq_some_iff] at h
      obtain ⟨ys, hy, rfl⟩ := h
      obtain ⟨e, hx⟩ := collect_value o c text rows l ds ys hy
      refine ⟨by rw [List.filterMap_cons, hr]; simp only; rw [← e], ?_⟩
      rintro d' hd'
      rcases List.mem_cons.1 hd' with rfl | hd'
      · exact ⟨by rw [hr]; simp, h1'⟩
      · exact hx d' hd'

/-- C142. If the bootstrap returns, its estimates are those of the replicates that were not skipped, in order; a warning is raised exactly when there are fewer than ten.
The standard error is 0 without estimates, NaN with one estimate or a NaN among them, and the sample standard deviation otherwise. -/
theorem C142_standard_error (o : Ops K) (c : Cfg K) (text : U → List Char) (rows : List (Row U T K)) (l : TropFit.Lam3 K) (draws : List (List ℕ × List ℕ))
    (se : Option K) (xs : List (Option K)) (w : Bool) (h : bootVar2 o c text rows l draws = some (se, xs, w)) :
    xs = draws.filterMap (fun d => match replicate2 o c text rows l d with | .value x => some x | _ => none) ∧
    (∀ d ∈ draws, replicate2 o c text rows l d ≠ .raised) ∧ (w = true ↔ xs.length < 10) ∧ (xs = [] → se = some 0) ∧ (xs.length = 1 → se = none) ∧
    (none ∈ xs → se = none) ∧
    (∀ ys : List K, xs = ys.map some → 2 ≤ ys.length →
      ∃ m q, m * (ys.length : K) = ys.sum ∧ q * ((ys.length : K) - 1) = (ys.map (fun y => (y - m) ^ 2)).sum ∧ se = some (o.sqrt q)) := by
  unfold bootVar2 at h
  rw [Option.map_eq_some_iff] at h
  obtain ⟨zs, hz, e⟩ := h
  obtain ⟨e1, e2⟩ := collect_value o c text rows l draws zs hz
  have hsome : ∀ ys : List K, (ys.map some).mapM id = some ys := by
    intro ys
    induction ys with
    | nil => rfl
    | cons y ys ih => rw [List.map_cons, List.mapM_cons, ih]; rfl
  by_cases h0 : zs = []
  · rw [if_pos h0] at e
    obtain ⟨e3, e4⟩ := Prod.mk.inj e
    obtain ⟨e5, e6⟩ := Prod.mk.inj e4
    subst e3 e5 e6
    rw [h0] at e1
    refine ⟨e1, fun d hd => (e2 d hd).1, by simp, fun _ => rfl, by simp, by simp, ?_⟩
    intro ys hy h2
    rw [← List.length_map (f := some), ← hy] at h2
    simp at h2
  · rw [if_neg h0] at e
    obtain ⟨e3, e4⟩ := Prod.mk.inj e
    obtain ⟨e5, e6⟩ := Prod.mk.inj e4
    subst e3 e5 e6
    refine ⟨e1, fun d hd => (e2 d hd).1, by simp, fun h => absurd h h0, ?_, ?_, ?_⟩
    · intro h1
      obtain ⟨x, rfl⟩ := List.length_eq_one_iff.1 h1
      cases x <;> simp [stdO]
    · intro hn
      have : zs.mapM id = none := by
        clear e1 e2 hz h0 e e4
        induction zs with
        | nil => simp at hn
        | cons a zs ih =>
          rw [List.mapM_cons]
          cases a with
          | none => rfl
          | some a =>
            rw [ih (by simpa using hn)]
            rfl
      unfold stdO
      rw [this]
    · intro ys hy h2
      unfold stdO
      rw [hy, hsome]
      simp only
      rw [if_neg (by omega)]
      have p1 : ((ys.length : ℕ) : K) ≠ 0 := by
        rw [Nat.cast_ne_zero]; omega
      have p2 : ((ys.length : ℕ) : K) - 1 ≠ 0 := by
        have : (1 : K) < (ys.length : K) := by exact_mod_cast (by omega : 1 < ys.length)
        exact (sub_pos.2 this).ne'
      exact ⟨_, _, div_mul_cancel₀ _ p1, div_mul_cancel₀ _ p2, rfl⟩

end

/-! ### Integer labels -/

section integers
variable {T K : Type*} [LinearOrder T] [Field K] [LinearOrder K] [IsStrictOrderedRing K] [FloorRing K]

theorem labelLe_not_lt : ∀ a b : List Char, TropFit.labelLe a b = true ↔ ¬ b < a
  | [], b => by simp [TropFit.labelLe]
  | a :: as, [] => by simp [TropFit.labelLe]
  | a :: as, b :: bs => by
    rw [TropFit.labelLe, List.cons_lt_cons_iff, Bool.or_eq_true, Bool.and_eq_true, decide_eq_true_eq, decide_eq_true_eq, labelLe_not_lt as bs]
    have e1 : a.toNat < b.toNat ↔ a < b := by rw [Char.lt_def, UInt32.lt_iff_toNat_lt]; rfl
    have e2 : a.toNat = b.toNat ↔ a = b := by
      constructor
      · intro h; exact Char.ext (UInt32.toNat_inj.1 h)
      · rintro rfl; rfl
    rw [e1, e2]
    rcases lt_trichotomy a b with h | h | h
    · simp [h, h.ne', not_lt.2 h.le]
    · subst h; simp
    · simp [h, h.ne', not_lt.2 h.le]

theorem labelLe_iff (a b : List Char) : TropFit.labelLe a b = true ↔ a ≤ b := by
  rw [labelLe_not_lt, not_lt]

/-- C57. For integer unit labels, the resampled panel of the model of a replicate is the one built from the rows of the drawn units, relabelled, pivoted and sorted as text:
outcomes and treatments of each column are those of one drawn unit. -/
theorem C57_bootstrap_panel (rows : List (Row ℕ T K)) (h : OneRowPerCell rows) (s : List ℕ) (hs : ∀ u ∈ s, u ∈ unitsOf rows)
    (hcov : periodsOf (bootRows (Nat.toDigits 10) rows s) = periodsOf rows) :
    (dataOf (bootRows (Nat.toDigits 10) rows s)).nT =
      (TropFit.bootPanel (dataOf rows) (fun i => (unitsOf rows).getD i 0) (s.map (fun u => (unitsOf rows).idxOf u))).nT ∧
    (dataOf (bootRows (Nat.toDigits 10) rows s)).nN =
      (TropFit.bootPanel (dataOf rows) (fun i => (unitsOf rows).getD i 0) (s.map (fun u => (unitsOf rows).idxOf u))).nN ∧
    ∀ t < (periodsOf rows).length, ∀ j < s.length,
      (dataOf (bootRows (Nat.toDigits 10) rows s)).Y t j =
        (TropFit.bootPanel (dataOf rows) (fun i => (unitsOf rows).getD i 0) (s.map (fun u => (unitsOf rows).idxOf u))).Y t j ∧
      (dataOf (bootRows (Nat.toDigits 10) rows s)).D t j =
        (TropFit.bootPanel (dataOf rows) (fun i => (unitsOf rows).getD i 0) (s.map (fun u => (unitsOf rows).idxOf u))).D t j := by
  have ho := reordered (Nat.toDigits 10) rows h s hs
  rw [← C134_periods (Nat.toDigits 10), hcov] at ho
  refine ⟨ho.nT, ?_, ?_⟩
  · rw [ho.nN]
    show s.length = (s.map _).length
    rw [List.length_map]
  have hp := units_perm (Nat.toDigits 10) rows s hs
  set ids : ℕ → ℕ := fun i => (unitsOf rows).getD i 0 with hids
  set sample := s.map (fun u => (unitsOf rows).idxOf u) with hsample
  have hid : ∀ u ∈ s, ids ((unitsOf rows).idxOf u) = u := by
    intro u hu
    have h1 := List.idxOf_lt_length_of_mem (hs u hu)
    simp only [hids]
    rw [List.getD_eq_getElem _ _ h1, List.getElem_idxOf h1]
  -- the sorted pairs carry the sorted labels
  set srt := sample.zipIdx.insertionSort (fun a b => TropFit.labelLe (TropFit.bootLabel (ids a.1) a.2) (TropFit.bootLabel (ids b.1) b.2) = true) with hsrt
  have hpz : srt ~ sample.zipIdx := List.perm_insertionSort _ _
  have hlab : sample.zipIdx.map (fun a => TropFit.bootLabel (ids a.1) a.2) = labels (Nat.toDigits 10) s := by
    refine List.ext_getElem (by simp [labels, hsample]) fun k h1 h2 => ?_
    have hk : k < s.length := by simpa [labels] using h2
    simp only [List.getElem_map, List.getElem_zipIdx, labels, hsample]
    show TropFit.bootLabel (ids ((unitsOf rows).idxOf s[k])) (0 + k) = label (Nat.toDigits 10) s[k] (0 + k)
    rw [hid s[k] (List.getElem_mem hk)]
    rfl
  have hL : srt.map (fun a => TropFit.bootLabel (ids a.1) a.2) = unitsOf (bootRows (Nat.toDigits 10) rows s) := by
    refine List.Perm.eq_of_pairwise (le := (· ≤ ·)) (fun a b _ _ h1 h2 => le_antisymm h1 h2) ?_ ((Trop.unitsOf_sorted _).imp fun h => h.le) ?_
    · rw [List.pairwise_map]
      haveI : Std.Total (fun a b : ℕ × ℕ => TropFit.labelLe (TropFit.bootLabel (ids a.1) a.2) (TropFit.bootLabel (ids b.1) b.2) = true) :=
        ⟨fun a b => by simp only [labelLe_iff]; exact le_total _ _⟩
      haveI : IsTrans (ℕ × ℕ) (fun a b : ℕ × ℕ => TropFit.labelLe (TropFit.bootLabel (ids a.1) a.2) (TropFit.bootLabel (ids b.1) b.2) = true) :=
        ⟨fun a b c => by simp only [labelLe_iff]; exact le_trans⟩
      exact (List.pairwise_insertionSort (fun a b : ℕ × ℕ => TropFit.labelLe (TropFit.bootLabel (ids a.1) a.2) (TropFit.bootLabel (ids b.1) b.2) = true)
        sample.zipIdx).imp fun h => (labelLe_iff _ _).1 h
    · exact ((hpz.map _).trans (List.Perm.of_eq hlab)).trans hp.symm
  intro t ht j hj
  have hlen : srt.length = s.length := by rw [hpz.length_eq]; simp [hsample]
  have hj' : j < srt.length := by omega
  have hjU : j < (unitsOf (bootRows (Nat.toDigits 10) rows s)).length := by rw [← hL, List.length_map]; exact hj'
  obtain ⟨k, hk, ek⟩ : ∃ k, ∃ hk : k < s.length, srt[j] = ((unitsOf rows).idxOf s[k], k) := by
    have hm := hpz.mem_iff.1 (List.getElem_mem hj')
    obtain ⟨k, hk, e⟩ := List.mem_iff_getElem.1 hm
    have hk' : k < s.length := by simpa [hsample] using hk
    refine ⟨k, hk', ?_⟩
    rw [← e, List.getElem_zipIdx]
    simp [hsample]
  have hlabj : (unitsOf (bootRows (Nat.toDigits 10) rows s)).getD j [] = label (Nat.toDigits 10) s[k] k := by
    rw [List.getD_eq_getElem _ _ hjU]
    have : (unitsOf (bootRows (Nat.toDigits 10) rows s))[j] = (srt.map (fun a => TropFit.bootLabel (ids a.1) a.2))[j]'(by rw [List.length_map]; exact hj') := by
      congr 1; exact hL.symm
    rw [this, List.getElem_map, ek]
    show TropFit.bootLabel (ids ((unitsOf rows).idxOf s[k])) k = _
    rw [hid s[k] (List.getElem_mem hk)]
    rfl
  have hσ : (labels (Nat.toDigits 10) s).idxOf ((unitsOf (bootRows (Nat.toDigits 10) rows s)).getD j []) = k := by
    rw [hlabj]
    have h1 : k < (labels (Nat.toDigits 10) s).length := by rw [labels_length]; exact hk
    have h2 := labels_get (Nat.toDigits 10) s k hk
    rw [List.getElem?_eq_getElem h1] at h2
    rw [← Option.some.inj h2]
    exact List.Nodup.idxOf_getElem (labels_nodup _ _) k h1
  have hord : (TropFit.bootOrder ids sample).getD j 0 = (unitsOf rows).idxOf s[k] := by
    unfold TropFit.bootOrder
    rw [← hsrt, List.getD_eq_getElem _ _ (by rw [List.length_map]; exact hj'), List.getElem_map, ek]
  have hidx := List.idxOf_lt_length_of_mem (hs s[k] (List.getElem_mem hk))
  constructor
  · rw [ho.Y t ht j hj]
    show (drawnPanel rows (periodsOf rows) s).Y t ((labels (Nat.toDigits 10) s).idxOf _) = (dataOf rows).Y t ((TropFit.bootOrder ids sample).getD j 0)
    rw [hσ, hord]
    simp only [drawnPanel, dataOf]
    rw [List.getElem?_eq_getElem hk, List.getElem?_eq_getElem hidx, List.getElem?_eq_getElem ht]
    simp only [List.getElem_idxOf hidx]
  · rw [ho.D t ht j hj]
    show (drawnPanel rows (periodsOf rows) s).D t ((labels (Nat.toDigits 10) s).idxOf _) = (dataOf rows).D t ((TropFit.bootOrder ids sample).getD j 0)
    rw [hσ, hord]
    simp only [drawnPanel, dataOf]
    rw [List.getElem?_eq_getElem hk, List.getElem?_eq_getElem hidx, List.getElem?_eq_getElem ht]
    simp only [List.getElem_idxOf hidx]

end integers

/-! ### Cases -/

section cases
open TropFit (dOps cA)

/-- One treated unit `a` and two never-treated units `b`, `c`, in three periods; the outcomes are those of `TropFit.pD`. -/
def three (a b c : ℕ) : List (Row ℕ ℕ ℚ) :=
  [⟨a, 0, some 0, some 0⟩, ⟨a, 1, some 0, some 0⟩, ⟨a, 2, some 10, some 1⟩, ⟨b, 0, some 0, some 0⟩, ⟨b, 1, some 0, some 0⟩, ⟨b, 2, some 4, some 0⟩,
   ⟨c, 0, some 0, some 0⟩, ⟨c, 1, some 0, some 0⟩, ⟨c, 2, some 0, some 0⟩]

/-- Tuning parameters without unit distances. -/
def lamZ : TropFit.Lam3 ℚ := { time := 0, unit := 0, nn := 5 }

/-- The hypotheses of `C142_blocks_partial` hold if the never-treated units are called 1 and 2 and the treated unit 3. -/
example : replicate2 dOps cA (Nat.toDigits 10) (three 3 1 2) lamZ ([0, 0], [0]) = .value (some (166 / 27)) ∧
    TropFit.att dOps cA (some (drawnPanel (three 3 1 2) [0, 1, 2] [1, 1, 3])) (drawnPanel (three 3 1 2) [0, 1, 2] [1, 1, 3]) lamZ = some (166 / 27) := by
  decide +kernel

example (c : Cfg ℚ) : replicate2 dOps c (Nat.toDigits 10) (three 3 1 2) lamZ ([0, 0], [0]) =
    .value (TropFit.att dOps c (some (drawnPanel (three 3 1 2) (periodsOf (three 3 1 2)) (drawn (three 3 1 2) ([0, 0], [0]))))
      (drawnPanel (three 3 1 2) (periodsOf (three 3 1 2)) (drawn (three 3 1 2) ([0, 0], [0]))) lamZ) := by
  have hc : controlOf (three 3 1 2) = [1, 2] := by decide +kernel
  have ht : treatedOf (three 3 1 2) = [3] := by decide +kernel
  have hd : drawn (three 3 1 2) ([0, 0], [0]) = [1, 1, 3] := by decide +kernel
  refine C142_blocks_partial dOps (fun n σ τ _ => TropPerm.sym_field _ _ (fun _ _ _ _ _ _ _ _ _ => rfl)) c (Nat.toDigits 10) (three 3 1 2)
    (by unfold OneRowPerCell; decide +kernel) (by unfold Binary; decide +kernel) (by unfold AllKnown; decide +kernel) (by decide +kernel) ?_ ?_ ?_ lamZ (by decide +kernel)
    ([0, 0], [0]) (by unfold Draw; decide +kernel) 1 (by rw [hd]; simp) (by decide +kernel)
  · intro u hu u' hu' t
    rw [ht, List.mem_singleton] at hu hu'
    rw [hu, hu']
  · rw [hc, ht]; decide
  · intro a ha b hb k k'
    rw [hc] at ha
    rw [ht, List.mem_singleton] at hb
    subst hb
    fin_cases ha <;> exact label_lt _ _ _ (by decide +kernel) (by decide +kernel) k k'

/-- Two replicates; the demonstration arithmetic has the absolute value in place of the root. -/
example : bootVar2 dOps cA (Nat.toDigits 10) (three 3 1 2) lamZ [([0, 1], [0]), ([0, 0], [0])] =
    some (some (1352 / 729), [some (218 / 27), some (166 / 27)], true) := by decide +kernel

/-- The replicate of `C57_bootstrap_refuted` comes from rows: copies "10_0", "11_1", "2_2" of the units at positions 1, 2, 0. -/
example : TropFit.bootOrder (fun i => (unitsOf (three 2 10 11)).getD i 0) ([10, 11, 2].map (fun u => (unitsOf (three 2 10 11)).idxOf u)) = [1, 2, 0] ∧
    ∀ t < 3, ∀ j < 3, (dataOf (bootRows (Nat.toDigits 10) (three 2 10 11) [10, 11, 2])).D t j = TropFit.bD.D t j := by decide +kernel

/-- C142, refuted: the replicates depend on the names of the units. The same outcomes and treatments, with the units called 12, 13, 14 instead of 2, 10, 11 in the same order,
give the same point estimate and, for the same draw of every unit once, different replicates: the copies are sorted as text, "10_0" before "2_2", while the weights are stored by
position. Under the second naming the replicate is the estimate on the drawn units; under the first it is not. -/
theorem C142_names_refuted : (∀ t < 3, ∀ i < 3, (dataOf (three 2 10 11)).Y t i = (dataOf (three 12 13 14)).Y t i ∧ (dataOf (three 2 10 11)).D t i = (dataOf (three 12 13 14)).D t i) ∧
    TropFit.att dOps cA (some (dataOf (three 2 10 11))) (dataOf (three 2 10 11)) lamZ = some (218 / 27) ∧
    TropFit.att dOps cA (some (dataOf (three 12 13 14))) (dataOf (three 12 13 14)) lamZ = some (218 / 27) ∧
    (Draw (three 2 10 11) ([0, 1], [0]) ∧ Draw (three 12 13 14) ([0, 1], [0])) ∧
    replicate2 dOps cA (Nat.toDigits 10) (three 12 13 14) lamZ ([0, 1], [0]) = .value (some (218 / 27)) ∧
    replicate2 dOps cA (Nat.toDigits 10) (three 2 10 11) lamZ ([0, 1], [0]) = .value (some 10) := by
  refine ⟨by decide +kernel, by decide +kernel, by decide +kernel, ?_, by decide +kernel, by decide +kernel⟩
  unfold Draw
  decide +kernel

/-- C142, refuted: the bootstrap can abort a fit that was otherwise computed. The data `silent` are accepted; unit 1 has outcomes but no treatment values. Every draw then has fewer
units than the stored matrices, and with `lambda_unit = 0` the first replicate raises an exception that is not caught. -/
theorem C142_aborts_refuted : (∃ P, Trop.prepare silent = .ok P) ∧
    (∀ (o : Ops ℚ) (c : Cfg ℚ) (text : ℕ → List Char) (l : TropFit.Lam3 ℚ) (d : List ℕ × List ℕ), o.isZero l.unit = true → Draw silent d →
      replicate2 o c text silent l d = .raised ∧ ∀ ds, bootVar2 o c text silent l (d :: ds) = none) := by
  have key : ∀ (o : Ops ℚ) (c : Cfg ℚ) (text : ℕ → List Char) (l : TropFit.Lam3 ℚ) (d : List ℕ × List ℕ), o.isZero l.unit = true → Draw silent d →
      replicate2 o c text silent l d = .raised := by
    intro o c text l d h0 hd
    refine (C142_aborts o c text silent (by unfold OneRowPerCell; decide +kernel) (by unfold Binary; decide +kernel) l d hd ?_).2 ⟨h0, 1, by decide +kernel, by decide +kernel⟩
    have ht : treatedOf silent = [2] := by decide +kernel
    obtain ⟨_, h2, _, h4⟩ := hd
    rw [ht] at h2 h4
    obtain ⟨k, hk⟩ := List.length_eq_one_iff.1 h2
    rw [hk] at h4
    have hk0 : k = 0 := by have := h4 k (by simp); simpa using this
    refine ⟨2, ?_, 2, by decide +kernel, by decide +kernel⟩
    unfold drawn
    rw [hk, hk0, ht]
    simp
  refine ⟨C134_undrawn_refuted.1.imp fun P h => h.1, fun o c text l d h0 hd => ⟨key o c text l d h0 hd, fun ds => ?_⟩⟩
  unfold bootVar2
  rw [collect, key o c text l d h0 hd]
  split_ifs <;> rfl

/-- C142, refuted: in unbalanced data a draw without some period of the data is dropped, although the compiled bootstrap computes an estimate for the same draw. -/
theorem C142_periods_refuted : AllKnown short ∧ Draw short ([0], [0, 0]) ∧
    (∀ (o : Ops ℚ) (c : Cfg ℚ) (text : ℕ → List Char) (l : TropFit.Lam3 ℚ), replicate2 o c text short l ([0], [0, 0]) = .skipped) ∧
    (∀ (v : TropRust.Env ℚ) (c : Cfg ℚ) (l : TropFit.Lam3 ℚ), TropRust.bootFit v c (TropRust.bootPanel (dataOf short) (TropJointRust.sampled (dataOf short) [0] [0, 0])) l ≠ none) := by
  have hk : AllKnown short := by unfold AllKnown; decide +kernel
  have hb : Binary short := by unfold Binary; decide +kernel
  have hd : Draw short ([0], [0, 0]) := by unfold Draw; decide +kernel
  refine ⟨hk, hd, ?_, ?_⟩
  · intro o c text l
    have ho := reordered text short (by unfold OneRowPerCell; decide +kernel) (drawn short ([0], [0, 0])) (drawn_units _ _)
    have hnN : (dataOf (bootRows text short (drawn short ([0], [0, 0])))).nN = (dataOf short).nN := by
      rw [ho.nN]
      show (drawn short ([0], [0, 0])).length = _
      decide +kernel
    have hnT : (dataOf (bootRows text short (drawn short ([0], [0, 0])))).nT ≠ (dataOf short).nT := by
      rw [ho.nT]
      show (covered short (drawn short ([0], [0, 0]))).length ≠ _
      decide +kernel
    unfold replicate2 fitStored
    split_ifs <;> first | rfl | (rename_i hx; exact absurd hnN hx.2) | (exfalso; tauto)
  · intro v c l
    have h1 : TropFit.treatedCells (TropRust.bootPanel (dataOf short) (TropJointRust.sampled (dataOf short) [0] [0, 0])) ≠ [] := by decide +kernel
    have h2 : ¬ ((List.range (TropRust.bootPanel (dataOf short) (TropJointRust.sampled (dataOf short) [0] [0, 0])).nN).all (fun i =>
        (List.range (TropRust.bootPanel (dataOf short) (TropJointRust.sampled (dataOf short) [0] [0, 0])).nT).any (fun t =>
          decide ((TropRust.bootPanel (dataOf short) (TropJointRust.sampled (dataOf short) [0] [0, 0])).D t i ≠ 0))) = true) := by decide +kernel
    unfold TropRust.bootFit
    rw [if_neg h1, if_neg h2]
    split <;> simp

end cases
end DiffDiff.TropBoot
