/-
Properties of the Python bootstrap of the joint method: C134.
-/
import Verif.TropBootPermProps
import Verif.TropJointRustBootProps
import Verif.TropProps
import Verif.TropJointCaseProps

set_option linter.unusedSectionVars false

namespace DiffDiff.TropBoot

open Finset
open scoped List
open TropFit (Data Cfg)
open Trop (Row unitsOf periodsOf yCell dCell cell hasDup OneRowPerCell Binary mem_unitsOf mem_periodsOf)
open TropJoint

section
variable {U T K : Type*} [LinearOrder U] [LinearOrder T] [Field K] [LinearOrder K] [IsStrictOrderedRing K] [FloorRing K]

/-! ### Labels -/

/-- The position can be read off the label. -/
theorem label_pos (text : U → List Char) {u u' : U} {k k' : ℕ} (h : label text u k = label text u' k') : k = k' := by
  have key : ∀ (u : U) (k : ℕ), (label text u k).reverse.takeWhile (fun c => decide (c ≠ '_')) = (Nat.toDigits 10 k).reverse := by
    intro u k
    have hd : ∀ c ∈ (Nat.toDigits 10 k).reverse, decide (c ≠ '_') = true := by
      intro c hc
      rw [decide_eq_true_eq]
      rintro rfl
      exact Nat.underscore_not_in_toDigits (List.mem_reverse.1 hc)
    unfold label
    rw [List.reverse_append, List.reverse_cons, List.append_assoc, List.takeWhile_append_of_pos hd]
    simp
  have e := congrArg (fun l => l.reverse.takeWhile (fun c => decide (c ≠ '_'))) h
  simp only [key] at e
  have e' := congrArg (fun l => Nat.ofDigitChars 10 l 0) (List.reverse_injective e)
  simpa [Nat.ofDigitChars_toDigits] using e'

/-- The labels of the drawn units, in the order drawn. -/
def labels (text : U → List Char) (s : List U) : List (List Char) := s.zipIdx.map (fun p => label text p.1 p.2)

theorem labels_length (text : U → List Char) (s : List U) : (labels text s).length = s.length := by simp [labels]

theorem labels_get (text : U → List Char) (s : List U) (k : ℕ) (hk : k < s.length) : (labels text s)[k]? = some (label text s[k] k) := by
  simp [labels, hk]

theorem labels_nodup (text : U → List Char) (s : List U) : (labels text s).Nodup := by
  rw [List.nodup_iff_getElem?_ne_getElem?]
  intro i j hij hj h
  rw [labels_length] at hj
  rw [labels_get text s i (by omega), labels_get text s j hj] at h
  exact absurd (label_pos text (Option.some.inj h)) (by omega)

theorem mem_bootRows {text : U → List Char} {rows : List (Row U T K)} {s : List U} {r' : Row (List Char) T K} :
    r' ∈ bootRows text rows s ↔ ∃ (k : ℕ) (hk : k < s.length), ∃ r ∈ rows, r.unit = s[k] ∧
      r' = { unit := label text s[k] k, time := r.time, y := r.y, d := r.d } := by
  unfold bootRows
  simp only [List.mem_flatMap, List.mem_map, List.mem_filter, decide_eq_true_eq]
  constructor
  · rintro ⟨⟨u, k⟩, hp, r, ⟨hr, hu⟩, rfl⟩
    obtain ⟨hk, e⟩ := List.mk_mem_zipIdx_iff_getElem?.1 hp |> List.getElem?_eq_some_iff.1
    subst e
    exact ⟨k, hk, r, hr, hu, rfl⟩
  · rintro ⟨k, hk, r, hr, hu, rfl⟩
    exact ⟨(s[k], k), List.mk_mem_zipIdx_iff_getElem?.2 (List.getElem?_eq_getElem hk), r, ⟨hr, hu⟩, rfl⟩

/-- C134. The copies in a replicate never collide: whatever the printed form of the unit labels, the new labels of two different draws differ, even if the
same unit is drawn twice. -/
theorem C134_ids (text : U → List Char) (s : List U) (i j : ℕ) (hi : i < s.length) (hj : j < s.length) (h : i ≠ j) :
    label text s[i] i ≠ label text s[j] j := fun e => h (label_pos text e)

/-- C134. A replicate has at most one row per unit and period if the data have. -/
theorem C134_no_duplicates (text : U → List Char) (rows : List (Row U T K)) (h : OneRowPerCell rows) (s : List U) :
    OneRowPerCell (bootRows text rows s) := by
  unfold OneRowPerCell bootRows
  rw [List.map_flatMap]
  rw [List.nodup_flatMap]
  constructor
  · rintro ⟨u, k⟩ _
    rw [List.map_map]
    have : (fun r : Row (List Char) T K => (r.unit, r.time)) ∘ (fun r : Row U T K => { unit := label text u k, time := r.time, y := r.y, d := r.d : Row (List Char) T K })
        = fun r : Row U T K => (label text u k, r.time) := rfl
    rw [this]
    refine List.Nodup.map_on ?_ ((List.Nodup.of_map _ h).filter _)
    intro a ha b hb e
    simp only [List.mem_filter, decide_eq_true_eq] at ha hb
    exact List.inj_on_of_nodup_map h ha.1 hb.1 (by rw [ha.2, hb.2, (Prod.mk.inj e).2])
  · have hz : s.zipIdx.Pairwise (fun a b => a.2 ≠ b.2) := by
      have := List.nodup_range' (s := 0) (n := s.length) (step := 1)
      rw [← List.zipIdx_map_snd 0 s] at this
      exact List.pairwise_map.1 this
    refine hz.imp ?_
    rintro ⟨u, k⟩ ⟨u', k'⟩ hne x hx hx'
    simp only [List.map_map, List.mem_map, List.mem_filter, Function.comp] at hx hx'
    obtain ⟨r, _, rfl⟩ := hx
    obtain ⟨r', _, e⟩ := hx'
    exact hne (label_pos text (Prod.mk.inj e).1).symm

/-- The units of a replicate. -/
theorem units_perm (text : U → List Char) (rows : List (Row U T K)) (s : List U) (hs : ∀ u ∈ s, u ∈ unitsOf rows) :
    unitsOf (bootRows text rows s) ~ labels text s := by
  refine (List.perm_ext_iff_of_nodup ((Trop.unitsOf_sorted _).imp fun h => ne_of_lt h) (labels_nodup text s)).2 fun x => ?_
  rw [mem_unitsOf]
  constructor
  · rintro ⟨r', hr', rfl⟩
    obtain ⟨k, hk, r, hr, hu, rfl⟩ := mem_bootRows.1 hr'
    exact List.mem_of_getElem? (labels_get text s k hk)
  · intro hx
    obtain ⟨k, hk⟩ := List.mem_iff_getElem?.1 hx
    have hk' : k < s.length := by
      by_contra hc
      rw [List.getElem?_eq_none (by rw [labels_length]; omega)] at hk
      cases hk
    rw [labels_get text s k hk'] at hk
    obtain ⟨r, hr, hu⟩ := mem_unitsOf.1 (hs s[k] (List.getElem_mem hk'))
    exact ⟨_, mem_bootRows.2 ⟨k, hk', r, hr, hu, rfl⟩, Option.some.inj hk⟩

/-- The cells of a copy are those of the drawn unit. -/
theorem cell_copy (text : U → List Char) (rows : List (Row U T K)) (h : OneRowPerCell rows) (s : List U) (k : ℕ) (hk : k < s.length) (t : T) :
    cell (bootRows text rows s) t (label text s[k] k) =
      (cell rows t s[k]).map (fun r => { unit := label text s[k] k, time := r.time, y := r.y, d := r.d }) := by
  have hn := C134_no_duplicates text rows h s
  cases hc : cell rows t s[k] with
  | some r =>
    obtain ⟨h1, h2, rfl⟩ := Trop.cell_some hc
    exact Trop.cell_row hn (mem_bootRows.2 ⟨k, hk, r, h1, h2, rfl⟩)
  | none =>
    cases hb : cell (bootRows text rows s) t (label text s[k] k) with
    | none => rfl
    | some r' =>
      obtain ⟨h1, h2, rfl⟩ := Trop.cell_some hb
      obtain ⟨k', hk', r, hr, hu, rfl⟩ := mem_bootRows.1 h1
      obtain rfl := label_pos text h2
      have := Trop.cell_row h hr
      rw [hu] at this
      rw [this] at hc; cases hc

theorem yCell_copy (text : U → List Char) (rows : List (Row U T K)) (h : OneRowPerCell rows) (s : List U) (k : ℕ) (hk : k < s.length) (t : T) :
    yCell (bootRows text rows s) t (label text s[k] k) = yCell rows t s[k] := by
  unfold yCell; rw [cell_copy text rows h s k hk t]
  cases cell rows t s[k] <;> rfl

theorem dCell_copy (text : U → List Char) (rows : List (Row U T K)) (h : OneRowPerCell rows) (s : List U) (k : ℕ) (hk : k < s.length) (t : T) :
    dCell (bootRows text rows s) t (label text s[k] k) = dCell rows t s[k] := by
  unfold dCell Trop.dRaw; rw [cell_copy text rows h s k hk t]
  cases cell rows t s[k] <;> rfl

/-! ### The drawn panel -/

/-- Periods in which some drawn unit has a row, in order. -/
def covered (rows : List (Row U T K)) (s : List U) : List T :=
  (periodsOf rows).filter (fun t => rows.any (fun r => decide (r.time = t) && decide (r.unit ∈ s)))

theorem mem_covered {rows : List (Row U T K)} {s : List U} {t : T} : t ∈ covered rows s ↔ ∃ r ∈ rows, r.time = t ∧ r.unit ∈ s := by
  unfold covered
  rw [List.mem_filter, List.any_eq_true, mem_periodsOf]
  simp only [Bool.and_eq_true, decide_eq_true_eq]
  exact ⟨fun h => h.2, fun ⟨r, hr, h1, h2⟩ => ⟨⟨r, hr, h1⟩, r, hr, h1, h2⟩⟩

/-- The panel of the drawn units over given periods: column `k` is the `k`-th drawn unit. -/
def drawnPanel (rows : List (Row U T K)) (ps : List T) (s : List U) : Data K :=
  { nT := ps.length
    nN := s.length
    Y := fun t k => match ps[t]?, s[k]? with
      | some a, some u => yCell rows a u
      | _, _ => none
    D := fun t k => match ps[t]?, s[k]? with
      | some a, some u => dCell rows a u
      | _, _ => 0 }

theorem sorted_ext {α : Type*} [LinearOrder α] {l l' : List α} (h : l.Pairwise (· < ·)) (h' : l'.Pairwise (· < ·)) (e : ∀ x, x ∈ l ↔ x ∈ l') : l = l' :=
  List.Perm.eq_of_pairwise (fun a b _ _ h1 h2 => absurd h1 (not_lt.2 h2.le)) h h'
    ((List.perm_ext_iff_of_nodup (h.imp fun h => ne_of_lt h) (h'.imp fun h => ne_of_lt h)).2 e)

/-- C134. The periods of a replicate are the periods in which a drawn unit has a row, and no others. -/
theorem C134_periods (text : U → List Char) (rows : List (Row U T K)) (s : List U) :
    periodsOf (bootRows text rows s) = covered rows s := by
  refine sorted_ext (Trop.periodsOf_sorted _) ((Trop.periodsOf_sorted rows).filter _) fun t => ?_
  rw [mem_periodsOf, mem_covered]
  constructor
  · rintro ⟨r', hr', rfl⟩
    obtain ⟨k, hk, r, hr, hu, rfl⟩ := mem_bootRows.1 hr'
    exact ⟨r, hr, rfl, by rw [hu]; exact List.getElem_mem hk⟩
  · rintro ⟨r, hr, rfl, hu⟩
    obtain ⟨k, hk, e⟩ := List.mem_iff_getElem.1 hu
    exact ⟨_, mem_bootRows.2 ⟨k, hk, r, hr, e.symm, rfl⟩, rfl⟩

theorem inv_of_perm {α : Type*} [BEq α] [LawfulBEq α] (d : α) {l l' : List α} (h : l' ~ l) (hn : l.Nodup) :
    Inv l.length (fun j => l.idxOf (l'.getD j d)) (fun i => l'.idxOf (l.getD i d)) := by
  have hn' : l'.Nodup := h.nodup_iff.2 hn
  have hl := h.length_eq
  have g : ∀ (a b : List α), a ~ b → a.Nodup → b.Nodup → ∀ j < a.length, b.idxOf (a.getD j d) < b.length ∧ a.idxOf (b.getD (b.idxOf (a.getD j d)) d) = j := by
    intro a b hab ha hb j hj
    have e1 : a.getD j d = a[j] := List.getD_eq_getElem _ _ hj
    have hm : a[j] ∈ b := hab.mem_iff.1 (List.getElem_mem hj)
    have h1 : b.idxOf a[j] < b.length := List.idxOf_lt_length_of_mem hm
    rw [e1]
    refine ⟨h1, ?_⟩
    rw [List.getD_eq_getElem _ _ h1, List.getElem_idxOf h1]
    exact List.Nodup.idxOf_getElem ha j hj
  refine ⟨fun j hj => (g l' l h hn' hn j (by omega)).1, fun i hi => ?_, fun j hj => (g l' l h hn' hn j (by omega)).2, fun i hi => (g l l' h.symm hn hn' i hi).2⟩
  have := (g l l' h.symm hn hn' i hi).1
  rw [hl] at this; exact this

/-- The matrices of a replicate are the drawn panel over the covered periods, with the columns in another order. -/
theorem reordered (text : U → List Char) (rows : List (Row U T K)) (h : OneRowPerCell rows) (s : List U) (hs : ∀ u ∈ s, u ∈ unitsOf rows) :
    Reordered (drawnPanel rows (covered rows s) s) (dataOf (bootRows text rows s))
      (fun j => (labels text s).idxOf ((unitsOf (bootRows text rows s)).getD j []))
      (fun i => (unitsOf (bootRows text rows s)).idxOf ((labels text s).getD i [])) := by
  have hp := units_perm text rows s hs
  have hi := inv_of_perm [] hp (labels_nodup text s)
  have hlen : (unitsOf (bootRows text rows s)).length = s.length := by rw [hp.length_eq, labels_length]
  rw [labels_length] at hi
  have hper := C134_periods text rows s
  -- the label at a sorted position
  have key : ∀ j < s.length, ∃ k, ∃ hk : k < s.length, (labels text s).idxOf ((unitsOf (bootRows text rows s)).getD j []) = k ∧
      (unitsOf (bootRows text rows s))[j]? = some (label text s[k] k) := by
    intro j hj
    have hk := hi.lt j hj
    refine ⟨_, hk, rfl, ?_⟩
    have hj' : j < (unitsOf (bootRows text rows s)).length := by omega
    have e : (unitsOf (bootRows text rows s)).getD j [] = (unitsOf (bootRows text rows s))[j] := List.getD_eq_getElem _ _ hj'
    have hk' : (labels text s).idxOf (unitsOf (bootRows text rows s))[j] < (labels text s).length := by
      rw [labels_length, ← e]; exact hk
    have := List.getElem_idxOf hk'
    have h2 := labels_get text s _ hk
    rw [List.getElem?_eq_getElem hj']
    rw [← h2]
    simp only [e]
    rw [List.getElem?_eq_getElem hk', this]
  refine ⟨?_, hlen, hi, ?_, ?_⟩
  · show (periodsOf _).length = _
    rw [hper]; rfl
  · intro t ht j hj
    obtain ⟨k, hk, e1, e2⟩ := key j hj
    simp only [dataOf, drawnPanel, e1, e2, hper]
    rw [List.getElem?_eq_getElem (show t < (covered rows s).length from ht), List.getElem?_eq_getElem hk]
    exact yCell_copy text rows h s k hk _
  · intro t ht j hj
    obtain ⟨k, hk, e1, e2⟩ := key j hj
    simp only [dataOf, drawnPanel, e1, e2, hper]
    rw [List.getElem?_eq_getElem (show t < (covered rows s).length from ht), List.getElem?_eq_getElem hk]
    exact dCell_copy text rows h s k hk _

theorem HasRect.treated_ne {P : Data K} {tp : ℕ} (h : HasRect P tp) : treated P ≠ [] ∧ tp < P.nT := by
  obtain ⟨t0, t1, i0, i1, u00, _⟩ := h
  have hg := u00.2.2.2
  obtain ⟨x, hx⟩ := List.exists_mem_of_ne_nil _ hg
  unfold gaps at hx
  rw [List.mem_filterMap] at hx
  obtain ⟨t, ht, e⟩ := hx
  split_ifs at e with hp
  rw [isPre, decide_eq_true_eq] at hp
  refine ⟨fun hn => ?_, by omega⟩
  have : avgTreated P t = none := by unfold avgTreated; rw [hn]; rfl
  rw [this] at e; cases e

/-- C134. A replicate is the joint estimator, at the selected tuning parameters, on the histories of the drawn units over the periods in which one of them
is observed: it does not matter how the copies are named or sorted, and it is dropped exactly when that fit fails. The effect has to be identified
on the drawn panel. -/
theorem C134_replicate (v : Env K) (hl : LeastSquares v.lstsq) (hr : SqrtLike v.r) (hv : SvdColumns v.svd) (he : ∀ x, 0 < v.e x) (c : Cfg K)
    (text : U → List Char) (rows : List (Row U T K)) (h : OneRowPerCell rows) (tp : ℕ) (l : Lam3 K) (d : List ℕ × List ℕ)
    (hR : HasRect (drawnPanel rows (covered rows (drawn rows d)) (drawn rows d)) tp) :
    replicate v c text rows tp l d = (fitLam v c (drawnPanel rows (covered rows (drawn rows d)) (drawn rows d)) tp l).map (fun f => f.1.tau) := by
  have hs : ∀ u ∈ drawn rows d, u ∈ unitsOf rows := by
    intro u hu
    rcases List.mem_append.1 hu with hu | hu <;> (obtain ⟨k, _, hk⟩ := List.mem_filterMap.1 hu; exact (List.mem_filter.1 (List.mem_of_getElem? hk)).1)
  have ho := reordered text rows h (drawn rows d) hs
  have hn : hasDup (bootRows text rows (drawn rows d)) = false := Trop.hasDup_iff.2 (C134_no_duplicates text rows h _)
  obtain ⟨h1, h2⟩ := HasRect.treated_ne hR
  have h1' : treated (dataOf (bootRows text rows (drawn rows d))) ≠ [] := by
    intro h0
    have := ho.treated
    rw [h0] at this
    exact h1 (List.nil_perm.1 this)
  unfold replicate fitFixed
  rw [hn, if_neg (by simp), if_neg h1', if_neg (by rw [ho.nT]; omega)]
  exact C134_unit_order v hl hr hv he c _ _ _ _ ho tp hR l

/-- C134. If some drawn unit is observed in every period of the data — in a balanced panel, always — the replicate has all periods of the data. -/
theorem C134_all_periods (text : U → List Char) (rows : List (Row U T K)) (s : List U) (u : U) (hu : u ∈ s)
    (h : ∀ t ∈ periodsOf rows, ∃ r ∈ rows, r.unit = u ∧ r.time = t) : periodsOf (bootRows text rows s) = periodsOf rows := by
  rw [C134_periods]
  refine List.filter_eq_self.2 fun t ht => ?_
  obtain ⟨r, hr, h1, h2⟩ := h t ht
  rw [List.any_eq_true]
  exact ⟨r, hr, by simp [h2, h1, hu]⟩

/-! ### Strata -/

theorem everMax_le {rows : List (Row U T K)} {r : Row U T K} (hr : r ∈ rows) {x : K} (hx : r.d = some x) : (x : WithBot K) ≤ everMax rows r.unit :=
  List.le_maximum_of_mem' (List.mem_filterMap.2 ⟨r, List.mem_filter.2 ⟨hr, by simp⟩, hx⟩)

theorem everMax_mem {rows : List (Row U T K)} {u : U} {x : K} (h : everMax rows u = x) : ∃ r ∈ rows, r.unit = u ∧ r.d = some x := by
  have := List.maximum_mem h
  obtain ⟨r, hr, hd⟩ := List.mem_filterMap.1 this
  obtain ⟨h1, h2⟩ := List.mem_filter.1 hr
  exact ⟨r, h1, by simpa using h2, hd⟩

theorem mem_treatedOf {rows : List (Row U T K)} (hb : Binary rows) {u : U} : u ∈ treatedOf rows ↔ ∃ r ∈ rows, r.unit = u ∧ r.d = some 1 := by
  unfold treatedOf
  rw [List.mem_filter, decide_eq_true_eq]
  constructor
  · exact fun h => everMax_mem h.2
  · rintro ⟨r, hr, rfl, hd⟩
    refine ⟨mem_unitsOf.2 ⟨r, hr, rfl⟩, ?_⟩
    have h1 := everMax_le hr hd
    cases hm : everMax rows r.unit with
    | bot => rw [hm] at h1; exact absurd h1 (by simp)
    | coe x =>
      obtain ⟨r', hr', _, hd'⟩ := everMax_mem hm
      rw [hm, WithBot.coe_le_coe] at h1
      rcases hb r' hr' with h | h | h
      · rw [h] at hd'; cases hd'
      · rw [h] at hd'; cases hd'; exact absurd h1 (by norm_num)
      · rw [h] at hd'; cases hd'; rfl

theorem mem_controlOf {rows : List (Row U T K)} (hb : Binary rows) {u : U} :
    u ∈ controlOf rows ↔ (∃ r ∈ rows, r.unit = u ∧ r.d = some 0) ∧ ∀ r ∈ rows, r.unit = u → r.d ≠ some 1 := by
  unfold controlOf
  rw [List.mem_filter, decide_eq_true_eq]
  constructor
  · rintro ⟨_, h⟩
    refine ⟨everMax_mem h, ?_⟩
    rintro r hr rfl hd
    have h1 := everMax_le hr hd
    rw [h, WithBot.coe_le_coe] at h1
    exact absurd h1 (by norm_num)
  · rintro ⟨⟨r, hr, rfl, hd⟩, hno⟩
    refine ⟨mem_unitsOf.2 ⟨r, hr, rfl⟩, ?_⟩
    have h1 := everMax_le hr hd
    cases hm : everMax rows r.unit with
    | bot => rw [hm] at h1; exact absurd h1 (by simp)
    | coe x =>
      obtain ⟨r', hr', hu', hd'⟩ := everMax_mem hm
      rcases hb r' hr' with h | h | h
      · rw [h] at hd'; cases hd'
      · rw [h] at hd'; cases hd'; rfl
      · exact absurd h (hno r' hr' hu')

/-- C134. Resampling keeps the strata: with 0/1 treatment a replicate draws as many never-treated units as the data have with an observed treatment value,
all of them never treated, followed by as many treated units as the data have, all of them treated at some time. -/
theorem C134_strata (rows : List (Row U T K)) (hb : Binary rows) (d : List ℕ × List ℕ) (hd : Draw rows d) :
    (drawn rows d).length = (controlOf rows).length + (treatedOf rows).length ∧
    (∀ u ∈ (drawn rows d).take (controlOf rows).length, (∃ r ∈ rows, r.unit = u ∧ r.d = some 0) ∧ ∀ r ∈ rows, r.unit = u → r.d ≠ some 1) ∧
    (∀ u ∈ (drawn rows d).drop (controlOf rows).length, ∃ r ∈ rows, r.unit = u ∧ r.d = some 1) ∧
    (treatedOf rows).length = ((rows.filter (fun r => decide (r.d = some 1))).map Row.unit).toFinset.card ∧
    (controlOf rows).length = (((rows.filter (fun r => decide (r.d = some 0))).map Row.unit).toFinset \
      ((rows.filter (fun r => decide (r.d = some 1))).map Row.unit).toFinset).card := by
  obtain ⟨h1, h2, h3, h4⟩ := hd
  have len : ∀ (l : List U) (ks : List ℕ), (∀ k ∈ ks, k < l.length) → (ks.filterMap (fun k => l[k]?)).length = ks.length := by
    intro l ks hk
    induction ks with
    | nil => rfl
    | cons a ks ih =>
      rw [List.filterMap_cons, List.getElem?_eq_getElem (hk a (by simp))]
      simp [ih fun k h => hk k (by simp [h])]
  have hlc := len (controlOf rows) d.1 h3
  have hlt := len (treatedOf rows) d.2 h4
  have hU : (unitsOf rows).Nodup := (Trop.unitsOf_sorted rows).imp (fun h => ne_of_lt h)
  refine ⟨by rw [drawn, List.length_append, hlc, hlt, h1, h2], ?_, ?_, ?_, ?_⟩
  · intro u hu
    rw [drawn, ← h1, ← hlc, List.take_left'  rfl] at hu
    obtain ⟨k, _, hk⟩ := List.mem_filterMap.1 hu
    exact (mem_controlOf hb).1 (List.mem_of_getElem? hk)
  · intro u hu
    rw [drawn, ← h1, ← hlc, List.drop_left' rfl] at hu
    obtain ⟨k, _, hk⟩ := List.mem_filterMap.1 hu
    exact (mem_treatedOf hb).1 (List.mem_of_getElem? hk)
  · rw [← List.toFinset_card_of_nodup (show (treatedOf rows).Nodup from hU.filter _)]
    congr 1
    ext u
    rw [List.mem_toFinset]
    show u ∈ treatedOf rows ↔ _
    rw [mem_treatedOf hb]
    simp only [List.mem_toFinset, List.mem_map, List.mem_filter, decide_eq_true_eq]
    exact ⟨fun ⟨r, hr, h, h'⟩ => ⟨r, ⟨hr, h'⟩, h⟩, fun ⟨r, ⟨hr, h'⟩, h⟩ => ⟨r, hr, h, h'⟩⟩
  · rw [← List.toFinset_card_of_nodup (show (controlOf rows).Nodup from hU.filter _)]
    congr 1
    ext u
    rw [List.mem_toFinset]
    show u ∈ controlOf rows ↔ _
    rw [mem_controlOf hb]
    simp only [Finset.mem_sdiff, List.mem_toFinset, List.mem_map, List.mem_filter, decide_eq_true_eq]
    constructor
    · rintro ⟨⟨r, hr, h, h'⟩, hno⟩
      exact ⟨⟨r, ⟨hr, h'⟩, h⟩, fun ⟨r', ⟨hr', hd'⟩, hu'⟩ => hno r' hr' hu' hd'⟩
    · rintro ⟨⟨r, ⟨hr, h'⟩, h⟩, hno⟩
      exact ⟨⟨r, hr, h, h'⟩, fun r' hr' hu' hd' => hno ⟨r', ⟨hr', hd'⟩, hu'⟩⟩

/-! ### Standard error -/

/-- C134. The standard error is the sample standard deviation of the replicates that were kept: 0 if none was, undefined if there is exactly one, and the root of
the sum of squared deviations over the number of replicates minus one otherwise. A warning is raised exactly when fewer than ten were kept. -/
theorem C134_standard_error (v : Env K) (c : Cfg K) (text : U → List Char) (rows : List (Row U T K)) (tp : ℕ) (l : Lam3 K) (draws : List (List ℕ × List ℕ))
    (se : Option K) (xs : List K) (w : Bool) (h : bootVar v c text rows tp l draws = some (se, xs, w)) :
    xs = draws.filterMap (replicate v c text rows tp l) ∧ xs.length ≤ draws.length ∧ (w = true ↔ xs.length < 10) ∧
    (xs = [] → se = some 0) ∧ (xs.length = 1 → se = none) ∧
    (2 ≤ xs.length → ∃ m q, m * (xs.length : K) = xs.sum ∧ q * ((xs.length : K) - 1) = (xs.map (fun x => (x - m) ^ 2)).sum ∧ se = some (v.r q)) := by
  simp only [bootVar] at h
  by_cases h1 : (draws.any fun d => (drawn rows d).isEmpty) = true
  · rw [if_pos h1] at h; cases h
  rw [if_neg h1] at h
  by_cases h2 : draws.filterMap (replicate v c text rows tp l) = []
  · rw [if_pos h2] at h
    have e := Option.some.inj h
    obtain ⟨e1, e2⟩ := Prod.mk.inj e
    obtain ⟨e2, e3⟩ := Prod.mk.inj e2
    subst e1 e2 e3
    simp [h2]
  · rw [if_neg h2] at h
    have e := Option.some.inj h
    obtain ⟨e1, e2⟩ := Prod.mk.inj e
    obtain ⟨e2, e3⟩ := Prod.mk.inj e2
    subst e2
    refine ⟨rfl, List.length_filterMap_le _ _, by rw [← e3, decide_eq_true_eq], fun h0 => absurd h0 h2, fun h0 => ?_, fun h0 => ?_⟩
    · rw [← e1, std1, if_pos (by omega)]
    · rw [← e1, std1, if_neg (by omega)]
      have hc : (2 : K) ≤ ((draws.filterMap (replicate v c text rows tp l)).length : K) := by exact_mod_cast h0
      exact ⟨_, _, div_mul_cancel₀ _ (by linarith), div_mul_cancel₀ _ (by linarith), rfl⟩

/-! ### The compiled bootstrap -/

theorem filter_positions {α : Type*} (l : List α) (p : α → Bool) (q : ℕ → Bool) (h : ∀ i (hi : i < l.length), q i = p l[i]) :
    ((List.range l.length).filter q).map (fun i => l[i]?) = (l.filter p).map some := by
  induction l using List.reverseRecOn with
  | nil => rfl
  | append_singleton l a ih =>
    have h' : ∀ i (hi : i < l.length), q i = p l[i] := by
      intro i hi
      have := h i (by simp; omega)
      rwa [List.getElem_append_left hi] at this
    have hl := h l.length (by simp)
    rw [List.getElem_concat_length rfl] at hl
    rw [List.length_append, List.length_singleton, List.range_succ, List.filter_append, List.filter_append, List.map_append, List.map_append, ← ih h']
    congr 1
    · refine List.map_congr_left fun i hi => ?_
      rw [List.getElem?_append_left (List.mem_range.1 (List.mem_filter.1 hi).1)]
    · by_cases hp : p a = true
      · rw [List.filter_cons_of_pos (by rw [hl]; exact hp), List.filter_cons_of_pos hp]; simp
      · rw [List.filter_cons_of_neg (by rw [hl]; exact hp), List.filter_cons_of_neg hp]; rfl

theorem dataOf_treated {rows : List (Row U T K)} (h : OneRowPerCell rows) (hb : Binary rows) (i : ℕ) (hi : i < (unitsOf rows).length) :
    (List.range (dataOf rows).nT).any (fun t => decide ((dataOf rows).D t i = 1)) = true ↔ ∃ r ∈ rows, r.unit = (unitsOf rows)[i] ∧ r.d = some 1 := by
  rw [List.any_eq_true]
  constructor
  · rintro ⟨t, ht, e⟩
    rw [List.mem_range] at ht
    rw [decide_eq_true_eq] at e
    simp only [dataOf] at ht e
    rw [List.getElem?_eq_getElem ht, List.getElem?_eq_getElem hi] at e
    simp only [dCell, Trop.dRaw] at e
    cases hc : cell rows (periodsOf rows)[t] (unitsOf rows)[i] with
    | none => rw [hc] at e; cases e
    | some r =>
      obtain ⟨h1, h2, _⟩ := Trop.cell_some hc
      rw [hc] at e
      refine ⟨r, h1, h2, ?_⟩
      rcases hb r h1 with h | h | h
      · rw [Option.bind_some, h] at e; cases e
      · rw [Option.bind_some, h] at e; simp only [Trop.trunc_zero] at e; cases e
      · exact h
  · rintro ⟨r, hr, hu, hd⟩
    obtain ⟨t, ht, e⟩ := List.mem_iff_getElem.1 (mem_periodsOf.2 ⟨r, hr, rfl⟩)
    refine ⟨t, List.mem_range.2 ht, ?_⟩
    rw [decide_eq_true_eq]
    simp only [dataOf]
    rw [List.getElem?_eq_getElem ht, List.getElem?_eq_getElem hi]
    simp only [dCell, Trop.dRaw]
    rw [e, ← hu, Trop.cell_row h hr, Option.bind_some, hd]
    exact Trop.trunc_one

theorem sample_units {l : List U} {co : List ℕ} {f : List U} (h : co.map (fun i => l[i]?) = f.map some) (ks : List ℕ) (hk : ∀ k ∈ ks, k < f.length) :
    ks.map (fun k => l[co.getD k 0]?) = (ks.filterMap (fun k => f[k]?)).map some := by
  have hlen : co.length = f.length := by simpa using congrArg List.length h
  induction ks with
  | nil => rfl
  | cons k ks ih =>
    have hk0 := hk k (by simp)
    have hg := congrArg (fun m => m[k]?) h
    simp only [List.getElem?_map] at hg
    rw [List.getElem?_eq_getElem (by omega : k < co.length), List.getElem?_eq_getElem hk0] at hg
    simp only [Option.map_some, Option.some.injEq] at hg
    rw [List.map_cons, List.filterMap_cons, List.getElem?_eq_getElem hk0, ih fun k h => hk k (by simp [h])]
    rw [List.getD_eq_getElem _ _ (by omega : k < co.length), hg]
    rfl

/-- C134. Both backends resample the same units for the same draws: if every unit has an observed treatment value, the panel of the drawn units over all periods is
the resampled panel of the compiled bootstrap, cell by cell. -/
theorem C134_same_panel (rows : List (Row U T K)) (h : OneRowPerCell rows) (hb : Binary rows) (ho : ∀ u ∈ unitsOf rows, ∃ r ∈ rows, r.unit = u ∧ r.d ≠ none)
    (d : List ℕ × List ℕ) (hd : Draw rows d) :
    (drawnPanel rows (periodsOf rows) (drawn rows d)).nT = (TropRust.bootPanel (dataOf rows) (TropJointRust.sampled (dataOf rows) d.1 d.2)).nT ∧
    (drawnPanel rows (periodsOf rows) (drawn rows d)).nN = (TropRust.bootPanel (dataOf rows) (TropJointRust.sampled (dataOf rows) d.1 d.2)).nN ∧
    ∀ t, ∀ k < (drawn rows d).length,
      (drawnPanel rows (periodsOf rows) (drawn rows d)).Y t k = (TropRust.bootPanel (dataOf rows) (TropJointRust.sampled (dataOf rows) d.1 d.2)).Y t k ∧
      (drawnPanel rows (periodsOf rows) (drawn rows d)).D t k = (TropRust.bootPanel (dataOf rows) (TropJointRust.sampled (dataOf rows) d.1 d.2)).D t k := by
  obtain ⟨_, _, h3, h4⟩ := hd
  have ht : (TropFit.treatedUnits (dataOf rows)).map (fun i => (unitsOf rows)[i]?) = (treatedOf rows).map some := by
    refine filter_positions (unitsOf rows) _ _ fun i hi => ?_
    rw [Bool.eq_iff_iff, dataOf_treated h hb i hi, ← mem_treatedOf hb]
    unfold treatedOf
    rw [List.mem_filter]
    exact ⟨fun h => h.2, fun h => ⟨List.getElem_mem hi, h⟩⟩
  have hc : ((List.range (dataOf rows).nN).filter (fun i => !(List.range (dataOf rows).nT).any (fun t => decide ((dataOf rows).D t i = 1)))).map
      (fun i => (unitsOf rows)[i]?) = (controlOf rows).map some := by
    refine filter_positions (unitsOf rows) _ _ fun i hi => ?_
    have hm : decide (everMax rows (unitsOf rows)[i] = ((0 : K) : WithBot K)) = true ↔ (unitsOf rows)[i] ∈ controlOf rows := by
      unfold controlOf
      rw [List.mem_filter]
      exact ⟨fun h => ⟨List.getElem_mem hi, h⟩, fun h => h.2⟩
    rw [Bool.eq_iff_iff, hm, mem_controlOf hb, Bool.not_eq_true', ← Bool.not_eq_true, dataOf_treated h hb i hi]
    constructor
    · intro hno
      refine ⟨?_, fun r hr hu hd => hno ⟨r, hr, hu, hd⟩⟩
      obtain ⟨r, hr, hu, hd⟩ := ho _ (List.getElem_mem hi)
      rcases hb r hr with h | h | h
      · exact absurd h hd
      · exact ⟨r, hr, hu, h⟩
      · exact absurd ⟨r, hr, hu, h⟩ hno
    · rintro ⟨_, hno⟩ ⟨r, hr, hu, hd⟩
      exact hno r hr hu hd
  have hall : (TropJointRust.sampled (dataOf rows) d.1 d.2).map (fun i => (unitsOf rows)[i]?) = (drawn rows d).map some := by
    simp only [TropJointRust.sampled, drawn]
    rw [List.map_append, List.map_append, List.map_map, List.map_map, ← sample_units hc d.1 h3, ← sample_units ht d.2 h4]
    rfl
  have hlen : (TropJointRust.sampled (dataOf rows) d.1 d.2).length = (drawn rows d).length := by simpa using congrArg List.length hall
  have cells : ∀ k < (drawn rows d).length, (unitsOf rows)[(TropJointRust.sampled (dataOf rows) d.1 d.2).getD k 0]? = (drawn rows d)[k]? := by
    intro k hk
    have hg := congrArg (fun m => m[k]?) hall
    simp only [List.getElem?_map] at hg
    rw [List.getElem?_eq_getElem (by omega : k < (TropJointRust.sampled (dataOf rows) d.1 d.2).length), List.getElem?_eq_getElem hk] at hg
    simp only [Option.map_some, Option.some.injEq] at hg
    rw [List.getD_eq_getElem _ _ (by omega), hg, List.getElem?_eq_getElem hk]
  refine ⟨rfl, hlen.symm, fun t k hk => ⟨?_, ?_⟩⟩
  · have e : ∀ t i, (dataOf rows).Y t i = match (periodsOf rows)[t]?, (unitsOf rows)[i]? with
      | some a, some u => yCell rows a u
      | _, _ => none := fun _ _ => rfl
    simp only [drawnPanel, TropRust.bootPanel, e]
    rw [cells k hk]
  · have e : ∀ t i, (dataOf rows).D t i = match (periodsOf rows)[t]?, (unitsOf rows)[i]? with
      | some a, some u => dCell rows a u
      | _, _ => 0 := fun _ _ => rfl
    simp only [drawnPanel, TropRust.bootPanel, e]
    rw [cells k hk]

/-- C134. If some drawn unit is observed in every period, a replicate is the joint estimator at the selected tuning parameters on the panel that the compiled
bootstrap resamples for the same draws. -/
theorem C134_balanced (v : Env K) (hl : LeastSquares v.lstsq) (hr : SqrtLike v.r) (hv : SvdColumns v.svd) (he : ∀ x, 0 < v.e x) (c : Cfg K)
    (text : U → List Char) (rows : List (Row U T K)) (h : OneRowPerCell rows) (hb : Binary rows)
    (ho : ∀ u ∈ unitsOf rows, ∃ r ∈ rows, r.unit = u ∧ r.d ≠ none) (tp : ℕ) (l : Lam3 K) (d : List ℕ × List ℕ) (hd : Draw rows d)
    (u : U) (hu : u ∈ drawn rows d) (hp : ∀ t ∈ periodsOf rows, ∃ r ∈ rows, r.unit = u ∧ r.time = t)
    (hR : HasRect (TropRust.bootPanel (dataOf rows) (TropJointRust.sampled (dataOf rows) d.1 d.2)) tp) :
    replicate v c text rows tp l d =
      (fitLam v c (TropRust.bootPanel (dataOf rows) (TropJointRust.sampled (dataOf rows) d.1 d.2)) tp l).map (fun f => f.1.tau) := by
  obtain ⟨h1, h2, h3⟩ := C134_same_panel rows h hb ho d hd
  have hcov : covered rows (drawn rows d) = periodsOf rows := by
    rw [← C134_periods text]; exact C134_all_periods text rows _ u hu hp
  have hs : ∀ u ∈ drawn rows d, u ∈ unitsOf rows := by
    intro u hu
    rcases List.mem_append.1 hu with hu | hu <;> (obtain ⟨k, _, hk⟩ := List.mem_filterMap.1 hu; exact (List.mem_filter.1 (List.mem_of_getElem? hk)).1)
  have ho' := reordered text rows h (drawn rows d) hs
  rw [hcov] at ho'
  have hn : hasDup (bootRows text rows (drawn rows d)) = false := Trop.hasDup_iff.2 (C134_no_duplicates text rows h _)
  have ho2 : Reordered (TropRust.bootPanel (dataOf rows) (TropJointRust.sampled (dataOf rows) d.1 d.2)) (dataOf (bootRows text rows (drawn rows d))) _ _ :=
    ⟨ho'.nT.trans h1, ho'.nN.trans h2, h2 ▸ ho'.inv, fun t ht j hj => by
      rw [ho'.Y t (by rw [h1]; exact ht) j (by rw [h2]; exact hj), (h3 t _ (ho'.inv.lt j (by rw [h2]; exact hj))).1], fun t ht j hj => by
      rw [ho'.D t (by rw [h1]; exact ht) j (by rw [h2]; exact hj), (h3 t _ (ho'.inv.lt j (by rw [h2]; exact hj))).2]⟩
  obtain ⟨g1, g2⟩ := HasRect.treated_ne hR
  have g1' : treated (dataOf (bootRows text rows (drawn rows d))) ≠ [] := by
    intro h0
    have := ho2.treated
    rw [h0] at this
    exact g1 (List.nil_perm.1 this)
  unfold replicate fitFixed
  rw [hn, if_neg (by simp), if_neg g1', if_neg (by rw [ho2.nT]; omega)]
  exact C134_unit_order v hl hr hv he c _ _ _ _ ho2 tp hR l

/-- Without a period before the fixed number of treated periods the fit is refused. -/
theorem fitFixed_short (v : Env K) (c : Cfg K) (rows : List (Row U T K)) (tp : ℕ) (l : Lam3 K) (h : (periodsOf rows).length ≤ tp) :
    fitFixed v c rows tp l = none := by
  unfold fitFixed
  by_cases h1 : hasDup rows = true
  · rw [if_pos h1]
  rw [if_neg h1]
  by_cases h2 : treated (dataOf rows) = []
  · rw [if_pos h2]
  rw [if_neg h2, if_pos (show (dataOf rows).nT ≤ tp from h)]

end

/-! ### Counterexamples -/

/-- Unit 0 never treated, periods 0-2; unit 1 treated from period 2 on, periods 0-2; unit 2 treated from period 2 on, periods 0-4. -/
def short : List (Row ℕ ℕ ℚ) :=
  [⟨0, 0, some 1, some 0⟩, ⟨0, 1, some 2, some 0⟩, ⟨0, 2, some 3, some 0⟩, ⟨1, 0, some 1, some 0⟩, ⟨1, 1, some 2, some 0⟩, ⟨1, 2, some 8, some 1⟩,
   ⟨2, 0, some 1, some 0⟩, ⟨2, 1, some 2, some 0⟩, ⟨2, 2, some 8, some 1⟩, ⟨2, 3, some 9, some 1⟩, ⟨2, 4, some 10, some 1⟩]

/-- C134, refuted: a draw of the units can lose periods of an unbalanced panel while the number of treated periods stays that of the whole data. Here the
draw 0, 1, 1 leaves periods 0 to 2 and three treated periods, so no period counts as before treatment and the replicate is dropped, although the drawn units
identify the effect and the compiled bootstrap computes it, on the same units. -/
theorem C134_window_refuted : OneRowPerCell short ∧ Binary short ∧ TropJointRust.treatedPeriods (dataOf short) = 3 ∧ Draw short ([0], [0, 0]) ∧
    drawn short ([0], [0, 0]) = [0, 1, 1] ∧
    (∀ (v : Env ℚ) (c : Cfg ℚ) (text : ℕ → List Char) (l : Lam3 ℚ), replicate v c text short 3 l ([0], [0, 0]) = none) ∧
    HasRect (drawnPanel short (periodsOf short) [0, 1, 1]) 3 ∧
    HasRect (TropRust.bootPanel (dataOf short) (TropJointRust.sampled (dataOf short) [0] [0, 0])) 3 := by
  refine ⟨by unfold OneRowPerCell; decide +kernel, ?_, by decide +kernel, ?_, by decide +kernel, ?_, ?_, ?_⟩
  · unfold Binary; decide +kernel
  · unfold Draw; decide +kernel
  · intro v c text l
    have e : (covered short (drawn short ([0], [0, 0]))).length = 3 := by decide +kernel
    exact fitFixed_short v c (bootRows text short (drawn short ([0], [0, 0]))) 3 l (by rw [C134_periods, e])
  · refine ⟨0, 2, 0, 1, ?_⟩
    unfold Usable; decide +kernel
  · refine ⟨0, 2, 0, 1, ?_⟩
    unfold Usable; decide +kernel

/-- Unit 0 never treated; unit 1 with outcomes but no treatment values; unit 2 treated in period 2. -/
def silent : List (Row ℕ ℕ ℚ) :=
  [⟨0, 0, some 1, some 0⟩, ⟨0, 1, some 2, some 0⟩, ⟨0, 2, some 3, some 0⟩, ⟨1, 0, some 1, none⟩, ⟨1, 1, some 2, none⟩, ⟨1, 2, some 8, none⟩,
   ⟨2, 0, some 1, some 0⟩, ⟨2, 1, some 2, some 0⟩, ⟨2, 2, some 8, some 1⟩]

/-- C134, refuted: a unit whose treatment is missing throughout is a control unit of the fit, but no replicate contains it: the bootstrap resamples fewer units
than were estimated on. -/
theorem C134_undrawn_refuted : (∃ P, Trop.prepare silent = .ok P ∧ P.controls = [0, 1] ∧ P.treated = [2]) ∧ controlOf silent = [0] ∧ treatedOf silent = [2] ∧
    (∀ d, Draw silent d → 1 ∉ drawn silent d ∧ (drawn silent d).length = 2) ∧ (unitsOf silent).length = 3 := by
  have hc : controlOf silent = [0] := by decide +kernel
  have ht : treatedOf silent = [2] := by decide +kernel
  refine ⟨?_, hc, ht, ?_, by decide +kernel⟩
  · have h : (match Trop.prepare silent with | .ok P => decide (P.controls = [0, 1] ∧ P.treated = [2]) | .error _ => false) = true := by decide +kernel
    cases hp : Trop.prepare silent with
    | error e => rw [hp] at h; cases h
    | ok P => rw [hp] at h; exact ⟨P, rfl, (of_decide_eq_true h).1, (of_decide_eq_true h).2⟩
  · intro d hd
    have hb : Binary silent := by unfold Binary; decide +kernel
    refine ⟨fun h1 => ?_, by rw [(C134_strata silent hb d hd).1, hc, ht]; rfl⟩
    rcases List.mem_append.1 h1 with h | h
    · obtain ⟨k, _, hk⟩ := List.mem_filterMap.1 h
      have := List.mem_of_getElem? hk
      rw [hc] at this; revert this; decide
    · obtain ⟨k, _, hk⟩ := List.mem_filterMap.1 h
      have := List.mem_of_getElem? hk
      rw [ht] at this; revert this; decide

/-! ### Instances -/

/-- Labels of copies: a unit named `a_1` drawn first and a unit named `a` drawn second do not collide with each other or with a second copy. -/
example : label (fun u : ℕ => if u = 0 then ['a', '_', '1'] else ['a']) 0 0 = ['a', '_', '1', '_', '0'] ∧
    label (fun u : ℕ => if u = 0 then ['a', '_', '1'] else ['a']) 1 1 = ['a', '_', '1'] := by decide +kernel

/-- Hypotheses of `C134_replicate` and `C134_same_panel`, with a unit drawn twice, copies whose labels sort differently from the draw order, and the full
window of periods. -/
example : ∃ rows : List (Row ℕ ℕ ℚ), OneRowPerCell rows ∧ Binary rows ∧ (∀ u ∈ unitsOf rows, ∃ r ∈ rows, r.unit = u ∧ r.d ≠ none) ∧
    Draw rows ([1, 0], [0]) ∧ drawn rows ([1, 0], [0]) = [1, 0, 2] ∧
    unitsOf (bootRows (Nat.toDigits 10) rows [1, 0, 2]) = [['0', '_', '1'], ['1', '_', '0'], ['2', '_', '2']] ∧
    HasRect (drawnPanel rows (covered rows (drawn rows ([1, 0], [0]))) (drawn rows ([1, 0], [0]))) 1 := by
  refine ⟨[⟨0, 0, some 1, some 0⟩, ⟨0, 1, some 2, some 0⟩, ⟨0, 2, some 3, some 0⟩, ⟨1, 0, some 1, some 0⟩, ⟨1, 1, some 2, none⟩, ⟨1, 2, none, some 0⟩,
   ⟨2, 0, some 1, some 0⟩, ⟨2, 1, some 2, some 0⟩, ⟨2, 2, some 8, some 1⟩], ?_⟩
  refine ⟨by unfold OneRowPerCell; decide +kernel, by unfold Binary; decide +kernel, by decide +kernel, by unfold Draw; decide +kernel, by decide +kernel,
    by decide +kernel, 0, 2, 1, 2, ?_⟩
  unfold Usable; decide +kernel

/-- Numerical routines as assumed by `C134_unit_order` and `C134_replicate` exist. -/
example : ∃ ls, LeastSquares (vR ls).lstsq ∧ SqrtLike (vR ls).r ∧ SvdColumns (vR ls).svd ∧ ∀ x, 0 < (vR ls).e x := by
  obtain ⟨ls, hl⟩ := exists_leastSquares (K := ℝ)
  exact ⟨ls, hl, vR_sqrt ls, fun _ _ _ _ _ _ _ _ h => h, vR_pos ls⟩

end DiffDiff.TropBoot
