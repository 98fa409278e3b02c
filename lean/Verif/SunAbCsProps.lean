/-
Property C136: on balanced panels the Sun-Abraham cohort effects are the Callaway-Sant'Anna group-time effects.
-/
import Verif.SunAbIdProps
import Verif.CSAggProps

set_option linter.unusedSectionVars false

namespace DiffDiff.SunAb

open CS (Coh Cfg Panel Entry)

variable {K : Type*} [Field K] [LinearOrder K] [IsStrictOrderedRing K]

/-! ### Specification -/

/-- Mean outcome of a list of rows. -/
def rowMean (l : List (Row K)) : K := (l.map (fun r => r.y.getD 0)).sum / (l.length : K)

/-- Rows of a period whose cohort satisfies `p`. -/
def cell (df : List (Row K)) (p : Coh → Bool) (t : ℤ) : List (Row K) :=
  df.filter (fun r => decide (r.time = t) && p r.cohort)

/-- Difference in differences of cell means: cohort `g` against the never-treated, period `t` against period `b`. -/
def did (df : List (Row K)) (g b t : ℤ) : K :=
  (rowMean (cell df (fun c => decide (c = .num g)) t) - rowMean (cell df (fun c => decide (c = .num g)) b)) -
    (rowMean (cell df Coh.isNever t) - rowMean (cell df Coh.isNever b))

/-- What Callaway-Sant'Anna makes of the same data frame (staggered.py 396-409): cohort of each unit, sorted periods,
outcomes pivoted by unit and period. Units are in order of appearance rather than sorted. -/
def pivot (df : List (Row K)) : Panel (units df).length K where
  cohort := fun i => unitCohort df ((units df).get i)
  times := (df.map (fun r => r.time)).dedup.insertionSort (· ≤ ·)
  y := fun i t => (df.find? (fun r => decide (r.unit = (units df).get i) && decide (r.time = t))).bind (fun r => r.y)

/-! ### Sums over a balanced panel -/

theorem count_swap (l : List (Row K)) (u : ℕ) (t : ℤ) :
    ((l.filter (fun s => decide (s.time = t))).map (fun r => r.unit)).count u =
    ((l.filter (fun s => decide (s.unit = u))).map (fun r => r.time)).count t := by
  induction l with
  | nil => rfl
  | cons r rs ih =>
    by_cases h1 : r.time = t <;> by_cases h2 : r.unit = u <;>
      simp [List.filter_cons, h1, h2, ih]

theorem Grid.nodupU {df : List (Row K)} {U : List ℕ} {T : List ℤ} (hG : Grid df U T) {t : ℤ} (ht : t ∈ T) : U.Nodup := by
  rw [← (hG.col t ht).nodup_iff, List.nodup_iff_count_le_one]
  intro u
  rw [count_swap]
  by_cases hu : u ∈ U
  · rw [(hG.row u hu).count_eq]
    exact List.nodup_iff_count_le_one.1 hG.nodupT t
  · have : df.filter (fun s => decide (s.unit = u)) = [] := by
      rw [List.filter_eq_nil_iff]
      intro r hr h
      rw [decide_eq_true_eq] at h
      exact hu (h ▸ (hG.mem r hr).1)
    rw [this]
    simp

theorem Grid.unique {df : List (Row K)} {U : List ℕ} {T : List ℤ} (hG : Grid df U T) {r s : Row K} (hr : r ∈ df)
    (hs : s ∈ df) (h1 : r.unit = s.unit) (h2 : r.time = s.time) : r = s := by
  have hn := ((hG.row r.unit (hG.mem r hr).1).nodup_iff).2 hG.nodupT
  exact List.inj_on_of_nodup_map hn (List.mem_filter.2 ⟨hr, by simp⟩) (List.mem_filter.2 ⟨hs, by simp [h1]⟩) h2

/-- Outcome of a unit in a period. -/
def look (df : List (Row K)) (u : ℕ) (t : ℤ) : Option K :=
  (df.find? (fun r => decide (r.unit = u) && decide (r.time = t))).bind (fun r => r.y)

theorem look_row {df : List (Row K)} {U : List ℕ} {T : List ℤ} (hG : Grid df U T) {r : Row K} (hr : r ∈ df) :
    look df r.unit r.time = r.y := by
  unfold look
  cases hf : df.find? (fun s => decide (s.unit = r.unit) && decide (s.time = r.time)) with
  | none =>
    rw [List.find?_eq_none] at hf
    exact absurd (by simp) (hf r hr)
  | some s =>
    have h1 := List.mem_of_find?_eq_some hf
    have h2 := List.find?_some hf
    simp only [Bool.and_eq_true, decide_eq_true_eq] at h2
    rw [hG.unique h1 hr h2.1 h2.2]
    rfl

theorem sum_row {df : List (Row K)} {U : List ℕ} {T : List ℤ} (hG : Grid df U T) (F : ℕ → ℤ → K) {u : ℕ} (hu : u ∈ U) :
    ((df.filter (fun s => decide (s.unit = u))).map (fun s => F s.unit s.time)).sum = ∑ t ∈ T.toFinset, F u t := by
  have h1 : (df.filter (fun s => decide (s.unit = u))).map (fun s => F s.unit s.time) =
      ((df.filter (fun s => decide (s.unit = u))).map (fun s => s.time)).map (F u) := by
    rw [List.map_map]
    apply List.map_congr_left
    intro s hs
    have := (List.mem_filter.1 hs).2
    rw [decide_eq_true_eq] at this
    show F s.unit s.time = F u s.time
    rw [this]
  rw [h1, ((hG.row u hu).map (F u)).sum_eq, List.sum_toFinset _ hG.nodupT]

theorem sum_col {df : List (Row K)} {U : List ℕ} {T : List ℤ} (hG : Grid df U T) (F : ℕ → ℤ → K) {t : ℤ} (ht : t ∈ T) :
    ((df.filter (fun s => decide (s.time = t))).map (fun s => F s.unit s.time)).sum = ∑ u ∈ U.toFinset, F u t := by
  have h1 : (df.filter (fun s => decide (s.time = t))).map (fun s => F s.unit s.time) =
      ((df.filter (fun s => decide (s.time = t))).map (fun s => s.unit)).map (fun u => F u t) := by
    rw [List.map_map]
    apply List.map_congr_left
    intro s hs
    have := (List.mem_filter.1 hs).2
    rw [decide_eq_true_eq] at this
    show F s.unit s.time = F s.unit t
    rw [this]
  rw [h1, ((hG.col t ht).map (fun u => F u t)).sum_eq, List.sum_toFinset _ (hG.nodupU ht)]

theorem sum_all {df : List (Row K)} {U : List ℕ} {T : List ℤ} (hG : Grid df U T) (F : ℕ → ℤ → K) :
    (df.map (fun s => F s.unit s.time)).sum = ∑ t ∈ T.toFinset, ∑ u ∈ U.toFinset, F u t := by
  rw [sum_by_time df T hG.nodupT (fun s hs => (hG.mem s hs).2), List.sum_toFinset _ hG.nodupT]
  exact congrArg List.sum (List.map_congr_left (fun t ht => sum_col hG F ht))

theorem sum_filter_ite {α : Type*} (l : List α) (q : α → Bool) (x : α → K) :
    ((l.filter q).map x).sum = (l.map (fun a => if q a then x a else 0)).sum := by
  induction l with
  | nil => rfl
  | cons a as ih =>
    rw [List.filter_cons]
    by_cases h : q a = true
    · simp [h, ih]
    · simp [h, ih]

/-- The mean of a cell as a mean over units. -/
theorem rowMean_cell {df : List (Row K)} {U : List ℕ} {T : List ℤ} (hG : Grid df U T) (co : ℕ → Coh)
    (hco : ∀ r ∈ df, r.cohort = co r.unit) (p : Coh → Bool) {t : ℤ} (ht : t ∈ T) :
    rowMean (cell df p t) = CS.mean (U.toFinset.filter (fun u => p (co u) = true)) (fun u => (look df u t).getD 0) := by
  have hc : cell df p t = (df.filter (fun r => decide (r.time = t))).filter (fun r => p r.cohort) := by
    unfold cell
    rw [List.filter_filter]
    congr 1
    funext r
    exact Bool.and_comm _ _
  have hx : ∀ x : Row K → K, ∀ F : ℕ → ℤ → K, (∀ r ∈ df, x r = F r.unit r.time) →
      ((cell df p t).map x).sum = ∑ u ∈ U.toFinset.filter (fun u => p (co u) = true), F u t := by
    intro x F hxF
    rw [hc, sum_filter_ite, Finset.sum_filter, ← sum_col hG (fun u s => if p (co u) = true then F u s else 0) ht]
    apply congrArg List.sum
    apply List.map_congr_left
    intro r hr
    have hr' := (List.mem_filter.1 hr).1
    rw [hco r hr', hxF r hr']
  unfold rowMean CS.mean
  congr 1
  · exact hx (fun r => r.y.getD 0) (fun u s => (look df u s).getD 0) (fun r hr => by rw [look_row hG hr])
  · have := hx (fun _ => 1) (fun _ _ => 1) (fun _ _ => rfl)
    rw [List.map_const', List.sum_replicate, nsmul_eq_mul, mul_one] at this
    rw [this]
    simp

theorem within_grid {df : List (Row K)} {U : List ℕ} {T : List ℤ} (hG : Grid df U T) (F : ℕ → ℤ → K) {r : Row K}
    (hr : r ∈ df) : within df (fun s => F s.unit s.time) r = F r.unit r.time -
      (∑ t ∈ T.toFinset, F r.unit t) / (T.toFinset.card : K) - (∑ u ∈ U.toFinset, F u r.time) / (U.toFinset.card : K) +
      (∑ t ∈ T.toFinset, ∑ u ∈ U.toFinset, F u t) / ((T.toFinset.card : K) * (U.toFinset.card : K)) := by
  obtain ⟨hu, ht⟩ := hG.mem r hr
  have e : ∀ l : List (Row K), (l.length : K) = (l.map (fun _ => (1 : K))).sum := by
    intro l
    rw [List.map_const', List.sum_replicate, nsmul_eq_mul, mul_one]
  unfold within
  simp only
  rw [sum_row hG F hu, sum_col hG F ht, sum_all hG F, e, e, e, sum_row hG (fun _ _ => 1) hu, sum_col hG (fun _ _ => 1) ht,
    sum_all hG (fun _ _ => 1)]
  simp

/-! ### Residuals from cell means -/

section Residuals

variable (S : Finset ℕ) (Q : Finset ℤ) (Y : ℕ → ℤ → K) (cl : ℕ → Option ℤ)

/-- Mean of a class of units in a period. -/
def clMean (p : Option ℤ) (t : ℤ) : K := CS.mean (S.filter (fun u => cl u = p)) (fun u => Y u t)

/-- Deviation from the cell mean. -/
def dev (u : ℕ) (t : ℤ) : K := Y u t - clMean S Y cl (cl u) t

/-- Deviation from the cell mean, centred by unit. -/
def eps (u : ℕ) (t : ℤ) : K := dev S Y cl u t - (∑ s ∈ Q, dev S Y cl u s) / (Q.card : K)

theorem dev_sum (h : Option ℤ → K) (t : ℤ) : ∑ u ∈ S, h (cl u) * dev S Y cl u t = 0 := by
  rw [← Finset.sum_fiberwise_of_maps_to (t := S.image cl) (g := cl) (fun u hu => Finset.mem_image_of_mem _ hu)]
  apply Finset.sum_eq_zero
  intro p hp
  obtain ⟨v, hv, hvp⟩ := Finset.mem_image.1 hp
  have h1 : ∀ u ∈ S.filter (fun u => cl u = p), h (cl u) * dev S Y cl u t = h p * (Y u t - clMean S Y cl p t) := by
    intro u hu
    have := (Finset.mem_filter.1 hu).2
    unfold dev
    rw [this]
  have hc : ((S.filter (fun u => cl u = p)).card : K) ≠ 0 := by
    have : (S.filter (fun u => cl u = p)).card ≠ 0 := by
      rw [Finset.card_ne_zero]
      exact ⟨v, Finset.mem_filter.2 ⟨hv, hvp⟩⟩
    exact_mod_cast this
  rw [Finset.sum_congr rfl h1, ← Finset.mul_sum, Finset.sum_sub_distrib, Finset.sum_const, nsmul_eq_mul]
  unfold clMean CS.mean
  rw [mul_div_cancel₀ _ hc, sub_self, mul_zero]

theorem eps_sum (h : Option ℤ → K) (t : ℤ) : ∑ u ∈ S, h (cl u) * eps S Q Y cl u t = 0 := by
  unfold eps
  simp only [mul_sub, Finset.sum_sub_distrib, dev_sum, zero_sub, neg_eq_zero]
  simp only [← mul_div_assoc, ← Finset.sum_div, Finset.mul_sum]
  rw [Finset.sum_comm]
  simp only [dev_sum, Finset.sum_const_zero, zero_div]

end Residuals

/-! ### The regression -/

/-- Class of a cohort: its value, or `none` for never-treated. -/
abbrev cls (c : Coh) : Option ℤ := finPos c

theorem ssr_design (df : List (Row K)) (ks : List Key) (w : Row K → K) (β : Key → K) :
    ssr (design df ks) (df.map w) (ks.map β) = (df.map (fun r => (w r - within df (lin ks β) r) ^ 2)).sum := by
  unfold ssr
  apply congrArg List.sum
  apply List.ext_getElem
  · simp
  · intro i h1 h2
    have hi : i < df.length := by simpa using h2
    rw [List.getElem_map, List.getElem_map, List.getElem_range, predict_design df ks β i hi,
      List.getD_eq_getElem _ _ (by simpa using hi), List.getElem_map]

/-- Balanced data frame, cohort constant per unit, never-treated or a positive cohort that is observed in its reference
period, outcomes observed. -/
structure Base (ant : ℤ) (df : List (Row K)) (U : List ℕ) (T : List ℤ) (co : ℕ → Coh) : Prop where
  grid : Grid df U T
  cohort : ∀ r ∈ df, r.cohort = co r.unit
  value : ∀ r ∈ df, r.cohort.isNever = true ∨ ∃ g, 0 < g ∧ r.cohort = .num g ∧ g - 1 - ant ∈ T
  observed : ∀ r ∈ df, r.y.isSome = true

/-- The data frames considered: as above, with all event times within the 20 periods for which there are columns. -/
structure Regular (ant : ℤ) (df : List (Row K)) (U : List ℕ) (T : List ℤ) (co : ℕ → Coh) : Prop
    extends Base ant df U T co where
  horizon : ∀ r ∈ df, ∀ e, relTime r = some e → -20 ≤ e ∧ e ≤ 20

theorem Base.sample {ant : ℤ} {df : List (Row K)} {U : List ℕ} {T : List ℤ} {co : ℕ → Coh} (h : Base ant df U T co)
    (c : Control) : sample c df = df := by
  cases c with
  | notYet => rfl
  | never =>
    unfold SunAb.sample
    rw [List.filter_eq_self]
    intro r hr
    rcases h.value r hr with h | ⟨g, hg, h, _⟩
    · rw [h]; rfl
    · rw [h]; simp [Coh.isNever, Coh.pos, hg]

theorem finPos_never {c : Coh} (h : c.isNever = true) : finPos c = none := by
  cases c with
  | num z => simp [Coh.isNever] at h; simp [finPos, h]
  | inf => rfl
  | nan => rfl

theorem Base.ref {ant : ℤ} {df : List (Row K)} {U : List ℕ} {T : List ℤ} {co : ℕ → Coh} (h : Base ant df U T co)
    {r : Row K} (hr : r ∈ df) {g : ℤ} (hg : finPos r.cohort = some g) : 0 < g ∧ r.cohort = .num g ∧ g - 1 - ant ∈ T := by
  rcases h.value r hr with h' | ⟨g', h1, h', hT⟩
  · rw [finPos_never h'] at hg; cases hg
  · rw [h'] at hg
    simp [finPos] at hg
    rw [← hg.2]
    exact ⟨h1, h', hT⟩

theorem Base.never {ant : ℤ} {df : List (Row K)} {U : List ℕ} {T : List ℤ} {co : ℕ → Coh} (h : Base ant df U T co)
    {r : Row K} (hr : r ∈ df) : finPos r.cohort = none ↔ r.cohort.isNever = true := by
  constructor
  · intro hn
    rcases h.value r hr with h' | ⟨g', h1, h', hT⟩
    · exact h'
    · rw [h'] at hn
      simp [finPos] at hn
      omega
  · exact finPos_never

/-- Every unit has a row in every period. -/
theorem Grid.cell {df : List (Row K)} {U : List ℕ} {T : List ℤ} (hG : Grid df U T) {u : ℕ} (hu : u ∈ U) {t : ℤ}
    (ht : t ∈ T) : ∃ r ∈ df, r.unit = u ∧ r.time = t := by
  have := (hG.row u hu).mem_iff.2 ht
  obtain ⟨r, hr, hrt⟩ := List.mem_map.1 this
  obtain ⟨h1, h2⟩ := List.mem_filter.1 hr
  rw [decide_eq_true_eq] at h2
  exact ⟨r, h1, h2, hrt⟩

/-- The columns of the regression are exactly the observed cohort by event-time cells outside the reference period. -/
theorem Regular.mem_keys {ant : ℤ} {df : List (Row K)} {U : List ℕ} {T : List ℤ} {co : ℕ → Coh} (h : Regular ant df U T co)
    (k : Key) : k ∈ keys (groups df) (relPeriods ant df) df ↔
      k.2 ≠ -1 - ant ∧ ∃ r ∈ df, r.cohort = k.1 ∧ relTime r = some k.2 := by
  rw [SunAb.mem_keys]
  constructor
  · rintro ⟨_, h2, h3⟩
    exact ⟨(mem_relPeriods h2).2.2.1, h3⟩
  · rintro ⟨h2, r, hr, hc, hrel⟩
    obtain ⟨g, hg, hcg, _⟩ := relTime_some hrel
    refine ⟨?_, ?_, r, hr, hc, hrel⟩
    · unfold groups
      apply List.mem_append_left
      rw [← hc, hcg]
      apply List.mem_map_of_mem
      rw [List.mem_insertionSort, List.mem_dedup, List.mem_filterMap]
      exact ⟨r, hr, by rw [hcg]; simp [finPos, hg]⟩
    · unfold relPeriods
      rw [List.mem_filter]
      refine ⟨?_, by simpa using ⟨h.horizon r hr _ hrel, h2⟩⟩
      rw [List.mem_insertionSort, List.mem_dedup, List.mem_filterMap]
      exact ⟨r, hr, hrel⟩

/-- `did` through class means. -/
theorem Regular.did_eq {ant : ℤ} {df : List (Row K)} {U : List ℕ} {T : List ℤ} {co : ℕ → Coh} (h : Regular ant df U T co)
    {g : ℤ} (hg : 0 < g) {b t : ℤ} (hb : b ∈ T) (ht : t ∈ T) :
    let M := clMean U.toFinset (fun u t => (look df u t).getD 0) (fun u => finPos (co u))
    did df g b t = (M (some g) t - M (some g) b) - (M none t - M none b) := by
  intro M
  have hU : ∀ u ∈ U, (finPos (co u) = some g ↔ co u = .num g) ∧ (finPos (co u) = none ↔ (co u).isNever = true) := by
    intro u hu
    obtain ⟨r, hr, h1, _⟩ := h.grid.cell hu ht
    have hc := h.cohort r hr
    rw [h1] at hc
    rw [← hc]
    refine ⟨⟨fun h' => (h.ref hr h').2.1, fun h' => by rw [h']; simp [finPos, hg]⟩, h.never hr⟩
  have e1 : ∀ s ∈ T, rowMean (cell df (fun c => decide (c = .num g)) s) = M (some g) s := by
    intro s hs
    rw [rowMean_cell h.grid co h.cohort _ hs]
    show _ = CS.mean _ _
    congr 1
    apply Finset.filter_congr
    intro u hu
    rw [(hU u (List.mem_toFinset.1 hu)).1, decide_eq_true_eq]
  have e2 : ∀ s ∈ T, rowMean (cell df Coh.isNever s) = M none s := by
    intro s hs
    rw [rowMean_cell h.grid co h.cohort _ hs]
    show _ = CS.mean _ _
    congr 1
    apply Finset.filter_congr
    intro u hu
    rw [(hU u (List.mem_toFinset.1 hu)).2]
  unfold did
  rw [e1 _ ht, e1 _ hb, e2 _ ht, e2 _ hb]

/-- Difference of cell means of a column, from the cohort's reference period. -/
def didKey (df : List (Row K)) (ant : ℤ) (g : Coh) (e : ℤ) : K :=
  match g with
  | .num z => did df z (z - 1 - ant) (z + e)
  | _ => 0

/-- Demeaned outcome. -/
def outcome (df : List (Row K)) : Row K → K := within df (fun s => s.y.getD 0)

theorem lin_sub (df : List (Row K)) (ks : List Key) (τ β : Key → K) (r : Row K) :
    within df (lin ks (fun k => τ k - β k)) r = within df (lin ks τ) r - within df (lin ks β) r := by
  have e1 : lin ks (fun k => τ k - β k) = fun s => lin ks τ s + (-1) * lin ks β s := by
    funext s
    unfold lin
    rw [← List.sum_map_mul_left, ← sum_map_add']
    exact congrArg List.sum (List.map_congr_left (fun k _ => by ring))
  rw [e1, within_add, within_smul]
  ring

/-- Residual sum of squares of any table of effects: the distance to the differences of cell means, plus a constant. -/
theorem Regular.ssr_eq {ant : ℤ} {df : List (Row K)} {U : List ℕ} {T : List ℤ} {co : ℕ → Coh} (hR : Regular ant df U T co) :
    ∃ (τ : Key → K) (C : K), (∀ k ∈ keys (groups df) (relPeriods ant df) df, τ k = didKey df ant k.1 k.2) ∧
      ∀ β, ssr (design df (keys (groups df) (relPeriods ant df) df)) (df.map (outcome df))
          ((keys (groups df) (relPeriods ant df) df).map β) =
        (df.map (fun r => (within df (lin (keys (groups df) (relPeriods ant df) df) (fun k => τ k - β k)) r) ^ 2)).sum + C := by
  have hG := hR.grid
  set ks := keys (groups df) (relPeriods ant df) df with hksdef
  have hnd : ks.Nodup := keys_nodup (groups_nodup df) (relPeriods_nodup ant df) df
  set W : Row K → K := outcome df with hW
  -- cell means
  set Y : ℕ → ℤ → K := fun u t => (look df u t).getD 0 with hY
  set cl : ℕ → Option ℤ := fun u => finPos (co u) with hcl
  set M := clMean U.toFinset Y cl with hM
  set A : Option ℤ → K := fun p => match p with
    | none => 0
    | some g => M (some g) (g - 1 - ant) - M none (g - 1 - ant) with hA
  set τ : Key → K := fun k => match k.1 with
    | .num g => (M (some g) (g + k.2) - M (some g) (g - 1 - ant)) - (M none (g + k.2) - M none (g - 1 - ant))
    | _ => 0 with hτ
  -- tables as functions of class and period
  set G : (Key → K) → Option ℤ → ℤ → K := fun β p t => match p with
    | none => 0
    | some g => if (Coh.num g, t - g) ∈ ks then β (.num g, t - g) else 0 with hGdef
  have hlin : ∀ β, ∀ r ∈ df, lin ks β r = G β (cl r.unit) r.time := by
    intro β r hr
    have hc : cl r.unit = finPos r.cohort := by rw [hcl, hR.cohort r hr]
    rw [hc]
    cases hp : finPos r.cohort with
    | none =>
      rw [lin_of_not_mem β (fun e he => by
        unfold relTime at he
        rw [hp] at he
        cases he)]
    | some g =>
      have hrel : relTime r = some (r.time - g) := by unfold relTime; rw [hp]; rfl
      have hcg := (hR.ref hr hp).2.1
      show _ = if _ then _ else _
      by_cases hm : (Coh.num g, r.time - g) ∈ ks
      · rw [if_pos hm, lin_of_mem hnd β hrel (by rw [hcg]; exact hm), hcg]
      · rw [if_neg hm, lin_of_not_mem β (fun e he => by
          rw [hrel] at he
          rw [← Option.some.inj he, hcg]
          exact hm)]
  have hwlin : ∀ β, ∃ H : Option ℤ → ℤ → K, ∀ r ∈ df, within df (lin ks β) r = H (cl r.unit) r.time := by
    intro β
    refine ⟨fun p t => G β p t - (∑ s ∈ T.toFinset, G β p s) / (T.toFinset.card : K) -
      (∑ u ∈ U.toFinset, G β (cl u) t) / (U.toFinset.card : K) +
      (∑ s ∈ T.toFinset, ∑ u ∈ U.toFinset, G β (cl u) s) / ((T.toFinset.card : K) * (U.toFinset.card : K)), ?_⟩
    intro r hr
    rw [within_congr df _ _ (hlin β) hr]
    exact within_grid hG (fun u t => G β (cl u) t) hr
  -- decomposition of the outcome
  have hyd : ∀ r ∈ df, r.y.getD 0 = ((A (cl r.unit) + M none r.time) + lin ks τ r) + dev U.toFinset Y cl r.unit r.time := by
    intro r hr
    have hYr : Y r.unit r.time = r.y.getD 0 := by rw [hY]; show (look df r.unit r.time).getD 0 = _; rw [look_row hG hr]
    have hc : cl r.unit = finPos r.cohort := by rw [hcl, hR.cohort r hr]
    have key : M (cl r.unit) r.time = (A (cl r.unit) + M none r.time) + lin ks τ r := by
      rw [hlin τ r hr, hc]
      cases hp : finPos r.cohort with
      | none => show M none r.time = 0 + M none r.time + 0; ring
      | some g =>
        have hcg := (hR.ref hr hp).2.1
        have hrel : relTime r = some (r.time - g) := by unfold relTime; rw [hp]; rfl
        show M (some g) r.time = (M (some g) (g - 1 - ant) - M none (g - 1 - ant)) + M none r.time +
          if (Coh.num g, r.time - g) ∈ ks then τ (.num g, r.time - g) else 0
        by_cases hm : (Coh.num g, r.time - g) ∈ ks
        · rw [if_pos hm]
          show _ = _ + ((M (some g) (g + (r.time - g)) - M (some g) (g - 1 - ant)) -
            (M none (g + (r.time - g)) - M none (g - 1 - ant)))
          rw [add_sub_cancel]
          ring
        · rw [if_neg hm]
          have : r.time - g = -1 - ant := by
            by_contra hne
            exact hm ((hR.mem_keys _).2 ⟨hne, r, hr, hcg, hrel⟩)
          have : r.time = g - 1 - ant := by omega
          rw [this]
          ring
    unfold dev
    rw [hYr, ← hM, ← key]
    ring
  have hTne : ∀ r ∈ df, r.time ∈ T := fun r hr => (hG.mem r hr).2
  have hdevw : ∀ r ∈ df, within df (fun s => dev U.toFinset Y cl s.unit s.time) r =
      eps U.toFinset T.toFinset Y cl r.unit r.time := by
    intro r hr
    rw [within_grid hG (dev U.toFinset Y cl) hr]
    have z : ∀ t, ∑ u ∈ U.toFinset, dev U.toFinset Y cl u t = 0 := by
      intro t
      have := dev_sum U.toFinset Y cl (fun _ => 1) t
      simpa using this
    simp only [z, Finset.sum_const_zero, zero_div, sub_zero, add_zero]
    rfl
  have hWd : ∀ r ∈ df, W r = within df (lin ks τ) r + eps U.toFinset T.toFinset Y cl r.unit r.time := by
    intro r hr
    rw [hW]
    unfold outcome
    rw [within_congr df _ _ hyd hr, within_add, within_add, hdevw r hr,
      within_fixed hG (fun u => A (cl u)) (fun t => M none t) hr, zero_add]
  -- sums of squares
  have hcross : ∀ β, (df.map (fun r => within df (lin ks β) r * eps U.toFinset T.toFinset Y cl r.unit r.time)).sum = 0 := by
    intro β
    obtain ⟨H, hH⟩ := hwlin β
    rw [List.map_congr_left (fun r hr => by rw [hH r hr]),
      sum_all hG (fun u t => H (cl u) t * eps U.toFinset T.toFinset Y cl u t)]
    exact Finset.sum_eq_zero (fun t _ => eps_sum U.toFinset T.toFinset Y cl (fun p => H p t) t)
  have hdiff : ∀ β, ∀ r, within df (lin ks (fun k => τ k - β k)) r = within df (lin ks τ) r - within df (lin ks β) r :=
    lin_sub df ks τ
  have hssr : ∀ β, ssr (design df ks) (df.map W) (ks.map β) =
      (df.map (fun r => (within df (lin ks (fun k => τ k - β k)) r) ^ 2)).sum +
      (df.map (fun r => (eps U.toFinset T.toFinset Y cl r.unit r.time) ^ 2)).sum := by
    intro β
    have hc := hcross (fun k => τ k - β k)
    have h2 : (df.map (fun r => 2 * (within df (lin ks (fun k => τ k - β k)) r *
        eps U.toFinset T.toFinset Y cl r.unit r.time))).sum = 0 := by
      rw [List.sum_map_mul_left, hc, mul_zero]
    rw [ssr_design, ← add_zero (_ + _), ← h2, ← sum_map_add', ← sum_map_add']
    apply congrArg List.sum
    apply List.map_congr_left
    intro r hr
    rw [hWd r hr, hdiff β r]
    ring
  refine ⟨τ, _, ?_, hssr⟩
  intro k hk
  obtain ⟨_, r, hr, hc, hrel⟩ := (hR.mem_keys k).1 hk
  obtain ⟨g, hg, hcg, he⟩ := relTime_some hrel
  unfold didKey
  show (match k.1 with | .num g => _ | _ => _) = _
  rw [← hc, hcg]
  show _ = did df g (g - 1 - ant) (g + k.2)
  rw [hR.did_eq hg (hR.ref hr (by rw [hcg]; simp [finPos, hg])).2.2 (by
    have : g + k.2 = r.time := by omega
    rw [this]
    exact hTne r hr)]

theorem Base.nevers {ant : ℤ} {df : List (Row K)} {U : List ℕ} {T : List ℤ} {co : ℕ → Coh} (hB : Base ant df U T co)
    (hnc : nControl df ≠ 0) : ∃ u0 ∈ U, (co u0).isNever = true := by
  have hG := hB.grid
  have hne : (units df).filter (fun u => unitNever df u) ≠ [] := by
    intro h0
    apply hnc
    unfold nControl
    rw [h0]; rfl
  obtain ⟨u, hu⟩ := List.exists_mem_of_ne_nil _ hne
  have hu2 := (List.mem_filter.1 hu).2
  unfold unitNever at hu2
  cases hl : df.filter (fun r => decide (r.unit = u)) with
  | nil => rw [hl] at hu2; simp at hu2
  | cons r rs =>
    rw [hl] at hu2
    have hr : r ∈ df.filter (fun r => decide (r.unit = u)) := by rw [hl]; exact List.mem_cons_self ..
    obtain ⟨hr1, hr2⟩ := List.mem_filter.1 hr
    rw [decide_eq_true_eq] at hr2
    refine ⟨u, hr2 ▸ (hG.mem r hr1).1, ?_⟩
    rw [← hr2, ← hB.cohort r hr1]
    simpa using hu2

/-- The regression coefficients are the table of effects whose residual sum of squares is smallest in this strong sense. -/
theorem Base.coef_unique (reg : List (List K) → List K → Option (Reg K)) (hreg : SolvesLS reg) {ant : ℤ} {c : Control}
    {df : List (Row K)} {U : List ℕ} {T : List ℤ} {co : ℕ → Coh} (hB : Base ant df U T co)
    {R : Results K} (h : fit reg ant c df = .ok R) (τ : Key → K) (C : K)
    (hτ : ∀ β, ssr (design df (keys (groups df) (relPeriods ant df) df)) (df.map (outcome df))
          ((keys (groups df) (relPeriods ant df) df).map β) =
        (df.map (fun r => (within df (lin (keys (groups df) (relPeriods ant df) df) (fun k => τ k - β k)) r) ^ 2)).sum + C) :
    R.cohortEffects = (keys (groups df) (relPeriods ant df) df).map (fun k => (k, some (τ k))) := by
  obtain ⟨hnc, _, f, hs, _, _, hce, _⟩ := fit_ok h
  rw [hB.sample c] at hs hce
  have hG := hB.grid
  set ks := keys (groups df) (relPeriods ant df) df with hksdef
  have hnd : ks.Nodup := keys_nodup (groups_nodup df) (relPeriods_nodup ant df) df
  obtain ⟨u0, hu0, hn0⟩ := hB.nevers hnc
  have href : ∀ r ∈ df, ∀ g, finPos r.cohort = some g → g - 1 - ant ∈ T := fun r hr g hg => (hB.ref hr hg).2.2
  have hks : ∀ k ∈ ks, k.2 ≠ -1 - ant ∧ ∃ r ∈ df, r.cohort = k.1 ∧ relTime r = some k.2 := by
    intro k hk
    obtain ⟨_, h2, h3⟩ := SunAb.mem_keys.1 hk
    exact ⟨(mem_relPeriods h2).2.2.1, h3⟩
  have tz := fun β => table_zero hG co hB.cohort ant href hu0 hn0 hnd hks β
  set W : Row K → K := outcome df with hW
  have hresp : response df = some (df.map W) := by
    unfold response
    rw [if_pos (List.all_eq_true.2 hB.observed)]
    rfl
  have hrg : reg (design df ks) (df.map W) = some f := by
    unfold saturated at hs
    simp only at hs
    split_ifs at hs
    rw [hresp] at hs
    simp only at hs
    split at hs
    · cases hs
    · rename_i f' hf'
      cases hs
      exact hf'
  have hXlen : (design df ks).length = ks.length := by simp [design]
  have hind : Independent (design df ks) (df.map W).length := by
    intro b hb hz
    rw [hXlen] at hb
    have hbt := list_as_table hnd b hb
    rw [hbt] at hz ⊢
    have hzero := tz (fun k => b.getD (ks.idxOf k) 0) (by
      intro r hr
      obtain ⟨i, hi, rfl⟩ := List.getElem_of_mem hr
      rw [← predict_design df ks _ i hi]
      exact hz i (by rw [List.length_map]; exact hi))
    intro x hx
    obtain ⟨k, hk, rfl⟩ := List.mem_map.1 hx
    exact hzero k hk
  obtain ⟨b, ⟨hb, hmin⟩, hcoef⟩ := hreg _ _ f hrg hind
  rw [hXlen] at hb
  have hbt := list_as_table hnd b hb
  have hle := hmin (ks.map τ) (by rw [List.length_map, hXlen])
  rw [hbt, hτ, hτ] at hle
  have hz0 : (df.map (fun r => (within df (lin ks (fun k => τ k - τ k)) r) ^ 2)).sum = 0 := by
    apply List.sum_eq_zero
    intro a ha
    obtain ⟨r, _, rfl⟩ := List.mem_map.1 ha
    rw [lin_sub, sub_self]
    ring
  rw [hz0, zero_add] at hle
  have hsq : (df.map (fun r => (within df (lin ks (fun k => τ k - b.getD (ks.idxOf k) 0)) r) ^ 2)).sum ≤ 0 := by
    linarith
  have hβ : ∀ k ∈ ks, τ k - b.getD (ks.idxOf k) 0 = 0 := by
    apply tz (fun k => τ k - b.getD (ks.idxOf k) 0)
    intro r hr
    have hall : ∀ x ∈ df.map (fun r => (within df (lin ks (fun k => τ k - b.getD (ks.idxOf k) 0)) r) ^ 2), 0 ≤ x := by
      intro x hx
      obtain ⟨j, _, rfl⟩ := List.mem_map.1 hx
      positivity
    have h1 := List.single_le_sum hall _ (List.mem_map.2 ⟨r, hr, rfl⟩)
    have : (within df (lin ks (fun k => τ k - b.getD (ks.idxOf k) 0)) r) ^ 2 = 0 :=
      le_antisymm (h1.trans hsq) (by positivity)
    exact pow_eq_zero_iff (two_ne_zero) |>.1 this
  rw [hce]
  apply List.map_congr_left
  intro k hk
  congr 1
  unfold coefOf
  rw [hcoef _ (by rw [hXlen]; exact List.idxOf_lt_length_iff.2 hk)]
  congr 1
  have := hβ k hk
  linarith

/-- C136: every Sun-Abraham cohort effect is the difference in differences of four cell means: the cohort against the
never-treated, the period against the cohort's reference period. -/
theorem C136_cohort_effects (reg : List (List K) → List K → Option (Reg K)) (hreg : SolvesLS reg) (ant : ℤ) (c : Control)
    (df : List (Row K)) (U : List ℕ) (T : List ℤ) (co : ℕ → Coh) (hR : Regular ant df U T co)
    (R : Results K) (h : fit reg ant c df = .ok R) (k : Key) (v : Option K) (hkv : (k, v) ∈ R.cohortEffects) :
    ∃ g, k.1 = .num g ∧ v = some (did df g (g - 1 - ant) (g + k.2)) := by
  obtain ⟨τ, C, h1, h2⟩ := hR.ssr_eq
  rw [hR.toBase.coef_unique reg hreg h τ C h2] at hkv
  obtain ⟨k', hk', heq⟩ := List.mem_map.1 hkv
  obtain ⟨rfl, rfl⟩ := Prod.mk.inj heq
  obtain ⟨_, r, hr, hc, hrel⟩ := (hR.mem_keys k').1 hk'
  obtain ⟨g, hg, hcg, he⟩ := relTime_some hrel
  have hkg : k'.1 = .num g := by rw [← hc, hcg]
  refine ⟨g, hkg, ?_⟩
  rw [h1 k' hk', hkg]
  rfl

/-! ### A regression routine that always answers on such data -/

open Classical in
/-- Some least squares solution, whenever there is one. -/
noncomputable def bestLS : List (List K) → List K → Option (Reg K) := fun X y =>
  if h : ∃ b, IsLeastSquares X y b then some ⟨fun j => some (h.choose.getD j 0), fun _ _ => some 0⟩ else none

theorem bestLS_solves : SolvesLS (bestLS (K := K)) := by
  intro X y f h _
  unfold bestLS at h
  split_ifs at h with hc
  cases h
  exact ⟨hc.choose, hc.choose_spec, fun j _ => rfl⟩

/-- Fitting succeeds on every data frame with never-treated units and a column for which the residual sum of squares has
that form. -/
theorem Base.fit_ok {ant : ℤ} {df : List (Row K)} {U : List ℕ} {T : List ℤ} {co : ℕ → Coh} (hB : Base ant df U T co)
    (c : Control) (hn : nControl df ≠ 0) (hk : keys (groups df) (relPeriods ant df) df ≠ []) (τ : Key → K) (C : K)
    (h2 : ∀ β, ssr (design df (keys (groups df) (relPeriods ant df) df)) (df.map (outcome df))
          ((keys (groups df) (relPeriods ant df) df).map β) =
        (df.map (fun r => (within df (lin (keys (groups df) (relPeriods ant df) df) (fun k => τ k - β k)) r) ^ 2)).sum + C) :
    ∃ R, fit bestLS ant c df = .ok R := by
  set ks := keys (groups df) (relPeriods ant df) df with hks
  have hg : groups df ≠ [] := by
    intro h0
    apply hk
    rw [hks, h0]
    rfl
  have hls : IsLeastSquares (design df ks) (df.map (outcome df)) (ks.map τ) := by
    refine ⟨by simp [design], ?_⟩
    intro b hb
    have hnd : ks.Nodup := keys_nodup (groups_nodup df) (relPeriods_nodup ant df) df
    rw [list_as_table hnd b (by simpa [design] using hb), h2, h2]
    have h0 : (df.map (fun r => (within df (lin ks (fun k => τ k - τ k)) r) ^ 2)).sum = 0 := by
      apply List.sum_eq_zero
      intro a ha
      obtain ⟨r, _, rfl⟩ := List.mem_map.1 ha
      rw [lin_sub, sub_self]
      ring
    rw [h0]
    gcongr
    apply List.sum_nonneg
    intro a ha
    obtain ⟨r, _, rfl⟩ := List.mem_map.1 ha
    positivity
  have hresp : response df = some (df.map (outcome df)) := by
    unfold response
    rw [if_pos (List.all_eq_true.2 hB.observed)]
    rfl
  have hreg : ∃ f, bestLS (design df ks) (df.map (outcome df)) = some f := by
    unfold bestLS
    rw [dif_pos ⟨_, hls⟩]
    exact ⟨_, rfl⟩
  obtain ⟨f, hf⟩ := hreg
  unfold fit saturated
  rw [if_neg hn, if_neg hg, hB.sample c]
  simp only
  rw [if_neg hk, hresp]
  simp only
  rw [hf]
  exact ⟨_, rfl⟩

/-- Fitting succeeds on every regular data frame with never-treated units and a column. -/
theorem Regular.fit_ok {ant : ℤ} {df : List (Row K)} {U : List ℕ} {T : List ℤ} {co : ℕ → Coh} (hR : Regular ant df U T co)
    (c : Control) (hn : nControl df ≠ 0) (hk : keys (groups df) (relPeriods ant df) df ≠ []) :
    ∃ R, fit bestLS ant c df = .ok R := by
  obtain ⟨τ, C, _, h2⟩ := hR.ssr_eq
  exact hR.toBase.fit_ok c hn hk τ C h2

/-! ### Normal equations -/

/-- If the outcome is fixed effects plus a table of effects plus a residual that sums to zero over every unit, every
period and every column, the residual sum of squares has the form above. -/
theorem Base.normal {ant : ℤ} {df : List (Row K)} {U : List ℕ} {T : List ℤ} {co : ℕ → Coh} (hB : Base ant df U T co)
    (ks : List Key) (α : ℕ → K) (δ : ℤ → K) (τ : Key → K) (E : ℕ → ℤ → K)
    (hy : ∀ r ∈ df, r.y.getD 0 = ((α r.unit + δ r.time) + lin ks τ r) + E r.unit r.time)
    (hE1 : ∀ u ∈ U, ∑ t ∈ T.toFinset, E u t = 0) (hE2 : ∀ t ∈ T, ∑ u ∈ U.toFinset, E u t = 0)
    (hE3 : ∀ k ∈ ks, (df.map (fun r => dummy k r * E r.unit r.time)).sum = 0) :
    ∃ C, ∀ β, ssr (design df ks) (df.map (outcome df)) (ks.map β) =
      (df.map (fun r => (within df (lin ks (fun k => τ k - β k)) r) ^ 2)).sum + C := by
  have hG := hB.grid
  have hz : ∑ t ∈ T.toFinset, ∑ u ∈ U.toFinset, E u t = 0 :=
    Finset.sum_eq_zero (fun t ht => hE2 t (List.mem_toFinset.1 ht))
  have hEw : ∀ r ∈ df, within df (fun s => E s.unit s.time) r = E r.unit r.time := by
    intro r hr
    rw [within_grid hG E hr, hE1 _ (hG.mem r hr).1, hE2 _ (hG.mem r hr).2, hz]
    simp
  have hW : ∀ r ∈ df, outcome df r = within df (lin ks τ) r + E r.unit r.time := by
    intro r hr
    unfold outcome
    rw [within_congr df _ _ hy hr, within_add, within_add, hEw r hr, within_fixed hG α δ hr, zero_add]
  have hcol : ∀ k ∈ ks, (df.map (fun r => within df (dummy k) r * E r.unit r.time)).sum = 0 := by
    intro k hk
    set D : ℕ → ℤ → K := fun u t => if co u = k.1 ∧ (finPos (co u)).map (fun g => t - g) = some k.2 then 1 else 0 with hD
    have hd : ∀ r ∈ df, dummy k r = D r.unit r.time := by
      intro r hr
      unfold dummy relTime
      rw [hB.cohort r hr]
    have e0 : (df.map (fun r => D r.unit r.time * E r.unit r.time)).sum = 0 := by
      rw [← hE3 k hk]
      exact congrArg List.sum (List.map_congr_left (fun r hr => by rw [hd r hr]))
    rw [sum_all hG (fun u t => D u t * E u t)] at e0
    have e1 : ∀ r ∈ df, within df (dummy k) r * E r.unit r.time =
        (fun u t => (D u t - (∑ s ∈ T.toFinset, D u s) / (T.toFinset.card : K) -
          (∑ v ∈ U.toFinset, D v t) / (U.toFinset.card : K) +
          (∑ s ∈ T.toFinset, ∑ v ∈ U.toFinset, D v s) / ((T.toFinset.card : K) * (U.toFinset.card : K))) * E u t)
          r.unit r.time := by
      intro r hr
      rw [within_congr df _ _ hd hr, within_grid hG D hr]
    rw [List.map_congr_left e1, sum_all hG (fun u t => (D u t - (∑ s ∈ T.toFinset, D u s) / (T.toFinset.card : K) -
          (∑ v ∈ U.toFinset, D v t) / (U.toFinset.card : K) +
          (∑ s ∈ T.toFinset, ∑ v ∈ U.toFinset, D v s) / ((T.toFinset.card : K) * (U.toFinset.card : K))) * E u t)]
    simp only [add_mul, sub_mul, Finset.sum_add_distrib, Finset.sum_sub_distrib]
    rw [e0]
    have s1 : ∑ t ∈ T.toFinset, ∑ u ∈ U.toFinset, (∑ s ∈ T.toFinset, D u s) / (T.toFinset.card : K) * E u t = 0 := by
      rw [Finset.sum_comm]
      apply Finset.sum_eq_zero
      intro u hu
      rw [← Finset.mul_sum, hE1 u (List.mem_toFinset.1 hu), mul_zero]
    have s2 : ∑ t ∈ T.toFinset, ∑ u ∈ U.toFinset, (∑ v ∈ U.toFinset, D v t) / (U.toFinset.card : K) * E u t = 0 := by
      apply Finset.sum_eq_zero
      intro t ht
      rw [← Finset.mul_sum, hE2 t (List.mem_toFinset.1 ht), mul_zero]
    rw [s1, s2]
    simp only [← Finset.mul_sum, hz, mul_zero, sub_zero, add_zero]
  have hcross : ∀ γ : Key → K, (df.map (fun r => within df (lin ks γ) r * E r.unit r.time)).sum = 0 := by
    intro γ
    simp only [within_lin]
    clear hE3 hW hy hEw
    induction ks with
    | nil => simp
    | cons k ks ih =>
      have ih' := ih (fun k' hk' => hcol k' (List.mem_cons_of_mem _ hk'))
      have : ∀ r : Row K, ((k :: ks).map (fun k => γ k * within df (dummy k) r)).sum * E r.unit r.time =
          γ k * (within df (dummy k) r * E r.unit r.time) +
          (ks.map (fun k => γ k * within df (dummy k) r)).sum * E r.unit r.time := by
        intro r
        rw [List.map_cons, List.sum_cons]
        ring
      simp only [this]
      rw [sum_map_add', List.sum_map_mul_left, hcol k (List.mem_cons_self ..), ih']
      ring
  refine ⟨(df.map (fun r => (E r.unit r.time) ^ 2)).sum, ?_⟩
  intro β
  have h2 : (df.map (fun r => 2 * (within df (lin ks (fun k => τ k - β k)) r * E r.unit r.time))).sum = 0 := by
    rw [List.sum_map_mul_left, hcross, mul_zero]
  rw [ssr_design, ← add_zero (_ + _), ← h2, ← sum_map_add', ← sum_map_add']
  apply congrArg List.sum
  apply List.map_congr_left
  intro r hr
  rw [hW r hr, lin_sub]
  ring

end DiffDiff.SunAb
