/-
Property C137: on balanced panels with one treated cohort the static estimators return one number, the dynamic ones another, and the two differ by
the deviation of the base period from the other pre-treatment periods.
-/
import Verif.SunAbCsOverallProps
import Verif.Did2x2Props
import Verif.MultiPeriodProps
import Verif.BaconTwfeProps

set_option linter.unusedSectionVars false

namespace DiffDiff.Block

open CS (Coh Cfg)
open SunAb (Row rowMean Base Regular Grid look)

variable {K : Type*} [Field K] [LinearOrder K] [IsStrictOrderedRing K]
variable {df : List (Row K)} {U : List ℕ} {T : List ℤ} {co : ℕ → Coh} {g : ℤ}

/-! ### Specification -/

/-- Rows of an arm (ever treated or never treated) in the periods satisfying `q`. -/
def rows (df : List (Row K)) (a : Bool) (q : ℤ → Bool) : List (Row K) :=
  df.filter (fun r => decide ((!r.cohort.isNever) = a) && q r.time)

/-- Treated minus control mean over the periods satisfying `q`. -/
def gap (df : List (Row K)) (q : ℤ → Bool) : K := rowMean (rows df true q) - rowMean (rows df false q)

/-- Block difference in differences: all post periods against all pre periods. -/
def static (df : List (Row K)) (g : ℤ) : K := gap df (fun t => decide (g ≤ t)) - gap df (fun t => decide (t < g))

/-- Balanced panel with never-treated units and one cohort, which has post-treatment periods. -/
structure Panel (df : List (Row K)) (U : List ℕ) (T : List ℤ) (co : ℕ → Coh) (g : ℤ) : Prop extends Base 0 df U T co where
  single : ∀ r ∈ df, r.cohort.isNever = true ∨ r.cohort = .num g
  treated : ∃ r ∈ df, r.cohort.isNever = false
  control : ∃ r ∈ df, r.cohort.isNever = true
  post : ∃ t ∈ T, g ≤ t

/-! ### Means over a balanced panel -/

/-- Units of an arm. -/
def arm (U : List ℕ) (co : ℕ → Coh) (a : Bool) : Finset ℕ := U.toFinset.filter (fun u => (!(co u).isNever) = a)

/-- Periods satisfying `q`. -/
def per (T : List ℤ) (q : ℤ → Bool) : Finset ℤ := T.toFinset.filter (fun t => q t = true)

theorem rows_sum (hB : Base 0 df U T co) (a : Bool) (q : ℤ → Bool) (x : ℕ → ℤ → K) :
    ((rows df a q).map (fun r => x r.unit r.time)).sum = ∑ t ∈ per T q, ∑ u ∈ arm U co a, x u t := by
  unfold rows per arm
  rw [SunAb.sum_filter_ite, Finset.sum_filter]
  have h := SunAb.sum_all hB.grid (fun u t => if q t = true then (if (!(co u).isNever) = a then x u t else 0) else 0)
  rw [List.map_congr_left (g := fun r => if q r.time = true then (if (!(co r.unit).isNever) = a then x r.unit r.time else 0) else 0), h]
  · apply Finset.sum_congr rfl
    intro t _
    by_cases hq : q t = true
    · simp only [if_pos hq]
      rw [Finset.sum_filter]
    · simp only [if_neg hq, Finset.sum_const_zero]
  · intro r hr
    rw [hB.cohort r hr]
    by_cases hq : q r.time = true <;> by_cases ha : (!(co r.unit).isNever) = a <;> simp [hq, ha]

theorem rows_length (hB : Base 0 df U T co) (a : Bool) (q : ℤ → Bool) :
    (rows df a q).length = (arm U co a).card * (per T q).card := by
  have h := rows_sum hB a q (fun _ _ => (1 : K))
  simp only [List.map_const', List.sum_replicate, Finset.sum_const, nsmul_eq_mul, mul_one] at h
  have h' : ((rows df a q).length : K) = (((arm U co a).card * (per T q).card : ℕ) : K) := by
    rw [h]; push_cast; ring
  exact_mod_cast h'

/-- Mean of a set of rows as a double mean. -/
theorem rowMean_rows (hB : Base 0 df U T co) (a : Bool) (q : ℤ → Bool) :
    rowMean (rows df a q) = (∑ t ∈ per T q, ∑ u ∈ arm U co a, (look df u t).getD 0) /
      (((arm U co a).card : K) * ((per T q).card : K)) := by
  unfold rowMean
  rw [rows_length hB, ← rows_sum hB a q (fun u t => (look df u t).getD 0)]
  push_cast
  congr 2
  apply List.map_congr_left
  intro r hr
  rw [SunAb.look_row hB.grid (List.mem_filter.1 hr).1]

/-- The gap over several periods is the mean of the gaps of the single periods. -/
theorem gap_mean (hB : Base 0 df U T co) (q : ℤ → Bool) :
    gap df q = (∑ t ∈ per T q, gap df (fun s => decide (s = t))) / ((per T q).card : K) := by
  have h1 : ∀ t ∈ per T q, ∀ a, rowMean (rows df a (fun s => decide (s = t))) =
      (∑ u ∈ arm U co a, (look df u t).getD 0) / ((arm U co a).card : K) := by
    intro t ht a
    rw [rowMean_rows hB]
    have : per T (fun s => decide (s = t)) = {t} := by
      ext s
      unfold per at ht ⊢
      simp only [Finset.mem_filter, List.mem_toFinset, decide_eq_true_eq, Finset.mem_singleton] at ht ⊢
      exact ⟨fun h => h.2, fun h => ⟨h ▸ ht.1, h⟩⟩
    rw [this]
    simp
  have h2 : ∀ a, rowMean (rows df a q) =
      (∑ t ∈ per T q, rowMean (rows df a (fun s => decide (s = t)))) / ((per T q).card : K) := by
    intro a
    rw [rowMean_rows hB, Finset.sum_congr rfl (fun t ht => h1 t ht a), ← Finset.sum_div, div_div]
  unfold gap
  rw [h2, h2, ← sub_div, ← Finset.sum_sub_distrib]

section facts
variable (h : Panel df U T co g)
include h

theorem Panel.gpos : 0 < g ∧ g - 1 ∈ T := by
  obtain ⟨r, hr, hn⟩ := h.treated
  rcases h.value r hr with h1 | ⟨z, hz, h1, h2⟩
  · rw [hn] at h1; cases h1
  · rcases h.single r hr with h3 | h3
    · rw [hn] at h3; cases h3
    · rw [h1] at h3
      cases h3
      exact ⟨hz, by simpa using h2⟩

theorem Panel.arm_pos (a : Bool) : 0 < (arm U co a).card := by
  rw [Finset.card_pos]
  have key : ∀ r ∈ df, (!r.cohort.isNever) = a → (arm U co a).Nonempty := by
    intro r hr ha
    exact ⟨r.unit, Finset.mem_filter.2 ⟨List.mem_toFinset.2 (h.grid.mem r hr).1, by rw [← h.cohort r hr]; exact ha⟩⟩
  cases a with
  | true =>
    obtain ⟨r, hr, hn⟩ := h.treated
    exact key r hr (by rw [hn]; rfl)
  | false =>
    obtain ⟨r, hr, hn⟩ := h.control
    exact key r hr (by rw [hn]; rfl)

theorem Panel.row (a : Bool) {t : ℤ} (ht : t ∈ T) : ∃ r ∈ df, (!r.cohort.isNever) = a ∧ r.time = t := by
  obtain ⟨u, hu⟩ := Finset.card_pos.1 (h.arm_pos a)
  obtain ⟨hu, hc⟩ := Finset.mem_filter.1 hu
  obtain ⟨r, hr, h1, h2⟩ := h.grid.cell (List.mem_toFinset.1 hu) ht
  exact ⟨r, hr, by rw [h.cohort r hr, h1]; exact hc, h2⟩

theorem Panel.pre_pos : 0 < (per T (fun t => decide (t < g))).card :=
  Finset.card_pos.2 ⟨g - 1, Finset.mem_filter.2 ⟨List.mem_toFinset.2 h.gpos.2, by simp⟩⟩

theorem Panel.post_pos : 0 < (per T (fun t => decide (g ≤ t))).card := by
  obtain ⟨t, ht, hg⟩ := h.post
  exact Finset.card_pos.2 ⟨t, Finset.mem_filter.2 ⟨List.mem_toFinset.2 ht, by simpa using hg⟩⟩

end facts

/-! ### Sums over the rows of the data frame -/

theorem fin_sum (l : List (Row K)) (P : Row K → Prop) [DecidablePred P] (F : Row K → K) :
    ∑ i ∈ Finset.univ.filter (fun i : Fin l.length => P (l.get i)), F (l.get i) = ((l.filter (fun r => decide (P r))).map F).sum := by
  rw [Finset.sum_filter, SunAb.sum_filter_ite]
  have := Fin.sum_univ_fun_getElem l (fun r => if P r then F r else 0)
  simp only [List.get_eq_getElem]
  rw [this]
  simp

theorem fin_card (l : List (Row K)) (P : Row K → Prop) [DecidablePred P] :
    (Finset.univ.filter (fun i : Fin l.length => P (l.get i))).card = (l.filter (fun r => decide (P r))).length := by
  have h := fin_sum (K := K) l P (fun _ => 1)
  simp only [Finset.sum_const, nsmul_eq_mul, mul_one, List.map_const', List.sum_replicate] at h
  exact_mod_cast h

/-- Mean over the row positions satisfying a condition. -/
theorem fin_mean (l : List (Row K)) (P : Row K → Prop) [DecidablePred P] (m : List (Row K))
    (hm : l.filter (fun r => decide (P r)) = m) :
    (∑ i ∈ Finset.univ.filter (fun i : Fin l.length => P (l.get i)), (l.get i).y.getD 0) /
      ((Finset.univ.filter (fun i : Fin l.length => P (l.get i))).card : K) = rowMean m := by
  rw [fin_sum l P (fun r => r.y.getD 0), fin_card, hm]
  rfl

/-! ### The data as the other estimators see them -/

/-- Treatment group column. -/
def treat (df : List (Row K)) (i : Fin df.length) : Bool := !(df.get i).cohort.isNever

/-- Post-treatment column. -/
def after (df : List (Row K)) (g : ℤ) (i : Fin df.length) : Bool := decide (g ≤ (df.get i).time)

/-- Period column. -/
def time (df : List (Row K)) (i : Fin df.length) : ℤ := (df.get i).time

/-- Outcome column. -/
def out (df : List (Row K)) (i : Fin df.length) : K := (df.get i).y.getD 0

/-! ### DifferenceInDifferences -/

/-- C137. `DifferenceInDifferences` on a treatment group dummy and a post dummy returns the block difference in differences (for this estimator no
balance is needed beyond non-empty cells). -/
theorem C137_did (h : Panel df U T co g) (att : K) (ha : Did2x2.IsAtt (out df) (treat df) (after df g) att) : att = static df g := by
  have hm : ∀ (a b : Bool) (q : ℤ → Bool), (∀ t, q t = true ↔ decide (g ≤ t) = b) →
      Did2x2.cellMean (out df) (treat df) (after df g) a b = rowMean (rows df a q) := by
    intro a b q hq
    refine fin_mean df (fun r => (!r.cohort.isNever) = a ∧ decide (g ≤ r.time) = b) _ ?_
    unfold rows
    apply List.filter_congr
    intro r _
    rw [Bool.eq_iff_iff]
    simp only [decide_eq_true_eq, Bool.and_eq_true, hq]
  rw [Did2x2.C10_att_is_difference_of_means _ _ _ att ?_ ha]
  · unfold Did2x2.did static gap
    rw [hm true true (fun t => decide (g ≤ t)) (by simp), hm true false (fun t => decide (t < g)) (by simp),
      hm false true (fun t => decide (g ≤ t)) (by simp), hm false false (fun t => decide (t < g)) (by simp)]
    ring
  · intro a b
    have : ∃ t ∈ T, decide (g ≤ t) = b := by
      cases b with
      | true =>
        obtain ⟨t, ht, hg⟩ := h.post
        exact ⟨t, ht, by simpa using hg⟩
      | false => exact ⟨g - 1, h.gpos.2, by simp⟩
    obtain ⟨t, ht, hb⟩ := this
    obtain ⟨r, hr, h1, h2⟩ := h.row a ht
    obtain ⟨i, hi⟩ := List.get_of_mem hr
    refine ⟨i, ?_, ?_⟩
    · unfold treat; rw [hi]; exact h1
    · unfold after; rw [hi, h2]; exact hb

/-! ### MultiPeriodDiD -/

theorem sum_list_finset {l : List ℤ} (hl : l.Nodup) {S : Finset ℤ} (hS : ∀ t, t ∈ l ↔ t ∈ S) (f : ℤ → K) :
    (l.map f).sum = ∑ t ∈ S, f t := by
  have : l.toFinset = S := by ext t; rw [List.mem_toFinset, hS]
  rw [← this, List.sum_toFinset _ hl]

/-- C137. The average effect of `MultiPeriodDiD` over the post-treatment periods is the block difference in differences, whatever least squares
solution the regression returns, whatever reference period is chosen and in whatever order the post periods are given. -/
theorem C137_multi (h : Panel df U T co g) (post : List ℤ) (hpo : post.Nodup) (hpost : ∀ t, t ∈ post ↔ t ∈ T ∧ g ≤ t) (ref : ℤ) (hr : ref ∈ T)
    (infer : K → K → MultiPeriod.Inf K) (vcov : ℕ → ℕ → Option K)
    (all : List ℤ) (hall : all = MultiPeriod.allPeriods (df.map (fun r => r.time)))
    (b : Fin (MultiPeriod.columns all post ref 0).length → K)
    (hb : Ols.IsOls (MultiPeriod.design (treat df) (time df) (fun _ _ => (0 : K)) (MultiPeriod.columns all post ref 0)) (out df) b) :
    (MultiPeriod.average infer (fun i => if hi : i < _ then some (b ⟨i, hi⟩) else none) vcov
      (post.map (MultiPeriod.interIndex all post ref))).att = some (static df g) := by
  have hmem : ∀ t, t ∈ all ↔ t ∈ T := by
    intro t
    rw [hall, MultiPeriod.mem_allPeriods, List.mem_map]
    constructor
    · rintro ⟨r, hr, rfl⟩; exact (h.grid.mem r hr).2
    · intro ht
      obtain ⟨r, hr, _, h2⟩ := h.row true ht
      exact ⟨r, hr, h2⟩
  have ha : all.Nodup := hall ▸ MultiPeriod.allPeriods_nodup _
  have hti : ∀ i, time df i ∈ all := fun i => (hmem _).2 (h.grid.mem _ (List.get_mem df i)).2
  have hin : ∀ a : Bool, ∀ t ∈ T, ∃ i, treat df i = a ∧ time df i = t := by
    intro a t ht
    obtain ⟨r, hr, h1, h2⟩ := h.row a ht
    obtain ⟨i, hi⟩ := List.get_of_mem hr
    exact ⟨i, by unfold treat; rw [hi]; exact h1, by unfold time; rw [hi]; exact h2⟩
  have farm : ∀ (a : Bool) (p : ℤ), df.filter (fun r => decide ((!r.cohort.isNever) = a ∧ r.time = p)) = rows df a (fun s => decide (s = p)) := by
    intro a p
    unfold rows
    apply List.filter_congr
    intro r _
    rw [Bool.eq_iff_iff]
    simp
  have fpre : ∀ (a : Bool), df.filter (fun r => decide ((!r.cohort.isNever) = a ∧ r.time ∉ post)) = rows df a (fun s => decide (s < g)) := by
    intro a
    unfold rows
    apply List.filter_congr
    intro r hr
    rw [Bool.eq_iff_iff]
    simp [hpost, (h.grid.mem r hr).2]
  have carm : ∀ (a : Bool) (p : ℤ), p ∈ T → (MultiPeriod.arm (treat df) (time df) a p).card = (arm U co a).card := by
    intro a p hp
    have := fin_card df (fun r => (!r.cohort.isNever) = a ∧ r.time = p)
    rw [farm, rows_length h.toBase] at this
    have h1 : per T (fun s => decide (s = p)) = {p} := by
      ext s
      unfold per
      simp only [Finset.mem_filter, List.mem_toFinset, decide_eq_true_eq, Finset.mem_singleton]
      exact ⟨fun h => h.2, fun h => ⟨h ▸ hp, h⟩⟩
    rw [h1, Finset.card_singleton, mul_one] at this
    exact this
  have cpre : ∀ (a : Bool), (MultiPeriod.preArm (treat df) (time df) post a).card = (arm U co a).card * (per T (fun t => decide (t < g))).card := by
    intro a
    have := fin_card df (fun r => (!r.cohort.isNever) = a ∧ r.time ∉ post)
    rw [fpre, rows_length h.toBase] at this
    exact this
  have hg1 : g - 1 ∉ post := fun hc => by have := ((hpost _).1 hc).2; omega
  have heff : ∀ p ∈ post, MultiPeriod.coefAt _ b (.inter p) = gap df (fun s => decide (s = p)) - gap df (fun t => decide (t < g)) := by
    intro p hp
    have hpT := ((hpost p).1 hp).1
    obtain ⟨i1, hi1⟩ := hin true _ h.gpos.2
    obtain ⟨i0, hi0⟩ := hin false _ h.gpos.2
    rw [MultiPeriod.C76_period_effect all post ref (treat df) (time df) (out df) ha hpo hti ((hmem _).2 hr) b hb p hp ((hmem _).2 hpT)
      (hin true p hpT) (hin false p hpT) ⟨i1, hi1.1, by rw [hi1.2]; exact hg1⟩ ⟨i0, hi0.1, by rw [hi0.2]; exact hg1⟩ ?_]
    · have e1 : ∀ a, MultiPeriod.armMean (out df) (treat df) (time df) a p = rowMean (rows df a (fun s => decide (s = p))) := fun a =>
        fin_mean df (fun r => (!r.cohort.isNever) = a ∧ r.time = p) _ (farm a p)
      have e2 : ∀ a, MultiPeriod.preMean (out df) (treat df) (time df) post a = rowMean (rows df a (fun s => decide (s < g))) := fun a =>
        fin_mean df (fun r => (!r.cohort.isNever) = a ∧ r.time ∉ post) _ (fpre a)
      unfold MultiPeriod.gap gap
      rw [e1, e1, e2, e2]
    · intro q hq _
      rw [carm true q ((hmem _).1 hq), carm false q ((hmem _).1 hq), cpre, cpre]
      push_cast
      ring
  have hcoef : ∀ p ∈ post, (if hi : MultiPeriod.interIndex all post ref p < (MultiPeriod.columns all post ref 0).length
      then some (b ⟨_, hi⟩) else none) = some (gap df (fun s => decide (s = p)) - gap df (fun t => decide (t < g))) := by
    intro p hp
    have hc := heff p hp
    have hlt : (MultiPeriod.columns all post ref 0).idxOf (MultiPeriod.Col.inter p) < (MultiPeriod.columns all post ref 0).length :=
      List.idxOf_lt_length_iff.2 (by unfold MultiPeriod.columns; simp [hp])
    unfold MultiPeriod.coefAt at hc
    rw [dif_pos hlt] at hc
    have hix := MultiPeriod.coefAt_inter all post ref 0 ha hpo p hp
    rw [← hc]
    simp only [hix] at hlt ⊢
    rw [dif_pos hlt]
  have hne : post ≠ [] := by
    obtain ⟨t, ht, hg⟩ := h.post
    exact List.ne_nil_of_mem ((hpost t).2 ⟨ht, hg⟩)
  have hatt : ∀ (coef : ℕ → Option K) (idx : List ℕ) (e : List K), MultiPeriod.allSome (idx.map coef) = some e →
      (MultiPeriod.average infer coef vcov idx).att = some (e.sum / (e.length : K)) := by
    intro coef idx e he
    unfold MultiPeriod.average
    rw [he]
    simp only
    cases MultiPeriod.allSome (idx.flatMap (fun i => idx.map (fun j => vcov i j))) with
    | none => rfl
    | some v =>
      simp only
      split_ifs <;> rfl
  rw [hatt _ _ (post.map (fun p => gap df (fun s => decide (s = p)) - gap df (fun t => decide (t < g))))]
  · have hS : ∀ t, t ∈ post ↔ t ∈ per T (fun t => decide (g ≤ t)) := by
      intro t
      rw [hpost]
      unfold per
      simp
    have hl : post.length = (per T (fun t => decide (g ≤ t))).card := by
      have : post.toFinset = per T (fun t => decide (g ≤ t)) := by ext t; rw [List.mem_toFinset, hS]
      rw [← this, List.toFinset_card_of_nodup hpo]
    have hcard : ((per T (fun t => decide (g ≤ t))).card : K) ≠ 0 := by exact_mod_cast h.post_pos.ne'
    rw [sum_list_finset hpo hS, List.length_map, hl, Finset.sum_sub_distrib, Finset.sum_const, nsmul_eq_mul, sub_div,
      ← gap_mean h.toBase, mul_div_assoc, mul_comm, div_mul_cancel₀ _ hcard]
    rfl
  · rw [List.map_map]
    exact MultiPeriod.allSome_map _ _ _ hcoef

/-! ### Goodman-Bacon -/

/-- The panel `BaconDecomposition` works on: units in order of appearance, one row per (unit, period) of the data. -/
def bacon (df : List (Row K)) : Bacon.Panel (SunAb.units df).length K where
  cohort := fun i => SunAb.unitCohort df ((SunAb.units df).get i)
  rows := (Finset.univ ×ˢ (df.map (fun r => r.time)).toFinset).filter
    (fun p => df.any (fun r => decide (r.unit = (SunAb.units df).get p.1) && decide (r.time = p.2)))
  y := fun i t => look df ((SunAb.units df).get i) t

section baconFacts
variable (h : Panel df U T co g)
include h

theorem Panel.bacon_rows : (bacon df).rows = Finset.univ ×ˢ T.toFinset := by
  ext ⟨i, t⟩
  show _ ∈ Finset.filter _ _ ↔ _
  simp only [Finset.mem_filter, Finset.mem_product, Finset.mem_univ, true_and, List.mem_toFinset, List.mem_map, List.any_eq_true,
    Bool.and_eq_true, decide_eq_true_eq]
  constructor
  · rintro ⟨_, r, hr, _, rfl⟩
    exact (h.grid.mem r hr).2
  · intro ht
    obtain ⟨s, hs, hsu⟩ := SunAb.mem_units.1 (List.get_mem (SunAb.units df) i)
    obtain ⟨r, hr, h1, h2⟩ := h.grid.cell (h.grid.mem s hs).1 ht
    exact ⟨⟨r, hr, h2⟩, r, hr, by rw [h1, hsu], h2⟩

theorem Panel.fin : Nonempty (Fin (SunAb.units df).length) := by
  obtain ⟨r, hr, _⟩ := h.treated
  exact ⟨⟨0, List.length_pos_of_mem (SunAb.mem_units.2 ⟨r, hr, rfl⟩)⟩⟩

theorem Panel.bacon_times : Bacon.times (bacon df) = T.toFinset := by
  haveI := h.fin
  unfold Bacon.times
  rw [h.bacon_rows]
  exact Finset.product_image_snd Finset.univ_nonempty

theorem Panel.bacon_units : Bacon.units (bacon df) = Finset.univ := by
  unfold Bacon.units
  rw [h.bacon_rows]
  exact Finset.product_image_fst ⟨g - 1, List.mem_toFinset.2 h.gpos.2⟩

theorem Panel.bacon_cohort (i : Fin (SunAb.units df).length) : (bacon df).cohort i = co ((SunAb.units df).get i) :=
  h.unitCohort (List.get_mem _ i)

theorem Panel.co_cases {u : ℕ} (hu : u ∈ SunAb.units df) : (co u).isNever = true ∨ co u = .num g := by
  obtain ⟨r, hr, rfl⟩ := SunAb.mem_units.1 hu
  rw [← h.cohort r hr]
  exact h.single r hr

theorem Panel.num_not_never : (Coh.num g).isNever = false := by
  have := h.gpos.1
  simp only [Coh.isNever, decide_eq_false_iff_not]
  omega

theorem Panel.bacon_balanced : Bacon.Balanced (bacon df) := by
  constructor
  · rw [h.bacon_units, h.bacon_times, h.bacon_rows]
  · rintro ⟨i, t⟩ hr
    rw [h.bacon_rows, Finset.mem_product] at hr
    exact h.look_some (List.get_mem _ i) (List.mem_toFinset.1 hr.2)

theorem Panel.bacon_clean : Bacon.Clean (bacon df) := by
  intro i _
  rw [h.bacon_cohort]
  rcases h.co_cases (List.get_mem _ i) with h1 | h1
  · exact Or.inl h1
  · exact Or.inr ⟨g, h.gpos.1, h1⟩

theorem Panel.arm_sum (a : Bool) (S : Finset (Fin (SunAb.units df).length))
    (hS : ∀ i, i ∈ S ↔ (!(co ((SunAb.units df).get i)).isNever) = a) (F : ℕ → K) :
    ∑ i ∈ S, F ((SunAb.units df).get i) = ∑ u ∈ arm U co a, F u := by
  have : S = Finset.univ.filter (fun i : Fin (SunAb.units df).length => (!(co ((SunAb.units df).get i)).isNever) = a) := by
    ext i; rw [hS]; simp
  unfold arm
  rw [this, Finset.sum_filter, Finset.sum_filter, ← h.sum_units h.gpos.2]

theorem Panel.arm_card (a : Bool) (S : Finset (Fin (SunAb.units df).length))
    (hS : ∀ i, i ∈ S ↔ (!(co ((SunAb.units df).get i)).isNever) = a) : S.card = (arm U co a).card := by
  have := h.arm_sum a S hS (fun _ => 1)
  simp only [Finset.sum_const, nsmul_eq_mul, mul_one] at this
  exact_mod_cast this

theorem Panel.mem_members (i : Fin (SunAb.units df).length) :
    i ∈ Bacon.members (bacon df) g ↔ (!(co ((SunAb.units df).get i)).isNever) = true := by
  unfold Bacon.members
  rw [Finset.mem_filter, h.bacon_units, h.bacon_cohort]
  simp only [Finset.mem_univ, true_and]
  rcases h.co_cases (List.get_mem _ i) with h1 | h1
  · rw [h1]
    constructor
    · intro h2
      rw [h2, h.num_not_never] at h1
      cases h1
    · intro h2; cases h2
  · rw [h1, h.num_not_never]
    simp

theorem Panel.mem_never (i : Fin (SunAb.units df).length) :
    i ∈ Bacon.never (bacon df) ↔ (!(co ((SunAb.units df).get i)).isNever) = false := by
  unfold Bacon.never
  rw [Finset.mem_filter, h.bacon_units, h.bacon_cohort]
  simp

theorem Panel.bacon_mean (a : Bool) (S : Finset (Fin (SunAb.units df).length))
    (hS : ∀ i, i ∈ S ↔ (!(co ((SunAb.units df).get i)).isNever) = a) (q : ℤ → Bool) (hq : 0 < (per T q).card) :
    Bacon.cellMean (bacon df) S (per T q) = some (rowMean (rows df a q)) := by
  rw [Bacon.cellMean_balanced h.bacon_balanced (by rw [h.bacon_units]; exact Finset.subset_univ _)
    (by rw [h.bacon_times]; exact Finset.filter_subset _ _) (by rw [h.arm_card a S hS]; exact h.arm_pos a) hq,
    rowMean_rows h.toBase, h.arm_card a S hS, Finset.sum_comm]
  congr 2
  apply Finset.sum_congr rfl
  intro t _
  exact h.arm_sum a S hS (fun u => (look df u t).getD 0)

theorem Panel.timing : Bacon.timingGroups (bacon df) = [g] := by
  unfold Bacon.timingGroups
  set l := ((List.finRange (SunAb.units df).length).filter (fun u => decide (u ∈ Bacon.units (bacon df)))).filterMap
    (fun u => Bacon.timingValue ((bacon df).cohort u)) with hl
  have h1 : ∀ z ∈ l, z = g := by
    intro z hz
    obtain ⟨i, _, hi⟩ := List.mem_filterMap.1 hz
    rw [h.bacon_cohort] at hi
    rcases h.co_cases (List.get_mem _ i) with h2 | h2
    · revert hi h2
      generalize co ((SunAb.units df).get i) = c
      intro hi h2
      cases c with
      | num q =>
        simp only [Coh.isNever, decide_eq_true_eq] at h2
        subst h2
        simp [Bacon.timingValue] at hi
      | inf => simp [Bacon.timingValue] at hi
      | nan => simp [Bacon.timingValue] at hi
    · rw [h2] at hi
      simp [Bacon.timingValue, h.gpos.1] at hi
      exact hi.symm
  have h2 : g ∈ l := by
    obtain ⟨i, hi⟩ := Finset.card_pos.1 (by rw [h.arm_card true _ h.mem_members]; exact h.arm_pos true :
      0 < (Bacon.members (bacon df) g).card)
    have hi' := (Finset.mem_filter.1 hi)
    refine List.mem_filterMap.2 ⟨i, List.mem_filter.2 ⟨List.mem_finRange i, by simpa using hi'.1⟩, ?_⟩
    rw [hi'.2]
    simp [Bacon.timingValue, h.gpos.1]
  have h3 : l.dedup = [g] := by
    have hn := List.nodup_dedup l
    have hm : ∀ z, z ∈ l.dedup ↔ z = g := fun z => by
      rw [List.mem_dedup]
      exact ⟨h1 z, fun hz => hz ▸ h2⟩
    rcases hd : l.dedup with _ | ⟨x, _ | ⟨y, xs⟩⟩
    · have := (hm g).2 rfl
      rw [hd] at this
      cases this
    · rw [(hm x).1 (by rw [hd]; simp)]
    · rw [hd] at hn
      have hx := (hm x).1 (by rw [hd]; simp)
      have hy := (hm y).1 (by rw [hd]; simp)
      rw [List.nodup_cons] at hn
      exact absurd (by rw [hx, hy]; simp) hn.1
  rw [h3]
  rfl

end baconFacts

/-- C137. `BaconDecomposition` finds one comparison, whose estimate is the block difference in differences and whose weight is one, for both weight
options; the two-way fixed effects coefficient that it decomposes is the same number and the decomposition error is zero. -/
theorem C137_bacon (h : Panel df U T co g) (m : Bacon.WeightMode) :
    (Bacon.fit m (bacon df)).twfe = some (static df g) ∧ (Bacon.fit m (bacon df)).error = some 0 ∧
    ∃ c, (Bacon.fit m (bacon df)).comparisons = [c] ∧ c.kind = .treatedVsNever ∧ c.treated = g ∧ c.estimate = some (static df g) ∧ c.weight = 1 ∧
      c.nTreated = (arm U co true).card ∧ c.nControl = (arm U co false).card := by
  have hpre : Bacon.prePeriods (bacon df) .treatedVsNever g none = per T (fun t => decide (t < g)) := by
    show (Bacon.times (bacon df)).filter _ = _
    rw [h.bacon_times]
    unfold per
    simp
  have hpost : Bacon.postPeriods (bacon df) .treatedVsNever g none = per T (fun t => decide (g ≤ t)) := by
    show (Bacon.times (bacon df)).filter _ = _
    rw [h.bacon_times]
    unfold per
    simp
  have hM := h.arm_card true _ h.mem_members
  have hN := h.arm_card false _ h.mem_never
  obtain ⟨c, hc⟩ : ∃ c, Bacon.treatedVsNever (bacon df) g = some c ∧ c.kind = .treatedVsNever ∧ c.treated = g ∧
      c.estimate = some (static df g) ∧ c.nTreated = (arm U co true).card ∧ c.nControl = (arm U co false).card := by
    unfold Bacon.treatedVsNever
    rw [if_neg (by rw [hM, hN]; have := h.arm_pos true; have := h.arm_pos false; omega), hpre, hpost,
      if_neg (by have := h.pre_pos; have := h.post_pos; omega)]
    refine ⟨_, rfl, rfl, rfl, ?_, hM, hN⟩
    show Bacon.did _ _ _ _ _ = _
    unfold Bacon.did
    rw [h.bacon_mean true _ h.mem_members _ h.post_pos, h.bacon_mean true _ h.mem_members _ h.pre_pos,
      h.bacon_mean false _ h.mem_never _ h.post_pos, h.bacon_mean false _ h.mem_never _ h.pre_pos]
    simp only [Option.some.injEq]
    unfold static gap
    ring
  have hcomp : Bacon.comparisons (bacon df) = [c] := by
    unfold Bacon.comparisons
    rw [h.timing, if_pos (by rw [hN]; exact h.arm_pos false)]
    simp [hc.1, Bacon.pairs]
  have hcm : c ∈ Bacon.comparisons (bacon df) := by rw [hcomp]; exact List.mem_singleton.2 rfl
  have hgb := (Bacon.C32_goodman_bacon (bacon df) h.bacon_balanced h.bacon_clean (by rw [hcomp]; simp)).2
  have hgp := Bacon.gbWeight_pos hcm
  refine ⟨?_, Bacon.C32_single_cohort_partial m (bacon df) h.bacon_balanced h.bacon_clean c hcomp, ?_⟩
  · show Bacon.twfe _ = _
    rw [hgb, hcomp]
    simp only [List.map_cons, List.map_nil, List.sum_cons, List.sum_nil, add_zero, hc.2.2.2.1, Option.getD_some]
    rw [mul_comm, mul_div_assoc, div_self hgp.ne', mul_one]
  · obtain ⟨_, k1, k2, k3, k4, k5⟩ := hc
    have hw : 0 < Bacon.rawWeight m (bacon df) c := by
      cases m with
      | approximate => exact Bacon.approxWeight_pos (Bacon.reported_of_mem hcm)
      | exact => exact Bacon.exactWeight_pos (Bacon.reported_of_mem hcm)
    have hmode : Bacon.withMode m (bacon df) [c] = [{ c with weight := Bacon.rawWeight m (bacon df) c }] := by
      cases m <;> rfl
    have hnorm : (Bacon.fit m (bacon df)).comparisons = [{ c with weight := 1 }] := by
      show Bacon.normalise (Bacon.withMode m (bacon df) (Bacon.comparisons (bacon df))) = _
      rw [hcomp, hmode]
      unfold Bacon.normalise Bacon.totalWeight
      simp [hw, div_self hw.ne']
    exact ⟨_, hnorm, k1, k2, k3, rfl, k4, k5⟩

/-! ### Callaway-Sant'Anna and Sun-Abraham -/

/-- All post periods against the last period before treatment. -/
def dynamic (df : List (Row K)) (g : ℤ) : K := gap df (fun t => decide (g ≤ t)) - gap df (fun t => decide (t = g - 1))

theorem Panel.did (h : Panel df U T co g) (b t : ℤ) :
    SunAb.did df g b t = gap df (fun s => decide (s = t)) - gap df (fun s => decide (s = b)) := by
  have h1 : ∀ t, SunAb.cell df (fun c => decide (c = .num g)) t = rows df true (fun s => decide (s = t)) := by
    intro t
    unfold SunAb.cell rows
    apply List.filter_congr
    intro r hr
    rw [Bool.and_comm]
    congr 1
    rw [Bool.eq_iff_iff]
    simp only [decide_eq_true_eq]
    rcases h.single r hr with h2 | h2
    · rw [h2]
      constructor
      · intro h3
        rw [h3, h.num_not_never] at h2
        cases h2
      · intro h3; cases h3
    · rw [h2, h.num_not_never]
      simp
  have h0 : ∀ t, SunAb.cell df Coh.isNever t = rows df false (fun s => decide (s = t)) := by
    intro t
    unfold SunAb.cell rows
    apply List.filter_congr
    intro r _
    rw [Bool.and_comm]
    congr 1
    rw [Bool.eq_iff_iff]
    simp
  unfold SunAb.did gap
  rw [h1, h1, h0, h0]
  ring

/-- With one cohort the choice of the control group makes no difference to the effects after treatment. -/
theorem Panel.control_choice (h : Panel df U T co g) (cfg : Cfg) :
    CS.postPairs 0 (CS.effects cfg (SunAb.pivot df)) = CS.postPairs 0 (CS.effects { cfg with ctl := .never } (SunAb.pivot df)) := by
  unfold CS.postPairs CS.effects
  rw [List.filter_flatMap, List.filter_flatMap]
  apply List.flatMap_congr
  intro q hq
  rw [List.filter_filterMap, List.filter_filterMap]
  have hv : CS.validPeriods { cfg with ctl := .never } (SunAb.pivot df) q = CS.validPeriods cfg (SunAb.pivot df) q := rfl
  rw [hv]
  apply List.filterMap_congr
  intro t _
  have hcase : q = .num g ∨ q = .inf := by
    unfold CS.groups at hq
    rw [List.mem_insertionSort, List.mem_filter, List.mem_dedup, List.mem_map] at hq
    obtain ⟨⟨i, _, hi⟩, hp⟩ := hq
    have hi' : co ((SunAb.units df).get i) = q := by rw [← hi]; exact (h.bacon_cohort i).symm
    rcases h.co_cases (List.get_mem _ i) with h1 | h1
    · rw [hi'] at h1
      cases q with
      | num z =>
        simp only [Coh.isNever, Coh.pos, decide_eq_true_eq] at h1 hp
        omega
      | inf => exact Or.inr rfl
      | nan => cases h1
    · exact Or.inl (hi'.symm.trans h1)
  rcases hcase with rfl | rfl
  · have hmask : ∀ b, CS.controlSet cfg (SunAb.pivot df) (.num g) b t = CS.controlSet { cfg with ctl := .never } (SunAb.pivot df) (.num g) b t := by
      intro b
      unfold CS.controlSet
      apply Finset.filter_congr
      intro i _
      have : CS.controlMask cfg (SunAb.pivot df) (.num g) t i = ((SunAb.pivot df).cohort i).isNever := by
        unfold CS.controlMask
        cases cfg.ctl with
        | never => rfl
        | notYet =>
          have hc : (SunAb.pivot df).cohort i = co ((SunAb.units df).get i) := h.bacon_cohort i
          simp only
          rcases h.co_cases (List.get_mem _ i) with h1 | h1
          · rw [hc, h1]; rfl
          · rw [hc, h1]
            simp
      rw [this]
      rfl
    have hatt : CS.attGt cfg (SunAb.pivot df) (.num g) t = CS.attGt { cfg with ctl := .never } (SunAb.pivot df) (.num g) t := by
      unfold CS.attGt
      have hb : CS.basePeriod { cfg with ctl := .never } (.num g) t = CS.basePeriod cfg (.num g) t := rfl
      rw [hb]
      cases CS.basePeriod cfg (.num g) t with
      | none => rfl
      | some b =>
        simp only [hmask]
    rw [hatt]
  · have hz : ∀ c : Cfg, Option.filter (fun x : (Coh × ℤ) × CS.Entry _ K => !x.1.1.pre 0 x.1.2)
        ((CS.attGt c (SunAb.pivot df) .inf t).map (fun e => ((Coh.inf, t), e))) = none := by
      intro c
      cases CS.attGt c (SunAb.pivot df) .inf t with
      | none => rfl
      | some e => rfl
    rw [hz, hz]

/-- C137. The overall effect of `CallawaySantAnna` without covariates and anticipation, for every method, base period and control group, compares
all post periods with the last period before treatment. -/
theorem C137_callaway (h : Panel df U T co g) (cfg : Cfg) (hant : cfg.ant = 0) :
    CS.overall 0 (CS.effects cfg (SunAb.pivot df)) = some (dynamic df g) := by
  unfold CS.overall
  rw [h.control_choice cfg]
  set c : Cfg := { cfg with ctl := .never } with hc
  set l := CS.postPairs 0 (CS.effects c (SunAb.pivot df)) with hl
  have hcant : c.ant = 0 := hant
  obtain ⟨rt, hrt, hrtn⟩ := h.treated
  have hrc : rt.cohort = .num g := by
    rcases h.single rt hrt with h1 | h1
    · rw [hrtn] at h1; cases h1
    · exact h1
  have hbase : ∀ t, g ≤ t → CS.basePeriod c (.num g) t = some (g - 1) := by
    intro t ht
    unfold CS.basePeriod
    have : (Coh.num g).pre c.ant t = false := by
      simp only [Coh.pre, decide_eq_false_iff_not, hcant]
      omega
    rw [hcant]
    cases c.base with
    | universal => simp
    | varying =>
      rw [hcant] at this
      simp [this]
  have hpd : ∀ x ∈ l, x.1.1 = .num g ∧ g ≤ x.1.2 ∧ x.1.2 ∈ T ∧
      x.2.effect = gap df (fun s => decide (s = x.1.2)) - gap df (fun s => decide (s = g - 1)) ∧ x.2.nT = SunAb.size df (.num g) := by
    rintro ⟨⟨q, t⟩, E⟩ hx
    obtain ⟨hx1, hx2⟩ := List.mem_filter.1 hx
    obtain ⟨hq, ht, hE⟩ := SunAb.mem_effects_iff.1 hx1
    have htT : t ∈ T := by
      have : t ∈ (SunAb.pivot df).times := by
        unfold CS.validPeriods at ht
        split at ht <;> exact (List.mem_filter.1 ht).1
      exact (h.times (h.grid.mem rt hrt).1 t).1 this
    cases q with
    | num z =>
      obtain ⟨hz, r, hr, hrz⟩ := (h.mem_groups z).1 hq
      have hzg : z = g := by
        rcases h.single r hr with h1 | h1
        · rw [hrz] at h1
          simp only [Coh.isNever, decide_eq_true_eq] at h1
          omega
        · rw [hrz] at h1; cases h1; rfl
      subst hzg
      have hge : z ≤ t := by
        simp only [Coh.pre, Bool.not_eq_true', decide_eq_false_iff_not] at hx2
        omega
      obtain ⟨E', hE', he, hn⟩ := h.toBase.attGt c rfl (hbase t hge) h.gpos.2 htT ⟨rt, hrt, hrc⟩ h.control
      rw [hE'] at hE
      cases hE
      exact ⟨rfl, hge, htT, by rw [he, h.did], hn⟩
    | inf => cases hx2
    | nan =>
      exfalso
      unfold CS.groups at hq
      rw [List.mem_insertionSort, List.mem_filter] at hq
      cases hq.2
  have hmem : ∀ t, t ∈ l.map (fun x => x.1.2) ↔ t ∈ per T (fun t => decide (g ≤ t)) := by
    intro t
    unfold per
    rw [List.mem_map, Finset.mem_filter, List.mem_toFinset, decide_eq_true_eq]
    constructor
    · rintro ⟨x, hx, rfl⟩
      exact ⟨(hpd x hx).2.2.1, (hpd x hx).2.1⟩
    · rintro ⟨ht, hg⟩
      obtain ⟨E, hE, _⟩ := h.toBase.attGt c rfl (hbase t hg) h.gpos.2 ht ⟨rt, hrt, hrc⟩ h.control
      refine ⟨((.num g, t), E), List.mem_filter.2 ⟨SunAb.mem_effects_iff.2 ⟨(h.mem_groups g).2 ⟨h.gpos.1, rt, hrt, hrc⟩, ?_, hE⟩, ?_⟩, rfl⟩
      · have htt := (h.times (h.grid.mem rt hrt).1 t).2 ht
        unfold CS.validPeriods
        cases c.base with
        | universal =>
          simp only
          rw [List.mem_filter]
          exact ⟨htt, by simp only [decide_eq_true_eq, hcant]; omega⟩
        | varying =>
          simp only
          rw [List.mem_filter]
          refine ⟨htt, ?_⟩
          simp only [Coh.post, hcant, Bool.or_eq_true, decide_eq_true_eq]
          left; omega
      · simp only [Coh.pre, Bool.not_eq_true', decide_eq_false_iff_not]
        omega
  have hnd : (l.map (fun x => x.1.2)).Nodup := by
    have h1 := SunAb.effects_keys_nodup c (SunAb.pivot df) (((List.perm_insertionSort _ _).nodup_iff).2 (List.nodup_dedup _))
    have h2 : (l.map (fun x => x.1)).Nodup := List.Nodup.sublist (List.filter_sublist.map _) h1
    have h3 : l.map (fun x => x.1) = (l.map (fun x => x.1.2)).map (fun t => (Coh.num g, t)) := by
      rw [List.map_map]
      apply List.map_congr_left
      intro x hx
      exact Prod.ext (hpd x hx).1 rfl
    rw [h3] at h2
    exact List.Nodup.of_map _ h2
  have hcard : l.length = (per T (fun t => decide (g ≤ t))).card := by
    have : (l.map (fun x => x.1.2)).toFinset = per T (fun t => decide (g ≤ t)) := by ext t; rw [List.mem_toFinset, hmem]
    rw [← this, List.toFinset_card_of_nodup hnd, List.length_map]
  have hpp := h.post_pos
  have hcK : ((per T (fun t => decide (g ≤ t))).card : K) ≠ 0 := by exact_mod_cast hpp.ne'
  simp only
  rw [if_neg (by omega), CS.dot_sizeWeights]
  have hsz : (SunAb.size df (.num g) : K) ≠ 0 := by
    have : 0 < SunAb.size df (.num g) := by
      unfold SunAb.size
      apply List.length_pos_of_mem (a := rt.unit)
      have hm : rt.unit ∈ SunAb.units df := SunAb.mem_units.2 ⟨rt, hrt, rfl⟩
      exact List.mem_filter.2 ⟨hm, by rw [h.unitCohort hm, ← h.cohort rt hrt, hrc]; simp⟩
    exact_mod_cast this.ne'
  have e1 : (l.map (fun x => (x.2.nT : K) * x.2.effect)).sum = (SunAb.size df (.num g) : K) *
      ∑ t ∈ per T (fun t => decide (g ≤ t)), (gap df (fun s => decide (s = t)) - gap df (fun s => decide (s = g - 1))) := by
    rw [← sum_list_finset hnd hmem (fun t => gap df (fun s => decide (s = t)) - gap df (fun s => decide (s = g - 1))), List.map_map,
      ← List.sum_map_mul_left]
    apply congrArg List.sum
    apply List.map_congr_left
    intro x hx
    obtain ⟨_, _, _, he, hn⟩ := hpd x hx
    rw [he, hn]
    rfl
  have e2 : (l.map (fun x => (x.2.nT : K))).sum = (SunAb.size df (.num g) : K) * ((per T (fun t => decide (g ≤ t))).card : K) := by
    rw [List.map_congr_left (g := fun _ => (SunAb.size df (.num g) : K)) (fun x hx => by rw [(hpd x hx).2.2.2.2]), List.map_const',
      List.sum_replicate, hcard, nsmul_eq_mul, mul_comm]
  rw [e1, e2, mul_div_mul_left _ _ hsz, Finset.sum_sub_distrib, Finset.sum_const, nsmul_eq_mul, sub_div, ← gap_mean h.toBase,
    mul_div_assoc, mul_comm, div_mul_cancel₀ _ hcK]
  rfl

/-- C137. The overall effect of `SunAbraham` is the same number (event times within its horizon). -/
theorem C137_sunab (h : Panel df U T co g) (hR : Regular 0 df U T co) (reg : List (List K) → List K → Option (SunAb.Reg K))
    (hreg : SunAb.SolvesLS reg) (c : SunAb.Control) (R : SunAb.Results K) (hf : SunAb.fit reg 0 c df = .ok R) :
    R.overall.1 = some (dynamic df g) := by
  rw [(SunAb.C136_overall reg hreg c df U T co hR R hf ⟨.universal, .never, 0, .reg⟩ rfl rfl).1,
    C137_callaway h ⟨.universal, .never, 0, .reg⟩ rfl]
  rfl

/-- C137. The static and the dynamic number differ by the gap in the last pre period less the average of the gaps in all pre periods. They agree
exactly when this deviation is zero, in particular with a single pre period. -/
theorem C137_difference (h : Panel df U T co g) :
    static df g - dynamic df g = gap df (fun t => decide (t = g - 1)) -
      (∑ t ∈ per T (fun t => decide (t < g)), gap df (fun s => decide (s = t))) / ((per T (fun t => decide (t < g))).card : K) ∧
    ((∀ t ∈ T, t < g → t = g - 1) → static df g = dynamic df g) := by
  have e : static df g - dynamic df g = gap df (fun t => decide (t = g - 1)) -
      (∑ t ∈ per T (fun t => decide (t < g)), gap df (fun s => decide (s = t))) / ((per T (fun t => decide (t < g))).card : K) := by
    unfold static dynamic
    rw [gap_mean h.toBase (fun t => decide (t < g))]
    ring
  refine ⟨e, fun hone => ?_⟩
  have hs : per T (fun t => decide (t < g)) = {g - 1} := by
    ext t
    unfold per
    simp only [Finset.mem_filter, List.mem_toFinset, decide_eq_true_eq, Finset.mem_singleton]
    exact ⟨fun ht => hone t ht.1 ht.2, fun ht => ⟨ht ▸ h.gpos.2, by omega⟩⟩
  rw [hs] at e
  simp only [Finset.sum_singleton, Finset.card_singleton, Nat.cast_one, div_one, sub_self] at e
  exact sub_eq_zero.1 e

/-! ### A panel meeting the hypotheses -/

/-- Units 1 and 2 of cohort 3, units 3, 4 and 5 never treated; four periods. -/
def demo : List (Row ℚ) :=
  [⟨0, 1, 1, .num 3, some 3⟩, ⟨1, 1, 2, .num 3, some 1⟩, ⟨2, 1, 3, .num 3, some 4⟩, ⟨3, 1, 4, .num 3, some 9⟩,
   ⟨4, 2, 1, .num 3, some 0⟩, ⟨5, 2, 2, .num 3, some 2⟩, ⟨6, 2, 3, .num 3, some 8⟩, ⟨7, 2, 4, .num 3, some 6⟩,
   ⟨8, 3, 1, .num 0, some 1⟩, ⟨9, 3, 2, .num 0, some 2⟩, ⟨10, 3, 3, .num 0, some 2⟩, ⟨11, 3, 4, .num 0, some 3⟩,
   ⟨12, 4, 1, .inf, some 7⟩, ⟨13, 4, 2, .inf, some 5⟩, ⟨14, 4, 3, .inf, some 6⟩, ⟨15, 4, 4, .inf, some 4⟩,
   ⟨16, 5, 1, .num 0, some 1⟩, ⟨17, 5, 2, .num 0, some 8⟩, ⟨18, 5, 3, .num 0, some 4⟩, ⟨19, 5, 4, .num 0, some 5⟩]

def demoCo : ℕ → Coh := fun u => if u ≤ 2 then .num 3 else if u = 4 then .inf else .num 0

theorem demo_panel : Panel demo [1, 2, 3, 4, 5] [1, 2, 3, 4] demoCo 3 := by
  refine ⟨⟨⟨by decide, by decide, by decide +kernel, by decide +kernel⟩, by decide +kernel, ?_, by decide +kernel⟩, by decide +kernel,
    ⟨⟨0, 1, 1, .num 3, some 3⟩, by simp [demo], rfl⟩, ⟨⟨8, 3, 1, .num 0, some 1⟩, by simp [demo], rfl⟩, ⟨3, by decide, le_refl _⟩⟩
  have hs : ∀ r ∈ demo, r.cohort.isNever = true ∨ r.cohort = .num 3 := by decide +kernel
  intro r hr
  rcases hs r hr with h | h
  · exact Or.inl h
  · exact Or.inr ⟨3, by decide, h, by decide⟩

theorem demo_regular : Regular 0 demo [1, 2, 3, 4, 5] [1, 2, 3, 4] demoCo := by
  refine ⟨demo_panel.toBase, ?_⟩
  intro r hr e he
  have hs : ∀ r ∈ demo, (SunAb.relTime r).all (fun e => decide (-20 ≤ e ∧ e ≤ 20)) = true := by decide +kernel
  have := hs r hr
  rw [he] at this
  simpa using this

/-- The hypotheses of C137 are met: the Sun-Abraham fit succeeds on the demo panel, and the overall effect is 25/4. -/
example : ∃ R, SunAb.fit SunAb.bestLS 0 .never demo = .ok R ∧ R.overall.1 = some (25 / 4) := by
  obtain ⟨R, hR⟩ := demo_regular.fit_ok .never (by decide +kernel) (by decide +kernel)
  refine ⟨R, hR, ?_⟩
  rw [C137_sunab demo_panel demo_regular _ SunAb.bestLS_solves .never R hR]
  have : dynamic demo 3 = 25 / 4 := by decide +kernel
  rw [this]

/-- C137, refuted in general: with more than one pre period the two families of estimators return different numbers on the same balanced
panel with one cohort (21/4 against 25/4). -/
theorem C137_one_number_refuted : ∃ (df : List (Row ℚ)) (U : List ℕ) (T : List ℤ) (co : ℕ → Coh) (g : ℤ), Panel df U T co g ∧
    (∀ att, Did2x2.IsAtt (out df) (treat df) (after df g) att → att = 21 / 4) ∧
    ∀ cfg : Cfg, cfg.ant = 0 → CS.overall 0 (CS.effects cfg (SunAb.pivot df)) = some (25 / 4) := by
  refine ⟨demo, _, _, _, 3, demo_panel, ?_, ?_⟩
  · intro att ha
    rw [C137_did demo_panel att ha]
    decide +kernel
  · intro cfg hc
    rw [C137_callaway demo_panel cfg hc]
    have : dynamic demo 3 = 25 / 4 := by decide +kernel
    rw [this]

/-! ### TwoWayFixedEffects -/

section twfe
variable {V : Type*} [Fintype V] [DecidableEq V]

/-- Sum of the outcomes of an arm in one of the two periods. -/
def armSum (y : V × Bool → K) (tr : V → Bool) (a b : Bool) : K := ∑ v ∈ Finset.univ.filter (fun v => tr v = a), y (v, b)

theorem sum_split (tr : V → Bool) (f : V → K) :
    ∑ v, f v = ∑ v ∈ Finset.univ.filter (fun v => tr v = true), f v + ∑ v ∈ Finset.univ.filter (fun v => tr v = false), f v := by
  rw [← Finset.sum_filter_add_sum_filter_not Finset.univ (fun v => tr v = true)]
  simp

theorem cell_sum (y : V × Bool → K) (tr : V → Bool) (a b : Bool) :
    ∑ i ∈ Did2x2.cell (fun i : V × Bool => tr i.1) (fun i => i.2) a b, y i = armSum y tr a b ∧
    (Did2x2.cell (fun i : V × Bool => tr i.1) (fun i => i.2) a b).card = (Finset.univ.filter (fun v => tr v = a)).card := by
  have e : Did2x2.cell (fun i : V × Bool => tr i.1) (fun i => i.2) a b = (Finset.univ.filter (fun v => tr v = a)) ×ˢ {b} := by
    unfold Did2x2.cell
    ext ⟨v, c⟩
    rw [Finset.mem_filter, Finset.mem_product, Finset.mem_filter, Finset.mem_singleton]
    simp
  rw [e]
  constructor
  · rw [Finset.sum_product]
    simp [armSum]
  · rw [Finset.card_product]
    simp

theorem unit_mean (y : V × Bool → K) (v : V) (b : Bool) :
    Within.groupMean Prod.fst y (v, b) = (y (v, true) + y (v, false)) / 2 := by
  unfold Within.groupMean
  have e : Within.grp (Prod.fst : V × Bool → V) v = {v} ×ˢ Finset.univ := by
    unfold Within.grp
    ext ⟨w, c⟩
    rw [Finset.mem_filter, Finset.mem_product, Finset.mem_singleton]
    simp
  simp only
  rw [e, Finset.sum_product, Finset.card_product]
  simp

theorem period_mean (y : V × Bool → K) (tr : V → Bool) (v : V) (b : Bool) :
    Within.groupMean Prod.snd y (v, b) = (armSum y tr true b + armSum y tr false b) / (Fintype.card V : K) := by
  unfold Within.groupMean
  have e : Within.grp (Prod.snd : V × Bool → Bool) b = Finset.univ ×ˢ {b} := by
    unfold Within.grp
    ext ⟨w, c⟩
    rw [Finset.mem_filter, Finset.mem_product, Finset.mem_singleton]
    simp
  simp only
  rw [e, Finset.sum_product, Finset.card_product]
  simp only [Finset.sum_singleton, Finset.card_singleton, mul_one, Finset.card_univ]
  rw [sum_split tr]
  rfl

theorem grand_mean (y : V × Bool → K) (tr : V → Bool) :
    Within.grandMean y = (armSum y tr true true + armSum y tr false true + armSum y tr true false + armSum y tr false false) /
      (2 * (Fintype.card V : K)) := by
  unfold Within.grandMean
  rw [Fintype.sum_prod_type, Fintype.card_prod, sum_split tr]
  simp only [Fintype.sum_bool, Finset.sum_add_distrib, Fintype.card_bool]
  unfold armSum
  push_cast
  congr 1
  · ring
  · ring

/-- C137, refuted for `TwoWayFixedEffects`: in a two-period panel with `n1` treated and `n0` control units it reports the fraction
`n0 / (n1 + 2 n0)` of the difference in differences, hence at most half of it, and one third with equally many treated and control units. -/
theorem C137_twfe_refuted (y : V × Bool → K) (tr : V → Bool) (hex : ∀ a, ∃ v, tr v = a) (att : K)
    (h : Within.IsTwfeAtt (Prod.fst : V × Bool → V) Prod.snd (fun b => if b then (1 : K) else 0) (fun i => if tr i.1 then 1 else 0) y att) :
    att * (((Finset.univ.filter (fun v => tr v = true)).card : K) + 2 * ((Finset.univ.filter (fun v => tr v = false)).card : K)) =
      ((Finset.univ.filter (fun v => tr v = false)).card : K) * Did2x2.did y (fun i => tr i.1) (fun i => i.2) ∧
    2 * |att| ≤ |Did2x2.did y (fun i => tr i.1) (fun i => i.2)| ∧
    (Did2x2.did y (fun i => tr i.1) (fun i => i.2) ≠ 0 → att ≠ Did2x2.did y (fun i => tr i.1) (fun i => i.2)) := by
  obtain ⟨b0, h1, h2⟩ := h
  set A := Finset.univ.filter (fun v => tr v = true) with hA
  set B := Finset.univ.filter (fun v => tr v = false) with hB
  have hAp : (0 : K) < A.card := by
    obtain ⟨v, hv⟩ := hex true
    exact_mod_cast Finset.card_pos.2 ⟨v, by simp [hA, hv]⟩
  have hBp : (0 : K) < B.card := by
    obtain ⟨v, hv⟩ := hex false
    exact_mod_cast Finset.card_pos.2 ⟨v, by simp [hB, hv]⟩
  have hN : (Fintype.card V : K) = A.card + B.card := by
    have := sum_split (K := K) tr (fun _ => 1)
    simpa using this
  set s := armSum y tr with hs
  -- the within transformed outcome
  have hw : ∀ v b, Within.within Prod.fst Prod.snd y (v, b) = y (v, b) - (y (v, true) + y (v, false)) / 2 -
      (s true b + s false b) / (A.card + B.card) + (s true true + s false true + s true false + s false false) / (2 * (A.card + B.card)) := by
    intro v b
    unfold Within.within
    rw [unit_mean, period_mean y tr, grand_mean y tr, hN]
  -- sums of the transformed outcome
  have hsum : ∀ (a b : Bool), ∑ v ∈ Finset.univ.filter (fun v => tr v = a), Within.within Prod.fst Prod.snd y (v, b) =
      s a b - (s a true + s a false) / 2 - ((Finset.univ.filter (fun v => tr v = a)).card : K) * ((s true b + s false b) / (A.card + B.card)) +
      ((Finset.univ.filter (fun v => tr v = a)).card : K) *
        ((s true true + s false true + s true false + s false false) / (2 * (A.card + B.card))) := by
    intro a b
    have h3 : ∀ b, s a b = ∑ v ∈ Finset.univ.filter (fun v => tr v = a), y (v, b) := fun b => rfl
    rw [Finset.sum_congr rfl (fun v _ => hw v b), Finset.sum_add_distrib, Finset.sum_sub_distrib, Finset.sum_sub_distrib, ← Finset.sum_div,
      Finset.sum_add_distrib, Finset.sum_const, Finset.sum_const, nsmul_eq_mul, nsmul_eq_mul, ← h3, ← h3, ← h3]
  have hall : ∑ i : V × Bool, Within.within Prod.fst Prod.snd y i = 0 := by
    rw [Fintype.sum_prod_type, sum_split tr]
    simp only [Fintype.sum_bool, Finset.sum_add_distrib, hsum]
    rw [← hA, ← hB]
    have : (A.card : K) + B.card ≠ 0 := by positivity
    field_simp
    ring
  have hd : ∑ i : V × Bool, ((if tr i.1 then (1 : K) else 0) * (if i.2 then 1 else 0)) = A.card := by
    rw [Fintype.sum_prod_type]
    simp [hA]
  have e1 : (2 * ((A.card : K) + B.card)) * b0 + att * A.card = 0 := by
    have : ∑ i : V × Bool, (Within.within Prod.fst Prod.snd y i - b0 - att * ((if tr i.1 then (1 : K) else 0) * (if i.2 then 1 else 0))) = 0 := h1
    rw [Finset.sum_sub_distrib, Finset.sum_sub_distrib, hall, ← Finset.mul_sum, hd, Finset.sum_const, Finset.card_univ, Fintype.card_prod,
      Fintype.card_bool, nsmul_eq_mul] at this
    push_cast at this
    rw [hN] at this
    linarith
  have e2 : ∑ v ∈ A, Within.within Prod.fst Prod.snd y (v, true) = A.card * (b0 + att) := by
    have h2' : ∑ i : V × Bool, ((if tr i.1 then (1 : K) else 0) * (if i.2 then 1 else 0)) *
        (Within.within Prod.fst Prod.snd y i - b0 - att * ((if tr i.1 then (1 : K) else 0) * (if i.2 then 1 else 0))) = 0 := h2
    have w : ∑ v ∈ A, (Within.within Prod.fst Prod.snd y (v, true) - b0 - att) = 0 := by
      rw [← h2', Fintype.sum_prod_type, hA, Finset.sum_filter]
      apply Finset.sum_congr rfl
      intro v _
      rw [Fintype.sum_bool]
      by_cases hv : tr v = true <;> simp [hv]
    rw [Finset.sum_sub_distrib, Finset.sum_sub_distrib, Finset.sum_const, Finset.sum_const, nsmul_eq_mul, nsmul_eq_mul] at w
    linarith
  rw [hA, hsum, ← hA] at e2
  have hdid : Did2x2.did y (fun i : V × Bool => tr i.1) (fun i => i.2) =
      (s true true / A.card - s true false / A.card) - (s false true / B.card - s false false / B.card) := by
    unfold Did2x2.did Did2x2.cellMean
    rw [(cell_sum y tr true true).1, (cell_sum y tr true true).2, (cell_sum y tr true false).1, (cell_sum y tr true false).2,
      (cell_sum y tr false true).1, (cell_sum y tr false true).2, (cell_sum y tr false false).1, (cell_sum y tr false false).2]
  set δ := Did2x2.did y (fun i : V × Bool => tr i.1) (fun i => i.2) with hδ
  have key : att * ((A.card : K) + 2 * B.card) = B.card * δ := by
    have hn : (A.card : K) + B.card ≠ 0 := by positivity
    have e3 : ((A.card : K) + B.card) * (s true true - s true false) - A.card * (s true true + s false true - s true false - s false false) =
        (2 * ((A.card : K) + B.card)) * (A.card * (b0 + att)) := by
      rw [← e2]
      field_simp
      ring
    have e4 : (A.card : K) * B.card * δ = B.card * (s true true - s true false) - A.card * (s false true - s false false) := by
      rw [hdid]
      field_simp
    have e5 : (A.card : K) * (att * ((A.card : K) + 2 * B.card)) = A.card * (B.card * δ) := by
      linear_combination (-1 : K) * e3 - e4 - (A.card : K) * e1
    exact mul_left_cancel₀ hAp.ne' e5
  have hδa : |att| * ((A.card : K) + 2 * B.card) = B.card * |δ| := by
    have := congrArg abs key
    rw [abs_mul, abs_mul, abs_of_pos hBp, abs_of_pos (by positivity : (0 : K) < (A.card : K) + 2 * B.card)] at this
    exact this
  have hhalf : 2 * |att| ≤ |δ| := by
    have h0 := abs_nonneg att
    by_contra hc
    rw [not_le] at hc
    have : (B.card : K) * |δ| < B.card * (2 * |att|) := mul_lt_mul_of_pos_left hc hBp
    rw [← hδa] at this
    have := mul_nonneg h0 hAp.le
    nlinarith
  refine ⟨key, hhalf, fun hne he => ?_⟩
  rw [he] at hhalf
  have := abs_pos.2 hne
  linarith

/-- Three treated and one control unit: an instance of the hypotheses with a non-zero effect. -/
example : ∃ att : ℚ, Within.IsTwfeAtt (Prod.fst : Fin 4 × Bool → Fin 4) Prod.snd (fun b => if b then (1 : ℚ) else 0)
    (fun i => if decide (i.1 < 3) then 1 else 0) (fun i => if i.1 < 3 ∧ i.2 = true then 5 else 0) att ∧ att = 1 := by
  refine ⟨1, ⟨-3/8, ?_, ?_⟩, rfl⟩ <;> decide +kernel

end twfe

end DiffDiff.Block
