/-
Each evaluation of the two-step leave-one-out score is made once, at one combination, with its own subsample (C147).
-/
import Verif.TropCvProps

set_option linter.unusedSectionVars false

namespace DiffDiff.TropCv

variable {K : Type*} [Field K] [LinearOrder K]

/-- Started after `k` evaluations, `f` evaluates the score at the combinations of a list, in this order: the first with sample `k`, the second with sample
`k + 1`, and so on. No other value of the score matters, and the count goes up by the length of the list. -/
def Traced {A : Type*} (f : (ℕ → Trop.Lam K → Option (Ext K)) → ℕ → ℕ × A) : Prop :=
  ∀ score k, ∃ tr : List (Trop.Lam K), (f score k).1 = k + tr.length ∧
    ∀ score' : ℕ → Trop.Lam K → Option (Ext K), (∀ i (h : i < tr.length), score' (k + i) tr[i] = score (k + i) tr[i]) → f score' k = f score k

theorem Traced.bind {A B : Type*} {f : (ℕ → Trop.Lam K → Option (Ext K)) → ℕ → ℕ × A} {h : A → (ℕ → Trop.Lam K → Option (Ext K)) → ℕ → ℕ × B}
    (hf : Traced f) (hh : ∀ a, Traced (h a)) : Traced (fun score k => h (f score k).2 score (f score k).1) := by
  intro score k
  obtain ⟨tr, h1, h2⟩ := hf score k
  obtain ⟨tr', h3, h4⟩ := hh (f score k).2 score (f score k).1
  refine ⟨tr ++ tr', by rw [h3, h1, List.length_append, Nat.add_assoc], fun score' ha => ?_⟩
  have e : f score' k = f score k := h2 score' fun i hi => by
    have := ha i (by rw [List.length_append]; omega)
    rwa [List.getElem_append_left hi] at this
  show h (f score' k).2 score' (f score' k).1 = _
  rw [e]
  refine h4 score' fun i hi => ?_
  have := ha (tr.length + i) (by rw [List.length_append]; omega)
  rw [List.getElem_append_right (by omega)] at this
  simp only [Nat.add_sub_cancel_left] at this
  rw [h1, Nat.add_assoc]
  exact this

theorem Traced.map {A B : Type*} {f : (ℕ → Trop.Lam K → Option (Ext K)) → ℕ → ℕ × A} (hf : Traced f) (q : A → B) :
    Traced (fun score k => ((f score k).1, q (f score k).2)) := by
  intro score k
  obtain ⟨tr, h1, h2⟩ := hf score k
  exact ⟨tr, h1, fun score' ha => by simp only [h2 score' ha]⟩

theorem Traced.pure {A : Type*} (a : A) : Traced (K := K) (fun _ k => (k, a)) := fun _ _ => ⟨[], rfl, fun _ _ => rfl⟩

theorem Traced.ite {A : Type*} {p : Prop} [Decidable p] {f h : (ℕ → Trop.Lam K → Option (Ext K)) → ℕ → ℕ × A} (hf : Traced f) (hh : Traced h) :
    Traced (fun score k => if p then f score k else h score k) := by
  by_cases hp : p
  · simpa only [if_pos hp] using hf
  · simpa only [if_neg hp] using hh

theorem traced_univariate {V : Type*} (d : V) (at' : V → Trop.Lam K) (grid : List V) :
    Traced (fun score k => univariate d (fun k v => Trop.evalAt (score k) (at' v)) k grid) := by
  have key : ∀ (l : List V) (b : V × Ext K), Traced (fun score k => l.foldl (step (fun k v => Trop.evalAt (score k) (at' v))) (k, b)) := by
    intro l
    induction l with
    | nil => intro b; exact Traced.pure b
    | cons v l ih =>
      intro b
      have h1 : Traced (fun (score : ℕ → Trop.Lam K → Option (Ext K)) k => step (fun k v => Trop.evalAt (score k) (at' v)) (k, b) v) := by
        intro score k
        refine ⟨[Trop.effective (at' v)], rfl, fun score' ha => ?_⟩
        have := ha 0 (by simp)
        simp only [Nat.add_zero, List.getElem_cons_zero] at this
        simp only [step, Trop.step, Trop.evalAt, this]
      exact h1.bind ih
  exact key grid _

theorem traced_unit (g : Trop.Grids K) (l : Trop.Lam K) : Traced (fun score k => searchUnit score g k l) := traced_univariate _ _ _
theorem traced_time (g : Trop.Grids K) (l : Trop.Lam K) : Traced (fun score k => searchTime score g k l) := traced_univariate _ _ _
theorem traced_nn (g : Trop.Grids K) (l : Trop.Lam K) : Traced (fun score k => searchNn score g k l) := traced_univariate _ _ _

theorem traced_cycle (g : Trop.Grids K) (l : Trop.Lam K) : Traced (fun score k => cycle score g k l) :=
  (traced_unit g l).bind fun u => (traced_time g { l with unit := u.1 }).bind fun t =>
    (traced_nn g { time := t.1, unit := u.1, nn := l.nn }).map fun n => (({ time := t.1, unit := u.1, nn := n.1 } : Trop.Lam K), n.2)

theorem traced_cycling (g : Trop.Grids K) (n : ℕ) : ∀ (prev : Ext K) (l : Trop.Lam K), Traced (fun score k => cycling score g n k prev l) := by
  induction n with
  | zero => intro prev l; exact Traced.pure l
  | succ n ih =>
    intro prev l
    exact (traced_cycle g l).bind fun r =>
      Traced.ite (p := Ext.lt (Ext.abs (Ext.sub r.2 prev)) (.fin (1 / 10 ^ 6)) = true) (Traced.pure r.1) (ih r.2 r.1)

theorem traced_initial (g : Trop.Grids K) : ∀ score, ∃ tr : List (Trop.Lam K), (initial score g).1 = tr.length ∧
    ∀ score' : ℕ → Trop.Lam K → Option (Ext K), (∀ i (h : i < tr.length), score' i tr[i] = score i tr[i]) → initial score' g = initial score g := by
  intro score
  obtain ⟨tr, h1, h2⟩ := ((traced_time g { time := .fin 0, unit := .fin 0, nn := .pinf }).bind fun t =>
    (traced_nn g { time := .pinf, unit := .fin 0, nn := .fin 0 }).bind fun n =>
      (traced_unit g { time := .fin 0, unit := .fin 0, nn := .pinf }).map fun u => ({ time := t.1, unit := u.1, nn := n.1 } : Trop.Lam K)) score 0
  simp only [Nat.zero_add] at h1 h2
  exact ⟨tr, h1, h2⟩

/-- **C147, evaluations.** The tuning of the two-step method evaluates the score at a list of combinations, one after the other: the `i`-th evaluation uses
the `i`-th subsample and no subsample is used twice; no other value of the score matters. -/
theorem C147_evaluations (score : ℕ → Trop.Lam K → Option (Ext K)) (g : Trop.Grids K) : ∃ tr : List (Trop.Lam K),
    ∀ score' : ℕ → Trop.Lam K → Option (Ext K), (∀ i (h : i < tr.length), score' i tr[i] = score i tr[i]) → select score' g = select score g := by
  obtain ⟨tr, h1, h2⟩ := traced_initial g score
  obtain ⟨tr', h3, h4⟩ := traced_cycling g 10 .pinf (initial score g).2 score (initial score g).1
  refine ⟨tr ++ (tr' ++ [(search score g).2]), fun score' ha => ?_⟩
  have e1 : initial score' g = initial score g := h2 score' fun i hi => by
    have := ha i (by simp only [List.length_append]; omega)
    rwa [List.getElem_append_left hi] at this
  have e2 : search score' g = search score g := by
    unfold search
    rw [e1]
    refine h4 score' fun i hi => ?_
    have := ha (tr.length + i) (by simp only [List.length_append]; omega)
    rw [List.getElem_append_right (by omega)] at this
    simp only [Nat.add_sub_cancel_left] at this
    rw [List.getElem_append_left hi] at this
    rw [h1]
    exact this
  have h5 : (search score g).1 = tr.length + tr'.length := by
    unfold search
    rw [h3, h1]
  have e3 : score' (search score g).1 (search score g).2 = score (search score g).1 (search score g).2 := by
    have := ha (tr.length + tr'.length) (by simp only [List.length_append, List.length_singleton]; omega)
    rw [List.getElem_append_right (by omega)] at this
    simp only [Nat.add_sub_cancel_left] at this
    rw [List.getElem_append_right (by omega)] at this
    simp only [Nat.sub_self, List.getElem_cons_zero] at this
    rw [h5]
    exact this
  unfold select
  rw [e2, e3]

/-- A case: with one candidate per parameter the score is evaluated three times at the start, three times per cycle, and once at the end. -/
example : (search (fun _ _ => some (.fin (1 : ℚ))) { time := [.fin 0], unit := [.fin 0], nn := [.fin 0] }).1 = 9 := by decide +kernel

theorem no_controls {N : Type*} {P : TropFit.Data N} (h : ∀ t < P.nT, ∀ i < P.nN, P.D t i = 0 → P.Y t i = none) : TropFit.controlCells P = [] := by
  rw [List.eq_nil_iff_forall_not_mem]
  rintro ⟨t, i⟩ hm
  unfold TropFit.controlCells TropFit.cells at hm
  simp only [List.mem_flatMap, List.mem_map, List.mem_filter, List.mem_range, Prod.mk.injEq, Bool.and_eq_true, decide_eq_true_eq] at hm
  obtain ⟨t', ht, i', ⟨hi, hd, hy⟩, rfl, rfl⟩ := hm
  rw [h _ ht _ hi hd] at hy
  cases hy

/-- **C147, no untreated outcomes.** When no untreated cell has an outcome there is nothing to tune on: whatever the grids, the seed and the generator, the tuning of the
two-step method falls back to the defaults (1, 1, 0.1) and stores NaN as score. -/
theorem C147_no_controls {S : Type*} (R : Rng S) (G : Gen S) (seed : Option ℕ) (maxN : ℕ) (o : TropFit.Ops (Ext K)) (c : TropFit.Cfg (Ext K))
    (P : TropFit.Data (Ext K)) (g : Trop.Grids K) (h : ∀ t < P.nT, ∀ i < P.nN, P.D t i = 0 → P.Y t i = none) :
    tune R G seed maxN o c P g = ({ time := .fin 1, unit := .fin 1, nn := .fin (1 / 10) }, .nan) := by
  have hs : ∀ k l, scoreAt R G seed maxN o c P k l = some .pinf := by
    intro k l
    unfold scoreAt TropFit.score TropFit.looScore
    rw [no_controls h]
    have : pySample R (state G seed k) maxN [] = [] := by unfold pySample; simp
    rw [this]
    rfl
  unfold tune select
  rw [hs]
  rfl

/-- A case: two periods, two units, every cell treated or without outcome. -/
example {S : Type*} (R : Rng S) (G : Gen S) : tune R G none 100 (TropFit.extOps (fun x : ℚ => x) (fun x => x) (fun _ _ _ _ _ _ => 0)) ⟨5, .fin (1 / 100)⟩
    { nT := 2, nN := 2, Y := fun t _ => if t = 0 then none else some (.fin 3), D := fun t _ => if t = 0 then 0 else 1 }
    { time := [.fin 0, .fin 2], unit := [.fin 0], nn := [.fin 0] } = ({ time := .fin 1, unit := .fin 1, nn := .fin (1 / 10) }, .nan) :=
  C147_no_controls R G none 100 _ _ _ _ fun t ht i hi hd => by
    by_cases h0 : t = 0
    · simp [h0]
    · simp [h0] at hd

end DiffDiff.TropCv
