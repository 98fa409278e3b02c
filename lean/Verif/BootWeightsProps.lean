/-
Properties C28 (multiplier distributions) and C29 (schedule independence of the parallel fill).
-/
import Verif.BootWeights
import Verif.CSAggProps

set_option linter.unusedSectionVars false

namespace DiffDiff.BootWeights

/-! ### C28 -/

/-- A probability distribution with mean 0 and variance 1. -/
def Standard (d : Dist) : Prop := (∀ x ∈ d, 0 ≤ x.2) ∧ moment 0 d = 1 ∧ moment 1 d = 0 ∧ moment 2 d = 1

theorem sqrt5_pos : 0 < Real.sqrt 5 := Real.sqrt_pos.2 (by norm_num)
theorem sqrt5_sq : Real.sqrt 5 ^ 2 = 5 := Real.sq_sqrt (by norm_num)
theorem one_le_sqrt5 : 1 ≤ Real.sqrt 5 := by
  rw [show (1 : ℝ) = Real.sqrt 1 by simp]
  exact Real.sqrt_le_sqrt (by norm_num)

/-- C28: Rademacher weights have mean 0, variance 1 and third moment 0. -/
theorem C28_rademacher : Standard pyRademacher ∧ moment 3 pyRademacher = 0 := by
  unfold Standard pyRademacher uniform moment
  refine ⟨⟨?_, ?_, ?_, ?_⟩, ?_⟩
  · intro x hx
    simp only [List.map_cons, List.map_nil, List.mem_cons, List.not_mem_nil, or_false, List.length_cons,
      List.length_nil] at hx
    rcases hx with rfl | rfl <;> norm_num
  all_goals norm_num

/-- C28: Mammen weights have mean 0, variance 1 and third moment 1. -/
theorem C28_mammen : Standard pyMammen ∧ moment 3 pyMammen = 1 := by
  have h5 := sqrt5_sq
  have hp := sqrt5_pos
  have h1 := one_le_sqrt5
  unfold Standard pyMammen moment
  generalize Real.sqrt 5 = s at *
  simp only [List.map_cons, List.map_nil, List.sum_cons, List.sum_nil, List.mem_cons, List.not_mem_nil, or_false]
  refine ⟨⟨?_, ?_, ?_, ?_⟩, ?_⟩
  · rintro x (rfl | rfl)
    · positivity
    · show 0 ≤ 1 - (s + 1) / (2 * s)
      rw [sub_nonneg, div_le_one (by positivity)]
      linarith
  · field_simp; ring
  · field_simp; ring
  · field_simp; nlinarith
  · field_simp
    have h3 : s ^ 3 = 5 * s := by rw [pow_succ, h5]
    have h4 : s ^ 4 = 25 := by rw [show s ^ 4 = (s ^ 2) ^ 2 by ring, h5]; norm_num
    ring_nf
    nlinarith

theorem webb_sq : Real.sqrt (3/2) ^ 2 = 3/2 ∧ Real.sqrt (1/2) ^ 2 = 1/2 ∧ Real.sqrt (2/2) = 1 :=
  ⟨Real.sq_sqrt (by norm_num), Real.sq_sqrt (by norm_num), by norm_num⟩

/-- C28: Webb weights have mean 0, variance 1 and third moment 0. -/
theorem C28_webb : Standard pyWebb ∧ moment 3 pyWebb = 0 := by
  obtain ⟨h1, h2, h3⟩ := webb_sq
  unfold Standard pyWebb uniform moment
  rw [h3]
  generalize Real.sqrt (3/2) = a at *
  generalize Real.sqrt (1/2) = b at *
  refine ⟨⟨?_, ?_, ?_, ?_⟩, ?_⟩
  · intro x hx
    obtain ⟨v, _, rfl⟩ := List.mem_map.1 hx
    norm_num
  · norm_num
  · simp only [List.map_cons, List.map_nil, List.sum_cons, List.sum_nil, List.length_cons, List.length_nil]
    push_cast; ring
  · simp only [List.map_cons, List.map_nil, List.sum_cons, List.sum_nil, List.length_cons, List.length_nil]
    push_cast; nlinarith
  · simp only [List.map_cons, List.map_nil, List.sum_cons, List.sum_nil, List.length_cons, List.length_nil]
    push_cast; ring

/-- C28: the Python and the Rust tables are the same distributions (same value/probability pairs, possibly in another
order). -/
theorem C28_python_rust : pyRademacher.Perm rsRademacher ∧ pyMammen.Perm rsMammen ∧ pyWebb.Perm rsWebb := by
  refine ⟨?_, List.Perm.refl _, ?_⟩
  · unfold pyRademacher rsRademacher uniform
    simp only [List.map_cons, List.map_nil, List.length_cons, List.length_nil]
    norm_num
    exact List.Perm.swap _ _ _
  · unfold pyWebb rsWebb
    rw [webb_sq.2.2]

theorem moment_perm (k : ℕ) {d e : Dist} (h : d.Perm e) : moment k d = moment k e := (h.map _).sum_eq

/-- C28: so the Rust weights have the same moments. -/
theorem C28_rust_moments : Standard rsRademacher ∧ Standard rsMammen ∧ Standard rsWebb ∧ moment 3 rsMammen = 1 := by
  have tr : ∀ {d e : Dist}, d.Perm e → Standard d → Standard e := by
    intro d e h hd
    refine ⟨fun x hx => hd.1 x (h.mem_iff.2 hx), ?_, ?_, ?_⟩
    · rw [← moment_perm 0 h]; exact hd.2.1
    · rw [← moment_perm 1 h]; exact hd.2.2.1
    · rw [← moment_perm 2 h]; exact hd.2.2.2
  obtain ⟨h1, h2, h3⟩ := C28_python_rust
  exact ⟨tr h1 C28_rademacher.1, tr h2 C28_mammen.1, tr h3 C28_webb.1, by rw [← moment_perm 3 h2]; exact C28_mammen.2⟩

/-- Documented probabilities of the two Mammen values. -/
theorem C28_mammen_documented : pyMammen.map Prod.snd =
    [(Real.sqrt 5 + 1) / (2 * Real.sqrt 5), (Real.sqrt 5 - 1) / (2 * Real.sqrt 5)] := by
  have hp := sqrt5_pos
  unfold pyMammen
  simp only [List.map_cons, List.map_nil, List.cons.injEq, and_true, true_and]
  field_simp
  ring

/-- Independent draws from a distribution with m points: probability of an outcome vector. -/
noncomputable def iidProb {n m : ℕ} (p : Fin m → ℝ) (ω : Fin n → Fin m) : ℝ := ∏ i, p (ω i)

/-- C28: independent draws (one per unit) of a distribution with mean 0 and variance 1 are uncorrelated with unit
variance. -/
theorem C28_iid_covariance {n m : ℕ} (v p : Fin m → ℝ) (h0 : ∑ a, p a = 1) (h1 : ∑ a, p a * v a = 0)
    (h2 : ∑ a, p a * v a ^ 2 = 1) (u w : Fin n) :
    ∑ ω : Fin n → Fin m, iidProb p ω * (v (ω u) * v (ω w)) = if u = w then 1 else 0 := by
  classical
  have key : ∀ f : Fin n → Fin m → ℝ, ∑ ω : Fin n → Fin m, ∏ i, f i (ω i) = ∏ i, ∑ a, f i a := by
    intro f
    rw [Finset.prod_univ_sum]
    simp
  split_ifs with huw
  · subst huw
    have e : ∀ ω : Fin n → Fin m, iidProb p ω * (v (ω u) * v (ω u)) =
        ∏ i, (p (ω i) * if i = u then v (ω i) ^ 2 else 1) := by
      intro ω
      rw [Finset.prod_mul_distrib, Finset.prod_ite_eq' Finset.univ u, if_pos (Finset.mem_univ u), pow_two]
      rfl
    rw [Finset.sum_congr rfl (fun ω _ => e ω), key (fun i a => p a * if i = u then v a ^ 2 else 1)]
    apply Finset.prod_eq_one
    intro i _
    by_cases hi : i = u
    · simp only [hi, if_true]; exact h2
    · simp only [if_neg hi, mul_one]; exact h0
  · have e : ∀ ω : Fin n → Fin m, iidProb p ω * (v (ω u) * v (ω w)) =
        ∏ i, (p (ω i) * ((if i = u then v (ω i) else 1) * (if i = w then v (ω i) else 1))) := by
      intro ω
      rw [Finset.prod_mul_distrib, Finset.prod_mul_distrib, Finset.prod_ite_eq' Finset.univ u,
        Finset.prod_ite_eq' Finset.univ w, if_pos (Finset.mem_univ u), if_pos (Finset.mem_univ w)]
      rfl
    rw [Finset.sum_congr rfl (fun ω _ => e ω),
      key (fun i a => p a * ((if i = u then v a else 1) * (if i = w then v a else 1)))]
    apply Finset.prod_eq_zero (Finset.mem_univ u)
    simp only [if_true, if_neg huw, mul_one]
    exact h1

/-- C26/C28: hence, with independent Rademacher, Mammen or Webb multipliers, the exact bootstrap variance of every
aggregate equals its squared analytic standard error (without the weight-estimation term). -/
theorem C28_exact_bootstrap_variance {n m : ℕ} (v p : Fin m → ℝ)
    (hd : (List.ofFn (fun a => (v a, p a))).Perm pyRademacher ∨ (List.ofFn (fun a => (v a, p a))).Perm pyMammen ∨
      (List.ofFn (fun a => (v a, p a))).Perm pyWebb)
    (a : List ℝ) (l : List (CS.Entry n ℝ)) :
    ∑ ω : Fin n → Fin m, iidProb p ω * (CS.bootAgg (fun i => v (ω i)) a l - CS.dot a (l.map (fun e => e.effect))) ^ 2
      = CS.aggVar a l := by
  have hm : ∀ d : Dist, Standard d → (List.ofFn (fun a => (v a, p a))).Perm d →
      ∑ a, p a = 1 ∧ ∑ a, p a * v a = 0 ∧ ∑ a, p a * v a ^ 2 = 1 := by
    intro d hs hp
    have e : ∀ k, ∑ a, p a * v a ^ k = moment k d := by
      intro k
      rw [← moment_perm k hp, moment, List.map_ofFn, List.sum_ofFn]
      rfl
    refine ⟨?_, ?_, ?_⟩
    · have := e 0; simp only [pow_zero, mul_one] at this; rw [this]; exact hs.2.1
    · have := e 1; simp only [pow_one] at this; rw [this]; exact hs.2.2.1
    · rw [e 2]; exact hs.2.2.2
  have hh : ∑ a, p a = 1 ∧ ∑ a, p a * v a = 0 ∧ ∑ a, p a * v a ^ 2 = 1 := by
    rcases hd with h | h | h
    · exact hm _ C28_rademacher.1 h
    · exact hm _ C28_mammen.1 h
    · exact hm _ C28_webb.1 h
  exact CS.C26_bootstrap_variance (iidProb p) (fun ω i => v (ω i))
    (fun u w => C28_iid_covariance v p hh.1 hh.2.1 hh.2.2 u w) a l

example : (List.ofFn (fun a : Fin 2 => ((![-1, 1] : Fin 2 → ℝ) a, (![1/2, 1/2] : Fin 2 → ℝ) a))).Perm pyRademacher := by
  unfold pyRademacher uniform
  simp [List.ofFn_succ]

/-! ### C29 -/

variable {S W : Type}

/-- What a row task looks like after k of its own writes. -/
def after (r : Rng S W) : ℕ → RowState S W → RowState S W
  | 0, s => s
  | k + 1, s => after r k ⟨s.done ++ [(r.next s.rng).1], (r.next s.rng).2⟩

theorem after_succ (r : Rng S W) (k : ℕ) (s : RowState S W) :
    after r (k + 1) s = ⟨(after r k s).done ++ [(r.next (after r k s).rng).1], (r.next (after r k s).rng).2⟩ := by
  induction k generalizing s with
  | zero => rfl
  | succ k ih => exact ih _

theorem after_len (r : Rng S W) (k : ℕ) (s : RowState S W) : (after r k s).done.length = s.done.length + k := by
  induction k with
  | zero => rfl
  | succ k ih => rw [after_succ]; simp [ih]; omega

theorem after_done (r : Rng S W) (k : ℕ) (s : RowState S W) : (after r k s).done = s.done ++ stream r k s.rng := by
  induction k generalizing s with
  | zero => simp [after, stream]
  | succ k ih => rw [after, ih]; simp [stream]

/-- After any schedule, row i has performed exactly min(turns, n) of its own writes. -/
theorem run_row (r : Rng S W) (seed : UInt64) (m : ℕ) (sched : List ℕ) (i : ℕ) :
    run r m (initRows r seed) sched i = after r (min (sched.count i) m) (initRows r seed i) := by
  induction sched using List.reverseRecOn with
  | nil => rfl
  | append_singleton l j ih =>
    have hrun : run r m (initRows r seed) (l ++ [j]) = step r m (run r m (initRows r seed) l) j := by
      simp [run, List.foldl_append]
    rw [hrun, List.count_append]
    unfold step
    by_cases hij : i = j
    · subst hij
      have hlen : (run r m (initRows r seed) l i).done.length = min (l.count i) m := by
        rw [ih, after_len]; simp [initRows]
      rw [hlen]
      split_ifs with h
      · have e1 : min (l.count i + List.count i [i]) m = min (l.count i) m + 1 := by simp; omega
        rw [e1, after_succ, ← ih]
        exact if_pos rfl
      · have e1 : min (l.count i + List.count i [i]) m = min (l.count i) m := by simp; omega
        rw [e1, ih]
    · have e1 : List.count i [j] = 0 := by simp [List.count_singleton, Ne.symm hij]
      rw [e1, Nat.add_zero, ← ih]
      split_ifs
      · exact if_neg hij
      · rfl

/-- C29: for every complete schedule — any interleaving of element writes of the row tasks — the matrix is the same,
and row i is the stream of the generator seeded with seed + i. -/
theorem C29_schedule_independent (r : Rng S W) (seed : UInt64) (nBoot nUnits : ℕ) (sched : List ℕ)
    (h : Complete nBoot nUnits sched) :
    matrix r seed nBoot nUnits sched =
      (List.range nBoot).map (fun i => stream r nUnits (r.seed (seed + UInt64.ofNat i))) := by
  refine List.map_congr_left (fun i hi => ?_)
  rw [run_row, min_eq_right (h i (List.mem_range.1 hi)), after_done]
  rfl

/-- C29: hence any two complete schedules agree. -/
theorem C29_deterministic (r : Rng S W) (seed : UInt64) (nBoot nUnits : ℕ) (s1 s2 : List ℕ)
    (h1 : Complete nBoot nUnits s1) (h2 : Complete nBoot nUnits s2) :
    matrix r seed nBoot nUnits s1 = matrix r seed nBoot nUnits s2 := by
  rw [C29_schedule_independent r seed nBoot nUnits s1 h1, C29_schedule_independent r seed nBoot nUnits s2 h2]

/-- C29: while the fill is under way no row ever contains a wrong element: it is a prefix of its final content. -/
theorem C29_partial_rows_are_prefixes (r : Rng S W) (seed : UInt64) (nUnits : ℕ) (sched : List ℕ) (i : ℕ) :
    (run r nUnits (initRows r seed) sched i).done <+: stream r nUnits (r.seed (seed + UInt64.ofNat i)) := by
  have hpre : ∀ k m (s : S), k ≤ m → stream r k s <+: stream r m s := by
    intro k
    induction k with
    | zero => intro m s _; exact List.nil_prefix
    | succ k ih =>
      intro m s hk
      cases m with
      | zero => omega
      | succ m => exact (List.prefix_cons_inj _).2 (ih m _ (by omega))
  rw [run_row, after_done]
  exact hpre _ _ _ (min_le_right _ _)

/-- C29: more bootstrap iterations only append rows. -/
theorem C29_more_iterations (r : Rng S W) (seed : UInt64) (k m nUnits : ℕ) (s1 s2 : List ℕ) (hkm : k ≤ m)
    (h1 : Complete k nUnits s1) (h2 : Complete m nUnits s2) :
    matrix r seed k nUnits s1 = (matrix r seed m nUnits s2).take k := by
  rw [C29_schedule_independent r seed k nUnits s1 h1, C29_schedule_independent r seed m nUnits s2 h2, ← List.map_take,
    List.take_range, min_eq_left hkm]

/-- C29: consecutive seeds share all but one row: the matrix for seed+1 is the matrix for seed shifted by one row. -/
theorem C29_consecutive_seeds (r : Rng S W) (seed : UInt64) (nBoot nUnits : ℕ) (s1 s2 : List ℕ)
    (h1 : Complete (nBoot + 1) nUnits s1) (h2 : Complete nBoot nUnits s2) :
    matrix r (seed + 1) nBoot nUnits s2 = (matrix r seed (nBoot + 1) nUnits s1).tail := by
  rw [C29_schedule_independent r _ _ _ _ h1, C29_schedule_independent r _ _ _ _ h2, List.range_succ_eq_map,
    List.map_cons, List.tail_cons, List.map_map]
  refine List.map_congr_left (fun i _ => ?_)
  show stream r nUnits (r.seed (seed + 1 + UInt64.ofNat i)) = stream r nUnits (r.seed (seed + UInt64.ofNat (i + 1)))
  congr 2
  rw [UInt64.ofNat_add, UInt64.add_assoc, UInt64.add_comm 1]
  rfl

/-- Non-vacuity: a toy generator, two different complete schedules. -/
example : Complete 2 2 [1, 0, 0, 1] ∧ Complete 2 2 [0, 0, 0, 1, 1] ∧
    matrix (⟨id, fun s => (s, s * 3 + 1)⟩ : Rng UInt64 UInt64) 5 2 2 [1, 0, 0, 1] = [[5, 16], [6, 19]] ∧
    matrix (⟨id, fun s => (s, s * 3 + 1)⟩ : Rng UInt64 UInt64) 5 2 2 [1, 0] = [[5], [6]] := by
  refine ⟨by unfold Complete; decide, by unfold Complete; decide, by decide +kernel, by decide +kernel⟩

end DiffDiff.BootWeights
