import Verif.Simplex

set_option linter.unusedSectionVars false

namespace DiffDiff.Simplex

variable {K : Type*} [Field K] [LinearOrder K] [IsStrictOrderedRing K]

theorem length_cumsumFrom (acc : K) (u : List K) : (cumsumFrom acc u).length = u.length := by
  induction u generalizing acc with
  | nil => rfl
  | cons x xs ih => simp [cumsumFrom, ih]

theorem getD_cumsumFrom (acc : K) (u : List K) (i : ℕ) (h : i < u.length) :
    (cumsumFrom acc u).getD i 0 = acc + (u.take (i + 1)).sum := by
  induction u generalizing acc i with
  | nil => simp at h
  | cons x xs ih =>
    cases i with
    | zero => simp [cumsumFrom]
    | succ j =>
      have hj : j < xs.length := by simpa using h
      have := ih (acc + x) j hj
      simp only [cumsumFrom, List.getD_cons_succ, this, List.take_succ_cons, List.sum_cons]
      ring

theorem getD_cumsum (u : List K) (i : ℕ) (h : i < u.length) :
    (cumsum u).getD i 0 = (u.take (i + 1)).sum := by
  rw [cumsum, getD_cumsumFrom 0 u i h, zero_add]

theorem sortDesc_perm (v : List K) : (sortDesc v).Perm v := List.perm_insertionSort _ _

theorem sortDesc_sorted (v : List K) : (sortDesc v).Pairwise (fun a b => b ≤ a) := by
  have : Std.Total (fun a b : K => b ≤ a) := ⟨fun a b => le_total b a⟩
  have : IsTrans K (fun a b : K => b ≤ a) := ⟨fun a b c h1 h2 => le_trans h2 h1⟩
  exact List.pairwise_insertionSort _ v

theorem sortDesc_congr {v w : List K} (h : v.Perm w) : sortDesc v = sortDesc w := by
  apply List.Perm.eq_of_pairwise (le := fun a b : K => b ≤ a)
  · intro a b _ _ h1 h2; exact le_antisymm h2 h1
  · exact sortDesc_sorted v
  · exact sortDesc_sorted w
  · exact (sortDesc_perm v).trans (h.trans (sortDesc_perm w).symm)

/-- The positivity condition at index `i`, free of division. -/
def Cond (u : List K) (i : ℕ) : Prop :=
  (u.take (i + 1)).sum - 1 < (i + 1 : K) * u.getD i 0

theorem cond_iff (u : List K) (i : ℕ) (h : i < u.length) :
    (((cumsum u).getD i 0 - 1) / ((i : K) + 1) < u.getD i 0) ↔ Cond u i := by
  rw [getD_cumsum u i h]
  have : (0 : K) < (i : K) + 1 := by positivity
  rw [div_lt_iff₀ this, Cond, mul_comm]

theorem cond_zero (u : List K) (h : u ≠ []) : Cond u 0 := by
  cases u with
  | nil => exact absurd rfl h
  | cons x xs => simp [Cond]

/-- What both implementations look for: the last index satisfying `Cond`. -/
def IsLast (u : List K) (r : ℕ) : Prop :=
  r < u.length ∧ Cond u r ∧ ∀ j, r < j → j < u.length → ¬ Cond u j

theorem isLast_unique {u : List K} {r s : ℕ} (hr : IsLast u r) (hs : IsLast u s) : r = s := by
  rcases lt_trichotomy r s with h | h | h
  · exact absurd hs.2.1 (hr.2.2 s h hs.1)
  · exact h
  · exact absurd hr.2.1 (hs.2.2 r h hr.1)

theorem rho_isLast (u : List K) (h : u ≠ []) :
    IsLast u (((rhoIdx u (cumsum u)).getLast?).getD 0) := by
  have hpos : 0 < u.length := List.length_pos_of_ne_nil h
  set L := rhoIdx u (cumsum u) with hL
  have hmem : ∀ i, i ∈ L ↔ i < u.length ∧ Cond u i := by
    intro i
    simp only [hL, rhoIdx, List.mem_filter, List.mem_range, decide_eq_true_eq]
    constructor
    · rintro ⟨h1, h2⟩; exact ⟨h1, (cond_iff u i h1).1 h2⟩
    · rintro ⟨h1, h2⟩; exact ⟨h1, (cond_iff u i h1).2 h2⟩
  have hne : L ≠ [] := by
    have : 0 ∈ L := (hmem 0).2 ⟨hpos, cond_zero u h⟩
    exact List.ne_nil_of_mem this
  have hlast : L.getLast?.getD 0 = L.getLast hne := by
    rw [List.getLast?_eq_getLast_of_ne_nil hne]; rfl
  rw [hlast]
  have hin := (hmem _).1 (List.getLast_mem hne)
  refine ⟨hin.1, hin.2, ?_⟩
  intro j hj hjl hc
  have hjL : j ∈ L := (hmem j).2 ⟨hjl, hc⟩
  have hs : L.Pairwise (· < ·) := by
    rw [hL, rhoIdx]
    exact List.Pairwise.filter _ (List.pairwise_lt_range)
  have : j ≤ L.getLast hne := by
    have := List.dropLast_append_getLast hne
    rw [← this] at hs hjL
    rw [List.mem_append] at hjL
    rcases hjL with hj1 | hj1
    · exact le_of_lt ((List.pairwise_append.1 hs).2.2 j hj1 _ (by simp))
    · simp at hj1; exact le_of_eq hj1
  omega


/-- The Rust loop also ends at the last index satisfying `Cond`. -/
theorem rustStep_cond (ui cs : K) (i : ℕ) :
    0 < ui + (1 - cs) / ((i : K) + 1) ↔ cs - 1 < ((i : K) + 1) * ui := by
  have h : (0 : K) < (i : K) + 1 := by positivity
  have e : ui + (1 - cs) / ((i : K) + 1) = (((i : K) + 1) * ui - (cs - 1)) / ((i : K) + 1) := by
    field_simp; ring
  rw [e, div_pos_iff_of_pos_right h, sub_pos]

/-- Loop invariant: after processing `pre` (non-empty prefix), index = length, cumsum = sum and
`rho` is the last index of `pre` satisfying the condition. -/
theorem rust_foldl (u : List K) (pre : List K) (r : ℕ)
    (hr : IsLast pre r) :
    IsLast (pre ++ u) ((u.foldl rustStep (pre.length, pre.sum, r)).2.2) := by
  induction u generalizing pre r with
  | nil => simpa using hr
  | cons x xs ih =>
    have hlen : (pre ++ [x]).length = pre.length + 1 := by simp
    have hsum : (pre ++ [x]).sum = pre.sum + x := by simp
    have hcond : Cond (pre ++ [x]) pre.length ↔ pre.sum + x - 1 < ((pre.length : K) + 1) * x := by
      simp [Cond, List.take_of_length_le]
    have hcond' : ∀ j, j < pre.length → (Cond (pre ++ [x]) j ↔ Cond pre j) := by
      intro j hj
      have h1 : (pre ++ [x]).take (j + 1) = pre.take (j + 1) :=
        List.take_append_of_le_length (by omega)
      simp only [Cond, h1, List.getD_append _ _ _ _ hj]
    have happ : pre ++ x :: xs = (pre ++ [x]) ++ xs := by simp
    rw [happ, List.foldl_cons]
    by_cases hc : 0 < x + (1 - (pre.sum + x)) / ((pre.length : K) + 1)
    · have e : rustStep (pre.length, pre.sum, r) x = ((pre ++ [x]).length, (pre ++ [x]).sum, pre.length) := by
        simp only [rustStep, hlen, hsum]; rw [if_pos hc]
      rw [e]
      apply ih
      refine ⟨by simp, hcond.2 ((rustStep_cond _ _ _).1 hc), ?_⟩
      intro j h1 h2; rw [hlen] at h2; omega
    · have e : rustStep (pre.length, pre.sum, r) x = ((pre ++ [x]).length, (pre ++ [x]).sum, r) := by
        simp only [rustStep, hlen, hsum]; rw [if_neg hc]
      rw [e]
      apply ih
      refine ⟨by rw [hlen]; have := hr.1; omega, (hcond' r hr.1).2 hr.2.1, ?_⟩
      intro j h1 h2
      rw [hlen] at h2
      by_cases hj : j < pre.length
      · rw [hcond' j hj]; exact hr.2.2 j h1 hj
      · have : j = pre.length := by omega
        rw [this, hcond, ← rustStep_cond]; exact hc

theorem rust_isLast (u : List K) (h : u ≠ []) :
    IsLast u ((u.foldl rustStep (0, 0, 0)).2.2) := by
  cases u with
  | nil => exact absurd rfl h
  | cons x xs =>
    have h0 : IsLast [x] 0 := ⟨by simp, cond_zero [x] (by simp), by intro j h1 h2; simp at h2; omega⟩
    have := rust_foldl xs [x] 0 h0
    have e : rustStep (0, 0, 0) x = ([x].length, [x].sum, 0) := by
      simp [rustStep]
    simpa [e] using this

/-- The threshold at the last index. -/
def thetaAt (u : List K) (r : ℕ) : K := ((u.take (r + 1)).sum - 1) / ((r : K) + 1)

theorem sortDesc_ne_nil {v : List K} (h : v ≠ []) : sortDesc v ≠ [] := by
  intro hh
  have := (sortDesc_perm v).length_eq
  rw [hh] at this
  exact h (List.length_eq_zero_iff.1 this.symm)

theorem thetaPy_eq (v : List K) (h : v ≠ []) :
    ∃ r, IsLast (sortDesc v) r ∧ thetaPy v = thetaAt (sortDesc v) r := by
  have h1 := rho_isLast (sortDesc v) (sortDesc_ne_nil h)
  refine ⟨_, h1, ?_⟩
  simp only [thetaPy, thetaAt]
  rw [getD_cumsum _ _ h1.1]

theorem thetaRust_eq (v : List K) (h : v ≠ []) :
    ∃ r, IsLast (sortDesc v) r ∧ thetaRust v = thetaAt (sortDesc v) r :=
  ⟨_, rust_isLast (sortDesc v) (sortDesc_ne_nil h), rfl⟩

theorem thetaPy_eq_thetaRust (v : List K) (h : v ≠ []) : thetaPy v = thetaRust v := by
  obtain ⟨r, hr, e⟩ := thetaPy_eq v h
  obtain ⟨s, hs, e'⟩ := thetaRust_eq v h
  rw [e, e', isLast_unique hr hs]

theorem sum_map_pos (l : List K) (t : K) (h : ∀ x ∈ l, t ≤ x) :
    (l.map (fun x => max (x - t) 0)).sum = l.sum - l.length * t := by
  induction l with
  | nil => simp
  | cons a l ih =>
    have ha : t ≤ a := h a (by simp)
    rw [List.map_cons, List.sum_cons, ih (fun x hx => h x (by simp [hx])),
      max_eq_left (by linarith), List.sum_cons, List.length_cons]
    push_cast; ring

theorem sum_map_neg (l : List K) (t : K) (h : ∀ x ∈ l, x ≤ t) :
    (l.map (fun x => max (x - t) 0)).sum = 0 := by
  induction l with
  | nil => simp
  | cons a l ih =>
    have ha : a ≤ t := h a (by simp)
    rw [List.map_cons, List.sum_cons, ih (fun x hx => h x (by simp [hx])),
      max_eq_right (by linarith), add_zero]

/-- The heart of the algorithm: at the last index, thresholding a descending list gives mass 1. -/
theorem sum_threshold (u : List K) (hs : u.Pairwise (fun a b => b ≤ a)) (r : ℕ) (hr : IsLast u r) :
    (u.map (fun x => max (x - thetaAt u r) 0)).sum = 1 := by
  set t := thetaAt u r with ht
  have hpos : (0 : K) < (r : K) + 1 := by positivity
  have hrl := hr.1
  have hsplit : u = u.take (r + 1) ++ u.drop (r + 1) := (List.take_append_drop _ _).symm
  have htt : (u.take (r + 1)).sum - 1 = ((r : K) + 1) * t := by
    rw [ht, thetaAt]; field_simp
  have hget : u.getD r 0 = u[r] := List.getD_eq_getElem _ _ hrl
  have htr : t < u[r] := by
    have h2 := hr.2.1
    rw [Cond, htt, hget] at h2
    exact lt_of_mul_lt_mul_left h2 hpos.le
  have hpw := List.pairwise_iff_getElem.1 hs
  have hlo : ∀ x ∈ u.take (r + 1), t ≤ x := by
    intro x hx
    obtain ⟨i, hi, rfl⟩ := List.getElem_of_mem hx
    rw [List.getElem_take]
    have hi' : i < r + 1 := by simp at hi; omega
    rcases Nat.lt_or_ge i r with h | h
    · exact le_trans htr.le (hpw i r _ hrl h)
    · have : i = r := by omega
      subst this; exact htr.le
  have hhi : ∀ x ∈ u.drop (r + 1), x ≤ t := by
    intro x hx
    obtain ⟨i, hi, rfl⟩ := List.getElem_of_mem hx
    have hi' : r + 1 + i < u.length := by simp at hi; omega
    have hnext : r + 1 < u.length := by omega
    have h3 := hr.2.2 (r + 1) (by omega) hnext
    have hu1 : u[r + 1] ≤ t := by
      rw [Cond, List.take_succ_eq_append_getElem hnext, List.sum_append, List.sum_singleton,
        List.getD_eq_getElem _ _ hnext] at h3
      push_cast at h3
      have : ((r : K) + 1) * u[r + 1] ≤ ((r : K) + 1) * t := by linarith
      exact le_of_mul_le_mul_left this hpos
    rw [List.getElem_drop]
    rcases Nat.eq_zero_or_pos i with h | h
    · subst h; simpa using hu1
    · exact le_trans (hpw (r + 1) (r + 1 + i) hnext hi' (by omega)) hu1
  rw [hsplit, List.map_append, List.sum_append, sum_map_pos _ _ hlo, sum_map_neg _ _ hhi,
    List.length_take, min_eq_left (by omega)]
  push_cast
  linarith

theorem sum_thetaPy (v : List K) (h : v ≠ []) :
    (v.map (fun x => max (x - thetaPy v) 0)).sum = 1 := by
  obtain ⟨r, hr, e⟩ := thetaPy_eq v h
  rw [e, ← sum_threshold (sortDesc v) (sortDesc_sorted v) r hr]
  exact (List.Perm.map _ (sortDesc_perm v).symm).sum_eq

theorem sqDist_nonneg (a b : List K) : 0 ≤ sqDist a b := by
  induction a generalizing b with
  | nil => simp [sqDist]
  | cons x xs ih =>
    cases b with
    | nil => simp [sqDist]
    | cons y ys => simp only [sqDist]; have := ih ys; positivity

theorem eq_of_sqDist_le_zero (a b : List K) (hl : a.length = b.length) (h : sqDist a b ≤ 0) :
    a = b := by
  induction a generalizing b with
  | nil => cases b with
    | nil => rfl
    | cons y ys => simp at hl
  | cons x xs ih =>
    cases b with
    | nil => simp at hl
    | cons y ys =>
      simp only [sqDist] at h
      have h1 := sqDist_nonneg xs ys
      have h2 : (x - y) ^ 2 ≤ 0 := by linarith
      have h3 : x - y = 0 := by
        have := le_antisymm h2 (sq_nonneg _)
        exact pow_eq_zero_iff (two_ne_zero) |>.1 this
      have h4 : sqDist xs ys ≤ 0 := by nlinarith [sq_nonneg (x - y)]
      rw [ih ys (by simpa using hl) h4, sub_eq_zero.1 h3]

/-- Variational inequality for thresholding, list form (any threshold). -/
theorem threshold_ineq (t : K) (v q : List K) (hl : q.length = v.length) (hq : ∀ x ∈ q, 0 ≤ x) :
    sqDist (v.map (fun x => max (x - t) 0)) v + sqDist q (v.map (fun x => max (x - t) 0))
      ≤ sqDist q v + 2 * t * (q.sum - (v.map (fun x => max (x - t) 0)).sum) := by
  induction v generalizing q with
  | nil => cases q with
    | nil => simp [sqDist]
    | cons y ys => simp at hl
  | cons x xs ih =>
    cases q with
    | nil => simp at hl
    | cons y ys =>
      have hy : 0 ≤ y := hq y (by simp)
      have h1 := ih ys (by simpa using hl) (fun z hz => hq z (by simp [hz]))
      simp only [List.map_cons, sqDist, List.sum_cons]
      rcases le_total x t with h | h
      · rw [max_eq_right (by linarith : x - t ≤ 0)]
        nlinarith [mul_nonneg hy (sub_nonneg.2 h)]
      · rw [max_eq_left (by linarith : 0 ≤ x - t)]
        nlinarith

end DiffDiff.Simplex
