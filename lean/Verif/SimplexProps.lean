/-
Properties C01-C03: the simplex projection.
-/
import Verif.SimplexLemmas

set_option linter.unusedSectionVars false

namespace DiffDiff.Simplex

variable {K : Type*} [Field K] [LinearOrder K] [IsStrictOrderedRing K]

theorem projectSimplex_eq (v : List K) (h : v ≠ []) :
    projectSimplex v = v.map (fun x => max (x - thetaPy v) 0) := by
  have : v.length ≠ 0 := fun hh => h (List.length_eq_zero_iff.1 hh)
  simp [projectSimplex, this]

/-- C01. For every non-empty vector the projection is a probability vector of the same length. -/
theorem C01_projection_isProb (v : List K) (h : v ≠ []) :
    (projectSimplex v).length = v.length ∧ IsProb (projectSimplex v) := by
  rw [projectSimplex_eq v h]
  refine ⟨by simp, ?_, sum_thetaPy v h⟩
  intro x hx
  obtain ⟨y, _, rfl⟩ := List.mem_map.1 hx
  exact le_max_right _ _

example : projectSimplex [2, (1 : ℚ)/2, -1] = [1, 0, 0] ∧ ([2, (1 : ℚ)/2, -1] : List ℚ) ≠ [] := by
  constructor
  · decide +kernel
  · simp

/-- C01 for the compiled backend. -/
theorem C01_projection_isProb_rust (v : List K) (h : v ≠ []) :
    (projectSimplexRust v).length = v.length ∧ IsProb (projectSimplexRust v) := by
  have e : projectSimplexRust v = projectSimplex v := by
    rw [projectSimplex_eq v h, projectSimplexRust, thetaPy_eq_thetaRust v h]
  rw [e]; exact C01_projection_isProb v h

/-- C01, boundary: the empty vector is returned unchanged (no probability vector of length 0). -/
theorem C01_projection_empty : projectSimplex ([] : List K) = [] := rfl

/-- C02 (strong form). Pythagorean inequality: for every probability vector `q` of the same
length, `|p - v|^2 + |q - p|^2 ≤ |q - v|^2` where `p` is the returned vector. -/
theorem C02_projection_obtuse (v q : List K) (h : v ≠ []) (hl : q.length = v.length)
    (hq : IsProb q) :
    sqDist (projectSimplex v) v + sqDist q (projectSimplex v) ≤ sqDist q v := by
  have h1 := threshold_ineq (thetaPy v) v q hl hq.1
  rw [sum_thetaPy v h, hq.2, ← projectSimplex_eq v h] at h1
  linarith

/-- C02. The returned vector is at least as close to the input as any probability vector. -/
theorem C02_projection_nearest (v q : List K) (h : v ≠ []) (hl : q.length = v.length)
    (hq : IsProb q) : sqDist (projectSimplex v) v ≤ sqDist q v := by
  have h1 := C02_projection_obtuse v q h hl hq
  have h2 := sqDist_nonneg q (projectSimplex v)
  linarith

/-- C02. It is the only nearest probability vector. -/
theorem C02_projection_unique (v q : List K) (h : v ≠ []) (hl : q.length = v.length)
    (hq : IsProb q) (hn : sqDist q v ≤ sqDist (projectSimplex v) v) : q = projectSimplex v := by
  have h1 := C02_projection_obtuse v q h hl hq
  apply eq_of_sqDist_le_zero
  · rw [hl, (C01_projection_isProb v h).1]
  · linarith

example : IsProb [(1 : ℚ)/3, 1/3, 1/3] ∧
    sqDist (projectSimplex [2, (1 : ℚ)/2, -1]) [2, 1/2, -1] < sqDist [(1 : ℚ)/3, 1/3, 1/3] [2, 1/2, -1] := by
  refine ⟨⟨?_, ?_⟩, ?_⟩
  · intro x hx; simp at hx; rw [hx]; norm_num
  · norm_num
  · have : projectSimplex [2, (1 : ℚ)/2, -1] = [1, 0, 0] := by decide +kernel
    rw [this]; simp only [sqDist]; norm_num

/-- Any thresholded vector of mass one is the projection (used for the corollaries below). -/
theorem eq_projectSimplex_of_threshold (v : List K) (h : v ≠ []) (t : K)
    (hs : (v.map (fun x => max (x - t) 0)).sum = 1) :
    v.map (fun x => max (x - t) 0) = projectSimplex v := by
  have hp := C01_projection_isProb v h
  apply C02_projection_unique v _ h (by simp)
  · refine ⟨?_, hs⟩
    intro x hx
    obtain ⟨y, _, rfl⟩ := List.mem_map.1 hx
    exact le_max_right _ _
  · have h1 := threshold_ineq t v (projectSimplex v) hp.1 hp.2.1
    rw [hs, hp.2.2] at h1
    have h2 := sqDist_nonneg (projectSimplex v) (v.map (fun x => max (x - t) 0))
    linarith

/-- C02. Vectors already on the simplex are returned unchanged. -/
theorem C02_projection_fixes_prob (v : List K) (hv : IsProb v) : projectSimplex v = v := by
  have h : v ≠ [] := by
    rintro rfl
    have := hv.2
    simp at this
  have e : v.map (fun x => max (x - 0) 0) = v := by
    conv_rhs => rw [← List.map_id v]
    apply List.map_congr_left
    intro x hx
    simp [hv.1 x hx]
  rw [← eq_projectSimplex_of_threshold v h 0 (by rw [e]; exact hv.2), e]

example : IsProb [(3 : ℚ)/10, 1/2, 1/5] ∧ projectSimplex [(3 : ℚ)/10, 1/2, 1/5] = [3/10, 1/2, 1/5] := by
  have h : IsProb [(3 : ℚ)/10, 1/2, 1/5] := by
    refine ⟨?_, by norm_num⟩
    intro x hx; simp at hx; rcases hx with rfl | rfl | rfl <;> norm_num
  exact ⟨h, C02_projection_fixes_prob _ h⟩

/-- C02. Idempotence, for every input (also the empty one). -/
theorem C02_projection_idempotent (v : List K) :
    projectSimplex (projectSimplex v) = projectSimplex v := by
  rcases eq_or_ne v [] with rfl | h
  · rfl
  · exact C02_projection_fixes_prob _ (C01_projection_isProb v h).2

/-- C02. Adding a constant to every coordinate does not change the projection. -/
theorem C02_projection_shift (v : List K) (c : K) :
    projectSimplex (v.map (· + c)) = projectSimplex v := by
  rcases eq_or_ne v [] with rfl | h
  · rfl
  · have e : (v.map (· + c)).map (fun x => max (x - (thetaPy v + c)) 0)
        = v.map (fun x => max (x - thetaPy v) 0) := by
      rw [List.map_map]
      apply List.map_congr_left
      intro x _
      simp
    rw [← eq_projectSimplex_of_threshold (v.map (· + c)) (by simpa using h) (thetaPy v + c)
      (by rw [e]; exact sum_thetaPy v h), e, projectSimplex_eq v h]

/-- C02. Order of the units does not matter: one scalar map gives the result for every
reordering of the input. -/
theorem C02_projection_perm (v w : List K) (hp : v.Perm w) :
    ∃ f : K → K, projectSimplex v = v.map f ∧ projectSimplex w = w.map f := by
  rcases eq_or_ne v [] with rfl | h
  · have : w = [] := hp.nil_eq.symm
    subst this
    exact ⟨id, rfl, rfl⟩
  · have hw : w ≠ [] := by
      rintro rfl; exact h hp.eq_nil
    refine ⟨fun x => max (x - thetaPy v) 0, projectSimplex_eq v h, ?_⟩
    rw [projectSimplex_eq w hw]
    have : thetaPy w = thetaPy v := by simp only [thetaPy, sortDesc_congr hp]
    rw [this]

/-- C02. The projection preserves order: a unit with a larger raw value never gets a smaller weight. -/
theorem C02_projection_monotone (v : List K) :
    ∃ f : K → K, Monotone f ∧ projectSimplex v = v.map f := by
  rcases eq_or_ne v [] with rfl | h
  · exact ⟨id, monotone_id, rfl⟩
  · refine ⟨_, ?_, projectSimplex_eq v h⟩
    intro a b hab
    exact max_le_max (by linarith) le_rfl

/-- C03. The compiled and the interpreted projections return the same vector on every input. -/
theorem C03_backends_agree (v : List K) : projectSimplexRust v = projectSimplex v := by
  rcases eq_or_ne v [] with rfl | h
  · rfl
  · rw [projectSimplex_eq v h, projectSimplexRust, thetaPy_eq_thetaRust v h]

example : projectSimplexRust [(5 : ℚ), 1, 9/2, -3] = [3/4, 0, 1/4, 0] := by decide +kernel

/-- Projection is non-expansive at probability vectors: used by the descent argument. -/
theorem C02_projection_closer (v q : List K) (h : v ≠ []) (hl : q.length = v.length)
    (hq : IsProb q) : sqDist q (projectSimplex v) ≤ sqDist q v := by
  have h1 := C02_projection_obtuse v q h hl hq
  have h2 := sqDist_nonneg (projectSimplex v) v
  linarith

end DiffDiff.Simplex
