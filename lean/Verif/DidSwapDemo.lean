import Verif.DidSwapProps
import Verif.DidFullDemo

/-! Instances of C155: two covariates (one redundant), a fixed effect, robust errors. -/

namespace DiffDiff.DidFull
open TwfeFit (Works)

example : ∃ L : TwfeFit.Lib (Fin 10) ℝ, ∃ R x s, fit L true false (1 / 20) (demo (fun i => (i.val : ℝ) ^ 2)) = .ok R ∧ R.att = .fin x ∧ R.se = .fin s ∧
    fit L true false (1 / 20) (demo (fun i => (i.val : ℝ) ^ 2)).swapGroups = .ok (mirror (relabel R)) ∧
    fit L true false (1 / 20) (demo (fun i => (i.val : ℝ) ^ 2)).swapPeriods = .ok (mirror R) ∧
    fit L true false (1 / 20) (demo (fun i => (i.val : ℝ) ^ 2)).swapGroups.swapPeriods = .ok (relabel R) ∧
    fit L true false (1 / 20) (demo (fun i => (i.val : ℝ) ^ 2)).negated = .ok (mirror R) ∧
    ∃ R', fit L true false (1 / 20) (demo (fun i => (i.val : ℝ) ^ 2)).swapRoles = .ok R' ∧ R'.att = .fin x ∧ R'.se = .fin s := by
  obtain ⟨L, hL, hP⟩ := LinReg.exists_prunes (ι := Fin 10)
  obtain ⟨R, hR⟩ := demo_runs L hL hP (fun i => (i.val : ℝ) ^ 2)
  have hid := demo_identified (fun i => (i.val : ℝ) ^ 2)
  have hV := (fit_ok hR).1
  obtain ⟨w, u, x, h1, h2, h3, h4, h5, h6, h7, -⟩ := C150_report L hL hP true false (1 / 20) _ hid R hR _ _ rfl rfl _ rfl
  have hse := h7 rfl rfl
  obtain ⟨R', r1, r2, r3, -⟩ := C155_roles L hL hP true false (1 / 20) _ hid R hR
  exact ⟨L, R, x, _, hR, h5, hse, (C155_groups L hL hP _ _ _ _ hV hid R).2 hR, (C155_periods L hL hP _ _ _ _ hV hid R).2 hR,
    (C155_both L hL hP _ _ _ _ hV hid R).2 hR, (C155_sign L hL hP _ _ _ _ hid R).2 hR, R', r1, r2.trans h5, r3.trans hse⟩

end DiffDiff.DidFull
