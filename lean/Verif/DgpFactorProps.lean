/-
What SyntheticDiD reports on generate_factor_data (C117).
-/
import Verif.DgpStagProps
import Verif.SdidProps

set_option linter.unusedSectionVars false

namespace DiffDiff.Dgp

open Sdid (sdid avg fitAtt)
open SynthWeights (IsProbF)

section general
variable {K : Type*} [Field K] [LinearOrder K] [IsStrictOrderedRing K]

/-- One factor: the estimate is the product of the loading gap and the factor gap. -/
theorem sdid_rank_one {p q n : ℕ} (L : Fin n → K) (l : K) (f : Fin p → K) (g : Fin q → K) (ω : Fin n → K) (lam : Fin p → K) :
    sdid (fun t j => L j * f t) (fun s j => L j * g s) (fun t => l * f t) (fun s => l * g s) ω lam
      = (l - ∑ j, ω j * L j) * (avg g - ∑ t, lam t * f t) := by
  unfold sdid avg
  dsimp only
  have e1 : ∀ x : K, ∑ t, lam t * (x * f t) = x * ∑ t, lam t * f t := by
    intro x; rw [Finset.mul_sum]; exact Finset.sum_congr rfl fun t _ => by ring
  simp only [e1, ← Finset.mul_sum]
  have e2 : ∑ j, ω j * (L j * (∑ s, g s) / (q : K) - L j * ∑ t, lam t * f t)
      = (∑ j, ω j * L j) * ((∑ s, g s) / (q : K) - ∑ t, lam t * f t) := by
    rw [Finset.sum_mul]; exact Finset.sum_congr rfl fun j _ => by ring
  rw [e2]
  ring

theorem sdid_zero {p q n : ℕ} (ω : Fin n → K) (lam : Fin p → K) :
    sdid (fun _ _ => 0) (fun (_ : Fin q) _ => 0) (fun _ => 0) (fun _ => 0) ω lam = (0 : K) := by
  unfold sdid avg
  simp

/-- Several factors. -/
theorem sdid_factors {p q n : ℕ} (r : ℕ) (L : ℕ → Fin n → K) (l : ℕ → K) (f : ℕ → Fin p → K) (g : ℕ → Fin q → K)
    (ω : Fin n → K) (lam : Fin p → K) :
    sdid (fun t j => ∑ k ∈ Finset.range r, L k j * f k t) (fun s j => ∑ k ∈ Finset.range r, L k j * g k s)
      (fun t => ∑ k ∈ Finset.range r, l k * f k t) (fun s => ∑ k ∈ Finset.range r, l k * g k s) ω lam
      = ∑ k ∈ Finset.range r, (l k - ∑ j, ω j * L k j) * (avg (g k) - ∑ t, lam t * f k t) := by
  induction r with
  | zero => simpa using sdid_zero ω lam
  | succ r ih =>
    simp only [Finset.sum_range_succ]
    rw [Sdid.sdid_add, ih, sdid_rank_one]

theorem avg_sum_mul {m : ℕ} (r : ℕ) (M : ℕ → Fin m → K) (x : ℕ → K) :
    avg (fun i => ∑ k ∈ Finset.range r, M k i * x k) = ∑ k ∈ Finset.range r, avg (M k) * x k := by
  induction r with
  | zero => simp [avg]
  | succ r ih =>
    simp only [Finset.sum_range_succ]
    rw [Sdid.avg_add, ih]
    unfold avg
    rw [← Finset.sum_mul]
    ring

end general

variable {K : Type*} [Field K] [LinearOrder K] [IsStrictOrderedRing K] [FloorRing K]

/-- Outcome of a unit in a period (the pivot of synthetic_did.py 402-408). -/
def fCell (rows : List (FRow K)) (u t : ℕ) : K :=
  ((rows.find? (fun r => decide (r.unit = u ∧ r.period = t))).map FRow.outcome).getD 0

theorem fCell_eq (c : FactorCfg K) (z : ℕ → K) (u t : ℕ) (hu : u < c.nUnits) (ht : t < c.nPeriods) :
    fCell ((cells c.nUnits c.nPeriods).map (factorRow c z)) u t = (factorRow c z (u, t)).outcome := by
  unfold fCell
  rw [find_map _ _ FRow.outcome (factorRow c z (u, t)).outcome ?_ ?_]
  · rfl
  · exact ⟨_, List.mem_map_of_mem (mem_cells.2 ⟨hu, ht⟩), by simp [factorRow]⟩
  · intro x hx hp
    obtain ⟨⟨u', t'⟩, _, rfl⟩ := List.mem_map.1 hx
    have : u' = u ∧ t' = t := by simpa [factorRow] using hp
    rw [this.1, this.2]

/-- Noise of a unit in a period. -/
def fNoise (c : FactorCfg K) (z : ℕ → K) (u t : ℕ) : K :=
  c.noiseSd * z (c.nPeriods * c.nFactors + c.nFactors * c.nUnits + c.nUnits + (u * c.nPeriods + t))

theorem factor_outcome (c : FactorCfg K) (z : ℕ → K) (u t : ℕ) :
    (factorRow c z (u, t)).outcome = (10 + alpha c z u) + linspace c.nPeriods t
      + (∑ k ∈ Finset.range c.nFactors, loading c z k u * (c.strength * factor c z t k))
      + (if (u : ℤ) < c.nTreated ∧ c.nPre ≤ t then c.effect else 0) + fNoise c z u t := by
  have h : c.strength * interactive c z u t = ∑ k ∈ Finset.range c.nFactors, loading c z k u * (c.strength * factor c z t k) := by
    unfold interactive
    rw [show ((List.range c.nFactors).map fun k => loading c z k u * factor c z t k).sum
      = ∑ k ∈ Finset.range c.nFactors, loading c z k u * factor c z t k from rfl, Finset.mul_sum]
    exact Finset.sum_congr rfl fun k _ => by ring
  rw [← h]
  simp [factorRow, fNoise]

/-- The four blocks handed to the estimator: `m` treated units (numbered first), `n` control units, `p` pre periods, `q` post
periods. -/
def preC (Y : ℕ → ℕ → K) (m n p : ℕ) : Fin p → Fin n → K := fun t j => Y (m + j) t
def postC (Y : ℕ → ℕ → K) (m n p q : ℕ) : Fin q → Fin n → K := fun s j => Y (m + j) (p + s)
def preT (Y : ℕ → ℕ → K) (m p : ℕ) : Fin p → Fin m → K := fun t i => Y i t
def postT (Y : ℕ → ℕ → K) (m p q : ℕ) : Fin q → Fin m → K := fun s i => Y i (p + s)

/-- The estimate for given weights. -/
def sdidOn (Y : ℕ → ℕ → K) (m n p q : ℕ) (ω : Fin n → K) (lam : Fin p → K) : K :=
  sdid (preC Y m n p) (postC Y m n p q) (fun t => avg (preT Y m p t)) (fun s => avg (postT Y m p q s)) ω lam

/-- C117. For any unit and time weights summing to one, the synthetic difference-in-differences estimate on the generated
data is the requested effect, plus for each factor the gap between treated and weighted control loadings times the gap between
post and weighted pre factor values, plus the same estimate computed on the noise. -/
theorem C117_weights (c : FactorCfg K) (z : ℕ → K) (rows : List (FRow K)) (h : generateFactor c z = .ok rows)
    (m n : ℕ) (hm : c.nTreated = m) (hn : c.nUnits = m + n) (hq : 0 < c.nPost) (ω : Fin n → K) (lam : Fin c.nPre → K)
    (hω : ∑ j, ω j = 1) (hl : ∑ t, lam t = 1) :
    sdidOn (fCell rows) m n c.nPre c.nPost ω lam = c.effect
      + c.strength * ∑ k ∈ Finset.range c.nFactors,
          (avg (fun i : Fin m => loading c z k i) - ∑ j, ω j * loading c z k (m + j))
            * (avg (fun s : Fin c.nPost => factor c z (c.nPre + s) k) - ∑ t, lam t * factor c z t k)
      + sdidOn (fNoise c z) m n c.nPre c.nPost ω lam := by
  unfold generateFactor at h
  split_ifs at h with h1 h2 <;> cases h
  have hm0 : 0 < m := by rw [hm] at h2; omega
  have hY : ∀ u t, u < m + n → t < c.nPre + c.nPost →
      fCell ((cells c.nUnits c.nPeriods).map (factorRow c z)) u t = (10 + alpha c z u) + linspace c.nPeriods t
      + (∑ k ∈ Finset.range c.nFactors, loading c z k u * (c.strength * factor c z t k))
      + (if (u : ℤ) < c.nTreated ∧ c.nPre ≤ t then c.effect else 0) + fNoise c z u t := by
    intro u t hu ht
    rw [fCell_eq c z u t (by omega) ht, factor_outcome]
  have a1 : preC (fCell ((cells c.nUnits c.nPeriods).map (factorRow c z))) m n c.nPre = fun (t : Fin c.nPre) (j : Fin n) =>
      ((10 + alpha c z (m + j)) + linspace c.nPeriods t)
      + (∑ k ∈ Finset.range c.nFactors, loading c z k (m + j) * (c.strength * factor c z t k)) + fNoise c z (m + j) t := by
    funext t j
    unfold preC
    rw [hY _ _ (by omega) (by omega), if_neg (by rw [hm]; push_cast; omega), add_zero]
  have a2 : postC (fCell ((cells c.nUnits c.nPeriods).map (factorRow c z))) m n c.nPre c.nPost = fun (s : Fin c.nPost) (j : Fin n) =>
      ((10 + alpha c z (m + j)) + linspace c.nPeriods (c.nPre + s))
      + (∑ k ∈ Finset.range c.nFactors, loading c z k (m + j) * (c.strength * factor c z (c.nPre + s) k)) + fNoise c z (m + j) (c.nPre + s) := by
    funext s j
    unfold postC
    rw [hY _ _ (by omega) (by omega), if_neg (by rw [hm]; push_cast; omega), add_zero]
  have a3 : (fun t : Fin c.nPre => avg (preT (fCell ((cells c.nUnits c.nPeriods).map (factorRow c z))) m c.nPre t)) = fun t : Fin c.nPre =>
      (avg (fun i : Fin m => 10 + alpha c z i) + linspace c.nPeriods t)
      + (∑ k ∈ Finset.range c.nFactors, avg (fun i : Fin m => loading c z k i) * (c.strength * factor c z t k))
      + avg (preT (fNoise c z) m c.nPre t) := by
    funext t
    have : preT (fCell ((cells c.nUnits c.nPeriods).map (factorRow c z))) m c.nPre t = fun i : Fin m =>
      ((10 + alpha c z i) + linspace c.nPeriods t)
      + (∑ k ∈ Finset.range c.nFactors, loading c z k i * (c.strength * factor c z t k)) + preT (fNoise c z) m c.nPre t i := by
      funext i
      unfold preT
      rw [hY _ _ (by omega) (by omega), if_neg (by omega), add_zero]
    rw [this, Sdid.avg_add, Sdid.avg_add (fun i : Fin m => (10 + alpha c z i) + linspace c.nPeriods t),
      Sdid.avg_add (fun i : Fin m => 10 + alpha c z i) (fun _ => linspace c.nPeriods t), Sdid.avg_const hm0,
      avg_sum_mul c.nFactors (fun k (i : Fin m) => loading c z k i)]
  have a4 : (fun s : Fin c.nPost => avg (postT (fCell ((cells c.nUnits c.nPeriods).map (factorRow c z))) m c.nPre c.nPost s)) = fun s : Fin c.nPost =>
      (avg (fun i : Fin m => 10 + alpha c z i) + linspace c.nPeriods (c.nPre + s) + c.effect)
      + (∑ k ∈ Finset.range c.nFactors, avg (fun i : Fin m => loading c z k i) * (c.strength * factor c z (c.nPre + s) k))
      + avg (postT (fNoise c z) m c.nPre c.nPost s) := by
    funext s
    have : postT (fCell ((cells c.nUnits c.nPeriods).map (factorRow c z))) m c.nPre c.nPost s = fun i : Fin m =>
      ((10 + alpha c z i) + (linspace c.nPeriods (c.nPre + s) + c.effect))
      + (∑ k ∈ Finset.range c.nFactors, loading c z k i * (c.strength * factor c z (c.nPre + s) k)) + postT (fNoise c z) m c.nPre c.nPost s i := by
      funext i
      unfold postT
      rw [hY _ _ (by omega) (by omega), if_pos (by rw [hm]; constructor <;> omega)]
      ring
    rw [this, Sdid.avg_add, Sdid.avg_add (fun i : Fin m => (10 + alpha c z i) + (linspace c.nPeriods (c.nPre + s) + c.effect)),
      Sdid.avg_add (fun i : Fin m => 10 + alpha c z i) (fun _ => linspace c.nPeriods (c.nPre + s) + c.effect), Sdid.avg_const hm0,
      avg_sum_mul c.nFactors (fun k (i : Fin m) => loading c z k i)]
    ring
  unfold sdidOn
  rw [a1, a2, a3, a4, Sdid.sdid_add, Sdid.sdid_add, Sdid.C06_recovers_constant_effect _ _ _ _ _ _ _ hq hω hl,
    sdid_factors c.nFactors (fun k (j : Fin n) => loading c z k (m + j)) (fun k => avg (fun i : Fin m => loading c z k i))
      (fun k (t : Fin c.nPre) => c.strength * factor c z t k) (fun k (s : Fin c.nPost) => c.strength * factor c z (c.nPre + s) k)]
  congr 2
  rw [Finset.mul_sum]
  refine Finset.sum_congr rfl fun k _ => ?_
  have b1 : ∑ t : Fin c.nPre, lam t * (c.strength * factor c z t k) = c.strength * ∑ t : Fin c.nPre, lam t * factor c z t k := by
    rw [Finset.mul_sum]; exact Finset.sum_congr rfl fun t _ => by ring
  rw [b1]
  unfold avg
  rw [← Finset.mul_sum]
  ring

/-- C117. What `SyntheticDiD.fit` reports (either backend, any penalty, `zeta >= 0`, any step, tolerance and iteration budget):
there are non-negative unit weights and time weights summing to one with the decomposition of `C117_weights`. -/
theorem C117_fit (c : FactorCfg ℝ) (z : ℕ → ℝ) (rows : List (FRow ℝ)) (h : generateFactor c z = .ok rows)
    (m n : ℕ) (hm : c.nTreated = m) (hn : c.nUnits = m + n) (hn0 : 0 < n) (hp : 0 < c.nPre) (hq : 0 < c.nPost)
    (bk : SynthWeights.Backend) (lambdaReg zeta eps step tol : ℝ) (maxIter : ℕ) (heps : 0 < eps) (hz : 0 ≤ zeta) :
    ∃ (ω : Fin n → ℝ) (lam : Fin c.nPre → ℝ), (∀ j, 0 ≤ ω j) ∧ ∑ j, ω j = 1 ∧ (∀ t, 0 ≤ lam t) ∧ ∑ t, lam t = 1 ∧
      fitAtt bk lambdaReg zeta eps step tol maxIter (preC (fCell rows) m n c.nPre) (postC (fCell rows) m n c.nPre c.nPost)
        (preT (fCell rows) m c.nPre) (postT (fCell rows) m c.nPre c.nPost)
      = c.effect
        + c.strength * ∑ k ∈ Finset.range c.nFactors,
          (avg (fun i : Fin m => loading c z k i) - ∑ j, ω j * loading c z k (m + j))
            * (avg (fun s : Fin c.nPost => factor c z (c.nPre + s) k) - ∑ t, lam t * factor c z t k)
        + sdidOn (fNoise c z) m n c.nPre c.nPost ω lam := by
  have h1 := SynthWeights.C04_unit_weights_isProb bk (Matrix.of (preC (fCell rows) m n c.nPre)) (fun t => avg (preT (fCell rows) m c.nPre t))
    lambdaReg (1 / 1000000) step tol maxIter hn0
  have h2 := SynthWeights.C05_time_weights_isProb heps (Matrix.of (preC (fCell rows) m n c.nPre)) (fun t => avg (preT (fCell rows) m c.nPre t)) hz hp
  refine ⟨_, _, h1.1, h1.2, fun t => (h2.1 t).le, h2.2, ?_⟩
  rw [← C117_weights c z rows h m n hm hn hq _ _ h1.2 h2.2]
  rfl

/-- C117. Without factor contribution and noise `SyntheticDiD` returns the requested effect exactly. -/
theorem C117_exact (c : FactorCfg ℝ) (z : ℕ → ℝ) (rows : List (FRow ℝ)) (h : generateFactor c z = .ok rows)
    (m n : ℕ) (hm : c.nTreated = m) (hn : c.nUnits = m + n) (hn0 : 0 < n) (hp : 0 < c.nPre) (hq : 0 < c.nPost)
    (bk : SynthWeights.Backend) (lambdaReg zeta eps step tol : ℝ) (maxIter : ℕ) (heps : 0 < eps) (hz : 0 ≤ zeta)
    (hs : c.strength = 0) (hnoise : c.noiseSd = 0) :
    fitAtt bk lambdaReg zeta eps step tol maxIter (preC (fCell rows) m n c.nPre) (postC (fCell rows) m n c.nPre c.nPost)
        (preT (fCell rows) m c.nPre) (postT (fCell rows) m c.nPre c.nPost) = c.effect := by
  obtain ⟨ω, lam, _, _, _, _, he⟩ := C117_fit c z rows h m n hm hn hn0 hp hq bk lambdaReg zeta eps step tol maxIter heps hz
  have : fNoise c z = fun _ _ => 0 := by funext u t; simp [fNoise, hnoise]
  rw [he, hs, zero_mul, add_zero, this]
  unfold sdidOn preC postC preT postT
  have : avg (fun _ : Fin m => (0 : ℝ)) = 0 := by simp [avg]
  simp only [this]
  rw [sdid_zero, add_zero]

/-- Two units, one treated; one pre and one post period; one factor. -/
def exFactor (K : Type*) [Field K] : FactorCfg K := ⟨2, 1, 1, 1, 1, 2, 1, 2, 0, 0⟩

/-- C117 refuted: "on noise-free data SyntheticDiD returns the requested effect". With one factor whose values differ between
pre and post periods and one treated unit whose loading differs from the single control's, the weights are forced to be one and
the estimate is off. -/
theorem C117_noise_free_refuted :
    ¬ ∀ (c : FactorCfg ℝ) (z : ℕ → ℝ) (rows : List (FRow ℝ)) (m n : ℕ) (bk : SynthWeights.Backend)
      (lambdaReg zeta eps step tol : ℝ) (maxIter : ℕ), generateFactor c z = .ok rows → c.noiseSd = 0 →
      c.nTreated = m → c.nUnits = m + n → 0 < n → 0 < c.nPre → 0 < c.nPost → 0 < eps → 0 ≤ zeta →
      fitAtt bk lambdaReg zeta eps step tol maxIter (preC (fCell rows) m n c.nPre) (postC (fCell rows) m n c.nPre c.nPost)
        (preT (fCell rows) m c.nPre) (postT (fCell rows) m c.nPre c.nPost) = c.effect := by
  intro h
  have hr : generateFactor (exFactor ℝ) (fun i => (i : ℝ)) = .ok ((cells 2 2).map (factorRow (exFactor ℝ) (fun i => (i : ℝ)))) := rfl
  have h3 := h (exFactor ℝ) (fun i => (i : ℝ)) _ 1 1 .numpy 0 1 1 1 1 1 hr rfl rfl rfl (by norm_num) Nat.one_pos Nat.one_pos
    (by norm_num) (by norm_num)
  obtain ⟨ω, lam, _, h1, _, h2, e⟩ := C117_fit (exFactor ℝ) (fun i => (i : ℝ)) _ hr 1 1 rfl rfl (by norm_num) Nat.one_pos Nat.one_pos
    .numpy 0 1 1 1 1 1 (by norm_num) (by norm_num)
  rw [h3] at e
  have n0 : fNoise (exFactor ℝ) (fun i => (i : ℝ)) = fun _ _ => 0 := by funext u t; simp [fNoise, exFactor]
  rw [n0] at e
  have z0 : sdidOn (fun _ _ => (0 : ℝ)) 1 1 (exFactor ℝ).nPre (exFactor ℝ).nPost ω lam = 0 := by
    simp [sdidOn, preC, postC, preT, postT, sdid, avg]
  rw [z0] at e
  have f1 : ∀ t : Fin (exFactor ℝ).nPre, (t : ℕ) = 0 := fun t => by have := t.2; simp only [exFactor] at this; omega
  have f2 : ∀ t : Fin (exFactor ℝ).nPost, (t : ℕ) = 0 := fun t => by have := t.2; simp only [exFactor] at this; omega
  have g1 : ∑ t : Fin (exFactor ℝ).nPre, lam t * factor (exFactor ℝ) (fun i => (i : ℝ)) t 0 = 0 := by
    refine Finset.sum_eq_zero fun t _ => ?_
    rw [f1 t]; simp [factor]
  have g2 : avg (fun s : Fin (exFactor ℝ).nPost => factor (exFactor ℝ) (fun i => (i : ℝ)) ((exFactor ℝ).nPre + s) 0) = 1 := by
    have : (fun s : Fin (exFactor ℝ).nPost => factor (exFactor ℝ) (fun i => (i : ℝ)) ((exFactor ℝ).nPre + s) 0) = fun _ => 1 := by
      funext s
      rw [f2 s]
      simp [factor, exFactor]
    rw [this]
    exact Sdid.avg_const Nat.one_pos 1
  have g3 : ∑ j : Fin 1, ω j * loading (exFactor ℝ) (fun i => (i : ℝ)) 0 (1 + j) = 3 := by
    simp only [Fin.sum_univ_one] at h1 ⊢
    rw [h1]; norm_num [loading, exFactor, FactorCfg.nPeriods]
  have g4 : avg (fun i : Fin 1 => loading (exFactor ℝ) (fun i => (i : ℝ)) 0 i) = 4 := by
    norm_num [avg, loading, exFactor, FactorCfg.nPeriods]
  have g5 : (exFactor ℝ).nFactors = 1 := rfl
  have g6 : (exFactor ℝ).strength = 1 := rfl
  rw [g5, Finset.sum_range_one, g1, g2, g3, g4, g6] at e
  norm_num at e

example : (generateFactor (exFactor ℚ) (fun i => (i : ℚ))).toOption.map (fun rows => rows.map FRow.outcome) = some [11, 19, 10, 15] := by
  decide +kernel

end DiffDiff.Dgp
