/-
C108: `TROP` (method "twostep") does not depend on the order of the units, in Python and in the compiled bootstrap.
-/
import Verif.TropFitProps
import Verif.TropRustProps
import Verif.TropShiftProps
import Mathlib.Data.List.Perm.Basic

set_option linter.unusedSectionVars false

namespace DiffDiff.TropPerm

open TropFit (Ops Data Fit Cfg Lam3)

/-! ### Relabelling -/

/-- `σ` rearranges the first `n` numbers. -/
def Relab (n : ℕ) (σ : ℕ → ℕ) : Prop := ((List.range n).map σ).Perm (List.range n)

theorem Relab.lt {n : ℕ} {σ : ℕ → ℕ} (h : Relab n σ) {j : ℕ} (hj : j < n) : σ j < n :=
  List.mem_range.1 (h.subset (List.mem_map_of_mem (List.mem_range.2 hj)))

theorem Relab.inj {n : ℕ} {σ : ℕ → ℕ} (h : Relab n σ) {i j : ℕ} (hi : i < n) (hj : j < n) (he : σ i = σ j) : i = j := by
  have hn : ((List.range n).map σ).Nodup := h.nodup_iff.2 List.nodup_range
  exact List.inj_on_of_nodup_map hn (List.mem_range.2 hi) (List.mem_range.2 hj) he

/-- The panel whose unit `j` is unit `σ j` of `P`. -/
def relabel {N : Type*} (σ : ℕ → ℕ) (P : Data N) : Data N :=
  { nT := P.nT, nN := P.nN, Y := fun t j => P.Y t (σ j), D := fun t j => P.D t (σ j) }

/-- `A` is `B` with rearranged columns. -/
def Cols {N : Type*} (nT n : ℕ) (σ : ℕ → ℕ) (A B : ℕ → ℕ → N) : Prop := ∀ t < nT, ∀ j < n, A t j = B t (σ j)

/-- What is assumed of the arithmetic: sums and maxima can be rearranged, and the singular value thresholding of a matrix with rearranged
columns is the rearranged result. -/
structure Sym {N : Type*} (o : Ops N) (n : ℕ) (σ : ℕ → ℕ) : Prop where
  add : ∀ a b c, o.add a (o.add b c) = o.add b (o.add a c)
  max : ∀ a b c, o.max a (o.max b c) = o.max b (o.max a c)
  svd : ∀ lam nT A B, Cols nT n σ A B → Cols nT n σ (o.svd lam nT n A) (o.svd lam nT n B)

section generic
variable {N : Type*} {o : Ops N} {n : ℕ} {σ : ℕ → ℕ}

theorem sumL_perm (hs : Sym o n σ) {l l' : List N} (h : l.Perm l') : TropFit.sumL o l = TropFit.sumL o l' := by
  haveI : LeftCommutative o.add := ⟨hs.add⟩
  exact h.foldr_eq _

theorem maxL_perm (hs : Sym o n σ) {l l' : List N} (h : l.Perm l') : TropFit.maxL o l = TropFit.maxL o l' := by
  haveI : LeftCommutative o.max := ⟨hs.max⟩
  exact h.foldr_eq _

theorem map_perm {M : Type*} (hσ : Relab n σ) {f g : ℕ → M} (h : ∀ j < n, f j = g (σ j)) :
    ((List.range n).map f).Perm ((List.range n).map g) := by
  have : (List.range n).map f = ((List.range n).map σ).map g := by
    rw [List.map_map]
    exact List.map_congr_left fun j hj => h j (List.mem_range.1 hj)
  rw [this]
  exact hσ.map g

theorem entries_perm (hσ : Relab n σ) {nT : ℕ} {A B : ℕ → ℕ → N} (h : Cols nT n σ A B) :
    (TropFit.entries nT n A).Perm (TropFit.entries nT n B) := by
  unfold TropFit.entries
  exact List.Perm.flatMap_left _ fun t ht => map_perm hσ fun j hj => h t (List.mem_range.1 ht) j hj

theorem matDiff_perm (hs : Sym o n σ) (hσ : Relab n σ) {nT : ℕ} {A B A' B' : ℕ → ℕ → N} (h : Cols nT n σ A' A)
    (h' : Cols nT n σ B' B) : TropFit.matDiff o nT n A' B' = TropFit.matDiff o nT n A B := by
  unfold TropFit.matDiff
  exact maxL_perm hs (entries_perm hσ fun t ht j hj => by rw [h t ht j hj, h' t ht j hj])

/-- Fits of rearranged panels. -/
structure RelFit (nT n : ℕ) (σ : ℕ → ℕ) (f g : Fit N) : Prop where
  alpha : ∀ j < n, f.alpha j = g.alpha (σ j)
  beta : ∀ t < nT, f.beta t = g.beta t
  L : Cols nT n σ f.L g.L

theorem map_congr_range {M : Type*} {m : ℕ} {f g : ℕ → M} (h : ∀ j < m, f j = g j) : (List.range m).map f = (List.range m).map g :=
  List.map_congr_left fun j hj => h j (List.mem_range.1 hj)

variable {nT : ℕ} {Y Y' W W' : ℕ → ℕ → N}

theorem alphaStep_perm (hY : Cols nT n σ Y' Y) (hW : Cols nT n σ W' W) {f g : Fit N} (h : RelFit nT n σ f g) {j : ℕ} (hj : j < n) :
    TropFit.alphaStep o nT Y' W' f j = TropFit.alphaStep o nT Y W g (σ j) := by
  have h1 : TropFit.unitSum o nT W' j = TropFit.unitSum o nT W (σ j) := by
    unfold TropFit.unitSum
    rw [map_congr_range fun t ht => hW t ht j hj]
  unfold TropFit.alphaStep
  rw [h1, map_congr_range (g := fun t => o.mul (W t (σ j)) (o.sub (o.sub (Y t (σ j)) (g.L t (σ j))) (g.beta t)))
    fun t ht => by rw [hW t ht j hj, hY t ht j hj, h.L t ht j hj, h.beta t ht]]

theorem betaStep_perm (hs : Sym o n σ) (hσ : Relab n σ) (hY : Cols nT n σ Y' Y) (hW : Cols nT n σ W' W) {a b : ℕ → N}
    (ha : ∀ j < n, a j = b (σ j)) {L L' : ℕ → ℕ → N} (hL : Cols nT n σ L' L) {t : ℕ} (ht : t < nT) :
    TropFit.betaStep o n Y' W' a L' t = TropFit.betaStep o n Y W b L t := by
  have h1 : TropFit.timeSum o n W' t = TropFit.timeSum o n W t := by
    unfold TropFit.timeSum
    exact sumL_perm hs (map_perm hσ fun j hj => hW t ht j hj)
  unfold TropFit.betaStep
  rw [h1, sumL_perm hs (map_perm hσ (g := fun i => o.mul (W t i) (o.sub (o.sub (Y t i) (L t i)) (b i)))
    fun j hj => by rw [hW t ht j hj, hY t ht j hj, hL t ht j hj, ha j hj])]

theorem inner_perm (hs : Sym o n σ) (hσ : Relab n σ) (tol lam : N) {R R' : ℕ → ℕ → N} (hW : Cols nT n σ W' W)
    (hR : Cols nT n σ R' R) : ∀ (k : ℕ) {L L' : ℕ → ℕ → N}, Cols nT n σ L' L →
    Cols nT n σ (TropFit.inner o tol nT n lam W' R' k L') (TropFit.inner o tol nT n lam W R k L)
  | 0, _, _, hL => hL
  | k + 1, L, L', hL => by
    have hp : Cols nT n σ (TropFit.proxStep o nT n lam W' R' L') (TropFit.proxStep o nT n lam W R L) := by
      unfold TropFit.proxStep
      exact hs.svd _ _ _ _ fun t ht j hj => by rw [hL t ht j hj, hW t ht j hj, hR t ht j hj]
    rw [TropFit.inner, TropFit.inner, matDiff_perm hs hσ hp hL]
    split_ifs
    · exact hp
    · exact inner_perm hs hσ tol lam hW hR k hp

theorem sweep_perm (hs : Sym o n σ) (hσ : Relab n σ) (tol lam : N) (hY : Cols nT n σ Y' Y) (hW : Cols nT n σ W' W) {f g : Fit N}
    (h : RelFit nT n σ f g) : RelFit nT n σ (TropFit.sweep o tol nT n lam Y' W' f) (TropFit.sweep o tol nT n lam Y W g) := by
  have ha : ∀ j < n, TropFit.alphaStep o nT Y' W' f j = TropFit.alphaStep o nT Y W g (σ j) := fun j hj => alphaStep_perm hY hW h hj
  have hb : ∀ t < nT, TropFit.betaStep o n Y' W' (TropFit.alphaStep o nT Y' W' f) f.L t =
      TropFit.betaStep o n Y W (TropFit.alphaStep o nT Y W g) g.L t := fun t ht => betaStep_perm hs hσ hY hW ha h.L ht
  refine ⟨ha, hb, ?_⟩
  have hR : Cols nT n σ
      (TropFit.rMasked o Y' W' (TropFit.alphaStep o nT Y' W' f) (TropFit.betaStep o n Y' W' (TropFit.alphaStep o nT Y' W' f) f.L) f.L)
      (TropFit.rMasked o Y W (TropFit.alphaStep o nT Y W g) (TropFit.betaStep o n Y W (TropFit.alphaStep o nT Y W g) g.L) g.L) := by
    intro t ht j hj
    unfold TropFit.rMasked
    rw [hW t ht j hj, hY t ht j hj, ha j hj, hb t ht, h.L t ht j hj]
  have hN : Cols nT n σ (TropFit.wNorm o nT n W') (TropFit.wNorm o nT n W) := by
    intro t ht j hj
    unfold TropFit.wNorm
    rw [maxL_perm hs (entries_perm hσ hW), hW t ht j hj]
  show Cols nT n σ (TropFit.nnSolve o tol nT n lam Y' W' _ _ f.L) (TropFit.nnSolve o tol nT n lam Y W _ _ g.L)
  unfold TropFit.nnSolve
  split_ifs
  · exact hR
  · exact inner_perm hs hσ tol lam hN hR 10 h.L

theorem close_perm (hs : Sym o n σ) (hσ : Relab n σ) (tol : N) {f g f' g' : Fit N} (h : RelFit nT n σ f' f)
    (h' : RelFit nT n σ g' g) : TropFit.close o tol nT n f' g' = TropFit.close o tol nT n f g := by
  have h1 : TropFit.vecDiff o n f'.alpha g'.alpha = TropFit.vecDiff o n f.alpha g.alpha := by
    unfold TropFit.vecDiff
    exact maxL_perm hs (map_perm hσ fun j hj => by rw [h.alpha j hj, h'.alpha j hj])
  have h2 : TropFit.vecDiff o nT f'.beta g'.beta = TropFit.vecDiff o nT f.beta g.beta := by
    unfold TropFit.vecDiff
    rw [map_congr_range fun t ht => by rw [h.beta t ht, h'.beta t ht]]
  unfold TropFit.close
  rw [h1, h2, matDiff_perm hs hσ h.L h'.L]

theorem loop_perm (hs : Sym o n σ) (hσ : Relab n σ) (tol lam : N) (hY : Cols nT n σ Y' Y) (hW : Cols nT n σ W' W) :
    ∀ (k : ℕ) {f g : Fit N}, RelFit nT n σ f g →
      RelFit nT n σ (TropFit.loop o tol nT n lam Y' W' k f) (TropFit.loop o tol nT n lam Y W k g)
  | 0, _, _, h => h
  | k + 1, f, g, h => by
    have hsw := sweep_perm hs hσ tol lam hY hW h
    rw [TropFit.loop, TropFit.loop, close_perm hs hσ tol hsw h]
    split_ifs
    · exact hsw
    · exact loop_perm hs hσ tol lam hY hW k hsw

/-- The excluded cell in the new numbering corresponds to the one in the old. -/
def exMap (σ : ℕ → ℕ) (ex : Option (ℕ × ℕ)) : Option (ℕ × ℕ) := ex.map fun q => (q.1, σ q.2)

theorem ex_iff (hσ : Relab n σ) {ex : Option (ℕ × ℕ)} (hex : ∀ q, ex = some q → q.2 < n) {t j : ℕ} (hj : j < n) :
    (exMap σ ex = some (t, σ j)) ↔ (ex = some (t, j)) := by
  rcases ex with _ | ⟨a, b⟩
  · simp [exMap]
  · simp only [exMap, Option.map_some, Option.some.injEq, Prod.mk.injEq]
    constructor
    · rintro ⟨rfl, h⟩
      exact ⟨rfl, hσ.inj (hex _ rfl) hj h⟩
    · rintro ⟨rfl, rfl⟩
      exact ⟨rfl, rfl⟩

theorem unitWeight_perm (P : Data N) (hσ : Relab P.nN σ) (lamU : N) {i j : ℕ} (t : ℕ) (hi : i < P.nN) (hj : j < P.nN) :
    TropFit.unitWeight o (relabel σ P) lamU i t j = TropFit.unitWeight o P lamU (σ i) t (σ j) := by
  unfold TropFit.unitWeight
  by_cases hji : j = i
  · rw [if_pos hji, if_pos (by rw [hji])]
  · rw [if_neg hji, if_neg fun h => hji (hσ.inj hj hi h)]
    rfl

/-- The fit of a cell in the rearranged panel. -/
theorem fitAt_perm (c : Cfg N) (P : Data N) (hσ : Relab P.nN σ) (hs : Sym o P.nN σ) (l : Lam3 N) (ex : Option (ℕ × ℕ))
    (hex : ∀ q, ex = some q → q.2 < P.nN) (t : ℕ) {i : ℕ} (hi : i < P.nN) :
    RelFit P.nT P.nN σ (TropFit.fitAt o c (some (relabel σ P)) (relabel σ P) l ex t i)
      (TropFit.fitAt o c (some P) P l (exMap σ ex) t (σ i)) := by
  unfold TropFit.fitAt TropFit.estimate
  refine loop_perm hs hσ c.tol l.nn ?_ ?_ c.maxIter ⟨fun _ _ => rfl, fun _ _ => rfl, fun _ _ _ _ => rfl⟩
  · intro s _ j _
    rfl
  · intro s _ j hj
    have hv : TropFit.valid (relabel σ P) ex s j = TropFit.valid P (exMap σ ex) s (σ j) := by
      unfold TropFit.valid
      rw [decide_eq_decide.2 (ex_iff hσ hex hj)]
      rfl
    unfold TropFit.wMasked
    rw [hv]
    unfold TropFit.obsWeights TropFit.weights
    simp only
    rw [unitWeight_perm P hσ l.unit t hi hj]

theorem tau_perm (c : Cfg N) (P : Data N) (hσ : Relab P.nN σ) (hs : Sym o P.nN σ) (l : Lam3 N) (ex : Option (ℕ × ℕ))
    (hex : ∀ q, ex = some q → q.2 < P.nN) {t i : ℕ} (ht : t < P.nT) (hi : i < P.nN) :
    TropFit.tau o (relabel σ P) (TropFit.fitAt o c (some (relabel σ P)) (relabel σ P) l ex t i) t i =
      TropFit.tau o P (TropFit.fitAt o c (some P) P l (exMap σ ex) t (σ i)) t (σ i) := by
  have h := fitAt_perm c P hσ hs l ex hex t hi
  unfold TropFit.tau
  rw [h.alpha i hi, h.beta t ht, h.L t ht i hi]
  rfl

theorem mem_cells {P : Data N} {p : ℕ → ℕ → Bool} {q : ℕ × ℕ} (h : q ∈ TropFit.cells P p) : q.1 < P.nT ∧ q.2 < P.nN ∧ p q.1 q.2 := by
  simp only [TropFit.cells, List.mem_flatMap, List.mem_range, List.mem_map, List.mem_filter] at h
  obtain ⟨t, ht, i, ⟨hi, hp⟩, rfl⟩ := h
  exact ⟨ht, hi, hp⟩

theorem cells_perm (P : Data N) (hσ : Relab P.nN σ) (p : ℕ → ℕ → Bool) :
    ((TropFit.cells (relabel σ P) (fun t j => p t (σ j))).map fun q => (q.1, σ q.2)).Perm (TropFit.cells P p) := by
  unfold TropFit.cells
  rw [List.map_flatMap]
  refine List.Perm.flatMap_left _ fun t _ => ?_
  rw [List.map_map]
  have : ((List.range P.nN).filter fun i => p t (σ i)).map ((fun q : ℕ × ℕ => (q.1, σ q.2)) ∘ fun i => (t, i)) =
      ((((List.range P.nN).map σ).filter fun i => p t i)).map fun i => (t, i) := by
    rw [List.filter_map, List.map_map]
    rfl
  exact (List.Perm.of_eq this).trans ((hσ.filter _).map _)

theorem mapM_perm {M : Type*} {l l' : List (Option M)} (h : l.Perm l') :
    (l.mapM id = none ∧ l'.mapM id = none) ∨ ∃ xs xs', l.mapM id = some xs ∧ l'.mapM id = some xs' ∧ xs.Perm xs' := by
  induction h with
  | nil => exact Or.inr ⟨[], [], rfl, rfl, List.Perm.nil⟩
  | @cons a l l' _ ih =>
    rw [List.mapM_cons, List.mapM_cons]
    rcases a with _ | a
    · exact Or.inl ⟨rfl, rfl⟩
    · rcases ih with ⟨h1, h2⟩ | ⟨xs, xs', h1, h2, h3⟩
      · rw [h1, h2]; exact Or.inl ⟨rfl, rfl⟩
      · rw [h1, h2]; exact Or.inr ⟨a :: xs, a :: xs', rfl, rfl, h3.cons a⟩
  | swap a b l =>
    simp only [List.mapM_cons]
    rcases a with _ | a <;> rcases b with _ | b <;> rcases h : l.mapM id with _ | xs
    all_goals first
      | exact Or.inl ⟨rfl, rfl⟩
      | exact Or.inr ⟨b :: a :: xs, a :: b :: xs, rfl, rfl, List.Perm.swap a b xs⟩
  | trans _ _ ih1 ih2 =>
    rcases ih1 with ⟨h1, h2⟩ | ⟨xs, xs', h1, h2, h3⟩ <;> rcases ih2 with ⟨h4, h5⟩ | ⟨ys, ys', h4, h5, h6⟩
    · exact Or.inl ⟨h1, h5⟩
    · rw [h2] at h4; cases h4
    · rw [h2] at h4; cases h4
    · rw [h2] at h4; cases h4; exact Or.inr ⟨xs, ys', h1, h5, h3.trans h6⟩

theorem meanO_perm (hs : Sym o n σ) {l l' : List (Option N)} (h : l.Perm l') : TropFit.meanO o l = TropFit.meanO o l' := by
  unfold TropFit.meanO
  rcases mapM_perm h with ⟨h1, h2⟩ | ⟨xs, xs', h1, h2, h3⟩
  · rw [h1, h2]
  · rw [h1, h2]
    rcases xs with _ | ⟨x, xs⟩
    · rw [h3.nil_eq]
    · rcases xs' with _ | ⟨x', xs'⟩
      · exact absurd h3.length_eq (by simp)
      · have hl : xs.length = xs'.length := by simpa using h3.length_eq
        simp only [sumL_perm hs h3, hl]

/-- **C108, cells.** Numbering the units differently changes nothing but the numbering: the effect of a cell of the rearranged panel is
the effect of the same unit and period in the original panel. -/
theorem C108_cell (c : Cfg N) (P : Data N) (hσ : Relab P.nN σ) (hs : Sym o P.nN σ) (l : Lam3 N) {t i : ℕ} (ht : t < P.nT)
    (hi : i < P.nN) :
    TropFit.effect o c (some (relabel σ P)) (relabel σ P) l t i = TropFit.effect o c (some P) P l t (σ i) :=
  tau_perm c P hσ hs l none (by simp) ht hi

/-- **C108, average effect.** The average effect on the treated does not depend on the order of the units. -/
theorem C108_att (c : Cfg N) (P : Data N) (hσ : Relab P.nN σ) (hs : Sym o P.nN σ) (l : Lam3 N) :
    TropFit.att o c (some (relabel σ P)) (relabel σ P) l = TropFit.att o c (some P) P l := by
  unfold TropFit.att
  refine meanO_perm hs ?_
  have h1 : (TropFit.treatedCells (relabel σ P)).map (fun q => TropFit.effect o c (some (relabel σ P)) (relabel σ P) l q.1 q.2) =
      ((TropFit.treatedCells (relabel σ P)).map fun q => (q.1, σ q.2)).map (fun q => TropFit.effect o c (some P) P l q.1 q.2) := by
    rw [List.map_map]
    refine List.map_congr_left fun q hq => ?_
    obtain ⟨ht, hi, _⟩ := mem_cells hq
    exact C108_cell c P hσ hs l ht hi
  rw [h1]
  exact (cells_perm P hσ (fun t i => decide (P.D t i = 1))).map _

theorem looTerm_perm (c : Cfg N) (P : Data N) (hσ : Relab P.nN σ) (hs : Sym o P.nN σ) (l : Lam3 N) {q : ℕ × ℕ} (ht : q.1 < P.nT)
    (hi : q.2 < P.nN) :
    TropFit.looTerm o c (some (relabel σ P)) (relabel σ P) l q = TropFit.looTerm o c (some P) P l (q.1, σ q.2) := by
  unfold TropFit.looTerm
  rw [tau_perm c P hσ hs l (some q) (fun _ h => by cases h; exact hi) ht hi]
  rfl

/-- **C108, score.** The leave-one-out score over all control cells does not depend on the order of the units. -/
theorem C108_score (c : Cfg N) (P : Data N) (hσ : Relab P.nN σ) (hs : Sym o P.nN σ) (l : Lam3 N) :
    TropFit.looScore o c id (relabel σ P) l = TropFit.looScore o c id P l := by
  have hp := cells_perm P hσ (fun t i => decide (P.D t i = 0) && (P.Y t i).isSome)
  have h1 : (TropFit.controlCells (relabel σ P)).map (TropFit.looTerm o c (some (relabel σ P)) (relabel σ P) l) =
      ((TropFit.controlCells (relabel σ P)).map fun q => (q.1, σ q.2)).map (TropFit.looTerm o c (some P) P l) := by
    rw [List.map_map]
    refine List.map_congr_left fun q hq => ?_
    obtain ⟨ht, hi, _⟩ := mem_cells hq
    exact looTerm_perm c P hσ hs l ht hi
  have h2 := hp.map (TropFit.looTerm o c (some P) P l)
  have h3 : ((TropFit.controlCells (relabel σ P)).map (TropFit.looTerm o c (some (relabel σ P)) (relabel σ P) l)).Perm
      ((TropFit.controlCells P).map (TropFit.looTerm o c (some P) P l)) := by rw [h1]; exact h2
  have hl : (TropFit.controlCells (relabel σ P)).length = (TropFit.controlCells P).length := by simpa using h3.length_eq
  have hsum := sumL_perm hs h3
  unfold TropFit.looScore
  simp only [id]
  rcases hA : TropFit.controlCells (relabel σ P) with _ | ⟨a, as⟩ <;> rcases hB : TropFit.controlCells P with _ | ⟨b, bs⟩
  · rfl
  · rw [hA, hB] at hl; simp at hl
  · rw [hA, hB] at hl; simp at hl
  · rw [hA, hB] at hsum
    exact congrArg some hsum

end generic

/-! ### The two arithmetics -/

section ext
variable {K : Type*} [Field K] [LinearOrder K] [IsStrictOrderedRing K] {σ : ℕ → ℕ}

/-- Singular value thresholding commutes with rearranging the columns. -/
def SvdSym (svd : K → ℕ → ℕ → (ℕ → ℕ → K) → (ℕ → ℕ → K)) (n : ℕ) (σ : ℕ → ℕ) : Prop :=
  ∀ lam nT A B, Cols nT n σ A B → Cols nT n σ (svd lam nT n A) (svd lam nT n B)

theorem sym_field (e r : K → K) {svd : K → ℕ → ℕ → (ℕ → ℕ → K) → (ℕ → ℕ → K)} {n : ℕ} (h : SvdSym svd n σ) :
    Sym (TropFit.fieldOps e r svd) n σ :=
  ⟨fun a b c => add_left_comm a b c, fun a b c => max_left_comm a b c, h⟩

theorem ext_add_left_comm (a b c : Ext K) : Ext.add a (Ext.add b c) = Ext.add b (Ext.add a c) := by
  cases a <;> cases b <;> cases c <;> simp [Ext.add, add_left_comm]

theorem ext_max_left_comm (a b c : Ext K) : TropFit.extMax a (TropFit.extMax b c) = TropFit.extMax b (TropFit.extMax a c) := by
  have hf : ∀ x y : K, TropFit.extMax (.fin x) (.fin y) = .fin (max x y) := by
    intro x y
    simp only [TropFit.extMax, Ext.lt]
    rcases lt_or_ge x y with h | h
    · simp [h, max_eq_right h.le]
    · simp [not_lt.2 h, max_eq_left h]
  have h1 : ∀ x : K, TropFit.extMax (.fin x) .ninf = .fin x := fun _ => rfl
  have h2 : ∀ x : K, TropFit.extMax .ninf (.fin x) = .fin x := fun _ => rfl
  have h3 : ∀ x : K, TropFit.extMax (.fin x) .pinf = .pinf := fun _ => rfl
  have h4 : ∀ x : K, TropFit.extMax .pinf (.fin x) = .pinf := fun _ => rfl
  cases a <;> cases b <;> cases c
  all_goals first
    | rfl
    | (simp only [hf, h1, h2, h3, h4]; done)
    | (simp only [hf, h1, h2, h3, h4]; rw [max_left_comm]; done)
    | (simp only [hf, h1, h2, h3, h4]; rw [max_comm])

theorem sym_ext (e r : K → K) {svd : K → ℕ → ℕ → (ℕ → ℕ → K) → (ℕ → ℕ → K)} {n : ℕ} (h : SvdSym svd n σ) :
    Sym (TropFit.extOps e r svd) n σ := by
  refine ⟨ext_add_left_comm, ext_max_left_comm, ?_⟩
  intro lam nT A B hAB
  show Cols nT n σ (TropFit.extSvd svd lam nT n A) (TropFit.extSvd svd lam nT n B)
  cases lam with
  | fin x =>
    intro t ht j hj
    simp only [TropFit.extSvd]
    rw [h x nT (fun t i => TropFit.toK (A t i)) (fun t i => TropFit.toK (B t i)) (fun t ht j hj => congrArg TropFit.toK (hAB t ht j hj)) t ht j hj]
  | _ => exact fun _ _ _ _ => rfl

/-- **C108.** Selected parameters, stored score and average effect of `fit` do not depend on the order of the units when all control
cells are scored (floats with infinities and NaN, exact finite part). -/
theorem C108_fit (e r : K → K) {svd : K → ℕ → ℕ → (ℕ → ℕ → K) → (ℕ → ℕ → K)} (c : Cfg (Ext K)) (P : Data (Ext K))
    (hσ : Relab P.nN σ) (hsvd : SvdSym svd P.nN σ) (g : Trop.Grids K) :
    TropFit.fitPoint (TropFit.extOps e r svd) c id (relabel σ P) g = TropFit.fitPoint (TropFit.extOps e r svd) c id P g := by
  have hs := sym_ext e r hsvd
  have : TropFit.score (TropFit.extOps e r svd) c id (relabel σ P) = TropFit.score (TropFit.extOps e r svd) c id P := by
    funext l
    unfold TropFit.score
    rw [C108_score c P hσ hs]
  unfold TropFit.fitPoint
  simp only [this]
  rw [C108_att c P hσ hs]

end ext

/-! ### The compiled routines -/

section rust
variable {K : Type*} [Field K] [LinearOrder K] [IsStrictOrderedRing K] {n nT : ℕ} {σ : ℕ → ℕ}

open TropRust (Env)

/-- `Q` is `P` with units rearranged, as far as the matrices reach. -/
structure RelData (σ : ℕ → ℕ) (Q P : Data K) : Prop where
  nT : Q.nT = P.nT
  nN : Q.nN = P.nN
  Y : ∀ t < P.nT, ∀ j < P.nN, Q.Y t j = P.Y t (σ j)
  D : ∀ t < P.nT, ∀ j < P.nN, Q.D t j = P.D t (σ j)

variable {v : Env K} {Q P : Data K}

theorem sum_perm (hσ : Relab n σ) {f g : ℕ → K} (h : ∀ j < n, f j = g (σ j)) : ((List.range n).map f).sum = ((List.range n).map g).sum :=
  (map_perm hσ h).sum_eq

theorem foldr_max_perm {l l' : List K} (h : l.Perm l') : l.foldr max 0 = l'.foldr max 0 := by
  haveI : LeftCommutative (max : K → K → K) := ⟨max_left_comm⟩
  exact h.foldr_eq _

theorem r_mat_perm {M : Type*} (hσ : Relab n σ) {A B : ℕ → ℕ → M} (h : ∀ t < nT, ∀ j < n, A t j = B t (σ j)) :
    ((List.range nT).flatMap (fun t => (List.range n).map (fun i => A t i))).Perm
      ((List.range nT).flatMap (fun t => (List.range n).map (fun i => B t i))) :=
  List.Perm.flatMap_left _ fun t ht => map_perm hσ fun j hj => h t (List.mem_range.1 ht) j hj

theorem r_dist (hq : RelData σ Q P) {i j : ℕ} (t : ℕ) (hi : i < P.nN) (hj : j < P.nN) :
    TropRust.dist v Q j i t = TropRust.dist v P (σ j) (σ i) t := by
  have : TropRust.sqDiffs Q j i t = TropRust.sqDiffs P (σ j) (σ i) t := by
    unfold TropRust.sqDiffs
    rw [hq.nT]
    refine List.filterMap_congr fun s hs => ?_
    have hs' := List.mem_range.1 hs
    rw [hq.D s hs' i hi, hq.D s hs' j hj, hq.Y s hs' i hi, hq.Y s hs' j hj]
  unfold TropRust.dist
  rw [this]

theorem r_weights (hσ : Relab P.nN σ) (hq : RelData σ Q P) (lamT lamU : K) {i : ℕ} (t s : ℕ) {j : ℕ} (hi : i < P.nN) (hj : j < P.nN) :
    TropRust.weights v Q lamT lamU i t s j = TropRust.weights v P lamT lamU (σ i) t s (σ j) := by
  have hu : ∀ j < P.nN, TropRust.unitRaw v Q lamU i t j = TropRust.unitRaw v P lamU (σ i) t (σ j) := by
    intro j hj
    unfold TropRust.unitRaw
    by_cases hji : j = i
    · rw [if_pos hji, if_pos (by rw [hji])]
    · rw [if_neg hji, if_neg fun h => hji (hσ.inj hj hi h), r_dist hq t hi hj]
  unfold TropRust.weights TropRust.unitN
  rw [hq.nT, hq.nN, sum_perm hσ hu, hu j hj]

theorem r_wMasked (hσ : Relab P.nN σ) (hq : RelData σ Q P) {ex : Option (ℕ × ℕ)} (hex : ∀ q, ex = some q → q.2 < P.nN)
    {W' W : ℕ → ℕ → K} (hW : Cols P.nT P.nN σ W' W) :
    Cols P.nT P.nN σ (TropRust.wMasked Q ex W') (TropRust.wMasked P (exMap σ ex) W) := by
  intro t ht j hj
  have hv : TropRust.valid Q ex t j = TropRust.valid P (exMap σ ex) t (σ j) := by
    unfold TropRust.valid
    rw [decide_eq_decide.2 (ex_iff hσ hex hj), hq.Y t ht j hj, hq.D t ht j hj]
  unfold TropRust.wMasked
  rw [hv, hW t ht j hj]

variable {Y Y' W W' : ℕ → ℕ → K}

theorem r_sweep (hσ : Relab n σ) (hs : SvdSym v.svd n σ) (lam : K) (hY : Cols nT n σ Y' Y) (hW : Cols nT n σ W' W) {f g : Fit K}
    (h : RelFit nT n σ f g) : RelFit nT n σ (TropRust.sweep v nT n lam Y' W' f) (TropRust.sweep v nT n lam Y W g) := by
  have ha : ∀ j < n, TropRust.alphaStep nT Y' W' f j = TropRust.alphaStep nT Y W g (σ j) := by
    intro j hj
    unfold TropRust.alphaStep
    rw [map_congr_range (f := fun t => W' t j) (g := fun t => W t (σ j)) fun t ht => hW t ht j hj,
      map_congr_range (f := fun t => W' t j * (Y' t j - f.L t j - f.beta t))
        (g := fun t => W t (σ j) * (Y t (σ j) - g.L t (σ j) - g.beta t))
        fun t ht => by rw [hW t ht j hj, hY t ht j hj, h.L t ht j hj, h.beta t ht], h.alpha j hj]
  have hb : ∀ t < nT, TropRust.betaStep n Y' W' (TropRust.alphaStep nT Y' W' f) f t =
      TropRust.betaStep n Y W (TropRust.alphaStep nT Y W g) g t := by
    intro t ht
    unfold TropRust.betaStep
    rw [sum_perm hσ (f := fun i => W' t i) (g := fun i => W t i) fun j hj => hW t ht j hj,
      sum_perm hσ (f := fun i => W' t i * (Y' t i - f.L t i - TropRust.alphaStep nT Y' W' f i))
        (g := fun i => W t i * (Y t i - g.L t i - TropRust.alphaStep nT Y W g i))
        fun j hj => by rw [hW t ht j hj, hY t ht j hj, h.L t ht j hj, ha j hj], h.beta t ht]
  refine ⟨ha, hb, ?_⟩
  have he : TropRust.eta nT n W' = TropRust.eta nT n W := by
    unfold TropRust.eta TropRust.wMax
    rw [foldr_max_perm (r_mat_perm hσ hW)]
  show Cols nT n σ (TropRust.lStep v nT n lam Y' W' _ _ f.L) (TropRust.lStep v nT n lam Y W _ _ g.L)
  unfold TropRust.lStep TropRust.soft
  have hM : Cols nT n σ
      (fun t i => f.L t i + TropRust.eta nT n W' * W' t i * (Y' t i - TropRust.alphaStep nT Y' W' f i -
        TropRust.betaStep n Y' W' (TropRust.alphaStep nT Y' W' f) f t - f.L t i))
      (fun t i => g.L t i + TropRust.eta nT n W * W t i * (Y t i - TropRust.alphaStep nT Y W g i -
        TropRust.betaStep n Y W (TropRust.alphaStep nT Y W g) g t - g.L t i)) := by
    intro t ht j hj
    simp only
    rw [he, h.L t ht j hj, hW t ht j hj, hY t ht j hj, ha j hj, hb t ht]
  rw [he] at hM ⊢
  split_ifs
  · exact hM
  · exact hs _ _ _ _ hM

theorem r_close (hσ : Relab n σ) (tol : K) {f g f' g' : Fit K} (h : RelFit nT n σ f' f) (h' : RelFit nT n σ g' g) :
    TropRust.close tol nT n f' g' = TropRust.close tol nT n f g := by
  have h1 : TropRust.vecDiff n f'.alpha g'.alpha = TropRust.vecDiff n f.alpha g.alpha := by
    unfold TropRust.vecDiff
    exact foldr_max_perm (map_perm hσ fun j hj => by rw [h.alpha j hj, h'.alpha j hj])
  have h2 : TropRust.vecDiff nT f'.beta g'.beta = TropRust.vecDiff nT f.beta g.beta := by
    unfold TropRust.vecDiff
    rw [map_congr_range fun t ht => by rw [h.beta t ht, h'.beta t ht]]
  have h3 : TropRust.matDiff nT n f'.L g'.L = TropRust.matDiff nT n f.L g.L := by
    unfold TropRust.matDiff
    exact foldr_max_perm (r_mat_perm hσ (A := fun t i => |f'.L t i - g'.L t i|) (B := fun t i => |f.L t i - g.L t i|)
      fun t ht j hj => by rw [h.L t ht j hj, h'.L t ht j hj])
  unfold TropRust.close
  rw [h1, h2, h3]

theorem r_loop (hσ : Relab n σ) (hs : SvdSym v.svd n σ) (tol lam : K) (hY : Cols nT n σ Y' Y) (hW : Cols nT n σ W' W) :
    ∀ (k : ℕ) {f g : Fit K}, RelFit nT n σ f g →
      RelFit nT n σ (TropRust.loop v tol nT n lam Y' W' k f) (TropRust.loop v tol nT n lam Y W k g)
  | 0, _, _, h => h
  | k + 1, f, g, h => by
    have hsw := r_sweep hσ hs lam hY hW h
    rw [TropRust.loop, TropRust.loop, r_close hσ tol hsw h]
    split_ifs
    · exact hsw
    · exact r_loop hσ hs tol lam hY hW k hsw

theorem r_tau (c : Cfg K) (hσ : Relab P.nN σ) (hq : RelData σ Q P) (hs : SvdSym v.svd P.nN σ) (l : Lam3 K) (ex : Option (ℕ × ℕ))
    (hex : ∀ q, ex = some q → q.2 < P.nN) {t i : ℕ} (ht : t < P.nT) (hi : i < P.nN) :
    TropRust.tau Q (TropRust.fitAt v c Q l ex t i) t i =
      TropRust.tau P (TropRust.fitAt v c P l (exMap σ ex) t (σ i)) t (σ i) := by
  have h : RelFit P.nT P.nN σ (TropRust.fitAt v c Q l ex t i) (TropRust.fitAt v c P l (exMap σ ex) t (σ i)) := by
    unfold TropRust.fitAt TropRust.estimate
    rw [hq.nT, hq.nN]
    refine r_loop hσ hs c.tol l.nn ?_ ?_ c.maxIter ⟨fun _ _ => rfl, fun _ _ => rfl, fun _ _ _ _ => rfl⟩
    · intro s hs' j hj
      simp only
      rw [hq.Y s hs' j hj]
    · exact r_wMasked hσ hq hex fun s _ j hj => r_weights hσ hq l.time l.unit t s hi hj
  unfold TropRust.tau
  rw [h.alpha i hi, h.beta t ht, h.L t ht i hi, hq.Y t ht i hi]

theorem r_cells (hσ : Relab P.nN σ) (hq : RelData σ Q P) :
    ((TropFit.treatedCells Q).map fun q => (q.1, σ q.2)).Perm (TropFit.treatedCells P) := by
  have h1 : TropFit.treatedCells Q = TropFit.cells (relabel σ P) (fun t j => decide (P.D t (σ j) = 1)) := by
    unfold TropFit.treatedCells TropFit.cells
    rw [hq.nT, hq.nN]
    refine List.flatMap_congr fun t ht => ?_
    congr 1
    refine List.filter_congr fun i hi => ?_
    simp only
    rw [hq.D t (List.mem_range.1 ht) i (List.mem_range.1 hi)]
  rw [h1]
  exact cells_perm P hσ (fun t i => decide (P.D t i = 1))

theorem all_perm (hσ : Relab n σ) {p p' : ℕ → Bool} (h : ∀ j < n, p' j = p (σ j)) : (List.range n).all p' = (List.range n).all p := by
  have h1 : (List.range n).all p' = ((List.range n).map σ).all p := by
    rw [List.all_map]
    rw [Bool.eq_iff_iff, List.all_eq_true, List.all_eq_true]
    refine forall₂_congr fun j hj => ?_
    rw [h j (List.mem_range.1 hj)]
    rfl
  rw [h1, Bool.eq_iff_iff, List.all_eq_true, List.all_eq_true]
  exact forall_congr' fun j => by rw [hσ.mem_iff]

theorem r_bootFit (c : Cfg K) (hσ : Relab P.nN σ) (hq : RelData σ Q P) (hs : SvdSym v.svd P.nN σ) (l : Lam3 K) :
    TropRust.bootFit v c Q l = TropRust.bootFit v c P l := by
  have hc := r_cells hσ hq
  have hnil : TropFit.treatedCells Q = [] ↔ TropFit.treatedCells P = [] := by
    rw [← List.length_eq_zero_iff, ← List.length_eq_zero_iff, ← hc.length_eq, List.length_map]
  have hall : (List.range Q.nN).all (fun i => (List.range Q.nT).any (fun t => decide (Q.D t i ≠ 0))) =
      (List.range P.nN).all (fun i => (List.range P.nT).any (fun t => decide (P.D t i ≠ 0))) := by
    rw [hq.nN, hq.nT]
    refine all_perm hσ fun j hj => ?_
    rw [Bool.eq_iff_iff, List.any_eq_true, List.any_eq_true]
    refine exists_congr fun t => and_congr_right fun ht => ?_
    rw [hq.D t (List.mem_range.1 ht) j hj]
  have hmap : ((TropFit.treatedCells Q).map (fun q => TropRust.tau Q (TropRust.fitAt v c Q l none q.1 q.2) q.1 q.2)).Perm
      ((TropFit.treatedCells P).map (fun q => TropRust.tau P (TropRust.fitAt v c P l none q.1 q.2) q.1 q.2)) := by
    have h1 : (TropFit.treatedCells Q).map (fun q => TropRust.tau Q (TropRust.fitAt v c Q l none q.1 q.2) q.1 q.2) =
        ((TropFit.treatedCells Q).map fun q => (q.1, σ q.2)).map
          (fun q => TropRust.tau P (TropRust.fitAt v c P l none q.1 q.2) q.1 q.2) := by
      rw [List.map_map]
      refine List.map_congr_left fun q hqm => ?_
      obtain ⟨ht, hi, _⟩ := mem_cells hqm
      exact r_tau c hσ hq hs l none (by simp) (hq.nT ▸ ht) (hq.nN ▸ hi)
    rw [h1]
    exact hc.map _
  unfold TropRust.bootFit
  rw [hall]
  by_cases h0 : TropFit.treatedCells P = []
  · rw [if_pos h0, if_pos (hnil.2 h0)]
  · rw [if_neg h0, if_neg (mt hnil.1 h0)]
    rcases mapM_perm hmap with ⟨h1, h2⟩ | ⟨xs, xs', h1, h2, h3⟩
    · rw [h1, h2]
    · rw [h1, h2]
      simp only [h3.sum_eq, h3.length_eq]

/-- A rearranged list is the list read through a rearrangement of the positions. -/
theorem perm_index {l l' : List ℕ} (h : l'.Perm l) :
    ∃ σ, Relab l.length σ ∧ ∀ j < l.length, l'.getD j 0 = l.getD (σ j) 0 := by
  induction h with
  | nil => exact ⟨id, by simp [Relab], by simp⟩
  | @cons a l' l _ ih =>
    obtain ⟨σ, h1, h2⟩ := ih
    refine ⟨fun j => match j with | 0 => 0 | j + 1 => σ j + 1, ?_, ?_⟩
    · unfold Relab at h1 ⊢
      rw [List.length_cons, List.range_succ_eq_map, List.map_cons, List.map_map]
      refine List.Perm.cons 0 ?_
      have : List.map ((fun j => match j with | 0 => 0 | j + 1 => σ j + 1) ∘ Nat.succ) (List.range l.length) =
          ((List.range l.length).map σ).map Nat.succ := by
        rw [List.map_map]; rfl
      rw [this]
      exact h1.map _
    · intro j hj
      cases j with
      | zero => rfl
      | succ j => simpa using h2 j (by simpa using hj)
  | swap a b l =>
    refine ⟨fun j => match j with | 0 => 1 | 1 => 0 | j + 2 => j + 2, ?_, ?_⟩
    · unfold Relab
      rw [List.length_cons, List.length_cons, List.range_succ_eq_map, List.range_succ_eq_map]
      simp only [List.map_cons, List.map_map]
      refine (List.Perm.swap _ _ _).trans ?_
      refine List.Perm.cons _ (List.Perm.cons _ (List.Perm.of_eq ?_))
      exact List.map_congr_left fun j _ => rfl
    · intro j hj
      match j with
      | 0 => rfl
      | 1 => rfl
      | j + 2 => rfl
  | @trans l1 l2 l3 h12 h23 ih1 ih2 =>
    obtain ⟨σ, h1, h2⟩ := ih1
    obtain ⟨τ, h3, h4⟩ := ih2
    have hlen : l2.length = l3.length := h23.length_eq
    refine ⟨τ ∘ σ, ?_, ?_⟩
    · unfold Relab at h1 h3 ⊢
      rw [hlen] at h1
      rw [← List.map_map]
      exact (h1.map τ).trans h3
    · intro j hj
      rw [h2 j (hlen ▸ hj)]
      exact h4 _ (hlen ▸ h1.lt (hlen ▸ hj))

/-- **C108, compiled bootstrap.** A replicate depends only on which units were drawn and how often, not on the order of the draws. -/
theorem C108_boot_order (c : Cfg K) (P : Data K) (l : Lam3 K) {s s' : List ℕ} (h : s'.Perm s)
    (hs : ∀ σ, Relab s.length σ → SvdSym v.svd s.length σ) :
    TropRust.bootFit v c (TropRust.bootPanel P s') l = TropRust.bootFit v c (TropRust.bootPanel P s) l := by
  obtain ⟨σ, h1, h2⟩ := perm_index h
  refine r_bootFit (Q := TropRust.bootPanel P s') (P := TropRust.bootPanel P s) (σ := σ) c h1 ⟨rfl, h.length_eq, ?_, ?_⟩ (hs σ h1) l
  · intro t _ j hj
    show P.Y t (s'.getD j 0) = P.Y t (s.getD (σ j) 0)
    rw [h2 j hj]
  · intro t _ j hj
    show P.D t (s'.getD j 0) = P.D t (s.getD (σ j) 0)
    rw [h2 j hj]

/-- **C108, compiled bootstrap.** The replicate in which every unit is drawn exactly once is the average effect over the treated cells of
the original panel, computed by the compiled estimation (skipped if there is no treated cell or no never-treated unit). -/
theorem C108_boot_identity (c : Cfg K) (P : Data K) (l : Lam3 K) {s : List ℕ} (h : s.Perm (List.range P.nN))
    (hs : ∀ σ, Relab P.nN σ → SvdSym v.svd P.nN σ) (hT : TropFit.treatedCells P ≠ [])
    {u : ℕ} (hu : u < P.nN) (hD : ∀ t < P.nT, P.D t u = 0) {x : List K}
    (hx : (TropFit.treatedCells P).map (fun q => TropRust.tau P (TropRust.fitAt v c P l none q.1 q.2) q.1 q.2) = x.map some) :
    TropRust.bootFit v c (TropRust.bootPanel P s) l = some (some (x.sum / (x.length : K))) := by
  have hlen : s.length = P.nN := by rw [h.length_eq, List.length_range]
  have hr : Relab P.nN (fun j => s.getD j 0) := by
    have : (List.range P.nN).map (fun j => s.getD j 0) = s := by
      refine List.ext_getElem (by simp [hlen]) fun j h1 h2 => ?_
      simp [List.getD_eq_getElem?_getD, h2]
    unfold Relab
    rw [this]
    exact h
  rw [r_bootFit (Q := TropRust.bootPanel P s) (P := P) (σ := fun j => s.getD j 0) c hr ⟨rfl, hlen, fun _ _ _ _ => rfl, fun _ _ _ _ => rfl⟩ (hs _ hr) l]
  unfold TropRust.bootFit
  rw [if_neg hT, if_neg, hx]
  · have : (x.map some).mapM id = some x := by
      clear hx
      induction x with
      | nil => rfl
      | cons a x ih => rw [List.map_cons, List.mapM_cons, ih]; rfl
    rw [this]
  · rw [Bool.not_eq_true, List.all_eq_false]
    refine ⟨u, List.mem_range.2 hu, ?_⟩
    simp only [Bool.not_eq_true, List.any_eq_false, decide_eq_true_eq, not_not]
    exact fun t ht => hD t (List.mem_range.1 ht)

/-- **C108, compiled score.** Rearranging the units and the list of scored cells together leaves the compiled score unchanged. -/
theorem C108_rust_score (c : Cfg K) (hσ : Relab P.nN σ) (hq : RelData σ Q P) (hs : SvdSym v.svd P.nN σ) (l : Lam3 K)
    {obs' obs : List (ℕ × ℕ)} (ho : (obs'.map fun q => (q.1, σ q.2)).Perm obs) (hb : ∀ q ∈ obs', q.1 < P.nT ∧ q.2 < P.nN) :
    TropRust.score v c Q obs' l = TropRust.score v c P obs l := by
  have key : (obs'.map (fun q => match TropRust.tau Q (TropRust.fitAt v c Q l (some q) q.1 q.2) q.1 q.2 with
      | some x => x * x
      | none => 0)).sum = (obs.map (fun q => match TropRust.tau P (TropRust.fitAt v c P l (some q) q.1 q.2) q.1 q.2 with
      | some x => x * x
      | none => 0)).sum := by
    rw [← (ho.map _).sum_eq, List.map_map]
    congr 1
    refine List.map_congr_left fun q hqm => ?_
    rw [r_tau c hσ hq hs l (some q) (fun _ h => by cases h; exact (hb q hqm).2) (hb q hqm).1 (hb q hqm).2]
    rfl
  have hl := ho.length_eq
  rw [List.length_map] at hl
  unfold TropRust.score
  rcases obs' with _ | ⟨a, as⟩ <;> rcases obs with _ | ⟨b, bs⟩
  · rfl
  · simp at hl
  · simp at hl
  · exact congrArg Ext.fin key

end rust

/-! ### The compiled and the Python score -/

section agree
variable {K : Type*} [Field K] [LinearOrder K] [IsStrictOrderedRing K]

/-- **C104, score, partial.** For scored cells in periods without treated units and a large nuclear norm penalty, the compiled
leave-one-out score of a list of cells is the Python score of the same list, infinity for no cell. Missing: as in `C104_fit_partial`. -/
theorem C104_score_partial (v : TropRust.Env K) (he : ∀ x, 0 < v.e x) (hs : TropRust.Shrink v.svd) (cfg : Cfg K) (P : Data K) (l : Lam3 K)
    (obs : List (ℕ × ℕ)) (hobs : ∀ q ∈ obs, q.1 < P.nT ∧ q.2 < P.nN ∧ ∀ j < P.nN, P.D q.1 j = 0)
    (B : K) (hY : ∀ s < P.nT, ∀ j < P.nN, ∀ y, P.Y s j = some y → |y| ≤ B) (hB : 0 ≤ B) (hl : 0 < l.nn)
    (hbig : (4 * (cfg.maxIter : K) + 1) * B * ((P.nT : K) * P.nN) ≤ l.nn) :
    TropRust.score v cfg P obs l =
      (match TropFit.looScore (TropFit.fieldOps v.e v.r v.svd) cfg (fun _ => obs) P l with
        | some x => .fin x
        | none => .pinf) := by
  unfold TropRust.score TropFit.looScore
  rcases obs with _ | ⟨q, qs⟩
  · rfl
  · simp only [TropFit.sumL_field]
    congr 2
    refine List.map_congr_left fun q hq => ?_
    obtain ⟨h1, h2, h3⟩ := hobs q hq
    have h := (TropRust.C104_fit_partial v he hs cfg P l (some q) q.1 q.2 h1 h2 (fun j hj _ => h3 j hj) B hY hB hl hbig).2.2
    unfold TropFit.looTerm
    rw [h]
    rfl

end agree

/-! ### Concrete cases -/

section cases

/-- Soft thresholding of the entries, an operation meeting the assumption for every rearrangement. -/
def softSvd (lam : ℚ) (_ _ : ℕ) (M : ℕ → ℕ → ℚ) (t i : ℕ) : ℚ := if lam < M t i then M t i - lam else if M t i < -lam then M t i + lam else 0

theorem softSvd_sym (n : ℕ) (σ : ℕ → ℕ) : SvdSym softSvd n σ := by
  intro lam nT A B h t ht j hj
  unfold softSvd
  rw [h t ht j hj]

/-- Units 0, 1, 2 become units 2, 0, 1. -/
def rot (j : ℕ) : ℕ := if j = 0 then 2 else if j = 1 then 0 else 1

theorem rot_relab : Relab 3 rot := by unfold Relab; decide

def demo : Ops ℚ := TropFit.fieldOps (fun x => if x < 0 then 1 / 2 else 1) (fun x => |x|) softSvd

def cfgP : Cfg ℚ := { maxIter := 2, tol := 1 / 1000 }

def lamP : Lam3 ℚ := { time := 1, unit := 1, nn := 1 / 10 }

/-- `C108_att` on a panel with a missing outcome; the estimate is not trivial. -/
example : TropFit.att demo cfgP (some (relabel rot TropFit.pA)) (relabel rot TropFit.pA) lamP =
    TropFit.att demo cfgP (some TropFit.pA) TropFit.pA lamP :=
  C108_att cfgP TropFit.pA rot_relab (sym_field _ _ (softSvd_sym 3 rot)) lamP

example : TropFit.treatedCells (relabel rot TropFit.pA) ≠ TropFit.treatedCells TropFit.pA ∧
    TropFit.att demo cfgP (some TropFit.pA) TropFit.pA lamP ≠ some 0 ∧
    TropFit.att demo cfgP (some TropFit.pA) TropFit.pA lamP ≠ none := by decide +kernel

/-- Outside routines for the compiled code. -/
def envP : TropRust.Env ℚ := { e := fun x => if x < 0 then 1 / 2 else 1, r := fun x => |x|, svd := softSvd }

/-- `C108_boot_identity` and `C108_boot_order`: the draws 2, 0, 1 of a panel of three units. -/
example : [2, 0, 1].Perm (List.range TropFit.pA.nN) ∧ TropFit.treatedCells TropFit.pA ≠ [] ∧
    (∀ t < TropFit.pA.nT, TropFit.pA.D t 1 = 0) ∧
    TropRust.bootFit envP cfgP (TropRust.bootPanel TropFit.pA [2, 0, 1]) lamP =
      TropRust.bootFit envP cfgP (TropRust.bootPanel TropFit.pA [0, 1, 2]) lamP ∧
    TropRust.bootFit envP cfgP (TropRust.bootPanel TropFit.pA [1, 0, 1]) lamP ≠
      TropRust.bootFit envP cfgP (TropRust.bootPanel TropFit.pA [0, 1, 2]) lamP := by
  refine ⟨by decide, by decide +kernel, by decide +kernel, ?_, by decide +kernel⟩
  exact C108_boot_order cfgP TropFit.pA lamP (by decide) fun σ _ => softSvd_sym _ σ

/-- The claim "the estimate does not depend on the order of the units" is false for the tuning step when the scored control cells are
subsampled (more than `max_loocv_samples` of them, trop.py 2690-2701): cells are drawn by position in the list of control cells, which is
ordered by unit, so the same draw picks other cells. Here the draw is the first position. -/
theorem C108_subsample_refuted :
    TropFit.looScore demo cfgP (List.take 1) (relabel rot TropFit.pA) lamP ≠
      TropFit.looScore demo cfgP (List.take 1) TropFit.pA lamP := by decide +kernel

end cases

end DiffDiff.TropPerm
