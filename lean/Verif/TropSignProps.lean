/-
Property C156 (TROP, two-step): the outcome with the opposite sign.
The argument only uses that the operations commute with a change of sign, so it covers exact arithmetic, floats with infinities and
NaN, and arithmetic that rounds every result symmetrically.
-/
import Verif.TropBoot2
import Verif.TropCv
import Verif.MultiSwapProps
import Verif.HonestUnitsProps

set_option linter.unusedSectionVars false
set_option linter.unusedVariables false

namespace DiffDiff.TropFit

section
variable {N : Type*}

/-- Operations that commute with a change of sign. -/
structure Symmetric (o : Ops N) : Prop where
  zero : o.neg o.zero = o.zero
  add : ∀ a b, o.add (o.neg a) (o.neg b) = o.neg (o.add a b)
  sub : ∀ a b, o.sub (o.neg a) (o.neg b) = o.neg (o.sub a b)
  mul : ∀ a b, o.mul a (o.neg b) = o.neg (o.mul a b)
  sq : ∀ a, o.mul (o.neg a) (o.neg a) = o.mul a a
  div : ∀ a b, o.div (o.neg a) b = o.neg (o.div a b)
  abs : ∀ a, o.abs (o.neg a) = o.abs a
  clean : ∀ a, o.clean (o.neg a) = o.neg (o.clean a)
  svd : ∀ lam nT nN M, o.svd lam nT nN (fun t i => o.neg (M t i)) = fun t i => o.neg (o.svd lam nT nN M t i)

variable (o : Ops N)

/-- Change the sign of every outcome. -/
def negD (P : Data N) : Data N := { P with Y := fun t i => (P.Y t i).map o.neg }

/-- The fitted model with the opposite sign. -/
def negF (f : Fit N) : Fit N := { alpha := fun i => o.neg (f.alpha i), beta := fun t => o.neg (f.beta t), L := fun t i => o.neg (f.L t i) }

variable {o} (S : Symmetric o)
include S

theorem sumL_negS (l : List N) : sumL o (l.map o.neg) = o.neg (sumL o l) := by
  induction l with
  | nil => exact S.zero.symm
  | cons a l ih =>
    show o.add (o.neg a) (sumL o (l.map o.neg)) = o.neg (o.add a (sumL o l))
    rw [ih, S.add]

theorem sqDiffs_neg (P : Data N) (j i t : ℕ) : sqDiffs o (negD o P) j i t = sqDiffs o P j i t := by
  unfold sqDiffs
  show (List.range P.nT).filterMap _ = (List.range P.nT).filterMap _
  congr 1
  funext s
  show (if s ≠ t ∧ P.D s i = 0 ∧ P.D s j = 0 then ((P.Y s i).map o.neg).bind (fun a => ((P.Y s j).map o.neg).map (fun b => sqDiff o a b)) else none) = _
  congr 1
  cases P.Y s i with
  | none => rfl
  | some a =>
    cases P.Y s j with
    | none => rfl
    | some b =>
      show some (o.mul (o.sub (o.neg a) (o.neg b)) (o.sub (o.neg a) (o.neg b))) = some (o.mul (o.sub a b) (o.sub a b))
      rw [S.sub, S.sq]

theorem weights_neg (P : Data N) (lamT lamU : N) (i t : ℕ) : weights o (negD o P) lamT lamU i t = weights o P lamT lamU i t := by
  funext s j
  unfold weights unitWeight dist
  rw [sqDiffs_neg S]
  rfl

theorem obsWeights_neg (pre : Option (Data N)) (P : Data N) (lamT lamU : N) (i t : ℕ) :
    obsWeights o (pre.map (negD o)) (negD o P) lamT lamU i t = obsWeights o pre P lamT lamU i t := by
  cases pre with
  | none => exact weights_neg S P lamT lamU i t
  | some Q => exact weights_neg S Q lamT lamU i t

theorem ySafe_neg (P : Data N) : ySafe o (negD o P) = fun t i => o.neg (ySafe o P t i) := by
  funext t i
  show ((P.Y t i).map o.neg).getD o.zero = o.neg ((P.Y t i).getD o.zero)
  cases P.Y t i with
  | none => exact S.zero.symm
  | some y => rfl

theorem wMasked_neg (P : Data N) (ex : Option (ℕ × ℕ)) (W : ℕ → ℕ → N) : wMasked o (negD o P) ex W = wMasked o P ex W := by
  funext t i
  unfold wMasked valid
  show o.mul (W t i) (if ((P.Y t i).map o.neg).isSome && decide (P.D t i = 0) && !decide (ex = some (t, i)) then o.one else o.zero) = _
  rw [Option.isSome_map]

theorem alphaStep_neg (nT : ℕ) (Y W : ℕ → ℕ → N) (f : Fit N) (i : ℕ) :
    alphaStep o nT (fun t i => o.neg (Y t i)) W (negF o f) i = o.neg (alphaStep o nT Y W f i) := by
  unfold alphaStep
  split_ifs
  · rw [← S.div, ← sumL_negS S, List.map_map]
    congr 2
    refine List.map_congr_left fun t _ => ?_
    show o.mul (W t i) (o.sub (o.sub (o.neg (Y t i)) (o.neg (f.L t i))) (o.neg (f.beta t))) = o.neg (o.mul (W t i) _)
    rw [S.sub, S.sub, S.mul]
  · exact S.zero.symm

theorem betaStep_neg (nN : ℕ) (Y W : ℕ → ℕ → N) (al : ℕ → N) (L : ℕ → ℕ → N) (t : ℕ) :
    betaStep o nN (fun t i => o.neg (Y t i)) W (fun i => o.neg (al i)) (fun t i => o.neg (L t i)) t = o.neg (betaStep o nN Y W al L t) := by
  unfold betaStep
  split_ifs
  · rw [← S.div, ← sumL_negS S, List.map_map]
    congr 2
    refine List.map_congr_left fun i _ => ?_
    show o.mul (W t i) (o.sub (o.sub (o.neg (Y t i)) (o.neg (L t i))) (o.neg (al i))) = o.neg (o.mul (W t i) _)
    rw [S.sub, S.sub, S.mul]
  · exact S.zero.symm

theorem rMasked_neg (Y W : ℕ → ℕ → N) (al be : ℕ → N) (L : ℕ → ℕ → N) :
    rMasked o (fun t i => o.neg (Y t i)) W (fun i => o.neg (al i)) (fun t => o.neg (be t)) (fun t i => o.neg (L t i))
      = fun t i => o.neg (rMasked o Y W al be L t i) := by
  funext t i
  unfold rMasked
  split_ifs
  · rw [S.sub, S.sub, S.clean]
  · rfl

theorem matDiff_neg (nT nN : ℕ) (A B : ℕ → ℕ → N) :
    matDiff o nT nN (fun t i => o.neg (A t i)) (fun t i => o.neg (B t i)) = matDiff o nT nN A B := by
  unfold matDiff
  simp only [S.sub, S.abs]

theorem vecDiff_neg (n : ℕ) (a b : ℕ → N) : vecDiff o n (fun i => o.neg (a i)) (fun i => o.neg (b i)) = vecDiff o n a b := by
  unfold vecDiff
  simp only [S.sub, S.abs]

theorem proxStep_neg (nT nN : ℕ) (lam : N) (Wn R L : ℕ → ℕ → N) :
    proxStep o nT nN lam Wn (fun t i => o.neg (R t i)) (fun t i => o.neg (L t i)) = fun t i => o.neg (proxStep o nT nN lam Wn R L t i) := by
  unfold proxStep
  simp only [S.sub, S.mul, S.add, S.clean, S.svd]

theorem inner_neg (tol : N) (nT nN : ℕ) (lam : N) (Wn R : ℕ → ℕ → N) (n : ℕ) : ∀ L : ℕ → ℕ → N,
    inner o tol nT nN lam Wn (fun t i => o.neg (R t i)) n (fun t i => o.neg (L t i)) = fun t i => o.neg (inner o tol nT nN lam Wn R n L t i) := by
  induction n with
  | zero => intro L; rfl
  | succ n ih =>
    intro L
    unfold inner
    rw [proxStep_neg S, matDiff_neg S]
    split_ifs
    · rfl
    · exact ih _

theorem nnSolve_neg (tol : N) (nT nN : ℕ) (lam : N) (Y W : ℕ → ℕ → N) (al be : ℕ → N) (L : ℕ → ℕ → N) :
    nnSolve o tol nT nN lam (fun t i => o.neg (Y t i)) W (fun i => o.neg (al i)) (fun t => o.neg (be t)) (fun t i => o.neg (L t i))
      = fun t i => o.neg (nnSolve o tol nT nN lam Y W al be L t i) := by
  unfold nnSolve
  rw [rMasked_neg S]
  split_ifs
  · rfl
  · exact inner_neg S tol nT nN lam _ _ 10 L

theorem sweep_neg (tol : N) (nT nN : ℕ) (lam : N) (Y W : ℕ → ℕ → N) (f : Fit N) :
    sweep o tol nT nN lam (fun t i => o.neg (Y t i)) W (negF o f) = negF o (sweep o tol nT nN lam Y W f) := by
  have ha : alphaStep o nT (fun t i => o.neg (Y t i)) W (negF o f) = fun i => o.neg (alphaStep o nT Y W f i) := by
    funext i; exact alphaStep_neg S nT Y W f i
  have hb : betaStep o nN (fun t i => o.neg (Y t i)) W (fun i => o.neg (alphaStep o nT Y W f i)) (negF o f).L
      = fun t => o.neg (betaStep o nN Y W (alphaStep o nT Y W f) f.L t) := by
    funext t; exact betaStep_neg S nN Y W _ f.L t
  unfold sweep
  rw [ha, hb]
  unfold negF
  dsimp only
  rw [nnSolve_neg S]

theorem close_neg (tol : N) (nT nN : ℕ) (f g : Fit N) : close o tol nT nN (negF o f) (negF o g) = close o tol nT nN f g := by
  unfold close
  show o.lt (pymax o (pymax o (vecDiff o nN (fun i => o.neg (f.alpha i)) (fun i => o.neg (g.alpha i)))
      (vecDiff o nT (fun i => o.neg (f.beta i)) (fun i => o.neg (g.beta i))))
      (matDiff o nT nN (fun t i => o.neg (f.L t i)) (fun t i => o.neg (g.L t i)))) tol = _
  rw [vecDiff_neg S, vecDiff_neg S, matDiff_neg S]

theorem loop_neg (tol : N) (nT nN : ℕ) (lam : N) (Y W : ℕ → ℕ → N) (n : ℕ) : ∀ f : Fit N,
    loop o tol nT nN lam (fun t i => o.neg (Y t i)) W n (negF o f) = negF o (loop o tol nT nN lam Y W n f) := by
  induction n with
  | zero => intro f; rfl
  | succ n ih =>
    intro f
    unfold loop
    rw [sweep_neg S, close_neg S]
    split_ifs
    · rfl
    · exact ih _

theorem fitAt_neg (g : Cfg N) (pre : Option (Data N)) (P : Data N) (l : Lam3 N) (ex : Option (ℕ × ℕ)) (t i : ℕ) :
    fitAt o g (pre.map (negD o)) (negD o P) l ex t i = negF o (fitAt o g pre P l ex t i) := by
  unfold fitAt estimate
  rw [obsWeights_neg S, wMasked_neg S, ySafe_neg S]
  have hs : start o = negF o (start o) := by
    unfold start negF
    simp only [S.zero]
  have := loop_neg S g.tol P.nT P.nN l.nn (ySafe o P) (wMasked o P ex (obsWeights o pre P l.time l.unit i t)) g.maxIter (start o)
  rw [← hs] at this
  exact this

theorem tau_neg (P : Data N) (f : Fit N) (t i : ℕ) : tau o (negD o P) (negF o f) t i = (tau o P f t i).map o.neg := by
  unfold tau
  show ((P.Y t i).map o.neg).map (fun y => o.sub (o.sub (o.sub y (o.neg (f.alpha i))) (o.neg (f.beta t))) (o.neg (f.L t i))) = _
  cases P.Y t i with
  | none => rfl
  | some y => simp only [Option.map_some, S.sub]

theorem meanO_neg (l : List (Option N)) : meanO o (l.map (Option.map o.neg)) = (meanO o l).map o.neg := by
  have hm : (l.map (Option.map o.neg)).mapM id = (l.mapM id).map (List.map o.neg) := by
    induction l with
    | nil => rfl
    | cons a l ih =>
      cases a with
      | none => rfl
      | some x =>
        simp only [List.map_cons, List.mapM_cons, id, Option.map_some] at ih ⊢
        rw [ih]
        cases l.mapM id <;> rfl
  unfold meanO
  rw [hm]
  cases l.mapM id with
  | none => rfl
  | some xs =>
    cases xs with
    | nil => rfl
    | cons x xs =>
      show some (o.div (sumL o (List.map o.neg (x :: xs))) (o.ofNat ((List.map o.neg xs).length + 1))) = some (o.neg _)
      rw [sumL_negS S, List.length_map, S.div]

/-- C156. TROP, one treated cell: the outcome with the opposite sign gives the effect with the opposite sign, under the same tuning
parameters, iteration limit and tolerance and in any arithmetic that commutes with a change of sign. -/
theorem C156_trop_cell (g : Cfg N) (pre : Option (Data N)) (P : Data N) (l : Lam3 N) (t i : ℕ) :
    effect o g (pre.map (negD o)) (negD o P) l t i = (effect o g pre P l t i).map o.neg := by
  unfold effect
  rw [fitAt_neg S, tau_neg S]

/-- C156. TROP: so does the average effect. -/
theorem C156_trop_att (g : Cfg N) (pre : Option (Data N)) (P : Data N) (l : Lam3 N) :
    att o g (pre.map (negD o)) (negD o P) l = (att o g pre P l).map o.neg := by
  unfold att
  rw [← meanO_neg S, List.map_map]
  exact congrArg (meanO o) (List.map_congr_left fun q _ => C156_trop_cell S g pre P l q.1 q.2)

theorem controlCells_neg (P : Data N) : controlCells (negD o P) = controlCells P := by
  unfold controlCells
  have : (fun t i => decide ((negD o P).D t i = 0) && ((negD o P).Y t i).isSome) = fun t i => decide (P.D t i = 0) && (P.Y t i).isSome := by
    funext t i
    show (decide (P.D t i = 0) && ((P.Y t i).map o.neg).isSome) = _
    rw [Option.isSome_map]
  rw [this]
  rfl

/-- C156. TROP: the cross-validation score does not change, whichever cells are scored. -/
theorem C156_trop_score (g : Cfg N) (pick : List (ℕ × ℕ) → List (ℕ × ℕ)) (P : Data N) (l : Lam3 N) :
    looScore o g pick (negD o P) l = looScore o g pick P l := by
  have ht : looTerm o g (some (negD o P)) (negD o P) l = looTerm o g (some P) P l := by
    funext q
    unfold looTerm
    have := fitAt_neg S g (some P) P l (some q) q.1 q.2
    rw [Option.map_some] at this
    rw [this, tau_neg S]
    cases tau o P (fitAt o g (some P) P l (some q) q.1 q.2) q.1 q.2 with
    | none => rfl
    | some x => exact S.sq x
  unfold looScore
  rw [controlCells_neg S, ht]

/-- C156. TROP: the jackknife replicates change their sign. -/
theorem C156_trop_jackknife (g : Cfg N) (P : Data N) (l : Lam3 N) :
    jackknife o g (negD o P) l = (jackknife o g P l).map (Option.map o.neg) := by
  have hd : ∀ u, dropUnit (negD o P) u = negD o (dropUnit P u) := by
    intro u
    unfold dropUnit negD
    congr 1
    funext t i
    dsimp only
    split_ifs <;> rfl
  unfold jackknife
  rw [List.map_filterMap]
  show (treatedUnits P).filterMap _ = (treatedUnits P).filterMap _
  congr 1
  funext u
  rw [hd]
  show (if treatedCells (dropUnit P u) = [] then none else some (att o g (some (negD o P)) (negD o (dropUnit P u)) l)) = _
  split_ifs
  · rfl
  · have := C156_trop_att S g (some P) (dropUnit P u) l
    rw [Option.map_some] at this
    rw [this]
    rfl

/-- C156. TROP: so does every bootstrap replicate. -/
theorem C156_trop_bootstrap (g : Cfg N) (P B : Data N) (l : Lam3 N) :
    bootFit o g (negD o P) (negD o B) l = (bootFit o g P B l).map (Option.map o.neg) := by
  unfold bootFit
  show (if treatedCells B = [] then none else some (att o g (some (negD o P)) (negD o B) l)) = _
  split_ifs
  · rfl
  · have := C156_trop_att S g (some P) B l
    rw [Option.map_some] at this
    rw [this]
    rfl

end

/-! ### Three arithmetics -/

section
variable {K : Type*} [Field K] [LinearOrder K] [IsStrictOrderedRing K]

/-- Thresholding that commutes with a change of sign, as the exact operation does. -/
def OddSvd (svd : K → ℕ → ℕ → (ℕ → ℕ → K) → (ℕ → ℕ → K)) : Prop :=
  ∀ lam nT nN M, svd lam nT nN (fun t i => -M t i) = fun t i => -svd lam nT nN M t i

theorem field_symmetric (e r : K → K) {svd : K → ℕ → ℕ → (ℕ → ℕ → K) → (ℕ → ℕ → K)} (h : OddSvd svd) : Symmetric (fieldOps e r svd) where
  zero := neg_zero
  add a b := by show -a + -b = -(a + b); ring
  sub a b := by show -a - -b = -(a - b); ring
  mul a b := by show a * -b = -(a * b); ring
  sq a := by show -a * -a = a * a; ring
  div a b := by show -a / b = -(a / b); ring
  abs a := abs_neg a
  clean a := rfl
  svd := h

/-- Every result of `+`, `-`, `*`, `/` is rounded by `fl`. -/
def roundOps (fl e r : K → K) (svd : K → ℕ → ℕ → (ℕ → ℕ → K) → (ℕ → ℕ → K)) : Ops K :=
  { fieldOps e r svd with add := fun a b => fl (a + b), sub := fun a b => fl (a - b), mul := fun a b => fl (a * b), div := fun a b => fl (a / b) }

theorem round_symmetric {fl : K → K} (hf : ∀ x, fl (-x) = -fl x) (e r : K → K) {svd : K → ℕ → ℕ → (ℕ → ℕ → K) → (ℕ → ℕ → K)} (h : OddSvd svd) :
    Symmetric (roundOps fl e r svd) where
  zero := neg_zero
  add a b := by show fl (-a + -b) = -fl (a + b); rw [← hf]; congr 1; ring
  sub a b := by show fl (-a - -b) = -fl (a - b); rw [← hf]; congr 1; ring
  mul a b := by show fl (a * -b) = -fl (a * b); rw [← hf]; congr 1; ring
  sq a := by show fl (-a * -a) = fl (a * a); congr 1; ring
  div a b := by show fl (-a / b) = -fl (a / b); rw [← hf]; congr 1; ring
  abs a := abs_neg a
  clean a := rfl
  svd := h

theorem sgn_neg (x : K) : Ext.sgn (-x) = -Ext.sgn x := by
  unfold Ext.sgn
  rcases lt_trichotomy x 0 with h | h | h
  · rw [if_neg (by linarith : ¬ -x < 0), if_neg (by linarith [neg_pos.2 h] : ¬ -x = 0), if_pos h]; rfl
  · subst h; simp
  · rw [if_pos (by linarith : -x < 0), if_neg (by linarith : ¬ x < 0), if_neg h.ne']

theorem infOf_neg (s : ℤ) : (Ext.infOf (-s) : Ext K) = Ext.neg (Ext.infOf s) := by
  unfold Ext.infOf
  rcases lt_trichotomy s 0 with h | h | h
  · rw [if_neg (by omega), if_neg (by omega), if_pos h]; rfl
  · subst h; rfl
  · rw [if_pos (by omega), if_neg (by omega), if_neg (by omega)]; rfl

theorem ext_mul_neg (a b : Ext K) : Ext.mul a (Ext.neg b) = Ext.neg (Ext.mul a b) := by
  cases a <;> cases b <;> simp only [Ext.mul, Ext.neg, sgn_neg, infOf_neg, neg_neg, mul_neg]
  all_goals first | rfl | (generalize (Ext.infOf _ : Ext K) = z; cases z <;> simp)

theorem ext_sq (a : Ext K) : Ext.mul (Ext.neg a) (Ext.neg a) = Ext.mul a a := by
  cases a <;> simp [Ext.mul, Ext.neg]

theorem ext_symmetric (e r : K → K) {svd : K → ℕ → ℕ → (ℕ → ℕ → K) → (ℕ → ℕ → K)} (h : OddSvd svd) : Symmetric (extOps e r svd) where
  zero := by show Ext.fin (-(0 : K)) = .fin 0; rw [neg_zero]
  add a b := by
    show Ext.add (Ext.neg a) (Ext.neg b) = Ext.neg (Ext.add a b)
    cases a <;> cases b <;> simp only [Ext.add, Ext.neg]
    congr 1; ring
  sub a b := by
    show Ext.add (Ext.neg a) (Ext.neg (Ext.neg b)) = Ext.neg (Ext.add a (Ext.neg b))
    cases a <;> cases b <;> simp only [Ext.add, Ext.neg]
    congr 1; ring
  mul := ext_mul_neg
  sq := ext_sq
  div := MultiFit.div_neg_left
  abs a := by show Ext.abs (Ext.neg a) = Ext.abs a; cases a <;> simp [Ext.abs, Ext.neg]
  clean a := by show extClean (Ext.neg a) = Ext.neg (extClean a); cases a <;> simp [extClean, Ext.neg]
  svd lam nT nN M := by
    show extSvd svd lam nT nN (fun t i => Ext.neg (M t i)) = fun t i => Ext.neg (extSvd svd lam nT nN M t i)
    have hk : ∀ x : Ext K, toK (Ext.neg x) = -toK x := by intro x; cases x <;> simp [toK, Ext.neg]
    unfold extSvd
    cases lam with
    | fin x =>
      show (fun t i => Ext.fin (svd x nT nN (fun t i => toK (Ext.neg (M t i))) t i)) = _
      simp only [hk]
      rw [h x nT nN fun t i => toK (M t i)]
      rfl
    | _ => simp [Ext.neg]

theorem toExt_neg (P : Data K) (e r : K → K) (svd : K → ℕ → ℕ → (ℕ → ℕ → K) → (ℕ → ℕ → K)) :
    toExt { P with Y := fun t i => (P.Y t i).map (fun y => -y) } = negD (extOps e r svd) (toExt P) := by
  unfold toExt negD
  congr 1
  funext t i
  dsimp only
  cases P.Y t i <;> rfl

/-- C156. TROP, two-step: with the outcome of opposite sign cross-validation selects the same tuning parameters with the same score, and the
average effect has the opposite sign. Floats with infinities and NaN; any grids, iteration limit, tolerance and subsample of cells. -/
theorem C156_trop (e r : K → K) (svd : K → ℕ → ℕ → (ℕ → ℕ → K) → (ℕ → ℕ → K)) (h : OddSvd svd) (c : Cfg (Ext K))
    (pick : List (ℕ × ℕ) → List (ℕ × ℕ)) (P : Data K) (g : Trop.Grids K) :
    fitPoint (extOps e r svd) c pick (toExt { P with Y := fun t i => (P.Y t i).map (fun y => -y) }) g
      = ((fitPoint (extOps e r svd) c pick (toExt P) g).1, (fitPoint (extOps e r svd) c pick (toExt P) g).2.map Ext.neg) := by
  have S := ext_symmetric e r h
  rw [toExt_neg P e r svd]
  have hs : score (extOps e r svd) c pick (negD (extOps e r svd) (toExt P)) = score (extOps e r svd) c pick (toExt P) := by
    funext l
    unfold score
    rw [C156_trop_score S]
  unfold fitPoint
  rw [hs]
  have := C156_trop_att S c (some (toExt P)) (toExt P) (lam3 (Trop.effective (Trop.select (score (extOps e r svd) c pick (toExt P)) g).1))
  rw [Option.map_some] at this
  exact Prod.ext rfl this

/-- C156. TROP, two-step, with the subsample of cells drawn from a seeded or unseeded generator at each evaluation of the score: the same
tuning parameters and the same score are selected. -/
theorem C156_trop_tune {R : Type*} (rng : TropCv.Rng R) (G : TropCv.Gen R) (seed : Option ℕ) (maxN : ℕ) (e r : K → K)
    (svd : K → ℕ → ℕ → (ℕ → ℕ → K) → (ℕ → ℕ → K)) (h : OddSvd svd) (c : Cfg (Ext K)) (P : Data K) (g : Trop.Grids K) :
    TropCv.tune rng G seed maxN (extOps e r svd) c (toExt { P with Y := fun t i => (P.Y t i).map (fun y => -y) }) g
      = TropCv.tune rng G seed maxN (extOps e r svd) c (toExt P) g := by
  rw [toExt_neg P e r svd]
  unfold TropCv.tune
  congr 1
  funext k l
  unfold TropCv.scoreAt score
  rw [C156_trop_score (ext_symmetric e r h)]

end
end DiffDiff.TropFit
