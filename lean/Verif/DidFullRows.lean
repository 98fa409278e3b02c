/-
Property C150, continued: order of the rows, redundant interaction.
-/
import Verif.DidFullMore

set_option linter.unusedSectionVars false
set_option linter.unusedVariables false

namespace DiffDiff.DidFull
open Matrix Vcov Did2x2
open TwfeFit (Works)
open Ols (resid fitted)
open scoped List

variable {K : Type*} [Field K] [LinearOrder K] [IsStrictOrderedRing K]
variable {ι ι' C : Type*} [Fintype ι] [DecidableEq ι] [Fintype ι'] [DecidableEq ι'] [DecidableEq C]

/-- The same rows in another order. -/
def Data.moved (D : Data ι C K) (e : ι' ≃ ι) : Data ι' C K :=
  ⟨D.y ∘ e, D.d ∘ e, D.t ∘ e, D.cov.map (· ∘ e), D.fixed.map (· ∘ e), D.absorb.map (· ∘ e), D.cluster.map (· ∘ e)⟩

theorem image_comp {G : Type*} [DecidableEq G] (e : ι' ≃ ι) (g : ι → G) : Finset.univ.image (g ∘ e) = Finset.univ.image g := by
  ext a
  simp only [Finset.mem_image, Finset.mem_univ, true_and, Function.comp]
  exact ⟨fun ⟨i, h⟩ => ⟨e i, h⟩, fun ⟨i, h⟩ => ⟨e.symm i, by simpa using h⟩⟩

theorem sum_filter_comp {M : Type*} [AddCommMonoid M] (e : ι' ≃ ι) (p : ι → Prop) [DecidablePred p] (f : ι → M) :
    ∑ i ∈ Finset.univ.filter (fun i => p (e i)), f (e i) = ∑ i ∈ Finset.univ.filter p, f i := by
  rw [Finset.sum_filter, Finset.sum_filter]
  exact Equiv.sum_comp e (fun i => if p i then f i else 0)

theorem demean_comp (e : ι' ≃ ι) (g : ι → Option ℤ) (x : ι → Option K) : demean (g ∘ e) (x ∘ e) = demean g x ∘ e := by
  have hm : ∀ a, groupMean (g ∘ e) (x ∘ e) a = groupMean g x a := by
    intro a
    unfold groupMean
    have h1 := sum_filter_comp e (fun j => g j = some a ∧ x j ≠ none) (fun j => (x j).getD 0)
    have h2 := sum_filter_comp e (fun j => g j = some a ∧ x j ≠ none) (fun _ => 1)
    rw [← Finset.card_eq_sum_ones, ← Finset.card_eq_sum_ones] at h2
    exact congrArg₂ (· / ·) h1 (congrArg Nat.cast h2)
  funext i
  unfold demean
  simp only [Function.comp] at hm ⊢
  cases g (e i) with
  | none => rfl
  | some a => simp only [hm]

theorem absorbed_comp (e : ι' ≃ ι) (gs : List (ι → Option ℤ)) (x : ι → Option K) : absorbed (gs.map (· ∘ e)) (x ∘ e) = absorbed gs x ∘ e := by
  unfold absorbed
  induction gs generalizing x with
  | nil => rfl
  | cons g gs ih => rw [List.map_cons, List.foldl_cons, List.foldl_cons, demean_comp, ih]

theorem dummies_comp (e : ι' ≃ ι) (g : ι → Option ℤ) : (dummies (g ∘ e) : List (ι' → K)) = (dummies g).map (· ∘ e) := by
  unfold dummies levels
  rw [image_comp, List.map_map]
  rfl

theorem extras_moved (D : Data ι C K) (e : ι' ≃ ι) : extras (D.moved e) = (extras D).map (· ∘ e) := by
  show ((D.cov.map (· ∘ e)).map (absorbed (D.absorb.map (· ∘ e)))).map num ++ (D.fixed.map (· ∘ e)).flatMap dummies = _
  unfold extras covariates
  rw [List.map_append, List.map_map, List.map_map, List.map_map, List.map_map, List.map_flatMap, List.flatMap_map]
  congr 1
  · exact List.map_congr_left fun x _ => congrArg (num (K := K)) (absorbed_comp e D.absorb x)
  · congr 1
    funext g
    exact dummies_comp e g

theorem nunique_comp {G : Type*} [DecidableEq G] (e : ι' ≃ ι) (g : ι → Option G) : nunique (g ∘ e) = nunique g := by
  unfold nunique
  rw [image_comp]

theorem adjustment_comp (e : ι' ≃ ι) (gs : List (ι → Option ℤ)) : adjustment (gs.map (· ∘ e)) = adjustment gs := by
  unfold adjustment
  rw [List.map_map]
  congr 1
  exact List.map_congr_left fun g _ => by simp [nunique_comp]

theorem valid_moved {D : Data ι C K} (h : Valid D) (e : ι' ≃ ι) : Valid (D.moved e) := by
  have hb : ∀ {x : ι → Option K}, Binary x → Binary (x ∘ e) := by
    intro x hx
    refine ⟨fun i => hx.1 (e i), ?_, ?_⟩
    · obtain ⟨i, hi⟩ := hx.2.1; exact ⟨e.symm i, by simpa using hi⟩
    · obtain ⟨i, hi⟩ := hx.2.2; exact ⟨e.symm i, by simpa using hi⟩
  refine ⟨fun i => h.y (e i), ?_, hb h.d, hb h.t⟩
  intro x hx i
  obtain ⟨x, hm, rfl⟩ := List.mem_map.1 hx
  exact h.cov x hm (e i)

theorem comb_map (e : ι' ≃ ι) {d t : ι → Bool} {xs : List (ι → K)} {k : K} {f : ι → K} : Comb (d ∘ e) (t ∘ e) (xs.map (· ∘ e)) k (f ∘ e) ↔ Comb d t xs k f := by
  have hl : (xs.map (· ∘ e)).length = xs.length := List.length_map _
  constructor
  · rintro ⟨a, b, c, γ, h⟩
    refine ⟨a, b, c, fun j => γ (Fin.cast hl.symm j), fun i => ?_⟩
    have := h (e.symm i)
    simp only [Function.comp, Equiv.apply_symm_apply] at this
    rw [this]
    congr 1
    rw [← Equiv.sum_comp (finCongr hl.symm)]
    refine Finset.sum_congr rfl fun j _ => ?_
    show γ _ * (((xs.map (· ∘ e))[j.val]'(by omega)) (e.symm i)) = γ _ * (xs[j.val] i)
    rw [List.getElem_map]
    simp
  · rintro ⟨a, b, c, γ, h⟩
    refine ⟨a, b, c, fun j => γ (Fin.cast hl j), fun i => ?_⟩
    show f (e i) = _
    rw [h (e i)]
    congr 1
    rw [← Equiv.sum_comp (finCongr hl.symm)]
    refine Finset.sum_congr rfl fun j _ => ?_
    show γ j * (xs[j.val] (e i)) = γ j * (((xs.map (· ∘ e))[j.val]'(by omega)) i)
    rw [List.getElem_map]
    rfl

theorem orth_map (e : ι' ≃ ι) {d t : ι → Bool} {xs : List (ι → K)} {k : K} {f : ι → K} (h : Orth d t xs f k) :
    Orth (d ∘ e) (t ∘ e) (xs.map (· ∘ e)) (f ∘ e) k := by
  refine ⟨?_, ?_, ?_, ?_, ?_⟩
  · exact (Equiv.sum_comp e f).trans h.const
  · exact (Equiv.sum_comp e (fun i => ind (d i) * f i)).trans h.treat
  · exact (Equiv.sum_comp e (fun i => ind (t i) * f i)).trans h.time
  · exact (Equiv.sum_comp e (fun i => ind (d i) * ind (t i) * f i)).trans h.inter
  · intro x hx
    obtain ⟨x, hm, rfl⟩ := List.mem_map.1 hx
    exact (Equiv.sum_comp e (fun i => x i * f i)).trans (h.extra x hm)

theorem rank_moved (e : ι' ≃ ι) (d t : ι → Bool) (xs : List (ι → K)) : (matrix (d ∘ e) (t ∘ e) (xs.map (· ∘ e))).rank = (matrix d t xs).rank := by
  have hl : (xs.map (· ∘ e)).length = xs.length := List.length_map _
  have key : ∀ {κ : Type _} [Fintype κ] [DecidableEq κ] (d t : κ → Bool) (ys : List (κ → K)) f, f ∈ LinearMap.range (matrix d t ys).mulVecLin ↔ ∃ e, Comb d t ys e f := by
    intro κ _ _ d t ys f
    constructor
    · rintro ⟨v, rfl⟩
      exact ⟨_, comb_iff.2 ⟨v, rfl, fun i => rfl⟩⟩
    · rintro ⟨e, he⟩
      obtain ⟨v, -, hv⟩ := comb_iff.1 he
      exact ⟨v, (funext hv).symm⟩
  have key' : ∀ f, f ∈ LinearMap.range (matrix (d ∘ e) (t ∘ e) (xs.map (· ∘ e))).mulVecLin ↔ ∃ k, Comb (d ∘ e) (t ∘ e) (xs.map (· ∘ e)) k f := by
    intro f
    constructor
    · rintro ⟨v, rfl⟩
      exact ⟨_, comb_iff.2 ⟨v, rfl, fun i => rfl⟩⟩
    · rintro ⟨e, he⟩
      obtain ⟨v, -, hv⟩ := comb_iff.1 he
      exact ⟨v, (funext hv).symm⟩
  have hmap : LinearMap.range (matrix (d ∘ e) (t ∘ e) (xs.map (· ∘ e))).mulVecLin =
      (LinearMap.range (matrix d t xs).mulVecLin).map (LinearEquiv.funCongrLeft K K e : (ι → K) →ₗ[K] (ι' → K)) := by
    ext f
    rw [key', Submodule.mem_map]
    constructor
    · rintro ⟨k, hk⟩
      have hf : f = (f ∘ e.symm) ∘ e := by funext i; simp
      rw [hf] at hk
      exact ⟨f ∘ e.symm, (key d t xs _).2 ⟨k, (comb_map e).1 hk⟩, hf.symm⟩
    · rintro ⟨g, hg, rfl⟩
      obtain ⟨k, hk⟩ := (key d t xs g).1 hg
      exact ⟨k, (comb_map e).2 hk⟩
  unfold Matrix.rank
  rw [hmap]
  exact LinearEquiv.finrank_map_eq (LinearEquiv.funCongrLeft K K e) _

theorem variance_moved (e : ι' ≃ ι) (robust strict : Bool) (cl : Option (ι → Option C)) (r : ℕ) (w u : ι → K) :
    LinReg.variance (opts ⟨robust, cl.map (· ∘ e), strict⟩) r (w ∘ e) (u ∘ e) = LinReg.variance (opts ⟨robust, cl, strict⟩) r w u := by
  have hc : Fintype.card ι' = Fintype.card ι := Fintype.card_congr e
  unfold LinReg.variance
  cases cl with
  | none =>
    have h1 := Equiv.sum_comp e (fun i => (w i * u i) ^ 2)
    have h2 := Equiv.sum_comp e (fun i => (u i) ^ 2)
    have h3 := Equiv.sum_comp e (fun i => (w i) ^ 2)
    simp only [LinReg.Opts.ids, Option.map_none, Function.comp, hc, h1, h2, h3]
  | some ids =>
    have h1 : ∀ g, ∑ i ∈ Finset.univ.filter (fun i => ids (e i) = g), w (e i) * u (e i) = ∑ i ∈ Finset.univ.filter (fun i => ids i = g), w i * u i :=
      fun g => sum_filter_comp e (fun i => ids i = g) (fun i => w i * u i)
    have h2 : nClusters (ids ∘ e) = nClusters ids := by unfold nClusters; rw [image_comp]
    have h3 := image_comp e ids
    simp only [Option.map_some]
    simp only [LinReg.Opts.ids, h2, h3, hc]
    simp only [Function.comp, h1]

theorem out_moved {L : TwfeFit.Lib ι K} {L' : TwfeFit.Lib ι' K} (hs : L'.sqrt = L.sqrt) (ht : L'.tD = L.tD) (hn : L'.nD = L.nD) (e : ι' ≃ ι) (alpha : K)
    (d : ι → Bool) (y u : ι → K) (x : K) (v : Option K) (df : ℤ) : out L' alpha (d ∘ e) (y ∘ e) (u ∘ e) x v df = out L alpha d y u x v df := by
  have h1 : ∀ b, (Finset.univ.filter (fun i => d (e i) = b)).card = (Finset.univ.filter (fun i => d i = b)).card := by
    intro b
    rw [Finset.card_eq_sum_ones, Finset.card_eq_sum_ones]
    exact sum_filter_comp e (fun i => d i = b) (fun _ => 1)
  have h2 := RowOrder.rsq_moved e y u false 0
  unfold out
  rw [hs, ht, hn]
  simp only [Function.comp, h1, Fintype.card_congr e]
  congr 1

theorem moved_ok {L : TwfeFit.Lib ι K} (hL : Works L) (hP : LinReg.Prunes L) {L' : TwfeFit.Lib ι' K} (hL' : Works L') (hP' : LinReg.Prunes L')
    (hs : L'.sqrt = L.sqrt) (ht : L'.tD = L.tD) (hn : L'.nD = L.nD) (e : ι' ≃ ι) {robust strict : Bool} {alpha : K} {D : Data ι C K}
    (hid : Identified (flag D.d) (flag D.t) (extras D)) {R : DidFit.Result K} (h : fit L robust strict alpha D = .ok R) :
    fit L' robust strict alpha (D.moved e) = .ok R := by
  obtain ⟨hV, hA, hc⟩ := fit_ok h
  have hx := extras_moved D e
  have hrk : (matrix (flag (D.moved e).d) (flag (D.moved e).t) (extras (D.moved e))).rank = (matrix (flag D.d) (flag D.t) (extras D)).rank := by
    show (matrix (flag D.d ∘ e) (flag D.t ∘ e) (extras (D.moved e))).rank = _
    rw [hx]
    exact rank_moved e (flag D.d) (flag D.t) (extras D)
  have hnc : nCoef (D.moved e) = nCoef D := by rw [← length_extras, ← length_extras, hx, List.length_map]
  have hcard : Fintype.card ι' = Fintype.card ι := Fintype.card_congr e
  obtain ⟨R', hR'⟩ := (C150_runs L' hL' hP' robust strict alpha (D.moved e)).2 (by
    obtain ⟨-, q1, q2, q3, q4, q5⟩ := (C150_runs L hL hP robust strict alpha D).1 ⟨R, h⟩
    refine ⟨valid_moved hV e, ?_, ?_, ?_, ?_, ?_⟩
    · intro g hg i
      obtain ⟨g, hm, rfl⟩ := List.mem_map.1 hg
      exact q1 g hm (e i)
    · rw [hnc, hcard]; exact q2
    · rw [hrk, hnc]; exact q3
    · rw [hrk, hcard]
      intro hh
      refine q4 (hh.imp id ?_)
      intro h1 h2
      exact h1 (show D.cluster.map (· ∘ e) = none by rw [h2]; rfl)
    · intro ids hi
      obtain ⟨ids0, h0, rfl⟩ := Option.map_eq_some_iff.1 (show D.cluster.map (· ∘ e) = some ids from hi)
      have := q5 ids0 h0
      unfold nClusters at this ⊢
      rwa [image_comp])
  obtain ⟨-, -, hc'⟩ := fit_ok hR'
  have hid' : Identified (flag (D.moved e).d) (flag (D.moved e).t) (extras (D.moved e)) := by
    show ¬ Comb (flag D.d ∘ e) (flag D.t ∘ e) (extras (D.moved e)) 0 ((fun i => ind (flag D.d i) * ind (flag D.t i)) ∘ e)
    rw [hx, comb_map]
    exact hid
  obtain ⟨w, u, x, k1, k2, k3, k4, k5, rfl⟩ := core_spec hL hP hid hc
  obtain ⟨w', u', x', l1, l2, l3, l4, l5, rfl⟩ := core_spec hL' hP' hid' hc'
  rw [hrk] at hR'
  rw [hx] at l1 l2 l3 l4
  have hy : num (outcome (D.moved e)) = num (outcome D) ∘ e := by
    show num (absorbed (D.absorb.map (· ∘ e)) (D.y ∘ e)) = _
    rw [absorbed_comp]
    rfl
  have hw : w' = w ∘ e := by
    obtain ⟨k, hk⟩ := k1
    exact weights_unique l1 l2 ⟨k, (comb_map e).2 hk⟩ (orth_map e k2)
  have hu : u' = u ∘ e := by
    rw [hy] at l3
    exact resid_unique l3 l4 (show Comb _ _ _ x ((fun i => num (outcome D) i - u i) ∘ e) from (comb_map e).2 k3) (orth_map e k4)
  have hxx : x' = x := by
    rw [l5, k5, hw, hy]
    exact Equiv.sum_comp e (fun i => w i * num (outcome D) i)
  subst hw hu hxx
  rw [hR', hy]
  have e1 := variance_moved e robust strict D.cluster (matrix (flag D.d) (flag D.t) (extras D)).rank w u
  have e2 := adjustment_comp e D.absorb
  have e3 := out_moved (L := L) (L' := L') hs ht hn e alpha (flag D.d) (num (outcome D)) u x'
    (LinReg.variance (opts ⟨robust, D.cluster, strict⟩) (matrix (flag D.d) (flag D.t) (extras D)).rank w u)
    ((Fintype.card ι : ℤ) - (matrix (flag D.d) (flag D.t) (extras D)).rank - adjustment D.absorb)
  rw [← e3, ← e1, ← e2, ← hcard]
  rfl

/-- C150. The order of the rows is irrelevant, whichever redundant columns the library drops in either call. -/
theorem C150_row_order (L : TwfeFit.Lib ι K) (hL : Works L) (hP : LinReg.Prunes L) (L' : TwfeFit.Lib ι' K) (hL' : Works L') (hP' : LinReg.Prunes L')
    (hs : L'.sqrt = L.sqrt) (ht : L'.tD = L.tD) (hn : L'.nD = L.nD) (e : ι' ≃ ι) (robust strict : Bool) (alpha : K) (D : Data ι C K)
    (hid : Identified (flag D.d) (flag D.t) (extras D)) (R : DidFit.Result K) :
    fit L' robust strict alpha (D.moved e) = .ok R ↔ fit L robust strict alpha D = .ok R := by
  refine ⟨fun h => ?_, moved_ok hL hP hL' hP' hs ht hn e hid⟩
  have hid' : Identified (flag (D.moved e).d) (flag (D.moved e).t) (extras (D.moved e)) := by
    show ¬ Comb (flag D.d ∘ e) (flag D.t ∘ e) (extras (D.moved e)) 0 ((fun i => ind (flag D.d i) * ind (flag D.t i)) ∘ e)
    rw [extras_moved, comb_map]
    exact hid
  have := moved_ok hL' hP' hL hP hs.symm ht.symm hn.symm e.symm hid' h
  have hD : (D.moved e).moved e.symm = D := by
    have h1 : ∀ x : ι → Option K, (x ∘ e) ∘ e.symm = x := fun x => by funext i; simp
    have h2 : ∀ l : List (ι → Option K), (l.map (· ∘ e)).map (· ∘ e.symm) = l := fun l => by
      rw [List.map_map]
      exact (List.map_congr_left fun x _ => h1 x).trans (List.map_id _)
    have h3 : ∀ l : List (ι → Option ℤ), (l.map (· ∘ e)).map (· ∘ e.symm) = l := fun l => by
      rw [List.map_map]
      exact (List.map_congr_left fun x _ => (by funext i; simp : ((· ∘ e.symm) ∘ (· ∘ e)) x = id x)).trans (List.map_id _)
    have h4 : ∀ o : Option (ι → Option C), (o.map (· ∘ e)).map (· ∘ e.symm) = o := fun o => by
      cases o with
      | none => rfl
      | some ids => exact congrArg some (by funext i; simp)
    cases D with
    | mk y d t cov fixed absorb cluster => simp only [Data.moved, h1, h2, h3, h4]
  rwa [hD] at this

/-- C150. When the interaction is a combination of the other columns, the call reports NaN throughout, or an estimate for which every other value fits the data
equally well (the library dropped another column): the regression residuals of the report leave every interaction coefficient possible. -/
theorem C150_unidentified (L : TwfeFit.Lib ι K) (hL : Works L) (hP : LinReg.Prunes L) (robust strict : Bool) (alpha : K) (D : Data ι C K)
    (hid : ¬ Identified (flag D.d) (flag D.t) (extras D)) (R : DidFit.Result K) (h : fit L robust strict alpha D = .ok R) :
    strict = false ∧ ∃ u : ι → K, Orth (flag D.d) (flag D.t) (extras D) u 0 ∧ R.r2 = rSquared (num (outcome D)) u false 0 ∧
      (∀ z, Comb (flag D.d) (flag D.t) (extras D) z (fun i => num (outcome D) i - u i)) ∧
      ((R.att = .nan ∧ R.se = .nan ∧ R.t = .nan ∧ R.p = .nan ∧ R.ci = (.nan, .nan)) ∨ ∃ z, R.att = .fin z) := by
  obtain ⟨hV, hA, hc⟩ := fit_ok h
  set d := flag D.d with hd
  set t := flag D.t with ht
  set xs := extras D with hxs
  have hcomb : Comb d t xs 0 (fun i => ind (d i) * ind (t i)) := not_not.1 hid
  have hall : ∀ {f : ι → K} {k : K}, Comb d t xs k f → ∀ z, Comb d t xs z f := by
    intro f k hf z
    have h1 := (hf.add ((comb_basic (d := d) (t := t) (xs := xs) 0 0 0 (z - k)).sub (hcomb.smul (z - k))))
    have e1 : k + (z - k - (z - k) * 0) = z := by ring
    rw [e1] at h1
    refine (congrArg (Comb d t xs z) (funext fun i => ?_)).mp h1
    ring
  unfold core at hc
  cases hf : LinReg.fit L.solvers (⟨robust, D.cluster, none, strict⟩ : LinReg.Opts ι C) (L.redundant (matrix d t xs)) (matrix d t xs) (num (outcome D))
      (adjustment D.absorb) with
  | error e => rw [hf] at hc; cases hc
  | ok f =>
    rw [hf] at hc
    cases hc
    obtain ⟨b, hb, -, hr, -⟩ := LinReg.fit_isOls L.solvers hL.solves _ _ _ _ _ f hf (hP _).redundant
    obtain ⟨r, σ, b', V, hσ, -, -, hco, hvc, -, -, -, hdr⟩ := LinReg.fit_form hL.solves hf
    refine ⟨?_, resid (matrix d t xs) (num (outcome D)) b, orth_iff.2 (fun m => by rw [hb m]; simp), by rw [← hr], ?_, ?_⟩
    · cases hst : strict with
      | false => rfl
      | true =>
        exfalso
        subst hst
        cases hdrop : L.redundant (matrix d t xs) with
        | nil =>
          have hI := (hP (matrix d t xs)).indep
          rw [hdrop] at hI
          have hfr := fullRank_of_det (RowOrder.Independent.det hI)
          obtain ⟨a, b, c, γ, hγ⟩ := hcomb
          obtain ⟨-, -, -, h1, -⟩ := hfr a b c (-1) γ (fun i => by
            have := hγ i
            rw [zero_mul, add_zero] at this
            rw [show a + b * ind (d i) + c * ind (t i) + -1 * (ind (d i) * ind (t i)) + ∑ j, γ j * (xs[j] i) =
              a + b * ind (d i) + c * ind (t i) + ∑ j, γ j * (xs[j] i) - ind (d i) * ind (t i) by ring, ← this, sub_self])
          exact one_ne_zero (neg_eq_zero.1 h1)
        | cons j js =>
          rw [hdrop] at hf
          simp only [LinReg.fit] at hf
          split_ifs at hf
    · exact hall (comb_iff.2 ⟨b, rfl, fun i => by simp only [resid, fitted, Ols.dot]; ring⟩)
    · by_cases h3 : Fin.castAdd xs.length 3 ∈ L.redundant (matrix d t xs)
      · left
        obtain ⟨g1, g2⟩ := hdr _ h3
        simp only [LinReg.infer, g1, g2]
        exact ⟨rfl, rfl, rfl, rfl, rfl⟩
      · right
        obtain ⟨p, hp⟩ := (hσ.mem _).1 h3
        exact ⟨b' p, by rw [← hp, hco]; rfl⟩

end DiffDiff.DidFull
