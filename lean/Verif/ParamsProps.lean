/-
Properties C18 (set/get round trip), C19 (rejected set_params), C20 (refitting), C69 (only documented
parameters), C70 (set_params versus constructor).
-/
import Verif.Params

set_option linter.unusedSectionVars false

namespace DiffDiff.Params

variable {V : Type*}

theorem setattr_same (o : Obj V) (k : String) (v : V) : setattr o k v k = some v := by simp [setattr]

theorem setattr_ne (o : Obj V) {k k' : String} (v : V) (h : k' ≠ k) : setattr o k v k' = o k' := by
  simp [setattr, h]

theorem setattr_isSome (o : Obj V) (k k' : String) (v : V) (h : (o k').isSome) :
    (setattr o k v k').isSome := by
  unfold setattr; split_ifs <;> simp [h]

/-- Writes of a list of keyword arguments, with no check (specification of a successful update). -/
def writes (c : Cls) (o : Obj V) (kws : List (String × V)) : Obj V :=
  kws.foldl (fun o kv => setattr o (c.attrOf kv.1) kv.2) o

theorem setLoop_ok (c : Cls) (kws : List (String × V)) : ∀ o : Obj V, (setLoop c o kws).2 = true →
    (setLoop c o kws).1 = writes c o kws := by
  induction kws with
  | nil => intro o _; rfl
  | cons kv r ih =>
    intro o h
    obtain ⟨k, v⟩ := kv
    simp only [setLoop] at h ⊢
    by_cases h1 : c.attrOf k ≠ k
    · rw [if_pos h1] at h ⊢; exact ih _ h
    · rw [if_neg h1] at h ⊢
      by_cases h2 : hasattr c o k = true
      · rw [if_pos h2] at h ⊢
        have : writes c o ((k, v) :: r) = writes c (setattr o k v) r := by
          simp [writes, not_not.1 h1]
        rw [this]; exact ih _ h
      · rw [if_neg h2] at h; exact absurd h (by simp)

theorem writes_notin (c : Cls) (a : String) (kws : List (String × V)) :
    ∀ o : Obj V, (∀ kv ∈ kws, c.attrOf kv.1 ≠ a) → writes c o kws a = o a := by
  induction kws with
  | nil => intro o _; rfl
  | cons kv r ih =>
    intro o h
    show writes c (setattr o (c.attrOf kv.1) kv.2) r a = _
    rw [ih _ (fun x hx => h x (List.mem_cons_of_mem _ hx)),
      setattr_ne _ _ (Ne.symm (h kv (List.mem_cons_self ..)))]

/-- Parameters are stored under different attributes. -/
def Inj (c : Cls) : Prop := ∀ k ∈ c.params, ∀ k' ∈ c.params, c.attrOf k = c.attrOf k' → k = k'

/-- Every class of the library stores its parameters under different attributes. -/
theorem classes_inj : ∀ c ∈ loopClasses, Inj c := by
  intro c hc
  simp only [loopClasses, List.mem_cons, List.not_mem_nil, or_false] at hc
  rcases hc with rfl | rfl | rfl | rfl | rfl | rfl | rfl | rfl <;> unfold Inj <;> decide

/-- C18. Documented parameters are accepted: on an object of any of the classes, set_params with
documented keys does not raise. -/
theorem C18_documented_accepted (c : Cls) (kws : List (String × V)) :
    ∀ o : Obj V, Constructed c o → (∀ kv ∈ kws, kv.1 ∈ c.params) → (setLoop c o kws).2 = true := by
  induction kws with
  | nil => intro o _ _; rfl
  | cons kv r ih =>
    intro o ho hk
    obtain ⟨k, v⟩ := kv
    have hkp : k ∈ c.params := hk _ (List.mem_cons_self ..)
    have hc : ∀ a, Constructed c (setattr o a v) :=
      fun a => ⟨fun k' h' => setattr_isSome _ _ _ _ (ho.1 k' h'), fun k' h' => setattr_isSome _ _ _ _ (ho.2 k' h')⟩
    simp only [setLoop]
    by_cases h1 : c.attrOf k ≠ k
    · rw [if_pos h1]; exact ih _ (hc _) (fun x hx => hk x (List.mem_cons_of_mem _ hx))
    · rw [if_neg h1]
      have h2 : hasattr c o k = true := by
        have := ho.1 k hkp
        rw [not_not.1 h1] at this
        simp [hasattr, this]
      rw [if_pos h2]
      exact ih _ (hc _) (fun x hx => hk x (List.mem_cons_of_mem _ hx))

/-- C18. For every class, object and set of documented keyword arguments: afterwards get_params reports the
passed value for each passed key and the old value for every other key. -/
theorem C18_set_then_get (c : Cls) (hc : c ∈ loopClasses) (o : Obj V) (ho : Constructed c o)
    (kws : List (String × V)) (hk : ∀ kv ∈ kws, kv.1 ∈ c.params) (hnd : (kws.map Prod.fst).Nodup) :
    (setLoop c o kws).2 = true ∧
    (∀ kv ∈ kws, getParam c (setLoop c o kws).1 kv.1 = some kv.2) ∧
    (∀ k ∈ c.params, k ∉ kws.map Prod.fst → getParam c (setLoop c o kws).1 k = getParam c o k) := by
  have hinj := classes_inj c hc
  have hok := C18_documented_accepted c kws o ho hk
  refine ⟨hok, ?_, ?_⟩
  · rw [setLoop_ok c kws o hok]
    clear hok ho
    induction kws generalizing o with
    | nil => intro kv h; exact absurd h (List.not_mem_nil)
    | cons kv r ih =>
      intro x hx
      rw [List.map_cons, List.nodup_cons] at hnd
      show writes c (setattr o (c.attrOf kv.1) kv.2) r (c.attrOf x.1) = _
      rcases List.mem_cons.1 hx with rfl | hx'
      · rw [writes_notin, setattr_same]
        intro y hy he
        have := hinj y.1 (hk y (List.mem_cons_of_mem _ hy)) x.1 (hk x (List.mem_cons_self ..)) he
        exact hnd.1 (this ▸ List.mem_map_of_mem (f := Prod.fst) hy)
      · exact ih _ (fun y hy => hk y (List.mem_cons_of_mem _ hy)) hnd.2 x hx'
  · intro k hkp hkn
    rw [setLoop_ok c kws o hok]
    apply writes_notin
    intro y hy he
    have := hinj y.1 (hk y hy) k hkp he
    exact hkn (this ▸ List.mem_map_of_mem (f := Prod.fst) hy)

/-- C18. `set_params(**get_params())` changes nothing, not even internal state. -/
theorem C18_round_trip (c : Cls) (o : Obj V) (ho : Constructed c o) (vals : String → V)
    (hv : ∀ k ∈ c.params, getParam c o k = some (vals k)) :
    setLoop c o (c.params.map (fun k => (k, vals k))) = (o, true) := by
  have hok := C18_documented_accepted c (c.params.map (fun k => (k, vals k))) o ho
    (by intro kv h; obtain ⟨k, hk, rfl⟩ := List.mem_map.1 h; exact hk)
  have h1 := setLoop_ok c _ o hok
  have h2 : ∀ l : List String, (∀ k ∈ l, getParam c o k = some (vals k)) →
      writes c o (l.map (fun k => (k, vals k))) = o := by
    intro l
    induction l with
    | nil => intro _; rfl
    | cons k r ih =>
      intro hl
      show writes c (setattr o (c.attrOf k) (vals k)) _ = o
      have : setattr o (c.attrOf k) (vals k) = o := by
        funext a
        unfold setattr
        split_ifs with e
        · rw [e]; exact (hl k (List.mem_cons_self ..)).symm
        · rfl
      rw [this]
      exact ih (fun k' hk' => hl k' (List.mem_cons_of_mem _ hk'))
  rw [h2 _ hv] at h1
  exact Prod.ext h1 hok

/-- The last value written to `k` in a history of calls (specification). -/
def lastWrite (k : String) (calls : List (List (String × V))) : Option V :=
  ((calls.flatten.filter (fun kv => decide (kv.1 = k))).getLast?).map Prod.snd

theorem writes_last (c : Cls) (hinj : Inj c) (k : String) (hk : k ∈ c.params) (kws : List (String × V)) :
    ∀ o : Obj V, (∀ kv ∈ kws, kv.1 ∈ c.params) →
    writes c o kws (c.attrOf k) =
      ((((kws.filter (fun kv => decide (kv.1 = k))).getLast?).map Prod.snd).or (o (c.attrOf k))) := by
  induction kws using List.reverseRecOn with
  | nil => intro o _; simp [writes]
  | append_singleton r kv ih =>
    intro o h
    have e : writes c o (r ++ [kv]) = setattr (writes c o r) (c.attrOf kv.1) kv.2 := by
      simp [writes, List.foldl_append]
    rw [e, List.filter_append]
    by_cases hkv : kv.1 = k
    · simp [hkv, setattr_same]
    · have hne : c.attrOf k ≠ c.attrOf kv.1 := fun he =>
        hkv (hinj _ (h kv (by simp)) k hk he.symm)
      rw [setattr_ne _ _ hne, ih o (fun x hx => h x (by simp [hx]))]
      simp [hkv]

/-- C18. For every sequence of set_params calls with documented keys, the last value written to each
parameter wins and parameters never written keep their constructor value. -/
theorem C18_last_write_wins (c : Cls) (hc : c ∈ loopClasses) (o : Obj V) (ho : Constructed c o)
    (calls : List (List (String × V))) (hk : ∀ kws ∈ calls, ∀ kv ∈ kws, kv.1 ∈ c.params)
    (k : String) (hkp : k ∈ c.params) :
    getParam c (calls.foldl (fun o kws => (setLoop c o kws).1) o) k
      = (lastWrite k calls).or (getParam c o k) := by
  have key : ∀ (calls : List (List (String × V))) (o : Obj V), Constructed c o →
      (∀ kws ∈ calls, ∀ kv ∈ kws, kv.1 ∈ c.params) →
      calls.foldl (fun o kws => (setLoop c o kws).1) o = writes c o calls.flatten := by
    intro calls
    induction calls with
    | nil => intro o _ _; rfl
    | cons a r ih =>
      intro o ho hk
      have hok := C18_documented_accepted c a o ho (hk a (List.mem_cons_self ..))
      have hw := setLoop_ok c a o hok
      have hcon : Constructed c (writes c o a) := by
        have : ∀ (l : List (String × V)) (o : Obj V), Constructed c o → Constructed c (writes c o l) := by
          intro l
          induction l with
          | nil => intro o h; exact h
          | cons x l ihl =>
            intro o h
            exact ihl _ ⟨fun k' h' => setattr_isSome _ _ _ _ (h.1 k' h'),
              fun k' h' => setattr_isSome _ _ _ _ (h.2 k' h')⟩
        exact this a o ho
      rw [List.foldl_cons, hw, ih _ hcon (fun kws h => hk kws (List.mem_cons_of_mem _ h)),
        List.flatten_cons]
      simp [writes, List.foldl_append]
  rw [key calls o ho hk]
  refine writes_last c (classes_inj c hc) k hkp _ o ?_
  intro kv h
  obtain ⟨l, hl, hkv⟩ := List.mem_flatten.1 h
  exact hk l hl kv hkv

/-- C18. BaconDecomposition: a valid `weights` argument is stored; a call without `weights` is a no-op. -/
theorem C18_bacon (o : Obj Val) (kws : List (String × Val)) :
    ((setBacon o kws).2 = true ∧ ∀ v, kws.lookup "weights" = some v →
      (setBacon o kws).1 "weights" = some v) ∨ (setBacon o kws).2 = false := by
  unfold setBacon
  cases h : kws.lookup "weights" with
  | none => left; simp
  | some v =>
    simp only
    split_ifs with hv
    · left; simp [setattr]
    · right; rfl

example : Constructed pretrendsClass (fun _ => some (Val.num 1)) := ⟨fun _ _ => rfl, fun _ _ => rfl⟩
example : getParam pretrendsClass (setLoop pretrendsClass (fun _ => some (Val.num 1))
    [("power", .num (9/10)), ("alpha", .num (1/10))]).1 "power" = some (.num (9/10)) := by decide +kernel

/-! ### C19 -/

/-- The value of `weights` is one of the two valid ones. -/
def BaconValid (o : Obj Val) : Prop :=
  o "weights" = some (.str "approximate") ∨ o "weights" = some (.str "exact")

/-- C19. BaconDecomposition: a rejected set_params leaves the object unchanged. -/
theorem C19_bacon_atomic (o : Obj Val) (kws : List (String × Val)) (h : (setBacon o kws).2 = false) :
    (setBacon o kws).1 = o := by
  unfold setBacon at h ⊢
  cases hl : kws.lookup "weights" with
  | none => rfl
  | some v =>
    simp only [hl] at h ⊢
    split_ifs at h ⊢
    · rfl

/-- C19. BaconDecomposition: for every history of set_params calls, rejected ones included, the stored
option is valid. -/
theorem C19_bacon_always_valid (o : Obj Val) (ho : BaconValid o) (calls : List (List (String × Val))) :
    BaconValid (calls.foldl (fun o kws => (setBacon o kws).1) o) := by
  induction calls generalizing o with
  | nil => exact ho
  | cons a r ih =>
    apply ih
    show BaconValid (setBacon o a).1
    unfold setBacon
    cases hl : a.lookup "weights" with
    | none => exact ho
    | some v =>
      show BaconValid (if v = Val.str "approximate" ∨ v = Val.str "exact"
        then (setattr o "weights" v, true) else (o, false)).1
      split_ifs with hv
      · rcases hv with rfl | rfl
        · left; simp [setattr]
        · right; simp [setattr]
      · exact ho

/-- C19, attribute-loop classes: a call is rejected exactly at the first key that is not an attribute; the
keyword arguments before it have been applied, the ones after it have not. -/
theorem C19_rejected_prefix_partial (c : Cls) (kws : List (String × V)) :
    ∀ o : Obj V, (setLoop c o kws).2 = false →
    ∃ pre k v post, kws = pre ++ (k, v) :: post ∧ (setLoop c o kws).1 = writes c o pre ∧
      hasattr c (writes c o pre) k = false := by
  induction kws with
  | nil => intro o h; exact absurd h (by simp [setLoop])
  | cons kv r ih =>
    intro o h
    obtain ⟨k, v⟩ := kv
    simp only [setLoop] at h ⊢
    by_cases h1 : c.attrOf k ≠ k
    · rw [if_pos h1] at h ⊢
      obtain ⟨pre, k', v', post, e1, e2, e3⟩ := ih _ h
      exact ⟨(k, v) :: pre, k', v', post, by rw [e1]; rfl, e2, e3⟩
    · rw [if_neg h1] at h ⊢
      by_cases h2 : hasattr c o k = true
      · rw [if_pos h2] at h ⊢
        obtain ⟨pre, k', v', post, e1, e2, e3⟩ := ih _ h
        have hw : writes c (setattr o k v) pre = writes c o ((k, v) :: pre) := by
          simp [writes, not_not.1 h1]
        rw [hw] at e2 e3
        exact ⟨(k, v) :: pre, k', v', post, by rw [e1]; rfl, e2, e3⟩
      · rw [if_neg h2] at h ⊢
        exact ⟨[], k, v, r, rfl, rfl, by simpa [writes] using h2⟩

/-- C19 fails for every attribute-loop class: passing any documented parameter followed by any unknown key
raises, but the documented parameter has been changed. -/
theorem C19_partial_update_refuted (c : Cls) (hc : c ∈ loopClasses) (o : Obj V) (ho : Constructed c o)
    (k bogus : String) (v w : V) (hk : k ∈ c.params) (hb : hasattr c o bogus = false)
    (hbk : bogus ≠ c.attrOf k) (hba : c.attrOf bogus = bogus) :
    (setLoop c o [(k, v), (bogus, w)]).2 = false ∧
    getParam c (setLoop c o [(k, v), (bogus, w)]).1 k = some v := by
  have hb' : hasattr c (setattr o (c.attrOf k) v) bogus = false := by
    unfold hasattr at hb ⊢; rw [setattr_ne _ _ hbk]; exact hb
  have h0 := ho.1 k hk
  by_cases h1 : c.attrOf k = k
  · have h2 : hasattr c o k = true := by rw [h1] at h0; simp [hasattr, h0]
    rw [h1] at hb'
    simp [setLoop, h1, h2, hba, hb', getParam, setattr]
  · simp [setLoop, h1, hba, hb', getParam, setattr]

/-- C19 fails for HonestDiD: set_params(M=-1) raises, and the object keeps M = -1. -/
theorem C19_honest_invalid_state_refuted (o : Obj Val) (ho : Constructed honestClass o) :
    (setHonest o [("M", .num (-1))]).2 = false ∧
    (setHonest o [("M", .num (-1))]).1 "M" = some (.num (-1)) ∧
    honestValid (setHonest o [("M", .num (-1))]).1 = false := by
  have h0 : (o "M").isSome := ho.1 "M" (by decide)
  have e : setLoop honestClass o [("M", .num (-1))] = (setattr o "M" (.num (-1)), true) := by
    simp [setLoop, honestClass, hasattr, h0]
  have hv : honestValid (setattr o "M" (.num (-1))) = false := by
    unfold honestValid
    rw [setattr_same]
    have : ¬ ((0 : ℚ) ≤ -1) := by norm_num
    simp [this]
  simp only [setHonest, e, if_true, hv]
  exact ⟨trivial, setattr_same _ _ _, trivial⟩

/-- C19 fails for options validated only by the constructor (CallawaySantAnna.control_group and the like):
an invalid value is accepted and stored. -/
theorem C19_unvalidated_option_refuted (c : Cls) (hc : c ∈ loopClasses) (o : Obj V) (ho : Constructed c o)
    (k : String) (hk : k ∈ c.params) (v : V) :
    (setLoop c o [(k, v)]).2 = true ∧ getParam c (setLoop c o [(k, v)]).1 k = some v := by
  have := C18_set_then_get c hc o ho [(k, v)] (by simpa using hk) (by simp)
  exact ⟨this.1, this.2.1 (k, v) (by simp)⟩

example : (setHonest (ofList [("method", .str "combined"), ("alpha", .num (1/20)), ("l_vec", .none),
    ("M", .num 1)]) [("M", .num 2)]).2 = true := by decide +kernel
example : BaconValid (ofList [("weights", .str "exact")]) := Or.inr (by decide +kernel)

/-! ### C69: only documented parameters -/

/-- C69. Keys that are neither parameters, state attributes nor methods are rejected. -/
theorem C69_unknown_rejected_partial (c : Cls) (o : Obj V)
    (hdom : ∀ a, (o a).isSome → (∃ k ∈ c.params, a = c.attrOf k) ∨ a ∈ c.state)
    (k : String) (v : V) (h1 : ∀ k' ∈ c.params, k ≠ c.attrOf k') (h2 : k ∉ c.state)
    (h3 : k ∉ c.methods) (h4 : c.attrOf k = k) : (setLoop c o [(k, v)]).2 = false := by
  have : o k = none := by
    by_contra hn
    rcases hdom k (Option.isSome_iff_ne_none.2 hn) with ⟨k', hk', he⟩ | hs
    · exact h1 k' hk' he
    · exact h2 hs
  simp [setLoop, h4, hasattr, this, h3]

/-- C69 is false: for every attribute-loop class, set_params accepts the name of a method (for instance
`fit`) and shadows it, and accepts internal state attributes. -/
theorem C69_internal_names_refuted (c : Cls) (o : Obj V) (ho : Constructed c o) (a : String)
    (ha : a ∈ c.methods ∨ a ∈ c.state) (hattr : c.attrOf a = a) (v : V) :
    (setLoop c o [(a, v)]).2 = true ∧ (setLoop c o [(a, v)]).1 a = some v := by
  have : hasattr c o a = true := by
    rcases ha with h | h
    · simp [hasattr, h]
    · simp [hasattr, ho.2 a h]
  simp [setLoop, hattr, this, setattr]

example : "fit" ∈ didClass.methods ∧ didClass.attrOf "fit" = "fit" ∧ "results_" ∈ tropClass.state := by decide

/-! ### The keys of get_params are the constructor's keywords -/

/-- The keyword arguments of the constructors, read off their signatures (estimators.py 120-130, staggered.py 295-308,
sun_abraham.py 395-404, triple_diff.py 486-494, synthetic_did.py 131-139, trop.py 451-464, honest_did.py 996-1002,
pretrends.py 436-442). -/
def signatures : List (Cls × List String) :=
  [(didClass, ["robust", "cluster", "alpha", "inference", "n_bootstrap", "bootstrap_weights", "seed", "rank_deficient_action"]),
   (csClass, ["control_group", "anticipation", "estimation_method", "alpha", "cluster", "n_bootstrap", "bootstrap_weights",
     "bootstrap_weight_type", "seed", "rank_deficient_action", "base_period"]),
   (saClass, ["control_group", "anticipation", "alpha", "cluster", "n_bootstrap", "seed", "rank_deficient_action"]),
   (tripleClass, ["estimation_method", "robust", "cluster", "alpha", "pscore_trim", "rank_deficient_action"]),
   (sdidClass, ["lambda_reg", "zeta", "alpha", "variance_method", "n_bootstrap", "seed"]),
   (tropClass, ["method", "lambda_time_grid", "lambda_unit_grid", "lambda_nn_grid", "max_iter", "tol", "alpha", "variance_method",
     "n_bootstrap", "max_loocv_samples", "seed"]),
   (honestClass, ["method", "M", "alpha", "l_vec"]),
   (pretrendsClass, ["alpha", "power", "violation_type", "violation_weights"])]

/-- C18. Every keyword of the constructor, and no other name, can be read back: after an accepted `set_params(k=v)` on a constructed
object `get_params` has the key `k` with the value `v`, for every keyword `k` of the constructor of each class. -/
theorem C18_every_keyword (p : Cls × List String) (hp : p ∈ signatures) (o : Obj V) (ho : Constructed p.1 o) (k : String) (v : V) :
    (k ∈ p.2 ↔ k ∈ p.1.params) ∧ (k ∈ p.2 → (setLoop p.1 o [(k, v)]).2 = true ∧ getParam p.1 (setLoop p.1 o [(k, v)]).1 k = some v) := by
  have hs : ∀ p ∈ signatures, p.1 ∈ loopClasses ∧ p.2 = p.1.params := by
    intro p hp
    simp only [signatures, List.mem_cons, List.not_mem_nil, or_false] at hp
    rcases hp with rfl | rfl | rfl | rfl | rfl | rfl | rfl | rfl <;> exact ⟨by simp [loopClasses], rfl⟩
  rw [(hs p hp).2]
  refine ⟨Iff.rfl, fun hk => ?_⟩
  have h1 : (setLoop p.1 o [(k, v)]).2 = true := C18_documented_accepted p.1 [(k, v)] o ho (by simpa using hk)
  refine ⟨h1, ?_⟩
  exact (C18_set_then_get p.1 (hs p hp).1 o ho [(k, v)] (by simpa using hk) (by simp)).2.1 (k, v) (by simp)

/-- C18. PreTrendsPower computes with the attribute `target_power` (pretrends.py 458, 808-809, 831); `set_params(power=v)` changes it. -/
theorem C18_pretrends_power (o : Obj V) (v : V) : (setLoop pretrendsClass o [("power", v)]).1 "target_power" = some v ∧
    (setLoop pretrendsClass o [("power", v)]).1 "power" = o "power" := by
  constructor <;> simp [setLoop, pretrendsClass, setattr]

/-- Valid settings of HonestDiD. -/
def HonestOk (method M alpha : Val) : Prop :=
  (method = .str "smoothness" ∨ method = .str "relative_magnitude" ∨ method = .str "combined") ∧
  (∃ x : ℚ, M = .num x ∧ 0 ≤ x) ∧ ∃ a : ℚ, alpha = .num a ∧ 0 < a ∧ a < 1

theorem honestValid_iff (o : Obj Val) (m M a : Val) (hm : o "method" = some m) (hM : o "M" = some M) (ha : o "alpha" = some a) :
    honestValid o = true ↔ HonestOk m M a := by
  unfold honestValid HonestOk
  rw [hm, hM, ha]
  cases m <;> cases M <;> cases a <;> simp [and_assoc]

/-- C19. HonestDiD accepts exactly the valid settings: the constructor (with M omitted, 1 for relative magnitudes and 0 otherwise) and
`set_params` succeed if and only if the resulting method, M and alpha are valid. -/
theorem C19_honest_accepts (kws : List (String × Val)) :
    ((honestNew kws).isSome ↔ HonestOk (arg kws "method" (.str "relative_magnitude"))
      (if arg kws "M" .none = .none then
        (if arg kws "method" (.str "relative_magnitude") = .str "relative_magnitude" then .num 1 else .num 0) else arg kws "M" .none)
      (arg kws "alpha" (.num (1 / 20)))) ∧
    ∀ o : Obj Val, Constructed honestClass o → (∀ kv ∈ kws, kv.1 ∈ honestClass.params) → ((setHonest o kws).2 = true ↔
      ∃ m M a, (setHonest o kws).1 "method" = some m ∧ (setHonest o kws).1 "M" = some M ∧ (setHonest o kws).1 "alpha" = some a ∧
        HonestOk m M a) := by
  constructor
  · unfold honestNew
    simp only
    rw [← honestValid_iff (ofList [("method", arg kws "method" (.str "relative_magnitude")), ("alpha", arg kws "alpha" (.num (1/20))),
      ("l_vec", arg kws "l_vec" .none), ("M", if arg kws "M" .none = .none then
        (if arg kws "method" (.str "relative_magnitude") = .str "relative_magnitude" then .num 1 else .num 0) else arg kws "M" .none)])
      _ _ _ rfl rfl rfl]
    split_ifs <;> simp_all
  · intro o ho hk
    have h1 : (setLoop honestClass o kws).2 = true := C18_documented_accepted honestClass kws o ho hk
    unfold setHonest
    simp only [h1, if_true]
    constructor
    · intro hv
      have hne : ∀ k, k ∈ ["method", "M", "alpha"] → ∃ v, (setLoop honestClass o kws).1 k = some v := by
        intro k hk'
        cases hx : (setLoop honestClass o kws).1 k with
        | some v => exact ⟨v, rfl⟩
        | none =>
          exfalso
          unfold honestValid at hv
          simp only [List.mem_cons, List.not_mem_nil, or_false] at hk'
          rcases hk' with rfl | rfl | rfl <;> simp [hx] at hv
      obtain ⟨m, hm⟩ := hne "method" (by simp)
      obtain ⟨M, hM⟩ := hne "M" (by simp)
      obtain ⟨a, ha⟩ := hne "alpha" (by simp)
      exact ⟨m, M, a, hm, hM, ha, (honestValid_iff _ _ _ _ hm hM ha).1 hv⟩
    · rintro ⟨m, M, a, hm, hM, ha, hok⟩
      exact (honestValid_iff _ _ _ _ hm hM ha).2 hok

example : (honestNew [("M", .num 2), ("alpha", .num (1 / 10))]).isSome = true ∧ (honestNew [("alpha", .num 0)]).isSome = false ∧
    (honestNew [("M", .num (-1))]).isSome = false ∧ (honestNew [("method", .str "other")]).isSome = false := by decide +kernel

/-! ### C70: set_params versus constructor -/

/-- C70. For classes whose constructor stores its keywords as given, configuring a default object with
set_params gives the same object as passing the keywords to the constructor. -/
theorem C70_direct_partial (c : Cls) (hc : ∀ k, c.attrOf k = k) (defaults kws : List (String × Val))
    (hk : ∀ kv ∈ kws, (defaults.lookup kv.1).isSome) (hnd : (kws.map Prod.fst).Nodup) :
    setLoop c (constructDirect defaults []) kws = (constructDirect defaults kws, true) := by
  have hok : ∀ (kws : List (String × Val)) (o : Obj Val), (∀ kv ∈ kws, (o kv.1).isSome) →
      (setLoop c o kws).2 = true := by
    intro kws
    induction kws with
    | nil => intro o _; rfl
    | cons kv r ih =>
      intro o h
      obtain ⟨k, v⟩ := kv
      have h1 : hasattr c o k = true := by simp [hasattr, h (k, v) (List.mem_cons_self ..)]
      simp only [setLoop, hc k, ne_eq, not_true_eq_false, if_false, h1, if_true]
      exact ih _ (fun x hx => setattr_isSome _ _ _ _ (h x (List.mem_cons_of_mem _ hx)))
  have h0 : ∀ kv ∈ kws, (constructDirect defaults [] kv.1).isSome := by
    intro kv h; simp [constructDirect, hk kv h]
  have hfin := hok kws _ h0
  refine Prod.ext ?_ hfin
  rw [setLoop_ok c kws _ hfin]
  have gen : ∀ (kws : List (String × Val)) (o : Obj Val), (kws.map Prod.fst).Nodup → ∀ a,
      writes c o kws a = (kws.lookup a).or (o a) := by
    intro kws
    induction kws with
    | nil => intro o _ a; simp [writes]
    | cons kv r ih =>
      intro o hnd a
      rw [List.map_cons, List.nodup_cons] at hnd
      show writes c (setattr o (c.attrOf kv.1) kv.2) r a = _
      rw [ih _ hnd.2, hc]
      by_cases hak : a = kv.1
      · subst hak
        have : r.lookup kv.1 = none := by
          rw [List.lookup_eq_none_iff]
          intro x hx
          rw [bne_iff_ne]
          intro he
          exact hnd.1 (he ▸ List.mem_map_of_mem (f := Prod.fst) hx)
        simp [this, setattr_same, List.lookup]
      · rw [setattr_ne _ _ hak]
        obtain ⟨k, v⟩ := kv
        have hb : (a == k) = false := beq_eq_false_iff_ne.2 hak
        simp [List.lookup, hb]
  funext a
  rw [gen kws _ hnd a]
  unfold constructDirect arg
  cases hl : kws.lookup a with
  | none => simp [hl]
  | some v =>
    have : (defaults.lookup a).isSome := by
      have hm : (a, v) ∈ kws := by
        obtain ⟨l1, l2, e, _⟩ := List.lookup_eq_some_iff.1 hl
        rw [e]; simp
      exact hk _ hm
    simp [this, hl]

/-- C70 is false for CallawaySantAnna: `bootstrap_weights` passed to the constructor selects the bootstrap
weights, the same keyword passed to set_params is stored but not used. -/
theorem C70_cs_weights_refuted :
    ∃ o o', csWeights [] = some o ∧ csWeights [("bootstrap_weights", .str "mammen")] = some o' ∧
      csWeightUsed o' = some (.str "mammen") ∧
      (setLoop csClass o [("bootstrap_weights", .str "mammen")]).2 = true ∧
      csWeightUsed (setLoop csClass o [("bootstrap_weights", .str "mammen")]).1 = some (.str "rademacher") := by
  refine ⟨_, _, rfl, rfl, ?_, ?_, ?_⟩ <;> decide +kernel

/-- C70 is false for HonestDiD: the default M depends on the method in the constructor only. -/
theorem C70_honest_default_refuted :
    ∃ o o', honestNew [] = some o ∧ honestNew [("method", .str "smoothness")] = some o' ∧
      o' "M" = some (.num 0) ∧
      (setHonest o [("method", .str "smoothness")]).2 = true ∧
      (setHonest o [("method", .str "smoothness")]).1 "M" = some (.num 1) := by
  refine ⟨_, _, if_pos (by decide +kernel), if_pos (by decide +kernel), ?_, ?_, ?_⟩ <;> decide +kernel

/-! ### C20 -/

section refit
variable {D N : Type*} (wild analytic : FitParams → D → N) (clusters : D → ℕ)

theorem runHist_p (o : DidObj) (h : List (Act D)) :
    (runHist wild analytic clusters o h).p = paramsAfter o.p h := by
  induction h generalizing o with
  | nil => rfl
  | cons a r ih =>
    cases a with
    | setParams f => exact ih _
    | fit d => rw [runHist, ih]; rfl

theorem runHist_boot (o : DidObj) (h : List (Act D)) :
    (runHist wild analytic clusters o h).boot.isSome = (o.boot.isSome || everWild o.p h) := by
  induction h generalizing o with
  | nil => simp [runHist, everWild]
  | cons a r ih =>
    cases a with
    | setParams f => rw [runHist, ih]; rfl
    | fit d =>
      rw [runHist, ih]
      simp only [fit, everWild]
      by_cases hw : usesWild o.p = true
      · simp [hw]
      · simp [hw]

/-- C20. The numbers of a fit depend only on the parameters at the time of the fit and on the data: they
equal those of a new object with these parameters, for every history. -/
theorem C20_numbers_history_independent (p : FitParams) (h : List (Act D)) (d : D) :
    (fit wild analytic clusters (runHist wild analytic clusters (fresh p) h) d).2.numbers
      = (fit wild analytic clusters (fresh (paramsAfter p h)) d).2.numbers := by
  have hp : (runHist wild analytic clusters (fresh p) h).p = paramsAfter p h :=
    runHist_p wild analytic clusters (fresh p) h
  simp only [fit, hp]
  show _ = (if usesWild (paramsAfter p h) = true then _ else _ : N × Option (ℕ × ℕ)).1
  split_ifs <;> rfl

/-- C20. For every history, a fit with inference="wild_bootstrap" and a cluster column reports bootstrap numbers
with the current replication count and the clusters of the current data; every other fit reports
analytical numbers. -/
theorem C20_method_used (p : FitParams) (h : List (Act D)) (d : D) :
    let q := paramsAfter p h
    let r := (fit wild analytic clusters (runHist wild analytic clusters (fresh p) h) d).2
    (q.inference = "wild_bootstrap" ∧ q.cluster ≠ none →
      r.numbers = wild q d ∧ r.inferenceMethod = "wild_bootstrap" ∧ r.nBootstrap = some q.nBootstrap ∧
        r.nClusters = some (clusters d)) ∧
    (¬ (q.inference = "wild_bootstrap" ∧ q.cluster ≠ none) → r.numbers = analytic q d) := by
  intro q r
  have hp : (runHist wild analytic clusters (fresh p) h).p = q :=
    runHist_p wild analytic clusters (fresh p) h
  have hu : usesWild q = true ↔ (q.inference = "wild_bootstrap" ∧ q.cluster ≠ none) := by
    simp [usesWild, Option.isSome_iff_ne_none]
  have hr : r = (fit wild analytic clusters (runHist wild analytic clusters (fresh p) h) d).2 := rfl
  rw [hr, ← hu]
  simp only [fit, hp]
  constructor
  · intro hw; simp [hw]
  · intro hw; simp [hw]

/-- C20. Exact behaviour of `inference_method`: it says "wild_bootstrap" exactly when this fit or any earlier
fit of the object used the bootstrap. -/
theorem C20_inference_method_partial (p : FitParams) (h : List (Act D)) (d : D) :
    (fit wild analytic clusters (runHist wild analytic clusters (fresh p) h) d).2.inferenceMethod
      = if everWild p h || usesWild (paramsAfter p h) then "wild_bootstrap" else "analytical" := by
  have hp : (runHist wild analytic clusters (fresh p) h).p = paramsAfter p h :=
    runHist_p wild analytic clusters (fresh p) h
  have hb : (runHist wild analytic clusters (fresh p) h).boot.isSome = everWild p h := by
    rw [runHist_boot]; simp [fresh]
  simp only [fit, hp]
  by_cases hw : usesWild (paramsAfter p h) = true
  · simp [hw]
  · simp [hw, hb]

/-- C20, correct part: if no earlier fit used the bootstrap, the reported method is the one used, and the
replication count is reported exactly for bootstrap fits. -/
theorem C20_first_use_partial (p : FitParams) (h : List (Act D)) (d : D) (hw : everWild p h = false) :
    let r := (fit wild analytic clusters (runHist wild analytic clusters (fresh p) h) d).2
    (r.inferenceMethod = "wild_bootstrap" ↔ usesWild (paramsAfter p h) = true) ∧
    (r.nBootstrap.isSome ↔ usesWild (paramsAfter p h) = true) := by
  intro r
  have hp : (runHist wild analytic clusters (fresh p) h).p = paramsAfter p h :=
    runHist_p wild analytic clusters (fresh p) h
  have hb : (runHist wild analytic clusters (fresh p) h).boot.isSome = false := by
    rw [runHist_boot]; simp [fresh, hw]
  have hr : r = (fit wild analytic clusters (runHist wild analytic clusters (fresh p) h) d).2 := rfl
  rw [hr]
  simp only [fit, hp]
  by_cases hu : usesWild (paramsAfter p h) = true
  · simp [hu]
  · simp [hu, hb]

/-- C20 is false: for every parameter setting that uses the bootstrap and every later setting that does not,
refitting after set_params reports "wild_bootstrap" for an analytical fit. -/
theorem C20_stale_method_refuted (p q : FitParams) (hp : usesWild p = true) (hq : usesWild q = false)
    (d d' : D) :
    let o := runHist wild analytic clusters (fresh p) [.fit d, .setParams (fun _ => q)]
    (fit wild analytic clusters o d').2.numbers = analytic q d' ∧
    (fit wild analytic clusters o d').2.inferenceMethod = "wild_bootstrap" ∧
    (fit wild analytic clusters o d').2.nBootstrap = some p.nBootstrap := by
  intro o
  have : o = { p := q, boot := some (p.nBootstrap, clusters d) } := by
    simp [o, runHist, fit, fresh, hp]
  rw [this]
  simp [fit, hq]

end refit

example : usesWild ⟨"wild_bootstrap", some "state", 999⟩ = true ∧ usesWild ⟨"analytical", some "state", 999⟩ = false := by
  decide

end DiffDiff.Params
