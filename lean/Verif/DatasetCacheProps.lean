/-
Property C129: what the dataset cache returns over all histories, crash points and schedules.
-/
import Verif.DatasetCache
import Mathlib.Tactic.Linarith

set_option linter.unusedSectionVars false

namespace DiffDiff.DatasetCache

variable {α P : Type*} [DecidableEq P]

/-! ### Uninterrupted histories -/

inductive Op (α : Type*)
  | load (force : Bool) (net : Net α)
  | clear

/-- Cached text after a history of complete operations. -/
def after : Option (List α) → List (Op α) → Option (List α)
  | c, [] => c
  | c, .load f net :: l => after (download c f net).1 l
  | _, .clear :: l => after none l

theorem download_served (cache : Option (List α)) (f : Bool) (net : Net α) :
    (∀ c, (download cache f net).2 = .ok c → cache = some c ∨ net = .ok c) ∧ (∀ c, (download cache f net).1 = some c → cache = some c ∨ net = .ok c) := by
  cases cache <;> cases f <;> cases net <;> simp [download]

theorem after_served (h : List (Op α)) (c0 : Option (List α)) (c : List α) (hc : after c0 h = some c) :
    c0 = some c ∨ ∃ f, Op.load f (.ok c) ∈ h := by
  induction h generalizing c0 with
  | nil => exact .inl hc
  | cons o l ih =>
    cases o with
    | clear =>
      rcases ih _ hc with h | ⟨f, h⟩
      · cases h
      · exact .inr ⟨f, List.mem_cons_of_mem _ h⟩
    | load f net =>
      rcases ih _ hc with h | ⟨f', h⟩
      · rcases (download_served c0 f net).2 c h with h | h
        · exact .inl h
        · exact .inr ⟨f, by rw [h]; exact List.mem_cons_self⟩
      · exact .inr ⟨f', List.mem_cons_of_mem _ h⟩

/-- C129. Over every history of uninterrupted loads and clears, a load returns a text that the source served completely, in this call or an earlier one. -/
theorem C129_history (h : List (Op α)) (f : Bool) (net : Net α) (c : List α) (hr : loader (download (after none h) f net).2 = .data c) :
    net = .ok c ∨ ∃ f', Op.load f' (.ok c) ∈ h := by
  have hr' : (download (after none h) f net).2 = .ok c := by
    revert hr
    cases (download (after none h) f net).2 with
    | ok c' => intro hr; cases hr; rfl
    | error e => cases e <;> intro hr <;> cases hr
  rcases (download_served _ f net).1 c hr' with h1 | h1
  · rcases after_served h none c h1 with h2 | h2
    · cases h2
    · exact .inr h2
  · exact .inl h1

/-- C129. Once a load has returned a text, every later unforced load returns that text, whatever the network does, until the cache is cleared or a download is forced. -/
theorem C129_stable (c0 : Option (List α)) (f : Bool) (net : Net α) (c : List α) (hr : (download c0 f net).2 = .ok c) (h : List (Net α)) (net' : Net α) :
    download (after (download c0 f net).1 (h.map (Op.load false))) false net' = (some c, .ok c) := by
  have h1 : (download c0 f net).1 = some c := by
    revert hr
    cases c0 <;> cases f <;> cases net <;> simp [download]
  have h2 : ∀ l : List (Net α), after (some c) (l.map (Op.load false)) = some c := by
    intro l
    induction l with
    | nil => rfl
    | cons a l ih => exact ih
  rw [h1, h2]
  rfl

/-- C129. A forced load with a working network returns the served text and replaces the cached one; with the network down it returns the cached text. -/
theorem C129_forced (c0 : Option (List α)) (c : List α) :
    download c0 true (.ok c) = (some c, .ok c) ∧ (c0 = some c → download c0 true .down = (some c, .ok c)) := by
  refine ⟨by cases c0 <;> rfl, ?_⟩
  rintro rfl; rfl

/-- C129. The constructed replacement is returned exactly when nothing is cached and the connection fails; other failures of the download reach the caller unless
the cache answers. -/
theorem C129_fallback_iff (c0 : Option (List α)) (f : Bool) (net : Net α) :
    (loader (download c0 f net).2 = .fallback ↔ c0 = none ∧ net = .down) ∧
    (∀ e, loader (download c0 f net).2 = .raised e ↔ (c0 = none ∨ f = true) ∧ net = .other ∧ e = .other) := by
  constructor
  · cases c0 <;> cases f <;> cases net <;> simp [download, loader]
  · intro e
    cases c0 <;> cases f <;> cases net <;> simp [download, loader, eq_comm]

/-! ### One process at a time refines the uninterrupted call -/

@[simp] theorem setPc_self (s : St P α) (p : P) (k : Pc α) : (setPc s p k).pc p = k := by simp [setPc]
@[simp] theorem setPc_entry (s : St P α) (p : P) (k : Pc α) : (setPc s p k).entry = s.entry := rfl
@[simp] theorem setPc_data (s : St P α) (p : P) (k : Pc α) : (setPc s p k).data = s.data := rfl
@[simp] theorem setPc_next (s : St P α) (p : P) (k : Pc α) : (setPc s p k).next = s.next := rfl
theorem setPc_ne (s : St P α) (p q : P) (k : Pc α) (h : q ≠ p) : (setPc s p k).pc q = s.pc q := by simp [setPc, h]

theorem run_append (pad : α) (s : St P α) (l l' : List (P × Act α)) : run pad s (l ++ l') = run pad (run pad s l) l' := by
  induction l generalizing s with
  | nil => rfl
  | cons a l ih => exact ih _

/-- `m` steps of one process. -/
def steps (p : P) (net : Net α) (m : ℕ) : List (P × Act α) := List.replicate m (p, .step net)

theorem steps_done (pad : α) (s : St P α) (p : P) (net : Net α) (m : ℕ) (r : Except Err (List α)) (h : s.pc p = .done r) : run pad s (steps p net m) = s := by
  induction m with
  | zero => rfl
  | succ m ih =>
    have : act pad s p (.step net) = s := by simp [act, h]
    simp only [steps, List.replicate_succ, run, this]
    exact ih

theorem put_take (pad : α) (c : List α) (j : ℕ) (x : α) (h : c[j]? = some x) : put pad (c.take j) j x = c.take (j + 1) := by
  obtain ⟨hj, rfl⟩ := List.getElem?_eq_some_iff.1 h
  have hl : (c.take j).length = j := by rw [List.length_take]; omega
  unfold put
  rw [if_neg (by omega), hl, Nat.sub_self, List.replicate_zero, List.append_nil, List.take_add_one, List.getElem?_eq_getElem hj]
  rfl

/-- Writing: the first characters are on disk, the rest follows. -/
theorem steps_write (pad : α) (s : St P α) (p : P) (net : Net α) (c : List α) (n j : ℕ) (hj : j ≤ c.length) (hp : s.pc p = .writing c n j)
    (hd : s.data n = c.take j) (k : ℕ) (hk : j + k ≤ c.length) :
    (run pad s (steps p net k)).pc p = .writing c n (j + k) ∧ (run pad s (steps p net k)).data n = c.take (j + k) ∧
      (run pad s (steps p net k)).entry = s.entry ∧ (∀ q, q ≠ p → (run pad s (steps p net k)).pc q = s.pc q) := by
  induction k generalizing s j with
  | zero => exact ⟨hp, hd, rfl, fun _ _ => rfl⟩
  | succ k ih =>
    have hx : c[j]? = some (c[j]'(by omega)) := List.getElem?_eq_getElem _
    have ha : act pad s p (.step net) = setPc { s with data := Function.update s.data n (put pad (s.data n) j (c[j]'(by omega))) } p (.writing c n (j + 1)) := by
      simp [act, hp, hx]
    simp only [steps, List.replicate_succ, run, ha]
    have := ih (setPc { s with data := Function.update s.data n (put pad (s.data n) j (c[j]'(by omega))) } p (.writing c n (j + 1))) (j + 1)
      (by omega) (setPc_self _ _ _) (by simp only [setPc_data, Function.update_self]; rw [hd]; exact put_take pad c j _ hx) (by omega)
    obtain ⟨h1, h2, h3, h4⟩ := this
    have e : j + 1 + k = j + (k + 1) := by omega
    rw [e] at h1 h2
    refine ⟨h1, h2, h3, fun q hq => ?_⟩
    rw [show List.replicate k (p, Act.step net) = steps p net k from rfl, h4 q hq, setPc_ne _ _ _ _ hq]

theorem steps_write_done (pad : α) (s : St P α) (p : P) (net : Net α) (c : List α) (n : ℕ) (hp : s.pc p = .writing c n 0) (hd : s.data n = []) (he : s.entry = some n)
    (m : ℕ) (hm : c.length + 1 ≤ m) :
    (run pad s (steps p net m)).pc p = .done (.ok c) ∧ cached (run pad s (steps p net m)) = some c ∧ (∀ q, q ≠ p → (run pad s (steps p net m)).pc q = s.pc q) := by
  obtain ⟨m', rfl⟩ : ∃ m', m = c.length + (1 + m') := ⟨m - c.length - 1, by omega⟩
  have hs : steps p net (c.length + (1 + m')) = steps p net c.length ++ (steps p net 1 ++ steps p net m') := by
    simp only [steps, List.replicate_append_replicate]
  rw [hs, run_append, run_append]
  obtain ⟨h1, h2, h3, h4⟩ := steps_write pad s p net c n 0 (Nat.zero_le _) hp hd c.length (by omega)
  rw [Nat.zero_add] at h1 h2
  set s1 := run pad s (steps p net c.length) with hs1
  have ha : run pad s1 (steps p net 1) = setPc s1 p (.done (.ok c)) := by
    simp [steps, run, act, h1]
  rw [ha, steps_done pad _ p net m' (.ok c) (setPc_self _ _ _)]
  refine ⟨setPc_self _ _ _, ?_, fun q hq => ?_⟩
  · simp only [cached, setPc_entry, setPc_data, h3, he, Option.map_some, h2, List.take_length]
  · rw [setPc_ne _ _ _ _ hq, h4 q hq]

/-- Number of steps of a call that suffices. -/
def budget : Net α → ℕ
  | .ok c => c.length + 4
  | _ => 4

/-- C129. A call that is not interrupted ends, with the result and the cached text of the sequential description; other processes are where they were. -/
theorem C129_refines (pad : α) (s : St P α) (p : P) (f : Bool) (net : Net α) (hp : s.pc p = .idle ∨ ∃ r, s.pc p = .done r) (m : ℕ) (hm : budget net ≤ m) :
    (run pad s ((p, .call f) :: steps p net m)).pc p = .done (download (cached s) f net).2 ∧
    cached (run pad s ((p, .call f) :: steps p net m)) = (download (cached s) f net).1 ∧
    (∀ q, q ≠ p → (run pad s ((p, .call f) :: steps p net m)).pc q = s.pc q) := by
  have h0 : act pad s p (.call f) = setPc s p (.check f) := by
    rcases hp with hp | ⟨r, hp⟩ <;> simp [act, hp]
  have hpeel : ∀ (t : St P α) (k : ℕ), run pad t (steps p net (k + 1)) = run pad (act pad t p (.step net)) (steps p net k) := fun t k => rfl
  change (run pad (act pad s p (.call f)) (steps p net m)).pc p = _ ∧ cached (run pad (act pad s p (.call f)) (steps p net m)) = _ ∧ _
  rw [show run pad s ((p, .call f) :: steps p net m) = run pad (act pad s p (.call f)) (steps p net m) from rfl, h0]
  have hm4 : 4 ≤ m := by cases net <;> simp [budget] at hm <;> omega
  obtain ⟨m, rfl⟩ : ∃ m', m = m' + 1 + 1 + 1 := ⟨m - 3, by omega⟩
  rw [hpeel]
  have hreq : ∀ t : St P α, t.pc p = .request → t.entry = s.entry → t.data = s.data → (∀ q, q ≠ p → t.pc q = s.pc q) → (s.entry = none ∨ f = true) →
      (run pad t (steps p net (m + 1 + 1))).pc p = .done (download (cached s) f net).2 ∧
      cached (run pad t (steps p net (m + 1 + 1))) = (download (cached s) f net).1 ∧ (∀ q, q ≠ p → (run pad t (steps p net (m + 1 + 1))).pc q = s.pc q) := by
    intro t ht he hd hq hc
    rw [hpeel]
    have hdl : download (cached s) f net = match net with
        | .ok c => (some c, .ok c)
        | .down => (match cached s with
          | some c => (some c, .ok c)
          | none => (none, .error .runtime))
        | .other => (cached s, .error .other) := by
      unfold cached
      rcases hc with hc | hc
      · rw [hc]; cases net <;> rfl
      · rw [hc]; cases s.entry <;> cases net <;> rfl
    rw [hdl]
    cases net with
    | other =>
      have : act pad t p (.step .other) = setPc t p (.done (.error .other)) := by simp [act, ht]
      rw [this, steps_done pad _ p _ _ (.error .other) (setPc_self _ _ _)]
      refine ⟨setPc_self _ _ _, ?_, fun q h => ?_⟩
      · simp only [cached, setPc_entry, setPc_data, he, hd]
      · rw [setPc_ne _ _ _ _ h, hq q h]
    | down =>
      have : act pad t p (.step .down) = setPc t p .recheck := by simp [act, ht]
      rw [this, hpeel]
      have h2 : act pad (setPc t p .recheck) p (.step .down) = setPc (setPc t p .recheck) p (if t.entry.isSome then .read else .done (.error .runtime)) := by
        simp only [act, setPc_self]
        rfl
      rw [h2]
      cases hen : s.entry with
      | none =>
        rw [he, hen]
        simp only [Option.isSome_none, Bool.false_eq_true, if_false]
        rw [steps_done pad _ p _ _ (.error .runtime) (setPc_self _ _ _)]
        refine ⟨?_, ?_, fun q h => ?_⟩
        · simp [cached, hen]
        · simp [cached, hen, he]
        · rw [setPc_ne _ _ _ _ h, setPc_ne _ _ _ _ h, hq q h]
      | some n =>
        rw [he, hen]
        simp only [Option.isSome_some, if_true]
        have hm' : ∃ m', m = m' + 1 := ⟨m - 1, by omega⟩
        obtain ⟨m', rfl⟩ := hm'
        rw [hpeel]
        have h3 : act pad (setPc (setPc t p .recheck) p .read) p (.step .down) = setPc (setPc (setPc t p .recheck) p .read) p (.done (.ok (t.data n))) := by
          simp [act, he, hen]
        rw [h3, steps_done pad _ p _ _ (.ok (t.data n)) (setPc_self _ _ _)]
        refine ⟨?_, ?_, fun q h => ?_⟩
        · simp [cached, hen, hd]
        · simp [cached, hen, he, hd]
        · rw [setPc_ne _ _ _ _ h, setPc_ne _ _ _ _ h, setPc_ne _ _ _ _ h, hq q h]
    | ok c =>
      have : act pad t p (.step (.ok c)) = setPc t p (.opening c) := by simp [act, ht]
      rw [this, hpeel]
      simp only [budget] at hm
      cases hen : t.entry with
      | none =>
        have h2 : act pad (setPc t p (.opening c)) p (.step (.ok c)) =
            setPc { (setPc t p (.opening c)) with entry := some t.next, data := Function.update t.data t.next [], next := t.next + 1 } p (.writing c t.next 0) := by
          simp [act, hen]
        rw [h2]
        obtain ⟨h3, h4, h5⟩ := steps_write_done pad _ p (.ok c) c t.next (setPc_self _ _ _)
          (show (setPc { (setPc t p (.opening c)) with entry := some t.next, data := Function.update t.data t.next [], next := t.next + 1 } p
            (.writing c t.next 0)).data t.next = [] by simp) rfl m (by omega)
        refine ⟨h3, h4, fun q h => ?_⟩
        rw [h5 q h, setPc_ne _ _ _ _ h]
        exact (setPc_ne _ _ _ _ h).trans (hq q h)
      | some n =>
        have h2 : act pad (setPc t p (.opening c)) p (.step (.ok c)) =
            setPc { (setPc t p (.opening c)) with data := Function.update t.data n [] } p (.writing c n 0) := by
          simp [act, hen]
        rw [h2]
        obtain ⟨h3, h4, h5⟩ := steps_write_done pad _ p (.ok c) c n (setPc_self _ _ _)
          (show (setPc { (setPc t p (.opening c)) with data := Function.update t.data n [] } p (.writing c n 0)).data n = [] by simp) (by simpa using hen) m (by omega)
        refine ⟨h3, h4, fun q h => ?_⟩
        rw [h5 q h, setPc_ne _ _ _ _ h]
        exact (setPc_ne _ _ _ _ h).trans (hq q h)
  have hstep : act pad (setPc s p (.check f)) p (.step net) = setPc (setPc s p (.check f)) p (if s.entry.isSome && !f then .read else .request) := by
    simp [act]
  rw [hstep]
  cases hen : s.entry with
  | none =>
    simp only [Option.isSome_none, Bool.false_and, Bool.false_eq_true, if_false]
    refine hreq _ (setPc_self _ _ _) rfl rfl (fun q h => ?_) (.inl hen)
    rw [setPc_ne _ _ _ _ h, setPc_ne _ _ _ _ h]
  | some n =>
    cases f with
    | true =>
      simp only [Bool.not_true, Bool.and_false, Bool.false_eq_true, if_false]
      refine hreq _ (setPc_self _ _ _) rfl rfl (fun q h => ?_) (.inr rfl)
      rw [setPc_ne _ _ _ _ h, setPc_ne _ _ _ _ h]
    | false =>
      simp only [Option.isSome_some, Bool.not_false, Bool.and_true, if_true]
      rw [hpeel]
      have h3 : act pad (setPc (setPc s p (.check false)) p .read) p (.step net) = setPc (setPc (setPc s p (.check false)) p .read) p (.done (.ok (s.data n))) := by
        simp [act, hen]
      rw [h3, steps_done pad _ p _ _ (.ok (s.data n)) (setPc_self _ _ _)]
      have hdl : download (cached s) false net = (some (s.data n), .ok (s.data n)) := by simp [cached, hen, download]
      rw [hdl]
      refine ⟨setPc_self _ _ _, ?_, fun q h => ?_⟩
      · simp [cached, hen]
      · rw [setPc_ne _ _ _ _ h, setPc_ne _ _ _ _ h, setPc_ne _ _ _ _ h]

/-! ### Crash points -/

/-- C129. A call on an empty cache runs alone for `3 + j` steps: the first `j` characters are on disk and the call is still writing. -/
theorem writing_after (pad : α) (s : St P α) (p : P) (f : Bool) (c : List α) (hp : s.pc p = .idle) (he : s.entry = none) (j : ℕ) (hj : j ≤ c.length) :
    ∃ n, (run pad s ((p, .call f) :: steps p (.ok c) (3 + j))).pc p = .writing c n j ∧
      cached (run pad s ((p, .call f) :: steps p (.ok c) (3 + j))) = some (c.take j) ∧
      (∀ q, q ≠ p → (run pad s ((p, .call f) :: steps p (.ok c) (3 + j))).pc q = s.pc q) := by
  have hsplit : steps p (.ok c) (3 + j) = steps p (.ok c) 3 ++ steps p (.ok c) j := by
    simp only [steps, List.replicate_append_replicate]
  have h3 : ∃ t : St P α, run pad s ((p, .call f) :: steps p (.ok c) 3) = t ∧ t.pc p = .writing c s.next 0 ∧ t.data s.next = [] ∧ t.entry = some s.next ∧
      (∀ q, q ≠ p → t.pc q = s.pc q) := by
    refine ⟨_, rfl, ?_⟩
    have e : run pad s ((p, .call f) :: steps p (.ok c) 3) =
        act pad (act pad (act pad (act pad s p (.call f)) p (.step (.ok c))) p (.step (.ok c))) p (.step (.ok c)) := rfl
    have h0 : act pad s p (.call f) = setPc s p (.check f) := by simp [act, hp]
    have h1 : act pad (setPc s p (.check f)) p (.step (.ok c)) = setPc (setPc s p (.check f)) p .request := by simp [act, he]
    have h2 : ∀ t : St P α, t.pc p = .request → act pad t p (.step (.ok c)) = setPc t p (.opening c) := fun t ht => by simp [act, ht]
    have h4 : ∀ t : St P α, t.pc p = .opening c → t.entry = none → t.next = s.next →
        act pad t p (.step (.ok c)) = setPc { t with entry := some t.next, data := Function.update t.data t.next [], next := t.next + 1 } p (.writing c t.next 0) :=
      fun t ht hte _ => by simp [act, ht, hte]
    rw [e, h0, h1, h2 _ (setPc_self _ _ _), h4 (setPc (setPc (setPc s p (.check f)) p .request) p (.opening c)) (setPc_self _ _ _) he rfl]
    refine ⟨setPc_self _ _ _, by simp, rfl, fun q hq => ?_⟩
    simp [setPc, hq]
  obtain ⟨t, ht, hw, hd, hen, hq⟩ := h3
  have hrun : run pad s ((p, .call f) :: steps p (.ok c) (3 + j)) = run pad t (steps p (.ok c) j) := by
    rw [hsplit, ← List.cons_append, run_append, ht]
  obtain ⟨a1, a2, a3, a4⟩ := steps_write pad t p (.ok c) c s.next 0 (Nat.zero_le _) hw hd j (by omega)
  rw [Nat.zero_add] at a1 a2
  rw [hrun]
  refine ⟨s.next, a1, ?_, fun q h => (a4 q h).trans (hq q h)⟩
  simp only [cached, a3, hen, Option.map_some, a2]

/-- C129 is false of interrupted downloads: if the process dies after `j` characters were written, every later unforced load succeeds with the truncated text, whatever
the network would have served. -/
theorem C129_crash_refuted (pad : α) (p q : P) (hpq : q ≠ p) (f : Bool) (c : List α) (j : ℕ) (hj : j < c.length) (net : Net α) (m : ℕ) (hm : budget net ≤ m) :
    ∃ r, (run pad start ((((p, Act.call f) :: steps p (.ok c) (3 + j)) ++ [(p, .crash)]) ++ ((q, .call false) :: steps q net m))).pc q = .done (.ok r) ∧
      r = c.take j ∧ r ≠ c := by
  obtain ⟨n, h1, h2, h3⟩ := writing_after pad (start : St P α) p f c rfl rfl j hj.le
  set s := run pad start ((p, Act.call f) :: steps p (.ok c) (3 + j)) with hs
  have hc : run pad start (((p, Act.call f) :: steps p (.ok c) (3 + j)) ++ [(p, .crash)]) = setPc s p .crashed := by
    rw [run_append, ← hs]; simp [run, act]
  rw [run_append, hc]
  have hcc : cached (setPc s p .crashed) = some (c.take j) := h2
  obtain ⟨g1, -, -⟩ := C129_refines pad (setPc s p .crashed) q false net (.inl (by rw [setPc_ne _ _ _ _ hpq, h3 q hpq]; rfl)) m hm
  rw [hcc] at g1
  refine ⟨c.take j, g1, rfl, fun h => ?_⟩
  have := congrArg List.length h
  rw [List.length_take] at this
  omega

/-- C129 is false when the disk fills up: the download that was served raises instead of returning its text, and the next unforced load succeeds with the truncated text. -/
theorem C129_write_failed_refuted (pad : α) (p : P) (f : Bool) (c : List α) (j : ℕ) (hj : j < c.length) (net : Net α) (m : ℕ) (hm : budget net ≤ m) :
    (run pad start (((p, Act.call f) :: steps p (.ok c) (3 + j)) ++ [(p, .failWrite)])).pc p = .done (.error .writeFailed) ∧
    ∃ r, (run pad start ((((p, Act.call f) :: steps p (.ok c) (3 + j)) ++ [(p, .failWrite)]) ++ ((p, .call false) :: steps p net m))).pc p = .done (.ok r) ∧
      r = c.take j ∧ r ≠ c := by
  obtain ⟨n, h1, h2, h3⟩ := writing_after pad (start : St P α) p f c rfl rfl j hj.le
  set s := run pad start ((p, Act.call f) :: steps p (.ok c) (3 + j)) with hs
  have hc : run pad start (((p, Act.call f) :: steps p (.ok c) (3 + j)) ++ [(p, .failWrite)]) = setPc s p (.done (.error .writeFailed)) := by
    rw [run_append, ← hs]; simp [run, act, h1]
  refine ⟨by rw [hc]; exact setPc_self _ _ _, ?_⟩
  rw [run_append, hc]
  have hcc : cached (setPc s p (.done (.error .writeFailed))) = some (c.take j) := h2
  obtain ⟨g1, -, -⟩ := C129_refines pad (setPc s p (.done (.error .writeFailed))) p false net (.inr ⟨_, setPc_self _ _ _⟩) m hm
  rw [hcc] at g1
  refine ⟨c.take j, g1, rfl, fun h => ?_⟩
  have := congrArg List.length h
  rw [List.length_take] at this
  omega

/-- C129. Whatever happened before, a forced load that is not interrupted and is served returns the served text and repairs the cache for the loads that follow. -/
theorem C129_repairs (pad : α) (s : St P α) (p q : P) (hp : s.pc p = .idle ∨ ∃ r, s.pc p = .done r) (hq : s.pc q = .idle ∨ ∃ r, s.pc q = .done r) (c : List α) (net : Net α)
    (m m' : ℕ) (hm : c.length + 4 ≤ m) (hm' : budget net ≤ m') :
    (run pad s ((p, .call true) :: steps p (.ok c) m)).pc p = .done (.ok c) ∧
    (run pad s (((p, .call true) :: steps p (.ok c) m) ++ ((q, .call false) :: steps q net m'))).pc q = .done (.ok c) := by
  obtain ⟨h1, h2, h3⟩ := C129_refines pad s p true (.ok c) hp m hm
  rw [(C129_forced (cached s) c).1] at h1 h2
  refine ⟨h1, ?_⟩
  rw [run_append]
  have hq' : (run pad s ((p, .call true) :: steps p (.ok c) m)).pc q = .idle ∨ ∃ r, (run pad s ((p, .call true) :: steps p (.ok c) m)).pc q = .done r := by
    by_cases h : q = p
    · rw [h]; exact .inr ⟨_, h1⟩
    · rw [h3 q h]; exact hq
  obtain ⟨g1, -, -⟩ := C129_refines pad _ q false net hq' m' hm'
  rw [h2] at g1
  exact g1

/-- C129 is false of concurrent loads: while one process is writing, another process's unforced load succeeds with a truncated text, though the source is up and neither
process fails. -/
theorem C129_torn_read_refuted (pad : α) (p q : P) (hpq : q ≠ p) (f : Bool) (c : List α) (j : ℕ) (hj : j < c.length) :
    ∃ r, (run pad start (((p, Act.call f) :: steps p (.ok c) (3 + j)) ++ ((q, .call false) :: steps q (.ok c) (c.length + 4)))).pc q = .done (.ok r) ∧
      r = c.take j ∧ r ≠ c := by
  obtain ⟨n, h1, h2, h3⟩ := writing_after pad (start : St P α) p f c rfl rfl j hj.le
  set s := run pad start ((p, Act.call f) :: steps p (.ok c) (3 + j)) with hs
  rw [run_append, ← hs]
  obtain ⟨g1, -, -⟩ := C129_refines pad s q false (.ok c) (.inl (by rw [h3 q hpq]; rfl)) (c.length + 4) le_rfl
  rw [h2] at g1
  refine ⟨c.take j, g1, rfl, fun h => ?_⟩
  have := congrArg List.length h
  rw [List.length_take] at this
  omega

/-- C129 is false when the cache is cleared during a load: the load ends in a missing-file error, which the loaders do not turn into the replacement data. -/
theorem C129_clear_race_refuted (pad : α) (s : St P α) (p q : P) (hp : s.pc p = .idle) (hq : s.pc q = .idle) (hpq : q ≠ p) (he : s.entry.isSome) (net : Net α) :
    (run pad s [(p, .call false), (p, .step net), (q, .clear), (p, .step net)]).pc p = .done (.error .notFound) ∧
    loader (α := α) (.error .notFound) = .raised .notFound := by
  refine ⟨?_, rfl⟩
  have h0 : act pad s p (.call false) = setPc s p (.check false) := by simp [act, hp]
  have h1 : act pad (setPc s p (.check false)) p (.step net) = setPc (setPc s p (.check false)) p .read := by simp [act, he]
  have h2 : act pad (setPc (setPc s p (.check false)) p .read) q .clear = { setPc (setPc s p (.check false)) p .read with entry := none } := by
    simp [act, setPc, hpq, hq]
  change (act pad (act pad (act pad (act pad s p (.call false)) p (.step net)) q .clear) p (.step net)).pc p = _
  rw [h0, h1, h2]
  simp [act, setPc]

/-! ### All schedules -/

/-- What a file holds, given the positions of the processes still writing it: no longer than the text; every wrong character will still be overwritten; complete or still being
written; and some writer is not past the end. -/
structure FileOk (c l : List α) (A : ℕ → Prop) : Prop where
  len : l.length ≤ c.length
  right : ∀ i x, l[i]? = some x → c[i]? = some x ∨ ∃ j, A j ∧ j ≤ i
  full : l.length = c.length ∨ ∃ j, A j
  lead : (∃ j, A j) → ∃ j, A j ∧ j ≤ l.length
  pos : ∀ j, A j → j ≤ c.length

theorem FileOk.opened (c : List α) (A : ℕ → Prop) (h : A 0) (hp : ∀ j, A j → j ≤ c.length) : FileOk c [] A :=
  ⟨Nat.zero_le _, fun i x hx => by simp at hx, .inr ⟨0, h⟩, fun _ => ⟨0, h, le_rfl⟩, hp⟩

theorem put_length (pad : α) (l : List α) (j : ℕ) (x : α) : (put pad l j x).length = max l.length (j + 1) := by
  unfold put
  split_ifs with h
  · rw [List.length_set]; omega
  · simp; omega

theorem put_get (pad : α) (l : List α) (j : ℕ) (x y : α) (i : ℕ) (h : (put pad l j x)[i]? = some y) :
    (i = j ∧ y = x) ∨ (i ≠ j ∧ l[i]? = some y) ∨ (l.length ≤ i ∧ i < j) := by
  have hl := put_length pad l j x
  have hi : i < (put pad l j x).length := (List.getElem?_eq_some_iff.1 h).1
  rw [hl] at hi
  by_cases hij : i = j
  · left
    refine ⟨hij, ?_⟩
    subst hij
    unfold put at h
    split_ifs at h with hlt
    · rw [List.getElem?_set_self hlt] at h; exact (Option.some.inj h).symm
    · rw [List.getElem?_append_right (by simp; omega)] at h
      have : i - (l ++ List.replicate (i - l.length) pad).length = 0 := by simp; omega
      rw [this] at h
      exact (Option.some.inj h).symm
  · right
    by_cases hil : i < l.length
    · left
      refine ⟨hij, ?_⟩
      unfold put at h
      split_ifs at h with hlt
      · rwa [List.getElem?_set_ne (Ne.symm hij)] at h
      · rwa [List.append_assoc, List.getElem?_append_left hil] at h
    · right; omega

theorem FileOk.wrote {c l : List α} {A A' : ℕ → Prop} (h : FileOk c l A) (pad : α) (j : ℕ) (x : α) (hx : c[j]? = some x) (hj : A j) (h1 : A' (j + 1))
    (h2 : ∀ i, i ≠ j → A i → A' i) (h3 : ∀ i, A' i → A i ∨ i = j + 1) : FileOk c (put pad l j x) A' := by
  have hjc : j < c.length := (List.getElem?_eq_some_iff.1 hx).1
  refine ⟨?_, ?_, .inr ⟨_, h1⟩, ?_, ?_⟩
  · rw [put_length]; have := h.len; omega
  · intro i y hy
    rcases put_get pad l j x y i hy with ⟨rfl, rfl⟩ | ⟨hij, hl⟩ | ⟨ha, hb⟩
    · exact .inl hx
    · rcases h.right i y hl with h' | ⟨k, hk, hki⟩
      · exact .inl h'
      · by_cases hkj : k = j
        · exact .inr ⟨j + 1, h1, by omega⟩
        · exact .inr ⟨k, h2 k hkj hk, hki⟩
    · obtain ⟨k, hk, hkl⟩ := h.lead ⟨j, hj⟩
      exact .inr ⟨k, h2 k (by omega) hk, by omega⟩
  · intro _
    obtain ⟨k, hk, hkl⟩ := h.lead ⟨j, hj⟩
    rw [put_length]
    by_cases hkj : k = j
    · exact ⟨j + 1, h1, by omega⟩
    · exact ⟨k, h2 k hkj hk, by omega⟩
  · intro i hi
    rcases h3 i hi with h' | h'
    · exact h.pos i h'
    · omega

theorem FileOk.finished {c l : List α} {A A' : ℕ → Prop} (h : FileOk c l A) (hj : A c.length) (h2 : ∀ i, i ≠ c.length → A i → A' i) (h3 : ∀ i, A' i → A i) :
    FileOk c l A' := by
  have hlen := h.len
  refine ⟨h.len, ?_, ?_, ?_, fun i hi => h.pos i (h3 i hi)⟩
  · intro i x hx
    have hi : i < l.length := (List.getElem?_eq_some_iff.1 hx).1
    rcases h.right i x hx with h' | ⟨k, hk, hki⟩
    · exact .inl h'
    · exact .inr ⟨k, h2 k (by omega) hk, hki⟩
  · obtain ⟨k, hk, hkl⟩ := h.lead ⟨_, hj⟩
    by_cases hkc : k = c.length
    · left; omega
    · exact .inr ⟨k, h2 k hkc hk⟩
  · rintro ⟨i, hi⟩
    obtain ⟨k, hk, hkl⟩ := h.lead ⟨_, hj⟩
    by_cases hkc : k = c.length
    · exact ⟨i, hi, by have := h.pos i (h3 i hi); omega⟩
    · exact ⟨k, h2 k hkc hk, hkl⟩

theorem FileOk.congr {c l : List α} {A A' : ℕ → Prop} (h : FileOk c l A) (e : ∀ i, A i ↔ A' i) : FileOk c l A' := by
  have : A = A' := funext fun i => propext (e i)
  exact this ▸ h

theorem FileOk.complete {c l : List α} {A : ℕ → Prop} (h : FileOk c l A) (hA : ∀ j, ¬ A j) : l = c := by
  have hl : l.length = c.length := h.full.resolve_right fun ⟨j, hj⟩ => hA j hj
  refine List.ext_getElem hl fun i h1 h2 => ?_
  have := (h.right i l[i] (List.getElem?_eq_getElem h1)).resolve_right fun ⟨j, hj, _⟩ => hA j hj
  rw [List.getElem?_eq_getElem h2] at this
  exact (Option.some.inj this).symm

/-- Some process is writing position `j` of file `n`. -/
def Writer (c : List α) (s : St P α) (n j : ℕ) : Prop := ∃ p, s.pc p = .writing c n j

structure Inv (c : List α) (s : St P α) : Prop where
  op : ∀ p c', s.pc p = .opening c' → c' = c
  wr : ∀ p c' n j, s.pc p = .writing c' n j → c' = c ∧ j ≤ c.length ∧ n < s.next
  en : ∀ n, s.entry = some n → n < s.next
  ok : ∀ n, n < s.next → FileOk c (s.data n) (Writer c s n)

theorem inv_start (c : List α) : Inv c (start : St P α) := by
  refine ⟨?_, ?_, ?_, ?_⟩ <;> simp [start]

def Pc.quiet : Pc α → Prop
  | .opening _ => False
  | .writing .. => False
  | _ => True

/-- A process that is not writing and moves to a place where it is not writing. -/
theorem inv_move (c : List α) (s : St P α) (p : P) (k : Pc α) (h : Inv c s) (hp : ∀ c' n j, s.pc p ≠ .writing c' n j) (hk : k.quiet ∨ k = .opening c) : Inv c (setPc s p k) := by
  have hkw : ∀ c' n j, k ≠ .writing c' n j := by
    rintro c' n j rfl
    rcases hk with hk | hk
    · exact hk
    · cases hk
  refine ⟨?_, ?_, h.en, ?_⟩
  · intro q c' hq
    by_cases hqp : q = p
    · rw [hqp, setPc_self] at hq
      rcases hk with hk | hk
      · rw [hq] at hk; exact hk.elim
      · rw [hk] at hq; cases hq; rfl
    · rw [setPc_ne _ _ _ _ hqp] at hq; exact h.op q c' hq
  · intro q c' n j hq
    by_cases hqp : q = p
    · rw [hqp, setPc_self] at hq; exact absurd hq (hkw _ _ _)
    · rw [setPc_ne _ _ _ _ hqp] at hq; exact h.wr q c' n j hq
  · intro n hn
    refine (h.ok n hn).congr fun i => ⟨?_, ?_⟩
    · rintro ⟨q, hq⟩
      refine ⟨q, ?_⟩
      rw [setPc_ne _ _ _ _ (fun e => hp c n i (by rw [← e]; exact hq))]; exact hq
    · rintro ⟨q, hq⟩
      by_cases hqp : q = p
      · rw [hqp, setPc_self] at hq; exact absurd hq (hkw _ _ _)
      · exact ⟨q, by rwa [setPc_ne _ _ _ _ hqp] at hq⟩

theorem inv_clear (c : List α) (s : St P α) (h : Inv c s) : Inv c { s with entry := none } :=
  ⟨h.op, h.wr, fun n hn => absurd hn (by simp), h.ok⟩

/-- A file is opened: it is emptied (or created) and the process writes from position 0. -/
theorem inv_open (c : List α) (s : St P α) (p : P) (h : Inv c s) (hp : s.pc p = .opening c) (n : ℕ) (e : Option ℕ) (nx : ℕ) (he : e = some n) (hn : n < nx)
    (hnx : ∀ k, k < nx ↔ k < s.next ∨ k = n) :
    Inv c (setPc { s with entry := e, data := Function.update s.data n [], next := nx } p (.writing c n 0)) := by
  refine ⟨?_, ?_, ?_, ?_⟩
  · intro q c' hq
    by_cases hqp : q = p
    · rw [hqp, setPc_self] at hq; cases hq
    · rw [setPc_ne _ _ _ _ hqp] at hq; exact h.op q c' hq
  · intro q c' k j hq
    by_cases hqp : q = p
    · rw [hqp, setPc_self] at hq
      cases hq
      exact ⟨rfl, Nat.zero_le _, hn⟩
    · rw [setPc_ne _ _ _ _ hqp] at hq
      obtain ⟨a, b, d⟩ := h.wr q c' k j hq
      exact ⟨a, b, (hnx k).2 (.inl d)⟩
  · intro k hk
    simp only [setPc_entry, he, Option.some.injEq] at hk
    exact hk ▸ hn
  · intro k hk
    by_cases hkn : k = n
    · subst hkn
      simp only [setPc_data, Function.update_self]
      refine FileOk.opened c _ ⟨p, setPc_self _ _ _⟩ ?_
      rintro j ⟨q, hq⟩
      by_cases hqp : q = p
      · rw [hqp, setPc_self] at hq; cases hq; exact Nat.zero_le _
      · rw [setPc_ne _ _ _ _ hqp] at hq; exact (h.wr q c k j hq).2.1
    · simp only [setPc_data, Function.update_of_ne hkn]
      have hk' : k < s.next := ((hnx k).1 hk).resolve_right hkn
      refine (h.ok k hk').congr fun i => ⟨?_, ?_⟩
      · rintro ⟨q, hq⟩
        refine ⟨q, ?_⟩
        rw [setPc_ne _ _ _ _ (fun e => by rw [e, hp] at hq; cases hq)]; exact hq
      · rintro ⟨q, hq⟩
        by_cases hqp : q = p
        · rw [hqp, setPc_self] at hq; cases hq; exact absurd rfl hkn
        · exact ⟨q, by rwa [setPc_ne _ _ _ _ hqp] at hq⟩

theorem inv_write (pad : α) (c : List α) (s : St P α) (p : P) (h : Inv c s) (n j : ℕ) (x : α) (hp : s.pc p = .writing c n j) (hx : c[j]? = some x) :
    Inv c (setPc { s with data := Function.update s.data n (put pad (s.data n) j x) } p (.writing c n (j + 1))) := by
  have hjc : j < c.length := (List.getElem?_eq_some_iff.1 hx).1
  refine ⟨?_, ?_, h.en, ?_⟩
  · intro q c' hq
    by_cases hqp : q = p
    · rw [hqp, setPc_self] at hq; cases hq
    · rw [setPc_ne _ _ _ _ hqp] at hq; exact h.op q c' hq
  · intro q c' k i hq
    by_cases hqp : q = p
    · rw [hqp, setPc_self] at hq
      cases hq
      exact ⟨rfl, hjc, (h.wr p c n j hp).2.2⟩
    · rw [setPc_ne _ _ _ _ hqp] at hq; exact h.wr q c' k i hq
  · intro k hk
    by_cases hkn : k = n
    · subst hkn
      simp only [setPc_data, Function.update_self]
      refine (h.ok k hk).wrote pad j x hx ⟨p, hp⟩ ⟨p, setPc_self _ _ _⟩ ?_ ?_
      · rintro i hij ⟨q, hq⟩
        refine ⟨q, ?_⟩
        rw [setPc_ne _ _ _ _ (fun e => by rw [e, hp] at hq; cases hq; exact hij rfl)]; exact hq
      · rintro i ⟨q, hq⟩
        by_cases hqp : q = p
        · rw [hqp, setPc_self] at hq; cases hq; exact .inr rfl
        · exact .inl ⟨q, by rwa [setPc_ne _ _ _ _ hqp] at hq⟩
    · simp only [setPc_data, Function.update_of_ne hkn]
      refine (h.ok k hk).congr fun i => ⟨?_, ?_⟩
      · rintro ⟨q, hq⟩
        refine ⟨q, ?_⟩
        rw [setPc_ne _ _ _ _ (fun e => by rw [e, hp] at hq; cases hq; exact hkn rfl)]; exact hq
      · rintro ⟨q, hq⟩
        by_cases hqp : q = p
        · rw [hqp, setPc_self] at hq; cases hq; exact absurd rfl hkn
        · exact ⟨q, by rwa [setPc_ne _ _ _ _ hqp] at hq⟩

theorem inv_finish (c : List α) (s : St P α) (p : P) (h : Inv c s) (n j : ℕ) (hp : s.pc p = .writing c n j) (hx : c[j]? = none) : Inv c (setPc s p (.done (.ok c))) := by
  have hj : j = c.length := le_antisymm (h.wr p c n j hp).2.1 (List.getElem?_eq_none_iff.1 hx)
  subst hj
  refine ⟨?_, ?_, h.en, ?_⟩
  · intro q c' hq
    by_cases hqp : q = p
    · rw [hqp, setPc_self] at hq; cases hq
    · rw [setPc_ne _ _ _ _ hqp] at hq; exact h.op q c' hq
  · intro q c' k i hq
    by_cases hqp : q = p
    · rw [hqp, setPc_self] at hq; cases hq
    · rw [setPc_ne _ _ _ _ hqp] at hq; exact h.wr q c' k i hq
  · intro k hk
    have hback : ∀ i, Writer c (setPc s p (.done (.ok c))) k i → Writer c s k i := by
      rintro i ⟨q, hq⟩
      by_cases hqp : q = p
      · rw [hqp, setPc_self] at hq; cases hq
      · exact ⟨q, by rwa [setPc_ne _ _ _ _ hqp] at hq⟩
    by_cases hkn : k = n
    · subst hkn
      refine (h.ok k hk).finished ⟨p, hp⟩ ?_ hback
      rintro i hi ⟨q, hq⟩
      refine ⟨q, ?_⟩
      rw [setPc_ne _ _ _ _ (fun e => by rw [e, hp] at hq; cases hq; exact hi rfl)]; exact hq
    · refine (h.ok k hk).congr fun i => ⟨?_, hback i⟩
      rintro ⟨q, hq⟩
      refine ⟨q, ?_⟩
      rw [setPc_ne _ _ _ _ (fun e => by rw [e, hp] at hq; cases hq; exact hkn rfl)]; exact hq

/-- The source serves one text, and no process is killed or runs out of disk. -/
def Calm (c : List α) : Act α → Prop
  | .step (.ok c') => c' = c
  | .crash => False
  | .failWrite => False
  | _ => True

theorem inv_act (pad : α) (c : List α) (s : St P α) (p : P) (a : Act α) (h : Inv c s) (ha : Calm c a) : Inv c (act pad s p a) := by
  cases a with
  | crash => exact ha.elim
  | failWrite => exact ha.elim
  | call f =>
    cases hp : s.pc p <;> simp only [act, hp] <;>
      first
        | exact h
        | exact inv_move c s p _ h (by intro c' n j; rw [hp]; simp) (.inl trivial)
  | clear =>
    cases hp : s.pc p <;> simp only [act, hp] <;>
      first
        | exact h
        | exact inv_clear c s h
  | step net =>
    cases hp : s.pc p with
    | idle => simpa only [act, hp] using h
    | done r => simpa only [act, hp] using h
    | crashed => simpa only [act, hp] using h
    | check f =>
      simp only [act, hp]
      refine inv_move c s p _ h (by intro c' n j; rw [hp]; simp) (.inl ?_)
      split_ifs <;> trivial
    | read =>
      simp only [act, hp]
      cases s.entry <;> exact inv_move c s p _ h (by intro c' n j; rw [hp]; simp) (.inl trivial)
    | recheck =>
      simp only [act, hp]
      refine inv_move c s p _ h (by intro c' n j; rw [hp]; simp) (.inl ?_)
      split_ifs <;> trivial
    | request =>
      simp only [act, hp]
      cases net with
      | ok c' =>
        have : c' = c := ha
        subst this
        exact inv_move c' s p _ h (by intro c' n j; rw [hp]; simp) (.inr rfl)
      | down => exact inv_move c s p _ h (by intro c' n j; rw [hp]; simp) (.inl trivial)
      | other => exact inv_move c s p _ h (by intro c' n j; rw [hp]; simp) (.inl trivial)
    | opening c' =>
      have hc := h.op p c' hp
      subst hc
      simp only [act, hp]
      cases hen : s.entry with
      | none => exact inv_open c' s p h hp s.next _ (s.next + 1) rfl (Nat.lt_succ_self _) (fun k => by omega)
      | some n =>
        have hn := h.en n hen
        have := inv_open c' s p h hp n s.entry s.next hen hn (fun k => ⟨.inl, fun hk => hk.elim id (fun e => e ▸ hn)⟩)
        rw [hen] at this
        exact this
    | writing c' n j =>
      obtain ⟨hc, hj, hn⟩ := h.wr p c' n j hp
      subst hc
      simp only [act, hp]
      cases hx : c'[j]? with
      | none => exact inv_finish c' s p h n j hp hx
      | some x => exact inv_write pad c' s p h n j x hp hx

theorem inv_run (pad : α) (c : List α) (l : List (P × Act α)) (s : St P α) (h : Inv c s) (hl : ∀ a ∈ l, Calm c a.2) : Inv c (run pad s l) := by
  induction l generalizing s with
  | nil => exact h
  | cons a l ih => exact ih _ (inv_act pad c s a.1 a.2 h (hl a List.mem_cons_self)) fun b hb => hl b (List.mem_cons_of_mem _ hb)

/-- C129. Any number of processes load, force and clear in any interleaving, the source serving one text and no process being killed: whenever no process is in the middle of
writing, the cache is absent or holds exactly the served text. -/
theorem C129_concurrent (pad : α) (c : List α) (l : List (P × Act α)) (hl : ∀ a ∈ l, Calm c a.2) (hq : ∀ p c' n j, (run pad start l).pc p ≠ .writing c' n j) :
    cached (run pad (start : St P α) l) = none ∨ cached (run pad (start : St P α) l) = some c := by
  have h := inv_run pad c l start (inv_start c) hl
  cases he : (run pad (start : St P α) l).entry with
  | none => left; simp [cached, he]
  | some n =>
    right
    have := (h.ok n (h.en n he)).complete (fun j ⟨p, hp⟩ => hq p c n j hp)
    simp [cached, he, this]

/-- C129. In the same setting a load that starts when no process is writing and is then left alone returns the served text, or fails without data. -/
theorem C129_concurrent_load (pad : α) (c : List α) (l : List (P × Act α)) (hl : ∀ a ∈ l, Calm c a.2) (hq : ∀ p c' n j, (run pad start l).pc p ≠ .writing c' n j) (p : P)
    (hp : (run pad start l).pc p = .idle ∨ ∃ r, (run pad start l).pc p = .done r) (f : Bool) (net : Net α) (hn : ∀ c', net = .ok c' → c' = c) (m : ℕ) (hm : budget net ≤ m) (r : List α)
    (hr : (run pad start (l ++ ((p, .call f) :: steps p net m))).pc p = .done (.ok r)) : r = c := by
  rw [run_append] at hr
  obtain ⟨h1, -, -⟩ := C129_refines pad (run pad start l) p f net hp m hm
  rw [h1] at hr
  have h2 : (download (cached (run pad start l)) f net).2 = .ok r := by injection hr
  rcases (download_served _ f net).1 r h2 with h3 | h3
  · rcases C129_concurrent pad c l hl hq with h4 | h4
    · rw [h4] at h3; cases h3
    · rw [h4] at h3; exact (Option.some.inj h3).symm
  · exact hn r h3

/-! ### Examples -/

/-- Two processes force a download of the same text, their writes interleaving; when both have ended the cache holds the text. -/
example : cached (run 'x' (start : St (Fin 2) Char) ([(0, .call true), (1, .call true)] ++ steps 0 (.ok "abc".toList) 5 ++ steps 1 (.ok "abc".toList) 4 ++
    steps 0 (.ok "abc".toList) 3 ++ steps 1 (.ok "abc".toList) 3)) = some "abc".toList := by decide +kernel

/-- In the middle of that schedule the file holds a padded text. -/
example : cached (run 'x' (start : St (Fin 2) Char) ([(0, .call true), (1, .call true)] ++ steps 0 (.ok "abc".toList) 5 ++ steps 1 (.ok "abc".toList) 3 ++
    steps 0 (.ok "abc".toList) 1)) = some "xxc".toList := by decide +kernel

/-- A process dies after one character; the next load returns that one character as the dataset. -/
example : (run 'x' (start : St (Fin 2) Char) (((0, .call false) :: steps 0 (.ok "abc".toList) 4) ++ [(0, .crash)] ++
    ((1, .call false) :: steps 1 (.ok "abc".toList) 7))).pc 1 = .done (.ok "a".toList) := rfl

end DiffDiff.DatasetCache
