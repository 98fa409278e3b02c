/-
Property C58 (backend selection).
-/
import Verif.Backend

namespace DiffDiff.Backend

/-- Specification: two settings differ only in letter case. -/
def SameFold (a b : String) : Prop :=
  a.toList.length = b.toList.length ∧ ∀ i (h : i < a.toList.length) (h' : i < b.toList.length),
    a.toList[i] = b.toList[i] ∨ (a.toList[i].isUpper ∧ b.toList[i] = a.toList[i].toLower)

theorem toLower_of_not_upper (c : Char) (h : c.isUpper = false) : c.toLower = c := by
  unfold Char.toLower
  rw [dif_neg]
  rintro hc
  have : c.isUpper = true := by simpa [Char.isUpper] using hc
  rw [h] at this
  exact Bool.false_ne_true this

theorem sameFold_iff (a b : String) (hb : ∀ c ∈ b.toList, c.isUpper = false) : SameFold a b ↔ a.toList.map Char.toLower = b.toList := by
  unfold SameFold
  constructor
  · rintro ⟨hl, h⟩
    apply List.ext_getElem (by simpa using hl)
    intro i h1 h2
    rw [List.getElem_map]
    have h1' : i < a.toList.length := by simpa using h1
    rcases h i h1' h2 with e | ⟨-, e⟩
    · rw [e]; exact toLower_of_not_upper _ (hb _ (List.getElem_mem h2))
    · exact e.symm
  · intro h
    have hl : a.toList.length = b.toList.length := by rw [← h]; simp
    refine ⟨hl, ?_⟩
    intro i h1 h2
    have he : b.toList[i] = (a.toList[i]).toLower := by
      simp only [← h, List.getElem_map]
    by_cases hu : (a.toList[i]).isUpper = true
    · exact Or.inr ⟨hu, he⟩
    · left
      rw [he, toLower_of_not_upper _ (by simpa using hu)]

theorem python_lower : ∀ c ∈ "python".toList, c.isUpper = false := by decide
theorem rust_lower : ∀ c ∈ "rust".toList, c.isUpper = false := by decide

/-- Specification: the compiled extension can be imported with all its functions. -/
def Usable (x : Extension) : Prop := ∃ d, x = some d ∧ ∀ s, d s = true

theorem available_iff (x : Extension) : available x = true ↔ Usable x := by
  unfold available Usable
  cases x with
  | none => simp
  | some d =>
    simp only [List.all_eq_true, Option.some.injEq, exists_eq_left']
    constructor
    · intro h s; exact h s (by cases s <;> decide)
    · intro h s _; exact h s

/-- C58. `python` in any letter case always loads with the compiled backend off, whatever is installed, and every routine
runs its Python version. -/
theorem C58_python (v : String) (x : Extension) (h : SameFold v "python") :
    ∃ s, load (some v) x = some s ∧ s.has = false ∧ ∀ {A : Type} (f : Sym) (a b : A), dispatch s f a b = b := by
  have hv : setting (some v) = "python".toList := (sameFold_iff v _ python_lower).1 h
  refine ⟨⟨false, fun _ => false⟩, ?_, rfl, ?_⟩
  · simp [load, hv]
  · intro A f a b; simp [dispatch]

/-- C58. `rust` in any letter case fails at import exactly when the extension is not usable; otherwise the flag is on and
every routine runs its compiled version. -/
theorem C58_rust (v : String) (x : Extension) (h : SameFold v "rust") :
    (load (some v) x = none ↔ ¬ Usable x) ∧
    ∀ s, load (some v) x = some s → s.has = true ∧ ∀ {A : Type} (f : Sym) (a b : A), dispatch s f a b = a := by
  have hv : setting (some v) = "rust".toList := (sameFold_iff v _ rust_lower).1 h
  have hne : "rust".toList ≠ "python".toList := by decide
  rw [← available_iff]
  unfold load
  simp only [hv, hne, if_false, if_true]
  cases available x with
  | false => simp
  | true => simp [dispatch]

/-- C58. Any other value, or no variable at all, loads with the flag on exactly when the extension is usable; it never fails. -/
theorem C58_auto (env : Option String) (x : Extension)
    (h : ∀ v, env = some v → ¬ SameFold v "python" ∧ ¬ SameFold v "rust") :
    ∃ s, load env x = some s ∧ (s.has = true ↔ Usable x) ∧
      ∀ {A : Type} (f : Sym) (a b : A), (Usable x → dispatch s f a b = a) ∧ (¬ Usable x → dispatch s f a b = b) := by
  have h1 : setting env ≠ "python".toList := by
    cases env with
    | none => decide
    | some v => exact fun hc => (h v rfl).1 ((sameFold_iff v _ python_lower).2 hc)
  have h2 : setting env ≠ "rust".toList := by
    cases env with
    | none => decide
    | some v => exact fun hc => (h v rfl).2 ((sameFold_iff v _ rust_lower).2 hc)
  refine ⟨⟨available x, fun _ => available x⟩, by
    simp only [load, if_neg h1, if_neg h2], available_iff x, ?_⟩
  intro A f a b
  rw [← available_iff]
  cases available x <;> simp [dispatch]

/-- C58. Flag and functions agree after every successful import: either all ten functions are present and the flag is on, or
none is used. There is no half-loaded state. -/
theorem C58_all_or_nothing (env : Option String) (x : Extension) (s : State) (h : load env x = some s) :
    (s.has = true ∧ ∀ f, s.fn f = true) ∨ (s.has = false ∧ ∀ f, s.fn f = false) := by
  unfold load at h
  simp only at h
  split_ifs at h with h1 h2 h3
  · cases h; exact Or.inr ⟨rfl, fun _ => rfl⟩
  · cases h; left; exact ⟨rfl, fun _ => by simpa using h3⟩
  · cases h
    cases hx : available x
    · exact Or.inr ⟨rfl, fun _ => rfl⟩
    · exact Or.inl ⟨rfl, fun _ => rfl⟩

/-! ### Concrete cases -/

example : SameFold "PyThon" "python" ∧ SameFold "RUST" "rust" ∧ ¬ SameFold "pythonx" "python" ∧ ¬ SameFold "auto" "rust" := by
  rw [sameFold_iff _ _ python_lower, sameFold_iff _ _ rust_lower, sameFold_iff _ _ python_lower, sameFold_iff _ _ rust_lower]
  decide

/-- An extension built before the newer routines were added is not usable at all. -/
example : ¬ Usable (some (fun s => decide (s ≠ .loocvJoint))) ∧ Usable (some (fun _ => true)) ∧ ¬ Usable none := by
  refine ⟨?_, ⟨_, rfl, fun _ => rfl⟩, ?_⟩
  · rintro ⟨d, hd, h⟩
    cases hd
    exact absurd (h .loocvJoint) (by decide)
  · rintro ⟨d, hd, -⟩; cases hd

example : (load (some "Rust") (some (fun s => decide (s ≠ .loocvJoint)))).isNone = true ∧
    (load (some "whatever") none).isSome = true ∧ (load none (some fun _ => true)).isSome = true := by
  decide +kernel

end DiffDiff.Backend
