/-
Property C21: formula parsing.
-/
import Verif.Formula

set_option linter.unusedSectionVars false

namespace DiffDiff.Formula

theorem split_ne (sep : Char) (s : Str) : split sep s ≠ [] := by
  cases s with
  | nil => simp [split]
  | cons c s =>
    simp only [split]
    split_ifs
    · simp
    · split <;> simp

theorem split_none (sep : Char) (s : Str) (h : sep ∉ s) : split sep s = [s] := by
  induction s with
  | nil => rfl
  | cons c s ih =>
    rw [List.mem_cons, not_or] at h
    simp only [split, if_neg (Ne.symm h.1), ih h.2]

theorem split_append (sep : Char) (a b : Str) (h : sep ∉ a) :
    split sep (a ++ sep :: b) = a :: split sep b := by
  induction a with
  | nil => simp [split]
  | cons c a ih =>
    rw [List.mem_cons, not_or] at h
    simp only [List.cons_append, split, if_neg (Ne.symm h.1), ih h.2]

theorem split_joinPlus (ts : List Str) (hne : ts ≠ []) (h : ∀ t ∈ ts, '+' ∉ t) :
    split '+' (joinPlus ts) = ts := by
  induction ts with
  | nil => exact absurd rfl hne
  | cons t r ih =>
    cases r with
    | nil => exact split_none _ _ (h t (by simp))
    | cons t' r' =>
      rw [joinPlus, split_append _ _ _ (h t (by simp)), ih (by simp) (fun x hx => h x (by simp [hx]))]
      simp

theorem mem_joinPlus (c : Char) (ts : List Str) : c ∈ joinPlus ts →
    c = '+' ∨ ∃ t ∈ ts, c ∈ t := by
  induction ts with
  | nil => intro h; exact absurd h (by simp [joinPlus])
  | cons t r ih =>
    cases r with
    | nil => intro h; exact Or.inr ⟨t, by simp, h⟩
    | cons t' r' =>
      intro h
      rw [joinPlus, List.mem_append, List.mem_cons] at h
      rcases h with h | h | h
      · exact Or.inr ⟨t, by simp, h⟩
      · exact Or.inl h
      · rcases ih h with h | ⟨x, hx, hc⟩
        · exact Or.inl h
        · exact Or.inr ⟨x, by simp [hx], hc⟩
      · simp

variable {ws : Char → Bool}

theorem dropWhile_all (l s : Str) (h : ∀ c ∈ l, ws c = true) : (l ++ s).dropWhile ws = s.dropWhile ws := by
  induction l with
  | nil => rfl
  | cons c l ih =>
    rw [List.cons_append, List.dropWhile_cons, if_pos (h c (by simp))]
    exact ih (fun x hx => h x (by simp [hx]))

theorem dropWhile_first (s : Str) (h : ∀ c ∈ s.head?, ws c = false) : s.dropWhile ws = s := by
  cases s with
  | nil => rfl
  | cons c s => rw [List.dropWhile_cons, if_neg (by simp [h c (by simp)])]

/-- Whitespace around a block without surrounding whitespace is removed, and nothing else. -/
theorem strip_block (n l r : Str) (hne : n ≠ []) (h1 : ∀ c ∈ n.head?, ws c = false)
    (h2 : ∀ c ∈ n.getLast?, ws c = false) (hl : ∀ c ∈ l, ws c = true) (hr : ∀ c ∈ r, ws c = true) :
    strip ws (l ++ n ++ r) = n := by
  unfold strip
  rw [List.append_assoc, dropWhile_all _ _ hl, dropWhile_first (n ++ r), List.reverse_append,
    dropWhile_all _ _ (by simpa using hr), dropWhile_first, List.reverse_reverse]
  · rw [List.head?_reverse]; exact h2
  · rw [List.head?_append_of_ne_nil _ hne]; exact h1

theorem strip_padded {n p : Str} (hn : Name ws n) (hp : Padded ws n p) : strip ws p = n := by
  obtain ⟨l, r, hl, hr, rfl⟩ := hp
  exact strip_block n l r hn.ne hn.first hn.last hl hr

theorem padded_no_special (hws : ∀ c, Special c → ws c = false) {n p : Str} (hn : Name ws n)
    (hp : Padded ws n p) : ∀ c ∈ p, ¬ Special c := by
  obtain ⟨l, r, hl, hr, rfl⟩ := hp
  intro c hc hs
  rw [List.mem_append, List.mem_append] at hc
  rcases hc with (h | h) | h
  · have := hl c h; rw [hws c hs] at this; exact absurd this (by simp)
  · exact hn.plain c h hs
  · have := hr c h; rw [hws c hs] at this; exact absurd this (by simp)


theorem strip_left (l s : Str) (hl : ∀ c ∈ l, ws c = true) : strip ws (l ++ s) = strip ws s := by
  unfold strip; rw [dropWhile_all _ _ hl]

theorem strip_right (s r : Str) (hr : ∀ c ∈ r, ws c = true) : strip ws (s ++ r) = strip ws s := by
  unfold strip
  by_cases hall : ∀ c ∈ s, ws c = true
  · have h1 := dropWhile_all s r hall
    have h2 := dropWhile_all s [] hall
    have h3 := dropWhile_all r [] hr
    simp only [List.append_nil, List.dropWhile_nil] at h2 h3
    rw [h1, h2, h3]
  · have : (s ++ r).dropWhile ws = s.dropWhile ws ++ r := by
      clear hr
      induction s with
      | nil => exact absurd (by simp) hall
      | cons c s ih =>
        rw [List.cons_append, List.dropWhile_cons, List.dropWhile_cons]
        by_cases hc : ws c = true
        · rw [if_pos hc, if_pos hc]
          apply ih
          intro h; apply hall; intro x hx
          rcases List.mem_cons.1 hx with rfl | hx
          · exact hc
          · exact h x hx
        · rw [if_neg hc, if_neg hc]; rfl
    rw [this, List.reverse_append, dropWhile_all _ _ (by simpa using hr)]

theorem mem_takeWhile_ws (s : Str) : ∀ c ∈ s.takeWhile ws, ws c = true := by
  induction s with
  | nil => simp
  | cons x s ih =>
    intro c hc
    rw [List.takeWhile_cons] at hc
    split_ifs at hc with hx
    · rcases List.mem_cons.1 hc with rfl | h
      · exact hx
      · exact ih c h
    · exact absurd hc (by simp)

/-- A string is blanks, its stripped core, blanks. -/
theorem strip_decomp (s : Str) : ∃ l r, (∀ c ∈ l, ws c = true) ∧ (∀ c ∈ r, ws c = true) ∧
    s = l ++ strip ws s ++ r := by
  refine ⟨s.takeWhile ws, ((s.dropWhile ws).reverse.takeWhile ws).reverse, mem_takeWhile_ws s, ?_, ?_⟩
  · intro c hc; rw [List.mem_reverse] at hc; exact mem_takeWhile_ws _ c hc
  · unfold strip
    rw [List.append_assoc, ← List.reverse_append, List.takeWhile_append_dropWhile, List.reverse_reverse,
      List.takeWhile_append_dropWhile]

theorem mem_strip {c : Char} (hc : ws c = false) (s : Str) : c ∈ strip ws s ↔ c ∈ s := by
  obtain ⟨l, r, hl, hr, e⟩ := strip_decomp (ws := ws) s
  constructor
  · intro h; rw [e]; simp [h]
  · intro h
    rw [e] at h
    simp only [List.mem_append] at h
    rcases h with (h | h) | h
    · have := hl c h; rw [hc] at this; exact absurd this (by simp)
    · exact h
    · have := hr c h; rw [hc] at this; exact absurd this (by simp)

theorem strip_idem (s : Str) : strip ws (strip ws s) = strip ws s := by
  obtain ⟨l, r, hl, hr, e⟩ := strip_decomp (ws := ws) s
  conv_rhs => rw [e]
  rw [strip_right _ _ hr, strip_left _ _ hl]

theorem split_first (sep : Char) (s : Str) (h : sep ∈ s) : ∃ u v, sep ∉ u ∧ s = u ++ sep :: v := by
  induction s with
  | nil => exact absurd h (by simp)
  | cons c s ih =>
    by_cases hc : c = sep
    · exact ⟨[], s, by simp, by simp [hc]⟩
    · obtain ⟨u, v, hu, e⟩ := ih (by
        rcases List.mem_cons.1 h with h | h
        · exact absurd h.symm hc
        · exact h)
      exact ⟨c :: u, v, by simp [hu, Ne.symm hc], by rw [e]; rfl⟩

/-- Splitting commutes with stripping when the pieces are stripped afterwards. -/
theorem split_strip (sep : Char) (hsep : ws sep = false) (s : Str) :
    (split sep (strip ws s)).map (strip ws) = (split sep s).map (strip ws) := by
  have wsne : ∀ c, ws c = true → c ≠ sep := by
    intro c hc he; rw [he, hsep] at hc; exact absurd hc (by simp)
  have addR : ∀ (S R : Str), (∀ c ∈ R, ws c = true) →
      (split sep (S ++ R)).map (strip ws) = (split sep S).map (strip ws) := by
    intro S R hR
    have hRs : sep ∉ R := fun h => wsne _ (hR _ h) rfl
    generalize hn : S.length = n
    induction n using Nat.strong_induction_on generalizing S with
    | _ n ih =>
      by_cases hs : sep ∈ S
      · obtain ⟨u, v, hu, rfl⟩ := split_first sep S hs
        rw [List.append_assoc, List.cons_append, split_append _ _ _ hu, split_append _ _ _ hu,
          List.map_cons, List.map_cons, ih v.length (by rw [← hn]; simp; omega) v rfl]
      · rw [split_none _ _ hs, split_none _ _ (by simp [hs, hRs])]
        simp [strip_right _ _ hR]
  have addL : ∀ (L S : Str), (∀ c ∈ L, ws c = true) →
      (split sep (L ++ S)).map (strip ws) = (split sep S).map (strip ws) := by
    intro L S hL
    have hLs : sep ∉ L := fun h => wsne _ (hL _ h) rfl
    by_cases hs : sep ∈ S
    · obtain ⟨u, v, hu, rfl⟩ := split_first sep S hs
      rw [← List.append_assoc, split_append _ _ _ (by simp [hu, hLs]), split_append _ _ _ hu]
      simp [strip_left _ _ hL]
    · rw [split_none _ _ hs, split_none _ _ (by simp [hs, hLs])]
      simp [strip_left _ _ hL]
  obtain ⟨l, r, hl, hr, e⟩ := strip_decomp (ws := ws) s
  conv_rhs => rw [e]
  rw [addR _ _ hr, addL _ _ hl]

theorem map_strip_forall₂ {cs cs' : List Str} (hcs : ∀ c ∈ cs, Name ws c)
    (pcs : List.Forall₂ (Padded ws) cs cs') : cs'.map (strip ws) = cs := by
  induction pcs with
  | nil => rfl
  | cons hp _ ih =>
    rw [List.map_cons, ih (fun c hc => hcs c (by simp [hc])), strip_padded (hcs _ (by simp)) hp]

theorem forall₂_plain (hws : ∀ c, Special c → ws c = false) {cs cs' : List Str}
    (hcs : ∀ c ∈ cs, Name ws c) (pcs : List.Forall₂ (Padded ws) cs cs') :
    ∀ t ∈ cs', ∀ c ∈ t, ¬ Special c := by
  induction pcs with
  | nil => simp
  | cons hp _ ih =>
    intro t ht
    rcases List.mem_cons.1 ht with rfl | ht
    · exact padded_no_special hws (hcs _ (by simp)) hp
    · exact ih (fun c hc => hcs c (by simp [hc])) t ht

theorem firstMissing_none {cols l : List Str} : firstMissing cols l = none ↔ ∀ c ∈ l, c ∈ cols := by
  simp [firstMissing]

/-- The part of `parse` after the split at '~'. -/
theorem parse_tilde (cols : List Str) (lhs rhs0 : Str) (h1 : '~' ∉ lhs) (h2 : '~' ∉ rhs0)
    {tr ti : Str} {covs : Option (List Str)} (y : Str) (hy : strip ws lhs = y)
    (hr : (if '*' ∈ strip ws rhs0 then parseStar ws (strip ws rhs0)
        else if ':' ∈ strip ws rhs0 then parseColon ws (strip ws rhs0)
        else .error .noInteraction) = .ok (tr, ti, covs))
    (hc : ∀ c ∈ [y, tr, ti] ++ covs.getD [], c ∈ cols) :
    parse ws cols (lhs ++ '~' :: rhs0) = .ok ⟨y, tr, ti, covs⟩ := by
  have e : split '~' (lhs ++ '~' :: rhs0) = [lhs, rhs0] := by
    rw [split_append _ _ _ h1, split_none _ _ h2]
  have m1 : firstMissing cols [y, tr, ti] = none :=
    firstMissing_none.2 (fun c hc' => hc c (List.mem_append_left _ hc'))
  have m2 : firstMissing cols (covs.getD []) = none :=
    firstMissing_none.2 (fun c hc' => hc c (List.mem_append_right _ hc'))
  unfold parse
  rw [if_neg (by simp), e]
  simp only [hr, hy, m1, m2]

theorem special_of {c : Char} (h : c = '~' ∨ c = '*' ∨ c = '+' ∨ c = ':') : Special c := h

/-- C21. `y ~ a * b + c1 + ... + ck` with any spacing: outcome, treatment, time and covariates are exactly the
named variables, in order; `None` when there are no covariates. -/
theorem C21_star (hws : ∀ c, Special c → ws c = false) (cols : List Str) (y a b : Str)
    (cs : List Str) (hy : Name ws y) (ha : Name ws a) (hb : Name ws b) (hcs : ∀ c ∈ cs, Name ws c)
    (y' a' b' : Str) (cs' : List Str) (py : Padded ws y y') (pa : Padded ws a a')
    (pb : Padded ws b b') (pcs : List.Forall₂ (Padded ws) cs cs')
    (hcol : ∀ c ∈ [y, a, b] ++ cs, c ∈ cols) :
    parse ws cols (y' ++ '~' :: (a' ++ '*' :: joinPlus (b' :: cs')))
      = .ok ⟨y, a, b, if cs = [] then none else some cs⟩ := by
  have ny := padded_no_special hws hy py
  have na := padded_no_special hws ha pa
  have nb := padded_no_special hws hb pb
  have ncs := forall₂_plain hws hcs pcs
  have scs := map_strip_forall₂ hcs pcs
  have nall : ∀ t ∈ b' :: cs', ∀ c ∈ t, ¬ Special c := by
    intro t ht
    rcases List.mem_cons.1 ht with rfl | ht
    · exact nb
    · exact ncs t ht
  have nplus : ∀ t ∈ b' :: cs', '+' ∉ t := fun t ht hc => nall t ht _ hc (by simp [Special])
  have njoin : ∀ c, Special c → c ≠ '+' → c ∉ joinPlus (b' :: cs') := by
    intro c hs hne hc
    rcases mem_joinPlus c _ hc with h | ⟨t, ht, h⟩
    · exact hne h
    · exact nall t ht _ h hs
  set J := joinPlus (b' :: cs') with hJ
  have wstar := hws '*' (by simp [Special])
  have wplus := hws '+' (by simp [Special])
  have main : parseStar ws (strip ws (a' ++ '*' :: J)) = .ok (a, b, if cs = [] then none else some cs) := by
    have hs := split_strip (ws := ws) '*' wstar (a' ++ '*' :: J)
    rw [split_append _ _ _ (fun h => na _ h (by simp [Special])),
      split_none _ _ (njoin '*' (by simp [Special]) (by decide))] at hs
    obtain ⟨p0, ps, hp0⟩ := List.exists_cons_of_ne_nil (split_ne '*' (strip ws (a' ++ '*' :: J)))
    rw [hp0] at hs
    simp only [List.map_cons, List.map_nil, List.cons.injEq] at hs
    obtain ⟨h1, h2⟩ := hs
    obtain ⟨p1, rfl⟩ : ∃ p1, ps = [p1] := by
      have := congrArg List.length h2
      simp at this
      exact List.length_eq_one_iff.1 this
    simp only [List.map_cons, List.map_nil, List.cons.injEq, and_true] at h2
    unfold parseStar
    rw [hp0]
    simp only [h1, h2, strip_padded ha pa]
    cases hcs' : cs' with
    | nil =>
      have hcs0 : cs = [] := by rw [← scs, hcs']; rfl
      have hJb : J = b' := by rw [hJ, hcs']; rfl
      rw [hJb, strip_padded hb pb, if_neg (fun h => hb.plain _ h (by simp [Special])), hcs0]
      simp
    | cons c r =>
      have hcs0 : cs ≠ [] := by rw [← scs, hcs']; simp
      have hin : '+' ∈ J := by rw [hJ, hcs', joinPlus]; simp; simp
      rw [if_pos ((mem_strip wplus J).2 hin)]
      have hs := split_strip (ws := ws) '+' wplus J
      rw [hJ, split_joinPlus _ (by simp) nplus, ← hJ] at hs
      obtain ⟨t0, rest, ht⟩ := List.exists_cons_of_ne_nil (split_ne '+' (strip ws J))
      rw [ht] at hs ⊢
      simp only [List.map_cons, List.cons.injEq] at hs
      simp only [hs.1, hs.2, scs, strip_padded hb pb, if_neg hcs0]
  have hnt : '~' ∉ a' ++ '*' :: J := by
    intro h
    rw [List.mem_append, List.mem_cons] at h
    rcases h with h | h | h
    · exact na _ h (by simp [Special])
    · exact absurd h (by decide)
    · exact njoin '~' (by simp [Special]) (by decide) h
  refine parse_tilde cols y' _ (fun h => ny _ h (by simp [Special])) hnt y (strip_padded hy py) ?_ ?_
  · exact main ▸ (if_pos ((mem_strip wstar _).2 (by simp)))
  · intro c hc
    apply hcol
    by_cases h0 : cs = []
    · rw [h0] at hc ⊢; simpa using hc
    · rw [if_neg h0] at hc; exact hc

theorem scanTerms_append (m1 m2 : List Str) (i : Str) (hi : ':' ∈ i) (h1 : ∀ t ∈ m1, ':' ∉ t)
    (h2 : ∀ t ∈ m2, ':' ∉ t) : scanTerms (m1 ++ i :: m2) = (some i, m1 ++ m2) := by
  have gen : ∀ (l : List Str) (s : Option Str × List Str), (∀ t ∈ l, ':' ∉ t) →
      l.foldl (fun s t => if ':' ∈ t then (some t, s.2) else (s.1, s.2 ++ [t])) s = (s.1, s.2 ++ l) := by
    intro l
    induction l with
    | nil => intro s _; simp
    | cons t r ih =>
      intro s h
      rw [List.foldl_cons, if_neg (h t (by simp)), ih _ (fun x hx => h x (by simp [hx]))]
      simp
  unfold scanTerms
  rw [List.foldl_append, gen m1 _ h1, List.foldl_cons, if_pos hi, gen m2 _ h2]
  simp

/-- C21. Explicit form: terms in any order with exactly one interaction `a:b`, any spacing. Treatment and time are
`a` and `b`; the covariates are the remaining terms other than `a` and `b`, in order. -/
theorem C21_colon (hws : ∀ c, Special c → ws c = false) (cols : List Str) (y a b : Str)
    (m1 m2 : List Str) (hy : Name ws y) (ha : Name ws a) (hb : Name ws b)
    (hm1 : ∀ c ∈ m1, Name ws c) (hm2 : ∀ c ∈ m2, Name ws c)
    (y' a' b' : Str) (m1' m2' : List Str) (py : Padded ws y y') (pa : Padded ws a a')
    (pb : Padded ws b b') (p1 : List.Forall₂ (Padded ws) m1 m1') (p2 : List.Forall₂ (Padded ws) m2 m2')
    (hcol : ∀ c ∈ [y, a, b] ++ m1 ++ m2, c ∈ cols) :
    let covs := (m1 ++ m2).filter (fun t => decide (t ≠ a) && decide (t ≠ b))
    parse ws cols (y' ++ '~' :: joinPlus (m1' ++ (a' ++ ':' :: b') :: m2'))
      = .ok ⟨y, a, b, if covs = [] then none else some covs⟩ := by
  intro covs
  have ny := padded_no_special hws hy py
  have na := padded_no_special hws ha pa
  have nb := padded_no_special hws hb pb
  have n1 := forall₂_plain hws hm1 p1
  have n2 := forall₂_plain hws hm2 p2
  have wplus := hws '+' (by simp [Special])
  have wcol := hws ':' (by simp [Special])
  have wstar := hws '*' (by simp [Special])
  set ts := m1' ++ (a' ++ ':' :: b') :: m2' with hts
  have nall : ∀ t ∈ ts, ∀ c ∈ t, Special c → c = ':' := by
    intro t ht c hc hs
    rw [hts, List.mem_append, List.mem_cons] at ht
    rcases ht with h | rfl | h
    · exact absurd hs (n1 t h c hc)
    · rw [List.mem_append, List.mem_cons] at hc
      rcases hc with h | h | h
      · exact absurd hs (na c h)
      · exact h
      · exact absurd hs (nb c h)
    · exact absurd hs (n2 t h c hc)
  have nplus : ∀ t ∈ ts, '+' ∉ t := fun t ht hc =>
    absurd (nall t ht _ hc (by simp [Special])) (by decide)
  have njoin : ∀ c, Special c → c ≠ '+' → c ≠ ':' → c ∉ joinPlus ts := by
    intro c hs hne hne2 hc
    rcases mem_joinPlus c _ hc with h | ⟨t, ht, h⟩
    · exact hne h
    · exact hne2 (nall t ht _ h hs)
  have htsne : ts ≠ [] := by rw [hts]; simp
  have hcolin : ':' ∈ joinPlus ts := by
    have : ∀ (l : List Str) (t : Str), t ∈ l → ∀ c ∈ t, c ∈ joinPlus l := by
      intro l
      induction l with
      | nil => intro t h; exact absurd h (by simp)
      | cons x r ih =>
        intro t h c hc
        cases r with
        | nil => rw [List.mem_singleton] at h; subst h; exact hc
        | cons x' r' =>
          rw [joinPlus, List.mem_append, List.mem_cons]
          · rcases List.mem_cons.1 h with rfl | h
            · exact Or.inl hc
            · exact Or.inr (Or.inr (ih t h c hc))
          · simp
    exact this ts (a' ++ ':' :: b') (by rw [hts]; simp) ':' (by simp)
  have hterms : (split '+' (strip ws (joinPlus ts))).map (strip ws)
      = m1 ++ strip ws (a' ++ ':' :: b') :: m2 := by
    rw [split_strip '+' wplus, split_joinPlus ts htsne nplus, hts, List.map_append, List.map_cons,
      map_strip_forall₂ hm1 p1, map_strip_forall₂ hm2 p2]
  have hscan := scanTerms_append m1 m2 (strip ws (a' ++ ':' :: b'))
    ((mem_strip wcol _).2 (by simp)) (fun t ht h => (hm1 t ht).plain _ h (by simp [Special]))
    (fun t ht h => (hm2 t ht).plain _ h (by simp [Special]))
  have hint : (split ':' (strip ws (a' ++ ':' :: b'))).map (strip ws) = [a, b] := by
    rw [split_strip ':' wcol, split_append _ _ _ (fun h => na _ h (by simp [Special])),
      split_none _ _ (fun h => nb _ h (by simp [Special]))]
    simp [strip_padded ha pa, strip_padded hb pb]
  have main : parseColon ws (strip ws (joinPlus ts)) = .ok (a, b, if covs = [] then none else some covs) := by
    unfold parseColon
    simp only [hterms, hscan, hint]
    rfl
  refine parse_tilde cols y' _ (fun h => ny _ h (by simp [Special]))
    (njoin '~' (by simp [Special]) (by decide) (by decide)) y (strip_padded hy py) ?_ ?_
  · rw [if_neg (fun h => njoin '*' (by simp [Special]) (by decide) (by decide) ((mem_strip wstar _).1 h)),
      if_pos ((mem_strip wcol _).2 hcolin)]
    exact main
  · intro c hc
    apply hcol
    rw [List.mem_append] at hc
    rcases hc with hc | hc
    · rw [List.append_assoc]; exact List.mem_append_left _ hc
    · have : c ∈ covs := by
        by_cases h0 : covs = []
        · rw [if_pos h0] at hc; simp at hc
        · rw [if_neg h0] at hc; exact hc
      rw [List.append_assoc]
      exact List.mem_append_right _ (List.mem_of_mem_filter this)

/-- C21. Whatever string is passed, on success every returned name is a column of the data. -/
theorem C21_only_columns (cols : List Str) (f : Str) (r : Parsed) (h : parse ws cols f = .ok r) :
    r.outcome ∈ cols ∧ r.treatment ∈ cols ∧ r.time ∈ cols ∧ ∀ c ∈ r.covariates.getD [], c ∈ cols := by
  unfold parse at h
  split_ifs at h with h0
  revert h
  split
  · rename_i lhs rhs0 _
    intro h
    simp only at h
    split at h
    · exact absurd h (by simp)
    · rename_i tr ti covs _
      split at h
      · exact absurd h (by simp)
      · rename_i hm
        split at h
        · exact absurd h (by simp)
        · rename_i hm2
          rw [Except.ok.injEq] at h
          subst h
          have h1 := firstMissing_none.1 hm
          have h2 := firstMissing_none.1 hm2
          exact ⟨h1 _ (by simp), h1 _ (by simp), h1 _ (by simp), h2⟩
  · intro h; exact absurd h (by simp)

theorem split_length (sep : Char) (s : Str) : (split sep s).length = s.count sep + 1 := by
  induction s with
  | nil => rfl
  | cons c s ih =>
    simp only [split]
    by_cases h : c = sep
    · rw [if_pos h, List.length_cons, ih, h, List.count_cons_self]
    · rw [if_neg h, List.count_cons_of_ne h]
      obtain ⟨p, ps, hp⟩ := List.exists_cons_of_ne_nil (split_ne sep s)
      rw [hp] at ih ⊢
      simpa using ih

/-- C21. A successfully parsed formula contains exactly one `~`, and either exactly one `*` or at least one `:`. -/
theorem C21_accepted_shape (hws : ∀ c, Special c → ws c = false) (cols : List Str) (f : Str) (r : Parsed)
    (h : parse ws cols f = .ok r) :
    f.count '~' = 1 ∧ ∃ lhs rhs, f = lhs ++ '~' :: rhs ∧ (rhs.count '*' = 1 ∨ (rhs.count '*' = 0 ∧ ':' ∈ rhs)) := by
  unfold parse at h
  split_ifs at h with h0
  revert h
  split
  · rename_i lhs rhs0 hsp
    intro h
    have hl := split_length '~' f
    rw [hsp] at hl
    have hcount : f.count '~' = 1 := by simp at hl; omega
    obtain ⟨u, v, hu, e⟩ := split_first '~' f (by simpa using h0)
    have hv : '~' ∉ v := by
      intro hv
      rw [e, List.count_append, List.count_cons_self] at hcount
      have := List.count_pos_iff.2 hv
      omega
    rw [e, split_append _ _ _ hu, split_none _ _ hv, List.cons.injEq, List.cons.injEq] at hsp
    obtain ⟨rfl, rfl, _⟩ := hsp
    refine ⟨hcount, _, _, e, ?_⟩
    simp only at h
    have wstar := hws '*' (by simp [Special])
    have wcol := hws ':' (by simp [Special])
    by_cases hs : '*' ∈ strip ws v
    · left
      rw [if_pos hs] at h
      have hps : ∃ x, parseStar ws (strip ws v) = .ok x := by
        split at h
        · exact absurd h (by simp)
        · rename_i hh; exact ⟨_, hh⟩
      obtain ⟨x, hx⟩ := hps
      unfold parseStar at hx
      split at hx
      · rename_i hh
        have hl2 := congrArg List.length hh
        rw [split_length] at hl2
        have : (strip ws v).count '*' = v.count '*' := by
          obtain ⟨l, r, hl, hr, e⟩ := strip_decomp (ws := ws) v
          conv_rhs => rw [e]
          rw [List.count_append, List.count_append, List.count_eq_zero_of_not_mem (l := l),
            List.count_eq_zero_of_not_mem (l := r)]
          · simp
          · intro h; have := hr _ h; rw [wstar] at this; exact absurd this (by simp)
          · intro h; have := hl _ h; rw [wstar] at this; exact absurd this (by simp)
        rw [this] at hl2
        simpa using hl2
      · exact absurd hx (by simp)
    · right
      rw [if_neg hs] at h
      refine ⟨List.count_eq_zero_of_not_mem (fun hh => hs ((mem_strip wstar v).2 hh)), ?_⟩
      by_contra hc
      rw [if_neg (fun hh => hc ((mem_strip wcol v).1 hh))] at h
      exact absurd h (by simp)
  · intro h; exact absurd h (by simp)

/-- Blanks used in the concrete cases. -/
def blank (c : Char) : Bool := c = ' ' || c = '\t' || c = '\n'

/-- C21 is not fully true: a formula with two interaction terms is accepted, the first interaction is silently
discarded and the last one is used. -/
theorem C21_two_interactions_refuted :
    parse blank ["y".toList, "a".toList, "b".toList, "c".toList, "d".toList]
      "y ~ a + b + a:b + c:d".toList
      = .ok ⟨"y".toList, "c".toList, "d".toList, some ["a".toList, "b".toList]⟩ := by decide +kernel

/-- C21 is not fully true: a covariate before the product is taken as part of the treatment name; with a column of
that name it is used as the treatment. -/
theorem C21_covariate_first_refuted :
    parse blank ["y".toList, "x".toList, "a".toList, "b".toList] "y ~ x + a * b".toList
      = .error (.missingColumn "x + a".toList) ∧
    parse blank ["y".toList, "x".toList, "a".toList, "b".toList, "x + a".toList] "y ~ x + a * b".toList
      = .ok ⟨"y".toList, "x + a".toList, "b".toList, none⟩ := by
  constructor <;> decide +kernel

example : parse blank ["y".toList, "treated".toList, "post".toList, "age".toList]
    "y ~ treated * post + age".toList
    = .ok ⟨"y".toList, "treated".toList, "post".toList, some ["age".toList]⟩ := by decide +kernel
example : parse blank ["y".toList, "treated".toList, "post".toList, "age".toList]
    "y~treated +post+ age+ treated:post".toList
    = .ok ⟨"y".toList, "treated".toList, "post".toList, some ["age".toList]⟩ := by decide +kernel
example : Name blank "post".toList ∧ Padded blank "post".toList " post\t".toList ∧
    (∀ c, Special c → blank c = false) := by
  refine ⟨⟨by decide, by decide, by decide, by unfold Special; decide⟩,
    ⟨[' '], ['\t'], by decide, by decide, by decide⟩, ?_⟩
  rintro c (rfl | rfl | rfl | rfl) <;> decide

end DiffDiff.Formula
