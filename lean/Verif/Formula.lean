/-
Model of the formula parser of DifferenceInDifferences.
  /repo/diff_diff/estimators.py 440-531 (_parse_formula)
Strings are lists of characters. The set of characters removed by `str.strip()` (Unicode whitespace)
is a parameter `ws`; the only assumption used by theorems is that it does not contain ~ * + :
-/
import Verif.Prelude

namespace DiffDiff.Formula

abbrev Str := List Char

/-- `s.split(sep)` for a one-character separator: always at least one piece. -/
def split (sep : Char) : Str → List Str
  | [] => [[]]
  | c :: s =>
    if c = sep then [] :: split sep s
    else match split sep s with
      | [] => [[c]]
      | p :: ps => (c :: p) :: ps

/-- `s.strip()`. -/
def strip (ws : Char → Bool) (s : Str) : Str := ((s.dropWhile ws).reverse.dropWhile ws).reverse

inductive Err
  | noTilde | unpack | manyInteractions | noInteraction
  | missingColumn (c : Str) | missingCovariate (c : Str)
  deriving DecidableEq, Repr

structure Parsed where
  outcome : Str
  treatment : Str
  time : Str
  covariates : Option (List Str)
  deriving DecidableEq, Repr

/-- The "*" branch (estimators.py 474-490). -/
def parseStar (ws : Char → Bool) (rhs : Str) : Except Err (Str × Str × Option (List Str)) :=
  match split '*' rhs with
  | [p0, p1] =>
    let treatment := strip ws p0
    let time := strip ws p1
    if '+' ∈ time then
      match split '+' time with
      | [] => .error .unpack -- unreachable: split returns at least one piece
      | t0 :: rest => .ok (treatment, strip ws t0, some (rest.map (strip ws)))
    else .ok (treatment, time, none)
  | _ => .error .manyInteractions

/-- The loop over terms (estimators.py 499-503): last term with ':' wins. -/
def scanTerms (terms : List Str) : Option Str × List Str :=
  terms.foldl (fun s t => if ':' ∈ t then (some t, s.2) else (s.1, s.2 ++ [t])) (none, [])

/-- The ":" branch (estimators.py 492-515). -/
def parseColon (ws : Char → Bool) (rhs : Str) : Except Err (Str × Str × Option (List Str)) :=
  let terms := (split '+' rhs).map (strip ws)
  match scanTerms terms with
  | (none, _) => .error .noInteraction
  | (some inter, main) =>
    match (split ':' inter).map (strip ws) with
    | [a, b] =>
      let covs := main.filter (fun t => decide (t ≠ a) && decide (t ≠ b))
      .ok (a, b, if covs = [] then none else some covs)
    | _ => .error .unpack -- "too many values to unpack" is a ValueError

/-- First element of `l` that is not a column. -/
def firstMissing (cols : List Str) (l : List Str) : Option Str := l.find? (fun c => decide (c ∉ cols))

/-- `_parse_formula` (estimators.py 462-531). `cols` are the columns of the data frame. -/
def parse (ws : Char → Bool) (cols : List Str) (formula : Str) : Except Err Parsed :=
  if '~' ∉ formula then .error .noTilde
  else match split '~' formula with
    | [lhs, rhs0] =>
      let outcome := strip ws lhs
      let rhs := strip ws rhs0
      let r :=
        if '*' ∈ rhs then parseStar ws rhs
        else if ':' ∈ rhs then parseColon ws rhs
        else .error .noInteraction
      match r with
      | .error e => .error e
      | .ok (tr, ti, covs) =>
        match firstMissing cols [outcome, tr, ti] with
        | some c => .error (.missingColumn c)
        | none =>
          match firstMissing cols (covs.getD []) with
          | some c => .error (.missingCovariate c)
          | none => .ok ⟨outcome, tr, ti, covs⟩
    | _ => .error .unpack

/-! ### Specification: how a formula is written -/

/-- Operator characters. -/
def Special (c : Char) : Prop := c = '~' ∨ c = '*' ∨ c = '+' ∨ c = ':'

/-- A variable name: non-empty, no operator characters, no surrounding whitespace. -/
structure Name (ws : Char → Bool) (n : Str) : Prop where
  ne : n ≠ []
  first : ∀ c ∈ n.head?, ws c = false
  last : ∀ c ∈ n.getLast?, ws c = false
  plain : ∀ c ∈ n, ¬ Special c

/-- `p` is the name `n` with whitespace around it. -/
def Padded (ws : Char → Bool) (n p : Str) : Prop :=
  ∃ l r : Str, (∀ c ∈ l, ws c = true) ∧ (∀ c ∈ r, ws c = true) ∧ p = l ++ n ++ r

/-- Terms joined by '+'. -/
def joinPlus : List Str → Str
  | [] => []
  | [t] => t
  | t :: ts => t ++ '+' :: joinPlus ts

end DiffDiff.Formula
