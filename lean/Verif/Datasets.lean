/-
Model of the dataset loaders: the columns they derive and the replacement data they construct when offline.
  /repo/diff_diff/datasets.py 130-152 (load_card_krueger), 155-215 (_construct_card_krueger_data), 274-299 (load_castle_doctrine),
  302-359 (_construct_castle_doctrine_data), 421-448 (load_divorce_laws), 451-525 (_construct_divorce_laws_data), 580-595 (load_mpdta),
  598-644 (_construct_mpdta_data), 662-667 (list_datasets), 697-708 (load_dataset)
Only the columns the loaders read or write are kept, each with its type; an absent column is `none`. Renames that collide with an existing column of the new name
(pandas then keeps two columns of that name) are left out. Random numbers come from an arbitrary generator; `round` is an arbitrary function.
-/
import Mathlib.Algebra.Order.Field.Basic
import Mathlib.Data.Finset.Max
import Mathlib.Data.List.Basic
import Mathlib.Algebra.BigOperators.Group.Finset.Basic

namespace DiffDiff.Datasets

variable {K : Type*} [Field K] [LinearOrder K]

/-! ### Derived columns -/

/-- 0/1 as a number. -/
def ind (b : Bool) : K := if b then 1 else 0

/-- `((first_treat > 0) & (year >= first_treat)).astype(int)` (datasets.py 297, 446, 524). -/
def inEffect (ft year : ℤ) : K := ind (decide (0 < ft) && decide (ft ≤ year))

/-- The columns of a downloaded Card-Krueger file that the loader looks at. -/
structure CkIn (K : Type*) where
  n : ℕ
  state : Option (ℕ → String)
  nj : Option (ℕ → Option K)
  treated : Option (ℕ → Option K)
  empPre : Option (ℕ → Option K)
  empPost : Option (ℕ → Option K)
  empChange : Option (ℕ → Option K)

/-- The derived columns. -/
structure CkOut (K : Type*) where
  state : Option (ℕ → String)
  treated : ℕ → Option K
  empChange : Option (ℕ → Option K)

/-- `np.where(df["nj"] == 1, "NJ", "PA")` when there is no state (datasets.py 143-144). -/
def ckState (x : CkIn K) : Option (ℕ → String) :=
  match x.state with
  | some s => some s
  | none => x.nj.map (fun nj i => if nj i = some 1 then "NJ" else "PA")

/-- load_card_krueger after parsing (datasets.py 138-152); `none`: KeyError, there is neither a treated nor a state nor an nj column. -/
def loadCk (x : CkIn K) : Option (CkOut K) :=
  let t : Option (ℕ → Option K) :=
    match x.treated with
    | some t => some t
    | none => (ckState x).map (fun s i => some (ind (s i == "NJ")))
  t.map (fun t =>
    { state := ckState x
      treated := t
      empChange :=
        match x.empChange, x.empPost, x.empPre with
        | some c, _, _ => some c
        | none, some b, some a => some (fun i => (b i).bind (fun b => (a i).map (fun a => b - a)))
        | none, _, _ => none })

/-- The columns of a downloaded Castle Doctrine file that the loader looks at. -/
structure CastleIn (K : Type*) where
  n : ℕ
  year : ℕ → ℤ
  cdl : Option (ℕ → Option K)
  treated : Option (ℕ → Option K)
  effyear : Option (ℕ → Option ℤ)
  firstTreat : Option (ℕ → ℤ)
  cohort : Option (ℕ → ℤ)

/-- The derived columns of a panel. -/
structure PanelOut (K : Type*) where
  firstTreat : Option (ℕ → ℤ)
  cohort : Option (ℕ → ℤ)
  treated : Option (ℕ → Option K)

/-- `first_treat` from `effyear`, missing years as 0 (datasets.py 289-290). -/
def castleFirst (x : CastleIn K) : Option (ℕ → ℤ) :=
  match x.firstTreat with
  | some f => some f
  | none => x.effyear.map (fun e i => (e i).getD 0)

/-- load_castle_doctrine after parsing (datasets.py 281-299): `cdl` is renamed to `treated`. -/
def loadCastle (x : CastleIn K) : PanelOut K :=
  let ft := castleFirst x
  { firstTreat := ft
    cohort := match x.cohort with
      | some c => some c
      | none => ft
    treated := match x.cdl, x.treated with
      | some c, _ => some c
      | none, some t => some t
      | none, none => ft.map (fun f i => some (inEffect (f i) (x.year i))) }

/-- The columns of a downloaded divorce file that the loader looks at. -/
structure DivorceIn (K : Type*) where
  n : ℕ
  state : ℕ → String
  year : ℕ → ℤ
  unilateral : Option (ℕ → Option K)
  firstTreat : Option (ℕ → ℤ)
  cohort : Option (ℕ → ℤ)
  treated : Option (ℕ → Option K)

/-- The years of a state with the indicator equal to 1 (datasets.py 435). -/
def onYears (x : DivorceIn K) (u : ℕ → Option K) (s : String) : Finset ℤ :=
  ((Finset.range x.n).filter (fun j => x.state j = s ∧ u j = some 1)).image x.year

/-- The lambda of lines 434-436, mapped to rows, missing as 0 (line 437): sum of the indicator (missing skipped) positive, then the smallest such year. -/
def divorceFirst (x : DivorceIn K) (u : ℕ → Option K) (i : ℕ) : ℤ :=
  if 0 < ∑ j ∈ (Finset.range x.n).filter (fun j => x.state j = x.state i), (u j).getD 0 then
    if h : (onYears x u (x.state i)).Nonempty then (onYears x u (x.state i)).min' h else 0
  else 0

/-- load_divorce_laws after parsing (datasets.py 428-448). -/
def loadDivorce (x : DivorceIn K) : PanelOut K :=
  let ft : Option (ℕ → ℤ) :=
    match x.firstTreat with
    | some f => some f
    | none => x.unilateral.map (divorceFirst x)
  { firstTreat := ft
    cohort := match x.cohort with
      | some c => some c
      | none => ft
    treated := match x.treated with
      | some t => some t
      | none =>
        match x.unilateral with
        | some u => some u
        | none => ft.map (fun f i => some (inEffect (f i) (x.year i))) }

/-! ### Random numbers -/

/-- `numpy.random` with its hidden state. -/
structure Gen (σ K : Type*) where
  seed : ℕ → σ
  normal : K → K → σ → K × σ
  uniform : K → K → σ → K × σ
  randint : ℤ → ℤ → σ → ℤ × σ
  choice : List ℤ → List K → σ → ℤ × σ

/-- A loop that appends one result per element. -/
def loop {σ A B : Type*} (f : A → σ → B × σ) : List A → σ → List B × σ
  | [], s => ([], s)
  | a :: l, s => ((f a s).1 :: (loop f l (f a s).2).1, (loop f l (f a s).2).2)

variable {σ : Type*} (g : Gen σ K) (rnd : ℕ → K → K)

/-- `np.random.seed(k)` (datasets.py 163, 308, 457, 604): the caller's state is replaced. -/
def reseed (k : ℕ) (_c : σ) : σ := g.seed k

/-- A decimal constant. -/
def dec (a b : ℕ) : K := (a : K) / (b : K)

/-! ### Card-Krueger -/

structure Store (K : Type*) where
  storeId : ℕ
  state : String
  chain : String
  empPre : K
  empPost : K
  wagePre : K
  wagePost : K
  treated : K
  empChange : K

/-- One store (datasets.py 174-187, 196-209; the last two columns 213-214): means and spreads of the state are arguments. -/
def store (state : String) (m sd ch wm ws wm' ws' : K) (a : ℕ × String) (s : σ) : Store K × σ :=
  let (x, s) := g.normal m sd s
  let (d, s) := g.normal ch 7 s
  let pre := rnd 1 (max 0 x)
  let post := rnd 1 (max 0 (x + d))
  let (w, s) := g.normal wm ws s
  let (w', s) := g.normal wm' ws' s
  ({ storeId := a.1, state := state, chain := a.2, empPre := pre, empPost := post, wagePre := rnd 2 w, wagePost := rnd 2 w',
     treated := ind (state == "NJ"), empChange := post - pre }, s)

/-- The chains of a state, numbered from `k` on (datasets.py 171-173, 188, 193-195, 210). -/
def chains (k : ℕ) (l : List (String × ℕ)) : List (ℕ × String) :=
  let names := l.flatMap (fun p => List.replicate p.2 p.1)
  (List.range names.length).zipWith (fun i c => (k + i, c)) names

/-- New Jersey (datasets.py 171-173). -/
def njStores : List (ℕ × String) := chains 1 [("bk", 85), ("kfc", 62), ("roys", 48), ("wendys", 36)]
/-- Pennsylvania (datasets.py 193-195). -/
def paStores : List (ℕ × String) := chains 232 [("bk", 30), ("kfc", 20), ("roys", 14), ("wendys", 15)]

/-- _construct_card_krueger_data (datasets.py 163-215): `caller` is the state in which the caller left the generator; the state afterwards is returned. -/
def constructCk (caller : σ) : List (Store K) × σ :=
  let (nj, s) := loop (store g rnd "NJ" (dec 2044 100) (dec 85 10) (dec 59 100) (dec 461 100) (dec 35 100) (dec 508 100) (dec 12 100)) njStores (reseed g 1994 caller)
  let (pa, s) := loop (store g rnd "PA" (dec 2333 100) (dec 82 10) (-(dec 216 100)) (dec 463 100) (dec 35 100) (dec 462 100) (dec 35 100)) paStores s
  (nj ++ pa, s)

/-! ### Castle Doctrine -/

structure CastleRow (K : Type*) where
  state : String
  year : ℤ
  firstTreat : ℤ
  homicide : K
  population : ℤ
  income : K
  treated : K
  cohort : ℤ

/-- Adoption years as written (datasets.py 312-323). -/
def castleAdoption : List (String × ℤ) :=
  [("AL", 2006), ("AK", 2006), ("AZ", 2006), ("FL", 2005), ("GA", 2006), ("IN", 2006), ("KS", 2006), ("KY", 2006), ("LA", 2006), ("MI", 2006),
   ("MS", 2006), ("MO", 2007), ("MT", 2009), ("NH", 2011), ("NC", 2011), ("ND", 2007), ("OH", 2008), ("OK", 2006), ("PA", 2011), ("SC", 2006),
   ("SD", 2006), ("TN", 2007), ("TX", 2007), ("UT", 2010), ("WV", 2008),
   ("CA", 0), ("CO", 0), ("CT", 0), ("DE", 0), ("HI", 0), ("ID", 0), ("IL", 0), ("IA", 0), ("ME", 0), ("MD", 0), ("MA", 0), ("MN", 0),
   ("NE", 0), ("NV", 0), ("NJ", 0), ("NM", 0), ("NY", 0), ("OR", 0), ("RI", 0), ("VT", 0), ("VA", 0), ("WA", 0), ("WI", 0), ("WY", 0)]

/-- Adoptions after 2010 count as never (datasets.py 326). -/
def castleStates : List (String × ℤ) := castleAdoption.map (fun p => (p.1, if p.2 ≤ 2010 then p.2 else 0))

/-- `range(a, b)`. -/
def span (a : ℤ) (n : ℕ) : List ℤ := (List.range n).map (fun (i : ℕ) => a + (i : ℤ))

/-- One state-year (datasets.py 335-355; the last column 358). -/
def castleRow (p : String × ℤ) (base : K) (pop : ℤ) (inc : K) (year : ℤ) (s : σ) : CastleRow K × σ :=
  let te : K := if 0 < p.2 ∧ p.2 ≤ year then base * dec 8 100 else 0
  let (e, s) := g.normal 0 (dec 5 10) s
  let h := max 0 (base + ((year - 2005 : ℤ) : K) * dec 1 10 + te + e)
  let (q, s) := g.randint (-5000) 5000 s
  let (v, s) := g.normal 0 1000 s
  ({ state := p.1, year := year, firstTreat := p.2, homicide := rnd 2 h, population := pop + year * 10000 + q,
     income := rnd 0 (inc * (1 + dec 2 100 * ((year - 2000 : ℤ) : K)) + v), treated := inEffect p.2 year, cohort := p.2 }, s)

/-- One state (datasets.py 329-355). -/
def castleState (p : String × ℤ) (s : σ) : List (CastleRow K) × σ :=
  let (base, s) := g.uniform 3 8 s
  let (pop, s) := g.randint 500000 20000000 s
  let (inc, s) := g.uniform 30000 50000 s
  loop (castleRow g rnd p base pop inc) (span 2000 11) s

/-- _construct_castle_doctrine_data (datasets.py 308-359). -/
def constructCastle (caller : σ) : List (CastleRow K) × σ :=
  let (l, s) := loop (castleState g rnd) castleStates (reseed g 2013 caller)
  (l.flatten, s)

/-! ### Divorce laws -/

structure DivorceRow (K : Type*) where
  state : String
  year : ℤ
  firstTreat : ℤ
  divorce : K
  lfp : K
  suicide : K
  cohort : ℤ
  treated : K

/-- Adoption years as written (datasets.py 461-471). -/
def divorceAdoption : List (String × ℤ) :=
  [("AK", 1935), ("AL", 1971), ("AZ", 1973), ("CA", 1970), ("CO", 1972), ("CT", 1973), ("DE", 1968), ("FL", 1971), ("GA", 1973), ("HI", 1973),
   ("IA", 1970), ("ID", 1971), ("IN", 1973), ("KS", 1969), ("KY", 1972), ("MA", 1975), ("ME", 1973), ("MI", 1972), ("MN", 1974), ("MO", 0),
   ("MT", 1975), ("NC", 0), ("ND", 1971), ("NE", 1972), ("NH", 1971), ("NJ", 0), ("NM", 1973), ("NV", 1967), ("NY", 0), ("OH", 0),
   ("OK", 1975), ("OR", 1971), ("PA", 0), ("RI", 1975), ("SD", 1985), ("TN", 0), ("TX", 1970), ("UT", 1987), ("VA", 0), ("WA", 1973),
   ("WI", 1978), ("WV", 1984), ("WY", 1977)]

/-- States kept (datasets.py 474-475). -/
def divorceStates : List (String × ℤ) := divorceAdoption.filter (fun p => p.2 == 0 || (decide (1968 ≤ p.2) && decide (p.2 ≤ 1990)))

/-- The effect on the divorce rate (datasets.py 493-500). -/
def fade (k : ℤ) : K := if k ≤ 2 then dec 5 10 else if k ≤ 5 then dec 3 10 else if k ≤ 10 then dec 1 10 else 0

/-- One state-year (datasets.py 484-520; the last two columns 523-524). -/
def divorceRow (p : String × ℤ) (bd bl bs : K) (year : ℤ) (s : σ) : DivorceRow K × σ :=
  let de : K := if 0 < p.2 ∧ p.2 ≤ year then fade (year - p.2) else 0
  let le : K := if 0 < p.2 ∧ p.2 ≤ year then dec 2 100 else 0
  let se : K := if 0 < p.2 ∧ p.2 ≤ year then -(dec 5 10) else 0
  let (a, s) := g.normal 0 (dec 3 10) s
  let (b, s) := g.normal 0 (dec 2 100) s
  let (c, s) := g.normal 0 (dec 5 10) s
  let ft : ℤ := if 1968 ≤ p.2 then p.2 else 0
  ({ state := p.1, year := year, firstTreat := ft
     divorce := rnd 2 (max 0 (bd + ((year - 1978 : ℤ) : K) * dec 5 100 + de + a))
     lfp := rnd 3 (min 1 (max 0 (bl + dec 1 100 * ((year - 1968 : ℤ) : K) + le + b)))
     suicide := rnd 2 (max 0 (bs + se + c))
     cohort := ft, treated := inEffect ft year }, s)

/-- One state (datasets.py 478-520). -/
def divorceState (p : String × ℤ) (s : σ) : List (DivorceRow K) × σ :=
  let (bd, s) := g.uniform 2 6 s
  let (bl, s) := g.uniform (dec 35 100) (dec 55 100) s
  let (bs, s) := g.uniform 4 8 s
  loop (divorceRow g rnd p bd bl bs) (span 1968 21) s

/-- _construct_divorce_laws_data (datasets.py 457-525). -/
def constructDivorce (caller : σ) : List (DivorceRow K) × σ :=
  let (l, s) := loop (divorceState g rnd) divorceStates (reseed g 2006 caller)
  (l.flatten, s)

/-! ### mpdta -/

structure MpRow (K : Type*) where
  county : ℕ
  year : ℤ
  lpop : K
  lemp : K
  firstTreat : ℤ
  treat : K
  cohort : ℤ

/-- The effect in the constructed data (datasets.py 622-631). -/
def mpEffect (ft year : ℤ) : K :=
  if 0 < ft ∧ ft ≤ year then
    if ft = 2004 then -(dec 4 100) + ((year - ft : ℤ) : K) * dec 1 100
    else if ft = 2006 then -(dec 3 100) + ((year - ft : ℤ) : K) * dec 1 100
    else -(dec 25 1000)
  else 0

/-- One county-year (datasets.py 619-640; the last column 643). -/
def mpRow (county : ℕ) (ft : ℤ) (bp be : K) (year : ℤ) (s : σ) : MpRow K × σ :=
  let (a, s) := g.normal 0 (dec 5 100) s
  let (b, s) := g.normal 0 (dec 2 100) s
  ({ county := county, year := year, lpop := rnd 4 (bp + a), lemp := rnd 4 (be + ((year - 2003 : ℤ) : K) * dec 2 100 + mpEffect ft year + b)
     firstTreat := ft, treat := ind (decide (0 < ft)), cohort := ft }, s)

/-- One county (datasets.py 614-640). -/
def mpCounty (county : ℕ) (s : σ) : List (MpRow K) × σ :=
  let (ft, s) := g.choice [0, 2004, 2006, 2007] [dec 4 10, dec 2 10, dec 2 10, dec 2 10] s
  let (bp, s) := g.normal 12 1 s
  let (u, s) := g.uniform (dec 15 10) (dec 25 10) s
  loop (mpRow g rnd county ft bp (bp - u)) (span 2003 5) s

/-- _construct_mpdta_data (datasets.py 604-644). -/
def constructMp (caller : σ) : List (MpRow K) × σ :=
  let (l, s) := loop (mpCounty g rnd) ((List.range 500).map (· + 1)) (reseed g 2021 caller)
  (l.flatten, s)

/-- load_mpdta after parsing (datasets.py 587-595): `first.treat` is renamed; the cohort is an alias. -/
def loadMp (dotted firstTreat cohort : Option (ℕ → ℤ)) : Option (ℕ → ℤ) × Option (ℕ → ℤ) :=
  let ft := match dotted with
    | some f => some f
    | none => firstTreat
  (ft, match cohort with
    | some c => some c
    | none => ft)

/-! ### Names -/

/-- list_datasets (datasets.py 662-667): the names. -/
def listNames : List String := ["card_krueger", "castle_doctrine", "divorce_laws", "mpdta"]

/-- load_dataset (datasets.py 697-708): the loader called, or ValueError. -/
def dispatch {A : Type*} (ck castle divorce mp : A) (name : String) : Option A :=
  [("card_krueger", ck), ("castle_doctrine", castle), ("divorce_laws", divorce), ("mpdta", mp)].lookup name

end DiffDiff.Datasets
