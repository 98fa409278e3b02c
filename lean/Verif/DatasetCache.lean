/-
Model of the dataset download cache, with crashes and concurrent processes.
  /repo/diff_diff/datasets.py 24-27 (_get_cache_path), 30-54 (_download_with_cache), 57-62 (clear_cache), and the `try` blocks of the four loaders (130-135, 274-279,
  421-426, 580-585)
One dataset name (the paths of different names are different files and never interact, 24-27). A file is a directory entry pointing to a list of characters; a
process that has the file open keeps its own position. `write_text` opens the file with truncation and then writes; here one character per step, so every split into
system calls is covered. `read_text` is one step. `clear_cache` unlinks the file; a process that has it open goes on writing to the unlinked file.
-/
import Mathlib.Data.List.Basic
import Mathlib.Logic.Function.Basic

namespace DiffDiff.DatasetCache

variable {α P : Type*} [DecidableEq P]

/-- What `urlopen(...).read().decode(...)` does (datasets.py 43-44). -/
inductive Net (α : Type*)
  | ok (c : List α)
  /-- HTTPError or URLError -/
  | down
  /-- any other exception: a timeout while reading, text that is not UTF-8 -/
  | other

inductive Err
  /-- the RuntimeError of lines 51-54 -/
  | runtime
  /-- FileNotFoundError of `read_text` -/
  | notFound
  /-- OSError of `write_text` -/
  | writeFailed
  /-- other exceptions of the download -/
  | other
  deriving DecidableEq

/-! ### One call, uninterrupted -/

/-- `_download_with_cache` run from start to end by itself (datasets.py 36-54): cached text before, cached text after, result. -/
def download (cache : Option (List α)) (force : Bool) (net : Net α) : Option (List α) × Except Err (List α) :=
  match cache, force with
  | some c, false => (some c, .ok c)
  | cache, _ =>
    match net with
    | .ok c => (some c, .ok c)
    | .down =>
      match cache with
      | some c => (some c, .ok c)
      | none => (none, .error .runtime)
    | .other => (cache, .error .other)

/-- What a loader gives back: the parsed text, the constructed replacement, or an exception (datasets.py 130-135). -/
inductive Loaded (α : Type*)
  | data (c : List α)
  | fallback
  | raised (e : Err)

/-- The `try` block of a loader: only RuntimeError is caught. -/
def loader : Except Err (List α) → Loaded α
  | .ok c => .data c
  | .error .runtime => .fallback
  | .error e => .raised e

/-! ### Many processes -/

/-- Where a process stands. -/
inductive Pc (α : Type*)
  | idle
  /-- before `cache_path.exists()` (line 39) -/
  | check (force : Bool)
  /-- before `cache_path.read_text()` (lines 40, 50) -/
  | read
  /-- before `urlopen` (line 43) -/
  | request
  /-- before the file is opened for writing (line 45) -/
  | opening (c : List α)
  /-- file `n` open, `j` characters written (line 45) -/
  | writing (c : List α) (n j : ℕ)
  /-- before `cache_path.exists()` in the handler (line 48) -/
  | recheck
  | done (r : Except Err (List α))
  | crashed

/-- Directory entry, file contents, next unused file, processes. -/
structure St (P α : Type*) where
  entry : Option ℕ
  data : ℕ → List α
  next : ℕ
  pc : P → Pc α

/-- One character at a position; a gap is filled. -/
def put (pad : α) (l : List α) (j : ℕ) (x : α) : List α :=
  if j < l.length then l.set j x else l ++ List.replicate (j - l.length) pad ++ [x]

inductive Act (α : Type*)
  /-- the process calls the function -/
  | call (force : Bool)
  /-- the next step of the process, for requests with this outcome -/
  | step (net : Net α)
  /-- the write fails (disk full) -/
  | failWrite
  /-- the process dies -/
  | crash
  /-- the process runs `clear_cache` -/
  | clear

def setPc (s : St P α) (p : P) (k : Pc α) : St P α := { s with pc := Function.update s.pc p k }

/-- One action of process `p`; actions that do not apply change nothing. -/
def act (pad : α) (s : St P α) (p : P) : Act α → St P α
  | .call f =>
    match s.pc p with
    | .idle => setPc s p (.check f)
    | .done _ => setPc s p (.check f)
    | _ => s
  | .clear =>
    match s.pc p with
    | .idle => { s with entry := none }
    | .done _ => { s with entry := none }
    | _ => s
  | .crash => setPc s p .crashed
  | .failWrite =>
    match s.pc p with
    | .opening _ => setPc s p (.done (.error .writeFailed))
    | .writing _ _ _ => setPc s p (.done (.error .writeFailed))
    | _ => s
  | .step net =>
    match s.pc p with
    | .check f => setPc s p (if s.entry.isSome && !f then .read else .request)
    | .read =>
      match s.entry with
      | some n => setPc s p (.done (.ok (s.data n)))
      | none => setPc s p (.done (.error .notFound))
    | .request =>
      match net with
      | .ok c => setPc s p (.opening c)
      | .down => setPc s p .recheck
      | .other => setPc s p (.done (.error .other))
    | .opening c =>
      match s.entry with
      | some n => setPc { s with data := Function.update s.data n [] } p (.writing c n 0)
      | none => setPc { s with entry := some s.next, data := Function.update s.data s.next [], next := s.next + 1 } p (.writing c s.next 0)
    | .writing c n j =>
      match c[j]? with
      | some x => setPc { s with data := Function.update s.data n (put pad (s.data n) j x) } p (.writing c n (j + 1))
      | none => setPc s p (.done (.ok c))
    | .recheck => setPc s p (if s.entry.isSome then .read else .done (.error .runtime))
    | _ => s

/-- A schedule: which process does what. -/
def run (pad : α) : St P α → List (P × Act α) → St P α
  | s, [] => s
  | s, (p, a) :: l => run pad (act pad s p a) l

/-- Cached text. -/
def cached (s : St P α) : Option (List α) := s.entry.map s.data

/-- Nothing cached, nothing running. -/
def start : St P α := { entry := none, data := fun _ => [], next := 0, pc := fun _ => .idle }

end DiffDiff.DatasetCache
