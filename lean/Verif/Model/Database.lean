import Verif.Py.Basic

/-!
# The database writer

Models mabel/data/writers/database_writer.py (`DatabaseWriter`) and
mabel/adapters/database/base_database_writer.py (`BaseDatabaseWriter`).

Simplifications: the write-ahead log (an orso DataFrame) is the list of its rows, and appending to it
raises exactly when the record does not fit the schema or the expectations (`valid`); a database insert
either happens or raises without having happened: `faults` is the environment's choice for each coming
insert, `finFaults` for each coming run of the finalizer (exhausted = succeeds).  Logging and the lock
objects created inside the calls have no effect.
-/

namespace Mabel.Database
open Mabel.Py

/-- database_writer.py:16 -/
def batchSize : Nat := 100

structure State (ρ : Type) where
  wal : List ρ := []
  recordsInBuffer : Nat := 0
  records : Nat := 0
  /-- the batches inserted into the database, oldest first -/
  inserted : List (List ρ) := []
  /-- `inner_writer.finalized` -/
  finalized : Bool := false
  /-- the batches that were in the database at each completed run of the finalizer -/
  finalizerRuns : List (List (List ρ)) := []
  faults : List Bool := []
  finFaults : List Bool := []

variable {ρ : Type}

/-- The environment's choice for the next attempt. -/
def next : List Bool → Bool × List Bool
  | [] => (false, [])
  | b :: bs => (b, bs)

/-- base_database_writer.py:16-17: an insert into the database. -/
def insert (s : State ρ) : State ρ × Except Err Unit :=
  match next s.faults with
  | (true, fs) => ({ s with faults := fs }, .error .storageFailed)
  | (false, fs) => ({ s with faults := fs, inserted := s.inserted ++ [s.wal] }, .ok ())

/-- database_writer.py:117-137 `commit`. -/
def commit (s : State ρ) : State ρ × Except Err Unit :=
  if s.wal.length > 0 then
    match insert s with
    | (s, .error e) => (s, .error e)
    | (s, .ok ()) => ({ s with wal := [], recordsInBuffer := 0 }, .ok ())
  else (s, .ok ())

/-- database_writer.py:77-109 `append`. -/
def append (valid : ρ → Bool) (s : State ρ) (r : ρ) : State ρ × Except Err Nat :=
  if valid r then
    let s := { s with wal := s.wal ++ [r], recordsInBuffer := s.recordsInBuffer + 1, records := s.records + 1 }
    if s.wal.length ≥ batchSize then
      match commit s with
      | (s, .error e) => (s, .error e)
      | (s, .ok ()) =>
        let s := { s with wal := [], recordsInBuffer := 0 }
        (s, .ok s.recordsInBuffer)
    else (s, .ok s.recordsInBuffer)
  else (s, .error .validationFailed)

/-- base_database_writer.py:19-25 `finalize` of the inner writer. -/
def innerFinalize (hasFinalizer : Bool) (s : State ρ) : State ρ × Except Err Unit :=
  if hasFinalizer && !s.finalized then
    match next s.finFaults with
    | (true, fs) => ({ s with finFaults := fs }, .error .storageFailed)
    | (false, fs) =>
      ({ s with finFaults := fs, finalizerRuns := s.finalizerRuns ++ [s.inserted], finalized := true }, .ok ())
  else ({ s with finalized := true }, .ok ())

/-- database_writer.py:139-160 `finalize`. -/
def finalize (hasFinalizer : Bool) (s : State ρ) : State ρ × Except Err Nat :=
  match commit s with
  | (s, .error e) => (s, .error e)
  | (s, .ok ()) =>
    match innerFinalize hasFinalizer s with
    | (s, .error e) => (s, .error e)
    | (s, .ok ()) => (s, .ok s.records)

/-- database_writer.py:162-165 `__del__` (the second definition of that name wins over 111-115). -/
def del (hasFinalizer : Bool) (s : State ρ) : State ρ × Except Err Unit :=
  match commit s with
  | (s, .error e) => (s, .error e)
  | (s, .ok ()) =>
    match finalize hasFinalizer s with
    | (s, .error e) => (s, .error e)
    | (s, .ok _) => (s, .ok ())

/-- What a program (or the end of the writer's scope) does with a writer. -/
inductive Op (ρ : Type)
  | append (r : ρ)
  | commit
  | finalize
  | leaveScope

/-- One call; an exception is the program's (or, when the scope is left, Python's) to ignore. -/
def step (valid : ρ → Bool) (hasFinalizer : Bool) (s : State ρ) : Op ρ → State ρ
  | .append r => (append valid s r).1
  | .commit => (commit s).1
  | .finalize => (finalize hasFinalizer s).1
  | .leaveScope => (del hasFinalizer s).1

def run (valid : ρ → Bool) (hasFinalizer : Bool) (s : State ρ) (ops : List (Op ρ)) : State ρ :=
  ops.foldl (step valid hasFinalizer) s

end Mabel.Database
