import Verif.Model.StoredSets

/-!
# The files of sets that are stored on disk

Models mabel/data/internals/storage_classes/storage_class_disk.py:26-53 and 98-102 and `silent_remove` of
mabel/utils/paths.py:71-76, for any number of processes that share the directory for temporary files.

The name of a file comes from `NamedTemporaryFile(…).name` (29): tempfile takes a name that no file has, makes the
file, and the object that is not kept removes it again at once; so what is left of it is a name that was free at that
moment.  A process has one thread here, so its next step is `open(self.file, "wb")` (34), but other processes can do
something in between.  Simplified: the records are written in one step, and removing a file does not fail for other
reasons than that there is none.
-/

namespace Mabel.TempFiles
open Mabel.Py Mabel.DictSet

variable {α β : Type}

/-- What processes do. -/
inductive Event (α : Type)
  /-- storage_class_disk.py:29-31: process `p` asks for a name. -/
  | pick (p : Nat) (name : Str)
  /-- 33-53: process `p` writes records to the file it has the name of, and has a set. -/
  | store (p : Nat) (records : List α)
  /-- 98-102 `__del__`: process `p` does not use the set it made as number `i` any more. -/
  | drop (p i : Nat)
  /-- 31 `atexit`: process `p` ends. -/
  | exit (p : Nat)
  /-- process `p` is killed. -/
  | kill (p : Nat)

/-- A process: the name it has asked for and not used yet, the files of its sets (`none` if a set is not used any
more), the names it has registered to be removed, and if it runs. -/
structure Proc where
  pending : Option Str := none
  sets : List (Option Str) := []
  atexit : List Str := []
  running : Bool := true

/-- The directory, and the processes by number. -/
structure State where
  dir : Str → Option Str
  procs : Nat → Proc

/-- Before anything is done. -/
def start (dir : Str → Option Str) : State := ⟨dir, fun _ => {}⟩

/-- paths.py:71-76 `silent_remove`, and storage_class_disk.py:98-102: there is no such file any more. -/
def remove (dir : Str → Option Str) (name : Str) : Str → Option Str :=
  fun n => if n = name then none else dir n

/-- storage_class_disk.py:34 `open(file, "wb")` and 39-50: the file has these bytes. -/
def overwrite (dir : Str → Option Str) (name : Str) (bytes : Str) : Str → Option Str :=
  fun n => if n = name then some bytes else dir n

/-- One process is changed. -/
def State.with (s : State) (p : Nat) (q : Proc) : Nat → Proc := fun i => if i = p then q else s.procs i

/-- One step; `none` if it cannot happen. -/
def step (c : Codec α β) (s : State) : Event α → Option State
  | .pick p name =>
    if (s.procs p).running = true ∧ (s.procs p).pending = none ∧ s.dir name = none then
      some ⟨s.dir, s.with p { s.procs p with pending := some name, atexit := name :: (s.procs p).atexit }⟩
    else none
  | .store p records =>
    if (s.procs p).running = true then
      match (s.procs p).pending with
      | none => none
      | some name => some ⟨overwrite s.dir name (writeLines c.dump c.bufferSize [] [] records),
          s.with p { s.procs p with pending := none, sets := (s.procs p).sets ++ [some name] }⟩
    else none
  | .drop p i =>
    if (s.procs p).running = true ∧ (s.procs p).pending = none then
      match (s.procs p).sets[i]? with
      | some (some name) => some ⟨remove s.dir name, s.with p { s.procs p with sets := (s.procs p).sets.set i none }⟩
      | _ => none
    else none
  | .exit p =>
    if (s.procs p).running = true then
      some ⟨(s.procs p).atexit.foldl remove s.dir, s.with p { s.procs p with running := false }⟩
    else none
  | .kill p =>
    if (s.procs p).running = true then some ⟨s.dir, s.with p { s.procs p with running := false }⟩ else none

/-- A history of steps. -/
def run (c : Codec α β) : State → List (Event α) → Option State
  | s, [] => some s
  | s, e :: events => match step c s e with
    | none => none
    | some s' => run c s' events

/-- What a program sees when it goes through a set. -/
inductive Seen (α : Type)
  | records (l : List α)
  /-- an exception of the storage class -/
  | raised (e : Err)
  /-- FileNotFoundError -/
  | noFile
  /-- there is no such set, or it has been dropped -/
  | noSet
  deriving DecidableEq, Repr

/-- storage_class_disk.py:55-84: process `p` goes through the set it made as number `i`; opening a file that is not
there raises. -/
def read (c : Codec α β) (s : State) (p i : Nat) : Seen α :=
  match (s.procs p).sets[i]? with
  | some (some name) => match s.dir name with
    | none => .noFile
    | some file => match readDisk c.parse file with
      | .error e => .raised e
      | .ok l => .records l
  | _ => .noSet

end Mabel.TempFiles
