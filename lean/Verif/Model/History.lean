import Verif.Model.Disk
import Verif.Model.Writer

/-!
# Runs of a batch writer, from the calls to the disk

Puts together mabel/data/writers/batch_writer.py, mabel/data/writers/internals/blob_writer.py
(`Verif.Model.Writer`: what is stored, in which order) and mabel/adapters/disk/disk_writer.py
(`Verif.Model.Disk`: the steps of storing it), for any number of runs one after the other, each of which
may be stopped after any of its steps.

Simplification: runs do not overlap in time here; they may in `Verif.Model.Overlap`.
-/

namespace Mabel.History
open Mabel.Py Mabel.Paths Mabel.Naming Mabel.Disk
variable {ρ : Type}

/-- How a job ends, after it has appended its records: with `finalize()`; with `finalize(has_failure=True)`, and any calls
after that; or without either, for example because of an exception. -/
inductive Ending (ρ : Type)
  | finalized
  | failed (later : List (Writer.Op ρ))
  | dropped

/-- The calls with which a job ends (batch_writer.py:103-135). -/
def Ending.calls : Ending ρ → List (Writer.Op ρ)
  | .finalized => [.finalize false]
  | .failed later => .finalize true :: later
  | .dropped => []

/-- A run: when it starts, how its writer is configured, what is appended, the random parts of the names
of its blobs (base_inner_writer.py:21-41), the number of steps on the disk after which it is stopped, and how it
ends if it is not stopped before. -/
structure Run (ρ : Type) where
  now : DateTime
  config : Writer.Config ρ
  records : List ρ
  ids : Nat → Str
  stop : Nat
  ending : Ending ρ

/-- What the writer hands to storage: every record is appended, the job ends, and the writer is dropped, whose destructor
commits what it holds (blob_writer.py:211-213). -/
def Run.stored (r : Run ρ) : List Writer.Stored :=
  (Writer.drop r.config (Writer.run r.config {} (r.records.map .append ++ r.ending.calls))).store

/-- The names under which it is stored: a blob under a new name (base_inner_writer.py:21-41), the marker
under its own (batch_writer.py:124-133).  `n` blobs have been stored already. -/
def items (w : Job) (now : DateTime) (ids : Nat → Str) : Nat → List Writer.Stored → Except Err (List (Str × Bytes))
  | _, [] => .ok []
  | n, .data bytes :: rest =>
    match batchBlob w.dataset w.partitions (asAtName now) w.date w.rnd w.format (ids n), items w now ids (n + 1) rest with
    | .ok name, .ok l => .ok ((name, bytes) :: l)
    | .error e, _ => .error e
    | _, .error e => .error e
  | n, .complete :: rest =>
    match batchBlob w.dataset w.partitions (asAtName now) w.date w.rnd w.format "{stem}".toList,
        items w now ids n rest with
    | .ok name, .ok l => .ok ((completionPath name, []) :: l)
    | .error e, _ => .error e
    | _, .error e => .error e

/-- The steps of a run on the disk, if it is not stopped. -/
def Run.ops (w : Job) (r : Run ρ) : Except Err (List Op) :=
  match items w r.now r.ids 0 r.stored with
  | .error e => .error e
  | .ok l => storeOps l

/-- The disk after a run, which is stopped after `stop` steps. -/
def afterRun (w : Job) (d : Disk) (r : Run ρ) : Except Err Disk :=
  match r.ops w with
  | .error e => .error e
  | .ok ops => exec d (ops.take r.stop)

/-- The disk after several runs, one after the other. -/
def afterRuns (w : Job) (d : Disk) : List (Run ρ) → Except Err Disk
  | [] => .ok d
  | r :: rs => match afterRun w d r with
    | .error e => .error e
    | .ok d' => afterRuns w d' rs

/-- The same for runs each of which is for a day of its own (the date given to its writer). -/
def afterDayRuns (w : Job) (d : Disk) : List (DateTime × Run ρ) → Except Err Disk
  | [] => .ok d
  | r :: rs => match afterRun { w with date := r.1 } d r.2 with
    | .error e => .error e
    | .ok d' => afterDayRuns w d' rs

end Mabel.History
