import Verif.Model.Stream
import Verif.Model.Targets
import Verif.Model.Disk
import Verif.Model.WriterInit

/-!
# A stream writer, from the calls to the disk

Puts together mabel/data/writers/stream_writer.py and mabel/data/writers/internals/writer_pool.py
(`Verif.Model.Stream`: which blobs are stored for which target; `Verif.Model.Targets`: the targets of a
record), mabel/data/writers/internals/base_inner_writer.py (the names of blobs) and
mabel/adapters/disk/disk_writer.py (`Verif.Model.Disk`: the steps of storing a blob).

Simplifications: the old ways to say how the data is partitioned (writer.py:59-77, `Verif.Model.WriterInit`)
are not used; a name that cannot be made is an error when the blob is stored instead of when its writer is
created.
-/

namespace Mabel.StreamStorage
open Mabel.Py Mabel.Paths Mabel.Disk
variable {ρ β : Type}

/-- The arguments of a stream writer that say where it stores: stream_writer.py:24-32, writer.py:32-41.
`date` is what `parse_iso` makes of the date that is given (stream_writer.py:69). -/
structure Setup where
  dataset : Str
  partitions : List Str
  date : Option DateTime
  format : Str

/-- writer.py:90-94 -/
def Setup.template (s : Setup) : Str := WriterInit.withPartitions s.dataset (some s.partitions)

/-- What is asked of a stream writer.  An append has the time of the call (stream_writer.py:106), the record,
and the order in which Python goes through the names of the places of the template and through the
combinations of the values for them (`Targets.Enumerates`); the attendant is a thread of the writer's own
(stream_writer.py:174-195). -/
inductive Call (ρ β : Type)
  | append (now : DateTime) (record : ρ) (names : List Str) (combos : List (List β))
  | attend
  | finalize

/-- stream_writer.py:105-118: the path for a record. -/
def pathFor (s : Setup) (valid : ρ → Bool) (now : DateTime) (r : ρ) : Str :=
  Targets.identity s.template (s.date.getD now) (valid r)

/-- stream_writer.py:85-157: what a call asks of the pool of writers. -/
def op (s : Setup) (valid : ρ → Bool) (str : β → Str) : Call ρ β → Stream.Op ρ
  | .append now r names combos => .append r (Targets.targets str (pathFor s valid now r) names combos)
  | .attend => .attend
  | .finalize => .finalize

/-- What the pool has handed over for storing, in order.  (Nothing but data is: a stream writer has no
markers.) -/
def handed (store : List (Str × Writer.Stored)) : List (Str × Bytes) :=
  store.filterMap fun
    | (target, .data bytes) => some (target, bytes)
    | (_, .complete) => none

/-- base_inner_writer.py:21-41: the names under which it is stored.  `ids` are the identifiers that are made,
one for each blob, from the time and the process (base_inner_writer.py:39-45). -/
def items (format : Str) (ids : List Str) (store : List (Str × Writer.Stored)) : Except Err (List (Str × Bytes)) :=
  (ids.zip (handed store)).mapM fun x => (blobName x.2.1 format x.1).map fun name => (name, x.2.2)

/-- disk_writer.py:14-29: the steps on the disk for what the pool has handed over. -/
def diskOps (s : Setup) (ids : List Str) (store : List (Str × Writer.Stored)) : Except Err (List Op) :=
  match items s.format ids store with
  | .error e => .error e
  | .ok l => storeOps l

/-- The disk when the first `k` steps have been taken (or all, if there are no more). -/
def onDisk (s : Setup) (ids : List Str) (d : Disk) (store : List (Str × Writer.Stored)) (k : Nat) :
    Except Err Disk :=
  match diskOps s ids store with
  | .error e => .error e
  | .ok ops => exec d (ops.take k)

/-- A process with a stream writer: how the writer was made (stream_writer.py:24-83), what the threads of the
process call, what the clock says, and the identifiers it makes. -/
structure Process (ρ β : Type) where
  setup : Setup
  conf : Stream.Conf ρ
  valid : ρ → Bool
  str : β → Str
  calls : Nat → List (Call ρ β)
  clock : List Int
  ids : List Str

/-- The process before the first call. -/
def Process.start (p : Process ρ β) : Stream.Machine ρ :=
  { pool := { clock := p.clock }, todo := fun t => (p.calls t).map (op p.setup p.valid p.str) }

/-- The steps on the disk of a process for what its pool has handed over. -/
def Process.steps (p : Process ρ β) (m : Stream.Machine ρ) : Except Err (List Op) :=
  diskOps p.setup p.ids m.pool.store

end Mabel.StreamStorage
