import Verif.Model.Cloud

/-!
# Runs of batch writers on object storage that overlap in time

The steps of mabel/data/writers/batch_writer.py, mabel/adapters/google/google_cloud_storage_writer.py and
mabel/adapters/minio/minio_writer.py (`Verif.Model.Cloud`), when several processes with a batch writer each are under
way at the same time.

Simplification: an object is stored whole in a single step, as the services do (`Verif.Model.ObjectStore`).
-/

namespace Mabel.CloudOverlap
open Mabel.Py Mabel.Paths Mabel.Naming Mabel.ObjectStore Mabel.Cloud
open Mabel.Disk (Bytes)
variable {ρ : Type}

/-- A process with a batch writer: its inner writer, the names its blobs will get, how many it has stored, and what it has
still to hand to storage (blob_writer.py:170-172, batch_writer.py:105-135). -/
structure Proc where
  inner : Inner
  ids : Nat → Str
  stored : Nat
  todo : List Writer.Stored

/-- batch_writer.py:70-104: a process begins a run. -/
def begun (v : Service) (w : Job) (r : History.Run ρ) : Except Err Proc :=
  match frameId w.dataset w.partitions (asAtName r.now) w.date w.rnd with
  | .error e => .error e
  | .ok frame => match v.make frame w.format with
    | .error e => .error e
    | .ok inner => .ok ⟨inner, r.ids, 0, r.stored⟩

/-- google_cloud_storage_writer.py:38-55, minio_writer.py:25-37: a process stores the next object it has, a blob under a
new name or (batch_writer.py:124-133) the marker in the folder of its file name. -/
def Proc.next (v : Service) (p : Proc) (s : List (Obj Bytes)) : Proc × List (Obj Bytes) :=
  match p.todo with
  | [] => (p, s)
  | .data bytes :: rest =>
    ({ p with inner := (v.commit p.inner s bytes none (p.ids p.stored)).1, stored := p.stored + 1, todo := rest },
      (v.commit p.inner s bytes none (p.ids p.stored)).2)
  | .complete :: rest =>
    ({ p with inner := (v.commit p.inner s [] (some (completionPath p.inner.filename)) []).1, todo := rest },
      (v.commit p.inner s [] (some (completionPath p.inner.filename)) []).2)

/-- The storage while processes are under way: the schedule says which of them stores its next object.  A process that
dies is not in it any more. -/
def underWay (v : Service) : List Proc → List (Obj Bytes) → List Nat → List (Obj Bytes)
  | _, s, [] => s
  | ps, s, i :: schedule => match ps[i]? with
    | none => underWay v ps s schedule
    | some p => underWay v (ps.set i (p.next v s).1) (p.next v s).2 schedule

/-- The storage after the first `k` steps of the schedule, for runs that each have a day of their own (the date given to
its writer). -/
def storageAt (v : Service) (w : Job) (runs : List (DateTime × History.Run ρ)) (s : List (Obj Bytes)) (schedule : List Nat)
    (k : Nat) : Except Err (List (Obj Bytes)) :=
  match runs.mapM (fun p => begun v { w with date := p.1 } p.2) with
  | .error e => .error e
  | .ok ps => .ok (underWay v ps s (schedule.take k))

end Mabel.CloudOverlap
