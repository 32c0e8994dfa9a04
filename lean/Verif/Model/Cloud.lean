import Verif.Model.History
import Verif.Model.ObjectStore
import Verif.Model.Reader

/-!
# Runs of a batch writer, from the calls to object storage

Puts together mabel/data/writers/batch_writer.py, mabel/data/writers/internals/blob_writer.py
(`Verif.Model.Writer`: what is stored, in which order), mabel/adapters/google/google_cloud_storage_writer.py and
mabel/adapters/minio/minio_writer.py (`Verif.Model.ObjectStore`: the objects), for any number of runs one after the
other, each of which may be stopped after any of the objects it stores.

Simplifications: those of `Verif.Model.ObjectStore` (an object is stored whole or not at all); runs do not overlap in
time.
-/

namespace Mabel.Cloud
open Mabel.Py Mabel.Paths Mabel.Naming Mabel.ObjectStore
open Mabel.Disk (Bytes)
variable {ρ : Type}

/-- A kind of storage: how its inner writer is made and how it stores an object. -/
structure Service where
  make : Str → Str → Except Err Inner
  commit : Inner → List (Obj Bytes) → Bytes → Option Str → Str → Inner × List (Obj Bytes)

/-- google_cloud_storage_writer.py:20-55 -/
def gcs : Service := ⟨Inner.make, gcsCommit⟩

/-- minio_writer.py:15-37 -/
def minio : Service := ⟨minioMake, minioCommit⟩

/-- blob_writer.py:170-172 and batch_writer.py:124-133: what the writer hands to storage is stored one after the other,
a blob under a new name (base_inner_writer.py:39-41), the marker in the folder of the writer's file name.  `n` blobs have
been stored already. -/
def storeAll (v : Service) (ids : Nat → Str) : Nat → Inner → List (Obj Bytes) → List Writer.Stored → List (Obj Bytes)
  | _, _, s, [] => s
  | n, w, s, .data bytes :: rest =>
    storeAll v ids (n + 1) (v.commit w s bytes none (ids n)).1 (v.commit w s bytes none (ids n)).2 rest
  | n, w, s, .complete :: rest =>
    storeAll v ids n (v.commit w s [] (some (completionPath w.filename)) []).1
      (v.commit w s [] (some (completionPath w.filename)) []).2 rest

/-- batch_writer.py:71-135: the storage after a run, which is stopped after `stop` objects. -/
def afterRun (v : Service) (w : Job) (s : List (Obj Bytes)) (r : History.Run ρ) : Except Err (List (Obj Bytes)) :=
  match frameId w.dataset w.partitions (asAtName r.now) w.date w.rnd with
  | .error e => .error e
  | .ok frame => match v.make frame w.format with
    | .error e => .error e
    | .ok inner => .ok (storeAll v r.ids 0 inner s (r.stored.take r.stop))

/-- The storage after several runs, one after the other, each for a day of its own (the date given to its writer). -/
def afterDayRuns (v : Service) (w : Job) (s : List (Obj Bytes)) :
    List (DateTime × History.Run ρ) → Except Err (List (Obj Bytes))
  | [] => .ok s
  | r :: rs => match afterRun v { w with date := r.1 } s r.2 with
    | .error e => .error e
    | .ok s' => afterDayRuns v w s' rs

/-- google_cloud_storage_reader.py:40-52 `get_blobs_at_path`, where it does not fail. -/
def gcsListed (s : List (Obj Bytes)) (p : Posix) : List Str := (gcsBlobsAt s p).toOption.getD []

/-- minio_reader.py:37: the dates for which a reader on MinIO lists every path: all the hours of its range. -/
def readerHours (c : Reader.Config) (now : DateTime) : List DateTime :=
  let (s, e) := Dates.readerDates now c.start c.stop
  (Dates.dateRange now (.datetime s) (.datetime e)).toOption.getD []

/-- minio_reader.py:35-46 `get_blobs_at_path`, where it does not fail. -/
def minioListed (c : Reader.Config) (now : DateTime) (rnd : Str) (s : List (Obj Bytes)) (p : Posix) : List Str :=
  (minioBlobsAt s rnd (readerHours c now) p).toOption.getD []

end Mabel.Cloud
