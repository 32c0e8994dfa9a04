import Verif.Spec.FollowStream
import Verif.Model.CloudStream

/-! Vocabulary for a caller who reads, in sittings, what a process streams to object storage. -/

namespace Mabel.CloudStream
open Mabel.Py Mabel.Paths Mabel.Naming Mabel.Listing Mabel.Dates Mabel.ObjectStore Mabel.Cloud
open Mabel.StreamStorage (Process Sitting handed)
open Mabel.Blobs (Lib Item readBlob readSerial)
open Mabel.Cursor (Doc session)
variable {ρ β : Type}

/-- How a reader on a service lists what is beneath a path (minio_reader.py:35-46 needs the dates the reader is asked for). -/
abbrev Lists := Reader.Config → DateTime → Str → List (Obj Disk.Bytes) → Posix → List Str

/-- google_cloud_storage_reader.py:40-52 -/
def byGcs : Lists := fun _ _ _ s => gcsListed s

/-- minio_reader.py:35-46 -/
def byMinio : Lists := fun a now rnd s => minioListed a now rnd s

/-- reader.py:222-303: a new reader for the parameters `a` with the cursor saved before; the caller takes some records and
saves its cursor.  A caller who is told that there is no data comes back later. -/
def sitIn (lists : Lists) (hash : Str → Nat) (lib : Lib ρ) (a : Reader.Config) (s : List (Obj Disk.Bytes)) (x : Sitting)
    (doc : Option Doc) : Except Err (List (Item ρ) × Option Doc) :=
  match Reader.openReader a x.now x.rnd (lists a x.now x.rnd s) with
  | .error .dataNotFound => .ok ([], doc)
  | .error e => .error e
  | .ok (_, l) => session hash (fun b => readBlob lib {} b (blobBytes s b)) l doc x.take

/-- Sitting after sitting, each with the storage as it is by then: what each delivered, and the last saved cursor. -/
def sitInAll (lists : Lists) (hash : Str → Nat) (lib : Lib ρ) (a : Reader.Config) :
    List (List (Obj Disk.Bytes) × Sitting) → Option Doc → Except Err (List (List (Item ρ)) × Option Doc)
  | [], doc => .ok ([], doc)
  | (s, x) :: more, doc =>
    match sitIn lists hash lib a s x doc with
    | .error e => .error e
    | .ok (l, doc) => (sitInAll lists hash lib a more doc).map fun r => (l :: r.1, r.2)

/-- reader.py:222-303: a new reader with the cursor saved before, if there is one, read to its end. -/
def sitInOut (lists : Lists) (hash : Str → Nat) (lib : Lib ρ) (a : Reader.Config) (now : DateTime) (rnd : Str)
    (s : List (Obj Disk.Bytes)) (doc : Option Doc) : Except Err (List (Item ρ)) :=
  match Reader.openReader a now rnd (lists a now rnd s) with
  | .error .dataNotFound => .ok []
  | .error e => .error e
  | .ok (_, l) =>
    let r := readSerial hash lib {} (blobBytes s) l doc
    match r.finish with
    | .error e => .error e
    | .ok _ => .ok (r.yields.map (·.1))

/-- A look at the storage: the process as it is, and how many of the blobs it has handed over have been stored. -/
structure Look (ρ : Type) where
  machine : Stream.Machine ρ
  stored : Nat

/-- What has been stored for a target. -/
def Look.blobs (x : Look ρ) (target : Str) : List (Str × Disk.Bytes) :=
  ((handed x.machine.pool.store).take x.stored).filter (fun b => b.1 == target)

/-- The storage of a service then, if it held `obj` before. -/
def Look.objects (v : Service) (p : Process ρ β) (obj : List (Obj Disk.Bytes)) (x : Look ρ) : Except Err (List (Obj Disk.Bytes)) :=
  inObjects v p.setup p.ids obj x.machine.pool.store x.stored

/-- Google Cloud Storage or MinIO, for writing and for reading. -/
def Service.Reads (v : Service) (lists : Lists) : Prop := (v = gcs ∧ lists = byGcs) ∨ (v = minio ∧ lists = byMinio)

end Mabel.CloudStream
