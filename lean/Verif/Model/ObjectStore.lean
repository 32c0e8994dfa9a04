import Verif.Model.Naming

/-!
# Object storage

Models mabel/adapters/google/google_cloud_storage_writer.py, google_cloud_storage_reader.py,
mabel/adapters/minio/minio_writer.py and minio_reader.py over mabel/data/writers/internals/base_inner_writer.py.
The services themselves are a list of objects: storing an object replaces the one with its bucket and name,
listing gives the names of a bucket that begin with a prefix.  Buckets exist, and retries, credentials and
logging are left out.
-/

namespace Mabel.ObjectStore
open Mabel.Py Mabel.Paths

structure Obj (β : Type) where
  bucket : Str
  name : Str
  data : β

variable {β : Type}

/-- The service: store an object. -/
def put (s : List (Obj β)) (o : Obj β) : List (Obj β) :=
  s.filter (fun x => !(decide (x.bucket = o.bucket) && decide (x.name = o.name))) ++ [o]

/-- The service: fetch an object. -/
def get (s : List (Obj β)) (bucket name : Str) : Option β :=
  (s.find? (fun x => decide (x.bucket = bucket) && decide (x.name = name))).map Obj.data

/-- The service: the names in a bucket that begin with a prefix. -/
def listPrefix (s : List (Obj β)) (bucket pre : Str) : List Str :=
  (s.filter (fun x => decide (x.bucket = bucket) && startsWith pre x.name)).map Obj.name

/-- What an inner writer remembers. -/
structure Inner where
  bucket : Str
  filename : Str
  withoutBucket : Str

/-- base_inner_writer.py:21-37 `__init__` -/
def Inner.make (dataset format : Str) : Except Err Inner :=
  match getParts dataset with
  | .error e => .error e
  | .ok (bucket, path, _, _) =>
    let bucket := if bucket = ['/'] then [] else bucket
    let path := if path = ['/'] then [] else path
    .ok ⟨bucket, bucket ++ ['/'] ++ path ++ "{stem}".toList ++ extension format,
      path ++ "{stem}".toList ++ extension format⟩

/-- base_inner_writer.py:39-41 `_build_path`; `blobId` is `{time_ns:x}-{node:x}-{pid:x}` -/
def Inner.buildPath (w : Inner) (blobId : Str) : Str := replace "{stem}".toList blobId w.filename

/-- google_cloud_storage_writer.py:45-50, minio_writer.py:26-31: the name given, or a new one -/
def Inner.chooseName (w : Inner) (override : Option Str) (blobId : Str) : Str :=
  match override with
  | some (c :: cs) => c :: cs
  | _ => w.buildPath blobId

/-- google_cloud_storage_writer.py:35-55 `commit`.  The file name loses its bucket here. -/
def gcsCommit (w : Inner) (s : List (Obj β)) (data : β) (override : Option Str) (blobId : Str) : Inner × List (Obj β) :=
  let w := { w with filename := w.withoutBucket }
  (w, put s ⟨w.bucket, w.chooseName override blobId, data⟩)

/-- minio_writer.py:15-24 `__init__`.  The file name loses its bucket here. -/
def minioMake (dataset format : Str) : Except Err Inner :=
  (Inner.make dataset format).map (fun w => { w with filename := w.withoutBucket })

/-- minio_writer.py:25-37 `commit` -/
def minioCommit (w : Inner) (s : List (Obj β)) (data : β) (override : Option Str) (blobId : Str) : Inner × List (Obj β) :=
  (w, put s ⟨w.bucket, w.chooseName override blobId, data⟩)

/-- blob_writer.py:170-172: the blobs of a run, one commit after the other. -/
def commits (commit : Inner → List (Obj β) → β → Option Str → Str → Inner × List (Obj β)) :
    Inner → List (Obj β) → List (Str × β) → Inner × List (Obj β)
  | w, s, [] => (w, s)
  | w, s, (i, d) :: bs => commits commit (commit w s d none i).1 (commit w s d none i).2 bs

/-- batch_writer.py:105-135: the blobs of a run and, if it is completed, its marker, whose folder is taken from
the writer's file name. -/
def batch (commit : Inner → List (Obj β) → β → Option Str → Str → Inner × List (Obj β)) (w : Inner) (s : List (Obj β))
    (blobs : List (Str × β)) (complete : Bool) (nothing : β) : List (Obj β) :=
  let r := commits commit w s blobs
  if complete then (commit r.1 r.2 nothing (some (Naming.completionPath r.1.filename)) []).2 else r.2

/-- A run of a batch writer on Google Cloud Storage. -/
def gcsBatch (frame format : Str) (s : List (Obj β)) (blobs : List (Str × β)) (complete : Bool) (nothing : β) :
    Except Err (List (Obj β)) :=
  (Inner.make frame format).map (fun w => batch gcsCommit w s blobs complete nothing)

/-- A run of a batch writer on MinIO. -/
def minioBatch (frame format : Str) (s : List (Obj β)) (blobs : List (Str × β)) (complete : Bool) (nothing : β) :
    Except Err (List (Obj β)) :=
  (minioMake frame format).map (fun w => batch minioCommit w s blobs complete nothing)

/-- A run of a batch writer: when it started, the identifiers and contents of its blobs, and whether it was completed. -/
structure Run (β : Type) where
  now : DateTime
  blobs : List (Str × β)
  complete : Bool

/-- batch_writer.py:71-135: a run of a batch writer on a kind of storage (`gcsBatch` or `minioBatch`). -/
def runOn (storage : Str → Str → List (Obj β) → List (Str × β) → Bool → β → Except Err (List (Obj β)))
    (w : Naming.Job) (nothing : β) (s : List (Obj β)) (r : Run β) : Except Err (List (Obj β)) :=
  match Naming.frameId w.dataset w.partitions (Naming.asAtName r.now) w.date w.rnd with
  | .error e => .error e
  | .ok frame => storage frame w.format s r.blobs r.complete nothing

/-- Runs, one after the other. -/
def runsOn (storage : Str → Str → List (Obj β) → List (Str × β) → Bool → β → Except Err (List (Obj β)))
    (w : Naming.Job) (nothing : β) : List (Obj β) → List (Run β) → Except Err (List (Obj β))
  | s, [] => .ok s
  | s, r :: rs => match runOn storage w nothing s r with
    | .error e => .error e
    | .ok s' => runsOn storage w nothing s' rs

/-- google_cloud_storage_reader.py:40-52 `get_blobs_at_path` -/
def gcsBlobsAt (s : List (Obj β)) (p : Posix) : Except Err (List Str) :=
  match getParts p.str with
  | .error e => .error e
  | .ok (bucket, path, _, _) =>
    .ok (((listPrefix s bucket path).filter (fun n => !endsWith ['/'] n)).map (fun n => bucket ++ ['/'] ++ n))

/-- minio_reader.py:35-46 `get_blobs_at_path`.  The path (which ends with a slash) is taken for a template again, and
listed for every date of the reader. -/
def minioBlobsAt (s : List (Obj β)) (rnd : Str) (dates : List DateTime) (p : Posix) : Except Err (List Str) :=
  match getParts p.str with
  | .error e => .error e
  | .ok (bucket, path, _, _) =>
    .ok (dates.flatMap (fun d => ((listPrefix s bucket (replace "{stem}".toList rnd (dateFormat path d))).filter
      (fun n => !endsWith ['/'] n)).map (fun n => bucket ++ ['/'] ++ n)))

/-- google_cloud_storage_reader.py:31-38, minio_reader.py:48-54 `get_blob_bytes`.  A name without an extension cannot be
joined (TypeError); an object that is not there cannot be read (AttributeError; for MinIO UnboundLocalError). -/
def blobBytes (s : List (Obj β)) (blob : Str) : Except Err β :=
  match getParts blob with
  | .error e => .error e
  | .ok (bucket, path, some name, some ext) => match get s bucket (path ++ name ++ ext) with
    | some d => .ok d
    | none => .error .attributeError
  | .ok _ => .error .typeError

end Mabel.ObjectStore
