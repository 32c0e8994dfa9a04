import Verif.Model.SqlStorage
import Verif.Model.Cloud

/-!
# SQL statements about datasets on object storage

`SqlReader(statement, inner_reader=…, **kwargs)` (mabel/data/readers/internals/sql_reader.py:234-277) makes a `Reader` of the dataset
it names; here that reader looks for the blobs on Google Cloud Storage or on MinIO.

Simplification: what the reader refuses (a dataset it may not open) it refuses when the first record is wanted.
-/

namespace Mabel.SqlReader
open Mabel.Py Mabel.Paths Mabel.ObjectStore Mabel.Cloud Mabel.Filters

/-- The two services: mabel/adapters/google, mabel/adapters/minio. -/
inductive Which
  | gcs
  | minio
  deriving DecidableEq, Repr

/-- The writers of a service. -/
def Which.service : Which → Service
  | .gcs => Cloud.gcs
  | .minio => Cloud.minio

/-- google_cloud_storage_reader.py:27-52, minio_reader.py:27-55: what the readers of a service list in a folder -/
def Which.listed : Which → Reader.Config → DateTime → Str → List (Obj Disk.Bytes) → Posix → List Str
  | .gcs, _, _, _, s => gcsListed s
  | .minio, c, now, rnd, s => minioListed c now rnd s

/-- sql_reader.py:272-277, reader.py:233-303, cursor.py:22-24, 66-82: the blobs the reader finds, in the order it reads them; a blob
that is listed more than once is read once -/
def cloudBlobs (v : Which) (lib : Blobs.Lib Row) (reader : Str → Reader.Config) (now : DateTime) (rnd : Str)
    (s : List (Obj Disk.Bytes)) (dataset : Str) : Except Err (List (List Row)) :=
  match Reader.openReader (reader dataset) now rnd (v.listed (reader dataset) now rnd s) with
  | .error e => .error e
  | .ok (_, l) => .ok ((sorted strLe l).eraseDups.map (fun b => blobRows lib b (blobBytes s b)))

/-- Statements about what is on object storage, with the other arguments of the reader. -/
def onCloud (env : Env) (v : Which) (lib : Blobs.Lib Row) (reader : Str → Reader.Config) (now : DateTime) (rnd : Str)
    (s : List (Obj Disk.Bytes)) : Env :=
  { env with blobs := cloudBlobs v lib reader now rnd s }

end Mabel.SqlReader
