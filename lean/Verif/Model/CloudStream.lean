import Verif.Model.StreamStorage
import Verif.Model.Cloud

/-!
# A stream writer, from the calls to object storage

Puts together mabel/data/writers/stream_writer.py and mabel/data/writers/internals/writer_pool.py
(`Verif.Model.Stream`: which blobs are stored for which target), with
mabel/adapters/google/google_cloud_storage_writer.py and mabel/adapters/minio/minio_writer.py
(`Verif.Model.ObjectStore`: the objects).

Simplifications: those of `Verif.Model.ObjectStore` (an object is stored whole or not at all).  Each blob is stored by an
inner writer made for its target; in the code the writer of a target keeps its inner writer for all its blobs, which
stores them under the same names (`C112_writer_again`).
-/

namespace Mabel.CloudStream
open Mabel.Py Mabel.Paths Mabel.ObjectStore Mabel.Cloud Mabel.StreamStorage
open Mabel.Disk (Bytes)

/-- blob_writer.py:170-172 with base_inner_writer.py:21-41 and google_cloud_storage_writer.py:35-55 or minio_writer.py:25-37:
blobs are stored one after the other, each with its identifier and for its target. -/
def storeEach (v : Service) (format : Str) : List (Obj Bytes) → List (Str × Str × Bytes) → Except Err (List (Obj Bytes))
  | s, [] => .ok s
  | s, (i, target, bytes) :: rest => match v.make target format with
    | .error e => .error e
    | .ok w => storeEach v format (v.commit w s bytes none i).2 rest

/-- What is in the storage when the first `j` blobs have been stored of what the pool of the writer has handed over (or all,
if there are no more); `ids` are the identifiers that are made, one for each blob (base_inner_writer.py:39-45). -/
def inObjects (v : Service) (w : Setup) (ids : List Str) (s : List (Obj Bytes)) (store : List (Str × Writer.Stored))
    (j : Nat) : Except Err (List (Obj Bytes)) :=
  storeEach v w.format s ((ids.zip (handed store)).take j)

end Mabel.CloudStream
