import Verif.Model.Paths
import Verif.Model.Blobs

/-!
# Records that are given to a reader: mabel/adapters/null/null_reader.py

A record is of any type; `dumps` is `orjson.dumps`.
-/

namespace Mabel.NullAdapter
open Mabel.Py Mabel.Paths

/-- null_reader.py:14-15 `get_blobs_at_path` -/
def blobsAt (path : Posix) : List Str := [path.str ++ "/null.jsonl".toList]

/-- `b"\n".join(parts)` -/
def joinLines : List Blobs.Bytes → Blobs.Bytes
  | [] => []
  | [b] => b
  | b :: bs => b ++ 10 :: joinLines bs

/-- null_reader.py:17-20 `get_blob_bytes`, for any blob -/
def blobBytes {ρ : Type} (dumps : ρ → Blobs.Bytes) (data : List ρ) (_name : Str) : Except Err Blobs.Bytes :=
  .ok (joinLines (data.map dumps))

end Mabel.NullAdapter
