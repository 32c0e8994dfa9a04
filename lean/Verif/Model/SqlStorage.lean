import Verif.Model.SqlReader
import Verif.Model.Reader
import Verif.Model.History

/-!
# SQL statements about stored datasets

`SqlReader(statement, **kwargs)` (mabel/data/readers/internals/sql_reader.py:234-277) makes a `Reader` of the dataset it
names; here that reader looks for the blobs on a disk and decodes them.

Simplification: what the reader refuses (a dataset it may not open) it refuses when the first record is wanted.
-/

namespace Mabel.SqlReader
open Mabel.Py Mabel.Dates Mabel.Filters Mabel.Records Mabel.Listing Mabel.Naming Mabel.Evaluator

/-- A record, if it is one. -/
def rowOf : Blobs.Item Row → Option Row
  | .row r => some r
  | .raw _ => none

/-- parallel_reader.py:153-159: the records of a blob, before the columns and the filter -/
def blobRows (lib : Blobs.Lib Row) (name : Str) (fetched : Except Err Blobs.Bytes) : List Row :=
  (Blobs.readBlob lib { filter := some (fun _ => .ok true) } name fetched).filterMap rowOf

/-- sql_reader.py:272-277, reader.py:233-303, cursor.py:22-24: the blobs the reader finds, in the order it reads them; `reader` is
the reader of a dataset with the other arguments (`**kwargs`) -/
def storedBlobs (lib : Blobs.Lib Row) (reader : Str → Reader.Config) (now : DateTime) (rnd : Str) (d : Disk.Disk) (dataset : Str) :
    Except Err (List (List Row)) :=
  match Reader.openReader (reader dataset) now rnd (diskBlobsAt d.names) with
  | .error e => .error e
  | .ok (_, l) => .ok ((sorted strLe l).map (fun b => blobRows lib b (Disk.read d b)))

/-- Statements about what is on a disk, with the other arguments of the reader. -/
def stored (env : Env) (lib : Blobs.Lib Row) (reader : Str → Reader.Config) (now : DateTime) (rnd : Str) (d : Disk.Disk) : Env :=
  { env with blobs := storedBlobs lib reader now rnd d }

end Mabel.SqlReader
