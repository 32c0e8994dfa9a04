import Verif.Model.Paths
import Verif.Model.Text
import Verif.Model.Dates

/-!
# Listing the blobs to read

Models `BaseInnerReader.get_list_of_blobs` (mabel/data/readers/internals/base_inner_reader.py) and the
part of `_LowLevelReader._create_line_reader` (mabel/data/readers/reader.py) that looks back for data
and chooses the blobs it can read.

Storage is a parameter: `blobsAt p` is what the adapter's `get_blobs_at_path` returns for a path, in
some order.  Python iterates over a `set` of folders in arbitrary order; here it is the order of first
appearance, which the final `sorted` makes unobservable.  Logging is left out.  The text that
replaces `{stem}` in a dataset name is a parameter (it is random in the code, and different on every
call).
-/

namespace Mabel.Listing
open Mabel.Py

/-- base_inner_reader.py:21-26 `_extract_as_at` -/
def extractAsAt (path : Str) : Str :=
  ((split '/' path).find? (fun p => startsWith "as_at_".toList p)).getD []

/-- base_inner_reader.py:28-32 `_extract_by`.  None if there is no such part. -/
def extractBy (path : Str) : Option Str :=
  (split '/' path).find? (fun p => startsWith "by_".toList p)

/-- base_inner_reader.py:155-160 `safe_get_next` -/
def safeGetNext (l : List Str) (item : Str) : Option Str :=
  match l with
  | [] => none
  | x :: xs => if x = item then xs.head? else safeGetNext xs item

/-- `f"{x}"` of an optional text. -/
def optStr : Option Str → Str
  | some s => s
  | none => "None".toList

/-- base_inner_reader.py:186-188 `is_complete` -/
def isComplete (asAt : Str) (blobs : List Str) : Bool :=
  blobs.any (fun b => contains (asAt ++ "/frame.complete".toList) b)

/-- base_inner_reader.py:189-191 `is_invalid` -/
def isInvalid (asAt : Str) (blobs : List Str) : Bool :=
  blobs.any (fun b => contains (asAt ++ "/frame.ignore".toList) b)

/-- base_inner_reader.py:184, 193-206: take frames, latest first, until one is complete and not
invalid. -/
def pickFrame (blobs : List Str) : List Str → Option Str
  | [] => none
  | f :: fs => if !isComplete f blobs || isInvalid f blobs then pickFrame blobs fs else some f

/-- base_inner_reader.py:178-220: the blobs of one folder of the partition. -/
def frameBlobs (blobs : List Str) : List Str :=
  let asAts := dedup ((blobs.filter (fun b => contains "as_at_".toList b)).map extractAsAt)
  if asAts = [] then blobs
  else match pickFrame blobs (sorted strLe asAts).reverse with
    | none => []
    | some f => blobs.filter (fun b => contains f b && !contains "/frame.complete".toList b)

/-- A partition filter, as the reader receives it (128-129: the field and value are made safe). -/
structure PartitionFilter where
  field : Str
  op : Str
  value : Str

/-- base_inner_reader.py:107-109: the partitionings present. -/
def partitionings (blobs : List Str) : List Str :=
  dedup ((blobs.filter (fun b => contains "/by_".toList b)).filterMap extractBy)

/-- base_inner_reader.py:113-142: apply the partition filter. -/
def applyFilter (pf : Option PartitionFilter) (blobs : List Str) : Except Err (List Str × List Str) :=
  let parts := partitionings blobs
  match pf with
  | none => .ok (blobs, parts)
  | some f =>
    if f.op ≠ "=".toList ∧ f.op ≠ "==".toList then .error .notImplemented
    else
      let field := Text.sanitize f.field
      let value := Text.sanitize f.value
      let by_ := "by_".toList ++ field
      let pat := ['/'] ++ by_ ++ ['/'] ++ field ++ ['='] ++ value ++ ['/']
      if parts.any (fun p => contains by_ p) then
        .ok (blobs.filter (fun b => contains pat b), [by_])
      else .ok (blobs, parts)

/-- base_inner_reader.py:162-220, once the partitioning is chosen. -/
def segmentBlobs (chosen : Str) (blobs : List Str) : List Str :=
  let folders := if chosen = [] then [[]]
    else dedup (blobs.map (fun b => optStr (safeGetNext (split '/' b) chosen)))
  folders.flatMap (fun fo => frameBlobs (blobs.filter (fun b => contains (chosen ++ ['/'] ++ fo) b)))

/-- base_inner_reader.py:99-220: the blobs of one path, given what storage lists there. -/
def cycleBlobs (pf : Option PartitionFilter) (stored : List Str) : Except Err (List Str) :=
  -- 103
  let blobs := stored.filter (fun b => !contains "BACKOUT".toList b)
  match applyFilter pf blobs with
  | .error e => .error e
  | .ok (blobs, parts) =>
    -- 144-153
    match (sorted strLe parts).getLast? with
    | none => .ok (segmentBlobs [] blobs)
    | some chosen =>
      .ok (segmentBlobs chosen (blobs.filter (fun b => contains (['/'] ++ chosen ++ ['/']) b)))

/-- base_inner_reader.py:37-45: the reader's dataset. -/
def readerDataset (dataset : Str) (partitions : List Str) : Str :=
  let d := if endsWith ['/'] dataset then dataset else dataset ++ ['/']
  if partitions = [] then d else d ++ join ['/'] partitions ++ ['/']

/-- base_inner_reader.py:95: the path for one date.  The dataset ends with a slash, so `build_path`
only fills in the template. -/
def cyclePath (dataset : Str) (rnd : Str) (d : DateTime) : Paths.Posix :=
  Paths.Posix.parse (replace "{stem}".toList rnd (Paths.dateFormat dataset d))

/-- base_inner_reader.py:89-98: the paths visited, each once, in order. -/
def visited (dataset rnd : Str) (dates : List DateTime) : List Paths.Posix :=
  dedup (dates.map (cyclePath dataset rnd))

/-- base_inner_reader.py:89-222 `get_list_of_blobs` for the dates of the reader. -/
def listBlobs (dataset rnd : Str) (pf : Option PartitionFilter) (blobsAt : Paths.Posix → List Str)
    (dates : List DateTime) : Except Err (List Str) :=
  match (visited dataset rnd dates).mapM (fun p => cycleBlobs pf (blobsAt p)) with
  | .error e => .error e
  | .ok ls => .ok (sorted strLe ls.flatten)

/-! ## Looking back -/

/-- reader.py:238-247: look back a day at a time.  `list k` is what the listing gives after stepping
back `k` days, `limit` the limit in seconds, `fuel` bounds the loop (the code has no bound of its
own, but the limit gives one).  The result is the number of days stepped back and the blobs. -/
def lookBack (limit : Int) (list : Nat → Except Err (List Str)) :
    Nat → Nat → Except Err (List Str) → Except Err (Nat × List Str)
  | _, _, .error e => .error e
  | 0, k, .ok l => .ok (k, l)
  | fuel + 1, k, .ok l =>
    if l = [] ∧ limit ≥ 86400 * (k : Int) then lookBack limit list fuel (k + 1) (list (k + 1))
    else .ok (k, l)

/-- parallel_reader.py:50-65: the extensions of data blobs. -/
def dataExtensions : List Str :=
  [".txt".toList, ".json".toList, ".zstd".toList, ".lzma".toList, ".zip".toList, ".jsonl".toList,
    ".xml".toList, ".lxml".toList, ".parquet".toList, ".csv".toList]

/-- reader.py:254-259: whether the reader has a handler for the data of a blob. -/
def isReadable (blob : Str) : Bool :=
  dataExtensions.contains ('.' :: ((split '.' blob).getLast?.getD []))

/-- reader.py:233-266: the blobs a reader will read, with the number of days it stepped back.  `limit`
is the freshness limit in seconds (0 when there is none). -/
def chooseBlobs (limit : Int) (list : Nat → Except Err (List Str)) : Except Err (Nat × List Str) :=
  match list 0 with
  | .error e => .error e
  | .ok l =>
    let r : Except Err (Nat × List Str) := if limit > 1 then
        match lookBack limit list (limit.toNat / 86400 + 2) 0 (.ok l) with
        | .error e => .error e
        | .ok (k, l) => if limit < 86400 * (k : Int) then .error .dataNotFound else .ok (k, l)
      else .ok (0, l)
    match r with
    | .error e => .error e
    | .ok (k, l) =>
      let readable := l.filter isReadable
      if readable = [] then .error .dataNotFound else .ok (k, readable)

end Mabel.Listing
