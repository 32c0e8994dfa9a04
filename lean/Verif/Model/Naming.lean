import Verif.Model.Listing
import Verif.Lemmas.Num

/-!
# Names given by the batch writer, and a disk

Models the naming part of mabel/data/writers/batch_writer.py and the listing of
mabel/adapters/disk/disk_reader.py.
-/

namespace Mabel.Naming
open Mabel.Py

/-- batch_writer.py:73 `utcnow().strftime("as_at_%Y%m%d-%H%M%S")`, for a year of at most four digits
(zero padded: the current year has four). -/
def asAtName (now : DateTime) : Str :=
  "as_at_".toList ++ four now.year ++ two now.month ++ two now.day ++ '-' :: two now.hour ++
    two now.minute ++ two now.second

/-- batch_writer.py:71-84: the folder of the frame.  `rnd` is what would replace `{stem}`. -/
def frameId (dataset : Str) (partitions : List Str) (asAt : Str) (date : DateTime) (rnd : Str) :
    Except Err Str :=
  let dataset := if partitions = [] then dataset else dataset ++ ['/'] ++ join ['/'] partitions
  Paths.buildPath (dataset ++ ['/'] ++ asAt) date rnd

/-- batch_writer.py:94, base_inner_writer.py:21-41: the name of a blob of the frame. -/
def batchBlob (dataset : Str) (partitions : List Str) (asAt : Str) (date : DateTime)
    (rnd format blobId : Str) : Except Err Str :=
  match frameId dataset partitions asAt date rnd with
  | .error e => .error e
  | .ok f => Paths.blobName f format blobId

/-- Where the last slash is: the text before and after it. -/
def rsplitSlash (s : Str) : Option (Str × Str) :=
  match s with
  | [] => none
  | c :: cs => match rsplitSlash cs with
    | some (a, b) => some (c :: a, b)
    | none => if c = '/' then some ([], cs) else none

/-- `os.path.split(p)[0]` (posixpath): the text before the last slash, without trailing slashes
unless it is all slashes. -/
def dirname (p : Str) : Str :=
  match rsplitSlash p with
  | none => []
  | some (a, _) =>
    let head := a ++ ['/']
    if head.all (· = '/') then head else (head.reverse.dropWhile (· = '/')).reverse

/-- batch_writer.py:126-127: the name of the completion marker, from the writer's file name (in which
`{stem}` still stands for the blob's identifier). -/
def completionPath (filename : Str) : Str := dirname filename ++ "/frame.complete".toList

/-- Whether a file is somewhere beneath a folder. -/
def beneath (p q : Paths.Posix) : Bool :=
  decide (q.root = p.root) && p.comps.isPrefixOf q.comps && decide (p.comps.length < q.comps.length)

/-- disk_reader.py:12-16: the files beneath a path, of the files on the disk, as texts. -/
def diskBlobsAt (files : List Paths.Posix) (p : Paths.Posix) : List Str :=
  (files.filter (beneath p)).map Paths.Posix.str

/-- What a batch writer is asked to write: where, for which date and in which format. -/
structure Job where
  dataset : Str
  partitions : List Str
  date : DateTime
  format : Str
  /-- what would replace `{stem}` in the dataset name -/
  rnd : Str

/-- One run of a batch writer: when it started, the identifiers of the blobs it committed, whether it
was completed (batch_writer.py:105-135: `finalize` without a failure), and whether somebody marked the
frame to be ignored since. -/
structure Batch where
  now : DateTime
  ids : List Str
  complete : Bool
  ignored : Bool

/-- The blobs of a run. -/
def Batch.blobs (w : Job) (b : Batch) : Except Err (List Str) :=
  b.ids.mapM (fun i => batchBlob w.dataset w.partitions (asAtName b.now) w.date w.rnd w.format i)

/-- The markers of a run. -/
def Batch.markers (w : Job) (b : Batch) : Except Err (List Str) :=
  match batchBlob w.dataset w.partitions (asAtName b.now) w.date w.rnd w.format "{stem}".toList with
  | .error e => .error e
  | .ok filename => .ok ((if b.complete then [completionPath filename] else []) ++
      (if b.ignored then [dirname filename ++ "/frame.ignore".toList] else []))

end Mabel.Naming
