import Verif.Model.Naming
import Verif.Model.Dates

/-!
# Constructing a writer

Models the construction of mabel/data/writers/writer.py (lines 24-117), of
mabel/data/writers/batch_writer.py (lines 70-101), the check of the format in
mabel/data/writers/internals/blob_writer.py (lines 40-45) and of the schema in
mabel/data/validator/__init__.py (lines 16-22): what is refused, and where the blobs go.

Simplifications: the inner writer, which names the blobs (`Paths.blobName`), is given and accepts its
parameters; a schema that is given is one the schema library accepts; there are no expectations; the
configuration that is written to the log can be serialised; the clock does not move during the
construction.
-/

namespace Mabel.WriterInit
open Mabel.Py Mabel.Paths Mabel.Naming

/-- What is given as the date: nothing (or something that is neither a date nor a text), a date, or a
text. -/
inductive DateArg
  | missing
  | date (d : DateTime)
  | text (s : Str)
  deriving DecidableEq

/-- What is given as the schema: nothing, `False`, or a schema. -/
inductive SchemaArg
  | missing
  | none
  | given
  deriving DecidableEq

/-- The arguments: writer.py:32-41.  `partitions` is none for `None`; `rawPath` is `str(raw_path)` if
there is one. -/
structure Args where
  dataset : Str
  schema : SchemaArg
  format : Str
  date : DateArg
  partitions : Option (List Str)
  rawPath : Option Str

/-- writer.py:38: the default of `partitions`. -/
def defaultPartitions : List Str := ["year_{yyyy}/month_{mm}/day_{dd}".toList]

/-- writer.py:75: the partitions of `{datefolders_short}`. -/
def shortPartitions : List Str := ["{yyyy}/{mm}/{dd}".toList]

/-- writer.py:24-31 `_get_writer_date`; none is what `parse_iso` makes of a text that is no date. -/
def writerDate (now : DateTime) : DateArg → Option DateTime
  | .missing => some now
  | .date d => some d
  | .text s => Dates.parseIso s

/-- paths.py:53-54: without a date, `date_format` uses the current one. -/
def dateOr (now : DateTime) (d : Option DateTime) : DateTime := d.getD now

/-- writer.py:49-56: the exceptions made for the name of the dataset.  They are made and dropped. -/
def nameProblems (dataset : Str) : List Err :=
  (if contains "BACKOUT".toList dataset then [.valueError] else []) ++
  (if endsWith ['/'] dataset then [.valueError] else []) ++
  (if contains ['{'] dataset || contains ['}'] dataset then [.valueError] else []) ++
  (if contains ['%'] dataset then [.valueError] else [])

/-- writer.py:59-77: the old ways to say how the data is partitioned take precedence. -/
def overrides (a : Args) : Str × Option (List Str) :=
  let partitions :=
    if (a.rawPath.getD []).map Char.toUpper = "TRUE".toList then none else a.partitions
  if contains "{date".toList a.dataset then
    let (dataset, partitions) :=
      if contains "{datefolders}".toList a.dataset then
        (replace "{datefolders}".toList [] a.dataset, some defaultPartitions)
      else (a.dataset, partitions)
    if contains "{datefolders_short}".toList dataset then
      (replace "{datefolders_short}".toList [] dataset, some shortPartitions)
    else (dataset, partitions)
  else (a.dataset, partitions)

/-- writer.py:90-94: the name of the dataset with the partitions (an empty list is like none). -/
def withPartitions (dataset : Str) (partitions : Option (List Str)) : Str :=
  match partitions with
  | none => dataset
  | some ps => if ps = [] then dataset else dataset ++ ['/'] ++ join ['/'] ps

/-- blob_writer.py:18 -/
def supportedFormats : List Str :=
  ["jsonl".toList, "zstd".toList, "parquet".toList, "text".toList, "flat".toList]

/-- validator/__init__.py:16-22: whether there is a schema. -/
def schemaLoader : SchemaArg → Except Err Bool
  | .missing => .error .valueError
  | .none => .ok false
  | .given => .ok true

/-- writer.py:43-117: a writer is constructed; the result is its dataset, the folder it writes to.
`now` is the time and `rnd` what would replace `{stem}` in the name. -/
def writerInit (a : Args) (now : DateTime) (rnd : Str) : Except Err Str := do
  -- 49-56: nothing comes of them
  let _ := nameProblems a.dataset
  let (dataset, partitions) := overrides a
  -- 79-81
  let schema ← schemaLoader a.schema
  if !schema && a.format = "parquet".toList then throw .valueError
  -- 88-96
  let dataset ← buildPath (withPartitions dataset partitions) (dateOr now (writerDate now a.date)) rnd
  -- 116, blob_writer.py:40-45
  if !supportedFormats.contains a.format then throw .valueError
  return dataset

/-- The name of a blob of a writer: writer.py:100, 116, base_inner_writer.py:21-41. -/
def writerBlob (a : Args) (now : DateTime) (rnd blobId : Str) : Except Err Str := do
  let dataset ← writerInit a now rnd
  blobName dataset a.format blobId

/-- batch_writer.py:70-84: the folder of the frame, unless it is given. -/
def batchFrame (a : Args) (frame : Option Str) (now : DateTime) (rnd : Str) : Except Err Str :=
  match frame with
  | some (c :: f) => .ok (c :: f)
  | _ => frameId a.dataset (a.partitions.getD []) (asAtName now) (dateOr now (writerDate now a.date)) rnd

/-- batch_writer.py:70-101: a batch writer is constructed.  The constructor of the writer it extends is
run for the folder of the frame, with the partitions but without the date (86-90). -/
def batchInit (a : Args) (frame : Option Str) (now : DateTime) (rnd : Str) : Except Err Str := do
  let f ← batchFrame a frame now rnd
  let _ ← writerInit { a with dataset := f, date := .missing } now rnd
  -- 94-98
  return f

/-- The name of a blob of a batch writer. -/
def batchWriterBlob (a : Args) (frame : Option Str) (now : DateTime) (rnd blobId : Str) : Except Err Str := do
  let f ← batchInit a frame now rnd
  blobName f a.format blobId

end Mabel.WriterInit
