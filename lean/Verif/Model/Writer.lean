import Verif.Py.Basic

/-!
# Blob writer, Writer and BatchWriter

Models mabel/data/writers/internals/blob_writer.py, mabel/data/writers/writer.py and
mabel/data/writers/batch_writer.py (the parts that decide what is stored and when).

Simplifications, common to the file
* the serialisers are parameters (`Codec`): orjson / json / `record.mini` / `flatten` are the one
  function `serialise` (text_append lines 67-84 only choose between them), zstandard is `compress`,
  pyarrow with the schema normalisation is `parquet`, `orso.DataFrame.nbytes` is `nbytes`;
  a serialiser that raises does so before anything else happens (lines 67-84 come first), which is the
  same as a record that is not `valid`; a compressor that raises is the same as a store that does
  (lines 149-177 come before the store and nothing is kept of them);
* storage is the log of what the inner writer stored, oldest first (`Stored`); blob names are
  modelled in `Verif/Model/Paths.lean`;
* a store either happens or raises without having happened: `faults` is the environment's choice
  for each coming attempt (exhausted = succeeds);
* logging, `manifest`, the profile and the locks created inside `commit` have no effect here.
-/

namespace Mabel.Writer
open Mabel.Py

abbrev Bytes := List UInt8

/-- `b"\n"` -/
def newline : UInt8 := 10

/-- Output formats: blob_writer.py:18 (`jsonl`, `text` and `flat` differ only in the serialiser). -/
inductive Format | text | zstd | parquet
  deriving DecidableEq, Repr

/-- The libraries used by the writer. -/
structure Codec (ρ : Type) where
  serialise : ρ → Bytes
  compress : Bytes → Bytes
  parquet : List ρ → Bytes
  nbytes : List ρ → Nat

/-- One stored object: a data blob, or the `frame.complete` flag (batch_writer.py:128-133). -/
inductive Stored
  | data (bytes : Bytes)
  | complete
  deriving DecidableEq, Repr

/-- Construction arguments: blob_writer.py:28-38, writer.py:32-41, batch_writer.py:19-29.
`valid` is `schema.validate` (and the expectations check) not raising; `fun _ => true` when there
is no schema. -/
structure Config (ρ : Type) where
  codec : Codec ρ
  format : Format
  maximumBlobSize : Nat
  valid : ρ → Bool
  alwaysComplete : Bool

/-- The mutable attributes of a BatchWriter and its BlobWriter, with the storage and the
environment's future behaviour. -/
structure State (ρ : Type) where
  buffer : Bytes := []
  wal : List ρ := []
  recordsInBuffer : Nat := 0
  records : Nat := 0
  seenFailures : Bool := false
  finalized : Bool := false
  store : List Stored := []
  faults : List Bool := []

variable {ρ : Type}

/-- `inner_writer.commit`: the environment decides whether the store raises. -/
def innerCommit (s : State ρ) (x : Stored) : State ρ × Except Err Unit :=
  match s.faults with
  | true :: fs => ({ s with faults := fs }, .error .storageFailed)
  | false :: fs => ({ s with faults := fs, store := s.store ++ [x] }, .ok ())
  | [] => ({ s with store := s.store ++ [x] }, .ok ())

/-- blob_writer.py:203-209 `open_buffer`. -/
def openBuffer (c : Config ρ) (s : State ρ) : State ρ :=
  match c.format with
  | .parquet => { s with wal := [], recordsInBuffer := 0 }
  | _ => { s with buffer := [], recordsInBuffer := 0 }

/-- blob_writer.py:149-177: the bytes handed to the inner writer. -/
def writeBuffer (c : Config ρ) (s : State ρ) : Bytes :=
  match c.format with
  | .parquet => c.codec.parquet s.wal
  | .zstd => c.codec.compress s.buffer
  | .text => s.buffer

/-- blob_writer.py:138-201 `commit`.  If the store raises, `open_buffer` is not reached. -/
def commit (c : Config ρ) (s : State ρ) : State ρ × Except Err Unit :=
  if s.recordsInBuffer > 0 then
    match innerCommit s (.data (writeBuffer c s)) with
    | (s, .error e) => (s, .error e)
    | (s, .ok ()) => (openBuffer c s, .ok ())
  else (openBuffer c s, .ok ())

/-- blob_writer.py:55-63 `arrow_append`. -/
def arrowAppend (c : Config ρ) (s : State ρ) (r : ρ) : State ρ × Except Err Nat :=
  let s := { s with recordsInBuffer := s.recordsInBuffer + 1 }
  let s := { s with wal := s.wal ++ [r] }
  if c.codec.nbytes s.wal > c.maximumBlobSize then
    match commit c s with
    | (s, .error e) => (s, .error e)
    | (s, .ok ()) =>
      let s := openBuffer c s
      (s, .ok s.recordsInBuffer)
  else (s, .ok s.recordsInBuffer)

/-- blob_writer.py:91-97, the end of `text_append`. -/
def extendBuffer (s : State ρ) (serialized : Bytes) : State ρ × Except Err Nat :=
  let s := { s with buffer := s.buffer ++ serialized }
  let s := { s with recordsInBuffer := s.recordsInBuffer + 1 }
  (s, .ok s.recordsInBuffer)

/-- blob_writer.py:65-97 `text_append`. -/
def textAppend (c : Config ρ) (s : State ρ) (r : ρ) : State ρ × Except Err Nat :=
  let serialized := c.codec.serialise r ++ [newline]
  if s.buffer.length > c.maximumBlobSize then
    match commit c s with
    | (s, .error e) => (s, .error e)
    | (s, .ok ()) => extendBuffer (openBuffer c s) serialized
  else extendBuffer s serialized

/-- blob_writer.py:50-53: which append is used. -/
def blobAppend (c : Config ρ) (s : State ρ) (r : ρ) : State ρ × Except Err Nat :=
  match c.format with
  | .parquet => arrowAppend c s r
  | _ => textAppend c s r

/-- writer.py:119-146 `Writer.append`: validate, append to the blob writer, count.  (The method
returns nothing although its documentation promises the record count.) -/
def append (c : Config ρ) (s : State ρ) (r : ρ) : State ρ × Except Err Unit :=
  if c.valid r then
    match blobAppend c s r with
    | (s, .error e) => (s, .error e)
    | (s, .ok _) => ({ s with records := s.records + 1 }, .ok ())
  else (s, .error .validationFailed)

/-- What `BatchWriter.finalize` returned: `-1`, or the value of the data commit. -/
inductive Final | minusOne | done
  deriving DecidableEq, Repr

/-- batch_writer.py:105-135 `BatchWriter.finalize`, with writer.py:154-160 inlined. -/
def finalize (c : Config ρ) (s : State ρ) (hasFailure : Bool) : State ρ × Except Err Final :=
  let s := { s with finalized := true }
  match commit c s with
  | (s, .error e) => (s, .error e)
  | (s, .ok ()) =>
    if hasFailure then ({ s with seenFailures := true }, .ok .minusOne)
    else if s.seenFailures then (s, .ok .minusOne)
    else if s.records == 0 && !c.alwaysComplete then (s, .ok .minusOne)
    else
      match innerCommit s .complete with
      | (s, .error e) => (s, .error e)
      | (s, .ok ()) => (s, .ok .done)

/-- blob_writer.py:211-213 `__del__`: when the last reference to the blob writer goes, what it holds is committed; an exception
there is ignored by Python. -/
def drop (c : Config ρ) (s : State ρ) : State ρ := (commit c s).1

/-- The calls a client makes. -/
inductive Op (ρ : Type)
  | append (r : ρ)
  | finalize (hasFailure : Bool)

/-- One call; the client sees only whether it raised. -/
def step (c : Config ρ) (s : State ρ) : Op ρ → State ρ × Except Err Unit
  | .append r => append c s r
  | .finalize f =>
    match finalize c s f with
    | (s, .error e) => (s, .error e)
    | (s, .ok _) => (s, .ok ())

/-- A client that makes these calls one after the other, carrying on after exceptions. -/
def run (c : Config ρ) (s : State ρ) : List (Op ρ) → State ρ
  | [] => s
  | op :: ops => run c (step c s op).1 ops

/-- The outcome of each call of `run`. -/
def outcomes (c : Config ρ) (s : State ρ) : List (Op ρ) → List (Op ρ × Except Err Unit)
  | [] => []
  | op :: ops => (op, (step c s op).2) :: outcomes c (step c s op).1 ops

end Mabel.Writer
