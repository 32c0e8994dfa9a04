import Verif.Model.Naming

/-!
# Blobs on a disk

Models mabel/adapters/disk/disk_writer.py and `get_blob_bytes` of mabel/adapters/disk/disk_reader.py
over a file system, step by step, so that a writer can be stopped at any point.

Simplifications: no links and no `..`; a process that stops loses nothing it has written (a computer
that stops can); the file is written a byte at a time, of which every way of buffering is a special
case; the disk is never full and everything may be read and written.
-/

namespace Mabel.Disk
open Mabel.Py Mabel.Paths Mabel.Naming

abbrev Bytes := List UInt8

/-- A file system: folders, names of files and what is in them. -/
structure Disk where
  dirs : List Posix
  names : List Posix
  content : Posix → Bytes

/-- Something the operating system is asked to do. -/
inductive Op
  | mkdir (p : Posix)
  | create (p : Posix)
  | put (p : Posix) (b : UInt8)

/-- `os.path.isdir` (the working folder and the root are folders) -/
def Disk.isDir (d : Disk) (p : Posix) : Bool := decide (p.comps = []) || d.dirs.contains p

def parent (p : Posix) : Posix := ⟨p.root, p.comps.dropLast⟩

/-- One step.  `mkdir` is that of `os.makedirs(..., exist_ok=True)`: a folder that exists is no error,
a file that exists is.  `create` is `open(..., "wb")`, which empties a file that exists. -/
def apply (d : Disk) : Op → Except Err Disk
  | .mkdir p =>
    if d.names.contains p then .error .storageFailed
    else if d.isDir p then .ok d
    else if d.isDir (parent p) then .ok { d with dirs := p :: d.dirs }
    else .error .storageFailed
  | .create p =>
    if d.isDir p || !d.isDir (parent p) then .error .storageFailed
    else .ok { d with
      names := if d.names.contains p then d.names else d.names ++ [p]
      content := fun q => if q = p then [] else d.content q }
  | .put p b => .ok { d with content := fun q => if q = p then d.content p ++ [b] else d.content q }

/-- Steps one after the other; the first that fails is the last. -/
def exec (d : Disk) : List Op → Except Err Disk
  | [] => .ok d
  | o :: os => match apply d o with
    | .error e => .error e
    | .ok d => exec d os

/-- `os.makedirs`: the folders on the way, outermost first. -/
def makedirs (p : Posix) : List Op :=
  (List.range p.comps.length).map (fun i => .mkdir ⟨p.root, p.comps.take (i + 1)⟩)

/-- disk_writer.py:23-27: the steps of storing a blob. -/
def commitOps (name : Str) (bytes : Bytes) : Except Err (List Op) :=
  match getParts name with
  | .error e => .error e
  | .ok (bucket, path, _, _) =>
    .ok (makedirs (Posix.parse (bucket ++ ['/'] ++ path)) ++ .create (Posix.parse name) ::
      bytes.map (.put (Posix.parse name)))

/-- disk_writer.py:14-29 `commit` -/
def commit (d : Disk) (name : Str) (bytes : Bytes) : Except Err Disk :=
  match commitOps name bytes with
  | .error e => .error e
  | .ok ops => exec d ops

/-- disk_reader.py:18-20 `get_blob_bytes` -/
def read (d : Disk) (name : Str) : Except Err Bytes :=
  if d.names.contains (Posix.parse name) then .ok (d.content (Posix.parse name)) else .error .storageFailed

/-- The steps of storing several blobs, one after the other. -/
def storeOps : List (Str × Bytes) → Except Err (List Op)
  | [] => .ok []
  | (name, bytes) :: rest =>
    match commitOps name bytes, storeOps rest with
    | .ok a, .ok b => .ok (a ++ b)
    | .error e, _ => .error e
    | _, .error e => .error e

/-- batch_writer.py:94-133: what a run of a batch writer that is not stopped stores, in order: its blobs
and then the marker. -/
def runItems (w : Job) (now : DateTime) (blobs : List (Str × Bytes)) : Except Err (List (Str × Bytes)) :=
  match blobs.mapM (fun b => (batchBlob w.dataset w.partitions (asAtName now) w.date w.rnd w.format b.1).map
      (fun name => (name, b.2))),
    batchBlob w.dataset w.partitions (asAtName now) w.date w.rnd w.format "{stem}".toList with
  | .ok items, .ok filename => .ok (items ++ [(completionPath filename, [])])
  | .error e, _ => .error e
  | _, .error e => .error e

/-- What is on the disk when a run is stopped after `k` steps. -/
def stopped (d : Disk) (w : Job) (now : DateTime) (blobs : List (Str × Bytes)) (k : Nat) : Except Err Disk :=
  match runItems w now blobs with
  | .error e => .error e
  | .ok items => match storeOps items with
    | .error e => .error e
    | .ok ops => exec d (ops.take k)

end Mabel.Disk
