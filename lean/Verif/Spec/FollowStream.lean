import Verif.Model.Reader
import Verif.Props.Blobs
import Verif.Props.Days
import Verif.Model.StreamStorage
import Verif.Spec.Follow

/-! Vocabulary for a caller who reads what a process streams, in sittings. -/

namespace Mabel.StreamStorage
open Mabel.Py Mabel.Paths Mabel.Naming Mabel.Listing Mabel.Dates
open Mabel.Blobs (Lib Item readBlob readSerial)
open Mabel.Cursor (Doc session)
open Mabel.Disk hiding Bytes
variable {ρ β : Type}

/-- A sitting: when a reader is made, the random string it is made with, and how many records are taken. -/
structure Sitting where
  now : DateTime
  rnd : Str
  take : Nat

/-- reader.py:222-303: a new reader for the parameters `a` with the cursor saved before; the caller takes some records and
saves its cursor.  A caller who is told that there is no data comes back later. -/
def sit (hash : Str → Nat) (lib : Lib ρ) (a : Reader.Config) (d : Disk) (s : Sitting) (doc : Option Doc) :
    Except Err (List (Item ρ) × Option Doc) :=
  match Reader.openReader a s.now s.rnd (diskBlobsAt d.names) with
  | .error .dataNotFound => .ok ([], doc)
  | .error e => .error e
  | .ok (_, l) => session hash (fun b => readBlob lib {} b (Disk.read d b)) l doc s.take

/-- Sitting after sitting, each with the disk as it is by then: what each delivered, and the last saved cursor. -/
def sitAll (hash : Str → Nat) (lib : Lib ρ) (a : Reader.Config) :
    List (Disk × Sitting) → Option Doc → Except Err (List (List (Item ρ)) × Option Doc)
  | [], doc => .ok ([], doc)
  | (d, s) :: more, doc =>
    match sit hash lib a d s doc with
    | .error e => .error e
    | .ok (l, doc) => (sitAll hash lib a more doc).map fun r => (l :: r.1, r.2)

/-- reader.py:222-303: a new reader with the cursor saved before, if there is one, read to its end. -/
def sitOut (hash : Str → Nat) (lib : Lib ρ) (a : Reader.Config) (now : DateTime) (rnd : Str) (d : Disk) (doc : Option Doc) :
    Except Err (List (Item ρ)) :=
  match Reader.openReader a now rnd (diskBlobsAt d.names) with
  | .error .dataNotFound => .ok []
  | .error e => .error e
  | .ok (_, l) =>
    let r := readSerial hash lib {} (Disk.read d) l doc
    match r.finish with
    | .error e => .error e
    | .ok _ => .ok (r.yields.map (·.1))

/-- The disk when all that a process has handed over has been written. -/
def Process.disk (p : Process ρ β) (d : Disk) (m : Stream.Machine ρ) : Except Err Disk :=
  match p.steps m with
  | .error e => .error e
  | .ok ops => exec d ops

end Mabel.StreamStorage
