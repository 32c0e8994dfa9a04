import Verif.Model.DictSetStream

/-!
# Programs with stored sets

Models mabel/data/internals/dictset.py with mabel/data/internals/storage_classes/ for a set that is stored
(MEMORY, DISK or COMPRESSED_MEMORY) and the sets derived from it, which are stored the same way.

A derived set is filled when it is made (the storage classes go through their whole argument), so the methods
that derive sets read the parent at once.  `iter()` of a storage class object makes a new generator and keeps
it in `self.iterator`; `next()` goes on with the one that is kept.  Predicates and the functions that select
columns do not raise here.
-/

namespace Mabel.DictSet
open Mabel.Py

variable {α β : Type}

/-- dictset.py:69-72: the classes that store. -/
inductive StoredClass | memory | disk | compressed
  deriving DecidableEq, Repr

/-- The libraries: JSON for a line of the file, JSON and lz4 for a batch; which records are falsy (the empty
ones); and storage_class_disk.py:18 `BUFFER_SIZE`. -/
structure Codec (α β : Type) where
  dump : α → Str
  parse : Str → α
  pack : List α → β
  unpack : β → List α
  falsy : α → Bool
  bufferSize : Nat

/-- What a storage class object holds. -/
inductive Storage (α β : Type)
  | memory (data : List α)
  | disk (file : Str)
  | compressed (batches : List β)

/-- dictset.py:98-107: records are stored. -/
def Storage.make (c : Codec α β) : StoredClass → List α → Storage α β
  | .memory, l => .memory l
  | .disk, l => .disk (writeLines c.dump c.bufferSize [] [] l)
  | .compressed, l => .compressed (compressBatches c.pack [] l)

/-- What a new generator of `_inner_reader()` yields: storage_class_memory.py:15-19,
storage_class_disk.py:55-84, storage_class_compressed_memory.py:66-71.  One that raises does so at the first
`next`. -/
def Storage.readAll (c : Codec α β) : Storage α β → Except Err (List α)
  | .memory l => .ok l
  | .disk file => readDisk c.parse file
  | .compressed batches => .ok (readBatches c.unpack c.falsy batches)

/-- A storage class object: what it holds, its length, and `self.iterator`, as what it has left to yield. -/
structure SetObj (α β : Type) where
  storage : Storage α β
  length : Int
  iterator : Option (Except Err (List α)) := none

/-- The length a storage class counts while it stores: `self.length`. -/
def StoredClass.lengthOf : StoredClass → List α → Int
  | .memory, l => countOf .memory l
  | .disk, l => countOf .disk l
  | .compressed, l => countOf .compressedMemory l

/-- dictset.py:75-110: a set is made from records. -/
def SetObj.make (c : Codec α β) (sc : StoredClass) (l : List α) : SetObj α β :=
  { storage := Storage.make c sc l, length := sc.lengthOf l }

/-- The methods that derive a set: dictset.py:131-147, 285-309, 384-404, 406-443, 462-485. -/
inductive Op (α : Type)
  | filter (keep : α → Bool)
  | select (columns : α → α)
  | take (items : Int)
  | distinct (fingerprint : α → BitVec 64)
  | sample (selector : Int) (draws : List Nat)

/-- The records of the derived set. -/
def Op.apply : Op α → List α → Except Err (List α)
  | .filter keep, l => .ok (filterBy keep l)
  | .select columns, l => .ok (l.map columns)
  | .take items, l => .ok (itake items l)
  | .distinct fp, l => .ok (dedupeFrom fp [] l)
  | .sample selector draws, l => sampleLoop selector draws l

/-- What the parent's generator has left when the set has been derived: `itake` (402-404) stops reading, and
so does the sampler when it divides by zero (144). -/
def Op.leaves : Op α → List α → List α
  | .take items, l => if 0 < items then l.drop items.toNat else []
  | .sample selector _, l => if selector = 0 then l.tail else []
  | _, _ => []

/-- What a program does. -/
inductive StoredCommand (α : Type)
  /-- `sets[i].filter(…)`, … -/
  | derive (i : Nat) (op : Op α)
  /-- a method that reads all of `iter(self._iterator)`: collect_list, keys, min, sum, group_by, … -/
  | scan (i : Nat)
  /-- dictset.py:378-382 `first()` -/
  | first (i : Nat)
  /-- dictset.py:275-283 `count()` -/
  | count (i : Nat)
  /-- dictset.py:120-121 `next(sets[i])`, one turn of a for loop -/
  | next (i : Nat)
  /-- `for record in sets[i]`, 112-121, to the end -/
  | loop (i : Nat)

/-- What the program sees. -/
inductive Answer (α : Type)
  /-- a new set -/
  | made
  | records (l : List α)
  /-- a record, or that there is none -/
  | record (r : Option α)
  | number (n : Int)
  | raised (e : Err)
  /-- there is no such set -/
  | noSet
  deriving DecidableEq, Repr

/-- dictset.py:74-483: one command; the sets are numbered in the order in which they were made. -/
def runStored (c : Codec α β) (sc : StoredClass) (sets : List (SetObj α β)) (command : StoredCommand α) :
    Answer α × List (SetObj α β) :=
  match command with
  | .derive i op =>
    match sets[i]? with
    | none => (.noSet, sets)
    | some s =>
      match s.storage.readAll c with
      | .error e => (.raised e, sets.set i { s with iterator := some (.ok []) })
      | .ok l =>
        let sets := sets.set i { s with iterator := some (.ok (op.leaves l)) }
        match op.apply l with
        | .error e => (.raised e, sets)
        | .ok l => (.made, sets ++ [SetObj.make c sc l])
  | .scan i =>
    match sets[i]? with
    | none => (.noSet, sets)
    | some s =>
      let sets := sets.set i { s with iterator := some (.ok []) }
      match s.storage.readAll c with
      | .error e => (.raised e, sets)
      | .ok l => (.records l, sets)
  | .first i =>
    match sets[i]? with
    | none => (.noSet, sets)
    | some s =>
      match s.storage.readAll c with
      | .error e => (.raised e, sets.set i { s with iterator := some (.ok []) })
      | .ok l => (.record l.head?, sets.set i { s with iterator := some (.ok l.tail) })
  | .count i =>
    match sets[i]? with
    | none => (.noSet, sets)
    | some s => (.number s.length, sets)
  | .next i =>
    match sets[i]? with
    | none => (.noSet, sets)
    | some s =>
      match s.iterator.getD (s.storage.readAll c) with
      | .error e => (.raised e, sets.set i { s with iterator := some (.ok []) })
      | .ok l => (.record l.head?, sets.set i { s with iterator := some (.ok l.tail) })
  | .loop i =>
    match sets[i]? with
    | none => (.noSet, sets)
    | some s =>
      let sets := sets.set i { s with iterator := some (.ok []) }
      match s.iterator.getD (s.storage.readAll c) with
      | .error e => (.raised e, sets)
      | .ok l => (.records l, sets)

/-- The sets after a program has run. -/
def afterStored (c : Codec α β) (sc : StoredClass) (sets : List (SetObj α β)) (program : List (StoredCommand α)) :
    List (SetObj α β) :=
  program.foldl (fun sets command => (runStored c sc sets command).2) sets

/-- What a program sees, command by command, starting with a set made from records. -/
def answersStored (c : Codec α β) (sc : StoredClass) : List (SetObj α β) → List (StoredCommand α) → List (Answer α)
  | _, [] => []
  | sets, command :: program =>
    (runStored c sc sets command).1 :: answersStored c sc (runStored c sc sets command).2 program

end Mabel.DictSet
