import Verif.Py.Value

/-!
# DictSet

Models mabel/data/internals/dictset.py and mabel/data/internals/storage_classes/.

A set is the list of records its iterator yields.  The methods that only move records around are
modelled for any type of record `α`.  Library functions (`hash`, CityHash64, orjson, lz4) are
parameters.
-/

namespace Mabel.DictSet
open Mabel.Py

variable {α : Type}

/-- dictset.py:391-404 `itake`: the loop with `count` items already yielded.  (`take`, 384-389, wraps
it in a set.) -/
def itakeFrom (items : Int) : Nat → List α → List α
  | _, [] => []
  | count, x :: xs => if ((count : Int) + 1) = items then [x] else x :: itakeFrom items (count + 1) xs

/-- dictset.py:391-404 `itake(items)`. -/
def itake (items : Int) (l : List α) : List α := itakeFrom items 0 l

/-- dictset.py:432-443 `filter` with a callable (the generator). -/
def filterBy (func : α → Bool) : List α → List α
  | [] => []
  | x :: xs => if func x then x :: filterBy func xs else filterBy func xs

/-- dictset.py:294-307 `do_dedupe`, for a given fingerprint function; `seen` is `hash_list`. -/
def dedupeFrom {κ : Type} [BEq κ] (fingerprint : α → κ) : List κ → List α → List α
  | _, [] => []
  | seen, x :: xs =>
    if seen.contains (fingerprint x) then dedupeFrom fingerprint seen xs
    else x :: dedupeFrom fingerprint (fingerprint x :: seen) xs

/-- dictset.py:297-298: the fingerprint when columns are given. -/
def columnsFingerprint (hash : Str → BitVec 64) (columns : List Str) (r : Record) : BitVec 64 :=
  hash (columns.flatMap fun c => ((r.lookup c).map Value.toStr).getD "$$".toList)

/-- dictset.py:300-304: the fingerprint of a whole record: the values with their positions. -/
def recordFingerprint (hash : Str → BitVec 64) (r : Record) : BitVec 64 :=
  (r.mapIdx fun i kv => hash (natStr i ++ [','] ++ Value.toStr kv.2)).foldl (fun x y => x ^^^ y) 0

/-- dictset.py:285-309 `distinct(*columns)`. -/
def distinct (hash : Str → BitVec 64) (columns : List Str) (l : List Record) : List Record :=
  if columns = [] then dedupeFrom (recordFingerprint hash) [] l
  else dedupeFrom (columnsFingerprint hash columns) [] l

/-- dictset.py:488-494 `safety_key`, as a comparison: records without a value come first.  `le`
compares the values of the column (Python raises for values that cannot be compared; they are
assumed comparable). -/
def keyLe {κ : Type} (le : κ → κ → Bool) (key : α → Option κ) (a b : α) : Bool :=
  match key a, key b with
  | none, _ => true
  | some _, none => false
  | some x, some y => le x y

/-- `reverse=True` turns the comparison round and keeps ties in order. -/
def directed (le : α → α → Bool) (descending : Bool) : α → α → Bool :=
  if descending then fun a b => le b a else le

/-- dictset.py:507-511: one record arrives; `cache` is what is held. -/
def cacheStep (le : α → α → Bool) (take : Nat) (cache : List α) (record : α) : List α :=
  let cache := cache ++ [record]
  if cache.length > max (take * 2) 1 + 1 then (sorted le cache).take take else cache

/-- The value `safety_key` looks at; a null counts as missing. -/
def columnKey (column : Str) (r : Record) : Option Value :=
  if r.get column = .none then none else some (r.get column)

/-- dictset.py:500-513: the low-memory branch. -/
def sortAndTakeStreaming (le : α → α → Bool) (take : Nat) (l : List α) : List α :=
  (sorted le (l.foldl (cacheStep le take) [])).take take

/-- How a set is held: dictset.py:69-72. -/
inductive StorageClass | noPersistance | memory | disk | compressedMemory
  deriving DecidableEq, Repr

/-- dictset.py:487-513 `sort_and_take`, for a non-negative `take`. -/
def sortAndTake (sc : StorageClass) (le : α → α → Bool) (take : Nat) (descending : Bool) (l : List α) :
    List α :=
  if sc = .memory then (sorted (directed le descending) l).take take
  else sortAndTakeStreaming (directed le descending) take l

/-- dictset.py:149-167 `collect_list(key)`. -/
def collectList (key : Str) (l : List Record) : List Value := l.filterMap fun r => r.lookup key

/-- dictset.py:169-181 `keys()`. -/
def keys (l : List Record) : List Str :=
  l.foldl (fun x y => x ++ (y.keys.filter fun a => !x.contains a)) []

/-- `functools.reduce(f, l)` without an initial value; `f` may raise. -/
def reduce {β : Type} (f : β → β → Except Err β) : List β → Except Err β
  | [] => .error .typeError
  | x :: xs => xs.foldlM f x

/-- Python's `x + y`. -/
def add : Value → Value → Except Err Value
  | .int a, .int b => .ok (.int (a + b))
  | .int a, .bool b => .ok (.int (a + b.toInt))
  | .bool a, .int b => .ok (.int (a.toInt + b))
  | .bool a, .bool b => .ok (.int (a.toInt + b.toInt))
  | .str a, .str b => .ok (.str (a ++ b))
  | _, _ => .error .typeError

/-- Python's `x < y`. -/
def lt : Value → Value → Except Err Bool
  | .int a, .int b => .ok (decide (a < b))
  | .int a, .bool b => .ok (decide (a < b.toInt))
  | .bool a, .int b => .ok (decide (a.toInt < b))
  | .bool a, .bool b => .ok (decide (a.toInt < b.toInt))
  | .str a, .str b => .ok (decide (a < b))
  | _, _ => .error .typeError

/-- `max(a, b)`: the first unless the second is greater. -/
def pyMax (a b : Value) : Except Err Value := do if ← lt a b then return b else return a

/-- `min(a, b)`: the first unless the second is smaller. -/
def pyMin (a b : Value) : Except Err Value := do if ← lt b a then return b else return a

/-- dictset.py:208-216 `sum`. -/
def sum (key : Str) (l : List Record) : Except Err Value := (collectList key l).foldlM add (.int 0)

/-- dictset.py:198-206 `max`. -/
def max' (key : Str) (l : List Record) : Except Err Value := reduce pyMax (collectList key l)

/-- dictset.py:218-226 `min`. -/
def min' (key : Str) (l : List Record) : Except Err Value := reduce pyMin (collectList key l)

/-- dictset.py:228-243 `min_max`. -/
def minMax (key : Str) (l : List Record) : Except Err (Value × Value) :=
  reduce (fun a b => do return (← pyMin a.1 b.1, ← pyMax a.2 b.2)) ((collectList key l).map fun x => (x, x))

/-- storage_class_compressed_memory.py:29,36: `length` after the loop. -/
def compressedLength (l : List α) : Nat := l.foldl (fun n _ => n + 1) 0

/-- storage_class_disk.py:33,41,52: `length` is the index of the last row plus one, from -1; `i` is the next
index. -/
def diskLengthFrom (length : Int) (i : Nat) : List α → Int
  | [] => length + 1
  | _ :: xs => diskLengthFrom i (i + 1) xs

/-- storage_class_disk.py:33-52 -/
def diskLength (l : List α) : Int := diskLengthFrom (-1) 0 l

/-- dictset.py:275-283 `count()` of a set made from the records `l`; a set which is not stored was given
a generator. -/
def countOf (sc : StorageClass) (l : List α) : Int :=
  match sc with
  | .noPersistance => -1
  | .memory => l.length
  | .disk => diskLength l
  | .compressedMemory => compressedLength l

/-- dictset.py:462-485 `select`, for a list of columns. -/
def select (columns : List Str) (l : List Record) : List Record :=
  if columns = ["*".toList] then l
  else if columns.contains "*".toList then l.map fun r => r.filter fun kv => kv.1 != "*".toList
  else l.map fun r => columns.foldl (fun acc k => acc.set k (r.get k)) []

/-- dictset.py:521-531 `__hash__`: `dump` is orjson, `h` is CityHash64. -/
def fingerprint (dump : Record → Str) (h : Str → Nat) (l : List Record) : Nat :=
  (l.map fun r => h (dump (sorted (fun a b => strLe a.1 b.1) r))).foldl (fun x y => x ^^^ y) 703115

/-! ## Storage classes -/

/-- storage_classes/storage_class_compressed_memory.py:22 -/
def BATCH_SIZE : Nat := 250

/-- storage_class_compressed_memory.py:33-46: fill batches; `pack` is dump_json then compress. -/
def compressBatches {β : Type} (pack : List α → β) : List α → List α → List β
  | batch, [] => if batch.isEmpty then [] else [pack batch]
  | batch, x :: xs =>
    let batch := batch ++ [x]
    if batch.length ≥ BATCH_SIZE then pack batch :: compressBatches pack [] xs
    else compressBatches pack batch xs

/-- storage_class_compressed_memory.py:66-71: iterate; `falsy` is an empty record. -/
def readBatches {β : Type} (unpack : β → List α) (falsy : α → Bool) (batches : List β) : List α :=
  batches.flatMap fun b => (unpack b).filter fun r => !falsy r

/-- storage_class_compressed_memory.py:57-64: the loop over the ordered locations; `batch` is the batch
unpacked last.  `batch_number` is never updated, so it stays -1 and a batch is unpacked for every
location, except for locations from -250 to -1, which use the batch that happens to be there. -/
def readLocations {β : Type} (unpack : β → List α) (batches : List β) :
    List α → List Int → Except Err (List α)
  | _, [] => .ok []
  | batch, i :: is => do
    let requested := i.fdiv BATCH_SIZE
    let batch ← (if requested ≠ -1 then (index batches requested).map unpack else .ok batch)
    let x ← index batch (i.fmod BATCH_SIZE)
    return x :: (← readLocations unpack batches batch is)

/-- storage_class_compressed_memory.py:52-64: read the given positions. -/
def readBatchesAt {β : Type} (unpack : β → List α) (batches : List β) (locations : List Int) :
    Except Err (List α) :=
  readLocations unpack batches [] (sorted (fun a b => decide (a ≤ b)) locations)

/-- storage_class_disk.py:37-50: write through a buffer of bounded size. -/
def writeLines (dump : α → Str) (bufferSize : Nat) : Str → Str → List α → Str
  | file, buffer, [] => if buffer.length > 0 then file ++ buffer else file
  | file, buffer, x :: xs =>
    let buffer := buffer ++ (dump x ++ ['\n'])
    if buffer.length > bufferSize then writeLines dump bufferSize (file ++ buffer) [] xs
    else writeLines dump bufferSize file buffer xs

/-- `mmap.readline()` until it is empty: the lines of a file, each with its newline. -/
def fileLines : Str → List Str
  | [] => []
  | c :: cs =>
    if c = '\n' then ['\n'] :: fileLines cs
    else match fileLines cs with
      | [] => [[c]]
      | l :: ls => (c :: l) :: ls

/-- storage_class_disk.py:55-64 `_read_file`: mapping an empty file raises ValueError. -/
def readFile (file : Str) : Except Err (List Str) :=
  if file = [] then .error .valueError else .ok (fileLines file)

/-- storage_class_disk.py:66-84 `_inner_reader()` without locations. -/
def readDisk (parse : Str → α) (file : Str) : Except Err (List α) := do
  return (← readFile file).map parse

/-- storage_class_disk.py:76-81: the reading loop, `i` is the number of the next line. -/
def diskScan (parse : Str → α) (locations : List Int) (maxLocation : Int) : Int → List Str → List α
  | _, [] => []
  | i, l :: ls =>
    if locations.contains i then
      if i = maxLocation then [parse l] else parse l :: diskScan parse locations maxLocation (i + 1) ls
    else diskScan parse locations maxLocation (i + 1) ls

/-- storage_class_disk.py:66-81 `_inner_reader(*locations)`, for at least one location.  Running out
of lines while skipping to the first location ends a generator inside a generator, a RuntimeError
(here valueError). -/
def readDiskAt (parse : Str → α) (file : Str) (locations : List Int) : Except Err (List α) := do
  let lines ← readFile file
  let lo := locations.foldl min (locations.headD 0)
  let hi := locations.foldl max (locations.headD 0)
  if (lines.length : Int) < lo then .error .valueError
  else return diskScan parse locations hi lo (lines.drop lo.toNat)

/-- What `self._iterator` is: a list given by the caller, some other iterable given by the caller (and which
of its records have exactly two fields), or one of the storage classes. -/
inductive Held (α β : Type)
  | list (l : List α)
  | iterator (l : List α) (two : α → Bool)
  | memory (l : List α)
  | disk (file : Str)
  | compressed (batches : List β)

/-- dictset.py:322-343 `get_items`.  Only a caller's list has `__getitem__`; StorageClassMemory does
not, so nothing is yielded for it.  For another iterable, `for i, r in iter(...)` (341) unpacks the
records themselves, which raises for a record that has not two fields; the names of two fields are taken for
a location and a record, and a name (a text) is not among the locations. -/
def getItems {β : Type} (parse : Str → α) (unpack : β → List α) (falsy : α → Bool) (held : Held α β)
    (locations : List Int) : Except Err (List α) :=
  match held with
  | .list l => locations.mapM (index l)
  | .iterator l two => if l.all two then .ok [] else .error .valueError
  | .memory _ => .ok []
  | .disk file => if locations = [] then readDisk parse file else readDiskAt parse file locations
  | .compressed batches =>
    if locations = [] then .ok (readBatches unpack falsy batches) else readBatchesAt unpack batches locations

/-! ## Reading a stored set more than once -/

/-- A storage class object: what it holds and `self.iterator`, the generator made last (what it has left
to yield), base_storage_class.py:17-24. -/
structure Stored (α : Type) where
  data : List α
  iterator : Option (List α) := none

/-- A use of a stored set. -/
inductive Use
  /-- a method that reads all of `iter(self._iterator)`: collect_list, keys, filter, select, distinct, … -/
  | scan
  /-- dictset.py:378-382 `first`: `next(iter(self._iterator), None)` -/
  | first
  /-- `for record in set:` dictset.py:112-121 with base_storage_class.py:21-24 -/
  | loop

/-- The records a use yields, and the object afterwards. -/
def Stored.use (s : Stored α) : Use → List α × Stored α
  | .scan => (s.data, { s with iterator := some [] })
  | .first => (s.data.take 1, { s with iterator := some s.data.tail })
  | .loop => (s.iterator.getD s.data, { s with iterator := some [] })

/-- A sequence of uses. -/
def Stored.uses (s : Stored α) : List Use → Stored α
  | [] => s
  | u :: us => (s.use u).2.uses us

end Mabel.DictSet
