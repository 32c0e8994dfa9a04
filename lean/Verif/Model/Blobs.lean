import Verif.Model.Writer
import Verif.Model.Paths
import Verif.Model.Cursor

/-!
# Reading a blob

Models mabel/data/readers/internals/parallel_reader.py, decompressors.py and parsers.py, and the way
the serial reader (mabel/data/readers/reader.py:268-303) uses them.

The libraries (zstandard, lzma, zipfile, pyarrow, csv, orjson, the XML parser) are parameters
(`Lib`).  A Python generator is what it produces before it ends, with the exception it ends with, if
any (`Gen`): the stages have no side effects, so a chain of generators that run in step gives the same
as running the stages one after the other.
-/

namespace Mabel.Blobs
open Mabel.Py

abbrev Bytes := Writer.Bytes

/-! ## Generators -/

/-- What a generator produces, and the exception that ends it, if any. -/
structure Gen (α : Type) where
  items : List α
  raised : Option Err
  deriving DecidableEq, Repr

variable {α β ρ : Type}

/-- A generator that produces these and ends. -/
def Gen.of (l : List α) : Gen α := ⟨l, none⟩

/-- A generator that raises at once. -/
def Gen.fail (e : Err) : Gen α := ⟨[], some e⟩

/-- `map(f, …)` over items, then the end `r` of the source. -/
def mapItems (f : α → Except Err β) (r : Option Err) : List α → Gen β
  | [] => ⟨[], r⟩
  | x :: xs => match f x with
    | .error e => ⟨[], some e⟩
    | .ok y => ⟨y :: (mapItems f r xs).items, (mapItems f r xs).raised⟩

/-- `map(f, g)` -/
def Gen.map (f : α → Except Err β) (g : Gen α) : Gen β := mapItems f g.raised g.items

/-- `filter(p, …)` over items, then the end `r` of the source. -/
def filterItems (p : α → Except Err Bool) (r : Option Err) : List α → Gen α
  | [] => ⟨[], r⟩
  | x :: xs => match p x with
    | .error e => ⟨[], some e⟩
    | .ok true => ⟨x :: (filterItems p r xs).items, (filterItems p r xs).raised⟩
    | .ok false => filterItems p r xs

/-- `filter(p, g)` -/
def Gen.filter (p : α → Except Err Bool) (g : Gen α) : Gen α := filterItems p g.raised g.items

/-- One generator after the other (`yield from a; yield from b`). -/
def Gen.append (a b : Gen α) : Gen α :=
  match a.raised with
  | some e => ⟨a.items, some e⟩
  | none => ⟨a.items ++ b.items, b.raised⟩

/-! ## Libraries and formats -/

/-- What passes through the stages: bytes not yet interpreted, or a record. -/
inductive Item (ρ : Type)
  | raw (b : Bytes)
  | row (r : ρ)
  deriving DecidableEq, Repr

/-- The libraries used to read. -/
structure Lib (ρ : Type) where
  unzstd : Bytes → Except Err Bytes
  unlzma : Bytes → Except Err Bytes
  unzip : Bytes → Except Err (List (Str × Bytes))
  parquet : Bytes → Except Err (List ρ)
  csv : Bytes → Except Err (List ρ)
  json : Bytes → Except Err ρ
  xml : Bytes → Except Err ρ
  /-- `bool(record)`: false for an empty one -/
  truthy : ρ → Bool

/-- decompressors.py -/
inductive Decompressor | block | zstd | lzma | unzip | lines | parquet | csv | emptyList
  deriving DecidableEq, Repr

/-- parsers.py (`empty_list` turns everything into `[]`, but is never given anything). -/
inductive Parser | passThru | json | xml | emptyList
  deriving DecidableEq, Repr

/-- parallel_reader.py:43-47 -/
inductive Kind | data | control | index
  deriving DecidableEq, Repr

/-- parallel_reader.py:50-65 `KNOWN_EXTENSIONS` -/
def knownExtensions : List (Str × Decompressor × Parser × Kind) :=
  [(".txt".toList, .block, .passThru, .data),
   (".json".toList, .block, .json, .data),
   (".zstd".toList, .zstd, .json, .data),
   (".lzma".toList, .lzma, .json, .data),
   (".zip".toList, .unzip, .passThru, .data),
   (".jsonl".toList, .lines, .json, .data),
   (".xml".toList, .block, .xml, .data),
   (".lxml".toList, .lines, .xml, .data),
   (".parquet".toList, .parquet, .passThru, .data),
   (".csv".toList, .csv, .passThru, .data),
   (".ignore".toList, .emptyList, .emptyList, .control),
   (".complete".toList, .emptyList, .emptyList, .control),
   (".manifest".toList, .emptyList, .emptyList, .control),
   (".idx".toList, .emptyList, .emptyList, .index)]

/-- `KNOWN_EXTENSIONS[ext]`, if it is there. -/
def handler (ext : Str) : Option (Decompressor × Parser × Kind) :=
  (knownExtensions.find? (fun e => e.1 = ext)).map (·.2)

/-! ## Lines -/

/-- `bytes.splitlines()`: `cur` is the line so far, `cr` whether the byte before was a carriage return
(which with a line feed is one line end). -/
def splitLinesGo (cur : Bytes) (cr : Bool) : Bytes → List Bytes
  | [] => if cur = [] then [] else [cur]
  | c :: cs =>
    if c = 10 then (if cr then splitLinesGo [] false cs else cur :: splitLinesGo [] false cs)
    else if c = 13 then cur :: splitLinesGo [] true cs
    else splitLinesGo (cur ++ [c]) false cs

/-- `bytes.splitlines()`, decompressors.py:67. -/
def splitLines (b : Bytes) : List Bytes := splitLinesGo [] false b

/-- `bytes.split(b"\n")`, decompressors.py:11. -/
def splitNewline (cur : Bytes) : Bytes → List Bytes
  | [] => [cur]
  | c :: cs => if c = 10 then cur :: splitNewline [] cs else splitNewline (cur ++ [c]) cs

/-- Iterating over a binary file, decompressors.py:22: lines with their line feed. -/
def fileLines (cur : Bytes) : Bytes → List Bytes
  | [] => if cur = [] then [] else [cur]
  | c :: cs => if c = 10 then (cur ++ [c]) :: fileLines [] cs else fileLines (cur ++ [c]) cs

/-! ## Stages -/

/-- A stage of items from what a library returned. -/
def fromLib (f : α → List (Item ρ)) : Except Err α → Gen (Item ρ)
  | .ok x => .of (f x)
  | .error e => .fail e

/-- parsers.py:3-19 -/
def parse (lib : Lib ρ) : Parser → Item ρ → Except Err (Item ρ)
  | .passThru, x => .ok x
  | .json, .raw b => (lib.json b).map .row
  | .xml, .raw b => (lib.xml b).map .row
  | _, _ => .error .typeError

/-- decompressors.py:37-44: the extension of a file inside a ZIP. -/
def memberExtension (name : Str) : Str := '.' :: ((split '.' name).getLast?.getD [])

/-- decompressors.py:25-44, the loop over the files inside a ZIP; `inner` reads one of them. -/
def members (inner : Decompressor → Bytes → Gen (Item ρ)) (lib : Lib ρ) : List (Str × Bytes) → Gen (Item ρ)
  | [] => .of []
  | (name, bytes) :: rest =>
    match handler (memberExtension name) with
    | some (d, p, _) => ((inner d bytes).map (parse lib p)).append (members inner lib rest)
    | none => members inner lib rest

/-- decompressors.py.  `depth` bounds how deeply ZIP files may be nested inside each other (the code
has no such bound; theorems hold for every `depth`). -/
def decompress (lib : Lib ρ) : Nat → Decompressor → Bytes → Gen (Item ρ)
  | _, .block, b => .of [.raw b]
  | _, .lines, b => .of ((splitLines b).map .raw)
  | _, .zstd, b => fromLib (fun t => (splitNewline [] t).dropLast.map .raw) (lib.unzstd b)
  | _, .lzma, b => fromLib (fun t => (fileLines [] t).map .raw) (lib.unlzma b)
  | _, .parquet, b => fromLib (fun l => l.map .row) (lib.parquet b)
  | _, .csv, b => fromLib (fun l => l.map .row) (lib.csv b)
  | _, .emptyList, _ => .of []
  | 0, .unzip, _ => .fail .notImplemented
  | depth + 1, .unzip, b => match lib.unzip b with
    | .error e => .fail e
    | .ok files => members (decompress lib depth) lib files

/-! ## ParallelReader -/

/-- The configuration of a `ParallelReader`: parallel_reader.py:93-138, reader.py:216-231. -/
structure Options (ρ : Type) where
  /-- the `select`; `.ok` for `"*"` -/
  select : Item ρ → Except Err (Item ρ) := .ok
  /-- the filter (truth value of its result), if there is one -/
  filter : Option (Item ρ → Except Err Bool) := none
  overrideFormat : Str := []
  depth : Nat := 1

/-- `str.lower()` (ASCII) -/
def lower (s : Str) : Str := s.map Char.toLower

/-- parallel_reader.py:133-138 -/
def override (fmt : Str) : Str :=
  match lower fmt with
  | [] => []
  | '.' :: cs => '.' :: cs
  | cs => '.' :: cs

/-- reader.py:271 `filters or pass_thru`: without a filter, the truth value of the item itself. -/
def Options.keep (o : Options ρ) (lib : Lib ρ) (x : Item ρ) : Except Err Bool :=
  match o.filter with
  | some p => p x
  | none => match x with
    | .raw b => .ok (b ≠ [])
    | .row r => .ok (lib.truthy r)

/-- parallel_reader.py:143-151: the extension, `none` if there is none. -/
def extensionOf (o : Options ρ) (name : Str) : Except Err (Option Str) :=
  if override o.overrideFormat ≠ [] then .ok (some (override o.overrideFormat))
  else (Paths.getParts name).map (·.2.2.2)

/-- parallel_reader.py:153-169, once the blob has been fetched. -/
def stages (lib : Lib ρ) (o : Options ρ) (d : Decompressor) (p : Parser) (bytes : Bytes) : Gen (Item ρ) :=
  ((decompress lib o.depth d bytes |>.map (parse lib p)) |>.map o.select) |>.filter (o.keep lib)

/-- parallel_reader.py:140-173 `__call__`: the records delivered from a blob.  `fetched` is what
`read_blob` returns or raises.  Any exception ends the blob (and is logged). -/
def readBlob (lib : Lib ρ) (o : Options ρ) (name : Str) (fetched : Except Err Bytes) : List (Item ρ) :=
  match extensionOf o name with
  | .error _ => []
  | .ok none => []
  | .ok (some ext) =>
    match handler ext with
    | none => []
    | some (d, p, _) =>
      match fetched with
      | .error _ => []
      | .ok bytes => (stages lib o d p bytes).items

/-- reader.py:284-303: the serial reader over blobs in storage. -/
def readSerial (hash : Str → Nat) (lib : Lib ρ) (o : Options ρ) (storage : Str → Except Err Bytes)
    (blobs : List Str) (doc : Option Cursor.Doc) : Cursor.Run (Item ρ) :=
  Cursor.readAll hash (fun b => readBlob lib o b (storage b)) blobs doc

end Mabel.Blobs
