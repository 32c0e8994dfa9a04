import Verif.Py.Basic

/-!
# Cursors and the serial reader

Models mabel/data/readers/internals/cursor.py and the serial branch of
`_LowLevelReader._create_line_reader` (mabel/data/readers/reader.py:284-303).

Not modelled: the JSON text form of a cursor (`orjson`); a cursor here is the dictionary.  The hash
`xxh3_64_intdigest(name, 0)` is a parameter.  What reading a blob delivers (after decoding, selection
and filtering) is the parameter `content`.
-/

namespace Mabel.Cursor
open Mabel.Py

/-! ## bitarray and hex -/

/-- The value of eight bits, most significant first; missing bits are zero (`bitarray.tobytes` pads
with zeros on the right; big-endian is the default). -/
def packByte (bs : List Bool) : Nat :=
  [0, 1, 2, 3, 4, 5, 6, 7].foldl (fun acc i => 2 * acc + (if bs.getD i false then 1 else 0)) 0

/-- `bitarray(...).tobytes()` -/
def toBytes (l : List Bool) : List Nat :=
  (List.range ((l.length + 7) / 8)).map (fun i => packByte ((l.drop (8 * i)).take 8))

/-- The eight bits of a byte, most significant first. -/
def unpackByte (n : Nat) : List Bool :=
  [128, 64, 32, 16, 8, 4, 2, 1].map (fun w => n / w % 2 == 1)

/-- `bitarray().frombytes(...)` -/
def fromBytes (l : List Nat) : List Bool := l.flatMap unpackByte

/-- A hexadecimal digit as written by `bytes.hex()`. -/
def hexDigit (n : Nat) : Char := "0123456789abcdef".toList.getD n '0'

/-- `bytes.hex()` -/
def toHex (l : List Nat) : Str := l.flatMap (fun n => [hexDigit (n / 16), hexDigit (n % 16)])

/-- The value of a hexadecimal digit, either case. -/
def hexVal (c : Char) : Option Nat :=
  if '0' ≤ c ∧ c ≤ '9' then some (c.toNat - '0'.toNat)
  else if 'a' ≤ c ∧ c ≤ 'f' then some (c.toNat - 'a'.toNat + 10)
  else if 'A' ≤ c ∧ c ≤ 'F' then some (c.toNat - 'A'.toNat + 10)
  else none

/-- ASCII white space, which `bytes.fromhex` skips between bytes. -/
def isSpace (c : Char) : Bool := [' ', '\t', '\n', '\r', '\x0b', '\x0c'].contains c

/-- `bytes.fromhex(s)`: ValueError on anything but pairs of hexadecimal digits. -/
def fromHex : Str → Except Err (List Nat)
  | [] => .ok []
  | [c] => if isSpace c then .ok [] else .error .valueError
  | c :: d :: rest =>
    if isSpace c then fromHex (d :: rest)
    else match hexVal c, hexVal d with
      | some a, some b => (fromHex rest).map (fun l => (16 * a + b) :: l)
      | _, _ => .error .valueError

/-! ## Cursor -/

/-- The dictionary form of a cursor (cursor.py:85-90); each key may be absent. -/
structure Doc where
  map : Option Str
  partition : Option Nat
  location : Option Int
  deriving DecidableEq, Repr

/-- cursor.py:22-28: the attributes of a `Cursor`. -/
structure Cursor where
  readable : List Str
  read : List Str
  partition : Str
  location : Int
  deriving DecidableEq, Repr

/-- cursor.py:33-63 `load_cursor`, for a dictionary. -/
def load (hash : Str → Nat) (c : Cursor) (doc : Doc) : Except Err Cursor :=
  match doc.location, doc.map, doc.partition with
  | some location, some map, some partition =>
    let found := c.readable.filter (fun b => hash b == partition)
    let part := if found.length = 1 then found.headD [] else c.partition
    match fromHex map with
    | .error e => .error e
    | .ok bytes =>
      let bits := fromBytes bytes
      if bits.length < c.readable.length then .error .indexError   -- `blob_map[i]`, first i not in it
      else
        .ok { c with
          location := location, partition := part,
          read := ((c.readable.zip bits).filter (·.2)).map (·.1) }
  | _, _, _ => .error .invalidCursor

/-- cursor.py:23-31 `__init__`.  `doc = none` is a falsy cursor: `None` or `{}`. -/
def init (hash : Str → Nat) (blobs : List Str) (doc : Option Doc) : Except Err Cursor :=
  let c : Cursor := { readable := sorted strLe blobs, read := [], partition := [], location := -1 }
  match doc with
  | none => .ok c
  | some d => load hash c d

/-- cursor.py:66-69, the first step of `next_blob`: note a blob that has been finished. -/
def finished (c : Cursor) : Option Str → Cursor
  | some (p :: ps) => { c with read := c.read ++ [p :: ps], partition := [], location := -1 }
  | _ => c

/-- cursor.py:65-83 `next_blob`.  In lines 73-78 the hash (an int) is compared with the partition (a
str), which is never equal, so the search finds nothing and raises. -/
def nextBlob (c : Cursor) (previous : Option Str) : Except Err (Option Str × Cursor) :=
  let c := finished c previous
  if c.partition ≠ [] ∧ 0 ≤ c.location then
    if c.partition ∈ c.readable then .ok (some c.partition, c) else .error .valueError
  else
    match c.readable.filter (fun b => !c.read.contains b) with
    | u :: _ => .ok (some u, { c with partition := u, location := -1 })
    | [] => .ok (none, c)

/-- cursor.py:85-92 `skip_to_cursor`: how many records of the blob are passed over. -/
def skip (c : Cursor) : Nat := if c.location < 0 then 0 else (c.location + 1).toNat

/-- cursor.py:94-114 `get`. -/
def save (hash : Str → Nat) (c : Cursor) : Doc where
  map := some (toHex (toBytes (c.readable.map (fun b => c.read.contains b))))
  partition := some (hash c.partition)
  location := some c.location

/-! ## The serial reader -/

/-- A finished run of the reader: each record it delivered with the cursor at that moment, and how it
ended. -/
structure Run (ρ : Type) where
  yields : List (ρ × Cursor)
  finish : Except Err Cursor

/-- reader.py:301-302: deliver the records of a blob, numbering them from `start`. -/
def deliver {ρ : Type} (c : Cursor) : Nat → List ρ → List (ρ × Cursor)
  | _, [] => []
  | start, r :: rs => (r, { c with location := start }) :: deliver c (start + 1) rs

/-- reader.py:290-303: the loop over the blobs.  The bound on the number of rounds is the number of
blobs plus one in `readAll`; `Verif/Lemmas/Cursor.lean` shows the loop ends within it. -/
def rounds {ρ : Type} (content : Str → List ρ) : Nat → Cursor → Option Str → Run ρ
  | 0, c, _ => ⟨[], .ok c⟩
  | n + 1, c, previous =>
    match nextBlob c previous with
    | .error e => ⟨[], .error e⟩
    | .ok (none, c) => ⟨[], .ok c⟩
    | .ok (some [], c) => ⟨[], .ok c⟩         -- `while blob_to_read`: an empty name ends the loop
    | .ok (some (b :: bs), c) =>
      let ys := deliver c (skip c) ((content (b :: bs)).drop (skip c))
      let after := (ys.getLast?.map (·.2)).getD c
      let r := rounds content n after (some (b :: bs))
      ⟨ys ++ r.yields, r.finish⟩

/-- reader.py:284-303: the serial reader over `blobs`, from a saved cursor or from the start. -/
def readAll {ρ : Type} (hash : Str → Nat) (content : Str → List ρ) (blobs : List Str)
    (doc : Option Doc) : Run ρ :=
  match init hash blobs doc with
  | .error e => ⟨[], .error e⟩
  | .ok c => rounds content (c.readable.length + 1) c none

/-- A caller takes `k` records from a reader started at `doc` and saves the cursor: the records, and
the cursor saved (before the first record there is nothing new to save). -/
def session {ρ : Type} (hash : Str → Nat) (content : Str → List ρ) (blobs : List Str)
    (doc : Option Doc) (k : Nat) : Except Err (List ρ × Option Doc) :=
  let run := readAll hash content blobs doc
  if k = 0 then .ok ([], doc)
  else match run.yields[k - 1]? with
    | some (_, c) => .ok ((run.yields.take k).map (·.1), some (save hash c))
    | none => match run.finish with
      | .error e => .error e
      | .ok c => .ok (run.yields.map (·.1), some (save hash c))

end Mabel.Cursor
