import Verif.Py.DateTime
import Verif.Py.Num

/-!
# Paths

Models mabel/utils/paths.py and the naming part of
mabel/data/writers/internals/base_inner_writer.py.
-/

namespace Mabel.Paths
open Mabel.Py

/-- paths.py:51-68 `date_format`, for a given date (the callers that pass none get the current
time). -/
def dateFormat (path : Str) (d : DateTime) : Str :=
  let path := replace "{yyyy}".toList (natStr d.year) path
  let path := replace "{mm}".toList (pad2 d.month) path
  let path := replace "{dd}".toList (pad2 d.day) path
  let path := replace "{HH}".toList (pad2 d.hour) path
  let path := replace "{MM}".toList (pad2 d.minute) path
  replace "{SS}".toList (pad2 d.second) path

/-- A `pathlib.PurePosixPath`: the root (`""`, `"/"` or `"//"`) and the components. -/
structure Posix where
  root : Str
  comps : List Str
  deriving DecidableEq, Repr

/-- `pathlib.PurePosixPath(s)`: empty and `.` components disappear; two leading slashes (not three)
are a root of their own. -/
def Posix.parse (s : Str) : Posix :=
  let comps := (split '/' s).filter (fun c => c != [] && c != ['.'])
  match s with
  | '/' :: '/' :: '/' :: _ => ⟨['/'], comps⟩
  | '/' :: '/' :: _ => ⟨['/', '/'], comps⟩
  | '/' :: _ => ⟨['/'], comps⟩
  | _ => ⟨[], comps⟩

/-- `path.parts` -/
def Posix.parts (p : Posix) : List Str := if p.root = [] then p.comps else p.root :: p.comps

/-- `str(path)` -/
def Posix.str (p : Posix) : Str :=
  if p.root = [] ∧ p.comps = [] then ['.'] else p.root ++ join ['/'] p.comps

/-- `path.name` -/
def Posix.name (p : Posix) : Str := p.comps.getLast?.getD []

/-- Split a name at its last dot: `(before, from the dot on)`. -/
def rsplitDot (s : Str) : Option (Str × Str) :=
  match s with
  | [] => none
  | c :: cs => match rsplitDot cs with
    | some (a, b) => some (c :: a, b)
    | none => if c = '.' then some ([], c :: cs) else none

/-- `path.suffix` of a name (CPython 3.11: no suffix for a leading or a trailing dot). -/
def suffixOf (name : Str) : Str :=
  match rsplitDot name with
  | some (a, b) => if a ≠ [] ∧ 1 < b.length then b else []
  | none => []

/-- `path.stem` of a name. -/
def stemOf (name : Str) : Str :=
  match rsplitDot name with
  | some (a, b) => if a ≠ [] ∧ 1 < b.length then a else name
  | none => name

/-- paths.py:13-33 `get_parts`.  In the middle branch the stem, which is then the whole name, is
joined as a further component; no component is absolute, so the join is component-wise. -/
def getParts (path : Str) : Except Err (Str × Str × Option Str × Option Str) :=
  if path = [] then .error .valueError
  else
    let p := Posix.parse path
    match p.parts with
    | [] => .error .indexError
    | [bucket] => .ok (bucket, "partitions/".toList, none, none)
    | bucket :: _ :: _ =>
      let middle := Posix.parse (join ['/'] (p.parts.tail.dropLast))
      if suffixOf p.name = [] then
        .ok (bucket, (Posix.mk middle.root (middle.comps ++ [stemOf p.name])).str ++ ['/'], none, none)
      else
        .ok (bucket, middle.str ++ ['/'], some (stemOf p.name), some (suffixOf p.name))

/-- paths.py:36-48 `build_path`; `rnd` is the text that replaces `{stem}`. -/
def buildPath (path : Str) (d : DateTime) (rnd : Str) : Except Err Str :=
  if path = [] then .error .valueError
  else if path.getLast? ≠ some '/' then
    match getParts path with
    | .error e => .error e
    | .ok (bucket, pathString, _, _) =>
      let s := if pathString ≠ ['/'] then bucket ++ ['/'] ++ pathString else pathString
      .ok (replace "{stem}".toList rnd (dateFormat s d))
  else .ok (replace "{stem}".toList rnd (dateFormat path d))

/-- base_inner_writer.py:30-34: the extension of the blobs. -/
def extension (format : Str) : Str :=
  if format = "text".toList then ".txt".toList
  else if format = "zstd".toList ∨ format = "parquet".toList then ".jsonl.".toList ++ format
  else ".jsonl".toList

/-- base_inner_writer.py:21-41: the name under which a blob is stored (`blobId` is
`{time_ns:x}-{node:x}-{pid:x}`). -/
def blobName (dataset format blobId : Str) : Except Err Str :=
  match getParts dataset with
  | .error e => .error e
  | .ok (bucket, path, _, _) =>
    let bucket := if bucket = ['/'] then [] else bucket
    let path := if path = ['/'] then [] else path
    .ok (replace "{stem}".toList blobId (bucket ++ ['/'] ++ path ++ "{stem}".toList ++ extension format))

end Mabel.Paths
