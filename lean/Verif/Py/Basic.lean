/-!
# The fragment of the Python runtime used by the model

Strings are lists of characters; exceptions are values.  Every definition here models a
Python builtin (CPython semantics), not code of the repository; the places in the repository
that use it are cited.
-/

namespace Mabel

/-- Python `str` (without lone surrogates). -/
abbrev Str := List Char

namespace Py

/-- The exceptions that the modelled code can raise, by class name. -/
inductive Err
  | valueError | typeError | keyError | indexError | attributeError | zeroDivision
  | notImplemented | unboundLocal
  | invalidCursor | invalidSyntax | invalidExpression | dataNotFound | accessDenied
  | invalidReaderConfig | invalidCombination | tooManyGroups | validationFailed | storageFailed
  | sqlError | overflow | reError
  deriving DecidableEq, Repr

/-- `sub in s` for strings.  Used e.g. at mabel/data/readers/internals/base_inner_reader.py:103. -/
def contains (sub : Str) : Str → Bool
  | [] => sub.isPrefixOf []
  | c :: cs => sub.isPrefixOf (c :: cs) || contains sub cs

/-- `s.split(c)` for a one-character separator: never empty, keeps empty pieces.
Used at mabel/data/readers/internals/base_inner_reader.py:22,29,168. -/
def split (c : Char) : Str → List Str
  | [] => [[]]
  | x :: xs =>
    if x = c then [] :: split c xs
    else match split c xs with
      | [] => [[x]]            -- unreachable: `split` never returns the empty list
      | p :: ps => (x :: p) :: ps

/-- `sep.join(parts)`. Used at mabel/data/writers/writer.py:94. -/
def join (sep : Str) : List Str → Str
  | [] => []
  | [p] => p
  | p :: ps => p ++ sep ++ join sep ps

/-- Worker of `replace`: `skip` characters of a match are still to be dropped. -/
def replaceGo (old new : Str) : Nat → Str → Str
  | _, [] => []
  | n + 1, _ :: cs => replaceGo old new n cs
  | 0, c :: cs =>
    if old.isPrefixOf (c :: cs) then new ++ replaceGo old new (old.length - 1) cs
    else c :: replaceGo old new 0 cs

/-- `s.replace(old, new)` for a non-empty `old`: leftmost, non-overlapping.
Used at mabel/utils/paths.py:61-66 and mabel/data/writers/stream_writer.py:150. -/
def replace (old new s : Str) : Str := replaceGo old new 0 s

/-- `s.startswith(p)`. -/
def startsWith (p s : Str) : Bool := p.isPrefixOf s

/-- `s.endswith(p)`. -/
def endsWith (p s : Str) : Bool := p.isSuffixOf s

/-- `l[:k]` with Python's treatment of negative bounds.
Used at mabel/data/writers/internals/writer_pool.py:88-90. -/
def sliceTo {α : Type _} (l : List α) (k : Int) : List α :=
  if k < 0 then l.take (l.length - k.natAbs) else l.take k.toNat

/-- `l[k:]` with Python's treatment of negative bounds.
Used at mabel/data/readers/internals/inline_functions.py (RIGHT). -/
def sliceFrom {α : Type _} (l : List α) (k : Int) : List α :=
  if k < 0 then l.drop (l.length - k.natAbs) else l.drop k.toNat

/-- `l[i]` : negative indices count from the end; out of range raises IndexError. -/
def index {α : Type _} (l : List α) (i : Int) : Except Err α :=
  let j : Int := if i < 0 then i + l.length else i
  if j < 0 then .error .indexError
  else match l[j.toNat]? with
    | some x => .ok x
    | none => .error .indexError

/-- Insert into a sorted list, before the first element that is not smaller. -/
def insertBy {α : Type _} (le : α → α → Bool) (x : α) : List α → List α
  | [] => [x]
  | y :: ys => if le x y then x :: y :: ys else y :: insertBy le x ys

/-- `sorted(l, key=...)` / `l.sort(key=...)`: a stable sort, written as insertion sort.  `le a b`
is "the key of a is not greater than the key of b"; `reverse=True` is the same function with the
comparison turned round, because Python keeps equal elements in their original order either way. -/
def sorted {α : Type _} (le : α → α → Bool) : List α → List α
  | [] => []
  | x :: xs => insertBy le x (sorted le xs)

/-- Python's `str` ordering: lexicographic by code point. -/
def strLe (a b : Str) : Bool := decide (a ≤ b)

/-- Keep the first occurrence of each element: iteration order of `dict.fromkeys(l)`, and a
canonical choice of order for `set(l)`. -/
def dedup {α : Type _} [DecidableEq α] : List α → List α
  | [] => []
  | x :: xs => x :: (dedup xs).filter (· ≠ x)

end Py
end Mabel
