import Verif.Model.Paths
import Verif.Model.Text

/-!
# Where the stream writer puts a record

Models mabel/data/writers/stream_writer.py:104-157, the computation of the targets.

Python iterates over `set`s of placeholder names and of value combinations in an arbitrary order;
the order is a parameter here (`names`, `combos`), constrained only by what the sets contain.
Records are dictionaries: the `hasattr(record, "dict")` / `dump_model` conversions are not modelled.
-/

namespace Mabel.Targets
open Mabel.Py

/-- Find the `}` that ends a placeholder: `.*?\}` with `.` not matching a newline.  Returns the text
before it and the text after it. -/
def closing : Str → Option (Str × Str)
  | [] => none
  | '}' :: cs => some ([], cs)
  | '\n' :: _ => none
  | c :: cs => match closing cs with
    | some (a, b) => some (c :: a, b)
    | none => none

/-- stream_writer.py:129 `re.findall(r"\{(.*?)\}", identity)`, with fuel. -/
def placeholdersAux : Nat → Str → List Str
  | 0, _ => []
  | _, [] => []
  | n + 1, '{' :: cs => match closing cs with
    | some (name, rest) => name :: placeholdersAux n rest
    | none => placeholdersAux n cs
  | n + 1, _ :: cs => placeholdersAux n cs

/-- The placeholders of a path, in order of occurrence. -/
def placeholders (s : Str) : List Str := placeholdersAux s.length s

/-- A field of a record, as the writer looks at it: absent fields read as `None`, lists are several
values, anything else is one value.  `β` is the type of values. -/
inductive Field (β : Type) | one (v : β) | many (vs : List β)

/-- stream_writer.py:138-142. -/
def Field.values {β : Type} : Field β → List β
  | .one v => [v]
  | .many vs => vs

/-- `itertools.product(*values)` -/
def product {β : Type} : List (List β) → List (List β)
  | [] => [[]]
  | vs :: rest => vs.flatMap fun v => (product rest).map (v :: ·)

/-- stream_writer.py:104-118: the path before the placeholders are looked at. -/
def identity (template : Str) (d : DateTime) (valid : Bool) : Str :=
  let p := Paths.dateFormat template d
  if valid then p else p ++ "/BACKOUT/".toList

/-- stream_writer.py:149-150: fill in one combination of values. -/
def substitute {β : Type} (str : β → Str) (path : Str) : List (Str × β) → Str
  | [] => path
  | (k, v) :: kvs => substitute str (replace ('{' :: k ++ ['}']) (Text.sanitize (str v)) path) kvs

/-- stream_writer.py:127-155: the targets of a record whose fields are `field`, given the iteration
order of the set of placeholder names (`names`) and of the set of combinations (`combos`). -/
def targets {β : Type} (str : β → Str) (path : Str) (names : List Str) (combos : List (List β)) :
    List Str :=
  if names.length = 0 then [path] else combos.map fun vs => substitute str path (names.zip vs)

/-- `names` enumerates the set of placeholder names of the path, `combos` the set of combinations
of the record's values for them. -/
structure Enumerates {β : Type} (path : Str) (field : Str → Field β) (names : List Str)
    (combos : List (List β)) : Prop where
  namesNodup : names.Nodup
  namesMem : ∀ n, n ∈ names ↔ n ∈ placeholders path
  combosNodup : combos.Nodup
  combosMem : ∀ vs, vs ∈ combos ↔ vs ∈ product (names.map fun n => (field n).values)

end Mabel.Targets
