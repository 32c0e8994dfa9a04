import Verif.Py.Value

/-!
# Records

Models mabel/data/internals/records.py.  Field names are texts; a record is a dictionary whose values are
dictionaries, lists or other values.
-/

namespace Mabel.Records
open Mabel.Py

inductive Node
  | leaf (v : Value)
  | dict (d : List (Str × Node))
  | list (l : List Node)
  deriving Repr

/-- `d[k] = v` -/
def put {β : Type} : List (Str × β) → Str → β → List (Str × β)
  | [], k, v => [(k, v)]
  | kv :: d, k, v => if kv.1 = k then (k, v) :: d else kv :: put d k v

/-- `dict(items)` -/
def toDict {β : Type} (items : List (Str × β)) : List (Str × β) := items.foldl (fun d kv => put d kv.1 kv.2) []

mutual
/-- records.py:78-87: the items of one entry, whose name is `key` already -/
def flattenEntry (separator key : Str) : Node → List (Str × Value)
  | .leaf v => [(key, v)]
  | .dict d => toDict (flattenItems separator key d)
  | .list l => flattenList key 0 l

/-- records.py:77-87: the loop; an empty `parent` is no parent (False, or a text that is false) -/
def flattenItems (separator parent : Str) : List (Str × Node) → List (Str × Value)
  | [] => []
  | (k, v) :: rest =>
    flattenEntry separator (if parent = [] then k else parent ++ separator ++ k) v ++ flattenItems separator parent rest

/-- records.py:83-84: the members of a list: `flatten({str(k): v}, new_key)`, where `new_key` is passed as the
separator -/
def flattenList (key : Str) : Nat → List Node → List (Str × Value)
  | _, [] => []
  | i, v :: rest => toDict (flattenEntry key (natStr i) v) ++ flattenList key (i + 1) rest
end

/-- records.py:62-87 `flatten(dictionary, separator)` -/
def flatten (separator : Str) (d : List (Str × Node)) : List (Str × Value) := toDict (flattenItems separator [] d)

/-- records.py:7-20 `select_record_fields` -/
def selectFields (r : Record) (fields : List Str) : Record := toDict (fields.map (fun k => (k, r.get k)))

/-- `a <= b` for items: by name (names are different) -/
def itemLe (a b : Str × Value) : Bool := strLe a.1 b.1

/-- records.py:23-34 `order` -/
def order (r : Record) : Record := toDict (sorted itemLe r)

/-- records.py:37-60 `set_value`, with a function or a constant (a function that ignores its argument) -/
def setValue (r : Record) (field : Str) (setter : Record → Value) : Record := put r field (setter r)

end Mabel.Records
