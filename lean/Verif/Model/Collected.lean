import Verif.Model.DictSet

/-!
# Collected sets

Models mabel/data/internals/collected_set.py.  Values are those of `Value` (all hashable, no floats).
-/

namespace Mabel.Collected
open Mabel.Py

/-- What Python's `==` and `hash` compare: True is 1 and False is 0 -/
def norm : Value → Value
  | .bool b => .int b.toInt
  | v => v

/-- `my_item.pop(column, None)`: the record without the field -/
def without (column : Str) (r : Record) : Record := r.filter (fun kv => kv.1 != column)

abbrev Collections := List (Value × List Record)

/-- collected_set.py:34 `collections.setdefault(key, []).append(my_item)` -/
def append : Collections → Value → Record → Collections
  | [], key, item => [(key, [item])]
  | (k, items) :: rest, key, item =>
    if norm k = norm key then (k, items ++ [item]) :: rest else (k, items) :: append rest key item

/-- collected_set.py:31-34: the loop -/
def collectLoop (column : Str) : Collections → List Record → Collections
  | cs, [] => cs
  | cs, r :: rest => collectLoop column (append cs (r.get column) (without column r)) rest

/-- `frozenset(a.items()) == frozenset(b.items())` -/
def sameItems (a b : Record) : Bool :=
  a.all (fun x => b.any (fun y => x.1 == y.1 && norm x.2 == norm y.2)) &&
  b.all (fun y => a.any (fun x => x.1 == y.1 && norm x.2 == norm y.2))

/-- `d[frozenset(i.items())] = i`, as the values of `d` -/
def putItem : List Record → Record → List Record
  | [], i => [i]
  | x :: rest, i => if sameItems x i then i :: rest else x :: putItem rest i

/-- collected_set.py:37 `{frozenset(i.items()): i for i in v}.values()` -/
def uniqueItems (v : List Record) : List Record := v.foldl putItem []

/-- collected_set.py:10-40 `CollectedSet(dictset, column, dedupe)` -/
def collect (hash : Str → BitVec 64) (column : Str) (dedupe : Bool) (dictset : List Record) : Collections :=
  if dedupe then
    (collectLoop column [] (DictSet.distinct hash [] dictset)).map (fun kv => (kv.1, uniqueItems kv.2))
  else collectLoop column [] dictset

/-- What `count` returns. -/
inductive Count
  | one (n : Nat)
  | each (counts : List (Value × Nat))
  deriving DecidableEq, Repr

/-- collected_set.py:42-58 `count(collection)` (59: the last of the list, which has one member at most) -/
def count (cs : Collections) (collection : Value) : Count :=
  match collection with
  | .none => .each (cs.map (fun kv => (kv.1, kv.2.length)))
  | collection =>
    match ((cs.filter (fun kv => norm kv.1 == norm collection)).map (fun kv => kv.2.length)).getLast? with
    | some n => .one n
    | none => .one 0

/-- collected_set.py:60-78 `aggregate(column, method)` -/
def aggregate {β : Type} (cs : Collections) (column : Str) (method : List Value → β) : List (Value × β) :=
  cs.map (fun kv => (kv.1, method ((kv.2.map (·.get column)).filter (· != .none))))

/-- collected_set.py:80-89 `apply(method)` -/
def apply {β : Type} (cs : Collections) (method : List Record → β) : List (Value × β) :=
  cs.map (fun kv => (kv.1, method kv.2))

/-- collected_set.py:103-104 `item in collected` -/
def contains (cs : Collections) (item : Value) : Bool := cs.any (fun kv => norm kv.1 == norm item)

/-- collected_set.py:118-119 `collected[item]`: the records of the SubCollection -/
def get (cs : Collections) (item : Value) : List Record :=
  ((cs.find? (fun kv => norm kv.1 == norm item)).map (·.2)).getD []

/-- collected_set.py:111-117 `collected[item, ...]`: `newg._collections` has no entries to append to -/
def getMany (cs : Collections) : List Value → Except Err Collections
  | [] => .ok []
  | entry :: rest => if contains cs entry then .error .keyError else getMany cs rest

/-- collected_set.py:121-124 `items()` -/
def items (cs : Collections) : List (Value × Record) := cs.flatMap (fun kv => kv.2.map (fun i => (kv.1, i)))

/-- collected_set.py:133-140 `collected[group][column]`, for a column's name -/
def subValues (cs : Collections) (group : Value) (column : Str) : List Value :=
  DictSet.collectList column (get cs group)

end Mabel.Collected
