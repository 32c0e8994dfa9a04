import Verif.Py.Num

/-!
# Values and records

Field values: `None`, booleans, integers and strings (floats, dates and nested values are left out
except where a file says otherwise).  A record is a dictionary: an association list in insertion
order; dictionaries have distinct keys (`Record.WF`).
-/

namespace Mabel

inductive Value
  | none
  | bool (b : Bool)
  | int (i : Int)
  | str (s : Str)
  deriving DecidableEq, Repr

abbrev Record := List (Str × Value)

namespace Py

/-- `str(v)` -/
def Value.toStr : Value → Str
  | .none => "None".toList
  | .bool true => "True".toList
  | .bool false => "False".toList
  | .int i => intStr i
  | .str s => s

end Py

namespace Record

/-- A dictionary has each key once. -/
def WF (r : Record) : Prop := (r.map (·.1)).Nodup

/-- `record.keys()` -/
def keys (r : Record) : List Str := r.map (·.1)

/-- `key in record` with the value if so. -/
def lookup (r : Record) (k : Str) : Option Value := (r.find? (fun kv => kv.1 == k)).map (·.2)

/-- `record.get(key)` -/
def get (r : Record) (k : Str) : Value := (r.lookup k).getD .none

/-- `record[key] = value`: replaces in place or appends. -/
def set (r : Record) (k : Str) (v : Value) : Record :=
  if r.any (fun kv => kv.1 == k) then r.map (fun kv => if kv.1 == k then (k, v) else kv)
  else r ++ [(k, v)]

end Record
end Mabel
