import Verif.Model.Dates
import Verif.Model.Records

/-!
# XML

Models mabel/data/internals/xmler.py.  The XML parser itself (`ElementTree.XML`) is not modelled: an element is given by its
tag, its attributes, the text before its first child, its children and the text after it (`tail`).  White space is ASCII
white space.  The module imports `cElementTree`, which Python has had only up to version 3.8.
-/

namespace Mabel.Xml
open Mabel.Py Mabel.Dates Mabel.Records

/-- An element. -/
inductive Xml
  | el (tag : Str) (attrs : List (Str × Str)) (text : Option Str) (children : List Xml) (tail : Option Str)
  deriving Repr

def Xml.tag : Xml → Str
  | .el t _ _ _ _ => t

/-- What elements become. -/
inductive XVal
  | none
  | text (s : Str)
  | dict (d : List (Str × XVal))
  | list (l : List XVal)
  deriving Repr

/-- `dd[k].append(v)`, with `dd = defaultdict(list)` -/
def addTo {β : Type} : List (Str × List β) → Str → β → List (Str × List β)
  | [], k, v => [(k, [v])]
  | kv :: d, k, v => if kv.1 = k then (kv.1, kv.2 ++ [v]) :: d else kv :: addTo d k v

/-- xmler.py:31-34: the children's values by tag -/
def group {β : Type} (items : List (Str × β)) : List (Str × List β) := items.foldl (fun d kv => addTo d kv.1 kv.2) []

/-- xmler.py:35: `v[0] if len(v) == 1 else v` -/
def unwrap : List XVal → XVal
  | [v] => v
  | l => .list l

/-- `d.update(items)` -/
def update {β : Type} (d : List (Str × β)) (items : List (Str × β)) : List (Str × β) := items.foldl (fun d kv => put d kv.1 kv.2) d

/-- xmler.py:38-45: the text, and the value so far (none for None) -/
def withText (d : Option (List (Str × XVal))) : Option Str → XVal
  | none | some [] => match d with | some d => .dict d | none => .none
  | some (c :: cs) =>
    let text := strip (c :: cs)
    match d with
    | some d => if text ≠ [] then .dict (put d "#text".toList (.text text)) else .dict d
    | none => .text text

mutual
/-- xmler.py:27-45 `etree_to_dict`: the value of the one entry of the result, whose key is the tag -/
def valueOf : Xml → XVal
  | .el _ attrs text children _ =>
    let d : Option (List (Str × XVal)) :=
      if children ≠ [] then some ((group (entriesOf children)).map (fun kv => (kv.1, unwrap kv.2)))
      else if attrs ≠ [] then some [] else none
    let d := d.map (fun d => if attrs ≠ [] then update d (attrs.map (fun a => ('@' :: a.1, .text a.2))) else d)
    withText d text

/-- xmler.py:32-33: the results for the children -/
def entriesOf : List Xml → List (Str × XVal)
  | [] => []
  | c :: cs => (c.tag, valueOf c) :: entriesOf cs
end

/-- xmler.py:27-45 `etree_to_dict` -/
def etreeToDict (t : Xml) : List (Str × XVal) := [(t.tag, valueOf t)]

/-- `k.split("}", 1)[1]` -/
def afterBrace (k : Str) : Except Err Str :=
  match k.dropWhile (· ≠ '}') with
  | [] => .error .indexError
  | _ :: r => .ok r

/-- `entry.pop(k)`, for a key that is there -/
def pop {β : Type} : List (Str × β) → Str → Option (β × List (Str × β))
  | [], _ => none
  | kv :: d, k => if kv.1 = k then some (kv.2, d) else (pop d k).map (fun r => (r.1, kv :: r.2))

/-- xmler.py:11-13 and 14-16: one round of renaming, `entry[prefix + k2] = entry.pop(k)` for the given keys -/
def renames {β : Type} (pre : Str) : List Str → List (Str × β) → Except Err (List (Str × β))
  | [], d => .ok d
  | k :: ks, d => do
    let k2 ← afterBrace k
    match pop d k with
    | none => .error .keyError
    | some (v, d) => renames pre ks (put d (pre ++ k2) v)

/-- xmler.py:11-16: both rounds -/
def renameKeys {β : Type} (d : List (Str × β)) : Except Err (List (Str × β)) := do
  let d ← renames [] ((d.map Prod.fst).filter (startsWith "{".toList)) d
  renames "@".toList ((d.map Prod.fst).filter (startsWith "@{".toList)) d

/-- the values in order -/
def sequenceItems {β : Type} : List (Str × Except Err β) → Except Err (List (Str × β))
  | [] => .ok []
  | (k, v) :: rest => do .ok ((k, ← v) :: (← sequenceItems rest))

mutual
/-- xmler.py:9-24 `strip_namespace`.  The values are renamed inside after the keys (17-19); what a value becomes does not
depend on its key, so it is worked out first. -/
def stripNs : XVal → Except Err XVal
  | .none => .ok .none
  | .text s => .ok (.text s)
  | .dict d => do .ok (.dict (← sequenceItems (← renameKeys (stripItems d))))
  | .list l => do .ok (.list (← stripList l))

def stripItems : List (Str × XVal) → List (Str × Except Err XVal)
  | [] => []
  | (k, v) :: rest => (k, stripNs v) :: stripItems rest

/-- xmler.py:20-23 -/
def stripList : List XVal → Except Err (List XVal)
  | [] => .ok []
  | v :: rest => do .ok ((← stripNs v) :: (← stripList rest))
end

/-- xmler.py:48-52 `parse`, from the element tree on -/
def parse (t : Xml) : Except Err XVal := stripNs (.dict (etreeToDict t))

end Mabel.Xml
