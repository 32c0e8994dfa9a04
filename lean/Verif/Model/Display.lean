import Verif.Py.Basic
import Verif.Py.Num
import Verif.Py.Value

/-!
# Tables

Models mabel/data/internals/display.py.  Field names are texts.  The columns of the HTML table are a Python set: its
order is a parameter.
-/

namespace Mabel.Display
open Mabel.Py

/-- What a field holds: text, a list (or tuple, set), a dictionary (its values are only ever shown with `str`, so they
are given as shown), or any other object, given as `str` shows it. -/
inductive Cell
  | text (s : Str)
  | list (l : List Cell)
  | dict (d : List (Str × Str))
  | other (shown : Str)
  deriving Repr

abbrev Row := List (Str × Cell)

/-- What `sanitize` returns: a text, or the object it was given. -/
inductive Shown
  | text (s : Str)
  | object (shown : Str)
  deriving DecidableEq, Repr

/-- display.py:30: the escapes, in order -/
def escapes : List (Str × Str) :=
  [("\"".toList, "&quot;".toList), ("'".toList, "&#39;".toList), ("<".toList, "&lt;".toList),
   (">".toList, "&gt;".toList), ("$".toList, "&#x24;".toList)]

/-- display.py:30-35: a text is escaped, `&` first -/
def escape (s : Str) : Str :=
  escapes.foldl (fun s e => replace e.1 e.2 s) (replace "&".toList "&amp;".toList s)

/-- display.py:27 `"{ " + ", ".join(f'"{k}": {v}') + " }"` -/
def showDict (d : List (Str × Str)) : Str :=
  "{ ".toList ++ join ", ".toList (d.map (fun kv => "\"".toList ++ kv.1 ++ "\": ".toList ++ kv.2)) ++ " }".toList

/-- `", ".join(items)`, which wants texts -/
def joinShown : List Shown → Except Err (List Str)
  | [] => .ok []
  | .object _ :: _ => .error .typeError
  | .text s :: rest => (joinShown rest).map (s :: ·)

/- display.py:23-36 `sanitize` -/
mutual
def sanitize : Cell → Except Err Shown
  | .list l => do
    let items ← sanitizeAll l
    let texts ← joinShown items
    .ok (.text ("[ ".toList ++ join ", ".toList texts ++ " ]".toList))
  | .dict d => .ok (.text (escape (showDict d)))
  | .other s => .ok (.object s)
  | .text s => .ok (.text (escape s))

def sanitizeAll : List Cell → Except Err (List Shown)
  | [] => .ok []
  | c :: cs => do
    let x ← sanitize c
    let xs ← sanitizeAll cs
    .ok (x :: xs)
end

/-- `f"{value}"` -/
def Shown.str : Shown → Str
  | .text s => s
  | .object s => s

/-- `record.get(column, "")` -/
def cellOf (row : Row) (column : Str) : Cell :=
  match row.find? (fun kv => kv.1 == column) with
  | some kv => kv.2
  | none => .text []

/-- display.py:49-51: one cell -/
def htmlCell (row : Row) (column : Str) : Except Err Str := do
  let v ← sanitize (cellOf row column)
  .ok ("<td title='".toList ++ v.str ++
    "' style='max-width:320px;overflow:hidden;text-overflow:ellipsis;white-space:nowrap;'>".toList ++ v.str ++
    "<td>\n".toList)

/-- The pieces one after the other; the first error ends it -/
def concatM {α : Type} (f : α → Except Err Str) : List α → Except Err Str
  | [] => .ok []
  | x :: xs => do
    let a ← f x
    let b ← concatM f xs
    .ok (a ++ b)

/-- display.py:48-52: one row -/
def htmlRow (columns : List Str) (row : Row) : Except Err Str := do
  let cells ← concatM (htmlCell row) columns
  .ok ("<tr>".toList ++ cells ++ "</tr>".toList)

/-- display.py:41-45: the headings, written with the first row -/
def htmlHead (columns : List Str) : Str :=
  "<thead class=\"thead-light\"><tr>".toList ++
    columns.flatMap (fun c => "<th>".toList ++ escape c ++ "<th>\n".toList) ++ "</tr></thead><tbody>".toList

/-- display.py:38-54 `_to_html_table` -/
def htmlBody (columns : List Str) (rows : List Row) : Except Err Str := do
  let body ← concatM (htmlRow columns) rows
  .ok ("<table class=\"table table-sm\">".toList ++ (if rows = [] then [] else htmlHead columns) ++ body ++
    "</tbody></table>".toList)

/-- display.py:59-63: the rows read; `taken` of them are read already -/
def htmlRows (limit : Int) : Nat → List Row → List Row
  | _, [] => []
  | taken, row :: rest => if (taken + 1 : Nat) = limit then [row] else row :: htmlRows limit (taken + 1) rest

/-- display.py:62,64: the columns, in the order the set has them -/
def htmlColumns (setOrder : List Str → List Str) (rows : List Row) : List Str :=
  setOrder (dedup (rows.flatMap (fun r => r.map Prod.fst)))

/-- What is shown: a generator, something with a length, or something else (such as the `DumbIterator` that
`DictSet.to_html_table` makes). -/
inductive Source | generator | sized | other
  deriving DecidableEq, Repr

/-- display.py:68-73: the footer -/
def htmlFooter (source : Source) (total shown columns : Nat) : Str :=
  match source with
  | .generator => "\n<p>top ".toList ++ natStr shown ++ " rows x ".toList ++ natStr columns ++ " columns</p>".toList ++
      "\nNOTE: the displayed records may have been spent".toList
  | .sized => "\n<p>".toList ++ natStr total ++ " rows x ".toList ++ natStr columns ++ " columns</p>".toList
  | .other => []

/-- display.py:6-75 `html_table` -/
def htmlTable (setOrder : List Str → List Str) (source : Source) (limit : Int) (dictset : List Row) :
    Except Err Str := do
  let rows := htmlRows limit 0 dictset
  let columns := htmlColumns setOrder rows
  let body ← htmlBody columns rows
  .ok (body ++ htmlFooter source dictset.length rows.length columns.length)

/-! ## Text tables -/

/- display.py:95-100 `format_value` -/
mutual
def formatValue : Cell → Str
  | .list l => "[ ".toList ++ join ", ".toList (formatAll l) ++ " ]".toList
  | .dict d => showDict d
  | .other s => s
  | .text s => s

def formatAll : List Cell → List Str
  | [] => []
  | c :: cs => formatValue c :: formatAll cs
end

/-- `text.center(width)`: the odd space goes to the left when the width is odd (CPython's `pad & width & 1`) -/
def center (width : Nat) (s : Str) : Str :=
  let pad := width - s.length
  let left := pad / 2 + (if pad % 2 = 1 ∧ width % 2 = 1 then 1 else 0)
  List.replicate left ' ' ++ s ++ List.replicate (pad - left) ' '

abbrev Widths := List (Str × Nat)

/-- `columns.get(k, 0)` -/
def widthOf (columns : Widths) (k : Str) : Nat := ((columns.find? (fun kw => kw.1 == k)).map Prod.snd).getD 0

/-- `columns[k] = length` -/
def setWidth : Widths → Str → Nat → Widths
  | [], k, w => [(k, w)]
  | kw :: rest, k, w => if kw.1 = k then (k, w) :: rest else kw :: setWidth rest k w

/-- display.py:112-116: one field widens its column -/
def widen (columns : Widths) (kv : Str × Cell) : Widths :=
  let length := max (formatValue kv.2).length kv.1.length
  if length > widthOf columns kv.1 then setWidth columns kv.1 length else columns

/-- display.py:107-110: the rows read -/
def asciiRows (limit : Int) : Nat → List Row → List Row
  | _, [] => []
  | count, row :: rest => if (count : Int) = limit then [] else row :: asciiRows limit (count + 1) rest

/-- `columns[k]` -/
def getWidth (columns : Widths) (k : Str) : Except Err Nat :=
  match columns.find? (fun kw => kw.1 == k) with
  | some kw => .ok kw.2
  | none => .error .keyError

/-- display.py:131-133: the cells of a row, in the order of the row -/
def asciiCells (columns : Widths) : Row → Except Err (List Str)
  | [] => .ok []
  | (k, v) :: rest => do
    let w ← getWidth columns k
    let cells ← asciiCells columns rest
    .ok (center (w + 2) (formatValue v) :: cells)

def asciiLines (columns : Widths) : List Row → Except Err (List Str)
  | [] => .ok []
  | row :: rest => do
    let cells ← asciiCells columns row
    let lines ← asciiLines columns rest
    .ok (("│".toList ++ join "│".toList cells ++ "│".toList) :: lines)

/-- display.py:77-139 `ascii_table`, as its lines (they are joined with line ends) -/
def asciiTable (limit : Int) (dictset : List Row) : Except Err (List Str) := do
  let cache := asciiRows limit 0 dictset
  let columns := cache.foldl (fun columns row => row.foldl widen columns) []
  let bars := columns.map (fun kw => List.replicate (kw.2 + 2) '─')
  let lines ← asciiLines columns cache
  .ok (["┌".toList ++ join "┬".toList bars ++ "┐".toList,
        "│".toList ++ join "│".toList (columns.map (fun kw => center (kw.2 + 2) kw.1)) ++ "│".toList,
        "├".toList ++ join "┼".toList bars ++ "┤".toList] ++ lines ++
       ["└".toList ++ join "┴".toList bars ++ "┘".toList])

end Mabel.Display
