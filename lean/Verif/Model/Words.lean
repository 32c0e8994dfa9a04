import Verif.Model.Text

/-!
# Words of a text and names of fields

Models `tokenize` (mabel/utils/text.py:9-12) and `safe_field_name` (mabel/utils/__init__.py:4-9).  `str.lower` is a parameter.
-/

namespace Mabel.Text
open Mabel.Py

/-- The white space that is left in a text of valid characters (text.py:5 `string.whitespace`). -/
def isBlank (c : Char) : Bool := [' ', '\t', '\n', '\r', '\x0b', '\x0c'].contains c

/-- `str.split()`, with what has been read of a word; simplified: only the white space of ASCII. -/
def splitGo : Str → Str → List Str
  | w, [] => if w = [] then [] else [w]
  | w, c :: cs =>
    if isBlank c then (if w = [] then splitGo [] cs else w :: splitGo [] cs)
    else splitGo (w ++ [c]) cs

/-- text.py:9-12 `tokenize` -/
def tokenize (lower : Str → Str) (text : Str) : List Str :=
  splitGo [] ((lower text).filter (fun c => validCharacters.contains c))

/-- utils/__init__.py:8: the characters that are kept -/
def safeCharacters : Str :=
  ("abcdefghijklmnopqrstuvwxyz" ++ "ABCDEFGHIJKLMNOPQRSTUVWXYZ" ++ "0123456789" ++ "_-").toList

/-- utils/__init__.py:4-9 `safe_field_name`: the runs of other characters are replaced by nothing -/
def safeFieldName (name : Str) : Str := name.filter (fun c => safeCharacters.contains c)

end Mabel.Text
