import Verif.Py.Basic

/-! # mabel/utils/text.py : sanitize -/

namespace Mabel.Text
open Mabel.Py

/-- text.py:5 `VALID_CHARACTERS = string.ascii_letters + string.digits + string.whitespace`. -/
def validCharacters : Str :=
  ("abcdefghijklmnopqrstuvwxyz" ++ "ABCDEFGHIJKLMNOPQRSTUVWXYZ" ++ "0123456789").toList ++
    [' ', '\t', '\n', '\r', '\x0b', '\x0c']

/-- text.py:15-16 `sanitize`. -/
def sanitize (text : Str) (safe : Str := validCharacters) : Str := text.filter (fun c => safe.contains c)

end Mabel.Text
