import Verif.Py.Basic

/-!
# Colours in text: mabel/utils/colors.py
-/

namespace Mabel.Colors
open Mabel.Py

/-- colors.py:1-30 `COLORS`, in the order of the dictionary. -/
def colors : List (Str × Str) :=
  [("{OFF}", "\x1b[0m"),
   ("{BLACK}", "\x1b[0;30m"), ("{RED}", "\x1b[0;31m"), ("{GREEN}", "\x1b[0;32m"), ("{YELLOW}", "\x1b[0;33m"),
   ("{BLUE}", "\x1b[0;34m"), ("{PURPLE}", "\x1b[0;35m"), ("{CYAN}", "\x1b[0;36m"), ("{WHITE}", "\x1b[0;37m"),
   ("{BOLD_BLACK}", "\x1b[1;30m"), ("{BOLD_RED}", "\x1b[1;31m"), ("{BOLD_GREEN}", "\x1b[1;32m"),
   ("{BOLD_YELLOW}", "\x1b[1;33m"), ("{BOLD_BLUE}", "\x1b[1;34m"), ("{BOLD_PURPLE}", "\x1b[1;35m"),
   ("{BOLD_CYAN}", "\x1b[1;36m"), ("{BOLD_WHITE}", "\x1b[1;37m"),
   ("{UNDERLINE_BLACK}", "\x1b[4;30m"), ("{UNDERLINE_RED}", "\x1b[4;31m"), ("{UNDERLINE_GREEN}", "\x1b[4;32m"),
   ("{UNDERLINE_YELLOW}", "\x1b[4;33m"), ("{UNDERLINE_BLUE}", "\x1b[4;34m"), ("{UNDERLINE_PURPLE}", "\x1b[4;35m"),
   ("{UNDERLINE_CYAN}", "\x1b[4;36m"), ("{UNDERLINE_WHITE}", "\x1b[4;37m")].map fun kv => (kv.1.toList, kv.2.toList)

/-- colors.py:33-40 `colorize` -/
def colorize (record : Str) (canColorize : Bool) : Str :=
  if canColorize then colors.foldl (fun record kv => replace kv.1 kv.2 record) record
  else colors.foldl (fun record kv => replace kv.1 [] record) record

end Mabel.Colors
