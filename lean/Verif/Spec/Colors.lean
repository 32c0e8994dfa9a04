import Verif.Py.Basic

/-! Vocabulary for texts in which words stand for others. -/

namespace Mabel.Colors
open Mabel.Py

/-- The second text is the first, read from the left, with every word of a table replaced by what it stands for. -/
inductive Painted (table : List (Str × Str)) : Str → Str → Prop
  | done : Painted table [] []
  | word {k v s t : Str} : (k, v) ∈ table → Painted table s t → Painted table (k ++ s) (v ++ t)
  | char {c : Char} {s t : Str} : (∀ kv ∈ table, ¬ kv.1 <+: c :: s) → Painted table s t → Painted table (c :: s) (c :: t)

/-- The codes of ANSI terminals: `ESC [ n m` or `ESC [ n ; m m`: 30 to 37 are the colours, 0 is off. -/
def ansi (style colour : Nat) : Str := "\x1b[".toList ++ (Nat.repr style).toList ++ ";3".toList ++ (Nat.repr colour).toList ++ "m".toList

/-- The words for colours and what they stand for. -/
def table : List (Str × Str) :=
  ("{OFF}".toList, "\x1b[0m".toList) ::
  ([("{", 0), ("{BOLD_", 1), ("{UNDERLINE_", 4)].flatMap fun (p : String × Nat) =>
    [("BLACK}", 0), ("RED}", 1), ("GREEN}", 2), ("YELLOW}", 3), ("BLUE}", 4), ("PURPLE}", 5), ("CYAN}", 6), ("WHITE}", 7)].map
      fun (q : String × Nat) => (p.1.toList ++ q.1.toList, ansi p.2 q.2))

/-- The words for colours, each standing for nothing. -/
def blank : List (Str × Str) := table.map fun kv => (kv.1, [])

end Mabel.Colors
