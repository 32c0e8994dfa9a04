import Verif.Model.Display
import Mathlib.Data.List.Defs

/-! # What is read in a cell of a table (specification) -/

namespace Mabel.Display
open Mabel.Py

/-- Texts one after the other, with a comma and a space between them. -/
inductive Commas : List Str → Str → Prop
  | none : Commas [] []
  | one (t : Str) : Commas [t] t
  | more {t u : Str} {us : List Str} {s : Str} : Commas (u :: us) s → Commas (t :: u :: us) (t ++ ", ".toList ++ s)

/-- What is read in the cell of a value: texts and other objects as they are, `[ a, b ]` for a list and `{ "k": v, "l": w }` for a
dictionary. -/
inductive Reads : Cell → Str → Prop
  | text (s : Str) : Reads (.text s) s
  | other (s : Str) : Reads (.other s) s
  | dict {d : List (Str × Str)} {s : Str} : Commas (d.map (fun kv => "\"".toList ++ kv.1 ++ "\": ".toList ++ kv.2)) s →
      Reads (.dict d) ("{ ".toList ++ s ++ " }".toList)
  | list {l : List Cell} {ts : List Str} {s : Str} : List.Forall₂ Reads l ts → Commas ts s → Reads (.list l) ("[ ".toList ++ s ++ " ]".toList)

/-- The value of a record in a column; nothing, if it does not have it. -/
inductive In (r : Row) (c : Str) : Cell → Prop
  | has {v : Cell} : r.find? (fun kv => kv.1 == c) = some (c, v) → In r c v
  | hasNot : c ∉ r.map Prod.fst → In r c (.text [])

end Mabel.Display
