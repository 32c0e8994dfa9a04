import Verif.Spec.Evaluator

/-! # Specification of the functions of SQL statements (C106) -/

namespace Mabel.FunctionTable.Spec
open Mabel.Py Mabel.Filters Mabel.Evaluator.Spec
open Mabel.Tokenizer.Spec (capitals)

/-- The value that is not there. -/
abbrev null : Datum := .one .none

/-- How many arguments functions take, if that is a fixed number. -/
def arity : List (String × Nat) := [("YEAR", 1), ("MONTH", 1), ("DAY", 1), ("DATE", 1), ("QUARTER", 1), ("WEEK", 1), ("HOUR", 1),
  ("MINUTE", 1), ("SECOND", 1), ("TIME", 1), ("ADDDAYS", 2), ("DAYSDIFF", 2), ("UCASE", 1), ("UPPER", 1), ("LCASE", 1), ("LOWER", 1),
  ("TRIM", 1), ("LEN", 1), ("STRING", 1), ("LEFT", 2), ("RIGHT", 2), ("MID", 3), ("TRUNC", 1), ("INTEGER", 1), ("DOUBLE", 1),
  ("BOOLEAN", 1), ("ISNONE", 1), ("HASH", 1), ("MD5", 1), ("BETWEEN", 3), ("SORT", 1)]

/-- Functions of one argument that have a value for every argument. -/
def harmless : List Str := ["YEAR", "MONTH", "DAY", "QUARTER", "WEEK", "HOUR", "MINUTE", "SECOND", "UCASE", "UPPER", "LCASE", "LOWER", "TRIM",
  "STRING", "BOOLEAN", "ISNONE"].map String.toList

mutual
/-- An item that uses only such functions, CONCAT, and DAYSDIFF. -/
def Harmless : Sel → Prop
  | .leaf _ _ => True
  | .call f args _ => HarmlessArgs args ∧
      ((capitals f ∈ harmless ∧ args.length = 1) ∨ capitals f = "CONCAT".toList ∨ (capitals f = "DAYSDIFF".toList ∧ args.length = 2))

def HarmlessArgs : List Sel → Prop
  | [] => True
  | s :: ss => Harmless s ∧ HarmlessArgs ss
end

end Mabel.FunctionTable.Spec
