import Verif.Model.Dates
import Verif.Model.Filters

/-!
# Tokens

Models mabel/utils/token_labeler.py:27-172: the labels of tokens and the operators of expressions.
Not modelled: tokens that are not texts; `nan` and `inf`, which Python's `float` reads.
-/

namespace Mabel.Tokens
open Mabel.Py Mabel.Dates Mabel.Filters

/-- The library functions that are not modelled. -/
structure Lex where
  /-- `str.upper` -/
  upper : Str → Str
  /-- `float`: none for a ValueError -/
  float : Str → Option Rat
  /-- `re.search(r"^[^\d\W][\w\-\.]*", token)` looks only at the first character: a word character that is not
  a digit -/
  wordStart : Char → Bool

/-- inline_functions.py:192-234, the names -/
def functions : List Str := ["YEAR", "MONTH", "DAY", "DATE", "QUARTER", "WEEK", "HOUR", "MINUTE", "SECOND", "TIME",
  "NOW", "ADDDAYS", "DAYSDIFF", "UCASE", "UPPER", "LCASE", "LOWER", "TRIM", "LEN", "STRING", "LEFT", "RIGHT", "MID",
  "CONCAT", "ROUND", "TRUNC", "INTEGER", "DOUBLE", "BOOLEAN", "ISNONE", "HASH", "MD5", "RANDOM", "BETWEEN",
  "SORT"].map String.toList

/-- group_by.py:20-26, the names -/
def aggregators : List Str := ["SUM", "MAX", "MIN", "COUNT", "AVG"].map String.toList

inductive Op
  | ne | ge | le | gt | lt | eq | isNot | «is» | notLike | like | «matches» | isIn | contains
  deriving DecidableEq, Repr

/-- token_labeler.py:61-77 `OPERATORS` -/
def operators : List (Str × Op) := [
  ("<>".toList, .ne), (">=".toList, .ge), ("<=".toList, .le), (">".toList, .gt), ("<".toList, .lt), ("==".toList, .eq),
  ("!=".toList, .ne), ("=".toList, .eq), ("IS NOT".toList, .isNot), ("IS".toList, .is), ("NOT LIKE".toList, .notLike),
  ("LIKE".toList, .like), ("MATCHES".toList, .matches), ("IN".toList, .isIn), ("CONTAINS".toList, .contains)]

/-- token_labeler.py:80-102 `TOKENS` (those that are given) -/
inductive Label
  | unknown | integer | float | literal | variable | boolean | date | null | left | right | comma | function
  | aggregator | as | everything | operator | and | or | not | empty
  deriving DecidableEq, Repr

/-- `token[1:-1]` -/
def inner (s : Str) : Str := (s.drop 1).dropLast

/-- `token[0] == token[-1] == q` -/
def wrapped (q : Char) (s : Str) : Bool := s.head? == some q && s.getLast? == some q

/-- token_labeler.py:105-172 `get_token_type` -/
def label (lex : Lex) (raw : Str) : Label :=
  let token := strip raw
  let u := lex.upper token
  if token = [] then .empty
  else if wrapped '`' token then .variable
  else if token = "*".toList then .everything
  else if u ∈ functions then .function
  else if (operators.lookup u).isSome then .operator
  else if u ∈ aggregators then .aggregator
  else if wrapped '"' token || wrapped '\'' token then
    if (parseIso (inner token)).isSome then .date else .literal
  else if (pyInt token).isOk then .integer
  else if (lex.float token).isSome then .float
  else if token = "(".toList ∨ token = "[".toList then .left
  else if token = ")".toList ∨ token = "]".toList then .right
  else if token = ",".toList then .comma
  else if lex.wordStart (token.headD ' ') then
    if u = "TRUE".toList ∨ u = "FALSE".toList then .boolean
    else if u = "NULL".toList ∨ u = "NONE".toList then .null
    else if u = "AND".toList then .and
    else if u = "OR".toList then .or
    else if u = "NOT".toList then .not
    else if u = "AS".toList then .as
    else .variable
  else .unknown

/-- token_labeler.py:27-46 `interpret_value`, for a text -/
def interpretQuoted (lex : Lex) (value : Str) : Scalar :=
  let u := lex.upper value
  if u = "TRUE".toList ∨ u = "FALSE".toList then .bool (u = "TRUE".toList)
  else match pyInt value with
  | .ok i => .int i
  | .error _ => match lex.float value with
    | some q => .float q
    | none => match parseIso (inner value) with
      | some d => .date d
      | none => .str (inner value)

/-- token_labeler.py:27-46 `interpret_value` -/
def interpretItem (lex : Lex) : Scalar → Scalar
  | .str s => interpretQuoted lex s
  | v => v

/-- token_labeler.py:49-52 `function_in`: y is a list or a text (its characters), otherwise TypeError -/
def functionIn (lib : Lib) (lex : Lex) (x y : Datum) : Except Err Bool :=
  let items : Except Err (List Scalar) := match y with
    | .list l => .ok l
    | .one (.str s) => .ok (s.map (fun c => .str [c]))
    | _ => .error .typeError
  items.map fun l =>
    ((l.filter (fun i => strip (Filters.str lib (.one i)) ≠ ",".toList)).map (interpretItem lex)).any
      (fun c => x.eq (.one c))

/-- `x is y` -/
def isSame (lib : Lib) : Datum → Datum → Bool
  | .one .none, .one .none => true
  | .one (.bool a), .one (.bool b) => a = b
  | .one .none, _ => false
  | _, .one .none => false
  | .one (.bool _), _ => false
  | _, .one (.bool _) => false
  | a, b => lib.same a b

/-- token_labeler.py:61-77: what each operator does (truth values) -/
def Op.apply (lib : Lib) (lex : Lex) (op : Op) (x y : Datum) : Except Err Bool :=
  match op with
  | .eq => .ok (x.eq y)
  | .ne => .ok (!x.eq y)
  | .lt => x.lt y
  | .gt => y.lt x
  | .le => x.le y
  | .ge => y.le x
  | .is => .ok (isSame lib x y)
  | .isNot => .ok (!isSame lib x y)
  | .like => Filters.like lib x y
  | .notLike => (Filters.like lib x y).map (!·)
  | .matches => Filters.matches lib x y
  | .isIn => functionIn lib lex x y
  | .contains => memberOf y x

end Mabel.Tokens
