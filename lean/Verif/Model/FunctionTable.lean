import Verif.Model.Functions
import Verif.Model.Evaluator
import Mathlib.Data.Rat.Floor

/-!
# The functions of SQL statements, by name

Models mabel/data/readers/internals/inline_functions.py:192-234 `FUNCTIONS` on the values that records hold (None, truth values,
numbers, texts, datetimes and lists of these); the functions themselves are in Model/Functions.lean.  DATE, TIME, NOW, HASH,
MD5 and RANDOM, and ADDDAYS of a number of days that is not whole and ROUND to a number of digits are parameters (`other`).  A float is a fraction.
-/

namespace Mabel.FunctionTable
open Mabel.Py Mabel.Dates Mabel.Tokens Mabel.Filters Mabel.Functions

/-- The library functions that are not modelled. -/
structure Lib where
  lib : Filters.Lib
  lex : Lex
  other : Str → List Datum → Except Err Datum

inductive Fn
  | year | month | day | date | quarter | week | hour | minute | second | time | now | addDays | daysDiff
  | upper | lower | trim | len | string | left | right | mid | concat
  | round | trunc | integer | double | boolean | isNone | hash | md5 | random | between | sort
  deriving DecidableEq, Repr

/-- inline_functions.py:192-234: the names -/
def names : List (Str × Fn) := [
  ("YEAR", .year), ("MONTH", .month), ("DAY", .day), ("DATE", .date), ("QUARTER", .quarter), ("WEEK", .week), ("HOUR", .hour),
  ("MINUTE", .minute), ("SECOND", .second), ("TIME", .time), ("NOW", .now), ("ADDDAYS", .addDays), ("DAYSDIFF", .daysDiff),
  ("UCASE", .upper), ("UPPER", .upper), ("LCASE", .lower), ("LOWER", .lower), ("TRIM", .trim), ("LEN", .len), ("STRING", .string),
  ("LEFT", .left), ("RIGHT", .right), ("MID", .mid), ("CONCAT", .concat), ("ROUND", .round), ("TRUNC", .trunc),
  ("INTEGER", .integer), ("DOUBLE", .double), ("BOOLEAN", .boolean), ("ISNONE", .isNone), ("HASH", .hash), ("MD5", .md5),
  ("RANDOM", .random), ("BETWEEN", .between), ("SORT", .sort)].map (fun x => (x.1.toList, x.2))

/-- What the date functions look at: a text or a datetime; anything else gives None. -/
def arg : Datum → Arg
  | .one (.str s) => .str s
  | .one (.date d) => .datetime d
  | _ => .none

/-- A part of a datetime that is a number, or None. -/
def ofPart : PartValue → Datum
  | .num n => .one (.int n)
  | _ => .one .none

/-- `trunc(q)` and `int(q)`: towards nought -/
def truncate (q : Rat) : Int := if q < 0 then -⌊-q⌋ else ⌊q⌋

/-- `round(q)`: to the nearest, halves to the even one -/
def roundHalfEven (q : Rat) : Int :=
  let f := ⌊q⌋
  if q - f < 1 / 2 then f else if 1 / 2 < q - f then f + 1 else if f % 2 = 0 then f else f + 1

/-- `int(y)` -/
def toInt : Datum → Except Err Int
  | .one (.int i) => .ok i
  | .one (.bool b) => .ok b.toInt
  | .one (.float q) => .ok (truncate q)
  | .one (.str s) => pyInt s
  | _ => .error .typeError

/-- `float(x)`: whole numbers are rounded to 53 bits -/
def toFloat (L : Lib) : Datum → Except Err Rat
  | .one (.int i) => (floatNat i.natAbs).map (fun n => if i < 0 then -(n : Rat) else n)
  | .one (.bool b) => .ok (if b then 1 else 0)
  | .one (.float q) => .ok q
  | .one (.str s) => match L.lex.float s with
    | some q => .ok q
    | none => .error .valueError
  | _ => .error .typeError

/-- inline_functions.py:176-182 `parse_number` -/
def parseNumber (L : Lib) (coerce : Rat → Datum) (x : Datum) : Except Err Datum :=
  if x = .one .none then .ok (.one .none) else (toFloat L x).map coerce

/-- one step of sorting: before the first that is not less -/
def place (a : Scalar) : List Scalar → List Scalar
  | [] => [a]
  | b :: bs => if b.lt a = .ok true then b :: place a bs else a :: b :: bs

/-- `sorted(x)`: equal ones keep their order.  It raises exactly when some two cannot be compared: each sorting compares every two
that end up side by side, and what can be compared with the same can be compared with each other. -/
def sorted (l : List Scalar) : Except Err (List Scalar) :=
  if l.Pairwise (fun a b => (a.lt b).isOk = true) then .ok (l.foldr place []) else .error .typeError

/-- `low < val < high`: the second comparison is made if the first holds -/
def strictlyBetween (val low high : Datum) : Except Err Bool :=
  match low.lt val with
  | .ok true => val.lt high
  | r => r

def text (s : Str) : Except Err Datum := .ok (.one (.str s))

/-- inline_functions.py:156-161 `add_days`, of a number of days that is whole -/
def plusDays (L : Lib) (x y : Datum) : Except Err Datum :=
  match resolve (arg x) with
  | .datetime _ =>
    let by_ (n : Int) : Except Err Datum := (addDays (arg x) n).map (fun a => match a with
      | .datetime t => .one (.date t)
      | _ => .one .none)
    match y with
    | .one (.int n) => by_ n
    | .one (.bool b) => by_ b.toInt
    | .one (.float _) => L.other "ADDDAYS".toList [x, y]
    | _ => .error .typeError
  | _ => .ok (.one .none)

/-- inline_functions.py:192-234: what each does; a number of arguments that it does not take is a TypeError -/
def Fn.call (L : Lib) (name : Str) : Fn → List Datum → Except Err Datum
  | .year, [x] => (getPart .year (arg x)).map ofPart
  | .month, [x] => (getPart .month (arg x)).map ofPart
  | .day, [x] => (getPart .day (arg x)).map ofPart
  | .quarter, [x] => (getPart .quarter (arg x)).map ofPart
  | .hour, [x] => (getPart .hour (arg x)).map ofPart
  | .minute, [x] => (getPart .minute (arg x)).map ofPart
  | .second, [x] => (getPart .second (arg x)).map ofPart
  | .week, [x] => .ok (.one ((getWeek (arg x)).elim .none .int))
  | .addDays, [x, y] => plusDays L x y
  | .daysDiff, [x, y] => (diffDays (arg x) (arg y)).map (fun n => .one (n.elim .none .int))
  | .upper, [x] => text (L.lex.upper (str L.lib x))
  | .lower, [x] => text (L.lib.lower (str L.lib x))
  | .trim, [x] => text (strip (str L.lib x))
  | .len, [.one (.str s)] => .ok (.one (.int s.length))
  | .len, [.list l] => .ok (.one (.int l.length))
  | .string, [.list l] => text (concatList (l.map (fun x => str L.lib (.one x))))
  | .string, [x] => text (str L.lib x)
  | .left, [x, y] => do text (Functions.left (str L.lib x) (← toInt y))
  | .right, [x, y] => do text (Functions.right (str L.lib x) (← toInt y))
  | .mid, [x, y, z] => do text (Functions.mid (str L.lib x) (← toInt y) (← toInt z))
  | .concat, [.list l] => text (concatList (l.map (fun x => str L.lib (.one x))))
  | .concat, xs => text (Functions.concat (xs.map (str L.lib)))
  | .round, [.one (.int i)] => .ok (.one (.int i))
  | .round, [.one (.bool b)] => .ok (.one (.int b.toInt))
  | .round, [.one (.float q)] => .ok (.one (.int (roundHalfEven q)))
  | .round, [x, n] => L.other name [x, n]
  | .trunc, [x] => parseNumber L (fun q => .one (.int (truncate q))) x
  | .integer, [x] => parseNumber L (fun q => .one (.int (truncate q))) x
  | .double, [x] => parseNumber L (fun q => .one (.float q)) x
  | .boolean, [x] => .ok (.one (.bool (Functions.boolean L.lex.upper (str L.lib x))))
  | .isNone, [x] => .ok (.one (.bool (x = .one .none)))
  | .between, [v, l, h] => (strictlyBetween v l h).map (fun b => .one (.bool b))
  | .sort, [.list l] => (sorted l).map .list
  | .sort, [.one (.str s)] => (sorted (s.map (fun c => .str [c]))).map .list
  | .date, [x] | .time, [x] | .hash, [x] | .md5, [x] => L.other name [x]
  | .now, [] | .random, [] => L.other name []
  | _, _ => .error .typeError

/-- inline_evaluator.py:157 `FUNCTIONS[name](*arguments)` -/
def call (L : Lib) : Evaluator.Funs := fun name args =>
  match names.lookup name with
  | some f => f.call L name args
  | none => .error .keyError

end Mabel.FunctionTable
