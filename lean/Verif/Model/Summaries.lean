import Verif.Model.Filters

/-!
# Summaries of a column: records of numbers, texts, datetimes and lists

Models mabel/data/internals/dictset.py 149-243 for records with every type of value (`Model/DictSet.lean` has whole numbers and
texts only).  Floats are fractions: rounding is left out.
-/

namespace Mabel.Summaries
open Mabel.Py Mabel.Filters

/-- dictset.py:149-167 `collect_list(key)` for a key that is not empty -/
def collectList (key : Str) (rows : List Row) : List Datum := rows.filterMap fun r => r.lookup key

/-- dictset.py:164-165 `collect_list(None)`: the records themselves -/
def collectAll (rows : List Row) : List Row := rows

/-- dictset.py:391-404 `itake(items)`: the loop with `count` records already yielded -/
def itakeFrom (items : Int) : Nat → List Row → List Row
  | _, [] => []
  | count, x :: xs => if ((count : Int) + 1) = items then [x] else x :: itakeFrom items (count + 1) xs

/-- dictset.py:176,178: `lambda x, y: x + [a for a in y.keys() if a not in x]` from `[]` -/
def gather (rows : List Row) : List Str :=
  rows.foldl (fun x y => x ++ ((y.map (·.1)).filter fun a => !x.contains a)) []

/-- dictset.py:169-181 `keys(number_of_rows)` -/
def keys (numberOfRows : Int) (rows : List Row) : List Str :=
  if numberOfRows > 0 then gather (itakeFrom numberOfRows 0 rows) else gather rows

/-- Python's `x + y`: whole numbers and booleans give a whole number, and anything with a float a float -/
def plus : Datum → Datum → Except Err Datum
  | .one (.str a), .one (.str b) => .ok (.one (.str (a ++ b)))
  | .list a, .list b => .ok (.list (a ++ b))
  | .one (.float p), .one b => match b.num with
    | some q => .ok (.one (.float (p + q)))
    | none => .error .typeError
  | .one a, .one (.float q) => match a.num with
    | some p => .ok (.one (.float (p + q)))
    | none => .error .typeError
  | .one (.int i), .one (.int j) => .ok (.one (.int (i + j)))
  | .one (.int i), .one (.bool j) => .ok (.one (.int (i + j.toInt)))
  | .one (.bool i), .one (.int j) => .ok (.one (.int (i.toInt + j)))
  | .one (.bool i), .one (.bool j) => .ok (.one (.int (i.toInt + j.toInt)))
  | _, _ => .error .typeError

/-- `functools.reduce(f, l)` without an initial value; `f` may raise -/
def reduce {β : Type} (f : β → β → Except Err β) : List β → Except Err β
  | [] => .error .typeError
  | x :: xs => xs.foldlM f x

/-- `max(a, b)`: the first unless the second is greater -/
def pyMax (a b : Datum) : Except Err Datum := do if ← a.lt b then return b else return a

/-- `min(a, b)`: the first unless the second is smaller -/
def pyMin (a b : Datum) : Except Err Datum := do if ← b.lt a then return b else return a

/-- dictset.py:198-206 `max` -/
def greatest (key : Str) (rows : List Row) : Except Err Datum := reduce pyMax (collectList key rows)

/-- dictset.py:208-216 `sum` -/
def total (key : Str) (rows : List Row) : Except Err Datum := (collectList key rows).foldlM plus (.one (.int 0))

/-- dictset.py:218-226 `min` -/
def least (key : Str) (rows : List Row) : Except Err Datum := reduce pyMin (collectList key rows)

/-- dictset.py:228-243 `min_max` -/
def both (key : Str) (rows : List Row) : Except Err (Datum × Datum) :=
  reduce (fun a b => do return (← pyMin a.1 b.1, ← pyMax a.2 b.2)) ((collectList key rows).map fun x => (x, x))

end Mabel.Summaries
