import Verif.Model.Summaries

/-!
# Mean and variance of a column

Models mabel/data/internals/dictset.py 245-263 with the library's `statistics.mean` and `statistics.variance`, which compute with
exact fractions; the conversion of the result to a float is left out.  `standard_deviation` (265-273), the rounded square root of the
variance, is not modelled.
-/

namespace Mabel.Summaries
open Mabel.Py Mabel.Filters

/-- `statistics._exact_ratio` of every value: anything but a number raises TypeError -/
def ratios : List Datum → Except Err (List Rat)
  | [] => .ok []
  | .one a :: vs => match a.num with
    | some q => do .ok (q :: (← ratios vs))
    | none => .error .typeError
  | .list _ :: _ => .error .typeError

/-- dictset.py:245-253 `mean`; the library's StatisticsError is a ValueError -/
def mean (key : Str) (rows : List Row) : Except Err Rat := do
  let xs ← ratios (collectList key rows)
  if xs.length < 1 then .error .valueError else .ok (xs.sum / xs.length)

/-- dictset.py:255-263 `variance`: the library keeps the number of values, their sum and the sum of their squares
(`statistics._ss`) -/
def variance (key : Str) (rows : List Row) : Except Err Rat := do
  let xs ← ratios (collectList key rows)
  if xs.length < 2 then .error .valueError
  else
    let n : Rat := xs.length
    let sx := xs.sum
    let sxx := (xs.map fun x => x * x).sum
    .ok ((n * sxx - sx * sx) / n / (n - 1))

end Mabel.Summaries
