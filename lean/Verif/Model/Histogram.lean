import Verif.Py.Basic
import Mathlib.Data.Rat.Floor

/-!
# Histograms

Models mabel/data/internals/histogram.py.  Numbers are rational and arithmetic is exact (the code divides
floats, whose rounding is not modelled).
-/

namespace Mabel.Histogram
open Mabel.Py

/-- `int(q)`: towards zero -/
def trunc (q : Rat) : Int := if 0 ≤ q then ⌊q⌋ else ⌈q⌉

/-- `bins[i] += 1` -/
def bump (bins : List Nat) (i : Int) : Except Err (List Nat) :=
  let j : Int := if i < 0 then i + bins.length else i
  if j < 0 ∨ bins.length ≤ j.toNat then .error .indexError else .ok (bins.modify j.toNat (· + 1))

/-- `min(values)` of at least one -/
def least (v : Rat) (vs : List Rat) : Rat := vs.foldl min v

/-- `max(values)` of at least one -/
def greatest (v : Rat) (vs : List Rat) : Rat := vs.foldl max v

/-- histogram.py:7-18 `Histogram(values, number_of_bins=n)`, its `bins` -/
def build (values : List Rat) (n : Nat) : Except Err (List Nat) :=
  match values with
  | [] => .error .valueError
  | v :: vs =>
    if (n : Int) - 1 = 0 then .error .zeroDivision
    else
      let mn := least v vs
      let mx := greatest v vs
      let interval : Rat := ((1 + mx) - mn) / ((n : Int) - 1 : Int)
      (v :: vs).foldlM (fun bins v => bump bins (trunc ((v - mn) / interval))) (List.replicate n 0)

/-- histogram.py:3 `BAR_CHARS` -/
def barChars : List Char := " ▁▂▃▄▅▆▇█".toList

/-- histogram.py:20-38 `__repr__` -/
def draw (bins : List Nat) : Except Err Str :=
  match bins with
  | [] => .error .valueError
  | b :: bs =>
    let mx : Nat := bs.foldl max b
    if mx = 0 then .ok (">".toList ++ List.replicate bins.length ' ' ++ "<".toList)
    else do
      let bars ← bins.mapM (fun (value : Nat) =>
        if value = 0 then index barChars 0 else index barChars (trunc ((value : Rat) / ((mx : Rat) / 8))))
      .ok (">".toList ++ bars ++ "<".toList)

end Mabel.Histogram
