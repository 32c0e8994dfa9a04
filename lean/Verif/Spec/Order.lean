import Verif.Model.Filters

/-! # The order of values: numbers by their amount, texts by their characters, datetimes by time -/

namespace Mabel.Order
open Mabel.Py Mabel.Filters

/-- The amount of a number; true is one and false is nought. -/
inductive Amount : Scalar → Rat → Prop
  | yes : Amount (.bool true) 1
  | no : Amount (.bool false) 0
  | whole (i : Int) : Amount (.int i) i
  | fraction (q : Rat) : Amount (.float q) q

/-- Numbers can be compared with numbers, texts with texts and datetimes with datetimes. -/
inductive Comparable : Scalar → Scalar → Prop
  | number {a b : Scalar} {p q : Rat} : Amount a p → Amount b q → Comparable a b
  | text (s t : Str) : Comparable (.str s) (.str t)
  | date (d e : DateTime) : Comparable (.date d) (.date e)

/-- The first value comes before the second. -/
inductive Below : Scalar → Scalar → Prop
  | number {a b : Scalar} {p q : Rat} : Amount a p → Amount b q → p < q → Below a b
  | text {s t : Str} : s < t → Below (.str s) (.str t)
  | date {d e : DateTime} : d.seconds < e.seconds → Below (.date d) (.date e)

/-- `a <= b`: they can be compared, and the second does not come before the first. -/
def AtMost (a b : Scalar) : Prop := Comparable a b ∧ ¬ Below b a

/-- `a == b`: numbers of the same amount, or the same value. -/
def Equal (a b : Scalar) : Prop := a = b ∨ ∃ p, Amount a p ∧ Amount b p

/-- `a == b` for lists: as long, and equal place by place. -/
inductive AllEqual : List Scalar → List Scalar → Prop
  | nil : AllEqual [] []
  | cons {x y : Scalar} {a b : List Scalar} : Equal x y → AllEqual a b → AllEqual (x :: a) (y :: b)

/-- `a < b` for lists: the first place where they differ decides, and a list that ends comes before one that goes on. -/
inductive ListBelow : List Scalar → List Scalar → Prop
  | ends {y : Scalar} {b : List Scalar} : ListBelow [] (y :: b)
  | here {x y : Scalar} {a b : List Scalar} : Below x y → ListBelow (x :: a) (y :: b)
  | later {x y : Scalar} {a b : List Scalar} : Equal x y → ListBelow a b → ListBelow (x :: a) (y :: b)

/-- At the first place where the lists differ the values cannot be compared. -/
inductive Undecided : List Scalar → List Scalar → Prop
  | here {x y : Scalar} {a b : List Scalar} : ¬ Equal x y → ¬ Comparable x y → Undecided (x :: a) (y :: b)
  | later {x y : Scalar} {a b : List Scalar} : Equal x y → Undecided a b → Undecided (x :: a) (y :: b)

end Mabel.Order
