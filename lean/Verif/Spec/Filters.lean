import Verif.Model.Filters
import Verif.Spec.Order

/-! # What filters mean -/

namespace Mabel.Filters.Spec
open Mabel.Py Mabel.Filters

/-- A predicate: a field, an operator and a value. -/
structure Atom where
  key : Str
  op : Str
  value : Datum

/-- How a predicate is written. -/
def Atom.tuple (a : Atom) : Pred := .tup (.str a.key) a.op a.value

/-- A flat list of predicates. -/
def flat (as : List Atom) : Pred := .list (as.map Atom.tuple)

/-- A list of lists of predicates. -/
def nested (ass : List (List Atom)) : Pred := .list (ass.map flat)

/-- What the filter says about a record: it accepts it, rejects it, or raises. -/
def verdict (lib : Lib) (filters : Pred) (r : Row) : Except Err Bool := (DnfFilters.init filters).call lib r

/-- The comparisons of integers. -/
def holdsInt (op : String) (x y : Int) : Option Prop :=
  match op with
  | "=" | "==" | "is" => some (x = y)
  | "!=" | "<>" => some (x ≠ y)
  | "<" => some (x < y)
  | ">" => some (y < x)
  | "<=" => some (x ≤ y)
  | ">=" => some (y ≤ x)
  | _ => Option.none

/-- The comparisons of numbers. -/
def holdsNumber (op : String) (x y : Rat) : Option Prop :=
  match op with
  | "=" | "==" | "is" => some (x = y)
  | "!=" | "<>" => some (x ≠ y)
  | "<" => some (x < y)
  | ">" => some (y < x)
  | "<=" => some (x ≤ y)
  | ">=" => some (y ≤ x)
  | _ => Option.none

/-- The comparisons of values of one type. -/
def holdsValue (op : String) (x y : Scalar) : Option Prop :=
  match op with
  | "=" | "==" | "is" => some (Order.Equal x y)
  | "!=" | "<>" => some (¬ Order.Equal x y)
  | "<" => some (Order.Below x y)
  | ">" => some (Order.Below y x)
  | "<=" => some (Order.AtMost x y)
  | ">=" => some (Order.AtMost y x)
  | _ => Option.none

/-- The comparisons of lists. -/
def holdsList (op : String) (x y : List Scalar) : Option Prop :=
  match op with
  | "=" | "==" | "is" => some (Order.AllEqual x y)
  | "!=" | "<>" => some (¬ Order.AllEqual x y)
  | "<" => some (Order.ListBelow x y)
  | ">" => some (Order.ListBelow y x)
  | "<=" => some (¬ Order.ListBelow y x)
  | ">=" => some (¬ Order.ListBelow x y)
  | _ => Option.none

/-- The comparisons of texts. -/
def holdsText (op : String) (x y : Str) : Option Prop :=
  match op with
  | "=" | "==" | "is" => some (x = y)
  | "!=" | "<>" => some (x ≠ y)
  | "<" => some (x < y)
  | ">" => some (y < x)
  | "<=" => some (x ≤ y)
  | ">=" => some (y ≤ x)
  | "in" => some (∃ a b, y = a ++ x ++ b)
  | "!in" | "not in" => some (¬ ∃ a b, y = a ++ x ++ b)
  | "contains" => some (∃ a b, x = a ++ y ++ b)
  | "!contains" => some (¬ ∃ a b, x = a ++ y ++ b)
  | _ => Option.none

/-- Membership in a list of texts. -/
def holdsMember (op : String) (x : Str) (l : List Str) : Option Prop :=
  match op with
  | "in" => some (x ∈ l)
  | "!in" | "not in" => some (x ∉ l)
  | _ => Option.none

/-- How a value that is not a text is written. -/
inductive WrittenAs : Scalar → Str → Prop
  | yes : WrittenAs (.bool true) "True".toList
  | no : WrittenAs (.bool false) "False".toList
  | whole (i : Int) : WrittenAs (.int i) (intStr i)

/-- Lower case leaves the names of the operators as they are. -/
def KeepsOperators (lib : Lib) : Prop := ∀ o ∈ operators, lib.lower o.1 = o.1

end Mabel.Filters.Spec
