import Verif.Py.Value

/-! # Specification of collected sets (C59) -/

namespace Mabel.Collected.Spec

/-- Values that are equal: the same, or a boolean and the number it counts as. -/
inductive Same : Value → Value → Prop
  | same (v : Value) : Same v v
  | yes : Same (.bool true) (.int 1)
  | yes' : Same (.int 1) (.bool true)
  | no : Same (.bool false) (.int 0)
  | no' : Same (.int 0) (.bool false)

/-- The collections of some records by a column.  A record without the column has None for it. -/
structure Groups (column : Str) (l : List Record) (cs : List (Value × List Record)) : Prop where
  /-- no two are for the same value -/
  differ : cs.Pairwise (fun a b => ¬ Same a.1 b.1)
  /-- every record is in one -/
  all : ∀ r ∈ l, ∃ c ∈ cs, Same (r.get column) c.1
  /-- they are for values of records, in the order in which these come -/
  order : (cs.map (·.1)).Sublist (l.map (·.get column))
  /-- each is named by the first record with its value -/
  first : ∀ c ∈ cs, ∃ before r after, l = before ++ r :: after ∧ r.get column = c.1 ∧ ∀ x ∈ before, ¬ Same (x.get column) c.1
  /-- each holds exactly the records with its value, in their order, without the column -/
  groups : ∀ c ∈ cs, ∀ has : Record → Bool, (∀ r, has r = true ↔ Same (r.get column) c.1) →
    c.2 = (l.filter has).map (fun r => r.filter (fun kv => decide (kv.1 ≠ column)))

/-- Records with the same fields, and equal values in them, in any order. -/
def SameFields (a b : Record) : Prop :=
  (∀ x ∈ a, ∃ y ∈ b, x.1 = y.1 ∧ Same x.2 y.2) ∧ (∀ y ∈ b, ∃ x ∈ a, x.1 = y.1 ∧ Same x.2 y.2)

/-- The collections of some records by a column, without records that are the same but for the column. -/
structure Deduped (column : Str) (d : List Record) (cs : List (Value × List Record)) : Prop where
  /-- no two are for the same value -/
  differ : cs.Pairwise (fun a b => ¬ Same a.1 b.1)
  /-- they are for values of records, in the order in which these come -/
  order : (cs.map (·.1)).Sublist (d.map (·.get column))
  /-- what is in one is a record with its value, without the column -/
  right : ∀ c ∈ cs, ∀ x ∈ c.2, ∃ r ∈ d, Same (r.get column) c.1 ∧ x = r.filter (fun kv => decide (kv.1 ≠ column))
  /-- no two in one are the same -/
  once : ∀ c ∈ cs, c.2.Pairwise (fun a b => ¬ SameFields a b)
  /-- every record has the same as it, in the one for its value -/
  all : ∀ r ∈ d, ∃ c ∈ cs, Same (r.get column) c.1 ∧ ∃ x ∈ c.2, SameFields (r.filter (fun kv => decide (kv.1 ≠ column))) x

end Mabel.Collected.Spec
