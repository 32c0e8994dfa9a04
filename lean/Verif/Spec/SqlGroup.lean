import Verif.Spec.SqlReader
import Verif.Spec.GroupBy

/-! # Specification of GROUP BY in SQL statements (C49) -/

namespace Mabel.SqlReader.Spec
open Mabel.Py Mabel.Dates Mabel.Tokens Mabel.Filters Mabel.Blobs Mabel.Expression Mabel.Expression.Spec Mabel.Evaluator.Spec Mabel.Sql.Spec
open Mabel.Tokenizer.Spec (capitals)
open Mabel.GroupBy (Func Cell)
open Mabel.GroupBy.Spec (entryName)
open Mabel.GroupBy.Spec (nonNull groupOf Answer)

/-- The columns of GROUP BY: names with commas between and any white space around. -/
inductive ColumnList : List Str → Str → Prop
  | one {c a b} : Name c → Blank a → Blank b → ColumnList [c] (a ++ c ++ b)
  | more {c cs a b t} : Name c → Blank a → Blank b → ColumnList cs t → ColumnList (c :: cs) (a ++ c ++ b ++ ',' :: t)

/-- `SUM(c)` or `COUNT(*)`, and the like. -/
inductive Aggregation : Sel → Func → Str → Prop
  | column {w f c as_} : capitals w = f.name → Name c → Aggregation (.call w [.leaf (.field c) none] as_) f c
  | star {w f as_} : capitals w = f.name → Aggregation (.call w [.leaf .star none] as_) f "*".toList

/-- A select list of grouping columns and aggregations, and its aggregations. -/
inductive GroupList (columns : List Str) : List Sel → List (Func × Str) → Prop
  | nil : GroupList columns [] []
  | column {n as_ ss aggs} : n ∈ columns → GroupList columns ss aggs → GroupList columns (.leaf (.field n) as_ :: ss) aggs
  | agg {s f c ss aggs} : Aggregation s f c → GroupList columns ss aggs → GroupList columns (s :: ss) ((f, c) :: aggs)

/-- A value of a group as a reader shows it. -/
def datum : Value → Datum
  | .none => .one .none
  | .bool b => .one (.bool b)
  | .int i => .one (.int i)
  | .str s => .one (.str s)

/-- An answer as a reader shows it: an average is the total divided by the number of values. -/
def answer : Cell → Datum
  | .val v => datum v
  | .ratio total count => .one (.float ((total : Rat) / (count : Rat)))

/-- A record of absent values, truth values, whole numbers and texts as a reader delivers it. -/
def plain (r : Record) : Row := r.map (fun kv => (kv.1, datum kv.2))

/-- A record with these fields only. -/
def only (names : List Str) (r : Row) : Row := r.filter (fun kv => decide (kv.1 ∈ names))

/-- The row has the values of the record in the grouping columns. -/
def carries (columns : List Str) (r : Record) (row : Row) : Bool := columns.all (fun c => row.lookup c == some (datum (r.get c)))

/-- The groups of records: each row has the grouping values of some record and the right answers over all the records with these
values; a record has exactly one row, unless there are aggregations and none has a value to aggregate. -/
structure Table (columns : List Str) (aggs : List (Func × Str)) (rs : List Record) (table : List Row) : Prop where
  right : ∀ row ∈ table, ∃ r ∈ rs, carries columns r row = true ∧
    ∀ f c, (f, c) ∈ aggs → ∃ x, row.lookup (entryName f c) = some (answer x) ∧ Answer f (nonNull c (groupOf columns rs r)) x
  one : ∀ r ∈ rs, (aggs = [] ∨ ∃ a ∈ aggs, nonNull a.2 (groupOf columns rs r) ≠ []) → (table.filter (carries columns r)).length = 1
  none : ∀ r ∈ rs, aggs ≠ [] → (∀ a ∈ aggs, nonNull a.2 (groupOf columns rs r) = []) → table.filter (carries columns r) = []

/-- All records are one group, when there is no GROUP BY: one row with the right answers, or none if there is nothing to aggregate. -/
structure Total (aggs : List (Func × Str)) (rs : List Record) (table : List Row) : Prop where
  one : (∃ a ∈ aggs, nonNull a.2 rs ≠ []) → ∃ row, table = [row] ∧
    ∀ f c, (f, c) ∈ aggs → ∃ x, row.lookup (entryName f c) = some (answer x) ∧ Answer f (nonNull c rs) x
  none : (∀ a ∈ aggs, nonNull a.2 rs = []) → table = []

/-- What HAVING says about the groups. -/
def Having (env : Env) (table : List Row) : Option Str → (Row → Bool) → Prop
  | none, keep => ∀ r ∈ table, keep r = true
  | some text, keep => ∃ ls t, Tokenizer.Spec.Laid env.re ls text ∧ text ≠ [] ∧ (∀ l ∈ ls, l.Simple env.re) ∧
      Written .or t (ls.map Tokenizer.Spec.Lexeme.token) ∧ ∀ r ∈ table, evaluate env.lib env.lex r t = .ok (keep r)

/-- The columns of a group that were asked for, under their names. -/
def shown (ss : List Sel) (row : Row) : Row := ss.map (fun s => (s.name, (row.lookup s.heading).getD (.one .none)))

end Mabel.SqlReader.Spec
