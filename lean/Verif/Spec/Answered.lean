import Verif.Props.ReaderFilter

/-!
# Statements and filters are answered as if the dataset were these records

Specification for C109: what it is for SQL statements, and readers with filters, to be about given records.  The
conditions on the statements are those of C49, those on the filters those of C42.
-/

namespace Mabel.SqlReader.Spec
open Mabel.Py Mabel.Filters Mabel.Filters.Spec Mabel.Records Mabel.Evaluator Mabel.Evaluator.Spec
open Mabel.Sql.Spec (Query Parses view)
open Mabel.GroupBy (Func FewGroups)
open Mabel.GroupBy.Spec (nonNull groupOf Fine)
open Mabel.Blobs (Gen)

/-- Statements and filters about the dataset are answered as if it were these records, in this order. -/
structure Answered (env : Env) (dataset : Str) (rows : List Row) : Prop where
  /-- a statement that selects columns: the records that meet WHERE, with the columns asked for; then DISTINCT, ORDER BY, LIMIT -/
  select : ∀ {raw : Str} {q : Query}, Asks env raw q → ∀ {b : Str}, q.select = some b → q.source = some (.dataset dataset) →
    q.groupBy = none → q.having = none →
    ∀ {ss : List Sel}, Laid env.re (piecesOf ss) b → GoodArgs ss → Selectable ss rows →
    ∀ {out : Row → Row}, (∀ r ∈ rows, columns env.funs r ss = .ok (out r)) →
    ∀ {cond : Row → Bool}, Where env (Hidden ss) rows q.whereExpr cond → Tame env q ((rows.filter cond).map out) →
    ∃ g, Answers env raw g ∧ g.raised = none ∧ Result q ((rows.filter cond).map out) g.items
  /-- `SELECT *` -/
  star : ∀ {raw : Str} {q : Query}, Asks env raw q → q.select = some "*".toList → q.source = some (.dataset dataset) →
    q.groupBy = none → q.having = none → (q.whereExpr = none → ∀ r ∈ rows, r ≠ []) →
    ∀ {cond : Row → Bool}, Where env (fun _ => False) rows q.whereExpr cond → Tame env q (rows.filter cond) →
    ∃ g, Answers env raw g ∧ g.raised = none ∧ Result q (rows.filter cond) g.items
  /-- GROUP BY and HAVING: a row for each group -/
  group : ∀ {raw : Str} {q : Query}, Asks env raw q → ∀ {b : Str}, q.select = some b → q.source = some (.dataset dataset) →
    ∀ {gtext : Str} {columns : List Str}, q.groupBy = some gtext → ColumnList columns gtext →
    ∀ {ss : List Sel} {aggs : List (Func × Str)}, Laid env.re (piecesOf ss) b → ReadableArgs ss → ss ≠ [] →
    GroupList columns ss aggs → Named ss →
    ∀ {cond : Row → Bool}, Where env (fun k => k = "*".toList ∨ ∃ a ∈ aggs, k = a.1.name) rows q.whereExpr cond →
    ∀ {rs : List Record}, (rows.filter cond).map (only (columns ++ aggs.map Prod.snd)) = rs.map plain → (∀ r ∈ rs, ∀ c ∈ columns, r.lookup c ≠ none) →
    GroupBy.Spec.Faithful env.groupHash columns rs → FewGroups columns rs → GroupBy.Spec.Apart aggs →
    (∀ r ∈ rs, (∃ a ∈ aggs, nonNull a.2 (groupOf columns rs r) ≠ []) → ∀ f c, (f, c) ∈ aggs →
      Fine f (nonNull c (groupOf columns rs r))) →
    ∀ {keep : Row → Bool}, (∀ table, Table columns aggs rs table → Having env table q.having keep) →
    (∀ table, Table columns aggs rs table → Tame env q ((table.filter keep).map (shown ss))) →
    ∃ g table, Answers env raw g ∧ g.raised = none ∧ Table columns aggs rs table ∧ Result q ((table.filter keep).map (shown ss)) g.items
  /-- aggregations without GROUP BY: one row -/
  total : ∀ {raw : Str} {q : Query}, Asks env raw q → ∀ {b : Str}, q.select = some b → q.source = some (.dataset dataset) →
    q.groupBy = none →
    ∀ {ss : List Sel} {aggs : List (Func × Str)}, Laid env.re (piecesOf ss) b → ReadableArgs ss → ss ≠ [] →
    GroupList [] ss aggs → Named ss →
    ∀ {cond : Row → Bool}, Where env (fun k => k = "*".toList ∨ ∃ a ∈ aggs, k = a.1.name) rows q.whereExpr cond →
    ∀ {rs : List Record}, (rows.filter cond).map (only ("*".toList :: aggs.map Prod.snd)) = rs.map plain → GroupBy.Spec.Apart aggs →
    ((∃ a ∈ aggs, nonNull a.2 rs ≠ []) → ∀ f c, (f, c) ∈ aggs → Fine f (nonNull c rs)) →
    ∀ {keep : Row → Bool}, (∀ table, Total aggs rs table → Having env table q.having keep) →
    (∀ table, Total aggs rs table → Tame env q ((table.filter keep).map (shown ss))) →
    ∃ g table, Answers env raw g ∧ g.raised = none ∧ Total aggs rs table ∧ Result q ((table.filter keep).map (shown ss)) g.items
  /-- a reader with a filter of lists of tuples: the records that meet all the predicates of one of the lists -/
  lists : ∀ {ass : List (List Atom)}, ass ≠ [] → (∀ r ∈ rows, Applies env.lib ass r) →
    ∀ {meets : Row → Bool}, (∀ r ∈ rows, meets r = true ↔ Meets env.lib ass r) →
    ∃ g, openFiltered env "*".toList dataset (.value (nested ass)) = .ok g ∧ g.raised = none ∧ g.items = rows.filter meets
  /-- a reader with a filter that is a text: the records that meet the condition written in it -/
  text : ∀ {t : Str} {cond : Row → Bool}, Where env (fun _ => False) rows (some t) cond →
    ∃ g, openFiltered env "*".toList dataset (.text t) = .ok g ∧ g.raised = none ∧ g.items = rows.filter cond

/-- Every statement about the dataset that is not refused gives no record and raises DataNotFoundError. -/
def NotFound (env : Env) (dataset : Str) : Prop :=
  ∀ {raw : Str} {p : Sql.Parsed}, Parses env.re env.lex env.ch raw (.ok p) → (view p).source = some (.dataset dataset) →
    ∀ g, Answers env raw g → g.items = [] ∧ g.raised = some .dataNotFound

end Mabel.SqlReader.Spec
