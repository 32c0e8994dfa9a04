import Verif.Model.SqlReader
import Verif.Spec.Sql
import Verif.Spec.Evaluator
import Verif.Spec.Hashes
import Verif.Spec.Order

/-! # Specification of the results of SQL statements (C49) -/

namespace Mabel.SqlReader.Spec
open Mabel.Py Mabel.Dates Mabel.Tokens Mabel.Filters Mabel.Blobs Mabel.Expression Mabel.Expression.Spec Mabel.Evaluator.Spec Mabel.Sql.Spec

/-- The statement gives these records (and the exception that ends them, if any). -/
def Answers (env : Env) (statement : Str) (g : Gen Row) : Prop := ∃ n, sqlReader env n statement = some (.ok g)

/-- The statement is refused. -/
def Refuses (env : Env) (statement : Str) (e : Err) : Prop := ∃ n, sqlReader env n statement = some (.error e)

/-- The text is a statement that asks for this (as C48 reads it). -/
def Asks (env : Env) (raw : Str) (q : Query) : Prop :=
  ∃ cs, Statement env.re env.lex cs (Tokenizer.clean (Sql.removeComments raw)) ∧ OrderLast cs ∧ q = cs.foldl Clause.apply {}

/-! ## ORDER BY, DISTINCT and LIMIT -/

/-- The value of a column; None is no value. -/
def value (c : Str) (r : Row) : Option Datum :=
  match r.lookup c with
  | some (.one .none) => none
  | x => x

/-- A record does not come after another: those without a value come first.  (Of two lists it is not said.) -/
def NotAfter (c : Str) (a b : Row) : Prop :=
  match value c a, value c b with
  | none, _ => True
  | some _, none => False
  | some x, some y => (∃ s t, x = .one s ∧ y = .one t ∧ Order.AtMost s t) ∨ (∃ l m, x = .list l ∧ y = .list m)

/-- Two records have equal values, or both have none. -/
def SameValue : Option Datum → Option Datum → Prop
  | none, none => True
  | some (.one s), some (.one t) => Order.Equal s t
  | some x, some y => x = y
  | _, _ => False

/-- The records in the order of a column; those with the same value stay in their order. -/
structure Ordered (c : Str) (descending : Bool) (l s : List Row) : Prop where
  perm : s.Perm l
  sorted : s.Pairwise (fun a b => if descending then NotAfter c b a else NotAfter c a b)
  stable : ∀ (v : Option Datum) (has : Row → Bool), (∀ r, has r = true ↔ SameValue (value c r) v) → s.filter has = l.filter has

/-- The values of the column can be compared: all numbers, all texts or all dates. -/
def Comparable (c : Str) (l : List Row) : Prop :=
  ∀ a ∈ l, ∀ b ∈ l, ∀ x y, value c a = some x → value c b = some y → ∃ s t, x = .one s ∧ y = .one t ∧ Order.Comparable s t

/-- The first of each. -/
def keepFirst {α : Type} [DecidableEq α] : List α → List α
  | [] => []
  | x :: xs => x :: (keepFirst xs).filter (· ≠ x)

/-- At most so many. -/
def atMost (limit : Option Int) (l : List Row) : List Row :=
  match limit with
  | none => l
  | some n => l.take n.toNat

/-- What remains to be done with the selected columns: DISTINCT, then ORDER BY, then LIMIT. -/
def Result (q : Query) (rows result : List Row) : Prop :=
  match q.orderBy with
  | none => result = atMost q.limit (if q.distinct then keepFirst rows else rows)
  | some c => ∃ s, Ordered c q.descending (if q.distinct then keepFirst rows else rows) s ∧ result = atMost q.limit s

/-! ## SELECT and WHERE -/

/-- The names of the columns are different, and what is given another name with AS is not selected under its own name or given
two names. -/
structure Named (ss : List Sel) : Prop where
  names : (ss.map Sel.name).Nodup
  renamed : ∀ s ∈ ss, s.given ≠ none → s.heading ∉ ss.map Sel.name
  once : ((ss.filter (fun s => s.given.isSome)).map Sel.heading).Nodup

/-- A select list that is answered rightly: it is not empty and has no `*` and no TRUE, FALSE or NULL, it is `Named`, and a call
that is given a name is not, as it is written, the name of a field in the records. -/
structure Selectable (ss : List Sel) (rows : List Row) : Prop extends Named ss where
  ne : ss ≠ []
  plain : ∀ a, Sel.leaf .star a ∉ ss ∧ (∀ w, Sel.leaf (.null w) a ∉ ss) ∧ ∀ b w, Sel.leaf (.bool b w) a ∉ ss
  fresh : ∀ f args a, Sel.call f args (some a) ∈ ss → ∀ r ∈ rows, r.lookup (Sel.call f args (some a)).heading = none

/-- The condition reads this field. -/
def Mentions (t : Tree) (k : Str) : Prop := ∃ c ∈ comparisons t, ∃ name, (c.1 = .var name ∨ c.2.2 = .var name) ∧ Names name k

/-- The item has the name of a field, and is not this field. -/
def Shadows (k : Str) : Sel → Prop
  | .leaf (.field _) _ => False
  | .leaf l _ => l.token = k
  | .call f args a => (Sel.call f args a).name = k

/-- The field cannot be seen: something in the select list has its name. -/
def Hidden (ss : List Sel) (k : Str) : Prop := k = "*".toList ∨ ∃ s ∈ ss, Shadows k s

/-- What WHERE says about the records: a condition written in the statement, of fields that are not hidden. -/
def Where (env : Env) (hidden : Str → Prop) (rows : List Row) : Option Str → (Row → Bool) → Prop
  | none, cond => ∀ r ∈ rows, cond r = true
  | some text, cond => ∃ ls t, Tokenizer.Spec.Laid env.re ls text ∧ (∀ l ∈ ls, l.Simple env.re) ∧
      Written .or t (ls.map Tokenizer.Spec.Lexeme.token) ∧ WellNamed t ∧ (∀ k, Mentions t k → ¬ hidden k) ∧
      ∀ r ∈ rows, evaluate env.lib env.lex r t = .ok (cond r)

/-- The texts of the values of a record. -/
def texts (env : Env) (r : Row) : List Str := r.map (fun kv => str env.lib kv.2)

/-- Different records can be told apart: they have the same names, values with the same text are the same, and the hashes of the
texts with their places are independent. -/
structure Separated (env : Env) (rows : List Row) : Prop where
  names : ∀ a ∈ rows, ∀ b ∈ rows, a.map Prod.fst = b.map Prod.fst
  values : ∀ a ∈ rows, ∀ b ∈ rows, texts env a = texts env b → a.map Prod.snd = b.map Prod.snd
  hashes : ∀ a ∈ rows, ∀ b ∈ rows, Hashes.Independent env.hash (Hashes.entries (texts env a) ++ Hashes.entries (texts env b))

/-- What DISTINCT, ORDER BY and LIMIT can do rightly: hashes tell the records apart, the column can be compared and there are
at most 10000 records to order when there is no LIMIT, and LIMIT is positive. -/
structure Tame (env : Env) (q : Query) (rows : List Row) : Prop where
  separated : q.distinct = true → Separated env rows
  comparable : ∀ c, q.orderBy = some c → c ≠ [] ∧ Comparable c rows
  few : q.orderBy ≠ none → q.limit = none → rows.length ≤ 10000
  positive : ∀ i, q.limit = some i → 0 < i

end Mabel.SqlReader.Spec
