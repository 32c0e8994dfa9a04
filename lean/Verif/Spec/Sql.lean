import Verif.Model.Sql
import Verif.Spec.Expression
import Verif.Spec.Tokenizer

/-! # Specification of SQL statements (C47, C48) -/

namespace Mabel.Sql.Spec
open Mabel.Py Mabel.Dates Mabel.Tokens Mabel.Tokenizer Mabel.Sql
open Mabel.Tokenizer.Spec (capitals)

/-! ## Dataset names -/

/-- What a dataset name must be: it begins with a letter, has only letters, digits, dots, slashes, hyphens and
underscores, and no two dots, slashes or hyphens in a row. -/
structure GoodName (ch : Chars) (s : Str) : Prop where
  first : ∃ c cs, s = c :: cs ∧ ch.alpha c = true
  chars : ∀ c ∈ s, ch.alnum c = true ∨ c = '.' ∨ c = '/' ∨ c = '-' ∨ c = '_'
  dots : ¬ ∃ a b, s = a ++ '.' :: '.' :: b
  slashes : ¬ ∃ a b, s = a ++ '/' :: '/' :: b
  hyphens : ¬ ∃ a b, s = a ++ '-' :: '-' :: b

/-- Letters are letters or digits, and the punctuation is not. -/
structure SaneChars (ch : Chars) : Prop where
  alpha : ∀ c, ch.alpha c = true → ch.alnum c = true
  punctuation : ch.alnum '.' = false ∧ ch.alnum '/' = false ∧ ch.alnum '-' = false ∧ ch.alnum '_' = false

/-! ## Comments -/

/-- `Commented t u`: `t` without its comments is `u`.  Comments are `/* ... */` and `-- ...` up to the end of the line,
but not inside quotes. -/
inductive Commented : Str → Str → Prop
  | nil : Commented [] []
  | char {c t u} : c ≠ '"' → c ≠ '\'' → ¬ (c = '/' ∧ t.head? = some '*') → ¬ (c = '-' ∧ t.head? = some '-') →
    Commented t u → Commented (c :: t) (c :: u)
  | quoted {q s t u} : q = '"' ∨ q = '\'' → q ∉ s → Commented t u → Commented (q :: (s ++ q :: t)) (q :: (s ++ q :: u))
  | block {c t u} : (¬ ∃ a b, c ++ ['*'] = a ++ '*' :: '/' :: b) → Commented t u →
    Commented ('/' :: '*' :: (c ++ '*' :: '/' :: t)) u
  | line {c t u} : (∀ d ∈ c, d ≠ '\r' ∧ d ≠ '\n') → t.head? = none ∨ t.head? = some '\n' → Commented t u →
    Commented ('-' :: '-' :: (c ++ t)) u

/-! ## Statements -/

/-- What FROM names. -/
inductive Place
  | dataset (name : Str)
  | statement (text : Str)
  deriving DecidableEq, Repr

/-- What a statement asks for. -/
structure Query where
  select : Option Str := none
  distinct : Bool := false
  source : Option Place := none
  whereExpr : Option Str := none
  groupBy : Option Str := none
  having : Option Str := none
  orderBy : Option Str := none
  descending : Bool := false
  limit : Option Int := none
  deriving DecidableEq, Repr

/-- What the parser found, with the parts of a subquery put together. -/
def view (p : Parsed) : Query where
  select := p.select
  distinct := p.distinct
  source := p.source.map fun
    | .dataset d => .dataset d
    | .subquery ps => .statement ps.flatten
  whereExpr := p.whereExpr
  groupBy := p.groupBy
  having := p.having
  orderBy := p.orderBy
  descending := p.descending
  limit := p.limit

inductive Clause
  | select (distinct : Bool) (body : Str)
  | dataset (name : Str)
  | subquery (statement : Str)
  | where_ (body : Str)
  | groupBy (body : Str)
  | having (body : Str)
  /-- ORDER BY, perhaps with DESC (true) or ASC (false) -/
  | orderBy (body : Str) (direction : Option Bool)
  | limit (i : Int)

/-- What a clause says; a dot in the name of a dataset is a slash. -/
def Clause.apply (q : Query) : Clause → Query
  | .select d b => { q with select := some b, distinct := q.distinct || d }
  | .dataset n => { q with source := some (.dataset (n.map (fun c => if c = '.' then '/' else c))) }
  | .subquery s => { q with source := some (.statement s) }
  | .where_ b => { q with whereExpr := some b }
  | .groupBy b => { q with groupBy := some b }
  | .having b => { q with having := some b }
  | .orderBy b none => { q with orderBy := some b }
  | .orderBy b (some d) => { q with orderBy := some b, descending := d }
  | .limit i => { q with limit := some i }

/-- The text is the keyword, regardless of case, for the expression that splits statements. -/
def reads (re : Re) : Str → Str → Bool
  | [], [] => true
  | p :: ps, c :: cs => (if p = ' ' then isSpace c else re.same p c) && reads re ps cs
  | _, _ => false

/-- The text is one of the words of SQL that begin or end clauses, for that expression or for `str.upper`. -/
def KeyLike (re : Re) (lex : Lex) (s : Str) : Prop := ∃ k ∈ sqlParts, lex.upper s = k ∨ reads re k s = true

/-- The text has no such word as a word of its own. -/
def NoKey (re : Re) (lex : Lex) (s : Str) : Prop := ∀ a k b, s = a ++ k ++ b → KeyLike re lex k →
  (∃ c, a.getLast? = some c ∧ re.isWord c = true) ∨ (∃ c, b.head? = some c ∧ re.isWord c = true)

/-- The text of a clause: no white space at its ends, and no word of SQL in it. -/
structure Body (re : Re) (lex : Lex) (s : Str) : Prop where
  first : ∃ c cs, s = c :: cs ∧ isSpace c = false
  last : ∃ c, s.getLast? = some c ∧ isSpace c = false
  plain : NoKey re lex s

/-- How many parentheses are open after the text; none when one too many is closed. -/
def depth : Nat → Str → Option Nat
  | n, [] => some n
  | n, c :: cs =>
    if c = '(' then depth (n + 1) cs
    else if c = ')' then (if n = 0 then none else depth (n - 1) cs)
    else depth n cs

/-- The clause in words, with its keywords in any case. -/
inductive Clause.Written (re : Re) (lex : Lex) : Clause → Str → Prop
  | select {k b} : capitals k = "SELECT".toList → Body re lex b → Written re lex (.select false b) (k ++ ' ' :: b)
  | distinct {k d b} : capitals k = "SELECT".toList → capitals d = "DISTINCT".toList → Body re lex b →
    Written re lex (.select true b) (k ++ ' ' :: (d ++ ' ' :: b))
  | dataset {k n} : capitals k = "FROM".toList → Body re lex n → n.head? ≠ some '(' → n.head? ≠ some '[' →
    Written re lex (.dataset n) (k ++ ' ' :: n)
  | subquery {k s} : capitals k = "FROM".toList → depth 0 s = some 0 → '[' ∉ s → ']' ∉ s →
    Written re lex (.subquery s) (k ++ ' ' :: '(' :: (s ++ [')']))
  | where_ {k b} : capitals k = "WHERE".toList → Body re lex b → Written re lex (.where_ b) (k ++ ' ' :: b)
  | groupBy {k b} : capitals k = "GROUP BY".toList → Body re lex b → Written re lex (.groupBy b) (k ++ ' ' :: b)
  | having {k b} : capitals k = "HAVING".toList → Body re lex b → Written re lex (.having b) (k ++ ' ' :: b)
  | orderBy {k b} : capitals k = "ORDER BY".toList → Body re lex b → Written re lex (.orderBy b none) (k ++ ' ' :: b)
  | descending {k b d} : capitals k = "ORDER BY".toList → capitals d = "DESC".toList → Body re lex b →
    Written re lex (.orderBy b (some true)) (k ++ ' ' :: (b ++ ' ' :: d))
  | ascending {k b d} : capitals k = "ORDER BY".toList → capitals d = "ASC".toList → Body re lex b →
    Written re lex (.orderBy b (some false)) (k ++ ' ' :: (b ++ ' ' :: d))
  | limit {k i} : capitals k = "LIMIT".toList → Written re lex (.limit i) (k ++ ' ' :: intStr i)

/-- Clauses one after the other, with a space between them. -/
inductive Statement (re : Re) (lex : Lex) : List Clause → Str → Prop
  | one {c t} : c.Written re lex t → Statement re lex [c] t
  | more {c t cs u} : c.Written re lex t → Statement re lex cs u → Statement re lex (c :: cs) (t ++ ' ' :: u)

/-- ORDER BY without ASC or DESC is the last clause. -/
def OrderLast : List Clause → Prop
  | [] => True
  | [_] => True
  | c :: cs => (∀ b, c ≠ .orderBy b none) ∧ OrderLast cs

/-! ## Ending -/

/-- The statement is parsed, with this result. -/
def Parses (re : Re) (lex : Lex) (ch : Chars) (statement : Str) (r : Except Err Parsed) : Prop :=
  ∃ n, parse re lex ch n statement = some r

/-- The parser never ends. -/
def Hangs (re : Re) (lex : Lex) (ch : Chars) (statement : Str) : Prop := ∀ n, parse re lex ch n statement = none

end Mabel.Sql.Spec
