import Verif.Model.Evaluator

/-!
# Reading SQL statements

Models mabel/data/readers/internals/sql_reader.py:29-231 (`SqlParser`), from the text on.  Not modelled: what is a letter
or a digit outside ASCII (parameters), and white space outside ASCII.
-/

namespace Mabel.Sql
open Mabel.Py Mabel.Dates Mabel.Tokens Mabel.Tokenizer

/-- `str.isalpha` and `str.isalnum` of one character -/
structure Chars where
  alpha : Char → Bool
  alnum : Char → Bool

/-- sql_reader.py:29-40 `SQL_PARTS` -/
def sqlParts : List Str := ["SELECT", "DISTINCT", "FROM", "WHERE", "GROUP BY", "HAVING", "ORDER BY", "ASC", "DESC", "LIMIT"].map String.toList

/-- sql_reader.py:80: `\b` + i.replace(" ", "\s") + `\b` -/
def partKw (s : Str) : Kw := ⟨true, s.map (fun c => if c = ' ' then .ws else .ch c)⟩

/-- sql_reader.py:78-83: the alternatives -/
def keywords : List Kw :=
  ["(", ")", ","].map (fun s => symbolKw s.toList) ++ sqlParts.map partKw ++ [⟨false, [.ws]⟩]

/-- sql_reader.py:77-85 `sql_parts` -/
def parts (re : Re) (s : Str) : List Str := (reSplit re keywords s).filter (· ≠ [])

/-- The text after the first `*/`. -/
def afterClose : Str → Option Str
  | '*' :: '/' :: r => some r
  | _ :: r => afterClose r
  | [] => none

/-- The text up to the first `q`, and the text after it. -/
def upTo (q : Char) : Str → Option (Str × Str)
  | [] => none
  | c :: cs => if c = q then some ([], cs) else (upTo q cs).map (fun r => (c :: r.1, r.2))

/-- sql_reader.py:94-108 `remove_comments`: the scan of `regex.sub`; the number bounds the steps.  A line comment ends at
the first `\r` or `\n`, and `$` then needs the end or a `\n`. -/
def removeGo : Nat → Str → Str
  | 0, s => s
  | _ + 1, [] => []
  | n + 1, c :: cs =>
    if c = '"' ∨ c = '\'' then
      match upTo c cs with
      | some (inside, rest) => c :: (inside ++ c :: removeGo n rest)
      | none => c :: removeGo n cs
    else if c = '/' ∧ cs.head? = some '*' then
      match afterClose cs.tail with
      | some rest => removeGo n rest
      | none => c :: removeGo n cs
    else if c = '-' ∧ cs.head? = some '-' then
      let rest := cs.dropWhile (fun d => d ≠ '\r' ∧ d ≠ '\n')
      if rest = [] ∨ rest.head? = some '\n' then removeGo n rest else c :: removeGo n cs
    else c :: removeGo n cs

def removeComments (s : Str) : Str := removeGo s.length s

/-- sql_reader.py:110-135 `validate_dataset` -/
def validateDataset (ch : Chars) : Str → Except Err Unit
  | [] => .error .indexError
  | c :: cs =>
    if !ch.alpha c then .error .sqlError
    else if contains "..".toList (c :: cs) || contains "//".toList (c :: cs) || contains "--".toList (c :: cs) then .error .sqlError
    else
      let s := replace "_".toList [] (replace "-".toList [] (replace "/".toList [] (replace ".".toList [] (c :: cs))))
      if s.isEmpty || !s.all ch.alnum then .error .sqlError else .ok ()

/-- What FROM names: a dataset, or the parts of a statement. -/
inductive Source
  | dataset (name : Str)
  | subquery (parts : List Str)
  deriving DecidableEq, Repr

/-- sql_reader.py:48-57: the fields -/
structure Parsed where
  select : Option Str := none
  distinct : Bool := false
  source : Option Source := none
  whereExpr : Option Str := none
  groupBy : Option Str := none
  having : Option Str := none
  orderBy : Option Str := none
  descending : Bool := false
  limit : Option Int := none
  deriving DecidableEq, Repr

/-- sql_reader.py:140: not one of SQL_PARTS -/
def isBody (lex : Lex) (t : Str) : Bool := !sqlParts.contains (lex.upper t)

/-- sql_reader.py:137-145 `collector`: the text, and what is left -/
def collector (lex : Lex) (ts : List Str) : Str × List Str :=
  (strip (ts.takeWhile (isBody lex)).flatten, ts.dropWhile (isBody lex))

/-- sql_reader.py:161,166,171 -/
def skipEmpty (lex : Lex) (ts : List Str) : List Str := ts.dropWhile (fun t => label lex t = .empty)

/-- sql_reader.py:177-196: the parts inside the parentheses, and what is left; none when they do not balance -/
def collectInside (lex : Lex) : Nat → List Str → Option (List Str × List Str)
  | _, [] => none
  | n, t :: ts =>
    if label lex t = .right then
      if n = 1 then some ([], ts) else (collectInside lex (n - 1) ts).map (fun r => (t :: r.1, r.2))
    else if label lex t = .left then (collectInside lex (n + 1) ts).map (fun r => (t :: r.1, r.2))
    else (collectInside lex n ts).map (fun r => (t :: r.1, r.2))

/-- sql_reader.py:160-168 -/
def stepSelect (lex : Lex) (p : Parsed) (ts : List Str) : Except Err (Parsed × List Str) :=
  match skipEmpty lex ts with
  | [] => .error .indexError
  | t :: ts =>
    if lex.upper t = "DISTINCT".toList then
      let c := collector lex (skipEmpty lex ts)
      .ok ({ p with distinct := true, select := some c.1 }, c.2)
    else
      let c := collector lex (t :: ts)
      .ok ({ p with select := some c.1 }, c.2)

/-- sql_reader.py:170-200 -/
def stepFrom (lex : Lex) (p : Parsed) (ts : List Str) : Except Err (Parsed × List Str) :=
  match skipEmpty lex ts with
  | [] => .error .indexError
  | t :: ts =>
    if label lex t = .left then
      match collectInside lex 1 ts with
      | none => .error .sqlError
      | some (inside, rest) => .ok ({ p with source := some (.subquery inside) }, rest)
    else
      let c := collector lex (t :: ts)
      .ok ({ p with source := some (.dataset (replace ".".toList "/".toList c.1)) }, c.2)

/-- sql_reader.py:211-219 -/
def stepOrder (lex : Lex) (p : Parsed) (ts : List Str) : Parsed × List Str :=
  let c := collector lex ts
  match c.2 with
  | [] => ({ p with orderBy := some c.1 }, [])
  | t :: rest =>
    if lex.upper t = "ASC".toList ∨ lex.upper t = "DESC".toList then
      ({ p with orderBy := some c.1, descending := lex.upper t = "DESC".toList }, rest)
    else ({ p with orderBy := some c.1 }, rest)

/-- sql_reader.py:157-222: one turn of the loop; when no branch applies nothing changes -/
def step (lex : Lex) (p : Parsed) (t : Str) (ts : List Str) : Except Err (Parsed × List Str) :=
  if strip t = [] then .ok (p, ts)
  else if lex.upper t = "SELECT".toList then stepSelect lex p ts
  else if lex.upper t = "FROM".toList then stepFrom lex p ts
  else if lex.upper t = "WHERE".toList then .ok ({ p with whereExpr := some (collector lex ts).1 }, (collector lex ts).2)
  else if lex.upper t = "GROUP BY".toList then .ok ({ p with groupBy := some (collector lex ts).1 }, (collector lex ts).2)
  else if lex.upper t = "HAVING".toList then .ok ({ p with having := some (collector lex ts).1 }, (collector lex ts).2)
  else if lex.upper t = "ORDER BY".toList then .ok (stepOrder lex p ts)
  else if lex.upper t = "LIMIT".toList then
    match pyInt (collector lex ts).1 with
    | .error e => .error e
    | .ok i => .ok ({ p with limit := some i }, (collector lex ts).2)
  else .ok (p, t :: ts)

/-- sql_reader.py:156: at most `n` turns of the loop; none when it has not ended by then -/
def run (lex : Lex) : Nat → Parsed → List Str → Option (Except Err Parsed)
  | _, p, [] => some (.ok p)
  | 0, _, _ :: _ => none
  | n + 1, p, t :: ts =>
    match step lex p t ts with
    | .error e => some (.error e)
    | .ok st => run lex n st.1 st.2

/-- sql_reader.py:225-226 -/
def checkSource (ch : Chars) : Option Source → Except Err Unit
  | some (.dataset d) => validateDataset ch d
  | _ => .ok ()

/-- sql_reader.py:225-231 -/
def finish (ch : Chars) (p : Parsed) : Except Err Parsed :=
  (checkSource ch p.source).bind fun _ => if p.source = none ∨ p.select = none then .error .sqlError else .ok p

/-- sql_reader.py:147-231 `parse`, with at most `n` turns of its loop -/
def parse (re : Re) (lex : Lex) (ch : Chars) (n : Nat) (statement : Str) : Option (Except Err Parsed) :=
  (run lex n {} (parts re (clean (removeComments statement)))).map (fun r => r.bind (finish ch))

end Mabel.Sql
