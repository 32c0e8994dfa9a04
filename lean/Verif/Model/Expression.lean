import Verif.Model.Tokens

/-!
# Expressions

Models mabel/data/internals/expression.py.  An expression is given as the list of its tokens
(`Expression(tokens)`, expression.py:44-46 with token_labeler.py:216-221); the split of a text into tokens is
modelled separately.  The position in the list is modelled by the tokens that are left.  The parser's
recursion is bounded by a number that `Props.Expression` shows to be large enough; Python's own limit on the
depth of recursion is not modelled.
-/

namespace Mabel.Expression
open Mabel.Py Mabel.Dates Mabel.Filters Mabel.Tokens

/-- expression.py:29-37 `TreeNode`, the terminals -/
inductive Term
  | int (i : Int)
  | float (q : Rat)
  | lit (s : Str)
  | list (l : List Scalar)
  | bool (b : Bool)
  | null
  | date (d : DateTime)
  | var (name : Str)
  /-- a NOT that is read as a terminal: a node without children -/
  | bareNot
  deriving DecidableEq, Repr

/-- expression.py:29-37 `TreeNode`, the others -/
inductive Tree
  | cmp (l : Term) (op : Str) (r : Term)
  | not (t : Tree)
  | and (l r : Tree)
  | or (l r : Tree)
  deriving DecidableEq, Repr

/-- expression.py:191-209 `interpret_value`, for a text -/
def interpretStr (lex : Lex) (value : Str) : Scalar :=
  let u := lex.upper value
  if u = "TRUE".toList ∨ u = "FALSE".toList then .bool (u = "TRUE".toList)
  else match pyInt value with
  | .ok i => .int i
  | .error _ => match lex.float value with
    | some q => .float q
    | none => match parseIso value with
      | some d => .date d
      | none => .str value

/-- expression.py:191-209 `interpret_value` -/
def interpret (lex : Lex) : Datum → Datum
  | .one (.str s) => .one (interpretStr lex s)
  | v => v


/-- expression.py:176-187: the members of a list -/
def listTerm (lex : Lex) : List Str → List Scalar → Except Err (Term × List Str)
  | [], _ => .error .indexError
  | t :: ts, acc =>
    if label lex t = .right then .ok (.list acc, ts)
    else if label lex t ≠ .comma then listTerm lex ts (acc ++ [interpretStr lex t])
    else listTerm lex ts acc

/-- expression.py:147-189 `parse_terminal` (`.lower() == "true"` is written `.upper() == "TRUE"`) -/
def parseTerminal (lex : Lex) : List Str → Except Err (Term × List Str)
  | [] => .error .indexError
  | t :: ts =>
    match label lex t with
    | .integer => do .ok (.int (← pyInt t), ts)
    | .float => match lex.float t with
      | some q => .ok (.float q, ts)
      | none => .error .valueError
    | .variable => .ok (.var t, ts)
    | .not => .ok (.bareNot, ts)
    | .literal => .ok (.lit (inner t), ts)
    | .boolean => .ok (.bool (lex.upper t = "TRUE".toList), ts)
    | .null => .ok (.null, t :: ts)
    | .date => match parseIso (inner t) with
      | some d => .ok (.date d, ts)
      | none => .ok (.null, ts)
    | .left => listTerm lex ts []
    | _ => .error .invalidExpression

/-- expression.py:104-114: collect up to the parenthesis that closes -/
def callArgs (lex : Lex) : Nat → List Str → Str → Except Err (Str × List Str)
  | 0, ts, acc => .ok (acc, ts)
  | _ + 1, [], _ => .error .invalidExpression
  | n + 1, t :: ts, acc =>
    if label lex t = .right then callArgs lex n ts (acc ++ t)
    else if label lex t = .left then callArgs lex (n + 2) ts (acc ++ t)
    else callArgs lex (n + 1) ts (acc ++ t)

/-- expression.py:84-116: a function call becomes a variable -/
def functionCall (lex : Lex) (f : Str) : List Str → Except Err (Term × List Str)
  | [] => .error .indexError
  | t :: ts =>
    if label lex t ≠ .left then .error .invalidExpression
    else do
      let (s, rest) ← callArgs lex 1 ts (f ++ "(".toList)
      .ok (.var s, rest)

/-- expression.py:133-145: the operator and the second terminal -/
def comparison (lex : Lex) (l : Term) : List Str → Except Err (Tree × List Str)
  | [] => .error .invalidExpression
  | t :: ts =>
    if label lex t = .operator then do
      let (r, rest) ← parseTerminal lex ts
      .ok (.cmp l (lex.upper t) r, rest)
    else .error .invalidExpression

/-- The next token has this label. -/
def nextIs (lex : Lex) (l : Label) : List Str → Bool
  | [] => false
  | t :: _ => label lex t = l

mutual
/-- expression.py:51-60 `parse_expression` -/
def parseExpr (lex : Lex) : Nat → List Str → Except Err (Tree × List Str)
  | 0, _ => .error .overflow
  | n + 1, ts => do
    let (l, rest) ← parseAnd lex n ts
    orLoop lex n l rest

/-- expression.py:53-59: the loop of `parse_expression` -/
def orLoop (lex : Lex) : Nat → Tree → List Str → Except Err (Tree × List Str)
  | 0, _, _ => .error .overflow
  | n + 1, l, ts =>
    if nextIs lex .or ts then do
      let (r, rest) ← parseAnd lex n (ts.drop 1)
      orLoop lex n (.or l r) rest
    else .ok (l, ts)

/-- expression.py:62-71 `parse_and_term` -/
def parseAnd (lex : Lex) : Nat → List Str → Except Err (Tree × List Str)
  | 0, _ => .error .overflow
  | n + 1, ts => do
    let (l, rest) ← parseCond lex n ts
    andLoop lex n l rest

/-- expression.py:64-70: the loop of `parse_and_term` -/
def andLoop (lex : Lex) : Nat → Tree → List Str → Except Err (Tree × List Str)
  | 0, _, _ => .error .overflow
  | n + 1, l, ts =>
    if nextIs lex .and ts then do
      let (r, rest) ← parseCond lex n (ts.drop 1)
      andLoop lex n (.and l r) rest
    else .ok (l, ts)

/-- expression.py:73-145 `parse_condition` -/
def parseCond (lex : Lex) : Nat → List Str → Except Err (Tree × List Str)
  | 0, _ => .error .overflow
  | n + 1, ts =>
    if nextIs lex .not ts then do
      let (t, rest) ← parseCond lex n (ts.drop 1)
      .ok (.not t, rest)
    else if nextIs lex .function ts || nextIs lex .aggregator ts then do
      let (t, rest) ← functionCall lex (ts.headD []) (ts.drop 1)
      if nextIs lex .left rest then group lex n rest
      else comparison lex t rest
    else if nextIs lex .left ts then group lex n ts
    else do
      let (t, rest) ← parseTerminal lex ts
      comparison lex t rest

/-- expression.py:118-129: a condition in parentheses -/
def group (lex : Lex) : Nat → List Str → Except Err (Tree × List Str)
  | 0, _ => .error .overflow
  | n + 1, ts => do
    let (t, rest) ← parseExpr lex n (ts.drop 1)
    match rest with
    | [] => .error .indexError
    | c :: rest => if label lex c = .right then .ok (t, rest) else .error .invalidExpression
end

/-- Enough for any list of tokens (see `Props.Expression`). -/
def bound (ts : List Str) : Nat := 5 * ts.length + 5

/-- expression.py:44-49 `Expression(tokens)`: the tokens that are left after an expression are ignored -/
def parse (lex : Lex) (ts : List Str) : Except Err Tree := (parseExpr lex (bound ts) ts).map (·.1)

/-! ## Evaluation -/

/-- expression.py:228-229: the name without backquotes -/
def bareName (name : Str) : Str := if wrapped '`' name then inner name else name

/-- expression.py:217-233 `evaluate_recursive`, for a terminal -/
def evalTerm (lex : Lex) (r : Row) : Term → Except Err Datum
  | .int i => .ok (.one (.int i))
  | .float q => .ok (.one (.float q))
  | .lit s => .ok (.one (.str s))
  | .list l => .ok (.list l)
  | .bool b => .ok (.one (.bool b))
  | .null => .ok (.one .none)
  | .date d => .ok (.one (.date d))
  | .var name =>
    if name = [] then .error .indexError
    else match r.lookup (bareName name) with
      | some v => .ok (interpret lex v)
      | none => .ok (.one .none)
  | .bareNot => .error .attributeError

/-- expression.py:243-246: TypeError and ValueError give None -/
def caught : Except Err Bool → Except Err Bool
  | .error .typeError => .ok false
  | .error .valueError => .ok false
  | x => x

/-- expression.py:217-252 `evaluate_recursive` and `evaluate`, `__call__`: the truth value -/
def evaluate (lib : Lib) (lex : Lex) (r : Row) : Tree → Except Err Bool
  | .cmp l op rt => do
    let x ← evalTerm lex r l
    let y ← evalTerm lex r rt
    match Tokens.operators.lookup op with
    | none => .error .keyError
    | some o => caught (o.apply lib lex x y)
  | .not t => do .ok (!(← evaluate lib lex r t))
  | .and a b => do
    let x ← evaluate lib lex r a
    let y ← evaluate lib lex r b
    .ok (x && y)
  | .or a b => do
    let x ← evaluate lib lex r a
    let y ← evaluate lib lex r b
    .ok (x || y)

/-- expression.py:228-229: evaluation changes the names of the variables in the tree -/
def Term.after : Term → Term
  | .var name => .var (bareName name)
  | t => t

/-- expression.py:228-229: the tree after it has been evaluated -/
def Tree.after : Tree → Tree
  | .cmp l op r => .cmp l.after op r.after
  | .not t => .not t.after
  | .and a b => .and a.after b.after
  | .or a b => .or a.after b.after

/-! ## Conversion to lists and tuples -/

/-- expression.py:261-272, the terminals -/
def termDnf (lib : Lib) : Term → Except Err Datum
  | .int i => .ok (.one (.int i))
  | .float q => .ok (.one (.float q))
  | .bool b => .ok (.one (.bool b))
  | .null => .ok (.one .none)
  | .var name => .ok (.one (.str name))
  | .lit s => .ok (.one (.str ("\"".toList ++ s ++ "\"".toList)))
  | .list l => .ok (.one (.str ("\"".toList ++ lib.text (.list l) ++ "\"".toList)))
  | .date d => .ok (.one (.str ("\"".toList ++ lib.text (.one (.date d)) ++ "\"".toList)))
  | .bareNot => .error .attributeError

/-- expression.py:254-290 `to_dnf` -/
def toDnf (lib : Lib) : Tree → Except Err Pred
  | .cmp l op r => do
    let x ← termDnf lib l
    let y ← termDnf lib r
    match x with
    | .one k => .ok (.tup k op y)
    | .list _ => .ok .other
  | .and a b => do .ok (.list [← toDnf lib a, ← toDnf lib b])
  | .or a b => do .ok (.list [.list [← toDnf lib a], .list [← toDnf lib b]])
  | .not a => do
    let _ ← toDnf lib a
    .ok .badTuple

end Mabel.Expression
