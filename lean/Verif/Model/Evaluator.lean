import Verif.Model.Tokenizer
import Verif.Model.Records

/-!
# Computed columns

Models mabel/data/readers/internals/inline_evaluator.py.  The functions themselves (`FUNCTIONS`) are a parameter: a name
and the arguments give a value or raise (Model/Functions.lean has many of them).  The record is a dictionary.
-/

namespace Mabel.Evaluator
open Mabel.Py Mabel.Dates Mabel.Tokens Mabel.Filters Mabel.Records Mabel.Tokenizer

/-- inline_functions.py:192-234 `FUNCTIONS` -/
abbrev Funs := Str → List Datum → Except Err Datum

/-- A token: `{"value", "type", "parameters", "as"}`. -/
inductive Tok
  | mk (value : Str) (type : Label) (parameters : List Tok) (as_ : Option Str)

def Tok.value : Tok → Str | .mk v _ _ _ => v
def Tok.type : Tok → Label | .mk _ t _ _ => t
def Tok.parameters : Tok → List Tok | .mk _ _ p _ => p
def Tok.as_ : Tok → Option Str | .mk _ _ _ a => a

mutual
/-- inline_evaluator.py:37-55 `get_function_name` -/
def functionName : Tok → Str
  | .mk v t ps _ => if t = .function ∨ t = .aggregator then v ++ "(".toList ++ join ",".toList (functionNames ps) ++ ")".toList else v

/-- inline_evaluator.py:42-49 `_inner` -/
def functionNames : List Tok → List Str
  | [] => []
  | t :: ts => functionName t :: functionNames ts
end

/-- inline_evaluator.py:58-81 `get_fields`: what one token yields; an empty "as" is none -/
def fieldOf (t : Tok) : List Str :=
  let as_ := t.as_.filter (· ≠ [])
  match t.type with
  | .everything => ["*".toList]
  | .function | .aggregator => [as_.getD (functionName t)]
  | .variable | .integer | .literal | .date | .float => [as_.getD t.value]
  | _ => []

def getFields (tokens : List Tok) : List Str := tokens.flatMap fieldOf

/-- inline_evaluator.py:100-119: what is inside the parentheses, and what is left; none when they do not balance -/
def collect (lex : Lex) : Nat → List Str → Option (List Str × List Str)
  | _, [] => none
  | n, t :: ts =>
    if label lex t = .right then
      if n = 1 then some ([], ts) else (collect lex (n - 1) ts).map (fun r => (t :: r.1, r.2))
    else if label lex t = .left then (collect lex (n + 1) ts).map (fun r => (t :: r.1, r.2))
    else (collect lex n ts).map (fun r => (t :: r.1, r.2))

/-- inline_evaluator.py:123-130: an AS and its name; `next` builds the rest.  InvalidEvaluator is `invalidExpression`. -/
def withAlias (lex : Lex) (next : List Str → Except Err (List Tok)) (v : Str) (ty : Label) (ps : List Tok) (rest : List Str) :
    Except Err (List Tok) :=
  match rest with
  | [] => do .ok (.mk v ty ps none :: (← next []))
  | a :: rest =>
    if label lex a = .as then
      match rest with
      | [] => .error .invalidExpression
      | name :: rest => do .ok (.mk v ty ps (some name) :: (← next rest))
    else do .ok (.mk v ty ps none :: (← next (a :: rest)))

/-- inline_evaluator.py:96-122: a function's parentheses; `inside` builds its arguments -/
def withCall (lex : Lex) (next : List Str → Except Err (List Tok)) (t : Str) (rest : List Str) : Except Err (List Tok) :=
  match rest with
  | [] => .error .indexError
  | l :: rest =>
    if label lex l ≠ .left then .error .invalidExpression
    else match collect lex 1 rest with
    | none => .error .invalidExpression
    | some (inside, rest) => do
      let ps ← next inside
      withAlias lex next (lex.upper t) (label lex t) ps rest

/-- inline_evaluator.py:84-131 `build`, with a bound on the steps (each uses a token) -/
def buildGo (lex : Lex) : Nat → List Str → Except Err (List Tok)
  | 0, _ => .ok []
  | _ + 1, [] => .ok []
  | n + 1, t :: rest =>
    if label lex t = .function ∨ label lex t = .aggregator then withCall lex (buildGo lex n) t rest
    else withAlias lex (buildGo lex n) t (label lex t) [] rest

def build (lex : Lex) (tokens : List Str) : Except Err (List Tok) := buildGo lex (tokens.length + 1) tokens

/-- inline_evaluator.py:232: the alternatives of the expression -/
def keywords : List Kw := ["(", ")", ","].map (fun s => symbolKw s.toList) ++ [wordKw "AS".toList]

/-- inline_evaluator.py:233 -/
def tokens (re : Re) (proforma : Str) : List Str :=
  ((reSplit re keywords proforma).map strip).filter (fun t => t ≠ [] ∧ t ≠ ",".toList)

/-- inline_evaluator.py:231-235 `Evaluator.__init__` -/
def init (re : Re) (lex : Lex) (proforma : Str) : Except Err (List Tok) := build lex (tokens re proforma)

mutual
/-- inline_evaluator.py:134-194 `evaluate_field`: the name and the value, and the token afterwards (151-152) -/
def evaluateField (F : Funs) (lex : Lex) (r : Row) : Tok → Except Err (Str × Datum) × Tok
  | .mk v ty ps as_ =>
    let t := Tok.mk v ty ps as_
    match ty with
    | .everything => (.ok ("*".toList, .one (.str "*".toList)), t)
    | .variable => (.ok (v, (r.lookup (if wrapped '`' v then inner v else v)).getD (.one .none)), t)
    | .function =>
      let name := (as_.filter (· ≠ [])).getD (functionName t)
      let a := evaluateArgs F lex r ps
      (do .ok (name, ← F (lex.upper v) (← a.1)), .mk v ty a.2 (some name))
    | .float => (match lex.float v with | some q => .ok (v, .one (.float q)) | none => .error .valueError, t)
    | .integer => (match pyInt v with | .ok i => .ok (v, .one (.int i)) | .error e => .error e, t)
    | .literal => (.ok (v, .one (.str (inner v))), t)
    | .date => (.ok (v, match parseIso (inner v) with | some d => .one (.date d) | none => .one .none), t)
    | .boolean => (.ok (v, .one (.bool (lex.upper v = "TRUE".toList))), t)
    | _ => (.ok (v, .one .none), t)

/-- inline_evaluator.py:158: the arguments in order, and the tokens afterwards -/
def evaluateArgs (F : Funs) (lex : Lex) (r : Row) : List Tok → Except Err (List Datum) × List Tok
  | [] => (.ok [], [])
  | t :: ts =>
    match evaluateField F lex r t with
    | (.error e, t') => (.error e, t' :: ts)
    | (.ok x, t') =>
      let rest := evaluateArgs F lex r ts
      (rest.1.map (x.2 :: ·), t' :: rest.2)
end

/-- inline_evaluator.py:244-247: the loop -/
def fill (F : Funs) (lex : Lex) (r : Row) : Row → List Tok → Except Err Row × List Tok
  | builder, [] => (.ok builder, [])
  | builder, t :: ts =>
    match evaluateField F lex r t with
    | (.error e, t') => (.error e, t' :: ts)
    | (.ok x, t') =>
      let rest := fill F lex r (put builder x.1 x.2) ts
      (rest.1, t' :: rest.2)

/-- inline_evaluator.py:237-247 `__call__`: the new record, and the tokens afterwards -/
def call (F : Funs) (lex : Lex) (tokens : List Tok) (r : Row) : Except Err Row × List Tok :=
  fill F lex r (if tokens.any (fun t => t.type = .everything) then r else []) tokens

/-- The records of a reader one after the other with one evaluator (reader.py:229-300). -/
def callAll (F : Funs) (lex : Lex) : List Tok → List Row → List (Except Err Row)
  | _, [] => []
  | tokens, r :: rs => (call F lex tokens r).1 :: callAll F lex (call F lex tokens r).2 rs

end Mabel.Evaluator
