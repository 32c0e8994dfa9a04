import Verif.Model.Expression

/-!
# Splitting statements

Models mabel/utils/token_labeler.py:175-320 (`build_splitter` and `Tokenizer`) and, for it and for the splitters of
sql_reader.py and inline_evaluator.py, `re.split` with a group of alternatives that are fixed words.
White space is ASCII white space.
-/

namespace Mabel.Tokenizer
open Mabel.Py Mabel.Dates Mabel.Tokens

/-- The parts of Python's `re` that are not modelled. -/
structure Re where
  /-- `\w` -/
  isWord : Char → Bool
  /-- equality of a character of the pattern and one of the text under `re.IGNORECASE` -/
  same : Char → Char → Bool

/-- One character of a pattern. -/
inductive PC
  | ch (c : Char)
  /-- `\s` -/
  | ws
  deriving DecidableEq, Repr

/-- An alternative: `\bpat\b` or `pat`. -/
structure Kw where
  bounded : Bool
  pat : List PC
  deriving DecidableEq, Repr

def PC.fits (re : Re) : PC → Char → Bool
  | .ch p, c => re.same p c
  | .ws, c => isSpace c

/-- The text begins with the pattern: what is left. -/
def matchPat (re : Re) : List PC → Str → Option Str
  | [], s => some s
  | _ :: _, [] => none
  | p :: ps, c :: cs => if p.fits re c then matchPat re ps cs else none

/-- `\b` between two characters (or an end of the text) -/
def boundary (re : Re) (a b : Option Char) : Bool := a.elim false re.isWord != b.elim false re.isWord

/-- An alternative at a place of the text, after the character `prev`: the length of the match. -/
def matchKw (re : Re) (prev : Option Char) (s : Str) (kw : Kw) : Option Nat :=
  match matchPat re kw.pat s with
  | none => none
  | some rest =>
    let n := kw.pat.length
    if kw.bounded then
      if boundary re prev s.head? && boundary re (s.take n).getLast? rest.head? then some n else none
    else some n

/-- The alternatives are tried in order. -/
def firstMatch (re : Re) (kws : List Kw) (prev : Option Char) (s : Str) : Option Nat := kws.findSome? (matchKw re prev s)

/-- The scan of `re.split`; the number bounds the steps (no match is empty). -/
def splitGo (re : Re) (kws : List Kw) : Nat → Option Char → Str → Str → List Str
  | 0, _, cur, _ => [cur]
  | _ + 1, _, cur, [] => [cur]
  | n + 1, prev, cur, c :: cs =>
    match firstMatch re kws prev (c :: cs) with
    | some k => cur :: (c :: cs).take k :: splitGo re kws n ((c :: cs).take k).getLast? [] ((c :: cs).drop k)
    | none => splitGo re kws n (some c) (cur ++ [c]) cs

/-- `re.split` with one group around all alternatives: the texts between matches, and the matches -/
def reSplit (re : Re) (kws : List Kw) (s : Str) : List Str := splitGo re kws (s.length + 1) none [] s

def wordKw (s : Str) : Kw := ⟨true, s.map .ch⟩
def symbolKw (s : Str) : Kw := ⟨false, s.map .ch⟩

/-- token_labeler.py:185-189: `item.replace(" ", "").isalpha()`, for the operators -/
def operatorKw (s : Str) : Kw := if (s.filter (· ≠ ' ')).all Char.isAlpha then wordKw s else symbolKw s

/-- token_labeler.py:175-213 `build_splitter` -/
def keywords : List Kw :=
  functions.map wordKw ++ aggregators.map wordKw ++ operators.map (fun o => operatorKw o.1) ++
  ["AND", "OR", "NOT", "SELECT", "FROM", "WHERE", "LIMIT"].map (fun s => wordKw s.toList) ++
  [⟨true, "GROUP".toList.map .ch ++ [.ws] ++ "BY".toList.map .ch⟩, ⟨true, "ORDER".toList.map .ch ++ [.ws] ++ "BY".toList.map .ch⟩] ++
  ["DISTINCT", "ASC", "DESC", "IN"].map (fun s => wordKw s.toList) ++
  ["(", ")", "[", "]", ",", "*"].map (fun s => symbolKw s.toList)

/-- token_labeler.py:304-309 `clean_statement`: runs of white space become one space ... -/
def collapse : Str → Str
  | [] => []
  | c :: cs =>
    if isSpace c then
      match collapse cs with
      | ' ' :: r => ' ' :: r
      | r => ' ' :: r
    else c :: collapse cs

/-- ... and are removed from the ends. -/
def clean (s : Str) : Str := strip (collapse s)

def isQuote (c : Char) : Bool := c == '"' || c == '\'' || c == '`'

/-- token_labeler.py:245-291 `_fix_special_chars`; the TokenError is modelled as `invalidSyntax`.  `token.strip()` is not
empty when its first and last characters are looked at. -/
def fixGo : Str → Option Char → List Str → Except Err (List Str)
  | _, _, [] => .ok []
  | builder, looking, t :: ts =>
    match strip t with
    | [] => fixGo builder looking ts
    | f :: r =>
      let l := (f :: r).getLast?
      if looking = none ∧ isQuote f = false then do .ok (t :: (← fixGo builder looking ts))
      else if isQuote f ∧ l = some f ∧ (f :: r).length > 1 then do .ok (t :: (← fixGo builder looking ts))
      else if l = looking then do .ok ((builder ++ t) :: (← fixGo [] none ts))
      else if isQuote f ∧ (l ≠ some f ∨ (f :: r).length = 1) then fixGo t (some f) ts
      else if looking ≠ none then fixGo (builder ++ t) looking ts
      else .error .invalidSyntax

def fixSpecial (tokens : List Str) : Except Err (List Str) := fixGo [] none tokens

/-- token_labeler.py:293-302 `_case_correction`, one token -/
def caseCorrect (lex : Lex) (t : Str) : Str :=
  if label lex t = .literal ∨ label lex t = .variable then t else lex.upper t

/-- token_labeler.py:311-318 `tokenize` -/
def tokenize (re : Re) (lex : Lex) (text : Str) : Except Err (List Str) := do
  let tokens ← fixSpecial (reSplit re keywords (clean text))
  .ok (((tokens.map strip).filter (· ≠ [])).map (caseCorrect lex))

/-- expression.py:40-49 `Expression` of a text -/
def parseText (re : Re) (lex : Lex) (text : Str) : Except Err Expression.Tree := do
  Expression.parse lex (← tokenize re lex text)

end Mabel.Tokenizer
