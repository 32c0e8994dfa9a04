import Verif.Model.Tokenizer
import Verif.Spec.Expression

/-!
# How statements are written

A statement is a row of keywords, words and quoted texts, with white space between.
-/

namespace Mabel.Tokenizer.Spec
open Mabel.Py Mabel.Dates Mabel.Tokens Mabel.Tokenizer
open Mabel.Expression.Spec (quote functionNames aggregatorNames)

/-- What is assumed of Python's `re`: its word characters and its case folding, on ASCII characters; letters are folded
only with word characters, other characters with themselves. -/
structure SaneRe (re : Re) : Prop where
  word : ∀ c : Char, c.toNat < 128 → re.isWord c = (c.isAlphanum || c == '_')
  same : ∀ p c : Char, p.toNat < 128 → c.toNat < 128 → re.same p c = (c.toUpper == p.toUpper)
  letter : ∀ p c : Char, p.isAlpha = true → re.same p c = true → re.isWord c = true
  symbol : ∀ p c : Char, p.toNat < 128 → p.isAlpha = false → re.same p c = true → c = p

/-- The keywords of one word. -/
def wordKeys : List Str := functionNames ++ aggregatorNames ++
  ["IS", "LIKE", "MATCHES", "IN", "CONTAINS", "AND", "OR", "NOT", "SELECT", "FROM", "WHERE", "LIMIT", "DISTINCT", "ASC",
    "DESC"].map String.toList

/-- The keywords of two words. -/
def pairKeys : List Str := ["IS NOT", "NOT LIKE"].map String.toList

/-- The operators that are not words. -/
def symbolKeys : List Str := ["<>", ">=", "<=", ">", "<", "==", "!=", "="].map String.toList

def punctuation : List Str := ["(", ")", "[", "]", ",", "*"].map String.toList

inductive Lexeme
  /-- a keyword, in any case -/
  | key (k : Str)
  /-- a name or a number -/
  | word (w : Str)
  | quoted (q : Char) (body : Str)
  deriving DecidableEq, Repr

def Lexeme.text : Lexeme → Str
  | .key k => k
  | .word w => w
  | .quoted q body => quote q body

def isWordChar (c : Char) : Bool := c.isAlphanum || c == '_'

/-- The characters of words: letters, digits, underscores, dots and hyphens. -/
def wordish (c : Char) : Bool := isWordChar c || c == '.' || c == '-'

def capitals (s : Str) : Str := s.map Char.toUpper

/-- No part of a word, between dots and hyphens, is a keyword.  `inside`: the character before belongs to a part. -/
def noKeyParts : Bool → Str → Bool
  | _, [] => true
  | inside, c :: cs =>
    if isWordChar c then
      (inside || !(wordKeys.contains (capitals ((c :: cs).takeWhile isWordChar)))) && noKeyParts true cs
    else noKeyParts false cs

/-- A quoted text can be put together again: it has no such quote inside, and none of the pieces into which the
keywords cut it begins with a quote. -/
def Whole (re : Re) (q : Char) (body : Str) : Prop :=
  q ∉ body ∧ ∀ x ∈ (reSplit re keywords (quote q body)).tail, ∀ c r, strip x = c :: r → isQuote c = true → strip x = [q]

def Lexeme.Good (re : Re) : Lexeme → Prop
  | .key k => capitals k ∈ wordKeys ∨ capitals k ∈ pairKeys ∨ capitals k ∈ symbolKeys ∨ capitals k ∈ punctuation
  | .word w => w ≠ [] ∧ (∀ c ∈ w, wordish c = true) ∧ noKeyParts false w = true
  | .quoted q body => isQuote q = true ∧ Whole re q body

def isOp (c : Char) : Bool := c == '<' || c == '>' || c == '=' || c == '!'

/-- Characters that need no space between them. -/
def apart (a b : Char) : Bool := !(wordish a && wordish b) && !(isOp a && isOp b)

def Lexeme.isKey : Lexeme → Bool
  | .key _ => true
  | _ => false

/-- One lexeme can follow another after this space: there is a keyword between words, `IS` and `NOT` (and `NOT` and
`LIKE`) would be one keyword, and what is written without a space between must not run together. -/
def Follows (a : Lexeme) (sep : Str) (b : Lexeme) : Prop :=
  (a.isKey = true ∨ b.isKey = true) ∧
  (capitals a.text = "IS".toList → capitals b.text ≠ "NOT".toList ∧ capitals b.text ≠ "NOT LIKE".toList) ∧
  (capitals a.text = "NOT".toList → capitals b.text ≠ "LIKE".toList) ∧
  (sep = [] → ∀ x y, a.text.getLast? = some x → b.text.head? = some y → apart x y = true)

/-- Runs of white space become one space. -/
def Lexeme.collapsed : Lexeme → Lexeme
  | .key k => .key (collapse k)
  | .word w => .word (collapse w)
  | .quoted q body => .quoted q (collapse body)

/-- A lexeme after which lexemes follow, with white space between. -/
inductive Row (re : Re) : Lexeme → List Lexeme → Str → Prop
  | nil {a} : Row re a [] []
  | cons {a b ls sep t} : (∀ c ∈ sep, isSpace c = true) → Follows a.collapsed sep b.collapsed → b.collapsed.Good re →
    Row re b ls t →
    Row re a (b :: ls) (sep ++ b.text ++ t)

/-- The text of lexemes. -/
inductive Laid (re : Re) : List Lexeme → Str → Prop
  | mk {a ls lead trail t} : (∀ c ∈ lead, isSpace c = true) → (∀ c ∈ trail, isSpace c = true) → a.collapsed.Good re →
    Row re a ls t →
    Laid re (a :: ls) (lead ++ a.text ++ t ++ trail)

/-- What is kept of a lexeme: the pieces of a quoted text that are white space only, between two keywords, are lost. -/
def Lexeme.kept (re : Re) : Lexeme → Str
  | .quoted q body => ((reSplit re keywords (quote q body)).filter (fun x => strip x ≠ [])).flatten
  | l => l.text

/-- The keywords whose case is not changed. -/
def statementKeys : List Str := ["SELECT", "FROM", "WHERE", "LIMIT", "DISTINCT", "ASC", "DESC"].map String.toList

/-- The token a lexeme should become: keywords in capitals, quoted texts and names unchanged. -/
def Lexeme.token : Lexeme → Str
  | .key k => if capitals (collapse k) ∈ statementKeys then collapse k else capitals (collapse k)
  | .word w => if capitals w ∈ ["TRUE", "FALSE", "NULL", "NONE", "AS"].map String.toList then capitals w else w
  | .quoted q body => quote q body

/-- Words that are names, integers or constants, and quoted texts that are not dates, in which no white space is lost:
no two white spaces follow each other, and there is none between two keywords. -/
def Lexeme.Simple (re : Re) : Lexeme → Prop
  | .key _ => True
  | .word w => Mabel.Expression.Spec.Name w ∨ (∃ i : Int, w = intStr i) ∨
    capitals w ∈ ["TRUE", "FALSE", "NULL", "NONE", "AS"].map String.toList
  | .quoted q body => (q = '`' ∨ parseIso body = none) ∧ collapse body = body ∧
    ∀ x ∈ reSplit re keywords (quote q body), strip x = [] → x = []

end Mabel.Tokenizer.Spec
