import Verif.Model.Evaluator
import Verif.Spec.Expression
import Verif.Spec.Tokenizer

/-! # Specification of computed columns (C62) -/

namespace Mabel.Evaluator.Spec
open Mabel.Py Mabel.Dates Mabel.Tokens Mabel.Filters Mabel.Records Mabel.Tokenizer Mabel.Evaluator
open Mabel.Expression.Spec (Name quote)
open Mabel.Tokenizer.Spec (capitals)

/-- What can be selected besides calls. -/
inductive Leaf
  | field (name : Str)
  /-- a name in backquotes -/
  | quotedField (name : Str)
  | int (i : Int)
  | text (q : Char) (s : Str)
  | date (q : Char) (s : Str) (d : DateTime)
  /-- TRUE or FALSE, as it is written -/
  | bool (b : Bool) (w : Str)
  /-- NULL or NONE, as it is written -/
  | null (w : Str)
  | star

def Leaf.token : Leaf → Str
  | .field n => n
  | .quotedField n => quote '`' n
  | .int i => intStr i
  | .text q s => quote q s
  | .date q s _ => quote q s
  | .bool _ w => w
  | .null w => w
  | .star => "*".toList

def Leaf.Good : Leaf → Prop
  | .field n => Name n
  | .text q s => (q = '"' ∨ q = '\'') ∧ parseIso s = none
  | .date q s d => (q = '"' ∨ q = '\'') ∧ parseIso s = some d
  | .bool true w => capitals w = "TRUE".toList
  | .bool false w => capitals w = "FALSE".toList
  | .null w => capitals w = "NULL".toList ∨ capitals w = "NONE".toList
  | _ => True

/-- The value in a record; a field that is not there is None.  (The star is not a value.) -/
def Leaf.value (r : Row) : Leaf → Datum
  | .field n => (r.lookup n).getD (.one .none)
  | .quotedField n => (r.lookup n).getD (.one .none)
  | .int i => .one (.int i)
  | .text _ s => .one (.str s)
  | .date _ _ d => .one (.date d)
  | .bool b _ => .one (.bool b)
  | .null _ => .one .none
  | .star => .one (.str "*".toList)

/-- An item of a select list: a leaf or the call of a function, and perhaps AS (with the way it is written) and a name. -/
inductive Sel
  | leaf (l : Leaf) (as_ : Option (Str × Str))
  | call (f : Str) (args : List Sel) (as_ : Option (Str × Str))

/-- AS in capitals or not, and a name. -/
def GoodAlias (a : Option (Str × Str)) : Prop := ∀ kw name, a = some (kw, name) → capitals kw = "AS".toList ∧ Name name

mutual
def Sel.Good : Sel → Prop
  | .leaf l a => l.Good ∧ GoodAlias a
  | .call f args a => capitals f ∈ Expression.Spec.functionNames ∧ GoodArgs args ∧ GoodAlias a

def GoodArgs : List Sel → Prop
  | [] => True
  | s :: ss => s.Good ∧ GoodArgs ss
end

mutual
/-- Items that can be read: also aggregations. -/
def Sel.Readable : Sel → Prop
  | .leaf l a => l.Good ∧ GoodAlias a
  | .call f args a => (capitals f ∈ Expression.Spec.functionNames ∨ capitals f ∈ Expression.Spec.aggregatorNames) ∧ ReadableArgs args ∧ GoodAlias a

def ReadableArgs : List Sel → Prop
  | [] => True
  | s :: ss => s.Readable ∧ ReadableArgs ss
end

mutual
/-- The value of an item in a record; `F` is what the functions do. -/
def Sel.value (F : Funs) (r : Row) : Sel → Except Err Datum
  | .leaf l _ => .ok (l.value r)
  | .call f args _ => do F (capitals f) (← values F r args)

def values (F : Funs) (r : Row) : List Sel → Except Err (List Datum)
  | [] => .ok []
  | s :: ss => do
    let v ← s.value F r
    let vs ← values F r ss
    .ok (v :: vs)
end

mutual
/-- How an item is written in the name of a column: `F(a,b)`. -/
def Sel.heading : Sel → Str
  | .leaf l _ => l.token
  | .call f args _ => capitals f ++ "(".toList ++ join ",".toList (headings args) ++ ")".toList

def headings : List Sel → List Str
  | [] => []
  | s :: ss => s.heading :: headings ss
end

def Sel.given : Sel → Option Str
  | .leaf _ a => a.map Prod.snd
  | .call _ _ a => a.map Prod.snd

/-- The name of the column: the one given with AS, or how the item is written. -/
def Sel.name (s : Sel) : Str := s.given.getD s.heading

/-- Only calls have names given with AS. -/
def Sel.Plain : Sel → Prop
  | .leaf _ a => a = none
  | .call _ _ _ => True

def Sel.isStar : Sel → Bool
  | .leaf .star _ => true
  | _ => false

/-- The columns of a record. -/
def columns (F : Funs) (r : Row) : List Sel → Except Err Row
  | [] => .ok []
  | s :: ss => do
    let v ← s.value F r
    let rest ← columns F r ss
    .ok ((s.name, v) :: rest)

/-! ## How select lists are written -/

/-- White space. -/
def Blank (s : Str) : Prop := ∀ c ∈ s, isSpace c = true

inductive Piece
  | sym (c : Char)
  | as (s : Str)
  | word (s : Str)
  deriving DecidableEq, Repr

def Piece.text : Piece → Str
  | .sym c => [c]
  | .as s => s
  | .word s => s

def aliasPieces : Option (Str × Str) → List Piece
  | none => []
  | some (kw, name) => [.as kw, .word name]

mutual
def Sel.pieces : Sel → List Piece
  | .leaf l a => .word l.token :: aliasPieces a
  | .call f [] a => .word f :: .sym '(' :: .sym ')' :: aliasPieces a
  | .call f (s :: ss) a => .word f :: .sym '(' :: (s.pieces ++ morePieces ss ++ .sym ')' :: aliasPieces a)

/-- The others, each after a comma. -/
def morePieces : List Sel → List Piece
  | [] => []
  | s :: ss => .sym ',' :: (s.pieces ++ morePieces ss)
end

/-- Items separated by commas. -/
def piecesOf : List Sel → List Piece
  | [] => []
  | s :: ss => s.pieces ++ morePieces ss

/-- The text has no AS that is a word of its own. -/
def NoAs (re : Re) (s : Str) : Prop := ∀ a x y b, s = a ++ x :: y :: b → re.same 'A' x = true → re.same 'S' y = true →
  (∃ c, a.getLast? = some c ∧ re.isWord c = true) ∨ (∃ c, b.head? = some c ∧ re.isWord c = true)

/-- A word that stays in one piece: not empty, no white space at its ends, no parentheses, no comma and no AS. -/
def Quiet (re : Re) (s : Str) : Prop :=
  (∃ c cs, s = c :: cs ∧ isSpace c = false) ∧ (∃ c, s.getLast? = some c ∧ isSpace c = false) ∧
  (∀ c ∈ s, c ≠ '(' ∧ c ≠ ')' ∧ c ≠ ',') ∧ NoAs re s

/-- The pieces in a row, with any white space around them; AS needs some on both sides. -/
inductive Laid (re : Re) : List Piece → Str → Prop
  | nil : Laid re [] []
  | sym {c ps a b t} : c = '(' ∨ c = ')' ∨ c = ',' → Blank a → Blank b → Laid re ps t → Laid re (.sym c :: ps) (a ++ [c] ++ b ++ t)
  | as {s ps a b t} : capitals s = "AS".toList → Blank a → Blank b → a ≠ [] → b ≠ [] → Laid re ps t →
    Laid re (.as s :: ps) (a ++ s ++ b ++ t)
  | word {s ps a b t} : Quiet re s → Blank a → Blank b → Laid re ps t → Laid re (.word s :: ps) (a ++ s ++ b ++ t)

end Mabel.Evaluator.Spec
