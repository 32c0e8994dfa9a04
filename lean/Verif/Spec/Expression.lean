import Verif.Model.Expression

/-!
# How boolean expressions are written

The grammar of the expressions, as lists of tokens, and what their connectives mean.
-/

namespace Mabel.Expression.Spec
open Mabel.Py Mabel.Dates Mabel.Filters Mabel.Tokens Mabel.Expression

/-- What is assumed of Python's library. -/
structure Sane (lex : Lex) : Prop where
  /-- `str.upper` works character by character, and on ASCII as expected. -/
  upper : ∃ up : Char → Str, (∀ s, lex.upper s = s.flatMap up) ∧ ∀ c : Char, c.toNat < 128 → up c = [c.toUpper]
  /-- What `float` reads begins with a digit, a sign, a dot or white space (`nan` and `inf` are left out). -/
  float : ∀ c s, (c.isDigit || c == '+' || c == '-' || c == '.' || isSpace c) = false → lex.float (c :: s) = none
  /-- Letters and the underscore start words. -/
  wordStart : ∀ c : Char, (c.isAlpha || c == '_') = true → lex.wordStart c = true

/-- The names of the functions. -/
def functionNames : List Str := [
  "YEAR", "MONTH", "DAY", "DATE", "QUARTER", "WEEK", "HOUR", "MINUTE", "SECOND", "TIME", "NOW", "ADDDAYS", "DAYSDIFF",
  "UCASE", "UPPER", "LCASE", "LOWER", "TRIM", "LEN", "STRING", "LEFT", "RIGHT", "MID", "CONCAT",
  "ROUND", "TRUNC", "INTEGER", "DOUBLE", "BOOLEAN", "ISNONE", "HASH", "MD5", "RANDOM", "BETWEEN", "SORT"].map String.toList

/-- The names of the aggregations. -/
def aggregatorNames : List Str := ["SUM", "MAX", "MIN", "COUNT", "AVG"].map String.toList

/-- The comparisons. -/
def comparisonNames : List Str := [
  "<>", ">=", "<=", ">", "<", "==", "!=", "=", "IS NOT", "IS", "NOT LIKE", "LIKE", "MATCHES", "IN", "CONTAINS"].map String.toList

/-- The words that are not names. -/
def reserved : List Str := functionNames ++ comparisonNames ++ aggregatorNames ++
  ["TRUE", "FALSE", "NULL", "NONE", "AND", "OR", "NOT", "AS", "INF", "INFINITY", "NAN"].map String.toList

/-- A name: a letter or an underscore, then letters, digits, underscores, hyphens and dots; not a reserved word. -/
def Name (s : Str) : Prop :=
  (∃ c cs, s = c :: cs ∧ (c.isAlpha || c == '_') = true) ∧
  (∀ c ∈ s, (c.isAlphanum || c == '_' || c == '-' || c == '.') = true) ∧
  s.map Char.toUpper ∉ reserved

def quote (q : Char) (s : Str) : Str := q :: (s ++ [q])

/-- A terminal of one token. -/
inductive Plain : Term → Str → Prop
  | int (i : Int) : Plain (.int i) (intStr i)
  | name {s} : Name s → Plain (.var s) s
  | quotedName {s} : Plain (.var (quote '`' s)) (quote '`' s)
  | text {q s} : q = '"' ∨ q = '\'' → parseIso s = none → Plain (.lit s) (quote q s)
  | date {q s d} : q = '"' ∨ q = '\'' → parseIso s = some d → Plain (.date d) (quote q s)
  | true : Plain (.bool true) "TRUE".toList
  | false : Plain (.bool false) "FALSE".toList

def isParen (t : Str) : Prop := t ∈ ["(", "[", ")", "]"].map String.toList

/-- Tokens with balanced parentheses. -/
inductive Balanced : List Str → Prop
  | nil : Balanced []
  | token {t ts} : ¬ isParen (strip t) → Balanced ts → Balanced (t :: ts)
  | paren {a b} : Balanced a → Balanced b → Balanced ("(".toList :: (a ++ ")".toList :: b))

/-- What stands before an operator: a terminal or the call of a function. -/
inductive Before : Term → List Str → Prop
  | plain {t s} : Plain t s → Before t [s]
  | call {f args} : f ∈ functionNames ∨ f ∈ aggregatorNames → Balanced args →
    Before (.var (f ++ "(".toList ++ args.flatten ++ ")".toList)) (f :: "(".toList :: (args ++ [")".toList]))

/-- A member of a list: an integer or a text in quotes (which keeps its quotes). -/
inductive Item : Scalar → Str → Prop
  | int (i : Int) : Item (.int i) (intStr i)
  | text {q s} : q = '"' ∨ q = '\'' → Item (.str (quote q s)) (quote q s)

/-- Members separated by commas. -/
inductive Items : List Scalar → List Str → Prop
  | nil : Items [] []
  | one {v s} : Item v s → Items [v] [s]
  | more {v s vs ss} : Item v s → Items vs ss → Items (v :: vs) (s :: ",".toList :: ss)

/-- What stands after an operator: a terminal or a list. -/
inductive After : Term → List Str → Prop
  | plain {t s} : Plain t s → After t [s]
  | list {vs ss} : Items vs ss → After (.list vs) ("(".toList :: (ss ++ [")".toList]))

inductive Level | cond | and | or

/-- The ways to write an expression: NOT binds tightest, then AND, then OR; parentheses override. -/
inductive Written : Level → Tree → List Str → Prop
  | cmp {l op r a b} : Before l a → op ∈ comparisonNames → After r b → Written .cond (.cmp l op r) (a ++ op :: b)
  | not {t a} : Written .cond t a → Written .cond (.not t) ("NOT".toList :: a)
  | paren {t a} : Written .or t a → Written .cond t ("(".toList :: (a ++ [")".toList]))
  | oneCond {t a} : Written .cond t a → Written .and t a
  | and {s t a b} : Written .and s a → Written .cond t b → Written .and (.and s t) (a ++ "AND".toList :: b)
  | oneAnd {t a} : Written .and t a → Written .or t a
  | or {s t a b} : Written .or s a → Written .and t b → Written .or (.or s t) (a ++ "OR".toList :: b)

/-- The comparisons of an expression can be written. -/
def Writable : Tree → Prop
  | .cmp l op r => (∃ a, Before l a) ∧ op ∈ comparisonNames ∧ ∃ b, After r b
  | .not t => Writable t
  | .and a b => Writable a ∧ Writable b
  | .or a b => Writable a ∧ Writable b

/-- The boolean meaning, from the truth of the comparisons. -/
def meaning (truth : Term → Str → Term → Bool) : Tree → Bool
  | .cmp l op r => truth l op r
  | .not t => !meaning truth t
  | .and a b => meaning truth a && meaning truth b
  | .or a b => meaning truth a || meaning truth b

/-- The comparisons of an expression. -/
def comparisons : Tree → List (Term × Str × Term)
  | .cmp l op r => [(l, op, r)]
  | .not t => comparisons t
  | .and a b => comparisons a ++ comparisons b
  | .or a b => comparisons a ++ comparisons b

/-- An operand, by the labels of its tokens. -/
inductive Operand (lex : Lex) : Term → List Str → Prop
  | int {s i} : label lex s = .integer → pyInt s = .ok i → Operand lex (.int i) [s]
  | float {s q} : label lex s = .float → lex.float s = some q → Operand lex (.float q) [s]
  | var {s} : label lex s = .variable → Operand lex (.var s) [s]
  | lit {s} : label lex s = .literal → Operand lex (.lit (inner s)) [s]
  | bool {s} : label lex s = .boolean → Operand lex (.bool (lex.upper s = "TRUE".toList)) [s]
  | date {s d} : label lex s = .date → parseIso (inner s) = some d → Operand lex (.date d) [s]
  | list {o ss c} : label lex o = .left → (∀ s ∈ ss, label lex s ≠ .right) → label lex c = .right →
    Operand lex (.list ((ss.filter (fun s => label lex s ≠ .comma)).map (interpretStr lex))) (o :: (ss ++ [c]))

/-- The grammar, by the labels of the tokens. -/
inductive Reads (lex : Lex) : Level → Tree → List Str → Prop
  | cmp {l op r a b} : Operand lex l a → label lex op = .operator → Operand lex r b →
    Reads lex .cond (.cmp l (lex.upper op) r) (a ++ op :: b)
  | not {t k a} : label lex k = .not → Reads lex .cond t a → Reads lex .cond (.not t) (k :: a)
  | paren {t o a c} : label lex o = .left → Reads lex .or t a → label lex c = .right → Reads lex .cond t (o :: (a ++ [c]))
  | oneCond {t a} : Reads lex .cond t a → Reads lex .and t a
  | and {s t a k b} : Reads lex .and s a → label lex k = .and → Reads lex .cond t b → Reads lex .and (.and s t) (a ++ k :: b)
  | oneAnd {t a} : Reads lex .and t a → Reads lex .or t a
  | or {s t a k b} : Reads lex .or s a → label lex k = .or → Reads lex .and t b → Reads lex .or (.or s t) (a ++ k :: b)

/-- No comparison has NULL or a NOT as an operand. -/
def Regular (t : Tree) : Prop := ∀ c ∈ comparisons t, c.1 ≠ .null ∧ c.1 ≠ .bareNot ∧ c.2.2 ≠ .null ∧ c.2.2 ≠ .bareNot

/-- A name in an expression and the field it names. -/
def Names (name field : Str) : Prop := (Name field ∧ name = field) ∨ (field ≠ [] ∧ '`' ∉ field ∧ name = quote '`' field)

/-- A text that is not also a boolean, a number or a date. -/
def JustText (lex : Lex) (s : Str) : Prop :=
  lex.upper s ≠ "TRUE".toList ∧ lex.upper s ≠ "FALSE".toList ∧ (∀ i, pyInt s ≠ .ok i) ∧ lex.float s = none ∧
  parseIso s = none

/-- Tokens that are not the names of functions. -/
def NoCalls (lex : Lex) (ts : List Str) : Prop := ∀ s ∈ ts, label lex s ≠ .function ∧ label lex s ≠ .aggregator

/-- What can raise: LIKE and NOT LIKE without a text on the right, and MATCHES with a text that is not a regular
expression. -/
def Safe (lib : Lib) (c : Term × Str × Term) : Prop :=
  c.2.1 ∈ comparisonNames ∧ c.1 ≠ .bareNot ∧ c.1 ≠ .var [] ∧ c.2.2 ≠ .bareNot ∧ c.2.2 ≠ .var [] ∧
  (c.2.1 = "LIKE".toList ∨ c.2.1 = "NOT LIKE".toList → ∃ p, c.2.2 = .lit p) ∧
  (c.2.1 = "MATCHES".toList → ∃ p f, c.2.2 = .lit p ∧ lib.compile p = .ok f)

/-- The names in an expression are names, or names in backquotes that are not empty and have none inside. -/
def WellNamed (t : Tree) : Prop :=
  ∀ c ∈ comparisons t, (∀ k, c.1 = .var k → ∃ s, Names k s) ∧ (∀ k, c.2.2 = .var k → ∃ s, Names k s)

/-- The tree after n records. -/
def afterMany : Nat → Tree → Tree
  | 0, t => t
  | n + 1, t => (afterMany n t).after

/-- The comparisons of texts in expressions. -/
def holdsText (op : String) (x y : Str) : Option Prop :=
  match op with
  | "=" | "==" => some (x = y)
  | "!=" | "<>" => some (x ≠ y)
  | "<" => some (x < y)
  | ">" => some (y < x)
  | "<=" => some (x ≤ y)
  | ">=" => some (y ≤ x)
  | "CONTAINS" => some (∃ a b, x = a ++ y ++ b)
  | _ => Option.none

/-- A number in an expression. -/
inductive Number : Term → Scalar → Prop
  | int (i : Int) : Number (.int i) (.int i)
  | float (q : Rat) : Number (.float q) (.float q)
  | bool (b : Bool) : Number (.bool b) (.bool b)

/-- A comparison of a field, which is a number in the record, with a number. -/
inductive Numeric (r : Row) : Tree → Prop
  | mk {k op n x y} : Name k → op ∈ ["=", "==", "!=", "<>", "<", ">", "<=", ">="].map String.toList → Number n y →
    r.lookup k = some (.one x) → x.num.isSome = true → Numeric r (.cmp (.var k) op n)

/-- Alternatives of such comparisons and of pairs of them. -/
inductive Convertible (r : Row) : Tree → Prop
  | one {t} : Numeric r t → Convertible r t
  | pair {s t} : Numeric r s → Numeric r t → Convertible r (.and s t)
  | or {s t} : Convertible r s → Convertible r t → Convertible r (.or s t)

end Mabel.Expression.Spec
