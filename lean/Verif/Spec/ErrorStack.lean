import Mathlib.Data.List.Forall2
import Verif.Model.ErrorStack

/-! Vocabulary for what is to be seen of an error. -/

namespace Mabel.ErrorStack
open Mabel.Py

/-- An error that was raised, and is not taken for nothing. -/
def Raised (h : Heap) (j : Nat) : Prop := (h j).truthy = true ∧ (h j).traceback ≠ none

/-- `j` led to `i`: `i` was raised from it or, if it was raised from none, while `j` was being handled and without a wish
to hide it. -/
def LedTo (h : Heap) (j i : Nat) : Prop :=
  ((h i).cause = some j ∧ Raised h j) ∨
  ((∀ k, (h i).cause = some k → ¬ Raised h k) ∧ (h i).context = some j ∧ Raised h j ∧ (h i).suppress = false)

/-- An error and those that led to it, back to one to which none led. -/
inductive Story (h : Heap) : Nat → List Nat → Prop
  | first {i : Nat} : (∀ j, ¬ LedTo h j i) → Story h i [i]
  | later {i j : Nat} {l : List Nat} : LedTo h j i → Story h j l → Story h i (i :: l)

/-- All errors of a story and the values of all local variables in it have a text. -/
structure Texts (h : Heap) (l : List Nat) : Prop where
  errors : ∀ i ∈ l, ∃ s, (h i).value = .ok s
  locals : ∀ i ∈ l, ∀ r ∈ (h i).traceback.getD [], ∀ kv ∈ r.locals, ∃ s, kv.2 = .ok s

/-- A character that can be seen: one that is not white space for Python. -/
def visible (c : Char) : Bool :=
  !(('\t' ≤ c && c ≤ '\r') || ('\x1c' ≤ c && c ≤ ' ') || c = '\u0085' || c = '\u00a0' ||
    c = '\u1680' || c = '\u2028' || c = '\u2029' || c = '\u202f' || c = '\u205f' || c = '\u3000' || ('\u2000' ≤ c && c ≤ '\u200a'))

/-- `textwrap.fill` breaks lines and changes white space only, and makes no line too long. -/
structure Fills (lib : Lib) : Prop where
  keeps : ∀ s, (lib.fill s).filter visible = s.filter visible
  fits : ∀ s, ∀ l ∈ split '\n' (lib.fill s), l.length ≤ 120

/-- Names of files made absolute begin with a slash. -/
def Absolute (lib : Lib) : Prop := ∀ s, ∃ r, lib.abspath s = '/' :: r

/-- The places an error passed through, in order. -/
def placesOf (h : Heap) (i : Nat) : List Raw := (h i).traceback.getD []

/-- The name of the file of a place, made absolute; `?` if there is none. -/
def fileOf (lib : Lib) (r : Raw) : Str := if r.file = [] then ['?'] else lib.abspath r.file

/-- The lines for local variables: each name with its value, the values beneath one another. -/
def LocalLines (locals : List (Str × Except Err Str)) (out : List Str) : Prop :=
  (locals = [] → out = []) ∧
  (locals ≠ [] → ∃ (width : Nat) (body : List Str), out = barLabel "locals".toList :: body ∧
    (∀ kv ∈ locals, kv.1.length ≤ width) ∧
    List.Forall₂ (fun kv line => ∃ v, kv.2 = .ok v ∧
      line = "  ".toList ++ kv.1 ++ List.replicate (width - kv.1.length) ' ' ++ " : ".toList ++ v) locals body)

/-- A line of code with its number, and marked or not. -/
def codeLine (mark : Bool) (number : Nat) (text : Str) : Str :=
  (if mark then '>' else ' ') :: (List.replicate (4 - (natStr number).length) ' ' ++ natStr number ++ " | ".toList ++ text)

/-- The lines of code around one: three before it and three after it, as far as there are. -/
def around (code : List Str) (line : Nat) : List Str :=
  ((List.range code.length).filter fun k => line ≤ k + 1 + 3 ∧ k + 1 ≤ line + 3).map fun k =>
    codeLine (k + 1 == line) (k + 1) (code.getD k [])

/-- What is shown before the code around one of the first three lines of a file: its last line, under the number 0. -/
def lineZero (code : List Str) (line : Nat) : List Str :=
  if line ≤ 3 then (code.getLast?.map (codeLine false 0)).toList else []

/-- What is shown of a place. -/
def Shows (lib : Lib) (r : Raw) (block : List Str) : Prop :=
  ∃ locals code, LocalLines r.locals locals ∧
    (lib.lines (fileOf lib r) = none → code = []) ∧
    (∀ ls, lib.lines (fileOf lib r) = some ls → 1 ≤ r.line →
      code = barLabel (lib.base (fileOf lib r)) :: (lineZero ls r.line ++ around ls r.line)) ∧
    block = (fileOf lib r ++ [':'] ++ natStr r.line ++ " in ".toList ++ r.name ++ "()".toList) ::
      (locals ++ code ++ [List.replicate 120 '-', []])

end Mabel.ErrorStack
