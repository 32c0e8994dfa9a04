import Verif.Py.Basic

/-!
# Reading a page (specification)

What a browser takes as markup, and how it decodes escaped characters; nothing here refers to the model.
-/

namespace Mabel.Display
open Mabel.Py

/-- Where the reader is: in text, in a tag, or in a quoted attribute value. -/
inductive Where | text | tag | single | double
  deriving DecidableEq, Repr

/-- Where the reader is after a character. -/
def Where.next : Where → Char → Where
  | .text, c => if c = '<' then .tag else .text
  | .tag, c => if c = '>' then .text else if c = '\'' then .single else if c = '"' then .double else .tag
  | .single, c => if c = '\'' then .tag else .single
  | .double, c => if c = '"' then .tag else .double

/-- Is the character, read there, markup?  (In text, only `<`; in a tag everything; in a value, only the closing
quote.) -/
def Where.markup : Where → Char → Bool
  | .text, c => c = '<'
  | .tag, _ => true
  | .single, c => c = '\''
  | .double, c => c = '"'

/-- Where the reader is after a page. -/
def after (w : Where) (page : Str) : Where := page.foldl Where.next w

/-- What a reader sees a character as. -/
inductive Seen
  | markup (c : Char)
  | text (c : Char)
  | value (c : Char)
  deriving DecidableEq, Repr

def Where.sees (w : Where) (c : Char) : Seen :=
  if w.markup c then .markup c else if w = .text then .text c else .value c

/-- A page as the reader sees it. -/
def scan : Where → Str → List Seen
  | _, [] => []
  | w, c :: cs => w.sees c :: scan (w.next c) cs

/-- The markup of a page: everything but text and attribute values. -/
def markupOf (page : Str) : Str :=
  (scan .text page).filterMap (fun s => match s with | .markup c => some c | _ => none)

/-- The escapes a browser decodes. -/
def entities : List (Str × Char) :=
  [("&amp;".toList, '&'), ("&quot;".toList, '"'), ("&#39;".toList, '\''), ("&lt;".toList, '<'), ("&gt;".toList, '>'),
   ("&#x24;".toList, '$')]

/-- How a browser shows a text: each escape as its character.  `skip` characters of an escape are still to be passed. -/
def decodeGo : Nat → Str → Str
  | _, [] => []
  | n + 1, _ :: cs => decodeGo n cs
  | 0, c :: cs =>
    match entities.find? (fun e => e.1.isPrefixOf (c :: cs)) with
    | some e => e.2 :: decodeGo (e.1.length - 1) cs
    | none => c :: decodeGo 0 cs

def decode (s : Str) : Str := decodeGo 0 s

end Mabel.Display
