import Verif.Model.ErrorStack

/-!
# Wrapping texts: `wrap_text` of mabel/utils/text.py and mabel/errors/render_error_stack.py

`wrap_text` hands each line of a text to `textwrap.fill` of Python's library, which is modelled here function by
function (CPython's Lib/textwrap.py, class `TextWrapper`) for the options that `wrap_text` leaves as they are: tabs are
expanded, white space is replaced by spaces and dropped at the ends of lines, long words are broken, words may be broken
after hyphens, there are no indents and no greatest number of lines.  What `\w` and `\d` of regular expressions are is a
parameter.
-/

namespace Mabel.TextWrap
open Mabel.Py

/-- The classes of characters of regular expressions: `\w` and `\d`. -/
structure Classes where
  word : Char → Bool
  digit : Char → Bool

/-- Lib/textwrap.py `_whitespace`: white space in words' separators (US-ASCII only). -/
def isWs (c : Char) : Bool := c = '\t' || c = '\n' || c = '\x0b' || c = '\x0c' || c = '\r' || c = ' '

/-- `str.isspace` of one character: what `str.strip` takes away. -/
def isSpace (c : Char) : Bool :=
  ('\t' ≤ c && c ≤ '\r') || ('\x1c' ≤ c && c ≤ ' ') || c = '\u0085' || c = '\u00a0' ||
    c = '\u1680' || c = '\u2028' || c = '\u2029' || c = '\u202f' || c = '\u205f' || c = '\u3000' ||
    ('\u2000' ≤ c && c ≤ '\u200a')

/-- `chunk.strip() == ''` -/
def blank (s : Str) : Bool := s.all isSpace

/-- `str.expandtabs(8)`, from a column. -/
def expandTabs : Nat → Str → Str
  | _, [] => []
  | col, c :: cs =>
    if c = '\t' then List.replicate (8 - col % 8) ' ' ++ expandTabs (col + (8 - col % 8)) cs
    else if c = '\n' ∨ c = '\r' then c :: expandTabs 0 cs
    else c :: expandTabs (col + 1) cs

/-- Lib/textwrap.py `_munge_whitespace` -/
def munge (text : Str) : Str := (expandTabs 0 text).map fun c => if isWs c then ' ' else c

/-- Lib/textwrap.py `letter`: `[^\d\W]` -/
def letter (k : Classes) (c : Char) : Bool := k.word c && !k.digit c

/-- Lib/textwrap.py `word_punct`: `[\w!"'&.,?]` -/
def wordPunct (k : Classes) (c : Char) : Bool :=
  k.word c || c = '!' || c = '"' || c = '\'' || c = '&' || c = '.' || c = ',' || c = '?'

/-- `-{2,}` followed by `\w` -/
def emDash (k : Classes) (rest : Str) : Bool :=
  2 ≤ (rest.takeWhile (· = '-')).length && ((rest.dropWhile (· = '-')).head?.any k.word)

/-- A hyphen after which a word may be broken: `-(?: (?<=lt{2}-) | (?<=lt-lt-)) (?= lt -? lt)`; `before` is what is in
front of it, read backwards. -/
def hyphenHere (k : Classes) (before rest : Str) : Bool :=
  (match before with
    | a :: '-' :: b :: _ => letter k a && (letter k '-' || letter k b)
    | a :: b :: _ => letter k a && letter k b
    | _ => false) &&
  (match rest with
    | '-' :: x :: '-' :: y :: _ => letter k x && (letter k '-' || letter k y)
    | '-' :: x :: y :: _ => letter k x && letter k y
    | _ => false)

/-- The third alternative of `wordsep_re`: the shortest piece of a word after which a line may be broken.  `before` is
what is in front of the rest, read backwards. -/
def scanWord (k : Classes) : Str → Str → Str × Str
  | _, [] => ([], [])
  | before, c :: rest =>
    if hyphenHere k (c :: before) rest then ([c, '-'], rest.tail)
    else if rest.head?.all isWs then ([c], rest)
    else if wordPunct k c && emDash k rest then ([c], rest)
    else (c :: (scanWord k (c :: before) rest).1, (scanWord k (c :: before) rest).2)

/-- Lib/textwrap.py `wordsep_re`: what it matches at a place, and the rest. -/
def chunkAt (k : Classes) (before rest : Str) : Str × Str :=
  if rest.head?.any isWs then (rest.takeWhile isWs, rest.dropWhile isWs)
  else if before.head?.any (wordPunct k) && emDash k rest then (rest.takeWhile (· = '-'), rest.dropWhile (· = '-'))
  else scanWord k before rest

/-- `wordsep_re.split` without empty pieces: something is matched at every place, so that the pieces are the matches.
The number is that of matches at most; `C113` shows that the length of the text is enough. -/
def splitGo (k : Classes) : Nat → Str → Str → List Str
  | 0, _, _ => []
  | n + 1, before, rest =>
    if rest = [] then []
    else (chunkAt k before rest).1 :: splitGo k n ((chunkAt k before rest).1.reverse ++ before) (chunkAt k before rest).2

/-- Lib/textwrap.py `_split` -/
def splitChunks (k : Classes) (text : Str) : List Str := splitGo k text.length [] text

/-- `chunk.rfind('-')` -/
def lastHyphen : Str → Option Nat
  | [] => none
  | c :: cs =>
    match lastHyphen cs with
    | some i => some (i + 1)
    | none => if c = '-' then some 0 else none

/-- Lib/textwrap.py `_handle_long_word`: how much of a word that is longer than a line goes to a place of this size. -/
def breakAt (space : Nat) (chunk : Str) : Nat :=
  match lastHyphen (chunk.take space) with
  | some h => if h > 0 ∧ (chunk.take h).any (· ≠ '-') then h + 1 else space
  | none => space

/-- Lib/textwrap.py `_wrap_chunks`, inner loop: the chunks that fit on a line, with its length so far, and the others. -/
def fit (width : Nat) : Nat → List Str → List Str × List Str
  | _, [] => ([], [])
  | len, c :: cs =>
    if len + c.length ≤ width then (c :: (fit width (len + c.length) cs).1, (fit width (len + c.length) cs).2)
    else ([], c :: cs)

/-- Lib/textwrap.py `_wrap_chunks`, after the inner loop: a word longer than a line is broken. -/
def breakLong (width : Nat) (cur left : List Str) : List Str × List Str :=
  match left with
  | [] => (cur, left)
  | c :: cs =>
    if c.length > width then
      (cur ++ [c.take (breakAt (width - cur.flatten.length) c)], c.drop (breakAt (width - cur.flatten.length) c) :: cs)
    else (cur, left)

/-- Lib/textwrap.py `_wrap_chunks`: white space at the end of a line is dropped. -/
def dropBlank (cur : List Str) : List Str := if cur.getLast?.any blank then cur.dropLast else cur

/-- Lib/textwrap.py `_wrap_chunks`: one round of the outer loop, the chunks of a line and the chunks that are left. -/
def oneLine (width : Nat) (chunks : List Str) : List Str × List Str :=
  (dropBlank (breakLong width (fit width 0 chunks).1 (fit width 0 chunks).2).1,
    (breakLong width (fit width 0 chunks).1 (fit width 0 chunks).2).2)

/-- Lib/textwrap.py `_wrap_chunks`: white space in front of a line that is not the first is dropped. -/
def dropFront (lines : Bool) (chunks : List Str) : List Str :=
  if lines && chunks.head?.any blank then chunks.tail else chunks

/-- Lib/textwrap.py `_wrap_chunks`, outer loop: the number is that of rounds at most (the number of characters is
enough), `lines` whether there are lines already. -/
def wrapGo (width : Nat) : Nat → Bool → List Str → List Str
  | 0, _, _ => []
  | n + 1, lines, chunks =>
    if chunks = [] then []
    else if (oneLine width (dropFront lines chunks)).1 = [] then
      wrapGo width n lines (oneLine width (dropFront lines chunks)).2
    else (oneLine width (dropFront lines chunks)).1.flatten ::
      wrapGo width n true (oneLine width (dropFront lines chunks)).2

/-- Lib/textwrap.py `wrap` and `_wrap_chunks` -/
def wrap (k : Classes) (width : Int) (text : Str) : Except Err (List Str) :=
  if width ≤ 0 then .error .valueError
  else .ok (wrapGo width.toNat (splitChunks k (munge text)).flatten.length false (splitChunks k (munge text)))

/-- Lib/textwrap.py `fill` -/
def fill (k : Classes) (width : Int) (text : Str) : Except Err Str := (wrap k width text).map (join ['\n'])

/-- utils/text.py:19-26 `wrap_text`; errors/render_error_stack.py:45-52 is the same. -/
def wrapText (k : Classes) (text : Str) (lineLen : Int) : Except Err Str :=
  ((ErrorStack.splitlines text).mapM (fill k lineLen)).map (join ['\n'])

end Mabel.TextWrap
