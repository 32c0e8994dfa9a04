import Verif.Py.Value

/-!
# LIKE

Models mabel/utils/text.py:32-47 (`like`, `not_like`), together with the part of Python's `re` that the
patterns built there use: escaped characters, plain characters, `.`, `.*?`, `^` at the start and `$` at the
end, without flags.  `lower` (`str.lower`) is a parameter.
-/

namespace Mabel.Like
open Mabel.Py

/-- text.py:6 `REGEX_CHARACTERS` -/
def regexCharacters : List Char := ".^$*+?{}[]|()\\".toList

/-- text.py:38: `"".join([REGEX_CHARACTERS.get(ch, ch) for ch in fragment])` -/
def escape (s : Str) : Str := s.flatMap (fun c => if c ∈ regexCharacters then ['\\', c] else [c])

/-- `s.replace(c, new)` for a single character. -/
def replaceChar (c : Char) (new : Str) (s : Str) : Str := s.flatMap (fun x => if x = c then new else [x])

/-- text.py:39: the pattern between `^` and `$`. -/
def regexText (fragment : Str) : Str := replaceChar '_' ".".toList (replaceChar '%' ".*?".toList (escape fragment))

/-! ## Python's regular expressions (the part used) -/

/-- One item of a regular expression. -/
inductive Rx
  | lit (c : Char)
  /-- `.` -/
  | any
  /-- `.*?` -/
  | run
  deriving DecidableEq, Repr

/-- How `re` reads a pattern; none for what is not modelled. -/
def readRx : Str → Option (List Rx)
  | [] => some []
  | '\\' :: c :: s => (readRx s).map (.lit c :: ·)
  | '.' :: '*' :: '?' :: s => (readRx s).map (.run :: ·)
  | '.' :: s => (readRx s).map (.any :: ·)
  | c :: s => if c ∈ regexCharacters then none else (readRx s).map (.lit c :: ·)

/-- `.*?` followed by `k`: any number of characters other than line feeds. -/
def runMatch (k : Str → Bool) : Str → Bool
  | [] => k []
  | c :: t => k (c :: t) || (c ≠ '\n' && runMatch k t)

/-- Does the text from here on match, up to `$` (the end, or before a line feed at the end)? -/
def rxMatch : List Rx → Str → Bool
  | [], t => t = [] ∨ t = ['\n']
  | .lit c :: ps, t => match t with | [] => false | d :: t => d = c && rxMatch ps t
  | .any :: ps, t => match t with | [] => false | d :: t => d ≠ '\n' && rxMatch ps t
  | .run :: ps, t => runMatch (rxMatch ps) t

/-- text.py:42-43 `like(x, y)`, its truth value, where `x` is `str(x)` already and y is a text.  (A pattern
that cannot be read raises; `Like.compiles` shows that there is none.) -/
def likeText (lower : Str → Str) (x y : Str) : Bool :=
  match readRx (regexText (lower y)) with
  | none => false
  | some ps => rxMatch ps (lower x)

/-- text.py:42-43 `like(x, y)`, its truth value; y is a text. -/
def like (lower : Str → Str) (x : Value) (y : Str) : Bool := likeText lower (Value.toStr x) y

/-- text.py:46-47 `not_like` -/
def notLike (lower : Str → Str) (x : Value) (y : Str) : Bool := !like lower x y

end Mabel.Like
