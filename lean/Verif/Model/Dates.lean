import Verif.Py.DateTime
import Verif.Py.Num

/-!
# Dates

Models mabel/utils/dates.py.

Simplifications: datetimes are to the second; numbers and numpy/pandas values as dates
(dates.py:73-79, 85-86) are left out; `\d` and `int()` know ASCII digits only; the size limits of
`timedelta` are left out.
-/

namespace Mabel.Dates
open Mabel.Py

/-! ## Integers from text -/

/-- White space that `int()` strips (ASCII). -/
def isSpace (c : Char) : Bool :=
  [' ', '\t', '\n', '\r', '\x0b', '\x0c', '\x1c', '\x1d', '\x1e', '\x1f'].contains c

/-- An ASCII digit's value. -/
def digitVal (c : Char) : Option Nat :=
  if '0' ≤ c ∧ c ≤ '9' then some (c.toNat - '0'.toNat) else none

/-- The digits of an `int()` literal, with single underscores allowed between digits.  `acc` is the
value so far; `prev` says whether the last character was a digit. -/
def intDigits : Nat → Bool → Str → Option Nat
  | acc, prev, [] => if prev then some acc else none
  | acc, prev, c :: cs =>
    match digitVal c with
    | some v => intDigits (10 * acc + v) true cs
    | none => if c = '_' ∧ prev then intDigits acc false cs else none

/-- `s.strip()` for the white space above. -/
def strip (s : Str) : Str := ((s.dropWhile isSpace).reverse.dropWhile isSpace).reverse

/-- `int(s)`: ValueError if it is not an integer literal. -/
def pyInt (s : Str) : Except Err Int :=
  let r : Option Int := match strip s with
    | '-' :: cs => (intDigits 0 false cs).map (fun n => -(n : Int))
    | '+' :: cs => (intDigits 0 false cs).map (fun n => (n : Int))
    | cs => (intDigits 0 false cs).map (fun n => (n : Int))
  match r with
  | some i => .ok i
  | none => .error .valueError

/-! ## parse_iso -/

/-- `value[a:b]` for in-range non-negative bounds. -/
def slice (s : Str) (a b : Nat) : Str := (s.take b).drop a

/-- dates.py:19 `DATE_SEPARATORS` -/
def isSeparator (c : Char) : Bool := c == '-' || c == ':'

/-- dates.py:99, 105-117, 120-131: `datetime.datetime(*map(int, [...]))`. -/
def makeFrom (parts : List Str) : Except Err DateTime :=
  match parts.mapM pyInt with
  | .error e => .error e
  | .ok [y, m, d] => DateTime.make y m d 0 0 0
  | .ok [y, m, d, h, mi] => DateTime.make y m d h mi 0
  | .ok [y, m, d, h, mi, s] => DateTime.make y m d h mi s
  | .ok _ => .error .typeError

/-- The character at an index (the callers have checked the length). -/
def at' (s : Str) (i : Nat) : Char := s.getD i '\x00'

/-- dates.py:94-132, once a trailing `Z` and an offset have been removed. -/
def parseBody (v : Str) : Except Err (Option DateTime) :=
  if !isSeparator (at' v 4) || !isSeparator (at' v 7) then .ok none
  else if v.length = 10 then
    (makeFrom [slice v 0 4, slice v 5 7, slice v 8 10]).map some
  else if 16 ≤ v.length then
    if !((at' v 10 = 'T' || at' v 10 = ' ') && isSeparator (at' v 13)) then .ok none
    else if 19 ≤ v.length && isSeparator (at' v 16) then
      (makeFrom [slice v 0 4, slice v 5 7, slice v 8 10, slice v 11 13, slice v 14 16,
        slice v 17 19]).map some
    else if v.length = 16 then
      (makeFrom [slice v 0 4, slice v 5 7, slice v 8 10, slice v 11 13, slice v 14 16]).map some
    else .ok none
  else .ok none

/-- dates.py:43-134 `parse_iso`, for a string.  The `except` turns ValueError into None. -/
def parseIso (value : Str) : Option DateTime :=
  let r : Except Err (Option DateTime) :=
    if 10 ≤ value.length ∧ value.length ≤ 33 then
      let v := if value.getLast? = some 'Z' then value.dropLast else value
      if v.contains '+' then
        let v := (split '+' v).headD []
        if 10 ≤ v.length ∧ v.length ≤ 28 then parseBody v else .ok none
      else parseBody v
    else .ok none
  match r with
  | .ok d => d
  | .error _ => none

/-! ## parse_delta -/

/-- A case-insensitive unit letter. -/
def isUnit (u c : Char) : Bool := c.toLower == u

/-- The longest run of digits at the start of a text: its value (none if there is no digit) and the
rest. -/
def digitRun : Str → Option Nat → Option Nat × Str
  | [], acc => (acc, [])
  | c :: cs, acc =>
    match digitVal c with
    | some v => digitRun cs (some (10 * acc.getD 0 + v))
    | none => (acc, c :: cs)

/-- dates.py:11-16, one optional group `((?P<name>-?\d+)u)?`: the number, and the text after the
group (unchanged if the group does not match there). -/
def deltaGroup (u : Char) (s : Str) : Option Int × Str :=
  let (neg, t) := match s with
    | '-' :: cs => (true, cs)
    | cs => (false, cs)
  match digitRun t none with
  | (some n, c :: rest) => if isUnit u c then (some (if neg then -(n : Int) else n), rest) else (none, s)
  | _ => (none, s)

/-- dates.py:24-40 `parse_delta`, in seconds.  The pattern always matches, perhaps emptily. -/
def parseDelta (s : Str) : Int :=
  let (d, s) := deltaGroup 'd' s
  let (h, s) := deltaGroup 'h' s
  let (m, s) := deltaGroup 'm' s
  let (sec, _) := deltaGroup 's' s
  d.getD 0 * 86400 + h.getD 0 * 3600 + m.getD 0 * 60 + sec.getD 0

/-! ## date_range -/

/-- The ways a date can be given. -/
inductive DateArg
  | none
  | datetime (d : DateTime)
  | date (y m d : Nat)
  | str (s : Str)
  deriving DecidableEq, Repr

/-- dates.py:43-134 `parse_iso`, for the ways a date can be given. -/
def parseArg : DateArg → Option DateTime
  | .none => .none
  | .datetime d => some d
  | .date y m d => some ⟨y, m, d, 0, 0, 0⟩
  | .str s => parseIso s

/-- dates.py:137-169 `date_range`; `now` is `utcnow()`. -/
def dateRange (now : DateTime) (start stop : DateArg) : Except Err (List DateTime) :=
  -- 147-150: cover the full day
  let stop := match stop with
    | .date y m d => .datetime ⟨y, m, d, 23, 59, 59⟩
    | .str s => .str (if s.length = 10 then s ++ "T23:00:00".toList else s)
    | x => x
  let e := ((parseArg stop).getD now).floorHour
  let s := ((parseArg start).getD now).floorHour
  if e.seconds < s.seconds then .error .valueError
  else .ok ((List.range ((e.seconds - s.seconds) / 3600 + 1)).map (fun n => s.addHours n))

/-- base_inner_reader.py:49-52: the reader's start and end. -/
def readerDates (now : DateTime) (start stop : DateArg) : DateTime × DateTime :=
  let today := now.floorHour
  let s := (parseArg start).getD today
  let e := (parseArg stop).getD today
  if s.le e then (s, e) else (e, s)

/-- base_inner_reader.py:93: the dates a reader visits. -/
def readerRange (now : DateTime) (start stop : DateArg) : Except Err (List DateTime) :=
  let (s, e) := readerDates now start stop
  dateRange now (.datetime s) (.datetime e)

end Mabel.Dates
