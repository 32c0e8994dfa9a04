import Verif.Model.Dates
import Verif.Model.Entropy
import Verif.Py.Value
import Mathlib.Data.Rat.Defs

/-!
# Inline functions

Models mabel/data/readers/internals/inline_functions.py: the date parts, ADDDAYS, DAYSDIFF, LEFT, RIGHT, MID, LEN, TRIM,
CONCAT, STRING, TRUNC, INTEGER, BOOLEAN, ISNONE, RANDOM and BETWEEN.  Model/FunctionTable.lean has UPPER, LOWER, ROUND, DOUBLE and
SORT, and all of them by name, Model/Remembered.lean MD5.  WEEK is the C library's `%V`.  Left out: NOW and HASH.
-/

namespace Mabel.Functions
open Mabel.Py

/-- An argument: None, a whole number, a truth value, a text, a datetime, or a date (its time is not looked at). -/
inductive Arg
  | none
  | int (i : Int)
  | bool (b : Bool)
  | str (s : Str)
  | datetime (t : DateTime)
  | date (t : DateTime)
  deriving DecidableEq, Repr

/-- Parts that a date does not have. -/
inductive Part | year | month | day | quarter | hour | minute | second | date | time
  deriving DecidableEq, Repr

/-- What a part is: a number, a date or a time. -/
inductive PartValue
  | none
  | num (n : Nat)
  | date (y m d : Nat)
  | time (h m s : Nat)
  deriving DecidableEq, Repr

/-- inline_functions.py:18-114: the part of a datetime -/
def partOf (t : DateTime) : Part → PartValue
  | .year => .num t.year
  | .month => .num t.month
  | .day => .num t.day
  | .quarter => .num ((t.month - 1) / 3 + 1)
  | .hour => .num t.hour
  | .minute => .num t.minute
  | .second => .num t.second
  | .date => .date t.year t.month t.day
  | .time => .time t.hour t.minute t.second

/-- inline_functions.py:22-23,...: `if isinstance(input, str): input = parse_iso(input)` -/
def resolve : Arg → Arg
  | .str s => match Dates.parseIso s with
    | some t => .datetime t
    | none => .none
  | a => a

/-- inline_functions.py:18-114 `get_year` ... `get_second`: a `datetime.date` has no hour, minute, second, `date()` or
`time()` -/
def getPart (p : Part) (input : Arg) : Except Err PartValue :=
  match resolve input with
  | .datetime t => .ok (partOf t p)
  | .date t =>
    match p with
    | .year | .month | .day | .quarter => .ok (partOf t p)
    | _ => .error .attributeError
  | _ => .ok .none

/-- The C library's `iso_week_days` (glibc time/strftime_l.c): days from the Monday of the first week of the year to this day, for
the day of the year (from 0) and the day of the week (from 0, Sunday) -/
def isoWeekDays (yday wday : Int) : Int := yday - (yday - wday + 4 + 378) % 7 + 4 - 1

/-- The days of a year -/
def yearLength (y : Nat) : Int := if DateTime.isLeap y then 366 else 365

/-- The C library's `strftime` of `%V` (glibc time/strftime_l.c): a day may belong to the last week of the year before, or to the
first of the year after -/
def isoWeek (t : DateTime) : Int :=
  let yday : Int := DateTime.daysBeforeMonth t.year t.month + t.day - 1
  let wday : Int := t.ordinal % 7
  let days := isoWeekDays yday wday
  if days < 0 then isoWeekDays (yday + yearLength (t.year - 1)) wday / 7 + 1
  else
    let d := isoWeekDays (yday - yearLength t.year) wday
    if 0 ≤ d then d / 7 + 1 else days / 7 + 1

/-- inline_functions.py:117-125 `get_week` -/
def getWeek (input : Arg) : Option Int :=
  match resolve input with
  | .datetime t | .date t => some (isoWeek t)
  | _ => none

/-- `t + timedelta(days=n)` for a count of days from 0, one at a time; OverflowError beyond the year 9999 -/
def forward : Nat → DateTime → Except Err DateTime
  | 0, t => .ok t
  | n + 1, t => if t.year = 9999 ∧ t.month = 12 ∧ t.day = 31 then .error .overflow else forward n t.nextDay

/-- `t - timedelta(days=n)`, one at a time; OverflowError before the year 1 -/
def backward : Nat → DateTime → Except Err DateTime
  | 0, t => .ok t
  | n + 1, t => if t.year = 1 ∧ t.month = 1 ∧ t.day = 1 then .error .overflow else backward n t.prevDay

def shift (t : DateTime) (n : Int) : Except Err DateTime :=
  if n < 0 then backward n.natAbs t else forward n.natAbs t

/-- inline_functions.py:156-161 `add_days` -/
def addDays (start : Arg) (days : Int) : Except Err Arg :=
  match resolve start with
  | .datetime t => (shift t days).map .datetime
  | .date t => (shift t days).map .date
  | _ => .ok .none

/-- inline_functions.py:164-173 `diff_days`: `.days` of the difference is rounded down; a date and a datetime cannot be
subtracted.  `none` is None. -/
def diffDays (start stop : Arg) : Except Err (Option Int) :=
  match resolve start, resolve stop with
  | .datetime a, .datetime b => .ok (some (((b.seconds : Int) - a.seconds).fdiv 86400))
  | .date a, .date b => .ok (some ((b.ordinal : Int) - a.ordinal))
  | .datetime _, .date _ => .error .typeError
  | .date _, .datetime _ => .error .typeError
  | _, _ => .ok none

/-- inline_functions.py:215 `LEFT`; `str(x)` and `int(y)` are done -/
def left (x : Str) (y : Int) : Str := sliceTo x y

/-- inline_functions.py:216 `RIGHT` -/
def right (x : Str) (y : Int) : Str := sliceFrom x (-y)

/-- inline_functions.py:217 `MID` -/
def mid (x : Str) (y z : Int) : Str := sliceTo (sliceFrom x y) z

/-- inline_functions.py:134-142 `concat`, of several items, already texts -/
def concat (items : List Str) : Str := join [] items

/-- inline_functions.py:139-142 `concat`, of one list -/
def concatList (items : List Str) : Str := join ", ".toList items

/-- a whole number rounded to 53 bits, half to even, as `float` does -/
def round53 (n : Nat) : Nat :=
  let e := n.log2 - 52
  let q := n / 2 ^ e
  let r := n % 2 ^ e
  if 2 * r > 2 ^ e ∨ (2 * r = 2 ^ e ∧ q % 2 = 1) then (q + 1) * 2 ^ e else q * 2 ^ e

/-- `float(n)` for a whole number of this size, OverflowError when it would be 2^1024 or more -/
def floatNat (n : Nat) : Except Err Nat :=
  if round53 n < 2 ^ 1024 then .ok (round53 n) else .error .overflow

/-- inline_functions.py:176-182,221-222 `TRUNC` and `INTEGER`, of None, whole numbers and truth values -/
def integer : Arg → Except Err (Option Int)
  | .int i => (floatNat i.natAbs).map (fun n => some (if i < 0 then -(n : Int) else n))
  | .bool b => .ok (some b.toInt)
  | .none => .ok none
  | _ => .error .typeError

/-- inline_functions.py:225 `BOOLEAN`, of `str(x)`; `upper` is `str.upper` -/
def boolean (upper : Str → Str) (x : Str) : Bool := upper x != "FALSE".toList

/-- inline_functions.py:128-131 `get_random`, the quotient as a fraction -/
def random (urandom : List Entropy.Byte) : Except Err Rat :=
  (Entropy.randomRange urandom 0 999).map (fun n => (n : Rat) / 1000)

/-- inline_functions.py:232 `BETWEEN` -/
def between (val low high : Int) : Bool := low < val && val < high

end Mabel.Functions
