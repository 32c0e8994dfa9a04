import Verif.Model.Functions
import Verif.Model.Dates
import Verif.Model.WriterInit
import Verif.Model.FunctionTable

/-! # Dates given as numbers (mabel/utils/dates.py, base_inner_reader.py) -/

namespace Mabel.Timestamps
open Mabel.Py Mabel.Dates

/-- The date and time a number of seconds after 1970-01-01T00:00:00 names:
`datetime.datetime.fromtimestamp`, of a whole number.  The local time zone is taken to be UTC.  The
year must be one the C library's calendar has room for (an `int`), or the call raises `OverflowError`
(`OSError` for some numbers; one value stands for both here); a year it has room for and
`datetime` has not (below 1 or above 9999) raises `ValueError`. -/
def fromTimestamp (n : Int) : Except Err DateTime :=
  if n < -67768040609740800 ∨ 67768036191676799 < n then .error .overflow
  else
    match Functions.shift ⟨1970, 1, 1, 0, 0, 0⟩ (n / 86400) with
    | .error _ => .error .valueError
    | .ok d =>
      let r := (n % 86400).toNat
      .ok { d with hour := r / 3600, minute := r / 60 % 60, second := r % 60 }

/-- dates.py:85-86 and 133-134 `parse_iso` of a whole number: `ValueError` and `TypeError` are
caught, and the answer is None; other errors are not. -/
def parseNumber (n : Int) : Except Err (Option DateTime) :=
  match fromTimestamp n with
  | .ok d => .ok (some d)
  | .error .valueError => .ok none
  | .error .typeError => .ok none
  | .error e => .error e

/-- A float: a number, or one of the values that are none. -/
inductive Float
  | finite (q : Rat)
  | nan
  | infinite
  deriving DecidableEq, Repr

/-- `datetime.datetime.fromtimestamp` of a float, in microseconds: the part after the point is rounded
to the nearest microsecond, halves to the even one.  (The float is multiplied exactly here.) -/
def microseconds (q : Rat) : Int :=
  FunctionTable.truncate q * 1000000 +
    FunctionTable.roundHalfEven ((q - FunctionTable.truncate q) * 1000000)

/-- dates.py:85-86 and 133-134 `parse_iso` of a float; the microseconds of the answer are left out here.
What is not a number raises `ValueError`, which is caught, and an infinite one `OverflowError`, which
is not. -/
def parseFloat : Float → Except Err (Option DateTime)
  | .finite q => parseNumber (microseconds q / 1000000)
  | .nan => .ok none
  | .infinite => .error .overflow

/-- The ways a date can be given to a reader: those of `DateArg`, and numbers. -/
inductive Given
  | arg (a : DateArg)
  | number (n : Int)
  | float (x : Float)
  deriving DecidableEq, Repr

/-- dates.py:43-134 `parse_iso`, also of numbers. -/
def parseGiven : Given → Except Err (Option DateTime)
  | .arg a => .ok (parseArg a)
  | .number n => parseNumber n
  | .float x => parseFloat x

/-- base_inner_reader.py:48-52 and 93: the dates a reader visits, its start and end given in any of
these ways; `now` is `utcnow()`. -/
def readerRangeGiven (now : DateTime) (start stop : Given) : Except Err (List DateTime) :=
  let today := now.floorHour
  match parseGiven start with
  | .error e => .error e
  | .ok s =>
    match parseGiven stop with
    | .error e => .error e
    | .ok t =>
      let s := s.getD today
      let t := t.getD today
      let (s, t) := if s.le t then (s, t) else (t, s)
      dateRange now (.datetime s) (.datetime t)

/-- writer.py:23-31: how `_get_writer_date` tells the ways of giving a date apart.  A `datetime` is a
`date` to `isinstance`; a number is neither a date nor a text. -/
def writerArg : Given → WriterInit.DateArg
  | .arg .none => .missing
  | .arg (.datetime d) => .date d
  | .arg (.date y m d) => .date ⟨y, m, d, 0, 0, 0⟩
  | .arg (.str s) => .text s
  | .number _ => .missing
  | .float _ => .missing

/-- writer.py:23-31 `_get_writer_date`, of a date given in any of these ways. -/
def writerDateGiven (now : DateTime) (g : Given) : Option DateTime :=
  WriterInit.writerDate now (writerArg g)

end Mabel.Timestamps
