import Verif.Py.Basic

/-!
# datetime

The part of Python's `datetime` used by mabel, to the second (microseconds are always dropped by the
modelled code: mabel/utils/dates.py:155,160 and mabel/utils/paths.py:56-57).
-/

namespace Mabel.Py

/-- A (naive) `datetime.datetime`. -/
structure DateTime where
  year : Nat
  month : Nat
  day : Nat
  hour : Nat := 0
  minute : Nat := 0
  second : Nat := 0
  deriving DecidableEq, Repr

namespace DateTime

/-- `calendar.isleap` -/
def isLeap (y : Nat) : Bool := y % 4 == 0 && (y % 100 != 0 || y % 400 == 0)

/-- Days in a month (0 for a month that does not exist). -/
def daysInMonth (y : Nat) : Nat → Nat
  | 1 => 31 | 2 => if isLeap y then 29 else 28 | 3 => 31 | 4 => 30 | 5 => 31 | 6 => 30
  | 7 => 31 | 8 => 31 | 9 => 30 | 10 => 31 | 11 => 30 | 12 => 31 | _ => 0

/-- The checks of the `datetime.datetime` constructor (ValueError otherwise). -/
def valid (d : DateTime) : Bool :=
  1 ≤ d.year && d.year ≤ 9999 && 1 ≤ d.month && d.month ≤ 12 &&
  1 ≤ d.day && d.day ≤ daysInMonth d.year d.month &&
  d.hour < 24 && d.minute < 60 && d.second < 60

/-- `datetime.datetime(y, m, d, H, M, S)` -/
def make (y m d h mi s : Int) : Except Err DateTime :=
  if y < 0 ∨ m < 0 ∨ d < 0 ∨ h < 0 ∨ mi < 0 ∨ s < 0 then .error .valueError
  else
    let t : DateTime := ⟨y.toNat, m.toNat, d.toNat, h.toNat, mi.toNat, s.toNat⟩
    if t.valid then .ok t else .error .valueError

/-- Days before the first of the given month. -/
def daysBeforeMonth (y : Nat) : Nat → Nat
  | 0 => 0
  | 1 => 0
  | m + 2 => daysBeforeMonth y (m + 1) + daysInMonth y (m + 1)

/-- Days before 1 January of the given year (year 1 is the first). -/
def daysBeforeYear (y : Nat) : Nat := (y - 1) * 365 + (y - 1) / 4 - (y - 1) / 100 + (y - 1) / 400

/-- `date.toordinal()` -/
def ordinal (d : DateTime) : Nat := daysBeforeYear d.year + daysBeforeMonth d.year d.month + d.day

/-- Seconds since the epoch of `ordinal`: `(a - b).total_seconds()` is the difference of these. -/
def seconds (d : DateTime) : Nat := ((d.ordinal * 24 + d.hour) * 60 + d.minute) * 60 + d.second

/-- The calendar day after (keeps the time): `d + timedelta(days=1)`. -/
def nextDay (d : DateTime) : DateTime :=
  if d.day < daysInMonth d.year d.month then { d with day := d.day + 1 }
  else if d.month < 12 then { d with month := d.month + 1, day := 1 }
  else { d with year := d.year + 1, month := 1, day := 1 }

/-- The calendar day before (keeps the time): `d - timedelta(days=1)`. -/
def prevDay (d : DateTime) : DateTime :=
  if 1 < d.day then { d with day := d.day - 1 }
  else if 1 < d.month then { d with month := d.month - 1, day := daysInMonth d.year (d.month - 1) }
  else { d with year := d.year - 1, month := 12, day := 31 }

/-- `d + timedelta(hours=1)`. -/
def nextHour (d : DateTime) : DateTime :=
  if d.hour < 23 then { d with hour := d.hour + 1 } else nextDay { d with hour := 0 }

/-- `d + timedelta(hours=n)`, as `n` steps of one hour. -/
def addHours : Nat → DateTime → DateTime
  | 0, d => d
  | n + 1, d => addHours n (nextHour d)

/-- Chronological order of datetimes (Python's `<=`). -/
def le (a b : DateTime) : Bool := decide (a.seconds ≤ b.seconds)

/-- `d.replace(minute=0, second=0, microsecond=0)` -/
def floorHour (d : DateTime) : DateTime := { d with minute := 0, second := 0 }

end DateTime
end Mabel.Py
