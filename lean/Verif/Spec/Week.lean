import Verif.Py.DateTime

/-!
# Weeks of ISO 8601 (C110)

Weeks begin on Mondays.  The first week of a year is the one that has its first Thursday in it; a week belongs to the year of its
Thursday.
-/

namespace Mabel.Week.Spec
open Mabel.Py

/-- The day of the week, from 0, Monday: 1 January of the year 1 was one. -/
def weekday (t : DateTime) : Nat := (t.ordinal - (⟨1, 1, 1, 0, 0, 0⟩ : DateTime).ordinal) % 7

/-- Two days are in the same week. -/
def SameWeek (s t : DateTime) : Prop := t.ordinal + weekday s = s.ordinal + weekday t

/-- The day of its year, from 1. -/
def dayOfYear (t : DateTime) : Nat := t.ordinal - (⟨t.year, 1, 1, 0, 0, 0⟩ : DateTime).ordinal + 1

/-- The day is in the week with this number: the Thursday of its week is that of its year with this number. -/
def IsWeek (t : DateTime) (n : Nat) : Prop :=
  ∃ thursday : DateTime, thursday.valid = true ∧ SameWeek t thursday ∧ weekday thursday = 3 ∧
    7 * (n - 1) < dayOfYear thursday ∧ dayOfYear thursday ≤ 7 * n

end Mabel.Week.Spec
