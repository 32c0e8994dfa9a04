import Verif.Model.Timestamps
import Verif.Props.Functions
import Mathlib.Tactic.Linarith

/-! # Dates given as numbers (C124) -/

namespace Mabel.Timestamps
open Mabel.Py Mabel.Dates

/-- Midnight at the start of 1970, in seconds. -/
theorem epoch_seconds : (⟨1970, 1, 1, 0, 0, 0⟩ : DateTime).seconds = 62135683200 := by decide

theorem epoch_ordinal : (⟨1970, 1, 1, 0, 0, 0⟩ : DateTime).ordinal = 719163 := by decide

theorem epoch_valid : (⟨1970, 1, 1, 0, 0, 0⟩ : DateTime).valid = true := by decide

theorem fromTimestamp_in (n : Int) (h1 : -62135596800 ≤ n) (h2 : n ≤ 253402300799) :
    ∃ d, fromTimestamp n = .ok d ∧ d.valid = true ∧ (d.seconds : Int) = 62135683200 + n := by
  obtain ⟨r, hr, hv, ho, -⟩ := (Functions.shift_spec _ epoch_valid (n / 86400)).1
    (by rw [epoch_ordinal]; omega) (by rw [epoch_ordinal]; simp only [Functions.lastDay]; omega)
  rw [epoch_ordinal] at ho
  unfold fromTimestamp
  rw [if_neg (by omega), hr]
  refine ⟨_, rfl, ?_, ?_⟩
  · have := (DateTime.valid_iff r).1 hv
    rw [DateTime.valid_iff]
    simp only
    omega
  · have : ∀ (a b c : Nat), ({ r with hour := a, minute := b, second := c } : DateTime).seconds =
        ((r.ordinal * 24 + a) * 60 + b) * 60 + c := fun _ _ _ => rfl
    rw [this]
    omega

theorem fromTimestamp_out (n : Int) (h : n < -62135596800 ∨ 253402300799 < n)
    (h1 : -67768040609740800 ≤ n) (h2 : n ≤ 67768036191676799) :
    fromTimestamp n = .error .valueError := by
  have := (Functions.shift_spec _ epoch_valid (n / 86400)).2
    (by rw [epoch_ordinal]; simp only [Functions.lastDay]; omega)
  unfold fromTimestamp
  rw [if_neg (by omega), this]

/-- **C124**: a number from the first second of the year 1 to the last of the year 9999 is the date
and time that many seconds after the start of 1970. -/
theorem C124_instant (n : Int) (h1 : -62135596800 ≤ n) (h2 : n ≤ 253402300799) :
    ∃ d, parseGiven (.number n) = .ok (some d) ∧ d.valid = true ∧
      (d.seconds : Int) = (⟨1970, 1, 1, 0, 0, 0⟩ : DateTime).seconds + n := by
  obtain ⟨d, h, hv, hs⟩ := fromTimestamp_in n h1 h2
  refine ⟨d, ?_, hv, ?_⟩
  · simp only [parseGiven, parseNumber, h]
  · rw [epoch_seconds]; exact hs

example : parseGiven (.number 86399) = .ok (some ⟨1970, 1, 1, 23, 59, 59⟩) ∧
    parseGiven (.number (-1)) = .ok (some ⟨1969, 12, 31, 23, 59, 59⟩) := by decide

theorem seconds_range (d : DateTime) (h : d.valid = true) :
    86400 ≤ d.seconds ∧ d.seconds ≤ 315537983999 := by
  have hb := (Functions.ordinal_last d h).1
  have hf := (Functions.ordinal_first d h).1
  have hv := (DateTime.valid_iff d).1 h
  simp only [Functions.lastDay] at hb
  unfold DateTime.seconds
  omega

/-- **C124**: every date and time there is is what its number of seconds after the start of 1970
is read as. -/
theorem C124_every (d : DateTime) (hd : d.valid = true) :
    parseGiven (.number ((d.seconds : Int) - (⟨1970, 1, 1, 0, 0, 0⟩ : DateTime).seconds)) =
      .ok (some d) := by
  have hr := seconds_range d hd
  rw [epoch_seconds]
  obtain ⟨e, h, hv, hs⟩ := fromTimestamp_in ((d.seconds : Int) - (62135683200 : Nat))
    (by omega) (by omega)
  have : e = d := DateTime.seconds_inj hv hd (by omega)
  subst this
  simp only [parseGiven, parseNumber, h]

example : (⟨2024, 2, 29, 13, 5, 7⟩ : DateTime).valid = true := by decide

theorem round_near (q : Rat) : (FunctionTable.roundHalfEven q : Rat) ≤ q + 1 / 2 ∧
    q ≤ FunctionTable.roundHalfEven q + 1 / 2 := by
  have h1 := Int.floor_le q
  have h2 := Int.lt_floor_add_one q
  unfold FunctionTable.roundHalfEven
  generalize ⌊q⌋ = f at h1 h2
  simp only
  split
  · constructor <;> linarith
  split
  · push_cast; constructor <;> linarith
  split
  · constructor <;> linarith
  · push_cast; constructor <;> linarith

theorem microseconds_near (q : Rat) : (microseconds q : Rat) ≤ q * 1000000 + 1 / 2 ∧
    q * 1000000 ≤ microseconds q + 1 / 2 := by
  have := round_near ((q - FunctionTable.truncate q) * 1000000)
  unfold microseconds
  push_cast
  constructor <;> linarith [this.1, this.2]

/-- **C124**: a number with a part after the point is the second it is in, up to half a microsecond. -/
theorem C124_float (q : Rat) (h1 : -62135596800 ≤ q) (h2 : q ≤ 253402300799) :
    ∃ d, parseGiven (.float (.finite q)) = .ok (some d) ∧ d.valid = true ∧
      (d.seconds : Rat) ≤ (⟨1970, 1, 1, 0, 0, 0⟩ : DateTime).seconds + q + 1 / 2000000 ∧
      (⟨1970, 1, 1, 0, 0, 0⟩ : DateTime).seconds + q < (d.seconds : Rat) + 1 := by
  obtain ⟨m1, m2⟩ := microseconds_near q
  generalize hm : microseconds q = m at m1 m2
  have b1 : -62135596800 * 1000000 ≤ m := by
    by_contra hc
    have hc : m + 1 ≤ -62135596800 * 1000000 := by omega
    have hc : ((m + 1 : Int) : Rat) ≤ ((-62135596800 * 1000000 : Int) : Rat) := by exact_mod_cast hc
    push_cast at hc
    linarith
  have b2 : m ≤ 253402300799 * 1000000 := by
    by_contra hc
    have hc : 253402300799 * 1000000 + 1 ≤ m := by omega
    have hc : ((253402300799 * 1000000 + 1 : Int) : Rat) ≤ ((m : Int) : Rat) := by exact_mod_cast hc
    push_cast at hc
    linarith
  obtain ⟨d, h, hv, hs⟩ := fromTimestamp_in (m / 1000000) (by omega) (by omega)
  have e1 : 1000000 * ((d.seconds : Int) - 62135683200) ≤ m := by omega
  have e2 : m ≤ 1000000 * ((d.seconds : Int) - 62135683200) + 999999 := by omega
  have e1 : (1000000 * ((d.seconds : Rat) - 62135683200)) ≤ (m : Rat) := by exact_mod_cast e1
  have e2 : (m : Rat) ≤ (1000000 * ((d.seconds : Rat) - 62135683200)) + 999999 := by exact_mod_cast e2
  refine ⟨d, ?_, hv, ?_, ?_⟩
  · simp only [parseGiven, parseFloat, parseNumber, hm, h]
  · rw [epoch_seconds]; push_cast; linarith
  · rw [epoch_seconds]; push_cast; linarith

/-- One that is nearer to the next second than half a microsecond is in the next. -/
example : parseGiven (.float (.finite (86399 + 1 / 2))) = .ok (some ⟨1970, 1, 1, 23, 59, 59⟩) ∧
    parseGiven (.float (.finite (-1 / 2))) = .ok (some ⟨1969, 12, 31, 23, 59, 59⟩) ∧
    parseGiven (.float (.finite (86399 + 99999999 / 100000000))) = .ok (some ⟨1970, 1, 2, 0, 0, 0⟩) := by
  decide +kernel

/-- **C124**: a whole number is the same date as a float. -/
theorem C124_float_whole (n : Int) : parseGiven (.float (.finite n)) = parseGiven (.number n) := by
  have hq := microseconds_near (n : Rat)
  have h1 : microseconds (n : Rat) ≤ n * 1000000 := by
    by_contra hc
    have hc : n * 1000000 + 1 ≤ microseconds (n : Rat) := by omega
    have hc : ((n * 1000000 + 1 : Int) : Rat) ≤ (microseconds (n : Rat) : Rat) := by exact_mod_cast hc
    push_cast at hc
    linarith [hq.1]
  have h2 : n * 1000000 ≤ microseconds (n : Rat) := by
    by_contra hc
    have hc : microseconds (n : Rat) + 1 ≤ n * 1000000 := by omega
    have hc : ((microseconds (n : Rat) + 1 : Int) : Rat) ≤ ((n * 1000000 : Int) : Rat) := by exact_mod_cast hc
    push_cast at hc
    linarith [hq.2]
  have : microseconds (n : Rat) / 1000000 = n := by omega
  simp only [parseGiven, parseFloat, this]

/-- **C124**, what fails: that a float that is no date is None.  One that is not a number is; an
infinite one raises. -/
theorem C124_infinite_fails : parseGiven (.float .nan) = .ok none ∧
    parseGiven (.float .infinite) = .error .overflow := ⟨rfl, rfl⟩

/-- What a reader visits depends only on what its dates are read as. -/
theorem range_congr (now : DateTime) {a b a' b' : Given} (ha : parseGiven a = parseGiven a')
    (hb : parseGiven b = parseGiven b') : readerRangeGiven now a b = readerRangeGiven now a' b' := by
  unfold readerRangeGiven
  rw [ha, hb]

/-- Given in the ways of C21, the dates a reader visits are those of C21. -/
theorem range_args (now : DateTime) (a b : DateArg) :
    readerRangeGiven now (.arg a) (.arg b) = readerRange now a b := by
  simp only [readerRangeGiven, parseGiven, readerRange, readerDates]

/-- **C124**: a reader given its start and end as numbers of seconds visits what it visits given
them as dates and times. -/
theorem C124_reader (now s e : DateTime) (hs : s.valid = true) (he : e.valid = true) :
    readerRangeGiven now
        (.number ((s.seconds : Int) - (⟨1970, 1, 1, 0, 0, 0⟩ : DateTime).seconds))
        (.number ((e.seconds : Int) - (⟨1970, 1, 1, 0, 0, 0⟩ : DateTime).seconds)) =
      readerRange now (.datetime s) (.datetime e) := by
  rw [← range_args]
  exact range_congr now (C124_every s hs) (C124_every e he)

example : (⟨2024, 2, 29, 13, 5, 7⟩ : DateTime).valid = true ∧
    (⟨2024, 3, 1, 0, 0, 0⟩ : DateTime).valid = true ∧
    (readerRange ⟨2024, 5, 1, 0, 0, 0⟩ (.datetime ⟨2024, 2, 29, 22, 5, 7⟩)
      (.datetime ⟨2024, 3, 1, 0, 0, 0⟩)) =
      .ok [⟨2024, 2, 29, 22, 0, 0⟩, ⟨2024, 2, 29, 23, 0, 0⟩, ⟨2024, 3, 1, 0, 0, 0⟩] := by decide

/-- **C124**, what fails: that a number which is no date is refused.  A number of milliseconds (any
number past the year 9999, or before the year 1, up to a year the C library has no room for) is
taken for no date at all, and the reader starts at the present hour. -/
theorem C124_milliseconds_fails (n : Int) (h : n < -62135596800 ∨ 253402300799 < n)
    (h1 : -67768040609740800 ≤ n) (h2 : n ≤ 67768036191676799) :
    ∀ (now : DateTime) (stop : Given),
      readerRangeGiven now (.number n) stop = readerRangeGiven now (.arg .none) stop ∧
      readerRangeGiven now stop (.number n) = readerRangeGiven now stop (.arg .none) := by
  have : parseGiven (.number n) = parseGiven (.arg .none) := by
    simp only [parseGiven, parseNumber, fromTimestamp_out n h h1 h2, parseArg]
  intro now stop
  exact ⟨range_congr now this rfl, range_congr now rfl this⟩

/-- 2024-01-05 in milliseconds. -/
example : (1704412800000 : Int) < -62135596800 ∨ 253402300799 < (1704412800000 : Int) := by decide

/-- **C124**, what fails: that text or number, a value that is no date is None.  A number whose
year is past what the C library has room for raises. -/
theorem C124_huge_fails (n : Int) (h : n < -67768040609740800 ∨ 67768036191676799 < n) :
    parseGiven (.number n) = .error .overflow := by
  have : fromTimestamp n = .error .overflow := by unfold fromTimestamp; rw [if_pos h]
  simp only [parseGiven, parseNumber, this]

/-- 2024-01-05 in nanoseconds. -/
example : (1704412800000000000 : Int) < -67768040609740800 ∨
    67768036191676799 < (1704412800000000000 : Int) := by decide

/-- **C124**, what fails: that the digits of a date are read as that date.  As a number they are a
number of seconds, a day of 1970. -/
theorem C124_digits_fails :
    parseGiven (.number 20240105) = .ok (some ⟨1970, 8, 23, 6, 15, 5⟩) := by decide +kernel

/-- **C124**: a date or a text is the same date to a writer as to a reader. -/
theorem C124_writer (now : DateTime) (a : DateArg) (h : a ≠ .none) :
    parseGiven (.arg a) = .ok (writerDateGiven now (.arg a)) := by
  cases a with
  | none => exact absurd rfl h
  | datetime d => rfl
  | date y m d => rfl
  | str s => rfl

example : writerDateGiven ⟨2024, 5, 1, 0, 0, 0⟩ (.arg (.str "2024-02-29".toList)) =
    some ⟨2024, 2, 29, 0, 0, 0⟩ := by decide

/-- **C124**, what fails: that a number is the same date to a writer as to a reader.  A writer takes
every number for no date, and writes to the present one. -/
theorem C124_writer_fails (now d : DateTime) (hd : d.valid = true) (hne : d ≠ now) :
    ∃ n : Int, parseGiven (.number n) = .ok (some d) ∧
      writerDateGiven now (.number n) = some now ∧
      parseGiven (.number n) ≠ .ok (writerDateGiven now (.number n)) := by
  refine ⟨_, C124_every d hd, rfl, ?_⟩
  rw [C124_every d hd]
  intro h
  injection h with h
  injection h with h
  exact hne h

example : (⟨2024, 2, 29, 0, 0, 0⟩ : DateTime).valid = true ∧
    (⟨2024, 2, 29, 0, 0, 0⟩ : DateTime) ≠ ⟨2024, 5, 1, 0, 0, 0⟩ := by decide

end Mabel.Timestamps
