import Verif.Spec.Week
import Verif.Props.FunctionTable
import Verif.Props.Functions

/-!
# C110: WEEK is the week of ISO 8601
-/

namespace Mabel.Week
open Mabel.Py Mabel.Functions Mabel.Week.Spec Mabel.FunctionTable Mabel.Filters
open Mabel.Py.DateTime (daysBeforeYear daysBeforeMonth isLeap valid_iff daysBeforeYear_succ daysBeforeMonth_13 daysBeforeMonth_succ
  daysBeforeMonth_le daysBeforeYear_le)

theorem first_ordinal (y : Nat) : (⟨y, 1, 1, 0, 0, 0⟩ : DateTime).ordinal = daysBeforeYear y + 1 := rfl

theorem one_ordinal : (⟨1, 1, 1, 0, 0, 0⟩ : DateTime).ordinal = 1 := by decide

/-- A day is within its year. -/
theorem ordinal_within {t : DateTime} (h : t.valid = true) :
    daysBeforeYear t.year < t.ordinal ∧ t.ordinal ≤ daysBeforeYear (t.year + 1) := by
  have h' := (valid_iff t).1 h
  obtain ⟨⟨y1, _⟩, ⟨m1, m2⟩, ⟨d1, d2⟩, -⟩ := h'
  have e : t.ordinal = daysBeforeYear t.year + daysBeforeMonth t.year t.month + t.day := rfl
  rw [daysBeforeYear_succ _ y1, ← daysBeforeMonth_13, e]
  have h2 : daysBeforeMonth t.year t.month + DateTime.daysInMonth t.year t.month ≤ daysBeforeMonth t.year 12 + 31 := by
    rcases Nat.lt_or_ge t.month 12 with hlt | hge
    · rw [← daysBeforeMonth_succ _ _ m1]
      have := daysBeforeMonth_le t.year (m := t.month + 1) (n := 12) (by omega) (by omega)
      omega
    · have : t.month = 12 := by omega
      rw [this]; simp [DateTime.daysInMonth]
  omega

theorem year_of {t : DateTime} (h : t.valid = true) {y : Nat} (hy : 1 ≤ y) (h1 : daysBeforeYear y < t.ordinal)
    (h2 : t.ordinal ≤ daysBeforeYear (y + 1)) : t.year = y := by
  have h' := ((valid_iff t).1 h).1
  obtain ⟨a, b⟩ := ordinal_within h
  rcases Nat.lt_trichotomy t.year y with hlt | he | hgt
  · have := daysBeforeYear_le (a := t.year + 1) (b := y) (by omega) (by omega)
    omega
  · exact he
  · have := daysBeforeYear_le (a := y + 1) (b := t.year) (by omega) (by omega)
    omega

theorem length_eq {y : Nat} (hy : 1 ≤ y) : (daysBeforeYear (y + 1) : Int) = daysBeforeYear y + yearLength y := by
  rw [daysBeforeYear_succ _ hy]
  unfold yearLength
  split <;> simp

/-- The Thursday of the week of a day exists. -/
theorem thursday_exists {t : DateTime} (h : t.valid = true) :
    ∃ th : DateTime, th.valid = true ∧ th.ordinal = t.ordinal + 3 - (t.ordinal - 1) % 7 := by
  have h1 := (ordinal_first t h).1
  have h2 := (ordinal_last t h).1
  have hl : lastDay = 3652059 := rfl
  obtain ⟨r, -, hr, ho, -⟩ := (shift_spec t h (3 - ((t.ordinal - 1) % 7 : Nat))).1 (by omega) (by omega)
  exact ⟨r, hr, by omega⟩

/-- The arithmetic of the C library, for a day of a year that begins after `B` days. -/
theorem isoWeek_spec {t th : DateTime} (h : t.valid = true) (hv : th.valid = true)
    (ho : th.ordinal = t.ordinal + 3 - (t.ordinal - 1) % 7) : isoWeek t = ((dayOfYear th - 1) / 7 + 1 : Nat) := by
  have h' := (valid_iff t).1 h
  obtain ⟨⟨y1, _⟩, ⟨m1, m2⟩, ⟨d1, d2⟩, -⟩ := h'
  have e : t.ordinal = daysBeforeYear t.year + daysBeforeMonth t.year t.month + t.day := rfl
  obtain ⟨w1, w2⟩ := ordinal_within h
  have hlen := length_eq y1
  unfold dayOfYear
  rw [first_ordinal]
  have hshort : ∀ y, 365 ≤ yearLength y ∧ yearLength y ≤ 366 := by
    intro y
    unfold yearLength
    split <;> omega
  have hs := hshort t.year
  unfold isoWeek isoWeekDays
  simp only
  generalize daysBeforeMonth t.year t.month = M at *
  by_cases hlow : th.ordinal ≤ daysBeforeYear t.year
  · -- the Thursday is in the year before
    have hy2 : 2 ≤ t.year := by
      by_contra hc
      have : t.year = 1 := by omega
      rw [this] at hlow
      have hz : daysBeforeYear 1 = 0 := rfl
      have := (ordinal_within hv).1
      omega
    have hp := length_eq (y := t.year - 1) (by omega)
    rw [show t.year - 1 + 1 = t.year from by omega] at hp
    have hs' := hshort (t.year - 1)
    have hth : th.year = t.year - 1 := year_of hv (by omega) (by omega) (by rw [show t.year - 1 + 1 = t.year from by omega]; exact hlow)
    rw [hth]
    rw [if_pos (by omega)]
    omega
  · by_cases hhigh : daysBeforeYear (t.year + 1) < th.ordinal
    · have hp := length_eq (y := t.year + 1) (by omega)
      have hs' := hshort (t.year + 1)
      have hth : th.year = t.year + 1 := year_of hv (by omega) hhigh (by omega)
      rw [hth]
      rw [if_neg (by omega), if_pos (by omega)]
      omega
    · have hth : th.year = t.year := year_of hv (by omega) (by omega) (by omega)
      rw [hth]
      rw [if_neg (by omega), if_neg (by omega)]
      omega

theorem sameWeek_iff {s t : DateTime} (hs : s.valid = true) (ht : t.valid = true) :
    SameWeek s t ↔ (s.ordinal - 1) / 7 = (t.ordinal - 1) / 7 := by
  have := (ordinal_first s hs).1
  have := (ordinal_first t ht).1
  unfold SameWeek weekday
  rw [one_ordinal]
  omega

variable (L : FunctionTable.Lib)

theorem week_call (t : DateTime) : call L "WEEK".toList [.one (.date t)] = .ok (.one (.int (isoWeek t))) := rfl

/-- **C110**: WEEK of a datetime is the number of its week by ISO 8601. -/
theorem C110_week (t : DateTime) (h : t.valid = true) :
    ∃ n : Nat, call L "WEEK".toList [.one (.date t)] = .ok (.one (.int n)) ∧ IsWeek t n := by
  obtain ⟨th, hv, ho⟩ := thursday_exists h
  refine ⟨(dayOfYear th - 1) / 7 + 1, ?_, th, hv, ?_, ?_, ?_, ?_⟩
  · rw [week_call, isoWeek_spec h hv ho]
  · rw [sameWeek_iff h hv]
    have := (ordinal_first t h).1
    omega
  · unfold weekday
    rw [one_ordinal]
    have := (ordinal_first t h).1
    omega
  · have : 1 ≤ dayOfYear th := by unfold dayOfYear; omega
    omega
  · omega

/-- The number of a week is determined. -/
theorem isWeek_unique {t : DateTime} (ht : t.valid = true) {m n : Nat} (h1 : IsWeek t m) (h2 : IsWeek t n) : m = n := by
  obtain ⟨a, a1, a2, a3, a4, a5⟩ := h1
  obtain ⟨b, b1, b2, b3, b4, b5⟩ := h2
  have e : a.ordinal = b.ordinal := by
    unfold SameWeek at a2 b2
    omega
  obtain ⟨y, -, -⟩ := DateTime.ordinal_inj a1 b1 e
  have : dayOfYear a = dayOfYear b := by
    unfold dayOfYear
    rw [e, y]
  omega

/-- **C110**: a text that is a date is taken for it; anything that is not a date has no week. -/
theorem C110_text (s : Str) : call L "WEEK".toList [.one (.str s)] =
    match Dates.parseIso s with
    | some t => call L "WEEK".toList [.one (.date t)]
    | none => .ok (.one .none) := by
  show Except.ok (Datum.one ((getWeek (.str s)).elim .none .int)) = _
  have : getWeek (.str s) = match Dates.parseIso s with
    | some t => some (isoWeek t)
    | none => none := by
    unfold getWeek
    simp only [resolve]
    cases Dates.parseIso s <;> rfl
  rw [this]
  cases Dates.parseIso s <;> rfl

/-- **C110**: weeks have the numbers 1 to 53; all days of a week, from Monday to Sunday, have the same, also at the turn of the
year; the week after has the next number or is the first. -/
theorem C110_weeks (s t : DateTime) (hs : s.valid = true) (ht : t.valid = true) {m n : Nat}
    (hm : call L "WEEK".toList [.one (.date s)] = .ok (.one (.int m)))
    (hn : call L "WEEK".toList [.one (.date t)] = .ok (.one (.int n))) :
    (1 ≤ m ∧ m ≤ 53) ∧ (SameWeek s t → m = n) ∧ (t.ordinal = s.ordinal + 7 → n = m + 1 ∨ n = 1) := by
  obtain ⟨a, a1, a2⟩ := thursday_exists hs
  obtain ⟨b, b1, b2⟩ := thursday_exists ht
  have em : m = (dayOfYear a - 1) / 7 + 1 := by
    rw [week_call, isoWeek_spec hs a1 a2] at hm
    have hm := Scalar.int.inj (Datum.one.inj (Except.ok.inj hm))
    omega
  have en : n = (dayOfYear b - 1) / 7 + 1 := by
    rw [week_call, isoWeek_spec ht b1 b2] at hn
    have hn := Scalar.int.inj (Datum.one.inj (Except.ok.inj hn))
    omega
  have oa := ordinal_within a1
  have ob := ordinal_within b1
  have va := ((valid_iff a).1 a1).1
  have vb := ((valid_iff b).1 b1).1
  have la := length_eq va.1
  have hshort : yearLength a.year ≤ 366 ∧ 365 ≤ yearLength a.year := by
    unfold yearLength
    split <;> omega
  have f1 := (ordinal_first s hs).1
  have f2 := (ordinal_first t ht).1
  refine ⟨?_, ?_, ?_⟩
  · unfold dayOfYear at em
    rw [first_ordinal] at em
    omega
  · intro h
    rw [sameWeek_iff hs ht] at h
    have e : a.ordinal = b.ordinal := by omega
    obtain ⟨y, -, -⟩ := DateTime.ordinal_inj a1 b1 e
    have : dayOfYear a = dayOfYear b := by
      unfold dayOfYear
      rw [e, y]
    omega
  · intro h
    have e : b.ordinal = a.ordinal + 7 := by omega
    unfold dayOfYear at em en
    rw [first_ordinal] at em en
    by_cases hy : b.ordinal ≤ daysBeforeYear (a.year + 1)
    · have : b.year = a.year := year_of b1 va.1 (by omega) hy
      rw [this] at en
      omega
    · have hlen := length_eq (y := a.year + 1) (by omega)
      have hl2 : 365 ≤ yearLength (a.year + 1) := by
        unfold yearLength
        split <;> omega
      have : b.year = a.year + 1 := year_of b1 (by omega) (by omega) (by omega)
      rw [this] at en
      omega

/-- **C110**: 4 January is in the first week of every year. -/
theorem C110_january (y h mi s : Nat) (hv : (⟨y, 1, 4, h, mi, s⟩ : DateTime).valid = true) :
    call L "WEEK".toList [.one (.date ⟨y, 1, 4, h, mi, s⟩)] = .ok (.one (.int 1)) := by
  obtain ⟨a, a1, a2⟩ := thursday_exists hv
  rw [week_call, isoWeek_spec hv a1 a2]
  have hy := ((valid_iff _).1 hv).1
  simp only at hy
  have e : (⟨y, 1, 4, h, mi, s⟩ : DateTime).ordinal = daysBeforeYear y + 4 := rfl
  rw [e] at a2
  have hlen := length_eq hy.1
  have hl2 : 365 ≤ yearLength y := by
    unfold yearLength
    split <;> omega
  have : a.year = y := year_of a1 hy.1 (by omega) (by omega)
  have hd : (dayOfYear a - 1) / 7 + 1 = 1 := by
    unfold dayOfYear
    rw [first_ordinal, this]
    omega
  rw [hd]
  rfl

/-- **C110 does not order the days of a year**: 1 January 2021, a Friday, is in week 53, of the year before; 30 December 2024, a
Monday, in week 1, of the year after.  YEAR and WEEK together do not name a week. -/
theorem C110_with_year_fails : ∃ s t : DateTime, s.valid = true ∧ t.valid = true ∧ s.year = t.year ∧ ¬ SameWeek s t ∧
    call L "WEEK".toList [.one (.date s)] = call L "WEEK".toList [.one (.date t)] ∧
    call L "YEAR".toList [.one (.date s)] = call L "YEAR".toList [.one (.date t)] :=
  ⟨⟨2024, 1, 1, 0, 0, 0⟩, ⟨2024, 12, 30, 0, 0, 0⟩, by decide, by decide, rfl, by unfold SameWeek; decide +kernel, rfl, rfl⟩

/-- Concrete days. -/
example : isoWeek ⟨2021, 1, 1, 0, 0, 0⟩ = 53 ∧ isoWeek ⟨2024, 12, 30, 0, 0, 0⟩ = 1 ∧ isoWeek ⟨2024, 2, 29, 0, 0, 0⟩ = 9 ∧
    isoWeek ⟨2026, 11, 16, 0, 0, 0⟩ = 47 := by decide +kernel

example : weekday ⟨2026, 11, 16, 0, 0, 0⟩ = 0 ∧ weekday ⟨2024, 2, 29, 0, 0, 0⟩ = 3 := by decide +kernel

/-- Non-vacuity of `C110_weeks`: two days of one week, in two years; and a day and the day a week later. -/
example : SameWeek ⟨2024, 12, 30, 0, 0, 0⟩ ⟨2025, 1, 5, 0, 0, 0⟩ ∧
    (⟨2025, 1, 6, 0, 0, 0⟩ : DateTime).ordinal = (⟨2024, 12, 30, 0, 0, 0⟩ : DateTime).ordinal + 7 := by
  unfold SameWeek
  decide +kernel

end Mabel.Week
