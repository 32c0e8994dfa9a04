import Verif.Lemmas.Dates

/-!
# Properties of dates: C21, C50, C51
-/

namespace Mabel.Dates
open Mabel.Py

/-! ## C21 -/

/-- The whole hours of the closed range from the hour of `lo` to `hi`. -/
def HourOf (lo hi t : DateTime) : Prop :=
  t.valid = true ∧ t.minute = 0 ∧ t.second = 0 ∧ lo.floorHour.seconds ≤ t.seconds ∧
    t.seconds ≤ hi.seconds

/-- **C21.**  For a start and an end in either order, a reader visits every whole hour of the closed
range between them, each once, in ascending order, and nothing else. -/
theorem C21_range_complete (now a b : DateTime) (ha : a.valid = true) (hb : b.valid = true) :
    ∃ l, readerRange now (.datetime a) (.datetime b) = .ok l ∧
      (∀ t, t ∈ l ↔ HourOf (if a.seconds ≤ b.seconds then a else b)
        (if a.seconds ≤ b.seconds then b else a) t) ∧
      l.Pairwise (fun s t => s.seconds < t.seconds) := by
  unfold readerRange readerDates parseArg DateTime.le
  by_cases h : a.seconds ≤ b.seconds
  · simp only [Option.getD_some, h, decide_true, if_true]
    exact dateRange_spec ha hb h
  · simp only [Option.getD_some, h, decide_false, Bool.false_eq_true, if_false]
    exact dateRange_spec hb ha (by omega)

/-- Bounds the wrong way round, across midnight at the end of a leap February. -/
example : readerRange ⟨2024, 1, 1, 0, 0, 0⟩ (.datetime ⟨2024, 3, 1, 1, 5, 0⟩)
      (.datetime ⟨2024, 2, 29, 22, 30, 9⟩) =
    .ok [⟨2024, 2, 29, 22, 0, 0⟩, ⟨2024, 2, 29, 23, 0, 0⟩, ⟨2024, 3, 1, 0, 0, 0⟩,
      ⟨2024, 3, 1, 1, 0, 0⟩] := by decide

/-- `date_range` itself covers the whole of a last day given as a date: the hours from the start to
23:00 of that day. -/
theorem C21_date_range_whole_day (now a : DateTime) (y m d : Nat) (ha : a.valid = true)
    (hd : (⟨y, m, d, 0, 0, 0⟩ : DateTime).valid = true)
    (h : a.seconds ≤ (⟨y, m, d, 23, 59, 59⟩ : DateTime).seconds) :
    ∃ l, dateRange now (.datetime a) (.date y m d) = .ok l ∧
      (∀ t, t ∈ l ↔ HourOf a ⟨y, m, d, 23, 59, 59⟩ t) ∧
      l.Pairwise (fun s t => s.seconds < t.seconds) := by
  have hv : (⟨y, m, d, 23, 59, 59⟩ : DateTime).valid = true := by
    rw [DateTime.valid_iff] at hd ⊢
    simp only at *
    omega
  exact dateRange_spec (now := now) ha hv h

theorem readerRange_congr (now : DateTime) {a b a' b' : DateArg} (ha : parseArg a = parseArg a')
    (hb : parseArg b = parseArg b') : readerRange now a b = readerRange now a' b' := by
  unfold readerRange readerDates
  rw [ha, hb]

/-- **A reader does not**: it turns the dates into datetimes first, so with an end given as a date
the hours of that day after midnight are not visited (here 1 January at 05:00 is not). -/
theorem C21_reader_last_day_fails :
    ∃ l, readerRange ⟨2024, 6, 1, 0, 0, 0⟩ (.date 2023 12 31) (.date 2024 1 1) = .ok l ∧
      ⟨2023, 12, 31, 5, 0, 0⟩ ∈ l ∧ ⟨2024, 1, 1, 0, 0, 0⟩ ∈ l ∧
      (∀ h, 0 < h → ⟨2024, 1, 1, h, 0, 0⟩ ∉ l) := by
  obtain ⟨l, h1, h2, -⟩ := C21_range_complete ⟨2024, 6, 1, 0, 0, 0⟩ ⟨2023, 12, 31, 0, 0, 0⟩
    ⟨2024, 1, 1, 0, 0, 0⟩ (by decide) (by decide)
  have e : readerRange ⟨2024, 6, 1, 0, 0, 0⟩ (.date 2023 12 31) (.date 2024 1 1)
      = readerRange ⟨2024, 6, 1, 0, 0, 0⟩ (.datetime ⟨2023, 12, 31, 0, 0, 0⟩)
        (.datetime ⟨2024, 1, 1, 0, 0, 0⟩) := readerRange_congr _ rfl rfl
  refine ⟨l, e.trans h1, ?_, ?_, ?_⟩
  · rw [h2]
    refine ⟨by decide, rfl, rfl, ?_, ?_⟩
    · rw [if_pos (by decide)]; decide
    · rw [if_pos (by decide)]; decide
  · rw [h2]
    refine ⟨by decide, rfl, rfl, ?_, ?_⟩
    · rw [if_pos (by decide)]; decide
    · rw [if_pos (by decide)]
  · intro h hpos
    rw [h2]
    intro hh
    have := hh.2.2.2.2
    rw [if_pos (by decide), DateTime.seconds, DateTime.seconds] at this
    simp only at this
    have e : (⟨2024, 1, 1, h, 0, 0⟩ : DateTime).ordinal = (⟨2024, 1, 1, 0, 0, 0⟩ : DateTime).ordinal := rfl
    rw [e] at this
    generalize (⟨2024, 1, 1, 0, 0, 0⟩ : DateTime).ordinal = o at this
    omega

/-- `date_range` alone refuses an end before the start. -/
theorem C21_reversed_refused (now a b : DateTime) (h : b.floorHour.seconds < a.floorHour.seconds) :
    dateRange now (.datetime a) (.datetime b) = .error .valueError := if_pos h

/-! ## C50 -/

/-- `YYYY-MM-DD` with the given separators. -/
def dateText (d : DateTime) (s1 s2 : Char) : Str := four d.year ++ s1 :: two d.month ++ s2 :: two d.day

/-- `YYYY-MM-DD HH:MM` -/
def minuteText (d : DateTime) (s1 s2 t s3 : Char) : Str :=
  dateText d s1 s2 ++ t :: two d.hour ++ s3 :: two d.minute

/-- `YYYY-MM-DD HH:MM:SS` -/
def secondText (d : DateTime) (s1 s2 t s3 s4 : Char) : Str :=
  minuteText d s1 s2 t s3 ++ s4 :: two d.second

theorem two_plain (n : Nat) (h : n < 100) : ∀ c ∈ two n, c ≠ '+' ∧ c ≠ 'Z' := by
  intro c hc
  simp only [two, List.mem_cons, List.not_mem_nil, or_false] at hc
  have h1 := digitChar_plain (n / 10) (by omega)
  have h2 := digitChar_plain (n % 10) (by omega)
  rcases hc with rfl | rfl
  · exact ⟨h1.2.1, h1.2.2.1⟩
  · exact ⟨h2.2.1, h2.2.2.1⟩

theorem four_plain (n : Nat) (h : n < 10000) : ∀ c ∈ four n, c ≠ '+' := by
  intro c hc
  simp only [four, List.mem_cons, List.not_mem_nil, or_false] at hc
  rcases hc with rfl | rfl | rfl | rfl <;> exact (digitChar_plain _ (by omega)).2.1

theorem days_lt_100 (y m : Nat) : DateTime.daysInMonth y m < 100 := by
  unfold DateTime.daysInMonth
  split <;> (try split) <;> omega

theorem makeFrom3 (y m d : Nat) (hv : (⟨y, m, d, 0, 0, 0⟩ : DateTime).valid = true) :
    makeFrom [four y, two m, two d] = .ok ⟨y, m, d, 0, 0, 0⟩ := by
  have h := (DateTime.valid_iff _).1 hv
  have hd := days_lt_100 y m
  simp only at h
  have e : [four y, two m, two d].mapM pyInt = (.ok [(y : Int), m, d] : Except Err _) := by
    simp only [List.mapM_cons, List.mapM_nil, pyInt_four y (by omega), pyInt_two m (by omega),
      pyInt_two d (by omega)]
    rfl
  have k := make_ok hv
  simp only [Nat.cast_zero, Nat.cast_ofNat] at k
  simp only [makeFrom, e]
  exact k

theorem makeFrom5 (y m d h mi : Nat) (hv : (⟨y, m, d, h, mi, 0⟩ : DateTime).valid = true) :
    makeFrom [four y, two m, two d, two h, two mi] = .ok ⟨y, m, d, h, mi, 0⟩ := by
  have hh := (DateTime.valid_iff _).1 hv
  have hd := days_lt_100 y m
  simp only at hh
  have e : [four y, two m, two d, two h, two mi].mapM pyInt
      = (.ok [(y : Int), m, d, h, mi] : Except Err _) := by
    simp only [List.mapM_cons, List.mapM_nil, pyInt_four y (by omega), pyInt_two m (by omega),
      pyInt_two d (by omega), pyInt_two h (by omega), pyInt_two mi (by omega)]
    rfl
  have k := make_ok hv
  simp only [Nat.cast_zero, Nat.cast_ofNat] at k
  simp only [makeFrom, e]
  exact k

theorem makeFrom6 (y m d h mi s : Nat) (hv : (⟨y, m, d, h, mi, s⟩ : DateTime).valid = true) :
    makeFrom [four y, two m, two d, two h, two mi, two s] = .ok ⟨y, m, d, h, mi, s⟩ := by
  have hh := (DateTime.valid_iff _).1 hv
  have hd := days_lt_100 y m
  simp only at hh
  have e : [four y, two m, two d, two h, two mi, two s].mapM pyInt
      = (.ok [(y : Int), m, d, h, mi, s] : Except Err _) := by
    simp only [List.mapM_cons, List.mapM_nil, pyInt_four y (by omega), pyInt_two m (by omega),
      pyInt_two d (by omega), pyInt_two h (by omega), pyInt_two mi (by omega), pyInt_two s (by omega)]
    rfl
  have k := make_ok hv
  simp only [Nat.cast_zero, Nat.cast_ofNat] at k
  simp only [makeFrom, e]
  exact k

theorem isSeparator_plain {c : Char} (h : isSeparator c = true) : c ≠ '+' := by
  rintro rfl; exact absurd h (by decide)

/-- The characters between the parts of a date or a time. -/
def Separator (c : Char) : Prop := c = '-' ∨ c = ':'

theorem Separator.is {c : Char} (h : Separator c) : isSeparator c = true := by
  rcases h with rfl | rfl <;> rfl

theorem separator_of {c : Char} (h : isSeparator c = true) : Separator c := by
  simpa [isSeparator, Separator] using h

/-- **C50 (dates).**  Every calendar date written `YYYY-MM-DD`, alone or followed by a `Z` or an
offset, is parsed to midnight of that date (offsets are ignored, as documented). -/
theorem C50_date (d : DateTime) (hv : d.valid = true) (s1 s2 : Char) (h1 : Separator s1)
    (h2 : Separator s2) (z : Str) (hz : Zone z) (hl : z.length ≤ 23) :
    parseIso (dateText d s1 s2 ++ z) = some ⟨d.year, d.month, d.day, 0, 0, 0⟩ := by
  replace h1 := h1.is
  replace h2 := h2.is
  have h := (DateTime.valid_iff _).1 hv
  have hd := days_lt_100 d.year d.month
  have hv0 : (⟨d.year, d.month, d.day, 0, 0, 0⟩ : DateTime).valid = true := by
    rw [DateTime.valid_iff]; simp only; omega
  rw [parseIso_zone (dateText d s1 s2) z hz (by simp [dateText, four, two])
    (by simp [dateText, four, two]) (by simp [dateText, four, two]; omega)]
  · have e : parseBody (dateText d s1 s2) = (makeFrom [four d.year, two d.month, two d.day]).map some := by
      simp only [parseBody, dateText, four, two, List.cons_append, List.nil_append]
      simp [at', h1, h2, slice]
    rw [e, makeFrom3 _ _ _ hv0]
    rfl
  · intro hc
    simp only [dateText, List.append_assoc, List.mem_append, List.mem_cons, List.cons_append] at hc
    rcases hc with hc | hc | hc | hc | hc
    · exact four_plain _ (by omega) _ hc rfl
    · exact isSeparator_plain h1 hc.symm
    · exact (two_plain _ (by omega) _ hc).1 rfl
    · exact isSeparator_plain h2 hc.symm
    · exact (two_plain _ (by omega) _ hc).1 rfl
  · simp only [dateText, four, two, List.cons_append, List.nil_append]
    simp only [List.getLast?_cons_cons, List.getLast?_singleton, ne_eq, Option.some.injEq]
    exact (digitChar_plain _ (by omega)).2.2.1

/-- **C50 (minutes).**  Every date and time written `YYYY-MM-DD HH:MM` or with a `T`. -/
theorem C50_minute (d : DateTime) (hv : d.valid = true) (s1 s2 t s3 : Char)
    (h1 : Separator s1) (h2 : Separator s2) (h3 : Separator s3)
    (ht : t = 'T' ∨ t = ' ') (z : Str) (hz : Zone z) (hl : z.length ≤ 17) :
    parseIso (minuteText d s1 s2 t s3 ++ z)
      = some ⟨d.year, d.month, d.day, d.hour, d.minute, 0⟩ := by
  replace h1 := h1.is
  replace h2 := h2.is
  replace h3 := h3.is
  have h := (DateTime.valid_iff _).1 hv
  have hd := days_lt_100 d.year d.month
  have hv0 : (⟨d.year, d.month, d.day, d.hour, d.minute, 0⟩ : DateTime).valid = true := by
    rw [DateTime.valid_iff]; simp only; omega
  rw [parseIso_zone (minuteText d s1 s2 t s3) z hz (by simp [minuteText, dateText, four, two])
    (by simp [minuteText, dateText, four, two]) (by simp [minuteText, dateText, four, two]; omega)]
  · have e : parseBody (minuteText d s1 s2 t s3)
        = (makeFrom [four d.year, two d.month, two d.day, two d.hour, two d.minute]).map some := by
      simp only [parseBody, minuteText, dateText, four, two, List.cons_append, List.nil_append]
      rcases ht with rfl | rfl <;> simp [at', h1, h2, h3, slice]
    rw [e, makeFrom5 _ _ _ _ _ hv0]
    rfl
  · intro hc
    simp only [minuteText, dateText, List.append_assoc, List.mem_append, List.mem_cons,
      List.cons_append] at hc
    rcases hc with hc | hc | hc | hc | hc | hc | hc | hc | hc
    · exact four_plain _ (by omega) _ hc rfl
    · exact isSeparator_plain h1 hc.symm
    · exact (two_plain _ (by omega) _ hc).1 rfl
    · exact isSeparator_plain h2 hc.symm
    · exact (two_plain _ (by omega) _ hc).1 rfl
    · rcases ht with rfl | rfl <;> exact absurd hc (by decide)
    · exact (two_plain _ (by omega) _ hc).1 rfl
    · exact isSeparator_plain h3 hc.symm
    · exact (two_plain _ (by omega) _ hc).1 rfl
  · simp only [minuteText, dateText, four, two, List.cons_append, List.nil_append]
    simp only [List.getLast?_cons_cons, List.getLast?_singleton, ne_eq, Option.some.injEq]
    exact (digitChar_plain _ (by omega)).2.2.1

/-- **C50 (seconds).**  Every date and time written `YYYY-MM-DD HH:MM:SS` or with a `T`, and with a
fraction or nothing after the seconds (`frac`: any text of at most nine characters without a plus
sign and not ending in `Z`), is parsed to that second. -/
theorem C50_second (d : DateTime) (hv : d.valid = true) (s1 s2 t s3 s4 : Char)
    (h1 : Separator s1) (h2 : Separator s2) (h3 : Separator s3)
    (h4 : Separator s4) (ht : t = 'T' ∨ t = ' ')
    (frac : Str) (hf : '+' ∉ frac) (hfz : frac.getLast? ≠ some 'Z') (hfl : frac.length ≤ 9)
    (z : Str) (hz : Zone z) (hl : z.length + frac.length ≤ 14) :
    parseIso (secondText d s1 s2 t s3 s4 ++ frac ++ z) = some d := by
  replace h1 := h1.is
  replace h2 := h2.is
  replace h3 := h3.is
  replace h4 := h4.is
  have h := (DateTime.valid_iff _).1 hv
  have hd := days_lt_100 d.year d.month
  rw [parseIso_zone (secondText d s1 s2 t s3 s4 ++ frac) z hz
    (by simp [secondText, minuteText, dateText, four, two])
    (by simp [secondText, minuteText, dateText, four, two]; omega)
    (by simp [secondText, minuteText, dateText, four, two]; omega)]
  · have e : parseBody (secondText d s1 s2 t s3 s4 ++ frac)
        = (makeFrom [four d.year, two d.month, two d.day, two d.hour, two d.minute,
            two d.second]).map some := by
      simp only [parseBody, secondText, minuteText, dateText, four, two, List.cons_append,
        List.nil_append]
      rcases ht with rfl | rfl <;> simp [at', h1, h2, h3, h4, slice]
    rw [e, makeFrom6 _ _ _ _ _ _ hv]
    rfl
  · intro hc
    rcases List.mem_append.1 hc with hc | hc
    swap
    · exact hf hc
    simp only [secondText, minuteText, dateText, List.append_assoc, List.mem_append, List.mem_cons,
      List.cons_append] at hc
    rcases hc with hc | hc | hc | hc | hc | hc | hc | hc | hc | hc | hc
    · exact four_plain _ (by omega) _ hc rfl
    · exact isSeparator_plain h1 hc.symm
    · exact (two_plain _ (by omega) _ hc).1 rfl
    · exact isSeparator_plain h2 hc.symm
    · exact (two_plain _ (by omega) _ hc).1 rfl
    · rcases ht with rfl | rfl <;> exact absurd hc (by decide)
    · exact (two_plain _ (by omega) _ hc).1 rfl
    · exact isSeparator_plain h3 hc.symm
    · exact (two_plain _ (by omega) _ hc).1 rfl
    · exact isSeparator_plain h4 hc.symm
    · exact (two_plain _ (by omega) _ hc).1 rfl
  · rw [List.getLast?_append]
    cases hg : frac.getLast? with
    | some x => rw [hg] at hfz; simpa using hfz
    | none =>
      simp only [secondText, minuteText, dateText, four, two, List.cons_append, List.nil_append]
      simp only [List.getLast?_cons_cons, List.getLast?_singleton, Option.none_or, ne_eq, Option.some.injEq]
      exact (digitChar_plain _ (by omega)).2.2.1

example : secondText ⟨2024, 2, 29, 23, 5, 9⟩ '-' '-' 'T' ':' ':' ++ ".123456".toList ++ "+01:00".toList
    = "2024-02-29T23:05:09.123456+01:00".toList ∧
    parseIso "2024-02-29T23:05:09.123456+01:00".toList = some ⟨2024, 2, 29, 23, 5, 9⟩ := by decide

/-- **C50 (never a nonsense date).**  Whatever the text, a value that is returned is a real calendar
date and time. -/
theorem C50_result_valid (s : Str) (d : DateTime) (h : parseIso s = some d) : d.valid = true := by
  unfold parseIso at h
  simp only at h
  split at h
  · rename_i r hr
    subst h
    repeat' split at hr
    all_goals first
      | exact parseBody_valid hr
      | exact absurd hr (by simp)
  · exact absurd h (by simp)

example : parseIso "2023-02-29".toList = none ∧ parseIso "2024-13-01T00:00".toList = none ∧
    parseIso "yesterday!".toList = none ∧ parseIso "2024-01-01".toList = some ⟨2024, 1, 1, 0, 0, 0⟩ := by
  decide

theorem at_some {v : Str} {i : Nat} (h : i < v.length) : v[i]? = some (at' v i) := by
  unfold at'
  rw [List.getD_eq_getElem?_getD, List.getElem?_eq_getElem h]
  rfl

theorem make_parts {y m d h mi s : Int} {r : DateTime} (e : DateTime.make y m d h mi s = .ok r) :
    y = r.year ∧ m = r.month ∧ d = r.day ∧ h = r.hour ∧ mi = r.minute ∧ s = r.second := by
  unfold DateTime.make at e
  dsimp only at e
  split at e
  · cases e
  split at e
  · cases e
    simp only
    omega
  · cases e

theorem makeFrom3_inv {a b c : Str} {r : DateTime} (e : makeFrom [a, b, c] = .ok r) :
    pyInt a = .ok r.year ∧ pyInt b = .ok r.month ∧ pyInt c = .ok r.day ∧ r.hour = 0 ∧ r.minute = 0 ∧ r.second = 0 := by
  unfold makeFrom at e
  simp only [List.mapM_cons, List.mapM_nil] at e
  cases ha : pyInt a with
  | error x => rw [ha] at e; cases e
  | ok y =>
  cases hb : pyInt b with
  | error x => rw [ha, hb] at e; cases e
  | ok m =>
  cases hc : pyInt c with
  | error x => rw [ha, hb, hc] at e; cases e
  | ok d =>
  rw [ha, hb, hc] at e
  obtain ⟨e1, e2, e3, e4, e5, e6⟩ := make_parts (y := y) (m := m) (d := d) (h := 0) (mi := 0) (s := 0) e
  exact ⟨by rw [e1], by rw [e2], by rw [e3], by omega, by omega, by omega⟩

theorem makeFrom5_inv {a b c f g : Str} {r : DateTime} (e : makeFrom [a, b, c, f, g] = .ok r) :
    pyInt a = .ok r.year ∧ pyInt b = .ok r.month ∧ pyInt c = .ok r.day ∧ pyInt f = .ok r.hour ∧ pyInt g = .ok r.minute ∧ r.second = 0 := by
  unfold makeFrom at e
  simp only [List.mapM_cons, List.mapM_nil] at e
  cases ha : pyInt a with
  | error x => rw [ha] at e; cases e
  | ok y =>
  cases hb : pyInt b with
  | error x => rw [ha, hb] at e; cases e
  | ok m =>
  cases hc : pyInt c with
  | error x => rw [ha, hb, hc] at e; cases e
  | ok d =>
  cases hf : pyInt f with
  | error x => rw [ha, hb, hc, hf] at e; cases e
  | ok h =>
  cases hg : pyInt g with
  | error x => rw [ha, hb, hc, hf, hg] at e; cases e
  | ok mi =>
  rw [ha, hb, hc, hf, hg] at e
  obtain ⟨e1, e2, e3, e4, e5, e6⟩ := make_parts (y := y) (m := m) (d := d) (h := h) (mi := mi) (s := 0) e
  exact ⟨by rw [e1], by rw [e2], by rw [e3], by rw [e4], by rw [e5], by omega⟩

theorem makeFrom6_inv {a b c f g k : Str} {r : DateTime} (e : makeFrom [a, b, c, f, g, k] = .ok r) :
    pyInt a = .ok r.year ∧ pyInt b = .ok r.month ∧ pyInt c = .ok r.day ∧ pyInt f = .ok r.hour ∧ pyInt g = .ok r.minute ∧
      pyInt k = .ok r.second := by
  unfold makeFrom at e
  simp only [List.mapM_cons, List.mapM_nil] at e
  cases ha : pyInt a with
  | error x => rw [ha] at e; cases e
  | ok y =>
  cases hb : pyInt b with
  | error x => rw [ha, hb] at e; cases e
  | ok m =>
  cases hc : pyInt c with
  | error x => rw [ha, hb, hc] at e; cases e
  | ok d =>
  cases hf : pyInt f with
  | error x => rw [ha, hb, hc, hf] at e; cases e
  | ok h =>
  cases hg : pyInt g with
  | error x => rw [ha, hb, hc, hf, hg] at e; cases e
  | ok mi =>
  cases hk : pyInt k with
  | error x => rw [ha, hb, hc, hf, hg, hk] at e; cases e
  | ok s =>
  rw [ha, hb, hc, hf, hg, hk] at e
  obtain ⟨e1, e2, e3, e4, e5, e6⟩ := make_parts (y := y) (m := m) (d := d) (h := h) (mi := mi) (s := s) e
  exact ⟨by rw [e1], by rw [e2], by rw [e3], by rw [e4], by rw [e5], by rw [e6]⟩

/-- What a date is read from. -/
structure ReadFrom (v : Str) (d : DateTime) : Prop where
  separators : ∃ a b, Separator a ∧ Separator b ∧ v[4]? = some a ∧ v[7]? = some b
  year : pyInt (slice v 0 4) = .ok d.year
  month : pyInt (slice v 5 7) = .ok d.month
  day : pyInt (slice v 8 10) = .ok d.day
  /-- the time: none, hours and minutes, or hours, minutes and seconds -/
  time : (v.length = 10 ∧ d.hour = 0 ∧ d.minute = 0 ∧ d.second = 0) ∨
    ((v[10]? = some 'T' ∨ v[10]? = some ' ') ∧ (∃ a, Separator a ∧ v[13]? = some a) ∧
      pyInt (slice v 11 13) = .ok d.hour ∧ pyInt (slice v 14 16) = .ok d.minute ∧
      ((v.length = 16 ∧ d.second = 0) ∨ (19 ≤ v.length ∧ (∃ a, Separator a ∧ v[16]? = some a) ∧ pyInt (slice v 17 19) = .ok d.second)))

theorem parseBody_readFrom {v : Str} {d : DateTime} (h : parseBody v = .ok (some d)) : ReadFrom v d := by
  unfold parseBody at h
  split at h
  · cases h
  rename_i hs
  simp only [Bool.or_eq_true, Bool.not_eq_true', not_or, Bool.not_eq_false] at hs
  split at h
  · rename_i hlen
    cases e : makeFrom [slice v 0 4, slice v 5 7, slice v 8 10] with
    | error x => rw [e] at h; cases h
    | ok r =>
      rw [e] at h
      cases h
      obtain ⟨e1, e2, e3, e4, e5, e6⟩ := makeFrom3_inv e
      exact ⟨⟨_, _, separator_of hs.1, separator_of hs.2, at_some (by omega), at_some (by omega)⟩, e1, e2, e3, .inl ⟨hlen, e4, e5, e6⟩⟩
  split at h
  swap
  · cases h
  rename_i hlen
  split at h
  · cases h
  rename_i ht
  simp only [Bool.and_eq_true, Bool.not_eq_true', Bool.not_eq_false, Bool.or_eq_true, decide_eq_true_eq] at ht
  have hT : v[10]? = some 'T' ∨ v[10]? = some ' ' := by
    rcases ht.1 with e | e
    · exact .inl (e ▸ at_some (by omega))
    · exact .inr (e ▸ at_some (by omega))
  split at h
  · rename_i h19
    simp only [Bool.and_eq_true, decide_eq_true_eq] at h19
    cases e : makeFrom [slice v 0 4, slice v 5 7, slice v 8 10, slice v 11 13, slice v 14 16, slice v 17 19] with
    | error x => rw [e] at h; cases h
    | ok r =>
      rw [e] at h
      cases h
      obtain ⟨e1, e2, e3, e4, e5, e6⟩ := makeFrom6_inv e
      exact ⟨⟨_, _, separator_of hs.1, separator_of hs.2, at_some (by omega), at_some (by omega)⟩, e1, e2, e3,
        .inr ⟨hT, ⟨_, separator_of ht.2, at_some (by omega)⟩, e4, e5, .inr ⟨h19.1, ⟨_, separator_of h19.2, at_some (by omega)⟩, e6⟩⟩⟩
  split at h
  swap
  · cases h
  rename_i h16
  cases e : makeFrom [slice v 0 4, slice v 5 7, slice v 8 10, slice v 11 13, slice v 14 16] with
  | error x => rw [e] at h; cases h
  | ok r =>
    rw [e] at h
    cases h
    obtain ⟨e1, e2, e3, e4, e5, e6⟩ := makeFrom5_inv e
    exact ⟨⟨_, _, separator_of hs.1, separator_of hs.2, at_some (by omega), at_some (by omega)⟩, e1, e2, e3,
      .inr ⟨hT, ⟨_, separator_of ht.2, at_some (by omega)⟩, e4, e5, .inl ⟨h16, e6⟩⟩⟩

theorem split_prefix (c : Char) (v : Str) : ∃ w, v = (split c v).headD [] ++ w := by
  induction v with
  | nil => exact ⟨[], rfl⟩
  | cons x v ih =>
    obtain ⟨w, hw⟩ := ih
    rw [split]
    split
    · exact ⟨x :: v, rfl⟩
    · split
      · exact ⟨v, rfl⟩
      · rename_i p ps e
        rw [e] at hw
        exact ⟨w, by rw [List.headD_cons, List.cons_append]; exact congrArg (x :: ·) hw⟩

/-- **C50 (only dates).**  Whatever the text, a value that is returned is the one that stands in it: the text begins with a date
and perhaps a time laid out as above, with these numbers in these places. -/
theorem C50_read_from (s : Str) (d : DateTime) (h : parseIso s = some d) : ∃ v rest, s = v ++ rest ∧ ReadFrom v d := by
  unfold parseIso at h
  simp only at h
  split at h
  swap
  · exact absurd h (by simp)
  rename_i r hr
  subst h
  split at hr
  swap
  · cases hr
  have hz : ∃ z, s = (if s.getLast? = some 'Z' then s.dropLast else s) ++ z := by
    split
    · rename_i e
      have hne : s ≠ [] := by rintro rfl; simp at e
      exact ⟨_, (List.dropLast_concat_getLast hne).symm⟩
    · exact ⟨[], by simp⟩
  obtain ⟨z, hz⟩ := hz
  generalize (if s.getLast? = some 'Z' then s.dropLast else s) = v at hr hz
  split at hr
  · split at hr
    · obtain ⟨w, hw⟩ := split_prefix '+' v
      exact ⟨_, w ++ z, by rw [← List.append_assoc, ← hw]; exact hz, parseBody_readFrom hr⟩
    · cases hr
  · exact ⟨v, z, hz, parseBody_readFrom hr⟩

example : ReadFrom "2024-02-29T23:05".toList ⟨2024, 2, 29, 23, 5, 0⟩ :=
  parseBody_readFrom (by decide)

/-- Texts that do not follow the ISO format are not all refused, as the documentation says: what stands in the places of the numbers
is read as Python reads integers. -/
theorem C50_not_iso_fails : parseIso "20_1:1 - 1".toList = some ⟨201, 1, 1, 0, 0, 0⟩ := by decide

/-- The dates and datetimes Python can hold. -/
def DateArg.Real : DateArg → Prop
  | .datetime d => d.valid = true
  | .date y m d => (⟨y, m, d, 0, 0, 0⟩ : DateTime).valid = true
  | _ => True

/-- **C21 (any argument).**  The same holds whatever way the bounds are given.  A bound that is left
out or that cannot be read as a date stands for the current hour. -/
theorem C21_range_any_argument (now : DateTime) (a b : DateArg) (hn : now.valid = true)
    (ha : a.Real) (hb : b.Real) (s e : DateTime) (hs : (parseArg a).getD now.floorHour = s)
    (he : (parseArg b).getD now.floorHour = e) :
    ∃ l, readerRange now a b = .ok l ∧
      (∀ t, t ∈ l ↔ HourOf (if s.seconds ≤ e.seconds then s else e)
        (if s.seconds ≤ e.seconds then e else s) t) ∧
      l.Pairwise (fun s t => s.seconds < t.seconds) := by
  have hv : ∀ x : DateArg, x.Real → ((parseArg x).getD now.floorHour).valid = true := by
    intro x hx
    cases x with
    | none => exact DateTime.floorHour_valid hn
    | datetime d => exact hx
    | date y m d => exact hx
    | str t =>
      cases h : parseIso t with
      | none => simp only [parseArg, h]; exact DateTime.floorHour_valid hn
      | some d => simp only [parseArg, h]; exact C50_result_valid t d h
  have h : readerRange now a b = readerRange now (.datetime s) (.datetime e) := by
    subst hs he; rfl
  rw [h]
  exact C21_range_complete now s e (hs ▸ hv a ha) (he ▸ hv b hb)

/-- A text and a bound left out. -/
example : (DateArg.str "2024-01-01T22:30".toList).Real ∧ DateArg.none.Real ∧
    readerRange ⟨2024, 1, 2, 0, 59, 0⟩ (.str "2024-01-01T22:30".toList) .none =
      .ok [⟨2024, 1, 1, 22, 0, 0⟩, ⟨2024, 1, 1, 23, 0, 0⟩, ⟨2024, 1, 2, 0, 0, 0⟩] :=
  ⟨trivial, trivial, by decide⟩

/-- An offset written with a minus sign is ignored too (it is taken for a fraction), so the text's
own instant is five hours later than the one returned. -/
theorem C50_negative_offset_ignored :
    parseIso "2024-01-01T00:00:00-05:00".toList = some ⟨2024, 1, 1, 0, 0, 0⟩ := by decide

/-- **C21.** `date_range` covers the whole of a last day given as a text such as `2024-01-31`: the hours from the
start to 23:00 of that day. -/
theorem C21_text_end_whole_day (now a d : DateTime) (ha : a.valid = true) (hd : d.valid = true)
    (h : a.seconds ≤ (⟨d.year, d.month, d.day, 23, 0, 0⟩ : DateTime).seconds) :
    ∃ l, dateRange now (.datetime a) (.str (dateText d '-' '-')) = .ok l ∧
      (∀ t, t ∈ l ↔ HourOf a ⟨d.year, d.month, d.day, 23, 0, 0⟩ t) ∧
      l.Pairwise (fun s t => s.seconds < t.seconds) := by
  have hv : (⟨d.year, d.month, d.day, 23, 0, 0⟩ : DateTime).valid = true := by
    rw [DateTime.valid_iff] at hd ⊢
    simp only at *
    omega
  have hp := C50_second ⟨d.year, d.month, d.day, 23, 0, 0⟩ hv '-' '-' 'T' ':' ':' (.inl rfl) (.inl rfl) (.inr rfl) (.inr rfl) (Or.inl rfl)
    [] (by simp) (by simp) (by simp) [] (Or.inl rfl) (by simp)
  have htext : secondText ⟨d.year, d.month, d.day, 23, 0, 0⟩ '-' '-' 'T' ':' ':' ++ [] ++ []
      = dateText d '-' '-' ++ "T23:00:00".toList := by
    simp only [secondText, minuteText, dateText, List.append_nil, List.append_assoc, List.cons_append]
    rfl
  rw [htext] at hp
  have hlen : (dateText d '-' '-').length = 10 := by simp [dateText, four, two]
  obtain ⟨l, h1, h2⟩ := dateRange_spec (now := now) ha hv h
  refine ⟨l, ?_, h2⟩
  rw [← h1]
  unfold dateRange
  simp only [hlen, if_true]
  rw [show parseArg (.str (dateText d '-' '-' ++ "T23:00:00".toList)) = parseArg (.datetime ⟨d.year, d.month, d.day, 23, 0, 0⟩) from hp]

example : dateRange ⟨2024, 6, 1, 0, 0, 0⟩ (.datetime ⟨2024, 1, 31, 22, 15, 0⟩) (.str "2024-01-31".toList) =
    .ok [⟨2024, 1, 31, 22, 0, 0⟩, ⟨2024, 1, 31, 23, 0, 0⟩] ∧ dateText ⟨2024, 1, 31, 0, 0, 0⟩ '-' '-' = "2024-01-31".toList := by decide

/-! ## C51 -/

/-- One part of a duration: nothing, or a whole number and its unit in either case. -/
def part (upper : Bool) (u : Char) : Option Int → Str
  | none => []
  | some i => intStr i ++ [if upper then u.toUpper else u]

theorem digitRun_map (ds : List Nat) (h : ∀ d ∈ ds, d < 10) (acc : Option Nat) (c : Char) (rest : Str)
    (hc : digitVal c = none) :
    digitRun (ds.map digitChar ++ c :: rest) acc
      = (if ds = [] then acc else some (ds.foldl (fun a d => 10 * a + d) (acc.getD 0)), c :: rest) := by
  induction ds generalizing acc with
  | nil => simp [digitRun, hc]
  | cons d ds ih =>
    simp only [List.map_cons, List.cons_append, digitRun, digitChar_val d (h d (by simp)), List.foldl]
    rw [ih (fun x hx => h x (by simp [hx]))]
    by_cases he : ds = []
    · simp [he]
    · simp [he]

theorem digitRun_natStr (n : Nat) (c : Char) (rest : Str) (hc : digitVal c = none) :
    digitRun (natStr n ++ c :: rest) none = (some n, c :: rest) := by
  obtain ⟨ds, h1, h2, h3, h4⟩ := natStr_digits n
  rw [h3, digitRun_map ds h1 none c rest hc, if_neg h2]
  rw [digitsValue] at h4
  simp only [Option.getD_none, h4]

theorem natStr_head (n : Nat) (rest : Str) : ∃ k cs, k < 10 ∧ natStr n ++ rest = digitChar k :: cs := by
  obtain ⟨ds, h1, h2, h3, -⟩ := natStr_digits n
  rw [h3]
  cases ds with
  | nil => exact absurd rfl h2
  | cons d ds => exact ⟨d, _, h1 d (by simp), rfl⟩

theorem deltaGroup_pos (u : Char) {c : Char} {cs : Str} (h : c ≠ '-') :
    deltaGroup u (c :: cs) = match digitRun (c :: cs) none with
      | (some n, x :: rest) => if isUnit u x then (some (n : Int), rest) else (none, c :: cs)
      | _ => (none, c :: cs) := by
  unfold deltaGroup
  split
  rename_i neg t heq
  split at heq
  · rename_i e; exact absurd (List.cons.inj e).1 h
  · simp only [Prod.mk.injEq] at heq
    obtain ⟨rfl, rfl⟩ := heq
    rcases digitRun (c :: cs) none with ⟨_ | n, _ | ⟨x, r⟩⟩ <;> simp

/-- A group reads a number with its own unit, and leaves one with another unit alone. -/
theorem deltaGroup_part (u c : Char) (i : Int) (rest : Str) (hc : digitVal c = none) :
    deltaGroup u (intStr i ++ c :: rest) =
      if isUnit u c then (some i, rest) else (none, intStr i ++ c :: rest) := by
  cases i with
  | ofNat n =>
    have hi : intStr (Int.ofNat n) = natStr n := rfl
    obtain ⟨k, cs, hk, he⟩ := natStr_head n (c :: rest)
    have hp := (digitChar_plain k hk).1
    have hr := digitRun_natStr n c rest hc
    rw [hi, he, deltaGroup_pos u hp]
    rw [he] at hr
    simp only [hr]
    simp
  | negSucc n =>
    simp only [deltaGroup, intStr, List.cons_append, digitRun_natStr (n + 1) c rest hc, if_true]
    split <;> simp <;> omega

theorem deltaGroup_nil (u : Char) : deltaGroup u [] = (none, []) := rfl

/-- The parts of a duration other than the first of them leave a group alone. -/
theorem deltaGroup_skip (u : Char) (l : List (Bool × Char × Option Int))
    (hl : ∀ p ∈ l, digitVal (if p.1 then p.2.1.toUpper else p.2.1) = none ∧
      isUnit u (if p.1 then p.2.1.toUpper else p.2.1) = false) :
    deltaGroup u (l.flatMap fun p => part p.1 p.2.1 p.2.2)
      = (none, l.flatMap fun p => part p.1 p.2.1 p.2.2) := by
  induction l with
  | nil => rfl
  | cons p l ih =>
    obtain ⟨up, v, i⟩ := p
    have hp := hl _ (List.mem_cons_self)
    cases i with
    | none =>
      simp only [List.flatMap_cons, part, List.nil_append]
      exact ih (fun q hq => hl q (List.mem_cons_of_mem _ hq))
    | some i =>
      simp only [List.flatMap_cons, part, List.append_assoc, List.singleton_append]
      rw [deltaGroup_part u _ i _ hp.1, if_neg (by rw [hp.2]; simp)]

theorem deltaGroup_take (u : Char) (up : Bool) (i : Option Int) (l : List (Bool × Char × Option Int))
    (hu : digitVal (if up then u.toUpper else u) = none ∧ isUnit u (if up then u.toUpper else u) = true)
    (hl : ∀ p ∈ l, digitVal (if p.1 then p.2.1.toUpper else p.2.1) = none ∧
      isUnit u (if p.1 then p.2.1.toUpper else p.2.1) = false) :
    deltaGroup u (part up u i ++ l.flatMap fun p => part p.1 p.2.1 p.2.2)
      = (i, l.flatMap fun p => part p.1 p.2.1 p.2.2) := by
  cases i with
  | none => simp only [part, List.nil_append]; exact deltaGroup_skip u l hl
  | some i =>
    simp only [part, List.append_assoc, List.singleton_append]
    rw [deltaGroup_part u _ i _ hu.1, if_pos hu.2]

theorem unit_facts : ∀ u ∈ ['d', 'h', 'm', 's'], ∀ v ∈ ['d', 'h', 'm', 's'], ∀ up : Bool,
    digitVal (if up then v.toUpper else v) = none ∧
    isUnit u (if up then v.toUpper else v) = decide (u = v) := by decide

/-- **C51.**  A duration written as days, hours, minutes and seconds, in that order, each part
optional, of any size and sign, with units in either case, is parsed to the sum of its parts. -/
theorem C51_parse (d h m s : Option Int) (u1 u2 u3 u4 : Bool) :
    parseDelta (part u1 'd' d ++ part u2 'h' h ++ part u3 'm' m ++ part u4 's' s)
      = d.getD 0 * 86400 + h.getD 0 * 3600 + m.getD 0 * 60 + s.getD 0 := by
  have e1 := deltaGroup_take 'd' u1 d [(u2, 'h', h), (u3, 'm', m), (u4, 's', s)]
    (by cases u1 <;> decide) (by
      simp only [List.mem_cons, List.not_mem_nil, or_false]
      rintro p (rfl | rfl | rfl)
      · exact unit_facts _ (by decide) 'h' (by decide) u2
      · exact unit_facts _ (by decide) 'm' (by decide) u3
      · exact unit_facts _ (by decide) 's' (by decide) u4)
  have e2 := deltaGroup_take 'h' u2 h [(u3, 'm', m), (u4, 's', s)]
    (by cases u2 <;> decide) (by
      simp only [List.mem_cons, List.not_mem_nil, or_false]
      rintro p (rfl | rfl)
      · exact unit_facts _ (by decide) 'm' (by decide) u3
      · exact unit_facts _ (by decide) 's' (by decide) u4)
  have e3 := deltaGroup_take 'm' u3 m [(u4, 's', s)]
    (by cases u3 <;> decide) (by
      simp only [List.mem_cons, List.not_mem_nil, or_false]
      rintro p rfl
      exact unit_facts _ (by decide) 's' (by decide) u4)
  have e4 := deltaGroup_take 's' u4 s [] (by cases u4 <;> decide) (by simp)
  simp only [List.flatMap_cons, List.flatMap_nil, List.append_nil] at e1 e2 e3 e4
  unfold parseDelta
  simp only [List.append_assoc, e1, e2, e3, e4]

example : part false 'd' (some 2) ++ part true 'h' none ++ part true 'm' (some (-30)) ++ part false 's' none
    = "2d-30M".toList ∧ parseDelta "2d-30M".toList = 171000 := by decide

/-- Parts out of order, unknown units and spaces are not refused: what cannot be read is dropped. -/
theorem C51_malformed_not_refused :
    parseDelta "5h3d".toList = 18000 ∧ parseDelta "2 days".toList = 0 ∧ parseDelta "1w".toList = 0 := by
  decide

end Mabel.Dates
