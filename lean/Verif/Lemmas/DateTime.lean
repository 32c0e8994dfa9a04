import Verif.Py.DateTime
import Mathlib.Tactic.IntervalCases

namespace Mabel.Py.DateTime

theorem valid_iff (d : DateTime) : d.valid = true ↔
    (1 ≤ d.year ∧ d.year ≤ 9999) ∧ (1 ≤ d.month ∧ d.month ≤ 12) ∧
    (1 ≤ d.day ∧ d.day ≤ daysInMonth d.year d.month) ∧ d.hour < 24 ∧ d.minute < 60 ∧ d.second < 60 := by
  simp only [valid, Bool.and_eq_true, decide_eq_true_eq]
  constructor
  · rintro ⟨⟨⟨⟨⟨⟨⟨⟨a, b⟩, c⟩, d⟩, e⟩, f⟩, g⟩, h⟩, i⟩
    exact ⟨⟨a, b⟩, ⟨c, d⟩, ⟨e, f⟩, g, h, i⟩
  · rintro ⟨⟨a, b⟩, ⟨c, d⟩, ⟨e, f⟩, g, h, i⟩
    exact ⟨⟨⟨⟨⟨⟨⟨⟨a, b⟩, c⟩, d⟩, e⟩, f⟩, g⟩, h⟩, i⟩

theorem div_step (k q : Nat) : (k + 1) / q = k / q + if (k+1) % q = 0 then 1 else 0 := by
  rw [Nat.succ_div]
  simp [Nat.dvd_iff_mod_eq_zero]

theorem daysBeforeYear_succ (y : Nat) (hy : 1 ≤ y) :
    daysBeforeYear (y + 1) = daysBeforeYear y + (if isLeap y then 366 else 365) := by
  obtain ⟨k, rfl⟩ : ∃ k, y = k + 1 := ⟨y - 1, by omega⟩
  unfold daysBeforeYear isLeap
  simp only [Nat.add_sub_cancel]
  have h4 := div_step k 4
  have h100 := div_step k 100
  have h400 := div_step k 400
  have a : (k+1) % 100 = 0 → (k+1) % 4 = 0 := by omega
  have b : (k+1) % 400 = 0 → (k+1) % 100 = 0 := by omega
  have c : k / 100 ≤ k / 4 := by omega
  rw [h4, h100, h400]
  generalize k/4 = x at *
  generalize k/100 = z at *
  generalize k/400 = w at *
  by_cases p4 : (k+1) % 4 = 0 <;> by_cases p100 : (k+1) % 100 = 0 <;> by_cases p400 : (k+1) % 400 = 0 <;>
    simp_all <;> omega

/-- Length of a year as the sum of its months. -/
theorem daysBeforeMonth_13 (y : Nat) :
    daysBeforeMonth y 12 + 31 = (if isLeap y then 366 else 365) := by
  simp only [daysBeforeMonth, daysInMonth]
  split <;> rfl

theorem daysBeforeMonth_succ (y m : Nat) (h : 1 ≤ m) :
    daysBeforeMonth y (m + 1) = daysBeforeMonth y m + daysInMonth y m := by
  obtain ⟨k, rfl⟩ : ∃ k, m = k + 1 := ⟨m - 1, by omega⟩
  rfl

theorem daysBeforeMonth_le (y : Nat) {m n : Nat} (h : 1 ≤ m) (hmn : m ≤ n) :
    daysBeforeMonth y m ≤ daysBeforeMonth y n := by
  induction n with
  | zero => omega
  | succ n ih =>
    rcases Nat.lt_or_ge m (n + 1) with hlt | hge
    · rw [daysBeforeMonth_succ y n (by omega)]
      have := ih (by omega)
      omega
    · have : m = n + 1 := by omega
      rw [this]

theorem daysBeforeYear_le {a b : Nat} (ha : 1 ≤ a) (h : a ≤ b) :
    daysBeforeYear a ≤ daysBeforeYear b := by
  induction b with
  | zero => omega
  | succ n ih =>
    rcases Nat.lt_or_ge a (n + 1) with hlt | hge
    · rw [daysBeforeYear_succ n (by omega)]
      have := ih (by omega)
      omega
    · have : a = n + 1 := by omega
      rw [this]

/-- Ordinals order dates as (year, month, day). -/
theorem ordinal_lt_of_lex {a b : DateTime} (ha : a.valid) (hb : b.valid)
    (h : a.year < b.year ∨ (a.year = b.year ∧ (a.month < b.month ∨ (a.month = b.month ∧ a.day < b.day)))) :
    a.ordinal < b.ordinal := by
  rw [valid_iff] at ha hb
  obtain ⟨⟨ya, _⟩, ⟨ma, ma'⟩, ⟨da, da'⟩, -⟩ := ha
  obtain ⟨⟨yb, _⟩, ⟨mb, mb'⟩, ⟨db, db'⟩, -⟩ := hb
  unfold ordinal
  have hma : daysBeforeMonth a.year (a.month + 1) = daysBeforeMonth a.year a.month + daysInMonth a.year a.month :=
    daysBeforeMonth_succ _ _ ma
  rcases h with h | ⟨hy, h | ⟨hm, h⟩⟩
  · have h1 := daysBeforeYear_le (a := a.year + 1) (by omega) h
    rw [daysBeforeYear_succ _ ya, ← daysBeforeMonth_13] at h1
    have h2 : daysBeforeMonth a.year a.month + daysInMonth a.year a.month ≤ daysBeforeMonth a.year 12 + 31 := by
      rcases Nat.lt_or_ge a.month 12 with hlt | hge
      · rw [← hma]
        have := daysBeforeMonth_le a.year (m := a.month + 1) (n := 12) (by omega) (by omega)
        omega
      · have : a.month = 12 := by omega
        rw [this]; simp [daysInMonth]
    omega
  · rw [← hy]
    have := daysBeforeMonth_le a.year (m := a.month + 1) (n := b.month) (by omega) (by omega)
    omega
  · rw [← hy, ← hm]; omega

theorem ordinal_inj {a b : DateTime} (ha : a.valid) (hb : b.valid) (h : a.ordinal = b.ordinal) :
    a.year = b.year ∧ a.month = b.month ∧ a.day = b.day := by
  have h1 : ¬ _ := fun hl => absurd (ordinal_lt_of_lex ha hb hl) (by omega)
  have h2 : ¬ _ := fun hl => absurd (ordinal_lt_of_lex hb ha hl) (by omega)
  omega

theorem seconds_inj {a b : DateTime} (ha : a.valid) (hb : b.valid) (h : a.seconds = b.seconds) :
    a = b := by
  have ha' := (valid_iff a).1 ha
  have hb' := (valid_iff b).1 hb
  unfold seconds at h
  have ho : a.ordinal = b.ordinal := by omega
  obtain ⟨h1, h2, h3⟩ := ordinal_inj ha hb ho
  cases a; cases b
  simp only [mk.injEq]
  simp only at *
  omega

theorem nextDay_ordinal {d : DateTime} (hd : d.valid) : d.nextDay.ordinal = d.ordinal + 1 := by
  have h := (valid_iff d).1 hd
  obtain ⟨⟨y1, _⟩, ⟨m1, m2⟩, ⟨d1, d2⟩, -⟩ := h
  unfold nextDay
  split
  · simp [ordinal]; omega
  · split
    · simp only [ordinal, daysBeforeMonth_succ _ _ m1]; omega
    · have hm : d.month = 12 := by omega
      simp only [ordinal, daysBeforeYear_succ _ y1, hm, ← daysBeforeMonth_13, daysBeforeMonth]
      simp only [hm, daysInMonth] at *
      omega

theorem nextDay_valid {d : DateTime} (hd : d.valid) (hy : d.year < 9999) : d.nextDay.valid := by
  have h := (valid_iff d).1 hd
  obtain ⟨⟨y1, _⟩, ⟨m1, m2⟩, ⟨d1, d2⟩, h1, h2, h3⟩ := h
  rw [valid_iff]
  unfold nextDay
  split
  · simp only; omega
  · split
    · have : 1 ≤ daysInMonth d.year (d.month + 1) := by
        have : d.month + 1 ≤ 12 := by omega
        interval_cases hm : d.month <;> simp [daysInMonth] <;> split <;> omega
      simp only; omega
    · simp only [daysInMonth]; omega

theorem nextHour_seconds {d : DateTime} (hd : d.valid) : d.nextHour.seconds = d.seconds + 3600 := by
  have h := (valid_iff d).1 hd
  unfold nextHour
  split
  · simp only [seconds, ordinal]; omega
  · have hv : ({ d with hour := 0 } : DateTime).valid := by
      rw [valid_iff]; simp only; omega
    have ho := nextDay_ordinal hv
    have e1 : ({ d with hour := 0 } : DateTime).nextDay.hour = 0 := by
      unfold nextDay; split <;> (try split) <;> rfl
    have e2 : ({ d with hour := 0 } : DateTime).nextDay.minute = d.minute := by
      unfold nextDay; split <;> (try split) <;> rfl
    have e3 : ({ d with hour := 0 } : DateTime).nextDay.second = d.second := by
      unfold nextDay; split <;> (try split) <;> rfl
    have eo : ({ d with hour := 0 } : DateTime).ordinal = d.ordinal := rfl
    unfold seconds
    rw [ho, e1, e2, e3, eo]
    omega

theorem nextHour_valid {d : DateTime} (hd : d.valid) (hy : d.year < 9999) : d.nextHour.valid := by
  have h := (valid_iff d).1 hd
  unfold nextHour
  split
  · rw [valid_iff]; simp only; omega
  · apply nextDay_valid
    · rw [valid_iff]; simp only; omega
    · exact hy

theorem nextHour_min_sec (d : DateTime) : d.nextHour.minute = d.minute ∧ d.nextHour.second = d.second := by
  unfold nextHour nextDay
  split
  · exact ⟨rfl, rfl⟩
  · split
    · exact ⟨rfl, rfl⟩
    · split <;> exact ⟨rfl, rfl⟩

end Mabel.Py.DateTime
