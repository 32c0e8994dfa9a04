import Verif.Model.Functions
import Verif.Props.Dates
import Verif.Props.Reader
import Verif.Props.Entropy
import Mathlib.Algebra.Order.Field.Rat
import Mathlib.Tactic.Linarith
import Mathlib.Tactic.FieldSimp
import Mathlib.Algebra.Order.Field.Basic
import Mathlib.Tactic.NormNum

/-! # Inline functions (C60) -/

namespace Mabel.Functions
open Mabel.Py Mabel.Dates

/-! ## Parts of texts -/

/-- **C60**: LEFT gives the first characters, at most as many as there are. -/
theorem C60_left (s : Str) (n : Nat) : ∃ rest, s = left s n ++ rest ∧ (left s n).length = min n s.length := by
  refine ⟨s.drop n, ?_, ?_⟩
  · unfold left sliceTo
    rw [if_neg (by omega)]
    simp
  · unfold left sliceTo
    rw [if_neg (by omega)]
    simp

/-- **C60**: RIGHT gives the last characters, at most as many as there are, for a number that is not zero. -/
theorem C60_right_partial (s : Str) (n : Nat) (h : 0 < n) :
    ∃ rest, s = rest ++ right s n ∧ (right s n).length = min n s.length := by
  have : right s n = s.drop (s.length - n) := by
    unfold right sliceFrom
    rw [if_pos (by omega)]
    simp
  refine ⟨s.take (s.length - n), ?_, ?_⟩
  · rw [this, List.take_append_drop]
  · rw [this, List.length_drop]
    omega

/-- **C60** fails for RIGHT with nothing asked for: it is the whole text. -/
theorem C60_right_zero_fails (s : Str) : right s 0 = s := by
  unfold right sliceFrom
  simp

/-- **C60**: MID gives the characters from a position (counted from 0), at most as many as asked for. -/
theorem C60_mid (s : Str) (a n : Nat) :
    ∃ before after, s = before ++ mid s a n ++ after ∧ before.length = min a s.length ∧
      (mid s a n).length = min n (s.length - a) := by
  have : mid s a n = (s.drop a).take n := by
    unfold mid sliceFrom sliceTo
    rw [if_neg (by omega), if_neg (by omega)]
    simp
  refine ⟨s.take a, (s.drop a).drop n, ?_, by simp, ?_⟩
  · rw [this, List.append_assoc, List.take_append_drop, List.take_append_drop]
  · rw [this]; simp

/-- **C60**: LEFT and the rest, by MID or by RIGHT, make the text again. -/
theorem C60_reassemble (s : Str) (n : Nat) :
    left s n ++ mid s n s.length = s ∧ (n < s.length → left s n ++ right s (s.length - n) = s) := by
  constructor
  · unfold left mid sliceFrom sliceTo
    rw [if_neg (by omega), if_neg (by omega), if_neg (by omega)]
    have : ((s.drop n).take s.length) = s.drop n := List.take_of_length_le (by simp)
    simp [this]
  · intro h
    unfold left right sliceFrom sliceTo
    rw [if_neg (by omega), if_pos (by omega)]
    have : s.length - (-((s.length : Int) - n)).natAbs = n := by omega
    rw [this]
    simp

example : left "mabel".toList 2 = "ma".toList ∧ right "mabel".toList 2 = "el".toList ∧ mid "mabel".toList 1 3 = "abe".toList := by
  decide

/-- **C60**: CONCAT of several items is their texts one after the other; of a list, with commas between. -/
theorem C60_concat (items : List Str) : concat items = items.flatten := by
  unfold concat
  induction items with
  | nil => rfl
  | cons a l ih =>
    cases l with
    | nil => simp [join]
    | cons b l => rw [join, ih]; · simp
                  · simp

/-- **C60**: CONCAT of a list puts a comma and a space between its members. -/
theorem C60_concat_list (a : Str) (items : List Str) :
    concatList (a :: items) = a ++ items.flatMap (fun x => ", ".toList ++ x) := by
  unfold concatList
  induction items generalizing a with
  | nil => simp [join]
  | cons b l ih =>
    rw [join, ih]
    · simp
    · simp

example : concatList ["a".toList, "b".toList, "c".toList] = "a, b, c".toList ∧ concatList [] = [] := by decide

/-! ## Parts of dates -/

/-- The number of a part, as written. -/
def spelled (t : DateTime) : Part → PartValue
  | .year => .num t.year
  | .month => .num t.month
  | .day => .num t.day
  | .quarter => .num (if t.month ≤ 3 then 1 else if t.month ≤ 6 then 2 else if t.month ≤ 9 then 3 else 4)
  | .hour => .num t.hour
  | .minute => .num t.minute
  | .second => .num t.second
  | .date => .date t.year t.month t.day
  | .time => .time t.hour t.minute t.second

theorem partOf_spelled (t : DateTime) (h : t.valid = true) (p : Part) : partOf t p = spelled t p := by
  have := (DateTime.valid_iff t).1 h
  cases p <;> try rfl
  show PartValue.num _ = PartValue.num _
  congr 1
  split
  · omega
  · split
    · omega
    · split <;> omega

theorem getPart_str (p : Part) (s : Str) : getPart p (.str s) = match parseIso s with
    | some t => .ok (partOf t p)
    | none => .ok .none := by
  show (match (match parseIso s with | some t => Arg.datetime t | none => Arg.none) with
    | .datetime t => Except.ok (partOf t p)
    | .date t =>
      match p with
      | .year | .month | .day | .quarter => .ok (partOf t p)
      | _ => .error Err.attributeError
    | _ => .ok .none) = _
  cases parseIso s <;> rfl

/-- **C60**: each part of a date and time, given as a datetime or as a text with seconds, whatever the separators, the
fraction and the zone. -/
theorem C60_parts (d : DateTime) (hv : d.valid = true) (p : Part) :
    getPart p (.datetime d) = .ok (spelled d p) ∧
    ∀ (s1 s2 t s3 s4 : Char), Separator s1 → Separator s2 → Separator s3 →
      Separator s4 → (t = 'T' ∨ t = ' ') → ∀ (frac : Str), '+' ∉ frac → frac.getLast? ≠ some 'Z' →
      frac.length ≤ 9 → ∀ (z : Str), Zone z → z.length + frac.length ≤ 14 →
      getPart p (.str (secondText d s1 s2 t s3 s4 ++ frac ++ z)) = .ok (spelled d p) := by
  constructor
  · show Except.ok (partOf d p) = _
    rw [partOf_spelled d hv]
  · intro s1 s2 t s3 s4 h1 h2 h3 h4 ht frac hf hfz hfl z hz hl
    rw [getPart_str, C50_second d hv s1 s2 t s3 s4 h1 h2 h3 h4 ht frac hf hfz hfl z hz hl, ← partOf_spelled d hv]

/-- The same for a text with a date only: the time is midnight. -/
theorem C60_parts_of_date_text (d : DateTime) (hv : d.valid = true) (p : Part) (s1 s2 : Char) (h1 : Separator s1)
    (h2 : Separator s2) (z : Str) (hz : Zone z) (hl : z.length ≤ 23) :
    getPart p (.str (dateText d s1 s2 ++ z)) = .ok (spelled ⟨d.year, d.month, d.day, 0, 0, 0⟩ p) := by
  have hd := C50_date d hv s1 s2 h1 h2 z hz hl
  rw [getPart_str, hd, ← partOf_spelled _ (C50_result_valid _ _ hd)]

/-- A text that is not a date, and anything else, has no parts: None. -/
theorem C60_parts_none (p : Part) (s : Str) (h : parseIso s = none) (i : Int) :
    getPart p (.str s) = .ok .none ∧ getPart p (.int i) = .ok .none ∧ getPart p .none = .ok .none := by
  refine ⟨?_, rfl, rfl⟩
  rw [getPart_str, h]

/-- **C60** fails for dates: the date of a date, or its time, cannot be asked for. -/
theorem C60_date_of_date_fails (t : DateTime) : getPart .date (.date t) = .error .attributeError ∧
    getPart .hour (.date t) = .error .attributeError := ⟨rfl, rfl⟩

/-! ## Adding days -/

theorem nextDay_time (d : DateTime) : d.nextDay.hour = d.hour ∧ d.nextDay.minute = d.minute ∧ d.nextDay.second = d.second := by
  unfold DateTime.nextDay
  split <;> (try split) <;> exact ⟨rfl, rfl, rfl⟩

/-- The day after the last. -/
def lastDay : Nat := 3652059

theorem ordinal_last (t : DateTime) (h : t.valid = true) : t.ordinal ≤ lastDay ∧
    (t.ordinal = lastDay → t.year = 9999 ∧ t.month = 12 ∧ t.day = 31) := by
  have hl : (⟨9999, 12, 31, 0, 0, 0⟩ : DateTime).valid = true := by decide
  have ho : (⟨9999, 12, 31, 0, 0, 0⟩ : DateTime).ordinal = lastDay := by decide
  constructor
  · rw [← ho]
    exact DateTime.ordinal_le_last hl h rfl rfl rfl
  · intro e
    exact DateTime.ordinal_inj h hl (by rw [e, ho])

theorem ordinal_first (t : DateTime) (h : t.valid = true) : 1 ≤ t.ordinal ∧
    (t.ordinal = 1 → t.year = 1 ∧ t.month = 1 ∧ t.day = 1) := by
  have hl : (⟨1, 1, 1, 0, 0, 0⟩ : DateTime).valid = true := by decide
  have ho : (⟨1, 1, 1, 0, 0, 0⟩ : DateTime).ordinal = 1 := by decide
  constructor
  · have := (DateTime.valid_iff t).1 h
    unfold DateTime.ordinal
    omega
  · intro e
    exact DateTime.ordinal_inj h hl (by rw [e, ho])

theorem forward_spec (n : Nat) (t : DateTime) (h : t.valid = true) :
    (t.ordinal + n ≤ lastDay → ∃ r, forward n t = .ok r ∧ r.valid = true ∧ r.ordinal = t.ordinal + n ∧
      r.hour = t.hour ∧ r.minute = t.minute ∧ r.second = t.second) ∧
    (lastDay < t.ordinal + n → forward n t = .error .overflow) := by
  induction n generalizing t with
  | zero =>
    have := (ordinal_last t h).1
    exact ⟨fun _ => ⟨t, rfl, h, rfl, rfl, rfl, rfl⟩, fun h => by omega⟩
  | succ n ih =>
    have hb := ordinal_last t h
    by_cases hlast : t.year = 9999 ∧ t.month = 12 ∧ t.day = 31
    · have hl : (⟨9999, 12, 31, 0, 0, 0⟩ : DateTime).valid = true := by decide
      have ho : (⟨9999, 12, 31, 0, 0, 0⟩ : DateTime).ordinal = lastDay := by decide
      have : t.ordinal = lastDay := by
        rw [← ho]
        unfold DateTime.ordinal
        rw [hlast.1, hlast.2.1, hlast.2.2]
      refine ⟨fun h => by omega, fun _ => ?_⟩
      rw [forward, if_pos hlast]
    · have hv : t.nextDay.valid = true := by
        refine DateTime.nextDay_valid' h ?_
        have := (DateTime.valid_iff t).1 h
        by_cases h1 : t.year < 9999
        · exact Or.inl h1
        · by_cases h2 : t.month < 12
          · exact Or.inr (Or.inl h2)
          · have hm : t.month = 12 := by omega
            have h31 : DateTime.daysInMonth t.year 12 = 31 := rfl
            refine Or.inr (Or.inr ?_)
            rw [hm] at this ⊢
            omega
      have ho := DateTime.nextDay_ordinal h
      obtain ⟨h1, h2⟩ := ih t.nextDay hv
      rw [forward, if_neg hlast]
      constructor
      · intro hle
        obtain ⟨r, hr, hrv, hro, e1, e2, e3⟩ := h1 (by omega)
        obtain ⟨g1, g2, g3⟩ := nextDay_time t
        exact ⟨r, hr, hrv, by omega, e1.trans g1, e2.trans g2, e3.trans g3⟩
      · intro hlt
        exact h2 (by omega)

theorem backward_spec (n : Nat) (t : DateTime) (h : t.valid = true) :
    (n < t.ordinal → ∃ r, backward n t = .ok r ∧ r.valid = true ∧ r.ordinal + n = t.ordinal ∧
      r.hour = t.hour ∧ r.minute = t.minute ∧ r.second = t.second) ∧
    (t.ordinal ≤ n → backward n t = .error .overflow) := by
  induction n generalizing t with
  | zero =>
    have := (ordinal_first t h).1
    exact ⟨fun _ => ⟨t, rfl, h, rfl, rfl, rfl, rfl⟩, fun h => by omega⟩
  | succ n ih =>
    by_cases hfirst : t.year = 1 ∧ t.month = 1 ∧ t.day = 1
    · have ho : (⟨1, 1, 1, 0, 0, 0⟩ : DateTime).ordinal = 1 := by decide
      have : t.ordinal = 1 := by
        rw [← ho]
        unfold DateTime.ordinal
        rw [hfirst.1, hfirst.2.1, hfirst.2.2]
      refine ⟨fun h => by omega, fun _ => ?_⟩
      rw [backward, if_pos hfirst]
    · have h1 : 1 < t.ordinal := by
        obtain ⟨a, b⟩ := ordinal_first t h
        by_contra hc
        exact hfirst (b (by omega))
      obtain ⟨e, hv⟩ := DateTime.nextDay_prevDay h h1
      have ho := DateTime.nextDay_ordinal hv
      rw [e] at ho
      obtain ⟨i1, i2⟩ := ih t.prevDay hv
      rw [backward, if_neg hfirst]
      constructor
      · intro hle
        obtain ⟨r, hr, hrv, hro, e1, e2, e3⟩ := i1 (by omega)
        obtain ⟨g1, g2, g3⟩ := DateTime.prevDay_time t
        exact ⟨r, hr, hrv, by omega, e1.trans g1, e2.trans g2, e3.trans g3⟩
      · intro hlt
        exact i2 (by omega)

theorem shift_spec (t : DateTime) (h : t.valid = true) (n : Int) :
    (1 ≤ t.ordinal + n → t.ordinal + n ≤ lastDay → ∃ r, shift t n = .ok r ∧ r.valid = true ∧
      (r.ordinal : Int) = t.ordinal + n ∧ r.hour = t.hour ∧ r.minute = t.minute ∧ r.second = t.second) ∧
    (t.ordinal + n < 1 ∨ lastDay < t.ordinal + n → shift t n = .error .overflow) := by
  have hb := (ordinal_last t h).1
  have hf := (ordinal_first t h).1
  unfold shift
  by_cases hn : n < 0
  · rw [if_pos hn]
    obtain ⟨h1, h2⟩ := backward_spec n.natAbs t h
    constructor
    · intro _ _
      obtain ⟨r, a, b, c, d⟩ := h1 (by omega)
      exact ⟨r, a, b, by omega, d⟩
    · intro _
      exact h2 (by omega)
  · rw [if_neg hn]
    obtain ⟨h1, h2⟩ := forward_spec n.natAbs t h
    constructor
    · intro _ _
      obtain ⟨r, a, b, c, d⟩ := h1 (by omega)
      exact ⟨r, a, b, by omega, d⟩
    · intro _
      exact h2 (by omega)

/-- **C60**: ADDDAYS moves a date by that many days, either way, and keeps the time of day; DAYSDIFF gives the number
back.  Days before the year 1 or after the year 9999 raise OverflowError. -/
theorem C60_adddays (t : DateTime) (h : t.valid = true) (n : Int) :
    (1 ≤ t.ordinal + n → t.ordinal + n ≤ lastDay → ∃ r : DateTime, addDays (.datetime t) n = .ok (.datetime r) ∧
      r.valid = true ∧ (r.ordinal : Int) = t.ordinal + n ∧ r.hour = t.hour ∧ r.minute = t.minute ∧ r.second = t.second ∧
      diffDays (.datetime t) (.datetime r) = .ok (some n)) ∧
    (t.ordinal + n < 1 ∨ lastDay < t.ordinal + n → addDays (.datetime t) n = .error .overflow) := by
  obtain ⟨h1, h2⟩ := shift_spec t h n
  constructor
  · intro ha hb
    obtain ⟨r, e, hv, ho, e1, e2, e3⟩ := h1 ha hb
    refine ⟨r, ?_, hv, ho, e1, e2, e3, ?_⟩
    · show (shift t n).map Arg.datetime = _
      rw [e]
      rfl
    · show Except.ok (some (((r.seconds : Int) - t.seconds).fdiv 86400)) = _
      have : ((r.seconds : Int) - t.seconds) = 86400 * n := by
        unfold DateTime.seconds
        rw [e1, e2, e3]
        omega
      rw [this, Int.fdiv_eq_ediv_of_nonneg _ (by omega), Int.mul_ediv_cancel_left _ (by omega)]
  · intro hc
    show (shift t n).map Arg.datetime = _
    rw [h2 hc]
    rfl

example : addDays (.str "2024-02-28".toList) 2 = .ok (.datetime ⟨2024, 3, 1, 0, 0, 0⟩) := by rfl

/-- **C60**: DAYSDIFF is the number of whole days from one moment to the other, rounded down. -/
theorem C60_daysdiff (a b : DateTime) (n : Int) : diffDays (.datetime a) (.datetime b) = .ok (some n) ↔
    86400 * n ≤ (b.seconds : Int) - a.seconds ∧ (b.seconds : Int) - a.seconds < 86400 * (n + 1) := by
  have : diffDays (.datetime a) (.datetime b) = .ok (some (((b.seconds : Int) - a.seconds).fdiv 86400)) := rfl
  rw [this, Int.fdiv_eq_ediv_of_nonneg _ (by omega)]
  constructor
  · intro h
    have h := Option.some.inj (Except.ok.inj h)
    omega
  · intro h
    congr 2
    omega

/-- Rounded down, the days back are not minus the days there, unless they are whole days apart: a second before counts as
a day before. -/
theorem C60_daysdiff_back (a b : DateTime) (h : a.seconds < b.seconds) (h2 : b.seconds < a.seconds + 86400) :
    diffDays (.datetime a) (.datetime b) = .ok (some 0) ∧ diffDays (.datetime b) (.datetime a) = .ok (some (-1)) := by
  constructor
  · rw [C60_daysdiff]; omega
  · rw [C60_daysdiff]; omega

/-- **C60** fails for a date and a datetime: they cannot be compared. -/
theorem C60_daysdiff_mixed_fails (a b : DateTime) : diffDays (.datetime a) (.date b) = .error .typeError ∧
    diffDays (.date a) (.datetime b) = .error .typeError := ⟨rfl, rfl⟩

/-- **C60**: DAYSDIFF of two dates is the number of days from the first to the second. -/
theorem C60_daysdiff_dates (a b : DateTime) (n : Int) : diffDays (.date a) (.date b) = .ok (some n) ↔ (b.ordinal : Int) = a.ordinal + n := by
  have : diffDays (.date a) (.date b) = .ok (some ((b.ordinal : Int) - a.ordinal)) := rfl
  rw [this]
  constructor
  · intro h
    have h := Option.some.inj (Except.ok.inj h)
    omega
  · intro h
    rw [show (b.ordinal : Int) - a.ordinal = n by omega]

/-- **C60**: ADDDAYS to a date gives the date that many days away, from which DAYSDIFF gives the days back. -/
theorem C60_adddays_date (t : DateTime) (h : t.valid = true) (n : Int) :
    (1 ≤ t.ordinal + n → t.ordinal + n ≤ lastDay → ∃ r : DateTime, addDays (.date t) n = .ok (.date r) ∧
      r.valid = true ∧ diffDays (.date t) (.date r) = .ok (some n)) ∧
    (t.ordinal + n < 1 ∨ lastDay < t.ordinal + n → addDays (.date t) n = .error .overflow) := by
  obtain ⟨h1, h2⟩ := shift_spec t h n
  constructor
  · intro ha hb
    obtain ⟨r, e, hv, ho, _⟩ := h1 ha hb
    refine ⟨r, ?_, hv, (C60_daysdiff_dates t r n).2 ho⟩
    show (shift t n).map Arg.date = _
    rw [e]
    rfl
  · intro hc
    show (shift t n).map Arg.date = _
    rw [h2 hc]
    rfl

example : ∃ r : DateTime, addDays (.date ⟨2024, 2, 28, 0, 0, 0⟩) 2 = .ok (.date r) ∧ r.valid = true ∧
    diffDays (.date ⟨2024, 2, 28, 0, 0, 0⟩) (.date r) = .ok (some 2) :=
  (C60_adddays_date ⟨2024, 2, 28, 0, 0, 0⟩ (by decide +kernel) 2).1 (by decide +kernel) (by decide +kernel)

/-! ## Numbers -/

theorem pow_lt_limit : 2 ^ 53 < 2 ^ 1024 := Nat.pow_lt_pow_right (by omega) (by omega)

theorem round53_small (n : Nat) (h : n ≤ 2 ^ 53) : round53 n = n := by
  by_cases hlt : n < 2 ^ 53
  · have he : n.log2 - 52 = 0 := by
      by_cases h0 : n = 0
      · subst h0; rfl
      · have := (Nat.log2_lt h0).2 hlt
        omega
    unfold round53
    rw [he]
    simp only [Nat.pow_zero, Nat.mod_one, Nat.div_one, Nat.mul_zero, Nat.mul_one]
    rw [if_neg (by omega)]
  · have e : n = 2 ^ 53 := by omega
    subst e
    decide +kernel

/-- Rounding moves a number by at most half of its last place. -/
theorem round53_near (n : Nat) : 2 * round53 n ≤ 2 * n + 2 ^ (n.log2 - 52) ∧ 2 * n ≤ 2 * round53 n + 2 ^ (n.log2 - 52) ∧
    2 ^ (n.log2 - 52) ∣ round53 n := by
  unfold round53
  simp only
  have hpos : 2 ^ (n.log2 - 52) ≠ 0 := Nat.pos_iff_ne_zero.1 (Nat.pow_pos (by omega))
  generalize 2 ^ (n.log2 - 52) = b at *
  have hd := Nat.div_add_mod n b
  by_cases hb : b = 0
  · exact absurd hb (hpos)
  have hm := Nat.mod_lt n (Nat.pos_of_ne_zero hb)
  generalize hr : n % b = r at *
  generalize hq : n / b = q at *
  have hc : b * q = q * b := Nat.mul_comm _ _
  split
  · refine ⟨?_, ?_, Nat.dvd_mul_left _ _⟩ <;> rw [Nat.add_mul, Nat.one_mul] <;> omega
  · refine ⟨?_, ?_, Nat.dvd_mul_left _ _⟩ <;> omega

theorem integer_int (i : Int) (n : Nat) (h : floatNat i.natAbs = .ok n) :
    integer (.int i) = .ok (some (if i < 0 then -(n : Int) else n)) := by
  rw [integer, h]
  rfl

theorem integer_ok (i : Int) (r : Option Int) (h : integer (.int i) = .ok r) : ∃ n, floatNat i.natAbs = .ok n := by
  rw [integer] at h
  generalize floatNat i.natAbs = x at h
  cases x with
  | ok n => exact ⟨n, rfl⟩
  | error e => cases h

theorem floatNat_ok (n m : Nat) (h : floatNat n = .ok m) : m = round53 n := by
  unfold floatNat at h
  generalize 2 ^ 1024 = limit at h
  split at h
  · exact (Except.ok.inj h).symm
  · cases h

/-- **C60**: INTEGER and TRUNC keep whole numbers of up to 53 bits, truth values and None. -/
theorem C60_integer_partial (i : Int) (h : i.natAbs ≤ 2 ^ 53) :
    integer (.int i) = .ok (some i) ∧ integer .none = .ok none ∧
      integer (.bool true) = .ok (some 1) ∧ integer (.bool false) = .ok (some 0) := by
  refine ⟨?_, rfl, rfl, rfl⟩
  have hf : floatNat i.natAbs = .ok i.natAbs := by
    unfold floatNat
    rw [round53_small _ h, if_pos (Nat.lt_of_le_of_lt h pow_lt_limit)]
  have hi : (if i < 0 then -(i.natAbs : Int) else i.natAbs) = i := by split <;> omega
  rw [integer_int i _ hf, hi]

/-- **C60** fails for larger whole numbers, which go through a float: every odd number beyond 53 bits is changed (or
raises an error). -/
theorem C60_integer_fails (i : Int) (h : 2 ^ 53 < i.natAbs) (ho : i % 2 = 1) : integer (.int i) ≠ .ok (some i) := by
  intro hc
  have hl : 53 ≤ i.natAbs.log2 := (Nat.le_log2 (by omega)).2 (by omega)
  have h2 : 2 ∣ round53 i.natAbs := by
    refine Nat.dvd_trans ?_ (round53_near _).2.2
    obtain ⟨k, hk⟩ : ∃ k, i.natAbs.log2 - 52 = k + 1 := ⟨i.natAbs.log2 - 53, by omega⟩
    rw [hk, Nat.pow_succ]
    exact Nat.dvd_mul_left _ _
  obtain ⟨n, hn⟩ := integer_ok _ _ hc
  rw [integer_int _ _ hn] at hc
  have hn := floatNat_ok _ _ hn
  have := Option.some.inj (Except.ok.inj hc)
  split at this <;> omega

example : (2 : Int) ^ 53 < ((2 : Int) ^ 53 + 1).natAbs ∧ ((2 : Int) ^ 53 + 1) % 2 = 1 := by decide

/-- The midpoint is rounded to the even neighbour. -/
theorem round53_even (n : Nat) (h : 2 * n = 2 * round53 n + 2 ^ (n.log2 - 52) ∨ 2 * round53 n = 2 * n + 2 ^ (n.log2 - 52)) :
    2 * 2 ^ (n.log2 - 52) ∣ round53 n := by
  unfold round53 at *
  simp only at *
  have hpos : 0 < 2 ^ (n.log2 - 52) := Nat.pow_pos (by omega)
  generalize 2 ^ (n.log2 - 52) = b at *
  have hd := Nat.div_add_mod n b
  have hm := Nat.mod_lt n hpos
  generalize hr : n % b = r at *
  generalize hq : n / b = q at *
  have hc : b * q = q * b := Nat.mul_comm _ _
  have key : ∀ k, k % 2 = 0 → 2 * b ∣ k * b := by
    intro k hk
    obtain ⟨j, rfl⟩ : 2 ∣ k := Nat.dvd_of_mod_eq_zero hk
    exact ⟨j, by rw [Nat.mul_assoc, Nat.mul_assoc, Nat.mul_comm j b]⟩
  split at h
  · rename_i hs
    rw [if_pos hs]
    rw [Nat.add_mul, Nat.one_mul] at h
    apply key
    omega
  · rename_i hs
    rw [if_neg hs]
    apply key
    omega

/-- **C60**: what INTEGER and TRUNC make of a larger whole number: the nearest number with 53 binary digits, and of two
equally near ones the even one. -/
theorem C60_integer_nearest (i r : Int) (h : integer (.int i) = .ok (some r)) :
    let unit : Int := 2 ^ (i.natAbs.log2 - 52)
    unit ∣ r ∧ 2 * (r - i).natAbs ≤ unit ∧ (2 * (r - i).natAbs = unit → 2 * unit ∣ r) := by
  obtain ⟨n, hn⟩ := integer_ok _ _ h
  rw [integer_int _ _ hn] at h
  have hr := Option.some.inj (Except.ok.inj h)
  have hn := floatNat_ok _ _ hn
  subst hn
  have hnear := round53_near i.natAbs
  have heven := round53_even i.natAbs
  have hu : ((2 ^ (i.natAbs.log2 - 52) : Nat) : Int) = 2 ^ (i.natAbs.log2 - 52) := by simp
  rw [← hu]
  generalize (2 : Nat) ^ (i.natAbs.log2 - 52) = u at *
  generalize round53 i.natAbs = m at *
  have hdv : ∀ d : Nat, d ∣ m → (d : Int) ∣ r := by
    intro d hd
    have : (d : Int) ∣ (m : Int) := Int.natCast_dvd_natCast.2 hd
    rw [← hr]
    split
    · exact (Int.dvd_neg).2 this
    · exact this
  refine ⟨hdv u hnear.2.2, ?_, ?_⟩
  · split at hr <;> omega
  · intro he
    have h2 : 2 * i.natAbs = 2 * m + u ∨ 2 * m = 2 * i.natAbs + u := by split at hr <;> omega
    exact_mod_cast hdv (2 * u) (heven h2)

example : integer (.int (2 ^ 53 + 1)) = .ok (some (2 ^ 53)) := by decide +kernel

/-- **C60**: BETWEEN is between, the ends not included. -/
theorem C60_between (v low high : Int) : between v low high = true ↔ low < v ∧ v < high := by
  unfold between
  simp

/-- **C60**: RANDOM is at least 0 and less than 1, whatever the source of randomness gives; and each of the thousandths
can come up. -/
theorem C60_random (b : List Entropy.Byte) : ∃ r, random b = .ok r ∧ 0 ≤ r ∧ r < 1 := by
  obtain ⟨n, hn, h0, h1⟩ := Entropy.C55_range b 0 999 (by decide)
  refine ⟨(n : Rat) / 1000, ?_, ?_, ?_⟩
  · unfold random
    rw [hn]
    rfl
  · have : (0 : Rat) ≤ (n : Rat) := by exact_mod_cast h0
    exact div_nonneg this (by norm_num)
  · have : (n : Rat) ≤ 999 := by exact_mod_cast h1
    rw [div_lt_one (by norm_num)]
    linarith

theorem C60_random_all (k : Nat) (h : k < 1000) : ∃ b : List Entropy.Byte, b.length = 8 ∧ random b = .ok ((k : Rat) / 1000) := by
  obtain ⟨b, hb, hr⟩ := Entropy.C55_range_all 0 999 k (by omega) (by omega) (by omega)
  refine ⟨b, hb, ?_⟩
  unfold random
  rw [hr]
  show Except.ok (((k : Int) : Rat) / 1000) = _
  rw [Int.cast_natCast]

/-- **C60**: BOOLEAN is false for False and for texts that are "false" in capitals, and true for everything else - also
for None, 0 and the empty text. -/
theorem C60_boolean (upper : Str → Str) (x : Str) : boolean upper x = false ↔ upper x = "FALSE".toList := by
  unfold boolean
  simp

end Mabel.Functions
