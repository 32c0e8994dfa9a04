import Verif.Lemmas.DateTime
import Verif.Lemmas.Num

/-! # Lemmas about dates -/

namespace Mabel.Py.DateTime

theorem nextDay_valid' {d : DateTime} (hd : d.valid)
    (hy : d.year < 9999 ∨ d.month < 12 ∨ d.day < daysInMonth d.year d.month) : d.nextDay.valid := by
  by_cases h9 : d.year < 9999
  · exact nextDay_valid hd h9
  have h := (valid_iff d).1 hd
  obtain ⟨⟨y1, y2⟩, ⟨m1, m2⟩, ⟨d1, d2⟩, h1, h2, h3⟩ := h
  rw [valid_iff]
  unfold nextDay
  split
  · simp only; omega
  · split
    · have : 1 ≤ daysInMonth d.year (d.month + 1) := by
        have : d.month + 1 ≤ 12 := by omega
        interval_cases hm : d.month <;> simp [daysInMonth] <;> split <;> omega
      simp only; omega
    · omega

/-- Nothing valid comes after a day whose next day does not exist. -/
theorem ordinal_le_last {d e : DateTime} (hd : d.valid) (he : e.valid) (h9 : d.year = 9999)
    (h12 : d.month = 12) (hday : d.day = daysInMonth d.year d.month) : e.ordinal ≤ d.ordinal := by
  by_cases hl : e.year < d.year ∨ (e.year = d.year ∧ (e.month < d.month ∨
      (e.month = d.month ∧ e.day < d.day)))
  · exact Nat.le_of_lt (ordinal_lt_of_lex he hd hl)
  · have hd' := (valid_iff d).1 hd
    have he' := (valid_iff e).1 he
    have h1 : e.year = d.year := by omega
    have h2 : e.month = d.month := by omega
    have h3 : e.day = d.day := by
      have := he'.2.2.1.2
      rw [h1, h2, ← hday] at this
      omega
    unfold ordinal
    rw [h1, h2, h3]

theorem nextHour_valid_of_le {d e : DateTime} (hd : d.valid) (he : e.valid)
    (h : d.seconds + 3600 ≤ e.seconds) : d.nextHour.valid := by
  have hd' := (valid_iff d).1 hd
  have he' := (valid_iff e).1 he
  unfold nextHour
  split
  · rw [valid_iff]; simp only; omega
  · have hv : ({ d with hour := 0 } : DateTime).valid := by rw [valid_iff]; simp only; omega
    apply nextDay_valid' hv
    by_cases hc : d.year < 9999 ∨ d.month < 12 ∨ d.day < daysInMonth d.year d.month
    · exact hc
    · exfalso
      have hl := ordinal_le_last hd he (by omega) (by omega) (by omega)
      unfold seconds at h
      omega

theorem addHours_spec (n : Nat) {d e : DateTime} (hd : d.valid) (he : e.valid)
    (h : d.seconds + 3600 * n ≤ e.seconds) :
    (d.addHours n).valid ∧ (d.addHours n).seconds = d.seconds + 3600 * n ∧
    (d.addHours n).minute = d.minute ∧ (d.addHours n).second = d.second := by
  induction n generalizing d with
  | zero => exact ⟨hd, by simp [addHours], rfl, rfl⟩
  | succ n ih =>
    have h3 : 3600 * (n + 1) = 3600 * n + 3600 := Nat.mul_succ _ _
    have hle : d.seconds + 3600 ≤ e.seconds :=
      Nat.le_trans (Nat.add_le_add_left (by rw [h3]; exact Nat.le_add_left _ _) _) h
    have hv : d.nextHour.valid := nextHour_valid_of_le hd he hle
    have hs := nextHour_seconds hd
    have hm := nextHour_min_sec d
    obtain ⟨a, b, c, f⟩ := ih hv (by omega)
    simp only [addHours]
    exact ⟨a, by omega, by rw [c, hm.1], by rw [f, hm.2]⟩

theorem floorHour_valid {d : DateTime} (h : d.valid) : d.floorHour.valid := by
  rw [valid_iff] at h ⊢
  simp only [floorHour]
  omega

theorem floorHour_le (d : DateTime) : d.floorHour.seconds ≤ d.seconds := by
  simp only [floorHour, seconds, ordinal]
  omega

theorem lt_floorHour {d : DateTime} (h : d.valid) : d.seconds < d.floorHour.seconds + 3600 := by
  rw [valid_iff] at h
  simp only [floorHour, seconds, ordinal]
  omega

end Mabel.Py.DateTime

namespace Mabel.Dates
open Mabel.Py

theorem make_valid {y m d h mi s : Int} {t : DateTime} (e : DateTime.make y m d h mi s = .ok t) :
    t.valid = true := by
  unfold DateTime.make at e
  split at e
  · exact absurd e (by simp)
  · simp only at e
    split at e
    · rename_i hv
      simp only [Except.ok.injEq] at e
      rw [← e]; exact hv
    · exact absurd e (by simp)

theorem makeFrom_valid {l : List Str} {t : DateTime} (e : makeFrom l = .ok t) : t.valid = true := by
  unfold makeFrom at e
  split at e
  · exact absurd e (by simp)
  · exact make_valid e
  · exact make_valid e
  · exact make_valid e
  · exact absurd e (by simp)

theorem map_some_ok {r : Except Err DateTime} {t : DateTime} (h : r.map some = .ok (some t)) :
    r = .ok t := by
  cases r with
  | error e => simp [Except.map] at h
  | ok d => simpa [Except.map] using h

theorem parseBody_valid {v : Str} {t : DateTime} (e : parseBody v = .ok (some t)) :
    t.valid = true := by
  unfold parseBody at e
  repeat' split at e
  all_goals first
    | exact absurd e (by simp)
    | exact makeFrom_valid (map_some_ok e)

theorem make_ok {t : DateTime} (h : t.valid = true) :
    DateTime.make t.year t.month t.day t.hour t.minute t.second = .ok t := by
  unfold DateTime.make
  rw [if_neg (by omega)]
  simp [h]

/-! ## The hours of a range -/

theorem dateRange_spec {now s e : DateTime} (hs : s.valid) (he : e.valid)
    (h : s.seconds ≤ e.seconds) :
    ∃ l, dateRange now (.datetime s) (.datetime e) = .ok l ∧
      (∀ t, t ∈ l ↔ t.valid = true ∧ t.minute = 0 ∧ t.second = 0 ∧
        s.floorHour.seconds ≤ t.seconds ∧ t.seconds ≤ e.seconds) ∧
      l.Pairwise (fun a b => a.seconds < b.seconds) := by
  have hs' := DateTime.floorHour_valid hs
  have he' := DateTime.floorHour_valid he
  have h1 := DateTime.floorHour_le s
  have h2 := DateTime.floorHour_le e
  have h3 := DateTime.lt_floorHour hs
  have h4 := DateTime.lt_floorHour he
  have m1 : ∃ k, s.floorHour.seconds = 3600 * k := ⟨s.ordinal * 24 + s.hour, by
    simp only [DateTime.floorHour, DateTime.seconds, DateTime.ordinal]; omega⟩
  have m2 : ∃ k, e.floorHour.seconds = 3600 * k := ⟨e.ordinal * 24 + e.hour, by
    simp only [DateTime.floorHour, DateTime.seconds, DateTime.ordinal]; omega⟩
  obtain ⟨k1, m1⟩ := m1
  obtain ⟨k2, m2⟩ := m2
  have hle : s.floorHour.seconds ≤ e.floorHour.seconds := by omega
  have spec : ∀ n, n < (e.floorHour.seconds - s.floorHour.seconds) / 3600 + 1 →
      (s.floorHour.addHours n).valid ∧
      (s.floorHour.addHours n).seconds = s.floorHour.seconds + 3600 * n ∧
      (s.floorHour.addHours n).minute = 0 ∧ (s.floorHour.addHours n).second = 0 := by
    intro n hn
    exact DateTime.addHours_spec n hs' he' (by omega)
  refine ⟨(List.range ((e.floorHour.seconds - s.floorHour.seconds) / 3600 + 1)).map
    (fun n => s.floorHour.addHours n), ?_, ?_, ?_⟩
  · exact if_neg (Nat.not_lt.2 hle)
  · intro t
    simp only [List.mem_map, List.mem_range]
    constructor
    · rintro ⟨n, hn, rfl⟩
      obtain ⟨a, b, c, d⟩ := spec n hn
      exact ⟨a, c, d, by omega, by omega⟩
    · rintro ⟨hv, hm, hsec, hlo, hhi⟩
      have mt : t.seconds = 3600 * (t.ordinal * 24 + t.hour) := by
        simp only [DateTime.seconds, hm, hsec]; omega
      refine ⟨(t.seconds - s.floorHour.seconds) / 3600, by omega, ?_⟩
      obtain ⟨a, b, -, -⟩ := spec ((t.seconds - s.floorHour.seconds) / 3600) (by omega)
      apply DateTime.seconds_inj a hv
      rw [b]
      omega
  · rw [List.pairwise_map]
    refine List.Pairwise.imp_of_mem ?_ List.pairwise_lt_range
    intro a b ha hb hab
    rw [(spec a (List.mem_range.1 ha)).2.1, (spec b (List.mem_range.1 hb)).2.1]
    omega

/-! ## Text with an offset -/

theorem split_head (v rest : Str) (h : '+' ∉ v) : (split '+' (v ++ '+' :: rest)).headD [] = v := by
  induction v with
  | nil => simp [split]
  | cons a v ih =>
    simp only [List.mem_cons, not_or] at h
    have hih := ih h.2
    simp only [List.cons_append, split]
    rw [if_neg (Ne.symm h.1)]
    split
    · rename_i heq; rw [heq] at hih; simp at hih; simp [hih]
    · rename_i p ps heq; rw [heq] at hih; simp at hih; simp [hih]

/-- What may follow a date and time: nothing, a `Z`, or an offset that starts with `+`. -/
def Zone (z : Str) : Prop := z = [] ∨ z = ['Z'] ∨ ∃ o, z = '+' :: o

theorem parseIso_zone (v z : Str) (hz : Zone z) (h1 : 10 ≤ v.length) (h2 : v.length ≤ 28)
    (h3 : (v ++ z).length ≤ 33) (hp : '+' ∉ v) (hZ : v.getLast? ≠ some 'Z') :
    parseIso (v ++ z) = match parseBody v with | .ok d => d | .error _ => none := by
  unfold parseIso
  have hlen : 10 ≤ (v ++ z).length ∧ (v ++ z).length ≤ 33 := by
    rw [List.length_append] at *; omega
  rw [if_pos hlen]
  have hv : v ≠ [] := by rintro rfl; simp at h1
  rcases hz with rfl | rfl | ⟨o, rfl⟩
  · simp only [List.append_nil, if_neg hZ]
    have : v.contains '+' = false := by simpa using hp
    rw [this]
    rfl
  · have e1 : (v ++ ['Z']).getLast? = some 'Z' := by simp
    simp only [e1, if_true, List.dropLast_concat]
    have : v.contains '+' = false := by simpa using hp
    rw [this]
    rfl
  · have key : ∃ o', (if (v ++ '+' :: o).getLast? = some 'Z' then (v ++ '+' :: o).dropLast
        else v ++ '+' :: o) = v ++ '+' :: o' := by
      split
      · rename_i hl
        cases o with
        | nil => simp at hl
        | cons a o =>
          refine ⟨(a :: o).dropLast, ?_⟩
          rw [List.dropLast_append_of_ne_nil (by simp), List.dropLast_cons_of_ne_nil (by simp)]
      · exact ⟨o, rfl⟩
    obtain ⟨o', key⟩ := key
    simp only [key]
    have : (v ++ '+' :: o').contains '+' = true := by simp
    rw [this]
    simp only [if_true, split_head v o' hp]
    rw [if_pos ⟨h1, h2⟩]
    rfl

end Mabel.Dates
