import Verif.Model.Statistics
import Verif.Props.Summaries
import Mathlib.Tactic.FieldSimp
import Mathlib.Tactic.Ring
import Mathlib.Tactic.Linarith
import Mathlib.Algebra.Order.BigOperators.Group.List

/-! # Mean and variance of a column (C108) -/

namespace Mabel.Summaries
open Mabel.Py Mabel.Filters Mabel.Order

theorem ratios_of {vs : List Datum} {ps : List Rat} (h : Amounts vs ps) : ratios vs = .ok ps := by
  induction h with
  | nil => rfl
  | cons h1 _ ih =>
    rw [ratios, amount_iff.1 h1, ih]
    rfl

theorem ratios_refused {vs : List Datum} (h : ∃ v ∈ vs, ∀ b q, v = .one b → ¬ Amount b q) : ratios vs = .error .typeError := by
  induction vs with
  | nil => obtain ⟨v, hv, _⟩ := h; cases hv
  | cons v vs ih =>
    cases v with
    | list l => rfl
    | one a =>
      rw [ratios]
      cases hn : a.num with
      | none => rfl
      | some q =>
        obtain ⟨w, hw, hb⟩ := h
        rcases List.mem_cons.1 hw with rfl | hw
        · exact absurd (amount_iff.2 hn) (hb a q rfl)
        · simp only [ih ⟨w, hw, hb⟩]
          rfl

theorem sum_div_mul {ps : List Rat} (hne : ps ≠ []) : ps.sum / ps.length * ps.length = ps.sum := by
  have : (ps.length : Rat) ≠ 0 := by
    rw [Nat.cast_ne_zero]
    exact fun h => hne (List.length_eq_zero_iff.1 h)
  field_simp

/-- **C108**: the mean of a column of numbers: multiplied by the number of the values it is their sum. -/
theorem C108_mean {key : Str} {rows : List Row} {vs : List Datum} {ps : List Rat} (hc : Column key rows vs) (h : Amounts vs ps)
    (hne : ps ≠ []) : ∃ m, mean key rows = .ok m ∧ m * ps.length = ps.sum := by
  refine ⟨ps.sum / ps.length, ?_, sum_div_mul hne⟩
  unfold mean
  rw [collect_of hc, ratios_of h]
  show (if ps.length < 1 then _ else _) = _
  rw [if_neg (by have := List.length_pos_iff.2 hne; omega)]

theorem sum_bounds (lo hi : Rat) (ps : List Rat) (h : ∀ p ∈ ps, lo ≤ p ∧ p ≤ hi) :
    lo * ps.length ≤ ps.sum ∧ ps.sum ≤ hi * ps.length := by
  induction ps with
  | nil => simp
  | cons p ps ih =>
    obtain ⟨h1, h2⟩ := ih (fun x hx => h x (by simp [hx]))
    obtain ⟨h3, h4⟩ := h p (by simp)
    rw [List.sum_cons, List.length_cons, Nat.cast_add, Nat.cast_one]
    constructor <;> linarith

/-- **C108**: the mean is between any bounds of the values, such as the least and the greatest. -/
theorem C108_mean_between {key : Str} {rows : List Row} {vs : List Datum} {ps : List Rat} (hc : Column key rows vs) (h : Amounts vs ps)
    (hne : ps ≠ []) (lo hi : Rat) (hb : ∀ p ∈ ps, lo ≤ p ∧ p ≤ hi) : ∃ m, mean key rows = .ok m ∧ lo ≤ m ∧ m ≤ hi := by
  obtain ⟨m, h1, h2⟩ := C108_mean hc h hne
  obtain ⟨h3, h4⟩ := sum_bounds lo hi ps hb
  rw [← h2] at h3 h4
  have hp : (0 : Rat) < ps.length := by
    rw [Nat.cast_pos]
    exact List.length_pos_iff.2 hne
  exact ⟨m, h1, le_of_mul_le_mul_right h3 hp, le_of_mul_le_mul_right h4 hp⟩

theorem squares (m : Rat) (ps : List Rat) : (ps.map fun p => (p - m) ^ 2).sum
    = (ps.map fun x => x * x).sum - 2 * m * ps.sum + ps.length * m ^ 2 := by
  induction ps with
  | nil => simp
  | cons p ps ih =>
    rw [List.map_cons, List.map_cons, List.sum_cons, List.sum_cons, List.sum_cons, ih, List.length_cons, Nat.cast_add, Nat.cast_one]
    ring

theorem squares_zero (m : Rat) (ps : List Rat) : 0 ≤ (ps.map fun p => (p - m) ^ 2).sum ∧
    ((ps.map fun p => (p - m) ^ 2).sum = 0 ↔ ∀ p ∈ ps, p = m) := by
  induction ps with
  | nil => simp
  | cons p ps ih =>
    obtain ⟨h1, h2⟩ := ih
    have h3 : 0 ≤ (p - m) ^ 2 := sq_nonneg _
    rw [List.map_cons, List.sum_cons]
    refine ⟨by linarith, ?_, ?_⟩
    · intro h
      have e1 : (p - m) ^ 2 = 0 := by linarith
      have e2 := h2.1 (by linarith)
      intro x hx
      rcases List.mem_cons.1 hx with rfl | hx
      · exact sub_eq_zero.1 (pow_eq_zero_iff (by decide) |>.1 e1)
      · exact e2 x hx
    · intro h
      rw [h2.2 (fun x hx => h x (by simp [hx])), h p (by simp)]
      ring

/-- **C108**: the variance of a column of at least two numbers: the squares of the differences to the mean, summed and divided by one
less than the number of values.  It is not negative, and nought if and only if all values are the mean. -/
theorem C108_variance {key : Str} {rows : List Row} {vs : List Datum} {ps : List Rat} (hc : Column key rows vs) (h : Amounts vs ps)
    (hn : 2 ≤ ps.length) : ∃ m v, mean key rows = .ok m ∧ variance key rows = .ok v ∧
      v * (ps.length - 1) = (ps.map fun p => (p - m) ^ 2).sum ∧ 0 ≤ v ∧ (v = 0 ↔ ∀ p ∈ ps, p = m) := by
  have hne : ps ≠ [] := by rintro rfl; simp at hn
  obtain ⟨m, h1, h2⟩ := C108_mean hc h hne
  have hl : (2 : Rat) ≤ ps.length := by exact_mod_cast hn
  have hl0 : (ps.length : Rat) ≠ 0 := by intro e; rw [e] at hl; norm_num at hl
  have hl1 : (ps.length : Rat) - 1 ≠ 0 := by intro e; linarith
  have hpos : 0 < (ps.length : Rat) - 1 := by linarith
  obtain ⟨z1, z2⟩ := squares_zero m ps
  have hv : (ps.length * (ps.map fun x => x * x).sum - ps.sum * ps.sum) / ps.length / (ps.length - 1) * ((ps.length : Rat) - 1)
      = (ps.map fun p => (p - m) ^ 2).sum := by
    rw [div_mul_cancel₀ _ hl1, squares, ← h2]
    field_simp
    ring
  refine ⟨m, _, h1, ?_, hv, ?_, ?_⟩
  · unfold variance
    rw [collect_of hc, ratios_of h]
    show (if ps.length < 2 then _ else _) = _
    rw [if_neg (by omega)]
  · by_contra hneg
    have := mul_neg_of_neg_of_pos (not_le.1 hneg) hpos
    rw [hv] at this
    linarith
  · rw [← z2, ← hv]
    constructor
    · intro e; rw [e, zero_mul]
    · intro e; exact (mul_eq_zero.1 e).resolve_right hl1

theorem ratios_perm {vs ws : List Datum} (h : vs.Perm ws) : (∃ ps qs, ratios vs = .ok ps ∧ ratios ws = .ok qs ∧ ps.Perm qs) ∨
    (ratios vs = .error .typeError ∧ ratios ws = .error .typeError) := by
  have cases_ : ∀ vs : List Datum, (∃ ps, Amounts vs ps) ∨ ∃ v ∈ vs, ∀ b q, v = .one b → ¬ Amount b q := by
    intro vs
    induction vs with
    | nil => exact .inl ⟨[], .nil⟩
    | cons v vs ih =>
      rcases ih with ⟨ps, h⟩ | ⟨v, h, hv⟩
      · by_cases hv : ∃ b q, v = .one b ∧ Amount b q
        · obtain ⟨b, q, rfl, hq⟩ := hv
          exact .inl ⟨_, .cons hq h⟩
        · exact .inr ⟨v, by simp, fun b q e hq => hv ⟨b, q, e, hq⟩⟩
      · exact .inr ⟨v, by simp [h], hv⟩
  have perm : ∀ {vs ws : List Datum}, vs.Perm ws → ∀ ps, Amounts vs ps → ∃ qs, Amounts ws qs ∧ ps.Perm qs := by
    intro vs ws h
    induction h with
    | nil => intro ps hp; exact ⟨ps, hp, .refl _⟩
    | cons x _ ih =>
      intro ps hp
      cases hp with
      | cons h1 h2 =>
        obtain ⟨qs, h3, h4⟩ := ih _ h2
        exact ⟨_, .cons h1 h3, h4.cons _⟩
    | swap x y l =>
      intro ps hp
      cases hp with
      | cons h1 h2 =>
        cases h2 with
        | cons h3 h4 => exact ⟨_, .cons h3 (.cons h1 h4), .swap ..⟩
    | trans _ _ ih1 ih2 =>
      intro ps hp
      obtain ⟨qs, h1, h2⟩ := ih1 _ hp
      obtain ⟨rs, h3, h4⟩ := ih2 _ h1
      exact ⟨rs, h3, h2.trans h4⟩
  rcases cases_ vs with ⟨ps, hp⟩ | ⟨v, hv, hb⟩
  · obtain ⟨qs, h1, h2⟩ := perm h ps hp
    exact .inl ⟨ps, qs, ratios_of hp, ratios_of h1, h2⟩
  · exact .inr ⟨ratios_refused ⟨v, hv, hb⟩, ratios_refused ⟨v, h.mem_iff.1 hv, hb⟩⟩

/-- **C108**: the order of the records does not matter. -/
theorem C108_order (key : Str) {rows rows' : List Row} (h : rows.Perm rows') :
    mean key rows = mean key rows' ∧ variance key rows = variance key rows' := by
  unfold mean variance
  rcases ratios_perm (h.filterMap fun r => r.lookup key) with ⟨ps, qs, h1, h2, h3⟩ | ⟨h1, h2⟩
  · rw [show ratios (collectList key rows) = .ok ps from h1, show ratios (collectList key rows') = .ok qs from h2]
    have e1 := h3.length_eq
    have e2 := h3.sum_eq
    have e3 := (h3.map fun x => x * x).sum_eq
    constructor
    · show (if ps.length < 1 then _ else _) = (if qs.length < 1 then _ else _)
      rw [e1, e2]
    · show (if ps.length < 2 then _ else _) = (if qs.length < 2 then _ else _)
      rw [e1, e2, e3]
  · rw [show ratios (collectList key rows) = _ from h1, show ratios (collectList key rows') = _ from h2]
    exact ⟨rfl, rfl⟩

/-- **C108**: a column with anything but numbers in it raises TypeError; no values have no mean, and one has no variance. -/
theorem C108_refused {key : Str} {rows : List Row} {vs : List Datum} (hc : Column key rows vs) :
    ((∃ v ∈ vs, ∀ b q, v = .one b → ¬ Amount b q) → mean key rows = .error .typeError ∧ variance key rows = .error .typeError) ∧
    (vs = [] → mean key rows = .error .valueError) ∧
    (∀ ps, Amounts vs ps → ps.length < 2 → variance key rows = .error .valueError) := by
  unfold mean variance
  rw [collect_of hc]
  refine ⟨?_, ?_, ?_⟩
  · intro h
    rw [ratios_refused h]
    exact ⟨rfl, rfl⟩
  · rintro rfl
    rfl
  · intro ps hp hl
    rw [ratios_of hp]
    show (if ps.length < 2 then _ else _) = _
    rw [if_pos hl]

/-! ## The column of Props/Summaries: 3, true and 7/2 -/

example : mean "k".toList demo = .ok (5 / 2) ∧ variance "k".toList demo = .ok (7 / 4) := by decide +kernel

example : ∃ m v, mean "k".toList demo = .ok m ∧ variance "k".toList demo = .ok v ∧
    v * (([3, 1, 7 / 2] : List Rat).length - 1) = (([3, 1, 7 / 2] : List Rat).map fun p => (p - m) ^ 2).sum ∧ 0 ≤ v ∧
      (v = 0 ↔ ∀ p ∈ ([3, 1, 7 / 2] : List Rat), p = m) :=
  C108_variance demo_column (.cons (.whole 3) (.cons .yes (.cons (.fraction _) .nil))) (by decide)

example : mean "k".toList demo = mean "k".toList demo.reverse := (C108_order _ demo.reverse_perm.symm).1

example : variance "j".toList demo = .error .typeError :=
  ((C108_refused (vs := [.one .none, .list []]) ((C36_column ..).1 rfl)).1
    ⟨.one .none, by simp, by rintro b q h h'; cases h; cases h'⟩).2

end Mabel.Summaries
