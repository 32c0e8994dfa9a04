import Verif.Spec.Order
import Verif.Lemmas.StrOrder
import Mathlib.Algebra.Order.Field.Rat

namespace Mabel.Order
open Mabel.Py Mabel.Filters

theorem amount_iff {a : Scalar} {p : Rat} : Amount a p ↔ a.num = some p := by
  constructor
  · rintro (_ | _ | _ | _) <;> rfl
  · intro h
    cases a with
    | none => cases h
    | str s => cases h
    | date d => cases h
    | bool b => cases b <;> cases h <;> constructor
    | int i => cases h; constructor
    | float q => cases h; constructor

theorem Amount.unique {a : Scalar} {p q : Rat} (h1 : Amount a p) (h2 : Amount a q) : p = q := by
  rw [amount_iff] at h1 h2
  rw [h1] at h2
  exact Option.some.inj h2

theorem eq_iff {a b : Scalar} : a.eq b = true ↔ Equal a b := by
  unfold Scalar.eq Equal
  split
  · next p q hp hq =>
    rw [decide_eq_true_iff]
    constructor
    · rintro rfl
      exact .inr ⟨p, amount_iff.2 hp, amount_iff.2 hq⟩
    · rintro (rfl | ⟨r, h1, h2⟩)
      · exact Option.some.inj (hp.symm.trans hq)
      · exact (h1.unique (amount_iff.2 hp)).symm.trans (h2.unique (amount_iff.2 hq))
  · next h =>
    rw [decide_eq_true_iff]
    constructor
    · exact .inl
    · rintro (h' | ⟨r, h1, h2⟩)
      · exact h'
      · exact absurd (amount_iff.1 h2) (h _ _ (amount_iff.1 h1))

theorem Comparable.symm {a b : Scalar} (h : Comparable a b) : Comparable b a := by
  cases h with
  | number h1 h2 => exact .number h2 h1
  | text => exact .text ..
  | date => exact .date ..

theorem Comparable.trans {a b c : Scalar} (h : Comparable a b) (h' : Comparable b c) : Comparable a c := by
  cases h with
  | number h1 h2 =>
    cases h' with
    | number h3 h4 => exact .number h1 h4
    | text => cases h2
    | date => cases h2
  | text =>
    cases h' with
    | number h3 h4 => cases h3
    | text => exact .text ..
  | date =>
    cases h' with
    | number h3 h4 => cases h3
    | date => exact .date ..

theorem Below.comparable {a b : Scalar} (h : Below a b) : Comparable a b := by
  cases h with
  | number h1 h2 _ => exact .number h1 h2
  | text => exact .text ..
  | date => exact .date ..

theorem lt_ok_iff {a b : Scalar} : (a.lt b).isOk = true ↔ Comparable a b := by
  constructor
  · intro h
    unfold Scalar.lt at h
    split at h
    · rename_i p q hp hq
      exact .number (amount_iff.2 hp) (amount_iff.2 hq)
    · split at h
      · exact .text ..
      · exact .date ..
      · cases h
  · rintro (⟨h1, h2⟩ | _ | _)
    · rw [amount_iff] at h1 h2
      simp [Scalar.lt, h1, h2, Except.isOk, Except.toBool]
    · rfl
    · rfl

theorem lt_true_iff {a b : Scalar} : a.lt b = .ok true ↔ Below a b := by
  constructor
  · intro h
    unfold Scalar.lt at h
    split at h
    · rename_i p q hp hq
      exact .number (amount_iff.2 hp) (amount_iff.2 hq) (by simpa using h)
    · split at h
      · rename_i s t _
        refine .text ?_
        simpa [strLe] using h
      · refine .date ?_
        simpa [DateTime.le] using h
      · cases h
  · rintro (⟨h1, h2, h⟩ | h | h)
    · rw [amount_iff] at h1 h2
      simp [Scalar.lt, h1, h2, h]
    · simpa [Scalar.lt, Scalar.num, strLe] using h
    · simpa [Scalar.lt, Scalar.num, DateTime.le] using h

theorem lt_false_iff {a b : Scalar} : a.lt b = .ok false ↔ AtMost b a := by
  unfold AtMost
  rw [← lt_true_iff]
  constructor
  · intro h
    refine ⟨(lt_ok_iff.1 (by rw [h]; rfl)).symm, by rw [h]; simp⟩
  · rintro ⟨h1, h2⟩
    have := lt_ok_iff.2 h1.symm
    cases h : a.lt b with
    | error e => rw [h] at this; cases this
    | ok x => cases x <;> simp_all

theorem lt_error_iff {a b : Scalar} : a.lt b = .error .typeError ↔ ¬ Comparable a b := by
  rw [← lt_ok_iff]
  unfold Scalar.lt
  split
  · simp [Except.isOk, Except.toBool]
  · split <;> simp [Except.isOk, Except.toBool]

theorem below_or {a b : Scalar} (h : Comparable a b) : Below a b ∨ AtMost b a := by
  by_cases hb : Below a b
  · exact .inl hb
  · exact .inr ⟨h.symm, hb⟩

theorem Below.asymm {a b : Scalar} (h : Below a b) : ¬ Below b a := by
  intro h'
  cases h with
  | number h1 h2 h3 =>
    cases h' with
    | number h4 h5 h6 =>
      rw [h4.unique h2, h5.unique h1] at h6
      exact absurd h3 (not_lt_of_gt h6)
    | text => cases h1
    | date => cases h1
  | text h =>
    cases h' with
    | number h4 => cases h4
    | text h2 => exact absurd h2 (Std.not_lt.2 (Std.le_of_lt h))
  | date h =>
    cases h' with
    | number h4 => cases h4
    | date h2 => omega

theorem Below.atMost {a b : Scalar} (h : Below a b) : AtMost a b := ⟨h.comparable, h.asymm⟩

/-- Not before, and before. -/
theorem AtMost.below {a b c : Scalar} (h : AtMost a b) (h' : Below b c) : Below a c := by
  obtain ⟨h1, h2⟩ := h
  cases h' with
  | number hb hc hlt =>
    cases h1 with
    | number ha hb' =>
      refine .number ha hc (lt_of_le_of_lt (not_lt.1 (fun hn => h2 (.number hb ha ?_))) hlt)
      exact hn
    | text => cases hb
    | date => cases hb
  | text hlt =>
    cases h1 with
    | number _ hb => cases hb
    | text =>
      refine .text (Std.lt_of_le_of_lt (Std.not_lt.1 (fun hn => h2 (.text hn))) hlt)
  | date hlt =>
    cases h1 with
    | number _ hb => cases hb
    | date =>
      refine .date (lt_of_le_of_lt (not_lt.1 (fun hn => h2 (.date hn))) hlt)

theorem AtMost.trans {a b c : Scalar} (h : AtMost a b) (h' : AtMost b c) : AtMost a c := by
  refine ⟨h.1.trans h'.1, fun hc => ?_⟩
  rcases below_or h.1 with hb | hb
  · exact h'.2 (AtMost.below hc.atMost hb)
  · exact h'.2 (AtMost.below ⟨hc.comparable, hc.asymm⟩ (by
      exact absurd (AtMost.below h' hc) h.2))

/-- Before, and not before. -/
theorem Below.atMost_right {a b c : Scalar} (h : Below a b) (h' : AtMost b c) : Below a c := by
  rcases below_or (h.comparable.trans h'.1) with hb | hb
  · exact hb
  · exact absurd (hb.below h) h'.2

theorem Equal.not_below {x a b : Scalar} (h : Below b a) (hx : Equal x a) : ¬ Equal x b := by
  intro hb
  have key : ∀ {a : Scalar} {p}, Amount x p → Equal x a → Amount a p := by
    rintro a p hp (rfl | ⟨q, h1, h2⟩)
    · exact hp
    · rw [hp.unique h1]
      exact h2
  by_cases hn : ∃ p, Amount x p
  · obtain ⟨p, hp⟩ := hn
    exact absurd (.number (key hp hx) (key hp hb) (by
      cases h with
      | number h1 h2 h3 => rw [h1.unique (key hp hb), h2.unique (key hp hx)] at h3; exact h3
      | text => cases key hp hx
      | date => cases key hp hx)) h.asymm
  · have e1 : x = a := hx.resolve_right (fun ⟨p, hp, _⟩ => hn ⟨p, hp⟩)
    have e2 : x = b := hb.resolve_right (fun ⟨p, hp, _⟩ => hn ⟨p, hp⟩)
    subst e1 e2
    exact h.asymm h

end Mabel.Order
