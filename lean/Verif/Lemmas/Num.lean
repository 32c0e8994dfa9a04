import Verif.Py.Num
import Verif.Model.Dates

/-! # Decimal text and its value -/

namespace Mabel.Py

/-- The value of a list of decimal digits, most significant first. -/
def digitsValue (ds : List Nat) : Nat := ds.foldl (fun a d => 10 * a + d) 0

theorem natStrAux_digits : ∀ (fuel n : Nat), n < fuel → ∃ ds : List Nat, (∀ d ∈ ds, d < 10) ∧ ds ≠ [] ∧
    natStrAux fuel n = ds.map digitChar ∧ digitsValue ds = n := by
  intro fuel
  induction fuel with
  | zero => intro n h; omega
  | succ fuel ih =>
    intro n h
    rw [natStrAux]
    split
    · exact ⟨[n], by simpa, by simp, by simp, by simp [digitsValue]⟩
    · obtain ⟨ds, h1, h2, h3, h4⟩ := ih (n / 10) (by omega)
      refine ⟨ds ++ [n % 10], ?_, by simp, by simp [h3], ?_⟩
      · intro d hd
        rcases List.mem_append.1 hd with h | h
        · exact h1 d h
        · simp only [List.mem_singleton] at h; omega
      · rw [digitsValue, List.foldl_append]
        rw [digitsValue] at h4
        simp only [h4, List.foldl]
        omega

/-- `str(n)` is a non-empty list of digits whose value is n. -/
theorem natStr_digits (n : Nat) : ∃ ds : List Nat, (∀ d ∈ ds, d < 10) ∧ ds ≠ [] ∧
    natStr n = ds.map digitChar ∧ digitsValue ds = n := natStrAux_digits (n + 1) n (by omega)

theorem digitChar_val : ∀ k, k < 10 → Dates.digitVal (digitChar k) = some k := by decide

theorem digitChar_not_space : ∀ k, k < 10 → Dates.isSpace (digitChar k) = false := by decide

theorem digitChar_inj : ∀ a, a < 10 → ∀ b, b < 10 → digitChar a = digitChar b → a = b := by decide

theorem digitChar_plain : ∀ k, k < 10 → digitChar k ≠ '-' ∧ digitChar k ≠ '+' ∧ digitChar k ≠ 'Z' ∧
    digitChar k ≠ '{' ∧ digitChar k ≠ '}' ∧ digitChar k ≠ '/' ∧ digitChar k ≠ '.' ∧ digitChar k ≠ '_' := by decide

theorem map_digitChar_inj (a b : List Nat) (ha : ∀ d ∈ a, d < 10) (hb : ∀ d ∈ b, d < 10)
    (h : a.map digitChar = b.map digitChar) : a = b := by
  induction a generalizing b with
  | nil => cases b <;> simp_all
  | cons x a ih =>
    cases b with
    | nil => simp at h
    | cons y b =>
      simp only [List.map_cons, List.cons.injEq] at h
      rw [digitChar_inj x (ha x (by simp)) y (hb y (by simp)) h.1,
        ih b (fun d hd => ha d (by simp [hd])) (fun d hd => hb d (by simp [hd])) h.2]

/-- Different numbers have different decimal texts. -/
theorem natStr_inj {m n : Nat} (h : natStr m = natStr n) : m = n := by
  obtain ⟨a, a1, _, a3, a4⟩ := natStr_digits m
  obtain ⟨b, b1, _, b3, b4⟩ := natStr_digits n
  have := map_digitChar_inj a b a1 b1 (by rw [← a3, ← b3, h])
  rw [← a4, ← b4, this]

theorem natStr_ne_nil (n : Nat) : natStr n ≠ [] := by
  obtain ⟨ds, _, h2, h3, _⟩ := natStr_digits n
  rw [h3]; simpa using h2

theorem natStr_mem {n : Nat} {c : Char} (h : c ∈ natStr n) : ∃ k, k < 10 ∧ c = digitChar k := by
  obtain ⟨ds, h1, _, h3, _⟩ := natStr_digits n
  rw [h3] at h
  obtain ⟨k, hk, rfl⟩ := List.mem_map.1 h
  exact ⟨k, h1 k hk, rfl⟩

/-- Two digits, for a number below 100. -/
def two (n : Nat) : Str := [digitChar (n / 10), digitChar (n % 10)]

/-- Four digits, for a number below 10000. -/
def four (n : Nat) : Str :=
  [digitChar (n / 1000), digitChar (n / 100 % 10), digitChar (n / 10 % 10), digitChar (n % 10)]

theorem pad2_eq_two : ∀ n, n < 100 → pad2 n = two n := by
  intro n h
  unfold pad2 two natStr
  split
  · rename_i h'
    rw [natStrAux]
    simp [h', show n / 10 = 0 by omega, show n % 10 = n by omega, digitChar]
  · rename_i h'
    rw [natStrAux, if_neg h']
    cases n with
    | zero => omega
    | succ n => rw [natStrAux, if_pos (by omega)]; simp

theorem natStr_eq_four (n : Nat) (h1 : 1000 ≤ n) (h2 : n < 10000) : natStr n = four n := by
  unfold natStr four
  obtain ⟨k, rfl⟩ : ∃ k, n = k + 3 := ⟨n - 3, by omega⟩
  rw [natStrAux, if_neg (by omega), natStrAux, if_neg (by omega), natStrAux, if_neg (by omega),
    natStrAux, if_pos (by omega)]
  simp only [List.cons_append, List.nil_append]
  congr 1
  · congr 1; omega
  · congr 2; omega

end Mabel.Py

namespace Mabel.Dates
open Mabel.Py

theorem intDigits_map (ds : List Nat) (h : ∀ d ∈ ds, d < 10) (acc : Nat) (prev : Bool)
    (hp : prev = true ∨ ds ≠ []) :
    intDigits acc prev (ds.map digitChar) = some (ds.foldl (fun a d => 10 * a + d) acc) := by
  induction ds generalizing acc prev with
  | nil => rcases hp with hp | hp <;> simp_all [intDigits]
  | cons d ds ih =>
    simp only [List.map_cons, intDigits, digitChar_val d (h d (by simp)), List.foldl]
    exact ih (fun x hx => h x (by simp [hx])) _ _ (Or.inl rfl)

theorem dropWhile_head_false {α : Type} (p : α → Bool) (l : List α) (h : ∀ x ∈ l.head?, p x = false) :
    l.dropWhile p = l := by
  cases l with
  | nil => rfl
  | cons a l => simp [List.dropWhile, h a (by simp)]

theorem strip_eq (s : Str) (h : ∀ c ∈ s, isSpace c = false) : strip s = s := by
  unfold strip
  rw [dropWhile_head_false isSpace s (fun x hx => h x (List.mem_of_mem_head? hx)),
    dropWhile_head_false isSpace s.reverse
      (fun x hx => h x (List.mem_reverse.1 (List.mem_of_mem_head? hx))), List.reverse_reverse]

/-- `int` of a text of digits is its value. -/
theorem pyInt_digits (ds : List Nat) (h : ∀ d ∈ ds, d < 10) (hne : ds ≠ []) :
    pyInt (ds.map digitChar) = .ok (digitsValue ds : Int) := by
  have hs : strip (ds.map digitChar) = ds.map digitChar := by
    apply strip_eq
    intro c hc
    obtain ⟨k, hk, rfl⟩ := List.mem_map.1 hc
    exact digitChar_not_space k (h k hk)
  have hi := intDigits_map ds h 0 false (Or.inr hne)
  cases ds with
  | nil => exact absurd rfl hne
  | cons d ds =>
    have hp := digitChar_plain d (h d (by simp))
    unfold pyInt
    rw [hs]
    simp only [List.map_cons] at hi ⊢
    split
    · rename_i i hi'
      split at hi'
      · rename_i cs heq; exact absurd (List.cons.inj heq).1 hp.1
      · rename_i cs heq; exact absurd (List.cons.inj heq).1 hp.2.1
      · rw [hi] at hi'; cases hi'; rfl
    · rename_i hi'
      split at hi'
      · rename_i cs heq; exact absurd (List.cons.inj heq).1 hp.1
      · rename_i cs heq; exact absurd (List.cons.inj heq).1 hp.2.1
      · rw [hi] at hi'; simp at hi'

theorem pyInt_two (n : Nat) (h : n < 100) : pyInt (two n) = .ok (n : Int) := by
  have := pyInt_digits [n / 10, n % 10] (by simp; omega) (by simp)
  simp only [List.map_cons, List.map_nil, digitsValue, List.foldl] at this
  rw [two, this]
  congr 2
  omega

theorem pyInt_four (n : Nat) (h : n < 10000) : pyInt (four n) = .ok (n : Int) := by
  have := pyInt_digits [n / 1000, n / 100 % 10, n / 10 % 10, n % 10] (by simp; omega) (by simp)
  simp only [List.map_cons, List.map_nil, digitsValue, List.foldl] at this
  rw [four, this]
  congr 2
  omega

end Mabel.Dates
