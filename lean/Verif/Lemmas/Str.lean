import Verif.Py.Basic

/-! Facts about the string functions. -/

namespace Mabel.Py

theorem isPrefixOf_iff {p s : Str} : p.isPrefixOf s = true ↔ ∃ t, s = p ++ t := by
  rw [List.isPrefixOf_iff_prefix]
  constructor
  · rintro ⟨t, h⟩; exact ⟨t, h.symm⟩
  · rintro ⟨t, h⟩; exact ⟨t, h.symm⟩

theorem contains_iff {sub s : Str} : contains sub s = true ↔ ∃ a b, s = a ++ sub ++ b := by
  induction s with
  | nil =>
    simp only [contains, isPrefixOf_iff]
    constructor
    · rintro ⟨t, h⟩; exact ⟨[], t, by simpa using h⟩
    · rintro ⟨a, b, h⟩
      have : a = [] ∧ sub = [] ∧ b = [] := by simpa [and_assoc] using h.symm
      exact ⟨[], by simp [this.2.1]⟩
  | cons c cs ih =>
    simp only [contains, Bool.or_eq_true, ih, isPrefixOf_iff]
    constructor
    · rintro (⟨t, h⟩ | ⟨a, b, h⟩)
      · exact ⟨[], t, by simpa using h⟩
      · exact ⟨c :: a, b, by simp [h]⟩
    · rintro ⟨a, b, h⟩
      cases a with
      | nil => left; exact ⟨b, by simpa using h⟩
      | cons x xs =>
        right
        simp only [List.cons_append, List.cons.injEq] at h
        exact ⟨xs, b, h.2⟩

theorem contains_append_left {sub a : Str} (b : Str) (h : contains sub a = true) :
    contains sub (a ++ b) = true := by
  obtain ⟨x, y, rfl⟩ := contains_iff.1 h
  exact contains_iff.2 ⟨x, y ++ b, by simp⟩

theorem contains_append_right {sub b : Str} (a : Str) (h : contains sub b = true) :
    contains sub (a ++ b) = true := by
  obtain ⟨x, y, rfl⟩ := contains_iff.1 h
  exact contains_iff.2 ⟨a ++ x, y, by simp⟩

/-! ### replace -/

theorem replaceGo_count_le {old new : Str} {ch : Char} (hn : ch ∉ new) :
    ∀ (s : Str) (n : Nat), (replaceGo old new n s).count ch ≤ s.count ch := by
  intro s
  induction s with
  | nil => intro n; cases n <;> simp [replaceGo]
  | cons c cs ih =>
    intro n
    cases n with
    | succ n =>
      simp only [replaceGo]
      exact Nat.le_trans (ih n) (by rw [List.count_cons]; omega)
    | zero =>
      simp only [replaceGo]
      split
      · rw [List.count_append, List.count_eq_zero_of_not_mem hn, Nat.zero_add]
        exact Nat.le_trans (ih _) (by rw [List.count_cons]; omega)
      · rw [List.count_cons, List.count_cons]
        have := ih 0
        omega

/-- Replacing cannot add a character that the replacement does not have. -/
theorem replace_count_le {old new : Str} {ch : Char} (hn : ch ∉ new) (s : Str) :
    (replace old new s).count ch ≤ s.count ch := replaceGo_count_le hn s 0

theorem replaceGo_count {old new : Str} {ch : Char} (ho : ch ∉ old) (hn : ch ∉ new) (hne : old ≠ []) :
    ∀ (s : Str) (n : Nat), (replaceGo old new n s).count ch = (s.drop n).count ch := by
  intro s
  induction s with
  | nil => intro n; cases n <;> simp [replaceGo]
  | cons c cs ih =>
    intro n
    cases n with
    | succ n => simp only [replaceGo, List.drop_succ_cons]; exact ih n
    | zero =>
      simp only [replaceGo, List.drop_zero]
      split
      · rename_i hp
        obtain ⟨t, ht⟩ := isPrefixOf_iff.1 hp
        rw [List.count_append, List.count_eq_zero_of_not_mem hn, Nat.zero_add, ih, ht,
          List.count_append, List.count_eq_zero_of_not_mem ho, Nat.zero_add]
        cases old with
        | nil => exact absurd rfl hne
        | cons o os =>
          simp only [List.cons_append, List.cons.injEq] at ht
          rw [ht.2]; simp
      · rw [List.count_cons, List.count_cons, ih]; simp

/-- Replacing leaves alone the characters that neither side has. -/
theorem replace_count {old new : Str} {ch : Char} (ho : ch ∉ old) (hn : ch ∉ new) (hne : old ≠ [])
    (s : Str) : (replace old new s).count ch = s.count ch := by
  rw [replace, replaceGo_count ho hn hne]; simp

/-- If no occurrence of `old` that starts in `a` reaches beyond it, `a` is replaced on its own. -/
theorem replaceGo_append {old new rest : Str} :
    ∀ (a : Str) (n : Nat), n ≤ a.length →
      (∀ a' : Str, a' ≠ [] → a' <:+ a → old.isPrefixOf (a' ++ rest) = true → old.length ≤ a'.length) →
      replaceGo old new n (a ++ rest) = replaceGo old new n a ++ replaceGo old new 0 rest := by
  intro a
  induction a with
  | nil =>
    intro n hn _
    have : n = 0 := by simpa using hn
    subst this
    simp [replaceGo]
  | cons c cs ih =>
    intro n hn h
    have h' : ∀ a' : Str, a' ≠ [] → a' <:+ cs → old.isPrefixOf (a' ++ rest) = true → old.length ≤ a'.length :=
      fun a' h1 h2 h3 => h a' h1 (h2.trans (List.suffix_cons c cs)) h3
    cases n with
    | succ n =>
      simp only [List.cons_append, replaceGo]
      exact ih n (by simpa using hn) h'
    | zero =>
      simp only [List.cons_append, replaceGo]
      by_cases hp : old.isPrefixOf (c :: (cs ++ rest)) = true
      · have hlen := h (c :: cs) (by simp) List.suffix_rfl (by simpa using hp)
        have hp' : old.isPrefixOf (c :: cs) = true := by
          obtain ⟨t, ht⟩ := isPrefixOf_iff.1 hp
          have : old <+: c :: cs := by
            have h1 : old <+: (c :: cs) ++ rest := ⟨t, by simpa using ht.symm⟩
            exact List.prefix_of_prefix_length_le h1 (List.prefix_append _ _) hlen
          exact List.isPrefixOf_iff_prefix.2 this
        rw [if_pos hp, if_pos hp', ih _ _ h', List.append_assoc]
        simp only [List.length_cons] at hlen; omega
      · have hp' : ¬ old.isPrefixOf (c :: cs) = true := by
          intro hc
          obtain ⟨t, ht⟩ := isPrefixOf_iff.1 hc
          exact hp (isPrefixOf_iff.2 ⟨t ++ rest, by
            rw [← List.append_assoc, ← ht]; simp⟩)
        rw [if_neg hp, if_neg hp', ih 0 (by simp) h', List.cons_append]

/-- Text that lacks a character of `old` is not changed. -/
theorem replace_eq_self {old new s : Str} {x : Char} (ho : x ∈ old) (hs : x ∉ s) :
    replace old new s = s := by
  unfold replace
  induction s with
  | nil => rfl
  | cons c cs ih =>
    simp only [replaceGo]
    rw [if_neg, ih (fun h => hs (List.mem_cons_of_mem _ h))]
    intro hc
    obtain ⟨t, ht⟩ := isPrefixOf_iff.1 hc
    exact hs (by rw [ht]; exact List.mem_append_left _ ho)

/-- A suffix without the last character of `old` is kept. -/
theorem replace_append_suffix {old new : Str} {x : Char} (a suf : Str) (hx : x ∉ suf) :
    replace (old ++ [x]) new (a ++ suf) = replace (old ++ [x]) new a ++ suf := by
  have := replaceGo_append (old := old ++ [x]) (new := new) (rest := suf) a 0 (by simp) ?_
  · unfold replace
    rw [this]
    congr 1
    exact replace_eq_self (x := x) (by simp) hx
  · intro a' _ _ hp
    obtain ⟨t, ht⟩ := isPrefixOf_iff.1 hp
    refine Nat.le_of_not_lt fun hlt => hx ?_
    have hpre : a' <+: old := by
      have h1 : a' <+: (old ++ [x]) ++ t := ⟨suf, ht⟩
      have h2 : old <+: (old ++ [x]) ++ t := ⟨[x] ++ t, by simp⟩
      exact List.prefix_of_prefix_length_le h1 h2 (by simp at hlt; omega)
    obtain ⟨u, hu⟩ := hpre
    rw [← hu] at ht
    simp only [List.append_assoc, List.append_cancel_left_eq] at ht
    rw [ht]; simp

/-- Text that shares no character with `old` is kept wherever it is. -/
theorem replace_append_disjoint {old new : Str} (hne : old ≠ []) (a sub b : Str) (hsub : sub ≠ [])
    (hd : ∀ x ∈ old, x ∉ sub) :
    replace old new (a ++ sub ++ b) = replace old new a ++ sub ++ replace old new b := by
  have keep : replaceGo old new 0 (sub ++ b) = sub ++ replaceGo old new 0 b := by
    clear a hsub
    induction sub with
    | nil => rfl
    | cons c cs ih =>
      simp only [List.cons_append, replaceGo]
      rw [if_neg, ih (fun x hx hc => hd x hx (List.mem_cons_of_mem _ hc))]
      intro hc
      obtain ⟨t, ht⟩ := isPrefixOf_iff.1 hc
      cases old with
      | nil => exact hne rfl
      | cons o os =>
        simp only [List.cons_append, List.cons.injEq] at ht
        exact hd o List.mem_cons_self (by rw [← ht.1]; exact List.mem_cons_self)
  cases hs : sub with
  | nil => exact absurd hs hsub
  | cons c cs =>
    rw [← hs]
    have := replaceGo_append (old := old) (new := new) (rest := sub ++ b) a 0 (by simp) ?_
    · unfold replace
      rw [List.append_assoc, this, keep, List.append_assoc]
    · intro a' _ _ hp
      obtain ⟨t, ht⟩ := isPrefixOf_iff.1 hp
      refine Nat.le_of_not_lt fun hlt => ?_
      have hpre : a' <+: old :=
        List.prefix_of_prefix_length_le ⟨sub ++ b, ht⟩ ⟨t, rfl⟩ (by omega)
      obtain ⟨u, hu⟩ := hpre
      rw [← hu] at ht
      simp only [List.append_assoc, List.append_cancel_left_eq] at ht
      cases u with
      | nil => rw [List.append_nil] at hu; rw [hu] at hlt; omega
      | cons x xs =>
        rw [hs] at ht
        simp only [List.cons_append, List.cons.injEq] at ht
        refine hd x (by rw [← hu]; simp) ?_
        rw [hs, ← ht.1]; exact List.mem_cons_self

/-! ### split -/

theorem split_ne_nil (c : Char) (s : Str) : split c s ≠ [] := by
  cases s with
  | nil => simp [split]
  | cons x xs => unfold split; split
                 · simp
                 · split <;> simp

theorem split_length (c : Char) (s : Str) : (split c s).length = s.count c + 1 := by
  induction s with
  | nil => rfl
  | cons x xs ih =>
    unfold split
    split
    · rename_i h; subst h; simp [ih]
    · rename_i h
      rw [List.count_cons_of_ne (by simpa using h), ← ih]
      split
      · rename_i hs; exact absurd hs (split_ne_nil c xs)
      · rename_i hs; simp [hs]

end Mabel.Py
