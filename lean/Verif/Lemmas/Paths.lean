import Verif.Lemmas.Str
import Verif.Lemmas.Num
import Verif.Model.Paths

/-! # Facts about paths -/

namespace Mabel.Py

theorem split_of_not_mem {c : Char} {s : Str} (h : c ∉ s) : split c s = [s] := by
  induction s with
  | nil => rfl
  | cons x xs ih =>
    simp only [List.mem_cons, not_or] at h
    rw [split, if_neg (fun e => h.1 e.symm), ih h.2]

theorem split_append {c : Char} {p : Str} (h : c ∉ p) (s : Str) :
    split c (p ++ c :: s) = p :: split c s := by
  induction p with
  | nil => simp [split]
  | cons x xs ih =>
    simp only [List.mem_cons, not_or] at h
    rw [List.cons_append, split, if_neg (fun e => h.1 e.symm), ih h.2]

/-- Joining with a separator and splitting again gives the parts back. -/
theorem split_join {c : Char} {l : List Str} (hne : l ≠ []) (h : ∀ p ∈ l, c ∉ p) :
    split c (join [c] l) = l := by
  induction l with
  | nil => exact absurd rfl hne
  | cons p l ih =>
    cases l with
    | nil => simp only [join]; exact split_of_not_mem (h p (by simp))
    | cons q l =>
      simp only [join, List.append_assoc, List.singleton_append]
      rw [split_append (h p (by simp)), ih (by simp) (fun r hr => h r (by simp [hr]))]

/-- Splitting at a separator and joining again gives the text back. -/
theorem join_split (c : Char) (s : Str) : join [c] (split c s) = s := by
  induction s with
  | nil => rfl
  | cons x xs ih =>
    rw [split]
    split
    · rename_i h
      subst h
      cases hs : split x xs with
      | nil => exact absurd hs (split_ne_nil x xs)
      | cons p ps =>
        rw [hs] at ih
        simp only [join, List.nil_append, List.singleton_append, List.cons.injEq, true_and]
        exact ih
    · split
      · rename_i hs; exact absurd hs (split_ne_nil c xs)
      · rename_i p ps hs
        rw [hs] at ih
        cases ps with
        | nil => simp only [join] at ih ⊢; rw [ih]
        | cons q ps => simp only [join, List.cons_append] at ih ⊢; rw [ih]

end Mabel.Py

namespace Mabel.Paths
open Mabel.Py

/-- A component of a path in canonical form. -/
def Comp (c : Str) : Prop := c ≠ [] ∧ c ≠ ['.'] ∧ '/' ∉ c

theorem filter_comps {l : List Str} (h : ∀ c ∈ l, Comp c) :
    l.filter (fun c => c != [] && c != ['.']) = l := by
  rw [List.filter_eq_self]
  intro c hc
  have := h c hc
  simp [this.1, this.2.1]

theorem head_join {c : Str} {l : List Str} (hc : Comp c) : ∀ x ∈ (join ['/'] (c :: l)).head?, x ≠ '/' := by
  intro x hx
  cases c with
  | nil => exact absurd rfl hc.1
  | cons a c =>
    have : x = a := by
      cases l <;> simpa [join] using hx.symm
    subst this
    rintro rfl
    exact hc.2.2 (by simp)

theorem parse_join {l : List Str} (hne : l ≠ []) (h : ∀ c ∈ l, Comp c) :
    Posix.parse (join ['/'] l) = ⟨[], l⟩ := by
  have hs : split '/' (join ['/'] l) = l := split_join hne (fun p hp => (h p hp).2.2)
  cases l with
  | nil => exact absurd rfl hne
  | cons c l =>
    have hh := head_join (l := l) (h c (by simp))
    unfold Posix.parse
    rw [hs, filter_comps h]
    generalize join ['/'] (c :: l) = t at hh
    split
    · exact absurd rfl (hh '/' (by simp))
    · exact absurd rfl (hh '/' (by simp))
    · exact absurd rfl (hh '/' (by simp))
    · rfl

theorem rsplitDot_none {s : Str} (h : '.' ∉ s) : rsplitDot s = none := by
  induction s with
  | nil => rfl
  | cons c s ih =>
    simp only [List.mem_cons, not_or] at h
    have h1 : c ≠ '.' := fun e => h.1 e.symm
    simp [rsplitDot, ih h.2, h1]

theorem rsplitDot_append (a : Str) {e : Str} (h : '.' ∉ e) :
    rsplitDot (a ++ '.' :: e) = some (a, '.' :: e) := by
  induction a with
  | nil => simp [rsplitDot, rsplitDot_none h]
  | cons c a ih => simp [rsplitDot, ih]

theorem suffixOf_append {a e : Str} (ha : a ≠ []) (he : e ≠ []) (h : '.' ∉ e) :
    suffixOf (a ++ '.' :: e) = '.' :: e ∧ stemOf (a ++ '.' :: e) = a := by
  have : 0 < e.length := List.length_pos_iff.2 he
  unfold suffixOf stemOf
  rw [rsplitDot_append a h]
  simp only [List.length_cons]
  constructor
  · rw [if_pos ⟨ha, by omega⟩]
  · rw [if_pos ⟨ha, by omega⟩]

theorem suffixOf_none {s : Str} (h : '.' ∉ s) : suffixOf s = [] ∧ stemOf s = s := by
  unfold suffixOf stemOf
  rw [rsplitDot_none h]
  exact ⟨rfl, rfl⟩

/-- A name without a suffix is its own stem; one with a suffix is stem and suffix. -/
theorem stem_suffix (s : Str) : stemOf s ++ suffixOf s = s := by
  have key : ∀ s : Str, ∀ a b, rsplitDot s = some (a, b) → a ++ b = s := by
    intro s
    induction s with
    | nil => intro a b h; simp [rsplitDot] at h
    | cons c s ih =>
      intro a b h
      rw [rsplitDot] at h
      split at h
      · rename_i x y hxy
        simp only [Option.some.injEq, Prod.mk.injEq] at h
        rw [← h.1, ← h.2, List.cons_append, ih _ _ hxy]
      · split at h
        · simp only [Option.some.injEq, Prod.mk.injEq] at h
          rw [← h.1, ← h.2]; rfl
        · exact absurd h (by simp)
  unfold stemOf suffixOf
  split
  · rename_i a b h
    split
    · exact key s a b h
    · simp
  · simp

theorem join_snoc (l : List Str) (x : Str) (h : l ≠ []) :
    join ['/'] (l ++ [x]) = join ['/'] l ++ '/' :: x := by
  induction l with
  | nil => exact absurd rfl h
  | cons p l ih =>
    cases l with
    | nil => simp [join]
    | cons q l => simp only [List.cons_append, join, List.append_assoc] at ih ⊢; rw [ih (by simp)]

theorem join_cons (p : Str) (l : List Str) (h : l ≠ []) :
    join ['/'] (p :: l) = p ++ '/' :: join ['/'] l := by
  cases l with
  | nil => exact absurd rfl h
  | cons q l => simp [join]

/-! ## Templates -/

/-- What a replacement of one token does to the text of a literal and of another token. -/
theorem replaceGo_lit {tok new : Str} (s rest : Str) (h : '{' ∉ s) :
    replaceGo ('{' :: tok) new 0 (s ++ rest) = s ++ replaceGo ('{' :: tok) new 0 rest := by
  induction s with
  | nil => rfl
  | cons c s ih =>
    simp only [List.mem_cons, not_or] at h
    simp only [List.cons_append, replaceGo]
    rw [if_neg, ih h.2]
    simp [List.isPrefixOf, h.1]

theorem replaceGo_skip {old new : Str} (a rest : Str) :
    replaceGo old new a.length (a ++ rest) = replaceGo old new 0 rest := by
  induction a with
  | nil => rfl
  | cons c a ih => simp only [List.length_cons, List.cons_append, replaceGo]; exact ih

theorem replaceGo_tok {tok new : Str} (rest : Str) :
    replaceGo ('{' :: tok) new 0 ('{' :: tok ++ rest) = new ++ replaceGo ('{' :: tok) new 0 rest := by
  rw [List.cons_append, replaceGo, if_pos (isPrefixOf_iff.2 ⟨rest, by simp⟩)]
  simp only [List.length_cons, Nat.add_sub_cancel]
  rw [replaceGo_skip]

theorem replaceGo_other {x y : Char} {tok tok' new : Str} (rest : Str) (hxy : x ≠ y) (h : '{' ∉ y :: tok') :
    replaceGo ('{' :: x :: tok) new 0 ('{' :: y :: tok' ++ rest)
      = '{' :: y :: tok' ++ replaceGo ('{' :: x :: tok) new 0 rest := by
  rw [List.cons_append, replaceGo, if_neg (by simp [List.isPrefixOf, hxy]),
    replaceGo_lit (y :: tok') rest h]
  simp

end Mabel.Paths
