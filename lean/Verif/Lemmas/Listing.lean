import Verif.Lemmas.Paths
import Verif.Lemmas.Sort
import Verif.Lemmas.StrOrder
import Verif.Model.Listing
import Mathlib.Data.List.Nodup

/-! # Facts about listing blobs -/

namespace Mabel.Py

/-- An occurrence of a text without slashes lies on one side of a slash. -/
theorem occ_slash {sub a b x y : Str} (hne : sub ≠ []) (hs : '/' ∉ sub)
    (h : a ++ '/' :: b = x ++ sub ++ y) :
    (∃ w, a = x ++ sub ++ w) ∨ (∃ w, x = a ++ '/' :: w ∧ b = w ++ sub ++ y) := by
  rw [List.append_assoc] at h
  rcases List.append_eq_append_iff.1 h with ⟨c, h1, h2⟩ | ⟨c, h1, h2⟩
  · right
    cases c with
    | nil =>
      cases sub with
      | nil => exact absurd rfl hne
      | cons s sub =>
        simp only [List.nil_append, List.cons_append, List.cons.injEq] at h2
        exact absurd (by rw [← h2.1]; simp) hs
    | cons z c =>
      simp only [List.cons_append, List.cons.injEq] at h2
      exact ⟨c, by rw [h1, ← h2.1], by rw [h2.2, List.append_assoc]⟩
  · left
    rcases List.append_eq_append_iff.1 h2 with ⟨d, h3, h4⟩ | ⟨d, h3, h4⟩
    · cases d with
      | nil => exact ⟨[], by rw [h1, h3]; simp⟩
      | cons z d =>
        simp only [List.cons_append, List.cons.injEq] at h4
        exact ⟨z :: d, by rw [h1, h3]; simp⟩
    · cases d with
      | nil => exact ⟨[], by rw [h1, h3]; simp⟩
      | cons z d =>
        simp only [List.cons_append, List.cons.injEq] at h4
        exact absurd (by rw [h3, ← h4.1]; simp) hs

theorem contains_slash {sub a b : Str} (hne : sub ≠ []) (hs : '/' ∉ sub) :
    contains sub (a ++ '/' :: b) = true ↔ contains sub a = true ∨ contains sub b = true := by
  simp only [contains_iff]
  constructor
  · rintro ⟨x, y, h⟩
    rcases occ_slash hne hs h with ⟨w, h⟩ | ⟨w, _, h⟩
    · exact Or.inl ⟨_, _, h⟩
    · exact Or.inr ⟨_, _, h⟩
  · rintro (⟨x, y, h⟩ | ⟨x, y, h⟩)
    · exact ⟨x, y ++ '/' :: b, by rw [h]; simp⟩
    · exact ⟨a ++ '/' :: x, y, by rw [h]; simp⟩

theorem contains_false {sub s : Str} : contains sub s = false ↔ ¬ ∃ a b, s = a ++ sub ++ b := by
  rw [← contains_iff]; simp

/-- Two texts up to their first slash. -/
theorem slash_inj {a b x y : Str} (ha : '/' ∉ a) (hb : '/' ∉ b) (h : a ++ '/' :: x = b ++ '/' :: y) :
    a = b ∧ x = y := by
  induction a generalizing b with
  | nil =>
    cases b with
    | nil => simpa using h
    | cons c b =>
      simp only [List.nil_append, List.cons_append, List.cons.injEq] at h
      exact absurd (by rw [← h.1]; simp) hb
  | cons d a ih =>
    cases b with
    | nil =>
      simp only [List.nil_append, List.cons_append, List.cons.injEq] at h
      exact absurd (by rw [h.1]; simp) ha
    | cons c b =>
      simp only [List.cons_append, List.cons.injEq] at h
      simp only [List.mem_cons, not_or] at ha hb
      obtain ⟨e1, e2⟩ := ih ha.2 hb.2 h.2
      exact ⟨by rw [h.1, e1], e2⟩

theorem prefix_slash {a b x y : Str} (ha : '/' ∉ a) (h : a ++ x = b ++ '/' :: y) : a <+: b := by
  rcases List.append_eq_append_iff.1 h with ⟨c, h1, h2⟩ | ⟨c, h1, h2⟩
  · exact ⟨c, h1.symm⟩
  · cases c with
    | nil => exact ⟨[], by rw [h1]; simp⟩
    | cons z c =>
      simp only [List.cons_append, List.cons.injEq] at h2
      exact absurd (by rw [h1, ← h2.1]; simp) ha

theorem split_slash (c : Char) (a b : Str) : split c (a ++ c :: b) = split c a ++ split c b := by
  induction a with
  | nil => simp [split]
  | cons x a ih =>
    rw [List.cons_append, split, split]
    split
    · rw [ih, List.cons_append]
    · rw [ih]
      cases hs : split c a with
      | nil => exact absurd hs (split_ne_nil c a)
      | cons p ps => rfl

theorem mem_split_contains {c : Char} {p s : Str} (h : p ∈ split c s) : contains p s = true := by
  induction s generalizing p with
  | nil => simp only [split, List.mem_singleton] at h; subst h; rfl
  | cons x s ih =>
    rw [split] at h
    split at h
    · rcases List.mem_cons.1 h with rfl | h
      · exact contains_iff.2 ⟨[], x :: s, rfl⟩
      · exact contains_append_right [x] (ih h)
    · cases hs : split c s with
      | nil => exact absurd hs (split_ne_nil c s)
      | cons q qs =>
        rw [hs] at h
        rcases List.mem_cons.1 h with rfl | h
        · have hj := join_split c s
          rw [hs] at hj
          refine contains_iff.2 ⟨[], ?_⟩
          cases qs with
          | nil => exact ⟨[], by simp only [join] at hj; simp [hj]⟩
          | cons r qs =>
            refine ⟨[c] ++ join [c] (r :: qs), ?_⟩
            simp only [join] at hj ⊢
            rw [← hj]; simp
        · exact contains_append_right [x] (ih (by rw [hs]; exact List.mem_cons_of_mem _ h))

theorem not_mem_split {c : Char} {p s : Str} (h : p ∈ split c s) : c ∉ p := by
  induction s generalizing p with
  | nil => simp only [split, List.mem_singleton] at h; subst h; simp
  | cons x s ih =>
    rw [split] at h
    split at h
    · rcases List.mem_cons.1 h with rfl | h
      · simp
      · exact ih h
    · rename_i hx
      cases hs : split c s with
      | nil => exact absurd hs (split_ne_nil c s)
      | cons q qs =>
        rw [hs] at h ih
        rcases List.mem_cons.1 h with rfl | h
        · simp only [List.mem_cons, not_or]
          exact ⟨fun e => hx e.symm, ih (by simp)⟩
        · exact ih (by simp [h])

theorem dedup_mem {α : Type _} [DecidableEq α] {l : List α} {x : α} : x ∈ dedup l ↔ x ∈ l := by
  induction l with
  | nil => simp [dedup]
  | cons y l ih =>
    simp only [dedup, List.mem_cons, List.mem_filter, ih, decide_eq_true_eq]
    by_cases h : x = y <;> simp [h]

theorem dedup_nodup {α : Type _} [DecidableEq α] (l : List α) : (dedup l).Nodup := by
  induction l with
  | nil => simp [dedup]
  | cons y l ih =>
    simp only [dedup, List.nodup_cons, List.mem_filter]
    exact ⟨by simp, ih.filter _⟩

theorem dedup_eq_nil {α : Type _} [DecidableEq α] {l : List α} : dedup l = [] ↔ l = [] := by
  cases l with
  | nil => simp [dedup]
  | cons y l => simp [dedup]

end Mabel.Py

namespace Mabel.Listing
open Mabel.Py

theorem pickFrame_eq_find (blobs l : List Str) :
    pickFrame blobs l = l.find? (fun f => isComplete f blobs && !isInvalid f blobs) := by
  induction l with
  | nil => rfl
  | cons f fs ih =>
    rw [pickFrame, List.find?_cons]
    cases isComplete f blobs <;> cases isInvalid f blobs <;> simp [ih]

/-- The first element of a descending list that satisfies a predicate is the greatest that does. -/
theorem find_greatest {p : Str → Bool} {l : List Str} {f : Str}
    (hf : f ∈ l) (hp : p f = true) (hmax : ∀ g ∈ l, p g = true → strLe g f = true) :
    (sorted strLe l).reverse.find? p = some f := by
  have hd : (sorted strLe l).reverse.Pairwise (fun a b => strLe b a = true) := by
    rw [List.pairwise_reverse]
    exact sorted_pairwise strLe_preorder l
  have hf' : f ∈ (sorted strLe l).reverse := by simpa using hf
  have hm' : ∀ g ∈ (sorted strLe l).reverse, p g = true → strLe g f = true := by
    intro g hg; exact hmax g (by simpa using hg)
  generalize (sorted strLe l).reverse = r at hd hf' hm'
  induction r with
  | nil => simp at hf'
  | cons a r ih =>
    rw [List.find?_cons]
    cases hpa : p a with
    | true =>
      simp only [Option.some.injEq]
      rcases List.mem_cons.1 hf' with e | hr
      · exact e.symm
      · exact strLe_antisymm (hm' a (by simp) hpa) ((List.pairwise_cons.1 hd).1 f hr)
    | false =>
      simp only
      rcases List.mem_cons.1 hf' with e | hr
      · rw [e, hpa] at hp; simp at hp
      · exact ih (List.pairwise_cons.1 hd).2 hr (fun g hg => hm' g (by simp [hg]))

end Mabel.Listing
