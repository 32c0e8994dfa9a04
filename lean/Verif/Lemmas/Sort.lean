import Verif.Py.Basic
import Mathlib.Data.List.Perm.Basic
import Mathlib.Data.List.Pairwise

/-! Facts about the stable sort `Py.sorted`. -/

namespace Mabel.Py
variable {α : Type _}

/-- A comparison that is a total preorder, as the key comparisons of Python's sorts are. -/
structure TotalPreorder (le : α → α → Bool) : Prop where
  total : ∀ a b, le a b = true ∨ le b a = true
  trans : ∀ a b c, le a b = true → le b c = true → le a c = true

theorem TotalPreorder.refl {le : α → α → Bool} (h : TotalPreorder le) (a : α) : le a a = true := by
  rcases h.total a a with h | h <;> exact h

theorem TotalPreorder.flip {le : α → α → Bool} (h : TotalPreorder le) :
    TotalPreorder (fun a b => le b a) :=
  ⟨fun a b => h.total b a, fun a b c h1 h2 => h.trans c b a h2 h1⟩

theorem insertBy_perm (le : α → α → Bool) (x : α) (l : List α) :
    (insertBy le x l).Perm (x :: l) := by
  induction l with
  | nil => exact List.Perm.refl _
  | cons y ys ih =>
    simp only [insertBy]
    split
    · exact List.Perm.refl _
    · exact (ih.cons y).trans (List.Perm.swap x y ys)

theorem sorted_perm (le : α → α → Bool) (l : List α) : (sorted le l).Perm l := by
  induction l with
  | nil => exact List.Perm.refl _
  | cons x xs ih => exact (insertBy_perm le x _).trans (ih.cons x)

@[simp] theorem mem_sorted {le : α → α → Bool} {l : List α} {x : α} : x ∈ sorted le l ↔ x ∈ l :=
  (sorted_perm le l).mem_iff

@[simp] theorem length_sorted {le : α → α → Bool} {l : List α} : (sorted le l).length = l.length :=
  (sorted_perm le l).length_eq

theorem mem_insertBy {le : α → α → Bool} {x y : α} {l : List α} :
    y ∈ insertBy le x l ↔ y = x ∨ y ∈ l := by
  rw [(insertBy_perm le x l).mem_iff, List.mem_cons]

theorem insertBy_pairwise {le : α → α → Bool} (h : TotalPreorder le) (x : α) (l : List α)
    (hl : l.Pairwise (fun a b => le a b = true)) :
    (insertBy le x l).Pairwise (fun a b => le a b = true) := by
  induction l with
  | nil => simp [insertBy]
  | cons y ys ih =>
    rw [List.pairwise_cons] at hl
    simp only [insertBy]
    split
    · rename_i hxy
      refine List.Pairwise.cons ?_ (List.Pairwise.cons hl.1 hl.2)
      intro z hz
      rcases List.mem_cons.1 hz with rfl | hz
      · exact hxy
      · exact h.trans _ _ _ hxy (hl.1 z hz)
    · rename_i hxy
      refine List.Pairwise.cons ?_ (ih hl.2)
      intro z hz
      rcases mem_insertBy.1 hz with rfl | hz
      · exact (h.total z y).resolve_left hxy
      · exact hl.1 z hz

theorem sorted_pairwise {le : α → α → Bool} (h : TotalPreorder le) (l : List α) :
    (sorted le l).Pairwise (fun a b => le a b = true) := by
  induction l with
  | nil => exact List.Pairwise.nil
  | cons x xs ih => exact insertBy_pairwise h x _ ih

/-- Sorting a sorted list changes nothing. -/
theorem sorted_of_pairwise {le : α → α → Bool} (l : List α)
    (hl : l.Pairwise (fun a b => le a b = true)) : sorted le l = l := by
  induction l with
  | nil => rfl
  | cons x xs ih =>
    rw [List.pairwise_cons] at hl
    simp only [sorted, ih hl.2]
    cases xs with
    | nil => rfl
    | cons y ys => simp [insertBy, hl.1 y (by simp)]

/-- Inserting before the first not-smaller element keeps the elements of each tie class in order. -/
theorem insertBy_filter {le : α → α → Bool} (x : α) (l : List α)
    (p : α → Bool) (hp : ∀ a b, p a = true → p b = true → le a b = true) :
    (insertBy le x l).filter p = (x :: l).filter p := by
  induction l with
  | nil => rfl
  | cons y ys ih =>
    simp only [insertBy]
    split
    · rfl
    · rename_i hxy
      by_cases hx : p x = true
      · have hy : ¬ p y = true := fun hy => hxy (hp x y hx hy)
        simp [hy, hx] at ih ⊢
        exact ih
      · simp [List.filter_cons, hx] at ih ⊢
        simp [ih]

/-- Stability: any class of mutually tied elements keeps its original order. -/
theorem sorted_stable {le : α → α → Bool} (l : List α)
    (p : α → Bool) (hp : ∀ a b, p a = true → p b = true → le a b = true) :
    (sorted le l).filter p = l.filter p := by
  induction l with
  | nil => rfl
  | cons x xs ih =>
    rw [sorted, insertBy_filter x _ p hp]
    simp [List.filter_cons, ih]

/-- Stable merge, ties to the left. -/
def merge (le : α → α → Bool) : List α → List α → List α
  | [], b => b
  | x :: a, b => go x a b (merge le a)
where
  go (x : α) (a : List α) : List α → (List α → List α) → List α
  | [], _ => x :: a
  | y :: b, k => if le x y then x :: k (y :: b) else y :: go x a b k

theorem merge_cons_nil (le : α → α → Bool) (x : α) (a : List α) : merge le (x :: a) [] = x :: a := rfl

theorem merge_nil (le : α → α → Bool) (a : List α) : merge le a [] = a := by cases a <;> rfl

theorem merge_cons_cons (le : α → α → Bool) (x y : α) (a b : List α) :
    merge le (x :: a) (y :: b) =
      if le x y then x :: merge le a (y :: b) else y :: merge le (x :: a) b := rfl

theorem insertBy_eq_merge (le : α → α → Bool) (x : α) (b : List α) :
    insertBy le x b = merge le [x] b := by
  induction b with
  | nil => rfl
  | cons y b ih => rw [merge_cons_cons, insertBy, ih]; rfl

theorem insertBy_merge {le : α → α → Bool} (h : TotalPreorder le) (x : α) (a b : List α) :
    insertBy le x (merge le a b) = merge le (insertBy le x a) b := by
  induction a generalizing b with
  | nil => exact insertBy_eq_merge le x b
  | cons y a iha =>
    induction b with
    | nil => rw [merge_nil, merge_nil]
    | cons z b ihb =>
      by_cases hxy : le x y = true
      · by_cases hxz : le x z = true
        · have e : insertBy le x (y :: a) = x :: y :: a := by simp [insertBy, hxy]
          rw [e, merge_cons_cons le x z, if_pos hxz, merge_cons_cons le y z]
          split <;> simp [insertBy, hxy, hxz]
        · have e : insertBy le x (y :: a) = x :: y :: a := by simp [insertBy, hxy]
          have hyz : ¬ le y z = true := fun hyz => hxz (h.trans _ _ _ hxy hyz)
          rw [e] at ihb ⊢
          rw [merge_cons_cons le x z, if_neg hxz, merge_cons_cons le y z, if_neg hyz, ← ihb]
          simp [insertBy, hxz]
      · have e : insertBy le x (y :: a) = y :: insertBy le x a := by simp [insertBy, hxy]
        rw [e] at ihb ⊢
        rw [merge_cons_cons le y z, merge_cons_cons le y z]
        by_cases hyz : le y z = true
        · rw [if_pos hyz, if_pos hyz, ← iha]
          simp [insertBy, hxy]
        · rw [if_neg hyz, if_neg hyz, ← ihb]
          have hxz : ¬ le x z = true := by
            intro hxz
            have hzy := (h.total z y).resolve_right hyz
            exact hxy (h.trans _ _ _ hxz hzy)
          simp [insertBy, hxz]

theorem sorted_append {le : α → α → Bool} (h : TotalPreorder le) (a b : List α) :
    sorted le (a ++ b) = merge le (sorted le a) (sorted le b) := by
  induction a with
  | nil => rfl
  | cons x a ih => rw [List.cons_append, sorted, sorted, ih, insertBy_merge h]

theorem take_merge (le : α → α → Bool) (n : Nat) (a b : List α) :
    (merge le a b).take n = (merge le (a.take n) b).take n := by
  induction n generalizing a b with
  | zero => simp
  | succ n ih =>
    cases a with
    | nil => simp
    | cons x a =>
      simp only [List.take_succ_cons]
      induction b with
      | nil => simp [merge_cons_nil, List.take_take]
      | cons y b ihb =>
        rw [merge_cons_cons, merge_cons_cons]
        split
        · simp only [List.take_succ_cons]
          rw [ih a (y :: b)]
        · simp only [List.take_succ_cons]
          congr 1
          have h1 := ih (x :: a) b
          rw [h1]
          have h2 := ih (x :: List.take n a) b
          rw [h2]
          cases n with
          | zero => rfl
          | succ m => simp [List.take_succ_cons, List.take_take]

/-- The bounded-cache step: dropping all but the first `n` of a sorted part never changes the first
`n` of the whole. -/
theorem take_sorted_take {le : α → α → Bool} (h : TotalPreorder le) (n : Nat) (a b : List α) :
    (sorted le ((sorted le a).take n ++ b)).take n = (sorted le (a ++ b)).take n := by
  rw [sorted_append h, sorted_append h, take_merge le n (sorted le a)]
  rw [sorted_of_pairwise (List.take n (sorted le a))]
  exact (sorted_pairwise h a).sublist (List.take_sublist _ _)

end Mabel.Py
