import Verif.Lemmas.Sort

/-! String ordering, and sorting permuted lists. -/

namespace Mabel.Py

theorem strLe_preorder : TotalPreorder strLe where
  total a b := by
    simp only [strLe, decide_eq_true_eq]
    exact List.le_total a b
  trans a b c h1 h2 := by
    simp only [strLe, decide_eq_true_eq] at *
    exact List.le_trans h1 h2

theorem strLe_antisymm {a b : Str} (h1 : strLe a b = true) (h2 : strLe b a = true) : a = b := by
  simp only [strLe, decide_eq_true_eq] at *
  exact List.le_antisymm h1 h2

/-- The sorted list depends only on the elements when ties are equal elements. -/
theorem sorted_eq_of_perm {α : Type _} {le : α → α → Bool} (h : TotalPreorder le) {l1 l2 : List α}
    (hp : l1.Perm l2) (ha : ∀ a ∈ l1, ∀ b ∈ l1, le a b = true → le b a = true → a = b) :
    sorted le l1 = sorted le l2 := by
  refine List.Perm.eq_of_pairwise (le := fun a b => le a b = true) ?_ (sorted_pairwise h l1)
    (sorted_pairwise h l2) ((sorted_perm le l1).trans (hp.trans (sorted_perm le l2).symm))
  intro a b ha1 hb1 h1 h2
  exact ha a (mem_sorted.1 ha1) b (hp.mem_iff.2 (mem_sorted.1 hb1)) h1 h2

end Mabel.Py
