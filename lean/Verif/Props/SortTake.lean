import Verif.Lemmas.SqlReader

/-! # C32 for records with every type of value -/

namespace Mabel.SortTake
open Mabel.Py Mabel.Filters Mabel.SqlReader Mabel.SqlReader.Spec
open Mabel.DictSet (StorageClass)

/-- **C32**: however a set is held, `sort_and_take` gives the first records of the whole set in the order of the column, if its values can
be compared; records without a value come first (last if descending), and equal ones keep their order. -/
theorem C32_rows (sc : StorageClass) (column : Str) (n : Nat) (descending : Bool) (l : List Row) (h : Comparable column l) :
    ∃ s, Ordered column descending l s ∧ sortAndTake sc column descending (n : Int) l = .ok (s.take n) :=
  ⟨_, sorted_ordered descending h, sortAndTake_nat sc (keysCompare_of h)
    (DictSet.directed_preorder (DictSet.keyLe_preorder datumLe_preorder _) _) n⟩

/-- **C32**: if some two values of the column cannot be compared, `sort_and_take` of a set in memory raises TypeError; so does that of
any set, if it has at most about twice as many records as are to be taken. -/
theorem C32_mixed_refused (sc : StorageClass) (column : Str) (n : Nat) (descending : Bool) (l : List Row)
    (hsc : sc = .memory ∨ l.length ≤ max (n * 2) 1 + 1)
    (h : ∃ a ∈ l, ∃ b ∈ l, ∃ s t, value column a = some (.one s) ∧ value column b = some (.one t) ∧ ¬ Order.Comparable s t) :
    sortAndTake sc column descending (n : Int) l = .error .typeError := by
  obtain ⟨a, ha, b, hb, s, t, h1, h2, h3⟩ := h
  have hne : a ≠ b := by
    rintro rfl
    rw [h1] at h2
    cases h2
    exact h3 (value_self h1)
  have hk : ¬ OneKind column a b := fun hk => by
    rcases hk _ _ h1 h2 with ⟨s', t', e1, e2, h⟩ | ⟨l, m, e1, _⟩
    · cases e1; cases e2; exact h3 h
    · cases e1
  rcases hsc with rfl | hl
  · show (sortRecords column descending l).map _ = _
    rw [sortRecords_mixed ⟨a, ha, b, hb, hne, hk⟩]
    rfl
  · exact sortAndTake_mixed (by omega) ⟨a, ha, b, hb, hne, hk⟩

/-- A column with a number and a text among many records without a value. -/
def scattered : List Row :=
  let nothing : Row := []
  [[("a".toList, .one (.int 3))], nothing, nothing, nothing, [("a".toList, .one (.str "x".toList))], nothing]

/-- **C32** (fails for values that cannot be compared): the same set gives a record if it is not held in memory, and raises if it is. -/
theorem C32_mixed_fails : sortAndTake .noPersistance "a".toList false 1 scattered = .ok [[]] ∧
    sortAndTake .disk "a".toList false 1 scattered = .ok [[]] ∧ sortAndTake .memory "a".toList false 1 scattered = .error .typeError := by
  decide +kernel

/-! ## A concrete set: numbers of three kinds, and a record without a value -/

def demo : List Row := [[("a".toList, .one (.int 3))], [("a".toList, .one (.bool true))], [], [("a".toList, .one (.float (1 / 2)))],
  [("a".toList, .one (.int 1))]]

theorem demo_comparable : Comparable "a".toList demo := by
  have hn : ∀ r ∈ demo, ∀ x, value "a".toList r = some x → ∃ s p, x = .one s ∧ Order.Amount s p := by
    intro r hr x hx
    simp only [demo, List.mem_cons, List.not_mem_nil, or_false] at hr
    rcases hr with rfl | rfl | rfl | rfl | rfl <;> cases hx
    · exact ⟨_, _, rfl, .whole 3⟩
    · exact ⟨_, _, rfl, .yes⟩
    · exact ⟨_, _, rfl, .fraction _⟩
    · exact ⟨_, _, rfl, .whole 1⟩
  intro a ha b hb x y hx hy
  obtain ⟨s, p, rfl, h1⟩ := hn a ha x hx
  obtain ⟨t, q, rfl, h2⟩ := hn b hb y hy
  exact ⟨s, t, rfl, rfl, .number h1 h2⟩

/-- Non-vacuity of `C32_rows`, and what it gives: true and 1 are equal and keep their order. -/
example (sc : StorageClass) : (∃ s, Ordered "a".toList false demo s ∧ sortAndTake sc "a".toList false (4 : Nat) demo = .ok (s.take 4)) ∧
    sortAndTake .memory "a".toList false 4 demo = .ok [[], [("a".toList, .one (.float (1 / 2)))], [("a".toList, .one (.bool true))],
      [("a".toList, .one (.int 1))]] :=
  ⟨C32_rows sc "a".toList 4 false demo demo_comparable, by decide +kernel⟩

/-- Non-vacuity of `C32_mixed_refused`. -/
example : sortAndTake .memory "a".toList true (1 : Nat) scattered = .error .typeError :=
  C32_mixed_refused .memory "a".toList 1 true scattered (.inl rfl)
    ⟨[("a".toList, .one (.int 3))], by simp [scattered], [("a".toList, .one (.str "x".toList))], by simp [scattered], .int 3, .str "x".toList, rfl, rfl, by
      intro h
      cases h with
      | number _ h => cases h⟩

end Mabel.SortTake
