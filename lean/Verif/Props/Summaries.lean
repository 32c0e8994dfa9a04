import Verif.Model.Summaries
import Verif.Lemmas.Order
import Mathlib.Tactic.Linarith

/-! # C36 for records with every type of value -/

namespace Mabel.Summaries
open Mabel.Py Mabel.Filters Mabel.Order

/-- The values of a column: of the records that have it, in their order.  -/
inductive Column (key : Str) : List Row → List Datum → Prop
  | nil : Column key [] []
  | has {r : Row} {v rows vs} : r.lookup key = some v → Column key rows vs → Column key (r :: rows) (v :: vs)
  | lacks {r : Row} {rows vs} : (∀ v, (key, v) ∉ r) → Column key rows vs → Column key (r :: rows) vs

theorem lookup_none {r : Row} {key : Str} (h : ∀ v, (key, v) ∉ r) : r.lookup key = none := by
  unfold Row.lookup
  rw [Option.map_eq_none_iff, List.find?_eq_none]
  rintro ⟨k, v⟩ hm he
  have : k = key := by simpa using he
  exact h v (this ▸ hm)

theorem collect_of {key : Str} {rows : List Row} {vs : List Datum} (h : Column key rows vs) : collectList key rows = vs := by
  unfold collectList
  induction h with
  | nil => rfl
  | has h1 _ ih => rw [List.filterMap_cons, h1, ih]
  | lacks h1 _ ih => rw [List.filterMap_cons, lookup_none h1, ih]

/-- **C36**: the collected column is the values of the records that have it, in their order. -/
theorem C36_column (key : Str) (rows : List Row) (vs : List Datum) : collectList key rows = vs ↔ Column key rows vs := by
  refine ⟨?_, collect_of⟩
  rintro rfl
  unfold collectList
  induction rows with
  | nil => exact .nil
  | cons r rows ih =>
    rw [List.filterMap_cons]
    cases h : r.lookup key with
    | some v => exact .has h ih
    | none =>
      refine .lacks (fun v hm => ?_) ih
      unfold Row.lookup at h
      rw [Option.map_eq_none_iff, List.find?_eq_none] at h
      simpa using h _ hm

/-! ## keys -/

theorem itakeFrom_eq (items : Int) (rows : List Row) : ∀ count : Nat, (count : Int) < items →
    itakeFrom items count rows = rows.take (items - count).toNat := by
  induction rows with
  | nil => intro _ _; simp [itakeFrom]
  | cons x xs ih =>
    intro count h
    unfold itakeFrom
    split
    · rename_i he
      have : (items - count).toNat = 1 := by omega
      rw [this]; rfl
    · rename_i hne
      rw [ih (count + 1) (by omega)]
      have : (items - count).toNat = (items - (count + 1 : Nat)).toNat + 1 := by omega
      rw [this]; rfl

theorem gather_from (rows : List Row) : ∀ x : List Str, x.Nodup → (∀ r ∈ rows, (r.map (·.1)).Nodup) →
    (rows.foldl (fun x y => x ++ ((y.map (·.1)).filter fun a => !x.contains a)) x).Nodup ∧
    ∀ k, k ∈ rows.foldl (fun x y => x ++ ((y.map (·.1)).filter fun a => !x.contains a)) x ↔
      k ∈ x ∨ ∃ r ∈ rows, ∃ v, (k, v) ∈ r := by
  induction rows with
  | nil => intro x hx _; simp [hx]
  | cons r rows ih =>
    intro x hx hr
    rw [List.foldl_cons]
    have hd : (x ++ ((r.map (·.1)).filter fun a => !x.contains a)).Nodup := by
      rw [List.nodup_append]
      refine ⟨hx, (hr r (List.mem_cons_self ..)).filter _, ?_⟩
      intro a ha b hb e
      subst e
      have := (List.mem_filter.1 hb).2
      simp [ha] at this
    obtain ⟨h1, h2⟩ := ih _ hd (fun r h => hr r (List.mem_cons_of_mem _ h))
    refine ⟨h1, fun k => ?_⟩
    rw [h2, List.mem_append, List.mem_filter]
    constructor
    · rintro ((h | ⟨h, _⟩) | ⟨r', h, h'⟩)
      · exact .inl h
      · obtain ⟨⟨k', v⟩, hm, rfl⟩ := List.mem_map.1 h
        exact .inr ⟨r, List.mem_cons_self .., v, hm⟩
      · exact .inr ⟨r', List.mem_cons_of_mem _ h, h'⟩
    · rintro (h | ⟨r', h, v, h'⟩)
      · exact .inl (.inl h)
      · rcases List.mem_cons.1 h with rfl | h
        · by_cases hk : k ∈ x
          · exact .inl (.inl hk)
          · exact .inl (.inr ⟨List.mem_map.2 ⟨_, h', rfl⟩, by simpa using hk⟩)
        · exact .inr ⟨r', h, v, h'⟩

/-- **C36**: `keys` lists each field once, and exactly the fields of the records it was asked to look at: the first ones, or all. -/
theorem C36_keys_of (n : Int) (rows : List Row) (hr : ∀ r ∈ rows, (r.map (·.1)).Nodup) :
    (keys n rows).Nodup ∧ ∀ k, k ∈ keys n rows ↔ ∃ (i : Nat) (r : Row), rows[i]? = some r ∧ (0 < n → (i : Int) < n) ∧ ∃ v, (k, v) ∈ r := by
  unfold keys
  split
  · rename_i hn
    rw [itakeFrom_eq n rows 0 (by simpa using hn)]
    obtain ⟨h1, h2⟩ := gather_from (rows.take (n - (0 : Nat)).toNat) [] .nil (fun r h => hr r (List.mem_of_mem_take h))
    refine ⟨h1, fun k => (h2 k).trans ?_⟩
    constructor
    · rintro (h | ⟨r, h, h'⟩)
      · cases h
      · obtain ⟨i, hi⟩ := List.getElem?_of_mem h
        rw [List.getElem?_take] at hi
        split at hi
        · exact ⟨i, r, hi, fun _ => by omega, h'⟩
        · cases hi
    · rintro ⟨i, r, hi, hlt, h'⟩
      refine .inr ⟨r, List.mem_of_getElem? (i := i) ?_, h'⟩
      rw [List.getElem?_take, if_pos (by have := hlt hn; omega)]
      exact hi
  · rename_i hn
    obtain ⟨h1, h2⟩ := gather_from rows [] .nil hr
    refine ⟨h1, fun k => (h2 k).trans ?_⟩
    constructor
    · rintro (h | ⟨r, h, h'⟩)
      · cases h
      · obtain ⟨i, hi⟩ := List.getElem?_of_mem h
        exact ⟨i, r, hi, fun h => absurd h hn, h'⟩
    · rintro ⟨i, r, hi, _, h'⟩
      exact .inr ⟨r, List.mem_of_getElem? hi, h'⟩

/-! ## sum -/

/-- A column of numbers with these amounts. -/
inductive Amounts : List Datum → List Rat → Prop
  | nil : Amounts [] []
  | cons {a p vs ps} : Amount a p → Amounts vs ps → Amounts (.one a :: vs) (p :: ps)

theorem plus_amount {a b : Scalar} {p q : Rat} (ha : Amount a p) (hb : Amount b q) :
    ∃ c, plus (.one a) (.one b) = .ok (.one c) ∧ Amount c (p + q) := by
  cases ha <;> cases hb <;> refine ⟨_, rfl, ?_⟩ <;> rw [amount_iff] <;> simp [Scalar.num, Bool.toInt] <;> norm_num

/-- **C36**: the sum of a column of numbers: whole numbers, fractions, and booleans that count as one and nought. -/
theorem C36_sum_numbers {key : Str} {rows : List Row} {vs : List Datum} {ps : List Rat} (hc : Column key rows vs) (h : Amounts vs ps) :
    ∃ s, total key rows = .ok (.one s) ∧ Amount s ps.sum := by
  unfold total
  rw [collect_of hc]
  have key : ∀ (a : Scalar) (p : Rat), Amount a p → ∃ s, vs.foldlM plus (.one a) = .ok (.one s) ∧ Amount s (p + ps.sum) := by
    clear hc
    induction h with
    | nil => intro a p ha; exact ⟨a, rfl, by simpa using ha⟩
    | cons h1 _ ih =>
      intro a p ha
      obtain ⟨c, h3, h4⟩ := plus_amount ha h1
      obtain ⟨s, h5, h6⟩ := ih c _ h4
      refine ⟨s, ?_, by rw [List.sum_cons, ← add_assoc]; exact h6⟩
      rw [List.foldlM_cons, h3]
      exact h5
  obtain ⟨s, h1, h2⟩ := key (.int 0) 0 (by simpa using Amount.whole 0)
  exact ⟨s, h1, by simpa using h2⟩

theorem plus_refused {a : Scalar} {p : Rat} (ha : Amount a p) {v : Datum} (hv : ∀ b q, v = .one b → ¬ Amount b q) :
    plus (.one a) v = .error .typeError := by
  have : ∀ b, v = .one b → b.num = none := by
    intro b hb
    cases hn : b.num with
    | none => rfl
    | some q => exact absurd (amount_iff.2 hn) (hv b q hb)
  cases v with
  | list l => cases ha <;> rfl
  | one b =>
    have hb := this b rfl
    cases b <;> first | (cases ha <;> rfl) | cases hb

/-- **C36**: the sum of a column with anything but numbers in it raises TypeError. -/
theorem C36_sum_refused {key : Str} {rows : List Row} {vs : List Datum} (hc : Column key rows vs)
    (h : ∃ v ∈ vs, ∀ b q, v = .one b → ¬ Amount b q) : total key rows = .error .typeError := by
  unfold total
  rw [collect_of hc]
  clear hc
  have key : ∀ (a : Scalar) (p : Rat), Amount a p → vs.foldlM plus (.one a) = .error .typeError := by
    induction vs with
    | nil => obtain ⟨v, hv, _⟩ := h; cases hv
    | cons v vs ih =>
      intro a p ha
      rw [List.foldlM_cons]
      by_cases hv : ∃ b q, v = .one b ∧ Amount b q
      · obtain ⟨b, q, rfl, hb⟩ := hv
        obtain ⟨c, h3, h4⟩ := plus_amount ha hb
        rw [h3]
        obtain ⟨w, hw, hw'⟩ := h
        rcases List.mem_cons.1 hw with rfl | hw
        · exact absurd hb (hw' b q rfl)
        · exact ih ⟨w, hw, hw'⟩ c _ h4
      · rw [plus_refused ha (fun b q e hb => hv ⟨b, q, e, hb⟩)]
        rfl
  exact key (.int 0) 0 (by simpa using Amount.whole 0)

/-! ## max and min -/

theorem pyMax_of {a b : Scalar} (h : Comparable a b) :
    (Below a b ∧ pyMax (.one a) (.one b) = .ok (.one b)) ∨ (AtMost b a ∧ pyMax (.one a) (.one b) = .ok (.one a)) := by
  rcases below_or h with h | h
  · refine .inl ⟨h, ?_⟩
    simp only [pyMax, Datum.lt, lt_true_iff.2 h]
    rfl
  · refine .inr ⟨h, ?_⟩
    simp only [pyMax, Datum.lt, lt_false_iff.2 h]
    rfl

theorem pyMin_of {a b : Scalar} (h : Comparable a b) :
    (Below b a ∧ pyMin (.one a) (.one b) = .ok (.one b)) ∨ (AtMost a b ∧ pyMin (.one a) (.one b) = .ok (.one a)) := by
  rcases below_or h.symm with h | h
  · refine .inl ⟨h, ?_⟩
    simp only [pyMin, Datum.lt, lt_true_iff.2 h]
    rfl
  · refine .inr ⟨h, ?_⟩
    simp only [pyMin, Datum.lt, lt_false_iff.2 h]
    rfl

theorem pick_fold {f : Datum → Datum → Except Err Datum} {R : Scalar → Scalar → Prop} {S : Scalar → Scalar → Prop}
    (hf : ∀ {a b}, Comparable a b → (R a b ∧ f (.one a) (.one b) = .ok (.one b)) ∨ (S b a ∧ f (.one a) (.one b) = .ok (.one a)))
    (hRS : ∀ {a b c}, S a b → R b c → R a c) (hRR : ∀ {a b c}, R a b → R b c → R a c) (hcomp : ∀ {a b}, R a b → Comparable a b)
    (l : List Scalar) : ∀ (pre : List Scalar) (m : Scalar) (mid : List Scalar), (∀ x ∈ pre, R x m) → (∀ x ∈ mid, S x m) →
      (∀ x ∈ l, Comparable m x) →
      ∃ a m' b, (l.map Datum.one).foldlM f (.one m) = .ok (.one m') ∧ pre ++ m :: mid ++ l = a ++ m' :: b ∧ (∀ x ∈ a, R x m') ∧
        (∀ x ∈ b, S x m') := by
  induction l with
  | nil => intro pre m mid h1 h2 _; exact ⟨pre, m, mid, rfl, by simp, h1, h2⟩
  | cons x l ih =>
    intro pre m mid h1 h2 h3
    have hx := h3 x (List.mem_cons_self ..)
    rw [List.map_cons, List.foldlM_cons]
    rcases hf hx with ⟨hr, he⟩ | ⟨hs, he⟩
    · rw [he]
      obtain ⟨a, m', b, h4, h5, h6, h7⟩ := ih (pre ++ m :: mid) x [] (by
        intro y hy
        rcases List.mem_append.1 hy with hy | hy
        · exact hRR (h1 y hy) hr
        · rcases List.mem_cons.1 hy with rfl | hy
          · exact hr
          · exact hRS (h2 y hy) hr) nofun (fun y hy => hx.symm.trans (h3 y (List.mem_cons_of_mem _ hy)))
      exact ⟨a, m', b, h4, by rw [← h5]; simp, h6, h7⟩
    · rw [he]
      obtain ⟨a, m', b, h4, h5, h6, h7⟩ := ih pre m (mid ++ [x]) h1 (by
        intro y hy
        rcases List.mem_append.1 hy with hy | hy
        · exact h2 y hy
        · rw [List.mem_singleton.1 hy]; exact hs) (fun y hy => h3 y (List.mem_cons_of_mem _ hy))
      exact ⟨a, m', b, h4, by rw [← h5]; simp, h6, h7⟩

/-- **C36**: the maximum of a column of numbers, of texts or of datetimes is the first of its greatest values. -/
theorem C36_max_of {key : Str} {rows : List Row} {l : List Scalar} (hc : Column key rows (l.map .one)) (hne : l ≠ [])
    (h : l.Pairwise Comparable) : ∃ a m b, greatest key rows = .ok (.one m) ∧ l = a ++ m :: b ∧ (∀ x ∈ a, Below x m) ∧
      (∀ x ∈ b, AtMost x m) := by
  unfold greatest
  rw [collect_of hc]
  cases l with
  | nil => exact absurd rfl hne
  | cons x l =>
    obtain ⟨a, m, b, h1, h2, h3, h4⟩ := pick_fold (f := pyMax) (R := Below) (S := AtMost) pyMax_of AtMost.below
      (fun h1 h2 => h1.atMost.below h2) Below.comparable l [] x [] nofun nofun (List.pairwise_cons.1 h).1
    exact ⟨a, m, b, h1, by simpa using h2, h3, h4⟩

/-- **C36**: the minimum of a column of numbers, of texts or of datetimes is the first of its least values. -/
theorem C36_min_of {key : Str} {rows : List Row} {l : List Scalar} (hc : Column key rows (l.map .one)) (hne : l ≠ [])
    (h : l.Pairwise Comparable) : ∃ a m b, least key rows = .ok (.one m) ∧ l = a ++ m :: b ∧ (∀ x ∈ a, Below m x) ∧
      (∀ x ∈ b, AtMost m x) := by
  unfold least
  rw [collect_of hc]
  cases l with
  | nil => exact absurd rfl hne
  | cons x l =>
    obtain ⟨a, m, b, h1, h2, h3, h4⟩ := pick_fold (f := pyMin) (R := fun a b => Below b a) (S := fun a b => AtMost b a) pyMin_of
      (fun h1 h2 => h2.atMost_right h1)
      (fun h1 h2 => h2.atMost.below h1) (fun h => h.comparable.symm) l [] x [] nofun nofun (List.pairwise_cons.1 h).1
    exact ⟨a, m, b, h1, by simpa using h2, h3, h4⟩

theorem refused_fold {f : Datum → Datum → Except Err Datum}
    (hf : ∀ {a b}, Comparable a b → f (.one a) (.one b) = .ok (.one a) ∨ f (.one a) (.one b) = .ok (.one b))
    (he : ∀ {a b}, ¬ Comparable a b → f (.one a) (.one b) = .error .typeError) (l : List Scalar) :
    ∀ m : Scalar, (∃ x ∈ l, ¬ Comparable m x) → (l.map Datum.one).foldlM f (.one m) = .error .typeError := by
  induction l with
  | nil => rintro m ⟨x, hx, _⟩; cases hx
  | cons y l ih =>
    rintro m ⟨x, hx, hn⟩
    rw [List.map_cons, List.foldlM_cons]
    by_cases hy : Comparable m y
    · have hx : x ∈ l := by
        rcases List.mem_cons.1 hx with rfl | hx
        · exact absurd hy hn
        · exact hx
      rcases hf hy with h | h
      · rw [h]; exact ih m ⟨x, hx, hn⟩
      · rw [h]; exact ih y ⟨x, hx, fun hc => hn (hy.trans hc)⟩
    · rw [he hy]; rfl

theorem some_not_comparable {x : Scalar} {l : List Scalar} (h : ¬ (x :: l).Pairwise Comparable) : ∃ y ∈ l, ¬ Comparable x y := by
  by_contra hc
  have hall : ∀ y ∈ l, Comparable x y := fun y hy => Classical.not_not.1 (fun hn => hc ⟨y, hy, hn⟩)
  refine h (List.pairwise_cons.2 ⟨hall, ?_⟩)
  exact List.Pairwise.imp_of_mem (R := fun _ _ => True) (fun ha hb _ => (hall _ ha).symm.trans (hall _ hb)) (List.pairwise_of_forall (fun _ _ => trivial))

/-- **C36**: the maximum and the minimum of a column of values that cannot all be compared (numbers and texts, say, or a null beside
any other value) raise TypeError, and so does a column that no record has. -/
theorem C36_max_min_refused {key : Str} {rows : List Row} {l : List Scalar} (hc : Column key rows (l.map .one))
    (h : l = [] ∨ ¬ l.Pairwise Comparable) : greatest key rows = .error .typeError ∧ least key rows = .error .typeError := by
  unfold greatest least
  rw [collect_of hc]
  cases l with
  | nil => exact ⟨rfl, rfl⟩
  | cons x l =>
    have := some_not_comparable (h.resolve_left (by simp))
    refine ⟨refused_fold (f := pyMax) (fun h => ?_) (fun h => ?_) l x this, refused_fold (f := pyMin) (fun h => ?_) (fun h => ?_) l x this⟩
    · rcases pyMax_of h with ⟨_, h⟩ | ⟨_, h⟩
      · exact .inr h
      · exact .inl h
    · simp only [pyMax, Datum.lt, lt_error_iff.2 h]; rfl
    · rcases pyMin_of h with ⟨_, h⟩ | ⟨_, h⟩
      · exact .inr h
      · exact .inl h
    · simp only [pyMin, Datum.lt, lt_error_iff.2 (fun hc => h hc.symm)]; rfl

theorem both_fold (l : List Datum) : ∀ (a b x y : Datum), l.foldlM pyMin a = .ok x → l.foldlM pyMax b = .ok y →
    (l.map fun v => (v, v)).foldlM (fun a b => do return (← pyMin a.1 b.1, ← pyMax a.2 b.2)) (a, b) = .ok (x, y) := by
  induction l with
  | nil =>
    intro a b x y h1 h2
    cases h1
    cases h2
    rfl
  | cons v l ih =>
    intro a b x y h1 h2
    rw [List.foldlM_cons] at h1 h2
    rw [List.map_cons, List.foldlM_cons]
    cases hm : pyMin a v with
    | error e => rw [hm] at h1; cases h1
    | ok a' =>
      cases hM : pyMax b v with
      | error e => rw [hM] at h2; cases h2
      | ok b' =>
        rw [hm] at h1
        rw [hM] at h2
        exact ih a' b' x y h1 h2

/-- **C36**: `min_max` is the least and the greatest value. -/
theorem C36_min_max_of {key : Str} {rows : List Row} {x y : Datum} (h1 : least key rows = .ok x) (h2 : greatest key rows = .ok y) :
    both key rows = .ok (x, y) := by
  unfold least at h1
  unfold greatest at h2
  unfold both
  cases h : collectList key rows with
  | nil => rw [h] at h1; cases h1
  | cons v vs =>
    rw [h] at h1 h2
    exact both_fold vs v v x y h1 h2

/-! ## A concrete column: a whole number, a boolean, a fraction, and a record without the field -/

def demo : List Row := [[("k".toList, .one (.int 3))], [("j".toList, .one .none)], [("k".toList, .one (.bool true))],
  [("k".toList, .one (.float (7 / 2))), ("j".toList, .list [])]]

theorem demo_column : Column "k".toList demo ([.int 3, .bool true, .float (7 / 2)].map .one) :=
  (C36_column ..).1 rfl

example : ∃ s, total "k".toList demo = .ok (.one s) ∧ Amount s ([3, 1, 7 / 2] : List Rat).sum :=
  C36_sum_numbers demo_column (.cons (.whole 3) (.cons .yes (.cons (.fraction _) .nil)))

example : total "k".toList (demo ++ [[("k".toList, .one .none)]]) = .error .typeError :=
  C36_sum_refused (vs := [.one (.int 3), .one (.bool true), .one (.float (7 / 2)), .one .none]) ((C36_column ..).1 rfl)
    ⟨.one .none, by simp, by rintro b q h h'; cases h; cases h'⟩

theorem demo_comparable : [Scalar.int 3, .bool true, .float (7 / 2)].Pairwise Comparable := by
  refine .cons ?_ (.cons ?_ (.cons nofun .nil))
  · intro b hb
    simp only [List.mem_cons, List.not_mem_nil, or_false] at hb
    rcases hb with rfl | rfl
    · exact .number (.whole 3) .yes
    · exact .number (.whole 3) (.fraction _)
  · intro b hb
    rw [List.mem_singleton.1 hb]
    exact .number .yes (.fraction _)

example : greatest "k".toList demo = .ok (.one (.float (7 / 2))) ∧ least "k".toList demo = .ok (.one (.bool true)) ∧
    (∃ a m b, greatest "k".toList demo = .ok (.one m) ∧ [.int 3, .bool true, .float (7 / 2)] = a ++ m :: b ∧ (∀ x ∈ a, Below x m) ∧
      (∀ x ∈ b, AtMost x m)) ∧
    (∃ a m b, least "k".toList demo = .ok (.one m) ∧ [.int 3, .bool true, .float (7 / 2)] = a ++ m :: b ∧ (∀ x ∈ a, Below m x) ∧
      (∀ x ∈ b, AtMost m x)) :=
  ⟨by decide +kernel, by decide +kernel, C36_max_of demo_column (by simp) demo_comparable, C36_min_of demo_column (by simp) demo_comparable⟩

example : greatest "k".toList [[("k".toList, .one (.int 3))], [("k".toList, .one (.str "x".toList))]] = .error .typeError :=
  (C36_max_min_refused (l := [.int 3, .str "x".toList]) ((C36_column ..).1 rfl) (.inr (by
    intro h
    cases (List.pairwise_cons.1 h).1 _ (List.mem_singleton.2 rfl) with
    | number _ h2 => cases h2))).1

example : keys 2 demo = ["k".toList, "j".toList] ∧ keys 1 demo = ["k".toList] ∧ ∀ r ∈ demo, (r.map (·.1)).Nodup := by decide +kernel

end Mabel.Summaries
