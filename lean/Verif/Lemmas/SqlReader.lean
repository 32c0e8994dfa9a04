import Verif.Lemmas.Hashes
import Verif.Spec.SqlReader
import Verif.Lemmas.DictSet
import Verif.Lemmas.Order
import Verif.Props.DictSet
import Verif.Props.Evaluator
import Verif.Props.ExprEval
import Verif.Props.Sql

/-! # Lemmas on running SQL statements -/

namespace Mabel.SqlReader
open Mabel.Py Mabel.Dates Mabel.Tokens Mabel.Filters Mabel.Records Mabel.Blobs Mabel.Expression Mabel.Expression.Spec Mabel.Evaluator
  Mabel.Evaluator.Spec Mabel.SqlReader.Spec
open Mabel.DictSet (keyLe directed dedupeFrom)

/-! ## The order of values -/

theorem scalarLe_eq (a b : Scalar) : scalarLe a b = match a.num, b.num with
    | some p, some q => decide (p ≤ q)
    | _, _ => match a, b with
      | .str s, .str t => strLe s t
      | .date d, .date e => DateTime.le d e
      | _, _ => decide (rank a ≤ rank b) := by
  unfold scalarLe
  cases a <;> cases b <;> simp only [Scalar.lt, Scalar.num, Bool.not_not, decide_eq_decide, ← decide_not, not_lt]

theorem rat_le_trans {a b c : Rat} (h1 : a ≤ b) (h2 : b ≤ c) : a ≤ c := le_trans h1 h2

theorem scalarLe_preorder : TotalPreorder scalarLe where
  total a b := by
    rw [scalarLe_eq, scalarLe_eq]
    cases a <;> cases b <;> simp only [Scalar.num, decide_eq_true_eq] <;>
      first
      | exact le_total _ _
      | exact strLe_preorder.total _ _
      | (simp only [DateTime.le, decide_eq_true_eq]; exact le_total _ _)
  trans a b c h1 h2 := by
    rw [scalarLe_eq] at h1 h2 ⊢
    cases a <;> cases b <;> cases c <;> simp only [Scalar.num, decide_eq_true_eq, rank] at h1 h2 ⊢ <;>
      first
      | exact le_trans h1 h2
      | exact strLe_preorder.trans _ _ _ h1 h2
      | (simp only [DateTime.le, decide_eq_true_eq] at *; exact le_trans h1 h2)
      | exact decide_eq_true (by omega)
      | exact absurd (of_decide_eq_true h1) (by omega)
      | exact absurd (of_decide_eq_true h2) (by omega)

theorem listLe_total (a b : List Scalar) : listLe a b = true ∨ listLe b a = true := by
  induction a generalizing b with
  | nil => exact Or.inl rfl
  | cons x xs ih =>
    cases b with
    | nil => exact Or.inr rfl
    | cons y ys =>
      rw [listLe, listLe]
      cases h1 : scalarLe x y <;> cases h2 : scalarLe y x <;> simp [ih ys]
      rcases scalarLe_preorder.total x y with h | h
      · rw [h1] at h; cases h
      · rw [h2] at h; cases h

theorem listLe_trans (a b c : List Scalar) (h1 : listLe a b = true) (h2 : listLe b c = true) : listLe a c = true := by
  induction a generalizing b c with
  | nil => rfl
  | cons x xs ih =>
    cases b with
    | nil => cases h1
    | cons y ys =>
      cases c with
      | nil => cases h2
      | cons z zs =>
        rw [listLe] at *
        have t1 := scalarLe_preorder.trans x y z
        have t2 := scalarLe_preorder.trans z y x
        have t3 := scalarLe_preorder.trans y z x
        have t4 := scalarLe_preorder.trans z x y
        have hi := ih ys zs
        cases e1 : scalarLe x y <;> cases e2 : scalarLe y x <;> cases e3 : scalarLe y z <;> cases e4 : scalarLe z y <;>
          cases e5 : scalarLe x z <;> cases e6 : scalarLe z x <;> simp_all

theorem datumLe_preorder : TotalPreorder datumLe where
  total a b := by
    cases a <;> cases b <;> simp only [datumLe, true_or, or_true]
    · exact scalarLe_preorder.total _ _
    · exact listLe_total _ _
  trans := fun
    | .one a, .one b, .one c, h1, h2 => scalarLe_preorder.trans a b c h1 h2
    | .one _, _, .list _, _, _ => rfl
    | .one _, .list _, .one _, _, h2 => nomatch h2
    | .list _, .one _, .one _, h1, _ => h1
    | .list _, .one _, .list _, h1, _ => nomatch h1
    | .list _, .list _, .one _, _, h2 => h2
    | .list a, .list b, .list c, h1, h2 => listLe_trans a b c h1 h2

theorem scalarLe_refl (a : Scalar) : scalarLe a a = true := scalarLe_preorder.refl a

/-- Equal values come together. -/
theorem scalarLe_of_eq {a b v : Scalar} (h1 : a.eq v = true) (h2 : b.eq v = true) : scalarLe a b = true := by
  rw [scalarLe_eq]
  unfold Scalar.eq at h1 h2
  cases a <;> cases b <;> cases v <;> simp only [Scalar.num, decide_eq_true_eq, reduceCtorEq, decide_false, Bool.false_eq_true,
      Scalar.str.injEq, Scalar.date.injEq] at h1 h2 ⊢ <;>
    first
    | exact le_of_eq (h1.trans h2.symm)
    | (subst h1; subst h2; exact strLe_preorder.refl _)
    | (subst h1; subst h2; simp [DateTime.le])
    | exact Nat.le_refl _

theorem listLe_of_eq (a b v : List Scalar) (h1 : eqList a v = true) (h2 : eqList b v = true) : listLe a b = true := by
  induction a generalizing b v with
  | nil => rfl
  | cons x xs ih =>
    cases v with
    | nil => cases h1
    | cons z zs =>
      cases b with
      | nil => cases h2
      | cons y ys =>
        rw [eqList, Bool.and_eq_true] at h1 h2
        rw [listLe, scalarLe_of_eq h1.1 h2.1, scalarLe_of_eq h2.1 h1.1]
        exact ih ys zs h1.2 h2.2

theorem datumLe_of_eq {a b v : Datum} (h1 : a.eq v = true) (h2 : b.eq v = true) : datumLe a b = true := by
  cases a <;> cases b <;> cases v <;> simp only [Datum.eq, Bool.false_eq_true, datumLe] at *
  · exact scalarLe_of_eq h1 h2
  · exact listLe_of_eq _ _ _ h1 h2

theorem atMost_of_le {s t : Scalar} (h : Order.Comparable s t) (hle : scalarLe s t = true) : Order.AtMost s t := by
  rw [← Order.lt_false_iff]
  have h := Order.lt_ok_iff.2 h.symm
  unfold scalarLe at hle
  cases hl : t.lt s with
  | error e => rw [hl] at h; cases h
  | ok x =>
    rw [hl] at hle
    cases x with
    | false => rfl
    | true => cases hle

/-! ## The stages after SELECT -/

theorem upTo_nat {α : Type} (n : Nat) (l : List α) : upTo (n : Int) l = l.take n := by
  unfold upTo
  rw [if_pos (by omega)]
  rfl

/-- The comparison of records that ORDER BY makes. -/
abbrev orderLe (c : Str) (descending : Bool) : Row → Row → Bool := directed (keyLe datumLe (orderKey c)) descending

/-- What is held after a record has come, if nothing raises. -/
def heldStep {α : Type} (le : α → α → Bool) (take : Int) (cache : List α) (record : α) : List α :=
  let cache := cache ++ [record]
  if (cache.length : Int) > max (take * 2) 1 + 1 then upTo take (sorted le cache) else cache

theorem heldStep_nat {α : Type} (le : α → α → Bool) (n : Nat) : heldStep le (n : Int) = DictSet.cacheStep le n := by
  funext cache x
  unfold heldStep DictSet.cacheStep
  simp only [upTo_nat]
  by_cases h : (cache ++ [x]).length > max (n * 2) 1 + 1
  · rw [if_pos (by omega), if_pos h]
  · rw [if_neg (by omega), if_neg h]

theorem sortRecords_inv {c : Str} {d : Bool} {l r : List Row} (h : sortRecords c d l = .ok r) :
    l.Pairwise (fun a b => keysCompare c a b = true) ∧ r = sorted (orderLe c d) l := by
  unfold sortRecords at h
  split at h
  · rename_i hp
    injection h with h
    exact ⟨hp, h.symm⟩
  · cases h

theorem fold_held {c : Str} {d : Bool} {t : Int} (l : List Row) : ∀ {cache r}, l.foldlM (cacheStep c d t) cache = .ok r →
    r = l.foldl (heldStep (orderLe c d) t) cache := by
  induction l with
  | nil => intro cache r h; cases h; rfl
  | cons x l ih =>
    intro cache r h
    rw [List.foldlM_cons] at h
    rw [List.foldl_cons]
    cases hs : cacheStep c d t cache x with
    | error e => rw [hs] at h; cases h
    | ok cache' =>
      rw [hs] at h
      rw [ih h]
      congr 1
      unfold cacheStep at hs
      unfold heldStep
      simp only at hs ⊢
      split at hs
      · rename_i hlen
        rw [if_pos hlen]
        cases hr : sortRecords c d (cache ++ [x]) with
        | error e => rw [hr] at hs; cases hs
        | ok r' =>
          rw [hr] at hs
          cases hs
          rw [(sortRecords_inv hr).2]
      · rename_i hlen
        rw [if_neg hlen]
        cases hs
        rfl

/-- What a sort that comes to its end gives. -/
theorem sortAndTake_inv {sc : DictSet.StorageClass} {c : Str} {d : Bool} {t : Int} {l r : List Row} (h : sortAndTake sc c d t l = .ok r) :
    ∃ cache, (cache = l ∨ cache = l.foldl (heldStep (orderLe c d) t) []) ∧ cache.Pairwise (fun a b => keysCompare c a b = true) ∧
      r = upTo t (sorted (orderLe c d) cache) := by
  unfold sortAndTake at h
  split at h
  · cases hr : sortRecords c d l with
    | error e => rw [hr] at h; cases h
    | ok r' =>
      rw [hr] at h
      cases h
      obtain ⟨h1, rfl⟩ := sortRecords_inv hr
      exact ⟨l, .inl rfl, h1, rfl⟩
  · cases hf : l.foldlM (cacheStep c d t) [] with
    | error e => rw [hf] at h; cases h
    | ok cache =>
      rw [hf] at h
      change (sortRecords c d cache).map (upTo t) = .ok r at h
      cases hr : sortRecords c d cache with
      | error e => rw [hr] at h; cases h
      | ok r' =>
        rw [hr] at h
        cases h
        obtain ⟨h1, rfl⟩ := sortRecords_inv hr
        exact ⟨cache, .inr (fold_held l hf), h1, rfl⟩

theorem heldStep_mem {α : Type} {le : α → α → Bool} {t : Int} {cache : List α} {x y : α} (h : y ∈ heldStep le t cache x) : y ∈ cache ∨ y = x := by
  unfold heldStep at h
  simp only at h
  split at h
  · have : y ∈ sorted le (cache ++ [x]) := by
      unfold upTo at h
      split at h <;> exact List.mem_of_mem_take h
    rw [mem_sorted] at this
    simpa using this
  · simpa using h

theorem sortRecords_of {c : Str} {d : Bool} {l : List Row} (h : ∀ a ∈ l, ∀ b ∈ l, keysCompare c a b = true) :
    sortRecords c d l = .ok (sorted (orderLe c d) l) := by
  unfold sortRecords
  rw [if_pos]
  exact List.Pairwise.imp_of_mem (R := fun _ _ => True) (fun ha hb _ => h _ ha _ hb) (List.pairwise_of_forall (fun _ _ => trivial))

theorem fold_ok {c : Str} {d : Bool} {t : Int} (all : List Row) (h : ∀ a ∈ all, ∀ b ∈ all, keysCompare c a b = true) (l : List Row) :
    ∀ {cache : List Row}, (∀ x ∈ cache, x ∈ all) → (∀ x ∈ l, x ∈ all) →
      l.foldlM (cacheStep c d t) cache = .ok (l.foldl (heldStep (orderLe c d) t) cache) := by
  induction l with
  | nil => intro cache _ _; rfl
  | cons x l ih =>
    intro cache h1 h2
    rw [List.foldlM_cons, List.foldl_cons]
    have hall : ∀ y ∈ cache ++ [x], y ∈ all := by
      intro y hy
      rcases List.mem_append.1 hy with hy | hy
      · exact h1 y hy
      · rw [List.mem_singleton.1 hy]; exact h2 x (List.mem_cons_self ..)
    have hs : cacheStep c d t cache x = .ok (heldStep (orderLe c d) t cache x) := by
      unfold cacheStep heldStep
      simp only
      split
      · rw [sortRecords_of (fun a ha b hb => h a (hall a ha) b (hall b hb))]
        rfl
      · rfl
    rw [hs]
    refine ih (fun y hy => ?_) (fun y hy => h2 y (List.mem_cons_of_mem _ hy))
    rcases heldStep_mem hy with hy | rfl
    · exact h1 y hy
    · exact h2 _ (List.mem_cons_self ..)

theorem fold_mem {α : Type} {le : α → α → Bool} {t : Int} (l : List α) : ∀ {cache : List α} {y : α}, y ∈ l.foldl (heldStep le t) cache →
    y ∈ cache ∨ y ∈ l := by
  induction l with
  | nil => intro cache y h; exact .inl h
  | cons x l ih =>
    intro cache y h
    rcases ih h with h | h
    · rcases heldStep_mem h with h | rfl
      · exact .inl h
      · exact .inr (List.mem_cons_self ..)
    · exact .inr (List.mem_cons_of_mem _ h)

/-- A sort of records that can be compared comes to its end, and gives the first of them in order. -/
theorem sortAndTake_nat (sc : DictSet.StorageClass) {c : Str} {d : Bool} {l : List Row} (h : ∀ a ∈ l, ∀ b ∈ l, keysCompare c a b = true)
    (hle : TotalPreorder (orderLe c d)) (n : Nat) : sortAndTake sc c d (n : Int) l = .ok ((sorted (orderLe c d) l).take n) := by
  unfold sortAndTake
  split
  · rw [sortRecords_of h, Except.map, upTo_nat]
  · rw [fold_ok l h l (cache := []) (fun _ hx => absurd hx (by simp)) (fun _ hx => hx)]
    have hm : ∀ y ∈ l.foldl (heldStep (orderLe c d) (n : Int)) [], y ∈ l := fun y hy => (fold_mem l hy).resolve_left (by simp)
    show (sortRecords c d _).map _ = _
    rw [sortRecords_of (fun a ha b hb => h a (hm a ha) b (hm b hb)), Except.map, upTo_nat, heldStep_nat]
    have := DictSet.cacheStep_inv hle n l [] [] rfl (fun _ => rfl) []
    congr 1
    simpa using this

theorem value_key (c : Str) (r : Row) : orderKey c r = value c r := by
  unfold orderKey value
  cases r.lookup c with
  | none => rfl
  | some d =>
    rw [Option.filter_some]
    cases d with
    | list l => rfl
    | one s => cases s <;> rfl

/-- Two records whose keys are of one kind. -/
def OneKind (c : Str) (a b : Row) : Prop :=
  ∀ x y, value c a = some x → value c b = some y →
    (∃ s t, x = .one s ∧ y = .one t ∧ Order.Comparable s t) ∨ (∃ l m, x = .list l ∧ y = .list m)

theorem OneKind.symm {c : Str} {a b : Row} (h : OneKind c a b) : OneKind c b a := by
  intro x y hx hy
  rcases h y x hy hx with ⟨s, t, rfl, rfl, h⟩ | ⟨l, m, rfl, rfl⟩
  · exact .inl ⟨t, s, rfl, rfl, h.symm⟩
  · exact .inr ⟨m, l, rfl, rfl⟩

theorem oneKind_of {c : Str} {a b : Row} (h : keysCompare c a b = true) : OneKind c a b := by
  intro x y hx hy
  unfold keysCompare at h
  rw [value_key, value_key, hx, hy] at h
  simp only at h
  cases x with
  | one s =>
    cases y with
    | one t => exact .inl ⟨s, t, rfl, rfl, Order.lt_ok_iff.1 h⟩
    | list m => cases h
  | list l =>
    cases y with
    | one t => cases h
    | list m => exact .inr ⟨l, m, rfl, rfl⟩

theorem keysCompare_of {c : Str} {l : List Row} (hc : Comparable c l) : ∀ a ∈ l, ∀ b ∈ l, keysCompare c a b = true := by
  intro a ha b hb
  unfold keysCompare
  rw [value_key, value_key]
  cases h1 : value c a with
  | none => rfl
  | some x =>
    cases h2 : value c b with
    | none => rfl
    | some y =>
      obtain ⟨s, t, rfl, rfl, h⟩ := hc a ha b hb x y h1 h2
      exact Order.lt_ok_iff.2 h

theorem notAfter_of {c : Str} {a b : Row} (hk : OneKind c a b) (h : keyLe datumLe (orderKey c) a b = true) : NotAfter c a b := by
  unfold NotAfter
  unfold keyLe at h
  rw [value_key, value_key] at h
  cases h1 : value c a with
  | none => trivial
  | some x =>
    cases h2 : value c b with
    | none => rw [h1, h2] at h; cases h
    | some y =>
      rw [h1, h2] at h
      rcases hk x y h1 h2 with ⟨s, t, rfl, rfl, hst⟩ | hl
      · exact .inl ⟨s, t, rfl, rfl, atMost_of_le hst h⟩
      · exact .inr hl

/-- A sorted list of records whose keys could be compared is in order. -/
theorem sorted_notAfter {c : Str} (descending : Bool) {l : List Row} (hc : l.Pairwise (fun a b => keysCompare c a b = true)) :
    (sorted (orderLe c descending) l).Pairwise (fun a b => if descending then NotAfter c b a else NotAfter c a b) := by
  have hd := DictSet.directed_preorder (DictSet.keyLe_preorder datumLe_preorder (orderKey c)) descending
  have hk : (sorted (orderLe c descending) l).Pairwise (OneKind c) :=
    ((sorted_perm _ l).pairwise_iff (fun h => OneKind.symm h)).2 (hc.imp oneKind_of)
  refine ((sorted_pairwise hd l).and hk).imp ?_
  rintro a b ⟨h, hab⟩
  unfold directed at h
  cases descending with
  | true => exact notAfter_of hab.symm h
  | false => exact notAfter_of hab h

theorem fold_short {c : Str} {d : Bool} {t : Int} (l : List Row) : ∀ cache : List Row, ((cache.length + l.length : Nat) : Int) ≤ max (t * 2) 1 + 1 →
    l.foldlM (cacheStep c d t) cache = .ok (cache ++ l) := by
  induction l with
  | nil => intro cache _; simp; rfl
  | cons x l ih =>
    intro cache h
    rw [List.foldlM_cons]
    have : cacheStep c d t cache x = .ok (cache ++ [x]) := by
      unfold cacheStep
      simp only
      rw [if_neg]
      simp only [List.length_append, List.length_cons, List.length_nil] at *
      omega
    rw [this]
    have := ih (cache ++ [x]) (by simp only [List.length_append, List.length_cons, List.length_nil] at *; omega)
    rw [List.append_assoc] at this
    exact this

theorem not_pairwise {α : Type} {R : α → α → Prop} (hs : ∀ {a b}, R a b → R b a) {l : List α} {a b : α} (ha : a ∈ l) (hb : b ∈ l) (hne : a ≠ b)
    (h : ¬ R a b) : ¬ l.Pairwise R := by
  intro hp
  induction l with
  | nil => cases ha
  | cons x l ih =>
    obtain ⟨h1, h2⟩ := List.pairwise_cons.1 hp
    rcases List.mem_cons.1 ha with rfl | ha
    · rcases List.mem_cons.1 hb with rfl | hb
      · exact hne rfl
      · exact h (h1 b hb)
    · rcases List.mem_cons.1 hb with rfl | hb
      · exact h (hs (h1 a (by assumption)))
      · exact ih (by assumption) hb h2

theorem value_self {c : Str} {r : Row} {s : Scalar} (h : value c r = some (.one s)) : Order.Comparable s s := by
  unfold value at h
  split at h
  · cases h
  · rename_i hn
    cases s with
    | none => exact absurd h hn
    | bool b => cases b <;> exact .number (by constructor) (by constructor)
    | int i => exact .number (.whole i) (.whole i)
    | float q => exact .number (.fraction q) (.fraction q)
    | str s => exact .text ..
    | date d => exact .date ..

theorem sortRecords_mixed {c : Str} {d : Bool} {l : List Row} (h : ∃ a ∈ l, ∃ b ∈ l, a ≠ b ∧ ¬ OneKind c a b) :
    sortRecords c d l = .error .typeError := by
  obtain ⟨a, ha, b, hb, hne, hn⟩ := h
  unfold sortRecords
  rw [if_neg]
  exact fun hp => not_pairwise (R := OneKind c) OneKind.symm ha hb hne hn (hp.imp oneKind_of)

/-- A sort of records that are all held raises, if some two cannot be compared. -/
theorem sortAndTake_mixed {sc : DictSet.StorageClass} {c : Str} {d : Bool} {t : Int} {l : List Row} (hl : (l.length : Int) ≤ max (t * 2) 1 + 1)
    (h : ∃ a ∈ l, ∃ b ∈ l, a ≠ b ∧ ¬ OneKind c a b) : sortAndTake sc c d t l = .error .typeError := by
  unfold sortAndTake
  split
  · rw [sortRecords_mixed h]; rfl
  · rw [fold_short l [] (by simpa using hl)]
    show (sortRecords c d ([] ++ l)).map _ = _
    rw [List.nil_append, sortRecords_mixed h]
    rfl

theorem eq_of_equal {a b : Scalar} (h : Order.Equal a b) : a.eq b = true := by
  unfold Scalar.eq
  rcases h with rfl | ⟨p, h1, h2⟩
  · cases a.num <;> simp
  · rw [Order.amount_iff] at h1 h2
    simp [h1, h2]

theorem eqList_refl (l : List Scalar) : eqList l l = true := by
  induction l with
  | nil => rfl
  | cons x l ih => rw [eqList, eq_of_equal (.inl rfl), ih]; rfl

theorem sorted_ordered {c : Str} (descending : Bool) {l : List Row} (hc : Comparable c l) :
    Ordered c descending l (sorted (orderLe c descending) l) := by
  refine ⟨sorted_perm _ _, sorted_notAfter descending ?_, ?_⟩
  · exact List.Pairwise.imp_of_mem (R := fun _ _ => True) (fun ha hb _ => keysCompare_of hc _ ha _ hb)
      (List.pairwise_of_forall (fun _ _ => trivial))
  · intro v has hhas
    apply sorted_stable
    intro a b ha hb
    have key : ∀ a b : Row, has a = true → has b = true → keyLe datumLe (orderKey c) a b = true := by
      intro a b ha hb
      rw [hhas] at ha hb
      unfold keyLe
      rw [value_key, value_key]
      cases h1 : value c a with
      | none => rfl
      | some x =>
        rw [h1] at ha
        cases v with
        | none => cases x <;> cases ha
        | some w =>
          cases h2 : value c b with
          | none => rw [h2] at hb; cases w <;> cases hb
          | some y =>
            rw [h2] at hb
            have same : ∀ {x : Datum}, SameValue (some x) (some w) → x.eq w = true := by
              intro x h
              cases x with
              | one s =>
                cases w with
                | one t => exact eq_of_equal h
                | list m => cases h
              | list l =>
                cases w with
                | one t => cases h
                | list m => cases h; exact eqList_refl _
            exact datumLe_of_eq (same ha) (same hb)
    unfold orderLe directed
    cases descending with
    | true => exact key b a hb ha
    | false => exact key a b ha hb

theorem mem_keepFirst {α : Type} [DecidableEq α] {l : List α} {x : α} : x ∈ keepFirst l ↔ x ∈ l := by
  induction l with
  | nil => rfl
  | cons y ys ih =>
    rw [keepFirst, List.mem_cons, List.mem_cons, List.mem_filter, ih]
    by_cases h : x = y
    · simp [h]
    · simp [h]

theorem dedupeFrom_keepFirst {α κ : Type} [DecidableEq α] [BEq κ] [LawfulBEq κ] (fp : α → κ) (l : List α) (seen : List κ)
    (hs : ∀ a ∈ l, ∀ b ∈ l, fp a = fp b → a = b) :
    dedupeFrom fp seen l = (keepFirst l).filter (fun x => !seen.contains (fp x)) := by
  induction l generalizing seen with
  | nil => rfl
  | cons x xs ih =>
    have hx := fun s => ih s (fun a ha b hb => hs a (List.mem_cons_of_mem _ ha) b (List.mem_cons_of_mem _ hb))
    rw [dedupeFrom, keepFirst]
    by_cases h : seen.contains (fp x) = true
    · rw [if_pos h, hx, List.filter_cons_of_neg (by simp only [h]; decide), List.filter_filter]
      apply List.filter_congr
      intro y hy
      by_cases e : y = x
      · subst e; simp only [h]; rfl
      · simp [e]
    · rw [if_neg h, hx, List.filter_cons_of_pos (by simp only [h]; rfl), List.filter_filter]
      congr 1
      apply List.filter_congr
      intro y hy
      have hmem : y ∈ xs := mem_keepFirst.1 hy
      have : (fp x == fp y) = decide (y = x) := by
        by_cases e : y = x
        · subst e; simp
        · rw [decide_eq_false e]
          apply beq_eq_false_iff_ne.2
          intro hf
          exact e (hs y (List.mem_cons_of_mem _ hmem) x (List.mem_cons_self ..) hf.symm)
      rw [List.contains_cons, BEq.comm, this]
      by_cases e : y = x <;> simp [e]

theorem keepFirst_sublist {α : Type} [DecidableEq α] (l : List α) : (keepFirst l).Sublist l := by
  induction l with
  | nil => exact List.Sublist.slnil
  | cons x xs ih =>
    rw [keepFirst]
    exact ((List.filter_sublist).trans ih).cons_cons x

/-- What is left after DISTINCT. -/
def kept (distinct : Bool) (rows : List Row) : List Row := if distinct then keepFirst rows else rows

theorem mem_kept {distinct : Bool} {rows : List Row} {r : Row} (h : r ∈ kept distinct rows) : r ∈ rows := by
  unfold kept at h
  split at h
  · exact mem_keepFirst.1 h
  · exact h

theorem rowFingerprint_eq (env : Env) (r : Row) :
    rowFingerprint env r = Hashes.xorOf env.hash (Hashes.entries (texts env r)) := by
  have h : (r.mapIdx fun i kv => env.hash (natStr i ++ [','] ++ str env.lib kv.2)) =
      (Hashes.entries (texts env r)).map env.hash := by
    unfold Hashes.entries texts
    apply List.ext_getElem?
    intro i
    simp only [List.getElem?_map, List.getElem?_mapIdx, Option.map_map]
    congr 1
    funext kv
    simp
  unfold rowFingerprint
  rw [h, Hashes.foldl_xor]
  simp

theorem _root_.Mabel.SqlReader.Spec.Separated.told {env : Env} {rows : List Row} (h : Separated env rows) :
    ∀ a ∈ rows, ∀ b ∈ rows, rowFingerprint env a = rowFingerprint env b → a = b := by
  intro a ha b hb e
  rw [rowFingerprint_eq, rowFingerprint_eq] at e
  have ht := Hashes.texts_eq (h.hashes a ha b hb) e
  exact Hashes.pairs_eq (h.names a ha b hb) (h.values a ha b hb ht)

theorem distinctStage_of (env : Env) (distinct : Bool) (rows : List Row) (h : distinct = true → Separated env rows) :
    distinctStage env distinct (Gen.of rows) = Gen.of (kept distinct rows) := by
  unfold distinctStage kept
  cases distinct with
  | false => rfl
  | true =>
    rw [if_pos rfl, if_pos rfl]
    unfold Gen.of
    congr 1
    rw [dedupeFrom_keepFirst _ _ _ (h rfl).told]
    rw [List.filter_eq_self.2 (by simp)]

/-- The number of rows ORDER BY leaves when there is no LIMIT. -/
def orderLimit : Nat := 10000

theorem orderStage_of {c : Str} (hc : c ≠ []) (descending : Bool) (limit : Option Int) {rows : List Row} (hcmp : Comparable c rows) (n : Nat)
    (hn : ((limit.filter (· ≠ 0)).getD 10000) = (n : Int)) :
    orderStage (some c) descending limit (Gen.of rows) = Gen.of ((sorted (orderLe c descending) rows).take n) := by
  unfold orderStage
  rw [Option.filter_some, if_pos (by simpa using hc)]
  show (match sortAndTake .noPersistance c descending ((limit.filter (· ≠ 0)).getD 10000) rows with
    | .ok rows => Gen.of rows
    | .error e => Gen.fail e) = _
  rw [hn, sortAndTake_nat _ (keysCompare_of hcmp) (DictSet.directed_preorder (DictSet.keyLe_preorder datumLe_preorder _) _)]

theorem limitStage_pos (n : Nat) (hn : 0 < n) (rows : List Row) :
    limitStage (some (n : Int)) (Gen.of rows) = Gen.of (rows.take n) := by
  unfold limitStage
  rw [Option.filter_some, if_pos (by simp; omega)]
  simp only
  rw [Mabel.Props.C29_take_first_partial _ n hn]
  unfold Gen.of
  simp

theorem tail_result (env : Env) {p : Sql.Parsed} (rows : List Row) (hd : p.distinct = true → Separated env rows)
    (ho : ∀ c, p.orderBy = some c → c ≠ [] ∧ Comparable c rows ∧ (p.limit = none → (kept p.distinct rows).length ≤ 10000))
    (hl : ∀ i, p.limit = some i → 0 < i) :
    ∃ res, limitStage p.limit (orderStage p.orderBy p.descending p.limit (distinctStage env p.distinct (Gen.of rows))) = Gen.of res ∧
      Result (Sql.Spec.view p) rows res := by
  rw [distinctStage_of env _ _ hd]
  unfold Result Sql.Spec.view
  simp only
  change ∃ res, _ ∧ match p.orderBy with
    | none => res = atMost p.limit (kept p.distinct rows)
    | some c => ∃ s, Ordered c p.descending (kept p.distinct rows) s ∧ res = atMost p.limit s
  have hlim : ∀ l : List Row, limitStage p.limit (Gen.of l) = Gen.of (atMost p.limit l) := by
    intro l
    cases h : p.limit with
    | none => rfl
    | some i =>
      have := hl i h
      obtain ⟨n, rfl⟩ := Int.eq_ofNat_of_zero_le (le_of_lt this)
      rw [limitStage_pos n (by omega)]
      rfl
  cases h : p.orderBy with
  | none => exact ⟨_, hlim _, rfl⟩
  | some c =>
    obtain ⟨h1, h2, h3⟩ := ho c h
    have h2' : Comparable c (kept p.distinct rows) := fun a ha b hb => h2 a (mem_kept ha) b (mem_kept hb)
    cases h4 : p.limit with
    | none =>
      rw [← h4, orderStage_of h1 p.descending p.limit h2' 10000 (by rw [h4]; rfl)]
      refine ⟨_, hlim _, _, sorted_ordered p.descending h2', ?_⟩
      rw [List.take_of_length_le (by rw [length_sorted]; exact h3 h4)]
    | some i =>
      have hi := hl i h4
      obtain ⟨n, rfl⟩ := Int.eq_ofNat_of_zero_le (le_of_lt hi)
      rw [← h4, orderStage_of h1 p.descending p.limit h2' n (by rw [h4, Option.filter_some, if_pos (by simp; omega)]; rfl)]
      refine ⟨_, hlim _, _, sorted_ordered p.descending h2', ?_⟩
      rw [h4]
      unfold atMost
      simp [List.take_take]

end Mabel.SqlReader
