import Verif.Spec.GroupBy
import Verif.Lemmas.GroupBy
import Verif.Lemmas.StrOrder
import Verif.Lemmas.Num
import Mathlib.Tactic.Ring
import Mathlib.Algebra.BigOperators.Group.List.Basic

/-! # Grouping (C38 – C41, C73) -/

namespace Mabel.GroupBy
open Mabel.Py Spec

/-! ## Partial results -/

theorem folded_count_from (vs : List Value) (k : Nat) :
    vs.foldlM (fun e v => (accumulate .count e v).map some) (some (Value.int (k + 1)))
      = .ok (some (.int (k + 1 + vs.length : Nat))) := by
  induction vs generalizing k with
  | nil => rfl
  | cons v vs ih =>
    rw [List.foldlM_cons]
    have ht : truthy (.int ((k : Int) + 1)) = true := by
      simp only [truthy, bne_iff_ne, ne_eq]; omega
    have : (accumulate .count (some (Value.int (k + 1))) v).map some = .ok (some (.int ((k + 1 : Nat) + 1))) := by
      simp only [accumulate, ht, if_true, Bool.or_eq_true, beq_self_eq_true, or_true, aggregator, num]
      rfl
    rw [this]
    simp only [bind, Except.bind]
    rw [ih (k + 1), List.length_cons]
    congr 4
    omega

theorem folded_count (vs : List Value) :
    folded .count vs = .ok (if vs = [] then none else some (.int vs.length)) := by
  cases vs with
  | nil => rfl
  | cons v vs =>
    unfold folded
    rw [List.foldlM_cons]
    have : (accumulate .count none v).map some = .ok (some (.int ((0 : Nat) + 1))) := rfl
    rw [this]
    simp only [bind, Except.bind]
    rw [folded_count_from vs 0, if_neg (by simp), List.length_cons]
    congr 4
    omega

theorem round28_small {n : Int} (h : n.natAbs < 10 ^ 28) : round28 n = n := by
  unfold round28
  rw [if_pos h]

theorem folded_sum_from (ns : List Int) (k : Int) (hm : k.natAbs + (ns.map Int.natAbs).sum < 10 ^ 28) :
    (ns.map Value.int).foldlM (fun e v => (accumulate .sum e v).map some) (some (Value.int k))
      = .ok (some (.int (k + ns.sum))) := by
  induction ns generalizing k with
  | nil => simp; rfl
  | cons n ns ih =>
    rw [List.map_cons, List.sum_cons] at hm
    have hkn : (k + n).natAbs ≤ k.natAbs + n.natAbs := Int.natAbs_add_le k n
    rw [List.map_cons, List.foldlM_cons]
    have : (accumulate .sum (some (Value.int k)) (.int n)).map some = .ok (some (.int (k + n))) := by
      by_cases hk : k = 0
      · subst hk
        simp only [accumulate, truthy, bne_self_eq_false, Bool.false_eq_true, if_false, reduceCtorEq, Int.zero_add]
        rfl
      · by_cases hn : n = 0
        · subst hn
          have : truthy (.int k) = true := by simpa [truthy] using hk
          simp only [accumulate, this, if_true, Int.add_zero]
          rfl
        · have h1 : truthy (.int k) = true := by simpa [truthy] using hk
          have h2 : truthy (.int n) = true := by simpa [truthy] using hn
          simp only [accumulate, h1, h2, if_true, Bool.true_or, aggregator, num]
          rw [round28_small (by omega)]
          rfl
    rw [this]
    simp only [bind, Except.bind]
    rw [ih (k + n) (by omega), List.sum_cons, Int.add_assoc]

theorem folded_sum (ns : List Int) (hm : Moderate ns) :
    folded .sum (ns.map Value.int) = .ok (if ns = [] then none else some (.int ns.sum)) := by
  cases ns with
  | nil => rfl
  | cons n ns =>
    unfold folded
    rw [List.map_cons, List.foldlM_cons]
    have : (accumulate .sum none (.int n)).map some = .ok (some (.int n)) := rfl
    rw [this]
    simp only [bind, Except.bind]
    rw [folded_sum_from ns n (by simpa [Moderate] using hm), if_neg (by simp), List.sum_cons]

theorem folded_avg (vs : List Value) : ∃ x, folded .avg vs = .ok x := by
  unfold folded
  generalize (none : Option Value) = e
  induction vs generalizing e with
  | nil => exact ⟨e, rfl⟩
  | cons v vs ih =>
    rw [List.foldlM_cons]
    have : ∃ x, (accumulate .avg e v).map some = .ok x := by
      unfold accumulate
      cases e with
      | none => exact ⟨_, rfl⟩
      | some e =>
        simp only []
        split
        · split
          · exact ⟨_, rfl⟩
          · exact ⟨_, rfl⟩
        · exact ⟨_, rfl⟩
    obtain ⟨x, hx⟩ := this
    rw [hx]
    exact ih x

/-- MAX: the greatest value that is not zero, or zero if there is none. -/
theorem folded_max_from (ns : List Int) (e : Int) :
    ∃ m, (ns.map Value.int).foldlM (fun e v => (accumulate .max e v).map some) (some (Value.int e)) = .ok (some (.int m)) ∧
      m ∈ e :: ns ∧ (∀ n ∈ e :: ns, n ≠ 0 → n ≤ m) ∧ (m = 0 → ∀ n ∈ e :: ns, n = 0) := by
  induction ns generalizing e with
  | nil =>
    refine ⟨e, rfl, by simp, ?_, ?_⟩
    · intro n hn _
      simp only [List.mem_cons, List.not_mem_nil, or_false] at hn
      omega
    · intro he n hn
      simp only [List.mem_cons, List.not_mem_nil, or_false] at hn
      omega
  | cons v ns ih =>
    rw [List.map_cons, List.foldlM_cons]
    have step : ∃ e', (accumulate .max (some (Value.int e)) (.int v)).map some = .ok (some (.int e')) ∧
        (e' = e ∨ e' = v) ∧ (e ≠ 0 → e ≤ e') ∧ (v ≠ 0 → v ≤ e') ∧ (e' = 0 → e = 0 ∧ v = 0) := by
      by_cases he : e = 0
      · subst he
        exact ⟨v, by simp only [accumulate, truthy, bne_self_eq_false, Bool.false_eq_true, if_false, reduceCtorEq]; rfl,
          Or.inr rfl, by simp, by simp, by simp⟩
      · have h1 : truthy (.int e) = true := by simpa [truthy] using he
        by_cases hv : v = 0
        · subst hv
          exact ⟨e, by simp only [accumulate, h1, if_true]; rfl, Or.inl rfl, by simp, by simp, fun h => absurd h he⟩
        · have h2 : truthy (.int v) = true := by simpa [truthy] using hv
          by_cases hlt : e < v
          · refine ⟨v, ?_, Or.inr rfl, fun _ => by omega, fun _ => by omega, fun h => absurd h hv⟩
            simp only [accumulate, h1, h2, if_true, Bool.true_or, aggregator, less, num, hlt, decide_true, bind, Except.bind]
            rfl
          · refine ⟨e, ?_, Or.inl rfl, fun _ => by omega, fun _ => by omega, fun h => absurd h he⟩
            simp only [accumulate, h1, h2, if_true, Bool.true_or, aggregator, less, num, hlt, decide_false, bind, Except.bind]
            rfl
    obtain ⟨e', h1, h2, h3, h4, h5⟩ := step
    obtain ⟨m, g1, g2, g3, g4⟩ := ih e'
    rw [h1]
    refine ⟨m, g1, ?_, ?_, ?_⟩
    · rcases List.mem_cons.1 g2 with rfl | g2
      · rcases h2 with rfl | rfl <;> simp
      · simp [g2]
    · intro n hn hn0
      have key : e' ≠ 0 → e' ≤ m := g3 e' (by simp)
      simp only [List.mem_cons] at hn
      rcases hn with rfl | rfl | hn
      · have := h3 hn0
        have := key (by intro h; exact hn0 (h5 h).1)
        omega
      · have := h4 hn0
        have := key (by intro h; exact hn0 (h5 h).2)
        omega
      · exact g3 n (by simp [hn]) hn0
    · intro hm n hn
      have h0 := h5 (g4 hm e' (by simp))
      simp only [List.mem_cons] at hn
      rcases hn with rfl | rfl | hn
      · exact h0.1
      · exact h0.2
      · exact g4 hm n (by simp [hn])

/-- MIN: the least value that is not zero, or zero if there is none. -/
theorem folded_min_from (ns : List Int) (e : Int) :
    ∃ m, (ns.map Value.int).foldlM (fun e v => (accumulate .min e v).map some) (some (Value.int e)) = .ok (some (.int m)) ∧
      m ∈ e :: ns ∧ (∀ n ∈ e :: ns, n ≠ 0 → m ≤ n) ∧ (m = 0 → ∀ n ∈ e :: ns, n = 0) := by
  induction ns generalizing e with
  | nil =>
    refine ⟨e, rfl, by simp, ?_, ?_⟩
    · intro n hn _
      simp only [List.mem_cons, List.not_mem_nil, or_false] at hn
      omega
    · intro he n hn
      simp only [List.mem_cons, List.not_mem_nil, or_false] at hn
      omega
  | cons v ns ih =>
    rw [List.map_cons, List.foldlM_cons]
    have step : ∃ e', (accumulate .min (some (Value.int e)) (.int v)).map some = .ok (some (.int e')) ∧
        (e' = e ∨ e' = v) ∧ (e ≠ 0 → e' ≤ e) ∧ (v ≠ 0 → e' ≤ v) ∧ (e' = 0 → e = 0 ∧ v = 0) := by
      by_cases he : e = 0
      · subst he
        exact ⟨v, by simp only [accumulate, truthy, bne_self_eq_false, Bool.false_eq_true, if_false, reduceCtorEq]; rfl,
          Or.inr rfl, by simp, by simp, by simp⟩
      · have h1 : truthy (.int e) = true := by simpa [truthy] using he
        by_cases hv : v = 0
        · subst hv
          exact ⟨e, by simp only [accumulate, h1, if_true]; rfl, Or.inl rfl, by simp, by simp, fun h => absurd h he⟩
        · have h2 : truthy (.int v) = true := by simpa [truthy] using hv
          by_cases hlt : v < e
          · refine ⟨v, ?_, Or.inr rfl, fun _ => by omega, fun _ => by omega, fun h => absurd h hv⟩
            simp only [accumulate, h1, h2, if_true, Bool.true_or, aggregator, less, num, hlt, decide_true, bind, Except.bind]
            rfl
          · refine ⟨e, ?_, Or.inl rfl, fun _ => by omega, fun _ => by omega, fun h => absurd h he⟩
            simp only [accumulate, h1, h2, if_true, Bool.true_or, aggregator, less, num, hlt, decide_false, bind, Except.bind]
            rfl
    obtain ⟨e', h1, h2, h3, h4, h5⟩ := step
    obtain ⟨m, g1, g2, g3, g4⟩ := ih e'
    rw [h1]
    refine ⟨m, g1, ?_, ?_, ?_⟩
    · rcases List.mem_cons.1 g2 with rfl | g2
      · rcases h2 with rfl | rfl <;> simp
      · simp [g2]
    · intro n hn hn0
      have key : e' ≠ 0 → m ≤ e' := g3 e' (by simp)
      simp only [List.mem_cons] at hn
      rcases hn with rfl | rfl | hn
      · have := h3 hn0
        have := key (by intro h; exact hn0 (h5 h).1)
        omega
      · have := h4 hn0
        have := key (by intro h; exact hn0 (h5 h).2)
        omega
      · exact g3 n (by simp [hn]) hn0
    · intro hm n hn
      have h0 := h5 (g4 hm e' (by simp))
      simp only [List.mem_cons] at hn
      rcases hn with rfl | rfl | hn
      · exact h0.1
      · exact h0.2
      · exact g4 hm n (by simp [hn])

theorem folded_max (n : Int) (ns : List Int) :
    ∃ m, folded .max ((n :: ns).map Value.int) = .ok (some (.int m)) ∧
      m ∈ n :: ns ∧ (∀ k ∈ n :: ns, k ≠ 0 → k ≤ m) ∧ (m = 0 → ∀ k ∈ n :: ns, k = 0) := by
  unfold folded
  rw [List.map_cons, List.foldlM_cons]
  exact folded_max_from ns n

theorem folded_min (n : Int) (ns : List Int) :
    ∃ m, folded .min ((n :: ns).map Value.int) = .ok (some (.int m)) ∧
      m ∈ n :: ns ∧ (∀ k ∈ n :: ns, k ≠ 0 → m ≤ k) ∧ (m = 0 → ∀ k ∈ n :: ns, k = 0) := by
  unfold folded
  rw [List.map_cons, List.foldlM_cons]
  exact folded_min_from ns n

theorem folded_max_str_from (ss : List Str) (e : Str) :
    ∃ m, (ss.map Value.str).foldlM (fun e v => (accumulate .max e v).map some) (some (Value.str e)) = .ok (some (.str m)) ∧
      m ∈ e :: ss ∧ ∀ s ∈ e :: ss, s ≤ m := by
  induction ss generalizing e with
  | nil =>
    refine ⟨e, rfl, by simp, ?_⟩
    intro n hn
    simp only [List.mem_cons, List.not_mem_nil, or_false] at hn
    subst hn
    exact List.le_refl n
  | cons v ss ih =>
    rw [List.map_cons, List.foldlM_cons]
    have step : ∃ e', (accumulate .max (some (Value.str e)) (.str v)).map some = .ok (some (.str e')) ∧
        (e' = e ∨ e' = v) ∧ e ≤ e' ∧ v ≤ e' := by
      cases e with
      | nil => exact ⟨v, rfl, Or.inr rfl, List.nil_le v, List.le_refl v⟩
      | cons a e =>
        cases v with
        | nil => exact ⟨a :: e, rfl, Or.inl rfl, List.le_refl _, List.nil_le _⟩
        | cons b v =>
          by_cases hlt : a :: e < b :: v
          · refine ⟨b :: v, ?_, Or.inr rfl, List.le_of_lt hlt, List.le_refl _⟩
            simp only [accumulate, truthy, List.isEmpty_cons, Bool.not_false, if_true, Bool.true_or, aggregator, less, num,
              hlt, decide_true, bind, Except.bind]
            rfl
          · refine ⟨a :: e, ?_, Or.inl rfl, List.le_refl _, List.not_lt.1 hlt⟩
            simp only [accumulate, truthy, List.isEmpty_cons, Bool.not_false, if_true, Bool.true_or, aggregator, less, num,
              hlt, decide_false, bind, Except.bind]
            rfl
    obtain ⟨e', h1, h2, h3, h4⟩ := step
    obtain ⟨m, g1, g2, g3⟩ := ih e'
    rw [h1]
    refine ⟨m, g1, ?_, ?_⟩
    · rcases List.mem_cons.1 g2 with rfl | g2
      · rcases h2 with rfl | rfl <;> simp
      · simp [g2]
    · intro n hn
      have := g3 e' (by simp)
      simp only [List.mem_cons] at hn
      rcases hn with rfl | rfl | hn
      · exact List.le_trans h3 this
      · exact List.le_trans h4 this
      · exact g3 n (by simp [hn])

theorem folded_min_str_from (ss : List Str) (e : Str) (he : e ≠ []) (hs : [] ∉ ss) :
    ∃ m, (ss.map Value.str).foldlM (fun e v => (accumulate .min e v).map some) (some (Value.str e)) = .ok (some (.str m)) ∧
      m ∈ e :: ss ∧ ∀ s ∈ e :: ss, m ≤ s := by
  induction ss generalizing e with
  | nil =>
    refine ⟨e, rfl, by simp, ?_⟩
    intro n hn
    simp only [List.mem_cons, List.not_mem_nil, or_false] at hn
    subst hn
    exact List.le_refl n
  | cons v ss ih =>
    rw [List.map_cons, List.foldlM_cons]
    have step : ∃ e', (accumulate .min (some (Value.str e)) (.str v)).map some = .ok (some (.str e')) ∧
        (e' = e ∨ e' = v) ∧ e' ≤ e ∧ e' ≤ v := by
      cases e with
      | nil => exact absurd rfl he
      | cons a e =>
        cases v with
        | nil => exact absurd List.mem_cons_self hs
        | cons b v =>
          by_cases hlt : b :: v < a :: e
          · refine ⟨b :: v, ?_, Or.inr rfl, List.le_of_lt hlt, List.le_refl _⟩
            simp only [accumulate, truthy, List.isEmpty_cons, Bool.not_false, if_true, Bool.true_or, aggregator, less, num,
              hlt, decide_true, bind, Except.bind]
            rfl
          · refine ⟨a :: e, ?_, Or.inl rfl, List.le_refl _, List.not_lt.1 hlt⟩
            simp only [accumulate, truthy, List.isEmpty_cons, Bool.not_false, if_true, Bool.true_or, aggregator, less, num,
              hlt, decide_false, bind, Except.bind]
            rfl
    obtain ⟨e', h1, h2, h3, h4⟩ := step
    have he' : e' ≠ [] := by
      rcases h2 with rfl | rfl
      · exact he
      · exact fun h => hs (h ▸ List.mem_cons_self)
    obtain ⟨m, g1, g2, g3⟩ := ih e' he' (fun h => hs (List.mem_cons_of_mem _ h))
    rw [h1]
    refine ⟨m, g1, ?_, ?_⟩
    · rcases List.mem_cons.1 g2 with rfl | g2
      · rcases h2 with rfl | rfl <;> simp
      · simp [g2]
    · intro n hn
      have := g3 e' (by simp)
      simp only [List.mem_cons] at hn
      rcases hn with rfl | rfl | hn
      · exact List.le_trans this h3
      · exact List.le_trans this h4
      · exact g3 n (by simp [hn])

theorem folded_min_str_empty (ss : List Str) (hs : ∀ s ∈ ss, s = []) :
    (ss.map Value.str).foldlM (fun e v => (accumulate .min e v).map some) (some (Value.str [])) = .ok (some (.str [])) := by
  induction ss with
  | nil => rfl
  | cons s ss ih =>
    rw [List.map_cons, List.foldlM_cons, hs s (by simp)]
    exact ih (fun t ht => hs t (by simp [ht]))

/-! ### Numbers -/

theorem num_number (v : Value) : num v = number v := by cases v <;> rfl

theorem truthy_number {v : Value} {k : Int} (h : number v = some k) : truthy v = (k != 0) := by
  cases v with
  | none => cases h
  | str s => cases h
  | int i => cases h; rfl
  | bool b => cases h; cases b <;> rfl

theorem less_number {v w : Value} {a b : Int} (h : number v = some a) (g : number w = some b) :
    less v w = .ok (decide (a < b)) := by
  unfold less
  rw [num_number, num_number, h, g]

theorem notAbove_number {v w : Value} {a b : Int} (h : number v = some a) (g : number w = some b) (hab : a ≤ b) :
    NotAbove v w := by
  cases v with
  | none => cases h
  | str s => cases h
  | int i => cases w <;> exact ⟨_, _, h, g, hab⟩
  | bool c => cases w <;> exact ⟨_, _, h, g, hab⟩

theorem number_of_mem {vs : List Value} {ns : List Int} (h : vs.map number = ns.map some) {v : Value} (hv : v ∈ vs) :
    ∃ k ∈ ns, number v = some k := by
  have : number v ∈ ns.map some := h ▸ List.mem_map.2 ⟨v, hv, rfl⟩
  obtain ⟨k, hk, e⟩ := List.mem_map.1 this
  exact ⟨k, hk, e.symm⟩

theorem folded_sum_number (vs : List Value) (ns : List Int) (hvs : vs.map number = ns.map some) (e : Value) (k : Int)
    (hk : number e = some k) (hm : k.natAbs + (ns.map Int.natAbs).sum < 10 ^ 28) :
    ∃ v, vs.foldlM (fun e v => (accumulate .sum e v).map some) (some e) = .ok (some v) ∧ number v = some (k + ns.sum) := by
  induction vs generalizing ns e k with
  | nil =>
    cases ns with
    | cons n ns => cases hvs
    | nil => exact ⟨e, rfl, by simpa using hk⟩
  | cons v vs ih =>
    cases ns with
    | nil => cases hvs
    | cons n ns =>
    rw [List.map_cons, List.map_cons] at hvs
    injection hvs with hn hvs
    rw [List.map_cons, List.sum_cons] at hm
    have hkn : (k + n).natAbs ≤ k.natAbs + n.natAbs := Int.natAbs_add_le k n
    rw [List.foldlM_cons]
    have : ∃ e', (accumulate .sum (some e) v).map some = .ok (some e') ∧ number e' = some (k + n) := by
      by_cases he : k = 0
      · refine ⟨v, ?_, by rw [hn, he, Int.zero_add]⟩
        have h1 : truthy e = false := by rw [truthy_number hk, he]; rfl
        simp only [accumulate, h1, Bool.false_eq_true, if_false, reduceCtorEq]; rfl
      · have h1 : truthy e = true := by rw [truthy_number hk]; simpa using he
        by_cases hv : n = 0
        · refine ⟨e, ?_, by rw [hk, hv, Int.add_zero]⟩
          have h2 : truthy v = false := by rw [truthy_number hn, hv]; rfl
          simp only [accumulate, h1, h2, if_true]; rfl
        · have h2 : truthy v = true := by rw [truthy_number hn]; simpa using hv
          refine ⟨.int (k + n), ?_, rfl⟩
          simp only [accumulate, h1, h2, if_true, Bool.true_or, aggregator, num_number, hk, hn]
          rw [round28_small (by omega)]
          rfl
    obtain ⟨e', h1, h2⟩ := this
    obtain ⟨w, g1, g2⟩ := ih ns hvs e' (k + n) h2 (by omega)
    rw [h1]
    exact ⟨w, g1, by rw [g2, List.sum_cons, Int.add_assoc]⟩

/-- The sum of numbers: there is one, and for whole numbers it is a whole number. -/
theorem folded_sum_numbers (vs : List Value) (ns : List Int) (hvs : vs.map number = ns.map some) (hm : Moderate ns)
    (hne : vs ≠ []) : ∃ v, folded .sum vs = .ok (some v) ∧ number v = some ns.sum ∧
      (vs = ns.map Value.int → v = .int ns.sum) := by
  cases vs with
  | nil => exact absurd rfl hne
  | cons w vs =>
    cases ns with
    | nil => cases hvs
    | cons n ns =>
      have hvs' := hvs
      rw [List.map_cons, List.map_cons] at hvs'
      injection hvs' with hn hvs'
      obtain ⟨v, h1, h2⟩ := folded_sum_number vs ns hvs' w n hn (by simpa [Moderate] using hm)
      have hfo : folded .sum (w :: vs) = .ok (some v) := by
        unfold folded
        rw [List.foldlM_cons]
        exact h1
      refine ⟨v, hfo, by rw [h2, List.sum_cons], ?_⟩
      intro hi
      rw [hi, folded_sum _ hm, if_neg (by simp)] at hfo
      injection hfo with hfo
      injection hfo with hfo
      exact hfo.symm

theorem folded_max_number (vs : List Value) (ns : List Int) (hvs : vs.map number = ns.map some) (e : Value) (k : Int)
    (hk : number e = some k) :
    ∃ m km, vs.foldlM (fun e v => (accumulate .max e v).map some) (some e) = .ok (some m) ∧ number m = some km ∧
      m ∈ e :: vs ∧ km ∈ k :: ns ∧ (∀ n ∈ k :: ns, n ≠ 0 → n ≤ km) ∧ (km = 0 → ∀ n ∈ k :: ns, n = 0) := by
  induction vs generalizing ns e k with
  | nil =>
    cases ns with
    | cons n ns => cases hvs
    | nil =>
      refine ⟨e, k, rfl, hk, by simp, by simp, ?_, ?_⟩
      · intro n hn _
        simp only [List.mem_cons, List.not_mem_nil, or_false] at hn
        omega
      · intro he n hn
        simp only [List.mem_cons, List.not_mem_nil, or_false] at hn
        omega
  | cons v vs ih =>
    cases ns with
    | nil => cases hvs
    | cons n ns =>
    rw [List.map_cons, List.map_cons] at hvs
    injection hvs with hn hvs
    rw [List.foldlM_cons]
    have step : ∃ e' k', (accumulate .max (some e) v).map some = .ok (some e') ∧ number e' = some k' ∧
        (e' = e ∧ k' = k ∨ e' = v ∧ k' = n) ∧ (k ≠ 0 → k ≤ k') ∧ (n ≠ 0 → n ≤ k') ∧ (k' = 0 → k = 0 ∧ n = 0) := by
      by_cases he : k = 0
      · refine ⟨v, n, ?_, hn, Or.inr ⟨rfl, rfl⟩, by simp [he], by simp, by simp [he]⟩
        have h1 : truthy e = false := by rw [truthy_number hk, he]; rfl
        simp only [accumulate, h1, Bool.false_eq_true, if_false, reduceCtorEq]; rfl
      · have h1 : truthy e = true := by rw [truthy_number hk]; simpa using he
        by_cases hv : n = 0
        · refine ⟨e, k, ?_, hk, Or.inl ⟨rfl, rfl⟩, by simp, fun h => absurd hv h, fun h => absurd h he⟩
          have h2 : truthy v = false := by rw [truthy_number hn, hv]; rfl
          simp only [accumulate, h1, h2, if_true]; rfl
        · have h2 : truthy v = true := by rw [truthy_number hn]; simpa using hv
          by_cases hlt : k < n
          · refine ⟨v, n, ?_, hn, Or.inr ⟨rfl, rfl⟩, fun _ => by omega, fun _ => by omega, fun h => absurd h hv⟩
            simp only [accumulate, h1, h2, if_true, Bool.true_or, aggregator, less_number hk hn, hlt, decide_true, bind, Except.bind]
            rfl
          · refine ⟨e, k, ?_, hk, Or.inl ⟨rfl, rfl⟩, fun _ => by omega, fun _ => by omega, fun h => absurd h he⟩
            simp only [accumulate, h1, h2, if_true, Bool.true_or, aggregator, less_number hk hn, hlt, decide_false, bind, Except.bind]
            rfl
    obtain ⟨e', k', h1, h0, h2, h3, h4, h5⟩ := step
    obtain ⟨m, km, g1, g0, g2, g2', g3, g4⟩ := ih ns hvs e' k' h0
    rw [h1]
    refine ⟨m, km, g1, g0, ?_, ?_, ?_, ?_⟩
    · rcases List.mem_cons.1 g2 with rfl | g2
      · rcases h2 with ⟨rfl, _⟩ | ⟨rfl, _⟩ <;> simp
      · simp [g2]
    · rcases List.mem_cons.1 g2' with rfl | g2'
      · rcases h2 with ⟨_, rfl⟩ | ⟨_, rfl⟩ <;> simp
      · simp [g2']
    · intro j hj hj0
      have key := g3 k' (by simp)
      simp only [List.mem_cons] at hj
      rcases hj with rfl | rfl | hj
      · have := h3 hj0
        have := key (by intro h; exact hj0 (h5 h).1)
        omega
      · have := h4 hj0
        have := key (by intro h; exact hj0 (h5 h).2)
        omega
      · exact g3 j (by simp [hj]) hj0
    · intro hm j hj
      have h0 := h5 (g4 hm k' (by simp))
      simp only [List.mem_cons] at hj
      rcases hj with rfl | rfl | hj
      · exact h0.1
      · exact h0.2
      · exact g4 hm j (by simp [hj])

theorem folded_min_number (vs : List Value) (ns : List Int) (hvs : vs.map number = ns.map some) (e : Value) (k : Int)
    (hk : number e = some k) :
    ∃ m km, vs.foldlM (fun e v => (accumulate .min e v).map some) (some e) = .ok (some m) ∧ number m = some km ∧
      m ∈ e :: vs ∧ km ∈ k :: ns ∧ (∀ n ∈ k :: ns, n ≠ 0 → km ≤ n) ∧ (km = 0 → ∀ n ∈ k :: ns, n = 0) := by
  induction vs generalizing ns e k with
  | nil =>
    cases ns with
    | cons n ns => cases hvs
    | nil =>
      refine ⟨e, k, rfl, hk, by simp, by simp, ?_, ?_⟩
      · intro n hn _
        simp only [List.mem_cons, List.not_mem_nil, or_false] at hn
        omega
      · intro he n hn
        simp only [List.mem_cons, List.not_mem_nil, or_false] at hn
        omega
  | cons v vs ih =>
    cases ns with
    | nil => cases hvs
    | cons n ns =>
    rw [List.map_cons, List.map_cons] at hvs
    injection hvs with hn hvs
    rw [List.foldlM_cons]
    have step : ∃ e' k', (accumulate .min (some e) v).map some = .ok (some e') ∧ number e' = some k' ∧
        (e' = e ∧ k' = k ∨ e' = v ∧ k' = n) ∧ (k ≠ 0 → k' ≤ k) ∧ (n ≠ 0 → k' ≤ n) ∧ (k' = 0 → k = 0 ∧ n = 0) := by
      by_cases he : k = 0
      · refine ⟨v, n, ?_, hn, Or.inr ⟨rfl, rfl⟩, by simp [he], by simp, by simp [he]⟩
        have h1 : truthy e = false := by rw [truthy_number hk, he]; rfl
        simp only [accumulate, h1, Bool.false_eq_true, if_false, reduceCtorEq]; rfl
      · have h1 : truthy e = true := by rw [truthy_number hk]; simpa using he
        by_cases hv : n = 0
        · refine ⟨e, k, ?_, hk, Or.inl ⟨rfl, rfl⟩, by simp, fun h => absurd hv h, fun h => absurd h he⟩
          have h2 : truthy v = false := by rw [truthy_number hn, hv]; rfl
          simp only [accumulate, h1, h2, if_true]; rfl
        · have h2 : truthy v = true := by rw [truthy_number hn]; simpa using hv
          by_cases hlt : n < k
          · refine ⟨v, n, ?_, hn, Or.inr ⟨rfl, rfl⟩, fun _ => by omega, fun _ => by omega, fun h => absurd h hv⟩
            simp only [accumulate, h1, h2, if_true, Bool.true_or, aggregator, less_number hn hk, hlt, decide_true, bind, Except.bind]
            rfl
          · refine ⟨e, k, ?_, hk, Or.inl ⟨rfl, rfl⟩, fun _ => by omega, fun _ => by omega, fun h => absurd h he⟩
            simp only [accumulate, h1, h2, if_true, Bool.true_or, aggregator, less_number hn hk, hlt, decide_false, bind, Except.bind]
            rfl
    obtain ⟨e', k', h1, h0, h2, h3, h4, h5⟩ := step
    obtain ⟨m, km, g1, g0, g2, g2', g3, g4⟩ := ih ns hvs e' k' h0
    rw [h1]
    refine ⟨m, km, g1, g0, ?_, ?_, ?_, ?_⟩
    · rcases List.mem_cons.1 g2 with rfl | g2
      · rcases h2 with ⟨rfl, _⟩ | ⟨rfl, _⟩ <;> simp
      · simp [g2]
    · rcases List.mem_cons.1 g2' with rfl | g2'
      · rcases h2 with ⟨_, rfl⟩ | ⟨_, rfl⟩ <;> simp
      · simp [g2']
    · intro j hj hj0
      have key := g3 k' (by simp)
      simp only [List.mem_cons] at hj
      rcases hj with rfl | rfl | hj
      · have := h3 hj0
        have := key (by intro h; exact hj0 (h5 h).1)
        omega
      · have := h4 hj0
        have := key (by intro h; exact hj0 (h5 h).2)
        omega
      · exact g3 j (by simp [hj]) hj0
    · intro hm j hj
      have h0 := h5 (g4 hm k' (by simp))
      simp only [List.mem_cons] at hj
      rcases hj with rfl | rfl | hj
      · exact h0.1
      · exact h0.2
      · exact g4 hm j (by simp [hj])

/-- Every request that is fine has a partial result, and it is the right answer. -/
theorem folded_fine (f : Func) (vs : List Value) (h : Fine f vs) (hf : f ≠ .avg) :
    ∃ x, folded f vs = .ok x ∧ Answer f vs (.val (x.getD .none)) := by
  cases f with
  | avg => exact absurd rfl hf
  | count =>
    refine ⟨_, folded_count vs, ?_⟩
    simp only [Answer]
    split <;> rfl
  | sum =>
    obtain ⟨ns, hvs, hm⟩ := h
    by_cases hne : vs = []
    · subst hne
      exact ⟨none, rfl, ns, hvs, Or.inl ⟨rfl, rfl⟩⟩
    · obtain ⟨v, h1, h2, h3⟩ := folded_sum_numbers vs ns hvs hm hne
      exact ⟨some v, h1, ns, hvs, Or.inr ⟨hne, v, rfl, h2, h3⟩⟩
  | max =>
    rcases h with ⟨ns, hvs, hz⟩ | ⟨ss, rfl⟩
    · cases vs with
      | nil => exact ⟨none, rfl, Or.inl ⟨rfl, rfl⟩⟩
      | cons w vs =>
        cases ns with
        | nil => cases hvs
        | cons n ns =>
        have hvs' := hvs
        rw [List.map_cons, List.map_cons] at hvs'
        injection hvs' with hn hvs'
        obtain ⟨m, km, h1, h2, h3, h3', h4, -⟩ := folded_max_number vs ns hvs' w n hn
        refine ⟨some m, ?_, Or.inr ⟨m, h3, rfl, ?_⟩⟩
        · unfold folded
          rw [List.foldlM_cons]
          exact h1
        intro v hv
        obtain ⟨k, hk, hkv⟩ := number_of_mem hvs hv
        refine notAbove_number hkv h2 ?_
        by_cases hk0 : k = 0
        · subst hk0
          by_cases hneg : km < 0
          · obtain ⟨p, hp, hp0⟩ := hz hk ⟨km, h3', hneg⟩
            have := h4 p hp (by omega)
            omega
          · omega
        · exact h4 k hk hk0
    · cases ss with
      | nil => exact ⟨none, rfl, Or.inl ⟨rfl, rfl⟩⟩
      | cons s ss =>
        obtain ⟨m, h1, h2, h3⟩ := folded_max_str_from ss s
        refine ⟨some (.str m), h1, Or.inr ⟨_, List.mem_map.2 ⟨m, h2, rfl⟩, rfl, ?_⟩⟩
        intro v hv
        obtain ⟨k, hk, rfl⟩ := List.mem_map.1 hv
        exact h3 k hk
  | min =>
    rcases h with ⟨ns, hvs, hz⟩ | ⟨ss, rfl, hz⟩
    · cases vs with
      | nil => exact ⟨none, rfl, Or.inl ⟨rfl, rfl⟩⟩
      | cons w vs =>
        cases ns with
        | nil => cases hvs
        | cons n ns =>
        have hvs' := hvs
        rw [List.map_cons, List.map_cons] at hvs'
        injection hvs' with hn hvs'
        obtain ⟨m, km, h1, h2, h3, h3', h4, -⟩ := folded_min_number vs ns hvs' w n hn
        refine ⟨some m, ?_, Or.inr ⟨m, h3, rfl, ?_⟩⟩
        · unfold folded
          rw [List.foldlM_cons]
          exact h1
        intro v hv
        obtain ⟨k, hk, hkv⟩ := number_of_mem hvs hv
        refine notAbove_number h2 hkv ?_
        by_cases hk0 : k = 0
        · subst hk0
          by_cases hneg : 0 < km
          · obtain ⟨p, hp, hp0⟩ := hz hk ⟨km, h3', hneg⟩
            have := h4 p hp (by omega)
            omega
          · omega
        · exact h4 k hk hk0
    · cases ss with
      | nil => exact ⟨none, rfl, Or.inl ⟨rfl, rfl⟩⟩
      | cons s ss =>
        by_cases he : [] ∈ s :: ss
        · have hall := hz he
          have hs : s = [] := hall s (by simp)
          subst hs
          refine ⟨some (.str []), folded_min_str_empty ss (fun t ht => hall t (by simp [ht])),
            Or.inr ⟨.str [], by simp, rfl, ?_⟩⟩
          intro v hv
          obtain ⟨k, hk, rfl⟩ := List.mem_map.1 hv
          rw [hall k hk]
          exact List.le_refl []
        · obtain ⟨m, h1, h2, h3⟩ := folded_min_str_from ss s (fun h => he (by simp [h])) (fun h => he (by simp [h]))
          refine ⟨some (.str m), h1, Or.inr ⟨_, List.mem_map.2 ⟨m, h2, rfl⟩, rfl, ?_⟩⟩
          intro v hv
          obtain ⟨k, hk, rfl⟩ := List.mem_map.1 hv
          exact h3 k hk

/-! ## Groups -/

theorem valuesOf_nonNull (c : Str) (rs : List Record) : valuesOf c rs = nonNull c rs := by
  unfold valuesOf nonNull
  by_cases hc : c = "*".toList
  · simp only [if_pos hc]
    induction rs with
    | nil => rfl
    | cons r rs ih => rw [List.filterMap_cons, ih]; rfl
  · simp only [if_neg hc]
    induction rs with
    | nil => rfl
    | cons r rs ih =>
      rw [List.filterMap_cons, ih, List.map_cons, List.filter_cons]
      cases r.get c <;> rfl

theorem members_groupOf {hash : Str → Nat} {columns : List Str} {rs : List Record} (hf : Faithful hash columns rs)
    {r : Record} (hr : r ∈ rs) : members (keyOf hash columns) rs r = groupOf columns rs r := by
  unfold members groupOf
  apply List.filter_congr
  intro s hs
  have h := hf r hr s hs
  by_cases hk : keyOf hash columns s = keyOf hash columns r
  · rw [decide_eq_true hk]; exact (h.1 hk.symm).symm
  · rw [decide_eq_false hk]
    cases ha : agree columns r s
    · rfl
    · exact absurd (h.2 ha).symm hk

theorem groupOf_congr {columns : List Str} (rs : List Record) {r s : Record} (h : agree columns r s = true) :
    groupOf columns rs r = groupOf columns rs s := by
  unfold groupOf
  apply List.filter_congr
  intro t _
  unfold agree at h ⊢
  rw [List.all_eq_true] at h
  rw [Bool.eq_iff_iff, List.all_eq_true, List.all_eq_true]
  constructor <;> intro g c hc
  · have h1 := h c hc; have h2 := g c hc
    simp only [beq_iff_eq] at *
    rw [← h1, h2]
  · have h1 := h c hc; have h2 := g c hc
    simp only [beq_iff_eq] at *
    rw [h1, h2]

/-- Fewer than 4999999 groups. -/
def FewGroups (columns : List Str) (rs : List Record) : Prop :=
  ∀ l : List Record, l ⊆ rs → l.Pairwise (fun r s => agree columns r s = false) → l.length < 4999999

theorem firsts_few {hash : Str → Nat} {columns : List Str} {rs : List Record} (hf : Faithful hash columns rs)
    (h : FewGroups columns rs) : (firsts (keyOf hash columns) rs).length < groupLimit := by
  apply h
  · exact fun r hr => mem_firsts hr
  · have hn := firsts_nodup (keyOf hash columns) rs
    rw [List.nodup_iff_pairwise_ne, List.pairwise_map] at hn
    refine List.Pairwise.imp_of_mem ?_ hn
    intro a b ha hb hne
    cases hag : agree columns a b
    · rfl
    · exact absurd ((hf a (mem_firsts ha) b (mem_firsts hb)).2 hag) hne

theorem carries_iff {aggs : List (Func × Str)} {columns : List Str} {rep r : Record} {cell : Func × Str → Cell} {row : Row}
    (h : RowIs aggs columns rep cell row) : carries columns r row = agree columns r rep := by
  rw [Bool.eq_iff_iff]
  unfold carries agree
  rw [List.all_eq_true, List.all_eq_true]
  constructor <;> intro g c hc
  · have := g c hc
    rw [h.col c hc] at this
    simp only [beq_iff_eq, Option.some.injEq, Cell.val.injEq] at this ⊢
    exact this.symm
  · have := g c hc
    rw [h.col c hc]
    simp only [beq_iff_eq, Option.some.injEq, Cell.val.injEq] at this ⊢
    exact this.symm

theorem agree_refl (columns : List Str) (r : Record) : agree columns r r = true := by
  unfold agree; simp

theorem agree_symm {columns : List Str} {r s : Record} (h : agree columns r s = true) : agree columns s r = true := by
  unfold agree at *
  rw [List.all_eq_true] at *
  intro c hc
  have := h c hc
  simp only [beq_iff_eq] at *
  exact this.symm

theorem filter_length_one {α : Type} (p : α → Bool) (l : List α) (a : α) (ha : a ∈ l) (hn : l.Nodup)
    (h : ∀ b ∈ l, p b = true ↔ b = a) : (l.filter p).length = 1 := by
  have : l.filter p = [a] := by
    have hp : (l.filter p).Perm [a] := by
      rw [List.perm_ext_iff_of_nodup (hn.filter _) (by simp)]
      intro b
      rw [List.mem_filter, List.mem_singleton]
      exact ⟨fun hb => (h b hb.1).1 hb.2, fun hb => hb ▸ ⟨ha, (h a ha).2 rfl⟩⟩
    exact List.perm_singleton.1 hp
  rw [this]; rfl

/-- **C39/C40** (partial): a request whose aggregations are distinct (an average counting as a sum and a count) is
answered rightly for every group, whatever the aggregations, as long as the values are fine (`Spec.Fine`).
Missing for the full property: sums next to averages of the same column, averages of a column that is null
in a whole group, and minima and maxima where zero is the answer (see the `_fails` theorems). -/
theorem C39_aggregations_partial (hash : Str → Nat) (rs : List Record) (columns : List Str) (aggs : List (Func × Str))
    (hf : Faithful hash columns rs) (hfew : FewGroups columns rs)
    (hd : Spec.Apart aggs) (hname : ∀ a ∈ aggs, Spec.entryName a.1 a.2 ∉ columns)
    (hfine : ∀ r ∈ rs, (∃ a ∈ aggs, nonNull a.2 (groupOf columns rs r) ≠ []) →
      ∀ f c, (f, c) ∈ aggs → Fine f (nonNull c (groupOf columns rs r))) :
    ∃ rows, (aggregate hash { source := rs, columns := columns } aggs).2 = .ok rows ∧
      Answers aggs columns rs rows := by
  have hlim := firsts_few hf hfew
  -- groups that are empty or have nothing to aggregate
  have hvals : ∀ g c, (∃ f, (f, c) ∈ extend aggs) →
      (valuesOf c (rs.filter (fun r => keyOf hash columns r = g)) = []) ∨
      ∃ r ∈ rs, keyOf hash columns r = g ∧ (∃ a ∈ aggs, nonNull a.2 (groupOf columns rs r) ≠ []) ∧
        valuesOf c (rs.filter (fun r => keyOf hash columns r = g)) = nonNull c (groupOf columns rs r) := by
    rintro g c ⟨f, hfc⟩
    by_cases he : valuesOf c (rs.filter (fun r => keyOf hash columns r = g)) = []
    · exact Or.inl he
    · refine Or.inr ?_
      cases hx : rs.filter (fun r => keyOf hash columns r = g) with
      | nil => rw [hx] at he; exact absurd rfl he
      | cons r l =>
        have hr : r ∈ rs.filter (fun r => keyOf hash columns r = g) := by rw [hx]; exact List.mem_cons_self
        obtain ⟨hr1, hr2⟩ := List.mem_filter.1 hr
        simp only [decide_eq_true_eq] at hr2
        have hm := members_groupOf hf hr1
        rw [members_of_key _ _ hr2] at hm
        refine ⟨r, hr1, hr2, ?_, ?_⟩
        · obtain ⟨a, ha, hac⟩ := List.mem_map.1 ((extend_snd aggs c).1 (List.mem_map.2 ⟨_, hfc, rfl⟩))
          refine ⟨a, ha, ?_⟩
          rw [hac, ← hm, ← valuesOf_nonNull]
          exact he
        · rw [← hx, hm, valuesOf_nonNull]
  have hfold : ∀ f c, (f, c) ∈ extend aggs → ∀ g, ∃ x,
      folded f (valuesOf c (rs.filter (fun r => keyOf hash columns r = g))) = .ok x := by
    intro f c hfc g
    rcases hvals g c ⟨f, hfc⟩ with h0 | ⟨r, hr, hk, ha, hv⟩
    · rw [h0]; exact ⟨none, rfl⟩
    · rw [hv]
      rcases List.mem_append.1 hfc with hfc | hfc
      · by_cases hav : f = .avg
        · subst hav; exact folded_avg _
        · obtain ⟨x, hx, _⟩ := folded_fine f _ (hfine r hr ha f c hfc) hav
          exact ⟨x, hx⟩
      · obtain ⟨a, haa, hmem⟩ := List.mem_flatMap.1 hfc
        split at hmem
        · rename_i hav
          have hfin := hfine r hr ha .avg a.2 (by rw [← hav]; exact haa)
          obtain ⟨ns, hns, _, hmod⟩ := hfin
          simp only [List.mem_cons, Prod.mk.injEq, List.not_mem_nil, or_false] at hmem
          rcases hmem with ⟨rfl, rfl⟩ | ⟨rfl, rfl⟩
          · by_cases h0 : nonNull a.2 (groupOf columns rs r) = []
            · rw [h0]; exact ⟨none, rfl⟩
            · obtain ⟨v, h1, _⟩ := folded_sum_numbers _ ns hns hmod h0
              exact ⟨_, h1⟩
          · exact ⟨_, folded_count _⟩
        · cases hmem
  classical
  let R : Nat → Func → Str → Option Value := fun g f c =>
    match folded f (valuesOf c (rs.filter (fun r => keyOf hash columns r = g))) with
    | .ok x => x
    | .error _ => none
  have hR : ∀ f c, (f, c) ∈ extend aggs → ∀ g,
      folded f (valuesOf c (rs.filter (fun r => keyOf hash columns r = g))) = .ok (R g f c) := by
    intro f c hfc g
    obtain ⟨x, hx⟩ := hfold f c hfc g
    simp only [R, hx]
  have hsh : ∀ r ∈ rs, shown aggs (keyOf hash columns) rs r = true ↔ ∃ a ∈ aggs, nonNull a.2 (groupOf columns rs r) ≠ [] := by
    intro r hr
    unfold shown
    rw [List.any_eq_true]
    constructor <;> rintro ⟨a, ha, h⟩ <;> refine ⟨a, ha, ?_⟩
    · rw [members_groupOf hf hr, valuesOf_nonNull] at h
      intro e; rw [e] at h; cases h
    · rw [members_groupOf hf hr, valuesOf_nonNull]
      cases hx : nonNull a.2 (groupOf columns rs r) with
      | nil => exact absurd hx h
      | cons => rfl
  have havg : ∀ c, (Func.avg, c) ∈ aggs → ∀ rep ∈ firsts (keyOf hash columns) rs,
      shown aggs (keyOf hash columns) rs rep = true → ∃ ns : List Int,
        ns ≠ [] ∧ (nonNull c (groupOf columns rs rep)).map number = ns.map some ∧
        (∃ v, R (keyOf hash columns rep) .sum c = some v ∧ num v = some ns.sum) ∧
        R (keyOf hash columns rep) .count c = some (.int ns.length) := by
    intro c hc rep hrep hs
    have hr := mem_firsts hrep
    obtain ⟨ns, hns, hne, hmod⟩ := hfine rep hr ((hsh rep hr).1 hs) .avg c hc
    have hm := members_groupOf hf hr
    rw [members_of_key _ _ rfl] at hm
    have hlen : (nonNull c (groupOf columns rs rep)).length = ns.length := by
      have := congrArg List.length hns
      simpa using this
    have h0 : nonNull c (groupOf columns rs rep) ≠ [] := by
      intro h
      rw [h] at hlen
      exact hne (List.eq_nil_of_length_eq_zero hlen.symm)
    obtain ⟨v, h1, h2, _⟩ := folded_sum_numbers _ ns hns hmod h0
    refine ⟨ns, hne, hns, ⟨v, ?_, by rw [num_number, h2]⟩, ?_⟩
    · simp only [R, hm, valuesOf_nonNull, h1]
    · simp only [R, hm, valuesOf_nonNull, folded_count, if_neg h0, hlen]
  obtain ⟨rowOf, h1, h2⟩ := aggregate_ok hash rs columns aggs (apart_extend hd) hlim R hR (by
    intro c hc rep hrep hs
    obtain ⟨ns, hne, _, ⟨v, h3, h3'⟩, h4⟩ := havg c hc rep hrep hs
    refine ⟨_, _, _, _, h3, h3', h4, rfl, ?_⟩
    cases ns with
    | nil => exact absurd rfl hne
    | cons n ns => simp only [List.length_cons]; omega)
  refine ⟨_, h1, ?_, ?_, ?_, ?_⟩
  · -- rows are right
    intro row hrow
    obtain ⟨rep, hrep, rfl⟩ := List.mem_map.1 hrow
    obtain ⟨hrep, hs⟩ := List.mem_filter.1 ((sorted_perm _ _).mem_iff.1 hrep)
    have hr := mem_firsts hrep
    have hri := h2 rep hrep hs
    refine ⟨rep, hr, ?_, ?_⟩
    · rw [carries_iff hri]; exact agree_refl columns rep
    · intro f c hfc
      refine ⟨_, hri.agg f c hfc (hname _ hfc), ?_⟩
      by_cases hav : f = .avg
      · subst hav
        obtain ⟨ns, hne, hns, ⟨v, h3, h3'⟩, h4⟩ := havg c hfc rep hrep hs
        refine ⟨ns, hns, hne, ?_⟩
        simp only [cellOf, if_true, h3, h3', h4, show num (.int (ns.length : Int)) = some (ns.length : Int) from rfl,
          Option.getD_some]
      · have hm := members_groupOf hf hr
        rw [members_of_key _ _ rfl] at hm
        obtain ⟨x, hx, hans⟩ := folded_fine f _ (hfine rep hr ((hsh rep hr).1 hs) f c hfc) hav
        have hRx : R (keyOf hash columns rep) f c = x := by
          simp only [R, hm, valuesOf_nonNull, hx]
        simp only [cellOf, if_neg hav, hRx]
        exact hans
  · -- one row
    intro r hr ha
    obtain ⟨rep, hrep, hk⟩ := firsts_key (keyOf hash columns) rs r hr
    have hagr : agree columns r rep = true := (hf r hr rep (mem_firsts hrep)).1 hk.symm
    have hs : shown aggs (keyOf hash columns) rs rep = true := by
      rw [hsh rep (mem_firsts hrep), ← groupOf_congr rs hagr]; exact ha
    rw [List.filter_map, List.length_map]
    have hperm := sorted_perm (fun a b => decide (keyOf hash columns a ≤ keyOf hash columns b))
      ((firsts (keyOf hash columns) rs).filter (shown aggs (keyOf hash columns) rs))
    apply filter_length_one _ _ rep (hperm.mem_iff.2 (List.mem_filter.2 ⟨hrep, hs⟩))
    · rw [hperm.nodup_iff]
      exact (List.Nodup.of_map _ (firsts_nodup (keyOf hash columns) rs)).filter _
    · intro b hb
      obtain ⟨hb1, hb2⟩ := List.mem_filter.1 (hperm.mem_iff.1 hb)
      simp only [Function.comp]
      rw [carries_iff (h2 b hb1 hb2)]
      constructor
      · intro hrb
        have hkb := (hf r hr b (mem_firsts hb1)).2 hrb
        exact List.inj_on_of_nodup_map (firsts_nodup (keyOf hash columns) rs) hb1 hrep
          ((show keyOf hash columns r = keyOf hash columns b from hkb).symm.trans hk.symm)
      · rintro rfl; exact hagr
  · -- no row
    intro r hr ha
    rw [List.filter_map]
    rw [List.map_eq_nil_iff, List.filter_eq_nil_iff]
    intro b hb
    have hperm := sorted_perm (fun a b => decide (keyOf hash columns a ≤ keyOf hash columns b))
      ((firsts (keyOf hash columns) rs).filter (shown aggs (keyOf hash columns) rs))
    obtain ⟨hb1, hb2⟩ := List.mem_filter.1 (hperm.mem_iff.1 hb)
    simp only [Function.comp]
    rw [carries_iff (h2 b hb1 hb2)]
    intro hrb
    obtain ⟨a, haa, hne⟩ := (hsh b (mem_firsts hb1)).1 hb2
    rw [← groupOf_congr rs hrb] at hne
    exact hne (ha a haa)
  · intro row hrow k hk
    obtain ⟨rep, hrep, rfl⟩ := List.mem_map.1 hrow
    obtain ⟨hrep, hs⟩ := List.mem_filter.1 ((sorted_perm _ _).mem_iff.1 hrep)
    exact (h2 rep hrep hs).only k hk

/-! ## C38: counting -/

theorem double_count {α β : Type} (p : α → β → Bool) (A : List α) (B : List β) :
    (A.map (fun a => (B.filter (p a)).length)).sum = (B.map (fun b => (A.filter (fun a => p a b)).length)).sum := by
  induction A with
  | nil =>
    simp only [List.map_nil, List.sum_nil, List.filter_nil, List.length_nil]
    induction B with
    | nil => rfl
    | cons b B ih => simpa using ih
  | cons a A ih =>
    rw [List.map_cons, List.sum_cons, ih]
    clear ih
    induction B with
    | nil => rfl
    | cons b B ih =>
      simp only [List.map_cons, List.sum_cons, List.filter_cons]
      have h2 : ((if p a b = true then b :: B.filter (p a) else B.filter (p a))).length
          = (if p a b = true then 1 else 0) + (B.filter (p a)).length := by
        split <;> simp [Nat.add_comm]
      have h3 : ((if p a b = true then a :: A.filter (fun a => p a b) else A.filter (fun a => p a b))).length
          = (if p a b = true then 1 else 0) + (A.filter (fun a => p a b)).length := by
        split <;> simp [Nat.add_comm]
      rw [h2, h3]
      have ih' : (B.filter (p a)).length + (B.map (fun b => (A.filter (fun a => p a b)).length)).sum
          = (B.map (fun b => ((a :: A).filter (fun a => p a b)).length)).sum := ih
      simp only [List.filter_cons] at ih'
      omega

theorem carries_agree {columns : List Str} {r s : Record} {row : Row} (h : carries columns r row = true) :
    carries columns s row = agree columns r s := by
  rw [Bool.eq_iff_iff]
  unfold carries agree at *
  rw [List.all_eq_true] at h
  rw [List.all_eq_true, List.all_eq_true]
  constructor <;> intro g c hc
  · have h1 := h c hc; have h2 := g c hc
    simp only [beq_iff_eq] at *
    rw [h1] at h2
    simpa using h2
  · have h1 := h c hc; have h2 := g c hc
    simp only [beq_iff_eq] at *
    rw [h1, h2]

/-- The count a row shows. -/
def shownCount (row : Row) : Nat :=
  match dget row "COUNT(*)".toList with
  | some (.val (.int n)) => n.toNat
  | _ => 0

/-- **C38**: counting groups gives one row per group with the number of records that have its values, and the
counts add up to the number of records. -/
theorem C38_counts (hash : Str → Nat) (rs : List Record) (columns : List Str)
    (hf : Faithful hash columns rs) (hfew : FewGroups columns rs) (hname : "COUNT(*)".toList ∉ columns) :
    ∃ rows, (count hash { source := rs, columns := columns }).2 = .ok rows ∧
      (∀ row ∈ rows, ∃ r ∈ rs, carries columns r row = true ∧
        dget row "COUNT(*)".toList = some (.val (.int (groupOf columns rs r).length))) ∧
      (∀ r ∈ rs, (rows.filter (carries columns r)).length = 1) ∧
      (rows.map shownCount).sum = rs.length := by
  obtain ⟨rows, h1, h2⟩ := C39_aggregations_partial hash rs columns [(.count, "*".toList)] hf hfew (by decide)
    (by
      intro a ha
      simp only [List.mem_cons, List.not_mem_nil, or_false] at ha
      subst ha
      exact hname)
    (by
      intro r _ _ f c hfc
      simp only [List.mem_cons, Prod.mk.injEq, List.not_mem_nil, or_false] at hfc
      rw [hfc.1]
      trivial)
  have hne : ∀ r ∈ rs, nonNull "*".toList (groupOf columns rs r) ≠ [] := by
    intro r hr h
    unfold nonNull at h
    rw [if_pos rfl, List.map_eq_nil_iff] at h
    have : r ∈ groupOf columns rs r := List.mem_filter.2 ⟨hr, agree_refl columns r⟩
    rw [h] at this
    cases this
  have hrow : ∀ row ∈ rows, ∃ r ∈ rs, carries columns r row = true ∧
      dget row "COUNT(*)".toList = some (.val (.int (groupOf columns rs r).length)) := by
    intro row hrow
    obtain ⟨r, hr, hc, ha⟩ := h2.right row hrow
    obtain ⟨x, hx, hans⟩ := ha .count "*".toList (by simp)
    refine ⟨r, hr, hc, ?_⟩
    simp only [Answer] at hans
    rw [if_neg (hne r hr)] at hans
    rw [show "COUNT(*)".toList = entryName .count "*".toList from by decide, hx, hans]
    congr 3
    unfold nonNull
    rw [if_pos rfl, List.length_map]
  have hone : ∀ r ∈ rs, (rows.filter (carries columns r)).length = 1 := by
    intro r hr
    exact h2.one r hr ⟨(.count, "*".toList), by simp, hne r hr⟩
  refine ⟨rows, h1, hrow, hone, ?_⟩
  have e1 : rows.map shownCount = rows.map (fun row => (rs.filter (fun r => carries columns r row)).length) := by
    apply List.map_congr_left
    intro row hr
    obtain ⟨r, hrr, hc, hx⟩ := hrow row hr
    have : rs.filter (fun s => carries columns s row) = groupOf columns rs r := by
      unfold groupOf
      apply List.filter_congr
      intro s _
      exact carries_agree hc
    rw [this]
    unfold shownCount
    rw [hx]
    rfl
  rw [e1, ← double_count (carries columns) rs rows]
  rw [List.map_congr_left (g := fun _ => 1) hone]
  simp

/-- **C38**: with 4999999 groups or more the answer is an exception, never wrong counts. -/
theorem C38_too_many_refused (hash : Str → Nat) (rs : List Record) (columns : List Str) (aggs : List (Func × Str))
    (l : List Record) (hl : l.Sublist rs) (hk : l.Pairwise (fun r s => hash (texts columns r) ≠ hash (texts columns s)))
    (hlen : 4999999 ≤ l.length) :
    (aggregate hash { source := rs, columns := columns } aggs).2 = .error .tooManyGroups := by
  have hlim : groupLimit ≤ (firsts (keyOf hash columns) rs).length := by
    have hn : (l.map (keyOf hash columns)).Nodup := by
      rw [List.nodup_iff_pairwise_ne, List.pairwise_map]; exact hk
    have hsub : l.map (keyOf hash columns) ⊆ (firsts (keyOf hash columns) rs).map (keyOf hash columns) := by
      intro k hkm
      obtain ⟨r, hr, rfl⟩ := List.mem_map.1 hkm
      obtain ⟨x, hx, he⟩ := firsts_key (keyOf hash columns) rs r (hl.subset hr)
      exact List.mem_map.2 ⟨x, hx, he⟩
    have := (List.subperm_of_subset hn hsub).length_le
    rw [List.length_map, List.length_map] at this
    exact Nat.le_trans hlen this
  unfold aggregate
  have := mapGo_tooMany hash columns (dedup ((extend aggs).map (·.2))) rs [] (by decide) (by
    rw [List.filter_eq_self.2 (by simp)]; simpa using hlim)
  simp only [this]

/-- **C38**: with 4999999 groups or more the answer is an exception: many records no two of which have the same values in the grouping
columns, and texts that tell them apart. -/
theorem C38_too_many_groups (hash : Str → Nat) (rs : List Record) (columns : List Str) (aggs : List (Func × Str))
    (hf : Faithful hash columns rs) (l : List Record) (hl : l.Sublist rs) (hk : l.Pairwise (fun r s => agree columns r s = false))
    (hlen : 4999999 ≤ l.length) :
    (aggregate hash { source := rs, columns := columns } aggs).2 = .error .tooManyGroups := by
  refine C38_too_many_refused hash rs columns aggs l hl ?_ hlen
  refine hk.imp_of_mem ?_
  intro r s hr hs h e
  rw [(hf r (hl.subset hr) s (hl.subset hs)).1 e] at h
  cases h

/-! ## C39: sums and averages -/

theorem apart_of (f : Func) {wanted : List Str} (hd : wanted.Nodup) : Apart (wanted.map (fun c => (f, c))) := by
  refine ⟨hd.map (fun a b h => by simpa using h), ?_⟩
  intro a ha hav
  obtain ⟨c, _, rfl⟩ := List.mem_map.1 ha
  have hav : f = .avg := hav
  subst hav
  simp

/-- **C39** (partial, see `C39_aggregations_partial`): the sums of every group, for columns of whole numbers. -/
theorem C39_sum_partial (hash : Str → Nat) (rs : List Record) (columns wanted : List Str)
    (hf : Faithful hash columns rs) (hfew : FewGroups columns rs) (hd : wanted.Nodup)
    (hname : ∀ c ∈ wanted, Spec.entryName .sum c ∉ columns)
    (hfine : ∀ c ∈ wanted, ∀ r ∈ rs, Fine .sum (nonNull c (groupOf columns rs r))) :
    ∃ rows, (sum hash { source := rs, columns := columns } wanted).2 = .ok rows ∧
      Answers (wanted.map (fun c => (Func.sum, c))) columns rs rows := by
  apply C39_aggregations_partial hash rs columns _ hf hfew
  · exact apart_of .sum hd
  · intro a ha
    obtain ⟨c, hc, rfl⟩ := List.mem_map.1 ha
    exact hname c hc
  · intro r hr _ f c hfc
    obtain ⟨c', hc', he⟩ := List.mem_map.1 hfc
    cases he
    exact hfine _ hc' r hr

/-- **C39** (partial, see `C39_aggregations_partial`): the averages of every group, for columns of whole numbers with a
value in every group. -/
theorem C39_average_partial (hash : Str → Nat) (rs : List Record) (columns wanted : List Str)
    (hf : Faithful hash columns rs) (hfew : FewGroups columns rs) (hd : wanted.Nodup)
    (hname : ∀ c ∈ wanted, Spec.entryName .avg c ∉ columns)
    (hfine : ∀ c ∈ wanted, ∀ r ∈ rs, Fine .avg (nonNull c (groupOf columns rs r))) :
    ∃ rows, (mean hash { source := rs, columns := columns } wanted).2 = .ok rows ∧
      Answers (wanted.map (fun c => (Func.avg, c))) columns rs rows := by
  apply C39_aggregations_partial hash rs columns _ hf hfew
  · exact apart_of .avg hd
  · intro a ha
    obtain ⟨c, hc, rfl⟩ := List.mem_map.1 ha
    exact hname c hc
  · intro r hr _ f c hfc
    obtain ⟨c', hc', he⟩ := List.mem_map.1 hfc
    cases he
    exact hfine _ hc' r hr

/-! ## C40: extremes -/

/-- **C40** (partial): the greatest value of every group, for columns of whole numbers without the combination of
zero, negative and no positive values, and for columns of texts. -/
theorem C40_max_partial (hash : Str → Nat) (rs : List Record) (columns wanted : List Str)
    (hf : Faithful hash columns rs) (hfew : FewGroups columns rs) (hd : wanted.Nodup)
    (hname : ∀ c ∈ wanted, Spec.entryName .max c ∉ columns)
    (hfine : ∀ c ∈ wanted, ∀ r ∈ rs, Fine .max (nonNull c (groupOf columns rs r))) :
    ∃ rows, (max hash { source := rs, columns := columns } wanted).2 = .ok rows ∧
      Answers (wanted.map (fun c => (Func.max, c))) columns rs rows := by
  apply C39_aggregations_partial hash rs columns _ hf hfew
  · exact apart_of .max hd
  · intro a ha
    obtain ⟨c, hc, rfl⟩ := List.mem_map.1 ha
    exact hname c hc
  · intro r hr _ f c hfc
    obtain ⟨c', hc', he⟩ := List.mem_map.1 hfc
    cases he
    exact hfine _ hc' r hr

/-- **C40** (partial): the least value of every group, likewise. -/
theorem C40_min_partial (hash : Str → Nat) (rs : List Record) (columns wanted : List Str)
    (hf : Faithful hash columns rs) (hfew : FewGroups columns rs) (hd : wanted.Nodup)
    (hname : ∀ c ∈ wanted, Spec.entryName .min c ∉ columns)
    (hfine : ∀ c ∈ wanted, ∀ r ∈ rs, Fine .min (nonNull c (groupOf columns rs r))) :
    ∃ rows, (min hash { source := rs, columns := columns } wanted).2 = .ok rows ∧
      Answers (wanted.map (fun c => (Func.min, c))) columns rs rows := by
  apply C39_aggregations_partial hash rs columns _ hf hfew
  · exact apart_of .min hd
  · intro a ha
    obtain ⟨c, hc, rfl⟩ := List.mem_map.1 ha
    exact hname c hc
  · intro r hr _ f c hfc
    obtain ⟨c', hc', he⟩ := List.mem_map.1 hfc
    cases he
    exact hfine _ hc' r hr

/-! ## C41: groups -/

/-- Two values of the same kind. -/
def sameKind : Value → Value → Bool
  | .none, .none => true
  | .bool _, .bool _ => true
  | .int _, .int _ => true
  | .str _, .str _ => true
  | _, _ => false

theorem intStr_inj {a b : Int} (h : intStr a = intStr b) : a = b := by
  have hdash : ∀ n : Nat, '-' ∉ natStr n := by
    intro n hm
    obtain ⟨k, hk, he⟩ := natStr_mem hm
    exact (digitChar_plain k hk).1 he.symm
  cases a with
  | ofNat m =>
    cases b with
    | ofNat n => simp only [intStr] at h; rw [natStr_inj h]
    | negSucc n =>
      simp only [intStr] at h
      exact absurd (by rw [h]; exact List.mem_cons_self) (hdash m)
  | negSucc m =>
    cases b with
    | ofNat n =>
      simp only [intStr] at h
      exact absurd (by rw [← h]; exact List.mem_cons_self) (hdash n)
    | negSucc n =>
      simp only [intStr] at h
      have := natStr_inj (List.cons.inj h).2
      congr 1
      omega

theorem toStr_inj {a b : Value} (hk : sameKind a b = true) (h : Value.toStr a = Value.toStr b) : a = b := by
  cases a <;> cases b <;> simp only [sameKind, Bool.false_eq_true] at hk
  · rfl
  · rename_i x y
    cases x <;> cases y <;> first | rfl | (exfalso; revert h; decide)
  · rw [intStr_inj h]
  · simp only [Value.toStr] at h
    rw [h]

/-- **C41** (partial): records fall in the same group exactly when they agree on every grouping column, if every
record has every grouping column, the values of a column are of one kind and, with several columns, their texts
of one length in all columns but the last, and no two texts have the same hash. Missing for the full property:
columns whose texts can run together (see the `_fails` theorems). -/
theorem C41_same_group_partial (hash : Str → Nat) (first : List Str) (last : Str) (rs : List Record)
    (hhash : ∀ r ∈ rs, ∀ s ∈ rs, hash (texts (first ++ [last]) r) = hash (texts (first ++ [last]) s) →
      texts (first ++ [last]) r = texts (first ++ [last]) s)
    (hhas : ∀ r ∈ rs, ∀ c ∈ first ++ [last], r.lookup c ≠ none)
    (hkind : ∀ c ∈ first ++ [last], ∀ r ∈ rs, ∀ s ∈ rs, sameKind (r.get c) (s.get c) = true)
    (hlen : ∀ c ∈ first, ∀ r ∈ rs, ∀ s ∈ rs, (Value.toStr (r.get c)).length = (Value.toStr (s.get c)).length) :
    Faithful hash (first ++ [last]) rs := by
  have htext : ∀ cols : List Str, (∀ c ∈ cols, c ∈ first ++ [last]) → ∀ r ∈ rs,
      texts cols r = (cols.map (fun c => Value.toStr (r.get c))).flatten := by
    intro cols hcols r hr
    show (cols.map _).flatten = _
    congr 1
    apply List.map_congr_left
    intro c hc
    obtain ⟨v, hv⟩ := Option.ne_none_iff_exists'.1 (hhas r hr c (hcols c hc))
    simp only [Record.get, hv, Option.getD_some]
  intro r hr s hs
  constructor
  · intro h
    replace h := hhash r hr s hs h
    rw [htext _ (fun _ h => h) r hr, htext _ (fun _ h => h) s hs] at h
    unfold agree
    rw [List.all_eq_true]
    have key : ∀ c ∈ first ++ [last], Value.toStr (r.get c) = Value.toStr (s.get c) := by
      clear hhash hhas hkind htext
      induction first with
      | nil =>
        intro c hc
        simp only [List.nil_append, List.mem_singleton] at hc
        subst hc
        simpa using h
      | cons d first ih =>
        simp only [List.cons_append, List.map_cons, List.flatten_cons] at h
        obtain ⟨h1, h2⟩ := List.append_inj h (hlen d (by simp) r hr s hs)
        intro c hc
        rcases List.mem_cons.1 hc with rfl | hc
        · exact h1
        · exact ih (fun c hc => hlen c (by simp [hc])) h2 c hc
    intro c hc
    simp only [beq_iff_eq]
    exact toStr_inj (hkind c hc r hr s hs) (key c hc)
  · intro h
    rw [htext _ (fun _ h => h) r hr, htext _ (fun _ h => h) s hs]
    congr 2
    apply List.map_congr_left
    intro c hc
    unfold agree at h
    rw [List.all_eq_true] at h
    have := h c hc
    simp only [beq_iff_eq] at this
    rw [this]

/-- **C41**: the groups listed are those of the records, each once. -/
theorem C41_groups (hash : Str → Nat) (rs : List Record) (columns : List Str)
    (hf : Faithful hash columns rs) (hfew : FewGroups columns rs) :
    ∃ gs, (groups hash { source := rs, columns := columns }).2 = .ok gs ∧
      (∀ g ∈ gs, ∃ r ∈ rs, ∀ c ∈ columns, dget g c = some (r.get c)) ∧
      ∀ r ∈ rs, (gs.filter (fun g => columns.all (fun c => dget g c == some (r.get c)))).length = 1 := by
  have hmap := mapGo_ok hash columns ["*".toList] rs [] (by
    rw [List.filter_eq_self.2 (by simp)]; simpa using firsts_few hf hfew)
  rw [List.filter_eq_self.2 (by simp), List.nil_append] at hmap
  unfold groups
  simp only [hmap]
  refine ⟨_, rfl, ?_, ?_⟩
  · intro g hg
    obtain ⟨e, he, rfl⟩ := List.mem_map.1 hg
    obtain ⟨r, hr, rfl⟩ := List.mem_map.1 he
    refine ⟨r, mem_firsts hr, ?_⟩
    intro c hc
    apply dget_foldl_some (fun kv : Str × Value => kv.1)
    · exact ⟨_, List.mem_map.2 ⟨c, hc, rfl⟩, rfl⟩
    · rintro kv hkv rfl
      obtain ⟨c', _, rfl⟩ := List.mem_map.1 hkv
      rfl
  · intro r hr
    rw [List.map_map, List.filter_map, List.length_map]
    obtain ⟨rep, hrep, hk⟩ := firsts_key (keyOf hash columns) rs r hr
    apply filter_length_one _ _ rep hrep (List.Nodup.of_map _ (firsts_nodup (keyOf hash columns) rs))
    intro b hb
    have hget : ∀ c ∈ columns, dget ((entry hash columns b).2.foldl (fun d kv => dput d kv.1 kv.2) []) c = some (b.get c) := by
      intro c hc
      apply dget_foldl_some (fun kv : Str × Value => kv.1)
      · exact ⟨_, List.mem_map.2 ⟨c, hc, rfl⟩, rfl⟩
      · rintro kv hkv rfl
        obtain ⟨c', _, rfl⟩ := List.mem_map.1 hkv
        rfl
    have hiff : ((fun g : Record => columns.all (fun c => dget g c == some (r.get c))) ∘
        (fun g : Nat × List (Str × Value) => g.2.foldl (fun d kv => dput d kv.1 kv.2) []) ∘ entry hash columns) b = true
        ↔ agree columns r b = true := by
      simp only [Function.comp]
      unfold agree
      rw [List.all_eq_true, List.all_eq_true]
      constructor <;> intro g c hc
      · have := g c hc
        rw [hget c hc] at this
        simp only [beq_iff_eq, Option.some.injEq] at this ⊢
        exact this.symm
      · have := g c hc
        rw [hget c hc]
        simp only [beq_iff_eq, Option.some.injEq] at this ⊢
        exact this.symm
    rw [hiff]
    constructor
    · intro hrb
      have hkb := (hf r hr b (mem_firsts hb)).2 hrb
      exact List.inj_on_of_nodup_map (firsts_nodup (keyOf hash columns) rs) hb hrep
        ((show keyOf hash columns r = keyOf hash columns b from hkb).symm.trans hk.symm)
    · rintro rfl
      exact (hf r hr b (mem_firsts hb)).1 hk.symm

/-! ## C73: asking twice -/

/-- **C73** (fails): a grouping can be asked only once: after any question every aggregation answers that there are no
groups at all. -/
theorem C73_second_question_fails (hash : Str → Nat) (o : Obj) (aggs again : List (Func × Str)) :
    (aggregate hash (aggregate hash o aggs).1 again).2 = .ok [] := by
  have hsrc : (aggregate hash o aggs).1.source = [] := by
    unfold aggregate
    simp only []
    split <;> rfl
  generalize (aggregate hash o aggs).1 = o' at hsrc
  unfold aggregate
  rw [hsrc]
  rfl

/-! ## Where the code answers wrongly -/

section
variable (hash : Str → Nat)

/-- A record with a group and a value. -/
def gv (g : Str) (v : Value) : Record := [("g".toList, .str g), ("v".toList, v)]

/-- **C40** (fails): the greatest of 0 and -1 is answered as -1, in either order. -/
theorem C40_max_zero_fails :
    (max hash { source := [gv "a".toList (.int 0), gv "a".toList (.int (-1))], columns := ["g".toList] } ["v".toList]).2
      = .ok [[("MAX(v)".toList, .val (.int (-1))), ("g".toList, .val (.str "a".toList))]] ∧
    (max hash { source := [gv "a".toList (.int (-1)), gv "a".toList (.int 0)], columns := ["g".toList] } ["v".toList]).2
      = .ok [[("MAX(v)".toList, .val (.int (-1))), ("g".toList, .val (.str "a".toList))]] := by
  have h : groupText ["g".toList] (gv "a".toList (.int 0)) = "a".toList ∧
      groupText ["g".toList] (gv "a".toList (.int (-1))) = "a".toList := by decide
  constructor <;>
  · simp only [max, aggregate, mapGo, h]
    generalize hash "a".toList = g
    simp [dget, dput, groupLimit, emit, collected, gv, Record.get, Record.lookup, extend, dedup, update, accumulate,
      truthy, aggregator, round28, less, num, sorted, insertBy, row, aggKey, Func.name, bind, Except.bind, pure, Except.pure]

/-- **C40** (fails): the least of 0 and 1 is answered as 1. -/
theorem C40_min_zero_fails :
    (min hash { source := [gv "a".toList (.int 0), gv "a".toList (.int 1)], columns := ["g".toList] } ["v".toList]).2
      = .ok [[("MIN(v)".toList, .val (.int 1)), ("g".toList, .val (.str "a".toList))]] := by
  have h : groupText ["g".toList] (gv "a".toList (.int 0)) = "a".toList ∧
      groupText ["g".toList] (gv "a".toList (.int 1)) = "a".toList := by decide
  simp only [min, aggregate, mapGo, h]
  generalize hash "a".toList = g
  simp [dget, dput, groupLimit, emit, collected, gv, Record.get, Record.lookup, extend, dedup, update, accumulate,
      truthy, aggregator, round28, less, num, sorted, insertBy, row, aggKey, Func.name, bind, Except.bind, pure, Except.pure]

/-- **C73** (fails): asking the same of the same records gives another answer if the list of questions is the same list:
`aggregate` adds to it.  The average of 2 and 3 is answered alone the first time; the second time a sum of 10 and a
count of 4, neither of them asked for and neither of them right, come with it. -/
theorem C73_same_list_fails :
    let o : Obj := { source := [gv "a".toList (.int 2), gv "a".toList (.int 3)], columns := ["g".toList] }
    (aggregate hash o [(.avg, "v".toList)]).2 =
      .ok [[("AVG(v)".toList, .ratio 5 2), ("g".toList, .val (.str "a".toList))]] ∧
    (aggregate hash o (callersList [(.avg, "v".toList)])).2 =
      .ok [[("AVG(v)".toList, .ratio 10 4), ("SUM(v)".toList, .val (.int 10)), ("COUNT(v)".toList, .val (.int 4)),
        ("g".toList, .val (.str "a".toList))]] := by
  have h : groupText ["g".toList] (gv "a".toList (.int 2)) = "a".toList ∧
      groupText ["g".toList] (gv "a".toList (.int 3)) = "a".toList := by decide
  constructor <;>
  · simp only [callersList, aggregate, mapGo, h]
    generalize hash "a".toList = g
    simp [dget, dput, groupLimit, emit, collected, gv, Record.get, Record.lookup, extend, dedup, update, accumulate,
      truthy, aggregator, round28, less, num, sorted, insertBy, row, average, aggKey, Func.name, bind, Except.bind, pure, Except.pure]

/-- **C39** (fails): next to an average of the same column, a sum counts every value twice, and the
average is wrong with it: of 2 and 3 the sum is answered as 10 and the average as 10/2. -/
theorem C39_sum_with_average_fails :
    (aggregate hash { source := [gv "a".toList (.int 2), gv "a".toList (.int 3)], columns := ["g".toList] }
        [(.sum, "v".toList), (.avg, "v".toList)]).2
      = .ok [[("SUM(v)".toList, .val (.int 10)), ("AVG(v)".toList, .ratio 10 2), ("g".toList, .val (.str "a".toList))]] := by
  have h : groupText ["g".toList] (gv "a".toList (.int 2)) = "a".toList ∧
      groupText ["g".toList] (gv "a".toList (.int 3)) = "a".toList := by decide
  simp only [aggregate, mapGo, h]
  generalize hash "a".toList = g
  simp [dget, dput, groupLimit, emit, collected, gv, Record.get, Record.lookup, extend, dedup, update, accumulate,
      truthy, aggregator, round28, less, num, sorted, insertBy, row, aggKey, Func.name, bind, Except.bind, pure, Except.pure, average]

/-- **C39** (fails): likewise a count next to an average: two values are counted as four. -/
theorem C39_count_with_average_fails :
    (aggregate hash { source := [gv "a".toList (.int 2), gv "a".toList (.int 3)], columns := ["g".toList] }
        [(.count, "v".toList), (.avg, "v".toList)]).2
      = .ok [[("COUNT(v)".toList, .val (.int 4)), ("AVG(v)".toList, .ratio 5 4), ("g".toList, .val (.str "a".toList))]] := by
  have h : groupText ["g".toList] (gv "a".toList (.int 2)) = "a".toList ∧
      groupText ["g".toList] (gv "a".toList (.int 3)) = "a".toList := by decide
  simp only [aggregate, mapGo, h]
  generalize hash "a".toList = g
  simp [dget, dput, groupLimit, emit, collected, gv, Record.get, Record.lookup, extend, dedup, update, accumulate,
      truthy, aggregator, round28, num, sorted, insertBy, row, aggKey, Func.name, bind, Except.bind, pure, Except.pure, average]

/-- **C39** (fails): an average of a column that is null in all records of a group raises KeyError, and with it
all other results are lost, if the group has something else to aggregate. -/
theorem C39_average_of_nulls_fails :
    (aggregate hash { source := [gv "a".toList .none], columns := ["g".toList] }
        [(.avg, "v".toList), (.count, "g".toList)]).2 = .error .keyError := by
  have h : groupText ["g".toList] (gv "a".toList .none) = "a".toList := by decide
  simp only [aggregate, mapGo, h]
  generalize hash "a".toList = g
  simp [dget, dput, groupLimit, emit, collected, gv, Record.get, Record.lookup, extend, dedup, update, accumulate,
      sorted, insertBy, row, aggKey, Func.name, bind, Except.bind, pure, Except.pure, average]

theorem natStrAux_length : ∀ (fuel n : Nat), n < fuel →
    n < 10 ^ (natStrAux fuel n).length ∧ (n ≠ 0 → 10 ^ ((natStrAux fuel n).length - 1) ≤ n) := by
  intro fuel
  induction fuel with
  | zero => intro n h; omega
  | succ fuel ih =>
    intro n h
    rw [natStrAux]
    split
    · simp; omega
    · obtain ⟨h1, h2⟩ := ih (n / 10) (by omega)
      have h2 := h2 (by omega)
      generalize hl : (natStrAux fuel (n / 10)).length = L at h1 h2
      have hL : L ≠ 0 := by
        rintro rfl
        simp at h1
        omega
      rw [List.length_append, hl, List.length_singleton]
      obtain ⟨M, rfl⟩ : ∃ M, L = M + 1 := ⟨L - 1, by omega⟩
      simp only [Nat.add_sub_cancel] at h2 ⊢
      constructor
      · rw [Nat.pow_succ]; omega
      · intro _
        rw [Nat.pow_succ]; omega

/-- The digits of a number. -/
theorem natStr_length {n e : Nat} (h1 : 10 ^ (28 + e) ≤ n) (h2 : n < 10 ^ (29 + e)) : (natStr n).length = 29 + e := by
  obtain ⟨a, b⟩ := natStrAux_length (n + 1) n (by omega)
  have hn : n ≠ 0 := by
    have := Nat.pow_pos (a := 10) (n := 28 + e) (by omega)
    omega
  have b := b hn
  have c1 := (Nat.pow_lt_pow_iff_right (a := 10) (by omega)).1 (Nat.lt_of_le_of_lt h1 a)
  have c2 := (Nat.pow_lt_pow_iff_right (a := 10) (by omega)).1 (Nat.lt_of_le_of_lt b h2)
  unfold natStr
  omega

theorem round28_rounded (n : Int) : Rounded n (round28 n) := by
  constructor
  · exact round28_small
  · intro e h1 h2
    have hbig : ¬ n.natAbs < 10 ^ 28 := by
      have : 10 ^ 28 ≤ 10 ^ (28 + e) := Nat.pow_le_pow_right (by omega) (by omega)
      omega
    have hlen : (natStr n.natAbs).length - 28 = e + 1 := by
      rw [natStr_length h1 h2]; omega
    unfold round28
    rw [if_neg hbig, hlen]
    have hu : 0 < 10 ^ (e + 1) := Nat.pow_pos (by omega)
    have hcast : ((10 ^ (e + 1) : Nat) : Int) = 10 ^ (e + 1) := by norm_cast
    generalize 10 ^ (e + 1) = u at hu hcast ⊢
    rw [← hcast]
    simp only
    obtain ⟨m, hm⟩ : ∃ m, m = n.natAbs := ⟨_, rfl⟩
    rw [← hm]
    have hdiv := Nat.div_add_mod m u
    have hmod := Nat.mod_lt m hu
    obtain ⟨q, hq⟩ : ∃ q, q = m / u := ⟨_, rfl⟩
    obtain ⟨r, hr⟩ : ∃ r, r = m % u := ⟨_, rfl⟩
    rw [← hq, ← hr] at hdiv ⊢
    rw [← hr] at hmod
    by_cases hc : u < 2 * r ∨ (2 * r = u ∧ q % 2 = 1)
    · rw [if_pos hc]
      have e1 : (((q + 1) * u : Nat) : Int) - m = ((u - r : Nat) : Int) := by
        rw [Nat.add_mul, Nat.one_mul, Nat.mul_comm q u]
        omega
      by_cases hneg : n < 0
      · rw [if_pos hneg]
        refine ⟨-((q + 1 : Nat) : Int), by push_cast; ring, ?_, ?_⟩
        · omega
        · intro h; omega
      · rw [if_neg hneg]
        refine ⟨((q + 1 : Nat) : Int), by push_cast; ring, ?_, ?_⟩
        · omega
        · intro h; omega
    · rw [if_neg hc]
      have e1 : (m : Int) - ((q * u : Nat) : Int) = (r : Int) := by
        rw [Nat.mul_comm q u]
        omega
      by_cases hneg : n < 0
      · rw [if_pos hneg]
        refine ⟨-(q : Int), by push_cast; ring, ?_, ?_⟩
        · omega
        · intro h; omega
      · rw [if_neg hneg]
        refine ⟨(q : Int), by push_cast; ring, ?_, ?_⟩
        · omega
        · intro h; omega

/-- **C39** (great numbers): the sum of two numbers other than zero is answered with 28 digits. -/
theorem C39_rounded (a b : Int) (ha : a ≠ 0) (hb : b ≠ 0) :
    ∃ c, Rounded (a + b) c ∧
      (aggregate hash { source := [gv "a".toList (.int a), gv "a".toList (.int b)], columns := ["g".toList] } [(.sum, "v".toList)]).2
        = .ok [[("SUM(v)".toList, .val (.int c)), ("g".toList, .val (.str "a".toList))]] := by
  refine ⟨round28 (a + b), round28_rounded _, ?_⟩
  have h : ∀ v, groupText ["g".toList] (gv "a".toList (.int v)) = "a".toList := by
    intro v
    simp [groupText, gv, Record.get, Record.lookup]
    decide
  simp only [aggregate, mapGo, h]
  generalize hash "a".toList = g
  simp [dget, dput, groupLimit, emit, collected, gv, Record.get, Record.lookup, extend, dedup, update, accumulate,
      truthy, aggregator, num, sorted, insertBy, row, aggKey, Func.name, bind, Except.bind, pure, Except.pure, ha, hb]

/-- A half is rounded to the even digit, whichever way that is. -/
example : Rounded (10 ^ 28 + 5) (10 ^ 28) ∧ Rounded (10 ^ 28 + 15) (10 ^ 28 + 20) ∧ Rounded (-(10 ^ 28 + 25)) (-(10 ^ 28 + 20)) := by
  have h1 : round28 (10 ^ 28 + 5) = 10 ^ 28 := by decide +kernel
  have h2 : round28 (10 ^ 28 + 15) = 10 ^ 28 + 20 := by decide +kernel
  have h3 : round28 (-(10 ^ 28 + 25)) = -(10 ^ 28 + 20) := by decide +kernel
  exact ⟨h1 ▸ round28_rounded _, h2 ▸ round28_rounded _, h3 ▸ round28_rounded _⟩

/-- **C39** (fails): a sum with more than 28 digits is rounded: 10000000000000000000000000000 and 1 are
10000000000000000000000000000. -/
theorem C39_great_sum_fails :
    (aggregate hash { source := [gv "a".toList (.int (10 ^ 28)), gv "a".toList (.int 1)], columns := ["g".toList] }
        [(.sum, "v".toList)]).2
      = .ok [[("SUM(v)".toList, .val (.int (10 ^ 28))), ("g".toList, .val (.str "a".toList))]] := by
  have h : groupText ["g".toList] (gv "a".toList (.int (10 ^ 28))) = "a".toList ∧
      groupText ["g".toList] (gv "a".toList (.int 1)) = "a".toList := by decide
  have hr : round28 10000000000000000000000000001 = 10000000000000000000000000000 := by decide +kernel
  simp only [aggregate, mapGo, h]
  generalize hash "a".toList = g
  simp [dget, dput, groupLimit, emit, collected, gv, Record.get, Record.lookup, extend, dedup, update, accumulate,
      truthy, aggregator, num, sorted, insertBy, row, aggKey, Func.name, bind, Except.bind, pure, Except.pure, hr]

/-- **C41** (fails): records with different values in both grouping columns fall in one group: the texts are run
together. -/
theorem C41_run_together_fails :
    (count hash { source := [[("a".toList, .str "ab".toList), ("b".toList, .str "c".toList)],
        [("a".toList, .str "a".toList), ("b".toList, .str "bc".toList)]], columns := ["a".toList, "b".toList] }).2
      = .ok [[("COUNT(*)".toList, .val (.int 2)), ("a".toList, .val (.str "ab".toList)), ("b".toList, .val (.str "c".toList))]] := by
  have h : groupText ["a".toList, "b".toList] [("a".toList, .str "ab".toList), ("b".toList, .str "c".toList)] = "abc".toList ∧
      groupText ["a".toList, "b".toList] [("a".toList, .str "a".toList), ("b".toList, .str "bc".toList)] = "abc".toList := by decide
  simp only [count, aggregate, mapGo, h]
  generalize hash "abc".toList = g
  simp [dget, dput, groupLimit, emit, collected, Record.get, Record.lookup, extend, dedup, update, accumulate,
      truthy, aggregator, round28, num, sorted, insertBy, row, aggKey, Func.name, bind, Except.bind, pure, Except.pure]

/-- **C41** (fails): a null and the text `None` fall in one group; so do the number 1 and the text `1`, and a missing
column and the empty text. -/
theorem C41_kinds_fails :
    texts ["a".toList] [("a".toList, .none)] = texts ["a".toList] [("a".toList, .str "None".toList)] ∧
    texts ["a".toList] [("a".toList, .int 1)] = texts ["a".toList] [("a".toList, .str "1".toList)] ∧
    texts ["a".toList] [] = texts ["a".toList] [("a".toList, .str [])] ∧
    (count hash { source := [[("a".toList, .none)], [("a".toList, .str "None".toList)]], columns := ["a".toList] }).2
      = .ok [[("COUNT(*)".toList, .val (.int 2)), ("a".toList, .val .none)]] := by
  refine ⟨by decide, by decide, by decide, ?_⟩
  have h : groupText ["a".toList] [("a".toList, .none)] = "None".toList ∧
      groupText ["a".toList] [("a".toList, .str "None".toList)] = "None".toList := by decide
  simp only [count, aggregate, mapGo, h]
  generalize hash "None".toList = g
  simp [dget, dput, groupLimit, emit, collected, Record.get, Record.lookup, extend, dedup, update, accumulate,
      truthy, aggregator, round28, num, sorted, insertBy, row, aggKey, Func.name, bind, Except.bind, pure, Except.pure]

end

/-! ## Non-vacuity -/

/-- A hash without collisions on these texts. -/
def exHash (s : Str) : Nat := s.foldl (fun a c => a * 256 + c.toNat) 0

/-- Three records in two groups. -/
def exRecords : List Record := [gv "x".toList (.int 3), gv "y".toList .none, gv "x".toList (.int 4)]

theorem exFaithful : Faithful exHash ["g".toList] exRecords := by
  apply C41_same_group_partial exHash [] "g".toList exRecords
  · decide
  · decide
  · decide
  · decide

/-- Fewer records than the limit have fewer groups. -/
theorem fewGroups_of_length {columns : List Str} {rs : List Record} (h : rs.length < 4999999) : FewGroups columns rs := by
  intro l hl hp
  have hn : l.Nodup := by
    rw [List.nodup_iff_pairwise_ne]
    refine hp.imp ?_
    rintro a b hab rfl
    rw [agree_refl] at hab
    cases hab
  exact Nat.lt_of_le_of_lt (List.subperm_of_subset hn hl).length_le h

example : ∃ rows, (count exHash { source := exRecords, columns := ["g".toList] }).2 = .ok rows ∧
    (rows.map shownCount).sum = 3 := by
  obtain ⟨rows, h1, _, _, h2⟩ := C38_counts exHash exRecords ["g".toList] exFaithful
    (fewGroups_of_length (by decide)) (by decide)
  exact ⟨rows, h1, h2⟩

/-- Sums, averages and counts together, on different columns. -/
example : ∃ rows, (aggregate exHash { source := [gv "x".toList (.int 3), gv "x".toList (.int 4)], columns := ["g".toList] }
      [(.avg, "v".toList), (.max, "v".toList), (.count, "*".toList)]).2 = .ok rows ∧
    Answers [(.avg, "v".toList), (.max, "v".toList), (.count, "*".toList)] ["g".toList]
      [gv "x".toList (.int 3), gv "x".toList (.int 4)] rows := by
  apply C39_aggregations_partial
  · exact C41_same_group_partial exHash [] "g".toList _ (by decide) (by decide) (by decide) (by decide)
  · exact fewGroups_of_length (by decide)
  · decide
  · decide
  · intro r hr _ f c hfc
    simp only [List.mem_cons, Prod.mk.injEq, List.not_mem_nil, or_false] at hfc hr
    have hg : groupOf ["g".toList] [gv "x".toList (.int 3), gv "x".toList (.int 4)] r
        = [gv "x".toList (.int 3), gv "x".toList (.int 4)] := by
      rcases hr with rfl | rfl <;> decide
    rw [hg]
    rcases hfc with ⟨rfl, rfl⟩ | ⟨rfl, rfl⟩ | ⟨rfl, rfl⟩
    · exact ⟨[3, 4], by decide, by decide, by decide⟩
    · exact Or.inl ⟨[3, 4], by decide, by decide⟩
    · trivial

example : ∃ rows, (mean exHash { source := [gv "x".toList (.int 3), gv "x".toList (.int 4)], columns := ["g".toList] }
      ["v".toList]).2 = .ok rows ∧ Answers [(.avg, "v".toList)] ["g".toList] [gv "x".toList (.int 3), gv "x".toList (.int 4)] rows := by
  apply C39_average_partial
  · exact C41_same_group_partial exHash [] "g".toList _ (by decide) (by decide) (by decide) (by decide)
  · exact fewGroups_of_length (by decide)
  · decide
  · decide
  · intro c hc r hr
    simp only [List.mem_cons, List.not_mem_nil, or_false] at hc hr
    have hg : groupOf ["g".toList] [gv "x".toList (.int 3), gv "x".toList (.int 4)] r
        = [gv "x".toList (.int 3), gv "x".toList (.int 4)] := by
      rcases hr with rfl | rfl <;> decide
    rw [hg, hc]
    exact ⟨[3, 4], by decide, by decide, by decide⟩

/-- Greatest and least, including zero and text. -/
example : Fine .max [.int 0, .int (-3), .int 5] ∧ Fine .min [.int 0, .int 3, .int (-5)] ∧
    Fine .max [.str [], .str "b".toList] ∧ ¬ Fine .max [.int 0, .int (-3)] := by
  refine ⟨Or.inl ⟨[0, -3, 5], by decide, by decide⟩, Or.inl ⟨[0, 3, -5], by decide, by decide⟩,
    Or.inr ⟨[[], "b".toList], by decide⟩, ?_⟩
  rintro (⟨ns, h, hz⟩ | ⟨ss, h⟩)
  · cases ns with
    | nil => cases h
    | cons a ns => cases ns with
      | nil => cases h
      | cons b ns => cases ns with
        | cons => cases h
        | nil =>
          simp only [List.map_cons, List.map_nil, List.cons.injEq, number, Option.some.injEq] at h
          obtain ⟨rfl, rfl, _⟩ := h
          revert hz; decide
  · cases ss with
    | nil => cases h
    | cons a ss => cases h

/-- Truth values, also among numbers. -/
example : Fine .sum [.bool true, .bool false, .bool true] ∧ Fine .avg [.bool true, .int 3] ∧
    Fine .max [.bool false, .bool true] ∧ Fine .min [.bool true, .bool true] := by
  refine ⟨⟨[1, 0, 1], by decide, by decide⟩, ⟨[1, 3], by decide, by decide, by decide⟩, Or.inl ⟨[0, 1], by decide, by decide⟩,
    Or.inl ⟨[1, 1], by decide, by decide⟩⟩

/-- Two columns of fixed width. -/
example : Faithful exHash ["a".toList, "b".toList]
    [[("a".toList, .str "UK".toList), ("b".toList, .int 1)], [("a".toList, .str "FR".toList), ("b".toList, .int (-12))]] :=
  C41_same_group_partial exHash ["a".toList] "b".toList _ (by decide) (by decide) (by decide) (by decide)

example : ∃ gs, (groups exHash { source := exRecords, columns := ["g".toList] }).2 = .ok gs ∧
    ∀ r ∈ exRecords, (gs.filter (fun g => ["g".toList].all (fun c => dget g c == some (r.get c)))).length = 1 := by
  obtain ⟨gs, h1, _, h2⟩ := C41_groups exHash exRecords ["g".toList] exFaithful (fewGroups_of_length (by decide))
  exact ⟨gs, h1, h2⟩

example : (aggregate exHash { source := exRecords, columns := ["g".toList] } [(.sum, "v".toList)]).2
    = .ok [[("SUM(v)".toList, .val (.int 7)), ("g".toList, .val (.str "x".toList))]] := by rfl

end Mabel.GroupBy
